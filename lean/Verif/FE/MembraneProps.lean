import Verif.FE.ElementProps
import Mathlib.Tactic.Module

/-!
The membrane strains keep the contract of a strain measure, and the linear law the contract of a material.
-/

namespace Ikarus.Element

open Matrix Spec

variable {n d q : Nat}

namespace Membrane

theorem gradu_line (dN : Fin n → Fin 2 → ℝ) (u v : NodeVec n 3) (t : ℝ) (a : Fin 2) :
    gradu dN (u + t • v) a = gradu dN u a + t • gradu dN v a := by
  simp only [gradu, Pi.add_apply, Pi.smul_apply, smul_add, Finset.sum_add_distrib, Finset.smul_sum]
  congr 1
  refine Finset.sum_congr rfl fun I _ => smul_comm _ _ _

theorem jcur_line (J : Fin 2 → Fin 3 → ℝ) (dN : Fin n → Fin 2 → ℝ) (u v : NodeVec n 3) (t : ℝ) (a : Fin 2) :
    jcur J dN (u + t • v) a = jcur J dN u a + t • gradu dN v a := by
  rw [jcur, gradu_line, jcur, add_assoc]

theorem sum_derivative (J : Fin 2 → Fin 3 → ℝ) (dN : Fin n → Fin 2 → ℝ) (u v : NodeVec n 3) (k : Fin 3) :
    ∑ I, ∑ a, derivative J dN u I k a * v I a =
      (![jcur J dN u 0 ⬝ᵥ gradu dN v 0, jcur J dN u 1 ⬝ᵥ gradu dN v 1,
        jcur J dN u 0 ⬝ᵥ gradu dN v 1 + jcur J dN u 1 ⬝ᵥ gradu dN v 0] : Fin 3 → ℝ) k := by
  have e : ∀ (x : Fin 3 → ℝ) (c : Fin 2), x ⬝ᵥ gradu dN v c = ∑ I, ∑ a, dN I c * x a * v I a := by
    intro x c
    rw [gradu, dotProduct_sum]
    refine Finset.sum_congr rfl fun I _ => ?_
    rw [dotProduct]
    refine Finset.sum_congr rfl fun a _ => ?_
    simp only [Pi.smul_apply, smul_eq_mul]
    ring
  fin_cases k
  · simp [derivative, e]
  · simp [derivative, e]
  · simp only [derivative, e, ← Finset.sum_add_distrib]
    simp [add_mul]

/-- C68. The membrane strain keeps the contract of a strain measure: `derivative` is its derivative with respect to the
nodes, `secondDerivative` the derivative of that along a fixed stress, for every geometry, every shape functions and
every displacement. -/
theorem membrane_contract (detJ weight : ℝ) (J : Fin 2 → Fin 3 → ℝ) (dN : Fin n → Fin 2 → ℝ)
    (u : NodeVec n 3) : StrainContract (point detJ weight J dN) u where
  strain := by
    intro v
    rw [hasDerivAt_pi]
    intro k
    show HasDerivAt (fun t : ℝ => value J dN (u + t • v) k) (∑ I, ∑ a, derivative J dN u I k a * v I a) 0
    rw [sum_derivative]
    fin_cases k
    · refine hasDerivAt_quadratic (a := value J dN u 0) (c := 0.5 * (gradu dN v 0 ⬝ᵥ gradu dN v 0)) fun t => ?_
      simp only [value, gradu_line, jcur, dotProduct_add, add_dotProduct, dotProduct_smul, smul_dotProduct, smul_eq_mul,
        dotProduct_comm (gradu dN v 0) (gradu dN u 0), Matrix.cons_val_zero, Fin.zero_eta]
      ring
    · refine hasDerivAt_quadratic (a := value J dN u 1) (c := 0.5 * (gradu dN v 1 ⬝ᵥ gradu dN v 1)) fun t => ?_
      simp only [value, gradu_line, jcur, dotProduct_add, add_dotProduct, dotProduct_smul, smul_dotProduct, smul_eq_mul,
        dotProduct_comm (gradu dN v 1) (gradu dN u 1), Matrix.cons_val_one, Matrix.cons_val_zero, Fin.mk_one]
      ring
    · refine hasDerivAt_quadratic (a := value J dN u 2) (c := gradu dN v 0 ⬝ᵥ gradu dN v 1) fun t => ?_
      simp only [value, jcur_line]
      show (jcur J dN u 0 + t • gradu dN v 0) ⬝ᵥ (jcur J dN u 1 + t • gradu dN v 1) - J 0 ⬝ᵥ J 1 =
        jcur J dN u 0 ⬝ᵥ jcur J dN u 1 - J 0 ⬝ᵥ J 1 +
          t * (jcur J dN u 0 ⬝ᵥ gradu dN v 1 + jcur J dN u 1 ⬝ᵥ gradu dN v 0) + t ^ 2 * (gradu dN v 0 ⬝ᵥ gradu dN v 1)
      simp only [dotProduct_add, add_dotProduct, dotProduct_smul, smul_dotProduct, smul_eq_mul,
        dotProduct_comm (gradu dN v 0) (jcur J dN u 1)]
      ring
  bop := by
    intro v S I a
    have hd : ∀ c : Fin 2, gradu dN v c a = ∑ K, dN K c * v K a := by
      intro c
      simp [gradu, Finset.sum_apply]
    have hk : ∑ K, ∑ b, secondDerivative dN S I K a b * v K b =
        dN I 0 * gradu dN v 0 a * S 0 + dN I 1 * gradu dN v 1 a * S 1 +
          (dN I 1 * gradu dN v 0 a + dN I 0 * gradu dN v 1 a) * S 2 := by
      rw [hd, hd]
      have : ∀ K, ∑ b, secondDerivative dN S I K a b * v K b =
          (dN I 0 * dN K 0 * S 0 + dN I 1 * dN K 1 * S 1 + (dN I 0 * dN K 1 + dN I 1 * dN K 0) * S 2) * v K a := by
        intro K
        simp [secondDerivative, Matrix.smul_apply, Matrix.one_apply]
      simp only [this, Finset.mul_sum, Finset.sum_mul, ← Finset.sum_add_distrib]
      refine Finset.sum_congr rfl fun K _ => ?_
      ring
    show HasDerivAt (fun t : ℝ => ∑ k, derivative J dN (u + t • v) I k a * S k)
      (∑ K, ∑ b, secondDerivative dN S I K a b * v K b) 0
    rw [hk]
    refine hasDerivAt_quadratic (a := ∑ k, derivative J dN u I k a * S k) (c := 0) fun t => ?_
    simp only [Fin.sum_univ_three, derivative, jcur_line]
    simp [Matrix.of_apply]
    ring
  symm := by
    intro S I J a b
    show secondDerivative dN S I J a b = secondDerivative dN S J I b a
    simp only [secondDerivative, Matrix.smul_apply, Matrix.one_apply, smul_eq_mul, eq_comm (a := a)]
    ring

/-- C68, value. The membrane strain is half the change of the metric: with `x = X + u` the current tangent vectors,
`2 E = (a11 - A11, a22 - A22, 2 (a12 - A12))`; it vanishes when the metric does not change. -/
theorem membrane_metric (J : Fin 2 → Fin 3 → ℝ) (dN : Fin n → Fin 2 → ℝ) (u : NodeVec n 3) :
    value J dN u = ![
      ((∑ c, (J 0 c + ∑ I, dN I 0 * u I c) ^ 2) - ∑ c, J 0 c ^ 2) / 2,
      ((∑ c, (J 1 c + ∑ I, dN I 1 * u I c) ^ 2) - ∑ c, J 1 c ^ 2) / 2,
      (∑ c, (J 0 c + ∑ I, dN I 0 * u I c) * (J 1 c + ∑ I, dN I 1 * u I c)) - ∑ c, J 0 c * J 1 c] := by
  have hd : ∀ (k : Fin 2) (c : Fin 3), gradu dN u k c = ∑ I, dN I k * u I c := by
    intro k c
    simp [gradu, Finset.sum_apply]
  funext k
  fin_cases k
  · simp only [value, dotProduct, ← hd, Fin.sum_univ_three, Fin.zero_eta, Matrix.cons_val_zero]
    ring
  · simp only [value, dotProduct, ← hd, Fin.sum_univ_three, Fin.mk_one, Matrix.cons_val_one, Matrix.cons_val_zero]
    ring
  · simp only [value, dotProduct, ← hd, jcur, Pi.add_apply]
    rfl

/-- C68, rotation. A rigid motion of the current configuration causes no membrane strain: the displacement that makes
the current tangent vectors `R` times the reference ones, for orthogonal `R`. -/
theorem membrane_rigid (J : Fin 2 → Fin 3 → ℝ) (dN : Fin n → Fin 2 → ℝ) (u : NodeVec n 3)
    (R : Matrix (Fin 3) (Fin 3) ℝ) (hR : Rᵀ * R = 1)
    (hu : ∀ k c, J k c + ∑ I, dN I k * u I c = ∑ e, R c e * J k e) : value J dN u = 0 := by
  have key : ∀ k l : Fin 2, ∑ c, (∑ e, R c e * J k e) * (∑ e, R c e * J l e) = ∑ c, J k c * J l c := by
    intro k l
    have : (R *ᵥ J k) ⬝ᵥ (R *ᵥ J l) = J k ⬝ᵥ J l := by
      rw [Matrix.dotProduct_mulVec, ← Matrix.mulVec_transpose, Matrix.mulVec_mulVec, hR, Matrix.one_mulVec]
    exact this
  rw [membrane_metric]
  have k0 := key 0 0
  have k1 := key 1 1
  have k2 := key 0 1
  simp only [hu, pow_two, k0, k1, k2]
  funext k
  fin_cases k <;> simp

end Membrane

/-- The law of the linear material, the one of `StVenantKirchhoff` and of the shell. -/
noncomputable def linearLaw (C : Matrix (Fin q) (Fin q) ℝ) : Law q where
  energy := fun e => 0.5 * (e ⬝ᵥ (C *ᵥ e))
  stress := fun e => C *ᵥ e
  tangent := fun _ => C

/-- C67, the linear law keeps the contract of a material at every strain. -/
theorem linearLaw_contract (C : Matrix (Fin q) (Fin q) ℝ) (hC : C.IsSymm) : LawContract (linearLaw C) Set.univ where
  stress := by
    intro e de t _ h
    rw [hasDerivAt_pi] at h
    have hC' : ∀ k l, C k l = C l k := fun k l => (hC.apply k l).symm
    have h1 : HasDerivAt (fun s => 0.5 * ∑ k, e s k * ∑ l, C k l * e s l)
        (0.5 * ∑ k, (de k * (∑ l, C k l * e t l) + e t k * ∑ l, C k l * de l)) t :=
      (HasDerivAt.fun_sum fun k _ => (h k).mul (HasDerivAt.fun_sum fun l _ => (h l).const_mul (C k l))).const_mul _
    refine h1.congr_deriv ?_
    have e1 : ∑ k, e t k * ∑ l, C k l * de l = ∑ k, de k * ∑ l, C k l * e t l := by
      simp only [Finset.mul_sum]
      rw [Finset.sum_comm]
      refine Finset.sum_congr rfl fun k _ => Finset.sum_congr rfl fun l _ => ?_
      rw [hC' l k]; ring
    rw [Finset.sum_add_distrib, e1]
    show _ = ∑ k, (∑ l, C k l * e t l) * de k
    rw [← two_mul, ← mul_assoc]
    norm_num
    refine Finset.sum_congr rfl fun k _ => mul_comm _ _
  tangent := by
    intro e de t _ h
    rw [hasDerivAt_pi] at h ⊢
    intro k
    show HasDerivAt (fun s => ∑ l, C k l * e s l) (∑ l, C k l * de l) t
    exact HasDerivAt.fun_sum fun l _ => (h l).const_mul (C k l)
  symm := fun _ _ k l => (hC.apply k l).symm

/-- The hypotheses of the theorems of C67 are met: a membrane element with a linear law, at every displacement. -/
example (C : Matrix (Fin 3) (Fin 3) ℝ) (hC : C.IsSymm) (gps : List (ℝ × ℝ × (Fin 2 → Fin 3 → ℝ) × (Fin n → Fin 2 → ℝ)))
    (u : NodeVec n 3) :
    let points := gps.map fun g => Membrane.point g.1 g.2.1 g.2.2.1 g.2.2.2
    GradientAt (NonLinearElastic.calculateScalar false (linearLaw C) points)
      (NonLinearElastic.calculateVector false (linearLaw C) points u 0) u ∧
    TangentAt (fun u => NonLinearElastic.calculateVector false (linearLaw C) points u 0)
      (NonLinearElastic.calculateMatrix false (linearLaw C) points u 0) u ∧
    Symmetric (NonLinearElastic.calculateMatrix false (linearLaw C) points u 0) := by
  intro points
  have hp : ∀ gp ∈ points, StrainContract gp u := by
    intro gp hgp
    obtain ⟨g, _, rfl⟩ := List.mem_map.1 hgp
    exact Membrane.membrane_contract _ _ _ _ u
  exact ⟨NonLinearElastic.nonLinearElastic_gradient _ _ (linearLaw_contract C hC) points u hp (fun _ _ => trivial),
    NonLinearElastic.nonLinearElastic_tangent _ _ (linearLaw_contract C hC) points u hp (fun _ _ => trivial)⟩

/-- A membrane of one point and two nodes whose strain is not zero. -/
example : Membrane.value (n := 2) ![![1, 0, 0], ![0, 1, 0]] ![![-1, 0], ![1, 0]] ![![0, 0, 0], ![1, 2, 0]] =
    ![7 / 2, 0, 2] := by
  funext k
  fin_cases k <;> simp [Membrane.value, Membrane.jcur, Membrane.gradu, Fin.sum_univ_two, dotProduct, Fin.sum_univ_three]
  all_goals norm_num

/-- A linear element of one point and two nodes in one dimension: C47 is not about the zero matrix. -/
example : LinearElastic.calculateMatrix (n := 2) false !![(3 : ℝ)]
    [⟨2, 1, ![!![-1 / 2], !![1 / 2]]⟩] 0 =
    ![![!![3 / 2], !![-3 / 2]], ![!![-3 / 2], !![3 / 2]]] := by
  rw [LinearElastic.calculateMatrix_sum]
  funext I J
  ext a b
  fin_cases a; fin_cases b
  fin_cases I <;> fin_cases J <;> simp [LinearElastic.pointMatrix, Matrix.mul_apply] <;> norm_num

end Ikarus.Element
