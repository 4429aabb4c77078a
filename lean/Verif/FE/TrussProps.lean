import Verif.FE.TrussModel
import Verif.FE.MembraneProps
import Mathlib.Tactic.FieldSimp
import Mathlib.Tactic.Positivity

/-!
The truss: consistency, invariance, equilibrium, axial forces.
-/

namespace Ikarus.Element

open Matrix Spec

variable {d : Nat}

namespace Truss

/-- The truss as one integration point with the Green-Lagrange strain. -/
noncomputable def point (X1 X2 : Fin d → ℝ) : Point 2 d 1 where
  detJ := √(squaredNorm (X2 - X1))
  weight := 1
  strain := fun u _ => (computeStrain X1 X2 u).Egl
  bop := fun u I => Matrix.of fun _ a => (computeStrain X1 X2 u).dEdu I a
  kg := fun u S I J => S 0 • (computeStrain X1 X2 u).ddEddu I J

/-- The current axis. -/
def axis (X1 X2 : Fin d → ℝ) (u : NodeVec 2 d) : Fin d → ℝ := X2 + u 1 - (X1 + u 0)

theorem axis_eq (X1 X2 : Fin d → ℝ) (u : NodeVec 2 d) : axis X1 X2 u = X2 - X1 + (u 1 - u 0) := by
  unfold axis; abel

theorem axis_line (X1 X2 : Fin d → ℝ) (u v : NodeVec 2 d) (t : ℝ) :
    axis X1 X2 (u + t • v) = axis X1 X2 u + t • (v 1 - v 0) := by
  simp only [axis, Pi.add_apply, Pi.smul_apply]
  module

theorem squaredNorm_line (x y : Fin d → ℝ) (t : ℝ) :
    squaredNorm (x + t • y) = squaredNorm x + t * (2 * (x ⬝ᵥ y)) + t ^ 2 * squaredNorm y := by
  simp only [squaredNorm, dotProduct_add, add_dotProduct, dotProduct_smul, smul_dotProduct, smul_eq_mul,
    dotProduct_comm y x]
  ring

theorem Egl_eq (X1 X2 : Fin d → ℝ) (u : NodeVec 2 d) : (computeStrain X1 X2 u).Egl =
    0.5 * (squaredNorm (axis X1 X2 u) - squaredNorm (X2 - X1)) / squaredNorm (X2 - X1) := rfl

theorem dEdu_zero (X1 X2 : Fin d → ℝ) (u : NodeVec 2 d) : (computeStrain X1 X2 u).dEdu 0 =
    -((squaredNorm (X2 - X1))⁻¹ • axis X1 X2 u) := by
  rw [axis_eq, ← smul_neg]
  show (squaredNorm (X2 - X1))⁻¹ • (-(X2 - X1) - (u 1 - u 0)) = _
  congr 1; abel

theorem dEdu_one (X1 X2 : Fin d → ℝ) (u : NodeVec 2 d) : (computeStrain X1 X2 u).dEdu 1 =
    (squaredNorm (X2 - X1))⁻¹ • axis X1 X2 u := by
  rw [axis_eq]
  rfl

theorem ddEddu_apply (X1 X2 : Fin d → ℝ) (u : NodeVec 2 d) (I J : Fin 2) : (computeStrain X1 X2 u).ddEddu I J =
    (squaredNorm (X2 - X1))⁻¹ • (if I = J then 1 else -1) := rfl

theorem work_dEdu (X1 X2 : Fin d → ℝ) (u v : NodeVec 2 d) :
    ∑ I, ∑ a, (computeStrain X1 X2 u).dEdu I a * v I a =
      (squaredNorm (X2 - X1))⁻¹ * (axis X1 X2 u ⬝ᵥ (v 1 - v 0)) := by
  rw [Fin.sum_univ_two, dEdu_zero, dEdu_one, ← Finset.sum_add_distrib, dotProduct, Finset.mul_sum]
  refine Finset.sum_congr rfl fun a _ => ?_
  simp only [Pi.neg_apply, Pi.smul_apply, smul_eq_mul, Pi.sub_apply]
  ring

theorem point_contract (X1 X2 : Fin d → ℝ) (u : NodeVec 2 d) : StrainContract (point X1 X2) u where
  strain := by
    intro v
    rw [hasDerivAt_pi]
    intro k
    refine hasDerivAt_quadratic (a := (computeStrain X1 X2 u).Egl)
      (c := 0.5 * squaredNorm (v 1 - v 0) / squaredNorm (X2 - X1)) fun t => ?_
    show (computeStrain X1 X2 (u + t • v)).Egl = (computeStrain X1 X2 u).Egl +
      t * (∑ I, ∑ a, (computeStrain X1 X2 u).dEdu I a * v I a) + _
    rw [work_dEdu, Egl_eq, Egl_eq, axis_line, squaredNorm_line]
    ring
  bop := by
    intro v S I a
    show HasDerivAt (fun t : ℝ => ∑ k : Fin 1, (computeStrain X1 X2 (u + t • v)).dEdu I a * S k)
      (∑ J, ∑ b, (S 0 • (computeStrain X1 X2 u).ddEddu I J) a b * v J b) 0
    have e : ∀ J, ∑ b, (S 0 • (computeStrain X1 X2 u).ddEddu I J) a b * v J b =
        S 0 * (squaredNorm (X2 - X1))⁻¹ * (if I = J then v J a else -v J a) := by
      intro J
      rw [ddEddu_apply]
      by_cases h : I = J
      · rw [if_pos h, if_pos h]
        simp [Matrix.one_apply, mul_assoc]
      · rw [if_neg h, if_neg h]
        simp [Matrix.one_apply, mul_assoc]
    simp only [e, Fin.sum_univ_one, Fin.sum_univ_two]
    refine hasDerivAt_quadratic (a := (computeStrain X1 X2 u).dEdu I a * S 0) (c := 0) fun t => ?_
    fin_cases I
    · simp [dEdu_zero, axis_line]
      ring
    · simp [dEdu_one, axis_line]
      ring
  symm := by
    intro S I J a b
    show (S 0 • (computeStrain X1 X2 u).ddEddu I J) a b = (S 0 • (computeStrain X1 X2 u).ddEddu J I) b a
    rw [ddEddu_apply, ddEddu_apply]
    by_cases h : I = J
    · rw [if_pos h, if_pos h.symm]; simp [Matrix.one_apply, eq_comm]
    · rw [if_neg h, if_neg (Ne.symm h)]; simp [Matrix.one_apply, eq_comm]

/-- The material of the truss. -/
noncomputable def law (E A : ℝ) : Law 1 := linearLaw !![E * A]

theorem law_contract (E A : ℝ) : LawContract (law E A) Set.univ := by
  refine linearLaw_contract _ ?_
  ext i j
  fin_cases i; fin_cases j; rfl

theorem calculateScalar_eq (E A : ℝ) (X1 X2 : Fin d → ℝ) (u : NodeVec 2 d) :
    calculateScalar E A X1 X2 u =
      (law E A).energy ((point X1 X2).strain u) * (point X1 X2).detJ * (point X1 X2).weight := by
  simp [calculateScalar, law, linearLaw, point, dotProduct, Matrix.mulVec, computeStrain]
  ring

theorem calculateVector_eq (E A : ℝ) (X1 X2 : Fin d → ℝ) (u f : NodeVec 2 d) :
    calculateVector E A X1 X2 u f = f + NonLinearElastic.pointForce (law E A) u (point X1 X2) := by
  funext I a
  simp only [calculateVector, NonLinearElastic.pointForce, Pi.add_apply, Pi.smul_apply, smul_eq_mul]
  have e1 : ((point X1 X2).bop u I)ᵀ *ᵥ (law E A).stress ((point X1 X2).strain u) =
      fun a => (computeStrain X1 X2 u).dEdu I a * (E * A * (computeStrain X1 X2 u).Egl) := by
    funext a
    simp [law, linearLaw, point, Matrix.mulVec, dotProduct]
  have e2 : (point X1 X2).detJ * (point X1 X2).weight = (computeStrain X1 X2 u).L := by
    simp [point, computeStrain]
  rw [e1, e2]
  ring

theorem calculateMatrix_eq (E A : ℝ) (X1 X2 : Fin d → ℝ) (u : NodeVec 2 d) (K : BlockMat 2 d) :
    calculateMatrix E A X1 X2 u K = K + NonLinearElastic.pointMatrix (law E A) u (point X1 X2) := by
  have e2 : (point X1 X2).detJ * (point X1 X2).weight = (computeStrain X1 X2 u).L := by
    simp [point, computeStrain]
  have e3 : ∀ I J, ((point X1 X2).bop u I)ᵀ * (law E A).tangent ((point X1 X2).strain u) * (point X1 X2).bop u J =
      (E * A) • Matrix.vecMulVec ((computeStrain X1 X2 u).dEdu I) ((computeStrain X1 X2 u).dEdu J) := by
    intro I J
    ext a b
    simp [law, linearLaw, point, Matrix.mul_apply, Matrix.vecMulVec_apply]
    ring
  have e4 : (law E A).stress ((point X1 X2).strain u) 0 = E * A * (computeStrain X1 X2 u).Egl := by
    simp [law, linearLaw, point, Matrix.mulVec, dotProduct]
  have e5 : ∀ (S : Fin 1 → ℝ) I J, (point X1 X2).kg u S I J = S 0 • (computeStrain X1 X2 u).ddEddu I J :=
    fun _ _ _ => rfl
  funext I J
  ext a b
  simp only [calculateMatrix, NonLinearElastic.pointMatrix, Pi.add_apply, Pi.smul_apply, Matrix.add_apply,
    Matrix.smul_apply, smul_eq_mul, e2, e3, e4, e5]
  ring

/-- C48, derivatives. The force of the truss is the gradient of its energy, the stiffness is the derivative of the force
and symmetric, at every displacement. -/
theorem truss_consistent (E A : ℝ) (X1 X2 : Fin d → ℝ) (u : NodeVec 2 d) :
    GradientAt (calculateScalar E A X1 X2) (calculateVector E A X1 X2 u 0) u ∧
    TangentAt (fun u => calculateVector E A X1 X2 u 0) (calculateMatrix E A X1 X2 u 0) u ∧
    Symmetric (calculateMatrix E A X1 X2 u 0) := by
  refine ⟨fun v => ?_, fun v => ?_, ?_⟩
  · simp only [calculateScalar_eq, calculateVector_eq, zero_add]
    exact NonLinearElastic.hasDerivAt_pointEnergy (law E A) _ (law_contract E A) (point X1 X2) u
      (point_contract X1 X2 u) trivial v
  · simp only [calculateVector_eq, calculateMatrix_eq, zero_add]
    exact NonLinearElastic.hasDerivAt_pointForce (law E A) _ (law_contract E A) (point X1 X2) u
      (point_contract X1 X2 u) trivial v
  · rw [calculateMatrix_eq, zero_add]
    exact NonLinearElastic.symmetric_pointMatrix (law E A) _ (law_contract E A) (point X1 X2) u
      (point_contract X1 X2 u) trivial

/-- C48, energy. The energy is `EA L / 2` times the square of `(l² - L²) / (2 L²)`, with `L` and `l` the reference and
current distance of the nodes; the Green-Lagrange strain is the linear strain plus half its square. -/
theorem truss_energy (E A : ℝ) (X1 X2 : Fin d → ℝ) (h : X1 ≠ X2) (u : NodeVec 2 d) :
    let L := √(∑ a, (X2 a - X1 a) ^ 2)
    let l := √(∑ a, (X2 a + u 1 a - (X1 a + u 0 a)) ^ 2)
    calculateScalar E A X1 X2 u = E * A * L / 2 * ((l ^ 2 - L ^ 2) / (2 * L ^ 2)) ^ 2 ∧
    linearAxialForce E A X1 X2 u = E * A * ((l - L) / L) ∧
    (computeStrain X1 X2 u).Egl = (computeStrain X1 X2 u).Elin + (computeStrain X1 X2 u).Elin ^ 2 / 2 := by
  intro L l
  have hL : L = (computeStrain X1 X2 u).L := by
    simp [L, computeStrain, squaredNorm, dotProduct, pow_two]
  have hl : l = (computeStrain X1 X2 u).l := by
    simp [l, computeStrain, squaredNorm, dotProduct, pow_two]
  have hnn : ∀ x : Fin d → ℝ, 0 ≤ squaredNorm x := by
    intro x
    show 0 ≤ ∑ a, x a * x a
    exact Finset.sum_nonneg fun a _ => mul_self_nonneg (x a)
  have sL : (computeStrain X1 X2 u).L ^ 2 = squaredNorm (X2 - X1) := Real.sq_sqrt (hnn _)
  have sl : (computeStrain X1 X2 u).l ^ 2 = squaredNorm (axis X1 X2 u) := Real.sq_sqrt (hnn _)
  have hpos : (computeStrain X1 X2 u).L ≠ 0 := by
    intro h0
    rw [h0] at sL
    have : squaredNorm (X2 - X1) = 0 := by rw [← sL]; ring
    have h2 := (dotProduct_self_eq_zero (v := X2 - X1)).1 this
    exact h (sub_eq_zero.1 h2).symm
  have hE : (computeStrain X1 X2 u).Egl = ((computeStrain X1 X2 u).l ^ 2 - (computeStrain X1 X2 u).L ^ 2) /
      (2 * (computeStrain X1 X2 u).L ^ 2) := by
    rw [Egl_eq, ← sL, ← sl]
    field_simp
    ring
  have hlin : (computeStrain X1 X2 u).Elin = ((computeStrain X1 X2 u).l - (computeStrain X1 X2 u).L) /
      (computeStrain X1 X2 u).L := rfl
  rw [hL, hl]
  refine ⟨?_, rfl, ?_⟩
  · rw [← hE]
    show 0.5 * E * A * (computeStrain X1 X2 u).L * (computeStrain X1 X2 u).Egl * (computeStrain X1 X2 u).Egl = _
    ring
  · rw [hE, hlin]
    field_simp
    ring

/-- C48, rigid motions. Energy is unchanged, and force turns along, under every rigid motion of the current
configuration: translations by `c` and orthogonal `R`. -/
theorem truss_rigid (E A : ℝ) (X1 X2 c : Fin d → ℝ) (R : Matrix (Fin d) (Fin d) ℝ) (hR : Rᵀ * R = 1)
    (u u' : NodeVec 2 d) (h1 : X1 + u' 0 = c + R *ᵥ (X1 + u 0)) (h2 : X2 + u' 1 = c + R *ᵥ (X2 + u 1)) :
    calculateScalar E A X1 X2 u' = calculateScalar E A X1 X2 u ∧
    (∀ I, calculateVector E A X1 X2 u' 0 I = R *ᵥ calculateVector E A X1 X2 u 0 I) ∧
    cauchyAxialForce E A X1 X2 u' = cauchyAxialForce E A X1 X2 u := by
  have ha : axis X1 X2 u' = R *ᵥ axis X1 X2 u := by
    rw [axis, h1, h2, axis, Matrix.mulVec_sub]
    abel
  have hn : squaredNorm (axis X1 X2 u') = squaredNorm (axis X1 X2 u) := by
    rw [ha]
    show (R *ᵥ axis X1 X2 u) ⬝ᵥ (R *ᵥ axis X1 X2 u) = _
    rw [Matrix.dotProduct_mulVec, ← Matrix.mulVec_transpose, Matrix.mulVec_mulVec, hR, Matrix.one_mulVec]
    rfl
  have hE : (computeStrain X1 X2 u').Egl = (computeStrain X1 X2 u).Egl := by rw [Egl_eq, Egl_eq, hn]
  have hl : (computeStrain X1 X2 u').l = (computeStrain X1 X2 u).l := congrArg Real.sqrt hn
  have hL : (computeStrain X1 X2 u').L = (computeStrain X1 X2 u).L := rfl
  refine ⟨?_, fun I => ?_, ?_⟩
  · simp only [calculateScalar, hE, hL]
  · simp only [calculateVector, hE, hL, zero_add, Pi.smul_apply, Matrix.mulVec_smul]
    congr 1
    fin_cases I
    · show (computeStrain X1 X2 u').dEdu 0 = R *ᵥ (computeStrain X1 X2 u).dEdu 0
      rw [dEdu_zero, dEdu_zero, ha, Matrix.mulVec_neg, Matrix.mulVec_smul]
    · show (computeStrain X1 X2 u').dEdu 1 = R *ᵥ (computeStrain X1 X2 u).dEdu 1
      rw [dEdu_one, dEdu_one, ha, Matrix.mulVec_smul]
  · simp only [cauchyAxialForce, hE, hl, hL]

/-- C48, equilibrium. The two nodal forces are opposite, and the force at the second node is the Cauchy axial force along
the current axis, so that they have no moment. -/
theorem truss_equilibrium (E A : ℝ) (X1 X2 : Fin d → ℝ) (h : X1 ≠ X2) (u : NodeVec 2 d)
    (hx : X1 + u 0 ≠ X2 + u 1) :
    calculateVector E A X1 X2 u 0 0 = -calculateVector E A X1 X2 u 0 1 ∧
    calculateVector E A X1 X2 u 0 1 = (cauchyAxialForce E A X1 X2 u / √(∑ a, (X2 a + u 1 a - (X1 a + u 0 a)) ^ 2)) •
      (X2 + u 1 - (X1 + u 0)) ∧
    cauchyAxialForce E A X1 X2 u = pk2AxialForce E A X1 X2 u *
      (√(∑ a, (X2 a + u 1 a - (X1 a + u 0 a)) ^ 2) / √(∑ a, (X2 a - X1 a) ^ 2)) := by
  have hnn : ∀ x : Fin d → ℝ, 0 ≤ squaredNorm x := by
    intro x
    show 0 ≤ ∑ a, x a * x a
    exact Finset.sum_nonneg fun a _ => mul_self_nonneg (x a)
  have hne : ∀ x : Fin d → ℝ, x ≠ 0 → √(squaredNorm x) ≠ 0 := by
    intro x hx h0
    rw [Real.sqrt_eq_zero (hnn x)] at h0
    exact hx ((dotProduct_self_eq_zero (v := x)).1 h0)
  have hl : √(∑ a, (X2 a + u 1 a - (X1 a + u 0 a)) ^ 2) = (computeStrain X1 X2 u).l := by
    simp [computeStrain, squaredNorm, dotProduct, pow_two]
  have hL : √(∑ a, (X2 a - X1 a) ^ 2) = (computeStrain X1 X2 u).L := by
    simp [computeStrain, squaredNorm, dotProduct, pow_two]
  have l0 : (computeStrain X1 X2 u).l ≠ 0 := hne _ (sub_ne_zero.2 (Ne.symm hx))
  have L0 : (computeStrain X1 X2 u).L ≠ 0 := hne _ (sub_ne_zero.2 (Ne.symm h))
  have sL : squaredNorm (X2 - X1) = (computeStrain X1 X2 u).L ^ 2 := (Real.sq_sqrt (hnn _)).symm
  rw [hl, hL]
  refine ⟨?_, ?_, ?_⟩
  · simp only [calculateVector, zero_add, Pi.smul_apply]
    rw [dEdu_zero, dEdu_one, smul_neg]
  · simp only [calculateVector, zero_add, Pi.smul_apply]
    rw [dEdu_one, smul_smul, sL]
    show _ • axis X1 X2 u = _ • axis X1 X2 u
    congr 1
    simp only [cauchyAxialForce]
    field_simp
  · simp only [cauchyAxialForce, pk2AxialForce]
    ring

/-- C48, addition. The truss adds to the vector and matrix it is given. -/
theorem truss_adds (E A : ℝ) (X1 X2 : Fin d → ℝ) (u f : NodeVec 2 d) (K : BlockMat 2 d) :
    calculateVector E A X1 X2 u f = f + calculateVector E A X1 X2 u 0 ∧
    calculateMatrix E A X1 X2 u K = K + calculateMatrix E A X1 X2 u 0 := by
  rw [calculateVector_eq, calculateVector_eq, calculateMatrix_eq, calculateMatrix_eq E A X1 X2 u 0, zero_add, zero_add]
  exact ⟨rfl, rfl⟩

/-- A stretched bar of length 2: strain 5/8, energy 25/8 and force 15/2 at the second node. -/
example : calculateScalar 8 1 (fun _ : Fin 1 => 0) (fun _ => 2) ![fun _ => 0, fun _ => 1] = 25 / 8 ∧
    calculateVector 8 1 (fun _ : Fin 1 => 0) (fun _ => 2) ![fun _ => 0, fun _ => 1] 0 1 0 = 15 / 2 := by
  have h4 : √(4 : ℝ) = 2 := by
    rw [show (4 : ℝ) = 2 ^ 2 by norm_num]; exact Real.sqrt_sq (by norm_num)
  constructor
  · simp [calculateScalar, computeStrain, squaredNorm, dotProduct]
    norm_num [h4]
  · simp [calculateVector, computeStrain, squaredNorm, dotProduct]
    norm_num [h4]

end Truss

end Ikarus.Element
