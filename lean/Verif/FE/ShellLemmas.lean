import Verif.FE.ShellModel
import Verif.FE.MembraneProps
import Verif.Tensor.VoigtProps
import Mathlib.Analysis.SpecialFunctions.Sqrt
import Mathlib.Analysis.Calculus.Deriv.Inv
import Mathlib.Tactic.FieldSimp
import Mathlib.Tactic.Positivity

/-!
Derivatives of the director and of the bending strain.
-/

namespace Ikarus.Element

open Matrix Spec

variable {n : Nat}

namespace Shell

/-! ### Curves of vectors -/

variable {x y h : ℝ → Fin 3 → ℝ} {ξ ζ η : Fin 3 → ℝ} {t : ℝ}

theorem hasDerivAt_dot (hx : HasDerivAt x ξ t) (hy : HasDerivAt y ζ t) :
    HasDerivAt (fun s => x s ⬝ᵥ y s) (ξ ⬝ᵥ y t + x t ⬝ᵥ ζ) t := by
  rw [hasDerivAt_pi] at hx hy
  have : HasDerivAt (fun s => ∑ i, x s i * y s i) (∑ i, (ξ i * y t i + x t i * ζ i)) t :=
    HasDerivAt.fun_sum fun i _ => (hx i).mul (hy i)
  rw [Finset.sum_add_distrib] at this
  exact this

theorem hasDerivAt_cross (hx : HasDerivAt x ξ t) (hy : HasDerivAt y ζ t) :
    HasDerivAt (fun s => x s ⨯₃ y s) (ξ ⨯₃ y t + x t ⨯₃ ζ) t := by
  rw [hasDerivAt_pi] at hx hy ⊢
  intro i
  have key : ∀ j k : Fin 3, HasDerivAt (fun s => x s j * y s k - x s k * y s j)
      ((ξ j * y t k + x t j * ζ k) - (ξ k * y t j + x t k * ζ j)) t :=
    fun j k => ((hx j).mul (hy k)).sub ((hx k).mul (hy j))
  fin_cases i
  · simp only [cross_apply, Fin.zero_eta, Matrix.cons_val_zero, Pi.add_apply]
    exact (key 1 2).congr_deriv (by ring)
  · simp only [cross_apply, Fin.mk_one, Matrix.cons_val_one, Matrix.cons_val_zero, Pi.add_apply]
    exact (key 2 0).congr_deriv (by ring)
  · have e : (fun s => (x s ⨯₃ y s) 2) = fun s => x s 0 * y s 1 - x s 1 * y s 0 := by
      funext s; simp [cross_apply]
    show HasDerivAt (fun s => (x s ⨯₃ y s) 2) _ t
    rw [e]
    refine (key 0 1).congr_deriv ?_
    simp [cross_apply]
    ring

theorem hasDerivAt_norm (hx : HasDerivAt x ξ t) (hp : 0 < x t ⬝ᵥ x t) :
    HasDerivAt (fun s => norm (x s)) ((x t ⬝ᵥ ξ) / norm (x t)) t := by
  have h1 := (hasDerivAt_dot hx hx).sqrt hp.ne'
  refine h1.congr_deriv ?_
  rw [dotProduct_comm ξ]
  show _ / (2 * norm (x t)) = _
  have : norm (x t) ≠ 0 := (Real.sqrt_pos.2 hp).ne'
  field_simp
  ring

theorem normalized_eq (x : Fin 3 → ℝ) : normalized x = (norm x)⁻¹ • x := by
  unfold normalized
  by_cases h : 0 < x ⬝ᵥ x
  · rw [if_pos h]
  · rw [if_neg h]
    have h0 : x ⬝ᵥ x = 0 := le_antisymm (not_lt.1 h) (by
      show 0 ≤ ∑ i, x i * x i
      exact Finset.sum_nonneg fun i _ => mul_self_nonneg (x i))
    rw [(dotProduct_self_eq_zero (v := x)).1 h0, smul_zero]

/-- `h · a3` for `a3` the normalised `x`. -/
theorem hasDerivAt_dot_normalized (hh : HasDerivAt h η t) (hx : HasDerivAt x ξ t) (hp : 0 < x t ⬝ᵥ x t) :
    HasDerivAt (fun s => h s ⬝ᵥ normalized (x s))
      (η ⬝ᵥ normalized (x t) + ((h t ⬝ᵥ ξ) / norm (x t) - (h t ⬝ᵥ x t) * (x t ⬝ᵥ ξ) / norm (x t) ^ 3)) t := by
  have hr : norm (x t) ≠ 0 := (Real.sqrt_pos.2 hp).ne'
  have e : (fun s => h s ⬝ᵥ normalized (x s)) = fun s => (norm (x s))⁻¹ * (h s ⬝ᵥ x s) := by
    funext s
    rw [normalized_eq, dotProduct_smul, smul_eq_mul]
  rw [e]
  refine (((hasDerivAt_norm hx hp).fun_inv hr).mul (hasDerivAt_dot hh hx)).congr_deriv ?_
  rw [normalized_eq, dotProduct_smul, smul_eq_mul]
  field_simp
  ring

theorem projector_mulVec (x y : Fin 3 → ℝ) : projector x (normalized x) *ᵥ y =
    (norm x)⁻¹ • y - ((norm x)⁻¹ ^ 3 * (x ⬝ᵥ y)) • x := by
  rw [projector, normalized_eq, Matrix.smul_mulVec, Matrix.sub_mulVec, Matrix.one_mulVec, Matrix.vecMulVec_mulVec]
  funext a
  simp only [Pi.smul_apply, Pi.sub_apply, smul_eq_mul, smul_dotProduct, MulOpposite.smul_eq_mul_unop,
    MulOpposite.unop_op]
  ring

/-- `h · P y`. -/
theorem dot_projector (h x y : Fin 3 → ℝ) : h ⬝ᵥ (projector x (normalized x) *ᵥ y) =
    (norm x)⁻¹ * (h ⬝ᵥ y) - (norm x)⁻¹ ^ 3 * ((h ⬝ᵥ x) * (x ⬝ᵥ y)) := by
  rw [projector_mulVec, dotProduct_sub, dotProduct_smul, dotProduct_smul, smul_eq_mul, smul_eq_mul]
  ring

theorem hasDerivAt_dot_projector (hh : HasDerivAt h η t) (hx : HasDerivAt x ξ t) (hy : HasDerivAt y ζ t)
    (hp : 0 < x t ⬝ᵥ x t) :
    HasDerivAt (fun s => h s ⬝ᵥ (projector (x s) (normalized (x s)) *ᵥ y s))
      (η ⬝ᵥ (projector (x t) (normalized (x t)) *ᵥ y t) + h t ⬝ᵥ (projector (x t) (normalized (x t)) *ᵥ ζ)
        + (norm (x t))⁻¹ ^ 3 * (3 * (norm (x t))⁻¹ ^ 2 * ((h t ⬝ᵥ x t) * (x t ⬝ᵥ y t) * (x t ⬝ᵥ ξ))
          - (h t ⬝ᵥ y t) * (x t ⬝ᵥ ξ) - (h t ⬝ᵥ ξ) * (x t ⬝ᵥ y t) - (h t ⬝ᵥ x t) * (ξ ⬝ᵥ y t))) t := by
  have hr : norm (x t) ≠ 0 := (Real.sqrt_pos.2 hp).ne'
  have hi := (hasDerivAt_norm hx hp).fun_inv hr
  simp only [dot_projector]
  refine ((hi.mul (hasDerivAt_dot hh hy)).sub
    ((hi.fun_pow 3).mul ((hasDerivAt_dot hh hx).mul (hasDerivAt_dot hx hy)))).congr_deriv ?_
  push_cast
  simp only [Pi.mul_apply]
  field_simp
  ring

/-! ### Kinematics along a line -/

/-- `Σ_J ddN(J, i) v_J`. -/
def dh (p : ShellPoint n) (v : NodeVec n 3) (i : Fin 3) : Fin 3 → ℝ := ∑ J, p.ddN J i • v J

/-- The rate of `a3N`. -/
def dx (p : ShellPoint n) (u v : NodeVec n 3) : Fin 3 → ℝ :=
  Membrane.gradu p.dN v 0 ⨯₃ jcur p u 1 + jcur p u 0 ⨯₃ Membrane.gradu p.dN v 1

variable (p : ShellPoint n) (u v : NodeVec n 3)

theorem hasDerivAt_affine {a b : Fin 3 → ℝ} {f : ℝ → Fin 3 → ℝ} (hf : ∀ s, f s = a + s • b) : HasDerivAt f b 0 := by
  rw [hasDerivAt_pi]
  intro i
  refine hasDerivAt_quadratic (a := a i) (c := 0) fun s => ?_
  rw [hf]
  simp

theorem hasDerivAt_hcur (i : Fin 3) : HasDerivAt (fun s : ℝ => hcur p (u + s • v) i) (dh p v i) 0 := by
  refine hasDerivAt_affine (a := hcur p u i) fun s => ?_
  simp only [hcur, dh, Pi.add_apply, Pi.smul_apply, smul_add, Finset.sum_add_distrib, Finset.smul_sum]
  rw [add_assoc]
  congr 2
  exact Finset.sum_congr rfl fun J _ => smul_comm _ _ _

theorem hasDerivAt_jcur (a : Fin 2) :
    HasDerivAt (fun s : ℝ => jcur p (u + s • v) a) (Membrane.gradu p.dN v a) 0 :=
  hasDerivAt_affine (a := jcur p u a) fun s => Membrane.jcur_line _ _ _ _ _ _

theorem line_zero (u v : NodeVec n 3) : u + (0 : ℝ) • v = u := by simp

theorem hasDerivAt_a3N : HasDerivAt (fun s : ℝ => a3N p (u + s • v)) (dx p u v) 0 := by
  have h := hasDerivAt_cross (hasDerivAt_jcur p u v 0) (hasDerivAt_jcur p u v 1)
  simp only [line_zero] at h
  exact h

theorem a3Nd_mulVec (I : Fin n) (w : Fin 3 → ℝ) :
    a3Nd p u I *ᵥ w = (p.dN I 0 • w) ⨯₃ jcur p u 1 + jcur p u 0 ⨯₃ (p.dN I 1 • w) := by
  funext a
  simp only [Matrix.mulVec, dotProduct, a3Nd, Matrix.of_apply, Fin.sum_univ_three]
  fin_cases a <;> simp [cross_apply] <;> ring

theorem sum_a3Nd : ∑ I, a3Nd p u I *ᵥ v I = dx p u v := by
  simp only [a3Nd_mulVec, Finset.sum_add_distrib, dx, Membrane.gradu, map_sum, LinearMap.sum_apply]

theorem hasDerivAt_a3Nd (I : Fin n) (w : Fin 3 → ℝ) :
    HasDerivAt (fun s : ℝ => a3Nd p (u + s • v) I *ᵥ w)
      ((p.dN I 0 • w) ⨯₃ Membrane.gradu p.dN v 1 + Membrane.gradu p.dN v 0 ⨯₃ (p.dN I 1 • w)) 0 := by
  simp only [a3Nd_mulVec]
  have h1 := hasDerivAt_cross (hasDerivAt_const (0 : ℝ) (p.dN I 0 • w)) (hasDerivAt_jcur p u v 1)
  have h2 := hasDerivAt_cross (hasDerivAt_jcur p u v 0) (hasDerivAt_const (0 : ℝ) (p.dN I 1 • w))
  refine (h1.add h2).congr_deriv ?_
  simp

theorem skewOf_mulVec (g w : Fin 3 → ℝ) : skewOf g *ᵥ w = g ⨯₃ w := by
  funext a
  fin_cases a <;> simp [skewOf, cross_apply, Matrix.mulVec, dotProduct, Fin.sum_univ_three] <;> ring

/-! ### The B operator -/

theorem bopBending_apply (I : Fin n) (i b : Fin 3) : bopBending p u I i b =
    -two i * (hcur p u i ⬝ᵥ (projector (a3N p u) (a3 p u) *ᵥ (a3Nd p u I *ᵥ (Pi.single b 1 : Fin 3 → ℝ))) +
      p.ddN I i * a3 p u b) := by
  have h1 : (Matrix.of (hcur p u) * (projector (a3N p u) (a3 p u) * a3Nd p u I)) i b =
      hcur p u i ⬝ᵥ (projector (a3N p u) (a3 p u) *ᵥ (a3Nd p u I *ᵥ (Pi.single b 1 : Fin 3 → ℝ))) := by
    rw [Matrix.mulVec_mulVec, Matrix.mul_apply]
    simp [dotProduct]
  simp only [bopBending, Matrix.of_apply, Matrix.neg_apply, Matrix.add_apply, Matrix.vecMulVec_apply]
  rw [h1]
  ring

theorem sum_bopBending (i : Fin 3) : ∑ I, ∑ b, bopBending p u I i b * v I b =
    -two i * (hcur p u i ⬝ᵥ (projector (a3N p u) (a3 p u) *ᵥ dx p u v) + dh p v i ⬝ᵥ a3 p u) := by
  have hlin : ∀ w : Fin 3 → ℝ, w = ∑ b, w b • (Pi.single b 1 : Fin 3 → ℝ) := by
    intro w
    funext a
    simp [Finset.sum_apply, Pi.single_apply]
  have h1 : ∀ I, ∑ b, bopBending p u I i b * v I b =
      -two i * (hcur p u i ⬝ᵥ (projector (a3N p u) (a3 p u) *ᵥ (a3Nd p u I *ᵥ v I)) + (p.ddN I i • v I) ⬝ᵥ a3 p u) := by
    intro I
    conv_rhs => rw [show a3Nd p u I *ᵥ v I = a3Nd p u I *ᵥ ∑ b, v I b • (Pi.single b 1 : Fin 3 → ℝ) by rw [← hlin]]
    simp only [Matrix.mulVec_sum, Matrix.mulVec_smul, dotProduct_sum, dotProduct_smul, smul_eq_mul, bopBending_apply]
    rw [dotProduct, ← Finset.sum_add_distrib, Finset.mul_sum]
    refine Finset.sum_congr rfl fun b _ => ?_
    simp only [Pi.smul_apply, smul_eq_mul]
    ring
  simp only [h1, ← Finset.mul_sum, Finset.sum_add_distrib]
  rw [← sum_a3Nd, Matrix.mulVec_sum, dotProduct_sum, dh, sum_dotProduct]

theorem hasDerivAt_kappaV (hp : 0 < a3N p u ⬝ᵥ a3N p u) (i : Fin 3) :
    HasDerivAt (fun s : ℝ => kappaV p (u + s • v) i) (∑ I, ∑ b, bopBending p u I i b * v I b) 0 := by
  have h := hasDerivAt_dot_normalized (hasDerivAt_hcur p u v i) (hasDerivAt_a3N p u v) (by simpa using hp)
  have h2 : HasDerivAt (fun s : ℝ => kappaV p (u + s • v) i) _ 0 := (h.mul_const (two i)).const_sub (p.BV i)
  refine h2.congr_deriv ?_
  rw [sum_bopBending]
  simp only [line_zero]
  rw [show a3 p u = normalized (a3N p u) from rfl, dot_projector]
  have hr : norm (a3N p u) ≠ 0 := (Real.sqrt_pos.2 hp).ne'
  field_simp
  ring

/-! ### The second derivative -/

theorem mulVec_apply_single (M : Matrix (Fin 3) (Fin 3) ℝ) (w : Fin 3 → ℝ) (a : Fin 3) :
    (M *ᵥ w) a = (Pi.single a 1 : Fin 3 → ℝ) ⬝ᵥ (M *ᵥ w) := by simp

theorem kg_row (S : Fin 3 → ℝ) (I J : Fin n) (w : Fin 3 → ℝ) (a : Fin 3) :
    (kgBending p u S I J *ᵥ w) a = ∑ i, -(S i * two i) * (
      (1 / (a3N p u ⬝ᵥ a3N p u)) * ((a3 p u ⬝ᵥ hcur p u i) *
          (3 * ((a3Nd p u I *ᵥ (Pi.single a 1 : Fin 3 → ℝ)) ⬝ᵥ a3 p u) * (a3 p u ⬝ᵥ (a3Nd p u J *ᵥ w)) -
            (a3Nd p u I *ᵥ (Pi.single a 1 : Fin 3 → ℝ)) ⬝ᵥ (a3Nd p u J *ᵥ w)) -
        ((a3Nd p u I *ᵥ (Pi.single a 1 : Fin 3 → ℝ)) ⬝ᵥ hcur p u i) * (a3 p u ⬝ᵥ (a3Nd p u J *ᵥ w)) -
        ((a3Nd p u I *ᵥ (Pi.single a 1 : Fin 3 → ℝ)) ⬝ᵥ a3 p u) * (hcur p u i ⬝ᵥ (a3Nd p u J *ᵥ w))) +
      (p.dN I 1 * p.dN J 0 - p.dN I 0 * p.dN J 1) * ((Pi.single a 1 : Fin 3 → ℝ) ⬝ᵥ
        ((projector (a3N p u) (a3 p u) *ᵥ hcur p u i) ⨯₃ w)) +
      (p.ddN I i * ((Pi.single a 1 : Fin 3 → ℝ) ⬝ᵥ (projector (a3N p u) (a3 p u) *ᵥ (a3Nd p u J *ᵥ w))) +
       p.ddN J i * ((projector (a3N p u) (a3 p u) *ᵥ (a3Nd p u I *ᵥ (Pi.single a 1 : Fin 3 → ℝ))) ⬝ᵥ w))) := by
  have hT : ∀ (B : Matrix (Fin 3) (Fin 3) ℝ) (e z : Fin 3 → ℝ), e ⬝ᵥ (Bᵀ *ᵥ z) = (B *ᵥ e) ⬝ᵥ z := by
    intro B e z
    rw [Matrix.mulVec_transpose, dotProduct_comm, ← Matrix.dotProduct_mulVec, dotProduct_comm]
  have hv : ∀ (b c z : Fin 3 → ℝ), vecMulVec b c *ᵥ z = (c ⬝ᵥ z) • b := by
    intro b c z
    rw [Matrix.vecMulVec_mulVec]
    funext k
    simp [mul_comm]
  rw [mulVec_apply_single, kgBending]
  simp only [Matrix.sum_mulVec, dotProduct_sum]
  refine Finset.sum_congr rfl fun i _ => ?_
  simp only [Matrix.neg_mulVec, dotProduct_neg, Matrix.smul_mulVec, dotProduct_smul, smul_eq_mul, Matrix.add_mulVec,
    dotProduct_add, skewOf_mulVec, map_smul, LinearMap.smul_apply]
  have e1 : ∀ (B M D : Matrix (Fin 3) (Fin 3) ℝ) (e z : Fin 3 → ℝ),
      e ⬝ᵥ ((Bᵀ * M * D) *ᵥ z) = (B *ᵥ e) ⬝ᵥ (M *ᵥ (D *ᵥ z)) := by
    intro B M D e z
    rw [← hT, Matrix.mulVec_mulVec, Matrix.mulVec_mulVec]
  rw [e1, hT]
  simp only [Matrix.smul_mulVec, Matrix.sub_mulVec, Matrix.one_mulVec, hv, dotProduct_smul, dotProduct_sub, smul_eq_mul,
    ← Matrix.mulVec_mulVec]
  ring

theorem sum_kg_row (S : Fin 3 → ℝ) (I : Fin n) (a : Fin 3) :
    ∑ J, (kgBending p u S I J *ᵥ v J) a = ∑ i, -(S i * two i) * (
      (1 / (a3N p u ⬝ᵥ a3N p u)) * ((a3 p u ⬝ᵥ hcur p u i) *
          (3 * ((a3Nd p u I *ᵥ (Pi.single a 1 : Fin 3 → ℝ)) ⬝ᵥ a3 p u) * (a3 p u ⬝ᵥ dx p u v) -
            (a3Nd p u I *ᵥ (Pi.single a 1 : Fin 3 → ℝ)) ⬝ᵥ dx p u v) -
        ((a3Nd p u I *ᵥ (Pi.single a 1 : Fin 3 → ℝ)) ⬝ᵥ hcur p u i) * (a3 p u ⬝ᵥ dx p u v) -
        ((a3Nd p u I *ᵥ (Pi.single a 1 : Fin 3 → ℝ)) ⬝ᵥ a3 p u) * (hcur p u i ⬝ᵥ dx p u v)) +
      (Pi.single a 1 : Fin 3 → ℝ) ⬝ᵥ ((projector (a3N p u) (a3 p u) *ᵥ hcur p u i) ⨯₃
        (p.dN I 1 • Membrane.gradu p.dN v 0 - p.dN I 0 • Membrane.gradu p.dN v 1)) +
      (p.ddN I i * ((Pi.single a 1 : Fin 3 → ℝ) ⬝ᵥ (projector (a3N p u) (a3 p u) *ᵥ dx p u v)) +
       (projector (a3N p u) (a3 p u) *ᵥ (a3Nd p u I *ᵥ (Pi.single a 1 : Fin 3 → ℝ))) ⬝ᵥ dh p v i)) := by
  simp only [kg_row]
  rw [Finset.sum_comm]
  refine Finset.sum_congr rfl fun i _ => ?_
  rw [← sum_a3Nd]
  have hg : p.dN I 1 • Membrane.gradu p.dN v 0 - p.dN I 0 • Membrane.gradu p.dN v 1 =
      ∑ J, (p.dN I 1 * p.dN J 0 - p.dN I 0 * p.dN J 1) • v J := by
    simp only [Membrane.gradu, Finset.smul_sum, ← Finset.sum_sub_distrib]
    refine Finset.sum_congr rfl fun J _ => ?_
    module
  rw [hg]
  simp only [map_sum, Matrix.mulVec_sum, dotProduct_sum, dh, map_smul, dotProduct_smul, smul_eq_mul]
  simp only [Finset.mul_sum, ← Finset.sum_add_distrib, ← Finset.sum_sub_distrib]

/-- The part of `kgBending` for one component. -/
theorem hasDerivAt_bop_component (hp : 0 < a3N p u ⬝ᵥ a3N p u) (I : Fin n) (i a : Fin 3) :
    HasDerivAt (fun s : ℝ => hcur p (u + s • v) i ⬝ᵥ (projector (a3N p (u + s • v)) (a3 p (u + s • v)) *ᵥ
        (a3Nd p (u + s • v) I *ᵥ (Pi.single a 1 : Fin 3 → ℝ))) + p.ddN I i * a3 p (u + s • v) a)
      ((1 / (a3N p u ⬝ᵥ a3N p u)) * ((a3 p u ⬝ᵥ hcur p u i) *
          (3 * ((a3Nd p u I *ᵥ (Pi.single a 1 : Fin 3 → ℝ)) ⬝ᵥ a3 p u) * (a3 p u ⬝ᵥ dx p u v) -
            (a3Nd p u I *ᵥ (Pi.single a 1 : Fin 3 → ℝ)) ⬝ᵥ dx p u v) -
        ((a3Nd p u I *ᵥ (Pi.single a 1 : Fin 3 → ℝ)) ⬝ᵥ hcur p u i) * (a3 p u ⬝ᵥ dx p u v) -
        ((a3Nd p u I *ᵥ (Pi.single a 1 : Fin 3 → ℝ)) ⬝ᵥ a3 p u) * (hcur p u i ⬝ᵥ dx p u v)) +
      (Pi.single a 1 : Fin 3 → ℝ) ⬝ᵥ ((projector (a3N p u) (a3 p u) *ᵥ hcur p u i) ⨯₃
        (p.dN I 1 • Membrane.gradu p.dN v 0 - p.dN I 0 • Membrane.gradu p.dN v 1)) +
      (p.ddN I i * ((Pi.single a 1 : Fin 3 → ℝ) ⬝ᵥ (projector (a3N p u) (a3 p u) *ᵥ dx p u v)) +
       (projector (a3N p u) (a3 p u) *ᵥ (a3Nd p u I *ᵥ (Pi.single a 1 : Fin 3 → ℝ))) ⬝ᵥ dh p v i)) 0 := by
  have hp0 : 0 < a3N p (u + (0 : ℝ) • v) ⬝ᵥ a3N p (u + (0 : ℝ) • v) := by simpa using hp
  have h1 := hasDerivAt_dot_projector (hasDerivAt_hcur p u v i) (hasDerivAt_a3N p u v)
    (hasDerivAt_a3Nd p u v I (Pi.single a 1)) hp0
  have h2 := hasDerivAt_dot_normalized (hasDerivAt_const (0 : ℝ) (Pi.single a 1 : Fin 3 → ℝ)) (hasDerivAt_a3N p u v) hp0
  have e2 : (fun s : ℝ => a3 p (u + s • v) a) =
      fun s : ℝ => (Pi.single a 1 : Fin 3 → ℝ) ⬝ᵥ normalized (a3N p (u + s • v)) := by
    funext s
    simp [a3]
  rw [← e2] at h2
  refine (h1.add (h2.const_mul (p.ddN I i))).congr_deriv ?_
  simp only [line_zero]
  set e : Fin 3 → ℝ := Pi.single a 1
  -- the triple product
  have ht : e ⬝ᵥ ((projector (a3N p u) (a3 p u) *ᵥ hcur p u i) ⨯₃
        (p.dN I 1 • Membrane.gradu p.dN v 0 - p.dN I 0 • Membrane.gradu p.dN v 1)) =
      hcur p u i ⬝ᵥ (projector (a3N p u) (a3 p u) *ᵥ ((p.dN I 0 • e) ⨯₃ Membrane.gradu p.dN v 1 +
        Membrane.gradu p.dN v 0 ⨯₃ (p.dN I 1 • e))) := by
    have hsymm : ∀ x y z : Fin 3 → ℝ, y ⬝ᵥ (projector x (normalized x) *ᵥ z) =
        (projector x (normalized x) *ᵥ y) ⬝ᵥ z := by
      intro x y z
      rw [dotProduct_comm (projector x (normalized x) *ᵥ y), dot_projector, dot_projector, dotProduct_comm y z,
        dotProduct_comm y x, dotProduct_comm x z]
      ring
    rw [show a3 p u = normalized (a3N p u) from rfl, hsymm, triple_product_permutation]
    congr 1
    simp only [map_sub, map_smul, LinearMap.sub_apply, LinearMap.smul_apply]
    rw [← cross_anticomm e (Membrane.gradu p.dN v 1)]
    module
  rw [ht, show a3 p u = normalized (a3N p u) from rfl]
  have hr : norm (a3N p u) ≠ 0 := (Real.sqrt_pos.2 hp).ne'
  have hsq : a3N p u ⬝ᵥ a3N p u = norm (a3N p u) ^ 2 := (Real.sq_sqrt hp.le).symm
  rw [dotProduct_comm (projector (a3N p u) (normalized (a3N p u)) *ᵥ (a3Nd p u I *ᵥ e)) (dh p v i)]
  rw [dot_projector e]
  rw [hsq, normalized_eq]
  simp only [dotProduct_smul, smul_dotProduct, smul_eq_mul, zero_dotProduct]
  rw [dotProduct_comm (a3N p u) (hcur p u i), dotProduct_comm (a3Nd p u I *ᵥ e) (a3N p u),
    dotProduct_comm (a3Nd p u I *ᵥ e) (hcur p u i), dotProduct_comm (a3Nd p u I *ᵥ e) (dx p u v)]
  field_simp
  ring

end Shell

end Ikarus.Element
