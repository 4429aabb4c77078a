import Verif.FE.EASFunctionProps
import Verif.FE.AssumedStressProps
import Verif.FE.DisplacementPressureProps
import Verif.FE.ShellProps
import Verif.FE.TrussProps
import Verif.FE.LoadProps

/-!
Rigid virtual motions of an element: what they are, and that the strain operators of the code map them to zero.
-/

namespace Ikarus.Element

open Matrix Element.Spec

variable {n d q m g : Nat}

/-! ### Specification -/

/-- The rigid virtual motion of nodes at the positions `x`: a translation `c` and an infinitesimal rotation `W`. -/
def Spec.rigid (c : Fin d → ℝ) (W : Matrix (Fin d) (Fin d) ℝ) (x : NodeVec n d) : NodeVec n d := fun I => c + W *ᵥ x I

/-- Nodal forces `f` at the positions `x` are in balance: they do no work on any rigid virtual motion. -/
def Spec.InBalance (f x : NodeVec n d) : Prop :=
  ∀ (c : Fin d → ℝ) (W : Matrix (Fin d) (Fin d) ℝ), Wᵀ = -W → work f (rigid c W x) = 0

/-- Derivatives `dN` of shape functions at a point of an element with the nodes `X`: they sum to zero, and the geometry is
interpolated by the same functions. -/
structure Spec.Isoparametric (X : NodeVec n d) (dN : Fin n → Fin d → ℝ) : Prop where
  unity : ∀ j, ∑ I, dN I j = 0
  geometry : ∀ i j, ∑ I, X I i * dN I j = if i = j then 1 else 0

/-- A strain operator maps the rigid virtual motions about the positions `x` to zero. -/
def Spec.NoStrain (B : Fin n → Matrix (Fin q) (Fin d) ℝ) (x : NodeVec n d) : Prop :=
  ∀ (c : Fin d → ℝ) (W : Matrix (Fin d) (Fin d) ℝ), Wᵀ = -W → ∑ I, B I *ᵥ rigid c W x I = 0

/-- Derivatives of the shape functions of a surface whose tangent vectors are `J`. -/
structure Spec.SurfaceIsoparametric (X : NodeVec n 3) (J : Fin 2 → Fin 3 → ℝ) (dN : Fin n → Fin 2 → ℝ) : Prop where
  unity : ∀ a, ∑ I, dN I a = 0
  geometry : ∀ a, J a = ∑ I, dN I a • X I

/-- The same for a point of a shell, with the second derivatives. -/
structure Spec.ShellIsoparametric (X : NodeVec n 3) (p : Shell.ShellPoint n) : Prop
    extends Spec.SurfaceIsoparametric X p.J p.dN where
  unity2 : ∀ i, ∑ I, p.ddN I i = 0
  geometry2 : ∀ i, p.H i = ∑ I, p.ddN I i • X I

/-! ### Sums -/

theorem skew_dot {W : Matrix (Fin d) (Fin d) ℝ} (hW : Wᵀ = -W) (a b : Fin d → ℝ) : (W *ᵥ a) ⬝ᵥ b = -(a ⬝ᵥ (W *ᵥ b)) := by
  rw [Matrix.dotProduct_mulVec, ← Matrix.mulVec_transpose, hW, Matrix.neg_mulVec, neg_dotProduct, neg_neg]

theorem skew_self {W : Matrix (Fin d) (Fin d) ℝ} (hW : Wᵀ = -W) (a : Fin d → ℝ) : a ⬝ᵥ (W *ᵥ a) = 0 := by
  have := skew_dot hW a a
  rw [dotProduct_comm] at this
  linarith

theorem work_add (f h v : NodeVec n d) : work (f + h) v = work f v + work h v := by
  simp [work, add_mul, Finset.sum_add_distrib]

theorem work_sub (f h v : NodeVec n d) : work (f - h) v = work f v - work h v := by
  simp [work, sub_mul, Finset.sum_sub_distrib]

theorem work_smul (c : ℝ) (f v : NodeVec n d) : work (c • f) v = c * work f v := by
  simp [work, Finset.mul_sum, mul_assoc]

/-- The work of the forces of a stress is the work of the stress on the virtual strain. -/
theorem work_stress (B : Fin n → Matrix (Fin q) (Fin d) ℝ) (s : Fin q → ℝ) (v : NodeVec n d) :
    work (fun I => (B I)ᵀ *ᵥ s) v = s ⬝ᵥ ∑ I, B I *ᵥ v I := by
  rw [work_eq, dotProduct_sum]
  refine Finset.sum_congr rfl fun I _ => ?_
  rw [Matrix.mulVec_transpose, Matrix.dotProduct_mulVec]

theorem work_point (B : Fin n → Matrix (Fin q) (Fin d) ℝ) (w : ℝ) (s : Fin q → ℝ) (v : NodeVec n d) :
    work (fun I => w • ((B I)ᵀ *ᵥ s)) v = w * (s ⬝ᵥ ∑ I, B I *ᵥ v I) := by
  rw [← work_stress, ← work_smul]
  rfl

theorem Spec.NoStrain.balance {B : Fin n → Matrix (Fin q) (Fin d) ℝ} {x : NodeVec n d} (h : NoStrain B x) (w : ℝ) (s : Fin q → ℝ) :
    InBalance (fun I => w • ((B I)ᵀ *ᵥ s)) x := by
  intro c W hW
  rw [work_point, h c W hW, dotProduct_zero, mul_zero]

theorem Spec.InBalance.list_sum {α : Type*} (l : List α) (f : α → NodeVec n d) (x : NodeVec n d)
    (h : ∀ p ∈ l, InBalance (f p) x) : InBalance (l.map f).sum x := by
  intro c W hW
  rw [work_list_sum]
  refine List.sum_eq_zero ?_
  intro y hy
  obtain ⟨p, hp, rfl⟩ := List.mem_map.1 hy
  exact h p hp c W hW

theorem Spec.InBalance.add {f h x : NodeVec n d} (hf : InBalance f x) (hh : InBalance h x) : InBalance (f + h) x :=
  fun c W hW => by rw [work_add, hf c W hW, hh c W hW, add_zero]

theorem Spec.InBalance.sub {f h x : NodeVec n d} (hf : InBalance f x) (hh : InBalance h x) : InBalance (f - h) x :=
  fun c W hW => by rw [work_sub, hf c W hW, hh c W hW, sub_zero]

/-! ### Green-Lagrange strains -/

theorem gradient_rigid {X : NodeVec n d} {dN : Fin n → Fin d → ℝ} (hX : Isoparametric X dN) (u : NodeVec n d) (c : Fin d → ℝ)
    (W : Matrix (Fin d) (Fin d) ℝ) : EAS.gradient dN (rigid c W (X + u)) = W * (1 + EAS.gradient dN u) := by
  ext i j
  have h1 : ∑ I, rigid c W (X + u) I i * dN I j = c i * ∑ I, dN I j + ∑ b, W i b * ∑ I, (X I b + u I b) * dN I j := by
    simp only [rigid, Pi.add_apply, Matrix.mulVec, dotProduct, add_mul, Finset.sum_add_distrib, Finset.mul_sum, Finset.sum_mul]
    congr 1
    rw [Finset.sum_comm]
    refine Finset.sum_congr rfl fun b _ => ?_
    rw [← Finset.sum_add_distrib, Finset.mul_sum]
    exact Finset.sum_congr rfl fun I _ => by ring
  rw [EAS.gradient, Matrix.of_apply, h1, hX.unity, mul_zero, zero_add, Matrix.mul_apply]
  refine Finset.sum_congr rfl fun b _ => ?_
  rw [Matrix.add_apply, Matrix.one_apply, EAS.gradient, Matrix.of_apply, ← hX.geometry b j, ← Finset.sum_add_distrib]
  congr 1
  exact Finset.sum_congr rfl fun I _ => by ring

theorem along_skew {v : Fin d → Fin d → Fin q} (hv : ∀ i j, v i j = v j i) (S : Fin q → ℝ) {W : Matrix (Fin d) (Fin d) ℝ}
    (hW : Wᵀ = -W) (F : Matrix (Fin d) (Fin d) ℝ) : EAS.Spec.along v S (W * F) F = 0 := by
  have h1 := EAS.along_symm v S hv (W * F) F
  have h2 : EAS.Spec.along v S F (W * F) = -EAS.Spec.along v S (W * F) F := by
    simp only [EAS.Spec.along, ← Finset.sum_neg_distrib]
    refine Finset.sum_congr rfl fun i _ => Finset.sum_congr rfl fun j _ => ?_
    rw [← mul_neg]
    congr 1
    have := skew_dot hW (fun b => F b i) (fun b => F b j)
    simp only [dotProduct, Matrix.mulVec] at this
    simp only [Matrix.mul_apply]
    linarith
  linarith

/-- The virtual strain of a virtual motion is the strain along the gradient of the motion. -/
theorem bop_sum {dim : EAS.Dimension d q} (hdim : EAS.Spec.IsVoigt dim) (F : Matrix (Fin d) (Fin d) ℝ)
    (dN : Fin n → Fin d → ℝ) (v : NodeVec n d) :
    ∑ I, dim.bop F (dN I) *ᵥ v I = fun k => EAS.Spec.along dim.voigt (Pi.single k 1) (EAS.gradient dN v) F := by
  funext k
  rw [Finset.sum_apply, EAS.gradient_rows, EAS.along_sum_left]
  refine Finset.sum_congr rfl fun I _ => ?_
  rw [EAS.along_sum_left]
  simp only [Matrix.mulVec, dotProduct]
  exact Finset.sum_congr rfl fun a _ => by rw [EAS.along_smul_left, hdim.bop, mul_comm]

theorem greenLagrange_noStrain {dim : EAS.Dimension d q} (hdim : EAS.Spec.IsVoigt dim) {X : NodeVec n d}
    {dN : Fin n → Fin d → ℝ} (hX : Isoparametric X dN) (u : NodeVec n d) :
    NoStrain (fun I => dim.bop (1 + EAS.gradient dN u) (dN I)) (X + u) := by
  intro c W hW
  rw [bop_sum hdim, gradient_rigid hX]
  funext k
  exact along_skew hdim.symm _ hW _

/-! ### Surfaces -/

/-- Interpolating a rigid virtual motion gives the rotation of the interpolated positions, if the functions sum to zero. -/
theorem interpolate_rigid (N : Fin n → ℝ) (hN : ∑ I, N I = 0) (c : Fin d → ℝ) (W : Matrix (Fin d) (Fin d) ℝ) (x : NodeVec n d) :
    ∑ I, N I • rigid c W x I = W *ᵥ ∑ I, N I • x I := by
  simp only [rigid, smul_add, Finset.sum_add_distrib]
  rw [← Finset.sum_smul, hN, zero_smul, zero_add, Matrix.mulVec_sum]
  exact Finset.sum_congr rfl fun I _ => (Matrix.mulVec_smul _ _ _).symm

theorem jcur_interpolated {X : NodeVec n 3} {J : Fin 2 → Fin 3 → ℝ} {dN : Fin n → Fin 2 → ℝ} (h : SurfaceIsoparametric X J dN)
    (u : NodeVec n 3) (a : Fin 2) : Membrane.jcur J dN u a = ∑ I, dN I a • (X + u) I := by
  rw [Membrane.jcur, h.geometry, Membrane.gradu, ← Finset.sum_add_distrib]
  exact Finset.sum_congr rfl fun I _ => by rw [Pi.add_apply, smul_add]

theorem jcur_rigid {X : NodeVec n 3} {J : Fin 2 → Fin 3 → ℝ} {dN : Fin n → Fin 2 → ℝ} (h : SurfaceIsoparametric X J dN)
    (u : NodeVec n 3) (c : Fin 3 → ℝ) (W : Matrix (Fin 3) (Fin 3) ℝ) (a : Fin 2) :
    ∑ I, dN I a • rigid c W (X + u) I = W *ᵥ Membrane.jcur J dN u a := by
  rw [interpolate_rigid _ (h.unity a), jcur_interpolated h]

theorem membrane_noStrain {X : NodeVec n 3} {J : Fin 2 → Fin 3 → ℝ} {dN : Fin n → Fin 2 → ℝ} (h : SurfaceIsoparametric X J dN)
    (u : NodeVec n 3) : NoStrain (Membrane.derivative J dN u) (X + u) := by
  intro c W hW
  have hd : ∀ (a : Fin 2) (y : Fin 3 → ℝ), ∑ I, (dN I a • y) ⬝ᵥ rigid c W (X + u) I = y ⬝ᵥ (W *ᵥ Membrane.jcur J dN u a) := by
    intro a y
    rw [← jcur_rigid h u c W a, dotProduct_sum]
    exact Finset.sum_congr rfl fun I _ => by rw [smul_dotProduct, dotProduct_smul]
  funext k
  rw [Finset.sum_apply]
  fin_cases k
  · exact (hd 0 _).trans (skew_self hW _)
  · exact (hd 1 _).trans (skew_self hW _)
  · have e : ∑ I, (dN I 1 • Membrane.jcur J dN u 0 + dN I 0 • Membrane.jcur J dN u 1) ⬝ᵥ rigid c W (X + u) I = 0 := by
      simp only [add_dotProduct, Finset.sum_add_distrib, hd]
      have := skew_dot hW (Membrane.jcur J dN u 0) (Membrane.jcur J dN u 1)
      rw [dotProduct_comm] at this
      linarith
    exact e

theorem skew_cross {W : Matrix (Fin 3) (Fin 3) ℝ} (hW : Wᵀ = -W) (a b : Fin 3 → ℝ) :
    (W *ᵥ a) ⨯₃ b + a ⨯₃ (W *ᵥ b) = W *ᵥ (a ⨯₃ b) := by
  have h : ∀ i j, W j i = -W i j := fun i j => congrFun (congrFun hW i) j
  have h0 : ∀ i, W i i = 0 := fun i => by have := h i i; linarith
  funext k
  fin_cases k <;>
    simp [Matrix.mulVec, dotProduct, cross_apply, Fin.sum_univ_three, h0, h 0 1, h 0 2, h 1 2] <;> ring

theorem a3Nd_sum (p : Shell.ShellPoint n) (u v : NodeVec n 3) :
    ∑ I, Shell.a3Nd p u I *ᵥ v I =
      (∑ I, p.dN I 0 • v I) ⨯₃ Shell.jcur p u 1 - (∑ I, p.dN I 1 • v I) ⨯₃ Shell.jcur p u 0 := by
  have h : ∀ I, Shell.a3Nd p u I *ᵥ v I =
      (p.dN I 0 • v I) ⨯₃ Shell.jcur p u 1 - (p.dN I 1 • v I) ⨯₃ Shell.jcur p u 0 := by
    intro I
    funext k
    fin_cases k <;>
      simp [Shell.a3Nd, Matrix.mulVec, dotProduct, cross_apply, Fin.sum_univ_three, Pi.single_apply] <;> ring
  simp only [h, Finset.sum_sub_distrib, map_sum, LinearMap.sum_apply]

theorem bending_noStrain {X : NodeVec n 3} {p : Shell.ShellPoint n} (h : ShellIsoparametric X p) (u : NodeVec n 3) :
    NoStrain (Shell.bopBending p u) (X + u) := by
  intro c W hW
  have hh : ∀ i, ∑ I, p.ddN I i • rigid c W (X + u) I = W *ᵥ Shell.hcur p u i := by
    intro i
    rw [interpolate_rigid _ (h.unity2 i), Shell.hcur, h.geometry2, ← Finset.sum_add_distrib]
    congr 1
    exact Finset.sum_congr rfl fun I _ => by rw [Pi.add_apply, smul_add]
  have hN : ∑ I, Shell.a3Nd p u I *ᵥ rigid c W (X + u) I = W *ᵥ Shell.a3N p u := by
    rw [a3Nd_sum, jcur_rigid h.toSurfaceIsoparametric, jcur_rigid h.toSurfaceIsoparametric, Shell.a3N, ← skew_cross hW]
    rw [show Membrane.jcur p.J p.dN u = Shell.jcur p u from rfl, ← cross_anticomm (Shell.jcur p u 0), sub_neg_eq_add]
  have hP : Shell.projector (Shell.a3N p u) (Shell.a3 p u) *ᵥ (W *ᵥ Shell.a3N p u) = W *ᵥ Shell.a3 p u := by
    have ha : ∃ r : ℝ, Shell.a3 p u = r • Shell.a3N p u ∧ (r = 1 / Shell.norm (Shell.a3N p u) ∨ Shell.a3N p u = 0) := by
      rw [Shell.a3, Shell.normalized]
      by_cases hp : 0 < Shell.a3N p u ⬝ᵥ Shell.a3N p u
      · rw [if_pos hp]
        exact ⟨_, rfl, Or.inl (one_div _).symm⟩
      · rw [if_neg hp]
        refine ⟨1, (one_smul _ _).symm, Or.inr ?_⟩
        have h0 : Shell.a3N p u ⬝ᵥ Shell.a3N p u = 0 := le_antisymm (not_lt.1 hp) (by
          rw [dotProduct]
          exact Finset.sum_nonneg fun i _ => mul_self_nonneg _)
        exact dotProduct_self_eq_zero.1 h0
    obtain ⟨r, hr, hr'⟩ := ha
    rw [Shell.projector, hr, Matrix.smul_mulVec, Matrix.sub_mulVec, Matrix.one_mulVec, Matrix.vecMulVec_mulVec,
      smul_dotProduct, skew_self hW, smul_zero, Matrix.mulVec_smul]
    rcases hr' with rfl | h0
    · simp
    · rw [h0]; simp
  funext i
  rw [Finset.sum_apply]
  have e : ∀ I, (Shell.bopBending p u I *ᵥ rigid c W (X + u) I) i = -(Shell.two i) *
      (Shell.hcur p u i ⬝ᵥ (Shell.projector (Shell.a3N p u) (Shell.a3 p u) *ᵥ (Shell.a3Nd p u I *ᵥ rigid c W (X + u) I)) +
        Shell.a3 p u ⬝ᵥ (p.ddN I i • rigid c W (X + u) I)) := by
    intro I
    generalize rigid c W (X + u) I = v
    rw [Matrix.mulVec_mulVec]
    have e1 : Shell.hcur p u i ⬝ᵥ ((Shell.projector (Shell.a3N p u) (Shell.a3 p u) * Shell.a3Nd p u I) *ᵥ v) =
        ∑ b, (Matrix.of (Shell.hcur p u) * (Shell.projector (Shell.a3N p u) (Shell.a3 p u) * Shell.a3Nd p u I)) i b * v b := by
      rw [Matrix.dotProduct_mulVec]
      rfl
    rw [e1, Shell.bopBending, Matrix.mulVec, dotProduct, dotProduct, ← Finset.sum_add_distrib, Finset.mul_sum]
    refine Finset.sum_congr rfl fun b _ => ?_
    simp only [Matrix.of_apply, Matrix.neg_apply, Matrix.add_apply, Matrix.vecMulVec_apply, Pi.smul_apply, smul_eq_mul]
    ring
  simp only [e]
  rw [← Finset.mul_sum, Finset.sum_add_distrib, ← dotProduct_sum, ← Matrix.mulVec_sum, ← dotProduct_sum, hN, hP, hh]
  have := skew_dot hW (Shell.hcur p u i) (Shell.a3 p u)
  rw [dotProduct_comm] at this
  rw [this]
  simp

end Ikarus.Element
