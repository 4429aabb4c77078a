import Verif.FE.EASModel
import Verif.FE.MembraneProps
import Mathlib.LinearAlgebra.Matrix.NonsingularInverse
import Mathlib.Tactic.LinearCombination
import Mathlib.Tactic.Abel

/-!
Enhanced assumed strain elements: the uncondensed residuals and blocks are the derivatives of a two field energy, and the
condensed system with the update of the internal variables is the uncondensed Newton step.
-/

namespace Ikarus.Element.EAS

open Matrix Ikarus.Element.Spec

variable {n d q m : Nat}

/-! ### Specification -/

/-- The two field energy: the energy density of the enhanced strain, integrated. -/
def Spec.energy (law : Law q) (gps : List (EASPoint n d q m)) (u : NodeVec n d) (alpha : Fin m → ℝ) : ℝ :=
  (gps.map fun gp => gp.detJ * gp.weight * law.energy (gp.strain u alpha)).sum

/-- Contract of an enhanced strain at a state: `Ed` and `Ea` are the derivatives of the strain, `Edd`, `Ead`, `Eaa` the
derivatives of these along a fixed stress; the second derivatives are symmetric.  The derivatives are taken along lines of
the displacements and curves `al` of the internal variables. -/
structure Spec.EASContract (p : EASPoint n d q m) (u : NodeVec n d) (alpha : Fin m → ℝ) : Prop where
  strain : ∀ (v : NodeVec n d) (al : ℝ → Fin m → ℝ) (w : Fin m → ℝ), al 0 = alpha → HasDerivAt al w 0 → 
    HasDerivAt (fun t : ℝ => p.strain (u + t • v) (al t))
    (fun k => ∑ I, ∑ a, p.Ed u alpha I k a * v I a + ∑ r, p.Ea u alpha k r * w r) 0
  Ed : ∀ (v : NodeVec n d) (al : ℝ → Fin m → ℝ) (w : Fin m → ℝ), al 0 = alpha → HasDerivAt al w 0 → 
    ∀ S I a, HasDerivAt (fun t : ℝ => ∑ k, p.Ed (u + t • v) (al t) I k a * S k)
    (∑ J, ∑ b, p.Edd u alpha S I J a b * v J b + ∑ r, p.Ead u alpha S I r a * w r) 0
  Ea : ∀ (v : NodeVec n d) (al : ℝ → Fin m → ℝ) (w : Fin m → ℝ), al 0 = alpha → HasDerivAt al w 0 → 
    ∀ S r, HasDerivAt (fun t : ℝ => ∑ k, p.Ea (u + t • v) (al t) k r * S k)
    (∑ J, ∑ b, p.Ead u alpha S J r b * v J b + ∑ s, p.Eaa u alpha S r s * w s) 0
  symm_dd : ∀ S I J a b, p.Edd u alpha S I J a b = p.Edd u alpha S J I b a
  symm_aa : ∀ S r s, p.Eaa u alpha S r s = p.Eaa u alpha S s r

/-- The residual of the two fields is the gradient of an energy. -/
def Spec.TwoFieldGradient (E : NodeVec n d → (Fin m → ℝ) → ℝ) (f : NodeVec n d) (R : Fin m → ℝ) (u : NodeVec n d)
    (alpha : Fin m → ℝ) : Prop :=
  ∀ (v : NodeVec n d) (al : ℝ → Fin m → ℝ) (w : Fin m → ℝ), al 0 = alpha → HasDerivAt al w 0 → 
    HasDerivAt (fun t : ℝ => E (u + t • v) (al t)) (work f v + ∑ r, R r * w r) 0

/-- `Lᵀ w` by nodes. -/
def Spec.mulLT (L : Fin n → Matrix (Fin m) (Fin d) ℝ) (w : Fin m → ℝ) : NodeVec n d := fun I a => ∑ r, L I r a * w r

/-- `L v`. -/
def Spec.mulLv (L : Fin n → Matrix (Fin m) (Fin d) ℝ) (v : NodeVec n d) : Fin m → ℝ := fun r => ∑ J, ∑ b, L J r b * v J b

/-- The blocks `K`, `L`, `D` are the derivative of the two field residual. -/
def Spec.TwoFieldTangent (f : NodeVec n d → (Fin m → ℝ) → NodeVec n d) (R : NodeVec n d → (Fin m → ℝ) → Fin m → ℝ)
    (K : BlockMat n d) (L : Fin n → Matrix (Fin m) (Fin d) ℝ) (D : Matrix (Fin m) (Fin m) ℝ) (u : NodeVec n d)
    (alpha : Fin m → ℝ) : Prop :=
  ∀ (v : NodeVec n d) (al : ℝ → Fin m → ℝ) (w : Fin m → ℝ), al 0 = alpha → HasDerivAt al w 0 → 
    HasDerivAt (fun t : ℝ => f (u + t • v) (al t)) (mul K v + Spec.mulLT L w) 0 ∧
    HasDerivAt (fun t : ℝ => R (u + t • v) (al t)) (Spec.mulLv L v + D *ᵥ w) 0

/-! ### The sums computed by the loops -/

/-- Displacement forces of one integration point. -/
noncomputable def pointForce (law : Law q) (u : NodeVec n d) (alpha : Fin m → ℝ) (gp : EASPoint n d q m) : NodeVec n d :=
  fun I => (gp.detJ * gp.weight) • ((gp.Ed u alpha I)ᵀ *ᵥ law.stress (gp.strain u alpha))

noncomputable def pointMatrix (law : Law q) (u : NodeVec n d) (alpha : Fin m → ℝ) (gp : EASPoint n d q m) : BlockMat n d :=
  fun I J => (gp.detJ * gp.weight) • ((gp.Ed u alpha I)ᵀ * law.tangent (gp.strain u alpha) * gp.Ed u alpha J) +
    (gp.detJ * gp.weight) • gp.Edd u alpha (law.stress (gp.strain u alpha)) I J

noncomputable def pointR (law : Law q) (u : NodeVec n d) (alpha : Fin m → ℝ) (gp : EASPoint n d q m) : Fin m → ℝ :=
  (gp.detJ * gp.weight) • ((gp.Ea u alpha)ᵀ *ᵥ law.stress (gp.strain u alpha))

noncomputable def pointD (law : Law q) (u : NodeVec n d) (alpha : Fin m → ℝ) (gp : EASPoint n d q m) :
    Matrix (Fin m) (Fin m) ℝ :=
  (gp.detJ * gp.weight) • ((gp.Ea u alpha)ᵀ * law.tangent (gp.strain u alpha) * gp.Ea u alpha +
      gp.Eaa u alpha (law.stress (gp.strain u alpha)))

noncomputable def pointL (law : Law q) (u : NodeVec n d) (alpha : Fin m → ℝ) (gp : EASPoint n d q m) :
    Fin n → Matrix (Fin m) (Fin d) ℝ := fun I =>
  (gp.detJ * gp.weight) • ((gp.Ea u alpha)ᵀ * law.tangent (gp.strain u alpha) * gp.Ed u alpha I +
      gp.Ead u alpha (law.stress (gp.strain u alpha)) I)

theorem foldl_update_add {V : Type*} [AddCommMonoid V] (c : Fin n → V) (l : List (Fin n)) (hl : l.Nodup) :
    ∀ f : Fin n → V, l.foldl (fun f i => Function.update f i (f i + c i)) f =
      fun I => if I ∈ l then f I + c I else f I := by
  induction l with
  | nil => intro f; simp
  | cons a l ih =>
    intro f
    rw [List.foldl_cons, ih (List.nodup_cons.1 hl).2]
    have ha := (List.nodup_cons.1 hl).1
    funext I
    by_cases h : I = a
    · subst h; simp [ha]
    · simp [h]

theorem calculateD_sum (law : Law q) (gps : List (EASPoint n d q m)) (u : NodeVec n d) (alpha : Fin m → ℝ) :
    calculateD law gps u alpha = (gps.map (pointD law u alpha)).sum := by
  rw [← zero_add (gps.map (pointD law u alpha)).sum, ← foldl_add_sum]
  rfl

theorem calculateRtilde_sum (law : Law q) (gps : List (EASPoint n d q m)) (u : NodeVec n d) (alpha : Fin m → ℝ) :
    calculateRtilde law gps u alpha = (gps.map (pointR law u alpha)).sum := by
  rw [← zero_add (gps.map (pointR law u alpha)).sum, ← foldl_add_sum]
  rfl

theorem calculateL_sum (law : Law q) (gps : List (EASPoint n d q m)) (u : NodeVec n d) (alpha : Fin m → ℝ) :
    calculateL law gps u alpha = (gps.map (pointL law u alpha)).sum := by
  rw [← zero_add (gps.map (pointL law u alpha)).sum, ← foldl_add_sum]
  refine foldl_congr' (fun L gp => ?_) _ _
  refine (foldl_update_add (pointL law u alpha gp) _ (List.nodup_finRange n) L).trans ?_
  funext I
  simp

/-- The uncondensed stiffness. -/
noncomputable def stiffness (law : Law q) (gps : List (EASPoint n d q m)) (u : NodeVec n d) (alpha : Fin m → ℝ) :
    BlockMat n d := (gps.map (pointMatrix law u alpha)).sum

/-- The uncondensed forces. -/
noncomputable def forces (law : Law q) (gps : List (EASPoint n d q m)) (u : NodeVec n d) (alpha : Fin m → ℝ) :
    NodeVec n d := (gps.map (pointForce law u alpha)).sum

theorem forces_loop (law : Law q) (gps : List (EASPoint n d q m)) (u : NodeVec n d) (alpha : Fin m → ℝ)
    (force : NodeVec n d) :
    gps.foldl (fun force gp =>
      (List.finRange n).foldl (fun force i => addSegment force i
        ((gp.detJ * gp.weight) • ((gp.Ed u alpha i)ᵀ *ᵥ law.stress (gp.strain u alpha)))) force) force =
    force + forces law gps u alpha := by
  rw [forces, ← foldl_add_sum]
  exact foldl_congr' (fun f gp => foldl_addSegment (pointForce law u alpha gp) f) _ _

theorem stiffness_loop (law : Law q) (gps : List (EASPoint n d q m)) (u : NodeVec n d) (alpha : Fin m → ℝ)
    (K : BlockMat n d) :
    gps.foldl (fun K gp =>
      (List.finRange n).foldl (fun K i =>
        (List.finRange n).foldl (fun K j =>
          addBlock (addBlock K i j ((gp.detJ * gp.weight) •
            ((gp.Ed u alpha i)ᵀ * law.tangent (gp.strain u alpha) * gp.Ed u alpha j))) i j
            ((gp.detJ * gp.weight) • gp.Edd u alpha (law.stress (gp.strain u alpha)) i j)) K) K) K =
    K + stiffness law gps u alpha := by
  rw [stiffness, ← foldl_add_sum]
  refine foldl_congr' (fun K gp => ?_) _ _
  simp only [addBlock_addBlock]
  exact foldl_addBlock (pointMatrix law u alpha gp) K

/-! ### Derivatives at one integration point -/

/-- Derivative of `B : S(e)` for a moving operator `B` and a moving strain. -/
theorem hasDerivAt_contract (law : Law q) (dom : Set (Fin q → ℝ)) (hl : LawContract law dom) (B e : ℝ → Fin q → ℝ)
    (g : (Fin q → ℝ) → ℝ) (de : Fin q → ℝ) (he : HasDerivAt e de 0) (hd : e 0 ∈ dom)
    (hB : ∀ S, HasDerivAt (fun t => ∑ k, B t k * S k) (g S) 0) :
    HasDerivAt (fun t => ∑ k, B t k * law.stress (e t) k)
      (∑ k, B 0 k * ∑ l, law.tangent (e 0) k l * de l + g (law.stress (e 0))) 0 := by
  have hS := hl.tangent e de 0 hd he
  rw [hasDerivAt_pi] at hS
  have hBk : ∀ k, HasDerivAt (fun t : ℝ => B t k) (g (Pi.single k 1)) 0 := by
    intro k
    have := hB (Pi.single k 1)
    simpa [Pi.single_apply] using this
  have hprod := HasDerivAt.fun_sum (u := Finset.univ) fun k _ => (hBk k).mul (hS k)
  have hfix := HasDerivAt.fun_sum (u := Finset.univ) fun k _ => (hBk k).mul_const (law.stress (e 0) k)
  have huniq := hfix.unique (hB (law.stress (e 0)))
  refine hprod.congr_deriv ?_
  rw [Finset.sum_add_distrib, huniq, add_comm]

theorem mulLT_eq (L : Fin n → Matrix (Fin m) (Fin d) ℝ) (w : Fin m → ℝ) (I : Fin n) :
    Spec.mulLT L w I = (L I)ᵀ *ᵥ w := rfl

theorem mulLv_eq (L : Fin n → Matrix (Fin m) (Fin d) ℝ) (v : NodeVec n d) : Spec.mulLv L v = ∑ I, L I *ᵥ v I := by
  funext r
  simp [Spec.mulLv, Finset.sum_apply, Matrix.mulVec, dotProduct]

/-- The increment of the strain as a vector. -/
theorem strain_increment (p : EASPoint n d q m) (u : NodeVec n d) (alpha : Fin m → ℝ) (v : NodeVec n d) (w : Fin m → ℝ) :
    (fun k => ∑ I, ∑ a, p.Ed u alpha I k a * v I a + ∑ r, p.Ea u alpha k r * w r) =
      ∑ I, p.Ed u alpha I *ᵥ v I + p.Ea u alpha *ᵥ w := by
  funext k
  simp [Finset.sum_apply, Matrix.mulVec, dotProduct]

section Point

variable (law : Law q) (dom : Set (Fin q → ℝ)) (hl : LawContract law dom) (gp : EASPoint n d q m) (u : NodeVec n d)
  (alpha : Fin m → ℝ) (hp : Spec.EASContract gp u alpha) (hu : gp.strain u alpha ∈ dom) (v : NodeVec n d)
  (al : ℝ → Fin m → ℝ) (w : Fin m → ℝ) (hal : al 0 = alpha) (hal' : HasDerivAt al w 0)

include hl hp hu hal hal'

theorem hasDerivAt_pointEnergy :
    HasDerivAt (fun t : ℝ => gp.detJ * gp.weight * law.energy (gp.strain (u + t • v) (al t)))
      (work (pointForce law u alpha gp) v + ∑ r, pointR law u alpha gp r * w r) 0 := by
  have h0 : u + (0 : ℝ) • v = u := by simp
  have h0' : al 0 = alpha := hal
  have h := hl.stress (fun t => gp.strain (u + t • v) (al t)) _ 0 (by simpa [hal] using hu) (hp.strain v al w hal hal')
  refine (h.const_mul (gp.detJ * gp.weight)).congr_deriv ?_
  simp only [h0, h0']
  generalize hs : law.stress (gp.strain u alpha) = s
  have e1 : work (pointForce law u alpha gp) v =
      gp.detJ * gp.weight * ∑ k, s k * ∑ I, ∑ a, gp.Ed u alpha I k a * v I a := by
    simp only [work, pointForce, hs, Pi.smul_apply, smul_eq_mul, Matrix.mulVec, dotProduct, Matrix.transpose_apply,
      Finset.mul_sum, Finset.sum_mul]
    rw [Finset.sum_comm' (t' := Finset.univ) (s' := fun _ => Finset.univ) (by simp)]
    rw [Finset.sum_comm]
    rw [show (∑ k : Fin q, ∑ I : Fin n, ∑ a : Fin d, gp.detJ * gp.weight * (s k * (gp.Ed u alpha I k a * v I a))) =
      ∑ I : Fin n, ∑ a : Fin d, ∑ k : Fin q, gp.detJ * gp.weight * (s k * (gp.Ed u alpha I k a * v I a)) by
        rw [Finset.sum_comm]
        exact Finset.sum_congr rfl fun I _ => Finset.sum_comm]
    exact Finset.sum_congr rfl fun I _ => Finset.sum_congr rfl fun a _ => Finset.sum_congr rfl fun k _ => by ring
  have e2 : ∑ r, pointR law u alpha gp r * w r = gp.detJ * gp.weight * ∑ k, s k * ∑ r, gp.Ea u alpha k r * w r := by
    simp only [pointR, hs, Pi.smul_apply, smul_eq_mul, Matrix.mulVec, dotProduct, Matrix.transpose_apply,
      Finset.mul_sum, Finset.sum_mul]
    rw [Finset.sum_comm]
    exact Finset.sum_congr rfl fun k _ => Finset.sum_congr rfl fun r _ => by ring
  rw [e1, e2, ← mul_add, ← Finset.sum_add_distrib]
  congr 1
  exact Finset.sum_congr rfl fun k _ => by ring

theorem hasDerivAt_pointForce :
    HasDerivAt (fun t : ℝ => pointForce law (u + t • v) (al t) gp)
      (mul (pointMatrix law u alpha gp) v + Spec.mulLT (pointL law u alpha gp) w) 0 := by
  have h0 : u + (0 : ℝ) • v = u := by simp
  have h0' : al 0 = alpha := hal
  rw [hasDerivAt_pi]
  intro I
  rw [hasDerivAt_pi]
  intro a
  have h := hasDerivAt_contract law dom hl (fun t k => gp.Ed (u + t • v) (al t) I k a)
    (fun t => gp.strain (u + t • v) (al t)) _ _ (hp.strain v al w hal hal') (by simpa [hal] using hu) (fun S => hp.Ed v al w hal hal' S I a)
  have hfun : (fun t : ℝ => pointForce law (u + t • v) (al t) gp I a) = fun t : ℝ => gp.detJ * gp.weight *
      ∑ k, gp.Ed (u + t • v) (al t) I k a * law.stress (gp.strain (u + t • v) (al t)) k := by
    funext t
    simp [pointForce, Matrix.mulVec, dotProduct]
  show HasDerivAt (fun t : ℝ => pointForce law (u + t • v) (al t) gp I a) _ 0
  rw [hfun]
  refine (h.const_mul (gp.detJ * gp.weight)).congr_deriv ?_
  simp only [h0, h0']
  have hC : (law.tangent (gp.strain u alpha))ᵀ = law.tangent (gp.strain u alpha) := by
    ext k l; exact hl.symm _ hu l k
  have e1 : ∑ k, gp.Ed u alpha I k a * ∑ l, law.tangent (gp.strain u alpha) k l *
      (∑ J, ∑ b, gp.Ed u alpha J l b * v J b + ∑ r, gp.Ea u alpha l r * w r) =
      ((gp.Ed u alpha I)ᵀ *ᵥ (law.tangent (gp.strain u alpha) *ᵥ
        (∑ I, gp.Ed u alpha I *ᵥ v I + gp.Ea u alpha *ᵥ w))) a := by
    rw [← strain_increment]; rfl
  have e2 : ∑ J, ∑ b, gp.Edd u alpha (law.stress (gp.strain u alpha)) I J a b * v J b =
      (∑ J, gp.Edd u alpha (law.stress (gp.strain u alpha)) I J *ᵥ v J) a := by
    simp [Finset.sum_apply, Matrix.mulVec, dotProduct]
  have e3 : ∑ r, gp.Ead u alpha (law.stress (gp.strain u alpha)) I r a * w r =
      ((gp.Ead u alpha (law.stress (gp.strain u alpha)) I)ᵀ *ᵥ w) a := rfl
  rw [e1, e2, e3]
  rw [Pi.add_apply, Pi.add_apply, mul_eq, mulLT_eq]
  simp only [pointMatrix, pointL, Matrix.transpose_smul, Matrix.transpose_add, Matrix.transpose_mul,
    Matrix.transpose_transpose, hC, Matrix.add_mulVec, Matrix.smul_mulVec, Matrix.mulVec_add, Matrix.mulVec_sum,
    Finset.sum_add_distrib, Finset.smul_sum, ← Matrix.mulVec_mulVec, Pi.add_apply, Pi.smul_apply, smul_eq_mul,
    Finset.sum_apply, ← Finset.mul_sum]
  ring

theorem hasDerivAt_pointR :
    HasDerivAt (fun t : ℝ => pointR law (u + t • v) (al t) gp)
      (Spec.mulLv (pointL law u alpha gp) v + pointD law u alpha gp *ᵥ w) 0 := by
  have h0 : u + (0 : ℝ) • v = u := by simp
  have h0' : al 0 = alpha := hal
  rw [hasDerivAt_pi]
  intro r
  have h := hasDerivAt_contract law dom hl (fun t k => gp.Ea (u + t • v) (al t) k r)
    (fun t => gp.strain (u + t • v) (al t)) _ _ (hp.strain v al w hal hal') (by simpa [hal] using hu) (fun S => hp.Ea v al w hal hal' S r)
  have hfun : (fun t : ℝ => pointR law (u + t • v) (al t) gp r) = fun t : ℝ => gp.detJ * gp.weight *
      ∑ k, gp.Ea (u + t • v) (al t) k r * law.stress (gp.strain (u + t • v) (al t)) k := by
    funext t
    simp [pointR, Matrix.mulVec, dotProduct]
  rw [hfun]
  refine (h.const_mul (gp.detJ * gp.weight)).congr_deriv ?_
  simp only [h0, h0']
  have e1 : ∑ k, gp.Ea u alpha k r * ∑ l, law.tangent (gp.strain u alpha) k l *
      (∑ J, ∑ b, gp.Ed u alpha J l b * v J b + ∑ r, gp.Ea u alpha l r * w r) =
      ((gp.Ea u alpha)ᵀ *ᵥ (law.tangent (gp.strain u alpha) *ᵥ
        (∑ I, gp.Ed u alpha I *ᵥ v I + gp.Ea u alpha *ᵥ w))) r := by
    rw [← strain_increment]; rfl
  have e2 : ∑ J, ∑ b, gp.Ead u alpha (law.stress (gp.strain u alpha)) J r b * v J b =
      (∑ J, gp.Ead u alpha (law.stress (gp.strain u alpha)) J *ᵥ v J) r := by
    simp [Finset.sum_apply, Matrix.mulVec, dotProduct]
  have e3 : ∑ s, gp.Eaa u alpha (law.stress (gp.strain u alpha)) r s * w s =
      (gp.Eaa u alpha (law.stress (gp.strain u alpha)) *ᵥ w) r := rfl
  rw [e1, e2, e3]
  rw [Pi.add_apply, mulLv_eq]
  simp only [pointD, pointL, Matrix.add_mulVec, Matrix.smul_mulVec, Matrix.mulVec_add, Matrix.mulVec_sum,
    Finset.sum_add_distrib, Finset.smul_sum, ← Matrix.mulVec_mulVec, Pi.add_apply, Pi.smul_apply, smul_eq_mul,
    Finset.sum_apply, ← Finset.mul_sum]
  ring

end Point

theorem mulLT_list_sum {α : Type*} (l : List α) (L : α → Fin n → Matrix (Fin m) (Fin d) ℝ) (w : Fin m → ℝ) :
    Spec.mulLT (l.map L).sum w = (l.map fun x => Spec.mulLT (L x) w).sum := by
  induction l with
  | nil => funext I a; simp [Spec.mulLT]
  | cons x l ih =>
    simp only [List.map_cons, List.sum_cons, ← ih]
    funext I a
    simp [Spec.mulLT, add_mul, Finset.sum_add_distrib]

theorem mulLv_list_sum {α : Type*} (l : List α) (L : α → Fin n → Matrix (Fin m) (Fin d) ℝ) (v : NodeVec n d) :
    Spec.mulLv (l.map L).sum v = (l.map fun x => Spec.mulLv (L x) v).sum := by
  induction l with
  | nil => funext I; simp [Spec.mulLv]
  | cons x l ih =>
    simp only [List.map_cons, List.sum_cons, ← ih]
    funext r
    simp [Spec.mulLv, add_mul, Finset.sum_add_distrib]

/-! ### The two field problem -/

/-- Hypotheses at a state: the law is consistent and the enhanced strains satisfy their contract. -/
structure Spec.Regular (law : Law q) (dom : Set (Fin q → ℝ)) (gps : List (EASPoint n d q m)) (u : NodeVec n d)
    (alpha : Fin m → ℝ) : Prop where
  law : LawContract law dom
  points : ∀ gp ∈ gps, Spec.EASContract gp u alpha
  strains : ∀ gp ∈ gps, gp.strain u alpha ∈ dom

/-- C49, gradient. The forces before condensation and the residual of the internal variables are the gradient of the two
field energy. -/
theorem eas_gradient (law : Law q) (dom : Set (Fin q → ℝ)) (gps : List (EASPoint n d q m)) (u : NodeVec n d)
    (alpha : Fin m → ℝ) (h : Spec.Regular law dom gps u alpha) :
    Spec.TwoFieldGradient (Spec.energy law gps) (forces law gps u alpha) (calculateRtilde law gps u alpha) u alpha := by
  intro v al w hal hal'
  have hd := hasDerivAt_list_sum gps
    (fun gp (t : ℝ) => gp.detJ * gp.weight * law.energy (gp.strain (u + t • v) (al t)))
    (fun gp => work (pointForce law u alpha gp) v + ∑ r, pointR law u alpha gp r * w r) 0
    (fun gp hgp => hasDerivAt_pointEnergy law dom h.law gp u alpha (h.points gp hgp) (h.strains gp hgp) v al w hal hal')
  refine hd.congr_deriv ?_
  rw [forces, calculateRtilde_sum, work_list_sum, list_sum_add]
  congr 1
  exact (list_sum_dotProduct gps (pointR law u alpha) w).symm

/-- C49, tangent. The stiffness before condensation and the matrices `L` and `D` are the derivative of the two
residuals. -/
theorem eas_tangent (law : Law q) (dom : Set (Fin q → ℝ)) (gps : List (EASPoint n d q m)) (u : NodeVec n d)
    (alpha : Fin m → ℝ) (h : Spec.Regular law dom gps u alpha) :
    Spec.TwoFieldTangent (forces law gps) (calculateRtilde law gps) (stiffness law gps u alpha)
      (calculateL law gps u alpha) (calculateD law gps u alpha) u alpha := by
  intro v al w hal hal'
  constructor
  · have hd := hasDerivAt_list_sum gps (fun gp (t : ℝ) => pointForce law (u + t • v) (al t) gp)
      (fun gp => mul (pointMatrix law u alpha gp) v + Spec.mulLT (pointL law u alpha gp) w) 0
      (fun gp hgp => hasDerivAt_pointForce law dom h.law gp u alpha (h.points gp hgp) (h.strains gp hgp) v al w hal hal')
    refine hd.congr_deriv ?_
    rw [stiffness, calculateL_sum, mul_list_sum, list_sum_add, mulLT_list_sum]
  · simp only [calculateRtilde_sum]
    have hd := hasDerivAt_list_sum gps (fun gp (t : ℝ) => pointR law (u + t • v) (al t) gp)
      (fun gp => Spec.mulLv (pointL law u alpha gp) v + pointD law u alpha gp *ᵥ w) 0
      (fun gp hgp => hasDerivAt_pointR law dom h.law gp u alpha (h.points gp hgp) (h.strains gp hgp) v al w hal hal')
    refine hd.congr_deriv ?_
    rw [calculateD_sum, calculateL_sum, list_sum_add, mulLv_list_sum, list_sum_mulVec]

theorem symmetric_stiffness (law : Law q) (dom : Set (Fin q → ℝ)) (gps : List (EASPoint n d q m)) (u : NodeVec n d)
    (alpha : Fin m → ℝ) (h : Spec.Regular law dom gps u alpha) : Spec.Symmetric (stiffness law gps u alpha) := by
  refine symmetric_list_sum _ _ fun gp hgp I J a b => ?_
  have hC : (law.tangent (gp.strain u alpha))ᵀ = law.tangent (gp.strain u alpha) := by
    ext k l; exact h.law.symm _ (h.strains gp hgp) l k
  have h1 : ((gp.Ed u alpha I)ᵀ * law.tangent (gp.strain u alpha) * gp.Ed u alpha J)ᵀ =
      (gp.Ed u alpha J)ᵀ * law.tangent (gp.strain u alpha) * gp.Ed u alpha I := by
    rw [Matrix.transpose_mul, Matrix.transpose_mul, Matrix.transpose_transpose, hC, Matrix.mul_assoc]
  have := congrFun (congrFun h1 b) a
  simp only [pointMatrix, Matrix.add_apply, Matrix.smul_apply, smul_eq_mul]
  rw [← this, Matrix.transpose_apply, (h.points gp hgp).symm_dd]

theorem symmetric_D (law : Law q) (dom : Set (Fin q → ℝ)) (gps : List (EASPoint n d q m)) (u : NodeVec n d)
    (alpha : Fin m → ℝ) (h : Spec.Regular law dom gps u alpha) : (calculateD law gps u alpha)ᵀ = calculateD law gps u alpha := by
  rw [calculateD_sum, Matrix.transpose_list_sum, List.map_map]
  congr 1
  refine List.map_congr_left fun gp hgp => ?_
  have hC : (law.tangent (gp.strain u alpha))ᵀ = law.tangent (gp.strain u alpha) := by
    ext k l; exact h.law.symm _ (h.strains gp hgp) l k
  have hA : (gp.Eaa u alpha (law.stress (gp.strain u alpha)))ᵀ = gp.Eaa u alpha (law.stress (gp.strain u alpha)) := by
    ext r s; exact (h.points gp hgp).symm_aa _ s r
  simp only [Function.comp_apply, pointD, Matrix.transpose_smul, Matrix.transpose_add, Matrix.transpose_mul,
    Matrix.transpose_transpose, hC, hA, Matrix.mul_assoc]

theorem subtractUpperAndMirror_eq (K M : BlockMat n d) (hK : Spec.Symmetric K) (hM : Spec.Symmetric M) :
    subtractUpperAndMirror K M = K - M := by
  funext I J
  ext a b
  simp only [subtractUpperAndMirror, Matrix.of_apply, Pi.sub_apply, Matrix.sub_apply]
  by_cases h : J < I ∨ (I = J ∧ b < a)
  · rw [if_pos h, hK J I b a, hM J I b a]
  · rw [if_neg h]

/-- C49, symmetry. With internal variables the matrix is symmetric whatever the law, the strain and the given matrix. -/
theorem eas_symmetric (law : Law q) (gps : List (EASPoint n d q m)) (affordance : MatrixAffordance) (u : NodeVec n d)
    (alpha : Fin m → ℝ) (K Kc : BlockMat n d) (hm : m ≠ 0)
    (h : calculateMatrix law gps affordance u alpha K = some Kc) : Spec.Symmetric Kc := by
  unfold calculateMatrix at h
  by_cases h1 : affordance ≠ .stiffness
  · simp [h1] at h
  by_cases h2 : (!applicable n d m) = true
  · rw [if_neg h1, if_pos h2] at h; simp at h
  rw [if_neg h1, if_neg h2] at h
  simp only [hm, if_false, Option.some.injEq] at h
  rw [← h]
  intro I J a b
  simp only [subtractUpperAndMirror, Matrix.of_apply]
  rcases lt_trichotomy I J with g | g | g
  · rw [if_neg (not_or.2 ⟨g.asymm, fun c => g.ne c.1⟩), if_pos (Or.inl g)]
  · subst g
    rcases lt_trichotomy a b with k | k | k
    · rw [if_neg (not_or.2 ⟨lt_irrefl _, fun c => k.asymm c.2⟩), if_pos (Or.inr ⟨rfl, k⟩)]
    · subst k; rfl
    · rw [if_pos (Or.inr ⟨rfl, k⟩), if_neg (not_or.2 ⟨lt_irrefl _, fun c => k.asymm c.2⟩)]
  · rw [if_pos (Or.inl g), if_neg (not_or.2 ⟨g.asymm, fun c => g.ne c.1⟩)]

/-! ### Condensation -/

theorem mulL_eq (L : Fin n → Matrix (Fin m) (Fin d) ℝ) (v : NodeVec n d) : mulL L v = Spec.mulLv L v := (mulLv_eq L v).symm

theorem mul_condensed (L : Fin n → Matrix (Fin m) (Fin d) ℝ) (A : Matrix (Fin m) (Fin m) ℝ) (v : NodeVec n d) :
    mul (fun I J => (L I)ᵀ * A * L J) v = Spec.mulLT L (A *ᵥ Spec.mulLv L v) := by
  funext I
  rw [mul_eq, mulLT_eq, mulLv_eq, Matrix.mulVec_sum, Matrix.mulVec_sum]
  refine Finset.sum_congr rfl fun J _ => ?_
  rw [Matrix.mulVec_mulVec, Matrix.mulVec_mulVec]

theorem mul_add_left (K K' : BlockMat n d) (v : NodeVec n d) : mul (K + K') v = mul K v + mul K' v := by
  funext I a
  simp [mul, add_mul, Finset.sum_add_distrib]

theorem mul_sub_left (K K' : BlockMat n d) (v : NodeVec n d) : mul (K - K') v = mul K v - mul K' v := by
  funext I a
  simp [mul, sub_mul, Finset.sum_sub_distrib]

theorem mulLT_neg (L : Fin n → Matrix (Fin m) (Fin d) ℝ) (w : Fin m → ℝ) : Spec.mulLT L (-w) = -Spec.mulLT L w := by
  funext I; rw [mulLT_eq, Matrix.mulVec_neg]; rfl

theorem mulLT_add (L : Fin n → Matrix (Fin m) (Fin d) ℝ) (w w' : Fin m → ℝ) :
    Spec.mulLT L (w + w') = Spec.mulLT L w + Spec.mulLT L w' := by
  funext I; rw [mulLT_eq, Matrix.mulVec_add]; rfl

/-- What the element returns with internal variables. -/
theorem calculateMatrix_eq (law : Law q) (dom : Set (Fin q → ℝ)) (gps : List (EASPoint n d q m)) (u : NodeVec n d)
    (alpha : Fin m → ℝ) (h : Spec.Regular law dom gps u alpha) (hm : m ≠ 0) (ha : applicable n d m = true)
    (K : BlockMat n d) (hK : Spec.Symmetric K) :
    calculateMatrix law gps .stiffness u alpha K = some (K + (stiffness law gps u alpha - fun I J =>
      (calculateL law gps u alpha I)ᵀ * (calculateD law gps u alpha)⁻¹ * calculateL law gps u alpha J)) := by
  unfold calculateMatrix
  simp only [ne_eq, not_true_eq_false, if_false, ha, Bool.not_true, Bool.false_eq_true, hm]
  rw [stiffness_loop, subtractUpperAndMirror_eq, add_sub_assoc]
  · intro I J a b
    rw [Pi.add_apply, Pi.add_apply, Pi.add_apply, Pi.add_apply, Matrix.add_apply, Matrix.add_apply, hK I J a b,
      symmetric_stiffness law dom gps u alpha h I J a b]
  · intro I J a b
    show ((calculateL law gps u alpha I)ᵀ * (calculateD law gps u alpha)⁻¹ * calculateL law gps u alpha J) a b =
      ((calculateL law gps u alpha J)ᵀ * (calculateD law gps u alpha)⁻¹ * calculateL law gps u alpha I) b a
    rw [← Matrix.transpose_apply ((calculateL law gps u alpha J)ᵀ * (calculateD law gps u alpha)⁻¹ *
      calculateL law gps u alpha I), Matrix.transpose_mul, Matrix.transpose_mul, Matrix.transpose_nonsing_inv,
      symmetric_D law dom gps u alpha h, Matrix.transpose_transpose, Matrix.mul_assoc]

theorem calculateVector_eq (law : Law q) (gps : List (EASPoint n d q m)) (u : NodeVec n d) (alpha : Fin m → ℝ) (hm : m ≠ 0)
    (ha : applicable n d m = true) (f : NodeVec n d) :
    calculateVector law gps .forces u alpha f = some (f + (forces law gps u alpha -
      Spec.mulLT (calculateL law gps u alpha) ((calculateD law gps u alpha)⁻¹ *ᵥ calculateRtilde law gps u alpha))) := by
  unfold calculateVector
  simp only [ne_eq, not_true_eq_false, if_false, ha, Bool.not_true, Bool.false_eq_true, hm]
  rw [forces_loop, add_sub_assoc]
  congr 3
  funext I
  rw [mulLT_eq, Matrix.mulVec_mulVec]

theorem updateState_eq (law : Law q) (gps : List (EASPoint n d q m)) (u : NodeVec n d) (alpha : Fin m → ℝ) (hm : m ≠ 0)
    (ha : applicable n d m = true) (N : Nat) (dx : NodeVec n d) :
    updateState law gps u alpha N N dx = some (alpha - (calculateD law gps u alpha)⁻¹ *ᵥ
      (calculateRtilde law gps u alpha + Spec.mulLv (calculateL law gps u alpha) dx)) := by
  unfold updateState
  simp only [ne_eq, not_true_eq_false, if_false, ha, Bool.not_true, Bool.false_eq_true, hm, mulL_eq]

/-- The rows of the linearised two field problem. -/
structure Spec.Linearised (f : NodeVec n d) (R : Fin m → ℝ) (K : BlockMat n d) (L : Fin n → Matrix (Fin m) (Fin d) ℝ)
    (D : Matrix (Fin m) (Fin m) ℝ) (dx : NodeVec n d) (dalpha : Fin m → ℝ) (r : NodeVec n d) : Prop where
  displacements : f + mul K dx + Spec.mulLT L dalpha = r
  internal : R + Spec.mulLv L dx + D *ᵥ dalpha = 0

/-- C49, condensation. For every correction the condensed system and the updated internal variables give the rows of the
uncondensed linearised problem: `fc + Kc dx = f + K dx + Lᵀ dα` and `R + L dx + D dα = 0`; the update is the only one with
the latter.  The given matrix and vector are added. -/
theorem eas_condensation (law : Law q) (dom : Set (Fin q → ℝ)) (gps : List (EASPoint n d q m)) (u : NodeVec n d)
    (alpha : Fin m → ℝ) (h : Spec.Regular law dom gps u alpha) (hm : m ≠ 0) (ha : applicable n d m = true)
    (hD : IsUnit (calculateD law gps u alpha).det) (K0 : BlockMat n d) (hK0 : Spec.Symmetric K0) (f0 : NodeVec n d)
    (N : Nat) :
    ∃ Kc fc, calculateMatrix law gps .stiffness u alpha K0 = some (K0 + Kc) ∧
      calculateVector law gps .forces u alpha f0 = some (f0 + fc) ∧
      ∀ dx, ∃ alpha', updateState law gps u alpha N N dx = some alpha' ∧
        ∀ beta r, Spec.Linearised (forces law gps u alpha) (calculateRtilde law gps u alpha) (stiffness law gps u alpha)
          (calculateL law gps u alpha) (calculateD law gps u alpha) dx (beta - alpha) r ↔
            beta = alpha' ∧ fc + mul Kc dx = r := by
  refine ⟨_, _, calculateMatrix_eq law dom gps u alpha h hm ha K0 hK0, calculateVector_eq law gps u alpha hm ha f0,
    fun dx => ⟨_, updateState_eq law gps u alpha hm ha N dx, fun beta r => ?_⟩⟩
  have hinv := Matrix.nonsing_inv_mul _ hD
  have hinv' := Matrix.mul_nonsing_inv _ hD
  generalize calculateD law gps u alpha = D at *
  generalize calculateL law gps u alpha = L at *
  generalize calculateRtilde law gps u alpha = R at *
  rw [mul_sub_left, mul_condensed]
  have key : forces law gps u alpha + mul (stiffness law gps u alpha) dx +
        Spec.mulLT L ((alpha - D⁻¹ *ᵥ (R + Spec.mulLv L dx)) - alpha) =
      forces law gps u alpha - Spec.mulLT L (D⁻¹ *ᵥ R) +
        (mul (stiffness law gps u alpha) dx - Spec.mulLT L (D⁻¹ *ᵥ Spec.mulLv L dx)) := by
    rw [sub_sub_cancel_left, mulLT_neg, Matrix.mulVec_add, mulLT_add]
    abel
  constructor
  · rintro ⟨h1, h2⟩
    have hb : beta = alpha - D⁻¹ *ᵥ (R + Spec.mulLv L dx) := by
      have := congrArg (fun x => D⁻¹ *ᵥ x) h2
      simp only [Matrix.mulVec_add _ (R + _), Matrix.mulVec_mulVec, hinv, Matrix.one_mulVec, Matrix.mulVec_zero] at this
      rw [← sub_eq_zero, ← this]
      abel
    refine ⟨hb, ?_⟩
    rw [← h1, hb, key]
  · rintro ⟨hb, h1⟩
    refine ⟨?_, ?_⟩
    · rw [hb, key, h1]
    · rw [hb, sub_sub_cancel_left, Matrix.mulVec_neg, Matrix.mulVec_mulVec, hinv', Matrix.one_mulVec, add_neg_cancel]

/-- C49, tangent of the condensed forces. If the internal variables follow the displacements such that their residual
stays zero, the matrix is the derivative of the returned forces. -/
theorem eas_condensed_tangent (law : Law q) (dom : Set (Fin q → ℝ)) (gps : List (EASPoint n d q m)) (u : NodeVec n d)
    (alpha : Fin m → ℝ) (h : Spec.Regular law dom gps u alpha) (hm : m ≠ 0) (ha : applicable n d m = true)
    (hD : IsUnit (calculateD law gps u alpha).det) (v : NodeVec n d) (al : ℝ → Fin m → ℝ) (w : Fin m → ℝ)
    (hal : al 0 = alpha) (hal' : HasDerivAt al w 0) (hR : ∀ t, calculateRtilde law gps (u + t • v) (al t) = 0) :
    ∃ Kc, calculateMatrix law gps .stiffness u alpha 0 = some Kc ∧
      ∃ fc : ℝ → NodeVec n d, (∀ t, calculateVector law gps .forces (u + t • v) (al t) 0 = some (fc t)) ∧
        HasDerivAt fc (mul Kc v) 0 := by
  refine ⟨_, calculateMatrix_eq law dom gps u alpha h hm ha 0 (fun I J a b => rfl),
    fun t => forces law gps (u + t • v) (al t), fun t => ?_, ?_⟩
  · rw [calculateVector_eq law gps _ _ hm ha, hR t, Matrix.mulVec_zero, zero_add]
    congr 1
    funext I a
    simp [Spec.mulLT]
  · obtain ⟨h1, h2⟩ := eas_tangent law dom gps u alpha h v al w hal hal'
    have h3 : HasDerivAt (fun t : ℝ => calculateRtilde law gps (u + t • v) (al t)) 0 0 := by
      simp only [hR]; exact hasDerivAt_const _ _
    have h4 := h2.unique h3
    have hw : w = -((calculateD law gps u alpha)⁻¹ *ᵥ Spec.mulLv (calculateL law gps u alpha) v) := by
      have := congrArg (fun x => (calculateD law gps u alpha)⁻¹ *ᵥ x) h4
      simp only [Matrix.mulVec_add, Matrix.mulVec_mulVec, Matrix.nonsing_inv_mul _ hD, Matrix.one_mulVec,
        Matrix.mulVec_zero] at this
      exact eq_neg_of_add_eq_zero_right this
    refine h1.congr_deriv ?_
    rw [zero_add, mul_sub_left, mul_condensed, hw, mulLT_neg, sub_eq_add_neg]

/-! ### Assembled Newton steps -/

/-- A mesh of elements `ε` with `N` global degrees of freedom. -/
structure Spec.Mesh (ε : Type) (n d q m N : Nat) where
  law : ε → Law q
  gps : ε → List (EASPoint n d q m)
  dofs : ε → Fin n → Fin d → Fin N

/-- The part of a global vector at an element. -/
def Spec.Mesh.local {ε : Type} {N : Nat} (M : Spec.Mesh ε n d q m N) (x : Fin N → ℝ) (e : ε) : NodeVec n d :=
  fun I a => x (M.dofs e I a)

/-- Assembly of element vectors. -/
def Spec.Mesh.assemble {ε : Type} [Fintype ε] {N : Nat} (M : Spec.Mesh ε n d q m N) (f : ε → NodeVec n d) (i : Fin N) : ℝ :=
  ∑ e, ∑ I, ∑ a, if M.dofs e I a = i then f e I a else 0

/-- A Newton step with the vectors and matrices the elements return: the assembled linear system holds for the free degrees
of freedom with external forces `P`, and every element updates its internal variables with the correction. -/
def Spec.Mesh.CondensedStep {ε : Type} [Fintype ε] {N : Nat} (M : Spec.Mesh ε n d q m N) (free : Set (Fin N))
    (P x dx : Fin N → ℝ) (alpha alpha' : ε → Fin m → ℝ) : Prop :=
  ∃ (Kc : ε → BlockMat n d) (fc : ε → NodeVec n d),
    (∀ e, calculateMatrix (M.law e) (M.gps e) .stiffness (M.local x e) (alpha e) 0 = some (Kc e)) ∧
    (∀ e, calculateVector (M.law e) (M.gps e) .forces (M.local x e) (alpha e) 0 = some (fc e)) ∧
    (∀ e, updateState (M.law e) (M.gps e) (M.local x e) (alpha e) N N (M.local dx e) = some (alpha' e)) ∧
    ∀ i ∈ free, M.assemble (fun e => fc e + mul (Kc e) (M.local dx e)) i = P i

/-- A Newton step of the two field problem in all displacements and internal variables. -/
def Spec.Mesh.TwoFieldStep {ε : Type} [Fintype ε] {N : Nat} (M : Spec.Mesh ε n d q m N) (free : Set (Fin N))
    (P x dx : Fin N → ℝ) (alpha alpha' : ε → Fin m → ℝ) : Prop :=
  ∃ r : ε → NodeVec n d,
    (∀ e, Spec.Linearised (forces (M.law e) (M.gps e) (M.local x e) (alpha e))
      (calculateRtilde (M.law e) (M.gps e) (M.local x e) (alpha e))
      (stiffness (M.law e) (M.gps e) (M.local x e) (alpha e)) (calculateL (M.law e) (M.gps e) (M.local x e) (alpha e))
      (calculateD (M.law e) (M.gps e) (M.local x e) (alpha e)) (M.local dx e) (alpha' e - alpha e) (r e)) ∧
    ∀ i ∈ free, M.assemble r i = P i

theorem step_iff {ε : Type} [Fintype ε] {N : Nat} (M : Spec.Mesh ε n d q m N) (dom : Set (Fin q → ℝ))
    (free : Set (Fin N)) (P x dx : Fin N → ℝ) (alpha alpha' : ε → Fin m → ℝ) (hm : m ≠ 0) (ha : applicable n d m = true)
    (h : ∀ e, Spec.Regular (M.law e) dom (M.gps e) (M.local x e) (alpha e))
    (hD : ∀ e, IsUnit (calculateD (M.law e) (M.gps e) (M.local x e) (alpha e)).det) :
    M.CondensedStep free P x dx alpha alpha' ↔ M.TwoFieldStep free P x dx alpha alpha' := by
  have hz : Spec.Symmetric (0 : BlockMat n d) := fun I J a b => rfl
  constructor
  · rintro ⟨Kc, fc, h1, h2, h3, h4⟩
    refine ⟨fun e => fc e + mul (Kc e) (M.local dx e), fun e => ?_, h4⟩
    obtain ⟨K, f, k1, k2, k3⟩ := eas_condensation (M.law e) dom (M.gps e) (M.local x e) (alpha e) (h e) hm ha (hD e) 0 hz 0 N
    obtain ⟨a', k4, k5⟩ := k3 (M.local dx e)
    rw [h1 e, zero_add] at k1
    rw [h2 e, zero_add] at k2
    rw [h3 e] at k4
    refine (k5 (alpha' e) _).2 ⟨Option.some.inj k4, ?_⟩
    show f + mul K (M.local dx e) = fc e + mul (Kc e) (M.local dx e)
    rw [Option.some.inj k1, Option.some.inj k2]
  · rintro ⟨r, h1, h2⟩
    choose K f k1 k2 k3 using fun e =>
      eas_condensation (M.law e) dom (M.gps e) (M.local x e) (alpha e) (h e) hm ha (hD e) 0 hz 0 N
    refine ⟨K, f, fun e => by rw [k1 e, zero_add], fun e => by rw [k2 e, zero_add], fun e => ?_, fun i hi => ?_⟩
    · obtain ⟨a', k4, k5⟩ := k3 e (M.local dx e)
      rw [k4, ((k5 (alpha' e) _).1 (h1 e)).1]
    · rw [← h2 i hi]
      congr 1
      funext e
      obtain ⟨a', k4, k5⟩ := k3 e (M.local dx e)
      exact ((k5 (alpha' e) _).1 (h1 e)).2

/-- C49, Newton iteration. On every mesh, with any Dirichlet conditions and loads, sequences of displacements and internal
variables are Newton iterates with the condensed elements exactly if they are Newton iterates of the two field problem. -/
theorem eas_newton {ε : Type} [Fintype ε] {N : Nat} (M : Spec.Mesh ε n d q m N) (dom : Set (Fin q → ℝ))
    (free : Set (Fin N)) (P : Fin N → ℝ) (x : ℕ → Fin N → ℝ) (alpha : ℕ → ε → Fin m → ℝ) (hm : m ≠ 0)
    (ha : applicable n d m = true)
    (h : ∀ k e, Spec.Regular (M.law e) dom (M.gps e) (M.local (x k) e) (alpha k e))
    (hD : ∀ k e, IsUnit (calculateD (M.law e) (M.gps e) (M.local (x k) e) (alpha k e)).det) :
    (∀ k, M.CondensedStep free P (x k) (x (k + 1) - x k) (alpha k) (alpha (k + 1))) ↔
      ∀ k, M.TwoFieldStep free P (x k) (x (k + 1) - x k) (alpha k) (alpha (k + 1)) :=
  forall_congr' fun k => step_iff M dom free P _ _ _ _ hm ha (h k) (hD k)

/-! ### Linear elements -/

/-- The strain of a linear element as a strain with derivatives. -/
def _root_.Ikarus.Element.LinPoint.toPoint (p : LinPoint n d q) : Point n d q where
  detJ := p.detJ
  weight := p.weight
  strain := p.strain
  bop _ I := p.bop I
  kg _ _ _ _ := 0

/-- Integration points of the linear strain with modes. -/
def linearPoints (gps : List (LinPoint n d q × Matrix (Fin q) (Fin m) ℝ)) : List (EASPoint n d q m) :=
  gps.map fun gp => additive gp.1.toPoint gp.2

section Linear

variable (C : Matrix (Fin q) (Fin q) ℝ) (gps : List (LinPoint n d q × Matrix (Fin q) (Fin m) ℝ))

theorem linear_D (u u' : NodeVec n d) (alpha alpha' : Fin m → ℝ) :
    calculateD (linearLaw C) (linearPoints gps) u alpha = calculateD (linearLaw C) (linearPoints gps) u' alpha' := by
  rw [calculateD_sum, calculateD_sum, linearPoints, List.map_map, List.map_map]
  rfl

theorem linear_L (u u' : NodeVec n d) (alpha alpha' : Fin m → ℝ) :
    calculateL (linearLaw C) (linearPoints gps) u alpha = calculateL (linearLaw C) (linearPoints gps) u' alpha' := by
  rw [calculateL_sum, calculateL_sum, linearPoints, List.map_map, List.map_map]
  rfl

theorem linear_R (u : NodeVec n d) (alpha : Fin m → ℝ) :
    calculateRtilde (linearLaw C) (linearPoints gps) u alpha =
      Spec.mulLv (calculateL (linearLaw C) (linearPoints gps) u alpha) u +
        calculateD (linearLaw C) (linearPoints gps) u alpha *ᵥ alpha := by
  rw [calculateRtilde_sum, calculateL_sum, calculateD_sum, mulLv_list_sum, list_sum_mulVec, ← list_sum_add]
  congr 1
  rw [linearPoints, List.map_map, List.map_map]
  refine List.map_congr_left fun gp _ => ?_
  simp only [Function.comp_apply, pointR, pointL, pointD, additive, linearLaw, LinPoint.toPoint, add_zero, mulLv_eq,
    LinPoint.strain, Matrix.mulVec_add, Matrix.mulVec_sum, Matrix.smul_mulVec, Matrix.mulVec_mulVec, smul_add,
    Finset.smul_sum, Matrix.mul_assoc, smul_zero]

theorem linear_f (hC : C.IsSymm) (u : NodeVec n d) (alpha : Fin m → ℝ) :
    forces (linearLaw C) (linearPoints gps) u alpha = mul (stiffness (linearLaw C) (linearPoints gps) u alpha) u +
      Spec.mulLT (calculateL (linearLaw C) (linearPoints gps) u alpha) alpha := by
  rw [forces, stiffness, calculateL_sum, mul_list_sum, mulLT_list_sum, ← list_sum_add]
  congr 1
  rw [linearPoints, List.map_map, List.map_map]
  refine List.map_congr_left fun gp _ => ?_
  funext I
  rw [Function.comp_apply, Function.comp_apply, Pi.add_apply, mul_eq, mulLT_eq]
  simp only [pointForce, pointL, pointMatrix, additive, linearLaw, LinPoint.toPoint, add_zero, smul_zero,
    LinPoint.strain, Matrix.mulVec_add, Matrix.mulVec_sum, Matrix.smul_mulVec, Matrix.mulVec_mulVec, smul_add,
    Finset.smul_sum, Matrix.mul_assoc, Matrix.transpose_smul, Matrix.transpose_mul, Matrix.transpose_transpose, hC.eq]

theorem linear_stiffness (u u' : NodeVec n d) (alpha alpha' : Fin m → ℝ) :
    stiffness (linearLaw C) (linearPoints gps) u alpha = stiffness (linearLaw C) (linearPoints gps) u' alpha' := by
  rw [stiffness, stiffness, linearPoints, List.map_map, List.map_map]
  rfl

theorem additive_contract (p : Point n d q) (M : Matrix (Fin q) (Fin m) ℝ) (u : NodeVec n d) (alpha : Fin m → ℝ)
    (hp : StrainContract p u) : Spec.EASContract (additive p M) u alpha where
  strain v al w hal hal' := by
    have h1 := hp.strain v
    rw [hasDerivAt_pi] at h1 hal' ⊢
    intro k
    have h2 : HasDerivAt (fun t : ℝ => (M *ᵥ al t) k) (∑ r, M k r * w r) 0 := by
      show HasDerivAt (fun t : ℝ => ∑ r, M k r * al t r) _ 0
      exact HasDerivAt.fun_sum fun r _ => (hal' r).const_mul (M k r)
    exact (h1 k).add h2
  Ed v al w hal hal' S I a := by
    have h1 := hp.bop v S I a
    refine h1.congr_deriv ?_
    simp [additive]
  Ea v al w hal hal' S r := by
    refine (hasDerivAt_const (0 : ℝ) (∑ k, M k r * S k)).congr_deriv ?_
    simp [additive]
  symm_dd S I J a b := hp.symm S I J a b
  symm_aa S r s := rfl

theorem linPoint_contract (p : LinPoint n d q) (u : NodeVec n d) : StrainContract p.toPoint u where
  strain v := by
    rw [hasDerivAt_pi]
    intro k
    refine hasDerivAt_quadratic (a := p.strain u k) (c := 0) fun t => ?_
    simp only [LinPoint.toPoint, LinPoint.strain, Pi.add_apply, Pi.smul_apply, Matrix.mulVec_add, Matrix.mulVec_smul,
      Finset.sum_apply, Finset.sum_add_distrib, smul_eq_mul, Matrix.mulVec, dotProduct, ← Finset.mul_sum]
    ring
  bop v S I a := by
    refine (hasDerivAt_const (0 : ℝ) (∑ k, p.bop I k a * S k)).congr_deriv ?_
    simp [LinPoint.toPoint]
  symm S I J a b := rfl

theorem linear_regular (hC : C.IsSymm) (u : NodeVec n d) (alpha : Fin m → ℝ) :
    Spec.Regular (linearLaw C) Set.univ (linearPoints gps) u alpha where
  law := linearLaw_contract C hC
  points gp hgp := by
    obtain ⟨p, _, rfl⟩ := List.mem_map.1 hgp
    exact additive_contract _ _ u alpha (linPoint_contract p.1 u)
  strains _ _ := trivial

/-- C49, linear element. With the linear strain and a linear law, matrix and forces do not depend on the internal
variables the element holds, the forces are the matrix times the displacements, the internal variables used for the
stresses have no residual, and neither have those after any update. -/
theorem eas_linear (hC : C.IsSymm) (hm : m ≠ 0) (ha : applicable n d m = true)
    (hD : IsUnit (calculateD (linearLaw C) (linearPoints gps) 0 0).det) :
    ∃ Kc, (∀ u alpha, calculateMatrix (linearLaw C) (linearPoints gps) .stiffness u alpha 0 = some Kc) ∧
      (∀ u alpha, calculateVector (linearLaw C) (linearPoints gps) .forces u alpha 0 = some (mul Kc u)) ∧
      (∀ u alpha, calculateRtilde (linearLaw C) (linearPoints gps) u (linearAlpha (linearLaw C) (linearPoints gps) u alpha) = 0) ∧
      ∀ u alpha dx N, ∃ alpha', updateState (linearLaw C) (linearPoints gps) u alpha N N dx = some alpha' ∧
        calculateRtilde (linearLaw C) (linearPoints gps) (u + dx) alpha' = 0 := by
  have hinv := Matrix.nonsing_inv_mul _ hD
  have hinv' := Matrix.mul_nonsing_inv _ hD
  refine ⟨stiffness (linearLaw C) (linearPoints gps) 0 0 - fun I J =>
      (calculateL (linearLaw C) (linearPoints gps) 0 0 I)ᵀ * (calculateD (linearLaw C) (linearPoints gps) 0 0)⁻¹ *
        calculateL (linearLaw C) (linearPoints gps) 0 0 J,
    fun u alpha => ?_, fun u alpha => ?_, fun u alpha => ?_, fun u alpha dx N => ?_⟩
  · rw [calculateMatrix_eq (linearLaw C) Set.univ _ u alpha (linear_regular C gps hC u alpha) hm ha 0 (fun _ _ _ _ => rfl),
      zero_add, linear_D C gps u 0 alpha 0, linear_L C gps u 0 alpha 0, linear_stiffness C gps u 0 alpha 0]
  · rw [calculateVector_eq (linearLaw C) _ u alpha hm ha, zero_add, linear_R, linear_f C gps hC,
      linear_D C gps u 0 alpha 0, linear_L C gps u 0 alpha 0, linear_stiffness C gps u 0 alpha 0, mul_sub_left,
      mul_condensed, Matrix.mulVec_add, Matrix.mulVec_mulVec, hinv, Matrix.one_mulVec, mulLT_add]
    congr 1
    abel
  · rw [linearAlpha, if_neg hm, mulL_eq, linear_D C gps u 0 alpha 0, linear_L C gps u 0 alpha 0, linear_R,
      linear_D C gps u 0 _ 0, linear_L C gps u 0 _ 0, Matrix.mulVec_neg, Matrix.mulVec_mulVec, hinv', Matrix.one_mulVec, add_neg_cancel]
  · refine ⟨_, updateState_eq (linearLaw C) _ u alpha hm ha N dx, ?_⟩
    rw [linear_R, linear_R, linear_D C gps (u + dx) 0 _ 0, linear_L C gps (u + dx) 0 _ 0, linear_D C gps u 0 alpha 0,
      linear_L C gps u 0 alpha 0, Matrix.mulVec_sub, Matrix.mulVec_mulVec, hinv', Matrix.one_mulVec]
    have : Spec.mulLv (calculateL (linearLaw C) (linearPoints gps) 0 0) (u + dx) =
        Spec.mulLv (calculateL (linearLaw C) (linearPoints gps) 0 0) u +
          Spec.mulLv (calculateL (linearLaw C) (linearPoints gps) 0 0) dx := by
      simp only [mulLv_eq, Pi.add_apply, Matrix.mulVec_add, Finset.sum_add_distrib]
    rw [this]
    abel

theorem linear_energy (u : NodeVec n d) (alpha : Fin m → ℝ) :
    Spec.energy (linearLaw C) (linearPoints gps) u alpha =
      (1 / 2) * (work (forces (linearLaw C) (linearPoints gps) u alpha) u +
        calculateRtilde (linearLaw C) (linearPoints gps) u alpha ⬝ᵥ alpha) := by
  rw [Spec.energy, forces, calculateRtilde_sum, work_list_sum, list_sum_dotProduct, ← list_sum_add, ← List.sum_map_mul_left]
  congr 1
  refine List.map_congr_left fun gp hgp => ?_
  obtain ⟨p, _, rfl⟩ := List.mem_map.1 hgp
  simp only [pointForce, pointR, work_eq, additive, LinPoint.toPoint, smul_dotProduct, transpose_mulVec_dot, smul_eq_mul,
    ← Finset.mul_sum, ← dotProduct_sum, ← mul_add, ← dotProduct_add, linearLaw, LinPoint.strain]
  rw [dotProduct_comm]
  ring

/-- C49, softening. With a positive semidefinite law and nonnegative weights the energy of the condensed element is the
least energy over all internal variables: the enhancement never stiffens the element. -/
theorem eas_linear_minimum (hC : C.IsSymm) (hpos : ∀ e, 0 ≤ e ⬝ᵥ C *ᵥ e) (hw : ∀ gp ∈ gps, 0 ≤ gp.1.detJ * gp.1.weight)
    (hm : m ≠ 0) (ha : applicable n d m = true) (hD : IsUnit (calculateD (linearLaw C) (linearPoints gps) 0 0).det)
    (Kc : BlockMat n d) (u : NodeVec n d) (alpha : Fin m → ℝ)
    (hK : calculateMatrix (linearLaw C) (linearPoints gps) .stiffness u alpha 0 = some Kc) :
    (1 / 2) * work (mul Kc u) u =
        Spec.energy (linearLaw C) (linearPoints gps) u (linearAlpha (linearLaw C) (linearPoints gps) u alpha) ∧
      ∀ beta, (1 / 2) * work (mul Kc u) u ≤ Spec.energy (linearLaw C) (linearPoints gps) u beta := by
  obtain ⟨Kc', h1, h2, h3, -⟩ := eas_linear C gps hC hm ha hD
  obtain rfl : Kc = Kc' := Option.some.inj (hK.symm.trans (h1 u alpha))
  have hR := h3 u alpha
  generalize linearAlpha (linearLaw C) (linearPoints gps) u alpha = a at hR
  have hf : forces (linearLaw C) (linearPoints gps) u a = mul Kc u := by
    have := h2 u a
    rw [calculateVector_eq (linearLaw C) _ u a hm ha, hR, Matrix.mulVec_zero, zero_add] at this
    rw [← Option.some.inj this]
    funext I b
    simp [Spec.mulLT]
  have hE : (1 / 2) * work (mul Kc u) u = Spec.energy (linearLaw C) (linearPoints gps) u a := by
    rw [linear_energy, hR, hf, zero_dotProduct, add_zero]
  refine ⟨hE, fun beta => ?_⟩
  rw [hE]
  have hdiff : Spec.energy (linearLaw C) (linearPoints gps) u beta = Spec.energy (linearLaw C) (linearPoints gps) u a +
      calculateRtilde (linearLaw C) (linearPoints gps) u a ⬝ᵥ (beta - a) +
      ((linearPoints gps).map fun gp => gp.detJ * gp.weight * (1 / 2 *
        ((gp.Ea u a *ᵥ (beta - a)) ⬝ᵥ C *ᵥ (gp.Ea u a *ᵥ (beta - a))))).sum := by
    rw [Spec.energy, Spec.energy, calculateRtilde_sum, list_sum_dotProduct, ← list_sum_add, ← list_sum_add]
    congr 1
    refine List.map_congr_left fun gp hgp => ?_
    obtain ⟨p, _, rfl⟩ := List.mem_map.1 hgp
    have hb : p.2 *ᵥ beta = p.2 *ᵥ a + p.2 *ᵥ (beta - a) := by rw [← Matrix.mulVec_add, add_sub_cancel]
    simp only [pointR, additive, LinPoint.toPoint, smul_dotProduct, transpose_mulVec_dot, smul_eq_mul, linearLaw]
    rw [hb, ← add_assoc]
    generalize p.1.strain u + p.2 *ᵥ a = e
    generalize p.2 *ᵥ (beta - a) = g
    have hsym : g ⬝ᵥ C *ᵥ e = (C *ᵥ e) ⬝ᵥ g := dotProduct_comm _ _
    have hsym' : e ⬝ᵥ C *ᵥ g = (C *ᵥ e) ⬝ᵥ g := by
      rw [Matrix.dotProduct_mulVec, ← Matrix.mulVec_transpose, hC.eq]
    simp only [Matrix.mulVec_add, add_dotProduct, dotProduct_add, hsym, hsym']
    ring
  rw [hdiff, hR, zero_dotProduct, add_zero, le_add_iff_nonneg_right]
  refine List.sum_nonneg fun x hx => ?_
  obtain ⟨gp, hgp, rfl⟩ := List.mem_map.1 hx
  obtain ⟨p, hp, rfl⟩ := List.mem_map.1 hgp
  exact mul_nonneg (hw p hp) (mul_nonneg (by norm_num) (hpos _))

end Linear

end Ikarus.Element.EAS
