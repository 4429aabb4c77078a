import Verif.FE.ElementLemmas
import Mathlib.LinearAlgebra.Matrix.PosDef
import Mathlib.Algebra.Order.Star.Real
import Mathlib.Analysis.Calculus.Deriv.Prod
import Mathlib.LinearAlgebra.Matrix.Notation

/-!
Consistency of the displacement elements: the vector is the gradient of the scalar, the matrix is the derivative of the
vector and is symmetric.
-/

namespace Ikarus.Element

open Matrix

variable {n d q : Nat}

/-! ### Specification -/

/-- Virtual work of forces along a direction. -/
def Spec.work (f v : NodeVec n d) : ℝ := ∑ I, ∑ a, f I a * v I a

/-- Product of an element matrix, given by blocks, and an element vector. -/
def Spec.mul (K : BlockMat n d) (v : NodeVec n d) : NodeVec n d := fun I a => ∑ J, ∑ b, K I J a b * v J b

/-- `f` is the gradient of `E` at `u`: the derivative along every direction is the virtual work. -/
def Spec.GradientAt (E : NodeVec n d → ℝ) (f : NodeVec n d) (u : NodeVec n d) : Prop :=
  ∀ v, HasDerivAt (fun t : ℝ => E (u + t • v)) (Spec.work f v) 0

/-- `K` is the derivative of `f` at `u`. -/
def Spec.TangentAt (f : NodeVec n d → NodeVec n d) (K : BlockMat n d) (u : NodeVec n d) : Prop :=
  ∀ v, HasDerivAt (fun t : ℝ => f (u + t • v)) (Spec.mul K v) 0

/-- Symmetry of an element matrix given by blocks. -/
def Spec.Symmetric (K : BlockMat n d) : Prop := ∀ I J a b, K I J a b = K J I b a

open Spec

theorem work_eq (f v : NodeVec n d) : work f v = ∑ I, f I ⬝ᵥ v I := rfl

theorem mul_eq (K : BlockMat n d) (v : NodeVec n d) (I : Fin n) : mul K v I = ∑ J, K I J *ᵥ v J := by
  funext a
  simp [mul, Finset.sum_apply, Matrix.mulVec, dotProduct]

theorem work_list_sum {α : Type*} (l : List α) (f : α → NodeVec n d) (v : NodeVec n d) :
    work (l.map f).sum v = (l.map fun x => work (f x) v).sum := by
  induction l with
  | nil => simp [work]
  | cons x l ih =>
    simp only [List.map_cons, List.sum_cons, ← ih]
    simp [work, add_mul, Finset.sum_add_distrib]

theorem mul_list_sum {α : Type*} (l : List α) (K : α → BlockMat n d) (v : NodeVec n d) :
    mul (l.map K).sum v = (l.map fun x => mul (K x) v).sum := by
  induction l with
  | nil => funext I a; simp [mul]
  | cons x l ih =>
    simp only [List.map_cons, List.sum_cons, ← ih]
    funext I a
    simp [mul, add_mul, Finset.sum_add_distrib]

theorem symmetric_list_sum {α : Type*} (l : List α) (K : α → BlockMat n d) (h : ∀ x ∈ l, Symmetric (K x)) :
    Symmetric (l.map K).sum := by
  induction l with
  | nil => intro I J a b; simp
  | cons x l ih =>
    intro I J a b
    simp only [List.map_cons, List.sum_cons, Pi.add_apply, Matrix.add_apply]
    rw [h x (by simp) I J a b, ih (fun y hy => h y (by simp [hy])) I J a b]

/-! ### The sums computed by the loops -/

namespace LinearElastic

/-- Stiffness of one integration point. -/
noncomputable def pointMatrix (C : Matrix (Fin q) (Fin q) ℝ) (gp : LinPoint n d q) : BlockMat n d :=
  fun I J => (gp.detJ * gp.weight) • ((gp.bop I)ᵀ * C * gp.bop J)

noncomputable def pointForce (C : Matrix (Fin q) (Fin q) ℝ) (u : NodeVec n d) (gp : LinPoint n d q) : NodeVec n d :=
  fun I => (gp.detJ * gp.weight) • ((gp.bop I)ᵀ *ᵥ stress C (gp.strain u))

theorem calculateMatrix_sum (C : Matrix (Fin q) (Fin q) ℝ) (gps : List (LinPoint n d q)) (K : BlockMat n d) :
    calculateMatrix false C gps K = K + (gps.map (pointMatrix C)).sum := by
  unfold calculateMatrix
  rw [if_neg (by simp), ← foldl_add_sum]
  exact foldl_congr' (fun K gp => foldl_addBlock (pointMatrix C gp) K) _ _

theorem calculateVector_sum (C : Matrix (Fin q) (Fin q) ℝ) (gps : List (LinPoint n d q)) (u f : NodeVec n d) :
    calculateVector false C gps u f = f + (gps.map (pointForce C u)).sum := by
  unfold calculateVector
  rw [if_neg (by simp), ← foldl_add_sum]
  exact foldl_congr' (fun f gp => foldl_addSegment (pointForce C u gp) f) _ _

theorem calculateScalar_sum (C : Matrix (Fin q) (Fin q) ℝ) (gps : List (LinPoint n d q)) (u : NodeVec n d) :
    calculateScalar false C gps u =
      (gps.map fun gp => internalEnergy C (gp.strain u) * gp.detJ * gp.weight).sum := by
  unfold calculateScalar
  rw [if_neg (by simp), foldl_add_sum, zero_add]

theorem mul_pointMatrix (C : Matrix (Fin q) (Fin q) ℝ) (gp : LinPoint n d q) (v : NodeVec n d) :
    mul (pointMatrix C gp) v = pointForce C v gp := by
  funext I
  rw [mul_eq]
  simp only [pointMatrix, pointForce, stress, LinPoint.strain, Matrix.smul_mulVec, bilinear_form]
  rw [← Finset.smul_sum, Matrix.mulVec_sum, Matrix.mulVec_sum]

theorem work_pointForce (C : Matrix (Fin q) (Fin q) ℝ) (gp : LinPoint n d q) (u v : NodeVec n d) :
    work (pointForce C u gp) v = gp.detJ * gp.weight * ((C *ᵥ gp.strain u) ⬝ᵥ gp.strain v) := by
  rw [work_eq]
  simp only [pointForce, stress, smul_dotProduct, transpose_mulVec_dot, smul_eq_mul]
  rw [← Finset.mul_sum, ← dotProduct_sum]
  rfl

/-- C47, addition. The element adds to the vector and to the matrix it is given, and what it adds does not depend on
them; as part of a mixed element it adds nothing. -/
theorem linearElastic_adds (C : Matrix (Fin q) (Fin q) ℝ) (gps : List (LinPoint n d q)) (u f : NodeVec n d)
    (K : BlockMat n d) :
    calculateMatrix false C gps K = K + calculateMatrix false C gps 0 ∧
    calculateVector false C gps u f = f + calculateVector false C gps u 0 ∧
    calculateMatrix true C gps K = K ∧ calculateVector true C gps u f = f ∧ calculateScalar true C gps u = 0 := by
  refine ⟨?_, ?_, rfl, rfl, rfl⟩
  · rw [calculateMatrix_sum, calculateMatrix_sum C gps 0, zero_add]
  · rw [calculateVector_sum, calculateVector_sum C gps u 0, zero_add]

/-- C47, symmetry. For a symmetric material tangent the stiffness matrix is symmetric. -/
theorem linearElastic_symmetric (C : Matrix (Fin q) (Fin q) ℝ) (hC : C.IsSymm) (gps : List (LinPoint n d q)) :
    Symmetric (calculateMatrix false C gps 0) := by
  rw [calculateMatrix_sum, zero_add]
  refine symmetric_list_sum _ _ fun gp _ I J a b => ?_
  have h : ((gp.bop I)ᵀ * C * gp.bop J)ᵀ = (gp.bop J)ᵀ * C * gp.bop I := by
    rw [Matrix.transpose_mul, Matrix.transpose_mul, Matrix.transpose_transpose, hC.eq, Matrix.mul_assoc]
  have := congrFun (congrFun h b) a
  simp only [pointMatrix, Matrix.smul_apply, smul_eq_mul]
  rw [← this, Matrix.transpose_apply]

/-- C47, linearity. The internal forces are the stiffness matrix times the displacements. -/
theorem linearElastic_forces (C : Matrix (Fin q) (Fin q) ℝ) (gps : List (LinPoint n d q)) (u : NodeVec n d) :
    calculateVector false C gps u 0 = mul (calculateMatrix false C gps 0) u := by
  rw [calculateMatrix_sum, calculateVector_sum, zero_add, zero_add, mul_list_sum]
  congr 1
  refine List.map_congr_left fun gp _ => (mul_pointMatrix C gp u).symm

/-- C47, energy. The energy is half the work of the internal forces. -/
theorem linearElastic_energy (C : Matrix (Fin q) (Fin q) ℝ) (gps : List (LinPoint n d q)) (u : NodeVec n d) :
    calculateScalar false C gps u = 1 / 2 * work (mul (calculateMatrix false C gps 0) u) u := by
  rw [← linearElastic_forces, calculateVector_sum, zero_add, work_list_sum, calculateScalar_sum, ← List.sum_map_mul_left]
  congr 1
  refine List.map_congr_left fun gp _ => ?_
  rw [work_pointForce, internalEnergy, dotProduct_comm (C *ᵥ _)]
  ring

/-- C47, derivatives. For a symmetric material tangent the internal forces are the gradient of the energy, and the
stiffness matrix is the derivative of the internal forces. -/
theorem linearElastic_consistent (C : Matrix (Fin q) (Fin q) ℝ) (hC : C.IsSymm) (gps : List (LinPoint n d q))
    (u : NodeVec n d) :
    GradientAt (calculateScalar false C gps) (calculateVector false C gps u 0) u ∧
    TangentAt (fun u => calculateVector false C gps u 0) (calculateMatrix false C gps 0) u := by
  have hs : ∀ (gp : LinPoint n d q) (v : NodeVec n d) (t : ℝ), gp.strain (u + t • v) = gp.strain u + t • gp.strain v := by
    intro gp v t
    simp only [LinPoint.strain, Pi.add_apply, Pi.smul_apply, Matrix.mulVec_add, Matrix.mulVec_smul,
      Finset.sum_add_distrib, Finset.smul_sum]
  have hc : ∀ x y : Fin q → ℝ, x ⬝ᵥ (C *ᵥ y) = (C *ᵥ x) ⬝ᵥ y := by
    intro x y
    rw [Matrix.dotProduct_mulVec, ← Matrix.mulVec_transpose, hC.eq]
  refine ⟨fun v => ?_, fun v => ?_⟩
  · simp only [calculateScalar_sum]
    rw [calculateVector_sum, zero_add, work_list_sum]
    refine hasDerivAt_list_sum _ _ _ _ fun gp _ => ?_
    refine hasDerivAt_quadratic (a := internalEnergy C (gp.strain u) * gp.detJ * gp.weight)
      (c := internalEnergy C (gp.strain v) * gp.detJ * gp.weight) fun t => ?_
    rw [work_pointForce, hs]
    simp only [internalEnergy, Matrix.mulVec_add, Matrix.mulVec_smul, dotProduct_add, add_dotProduct, dotProduct_smul,
      smul_dotProduct, smul_eq_mul, hc]
    rw [← hc (gp.strain v), dotProduct_comm (gp.strain v)]
    ring
  · have e : ∀ t : ℝ, calculateVector false C gps (u + t • v) 0 =
        mul (calculateMatrix false C gps 0) u + t • mul (calculateMatrix false C gps 0) v := by
      intro t
      rw [linearElastic_forces]
      funext I a
      simp only [mul, Pi.add_apply, Pi.smul_apply, smul_eq_mul, mul_add, Finset.sum_add_distrib, Finset.mul_sum]
      congr 1
      refine Finset.sum_congr rfl fun J _ => Finset.sum_congr rfl fun b _ => by ring
    simp only [e]
    refine ((hasDerivAt_const (0 : ℝ) (mul (calculateMatrix false C gps 0) u)).add
      ((hasDerivAt_id' (0 : ℝ)).smul_const (mul (calculateMatrix false C gps 0) v))).congr_deriv ?_
    rw [zero_add, one_smul]

/-- C47, definiteness. For a positive semidefinite material tangent, nonnegative weights and integration elements, no
displacement has negative energy.  If moreover the tangent is positive definite and the weights and integration elements
positive, the energy vanishes exactly for the displacements without strain at every integration point, and these are
the displacements without internal forces. -/
theorem linearElastic_definite (C : Matrix (Fin q) (Fin q) ℝ) (gps : List (LinPoint n d q)) (u : NodeVec n d)
    (hw : ∀ gp ∈ gps, 0 ≤ gp.detJ * gp.weight) :
    (C.PosSemidef → 0 ≤ work (mul (calculateMatrix false C gps 0) u) u) ∧
    (C.PosDef → (∀ gp ∈ gps, 0 < gp.detJ * gp.weight) →
      ((work (mul (calculateMatrix false C gps 0) u) u = 0 ↔ ∀ gp ∈ gps, ∑ I, gp.bop I *ᵥ u I = 0) ∧
       (mul (calculateMatrix false C gps 0) u = 0 ↔ ∀ gp ∈ gps, ∑ I, gp.bop I *ᵥ u I = 0))) := by
  have hk : work (mul (calculateMatrix false C gps 0) u) u =
      (gps.map fun gp => gp.detJ * gp.weight * (gp.strain u ⬝ᵥ (C *ᵥ gp.strain u))).sum := by
    rw [← linearElastic_forces, calculateVector_sum, zero_add, work_list_sum]
    congr 1
    refine List.map_congr_left fun gp _ => ?_
    rw [work_pointForce, dotProduct_comm]
  have hnn : C.PosSemidef → ∀ gp ∈ gps, 0 ≤ gp.detJ * gp.weight * (gp.strain u ⬝ᵥ (C *ᵥ gp.strain u)) := by
    intro hC gp hgp
    exact mul_nonneg (hw gp hgp) (by simpa using hC.dotProduct_mulVec_nonneg (gp.strain u))
  refine ⟨fun hC => ?_, fun hC hp => ?_⟩
  · rw [hk]
    refine List.sum_nonneg fun x hx => ?_
    obtain ⟨gp, hgp, rfl⟩ := List.mem_map.1 hx
    exact hnn hC gp hgp
  · have key : work (mul (calculateMatrix false C gps 0) u) u = 0 → ∀ gp ∈ gps, ∑ I, gp.bop I *ᵥ u I = 0 := by
      intro h0 gp hgp
      rw [hk] at h0
      by_contra hne
      have hpos : 0 < gp.detJ * gp.weight * (gp.strain u ⬝ᵥ (C *ᵥ gp.strain u)) :=
        mul_pos (hp gp hgp) (by simpa using hC.dotProduct_mulVec_pos (x := gp.strain u) hne)
      have hle := List.single_le_sum (l := gps.map fun gp => gp.detJ * gp.weight * (gp.strain u ⬝ᵥ (C *ᵥ gp.strain u)))
        (by
          intro x hx
          obtain ⟨g, hg, rfl⟩ := List.mem_map.1 hx
          exact hnn hC.posSemidef g hg) _ (List.mem_map.2 ⟨gp, hgp, rfl⟩)
      linarith
    have back : (∀ gp ∈ gps, ∑ I, gp.bop I *ᵥ u I = 0) → mul (calculateMatrix false C gps 0) u = 0 := by
      intro h
      rw [← linearElastic_forces, calculateVector_sum, zero_add]
      refine List.sum_eq_zero fun x hx => ?_
      obtain ⟨gp, hgp, rfl⟩ := List.mem_map.1 hx
      funext I
      have : gp.strain u = 0 := h gp hgp
      simp [pointForce, stress, this]
    refine ⟨⟨key, fun h => by rw [back h]; simp [work]⟩, fun h => key ?_, back⟩
    rw [h]; simp [work]

end LinearElastic

/-! ### NonLinearElastic -/

/-- The contract of a material used by an element: along every strain path in the domain the stress is the derivative of
the energy and the tangent the derivative of the stress, and the tangent is symmetric. -/
structure Spec.LawContract (law : Law q) (dom : Set (Fin q → ℝ)) : Prop where
  stress : ∀ (e : ℝ → Fin q → ℝ) (de : Fin q → ℝ) (t : ℝ), e t ∈ dom → HasDerivAt e de t →
    HasDerivAt (fun s => law.energy (e s)) (∑ k, law.stress (e t) k * de k) t
  tangent : ∀ (e : ℝ → Fin q → ℝ) (de : Fin q → ℝ) (t : ℝ), e t ∈ dom → HasDerivAt e de t →
    HasDerivAt (fun s => law.stress (e s)) (fun k => ∑ l, law.tangent (e t) k l * de l) t
  symm : ∀ e ∈ dom, ∀ k l, law.tangent e k l = law.tangent e l k

/-- The contract of a strain measure at a displacement: `bop` is the derivative of the strain with respect to the nodal
displacements and `kg` the derivative of `bop` along a fixed stress, symmetric in the nodes. -/
structure Spec.StrainContract (p : Point n d q) (u : NodeVec n d) : Prop where
  strain : ∀ v, HasDerivAt (fun t : ℝ => p.strain (u + t • v)) (fun k => ∑ I, ∑ a, p.bop u I k a * v I a) 0
  bop : ∀ v S I a, HasDerivAt (fun t : ℝ => ∑ k, p.bop (u + t • v) I k a * S k)
    (∑ J, ∑ b, p.kg u S I J a b * v J b) 0
  symm : ∀ S I J a b, p.kg u S I J a b = p.kg u S J I b a

namespace NonLinearElastic

noncomputable def pointForce (law : Law q) (u : NodeVec n d) (gp : Point n d q) : NodeVec n d :=
  fun I => (gp.detJ * gp.weight) • ((gp.bop u I)ᵀ *ᵥ law.stress (gp.strain u))

noncomputable def pointMatrix (law : Law q) (u : NodeVec n d) (gp : Point n d q) : BlockMat n d :=
  fun I J => (gp.detJ * gp.weight) • ((gp.bop u I)ᵀ * law.tangent (gp.strain u) * gp.bop u J) +
    (gp.detJ * gp.weight) • gp.kg u (law.stress (gp.strain u)) I J

theorem calculateVector_sum (law : Law q) (gps : List (Point n d q)) (u f : NodeVec n d) :
    calculateVector false law gps u f = f + (gps.map (pointForce law u)).sum := by
  unfold calculateVector
  rw [if_neg (by simp), ← foldl_add_sum]
  exact foldl_congr' (fun f gp => foldl_addSegment (pointForce law u gp) f) _ _

theorem calculateScalar_sum (law : Law q) (gps : List (Point n d q)) (u : NodeVec n d) :
    calculateScalar false law gps u = (gps.map fun gp => law.energy (gp.strain u) * gp.detJ * gp.weight).sum := by
  unfold calculateScalar
  rw [if_neg (by simp), foldl_add_sum, zero_add]

theorem calculateMatrix_sum (law : Law q) (gps : List (Point n d q)) (u : NodeVec n d) (K : BlockMat n d) :
    calculateMatrix false law gps u K = K + (gps.map (pointMatrix law u)).sum := by
  unfold calculateMatrix
  rw [if_neg (by simp), ← foldl_add_sum]
  refine foldl_congr' (fun K gp => ?_) _ _
  simp only [addBlock_addBlock]
  exact foldl_addBlock (pointMatrix law u gp) K

/-! ### One integration point -/

theorem hasDerivAt_pointEnergy (law : Law q) (dom : Set (Fin q → ℝ)) (hl : LawContract law dom) (gp : Point n d q)
    (u : NodeVec n d) (hp : StrainContract gp u) (hu : gp.strain u ∈ dom) (v : NodeVec n d) :
    HasDerivAt (fun t : ℝ => law.energy (gp.strain (u + t • v)) * gp.detJ * gp.weight)
      (work (pointForce law u gp) v) 0 := by
  have h0 : u + (0 : ℝ) • v = u := by simp
  have h := hl.stress (fun t => gp.strain (u + t • v)) _ 0 (by simpa using hu) (hp.strain v)
  refine ((h.mul_const gp.detJ).mul_const gp.weight).congr_deriv ?_
  simp only [h0, work_eq, pointForce, smul_dotProduct, transpose_mulVec_dot, smul_eq_mul]
  rw [← Finset.mul_sum, ← dotProduct_sum]
  have : (law.stress (gp.strain u) ⬝ᵥ ∑ I, gp.bop u I *ᵥ v I) =
      ∑ k, law.stress (gp.strain u) k * ∑ I, ∑ a, gp.bop u I k a * v I a := by
    simp [dotProduct, Finset.sum_apply, Matrix.mulVec]
  rw [this]
  ring

theorem hasDerivAt_pointForce (law : Law q) (dom : Set (Fin q → ℝ)) (hl : LawContract law dom) (gp : Point n d q)
    (u : NodeVec n d) (hp : StrainContract gp u) (hu : gp.strain u ∈ dom) (v : NodeVec n d) :
    HasDerivAt (fun t : ℝ => pointForce law (u + t • v) gp) (mul (pointMatrix law u gp) v) 0 := by
  have h0 : u + (0 : ℝ) • v = u := by simp
  rw [hasDerivAt_pi]
  intro I
  rw [hasDerivAt_pi]
  intro a
  have hS := hl.tangent (fun t => gp.strain (u + t • v)) _ 0 (by simpa using hu) (hp.strain v)
  rw [hasDerivAt_pi] at hS
  simp only [h0] at hS
  -- entries of bop
  have hB : ∀ k, HasDerivAt (fun t : ℝ => gp.bop (u + t • v) I k a)
      (∑ J, ∑ b, gp.kg u (Pi.single k 1) I J a b * v J b) 0 := by
    intro k
    have := hp.bop v (Pi.single k 1) I a
    simpa [Pi.single_apply] using this
  have hprod := HasDerivAt.fun_sum (u := Finset.univ) fun k _ => (hB k).mul (hS k)
  -- the derivative along the fixed stress
  have hfix1 := hp.bop v (law.stress (gp.strain u)) I a
  have hfix2 := HasDerivAt.fun_sum (u := Finset.univ) fun k _ => (hB k).mul_const (law.stress (gp.strain u) k)
  have huniq := hfix2.unique hfix1
  have hfun : (fun t : ℝ => pointForce law (u + t • v) gp I a) = fun t : ℝ =>
      gp.detJ * gp.weight * ∑ k, gp.bop (u + t • v) I k a * law.stress (gp.strain (u + t • v)) k := by
    funext t
    simp [pointForce, Matrix.mulVec, dotProduct]
  show HasDerivAt (fun t : ℝ => pointForce law (u + t • v) gp I a) _ 0
  rw [hfun]
  refine (hprod.const_mul (gp.detJ * gp.weight)).congr_deriv ?_
  simp only [h0]
  rw [Finset.sum_add_distrib, huniq, mul_eq]
  simp only [pointMatrix, Matrix.add_mulVec, Matrix.smul_mulVec, bilinear_form, Finset.sum_apply, Pi.add_apply,
    Pi.smul_apply, smul_eq_mul, Finset.sum_add_distrib, ← Finset.mul_sum]
  rw [← mul_add, add_comm]
  congr 2
  have e1 : ∀ J, ((gp.bop u I)ᵀ *ᵥ law.tangent (gp.strain u) *ᵥ gp.bop u J *ᵥ v J) a =
      ∑ k, gp.bop u I k a * ∑ l, law.tangent (gp.strain u) k l * ∑ b, gp.bop u J l b * v J b := fun J => rfl
  simp only [e1]
  rw [Finset.sum_comm]
  refine Finset.sum_congr rfl fun k _ => ?_
  rw [← Finset.mul_sum, Finset.sum_comm]
  congr 1
  refine Finset.sum_congr rfl fun l _ => ?_
  rw [Finset.mul_sum]

theorem symmetric_pointMatrix (law : Law q) (dom : Set (Fin q → ℝ)) (hl : LawContract law dom) (gp : Point n d q)
    (u : NodeVec n d) (hp : StrainContract gp u) (hu : gp.strain u ∈ dom) : Symmetric (pointMatrix law u gp) := by
  intro I J a b
  have hC : (law.tangent (gp.strain u))ᵀ = law.tangent (gp.strain u) := by
    ext k l; exact hl.symm _ hu l k
  have h : ((gp.bop u I)ᵀ * law.tangent (gp.strain u) * gp.bop u J)ᵀ =
      (gp.bop u J)ᵀ * law.tangent (gp.strain u) * gp.bop u I := by
    rw [Matrix.transpose_mul, Matrix.transpose_mul, Matrix.transpose_transpose, hC, Matrix.mul_assoc]
  have := congrFun (congrFun h b) a
  simp only [pointMatrix, Matrix.add_apply, Matrix.smul_apply, smul_eq_mul]
  rw [← this, Matrix.transpose_apply, hp.symm]

/-! ### The element -/

/-- C67, addition. The element adds to the vector and matrix it is given; as part of a mixed element it adds nothing. -/
theorem nonLinearElastic_adds (law : Law q) (gps : List (Point n d q)) (u f : NodeVec n d) (K : BlockMat n d) :
    calculateMatrix false law gps u K = K + calculateMatrix false law gps u 0 ∧
    calculateVector false law gps u f = f + calculateVector false law gps u 0 ∧
    calculateMatrix true law gps u K = K ∧ calculateVector true law gps u f = f ∧
    calculateScalar true law gps u = 0 := by
  refine ⟨?_, ?_, rfl, rfl, rfl⟩
  · rw [calculateMatrix_sum, calculateMatrix_sum law gps u 0, zero_add]
  · rw [calculateVector_sum, calculateVector_sum law gps u 0, zero_add]

/-- C67, gradient. For a material and strain measure that keep their contracts, the internal forces are the gradient of
the energy. -/
theorem nonLinearElastic_gradient (law : Law q) (dom : Set (Fin q → ℝ)) (hl : LawContract law dom)
    (gps : List (Point n d q)) (u : NodeVec n d) (hp : ∀ gp ∈ gps, StrainContract gp u)
    (hu : ∀ gp ∈ gps, gp.strain u ∈ dom) :
    GradientAt (calculateScalar false law gps) (calculateVector false law gps u 0) u := by
  intro v
  simp only [calculateScalar_sum]
  rw [calculateVector_sum, zero_add, work_list_sum]
  exact hasDerivAt_list_sum _ _ _ _ fun gp hgp =>
    hasDerivAt_pointEnergy law dom hl gp u (hp gp hgp) (hu gp hgp) v

/-- C67, tangent. For a material and strain measure that keep their contracts, the stiffness matrix is the derivative of
the internal forces and symmetric. -/
theorem nonLinearElastic_tangent (law : Law q) (dom : Set (Fin q → ℝ)) (hl : LawContract law dom)
    (gps : List (Point n d q)) (u : NodeVec n d) (hp : ∀ gp ∈ gps, StrainContract gp u)
    (hu : ∀ gp ∈ gps, gp.strain u ∈ dom) :
    TangentAt (fun u => calculateVector false law gps u 0) (calculateMatrix false law gps u 0) u ∧
    Symmetric (calculateMatrix false law gps u 0) := by
  constructor
  · intro v
    simp only [calculateVector_sum, zero_add]
    rw [calculateMatrix_sum, zero_add, mul_list_sum]
    exact hasDerivAt_list_sum _ _ _ _ fun gp hgp =>
      hasDerivAt_pointForce law dom hl gp u (hp gp hgp) (hu gp hgp) v
  · rw [calculateMatrix_sum, zero_add]
    exact symmetric_list_sum _ _ fun gp hgp => symmetric_pointMatrix law dom hl gp u (hp gp hgp) (hu gp hgp)

end NonLinearElastic

end Ikarus.Element
