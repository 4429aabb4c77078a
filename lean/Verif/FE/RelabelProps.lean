import Verif.FE.TurnProps
import Verif.FE.PatchProps

/-!
C124, elements: an element whose nodes are numbered in another order has the same energy and gives the same forces and matrices,
in the new order.
-/

namespace Ikarus.Element

open Matrix Element.Spec

variable {n d q : Nat} {τ : Equiv.Perm (Fin n)}

/-! ### Specification -/

/-- Values at the nodes, in the order in which node `I` is the node that was `τ I`. -/
def Spec.relabel (τ : Equiv.Perm (Fin n)) (f : NodeVec n d) : NodeVec n d := fun I => f (τ I)

/-- The blocks of a matrix in the new order. -/
def Spec.relabelMat (τ : Equiv.Perm (Fin n)) (K : BlockMat n d) : BlockMat n d := fun I J => K (τ I) (τ J)

/-- A skill has the energy of another one and adds its forces and its matrix, in the new order. -/
structure _root_.Ikarus.Spec.RelabelledSkill (τ : Equiv.Perm (Fin n)) (s s' : Skill n d) : Prop where
  scalar : ∀ u, s'.scalar (relabel τ u) = s.scalar u
  vector : ∀ u f, s'.vector (relabel τ u) (relabel τ f) = (s.vector u f).map (relabel τ)
  matrix : ∀ u K, s'.matrix (relabel τ u) (relabelMat τ K) = (s.matrix u K).map (relabelMat τ)

/-- An integration point at the same place, in the new order. -/
structure Spec.RelabelledPoint (τ : Equiv.Perm (Fin n)) (p p' : Point n d q) : Prop where
  detJ : p'.detJ = p.detJ
  weight : p'.weight = p.weight
  strain : ∀ u, p'.strain (relabel τ u) = p.strain u
  bop : ∀ u I, p'.bop (relabel τ u) I = p.bop u (τ I)
  kg : ∀ u S I J, p'.kg (relabel τ u) S I J = p.kg u S (τ I) (τ J)

/-- The same for linear strains. -/
structure Spec.RelabelledLinear (τ : Equiv.Perm (Fin n)) (p p' : LinPoint n d q) : Prop where
  detJ : p'.detJ = p.detJ
  weight : p'.weight = p.weight
  bop : ∀ I, p'.bop I = p.bop (τ I)

/-- The same for gradients of shape functions. -/
structure Spec.RelabelledGradient (τ : Equiv.Perm (Fin n)) (p p' : GradientPoint n d) : Prop where
  detJ : p'.detJ = p.detJ
  weight : p'.weight = p.weight
  dN : ∀ I, p'.dN I = p.dN (τ I)

/-- The same for integration points of loads. -/
structure Spec.RelabelledLoad (τ : Equiv.Perm (Fin n)) (p p' : LoadPoint n d) : Prop where
  detJ : p'.detJ = p.detJ
  weight : p'.weight = p.weight
  x : p'.x = p.x
  N : ∀ I, p'.N I = p.N (τ I)

/-- Two lists of integration points correspond, but the points may come in another order. -/
def Spec.SamePoints {α : Type*} (P : α → α → Prop) (l l' : List α) : Prop := ∃ l0, l0.Perm l ∧ List.Forall₂ P l0 l'

/-! ### Lemmas -/

theorem relabel_zero : relabel τ (0 : NodeVec n d) = 0 := rfl
theorem relabel_add (f g : NodeVec n d) : relabel τ (f + g) = relabel τ f + relabel τ g := rfl
theorem relabelMat_zero : relabelMat τ (0 : BlockMat n d) = 0 := rfl
theorem relabelMat_add (f g : BlockMat n d) : relabelMat τ (f + g) = relabelMat τ f + relabelMat τ g := rfl

theorem samePoints_sum {α M : Type*} [AddCommMonoid M] {P : α → α → Prop} {l l' : List α} (h : SamePoints P l l') (F G : α → M)
    (r : M → M) (r0 : r 0 = 0) (radd : ∀ a b, r (a + b) = r a + r b) (hP : ∀ x y, P x y → G y = r (F x)) :
    (l'.map G).sum = r (l.map F).sum := by
  obtain ⟨l0, hp, h⟩ := h
  rw [← (hp.map F).sum_eq]
  clear hp
  induction h with
  | nil => exact r0.symm
  | cons hxy _ ih =>
    simp only [List.map_cons, List.sum_cons, radd]
    rw [hP _ _ hxy, ih]

theorem samePoints_scalar {α : Type*} {P : α → α → Prop} {l l' : List α} (h : SamePoints P l l') (F G : α → ℝ)
    (hP : ∀ x y, P x y → G y = F x) : (l'.map G).sum = (l.map F).sum :=
  samePoints_sum h F G id rfl (fun _ _ => rfl) hP

theorem samePoints_map {α β : Type*} {P : α → α → Prop} {P' : β → β → Prop} (F G : α → β) (hP : ∀ x y, P x y → P' (F x) (G y))
    {l l' : List α} (h : SamePoints P l l') : SamePoints P' (l.map F) (l'.map G) := by
  obtain ⟨l0, hp, h⟩ := h
  refine ⟨l0.map F, hp.map F, ?_⟩
  clear hp
  induction h with
  | nil => exact .nil
  | cons hxy _ ih => exact .cons (hP _ _ hxy) ih

theorem work_relabel (f u : NodeVec n d) : work (relabel τ f) (relabel τ u) = work f u :=
  Equiv.sum_comp τ fun I => ∑ a, f I a * u I a

theorem mul_relabel (K : BlockMat n d) (u : NodeVec n d) : mul (relabelMat τ K) (relabel τ u) = relabel τ (mul K u) := by
  funext I a
  exact Equiv.sum_comp τ fun J => ∑ b, K (τ I) J a b * u J b

/-! ### Strains of solids -/

/-- C124, solids. The Green-Lagrange strain at a point does not depend on the order of the nodes. -/
theorem green_relabel (dim : EAS.Dimension d q) {p p' : GradientPoint n d} (h : RelabelledGradient τ p p') :
    RelabelledPoint τ (Ikarus.Spec.greenPoint dim p) (Ikarus.Spec.greenPoint dim p') := by
  have hg : ∀ u : NodeVec n d, EAS.gradient p'.dN (relabel τ u) = EAS.gradient p.dN u := fun u => by
    ext i j
    simp only [EAS.gradient, h.dN]
    exact Equiv.sum_comp τ fun I => u I i * p.dN I j
  refine ⟨h.detJ, h.weight, fun u => ?_, fun u I => ?_, fun u S I J => ?_⟩
  · show dim.greenLagrange _ = dim.greenLagrange _
    rw [hg]
  · show dim.bop (1 + _) _ = dim.bop (1 + _) _
    rw [hg, h.dN]
  · show (∑ i, ∑ j, S (dim.voigt i j) * p'.dN I i * p'.dN J j) • (1 : Matrix (Fin d) (Fin d) ℝ) = _
    rw [h.dN, h.dN]
    rfl

/-- C124, solids. The same for the linear strains. -/
theorem linear_relabel {dim : EAS.Dimension d q} {p p' : GradientPoint n d} (h : RelabelledGradient τ p p')
    {gp gp' : LinPoint n d q} (hp : LinearSolid dim p gp) (hp' : LinearSolid dim p' gp') : RelabelledLinear τ gp gp' :=
  ⟨by rw [hp'.detJ, hp.detJ, h.detJ], by rw [hp'.weight, hp.weight, h.weight], fun I => by rw [hp'.bop, hp.bop, h.dN]⟩

/-! ### Skills -/

theorem pointForce_relabel (law : Law q) {p p' : Point n d q} (h : RelabelledPoint τ p p') (u : NodeVec n d) :
    NonLinearElastic.pointForce law (relabel τ u) p' = relabel τ (NonLinearElastic.pointForce law u p) := by
  funext I
  show (p'.detJ * p'.weight) • _ = (p.detJ * p.weight) • _
  rw [h.detJ, h.weight, h.bop, h.strain]

theorem pointMatrix_relabel (law : Law q) {p p' : Point n d q} (h : RelabelledPoint τ p p') (u : NodeVec n d) :
    NonLinearElastic.pointMatrix law (relabel τ u) p' = relabelMat τ (NonLinearElastic.pointMatrix law u p) := by
  funext I J
  show (p'.detJ * p'.weight) • _ + _ = (p.detJ * p.weight) • _ + _
  rw [h.detJ, h.weight, h.bop, h.bop, h.kg, h.strain]

/-- C124, elements. The nonlinear element in another order of its nodes, and with another order of its integration points. -/
theorem nonLinearElastic_relabel (law : Law q) {gps gps' : List (Point n d q)} (h : SamePoints (RelabelledPoint τ) gps gps') :
    Ikarus.Spec.RelabelledSkill τ (Skill.nonLinearElastic law gps) (Skill.nonLinearElastic law gps') where
  scalar u := congrArg some (by
    rw [NonLinearElastic.calculateScalar_sum, NonLinearElastic.calculateScalar_sum]
    exact samePoints_scalar h _ _ fun p p' hp => by rw [hp.strain, hp.detJ, hp.weight])
  vector u f := congrArg some (by
    rw [NonLinearElastic.calculateVector_sum, NonLinearElastic.calculateVector_sum, relabel_add,
      samePoints_sum h (NonLinearElastic.pointForce law u) _ (relabel τ) relabel_zero relabel_add
        fun p p' hp => pointForce_relabel law hp u])
  matrix u K := congrArg some (by
    rw [NonLinearElastic.calculateMatrix_sum, NonLinearElastic.calculateMatrix_sum, relabelMat_add,
      samePoints_sum h (NonLinearElastic.pointMatrix law u) _ (relabelMat τ) relabelMat_zero relabelMat_add
        fun p p' hp => pointMatrix_relabel law hp u])

theorem strain_relabel {p p' : LinPoint n d q} (h : RelabelledLinear τ p p') (u : NodeVec n d) :
    p'.strain (relabel τ u) = p.strain u := by
  unfold LinPoint.strain
  simp only [h.bop]
  exact Equiv.sum_comp τ fun I => p.bop I *ᵥ u I

/-- C124, elements. The same for the linear element. -/
theorem linearElastic_relabel (C : Matrix (Fin q) (Fin q) ℝ) {gps gps' : List (LinPoint n d q)}
    (h : SamePoints (RelabelledLinear τ) gps gps') :
    Ikarus.Spec.RelabelledSkill τ (Skill.linearElastic C gps) (Skill.linearElastic C gps') where
  scalar u := congrArg some (by
    rw [LinearElastic.calculateScalar_sum, LinearElastic.calculateScalar_sum]
    exact samePoints_scalar h _ _ fun p p' hp => by rw [strain_relabel hp, hp.detJ, hp.weight])
  vector u f := congrArg some (by
    rw [LinearElastic.calculateVector_sum, LinearElastic.calculateVector_sum, relabel_add,
      samePoints_sum h (LinearElastic.pointForce C u) _ (relabel τ) relabel_zero relabel_add fun p p' hp => ?_]
    funext I
    show (p'.detJ * p'.weight) • _ = (p.detJ * p.weight) • _
    rw [hp.detJ, hp.weight, hp.bop, strain_relabel hp])
  matrix u K := congrArg some (by
    rw [LinearElastic.calculateMatrix_sum, LinearElastic.calculateMatrix_sum, relabelMat_add,
      samePoints_sum h (LinearElastic.pointMatrix C) _ (relabelMat τ) relabelMat_zero relabelMat_add fun p p' hp => ?_]
    funext I J
    show (p'.detJ * p'.weight) • _ = (p.detJ * p.weight) • _
    rw [hp.detJ, hp.weight, hp.bop, hp.bop])

theorem displacement_relabel {p p' : LoadPoint n d} (h : RelabelledLoad τ p p') (u : NodeVec n d) :
    p'.displacement (relabel τ u) = p.displacement u := by
  unfold LoadPoint.displacement
  simp only [h.N]
  exact Equiv.sum_comp τ fun I => p.N I • u I

/-- C124, loads. The same for a volume load. -/
theorem volumeLoad_relabel (t : LoadFunction d) {gps gps' : List (LoadPoint n d)} (h : SamePoints (RelabelledLoad τ) gps gps')
    (l : ℝ) : Ikarus.Spec.RelabelledSkill τ (Skill.volumeLoad (some t) gps l) (Skill.volumeLoad (some t) gps' l) where
  scalar u := congrArg some (by
    rw [VolumeLoad.calculateScalar_sum, VolumeLoad.calculateScalar_sum]
    exact samePoints_scalar h _ _ fun p p' hp => by rw [displacement_relabel hp, hp.detJ, hp.weight, hp.x])
  vector u f := congrArg some (by
    rw [VolumeLoad.calculateVector_sum, VolumeLoad.calculateVector_sum, relabel_add,
      samePoints_sum h (VolumeLoad.pointForce t l) _ (relabel τ) relabel_zero relabel_add fun p p' hp => ?_]
    funext I
    show -((p'.detJ * p'.weight) • ((p'.N I • (1 : Matrix (Fin d) (Fin d) ℝ)) *ᵥ t p'.x l)) = _
    rw [hp.detJ, hp.weight, hp.N, hp.x]
    rfl)
  matrix u K := rfl

/-- C124, loads. The same for a traction on the boundary: the loaded intersections may come in another order. -/
theorem traction_relabel (t : LoadFunction d) {is is' : List (Traction.Intersection n d)}
    (h : SamePoints (RelabelledLoad τ) (loadedPoints is) (loadedPoints is')) (l : ℝ) :
    Ikarus.Spec.RelabelledSkill τ (Skill.traction (some is) (some t) l) (Skill.traction (some is') (some t) l) where
  scalar u := (Traction.calculateScalar_sum is' t l _).trans ((congrArg some
    (samePoints_scalar h _ _ fun p p' hp => by rw [displacement_relabel hp, hp.detJ, hp.weight, hp.x])).trans
    (Traction.calculateScalar_sum is t l u).symm)
  vector u f := by
    refine (Traction.calculateVector_sum is' t l _).trans (Eq.trans (congrArg some ?_)
      (congrArg (Option.map (relabel τ)) (Traction.calculateVector_sum is t l f)).symm)
    rw [relabel_add, samePoints_sum h (Traction.pForce t l) _ (relabel τ) relabel_zero relabel_add fun p p' hp => ?_]
    funext I
    show -((p'.weight * p'.detJ) • ((p'.N I • (1 : Matrix (Fin d) (Fin d) ℝ)) *ᵥ t p'.x l)) = _
    rw [hp.detJ, hp.weight, hp.N, hp.x]
    rfl
  matrix u K := rfl

/-- C124, trusses. The ends of a truss may be exchanged. -/
theorem truss_relabel (E A : ℝ) (X0 X1 : Fin d → ℝ) :
    Ikarus.Spec.RelabelledSkill (Equiv.swap 0 1) (Skill.truss E A X0 X1) (Skill.truss E A X1 X0) := by
  have hlen : Truss.squaredNorm (X0 - X1) = Truss.squaredNorm (X1 - X0) := by
    unfold Truss.squaredNorm
    rw [← neg_sub X1 X0, neg_dotProduct_neg]
  have hax : ∀ u : NodeVec 2 d, Truss.axis X1 X0 (relabel (Equiv.swap 0 1) u) = -Truss.axis X0 X1 u := fun u => by
    unfold Truss.axis relabel
    rw [Equiv.swap_apply_left, Equiv.swap_apply_right]
    abel
  have hp : RelabelledPoint (Equiv.swap 0 1) (Truss.point X0 X1) (Truss.point X1 X0) := by
    refine ⟨?_, rfl, fun u => ?_, fun u I => ?_, fun u S I J => ?_⟩
    · show √(Truss.squaredNorm (X0 - X1)) = √(Truss.squaredNorm (X1 - X0))
      rw [hlen]
    · funext _
      show (Truss.computeStrain X1 X0 _).Egl = (Truss.computeStrain X0 X1 u).Egl
      rw [Truss.Egl_eq, Truss.Egl_eq, hlen, hax]
      congr 3
      exact neg_dotProduct_neg _ _
    · have h : (Truss.computeStrain X1 X0 (relabel (Equiv.swap 0 1) u)).dEdu I =
          (Truss.computeStrain X0 X1 u).dEdu (Equiv.swap 0 1 I) := by
        fin_cases I
        · show (Truss.computeStrain X1 X0 _).dEdu 0 = (Truss.computeStrain X0 X1 u).dEdu (Equiv.swap 0 1 0)
          rw [Equiv.swap_apply_left, Truss.dEdu_zero, Truss.dEdu_one, hlen, hax, smul_neg, neg_neg]
        · show (Truss.computeStrain X1 X0 _).dEdu 1 = (Truss.computeStrain X0 X1 u).dEdu (Equiv.swap 0 1 1)
          rw [Equiv.swap_apply_right, Truss.dEdu_zero, Truss.dEdu_one, hlen, hax, smul_neg]
      ext k a
      exact congrFun h a
    · show S 0 • (Truss.computeStrain X1 X0 _).ddEddu I J = S 0 • (Truss.computeStrain X0 X1 u).ddEddu _ _
      rw [Truss.ddEddu_apply, Truss.ddEddu_apply, hlen]
      congr 2
      exact if_congr (Equiv.swap (0 : Fin 2) 1).injective.eq_iff.symm rfl rfl
  refine ⟨fun u => congrArg some ?_, fun u f => congrArg some ?_, fun u K => congrArg some ?_⟩
  · rw [Truss.calculateScalar_eq, Truss.calculateScalar_eq, hp.strain, hp.detJ, hp.weight]
  · rw [Truss.calculateVector_eq, Truss.calculateVector_eq, relabel_add, pointForce_relabel _ hp]
  · rw [Truss.calculateMatrix_eq, Truss.calculateMatrix_eq, relabelMat_add, pointMatrix_relabel _ hp]

/-- C124, elements. An element with several skills. -/
theorem mixin_relabel {ss ss' : List (Skill n d)} (h : List.Forall₂ (Ikarus.Spec.RelabelledSkill τ) ss ss') :
    Ikarus.Spec.RelabelledSkill τ (Mixin.together ss) (Mixin.together ss') := by
  induction h with
  | nil => exact ⟨fun u => rfl, fun u f => rfl, fun u K => rfl⟩
  | @cons s s' ss ss' h1 _ ih =>
    refine ⟨fun u => ?_, fun u f => ?_, fun u K => ?_⟩
    · show (s'.scalar _).bind _ = (s.scalar u).bind _
      rw [h1.scalar]
      have ih : Mixin.calculateScalar (relabel τ u) ss' = Mixin.calculateScalar u ss := ih.scalar u
      rw [ih]
    · show (s'.vector _ _).bind _ = ((s.vector u f).bind _).map _
      rw [h1.vector]
      cases s.vector u f with
      | none => rfl
      | some g => exact ih.vector u g
    · show (s'.matrix _ _).bind _ = ((s.matrix u K).bind _).map _
      rw [h1.matrix]
      cases s.matrix u K with
      | none => rfl
      | some L => exact ih.matrix u L

/-! ### Quadrilaterals -/

/-- A map `φ` of the reference square onto itself which takes corner `τ I` to corner `I`, with Jacobian `P`: the gradients of the bilinear
functions at the mapped point are those of the other corners. -/
structure Spec.SquareSymmetry (τ : Equiv.Perm (Fin 4)) (φ : (Fin 2 → ℝ) → Fin 2 → ℝ) (P : Matrix (Fin 2) (Fin 2) ℝ) : Prop where
  det : |P.det| = 1
  shape : ∀ p I, Spec.bilinear (φ p) I = P *ᵥ Spec.bilinear p (τ I)

/-- C124, quadrilaterals. The corners of a quadrilateral may be listed in any order that goes with a symmetry of the square:
gradients and integration elements at the mapped integration points are the same. -/
theorem quad_relabel {τ : Equiv.Perm (Fin 4)} {φ : (Fin 2 → ℝ) → Fin 2 → ℝ} {P : Matrix (Fin 2) (Fin 2) ℝ}
    (h : SquareSymmetry τ φ P) (X : NodeVec 4 2) (g : (Fin 2 → ℝ) × ℝ) :
    RelabelledGradient τ (quadPoint X g) (quadPoint (relabel τ X) (φ g.1, g.2)) := by
  have hP : IsUnit P.det := isUnit_iff_ne_zero.2 fun h0 => by
    have := h.det
    rw [h0, abs_zero] at this
    exact zero_ne_one this
  have hJ : (quadGeometry (relabel τ X)).jacobianTransposed (φ g.1) = P * (quadGeometry X).jacobianTransposed g.1 := by
    ext a i
    rw [Matrix.mul_apply]
    show ∑ I, bilinear (φ g.1) I a * X (τ I) i = ∑ b, P a b * ∑ I, bilinear g.1 I b * X I i
    simp only [h.shape, Matrix.mulVec, dotProduct]
    rw [Equiv.sum_comp τ fun I => (∑ b, P a b * bilinear g.1 I b) * X I i]
    simp only [Finset.sum_mul, Finset.mul_sum]
    rw [Finset.sum_comm]
    exact Finset.sum_congr rfl fun b _ => Finset.sum_congr rfl fun I _ => mul_assoc _ _ _
  refine ⟨?_, rfl, fun I => ?_⟩
  · show |_| = |_|
    rw [hJ, Matrix.det_mul, abs_mul, h.det, one_mul]
  · show ((quadGeometry (relabel τ X)).jacobianTransposed (φ g.1))⁻¹ *ᵥ bilinear (φ g.1) I = _
    rw [hJ, h.shape, Matrix.mul_inv_rev, Matrix.mulVec_mulVec, Matrix.mul_assoc, Matrix.nonsing_inv_mul _ hP, Matrix.mul_one]
    rfl

/-- C124, quadrilaterals. If the rule has the symmetry, the integration points of the element in the new order are those of the element. -/
theorem quad_points_relabel {τ : Equiv.Perm (Fin 4)} {φ : (Fin 2 → ℝ) → Fin 2 → ℝ} {P : Matrix (Fin 2) (Fin 2) ℝ}
    (h : SquareSymmetry τ φ P) (X : NodeVec 4 2) {rule : List ((Fin 2 → ℝ) × ℝ)}
    (hr : (rule.map fun g => (φ g.1, g.2)).Perm rule) :
    SamePoints (RelabelledGradient τ) (rule.map (quadPoint X)) (rule.map (quadPoint (relabel τ X))) := by
  have hall : List.Forall₂ (RelabelledGradient τ) (rule.map (quadPoint X))
      ((rule.map fun g => (φ g.1, g.2)).map (quadPoint (relabel τ X))) := by
    rw [List.map_map]
    exact forall_map rule _ _ fun g _ => quad_relabel h X g
  have hc : Relation.Comp (List.Forall₂ (RelabelledGradient τ)) List.Perm (rule.map (quadPoint X))
      (rule.map (quadPoint (relabel τ X))) := ⟨_, hall, hr.map (quadPoint (relabel τ X))⟩
  rw [List.forall₂_comp_perm_eq_perm_comp_forall₂] at hc
  obtain ⟨l0, h1, h2⟩ := hc
  exact ⟨l0, h1.symm, h2⟩

/-- The rule on the square made of a rule on the interval. -/
def Spec.tensorRule (r : List (ℝ × ℝ)) : List ((Fin 2 → ℝ) × ℝ) := r.flatMap fun x => r.map fun y => (![x.1, y.1], x.2 * y.2)

/-- C124, quadrilaterals. Rules made of a rule on the interval have the reflection that exchanges the axes, and the one that exchanges
left and right if the rule on the interval is symmetric, as the rules of Gauss are. -/
theorem tensor_symmetric (r : List (ℝ × ℝ)) :
    ((tensorRule r).map fun g => ((![g.1 1, g.1 0] : Fin 2 → ℝ), g.2)).Perm (tensorRule r) ∧
      ((r.map fun x => (1 - x.1, x.2)).Perm r →
        ((tensorRule r).map fun g => ((![1 - g.1 0, g.1 1] : Fin 2 → ℝ), g.2)).Perm (tensorRule r)) := by
  unfold tensorRule
  refine ⟨?_, fun h => ?_⟩
  · rw [List.map_flatMap]
    simp only [List.map_map, Function.comp_def, Matrix.cons_val_zero, Matrix.cons_val_one]
    have := Multiset.bind_map_comm (r : Multiset (ℝ × ℝ)) (r : Multiset (ℝ × ℝ))
      (f := fun x y => ((![y.1, x.1] : Fin 2 → ℝ), x.2 * y.2))
    simp only [Multiset.map_coe, Multiset.coe_bind] at this
    refine (Multiset.coe_eq_coe.1 this).trans (List.Perm.of_eq ?_)
    simp only [mul_comm]
  · rw [List.map_flatMap]
    simp only [List.map_map, Function.comp_def, Matrix.cons_val_zero, Matrix.cons_val_one]
    have := h.flatMap_right fun x => r.map fun y => ((![x.1, y.1] : Fin 2 → ℝ), x.2 * y.2)
    rw [List.flatMap_map] at this
    exact this

/-- C124, quadrilaterals. The reflection that exchanges the axes of the square, and the one that exchanges left and right; all symmetries
of the square are composed of these. -/
theorem square_symmetries :
    SquareSymmetry (Equiv.swap 1 2) (fun p => ![p 1, p 0]) !![0, 1; 1, 0] ∧
      SquareSymmetry (Equiv.swap 0 1 * Equiv.swap 2 3) (fun p => ![1 - p 0, p 1]) !![-1, 0; 0, 1] ∧
      ∀ {τ τ' : Equiv.Perm (Fin 4)} {φ φ' : (Fin 2 → ℝ) → Fin 2 → ℝ} {P P' : Matrix (Fin 2) (Fin 2) ℝ},
        SquareSymmetry τ φ P → SquareSymmetry τ' φ' P' → SquareSymmetry (τ * τ') (φ' ∘ φ) (P' * P) := by
  refine ⟨⟨by simp [Matrix.det_fin_two], fun p I => ?_⟩, ⟨by simp [Matrix.det_fin_two], fun p I => ?_⟩,
    fun {τ τ' φ φ' P P'} h h' => ⟨by rw [Matrix.det_mul, abs_mul, h.det, h'.det, one_mul], fun p I => ?_⟩⟩
  · have e0 : (Equiv.swap 1 2 : Equiv.Perm (Fin 4)) 0 = 0 := by decide
    have e1 : (Equiv.swap 1 2 : Equiv.Perm (Fin 4)) 1 = 2 := by decide
    have e2 : (Equiv.swap 1 2 : Equiv.Perm (Fin 4)) 2 = 1 := by decide
    have e3 : (Equiv.swap 1 2 : Equiv.Perm (Fin 4)) 3 = 3 := by decide
    funext a
    fin_cases I <;> fin_cases a <;>
      simp [e0, e1, e2, e3, Spec.bilinear, Matrix.mulVec, dotProduct, Fin.sum_univ_two]
  · have e0 : (Equiv.swap 0 1 * Equiv.swap 2 3 : Equiv.Perm (Fin 4)) 0 = 1 := by decide
    have e1 : (Equiv.swap 0 1 * Equiv.swap 2 3 : Equiv.Perm (Fin 4)) 1 = 0 := by decide
    have e2 : (Equiv.swap 0 1 * Equiv.swap 2 3 : Equiv.Perm (Fin 4)) 2 = 3 := by decide
    have e3 : (Equiv.swap 0 1 * Equiv.swap 2 3 : Equiv.Perm (Fin 4)) 3 = 2 := by decide
    generalize (Equiv.swap 0 1 * Equiv.swap 2 3 : Equiv.Perm (Fin 4)) = σ at *
    funext a
    fin_cases I <;> fin_cases a <;>
      simp [e0, e1, e2, e3, Spec.bilinear, Matrix.mulVec, dotProduct, Fin.sum_univ_two]
  · rw [Function.comp_apply, h'.shape, h.shape, Matrix.mulVec_mulVec]
    rfl

/-! ### Examples -/

/-- The rule of Gauss with two points per direction, whatever the place `a` of the points. -/
example (a : ℝ) : ([(a, 1 / 2), (1 - a, 1 / 2)].map fun x : ℝ × ℝ => (1 - x.1, x.2)).Perm [(a, 1 / 2), (1 - a, 1 / 2)] := by
  simp only [List.map_cons, List.map_nil, sub_sub_cancel]
  exact List.Perm.swap _ _ _

/-- A nonlinear element on any quadrilateral with the corners in another order, for any material and the rule of Gauss. -/
example (law : Law 3) (X : NodeVec 4 2) (a : ℝ) : Ikarus.Spec.RelabelledSkill (Equiv.swap 1 2)
    (Skill.nonLinearElastic law (((tensorRule [(a, 1 / 2), (1 - a, 1 / 2)]).map (quadPoint X)).map (Ikarus.Spec.greenPoint EAS.plane)))
    (Skill.nonLinearElastic law (((tensorRule [(a, 1 / 2), (1 - a, 1 / 2)]).map (quadPoint (relabel (Equiv.swap 1 2) X))).map
      (Ikarus.Spec.greenPoint EAS.plane))) :=
  nonLinearElastic_relabel law (samePoints_map _ _ (fun _ _ h => green_relabel EAS.plane h)
    (quad_points_relabel square_symmetries.1 X (tensor_symmetric _).1))

/-- A linear element and a volume load together, as they are in an element with two skills. -/
example (C : Matrix (Fin 3) (Fin 3) ℝ) (t : LoadFunction 2) (l : ℝ) {gps gps' : List (LinPoint 4 2 3)}
    {ps ps' : List (LoadPoint 4 2)} {τ : Equiv.Perm (Fin 4)} (h : SamePoints (RelabelledLinear τ) gps gps')
    (hl : SamePoints (RelabelledLoad τ) ps ps') :
    Ikarus.Spec.RelabelledSkill τ (Mixin.together [Skill.linearElastic C gps, Skill.volumeLoad (some t) ps l])
      (Mixin.together [Skill.linearElastic C gps', Skill.volumeLoad (some t) ps' l]) :=
  mixin_relabel (.cons (linearElastic_relabel C h) (.cons (volumeLoad_relabel t hl l) .nil))

end Ikarus.Element
