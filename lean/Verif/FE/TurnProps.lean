import Verif.FE.TurnLemmas
import Verif.Analysis.TrussSupportProps

/-!
C114, elements: forces and matrices of turned elements are the turned forces and matrices.
-/

namespace Ikarus.Element

open Matrix Element.Spec

variable {n d q m : Nat} {R Q : Matrix (Fin d) (Fin d) ℝ} {T : Matrix (Fin q) (Fin q) ℝ}

/-! ### Specification -/

/-- At the turned state the strain of the point is turned, and with it its derivatives. -/
structure Spec.TurnedStrain (Q : Matrix (Fin d) (Fin d) ℝ) (T : Matrix (Fin q) (Fin q) ℝ) (u u' : NodeVec n d)
    (p p' : Point n d q) : Prop where
  detJ : p'.detJ = p.detJ
  weight : p'.weight = p.weight
  strain : p'.strain u' = T *ᵥ p.strain u
  bop : ∀ I, p'.bop u' I = T * p.bop u I * Qᵀ
  kg : ∀ S I J, p'.kg u' S I J = Q * p.kg u (Tᵀ *ᵥ S) I J * Qᵀ

/-- The same for linear strains, which do not depend on the displacements. -/
structure Spec.TurnedLinear (Q : Matrix (Fin d) (Fin d) ℝ) (T : Matrix (Fin q) (Fin q) ℝ) (u u' : NodeVec n d)
    (p p' : LinPoint n d q) : Prop where
  detJ : p'.detJ = p.detJ
  weight : p'.weight = p.weight
  strain : p'.strain u' = T *ᵥ p.strain u
  bop : ∀ I, p'.bop I = T * p.bop I * Qᵀ

/-- A skill adds at the turned state the turned forces and the turned (symmetric) matrix of another one. -/
structure _root_.Ikarus.Spec.TurnedSkill (Q : Matrix (Fin d) (Fin d) ℝ) (u u' : NodeVec n d) (s s' : Skill n d) : Prop where
  vector : ∀ f, s'.vector u' (turn Q f) = (s.vector u f).map (turn Q)
  matrix : ∀ K, Element.Spec.Symmetric K → s'.matrix u' (turnMat Q K) = (s.matrix u K).map (turnMat Q)
  symm : ∀ K L, Element.Spec.Symmetric K → s.matrix u K = some L → Element.Spec.Symmetric L

/-- Both skills have the same energy. -/
def _root_.Ikarus.Spec.SameEnergy (u u' : NodeVec n d) (s s' : Skill n d) : Prop := s'.scalar u' = s.scalar u

/-! ### Sums over related points -/

theorem turn_forall_sum {α β : Type*} {P : α → β → Prop} {l : List α} {l' : List β} (h : List.Forall₂ P l l')
    (F : α → NodeVec n d) (G : β → NodeVec n d) (hP : ∀ x ∈ l, ∀ y, P x y → G y = turn Q (F x)) :
    (l'.map G).sum = turn Q (l.map F).sum := by
  induction h with
  | nil => exact (turn_zero Q).symm
  | cons hxy _ ih =>
    simp only [List.map_cons, List.sum_cons, turn_add]
    rw [hP _ List.mem_cons_self _ hxy, ih fun x hx => hP x (List.mem_cons_of_mem _ hx)]

theorem turnMat_forall_sum {α β : Type*} {P : α → β → Prop} {l : List α} {l' : List β} (h : List.Forall₂ P l l')
    (F : α → BlockMat n d) (G : β → BlockMat n d) (hP : ∀ x ∈ l, ∀ y, P x y → G y = turnMat Q (F x)) :
    (l'.map G).sum = turnMat Q (l.map F).sum := by
  induction h with
  | nil => exact (turnMat_zero Q).symm
  | cons hxy _ ih =>
    simp only [List.map_cons, List.sum_cons, turnMat_add]
    rw [hP _ List.mem_cons_self _ hxy, ih fun x hx => hP x (List.mem_cons_of_mem _ hx)]

theorem forall_sum {α β : Type*} {P : α → β → Prop} {l : List α} {l' : List β} (h : List.Forall₂ P l l')
    (F : α → ℝ) (G : β → ℝ) (hP : ∀ x ∈ l, ∀ y, P x y → G y = F x) : (l'.map G).sum = (l.map F).sum := by
  induction h with
  | nil => rfl
  | cons hxy _ ih =>
    simp only [List.map_cons, List.sum_cons]
    rw [hP _ List.mem_cons_self _ hxy, ih fun x hx => hP x (List.mem_cons_of_mem _ hx)]

theorem forall_map {α β γ : Type*} {P : β → γ → Prop} (l : List α) (f : α → β) (g : α → γ) (h : ∀ x ∈ l, P (f x) (g x)) :
    List.Forall₂ P (l.map f) (l.map g) := by
  induction l with
  | nil => exact .nil
  | cons x l ih => exact .cons (h x List.mem_cons_self) (ih fun y hy => h y (List.mem_cons_of_mem _ hy))

theorem symmetric_add' {K L : BlockMat n d} (hK : Symmetric K) (hL : Symmetric L) : Symmetric (K + L) := by
  intro I J a b
  simp only [Pi.add_apply, Matrix.add_apply]
  rw [hK I J a b, hL I J a b]

theorem symmetric_product (w : ℝ) {C : Matrix (Fin q) (Fin q) ℝ} (hC : C.IsSymm) (B : Fin n → Matrix (Fin q) (Fin d) ℝ) :
    Symmetric fun I J => w • ((B I)ᵀ * C * B J) := by
  intro I J a b
  have : (B I)ᵀ * C * B J = ((B J)ᵀ * C * B I)ᵀ := by
    rw [Matrix.transpose_mul, Matrix.transpose_mul, Matrix.transpose_transpose, hC.eq, Matrix.mul_assoc]
  show w * _ = w * _
  rw [this]
  rfl

/-! ### Solids -/

/-- C114, solids. If the nodes of an element are turned by `R` and its deformed shape by `Q`, the Green-Lagrange strains are
turned by `R` and their derivatives by `R` and `Q`. -/
theorem green_turned {dim : EAS.Dimension d q} (hdim : EAS.Spec.IsVoigt dim) (hT : VoigtTurn dim.voigt R T)
    {X X' u u' : NodeVec n d} (ht : Turned R Q X X' u u') {p : GradientPoint n d} (hX : Isoparametric X p.dN) :
    TurnedStrain Q T u u' (Ikarus.Spec.greenPoint dim p) (Ikarus.Spec.greenPoint dim (turnedPoint R p)) where
  detJ := rfl
  weight := rfl
  strain := greenLagrange_turn hdim hT ht.orthR ht.orthQ (gradient_turn ht hX)
  bop I := by
    show dim.bop (1 + EAS.gradient (fun I => R *ᵥ p.dN I) u') (R *ᵥ p.dN I) = _
    rw [gradient_turn ht hX]
    exact bop_turn hdim hT _ _
  kg S I J := geometric_turn hT ht.orthQ S _ _

theorem _root_.Ikarus.greenPoint_symmetric {dim : EAS.Dimension d q} (hdim : EAS.Spec.IsVoigt dim) (p : GradientPoint n d)
    (u : NodeVec n d) (S : Fin q → ℝ) : Symmetric ((Ikarus.Spec.greenPoint dim p).kg u S) := by
  intro I J a b
  show ((∑ i, ∑ j, S (dim.voigt i j) * p.dN I i * p.dN J j) • (1 : Matrix (Fin d) (Fin d) ℝ)) a b =
    ((∑ i, ∑ j, S (dim.voigt i j) * p.dN J i * p.dN I j) • (1 : Matrix (Fin d) (Fin d) ℝ)) b a
  have h : ∑ i, ∑ j, S (dim.voigt i j) * p.dN I i * p.dN J j = ∑ i, ∑ j, S (dim.voigt i j) * p.dN J i * p.dN I j := by
    rw [Finset.sum_comm]
    refine Finset.sum_congr rfl fun i _ => Finset.sum_congr rfl fun j _ => ?_
    rw [hdim.symm]
    ring
  rw [h, Matrix.smul_apply, Matrix.smul_apply, Matrix.one_apply, Matrix.one_apply]
  simp only [eq_comm]

/-- C114, solids. The linear strains are turned if the displacements are turned together with the element. -/
theorem linear_turned {dim : EAS.Dimension d q} (hdim : EAS.Spec.IsVoigt dim) (hT : VoigtTurn dim.voigt Q T) (hQ : Qᵀ * Q = 1)
    {u : NodeVec n d} (c : Fin d → ℝ) {p : GradientPoint n d} (hX : ∀ j, ∑ I, p.dN I j = 0) {gp gp' : LinPoint n d q}
    (h : LinearSolid dim p gp) (h' : LinearSolid dim (turnedPoint Q p) gp') : TurnedLinear Q T u (affine c Q u) gp gp' := by
  have hb : ∀ I, gp'.bop I = T * gp.bop I * Qᵀ := fun I => by
    rw [h'.bop, h.bop, ← bop_turn hdim hT, Matrix.mul_one, orth_comm hQ]
    rfl
  refine ⟨by rw [h'.detJ, h.detJ]; rfl, by rw [h'.weight, h.weight]; rfl, ?_, hb⟩
  unfold LinPoint.strain
  have hc : ∑ I, gp.bop I *ᵥ (Qᵀ *ᵥ c) = 0 := by
    rw [← Matrix.sum_mulVec]
    have : ∑ I, gp.bop I = 0 := by
      ext k a
      rw [Matrix.sum_apply]
      have e : ∀ I, gp.bop I k a = EAS.Spec.along dim.voigt (Pi.single k 1) (EAS.rowMatrix a (p.dN I)) 1 := fun I => by
        rw [h.bop, hdim.bop]
      simp only [e, ← EAS.along_sum_left]
      have : ∑ I, EAS.rowMatrix a (p.dN I) = 0 := by
        ext i j
        rw [Matrix.sum_apply]
        by_cases hi : i = a
        · simp [EAS.rowMatrix, hi, hX]
        · simp [EAS.rowMatrix, hi]
      rw [this, EAS.along_zero_left]
      rfl
    rw [this, Matrix.zero_mulVec]
  have e : ∀ I, gp'.bop I *ᵥ affine c Q u I = T *ᵥ (gp.bop I *ᵥ (Qᵀ *ᵥ c)) + T *ᵥ (gp.bop I *ᵥ u I) := fun I => by
    rw [hb, affine, Matrix.mulVec_add]
    simp only [Matrix.mulVec_mulVec, Matrix.mul_assoc, hQ, Matrix.mul_one]
  simp only [e, Finset.sum_add_distrib, ← Matrix.mulVec_sum, hc, Matrix.mulVec_zero, zero_add]

theorem pointForce_turn {law law' : Law q} {u u' : NodeVec n d} {p p' : Point n d q} (h : TurnedStrain Q T u u' p p')
    (hl : TurnedLaw T law law' (p.strain u)) :
    NonLinearElastic.pointForce law' u' p' = turn Q (NonLinearElastic.pointForce law u p) := by
  funext I
  show (p'.detJ * p'.weight) • _ = Q *ᵥ ((p.detJ * p.weight) • _)
  rw [h.detJ, h.weight, h.bop, h.strain, Matrix.mulVec_smul, ← hl.stress, Matrix.transpose_mul, Matrix.transpose_mul,
    Matrix.transpose_transpose, Matrix.mulVec_mulVec, Matrix.mulVec_mulVec, Matrix.mul_assoc]

theorem pointMatrix_turn {law law' : Law q} {u u' : NodeVec n d} {p p' : Point n d q} (h : TurnedStrain Q T u u' p p')
    (hl : TurnedLaw T law law' (p.strain u)) :
    NonLinearElastic.pointMatrix law' u' p' = turnMat Q (NonLinearElastic.pointMatrix law u p) := by
  funext I J
  show (p'.detJ * p'.weight) • _ + _ = Q * ((p.detJ * p.weight) • _ + _) * Qᵀ
  rw [h.detJ, h.weight, h.bop, h.bop, h.kg, h.strain, Matrix.mul_add, Matrix.add_mul, hl.stress, ← hl.tangent, Matrix.mul_smul,
    Matrix.smul_mul, Matrix.mul_smul, Matrix.smul_mul]
  congr 2
  simp only [Matrix.transpose_mul, Matrix.transpose_transpose, Matrix.mul_assoc]

/-- C114, elements. The nonlinear element at the turned state: the same energy, turned forces and turned matrix. -/
theorem nonLinearElastic_turn {law law' : Law q} {u u' : NodeVec n d} {gps gps' : List (Point n d q)}
    (h : List.Forall₂ (TurnedStrain Q T u u') gps gps') (hl : ∀ gp ∈ gps, TurnedLaw T law law' (gp.strain u))
    (hsym : ∀ gp ∈ gps, (law.tangent (gp.strain u)).IsSymm ∧ ∀ S, Symmetric (gp.kg u S)) :
    Ikarus.Spec.TurnedSkill Q u u' (Skill.nonLinearElastic law gps) (Skill.nonLinearElastic law' gps') ∧
      Ikarus.Spec.SameEnergy u u' (Skill.nonLinearElastic law gps) (Skill.nonLinearElastic law' gps') := by
  refine ⟨⟨fun f => ?_, fun K _ => ?_, fun K L hK hL => ?_⟩, ?_⟩
  · refine congrArg some ?_
    rw [NonLinearElastic.calculateVector_sum, NonLinearElastic.calculateVector_sum, turn_add,
      turn_forall_sum h _ _ fun p hp p' hpp => pointForce_turn hpp (hl p hp)]
  · refine congrArg some ?_
    rw [NonLinearElastic.calculateMatrix_sum, NonLinearElastic.calculateMatrix_sum, turnMat_add,
      turnMat_forall_sum h _ _ fun p hp p' hpp => pointMatrix_turn hpp (hl p hp)]
  · obtain rfl := Option.some.inj hL
    rw [NonLinearElastic.calculateMatrix_sum]
    refine symmetric_add' hK (symmetric_list_sum _ _ fun p hp => symmetric_add' (symmetric_product _ (hsym p hp).1 _) ?_)
    intro I J a b
    exact congrArg ((p.detJ * p.weight) * ·) ((hsym p hp).2 _ I J a b)
  · refine congrArg some ?_
    rw [NonLinearElastic.calculateScalar_sum, NonLinearElastic.calculateScalar_sum]
    refine forall_sum h _ _ fun p hp p' hpp => ?_
    rw [hpp.strain, hpp.detJ, hpp.weight, (hl p hp).energy]

/-- C114, elements. The linear element at the turned state. -/
theorem linearElastic_turn {C C' : Matrix (Fin q) (Fin q) ℝ} (hC : Tᵀ * C' * T = C) (hCs : C.IsSymm) {u u' : NodeVec n d}
    {gps gps' : List (LinPoint n d q)} (h : List.Forall₂ (TurnedLinear Q T u u') gps gps') :
    Ikarus.Spec.TurnedSkill Q u u' (Skill.linearElastic C gps) (Skill.linearElastic C' gps') ∧
      Ikarus.Spec.SameEnergy u u' (Skill.linearElastic C gps) (Skill.linearElastic C' gps') := by
  refine ⟨⟨fun f => ?_, fun K _ => ?_, fun K L hK hL => ?_⟩, ?_⟩
  · refine congrArg some ?_
    rw [LinearElastic.calculateVector_sum, LinearElastic.calculateVector_sum, turn_add,
      turn_forall_sum h _ _ fun p hp p' hpp => ?_]
    funext I
    show (p'.detJ * p'.weight) • _ = Q *ᵥ ((p.detJ * p.weight) • _)
    rw [hpp.detJ, hpp.weight, hpp.bop, hpp.strain, Matrix.mulVec_smul, LinearElastic.stress, LinearElastic.stress, ← hC]
    simp only [Matrix.mulVec_mulVec, Matrix.transpose_mul, Matrix.transpose_transpose, Matrix.mul_assoc]
  · refine congrArg some ?_
    rw [LinearElastic.calculateMatrix_sum, LinearElastic.calculateMatrix_sum, turnMat_add,
      turnMat_forall_sum h _ _ fun p hp p' hpp => ?_]
    funext I J
    show (p'.detJ * p'.weight) • _ = Q * ((p.detJ * p.weight) • _) * Qᵀ
    rw [hpp.detJ, hpp.weight, hpp.bop, hpp.bop, ← hC, Matrix.mul_smul, Matrix.smul_mul]
    simp only [Matrix.transpose_mul, Matrix.transpose_transpose, Matrix.mul_assoc]
  · obtain rfl := Option.some.inj hL
    rw [LinearElastic.calculateMatrix_sum]
    exact symmetric_add' hK (symmetric_list_sum _ _ fun p _ => symmetric_product _ hCs _)
  · refine congrArg some ?_
    rw [LinearElastic.calculateScalar_sum, LinearElastic.calculateScalar_sum]
    refine forall_sum h _ _ fun p hp p' hpp => ?_
    rw [hpp.strain, hpp.detJ, hpp.weight, LinearElastic.internalEnergy, LinearElastic.internalEnergy, ← hC]
    congr 3
    simp only [← Matrix.mulVec_mulVec]
    rw [Matrix.dotProduct_mulVec (p.strain u), Matrix.vecMul_transpose]

/-! ### Loads -/

/-- The integration point of a load on the element turned by `R` and moved by `a`. -/
def Spec.turnedLoad (R : Matrix (Fin d) (Fin d) ℝ) (a : Fin d → ℝ) (p : LoadPoint n d) : LoadPoint n d :=
  { p with x := a + R *ᵥ p.x }

/-- The same for an intersection with the boundary. -/
def Spec.turnedFace (R : Matrix (Fin d) (Fin d) ℝ) (a : Fin d → ℝ) (i : Traction.Intersection n d) : Traction.Intersection n d :=
  { i with points := i.points.map (turnedLoad R a) }

/-- At the turned places the load `t'` is the load `t`, turned by `Q`. -/
def Spec.LoadTurns (R : Matrix (Fin d) (Fin d) ℝ) (a : Fin d → ℝ) (Q : Matrix (Fin d) (Fin d) ℝ) (t t' : LoadFunction d) : Prop :=
  ∀ x l, t' (a + R *ᵥ x) l = Q *ᵥ t x l

theorem displacement_turn (p : LoadPoint n d) (u : NodeVec n d) : p.displacement (turn Q u) = Q *ᵥ p.displacement u := by
  unfold LoadPoint.displacement turn
  rw [Matrix.mulVec_sum]
  exact Finset.sum_congr rfl fun I _ => (Matrix.mulVec_smul Q (p.N I) (u I)).symm

theorem turnedSkill_of_load {s s' : Skill n d} {u u' : NodeVec n d} (F : NodeVec n d) (hs : ∀ u f, s.vector u f = some (f + F))
    (hs' : ∀ u f, s'.vector u f = some (f + turn Q F)) (hm : ∀ u K, s.matrix u K = some K) (hm' : ∀ u K, s'.matrix u K = some K) :
    Ikarus.Spec.TurnedSkill Q u u' s s' where
  vector f := by rw [hs, hs', Option.map_some, turn_add]
  matrix K _ := by rw [hm, hm']; rfl
  symm K L hK hL := by
    rw [hm] at hL
    obtain rfl := Option.some.inj hL
    exact hK

/-- C114, loads. A volume load that is turned with the structure adds turned forces, and it has the same energy if the
displacements are turned too. -/
theorem volumeLoad_turn {a : Fin d → ℝ} {t t' : LoadFunction d} (ht : LoadTurns R a Q t t') (gps : List (LoadPoint n d)) (l : ℝ)
    (u u' : NodeVec n d) :
    Ikarus.Spec.TurnedSkill Q u u' (Skill.volumeLoad (some t) gps l) (Skill.volumeLoad (some t') (gps.map (turnedLoad R a)) l) ∧
      (Qᵀ * Q = 1 → Ikarus.Spec.SameEnergy u (turn Q u) (Skill.volumeLoad (some t) gps l)
        (Skill.volumeLoad (some t') (gps.map (turnedLoad R a)) l)) := by
  refine ⟨turnedSkill_of_load _ (fun _ f => congrArg some (VolumeLoad.calculateVector_sum t gps l f)) (fun _ f => ?_)
    (fun _ _ => rfl) fun _ _ => rfl, fun hQ => ?_⟩
  · refine congrArg some ?_
    rw [VolumeLoad.calculateVector_sum, List.map_map, turn_list_sum Q gps (VolumeLoad.pointForce t l)]
    intro p _
    funext I
    show -((p.detJ * p.weight) • ((p.N I • (1 : Matrix (Fin d) (Fin d) ℝ)) *ᵥ t' (a + R *ᵥ p.x) l)) =
      Q *ᵥ -((p.detJ * p.weight) • ((p.N I • (1 : Matrix (Fin d) (Fin d) ℝ)) *ᵥ t p.x l))
    rw [ht]
    simp only [Matrix.mulVec_neg, Matrix.mulVec_smul, Matrix.smul_mulVec, Matrix.one_mulVec]
  · refine congrArg some ?_
    rw [VolumeLoad.calculateScalar_sum, VolumeLoad.calculateScalar_sum, List.map_map]
    congr 1
    refine List.map_congr_left fun p _ => ?_
    show -((p.displacement (turn Q u) ⬝ᵥ t' (a + R *ᵥ p.x) l) * p.detJ * p.weight) = _
    rw [ht, displacement_turn, orth_dot hQ]

/-- C114, loads. The same for a traction on the boundary. -/
theorem traction_turn {a : Fin d → ℝ} {t t' : LoadFunction d} (ht : LoadTurns R a Q t t') (is : List (Traction.Intersection n d))
    (l : ℝ) (u u' : NodeVec n d) :
    Ikarus.Spec.TurnedSkill Q u u' (Skill.traction (some is) (some t) l)
        (Skill.traction (some (is.map (turnedFace R a))) (some t') l) ∧
      (Qᵀ * Q = 1 → Ikarus.Spec.SameEnergy u (turn Q u) (Skill.traction (some is) (some t) l)
        (Skill.traction (some (is.map (turnedFace R a))) (some t') l)) := by
  have hp : loadedPoints (is.map (turnedFace R a)) = (loadedPoints is).map (turnedLoad R a) := by
    unfold loadedPoints
    rw [List.filter_map, List.flatMap_map, List.map_flatMap]
    rfl
  refine ⟨turnedSkill_of_load _ (fun _ f => Traction.calculateVector_sum is t l f) (fun _ f => ?_)
    (fun _ _ => rfl) fun _ _ => rfl, fun hQ => ?_⟩
  · refine (Traction.calculateVector_sum _ t' l f).trans ?_
    rw [hp, List.map_map, turn_list_sum Q (loadedPoints is) (Traction.pForce t l)]
    intro p _
    funext I
    show -((p.weight * p.detJ) • ((p.N I • (1 : Matrix (Fin d) (Fin d) ℝ)) *ᵥ t' (a + R *ᵥ p.x) l)) =
      Q *ᵥ -((p.weight * p.detJ) • ((p.N I • (1 : Matrix (Fin d) (Fin d) ℝ)) *ᵥ t p.x l))
    rw [ht]
    simp only [Matrix.mulVec_neg, Matrix.mulVec_smul, Matrix.smul_mulVec, Matrix.one_mulVec]
  · refine (Traction.calculateScalar_sum _ t' l _).trans ((congrArg some ?_).trans (Traction.calculateScalar_sum is t l u).symm)
    rw [hp, List.map_map]
    congr 1
    refine List.map_congr_left fun p _ => ?_
    show -((t' (a + R *ᵥ p.x) l ⬝ᵥ p.displacement (turn Q u)) * p.weight * p.detJ) = _
    rw [ht, displacement_turn, orth_dot hQ]

/-! ### Elements with several skills -/

/-- C114, elements. An element all of whose skills are turned gives turned forces, a turned matrix and the same energy. -/
theorem mixin_turn {u u' : NodeVec n d} {ss ss' : List (Skill n d)} :
    (List.Forall₂ (Ikarus.Spec.TurnedSkill Q u u') ss ss' →
      Ikarus.Spec.TurnedSkill Q u u' (Mixin.together ss) (Mixin.together ss')) ∧
    (List.Forall₂ (Ikarus.Spec.SameEnergy u u') ss ss' → Ikarus.Spec.SameEnergy u u' (Mixin.together ss) (Mixin.together ss')) := by
  refine ⟨fun h => ?_, fun h => ?_⟩
  · induction h with
    | nil =>
      refine ⟨fun f => rfl, fun K _ => rfl, fun K L hK hL => ?_⟩
      obtain rfl : K = L := Option.some.inj hL
      exact hK
    | @cons s s' ss ss' h1 _ ih =>
      refine ⟨fun f => ?_, fun K hK => ?_, fun K L hK hL => ?_⟩
      · show (s'.vector u' (turn Q f)).bind _ = ((s.vector u f).bind _).map _
        rw [h1.vector]
        cases s.vector u f with
        | none => rfl
        | some g => exact ih.vector g
      · show (s'.matrix u' (turnMat Q K)).bind _ = ((s.matrix u K).bind _).map _
        rw [h1.matrix K hK]
        cases hs : s.matrix u K with
        | none => rfl
        | some L => exact ih.matrix L (h1.symm K L hK hs)
      · obtain ⟨M, h2, h3⟩ := Option.bind_eq_some_iff.1 hL
        exact ih.symm M L (h1.symm K M hK h2) h3
  · induction h with
    | nil => rfl
    | @cons s s' ss ss' h1 _ ih =>
      show (s'.scalar u').bind _ = (s.scalar u).bind _
      rw [h1]
      have ih : Mixin.calculateScalar u' ss' = Mixin.calculateScalar u ss := ih
      rw [ih]

/-! ### Trusses -/

theorem turnedLaw_one (law : Law q) (e : Fin q → ℝ) : TurnedLaw 1 law law e where
  energy := by rw [Matrix.one_mulVec]
  stress := by rw [Matrix.one_mulVec, Matrix.transpose_one, Matrix.one_mulVec]
  tangent := by rw [Matrix.one_mulVec, Matrix.transpose_one, Matrix.one_mul, Matrix.mul_one]

theorem squaredNorm_turn (hQ : Qᵀ * Q = 1) (x : Fin d → ℝ) : Truss.squaredNorm (Q *ᵥ x) = Truss.squaredNorm x := orth_dot hQ x x

/-- C114, trusses. The truss whose nodes are turned by `R` and whose deformed shape is turned by `Q`: the same energy, turned
forces and matrix. -/
theorem truss_turn (E A : ℝ) {X X' u u' : NodeVec 2 d} (ht : Turned R Q X X' u u') :
    Ikarus.Spec.TurnedSkill Q u u' (Skill.truss E A (X 0) (X 1)) (Skill.truss E A (X' 0) (X' 1)) ∧
      Ikarus.Spec.SameEnergy u u' (Skill.truss E A (X 0) (X 1)) (Skill.truss E A (X' 0) (X' 1)) := by
  have hax : Truss.axis (X' 0) (X' 1) u' = Q *ᵥ Truss.axis (X 0) (X 1) u := by
    obtain ⟨c, hc⟩ := ht.shape
    have h0 := congrFun hc 0
    have h1 := congrFun hc 1
    simp only [Pi.add_apply, affine] at h0 h1
    unfold Truss.axis
    rw [h0, h1, Matrix.mulVec_sub]
    abel
  have hlen : Truss.squaredNorm (X' 1 - X' 0) = Truss.squaredNorm (X 1 - X 0) := by
    obtain ⟨a, rfl⟩ := ht.mesh
    have : affine a R X 1 - affine a R X 0 = R *ᵥ (X 1 - X 0) := by
      simp only [affine, Matrix.mulVec_sub]
      abel
    rw [this, squaredNorm_turn ht.orthR]
  have hp : TurnedStrain Q (1 : Matrix (Fin 1) (Fin 1) ℝ) u u' (Truss.point (X 0) (X 1)) (Truss.point (X' 0) (X' 1)) := by
    refine ⟨?_, rfl, ?_, fun I => ?_, fun S I J => ?_⟩
    · show √(Truss.squaredNorm (X' 1 - X' 0)) = √(Truss.squaredNorm (X 1 - X 0))
      rw [hlen]
    · rw [Matrix.one_mulVec]
      funext _
      show (Truss.computeStrain (X' 0) (X' 1) u').Egl = (Truss.computeStrain (X 0) (X 1) u).Egl
      rw [Truss.Egl_eq, Truss.Egl_eq, hlen, hax, squaredNorm_turn ht.orthQ]
    · have h : ∀ I, (Truss.computeStrain (X' 0) (X' 1) u').dEdu I = Q *ᵥ (Truss.computeStrain (X 0) (X 1) u).dEdu I := by
        intro I
        fin_cases I
        · show (Truss.computeStrain (X' 0) (X' 1) u').dEdu 0 = Q *ᵥ (Truss.computeStrain (X 0) (X 1) u).dEdu 0
          rw [Truss.dEdu_zero, Truss.dEdu_zero, hlen, hax, Matrix.mulVec_neg, Matrix.mulVec_smul]
        · show (Truss.computeStrain (X' 0) (X' 1) u').dEdu 1 = Q *ᵥ (Truss.computeStrain (X 0) (X 1) u).dEdu 1
          rw [Truss.dEdu_one, Truss.dEdu_one, hlen, hax, Matrix.mulVec_smul]
      ext k a
      rw [Matrix.one_mul]
      show (Truss.computeStrain (X' 0) (X' 1) u').dEdu I a = _
      rw [h, Matrix.mul_apply]
      show ∑ b, Q a b * (Truss.computeStrain (X 0) (X 1) u).dEdu I b =
        ∑ b, (Truss.computeStrain (X 0) (X 1) u).dEdu I b * Q a b
      exact Finset.sum_congr rfl fun b _ => mul_comm (Q a b) _
    · rw [Matrix.transpose_one, Matrix.one_mulVec]
      show S 0 • (Truss.computeStrain (X' 0) (X' 1) u').ddEddu I J = Q * (S 0 • (Truss.computeStrain (X 0) (X 1) u).ddEddu I J) * Qᵀ
      rw [Truss.ddEddu_apply, Truss.ddEddu_apply, hlen]
      by_cases h : I = J <;> simp [h, orth_comm ht.orthQ]
  have hl : ∀ e, TurnedLaw (1 : Matrix (Fin 1) (Fin 1) ℝ) (Truss.law E A) (Truss.law E A) e := turnedLaw_one _
  refine ⟨⟨fun f => congrArg some ?_, fun K _ => congrArg some ?_, fun K L hK hL => ?_⟩, congrArg some ?_⟩
  · rw [Truss.calculateVector_eq, Truss.calculateVector_eq, turn_add, pointForce_turn hp (hl _)]
  · rw [Truss.calculateMatrix_eq, Truss.calculateMatrix_eq, turnMat_add, pointMatrix_turn hp (hl _)]
  · obtain rfl := Option.some.inj hL
    rw [Truss.calculateMatrix_eq]
    exact symmetric_add' hK (NonLinearElastic.symmetric_pointMatrix (Truss.law E A) _ (Truss.law_contract E A) _ u
      (Truss.point_contract _ _ u) trivial)
  · rw [Truss.calculateScalar_eq, Truss.calculateScalar_eq, hp.strain, hp.detJ, hp.weight, (hl _).energy]

/-! ### Which motions -/

/-- C114, motions. A body that is turned as a whole, and a body whose deformed shape alone is turned. -/
theorem turned_motions (hQ : Qᵀ * Q = 1) (a c : Fin d → ℝ) (X u : NodeVec n d) :
    Turned Q Q X (affine a Q X) u (turn Q u) ∧ Turned 1 Q X X u (affine c Q (X + u) - X) := by
  refine ⟨⟨hQ, hQ, ⟨a, rfl⟩, a, funext fun I => ?_⟩, ⟨by rw [Matrix.transpose_one, Matrix.one_mul], hQ, ⟨0, funext fun I => ?_⟩, c, ?_⟩⟩
  · show a + Q *ᵥ X I + Q *ᵥ u I = a + Q *ᵥ (X I + u I)
    rw [Matrix.mulVec_add, add_assoc]
  · show X I = 0 + (1 : Matrix (Fin d) (Fin d) ℝ) *ᵥ X I
    rw [Matrix.one_mulVec, zero_add]
  · rw [add_sub_cancel]

/-- The claim that also for the linear element only the deformed shape has to be turned. -/
def Spec.LinearFollows : Prop :=
  ∀ (Q : Matrix (Fin 2) (Fin 2) ℝ) (X u u' : NodeVec 4 2) (p : GradientPoint 4 2) (C : Matrix (Fin 3) (Fin 3) ℝ),
    Turned 1 Q X X u u' → Isoparametric X p.dN → C.IsSymm →
    Ikarus.Spec.TurnedSkill Q u u' (Skill.linearElastic C [⟨p.detJ, p.weight, fun I => EAS.plane.bop 1 (p.dN I)⟩])
      (Skill.linearElastic C [⟨p.detJ, p.weight, fun I => EAS.plane.bop 1 (p.dN I)⟩])

/-- The point in the middle of the unit square. -/
noncomputable def Spec.middle : GradientPoint 4 2 := ⟨1, 1, ![1 / 2, 1 / 2], Spec.bilinear ![1 / 2, 1 / 2]⟩

/-- C114. The linear element does not follow: the unit square turned by a right angle has forces, although it is not
strained. -/
theorem linear_not_follows : ¬ Spec.LinearFollows := by
  intro h
  have hQ : (!![0, -1; 1, 0] : Matrix (Fin 2) (Fin 2) ℝ)ᵀ * !![0, -1; 1, 0] = 1 := by
    ext i j
    fin_cases i <;> fin_cases j <;> simp [Matrix.mul_apply, Fin.sum_univ_two]
  have h := (h _ _ _ _ Spec.middle 1 (turned_motions hQ 0 0 Spec.square 0).2 (square_isoparametric _) (by simp)).vector 0
  rw [turn_zero] at h
  have h := Option.some.inj h
  have h1 := congrFun (congrFun h 0) 0
  rw [LinearElastic.calculateVector_sum, LinearElastic.calculateVector_sum] at h1
  simp [turn, LinearElastic.pointForce, LinearElastic.stress, LinPoint.strain, Spec.middle, Spec.square, Spec.bilinear, affine,
    EAS.plane, EAS.bop2, Fin.sum_univ_four, Fin.sum_univ_three, Matrix.mulVec, Matrix.vecHead, Matrix.vecTail, dotProduct] at h1
  norm_num at h1

/-! ### Examples -/

/-- A rotation of the plane. -/
noncomputable def Spec.turn345 : Matrix (Fin 2) (Fin 2) ℝ := !![3 / 5, -4 / 5; 4 / 5, 3 / 5]

theorem turn345_orth : Spec.turn345ᵀ * Spec.turn345 = 1 := by
  ext i j
  fin_cases i <;> fin_cases j <;> norm_num [Spec.turn345, Matrix.mul_apply, Fin.sum_univ_two]

/-- The unit square with any displacements: turned as a whole, and with the deformed shape turned. -/
example (u : NodeVec 4 2) := green_turned EAS.plane_isVoigt (plane_turn _) (turned_motions turn345_orth ![1, 2] 0 Spec.square u).1
  (p := Spec.middle) (square_isoparametric _)

example (u : NodeVec 4 2) := green_turned EAS.plane_isVoigt (T := transformationMatrix2 1) (plane_turn _)
  (turned_motions turn345_orth 0 ![1, 2] Spec.square u).2 (p := Spec.middle) (square_isoparametric _)

/-- Its linear strains. -/
example (u : NodeVec 4 2) := linear_turned EAS.plane_isVoigt (plane_turn _) turn345_orth (u := u) ![1, 2] (p := Spec.middle)
  (square_isoparametric _).unity (gp := ⟨1, 1, fun I => EAS.plane.bop 1 (Spec.middle.dN I)⟩)
  (gp' := ⟨1, 1, fun I => EAS.plane.bop 1 ((turnedPoint Spec.turn345 Spec.middle).dN I)⟩) ⟨rfl, rfl, fun _ => rfl⟩ ⟨rfl, rfl, fun _ => rfl⟩

theorem plane_one : transformationMatrix2 (1 : Matrix (Fin 2) (Fin 2) ℝ) = 1 := by
  ext i j
  fin_cases i <;> fin_cases j <;> simp [transformationMatrix2]

/-- Its forces with any law of symmetric moduli, the deformed shape turned. -/
example (law : Law 3) (u : NodeVec 4 2) (hs : ∀ e, (law.tangent e).IsSymm) :=
  nonLinearElastic_turn (T := 1) (law := law) (law' := law)
    (.cons (plane_one ▸ green_turned EAS.plane_isVoigt (T := transformationMatrix2 1) (plane_turn _)
      (turned_motions turn345_orth 0 ![1, 2] Spec.square u).2 (p := Spec.middle) (square_isoparametric _)) .nil)
    (fun _ _ => turnedLaw_one law _) (fun gp hgp => by
      obtain rfl := List.mem_singleton.1 hgp
      exact ⟨hs _, greenPoint_symmetric EAS.plane_isVoigt _ _⟩)

/-- A load that is turned with the body. -/
example (gps : List (LoadPoint 4 2)) (u : NodeVec 4 2) := (volumeLoad_turn (R := Spec.turn345) (a := ![1, 2]) (Q := Spec.turn345)
  (t := fun x l => ![l * x 1, -l]) (t' := fun y l => Spec.turn345 *ᵥ ![l * (Spec.turn345ᵀ *ᵥ (y - ![1, 2])) 1, -l])
  (fun x l => by
    show Spec.turn345 *ᵥ ![l * (Spec.turn345ᵀ *ᵥ (![1, 2] + Spec.turn345 *ᵥ x - ![1, 2])) 1, -l] = _
    rw [add_sub_cancel_left, Matrix.mulVec_mulVec, turn345_orth, Matrix.one_mulVec]) gps 2 u (turn Spec.turn345 u)).2 turn345_orth

example (is : List (Traction.Intersection 4 2)) (u : NodeVec 4 2) := (traction_turn (R := Spec.turn345) (a := ![1, 2])
  (Q := Spec.turn345) (t := fun _ l => ![0, -l]) (t' := fun _ l => Spec.turn345 *ᵥ ![0, -l]) (fun _ _ => rfl) is 2 u
  (turn Spec.turn345 u)).1

/-- A truss, together with another one, turned with its deformed shape. -/
example (u : NodeVec 2 2) := mixin_turn.1 (.cons (truss_turn 2 3 (turned_motions turn345_orth ![1, 2] 0 (![![0, 0], ![3, 4]] : NodeVec 2 2) u).1).1
  (.cons (truss_turn 5 7 (turned_motions turn345_orth ![1, 2] 0 (![![0, 0], ![3, 4]] : NodeVec 2 2) u).1).1 .nil))

example (u : NodeVec 2 2) := truss_turn 2 3 (turned_motions turn345_orth 0 ![1, 2] (![![0, 0], ![3, 4]] : NodeVec 2 2) u).2

end Ikarus.Element
