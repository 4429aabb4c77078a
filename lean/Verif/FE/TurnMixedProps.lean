import Verif.FE.TurnEASProps
import Verif.FE.AssumedStressProps
import Verif.FE.DisplacementPressureProps

/-!
C115, assumed stresses and pressures: elements whose mesh, and whose deformed shape, is turned.
-/

namespace Ikarus.Element.AssumedStress

open Matrix Element.Spec EAS

variable {n d q m g : Nat} {R Q : Matrix (Fin d) (Fin d) ℝ} {T : Matrix (Fin q) (Fin q) ℝ}

/-! ### Specification -/

/-- At the turned state the strain of the point is turned, and its modes are turned stresses. -/
structure Spec.TurnedAS (Q : Matrix (Fin d) (Fin d) ℝ) (T : Matrix (Fin q) (Fin q) ℝ) (u u' : NodeVec n d)
    (p p' : ASPoint n d q m) : Prop where
  point : TurnedStrain Q T u u' p.point p'.point
  P : Tᵀ * p'.P = p.P

/-- The internal variables are the same, strains and compliances at the points are turned. -/
structure Spec.TurnedState (T : Matrix (Fin q) (Fin q) ℝ) (st st' : State q m g) : Prop where
  beta : st'.beta = st.beta
  strain : ∀ i, st'.strainStates i = T *ᵥ st.strainStates i
  inverted : ∀ i, st'.inverted i = T * st.inverted i * Tᵀ

/-- The inversion of the turned material. -/
def Spec.TurnedInversion (T : Matrix (Fin q) (Fin q) ℝ) (inv inv' : Inversion q) : Prop :=
  ∀ S e, inv' S (T *ᵥ e) = (T * (inv (Tᵀ *ᵥ S) e).1 * Tᵀ, T *ᵥ (inv (Tᵀ *ᵥ S) e).2)

/-! ### Sums -/

theorem foldl_finRange_add {V : Type*} [AddCommMonoid V] (F : Fin g → V) (x : V) :
    (List.finRange g).foldl (fun y i => y + F i) x = x + ∑ i, F i := by
  rw [foldl_add_sum, ← List.ofFn_eq_map, List.sum_ofFn]

theorem calculateH_eq (gps : Fin g → ASPoint n d q m) (st : State q m g) : calculateH gps st =
    ∑ i, ((gps i).point.detJ * (gps i).point.weight) • ((gps i).Pᵀ * st.inverted i * (gps i).P) := by
  unfold calculateH
  rw [foldl_finRange_add, zero_add]
  exact Finset.sum_congr rfl fun i _ => by rw [add_zero]

theorem calculateG_eq (gps : Fin g → ASPoint n d q m) (u : NodeVec n d) : calculateG gps u =
    fun I => ∑ i, ((gps i).point.detJ * (gps i).point.weight) • ((gps i).Pᵀ * (gps i).point.bop u I) := by
  have h : calculateG gps u = (List.finRange g).foldl (fun (G : Fin n → Matrix (Fin m) (Fin d) ℝ) i =>
      G + fun I => ((gps i).point.detJ * (gps i).point.weight) • ((gps i).Pᵀ * (gps i).point.bop u I)) 0 := by
    refine foldl_congr' (fun G i => ?_) _ _
    rw [foldl_update_add (fun I => ((gps i).point.detJ * (gps i).point.weight) • ((gps i).Pᵀ * (gps i).point.bop u I)) _
      (List.nodup_finRange n) G]
    funext I
    simp
  rw [h, foldl_finRange_add, zero_add]
  funext I
  rw [Finset.sum_apply]

theorem calculateRtilde_sum' (gps : Fin g → ASPoint n d q m) (st : State q m g) (u : NodeVec n d) : calculateRtilde gps st u =
    ∑ i, ((gps i).point.detJ * (gps i).point.weight) • ((gps i).Pᵀ *ᵥ ((gps i).point.strain u - st.strainStates i)) := by
  unfold calculateRtilde
  rw [foldl_finRange_add, zero_add]

theorem forces_sum (gps : Fin g → ASPoint n d q m) (st : State q m g) (u f : NodeVec n d) :
    (List.finRange g).foldl (fun force i => (List.finRange n).foldl (fun force I => addSegment force I
      (((gps i).point.detJ * (gps i).point.weight) • (((gps i).point.bop u I)ᵀ *ᵥ (gps i).value st.beta))) force) f =
    f + Spec.forces gps u st.beta := by
  have h : Spec.forces gps u st.beta = ∑ i, fun I =>
      ((gps i).point.detJ * (gps i).point.weight) • (((gps i).point.bop u I)ᵀ *ᵥ (gps i).value st.beta) := by
    funext I
    rw [Finset.sum_apply]
    rfl
  rw [h, ← foldl_finRange_add]
  exact foldl_congr' (fun f i => foldl_addSegment _ f) _ _

theorem geometric_sum (gps : Fin g → ASPoint n d q m) (st : State q m g) (u : NodeVec n d) (K : BlockMat n d) :
    (List.finRange g).foldl (fun K i => (List.finRange n).foldl (fun K I => (List.finRange n).foldl (fun K J =>
      addBlock K I J (((gps i).point.detJ * (gps i).point.weight) • (gps i).point.kg u ((gps i).value st.beta) I J)) K) K) K =
    K + Spec.geometric gps u st.beta := by
  have h : Spec.geometric gps u st.beta = ∑ i, fun I J =>
      ((gps i).point.detJ * (gps i).point.weight) • (gps i).point.kg u ((gps i).value st.beta) I J := by
    funext I J
    rw [Finset.sum_apply, Finset.sum_apply]
    rfl
  rw [h, ← foldl_finRange_add]
  exact foldl_congr' (fun K i => foldl_addBlock (fun I J => _) K) _ _

section Element

variable {u u' : NodeVec n d} {gps gps' : Fin g → ASPoint n d q m} {st st' : State q m g}
  (h : ∀ i, Spec.TurnedAS Q T u u' (gps i) (gps' i))

include h

theorem value_turn (i : Fin g) (beta : Fin m → ℝ) : Tᵀ *ᵥ (gps' i).value beta = (gps i).value beta := by
  rw [ASPoint.value, Matrix.mulVec_mulVec, (h i).P]; rfl

theorem calculateG_turn : calculateG gps' u' = fun I => calculateG gps u I * Qᵀ := by
  rw [calculateG_eq, calculateG_eq]
  funext I
  refine Eq.trans ?_ (Matrix.sum_mul _ _ _).symm
  refine Finset.sum_congr rfl fun i _ => ?_
  rw [(h i).point.detJ, (h i).point.weight, (h i).point.bop, ← (h i).P, Matrix.smul_mul]
  simp only [Matrix.transpose_mul, Matrix.transpose_transpose, Matrix.mul_assoc]

theorem forces_turn (beta : Fin m → ℝ) : Spec.forces gps' u' beta = turn Q (Spec.forces gps u beta) := by
  funext I
  show ∑ i, _ = Q *ᵥ ∑ i, _
  rw [Matrix.mulVec_sum]
  refine Finset.sum_congr rfl fun i _ => ?_
  rw [(h i).point.detJ, (h i).point.weight, (h i).point.bop, ← (h i).P, Matrix.mulVec_smul]
  simp only [Matrix.transpose_mul, Matrix.transpose_transpose, Matrix.mulVec_mulVec, Matrix.mul_assoc]

theorem geometric_stiffness_turn (beta : Fin m → ℝ) : Spec.geometric gps' u' beta = turnMat Q (Spec.geometric gps u beta) := by
  funext I J
  show ∑ i, _ = Q * (∑ i, _) * Qᵀ
  rw [Finset.mul_sum, Finset.sum_mul]
  refine Finset.sum_congr rfl fun i _ => ?_
  rw [(h i).point.detJ, (h i).point.weight, (h i).point.kg, ← (h i).P, Matrix.mul_smul, Matrix.smul_mul, Matrix.mulVec_mulVec]

variable (hst : Spec.TurnedState T st st')

include hst

theorem calculateH_turn : calculateH gps' st' = calculateH gps st := by
  rw [calculateH_eq, calculateH_eq]
  refine Finset.sum_congr rfl fun i _ => ?_
  rw [(h i).point.detJ, (h i).point.weight, hst.inverted, ← (h i).P]
  simp only [Matrix.transpose_mul, Matrix.transpose_transpose, Matrix.mul_assoc]

theorem asRtilde_turn : calculateRtilde gps' st' u' = calculateRtilde gps st u := by
  rw [calculateRtilde_sum', calculateRtilde_sum']
  refine Finset.sum_congr rfl fun i _ => ?_
  rw [(h i).point.detJ, (h i).point.weight, (h i).point.strain, hst.strain, ← (h i).P, ← Matrix.mulVec_sub,
    Matrix.mulVec_mulVec, Matrix.transpose_mul, Matrix.transpose_transpose]

end Element

/-- The inversion keeps turned states. -/
theorem inversion_turn {inv inv' : Inversion q} (hinv : Spec.TurnedInversion T inv inv') {gps gps' : Fin g → ASPoint n d q m}
    (hP : ∀ i, Tᵀ * (gps' i).P = (gps i).P) {st st' : State q m g} (hb : st'.beta = st.beta)
    (hs : ∀ i, st'.strainStates i = T *ᵥ st.strainStates i) :
    Spec.TurnedState T (calculateMaterialInversion inv gps st) (calculateMaterialInversion inv' gps' st') := by
  have hv : ∀ i, Tᵀ *ᵥ (gps' i).value st.beta = (gps i).value st.beta := fun i => by
    rw [ASPoint.value, Matrix.mulVec_mulVec, hP]; rfl
  refine ⟨hb, fun i => ?_, fun i => ?_⟩
  · show (inv' ((gps' i).value st'.beta) (st'.strainStates i)).2 = _
    rw [hb, hs, hinv, hv]
    rfl
  · show (inv' ((gps' i).value st'.beta) (st'.strainStates i)).1 = _
    rw [hb, hs, hinv, hv]
    rfl

/-- C115, assumed stresses. At the turned state and the same internal variables an element with assumed stresses adds the turned
forces and the turned matrix and has the same energy; an update with the turned correction leads to the same internal
variables and the turned states of the material, from which the initialised element starts. -/
theorem assumedStress_turn (hQ : Qᵀ * Q = 1) {u u' : NodeVec n d} {gps gps' : Fin g → ASPoint n d q m} {st st' : State q m g}
    (h : ∀ i, Spec.TurnedAS Q T u u' (gps i) (gps' i)) (hst : Spec.TurnedState T st st') :
    (∀ aff f, calculateVector gps' st' aff u' (turn Q f) = (calculateVector gps st aff u f).map (turn Q)) ∧
    ((∀ i, (st.inverted i).IsSymm) → (∀ i S, Element.Spec.Symmetric ((gps i).point.kg u S)) → ∀ aff K,
      Element.Spec.Symmetric K → calculateMatrix gps' st' aff u' (turnMat Q K) = (calculateMatrix gps st aff u K).map (turnMat Q)) ∧
    calculateScalar gps' st' u' = calculateScalar gps st u ∧
    (∀ inv inv', Spec.TurnedInversion T inv inv' → (∀ N M dx, Option.Rel (Spec.TurnedState T)
      (updateState inv gps st u N M dx) (updateState inv' gps' st' u' N M (turn Q dx))) ∧
      ∀ old : Fin g → Fin q → ℝ, Spec.TurnedState T (initializeState inv gps old) (initializeState inv' gps' fun i => T *ᵥ old i)) := by
  have eH := calculateH_turn h hst
  have eG := calculateG_turn h
  have eR := asRtilde_turn h hst
  have ef := forces_turn h st.beta
  refine ⟨fun aff f => ?_, fun hsym hkg aff K hK => ?_, ?_, fun inv inv' hinv => ⟨fun N M dx => ?_, fun old => ?_⟩⟩
  · unfold calculateVector
    by_cases h1 : aff ≠ .forces
    · rw [if_pos h1, if_pos h1]; rfl
    by_cases h2 : (!asApplicable n d) = true
    · rw [if_neg h1, if_neg h1, if_pos h2, if_pos h2]; rfl
    rw [if_neg h1, if_neg h1, if_neg h2, if_neg h2]
    simp only [forces_sum, hst.beta, eH, eG, eR, ef]
    rw [← turn_add, Option.map_some, turn_add Q (f + Spec.forces gps u st.beta)]
    congr 2
    funext I
    simp only [turn, Matrix.mulVec_mulVec, Matrix.transpose_mul, Matrix.transpose_transpose, Matrix.mul_assoc]
  · unfold calculateMatrix
    by_cases h1 : aff ≠ .stiffness
    · rw [if_pos h1, if_pos h1]; rfl
    by_cases h2 : (!asApplicable n d) = true
    · rw [if_neg h1, if_neg h1, if_pos h2, if_pos h2]; rfl
    rw [if_neg h1, if_neg h1, if_neg h2, if_neg h2]
    simp only [geometric_sum, hst.beta, eH, eG, geometric_stiffness_turn h]
    have hg : Element.Spec.Symmetric (Spec.geometric gps u st.beta) := by
      intro I J a b
      simp only [Spec.geometric, Matrix.sum_apply, Matrix.smul_apply]
      exact Finset.sum_congr rfl fun i _ => by rw [hkg i _ I J a b]
    have hHs : (calculateH gps st)ᵀ = calculateH gps st := by
      rw [calculateH_eq, Matrix.transpose_sum]
      refine Finset.sum_congr rfl fun i _ => ?_
      rw [Matrix.transpose_smul, Matrix.transpose_mul, Matrix.transpose_mul, (hsym i).eq, Matrix.transpose_transpose,
        Matrix.mul_assoc]
    have hM : Element.Spec.Symmetric fun I J => (calculateG gps u I)ᵀ * (calculateH gps st)⁻¹ * calculateG gps u J := by
      intro I J a b
      show ((calculateG gps u I)ᵀ * (calculateH gps st)⁻¹ * calculateG gps u J) a b =
        ((calculateG gps u J)ᵀ * (calculateH gps st)⁻¹ * calculateG gps u I) b a
      rw [← Matrix.transpose_apply ((calculateG gps u J)ᵀ * (calculateH gps st)⁻¹ * calculateG gps u I), Matrix.transpose_mul,
        Matrix.transpose_mul, Matrix.transpose_nonsing_inv, hHs, Matrix.transpose_transpose, Matrix.mul_assoc]
    have e : (fun I J => (calculateG gps u I * Qᵀ)ᵀ * (calculateH gps st)⁻¹ * (calculateG gps u J * Qᵀ)) =
        turnMat Q fun I J => (calculateG gps u I)ᵀ * (calculateH gps st)⁻¹ * calculateG gps u J := by
      funext I J
      simp only [turnMat, Matrix.transpose_mul, Matrix.transpose_transpose, Matrix.mul_assoc]
    have hKs := symmetric_add' hK hg
    have hsum : ∀ A B : BlockMat n d, Element.Spec.Symmetric A → Element.Spec.Symmetric B → addUpperAndMirror A B = A + B := by
      intro A B hA hB
      rw [addUpperAndMirror_neg, subtractUpperAndMirror_eq _ _ hA, sub_neg_eq_add]
      intro I J a b
      show -(B I J a b) = -(B J I b a)
      rw [hB]
    rw [← turnMat_add, e, hsum _ _ hKs hM, hsum _ _ (turnMat_symmetric Q hKs) (turnMat_symmetric Q hM), ← turnMat_add]
    rfl
  · unfold calculateScalar
    by_cases h2 : (!asApplicable n d) = true
    · rw [if_pos h2, if_pos h2]
    rw [if_neg h2, if_neg h2]
    refine congrArg some (foldl_congr' (fun x i => ?_) _ _)
    have hd : ∀ e, (gps' i).value st.beta ⬝ᵥ (T *ᵥ e) = (gps i).value st.beta ⬝ᵥ e := fun e => by
      rw [Matrix.dotProduct_mulVec, ← Matrix.mulVec_transpose, value_turn h]
    simp only [hst.beta, hst.strain, (h i).point.strain, (h i).point.detJ, (h i).point.weight, hd]
  · unfold updateState
    rw [eH, eG, eR]
    by_cases h2 : (!asApplicable n d) = true
    · rw [if_pos h2, if_pos h2]; exact .none
    rw [if_neg h2, if_neg h2]
    by_cases h3 : M ≠ N
    · rw [if_pos h3, if_pos h3]; exact .none
    rw [if_neg h3, if_neg h3]
    refine .some (inversion_turn hinv (fun i => (h i).P) ?_ hst.strain)
    show st'.beta + _ = st.beta + _
    rw [hst.beta, EAS.mulL_turn hQ]
  · exact inversion_turn hinv (fun i => (h i).P) rfl fun _ => rfl

/-- C115, assumed stresses. The modes of every variant turn with the element, in the plane and in space. -/
theorem stressAnsatz_turn :
    (∀ {m : Nat} {R : Matrix (Fin 2) (Fin 2) ℝ}, Rᵀ * R = 1 → ∀ (entries : List (Fin 3 × Fin m × ((Fin 2 → ℝ) → ℝ))) geo pos,
      (transformationMatrix2 R)ᵀ * stressAnsatz2 entries (EAS.Spec.turnedGeometry R geo) pos = stressAnsatz2 entries geo pos) ∧
    (∀ {m : Nat} {R : Matrix (Fin 3) (Fin 3) ℝ}, Rᵀ * R = 1 → ∀ (entries : List (Fin 6 × Fin m × ((Fin 3 → ℝ) → ℝ))) geo pos,
      (transformationMatrix3 R)ᵀ * stressAnsatz3 entries (EAS.Spec.turnedGeometry R geo) pos = stressAnsatz3 entries geo pos) := by
  obtain ⟨m2, m3, o2, o3⟩ := transformation_mul (K := ℝ) two_ne_zero
  refine ⟨fun {m R} hR entries geo pos => ?_, fun {m R} hR entries geo pos => ?_⟩
  · unfold stressAnsatz2 T0plane
    rw [← Matrix.mul_assoc, ← Matrix.transpose_mul]
    rw [show (EAS.Spec.turnedGeometry R geo).jacobianTransposed center = geo.jacobianTransposed center * Rᵀ from rfl, ← m2,
      Matrix.mul_assoc, hR, Matrix.mul_one]
  · unfold stressAnsatz3 T0space
    rw [← Matrix.mul_assoc, ← Matrix.transpose_mul]
    rw [show (EAS.Spec.turnedGeometry R geo).jacobianTransposed center = geo.jacobianTransposed center * Rᵀ from rfl, ← m3,
      Matrix.mul_assoc, hR, Matrix.mul_one]

/-- C115, assumed stresses. The inversion of a linear law turns with its moduli. -/
theorem linear_inversion_turn {C C' : Matrix (Fin q) (Fin q) ℝ} (hT : IsUnit T.det) (hC : Tᵀ * C' * T = C) :
    Spec.TurnedInversion T (fun S _ => (C⁻¹, C⁻¹ *ᵥ S)) (fun S _ => (C'⁻¹, C'⁻¹ *ᵥ S)) := by
  have e : C'⁻¹ = T * C⁻¹ * Tᵀ := by
    have hT' : IsUnit Tᵀ.det := by rwa [Matrix.det_transpose]
    rw [← hC, Matrix.mul_inv_rev, Matrix.mul_inv_rev, ← Matrix.mul_assoc, Matrix.mul_nonsing_inv _ hT, Matrix.one_mul,
      Matrix.mul_assoc, Matrix.nonsing_inv_mul _ hT', Matrix.mul_one]
  intro S _
  simp only [e, Matrix.mulVec_mulVec, Matrix.mul_assoc]

end Ikarus.Element.AssumedStress

namespace Ikarus.Element.DisplacementPressure

open Matrix Element.Spec

variable {n m d q : Nat} {R Q : Matrix (Fin d) (Fin d) ℝ} {T : Matrix (Fin q) (Fin q) ℝ}

/-- Vector and matrix of the element whose displacements are turned. -/
def Spec.turnVec (Q : Matrix (Fin d) (Fin d) ℝ) (f : Vec n m d) : Vec n m d := ⟨turn Q f.u, f.p⟩

def Spec.turnMixed (Q : Matrix (Fin d) (Fin d) ℝ) (K : Mat n m d) : Mat n m d :=
  ⟨turnMat Q K.uu, fun I j => Q *ᵥ K.up I j, fun j I => Q *ᵥ K.pu j I, K.pp⟩

/-- The integration points of the turned element: turned strains, the same pressure functions. -/
structure Spec.TurnedDP (Q : Matrix (Fin d) (Fin d) ℝ) (T : Matrix (Fin q) (Fin q) ℝ) (u u' : NodeVec n d)
    (p p' : DPPoint n m d q) : Prop where
  point : TurnedStrain Q T u u' p.toPoint p'.toPoint
  Np : p'.Np = p.Np

theorem lawAt_turn {c c' : Driver q} {e : Fin q → ℝ} (hd : TurnedLaw T c.dev c'.dev e) (hv : TurnedLaw T c.vol c'.vol e) (ph : ℝ) :
    TurnedLaw T (lawAt c ph) (lawAt c' ph) e where
  energy := by
    show c'.dev.energy _ + ph * c'.vol.energy _ = c.dev.energy _ + ph * c.vol.energy _
    rw [hd.energy, hv.energy]
  stress := by
    show Tᵀ *ᵥ (c'.dev.stress _ + ph • c'.vol.stress _) = c.dev.stress _ + ph • c.vol.stress _
    rw [Matrix.mulVec_add, Matrix.mulVec_smul, hd.stress, hv.stress]
  tangent := by
    show Tᵀ * (c'.dev.tangent _ + ph • c'.vol.tangent _) * T = c.dev.tangent _ + ph • c.vol.tangent _
    rw [Matrix.mul_add, Matrix.add_mul, Matrix.mul_smul, Matrix.smul_mul, hd.tangent, hv.tangent]

/-- C115, displacements and pressure. At the turned displacements and the same pressures the element has the same energy; the
forces on the displacements and the blocks that belong to them are turned, those of the pressures are the same. -/
theorem displacementPressure_turn {c c' : Driver q} (hk : c'.kappa = c.kappa) {u u' : NodeVec n d} {p : Fin m → ℝ}
    {gps gps' : List (DPPoint n m d q)} (h : List.Forall₂ (Spec.TurnedDP Q T u u') gps gps')
    (hl : ∀ gp ∈ gps, TurnedLaw T c.dev c'.dev (gp.strain u) ∧ TurnedLaw T c.vol c'.vol (gp.strain u)) :
    calculateScalar c' gps' u' p = calculateScalar c gps u p ∧
    (∀ f, calculateVector c' gps' u' p (Spec.turnVec Q f) = Spec.turnVec Q (calculateVector c gps u p f)) ∧
    (∀ K, calculateMatrix c' gps' u' p (Spec.turnMixed Q K) = Spec.turnMixed Q (calculateMatrix c gps u p K)) := by
  have hp : ∀ {x y : DPPoint n m d q}, Spec.TurnedDP Q T u u' x y → y.pressure p = x.pressure p := fun hxy => by
    unfold DPPoint.pressure; rw [hxy.Np]
  have hb : ∀ {x y : DPPoint n m d q}, x ∈ gps → Spec.TurnedDP Q T u u' x y → ∀ I,
      (y.bop u' I)ᵀ *ᵥ c'.vol.stress (y.strain u') = Q *ᵥ ((x.bop u I)ᵀ *ᵥ c.vol.stress (x.strain u)) := fun {x y} hx hxy I => by
    rw [hxy.point.bop, hxy.point.strain, ← (hl x hx).2.stress]
    simp only [Matrix.transpose_mul, Matrix.transpose_transpose, Matrix.mulVec_mulVec, Matrix.mul_assoc]
  refine ⟨?_, fun f => ?_, fun K => ?_⟩
  · rw [calculateScalar_sum, calculateScalar_sum]
    refine forall_sum h _ _ fun x hx y hxy => ?_
    rw [hxy.point.detJ, hxy.point.weight, hp hxy, hxy.point.strain]
    unfold Driver.storedEnergy Driver.Uhat
    rw [(hl x hx).1.energy, (hl x hx).2.energy, hk]
  · rw [calculateVector_sum, calculateVector_sum]
    unfold Spec.turnVec
    congr 1
    · rw [turn_add]
      congr 1
      refine turn_forall_sum h _ _ fun x hx y hxy => ?_
      rw [hp hxy]
      exact Element.pointForce_turn hxy.point (lawAt_turn (hl x hx).1 (hl x hx).2 _)
    · congr 1
      refine EAS.forall_image_sum h id rfl (fun _ _ => rfl) _ _ fun x hx y hxy => ?_
      funext i
      show y.Np i * (c'.vol.energy (y.strain u') - y.pressure p / c'.kappa) * y.detJ * y.weight =
        x.Np i * (c.vol.energy (x.strain u) - x.pressure p / c.kappa) * x.detJ * x.weight
      rw [hxy.Np, hp hxy, hxy.point.detJ, hxy.point.weight, hxy.point.strain, (hl x hx).2.energy, hk]
  · rw [calculateMatrix_sum, calculateMatrix_sum]
    unfold Spec.turnMixed
    congr 1
    · rw [turnMat_add]
      congr 1
      refine turnMat_forall_sum h _ _ fun x hx y hxy => ?_
      rw [hp hxy]
      exact Element.pointMatrix_turn hxy.point (lawAt_turn (hl x hx).1 (hl x hx).2 _)
    · have e := EAS.forall_image_sum h (fun (M : Fin n → Fin m → Fin d → ℝ) I j => Q *ᵥ M I j)
        (by funext I j; exact Matrix.mulVec_zero _) (fun _ _ => by funext I j; exact Matrix.mulVec_add _ _ _)
        (upMat c u) (upMat c' u') fun x hx y hxy => by
          funext I j
          show (y.detJ * y.weight) • (y.Np j • _) = Q *ᵥ ((x.detJ * x.weight) • (x.Np j • _))
          rw [hxy.point.detJ, hxy.point.weight, hxy.Np, hb hx hxy, Matrix.mulVec_smul, Matrix.mulVec_smul]
      rw [e]
      funext I j
      exact (Matrix.mulVec_add Q _ _).symm
    · have e := EAS.forall_image_sum h (fun (M : Fin m → Fin n → Fin d → ℝ) j I => Q *ᵥ M j I)
        (by funext I j; exact Matrix.mulVec_zero _) (fun _ _ => by funext I j; exact Matrix.mulVec_add _ _ _)
        (puMat c u) (puMat c' u') fun x hx y hxy => by
          funext j I
          show (y.detJ * y.weight) • (y.Np j • _) = Q *ᵥ ((x.detJ * x.weight) • (x.Np j • _))
          rw [hxy.point.detJ, hxy.point.weight, hxy.Np, hb hx hxy, Matrix.mulVec_smul, Matrix.mulVec_smul]
      rw [e]
      funext j I
      exact (Matrix.mulVec_add Q _ _).symm
    · congr 1
      refine EAS.forall_image_sum h id rfl (fun _ _ => rfl) _ _ fun x hx y hxy => ?_
      funext i j
      show -(y.Np i * (1.0 / c'.kappa) * y.Np j * (y.detJ * y.weight)) = -(x.Np i * (1.0 / c.kappa) * x.Np j * (x.detJ * x.weight))
      rw [hxy.Np, hxy.point.detJ, hxy.point.weight, hk]

end Ikarus.Element.DisplacementPressure
