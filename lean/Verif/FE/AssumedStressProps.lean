import Verif.FE.AssumedStressModel
import Verif.FE.EASFunctionProps

/-!
Assumed stress elements: the uncondensed residuals and blocks are the derivatives of the Hellinger-Reissner energy, the states
of the material kept at the integration points belong to the internal variables, and the condensed system with the update
of the internal variables is the uncondensed Newton step.
-/

namespace Ikarus.Element.AssumedStress

open Matrix Ikarus.Element.Spec Ikarus.Element.EAS

variable {n d q m g : Nat}

/-! ### Specification -/

/-- The Hellinger-Reissner energy; `c.energy` is the complementary energy of the material, `c.stress` the strain that belongs
to a stress and `c.tangent` the compliance. -/
def Spec.hellingerReissner (c : Law q) (gps : Fin g → ASPoint n d q m) (u : NodeVec n d) (beta : Fin m → ℝ) : ℝ :=
  ∑ i, (gps i).point.detJ * (gps i).point.weight *
    ((gps i).P *ᵥ beta ⬝ᵥ (gps i).point.strain u - c.energy ((gps i).P *ᵥ beta))

/-- The material inversion gives the compliance and the strain of `c`, whatever strain it starts with. -/
def Spec.Inverts (inv : Inversion q) (c : Law q) (dom : Set (Fin q → ℝ)) : Prop :=
  ∀ S ∈ dom, ∀ E, inv S E = (c.tangent S, c.stress S)

/-- The state of the material at given internal variables. -/
def Spec.stateAt (c : Law q) (gps : Fin g → ASPoint n d q m) (beta : Fin m → ℝ) : State q m g :=
  ⟨beta, fun i => c.stress ((gps i).P *ᵥ beta), fun i => c.tangent ((gps i).P *ᵥ beta)⟩

/-- States an element can be in: it is initialised, possibly with strains of an earlier state, and updated any number of
times. -/
inductive Spec.Reachable (inv : Inversion q) (gps : Fin g → ASPoint n d q m) : State q m g → Prop
  | init (old : Fin g → Fin q → ℝ) : Reachable inv gps (initializeState inv gps old)
  | update (st st' : State q m g) (u dx : NodeVec n d) (N M : Nat) (h : Reachable inv gps st)
      (h' : updateState inv gps st u N M dx = some st') : Reachable inv gps st'

/-! ### The element as an element with enhanced strains

The pair of strain and stress is an enhanced strain of the energy `S : E - W*(S)`. -/

/-- The law of the pair. -/
def pairLaw (c : Law q) : Law (q + q) where
  energy e := (fun k => e (Fin.natAdd q k)) ⬝ᵥ (fun k => e (Fin.castAdd q k)) - c.energy fun k => e (Fin.natAdd q k)
  stress e := Fin.append (fun k => e (Fin.natAdd q k))
    (fun k => e (Fin.castAdd q k) - c.stress (fun k => e (Fin.natAdd q k)) k)
  tangent e := Matrix.of (Fin.append
    (fun k => Fin.append (fun _ => 0) (fun l => (1 : Matrix (Fin q) (Fin q) ℝ) k l))
    (fun k => Fin.append (fun l => (1 : Matrix (Fin q) (Fin q) ℝ) k l) (fun l => -c.tangent (fun k => e (Fin.natAdd q k)) k l)))

/-- The integration point of the pair. -/
def pairPoint (gp : ASPoint n d q m) : EASPoint n d (q + q) m where
  detJ := gp.point.detJ
  weight := gp.point.weight
  strain u beta := Fin.append (gp.point.strain u) (gp.P *ᵥ beta)
  Ed u _ I := Matrix.of (Fin.append (fun k => gp.point.bop u I k) (fun _ => 0))
  Ea _ _ := Matrix.of (Fin.append (fun _ => 0) (fun k => gp.P k))
  Edd u _ S I J := gp.point.kg u (fun k => S (Fin.castAdd q k)) I J
  Eaa _ _ _ := 0
  Ead _ _ _ _ := 0

theorem pairLaw_contract (c : Law q) (dom : Set (Fin q → ℝ)) (hc : LawContract c dom) :
    LawContract (pairLaw c) {e | (fun k => e (Fin.natAdd q k)) ∈ dom} where
  stress e de t ht he := by
    have hS : HasDerivAt (fun s => fun k => e s (Fin.natAdd q k)) (fun k => de (Fin.natAdd q k)) t := by
      rw [hasDerivAt_pi] at he ⊢
      exact fun k => he _
    have h1 := hc.stress _ _ t ht hS
    rw [hasDerivAt_pi] at he
    have h2 : HasDerivAt (fun s => ∑ k, e s (Fin.natAdd q k) * e s (Fin.castAdd q k)) (∑ k, (de (Fin.natAdd q k) *
        e t (Fin.castAdd q k) + e t (Fin.natAdd q k) * de (Fin.castAdd q k))) t :=
      HasDerivAt.fun_sum fun k _ => (he _).mul (he _)
    refine (h2.sub h1).congr_deriv ?_
    simp only [pairLaw, Fin.sum_univ_add, Fin.append_left, Fin.append_right, Finset.sum_add_distrib, sub_mul,
      Finset.sum_sub_distrib]
    rw [show (∑ k, de (Fin.natAdd q k) * e t (Fin.castAdd q k)) = ∑ k, e t (Fin.castAdd q k) * de (Fin.natAdd q k) from
      Finset.sum_congr rfl fun k _ => mul_comm _ _]
    ring
  tangent e de t ht he := by
    have hS : HasDerivAt (fun s => fun k => e s (Fin.natAdd q k)) (fun k => de (Fin.natAdd q k)) t := by
      rw [hasDerivAt_pi] at he ⊢
      exact fun k => he _
    have h1 := hc.tangent _ _ t ht hS
    rw [hasDerivAt_pi] at he h1 ⊢
    intro k
    refine Fin.addCases (fun k => ?_) (fun k => ?_) k
    · refine ((he (Fin.natAdd q k)).congr_deriv ?_).congr_of_eventuallyEq (Filter.Eventually.of_forall fun s => ?_)
      · simp [-Fin.natAdd_eq_addNat, pairLaw, Fin.sum_univ_add, Matrix.one_apply]
      · simp [-Fin.natAdd_eq_addNat, pairLaw]
    · refine (((he (Fin.castAdd q k)).sub (h1 k)).congr_deriv ?_).congr_of_eventuallyEq
        (Filter.Eventually.of_forall fun s => ?_)
      · simp [-Fin.natAdd_eq_addNat, pairLaw, Fin.sum_univ_add, Matrix.one_apply, sub_eq_add_neg]
      · simp [-Fin.natAdd_eq_addNat, pairLaw]
  symm e he k l := by
    refine Fin.addCases (fun k => ?_) (fun k => ?_) k <;> refine Fin.addCases (fun l => ?_) (fun l => ?_) l
    · simp [-Fin.natAdd_eq_addNat, pairLaw]
    · simp [-Fin.natAdd_eq_addNat, pairLaw, Matrix.one_apply, eq_comm]
    · simp [-Fin.natAdd_eq_addNat, pairLaw, Matrix.one_apply, eq_comm]
    · simp [-Fin.natAdd_eq_addNat, pairLaw, hc.symm _ he k l]

theorem pairPoint_contract (gp : ASPoint n d q m) (u : NodeVec n d) (beta : Fin m → ℝ) (hp : StrainContract gp.point u) :
    EAS.Spec.EASContract (pairPoint gp) u beta where
  strain v al w hal hal' := by
    have h1 := hp.strain v
    rw [hasDerivAt_pi] at h1 hal' ⊢
    intro k
    refine Fin.addCases (fun k => ?_) (fun k => ?_) k
    · refine ((h1 k).congr_deriv ?_).congr_of_eventuallyEq (Filter.Eventually.of_forall fun s => ?_)
      · simp [-Fin.natAdd_eq_addNat, pairPoint]
      · simp [-Fin.natAdd_eq_addNat, pairPoint]
    · have h2 : HasDerivAt (fun t : ℝ => ∑ r, gp.P k r * al t r) (∑ r, gp.P k r * w r) 0 :=
        HasDerivAt.fun_sum fun r _ => (hal' r).const_mul (gp.P k r)
      refine (h2.congr_deriv ?_).congr_of_eventuallyEq (Filter.Eventually.of_forall fun s => ?_)
      · simp [-Fin.natAdd_eq_addNat, pairPoint]
      · simp [-Fin.natAdd_eq_addNat, pairPoint, Matrix.mulVec, dotProduct]
  Ed v al w hal hal' S I a := by
    have h1 := hp.bop v (fun k => S (Fin.castAdd q k)) I a
    refine (h1.congr_deriv ?_).congr_of_eventuallyEq (Filter.Eventually.of_forall fun s => ?_)
    · simp [-Fin.natAdd_eq_addNat, pairPoint]
    · simp [-Fin.natAdd_eq_addNat, pairPoint, Fin.sum_univ_add]
  Ea v al w hal hal' S r := by
    refine ((hasDerivAt_const (0 : ℝ) (∑ k, gp.P k r * S (Fin.natAdd q k))).congr_deriv ?_).congr_of_eventuallyEq
      (Filter.Eventually.of_forall fun s => ?_)
    · simp [-Fin.natAdd_eq_addNat, pairPoint]
    · simp [-Fin.natAdd_eq_addNat, pairPoint, Fin.sum_univ_add]
  symm_dd S I J a b := hp.symm _ I J a b
  symm_aa S r s := rfl

/-- The list of integration points of the pair. -/
def pairs (gps : Fin g → ASPoint n d q m) : List (EASPoint n d (q + q) m) := (List.finRange g).map fun i => pairPoint (gps i)

section Blocks

variable (c : Law q) (gps : Fin g → ASPoint n d q m) (u : NodeVec n d) (beta : Fin m → ℝ)

theorem pair_energy : EAS.Spec.energy (pairLaw c) (pairs gps) u beta = Spec.hellingerReissner c gps u beta := by
  rw [EAS.Spec.energy, pairs, List.map_map, ← List.ofFn_eq_map, List.sum_ofFn]
  refine Finset.sum_congr rfl fun i _ => ?_
  simp [-Fin.natAdd_eq_addNat, pairLaw, pairPoint]

theorem pair_pointForce (gp : ASPoint n d q m) (I : Fin n) : EAS.pointForce (pairLaw c) u beta (pairPoint gp) I =
    (gp.point.detJ * gp.point.weight) • ((gp.point.bop u I)ᵀ *ᵥ (gp.P *ᵥ beta)) := by
  funext a
  simp only [EAS.pointForce, pairPoint, pairLaw]
  generalize gp.P *ᵥ beta = s
  simp [-Fin.natAdd_eq_addNat, Matrix.mulVec, dotProduct, Fin.sum_univ_add]

theorem pair_pointR (gp : ASPoint n d q m) : EAS.pointR (pairLaw c) u beta (pairPoint gp) =
    (gp.point.detJ * gp.point.weight) • (gp.Pᵀ *ᵥ (gp.point.strain u - c.stress (gp.P *ᵥ beta))) := by
  funext a
  simp only [EAS.pointR, pairPoint, pairLaw]
  generalize gp.P *ᵥ beta = s
  simp [-Fin.natAdd_eq_addNat, Matrix.mulVec, dotProduct, Fin.sum_univ_add]

theorem pair_pointMatrix (gp : ASPoint n d q m) (I J : Fin n) : EAS.pointMatrix (pairLaw c) u beta (pairPoint gp) I J =
    (gp.point.detJ * gp.point.weight) • gp.point.kg u (gp.P *ᵥ beta) I J := by
  ext a b
  simp [-Fin.natAdd_eq_addNat, EAS.pointMatrix, pairPoint, pairLaw, Matrix.mul_apply, Fin.sum_univ_add]

theorem pair_pointD (gp : ASPoint n d q m) : EAS.pointD (pairLaw c) u beta (pairPoint gp) =
    -((gp.point.detJ * gp.point.weight) • (gp.Pᵀ * c.tangent (gp.P *ᵥ beta) * gp.P + 0)) := by
  ext a b
  simp [-Fin.natAdd_eq_addNat, EAS.pointD, pairPoint, pairLaw, Matrix.mul_apply, Fin.sum_univ_add]

theorem pair_pointL (gp : ASPoint n d q m) (I : Fin n) : EAS.pointL (pairLaw c) u beta (pairPoint gp) I =
    (gp.point.detJ * gp.point.weight) • (gp.Pᵀ * gp.point.bop u I) := by
  ext a b
  simp [-Fin.natAdd_eq_addNat, EAS.pointL, pairPoint, pairLaw, Matrix.mul_apply, Fin.sum_univ_add, Matrix.one_apply]

theorem pair_D : EAS.calculateD (pairLaw c) (pairs gps) u beta = -calculateH gps (Spec.stateAt c gps beta) := by
  rw [calculateD_sum, pairs, List.map_map]
  have : calculateH gps (Spec.stateAt c gps beta) = ((List.finRange g).map fun i =>
      ((gps i).point.detJ * (gps i).point.weight) • ((gps i).Pᵀ * c.tangent ((gps i).P *ᵥ beta) * (gps i).P + 0)).sum := by
    rw [← zero_add (List.sum _), ← foldl_add_sum]
    rfl
  rw [this, List.sum_neg, List.map_map]
  congr 1
  exact List.map_congr_left fun i _ => pair_pointD c u beta (gps i)

theorem pair_L : EAS.calculateL (pairLaw c) (pairs gps) u beta = calculateG gps u := by
  rw [calculateL_sum, pairs, List.map_map, ← zero_add (List.sum _), ← foldl_add_sum]
  refine (foldl_congr' (fun L i => ?_) _ _).symm
  rw [foldl_update_add (fun I => ((gps i).point.detJ * (gps i).point.weight) • ((gps i).Pᵀ * (gps i).point.bop u I)) _
    (List.nodup_finRange n) L]
  funext I
  simp only [List.mem_finRange, if_true, Pi.add_apply, Function.comp_apply, pair_pointL]

theorem pair_R : EAS.calculateRtilde (pairLaw c) (pairs gps) u beta = calculateRtilde gps (Spec.stateAt c gps beta) u := by
  rw [calculateRtilde_sum, pairs, List.map_map, ← zero_add (List.sum _), ← foldl_add_sum]
  refine (foldl_congr' (fun L i => ?_) _ _).symm
  rw [Function.comp_apply, pair_pointR]
  rfl

/-- The uncondensed forces. -/
noncomputable def Spec.forces (gps : Fin g → ASPoint n d q m) (u : NodeVec n d) (beta : Fin m → ℝ) : NodeVec n d := fun I =>
  ∑ i, ((gps i).point.detJ * (gps i).point.weight) • (((gps i).point.bop u I)ᵀ *ᵥ ((gps i).P *ᵥ beta))

/-- The geometric stiffness of the assumed stress. -/
noncomputable def Spec.geometric (gps : Fin g → ASPoint n d q m) (u : NodeVec n d) (beta : Fin m → ℝ) : BlockMat n d :=
  fun I J => ∑ i, ((gps i).point.detJ * (gps i).point.weight) • (gps i).point.kg u ((gps i).P *ᵥ beta) I J

theorem pair_forces : EAS.forces (pairLaw c) (pairs gps) u beta = Spec.forces gps u beta := by
  rw [EAS.forces, pairs, List.map_map, ← List.ofFn_eq_map, List.sum_ofFn]
  funext I
  rw [Finset.sum_apply]
  exact Finset.sum_congr rfl fun i _ => pair_pointForce c u beta (gps i) I

theorem pair_stiffness : EAS.stiffness (pairLaw c) (pairs gps) u beta = Spec.geometric gps u beta := by
  rw [EAS.stiffness, pairs, List.map_map, ← List.ofFn_eq_map, List.sum_ofFn]
  funext I J
  rw [Finset.sum_apply, Finset.sum_apply]
  exact Finset.sum_congr rfl fun i _ => pair_pointMatrix c u beta (gps i) I J

theorem applicable_of_as (h : asApplicable n d = true) : applicable n d m = true := by
  simp only [asApplicable, applicable, Bool.or_eq_true] at h ⊢
  tauto

theorem addUpperAndMirror_neg (K M : BlockMat n d) : addUpperAndMirror K M = subtractUpperAndMirror K (-M) := by
  funext I J
  ext a b
  simp only [addUpperAndMirror, subtractUpperAndMirror, Matrix.of_apply, Pi.neg_apply, Matrix.neg_apply, sub_neg_eq_add]

theorem nonsing_inv_neg (A : Matrix (Fin m) (Fin m) ℝ) : (-A)⁻¹ = -A⁻¹ := by
  by_cases h : IsUnit A.det
  · refine Matrix.inv_eq_right_inv ?_
    rw [neg_mul_neg, Matrix.mul_nonsing_inv _ h]
  · rw [Matrix.nonsing_inv_apply_not_isUnit _ h, Matrix.nonsing_inv_apply_not_isUnit, neg_zero]
    rwa [Matrix.det_neg, IsUnit.mul_iff, not_and_or, or_iff_right]
    simp

/-- The matrix of the element in terms of the pair. -/
theorem pair_calculateMatrix (hm : m ≠ 0) (affordance : MatrixAffordance) (K : BlockMat n d) (ha : asApplicable n d = true) :
    calculateMatrix gps (Spec.stateAt c gps beta) affordance u K =
      EAS.calculateMatrix (pairLaw c) (pairs gps) affordance u beta K := by
  unfold calculateMatrix EAS.calculateMatrix
  by_cases h1 : affordance ≠ .stiffness
  · rw [if_pos h1, if_pos h1]
  rw [if_neg h1, if_neg h1, ha, applicable_of_as ha]
  simp only [Bool.not_true, Bool.false_eq_true, if_false, hm, stiffness_loop, pair_stiffness, pair_D, pair_L,
    addUpperAndMirror_neg, nonsing_inv_neg]
  congr 2
  · rw [← pair_stiffness c, EAS.stiffness, pairs, List.map_map, ← foldl_add_sum]
    refine foldl_congr' (fun K i => ?_) _ _
    rw [foldl_addBlock (fun I J => ((gps i).point.detJ * (gps i).point.weight) •
      (gps i).point.kg u ((gps i).value (Spec.stateAt c gps beta).beta) I J) K]
    congr 1
    funext I J
    exact (pair_pointMatrix c u beta (gps i) I J).symm
  · funext I J
    simp [Matrix.mul_neg, Matrix.neg_mul]

theorem pair_calculateVector (hm : m ≠ 0) (affordance : VectorAffordance) (f : NodeVec n d) (ha : asApplicable n d = true) :
    calculateVector gps (Spec.stateAt c gps beta) affordance u f =
      EAS.calculateVector (pairLaw c) (pairs gps) affordance u beta f := by
  unfold calculateVector EAS.calculateVector
  by_cases h1 : affordance ≠ .forces
  · rw [if_pos h1, if_pos h1]
  rw [if_neg h1, if_neg h1, ha, applicable_of_as ha]
  simp only [Bool.not_true, Bool.false_eq_true, if_false, hm, forces_loop, pair_forces, pair_D, pair_L, pair_R,
    nonsing_inv_neg]
  congr 1
  rw [sub_eq_add_neg]
  congr 1
  · rw [← pair_forces c, EAS.forces, pairs, List.map_map, ← foldl_add_sum]
    refine foldl_congr' (fun K i => ?_) _ _
    rw [foldl_addSegment (fun I => ((gps i).point.detJ * (gps i).point.weight) •
      (((gps i).point.bop u I)ᵀ *ᵥ (gps i).value (Spec.stateAt c gps beta).beta)) K]
    congr 1
    funext I
    exact (pair_pointForce c u beta (gps i) I).symm
  · funext I
    simp [Matrix.mul_neg, Matrix.neg_mulVec]

theorem pair_updateState (inv : Inversion q) (dom : Set (Fin q → ℝ)) (hinv : Spec.Inverts inv c dom) (hm : m ≠ 0) (N M : Nat)
    (dx : NodeVec n d) (ha : asApplicable n d = true) (beta' : Fin m → ℝ) (hb : ∀ i, (gps i).P *ᵥ beta' ∈ dom) :
    updateState inv gps (Spec.stateAt c gps beta) u N M dx = some (Spec.stateAt c gps beta') ↔
      EAS.updateState (pairLaw c) (pairs gps) u beta N M dx = some beta' := by
  unfold updateState EAS.updateState
  rw [ha, applicable_of_as ha]
  simp only [Bool.not_true, Bool.false_eq_true, if_false, hm, pair_D, pair_L, pair_R, nonsing_inv_neg]
  by_cases h : M ≠ N
  · rw [if_pos h, if_pos h]; simp
  rw [if_neg h, if_neg h, Matrix.neg_mulVec, sub_neg_eq_add, Option.some.injEq, Option.some.injEq]
  constructor
  · intro hst
    exact congrArg State.beta hst
  · intro hst
    simp only [Spec.stateAt] at hst ⊢
    rw [hst]
    simp only [calculateMaterialInversion, State.mk.injEq, true_and]
    exact ⟨funext fun i => by rw [ASPoint.value, hinv _ (hb i)], funext fun i => by rw [ASPoint.value, hinv _ (hb i)]⟩

end Blocks

/-! ### The two field problem -/

/-- Hypotheses at a state. -/
structure Spec.Regular (c : Law q) (dom : Set (Fin q → ℝ)) (gps : Fin g → ASPoint n d q m) (u : NodeVec n d)
    (beta : Fin m → ℝ) : Prop where
  law : LawContract c dom
  points : ∀ i, StrainContract (gps i).point u
  stresses : ∀ i, (gps i).P *ᵥ beta ∈ dom

theorem pair_regular (c : Law q) (dom : Set (Fin q → ℝ)) (gps : Fin g → ASPoint n d q m) (u : NodeVec n d)
    (beta : Fin m → ℝ) (h : Spec.Regular c dom gps u beta) :
    EAS.Spec.Regular (pairLaw c) {e | (fun k => e (Fin.natAdd q k)) ∈ dom} (pairs gps) u beta where
  law := pairLaw_contract c dom h.law
  points gp hgp := by
    obtain ⟨i, _, rfl⟩ := List.mem_map.1 hgp
    exact pairPoint_contract _ u beta (h.points i)
  strains gp hgp := by
    obtain ⟨i, _, rfl⟩ := List.mem_map.1 hgp
    show (fun k => Fin.append ((gps i).point.strain u) ((gps i).P *ᵥ beta) (Fin.natAdd q k)) ∈ dom
    simp only [Fin.append_right]
    exact h.stresses i

/-- C49, states of the material. After initialisation, with whatever strains were left from an earlier state, and after every
update, strains and compliances kept at the integration points are those of the assumed stress. -/
theorem as_states (inv : Inversion q) (c : Law q) (dom : Set (Fin q → ℝ)) (hinv : Spec.Inverts inv c dom)
    (gps : Fin g → ASPoint n d q m) (st : State q m g) (h : Spec.Reachable inv gps st)
    (hd : ∀ i, (gps i).P *ᵥ st.beta ∈ dom) : st = Spec.stateAt c gps st.beta := by
  have key : ∀ s : State q m g, (∀ i, (gps i).P *ᵥ s.beta ∈ dom) →
      calculateMaterialInversion inv gps s = Spec.stateAt c gps (calculateMaterialInversion inv gps s).beta := by
    intro s hs
    simp only [calculateMaterialInversion, Spec.stateAt, ASPoint.value, hinv _ (hs _)]
  cases h with
  | init old => exact key _ hd
  | update st0 st u dx N M h h' =>
    unfold updateState at h'
    split at h'
    · simp at h'
    split at h'
    · simp at h'
    obtain rfl := Option.some.inj h'
    exact key _ hd

/-- C49, gradient. The forces before condensation and the residual of the internal variables are the gradient of the
Hellinger-Reissner energy. -/
theorem as_gradient (c : Law q) (dom : Set (Fin q → ℝ)) (gps : Fin g → ASPoint n d q m) (u : NodeVec n d)
    (beta : Fin m → ℝ) (h : Spec.Regular c dom gps u beta) :
    EAS.Spec.TwoFieldGradient (Spec.hellingerReissner c gps) (Spec.forces gps u beta)
      (calculateRtilde gps (Spec.stateAt c gps beta) u) u beta := by
  have h1 := eas_gradient _ _ _ u beta (pair_regular c dom gps u beta h)
  rw [pair_forces, pair_R] at h1
  intro v al w hal hal'
  have := h1 v al w hal hal'
  simpa only [pair_energy] using this

/-- C49, tangent. Geometric stiffness, `G` and `-H` are the derivative of the two residuals. -/
theorem as_tangent (c : Law q) (dom : Set (Fin q → ℝ)) (gps : Fin g → ASPoint n d q m) (u : NodeVec n d)
    (beta : Fin m → ℝ) (h : Spec.Regular c dom gps u beta) :
    EAS.Spec.TwoFieldTangent (Spec.forces gps) (fun u beta => calculateRtilde gps (Spec.stateAt c gps beta) u)
      (Spec.geometric gps u beta) (calculateG gps u) (-calculateH gps (Spec.stateAt c gps beta)) u beta := by
  have h1 := eas_tangent _ _ _ u beta (pair_regular c dom gps u beta h)
  rw [pair_stiffness, pair_D, pair_L] at h1
  intro v al w hal hal'
  have := h1 v al w hal hal'
  simpa only [pair_forces, pair_R] using this

/-- C49, symmetry. The matrix is symmetric whatever the state, the strain and the given matrix. -/
theorem as_symmetric (gps : Fin g → ASPoint n d q m) (st : State q m g) (affordance : MatrixAffordance) (u : NodeVec n d)
    (K Kc : BlockMat n d) (h : calculateMatrix gps st affordance u K = some Kc) : Spec.Symmetric Kc := by
  unfold calculateMatrix at h
  split at h
  · simp at h
  split at h
  · simp at h
  rw [← Option.some.inj h]
  intro I J a b
  simp only [addUpperAndMirror, Matrix.of_apply]
  rcases lt_trichotomy I J with g | g | g
  · rw [if_neg (not_or.2 ⟨g.asymm, fun c => g.ne c.1⟩), if_pos (Or.inl g)]
  · subst g
    rcases lt_trichotomy a b with k | k | k
    · rw [if_neg (not_or.2 ⟨lt_irrefl _, fun c => k.asymm c.2⟩), if_pos (Or.inr ⟨rfl, k⟩)]
    · subst k; rfl
    · rw [if_pos (Or.inr ⟨rfl, k⟩), if_neg (not_or.2 ⟨lt_irrefl _, fun c => k.asymm c.2⟩)]
  · rw [if_pos (Or.inl g), if_neg (not_or.2 ⟨g.asymm, fun c => g.ne c.1⟩)]

theorem isUnit_neg_det (A : Matrix (Fin m) (Fin m) ℝ) (h : IsUnit A.det) : IsUnit (-A).det := by
  rw [Matrix.det_neg]
  exact ((isUnit_one.neg).pow _).mul h

/-- C49, condensation. For every correction the condensed system and the updated internal variables give the rows of the
uncondensed linearised problem of the Hellinger-Reissner energy, and only they do. -/
theorem as_condensation (inv : Inversion q) (c : Law q) (dom : Set (Fin q → ℝ)) (hinv : Spec.Inverts inv c dom)
    (gps : Fin g → ASPoint n d q m) (u : NodeVec n d) (beta : Fin m → ℝ) (h : Spec.Regular c dom gps u beta) (hm : m ≠ 0)
    (ha : asApplicable n d = true) (hH : IsUnit (calculateH gps (Spec.stateAt c gps beta)).det) (K0 : BlockMat n d)
    (hK0 : Spec.Symmetric K0) (f0 : NodeVec n d) (N : Nat) :
    ∃ Kc fc, calculateMatrix gps (Spec.stateAt c gps beta) .stiffness u K0 = some (K0 + Kc) ∧
      calculateVector gps (Spec.stateAt c gps beta) .forces u f0 = some (f0 + fc) ∧
      ∀ dx, ∃ st', updateState inv gps (Spec.stateAt c gps beta) u N N dx = some st' ∧
        ∀ b r, EAS.Spec.Linearised (Spec.forces gps u beta) (calculateRtilde gps (Spec.stateAt c gps beta) u)
          (Spec.geometric gps u beta) (calculateG gps u) (-calculateH gps (Spec.stateAt c gps beta)) dx (b - beta) r ↔
            b = st'.beta ∧ fc + mul Kc dx = r := by
  obtain ⟨Kc, fc, h1, h2, h3⟩ := eas_condensation (pairLaw c) _ (pairs gps) u beta (pair_regular c dom gps u beta h) hm
    (applicable_of_as ha) (by rw [pair_D]; exact isUnit_neg_det _ hH) K0 hK0 f0 N
  rw [← pair_calculateMatrix c gps u beta hm _ _ ha] at h1
  rw [← pair_calculateVector c gps u beta hm _ _ ha] at h2
  refine ⟨Kc, fc, h1, h2, fun dx => ?_⟩
  obtain ⟨beta', h4, h5⟩ := h3 dx
  rw [pair_forces, pair_R, pair_stiffness, pair_L, pair_D] at h5
  refine ⟨calculateMaterialInversion inv gps { Spec.stateAt c gps beta with beta := beta' }, ?_, h5⟩
  unfold EAS.updateState at h4
  rw [applicable_of_as ha] at h4
  simp only [Bool.not_true, Bool.false_eq_true, if_false, hm, ne_eq, not_true_eq_false, pair_D, pair_L, pair_R,
    nonsing_inv_neg, Matrix.neg_mulVec, sub_neg_eq_add, Option.some.injEq] at h4
  unfold updateState
  simp only [ha, Bool.not_true, Bool.false_eq_true, if_false, ne_eq, not_true_eq_false]
  rw [← h4]
  rfl

/-! ### Assembled Newton steps -/

/-- A mesh of assumed stress elements. -/
structure Spec.Mesh (ε : Type) (n d q m g N : Nat) where
  inv : ε → Inversion q
  gps : ε → Fin g → ASPoint n d q m
  dofs : ε → Fin n → Fin d → Fin N

variable {ε : Type} [Fintype ε] {N : Nat}

/-- The part of a global vector at an element. -/
def Spec.Mesh.local (M : Spec.Mesh ε n d q m g N) (x : Fin N → ℝ) (e : ε) : NodeVec n d := fun I a => x (M.dofs e I a)

/-- Assembly of element vectors. -/
def Spec.Mesh.assemble (M : Spec.Mesh ε n d q m g N) (f : ε → NodeVec n d) (i : Fin N) : ℝ :=
  ∑ e, ∑ I, ∑ a, if M.dofs e I a = i then f e I a else 0

/-- A Newton step with what the elements return; the elements update their states with the correction. -/
def Spec.Mesh.CondensedStep (M : Spec.Mesh ε n d q m g N) (free : Set (Fin N)) (P x dx : Fin N → ℝ)
    (st st' : ε → State q m g) : Prop :=
  ∃ (Kc : ε → BlockMat n d) (fc : ε → NodeVec n d),
    (∀ e, calculateMatrix (M.gps e) (st e) .stiffness (M.local x e) 0 = some (Kc e)) ∧
    (∀ e, calculateVector (M.gps e) (st e) .forces (M.local x e) 0 = some (fc e)) ∧
    (∀ e, updateState (M.inv e) (M.gps e) (st e) (M.local x e) N N (M.local dx e) = some (st' e)) ∧
    ∀ i ∈ free, M.assemble (fun e => fc e + mul (Kc e) (M.local dx e)) i = P i

/-- A Newton step for the stationary points of the Hellinger-Reissner energy in displacements and internal variables. -/
def Spec.Mesh.TwoFieldStep (M : Spec.Mesh ε n d q m g N) (c : ε → Law q) (free : Set (Fin N)) (P x dx : Fin N → ℝ)
    (beta beta' : ε → Fin m → ℝ) : Prop :=
  ∃ r : ε → NodeVec n d,
    (∀ e, EAS.Spec.Linearised (Spec.forces (M.gps e) (M.local x e) (beta e))
      (calculateRtilde (M.gps e) (Spec.stateAt (c e) (M.gps e) (beta e)) (M.local x e))
      (Spec.geometric (M.gps e) (M.local x e) (beta e)) (calculateG (M.gps e) (M.local x e))
      (-calculateH (M.gps e) (Spec.stateAt (c e) (M.gps e) (beta e))) (M.local dx e) (beta' e - beta e) (r e)) ∧
    ∀ i ∈ free, M.assemble r i = P i

/-- C49, Newton iteration. On every mesh, with any Dirichlet conditions and loads: if the elements were initialised and the
sequence of displacements and element states is made of Newton steps with what the elements return, displacements and
internal variables are Newton iterates of the two field problem; and every such sequence of iterates comes from states of
the elements. -/
theorem as_newton (M : Spec.Mesh ε n d q m g N) (c : ε → Law q) (dom : Set (Fin q → ℝ))
    (hinv : ∀ e, Spec.Inverts (M.inv e) (c e) dom) (free : Set (Fin N)) (P : Fin N → ℝ) (x : ℕ → Fin N → ℝ)
    (beta : ℕ → ε → Fin m → ℝ) (hm : m ≠ 0) (ha : asApplicable n d = true)
    (h : ∀ k e, Spec.Regular (c e) dom (M.gps e) (M.local (x k) e) (beta k e))
    (hH : ∀ k e, IsUnit (calculateH (M.gps e) (Spec.stateAt (c e) (M.gps e) (beta k e))).det) :
    (∃ st : ℕ → ε → State q m g, (∀ e, Spec.Reachable (M.inv e) (M.gps e) (st 0 e)) ∧ (∀ k e, (st k e).beta = beta k e) ∧
      ∀ k, M.CondensedStep free P (x k) (x (k + 1) - x k) (st k) (st (k + 1))) ↔
    (∀ e, ∃ st, Spec.Reachable (M.inv e) (M.gps e) st ∧ st.beta = beta 0 e) ∧
      ∀ k, M.TwoFieldStep c free P (x k) (x (k + 1) - x k) (beta k) (beta (k + 1)) := by
  have hz : Spec.Symmetric (0 : BlockMat n d) := fun I J a b => rfl
  constructor
  · rintro ⟨st, hr, hb, hs⟩
    have hreach : ∀ k e, Spec.Reachable (M.inv e) (M.gps e) (st k e) := by
      intro k
      induction k with
      | zero => exact hr
      | succ k ih =>
        intro e
        obtain ⟨Kc, fc, -, -, h3, -⟩ := hs k
        exact .update _ _ _ _ _ _ (ih e) (h3 e)
    have hst : ∀ k e, st k e = Spec.stateAt (c e) (M.gps e) (beta k e) := by
      intro k e
      rw [← hb k e]
      refine as_states (M.inv e) (c e) dom (hinv e) (M.gps e) _ (hreach k e) fun i => ?_
      rw [hb k e]
      exact (h k e).stresses i
    refine ⟨fun e => ⟨st 0 e, hr e, hb 0 e⟩, fun k => ?_⟩
    obtain ⟨Kc, fc, h1, h2, h3, h4⟩ := hs k
    refine ⟨fun e => fc e + mul (Kc e) (M.local (x (k + 1) - x k) e), fun e => ?_, h4⟩
    obtain ⟨K, f, k1, k2, k3⟩ := as_condensation (M.inv e) (c e) dom (hinv e) (M.gps e) (M.local (x k) e) (beta k e) (h k e) hm
      ha (hH k e) 0 hz 0 N
    obtain ⟨s', k4, k5⟩ := k3 (M.local (x (k + 1) - x k) e)
    rw [← hst k e, h1 e, zero_add] at k1
    rw [← hst k e, h2 e, zero_add] at k2
    rw [← hst k e, h3 e] at k4
    refine (k5 (beta (k + 1) e) _).2 ⟨?_, ?_⟩
    · rw [← hb, Option.some.inj k4]
    · show f + mul K _ = fc e + mul (Kc e) _
      rw [Option.some.inj k1, Option.some.inj k2]
  · rintro ⟨hr, hs⟩
    have hinit : ∀ e, Spec.Reachable (M.inv e) (M.gps e) (Spec.stateAt (c e) (M.gps e) (beta 0 e)) := by
      intro e
      obtain ⟨st, h1, h2⟩ := hr e
      rw [← h2, ← as_states (M.inv e) (c e) dom (hinv e) (M.gps e) st h1 fun i => by rw [h2]; exact (h 0 e).stresses i]
      exact h1
    refine ⟨fun k e => Spec.stateAt (c e) (M.gps e) (beta k e), hinit, fun _ _ => rfl, fun k => ?_⟩
    obtain ⟨r, h1, h2⟩ := hs k
    choose K f k1 k2 k3 using fun e => as_condensation (M.inv e) (c e) dom (hinv e) (M.gps e) (M.local (x k) e) (beta k e)
      (h k e) hm ha (hH k e) 0 hz 0 N
    refine ⟨K, f, fun e => by rw [k1 e, zero_add], fun e => by rw [k2 e, zero_add], fun e => ?_, fun i hi => ?_⟩
    · obtain ⟨s', k4, k5⟩ := k3 e (M.local (x (k + 1) - x k) e)
      have hb := ((k5 (beta (k + 1) e) _).1 (h1 e)).1
      rw [pair_updateState (c e) (M.gps e) _ _ (M.inv e) dom (hinv e) hm N N _ ha _ fun i => (h (k + 1) e).stresses i]
      unfold updateState at k4
      simp only [ha, Bool.not_true, Bool.false_eq_true, if_false, ne_eq, not_true_eq_false, Option.some.injEq] at k4
      unfold EAS.updateState
      rw [applicable_of_as ha]
      simp only [Bool.not_true, Bool.false_eq_true, if_false, hm, ne_eq, not_true_eq_false, pair_D, pair_L, pair_R,
        nonsing_inv_neg, Matrix.neg_mulVec, sub_neg_eq_add, Option.some.injEq]
      rw [hb, ← k4]
      rfl
    · rw [← h2 i hi]
      congr 1
      funext e
      obtain ⟨s', k4, k5⟩ := k3 e (M.local (x (k + 1) - x k) e)
      exact ((k5 (beta (k + 1) e) _).1 (h1 e)).2

end Ikarus.Element.AssumedStress
