import Verif.FE.RelabelEASProps

/-!
C124, assumed stresses: quadrilaterals with assumed stresses whose corners are listed in another order.
-/

namespace Ikarus.Element.AssumedStress

open Matrix Element.Spec EAS

variable {n d q m g : Nat} {τ : Equiv.Perm (Fin n)} {T : Matrix (Fin m) (Fin m) ℝ} {σ : Equiv.Perm (Fin g)}

/-! ### Specification -/

/-- An integration point at the same place, with the nodes in the new order; the internal variables `beta` of the new element stand for the
internal variables `T beta` of the old one. -/
structure Spec.RelabelledAS (τ : Equiv.Perm (Fin n)) (T : Matrix (Fin m) (Fin m) ℝ) (p p' : ASPoint n d q m) : Prop where
  point : RelabelledPoint τ p.point p'.point
  P : p'.P = p.P * T

/-- The internal variables stand for those of the old element; strains and compliances are the same, point `i` being the old point `σ i`. -/
structure Spec.RelabelledState (σ : Equiv.Perm (Fin g)) (T : Matrix (Fin m) (Fin m) ℝ) (st st' : State q m g) : Prop where
  beta : T *ᵥ st'.beta = st.beta
  strain : ∀ i, st'.strainStates i = st.strainStates (σ i)
  inverted : ∀ i, st'.inverted i = st.inverted (σ i)

/-! ### Sums -/

section Element

variable {u : NodeVec n d} {gps gps' : Fin g → ASPoint n d q m} {st st' : State q m g}
  (h : ∀ i, Spec.RelabelledAS τ T (gps (σ i)) (gps' i))

include h

theorem value_relabel (i : Fin g) (beta : Fin m → ℝ) : (gps' i).value beta = (gps (σ i)).value (T *ᵥ beta) := by
  rw [ASPoint.value, ASPoint.value, (h i).P, Matrix.mulVec_mulVec]

theorem calculateG_relabel : calculateG gps' (relabel τ u) = fun I => Tᵀ * calculateG gps u (τ I) := by
  rw [calculateG_eq, calculateG_eq]
  funext I
  beta_reduce
  rw [Matrix.mul_sum]
  refine Fintype.sum_equiv σ _ _ fun i => ?_
  rw [(h i).point.detJ, (h i).point.weight, (h i).point.bop, (h i).P, Matrix.mul_smul, Matrix.transpose_mul, Matrix.mul_assoc]

theorem asForces_relabel (beta : Fin m → ℝ) : Spec.forces gps' (relabel τ u) beta = relabel τ (Spec.forces gps u (T *ᵥ beta)) := by
  funext I
  show ∑ i : Fin g, _ = ∑ i : Fin g, _
  refine Fintype.sum_equiv σ _ _ fun i => ?_
  rw [(h i).point.detJ, (h i).point.weight, (h i).point.bop, (h i).P]
  simp only [Matrix.mulVec_mulVec]

theorem asGeometric_relabel (beta : Fin m → ℝ) :
    Spec.geometric gps' (relabel τ u) beta = relabelMat τ (Spec.geometric gps u (T *ᵥ beta)) := by
  funext I J
  show ∑ i : Fin g, _ = ∑ i : Fin g, _
  refine Fintype.sum_equiv σ _ _ fun i => ?_
  rw [(h i).point.detJ, (h i).point.weight, (h i).point.kg, (h i).P, Matrix.mulVec_mulVec]

variable (hst : Spec.RelabelledState σ T st st')

include hst

theorem calculateH_relabel : calculateH gps' st' = Tᵀ * calculateH gps st * T := by
  rw [calculateH_eq, calculateH_eq, Finset.mul_sum, Finset.sum_mul]
  refine Fintype.sum_equiv σ _ _ fun i => ?_
  rw [(h i).point.detJ, (h i).point.weight, hst.inverted, (h i).P]
  simp only [Matrix.transpose_mul, Matrix.mul_assoc, Matrix.mul_smul, Matrix.smul_mul]

theorem asRtilde_relabel : calculateRtilde gps' st' (relabel τ u) = Tᵀ *ᵥ calculateRtilde gps st u := by
  rw [calculateRtilde_sum', calculateRtilde_sum', Matrix.mulVec_sum]
  refine Fintype.sum_equiv σ _ _ fun i => ?_
  rw [(h i).point.detJ, (h i).point.weight, (h i).point.strain, hst.strain, (h i).P, Matrix.mulVec_smul, Matrix.mulVec_mulVec,
    Matrix.transpose_mul]

end Element

/-- The inversion keeps corresponding states. -/
theorem inversion_relabel (inv : Inversion q) {gps gps' : Fin g → ASPoint n d q m} (hP : ∀ i, (gps' i).P = (gps (σ i)).P * T)
    {st st' : State q m g} (hb : T *ᵥ st'.beta = st.beta) (hs : ∀ i, st'.strainStates i = st.strainStates (σ i)) :
    Spec.RelabelledState σ T (calculateMaterialInversion inv gps st) (calculateMaterialInversion inv gps' st') := by
  have hv : ∀ i, (gps' i).value st'.beta = (gps (σ i)).value st.beta := fun i => by
    rw [ASPoint.value, ASPoint.value, hP, ← hb, Matrix.mulVec_mulVec]
  refine ⟨hb, fun i => ?_, fun i => ?_⟩
  · show (inv ((gps' i).value st'.beta) (st'.strainStates i)).2 = _
    rw [hs, hv]
    rfl
  · show (inv ((gps' i).value st'.beta) (st'.strainStates i)).1 = _
    rw [hs, hv]
    rfl

/-! ### The element -/

/-- C124, assumed stresses. An element with assumed stresses whose nodes are listed in another order has the same energy and adds the same
forces and the same matrix, in the new order, if its state corresponds to that of the element; an update with the same correction and
the initialisation lead to corresponding states, for every inversion of the material. -/
theorem assumedStress_relabel (hT : IsUnit T.det) {u : NodeVec n d} {gps gps' : Fin g → ASPoint n d q m} {st st' : State q m g}
    (h : ∀ i, Spec.RelabelledAS τ T (gps (σ i)) (gps' i)) (hst : Spec.RelabelledState σ T st st') :
    (∀ aff f, calculateVector gps' st' aff (relabel τ u) (relabel τ f) = (calculateVector gps st aff u f).map (relabel τ)) ∧
    ((∀ i, (st.inverted i).IsSymm) → (∀ i S, Element.Spec.Symmetric ((gps i).point.kg u S)) → ∀ aff K, Element.Spec.Symmetric K →
      calculateMatrix gps' st' aff (relabel τ u) (relabelMat τ K) = (calculateMatrix gps st aff u K).map (relabelMat τ)) ∧
    calculateScalar gps' st' (relabel τ u) = calculateScalar gps st u ∧
    (∀ inv, (∀ N M dx, Option.Rel (Spec.RelabelledState σ T) (updateState inv gps st u N M dx)
      (updateState inv gps' st' (relabel τ u) N M (relabel τ dx))) ∧
      ∀ old : Fin g → Fin q → ℝ, Spec.RelabelledState σ T (initializeState inv gps old) (initializeState inv gps' fun i => old (σ i))) := by
  have eH := calculateH_relabel h hst
  have eG := calculateG_relabel h (u := u)
  have eR := asRtilde_relabel h hst (u := u)
  have ef := asForces_relabel h (u := u) st'.beta
  have eg := asGeometric_relabel h (u := u) st'.beta
  have hc := condense_relabel hT (calculateH gps st)
  rw [hst.beta] at ef eg
  refine ⟨fun aff f => ?_, fun hsym hkg aff K hK => ?_, ?_, fun inv => ⟨fun N M dx => ?_, fun old => ?_⟩⟩
  · unfold calculateVector
    by_cases h1 : aff ≠ .forces
    · rw [if_pos h1, if_pos h1]; rfl
    by_cases h2 : (!asApplicable n d) = true
    · rw [if_neg h1, if_neg h1, if_pos h2, if_pos h2]; rfl
    rw [if_neg h1, if_neg h1, if_neg h2, if_neg h2]
    simp only [forces_sum, eH, eG, eR, ef]
    rw [Option.map_some]
    congr 1
    funext I
    show f (τ I) + Spec.forces gps u st.beta (τ I) + ((Tᵀ * calculateG gps u (τ I))ᵀ * (Tᵀ * calculateH gps st * T)⁻¹) *ᵥ
        (Tᵀ *ᵥ calculateRtilde gps st u) =
      f (τ I) + Spec.forces gps u st.beta (τ I) + ((calculateG gps u (τ I))ᵀ * (calculateH gps st)⁻¹) *ᵥ calculateRtilde gps st u
    rw [Matrix.mulVec_mulVec, Matrix.transpose_mul, Matrix.transpose_transpose, Matrix.mul_assoc, Matrix.mul_assoc, ← Matrix.mul_assoc T, hc]
  · unfold calculateMatrix
    by_cases h1 : aff ≠ .stiffness
    · rw [if_pos h1, if_pos h1]; rfl
    by_cases h2 : (!asApplicable n d) = true
    · rw [if_neg h1, if_neg h1, if_pos h2, if_pos h2]; rfl
    rw [if_neg h1, if_neg h1, if_neg h2, if_neg h2]
    simp only [geometric_sum, eH, eG, eg]
    have hg : Element.Spec.Symmetric (Spec.geometric gps u st.beta) := by
      intro I J a b
      simp only [Spec.geometric, Matrix.sum_apply, Matrix.smul_apply]
      exact Finset.sum_congr rfl fun i _ => by rw [hkg i _ I J a b]
    have hHs : (calculateH gps st)ᵀ = calculateH gps st := by
      rw [calculateH_eq, Matrix.transpose_sum]
      refine Finset.sum_congr rfl fun i _ => ?_
      rw [Matrix.transpose_smul, Matrix.transpose_mul, Matrix.transpose_mul, (hsym i).eq, Matrix.transpose_transpose,
        Matrix.mul_assoc]
    have hM : Element.Spec.Symmetric fun I J => (calculateG gps u I)ᵀ * (calculateH gps st)⁻¹ * calculateG gps u J := by
      intro I J a b
      show ((calculateG gps u I)ᵀ * (calculateH gps st)⁻¹ * calculateG gps u J) a b =
        ((calculateG gps u J)ᵀ * (calculateH gps st)⁻¹ * calculateG gps u I) b a
      rw [← Matrix.transpose_apply ((calculateG gps u J)ᵀ * (calculateH gps st)⁻¹ * calculateG gps u I), Matrix.transpose_mul,
        Matrix.transpose_mul, Matrix.transpose_nonsing_inv, hHs, Matrix.transpose_transpose, Matrix.mul_assoc]
    have e : (fun I J => (Tᵀ * calculateG gps u (τ I))ᵀ * (Tᵀ * calculateH gps st * T)⁻¹ * (Tᵀ * calculateG gps u (τ J))) =
        relabelMat τ fun I J => (calculateG gps u I)ᵀ * (calculateH gps st)⁻¹ * calculateG gps u J := by
      funext I J
      show _ = (calculateG gps u (τ I))ᵀ * (calculateH gps st)⁻¹ * calculateG gps u (τ J)
      rw [← hc]
      simp only [Matrix.transpose_mul, Matrix.transpose_transpose, Matrix.mul_assoc]
    have hKs := symmetric_add' hK hg
    have hsum : ∀ A B : BlockMat n d, Element.Spec.Symmetric A → Element.Spec.Symmetric B → addUpperAndMirror A B = A + B := by
      intro A B hA hB
      rw [addUpperAndMirror_neg, subtractUpperAndMirror_eq _ _ hA, sub_neg_eq_add]
      intro I J a b
      show -(B I J a b) = -(B J I b a)
      rw [hB]
    rw [← relabelMat_add, e, hsum _ _ hKs hM, hsum _ _ (relabelMat_symmetric hKs) (relabelMat_symmetric hM)]
    rfl
  · unfold calculateScalar
    by_cases h2 : (!asApplicable n d) = true
    · rw [if_pos h2, if_pos h2]
    rw [if_neg h2, if_neg h2, foldl_finRange_add, foldl_finRange_add]
    refine congrArg (fun x => some (0 + x)) ?_
    rw [← Equiv.sum_comp σ fun i => ((gps i).value st.beta ⬝ᵥ (gps i).point.strain u -
      0.5 * ((gps i).value st.beta ⬝ᵥ st.strainStates i)) * (gps i).point.detJ * (gps i).point.weight]
    refine Finset.sum_congr rfl fun i _ => ?_
    rw [value_relabel h, hst.beta, hst.strain, (h i).point.strain, (h i).point.detJ, (h i).point.weight]
  · unfold updateState
    rw [eH, eG, eR]
    by_cases h2 : (!asApplicable n d) = true
    · rw [if_pos h2, if_pos h2]; exact .none
    rw [if_neg h2, if_neg h2]
    by_cases h3 : M ≠ N
    · rw [if_pos h3, if_pos h3]; exact .none
    rw [if_neg h3, if_neg h3]
    refine .some (inversion_relabel inv (fun i => (h i).P) ?_ hst.strain)
    have hL : mulL (fun I => Tᵀ * calculateG gps u (τ I)) (relabel τ dx) = Tᵀ *ᵥ mulL (calculateG gps u) dx := by
      unfold mulL
      rw [Matrix.mulVec_sum]
      simp only [Matrix.mulVec_mulVec]
      exact Equiv.sum_comp τ fun I => (Tᵀ * calculateG gps u I) *ᵥ dx I
    show T *ᵥ (st'.beta + (Tᵀ * calculateH gps st * T)⁻¹ *ᵥ (Tᵀ *ᵥ calculateRtilde gps st u + _)) = st.beta + _
    rw [hL, ← Matrix.mulVec_add, Matrix.mulVec_add, hst.beta, Matrix.mulVec_mulVec, Matrix.mulVec_mulVec, hc]
  · exact inversion_relabel inv (fun i => (h i).P) (Matrix.mulVec_zero _) fun _ => rfl

/-! ### Quadrilaterals -/

/-- The modes of a variant at the mapped point are combinations of the modes at the point, as stresses in the coordinates mapped by `P`. -/
def Spec.StressModesMapped (φ : (Fin 2 → ℝ) → Fin 2 → ℝ) (P : Matrix (Fin 2) (Fin 2) ℝ) (entries : List (Fin 3 × Fin m × ((Fin 2 → ℝ) → ℝ)))
    (T : Matrix (Fin m) (Fin m) ℝ) : Prop := ∀ p, (transformationMatrix2 P)ᵀ * assign entries (φ p) = assign entries p * T

theorem stressAnsatz2_relabel {τ : Equiv.Perm (Fin 4)} {φ : (Fin 2 → ℝ) → Fin 2 → ℝ} {P : Matrix (Fin 2) (Fin 2) ℝ}
    (h : SquareSymmetry τ φ P) (hφ : φ center = center) {entries : List (Fin 3 × Fin m × ((Fin 2 → ℝ) → ℝ))}
    (hm : Spec.StressModesMapped φ P entries T) (X : NodeVec 4 2) (p : Fin 2 → ℝ) :
    stressAnsatz2 entries (quadGeometry (relabel τ X)) (φ p) = stressAnsatz2 entries (quadGeometry X) p * T := by
  obtain ⟨m2, -⟩ := transformation_mul (K := ℝ) two_ne_zero
  have hJ := quad_jacobian h X center
  rw [hφ] at hJ
  unfold stressAnsatz2 T0plane
  rw [hJ, m2, Matrix.transpose_mul, Matrix.mul_assoc, hm, Matrix.mul_assoc]

/-- The integration point of a quadrilateral with linear strains and assumed stresses (linearstress.hh:36-98). -/
noncomputable def Spec.linearStressQuad (entries : List (Fin 3 × Fin m × ((Fin 2 → ℝ) → ℝ))) (X : NodeVec 4 2) (g : (Fin 2 → ℝ) × ℝ) :
    ASPoint 4 2 3 m :=
  ⟨(linearAt (quadPoint X g)).toPoint, stressAnsatz2 entries (quadGeometry X) g.1⟩

/-- C124, assumed stresses. Stresses assumed in a quadrilateral with Green-Lagrange or with linear strains. -/
theorem stressQuad_relabel {τ : Equiv.Perm (Fin 4)} {φ : (Fin 2 → ℝ) → Fin 2 → ℝ} {P : Matrix (Fin 2) (Fin 2) ℝ}
    (h : SquareSymmetry τ φ P) (hφ : φ center = center) {entries : List (Fin 3 × Fin m × ((Fin 2 → ℝ) → ℝ))}
    (hm : Spec.StressModesMapped φ P entries T) (X : NodeVec 4 2) (g : (Fin 2 → ℝ) × ℝ) :
    Spec.RelabelledAS τ T (stressQuad entries X g) (stressQuad entries (relabel τ X) (φ g.1, g.2)) ∧
      Spec.RelabelledAS τ T (Spec.linearStressQuad entries X g) (Spec.linearStressQuad entries (relabel τ X) (φ g.1, g.2)) := by
  have hp := quad_relabel h X g
  refine ⟨⟨green_relabel plane hp, stressAnsatz2_relabel h hφ hm X g.1⟩,
    ⟨⟨hp.detJ, hp.weight, fun u => ?_, fun u I => ?_, fun _ _ _ _ => rfl⟩, stressAnsatz2_relabel h hφ hm X g.1⟩⟩
  · show ∑ I, plane.bop 1 ((quadPoint (relabel τ X) (φ g.1, g.2)).dN I) *ᵥ u (τ I) = ∑ I, plane.bop 1 ((quadPoint X g).dN I) *ᵥ u I
    simp only [hp.dN]
    exact Equiv.sum_comp τ fun I => plane.bop 1 ((quadPoint X g).dN I) *ᵥ u I
  · show plane.bop 1 _ = plane.bop 1 _
    rw [hp.dN]

theorem s5_matrix (p : Fin 2 → ℝ) : assign s5 p =
    !![1.0, 0, 0, coord (p 1), 0; 0, 1.0, 0, 0, coord (p 0); 0, 0, 1.0, 0, 0] := by
  ext i j
  fin_cases i <;> fin_cases j <;> rfl

theorem stressModes_of {φ : (Fin 2 → ℝ) → Fin 2 → ℝ} {P : Matrix (Fin 2) (Fin 2) ℝ} {entries : List (Fin 3 × Fin m × ((Fin 2 → ℝ) → ℝ))}
    {σ : Equiv.Perm (Fin m)} {s : Fin m → ℝ}
    (h : ∀ p i j, ((transformationMatrix2 P)ᵀ * assign entries (φ p)) i j = assign entries p i (σ j) * s j) :
    Spec.StressModesMapped φ P entries (EAS.Spec.signedPerm σ s) := fun p => by
  ext i j
  rw [mul_signedPerm]
  exact h p i j

/-- C124, assumed stresses. The modes of `S5` have the symmetries of the square. -/
theorem stressModes_symmetric :
    (∃ T, IsUnit T.det ∧ Spec.StressModesMapped (fun p => ![p 1, p 0]) !![0, 1; 1, 0] s5 T) ∧
    (∃ T, IsUnit T.det ∧ Spec.StressModesMapped (fun p => ![1 - p 0, p 1]) !![-1, 0; 0, 1] s5 T) := by
  refine ⟨⟨_, signedPerm_unit (Equiv.swap 0 1 * Equiv.swap 3 4) (s := fun _ => 1) fun _ => mul_one _, stressModes_of fun p i j => ?_⟩,
    ⟨_, signedPerm_unit 1 (s := ![1, 1, -1, 1, -1]) fun i => ?_, stressModes_of fun p i j => ?_⟩⟩
  · rw [transformation_swap, Matrix.mul_apply, Fin.sum_univ_three, mul_one, s5_matrix, s5_matrix]
    fin_cases j <;> fin_cases i <;> simp [Equiv.swap_apply_def, Matrix.transpose_apply]
  · fin_cases i <;> simp
  · rw [transformation_reflect, Matrix.mul_apply, Fin.sum_univ_three, s5_matrix, s5_matrix]
    have hc : coord (1 - p 0) = -coord (p 0) := by unfold coord; norm_num; ring
    fin_cases j <;> fin_cases i <;> simp [Matrix.transpose_apply, hc]

theorem stressModes_comp {φ φ' : (Fin 2 → ℝ) → Fin 2 → ℝ} {P P' : Matrix (Fin 2) (Fin 2) ℝ}
    {entries : List (Fin 3 × Fin m × ((Fin 2 → ℝ) → ℝ))} {T T' : Matrix (Fin m) (Fin m) ℝ} (h : Spec.StressModesMapped φ P entries T)
    (h' : Spec.StressModesMapped φ' P' entries T') : Spec.StressModesMapped (φ' ∘ φ) (P' * P) entries (T * T') := fun p => by
  obtain ⟨m2, -⟩ := transformation_mul (K := ℝ) two_ne_zero
  show _ * assign entries (φ' (φ p)) = _
  rw [m2, Matrix.transpose_mul, Matrix.mul_assoc, h', ← Matrix.mul_assoc, h, Matrix.mul_assoc]

theorem perm_index {α : Type*} {l l' : List α} (h : l.Perm l') : ∃ e : Fin l'.length ≃ Fin l.length, ∀ i, l.get (e i) = l'.get i := by
  induction h with
  | nil => exact ⟨Equiv.refl _, fun i => rfl⟩
  | @cons x l l' _ ih =>
    obtain ⟨e, he⟩ := ih
    refine ⟨(finSuccEquiv _).trans ((Equiv.optionCongr e).trans (finSuccEquiv _).symm), fun i => ?_⟩
    refine Fin.cases ?_ (fun i => ?_) i
    · simp
    · simpa using he i
  | swap x y l =>
    refine ⟨Equiv.swap (0 : Fin (l.length + 2)) 1, fun i => ?_⟩
    refine Fin.cases rfl (fun i => Fin.cases rfl (fun i => ?_) i) i
    have hi : Equiv.swap (0 : Fin (l.length + 2)) 1 i.succ.succ = i.succ.succ :=
      Equiv.swap_apply_of_ne_of_ne (Fin.succ_ne_zero _) fun h => Fin.succ_ne_zero i (Fin.succ_injective _ h)
    exact (congrArg (y :: x :: l).get hi).trans rfl
  | trans _ _ ih ih' =>
    obtain ⟨e, he⟩ := ih
    obtain ⟨e', he'⟩ := ih'
    exact ⟨e'.trans e, fun i => (he _).trans (he' i)⟩

/-- A symmetry of the square that the modes of a variant and the rule have; point `i` of the rule is the image of point `σ i`. -/
structure Spec.StressSymmetry (entries : List (Fin 3 × Fin m × ((Fin 2 → ℝ) → ℝ))) (rule : List ((Fin 2 → ℝ) × ℝ)) (τ : Equiv.Perm (Fin 4))
    (T : Matrix (Fin m) (Fin m) ℝ) (σ : Equiv.Perm (Fin rule.length)) : Prop where
  square : ∃ φ P, SquareSymmetry τ φ P ∧ φ center = center ∧ Spec.StressModesMapped φ P entries T ∧
    ∀ i, (φ (rule.get (σ i)).1, (rule.get (σ i)).2) = rule.get i
  unit : IsUnit T.det

/-- C124, assumed stresses. The corners of a quadrilateral with assumed stresses may be listed in any order that goes with a symmetry of
the modes and of the rule. -/
theorem asQuad_relabel {entries : List (Fin 3 × Fin m × ((Fin 2 → ℝ) → ℝ))} {rule : List ((Fin 2 → ℝ) × ℝ)} {τ : Equiv.Perm (Fin 4)}
    {σ : Equiv.Perm (Fin rule.length)} (h : Spec.StressSymmetry entries rule τ T σ) (X : NodeVec 4 2) (i : Fin rule.length) :
    Spec.RelabelledAS τ T (stressQuad entries X (rule.get (σ i))) (stressQuad entries (relabel τ X) (rule.get i)) ∧
      Spec.RelabelledAS τ T (Spec.linearStressQuad entries X (rule.get (σ i)))
        (Spec.linearStressQuad entries (relabel τ X) (rule.get i)) := by
  obtain ⟨φ, P, h1, h2, h3, h4⟩ := h.square
  rw [← h4 i]
  exact stressQuad_relabel h1 h2 h3 X (rule.get (σ i))

/-- C124, assumed stresses. `S5` has all eight symmetries of the square with rules that are made of a symmetric rule on the interval: it
has the two reflections, and with two symmetries it has their product. -/
theorem stress_symmetries (r : List (ℝ × ℝ)) (hr : (r.map fun x => (1 - x.1, x.2)).Perm r) :
    (∀ τ ∈ [Equiv.swap 1 2, Equiv.swap 0 1 * Equiv.swap 2 3], ∃ T σ, Spec.StressSymmetry s5 (tensorRule r) τ T σ) ∧
    ∀ {m : Nat} {entries : List (Fin 3 × Fin m × ((Fin 2 → ℝ) → ℝ))} {rule : List ((Fin 2 → ℝ) × ℝ)} {τ τ' : Equiv.Perm (Fin 4)}
      {T T' : Matrix (Fin m) (Fin m) ℝ} {σ σ' : Equiv.Perm (Fin rule.length)}, Spec.StressSymmetry entries rule τ T σ →
      Spec.StressSymmetry entries rule τ' T' σ' → Spec.StressSymmetry entries rule (τ * τ') (T * T') (σ * σ') := by
  have c1 : (fun p : Fin 2 → ℝ => (![p 1, p 0] : Fin 2 → ℝ)) center = center := by
    funext i; fin_cases i <;> rfl
  have c2 : (fun p : Fin 2 → ℝ => (![1 - p 0, p 1] : Fin 2 → ℝ)) center = center := by
    funext i; fin_cases i <;> simp [center]; norm_num
  have hσ : ∀ {φ : (Fin 2 → ℝ) → Fin 2 → ℝ} {rule : List ((Fin 2 → ℝ) × ℝ)}, (rule.map fun g => (φ g.1, g.2)).Perm rule →
      ∃ σ : Equiv.Perm (Fin rule.length), ∀ i, (φ (rule.get (σ i)).1, (rule.get (σ i)).2) = rule.get i := fun {φ rule} hp => by
    obtain ⟨e, he⟩ := perm_index hp
    refine ⟨e.trans (finCongr (List.length_map _)), fun i => ?_⟩
    rw [← he i]
    simp
  refine ⟨fun τ hτ => ?_, fun {m entries rule τ τ' T T' σ σ'} h h' => ⟨?_, ?_⟩⟩
  · obtain ⟨⟨T1, u1, h1⟩, ⟨T2, u2, h2⟩⟩ := stressModes_symmetric
    rcases List.mem_cons.1 hτ with rfl | hτ
    · obtain ⟨σ, h⟩ := hσ (φ := fun p => ![p 1, p 0]) (tensor_symmetric r).1
      exact ⟨T1, σ, ⟨_, _, square_symmetries.1, c1, h1, h⟩, u1⟩
    · obtain rfl := List.mem_singleton.1 hτ
      obtain ⟨σ, h⟩ := hσ (φ := fun p => ![1 - p 0, p 1]) ((tensor_symmetric r).2 hr)
      exact ⟨T2, σ, ⟨_, _, square_symmetries.2.1, c2, h2, h⟩, u2⟩
  · obtain ⟨φ, P, h1, h2, h3, h4⟩ := h.square
    obtain ⟨φ', P', h1', h2', h3', h4'⟩ := h'.square
    refine ⟨φ' ∘ φ, P' * P, square_symmetries.2.2 h1 h1', by rw [Function.comp_apply, h2, h2'], stressModes_comp h3 h3', fun i => ?_⟩
    rw [← h4' i, ← h4 (σ' i)]
    rfl
  · rw [Matrix.det_mul]
    exact h.unit.mul h'.unit

/-! ### Examples -/

/-- A quadrilateral of any shape with `S5`, Green-Lagrange strains, a linear material and the rule of Gauss with two points in each direction, with
its corners listed from another corner, right after the initialisation. -/
example (X : NodeVec 4 2) (C : Matrix (Fin 3) (Fin 3) ℝ) (a : ℝ) :
    let rule := tensorRule [(a, 1 / 2), (1 - a, 1 / 2)]
    let τ : Equiv.Perm (Fin 4) := Equiv.swap 1 2 * (Equiv.swap 0 1 * Equiv.swap 2 3)
    ∃ (T : Matrix (Fin 5) (Fin 5) ℝ) (σ : Equiv.Perm (Fin rule.length)), IsUnit T.det ∧
      (∀ i, Spec.RelabelledAS τ T (stressQuad s5 X (rule.get (σ i))) (stressQuad s5 (relabel τ X) (rule.get i))) ∧
      Spec.RelabelledState σ T (initializeState (fun S _ => (C⁻¹, C⁻¹ *ᵥ S)) (fun i => stressQuad s5 X (rule.get i)) 0)
        (initializeState (fun S _ => (C⁻¹, C⁻¹ *ᵥ S)) (fun i => stressQuad s5 (relabel τ X) (rule.get i)) 0) := by
  have hr : ([(a, 1 / 2), (1 - a, 1 / 2)].map fun x : ℝ × ℝ => (1 - x.1, x.2)).Perm [(a, 1 / 2), (1 - a, 1 / 2)] := by
    simp only [List.map_cons, List.map_nil, sub_sub_cancel]
    exact List.Perm.swap _ _ _
  obtain ⟨h, hc⟩ := stress_symmetries _ hr
  obtain ⟨T, σ, hT⟩ := h _ List.mem_cons_self
  obtain ⟨T', σ', hT'⟩ := h _ (List.mem_cons_of_mem _ List.mem_cons_self)
  refine ⟨T * T', σ * σ', (hc hT hT').unit, fun i => (asQuad_relabel (hc hT hT') X i).1, ?_⟩
  exact inversion_relabel _ (fun i => (asQuad_relabel (hc hT hT') X i).1.P) (Matrix.mulVec_zero _) fun _ => rfl

end Ikarus.Element.AssumedStress
