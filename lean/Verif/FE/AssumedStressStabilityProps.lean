import Verif.FE.AssumedStressModesProps

/-!
Assumed stresses: the transformation from the unit cube, constant stresses, and the matrix `H` with the default integration
rule.
-/

namespace Ikarus.Element.AssumedStress

open Matrix Ikarus.Element.Spec Ikarus.Element.EAS Ikarus.Utils

variable {n d q m g : Nat}

/-! ### Transformation -/

/-- C73. The transposed transformation matrix moves a stress from the unit cube to the physical coordinates: with the Jacobian
`F` of the geometry the stress `S` becomes `F S Fᵀ`. It is conjugate to the transformation of the strains. -/
theorem stress_transformation :
    (∀ J S : Matrix (Fin 2) (Fin 2) ℝ, S.IsSymm →
      (transformationMatrix2 J)ᵀ *ᵥ toVoigt2 S false = toVoigt2 (Jᵀ * S * J) false) ∧
    ∀ J S : Matrix (Fin 3) (Fin 3) ℝ, S.IsSymm →
      (transformationMatrix3 J)ᵀ *ᵥ toVoigt3 S false = toVoigt3 (Jᵀ * S * J) false := by
  refine ⟨fun J S hS => ?_, fun J S hS => ?_⟩
  · have h1 := hS.apply 0 1
    ext i
    fin_cases i <;>
      simp [transformationMatrix2, toVoigt2, Matrix.mulVec, dotProduct, Fin.sum_univ_succ,
        Matrix.mul_apply, strainFactor, h1] <;> ring
  · have h1 := hS.apply 0 1
    have h2 := hS.apply 0 2
    have h3 := hS.apply 1 2
    ext i
    fin_cases i <;>
      simp [transformationMatrix3, toVoigt3, Matrix.mulVec, dotProduct, Fin.sum_univ_succ,
        Matrix.mul_apply, strainFactor, h1, h2, h3] <;> ring

example : (transformationMatrix2 !![2, 0; 0, 1])ᵀ *ᵥ toVoigt2 !![1, 3; 3, 5] false = ![(4 : ℝ), 5, 6] := by
  rw [stress_transformation.1 _ _ (by ext i j; fin_cases i <;> fin_cases j <;> rfl)]
  ext i
  fin_cases i <;> simp [toVoigt2, Matrix.mul_apply, Fin.sum_univ_two, strainFactor, Matrix.vecHead, Matrix.vecTail] <;> norm_num

theorem isUnit_T0plane (geo : Geometry 2) (h : IsUnit (geo.jacobianTransposed center)) : IsUnit (T0plane geo) := by
  have hT := ((transformation_invertible (K := ℝ) two_ne_zero).1 _).2 h
  rw [Matrix.isUnit_iff_isUnit_det] at hT ⊢
  rwa [T0plane, Matrix.det_transpose]

theorem isUnit_T0space (geo : Geometry 3) (h : IsUnit (geo.jacobianTransposed center)) : IsUnit (T0space geo) := by
  have hT := ((transformation_invertible (K := ℝ) two_ne_zero).2 _).2 h
  rw [Matrix.isUnit_iff_isUnit_det] at hT ⊢
  rwa [T0space, Matrix.det_transpose]

/-! ### Constant stresses -/

/-- Every constant stress is represented. -/
def Spec.Constants (P : (Fin d → ℝ) → Matrix (Fin q) (Fin m) ℝ) : Prop := ∀ S, ∃ beta, ∀ pos, P pos *ᵥ beta = S

theorem constants_of (T : Matrix (Fin q) (Fin q) ℝ) (hT : IsUnit T) (entries : List (Fin q × Fin m × ((Fin d → ℝ) → ℝ)))
    (h : Spec.Constants (assign entries)) : Spec.Constants fun pos => T * assign entries pos := by
  intro S
  obtain ⟨beta, hb⟩ := h (T⁻¹ *ᵥ S)
  refine ⟨beta, fun pos => ?_⟩
  rw [← Matrix.mulVec_mulVec, hb, Matrix.mulVec_mulVec, Matrix.mul_nonsing_inv _ ((Matrix.isUnit_iff_isUnit_det _).1 hT),
    Matrix.one_mulVec]

theorem constants_s5 : Spec.Constants (assign s5) := by
  intro S
  refine ⟨![S 0, S 1, S 2, 0, 0], fun pos => ?_⟩
  funext i
  rw [assign_mulVec s5 (by decide)]
  fin_cases i <;> simp [s5, one_dot]

theorem constants_s18 : Spec.Constants (assign s18) := by
  intro S
  refine ⟨![S 0, 0, 0, 0, S 1, 0, 0, 0, S 2, 0, 0, 0, S 3, 0, S 4, 0, S 5, 0], fun pos => ?_⟩
  funext i
  rw [assign_mulVec s18 (by decide)]
  fin_cases i <;> simp [s18, one_dot]

theorem constants_s24 : Spec.Constants (assign s24) := by
  intro S
  refine ⟨![S 0, 0, 0, 0, S 1, 0, 0, 0, S 2, 0, 0, 0, S 3, 0, 0, 0, S 4, 0, 0, 0, S 5, 0, 0, 0], fun pos => ?_⟩
  funext i
  rw [assign_mulVec s24 (by decide)]
  fin_cases i <;> simp [s24, one_dot]

theorem constants_s30 : Spec.Constants (assign s30) := by
  intro S
  refine ⟨![S 0, 0, 0, 0, S 1, 0, 0, 0, S 2, 0, 0, 0, S 3, 0, 0, 0, 0, 0, S 4, 0, 0, 0, 0, 0, S 5, 0, 0, 0, 0, 0],
    fun pos => ?_⟩
  funext i
  rw [assign_mulVec s30 (by decide)]
  fin_cases i <;> simp [s30, one_dot]

/-- C73. Every variant represents every constant stress on every geometry that is not degenerate at the center. -/
theorem as_constants :
    (∀ geo : Geometry 2, IsUnit (geo.jacobianTransposed center) → Spec.Constants (stressAnsatz2 s5 geo)) ∧
    ∀ geo : Geometry 3, IsUnit (geo.jacobianTransposed center) → Spec.Constants (stressAnsatz3 s18 geo) ∧
      Spec.Constants (stressAnsatz3 s24 geo) ∧ Spec.Constants (stressAnsatz3 s30 geo) :=
  ⟨fun geo h => constants_of _ (isUnit_T0plane geo h) _ constants_s5,
    fun geo h => ⟨constants_of _ (isUnit_T0space geo h) _ constants_s18, constants_of _ (isUnit_T0space geo h) _ constants_s24,
      constants_of _ (isUnit_T0space geo h) _ constants_s30⟩⟩

/-- C73, patch test. If the strains of a linear element are the same at all points and the modes represent constant stresses,
the stress of the element is the one of the material, at every position, and the forces are those of the displacement
element. -/
theorem as_patch (C : Matrix (Fin q) (Fin q) ℝ) (hC : IsUnit C.det) (P : (Fin d → ℝ) → Matrix (Fin q) (Fin m) ℝ)
    (hP : Spec.Constants P) (pos : Fin g → Fin d → ℝ) (gp : Fin g → LinPoint n d q) (hm : m ≠ 0) (ha : asApplicable n d = true)
    (hCs : C.IsSymm) (inv : Inversion q) (hinv : Spec.Inverts inv (linearLaw C⁻¹) Set.univ) (st : State q m g)
    (hst : Spec.Reachable inv (linearASPoints fun i => (gp i, P (pos i))) st)
    (hH : IsUnit (calculateH (linearASPoints fun i => (gp i, P (pos i)))
      (Spec.stateAt (linearLaw C⁻¹) (linearASPoints fun i => (gp i, P (pos i))) 0)).det)
    (u : NodeVec n d) (E : Fin q → ℝ) (hE : ∀ i, (gp i).strain u = E) :
    (∀ p, P p *ᵥ linearBeta (linearASPoints fun i => (gp i, P (pos i))) st u = C *ᵥ E) ∧
    calculateVector (linearASPoints fun i => (gp i, P (pos i))) st .forces u 0 =
      some fun I => ∑ i, ((gp i).detJ * (gp i).weight) • (((gp i).bop I)ᵀ *ᵥ (C *ᵥ E)) := by
  have hCi : C⁻¹.IsSymm := by
    unfold Matrix.IsSymm
    rw [Matrix.transpose_nonsing_inv, hCs.eq]
  obtain ⟨Kc, h1, h2, h3, -⟩ := as_linear C⁻¹ (fun i => (gp i, P (pos i))) inv hinv hCi hm ha hH
  obtain ⟨hR, -⟩ := h3 st u hst
  obtain ⟨beta, hb⟩ := hP (C *ᵥ E)
  have hR' : calculateRtilde (linearASPoints fun i => (gp i, P (pos i)))
      (Spec.stateAt (linearLaw C⁻¹) (linearASPoints fun i => (gp i, P (pos i))) beta) u = 0 := by
    rw [calculateRtilde_eq]
    refine Finset.sum_eq_zero fun i _ => ?_
    simp only [linearASPoints, LinPoint.toPoint, Spec.stateAt, linearLaw, hE, hb, Matrix.mulVec_mulVec,
      Matrix.nonsing_inv_mul _ hC, Matrix.one_mulVec, sub_self, Matrix.mulVec_zero, smul_zero]
  have heq : linearBeta (linearASPoints fun i => (gp i, P (pos i))) st u = beta := by
    rw [linear_residual, sub_eq_zero] at hR hR'
    rw [hR'] at hR
    have h4 := congrArg (fun v => (calculateH (linearASPoints fun i => (gp i, P (pos i)))
      (Spec.stateAt (linearLaw C⁻¹) (linearASPoints fun i => (gp i, P (pos i))) 0))⁻¹ *ᵥ v) hR
    rw [linearH C⁻¹ _ beta 0, linearH C⁻¹ _ (linearBeta _ st u) 0, Matrix.mulVec_mulVec, Matrix.mulVec_mulVec,
      Matrix.nonsing_inv_mul _ hH, Matrix.one_mulVec, Matrix.one_mulVec] at h4
    exact h4.symm
  refine ⟨fun p => by rw [heq, hb], ?_⟩
  have h4 : calculateVector (linearASPoints fun i => (gp i, P (pos i)))
      (Spec.stateAt (linearLaw C⁻¹) (linearASPoints fun i => (gp i, P (pos i))) beta) .forces u 0 =
      calculateVector (linearASPoints fun i => (gp i, P (pos i))) st .forces u 0 := by
    have h5 := calculateVector_equilibrium hm ha _ _ u beta hR'
    rw [h2 st u hst, h5]
    congr 1
    rw [linear_forces, ← heq]
    have h6 := h2 st u hst
    rw [as_states inv _ Set.univ hinv _ st hst fun _ => trivial, pair_calculateVector _ _ _ _ hm _ _ ha,
      calculateVector_eq _ _ _ _ hm (applicable_of_as ha), zero_add, pair_forces, pair_D, pair_L, pair_R, linear_forces,
      linear_residual, linearH C⁻¹ _ st.beta 0, nonsing_inv_neg, Matrix.neg_mulVec, mulLT_neg, sub_neg_eq_add,
      Matrix.mulVec_sub, Matrix.mulVec_mulVec, Matrix.nonsing_inv_mul _ hH, Matrix.one_mulVec, sub_eq_add_neg, mulLT_add,
      mulLT_neg, Option.some.injEq] at h6
    rw [← h6, linearBeta, mulL_eq, as_states inv _ Set.univ hinv _ st hst fun _ => trivial, linearH C⁻¹ _ _ 0]
    abel
  rw [← h4, calculateVector_equilibrium hm ha _ _ u beta hR', Option.some.injEq]
  funext I
  exact Finset.sum_congr rfl fun i _ => by simp only [linearASPoints, LinPoint.toPoint, hb]

/-! ### The matrix `H` -/

/-- Stability of a set of modes: with positive weights, a geometry that is not degenerate, a quadrature rule of sufficient order
and positive definite compliances, the matrix `H` is positive definite and hence invertible. -/
def Spec.Stable (geo : Geometry d) (P : (Fin d → ℝ) → Matrix (Fin q) (Fin m) ℝ) (k : Nat) : Prop :=
  ∀ (n : Nat) (rule : List ((Fin d → ℝ) × ℝ)) (gps : Fin rule.length → ASPoint n d q m) (st : State q m rule.length),
    EAS.Spec.Exact rule k → (∀ i, (gps i).point.detJ = geo.integrationElement (rule.get i).1) →
    (∀ i, (gps i).point.weight = (rule.get i).2) → (∀ i, (gps i).P = P (rule.get i).1) →
    (∀ o ∈ rule, 0 < o.2) → (∀ o ∈ rule, geo.integrationElement o.1 ≠ 0) → IsUnit (geo.jacobianTransposed center) →
    (∀ i S, S ≠ 0 → 0 < S ⬝ᵥ st.inverted i *ᵥ S) →
    (∀ b, b ≠ 0 → 0 < b ⬝ᵥ calculateH gps st *ᵥ b) ∧ IsUnit (calculateH gps st).det

theorem stable_of (geo : Geometry d) (entries : List (Fin q × Fin m × ((Fin d → ℝ) → ℝ))) (k : Nat)
    (hind : EAS.Spec.Independent entries k) (T : Matrix (Fin q) (Fin q) ℝ)
    (hT : IsUnit (geo.jacobianTransposed center) → IsUnit T) : Spec.Stable geo (fun p => T * assign entries p) k := by
  intro n rule gps st hk hdet hwt hP hw hne hJ hpd
  have hpos : ∀ b, b ≠ 0 → 0 < b ⬝ᵥ calculateH gps st *ᵥ b := by
    intro b hb
    have hsum : b ⬝ᵥ calculateH gps st *ᵥ b = ∑ i, geo.integrationElement (rule.get i).1 * (rule.get i).2 *
        (((gps i).P *ᵥ b) ⬝ᵥ st.inverted i *ᵥ ((gps i).P *ᵥ b)) := by
      rw [calculateH_sum, Matrix.sum_mulVec, dotProduct_sum]
      refine Finset.sum_congr rfl fun i _ => ?_
      rw [Matrix.smul_mulVec, dotProduct_smul, smul_eq_mul, hdet, hwt, ← Matrix.mulVec_mulVec, ← Matrix.mulVec_mulVec,
        dotProduct_comm, transpose_mulVec_dot, dotProduct_comm]
    have hd : ∀ o ∈ rule, 0 < geo.integrationElement o.1 := fun o ho =>
      lt_of_le_of_ne (abs_nonneg _) (hne o ho).symm
    have hc : ∀ i, 0 < geo.integrationElement (rule.get i).1 * (rule.get i).2 := fun i =>
      mul_pos (hd _ (List.get_mem _ _)) (hw _ (List.get_mem _ _))
    have hnn : ∀ i, 0 ≤ geo.integrationElement (rule.get i).1 * (rule.get i).2 *
        (((gps i).P *ᵥ b) ⬝ᵥ st.inverted i *ᵥ ((gps i).P *ᵥ b)) := by
      intro i
      refine mul_nonneg (hc i).le ?_
      by_cases h0 : (gps i).P *ᵥ b = 0
      · rw [h0, zero_dotProduct]
      · exact (hpd i _ h0).le
    rw [hsum]
    refine lt_of_le_of_ne (Finset.sum_nonneg fun i _ => hnn i) fun h0 => hb ?_
    have hz := (Finset.sum_eq_zero_iff_of_nonneg fun i _ => hnn i).1 h0.symm
    refine hind (EAS.Spec.quadrature rule k hk) b ?_
    rintro p ⟨o, ho, rfl⟩
    obtain ⟨i, rfl⟩ := List.get_of_mem ho
    have h1 : (gps i).P *ᵥ b = 0 := by
      by_contra h0
      have h2 := hz i (Finset.mem_univ _)
      have h3 := mul_pos (hc i) (hpd i _ h0)
      linarith
    rw [hP, ← Matrix.mulVec_mulVec] at h1
    have h3 := congrArg (fun v => T⁻¹ *ᵥ v) h1
    simp only [Matrix.mulVec_zero] at h3
    rwa [Matrix.mulVec_mulVec, Matrix.nonsing_inv_mul _ ((Matrix.isUnit_iff_isUnit_det _).1 (hT hJ)),
      Matrix.one_mulVec] at h3
  exact ⟨hpos, isUnit_det_of_pos _ hpos⟩

/-- C73. For every geometry and positive definite compliances the matrix `H` of every variant is positive definite and
invertible, with rules exact for biquadratic (triquadratic) functions. -/
theorem as_stable :
    (∀ geo : Geometry 2, Spec.Stable geo (stressAnsatz2 s5 geo) 2) ∧
    ∀ geo : Geometry 3, Spec.Stable geo (stressAnsatz3 s18 geo) 2 ∧ Spec.Stable geo (stressAnsatz3 s24 geo) 2 ∧
      Spec.Stable geo (stressAnsatz3 s30 geo) 2 :=
  ⟨fun geo => stable_of geo s5 2 independent_s5 _ (isUnit_T0plane geo),
    fun geo => ⟨stable_of geo s18 2 independent_s18 _ (isUnit_T0space geo),
      stable_of geo s24 2 independent_s24 _ (isUnit_T0space geo), stable_of geo s30 2 independent_s30 _ (isUnit_T0space geo)⟩⟩

/-- The claim for an element of `n` nodes with a rule `b` per direction: in every state with positive definite compliances `H`
is invertible, for every geometry that is not degenerate on the unit cube. -/
def Spec.Condensable (n : Nat) (b : List (QuadPoint 1)) (P : Geometry d → (Fin d → ℝ) → Matrix (Fin q) (Fin m) ℝ) : Prop :=
  ∀ (geo : Geometry d) (gps : Fin (EAS.Spec.pairs (EAS.Spec.power b d)).length → ASPoint n d q m)
    (st : State q m (EAS.Spec.pairs (EAS.Spec.power b d)).length),
    (∀ p ∈ Set.Icc 0 1, IsUnit (geo.jacobianTransposed p)) →
    (∀ i, (gps i).point.detJ = geo.integrationElement ((EAS.Spec.pairs (EAS.Spec.power b d)).get i).1) →
    (∀ i, (gps i).point.weight = ((EAS.Spec.pairs (EAS.Spec.power b d)).get i).2) →
    (∀ i, (gps i).P = P geo ((EAS.Spec.pairs (EAS.Spec.power b d)).get i).1) →
    (∀ i S, S ≠ 0 → 0 < S ⬝ᵥ st.inverted i *ᵥ S) → IsUnit (calculateH gps st).det

theorem condensable_of (n : Nat) (P : Geometry d → (Fin d → ℝ) → Matrix (Fin q) (Fin m) ℝ)
    (hP : ∀ geo, Spec.Stable geo (P geo) 2) : Spec.Condensable n EAS.Spec.gauss2 P := by
  intro geo gps st hgeo hdet hwt hmod hpd
  obtain ⟨⟨h2, w2⟩, -⟩ := gauss_exact d
  refine (hP geo n _ gps st (exact_mono h2 (by decide)) hdet hwt hmod w2 ?_ (hgeo _ ?_) hpd).2
  · intro o ho
    refine abs_ne_zero.2 (isUnit_iff_ne_zero.1 ((Matrix.isUnit_iff_isUnit_det _).1 (hgeo o.1 ?_)))
    have h : ∀ i, o.1 i ∈ Set.Icc (0 : ℝ) 1 := fun i => by
      obtain ⟨x, hx, h⟩ := power_position EAS.Spec.gauss2 d o ho i
      rw [h]
      exact gauss2_unit x hx
    exact ⟨fun i => (h i).1, fun i => (h i).2⟩
  · exact ⟨fun i => by simp [center], fun i => by simp only [center, Pi.one_apply]; norm_num⟩

/-- C73. With the default rule of the elements that accept assumed stresses, the four node element and the eight node brick, the
condensation is defined for every variant the element can be created with. -/
theorem as_default_rule :
    (∀ dim k r, createAssumedStressType dim k = some r → dim = 2 ∧ r = 5 ∨ dim ≠ 2 ∧ (r = 18 ∨ r = 24 ∨ r = 30)) ∧
    Spec.Condensable 4 EAS.Spec.gauss2 (stressAnsatz2 s5) ∧ Spec.Condensable 8 EAS.Spec.gauss2 (stressAnsatz3 s18) ∧
    Spec.Condensable 8 EAS.Spec.gauss2 (stressAnsatz3 s24) ∧ Spec.Condensable 8 EAS.Spec.gauss2 (stressAnsatz3 s30) := by
  refine ⟨?_, condensable_of 4 _ as_stable.1, condensable_of 8 _ fun geo => (as_stable.2 geo).1,
    condensable_of 8 _ fun geo => (as_stable.2 geo).2.1, condensable_of 8 _ fun geo => (as_stable.2 geo).2.2⟩
  intro dim k r h
  unfold createAssumedStressType at h
  split at h
  · split at h
    · simp_all
    · simp at h
  · split at h
    · simp_all
    split at h
    · simp_all
    split at h
    · simp_all
    · simp at h

/-! ### Examples -/

/-- The trapezoid with the default rule, the modes `S5` and the compliance of a material: the hypotheses of the theorems on
linear elements are met. -/
noncomputable def Spec.plate : Fin (EAS.Spec.pairs (EAS.Spec.power EAS.Spec.gauss2 2)).length →
    LinPoint 4 2 3 × Matrix (Fin 3) (Fin 5) ℝ := fun i =>
  let o := (EAS.Spec.pairs (EAS.Spec.power EAS.Spec.gauss2 2)).get i
  (⟨EAS.Spec.trapezoid.integrationElement o.1, o.2, fun I => !![o.1 0 + I, 0; 0, o.1 1; 1, I]⟩,
    stressAnsatz2 s5 EAS.Spec.trapezoid o.1)

theorem plate_condensable (C : Matrix (Fin 3) (Fin 3) ℝ) (hpos : ∀ e, e ≠ 0 → 0 < e ⬝ᵥ C *ᵥ e) :
    IsUnit (calculateH (linearASPoints Spec.plate) (Spec.stateAt (linearLaw C) (linearASPoints Spec.plate) 0)).det :=
  as_default_rule.2.1 EAS.Spec.trapezoid _ _ trapezoid_unit (fun _ => rfl) (fun _ => rfl) (fun _ => rfl) fun _ => hpos

theorem one_pos_definite (e : Fin q → ℝ) (he : e ≠ 0) : 0 < e ⬝ᵥ (1 : Matrix (Fin q) (Fin q) ℝ) *ᵥ e := by
  rw [Matrix.one_mulVec]
  exact lt_of_le_of_ne (Finset.sum_nonneg fun i _ => mul_self_nonneg _) fun h => he (dotProduct_self_eq_zero.1 h.symm)

example : ∃ Kc, ∀ u, calculateVector (linearASPoints Spec.plate) (initializeState (fun S _ => (1, S)) (linearASPoints Spec.plate)
    fun _ => 0) .forces u 0 = some (mul Kc u) := by
  have hinv : Spec.Inverts (fun S _ => (1, S)) (linearLaw (1 : Matrix (Fin 3) (Fin 3) ℝ)) Set.univ := fun S _ E => by
    simp [linearLaw]
  obtain ⟨Kc, -, h, -⟩ := as_linear 1 Spec.plate (fun S _ => (1, S)) hinv Matrix.isSymm_one (by decide) (by decide)
    (plate_condensable 1 one_pos_definite)
  exact ⟨Kc, fun u => h _ u (.init _)⟩

theorem plate_regular (u : NodeVec 4 2) (beta : Fin 5 → ℝ) :
    Spec.Regular (linearLaw 1) Set.univ (linearASPoints Spec.plate) u beta :=
  ⟨linearLaw_contract 1 Matrix.isSymm_one, fun _ => linPoint_contract _ u, fun _ => trivial⟩

theorem plate_inverts : Spec.Inverts (fun S _ => (1, S)) (linearLaw (1 : Matrix (Fin 3) (Fin 3) ℝ)) Set.univ := fun S _ E => by
  simp [linearLaw]

theorem plate_unit (beta : Fin 5 → ℝ) :
    IsUnit (calculateH (linearASPoints Spec.plate) (Spec.stateAt (linearLaw 1) (linearASPoints Spec.plate) beta)).det :=
  plate_condensable 1 one_pos_definite

example (u : NodeVec 4 2) (beta : Fin 5 → ℝ) := as_gradient _ _ _ u beta (plate_regular u beta)

example (u : NodeVec 4 2) (beta : Fin 5 → ℝ) := as_tangent _ _ _ u beta (plate_regular u beta)

example (u : NodeVec 4 2) (beta : Fin 5 → ℝ) (f : NodeVec 4 2) := as_condensation _ _ _ plate_inverts _ u beta (plate_regular u beta)
  (by norm_num) (by decide) (plate_unit beta) 0 (fun _ _ _ _ => rfl) f 8

/-- Two such elements with common dofs. -/
example (x : ℕ → Fin 12 → ℝ) (beta : ℕ → Bool → Fin 5 → ℝ) (P : Fin 12 → ℝ) :=
  as_newton (⟨fun _ S _ => (1, S), fun _ => linearASPoints Spec.plate, fun e I a => Fin.ofNat 12 ((if e then 4 else 0) + 2 * I + a)⟩ :
    Spec.Mesh Bool 4 2 3 5 _ 12) (fun _ => linearLaw 1) Set.univ (fun _ => plate_inverts) {i | 3 ≤ i} P x beta (by norm_num) (by decide)
    (fun _ _ => plate_regular _ _) fun _ _ => plate_unit _

example (u : NodeVec 4 2) : ∃ Kc, calculateMatrix (linearASPoints Spec.plate) (initializeState (fun S _ => (1, S))
      (linearASPoints Spec.plate) fun _ => 0) .stiffness u 0 = some Kc ∧ Symmetric Kc ∧
    ∀ beta, Spec.hellingerReissner (linearLaw 1⁻¹) (linearASPoints Spec.plate) u beta ≤ (1 / 2) * work (mul Kc u) u := by
  obtain ⟨Kc, h, -⟩ := as_linear 1 Spec.plate (fun S _ => (1, S)) plate_inverts Matrix.isSymm_one (by decide) (by decide)
    (plate_condensable 1 one_pos_definite)
  have hK := h _ u (.init fun _ => 0)
  refine ⟨Kc, hK, as_symmetric _ _ _ u 0 Kc hK, (as_linear_maximum Spec.plate 1 Matrix.isSymm_one one_pos_definite (fun i => ?_)
    (fun S _ => (1, S)) (by simpa using plate_inverts) (by decide) (by decide)
    (by simpa using plate_condensable 1 one_pos_definite) _ (.init fun _ => 0) Kc u hK).1⟩
  exact mul_nonneg (abs_nonneg _) ((gauss_exact 2).1.2 _ (List.get_mem _ _)).le

example := as_energy_partial (linearLaw 1) Set.univ (linearASPoints Spec.plate) (by norm_num) (by decide)
  (linearLaw_contract 1 Matrix.isSymm_one) (fun u _ => linPoint_contract _ u) (fun _ _ => trivial) fun S _ => by
    show (0.5 : ℝ) * _ = 1 / 2 * _
    norm_num [linearLaw]

end Ikarus.Element.AssumedStress
