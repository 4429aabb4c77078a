import Verif.FE.AssumedStressProps
import Verif.Material.InversionProps
import Mathlib.Analysis.SpecialFunctions.Log.Deriv

/-!
Assumed stress elements: complementary energies of materials, linear elements and the energy the element returns.
-/

namespace Ikarus.Element.AssumedStress

open Matrix Ikarus.Element.Spec Ikarus.Element.EAS

variable {n d q m g : Nat}

/-! ### Complementary energies -/

/-- The complementary energy of a material with the inverse `es` of its stress and the derivative `D` of the inverse. -/
def Spec.complementary (law : Law q) (es : (Fin q → ℝ) → Fin q → ℝ) (D : (Fin q → ℝ) → Matrix (Fin q) (Fin q) ℝ) : Law q :=
  ⟨fun S => S ⬝ᵥ es S - law.energy (es S), es, D⟩

/-- C49, complementary energy. If the stress of a consistent material is inverted by a differentiable function on an open set of
stresses, the complementary energy is consistent, and its second derivative is the inverse of the moduli. -/
theorem complementary_contract (law : Law q) (dom0 : Set (Fin q → ℝ)) (hl : LawContract law dom0)
    (es : (Fin q → ℝ) → Fin q → ℝ) (D : (Fin q → ℝ) → Matrix (Fin q) (Fin q) ℝ) (dom : Set (Fin q → ℝ)) (ho : IsOpen dom)
    (hes : ∀ S ∈ dom, es S ∈ dom0 ∧ law.stress (es S) = S)
    (hD : ∀ (S : ℝ → Fin q → ℝ) (dS : Fin q → ℝ) (t : ℝ), S t ∈ dom → HasDerivAt S dS t →
      HasDerivAt (fun s => es (S s)) (D (S t) *ᵥ dS) t) :
    LawContract (Spec.complementary law es D) dom ∧ ∀ S ∈ dom, D S = (law.tangent (es S))⁻¹ := by
  have hinv : ∀ S ∈ dom, law.tangent (es S) * D S = 1 := by
    intro S hS
    ext k l
    have hc : HasDerivAt (fun t : ℝ => S + t • (Pi.single l 1 : Fin q → ℝ)) (Pi.single l 1) 0 := by
      rw [hasDerivAt_pi]
      intro i
      refine hasDerivAt_quadratic (a := S i) (c := 0) fun t => ?_
      simp
    have h0 : S + (0 : ℝ) • (Pi.single l 1 : Fin q → ℝ) = S := by simp
    have h1 := hD _ _ 0 (by rwa [h0]) hc
    have h2 := hl.tangent _ _ 0 (by simp only [h0]; exact (hes S hS).1) h1
    simp only [h0] at h2
    have h3 : HasDerivAt (fun t : ℝ => law.stress (es (S + t • (Pi.single l 1 : Fin q → ℝ)))) (Pi.single l 1) 0 := by
      refine hc.congr_of_eventuallyEq ?_
      have hn : dom ∈ nhds (S + (0 : ℝ) • (Pi.single l 1 : Fin q → ℝ)) := by rw [h0]; exact ho.mem_nhds hS
      filter_upwards [hc.continuousAt.preimage_mem_nhds hn] with t ht
      exact (hes _ ht).2
    have h4 := congrFun (h2.unique h3) k
    simp only [Matrix.mulVec_single_one] at h4
    rw [Matrix.mul_apply, Matrix.one_apply, ← Pi.single_apply, ← Pi.single_comm] at *
    exact h4
  have hDinv : ∀ S ∈ dom, D S = (law.tangent (es S))⁻¹ := fun S hS => (Matrix.inv_eq_right_inv (hinv S hS)).symm
  refine ⟨⟨?_, ?_, ?_⟩, hDinv⟩
  · intro S dS t hS hd
    have h1 := hD S dS t hS hd
    have h2 := hl.stress _ _ t (hes _ hS).1 h1
    rw [(hes _ hS).2] at h2
    have h1' := h1
    rw [hasDerivAt_pi] at h1' hd
    have h3 : HasDerivAt (fun s => ∑ k, S s k * es (S s) k) (∑ k, (dS k * es (S t) k + S t k * (D (S t) *ᵥ dS) k)) t :=
      HasDerivAt.fun_sum fun k _ => (hd k).mul (h1' k)
    refine (h3.sub h2).congr_deriv ?_
    rw [Finset.sum_add_distrib, add_sub_cancel_right]
    exact Finset.sum_congr rfl fun k _ => mul_comm _ _
  · intro S dS t hS hd
    exact hD S dS t hS hd
  · intro S hS k l
    have hs : (law.tangent (es S))ᵀ = law.tangent (es S) := by
      ext i j
      exact hl.symm _ (hes S hS).1 j i
    show D S k l = D S l k
    rw [hDinv S hS, ← Matrix.transpose_apply (law.tangent (es S))⁻¹ l k, Matrix.transpose_nonsing_inv, hs]

/-- A linear material: the complementary energy is the one of the compliance. -/
example (C : Matrix (Fin q) (Fin q) ℝ) (hC : C.IsSymm) (hu : IsUnit C.det) :
    LawContract (Spec.complementary (linearLaw C) (fun S => C⁻¹ *ᵥ S) fun _ => C⁻¹) Set.univ := by
  refine (complementary_contract (linearLaw C) Set.univ (linearLaw_contract C hC) _ _ Set.univ isOpen_univ (fun S _ => ⟨trivial, ?_⟩)
    fun S dS t _ h => ?_).1
  · show C *ᵥ (C⁻¹ *ᵥ S) = S
    rw [Matrix.mulVec_mulVec, Matrix.mul_nonsing_inv _ hu, Matrix.one_mulVec]
  · rw [hasDerivAt_pi] at h ⊢
    intro k
    show HasDerivAt (fun s => ∑ l, C⁻¹ k l * S s l) (∑ l, C⁻¹ k l * dS l) t
    exact HasDerivAt.fun_sum fun l _ => (h l).const_mul _

/-- The inversion of a linear material is exact from every starting strain, as `Spec.Inverts` asks. -/
example (C : Matrix (Fin q) (Fin q) ℝ) (hu : IsUnit C.det) (S E : Fin q → ℝ) :
    numericalMaterialInversion ⟨fun e => C *ᵥ e, fun _ s => C⁻¹ *ᵥ s⟩ S E 1e-12 20 =
      some ((fun s => C⁻¹ *ᵥ s), C⁻¹ *ᵥ S) :=
  inversion_linear (Matrix.mulVecLin C).toAddMonoidHom (Matrix.mulVecLin C⁻¹).toAddMonoidHom
    (fun s => by simp [Matrix.mulVec_mulVec, Matrix.mul_nonsing_inv _ hu])
    (fun s => by simp [Matrix.mulVec_mulVec, Matrix.nonsing_inv_mul _ hu]) S E 1e-12 (by norm_num) 20 (by norm_num)

/-! ### Linear elements -/

/-- Integration points with the linear strain. -/
def linearASPoints (gps : Fin g → LinPoint n d q × Matrix (Fin q) (Fin m) ℝ) (i : Fin g) : ASPoint n d q m :=
  ⟨(gps i).1.toPoint, (gps i).2⟩

theorem calculateH_sum (gps : Fin g → ASPoint n d q m) (st : State q m g) : calculateH gps st =
    ∑ i, ((gps i).point.detJ * (gps i).point.weight) • ((gps i).Pᵀ * st.inverted i * (gps i).P) := by
  have : calculateH gps st = ((List.finRange g).map fun i =>
      ((gps i).point.detJ * (gps i).point.weight) • ((gps i).Pᵀ * st.inverted i * (gps i).P + 0)).sum := by
    rw [← zero_add (List.sum _), ← foldl_add_sum]
    rfl
  rw [this, ← List.ofFn_eq_map, List.sum_ofFn]
  simp only [add_zero]

theorem calculateRtilde_eq (gps : Fin g → ASPoint n d q m) (st : State q m g) (u : NodeVec n d) :
    calculateRtilde gps st u = ∑ i, ((gps i).point.detJ * (gps i).point.weight) •
      ((gps i).Pᵀ *ᵥ ((gps i).point.strain u - st.strainStates i)) := by
  have : calculateRtilde gps st u = ((List.finRange g).map fun i => ((gps i).point.detJ * (gps i).point.weight) •
      ((gps i).Pᵀ *ᵥ ((gps i).point.strain u - st.strainStates i))).sum := by
    rw [← zero_add (List.sum _), ← foldl_add_sum]
    rfl
  rw [this, ← List.ofFn_eq_map, List.sum_ofFn]

theorem calculateG_sum (gps : Fin g → ASPoint n d q m) (u : NodeVec n d) (I : Fin n) : calculateG gps u I =
    ∑ i, ((gps i).point.detJ * (gps i).point.weight) • ((gps i).Pᵀ * (gps i).point.bop u I) := by
  have : calculateG gps u = ((List.finRange g).map fun i => fun I =>
      ((gps i).point.detJ * (gps i).point.weight) • ((gps i).Pᵀ * (gps i).point.bop u I)).sum := by
    rw [← zero_add (List.sum _), ← foldl_add_sum]
    refine foldl_congr' (fun L i => ?_) _ _
    rw [foldl_update_add (fun I => ((gps i).point.detJ * (gps i).point.weight) • ((gps i).Pᵀ * (gps i).point.bop u I)) _
      (List.nodup_finRange n) L]
    funext I
    simp only [List.mem_finRange, if_true, Pi.add_apply]
  rw [this, ← List.ofFn_eq_map, List.sum_ofFn, Finset.sum_apply]

section Linear

variable (A : Matrix (Fin q) (Fin q) ℝ) (gps : Fin g → LinPoint n d q × Matrix (Fin q) (Fin m) ℝ)

theorem linearH (beta beta' : Fin m → ℝ) :
    calculateH (linearASPoints gps) (Spec.stateAt (linearLaw A) (linearASPoints gps) beta) =
      calculateH (linearASPoints gps) (Spec.stateAt (linearLaw A) (linearASPoints gps) beta') := rfl

theorem linearG (u u' : NodeVec n d) : calculateG (linearASPoints gps) u = calculateG (linearASPoints gps) u' := rfl

theorem linear_geometric (u : NodeVec n d) (beta : Fin m → ℝ) : Spec.geometric (linearASPoints gps) u beta = 0 := by
  funext I J
  simp [Spec.geometric, linearASPoints, LinPoint.toPoint]

theorem linear_forces (u : NodeVec n d) (beta : Fin m → ℝ) :
    Spec.forces (linearASPoints gps) u beta = EAS.Spec.mulLT (calculateG (linearASPoints gps) u) beta := by
  funext I
  rw [mulLT_eq, calculateG_sum, Matrix.transpose_sum, Matrix.sum_mulVec, Spec.forces]
  refine Finset.sum_congr rfl fun i _ => ?_
  rw [Matrix.transpose_smul, Matrix.smul_mulVec, Matrix.transpose_mul, Matrix.transpose_transpose, Matrix.mulVec_mulVec]

theorem linear_residual (u : NodeVec n d) (beta : Fin m → ℝ) :
    calculateRtilde (linearASPoints gps) (Spec.stateAt (linearLaw A) (linearASPoints gps) beta) u =
      EAS.Spec.mulLv (calculateG (linearASPoints gps) u) u -
        calculateH (linearASPoints gps) (Spec.stateAt (linearLaw A) (linearASPoints gps) beta) *ᵥ beta := by
  rw [calculateRtilde_eq, mulLv_eq, calculateH_sum, Matrix.sum_mulVec]
  simp only [calculateG_sum, Matrix.sum_mulVec]
  rw [Finset.sum_comm, ← Finset.sum_sub_distrib]
  refine Finset.sum_congr rfl fun i _ => ?_
  simp only [Spec.stateAt, linearLaw, linearASPoints, LinPoint.toPoint, LinPoint.strain, Matrix.smul_mulVec, Matrix.mulVec_sub,
    Matrix.mulVec_sum, Matrix.mulVec_mulVec, smul_sub, Finset.smul_sum, Matrix.mul_assoc]

theorem work_mulLT (L : Fin n → Matrix (Fin m) (Fin d) ℝ) (beta : Fin m → ℝ) (u : NodeVec n d) :
    work (EAS.Spec.mulLT L beta) u = beta ⬝ᵥ EAS.Spec.mulLv L u := by
  simp only [work, EAS.Spec.mulLT, EAS.Spec.mulLv, dotProduct, Finset.sum_mul, Finset.mul_sum]
  rw [show (∑ r, ∑ J, ∑ b, beta r * (L J r b * u J b)) = ∑ J, ∑ b, ∑ r, beta r * (L J r b * u J b) by
    rw [Finset.sum_comm]
    exact Finset.sum_congr rfl fun J _ => Finset.sum_comm]
  exact Finset.sum_congr rfl fun J _ => Finset.sum_congr rfl fun b _ => Finset.sum_congr rfl fun r _ => by ring

theorem linear_hr (u : NodeVec n d) (beta : Fin m → ℝ) :
    Spec.hellingerReissner (linearLaw A) (linearASPoints gps) u beta =
      beta ⬝ᵥ EAS.Spec.mulLv (calculateG (linearASPoints gps) u) u - (1 / 2) * (beta ⬝ᵥ
        calculateH (linearASPoints gps) (Spec.stateAt (linearLaw A) (linearASPoints gps) beta) *ᵥ beta) := by
  rw [mulLv_eq, calculateH_sum, Matrix.sum_mulVec, dotProduct_sum, dotProduct_sum]
  simp only [calculateG_sum, Matrix.sum_mulVec, dotProduct_sum]
  rw [Finset.sum_comm, Finset.mul_sum, ← Finset.sum_sub_distrib, Spec.hellingerReissner]
  refine Finset.sum_congr rfl fun i _ => ?_
  simp only [Spec.stateAt, linearLaw, linearASPoints, LinPoint.toPoint, LinPoint.strain, Matrix.smul_mulVec, dotProduct_smul,
    smul_eq_mul, ← Matrix.mulVec_mulVec]
  have e : ∀ x : Fin q → ℝ, beta ⬝ᵥ (gps i).2ᵀ *ᵥ x = ((gps i).2 *ᵥ beta) ⬝ᵥ x := by
    intro x
    rw [dotProduct_comm, transpose_mulVec_dot, dotProduct_comm]
  simp only [e, ← Finset.mul_sum, ← dotProduct_sum]
  rw [show (0.5 : ℝ) = 1 / 2 by norm_num]
  ring

/-- C49, linear element. With the linear strain and the compliance `A` of a linear material, matrix and forces do not depend on
the internal variables the element holds, the forces are the matrix times the displacements, the internal variables used for
the stresses have no residual, and neither have those after any update. -/
theorem as_linear (inv : Inversion q) (hinv : Spec.Inverts inv (linearLaw A) Set.univ) (hA : A.IsSymm) (hm : m ≠ 0)
    (ha : asApplicable n d = true)
    (hH : IsUnit (calculateH (linearASPoints gps) (Spec.stateAt (linearLaw A) (linearASPoints gps) 0)).det) :
    ∃ Kc, (∀ st u, Spec.Reachable inv (linearASPoints gps) st →
        calculateMatrix (linearASPoints gps) st .stiffness u 0 = some Kc) ∧
      (∀ st u, Spec.Reachable inv (linearASPoints gps) st →
        calculateVector (linearASPoints gps) st .forces u 0 = some (mul Kc u)) ∧
      (∀ st u, Spec.Reachable inv (linearASPoints gps) st →
        calculateRtilde (linearASPoints gps) (Spec.stateAt (linearLaw A) (linearASPoints gps)
          (linearBeta (linearASPoints gps) st u)) u = 0 ∧
        (1 / 2) * work (mul Kc u) u =
          Spec.hellingerReissner (linearLaw A) (linearASPoints gps) u (linearBeta (linearASPoints gps) st u)) ∧
      ∀ st u dx N, Spec.Reachable inv (linearASPoints gps) st →
        ∃ st', updateState inv (linearASPoints gps) st u N N dx = some st' ∧
          calculateRtilde (linearASPoints gps) st' (u + dx) = 0 := by
  have hinv1 := Matrix.nonsing_inv_mul _ hH
  have hinv2 := Matrix.mul_nonsing_inv _ hH
  have hst : ∀ st, Spec.Reachable inv (linearASPoints gps) st →
      st = Spec.stateAt (linearLaw A) (linearASPoints gps) st.beta := fun st h =>
    as_states inv _ Set.univ hinv _ st h fun _ => trivial
  have hreg : ∀ u beta, Spec.Regular (linearLaw A) Set.univ (linearASPoints gps) u beta := fun u beta =>
    ⟨linearLaw_contract A hA, fun i => linPoint_contract _ u, fun _ => trivial⟩
  have hHT : (calculateH (linearASPoints gps) (Spec.stateAt (linearLaw A) (linearASPoints gps) 0))ᵀ =
      calculateH (linearASPoints gps) (Spec.stateAt (linearLaw A) (linearASPoints gps) 0) := by
    have := symmetric_D _ _ _ 0 0 (pair_regular (linearLaw A) Set.univ (linearASPoints gps) 0 0 (hreg 0 0))
    rw [pair_D, Matrix.transpose_neg] at this
    exact neg_injective this
  refine ⟨fun I J => (calculateG (linearASPoints gps) 0 I)ᵀ * (calculateH (linearASPoints gps)
    (Spec.stateAt (linearLaw A) (linearASPoints gps) 0))⁻¹ * calculateG (linearASPoints gps) 0 J, ?_, ?_, ?_, ?_⟩
  · intro st u h
    rw [hst st h, pair_calculateMatrix _ _ _ _ hm _ _ ha, calculateMatrix_eq _ _ _ _ _
      (pair_regular _ _ _ _ _ (hreg u st.beta)) hm (applicable_of_as ha) 0 (fun _ _ _ _ => rfl), zero_add, pair_stiffness,
      pair_D, pair_L, linear_geometric, linearG gps u 0, linearH A gps st.beta 0, nonsing_inv_neg]
    congr 1
    funext I J
    simp [Matrix.mul_neg, Matrix.neg_mul]
  · intro st u h
    rw [hst st h, pair_calculateVector _ _ _ _ hm _ _ ha, calculateVector_eq _ _ _ _ hm (applicable_of_as ha), zero_add,
      pair_forces, pair_D, pair_L, pair_R, linear_forces, linear_residual, linearG gps u 0, linearH A gps st.beta 0,
      nonsing_inv_neg, Matrix.neg_mulVec, mulLT_neg, sub_neg_eq_add, Matrix.mulVec_sub, Matrix.mulVec_mulVec, hinv1,
      Matrix.one_mulVec, sub_eq_add_neg, mulLT_add, mulLT_neg, mul_condensed]
    congr 1
    abel
  · intro st u h
    have hb : linearBeta (linearASPoints gps) st u = (calculateH (linearASPoints gps)
        (Spec.stateAt (linearLaw A) (linearASPoints gps) 0))⁻¹ *ᵥ EAS.Spec.mulLv (calculateG (linearASPoints gps) 0) u := by
      rw [linearBeta, mulL_eq, linearG gps u 0, hst st h]
      rfl
    constructor
    · rw [linear_residual, hb, linearH A gps _ 0, Matrix.mulVec_mulVec, hinv2, Matrix.one_mulVec, linearG gps u 0, sub_self]
    · rw [linear_hr, linearH A gps (linearBeta (linearASPoints gps) st u) 0, hb, Matrix.mulVec_mulVec, hinv2, Matrix.one_mulVec, linearG gps u 0, mul_condensed,
        work_mulLT]
      ring
  · intro st u dx N h
    have h1 : updateState inv (linearASPoints gps) st u N N dx = some (calculateMaterialInversion inv (linearASPoints gps)
        { st with beta := st.beta + (calculateH (linearASPoints gps) st)⁻¹ *ᵥ
          (calculateRtilde (linearASPoints gps) st u + mulL (calculateG (linearASPoints gps) u) dx) }) := by
      unfold updateState
      simp only [ha, Bool.not_true, Bool.false_eq_true, if_false, ne_eq, not_true_eq_false]
    refine ⟨_, h1, ?_⟩
    rw [hst _ (.update _ _ _ _ _ _ h h1), linear_residual]
    simp only [calculateMaterialInversion]
    rw [hst st h, linear_residual, mulL_eq, linearG gps (u + dx) 0, linearG gps u 0]
    change _ - calculateH (linearASPoints gps) (Spec.stateAt (linearLaw A) (linearASPoints gps) 0) *ᵥ (st.beta +
      (calculateH (linearASPoints gps) (Spec.stateAt (linearLaw A) (linearASPoints gps) 0))⁻¹ *ᵥ (_ -
        calculateH (linearASPoints gps) (Spec.stateAt (linearLaw A) (linearASPoints gps) 0) *ᵥ st.beta + _)) = 0
    rw [Matrix.mulVec_add, Matrix.mulVec_mulVec, hinv2, Matrix.one_mulVec]
    have : EAS.Spec.mulLv (calculateG (linearASPoints gps) 0) (u + dx) =
        EAS.Spec.mulLv (calculateG (linearASPoints gps) 0) u + EAS.Spec.mulLv (calculateG (linearASPoints gps) 0) dx := by
      simp only [mulLv_eq, Pi.add_apply, Matrix.mulVec_add, Finset.sum_add_distrib]
    rw [this]
    abel

/-- C49, softening. With moduli `C` that are symmetric and positive definite and nonnegative weights the energy of the
condensed element is the greatest value of the Hellinger-Reissner energy over the internal variables, and not greater than
the energy of the displacement element: the assumed stress never stiffens the element. -/
theorem as_linear_maximum (C : Matrix (Fin q) (Fin q) ℝ) (hC : C.IsSymm) (hpos : ∀ e, e ≠ 0 → 0 < e ⬝ᵥ C *ᵥ e)
    (hw : ∀ i, 0 ≤ (gps i).1.detJ * (gps i).1.weight) (inv : Inversion q)
    (hinv : Spec.Inverts inv (linearLaw C⁻¹) Set.univ) (hm : m ≠ 0) (ha : asApplicable n d = true)
    (hH : IsUnit (calculateH (linearASPoints gps) (Spec.stateAt (linearLaw C⁻¹) (linearASPoints gps) 0)).det)
    (st : State q m g) (hst : Spec.Reachable inv (linearASPoints gps) st) (Kc : BlockMat n d) (u : NodeVec n d)
    (hK : calculateMatrix (linearASPoints gps) st .stiffness u 0 = some Kc) :
    (∀ beta, Spec.hellingerReissner (linearLaw C⁻¹) (linearASPoints gps) u beta ≤ (1 / 2) * work (mul Kc u) u) ∧
      (1 / 2) * work (mul Kc u) u ≤ ∑ i, (gps i).1.detJ * (gps i).1.weight * (linearLaw C).energy ((gps i).1.strain u) := by
  have hCu : IsUnit C.det := by
    rw [isUnit_iff_ne_zero]
    intro h0
    obtain ⟨v, hv, hD⟩ := Matrix.exists_mulVec_eq_zero_iff.2 h0
    have := hpos v hv
    rw [hD, dotProduct_zero] at this
    exact lt_irrefl _ this
  have hCi : C⁻¹.IsSymm := by
    unfold Matrix.IsSymm
    rw [Matrix.transpose_nonsing_inv, hC.eq]
  have hCC : ∀ S, C *ᵥ (C⁻¹ *ᵥ S) = S := fun S => by
    rw [Matrix.mulVec_mulVec, Matrix.mul_nonsing_inv _ hCu, Matrix.one_mulVec]
  have hnn : ∀ e, 0 ≤ e ⬝ᵥ C *ᵥ e := by
    intro e
    by_cases h0 : e = 0
    · rw [h0, zero_dotProduct]
    · exact (hpos e h0).le
  have hnn' : ∀ S, 0 ≤ S ⬝ᵥ C⁻¹ *ᵥ S := by
    intro S
    have := hnn (C⁻¹ *ᵥ S)
    rwa [hCC, dotProduct_comm] at this
  obtain ⟨Kc', h1, h2, h3, -⟩ := as_linear C⁻¹ gps inv hinv hCi hm ha hH
  obtain rfl : Kc = Kc' := Option.some.inj (hK.symm.trans (h1 st u hst))
  obtain ⟨hR, hE⟩ := h3 st u hst
  generalize linearBeta (linearASPoints gps) st u = b at hR hE
  rw [hE]
  constructor
  · intro beta
    rw [linear_residual, sub_eq_zero] at hR
    rw [linear_hr, linear_hr, hR, linearH C⁻¹ gps beta b]
    have hsym : (calculateH (linearASPoints gps) (Spec.stateAt (linearLaw C⁻¹) (linearASPoints gps) b))ᵀ =
        calculateH (linearASPoints gps) (Spec.stateAt (linearLaw C⁻¹) (linearASPoints gps) b) := by
      have := symmetric_D _ _ _ u b (pair_regular (linearLaw C⁻¹) Set.univ (linearASPoints gps) u b
        ⟨linearLaw_contract C⁻¹ hCi, fun i => linPoint_contract _ u, fun _ => trivial⟩)
      rw [pair_D, Matrix.transpose_neg] at this
      exact neg_injective this
    have hpsd : ∀ x : Fin m → ℝ, 0 ≤ x ⬝ᵥ
        calculateH (linearASPoints gps) (Spec.stateAt (linearLaw C⁻¹) (linearASPoints gps) b) *ᵥ x := by
      intro x
      rw [calculateH_sum, Matrix.sum_mulVec, dotProduct_sum]
      refine Finset.sum_nonneg fun i _ => ?_
      rw [Matrix.smul_mulVec, dotProduct_smul, smul_eq_mul]
      refine mul_nonneg (hw i) ?_
      rw [← Matrix.mulVec_mulVec, ← Matrix.mulVec_mulVec, dotProduct_comm, transpose_mulVec_dot, dotProduct_comm]
      exact hnn' _
    generalize calculateH (linearASPoints gps) (Spec.stateAt (linearLaw C⁻¹) (linearASPoints gps) b) = H at *
    have h4 := hpsd (beta - b)
    have h5 : b ⬝ᵥ H *ᵥ beta = beta ⬝ᵥ H *ᵥ b := by
      have := transpose_mulVec_dot H b beta
      rw [hsym] at this
      rw [← this, dotProduct_comm]
    rw [Matrix.mulVec_sub, sub_dotProduct, dotProduct_sub, dotProduct_sub, h5] at h4
    linarith
  · rw [Spec.hellingerReissner]
    refine Finset.sum_le_sum fun i _ => mul_le_mul_of_nonneg_left ?_ (hw i)
    show (gps i).2 *ᵥ b ⬝ᵥ (gps i).1.strain u - 0.5 * ((gps i).2 *ᵥ b ⬝ᵥ C⁻¹ *ᵥ ((gps i).2 *ᵥ b)) ≤
      0.5 * ((gps i).1.strain u ⬝ᵥ C *ᵥ (gps i).1.strain u)
    generalize (gps i).2 *ᵥ b = S
    generalize (gps i).1.strain u = E
    have h4 := hnn (E - C⁻¹ *ᵥ S)
    have h5 : (C⁻¹ *ᵥ S) ⬝ᵥ C *ᵥ E = E ⬝ᵥ S := by
      have := transpose_mulVec_dot C (C⁻¹ *ᵥ S) E
      rw [hC.eq, hCC] at this
      rw [← this, dotProduct_comm]
    rw [Matrix.mulVec_sub, sub_dotProduct, dotProduct_sub, dotProduct_sub, hCC, h5] at h4
    rw [dotProduct_comm S E, dotProduct_comm S (C⁻¹ *ᵥ S), show (0.5 : ℝ) = 1 / 2 by norm_num]
    linarith

end Linear

/-! ### The energy the element returns -/

/-- The claim on the energy: along states in which the internal variables have no residual, the forces the element returns are
the gradient of the energy it returns. -/
def Spec.EnergyGradient (c : Law q) (gps : Fin g → ASPoint n d q m) : Prop :=
  ∀ (u v : NodeVec n d) (al : ℝ → Fin m → ℝ) (w : Fin m → ℝ) (f : NodeVec n d), HasDerivAt al w 0 →
    (∀ᶠ t in nhds (0 : ℝ), calculateRtilde gps (Spec.stateAt c gps (al t)) (u + t • v) = 0) →
    calculateVector gps (Spec.stateAt c gps (al 0)) .forces u 0 = some f →
    ∃ energy : ℝ → ℝ, (∀ t, calculateScalar gps (Spec.stateAt c gps (al t)) (u + t • v) = some (energy t)) ∧
      HasDerivAt energy (work f v) 0

theorem calculateScalar_eq (ha : asApplicable n d = true) (c : Law q) (gps : Fin g → ASPoint n d q m) (u : NodeVec n d)
    (beta : Fin m → ℝ) : calculateScalar gps (Spec.stateAt c gps beta) u = some (∑ i,
      (gps i).point.detJ * (gps i).point.weight * ((gps i).P *ᵥ beta ⬝ᵥ (gps i).point.strain u -
        (1 / 2) * ((gps i).P *ᵥ beta ⬝ᵥ c.stress ((gps i).P *ᵥ beta)))) := by
  unfold calculateScalar
  rw [ha, Bool.not_true, if_neg (by simp)]
  congr 1
  rw [foldl_add_sum, zero_add, ← List.ofFn_eq_map, List.sum_ofFn]
  refine Finset.sum_congr rfl fun i _ => ?_
  simp only [ASPoint.value, Spec.stateAt]
  rw [show (0.5 : ℝ) = 1 / 2 by norm_num]
  ring

theorem calculateVector_equilibrium (hm : m ≠ 0) (ha : asApplicable n d = true) (c : Law q) (gps : Fin g → ASPoint n d q m)
    (u : NodeVec n d) (beta : Fin m → ℝ) (h : calculateRtilde gps (Spec.stateAt c gps beta) u = 0) :
    calculateVector gps (Spec.stateAt c gps beta) .forces u 0 = some (Spec.forces gps u beta) := by
  rw [pair_calculateVector _ _ _ _ hm _ _ ha, calculateVector_eq _ _ _ _ hm (applicable_of_as ha), zero_add, pair_forces,
    pair_R, h, Matrix.mulVec_zero, show EAS.Spec.mulLT (EAS.calculateL (pairLaw c) (pairs gps) u beta) 0 = 0 by
      funext I a; simp [EAS.Spec.mulLT], sub_zero]

/-- C74. If the complementary energy is quadratic, the energy the element returns is the Hellinger-Reissner energy, and
the forces are its gradient along all states without residual. Missing: materials with other complementary energies, for
which the claim is false, see `as_energy_false`. -/
theorem as_energy_partial (c : Law q) (dom : Set (Fin q → ℝ)) (gps : Fin g → ASPoint n d q m) (hm : m ≠ 0)
    (ha : asApplicable n d = true) (hl : LawContract c dom) (hp : ∀ u i, StrainContract (gps i).point u)
    (hd : ∀ beta i, (gps i).P *ᵥ beta ∈ dom) (hq : ∀ S ∈ dom, c.energy S = (1 / 2) * (S ⬝ᵥ c.stress S)) :
    (∀ u beta, calculateScalar gps (Spec.stateAt c gps beta) u = some (Spec.hellingerReissner c gps u beta)) ∧
      Spec.EnergyGradient c gps := by
  have h1 : ∀ u beta, calculateScalar gps (Spec.stateAt c gps beta) u = some (Spec.hellingerReissner c gps u beta) := by
    intro u beta
    rw [calculateScalar_eq ha, Spec.hellingerReissner]
    congr 1
    exact Finset.sum_congr rfl fun i _ => by rw [hq _ (hd beta i)]
  refine ⟨h1, ?_⟩
  intro u v al w f hal hR hf
  have h0 := hR.self_of_nhds
  rw [zero_smul, add_zero] at h0
  rw [calculateVector_equilibrium hm ha c gps u _ h0, Option.some.injEq] at hf
  refine ⟨fun t => Spec.hellingerReissner c gps (u + t • v) (al t), fun t => h1 _ _, ?_⟩
  have h2 := as_gradient c dom gps u (al 0) ⟨hl, hp u, hd _⟩ v al w rfl hal
  refine h2.congr_deriv ?_
  rw [hf, h0]
  simp

/-- A material with the strain `exp S` at the stress `S`, and so with the energy `E log E - E`. -/
noncomputable def Spec.exponential : Law 1 :=
  ⟨fun S => Real.exp (S 0), fun S _ => Real.exp (S 0), fun S => !![Real.exp (S 0)]⟩

theorem exponential_contract : LawContract Spec.exponential Set.univ where
  stress e de t _ h := by
    rw [hasDerivAt_pi] at h
    refine ((h 0).exp).congr_deriv ?_
    simp [Spec.exponential]
  tangent e de t _ h := by
    rw [hasDerivAt_pi] at h ⊢
    intro k
    refine ((h 0).exp).congr_deriv ?_
    fin_cases k
    simp [Spec.exponential]
  symm e _ k l := by
    fin_cases k
    fin_cases l
    rfl

/-- One point, whose strain is the first degree of freedom. -/
def Spec.onePoint : Fin 1 → ASPoint 4 2 1 1 :=
  fun _ => ⟨LinPoint.toPoint ⟨1, 1, fun I => if I = 0 then !![1, 0] else 0⟩, 1⟩

theorem onePoint_strain (u : NodeVec 4 2) : (Spec.onePoint 0).point.strain u = fun _ => u 0 0 := by
  funext k
  fin_cases k
  simp [Spec.onePoint, LinPoint.toPoint, LinPoint.strain, Fin.sum_univ_four, Matrix.mulVec, dotProduct, Fin.sum_univ_two]

/-- C74. The claim is false in general: the energy subtracts half of the product of stress and strain, which is the
complementary energy only if that is quadratic. The contract of the material holds in the example. -/
theorem as_energy_false : LawContract Spec.exponential Set.univ ∧ (∀ u i, StrainContract (Spec.onePoint i).point u) ∧
    ¬ Spec.EnergyGradient Spec.exponential Spec.onePoint := by
  refine ⟨exponential_contract, fun u i => linPoint_contract _ u, fun h => ?_⟩
  have hR : ∀ t : ℝ, -1 < t → calculateRtilde Spec.onePoint (Spec.stateAt Spec.exponential Spec.onePoint
      (fun _ => Real.log (1 + t))) ((fun I a => if I = 0 ∧ a = 0 then 1 else 0 : NodeVec 4 2) + t •
        (fun I a => if I = 0 ∧ a = 0 then 1 else 0 : NodeVec 4 2)) = 0 := by
    intro t ht
    rw [calculateRtilde_eq]
    funext k
    fin_cases k
    simp only [Finset.univ_unique, Fin.default_eq_zero, Finset.sum_singleton, onePoint_strain]
    simp [Spec.onePoint, LinPoint.toPoint, Spec.stateAt, Spec.exponential, Real.exp_log (show 0 < 1 + t by linarith)]
  have hal : HasDerivAt (fun t : ℝ => (fun _ : Fin 1 => Real.log (1 + t))) (fun _ => 1) 0 := by
    rw [hasDerivAt_pi]
    intro _
    have h1 : HasDerivAt (fun t : ℝ => 1 + t) 1 0 := (hasDerivAt_id (0 : ℝ)).const_add 1
    refine (h1.log (by norm_num)).congr_deriv ?_
    norm_num
  have hv := calculateVector_equilibrium (by decide) (by decide) Spec.exponential Spec.onePoint
    (fun I a => if I = 0 ∧ a = 0 then 1 else 0) (fun _ => Real.log (1 + 0)) (by
      have := hR 0 (by norm_num)
      rwa [zero_smul, add_zero (fun I a => _ : NodeVec 4 2)] at this)
  obtain ⟨energy, hE, hd⟩ := h _ _ _ _ _ hal (Filter.mem_of_superset (Ioi_mem_nhds (show (-1 : ℝ) < 0 by norm_num)) hR) hv
  have hE' : ∀ t, energy t = Real.log (1 + t) * (1 + t) - 1 / 2 * (Real.log (1 + t) * Real.exp (Real.log (1 + t))) := by
    intro t
    have := hE t
    rw [calculateScalar_eq (by decide), Option.some.injEq] at this
    rw [← this]
    simp only [Finset.univ_unique, Fin.default_eq_zero, Finset.sum_singleton, onePoint_strain]
    simp [Spec.onePoint, LinPoint.toPoint, Spec.exponential, dotProduct]
  have hw : work (Spec.forces Spec.onePoint (fun I a => if I = 0 ∧ a = 0 then 1 else 0 : NodeVec 4 2)
      fun _ => Real.log (1 + 0)) (fun I a => if I = 0 ∧ a = 0 then 1 else 0) = 0 := by
    have h0 : (fun _ : Fin 1 => Real.log (1 + 0)) = 0 := by
      funext
      simp
    rw [h0]
    simp [Spec.forces, work]
  rw [hw] at hd
  have h1 : HasDerivAt (fun t : ℝ => 1 + t) 1 0 := (hasDerivAt_id (0 : ℝ)).const_add 1
  have h2 := h1.log (by norm_num)
  have h3 := (h2.mul h1).sub ((h2.mul h2.exp).const_mul (1 / 2))
  have h4 := (h3.congr_of_eventuallyEq (Filter.Eventually.of_forall fun t => hE' t)).unique hd
  simp at h4
  norm_num at h4

end Ikarus.Element.AssumedStress
