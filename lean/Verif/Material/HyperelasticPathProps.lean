import Verif.Material.HyperelasticPathLemmas
import Mathlib.Analysis.Calculus.FDeriv.Symmetric
import Mathlib.Analysis.Calculus.FDeriv.CompCLM

/-!
C109: stresses and moduli of hyperelastic materials are derivatives along all motions, also where principal stretches
meet and their directions cannot be followed.
-/

namespace Ikarus

open Matrix Spec Hyperelastic
open scoped Topology

/-! ### Specification -/

/-- Near `C` the deviatoric energy is a smooth function of the tensor and the first derivative is its gradient. -/
def Spec.SmoothDev (f : DevFun) (C : M3) : Prop :=
  ∃ F : (Fin 3 → Fin 3 → ℝ) → ℝ, ContDiffAt ℝ 3 F C ∧
    ∀ᶠ A in 𝓝 (C : Fin 3 → Fin 3 → ℝ), ∀ l N, HasStretches (Matrix.of A) l N →
      f.storedEnergy l = some (F A) ∧ IsGradient f l

/-- A motion: symmetric tensors with a rate at time `t`. No principal directions are followed. -/
structure Spec.Motion (P : ℝ → M3) (dC : M3) (t : ℝ) : Prop where
  symm : ∀ᶠ s in 𝓝 t, (P s).IsSymm
  rate : HasMatDeriv P dC t

/-! ### Lemmas -/

/-- The contraction with `S` as a linear function. -/
noncomputable def ddotLin (S : M3) : (Fin 3 → Fin 3 → ℝ) →ₗ[ℝ] ℝ where
  toFun D := ddot S (Matrix.of D)
  map_add' x y := by simp only [ddot, Matrix.of_apply, Pi.add_apply, mul_add, Finset.sum_add_distrib]
  map_smul' c x := by
    simp only [ddot, Matrix.of_apply, Pi.smul_apply, smul_eq_mul, RingHom.id_apply, Finset.mul_sum]
    exact Finset.sum_congr rfl fun i _ => Finset.sum_congr rfl fun j _ => by ring

theorem matDeriv_pi {P : ℝ → M3} {dC : M3} {t : ℝ} (hP : HasMatDeriv P dC t) :
    HasDerivAt (F := Fin 3 → Fin 3 → ℝ) P dC t :=
  hasDerivAt_pi.2 fun i => hasDerivAt_pi.2 fun j => hP i j

section

variable (h : Hyperelastic) (hf : IsotropicFun h.dev) (hv : AdmissibleVF h.vol.vf) {solver : EigenSolver}
  (hs : CorrectSolver solver) {eps : ℝ} (he : eps < 1) {C : M3} {l : Fin 3 → ℝ} {N : M3}

include hf hs he

theorem energy_near (hd : SmoothDev h.dev C) (hC : HasStretches C l N) :
    ∃ F : (Fin 3 → Fin 3 → ℝ) → ℝ, ContDiffAt ℝ 3 F C ∧ ∀ᶠ A in 𝓝 (C : Fin 3 → Fin 3 → ℝ), (Matrix.of A).IsSymm →
      h.storedEnergy solver eps (Matrix.of A) = some (F A) ∧ ∃ l N, HasStretches (Matrix.of A) l N ∧ IsGradient h.dev l := by
  have p0 := hC.1 0; have p1 := hC.1 1; have p2 := hC.1 2
  obtain ⟨F, hF, eF⟩ := hd
  obtain ⟨G, hG, eG⟩ := SmoothInv.comp hC (SmoothInv.J hC) (volumetric_contDiff h.vol (by positivity))
  refine ⟨fun A => F A + G A, hF.add hG, ?_⟩
  filter_upwards [eF, eG, stretches_nearby hC] with A h1 h2 h3 hA
  obtain ⟨l', N', hA'⟩ := h3 hA
  refine ⟨?_, l', N', hA', (h1 l' N' hA').2⟩
  rw [(hyperelastic_any_basis h hf hs he (le_refl (0 : ℝ)) hA').1, (h1 l' N' hA').1, Option.map_some, h2 l' N' hA']

include hv in
theorem energy_rate {F : (Fin 3 → Fin 3 → ℝ) → ℝ} {A : Fin 3 → Fin 3 → ℝ} (hF : DifferentiableAt ℝ F A)
    (hE : ∀ᶠ B in 𝓝 A, (Matrix.of B).IsSymm → h.storedEnergy solver eps (Matrix.of B) = some (F B))
    (hA : HasStretches (Matrix.of A) l N) (hd : IsGradient h.dev l) :
    ∃ S, h.stresses solver eps (Matrix.of A) = some S ∧ S.IsSymm ∧
      ∀ D : M3, D.IsSymm → fderiv ℝ F A D = 1 / 2 * ddot S D := by
  have hconst : StretchPath (fun _ => Matrix.of A) 0 (fun _ => l) 0 (fun _ => N) 0 0 :=
    ⟨Filter.Eventually.of_forall fun _ => hA, fun _ _ => hasDerivAt_const _ _, fun _ => hasDerivAt_const _ _,
      fun _ _ => hasDerivAt_const _ _⟩
  obtain ⟨-, -, S, hS, hsym, -⟩ := hyperelastic_stress_is_derivative h hf hv hs he hconst hd
  refine ⟨S, hS, hsym, fun D hD => ?_⟩
  let φ : (Fin 3 → Fin 3 → ℝ) →ₗ[ℝ] ℝ := (fderiv ℝ F A : (Fin 3 → Fin 3 → ℝ) →ₗ[ℝ] ℝ) - (1 / 2 : ℝ) • ddotLin S
  have key := rate_ext hA φ (fun P dC l' dl N' dN hp h0 hl => ?_) hD
  · exact sub_eq_zero.1 key
  · obtain ⟨W, hW, S', hS', -, hder⟩ := hyperelastic_stress_is_derivative h hf hv hs he hp (by rw [hl]; exact hd)
    have e0 : (P 0 : Fin 3 → Fin 3 → ℝ) = A := h0
    rw [h0, hS] at hS'
    obtain rfl := Option.some.inj hS'
    have hP := matDeriv_pi hp.hC
    have h1 : HasDerivAt (fun s => F (P s)) (fderiv ℝ F A dC) 0 := by
      have hF' : HasFDerivAt F (fderiv ℝ F A) (P 0) := by rw [e0]; exact hF.hasFDerivAt
      exact hF'.comp_hasDerivAt (0 : ℝ) hP
    have h2 : W =ᶠ[𝓝 0] fun s => F (P s) := by
      have hc := hP.continuousAt
      have hE' := hc.eventually (p := fun B => (Matrix.of B).IsSymm → h.storedEnergy solver eps (Matrix.of B) = some (F B))
        (by rw [e0]; exact hE)
      filter_upwards [hE', hW, hp.stretches] with s a1 a2 a3
      have := a1 (symm_of_spectral a3.2)
      exact Option.some.inj (a2.symm.trans this)
    exact sub_eq_zero.2 (h1.unique (hder.congr_of_eventuallyEq h2.symm))

include hv in
theorem stress_near (hd : SmoothDev h.dev C) (hC : HasStretches C l N) :
    ∃ F : (Fin 3 → Fin 3 → ℝ) → ℝ, ContDiffAt ℝ 3 F C ∧ ∀ᶠ A in 𝓝 (C : Fin 3 → Fin 3 → ℝ), (Matrix.of A).IsSymm →
      h.storedEnergy solver eps (Matrix.of A) = some (F A) ∧ ∃ S, h.stresses solver eps (Matrix.of A) = some S ∧ S.IsSymm ∧
        ∀ D : M3, D.IsSymm → fderiv ℝ F A D = 1 / 2 * ddot S D := by
  obtain ⟨F, hF, hE⟩ := energy_near h hf hs he hd hC
  refine ⟨F, hF, ?_⟩
  filter_upwards [hE, eventually_eventually_nhds.2 hE, hF.eventually (by decide)] with A h1 h2 h3 hA
  obtain ⟨e, l', N', hA', hg⟩ := h1 hA
  exact ⟨e, energy_rate h hf hv hs he (h3.differentiableAt (by decide)) (h2.mono fun B hB hs => (hB hs).1) hA' hg⟩

end

/-- The symmetric unit tensors. -/
noncomputable def symUnit (i j : Fin 3) : M3 := (1 / 2 : ℝ) • (Matrix.single i j 1 + Matrix.single j i 1)

theorem symUnit_symm (i j : Fin 3) : (symUnit i j).IsSymm := by
  unfold symUnit IsSymm
  rw [transpose_smul, transpose_add, transpose_single, transpose_single, add_comm]

theorem symUnit_comm (i j : Fin 3) : symUnit i j = symUnit j i := by
  unfold symUnit
  rw [add_comm]

theorem ddot_single (S : M3) (i j : Fin 3) : ddot S (Matrix.single i j 1) = S i j := by
  unfold ddot
  rw [Finset.sum_eq_single i, Finset.sum_eq_single j]
  · rw [Matrix.single_apply_same, mul_one]
  · intro b _ hb
    rw [Matrix.single_apply_of_ne _ _ _ _ _ (fun hh => hb hh.2.symm), mul_zero]
  · simp
  · intro a _ ha
    refine Finset.sum_eq_zero fun b _ => ?_
    rw [Matrix.single_apply_of_ne _ _ _ _ _ (fun hh => ha hh.1.symm), mul_zero]
  · simp

theorem ddot_symUnit (S : M3) (i j : Fin 3) : ddot S (symUnit i j) = 1 / 2 * (S i j + S j i) := by
  have e : ddot S (symUnit i j) = 1 / 2 * (ddot S (Matrix.single i j 1) + ddot S (Matrix.single j i 1)) := by
    unfold ddot symUnit
    simp only [Matrix.smul_apply, Matrix.add_apply, smul_eq_mul, mul_add, Finset.sum_add_distrib, Finset.mul_sum]
    congr 1 <;> exact Finset.sum_congr rfl fun _ _ => Finset.sum_congr rfl fun _ _ => by ring
  rw [e, ddot_single, ddot_single]

theorem contract_ddot (M : Tensor4 ℝ 3) (X : M3) (i j : Fin 3) : contract M X i j = ddot (Matrix.of (M i j)) X := rfl

theorem motion_rate_symm {P : ℝ → M3} {dC : M3} {t : ℝ} (hP : Motion P dC t) : dC.IsSymm := by
  refine Matrix.IsSymm.ext fun i j => ?_
  have e : (fun s => P s j i) =ᶠ[𝓝 t] fun s => P s i j := by
    filter_upwards [hP.symm] with s h
    exact h.apply i j
  exact (hP.rate j i).unique ((hP.rate i j).congr_of_eventuallyEq e)

theorem moduli_second_pair (h : Hyperelastic) (hf : IsotropicFun h.dev) {solver : EigenSolver} (hs : CorrectSolver solver)
    {eps epsEq : ℝ} (he : eps < 1) (heq : 0 ≤ epsEq) {C : M3} {l : Fin 3 → ℝ} {N : M3} (hC : HasStretches C l N)
    {M : Tensor4 ℝ 3} (hM : h.tangentModuli solver eps epsEq C = some M) (a b c d : Fin 3) : M a b c d = M a b d c := by
  rw [(hyperelastic_any_basis h hf hs he heq hC).2.2] at hM
  obtain ⟨L, -, rfl⟩ := Option.map_eq_some_iff.1 hM
  have hCi : ∀ i j, C⁻¹ i j = C⁻¹ j i := by
    have hsym : (C⁻¹).IsSymm := by
      rw [IsSymm, transpose_nonsing_inv, symm_of_spectral hC.2]
    exact fun i j => hsym.apply j i
  show (_ + _ : ℝ) = (_ + _ : ℝ)
  congr 1
  · unfold transformDeviatoricTangentModuli
    refine Finset.sum_congr rfl fun i _ => Finset.sum_congr rfl fun k _ => ?_
    simp only [dyadic, colDyad, Matrix.add_apply]
    split <;> ring
  · unfold volModuli
    rw [hCi c d]
    ring

theorem contract_half (M : Tensor4 ℝ 3) (D : M3) (i j : Fin 3) :
    contract M ((1 / 2 : ℝ) • D) i j = 1 / 2 * ddot (Matrix.of (M i j)) D := by
  simp only [contract, ddot, Matrix.smul_apply, Matrix.of_apply, smul_eq_mul, Finset.mul_sum]
  exact Finset.sum_congr rfl fun i _ => Finset.sum_congr rfl fun j _ => by ring

theorem second_rate {F : (Fin 3 → Fin 3 → ℝ) → ℝ} {c : Fin 3 → Fin 3 → ℝ} (hd : DifferentiableAt ℝ (fderiv ℝ F) c)
    (E : Fin 3 → Fin 3 → ℝ) :
    HasFDerivAt (fun A => 2 * fderiv ℝ F A E) ((2 : ℝ) • (fderiv ℝ (fderiv ℝ F) c).flip E) c := by
  have h1 := (hd.hasFDerivAt.clm_apply (hasFDerivAt_const E c)).const_mul (2 : ℝ)
  refine h1.congr_fderiv ?_
  rw [ContinuousLinearMap.comp_zero, zero_add]

/-! ### Stresses and moduli along all motions -/

/-- C109. The energy of a hyperelastic material has a rate along every motion through an admissible state, and the
stresses are its derivative. The principal directions need not be differentiable or continuous along the motion. -/
theorem hyperelastic_stress_any_motion (h : Hyperelastic) (hf : IsotropicFun h.dev) (hv : AdmissibleVF h.vol.vf)
    {solver : EigenSolver} (hs : CorrectSolver solver) {eps : ℝ} (he : eps < 1) {P : ℝ → M3} {dC : M3} {t : ℝ}
    (hP : Motion P dC t) {l : Fin 3 → ℝ} {N : M3} (hC : HasStretches (P t) l N) (hd : SmoothDev h.dev (P t)) :
    ∃ W : ℝ → ℝ, (∀ᶠ s in 𝓝 t, h.storedEnergy solver eps (P s) = some (W s)) ∧
      ∃ S, h.stresses solver eps (P t) = some S ∧ S.IsSymm ∧ HasDerivAt W (1 / 2 * ddot S dC) t := by
  obtain ⟨F, hF, hE⟩ := stress_near h hf hv hs he hd hC
  have hr := matDeriv_pi hP.rate
  obtain ⟨-, S, hS, hsym, hD⟩ := hE.self_of_nhds hP.symm.self_of_nhds
  refine ⟨fun s => F (P s), ?_, S, hS, hsym, ?_⟩
  · filter_upwards [hr.continuousAt.eventually hE, hP.symm] with s h1 h2
    exact (h1 h2).1
  · rw [← hD dC (motion_rate_symm hP)]
    have hF' : HasFDerivAt F (fderiv ℝ F (P t)) (P t) := (hF.differentiableAt (by decide)).hasFDerivAt
    exact hF'.comp_hasDerivAt t hr

/-- C109. The moduli of a hyperelastic material are the derivative of the stresses along every motion through a state
whose principal stretches are equal or further apart than the tolerance, and have the minor symmetries and the major
symmetry. -/
theorem hyperelastic_moduli_any_motion (h : Hyperelastic) (hf : IsotropicFun h.dev) (hv : AdmissibleVF h.vol.vf)
    {solver : EigenSolver} (hs : CorrectSolver solver) {eps epsEq : ℝ} (he : eps < 1) (heq : 0 ≤ epsEq)
    {P : ℝ → M3} {dC : M3} {t : ℝ} (hP : Motion P dC t) {l : Fin 3 → ℝ} {N : M3} (hC : HasStretches (P t) l N)
    (hd : SmoothDev h.dev (P t)) (hH : IsHessian h.dev l)
    (hpair : ∀ i j, l i = l j ∨ ¬ floatCmpEq epsEq (l i) (l j)) :
    ∃ S : ℝ → M3, (∀ᶠ s in 𝓝 t, h.stresses solver eps (P s) = some (S s)) ∧
      ∃ M, h.tangentModuli solver eps epsEq (P t) = some M ∧ HasMatDeriv S (contract M ((1 / 2 : ℝ) • dC)) t ∧
        MinorSymmetric M ∧ ∀ i j k l, M i j k l = M k l i j := by
  obtain ⟨F, hF, hE⟩ := stress_near h hf hv hs he hd hC
  generalize hCt : P t = C at *
  have hstress : ∀ A : Fin 3 → Fin 3 → ℝ, ((Matrix.of A).IsSymm → h.storedEnergy solver eps (Matrix.of A) = some (F A) ∧
      ∃ S, h.stresses solver eps (Matrix.of A) = some S ∧ S.IsSymm ∧
        ∀ D : M3, D.IsSymm → fderiv ℝ F A D = 1 / 2 * ddot S D) → (Matrix.of A).IsSymm →
      h.stresses solver eps (Matrix.of A) = some (Matrix.of fun i j => 2 * fderiv ℝ F A (symUnit i j)) := by
    intro A hA hs
    obtain ⟨-, S, hS, hsym, hD⟩ := hA hs
    rw [hS]
    congr 1
    ext i j
    rw [Matrix.of_apply, hD _ (symUnit_symm i j), ddot_symUnit, hsym.apply]
    ring
  have hdF : DifferentiableAt ℝ (fderiv ℝ F) C := by
    have : ContDiffAt ℝ 2 (fderiv ℝ F) C := hF.fderiv_right (by norm_num)
    exact this.differentiableAt (by decide)
  -- derivative of the entries of the stresses
  have hG : ∀ i j, HasFDerivAt (fun A => 2 * fderiv ℝ F A (symUnit i j))
      ((2 : ℝ) • (fderiv ℝ (fderiv ℝ F) C).flip (symUnit i j)) C := by
    exact fun i j => second_rate hdF (symUnit i j)
  -- the moduli
  have hconst : StretchPath (fun _ => C) 0 (fun _ => l) 0 (fun _ => N) 0 0 :=
    ⟨Filter.Eventually.of_forall fun _ => hC, fun _ _ => hasDerivAt_const _ _, fun _ => hasDerivAt_const _ _,
      fun _ _ => hasDerivAt_const _ _⟩
  obtain ⟨-, -, M, hM, -⟩ := hyperelastic_moduli_is_derivative h hf hv hs he heq hconst hH hpair
  have hsec := moduli_second_pair h hf hs he heq hC hM
  have hmod : ∀ i j, ∀ D : M3, D.IsSymm →
      2 * fderiv ℝ (fderiv ℝ F) C D (symUnit i j) = contract M ((1 / 2 : ℝ) • D) i j := by
    intro i j D hD
    let φ : (Fin 3 → Fin 3 → ℝ) →ₗ[ℝ] ℝ :=
      (((2 : ℝ) • (fderiv ℝ (fderiv ℝ F) C).flip (symUnit i j) : (Fin 3 → Fin 3 → ℝ) →L[ℝ] ℝ) : (Fin 3 → Fin 3 → ℝ) →ₗ[ℝ] ℝ) -
        (1 / 2 : ℝ) • ddotLin (Matrix.of (M i j))
    have key := rate_ext hC φ (fun Q dQ l' dl N' dN hp h0 hl => ?_) hD
    · rw [contract_half]
      exact sub_eq_zero.1 key
    · obtain ⟨S, hS, M', hM', hder⟩ := hyperelastic_moduli_is_derivative h hf hv hs he heq hp (by rw [hl]; exact hH)
        (by rw [hl]; exact hpair)
      rw [h0, hM] at hM'
      obtain rfl := Option.some.inj hM'
      have hQ := matDeriv_pi hp.hC
      have h1 : HasDerivAt (fun s => 2 * fderiv ℝ F (Q s) (symUnit i j))
          (((2 : ℝ) • (fderiv ℝ (fderiv ℝ F) C).flip (symUnit i j)) dQ) 0 := by
        have hG' := hG i j
        rw [← h0] at hG' ⊢
        exact hG'.comp_hasDerivAt (0 : ℝ) hQ
      have h2 : (fun s => S s i j) =ᶠ[𝓝 0] fun s => 2 * fderiv ℝ F (Q s) (symUnit i j) := by
        have hE' := hQ.continuousAt.eventually (by rw [h0]; exact hE)
        filter_upwards [hE', hS, hp.stretches] with s a1 a2 a3
        have := hstress (Q s) a1 (symm_of_spectral a3.2)
        have := Option.some.inj (a2.symm.trans this)
        exact congrFun (congrFun this i) j
      have h3 := h1.unique ((hder i j).congr_of_eventuallyEq h2.symm)
      rw [contract_half] at h3
      exact sub_eq_zero.2 h3
  have hunit : ∀ i j k m, 2 * fderiv ℝ (fderiv ℝ F) C (symUnit k m) (symUnit i j) = 1 / 2 * M i j k m := by
    intro i j k m
    rw [hmod i j _ (symUnit_symm k m)]
    rw [contract_half, ddot_symUnit, Matrix.of_apply, Matrix.of_apply, hsec i j m k]
    ring
  have hr := matDeriv_pi hP.rate
  refine ⟨fun s => Matrix.of fun i j => 2 * fderiv ℝ F (P s) (symUnit i j), ?_, M, hM, ?_, fun i j k m => ⟨?_, hsec i j k m⟩,
    fun i j k m => ?_⟩
  · have hE' := hr.continuousAt.eventually (by rw [hCt]; exact hE)
    filter_upwards [hE', hP.symm] with s a1 a2
    exact hstress (P s) a1 a2
  · intro i j
    rw [← hmod i j dC (motion_rate_symm hP)]
    have hG' := hG i j
    rw [← hCt] at hG' ⊢
    exact hG'.comp_hasDerivAt t hr
  · have h1 := hunit i j k m
    have h2 := hunit j i k m
    rw [symUnit_comm j i] at h2
    linarith
  · have hsymm : IsSymmSndFDerivAt ℝ F C := hF.isSymmSndFDerivAt (by simp; norm_num)
    have h1 := hunit i j k m
    have h2 := hunit k m i j
    rw [hsymm (symUnit k m) (symUnit i j)] at h1
    linarith

/-- The stresses near a state as derivatives of a smooth energy. -/
theorem stress_entries (h : Hyperelastic) (hf : IsotropicFun h.dev) (hv : AdmissibleVF h.vol.vf)
    {solver : EigenSolver} (hs : CorrectSolver solver) {eps : ℝ} (he : eps < 1) {C : M3} {l : Fin 3 → ℝ} {N : M3}
    (hC : HasStretches C l N) (hd : SmoothDev h.dev C) :
    ∃ F : (Fin 3 → Fin 3 → ℝ) → ℝ, ContDiffAt ℝ 3 F C ∧ ∀ᶠ A in 𝓝 (C : Fin 3 → Fin 3 → ℝ), (Matrix.of A).IsSymm →
      h.stresses solver eps (Matrix.of A) = some (Matrix.of fun i j => 2 * fderiv ℝ F A (symUnit i j)) := by
  obtain ⟨F, hF, hE⟩ := stress_near h hf hv hs he hd hC
  refine ⟨F, hF, ?_⟩
  filter_upwards [hE] with A hA hs
  obtain ⟨-, S, hS, hsym, hD⟩ := hA hs
  rw [hS]
  congr 1
  ext i j
  rw [Matrix.of_apply, hD _ (symUnit_symm i j), ddot_symUnit, hsym.apply]
  ring

theorem map_units (φ : (Fin 3 → Fin 3 → ℝ) →ₗ[ℝ] ℝ) (d : Fin 3 → Fin 3 → ℝ) (E : Fin 3 → Fin 3 → Fin 3 → Fin 3 → ℝ) :
    φ (∑ k, ∑ m, d k m • E k m) = ∑ k, ∑ m, d k m * φ (E k m) := by
  simp only [map_sum, map_smul, smul_eq_mul]

theorem symm_sum_units {D : M3} (hD : D.IsSymm) : D = ∑ k, ∑ m, D k m • symUnit k m := by
  have h1 := hD.apply 0 1
  have h2 := hD.apply 0 2
  have h3 := hD.apply 1 2
  ext i j
  simp only [Fin.sum_univ_three, symUnit, Matrix.add_apply, Matrix.smul_apply, smul_eq_mul, Matrix.single_apply]
  fin_cases i <;> fin_cases j <;> simp <;> linarith

/-- C109. The stresses of a hyperelastic material are differentiable at every admissible state, with one fourth order tensor
for all motions, which has the minor symmetries and the major symmetry. Nothing is assumed about the distances of the
principal stretches. -/
theorem hyperelastic_stress_differentiable (h : Hyperelastic) (hf : IsotropicFun h.dev) (hv : AdmissibleVF h.vol.vf)
    {solver : EigenSolver} (hs : CorrectSolver solver) {eps : ℝ} (he : eps < 1) {C : M3} {l : Fin 3 → ℝ} {N : M3}
    (hC : HasStretches C l N) (hd : SmoothDev h.dev C) :
    ∃ M : Tensor4 ℝ 3, MinorSymmetric M ∧ (∀ i j k l, M i j k l = M k l i j) ∧
      ∀ P dC t, Motion P dC t → P t = C → ∃ S : ℝ → M3, (∀ᶠ s in 𝓝 t, h.stresses solver eps (P s) = some (S s)) ∧
        HasMatDeriv S (contract M ((1 / 2 : ℝ) • dC)) t := by
  obtain ⟨F, hF, hE⟩ := stress_entries h hf hv hs he hC hd
  have hdF : DifferentiableAt ℝ (fderiv ℝ F) C := by
    have : ContDiffAt ℝ 2 (fderiv ℝ F) C := hF.fderiv_right (by norm_num)
    exact this.differentiableAt (by decide)
  have hsymm : IsSymmSndFDerivAt ℝ F C := hF.isSymmSndFDerivAt (by simp; norm_num)
  let B : (Fin 3 → Fin 3 → ℝ) → (Fin 3 → Fin 3 → ℝ) →ₗ[ℝ] ℝ :=
    fun E => (((2 : ℝ) • (fderiv ℝ (fderiv ℝ F) C).flip E : (Fin 3 → Fin 3 → ℝ) →L[ℝ] ℝ) : (Fin 3 → Fin 3 → ℝ) →ₗ[ℝ] ℝ)
  refine ⟨fun i j k m => 2 * B (symUnit i j) (symUnit k m), fun i j k m =>
    ⟨congrArg (fun X : M3 => 2 * B X (symUnit k m)) (symUnit_comm i j),
      congrArg (fun X : M3 => 2 * B (symUnit i j) X) (symUnit_comm k m)⟩, fun i j k m => ?_, fun P dC t hP hCt => ?_⟩
  · show 2 * (2 * fderiv ℝ (fderiv ℝ F) C (symUnit k m) (symUnit i j)) =
      2 * (2 * fderiv ℝ (fderiv ℝ F) C (symUnit i j) (symUnit k m))
    rw [hsymm (symUnit k m) (symUnit i j)]
  · have hr := matDeriv_pi hP.rate
    refine ⟨fun s => Matrix.of fun i j => 2 * fderiv ℝ F (P s) (symUnit i j), ?_, fun i j => ?_⟩
    · have hE' := hr.continuousAt.eventually (by rw [hCt]; exact hE)
      filter_upwards [hE', hP.symm] with s a1 a2
      exact a1 a2
    · have hG' := second_rate hdF (symUnit i j)
      have h1 : HasDerivAt (fun s => 2 * fderiv ℝ F (P s) (symUnit i j)) (B (symUnit i j) dC) t := by
        rw [← hCt] at hG'
        have := hG'.comp_hasDerivAt t hr
        rw [hCt] at this
        exact this
      refine h1.congr_deriv ?_
      have e : B (symUnit i j) dC = ∑ k, ∑ m, dC k m * B (symUnit i j) (symUnit k m) :=
        (congrArg (B (symUnit i j)) (symm_sum_units (motion_rate_symm hP))).trans (map_units (B (symUnit i j)) dC fun k m => symUnit k m)
      rw [e]
      simp only [contract, Matrix.smul_apply, smul_eq_mul]
      exact Finset.sum_congr rfl fun k _ => Finset.sum_congr rfl fun m _ => by ring

/-! ### The deviatoric functions of the library -/

theorem smoothDev_of {f : DevFun} {C : M3} {φ : (Fin 3 → ℝ) → ℝ} (hφ : SmoothInv φ C)
    (hE : ∀ l, f.storedEnergy l = some (φ l)) (hg : ∀ l, (∀ a, 0 < l a) → IsGradient f l) : SmoothDev f C := by
  obtain ⟨F, hF, eF⟩ := hφ
  refine ⟨F, hF, ?_⟩
  filter_upwards [eF] with A h1 l N hA
  exact ⟨by rw [hE, h1 l N hA], hg l hA.1⟩

theorem noDev_derivatives (l : Fin 3 → ℝ) : IsGradient noDev l ∧ IsHessian noDev l :=
  ⟨IsGradient.of_some (fun _ => 0) 0 rfl fun p dp t _ _ => ⟨Filter.Eventually.of_forall fun _ => rfl, by
      simpa using hasDerivAt_const t (0 : ℝ)⟩,
    IsHessian.of_some (fun _ => 0) 0 rfl rfl fun p dp t _ _ => ⟨Filter.Eventually.of_forall fun _ => rfl, fun a => by
      simpa using hasDerivAt_const t (0 : ℝ)⟩⟩

/-- C109. The deviatoric functions of the library have smooth energies with the stresses as gradients: all of them at
every tensor with positive principal values, that of Gent where its check of the stretches passes. -/
theorem library_smooth {C : M3} {l : Fin 3 → ℝ} {N : M3} (hC : HasStretches C l N) :
    SmoothDev noDev C ∧ (∀ mu, SmoothDev (blatzKo mu) C) ∧
    (∀ n (o : Ogden n), (∀ i, o.alpha i ≠ 0) → (n ≤ 3 → SmoothDev o.dev C) ∧ SmoothDev o.total C) ∧
    (∀ (g : Gent) eps, 0 ≤ eps → 0 < g.Jm → ((g.dev eps).storedEnergy l).isSome → SmoothDev (g.dev eps) C) ∧
    (∀ m : ArrudaBoyce, SmoothDev m.dev C) ∧
    ∀ n (pex qex : Fin n → ℕ) (mat : Fin n → ℝ) v, InvariantBased.construct pex qex mat = some v → ∀ eps,
      SmoothDev (v.dev eps) C := by
  have p0 := hC.1 0; have p1 := hC.1 1; have p2 := hC.1 2
  refine ⟨smoothDev_of (SmoothInv.const 0) (fun _ => rfl) fun l _ => (noDev_derivatives l).1, fun mu => ?_,
    fun n o ho => ⟨fun hn => ?_, ?_⟩, fun g eps he hJm hsome => ?_, fun m => ?_, fun n pex qex mat v hv eps => ?_⟩
  · refine smoothDev_of (φ := BlatzKo.storedEnergy mu) ?_ (fun _ => rfl) fun l hl => (blatzKo_derivatives mu l hl).1
    refine SmoothInv.congr ((SmoothInv.const (mu / 2)).mul (((SmoothInv.power hC (-2)).add
      ((SmoothInv.const 2).mul (SmoothInv.J hC))).sub (SmoothInv.const 5))) fun l hl => ?_
    unfold BlatzKo.storedEnergy
    have e : ∀ a, l a ^ (-2 : ℝ) = (l a)⁻¹ ^ 2 := fun a => by rw [Real.rpow_neg (hl a).le, Real.rpow_two, inv_pow]
    simp only [e]
  · refine smoothDev_of (φ := o.storedEnergyDev) ?_ (fun _ => rfl)
      fun l hl => (ogden_dev_derivatives_partial hn o ho l hl).1
    refine SmoothInv.congr (SmoothInv.sum fun i => (SmoothInv.const (o.mu i / o.alpha i)).mul
      (((SmoothInv.rpowJ hC (-1 / 3 * o.alpha i)).mul (SmoothInv.power hC (o.alpha i))).sub (SmoothInv.const 3)))
      fun l hl => ?_
    have q0 := hl 0; have q1 := hl 1; have q2 := hl 2
    unfold Ogden.storedEnergyDev
    refine Finset.sum_congr rfl fun i _ => ?_
    congr 2
    rw [Finset.mul_sum]
    refine Finset.sum_congr rfl fun a _ => ?_
    simp only [deviatoricStretches, determinantFromPrincipalValues]
    rw [Real.mul_rpow (by positivity) (hl a).le, ← Real.rpow_mul (by positivity)]
  · refine smoothDev_of (φ := o.storedEnergyTotal) ?_ (fun _ => rfl) fun l hl => (ogden_total_derivatives o ho l hl).1
    exact SmoothInv.sum fun i => ((SmoothInv.const (o.mu i / o.alpha i)).mul
      ((SmoothInv.power hC (o.alpha i)).sub (SmoothInv.const 3))).sub ((SmoothInv.const (o.mu i)).mul
        (SmoothInv.comp hC (SmoothInv.J hC) (g := Real.log) (Real.contDiffAt_log.2 (by positivity))))
  · have hW := ((gent_derivatives g eps he hJm l hC.1).2.2.1 hsome).1
    have hchk : ¬ floatCmpLe eps g.Jm (DeviatoricInvariants.W1 l - 3) := by
      intro hcon
      have : (g.dev eps).storedEnergy l = none := by
        simp [Gent.dev, Gent.checkJm, hcon]
      rw [this] at hsome
      simp at hsome
    obtain ⟨F, hF, eF⟩ := SmoothInv.comp hC (SmoothInv.W1 hC)
      (g := fun x => -(g.mu / 2) * g.Jm * Real.log (1 - (x - 3) / g.Jm))
      (contDiffAt_const.mul ((contDiffAt_const.sub ((contDiffAt_id.sub contDiffAt_const).div_const g.Jm)).log (by
        have : (DeviatoricInvariants.W1 l - 3) / g.Jm < 1 := by rw [div_lt_one hJm]; linarith
        show 1 - (DeviatoricInvariants.W1 l - 3) / g.Jm ≠ 0
        linarith)))
    obtain ⟨F1, hF1, e1⟩ := SmoothInv.W1 hC
    have hopen : ∀ᶠ x in 𝓝 (DeviatoricInvariants.W1 l), ¬ floatCmpLe eps g.Jm (x - 3) :=
      floatCmpLe_closed (f := fun _ => g.Jm) (g := fun x => x - 3) continuousAt_const (by fun_prop) he hchk
    have hne : ∀ᶠ A in 𝓝 (C : Fin 3 → Fin 3 → ℝ), ¬ floatCmpLe eps g.Jm (F1 A - 3) := by
      rw [e1.self_of_nhds l N hC] at hopen
      exact hF1.continuousAt.eventually hopen
    refine ⟨F, hF, ?_⟩
    filter_upwards [eF, e1, hne] with A h1 h2 h3 l' N' hA
    have hE : (g.dev eps).storedEnergy l' = some (F A) := by
      rw [← h1 l' N' hA]
      rw [← h2 l' N' hA] at h3
      simp [Gent.dev, Gent.checkJm, h3]
    exact ⟨hE, ((gent_derivatives g eps he hJm l' hA.1).2.2.1 (by rw [hE]; rfl)).2.1⟩
  · refine smoothDev_of (φ := fun l => (∑ i : Fin 5, ArrudaBoyce.alphas i * m.beta ^ (i : ℕ) *
      (DeviatoricInvariants.W1 l ^ ((i : ℕ) + 1) - 3 ^ ((i : ℕ) + 1))) * m.mu) ?_ (fun _ => rfl)
      fun l hl => (arrudaBoyce_derivatives m l hl).1
    exact (SmoothInv.sum fun i => (SmoothInv.const _).mul (((SmoothInv.W1 hC).pow _).sub (SmoothInv.const _))).mul
      (SmoothInv.const _)
  · refine smoothDev_of (φ := fun l => ∑ i, v.mat i * (DeviatoricInvariants.W1 l - 3) ^ v.pex i *
      (DeviatoricInvariants.W2 l - 3) ^ v.qex i) ?_ (fun _ => rfl)
      fun l hl => (invariantBased_derivatives pex qex mat v hv eps l hl).1
    exact SmoothInv.sum fun i => ((SmoothInv.const _).mul (((SmoothInv.W1 hC).sub (SmoothInv.const 3)).pow _)).mul
      (((SmoothInv.W2 hC).sub (SmoothInv.const 3)).pow _)

theorem stretches_one : HasStretches (1 : M3) (fun _ => 1) 1 :=
  ⟨fun _ => one_pos, ⟨by simp, by simp⟩⟩

theorem motion_line {C X : M3} (hC : C.IsSymm) (hX : X.IsSymm) : Motion (fun s => C + s • X) X 0 := by
  refine ⟨Filter.Eventually.of_forall fun s => ?_, fun i j => ?_⟩
  · show (C + s • X)ᵀ = C + s • X
    rw [transpose_add, transpose_smul, hC, hX]
  · have h := ((hasDerivAt_id (0 : ℝ)).mul_const (X i j)).const_add (C i j)
    rw [one_mul] at h
    exact h

/-- A shear of the undeformed state, where all directions are principal: the hypotheses hold for the material of
Blatz and Ko. -/
example : ∃ (P : ℝ → M3) (dC : M3), Motion P dC 0 ∧ dC ≠ 0 ∧ HasStretches (P 0) (fun _ => 1) 1 ∧
    SmoothDev (blatzKo 1) (P 0) ∧ IsHessian (blatzKo 1) (fun _ => 1) ∧
    ∀ i j : Fin 3, (fun _ => (1 : ℝ)) i = (fun _ => (1 : ℝ)) j ∨ ¬ floatCmpEq 1 ((fun _ => (1 : ℝ)) i) ((fun _ => (1 : ℝ)) j) := by
  have h0 : (1 : M3) + (0 : ℝ) • symUnit 0 1 = 1 := by simp
  refine ⟨fun s => 1 + s • symUnit 0 1, symUnit 0 1, motion_line (by simp [IsSymm]) (symUnit_symm 0 1), ?_, ?_, ?_,
    (blatzKo_derivatives 1 _ fun _ => one_pos).2.1, fun i j => Or.inl rfl⟩
  · intro h
    have := congrFun (congrFun h 0) 1
    simp [symUnit] at this
  · show HasStretches (1 + (0 : ℝ) • symUnit 0 1) _ _
    rw [h0]
    exact stretches_one
  · show SmoothDev (blatzKo 1) (1 + (0 : ℝ) • symUnit 0 1)
    rw [h0]
    exact (library_smooth stretches_one).2.1 1

/-! ### Within the tolerance -/

/-- The full claim: the moduli are the derivative of the stresses along all motions, whatever the principal stretches are. -/
def Spec.ModuliExact (epsEq : ℝ) : Prop :=
  ∀ (h : Hyperelastic) (solver : EigenSolver) (eps : ℝ) (P : ℝ → M3) (dC : M3) (t : ℝ) (l : Fin 3 → ℝ) (N : M3) (M : Tensor4 ℝ 3),
    IsotropicFun h.dev → AdmissibleVF h.vol.vf → CorrectSolver solver → eps < 1 → Motion P dC t → HasStretches (P t) l N →
    SmoothDev h.dev (P t) → IsHessian h.dev l → h.tangentModuli solver eps epsEq (P t) = some M →
    ∃ S : ℝ → M3, (∀ᶠ s in 𝓝 t, h.stresses solver eps (P s) = some (S s)) ∧
      HasMatDeriv S (contract M ((1 / 2 : ℝ) • dC)) t

/-- Ogden's material with one exponent and no volumetric part. -/
noncomputable def exampleOgden : Hyperelastic := ⟨(⟨fun _ => 1, fun _ => 2⟩ : Ogden 1).total, ⟨0, .f0⟩⟩

theorem stretches_diagonal {l : Fin 3 → ℝ} (hl : ∀ a, 0 < l a) : HasStretches (diagonal fun a => l a ^ 2) l 1 :=
  ⟨hl, ⟨by simp, by simp⟩⟩

theorem exampleOgden_moduli {l : Fin 3 → ℝ} (hl : ∀ a, 0 < l a) {solver : EigenSolver} (hs : CorrectSolver solver)
    {eps epsEq : ℝ} (he : eps < 1) (heq : 0 ≤ epsEq) (h01 : floatCmpEq epsEq (l 0) (l 1)) :
    ∃ M, exampleOgden.tangentModuli solver eps epsEq (diagonal fun a => l a ^ 2) = some M ∧
      M 0 1 0 1 = 1 / l 0 ^ 4 ∧ M 1 0 0 1 = 1 / l 1 ^ 4 := by
  have hB := (hyperelastic_any_basis exampleOgden ((library_isotropic).2.2.1 1 _).2 hs he heq (stretches_diagonal hl)).2.2
  have h10 : floatCmpEq epsEq (l 1) (l 0) := by
    unfold floatCmpEq at h01 ⊢
    rwa [abs_sub_comm, max_comm]
  have q0 := hl 0; have q1 := hl 1
  obtain ⟨L, hL⟩ : ∃ L, exampleOgden.dev.tangentModuli epsEq l = some L := ⟨_, rfl⟩
  obtain ⟨g, H, -, hH, e1, e2, -⟩ := tangentModuli_entries hL
  obtain rfl : (⟨fun _ => 1, fun _ => 2⟩ : Ogden 1).secondDerivativeTotal l = H := Option.some.inj hH
  have hd : ∀ i, L i i i i = 2 / l i ^ 4 := fun i => by
    have := (hl i).ne'
    rw [e1]
    simp only [Ogden.secondDerivativeTotal, if_true, Fin.sum_univ_one, Real.rpow_two]
    field_simp
    ring
  have ho : ∀ i j, i ≠ j → L i i j j = 0 := fun i j hij => by
    rw [e1]
    simp only [Ogden.secondDerivativeTotal, if_neg hij, mul_zero]
  rw [hL, Option.map_some] at hB
  have hvol : ∀ a b c d, volModuli (exampleOgden.vol.firstDerivative (l 0 * l 1 * l 2))
      (exampleOgden.vol.secondDerivative (l 0 * l 1 * l 2)) (diagonal fun a => l a ^ 2) (l 0 * l 1 * l 2) a b c d = 0 := by
    intro a b c d
    simp [volModuli, exampleOgden, Volumetric.firstDerivative, Volumetric.secondDerivative]
  refine ⟨_, hB, ?_, ?_⟩
  · show transformDeviatoricTangentModuli L 1 0 1 0 1 + volModuli _ _ _ _ 0 1 0 1 = _
    rw [hvol, add_zero]
    have : transformDeviatoricTangentModuli L 1 0 1 0 1 = L 0 1 0 1 := by
      simp [transformDeviatoricTangentModuli, dyadic, colDyad, Fin.sum_univ_three, Matrix.one_apply]
    rw [this, e2 0 1 (by decide) h01, hd, ho 0 1 (by decide)]
    ring
  · show transformDeviatoricTangentModuli L 1 1 0 0 1 + volModuli _ _ _ _ 1 0 0 1 = _
    rw [hvol, add_zero]
    have : transformDeviatoricTangentModuli L 1 1 0 0 1 = L 1 0 1 0 := by
      simp [transformDeviatoricTangentModuli, dyadic, colDyad, Fin.sum_univ_three, Matrix.one_apply]
    rw [this, e2 1 0 (by decide) h10, hd, ho 1 0 (by decide)]
    ring

/-- C109, within the tolerance: the claim is false for every positive tolerance. There are states with
different principal stretches at which the moduli do not have the minor symmetries; as the stresses are symmetric, they are not
their derivative along a shear. -/
theorem hyperelastic_moduli_within_tolerance {epsEq : ℝ} (heq : 0 < epsEq) : ¬ ModuliExact epsEq ∧
    ∀ (solver : EigenSolver) (eps : ℝ), CorrectSolver solver → eps < 1 → ∀ l : Fin 3 → ℝ, (∀ a, 0 < l a) → l 0 ≠ l 1 →
      floatCmpEq epsEq (l 0) (l 1) → ∃ M, exampleOgden.tangentModuli solver eps epsEq (diagonal fun a => l a ^ 2) = some M ∧
        ¬ MinorSymmetric M := by
  have hM : ∀ (solver : EigenSolver) (eps : ℝ), CorrectSolver solver → eps < 1 → ∀ l : Fin 3 → ℝ, (∀ a, 0 < l a) → l 0 ≠ l 1 →
      floatCmpEq epsEq (l 0) (l 1) → ∃ M, exampleOgden.tangentModuli solver eps epsEq (diagonal fun a => l a ^ 2) = some M ∧
        M 0 1 0 1 ≠ M 1 0 0 1 := by
    intro solver eps hs he l hl hne h01
    obtain ⟨M, hM, e1, e2⟩ := exampleOgden_moduli hl hs he heq.le h01
    refine ⟨M, hM, fun h => hne ?_⟩
    have q0 := hl 0; have q1 := hl 1
    rw [e1, e2, one_div, one_div, _root_.inv_inj] at h
    exact (pow_left_inj₀ q0.le q1.le (by decide)).1 h
  refine ⟨fun h => ?_, fun solver eps hs he l hl hne h01 => ?_⟩
  · obtain ⟨solver, hs⟩ := hyperelastic_hypotheses.1
    obtain ⟨l, hl⟩ : ∃ l : Fin 3 → ℝ, l = ![1, 1 + epsEq, 1] := ⟨_, rfl⟩
    have hpos : ∀ a, 0 < l a := by
      intro a
      rw [hl]
      fin_cases a <;> simp <;> linarith
    have hst := stretches_diagonal hpos
    have h01 : floatCmpEq epsEq (l 0) (l 1) := by
      rw [hl]
      simp only [floatCmpEq, Matrix.cons_val_zero, Matrix.cons_val_one]
      rw [show (1 : ℝ) - (1 + epsEq) = -epsEq by ring, abs_neg, abs_of_pos heq, abs_one]
      nlinarith [le_max_left (1 : ℝ) |1 + epsEq|]
    obtain ⟨M, hMo, hne⟩ := hM solver 0 hs one_pos l hpos (by rw [hl]; simp; exact heq.ne') h01
    have ho := ogden_total_derivatives (⟨fun _ => 1, fun _ => 2⟩ : Ogden 1) (fun _ => two_ne_zero) l hpos
    have hsm := ((library_smooth hst).2.2.1 1 ⟨fun _ => 1, fun _ => 2⟩ fun _ => two_ne_zero).2
    have hP := motion_line (C := diagonal fun a => l a ^ 2) (X := symUnit 0 1) (by simp [IsSymm]) (symUnit_symm 0 1)
    have h0 : (diagonal fun a => l a ^ 2 : M3) + (0 : ℝ) • symUnit 0 1 = diagonal fun a => l a ^ 2 := by simp
    have hiso := ((library_isotropic).2.2.1 1 (⟨fun _ => 1, fun _ => 2⟩ : Ogden 1)).2
    obtain ⟨S, hS, hder⟩ := h exampleOgden solver 0 _ _ 0 l 1 M hiso trivial hs one_pos hP (by simp only [h0]; exact hst)
      (by simp only [h0]; exact hsm) ho.2.1 (by simp only [h0]; exact hMo)
    obtain ⟨M', hmin, -, hM'⟩ := hyperelastic_stress_differentiable exampleOgden hiso trivial hs (eps := 0) one_pos hst hsm
    obtain ⟨S', hS', hder'⟩ := hM' _ _ 0 hP h0
    have e : ∀ i j, (fun s => S s i j) =ᶠ[𝓝 0] fun s => S' s i j := fun i j => by
      filter_upwards [hS, hS'] with s a1 a2
      rw [Option.some.inj (a1.symm.trans a2)]
    have e1 := (hder 0 1).unique ((hder' 0 1).congr_of_eventuallyEq (e 0 1))
    have e2 := (hder 1 0).unique ((hder' 1 0).congr_of_eventuallyEq (e 1 0))
    have e3 : contract M' ((1 / 2 : ℝ) • symUnit 0 1) 0 1 = contract M' ((1 / 2 : ℝ) • symUnit 0 1) 1 0 :=
      Finset.sum_congr rfl fun k _ => Finset.sum_congr rfl fun m _ => by rw [(hmin 0 1 k m).1]
    have hsec := moduli_second_pair exampleOgden hiso hs one_pos heq.le hst hMo
    rw [e3, ← e2, contract_half, contract_half, ddot_symUnit, ddot_symUnit] at e1
    simp only [Matrix.of_apply] at e1
    rw [hsec 0 1 1 0, hsec 1 0 1 0] at e1
    exact hne (by linarith)
  · obtain ⟨M, hMo, hne'⟩ := hM solver eps hs he l hl hne h01
    exact ⟨M, hMo, fun hmin => hne' (hmin 0 1 0 1).1⟩

example := hyperelastic_moduli_within_tolerance (show (0 : ℝ) < 1 / 10 ^ 8 by norm_num)

end Ikarus
