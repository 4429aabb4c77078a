import Verif.Material.HyperelasticDerivProps
import Mathlib.Analysis.Analytic.Binomial
import Mathlib.Analysis.Matrix.Normed
import Mathlib.Analysis.Calculus.ContDiff.Defs
import Mathlib.Analysis.Calculus.FDeriv.Analytic
import Mathlib.Topology.Algebra.Module.FiniteDimension

/-!
Symmetric functions of the principal stretches are smooth functions of the right Cauchy-Green tensor.
-/

namespace Ikarus

open Matrix Spec
open scoped Topology

/-! ### Powers of matrices with real exponents -/

section Abstract

variable (𝔸 : Type*) [NormedRing 𝔸] [NormedAlgebra ℝ 𝔸] [NormOneClass 𝔸] [CompleteSpace 𝔸]

omit [CompleteSpace 𝔸] in
theorem binomial_radius (s : ℝ) : 1 ≤ (binomialSeries 𝔸 s).radius := by
  have h : (binomialSeries 𝔸 s).radius = (binomialSeries ℝ s).radius := by
    unfold FormalMultilinearSeries.radius
    have : ∀ n, ‖binomialSeries 𝔸 s n‖ = ‖binomialSeries ℝ s n‖ := fun n => by
      rw [binomialSeries, binomialSeries, FormalMultilinearSeries.ofScalars_norm, FormalMultilinearSeries.ofScalars_norm]
    simp only [this]
  rw [h]
  exact binomialSeries_radius_ge_one

/-- The power `(1 + X) ^ s`. -/
theorem exists_power (s : ℝ) : ∃ f : 𝔸 → 𝔸, (∀ X, ‖X‖ < 1 → ContDiffAt ℝ 3 f X) ∧
    ∀ X, ‖X‖ < 1 → HasSum (fun n => Ring.choose s n • X ^ n) (f X) := by
  have hb := (binomialSeries 𝔸 s).hasFPowerSeriesOnBall (lt_of_lt_of_le one_pos (binomial_radius 𝔸 s))
  have hm : ∀ X : 𝔸, ‖X‖ < 1 → X ∈ Metric.eball (0 : 𝔸) (binomialSeries 𝔸 s).radius := fun X hX => by
    rw [Metric.mem_eball, edist_zero_right]
    refine lt_of_lt_of_le ?_ (binomial_radius 𝔸 s)
    rw [← ofReal_norm]
    exact ENNReal.ofReal_lt_one.2 hX
  refine ⟨(binomialSeries 𝔸 s).sum, fun X hX => (hb.analyticAt_of_mem (hm X hX)).contDiffAt, fun X hX => ?_⟩
  have := hb.hasSum (hm X hX)
  simp only [binomialSeries_apply, zero_add] at this
  simpa using this

end Abstract

theorem real_power (s : ℝ) {x : ℝ} (hx : |x| < 1) : HasSum (fun n => Ring.choose s n * x ^ n) ((1 + x) ^ s) := by
  have := (Real.one_add_rpow_hasFPowerSeriesOnBall_zero (a := s)).hasSum (y := x) (by
    rw [Metric.mem_eball, edist_zero_right, ← ofReal_norm]
    exact ENNReal.ofReal_lt_one.2 hx)
  simp only [binomialSeries_apply, zero_add] at this
  simpa using this

section Power

attribute [local instance] Matrix.linftyOpNormedRing Matrix.linftyOpNormedAlgebra

theorem pow_spectral {Q : M3} {nu : Fin 3 → ℝ} (hQ : Qᵀ * Q = 1) (n : ℕ) :
    (Q * diagonal nu * Qᵀ) ^ n = Q * diagonal (fun a => nu a ^ n) * Qᵀ := by
  have hQ' : Q * Qᵀ = 1 := mul_eq_one_comm.1 hQ
  induction n with
  | zero => simp [hQ']
  | succ n ih =>
    rw [pow_succ, ih]
    calc Q * diagonal (fun a => nu a ^ n) * Qᵀ * (Q * diagonal nu * Qᵀ)
        = Q * diagonal (fun a => nu a ^ n) * (Qᵀ * Q) * diagonal nu * Qᵀ := by simp only [Matrix.mul_assoc]
      _ = Q * diagonal (fun a => nu a ^ (n + 1)) * Qᵀ := by
        rw [hQ, Matrix.mul_one, Matrix.mul_assoc Q, diagonal_mul_diagonal]
        simp only [pow_succ]

theorem trace_spectral {Q : M3} {nu : Fin 3 → ℝ} (hQ : Qᵀ * Q = 1) : (Q * diagonal nu * Qᵀ).trace = ∑ a, nu a := by
  rw [Matrix.trace_mul_comm, ← Matrix.mul_assoc, hQ, Matrix.one_mul, Matrix.trace_diagonal]

theorem eigenvalue_le {X Q : M3} {nu : Fin 3 → ℝ} (hQ : Qᵀ * Q = 1) (hX : X = Q * diagonal nu * Qᵀ) (a : Fin 3) : |nu a| ≤ ‖X‖ := by
  have h1 : X *ᵥ (Q *ᵥ Pi.single a 1) = nu a • (Q *ᵥ Pi.single a 1) := by
    rw [hX, mulVec_mulVec, Matrix.mul_assoc, hQ, Matrix.mul_one, ← mulVec_mulVec]
    have : diagonal nu *ᵥ Pi.single a 1 = nu a • Pi.single a (1 : ℝ) := by
      ext i
      by_cases h : i = a
      · subst h; simp
      · simp [h]
    rw [this, mulVec_smul]
  have h2 : Q *ᵥ Pi.single a 1 ≠ 0 := by
    intro h0
    have := congrArg (Qᵀ *ᵥ ·) h0
    simp only [mulVec_mulVec, hQ, one_mulVec, mulVec_zero] at this
    simpa using congrFun this a
  have h3 := Matrix.linfty_opNorm_mulVec X (Q *ᵥ Pi.single a 1)
  rw [h1, norm_smul, Real.norm_eq_abs] at h3
  exact le_of_mul_le_mul_right h3 (norm_pos_iff.2 h2)

theorem binomial_trace {s : ℝ} {P X Q : M3} {nu : Fin 3 → ℝ} (hQ : Qᵀ * Q = 1) (hX : X = Q * diagonal nu * Qᵀ) (h1 : ‖X‖ < 1)
    (h2 : HasSum (fun n => Ring.choose s n • X ^ n) P) : P.trace = ∑ a, (1 + nu a) ^ s := by
  have h3 : HasSum (fun n => Ring.choose s n * (X ^ n).trace) P.trace := by
    have := h2.map (Matrix.traceAddMonoidHom (Fin 3) ℝ) (continuous_id.matrix_trace)
    simpa [Function.comp_def] using this
  refine h3.unique ?_
  have h5 : (fun n => Ring.choose s n * (X ^ n).trace) = fun n => ∑ a, Ring.choose s n * nu a ^ n := by
    funext n
    rw [hX, pow_spectral hQ, trace_spectral hQ, Finset.mul_sum]
  rw [h5]
  exact hasSum_sum fun a _ => real_power s ((eigenvalue_le hQ hX a).trans_lt h1)

/-- Near a tensor with stretches the sum of the powers of the stretches is a smooth function of the components. -/
theorem powerSum_smooth (alpha : ℝ) {C : M3} {l : Fin 3 → ℝ} {N : M3} (h : HasStretches C l N) :
    ∃ F : (Fin 3 → Fin 3 → ℝ) → ℝ, ContDiffAt ℝ 3 F C ∧
      ∀ᶠ A in 𝓝 (C : Fin 3 → Fin 3 → ℝ), ∀ l' N', HasStretches (Matrix.of A) l' N' → ∑ a, l' a ^ alpha = F A := by
  obtain ⟨f, hf1, hf2⟩ := exists_power M3 (alpha / 2)
  obtain ⟨hl, hN⟩ := h
  obtain ⟨c, hc⟩ : ∃ c : ℝ, c = l 0 ^ 2 + l 1 ^ 2 + l 2 ^ 2 := ⟨_, rfl⟩
  have hp : ∀ a, 0 < l a ^ 2 := fun a => pow_pos (hl a) 2
  have hcp : 0 < c := by rw [hc]; linarith [hp 0, hp 1, hp 2]
  have hlc : ∀ a, l a ^ 2 ≤ c := fun a => by
    rw [hc]
    fin_cases a <;> simp <;> linarith [hp 0, hp 1, hp 2]
  let Xl : (Fin 3 → Fin 3 → ℝ) →ₗ[ℝ] M3 :=
    { toFun := fun A => c⁻¹ • (Nᵀ * Matrix.of A * N)
      map_add' := fun A B => by
        rw [← Matrix.of_add_of]
        rw [Matrix.mul_add, Matrix.add_mul, smul_add]
      map_smul' := fun r A => by
        rw [← Matrix.smul_of, Matrix.mul_smul, Matrix.smul_mul, smul_comm]
        rfl }
  have hXc : Continuous fun A => Xl A - 1 := (LinearMap.continuous_of_finiteDimensional Xl).sub continuous_const
  have hX0 : Xl C - 1 = diagonal fun a => l a ^ 2 / c - 1 := by
    show c⁻¹ • (Nᵀ * C * N) - 1 = _
    have e : Nᵀ * C * N = diagonal fun a => l a ^ 2 := by
      rw [hN.decomp, Matrix.mul_assoc, Matrix.mul_assoc (N * _), hN.orth, Matrix.mul_one, ← Matrix.mul_assoc, hN.orth, Matrix.one_mul]
    rw [e, ← diagonal_smul, ← diagonal_one, diagonal_sub]
    congr 1
    funext a
    simp [div_eq_inv_mul]
  have hX1 : ‖Xl C - 1‖ < 1 := by
    rw [hX0, Matrix.linfty_opNorm_diagonal, pi_norm_lt_iff one_pos]
    intro a
    rw [Real.norm_eq_abs, abs_lt]
    have h1 : 0 < l a ^ 2 / c := div_pos (hp a) hcp
    have h2 : l a ^ 2 / c ≤ 1 := (div_le_one hcp).2 (hlc a)
    constructor <;> linarith
  refine ⟨fun A => c ^ (alpha / 2) * (f (Xl A - 1)).trace, ?_, ?_⟩
  · refine contDiffAt_const.mul ?_
    have ht : ContDiff ℝ 3 fun A : M3 => A.trace :=
      (LinearMap.toContinuousLinearMap (Matrix.traceLinearMap (Fin 3) ℝ ℝ)).contDiff
    refine ht.contDiffAt.comp (C : Fin 3 → Fin 3 → ℝ) (f := fun A => f (Xl A - 1)) ?_
    refine ContDiffAt.comp (C : Fin 3 → Fin 3 → ℝ) (g := f) (f := fun A => Xl A - 1)
      (hf1 _ hX1) ?_
    exact ((LinearMap.toContinuousLinearMap Xl).contDiff.sub contDiff_const).contDiffAt
  · have hev : ∀ᶠ A in 𝓝 (C : Fin 3 → Fin 3 → ℝ), ‖Xl A - 1‖ < 1 :=
      (hXc.norm.continuousAt).eventually (gt_mem_nhds hX1)
    filter_upwards [hev] with A hA l' N' h'
    obtain ⟨hl', hN'⟩ := h'
    have hNN : N * Nᵀ = 1 := mul_eq_one_comm.1 hN.orth
    have hQ : (Nᵀ * N')ᵀ * (Nᵀ * N') = 1 := by
      rw [transpose_mul, transpose_transpose, Matrix.mul_assoc, ← Matrix.mul_assoc N, hNN, Matrix.one_mul, hN'.orth]
    have hQ' : (Nᵀ * N') * (Nᵀ * N')ᵀ = 1 := mul_eq_one_comm.1 hQ
    have hX : Xl A - 1 = (Nᵀ * N') * diagonal (fun a => l' a ^ 2 / c - 1) * (Nᵀ * N')ᵀ := by
      have h1 : diagonal (fun a => l' a ^ 2 / c - 1) = c⁻¹ • diagonal (fun a => l' a ^ 2) - 1 := by
        rw [← diagonal_smul, ← diagonal_one, diagonal_sub]
        congr 1
        funext a
        simp [div_eq_inv_mul]
      rw [h1, Matrix.mul_sub, Matrix.sub_mul, Matrix.mul_one, hQ', Matrix.mul_smul, Matrix.smul_mul]
      show c⁻¹ • (Nᵀ * Matrix.of A * N) - 1 = _
      rw [hN'.decomp, transpose_mul, transpose_transpose]
      simp only [Matrix.mul_assoc]
    rw [binomial_trace hQ hX hA (hf2 _ hA), Finset.mul_sum]
    refine Finset.sum_congr rfl fun a _ => ?_
    have h3 : 1 + (l' a ^ 2 / c - 1) = l' a ^ 2 / c := by ring
    rw [h3, Real.div_rpow (by positivity) hcp.le, mul_div_cancel₀ _ (Real.rpow_pos_of_pos hcp _).ne', ← Real.rpow_natCast,
      ← Real.rpow_mul (hl' a).le]
    congr 1
    push_cast
    ring

end Power

end Ikarus
