import Verif.Material.AnyPathLemmas
import Mathlib.Analysis.SpecialFunctions.Pow.Deriv
import Mathlib.Analysis.SpecialFunctions.Sqrt
import Mathlib.Analysis.SpecialFunctions.Log.Deriv

/-!
Lemmas for `HyperelasticPathProps`: energies that are smooth functions of the tensor, stretches of nearby tensors.
-/

namespace Ikarus

open Matrix Spec Hyperelastic
open scoped Topology

/-! ### Stretches of nearby tensors -/

theorem posDef_of_stretches {C : M3} {l : Fin 3 → ℝ} {N : M3} (h : HasStretches C l N) :
    ∃ m : ℝ, 0 < m ∧ ∀ x : Fin 3 → ℝ, m * (x 0 ^ 2 + x 1 ^ 2 + x 2 ^ 2) ≤ x ⬝ᵥ (C *ᵥ x) := by
  obtain ⟨m, hm, hml⟩ : ∃ m : ℝ, 0 < m ∧ ∀ a, m ≤ l a ^ 2 := by
    have h0 : ∀ a, 0 < l a ^ 2 := fun a => pow_pos (h.1 a) 2
    refine ⟨min (l 0 ^ 2) (min (l 1 ^ 2) (l 2 ^ 2)), lt_min (h0 0) (lt_min (h0 1) (h0 2)), fun a => ?_⟩
    fin_cases a
    · exact min_le_left _ _
    · exact (min_le_right _ _).trans (min_le_left _ _)
    · exact (min_le_right _ _).trans (min_le_right _ _)
  refine ⟨m, hm, fun x => ?_⟩
  have h1 : N * Nᵀ = 1 := mul_eq_one_comm.1 h.2.orth
  have h2 : x ⬝ᵥ (C *ᵥ x) = ∑ a, l a ^ 2 * (Nᵀ *ᵥ x) a ^ 2 := by
    rw [h.2.decomp, Matrix.mul_assoc, ← mulVec_mulVec, ← mulVec_mulVec, dotProduct_mulVec, ← mulVec_transpose]
    simp only [dotProduct, mulVec_diagonal, Fin.sum_univ_three]
    ring
  have h3 : x 0 ^ 2 + x 1 ^ 2 + x 2 ^ 2 = ∑ a, (Nᵀ *ᵥ x) a ^ 2 := by
    have e : (Nᵀ *ᵥ x) ⬝ᵥ (Nᵀ *ᵥ x) = x ⬝ᵥ x := by
      rw [dotProduct_mulVec, ← mulVec_transpose, transpose_transpose, mulVec_mulVec, h1, one_mulVec]
    simp only [dotProduct, Fin.sum_univ_three] at e
    rw [Fin.sum_univ_three]
    linarith
  rw [h2, h3, Finset.mul_sum]
  exact Finset.sum_le_sum fun a _ => mul_le_mul_of_nonneg_right (hml a) (sq_nonneg _)

theorem stretches_nearby {C : M3} {l : Fin 3 → ℝ} {N : M3} (h : HasStretches C l N) :
    ∀ᶠ A in 𝓝 (C : Fin 3 → Fin 3 → ℝ), (Matrix.of A).IsSymm → ∃ l' N', HasStretches (Matrix.of A) l' N' := by
  obtain ⟨m, hm, hC⟩ := posDef_of_stretches h
  have hev : ∀ᶠ A in 𝓝 (C : Fin 3 → Fin 3 → ℝ), ∀ i j, |A i j - C i j| < m / 4 := by
    refine Filter.eventually_all.2 fun i => Filter.eventually_all.2 fun j => ?_
    have hc : ContinuousAt (fun A : Fin 3 → Fin 3 → ℝ => A i j) C := (continuous_apply_apply i j).continuousAt
    have hb := hc.eventually (Metric.ball_mem_nhds _ (show 0 < m / 4 by linarith))
    filter_upwards [hb] with A hA
    exact hA
  filter_upwards [hev] with A hA hs
  refine hyperelastic_hypotheses.2 _ (Matrix.PosDef.of_dotProduct_mulVec_pos ?_ fun x hx => ?_)
  · rw [IsHermitian, conjTranspose_eq_transpose_of_trivial]
    exact hs
  · have hb : ∀ i j, |A i j - C i j| ≤ m / 4 := fun i j => (hA i j).le
    have hpos : 0 < x 0 ^ 2 + x 1 ^ 2 + x 2 ^ 2 := by
      by_contra h0
      refine hx (funext fun i => ?_)
      have e0 : x 0 ^ 2 = 0 := by nlinarith [sq_nonneg (x 0), sq_nonneg (x 1), sq_nonneg (x 2)]
      have e1 : x 1 ^ 2 = 0 := by nlinarith [sq_nonneg (x 0), sq_nonneg (x 1), sq_nonneg (x 2)]
      have e2 : x 2 ^ 2 = 0 := by nlinarith [sq_nonneg (x 0), sq_nonneg (x 1), sq_nonneg (x 2)]
      fin_cases i
      · exact pow_eq_zero_iff two_ne_zero |>.1 e0
      · exact pow_eq_zero_iff two_ne_zero |>.1 e1
      · exact pow_eq_zero_iff two_ne_zero |>.1 e2
    have h1 : star x ⬝ᵥ (Matrix.of A *ᵥ x) = x ⬝ᵥ (C *ᵥ x) + ∑ i, ∑ j, (A i j - C i j) * (x i * x j) := by
      simp only [dotProduct, mulVec, Fin.sum_univ_three, star_trivial, Matrix.of_apply]
      ring
    have h2 : ∀ i j, -(m / 8 * (x i ^ 2 + x j ^ 2)) ≤ (A i j - C i j) * (x i * x j) := fun i j => by
      have h3 : |(A i j - C i j) * (x i * x j)| ≤ m / 4 * ((x i ^ 2 + x j ^ 2) / 2) := by
        rw [abs_mul]
        refine mul_le_mul (hb i j) ?_ (abs_nonneg _) (by linarith)
        rw [abs_le]
        constructor <;> nlinarith [sq_nonneg (x i - x j), sq_nonneg (x i + x j)]
      have := (abs_le.1 h3).1
      linarith
    rw [h1]
    have h4 := hC x
    have h5 : ∑ i, ∑ j, -(m / 8 * (x i ^ 2 + x j ^ 2)) ≤ ∑ i, ∑ j, (A i j - C i j) * (x i * x j) :=
      Finset.sum_le_sum fun i _ => Finset.sum_le_sum fun j _ => h2 i j
    have h6 : ∑ i, ∑ j, -(m / 8 * (x i ^ 2 + x j ^ 2)) = -(3 / 4 * m * (x 0 ^ 2 + x 1 ^ 2 + x 2 ^ 2)) := by
      simp only [Fin.sum_univ_three]
      ring
    rw [h6] at h5
    nlinarith [mul_pos hm hpos]

theorem det_stretches_sq {C : M3} {l : Fin 3 → ℝ} {N : M3} (h : HasStretches C l N) : √C.det = l 0 * l 1 * l 2 := by
  have p0 := h.1 0; have p1 := h.1 1; have p2 := h.1 2
  have e := congrArg det h.2.orth
  rw [det_mul, det_transpose, det_one] at e
  rw [h.2.decomp, det_mul, det_mul, det_transpose, det_diagonal, Fin.prod_univ_three, mul_right_comm, e, one_mul,
    show l 0 ^ 2 * l 1 ^ 2 * l 2 ^ 2 = (l 0 * l 1 * l 2) ^ 2 by ring, Real.sqrt_sq (by positivity)]

theorem det_contDiff (C : M3) : ContDiffAt ℝ 3 (fun A : Fin 3 → Fin 3 → ℝ => (Matrix.of A).det) (C : Fin 3 → Fin 3 → ℝ) := by
  have h : ∀ i j, ContDiffAt ℝ 3 (fun A : Fin 3 → Fin 3 → ℝ => A i j) C := fun i j => by fun_prop
  simp only [Matrix.det_fin_three, Matrix.of_apply]
  exact (((((((h 0 0).mul (h 1 1)).mul (h 2 2)).sub (((h 0 0).mul (h 1 2)).mul (h 2 1))).sub
    (((h 0 1).mul (h 1 0)).mul (h 2 2))).add (((h 0 1).mul (h 1 2)).mul (h 2 0))).add
    (((h 0 2).mul (h 1 0)).mul (h 2 1))).sub (((h 0 2).mul (h 1 1)).mul (h 2 0))

theorem volumetric_contDiff (v : Volumetric) {J : ℝ} (hJ : 0 < J) : ContDiffAt ℝ 3 v.storedEnergy J := by
  have h1 : ContDiffAt ℝ 3 (fun J : ℝ => J) J := contDiffAt_id
  have hlog : ContDiffAt ℝ 3 Real.log J := Real.contDiffAt_log.2 hJ.ne'
  have hpow : ∀ b : ℝ, ContDiffAt ℝ 3 (fun J : ℝ => J ^ b) J := fun b => Real.contDiffAt_rpow_const_of_ne hJ.ne'
  have hinv : ∀ n : ℕ, ContDiffAt ℝ 3 (fun J : ℝ => (J ^ n)⁻¹) J := fun n => (h1.pow n).inv (pow_pos hJ n).ne'
  obtain ⟨k, vf⟩ := v
  refine ContDiffAt.mul (f := fun _ => k) (g := vf.storedEnergy) contDiffAt_const ?_
  cases vf with
  | f0 => exact contDiffAt_const
  | f1 => exact contDiffAt_const.mul ((h1.sub contDiffAt_const).pow 2)
  | f2 => exact contDiffAt_const.mul (((h1.sub contDiffAt_const).pow 2).add (hlog.pow 2))
  | f3 => exact contDiffAt_const.mul (hlog.pow 2)
  | f4 b =>
    exact contDiffAt_const.mul (((contDiffAt_const.div (hpow b) (Real.rpow_pos_of_pos hJ b).ne').sub contDiffAt_const).add
      (contDiffAt_const.mul hlog))
  | f5 => exact contDiffAt_const.mul (((h1.pow 2).sub contDiffAt_const).sub (contDiffAt_const.mul hlog))
  | f6 => exact (h1.sub hlog).sub contDiffAt_const
  | f7 b => exact ((hpow b).mul ((contDiffAt_const.mul hlog).sub contDiffAt_const)).add contDiffAt_const
  | f8 => exact ((h1.mul hlog).sub h1).add contDiffAt_const
  | f9 => exact contDiffAt_const.mul ((((h1.pow 2).sub (hinv 2))).pow 2)
  | f10 b =>
    exact ((h1.div_const b).mul (contDiffAt_const.sub ((hpow (-b)).div_const (1 - b)))).add contDiffAt_const
  | f11 => exact contDiffAt_const.mul (((h1.pow 5).add (hinv 5)).sub contDiffAt_const)
  | f12 => exact h1.sub contDiffAt_const

/-! ### Smooth functions of the stretches -/

/-- Near `C` a function of the principal stretches is a smooth function of the tensor. -/
def SmoothInv (φ : (Fin 3 → ℝ) → ℝ) (C : M3) : Prop :=
  ∃ F : (Fin 3 → Fin 3 → ℝ) → ℝ, ContDiffAt ℝ 3 F C ∧
    ∀ᶠ A in 𝓝 (C : Fin 3 → Fin 3 → ℝ), ∀ l N, HasStretches (Matrix.of A) l N → φ l = F A

namespace SmoothInv

variable {φ ψ : (Fin 3 → ℝ) → ℝ} {C : M3} {l : Fin 3 → ℝ} {N : M3}

theorem const (c : ℝ) : SmoothInv (fun _ => c) C :=
  ⟨fun _ => c, contDiffAt_const, Filter.Eventually.of_forall fun _ _ _ _ => rfl⟩

theorem add (h : SmoothInv φ C) (k : SmoothInv ψ C) : SmoothInv (fun l => φ l + ψ l) C := by
  obtain ⟨F, hF, eF⟩ := h
  obtain ⟨G, hG, eG⟩ := k
  refine ⟨fun A => F A + G A, hF.add hG, ?_⟩
  filter_upwards [eF, eG] with A h1 h2 l N hA
  rw [h1 l N hA, h2 l N hA]

theorem mul (h : SmoothInv φ C) (k : SmoothInv ψ C) : SmoothInv (fun l => φ l * ψ l) C := by
  obtain ⟨F, hF, eF⟩ := h
  obtain ⟨G, hG, eG⟩ := k
  refine ⟨fun A => F A * G A, hF.mul hG, ?_⟩
  filter_upwards [eF, eG] with A h1 h2 l N hA
  rw [h1 l N hA, h2 l N hA]

theorem sub (h : SmoothInv φ C) (k : SmoothInv ψ C) : SmoothInv (fun l => φ l - ψ l) C := by
  obtain ⟨F, hF, eF⟩ := h
  obtain ⟨G, hG, eG⟩ := k
  refine ⟨fun A => F A - G A, hF.sub hG, ?_⟩
  filter_upwards [eF, eG] with A h1 h2 l N hA
  rw [h1 l N hA, h2 l N hA]

theorem pow (h : SmoothInv φ C) (n : ℕ) : SmoothInv (fun l => φ l ^ n) C := by
  obtain ⟨F, hF, eF⟩ := h
  refine ⟨fun A => F A ^ n, hF.pow n, ?_⟩
  filter_upwards [eF] with A h1 l N hA
  rw [h1 l N hA]

theorem sum {n : ℕ} {φ : Fin n → (Fin 3 → ℝ) → ℝ} (h : ∀ i, SmoothInv (φ i) C) :
    SmoothInv (fun l => ∑ i, φ i l) C := by
  choose F hF eF using h
  refine ⟨fun A => ∑ i, F i A, ContDiffAt.sum fun i _ => hF i, ?_⟩
  filter_upwards [Filter.eventually_all.2 eF] with A h1 l N hA
  exact Finset.sum_congr rfl fun i _ => h1 i l N hA

theorem comp (hC : HasStretches C l N) (h : SmoothInv φ C) {g : ℝ → ℝ} (hg : ContDiffAt ℝ 3 g (φ l)) :
    SmoothInv (fun l => g (φ l)) C := by
  obtain ⟨F, hF, eF⟩ := h
  have e : φ l = F C := eF.self_of_nhds l N hC
  rw [e] at hg
  have key : ∀ c : Fin 3 → Fin 3 → ℝ, ContDiffAt ℝ 3 F c → ContDiffAt ℝ 3 g (F c) →
      ContDiffAt ℝ 3 (fun A => g (F A)) c := fun c h1 h2 => h2.comp c h1
  refine ⟨fun A => g (F A), key C hF hg, ?_⟩
  filter_upwards [eF] with A h1 l N hA
  rw [h1 l N hA]

theorem congr (h : SmoothInv φ C) (e : ∀ l, (∀ a, 0 < l a) → ψ l = φ l) : SmoothInv ψ C := by
  obtain ⟨F, hF, eF⟩ := h
  refine ⟨F, hF, ?_⟩
  filter_upwards [eF] with A h1 l N hA
  rw [e l hA.1, h1 l N hA]

theorem power (hC : HasStretches C l N) (alpha : ℝ) : SmoothInv (fun l => ∑ a, l a ^ alpha) C :=
  powerSum_smooth alpha hC

theorem J (hC : HasStretches C l N) : SmoothInv (fun l => l 0 * l 1 * l 2) C := by
  have p0 := hC.1 0; have p1 := hC.1 1; have p2 := hC.1 2
  have hpos : 0 < l 0 * l 1 * l 2 := by positivity
  have hne : (Matrix.of (C : Fin 3 → Fin 3 → ℝ)).det ≠ 0 := by
    intro h0
    have := det_stretches_sq hC
    rw [show C.det = 0 from h0, Real.sqrt_zero] at this
    exact hpos.ne this
  exact ⟨fun A => √(Matrix.of A).det, ContDiffAt.sqrt (det_contDiff C) hne,
    Filter.Eventually.of_forall fun A l N hA => (det_stretches_sq hA).symm⟩

theorem rpowJ (hC : HasStretches C l N) (b : ℝ) : SmoothInv (fun l => (l 0 * l 1 * l 2) ^ b) C := by
  have p0 := hC.1 0; have p1 := hC.1 1; have p2 := hC.1 2
  exact comp hC (J hC) (g := fun x => x ^ b) (Real.contDiffAt_rpow_const_of_ne (by positivity))

theorem W1 (hC : HasStretches C l N) : SmoothInv DeviatoricInvariants.W1 C := by
  refine congr ((power hC 2).mul (rpowJ hC (2 * (-1 / 3)))) fun l hl => ?_
  have p0 := hl 0; have p1 := hl 1; have p2 := hl 2
  have e : invariants l 2 = (l 0 * l 1 * l 2) ^ (2 : ℝ) := by
    rw [Real.rpow_two]
    simp only [invariants, determinantFromPrincipalValues, Matrix.cons_val]
    ring
  rw [DeviatoricInvariants.W1, e, ← Real.rpow_mul (by positivity)]
  simp only [invariants, Matrix.cons_val_zero, Fin.sum_univ_three, Real.rpow_two]

theorem W2 (hC : HasStretches C l N) : SmoothInv DeviatoricInvariants.W2 C := by
  refine congr (((const (1 / 2)).mul (((power hC 2).pow 2).sub (power hC (4 : ℕ)))).mul (rpowJ hC (2 * (-2 / 3))))
    fun l hl => ?_
  have p0 := hl 0; have p1 := hl 1; have p2 := hl 2
  have e : invariants l 2 = (l 0 * l 1 * l 2) ^ (2 : ℝ) := by
    rw [Real.rpow_two]
    simp only [invariants, determinantFromPrincipalValues, Matrix.cons_val]
    ring
  rw [DeviatoricInvariants.W2, e, ← Real.rpow_mul (by positivity)]
  simp only [invariants, Matrix.cons_val_one, Matrix.cons_val_zero, Fin.sum_univ_three, Real.rpow_two, Real.rpow_natCast]
  ring

end SmoothInv

end Ikarus
