import Verif.Utils.LambertModel
import Verif.Material.NeoHookeProps
import Mathlib.Analysis.Calculus.Deriv.MeanValue
import Mathlib.Analysis.SpecialFunctions.ExpDeriv
import Mathlib.Analysis.Complex.Exponential
import Mathlib.Topology.Order.MonotoneConvergence

/-!
Halley's iteration for `x e^x = z`.
-/

namespace Ikarus

namespace Lambert

open Real Set Filter Topology

/-- The argument in terms of the value. -/
noncomputable def arg (w : ℝ) : ℝ := w * exp w

theorem arg_hasDeriv (x : ℝ) : HasDerivAt arg (exp x * (x + 1)) x := by
  have := (hasDerivAt_id x).mul (Real.hasDerivAt_exp x)
  refine (this.congr_deriv ?_)
  simp only [id]
  ring

theorem slope_mono {x y : ℝ} (hx : -1 < x) (hxy : x ≤ y) : exp x * (x + 1) ≤ exp y * (y + 1) :=
  mul_le_mul (exp_le_exp.mpr hxy) (by linarith) (by linarith) (exp_pos _).le

theorem slope_pos {x : ℝ} (hx : -1 < x) : 0 < exp x * (x + 1) := mul_pos (exp_pos _) (by linarith)

/-- `x e^x` lies above its tangents. -/
theorem tangent {x w : ℝ} (hx : -1 < x) (hw : -1 < w) : arg x - arg w ≤ (x - w) * (exp x * (x + 1)) := by
  rcases lt_trichotomy x w with h | rfl | h
  · obtain ⟨c, ⟨h1, h2⟩, h3⟩ := exists_hasDerivAt_eq_slope arg (fun x => exp x * (x + 1)) h
      (fun y _ => (arg_hasDeriv y).continuousAt.continuousWithinAt) (fun y _ => arg_hasDeriv y)
    have h4 := slope_mono hx h1.le
    rw [eq_div_iff (by linarith)] at h3
    nlinarith
  · simp
  · obtain ⟨c, ⟨h1, h2⟩, h3⟩ := exists_hasDerivAt_eq_slope arg (fun x => exp x * (x + 1)) h
      (fun y _ => (arg_hasDeriv y).continuousAt.continuousWithinAt) (fun y _ => arg_hasDeriv y)
    have h4 := slope_mono (by linarith) h2.le
    rw [eq_div_iff (by linarith)] at h3
    nlinarith

theorem arg_lt {x w : ℝ} (hx : -1 < x) (h : x < w) : arg x < arg w :=
  lambert_injOn (Set.mem_Ici.mpr hx.le) (Set.mem_Ici.mpr (by linarith)) h

theorem denom_eq {z x : ℝ} (hx : -1 < x) :
    denom z x = exp x * (x + 1) - 1 / 2 * ((x + 2) / (x + 1)) * (arg x - z) := by
  have h1 := (exp_pos x).ne'
  have h2 : x + 1 ≠ 0 := by linarith
  unfold denom arg
  simp only
  rw [mul_div_mul_left _ _ h1]

theorem exp_neg_le (s : ℝ) (hs : 0 ≤ s) : exp (-s) ≤ 1 - s + s ^ 2 / 2 := by
  have h : MonotoneOn (fun s : ℝ => 1 - s + s ^ 2 / 2 - exp (-s)) (Ici 0) := by
    apply monotoneOn_of_deriv_nonneg (convex_Ici _)
    · fun_prop
    · fun_prop
    · intro x hx
      have h1 : HasDerivAt (fun s : ℝ => 1 - s + s ^ 2 / 2 - exp (-s)) (-1 + x + exp (-x)) x := by
        have a1 := (hasDerivAt_id x).const_sub 1
        have a2 := ((hasDerivAt_id x).pow 2).div_const 2
        have a3 := (hasDerivAt_neg x).exp
        refine ((a1.add a2).sub a3).congr_deriv ?_
        simp only [id]
        ring
      rw [h1.deriv]
      have := Real.add_one_le_exp (-x)
      linarith
  have := h (mem_Ici.mpr le_rfl) (mem_Ici.mpr hs) hs
  simp only [neg_zero, exp_zero] at this
  linarith

theorem branchPoint_eq : branchPoint = arg (-1) := by
  unfold branchPoint arg
  rw [exp_neg, div_eq_mul_inv]

/-- The denominator of the step is positive. -/
theorem denom_pos {z x : ℝ} (hx : -1 < x) (hz : branchPoint < z) : 0 < denom z x := by
  rw [denom_eq hx]
  have hs : 0 < x + 1 := by linarith
  have he := exp_pos x
  -- in terms of the distance to the branch point
  have h1 : arg x - z < exp x * (x + exp (-(x + 1))) := by
    rw [branchPoint_eq] at hz
    have : exp x * exp (-(x + 1)) = exp (-1) := by rw [← exp_add]; congr 1; ring
    unfold arg at hz ⊢
    nlinarith
  have h2 : exp (-(x + 1)) ≤ 1 - (x + 1) + (x + 1) ^ 2 / 2 := exp_neg_le _ hs.le
  have h3 : exp (-(x + 1)) < 1 := by rw [exp_lt_one_iff]; linarith
  have h4 : (x + exp (-(x + 1))) * (x + 2) ≤ 2 * (x + 1) ^ 2 := by
    rcases le_or_gt (x + 1) 1 with h | h
    · nlinarith [mul_nonneg hs.le hs.le, mul_nonneg (mul_nonneg hs.le hs.le) hs.le]
    · nlinarith
  have h5 : (x + 2) * (arg x - z) < exp x * (2 * (x + 1) ^ 2) := by
    have := mul_lt_mul_of_pos_left h1 (show 0 < x + 2 by linarith)
    nlinarith
  have h6 : 1 / 2 * ((x + 2) / (x + 1)) * (arg x - z) = (x + 2) * (arg x - z) / (2 * (x + 1)) := by
    field_simp
  rw [h6, sub_pos, div_lt_iff₀ (by linarith)]
  nlinarith

/-- The function whose sign decides on which side of the solution a step ends. -/
noncomputable def side (w x : ℝ) : ℝ :=
  (x - w) * (exp x * (x + 1) - 1 / 2 * ((x + 2) / (x + 1)) * (arg x - arg w)) - (arg x - arg w)

theorem side_hasDeriv {w x : ℝ} (hx : -1 < x) :
    HasDerivAt (side w) (1 / 2 * ((x + 2) / (x + 1) * ((x - w) * (exp x * (x + 1)) - (arg x - arg w)) +
      (x - w) * (arg x - arg w) / (x + 1) ^ 2)) x := by
  have h1 : x + 1 ≠ 0 := by linarith
  have a1 := (hasDerivAt_id x).sub_const w
  have a2 : HasDerivAt (fun x => exp x * (x + 1)) (exp x * (x + 2)) x := by
    refine ((Real.hasDerivAt_exp x).mul ((hasDerivAt_id x).add_const 1)).congr_deriv ?_
    simp only [id]
    ring
  have a3 : HasDerivAt (fun x : ℝ => (x + 2) / (x + 1)) (-1 / (x + 1) ^ 2) x := by
    refine (((hasDerivAt_id x).add_const 2).div ((hasDerivAt_id x).add_const 1) h1).congr_deriv ?_
    simp only [id]
    congr 1
    ring
  have a4 := (arg_hasDeriv x).sub_const (arg w)
  refine ((a1.mul (a2.sub ((a3.const_mul (1 / 2)).mul a4))).sub a4).congr_deriv ?_
  simp only [id, Pi.sub_apply, Pi.mul_apply]
  field_simp
  ring

theorem side_mono {w : ℝ} (hw : -1 < w) : MonotoneOn (side w) (Ioi (-1)) := by
  apply monotoneOn_of_deriv_nonneg (convex_Ioi _)
  · exact fun x hx => (side_hasDeriv hx).continuousAt.continuousWithinAt
  · rw [interior_Ioi]
    exact fun x hx => (side_hasDeriv hx).differentiableAt.differentiableWithinAt
  · rw [interior_Ioi]
    intro x hx
    rw [(side_hasDeriv hx).deriv]
    have hx' : -1 < x := hx
    have h1 := tangent hx hw
    have h2 : 0 ≤ (x - w) * (arg x - arg w) := by
      rcases lt_trichotomy x w with h | rfl | h
      · have := arg_lt hx' h
        nlinarith
      · simp
      · have := arg_lt hw h
        nlinarith
    have h3 : 0 ≤ (x + 2) / (x + 1) := div_nonneg (by linarith) (by linarith)
    have h4 : 0 ≤ (x - w) * (arg x - arg w) / (x + 1) ^ 2 := div_nonneg h2 (sq_nonneg _)
    have h5 := mul_nonneg h3 (sub_nonneg.mpr h1)
    linarith

theorem side_self (w : ℝ) : side w w = 0 := by simp [side]

/-- A step from the right ends between the solution and where it started. -/
theorem step_right {w x : ℝ} (hw : -1 < w) (h : w ≤ x) : w ≤ newX (arg w) x ∧ newX (arg w) x ≤ x := by
  have hx : -1 < x := by linarith
  have hz : branchPoint < arg w := by
    rw [branchPoint_eq]
    exact lambert_injOn (Set.mem_Ici.mpr le_rfl) (Set.mem_Ici.mpr hw.le) hw
  have hd := denom_pos hx hz
  have hm := side_mono hw (mem_Ioi.mpr hw) (mem_Ioi.mpr hx) h
  rw [side_self] at hm
  have hf : 0 ≤ arg x - arg w := by
    rcases eq_or_lt_of_le h with rfl | h
    · simp
    · exact (sub_pos.mpr (arg_lt hw h)).le
  unfold side at hm
  rw [← denom_eq hx] at hm
  unfold newX
  constructor
  · have : (arg x - arg w) / denom (arg w) x ≤ x - w := by
      rw [div_le_iff₀ hd]
      linarith
    unfold arg at this ⊢
    linarith
  · have := div_nonneg hf hd.le
    unfold arg at this ⊢
    linarith

/-- A step from the left ends between where it started and the solution. -/
theorem step_left {w x : ℝ} (hx : -1 < x) (h : x ≤ w) : x ≤ newX (arg w) x ∧ newX (arg w) x ≤ w := by
  have hw : -1 < w := by linarith
  have hz : branchPoint < arg w := by
    rw [branchPoint_eq]
    exact lambert_injOn (Set.mem_Ici.mpr le_rfl) (Set.mem_Ici.mpr hw.le) hw
  have hd := denom_pos hx hz
  have hm := side_mono hw (mem_Ioi.mpr hx) (mem_Ioi.mpr hw) h
  rw [side_self] at hm
  have hf : arg x - arg w ≤ 0 := by
    rcases eq_or_lt_of_le h with rfl | h
    · simp
    · exact (sub_neg.mpr (arg_lt hx h)).le
  unfold side at hm
  rw [← denom_eq hx] at hm
  unfold newX
  constructor
  · have := div_nonpos_of_nonpos_of_nonneg hf hd.le
    unfold arg at this ⊢
    linarith
  · have : x - w ≤ (arg x - arg w) / denom (arg w) x := by
      rw [le_div_iff₀ hd]
      linarith
    unfold arg at this ⊢
    linarith

/-- Beyond the branch point there is exactly one solution above `-1`. -/
theorem exists_value {z : ℝ} (hz : branchPoint < z) : ∃ w, -1 < w ∧ arg w = z := by
  have hc : ContinuousOn arg (Icc (-1) (max 0 z)) := fun x _ => (arg_hasDeriv x).continuousAt.continuousWithinAt
  have h1 : z ≤ arg (max 0 z) := by
    unfold arg
    have h2 := Real.add_one_le_exp (max 0 z)
    have h3 := le_max_left 0 z
    have h4 := le_max_right 0 z
    nlinarith
  obtain ⟨w, hw, he⟩ := intermediate_value_Icc (show (-1 : ℝ) ≤ max 0 z by have := le_max_left 0 z; linarith) hc
    ⟨by rw [← branchPoint_eq]; exact hz.le, h1⟩
  refine ⟨w, lt_of_le_of_ne hw.1 fun h => ?_, he⟩
  rw [← he, ← h, branchPoint_eq] at hz
  exact lt_irrefl _ hz

theorem branch_lt {w : ℝ} (hw : -1 < w) : branchPoint < arg w := by
  rw [branchPoint_eq]
  exact lambert_injOn (Set.mem_Ici.mpr le_rfl) (Set.mem_Ici.mpr hw.le) hw

/-! ### How the length of the steps changes -/

/-- The step, positive to the right of the solution. -/
noncomputable def stp (z x : ℝ) : ℝ := (arg x - z) / denom z x

theorem newX_eq (z x : ℝ) : newX z x = x - stp z x := rfl

theorem denom_hasDeriv {z x : ℝ} (hx : -1 < x) :
    HasDerivAt (denom z) (1 / 2 * (exp x * (x + 2)) + 1 / 2 * (arg x - z) / (x + 1) ^ 2) x := by
  have h1 : x + 1 ≠ 0 := by linarith
  have a2 : HasDerivAt (fun x => exp x * (x + 1)) (exp x * (x + 2)) x := by
    refine ((Real.hasDerivAt_exp x).mul ((hasDerivAt_id x).add_const 1)).congr_deriv ?_
    simp only [id]
    ring
  have a3 : HasDerivAt (fun x : ℝ => (x + 2) / (x + 1)) (-1 / (x + 1) ^ 2) x := by
    refine (((hasDerivAt_id x).add_const 2).div ((hasDerivAt_id x).add_const 1) h1).congr_deriv ?_
    simp only [id]
    congr 1
    ring
  have a4 := (arg_hasDeriv x).sub_const z
  have h := a2.sub ((a3.const_mul (1 / 2)).mul a4)
  have heq : denom z =ᶠ[𝓝 x] fun x => exp x * (x + 1) - 1 / 2 * ((x + 2) / (x + 1)) * (arg x - z) :=
    Filter.eventuallyEq_of_mem (Ioi_mem_nhds hx) fun y hy => denom_eq hy
  refine (h.congr_of_eventuallyEq (f₁ := denom z) heq).congr_deriv ?_
  field_simp
  ring

/-- The derivative of the step. -/
noncomputable def stpDeriv (z x : ℝ) : ℝ :=
  ((exp x * (x + 1)) ^ 2 - (arg x - z) * (exp x * (x + 2)) - (arg x - z) ^ 2 / (2 * (x + 1) ^ 2)) / denom z x ^ 2

theorem stp_hasDeriv {z x : ℝ} (hx : -1 < x) (hz : branchPoint < z) : HasDerivAt (stp z) (stpDeriv z x) x := by
  have hd := (denom_pos hx hz).ne'
  have h1 : x + 1 ≠ 0 := by linarith
  refine (((arg_hasDeriv x).sub_const z).div (denom_hasDeriv hx) hd).congr_deriv ?_
  unfold stpDeriv
  congr 1
  rw [denom_eq hx]
  field_simp
  ring

/-- To the right of the solution the steps grow with the distance. -/
theorem stpDeriv_right {z x : ℝ} (hx : -1 < x) (hz : branchPoint < z) (h : z ≤ arg x) :
    1 / (2 * ((x + 2) ^ 2 + 1)) ≤ stpDeriv z x := by
  have hd := denom_pos hx hz
  have hs : 0 < x + 1 := by linarith
  have he := exp_pos x
  have hf : 0 ≤ arg x - z := by linarith
  have hp : 0 < (x + 2) ^ 2 + 1 := by positivity
  -- the relative residual
  obtain ⟨u, hu⟩ : ∃ u, u = (arg x - z) / (exp x * (x + 1)) := ⟨_, rfl⟩
  have hfu : arg x - z = u * (exp x * (x + 1)) := by rw [hu, div_mul_cancel₀ _ (slope_pos hx).ne']
  have hu0 : 0 ≤ u := hu ▸ div_nonneg hf (slope_pos hx).le
  have hub : u * ((x + 2) ^ 2 + 1) ≤ (x + 1) * (x + 2) := by
    have hq := Real.quadratic_le_exp_of_nonneg hs.le
    have h1 : arg x - z ≤ exp x * (x + exp (-(x + 1))) := by
      rw [branchPoint_eq] at hz
      have : exp x * exp (-(x + 1)) = exp (-1) := by rw [← exp_add]; congr 1; ring
      unfold arg at hz ⊢
      nlinarith
    have h2 : exp (-(x + 1)) * (1 + (x + 1) + (x + 1) ^ 2 / 2) ≤ 1 := by
      have : exp (-(x + 1)) * exp (x + 1) = 1 := by rw [← exp_add]; simp
      nlinarith [exp_pos (-(x + 1))]
    have h3 : u * (x + 1) ≤ x + exp (-(x + 1)) := by
      rw [hfu] at h1
      nlinarith
    have h4 : u * (x + 1) * ((x + 2) ^ 2 + 1) ≤ (x + 1) * (x + 2) * (x + 1) := by
      nlinarith [mul_le_mul_of_nonneg_right h3 hp.le]
    nlinarith
  have hD : denom z x = exp x * (x + 1) * (1 - u * (x + 2) / (2 * (x + 1))) := by
    rw [denom_eq hx, hfu]
    field_simp
  have hDle : denom z x ≤ exp x * (x + 1) := by
    rw [denom_eq hx]
    have : 0 ≤ 1 / 2 * ((x + 2) / (x + 1)) * (arg x - z) :=
      mul_nonneg (mul_nonneg (by norm_num) (div_nonneg (by linarith) hs.le)) hf
    linarith
  have hnum : 1 / (2 * ((x + 2) ^ 2 + 1)) ≤ 1 - u * ((x + 2) / (x + 1)) - u ^ 2 / (2 * (x + 1) ^ 2) := by
    have hu' : u ≤ (x + 1) * (x + 2) / ((x + 2) ^ 2 + 1) := (le_div_iff₀ hp).mpr hub
    have g1 : u * ((x + 2) / (x + 1)) ≤ (x + 2) ^ 2 / ((x + 2) ^ 2 + 1) := by
      have := mul_le_mul_of_nonneg_right hu' (div_nonneg (by linarith : (0 : ℝ) ≤ x + 2) hs.le)
      refine this.trans (le_of_eq ?_)
      field_simp
    have g2 : u ^ 2 / (2 * (x + 1) ^ 2) ≤ (x + 2) ^ 2 / (2 * ((x + 2) ^ 2 + 1) ^ 2) := by
      have := pow_le_pow_left₀ hu0 hu' 2
      refine (div_le_div_of_nonneg_right this (by positivity)).trans (le_of_eq ?_)
      field_simp
    have g3 : 1 / (2 * ((x + 2) ^ 2 + 1)) ≤
        1 - (x + 2) ^ 2 / ((x + 2) ^ 2 + 1) - (x + 2) ^ 2 / (2 * ((x + 2) ^ 2 + 1) ^ 2) := by
      have : 1 - (x + 2) ^ 2 / ((x + 2) ^ 2 + 1) - (x + 2) ^ 2 / (2 * ((x + 2) ^ 2 + 1) ^ 2) -
          1 / (2 * ((x + 2) ^ 2 + 1)) = 1 / (2 * ((x + 2) ^ 2 + 1) ^ 2) := by
        field_simp
        ring
      have h2 : 0 ≤ 1 / (2 * ((x + 2) ^ 2 + 1) ^ 2) := by positivity
      linarith
    linarith
  unfold stpDeriv
  rw [le_div_iff₀ (by positivity)]
  have hN : (exp x * (x + 1)) ^ 2 - (arg x - z) * (exp x * (x + 2)) - (arg x - z) ^ 2 / (2 * (x + 1) ^ 2) =
      (1 - u * ((x + 2) / (x + 1)) - u ^ 2 / (2 * (x + 1) ^ 2)) * (exp x * (x + 1)) ^ 2 := by
    rw [hfu]
    field_simp
  rw [hN]
  have h1 : denom z x ^ 2 ≤ (exp x * (x + 1)) ^ 2 := pow_le_pow_left₀ hd.le hDle 2
  have h0 : 0 ≤ 1 / (2 * ((x + 2) ^ 2 + 1)) := by positivity
  exact (mul_le_mul_of_nonneg_left h1 h0).trans (mul_le_mul_of_nonneg_right hnum (by positivity))

/-- To the left of the solution likewise, as long as the residual is not large. -/
theorem stpDeriv_left {z x : ℝ} (hx : 0 ≤ x) (hz : branchPoint < z) (h : arg x ≤ z) (hb : z * exp (-x) ≤ 2 + 3 * x) :
    1 / 9 ≤ stpDeriv z x := by
  have hx1 : -1 < x := by linarith
  have hd := denom_pos hx1 hz
  have hs : 0 < x + 1 := by linarith
  have he := exp_pos x
  obtain ⟨u, hu⟩ : ∃ u, u = (z - arg x) / (exp x * (x + 1)) := ⟨_, rfl⟩
  have hfu : arg x - z = -u * (exp x * (x + 1)) := by
    rw [hu, neg_mul, div_mul_cancel₀ _ (slope_pos hx1).ne']
    ring
  have hu0 : 0 ≤ u := hu ▸ div_nonneg (by linarith) (slope_pos hx1).le
  have hu2 : u ≤ 2 := by
    rw [hu, div_le_iff₀ (slope_pos hx1)]
    have : z = z * exp (-x) * exp x := by rw [mul_assoc, ← exp_add]; simp
    unfold arg
    nlinarith
  obtain ⟨t, ht⟩ : ∃ t, t = (x + 2) / (x + 1) := ⟨_, rfl⟩
  have ht1 : 1 ≤ t := by rw [ht, le_div_iff₀ hs]; linarith
  have ht2 : t ≤ 2 := by rw [ht, div_le_iff₀ hs]; linarith
  have hD : denom z x = exp x * (x + 1) * (1 + u * t / 2) := by
    rw [denom_eq hx1, hfu, ht]
    ring
  have hN : (exp x * (x + 1)) ^ 2 - (arg x - z) * (exp x * (x + 2)) - (arg x - z) ^ 2 / (2 * (x + 1) ^ 2) =
      (1 + u * t - u ^ 2 / (2 * (x + 1) ^ 2)) * (exp x * (x + 1)) ^ 2 := by
    rw [hfu, ht]
    field_simp
    ring
  unfold stpDeriv
  rw [hN, hD, mul_pow, le_div_iff₀ (by positivity)]
  have hq : u ^ 2 / (2 * (x + 1) ^ 2) ≤ u ^ 2 / 2 := by
    apply div_le_div_of_nonneg_left (sq_nonneg u) (by norm_num)
    nlinarith
  have h1 : 1 ≤ 1 + u * t - u ^ 2 / (2 * (x + 1) ^ 2) := by nlinarith
  have h2 : (1 + u * t / 2) ^ 2 ≤ 9 := by
    have : u * t ≤ 4 := by nlinarith
    have h0 : 0 ≤ u * t := by positivity
    nlinarith
  have h3 : 0 < (exp x * (x + 1)) ^ 2 := by positivity
  nlinarith [mul_le_mul_of_nonneg_left h2 h3.le, mul_le_mul_of_nonneg_right h1 h3.le]

/-- Differences of steps to the right of the solution. -/
theorem stp_right {w x y : ℝ} (hw : -1 < w) (hy : w ≤ y) (hxy : y ≤ x) :
    1 / (2 * ((x + 2) ^ 2 + 1)) * (x - y) ≤ stp (arg w) x - stp (arg w) y := by
  have hz := branch_lt hw
  refine (convex_Icc y x).mul_sub_le_image_sub_of_le_deriv
    (fun v hv => (stp_hasDeriv (by linarith [hv.1]) hz).continuousAt.continuousWithinAt)
    (fun v hv => (stp_hasDeriv (by linarith [(interior_subset hv).1]) hz).differentiableAt.differentiableWithinAt)
    (fun v hv => ?_) y ⟨le_rfl, hxy⟩ x ⟨hxy, le_rfl⟩ hxy
  have hv := interior_subset hv
  rw [(stp_hasDeriv (by linarith [hv.1]) hz).deriv]
  have hwv : w ≤ v := by linarith [hv.1]
  have harg : arg w ≤ arg v := by
    rcases eq_or_lt_of_le hwv with rfl | h
    · exact le_rfl
    · exact (arg_lt hw h).le
  refine le_trans ?_ (stpDeriv_right (by linarith) hz harg)
  apply one_div_le_one_div_of_le (by positivity)
  have := hv.2
  nlinarith

/-- Differences of steps to the left of the solution. -/
theorem stp_left {w x y : ℝ} (hx : 0 ≤ x) (hxy : x ≤ y) (hy : y ≤ w) (hb : arg w * exp (-x) ≤ 2 + 3 * x) :
    1 / 9 * (y - x) ≤ stp (arg w) y - stp (arg w) x := by
  have hz := branch_lt (show -1 < w by linarith)
  refine (convex_Icc x y).mul_sub_le_image_sub_of_le_deriv
    (fun v hv => (stp_hasDeriv (by linarith [hv.1]) hz).continuousAt.continuousWithinAt)
    (fun v hv => (stp_hasDeriv (by linarith [(interior_subset hv).1]) hz).differentiableAt.differentiableWithinAt)
    (fun v hv => ?_) x ⟨le_rfl, hxy⟩ y ⟨hxy, le_rfl⟩ hxy
  have hv := interior_subset hv
  rw [(stp_hasDeriv (by linarith [hv.1]) hz).deriv]
  have hvw : v ≤ w := by linarith [hv.2]
  have harg : arg v ≤ arg w := by
    rcases eq_or_lt_of_le hvw with rfl | h
    · exact le_rfl
    · exact (arg_lt (by linarith [hv.1]) h).le
  refine stpDeriv_left (by linarith [hv.1]) hz harg ?_
  have h1 : exp (-v) ≤ exp (-x) := exp_le_exp.mpr (by linarith [hv.1])
  have h2 : 0 ≤ arg w := mul_nonneg (by linarith) (exp_pos _).le
  nlinarith [hv.1]

theorem stp_self (w : ℝ) : stp (arg w) w = 0 := by simp [stp]

/-! ### The initial guess -/

theorem start_small {tol z : ℝ} (h : ¬ floatCmpGt tol z 1) : start tol z = 567 / 1000 * z := by
  unfold start
  rw [if_neg h]
  norm_num

/-- The initial guess for large arguments: with `a = log z` it is `a - log √(a (a - log a))`. -/
theorem start_large {tol z : ℝ} (h : floatCmpGt tol z 1) :
    (1 + log z) / 2 ≤ start tol z ∧ z * exp (-start tol z) ≤ 2 + 3 * start tol z := by
  have hz : 1 < z := h.1
  have ha : 0 < log z := log_pos hz
  obtain ⟨a, hae⟩ : ∃ a, a = log z := ⟨_, rfl⟩
  rw [← hae] at ha ⊢
  have hA : 1 ≤ a - log a := by have := log_le_sub_one_of_pos ha; linarith
  have hst : start tol z = a - log a - 1 / 2 * (log (a - log a) - log a) := by
    unfold start log1p
    rw [if_pos h]
    simp only
    rw [← hae, ← log_div (by linarith) ha.ne']
    have : 1 + -log a / a = (a - log a) / a := by field_simp; ring
    rw [this]
    norm_num
  have hge : (1 + a) / 2 ≤ start tol z := by
    rw [hst]
    have := log_le_sub_one_of_pos (show 0 < a - log a by linarith)
    linarith
  refine ⟨hge, ?_⟩
  have hQ : z * exp (-start tol z) = sqrt (a * (a - log a)) := by
    have hzp : z = exp a := by rw [hae, exp_log (by linarith)]
    rw [hzp, ← exp_add, ← hzp, hst, sqrt_eq_rpow, ← exp_log (show 0 < a * (a - log a) by nlinarith), ← exp_mul,
      log_mul ha.ne' (by linarith)]
    congr 1
    ring
  rw [hQ]
  rcases le_or_gt 1 a with h1 | h1
  · have : sqrt (a * (a - log a)) ≤ a := by
      rw [sqrt_le_left ha.le]
      have := log_nonneg h1
      nlinarith
    linarith
  · have : sqrt (a * (a - log a)) ≤ 1 := by
      rw [sqrt_le_left zero_le_one]
      have h2 := log_le_sub_one_of_pos (inv_pos.mpr ha)
      rw [log_inv] at h2
      have h3 : a * (a⁻¹ - 1) = 1 - a := by field_simp
      nlinarith
    linarith

theorem branchPoint_gt : -1 / 2 < branchPoint := by
  unfold branchPoint
  have h : (2 : ℝ) < exp 1 := by have := Real.add_one_lt_exp (one_ne_zero); linarith
  rw [div_lt_div_iff₀ (by norm_num) (exp_pos 1)]
  linarith

theorem start_gt {tol z : ℝ} (hz : branchPoint < z) : -1 < start tol z := by
  by_cases h : floatCmpGt tol z 1
  · have := (start_large h).1
    have := log_pos h.1
    linarith
  · rw [start_small h]
    have := branchPoint_gt
    linarith

/-- If the initial guess lies to the left of the solution, it is not negative and the residual is not large. -/
theorem start_left {tol w : ℝ} (ht : tol ≤ 1 / 2) (hw : -1 < w) (h : start tol (arg w) < w) :
    0 ≤ start tol (arg w) ∧ arg w * exp (-start tol (arg w)) ≤ 2 + 3 * start tol (arg w) := by
  by_cases hg : floatCmpGt tol (arg w) 1
  · have := start_large hg
    have h2 := log_pos hg.1
    exact ⟨by linarith, this.2⟩
  · rw [start_small hg] at h ⊢
    have hz : 0 ≤ arg w := by
      by_contra hn
      have hn : arg w < 0 := not_le.mp hn
      have h1 := arg_lt (by have := branchPoint_gt; have := branch_lt hw; linarith) h
      have h2 : exp (567 / 1000 * arg w) ≤ 1 := exp_le_one_iff.mpr (by linarith)
      have h3 : arg (567 / 1000 * arg w) = 567 / 1000 * arg w * exp (567 / 1000 * arg w) := rfl
      rw [h3] at h1
      nlinarith
    refine ⟨by linarith, ?_⟩
    have h2 : arg w ≤ 2 := by
      by_contra hn
      have hn : 2 < arg w := not_le.mp hn
      refine hg ⟨by linarith, fun he => ?_⟩
      unfold floatCmpEq at he
      rw [abs_one, abs_of_pos (by linarith), abs_of_pos (by linarith), max_eq_left (by linarith)] at he
      nlinarith
    have h1 : exp (-(567 / 1000 * arg w)) ≤ 1 := exp_le_one_iff.mpr (by linarith)
    nlinarith

end Lambert

end Ikarus
