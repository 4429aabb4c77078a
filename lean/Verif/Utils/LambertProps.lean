import Verif.Utils.LambertLemmas
import Mathlib.Analysis.SpecificLimits.Basic
import Mathlib.Analysis.Complex.ExponentialBounds

/-!
C97: what `lambertW0` returns. In exact arithmetic Halley's iteration converges from the initial guesses of the code to the
principal branch, for every argument beyond the branch point; what is returned has an explicit accuracy.
-/

namespace Ikarus

namespace Lambert

open Real Set Filter Topology

/-! ### Specification -/

/-- The value of the principal branch at `z`. -/
def Spec.IsW0 (z w : ℝ) : Prop := -1 ≤ w ∧ w * exp w = z

/-- How much of the distance to the solution a step covers at least, for iterations that start at `x`. -/
noncomputable def Spec.rate (x : ℝ) : ℝ := 1 / (2 * ((x + 2) ^ 2 + 1))

/-- The iterates. -/
noncomputable def Spec.iterate (tol z : ℝ) (k : Nat) : ℝ := (newX z)^[k] (start tol z)

/-- The documented domain: exactly the arguments from `-1/e` on, infinity included. -/
def Spec.InDomain : Arg → Prop
  | .nan => False
  | .posInf => True
  | .negInf => False
  | .real z => -(1 / exp 1) ≤ z

/-- The claim that every number outside of the domain is rejected with an exception. -/
def Spec.Rejects : Prop :=
  ∀ tol n eps a, 0 ≤ tol → tol < 1 → a ≠ .nan → ¬ Spec.InDomain a → lambertW0 tol n eps a = .invalidState

/-! ### One step -/

theorem w0_unique {z w w' : ℝ} (h : Spec.IsW0 z w) (h' : Spec.IsW0 z w') : w = w' :=
  lambert_injOn.injOn (Set.mem_Ici.mpr h.1) (Set.mem_Ici.mpr h'.1) (h.2.trans h'.2.symm)

/-- Where iterations that start at `x0` are. -/
def Good (x0 w x : ℝ) : Prop :=
  (w ≤ x ∧ x ≤ x0) ∨ (0 ≤ x0 ∧ x0 ≤ x ∧ x ≤ w ∧ arg w * exp (-x0) ≤ 2 + 3 * x0)

theorem rate_pos (x : ℝ) : 0 < Spec.rate x := by unfold Spec.rate; positivity

theorem rate_le (x : ℝ) : Spec.rate x ≤ 1 / 2 := by
  unfold Spec.rate
  apply one_div_le_one_div_of_le (by norm_num)
  nlinarith [sq_nonneg (x + 2)]

theorem rate_left {x : ℝ} (hx : 0 ≤ x) : Spec.rate x ≤ 1 / 9 := by
  unfold Spec.rate
  apply one_div_le_one_div_of_le (by norm_num)
  nlinarith [sq_nonneg x]

theorem good_gt {x0 w x : ℝ} (hw : -1 < w) (h : Good x0 w x) : -1 < x := by
  rcases h with h | h
  · linarith [h.1]
  · linarith [h.1, h.2.1]

theorem good_step {x0 w x : ℝ} (hw : -1 < w) (h : Good x0 w x) : Good x0 w (newX (arg w) x) := by
  rcases h with h | h
  · have := step_right hw h.1
    exact Or.inl ⟨this.1, this.2.trans h.2⟩
  · have := step_left (show -1 < x by linarith [h.1, h.2.1]) h.2.2.1
    exact Or.inr ⟨h.1, h.2.1.trans this.1, this.2, h.2.2.2⟩

theorem good_bound {x0 w x : ℝ} (h0 : 0 ≤ x0) (hx : x0 ≤ x) (hw : x ≤ w) (hb : arg w * exp (-x0) ≤ 2 + 3 * x0) :
    arg w * exp (-x) ≤ 2 + 3 * x := by
  have h1 : exp (-x) ≤ exp (-x0) := exp_le_exp.mpr (by linarith)
  have h2 : 0 ≤ arg w := mul_nonneg (by linarith) (exp_pos _).le
  nlinarith

/-- A step covers a fixed part of the distance and does not overshoot; the next one is shorter. -/
theorem good_contract {x0 w x : ℝ} (hw : -1 < w) (h : Good x0 w x) :
    Spec.rate x0 * |x - w| ≤ |newX (arg w) x - x| ∧ |newX (arg w) x - w| ≤ (1 - Spec.rate x0) * |x - w| ∧
    |newX (arg w) (newX (arg w) x) - newX (arg w) x| ≤ (1 - Spec.rate x0) * |newX (arg w) x - x| := by
  rcases h with h | ⟨g0, g1, g2, g3⟩
  · obtain ⟨s1, s2⟩ := step_right hw h.1
    obtain ⟨s3, s4⟩ := step_right hw s1
    have a1 := stp_right hw le_rfl h.1
    have a2 := stp_right hw s1 s2
    have hr : Spec.rate x0 ≤ 1 / (2 * ((x + 2) ^ 2 + 1)) := by
      unfold Spec.rate
      apply one_div_le_one_div_of_le (by positivity)
      nlinarith [h.1, h.2]
    rw [stp_self] at a1
    have e1 := newX_eq (arg w) x
    have e2 := newX_eq (arg w) (newX (arg w) x)
    rw [abs_of_nonneg (show 0 ≤ x - w by linarith [h.1]), abs_of_nonpos (show newX (arg w) x - x ≤ 0 by linarith),
      abs_of_nonneg (show 0 ≤ newX (arg w) x - w by linarith),
      abs_of_nonpos (show newX (arg w) (newX (arg w) x) - newX (arg w) x ≤ 0 by linarith)]
    have m1 := mul_le_mul_of_nonneg_right hr (show 0 ≤ x - w by linarith [h.1])
    have m2 := mul_le_mul_of_nonneg_right hr (show 0 ≤ x - newX (arg w) x by linarith)
    refine ⟨by linarith, by linarith, by linarith⟩
  · obtain ⟨s1, s2⟩ := step_left (show -1 < x by linarith) g2
    obtain ⟨s3, s4⟩ := step_left (show -1 < newX (arg w) x by linarith) s2
    have hb := good_bound g0 g1 g2 g3
    have a1 := stp_left (show 0 ≤ x by linarith) g2 le_rfl hb
    have a2 := stp_left (show 0 ≤ x by linarith) s1 s2 hb
    have hr := rate_left g0
    rw [stp_self] at a1
    have e1 := newX_eq (arg w) x
    have e2 := newX_eq (arg w) (newX (arg w) x)
    rw [abs_of_nonpos (show x - w ≤ 0 by linarith), abs_of_nonneg (show 0 ≤ newX (arg w) x - x by linarith),
      abs_of_nonpos (show newX (arg w) x - w ≤ 0 by linarith),
      abs_of_nonneg (show 0 ≤ newX (arg w) (newX (arg w) x) - newX (arg w) x by linarith)]
    have m1 := mul_le_mul_of_nonneg_right hr (show 0 ≤ w - x by linarith)
    have m2 := mul_le_mul_of_nonneg_right hr (show 0 ≤ newX (arg w) x - x by linarith)
    refine ⟨by linarith, by linarith, by linarith⟩

theorem start_good {tol w : ℝ} (ht : tol ≤ 1 / 2) (hw : -1 < w) :
    Good (start tol (arg w)) w (start tol (arg w)) := by
  rcases le_or_gt w (start tol (arg w)) with h | h
  · exact Or.inl ⟨h, le_rfl⟩
  · have := start_left ht hw h
    exact Or.inr ⟨this.1, le_rfl, h.le, this.2⟩

theorem iterate_succ (tol z : ℝ) (k : Nat) : Spec.iterate tol z (k + 1) = newX z (Spec.iterate tol z k) := by
  unfold Spec.iterate
  rw [Function.iterate_succ_apply']

theorem iterate_good {tol w : ℝ} (ht : tol ≤ 1 / 2) (hw : -1 < w) (k : Nat) :
    Good (start tol (arg w)) w (Spec.iterate tol (arg w) k) := by
  induction k with
  | zero => exact start_good ht hw
  | succ k ih => rw [iterate_succ]; exact good_step hw ih

theorem good_uIcc {x0 w x : ℝ} (h : Good x0 w x) : x ∈ uIcc x0 w := by
  rw [mem_uIcc]
  rcases h with h | h
  · exact Or.inr h
  · exact Or.inl ⟨h.2.1, h.2.2.1⟩

/-! ### Properties -/

/-- C97, iteration. Beyond the branch point the iteration divides by positive numbers only, stays above `-1` and between the
initial guess and the value of the principal branch, never passes the value, and the distance to it decreases geometrically
with an explicit rate. -/
theorem iterates_converge (tol z : ℝ) (ht : tol ≤ 1 / 2) (hz : -(1 / exp 1) < z) :
    ∃ w, Spec.IsW0 z w ∧ ∀ k, -1 < Spec.iterate tol z k ∧ 0 < exp (Spec.iterate tol z k) * (Spec.iterate tol z k + 1) ∧
      0 < denom z (Spec.iterate tol z k) ∧ Spec.iterate tol z k ∈ uIcc (start tol z) w ∧
      Spec.iterate tol z (k + 1) ∈ uIcc (Spec.iterate tol z k) w ∧
      |Spec.iterate tol z k - w| ≤ (1 - Spec.rate (start tol z)) ^ k * |start tol z - w| := by
  have hz' : branchPoint < z := by unfold branchPoint; rw [neg_div]; exact hz
  obtain ⟨w, hw, rfl⟩ := exists_value hz'
  refine ⟨w, ⟨hw.le, rfl⟩, fun k => ?_⟩
  have hg := iterate_good ht hw (tol := tol) k
  have hgt := good_gt hw hg
  refine ⟨hgt, slope_pos hgt, denom_pos hgt hz', good_uIcc hg, ?_, ?_⟩
  · rw [iterate_succ, mem_uIcc]
    rcases hg with h | h
    · exact Or.inr (step_right hw h.1)
    · exact Or.inl (step_left hgt h.2.2.1)
  · induction k with
    | zero => simp [Spec.iterate]
    | succ k ih =>
      have hg := iterate_good ht hw (tol := tol) k
      rw [iterate_succ, pow_succ]
      have h1 := (good_contract hw hg).2.1
      have h2 := mul_le_mul_of_nonneg_left (ih hg (good_gt hw hg))
        (show 0 ≤ 1 - Spec.rate (start tol (arg w)) by have := rate_le (start tol (arg w)); linarith)
      calc _ ≤ _ := h1
        _ ≤ _ := h2
        _ = _ := by ring

theorem iterate_tendsto {tol w : ℝ} (ht : tol ≤ 1 / 2) (hw : -1 < w) :
    Tendsto (Spec.iterate tol (arg w)) atTop (𝓝 w) := by
  have hz : -(1 / exp 1) < arg w := by
    have := branch_lt hw
    unfold branchPoint at this
    rwa [neg_div] at this
  obtain ⟨w', hw', h⟩ := iterates_converge tol (arg w) ht hz
  obtain rfl := w0_unique hw' ⟨hw.le, rfl⟩
  rw [tendsto_iff_norm_sub_tendsto_zero]
  have hr := rate_pos (start tol (arg w'))
  have hr' := rate_le (start tol (arg w'))
  have h0 := (tendsto_pow_atTop_nhds_zero_of_lt_one (show 0 ≤ 1 - Spec.rate (start tol (arg w')) by linarith)
    (show 1 - Spec.rate (start tol (arg w')) < 1 by linarith)).mul_const |start tol (arg w') - w'|
  rw [zero_mul] at h0
  exact squeeze_zero (fun _ => norm_nonneg _) (fun k => (h k).2.2.2.2.2) h0

/-- The length of the step before iterate `k`, zero before the first. -/
noncomputable def Spec.lastDiff (tol z : ℝ) : Nat → ℝ
  | 0 => 0
  | k + 1 => |Spec.iterate tol z (k + 1) - Spec.iterate tol z k|

/-- Iteration `k` is the last one. -/
def Spec.Stops (tol eps z : ℝ) (k : Nat) : Prop :=
  floatCmpLe tol |Spec.iterate tol z (k + 1) - Spec.iterate tol z k| (3 * eps * |Spec.iterate tol z k|) ∨
  floatCmpEq tol |Spec.iterate tol z (k + 1) - Spec.iterate tol z k| (Spec.lastDiff tol z k)

theorem loop_from (tol eps z : ℝ) : ∀ n j,
    (loop tol eps z n (Spec.iterate tol z j) (Spec.lastDiff tol z j) = .mathError ∧ ∀ k < n, ¬ Spec.Stops tol eps z (j + k)) ∨
    ∃ k < n, Spec.Stops tol eps z (j + k) ∧ (∀ i < k, ¬ Spec.Stops tol eps z (j + i)) ∧
      loop tol eps z n (Spec.iterate tol z j) (Spec.lastDiff tol z j) = .value (.real (Spec.iterate tol z (j + k + 1)))
  | 0, _ => Or.inl ⟨rfl, fun _ h => absurd h (Nat.not_lt_zero _)⟩
  | n + 1, j => by
    have hst : Spec.Stops tol eps z j ↔ floatCmpLe tol |newX z (Spec.iterate tol z j) - Spec.iterate tol z j|
        (3 * eps * |Spec.iterate tol z j|) ∨ floatCmpEq tol |newX z (Spec.iterate tol z j) - Spec.iterate tol z j|
        (Spec.lastDiff tol z j) := by rw [Spec.Stops, iterate_succ]
    by_cases h : Spec.Stops tol eps z j
    · refine Or.inr ⟨0, Nat.succ_pos _, h, fun _ h => absurd h (Nat.not_lt_zero _), ?_⟩
      rw [loop]
      rw [if_pos (hst.mp h), Nat.add_zero, iterate_succ]
    · have hl : loop tol eps z (n + 1) (Spec.iterate tol z j) (Spec.lastDiff tol z j) =
          loop tol eps z n (Spec.iterate tol z (j + 1)) (Spec.lastDiff tol z (j + 1)) := by
        rw [loop]
        rw [if_neg (fun hh => h (hst.mpr hh)), Spec.lastDiff, iterate_succ]
      rw [hl]
      rcases loop_from tol eps z n (j + 1) with ⟨h1, h2⟩ | ⟨k, h1, h2, h3, h4⟩
      · refine Or.inl ⟨h1, fun k hk => ?_⟩
        rcases k with _ | k
        · exact h
        · have := h2 k (by omega)
          rwa [show j + 1 + k = j + (k + 1) by omega] at this
      · refine Or.inr ⟨k + 1, by omega, by rwa [show j + (k + 1) = j + 1 + k by omega], fun i hi => ?_, ?_⟩
        · rcases i with _ | i
          · exact h
          · have := h3 i (by omega)
            rwa [show j + 1 + i = j + (i + 1) by omega] at this
        · rw [h4, show j + 1 + k + 1 = j + (k + 1) + 1 by omega]

theorem branch_neg {z : ℝ} (hz : -(1 / exp 1) < z) : ¬ z < branchPoint := by
  unfold branchPoint
  rw [neg_div]
  exact not_lt.mpr hz.le

/-- C97, result. Beyond the branch point the call returns the iterate after the first iteration that stops, or throws after
`maxIterations` iterations that do not. -/
theorem lambertW0_result (tol : ℝ) (n : Nat) (eps z : ℝ) (hz : -(1 / exp 1) < z) (hne : ¬ floatCmpEq tol z branchPoint) :
    (lambertW0 tol n eps (.real z) = .mathError ∧ ∀ k < n, ¬ Spec.Stops tol eps z k) ∨
    ∃ k < n, Spec.Stops tol eps z k ∧ (∀ i < k, ¬ Spec.Stops tol eps z i) ∧
      lambertW0 tol n eps (.real z) = .value (.real (Spec.iterate tol z (k + 1))) := by
  have h : lambertW0 tol n eps (.real z) = loop tol eps z n (Spec.iterate tol z 0) (Spec.lastDiff tol z 0) := by
    rw [lambertW0, if_neg hne, if_neg (branch_neg hz)]
    rfl
  rw [h]
  have := loop_from tol eps z n 0
  simpa only [Nat.zero_add] using this

theorem floatCmpLe_bound {tol a b : ℝ} (ht0 : 0 ≤ tol) (ha : 0 ≤ a) (hb : 0 ≤ b) (h : floatCmpLe tol a b) :
    a * (1 - tol) ≤ b := by
  rcases h with h | h
  · nlinarith
  · unfold floatCmpEq at h
    rw [abs_of_nonneg ha, abs_of_nonneg hb] at h
    rcases le_total a b with hab | hab
    · nlinarith
    · rw [max_eq_left hab] at h
      have := (abs_le.mp h).2
      nlinarith

/-- The second test, on the lengths of two steps, does not stop iterations that have not converged. -/
theorem no_early_stop {tol w : ℝ} (ht0 : 0 ≤ tol) (ht : tol ≤ 1 / 2) (hw : -1 < w)
    (hsize : tol < Spec.rate (start tol (arg w))) (k : Nat)
    (h : floatCmpEq tol |Spec.iterate tol (arg w) (k + 1) - Spec.iterate tol (arg w) k| (Spec.lastDiff tol (arg w) k)) :
    Spec.iterate tol (arg w) (k + 1) = Spec.iterate tol (arg w) k := by
  obtain ⟨d, hd⟩ : ∃ d, d = |Spec.iterate tol (arg w) (k + 1) - Spec.iterate tol (arg w) k| := ⟨_, rfl⟩
  have hd0 : 0 ≤ d := hd ▸ abs_nonneg _
  rw [← hd] at h
  suffices hz : d = 0 by
    rw [hz] at hd
    exact sub_eq_zero.mp (abs_eq_zero.mp hd.symm)
  unfold floatCmpEq at h
  cases k with
  | zero =>
    simp only [Spec.lastDiff, sub_zero, abs_zero] at h
    rw [abs_of_nonneg hd0, max_eq_left hd0] at h
    nlinarith
  | succ k =>
    have hc := (good_contract hw (iterate_good ht hw (tol := tol) k)).2.2
    rw [← iterate_succ, ← iterate_succ, ← hd] at hc
    simp only [Spec.lastDiff] at h
    obtain ⟨l, hl⟩ : ∃ l, l = |Spec.iterate tol (arg w) (k + 1) - Spec.iterate tol (arg w) k| := ⟨_, rfl⟩
    rw [← hl] at hc h
    have hl0 : 0 ≤ l := hl ▸ abs_nonneg _
    have hr := rate_pos (start tol (arg w))
    have hr' := rate_le (start tol (arg w))
    have hdl : d ≤ l := by nlinarith
    rw [abs_of_nonneg hd0, abs_of_nonneg hl0, max_eq_right hdl, abs_of_nonpos (by linarith)] at h
    have : l = 0 := by
      by_contra hne
      have : 0 < l := lt_of_le_of_ne hl0 (Ne.symm hne)
      nlinarith
    linarith

/-- C97, accuracy. A value that is returned is a value of the principal branch up to the tolerance, with an explicit factor. It is
assumed that the tolerance of comparisons is small compared with the rate; see `rate_double`. -/
theorem lambertW0_accurate (tol : ℝ) (n : Nat) (eps z v : ℝ) (ht0 : 0 ≤ tol) (ht : tol ≤ 1 / 2) (heps : 0 ≤ eps)
    (hz : -(1 / exp 1) < z) (hne : ¬ floatCmpEq tol z branchPoint) (hsize : tol < Spec.rate (start tol z))
    (hv : lambertW0 tol n eps (.real z) = .value (.real v)) :
    ∃ w, Spec.IsW0 z w ∧ -1 < v ∧ v ∈ uIcc (start tol z) w ∧ ∃ x ∈ uIcc (start tol z) w,
      |v - w| ≤ 3 * eps * |x| / ((1 - tol) * Spec.rate (start tol z)) := by
  have hz' : branchPoint < z := by unfold branchPoint; rw [neg_div]; exact hz
  obtain ⟨w, hw, rfl⟩ := exists_value hz'
  refine ⟨w, ⟨hw.le, rfl⟩, ?_⟩
  rcases lambertW0_result tol n eps _ hz hne with ⟨h, -⟩ | ⟨k, -, hs, -, h⟩
  · rw [h] at hv
    exact absurd hv (by simp)
  rw [h] at hv
  have hv : Spec.iterate tol (arg w) (k + 1) = v := by injection hv with h; injection h
  have hg := iterate_good ht hw (tol := tol) k
  have hg' := iterate_good ht hw (tol := tol) (k + 1)
  obtain ⟨c1, c2, -⟩ := good_contract hw hg
  rw [← iterate_succ] at c1 c2
  rw [hv] at hg' c1 c2
  refine ⟨good_gt hw hg', good_uIcc hg', Spec.iterate tol (arg w) k, good_uIcc hg, ?_⟩
  have hr := rate_pos (start tol (arg w))
  have hr' := rate_le (start tol (arg w))
  have hd : |v - Spec.iterate tol (arg w) k| * (1 - tol) ≤ 3 * eps * |Spec.iterate tol (arg w) k| := by
    have hb : 0 ≤ 3 * eps * |Spec.iterate tol (arg w) k| := by positivity
    rcases hs with hs | hs
    · rw [hv] at hs
      exact floatCmpLe_bound ht0 (abs_nonneg _) hb hs
    · have := no_early_stop ht0 ht hw hsize k hs
      rw [← this, hv, sub_self, abs_zero, zero_mul, ← hv, this]
      exact hb
  rw [le_div_iff₀ (mul_pos (by linarith) hr)]
  have h1 : |v - w| ≤ |Spec.iterate tol (arg w) k - w| := by
    have := abs_nonneg (Spec.iterate tol (arg w) k - w)
    nlinarith
  calc |v - w| * ((1 - tol) * Spec.rate (start tol (arg w)))
      ≤ |Spec.iterate tol (arg w) k - w| * ((1 - tol) * Spec.rate (start tol (arg w))) :=
        mul_le_mul_of_nonneg_right h1 (mul_nonneg (by linarith) hr.le)
    _ = (Spec.rate (start tol (arg w)) * |Spec.iterate tol (arg w) k - w|) * (1 - tol) := by ring
    _ ≤ |v - Spec.iterate tol (arg w) k| * (1 - tol) := mul_le_mul_of_nonneg_right c1 (by linarith)
    _ ≤ _ := hd

/-- C97, termination. For every positive tolerance a value is returned if enough iterations are allowed. -/
theorem lambertW0_terminates (tol eps z : ℝ) (ht : tol ≤ 1 / 2) (heps : 0 < eps)
    (hz : -(1 / exp 1) < z) (hne : ¬ floatCmpEq tol z branchPoint) :
    ∃ N v, ∀ n ≥ N, lambertW0 tol n eps (.real z) = .value (.real v) := by
  have hz' : branchPoint < z := by unfold branchPoint; rw [neg_div]; exact hz
  obtain ⟨w, hw, rfl⟩ := exists_value hz'
  have hex : ∃ k, Spec.Stops tol eps (arg w) k := by
    by_cases h0 : w = 0
    · refine ⟨0, Or.inl (Or.inr ?_)⟩
      have hs : start tol (arg w) = 0 := by
        rw [start_small, h0]
        · simp [arg]
        · rintro ⟨h1, -⟩
          rw [h0] at h1
          simp [arg] at h1
          linarith
      have h2 : Spec.iterate tol (arg w) 0 = 0 := hs
      have h3 : Spec.iterate tol (arg w) (0 + 1) = 0 := by
        rw [iterate_succ, h2, newX_eq, h0]
        have := stp_self 0
        rw [this, sub_zero]
      rw [h3, h2]
      simp [floatCmpEq]
    · have h1 := iterate_tendsto ht hw (tol := tol)
      have h2 := ((tendsto_add_atTop_iff_nat 1).mpr h1).sub h1
      rw [sub_self] at h2
      have h3 := h2.abs
      rw [abs_zero] at h3
      have h4 := (h1.abs).const_mul (3 * eps)
      have hpos : 0 < 3 * eps * |w| := by have := abs_pos.mpr h0; positivity
      obtain ⟨k, hk⟩ := ((h3.eventually (gt_mem_nhds (half_pos hpos))).and
        (h4.eventually (lt_mem_nhds (half_lt_self hpos)))).exists
      exact ⟨k, Or.inl (Or.inl (hk.1.trans hk.2))⟩
  classical
  refine ⟨Nat.find hex + 1, Spec.iterate tol (arg w) (Nat.find hex + 1), fun n hn => ?_⟩
  rcases lambertW0_result tol n eps _ hz hne with ⟨-, h⟩ | ⟨k, -, hs, hf, h⟩
  · exact absurd (Nat.find_spec hex) (h _ (by omega))
  · have : k = Nat.find hex := by
      refine le_antisymm ?_ (Nat.find_min' hex hs)
      by_contra hlt
      exact hf _ (by omega) (Nat.find_spec hex)
    rw [h, this]

/-- C97, domain. What is decided without iterations: numbers that are no real numbers are returned as they are; arguments within the
tolerance of the branch point give `-1`, which is wrong by up to `√(2 tol)`; other arguments below are rejected; and nothing else
is rejected. -/
theorem lambertW0_domain (tol : ℝ) (n : Nat) (eps : ℝ) (ht0 : 0 ≤ tol) (ht : tol < 1) :
    lambertW0 tol n eps .nan = .value .nan ∧ lambertW0 tol n eps .posInf = .value .posInf ∧
    lambertW0 tol n eps .negInf = .value .negInf ∧
    ∀ z, (|z + 1 / exp 1| ≤ tol * max |z| (1 / exp 1) → lambertW0 tol n eps (.real z) = .value (.real (-1)) ∧
        ∀ w, Spec.IsW0 z w → (w + 1) ^ 2 ≤ 2 * tol) ∧
      (¬ |z + 1 / exp 1| ≤ tol * max |z| (1 / exp 1) →
        (lambertW0 tol n eps (.real z) = .invalidState ↔ z < -(1 / exp 1))) := by
  refine ⟨rfl, rfl, rfl, fun z => ?_⟩
  have heq : floatCmpEq tol z branchPoint ↔ |z + 1 / exp 1| ≤ tol * max |z| (1 / exp 1) := by
    unfold floatCmpEq branchPoint
    rw [neg_div, sub_neg_eq_add, abs_neg, abs_of_pos (show 0 < 1 / exp 1 by positivity)]
  have he : 0 < 1 / exp 1 := by positivity
  constructor
  · intro h
    refine ⟨by rw [lambertW0, if_pos (heq.mpr h)], fun w hw => ?_⟩
    -- the argument is negative and not below the branch point
    have hzneg : z < 0 := by
      by_contra hn
      have hn := not_lt.mp hn
      rw [abs_of_nonneg (by linarith), abs_of_nonneg hn] at h
      rcases max_cases z (1 / exp 1) with ⟨hm, -⟩ | ⟨hm, -⟩ <;> rw [hm] at h <;> nlinarith
    have hge : -(1 / exp 1) ≤ z := by
      have := lambert_injOn.monotoneOn (Set.mem_Ici.mpr (le_refl (-1 : ℝ))) (Set.mem_Ici.mpr hw.1) hw.1
      have h1 : (-1 : ℝ) * exp (-1) = -(1 / exp 1) := by rw [exp_neg]; ring
      rw [h1, hw.2] at this
      exact this
    rw [abs_of_nonneg (by linarith), abs_of_neg hzneg, max_eq_right (by linarith)] at h
    -- the parabola below the exponential
    have hpar : (w + 1) ^ 2 / 2 * (1 / exp 1) ≤ z + 1 / exp 1 := by
      have hmono : MonotoneOn (fun s : ℝ => (s - 1) * exp s - s ^ 2 / 2) (Ici 0) := by
        apply monotoneOn_of_deriv_nonneg (convex_Ici _)
        · fun_prop
        · fun_prop
        · intro s hs
          rw [interior_Ici] at hs
          have hs : 0 < s := hs
          have hd : HasDerivAt (fun s : ℝ => (s - 1) * exp s - s ^ 2 / 2) (s * exp s - s) s := by
            have a1 := ((hasDerivAt_id s).sub_const 1).mul (Real.hasDerivAt_exp s)
            have a2 := ((hasDerivAt_id s).pow 2).div_const 2
            refine (a1.sub a2).congr_deriv ?_
            simp only [id]
            ring
          rw [hd.deriv]
          have := Real.add_one_le_exp s
          nlinarith
      have := hmono (mem_Ici.mpr le_rfl) (mem_Ici.mpr (show 0 ≤ w + 1 by linarith [hw.1])) (by linarith [hw.1])
      simp only [exp_zero] at this
      have h2 : exp (w + 1) = exp w * exp 1 := exp_add _ _
      rw [h2] at this
      have h3 : w * exp w * exp 1 * (1 / exp 1) = z := by
        rw [hw.2]
        field_simp
      have h4 := mul_le_mul_of_nonneg_right this he.le
      nlinarith
    have : (w + 1) ^ 2 / 2 * (1 / exp 1) ≤ tol * (1 / exp 1) := hpar.trans h
    have := le_of_mul_le_mul_right this he
    linarith
  · intro h
    have hne : ¬ floatCmpEq tol z branchPoint := fun hh => h (heq.mp hh)
    have hb : branchPoint = -(1 / exp 1) := by unfold branchPoint; rw [neg_div]
    constructor
    · intro hr
      by_contra hn
      have hn := not_lt.mp hn
      rcases eq_or_lt_of_le hn with he' | hlt
      · refine hne ?_
        rw [hb, he']
        simp [floatCmpEq]
        positivity
      · rcases lambertW0_result tol n eps z hlt hne with ⟨h1, -⟩ | ⟨k, -, -, -, h1⟩ <;> rw [h1] at hr <;> simp at hr
    · intro hlt
      rw [lambertW0, if_neg hne, if_pos (by rw [hb]; exact hlt)]

/-- C97, refuted: minus infinity is returned, not rejected. -/
theorem lambertW0_not_rejects : ¬ Spec.Rejects := by
  intro h
  have := h 0 20 0 .negInf le_rfl one_pos (by simp) (by simp [Spec.InDomain])
  simp [lambertW0] at this

/-- C97, derivative. With scalars that carry a derivative with respect to the argument, a step from the exact value gives the exact
derivative of the principal branch, whatever the derivative was before. -/
theorem halley_dual {w : ℝ} (hw : -1 < w) (x : ℝ → ℝ) (x' : ℝ) (hx : x (w * exp w) = w) (hd : HasDerivAt x x' (w * exp w)) :
    HasDerivAt (fun z => newX z (x z)) (1 / (exp w * (w + 1))) (w * exp w) := by
  have hp := slope_pos hw
  have h1 : w + 1 ≠ 0 := by linarith
  have he := (exp_pos w).ne'
  have h2 : exp w * (w + 1) ≠ 0 := hp.ne'
  have hid := hasDerivAt_id (w * exp w)
  have hex : HasDerivAt (fun z => exp (x z)) (exp w * x') (w * exp w) := by
    have := hd.exp
    rwa [hx] at this
  have hf : HasDerivAt (fun z => x z * exp (x z) - z) (x' * exp w + w * (exp w * x') - 1) (w * exp w) := by
    have := (hd.mul hex).sub hid
    simp only [hx] at this
    exact this
  have hp1 : HasDerivAt (fun z => exp (x z) * (x z + 1)) (exp w * x' * (w + 1) + exp w * x') (w * exp w) := by
    have := hex.mul (hd.add_const 1)
    simp only [hx] at this
    exact this
  have hp2 : HasDerivAt (fun z => exp (x z) * (x z + 2)) (exp w * x' * (w + 2) + exp w * x') (w * exp w) := by
    have := hex.mul (hd.add_const 2)
    simp only [hx] at this
    exact this
  have hq := (hp2.div hp1 (by simp only [hx]; exact h2)).const_mul (1 / 2)
  have hden := hp1.sub (hq.mul hf)
  have hzero : w * exp w - w * exp w = 0 := sub_self _
  have hdv : (exp w * (w + 1) - 1 / 2 * (exp w * (w + 2) / (exp w * (w + 1))) * (w * exp w - w * exp w)) ≠ 0 := by
    rw [hzero, mul_zero, sub_zero]
    exact h2
  have hfin := hd.sub (hf.div hden (by simp only [Pi.sub_apply, Pi.mul_apply, Pi.div_apply, hx]; exact hdv))
  refine (hfin.congr_deriv ?_)
  simp only [Pi.sub_apply, Pi.mul_apply, Pi.div_apply, hx, sub_self, mul_zero, sub_zero, zero_mul]
  field_simp
  ring

/-! ### All arguments of type double -/

/-- The assumption of `lambertW0_accurate` holds for the tolerance `8·2⁻⁵²` and all arguments up to `e^1000`. -/
theorem rate_double {z : ℝ} (hz : -(1 / exp 1) < z) (hle : z ≤ exp 1000) : (2 : ℝ)⁻¹ ^ 49 < Spec.rate (start (2⁻¹ ^ 49) z) := by
  have hz' : branchPoint < z := by unfold branchPoint; rw [neg_div]; exact hz
  have hgt := start_gt (tol := 2⁻¹ ^ 49) hz'
  have hub : start (2⁻¹ ^ 49) z ≤ 1030 := by
    by_cases h : floatCmpGt (2⁻¹ ^ 49) z 1
    · have h1 : 1 < z := h.1
      have ha : 0 < log z := log_pos h1
      obtain ⟨a, hae⟩ : ∃ a, a = log z := ⟨_, rfl⟩
      rw [← hae] at ha
      have ha2 : a ≤ 1000 := by
        rw [hae, ← log_exp 1000]
        exact log_le_log (by linarith) hle
      have hA : 1 ≤ a - log a := by have := log_le_sub_one_of_pos ha; linarith
      have hst : start (2⁻¹ ^ 49) z = a - log a - 1 / 2 * (log (a - log a) - log a) := by
        unfold start log1p
        rw [if_pos h]
        simp only
        rw [← hae, ← log_div (by linarith) ha.ne']
        have : 1 + -log a / a = (a - log a) / a := by field_simp; ring
        rw [this]
        norm_num
      have hl := log_nonneg hA
      have hlow : -49 ≤ log a := by
        have h2 : (2 : ℝ)⁻¹ ^ 49 ≤ a := by
          have h3 := h.2
          unfold floatCmpEq at h3
          rw [abs_one, abs_of_pos (by linarith), abs_of_pos (by linarith), max_eq_left h1.le, not_le] at h3
          have h4 := Real.one_sub_inv_le_log_of_pos (show 0 < z by linarith)
          rw [← hae] at h4
          have h5 : (2 : ℝ)⁻¹ ^ 49 * z * z⁻¹ ≤ (z - 1) * z⁻¹ :=
            mul_le_mul_of_nonneg_right h3.le (inv_nonneg.mpr (by linarith))
          have h6 : z * z⁻¹ = 1 := mul_inv_cancel₀ (by linarith)
          nlinarith
        have h3 := log_le_log (by positivity) h2
        rw [log_pow, log_inv] at h3
        have := Real.log_two_lt_d9
        norm_num at h3
        linarith
      rw [hst]
      linarith
    · rw [start_small h]
      have : z ≤ 2 := by
        by_contra hn
        have hn : 2 < z := not_le.mp hn
        refine h ⟨by linarith, fun he => ?_⟩
        unfold floatCmpEq at he
        rw [abs_one, abs_of_pos (by linarith), abs_of_pos (by linarith), max_eq_left (by linarith)] at he
        norm_num at he
        linarith
      linarith
  unfold Spec.rate
  rw [lt_div_iff₀ (by positivity)]
  have : (start (2⁻¹ ^ 49) z + 2) ^ 2 ≤ 1032 ^ 2 := by
    apply pow_le_pow_left₀ <;> linarith
  norm_num at this ⊢
  linarith

/-- The call with the tolerances of double at `z = 1`: a value is returned after enough iterations, and it is accurate. -/
example : ∃ N, ∀ n ≥ N, ∃ v w x, lambertW0 (2⁻¹ ^ 49) n (2⁻¹ ^ 52) (.real 1) = .value (.real v) ∧ Spec.IsW0 1 w ∧
    |v - w| ≤ 3 * 2⁻¹ ^ 52 * |x| / ((1 - 2⁻¹ ^ 49) * Spec.rate (start (2⁻¹ ^ 49) 1)) := by
  have hz : -(1 / exp 1) < (1 : ℝ) := by have : 0 < 1 / exp 1 := by positivity
                                         linarith
  have hne : ¬ floatCmpEq (2⁻¹ ^ 49) 1 branchPoint := by
    unfold floatCmpEq
    have h1 := branchPoint_gt
    have h2 : branchPoint < 0 := by unfold branchPoint; rw [neg_div]; have : 0 < 1 / exp 1 := by positivity
                                    linarith
    rw [abs_one, abs_of_pos (by linarith), abs_of_neg h2, max_eq_left (by linarith)]
    norm_num
    linarith
  obtain ⟨N, v, h⟩ := lambertW0_terminates (2⁻¹ ^ 49) (2⁻¹ ^ 52) 1 (by norm_num) (by positivity) hz hne
  refine ⟨N, fun n hn => ?_⟩
  obtain ⟨w, h1, -, -, x, -, h2⟩ := lambertW0_accurate (2⁻¹ ^ 49) n (2⁻¹ ^ 52) 1 v (by positivity) (by norm_num) (by positivity)
    hz hne (rate_double hz (by have := Real.add_one_le_exp 1000; linarith)) (h n hn)
  exact ⟨v, w, x, h n hn, h1, h2⟩

/-- Below the branch point there is no value, at infinity there is. -/
example : lambertW0 (2⁻¹ ^ 49) 20 (2⁻¹ ^ 52) .posInf = .value .posInf ∧
    lambertW0 (2⁻¹ ^ 49) 20 (2⁻¹ ^ 52) (.real (-1)) = .invalidState := by
  obtain ⟨-, h2, -, h⟩ := lambertW0_domain (2⁻¹ ^ 49) 20 (2⁻¹ ^ 52) (by norm_num) (by norm_num)
  have he : 2 < Real.exp 1 := by linarith [Real.exp_one_gt_d9]
  have hi : 1 / Real.exp 1 < 1 / 2 := one_div_lt_one_div_of_lt (by norm_num) he
  have hi0 : 0 < 1 / Real.exp 1 := by positivity
  refine ⟨h2, ((h (-1)).2 ?_).2 (by linarith)⟩
  rw [not_le, abs_of_neg (show (-1 : ℝ) + 1 / Real.exp 1 < 0 by linarith), abs_neg, abs_one, max_eq_left (by linarith)]
  norm_num at hi ⊢
  linarith

end Lambert

end Ikarus
