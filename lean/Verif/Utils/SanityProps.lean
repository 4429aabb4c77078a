import Verif.Utils.SanityLemmas
import Mathlib.Analysis.Calculus.Deriv.Basic
import Mathlib.Data.Fin.VecNotation

/-!
Properties of the sanity checks of derivatives.
-/

namespace Ikarus.Sanity

open Matrix Ikarus.Utils

namespace Spec

/-- Moving along a direction and back ends where it started. -/
def Reversible {X : Type} {n : Nat} (update : X → (Fin n → ℝ) → X) : Prop :=
  ∀ x v, update (update x v) (-v) = x

/-- `R(t) / t^s` does not decrease between the smallest and the largest step. -/
def GrowsAtLeast (R : ℝ → ℝ) (s : ℝ) : Prop :=
  ∀ t t', 1e-8 ≤ t → t ≤ t' → t' ≤ 1e-2 → R t * t' ^ s ≤ R t' * t ^ s

/-- `R(t) / t^s` does not increase between the smallest and the largest step. -/
def GrowsAtMost (R : ℝ → ℝ) (s : ℝ) : Prop :=
  ∀ t t', 1e-8 ≤ t → t ≤ t' → t' ≤ 1e-2 → R t' * t ^ s ≤ R t * t' ^ s

/-- The remainder of first order along a direction, the slope `a` claimed. -/
def remainder (φ : ℝ → ℝ) (a t : ℝ) : ℝ := |φ t - φ 0 - t * a|

/-- The remainder of second order along a direction. -/
noncomputable def remainder2 (φ : ℝ → ℝ) (a q t : ℝ) : ℝ := |φ t - φ 0 - t * a - t ^ 2 / 2 * q|

/-- The check has a result, and it is positive. -/
def Passes (r : Option Prop) : Prop := ∃ P, r = some P ∧ P

/-- The check has a result, and it is negative. -/
def Fails (r : Option Prop) : Prop := ∃ P, r = some P ∧ ¬ P

end Spec

/-! ### Growth and logarithms -/

theorem step_mem {k : ℕ} (hk : k < 100) :
    (1e-8 : ℝ) ≤ 10 ^ (-8 + 6 * (k : ℝ) / 99 : ℝ) ∧ (10 : ℝ) ^ (-8 + 6 * (k : ℝ) / 99 : ℝ) ≤ 1e-2 := by
  have h1 : (1e-8 : ℝ) = 10 ^ (-8 : ℝ) := by
    rw [Real.rpow_neg (by norm_num)]; norm_num
  have h2 : (1e-2 : ℝ) = 10 ^ (-2 : ℝ) := by
    rw [Real.rpow_neg (by norm_num)]; norm_num
  have h3 : (k : ℝ) ≤ 99 := by exact_mod_cast Nat.lt_succ_iff.1 hk
  have h4 : (0 : ℝ) ≤ k := Nat.cast_nonneg k
  rw [h1, h2]
  constructor <;> exact Real.rpow_le_rpow_of_exponent_le (by norm_num) (by linarith)

theorem steps_bounds {t : ℝ} (ht : t ∈ steps) : 1e-8 ≤ t ∧ t ≤ 1e-2 := by
  obtain ⟨k, hk, rfl⟩ := List.mem_map.1 ht
  exact step_mem (List.mem_range.1 hk)

theorem log_growth {u v x y s : ℝ} (hu : 0 < u) (hv : 0 < v)
    (h : u * ((10 : ℝ) ^ y) ^ s ≤ v * ((10 : ℝ) ^ x) ^ s) :
    s * (y - x) ≤ Real.logb 10 v - Real.logb 10 u := by
  have h1 := Real.logb_le_logb_of_le (b := 10) (by norm_num) (by positivity) h
  rw [Real.logb_mul hu.ne' (by positivity), Real.logb_mul hv.ne' (by positivity), ← Real.rpow_mul (by norm_num),
    ← Real.rpow_mul (by norm_num), Real.logb_rpow (by norm_num) (by norm_num),
    Real.logb_rpow (by norm_num) (by norm_num)] at h1
  linarith

theorem accepts_of_le {ref tol s : ℝ} (ht : 0 ≤ tol) (h : ref ≤ s) : floatCmpLe tol ref s := by
  rcases h.lt_or_eq with h | h
  · exact .inl h
  · subst h
    right
    rw [floatCmpEq, sub_self, abs_zero]
    exact mul_nonneg ht (le_max_of_le_left (abs_nonneg _))

theorem rejects_of_lt {ref tol s : ℝ} (ht : 0 ≤ tol) (ht1 : tol < 1) (hr : 0 < ref)
    (h : s < ref * (1 - tol)) : ¬ floatCmpLe tol ref s := by
  have hs : s < ref := by nlinarith
  rintro (h1 | h1)
  · linarith
  · rw [floatCmpEq, abs_of_pos (by linarith : 0 < ref - s), abs_of_pos hr] at h1
    rcases le_total |s| ref with c | c
    · rw [max_eq_left c] at h1; nlinarith
    · rw [max_eq_right c] at h1
      rcases abs_cases s with ⟨e, -⟩ | ⟨e, -⟩
      · linarith
      · rw [e] at h1 c; nlinarith

theorem slope_accepts {qr : QRSolver} (hqr : Utils.Spec.LeastSquares qr) {tol ref : ℝ} (ht : 0 ≤ tol)
    {R : ℝ → ℝ} (h : (∀ t ∈ steps, R t = 0) ∨
      (∀ t ∈ steps, 0 < R t) ∧ Spec.GrowsAtLeast R ref) :
    Spec.Passes ((drawResultAndReturnSlope qr false (steps.map R)).bind (accepts ref tol)) := by
  rcases h with h | ⟨hp, hg⟩
  · refine ⟨True, ?_, trivial⟩
    rw [drawResultAndReturnSlope, if_pos]
    · rfl
    · intro v hv
      obtain ⟨t, ht, rfl⟩ := List.mem_map.1 hv
      exact h t ht
  · obtain ⟨i, c, -, h1, -, h2, -⟩ := slope_spec hqr hp
    have hc : ref ≤ c := by
      refine h2 ref fun j k hjk hk => ?_
      have hj : j < 100 := by omega
      have hjk' : (j : ℝ) ≤ k := Nat.cast_le.2 hjk.le
      refine le_of_eq_of_le (by ring) (log_growth (hp _ (List.mem_of_getElem? (steps_get hj)))
        (hp _ (List.mem_of_getElem? (steps_get hk))) (hg _ _ (step_mem hj).1 ?_ (step_mem hk).2))
      exact Real.rpow_le_rpow_of_exponent_le (by norm_num) (by linarith)
    rw [h1]
    split
    · exact ⟨True, rfl, trivial⟩
    · exact ⟨_, rfl, accepts_of_le ht hc⟩

theorem slope_rejects {qr : QRSolver} (hqr : Utils.Spec.LeastSquares qr) {tol ref m : ℝ} (ht : 0 ≤ tol)
    (ht1 : tol < 1) (hr : 0 < ref) (hm : m < ref * (1 - tol)) {R : ℝ → ℝ}
    (hp : ∀ t ∈ steps, 1e-10 ≤ R t) (hg : Spec.GrowsAtMost R m) :
    Spec.Fails ((drawResultAndReturnSlope qr false (steps.map R)).bind (accepts ref tol)) := by
  have hp0 : ∀ t ∈ steps, 0 < R t := fun t h => lt_of_lt_of_le (by norm_num) (hp t h)
  obtain ⟨i, c, hi, h1, h2, -, -⟩ := slope_spec hqr hp0
  have hc : c ≤ m := by
    refine h2 m fun j k hjk hk => ?_
    have hj : j < 100 := by omega
    have hjk' : (j : ℝ) ≤ k := Nat.cast_le.2 hjk.le
    have := log_growth (x := -8 + 6 * (k : ℝ) / 99) (y := -8 + 6 * (j : ℝ) / 99)
      (hp0 _ (List.mem_of_getElem? (steps_get hk)))
      (hp0 _ (List.mem_of_getElem? (steps_get hj))) (hg _ _ (step_mem hj).1 ?_ (step_mem hk).2)
    · nlinarith
    · exact Real.rpow_le_rpow_of_exponent_le (by norm_num) (by linarith)
  rw [h1, if_neg]
  · exact ⟨_, rfl, rejects_of_lt ht ht1 hr (lt_of_le_of_lt hc hm)⟩
  · intro h
    exact absurd (h 0 (by omega) _ (steps_get (by omega)))
      (not_lt.2 (hp _ (List.mem_of_getElem? (steps_get (by omega)))))

/-! ### The checks in terms of remainders -/

variable {X : Type} {n : Nat}

theorem checkGradient_eq {qr : QRSolver} {flags : CheckFlags} {update : X → (Fin n → ℝ) → X}
    (hu : Spec.Reversible update) {f : X → ℝ} {g : Fin n → ℝ} {p : X} {b : Fin n → ℝ} {φ : ℝ → ℝ}
    (hφ : ∀ t, φ t = f (update p (t • b))) (h0 : φ 0 = f p) :
    checkGradient qr flags update f g p b =
      (drawResultAndReturnSlope qr flags.draw (steps.map (Spec.remainder φ (g ⬝ᵥ b)))).bind
        (accepts 2 flags.tolerance) := by
  simp only [checkGradient, errors_eq hu, Option.bind_eq_bind]
  congr 3
  funext t
  rw [Spec.remainder, hφ t, h0]

theorem checkHessian_eq {qr : QRSolver} {flags : CheckFlags} {update : X → (Fin n → ℝ) → X}
    (hu : Spec.Reversible update) {f : X → ℝ} {g : Fin n → ℝ} {H : Matrix (Fin n) (Fin n) ℝ} {p : X}
    {b : Fin n → ℝ} {φ : ℝ → ℝ} (hφ : ∀ t, φ t = f (update p (t • b))) (h0 : φ 0 = f p) :
    checkHessian qr flags update f g H p b =
      (drawResultAndReturnSlope qr flags.draw (steps.map (Spec.remainder2 φ (g ⬝ᵥ b) (b ⬝ᵥ H.mulVec b)))).bind
        (accepts 3 flags.tolerance) := by
  simp only [checkHessian, errors_eq hu, Option.bind_eq_bind]
  congr 3
  funext t
  rw [Spec.remainder2, hφ t, h0, dotProduct_comm b]
  congr 1
  ring

/-- C78. The gradient check passes, without drawing, whenever the remainder of first order along the
direction grows at least quadratically over the steps, or vanishes. -/
theorem checkGradient_accepts {qr : QRSolver} (hqr : Utils.Spec.LeastSquares qr) {tol : ℝ} (ht : 0 ≤ tol)
    {update : X → (Fin n → ℝ) → X} (hu : Spec.Reversible update) {f : X → ℝ} {g : Fin n → ℝ} {p : X}
    {b : Fin n → ℝ} {φ : ℝ → ℝ} (hφ : ∀ t, φ t = f (update p (t • b))) (h0 : φ 0 = f p)
    (h : (∀ t ∈ Set.Icc (1e-8 : ℝ) 1e-2, Spec.remainder φ (g ⬝ᵥ b) t = 0) ∨
      (∀ t ∈ Set.Icc (1e-8 : ℝ) 1e-2, 0 < Spec.remainder φ (g ⬝ᵥ b) t) ∧
        Spec.GrowsAtLeast (Spec.remainder φ (g ⬝ᵥ b)) 2) :
    Spec.Passes (checkGradient qr { draw := false, tolerance := tol } update f g p b) := by
  rw [checkGradient_eq hu hφ h0]
  refine slope_accepts hqr ht ?_
  rcases h with h | ⟨h1, h2⟩
  · exact .inl fun t ht => h t (steps_bounds ht)
  · exact .inr ⟨fun t ht => h1 t (steps_bounds ht), h2⟩

/-- C78. The gradient check fails, without drawing, whenever the remainder along the direction is not
negligible and grows with an exponent below the reference by more than the tolerance. -/
theorem checkGradient_rejects {qr : QRSolver} (hqr : Utils.Spec.LeastSquares qr) {tol m : ℝ} (ht : 0 ≤ tol)
    (ht1 : tol < 1) (hm : m < 2 * (1 - tol))
    {update : X → (Fin n → ℝ) → X} (hu : Spec.Reversible update) {f : X → ℝ} {g : Fin n → ℝ} {p : X}
    {b : Fin n → ℝ} {φ : ℝ → ℝ} (hφ : ∀ t, φ t = f (update p (t • b))) (h0 : φ 0 = f p)
    (h1 : ∀ t ∈ Set.Icc (1e-8 : ℝ) 1e-2, 1e-10 ≤ Spec.remainder φ (g ⬝ᵥ b) t)
    (h2 : Spec.GrowsAtMost (Spec.remainder φ (g ⬝ᵥ b)) m) :
    Spec.Fails (checkGradient qr { draw := false, tolerance := tol } update f g p b) := by
  rw [checkGradient_eq hu hφ h0]
  exact slope_rejects hqr ht ht1 (by norm_num) hm (fun t ht => h1 t (steps_bounds ht)) h2

/-- C78. The Hessian check passes, without drawing, whenever the remainder of second order along the
direction grows at least cubically over the steps, or vanishes. -/
theorem checkHessian_accepts {qr : QRSolver} (hqr : Utils.Spec.LeastSquares qr) {tol : ℝ} (ht : 0 ≤ tol)
    {update : X → (Fin n → ℝ) → X} (hu : Spec.Reversible update) {f : X → ℝ} {g : Fin n → ℝ}
    {H : Matrix (Fin n) (Fin n) ℝ} {p : X}
    {b : Fin n → ℝ} {φ : ℝ → ℝ} (hφ : ∀ t, φ t = f (update p (t • b))) (h0 : φ 0 = f p)
    (h : (∀ t ∈ Set.Icc (1e-8 : ℝ) 1e-2, Spec.remainder2 φ (g ⬝ᵥ b) (b ⬝ᵥ H.mulVec b) t = 0) ∨
      (∀ t ∈ Set.Icc (1e-8 : ℝ) 1e-2, 0 < Spec.remainder2 φ (g ⬝ᵥ b) (b ⬝ᵥ H.mulVec b) t) ∧
        Spec.GrowsAtLeast (Spec.remainder2 φ (g ⬝ᵥ b) (b ⬝ᵥ H.mulVec b)) 3) :
    Spec.Passes (checkHessian qr { draw := false, tolerance := tol } update f g H p b) := by
  rw [checkHessian_eq hu hφ h0]
  refine slope_accepts hqr ht ?_
  rcases h with h | ⟨h1, h2⟩
  · exact .inl fun t ht => h t (steps_bounds ht)
  · exact .inr ⟨fun t ht => h1 t (steps_bounds ht), h2⟩

/-- C78. The Hessian check fails, without drawing, whenever the remainder of second order is not negligible
and grows with an exponent below three by more than the tolerance. -/
theorem checkHessian_rejects {qr : QRSolver} (hqr : Utils.Spec.LeastSquares qr) {tol m : ℝ} (ht : 0 ≤ tol)
    (ht1 : tol < 1) (hm : m < 3 * (1 - tol))
    {update : X → (Fin n → ℝ) → X} (hu : Spec.Reversible update) {f : X → ℝ} {g : Fin n → ℝ}
    {H : Matrix (Fin n) (Fin n) ℝ} {p : X}
    {b : Fin n → ℝ} {φ : ℝ → ℝ} (hφ : ∀ t, φ t = f (update p (t • b))) (h0 : φ 0 = f p)
    (h1 : ∀ t ∈ Set.Icc (1e-8 : ℝ) 1e-2, 1e-10 ≤ Spec.remainder2 φ (g ⬝ᵥ b) (b ⬝ᵥ H.mulVec b) t)
    (h2 : Spec.GrowsAtMost (Spec.remainder2 φ (g ⬝ᵥ b) (b ⬝ᵥ H.mulVec b)) m) :
    Spec.Fails (checkHessian qr { draw := false, tolerance := tol } update f g H p b) := by
  rw [checkHessian_eq hu hφ h0]
  exact slope_rejects hqr ht ht1 (by norm_num) hm (fun t ht => h1 t (steps_bounds ht)) h2

/-- C78. The Jacobian check passes, without drawing, when the function is quadratic along the direction and
the claimed Jacobian has the right image of the direction. -/
theorem checkJacobian_accepts_quadratic {qr : QRSolver} (hqr : Utils.Spec.LeastSquares qr) {tol : ℝ}
    (ht : 0 ≤ tol) {update : X → (Fin n → ℝ) → X} (hu : Spec.Reversible update) {f : X → Fin n → ℝ}
    {J : Matrix (Fin n) (Fin n) ℝ} {p : X} {b a h : Fin n → ℝ}
    (hf : ∀ t i, f (update p (t • b)) i = f p i + t * a i + t ^ 2 * h i) (hJ : J.mulVec b = a) :
    Spec.Passes (checkJacobian qr { draw := false, tolerance := tol } update f J p b) := by
  simp only [checkJacobian, errors_eq hu, Option.bind_eq_bind]
  have hR : ∀ t, Real.sqrt (∑ i, (f (update p (t • b)) i - f p i - t * J.mulVec b i) ^ 2) =
      t ^ 2 * Real.sqrt (∑ i, h i ^ 2) := by
    intro t
    rw [← Real.sqrt_sq (sq_nonneg t), ← Real.sqrt_mul (by positivity)]
    congr 1
    rw [Finset.mul_sum]
    exact Finset.sum_congr rfl fun i _ => by rw [hf, hJ]; ring
  refine slope_accepts (R := fun t => Real.sqrt (∑ i, (f (update p (t • b)) i - f p i -
    t * J.mulVec b i) ^ 2)) hqr ht ?_
  rcases (Real.sqrt_nonneg (∑ i, h i ^ 2)).eq_or_lt with h0 | h0
  · exact .inl fun t _ => by rw [hR, ← h0, mul_zero]
  · refine .inr ⟨fun t ht => ?_, fun t t' h1 h2 h3 => ?_⟩
    · rw [hR]; have := steps_pos ht; positivity
    · simp only [hR, Real.rpow_ofNat]
      exact le_of_eq (by ring)

/-- C78. Concretely: along the direction `f` is a cubic polynomial with a right gradient and with the
quadratic and the cubic term of the same sign.  The gradient check passes. -/
theorem checkGradient_accepts_cubic {qr : QRSolver} (hqr : Utils.Spec.LeastSquares qr) {tol : ℝ}
    (ht : 0 ≤ tol) {f : (Fin n → ℝ) → ℝ} {g p b : Fin n → ℝ} {h k : ℝ} (hk : 0 ≤ h * k)
    (hf : ∀ t : ℝ, f (p + t • b) = f p + t * (g ⬝ᵥ b) + t ^ 2 * h + t ^ 3 * k) :
    Spec.Passes (checkGradient qr { draw := false, tolerance := tol } (· + ·) f g p b) := by
  refine checkGradient_accepts hqr ht (fun x v => add_neg_cancel_right x v)
    (φ := fun t => f (p + t • b)) (fun t => rfl) (by simp) ?_
  have hR : ∀ t, 0 ≤ t → Spec.remainder (fun t => f (p + t • b)) (g ⬝ᵥ b) t = t ^ 2 * |h| + t ^ 3 * |k| := by
    intro t h0
    rw [Spec.remainder]
    simp only [hf t, zero_smul, add_zero]
    rw [show f p + t * (g ⬝ᵥ b) + t ^ 2 * h + t ^ 3 * k - f p - t * (g ⬝ᵥ b) = t ^ 2 * h + t ^ 3 * k by ring]
    rcases mul_nonneg_iff.1 hk with ⟨a, b⟩ | ⟨a, b⟩
    · rw [abs_of_nonneg a, abs_of_nonneg b, abs_of_nonneg (by positivity)]
    · rw [abs_of_nonpos a, abs_of_nonpos b, abs_of_nonpos]
      · ring
      · nlinarith [mul_nonneg (pow_nonneg h0 2) (neg_nonneg.2 a), mul_nonneg (pow_nonneg h0 3) (neg_nonneg.2 b)]
  by_cases hz : h = 0 ∧ k = 0
  · refine .inl fun t ht => ?_
    rw [hR t (le_trans (by norm_num) ht.1), hz.1, hz.2]; simp
  · refine .inr ⟨fun t ht => ?_, fun t t' h1 h2 h3 => ?_⟩
    · have h0 : 0 < t := lt_of_lt_of_le (by norm_num) ht.1
      rw [hR t h0.le]
      rcases not_and_or.1 hz with c | c
      · have := abs_pos.2 c; positivity
      · have := abs_pos.2 c; positivity
    · have h0 : 0 < t := lt_of_lt_of_le (by norm_num) h1
      rw [hR t h0.le, hR t' (by linarith), Real.rpow_ofNat, Real.rpow_ofNat]
      have : 0 ≤ t ^ 2 * t' ^ 2 * |k| * (t' - t) := by
        have : 0 ≤ t' - t := by linarith
        positivity
      nlinarith

/-- C78. Concretely: along the direction `f` is a quadratic polynomial and the claimed slope is off by `d`.
The gradient check fails if `d` is at least 0.02 and dominates the curvature. -/
theorem checkGradient_rejects_quadratic {qr : QRSolver} (hqr : Utils.Spec.LeastSquares qr)
    {f : (Fin n → ℝ) → ℝ} {g p b : Fin n → ℝ} {h d : ℝ} (hd : 0.02 ≤ |d|) (hh : |h| ≤ 50 * |d|)
    (hf : ∀ t : ℝ, f (p + t • b) = f p + t * (g ⬝ᵥ b + d) + t ^ 2 * h) :
    Spec.Fails (checkGradient qr { draw := false, tolerance := 1e-2 } (· + ·) f g p b) := by
  have hR : ∀ t, 0 ≤ t → Spec.remainder (fun t => f (p + t • b)) (g ⬝ᵥ b) t = t * |d + t * h| := by
    intro t h0
    rw [Spec.remainder]
    simp only [hf t, zero_smul, add_zero]
    rw [show f p + t * (g ⬝ᵥ b + d) + t ^ 2 * h - f p - t * (g ⬝ᵥ b) = t * (d + t * h) by ring, abs_mul,
      abs_of_nonneg h0]
  -- the sign of the slope is that of `d`
  obtain ⟨σ, hσ, hσ'⟩ : ∃ σ : ℝ, σ * d = |d| ∧ |σ| = 1 := by
    rcases abs_cases d with ⟨e, -⟩ | ⟨e, -⟩
    · exact ⟨1, by rw [e]; ring, by simp⟩
    · exact ⟨-1, by rw [e]; ring, by simp⟩
  have hb : |σ * h| ≤ 50 * |d| := by rw [abs_mul, hσ', one_mul]; exact hh
  obtain ⟨hb1, hb2⟩ := abs_le.1 hb
  have hS : ∀ t, 0 ≤ t → t ≤ 1e-2 → |d + t * h| = |d| + t * (σ * h) := by
    intro t h0 h1
    have : |d + t * h| = |σ * (d + t * h)| := by rw [abs_mul, hσ', one_mul]
    rw [this, abs_of_nonneg]
    · rw [← hσ]; ring
    · rw [mul_add, hσ]
      nlinarith
  refine checkGradient_rejects hqr (m := 3 / 2) (by norm_num) (by norm_num) (by norm_num)
    (fun x v => add_neg_cancel_right x v) (φ := fun t => f (p + t • b)) (fun t => rfl) (by simp) ?_ ?_
  · intro t ht
    have h0 : 0 < t := lt_of_lt_of_le (by norm_num) ht.1
    rw [hR t h0.le, hS t h0.le ht.2]
    have h1 := ht.1
    have h2 := ht.2
    have : 0.01 ≤ |d| + t * (σ * h) := by nlinarith
    nlinarith
  · intro t t' h1 h2 h3
    have h0 : 0 < t := lt_of_lt_of_le (by norm_num) h1
    have h0' : 0 < t' := by linarith
    rw [hR t h0.le, hR t' h0'.le, hS t h0.le (by linarith), hS t' h0'.le h3]
    have e : ∀ u : ℝ, 0 < u → u ^ (3 / 2 : ℝ) = u * Real.sqrt u := by
      intro u hu
      rw [show (3 / 2 : ℝ) = 1 + 1 / 2 by norm_num, Real.rpow_add hu, Real.rpow_one, Real.sqrt_eq_rpow]
    rw [e t h0, e t' h0']
    have s1 := Real.sqrt_nonneg t
    have s2 : Real.sqrt t ≤ Real.sqrt t' := Real.sqrt_le_sqrt h2
    have q1 := Real.mul_self_sqrt h0.le
    have q2 := Real.mul_self_sqrt h0'.le
    have hB : Real.sqrt t * Real.sqrt t' * (σ * h) ≤ |d| := by
      have : Real.sqrt t * Real.sqrt t' ≤ 1e-2 := by nlinarith
      have : 0 ≤ Real.sqrt t * Real.sqrt t' := by positivity
      nlinarith [abs_nonneg d]
    have key : (|d| + t' * (σ * h)) * Real.sqrt t ≤ (|d| + t * (σ * h)) * Real.sqrt t' := by
      have := mul_nonneg (sub_nonneg.2 s2) (sub_nonneg.2 hB)
      rw [← q1, ← q2]
      simp only [Real.sqrt_mul_self s1, Real.sqrt_mul_self (s1.trans s2)]
      nlinarith
    have := mul_le_mul_of_nonneg_left key (by positivity : 0 ≤ t * t')
    nlinarith

/-- A function, a point and a direction meeting the hypotheses of the two theorems above: `x² + x³` at
zero, with the right slope zero and with the wrong slope one. -/
example : (∀ t : ℝ, (fun x : Fin 1 → ℝ => x 0 ^ 2 + x 0 ^ 3) (0 + t • ![1]) =
      (fun x : Fin 1 → ℝ => x 0 ^ 2 + x 0 ^ 3) 0 + t * ((0 : Fin 1 → ℝ) ⬝ᵥ ![1]) + t ^ 2 * 1 + t ^ 3 * 1) ∧
    (∀ t : ℝ, (fun x : Fin 1 → ℝ => x 0 ^ 2) (0 + t • ![1]) =
      (fun x : Fin 1 → ℝ => x 0 ^ 2) 0 + t * ((![1] : Fin 1 → ℝ) ⬝ᵥ ![1] + (-1)) + t ^ 2 * 1) ∧
    (0.02 : ℝ) ≤ |(-1 : ℝ)| ∧ |(1 : ℝ)| ≤ 50 * |(-1 : ℝ)| := by
  refine ⟨fun t => by simp, fun t => by simp, by norm_num, by norm_num⟩

/-- C78. Along a direction in which `f` is affine and the claimed slope is off by `d`, the gradient check
passes exactly if the error at the eleventh step stays below `1e-10`. -/
theorem checkGradient_affine_iff {qr : QRSolver} (hqr : Utils.Spec.LeastSquares qr) {tol : ℝ} (ht : 0 ≤ tol)
    (ht1 : tol < 1 / 2) {f : (Fin n → ℝ) → ℝ} {g p b : Fin n → ℝ} {d : ℝ}
    (hf : ∀ t : ℝ, f (p + t • b) = f p + t * (g ⬝ᵥ b + d)) :
    ∃ P, checkGradient qr { draw := false, tolerance := tol } (· + ·) f g p b = some P ∧
      (P ↔ |d| * (10 : ℝ) ^ (-8 + 60 / 99 : ℝ) < 1e-10) := by
  have hR : ∀ t, 0 ≤ t → Spec.remainder (fun t => f (p + t • b)) (g ⬝ᵥ b) t = |d| * t := by
    intro t h0
    rw [Spec.remainder]
    simp only [hf t, zero_smul, add_zero]
    rw [show f p + t * (g ⬝ᵥ b + d) - f p - t * (g ⬝ᵥ b) = d * t by ring, abs_mul, abs_of_nonneg h0]
  rw [checkGradient_eq (fun x v => add_neg_cancel_right x v) (φ := fun t => f (p + t • b)) (fun t => rfl)
    (by simp)]
  by_cases hd : d = 0
  · obtain ⟨P, h1, h2⟩ := slope_accepts hqr (ref := 2) ht
      (R := Spec.remainder (fun t => f (p + t • b)) (g ⬝ᵥ b))
      (.inl fun t ht => by rw [hR t (steps_pos ht).le, hd, abs_zero, zero_mul])
    exact ⟨P, h1, fun _ => by rw [hd]; norm_num, fun _ => h2⟩
  · have hd' : 0 < |d| := abs_pos.2 hd
    obtain ⟨i, c, -, h1, h2, -, h3⟩ := slope_spec hqr
      (R := Spec.remainder (fun t => f (p + t • b)) (g ⬝ᵥ b)) fun t ht => by
        rw [hR t (steps_pos ht).le]; exact mul_pos hd' (steps_pos ht)
    have hlog : ∀ x : ℝ, Real.logb 10 (Spec.remainder (fun t => f (p + t • b)) (g ⬝ᵥ b) (10 ^ x)) =
        Real.logb 10 |d| + x := by
      intro x
      rw [hR _ (by positivity), Real.logb_mul hd'.ne' (by positivity),
        Real.logb_rpow (by norm_num) (by norm_num)]
    have hi : i = 0 := h3 (Real.logb 10 |d|) 1 fun k _ => by rw [hlog, one_mul]
    subst hi
    have hc : c ≤ 1 := h2 1 fun j k _ _ => by rw [hlog, hlog]; linarith
    have hiff : (∀ k ≤ 10, ∀ t, steps[0 + k]? = some t →
        Spec.remainder (fun t => f (p + t • b)) (g ⬝ᵥ b) t < 1e-10) ↔
        |d| * (10 : ℝ) ^ (-8 + 60 / 99 : ℝ) < 1e-10 := by
      constructor
      · intro h
        have := h 10 le_rfl _ (steps_get (by omega))
        rw [hR _ (by positivity)] at this
        norm_num at this ⊢
        exact this
      · intro h k hk t ht
        rw [Nat.zero_add, steps_get (by omega)] at ht
        cases ht
        rw [hR _ (by positivity)]
        refine lt_of_le_of_lt (mul_le_mul_of_nonneg_left ?_ hd'.le) h
        refine Real.rpow_le_rpow_of_exponent_le (by norm_num) ?_
        have : (k : ℝ) ≤ 10 := by exact_mod_cast hk
        linarith
    rw [h1]
    by_cases hh : |d| * (10 : ℝ) ^ (-8 + 60 / 99 : ℝ) < 1e-10
    · rw [if_pos (hiff.2 hh)]
      exact ⟨True, rfl, fun _ => hh, fun _ => trivial⟩
    · rw [if_neg fun h => hh (hiff.1 h)]
      exact ⟨_, rfl, fun h => absurd h (rejects_of_lt ht (by linarith) (by norm_num) (by linarith)),
        fun h => absurd h hh⟩

namespace Spec

/-- The full claim for the gradient check: what passes is the derivative along the direction. -/
def GradientCheckSound : Prop :=
  ∀ qr, Utils.Spec.LeastSquares qr → ∀ (n : Nat) (f : (Fin n → ℝ) → ℝ) (g p b : Fin n → ℝ),
    Passes (checkGradient qr { draw := false, tolerance := 1e-2 } (· + ·) f g p b) →
      HasDerivAt (fun t : ℝ => f (p + t • b)) (g ⬝ᵥ b) 0

/-- The full claim for the Hessian check of a function with constant gradient: what passes in all
directions is the zero matrix. -/
def HessianCheckSound : Prop :=
  ∀ qr, Utils.Spec.LeastSquares qr → ∀ (n : Nat) (g p : Fin n → ℝ) (H : Matrix (Fin n) (Fin n) ℝ),
    (∀ b, Passes (checkHessian qr { draw := false, tolerance := 1e-2 } (· + ·) (fun x => g ⬝ᵥ x) g H p b)) →
      H = 0

end Spec

/-- C78. The full claim is false: for the zero function the gradient `0.001` passes. -/
theorem gradientCheckSound_false : ¬ Spec.GradientCheckSound := by
  intro h
  obtain ⟨qr, hqr⟩ := exists_leastSquares
  obtain ⟨P, h1, h2⟩ := checkGradient_affine_iff hqr (tol := 1e-2) (by norm_num) (by norm_num)
    (f := fun _ : Fin 1 → ℝ => 0) (g := ![0.001]) (p := 0) (b := ![1]) (d := -0.001) (fun t => by simp)
  have hs : (10 : ℝ) ^ (-8 + 60 / 99 : ℝ) < 1e-7 := by
    have : (1e-7 : ℝ) = 10 ^ (-7 : ℝ) := by rw [Real.rpow_neg (by norm_num)]; norm_num
    rw [this]
    exact Real.rpow_lt_rpow_of_exponent_lt (by norm_num) (by norm_num)
  have hP : P := h2.2 (by
    rw [abs_neg, abs_of_pos (by norm_num)]
    nlinarith)
  have hd := h qr hqr 1 _ _ _ _ ⟨P, h1, hP⟩
  have := hd.unique (hasDerivAt_const (0 : ℝ) (0 : ℝ))
  norm_num at this

/-- C78. The Hessian check never sees the skew part of the matrix. -/
theorem checkHessian_skew (qr : QRSolver) (flags : CheckFlags) (update : X → (Fin n → ℝ) → X) (f : X → ℝ)
    (g : Fin n → ℝ) (H W : Matrix (Fin n) (Fin n) ℝ) (hW : Wᵀ = -W) (p : X) (b : Fin n → ℝ) :
    checkHessian qr flags update f g (H + W) p b = checkHessian qr flags update f g H p b := by
  have h0 : W.mulVec b ⬝ᵥ b = 0 := by
    have h1 : W.mulVec b ⬝ᵥ b = Wᵀ.mulVec b ⬝ᵥ b := by
      rw [dotProduct_comm, dotProduct_mulVec, ← mulVec_transpose]
    rw [hW, neg_mulVec, neg_dotProduct] at h1
    linarith
  simp only [checkHessian, add_mulVec, add_dotProduct, h0, add_zero]

/-- C78. So the full claim for the Hessian check is false as well: for a linear function the matrix
`[[0, 1], [-1, 0]]` passes in every direction. -/
theorem hessianCheckSound_false : ¬ Spec.HessianCheckSound := by
  intro h
  obtain ⟨qr, hqr⟩ := exists_leastSquares
  have := h qr hqr 2 0 0 !![0, 1; -1, 0] fun b => by
    rw [show (!![0, 1; -1, 0] : Matrix (Fin 2) (Fin 2) ℝ) = 0 + !![0, 1; -1, 0] by simp,
      checkHessian_skew _ _ _ _ _ _ _ (by ext i j; fin_cases i <;> fin_cases j <;> simp)]
    refine checkHessian_accepts hqr (by norm_num) (fun x v => add_neg_cancel_right x v)
      (φ := fun _ => 0) (fun t => by simp) (by simp) (.inl fun t _ => ?_)
    simp [Spec.remainder2]
  have h01 := congrFun (congrFun this 0) 1
  simp at h01

/-- C78. With drawing switched on, which is the default, every check writes past the end of the vectors it
draws from: the range has eleven points, the vectors ten. -/
theorem checks_drawing_undefined (qr : QRSolver) (flags : CheckFlags) (hd : flags.draw = true)
    (update : X → (Fin n → ℝ) → X) (f : X → ℝ) (F : X → Fin n → ℝ) (g : Fin n → ℝ)
    (H : Matrix (Fin n) (Fin n) ℝ) (p : X) (b : Fin n → ℝ) :
    checkGradient qr flags update f g p b = none ∧ checkJacobian qr flags update F H p b = none ∧
      checkHessian qr flags update f g H p b = none := by
  have h : ∀ y, drawResultAndReturnSlope qr true y = none := by
    intro y
    have hdr : drawing true = none := by rw [drawing, if_pos rfl, copyRange_full]
    rw [drawResultAndReturnSlope, hdr]
    split
    · rfl
    · split
      · rfl
      · cases findLineSegment qr (steps.map (Real.logb 10)) (y.map (Real.logb 10)) rangeSize <;> rfl
  refine ⟨?_, ?_, ?_⟩ <;> simp only [checkGradient, checkJacobian, checkHessian, hd, h] <;> rfl

example : defaultFlags.draw = true := rfl

end Ikarus.Sanity
