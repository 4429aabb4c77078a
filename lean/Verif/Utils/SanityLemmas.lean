import Verif.Utils.SanityModel
import Verif.Utils.NumericProps
import Mathlib.Tactic.NormNum
import Mathlib.Tactic.FieldSimp

/-!
Lemmas for the sanity checks: the slope of a least squares line lies between the slopes of the chords.
-/

namespace Ikarus.Sanity

open Matrix Ikarus.Utils

/-! ### Least squares lines -/

theorem eq_zero_of_quadratic {A B : ℝ} (hB : 0 ≤ B) (h : ∀ ε : ℝ, 0 ≤ 2 * ε * A + ε ^ 2 * B) : A = 0 := by
  have h1 := h (-A / (B + 1))
  have hp : 0 < B + 1 := by linarith
  have h2 : 2 * (-A / (B + 1)) * A + (-A / (B + 1)) ^ 2 * B = -(A ^ 2 * (B + 2)) / (B + 1) ^ 2 := by
    field_simp; ring
  rw [h2, le_div_iff₀ (by positivity)] at h1
  have h3 : A ^ 2 = 0 := by nlinarith [sq_nonneg A, mul_nonneg (sq_nonneg A) hB]
  exact pow_eq_zero_iff two_ne_zero |>.1 h3

theorem lineCore_le {X Y : ℕ → ℝ} {s : ℕ} {c0 c1 m : ℝ} (hs : 1 ≤ s)
    (hmin : ∀ d0 d1 : ℝ, ∑ k ∈ Finset.range (s + 1), (c0 + c1 * X k - Y k) ^ 2 ≤
      ∑ k ∈ Finset.range (s + 1), (d0 + d1 * X k - Y k) ^ 2)
    (hx : ∀ j k, j < k → k ≤ s → X j < X k)
    (hle : ∀ j k, j < k → k ≤ s → Y k - Y j ≤ m * (X k - X j)) : c1 ≤ m := by
  by_contra hc
  have hc : m < c1 := not_le.1 hc
  set r : ℕ → ℝ := fun k => c0 + c1 * X k - Y k with hr
  have hn : ∀ a b : ℝ, ∑ k ∈ Finset.range (s + 1), r k * (a + b * X k) = 0 := by
    intro a b
    refine eq_zero_of_quadratic (B := ∑ k ∈ Finset.range (s + 1), (a + b * X k) ^ 2)
      (Finset.sum_nonneg fun k _ => sq_nonneg _) fun ε => ?_
    have := hmin (c0 + ε * a) (c1 + ε * b)
    rw [← sub_nonneg, ← Finset.sum_sub_distrib] at this
    refine this.trans_eq ?_
    rw [Finset.mul_sum, Finset.mul_sum, ← Finset.sum_add_distrib]
    exact Finset.sum_congr rfl fun k _ => by simp only [hr]; ring
  have h0 : ∑ k ∈ Finset.range (s + 1), r k = 0 := by simpa using hn 1 0
  have h1 : ∑ k ∈ Finset.range (s + 1), r k * X k = 0 := by simpa using hn 0 1
  have hd : ∑ j ∈ Finset.range (s + 1), ∑ k ∈ Finset.range (s + 1), (r k - r j) * (X k - X j) = 0 := by
    have : ∀ j k, (r k - r j) * (X k - X j) = r k * X k - r k * X j - r j * X k + r j * X j := by
      intros; ring
    simp only [this, Finset.sum_add_distrib, Finset.sum_sub_distrib, ← Finset.mul_sum, ← Finset.sum_mul,
      h0, h1, zero_mul, Finset.sum_const, smul_zero]
    rw [Finset.sum_congr rfl fun x _ => mul_smul_comm (Finset.range (s + 1)).card (r x) (X x),
      ← Finset.smul_sum, h1]
    simp
  have hnn : ∀ j ≤ s, ∀ k ≤ s, 0 ≤ (r k - r j) * (X k - X j) := by
    intro j hj k hk
    rcases lt_trichotomy j k with h | h | h
    · have a := hx j k h hk
      have b := hle j k h hk
      refine mul_nonneg ?_ (by linarith)
      simp only [hr]; nlinarith
    · subst h; simp
    · have a := hx k j h hj
      have b := hle k j h hj
      refine mul_nonneg_of_nonpos_of_nonpos ?_ (by linarith)
      simp only [hr]; nlinarith
  have hz := (Finset.sum_eq_zero_iff_of_nonneg (fun j hj => Finset.sum_nonneg fun k hk =>
    hnn j (by have := Finset.mem_range.1 hj; omega) k (by have := Finset.mem_range.1 hk; omega))).1 hd 0
    (Finset.mem_range.2 (by omega))
  have hz1 := (Finset.sum_eq_zero_iff_of_nonneg (fun k hk =>
    hnn 0 (by omega) k (by have := Finset.mem_range.1 hk; omega))).1 hz 1 (Finset.mem_range.2 (by omega))
  have a := hx 0 1 (by omega) hs
  have b := hle 0 1 (by omega) hs
  have : 0 < (r 1 - r 0) * (X 1 - X 0) := by
    refine mul_pos ?_ (by linarith)
    simp only [hr]; nlinarith
  linarith

theorem lineCore_ge {X Y : ℕ → ℝ} {s : ℕ} {c0 c1 m : ℝ} (hs : 1 ≤ s)
    (hmin : ∀ d0 d1 : ℝ, ∑ k ∈ Finset.range (s + 1), (c0 + c1 * X k - Y k) ^ 2 ≤
      ∑ k ∈ Finset.range (s + 1), (d0 + d1 * X k - Y k) ^ 2)
    (hx : ∀ j k, j < k → k ≤ s → X j < X k)
    (hge : ∀ j k, j < k → k ≤ s → m * (X k - X j) ≤ Y k - Y j) : m ≤ c1 := by
  have := lineCore_le (X := X) (Y := fun k => -Y k) (s := s) (c0 := -c0) (c1 := -c1) (m := -m) hs ?_ hx ?_
  · linarith
  · intro d0 d1
    have h := hmin (-d0) (-d1)
    refine (le_of_eq (Finset.sum_congr rfl fun k _ => by ring)).trans
      (h.trans (le_of_eq (Finset.sum_congr rfl fun k _ => by ring)))
  · intro j k h1 h2
    have := hge j k h1 h2
    linarith

theorem lineError_le_iff {x y : List ℝ} {i s : ℕ} {c0 c1 d0 d1 : ℝ} :
    Utils.Spec.lineError x y i s c0 c1 ≤ Utils.Spec.lineError x y i s d0 d1 ↔
    ∑ k ∈ Finset.range (s + 1), (c0 + c1 * (x[i + k]?).getD 0 - (y[i + k]?).getD 0) ^ 2 ≤
      ∑ k ∈ Finset.range (s + 1), (d0 + d1 * (x[i + k]?).getD 0 - (y[i + k]?).getD 0) ^ 2 := by
  rw [Utils.Spec.lineError, Utils.Spec.lineError, Real.sqrt_le_sqrt_iff]
  · rfl
  · exact List.sum_nonneg fun a ha => by
      obtain ⟨k, -, rfl⟩ := List.mem_map.1 ha
      exact sq_nonneg _

/-! ### The sample points -/

theorem steps_length : steps.length = 100 := by simp [steps]

theorem steps_get {k : ℕ} (hk : k < 100) :
    steps[k]? = some ((10 : ℝ) ^ (-8 + 6 * (k : ℝ) / 99 : ℝ)) := by
  rw [steps, List.getElem?_map, List.getElem?_range hk]; rfl

theorem logSteps_get {k : ℕ} (hk : k < 100) :
    ((steps.map (Real.logb 10))[k]?).getD 0 = -8 + 6 * (k : ℝ) / 99 := by
  rw [List.getElem?_map, steps_get hk]
  simp only [Option.map_some, Option.getD_some]
  exact Real.logb_rpow (by norm_num) (by norm_num)

theorem steps_pos {t : ℝ} (ht : t ∈ steps) : 0 < t := by
  obtain ⟨k, -, rfl⟩ := List.mem_map.1 ht
  positivity

theorem errors_eq {X : Type} {n : Nat} {update : X → (Fin n → ℝ) → X} (hu : ∀ x v, update (update x v) (-v) = x)
    (value : ℝ → X → ℝ) (b : Fin n → ℝ) (x : X) (ts : List ℝ) :
    errors update value b x ts = ts.map fun t => value t (update x (t • b)) := by
  induction ts with
  | nil => rfl
  | cons t ts ih =>
    simp only [errors, List.map_cons]
    rw [show -t • b = -(t • b) from neg_smul t b, hu, ih]

theorem copyRange_full : copyRange rangeSize (rangeSize + 1) 0 = none := by decide

/-! ### Bounds of the slope -/

theorem foldl_max_lt {l : List ℝ} {a c : ℝ} : l.foldl max a < c ↔ a < c ∧ ∀ v ∈ l, v < c := by
  induction l generalizing a with
  | nil => simp
  | cons v l ih => rw [List.foldl_cons, ih]; simp [and_assoc]

theorem rangeNorm_lt {y : List ℝ} {i : ℕ} {c : ℝ} (hc : 0 < c) :
    rangeNorm y i < c ↔ ∀ k ≤ rangeSize, |(y[i + k]?).getD 0| < c := by
  rw [rangeNorm, foldl_max_lt]
  constructor
  · rintro ⟨-, h⟩ k hk
    exact h _ (List.mem_map.2 ⟨k, List.mem_range.2 (by omega), rfl⟩)
  · intro h
    refine ⟨hc, fun v hv => ?_⟩
    obtain ⟨k, hk, rfl⟩ := List.mem_map.1 hv
    exact h k (by have := List.mem_range.1 hk; omega)

/-- The found window and the slope for positive errors. -/
theorem slope_spec {qr : QRSolver} (hqr : Utils.Spec.LeastSquares qr) {R : ℝ → ℝ}
    (hpos : ∀ t ∈ steps, 0 < R t) :
    ∃ i c, i + 10 < 100 ∧
      drawResultAndReturnSlope qr false (steps.map R) =
        some (if ∀ k ≤ 10, ∀ t, steps[i + k]? = some t → R t < 1e-10 then .infinite else .value c) ∧
      (∀ m : ℝ, (∀ j k : ℕ, j < k → k < 100 → Real.logb 10 (R (10 ^ (-8 + 6 * (k : ℝ) / 99 : ℝ))) -
        Real.logb 10 (R (10 ^ (-8 + 6 * (j : ℝ) / 99 : ℝ))) ≤ m * (6 * (k : ℝ) / 99 - 6 * (j : ℝ) / 99)) →
        c ≤ m) ∧
      (∀ m : ℝ, (∀ j k : ℕ, j < k → k < 100 → m * (6 * (k : ℝ) / 99 - 6 * (j : ℝ) / 99) ≤
        Real.logb 10 (R (10 ^ (-8 + 6 * (k : ℝ) / 99 : ℝ))) -
        Real.logb 10 (R (10 ^ (-8 + 6 * (j : ℝ) / 99 : ℝ)))) → m ≤ c) ∧
      (∀ c0 c1 : ℝ, (∀ k : ℕ, k ≤ 10 → Real.logb 10 (R (10 ^ (-8 + 6 * (k : ℝ) / 99 : ℝ))) =
        c0 + c1 * (-8 + 6 * (k : ℝ) / 99)) → i = 0) := by
  classical
  have hl : (steps.map (Real.logb 10)).length = 100 := by rw [List.length_map, steps_length]
  obtain ⟨c, i, h1, h2, h3, h4⟩ := findLineSegment_best hqr (x := steps.map (Real.logb 10))
    (y := (steps.map R).map (Real.logb 10)) (s := rangeSize) (by rw [hl]; decide)
    (by simp)
  rw [hl] at h2
  have hi : i + 10 < 100 := h2
  have hmin := fun d0 d1 => lineError_le_iff.1 (h3 i (by rw [hl]; exact h2) d0 d1)
  have hX : ∀ k ≤ rangeSize, ((steps.map (Real.logb 10))[i + k]?).getD 0 =
      -8 + 6 * ((i + k : ℕ) : ℝ) / 99 := fun k hk =>
    logSteps_get (by have : k ≤ 10 := hk; omega)
  have hY : ∀ k ≤ rangeSize, (((steps.map R).map (Real.logb 10))[i + k]?).getD 0 =
      Real.logb 10 (R (10 ^ (-8 + 6 * ((i + k : ℕ) : ℝ) / 99 : ℝ))) := by
    intro k hk
    rw [List.getElem?_map, List.getElem?_map, steps_get (by have : k ≤ 10 := hk; omega)]
    rfl
  have hx : ∀ j k, j < k → k ≤ rangeSize → ((steps.map (Real.logb 10))[i + j]?).getD 0 <
      ((steps.map (Real.logb 10))[i + k]?).getD 0 := by
    intro j k hjk hk
    rw [hX j (by omega), hX k hk]
    have : ((i + j : ℕ) : ℝ) < ((i + k : ℕ) : ℝ) := Nat.cast_lt.2 (by omega)
    linarith
  refine ⟨i, c 1, hi, ?_, ?_, ?_, ?_⟩
  · have hne : steps ≠ [] := by intro h; have := steps_length; rw [h] at this; simp at this
    obtain ⟨t0, ht0⟩ := List.exists_mem_of_ne_nil _ hne
    rw [drawResultAndReturnSlope, if_neg, if_neg, h1]
    · simp only [Option.bind_eq_bind, Option.bind_some, drawing, Bool.false_eq_true, if_false]
      have hiff : rangeNorm (steps.map R) i < 1e-10 ↔
          ∀ k ≤ 10, ∀ t, steps[i + k]? = some t → R t < 1e-10 := by
        rw [rangeNorm_lt (by norm_num)]
        refine forall_congr' fun k => forall_congr' fun hk => ?_
        have hk' : i + k < 100 := by have : k ≤ 10 := hk; omega
        rw [List.getElem?_map, steps_get hk']
        simp only [Option.map_some, Option.getD_some, Option.some.injEq, forall_eq']
        rw [abs_of_pos (hpos _ (List.mem_of_getElem? (steps_get hk')))]
      by_cases hc : rangeNorm (steps.map R) i < 1e-10
      · rw [if_pos hc, if_pos (hiff.1 hc)]; rfl
      · rw [if_neg hc, if_neg (fun h => hc (hiff.2 h))]; rfl
    · rintro ⟨v, hv, h0⟩
      obtain ⟨t, ht, rfl⟩ := List.mem_map.1 hv
      exact absurd h0 (hpos t ht).ne'
    · intro h
      exact (hpos t0 ht0).ne' (h _ (List.mem_map.2 ⟨t0, ht0, rfl⟩))
  · intro m hm
    refine lineCore_le (s := rangeSize) (by decide) hmin hx fun j k hjk hk => ?_
    rw [hX j (by omega), hX k hk, hY j (by omega), hY k hk]
    refine (hm (i + j) (i + k) (by omega) (by have : k ≤ 10 := hk; omega)).trans_eq (by ring)
  · intro m hm
    refine lineCore_ge (s := rangeSize) (by decide) hmin hx fun j k hjk hk => ?_
    rw [hX j (by omega), hX k hk, hY j (by omega), hY k hk]
    refine le_of_eq_of_le (by ring) (hm (i + j) (i + k) (by omega) (by have : k ≤ 10 := hk; omega))
  · intro c0 c1 hc
    by_contra hne
    have := h4 0 (by omega) c0 c1
    have hz : Utils.Spec.lineError (steps.map (Real.logb 10)) ((steps.map R).map (Real.logb 10)) 0 rangeSize
        c0 c1 = 0 := by
      rw [Utils.Spec.lineError, Real.sqrt_eq_zero']
      refine le_of_eq (List.sum_eq_zero fun a ha => ?_)
      obtain ⟨k, hk, rfl⟩ := List.mem_map.1 ha
      have hk10 : k < 11 := List.mem_range.1 hk
      rw [Nat.zero_add, logSteps_get (by omega), List.getElem?_map, List.getElem?_map,
        steps_get (by omega)]
      simp only [Option.map_some, Option.getD_some]
      rw [hc k (by omega)]; ring
    rw [hz] at this
    exact absurd this (not_lt.2 (Real.sqrt_nonneg _))

end Ikarus.Sanity
