import Verif.Analysis.ConvergenceLemmas
import Mathlib.Analysis.InnerProductSpace.Basic

/-!
Newton's method for an equation with one unknown more than equations, together with the condition that the solution has a given
distance from a point: lemmas in Euclidean space, without elements and solvers.
-/

set_option linter.unusedSectionVars false

namespace Ikarus.Arc

open Inner

variable {Z : Type*} [NormedAddCommGroup Z] [InnerProductSpace ℝ Z] {W : Type*} [NormedAddCommGroup W] [NormedSpace ℝ W]

/-- In the region `Ω` the map `G` has the derivative `T`, which changes at a rate of at most `L`, has a kernel of dimension one,
and is bounded from below orthogonally to its kernel. -/
structure Region (G : Z → W) (T : Z → Z →ₗ[ℝ] W) (Ω : Set Z) (β L : ℝ) : Prop where
  deriv : ∀ z ∈ Ω, ∀ v : Z, HasDerivAt (fun t : ℝ => G (z + t • v)) (T z v) 0
  lipschitz : ∀ z ∈ Ω, ∀ z' ∈ Ω, ∀ v : Z, ‖T z v - T z' v‖ ≤ L * ‖z - z'‖ * ‖v‖
  regular : ∀ z ∈ Ω, ∃ t : Z, ‖t‖ = 1 ∧ T z t = 0 ∧ ∀ w : Z, inner ℝ t w = 0 → ‖w‖ ≤ β * ‖T z w‖

variable {G : Z → W} {T : Z → Z →ₗ[ℝ] W} {Ω : Set Z} {β L : ℝ}

theorem Region.mono {Ω' : Set Z} (h : Region G T Ω β L) (hs : Ω' ⊆ Ω) : Region G T Ω' β L :=
  ⟨fun z hz => h.deriv z (hs hz), fun z hz z' hz' => h.lipschitz z (hs hz) z' (hs hz'), fun z hz => h.regular z (hs hz)⟩

theorem Region.remainder (h : Region G T Ω β L) {z v : Z} (hw : ∀ t ∈ Set.Icc (0 : ℝ) 1, z + t • v ∈ Ω) :
    ‖G (z + v) - G z - T z v‖ ≤ L / 2 * ‖v‖ ^ 2 := by
  have h0 : z ∈ Ω := by simpa using hw 0 ⟨le_rfl, zero_le_one⟩
  have key := linear_remainder (fun t : ℝ => G (z + t • v)) (fun t => T (z + t • v) v) (L * ‖v‖ ^ 2) (fun t ht => ?_)
    (fun t ht => ?_)
  · simp only [one_smul, zero_smul, add_zero] at key
    exact key.trans (le_of_eq (by ring))
  · have h1 := h.deriv _ (hw t ht) v
    have h2 := HasDerivAt.comp_sub_const t t (f := fun s : ℝ => G (z + t • v + s • v)) (by rw [sub_self]; exact h1)
    have h3 : (fun s : ℝ => G (z + t • v + (s - t) • v)) = fun s => G (z + s • v) := by
      funext s
      congr 1
      module
    rwa [h3] at h2
  · simp only [zero_smul, add_zero]
    refine (h.lipschitz _ (hw t ht) _ h0 v).trans (le_of_eq ?_)
    rw [add_sub_cancel_left, norm_smul, Real.norm_of_nonneg ht.1]
    ring

/-- The second difference. -/
theorem Region.second (h : Region G T Ω β L) {z d : Z} (h1 : ∀ t ∈ Set.Icc (0 : ℝ) 1, z + t • d ∈ Ω)
    (h2 : ∀ t ∈ Set.Icc (0 : ℝ) 1, z + t • (-d) ∈ Ω) : ‖G (z + d)‖ ≤ 2 * ‖G z‖ + ‖G (z - d)‖ + L * ‖d‖ ^ 2 := by
  have e1 := h.remainder h1
  have e2 := h.remainder h2
  rw [map_neg, norm_neg, ← sub_eq_add_neg] at e2
  have e3 : G (z + d) = (G (z + d) - G z - T z d) + (G (z - d) - G z - -T z d) + (G z + G z) - G (z - d) := by abel
  rw [e3]
  refine (norm_sub_le _ _).trans ?_
  have e4 := norm_add_le ((G (z + d) - G z - T z d) + (G (z - d) - G z - -T z d)) (G z + G z)
  have e5 := norm_add_le (G (z + d) - G z - T z d) (G (z - d) - G z - -T z d)
  have e6 := norm_add_le (G z) (G z)
  linarith

theorem bordered_scalar {β c α ν i W R n : ℝ} (hβ : 1 ≤ β) (hn : n ^ 2 + c ^ 2 = 1) (hn0 : 0 ≤ n) (hn1 : n ≤ 1 / 2)
    (hν : ν = i + c * α) (hi : |i| ≤ 1 / 2 * W) (hW : 0 ≤ W) (hWR : W ≤ β * R) :
    W ^ 2 + α ^ 2 ≤ (2 * β) ^ 2 * (R ^ 2 + ν ^ 2) := by
  have hc2 : 3 / 4 ≤ c ^ 2 := by nlinarith
  have hi2 : i ^ 2 ≤ 1 / 4 * W ^ 2 := by
    have := sq_le_sq' (neg_le_of_abs_le hi) (le_of_abs_le hi)
    nlinarith
  have h1 : (c * α) ^ 2 ≤ 2 * ν ^ 2 + 2 * i ^ 2 := by
    have : c * α = ν - i := by linarith
    rw [this]
    nlinarith [sq_nonneg (ν + i)]
  have hα2 : 3 / 4 * α ^ 2 ≤ 2 * ν ^ 2 + 2 * i ^ 2 := by
    have h2 : 3 / 4 * α ^ 2 ≤ c ^ 2 * α ^ 2 := mul_le_mul_of_nonneg_right hc2 (sq_nonneg α)
    rw [← mul_pow] at h2
    exact h2.trans h1
  have hb2 : W ^ 2 ≤ β ^ 2 * R ^ 2 := by
    rw [← mul_pow]
    exact pow_le_pow_left₀ hW hWR 2
  have hβ2 : 1 ≤ β ^ 2 := by nlinarith
  have h3 : ν ^ 2 ≤ β ^ 2 * ν ^ 2 := le_mul_of_one_le_left (sq_nonneg ν) hβ2
  have h4 : (2 * β) ^ 2 * (R ^ 2 + ν ^ 2) = 4 * (β ^ 2 * R ^ 2) + 4 * (β ^ 2 * ν ^ 2) := by ring
  rw [h4]
  linarith [mul_nonneg (sq_nonneg β) (sq_nonneg R), mul_nonneg (sq_nonneg β) (sq_nonneg ν)]

/-- A row close to the kernel completes the derivative to a regular matrix. -/
theorem bordered {S : Z →ₗ[ℝ] W} (hβ : 1 ≤ β) {t n w : Z} (ht : ‖t‖ = 1) (hSt : S t = 0)
    (hS : ∀ w : Z, inner ℝ t w = 0 → ‖w‖ ≤ β * ‖S w‖) (hn : ‖n‖ = 1) (hSn : β * ‖S n‖ ≤ 1 / 2) :
    ‖w‖ ^ 2 ≤ (2 * β) ^ 2 * (‖S w‖ ^ 2 + inner ℝ n w ^ 2) := by
  have htt : inner ℝ t t = (1 : ℝ) := by rw [real_inner_self_eq_norm_sq, ht]; norm_num
  -- parts along and across the kernel
  obtain ⟨c, hc⟩ : ∃ c : ℝ, c = inner ℝ t n := ⟨_, rfl⟩
  obtain ⟨α, hα⟩ : ∃ α : ℝ, α = inner ℝ t w := ⟨_, rfl⟩
  obtain ⟨n', hn'⟩ : ∃ n', n' = n - c • t := ⟨_, rfl⟩
  obtain ⟨w', hw'⟩ : ∃ w', w' = w - α • t := ⟨_, rfl⟩
  have htn' : inner ℝ t n' = (0 : ℝ) := by rw [hn', inner_sub_right, inner_smul_right, htt, ← hc]; ring
  have htw' : inner ℝ t w' = (0 : ℝ) := by rw [hw', inner_sub_right, inner_smul_right, htt, ← hα]; ring
  have hSn' : S n' = S n := by rw [hn', map_sub, map_smul, hSt, smul_zero, sub_zero]
  have hSw' : S w' = S w := by rw [hw', map_sub, map_smul, hSt, smul_zero, sub_zero]
  have bn : ‖n'‖ ≤ 1 / 2 := (hS n' htn').trans (by rw [hSn']; exact hSn)
  have bw : ‖w'‖ ≤ β * ‖S w‖ := (hS w' htw').trans (by rw [hSw'])
  have en : n = n' + c • t := by rw [hn']; abel
  have ew : w = w' + α • t := by rw [hw']; abel
  have hn't : inner ℝ n' t = (0 : ℝ) := by rw [real_inner_comm]; exact htn'
  have hw't : inner ℝ w' t = (0 : ℝ) := by rw [real_inner_comm]; exact htw'
  have nn : ‖n'‖ ^ 2 + c ^ 2 = 1 := by
    have := real_inner_self_eq_norm_sq n
    rw [hn, en, inner_add_left, inner_add_right, inner_add_right, inner_smul_left, inner_smul_right, inner_smul_right,
      inner_smul_left, htt, hn't, htn', real_inner_self_eq_norm_sq] at this
    simp only [conj_trivial] at this
    nlinarith
  have nw : ‖w‖ ^ 2 = ‖w'‖ ^ 2 + α ^ 2 := by
    rw [← real_inner_self_eq_norm_sq, ew, inner_add_left, inner_add_right, inner_add_right, inner_smul_left, inner_smul_right,
      inner_smul_right, inner_smul_left, htt, hw't, htw', real_inner_self_eq_norm_sq]
    simp only [conj_trivial]
    ring
  have nu : inner ℝ n w = inner ℝ n' w' + c * α := by
    conv_lhs => rw [en, ew]
    rw [inner_add_left, inner_add_right, inner_add_right, inner_smul_left, inner_smul_right,
      inner_smul_right, inner_smul_left, htt, hn't, htw']
    simp only [conj_trivial]
    ring
  have hcs : |inner ℝ n' w'| ≤ 1 / 2 * ‖w'‖ :=
    (abs_real_inner_le_norm _ _).trans (mul_le_mul_of_nonneg_right bn (norm_nonneg _))
  rw [nw]
  exact bordered_scalar hβ nn (norm_nonneg _) bn nu hcs (norm_nonneg _) bw

/-- The length of a vector and its linearisation. -/
theorem norm_remainder {d v : Z} {N : ℝ} (hd : ‖d‖ = N) (hN : 0 < N) :
    |‖d + v‖ - (N + inner ℝ d v / N)| ≤ ‖v‖ ^ 2 / (2 * N) := by
  have e : ‖d + v‖ ^ 2 = N ^ 2 + 2 * inner ℝ d v + ‖v‖ ^ 2 := by rw [norm_add_sq_real, hd]
  obtain ⟨i, hi⟩ : ∃ i : ℝ, i = inner ℝ d v / N := ⟨_, rfl⟩
  have hi' : inner ℝ d v = N * i := by rw [hi]; field_simp
  rw [hi'] at e
  rw [← hi]
  obtain ⟨q, hq⟩ : ∃ q : ℝ, q = ‖v‖ ^ 2 / (2 * N) := ⟨_, rfl⟩
  have hq' : ‖v‖ ^ 2 = 2 * N * q := by rw [hq]; field_simp
  rw [hq'] at e
  rw [← hq]
  have hcs : |i| ≤ ‖v‖ := by
    have := abs_real_inner_le_norm d v
    rw [hi', abs_mul, abs_of_pos hN, hd] at this
    exact le_of_mul_le_mul_left this hN
  have hi2 : i ^ 2 ≤ 2 * N * q := by
    rw [← hq']
    exact sq_le_sq' (neg_le_of_abs_le hcs) (le_of_abs_le hcs)
  have hq0 : 0 ≤ q := by rw [hq]; positivity
  have hn0 := norm_nonneg (d + v)
  rw [abs_le]
  constructor
  · have : N + i ≤ ‖d + v‖ := by
      by_contra hlt
      push Not at hlt
      nlinarith
    linarith
  · have h1 : 0 ≤ N + i + q := by nlinarith [sq_nonneg (N + i)]
    have : ‖d + v‖ ≤ N + i + q := by
      by_contra hlt
      push Not at hlt
      have : (N + i + q) ^ 2 < ‖d + v‖ ^ 2 := by
        have := mul_self_lt_mul_self h1 hlt
        nlinarith
      nlinarith [sq_nonneg (i + q)]
    linarith

/-- The size of the residual of the equation and the condition. -/
noncomputable def merit (G : Z → W) (p : Z) (s : ℝ) (z : Z) : ℝ := Real.sqrt (‖G z‖ ^ 2 + (‖z - p‖ - s) ^ 2)

theorem merit_nonneg (G : Z → W) (p : Z) (s : ℝ) (z : Z) : 0 ≤ merit G p s z := Real.sqrt_nonneg _

theorem merit_sq (G : Z → W) (p : Z) (s : ℝ) (z : Z) : merit G p s z ^ 2 = ‖G z‖ ^ 2 + (‖z - p‖ - s) ^ 2 :=
  Real.sq_sqrt (by positivity)

theorem norm_le_merit (G : Z → W) (p : Z) (s : ℝ) (z : Z) : ‖G z‖ ≤ merit G p s z :=
  Real.le_sqrt_of_sq_le (by nlinarith [sq_nonneg (‖z - p‖ - s)])

theorem arc_le_merit (G : Z → W) (p : Z) (s : ℝ) (z : Z) : |‖z - p‖ - s| ≤ merit G p s z := by
  apply Real.le_sqrt_of_sq_le
  rw [sq_abs]
  nlinarith [sq_nonneg ‖G z‖]

theorem merit_le (G : Z → W) (p : Z) (s : ℝ) (z : Z) : merit G p s z ≤ ‖G z‖ + |‖z - p‖ - s| := by
  apply Real.sqrt_le_iff.2
  refine ⟨by positivity, ?_⟩
  nlinarith [sq_abs (‖z - p‖ - s), mul_nonneg (norm_nonneg (G z)) (abs_nonneg (‖z - p‖ - s))]

/-- What is asked of step size and tolerance. -/
structure Small (β L s tol : ℝ) : Prop where
  beta : 1 ≤ β
  rate : 0 ≤ L
  size : 0 < s
  nonneg : 0 ≤ tol
  curvature : 32 * β ^ 2 * L * s ≤ 1
  tolerance : 96 * β ^ 2 * tol ≤ s

theorem Small.sq (h : Small β L s tol) : β ≤ β ^ 2 := by nlinarith [h.beta]

variable {p z : Z} {s tol : ℝ}

theorem segment_ball {r : ℝ} {z v : Z} (h0 : z ∈ Metric.closedBall p r) (h1 : z + v ∈ Metric.closedBall p r) :
    ∀ t ∈ Set.Icc (0 : ℝ) 1, z + t • v ∈ Metric.closedBall p r := by
  intro t ht
  have := (convex_closedBall p r) h0 h1 (sub_nonneg.2 ht.2) ht.1 (by ring : 1 - t + t = 1)
  have e : (1 - t) • z + t • (z + v) = z + t • v := by module
  rwa [e] at this

theorem Small.beta_mul (h : Small β L s tol) {g : ℝ} (hg : 12 * β ^ 2 * g ≤ s) (hg0 : 0 ≤ g) : 12 * g ≤ s ∧ 12 * (β * g) ≤ s := by
  have h1 := h.beta
  have h2 := h.sq
  constructor <;> nlinarith

/-- Near the solution the derivative and the row of the condition are regular together. -/
theorem step_regular (h : Region G T (Metric.closedBall p (2 * s)) β L) (hs : Small β L s tol) (hp : ‖G p‖ ≤ tol)
    (hz : 12 * β ^ 2 * merit G p s z ≤ s) :
    11 / 12 * s ≤ ‖z - p‖ ∧ ‖z - p‖ ≤ 13 / 12 * s ∧
    ∀ w : Z, ‖w‖ ^ 2 ≤ (2 * β) ^ 2 * (‖T z w‖ ^ 2 + (inner ℝ (z - p) w / ‖z - p‖) ^ 2) := by
  have g0 := merit_nonneg G p s z
  obtain ⟨b1, b2⟩ := hs.beta_mul hz g0
  have ha := abs_le.1 (arc_le_merit G p s z)
  have l1 : 11 / 12 * s ≤ ‖z - p‖ := by linarith [ha.1]
  have l2 : ‖z - p‖ ≤ 13 / 12 * s := by linarith [ha.2]
  have hs0 := hs.size
  have hN : 0 < ‖z - p‖ := by linarith
  refine ⟨l1, l2, fun w => ?_⟩
  have hzΩ : z ∈ Metric.closedBall p (2 * s) := by rw [mem_closedBall_iff_norm]; linarith
  have hpΩ : p ∈ Metric.closedBall p (2 * s) := by rw [mem_closedBall_iff_norm, sub_self, norm_zero]; linarith
  obtain ⟨t, ht, hTt, hT⟩ := h.regular z hzΩ
  have hrem := h.remainder (z := z) (v := p - z) (segment_ball hzΩ (by rw [add_sub_cancel]; exact hpΩ))
  rw [add_sub_cancel, norm_sub_rev p z] at hrem
  have hTz : ‖T z (z - p)‖ ≤ merit G p s z + tol + L / 2 * ‖z - p‖ ^ 2 := by
    have e1 : T z (z - p) = (G p - G z - T z (p - z)) + G z - G p := by
      rw [← neg_sub z p, map_neg]; abel
    rw [e1]
    have e2 := norm_sub_le ((G p - G z - T z (p - z)) + G z) (G p)
    have e3 := norm_add_le (G p - G z - T z (p - z)) (G z)
    linarith [norm_le_merit G p s z]
  have hn : ‖(‖z - p‖⁻¹ : ℝ) • (z - p)‖ = 1 := by
    rw [norm_smul, norm_inv, norm_norm, inv_mul_cancel₀ hN.ne']
  have hTn : β * ‖T z ((‖z - p‖⁻¹ : ℝ) • (z - p))‖ ≤ 1 / 2 := by
    rw [map_smul, norm_smul, norm_inv, norm_norm]
    have hβ := hs.beta
    have c1 := hs.curvature
    have c2 := hs.tolerance
    have hβ2 := hs.sq
    have hL := hs.rate
    have ht := hs.nonneg
    have d1 : 96 * (β * tol) ≤ s := by nlinarith
    have d2 : 32 * (β * L * s) ≤ 1 := by
      have : β * (L * s) ≤ β ^ 2 * (L * s) := mul_le_mul_of_nonneg_right hβ2 (by positivity)
      nlinarith
    have d3 : β * ‖T z (z - p)‖ ≤ 1 / 2 * ‖z - p‖ := by
      have : β * ‖T z (z - p)‖ ≤ β * merit G p s z + β * tol + β * L * s * (1 / 2 * (13 / 12) * ‖z - p‖) := by
        have e1 : β * (L / 2 * ‖z - p‖ ^ 2) ≤ β * L * s * (1 / 2 * (13 / 12) * ‖z - p‖) := by
          have : β * (L / 2 * ‖z - p‖ ^ 2) = (β * L * (1 / 2 * ‖z - p‖)) * ‖z - p‖ := by ring
          rw [this]
          have h0 : 0 ≤ β * L * (1 / 2 * ‖z - p‖) := by positivity
          nlinarith
        nlinarith
      have e2 : β * L * s * (1 / 2 * (13 / 12) * ‖z - p‖) ≤ 1 / 32 * (1 / 2 * (13 / 12) * ‖z - p‖) :=
        mul_le_mul_of_nonneg_right (by linarith) (by positivity)
      linarith
    calc β * (‖z - p‖⁻¹ * ‖T z (z - p)‖) = ‖z - p‖⁻¹ * (β * ‖T z (z - p)‖) := by ring
      _ ≤ ‖z - p‖⁻¹ * (1 / 2 * ‖z - p‖) := mul_le_mul_of_nonneg_left d3 (by positivity)
      _ = 1 / 2 := by field_simp
  have := bordered hs.beta ht hTt hT hn hTn (w := w)
  rwa [inner_smul_left, conj_trivial, inv_mul_eq_div] at this

/-- One step of Newton's method. -/
theorem step_decrease (h : Region G T (Metric.closedBall p (2 * s)) β L) (hs : Small β L s tol) (hp : ‖G p‖ ≤ tol)
    (hz : 12 * β ^ 2 * merit G p s z ≤ s) {v : Z} (h1 : T z v = -G z)
    (h2 : inner ℝ (z - p) v / ‖z - p‖ = -(‖z - p‖ - s)) :
    ‖v‖ ≤ 2 * β * merit G p s z ∧ merit G p s (z + v) * s ≤ 6 * β ^ 2 * merit G p s z ^ 2 := by
  obtain ⟨l1, l2, hreg⟩ := step_regular h hs hp hz
  have g0 := merit_nonneg G p s z
  obtain ⟨b1, b2⟩ := hs.beta_mul hz g0
  have hs0 := hs.size
  have hβ := hs.beta
  have hL := hs.rate
  have hN : 0 < ‖z - p‖ := by linarith
  have hv2 : ‖v‖ ^ 2 ≤ (2 * β * merit G p s z) ^ 2 := by
    have := hreg v
    rw [h1, h2, norm_neg, neg_sq, ← merit_sq] at this
    calc _ ≤ _ := this
      _ = _ := by ring
  have hv : ‖v‖ ≤ 2 * β * merit G p s z := by
    by_contra hlt
    push Not at hlt
    have := mul_self_lt_mul_self (by positivity) hlt
    nlinarith
  refine ⟨hv, ?_⟩
  have hzΩ : z ∈ Metric.closedBall p (2 * s) := by rw [mem_closedBall_iff_norm]; linarith
  have hvΩ : z + v ∈ Metric.closedBall p (2 * s) := by
    rw [mem_closedBall_iff_norm, add_sub_right_comm]
    have := norm_add_le (z - p) v
    linarith
  have hrem := h.remainder (segment_ball hzΩ hvΩ)
  rw [h1, sub_neg_eq_add, sub_add_cancel] at hrem
  have harc := norm_remainder (d := z - p) (v := v) rfl hN
  rw [h2, ← add_sub_right_comm] at harc
  have harc' : |‖z + v - p‖ - s| ≤ ‖v‖ ^ 2 / (2 * ‖z - p‖) := by
    have e : ‖z + v - p‖ - (‖z - p‖ + -(‖z - p‖ - s)) = ‖z + v - p‖ - s := by ring
    rwa [e] at harc
  have hq : ‖v‖ ^ 2 / (2 * ‖z - p‖) * s ≤ 6 / 11 * ‖v‖ ^ 2 := by
    rw [div_mul_eq_mul_div, div_le_iff₀ (by positivity)]
    nlinarith [sq_nonneg ‖v‖]
  have hm := merit_le G p s (z + v)
  have hLs : L * s ≤ 1 / 32 := by
    have := hs.curvature
    have hβ2 : 1 ≤ β ^ 2 := by nlinarith
    have : L * s ≤ β ^ 2 * (L * s) := le_mul_of_one_le_left (by positivity) hβ2
    nlinarith
  have e1 : merit G p s (z + v) * s ≤ (L / 2 * ‖v‖ ^ 2 + ‖v‖ ^ 2 / (2 * ‖z - p‖)) * s :=
    mul_le_mul_of_nonneg_right (hm.trans (add_le_add hrem harc')) hs0.le
  have e2 : L / 2 * ‖v‖ ^ 2 * s ≤ 1 / 64 * ‖v‖ ^ 2 := by nlinarith [sq_nonneg ‖v‖]
  nlinarith [sq_nonneg ‖v‖]

/-- The prediction by the step before. -/
theorem predicted_small {q : Z} (h : Region G T (Metric.closedBall p (2 * s)) β L) (hs : Small β L s tol) (hp : ‖G p‖ ≤ tol)
    (hq : ‖G q‖ ≤ tol) (hd : |‖p - q‖ - s| ≤ tol) : 12 * β ^ 2 * merit G p s (p + (p - q)) ≤ s ∧
      merit G p s (p + (p - q)) ≤ 2 * L * s ^ 2 + 4 * tol := by
  have hs0 := hs.size
  have hβ := hs.beta
  have hL := hs.rate
  have ht := hs.nonneg
  have c1 := hs.curvature
  have c2 := hs.tolerance
  have hβ2 : 1 ≤ β ^ 2 := by nlinarith
  have ht' : 96 * tol ≤ s := by nlinarith
  have hda := abs_le.1 hd
  have hpΩ : p ∈ Metric.closedBall p (2 * s) := by rw [mem_closedBall_iff_norm, sub_self, norm_zero]; linarith
  have e := h.second (z := p) (d := p - q)
    (segment_ball hpΩ (by rw [mem_closedBall_iff_norm, add_sub_cancel_left]; linarith))
    (segment_ball hpΩ (by rw [mem_closedBall_iff_norm, add_sub_cancel_left, norm_neg]; linarith))
  rw [sub_sub_cancel] at e
  have hm := merit_le G p s (p + (p - q))
  rw [add_sub_cancel_left] at hm
  have hn : ‖p - q‖ ^ 2 ≤ (97 / 96 * s) ^ 2 := pow_le_pow_left₀ (norm_nonneg _) (by linarith) 2
  have e2 : L * ‖p - q‖ ^ 2 ≤ L * (97 / 96 * s) ^ 2 := mul_le_mul_of_nonneg_left hn hL
  have e3 : merit G p s (p + (p - q)) ≤ L * (97 / 96 * s) ^ 2 + 4 * tol := by linarith
  refine ⟨?_, e3.trans (by nlinarith [mul_nonneg hL (sq_nonneg s)])⟩
  have e4 : 12 * β ^ 2 * merit G p s (p + (p - q)) ≤ 12 * β ^ 2 * (L * (97 / 96 * s) ^ 2 + 4 * tol) :=
    mul_le_mul_of_nonneg_left e3 (by positivity)
  have e5 : 12 * β ^ 2 * (L * (97 / 96 * s) ^ 2 + 4 * tol) =
      (32 * β ^ 2 * L * s) * (12 / 32 * (97 / 96) ^ 2 * s) + 1 / 2 * (96 * β ^ 2 * tol) := by ring
  have e6 : (32 * β ^ 2 * L * s) * (12 / 32 * (97 / 96) ^ 2 * s) ≤ 1 * (12 / 32 * (97 / 96) ^ 2 * s) :=
    mul_le_mul_of_nonneg_right c1 (by positivity)
  nlinarith

/-- The prediction along the kernel. -/
theorem first_small (h : Region G T (Metric.closedBall p (2 * s)) β L) (hs : Small β L s tol) (hp : G p = 0) {d : Z}
    (hd : ‖d‖ = s) (hT : T p d = 0) : 12 * β ^ 2 * merit G p s (p + d) ≤ s ∧ merit G p s (p + d) ≤ 2 * L * s ^ 2 := by
  have hs0 := hs.size
  have hβ := hs.beta
  have hL := hs.rate
  have c1 := hs.curvature
  have hpΩ : p ∈ Metric.closedBall p (2 * s) := by rw [mem_closedBall_iff_norm, sub_self, norm_zero]; linarith
  have e := h.remainder (z := p) (v := d) (segment_ball hpΩ (by rw [mem_closedBall_iff_norm, add_sub_cancel_left]; linarith))
  rw [hp, hT, sub_zero, sub_zero, hd] at e
  have hm := merit_le G p s (p + d)
  rw [add_sub_cancel_left, hd, sub_self, abs_zero, add_zero] at hm
  have e3 := hm.trans e
  refine ⟨?_, e3.trans (by nlinarith [mul_nonneg hL (sq_nonneg s)])⟩
  have e4 : 12 * β ^ 2 * merit G p s (p + d) ≤ 12 * β ^ 2 * (L / 2 * s ^ 2) := mul_le_mul_of_nonneg_left e3 (by positivity)
  have e5 : 12 * β ^ 2 * (L / 2 * s ^ 2) = (32 * β ^ 2 * L * s) * (6 / 32 * s) := by ring
  have e6 : (32 * β ^ 2 * L * s) * (6 / 32 * s) ≤ 1 * (6 / 32 * s) := mul_le_mul_of_nonneg_right c1 (by positivity)
  linarith

end Ikarus.Arc
