import Verif.Utils.NumericModel
import Mathlib.Analysis.InnerProductSpace.Projection.Minimal
import Mathlib.Analysis.InnerProductSpace.Projection.FiniteDimensional
import Mathlib.Algebra.Order.BigOperators.Ring.Finset
import Mathlib.Tactic.Linarith
import Mathlib.Tactic.Ring
import Mathlib.Tactic.Positivity
import Mathlib.Tactic.FinCases

/-!
Properties of the compile time square root, the line segment search and the tensor product quadrature.
-/

namespace Ikarus.Utils

/-! ### Compile time square root -/

theorem sqrt_no_overflow {M x lo hi : Nat} (hM : 7 ≤ M) (hx : x ≤ M) (h : lo * lo ≤ x)
    (hh : hi ≤ x / 2 + 1) : lo + hi + 1 ≤ M := by
  rcases Nat.lt_or_ge lo 4 with c | c
  · have : lo = 0 ∨ lo = 1 ∨ lo = 2 ∨ lo = 3 := by omega
    rcases this with rfl | rfl | rfl | rfl <;> omega
  · have : 4 * lo ≤ lo * lo := Nat.mul_le_mul_right lo c
    omega

theorem sqrtHelper_spec {M x : Nat} (hM : 7 ≤ M) (hx : x ≤ M) : ∀ fuel lo hi, hi - lo < fuel →
    lo ≤ hi → lo * lo ≤ x → x < (hi + 1) * (hi + 1) → hi ≤ x / 2 + 1 →
    ∃ r, sqrtHelper M fuel x lo hi = some r ∧ r * r ≤ x ∧ x < (r + 1) * (r + 1) := by
  intro fuel
  induction fuel with
  | zero => intro lo hi h; omega
  | succ fuel ih =>
    intro lo hi hf hle h1 h2 h3
    rw [sqrtHelper]
    by_cases e : lo = hi
    · rw [if_pos e]
      exact ⟨lo, rfl, h1, e ▸ h2⟩
    · rw [if_neg e, if_neg (by have := sqrt_no_overflow hM hx h1 h3; omega)]
      have hm0 : (lo + hi + 1) / 2 ≠ 0 := by omega
      have hml : lo < (lo + hi + 1) / 2 := by omega
      have hmh : (lo + hi + 1) / 2 ≤ hi := by omega
      generalize (lo + hi + 1) / 2 = mid at hm0 hml hmh
      simp only
      rw [if_neg hm0]
      have key : x / mid < mid ↔ x < mid * mid := Nat.div_lt_iff_lt_mul (by omega)
      by_cases c : x / mid < mid
      · rw [if_pos c]
        refine ih lo (mid - 1) (by omega) (by omega) h1 ?_ (by omega)
        have : mid - 1 + 1 = mid := by omega
        rw [this]; exact key.1 c
      · rw [if_neg c]
        refine ih mid hi (by omega) hmh ?_ h2 h3
        have : ¬ x < mid * mid := fun g => c (key.2 g)
        omega

/-- C52. `ct_sqrt(x)` is the floor of the square root: for every argument that fits into the integer
type the search ends, no intermediate sum overflows, nothing is divided by zero, and the result is the
number `r` with `r² ≤ x < (r+1)²`. -/
theorem ctSqrt_floor {M x : Nat} (hM : 7 ≤ M) (hx : x ≤ M) :
    ∃ r, ctSqrt M x = some r ∧ r ^ 2 ≤ x ∧ x < (r + 1) ^ 2 ∧
      ∀ s, s ^ 2 ≤ x → x < (s + 1) ^ 2 → s = r := by
  obtain ⟨r, h1, h2, h3⟩ := sqrtHelper_spec hM hx (x + 2) 0 (x / 2 + 1) (by omega) (by omega) (by omega)
    (by
      have h : x < 2 * (x / 2 + 1) := by omega
      refine lt_of_lt_of_le h ?_
      generalize x / 2 = q
      nlinarith) le_rfl
  refine ⟨r, h1, by rw [pow_two]; exact h2, by rw [pow_two]; exact h3, fun s hs1 hs2 => ?_⟩
  rw [pow_two] at hs1 hs2
  rcases lt_trichotomy s r with c | c | c
  · have : (s + 1) * (s + 1) ≤ r * r := Nat.mul_le_mul c c
    omega
  · exact c
  · have : (r + 1) * (r + 1) ≤ s * s := Nat.mul_le_mul c c
    omega

/-- The largest 32 bit integer does not overflow; an ordinary value. -/
example : ctSqrt (2 ^ 31 - 1) 17 = some 4 ∧ (2 ^ 31 - 1 : Nat) ≥ 7 := by decide

/-! ### Line segment search -/

namespace Spec

/-- The residual of the line `c0 + c1 x` over the points `i, …, i + s`. -/
noncomputable def lineError (x y : List ℝ) (i s : Nat) (c0 c1 : ℝ) : ℝ :=
  Real.sqrt (((List.range (s + 1)).map fun k =>
    (c0 + c1 * (x[i + k]?).getD 0 - (y[i + k]?).getD 0) ^ 2).sum)

/-- What the QR solver of Eigen promises in exact arithmetic: the solution has the smallest residual. -/
def LeastSquares (qr : QRSolver) : Prop :=
  ∀ n m A y (c : Fin m → ℝ), residualNorm A (qr n m A y) y ≤ residualNorm A c y

end Spec

/-- There is a solver meeting the contract. -/
theorem exists_leastSquares : ∃ qr, Spec.LeastSquares qr := by
  have main : ∀ n m (A : Matrix (Fin n) (Fin m) ℝ) (y : Fin n → ℝ), ∃ c0 : Fin m → ℝ,
      ∀ c, residualNorm A c0 y ≤ residualNorm A c y := by
    intro n m A y
    let f : (Fin m → ℝ) →ₗ[ℝ] EuclideanSpace ℝ (Fin n) :=
      (WithLp.linearEquiv 2 ℝ (Fin n → ℝ)).symm.toLinearMap ∘ₗ A.mulVecLin
    let K := LinearMap.range f
    have hn : ∀ c, residualNorm A c y = ‖f c - WithLp.toLp 2 y‖ := by
      intro c
      rw [EuclideanSpace.norm_eq, residualNorm]
      congr 1
      refine Finset.sum_congr rfl fun k _ => ?_
      rw [Real.norm_eq_abs, sq_abs]
      rfl
    obtain ⟨c0, hc0⟩ := (K.starProjection_apply_mem (WithLp.toLp 2 y))
    refine ⟨c0, fun c => ?_⟩
    rw [hn, hn, hc0]
    have hmin := Submodule.starProjection_minimal (U := K) (WithLp.toLp 2 y)
    rw [norm_sub_rev, hmin, norm_sub_rev]
    exact ciInf_le ⟨0, by rintro _ ⟨w, rfl⟩; positivity⟩ (⟨f c, LinearMap.mem_range_self f c⟩ : K)
  exact ⟨fun n m A y => (main n m A y).choose, fun n m A y c => (main n m A y).choose_spec c⟩

theorem segment_isSome (x : List ℝ) (i s : Nat) (h : i + s < x.length) :
    segment x i s = some fun k => (x[i + k.val]?).getD 0 := by
  rw [segment, dif_pos h]
  congr 1
  funext k
  have hk := k.isLt
  rw [List.getElem?_eq_getElem (by omega), Option.getD_some]

theorem residualNorm_line {x y : List ℝ} {i s : Nat} (c : Fin 2 → ℝ) :
    residualNorm (fitMatrix (fun k : Fin (s + 1) => (x[i + k.val]?).getD 0) 1) c
      (fun k => (y[i + k.val]?).getD 0) = Spec.lineError x y i s (c 0) (c 1) := by
  rw [residualNorm, Spec.lineError]
  congr 1
  have h : ((List.range (s + 1)).map fun k =>
      (c 0 + c 1 * (x[i + k]?).getD 0 - (y[i + k]?).getD 0) ^ 2).sum =
      ∑ k ∈ Finset.range (s + 1), (c 0 + c 1 * (x[i + k]?).getD 0 - (y[i + k]?).getD 0) ^ 2 := rfl
  rw [h, Finset.sum_range]
  refine Finset.sum_congr rfl fun k _ => ?_
  congr 2
  have h2 : (fitMatrix (fun k : Fin (s + 1) => (x[i + k.val]?).getD 0) 1).mulVec c k =
      1 * c 0 + (1 * (x[i + k.val]?).getD 0) * c 1 := by
    have e : ∀ (A : Matrix (Fin (s + 1)) (Fin 2) ℝ), A.mulVec c k = A k 0 * c 0 + A k 1 * c 1 := by
      intro A
      rw [Matrix.mulVec, dotProduct, Fin.sum_univ_two]
    exact e _
  rw [h2]
  ring

theorem segmentFits_spec (qr : QRSolver) (x y : List ℝ) (s : Nat) : ∀ m i,
    (m = 0 ∨ i + m - 1 + s < x.length ∧ i + m - 1 + s < y.length) →
    ∃ l, segmentFits qr x y s m i = some l ∧ l.length = m ∧ ∀ j < m, ∃ e, l[j]? = some e ∧
      e.1 = qr (s + 1) 2 (fitMatrix (fun k : Fin (s + 1) => (x[i + j + k.val]?).getD 0) 1)
        (fun k => (y[i + j + k.val]?).getD 0) ∧
      e.2 = Spec.lineError x y (i + j) s (e.1 0) (e.1 1) := by
  intro m
  induction m with
  | zero => intro i _; exact ⟨[], rfl, rfl, by simp⟩
  | succ m ih =>
    intro i h
    have h' : i + m + s < x.length ∧ i + m + s < y.length := by
      rcases h with h | h
      · omega
      · have : i + (m + 1) - 1 = i + m := by omega
        rw [this] at h; exact h
    obtain ⟨l, l1, l2, l3⟩ := ih (i + 1) (by
      rcases Nat.eq_zero_or_pos m with c | c
      · exact Or.inl c
      · right; constructor <;> omega)
    rw [segmentFits, segment_isSome x i s (by omega), segment_isSome y i s (by omega), l1]
    refine ⟨_, rfl, by simp [l2], fun j hj => ?_⟩
    cases j with
    | zero =>
      refine ⟨_, List.getElem?_cons_zero, rfl, ?_⟩
      exact residualNorm_line _
    | succ j =>
      obtain ⟨e, e1, e2, e3⟩ := l3 j (by omega)
      have ij : i + 1 + j = i + (j + 1) := by omega
      rw [ij] at e2 e3
      exact ⟨e, by rw [List.getElem?_cons_succ]; exact e1, e2, e3⟩

theorem minElementFrom_spec (es : List ℝ) : ∀ (best : Nat) (value : ℝ) (i : Nat) (all : List ℝ),
    all.drop i = es → i ≤ all.length → all[best]? = some value → best < i →
    (∀ j, j < i → ∀ e, all[j]? = some e → value ≤ e) →
    (∀ j, j < best → ∀ e, all[j]? = some e → value < e) →
    ∃ v, all[minElementFrom best value i es]? = some v ∧
      (∀ (j : Nat) e, all[j]? = some e → v ≤ e) ∧
      ∀ j, j < minElementFrom best value i es → ∀ e, all[j]? = some e → v < e := by
  induction es with
  | nil =>
    intro best value i all hd hi hb hbi h1 h2
    rw [minElementFrom]
    refine ⟨value, hb, fun j e he => ?_, h2⟩
    have : all.length ≤ i := List.drop_eq_nil_iff.1 hd
    have := (List.getElem?_eq_some_iff.1 he).1
    exact h1 j (by omega) e he
  | cons a es ih =>
    intro best value i all hd hi hb hbi h1 h2
    have hai : all[i]? = some a := by
      have := congrArg (fun l => l[0]?) hd
      simpa using this
    have hil : i < all.length := (List.getElem?_eq_some_iff.1 hai).1
    have hd' : all.drop (i + 1) = es := by
      have := congrArg List.tail hd
      simpa [List.tail_drop] using this
    rw [minElementFrom]
    by_cases c : a < value
    · rw [if_pos c]
      refine ih i a (i + 1) all hd' hil hai (by omega) ?_ ?_
      · intro j hj e he
        rcases Nat.lt_or_ge j i with g | g
        · exact c.le.trans (h1 j g e he)
        · have : j = i := by omega
          subst this; rw [hai] at he; cases he; exact le_rfl
      · intro j hj e he
        exact c.trans_le (h1 j hj e he)
    · rw [if_neg c]
      refine ih best value (i + 1) all hd' hil hb (by omega) ?_ h2
      intro j hj e he
      rcases Nat.lt_or_ge j i with g | g
      · exact h1 j g e he
      · have : j = i := by omega
        subst this; rw [hai] at he; cases he; exact not_lt.1 c

theorem minElement_spec (es : List ℝ) (h : es ≠ []) : ∃ v, es[minElement es]? = some v ∧
    (∀ (j : Nat) e, es[j]? = some e → v ≤ e) ∧ ∀ j, j < minElement es → ∀ e, es[j]? = some e → v < e := by
  cases es with
  | nil => exact absurd rfl h
  | cons a es =>
    refine minElementFrom_spec es 0 a 1 (a :: es) rfl (by simp) rfl (by omega) ?_ ?_
    · intro j hj e he
      have : j = 0 := by omega
      subst this
      simp only [List.getElem?_cons_zero, Option.some.injEq] at he
      exact he.le
    · intro j hj; omega

/-- C53. When there are more points than `segmentSize` (and as many ordinates as abscissae),
`findLineSegment` reads nothing out of bounds and returns a window of `segmentSize + 1` consecutive points
inside the data together with a line.  No window and no line has a smaller residual, and every earlier
window is strictly worse with every line: the first window wins ties. -/
theorem findLineSegment_best {qr : QRSolver} (hqr : Spec.LeastSquares qr) {x y : List ℝ} {s : Nat}
    (hs : s < x.length) (hy : x.length ≤ y.length) :
    ∃ c i, findLineSegment qr x y s = some (c, i) ∧ i + s < x.length ∧
      (∀ j, j + s < x.length → ∀ c0 c1,
        Spec.lineError x y i s (c 0) (c 1) ≤ Spec.lineError x y j s c0 c1) ∧
      (∀ j, j < i → ∀ c0 c1,
        Spec.lineError x y i s (c 0) (c 1) < Spec.lineError x y j s c0 c1) := by
  obtain ⟨l, l1, l2, l3⟩ := segmentFits_spec qr x y s (x.length - s) 0 (by right; constructor <;> omega)
  have hne : l.map Prod.snd ≠ [] := by
    intro h
    have := congrArg List.length h
    rw [List.length_map, l2] at this
    simp at this; omega
  obtain ⟨v, v1, v2, v3⟩ := minElement_spec _ hne
  have hmin : ∀ j, j < x.length - s → ∃ e, l[j]? = some e ∧
      e.2 = Spec.lineError x y j s (e.1 0) (e.1 1) ∧
      ∀ c0 c1, e.2 ≤ Spec.lineError x y j s c0 c1 := by
    intro j hj
    obtain ⟨e, e1, e2, e3⟩ := l3 j hj
    rw [Nat.zero_add] at e2 e3
    refine ⟨e, e1, e3, fun c0 c1 => ?_⟩
    have h := hqr (s + 1) 2 (fitMatrix (fun k : Fin (s + 1) => (x[j + k.val]?).getD 0) 1)
      (fun k => (y[j + k.val]?).getD 0) ![c0, c1]
    rw [← e2, residualNorm_line, residualNorm_line, ← e3] at h
    exact h
  have hv : ∀ e, (l.map Prod.snd)[minElement (l.map Prod.snd)]? = some e ↔
      ∃ p, l[minElement (l.map Prod.snd)]? = some p ∧ p.2 = e := by
    intro e; rw [List.getElem?_map, Option.map_eq_some_iff]
  obtain ⟨p, p1, p2⟩ := (hv v).1 v1
  have hi : minElement (l.map Prod.snd) < x.length - s := by
    rw [← l2]; exact (List.getElem?_eq_some_iff.1 p1).1
  obtain ⟨e, e1, e2, e3⟩ := hmin _ hi
  rw [p1] at e1
  cases e1
  refine ⟨p.1, minElement (l.map Prod.snd), ?_, by omega, ?_, ?_⟩
  · rw [findLineSegment, if_neg (by omega), l1]
    simp only [Option.bind_eq_bind, Option.bind_some, p1, pure]
  · intro j hj c0 c1
    obtain ⟨q, q1, q2, q3⟩ := hmin j (by omega)
    rw [← e2, p2]
    exact (v2 j q.2 (by rw [List.getElem?_map, q1]; rfl)).trans (q3 c0 c1)
  · intro j hj c0 c1
    obtain ⟨q, q1, q2, q3⟩ := hmin j (by omega)
    rw [← e2, p2]
    exact (v3 j hj q.2 (by rw [List.getElem?_map, q1]; rfl)).trans_le (q3 c0 c1)

/-- A solver and data meeting the hypotheses: five points, windows of three. -/
example : ∃ qr, Spec.LeastSquares qr ∧ 2 < [(0 : ℝ), 1, 2, 3, 4].length ∧
    [(0 : ℝ), 1, 2, 3, 4].length ≤ [(0 : ℝ), 5, 5, 6, 7].length := by
  obtain ⟨qr, h⟩ := exists_leastSquares
  exact ⟨qr, h, by simp, by simp⟩

/-- C53. If some window lies exactly on a line, the returned window lies exactly on the returned line. -/
theorem findLineSegment_exact {qr : QRSolver} (hqr : Spec.LeastSquares qr) {x y : List ℝ} {s : Nat}
    (hs : s < x.length) (hy : x.length ≤ y.length) {j : Nat} (hj : j + s < x.length) {c0 c1 : ℝ}
    (h : ∀ k ≤ s, (y[j + k]?).getD 0 = c0 + c1 * (x[j + k]?).getD 0) :
    ∃ c i, findLineSegment qr x y s = some (c, i) ∧ i ≤ j ∧
      ∀ k ≤ s, (y[i + k]?).getD 0 = c 0 + c 1 * (x[i + k]?).getD 0 := by
  obtain ⟨c, i, h1, h2, h3, h4⟩ := findLineSegment_best hqr hs hy
  have hz : Spec.lineError x y j s c0 c1 = 0 := by
    rw [Spec.lineError, Real.sqrt_eq_zero']
    refine le_of_eq (List.sum_eq_zero fun a ha => ?_)
    obtain ⟨k, hk, rfl⟩ := List.mem_map.1 ha
    rw [h k (by have := List.mem_range.1 hk; omega)]; ring
  refine ⟨c, i, h1, ?_, fun k hk => ?_⟩
  · by_contra hc
    have := h4 j (by omega) c0 c1
    rw [hz] at this
    exact absurd this (not_lt.2 (Real.sqrt_nonneg _))
  · have h0 := h3 j hj c0 c1
    rw [hz, Spec.lineError, Real.sqrt_le_left le_rfl] at h0
    have hsum : ((List.range (s + 1)).map fun k =>
        (c 0 + c 1 * (x[i + k]?).getD 0 - (y[i + k]?).getD 0) ^ 2).sum =
        ∑ k ∈ Finset.range (s + 1), (c 0 + c 1 * (x[i + k]?).getD 0 - (y[i + k]?).getD 0) ^ 2 := rfl
    rw [hsum, zero_pow two_ne_zero] at h0
    have h5 := (Finset.sum_eq_zero_iff_of_nonneg (fun k _ => sq_nonneg _)).1
      (le_antisymm h0 (Finset.sum_nonneg fun k _ => sq_nonneg _)) k (Finset.mem_range.2 (by omega))
    have := pow_eq_zero_iff two_ne_zero |>.1 h5
    linarith

/-- C53. With too few points there is no result: `lines[index]` is read past the end, or the vector of
errors has a negative size. -/
theorem findLineSegment_too_few (qr : QRSolver) {x y : List ℝ} {s : Nat} (hs : x.length ≤ s) :
    findLineSegment qr x y s = none := by
  rw [findLineSegment]
  by_cases h : x.length < s
  · rw [if_pos h]
  · have : x.length - s = 0 := by omega
    rw [if_neg h, this, segmentFits]
    rfl

/-! ### Tensor product quadrature -/

namespace Spec

/-- The value of a quadrature rule on an integrand. -/
noncomputable def quad {d : Nat} (rule : List (QuadPoint d)) (f : (Fin d → ℝ) → ℝ) : ℝ :=
  (rule.map fun q => f q.position * q.weight).sum

end Spec

theorem tensorProduct_eq {d : Nat} (a : List (QuadPoint d)) (b : List (QuadPoint 1)) :
    tensorProductQuadrature a b = a.flatMap fun p => tensorInner p b := by
  have : ∀ acc, a.foldl (fun rule p => rule ++ tensorInner p b) acc =
      acc ++ a.flatMap fun p => tensorInner p b := by
    induction a with
    | nil => intro acc; simp
    | cons p a ih => intro acc; rw [List.foldl_cons, ih, List.flatMap_cons, List.append_assoc]
  rw [tensorProductQuadrature, this, List.nil_append]

/-- C54. The tensor product rule is the iterated rule for every integrand of `d + 1` variables: first
along the last coordinate, then over the base. -/
theorem tensorProduct_iterated {d : Nat} (a : List (QuadPoint d)) (b : List (QuadPoint 1))
    (f : (Fin (d + 1) → ℝ) → ℝ) :
    Spec.quad (tensorProductQuadrature a b) f =
      Spec.quad a fun p => Spec.quad b fun q => f (Fin.snoc (α := fun _ => ℝ) p (q 0)) := by
  rw [tensorProduct_eq]
  unfold Spec.quad
  induction a with
  | nil => simp
  | cons p a ih =>
    rw [List.flatMap_cons, List.map_append, List.sum_append, ih, List.map_cons, List.sum_cons]
    congr 1
    rw [tensorInner, List.map_map, ← List.sum_map_mul_right]
    congr 1
    refine List.map_congr_left fun q _ => ?_
    simp only [Function.comp_apply]
    ring

/-- C54. The tensor product rule has `|a| * |b|` points, integrates every product of a function of the
base coordinates and a function of the last one to the product of the factor rules, and its total weight
is the product of the total weights. -/
theorem tensorProduct_product {d : Nat} (a : List (QuadPoint d)) (b : List (QuadPoint 1))
    (f : (Fin d → ℝ) → ℝ) (g : ℝ → ℝ) :
    (tensorProductQuadrature a b).length = a.length * b.length ∧
    Spec.quad (tensorProductQuadrature a b) (fun p => f (fun i => p i.castSucc) * g (p (Fin.last d))) =
      Spec.quad a f * Spec.quad b (fun q => g (q 0)) ∧
    ((tensorProductQuadrature a b).map QuadPoint.weight).sum =
      (a.map QuadPoint.weight).sum * (b.map QuadPoint.weight).sum := by
  have hprod : ∀ (f : (Fin d → ℝ) → ℝ) (g : ℝ → ℝ),
      Spec.quad (tensorProductQuadrature a b)
        (fun p => f (fun i => p i.castSucc) * g (p (Fin.last d))) =
      Spec.quad a f * Spec.quad b (fun q => g (q 0)) := by
    intro f g
    rw [tensorProduct_iterated]
    simp only [Fin.snoc_castSucc, Fin.snoc_last]
    unfold Spec.quad
    rw [← List.sum_map_mul_right]
    congr 1
    refine List.map_congr_left fun p _ => ?_
    have : ∀ l : List (QuadPoint 1), (l.map fun q => f p.position * g (q.position 0) * q.weight).sum =
        f p.position * (l.map fun q => g (q.position 0) * q.weight).sum := by
      intro l
      rw [← List.sum_map_mul_left]
      congr 1
      exact List.map_congr_left fun q _ => mul_assoc _ _ _
    show (b.map fun q => f p.position * g (q.position 0) * q.weight).sum * p.weight =
      f p.position * p.weight * (b.map fun q => g (q.position 0) * q.weight).sum
    rw [this]; ring
  refine ⟨?_, hprod f g, ?_⟩
  · rw [tensorProduct_eq, List.length_flatMap]
    clear hprod
    induction a with
    | nil => simp
    | cons p a ih =>
      rw [List.map_cons, List.sum_cons, ih, tensorInner, List.length_map, List.length_cons]
      ring
  · have := hprod (fun _ => 1) (fun _ => 1)
    unfold Spec.quad at this
    simpa using this

/-- C54. The points are ordered base first: point `i * |b| + j` combines base point `i` and point `j`
of the one dimensional rule. -/
theorem tensorProduct_point {d : Nat} (a : List (QuadPoint d)) (b : List (QuadPoint 1)) {i j : Nat}
    {p : QuadPoint d} {q : QuadPoint 1} (hp : a[i]? = some p) (hq : b[j]? = some q) :
    ∃ r, (tensorProductQuadrature a b)[i * b.length + j]? = some r ∧
      (∀ k : Fin d, r.position k.castSucc = p.position k) ∧ r.position (Fin.last d) = q.position 0 ∧
      r.weight = p.weight * q.weight := by
  have hj : j < b.length := (List.getElem?_eq_some_iff.1 hq).1
  refine ⟨⟨Fin.snoc (α := fun _ => ℝ) p.position (q.position 0), p.weight * q.weight⟩, ?_,
    fun k => by simp, by simp, rfl⟩
  rw [tensorProduct_eq]
  have hl : ∀ p : QuadPoint d, (tensorInner p b).length = b.length := fun p => by
    rw [tensorInner, List.length_map]
  induction a generalizing i with
  | nil => simp at hp
  | cons p0 a ih =>
    rw [List.flatMap_cons]
    cases i with
    | zero =>
      simp only [List.getElem?_cons_zero, Option.some.injEq] at hp
      subst hp
      rw [Nat.zero_mul, Nat.zero_add, List.getElem?_append_left (by rw [hl]; exact hj), tensorInner,
        List.getElem?_map, hq, Option.map_some]
    | succ i =>
      rw [List.getElem?_cons_succ] at hp
      have e : (i + 1) * b.length + j = (tensorInner p0 b).length + (i * b.length + j) := by
        rw [hl]; ring
      rw [e, List.getElem?_append_right (by omega), Nat.add_sub_cancel_left]
      exact ih hp

/-- Two base points and two points of the one dimensional rule. -/
example : ([⟨fun _ => 1, 2⟩, ⟨fun _ => 3, 4⟩] : List (QuadPoint 2))[1]? = some ⟨fun _ => 3, 4⟩ ∧
    ([⟨fun _ => 5, 6⟩, ⟨fun _ => 7, 8⟩] : List (QuadPoint 1))[0]? = some ⟨fun _ => 5, 6⟩ := by simp

example (qr : QRSolver) : findLineSegment qr [0, 1] [5, 6] 2 = none := findLineSegment_too_few qr (by simp)

end Ikarus.Utils
