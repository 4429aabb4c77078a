import Verif.Analysis.ConvergenceProps
import Verif.Analysis.TrussSupportProps

/-!
C100, continued: the truss bar whose left end is moved across its axis.  With the default settings of the solver and enough
load steps load control follows the path on which the bar keeps its length.  Compare `truss_support`, where one step is made.
-/

namespace Ikarus

open Ikarus.Element Ikarus.Element.Spec

/-- The bar turned: the left end at `(0, l)`, the right end on the axis at distance one. -/
noncomputable def trussPath (l : ℝ) : List ℝ := [0, l, Real.sqrt (1 - l ^ 2) - 1, 0]

/-- The stiffness at the free dof. -/
theorem trussAnalysis_times (o : DBCOption) (st : NRSettings ℝ) (l a b c e : ℝ) (K : DMat ℝ)
    (hK : ((trussAnalysis o st).system l).rawMatrix? [a, b, c, e] = some K) (v0 v1 v2 v3 : ℝ) :
    Spec.times K [v0, v1, v2, v3] 2 =
      1 / 2 * (3 * (1 + c - a) ^ 2 + (e - b) ^ 2 - 1) * (v2 - v0) + (1 + c - a) * (e - b) * (v3 - v1) := by
  obtain ⟨-, r, K', -, hK', hd⟩ := assembled_consistent _ _ (trussAnalysis_contract o st l [a, b, c, e] rfl)
  obtain rfl : K = K' := Option.some.inj (hK.symm.trans hK')
  have hf : ∀ a b c e : ℝ, ((((trussAnalysis o st).system l).rawVector? [a, b, c, e]).getD []).getD 2 0 =
      1 / 2 * ((1 + c - a) ^ 2 + (e - b) ^ 2 - 1) * (1 + c - a) := by
    intro a b c e
    obtain ⟨r, h1, -, h2⟩ := trussAnalysis_force o st l a b c e
    rw [h1, Option.getD_some, h2]
  have hfl : ((trussAnalysis o st).system l).flags.length = 4 := rfl
  have h1 := (hd [v0, v1, v2, v3] rfl).2 2 (by rw [hfl]; norm_num)
  have hline : ∀ t : ℝ, Spec.line [a, b, c, e] [v0, v1, v2, v3] t = [a + t * v0, b + t * v1, c + t * v2, e + t * v3] := by
    intro t
    simp [Spec.line]
  have h2 : HasDerivAt (fun t : ℝ => 1 / 2 * ((1 + (c + t * v2) - (a + t * v0)) ^ 2 + ((e + t * v3) - (b + t * v1)) ^ 2 - 1) *
      (1 + (c + t * v2) - (a + t * v0)))
      (1 / 2 * (3 * (1 + c - a) ^ 2 + (e - b) ^ 2 - 1) * (v2 - v0) + (1 + c - a) * (e - b) * (v3 - v1)) 0 := by
    have hm : ∀ v : ℝ, HasDerivAt (fun t : ℝ => t * v) v 0 := fun v => by simpa using (hasDerivAt_id (0 : ℝ)).mul_const v
    have h3 : HasDerivAt (fun t : ℝ => 1 + (c + t * v2) - (a + t * v0)) (v2 - v0) 0 :=
      (((hm v2).const_add c).const_add 1).sub ((hm v0).const_add a)
    have h3' : HasDerivAt (fun t : ℝ => (e + t * v3) - (b + t * v1)) (v3 - v1) 0 :=
      ((hm v3).const_add e).sub ((hm v1).const_add b)
    have h4 := ((((h3.pow 2).add (h3'.pow 2)).sub_const 1).const_mul (1 / 2 : ℝ)).mul h3
    refine h4.congr_deriv ?_
    norm_num
    ring
  have h5 := h1.unique (h2.congr_of_eventuallyEq (Filter.Eventually.of_forall fun t => by
    show ((((trussAnalysis o st).system l).rawVector? (Spec.line [a, b, c, e] [v0, v1, v2, v3] t)).getD []).getD 2 0 = _
    rw [hline, hf]))
  rw [← h5, hfl]
  rfl

theorem truss_freeSize (f : Nat → ℝ) : Spec.freeSize [true, true, false, true] f = |f 2| := by
  rw [← freeSize_sqrt, freeSq_truss, Real.sqrt_mul_self_eq_abs]

theorem truss_four {u : List ℝ} (h : u.length = 4) : ∃ a b c e, u = [a, b, c, e] := by
  match u, h with
  | [a, b, c, e], _ => exact ⟨a, b, c, e, rfl⟩

theorem truss_size (a b c e : ℝ) : |a| ≤ Spec.size [a, b, c, e] ∧ |b| ≤ Spec.size [a, b, c, e] ∧
    |c| ≤ Spec.size [a, b, c, e] ∧ |e| ≤ Spec.size [a, b, c, e] := by
  have : Spec.size [a, b, c, e] = Real.sqrt (a * a + (b * b + (c * c + e * e))) := by simp [Spec.size]
  rw [this]
  refine ⟨?_, ?_, ?_, ?_⟩ <;> refine Real.abs_le_sqrt ?_ <;>
    nlinarith [mul_self_nonneg a, mul_self_nonneg b, mul_self_nonneg c, mul_self_nonneg e]

theorem truss_distance (a b c e a' b' c' e' : ℝ) : Spec.distance [a, b, c, e] [a', b', c', e'] =
    Spec.size [a - a', b - b', c - c', e - e'] := by simp [Spec.distance, Spec.size]

/-- The path of the bar: lengths and slopes. -/
theorem trussPath_root {l : ℝ} (h0 : 0 ≤ l) (h1 : l ≤ 1 / 2) : 17 / 20 ≤ Real.sqrt (1 - l ^ 2) ∧ Real.sqrt (1 - l ^ 2) ≤ 1 ∧
    Real.sqrt (1 - l ^ 2) ^ 2 = 1 - l ^ 2 := by
  refine ⟨Real.le_sqrt_of_sq_le (by nlinarith), ?_, Real.sq_sqrt (by nlinarith)⟩
  exact Real.sqrt_le_iff.2 ⟨zero_le_one, by nlinarith [sq_nonneg l]⟩

/-- The states near the path: the projections of the bar to the axes. -/
theorem trussPath_near {l a b c e : ℝ} (h0 : 0 ≤ l) (h1 : l ≤ 1 / 2)
    (h : Spec.distance [a, b, c, e] (trussPath l) ≤ 1 / 20) : 3 / 4 ≤ 1 + c - a ∧ 1 + c - a ≤ 11 / 10 ∧ |e - b| ≤ 3 / 5 := by
  obtain ⟨r1, r2, -⟩ := trussPath_root h0 h1
  unfold trussPath at h
  rw [truss_distance] at h
  obtain ⟨g1, g2, g3, g4⟩ := truss_size (a - 0) (b - l) (c - (Real.sqrt (1 - l ^ 2) - 1)) (e - 0)
  have g1 := abs_le.1 (g1.trans h)
  have g2 := abs_le.1 (g2.trans h)
  have g3 := abs_le.1 (g3.trans h)
  have g4 := abs_le.1 (g4.trans h)
  exact ⟨by linarith [g1.1, g1.2, g3.1, g3.2], by linarith [g1.1, g1.2, g3.1, g3.2],
    abs_le.2 ⟨by linarith [g2.1, g2.2, g4.1, g4.2], by linarith [g2.1, g2.2, g4.1, g4.2]⟩⟩

theorem truss_regular (o : DBCOption) (ho : o ≠ .raw) (st : NRSettings ℝ) {l : ℝ} (h0 : 0 ≤ l) (h1 : l ≤ 1 / 2) :
    Spec.RegularAt (trussAnalysis o st) l (trussPath l) (1 / 20) 3 24 5 := by
  have hfl : (trussAnalysis o st).dv.flags = [true, true, false, true] := rfl
  have hstab : ∀ u, Spec.Near (trussAnalysis o st) (trussPath l) (1 / 20) u →
      ∀ K, ((trussAnalysis o st).system l).rawMatrix? u = some K → ∀ v2 : ℝ,
        |v2| ≤ 3 * |Spec.times K [0, 0, v2, 0] 2| := by
    rintro u ⟨hu, hd⟩ K hK v2
    obtain ⟨a, b, c, e, rfl⟩ := truss_four hu
    rw [trussAnalysis_times o st l a b c e K hK, sub_zero, sub_zero, mul_zero, add_zero, abs_mul]
    obtain ⟨n1, n2, n3⟩ := trussPath_near h0 h1 hd
    have : 1 / 3 ≤ 1 / 2 * (3 * (1 + c - a) ^ 2 + (e - b) ^ 2 - 1) := by nlinarith [sq_nonneg (e - b)]
    rw [abs_of_nonneg (show 0 ≤ 1 / 2 * (3 * (1 + c - a) ^ 2 + (e - b) ^ 2 - 1) by linarith)]
    nlinarith [abs_nonneg v2]
  refine ⟨rfl, ?_, fun u hu => trussAnalysis_contract o st l u hu.1, ?_, ?_, ?_, ?_⟩
  · obtain ⟨r, q1, q2, q3⟩ := trussAnalysis_force o st l 0 l (Real.sqrt (1 - l ^ 2) - 1) 0
    refine ⟨r, q1, fun i hi => ?_⟩
    have : i = 2 := by
      have hlt : i < 4 := free_lt hi
      rcases i with _ | _ | _ | _ | i
      · cases hi
      · cases hi
      · rfl
      · cases hi
      · omega
    subst this
    have := (trussPath_root h0 h1).2.2
    rw [q3, show 1 + (Real.sqrt (1 - l ^ 2) - 1) - 0 = Real.sqrt (1 - l ^ 2) by ring, this]
    ring
  · intro u hu A hA
    obtain ⟨-, -, K, -, hK, -⟩ := assembled_consistent _ _ (trussAnalysis_contract o st l u hu.1)
    refine inverseSolve_regular (trussAnalysis o st) ho l u K hK (fun c hc hf => ?_) A hA
    have c0 : c 0 = 0 := hc 0 (by rw [hfl]; decide) (show ¬ Spec.Free [true, true, false, true] 0 by decide)
    have c1 : c 1 = 0 := hc 1 (by rw [hfl]; decide) (show ¬ Spec.Free [true, true, false, true] 1 by decide)
    have c3 : c 3 = 0 := hc 3 (by rw [hfl]; decide) (show ¬ Spec.Free [true, true, false, true] 3 by decide)
    have h2 := hf 2 (show Spec.Free [true, true, false, true] 2 by decide)
    have h3 := hstab u hu K hK (c 2)
    have h4 : Spec.times K [0, 0, c 2, 0] 2 = 0 := by
      refine Eq.trans (Finset.sum_congr rfl fun j hj => ?_) h2
      have hj : j < 4 := Finset.mem_range.1 hj
      rcases j with _ | _ | _ | _ | j
      · rw [c0]; rfl
      · rw [c1]; rfl
      · rfl
      · rw [c3]; rfl
      · omega
    rw [h4, abs_zero, mul_zero] at h3
    have c2 := abs_eq_zero.1 (le_antisymm h3 (abs_nonneg _))
    intro i hi
    have hi : i < 4 := hi
    rcases i with _ | _ | _ | _ | i
    · exact c0
    · exact c1
    · exact c2
    · exact c3
    · omega
  · intro u hu K hK v hv hc
    obtain ⟨v0, v1, v2, v3, rfl⟩ := truss_four hv
    have e0 : v0 = 0 := Option.some.inj (hc 0 rfl)
    have e1 : v1 = 0 := Option.some.inj (hc 1 rfl)
    have e3 : v3 = 0 := Option.some.inj (hc 3 rfl)
    subst e0 e1 e3
    rw [hfl, truss_freeSize]
    have : Spec.size [0, 0, v2, 0] = |v2| := by simp [Spec.size, Real.sqrt_mul_self_eq_abs]
    rw [this]
    exact hstab u hu K hK v2
  · rintro u ⟨hu, hd⟩ K hK v hv
    obtain ⟨v0, v1, v2, v3, rfl⟩ := truss_four hv
    obtain ⟨a, b, c, e, rfl⟩ := truss_four hu
    obtain ⟨n1, n2, n3⟩ := trussPath_near h0 h1 hd
    obtain ⟨g0, g1, g2, g3⟩ := truss_size v0 v1 v2 v3
    rw [hfl, truss_freeSize, trussAnalysis_times o st l a b c e K hK]
    have k1 : |1 / 2 * (3 * (1 + c - a) ^ 2 + (e - b) ^ 2 - 1)| ≤ 8 / 5 := by
      have := abs_le.1 n3
      rw [abs_le]
      constructor
      · nlinarith [sq_nonneg (e - b)]
      · nlinarith [this.1, this.2]
    have k2 : |(1 + c - a) * (e - b)| ≤ 4 / 5 := by
      rw [abs_mul, abs_of_nonneg (by linarith)]
      nlinarith [abs_nonneg (e - b)]
    have k3 : |v2 - v0| ≤ 2 * Spec.size [v0, v1, v2, v3] := (abs_sub _ _).trans (by linarith)
    have k4 : |v3 - v1| ≤ 2 * Spec.size [v0, v1, v2, v3] := (abs_sub _ _).trans (by linarith)
    refine (abs_add_le _ _).trans ?_
    rw [abs_mul, abs_mul ((1 + c - a) * (e - b))]
    nlinarith [abs_nonneg (v2 - v0), abs_nonneg (v3 - v1), abs_nonneg (1 / 2 * (3 * (1 + c - a) ^ 2 + (e - b) ^ 2 - 1)),
      abs_nonneg ((1 + c - a) * (e - b))]
  · rintro u u' ⟨hu, hd⟩ ⟨hu', hd'⟩ K K' hK hK' v hv
    obtain ⟨v0, v1, v2, v3, rfl⟩ := truss_four hv
    obtain ⟨a, b, c, e, rfl⟩ := truss_four hu
    obtain ⟨a', b', c', e', rfl⟩ := truss_four hu'
    obtain ⟨n1, n2, n3⟩ := trussPath_near h0 h1 hd
    obtain ⟨m1, m2, m3⟩ := trussPath_near h0 h1 hd'
    obtain ⟨g0, g1, g2, g3⟩ := truss_size v0 v1 v2 v3
    rw [hfl, truss_freeSize, trussAnalysis_times o st l a b c e K hK, trussAnalysis_times o st l a' b' c' e' K' hK',
      truss_distance]
    obtain ⟨d0, d1, d2, d3⟩ := truss_size (a - a') (b - b') (c - c') (e - e')
    generalize Spec.size [a - a', b - b', c - c', e - e'] = D at *
    generalize Spec.size [v0, v1, v2, v3] = V at *
    have hD : 0 ≤ D := (abs_nonneg _).trans d0
    have hV : 0 ≤ V := (abs_nonneg _).trans g0
    have ds : |(1 + c - a) - (1 + c' - a')| ≤ 2 * D := by
      rw [show (1 + c - a) - (1 + c' - a') = (c - c') - (a - a') by ring]
      exact (abs_sub _ _).trans (by linarith)
    have dt : |(e - b) - (e' - b')| ≤ 2 * D := by
      rw [show (e - b) - (e' - b') = (e - e') - (b - b') by ring]
      exact (abs_sub _ _).trans (by linarith)
    generalize 1 + c - a = s at *
    generalize e - b = t at *
    generalize 1 + c' - a' = s' at *
    generalize e' - b' = t' at *
    have n3' := abs_le.1 n3
    have m3' := abs_le.1 m3
    have k1 : |1 / 2 * (3 * s ^ 2 + t ^ 2 - 1) - 1 / 2 * (3 * s' ^ 2 + t' ^ 2 - 1)| ≤ 39 / 5 * D := by
      rw [show 1 / 2 * (3 * s ^ 2 + t ^ 2 - 1) - 1 / 2 * (3 * s' ^ 2 + t' ^ 2 - 1) =
        3 / 2 * ((s + s') * (s - s')) + 1 / 2 * ((t + t') * (t - t')) by ring]
      refine (abs_add_le _ _).trans ?_
      rw [abs_mul, abs_mul, abs_mul, abs_mul]
      have h1 : |s + s'| ≤ 11 / 5 := abs_le.2 ⟨by linarith, by linarith⟩
      have h2 : |t + t'| ≤ 6 / 5 := abs_le.2 ⟨by linarith [n3'.1, m3'.1], by linarith [n3'.2, m3'.2]⟩
      have h3 := mul_le_mul h1 ds (abs_nonneg _) (by norm_num)
      have h4 := mul_le_mul h2 dt (abs_nonneg _) (by norm_num)
      norm_num [abs_of_pos]
      linarith
    have k2 : |s * t - s' * t'| ≤ 17 / 5 * D := by
      rw [show s * t - s' * t' = s * (t - t') + t' * (s - s') by ring]
      refine (abs_add_le _ _).trans ?_
      rw [abs_mul, abs_mul]
      have h1 : |s| ≤ 11 / 10 := abs_le.2 ⟨by linarith, by linarith⟩
      have h3 := mul_le_mul h1 dt (abs_nonneg _) (by norm_num)
      have h4 := mul_le_mul m3 ds (abs_nonneg _) (by norm_num)
      linarith
    have k3 : |v2 - v0| ≤ 2 * V := (abs_sub _ _).trans (by linarith)
    have k4 : |v3 - v1| ≤ 2 * V := (abs_sub _ _).trans (by linarith)
    rw [show 1 / 2 * (3 * s ^ 2 + t ^ 2 - 1) * (v2 - v0) + s * t * (v3 - v1) -
        (1 / 2 * (3 * s' ^ 2 + t' ^ 2 - 1) * (v2 - v0) + s' * t' * (v3 - v1)) =
      (1 / 2 * (3 * s ^ 2 + t ^ 2 - 1) - 1 / 2 * (3 * s' ^ 2 + t' ^ 2 - 1)) * (v2 - v0) + (s * t - s' * t') * (v3 - v1) by ring]
    refine (abs_add_le _ _).trans ?_
    rw [abs_mul, abs_mul]
    have h3 := mul_le_mul k1 k3 (abs_nonneg _) (by linarith)
    have h4 := mul_le_mul k2 k4 (abs_nonneg _) (by linarith)
    nlinarith [mul_nonneg hD hV]

theorem truss_path (o : DBCOption) (ho : o ≠ .raw) (st : NRSettings ℝ) :
    Spec.RegularPath (trussAnalysis o st) trussSupport trussPath 0 (1 / 2) (1 / 20) 3 24 5 2 where
  regular l h0 h1 := truss_regular o ho st h0 h1
  supports l _ _ := ⟨rfl, fun i hi => by
    rcases i with _ | _ | _ | _ | i
    · simp [trussPath, trussSupport]
    · simp [trussPath, trussSupport]
    · cases hi
    · simp [trussPath, trussSupport]
    · cases hi⟩
  speed l l' h0 h1 h0' h1' := by
    obtain ⟨r1, -, r3⟩ := trussPath_root h0 h1
    obtain ⟨q1, -, q3⟩ := trussPath_root h0' h1'
    unfold trussPath
    have hd : |Real.sqrt (1 - l ^ 2) - 1 - (Real.sqrt (1 - l' ^ 2) - 1)| ≤ |l - l'| := by
      have h : (Real.sqrt (1 - l ^ 2) - Real.sqrt (1 - l' ^ 2)) * (Real.sqrt (1 - l ^ 2) + Real.sqrt (1 - l' ^ 2)) =
          -((l - l') * (l + l')) := by ring_nf; ring_nf at r3 q3; rw [r3, q3]; ring
      have h2 := congrArg abs h
      rw [abs_mul, abs_neg, abs_mul, abs_of_nonneg (show 0 ≤ Real.sqrt (1 - l ^ 2) + Real.sqrt (1 - l' ^ 2) by linarith),
        abs_of_nonneg (show 0 ≤ l + l' by linarith)] at h2
      rw [show Real.sqrt (1 - l ^ 2) - 1 - (Real.sqrt (1 - l' ^ 2) - 1) = Real.sqrt (1 - l ^ 2) - Real.sqrt (1 - l' ^ 2) by ring]
      nlinarith [abs_nonneg (Real.sqrt (1 - l ^ 2) - Real.sqrt (1 - l' ^ 2)), abs_nonneg (l - l')]
    rw [truss_distance]
    have : Spec.size [0 - 0, l - l', Real.sqrt (1 - l ^ 2) - 1 - (Real.sqrt (1 - l' ^ 2) - 1), 0 - 0] =
      Real.sqrt ((l - l') ^ 2 + (Real.sqrt (1 - l ^ 2) - 1 - (Real.sqrt (1 - l' ^ 2) - 1)) ^ 2) := by
        simp [Spec.size, pow_two]
    rw [this]
    refine Real.sqrt_le_iff.2 ⟨by positivity, ?_⟩
    rw [mul_pow, sq_abs]
    have := sq_le_sq.2 hd
    nlinarith [sq_nonneg (l - l')]
  nonneg := by norm_num

/-- C100, the bar. The default settings of the solver, and at least 200 load steps from 0 to a half: load control succeeds with
at most five iterations in a step, and all states it shows are within `6e-8 + 1 / n` of the turned bar of unit length;
within `6e-8` where the solver iterated. -/
theorem truss_followed (o : DBCOption) (ho : o ≠ .raw) (n : Nat) (hn : 200 ≤ n) :
    ∃ (r : LCState ℝ (Option (List ℝ)) ℝ (Option (List ℝ))) (us : Nat → List ℝ),
      (trussAnalysis o { tol := 1 / 10 ^ 8, maxIter := 20, minIter := 0 }).loadControl? n 0 (1 / 2)
        ⟨0, some [0, 0, 0, 0]⟩ = some r ∧ r.info.success = true ∧ r.info.solverInfos.length = n + 1 ∧
      Spec.shown r = (List.range (n + 1)).map (fun k : Nat => ⟨k / (2 * n), some (us k)⟩) ∧
      ∀ k ≤ n, ∃ info, r.info.solverInfos[k]? = some info ∧ info.success = true ∧ info.iterations ≤ 5 ∧
        Spec.distance (us k) (trussPath (k / (2 * n))) ≤ 6 / 10 ^ 8 + 1 / n ∧
        (0 < info.iterations → Spec.distance (us k) (trussPath (k / (2 * n))) ≤ 6 / 10 ^ 8) := by
  have hn0 : (0 : ℝ) < n := by exact_mod_cast (by omega : 0 < n)
  have hn1 : (200 : ℝ) ≤ n := by exact_mod_cast hn
  have hst : ∀ k : Nat, (0 : ℝ) + k * ((1 / 2 - 0) / n) = k / (2 * n) := fun k => by field_simp; ring
  have hab : |((1 : ℝ) / 2 - 0) / n| = 1 / (2 * n) := by
    rw [abs_of_nonneg (by positivity)]; field_simp; norm_num
  obtain ⟨r, us, h1, h2, h3, -, h5, h6⟩ := load_control_follows
    (trussAnalysis_proper o ho { tol := 1 / 10 ^ 8, maxIter := 20, minIter := 0 }) (Or.inl rfl)
    (truss_path o ho { tol := 1 / 10 ^ 8, maxIter := 20, minIter := 0 }) (delta := 1 / 72) (by norm_num) (by norm_num)
    (m := 5) (by norm_num) (by norm_num [trussAnalysis]) (by norm_num [trussAnalysis]) (by norm_num [trussAnalysis])
    n (by omega) 0 (1 / 2) 0 (by
      rw [hab]
      have : 1 / (2 * (n : ℝ)) ≤ 1 / 400 := one_div_le_one_div_of_le (by norm_num) (by linarith)
      show 2 * 3 * (1 / 10 ^ 8) + 2 * (2 * (1 / (2 * (n : ℝ)))) ≤ 1 / 72
      norm_num at this ⊢
      linarith) (x0 := [0, 0, 0, 0]) trussAnalysis_start
    (by simp [trussPath, Spec.distance])
    (fun k hk => by
      rw [hst]
      have : (k : ℝ) ≤ n := by exact_mod_cast hk
      refine ⟨by positivity, ?_⟩
      rw [div_le_div_iff₀ (by positivity) (by norm_num)]
      linarith)
    (fun k hk _ h0 => by
      rw [hst] at h0
      have : (0 : ℝ) < k := by exact_mod_cast hk
      have : 0 < (k : ℝ) / (2 * n) := by positivity
      linarith)
  refine ⟨r, us, h1, h2, h3, ?_, fun k hk => ?_⟩
  · rw [h5]
    exact List.map_congr_left fun k _ => by rw [hst]
  · obtain ⟨info, g1, g2, g3, -, g5, g6⟩ := h6 k hk
    rw [hst, hab] at g5
    rw [hst] at g6
    have ht : 2 * 3 * (trussAnalysis o { tol := 1 / 10 ^ 8, maxIter := 20, minIter := 0 }).settings.tol = 6 / 10 ^ 8 := by
      norm_num [trussAnalysis]
    rw [ht] at g5 g6
    refine ⟨info, g1, g2, g3, ?_, fun hi => g6 (Or.inr (Or.inl hi))⟩
    convert g5 using 2
    field_simp

end Ikarus
