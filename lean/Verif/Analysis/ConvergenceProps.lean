import Verif.Analysis.ConvergenceLemmas

/-!
Property C100: load control follows a regular path of equilibrium of a nonlinear structure.
-/

namespace Ikarus

open Ikarus.Element Ikarus.Element.Spec

/-! ### Specification -/

/-- The states `X l` form a regular path of equilibrium for the load factors between `lo` and `hi`: every one is a regular
state of equilibrium, with the same constants, has the prescribed displacements, and moves with a speed of at most `M`. -/
structure Spec.RegularPath (a : Analysis) (û : Nat → ℝ) (X : ℝ → List ℝ) (lo hi rho beta L B M : ℝ) : Prop where
  regular : ∀ l, lo ≤ l → l ≤ hi → Spec.RegularAt a l (X l) rho beta L B
  supports : ∀ l, lo ≤ l → l ≤ hi → Spec.OnSupports a.dv.flags û l (X l)
  speed : ∀ l l', lo ≤ l → l ≤ hi → lo ≤ l' → l' ≤ hi → Spec.distance (X l) (X l') ≤ M * |l - l'|
  nonneg : 0 ≤ beta ∧ 0 ≤ L ∧ 0 ≤ B ∧ 0 ≤ M

/-! ### All solves -/

open Analysis in
/-- All solves of a run. -/
theorem solves_follow {a : Analysis} {û : Nat → ℝ} {X : ℝ → List ℝ} {lo hi rho beta L B M : ℝ} (hp : Spec.Proper a û)
    (hb : a.bound = none ∨ ∀ i < a.dv.flags.length, û i = 0) (h : Spec.RegularPath a û X lo hi rho beta L B M)
    {delta : ℝ} (hd : delta ≤ rho) (hc : beta * L * delta ≤ 1) {m : Nat} (hm : 0 < m) (hmin : a.settings.minIter ≤ m)
    (hmax : (m : Int) < a.settings.maxIter) (htol : B * (delta / 2 ^ (2 ^ m - 1)) ≤ a.settings.tol)
    (step l0 : ℝ) (hstep : 2 * beta * a.settings.tol + 2 * (M * |step|) ≤ delta) {x0 : List ℝ}
    (hx0 : Spec.OnSupports a.dv.flags û l0 x0) (hx0d : Spec.distance x0 (X l0) ≤ delta) (w : Option (List ℝ)) (n : Nat)
    (hr : ∀ k : Nat, k ≤ n → lo ≤ l0 + k * step ∧ l0 + k * step ≤ hi)
    (hz : ∀ k : Nat, 0 < k → k ≤ n → l0 + k * step = 0 → ∀ i < a.dv.flags.length, û i = 0) :
    ∀ k : Nat, k ≤ n → ∃ u : List ℝ, Spec.loadAfter a.solver step w ⟨l0, some x0⟩ k = ⟨l0 + k * step, some u⟩ ∧
      Spec.OnSupports a.dv.flags û (l0 + k * step) u ∧
      (Spec.loadInfo a.solver step w ⟨l0, some x0⟩ k).success = true ∧
      (Spec.loadInfo a.solver step w ⟨l0, some x0⟩ k).iterations ≤ m ∧
      Spec.distance u (X (l0 + k * step)) ≤ 2 * beta * a.settings.tol + M * |step| ∧
      (k = 0 ∨ 0 < (Spec.loadInfo a.solver step w ⟨l0, some x0⟩ k).iterations ∨ (∀ i < a.dv.flags.length, û i = 0) →
        Spec.distance u (X (l0 + k * step)) ≤ 2 * beta * a.settings.tol) := by
  obtain ⟨hbeta, hL, hB, hM⟩ := h.nonneg
  have hd0 : 0 ≤ delta := (distance_nonneg _ _).trans hx0d
  have hMs : 0 ≤ M * |step| := mul_nonneg hM (abs_nonneg _)
  have hlt : ∀ {i : Nat}, a.dv.flags[i]? = some true → i < a.dv.flags.length := fun h => (List.getElem?_eq_some_iff.1 h).1
  have hval : ∀ {l : ℝ} {u : List ℝ}, Spec.OnSupports a.dv.flags û l u → ∀ i < a.dv.flags.length,
      ¬ Spec.Free a.dv.flags i → u.getD i 0 = l * û i := by
    intro l u hu i hi hf
    rw [List.getD_eq_getElem?_getD, hu.2 i ((not_free_iff hi).1 hf), Option.getD_some]
  intro k
  induction k with
  | zero =>
    intro _
    have hlam : l0 + ((0 : Nat) : ℝ) * step = l0 := by simp
    have hr0 := hr 0 (Nat.zero_le _)
    rw [hlam] at hr0 ⊢
    have hX := h.supports l0 hr0.1 hr0.2
    obtain ⟨w', y, info, k, s1, s2, s3, s4, s5, s6, s7⟩ := solve_converges hp hb (h.regular l0 hr0.1 hr0.2) hbeta hL hB hd0 hd
      hc 0 ⟨hx0.1, hx0d⟩ (fun i hi hf => by
        rw [hval hx0 i hi hf, hval hX i hi hf]
        refine ⟨?_, by ring⟩
        unfold synced; split <;> rfl) hm hmin hmax htol w
    have hinf : Spec.loadInfo a.solver step w ⟨l0, some x0⟩ 0 = info := by
      show (a.solver.solve w ⟨l0, some x0⟩ 0).2.2 = _
      rw [s1]
    have hd2 : Spec.distance y (X l0) ≤ 2 * beta * a.settings.tol := by
      rcases Nat.eq_zero_or_pos k with hk | hk
      · obtain ⟨rfl, h1⟩ := s7 hk
        have := h1 _ hx0.1 fun i hi => by ring
        linarith
      · exact (s6 hk).2
    refine ⟨y, ?_, ⟨s5, fun i hi => ?_⟩, by rw [hinf]; exact s2, by rw [hinf, s3]; exact_mod_cast s4, by linarith, fun _ => hd2⟩
    · show (a.solver.solve w ⟨l0, some x0⟩ 0).2.1 = _
      rw [s1]
    · rcases Nat.eq_zero_or_pos k with hk | hk
      · rw [(s7 hk).1]; exact hx0.2 i hi
      · have hf := (not_free_iff (hlt hi)).2 hi
        rw [getElem?_eq_getD (s5 ▸ hlt hi), (s6 hk).1 i (hlt hi) hf, hval hX i (hlt hi) hf]
  | succ k ih =>
    intro hkn
    obtain ⟨u, i1, i2, -, -, i5, -⟩ := ih (by omega)
    have hrk := hr k (by omega)
    have hrs := hr (k + 1) hkn
    have hzk := hz (k + 1) (by omega) hkn
    generalize hl : l0 + ((k + 1 : Nat) : ℝ) * step = l at *
    have hll : l0 + (k : ℝ) * step + step = l := by rw [← hl]; push_cast; ring
    generalize hl' : l0 + (k : ℝ) * step = l' at *
    have hX := h.supports l hrs.1 hrs.2
    have hX' := h.supports l' hrk.1 hrk.2
    have hdu : Spec.distance u (X l) ≤ 2 * beta * a.settings.tol + 2 * (M * |step|) := by
      have h1 := distance_triangle a.dv.flags.length u (X l') (X l) i2.1 hX'.1 hX.1
      have h2 := h.speed l' l hrk.1 hrk.2 hrs.1 hrs.2
      have h3 : |l' - l| = |step| := by rw [← hll]; rw [show l' - (l' + step) = -step by ring, abs_neg]
      rw [h3] at h2
      linarith
    have hsy : ∀ i < a.dv.flags.length, ¬ Spec.Free a.dv.flags i → synced û l i (u.getD i 0) = l * û i := by
      intro i hi hf
      unfold synced
      split
      · rfl
      · rename_i h0
        push Not at h0
        rw [hval i2 i hi hf, h0]
        rcases mul_eq_zero.1 h0 with h1 | h1
        · rw [hzk h1 i hi, mul_zero]
        · rw [h1, mul_zero]
    have hsu : ∀ i < a.dv.flags.length, ¬ Spec.Free a.dv.flags i → u.getD i 0 + step * û i = l * û i := by
      intro i hi hf
      rw [hval i2 i hi hf, ← hll]; ring
    obtain ⟨w', y, info, kk, s1, s2, s3, s4, s5, s6, s7⟩ := solve_converges hp hb (h.regular l hrs.1 hrs.2) hbeta hL hB hd0 hd
      hc step ⟨i2.1, hdu.trans hstep⟩ (fun i hi hf => by
        rw [hsy i hi hf, hval hX i hi hf, hsu i hi hf]; exact ⟨rfl, rfl⟩) hm hmin hmax htol
      (Spec.loadSolve a.solver step w ⟨l0, some x0⟩ k).2.1
    have hy1 : ({ (Spec.loadSolve a.solver step w ⟨l0, some x0⟩ k).2.2.1 with
        lam := (Spec.loadSolve a.solver step w ⟨l0, some x0⟩ k).2.2.1.lam + step } : Dom ℝ (Option (List ℝ))) = ⟨l, some u⟩ := by
      have h1 : (Spec.loadSolve a.solver step w ⟨l0, some x0⟩ k).2.2.1 = ⟨l', some u⟩ := i1
      rw [h1, ← hll]
    have hinf : Spec.loadInfo a.solver step w ⟨l0, some x0⟩ (k + 1) = info := by
      show (a.solver.solve (Spec.loadSolve a.solver step w ⟨l0, some x0⟩ k).2.1 _ step).2.2 = _
      rw [hy1, s1]
    obtain ⟨z, z1, z2, z3⟩ := proper_sync hp l s5
    have haft : Spec.loadAfter a.solver step w ⟨l0, some x0⟩ (k + 1) = ⟨l, some (if kk = 0 then z else y)⟩ := by
      show (if (a.solver.solve (Spec.loadSolve a.solver step w ⟨l0, some x0⟩ k).2.1 _ step).2.2.iterations = 0 then
        a.sync (a.solver.solve (Spec.loadSolve a.solver step w ⟨l0, some x0⟩ k).2.1 _ step).2.1 else
        (a.solver.solve (Spec.loadSolve a.solver step w ⟨l0, some x0⟩ k).2.1 _ step).2.1) = _
      rw [hy1, s1]
      show (if info.iterations = 0 then a.sync ⟨l, some y⟩ else ⟨l, some y⟩) = _
      rw [s3, z1]
      by_cases h0 : kk = 0
      · rw [if_pos (by omega), if_pos h0]
      · rw [if_neg (by omega), if_neg h0]
    rw [hinf, s3]
    by_cases h0 : kk = 0
    · rw [if_pos h0] at haft
      obtain ⟨hyu, h1⟩ := s7 h0
      have hzi : ∀ i < a.dv.flags.length, z.getD i 0 = u.getD i 0 + step * û i := by
        intro i hi
        rw [z3 i hi, hyu]
        by_cases hf : Spec.Free a.dv.flags i
        · unfold synced
          rw [proper_free_zero hp hf, mul_zero, mul_zero, if_neg (by simp), add_zero]
        · rw [hsy i hi hf, hsu i hi hf]
      have h2 := h1 z z2 hzi
      refine ⟨z, haft, ⟨z2, fun i hi => ?_⟩, s2, by exact_mod_cast s4, by linarith, fun hor => ?_⟩
      · have hf := (not_free_iff (hlt hi)).2 hi
        rw [getElem?_eq_getD (z2 ▸ hlt hi), hzi i (hlt hi), hsu i (hlt hi) hf]
      · rcases hor with h3 | h3 | h3
        · omega
        · omega
        · have hzu : z = u := by
            apply List.ext_getElem?
            intro i
            by_cases hi : i < a.dv.flags.length
            · rw [getElem?_eq_getD (z2 ▸ hi), getElem?_eq_getD (i2.1 ▸ hi), hzi i hi, h3 i hi, mul_zero, add_zero]
            · rw [List.getElem?_eq_none (by omega), List.getElem?_eq_none (by rw [i2.1]; omega)]
          rw [hzu] at h2 ⊢
          linarith
    · rw [if_neg h0] at haft
      obtain ⟨h1, h2⟩ := s6 (by omega)
      refine ⟨y, haft, ⟨s5, fun i hi => ?_⟩, s2, by exact_mod_cast s4, by linarith, fun _ => h2⟩
      have hf := (not_free_iff (hlt hi)).2 hi
      rw [getElem?_eq_getD (s5 ▸ hlt hi), h1 i (hlt hi) hf, hval hX i (hlt hi) hf]

/-! ### Load control -/

/-- C100. Load control follows a regular path of equilibrium.  If the structure starts on the supports within `delta` of
the path, where `delta` is inside the neighbourhood in which the path is regular and small against the rate at which the
stiffness changes; if the load steps and the tolerance are small against `delta`; and if the solver is allowed the
`m` iterations after which the error has become `delta / 2 ^ (2 ^ m - 1)`, then the run succeeds, every solve with at most `m`
iterations; the listeners are shown one state for each load factor; all have the prescribed displacements and lie within
`2 * beta * tol` of the path, those of later solves without iteration with prescribed displacements within the same plus
the way the path makes in a step.  This holds for Full and Reduced, and with prescribed displacements. -/
theorem load_control_follows {a : Analysis} {û : Nat → ℝ} {X : ℝ → List ℝ} {lo hi rho beta L B M : ℝ}
    (hp : Spec.Proper a û) (hb : a.bound = none ∨ ∀ i < a.dv.flags.length, û i = 0)
    (h : Spec.RegularPath a û X lo hi rho beta L B M) {delta : ℝ} (hd : delta ≤ rho) (hc : beta * L * delta ≤ 1)
    {m : Nat} (hm : 0 < m) (hmin : a.settings.minIter ≤ m) (hmax : (m : Int) < a.settings.maxIter)
    (htol : B * (delta / 2 ^ (2 ^ m - 1)) ≤ a.settings.tol) (n : Nat) (hn : 0 < n) (tbegin tend l0 : ℝ)
    (hstep : 2 * beta * a.settings.tol + 2 * (M * |(tend - tbegin) / n|) ≤ delta) {x0 : List ℝ}
    (hx0 : Spec.OnSupports a.dv.flags û l0 x0) (hx0d : Spec.distance x0 (X l0) ≤ delta)
    (hr : ∀ k : Nat, k ≤ n → lo ≤ l0 + k * ((tend - tbegin) / n) ∧ l0 + k * ((tend - tbegin) / n) ≤ hi)
    (hz : ∀ k : Nat, 0 < k → k ≤ n → l0 + k * ((tend - tbegin) / n) = 0 → ∀ i < a.dv.flags.length, û i = 0) :
    ∃ (r : LCState ℝ (Option (List ℝ)) ℝ (Option (List ℝ))) (us : Nat → List ℝ),
      a.loadControl? n tbegin tend ⟨l0, some x0⟩ = some r ∧ r.info.success = true ∧
      r.info.solverInfos.length = n + 1 ∧ r.dom = ⟨l0 + (tend - tbegin), some (us n)⟩ ∧
      Spec.shown r = (List.range (n + 1)).map (fun k : Nat => ⟨l0 + k * ((tend - tbegin) / n), some (us k)⟩) ∧
      ∀ k ≤ n, ∃ info, r.info.solverInfos[k]? = some info ∧ info.success = true ∧ info.iterations ≤ m ∧
        Spec.OnSupports a.dv.flags û (l0 + k * ((tend - tbegin) / n)) (us k) ∧
        Spec.distance (us k) (X (l0 + k * ((tend - tbegin) / n))) ≤
          2 * beta * a.settings.tol + M * |(tend - tbegin) / n| ∧
        (k = 0 ∨ 0 < info.iterations ∨ (∀ i < a.dv.flags.length, û i = 0) →
          Spec.distance (us k) (X (l0 + k * ((tend - tbegin) / n))) ≤ 2 * beta * a.settings.tol) := by
  have hend : l0 + (n : ℝ) * ((tend - tbegin) / n) = l0 + (tend - tbegin) := by
    have : (n : ℝ) ≠ 0 := by exact_mod_cast hn.ne'
    rw [mul_div_cancel₀ _ this]
  generalize hst : (tend - tbegin) / (n : ℝ) = step at *
  have hmk : LoadControl.mk? (n : Int) tbegin tend = some ⟨n, step⟩ := by
    unfold LoadControl.mk?
    rw [if_neg (by omega)]
    simp [hst]
  have key := solves_follow hp hb h hd hc hm hmin hmax htol step l0 hstep hx0 hx0d none n hr hz
  have key' : ∀ k : Nat, ∃ u : List ℝ, k ≤ n → Spec.loadAfter a.solver step none ⟨l0, some x0⟩ k = ⟨l0 + k * step, some u⟩ ∧
      Spec.OnSupports a.dv.flags û (l0 + k * step) u ∧
      (Spec.loadInfo a.solver step none ⟨l0, some x0⟩ k).success = true ∧
      (Spec.loadInfo a.solver step none ⟨l0, some x0⟩ k).iterations ≤ m ∧
      Spec.distance u (X (l0 + k * step)) ≤ 2 * beta * a.settings.tol + M * |step| ∧
      (k = 0 ∨ 0 < (Spec.loadInfo a.solver step none ⟨l0, some x0⟩ k).iterations ∨ (∀ i < a.dv.flags.length, û i = 0) →
        Spec.distance u (X (l0 + k * step)) ≤ 2 * beta * a.settings.tol) := by
    intro k
    by_cases hk : k ≤ n
    · obtain ⟨u, hu⟩ := key k hk
      exact ⟨u, fun _ => hu⟩
    · exact ⟨[], fun h => absurd h hk⟩
  choose us hus using key'
  obtain ⟨m', ls, hm', h1, h2, h3, -, h5, h6⟩ := load_control_run n hn step a.solver none ⟨l0, some x0⟩
  generalize hrr : (LoadControl.mk (n : Int) step).run a.solver none ⟨l0, some x0⟩ = r at *
  have hsucc : r.info.success = true := h1.2 fun k hk => (hus k (by omega)).2.2.1
  obtain rfl := h2 hsucc
  have hshown : Spec.shown r = (List.range (n + 1)).map (fun k : Nat => ⟨l0 + k * step, some (us k)⟩) := by
    unfold Spec.shown
    rw [h6, List.cons_append, List.filterMap_cons_none rfl, List.filterMap_append, List.filterMap_flatMap]
    have hend : ((if r.info.success = true then [CEvent.notify .controlEnded r.dom ls step] else []).filterMap Spec.solutionOf) =
        ([] : List (Dom ℝ (Option (List ℝ)))) := by split <;> rfl
    rw [hend, List.append_nil]
    have hev : ∀ k, ((Spec.loadEvents a.solver step none ⟨l0, some x0⟩ k).filterMap Spec.solutionOf) =
        [Spec.loadAfter a.solver step none ⟨l0, some x0⟩ k] := by
      intro k
      cases k <;> rfl
    rw [List.flatMap_congr fun k _ => hev k, ← List.map_eq_flatMap]
    refine List.map_congr_left fun k hk => (hus k ?_).1
    have := List.mem_range.1 hk
    omega
  refine ⟨r, us, ?_, hsucc, by rw [h3]; simp, ?_, hshown, fun k hk => ?_⟩
  · unfold Analysis.loadControl?
    rw [hmk, Option.map_some, hrr]
  · rw [h5, Nat.add_sub_cancel, (hus n le_rfl).1, hend]
  · obtain ⟨-, g1, g2, g3, g4, g5⟩ := hus k hk
    refine ⟨_, ?_, g2, g3, g1, g4, g5⟩
    rw [h3, List.getElem?_map, List.getElem?_range (by omega)]
    rfl

/-- C100, limit. On a regular path of equilibrium there is a number of iterations and a number of load steps from which on
load control succeeds and stays within `eps` of the path, whatever `eps`, as long as the tolerance of the solver is small
against `eps` and the size of the neighbourhood in which the path is regular. -/
theorem load_control_converges {a : Analysis} {û : Nat → ℝ} {X : ℝ → List ℝ} {lo hi rho beta L B M : ℝ}
    (hp : Spec.Proper a û) (hb : a.bound = none ∨ ∀ i < a.dv.flags.length, û i = 0)
    (h : Spec.RegularPath a û X lo hi rho beta L B M) {delta eps : ℝ} (hd : delta ≤ rho) (hc : beta * L * delta ≤ 1)
    (ht : 0 < a.settings.tol) (htd : 2 * beta * a.settings.tol < delta) (hte : 2 * beta * a.settings.tol < eps)
    (tbegin tend l0 : ℝ) {x0 : List ℝ} (hx0 : Spec.OnSupports a.dv.flags û l0 x0)
    (hx0d : Spec.distance x0 (X l0) ≤ delta)
    (hr : ∀ t, 0 ≤ t → t ≤ 1 → lo ≤ l0 + t * (tend - tbegin) ∧ l0 + t * (tend - tbegin) ≤ hi)
    (hz : (∀ i < a.dv.flags.length, û i = 0) ∨ ∀ t, 0 < t → t ≤ 1 → l0 + t * (tend - tbegin) ≠ 0) :
    ∃ m N : Nat, a.settings.minIter ≤ m → (m : Int) < a.settings.maxIter → ∀ n : Nat, N ≤ n →
      ∃ (r : LCState ℝ (Option (List ℝ)) ℝ (Option (List ℝ))) (us : Nat → List ℝ),
        a.loadControl? n tbegin tend ⟨l0, some x0⟩ = some r ∧ r.info.success = true ∧
        Spec.shown r = (List.range (n + 1)).map (fun k : Nat => ⟨l0 + k * ((tend - tbegin) / n), some (us k)⟩) ∧
        ∀ k ≤ n, Spec.OnSupports a.dv.flags û (l0 + k * ((tend - tbegin) / n)) (us k) ∧
          Spec.distance (us k) (X (l0 + k * ((tend - tbegin) / n))) ≤ eps := by
  obtain ⟨hbeta, hL, hB, hM⟩ := h.nonneg
  have hd0 : 0 ≤ delta := (distance_nonneg _ _).trans hx0d
  have hm : ∃ m : Nat, 0 < m ∧ B * (delta / 2 ^ (2 ^ m - 1)) ≤ a.settings.tol := by
    obtain ⟨m, hm⟩ := pow_unbounded_of_one_lt (B * delta / a.settings.tol) (one_lt_two (α := ℝ))
    refine ⟨m + 1, by omega, ?_⟩
    have h1 : m ≤ 2 ^ (m + 1) - 1 := by
      have := Nat.lt_two_pow_self (n := m + 1)
      omega
    have h2 : (2 : ℝ) ^ m ≤ 2 ^ (2 ^ (m + 1) - 1) := pow_le_pow_right₀ one_le_two h1
    rw [← mul_div_assoc, div_le_iff₀ (by positivity)]
    rw [div_lt_iff₀ ht] at hm
    nlinarith
  obtain ⟨m, hm0, hm⟩ := hm
  obtain ⟨g, hg0, hg1, hg2⟩ : ∃ g : ℝ, 0 < g ∧ 2 * beta * a.settings.tol + 2 * g ≤ delta ∧ 2 * beta * a.settings.tol + g ≤ eps :=
    ⟨min ((delta - 2 * beta * a.settings.tol) / 2) (eps - 2 * beta * a.settings.tol),
      lt_min (by linarith) (by linarith),
      by linarith [min_le_left ((delta - 2 * beta * a.settings.tol) / 2) (eps - 2 * beta * a.settings.tol)],
      by linarith [min_le_right ((delta - 2 * beta * a.settings.tol) / 2) (eps - 2 * beta * a.settings.tol)]⟩
  obtain ⟨N, hN⟩ := exists_nat_gt (M * |tend - tbegin| / g)
  refine ⟨m, N + 1, fun hmin hmax n hn => ?_⟩
  have hn0 : (0 : ℝ) < n := by exact_mod_cast (by omega : 0 < n)
  have hNn : (N : ℝ) ≤ n := by exact_mod_cast (by omega : N ≤ n)
  have hst : M * |(tend - tbegin) / n| ≤ g := by
    rw [abs_div, abs_of_pos hn0, ← mul_div_assoc, div_le_iff₀ hn0]
    rw [div_lt_iff₀ hg0] at hN
    nlinarith
  have hkl : ∀ k : Nat, l0 + k * ((tend - tbegin) / n) = l0 + k / n * (tend - tbegin) := fun k => by ring
  have hk1 : ∀ k : Nat, k ≤ n → (k : ℝ) / n ≤ 1 := fun k hk => (div_le_one hn0).2 (by exact_mod_cast hk)
  obtain ⟨r, us, h1, h2, -, -, h5, h6⟩ := load_control_follows hp hb h hd hc hm0 hmin hmax hm n (by omega) tbegin tend l0
    (by linarith) hx0 hx0d (fun k hk => by rw [hkl]; exact hr _ (by positivity) (hk1 k hk))
    (fun k hk hkn h0 => by
      rcases hz with hz | hz
      · exact hz
      · rw [hkl] at h0
        have : (0 : ℝ) < k := by exact_mod_cast hk
        exact absurd h0 (hz _ (by positivity) (hk1 k hkn)))
  refine ⟨r, us, h1, h2, h5, fun k hk => ?_⟩
  obtain ⟨-, -, -, -, g4, g5, -⟩ := h6 k hk
  exact ⟨g4, by linarith⟩

end Ikarus
