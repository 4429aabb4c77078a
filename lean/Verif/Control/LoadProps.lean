import Verif.Control.LoadModel
import Mathlib.Algebra.Field.Basic
import Mathlib.Algebra.Order.Field.Rat
import Mathlib.Data.Rat.Defs
import Mathlib.Data.Nat.Find
import Mathlib.Data.Nat.Cast.Field
import Mathlib.Algebra.CharZero.Defs
import Mathlib.Tactic.Ring
import Mathlib.Tactic.FieldSimp

/-!
C21, C22: load control.
-/

namespace Ikarus

section
variable {K V N W : Type} [Field K]

namespace Spec

/-- The `k`-th solve: the domain before it and the result (solver state, domain and information after
it), if all solves are made. After a solve without iterations the domain is synchronised, except
after the initial one. -/
def loadSolve (S : NLSolver K V N W) (step : K) (w : W) (d : Dom K V) :
    Nat → Dom K V × (W × Dom K V × SolverInfo N)
  | 0 => (d, S.solve w d 0)
  | k + 1 =>
    let p := (loadSolve S step w d k).2
    let y : Dom K V := { p.2.1 with lam := p.2.1.lam + step }
    let r := S.solve p.1 y step
    (y, r.1, if r.2.2.iterations = 0 then S.sync r.2.1 else r.2.1, r.2.2)

/-- Information of the `k`-th solve. -/
def loadInfo (S : NLSolver K V N W) (step : K) (w : W) (d : Dom K V) (k : Nat) : SolverInfo N :=
  (loadSolve S step w d k).2.2.2

/-- Domain after the `k`-th solve. -/
def loadAfter (S : NLSolver K V N W) (step : K) (w : W) (d : Dom K V) (k : Nat) : Dom K V :=
  (loadSolve S step w d k).2.2.1

/-- Domain handed over to the `k`-th solve. -/
def loadBefore (S : NLSolver K V N W) (step : K) (w : W) (d : Dom K V) (k : Nat) : Dom K V :=
  (loadSolve S step w d k).1

/-- The events of the `k`-th solve. -/
def loadEvents (S : NLSolver K V N W) (step : K) (w : W) (d : Dom K V) : Nat → List (CEvent K V)
  | 0 => [.notify .stepStarted d (-1) 0, .solve d 0,
      .notify .solutionChanged (loadAfter S step w d 0) (-1) 0,
      .notify .stepEnded (loadAfter S step w d 0) (-1) 0]
  | k + 1 => [.notify .stepStarted (loadAfter S step w d k) k step,
      .solve (loadBefore S step w d (k + 1)) step,
      .notify .solutionChanged (loadAfter S step w d (k + 1)) k step,
      .notify .stepEnded (loadAfter S step w d (k + 1)) k step]

/-- `m` is the number of solves made when at most `n + 1` solves are wanted: all before the last
succeed, and the last is either the one with index `n` or it fails. -/
def SolvesMade (S : NLSolver K V N W) (step : K) (w : W) (d : Dom K V) (n m : Nat) : Prop :=
  0 < m ∧ m ≤ n + 1 ∧ (∀ k, k + 1 < m → (loadInfo S step w d k).success = true) ∧
    (m ≤ n → (loadInfo S step w d (m - 1)).success = false)

end Spec

open Spec

namespace LoadControl

/-- The state after `m ≥ 1` solves. -/
def stateAfter (S : NLSolver K V N W) (step : K) (w : W) (d : Dom K V) (m : Nat) (ls : Int) (ss : K) :
    LCState K V N W :=
  { dom := loadAfter S step w d (m - 1)
    solver := (loadSolve S step w d (m - 1)).2.1
    info := ⟨false, (List.range m).map (loadInfo S step w d),
      ((List.range m).map fun k => (loadInfo S step w d k).iterations).sum⟩
    loadStep := ls
    stepSize := ss
    trace := .notify .controlStarted d (-1) 0 :: (List.range m).flatMap (loadEvents S step w d) }

theorem step_eq (c : LoadControl K) (S : NLSolver K V N W) (w : W) (d : Dom K V) (m : Nat)
    (hm : 0 < m) (ls : Int) :
    c.step S (m - 1 : Int) (stateAfter S c.stepSize w d m ls c.stepSize)
      = (stateAfter S c.stepSize w d (m + 1) (m - 1 : Int) c.stepSize,
          loadInfo S c.stepSize w d m) := by
  obtain ⟨k, rfl⟩ : ∃ k, m = k + 1 := ⟨m - 1, by omega⟩
  have hsum : ∀ (g : Nat → Int) (n : Nat), ((List.range (n + 1)).map g).sum
      = ((List.range n).map g).sum + g n := by
    intro g n; simp [List.range_succ]
  have hmap : (List.range (k + 1 + 1)).map (loadInfo S c.stepSize w d)
      = (List.range (k + 1)).map (loadInfo S c.stepSize w d) ++ [loadInfo S c.stepSize w d (k + 1)] := by
    simp [List.range_succ]
  have htr : (List.range (k + 1 + 1)).flatMap (loadEvents S c.stepSize w d)
      = (List.range (k + 1)).flatMap (loadEvents S c.stepSize w d)
        ++ loadEvents S c.stepSize w d (k + 1) := by
    rw [List.range_succ, List.flatMap_append]; simp
  have hk : ((k + 1 : Nat) : Int) - 1 = k := by push_cast; omega
  unfold step stateAfter
  rw [hsum _ (k + 1), hmap, htr, hk]
  simp only [LCState.notify, LCState.updateAndNotifyControlInfo, predictor, loadInfo, loadAfter,
    loadEvents, loadBefore, loadSolve, Nat.add_sub_cancel]
  split <;> simp

theorem loop_eq (c : LoadControl K) (S : NLSolver K V N W) (w : W) (d : Dom K V) (r m : Nat)
    (hm : 0 < m) (ls : Int) (hprev : ∀ k < m, (loadInfo S c.stepSize w d k).success = true) :
    ∃ m', SolvesMade S c.stepSize w d (m - 1 + r) m' ∧ m ≤ m' ∧
      ((∀ k < m', (loadInfo S c.stepSize w d k).success = true) →
        m' = m + r ∧ ∃ ls', c.loop S r (m - 1 : Int) (stateAfter S c.stepSize w d m ls c.stepSize) =
        { stateAfter S c.stepSize w d m' ls' c.stepSize with
          info := { (stateAfter S c.stepSize w d m' ls' c.stepSize).info with success := true }
          trace := (stateAfter S c.stepSize w d m' ls' c.stepSize).trace ++
            [.notify .controlEnded (loadAfter S c.stepSize w d (m' - 1)) ls' c.stepSize] }) ∧
      ((¬ ∀ k < m', (loadInfo S c.stepSize w d k).success = true) →
        ∃ ls', c.loop S r (m - 1 : Int) (stateAfter S c.stepSize w d m ls c.stepSize) =
          stateAfter S c.stepSize w d m' ls' c.stepSize) := by
  induction r generalizing m ls with
  | zero =>
    refine ⟨m, ⟨hm, by omega, fun k hk => hprev k (by omega), by omega⟩, le_rfl,
      fun _ => ⟨rfl, ls, rfl⟩, fun h => absurd hprev h⟩
  | succ r ih =>
    cases hs : (loadInfo S c.stepSize w d m).success with
    | true =>
      have hprev' : ∀ k < m + 1, (loadInfo S c.stepSize w d k).success = true := by
        intro k hk
        by_cases h : k = m
        · subst h; exact hs
        · exact hprev k (by omega)
      obtain ⟨m', h1, h2, h3, h4⟩ := ih (m + 1) (by omega) (m - 1) hprev'
      have hl : c.loop S (r + 1) (m - 1 : Int) (stateAfter S c.stepSize w d m ls c.stepSize)
          = c.loop S r ((m + 1 : Nat) - 1 : Int)
              (stateAfter S c.stepSize w d (m + 1) (m - 1 : Int) c.stepSize) := by
        simp only [loop]
        rw [step_eq c S w d m hm ls]
        simp only [hs, Bool.not_true, Bool.false_eq_true, if_false]
        congr 1
        push_cast; omega
      rw [hl]
      refine ⟨m', ?_, by omega, fun h => ?_, h4⟩
      · have : m - 1 + (r + 1) = m + 1 - 1 + r := by omega
        rw [this]; exact h1
      · obtain ⟨e, h⟩ := h3 h
        exact ⟨by omega, h⟩
    | false =>
      have hl : c.loop S (r + 1) (m - 1 : Int) (stateAfter S c.stepSize w d m ls c.stepSize)
          = stateAfter S c.stepSize w d (m + 1) (m - 1 : Int) c.stepSize := by
        simp only [loop]
        rw [step_eq c S w d m hm ls]
        simp only [hs, Bool.not_false, if_true]
      rw [hl]
      refine ⟨m + 1, ⟨by omega, by omega, fun k hk => hprev k (by omega), fun _ => by simpa using hs⟩,
        by omega, fun h => ?_, fun _ => ⟨_, rfl⟩⟩
      have := h m (by omega)
      rw [hs] at this
      exact absurd this (by simp)

theorem run_start (c : LoadControl K) (S : NLSolver K V N W) (w : W) (d : Dom K V) :
    c.run S w d = if (loadInfo S c.stepSize w d 0).success
      then c.loop S c.loadSteps.toNat 0 (stateAfter S c.stepSize w d 1 (-1) c.stepSize)
      else stateAfter S c.stepSize w d 1 (-1) 0 := by
  unfold run
  have h0 : (loadInfo S c.stepSize w d 0) = (S.solve w d 0).2.2 := rfl
  rw [h0]
  cases hq : (S.solve w d 0).2.2.success <;>
    simp [LCState.notify, LCState.updateAndNotifyControlInfo, stateAfter, loadInfo, loadAfter,
      loadEvents, loadSolve, hq]

end LoadControl

open LoadControl

/-- C22. Everything observable about a run of load control with `n` load steps. `m` solves are made:
all before the last succeed and if fewer than `n + 1` are made the last one failed; success is
reported iff all `n + 1` solves are made and succeed; the information contains exactly the
information of the solves made and the sum of their iterations; the events are `CONTROL_STARTED`,
the events of each solve, and `CONTROL_ENDED` iff successful. -/
theorem load_control_run (n : Nat) (hn : 0 < n) (step : K) (S : NLSolver K V N W) (w : W)
    (d : Dom K V) :
    let r := (LoadControl.mk (n : Int) step).run S w d
    ∃ m ls, SolvesMade S step w d n m ∧
      (r.info.success = true ↔ ∀ k < n + 1, (loadInfo S step w d k).success = true) ∧
      (r.info.success = true → m = n + 1) ∧
      r.info.solverInfos = (List.range m).map (loadInfo S step w d) ∧
      r.info.totalIterations = ((List.range m).map fun k => (loadInfo S step w d k).iterations).sum ∧
      r.dom = loadAfter S step w d (m - 1) ∧
      r.trace = .notify .controlStarted d (-1) 0 :: (List.range m).flatMap (loadEvents S step w d) ++
        (if r.info.success then [.notify .controlEnded r.dom ls step] else []) := by
  intro r
  have hr : r = (LoadControl.mk (n : Int) step).run S w d := rfl
  rw [run_start] at hr
  simp only at hr
  cases h0 : (loadInfo S step w d 0).success with
  | false =>
    rw [h0] at hr
    simp only [Bool.false_eq_true, if_false] at hr
    refine ⟨1, 0, ⟨by omega, by omega, by omega, fun _ => by simpa using h0⟩, ?_⟩
    rw [hr]
    refine ⟨⟨fun h => absurd h (by simp [stateAfter]), fun h => ?_⟩,
      fun h => absurd h (by simp [stateAfter]), rfl, rfl, rfl, by simp [stateAfter]⟩
    have := h 0 (by omega)
    rw [h0] at this
    exact absurd this (by simp)
  | true =>
    rw [h0] at hr
    simp only [if_true, Int.toNat_natCast] at hr
    obtain ⟨m, h1, h2, h3, h4⟩ := loop_eq (LoadControl.mk (n : Int) step) S w d n 1 (by omega) (-1)
      (fun k hk => by obtain rfl : k = 0 := by omega
                      exact h0)
    simp only [Nat.cast_one, sub_self, Nat.sub_self, zero_add] at h1 h3 h4
    by_cases hall : ∀ k < m, (loadInfo S step w d k).success = true
    · obtain ⟨e, ls', hl⟩ := h3 hall
      have hm : m = n + 1 := by omega
      rw [hl] at hr
      refine ⟨m, ls', h1, ?_⟩
      rw [hr]
      refine ⟨⟨fun _ k hk => hall k (by omega), fun _ => rfl⟩, fun _ => hm, rfl, rfl, rfl, ?_⟩
      simp [stateAfter]
    · obtain ⟨ls', hl⟩ := h4 hall
      rw [hl] at hr
      refine ⟨m, ls', h1, ?_⟩
      rw [hr]
      refine ⟨⟨fun h => absurd h (by simp [stateAfter]), fun h => ?_⟩,
        fun h => absurd h (by simp [stateAfter]), rfl, rfl, rfl, by simp [stateAfter]⟩
      exact absurd (fun k hk => h k (by have := h1.2.1; omega)) hall

/-- C21. Load factors: for a nonlinear solver that leaves the load factor alone, the load factor
before the `k`-th solve is its value on entry plus `k` times `(tend - tbegin) / n`. A run that
starts at `tbegin` and is successful ends at `tend`. -/
theorem load_control_factors [CharZero K] (n : Int) (tbegin tend : K) (c : LoadControl K)
    (hc : LoadControl.mk? n tbegin tend = some c) (S : NLSolver K V N W)
    (hsolve : ∀ w d s, (S.solve w d s).2.1.lam = d.lam) (hsync : ∀ d, (S.sync d).lam = d.lam)
    (w : W) (d : Dom K V) :
    (∀ k, (loadBefore S c.stepSize w d k).lam = d.lam + k * ((tend - tbegin) / n)) ∧
      (d.lam = tbegin → (c.run S w d).info.success = true → (c.run S w d).dom.lam = tend) := by
  unfold LoadControl.mk? at hc
  split at hc
  · exact absurd hc (by simp)
  · rename_i hn
    simp only [Option.some.injEq] at hc
    subst hc
    have hlam : ∀ k, (loadBefore S ((tend - tbegin) / n) w d k).lam
          = d.lam + k * ((tend - tbegin) / n) ∧
        (loadAfter S ((tend - tbegin) / n) w d k).lam = d.lam + k * ((tend - tbegin) / n) := by
      intro k
      induction k with
      | zero => simp [loadBefore, loadAfter, loadSolve, hsolve]
      | succ k ih =>
        have h1 : (loadBefore S ((tend - tbegin) / n) w d (k + 1)).lam
            = (loadAfter S ((tend - tbegin) / n) w d k).lam + (tend - tbegin) / n := rfl
        have h2 : (loadAfter S ((tend - tbegin) / n) w d (k + 1)).lam
            = (loadBefore S ((tend - tbegin) / n) w d (k + 1)).lam := by
          simp only [loadAfter, loadBefore, loadSolve]
          split
          · rw [hsync, hsolve]
          · rw [hsolve]
        rw [h2, h1, ih.2]
        push_cast
        constructor <;> ring
    refine ⟨fun k => (hlam k).1, fun hd hs => ?_⟩
    obtain ⟨m, ls, h1, h2, h3, -, -, h6, -⟩ :=
      load_control_run n.toNat (by omega) ((tend - tbegin) / n) S w d
    have hnn : ((n.toNat : Nat) : Int) = n := by omega
    rw [hnn] at h3 h6
    have hm := h3 hs
    rw [h6, (hlam (m - 1)).2, hd, hm]
    have hnk : (n : K) ≠ 0 := by
      have : n ≠ 0 := by omega
      exact_mod_cast this
    have : ((n.toNat + 1 - 1 : Nat) : K) = (n : K) := by
      rw [Nat.add_sub_cancel, ← Int.cast_natCast, hnn]
    rw [this]
    field_simp
    ring

/-- Four steps from 1 to 3. -/
example (S : NLSolver ℚ ℚ ℚ Nat) (h : S = { solve := fun w d _ => (w + 1, { d with x := 2 * d.lam }, ⟨true, some 0, none, 2⟩), sync := id }) :
    ((LoadControl.mk 4 (1 / 2)).run S 0 ⟨1, 7⟩).dom.lam = 3 := by
  subst h
  refine (load_control_factors 4 1 3 ⟨4, 1 / 2⟩ ?_ _ (fun _ _ _ => rfl) (fun _ => rfl) 0 ⟨1, 7⟩).2 rfl ?_
  · unfold LoadControl.mk?
    norm_num
  · decide +kernel

/-- C21. The constructor accepts exactly the positive numbers of load steps. -/
theorem load_control_ctor (n : Int) (tbegin tend : K) :
    (LoadControl.mk? n tbegin tend).isSome = true ↔ 0 < n := by
  unfold LoadControl.mk?
  split
  · simp; omega
  · simp; omega

/-- C21. The number of solves is at most the number of steps plus one; the arguments of the solver
calls are, in order, the first of the domains above, with zero step size first and the step size
after that. -/
theorem load_control_solver_calls (n : Nat) (hn : 0 < n) (step : K) (S : NLSolver K V N W) (w : W)
    (d : Dom K V) :
    let r := (LoadControl.mk (n : Int) step).run S w d
    ∃ m ≤ n + 1, r.trace.filterMap (fun e => match e with
        | .solve d s => some (d, s)
        | _ => none)
      = (List.range m).map fun k => (loadBefore S step w d k, if k = 0 then 0 else step) := by
  intro r
  obtain ⟨m, ls, h1, -, -, -, -, -, h7⟩ := load_control_run n hn step S w d
  refine ⟨m, h1.2.1, ?_⟩
  rw [h7]
  have key : ∀ m : Nat, ((List.range m).flatMap (loadEvents S step w d)).filterMap
      (fun e => match e with
        | .solve d s => some (d, s)
        | _ => none)
      = (List.range m).map fun k => (loadBefore S step w d k, if k = 0 then 0 else step) := by
    intro m
    induction m with
    | zero => rfl
    | succ m ih =>
      rw [List.range_succ, List.flatMap_append, List.filterMap_append, List.map_append, ih]
      congr 1
      cases m <;> simp [loadEvents, loadBefore, loadSolve]
  rw [List.cons_append, List.filterMap_cons, List.filterMap_append]
  simp only [key]
  split <;> simp

end

/-! Concrete runs: a solver which needs `2` iterations and fails beyond a limit load. -/

section Example

/-- Example solver on `x = 2 * lam`, failing for load factors above `3`. -/
def exampleSolver : NLSolver ℚ ℚ ℚ Nat :=
  { solve := fun w d _ => (w + 1, { d with x := 2 * d.lam },
      ⟨decide (d.lam ≤ 3), some 0, none, 2⟩)
    sync := id }

example : let r := (LoadControl.mk 4 (1 / 2)).run exampleSolver 0 ⟨0, 7⟩
    (r.info.success, r.info.totalIterations, r.info.solverInfos.length, r.dom.lam, r.dom.x,
      r.solver) = (true, 10, 5, 2, 4, 5) := by decide +kernel

example : let r := (LoadControl.mk 4 2).run exampleSolver 0 ⟨0, 7⟩
    (r.info.success, r.info.totalIterations, r.info.solverInfos.length, r.dom.lam,
      r.trace.length) = (false, 6, 3, 4, 13) := by decide +kernel

end Example

end Ikarus
