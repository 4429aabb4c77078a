import Verif.Control.PathModel
import Mathlib.Algebra.Field.Basic
import Mathlib.Algebra.Order.Field.Rat
import Mathlib.Data.Rat.Defs
import Mathlib.Data.List.Basic

/-!
C23: path following.
-/

namespace Ikarus

section
variable {K V N W P Q : Type} [Zero K] [Zero V]

namespace Spec

/-- A solve of a path following run: what is handed over to the solver and the state after it. -/
structure PathResult (K V N W P Q : Type) where
  domBefore : Dom K V
  argsBefore : SubsidiaryArgs K V
  /-- The step number the predictor has seen. -/
  predStep : Nat
  w : W
  p : P
  q : Q
  dom : Dom K V
  args : SubsidiaryArgs K V
  info : SolverInfo N

/-- A solve. -/
def pathAfter (C : PathCollab K V N W P Q) (w : W) (p : P) (q : Q) (d : Dom K V)
    (a : SubsidiaryArgs K V) (ps : Nat) : PathResult K V N W P Q :=
  let r := C.solve w p d a
  ⟨d, a, ps, r.1, p, q, r.2.1, r.2.2.1, r.2.2.2⟩

/-- The `k`-th solve of a run if all earlier ones are made: the equilibrium at the start, the first
step with the initial prediction, then steps with adapted step size and intermediate prediction;
`none` after an exception. -/
def pathSolve (C : PathCollab K V N W P Q) (stepSize : K) (w : W) (p : P) (q : Q) (d : Dom K V) :
    Nat → Option (PathResult K V N W P Q)
  | 0 => some (pathAfter C w p q d { SubsidiaryArgs.setZero with stepSize := stepSize } 0)
  | 1 =>
    let r := pathAfter C w p q d { SubsidiaryArgs.setZero with stepSize := stepSize } 0
    let i := C.initialPrediction r.p r.dom r.args
    some (pathAfter C r.w i.1 r.q i.2.1 i.2.2 0)
  | k + 2 =>
    (pathSolve C stepSize w p q d (k + 1)).bind fun r =>
    (C.adaptiveStepSizing r.q r.info { r.args with currentStep := k + 1 }).bind fun a =>
    (C.intermediatePrediction r.p r.dom a.2).map fun i =>
    pathAfter C r.w i.1 a.1 i.2.1 i.2.2 a.2.currentStep

/-- Events of a solve, given the result before it and its own result. -/
def pathEventsOf (stepSize : K) (prev r : PathResult K V N W P Q) : Nat → List (PEvent K V N)
  | 0 => [.notify .stepStarted r.domBefore r.argsBefore (-1) 0, .solve r.domBefore r.argsBefore,
      .notify .solutionChanged r.dom r.args (-1) 0, .notify .stepEnded r.dom r.args (-1) 0]
  | 1 => [.notify .stepStarted prev.dom prev.args 0 stepSize, .initialPrediction,
      .solve r.domBefore r.argsBefore, .notify .solutionChanged r.dom r.args 0 stepSize,
      .notify .stepEnded r.dom r.args 0 stepSize]
  | k + 2 => [.adapt prev.info, .intermediatePrediction r.predStep,
      .notify .stepStarted r.domBefore r.argsBefore (k + 1 : Nat) r.argsBefore.stepSize,
      .solve r.domBefore r.argsBefore,
      .notify .solutionChanged r.dom r.args (k + 1 : Nat) r.argsBefore.stepSize,
      .notify .stepEnded r.dom r.args (k + 1 : Nat) r.argsBefore.stepSize]

/-- Events of the `k`-th solve. -/
def pathEvents (C : PathCollab K V N W P Q) (stepSize : K) (w : W) (p : P) (q : Q) (d : Dom K V)
    (k : Nat) : List (PEvent K V N) :=
  match pathSolve C stepSize w p q d (k - 1), pathSolve C stepSize w p q d k with
  | some prev, some r => pathEventsOf stepSize prev r k
  | _, _ => []

/-- Information of the solves made, in order. -/
def pathInfos (C : PathCollab K V N W P Q) (stepSize : K) (w : W) (p : P) (q : Q) (d : Dom K V)
    (m : Nat) : List (SolverInfo N) :=
  (List.range m).filterMap fun k => (pathSolve C stepSize w p q d k).map (·.info)

end Spec

open Spec

namespace PathFollowing

/-- The state after `m` solves. -/
structure After (C : PathCollab K V N W P Q) (stepSize : K) (w : W) (p : P) (q : Q) (d : Dom K V)
    (m : Nat) (r : PathResult K V N W P Q) (s : PFState K V N W P Q) : Prop where
  res : pathSolve C stepSize w p q d (m - 1) = some r
  dom : s.dom = r.dom
  args : s.args = r.args
  solver : s.solver = r.w
  pf : s.pf = r.p
  ass : s.ass = r.q
  solverInfo : s.solverInfo = r.info
  success : s.info.success = false
  infos : s.info.solverInfos = pathInfos C stepSize w p q d m
  total : s.info.totalIterations = ((pathInfos C stepSize w p q d m).map (·.iterations)).sum
  trace : s.trace = .notify .controlStarted d SubsidiaryArgs.setZero (-1) 0 ::
    (List.range m).flatMap (pathEvents C stepSize w p q d)

theorem pathInfos_succ (C : PathCollab K V N W P Q) (stepSize : K) (w : W) (p : P) (q : Q)
    (d : Dom K V) (m : Nat) (r : PathResult K V N W P Q)
    (h : pathSolve C stepSize w p q d m = some r) :
    pathInfos C stepSize w p q d (m + 1) = pathInfos C stepSize w p q d m ++ [r.info] := by
  unfold pathInfos
  rw [List.range_succ, List.filterMap_append]
  simp [h]

theorem pathEvents_succ (C : PathCollab K V N W P Q) (stepSize : K) (w : W) (p : P) (q : Q)
    (d : Dom K V) (m : Nat) (r' r : PathResult K V N W P Q)
    (h' : pathSolve C stepSize w p q d (m - 1) = some r')
    (h : pathSolve C stepSize w p q d m = some r) :
    (List.range (m + 1)).flatMap (pathEvents C stepSize w p q d)
      = (List.range m).flatMap (pathEvents C stepSize w p q d) ++ pathEventsOf stepSize r' r m := by
  rw [List.range_succ, List.flatMap_append]
  simp [pathEvents, h, h']

theorem step_after (C : PathCollab K V N W P Q) (stepSize : K) (w : W) (p : P) (q : Q) (d : Dom K V)
    (k : Nat) (r : PathResult K V N W P Q) (s : PFState K V N W P Q)
    (h : After C stepSize w p q d (k + 2) r s) :
    match pathSolve C stepSize w p q d (k + 2) with
    | none => step C (k + 1) s = none
    | some r' => ∃ s', step C (k + 1) s = some s' ∧ After C stepSize w p q d (k + 3) r' s' ∧
        s'.loadStep = (k + 1 : Nat) ∧ s'.stepSize = r'.argsBefore.stepSize := by
  have hres : pathSolve C stepSize w p q d (k + 1) = some r := h.res
  have hnext : pathSolve C stepSize w p q d (k + 2) =
      (C.adaptiveStepSizing r.q r.info { r.args with currentStep := k + 1 }).bind fun a =>
      (C.intermediatePrediction r.p r.dom a.2).map fun i =>
      pathAfter C r.w i.1 a.1 i.2.1 i.2.2 a.2.currentStep := by
    conv_lhs => unfold pathSolve
    rw [hres]; rfl
  cases ha : C.adaptiveStepSizing r.q r.info { r.args with currentStep := k + 1 } with
  | none =>
    rw [ha] at hnext
    rw [hnext]
    simp only [Option.bind_none]
    unfold step
    simp only [h.ass, h.solverInfo, h.args, ha, Option.bind_none]
  | some a =>
    rw [ha] at hnext
    simp only [Option.bind_some] at hnext
    cases hi : C.intermediatePrediction r.p r.dom a.2 with
    | none =>
      rw [hi] at hnext
      rw [hnext]
      simp only [Option.map_none]
      unfold step
      simp only [h.ass, h.solverInfo, h.args, ha, Option.bind_some, h.pf, h.dom, hi, Option.map_none]
    | some i =>
      rw [hi] at hnext
      simp only [Option.map_some] at hnext
      rw [hnext]
      simp only
      have hst : ∃ s', step C (k + 1) s = some s' := by
        unfold step
        simp only [h.ass, h.solverInfo, h.args, ha, Option.bind_some, h.pf, h.dom, hi,
          Option.map_some]
        exact ⟨_, rfl⟩
      obtain ⟨s', hs'⟩ := hst
      refine ⟨s', hs', ?_⟩
      unfold step at hs'
      simp only [h.ass, h.solverInfo, h.args, ha, Option.bind_some, h.pf, h.dom, hi,
        Option.map_some, Option.some.injEq] at hs'
      subst hs'
      refine ⟨⟨hnext, ?_, ?_, ?_, rfl, rfl, ?_, h.success, ?_, ?_, ?_⟩, rfl, rfl⟩
      · simp [PFState.solveAndUpdate, PFState.notify, pathAfter, h.solver]
      · simp [PFState.solveAndUpdate, PFState.notify, pathAfter, h.solver]
      · simp [PFState.solveAndUpdate, PFState.notify, pathAfter, h.solver]
      · simp [PFState.solveAndUpdate, PFState.notify, pathAfter, h.solver]
      · rw [pathInfos_succ C stepSize w p q d (k + 2) _ hnext]
        simp [PFState.solveAndUpdate, PFState.notify, pathAfter, h.solver, h.infos]
      · rw [pathInfos_succ C stepSize w p q d (k + 2) _ hnext]
        simp [PFState.solveAndUpdate, PFState.notify, pathAfter, h.solver, h.total]
      · rw [pathEvents_succ C stepSize w p q d (k + 2) r _ hres hnext]
        simp [PFState.solveAndUpdate, PFState.notify, pathAfter, h.solver, h.trace, pathEventsOf]

end PathFollowing

namespace Spec

/-- `m` is the number of solves of a run with `n` steps: all before the last succeed, and fewer than
`n + 1` solves are only made if the last one fails. -/
def PathMade (C : PathCollab K V N W P Q) (stepSize : K) (w : W) (p : P) (q : Q) (d : Dom K V)
    (n m : Nat) (r : PathResult K V N W P Q) : Prop :=
  0 < m ∧ m ≤ n + 1 ∧ pathSolve C stepSize w p q d (m - 1) = some r ∧
    (∀ k, k + 1 < m → ∃ r', pathSolve C stepSize w p q d k = some r' ∧ r'.info.success = true) ∧
    (m ≤ n → r.info.success = false)

end Spec

namespace PathFollowing

theorem loop_after (C : PathCollab K V N W P Q) (stepSize : K) (w : W) (p : P) (q : Q)
    (d : Dom K V) (n k : Nat) (r : PathResult K V N W P Q) (s : PFState K V N W P Q)
    (h : After C stepSize w p q d (k + 2) r s) (hs : r.info.success = true)
    (hprev : ∀ j, j < k + 2 → ∃ r', pathSolve C stepSize w p q d j = some r'
      ∧ r'.info.success = true) :
    (loop C n (k + 1) s = none ∧ ∃ m, k + 2 ≤ m ∧ m < k + 2 + n ∧
        pathSolve C stepSize w p q d m = none ∧
        ∀ j, j < m → ∃ r', pathSolve C stepSize w p q d j = some r' ∧ r'.info.success = true) ∨
      (∃ m r' s' fin, PathMade C stepSize w p q d (k + 1 + n) m r' ∧
        After C stepSize w p q d m r' s' ∧ loop C n (k + 1) s = some fin ∧
        (r'.info.success = true → m = k + 2 + n ∧
          fin = { s'.notify .controlEnded with info := { s'.info with success := true } }) ∧
        (r'.info.success = false → fin = s')) := by
  induction n generalizing k r s with
  | zero =>
    right
    refine ⟨k + 2, r, s, _, ⟨by omega, by omega, h.res, fun j hj => hprev j (by omega), by omega⟩,
      h, rfl, fun _ => ⟨rfl, rfl⟩, fun hf => ?_⟩
    rw [hs] at hf
    exact absurd hf (by simp)
  | succ n ih =>
    have hstep := step_after C stepSize w p q d k r s h
    cases hn : pathSolve C stepSize w p q d (k + 2) with
    | none =>
      rw [hn] at hstep
      simp only at hstep
      left
      refine ⟨by simp [loop, hstep], k + 2, le_rfl, by omega, hn, fun j hj => hprev j hj⟩
    | some r' =>
      rw [hn] at hstep
      simp only at hstep
      obtain ⟨s', h1, h2, -, -⟩ := hstep
      cases hr : r'.info.success with
      | false =>
        right
        refine ⟨k + 3, r', s', s', ⟨by omega, by omega, hn, fun j hj => hprev j (by omega),
          fun _ => hr⟩, h2, ?_, fun hf => ?_, fun _ => rfl⟩
        · have : s'.solverInfo.success = false := by rw [h2.solverInfo, hr]
          simp [loop, h1, this]
        · rw [hr] at hf
          exact absurd hf (by simp)
      | true =>
        have hloop : loop C (n + 1) (k + 1) s = loop C n (k + 1 + 1) s' := by
          have : s'.solverInfo.success = true := by rw [h2.solverInfo, hr]
          simp [loop, h1, this]
        rw [hloop]
        have := ih (k + 1) r' s' h2 hr (fun j hj => by
          by_cases hj' : j = k + 2
          · subst hj'; exact ⟨r', hn, hr⟩
          · exact hprev j (by omega))
        rcases this with ⟨a, m, b1, b2, b3, b4⟩ | ⟨m, r2, s2, fin, a1, a2, a3, a4, a5⟩
        · left
          exact ⟨a, m, by omega, by omega, b3, b4⟩
        · right
          refine ⟨m, r2, s2, fin, ?_, a2, a3, fun hf => ?_, a5⟩
          · have : k + 1 + (n + 1) = k + 1 + 1 + n := by omega
            rw [this]; exact a1
          · obtain ⟨e, e'⟩ := a4 hf
            exact ⟨by omega, e'⟩

/-- The state after the first solve. -/
theorem first_after (C : PathCollab K V N W P Q) (stepSize : K) (w : W) (p : P) (q : Q)
    (d : Dom K V) :
    After C stepSize w p q d 1
      (pathAfter C w p q d { SubsidiaryArgs.setZero with stepSize := stepSize } 0)
      (PFState.solveAndUpdate (PFState.notify
        { PFState.notify (⟨d, SubsidiaryArgs.setZero, w, p, q, ⟨false, [], 0⟩,
            SolverInfo.default, -1, 0, []⟩ : PFState K V N W P Q) .controlStarted with
          args := { SubsidiaryArgs.setZero with stepSize := stepSize } } .stepStarted) C) := by
  refine ⟨rfl, rfl, rfl, rfl, rfl, rfl, rfl, rfl, ?_, ?_, ?_⟩
  · simp [pathInfos, pathSolve, PFState.solveAndUpdate, PFState.notify, pathAfter]
  · simp [pathInfos, pathSolve, PFState.solveAndUpdate, PFState.notify, pathAfter]
  · simp [pathEvents, pathSolve, PFState.solveAndUpdate, PFState.notify, pathAfter, pathEventsOf]

/-- The state after the second solve. -/
theorem second_after (C : PathCollab K V N W P Q) (stepSize : K) (w : W) (p : P) (q : Q)
    (d : Dom K V) (r : PathResult K V N W P Q) (s : PFState K V N W P Q)
    (h : After C stepSize w p q d 1 r s) :
    let s1 := { s with loadStep := 0, stepSize := stepSize }
    let s2 := s1.notify .stepStarted
    let s3 := { s2 with trace := s2.trace ++ [PEvent.initialPrediction] }
    let i := C.initialPrediction s3.pf s3.dom s3.args
    let s4 := { s3 with pf := i.1, dom := i.2.1, args := i.2.2 }
    ∃ r', After C stepSize w p q d 2 r' (s4.solveAndUpdate C) := by
  intro s1 s2 s3 i s4
  have hr : r = pathAfter C w p q d { SubsidiaryArgs.setZero with stepSize := stepSize } 0 := by
    have := h.res
    simpa [pathSolve] using this.symm
  have hnext : pathSolve C stepSize w p q d 1 = some (pathAfter C r.w
      (C.initialPrediction r.p r.dom r.args).1 r.q (C.initialPrediction r.p r.dom r.args).2.1
      (C.initialPrediction r.p r.dom r.args).2.2 0) := by
    rw [hr]; rfl
  refine ⟨_, hnext, ?_, ?_, ?_, ?_, ?_, ?_, h.success, ?_, ?_, ?_⟩
  · simp [s4, i, s3, s2, s1, PFState.solveAndUpdate, PFState.notify, pathAfter, h.solver, h.pf, h.dom,
      h.args]
  · simp [s4, i, s3, s2, s1, PFState.solveAndUpdate, PFState.notify, pathAfter, h.solver, h.pf, h.dom,
      h.args]
  · simp [s4, i, s3, s2, s1, PFState.solveAndUpdate, PFState.notify, pathAfter, h.solver, h.pf, h.dom,
      h.args]
  · simp [s4, i, s3, s2, s1, PFState.solveAndUpdate, PFState.notify, pathAfter, h.pf, h.dom,
      h.args]
  · simp [s4, s3, s2, s1, PFState.solveAndUpdate, PFState.notify, pathAfter, h.ass]
  · simp [s4, i, s3, s2, s1, PFState.solveAndUpdate, PFState.notify, pathAfter, h.solver, h.pf, h.dom,
      h.args]
  · rw [pathInfos_succ C stepSize w p q d 1 _ hnext]
    simp [s4, i, s3, s2, s1, PFState.solveAndUpdate, PFState.notify, pathAfter, h.solver, h.pf, h.dom,
      h.args, h.infos]
  · rw [pathInfos_succ C stepSize w p q d 1 _ hnext]
    simp [s4, i, s3, s2, s1, PFState.solveAndUpdate, PFState.notify, pathAfter, h.solver, h.pf, h.dom,
      h.args, h.total]
  · rw [pathEvents_succ C stepSize w p q d 1 r _ h.res hnext]
    simp [s4, i, s3, s2, s1, PFState.solveAndUpdate, PFState.notify, pathAfter, h.solver, h.pf, h.dom,
      h.args, h.trace, pathEventsOf]

end PathFollowing

open PathFollowing

/-- C23. Everything observable about a run of path following with `n ≥ 1` steps: either a strategy
throws in some step after successful solves only, or `m` solves are made; all before the last
succeed; if fewer than `n + 1` are made the last one failed; success is reported iff all `n + 1`
solves are made and succeed; the information lists exactly the solves made with the sum of their
iterations; the events are `CONTROL_STARTED`, those of each solve, and `CONTROL_ENDED` iff
successful. -/
theorem path_following_run (n : Nat) (hn : 0 < n) (stepSize : K) (C : PathCollab K V N W P Q)
    (w : W) (p : P) (q : Q) (d : Dom K V) :
    ((PathFollowing.mk (n : Int) stepSize).run C w p q d = none ∧
      ∃ m, 2 ≤ m ∧ m < n + 1 ∧ pathSolve C stepSize w p q d m = none ∧
        ∀ j, j < m → ∃ r', pathSolve C stepSize w p q d j = some r' ∧ r'.info.success = true) ∨
    (∃ m r s ls ss, (PathFollowing.mk (n : Int) stepSize).run C w p q d = some s ∧
      PathMade C stepSize w p q d n m r ∧
      (s.info.success = true ↔ ∀ k < n + 1, ∃ r', pathSolve C stepSize w p q d k = some r' ∧
        r'.info.success = true) ∧
      (s.info.success = true → m = n + 1) ∧
      s.dom = r.dom ∧ s.args = r.args ∧
      s.info.solverInfos = pathInfos C stepSize w p q d m ∧
      s.info.totalIterations = ((pathInfos C stepSize w p q d m).map (·.iterations)).sum ∧
      s.trace = .notify .controlStarted d SubsidiaryArgs.setZero (-1) 0 ::
        (List.range m).flatMap (pathEvents C stepSize w p q d) ++
        (if s.info.success then [.notify .controlEnded r.dom r.args ls ss] else [])) := by
  have fail : ∀ (m : Nat) (r : PathResult K V N W P Q) (s : PFState K V N W P Q),
      After C stepSize w p q d m r s → PathMade C stepSize w p q d n m r →
      r.info.success = false →
      (PathFollowing.mk (n : Int) stepSize).run C w p q d = some s →
      (∃ m r s ls ss, (PathFollowing.mk (n : Int) stepSize).run C w p q d = some s ∧
      PathMade C stepSize w p q d n m r ∧
      (s.info.success = true ↔ ∀ k < n + 1, ∃ r', pathSolve C stepSize w p q d k = some r' ∧
        r'.info.success = true) ∧
      (s.info.success = true → m = n + 1) ∧
      s.dom = r.dom ∧ s.args = r.args ∧
      s.info.solverInfos = pathInfos C stepSize w p q d m ∧
      s.info.totalIterations = ((pathInfos C stepSize w p q d m).map (·.iterations)).sum ∧
      s.trace = .notify .controlStarted d SubsidiaryArgs.setZero (-1) 0 ::
        (List.range m).flatMap (pathEvents C stepSize w p q d) ++
        (if s.info.success then [.notify .controlEnded r.dom r.args ls ss] else [])) := by
    intro m r s ha hm hf hrun
    refine ⟨m, r, s, 0, 0, hrun, hm, ⟨fun h => ?_, fun h => ?_⟩, fun h => ?_, ha.dom, ha.args,
      ha.infos, ha.total, ?_⟩
    · rw [ha.success] at h; exact absurd h (by simp)
    · obtain ⟨r', h1, h2⟩ := h (m - 1) (by have := hm.2.1; have := hm.1; omega)
      rw [hm.2.2.1, Option.some.injEq] at h1
      subst h1
      rw [hf] at h2; exact absurd h2 (by simp)
    · rw [ha.success] at h; exact absurd h (by simp)
    · rw [ha.trace, ha.success]; simp
  have h1 := first_after C stepSize w p q d
  set r1 := pathAfter C w p q d { SubsidiaryArgs.setZero with stepSize := stepSize } 0 with hr1
  set s1 := PFState.solveAndUpdate (PFState.notify
        { PFState.notify (⟨d, SubsidiaryArgs.setZero, w, p, q, ⟨false, [], 0⟩,
            SolverInfo.default, -1, 0, []⟩ : PFState K V N W P Q) .controlStarted with
          args := { SubsidiaryArgs.setZero with stepSize := stepSize } } .stepStarted) C with hs1
  have hrun1 : (PathFollowing.mk (n : Int) stepSize).run C w p q d =
      (if !s1.solverInfo.success then some s1
      else
        let s2 := PFState.notify { s1 with loadStep := 0, stepSize := stepSize } .stepStarted
        let s3 := { s2 with trace := s2.trace ++ [PEvent.initialPrediction] }
        let i := C.initialPrediction s3.pf s3.dom s3.args
        let s4 := { s3 with pf := i.1, dom := i.2.1, args := i.2.2 }
        let s5 := s4.solveAndUpdate C
        if !s5.solverInfo.success then some s5 else loop C (n - 1) 1 s5) := rfl
  cases hsuc1 : r1.info.success with
  | false =>
    right
    refine fail 1 r1 s1 h1 ⟨by omega, by omega, h1.res, fun k hk => by omega, fun _ => hsuc1⟩ hsuc1 ?_
    rw [hrun1, h1.solverInfo, hsuc1]
    rfl
  | true =>
    obtain ⟨r2, h2⟩ := second_after C stepSize w p q d r1 s1 h1
    simp only at h2
    set s5 := PFState.solveAndUpdate _ C with hs5
    have hrun2 : (PathFollowing.mk (n : Int) stepSize).run C w p q d =
        (if !s5.solverInfo.success then some s5 else loop C (n - 1) 1 s5) := by
      rw [hrun1, h1.solverInfo, hsuc1]
      rfl
    cases hsuc2 : r2.info.success with
    | false =>
      right
      refine fail 2 r2 s5 h2 ⟨by omega, by omega, h2.res, fun k hk => ?_, fun _ => hsuc2⟩ hsuc2 ?_
      · obtain rfl : k = 0 := by omega
        exact ⟨r1, h1.res, hsuc1⟩
      · rw [hrun2, h2.solverInfo, hsuc2]; rfl
    | true =>
      have hrun3 : (PathFollowing.mk (n : Int) stepSize).run C w p q d = loop C (n - 1) (0 + 1) s5 := by
        rw [hrun2, h2.solverInfo, hsuc2]; rfl
      have hprev : ∀ j, j < 0 + 2 → ∃ r', pathSolve C stepSize w p q d j = some r'
          ∧ r'.info.success = true := by
        intro j hj
        rcases Nat.lt_succ_iff_lt_or_eq.1 hj with hj | hj
        · obtain rfl : j = 0 := by omega
          exact ⟨r1, h1.res, hsuc1⟩
        · subst hj
          exact ⟨r2, h2.res, hsuc2⟩
      rcases loop_after C stepSize w p q d (n - 1) 0 r2 s5 h2 hsuc2 hprev with
        ⟨a, m, b1, b2, b3, b4⟩ | ⟨m, r3, s3, fin, a1, a2, a3, a4, a5⟩
      · left
        exact ⟨by rw [hrun3, a], m, b1, by omega, b3, b4⟩
      · right
        have hnn : 0 + 1 + (n - 1) = n := by omega
        rw [hnn] at a1
        cases hs3 : r3.info.success with
        | false =>
          refine fail m r3 s3 a2 a1 hs3 ?_
          rw [hrun3, a3, a5 hs3]
        | true =>
          obtain ⟨e1, e2⟩ := a4 hs3
          have hm : m = n + 1 := by omega
          refine ⟨m, r3, fin, s3.loadStep, s3.stepSize, by rw [hrun3, a3], a1, ?_⟩
          rw [e2]
          refine ⟨⟨fun _ k hk => ?_, fun _ => rfl⟩, fun _ => hm, a2.dom, a2.args, a2.infos, a2.total,
            ?_⟩
          · by_cases hk' : k + 1 < m
            · exact a1.2.2.2.1 k hk'
            · have : k = m - 1 := by omega
              rw [this]
              exact ⟨r3, a1.2.2.1, hs3⟩
          · simp [PFState.notify, a2.trace, a2.dom, a2.args]

/-- C23. Use of the strategies: if the step size adaption leaves the step number alone, the
initial prediction is used exactly once, before the second solve, and the intermediate prediction in
the later steps with the step numbers `1, 2, ...`, one per step. -/
theorem path_following_predictions (n : Nat) (hn : 0 < n) (stepSize : K)
    (C : PathCollab K V N W P Q)
    (hstep : ∀ q i a q' a', C.adaptiveStepSizing q i a = some (q', a') →
      a'.currentStep = a.currentStep)
    (w : W) (p : P) (q : Q) (d : Dom K V) (s : PFState K V N W P Q)
    (h : (PathFollowing.mk (n : Int) stepSize).run C w p q d = some s) :
    ∃ m ≤ n + 1, 0 < m ∧ s.info.solverInfos.length = m ∧
      s.trace.filterMap (fun e => match e with
        | .initialPrediction => some 0
        | .intermediatePrediction k => some k
        | _ => none) = List.range (m - 1) := by
  rcases path_following_run n hn stepSize C w p q d with ⟨h0, -⟩ | ⟨m, r, s', ls, ss, h1, h2, h3⟩
  · rw [h] at h0; exact absurd h0 (by simp)
  rw [h, Option.some.injEq] at h1
  subst h1
  obtain ⟨-, -, -, -, h7, -, h9⟩ := h3
  have hsome : ∀ k < m, ∃ r', pathSolve C stepSize w p q d k = some r' := by
    intro k hk
    by_cases hk' : k + 1 < m
    · obtain ⟨r', h, -⟩ := h2.2.2.2.1 k hk'
      exact ⟨r', h⟩
    · have : k = m - 1 := by omega
      subst this
      exact ⟨r, h2.2.2.1⟩
  have hps : ∀ k r', pathSolve C stepSize w p q d (k + 2) = some r' → r'.predStep = k + 1 := by
    intro k r' hk
    conv at hk => lhs; unfold pathSolve
    obtain ⟨r0, -, h5⟩ := Option.bind_eq_some_iff.1 hk
    obtain ⟨⟨q', a'⟩, h6, h7⟩ := Option.bind_eq_some_iff.1 h5
    obtain ⟨i, -, h8⟩ := Option.map_eq_some_iff.1 h7
    rw [← h8]
    exact hstep _ _ _ _ _ h6
  refine ⟨m, h2.2.1, h2.1, ?_, ?_⟩
  · rw [h7]
    unfold pathInfos
    have : ∀ j ≤ m, ((List.range j).filterMap fun k =>
        (pathSolve C stepSize w p q d k).map (·.info)).length = j := by
      intro j
      induction j with
      | zero => intro _; rfl
      | succ j ih =>
        intro hj
        obtain ⟨r', hr'⟩ := hsome j (by omega)
        rw [List.range_succ, List.filterMap_append, List.length_append, ih (by omega)]
        simp [hr']
    exact this m le_rfl
  · rw [h9, List.cons_append, List.filterMap_cons, List.filterMap_append]
    have key : ∀ j ≤ m, ((List.range j).flatMap (pathEvents C stepSize w p q d)).filterMap
        (fun e => match e with
          | .initialPrediction => some 0
          | .intermediatePrediction k => some k
          | _ => none) = List.range (j - 1) := by
      intro j
      induction j with
      | zero => intro _; rfl
      | succ j ih =>
        intro hj
        obtain ⟨r', hr'⟩ := hsome j (by omega)
        obtain ⟨r0, hr0⟩ := hsome (j - 1) (by omega)
        rw [List.range_succ, List.flatMap_append, List.filterMap_append, ih (by omega)]
        simp only [List.flatMap_cons, List.flatMap_nil, List.append_nil, pathEvents, hr', hr0]
        match j with
        | 0 => simp [pathEventsOf]
        | 1 => simp [pathEventsOf, List.range_succ]
        | k + 2 =>
          simp [pathEventsOf, hps k r' hr', List.range_succ]
    simp only [key m le_rfl]
    split <;> simp

/-- C23. The constructor accepts exactly the positive numbers of steps. -/
theorem path_following_ctor (n : Int) (stepSize : K) :
    (PathFollowing.mk? n stepSize).isSome = true ↔ 0 < n := by
  unfold PathFollowing.mk?
  split
  · simp; omega
  · simp; omega

end

/-! A concrete run: solves fail above load factor 3, the prediction adds the step size. -/

section Example

/-- Example collaborators. -/
def examplePath : PathCollab ℚ ℚ ℚ Nat Bool Unit :=
  { solve := fun w _ d a => (w + 1, { d with x := 2 * d.lam }, a,
      ⟨decide (d.lam ≤ 3), some 0, none, 2⟩)
    initialPrediction := fun _ d a => (true, { d with lam := a.stepSize }, a)
    intermediatePrediction := fun p d a =>
      if p then some (p, { d with lam := d.lam + a.stepSize }, a) else none
    adaptiveStepSizing := fun q _ a => some (q, a) }

example : (((PathFollowing.mk 3 1).run examplePath 0 false () ⟨0, 5⟩).map fun s =>
    ((s.info.success, s.info.totalIterations), s.dom.lam, s.dom.x, s.solver, s.trace.length))
    = some ((true, 8), 3, 6, 4, 23) := by decide +kernel

example : (((PathFollowing.mk 7 1).run examplePath 0 false () ⟨0, 5⟩).map fun s =>
    ((s.info.success, s.info.totalIterations), s.dom.lam, s.dom.x, s.solver, s.trace.length))
    = some ((false, 10), 4, 8, 5, 28) := by decide +kernel

end Example

end Ikarus
