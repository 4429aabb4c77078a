import Verif.Solver.NewtonModel
import Mathlib.Algebra.Order.Ring.Int
import Mathlib.Algebra.Module.LinearMap.Basic
import Mathlib.Order.Basic
import Mathlib.Tactic.Linarith
import Mathlib.Tactic.Abel
import Mathlib.Tactic.FieldSimp
import Mathlib.Tactic.NormNum
import Mathlib.Algebra.Order.Ring.Abs
import Mathlib.Algebra.Order.Field.Rat

/-!
C16 - C19: the Newton-Raphson solver.
-/

namespace Ikarus

section
variable {X R A C N S : Type}

namespace Spec

/-- One Newton step for the state `x` and the right hand side `r`. -/
def newtonStep (P : NRProblem X R A C N S) (x : X) (r : R) : X :=
  let y := P.update x (P.linSolve (P.jacobian x) r)
  match P.idbc with
  | none => y
  | some i => i.sync y

/-- The right hand side of the first step, with the forces of inhomogeneous Dirichlet conditions. -/
def firstResidual (P : NRProblem X R A C N S) (x : X) (stepSize : S) : R :=
  match P.idbc with
  | none => P.residual x
  | some i => i.addForce x stepSize (P.residual x)

/-- The Newton iterates and residuals. -/
def newtonIterates (P : NRProblem X R A C N S) (x : X) (stepSize : S) : Nat → X × R
  | 0 => (x, firstResidual P x stepSize)
  | k + 1 =>
    let p := newtonIterates P x stepSize k
    let y := newtonStep P p.1 p.2
    (y, P.residual y)

/-- The iteration may stop after `k` steps. -/
def NewtonStops (P : NRProblem X R A C N S) (set : NRSettings N) (x : X) (stepSize : S) (k : Nat) :
    Prop :=
  set.minIter ≤ k ∧
    (set.maxIter ≤ k ∨ P.gt (P.rnorm (newtonIterates P x stepSize k).2) set.tol = false)

/-- The first number of iterations after which the iteration may stop. -/
def FirstStop (P : NRProblem X R A C N S) (set : NRSettings N) (x : X) (stepSize : S) (k : Nat) :
    Prop :=
  NewtonStops P set x stepSize k ∧ ∀ j < k, ¬ NewtonStops P set x stepSize j

/-- The correction of step `k`. -/
def correctionAt (P : NRProblem X R A C N S) (x : X) (stepSize : S) (k : Nat) : C :=
  let p := newtonIterates P x stepSize k
  P.linSolve (P.jacobian p.1) p.2

/-- The information available after `k` complete iterations. -/
def infoAt (P : NRProblem X R A C N S) (x : X) (stepSize : S) : Nat → SolverInfo N
  | 0 => ⟨true, some (P.rnorm (P.residual x)), none, -1⟩
  | k + 1 => ⟨true, some (P.rnorm (P.residual (newtonIterates P x stepSize (k + 1)).1)),
      some (P.cnorm (correctionAt P x stepSize k)), k + 1⟩

/-- The correction stored after `k` complete iterations. -/
def storedCorrection (P : NRProblem X R A C N S) (x : X) (stepSize : S) (corr : C) : Nat → C
  | 0 => corr
  | k + 1 => correctionAt P x stepSize k

/-- The notifications of iteration `k`. -/
def iterationMessages (P : NRProblem X R A C N S) (x : X) (stepSize : S) (corr : C) (k : Nat) :
    List (NRNotification X C N) :=
  let old := (newtonIterates P x stepSize k).1
  let new := (newtonIterates P x stepSize (k + 1)).1
  let c := correctionAt P x stepSize k
  let i0 := infoAt P x stepSize k
  let i1 := { i0 with correctionNorm := some (P.cnorm c) }
  let i2 := { i1 with residualNorm := some (P.rnorm (P.residual new)) }
  [⟨.iterationStarted, old, storedCorrection P x stepSize corr k, i0⟩,
   ⟨.correctionUpdated, old, c, i1⟩,
   ⟨.correctionnormUpdated, new, c, i1⟩,
   ⟨.solutionChanged, new, c, i1⟩,
   ⟨.residualnormUpdated, new, c, i2⟩,
   ⟨.iterationEnded, new, c, infoAt P x stepSize (k + 1)⟩]

/-- The loop variables after `k` iterations. -/
def loopAt (P : NRProblem X R A C N S) (x : X) (stepSize : S) (corr : C) (k : Nat) :
    NRLoop X R A C N :=
  let p := newtonIterates P x stepSize k
  ⟨p.1, p.2, P.jacobian p.1, P.rnorm p.2, k, storedCorrection P x stepSize corr k,
    infoAt P x stepSize k,
    ⟨.init, x, corr, SolverInfo.default⟩ ::
      (List.range k).flatMap (iterationMessages P x stepSize corr)⟩

end Spec

open Spec

namespace NRProblem

theorem start_eq (P : NRProblem X R A C N S) (x : X) (stepSize : S) (corr : C) :
    P.start x stepSize corr = loopAt P x stepSize corr 0 := by
  unfold start loopAt newtonIterates firstResidual
  cases P.idbc <;> rfl

theorem body_eq (P : NRProblem X R A C N S) (x : X) (stepSize : S) (corr : C) (k : Nat) :
    P.body (loopAt P x stepSize corr k) = loopAt P x stepSize corr (k + 1) := by
  have hstep : (newtonIterates P x stepSize (k + 1)).1
      = newtonStep P (newtonIterates P x stepSize k).1 (newtonIterates P x stepSize k).2 := rfl
  unfold body loopAt
  rw [List.range_succ, List.flatMap_append]
  simp only [NRLoop.notify, List.flatMap_cons, List.flatMap_nil, List.append_nil,
    iterationMessages, hstep]
  unfold newtonStep
  cases k <;> cases hid : P.idbc <;>
    simp [newtonIterates, newtonStep, correctionAt, infoAt, storedCorrection, hid]

theorem cond_eq (P : NRProblem X R A C N S) (set : NRSettings N) (x : X) (stepSize : S) (corr : C)
    (k : Nat) : P.cond set (loopAt P x stepSize corr k) = false ↔ NewtonStops P set x stepSize k := by
  unfold cond NewtonStops loopAt
  simp only [Bool.or_eq_false_iff, Bool.and_eq_false_iff, decide_eq_false_iff_not, not_lt]
  tauto

theorem loop_eq (P : NRProblem X R A C N S) (set : NRSettings N) (x : X) (stepSize : S) (corr : C)
    (fuel j k : Nat) (hs : NewtonStops P set x stepSize k) (hjk : j ≤ k) (hf : k ≤ j + fuel)
    (hn : ∀ i, j ≤ i → i < k → ¬ NewtonStops P set x stepSize i) :
    P.loop set fuel (loopAt P x stepSize corr j) = some (loopAt P x stepSize corr k) := by
  induction fuel generalizing j with
  | zero =>
    have : j = k := by omega
    subst this
    simp only [loop]
    rw [if_neg]
    simpa using (cond_eq P set x stepSize corr j).2 hs
  | succ fuel ih =>
    simp only [loop]
    by_cases hj : j = k
    · subst hj
      rw [if_neg]
      simpa using (cond_eq P set x stepSize corr j).2 hs
    · rw [if_pos, body_eq]
      · exact ih (j + 1) (by omega) (by omega) (fun i h1 h2 => hn i (by omega) h2)
      · have := hn j le_rfl (by omega)
        rw [← cond_eq P set x stepSize corr j] at this
        simpa using this

theorem loop_none_of (P : NRProblem X R A C N S) (set : NRSettings N) (x : X) (stepSize : S)
    (corr : C) (fuel j k : Nat) (hf : j + fuel < k)
    (hn : ∀ i, j ≤ i → i < k → ¬ NewtonStops P set x stepSize i) :
    P.loop set fuel (loopAt P x stepSize corr j) = none := by
  have hj := hn j le_rfl (by omega)
  rw [← cond_eq P set x stepSize corr j] at hj
  induction fuel generalizing j with
  | zero => simp only [loop]; rw [if_pos (by simpa using hj)]
  | succ fuel ih =>
    simp only [loop]
    rw [if_pos (by simpa using hj), body_eq]
    have := hn (j + 1) (by omega) (by omega)
    rw [← cond_eq P set x stepSize corr (j + 1)] at this
    exact ih (j + 1) (by omega) (fun i h1 h2 => hn i (by omega) h2) this

end NRProblem

open NRProblem

open Classical in
/-- The first stop exists and is bounded by the settings. -/
theorem Spec.firstStop_exists (P : NRProblem X R A C N S) (set : NRSettings N) (x : X)
    (stepSize : S) :
    ∃ k, FirstStop P set x stepSize k ∧ (k : Int) ≤ max 0 (max set.maxIter set.minIter) := by
  have hex : ∃ k, NewtonStops P set x stepSize k :=
    ⟨(max set.maxIter set.minIter).toNat, by omega, Or.inl (by omega)⟩
  refine ⟨Nat.find hex, ⟨Nat.find_spec hex, fun j hj => Nat.find_min hex hj⟩, ?_⟩
  have : NewtonStops P set x stepSize (max set.maxIter set.minIter).toNat :=
    ⟨by omega, Or.inl (by omega)⟩
  have := Nat.find_min' hex this
  omega

/-- C16, C18. The solver terminates, and everything observable about a run: it performs the least
number `k` of Newton steps after which at least `minIter` steps are made and either the residual
norm does not exceed `tol` or `maxIter` steps are made; the solution is the `k`-th Newton iterate;
`success` holds iff `k ≠ maxIter`; the reported norms are those of the last residual and
correction; the notifications are `INIT`, the messages of each iteration with the then current
state, and `FINISHED_SUCESSFULLY` iff the run was successful. -/
theorem newton_run (P : NRProblem X R A C N S) (set : NRSettings N) (x : X) (stepSize : S)
    (corr : C) :
    ∃ k : Nat, FirstStop P set x stepSize k ∧ (k : Int) ≤ max 0 (max set.maxIter set.minIter) ∧
      ∀ fuel, k ≤ fuel → ∃ s, P.solve set fuel x stepSize corr = some s ∧
        s.x = (newtonIterates P x stepSize k).1 ∧
        s.info.iterations = k ∧
        (s.info.success = true ↔ (k : Int) ≠ set.maxIter) ∧
        s.info.residualNorm = some (P.rnorm (P.residual s.x)) ∧
        s.info.correctionNorm
          = (if k = 0 then none else some (P.cnorm (correctionAt P x stepSize (k - 1)))) ∧
        s.trace = ⟨.init, x, corr, SolverInfo.default⟩ ::
          (List.range k).flatMap (iterationMessages P x stepSize corr) ++
          (if (k : Int) ≠ set.maxIter then [⟨.finishedSucessfully, s.x, s.correction, s.info⟩]
            else []) := by
  obtain ⟨k, hk, hb⟩ := firstStop_exists P set x stepSize
  refine ⟨k, hk, hb, fun fuel hf => ⟨finish set (loopAt P x stepSize corr k), ?_, ?_⟩⟩
  · unfold NRProblem.solve
    rw [start_eq, loop_eq P set x stepSize corr fuel 0 k hk.1 (by omega) (by omega)
      (fun i _ h => hk.2 i h)]
    rfl
  · have hs : (infoAt P x stepSize k).success = true := by cases k <;> rfl
    have hr : (infoAt P x stepSize k).residualNorm
        = some (P.rnorm (P.residual (newtonIterates P x stepSize k).1)) := by cases k <;> rfl
    have hc : (infoAt P x stepSize k).correctionNorm
        = if k = 0 then none else some (P.cnorm (correctionAt P x stepSize (k - 1))) := by
      cases k <;> rfl
    unfold finish
    by_cases hm : (k : Int) = set.maxIter
    · have h1 : ((loopAt P x stepSize corr k).iter : Int) = set.maxIter := hm
      simp only [h1, if_true, Bool.false_eq_true, if_false]
      refine ⟨rfl, by rw [← hm], by simp [hm], hr, hc, ?_⟩
      simp [hm, loopAt]
    · have h1 : ¬ ((loopAt P x stepSize corr k).iter : Int) = set.maxIter := hm
      have h2 : (loopAt P x stepSize corr k).info.success = true := hs
      simp only [h1, if_false, h2, if_true, NRLoop.notify]
      refine ⟨rfl, rfl, by simp [hm, loopAt, hs], hr, hc, ?_⟩
      simp only [loopAt, hm, ne_eq, not_false_eq_true, if_true, hs]

/-- C16. `setup` accepts exactly the settings with `minIter ≤ maxIter` and stores them unchanged. -/
theorem newton_setup (s : NRSettings N) :
    (s.minIter ≤ s.maxIter → s.setup = some s) ∧ (s.maxIter < s.minIter → s.setup = none) := by
  unfold NRSettings.setup
  refine ⟨fun h => if_neg (by omega), fun h => if_pos (by omega)⟩

example : (⟨1, 5, 5⟩ : NRSettings ℚ).minIter ≤ (⟨1, 5, 5⟩ : NRSettings ℚ).maxIter := by decide

/-- C16. For settings accepted by `setup` with `maxIter ≥ 0` the number of iterations lies between
`minIter` and `maxIter`, success means fewer than `maxIter` iterations and a residual norm that is
not greater than `tol`, and failure means exactly `maxIter` iterations. -/
theorem newton_success_meaning [LinearOrder N] (P : NRProblem X R A C N S)
    (hgt : ∀ a b, P.gt a b = decide (a > b)) (set0 set : NRSettings N)
    (hset : set0.setup = some set) (hmax : 0 ≤ set.maxIter) (x : X) (stepSize : S) (corr : C)
    (fuel : Nat) (s : NRLoop X R A C N) (h : P.solve set fuel x stepSize corr = some s) :
    set.minIter ≤ s.info.iterations ∧ 0 ≤ s.info.iterations ∧ s.info.iterations ≤ set.maxIter ∧
      (s.info.success = true → s.info.iterations < set.maxIter ∧
        P.rnorm (newtonIterates P x stepSize s.info.iterations.toNat).2 ≤ set.tol) ∧
      (s.info.success = false → s.info.iterations = set.maxIter) := by
  have hmm : set.minIter ≤ set.maxIter := by
    unfold NRSettings.setup at hset
    split at hset
    · exact absurd hset (by simp)
    · simp only [Option.some.injEq] at hset
      subst hset
      omega
  obtain ⟨k, hk, hb, hrun⟩ := newton_run P set x stepSize corr
  have hkf : k ≤ fuel := by
    by_contra hlt
    have := loop_none_of P set x stepSize corr fuel 0 k (by omega) (fun i _ h => hk.2 i h)
    unfold NRProblem.solve at h
    rw [start_eq, this] at h
    exact absurd h (by simp)
  obtain ⟨s', h1, -, h3, h4, -⟩ := hrun fuel hkf
  rw [h] at h1
  obtain rfl : s = s' := by simpa using h1
  rw [h3]
  refine ⟨hk.1.1, by omega, by omega, fun hs => ?_, fun hs => ?_⟩
  · have hne := h4.1 hs
    refine ⟨by omega, ?_⟩
    rcases hk.1.2 with h | h
    · omega
    · rw [hgt] at h
      simpa using h
  · by_contra hne
    rw [h4.2 hne] at hs
    exact absurd hs (by simp)

/-- C16, without inhomogeneous Dirichlet conditions a reported success means that the residual norm
in the returned information does not exceed `tol`. -/
theorem newton_success_reported_norm [LinearOrder N] (P : NRProblem X R A C N S)
    (hgt : ∀ a b, P.gt a b = decide (a > b)) (hidbc : P.idbc = none) (set0 set : NRSettings N)
    (hset : set0.setup = some set) (hmax : 0 ≤ set.maxIter) (x : X) (stepSize : S) (corr : C)
    (fuel : Nat) (s : NRLoop X R A C N) (h : P.solve set fuel x stepSize corr = some s)
    (hs : s.info.success = true) :
    ∃ v, s.info.residualNorm = some v ∧ v ≤ set.tol ∧ v = P.rnorm (P.residual s.x) := by
  obtain ⟨k, hk, hb, hrun⟩ := newton_run P set x stepSize corr
  have hkf : k ≤ fuel := by
    by_contra hlt
    have := loop_none_of P set x stepSize corr fuel 0 k (by omega) (fun i _ h => hk.2 i h)
    unfold NRProblem.solve at h
    rw [start_eq, this] at h
    exact absurd h (by simp)
  obtain ⟨s', h1, h2, h3, -, h5, -⟩ := hrun fuel hkf
  rw [h] at h1
  obtain rfl : s = s' := by simpa using h1
  have := newton_success_meaning P hgt set0 set hset hmax x stepSize corr fuel s h
  obtain ⟨-, -, -, hsuc, -⟩ := this
  refine ⟨_, h5, ?_, rfl⟩
  have hle := (hsuc hs).2
  rw [h3, Int.toNat_natCast] at hle
  rw [h2]
  cases k with
  | zero => simpa [newtonIterates, firstResidual, hidbc] using hle
  | succ k => exact hle

/-- C16, with the negative settings `setup` accepts the solver makes no iteration and reports
success whatever the residual is. -/
theorem newton_negative_maxIter (P : NRProblem X R A C N S) (set : NRSettings N)
    (hset : set.setup = some set) (hneg : set.maxIter < 0) (x : X) (stepSize : S) (corr : C)
    (fuel : Nat) :
    ∃ s, P.solve set fuel x stepSize corr = some s ∧ s.info.success = true ∧
      s.info.iterations = 0 ∧ s.x = x := by
  obtain ⟨k, hk, -, hrun⟩ := newton_run P set x stepSize corr
  have hmm : set.minIter ≤ set.maxIter := by
    unfold NRSettings.setup at hset
    split at hset
    · exact absurd hset (by simp)
    · omega
  have hk0 : k = 0 := by
    by_contra hne
    exact hk.2 0 (by omega) ⟨by omega, Or.inl (by omega)⟩
  subst hk0
  obtain ⟨s, h1, h2, h3, h4, -⟩ := hrun fuel (by omega)
  exact ⟨s, h1, h4.2 (by omega), h3, h2⟩

/-- C18. The message protocol: the sequence of messages of a run is `INIT`, six messages per
iteration, and `FINISHED_SUCESSFULLY` iff success is reported; the number of `ITERATION_STARTED` is
the reported number of iterations. -/
theorem newton_messages (P : NRProblem X R A C N S) (set : NRSettings N) (x : X) (stepSize : S)
    (corr : C) (fuel : Nat) (s : NRLoop X R A C N) (h : P.solve set fuel x stepSize corr = some s) :
    s.trace.map (·.msg) = [.init] ++
        (List.replicate s.info.iterations.toNat [.iterationStarted, .correctionUpdated,
          .correctionnormUpdated, .solutionChanged, .residualnormUpdated,
          .iterationEnded]).flatten ++
        (if s.info.success then [.finishedSucessfully] else []) ∧
      (s.trace.map (·.msg)).count .iterationStarted = s.info.iterations.toNat := by
  obtain ⟨k, hk, hb, hrun⟩ := newton_run P set x stepSize corr
  have hkf : k ≤ fuel := by
    by_contra hlt
    have := loop_none_of P set x stepSize corr fuel 0 k (by omega) (fun i _ h => hk.2 i h)
    unfold NRProblem.solve at h
    rw [start_eq, this] at h
    exact absurd h (by simp)
  obtain ⟨s', h1, -, h3, h4, -, -, h7⟩ := hrun fuel hkf
  rw [h] at h1
  obtain rfl : s = s' := by simpa using h1
  have hit : ∀ n : Nat, ((List.range n).flatMap (iterationMessages P x stepSize corr)).map (·.msg)
      = (List.replicate n [.iterationStarted, .correctionUpdated,
          .correctionnormUpdated, .solutionChanged, .residualnormUpdated,
          SolverMessage.iterationEnded]).flatten := by
    intro n
    induction n with
    | zero => rfl
    | succ n ih =>
      rw [List.range_succ, List.flatMap_append, List.map_append, ih, List.replicate_succ',
        List.flatten_append]
      simp [iterationMessages]
  have hmsgs : s.trace.map (·.msg) = [.init] ++
        (List.replicate k [.iterationStarted, .correctionUpdated,
          .correctionnormUpdated, .solutionChanged, .residualnormUpdated,
          .iterationEnded]).flatten ++
        (if s.info.success then [.finishedSucessfully] else []) := by
    rw [h7]
    simp only [List.map_append, List.map_cons, hit]
    by_cases hm : (k : Int) ≠ set.maxIter
    · rw [if_pos hm, if_pos (h4.2 hm)]; rfl
    · rw [if_neg hm, if_neg (fun h => hm (h4.1 h))]; rfl
  rw [h3, Int.toNat_natCast]
  refine ⟨hmsgs, ?_⟩
  rw [hmsgs, List.count_append, List.count_append]
  have e1 : List.count SolverMessage.iterationStarted
      (if s.info.success then [SolverMessage.finishedSucessfully] else []) = 0 := by
    split <;> rfl
  have e2 : ∀ n : Nat, (List.replicate n [SolverMessage.iterationStarted, .correctionUpdated,
          .correctionnormUpdated, .solutionChanged, .residualnormUpdated,
          .iterationEnded]).flatten.count .iterationStarted = n := by
    intro n
    induction n with
    | zero => rfl
    | succ n ih =>
      rw [List.replicate_succ, List.flatten_cons, List.count_append, ih]
      have : List.count SolverMessage.iterationStarted [.iterationStarted, .correctionUpdated,
          .correctionnormUpdated, .solutionChanged, .residualnormUpdated,
          .iterationEnded] = 1 := by decide
      omega
  rw [e1, e2]
  have : List.count SolverMessage.iterationStarted [SolverMessage.init] = 0 := by decide
  omega

/-- C17 in full: success is only reported if the last residual norm is comparable to the tolerance
and not greater. Norms are numbers or not-a-number (`none`). -/
def Spec.SuccessNotForNaN : Prop :=
  ∀ (P : NRProblem ℤ ℤ ℤ ℤ (Option ℤ) ℤ), (∀ a b, P.gt a b = match a, b with
      | some a, some b => decide (a > b)
      | _, _ => false) →
    ∀ (set0 set : NRSettings (Option ℤ)), set0.setup = some set → 0 < set.maxIter →
    ∀ (x stepSize corr : ℤ) (fuel : Nat) (s), P.solve set fuel x stepSize corr = some s →
      s.info.success = true → s.info.residualNorm ≠ some none

/-- C17 is false of the code: a residual norm that is not a number ends the iteration with
success. -/
theorem newton_success_for_nan : ¬ Spec.SuccessNotForNaN := by
  intro h
  let P : NRProblem ℤ ℤ ℤ ℤ (Option ℤ) ℤ :=
    { residual := fun x => x, jacobian := fun _ => 1
      rnorm := fun r => if r = 7 then none else some |r|
      cnorm := fun c => some |c|
      gt := fun a b => match a, b with
        | some a, some b => decide (a > b)
        | _, _ => false
      linSolve := fun _ r => 7 - r
      update := fun x c => x + c
      idbc := none }
  exact h P (fun _ _ => rfl) ⟨some 0, 20, 0⟩ ⟨some 0, 20, 0⟩ rfl (by decide) 3 0 0 5 _ rfl rfl rfl

/-- C17, for every problem: if the norm compares false after fewer than `maxIter` (and at least
`minIter`) iterations, as any comparison with not-a-number does, success is reported. -/
theorem newton_incomparable_is_success (P : NRProblem X R A C N S) (set : NRSettings N) (x : X)
    (stepSize : S) (corr : C) (k : Nat) (hmin : set.minIter ≤ k) (hmax : (k : Int) < set.maxIter)
    (hnan : P.gt (P.rnorm (newtonIterates P x stepSize k).2) set.tol = false) (fuel : Nat)
    (hf : k ≤ fuel) :
    ∃ s, P.solve set fuel x stepSize corr = some s ∧ s.info.success = true ∧
      s.info.iterations ≤ k := by
  obtain ⟨j, hj, -, hrun⟩ := newton_run P set x stepSize corr
  have hjk : j ≤ k := by
    by_contra hlt
    exact hj.2 k (by omega) ⟨hmin, Or.inr hnan⟩
  obtain ⟨s, h1, -, h3, h4, -⟩ := hrun fuel (by omega)
  exact ⟨s, h1, h4.2 (by omega), by omega⟩

end

/-! ### Affine problems -/

section Affine
open Spec NRProblem
variable {K V A N S : Type} [Ring K] [AddCommGroup V] [Module K V]

/-- C19. For an affine residual `K x - f`, additive update and an exact linear solver, at most
`max 1 minIter` iterations are made; after the first correction the residual is exactly zero; if
`max 1 minIter < maxIter` success is reported. -/
theorem newton_affine [LinearOrder N] (L : V →ₗ[K] V) (f : V) (P : NRProblem V V A V N S)
    (hres : ∀ x, P.residual x = L x - f)
    (hsolve : ∀ x r, L (P.linSolve (P.jacobian x) r) = -r)
    (hupd : ∀ x c, P.update x c = x + c) (hidbc : P.idbc = none)
    (hgt : ∀ a b, P.gt a b = decide (a > b)) (set : NRSettings N) (hmin : 0 ≤ set.minIter)
    (hmax : max 1 set.minIter < set.maxIter) (hzero : P.rnorm 0 ≤ set.tol) (x : V) (stepSize : S)
    (corr : V) (fuel : Nat) (hf : max 1 set.minIter ≤ fuel) :
    ∃ s, P.solve set fuel x stepSize corr = some s ∧ s.info.success = true ∧
      s.info.iterations ≤ max 1 set.minIter ∧
      ((s.info.iterations = 0 ∧ s.x = x ∧ P.rnorm (L x - f) ≤ set.tol) ∨
        (0 < s.info.iterations ∧ L s.x = f ∧ s.info.residualNorm = some (P.rnorm 0))) ∧
      (set.minIter ≤ 1 → P.rnorm (L x - f) > set.tol →
        s.info.iterations = 1 ∧ L (s.x - x) = f - L x) := by
  obtain ⟨k, hk, -, hrun⟩ := newton_run P set x stepSize corr
  have hit : ∀ j, (newtonIterates P x stepSize (j + 1)).2 = 0 ∧
      L (newtonIterates P x stepSize (j + 1)).1 = f := by
    intro j
    have hinv : ∀ j, (newtonIterates P x stepSize j).2
        = L (newtonIterates P x stepSize j).1 - f := by
      intro j
      cases j with
      | zero => simp [newtonIterates, firstResidual, hidbc, hres]
      | succ j => simp only [newtonIterates, hres]
    have hL : L (newtonIterates P x stepSize (j + 1)).1 = f := by
      have h1 : (newtonIterates P x stepSize (j + 1)).1
          = (newtonIterates P x stepSize j).1
            + P.linSolve (P.jacobian (newtonIterates P x stepSize j).1)
              (newtonIterates P x stepSize j).2 := by
        simp [newtonIterates, newtonStep, hidbc, hupd]
      rw [h1, map_add, hsolve, hinv j]
      abel
    exact ⟨by rw [hinv (j + 1), hL, sub_self], hL⟩
  have hfirst : (newtonIterates P x stepSize 0).2 = L x - f := by
    simp [newtonIterates, firstResidual, hidbc, hres]
  have hstop : NewtonStops P set x stepSize (max 1 set.minIter).toNat := by
    refine ⟨by omega, Or.inr ?_⟩
    obtain ⟨j, hj⟩ : ∃ j, (max 1 set.minIter).toNat = j + 1 := ⟨(max 1 set.minIter).toNat - 1, by omega⟩
    rw [hj, (hit j).1, hgt]
    simpa using hzero
  have hkle : k ≤ (max 1 set.minIter).toNat := by
    by_contra hlt
    exact hk.2 _ (by omega) hstop
  obtain ⟨s, h1, h2, h3, h4, h5, -⟩ := hrun fuel (by omega)
  refine ⟨s, h1, h4.2 (by omega), by omega, ?_, ?_⟩
  · cases k with
    | zero =>
      left
      refine ⟨by simpa using h3, by rw [h2]; rfl, ?_⟩
      rcases hk.1.2 with h | h
      · omega
      · rw [hgt, hfirst] at h; simpa using h
    | succ k =>
      right
      refine ⟨by omega, by rw [h2]; exact (hit k).2, ?_⟩
      rw [h5, h2, hres, (hit k).2, sub_self]
  · intro hm1 hbig
    have hk1 : k = 1 := by
      have hk0 : k ≠ 0 := by
        rintro rfl
        rcases hk.1.2 with h | h
        · omega
        · rw [hgt, hfirst] at h
          simp only [gt_iff_lt, decide_eq_false_iff_not, not_lt] at h
          exact absurd h (not_le.2 hbig)
      omega
    subst hk1
    refine ⟨by simpa using h3, ?_⟩
    rw [map_sub, h2, (hit 0).2]

end Affine

/-! A concrete run: `x² - 2x` over the integers, Jacobian `2x - 2`, rounded division. -/

section Example

/-- Example problem. -/
def exampleNR : NRProblem ℤ ℤ ℤ ℤ ℤ ℤ :=
  { residual := fun x => x * x - 2 * x, jacobian := fun x => 2 * x - 2
    rnorm := fun r => |r|, cnorm := fun c => |c|, gt := fun a b => decide (a > b)
    linSolve := fun a r => -r / a, update := fun x c => x + c, idbc := none }

example : (exampleNR.solve ⟨1, 20, 0⟩ 20 10 0 0).map (fun s => (s.x, s.info)) =
    some (2, ⟨true, some 0, some 1, 3⟩) := by decide

/-- The same run with `maxIter = 3` converges in its last iteration and reports failure. -/
example : (exampleNR.solve ⟨1, 3, 0⟩ 20 10 0 0).map (fun s => s.info.success) =
    some false := by decide

/-- The affine theorem applies to `3 x - 6` with an exact solver on multiples of 3. -/
example : ∃ P : NRProblem ℚ ℚ ℚ ℚ ℚ ℚ, ∃ L : ℚ →ₗ[ℚ] ℚ,
    (∀ x, P.residual x = L x - 6) ∧ (∀ x r, L (P.linSolve (P.jacobian x) r) = -r) ∧
    P.rnorm 0 ≤ 1 / 10 ∧ P.rnorm (P.residual 5) > 1 / 10 := by
  refine ⟨{ residual := fun x => 3 * x - 6
            jacobian := fun _ => 3
            rnorm := abs
            cnorm := abs
            gt := fun a b => decide (a > b)
            linSolve := fun a r => -r / a
            update := fun x c => x + c
            idbc := none }, (3 : ℚ) • LinearMap.id, ?_, ?_, ?_, ?_⟩
  · intro x; simp
  · intro x r; simp; field_simp
  · norm_num
  · norm_num

end Example

end Ikarus
