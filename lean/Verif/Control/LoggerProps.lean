import Verif.Control.LoggerModel
import Verif.Solver.NewtonProps
import Verif.Solver.SubsidiaryProps
import Verif.Control.LoadProps
import Verif.Control.PathProps
import Verif.TrustRegion.StepProps

/-!
C93: what loggers and writers of files show of a run.
-/

namespace Ikarus

open Spec

section
variable {X R A C N S L : Type} [Zero N]

theorem hear_append (param : Option (X → L)) (l : SolverLogger N L) (a b : List (NRNotification X C N)) :
    l.hear param (a ++ b) = (((l.hear param a).1.hear param b).1, (l.hear param a).2 ++ ((l.hear param a).1.hear param b).2) := by
  induction a generalizing l with
  | nil => rfl
  | cons n a ih => simp only [List.cons_append, SolverLogger.hear, ih, List.append_assoc]

/-! ### Newton's method -/

/-- The log of a run of Newton's method with `k` iterations: for each iteration its number, the norm of the residual after it, the norm
of its correction and the load factor; in the end the number of iterations if the run was successful. -/
def Spec.newtonLog (P : NRProblem X R A C N S) (set : NRSettings N) (param : Option (X → L)) (x : X) (stepSize : S) (k : Nat) :
    List (SolverLine N L) :=
  .heading param.isSome :: (List.range k).map (fun j =>
    let y := (newtonIterates P x stepSize (j + 1)).1
    .iteration (j + 1) (some (P.rnorm (P.residual y))) (some (P.cnorm (correctionAt P x stepSize j))) (param.map (· y))) ++
  if (k : Int) ≠ set.maxIter then [.total k] else []

theorem hear_newton_iterations (P : NRProblem X R A C N S) (param : Option (X → L)) (x : X) (stepSize : S) (corr : C)
    (l : SolverLogger N L) (hl : l.iters = 1) (k : Nat) :
    let r := l.hear param ((List.range k).flatMap (iterationMessages P x stepSize corr))
    r.1.iters = k + 1 ∧ r.2 = (List.range k).map fun j =>
      let y := (newtonIterates P x stepSize (j + 1)).1
      .iteration (j + 1) (some (P.rnorm (P.residual y))) (some (P.cnorm (correctionAt P x stepSize j))) (param.map (· y)) := by
  induction k with
  | zero => exact ⟨hl, rfl⟩
  | succ k ih =>
    obtain ⟨h1, h2⟩ := ih
    rw [List.range_succ, List.flatMap_append, List.map_append, hear_append]
    simp only [List.flatMap_cons, List.flatMap_nil, List.append_nil, List.map_cons, List.map_nil]
    refine ⟨?_, ?_⟩
    · cases param <;> simp only [iterationMessages, SolverLogger.hear, SolverLogger.update] <;> rw [h1]
    · rw [h2]
      congr 1
      cases param <;> simp [iterationMessages, SolverLogger.hear, SolverLogger.update, h1]

/-- C93. Whatever the logger has seen before, the log of a run of Newton's method shows each iteration once, in order, with the norm of
the residual after the iteration, the norm of its correction and the load factor, and the number of iterations if the run was
successful. -/
theorem newton_log (P : NRProblem X R A C N S) (set : NRSettings N) (param : Option (X → L)) (x : X) (stepSize : S) (corr : C)
    (fuel : Nat) (s : NRLoop X R A C N) (h : P.solve set fuel x stepSize corr = some s) (l : SolverLogger N L) :
    ∃ k : Nat, FirstStop P set x stepSize k ∧ s.info.iterations = k ∧
      (l.hear param s.trace).2 = Spec.newtonLog P set param x stepSize k := by
  obtain ⟨k, h1, -, h2⟩ := newton_run P set x stepSize corr
  have hk : k ≤ fuel := by
    by_contra hk
    have := NRProblem.loop_none_of P set x stepSize corr fuel 0 k (by omega) (fun i _ hi => h1.2 i hi)
    rw [NRProblem.solve, NRProblem.start_eq, this] at h
    simp at h
  obtain ⟨s', e1, e2, e3, e4, e5, e6, e7⟩ := h2 fuel hk
  obtain rfl : s = s' := Option.some.inj (h.symm.trans e1)
  refine ⟨k, h1, e3, ?_⟩
  rw [e7, List.cons_append, SolverLogger.hear, hear_append]
  obtain ⟨g1, g2⟩ := hear_newton_iterations P param x stepSize corr (l.update param ⟨.init, x, corr, SolverInfo.default⟩).1 rfl k
  rw [g2]
  unfold Spec.newtonLog
  by_cases hm : (k : Int) ≠ set.maxIter
  · rw [if_pos hm, if_pos hm]
    simp [SolverLogger.update, SolverLogger.hear, e3]
  · rw [if_neg hm, if_neg hm]
    simp [SolverLogger.update, SolverLogger.hear]

/-- A run of Newton's method that has ended. -/
structure Spec.NewtonRun (X R A C N S : Type) where
  P : NRProblem X R A C N S
  set : NRSettings N
  x : X
  stepSize : S
  corr : C
  fuel : Nat
  s : NRLoop X R A C N
  ended : P.solve set fuel x stepSize corr = some s

/-- C93. One logger for any number of runs, also of different solvers: the log is the sequence of the logs of the runs. -/
theorem newton_logs (param : Option (X → L)) (runs : List (Spec.NewtonRun X R A C N S)) (l : SolverLogger N L) :
    (l.hear param (runs.flatMap fun r => r.s.trace)).2 =
      runs.flatMap fun r => Spec.newtonLog r.P r.set param r.x r.stepSize r.s.info.iterations.toNat := by
  induction runs generalizing l with
  | nil => rfl
  | cons r runs ih =>
    obtain ⟨k, -, hk, h⟩ := newton_log r.P r.set param r.x r.stepSize r.corr r.fuel r.s r.ended l
    rw [List.flatMap_cons, List.flatMap_cons, hear_append, h, ih, hk, Int.toNat_natCast]

end

/-! ### The solver with a subsidiary function -/

section
variable {K V A N : Type} [Field K] [DecidableEq K] [AddCommGroup V] [Module K V] [Zero N]

/-- The state after `j` iterations. -/
def Spec.subsidiaryAt (P : SubsidiaryProblem K V A N) (lam : K) (x : V) (args : SubsidiaryArgs K V) (j : Nat) :
    SubsidiaryLoop K V A N := P.body^[j] (P.start lam x args)

/-- The increments of iteration `j`. -/
def Spec.incrementsAt (P : SubsidiaryProblem K V A N) (lam : K) (x : V) (args : SubsidiaryArgs K V) (j : Nat) : V × K :=
  (P.increments (Spec.subsidiaryAt P lam x args j)).getD 0

/-- The log of a run with `k` iterations. -/
def Spec.subsidiaryLog (P : SubsidiaryProblem K V A N) (set : SubsidiarySettings N) (lam : K) (x : V) (args : SubsidiaryArgs K V)
    (k : Nat) : List (SolverLine N K) :=
  .heading true :: (List.range k).map (fun j =>
    let s := Spec.subsidiaryAt P lam x args (j + 1)
    let i := Spec.incrementsAt P lam x args j
    let r := P.residual s.lam s.x
    .iteration (j + 1) (some (P.sqrt (P.dot r r + s.args.f * s.args.f))) (some (P.sqrt (P.dot i.1 i.1 + i.2 * i.2))) (some s.lam)) ++
  if (k : Int) ≠ set.maxIter then [.total k] else []

/-- What holds after `k` iterations. -/
structure NotedInv (P : SubsidiaryProblem K V A N) (lam : K) (x : V) (args : SubsidiaryArgs K V) (l : SolverLogger N K) (k : Nat)
    (t : NotedLoop K V A N) : Prop where
  state : t.s = Spec.subsidiaryAt P lam x args k
  iter : t.s.iter = k
  success : t.s.success = true
  finite : t.s.finite = true
  increments : ∀ j < k, P.increments (Spec.subsidiaryAt P lam x args j) = some (Spec.incrementsAt P lam x args j)
  messages : t.notes.map (·.msg) = t.s.trace
  claimed : t.info.success = true ∧ t.info.iterations = (if k = 0 then -1 else (k : Int)) ∧
    ∀ e ∈ t.notes.drop 1, e.info.success = true
  begun : (t.notes.filter fun e => e.msg == .iterationStarted).map (·.info.iterations) =
    (List.range k).map fun j : Nat => if j = 0 then -1 else (j : Int)
  notEmpty : t.notes ≠ []
  iters : (l.hear (some Dom.lam) t.notes).1.iters = k + 1
  log : (l.hear (some Dom.lam) t.notes).2 = .heading true :: (List.range k).map fun j =>
    let s := Spec.subsidiaryAt P lam x args (j + 1)
    let i := Spec.incrementsAt P lam x args j
    let r := P.residual s.lam s.x
    .iteration (j + 1) (some (P.sqrt (P.dot r r + s.args.f * s.args.f))) (some (P.sqrt (P.dot i.1 i.1 + i.2 * i.2))) (some s.lam)

omit [Zero N] in
theorem subsidiary_body_some (P : SubsidiaryProblem K V A N) (s : SubsidiaryLoop K V A N) (i : V × K) (h : P.increments s = some i) :
    let s' := P.body s
    let r := P.residual s'.lam s'.x
    s'.rNorm = some (P.sqrt (P.dot r r + s'.args.f * s'.args.f)) ∧ s'.iter = s.iter + 1 ∧ s'.success = s.success ∧
      s'.finite = s.finite ∧ s'.trace = s.trace ++ SubsidiaryProblem.messages := by
  unfold SubsidiaryProblem.body
  rw [h]
  exact ⟨rfl, rfl, rfl, rfl, rfl⟩

theorem notedInv_step (P : SubsidiaryProblem K V A N) (lam : K) (x : V) (args : SubsidiaryArgs K V) (l : SolverLogger N K) (k : Nat)
    (t t' : NotedLoop K V A N) (h : NotedInv P lam x args l k t) (hb : P.notedBody t = some t') :
    NotedInv P lam x args l (k + 1) t' := by
  unfold SubsidiaryProblem.notedBody at hb
  rw [Option.map_eq_some_iff] at hb
  obtain ⟨i, hi, rfl⟩ := hb
  obtain ⟨b1, b2, b3, b4, b5⟩ := subsidiary_body_some P t.s i hi
  have hst : P.body t.s = Spec.subsidiaryAt P lam x args (k + 1) := by
    rw [h.state, Spec.subsidiaryAt, Spec.subsidiaryAt, Function.iterate_succ_apply']
  have hik : Spec.incrementsAt P lam x args k = i := by
    rw [Spec.incrementsAt, ← h.state, hi, Option.getD_some]
  refine ⟨hst, by rw [b2, h.iter], by rw [b3, h.success], by rw [b4, h.finite], fun j hj => ?_, ?_,
    ⟨h.claimed.1, ?_, ?_⟩, ?_, by simp, ?_, ?_⟩
  · rcases Nat.lt_succ_iff_lt_or_eq.1 hj with h1 | rfl
    · exact h.increments j h1
    · rw [hik, ← h.state, hi]
  · simp only [List.map_append, h.messages, b5]
    rfl
  · simp only [b2, h.iter]
    rw [if_neg (by omega)]
  · intro e he
    rw [List.drop_append_of_le_length (List.length_pos_iff.2 h.notEmpty), List.mem_append] at he
    rcases he with he | he
    · exact h.claimed.2.2 e he
    · simp only [List.mem_cons, List.not_mem_nil, or_false] at he
      rcases he with rfl | rfl | rfl | rfl | rfl | rfl <;> exact h.claimed.1
  · rw [List.filter_append, List.map_append, h.begun, List.range_succ, List.map_append]
    congr 1
    have hc := h.claimed.2.1
    show [t.info.iterations] = [_]
    rw [hc]
  · rw [hear_append]
    simp only [SolverLogger.hear, SolverLogger.update, h.iters]
  · rw [hear_append, h.log, List.range_succ, List.map_append, ← List.cons_append]
    simp only [SolverLogger.hear, SolverLogger.update, h.iters, List.map_cons, List.map_nil, List.nil_append, List.append_nil,
      Option.isSome_some, if_true, hik, ← hst, b1]

theorem notedLoop_inv (P : SubsidiaryProblem K V A N) (set : SubsidiarySettings N) (lam : K) (x : V) (args : SubsidiaryArgs K V)
    (l : SolverLogger N K) (fuel k : Nat) (t t' : NotedLoop K V A N) (h : NotedInv P lam x args l k t)
    (hl : P.notedLoop set fuel t = some t') :
    ∃ k', NotedInv P lam x args l k' t' ∧ P.loop set fuel t.s = some t'.s := by
  induction fuel generalizing k t with
  | zero =>
    unfold SubsidiaryProblem.notedLoop at hl
    unfold SubsidiaryProblem.loop
    by_cases hc : P.cond set t.s = true
    · rw [if_pos hc] at hl; simp at hl
    · rw [if_neg hc] at hl ⊢
      obtain rfl := Option.some.inj hl
      exact ⟨k, h, rfl⟩
  | succ fuel ih =>
    unfold SubsidiaryProblem.notedLoop at hl
    unfold SubsidiaryProblem.loop
    by_cases hc : P.cond set t.s = true
    · rw [if_pos hc] at hl ⊢
      rw [Option.bind_eq_some_iff] at hl
      obtain ⟨t1, h1, h2⟩ := hl
      obtain ⟨k', g1, g2⟩ := ih (k + 1) t1 (notedInv_step P lam x args l k t t1 h h1) h2
      have : t1.s = P.body t.s := by
        unfold SubsidiaryProblem.notedBody at h1
        rw [Option.map_eq_some_iff] at h1
        obtain ⟨i, -, rfl⟩ := h1
        rfl
      rw [this] at g2
      exact ⟨k', g1, g2⟩
    · rw [if_neg hc] at hl ⊢
      obtain rfl := Option.some.inj hl
      exact ⟨k, h, rfl⟩

/-- C93. The log of a run of the solver with a subsidiary function shows each iteration once, in order, with the norm of residual and
subsidiary function after the iteration, the norm of its increments of solution and load factor, and the load factor. -/
theorem subsidiary_log (P : SubsidiaryProblem K V A N) (set : SubsidiarySettings N) (fuel : Nat) (lam : K) (x : V)
    (args : SubsidiaryArgs K V) (corr : V) (t : NotedLoop K V A N) (h : P.notedSolve set fuel lam x args corr = some t)
    (l : SolverLogger N K) :
    P.solve set fuel lam x args = some t.s ∧ t.notes.map (·.msg) = t.s.trace ∧
      (∀ j < t.s.iter, P.increments (Spec.subsidiaryAt P lam x args j) = some (Spec.incrementsAt P lam x args j)) ∧
      t.s.lam = (Spec.subsidiaryAt P lam x args t.s.iter).lam ∧ t.s.x = (Spec.subsidiaryAt P lam x args t.s.iter).x ∧
      (l.hear (some Dom.lam) t.notes).2 = Spec.subsidiaryLog P set lam x args t.s.iter := by
  unfold SubsidiaryProblem.notedSolve at h
  rw [Option.map_eq_some_iff] at h
  obtain ⟨t0, h0, rfl⟩ := h
  have hinv : NotedInv P lam x args l 0 (P.notedStart lam x args corr) :=
    ⟨rfl, rfl, rfl, rfl, fun j hj => absurd hj (Nat.not_lt_zero j), rfl, ⟨rfl, rfl, fun _ he => by cases he⟩, rfl, by simp [SubsidiaryProblem.notedStart], rfl, rfl⟩
  obtain ⟨k, g, gl⟩ := notedLoop_inv P set lam x args l fuel 0 _ t0 hinv h0
  have hs : P.solve set fuel lam x args = some (SubsidiaryProblem.finish set t0.s) := by
    unfold SubsidiaryProblem.solve
    have : (P.notedStart lam x args corr).s = P.start lam x args := rfl
    rw [← this, gl]
    rfl
  refine ⟨hs, ?_⟩
  unfold SubsidiaryProblem.notedFinish SubsidiaryProblem.finish Spec.subsidiaryLog
  by_cases hk : (t0.s.iter : Int) = set.maxIter
  · simp only [hk, if_true, Bool.false_eq_true, if_false]
    rw [g.iter] at hk ⊢
    refine ⟨g.messages, g.increments, by rw [g.state], by rw [g.state], ?_⟩
    rw [g.log, if_neg (by simp), List.append_nil]
  · simp only [hk, if_false, g.success, if_true]
    rw [g.iter] at hk ⊢
    refine ⟨by simp [g.messages], g.increments, by rw [g.state], by rw [g.state], ?_⟩
    rw [if_pos hk, hear_append, g.log]
    rfl

/-- C93. What the other listeners of the solver with a subsidiary function are told: from the first iteration on success is
announced, whether it will come or not, and at the start of an iteration the number of iterations made before, but minus
one in the first. -/
theorem subsidiary_notes (P : SubsidiaryProblem K V A N) (set : SubsidiarySettings N) (fuel : Nat) (lam : K) (x : V)
    (args : SubsidiaryArgs K V) (corr : V) (t : NotedLoop K V A N) (h : P.notedSolve set fuel lam x args corr = some t) :
    (∀ e ∈ t.notes.drop 1, e.info.success = true) ∧
      ((t.notes.filter fun e => e.msg == .iterationStarted).map (·.info.iterations) =
        (List.range t.s.iter).map fun j : Nat => if j = 0 then -1 else (j : Int)) ∧
      t.info.iterations = t.s.iter ∧ (t.info.success = true ↔ (t.s.iter : Int) ≠ set.maxIter) := by
  unfold SubsidiaryProblem.notedSolve at h
  rw [Option.map_eq_some_iff] at h
  obtain ⟨t0, h0, rfl⟩ := h
  have hinv : NotedInv P lam x args (⟨0, none, none, 0⟩ : SolverLogger N K) 0 (P.notedStart lam x args corr) :=
    ⟨rfl, rfl, rfl, rfl, fun j hj => absurd hj (Nat.not_lt_zero j), rfl, ⟨rfl, rfl, fun _ he => by cases he⟩, rfl,
      by simp [SubsidiaryProblem.notedStart], rfl, rfl⟩
  obtain ⟨k, g, gl⟩ := notedLoop_inv P set lam x args _ fuel 0 _ t0 hinv h0
  unfold SubsidiaryProblem.notedFinish SubsidiaryProblem.finish
  by_cases hk : (t0.s.iter : Int) = set.maxIter
  · simp only [hk, if_true, Bool.false_eq_true, if_false]
    refine ⟨g.claimed.2.2, by rw [g.begun, g.iter], trivial, by simp⟩
  · simp only [hk, if_false, g.success, if_true]
    refine ⟨fun e he => ?_, ?_, trivial, by simpa using hk⟩
    · rw [List.drop_append_of_le_length (List.length_pos_iff.2 g.notEmpty), List.mem_append] at he
      rcases he with he | he
      · exact g.claimed.2.2 e he
      · rw [List.mem_singleton] at he
        rw [he]
    · rw [List.filter_append, List.map_append, g.begun, g.iter]
      simp

example : ((exampleSub.notedSolve ⟨1 / 10, 0⟩ 20 5 0 SubsidiaryArgs.setZero 0).map fun t =>
    (t.info.success, t.notes.map (·.info.success))) = some (false, [false]) := by decide +kernel

omit [Zero N] in
/-- C93. The notifications are those of every run whose increments are finite. -/
theorem subsidiary_noted (P : SubsidiaryProblem K V A N) (set : SubsidiarySettings N) (fuel : Nat) (lam : K) (x : V)
    (args : SubsidiaryArgs K V) (corr : V) (s : SubsidiaryLoop K V A N) (h : P.solve set fuel lam x args = some s)
    (hf : s.finite = true) : ∃ t, P.notedSolve set fuel lam x args corr = some t ∧ t.s = s := by
  have key : ∀ fuel (t : NotedLoop K V A N) s', P.loop set fuel t.s = some s' → s'.finite = true →
      ∃ t', P.notedLoop set fuel t = some t' ∧ t'.s = s' := by
    intro fuel
    induction fuel with
    | zero =>
      intro t s' h1 h2
      unfold SubsidiaryProblem.loop at h1
      unfold SubsidiaryProblem.notedLoop
      by_cases hc : P.cond set t.s = true
      · rw [if_pos hc] at h1; simp at h1
      · rw [if_neg hc] at h1 ⊢
        exact ⟨t, rfl, Option.some.inj h1⟩
    | succ fuel ih =>
      intro t s' h1 h2
      unfold SubsidiaryProblem.loop at h1
      unfold SubsidiaryProblem.notedLoop
      by_cases hc : P.cond set t.s = true
      · rw [if_pos hc] at h1 ⊢
        cases hi : P.increments t.s with
        | none =>
          exfalso
          have hb : (P.body t.s).finite = false ∧ (P.body t.s).rNorm = none := by
            unfold SubsidiaryProblem.body
            rw [hi]
            exact ⟨rfl, rfl⟩
          have hcond : P.cond set (P.body t.s) = false := by
            unfold SubsidiaryProblem.cond
            rw [hb.2]
            rfl
          have : s' = P.body t.s := by
            cases fuel <;> (unfold SubsidiaryProblem.loop at h1; rw [if_neg (by rw [hcond]; simp)] at h1; exact (Option.some.inj h1).symm)
          rw [this, hb.1] at h2
          simp at h2
        | some i =>
          have : ∃ t1, P.notedBody t = some t1 ∧ t1.s = P.body t.s := by
            unfold SubsidiaryProblem.notedBody
            rw [hi]
            exact ⟨_, rfl, rfl⟩
          obtain ⟨t1, e1, e2⟩ := this
          rw [e1, Option.bind_some]
          rw [← e2] at h1
          exact ih t1 s' h1 h2
      · rw [if_neg hc] at h1 ⊢
        exact ⟨t, rfl, Option.some.inj h1⟩
  unfold SubsidiaryProblem.solve at h
  rw [Option.map_eq_some_iff] at h
  obtain ⟨s0, h0, rfl⟩ := h
  have hf0 : s0.finite = true := by
    unfold SubsidiaryProblem.finish at hf
    by_cases hk : (s0.iter : Int) = set.maxIter
    · simpa [hk] using hf
    · simp only [hk, if_false] at hf
      by_cases hs : s0.success = true
      · simpa [hs] using hf
      · simpa [hs] using hf
  obtain ⟨t0, e1, e2⟩ := key fuel (P.notedStart lam x args corr) s0 h0 hf0
  refine ⟨_, by rw [SubsidiaryProblem.notedSolve, e1]; rfl, ?_⟩
  show SubsidiaryProblem.finish set t0.s = _
  rw [e2]

end

/-! ### The trust region solver -/

noncomputable section
variable {X V S L : Type} [NormedAddCommGroup V] [InnerProductSpace ℝ V]

/-- The iterate after `j` iterations. -/
def Spec.trAt (P : TRProblem X V S) (set : TRSettings) (cmpTol : ℝ) (w : S) (x : X) (j : Nat) : Spec.TRPoint X S :=
  (Spec.next P set cmpTol)^[j] (Spec.startPoint set w x)

/-- Whether the proposal at an iterate is accepted. -/
def Spec.AcceptedAt (P : TRProblem X V S) (set : TRSettings) (cmpTol : ℝ) (v : Spec.TRPoint X S) : Prop :=
  let c := (Spec.correction P set v).2.1
  Spec.Accepts set cmpTol (P.energy v.x) (P.energy (P.update v.x c)) (Spec.predicted (P.grad v.x) (P.hess v.x) c)

open Classical in
/-- What is shown after `j` iterations: the norm of the gradient before the last accepted iteration, the norm of its correction and the
load factor; zeros and the load factor shown last if no iteration has been accepted. -/
def Spec.trShown (P : TRProblem X V S) (set : TRSettings) (cmpTol : ℝ) (param : Option (X → L)) (last : L) (w : S) (x : X) :
    Nat → ℝ × ℝ × L
  | 0 => (0, 0, last)
  | j + 1 =>
    let v := Spec.trAt P set cmpTol w x j
    if Spec.AcceptedAt P set cmpTol v then
      (‖P.grad v.x‖, ‖(Spec.correction P set v).2.1‖, param.elim last (· (P.update v.x (Spec.correction P set v).2.1)))
    else Spec.trShown P set cmpTol param last w x j

open Classical in
/-- The log of a run with `n` iterations. -/
def Spec.trLog (P : TRProblem X V S) (set : TRSettings) (cmpTol : ℝ) (param : Option (X → L)) (last : L) (w : S) (x : X) (n : Nat) :
    List (SolverLine ℝ L) :=
  .heading param.isSome :: (List.range n).map (fun j =>
    let r := Spec.trShown P set cmpTol param last w x (j + 1)
    .iteration (j + 1) (some r.1) (some r.2.1) (if param.isSome then some r.2.2 else none)) ++
  if Spec.Converged P set (Spec.trAt P set cmpTol w x n) then [.total n] else []

/-- What holds after `n` iterations. -/
structure NotedTRInv (P : TRProblem X V S) (set : TRSettings) (cmpTol : ℝ) (w : S) (st : TCGStopReason) (x : X) (eta : V)
    (param : Option (X → L)) (l : SolverLogger ℝ L) (n : Nat) (t : NotedTR X V S) : Prop where
  reach : TRReach P set cmpTol (trStart P set w st x eta) t.s
  point : t.s.point = Spec.trAt P set cmpTol w x n
  messages : t.notes.map (·.msg) = t.s.trace
  logger : (l.hear param t.notes).1 = ⟨n + 1, some (Spec.trShown P set cmpTol param l.lambda w x n).2.1,
    some (Spec.trShown P set cmpTol param l.lambda w x n).1, (Spec.trShown P set cmpTol param l.lambda w x n).2.2⟩
  log : (l.hear param t.notes).2 = .heading param.isSome :: (List.range n).map (fun j =>
    let r := Spec.trShown P set cmpTol param l.lambda w x (j + 1)
    .iteration (j + 1) (some r.1) (some r.2.1) (if param.isSome then some r.2.2 else none))

theorem trShown_none (P : TRProblem X V S) (set : TRSettings) (cmpTol : ℝ) (last : L) (w : S) (x : X) (n : Nat) :
    (Spec.trShown P set cmpTol none last w x n).2.2 = last := by
  induction n with
  | zero => rfl
  | succ n ih =>
    rw [Spec.trShown]
    split
    · rfl
    · exact ih

theorem notedTRInv_step (P : TRProblem X V S) (hinv : ∀ x e, P.update (P.update x e) (-e) = x) (set : TRSettings)
    (hp : 0 ≤ set.rho_prime) (cmpTol : ℝ) (w : S) (st : TCGStopReason) (x : X) (eta : V) (param : Option (X → L))
    (l : SolverLogger ℝ L) (n : Nat) (t : NotedTR X V S) (h : NotedTRInv P set cmpTol w st x eta param l n t)
    (hs : stoppingCriterion set t.s = none) :
    NotedTRInv P set cmpTol w st x eta param l (n + 1) (trNotedBody P set cmpTol t) := by
  obtain ⟨e1, -, -, -, e5, e6, e7⟩ := tr_iteration_exact P hinv set hp cmpTol w st x eta t.s h.reach
  obtain ⟨c1, c2, c3, c4⟩ := reach_consistent P hinv set cmpTol w st x eta t.s h.reach
  have hc : trCorrection P set t.s = Spec.correction P set (Spec.trAt P set cmpTol w x n) := by
    rw [trCorrection_point P set t.s c1 c2 c3 c4, h.point]
  have hx : t.s.x = (Spec.trAt P set cmpTol w x n).x := congrArg Spec.TRPoint.x h.point
  rw [h.point] at e5 e7
  have e7' : (trBody P set cmpTol t.s).acceptProposal = true ↔ Spec.AcceptedAt P set cmpTol (Spec.trAt P set cmpTol w x n) := by
    rw [e7, hx]
    rfl
  have hf := trBody_facts P set cmpTol t.s
  simp only at hf
  obtain ⟨f1, -, -, -, -, -, -, -, -, -, -, -, -, f14⟩ := hf
  rw [← f1] at f14
  have hsh : Spec.trShown P set cmpTol param l.lambda w x (n + 1) =
      if (trBody P set cmpTol t.s).acceptProposal = true then
        (‖P.grad (Spec.trAt P set cmpTol w x n).x‖, ‖(Spec.correction P set (Spec.trAt P set cmpTol w x n)).2.1‖,
          param.elim l.lambda (· (P.update (Spec.trAt P set cmpTol w x n).x (Spec.correction P set (Spec.trAt P set cmpTol w x n)).2.1)))
      else Spec.trShown P set cmpTol param l.lambda w x n := by
    rw [Spec.trShown]
    by_cases ha : Spec.AcceptedAt P set cmpTol (Spec.trAt P set cmpTol w x n)
    · rw [if_pos ha, if_pos (e7'.2 ha)]
    · rw [if_neg ha, if_neg (fun h => ha (e7'.1 h))]
  refine ⟨.step t.s h.reach hs, ?_, ?_, ?_, ?_⟩
  · show (trBody P set cmpTol t.s).point = _
    rw [e1, h.point, Spec.trAt, Spec.trAt, Function.iterate_succ_apply']
  · show (t.notes ++ trNotes P t.s (trBody P set cmpTol t.s) (trCorrection P set t.s).2.1).map (·.msg) = (trBody P set cmpTol t.s).trace
    rw [List.map_append, h.messages, f14, List.append_assoc, List.append_assoc]
    congr 1
    unfold trNotes
    cases (trBody P set cmpTol t.s).acceptProposal <;> rfl
  · show (l.hear param (t.notes ++ trNotes P t.s (trBody P set cmpTol t.s) (trCorrection P set t.s).2.1)).1 = _
    rw [hear_append, h.logger, hsh, hc]
    unfold trNotes
    cases ha : (trBody P set cmpTol t.s).acceptProposal with
    | true =>
      cases param <;> simp [SolverLogger.hear, SolverLogger.update, e5, e6, hx, trShown_none]
    | false => simp [SolverLogger.hear, SolverLogger.update]
  · show (l.hear param (t.notes ++ trNotes P t.s (trBody P set cmpTol t.s) (trCorrection P set t.s).2.1)).2 = _
    rw [hear_append, h.logger, h.log, List.range_succ, List.map_append, ← List.cons_append]
    simp only [List.map_cons, List.map_nil, hsh]
    rw [hc]
    unfold trNotes
    cases ha : (trBody P set cmpTol t.s).acceptProposal with
    | true =>
      cases param <;> simp [SolverLogger.hear, SolverLogger.update, e5, e6, hx]
    | false => simp [SolverLogger.hear, SolverLogger.update]

theorem trNotedLoop_state (P : TRProblem X V S) (set : TRSettings) (cmpTol : ℝ) (fuel : Nat) (t : NotedTR X V S) :
    (trNotedLoop P set cmpTol fuel t).map (·.s) = trLoop P set cmpTol fuel t.s := by
  induction fuel generalizing t with
  | zero =>
    unfold trNotedLoop trLoop
    cases stoppingCriterion set t.s <;> rfl
  | succ fuel ih =>
    unfold trNotedLoop trLoop
    cases stoppingCriterion set t.s with
    | some r => rfl
    | none => exact ih _

theorem trNotedLoop_inv (P : TRProblem X V S) (hinv : ∀ x e, P.update (P.update x e) (-e) = x) (set : TRSettings)
    (hp : 0 ≤ set.rho_prime) (cmpTol : ℝ) (w : S) (st : TCGStopReason) (x : X) (eta : V) (param : Option (X → L))
    (l : SolverLogger ℝ L) (fuel n : Nat) (t t' : NotedTR X V S) (h : NotedTRInv P set cmpTol w st x eta param l n t)
    (ht : trNotedLoop P set cmpTol fuel t = some t') :
    ∃ n' t1 r, NotedTRInv P set cmpTol w st x eta param l n' t1 ∧ t' = { t1 with s := { t1.s with stop := r } } := by
  induction fuel generalizing n t with
  | zero =>
    unfold trNotedLoop at ht
    cases hc : stoppingCriterion set t.s with
    | some r => rw [hc] at ht; exact ⟨n, t, r, h, (Option.some.inj ht).symm⟩
    | none => rw [hc] at ht; simp at ht
  | succ fuel ih =>
    unfold trNotedLoop at ht
    cases hc : stoppingCriterion set t.s with
    | some r => rw [hc] at ht; exact ⟨n, t, r, h, (Option.some.inj ht).symm⟩
    | none =>
      rw [hc] at ht
      exact ih (n + 1) _ (notedTRInv_step P hinv set hp cmpTol w st x eta param l n t h hc) ht

/-- C93. The log of a run of the trust region solver, exactly: each iteration once, in order, but with the norm of the gradient before
the last accepted iteration, and for rejected iterations the values of the last accepted one; the load factor is that shown by an
earlier run if no iteration has been accepted. -/
theorem tr_log (P : TRProblem X V S) (hinv : ∀ x e, P.update (P.update x e) (-e) = x) (set : TRSettings)
    (hp : 0 ≤ set.rho_prime) (cmpTol : ℝ) (fuel : Nat) (hf : set.maxIter ≤ fuel) (w : S) (st : TCGStopReason) (x : X) (eta : V)
    (param : Option (X → L)) (l : SolverLogger ℝ L) :
    ∃ t, ∃ n : Nat, trNotedSolve P set cmpTol fuel w st x eta = some t ∧ trSolve P set cmpTol fuel w st x eta = some t.s ∧
      t.notes.map (·.msg) = t.s.trace ∧ t.s.info.iterations = n ∧ t.s.x = (Spec.trAt P set cmpTol w x n).x ∧
      Spec.Ends P set (Spec.trAt P set cmpTol w x n) ∧ (∀ j < n, ¬ Spec.Ends P set (Spec.trAt P set cmpTol w x j)) ∧
      (l.hear param t.notes).2 = Spec.trLog P set cmpTol param l.lambda w x n := by
  obtain ⟨s, n, h1, h2, h3, h4, h5, -, -, h8⟩ := tr_run_exact P hinv set hp cmpTol fuel hf w st x eta
  have hmap := trNotedLoop_state P set cmpTol fuel ⟨trStart P set w st x eta, [⟨.init, x, eta, SolverInfo.default⟩]⟩
  unfold trSolve at h1
  rw [Option.map_eq_some_iff] at h1
  obtain ⟨s0, g1, g2⟩ := h1
  simp only at hmap
  rw [g1, Option.map_eq_some_iff] at hmap
  obtain ⟨t0, k1, k2⟩ := hmap
  have hinv0 : NotedTRInv P set cmpTol w st x eta param l 0 ⟨trStart P set w st x eta, [⟨.init, x, eta, SolverInfo.default⟩]⟩ :=
    ⟨.start, rfl, rfl, rfl, rfl⟩
  obtain ⟨n', t1, r, i1, i2⟩ := trNotedLoop_inv P hinv set hp cmpTol w st x eta param l fuel 0 _ t0 hinv0 k1
  have hfin : trFinish t0.s = s := by rw [k2, g2]
  have hit : s.info.iterations = t1.s.outerIter := by
    rw [← hfin, i2]
    unfold trFinish
    simp only
    split <;> rfl
  have hn : n' = n := by
    have : t1.s.outerIter = n' := by
      have e1 : t1.s.outerIter = (Spec.trAt P set cmpTol w x n').iter := congrArg Spec.TRPoint.iter i1.point
      rw [e1]
      unfold Spec.trAt
      clear * -
      induction n' with
      | zero => rfl
      | succ n ih =>
        rw [Function.iterate_succ_apply']
        show ((Spec.next P set cmpTol)^[n] (Spec.startPoint set w x)).iter + 1 = n + 1
        rw [ih]
    rw [this, h5] at hit
    exact_mod_cast hit.symm
  subst hn
  refine ⟨_, n', by unfold trNotedSolve; rw [k1]; rfl, ?_, ?_, ?_, ?_, by rw [Spec.trAt, ← h2]; exact h3, h4, ?_⟩
  · unfold trSolve
    rw [g1, ← k2]
    rfl
  · have ht : s.trace = t1.s.trace ++ if s.info.success = true then [.finishedSucessfully] else [] := by
      rw [← hfin, i2]
      unfold trFinish
      simp only
      split
      · simp
      · simp
    show List.map NRNotification.msg (if (trFinish t0.s).info.success = true then _ else _) = (trFinish t0.s).trace
    rw [hfin, ht]
    have hno : t0.notes = t1.notes := by rw [i2]
    by_cases hs : s.info.success = true
    · rw [if_pos hs, if_pos hs, List.map_append, hno, i1.messages]; rfl
    · rw [if_neg hs, if_neg hs, List.append_nil, hno, i1.messages]
  · show (trFinish t0.s).info.iterations = n'
    rw [hfin, h5]
  · show (trFinish t0.s).x = _
    rw [hfin]
    exact congrArg Spec.TRPoint.x h2
  · show (l.hear param (if (trFinish t0.s).info.success = true then _ else _)).2 = _
    have hno : t0.notes = t1.notes := by rw [i2]
    rw [hfin, hno]
    unfold Spec.trLog
    by_cases hs : s.info.success = true
    · have hcv : Spec.Converged P set (Spec.trAt P set cmpTol w x n') := by
        have := h8.1 hs
        rw [h2] at this
        exact this
      rw [if_pos hs, if_pos hcv, hear_append, i1.log]
      simp only [SolverLogger.hear, SolverLogger.update, h5, List.append_nil]
    · have hcv : ¬ Spec.Converged P set (Spec.trAt P set cmpTol w x n') := by
        intro hc
        apply hs
        rw [h8, h2]
        exact hc
      rw [if_neg hs, if_neg hcv, i1.log, List.append_nil]

/-- The whole property: the rows of a run of the trust region solver show the norm of the gradient after the iteration. -/
def Spec.TRLogCurrent : Prop :=
  ∀ (P : TRProblem ℝ ℝ Unit) (set : TRSettings) (cmpTol : ℝ) (fuel : Nat) (x : ℝ) (t : NotedTR ℝ ℝ Unit)
    (l : SolverLogger ℝ ℝ) (j : Nat) (r d : Option ℝ) (lam : Option ℝ), (∀ x e, P.update (P.update x e) (-e) = x) →
    0 ≤ set.rho_prime → set.maxIter ≤ fuel → trNotedSolve P set cmpTol fuel () .maximumInnerIterations x 0 = some t →
    .iteration (j + 1) r d lam ∈ (l.hear none t.notes).2 → r = some ‖P.grad (Spec.trAt P set cmpTol () x (j + 1)).x‖

theorem parabola_correction : Spec.correction parabola {} (Spec.startPoint {} () 4) = ((), -4, .maximumInnerIterations, 1) := by
  simp only [Spec.correction, parabola, Spec.startPoint, Bool.false_eq_true, false_and, if_false]
  rw [if_pos (by norm_num)]

theorem parabola_accepts : Spec.Accepts {} 0 (parabola.energy 4) (parabola.energy (parabola.update 4 (-4)))
    (Spec.predicted (parabola.grad 4) (parabola.hess 4) (-4)) := by
  have e1 : parabola.energy 4 = some 8 := by simp [parabola]; norm_num
  have e2 : parabola.energy (parabola.update 4 (-4)) = some 0 := by simp [parabola]
  have e3 : Spec.predicted (parabola.grad 4) (parabola.hess 4) (-4 : ℝ) = 8 := by
    simp [Spec.predicted, parabola]; norm_num
  rw [e1, e2, e3]
  exact ratio_ineffective 0 8 0 8 (by norm_num) (by norm_num) (by norm_num)

theorem parabola_first : (Spec.trAt parabola {} 0 () 4 1).x = 0 := by
  have : (Spec.startPoint {} () 4 : Spec.TRPoint ℝ Unit).x = 4 := rfl
  simp only [Spec.trAt, Function.iterate_one, Spec.next]
  rw [parabola_correction, this, if_pos parabola_accepts]
  simp [parabola]

/-- C93. The whole property is false: norms are set and sent before the gradient is computed again. -/
theorem tr_log_not_current : ¬ Spec.TRLogCurrent := by
  intro h
  obtain ⟨t, n, h1, -, -, -, -, h5, -, h6⟩ := tr_log parabola (fun x e => by simp [parabola]) {} (by norm_num) 0 1000 (by norm_num) ()
    .maximumInnerIterations 4 0 (none : Option (ℝ → ℝ)) ⟨0, some 0, some 0, 0⟩
  have hn : n ≠ 0 := by
    rintro rfl
    rcases h5 with h5 | ⟨_, h5, -⟩ | h5
    · exact h5.1 rfl
    · simp at h5
    · have : (Spec.trAt parabola {} 0 () 4 0).iter = 0 := rfl
      rw [this] at h5
      norm_num at h5
  obtain ⟨m, rfl⟩ : ∃ m, n = m + 1 := ⟨n - 1, by omega⟩
  have hshown : Spec.trShown parabola {} 0 (none : Option (ℝ → ℝ)) 0 () 4 1 = (4, 4, 0) := by
    have ha : Spec.AcceptedAt parabola {} 0 (Spec.trAt parabola {} 0 () 4 0) := by
      show Spec.Accepts _ _ _ _ _
      rw [show Spec.trAt parabola {} 0 () 4 0 = Spec.startPoint {} () 4 from rfl, parabola_correction]
      exact parabola_accepts
    rw [Spec.trShown, if_pos ha, show Spec.trAt parabola {} 0 () 4 0 = Spec.startPoint {} () 4 from rfl, parabola_correction]
    simp [parabola, Spec.startPoint]
  have hmem : SolverLine.iteration 1 (some 4) (some 4) none ∈
      ((⟨0, some 0, some 0, 0⟩ : SolverLogger ℝ ℝ).hear none t.notes).2 := by
    rw [h6, Spec.trLog]
    refine List.mem_cons_of_mem _ (List.mem_append_left _ (List.mem_map.2 ⟨0, List.mem_range.2 (by omega), ?_⟩))
    show SolverLine.iteration 1 (some (Spec.trShown parabola {} 0 none 0 () 4 1).1)
      (some (Spec.trShown parabola {} 0 (none : Option (ℝ → ℝ)) 0 () 4 1).2.1) none = _
    rw [hshown]
  have := h parabola {} 0 1000 4 t ⟨0, some 0, some 0, 0⟩ 0 (some 4) (some 4) none (fun x e => by simp [parabola]) (by norm_num)
    (by norm_num) h1 hmem
  rw [parabola_first] at this
  simp [parabola] at this

end

/-! ### Control routines -/

section
variable {K V N W P Q : Type} [Field K]

/-- What is shown of a step. -/
def Spec.stepLines (j : Nat) (stepSize : K) : List (ControlLine K) := [.step ((j : Int) - 1) stepSize, .dashes, .bar]

/-- C93. The log of a run of load control: a start, the steps that were made from -1 on with the step sizes given to the solver, and,
exactly after success, an end with the sum of the iterations. -/
theorem load_control_log (n : Nat) (hn : 0 < n) (step : K) (S : NLSolver K V N W) (w : W) (d : Dom K V) (name : String) :
    let r := (LoadControl.mk (n : Int) step).run S w d
    ∃ m, Spec.SolvesMade S step w d n m ∧ (r.info.success = true → m = n + 1) ∧
      r.trace.filterMap (fun e => match e with
        | .solve _ s => some s
        | _ => none) = (List.range m).map (fun j => if j = 0 then 0 else step) ∧
      r.log name = [.bar, .started name, .bar] ++ (List.range m).flatMap (fun j => Spec.stepLines j (if j = 0 then 0 else step)) ++
        if r.info.success = true then
          [.ended name, .totalIterations ((List.range m).map fun k => (Spec.loadInfo S step w d k).iterations).sum, .elapsed]
        else [] := by
  intro r
  obtain ⟨m, ls, h1, -, h3, -, h5, -, h7⟩ := load_control_run n hn step S w d
  have hev : ∀ k, (Spec.loadEvents S step w d k).flatMap (fun e => match e with
      | .notify m _ ls ss => controlUpdate name r.info.totalIterations m ls ss
      | .solve _ _ => []) = Spec.stepLines k (if k = 0 then 0 else step) := by
    intro k
    cases k with
    | zero => simp [Spec.loadEvents, controlUpdate, Spec.stepLines]
    | succ k => simp [Spec.loadEvents, controlUpdate, Spec.stepLines]
  have hso : ∀ k, (Spec.loadEvents S step w d k).filterMap (fun e => match e with
      | .solve _ s => some s
      | _ => none) = [if k = 0 then 0 else step] := by
    intro k
    cases k <;> simp [Spec.loadEvents]
  refine ⟨m, h1, h3, ?_, ?_⟩
  · show List.filterMap _ r.trace = _
    rw [h7]
    have : List.flatMap (fun k => [if k = 0 then 0 else step]) (List.range m) = (List.range m).map fun k => if k = 0 then 0 else step := by
      rw [← List.map_eq_flatMap]
    rw [← this]
    by_cases hs : r.info.success = true
    · have hs' := hs
      simp only [r] at hs'
      simp only [hs', if_true, List.filterMap_append, List.filterMap_cons, List.filterMap_nil, List.append_nil, List.filterMap_flatMap, hso]
    · have hs' := hs
      simp only [r] at hs'
      simp only [hs', List.filterMap_append, List.filterMap_cons, List.filterMap_flatMap, hso]
      simp
  · show List.flatMap _ r.trace = _
    rw [h7, List.flatMap_append, List.flatMap_cons, List.flatMap_assoc]
    congr 1
    · exact congrArg (_ ++ ·) (List.flatMap_congr fun k _ => hev k)
    · by_cases hs : r.info.success = true
      · have hs' := hs
        simp only [r] at hs'
        rw [if_pos hs, if_pos hs', ← h5]
        rfl
      · have hs' := hs
        simp only [r] at hs'
        rw [if_neg hs, if_neg hs']
        rfl

variable [Zero V]

/-- The step size shown for a solve of path following. -/
def Spec.shownStepSize (C : PathCollab K V N W P Q) (stepSize : K) (w : W) (p : P) (q : Q) (d : Dom K V) : Nat → Option K
  | 0 => some 0
  | 1 => some stepSize
  | k + 2 => (Spec.pathSolve C stepSize w p q d (k + 2)).map (·.argsBefore.stepSize)

/-- C93. The log of a run of path following, which is like that of load control; from the third solve on the step sizes shown are those the
solver is called with. -/
theorem path_following_log (n : Nat) (hn : 0 < n) (stepSize : K) (C : PathCollab K V N W P Q) (w : W) (p : P) (q : Q) (d : Dom K V)
    (name : String) (s : PFState K V N W P Q) (h : (PathFollowing.mk (n : Int) stepSize).run C w p q d = some s) :
    ∃ m r, Spec.PathMade C stepSize w p q d n m r ∧ (s.info.success = true → m = n + 1) ∧
      ∃ sizes : Nat → K, (∀ j < m, Spec.shownStepSize C stepSize w p q d j = some (sizes j)) ∧
      s.log name = [.bar, .started name, .bar] ++ (List.range m).flatMap (fun j => Spec.stepLines j (sizes j)) ++
        if s.info.success = true then
          [.ended name, .totalIterations ((Spec.pathInfos C stepSize w p q d m).map (·.iterations)).sum, .elapsed]
        else [] := by
  rcases path_following_run n hn stepSize C w p q d with ⟨h1, -⟩ | ⟨m, r, s', ls, ss, h1, h2, h3, h4, -, -, -, h8, h9⟩
  · rw [h1] at h
    simp at h
  rw [h1] at h
  obtain rfl := Option.some.inj h
  have hall : ∀ j < m, ∃ r', Spec.pathSolve C stepSize w p q d j = some r' := by
    intro j hj
    by_cases hjm : j + 1 < m
    · obtain ⟨r', g, -⟩ := h2.2.2.2.1 j hjm
      exact ⟨r', g⟩
    · exact ⟨r, by rw [show j = m - 1 by omega]; exact h2.2.2.1⟩
  refine ⟨m, r, h2, h4, fun j => (Spec.shownStepSize C stepSize w p q d j).getD 0, ?_, ?_⟩
  · intro j hj
    match j with
    | 0 => rfl
    | 1 => rfl
    | j + 2 =>
      obtain ⟨r', g⟩ := hall (j + 2) hj
      simp only [Spec.shownStepSize, g, Option.map_some, Option.getD_some]
  · show List.flatMap _ s'.trace = _
    rw [h9, List.flatMap_append, List.flatMap_cons, List.flatMap_assoc]
    congr 1
    · congr 1
      refine List.flatMap_congr fun j hj => ?_
      obtain ⟨r', g⟩ := hall j (List.mem_range.1 hj)
      obtain ⟨r'', g'⟩ := hall (j - 1) (by have := List.mem_range.1 hj; omega)
      unfold Spec.pathEvents
      rw [g, g']
      match j with
      | 0 => simp [Spec.pathEventsOf, controlUpdate, Spec.stepLines, Spec.shownStepSize]
      | 1 => simp [Spec.pathEventsOf, controlUpdate, Spec.stepLines, Spec.shownStepSize]
      | j + 2 =>
        simp only [Spec.shownStepSize, g, Option.map_some, Option.getD_some]
        simp [Spec.pathEventsOf, controlUpdate, Spec.stepLines]
        omega
    · by_cases hs : s'.info.success = true
      · rw [if_pos hs, if_pos hs, ← h8]
        simp [controlUpdate]
      · rw [if_neg hs, if_neg hs]
        rfl

end

/-- The step sizes a log shows. -/
def Spec.sizesOf {K : Type} (l : List (ControlLine K)) : List K := l.filterMap fun
  | .step _ s => some s
  | _ => none

/-- The step sizes the solver is called with. -/
def Spec.sizesUsed {K V N : Type} (t : List (PEvent K V N)) : List K := t.filterMap fun
  | .solve _ a => some a.stepSize
  | _ => none

/-- The whole property: the log of path following shows the step sizes the solver is called with. -/
def Spec.PathLogSizes : Prop :=
  ∀ (n : Nat) (stepSize : ℚ) (C : PathCollab ℚ ℚ ℚ Nat Bool Unit) (d : Dom ℚ ℚ) (s : PFState ℚ ℚ ℚ Nat Bool Unit), 0 < n →
    (PathFollowing.mk (n : Int) stepSize).run C 0 false () d = some s → Spec.sizesOf (s.log "") = Spec.sizesUsed s.trace

/-- C93. The whole property is false: the first solve is called with the step size of the routine, and 0 is shown. -/
theorem pathLogSizes_false : ¬ Spec.PathLogSizes := by
  intro h
  have h1 : (((PathFollowing.mk (3 : Int) (1 : ℚ)).run examplePath 0 false () ⟨0, 5⟩).map fun s =>
      (Spec.sizesOf (s.log ""), Spec.sizesUsed s.trace)) = some ([0, 1, 1, 1], [1, 1, 1, 1]) := by decide +kernel
  rw [Option.map_eq_some_iff] at h1
  obtain ⟨s, h2, h3⟩ := h1
  have := h 3 1 examplePath ⟨0, 5⟩ s (by norm_num) h2
  rw [Prod.mk.injEq] at h3
  rw [h3.1, h3.2] at this
  exact absurd this (by decide)

/-- The run of `exampleNR` from 10, with a logger that has been used before. -/
example : ((exampleNR.solve ⟨1, 20, 0⟩ 20 10 0 0).map fun s => ((⟨7, none, some 3, 5⟩ : SolverLogger ℤ ℤ).hear (some fun x => x) s.trace).2) =
    some [.heading true, .iteration 1 (some 15) (some 5) (some 5), .iteration 2 (some 3) (some 2) (some 3),
      .iteration 3 (some 0) (some 1) (some 2), .total 3] := by decide +kernel

example : ((exampleSub.notedSolve ⟨1 / 10, 20⟩ 20 5 0 SubsidiaryArgs.setZero 0).map fun t =>
    ((⟨7, none, some 3, 5⟩ : SolverLogger ℚ ℚ).hear (some Dom.lam) t.notes).2) =
    some [.heading true, .iteration 1 (some 0) (some 10) (some 2), .total 1] := by decide +kernel

example : (LoadControl.run (LoadControl.mk 2 (1 / 2)) exampleSolver 0 ⟨0, 7⟩).log "a" = [.bar, .started "a", .bar, .step (-1) 0, .dashes,
    .bar, .step 0 (1 / 2), .dashes, .bar, .step 1 (1 / 2), .dashes, .bar, .ended "a", .totalIterations 6, .elapsed] := by decide +kernel

example : (LoadControl.run (LoadControl.mk 4 4) exampleSolver 0 ⟨0, 7⟩).log "a" = [.bar, .started "a", .bar, .step (-1) 0, .dashes,
    .bar, .step 0 4, .dashes, .bar] := by decide +kernel

example : ((PathFollowing.mk (2 : Int) (1 : ℚ)).run examplePath 0 false () ⟨0, 5⟩).map (·.log "a") =
    some [.bar, .started "a", .bar, .step (-1) 0, .dashes, .bar, .step 0 1, .dashes, .bar, .step 1 1, .dashes, .bar, .ended "a",
      .totalIterations 6, .elapsed] := by decide +kernel

/-! ### Files -/

section
variable {V : Type}

/-- C93. The files of a writer, exactly: one for each solution, with consecutive numbers; a file contains the current values of the
solutions of all events so far. -/
theorem vtk_files (w : VtkWriter) (es : List (Nat × (Nat → Option V))) :
    (w.hear es).length = es.length ∧ ∀ k (hk : k < es.length), (w.hear es)[k]? =
      some ⟨w.step + k, (w.fields ++ (es.take (k + 1)).map (·.1)).map es[k].2⟩ := by
  induction es generalizing w with
  | nil => exact ⟨rfl, fun k hk => absurd hk (Nat.not_lt_zero k)⟩
  | cons e es ih =>
    obtain ⟨h1, h2⟩ := ih (w.update e.1 e.2).1
    refine ⟨by simp [VtkWriter.hear, h1], fun k hk => ?_⟩
    cases k with
    | zero => simp [VtkWriter.hear, VtkWriter.update]
    | succ k =>
      have := h2 k (by simpa using hk)
      simp only [VtkWriter.hear, List.getElem?_cons_succ, this]
      simp [VtkWriter.update]
      omega

/-- C93. The last field of a file is the solution of its event, and the file is well-defined exactly if the domains of all events so far
still exist. -/
theorem vtk_file_defined (es : List (Nat × (Nat → Option V))) (k : Nat) (hk : k < es.length) :
    ∃ f, (VtkWriter.hear ⟨[], 0⟩ es)[k]? = some f ∧ f.number = k ∧ f.fields.length = k + 1 ∧ f.fields.getLast? = some (es[k].2 es[k].1) ∧
      ((∀ v ∈ f.fields, v ≠ none) ↔ ∀ j (hj : j ≤ k), es[k].2 (es[j]'(by omega)).1 ≠ none) := by
  refine ⟨_, (vtk_files _ es).2 k hk, by simp, by simp; omega, ?_, ?_⟩
  · rw [List.nil_append, List.getLast?_map, List.getLast?_map, List.getLast?_take]
    simp [hk]
  · simp only [List.nil_append, List.map_map, List.mem_map, forall_exists_index, and_imp, forall_apply_eq_imp_iff₂, Function.comp]
    constructor
    · intro h j hj
      exact h _ (List.mem_take_iff_getElem.2 ⟨j, by omega, rfl⟩)
    · intro h e he
      obtain ⟨j, hj, rfl⟩ := List.mem_take_iff_getElem.1 he
      exact h j (by omega)

end

/-- What a writer that has subscribed to a load control is told: the domain is that of the caller, called `dom`. -/
def Spec.solutionEvents {K V N W : Type} (dom : Nat) (s : LCState K V N W) : List (Nat × (Nat → Option V)) :=
  s.trace.filterMap fun
    | .notify .solutionChanged d _ _ => some (dom, fun i => if i = dom then some d.x else none)
    | _ => none

/-- C93. The files of a run of load control: one for each solve that was made, file `k` holding the solution after solve `k`, `k + 1`
times. -/
theorem load_control_files {K V N W : Type} [Field K] (n : Nat) (hn : 0 < n) (step : K) (S : NLSolver K V N W) (w : W) (d : Dom K V)
    (dom : Nat) : ∃ m, Spec.SolvesMade S step w d n m ∧
      VtkWriter.hear ⟨[], 0⟩ (Spec.solutionEvents dom ((LoadControl.mk (n : Int) step).run S w d)) =
        (List.range m).map fun k => ⟨k, List.replicate (k + 1) (some (Spec.loadAfter S step w d k).x)⟩ := by
  obtain ⟨m, ls, h1, -, h3, -, h5, -, h7⟩ := load_control_run n hn step S w d
  refine ⟨m, h1, ?_⟩
  have hev : ∀ k, (Spec.loadEvents S step w d k).filterMap (fun e => match e with
      | .notify .solutionChanged d _ _ => some (dom, fun i => if i = dom then some d.x else none)
      | _ => none) = [((dom, fun i => if i = dom then some (Spec.loadAfter S step w d k).x else none) : Nat × (Nat → Option V))] := by
    intro k
    cases k <;> simp [Spec.loadEvents]
  have he : Spec.solutionEvents dom ((LoadControl.mk (n : Int) step).run S w d) =
      (List.range m).map fun k => (dom, fun i => if i = dom then some (Spec.loadAfter S step w d k).x else none) := by
    unfold Spec.solutionEvents
    rw [h7, List.map_eq_flatMap, ← List.flatMap_congr fun k _ => hev k, ← List.filterMap_flatMap, List.filterMap_append,
      List.filterMap_cons_none rfl]
    split
    · exact List.append_nil _
    · exact List.append_nil _
  rw [he]
  refine List.ext_getElem? fun k => ?_
  by_cases hk : k < m
  · rw [(vtk_files _ _).2 k (by simpa using hk)]
    have : ((List.range m).map fun k => ((dom, fun i => if i = dom then some (Spec.loadAfter S step w d k).x else none) :
        Nat × (Nat → Option V))).take (k + 1) = (List.range (k + 1)).map fun k =>
          (dom, fun i => if i = dom then some (Spec.loadAfter S step w d k).x else none) := by
      rw [← List.map_take, List.take_range, min_eq_left (by omega)]
    rw [this]
    simp [hk, List.map_const', Function.comp_def]
  · rw [List.getElem?_eq_none, List.getElem?_eq_none]
    · simpa using hk
    · rw [(vtk_files _ _).1]
      simpa using hk

/-- The whole property: a file contains one field, which is the solution of its event. -/
def Spec.VtkOneField : Prop :=
  ∀ (n : Nat) (step : ℚ) (S : NLSolver ℚ ℚ ℚ Nat) (d : Dom ℚ ℚ), 0 < n →
    ∀ f ∈ VtkWriter.hear ⟨[], 0⟩ (Spec.solutionEvents 0 ((LoadControl.mk (n : Int) step).run S 0 d)), f.fields.length = 1

/-- C93. The whole property is false: the writer keeps the fields of all earlier steps. -/
theorem vtkOneField_false : ¬ Spec.VtkOneField := by
  intro h
  have := h 4 (1 / 2) exampleSolver ⟨0, 7⟩ (by norm_num) ⟨1, [some 1, some 1]⟩ (by decide +kernel)
  simp at this

example : VtkWriter.hear ⟨[], 0⟩ (Spec.solutionEvents 3 ((LoadControl.mk 2 (1 / 2)).run exampleSolver 0 ⟨0, 7⟩)) =
    [⟨0, [some 0]⟩, ⟨1, [some 1, some 1]⟩, ⟨2, [some 2, some 2, some 2]⟩] := by decide +kernel

/-- A second run with another domain when the first does not exist any more. -/
example : VtkWriter.hear ⟨[], 0⟩ [(0, fun i => if i = 0 then some 4 else none), (1, fun i => if i = 1 then some 5 else none)] =
    [⟨0, [some 4]⟩, ⟨1, [none, some 5]⟩] := by decide

end Ikarus
