import Verif.Control.PathModel
import Verif.TrustRegion.Model

/-!
Model of the listeners that report runs: `NonLinearSolverLogger` (ikarus/utils/listener/nonlinearsolverlogger.hh), `ControlLogger`
(controllogger.hh, controllogger.cpp) and `ControlSubsamplingVertexVTKWriter` (controlvtkwriter.hh), and of what the solvers with a
subsidiary function and with trust regions show them.

The format of the lines is left out: a line is the values it shows.
-/

namespace Ikarus

/-! ### `NonLinearSolverLogger` -/

/-- The lines, nonlinearsolverlogger.hh:70-93: the heading of a run, an iteration, and the number of iterations.  The load factor is
shown unless the domain is a vector. -/
inductive SolverLine (N L : Type)
  | heading (withLambda : Bool)
  | iteration (ite : Nat) (rNorm dNorm : Option N) (lambda : Option L)
  | total (n : Int)
  deriving DecidableEq, Repr

/-- The members, nonlinearsolverlogger.hh:64-67; `none` stands for infinity. -/
structure SolverLogger (N L : Type) where
  iters : Nat
  dNorm : Option N
  rNorm : Option N
  lambda : L
  deriving DecidableEq, Repr

section
variable {X C N L : Type}

/-- nonlinearsolverlogger.hh:36-61 with 70-93.  `param` is `state.domain.parameter()`, `none` if the domain is a vector. -/
def SolverLogger.update [Zero N] (param : Option (X → L)) (l : SolverLogger N L) (n : NRNotification X C N) :
    SolverLogger N L × List (SolverLine N L) :=
  match n.msg with
  | .init => ({ l with iters := 1, rNorm := some 0, dNorm := some 0 }, [.heading param.isSome])
  | .iterationEnded =>
    ({ l with iters := l.iters + 1 }, [.iteration l.iters l.rNorm l.dNorm (if param.isSome then some l.lambda else none)])
  | .residualnormUpdated => ({ l with rNorm := n.info.residualNorm }, [])
  | .solutionChanged =>
    match param with
    | some p => ({ l with lambda := p n.x }, [])
    | none => (l, [])
  | .correctionnormUpdated => ({ l with dNorm := n.info.correctionNorm }, [])
  | .finishedSucessfully => (l, [.total n.info.iterations])
  | _ => (l, [])

/-- What a logger prints during a list of notifications. -/
def SolverLogger.hear [Zero N] (param : Option (X → L)) : SolverLogger N L → List (NRNotification X C N) →
    SolverLogger N L × List (SolverLine N L)
  | l, [] => (l, [])
  | l, n :: ns =>
    let r := l.update param n
    let t := hear param r.1 ns
    (t.1, r.2 ++ t.2)

end

/-! ### What the solver with a subsidiary function shows -/

section
variable {K V A N : Type} [Field K] [AddCommGroup V] [Module K V]

/-- The loop variables with what listeners have seen: the correction, the information and the notifications. -/
structure NotedLoop (K V A N : Type) where
  s : SubsidiaryLoop K V A N
  correction : V
  info : SolverInfo N
  notes : List (NRNotification (Dom K V) V N)

namespace SubsidiaryProblem

/-- ikarus/solver/nonlinearsolver/newtonraphsonwithscalarsubsidiaryfunction.hh:254-308 with the notifications; `none` if the increments
are not finite. -/
def notedBody [DecidableEq K] (P : SubsidiaryProblem K V A N) (t : NotedLoop K V A N) : Option (NotedLoop K V A N) :=
  (P.increments t.s).map fun i =>
  let s := P.body t.s
  let dom : Dom K V := ⟨t.s.lam, t.s.x⟩
  let dom' : Dom K V := ⟨s.lam, s.x⟩
  let info1 := { t.info with correctionNorm := some (P.sqrt (P.dot i.1 i.1 + i.2 * i.2)), residualNorm := s.rNorm }
  let info2 := { info1 with iterations := s.iter }
  { s := s, correction := i.1, info := info2,
    notes := t.notes ++ [⟨.iterationStarted, dom, t.correction, t.info⟩, ⟨.correctionUpdated, dom, i.1, t.info⟩,
      ⟨.solutionChanged, dom', i.1, info1⟩, ⟨.correctionnormUpdated, dom', i.1, info1⟩, ⟨.residualnormUpdated, dom', i.1, info1⟩,
      ⟨.iterationEnded, dom', i.1, info2⟩] }

/-- Lines 254-308 with at most `fuel` iterations. -/
def notedLoop [DecidableEq K] (P : SubsidiaryProblem K V A N) (set : SubsidiarySettings N) :
    Nat → NotedLoop K V A N → Option (NotedLoop K V A N)
  | 0, t => if P.cond set t.s then none else some t
  | fuel + 1, t => if P.cond set t.s then (P.notedBody t).bind (notedLoop P set fuel) else some t

/-- Lines 210-251. -/
def notedStart (P : SubsidiaryProblem K V A N) (lam : K) (x : V) (args : SubsidiaryArgs K V) (corr : V) : NotedLoop K V A N :=
  let s := P.start lam x args
  ⟨s, corr, ⟨true, s.rNorm, none, -1⟩, [⟨.init, ⟨lam, x⟩, corr, SolverInfo.default⟩]⟩

/-- Lines 310-314. -/
def notedFinish (set : SubsidiarySettings N) (t : NotedLoop K V A N) : NotedLoop K V A N :=
  let s := finish set t.s
  let info := { t.info with success := s.success, iterations := s.iter }
  { t with
    s := s, info := info
    notes := if s.success then t.notes ++ [⟨.finishedSucessfully, ⟨s.lam, s.x⟩, t.correction, info⟩] else t.notes }

/-- Lines 207-316. -/
def notedSolve [DecidableEq K] (P : SubsidiaryProblem K V A N) (set : SubsidiarySettings N) (fuel : Nat) (lam : K) (x : V)
    (args : SubsidiaryArgs K V) (corr : V) : Option (NotedLoop K V A N) :=
  (P.notedLoop set fuel (P.notedStart lam x args corr)).map (notedFinish set)

end SubsidiaryProblem
end

/-! ### What the trust region solver shows -/

noncomputable section
variable {X V S : Type} [NormedAddCommGroup V] [InnerProductSpace ℝ V]

/-- The state of the solver with the notifications so far. -/
structure NotedTR (X V S : Type) where
  s : TRState X V S
  notes : List (NRNotification X V ℝ)

/-- The notifications of an iteration from `s` to `s'`, ikarus/solver/nonlinearsolver/trustregion.hh:263 and 398-415: when they are sent,
the domain holds the proposal, and norms are those set in lines 398-399. -/
def trNotes (P : TRProblem X V S) (s s' : TRState X V S) (eta : V) : List (NRNotification X V ℝ) :=
  let proposal := P.update s.x eta
  [⟨.iterationStarted, s.x, s.eta, s.info⟩, ⟨.correctionUpdated, proposal, eta, s'.info⟩] ++
    (if s'.acceptProposal then [⟨.correctionnormUpdated, proposal, eta, s'.info⟩, ⟨.residualnormUpdated, proposal, eta, s'.info⟩,
      ⟨.solutionChanged, proposal, eta, s'.info⟩] else []) ++
    [⟨.iterationEnded, s'.x, s'.eta, s'.info⟩]

/-- ikarus/solver/nonlinearsolver/trustregion.hh:263-416. -/
def trNotedBody (P : TRProblem X V S) (set : TRSettings) (cmpTol : ℝ) (t : NotedTR X V S) : NotedTR X V S :=
  let s' := trBody P set cmpTol t.s
  ⟨s', t.notes ++ trNotes P t.s s' (trCorrection P set t.s).2.1⟩

/-- ikarus/solver/nonlinearsolver/trustregion.hh:262-416 with at most `fuel` iterations. -/
def trNotedLoop (P : TRProblem X V S) (set : TRSettings) (cmpTol : ℝ) : Nat → NotedTR X V S → Option (NotedTR X V S)
  | 0, t =>
    match stoppingCriterion set t.s with
    | some r => some { t with s := { t.s with stop := r } }
    | none => none
  | fuel + 1, t =>
    match stoppingCriterion set t.s with
    | some r => some { t with s := { t.s with stop := r } }
    | none => trNotedLoop P set cmpTol fuel (trNotedBody P set cmpTol t)

/-- ikarus/solver/nonlinearsolver/trustregion.hh:233-428. -/
def trNotedSolve (P : TRProblem X V S) (set : TRSettings) (cmpTol : ℝ) (fuel : Nat) (w : S) (stopTCG : TCGStopReason) (x : X)
    (eta : V) : Option (NotedTR X V S) :=
  (trNotedLoop P set cmpTol fuel ⟨trStart P set w stopTCG x eta, [⟨.init, x, eta, SolverInfo.default⟩]⟩).map fun t =>
    let s := trFinish t.s
    ⟨s, if s.info.success then t.notes ++ [⟨.finishedSucessfully, s.x, s.eta, s.info⟩] else t.notes⟩

end

/-! ### `ControlLogger` -/

/-- The lines, controllogger.cpp:13-32; the elapsed time is left out. -/
inductive ControlLine (K : Type)
  | bar
  | dashes
  | started (name : String)
  | step (loadStep : Int) (stepSize : K)
  | ended (name : String)
  | totalIterations (n : Int)
  | elapsed
  deriving DecidableEq, Repr

/-- controllogger.hh:41-58.  `total` is `state.information.totalIterations` at the end of the run, which is not changed after
`CONTROL_ENDED`. -/
def controlUpdate {K : Type} (name : String) (total : Int) (m : ControlMessage) (loadStep : Int) (stepSize : K) : List (ControlLine K) :=
  match m with
  | .stepEnded => [.bar]
  | .controlStarted => [.bar, .started name, .bar]
  | .stepStarted => [.step loadStep stepSize, .dashes]
  | .controlEnded => [.ended name, .totalIterations total, .elapsed]
  | .solutionChanged => []

/-- What the logger prints during a run of load control. -/
def LCState.log {K V N W : Type} (name : String) (s : LCState K V N W) : List (ControlLine K) :=
  s.trace.flatMap fun
    | .notify m _ ls ss => controlUpdate name s.info.totalIterations m ls ss
    | .solve _ _ => []

/-- What the logger prints during a run of path following. -/
def PFState.log {K V N W P Q : Type} (name : String) (s : PFState K V N W P Q) : List (ControlLine K) :=
  s.trace.flatMap fun
    | .notify m _ _ ls ss => controlUpdate name s.info.totalIterations m ls ss
    | _ => []

/-! ### `ControlSubsamplingVertexVTKWriter` -/

/-- The members that change, controlvtkwriter.hh:101-103: the domains whose solutions the functions in `vtkWriter_` refer to, and the
number of the next file.  `makeDiscreteGlobalBasisFunction` (dune-functions) called with an lvalue keeps a reference. -/
structure VtkWriter where
  fields : List Nat
  step : Nat
  deriving DecidableEq, Repr

/-- A file: the number in its name and the values of its fields; `none` for values read from an object that does not exist any more. -/
structure VtkFile (V : Type) where
  number : Nat
  fields : List (Option V)
  deriving DecidableEq, Repr

/-- controlvtkwriter.hh:87-99 with message `SOLUTION_CHANGED`; `dom` is the domain of the state and `mem` the solutions of the domains that
exist at that moment. -/
def VtkWriter.update {V : Type} (w : VtkWriter) (dom : Nat) (mem : Nat → Option V) : VtkWriter × VtkFile V :=
  let fields := w.fields ++ [dom]
  (⟨fields, w.step + 1⟩, ⟨w.step, fields.map mem⟩)

/-- The files of a list of events; other messages do nothing. -/
def VtkWriter.hear {V : Type} : VtkWriter → List (Nat × (Nat → Option V)) → List (VtkFile V)
  | _, [] => []
  | w, e :: es =>
    let r := w.update e.1 e.2
    r.2 :: r.1.hear es

end Ikarus
