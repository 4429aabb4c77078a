import Verif.Solver.NewtonModel
import Mathlib.Algebra.Field.Defs
import Mathlib.Data.Int.Cast.Defs

/-!
Model of `LoadControl` (ikarus/controlroutines/loadcontrol.hh, loadcontrol.inl).

The nonlinear solver is an arbitrary function with a state of its own; the domain is the pair of
load factor and solution vector.
-/

namespace Ikarus

/-- ikarus/utils/broadcaster/broadcastermessages.hh:18. -/
inductive ControlMessage
  | controlStarted | controlEnded | stepStarted | stepEnded | solutionChanged
  deriving DecidableEq, Repr

section
variable {K V N W : Type}

/-- The part of `FERequirements` used here: load factor and global solution. -/
structure Dom (K V : Type) where
  lam : K
  x : V
  deriving DecidableEq, Repr

/-- Observable events of a control routine: notifications with the state a listener sees, and calls
of the nonlinear solver. -/
inductive CEvent (K V : Type)
  | notify (m : ControlMessage) (d : Dom K V) (loadStep : Int) (stepSize : K)
  | solve (d : Dom K V) (stepSize : K)
  deriving DecidableEq, Repr

/-- ikarus/controlroutines/controlinfos.hh:22-32, without the name. -/
structure ControlInfo (N : Type) where
  success : Bool
  solverInfos : List (SolverInfo N)
  totalIterations : Int
  deriving DecidableEq, Repr

/-- A nonlinear solver with state `W`. -/
structure NLSolver (K V N W : Type) where
  /-- `nonLinearSolver_->solve(x, stepSize)`. -/
  solve : W → Dom K V → K → W × Dom K V × SolverInfo N
  /-- `x.syncParameterAndGlobalSolution(nonLinearSolver_->updateFunction())`. -/
  sync : Dom K V → Dom K V

/-- The members of `LoadControl`, ikarus/controlroutines/loadcontrol.hh:100-104. -/
structure LoadControl (K : Type) where
  loadSteps : Int
  stepSize : K

/-- ikarus/controlroutines/loadcontrol.hh:72-80; `none` stands for the exception. -/
def LoadControl.mk? [Field K] (loadSteps : Int) (tbegin tend : K) : Option (LoadControl K) :=
  if loadSteps ≤ 0 then none else some ⟨loadSteps, (tend - tbegin) / (loadSteps : K)⟩

/-- The local variables of `run`, the state of the solver and the events so far. -/
structure LCState (K V N W : Type) where
  dom : Dom K V
  solver : W
  info : ControlInfo N
  loadStep : Int
  stepSize : K
  trace : List (CEvent K V)

namespace LCState

/-- `this->notify(m, state)`. -/
def notify (s : LCState K V N W) (m : ControlMessage) : LCState K V N W :=
  { s with trace := s.trace ++ [.notify m s.dom s.loadStep s.stepSize] }

/-- ikarus/controlroutines/loadcontrol.hh:106-112. -/
def updateAndNotifyControlInfo (s : LCState K V N W) (i : SolverInfo N) : LCState K V N W :=
  let s := { s with info := { s.info with
    solverInfos := s.info.solverInfos ++ [i],
    totalIterations := s.info.totalIterations + i.iterations } }
  (s.notify .solutionChanged).notify .stepEnded

end LCState

namespace LoadControl
variable [Field K]

/-- ikarus/controlroutines/loadcontrol.inl:54-57. -/
def predictor (c : LoadControl K) (d : Dom K V) : Dom K V := { d with lam := d.lam + c.stepSize }

/-- ikarus/controlroutines/loadcontrol.inl:39-47, the loop body, with the solver information of this
step. -/
def step (c : LoadControl K) (S : NLSolver K V N W) (ls : Int) (s : LCState K V N W) :
    LCState K V N W × SolverInfo N :=
  let s := { s with loadStep := ls }
  let s := s.notify .stepStarted
  let s := { s with dom := c.predictor s.dom }
  let s := { s with trace := s.trace ++ [CEvent.solve s.dom c.stepSize] }
  let r := S.solve s.solver s.dom c.stepSize
  let s := { s with solver := r.1, dom := r.2.1 }
  let s := if r.2.2.iterations = 0 then { s with dom := S.sync s.dom } else s
  (s.updateAndNotifyControlInfo r.2.2, r.2.2)

/-- ikarus/controlroutines/loadcontrol.inl:38-51, from load step `ls` on with `n` steps to go. -/
def loop (c : LoadControl K) (S : NLSolver K V N W) : Nat → Int → LCState K V N W → LCState K V N W
  | 0, _, s =>
    let s := s.notify .controlEnded
    { s with info := { s.info with success := true } }
  | n + 1, ls, s =>
    let r := c.step S ls s
    if !r.2.success then r.1 else loop c S n (ls + 1) r.1

/-- ikarus/controlroutines/loadcontrol.inl:21-52. -/
def run (c : LoadControl K) (S : NLSolver K V N W) (w : W) (d : Dom K V) : LCState K V N W :=
  let s : LCState K V N W := ⟨d, w, ⟨false, [], 0⟩, -1, 0, []⟩
  let s := s.notify .controlStarted
  let s := s.notify .stepStarted
  let s := { s with trace := s.trace ++ [CEvent.solve s.dom 0] }
  let r := S.solve s.solver s.dom 0
  let s := { s with solver := r.1, dom := r.2.1 }
  let s := s.updateAndNotifyControlInfo r.2.2
  if !r.2.2.success then s
  else
    let s := { s with stepSize := c.stepSize }
    c.loop S c.loadSteps.toNat 0 s

end LoadControl
end
end Ikarus
