import Verif.Control.LoadModel
import Verif.Solver.SubsidiaryModel

/-!
Model of `PathFollowing::run` (ikarus/controlroutines/pathfollowing.hh, pathfollowing.inl).

The nonlinear solver, the path following strategy and the step size adaption are arbitrary functions
with states of their own (`W`, `P`, `Q`).  An exception of the strategy or the adaption ends the run,
which is the result `none`.
-/

namespace Ikarus

section
variable {K V N W P Q : Type}

/-- Observable events. -/
inductive PEvent (K V N : Type)
  | notify (m : ControlMessage) (d : Dom K V) (a : SubsidiaryArgs K V) (loadStep : Int)
      (stepSize : K)
  | solve (d : Dom K V) (a : SubsidiaryArgs K V)
  | initialPrediction
  | intermediatePrediction (currentStep : Nat)
  | adapt (i : SolverInfo N)

/-- The collaborators of `PathFollowing`, ikarus/controlroutines/pathfollowing.hh:221-226. -/
structure PathCollab (K V N W P Q : Type) where
  /-- `nonLinearSolver_->solve(req, pathFollowingType_, subsidiaryArgs_)`. -/
  solve : W → P → Dom K V → SubsidiaryArgs K V → W × Dom K V × SubsidiaryArgs K V × SolverInfo N
  initialPrediction : P → Dom K V → SubsidiaryArgs K V → P × Dom K V × SubsidiaryArgs K V
  intermediatePrediction : P → Dom K V → SubsidiaryArgs K V →
    Option (P × Dom K V × SubsidiaryArgs K V)
  adaptiveStepSizing : Q → SolverInfo N → SubsidiaryArgs K V → Option (Q × SubsidiaryArgs K V)

/-- The members of `PathFollowing` that are numbers. -/
structure PathFollowing (K : Type) where
  steps : Int
  stepSize : K

/-- ikarus/controlroutines/pathfollowing.hh:185-194; `none` stands for the exception. -/
def PathFollowing.mk? (steps : Int) (stepSize : K) : Option (PathFollowing K) :=
  if steps ≤ 0 then none else some ⟨steps, stepSize⟩

/-- Local variables of `run`, states of the collaborators and events so far. -/
structure PFState (K V N W P Q : Type) where
  dom : Dom K V
  args : SubsidiaryArgs K V
  solver : W
  pf : P
  ass : Q
  info : ControlInfo N
  solverInfo : SolverInfo N
  loadStep : Int
  stepSize : K
  trace : List (PEvent K V N)

namespace PFState

/-- `this->notify(m, state)`. -/
def notify (s : PFState K V N W P Q) (m : ControlMessage) : PFState K V N W P Q :=
  { s with trace := s.trace ++ [.notify m s.dom s.args s.loadStep s.stepSize] }

/-- `solverInfo = nonLinearSolver_->solve(...)` followed by
ikarus/controlroutines/pathfollowing.hh:229-235. -/
def solveAndUpdate (s : PFState K V N W P Q) (C : PathCollab K V N W P Q) : PFState K V N W P Q :=
  let s := { s with trace := s.trace ++ [PEvent.solve s.dom s.args] }
  let r := C.solve s.solver s.pf s.dom s.args
  let s := { s with solver := r.1, dom := r.2.1, args := r.2.2.1, solverInfo := r.2.2.2 }
  let s := { s with info := { s.info with
    solverInfos := s.info.solverInfos ++ [s.solverInfo],
    totalIterations := s.info.totalIterations + s.solverInfo.iterations } }
  (s.notify .solutionChanged).notify .stepEnded

end PFState

namespace PathFollowing
variable [Zero K] [Zero V]

/-- ikarus/controlroutines/pathfollowing.inl:59-69, the loop body up to the check of success. -/
def step (C : PathCollab K V N W P Q) (ls : Nat) (s : PFState K V N W P Q) :
    Option (PFState K V N W P Q) :=
  let s := { s with args := { s.args with currentStep := ls }, loadStep := ls }
  let s := { s with trace := s.trace ++ [PEvent.adapt s.solverInfo] }
  (C.adaptiveStepSizing s.ass s.solverInfo s.args).bind fun q =>
  let s := { s with ass := q.1, args := q.2 }
  let s := { s with trace := s.trace ++ [PEvent.intermediatePrediction s.args.currentStep] }
  (C.intermediatePrediction s.pf s.dom s.args).map fun p =>
  let s := { s with pf := p.1, dom := p.2.1, args := p.2.2 }
  let s := { s with stepSize := s.args.stepSize }
  let s := s.notify .stepStarted
  s.solveAndUpdate C

/-- ikarus/controlroutines/pathfollowing.inl:58-76, from step `ls` on with `n` steps to go. -/
def loop (C : PathCollab K V N W P Q) : Nat → Nat → PFState K V N W P Q →
    Option (PFState K V N W P Q)
  | 0, _, s =>
    let s := s.notify .controlEnded
    some { s with info := { s.info with success := true } }
  | n + 1, ls, s =>
    (step C ls s).bind fun s => if !s.solverInfo.success then some s else loop C n (ls + 1) s

/-- ikarus/controlroutines/pathfollowing.inl:28-77. -/
def run (c : PathFollowing K) (C : PathCollab K V N W P Q) (w : W) (p : P) (q : Q) (d : Dom K V) :
    Option (PFState K V N W P Q) :=
  let s : PFState K V N W P Q := ⟨d, SubsidiaryArgs.setZero, w, p, q, ⟨false, [], 0⟩,
    SolverInfo.default, -1, 0, []⟩
  let s := s.notify .controlStarted
  let s := { s with args := { s.args with stepSize := c.stepSize } }
  let s := { s with loadStep := -1 }
  let s := s.notify .stepStarted
  let s := s.solveAndUpdate C
  if !s.solverInfo.success then some s
  else
    let s := { s with loadStep := 0, stepSize := c.stepSize }
    let s := s.notify .stepStarted
    let s := { s with trace := s.trace ++ [PEvent.initialPrediction] }
    let p := C.initialPrediction s.pf s.dom s.args
    let s := { s with pf := p.1, dom := p.2.1, args := p.2.2 }
    let s := s.solveAndUpdate C
    if !s.solverInfo.success then some s
    else loop C (c.steps.toNat - 1) 1 s

end PathFollowing
end
end Ikarus
