import Mathlib.Data.Int.Init

/-!
Model of `NewtonRaphson` (ikarus/solver/nonlinearsolver/newtonraphson.hh).

The residual function, its derivative, the linear solver and the update function are arbitrary
functions.  The comparison `rNorm > tol` is an arbitrary Boolean relation `gt`, so that norms that
are not a number are included.  The linear solver is a function of matrix and right hand side: the
pattern analysis of line 212 is not modelled (see C57).
-/

namespace Ikarus

/-- ikarus/utils/broadcaster/broadcastermessages.hh:23-24. -/
inductive SolverMessage
  | init | iterationStarted | iterationEnded | residualnormUpdated | correctionnormUpdated
  | correctionUpdated | solutionChanged | finishedSucessfully
  deriving DecidableEq, Repr

/-- ikarus/solver/nonlinearsolver/solverinfos.hh:20-32; `none` stands for the initial infinity. -/
structure SolverInfo (N : Type) where
  success : Bool
  residualNorm : Option N
  correctionNorm : Option N
  iterations : Int
  deriving DecidableEq, Repr

/-- ikarus/solver/nonlinearsolver/solverinfos.hh:28-31, the default values. -/
def SolverInfo.default {N : Type} : SolverInfo N := ⟨false, none, none, -1⟩

/-- ikarus/solver/nonlinearsolver/newtonraphson.hh:33-38, the settings. -/
structure NRSettings (N : Type) where
  tol : N
  maxIter : Int
  minIter : Int

/-- ikarus/solver/nonlinearsolver/newtonraphson.hh:180-185; `none` stands for the exception. -/
def NRSettings.setup {N : Type} (s : NRSettings N) : Option (NRSettings N) :=
  if s.minIter > s.maxIter then none else some s

/-- The handling of inhomogeneous Dirichlet conditions, lines 214-217 and 237-238. -/
structure NRIdbc (X R S : Type) where
  /-- `rx += idbcForceFunction_(x) * stepSize`. -/
  addForce : X → S → R → R
  /-- `x.syncParameterAndGlobalSolution(updateFunction_)`. -/
  sync : X → X

/-- The members of `NewtonRaphson`, ikarus/solver/nonlinearsolver/newtonraphson.hh:296-302.
`X` domain, `R` residuals, `A` Jacobians, `C` corrections, `N` norms, `S` step sizes. -/
structure NRProblem (X R A C N S : Type) where
  residual : X → R
  jacobian : X → A
  /-- `floatingPointNorm` of residuals. -/
  rnorm : R → N
  /-- `floatingPointNorm` of corrections. -/
  cnorm : C → N
  /-- `rNorm > tol` -/
  gt : N → N → Bool
  /-- `linearSolver_.factorize(Ax); linearSolver_.solve(correction_, -rx)` or
  `-linearSolver_(rx, Ax)`, lines 221-226. -/
  linSolve : A → R → C
  /-- `updateFunction_(x.globalSolution(), correction_)`, lines 232-235. -/
  update : X → C → X
  /-- `none` for `IDBCForceDefault`. -/
  idbc : Option (NRIdbc X R S)

/-- What a listener sees: the message and the state of lines 200-201. -/
structure NRNotification (X C N : Type) where
  msg : SolverMessage
  x : X
  correction : C
  info : SolverInfo N
  deriving DecidableEq, Repr

/-- The local variables of `solve`. -/
structure NRLoop (X R A C N : Type) where
  x : X
  rx : R
  Ax : A
  rNorm : N
  iter : Nat
  correction : C
  info : SolverInfo N
  trace : List (NRNotification X C N)

section
variable {X R A C N S : Type}

/-- `this->notify(m, state)`. -/
def NRLoop.notify (s : NRLoop X R A C N) (m : SolverMessage) : NRLoop X R A C N :=
  { s with trace := s.trace ++ [⟨m, s.x, s.correction, s.info⟩] }

namespace NRProblem

/-- ikarus/solver/nonlinearsolver/newtonraphson.hh:219, the loop condition. -/
def cond (P : NRProblem X R A C N S) (set : NRSettings N) (s : NRLoop X R A C N) : Bool :=
  (P.gt s.rNorm set.tol && decide ((s.iter : Int) < set.maxIter))
    || decide ((s.iter : Int) < set.minIter)

/-- ikarus/solver/nonlinearsolver/newtonraphson.hh:220-249, the loop body. -/
def body (P : NRProblem X R A C N S) (s : NRLoop X R A C N) : NRLoop X R A C N :=
  let s := s.notify .iterationStarted
  let s := { s with correction := P.linSolve s.Ax s.rx }
  let s := { s with info := { s.info with correctionNorm := some (P.cnorm s.correction) } }
  let s := s.notify .correctionUpdated
  let s := { s with x := P.update s.x s.correction }
  let s := match P.idbc with
    | none => s
    | some i => { s with x := i.sync s.x }
  let s := s.notify .correctionnormUpdated
  let s := s.notify .solutionChanged
  let s := { s with rx := P.residual s.x }
  let s := { s with Ax := P.jacobian s.x }
  let s := { s with rNorm := P.rnorm s.rx }
  let s := { s with info := { s.info with residualNorm := some s.rNorm } }
  let s := s.notify .residualnormUpdated
  let s := { s with iter := s.iter + 1 }
  let s := { s with info := { s.info with iterations := s.iter } }
  s.notify .iterationEnded

/-- ikarus/solver/nonlinearsolver/newtonraphson.hh:219-250, at most `fuel` iterations; `none` if the
loop has not ended by then. -/
def loop (P : NRProblem X R A C N S) (set : NRSettings N) :
    Nat → NRLoop X R A C N → Option (NRLoop X R A C N)
  | 0, s => if P.cond set s then none else some s
  | fuel + 1, s => if P.cond set s then loop P set fuel (P.body s) else some s

/-- ikarus/solver/nonlinearsolver/newtonraphson.hh:199-217, before the loop; `corr` is the value the
member `correction_` has on entry. -/
def start (P : NRProblem X R A C N S) (x : X) (stepSize : S) (corr : C) : NRLoop X R A C N :=
  let info : SolverInfo N := SolverInfo.default
  let trace : List (NRNotification X C N) := [⟨.init, x, corr, info⟩]
  let info := { info with success := true }
  let rx := P.residual x
  let Ax := P.jacobian x
  let rNorm := P.rnorm rx
  let info := { info with residualNorm := some rNorm }
  match P.idbc with
  | none => ⟨x, rx, Ax, rNorm, 0, corr, info, trace⟩
  | some i =>
    let rx := i.addForce x stepSize rx
    ⟨x, rx, Ax, P.rnorm rx, 0, corr, info, trace⟩

/-- ikarus/solver/nonlinearsolver/newtonraphson.hh:251-256, after the loop. -/
def finish (set : NRSettings N) (s : NRLoop X R A C N) : NRLoop X R A C N :=
  let s := if (s.iter : Int) = set.maxIter then { s with info := { s.info with success := false } }
    else s
  let s := { s with info := { s.info with iterations := s.iter } }
  if s.info.success then s.notify .finishedSucessfully else s

/-- ikarus/solver/nonlinearsolver/newtonraphson.hh:196-257. -/
def solve (P : NRProblem X R A C N S) (set : NRSettings N) (fuel : Nat) (x : X) (stepSize : S)
    (corr : C) : Option (NRLoop X R A C N) :=
  (P.loop set fuel (P.start x stepSize corr)).map (finish set)

end NRProblem
end
end Ikarus
