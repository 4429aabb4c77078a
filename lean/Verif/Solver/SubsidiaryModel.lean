import Verif.Solver.NewtonModel
import Mathlib.Algebra.Field.Defs
import Mathlib.Algebra.Module.Basic

/-!
Model of `NewtonRaphsonWithSubsidiaryFunction`
(ikarus/solver/nonlinearsolver/newtonraphsonwithscalarsubsidiaryfunction.hh).

Numbers are elements of a field `K`.  Values that are not finite in the code (division by zero) are
`none`; once the increments are not finite the solution is not finite, its residual norm is not a
number and compares false with the tolerance.
-/

namespace Ikarus

section
variable {K V A N : Type}

/-- ikarus/controlroutines/pathfollowingfunctions.hh:48-69; the derivatives are `none` if they are
not finite. -/
structure SubsidiaryArgs (K V : Type) where
  stepSize : K
  DD : V
  Dlambda : K
  f : K
  dfdDD : Option V
  dfdDlambda : Option K
  currentStep : Nat

/-- ikarus/controlroutines/pathfollowingfunctions.hh:58-68; `resizeLike` is implied by the type. -/
def SubsidiaryArgs.setZero [Zero K] [Zero V] : SubsidiaryArgs K V :=
  ⟨0, 0, 0, 0, some 0, some 0, 0⟩

/-- The members of the solver (lines 354-361) and the subsidiary function.  `x`: solution vector,
`lam`: load factor. -/
structure SubsidiaryProblem (K V A N : Type) where
  residual : K → V → V
  jacobian : K → V → A
  /-- `linearSolver_.factorize(Ax); linearSolver_.solve(sol2d, residual2d)`, one column. -/
  linSolve : A → V → V
  dot : V → V → K
  /-- `sqrt` of a sum of squares. -/
  sqrt : K → N
  /-- `rNorm > tol` for numbers. -/
  gt : N → N → Bool
  update : V → V → V
  /-- The subsidiary function with the arguments it reads; it writes `f`, `dfdDD`, `dfdDlambda`. -/
  subsidiary : K → V → SubsidiaryArgs K V → K × Option V × Option K
  /-- Force function and synchronisation for inhomogeneous Dirichlet conditions. -/
  idbc : Option ((K → V → V) × (K → V → V))

/-- ikarus/solver/nonlinearsolver/newtonraphsonwithscalarsubsidiaryfunction.hh:30-34. -/
structure SubsidiarySettings (N : Type) where
  tol : N
  maxIter : Int

/-- The local variables of `solve`. `rNorm = none`: not a number; `finite = false`: the solution
contains values that are not finite. -/
structure SubsidiaryLoop (K V A N : Type) where
  lam : K
  x : V
  rx : V
  Ax : A
  args : SubsidiaryArgs K V
  rNorm : Option N
  iter : Nat
  success : Bool
  finite : Bool
  trace : List SolverMessage

namespace SubsidiaryProblem
variable [Field K] [AddCommGroup V] [Module K V]

/-- `subsidiaryFunction(req, *this, subsidiaryArgs)`. -/
def callSubsidiary (P : SubsidiaryProblem K V A N) (lam : K) (x : V) (a : SubsidiaryArgs K V) :
    SubsidiaryArgs K V :=
  let r := P.subsidiary lam x a
  { a with f := r.1, dfdDD := r.2.1, dfdDlambda := r.2.2 }

/-- Lines 225-232: the external load, minus the residual at load factor one and zero solution. -/
def Fext0 (P : SubsidiaryProblem K V A N) : V := -(P.residual 1 0)

/-- Lines 260-263: the second right hand side. -/
def loadColumn (P : SubsidiaryProblem K V A N) (lam : K) (x : V) : V :=
  match P.idbc with
  | none => P.Fext0
  | some i => P.Fext0 - i.1 lam x

/-- Lines 258-277: the increments; `none` if they are not finite. -/
def increments [DecidableEq K] (P : SubsidiaryProblem K V A N) (s : SubsidiaryLoop K V A N) :
    Option (V × K) :=
  let deltaDR := P.linSolve s.Ax (-s.rx)
  let deltaDL := P.linSolve s.Ax (P.loadColumn s.lam s.x)
  match s.args.dfdDD, s.args.dfdDlambda with
  | some dfdDD, some dfdDlambda =>
    let den := P.dot dfdDD deltaDL + dfdDlambda
    if den = 0 then none
    else
      let deltalambda := (-s.args.f - P.dot dfdDD deltaDR) / den
      some (deltaDR + deltalambda • deltaDL, deltalambda)
  | _, _ => none

/-- Line 254, the loop condition. -/
def cond (P : SubsidiaryProblem K V A N) (set : SubsidiarySettings N)
    (s : SubsidiaryLoop K V A N) : Bool :=
  (match s.rNorm with
    | some r => P.gt r set.tol
    | none => false) && decide ((s.iter : Int) < set.maxIter)

/-- The six messages of an iteration, lines 255, 280, 301-303, 307. -/
def messages : List SolverMessage :=
  [.iterationStarted, .correctionUpdated, .solutionChanged, .correctionnormUpdated,
    .residualnormUpdated, .iterationEnded]

/-- Lines 254-308, the loop body.  The messages are appended at once; the correction norm is not
recorded. -/
def body [DecidableEq K] (P : SubsidiaryProblem K V A N) (s : SubsidiaryLoop K V A N) :
    SubsidiaryLoop K V A N :=
  match P.increments s with
  | none =>
    { s with rNorm := none, iter := s.iter + 1, finite := false, trace := s.trace ++ messages }
  | some (deltaD, deltalambda) =>
    let x := P.update s.x deltaD
    let args := { s.args with DD := s.args.DD + deltaD }
    let lam := s.lam + deltalambda
    let args := { args with Dlambda := args.Dlambda + deltalambda }
    let x := match P.idbc with
      | none => x
      | some i => i.2 lam x
    let rx := P.residual lam x
    let Ax := P.jacobian lam x
    let args := P.callSubsidiary lam x args
    let rNorm := P.sqrt (P.dot rx rx + args.f * args.f)
    { lam := lam, x := x, rx := rx, Ax := Ax, args := args, rNorm := some rNorm, iter := s.iter + 1,
      success := s.success, finite := s.finite, trace := s.trace ++ messages }

/-- Lines 254-308 with at most `fuel` iterations. -/
def loop [DecidableEq K] (P : SubsidiaryProblem K V A N) (set : SubsidiarySettings N) :
    Nat → SubsidiaryLoop K V A N → Option (SubsidiaryLoop K V A N)
  | 0, s => if P.cond set s then none else some s
  | fuel + 1, s => if P.cond set s then loop P set fuel (P.body s) else some s

/-- Lines 210-251, before the loop. The norm does not contain the subsidiary function (line 244). -/
def start (P : SubsidiaryProblem K V A N) (lam : K) (x : V) (args : SubsidiaryArgs K V) :
    SubsidiaryLoop K V A N :=
  let rx := P.residual lam x
  { lam := lam, x := x, rx := rx, Ax := P.jacobian lam x, args := P.callSubsidiary lam x args,
    rNorm := some (P.sqrt (P.dot rx rx)), iter := 0, success := true, finite := true,
    trace := [.init] }

/-- Lines 310-314, after the loop. -/
def finish (set : SubsidiarySettings N) (s : SubsidiaryLoop K V A N) : SubsidiaryLoop K V A N :=
  let s := if (s.iter : Int) = set.maxIter then { s with success := false } else s
  if s.success then { s with trace := s.trace ++ [.finishedSucessfully] } else s

/-- ikarus/solver/nonlinearsolver/newtonraphsonwithscalarsubsidiaryfunction.hh:207-316. -/
def solve [DecidableEq K] (P : SubsidiaryProblem K V A N) (set : SubsidiarySettings N)
    (fuel : Nat) (lam : K) (x : V) (args : SubsidiaryArgs K V) : Option (SubsidiaryLoop K V A N) :=
  (P.loop set fuel (P.start lam x args)).map (finish set)

end SubsidiaryProblem
end
end Ikarus
