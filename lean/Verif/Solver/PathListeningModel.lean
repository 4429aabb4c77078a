import Verif.Solver.ListeningModel
import Verif.Solver.SubsidiaryModel

/-!
Model of `NewtonRaphsonWithSubsidiaryFunction::solve`
(ikarus/solver/nonlinearsolver/newtonraphsonwithscalarsubsidiaryfunction.hh:203-316) with finite elements that hold internal
variables and listen to the solver.

Residual and Jacobian are assembled from the elements, hence they depend on the internal variables the elements hold at that moment
and may throw.  Everything else is as in `Solver/SubsidiaryModel.lean`, without inhomogeneous Dirichlet conditions; the list of
notifications is left out, what a notification does to the elements is modelled instead.  A run in which increments are not finite is
an outcome of its own.
-/

namespace Ikarus.Listening

/-- What a call of `solve` does; `notFinite` if an increment is a quotient by zero, `unfinished` if the fuel of the model did not
suffice. -/
inductive PathOutcome (α : Type)
  | done (a : α)
  | threw
  | notFinite
  | unfinished

/-- The members of the solver (lines 354-361), the subsidiary function and the elements.  `ε` elements, `W` internal variables, `V`
vectors, `A` Jacobians, `N` norms. -/
structure PathProblem (ε W V A N : Type) where
  residual : (ε → W) → V × ℝ → Option V
  jacobian : (ε → W) → V × ℝ → Option A
  /-- `linearSolver_.factorize(Ax); linearSolver_.solve(sol2d, residual2d)`, one column. -/
  linSolve : A → V → V
  dot : V → V → ℝ
  /-- `sqrt` of a sum of squares. -/
  sqrt : ℝ → N
  gt : N → N → Bool
  update : V → V → V
  /-- The subsidiary function with the arguments it reads; it writes `f`, `dfdDD`, `dfdDlambda`. -/
  subsidiary : V × ℝ → SubsidiaryArgs ℝ V → ℝ × Option V × Option ℝ
  /-- The callback of an element. -/
  callback : ε → W → SolverMessage → V × ℝ → V → Option W
  /-- The elements that listen, in the order of their subscriptions. -/
  subs : List ε

/-- The local variables of `solve` and the elements. -/
structure PathLoop (ε W V A N : Type) where
  w : ε → W
  x : V × ℝ
  rx : V
  Ax : A
  args : SubsidiaryArgs ℝ V
  rNorm : N
  iter : Nat
  correction : V
  info : SolverInfo N

variable {ε W V A N : Type} [DecidableEq ε]

namespace PathProblem

/-- `Broadcaster::notify` (broadcaster.hh:60-68): every listener is called; each element changes its own variables. -/
def notify (P : PathProblem ε W V A N) (w : ε → W) (m : SolverMessage) (x : V × ℝ) (c : V) : Option (ε → W) :=
  P.subs.foldlM (fun w e => (P.callback e (w e) m x c).map (Function.update w e)) w

/-- `subsidiaryFunction(req, *this, subsidiaryArgs)`. -/
def callSubsidiary (P : PathProblem ε W V A N) (x : V × ℝ) (a : SubsidiaryArgs ℝ V) : SubsidiaryArgs ℝ V :=
  let r := P.subsidiary x a
  { a with f := r.1, dfdDD := r.2.1, dfdDlambda := r.2.2 }

/-- Line 254. -/
def cond (P : PathProblem ε W V A N) (set : SubsidiarySettings N) (s : PathLoop ε W V A N) : Bool :=
  P.gt s.rNorm set.tol && decide ((s.iter : Int) < set.maxIter)

variable [AddCommGroup V] [Module ℝ V]

open Classical in
/-- Lines 258-277: the increments; `none` if they are not finite. -/
noncomputable def increments (P : PathProblem ε W V A N) (Fext0 : V) (s : PathLoop ε W V A N) : Option (V × ℝ) :=
  let deltaDR := P.linSolve s.Ax (-s.rx)
  let deltaDL := P.linSolve s.Ax Fext0
  match s.args.dfdDD, s.args.dfdDlambda with
  | some dfdDD, some dfdDlambda =>
    let den := P.dot dfdDD deltaDL + dfdDlambda
    if den = 0 then none
    else
      let deltalambda := (-s.args.f - P.dot dfdDD deltaDR) / den
      some (deltaDR + deltalambda • deltaDL, deltalambda)
  | _, _ => none

/-- Lines 255 and 278-307 with the increments. -/
noncomputable def body (P : PathProblem ε W V A N) (deltaD : V) (deltalambda : ℝ) (s : PathLoop ε W V A N) :
    Option (PathLoop ε W V A N) := do
  let w ← P.notify s.w .iterationStarted s.x s.correction
  let correction := deltaD
  let w ← P.notify w .correctionUpdated s.x correction
  let x := P.update s.x.1 deltaD
  let args := { s.args with DD := s.args.DD + deltaD }
  let lambda := s.x.2 + deltalambda
  let args := { args with Dlambda := args.Dlambda + deltalambda }
  let x := (x, lambda)
  let dNorm := P.sqrt (P.dot deltaD deltaD + deltalambda * deltalambda)
  let info := { s.info with correctionNorm := some dNorm }
  let rx ← P.residual w x
  let Ax ← P.jacobian w x
  let args := P.callSubsidiary x args
  let rNorm := P.sqrt (P.dot rx rx + args.f * args.f)
  let info := { info with residualNorm := some rNorm }
  let w ← P.notify w .solutionChanged x correction
  let w ← P.notify w .correctionnormUpdated x correction
  let w ← P.notify w .residualnormUpdated x correction
  let iter := s.iter + 1
  let info := { info with iterations := iter }
  let w ← P.notify w .iterationEnded x correction
  return ⟨w, x, rx, Ax, args, rNorm, iter, correction, info⟩

/-- Lines 254-308, at most `fuel` iterations. -/
noncomputable def loop (P : PathProblem ε W V A N) (set : SubsidiarySettings N) (Fext0 : V) :
    Nat → PathLoop ε W V A N → PathOutcome (PathLoop ε W V A N)
  | 0, s => if P.cond set s then .unfinished else .done s
  | fuel + 1, s =>
    if P.cond set s then
      match P.increments Fext0 s with
      | none => .notFinite
      | some i =>
        match P.body i.1 i.2 s with
        | none => .threw
        | some s => loop P set Fext0 fuel s
    else .done s

/-- Lines 210-251: `Fext0` and the variables before the loop.  The residual for `Fext0` is evaluated with the internal variables the
elements hold. -/
def start (P : PathProblem ε W V A N) (w : ε → W) (x : V × ℝ) (args : SubsidiaryArgs ℝ V) (corr : V) :
    Option (V × PathLoop ε W V A N) := do
  let w ← P.notify w .init x corr
  let r0 ← P.residual w (0, 1)
  let Fext0 := -r0
  let rx ← P.residual w x
  let Ax ← P.jacobian w x
  let args := P.callSubsidiary x args
  let rNorm := P.sqrt (P.dot rx rx)
  return (Fext0, ⟨w, x, rx, Ax, args, rNorm, 0, corr, ⟨true, some rNorm, none, -1⟩⟩)

/-- Lines 310-315. -/
def finish (P : PathProblem ε W V A N) (set : SubsidiarySettings N) (s : PathLoop ε W V A N) : Option (PathLoop ε W V A N) := do
  let info := if (s.iter : Int) = set.maxIter then { s.info with success := false } else s.info
  let info := { info with iterations := s.iter }
  if info.success then
    let w ← P.notify s.w .finishedSucessfully s.x s.correction
    return { s with w := w, info := info }
  else return { s with info := info }

/-- Lines 203-316. -/
noncomputable def solve (P : PathProblem ε W V A N) (set : SubsidiarySettings N) (fuel : Nat) (w : ε → W) (x : V × ℝ)
    (args : SubsidiaryArgs ℝ V) (corr : V) : PathOutcome (PathLoop ε W V A N) :=
  match P.start w x args corr with
  | none => .threw
  | some (Fext0, s) =>
    match P.loop set Fext0 fuel s with
    | .done s =>
      match P.finish set s with
      | none => .threw
      | some s => .done s
    | .threw => .threw
    | .notFinite => .notFinite
    | .unfinished => .unfinished

end PathProblem

/-- Path following for elements with enhanced strains and `DBCOption::Full`; each element has subscribed as often as it is in
`subs`. -/
noncomputable def Mesh.path {n d q m Nd : Nat} [Fintype ε] (M : Mesh ε n d q m Nd) (subs : List ε)
    (linSolve : Matrix (Fin Nd) (Fin Nd) ℝ → (Fin Nd → ℝ) → Fin Nd → ℝ) (sqrt : ℝ → N) (gt : N → N → Bool)
    (subsidiary : (Fin Nd → ℝ) × ℝ → SubsidiaryArgs ℝ (Fin Nd → ℝ) → ℝ × Option (Fin Nd → ℝ) × Option ℝ) :
    PathProblem ε (Fin m → ℝ) (Fin Nd → ℝ) (Matrix (Fin Nd) (Fin Nd) ℝ) N where
  residual := M.residual
  jacobian := M.jacobian
  linSolve := linSolve
  dot := fun u v => ∑ i, u i * v i
  sqrt := sqrt
  gt := gt
  update x c := x + c
  subsidiary := subsidiary
  callback e alpha msg x c := easCallback (M.law e) (M.gps e) alpha msg (M.at x.1 e) Nd (M.at c e) Nd
  subs := subs

end Ikarus.Listening
