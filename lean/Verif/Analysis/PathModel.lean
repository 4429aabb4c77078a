import Verif.Analysis.Model

/-!
Model of path following of complete structures: `PathFollowing::run` (ikarus/controlroutines/pathfollowing.inl) with the
solver `NewtonRaphsonWithSubsidiaryFunction`, the three path following functions, and elements, assembler and Dirichlet
values as in Verif/Analysis/Model.lean.

Unlike Verif/Control/PathModel.lean and Verif/Solver/SubsidiaryModel.lean, where solution and increments are elements of one
vector space, vectors are lists here, with the sizes they have in the code: with the option Reduced the increments the solver
computes are shorter than the solution.  What goes wrong on the way is a `PathFault`, which ends the run.
-/

namespace Ikarus

/-- What ends a run. -/
inductive PathFault
  /-- Vectors of different sizes meet, or an index is too large for its vector: an Eigen assertion, and undefined behaviour
  where assertions are off. -/
  | size
  /-- A value that is not finite is used.  Simplification: the code goes on with values that are not finite (C20). -/
  | notFinite
  /-- An evaluation or an update is undefined. -/
  | undefined
  /-- An exception of the step size adaption or of the path following function. -/
  | exception
  /-- The program does not compile: `static_assert` in ikarus/controlroutines/pathfollowingfunctions.hh:33-37. -/
  | rejected
  deriving DecidableEq

/-- An evaluation that may be undefined. -/
def evaluated {α : Type} : Option α → Except PathFault α
  | some a => .ok a
  | none => .error .undefined

/-- Sum of vectors in Eigen. -/
def addSized (u v : List ℝ) : Except PathFault (List ℝ) :=
  if u.length = v.length then .ok (List.zipWith (· + ·) u v) else .error .size

/-- `u.dot(v)` in Eigen. -/
def dotSized (u v : List ℝ) : Except PathFault ℝ :=
  if u.length = v.length then .ok (List.zipWith (· * ·) u v).sum else .error .size

/-- `u.squaredNorm()`. -/
def sqNorm (u : List ℝ) : ℝ := (u.map fun a => a * a).sum

/-- `a / b`. -/
noncomputable def quotient (a b : ℝ) : Except PathFault ℝ := if b = 0 then .error .notFinite else .ok (a / b)

/-- ikarus/controlroutines/pathfollowingfunctions.hh:48-56; `finite` tells whether the derivatives are finite. -/
structure PathArgs where
  stepSize : ℝ
  DD : List ℝ
  Dlambda : ℝ
  f : ℝ
  dfdDD : List ℝ
  dfdDlambda : ℝ
  finite : Bool
  currentStep : Nat

/-- ikarus/controlroutines/pathfollowingfunctions.hh:58-68, for a vector with `n` entries. -/
def PathArgs.setZero (n : Nat) : PathArgs := ⟨0, List.replicate n 0, 0, 0, List.replicate n 0, 0, true, 0⟩

/-- The path following functions with their members; `predicted` is `computedInitialPredictor`.
ikarus/controlroutines/pathfollowingfunctions.hh:199-202, 280, 367-368.  Simplification: controlled indices are not negative. -/
inductive PathStrategy
  | arcLength (psi : ℝ) (predicted : Bool)
  | loadControl (predicted : Bool)
  | displacementControl (controlled : List Nat) (predicted : Bool)

/-- What a user sets up for path following: the structure; `spd`, the linear solver of the initial prediction of arc length
(ikarus/controlroutines/common.hh:39-54); the number of steps, the step size and the step size adaption, which computes a new
step size (ikarus/controlroutines/adaptivestepsizing.hh:25-41, 75-86) from the iterations of the solve before. -/
structure PathAnalysis extends Analysis where
  spd : DMat ℝ → List ℝ → List ℝ
  steps : Nat
  stepSize : ℝ
  adapt : (iterations : Nat) → PathArgs → Except PathFault ℝ

namespace PathAnalysis

variable (a : PathAnalysis)

/-- ikarus/controlroutines/common.hh:63-76. -/
noncomputable def idbcIncrement (lam : ℝ) (x : List ℝ) (Dlambda : ℝ) : Except PathFault (List ℝ) :=
  if a.withForce then evaluated (idbcIncrement? a.dv ⟨x, lam⟩ Dlambda) else .ok (List.replicate x.length 0)

/-- `req.syncParameterAndGlobalSolution(updateFunction_)` if there is a force function,
ikarus/solver/nonlinearsolver/newtonraphsonwithscalarsubsidiaryfunction.hh:288-289. -/
noncomputable def synchronised (lam : ℝ) (x : List ℝ) : Except PathFault (List ℝ) :=
  if a.withForce then evaluated (a.sync ⟨lam, some x⟩).x else .ok x

/-- `v(controlled)`: all indices must lie in the vector. -/
def inRange (controlled : List Nat) (v : List ℝ) : Except PathFault Unit :=
  if controlled.all (· < v.length) then .ok () else .error .size

/-- `v(controlled).norm()`. -/
noncomputable def normAt (controlled : List Nat) (v : List ℝ) : ℝ :=
  Real.sqrt (sqNorm (controlled.map fun i => v.getD i 0))

/-- The path following function as the solver calls it: ikarus/controlroutines/pathfollowingfunctions.hh:103-115 (arc length),
231-236 (load control), 317-324 (displacement control). -/
noncomputable def subsidiary (p : PathStrategy) (lam : ℝ) (x : List ℝ) (args : PathArgs) : Except PathFault PathArgs :=
  match p with
  | .arcLength psi predicted =>
    (a.idbcIncrement lam x args.Dlambda).bind fun idbcDelta =>
    let root : ℝ := Real.sqrt (sqNorm args.DD + sqNorm idbcDelta + psi * psi * args.Dlambda * args.Dlambda)
    let args : PathArgs := { args with f := root - args.stepSize }
    if predicted = false then .ok { args with dfdDD := args.dfdDD.map fun _ => 0, dfdDlambda := 0, finite := true }
    else
      let Dhat0 := idbcDelta.map fun d => d / args.Dlambda
      .ok { args with
        dfdDD := args.DD.map fun d => d / root
        dfdDlambda := (sqNorm Dhat0 + psi * psi) * args.Dlambda / root
        finite := decide (root ≠ 0 ∧ args.Dlambda ≠ 0) }
  | .loadControl _ =>
    if a.withForce then .error .rejected
    else .ok { args with
      f := args.Dlambda - args.stepSize, dfdDD := args.dfdDD.map fun _ => 0, dfdDlambda := 1, finite := true }
  | .displacementControl controlled _ =>
    if a.withForce then .error .rejected
    else
      (inRange controlled args.DD).bind fun _ =>
      let norm : ℝ := normAt controlled args.DD
      let args : PathArgs := { args with f := norm - args.stepSize, dfdDlambda := 0, dfdDD := args.dfdDD.map fun _ => 0 }
      (inRange controlled args.dfdDD).map fun _ =>
      { args with
        dfdDD := controlled.foldl (fun v i => v.set i (args.DD.getD i 0 / norm)) args.dfdDD
        finite := decide (norm ≠ 0 ∨ controlled = []) }

/-- The variables of `solve`, ikarus/solver/nonlinearsolver/newtonraphsonwithscalarsubsidiaryfunction.hh:217-252. -/
structure State where
  lam : ℝ
  x : List ℝ
  rx : List ℝ
  Ax : DMat ℝ
  args : PathArgs
  rNorm : ℝ
  iter : Nat

/-- The right-hand side of the load, lines 225-230 and 260-263. -/
noncomputable def loadColumn (lam : ℝ) (x : List ℝ) : Except PathFault (List ℝ) :=
  (evaluated (a.residual? ⟨1, some (List.replicate x.length 0)⟩)).bind fun r =>
  let Fext0 := r.map fun b => -b
  if a.withForce then evaluated (a.addForce ⟨lam, some x⟩ (-1) (some Fext0)) else .ok Fext0

/-- Lines 254-308, one iteration.  Simplification: `Fext0`, computed once before the loop in the code, is computed here; it does
not depend on the state. -/
noncomputable def iteration (p : PathStrategy) (s : State) : Except PathFault State :=
  (a.loadColumn s.lam s.x).bind fun load =>
  let deltaDR := a.linSolve s.Ax (s.rx.map fun b => -b)
  let deltaDL := a.linSolve s.Ax load
  (dotSized s.args.dfdDD deltaDR).bind fun cR =>
  (dotSized s.args.dfdDD deltaDL).bind fun cL =>
  (if s.args.finite then quotient (-s.args.f - cR) (cL + s.args.dfdDlambda) else .error .notFinite).bind fun deltalambda =>
  (addSized deltaDR (deltaDL.map fun d => deltalambda * d)).bind fun deltaD =>
  (evaluated (a.update ⟨s.lam, some s.x⟩ (some deltaD)).x).bind fun x =>
  (addSized s.args.DD deltaD).bind fun DD =>
  let lam := s.lam + deltalambda
  let args : PathArgs := { s.args with DD := DD, Dlambda := s.args.Dlambda + deltalambda }
  (a.synchronised lam x).bind fun x =>
  (evaluated (a.residual? ⟨lam, some x⟩)).bind fun rx =>
  (evaluated (a.jacobian? ⟨lam, some x⟩)).bind fun Ax =>
  (a.subsidiary p lam x args).map fun args =>
  ⟨lam, x, rx, Ax, args, Real.sqrt (sqNorm rx + args.f * args.f), s.iter + 1⟩

/-- Lines 254-308 with at most `n` iterations to go. -/
noncomputable def iterations (p : PathStrategy) : Nat → State → Except PathFault State
  | 0, s => .ok s
  | n + 1, s => if s.rNorm > a.settings.tol then (a.iteration p s).bind (iterations p n) else .ok s

/-- Lines 221-244, before the loop.  `resizeLike` leaves a vector of another size with unspecified entries, which the path following
function overwrites; they are zero here.  The norm does not contain the subsidiary function. -/
noncomputable def start (p : PathStrategy) (lam : ℝ) (x : List ℝ) (args : PathArgs) : Except PathFault State :=
  (evaluated (a.residual? ⟨1, some (List.replicate x.length 0)⟩)).bind fun r0 =>
  (evaluated (a.residual? ⟨lam, some x⟩)).bind fun rx =>
  (evaluated (a.jacobian? ⟨lam, some x⟩)).bind fun Ax =>
  let args : PathArgs := { args with dfdDD := if args.dfdDD.length = r0.length then args.dfdDD else List.replicate r0.length 0 }
  (a.subsidiary p lam x args).map fun args => ⟨lam, x, rx, Ax, args, Real.sqrt (sqNorm rx), 0⟩

/-- What listeners are shown after a solve, and what the solver reports of it. -/
structure Shown where
  lam : ℝ
  x : List ℝ
  args : PathArgs
  strategy : PathStrategy
  iterations : Nat
  success : Bool

/-- ikarus/solver/nonlinearsolver/newtonraphsonwithscalarsubsidiaryfunction.hh:207-316. -/
noncomputable def solve (p : PathStrategy) (lam : ℝ) (x : List ℝ) (args : PathArgs) : Except PathFault Shown :=
  (a.start p lam x args).bind fun s =>
  (a.iterations p a.settings.maxIter.toNat s).map fun s =>
  ⟨s.lam, s.x, s.args, p, s.iter, decide ((s.iter : Int) ≠ a.settings.maxIter)⟩

/-- The requirement, the arguments and the path following function after a prediction. -/
structure Predicted where
  lam : ℝ
  x : List ℝ
  args : PathArgs
  strategy : PathStrategy

/-- ikarus/controlroutines/pathfollowingfunctions.hh:133-174 (arc length), 250-255 (load control), 338-343 (displacement
control). -/
noncomputable def initialPrediction (p : PathStrategy) (lam : ℝ) (x : List ℝ) (args : PathArgs) : Except PathFault Predicted :=
  match p with
  | .arcLength _ _ =>
    (a.idbcIncrement lam x 1).bind fun idbcDelta =>
    (evaluated (a.residual? ⟨1, some x⟩)).bind fun R =>
    (evaluated (a.jacobian? ⟨1, some x⟩)).bind fun K =>
    (if a.withForce then evaluated (a.addForce ⟨1, some x⟩ 1 (some R)) else .ok R).bind fun R =>
    let DD := a.spd K (R.map fun b => -b)
    let s := Real.sqrt (sqNorm DD + sqNorm idbcDelta +
      Real.sqrt (sqNorm DD + sqNorm idbcDelta) * Real.sqrt (sqNorm DD + sqNorm idbcDelta))
    if s = 0 then .error .notFinite
    else
      let DD := DD.map fun d => d * args.stepSize / s
      let Dlambda := args.stepSize / s
      let idbcDelta := idbcDelta.map fun d => d * Dlambda
      (evaluated (a.update ⟨1, some x⟩ (some DD)).x).bind fun x =>
      (a.synchronised Dlambda x).bind fun x =>
      if Dlambda = 0 then .error .notFinite
      else
        let psi := Real.sqrt ((sqNorm idbcDelta + sqNorm DD) / (Dlambda * Dlambda))
        .ok ⟨Dlambda, x, { args with DD := DD, Dlambda := Dlambda }, .arcLength psi true⟩
  | .loadControl _ =>
    if a.withForce then .error .rejected
    else .ok ⟨args.stepSize, x, { args with Dlambda := args.stepSize }, .loadControl true⟩
  | .displacementControl controlled _ =>
    if a.withForce then .error .rejected
    else
      (inRange controlled args.DD).map fun _ =>
      let DD := controlled.foldl (fun v i => v.set i args.stepSize) args.DD
      ⟨lam, DD, { args with DD := DD }, .displacementControl controlled true⟩

/-- ikarus/controlroutines/pathfollowingfunctions.hh:188-195 (arc length), 269-274 (load control), 357-362 (displacement
control). -/
noncomputable def intermediatePrediction (p : PathStrategy) (lam : ℝ) (x : List ℝ) (args : PathArgs) :
    Except PathFault Predicted :=
  match p with
  | .arcLength _ predicted =>
    if predicted = false then .error .exception
    else
      (evaluated (a.update ⟨lam, some x⟩ (some args.DD)).x).bind fun x =>
      (a.synchronised (lam + args.Dlambda) x).map fun x => ⟨lam + args.Dlambda, x, args, p⟩
  | .loadControl predicted =>
    if a.withForce then .error .rejected
    else if predicted = false then .error .exception
    else .ok ⟨lam + args.Dlambda, x, args, p⟩
  | .displacementControl _ predicted =>
    if a.withForce then .error .rejected
    else if predicted = false then .error .exception
    else (addSized x args.DD).map fun x => ⟨lam, x, args, p⟩

/-- What is shown to listeners, solve by solve, and the success of a run. -/
structure Run where
  shown : List Shown
  success : Bool

/-- ikarus/controlroutines/pathfollowing.inl:58-76, from step `ls` on with `n` steps to go. -/
noncomputable def loop : Nat → Nat → Shown → Except PathFault Run
  | 0, _, _ => .ok ⟨[], true⟩
  | n + 1, ls, prev =>
    let args : PathArgs := { prev.args with currentStep := ls }
    (a.adapt prev.iterations args).bind fun stepSize =>
    (a.intermediatePrediction prev.strategy prev.lam prev.x { args with stepSize := stepSize }).bind fun q =>
    (a.solve q.strategy q.lam q.x q.args).bind fun s =>
    if !s.success then .ok ⟨[s], false⟩ else (loop n (ls + 1) s).map fun r => ⟨s :: r.shown, r.success⟩

/-- ikarus/controlroutines/pathfollowing.inl:28-77 and, for the exception, pathfollowing.hh:192-193. -/
noncomputable def run (p : PathStrategy) (lam : ℝ) (x : List ℝ) : Except PathFault Run :=
  if a.steps = 0 then .error .exception
  else
    (a.solve p lam x { PathArgs.setZero x.length with stepSize := a.stepSize }).bind fun s0 =>
    if !s0.success then .ok ⟨[s0], false⟩
    else
      (a.initialPrediction s0.strategy s0.lam s0.x s0.args).bind fun q =>
      (a.solve q.strategy q.lam q.x q.args).bind fun s1 =>
      if !s1.success then .ok ⟨[s0, s1], false⟩
      else (a.loop (a.steps - 1) 1 s1).map fun r => ⟨s0 :: s1 :: r.shown, r.success⟩

end PathAnalysis

end Ikarus
