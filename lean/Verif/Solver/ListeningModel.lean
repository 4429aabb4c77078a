import Verif.Solver.NewtonModel
import Verif.FE.EASModel

/-!
Model of `NewtonRaphson::solve` (ikarus/solver/nonlinearsolver/newtonraphson.hh:196-257) with finite elements that hold
internal variables and listen to the solver: enhancedassumedstrains.hh:350-359, assumedstress.hh:343-352.

Residual, Jacobian and the forces of inhomogeneous Dirichlet conditions are assembled from the elements, hence they depend on
the internal variables the elements hold at that moment and may throw.  Everything else of the solver is as in
`Solver/NewtonModel.lean`; the list of notifications is left out, what a notification does to the elements is modelled instead.
-/

namespace Ikarus.Listening

/-- What a call of `solve` does; `unfinished` if the fuel of the model did not suffice. -/
inductive Outcome (α : Type)
  | done (a : α)
  | threw
  | unfinished

/-- The members of `NewtonRaphson` (newtonraphson.hh:296-302) and the elements.  `ε` elements, `W` internal variables, `X` domain,
`R` residuals, `A` Jacobians, `C` corrections, `N` norms, `S` step sizes. -/
structure Problem (ε W X R A C N S : Type) where
  residual : (ε → W) → X → Option R
  jacobian : (ε → W) → X → Option A
  rnorm : R → N
  cnorm : C → N
  gt : N → N → Bool
  linSolve : A → R → C
  update : X → C → X
  /-- The forces of inhomogeneous Dirichlet conditions are added (lines 214-217), and the solution is set (lines 237-238). -/
  idbc : Option (((ε → W) → X → S → R → Option R) × (X → X))
  /-- The callback of an element. -/
  callback : ε → W → SolverMessage → X → C → Option W
  /-- The elements that listen, in the order of their subscriptions. -/
  subs : List ε

/-- The local variables of `solve` and the elements. -/
structure Loop (ε W X R A C N : Type) where
  w : ε → W
  x : X
  rx : R
  Ax : A
  rNorm : N
  iter : Nat
  correction : C
  info : SolverInfo N

variable {ε W X R A C N S : Type} [DecidableEq ε]

namespace Problem

/-- `Broadcaster::notify` (broadcaster.hh:60-68): every listener is called; each element changes its own variables. -/
def notify (P : Problem ε W X R A C N S) (w : ε → W) (m : SolverMessage) (x : X) (c : C) : Option (ε → W) :=
  P.subs.foldlM (fun w e => (P.callback e (w e) m x c).map (Function.update w e)) w

/-- newtonraphson.hh:219. -/
def cond (P : Problem ε W X R A C N S) (set : NRSettings N) (s : Loop ε W X R A C N) : Bool :=
  (P.gt s.rNorm set.tol && decide ((s.iter : Int) < set.maxIter)) || decide ((s.iter : Int) < set.minIter)

/-- newtonraphson.hh:232-238, the new solution. -/
def next (P : Problem ε W X R A C N S) (x : X) (c : C) : X :=
  let x := P.update x c
  match P.idbc with
  | none => x
  | some i => i.2 x

/-- newtonraphson.hh:220-249. -/
def body (P : Problem ε W X R A C N S) (s : Loop ε W X R A C N) : Option (Loop ε W X R A C N) := do
  let w ← P.notify s.w .iterationStarted s.x s.correction
  let correction := P.linSolve s.Ax s.rx
  let info := { s.info with correctionNorm := some (P.cnorm correction) }
  let w ← P.notify w .correctionUpdated s.x correction
  let x := P.next s.x correction
  let w ← P.notify w .correctionnormUpdated x correction
  let w ← P.notify w .solutionChanged x correction
  let rx ← P.residual w x
  let Ax ← P.jacobian w x
  let rNorm := P.rnorm rx
  let info := { info with residualNorm := some rNorm }
  let w ← P.notify w .residualnormUpdated x correction
  let iter := s.iter + 1
  let info := { info with iterations := iter }
  let w ← P.notify w .iterationEnded x correction
  return ⟨w, x, rx, Ax, rNorm, iter, correction, info⟩

/-- newtonraphson.hh:219-250, at most `fuel` iterations. -/
def loop (P : Problem ε W X R A C N S) (set : NRSettings N) : Nat → Loop ε W X R A C N → Outcome (Loop ε W X R A C N)
  | 0, s => if P.cond set s then .unfinished else .done s
  | fuel + 1, s =>
    if P.cond set s then
      match P.body s with
      | none => .threw
      | some s => loop P set fuel s
    else .done s

/-- newtonraphson.hh:199-217. -/
def start (P : Problem ε W X R A C N S) (w : ε → W) (x : X) (stepSize : S) (corr : C) : Option (Loop ε W X R A C N) := do
  let w ← P.notify w .init x corr
  let rx ← P.residual w x
  let Ax ← P.jacobian w x
  let info : SolverInfo N := ⟨true, some (P.rnorm rx), none, -1⟩
  match P.idbc with
  | none => return ⟨w, x, rx, Ax, P.rnorm rx, 0, corr, info⟩
  | some i =>
    let rx ← i.1 w x stepSize rx
    return ⟨w, x, rx, Ax, P.rnorm rx, 0, corr, info⟩

/-- newtonraphson.hh:251-256. -/
def finish (P : Problem ε W X R A C N S) (set : NRSettings N) (s : Loop ε W X R A C N) : Option (Loop ε W X R A C N) := do
  let info := if (s.iter : Int) = set.maxIter then { s.info with success := false } else s.info
  let info := { info with iterations := s.iter }
  if info.success then
    let w ← P.notify s.w .finishedSucessfully s.x s.correction
    return { s with w := w, info := info }
  else return { s with info := info }

/-- newtonraphson.hh:196-257. -/
def solve (P : Problem ε W X R A C N S) (set : NRSettings N) (fuel : Nat) (w : ε → W) (x : X) (stepSize : S) (corr : C) :
    Outcome (Loop ε W X R A C N) :=
  match P.start w x stepSize corr with
  | none => .threw
  | some s =>
    match P.loop set fuel s with
    | .done s =>
      match P.finish set s with
      | none => .threw
      | some s => .done s
    | .threw => .threw
    | .unfinished => .unfinished

end Problem

/-! ### Enhanced assumed strain elements -/

open Ikarus.Element Ikarus.Element.EAS Matrix

/-- The callback of an element with enhanced strains (enhancedassumedstrains.hh:350-359): it reacts to one message.  `domain` is the
part of the solution at the element, `correction` the one of the correction, with the sizes of both. -/
noncomputable def easCallback {n d q m : Nat} (law : Law q) (gps : List (EASPoint n d q m)) (alpha : Fin m → ℝ)
    (message : SolverMessage) (domain : NodeVec n d) (solutionSize : Nat) (correction : NodeVec n d) (correctionSize : Nat) :
    Option (Fin m → ℝ) :=
  if message = .correctionUpdated then updateState law gps domain alpha solutionSize correctionSize correction
  else some alpha

/-- Elements with enhanced strains on `Nd` degrees of freedom, with the load that the other skills of the elements contribute for a
parameter, and the constrained degrees of freedom. -/
structure Mesh (ε : Type) (n d q m Nd : Nat) where
  law : ε → Law q
  gps : ε → List (EASPoint n d q m)
  dofs : ε → Fin n → Fin d → Fin Nd
  load : ℝ → Fin Nd → ℝ
  constrained : Fin Nd → Bool

variable {n d q m Nd : Nat}

/-- The part of a global vector at an element (`localSolutionBlockVector`, see C46). -/
def Mesh.at (M : Mesh ε n d q m Nd) (x : Fin Nd → ℝ) (e : ε) : NodeVec n d := fun I a => x (M.dofs e I a)

/-- The assembled vector with `DBCOption::Full` (simpleassemblers.inl:60-94; the loop over elements as a sum, see C01 and C02), minus the load. -/
noncomputable def Mesh.residual [Fintype ε] (M : Mesh ε n d q m Nd) (alpha : ε → Fin m → ℝ) (x : (Fin Nd → ℝ) × ℝ) :
    Option (Fin Nd → ℝ) :=
  let f : ε → Option (NodeVec n d) := fun e => calculateVector (M.law e) (M.gps e) .forces (M.at x.1 e) (alpha e) 0
  if ∀ e, (f e).isSome then
    some fun i => if M.constrained i then 0
      else (∑ e, ∑ I, ∑ a, if M.dofs e I a = i then (f e).getD 0 I a else 0) - M.load x.2 i
  else none

/-- The assembled matrix with `DBCOption::Raw` (simpleassemblers.inl:121-150; the loop over elements as a sum, see C05). -/
noncomputable def Mesh.raw [Fintype ε] (M : Mesh ε n d q m Nd) (alpha : ε → Fin m → ℝ) (x : (Fin Nd → ℝ) × ℝ) :
    Option (Matrix (Fin Nd) (Fin Nd) ℝ) :=
  let K : ε → Option (BlockMat n d) := fun e => calculateMatrix (M.law e) (M.gps e) .stiffness (M.at x.1 e) (alpha e) 0
  if ∀ e, (K e).isSome then
    some (Matrix.of fun i j =>
      ∑ e, ∑ I, ∑ a, ∑ J, ∑ b, if M.dofs e I a = i ∧ M.dofs e J b = j then (K e).getD 0 I J a b else 0)
  else none

/-- The assembled matrix with `DBCOption::Full` (simpleassemblers.inl:151-170). -/
noncomputable def Mesh.jacobian [Fintype ε] (M : Mesh ε n d q m Nd) (alpha : ε → Fin m → ℝ) (x : (Fin Nd → ℝ) × ℝ) :
    Option (Matrix (Fin Nd) (Fin Nd) ℝ) :=
  (M.raw alpha x).map fun K =>
    Matrix.of fun i j => if M.constrained i || M.constrained j then (if i = j then 1 else 0) else K i j

/-- Inhomogeneous Dirichlet conditions `x i = lambda * value i` at constrained degrees of freedom: `obtainForcesDueToIDBC` with
`DBCOption::Full` (ikarus/utils/functionhelper.hh:170-184), added as in newtonraphson.hh:215, and
`syncParameterAndGlobalSolution` (ikarus/solver/nonlinearsolver/nonlinearsolverfactory.hh:45-54).  Simplification: the prescribed values
are proportional to the parameter. -/
noncomputable def Mesh.inhomogeneous [Fintype ε] (M : Mesh ε n d q m Nd) (value : Fin Nd → ℝ) :
    ((ε → Fin m → ℝ) → (Fin Nd → ℝ) × ℝ → ℝ → (Fin Nd → ℝ) → Option (Fin Nd → ℝ)) ×
      ((Fin Nd → ℝ) × ℝ → (Fin Nd → ℝ) × ℝ) :=
  (fun alpha x stepSize r => (M.raw alpha x).map fun K =>
      r + stepSize • fun i => if M.constrained i then 0 else (K *ᵥ value) i,
    fun x => (fun i => if x.2 * value i ≠ 0 then x.2 * value i else x.1 i, x.2))

/-- Newton's method for the elements with `DBCOption::Full`; each element has subscribed as often as it is in `subs`. -/
noncomputable def Mesh.problem [Fintype ε] (M : Mesh ε n d q m Nd) (subs : List ε) {N S : Type} (rnorm cnorm : (Fin Nd → ℝ) → N)
    (gt : N → N → Bool) (linSolve : Matrix (Fin Nd) (Fin Nd) ℝ → (Fin Nd → ℝ) → Fin Nd → ℝ)
    (idbc : Option (((ε → Fin m → ℝ) → (Fin Nd → ℝ) × ℝ → S → (Fin Nd → ℝ) → Option (Fin Nd → ℝ)) ×
      ((Fin Nd → ℝ) × ℝ → (Fin Nd → ℝ) × ℝ))) :
    Problem ε (Fin m → ℝ) ((Fin Nd → ℝ) × ℝ) (Fin Nd → ℝ) (Matrix (Fin Nd) (Fin Nd) ℝ) (Fin Nd → ℝ) N S where
  residual := M.residual
  jacobian := M.jacobian
  rnorm := rnorm
  cnorm := cnorm
  gt := gt
  linSolve := linSolve
  update x c := (x.1 + c, x.2)
  idbc := idbc
  callback e alpha msg x c := easCallback (M.law e) (M.gps e) alpha msg (M.at x.1 e) Nd (M.at c e) Nd
  subs := subs

/-- Newton's method for the elements with `DBCOption::Reduced`: the correction has one entry for each free degree of freedom, and the
update of the solution expands it (nonlinearsolverfactory.hh:34-44). -/
noncomputable def Mesh.reducedProblem {N S R A : Type} (M : Mesh ε n d q m Nd) (subs : List ε) (nred : Nat)
    (residual : (ε → Fin m → ℝ) → (Fin Nd → ℝ) × ℝ → Option R) (jacobian : (ε → Fin m → ℝ) → (Fin Nd → ℝ) × ℝ → Option A)
    (rnorm : R → N) (cnorm : (Fin nred → ℝ) → N) (gt : N → N → Bool) (linSolve : A → R → Fin nred → ℝ)
    (expand : (Fin nred → ℝ) → Fin Nd → ℝ) (gather : ε → (Fin nred → ℝ) → NodeVec n d) :
    Problem ε (Fin m → ℝ) ((Fin Nd → ℝ) × ℝ) R A (Fin nred → ℝ) N S where
  residual := residual
  jacobian := jacobian
  rnorm := rnorm
  cnorm := cnorm
  gt := gt
  linSolve := linSolve
  update x c := (x.1 + expand c, x.2)
  idbc := none
  callback e alpha msg x c := easCallback (M.law e) (M.gps e) alpha msg (M.at x.1 e) Nd (gather e c) nred
  subs := subs

end Ikarus.Listening
