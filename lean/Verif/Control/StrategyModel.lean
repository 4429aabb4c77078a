import Verif.Control.PathModel
import Mathlib.Analysis.InnerProductSpace.Basic
import Mathlib.Analysis.Real.Sqrt

/-!
Model of the path following functions (ikarus/controlroutines/pathfollowingfunctions.hh) and of the
step size adaption (ikarus/controlroutines/adaptivestepsizing.hh) over the real numbers.

Quotients with a zero denominator and roots of negative numbers are not finite in the code and
`none` here.
-/

namespace Ikarus

noncomputable section

/-- `a / b` in floating point: not finite for `b = 0`. -/
def div? (a b : ℝ) : Option ℝ := if b = 0 then none else some (a / b)

/-- `sqrt` in floating point: not a number for negative arguments. -/
def sqrt? (a : ℝ) : Option ℝ := if a < 0 then none else some (Real.sqrt a)

/-! ### Step size adaption -/

/-- ikarus/controlroutines/adaptivestepsizing.hh:98-102; `none` stands for the exception. -/
def setTargetIterations (target : Int) : Option Int := if target = 0 then none else some target

/-- ikarus/controlroutines/adaptivestepsizing.hh:75-86: the outer `none` stands for the exception,
the inner one for a step size that is not a number. -/
def iterationBased (target : Int) (currentStep : Nat) (previousIterations : Int) (stepSize : ℝ) :
    Option (Option ℝ) :=
  if currentStep = 0 then some (some stepSize)
  else if target = 0 then none
  else if previousIterations > target then
    some (((div? target previousIterations).bind sqrt?).map fun r => r * stepSize)
  else some (some stepSize)

/-! ### Path following functions -/

variable {V : Type} [NormedAddCommGroup V] [InnerProductSpace ℝ V]

/-- ikarus/controlroutines/pathfollowingfunctions.hh:200-202. -/
structure ArcLength where
  psi : ℝ
  computedInitialPredictor : Bool

/-- A newly created function. -/
def ArcLength.fresh : ArcLength := ⟨0, false⟩

/-- ikarus/controlroutines/pathfollowingfunctions.hh:103-115. `idbc` is the function that gives the
increment of prescribed displacements for an increment of the load factor
(ikarus/controlroutines/common.hh:63-76). The results are `f`, `dfdDD`, `dfdDlambda`. -/
def ArcLength.op (p : ArcLength) (idbc : ℝ → V) (a : SubsidiaryArgs ℝ V) :
    ℝ × Option V × Option ℝ :=
  let idbcDelta := idbc a.Dlambda
  let root := Real.sqrt (‖a.DD‖ ^ 2 + ‖idbcDelta‖ ^ 2 + p.psi * p.psi * a.Dlambda * a.Dlambda)
  let f := root - a.stepSize
  if p.computedInitialPredictor = false then (f, some 0, some 0)
  else
    let dfdDD := if root = 0 then none else some (root⁻¹ • a.DD)
    let Dhat0 := if a.Dlambda = 0 then none else some (a.Dlambda⁻¹ • idbcDelta)
    let dfdDlambda := Dhat0.bind fun D =>
      div? ((inner ℝ D D + p.psi * p.psi) * a.Dlambda) root
    (f, dfdDD, dfdDlambda)

/-- ikarus/controlroutines/pathfollowingfunctions.hh:133-174. `residual` and `solve` (the linear
solver applied to the tangent at load factor one) are given; `DD` before scaling is
`solve (-(residual 1 x + idbcForce))`. The result is `none` if it is not finite. `sync` is the
synchronisation of lines 167-168 (the identity without inhomogeneous Dirichlet conditions).
Simplification: the update function is addition. -/
def ArcLength.initialPrediction (residual : ℝ → V → V) (linSolve : ℝ → V → V → V) (idbc : ℝ → V)
    (idbcForce : ℝ → V → V) (sync : ℝ → V → V) (d : Dom ℝ V) (a : SubsidiaryArgs ℝ V) :
    Option (ArcLength × Dom ℝ V × SubsidiaryArgs ℝ V) :=
  let dlambda : ℝ := 1
  let idbcDelta := idbc dlambda
  let Dhat0 := dlambda⁻¹ • idbcDelta
  let R := residual dlambda d.x + idbcForce dlambda d.x
  let DD := linSolve dlambda d.x (-R)
  let psi := Real.sqrt (‖DD‖ ^ 2 + ‖Dhat0‖ ^ 2)
  let s := Real.sqrt (‖DD‖ ^ 2 + ‖Dhat0‖ ^ 2 + psi * psi * dlambda * dlambda)
  if s = 0 then none
  else
    let DD := (a.stepSize / s) • DD
    let Dlambda := a.stepSize / s
    let idbcDelta := (Dlambda / dlambda) • idbcDelta
    let x := d.x + DD
    let x := sync Dlambda x
    if Dlambda * Dlambda = 0 then none
    else
      let psi := Real.sqrt ((‖idbcDelta‖ ^ 2 + ‖DD‖ ^ 2) / (Dlambda * Dlambda))
      some (⟨psi, true⟩, ⟨Dlambda, x⟩, { a with DD := DD, Dlambda := Dlambda })

/-- ikarus/controlroutines/pathfollowingfunctions.hh:188-195; `none` stands for the exception. -/
def ArcLength.intermediatePrediction (sync : ℝ → V → V) (p : ArcLength) (d : Dom ℝ V)
    (a : SubsidiaryArgs ℝ V) : Option (ArcLength × Dom ℝ V × SubsidiaryArgs ℝ V) :=
  if p.computedInitialPredictor = false then none
  else
    let lam := d.lam + a.Dlambda
    some (p, ⟨lam, sync lam (d.x + a.DD)⟩, a)

/-- ikarus/controlroutines/pathfollowingfunctions.hh:231-236. -/
def loadControlOp (a : SubsidiaryArgs ℝ V) : ℝ × Option V × Option ℝ :=
  (a.Dlambda - a.stepSize, some 0, some 1)

/-- ikarus/controlroutines/pathfollowingfunctions.hh:250-255. -/
def loadControlInitialPrediction (d : Dom ℝ V) (a : SubsidiaryArgs ℝ V) :
    Dom ℝ V × SubsidiaryArgs ℝ V :=
  let a := { a with Dlambda := a.stepSize }
  ({ d with lam := a.Dlambda }, a)

/-- ikarus/controlroutines/pathfollowingfunctions.hh:269-274 (after an initial prediction). -/
def loadControlIntermediatePrediction (d : Dom ℝ V) (a : SubsidiaryArgs ℝ V) :
    Dom ℝ V × SubsidiaryArgs ℝ V :=
  ({ d with lam := d.lam + a.Dlambda }, a)

/-- `DD(controlledIndices).norm()`, ikarus/controlroutines/pathfollowingfunctions.hh:319. -/
def controlledNorm {n : Nat} (idx : List (Fin n)) (DD : Fin n → ℝ) : ℝ :=
  Real.sqrt (idx.map fun i => DD i ^ 2).sum

/-- ikarus/controlroutines/pathfollowingfunctions.hh:317-324: assignments to the controlled entries
of a zero vector; the division is by the norm of the controlled entries. -/
def displacementControlOp {n : Nat} (idx : List (Fin n)) (a : SubsidiaryArgs ℝ (Fin n → ℝ)) :
    ℝ × Option (Fin n → ℝ) × Option ℝ :=
  let c := controlledNorm idx a.DD
  let f := c - a.stepSize
  (f, if c = 0 ∧ idx ≠ [] then none else
    some (idx.foldl (fun v i => Function.update v i (a.DD i / c)) 0), some 0)

/-- ikarus/controlroutines/pathfollowingfunctions.hh:338-343. -/
def displacementControlInitialPrediction {n : Nat} (idx : List (Fin n)) (d : Dom ℝ (Fin n → ℝ))
    (a : SubsidiaryArgs ℝ (Fin n → ℝ)) : Dom ℝ (Fin n → ℝ) × SubsidiaryArgs ℝ (Fin n → ℝ) :=
  let a := { a with DD := idx.foldl (fun v i => Function.update v i a.stepSize) a.DD }
  ({ d with x := a.DD }, a)

/-- ikarus/controlroutines/pathfollowingfunctions.hh:357-362 (after an initial prediction). -/
def displacementControlIntermediatePrediction {n : Nat} (d : Dom ℝ (Fin n → ℝ))
    (a : SubsidiaryArgs ℝ (Fin n → ℝ)) : Dom ℝ (Fin n → ℝ) × SubsidiaryArgs ℝ (Fin n → ℝ) :=
  ({ d with x := d.x + a.DD }, a)

end

end Ikarus
