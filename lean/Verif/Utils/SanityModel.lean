import Verif.Utils.NumericModel
import Verif.Material.NeoHookeModel
import Mathlib.Analysis.SpecialFunctions.Log.Base
import Mathlib.Analysis.SpecialFunctions.Pow.Real

/-!
Model of `ikarus/utils/functionsanitychecks.{hh,cpp}`: the numerical checks of gradients, Jacobians and
Hessians.  Arithmetic is exact.  The random direction `b` is a parameter, not normalised.
-/

namespace Ikarus.Sanity

open Matrix Ikarus.Utils

/-- `logspace(-8, -2, 100)` of matplot++ (`functionsanitychecks.cpp` 16): entry `k` is
`10^(-8 + 6 k / 99)`. -/
noncomputable def steps : List ℝ :=
  (List.range 100).map fun k : Nat => (10 : ℝ) ^ (-8 + 6 * (k : ℝ) / 99 : ℝ)

/-- What `drawResultAndReturnSlope` returns (`functionsanitychecks.cpp` 12-59).  `unspecified` stands for
the cases in which some but not all errors are exactly zero, where the logarithm is minus infinity and
the result depends on how the QR solver treats infinities. -/
inductive Slope where
  | value (s : ℝ)
  | infinite
  | unspecified

/-- `const int rangeSize = 10` (`functionsanitychecks.cpp` 23). -/
def rangeSize : Nat := 10

/-- The loop that copies the found range into vectors of `size` entries, `left` elements to go and `i`
already copied (`functionsanitychecks.cpp` 31-40); a write past the end is `none`. -/
def copyRange (size : Nat) : Nat → Nat → Option Unit
  | 0, _ => some ()
  | left + 1, i => if i < size then copyRange size left (i + 1) else none

/-- The drawing part (`functionsanitychecks.cpp` 26-53): two vectors of `rangeSize` entries receive the
elements of `data(range)`; the range of `findLineSegment` has `rangeSize + 1` of them.  What is plotted
is not modelled. -/
def drawing (draw : Bool) : Option Unit :=
  if draw then copyRange rangeSize (rangeSize + 1) 0 else some ()

/-- `yE(range).lpNorm<Eigen::Infinity>()` (`functionsanitychecks.cpp` 54). -/
noncomputable def rangeNorm (y : List ℝ) (i : Nat) : ℝ :=
  ((List.range (rangeSize + 1)).map fun k => |(y[i + k]?).getD 0|).foldl max 0

open Classical in
/-- `drawResultAndReturnSlope` (`functionsanitychecks.cpp` 12-59) for the errors `y` at `steps`.  If all
errors are zero any range has norm zero, whatever line was found. -/
noncomputable def drawResultAndReturnSlope (qr : QRSolver) (draw : Bool) (y : List ℝ) : Option Slope :=
  if ∀ v ∈ y, v = 0 then do
    drawing draw
    pure .infinite
  else if ∃ v ∈ y, v = 0 then do
    drawing draw
    pure .unspecified
  else do
    let (poly, i) ← findLineSegment qr (steps.map (Real.logb 10)) (y.map (Real.logb 10)) rangeSize
    drawing draw
    if rangeNorm y i < 1e-10 then pure .infinite else pure (.value (poly 1))

/-- `Dune::FloatCmp::le(ref, slope, tolerance)` (`functionsanitychecks.hh` 90, 144, 206); infinity is
greater than every number.  `none` when the slope is unspecified. -/
noncomputable def accepts (ref tolerance : ℝ) : Slope → Option Prop
  | .value s => some (floatCmpLe tolerance ref s)
  | .infinite => some True
  | .unspecified => none

/-- `transform(t, ftfunc)` where `ftfunc` moves the point along the direction, evaluates and moves it
back (`functionsanitychecks.hh` 80-86, 133-139, 195-201 and `functionsanitychecks.cpp` 18).  The point `x`
is captured by reference, so it is threaded through. -/
def errors {X : Type} {n : Nat} (update : X → (Fin n → ℝ) → X) (value : ℝ → X → ℝ) (b : Fin n → ℝ) :
    X → List ℝ → List ℝ
  | _, [] => []
  | x, t :: ts =>
    let x1 := update x (t • b)
    let v := value t x1
    let x2 := update x1 (-t • b)
    v :: errors update value b x2 ts

/-- The flags of a check (`functionsanitychecks.hh` 37-42). -/
structure CheckFlags where
  draw : Bool
  tolerance : ℝ

/-- The defaults (`functionsanitychecks.hh` 37-42). -/
noncomputable def defaultFlags : CheckFlags := { draw := true, tolerance := 1e-2 }

/-- `checkGradient` (`functionsanitychecks.hh` 58-102): `f` the function, `g` what `derivative(f)` returns
at `p`, `b` the direction.  The result is the proposition that the check passes; the messages are not
modelled. -/
noncomputable def checkGradient {X : Type} {n : Nat} (qr : QRSolver) (flags : CheckFlags)
    (update : X → (Fin n → ℝ) → X) (f : X → ℝ) (g : Fin n → ℝ) (p : X) (b : Fin n → ℝ) : Option Prop := do
  let e := f p
  let gradfv := g ⬝ᵥ b
  let y := errors update (fun t x => |f x - e - t * gradfv|) b p steps
  let slope ← drawResultAndReturnSlope qr flags.draw y
  accepts 2 flags.tolerance slope

/-- `checkJacobian` (`functionsanitychecks.hh` 117-156) with the Euclidean norm. -/
noncomputable def checkJacobian {X : Type} {n : Nat} (qr : QRSolver) (flags : CheckFlags)
    (update : X → (Fin n → ℝ) → X) (f : X → Fin n → ℝ) (J : Matrix (Fin n) (Fin n) ℝ) (p : X)
    (b : Fin n → ℝ) : Option Prop := do
  let e := f p
  let jacofv := J.mulVec b
  let y := errors update (fun t x => Real.sqrt (∑ i, (f x i - e i - t * jacofv i) ^ 2)) b p steps
  let slope ← drawResultAndReturnSlope qr flags.draw y
  accepts 2 flags.tolerance slope

/-- `checkHessian` (`functionsanitychecks.hh` 171-219). -/
noncomputable def checkHessian {X : Type} {n : Nat} (qr : QRSolver) (flags : CheckFlags)
    (update : X → (Fin n → ℝ) → X) (f : X → ℝ) (g : Fin n → ℝ) (h : Matrix (Fin n) (Fin n) ℝ) (p : X)
    (b : Fin n → ℝ) : Option Prop := do
  let e := f p
  let gradfv := g ⬝ᵥ b
  let vhessv := h.mulVec b ⬝ᵥ b
  let y := errors update (fun t x => |f x - e - t * gradfv - 0.5 * t * t * vhessv|) b p steps
  let slope ← drawResultAndReturnSlope qr flags.draw y
  accepts 3 flags.tolerance slope

end Ikarus.Sanity
