import Mathlib.Analysis.InnerProductSpace.PiL2
import Mathlib.Data.Fin.Tuple.Basic

/-!
Model of `ikarus/utils/math.hh`, `ikarus/utils/polyfit.cpp`, `ikarus/utils/findlinesegment.cpp` and
`ikarus/utils/quadraturerulehelper.hh`.
-/

namespace Ikarus.Utils

/-! ### Compile time square root -/

/-- `sqrt_helper` (`math.hh` 23-34).  `M` is the largest value of the type the arithmetic is done in; a
sum above it overflows and a division by zero is undefined, both are `none`.  `fuel` bounds the recursion
depth; running out of it is `none` as well. -/
def sqrtHelper (M : Nat) : Nat → Nat → Nat → Nat → Option Nat
  | 0, _, _, _ => none
  | fuel + 1, x, lo, hi =>
    if lo = hi then some lo
    else if M < lo + hi + 1 then none
    else
      let mid := (lo + hi + 1) / 2
      if mid = 0 then none
      else if x / mid < mid then sqrtHelper M fuel x lo (mid - 1)
      else sqrtHelper M fuel x mid hi

/-- `ct_sqrt` (`math.hh` 45-49) for a non negative argument. -/
def ctSqrt (M x : Nat) : Option Nat := sqrtHelper M (x + 2) x 0 (x / 2 + 1)

/-! ### Polynomial fit -/

/-- Column `j` of the matrix of `polyfit`: ones, then the previous column times `x`
(`polyfit.cpp` 14-16). -/
def fitColumn {n : Nat} (x : Fin n → ℝ) : Nat → Fin n → ℝ
  | 0 => fun _ => 1
  | j + 1 => fun k => fitColumn x j k * x k

/-- The matrix `A` of `polyfit` (`polyfit.cpp` 14-16). -/
def fitMatrix {n : Nat} (x : Fin n → ℝ) (deg : Nat) : Matrix (Fin n) (Fin (deg + 1)) ℝ :=
  Matrix.of fun k j => fitColumn x j k

/-- `(A * coeffs - y).norm()` (`polyfit.cpp` 26). -/
noncomputable def residualNorm {n m : Nat} (A : Matrix (Fin n) (Fin m) ℝ) (c : Fin m → ℝ)
    (y : Fin n → ℝ) : ℝ :=
  Real.sqrt (∑ k, (A.mulVec c k - y k) ^ 2)

/-- The dense QR solver of Eigen, `qr.compute(A); qr.solve(y)` (`polyfit.cpp` 18-20), as a parameter. -/
abbrev QRSolver := (n m : Nat) → Matrix (Fin n) (Fin m) ℝ → (Fin n → ℝ) → Fin m → ℝ

/-- `polyfit` (`polyfit.cpp` 11-27): the coefficients and the error. -/
noncomputable def polyfit (qr : QRSolver) {n : Nat} (x y : Fin n → ℝ) (deg : Nat) :
    (Fin (deg + 1) → ℝ) × ℝ :=
  let A := fitMatrix x deg
  let coeffs := qr n (deg + 1) A y
  (coeffs, residualNorm A coeffs y)

/-! ### Line segment search -/

/-- `x(Eigen::seq(i, i + segmentSize))` (`findlinesegment.cpp` 17-19): `segmentSize + 1` entries.
Reading past the end is `none`. -/
def segment (x : List ℝ) (i s : Nat) : Option (Fin (s + 1) → ℝ) :=
  if h : i + s < x.length then some fun k => x[i + k.val]'(by have := k.isLt; omega) else none

/-- The loop of `findLineSegment` (`findlinesegment.cpp` 16-22) from window `i` on, `m` windows left:
the lines with their errors. -/
noncomputable def segmentFits (qr : QRSolver) (x y : List ℝ) (s : Nat) :
    Nat → Nat → Option (List ((Fin 2 → ℝ) × ℝ))
  | 0, _ => some []
  | m + 1, i => do
    let xs ← segment x i s
    let ys ← segment y i s
    let rest ← segmentFits qr x y s m (i + 1)
    pure (polyfit qr xs ys 1 :: rest)

/-- The loop of `std::ranges::min_element` (`findlinesegment.cpp` 23): `best` is the position of the
smallest error so far with its value, `i` the position of the next one. -/
noncomputable def minElementFrom (best : Nat) (value : ℝ) : Nat → List ℝ → Nat
  | _, [] => best
  | i, e :: es => if e < value then minElementFrom i e (i + 1) es
      else minElementFrom best value (i + 1) es

/-- The distance of `min_element` from the begin (`findlinesegment.cpp` 23-24); the end of an empty
range has distance zero. -/
noncomputable def minElement : List ℝ → Nat
  | [] => 0
  | e :: es => minElementFrom 0 e 1 es

/-- `findLineSegment` (`findlinesegment.cpp` 11-28): the coefficients of the line and the first index of
the range of `segmentSize + 1` points.  A negative size of `errors` and `lines[index]` past the end are
`none`.  `segmentSize` is taken non negative; the errors are real numbers, so never NaN. -/
noncomputable def findLineSegment (qr : QRSolver) (x y : List ℝ) (s : Nat) :
    Option ((Fin 2 → ℝ) × Nat) :=
  if x.length < s then none
  else do
    let fits ← segmentFits qr x y s (x.length - s) 0
    let index := minElement (fits.map Prod.snd)
    let line ← fits[index]?
    pure (line.1, index)

/-! ### Tensor product quadrature -/

/-- A quadrature point: position and weight. -/
structure QuadPoint (d : Nat) where
  position : Fin d → ℝ
  weight : ℝ

/-- The inner loop of `tensorProductQuadrature` (`quadraturerulehelper.hh` 41-44): the last coordinate
of `point` is overwritten, the others stay. -/
noncomputable def tensorInner {d : Nat} (base : QuadPoint d) (onedQuad : List (QuadPoint 1)) :
    List (QuadPoint (d + 1)) :=
  onedQuad.map fun o =>
    { position := Fin.snoc (α := fun _ => ℝ) base.position (o.position 0)
      weight := base.weight * o.weight }

/-- `tensorProductQuadrature` (`quadraturerulehelper.hh` 28-48). -/
noncomputable def tensorProductQuadrature {d : Nat} (baseQuad : List (QuadPoint d))
    (onedQuad : List (QuadPoint 1)) : List (QuadPoint (d + 1)) :=
  baseQuad.foldl (fun rule b => rule ++ tensorInner b onedQuad) []

end Ikarus.Utils
