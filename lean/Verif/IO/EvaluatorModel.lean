import Verif.Tensor.Model
import Mathlib.Analysis.SpecialFunctions.Complex.Arg
import Mathlib.Data.Matrix.Mul

/-!
Model of ikarus/io/resultevaluators.hh.  Numbers are real.  The functions get the result in Voigt notation; `fv` is the
instance of `fromVoigt` the compiler selects by the size of the result.
-/

namespace Ikarus.ResultEvaluators

open Matrix

variable {k v : Nat}

/-- `Eigen::MatrixBase::squaredNorm`. -/
def squaredNorm (A : Matrix (Fin k) (Fin k) ℝ) : ℝ := ∑ i, ∑ j, A i j ^ 2

/-- `VonMises::operator()` (resultevaluators.hh:37-44). -/
noncomputable def vonMises (fv : (Fin v → ℝ) → Bool → Matrix (Fin k) (Fin k) ℝ) (resultArray : Fin v → ℝ) : ℝ :=
  let sigma := fv resultArray false
  let I2 := 1.0 / 2.0 * (squaredNorm sigma - 1.0 / 3.0 * sigma.trace ^ 2)
  √(3.0 * I2)

/-- `HydrostaticStress::operator()` (resultevaluators.hh:74-79). -/
noncomputable def hydrostaticStress (fv : (Fin v → ℝ) → Bool → Matrix (Fin k) (Fin k) ℝ) (resultArray : Fin v → ℝ) : ℝ :=
  let sigma := fv resultArray false
  1.0 / (k : ℝ) * sigma.trace

/-- `PrincipalStress::operator()` (resultevaluators.hh:111-116); `solver` stands for
`Eigen::SelfAdjointEigenSolver::eigenvalues`, and an index out of range is `none`. -/
def principalStress (solver : Matrix (Fin k) (Fin k) ℝ → Fin k → ℝ)
    (fv : (Fin v → ℝ) → Bool → Matrix (Fin k) (Fin k) ℝ) (resultArray : Fin v → ℝ) (comp : Int) : Option ℝ :=
  let mat := fv resultArray false
  if 0 ≤ comp then
    if h : comp.toNat < k then some (solver mat (Fin.rev ⟨comp.toNat, h⟩)) else none
  else none

/-- `Triaxiality::operator()` (resultevaluators.hh:146-152); `none` is the division by zero, whose result is not a finite
number. -/
noncomputable def triaxiality (fv : (Fin v → ℝ) → Bool → Matrix (Fin k) (Fin k) ℝ) (resultArray : Fin v → ℝ) : Option ℝ :=
  let sigeq := vonMises fv resultArray
  let sigm := hydrostaticStress fv resultArray
  if sigeq = 0 then none else some (sigm / sigeq)

/-- `std::atan2(y, x)` as the argument of a complex number; signed zeros are not distinguished. -/
noncomputable def atan2 (y x : ℝ) : ℝ := Complex.arg ⟨x, y⟩

/-- `Eigen::Rotation2D(theta)` as a matrix; its inverse has the negative angle. -/
noncomputable def rotation2D (theta : ℝ) : Matrix (Fin 2) (Fin 2) ℝ :=
  !![Real.cos theta, -Real.sin theta; Real.sin theta, Real.cos theta]

/-- The outcome of `PolarStress`. -/
inductive Outcome where
  | value (x : ℝ)
  | rangeError
  | undefined

/-- `polarStress` (resultevaluators.hh:190-197); `pos` is `fe.geometry().global(pos)`. -/
noncomputable def polarTensor (origin pos : Fin 2 → ℝ) (sigma : Matrix (Fin 2) (Fin 2) ℝ) : Matrix (Fin 2) (Fin 2) ℝ :=
  let posGlobal := pos - origin
  let theta := atan2 (posGlobal 1) (posGlobal 0)
  rotation2D (-theta) * sigma * rotation2D theta

/-- `PolarStress::operator()` (resultevaluators.hh:183-208); `__builtin_unreachable` is `undefined`. -/
noncomputable def polarStress (origin pos : Fin 2 → ℝ) (resultArray : Fin 3 → ℝ) (comp : Int) : Outcome :=
  if comp > 2 then .rangeError
  else
    let P := polarTensor origin pos (fromVoigt2 resultArray false)
    if comp = 0 then .value (P 0 0)
    else if comp = 1 then .value (P 1 1)
    else if comp = 2 then .value (P 1 0)
    else .undefined

end Ikarus.ResultEvaluators
