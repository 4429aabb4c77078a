import Verif.FE.ElementModel
import Mathlib.Analysis.Real.Sqrt

/-!
Model of ikarus/finiteelements/mechanics/truss.hh over the reals.  The element has the two nodes 0 and 1.
A bar of zero length divides by zero in the code; the theorems that depend on it ask for distinct corners.
-/

namespace Ikarus.Element

open Matrix

variable {d : Nat}

namespace Truss

/-- `KinematicVariables` (truss.hh:66-77). -/
structure Kinematics (d : Nat) where
  L : ℝ
  l : ℝ
  Elin : ℝ
  Egl : ℝ
  dEdu : NodeVec 2 d
  ddEddu : BlockMat 2 d

/-- `Eigen::squaredNorm`. -/
def squaredNorm (x : Fin d → ℝ) : ℝ := x ⬝ᵥ x

/-- `computeStrain` (truss.hh:115-157); `X1`, `X2` are the corners, `u` the nodal displacements. -/
noncomputable def computeStrain (X1 X2 : Fin d → ℝ) (u : NodeVec 2 d) : Kinematics d :=
  let A1 := X2 - X1
  let ud1 := u 1 - u 0
  let x1 := X1 + u 0
  let x2 := X2 + u 1
  let Lsquared := squaredNorm A1
  let lsquared := squaredNorm (x2 - x1)
  let L := √Lsquared
  let l := √lsquared
  { L := L
    l := l
    Elin := (l - L) / L
    Egl := 0.5 * (lsquared - Lsquared) / Lsquared
    dEdu := ![Lsquared⁻¹ • (-A1 - ud1), Lsquared⁻¹ • (A1 + ud1)]
    ddEddu := fun I J => Lsquared⁻¹ • (if I = J then 1 else -1) }

/-- `calculateScalarImpl` (truss.hh:207-213). -/
noncomputable def calculateScalar (E A : ℝ) (X1 X2 : Fin d → ℝ) (u : NodeVec 2 d) : ℝ :=
  let kin := computeStrain X1 X2 u
  0.5 * E * A * kin.L * kin.Egl * kin.Egl

/-- `calculateVectorImpl` (truss.hh:215-221). -/
noncomputable def calculateVector (E A : ℝ) (X1 X2 : Fin d → ℝ) (u : NodeVec 2 d) (force : NodeVec 2 d) : NodeVec 2 d :=
  let kin := computeStrain X1 X2 u
  force + (E * A * kin.Egl * kin.L) • kin.dEdu

/-- `calculateMatrixImpl` (truss.hh:199-205). -/
noncomputable def calculateMatrix (E A : ℝ) (X1 X2 : Fin d → ℝ) (u : NodeVec 2 d) (K : BlockMat 2 d) : BlockMat 2 d :=
  let kin := computeStrain X1 X2 u
  K + (E * A * kin.L) • fun I J => Matrix.vecMulVec (kin.dEdu I) (kin.dEdu J) + kin.Egl • kin.ddEddu I J

/-- `calculateAtImpl` for `cauchyAxialForce` (truss.hh:176-179). -/
noncomputable def cauchyAxialForce (E A : ℝ) (X1 X2 : Fin d → ℝ) (u : NodeVec 2 d) : ℝ :=
  let kin := computeStrain X1 X2 u
  E * A * kin.Egl * kin.l / kin.L

/-- `calculateAtImpl` for `PK2AxialForce` (truss.hh:180-183). -/
noncomputable def pk2AxialForce (E A : ℝ) (X1 X2 : Fin d → ℝ) (u : NodeVec 2 d) : ℝ :=
  E * A * (computeStrain X1 X2 u).Egl

/-- `calculateAtImpl` for `linearAxialForce` (truss.hh:184-187). -/
noncomputable def linearAxialForce (E A : ℝ) (X1 X2 : Fin d → ℝ) (u : NodeVec 2 d) : ℝ :=
  E * A * (computeStrain X1 X2 u).Elin

end Truss

end Ikarus.Element
