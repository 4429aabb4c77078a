import Verif.FE.ElementModel
import Verif.FE.AffordanceModel
import Verif.Tensor.Model
import Mathlib.Analysis.Real.Sqrt
import Mathlib.LinearAlgebra.CrossProduct
import Mathlib.LinearAlgebra.Matrix.NonsingularInverse

/-!
Model of ikarus/finiteelements/mechanics/kirchhoffloveshell.hh over the reals.  Position, Jacobian, second derivatives
and second fundamental form of the reference geometry and the derivatives of the shape functions are data of the
integration points.
-/

namespace Ikarus.Element

open Matrix

variable {n : Nat}

namespace Shell

/-- An integration point of the shell: `gp.weight()`, `geo.integrationElement`, the first and second derivatives `J`,
`H` of the position (rows), the second fundamental form `BV` in Voigt notation (kirchhoffloveshell.hh:203-205, 227) and the
derivatives `dN`, `ddN` of the shape functions. -/
structure ShellPoint (n : Nat) where
  detJ : ℝ
  weight : ℝ
  J : Fin 2 → Fin 3 → ℝ
  H : Fin 3 → Fin 3 → ℝ
  BV : Fin 3 → ℝ
  dN : Fin n → Fin 2 → ℝ
  ddN : Fin n → Fin 3 → ℝ

/-- `G`, the metric of the shell (kirchhoffloveshell.hh:206-210). -/
def metric (J : Fin 2 → Fin 3 → ℝ) : Matrix (Fin 3) (Fin 3) ℝ :=
  !![J 0 ⬝ᵥ J 0, J 0 ⬝ᵥ J 1, 0; J 1 ⬝ᵥ J 0, J 1 ⬝ᵥ J 1, 0; 0, 0, 1]

/-- The moduli (kirchhoffloveshell.hh:411-416). -/
noncomputable def moduli (emodul nu : ℝ) (Aconv : Matrix (Fin 3) (Fin 3) ℝ) : Tensor4 ℝ 3 := fun i j k l =>
  let lambda := emodul * nu / ((1 + nu) * (1 - 2 * nu))
  let mu := emodul / (2 * (1 + nu))
  let lambdbar := 2 * lambda * mu / (lambda + 2 * mu)
  lambdbar * dyadic Aconv Aconv i j k l + 2 * mu * symmetricFourthOrder Aconv Aconv i j k l

/-- `materialTangent` (kirchhoffloveshell.hh:410-421); `toVoigt` sets every entry (toVoigtTensor_entries), so that the
default is never taken. -/
noncomputable def materialTangent (emodul nu : ℝ) (Aconv : Matrix (Fin 3) (Fin 3) ℝ) : Matrix (Fin 3) (Fin 3) ℝ :=
  Matrix.of fun a b => (toVoigtTensor (moduli emodul nu Aconv) (![0, 1, 5] a) (![0, 1, 5] b)).getD 0

/-- `kin.C` (kirchhoffloveshell.hh:211-212). -/
noncomputable def tangentAt (emodul nu : ℝ) (p : ShellPoint n) : Matrix (Fin 3) (Fin 3) ℝ :=
  materialTangent emodul nu (metric p.J)⁻¹

/-- Row `i` of `kin.h` (kirchhoffloveshell.hh:216-219). -/
def hcur (p : ShellPoint n) (u : NodeVec n 3) (i : Fin 3) : Fin 3 → ℝ := p.H i + ∑ I, p.ddN I i • u I

/-- Row `a` of `kin.j` (kirchhoffloveshell.hh:220-222). -/
def jcur (p : ShellPoint n) (u : NodeVec n 3) (a : Fin 2) : Fin 3 → ℝ := Membrane.jcur p.J p.dN u a

/-- `kin.a3N` (kirchhoffloveshell.hh:223). -/
def a3N (p : ShellPoint n) (u : NodeVec n 3) : Fin 3 → ℝ := jcur p u 0 ⨯₃ jcur p u 1

/-- `Eigen::norm`. -/
noncomputable def norm (x : Fin 3 → ℝ) : ℝ := √(x ⬝ᵥ x)

/-- `Eigen::normalized`, which returns the vector itself if its squared norm is not positive. -/
noncomputable def normalized (x : Fin 3 → ℝ) : Fin 3 → ℝ := if 0 < x ⬝ᵥ x then (norm x)⁻¹ • x else x

/-- `kin.a3` (kirchhoffloveshell.hh:224). -/
noncomputable def a3 (p : ShellPoint n) (u : NodeVec n 3) : Fin 3 → ℝ := normalized (a3N p u)

/-- The factor two of the third Voigt component (kirchhoffloveshell.hh:226, 376, 399). -/
def two (i : Fin 3) : ℝ := if i = 2 then 2 else 1

/-- `kin.kappaV` (kirchhoffloveshell.hh:225-228). -/
noncomputable def kappaV (p : ShellPoint n) (u : NodeVec n 3) : Fin 3 → ℝ := fun i =>
  p.BV i - (hcur p u i ⬝ᵥ a3 p u) * two i

/-- `kin.epsV` (kirchhoffloveshell.hh:214). -/
noncomputable def epsV (p : ShellPoint n) (u : NodeVec n 3) : Fin 3 → ℝ := Membrane.value p.J p.dN u

/-- `P` (kirchhoffloveshell.hh:348-349, 396). -/
noncomputable def projector (a3N a3 : Fin 3 → ℝ) : Matrix (Fin 3) (Fin 3) ℝ :=
  (1 / norm a3N) • (1 - vecMulVec a3 a3)

/-- `a3NdI` (kirchhoffloveshell.hh:359-360, 386-393): column `b` of `(dN1 * Identity).colwise().cross(a2) -
(dN2 * Identity).colwise().cross(a1)`. -/
def a3Nd (p : ShellPoint n) (u : NodeVec n 3) (I : Fin n) : Matrix (Fin 3) (Fin 3) ℝ := Matrix.of fun a b =>
  ((p.dN I 0 • (Pi.single b 1 : Fin 3 → ℝ)) ⨯₃ jcur p u 1 -
    (p.dN I 1 • (Pi.single b 1 : Fin 3 → ℝ)) ⨯₃ jcur p u 0) a

/-- `bopBending` (kirchhoffloveshell.hh:382-402). -/
noncomputable def bopBending (p : ShellPoint n) (u : NodeVec n 3) (I : Fin n) : Matrix (Fin 3) (Fin 3) ℝ :=
  let a3d1 := projector (a3N p u) (a3 p u) * a3Nd p u I
  let bop := -(Matrix.of (hcur p u) * a3d1 + vecMulVec (p.ddN I) (a3 p u))
  Matrix.of fun i b => bop i b * two i

/-- `kgBending` (kirchhoffloveshell.hh:336-380), the loop over the three components of the stress as a sum. -/
noncomputable def kgBending (p : ShellPoint n) (u : NodeVec n 3) (S : Fin 3 → ℝ) (I J : Fin n) :
    Matrix (Fin 3) (Fin 3) ℝ :=
  let a3N := a3N p u
  let a3 := a3 p u
  let P := projector a3N a3
  let a3NdI := a3Nd p u I
  let a3NdJ := a3Nd p u J
  let a3dI := P * a3NdI
  let a3dJ := P * a3NdJ
  ∑ i, -((S i * two i) •
    (a3NdIᵀ * ((1 / (a3N ⬝ᵥ a3N)) • ((a3 ⬝ᵥ hcur p u i) • ((3 : ℝ) • vecMulVec a3 a3 - 1)
        - vecMulVec (hcur p u i) a3 - vecMulVec a3 (hcur p u i))) * a3NdJ +
      skewOf ((p.dN I 1 * p.dN J 0 - p.dN I 0 * p.dN J 1) • (P *ᵥ hcur p u i)) +
      (p.ddN I i • a3dJ + p.ddN J i • a3dIᵀ)))

/-- `calculateScalarImpl` (kirchhoffloveshell.hh:310-334); `none` is the exception for other affordances. -/
noncomputable def calculateScalar (emodul nu thickness : ℝ) (gps : List (ShellPoint n)) (affordance : ScalarAffordance)
    (u : NodeVec n 3) : Option ℝ :=
  if affordance ≠ .mechanicalPotentialEnergy then none
  else some (gps.foldl (fun energy gp =>
    let C := tangentAt emodul nu gp
    let membraneEnergy := 0.5 * thickness * (epsV gp u ⬝ᵥ (C *ᵥ epsV gp u))
    let bendingEnergy := 0.5 * thickness ^ 3 / 12 * (kappaV gp u ⬝ᵥ (C *ᵥ kappaV gp u))
    energy + (membraneEnergy + bendingEnergy) * gp.detJ * gp.weight) 0)

/-- `membraneForces` (kirchhoffloveshell.hh:248, 293). -/
noncomputable def membraneForces (emodul nu thickness : ℝ) (gp : ShellPoint n) (u : NodeVec n 3) : Fin 3 → ℝ :=
  (thickness • tangentAt emodul nu gp) *ᵥ epsV gp u

/-- `moments` (kirchhoffloveshell.hh:249, 294). -/
noncomputable def moments (emodul nu thickness : ℝ) (gp : ShellPoint n) (u : NodeVec n 3) : Fin 3 → ℝ :=
  ((thickness ^ 3 / 12) • tangentAt emodul nu gp) *ᵥ kappaV gp u

/-- `calculateVectorImpl` (kirchhoffloveshell.hh:277-308). -/
noncomputable def calculateVector (emodul nu thickness : ℝ) (gps : List (ShellPoint n)) (affordance : VectorAffordance)
    (u : NodeVec n 3) (force : NodeVec n 3) : Option (NodeVec n 3) :=
  if affordance ≠ .forces then none
  else some (gps.foldl (fun force gp =>
    (List.finRange n).foldl (fun force i =>
      let force := addSegment force i
        ((gp.detJ * gp.weight) • ((Membrane.derivative gp.J gp.dN u i)ᵀ *ᵥ membraneForces emodul nu thickness gp u))
      addSegment force i ((gp.detJ * gp.weight) • ((bopBending gp u i)ᵀ *ᵥ moments emodul nu thickness gp u)))
      force) force)

/-- `K.template triangularView<Eigen::StrictlyLower>() = K.transpose()` (kirchhoffloveshell.hh:274): entry
`(3 * I + a, 3 * J + b)` below the diagonal is overwritten by its mirror image. -/
def mirror (K : BlockMat n 3) : BlockMat n 3 := fun I J => Matrix.of fun a b =>
  if J < I ∨ (I = J ∧ b < a) then K J I b a else K I J a b

/-- `calculateMatrixImpl` (kirchhoffloveshell.hh:232-275). -/
noncomputable def calculateMatrix (emodul nu thickness : ℝ) (gps : List (ShellPoint n)) (affordance : MatrixAffordance)
    (u : NodeVec n 3) (K : BlockMat n 3) : Option (BlockMat n 3) :=
  if affordance ≠ .stiffness then none
  else some (mirror (gps.foldl (fun K gp =>
    let C := tangentAt emodul nu gp
    let intElement := gp.detJ * gp.weight
    (List.finRange n).foldl (fun K i =>
      ((List.finRange n).filter (fun j => i ≤ j)).foldl (fun K j =>
        let K := addBlock K i j (intElement • (thickness •
          ((Membrane.derivative gp.J gp.dN u i)ᵀ * C * Membrane.derivative gp.J gp.dN u j)))
        let K := addBlock K i j (intElement • ((thickness ^ 3 / 12) • ((bopBending gp u i)ᵀ * C * bopBending gp u j)))
        let K := addBlock K i j (intElement •
          Membrane.secondDerivative gp.dN (membraneForces emodul nu thickness gp u) i j)
        addBlock K i j (intElement • kgBending gp u (moments emodul nu thickness gp u) i j)) K) K) K))

end Shell

end Ikarus.Element
