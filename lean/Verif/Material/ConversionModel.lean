import Verif.Tensor.Model
import Mathlib.LinearAlgebra.Matrix.NonsingularInverse
import Mathlib.Data.Real.Basic

/-!
Conversions between strain measures, stress measures and tangent moduli,
ikarus/finiteelements/mechanics/materials/{strainconversions,stressconversions,materialconversions}.hh.
The size of the matrices is arbitrary (the code allows 2 and 3). Voigt arguments, which the functions first
turn into matrices (`maybeFromVoigt`), are covered by the round trips of `Verif.Tensor.VoigtProps`.
-/

namespace Ikarus

open Matrix

/-- ikarus/finiteelements/mechanics/materials/tags.hh:19 -/
inductive StrainTag where
  | linear | deformationGradient | displacementGradient | greenLagrangian | rightCauchyGreenTensor
  deriving DecidableEq

/-- ikarus/finiteelements/mechanics/materials/tags.hh:25 -/
inductive StressTag where
  | linear | PK2 | PK1 | Cauchy | Kirchhoff
  deriving DecidableEq

/-- ikarus/finiteelements/mechanics/materials/tags.hh:32 -/
inductive TangentModuliTag where
  | Material | Spatial | TwoPoint
  deriving DecidableEq

section

variable {n : Type} [Fintype n] [DecidableEq n]

noncomputable section

/-- ikarus/finiteelements/mechanics/materials/strainconversions.hh:33-46. `none`: the function has no
return statement for that tag. -/
def createGreenLagrangianStrains (tag : StrainTag) (e : Matrix n n ℝ) : Option (Matrix n n ℝ) :=
  match tag with
  | .greenLagrangian => some e
  | .deformationGradient => some ((1 / 2 : ℝ) • (eᵀ * e - 1))
  | .displacementGradient => some ((1 / 2 : ℝ) • (e + eᵀ + eᵀ * e))
  | .rightCauchyGreenTensor => some ((1 / 2 : ℝ) • (e - 1))
  | .linear => none

/-- ikarus/finiteelements/mechanics/materials/strainconversions.hh:58-76. `msqrt` is Eigen's principal
square root of a matrix. -/
def createDeformationGradient (msqrt : Matrix n n ℝ → Matrix n n ℝ) (tag : StrainTag)
    (e : Matrix n n ℝ) : Option (Matrix n n ℝ) :=
  match tag with
  | .greenLagrangian => some (msqrt ((2 : ℝ) • e + 1))
  | .deformationGradient => some e
  | .displacementGradient => some (e + 1)
  | .rightCauchyGreenTensor => some (msqrt e)
  | .linear => none

/-- ikarus/finiteelements/mechanics/materials/strainconversions.hh:88-106. -/
def createRightCauchyGreen (tag : StrainTag) (e : Matrix n n ℝ) : Option (Matrix n n ℝ) :=
  match tag with
  | .greenLagrangian => some ((2 : ℝ) • e + 1)
  | .deformationGradient => some (eᵀ * e)
  | .displacementGradient => some ((e + 1)ᵀ * (e + 1))
  | .rightCauchyGreenTensor => some e
  | .linear => none

/-- ikarus/finiteelements/mechanics/materials/strainconversions.hh:118-134. `none` where the static
assertions fail. -/
def transformStrain (msqrt : Matrix n n ℝ → Matrix n n ℝ) (frm tgt : StrainTag) (e : Matrix n n ℝ) :
    Option (Matrix n n ℝ) :=
  if frm = tgt then some e
  else if frm = .linear ∨ tgt = .linear then none
  else match tgt with
    | .greenLagrangian => createGreenLagrangianStrains frm e
    | .deformationGradient => createDeformationGradient msqrt frm e
    | .rightCauchyGreenTensor => createRightCauchyGreen frm e
    | _ => none

/-- ikarus/finiteelements/mechanics/materials/stressconversions.hh:32-48. -/
def createPK2Stress (tag : StressTag) (S F : Matrix n n ℝ) : Option (Matrix n n ℝ) :=
  match tag with
  | .Cauchy => some (F.det • F⁻¹ * S * (F⁻¹)ᵀ)
  | .Kirchhoff => some (F⁻¹ * S * (F⁻¹)ᵀ)
  | .PK1 => some (F⁻¹ * S)
  | .PK2 => some S
  | .linear => none

/-- ikarus/finiteelements/mechanics/materials/stressconversions.hh:61-74. -/
def createPK1Stress (tag : StressTag) (S F : Matrix n n ℝ) : Option (Matrix n n ℝ) :=
  match tag with
  | .Cauchy => some (F.det • S * (F⁻¹)ᵀ)
  | .Kirchhoff => some (S * (F⁻¹)ᵀ)
  | .PK1 => some S
  | .PK2 => some (F * S)
  | .linear => none

/-- ikarus/finiteelements/mechanics/materials/stressconversions.hh:87-100. -/
def createKirchhoffStress (tag : StressTag) (S F : Matrix n n ℝ) : Option (Matrix n n ℝ) :=
  match tag with
  | .Cauchy => some (F.det • S)
  | .Kirchhoff => some S
  | .PK1 => some (S * Fᵀ)
  | .PK2 => some (F * S * Fᵀ)
  | .linear => none

/-- ikarus/finiteelements/mechanics/materials/stressconversions.hh:113-127. -/
def createCauchyStress (tag : StressTag) (S F : Matrix n n ℝ) : Option (Matrix n n ℝ) :=
  match tag with
  | .Cauchy => some S
  | .Kirchhoff => some ((1 / F.det) • S)
  | .PK1 => some ((1 / F.det) • S * Fᵀ)
  | .PK2 => some ((1 / F.det) • F * S * Fᵀ)
  | .linear => none

/-- ikarus/finiteelements/mechanics/materials/stressconversions.hh:141-162. `none` where the static
assertions fail. -/
def transformStress (frm tgt : StressTag) (S F : Matrix n n ℝ) : Option (Matrix n n ℝ) :=
  if frm = tgt then some S
  else if frm = .linear ∨ tgt = .linear then none
  else match tgt with
    | .PK2 => createPK2Stress frm S F
    | .PK1 => createPK1Stress frm S F
    | .Kirchhoff => createKirchhoffStress frm S F
    | .Cauchy => createCauchyStress frm S F
    | .linear => none

end

end

/-- ikarus/finiteelements/mechanics/materials/materialconversions.hh:37-64. The loop over the summation
indices I and K adds to the entry set in line 52. -/
def createTwoPointMaterialTensor {K : Type} [Field K] (tag : TangentModuliTag) (C : Tensor4 K 3)
    (S F : Matrix (Fin 3) (Fin 3) K) : Option (Tensor4 K 3) :=
  match tag with
  | .Material => some fun i J k L =>
      (List.finRange 3).foldl (fun a I => (List.finRange 3).foldl
        (fun a M => a + C I J M L * F i I * F k M) a)
        (0 + (if i = k then 1 else 0) * S J L)
  | .TwoPoint => some C
  | .Spatial => none

/-- ikarus/finiteelements/mechanics/materials/materialconversions.hh:80-93. -/
def transformTangentModuli {K : Type} [Field K] (frm tgt : TangentModuliTag) (C : Tensor4 K 3)
    (S F : Matrix (Fin 3) (Fin 3) K) : Option (Tensor4 K 3) :=
  if frm = tgt then some C
  else match tgt with
    | .TwoPoint => createTwoPointMaterialTensor frm C S F
    | _ => none

end Ikarus
