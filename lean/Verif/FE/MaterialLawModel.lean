import Verif.FE.ElementModel
import Verif.FE.ResultModel
import Verif.Material.AutoDiffMatModel

/-!
The materials of the library as the solid elements for large strains use them,
ikarus/finiteelements/mechanics/nonlinearelastic.hh:165-196 with ikarus/finiteelements/mechanics/materials/interface.hh:187-242:
a Green-Lagrange strain in Voigt notation is completed if the material is reduced, transformed to the measure of the material, and
energy, stresses and moduli are returned for it.  Numbers are real.
-/

namespace Ikarus.Element

open Matrix AutoDiffMat VanishingStress Result

/-- The functions of the material the reduced materials use (vanishingstress.hh:40-57, vanishingstrain.hh:30-50): stresses and
moduli in Voigt notation. -/
noncomputable def underlying (m : Mat) : UnderlyingLaw where
  energy := m.energy
  stress := fun e => (m.stress e).map fun S => toVoigt3 S false
  moduli := fun e => (m.moduli e).map moduliVoigt
  derivativeFactor := m.derivativeFactor
  strainTag := m.strainTag

section

variable (msqrt : M3 → M3) (m : Mat)

/-- `internalEnergy`, `stress` and `materialTangent` of an element in space (nonlinearelastic.hh:165-196).  Simplification: where
the material throws or aborts the model has the value zero; the theorems are about strains for which it answers. -/
noncomputable def spaceLaw : Law 6 where
  energy x := (m.storedEnergyVoigt msqrt .greenLagrangian x).getD 0
  stress x := (m.stressesVoigt msqrt .greenLagrangian x).getD 0
  tangent x := (m.tangentModuli msqrt .greenLagrangian (fromVoigt3 x true)).getD 0

/-- The strain of the material for a strain of a plane element: `enlargeIfReduced` and `transformStrain`
(materials/interface.hh:190-191, linearalgebrahelper.hh:616-642). -/
noncomputable def planeArgument (x : Fin 3 → ℝ) : Option M3 :=
  transformStrain msqrt .greenLagrangian m.strainTag (fromVoigt3 (enlargeVector planeFree x) true)

/-- `internalEnergy`, `stress` and `materialTangent` of a plane element with the material `planeStrain(mat)`
(vanishingstrain.hh:79-120 and 189-199). -/
noncomputable def planeStrainLaw : Law 3 where
  energy x := ((planeArgument msqrt m x).bind fun E =>
    VanishingStrain.storedEnergy (underlying m) planeStressPairs msqrt (.matrix E)).getD 0
  stress x := ((planeArgument msqrt m x).bind fun E =>
    VanishingStrain.stressesVoigt (underlying m) planeStressPairs msqrt (.matrix E)).getD 0
  tangent x := ((planeArgument msqrt m x).bind fun E =>
    VanishingStrain.tangentModuliVoigt (underlying m) planeStressPairs msqrt (.matrix E)).getD 0

/-- `internalEnergy`, `stress` and `materialTangent` of a plane element with the material `planeStress(mat, tol)`
(vanishingstress.hh:86-125 and 246-257). -/
noncomputable def planeStressLaw (nfGt : Bool) (tol : ℝ) : Law 3 where
  energy x := ((planeArgument msqrt m x).bind fun E =>
    (VanishingStress.storedEnergy (underlying m) planeStressPairs nfGt tol (.matrix E)).join).getD 0
  stress x := ((planeArgument msqrt m x).bind fun E =>
    (VanishingStress.stressesVoigt (underlying m) planeStressPairs nfGt tol (.matrix E)).join).getD 0
  tangent x := ((planeArgument msqrt m x).bind fun E =>
    (VanishingStress.tangentModuliVoigt (underlying m) planeStressPairs nfGt tol (.matrix E)).join).getD 0

end

end Ikarus.Element
