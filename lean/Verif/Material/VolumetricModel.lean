import Mathlib.Analysis.SpecialFunctions.Pow.Real

/-!
Volumetric functions,
ikarus/finiteelements/mechanics/materials/hyperelastic/volumetric/{volumetricfunctions,interface}.hh. Numbers are
real numbers; `pow` with an integer exponent is a power, otherwise the real power of a positive base.
-/

namespace Ikarus

noncomputable section

/-- volumetricfunctions.hh:25-380; functions 4, 7 and 10 carry the parameter `beta_`. -/
inductive VF where
  | f0 | f1 | f2 | f3 | f4 (beta : ℝ) | f5 | f6 | f7 (beta : ℝ) | f8 | f9 | f10 (beta : ℝ) | f11 | f12

namespace VF

/-- volumetricfunctions.hh, `storedEnergyImpl`: lines 28, 54, 80, 107, 133, 167, 193, 219, 253, 279, 306, 340,
365. -/
def storedEnergy : VF → ℝ → ℝ
  | f0, _ => 0
  | f1, J => 1 / 2 * (J - 1) ^ 2
  | f2, J => 1 / 4 * ((J - 1) ^ 2 + Real.log J ^ 2)
  | f3, J => 1 / 2 * Real.log J ^ 2
  | f4 b, J => 1 / b ^ 2 * (1 / J ^ b - 1 + b * Real.log J)
  | f5, J => 1 / 4 * (J ^ 2 - 1 - 2 * Real.log J)
  | f6, J => J - Real.log J - 1
  | f7 b, J => J ^ b * (b * Real.log J - 1) + 1
  | f8, J => J * Real.log J - J + 1
  | f9, J => 1 / 32 * (J ^ 2 - J ^ (-2 : ℤ)) ^ 2
  | f10 b, J => J / b * (1 - J ^ (-b) / (1 - b)) + 1 / (b - 1)
  | f11, J => 1 / 50 * (J ^ 5 + J ^ (-5 : ℤ) - 2)
  | f12, J => J - 1

/-- volumetricfunctions.hh, `firstDerivativeImpl`: lines 33, 59, 85, 112, 138, 172, 198, 224, 258, 284, 311,
345, 370. -/
def firstDerivative : VF → ℝ → ℝ
  | f0, _ => 0
  | f1, J => J - 1
  | f2, J => 1 / 2 * (J - 1 + 1 / J * Real.log J)
  | f3, J => 1 / J * Real.log J
  | f4 b, J => 1 / b * (1 / J - 1 / J ^ (1 + b))
  | f5, J => 1 / 2 * (J - 1 / J)
  | f6, J => 1 - 1 / J
  | f7 b, J => b ^ 2 * (1 / J ^ (1 - b)) * Real.log J
  | f8, J => Real.log J
  | f9, J => 1 / 8 * (J ^ 3 - 1 / J ^ 5)
  | f10 b, J => 1 / b * (1 - J ^ (-b))
  | f11, J => 1 / 10 * (J ^ 4 - J ^ (-6 : ℤ))
  | f12, _ => 1

/-- volumetricfunctions.hh, `secondDerivativeImpl`: lines 38, 64, 90, 117, 143, 177, 203, 229, 263, 289, 316,
350, 375. -/
def secondDerivative : VF → ℝ → ℝ
  | f0, _ => 0
  | f1, _ => 1
  | f2, J => 1 / (2 * J ^ 2) * (1 + J ^ 2 - Real.log J)
  | f3, J => 1 / J ^ 2 * (1 - Real.log J)
  | f4 b, J => 1 / b * (1 / J ^ (2 + b) * (1 + b - J ^ b))
  | f5, J => 1 / 2 * (1 + 1 / J ^ 2)
  | f6, J => 1 / J ^ 2
  | f7 b, J => b ^ 2 * J ^ (b - 2) * (1 + (b - 1) * Real.log J)
  | f8, J => 1 / J
  | f9, J => 1 / 8 * (5 * J ^ (-6 : ℤ) + 3 * J ^ 2)
  | f10 b, J => J ^ (-1 - b)
  | f11, J => 1 / 10 * (4 * J ^ 3 + 6 * J ^ (-7 : ℤ))
  | f12, _ => 0

end VF

/-- volumetric/interface.hh:30-102. -/
structure Volumetric where
  matPar : ℝ
  vf : VF

namespace Volumetric

/-- volumetric/interface.hh:70-73. -/
def storedEnergy (v : Volumetric) (J : ℝ) : ℝ := v.matPar * v.vf.storedEnergy J

/-- volumetric/interface.hh:82-85. -/
def firstDerivative (v : Volumetric) (J : ℝ) : ℝ := v.matPar * v.vf.firstDerivative J

/-- volumetric/interface.hh:94-97. -/
def secondDerivative (v : Volumetric) (J : ℝ) : ℝ := v.matPar * v.vf.secondDerivative J

end Volumetric

end

end Ikarus
