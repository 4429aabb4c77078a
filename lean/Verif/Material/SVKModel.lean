import Verif.Tensor.Model
import Mathlib.LinearAlgebra.Matrix.NonsingularInverse

/-!
St. Venant-Kirchhoff material (and linear elasticity, which forwards to it),
ikarus/finiteelements/mechanics/materials/{svk,linearelasticity,interface}.hh. Numbers are elements of a
field.
-/

namespace Ikarus

open Matrix

variable {K : Type} [Field K]

/-- ikarus/finiteelements/physicshelper.hh:36-40 and svk.hh:193. -/
structure SVK (K : Type) where
  lambda : K
  mu : K

namespace SVK

variable (m : SVK K)

/-- ikarus/finiteelements/mechanics/materials/svk.hh:80-85, energy of a strain in Voigt notation. -/
def energyVoigt (E : Fin 6 → K) : K :=
  let traceE := E 0 + E 1 + E 2
  let squaredNorm := (E 0 * E 0 + E 1 * E 1 + E 2 * E 2) + (E 3 * E 3 + E 4 * E 4 + E 5 * E 5) / 2
  m.lambda / 2 * traceE * traceE + m.mu * squaredNorm

/-- ikarus/finiteelements/mechanics/materials/svk.hh:85-88, energy of a strain matrix. -/
def energyMatrix (E : Matrix (Fin 3) (Fin 3) K) : K :=
  m.lambda / 2 * E.trace * E.trace + m.mu * ∑ i, ∑ j, E i j * E i j

/-- ikarus/finiteelements/mechanics/materials/svk.hh:103-112, from Voigt notation to a matrix. -/
def stressVoigtToMatrix (E : Fin 6 → K) : Matrix (Fin 3) (Fin 3) K :=
  let traceE := E 0 + E 1 + E 2
  !![m.lambda * traceE + 2 * m.mu * E 0, m.mu * E 5, m.mu * E 4;
     m.mu * E 5, m.lambda * traceE + 2 * m.mu * E 1, m.mu * E 3;
     m.mu * E 4, m.mu * E 3, m.lambda * traceE + 2 * m.mu * E 2]

/-- ikarus/finiteelements/mechanics/materials/svk.hh:113-117, from a matrix to a matrix. -/
def stressMatrixToMatrix (E : Matrix (Fin 3) (Fin 3) K) : Matrix (Fin 3) (Fin 3) K :=
  (m.lambda * E.trace) • (1 : Matrix (Fin 3) (Fin 3) K) + (2 * m.mu) • E

/-- ikarus/finiteelements/mechanics/materials/svk.hh:119-127, from Voigt notation to Voigt notation. -/
def stressVoigtToVoigt (E : Fin 6 → K) : Fin 6 → K :=
  let traceE := E 0 + E 1 + E 2
  ![traceE * m.lambda + m.mu * 2 * E 0, traceE * m.lambda + m.mu * 2 * E 1,
    traceE * m.lambda + m.mu * 2 * E 2, m.mu * E 3, m.mu * E 4, m.mu * E 5]

/-- ikarus/finiteelements/mechanics/materials/svk.hh:128-136, from a matrix to Voigt notation. -/
def stressMatrixToVoigt (E : Matrix (Fin 3) (Fin 3) K) : Fin 6 → K :=
  ![E.trace * m.lambda + 2 * m.mu * E 0 0, E.trace * m.lambda + 2 * m.mu * E 1 1,
    E.trace * m.lambda + 2 * m.mu * E 2 2, 2 * m.mu * E 1 2, 2 * m.mu * E 0 2, 2 * m.mu * E 0 1]

/-- ikarus/finiteelements/mechanics/materials/svk.hh:151-155. -/
def moduliTensor : Tensor4 K 3 := fun i j k l =>
  m.lambda * identityFourthOrder 3 i j k l + 2 * m.mu * symmetricIdentityFourthOrder 3 i j k l

/-- ikarus/finiteelements/mechanics/materials/svk.hh:156-163: zero, then the two blocks. -/
def moduliVoigt : Matrix (Fin 6) (Fin 6) K := fun i j =>
  if i.val < 3 ∧ j.val < 3 then m.lambda + (if i = j then 2 * m.mu else 0)
  else if 3 ≤ i.val ∧ 3 ≤ j.val then (if i = j then m.mu else 0)
  else 0

/-- ikarus/finiteelements/mechanics/materials/svk.hh:183-190 for a matrix argument. -/
noncomputable def materialInversion (S : Matrix (Fin 3) (Fin 3) K) :
    Matrix (Fin 6) (Fin 6) K × (Fin 6 → K) :=
  let D := m.moduliVoigt⁻¹
  (D, D *ᵥ toVoigt3 S false)

/-- ikarus/finiteelements/mechanics/materials/interface.hh:264-285 for this material, `voigt = true`:
the strain is converted to a matrix and back. -/
noncomputable def materialInversionVoigt (S : Matrix (Fin 3) (Fin 3) K) :
    Matrix (Fin 6) (Fin 6) K × (Fin 6 → K) :=
  let r := m.materialInversion S
  (r.1, toVoigt3 (fromVoigt3 r.2 true) true)

/-- ikarus/finiteelements/mechanics/materials/interface.hh:264-285 for this material, `voigt = false`. -/
noncomputable def materialInversionTensor (S : Matrix (Fin 3) (Fin 3) K) :
    Tensor4 (Option K) 3 × Matrix (Fin 3) (Fin 3) K :=
  let r := m.materialInversion S
  (fromVoigtTensor3 r.1, fromVoigt3 r.2 true)

end SVK

end Ikarus
