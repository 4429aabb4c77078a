import Verif.FE.MaterialLawModel
import Verif.Material.HyperelasticModel

/-! The hyperelastic materials as the solid elements use them. -/

namespace Ikarus.Element

open AutoDiffMat

/-- A hyperelastic material with its strain measure and its factor, hyperelastic/interface.hh:57-65, 105-157.  `solver` is the
solver of the eigenvalue problem, `eps` and `epsEq` are the tolerances of the comparisons of numbers. -/
noncomputable def hyperelasticMat (h : Hyperelastic) (solver : EigenSolver) (eps epsEq : ℝ) : Mat where
  strainTag := .rightCauchyGreenTensor
  derivativeFactor := 2
  energy C := h.storedEnergy solver eps C
  stress C := h.stresses solver eps C
  moduli C := h.tangentModuli solver eps epsEq C

end Ikarus.Element
