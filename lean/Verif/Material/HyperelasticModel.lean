import Verif.Material.DeviatoricModel
import Verif.Material.VolumetricModel

/-!
Hyperelastic materials from a deviatoric and a volumetric function,
ikarus/finiteelements/mechanics/materials/hyperelastic/interface.hh, for real numbers (`double`; the branches for
automatic differentiation are left out). The eigenvalue solver of Eigen is a parameter: it maps a symmetric matrix to its
eigenvalues and a matrix of eigenvectors, or fails.
-/

namespace Ikarus

open Matrix

noncomputable section

/-- Result of the eigenvalue solver. -/
abbrev EigenSolver := Matrix (Fin 3) (Fin 3) ℝ → Option ((Fin 3 → ℝ) × Matrix (Fin 3) (Fin 3) ℝ)

/-- ikarus/finiteelements/mechanics/materials/materialhelpers.hh:138-152, with eigenvectors. -/
def principalStretches (solver : EigenSolver) (C : Matrix (Fin 3) (Fin 3) ℝ) :
    Option ((Fin 3 → ℝ) × Matrix (Fin 3) (Fin 3) ℝ) := do
  let r ← solver C
  return (fun a => √(r.1 a), r.2)

/-- hyperelastic/interface.hh:171-172. -/
structure Hyperelastic where
  dev : DevFun
  vol : Volumetric

namespace Hyperelastic

variable (h : Hyperelastic)

/-- hyperelastic/interface.hh:243-253. -/
def detF (eps : ℝ) (l : Fin 3 → ℝ) : Option ℝ := do
  let detC := determinantFromPrincipalValues l
  checkPositiveOrAbort eps detC
  return detC

/-- hyperelastic/interface.hh:105-113. -/
def storedEnergy (solver : EigenSolver) (eps : ℝ) (C : Matrix (Fin 3) (Fin 3) ℝ) : Option ℝ := do
  let lN ← principalStretches solver C
  let J ← detF eps lN.1
  let Wdev ← h.dev.storedEnergy lN.1
  return Wdev + h.vol.storedEnergy J

/-- hyperelastic/interface.hh:176-180. -/
def transformDeviatoricStresses (S : Fin 3 → ℝ) (N : Matrix (Fin 3) (Fin 3) ℝ) :
    Matrix (Fin 3) (Fin 3) ℝ := N * diagonal S * Nᵀ

/-- hyperelastic/interface.hh:182-185. -/
def transformVolumetricStresses (Uprime : ℝ) (C : Matrix (Fin 3) (Fin 3) ℝ) (J : ℝ) :
    Matrix (Fin 3) (Fin 3) ℝ := (J * Uprime) • C⁻¹

/-- hyperelastic/interface.hh:122-135. -/
def stresses (solver : EigenSolver) (eps : ℝ) (C : Matrix (Fin 3) (Fin 3) ℝ) :
    Option (Matrix (Fin 3) (Fin 3) ℝ) := do
  let lN ← principalStretches solver C
  let J ← detF eps lN.1
  let S ← h.dev.stresses lN.1
  return transformDeviatoricStresses S lN.2 + transformVolumetricStresses (h.vol.firstDerivative J) C J

/-- Dyadic product of two columns, hyperelastic/interface.hh:197. -/
def colDyad (N : Matrix (Fin 3) (Fin 3) ℝ) (i k : Fin 3) : Matrix (Fin 3) (Fin 3) ℝ :=
  fun a b => N a i * N b k

/-- hyperelastic/interface.hh:187-212. -/
def transformDeviatoricTangentModuli (L : Tensor4 ℝ 3) (N : Matrix (Fin 3) (Fin 3) ℝ) : Tensor4 ℝ 3 :=
  fun a b c d => ∑ i, ∑ k,
    (L i i k k * dyadic (colDyad N i i) (colDyad N k k) a b c d +
      if i ≠ k then L i k i k * dyadic (colDyad N i k) (colDyad N i k + colDyad N k i) a b c d else 0)

/-- hyperelastic/interface.hh:214-225. -/
def transformVolumetricTangentModuli (Uprime Uprimeprime : ℝ) (C : Matrix (Fin 3) (Fin 3) ℝ) (J : ℝ) :
    Option (Tensor4 ℝ 3) := do
  let invC := C⁻¹
  let sym ← symTwoSlots (fourthOrderIKJL invC invC) 2 3
  return fun a b c d =>
    J * ((Uprime + J * Uprimeprime) * dyadic invC invC a b c d - 2 * Uprime * sym a b c d)

/-- hyperelastic/interface.hh:144-157; `epsEq` is the tolerance of deviatoric/interface.hh:118. -/
def tangentModuli (solver : EigenSolver) (eps epsEq : ℝ) (C : Matrix (Fin 3) (Fin 3) ℝ) :
    Option (Tensor4 ℝ 3) := do
  let lN ← principalStretches solver C
  let J ← detF eps lN.1
  let L ← h.dev.tangentModuli epsEq lN.1
  let moduliVol ← transformVolumetricTangentModuli (h.vol.firstDerivative J) (h.vol.secondDerivative J) C J
  let moduliDev := transformDeviatoricTangentModuli L lN.2
  return fun a b c d => moduliDev a b c d + moduliVol a b c d

end Hyperelastic

end

end Ikarus
