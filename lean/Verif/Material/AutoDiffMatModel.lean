import Verif.Material.ConversionModel
import Mathlib.Analysis.Calculus.Deriv.Basic

/-!
Model of ikarus/experimental/autodiffmat.hh: a material whose stresses and tangent moduli are made by the library autodiff.

The library is modelled by the exact partial derivatives it is documented to compute.  Numbers are real, three dimensions.
-/

namespace Ikarus.AutoDiffMat

open Matrix

noncomputable section

/-- The wrapped material, with its functions of its own strain measure as a matrix: `storedEnergyImpl`,
`stressesImpl<false>` and `tangentModuliImpl<false>`; `none` is a failure of the material.  That materials with other notations
for input and output give the same is C38. -/
structure Mat where
  strainTag : StrainTag
  derivativeFactor : ℝ
  energy : Matrix (Fin 3) (Fin 3) ℝ → Option ℝ
  stress : Matrix (Fin 3) (Fin 3) ℝ → Option (Matrix (Fin 3) (Fin 3) ℝ)
  moduli : Matrix (Fin 3) (Fin 3) ℝ → Option (Tensor4 ℝ 3)

/-- The 6x6 matrix of a tensor (`toVoigt`, tensorutils.hh:218-227; the entries are those written last, C31). -/
def moduliVoigt (L : Tensor4 ℝ 3) : Matrix (Fin 6) (Fin 6) ℝ :=
  Matrix.of fun i j => L (unvoigt3 i).2 (unvoigt3 i).1 (unvoigt3 j).2 (unvoigt3 j).1

namespace Mat

variable (msqrt : Matrix (Fin 3) (Fin 3) ℝ → Matrix (Fin 3) (Fin 3) ℝ) (m : Mat) (tag : StrainTag)

/-- `Material::storedEnergy<tag>(E)`, materials/interface.hh:187-200, for a matrix. -/
def storedEnergy (E : Matrix (Fin 3) (Fin 3) ℝ) : Option ℝ := (transformStrain msqrt tag m.strainTag E).bind m.energy

/-- `Material::stresses<tag>(E)`, materials/interface.hh:211-221, for a matrix and with the result in Voigt notation. -/
def stresses (E : Matrix (Fin 3) (Fin 3) ℝ) : Option (Fin 6 → ℝ) :=
  (transformStrain msqrt tag m.strainTag E).bind fun e => (m.stress e).map fun S => toVoigt3 S false

/-- `Material::tangentModuli<tag>(E)`, materials/interface.hh:232-242, for a matrix and with the result in Voigt notation. -/
def tangentModuli (E : Matrix (Fin 3) (Fin 3) ℝ) : Option (Matrix (Fin 6) (Fin 6) ℝ) :=
  (transformStrain msqrt tag m.strainTag E).bind fun e => (m.moduli e).map moduliVoigt

/-- `Material::storedEnergy<tag>(x)` for a vector in Voigt notation: `transformStrain` makes a matrix of it
(strainconversions.hh:122). -/
def storedEnergyVoigt (x : Fin 6 → ℝ) : Option ℝ := m.storedEnergy msqrt tag (fromVoigt3 x true)

/-- `Material::stresses<tag>(x)` for a vector in Voigt notation. -/
def stressesVoigt (x : Fin 6 → ℝ) : Option (Fin 6 → ℝ) := m.stresses msqrt tag (fromVoigt3 x true)

end Mat

/-- The seed of component `k`. -/
def seed (k : Fin 6) : Fin 6 → ℝ := fun i => if i = k then 1 else 0

/-- `autodiff::gradient` -/
def gradient (f : (Fin 6 → ℝ) → ℝ) (x : Fin 6 → ℝ) : Fin 6 → ℝ := fun k => deriv (fun t : ℝ => f (x + t • seed k)) 0

/-- `autodiff::jacobian` -/
def jacobian (f : (Fin 6 → ℝ) → Fin 6 → ℝ) (x : Fin 6 → ℝ) : Matrix (Fin 6) (Fin 6) ℝ :=
  Matrix.of fun i k => deriv (fun t : ℝ => f (x + t • seed k) i) 0

/-- `autodiff::hessian`: the entries with `i ≤ j` are computed and copied. -/
def hessian (f : (Fin 6 → ℝ) → ℝ) (x : Fin 6 → ℝ) : Matrix (Fin 6) (Fin 6) ℝ :=
  Matrix.of fun i j => deriv (fun s : ℝ => deriv (fun t : ℝ => f (x + s • seed (min i j) + t • seed (max i j))) 0) 0

/-- A result in Voigt notation or as a tensor. -/
inductive Result (V T : Type)
  | voigt (v : V)
  | tensor (A : T)

variable (msqrt : Matrix (Fin 3) (Fin 3) ℝ → Matrix (Fin 3) (Fin 3) ℝ) (m : Mat)

/-- `AutoDiffMAT::storedEnergy<tag>`, autodiffmat.hh:80-89: the energy of the material for dual numbers. -/
def storedEnergy (tag : StrainTag) (E : Matrix (Fin 3) (Fin 3) ℝ) : Option ℝ := m.storedEnergy msqrt tag E

/-- `AutoDiffMAT::stresses<tag, voigt>`, autodiffmat.hh:98-120, for a matrix.  The template parameter `voigt` does not occur in
the body. -/
def stresses (forceAutoDiffV forceAutoDiffS : Bool) (tag : StrainTag) (_voigt : Bool) (E : Matrix (Fin 3) (Fin 3) ℝ) :
    Option (Result (Fin 6 → ℝ) (Matrix (Fin 3) (Fin 3) ℝ)) :=
  if !(forceAutoDiffV || forceAutoDiffS) then (m.stresses msqrt tag E).map .voigt
  else
    let f := fun x => m.storedEnergyVoigt msqrt tag x
    let dx := toVoigt3 E true
    (f dx).map fun _ => .voigt (m.derivativeFactor • gradient (fun x => (f x).getD 0) dx)

/-- `AutoDiffMAT::tangentModuli<tag, voigt>`, autodiffmat.hh:129-170, for a matrix. -/
def tangentModuli (forceAutoDiffV forceAutoDiffS : Bool) (tag : StrainTag) (_voigt : Bool)
    (E : Matrix (Fin 3) (Fin 3) ℝ) : Option (Result (Matrix (Fin 6) (Fin 6) ℝ) (Tensor4 ℝ 3)) :=
  if !(forceAutoDiffV || forceAutoDiffS) then (m.tangentModuli msqrt tag E).map .voigt
  else if forceAutoDiffV && !forceAutoDiffS then
    let f := fun x => m.stressesVoigt msqrt tag x
    let dx := toVoigt3 E true
    (f dx).map fun _ => .voigt (m.derivativeFactor • jacobian (fun x => (f x).getD 0) dx)
  else
    let f := fun x => m.storedEnergyVoigt msqrt tag x
    let dx := toVoigt3 E true
    (f dx).map fun _ => .voigt ((m.derivativeFactor * m.derivativeFactor) • hessian (fun x => (f x).getD 0) dx)

end

end Ikarus.AutoDiffMat
