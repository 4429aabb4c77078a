import Verif.Tensor.Model
import Verif.Material.LameModel
import Mathlib.Analysis.SpecialFunctions.Log.Basic
import Mathlib.Analysis.SpecialFunctions.Sqrt
import Mathlib.LinearAlgebra.Matrix.NonsingularInverse

/-!
Compressible Neo-Hooke material,
ikarus/finiteelements/mechanics/materials/hyperelastic/neohooke.hh. Numbers are real; `abort()` is `none`.
The scalar function `lambertW0` (ikarus/utils/lambertw.hh) is a parameter of the inversion, and may throw
(`none`).
-/

namespace Ikarus

open Matrix Real

/-- ikarus/finiteelements/physicshelper.hh:36-40 and neohooke.hh:189. -/
structure NeoHooke where
  lambda : ℝ
  mu : ℝ

/-- `Dune::FloatCmp::le(a, b, eps)` with its default style: smaller, or equal up to the tolerance. -/
def floatCmpLe (eps a b : ℝ) : Prop := a < b ∨ floatCmpEq eps a b

/-- `Dune::FloatCmp::gt(a, b, eps)` with its default style: greater, and not equal up to the tolerance. -/
def floatCmpGt (eps a b : ℝ) : Prop := b < a ∧ ¬ floatCmpEq eps a b

open Classical in
/-- ikarus/finiteelements/mechanics/materials/materialhelpers.hh:119-126. -/
noncomputable def checkPositiveOrAbort (eps det : ℝ) : Option Unit :=
  if floatCmpLe eps det 0 then none else some ()

namespace NeoHooke

variable (m : NeoHooke)

/-- ikarus/finiteelements/mechanics/materials/hyperelastic/neohooke.hh:78-91. -/
noncomputable def storedEnergy (eps : ℝ) (C : Matrix (Fin 3) (Fin 3) ℝ) : Option ℝ := do
  let traceC := C.trace
  let detC := C.det
  checkPositiveOrAbort eps detC
  let logdetF := log (√detC)
  return m.mu / 2 * (traceC - 3 - 2 * logdetF) + m.lambda / 2 * logdetF * logdetF

/-- ikarus/finiteelements/mechanics/materials/hyperelastic/neohooke.hh:100-116. -/
noncomputable def stresses (eps : ℝ) (C : Matrix (Fin 3) (Fin 3) ℝ) :
    Option (Matrix (Fin 3) (Fin 3) ℝ) := do
  let detC := C.det
  checkPositiveOrAbort eps detC
  let logdetF := log (√detC)
  let invC := C⁻¹
  return m.mu • (1 - invC) + (m.lambda * logdetF) • invC

/-- ikarus/finiteelements/mechanics/materials/hyperelastic/neohooke.hh:125-142. -/
noncomputable def tangentModuli (eps : ℝ) (C : Matrix (Fin 3) (Fin 3) ℝ) : Option (Tensor4 ℝ 3) := do
  let invC := C⁻¹
  let detC := C.det
  checkPositiveOrAbort eps detC
  let logdetF := log (√detC)
  let sym ← symTwoSlots (fourthOrderIKJL invC invC) 2 3
  return fun i j k l =>
    m.lambda * dyadic invC invC i j k l + 2 * (m.mu - m.lambda * logdetF) * sym i j k l

open Classical in
/-- ikarus/finiteelements/mechanics/materials/hyperelastic/neohooke.hh:191-207 for `dim == 3`. -/
noncomputable def checkInvertabilityOrAbort (eps a : ℝ) : Option Unit :=
  let req1 := ¬ floatCmpEq eps a 0
  let req2 := floatCmpGt eps a (-(3 / 2 : ℝ) ^ 3 * exp (-3 - 2 * m.mu / m.lambda))
  if ¬ (req1 ∧ req2) then none else some ()

open Classical in
/-- ikarus/finiteelements/mechanics/materials/hyperelastic/neohooke.hh:164-182, the computation of the right
Cauchy-Green tensor. `Dune::sign(a)` is `-1` for negative numbers and `1` otherwise. -/
noncomputable def inversionStrain (lambertW0 : ℝ → Option ℝ) (epsEq eps : ℝ)
    (S : Matrix (Fin 3) (Fin 3) ℝ) : Option (Matrix (Fin 3) (Fin 3) ℝ) :=
  if floatCmpEq epsEq m.lambda 0 then some (1 - (1 / m.mu) • S)⁻¹
  else do
    let A := (1 / m.lambda) • (m.mu • (1 : Matrix (Fin 3) (Fin 3) ℝ) - S)
    let a := A.det
    checkInvertabilityOrAbort m eps a
    let b := 2 / 3 * m.mu / m.lambda - log (3 / 2) + 1 / 3 * log |a|
    let w ← lambertW0 ((if a < 0 then -1 else 1) * exp b)
    let lnJ := m.mu / m.lambda - 3 / 2 * w
    return (m.mu / m.lambda - lnJ) • A⁻¹

/-- The entries of a fully initialised matrix. -/
def allEntries {m n : Type} [Fintype m] [Fintype n] (A : m → n → Option ℝ) : Option (Matrix m n ℝ) :=
  if ∀ i j, (A i j).isSome then some fun i j => (A i j).getD 0 else none

/-- ikarus/finiteelements/mechanics/materials/hyperelastic/neohooke.hh:164-186 and interface.hh:264-285 for
a stress given as a matrix and a result in Voigt notation: compliance and strain. -/
noncomputable def materialInversion (lambertW0 : ℝ → Option ℝ) (epsEq eps : ℝ)
    (S : Matrix (Fin 3) (Fin 3) ℝ) : Option (Matrix (Fin 6) (Fin 6) ℝ × (Fin 6 → ℝ)) := do
  let C ← inversionStrain m lambertW0 epsEq eps S
  let moduli ← tangentModuli m eps C
  let tangentModulus ← allEntries (toVoigtTensor moduli)
  let D := tangentModulus⁻¹
  return (D, toVoigt3 C true)

end NeoHooke

end Ikarus
