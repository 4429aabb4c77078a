import Verif.Solver.NewtonModel
import Verif.LinAlg.Model
import Verif.Material.ConversionModel
import Verif.Material.MatrixCalculus

/-!
Vanishing stress and vanishing strain materials,
ikarus/finiteelements/mechanics/materials/{vanishingstress,vanishingstrain}.hh. Numbers are real.

The underlying material is arbitrary. Its functions may have no value: `none` stands for an `abort()` of the
underlying material, and after the inversion of a singular matrix for numbers that are not finite.
The types with automatic differentiation (`isAutoDiff`) are not modelled.
-/

namespace Ikarus

open Matrix

/-- What the reduced materials use of the underlying material: `storedEnergyImpl`, `stresses<tag, true>`,
`tangentModuli<tag, true>`, `derivativeFactor` and `strainTag`
(ikarus/finiteelements/mechanics/materials/vanishingstress.hh:40-57, vanishingstrain.hh:30-50). -/
structure UnderlyingLaw where
  energy : M3 → Option ℝ
  stress : M3 → Option (Fin 6 → ℝ)
  moduli : M3 → Option (Matrix (Fin 6) (Fin 6) ℝ)
  derivativeFactor : ℝ
  strainTag : StrainTag

/-- ikarus/finiteelements/mechanics/materials/materialhelpers.hh:88-94, the two kinds of arguments. -/
inductive StrainArg where
  | voigt (v : Fin 6 → ℝ)
  | matrix (E : M3)

/-- ikarus/finiteelements/mechanics/materials/materialhelpers.hh:88-94 (strains). -/
noncomputable def StrainArg.maybeFromVoigt : StrainArg → M3
  | .voigt v => fromVoigt3 v true
  | .matrix E => E

/-- `E(i, j) = x`. -/
def setComp (E : M3) (i j : Fin 3) (x : ℝ) : M3 := Matrix.of fun a b => if a = i ∧ b = j then x else E a b

namespace VanishingStress

variable {k : Nat} (law : UnderlyingLaw) (fixed : Fin k → Fin 3 × Fin 3)

open Classical in
/-- ikarus/finiteelements/mechanics/materials/vanishingstress.hh:167-174, the value for one pair.
`Dune::FloatCmp::eq(x, 0.0)` is `x = 0` (see `floatCmpEq_zero`). -/
noncomputable def initialValue (p : Fin 3 × Fin 3) (E : M3) : ℝ :=
  let v := E p.1 p.2
  let v := if law.strainTag = .deformationGradient ∨ law.strainTag = .rightCauchyGreenTensor then
      (if v = 0 ∧ p.1 = p.2 then 1 else v)
    else v
  if p.1 ≠ p.2 then 0 else v

/-- ikarus/finiteelements/mechanics/materials/vanishingstress.hh:165-177. -/
noncomputable def initUnknownStrains (E : M3) : M3 :=
  (List.ofFn fixed).foldl (fun E p =>
    let v := initialValue law p E
    setComp (setComp E p.2 p.1 v) p.1 p.2 v) E

/-- ikarus/finiteelements/mechanics/materials/vanishingstress.hh:189-194. The array has
`countDiagonalIndices fixed` entries, see `fixedDiagonal_length`. -/
def fixedDiagonal : List (Fin 6) :=
  (List.ofFn (createFixedVoigtIndices fixed)).filter fun i => (unvoigt3 i).1 = (unvoigt3 i).2

/-- The number of entries of the list. -/
abbrev numDiagonal : Nat := (fixedDiagonal fixed).length

/-- ikarus/finiteelements/mechanics/materials/vanishingstress.hh:196-199. -/
noncomputable def residual (E : M3) : Option (Fin (numDiagonal fixed) → ℝ) :=
  (law.stress E).map fun S r => S ((fixedDiagonal fixed).get r)

/-- ikarus/finiteelements/mechanics/materials/vanishingstress.hh:200-203. -/
noncomputable def jacobian (E : M3) :
    Option (Matrix (Fin (numDiagonal fixed)) (Fin (numDiagonal fixed)) ℝ) :=
  (law.moduli E).map fun C => Matrix.of fun r s =>
    C ((fixedDiagonal fixed).get r) ((fixedDiagonal fixed).get s) / law.derivativeFactor

/-- ikarus/finiteelements/mechanics/materials/vanishingstress.hh:210-215. -/
noncomputable def updateStrain (E : M3) (c : Fin (numDiagonal fixed) → ℝ) : M3 :=
  (List.finRange (numDiagonal fixed)).foldl (fun E r =>
    let p := unvoigt3 ((fixedDiagonal fixed).get r)
    setComp E p.1 p.2 (E p.1 p.2 + c r)) E

open Classical in
/-- ikarus/finiteelements/mechanics/materials/vanishingstress.hh:209 and the minus sign of
newtonraphson.hh:225; no finite value for a singular matrix. -/
noncomputable def linearSolve {d : Nat} (A : Option (Matrix (Fin d) (Fin d) ℝ)) (r : Option (Fin d → ℝ)) :
    Option (Fin d → ℝ) := do
  let A ← A
  let r ← r
  if A.det = 0 then none else some (-(A⁻¹ *ᵥ r))

/-- The Euclidean norm. -/
noncomputable def euclid {d : Nat} (v : Fin d → ℝ) : ℝ := √(∑ r, v r * v r)

open Classical in
/-- ikarus/finiteelements/mechanics/materials/vanishingstress.hh:196-221: the problem handed to the solver.
The strain `E`, captured by reference, is the unknown. `nfGt` is the outcome of `norm > tol` for a norm that
is not finite. -/
noncomputable def problem (nfGt : Bool) : NRProblem (Option M3) (Option (Fin (numDiagonal fixed) → ℝ))
    (Option (Matrix (Fin (numDiagonal fixed)) (Fin (numDiagonal fixed)) ℝ))
    (Option (Fin (numDiagonal fixed) → ℝ)) (Option ℝ) Unit where
  residual := fun E => E.bind (residual law fixed)
  jacobian := fun E => E.bind (jacobian law fixed)
  rnorm := fun r => r.map euclid
  cnorm := fun c => c.map euclid
  gt := fun a b => match a, b with
    | some a, some b => decide (a > b)
    | _, _ => nfGt
  linSolve := linearSolve
  update := fun E c => E.bind fun E => c.map (updateStrain fixed E)
  idbc := none

/-- ikarus/finiteelements/mechanics/materials/vanishingstress.hh:185-228: `none` if the function throws,
`some none` if it returns a strain with numbers that are not finite (or the underlying material aborted). -/
noncomputable def reduceStress (nfGt : Bool) (tol : ℝ) (Eraw : StrainArg) : Option (Option M3) :=
  let E := initUnknownStrains law fixed Eraw.maybeFromVoigt
  match (problem law fixed nfGt).solve ⟨some tol, 100, 0⟩ 100 (some E) () (some 0) with
  | none => none
  | some s => if s.info.success then some s.x else none

/-- ikarus/finiteelements/mechanics/materials/vanishingstress.hh:86-90. -/
noncomputable def storedEnergy (nfGt : Bool) (tol : ℝ) (E : StrainArg) : Option (Option ℝ) :=
  (reduceStress law fixed nfGt tol E).map fun Esol => Esol.bind law.energy

/-- ikarus/finiteelements/mechanics/materials/vanishingstress.hh:99-108, `voigt == true`. -/
noncomputable def stressesVoigt (nfGt : Bool) (tol : ℝ) (E : StrainArg) : Option (Option (Fin (6 - k) → ℝ)) :=
  (reduceStress law fixed nfGt tol E).map fun Esol => do
    let S ← law.stress (← Esol)
    removeCol S (createFixedVoigtIndices fixed)

/-- ikarus/finiteelements/mechanics/materials/vanishingstress.hh:99-108, `voigt == false`. -/
noncomputable def stressesMatrix (nfGt : Bool) (tol : ℝ) (E : StrainArg) : Option (Option M3) :=
  (reduceStress law fixed nfGt tol E).map fun Esol => do
    let S ← law.stress (← Esol)
    return fromVoigt3 S false

/-- ikarus/finiteelements/mechanics/materials/vanishingstress.hh:117-125, `voigt == true`. -/
noncomputable def tangentModuliVoigt (nfGt : Bool) (tol : ℝ) (E : StrainArg) :
    Option (Option (Matrix (Fin (6 - k)) (Fin (6 - k)) ℝ)) :=
  (reduceStress law fixed nfGt tol E).map fun Esol => do
    let C ← law.moduli (← Esol)
    staticCondensation C (createFixedVoigtIndices fixed)

/-- ikarus/finiteelements/mechanics/materials/vanishingstress.hh:143-157; `inversion` is
`materialInversion<strainTag, true>` of the underlying material. -/
noncomputable def materialInversion
    (inversion : M3 → Option (Matrix (Fin 6) (Fin 6) ℝ × (Fin 6 → ℝ))) (Sraw : Matrix (Fin 2) (Fin 2) ℝ) :
    Option (Matrix (Fin (6 - k)) (Fin (6 - k)) ℝ × (Fin (6 - k) → ℝ)) := do
  let S : M3 := !![Sraw 0 0, Sraw 0 1, 0; Sraw 1 0, Sraw 1 1, 0; 0, 0, 0]
  let DE ← inversion S
  let Dred ← reduceMatrix DE.1 (createFixedVoigtIndices fixed)
  let Ered ← removeCol DE.2 (createFixedVoigtIndices fixed)
  return (Dred, Ered)

/-- ikarus/finiteelements/mechanics/materials/vanishingstress.hh:254-257 (and vanishingstrain.hh:195-198). -/
def planeStressPairs : Fin 3 → Fin 3 × Fin 3 := ![(2, 1), (2, 0), (2, 2)]

/-- ikarus/finiteelements/mechanics/materials/vanishingstress.hh:267-270. -/
def shellPairs : Fin 1 → Fin 3 × Fin 3 := ![(2, 2)]

/-- ikarus/finiteelements/mechanics/materials/vanishingstress.hh:280-283. -/
def beamPairs : Fin 2 → Fin 3 × Fin 3 := ![(1, 1), (2, 2)]

end VanishingStress

namespace VanishingStrain

variable {k : Nat} (law : UnderlyingLaw) (fixed : Fin k → Fin 3 × Fin 3)

/-- ikarus/finiteelements/mechanics/materials/vanishingstrain.hh:163-168. -/
def setStrainsToZero (E : M3) : M3 :=
  (List.ofFn fixed).foldl (fun E p => setComp (setComp E p.1 p.2 0) p.2 p.1 0) E

/-- ikarus/finiteelements/mechanics/materials/vanishingstrain.hh:147-159. -/
noncomputable def reduceStrain (msqrt : M3 → M3) (Eraw : StrainArg) : Option M3 :=
  if law.strainTag = .linear ∨ law.strainTag = .greenLagrangian then
    some (setStrainsToZero fixed Eraw.maybeFromVoigt)
  else do
    let Egl ← transformStrain msqrt law.strainTag .greenLagrangian Eraw.maybeFromVoigt
    transformStrain msqrt .greenLagrangian law.strainTag (setStrainsToZero fixed Egl)

/-- ikarus/finiteelements/mechanics/materials/vanishingstrain.hh:79-83. -/
noncomputable def storedEnergy (msqrt : M3 → M3) (E : StrainArg) : Option ℝ := do
  law.energy (← reduceStrain law fixed msqrt E)

/-- ikarus/finiteelements/mechanics/materials/vanishingstrain.hh:92-103, `voigt == true`. -/
noncomputable def stressesVoigt (msqrt : M3 → M3) (E : StrainArg) : Option (Fin (6 - k) → ℝ) := do
  let S ← law.stress (← reduceStrain law fixed msqrt E)
  removeCol S (createFixedVoigtIndices fixed)

/-- ikarus/finiteelements/mechanics/materials/vanishingstrain.hh:92-103, `voigt == false`. -/
noncomputable def stressesMatrix (msqrt : M3 → M3) (E : StrainArg) : Option M3 := do
  let S ← law.stress (← reduceStrain law fixed msqrt E)
  return fromVoigt3 ((List.ofFn (createFixedVoigtIndices fixed)).foldl
    (fun S i => Function.update S i 0) S) false

/-- ikarus/finiteelements/mechanics/materials/vanishingstrain.hh:112-120, `voigt == true`. -/
noncomputable def tangentModuliVoigt (msqrt : M3 → M3) (E : StrainArg) :
    Option (Matrix (Fin (6 - k)) (Fin (6 - k)) ℝ) := do
  let C ← law.moduli (← reduceStrain law fixed msqrt E)
  reduceMatrix C (createFixedVoigtIndices fixed)

end VanishingStrain

end Ikarus
