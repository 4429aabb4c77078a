import Verif.FE.AssumedStressModel
import Verif.FE.DisplacementPressureModel
import Verif.Material.VanishingModel
import Verif.Material.SVKModel

/-!
Model of the results elements report at a point: `calculateAtImpl` of
ikarus/finiteelements/mechanics/{linearelastic,nonlinearelastic,enhancedassumedstrains,assumedstress,displacementpressure}.hh
and `calculateAt` of ikarus/finiteelements/mixin.hh.  Numbers are real.

A result is a stress in Voigt notation; the types with suffix `Full` have six components, the others those of the
element.  `none` stands for a material function that throws or has no value.
-/

namespace Ikarus.Element.Result

open Matrix

variable {n d q m g : Nat}

/-- The stress results (ikarus/finiteelements/feresulttypes.hh:230-290). -/
inductive ResultType where
  | linearStress | linearStressFull | PK2Stress | PK2StressFull | kirchhoffStress | cauchyStress
  deriving DecidableEq

/-- `RTWrapperType<RT>` (feresulttypes.hh:125-200): the components of the element or all six. -/
inductive Reported (q : Nat) where
  | element (v : Fin q → ℝ)
  | full (v : Fin 6 → ℝ)

/-- `RTWrapperType<RT>{}` (linearelastic.hh:238, nonlinearelastic.hh:242, enhancedassumedstrains.hh:137,
assumedstress.hh:131).  The wrapper is value-initialized and its default constructor is not user-provided, so the
entries are zero. -/
def default (q : Nat) : ResultType → Reported q
  | .linearStressFull | .PK2StressFull => .full 0
  | _ => .element 0

/-- A material as the elements use it for results: `stresses<strainType>` of the six strains, and for a reduced material
(`isReduced`) also `freeVoigtIndices` and `underlying().stresses<strainType>`
(materials/interface.hh:211-221, vanishingstress.hh:33-57, vanishingstrain.hh:30-60). -/
inductive ResultMaterial : Nat → Type
  | solid (stresses : (Fin 6 → ℝ) → Option (Fin 6 → ℝ)) : ResultMaterial 6
  | reduced {q : Nat} (free : Fin q → Fin 6) (stresses : (Fin 6 → ℝ) → Option (Fin q → ℝ))
      (underlying : (Fin 6 → ℝ) → Option (Fin 6 → ℝ)) : ResultMaterial q

namespace ResultMaterial

/-- `Material::isReduced`, equivalently whether `mat_.underlying()` exists. -/
def isReduced : ResultMaterial q → Bool
  | .solid _ => false
  | .reduced .. => true

/-- `enlargeIfReduced<Material>` (ikarus/utils/linearalgebrahelper.hh:616-642). -/
noncomputable def enlargeIfReduced : ResultMaterial q → (Fin q → ℝ) → Fin 6 → ℝ
  | .solid _, e => e
  | .reduced free _ _, e => enlargeVector free e

/-- `mat_.stresses<strainType>` of six strains. -/
def stresses : ResultMaterial q → (Fin 6 → ℝ) → Option (Fin q → ℝ)
  | .solid s, e => s e
  | .reduced _ s _, e => s e

/-- The stresses of `mat_.underlying()` for a reduced material, of `mat_` otherwise
(linearelastic.hh:243-248, nonlinearelastic.hh:251-256). -/
def underlyingStresses : ResultMaterial q → (Fin 6 → ℝ) → Option (Fin 6 → ℝ)
  | .solid s, e => s e
  | .reduced _ _ u, e => u e

/-- `calculateStress(mat_, strain)` (linearelastic.hh:220-223, nonlinearelastic.hh:223-226). -/
noncomputable def calculateStress (mat : ResultMaterial q) (e : Fin q → ℝ) : Option (Fin q → ℝ) :=
  mat.stresses (mat.enlargeIfReduced e)

/-- `calculateStress(mat_.underlying(), strain)`. -/
noncomputable def calculateStressFull (mat : ResultMaterial q) (e : Fin q → ℝ) : Option (Fin 6 → ℝ) :=
  mat.underlyingStresses (mat.enlargeIfReduced e)

end ResultMaterial

/-- `toVoigt` and `fromVoigt` for the dimension of the element (ikarus/utils/tensorutils.hh:182-310). -/
structure Voigt (d q : Nat) where
  toVoigt : Matrix (Fin d) (Fin d) ℝ → Bool → Fin q → ℝ
  fromVoigt : (Fin q → ℝ) → Bool → Matrix (Fin d) (Fin d) ℝ

/-- Two dimensions. -/
noncomputable def Voigt.plane : Voigt 2 3 := ⟨toVoigt2, fromVoigt2⟩

/-- Three dimensions. -/
noncomputable def Voigt.space : Voigt 3 6 := ⟨toVoigt3, fromVoigt3⟩

/-- `toVoigt(transformStress<StressTags::PK2, toStress>(fromVoigt(PK2Stress, false), F), false)`
(nonlinearelastic.hh:263-269, enhancedassumedstrains.hh:177-184, assumedstress.hh:156-163, displacementpressure.hh:343-349). -/
noncomputable def spatialStress (v : Voigt d q) (toStress : StressTag) (S : Fin q → ℝ) (F : Matrix (Fin d) (Fin d) ℝ) :
    Option (Fin q → ℝ) :=
  (transformStress .PK2 toStress (v.fromVoigt S false) F).map fun T => v.toVoigt T false

/-- `calculateAtImpl` of the linear element (linearelastic.hh:233-254); `strain` is `eps.evaluate(local, on(gridElement))`.
Only the two types of linear stresses are supported (linearelastic.hh:60-61). -/
noncomputable def linearElastic (isMixed : Bool) (mat : ResultMaterial q) (rt : ResultType) (strain : Fin q → ℝ) :
    Option (Reported q) :=
  if isMixed then some (default q rt)
  else match rt with
    | .linearStress => (mat.calculateStress strain).map .element
    | .linearStressFull => (mat.calculateStressFull strain).map .full
    | _ => none

/-- What follows after the second Piola-Kirchhoff stress `S` of the element is known: it is returned or transformed
(nonlinearelastic.hh:259-270). -/
noncomputable def fromPK2 (v : Voigt d q) (rt : ResultType) (F : Matrix (Fin d) (Fin d) ℝ) (S : Fin q → ℝ) :
    Option (Reported q) :=
  match rt with
  | .PK2Stress => some (.element S)
  | .kirchhoffStress => (spatialStress v .Kirchhoff S F).map .element
  | .cauchyStress => (spatialStress v .Cauchy S F).map .element
  | _ => none

/-- `calculateAtImpl` of the nonlinear element (nonlinearelastic.hh:237-271); `H` is the displacement gradient at the
point.  `transformStrain` between the measures named here does not use a matrix square root. -/
noncomputable def nonLinearElastic (isMixed : Bool) (mat : ResultMaterial q) (v : Voigt d q) (rt : ResultType)
    (H : Matrix (Fin d) (Fin d) ℝ) : Option (Reported q) :=
  if isMixed then some (default q rt)
  else do
    let F ← transformStrain id .displacementGradient .deformationGradient H
    let E ← transformStrain id .displacementGradient .greenLagrangian H
    match rt with
    | .PK2StressFull => (mat.calculateStressFull (v.toVoigt E true)).map .full
    | rt => (mat.calculateStress (v.toVoigt E true)).bind (fromPK2 v rt F)

/-- `calculateAtImpl` of the element with enhanced assumed strains (enhancedassumedstrains.hh:127-188) at the point
`local`, whose strain function is `at`; `H` is the gradient of lines 164-174, compatible or enhanced.  `law` and `gps` are
those of the element, used for the internal variables of linear stresses (151-157). -/
noncomputable def enhancedAssumedStrains (mat : ResultMaterial q) (v : Voigt d q) (law : Law q)
    (gps : List (EAS.EASPoint n d q m)) («at» : EAS.EASPoint n d q m) (H : Matrix (Fin d) (Fin d) ℝ) (rt : ResultType)
    (u : NodeVec n d) (alpha : Fin m → ℝ) : Option (Reported q) :=
  let a := if rt = .linearStress ∨ rt = .linearStressFull then EAS.linearAlpha law gps u alpha else alpha
  let strain := «at».strain u a
  match rt with
  | .linearStress => (mat.calculateStress strain).map .element
  | .linearStressFull | .PK2StressFull => (mat.calculateStressFull strain).map .full
  | rt => (mat.calculateStress strain).bind fun S =>
      (transformStrain id .displacementGradient .deformationGradient H).bind fun F => fromPK2 v rt F S

/-- `enlargeStressAnsatz` (assumedstress.hh:456-464) for a reduced material; `strain0` is `strainStates_[0]`. -/
noncomputable def enlargeStressAnsatz (inv : AssumedStress.Inversion q) (mat : ResultMaterial q) (S strain0 : Fin q → ℝ) :
    Option (Fin 6 → ℝ) :=
  mat.underlyingStresses (mat.enlargeIfReduced (inv S strain0).2)

/-- `calculateAtImpl` of the element with assumed stresses (assumedstress.hh:124-169) at a point with modes `P`;
`strain0` is `strainStates_[0]`.  For a material that is not reduced no branch assigns a full stress (149-155). -/
noncomputable def assumedStress (inv : AssumedStress.Inversion q) (mat : ResultMaterial q) (v : Voigt d q)
    (gps : Fin g → AssumedStress.ASPoint n d q m) (P : Matrix (Fin q) (Fin m) ℝ) (H : Matrix (Fin d) (Fin d) ℝ)
    (rt : ResultType) (u : NodeVec n d) (st : AssumedStress.State q m g) (strain0 : Fin q → ℝ) : Option (Reported q) :=
  let beta := if rt = .linearStress ∨ rt = .linearStressFull then AssumedStress.linearBeta gps st u else st.beta
  let S := P *ᵥ beta
  match rt with
  | .linearStress => some (.element S)
  | .linearStressFull | .PK2StressFull =>
    if mat.isReduced then (enlargeStressAnsatz inv mat S strain0).map .full else some (default q rt)
  | rt => (transformStrain id .displacementGradient .deformationGradient H).bind fun F => fromPK2 v rt F S

/-- `calculateAtImpl` of the displacement pressure element (displacementpressure.hh:310-352), with the pressure `p` at the
point. -/
noncomputable def displacementPressure (dev vol : ResultMaterial q) (v : Voigt d q) (rt : ResultType)
    (H : Matrix (Fin d) (Fin d) ℝ) (p : ℝ) : Option (Reported q) := do
  let F ← transformStrain id .displacementGradient .deformationGradient H
  let E ← transformStrain id .displacementGradient .greenLagrangian H
  match rt with
  | .PK2StressFull => do
    let Sd ← dev.calculateStressFull (v.toVoigt E true)
    let Sv ← vol.calculateStressFull (v.toVoigt E true)
    return .full (Sd + p • Sv)
  | rt => do
    let Sd ← dev.calculateStress (v.toVoigt E true)
    let Sv ← vol.calculateStress (v.toVoigt E true)
    fromPK2 v rt F (Sd + p • Sv)

/-- `calculateAt` (ikarus/finiteelements/mixin.hh:150-170): of the functions of the skills that accept the result type, each
with the number of its `Dune::PriorityTag`, the call with `PriorityTag<10>` selects the one whose tag is the largest not
above ten.  `none`: no function accepts the call or it is ambiguous, an error of the compiler. -/
def calculateAt {α : Type} (overloads : List (Nat × α)) : Option α :=
  let viable := overloads.filter fun o => o.1 ≤ 10
  match viable.filter fun o => viable.all fun p => p.1 ≤ o.1 with
  | [o] => some o.2
  | _ => none

/-- The tag of the functions of `LinearElastic`, `NonLinearElastic` and `DisplacementPressure` (linearelastic.hh:236,
nonlinearelastic.hh:240, displacementpressure.hh:319). -/
def tagElement : Nat := 1

/-- The tag of `EnhancedAssumedStrains` and `AssumedStress` (enhancedassumedstrains.hh:130, assumedstress.hh:127). -/
def tagMixed : Nat := 2

/-! ### Materials -/

/-- `Material::stresses<tag>` of a material in space for a vector of six strains (materials/interface.hh:211-221). -/
noncomputable def solidStresses (law : UnderlyingLaw) (tag : StrainTag) (msqrt : M3 → M3) (e : Fin 6 → ℝ) :
    Option (Fin 6 → ℝ) :=
  (transformStrain msqrt tag law.strainTag (fromVoigt3 e true)).bind law.stress

/-- A material in space. -/
noncomputable def solid (law : UnderlyingLaw) (tag : StrainTag) (msqrt : M3 → M3) : ResultMaterial 6 :=
  .solid (solidStresses law tag msqrt)

/-- `LinearElasticity` (materials/linearelasticity.hh:33-136): the functions of St. Venant-Kirchhoff for the linear
strain. -/
noncomputable def linearElasticity (m : SVK ℝ) : UnderlyingLaw where
  energy := fun E => some (m.energyMatrix E)
  stress := fun E => some (m.stressMatrixToVoigt E)
  moduli := fun _ => some m.moduliVoigt
  derivativeFactor := 1
  strainTag := .linear

/-- `freeVoigtIndices` of the plane materials: the remaining components are 11, 22 and 12 (`createfreeVoigtIndices` of
`planeStressPairs`, materialhelpers.hh:40-49; see `planeFree_eq`). -/
def planeFree : Fin 3 → Fin 6 := ![0, 1, 5]

/-- `planeStrain(mat)` (vanishingstrain.hh:189-199): `stresses<tag>` converts the strain to the measure of the material,
then `stressesImpl` of vanishingstrain.hh:92-103 is called. -/
noncomputable def planeStrain (law : UnderlyingLaw) (tag : StrainTag) (msqrt : M3 → M3) : ResultMaterial 3 :=
  .reduced planeFree
    (fun e => (transformStrain msqrt tag law.strainTag (fromVoigt3 e true)).bind fun E =>
      VanishingStrain.stressesVoigt law VanishingStress.planeStressPairs msqrt (.matrix E))
    (solidStresses law tag msqrt)

/-- `planeStress(mat, tol)` (vanishingstress.hh:246-257): as above with `stressesImpl` of vanishingstress.hh:99-108; the
outer `none` of the model stands for an exception. -/
noncomputable def planeStress (law : UnderlyingLaw) (tag : StrainTag) (msqrt : M3 → M3) (nfGt : Bool) (tol : ℝ) :
    ResultMaterial 3 :=
  .reduced planeFree
    (fun e => (transformStrain msqrt tag law.strainTag (fromVoigt3 e true)).bind fun E =>
      (VanishingStress.stressesVoigt law VanishingStress.planeStressPairs nfGt tol (.matrix E)).join)
    (solidStresses law tag msqrt)

end Ikarus.Element.Result
