import Verif.Material.LameModel
import Verif.Material.VanishingProps

/-!
Materials in Python, ikarus/python/finiteelements/material.hh and python/ikarus/materials/materials.hh.
Numbers are real. What pybind11 does is reduced to the binding of arguments to parameters and to casts of
arguments; the materials themselves are those of `Verif.Material`. Of the muesli library only the
properties that are handed to it are modelled.
-/

namespace Ikarus

namespace Python

/-- What a call from Python ends with: a value, a `TypeError` of pybind11, an exception thrown by the code
(or by a cast of pybind11), or undefined behaviour (`__builtin_unreachable()`). -/
inductive Result (α : Type)
  | ok (a : α)
  | typeError
  | raised
  | undefined

/-- Objects passed as keyword arguments: floats, bools and lists of floats. -/
inductive Value
  | number (x : ℝ)
  | flag (b : Bool)
  | numbers (l : List ℝ)

/-- `pybind11::kwargs`: a dictionary, the keys are different. -/
abbrev Kwargs := List (String × Value)

/-- `kwargs.contains(name)`. -/
def Kwargs.contains (kw : Kwargs) (name : String) : Bool := kw.any fun p => p.1 == name

/-- `kwargs[name]`; `none` is a `KeyError`. -/
def Kwargs.get (kw : Kwargs) (name : String) : Option Value := kw.lookup name

/-- `kwargs[name].cast<double>()`; `none` if there is no such argument or the cast throws. (A Python bool
can be cast to a double.) -/
def Kwargs.double (kw : Kwargs) (name : String) : Option ℝ :=
  match kw.get name with
  | some (.number x) => some x
  | some (.flag b) => some (if b then 1 else 0)
  | _ => none

/-- `kwargs[name].cast<bool>()`. -/
def Kwargs.bool (kw : Kwargs) (name : String) : Option Bool :=
  match kw.get name with
  | some (.flag b) => some b
  | _ => none

/-- `kwargs[name].cast<std::array<double, 3>>()`. -/
def Kwargs.array3 (kw : Kwargs) (name : String) : Option (ℝ × ℝ × ℝ) :=
  match kw.get name with
  | some (.numbers [a, b, c]) => some (a, b, c)
  | _ => none

noncomputable section

/-! ### Parameters of the materials -/

/-- What the constructors hand to the material: the first Lamé parameter (`none` is an infinite number, see
`MatPair.toLamesFirstParameter`) and the shear modulus. -/
structure Lame where
  lambda : Option ℝ
  mu : Option ℝ

/-- ikarus/python/finiteelements/material.hh:58-64, after the two casts. -/
def convert (eps : ℝ) (p : MatPair) : Lame := ⟨p.toLamesFirstParameter eps, p.toShearModulus⟩

/-- ikarus/python/finiteelements/material.hh:68-75. The keys in the order of `std::map`, and the pair of
constants the second component builds. (The last entry does not convert; the conversion of that pair is the
identity.) -/
def conversionMap : List ((String × String) × (ℝ → ℝ → MatPair)) :=
  [(("E", "K"), .youngBulk), (("E", "Lambda"), .youngLambda), (("E", "mu"), .youngShear),
   (("E", "nu"), .youngPoisson), (("K", "Lambda"), .bulkLambda), (("Lambda", "mu"), .lambdaShear)]

/-- ikarus/python/finiteelements/material.hh:58-64 and 74: the casts, then the conversion. -/
def callConverter (eps : ℝ) (kw : Kwargs) (e : (String × String) × (ℝ → ℝ → MatPair)) : Result Lame :=
  match kw.double e.1.1, kw.double e.1.2 with
  | some a, some b => .ok (convert eps (e.2 a b))
  | _, _ => .raised

/-- ikarus/python/finiteelements/material.hh:81-90. -/
def searchMap (eps : ℝ) (kw : Kwargs) : List ((String × String) × (ℝ → ℝ → MatPair)) → Result Lame
  | [] => .raised
  | e :: es => if kw.contains e.1.1 && kw.contains e.1.2 then callConverter eps kw e else searchMap eps kw es

/-- ikarus/python/finiteelements/material.hh:66-91, which is also the constructor 99-103 up to the call of
the constructor of the material. -/
def extractMaterialParameters (eps : ℝ) (kw : Kwargs) : Result Lame :=
  if kw.length ≠ 2 then .raised else searchMap eps kw conversionMap

/-- The pairs of parameters the message of ikarus/python/finiteelements/material.hh:88-90 names as valid. -/
def advertised : List (String × String) :=
  [("E", "nu"), ("E", "mu"), ("E", "K"), ("E", "Lambda"), ("K", "Lambda"), ("Lambda", "nu")]

/-! ### Evaluation -/

/-- ikarus/python/finiteelements/material.hh:23-53: `storedEnergy`, `stresses` and `tangentModuli`.
`strainTag` is the tag of the material, `call tag` the member function for the measure `tag`. -/
def evaluate {V β : Type} (strainTag : StrainTag) (call : StrainTag → V → β) (tag : StrainTag) (e : V) :
    Result β :=
  if strainTag ≠ .linear then
    match tag with
    | .rightCauchyGreenTensor => .ok (call .rightCauchyGreenTensor e)
    | .greenLagrangian => .ok (call .greenLagrangian e)
    | .linear => .raised
    | .displacementGradient => .raised
    | .deformationGradient => .raised
  else
    match tag with
    | .linear => .ok (call .linear e)
    | _ => .raised

/-- ikarus/finiteelements/mechanics/materials/interface.hh:189-242 for an argument of full size in Voigt
notation: the strain is converted to the measure of the material (`transformStrain`, whose result is a
matrix) and `impl` evaluated there. `none` where the conversion does not exist. The notation of the result
is part of `impl`. -/
def call {β : Type} (msqrt : M3 → M3) (strainTag : StrainTag) (impl : M3 → β) (tag : StrainTag)
    (v : Fin 6 → ℝ) : Option β :=
  (transformStrain msqrt tag strainTag (fromVoigt3 v true)).map impl

/-! ### Reduced materials -/

/-- A `VanishingStress` material: the underlying material, the fixed components and the tolerance
(ikarus/finiteelements/mechanics/materials/vanishingstress.hh:33-66 and 229-233). -/
structure Reduced (k : Nat) where
  law : UnderlyingLaw
  fixed : Fin k → Fin 3 × Fin 3
  tol : ℝ

/-- The default tolerance of `planeStress`, `shellMaterial` and `beamMaterial`,
ikarus/finiteelements/mechanics/materials/vanishingstress.hh:255, 268, 281. -/
def cppTol : ℝ := 1 / 10 ^ 8

/-- The default of the argument `tol` in Python,
ikarus/python/finiteelements/material.hh:132, 173, 191. -/
def pyTol : ℝ := 1 / 10 ^ 12

/-- ikarus/python/finiteelements/material.hh:130-132 with vanishingstress.hh:254-257. `tol = none` if the
argument is left out. -/
def asPlaneStress (law : UnderlyingLaw) (_tol : Option ℝ) : Reduced 3 :=
  ⟨law, VanishingStress.planeStressPairs, cppTol⟩

/-- ikarus/python/finiteelements/material.hh:171-173 with vanishingstress.hh:267-270. -/
def asShellMaterial (law : UnderlyingLaw) (_tol : Option ℝ) : Reduced 1 :=
  ⟨law, VanishingStress.shellPairs, cppTol⟩

/-- ikarus/python/finiteelements/material.hh:189-191 with vanishingstress.hh:280-283. -/
def asBeamMaterial (law : UnderlyingLaw) (_tol : Option ℝ) : Reduced 2 :=
  ⟨law, VanishingStress.beamPairs, cppTol⟩

/-- The strain the reduced material evaluates its underlying material at
(ikarus/finiteelements/mechanics/materials/vanishingstress.hh:185-228). -/
def Reduced.strain {k : Nat} (m : Reduced k) (nfGt : Bool) (E : StrainArg) : Option (Option M3) :=
  VanishingStress.reduceStress m.law m.fixed nfGt m.tol E

/-! ### Materials of the muesli library -/

/-- `muesli::materialProperties`, a multimap of names and numbers. -/
abbrev Properties := List (String × ℝ)

/-- ikarus/finiteelements/mechanics/materials/muesli/mueslihelpers.hh:48-50. -/
def addTag (p : Properties) (name : String) : Properties := p ++ [(name, 0)]

/-- ikarus/finiteelements/mechanics/materials/muesli/mueslimaterials.hh:71-79. -/
def makeMuesliArrudaBoyce (c1 lambdam bulk : ℝ) (compressible : Bool) : Properties :=
  let p := [("c1", c1), ("lambdam", lambdam), ("bulk", bulk)]
  if compressible then addTag p "compressible" else p

/-- ikarus/finiteelements/mechanics/materials/muesli/mueslimaterials.hh:89-98. -/
def makeMuesliYeoh (c1 c2 c3 bulk : ℝ) (compressible : Bool) : Properties :=
  let p := [("c1", c1), ("c2", c2), ("c3", c3), ("bulk", bulk)]
  if compressible then addTag p "compressible" else p

/-- ikarus/finiteelements/mechanics/materials/muesli/mueslimaterials.hh:107-115. -/
def makeMooneyRivlin (a0 a1 a2 : ℝ) (incompressible : Bool) : Properties :=
  let p := [("alpha0", a0), ("alpha1", a1), ("alpha2", a2)]
  if incompressible then addTag p "incompressible" else p

/-- `kwargs.contains(name) ? kwargs[name].cast<bool>() : default`. -/
def optionalFlag (kw : Kwargs) (name : String) (default : Bool) : Option Bool :=
  if kw.contains name then kw.bool name else some default

/-- ikarus/python/finiteelements/material.hh:217-220. The local variable `compressible` is read and not
used. -/
def pyArrudaBoyce (kw : Kwargs) : Result Properties :=
  match optionalFlag kw "compressible" true, kw.double "C1", kw.double "lambda_m", kw.double "K" with
  | some _, some c1, some lm, some k => .ok (makeMuesliArrudaBoyce c1 lm k true)
  | _, _, _, _ => .raised

/-- ikarus/python/finiteelements/material.hh:221-223. -/
def pyYeoh (kw : Kwargs) : Result Properties :=
  match optionalFlag kw "compressible" true, kw.array3 "C", kw.double "K" with
  | some _, some (c1, c2, c3), some k => .ok (makeMuesliYeoh c1 c2 c3 k true)
  | _, _, _ => .raised

/-- ikarus/python/finiteelements/material.hh:224-226. -/
def pyMooneyRivlin (kw : Kwargs) : Result Properties :=
  match optionalFlag kw "incompressible" false, kw.array3 "alpha" with
  | some b, some (a0, a1, a2) => .ok (makeMooneyRivlin a0 a1 a2 b)
  | _, _ => .raised

/-- ikarus/python/finiteelements/material.hh:211-216 with mueslihelpers.hh:33-42: the properties of the
isotropic muesli materials; `none` for a number that is not finite. -/
def pyMuesliIsotropic (eps : ℝ) (kw : Kwargs) : Result (List (String × Option ℝ)) :=
  match extractMaterialParameters eps kw with
  | .ok p => .ok [("lambda", p.lambda), ("mu", p.mu)]
  | .typeError => .typeError
  | .raised => .raised
  | .undefined => .undefined

/-! ### Conversion of strains -/

/-- An `Eigen::MatrixXd` by its size: 3 x 3, 6 x 1, or something else. -/
inductive Strain
  | matrix (E : M3)
  | voigt (v : Fin 6 → ℝ)
  | other

/-- python/ikarus/materials/materials.hh:50-59. `undefined` where the template could not be instantiated
(it is not called for such tags). -/
def callTransformStrain (msqrt : M3 → M3) (frm tgt : StrainTag) (E : M3) : Result Strain :=
  match transformStrain msqrt frm tgt E with
  | some e => .ok (.matrix e)
  | none => .undefined

/-- python/ikarus/materials/materials.hh:64-114 for a strain with the components `e`; the argument itself is
`E`. -/
def transformStrainSwitch (msqrt : M3 → M3) (frm tgt : StrainTag) (E : Strain) (e : M3) : Result Strain :=
  if frm = .linear then .ok E
  else if frm = tgt then .ok E
  else match tgt with
    | .greenLagrangian =>
      match frm with
      | .deformationGradient => callTransformStrain msqrt .deformationGradient .greenLagrangian e
      | .displacementGradient => callTransformStrain msqrt .displacementGradient .greenLagrangian e
      | .rightCauchyGreenTensor => callTransformStrain msqrt .rightCauchyGreenTensor .greenLagrangian e
      | _ => .undefined
    | .deformationGradient =>
      match frm with
      | .greenLagrangian => callTransformStrain msqrt .greenLagrangian .deformationGradient e
      | .displacementGradient => callTransformStrain msqrt .displacementGradient .deformationGradient e
      | .rightCauchyGreenTensor => callTransformStrain msqrt .rightCauchyGreenTensor .deformationGradient e
      | _ => .undefined
    | .rightCauchyGreenTensor =>
      match frm with
      | .greenLagrangian => callTransformStrain msqrt .greenLagrangian .rightCauchyGreenTensor e
      | .displacementGradient => callTransformStrain msqrt .displacementGradient .rightCauchyGreenTensor e
      | .deformationGradient => callTransformStrain msqrt .deformationGradient .rightCauchyGreenTensor e
      | _ => .undefined
    | _ => .undefined

/-- python/ikarus/materials/materials.hh:49-115, the function that is bound. A vector in Voigt notation is
turned into a matrix by `transformStrain` (strainconversions.hh:122). -/
def transformStrainLambda (msqrt : M3 → M3) (frm tgt : StrainTag) (E : Strain) : Result Strain :=
  match E with
  | .other => .raised
  | .matrix e => transformStrainSwitch msqrt frm tgt E e
  | .voigt v => transformStrainSwitch msqrt frm tgt E (fromVoigt3 v true)

/-- Arguments of `transformStrain` in Python. -/
inductive Arg
  | tag (t : StrainTag)
  | strain (E : Strain)

/-- The binding of arguments in pybind11: the parameter at place `i` takes the `i`-th positional argument, if
there is one, and otherwise the keyword argument of its name. `none` is a `TypeError`: an argument is
missing, is given twice or is left over. -/
def bindArgs (names : List String) (pos : List Arg) (kw : List (String × Arg)) : Option (List Arg) :=
  match names, pos with
  | [], [] => if kw.isEmpty then some [] else none
  | [], _ :: _ => none
  | n :: ns, p :: ps =>
    if (kw.lookup n).isSome then none else (bindArgs ns ps kw).map (p :: ·)
  | n :: ns, [] =>
    match kw.lookup n with
    | none => none
    | some a => (bindArgs ns [] (kw.filter fun q => q.1 != n)).map (a :: ·)

/-- python/ikarus/materials/materials.hh:47-116: the names of line 116 are attached to the parameters of
line 49 in order. -/
def pyTransformStrain (msqrt : M3 → M3) (pos : List Arg) (kw : List (String × Arg)) : Result Strain :=
  match bindArgs ["to", "from", "strain"] pos kw with
  | some [.tag frm, .tag tgt, .strain E] => transformStrainLambda msqrt frm tgt E
  | _ => .typeError

end

end Python

end Ikarus
