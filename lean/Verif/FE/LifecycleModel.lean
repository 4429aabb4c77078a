import Verif.FE.EASModel
import Verif.FE.AssumedStressModel

/-!
What happens to an element with internal variables when it is made, bound to elements of the grid and given another number of
internal variables: ikarus/finiteelements/febase.hh, ikarus/finiteelements/mechanics/enhancedassumedstrains.hh,
assumedstress.hh and the variants of both.

`G` are the elements of the grid, `R` the integration rules.  Every function of the library is a function from states to states
and a flag that is `false` if an exception leaves the function; the state is what the exception leaves behind.  The solid skill
comes first in the list of skills, as in all uses in the library.
-/

namespace Ikarus.Element

/-- What the solid skill tells about the elements of the grid: `fe.size()` of linearelastic.hh:111 (nonlinearelastic.hh:118) and
the number of integration points of linearelastic.hh:114-117, which depends on the rule that was given, if any. -/
structure Grid (G R : Type) where
  nodes : G → Nat
  points : G → Option R → Nat

/-- What an evaluation of an element works with: the element of the grid and the rule, the number of internal variables, the
element of the grid the enhancing functions were made for, and the internal variables and states. -/
inductive Answer (G R W : Type) where
  /-- an element that is not bound has no geometry -/
  | undefined
  | throws
  | from (place : G) (rule : Option R) (size : Nat) (madeFor : Option G) (inner : W)

namespace EAS

/-- The members of an element with enhanced strains: `localView_` and `rule_` (febase.hh:64, 160), `numberOfNodes_`
(linearelastic.hh:264), `geometry_`, `var_` and `numberOfEASParameters_` (easvariants.hh:166-168; of the variant the number of
parameters and the geometry it holds, `none` if it was constructed by default), `alpha_` (enhancedassumedstrains.hh:364). -/
structure Body (G R : Type) where
  place : Option G
  rule : Option R
  nodes : Nat
  geometry : Option G
  var : Nat × Option G
  number : Int
  alpha : List ℝ

variable {G R : Type}

/-- `createEASType` (easvariants.hh:101-165) with its effect on `var_`. -/
def Body.create (f : StrainFunction) (dim : Nat) (s : Body G R) : Body G R × Bool :=
  match createEASType f dim s.number with
  | some m => ({ s with var := (m, s.geometry) }, true)
  | none => (s, false)

/-- `initializeState` (enhancedassumedstrains.hh:373-376). -/
def Body.initializeState (s : Body G R) : Body G R := { s with alpha := List.replicate s.var.1 0 }

/-- `easApplicabilityCheck` (enhancedassumedstrains.hh:250-256), whether it passes. -/
def Body.check (dim : Nat) (s : Body G R) : Bool := applicable s.nodes dim s.var.1

/-- `setEASType` (enhancedassumedstrains.hh:195-200, easvariants.hh:90-94). -/
def Body.setEASType (f : StrainFunction) (dim : Nat) (n : Int) (s : Body G R) : Body G R × Bool :=
  if n ≠ 0 ∧ s.check dim = false then (s, false)
  else
    let s := { s with number := n }
    if s.geometry.isSome then
      match s.create f dim with
      | (s, true) => (s.initializeState, true)
      | (s, false) => (s, false)
    else (s.initializeState, true)

/-- The constructor (enhancedassumedstrains.hh:83-90); `junk` is the value of the member `numberOfEASParameters_`, which is not
initialised (easvariants.hh:168). -/
def Body.make (f : StrainFunction) (dim : Nat) (junk n : Int) : Body G R × Bool :=
  Body.setEASType f dim n ⟨none, none, 0, none, (0, none), junk, []⟩

/-- `bind` (febase.hh:114-117, mixin.hh:190, linearelastic.hh:105-118, enhancedassumedstrains.hh:210-214,
easvariants.hh:95-98). -/
def Body.bind (f : StrainFunction) (dim : Nat) (grid : Grid G R) (e : G) (s : Body G R) : Body G R × Bool :=
  let s := { s with place := some e, nodes := grid.nodes e, geometry := some e }
  match s.create f dim with
  | (s, true) => (s.initializeState, true)
  | (s, false) => (s, false)

/-- `bind` with an integration rule (febase.hh:125-128). -/
def Body.bindRule (f : StrainFunction) (dim : Nat) (grid : Grid G R) (r : R) (e : G) (s : Body G R) :
    Body G R × Bool := Body.bind f dim grid e { s with rule := some r }

/-- `updateStateImpl` (enhancedassumedstrains.hh:225-248) for corrections of the right size; `delta` is what is subtracted from
the internal variables, see `updateState` for its value. -/
def Body.update (dim : Nat) (delta : Nat → ℝ) (s : Body G R) : Body G R × Bool :=
  if s.check dim = false then (s, false)
  else if s.var.1 = 0 then (s, true)
  else ({ s with alpha := s.alpha.mapIdx fun i a => a - delta i }, true)

/-- What `calculateVectorImpl` and `calculateMatrixImpl` work with (enhancedassumedstrains.hh:258-299, 312-348). -/
def Body.answer (dim : Nat) (s : Body G R) : Answer G R (List ℝ) :=
  match s.place with
  | none => .undefined
  | some e => if s.check dim then .from e s.rule s.var.1 s.var.2 s.alpha else .throws

/-- The functions a user can call. -/
inductive Op (G R : Type) where
  | choose (n : Int)
  | bind (e : G)
  | bindRule (r : R) (e : G)
  | update (delta : Nat → ℝ)

/-- One call. -/
def Body.step (f : StrainFunction) (dim : Nat) (grid : Grid G R) : Op G R → Body G R → Body G R × Bool
  | .choose n, s => s.setEASType f dim n
  | .bind e, s => s.bind f dim grid e
  | .bindRule r e, s => s.bindRule f dim grid r e
  | .update delta, s => s.update dim delta

/-- Calls one after the other; the user catches the exceptions. Returns what each call did. -/
def Body.run (f : StrainFunction) (dim : Nat) (grid : Grid G R) : List (Op G R) → Body G R → Body G R × List Bool
  | [], s => (s, [])
  | op :: ops, s =>
    let (s, ok) := s.step f dim grid op
    let (s, oks) := Body.run f dim grid ops s
    (s, ok :: oks)

end EAS

namespace AssumedStress

/-- The members of an element with assumed stresses: those of the base (febase.hh:64, 160, linearelastic.hh:264), `geometry_`,
`var_` and `numberOfAssumedStressParameters_` (asvariants.hh:109-111), `beta_`, `strainStates_` and `invertedMaterialStates_`
(assumedstress.hh:357-359). -/
structure Body (G R V C : Type) where
  place : Option G
  rule : Option R
  nodes : Nat
  geometry : Option G
  var : Nat × Option G
  number : Int
  beta : List ℝ
  strainStates : List V
  inverted : List C

variable {G R V C : Type}

/-- What the element gets from its parts: the stress at an integration point of an element of the grid for the internal
variables, and `materialInversion` of the material. -/
structure Parts (G V C : Type) where
  stress : G → Nat → List ℝ → V
  inversion : V → V → C × V

/-- `std::vector::resize` with a value: entries that are there are kept. -/
def resize {α : Type} (xs : List α) (n : Nat) (x : α) : List α := xs.take n ++ List.replicate (n - xs.length) x

/-- The first alternative of the variant (asvariants.hh:18-34), which is there before an element is bound. -/
def defaultSize (dim : Nat) : Nat := if dim = 2 then 5 else 18

/-- `createAssumedStressType` (asvariants.hh:79-108) with its effect on `var_`. -/
def Body.create (dim : Nat) (s : Body G R V C) : Body G R V C × Bool :=
  match createAssumedStressType dim s.number with
  | some m => ({ s with var := (m, s.geometry) }, true)
  | none => (s, false)

/-- `calculateMaterialInversion` (assumedstress.hh:443-455). -/
def Body.calculateMaterialInversion (parts : Parts G V C) (e : G) (s : Body G R V C) : Body G R V C :=
  let results := s.strainStates.mapIdx fun k E => parts.inversion (parts.stress e k s.beta) E
  { s with inverted := results.map (·.1), strainStates := results.map (·.2) }

/-- `initializeState` (assumedstress.hh:368-374) of an element that is bound to `e`. -/
def Body.initializeState [Zero V] [Zero C] (grid : Grid G R) (parts : Parts G V C) (e : G) (s : Body G R V C) :
    Body G R V C :=
  let s := { s with
    beta := List.replicate s.var.1 0
    strainStates := resize s.strainStates (grid.points e s.rule) 0
    inverted := resize s.inverted (grid.points e s.rule) 0 }
  s.calculateMaterialInversion parts e

/-- `asApplicabilityCheck` (assumedstress.hh:229-234), whether it passes. -/
def Body.check (dim : Nat) (s : Body G R V C) : Bool :=
  (s.nodes == 4 && dim == 2) || (s.nodes == 8 && dim == 3)

/-- `setAssumedStressType` (assumedstress.hh:176-180, asvariants.hh:68-72). The check fails for elements that are not bound, for
they have no nodes. -/
def Body.setAssumedStressType [Zero V] [Zero C] (dim : Nat) (grid : Grid G R) (parts : Parts G V C) (n : Int)
    (s : Body G R V C) : Body G R V C × Bool :=
  if s.check dim = false then (s, false)
  else
    let s := { s with number := n }
    match s.geometry with
    | none => (s, false)
    | some e =>
      match s.create dim with
      | (s, true) => (s.initializeState grid parts e, true)
      | (s, false) => (s, false)

/-- The constructor (assumedstress.hh:89-95). -/
def Body.make (dim : Nat) (n : Int) : Body G R V C :=
  ⟨none, none, 0, none, (defaultSize dim, none), n, [], [], []⟩

/-- `bind` (febase.hh:114-117, mixin.hh:190, linearelastic.hh:105-118, assumedstress.hh:190-194, asvariants.hh:73-76). -/
def Body.bind [Zero V] [Zero C] (dim : Nat) (grid : Grid G R) (parts : Parts G V C) (e : G) (s : Body G R V C) :
    Body G R V C × Bool :=
  let s := { s with place := some e, nodes := grid.nodes e, geometry := some e }
  match s.create dim with
  | (s, true) => (s.initializeState grid parts e, true)
  | (s, false) => (s, false)

/-- `bind` with an integration rule (febase.hh:125-128). -/
def Body.bindRule [Zero V] [Zero C] (dim : Nat) (grid : Grid G R) (parts : Parts G V C) (r : R) (e : G)
    (s : Body G R V C) : Body G R V C × Bool := Body.bind dim grid parts e { s with rule := some r }

/-- `updateStateImpl` (assumedstress.hh:205-227) for corrections of the right size; `delta` is what is added to the internal
variables, see `updateState` for its value. -/
def Body.update (dim : Nat) (parts : Parts G V C) (delta : Nat → ℝ) (s : Body G R V C) : Body G R V C × Bool :=
  match s.place with
  | none => (s, false)
  | some e =>
    if s.check dim = false then (s, false)
    else (({ s with beta := s.beta.mapIdx fun i b => b + delta i }).calculateMaterialInversion parts e, true)

/-- What `calculateVectorImpl` and `calculateMatrixImpl` work with (assumedstress.hh:236-352). -/
def Body.answer (dim : Nat) (s : Body G R V C) : Answer G R (List ℝ × List V × List C) :=
  match s.place with
  | none => .undefined
  | some e => if s.check dim then .from e s.rule s.var.1 s.var.2 (s.beta, s.strainStates, s.inverted) else .throws

/-- One call, with the names of the calls as for enhanced strains. -/
def Body.step [Zero V] [Zero C] (dim : Nat) (grid : Grid G R) (parts : Parts G V C) :
    EAS.Op G R → Body G R V C → Body G R V C × Bool
  | .choose n, s => s.setAssumedStressType dim grid parts n
  | .bind e, s => s.bind dim grid parts e
  | .bindRule r e, s => s.bindRule dim grid parts r e
  | .update delta, s => s.update dim parts delta

/-- Calls one after the other; the user catches the exceptions. -/
def Body.run [Zero V] [Zero C] (dim : Nat) (grid : Grid G R) (parts : Parts G V C) :
    List (EAS.Op G R) → Body G R V C → Body G R V C × List Bool
  | [], s => (s, [])
  | op :: ops, s =>
    let (s, ok) := s.step dim grid parts op
    let (s, oks) := Body.run dim grid parts ops s
    (s, ok :: oks)

end AssumedStress

end Ikarus.Element
