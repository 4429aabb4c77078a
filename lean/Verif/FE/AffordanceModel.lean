/-!
Models of the affordances (ikarus/finiteelements/ferequirements.hh:35-208) and of `MAKE_ENUM` with `increment`
(ikarus/utils/makeenum.hh).
-/

namespace Ikarus

/-- ikarus/finiteelements/ferequirements.hh:35-39, with the two enumerators `MAKE_ENUM` adds. -/
inductive ScalarAffordance where
  | BEGIN | noAffordance | mechanicalPotentialEnergy | microMagneticPotentialEnergy | END
  deriving DecidableEq

/-- ikarus/finiteelements/ferequirements.hh:46-50. -/
inductive VectorAffordance where
  | BEGIN | noAffordance | forces | microMagneticForces | END
  deriving DecidableEq

/-- ikarus/finiteelements/ferequirements.hh:57-65. -/
inductive MatrixAffordance where
  | BEGIN | noAffordance | stiffness | materialstiffness | geometricstiffness | stiffnessdiffBucklingVector
  | microMagneticHessian | mass | END
  deriving DecidableEq

/-- `vectorAffordance(MatrixAffordance)`, ferequirements.hh:178-185. -/
def vectorAffordanceOfMatrix (m : MatrixAffordance) : VectorAffordance :=
  if m = .stiffness then .forces
  else if m = .microMagneticHessian then .microMagneticForces
  else .noAffordance

/-- `scalarAffordance(MatrixAffordance)`, ferequirements.hh:187-194. -/
def scalarAffordanceOfMatrix (m : MatrixAffordance) : ScalarAffordance :=
  if m = .stiffness then .mechanicalPotentialEnergy
  else if m = .microMagneticHessian then .microMagneticPotentialEnergy
  else .noAffordance

/-- `scalarAffordance(VectorAffordance)`, ferequirements.hh:196-203. -/
def scalarAffordanceOfVector (v : VectorAffordance) : ScalarAffordance :=
  if v = .forces then .mechanicalPotentialEnergy
  else if v = .microMagneticForces then .microMagneticPotentialEnergy
  else .noAffordance

/-- The three types admitted by the concept `FEAffordance`, ferequirements.hh:96-99. -/
inductive AffordanceKind where
  | scalar | vector | matrix
  deriving DecidableEq

/-- A value of one of these types; an `AffordanceCollection<Affordances...>` (ferequirements.hh:104-107) is a
list of them, its type is the list of the kinds. -/
inductive Affordance where
  | scalar (a : ScalarAffordance)
  | vector (a : VectorAffordance)
  | matrix (a : MatrixAffordance)
  deriving DecidableEq

/-- The type of the value. -/
def Affordance.kind : Affordance → AffordanceKind
  | .scalar _ => .scalar
  | .vector _ => .vector
  | .matrix _ => .matrix

/-- `traits::hasType<T, std::tuple<...>>`, ikarus/utils/traits.hh:86-118. -/
def hasType (t : AffordanceKind) : List AffordanceKind → Bool
  | [] => false
  | u :: ts => if t = u then true else hasType t ts

/-- `std::get<T>(tuple)`: `none` if it does not compile, because `T` does not occur exactly once. -/
def getByType (t : AffordanceKind) : List Affordance → Option Affordance
  | [] => none
  | a :: as => if a.kind = t then (if hasType t (as.map Affordance.kind) then none else some a) else getByType t as

/-- `AffordanceCollection::hasAffordance`, ferequirements.hh:126-152; `none` if it does not compile. The three
branches on the kind are the same. The branch for `AffordanceCollection` arguments (129-130) is unreachable, since
the concept of the parameter admits only the three affordances. -/
def collectionHasAffordance (c : List Affordance) (a : Affordance) : Option Bool :=
  if hasType a.kind (c.map Affordance.kind) then (getByType a.kind c).map fun b => decide (a = b)
  else some false

/-- `scalarAffordance()`, `vectorAffordance()`, `matrixAffordance()` of a collection, ferequirements.hh:154-168;
`none` if the call does not compile. -/
def collectionGet (t : AffordanceKind) (c : List Affordance) : Option Affordance :=
  if hasType t (c.map Affordance.kind) then getByType t c else none

/-- `AffordanceCollections::elastoStatics`, ferequirements.hh:205-208. -/
def elastoStatics : List Affordance :=
  [.scalar .mechanicalPotentialEnergy, .vector .forces, .matrix .stiffness]

namespace MadeEnum

/-- `BEGIN` of `MAKE_ENUM(type, names...)`, ikarus/utils/makeenum.hh:40-46: the underlying values count from 0.
An enumeration is given by its names; values are the underlying integers. -/
def begin : Int := 0

/-- `END`. -/
def «end» (names : List String) : Int := names.length + 1

/-- The `FOR_EACH(ENUM_CASE, ...)` part of the switch, for names with values from `k` on. -/
def nameCases (e : Int) : Int → List String → Option String
  | _, [] => none
  | k, n :: ns => if e = k then some n else nameCases e (k + 1) ns

/-- `toString`, ikarus/utils/makeenum.hh:47-55; `none` is `__builtin_unreachable()`. -/
def toString (names : List String) (e : Int) : Option String :=
  if e = begin then some "BEGIN"
  else match nameCases e 1 names with
    | some n => some n
    | none => if e = «end» names then some "END" else none

/-- `increment`, ikarus/utils/makeenum.hh:67-74; `none` if it throws `Dune::RangeError`. -/
def increment (names : List String) (e : Int) : Option Int :=
  if e = «end» names then none else some (e + 1)

/-- The loop of `ENUM_BINDINGS_WITH_MODULE`, python/ikarus/pythonhelpers.hh:6-11, at most `fuel` rounds: the
registered pairs. `none` if a step throws or is undefined, or the loop is not finished. -/
def bindLoop (names : List String) : Nat → Int → Option (List (String × Int))
  | 0, _ => none
  | fuel + 1, e =>
    if e = «end» names then some []
    else do
      let s ← toString names e
      let e' ← increment names e
      let rest ← bindLoop names fuel e'
      some ((s, e) :: rest)

/-- All of `ENUM_BINDINGS_WITH_MODULE`: start at `BEGIN`, increment once, loop. -/
def bindings (names : List String) (fuel : Nat) : Option (List (String × Int)) := do
  let e ← increment names begin
  bindLoop names fuel e

end MadeEnum

end Ikarus
