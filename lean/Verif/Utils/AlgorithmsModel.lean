import Mathlib.Data.List.Sort
import Mathlib.Order.Defs.LinearOrder

/-!
Model of the container and tuple helpers in `ikarus/utils/algorithms.hh` and of `countType` in
`ikarus/utils/traits.hh`.

A C++ tuple is a list of elements, each with its type and its value.  Sizes of `size_t` and `int` are
natural numbers.
-/

namespace Ikarus.Utils

/-! ### Containers -/

/-- `std::unique` followed by the erasure of the tail: `last` is the last kept element, later
elements equal to it are dropped (`algorithms.hh` 30). -/
def uniqueAfter {α : Type*} [DecidableEq α] (last : α) : List α → List α
  | [] => []
  | b :: l => if b = last then uniqueAfter last l else b :: uniqueAfter b l

/-- The first element is always kept (`algorithms.hh` 30). -/
def stdUnique {α : Type*} [DecidableEq α] : List α → List α
  | [] => []
  | a :: l => a :: uniqueAfter a l

/-- `makeUniqueAndSort` (`algorithms.hh` 28-31).  `std::sort` is modelled by Mathlib's insertion
sort; the order is total, so the sorted list does not depend on the algorithm. -/
def makeUniqueAndSort {α : Type*} [LinearOrder α] (r : List α) : List α :=
  stdUnique (r.insertionSort (· ≤ ·))

/-- `std::find` as a distance from the begin: the first position holding `v`, or the size
(`algorithms.hh` 46-47). -/
def findPos {α : Type*} [DecidableEq α] (v : α) : List α → Nat
  | [] => 0
  | a :: l => if a = v then 0 else findPos v l + 1

/-- `appendUnique` (`algorithms.hh` 43-52): the returned index and the container afterwards. -/
def appendUnique {α : Type*} [DecidableEq α] (r : List α) (v : α) : Nat × List α :=
  let index := findPos v r
  (index, if index = r.length then r ++ [v] else r)

/-! ### Tuples -/

/-- One element of a tuple: its type and its value. -/
structure Elem (τ ν : Type) where
  ty : τ
  val : ν
  deriving DecidableEq

/-- The local variables of `find_if` (`algorithms.hh` 220-223). -/
structure FindState where
  index : Nat
  currentIndex : Nat
  found : Bool

/-- The lambda given to `forEach` in `find_if` (`algorithms.hh` 225-231). -/
def findStep {α : Type*} (pred : α → Bool) (s : FindState) (value : α) : FindState :=
  let s := if !s.found && pred value then { s with index := s.currentIndex, found := true } else s
  { s with currentIndex := s.currentIndex + 1 }

/-- `find_if` (`algorithms.hh` 219-233). -/
def findIf {α : Type*} (tuple : List α) (pred : α → Bool) : Nat :=
  (tuple.foldl (findStep pred) ⟨tuple.length, 0, false⟩).index

/-- `none_of` (`algorithms.hh` 247-250). -/
def noneOf {α : Type*} (tuple : List α) (pred : α → Bool) : Bool :=
  findIf tuple pred == tuple.length

/-- `any_of` (`algorithms.hh` 264-267). -/
def anyOf {α : Type*} (tuple : List α) (pred : α → Bool) : Bool := !noneOf tuple pred

/-- `filter` (`algorithms.hh` 283-290).  The predicate is evaluated in a template argument, so it
depends on the type of the element only; the kept elements are `std::tuple<decltype(ts)>{}`, that is
value initialised (`dflt`), not copies. -/
def filterTuple {τ ν : Type} (dflt : τ → ν) (tuple : List (Elem τ ν)) (pred : τ → Bool) :
    List (Elem τ ν) :=
  (tuple.map fun t => if pred t.ty then [⟨t.ty, dflt t.ty⟩] else []).flatten

/-- `uniqueImpl` (`algorithms.hh` 114-127): `ts` are the accumulated types. -/
def uniqueImpl {τ : Type} [DecidableEq τ] (ts : List τ) : List τ → List τ
  | [] => ts
  | u :: us => if ts.any (fun t => decide (u = t)) then uniqueImpl ts us
      else uniqueImpl (ts ++ [u]) us

/-- `unique` (`algorithms.hh` 303-306): a value initialised tuple of the unique types. -/
def uniqueTuple {τ ν : Type} [DecidableEq τ] (dflt : τ → ν) (tuple : List (Elem τ ν)) :
    List (Elem τ ν) :=
  (uniqueImpl [] (tuple.map Elem.ty)).map fun t => ⟨t, dflt t⟩

/-- `count_if` (`algorithms.hh` 321-329). -/
def countIf {α : Type*} (tuple : List α) (pred : α → Bool) : Nat :=
  tuple.foldl (fun counter value => if pred value then counter + 1 else counter) 0

/-- `findTypeSpecialization` (`algorithms.hh` 343-347): `isSpec` says whether a type is a
specialisation of the template asked for. -/
def findTypeSpecialization {τ ν : Type} (tuple : List (Elem τ ν)) (isSpec : τ → Bool) : Nat :=
  findIf tuple fun t => isSpec t.ty

/-- `getSpecialization` (`algorithms.hh` 361-367).  A failing `static_assert` is `none`. -/
def getSpecialization {τ ν : Type} (tuple : List (Elem τ ν)) (isSpec : τ → Bool) :
    Option (Elem τ ν) :=
  let index := findTypeSpecialization tuple isSpec
  if index < tuple.length then tuple[index]? else none

/-- `hasTypeSpecialization` (`algorithms.hh` 382-387). -/
def hasTypeSpecialization {τ ν : Type} (tuple : List (Elem τ ν)) (isSpec : τ → Bool) : Bool :=
  decide (findIf tuple (fun t => isSpec t.ty) < tuple.length)

/-- Conversion of an integer to `bool` and back. -/
def boolOf (n : Nat) : Nat := if n = 0 then 0 else 1

/-- `countTypeSpecialization` and `countTypeSpecialization_v` (`algorithms.hh` 400-404, 417): the
return type is `bool`, so the count is converted. -/
def countTypeSpecialization {τ ν : Type} (tuple : List (Elem τ ν)) (isSpec : τ → Bool) : Nat :=
  boolOf (countIf tuple fun t => isSpec t.ty)

/-- `traits::countType` (`traits.hh` 55-66): an `int` counted over the indices of the tuple. -/
def countType {τ : Type} [DecidableEq τ] (types : List τ) (ty : τ) : Nat :=
  (List.range types.length).foldl
    (fun count i => if types[i]? = some ty then count + 1 else count) 0

/-- `std::get<I>(t)...` for a pack of indices; an index out of range does not compile. -/
def getAll {α : Type*} (t : List α) : List Nat → Option (List α)
  | [] => some []
  | i :: is => do
    let a ← t[i]?
    let as ← getAll t is
    pure (a :: as)

/-- `makeTupleSubset` (`algorithms.hh` 103-106, 432-438) with its `static_assert`.  `N` is taken non
negative. -/
def makeTupleSubset {α : Type*} (N : Nat) (t : List α) : Option (List α) :=
  if N < t.length then getAll t (List.range N) else none

/-- `makeTupleFromTupleIndices` (`algorithms.hh` 108-111, 453-456). -/
def makeTupleFromTupleIndices {α : Type*} (I : List Nat) (t : List α) : Option (List α) :=
  getAll t I

/-! ### Nested tuples -/

/-- An element of a nested tuple: a plain element or again a tuple. -/
inductive Nested (τ ν : Type) where
  | leaf (e : Elem τ ν)
  | tuple (ts : List (Nested τ ν))

mutual
/-- The common recursion of `makeNestedTupleFlatImpl` (`algorithms.hh` 129-143),
`makeNestedTupleFlatAndStoreReferencesImpl` (145-171) and
`makeNestedTupleFlatAndStoreReferencesNonConstImpl` (173-200) on the pack `T, Types...`.  `f` is what is
stored for a plain element.  The three functions have the same four branches.  An empty pack matches no
overload, which is `none`. -/
def flatImpl {τ ν β : Type} (f : Elem τ ν → β) : List (Nested τ ν) → Option (List β)
  | [] => none
  | t :: ts =>
    match ts with
    | [] => flatHead f t
    | _ :: _ => do
      let a ← flatHead f t
      let b ← flatImpl f ts
      pure (a ++ b)
/-- The `isTuple` test on the head (`algorithms.hh` 131-141). -/
def flatHead {τ ν β : Type} (f : Elem τ ν → β) : Nested τ ν → Option (List β)
  | .leaf e => some [f e]
  | .tuple ts => flatImpl f ts
end

/-- `makeNestedTupleFlat` (`algorithms.hh` 465-468): value initialised elements of the flattened
types. -/
def makeNestedTupleFlat {τ ν : Type} (dflt : τ → ν) (tup : List (Nested τ ν)) :
    Option (List (Elem τ ν)) :=
  flatImpl (fun e => ⟨e.ty, dflt e.ty⟩) tup

/-- `makeNestedTupleFlatAndStoreReferences` (`algorithms.hh` 480-489).  The references read the
elements they are bound to, so their values are those of the elements.  An empty tuple is returned as
it is. -/
def makeNestedTupleFlatAndStoreReferences {τ ν : Type} (tup : List (Nested τ ν)) :
    Option (List (Elem τ ν)) :=
  match tup with
  | [] => some []
  | t :: ts => flatImpl id (t :: ts)

end Ikarus.Utils
