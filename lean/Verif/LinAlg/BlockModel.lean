import Mathlib.Algebra.Group.Basic
import Mathlib.Data.List.Basic

/-!
Increments of blocked vectors, ikarus/utils/linearalgebrahelper.hh:148-243.

A block is an element of a type `P` (a manifold point such as `RealTuple` or `UnitVector`), which is
incremented by vectors of length `correctionSize`. `none` stands for a failed assertion.
-/

namespace Ikarus

variable {P K : Type}

/-- A type of manifold points: the number of entries of a correction and `operator+=`. -/
structure ManifoldOps (P K : Type) where
  correctionSize : Nat
  addAssign : P → List K → P

/-- `b.template segment<n>(start)` resp. `b(Eigen::seqN(start, n))`; Eigen asserts that the segment
lies inside the vector. -/
def segment (b : List K) (start n : Nat) : Option (List K) :=
  if start + n ≤ b.length then some ((b.drop start).take n) else none

/-- ikarus/utils/linearalgebrahelper.hh:148-153. -/
def correctionSizeBV (ops : ManifoldOps P K) (a : List P) : Nat := a.length * ops.correctionSize

/-- The loop of ikarus/utils/linearalgebrahelper.hh:184-185 from index `i` on. -/
def blockAddLoop (ops : ManifoldOps P K) (b : List K) : Nat → List P → Option (List P)
  | _, [] => some []
  | i, p :: a => do
    let s ← segment b (i * ops.correctionSize) ops.correctionSize
    let r ← blockAddLoop ops b (i + 1) a
    some (ops.addAssign p s :: r)

/-- ikarus/utils/linearalgebrahelper.hh:178-187, `operator+=` of a `Dune::BlockVector`. -/
def blockAdd (ops : ManifoldOps P K) (a : List P) (b : List K) : Option (List P) :=
  if correctionSizeBV ops a = b.length then blockAddLoop ops b 0 a else none

/-- ikarus/utils/linearalgebrahelper.hh:198-204, `operator-=`. -/
def blockSub [Neg K] (ops : ManifoldOps P K) (a : List P) (b : List K) : Option (List P) :=
  blockAdd ops a (b.map (- ·))

/-- ikarus/utils/linearalgebrahelper.hh:215-226, `operator+=` of a `Dune::TupleVector`; the blocks of
the components may have different types in the code, here each component has its own operations on
one type. `pos` is `posStart`. -/
def tupleAdd (b : List K) : Nat → List (ManifoldOps P K × List P) → Option (List (List P))
  | _, [] => some []
  | pos, (ops, a) :: rest => do
    let size := correctionSizeBV ops a
    let s ← segment b pos size
    let a' ← blockAdd ops a s
    let r ← tupleAdd b (pos + size) rest
    some (a' :: r)

/-- The manifold points that are plain vectors (`RealTuple`): a point is its list of coordinates,
ikarus/utils uses dune-localfefunctions' `RealTuple::operator+=`. -/
def realTupleOps (K : Type) [Add K] (n : Nat) : ManifoldOps (List K) K :=
  ⟨n, fun p c => List.zipWith (· + ·) p c⟩

/-- ikarus/utils/linearalgebrahelper.hh:55-61 (and 70-76), the flat view: the entries in memory
order, block after block. `blockedVector[0]` does not exist for an empty vector. -/
def viewAsFlat : List (List K) → Option (List K)
  | [] => none
  | a => some a.flatten

/-- ikarus/utils/linearalgebrahelper.hh:86-92: a row major matrix with one block in each row; the
entry `(i, j)`. -/
def viewDynFixedEntry (valueSize : Nat) (a : List (List K)) (i j : Nat) : Option K :=
  if i < a.length ∧ j < valueSize then a.flatten[i * valueSize + j]? else none

/-- ikarus/utils/linearalgebrahelper.hh:118-124: a column major matrix with one block in each column;
the entry `(i, j)`. -/
def viewFixedDynEntry (valueSize : Nat) (a : List (List K)) (i j : Nat) : Option K :=
  if i < valueSize ∧ j < a.length then a.flatten[j * valueSize + i]? else none

end Ikarus
