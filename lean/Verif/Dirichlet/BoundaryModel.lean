import Mathlib.Data.List.Basic

/-!
Model of fixing degrees of freedom of the boundary: `DirichletValues::fixBoundaryDOFs` and `fixDOFs`
(ikarus/utils/dirichletvalues.hh), and their Python bindings (ikarus/python/dirichletvalues/dirichletvalues.hh,
python/ikarus/dirichlet_values.py).

`forEachBoundaryDOF`, `subEntityDOFs` and `subspaceBasis` belong to dune-functions, which is not part of the repository; they
are modelled as documented there: the elements of the grid view in turn, for each its boundary intersections in turn, for each
the leaf nodes of the tree in turn and the shape functions whose sub-entity is contained in the face.  The numbering
`localView.index` and the reference element are arbitrary functions.  Flags are a list; writing to an index that does not exist
ends the run (an `IndexError` of Python; undefined behaviour in C++).
-/

namespace Ikarus.Boundary

/-- `dirichletFlags_` (dirichletvalues.hh:285). -/
abbrev Flags := List Bool

/-- A shape function of a leaf node: its index in the local view and its `LocalKey`. -/
structure LocalDof where
  localIndex : Nat
  subEntity : Nat
  codim : Nat
deriving DecidableEq

/-- An intersection: whether it lies on the boundary, the number of the face, and its geometry. -/
structure Intersection (G : Type) where
  boundary : Bool
  indexInInside : Nat
  geometry : G

/-- An element with the local view bound to it: the leaf nodes of the tree with their tree paths, the global indices, the
intersections, and which sub-entities a face contains. -/
structure Element (G : Type) where
  leaves : List (List Nat × List LocalDof)
  index : Nat → Nat
  hasBoundaryIntersections : Bool
  intersections : List (Intersection G)
  faceContains : Nat → Nat → Nat → Bool

/-- The shape functions of the local view of `subspaceBasis(basis, treePath)` (dirichletvalues.hh:114, 118): those of the leaf
nodes below the tree path. -/
def Element.subspace {G : Type} (e : Element G) (treePath : List Nat) : List LocalDof :=
  (e.leaves.filter fun l => treePath.isPrefixOf l.1).flatMap (·.2)

/-- `subEntityDOFs(basis).bind(localView, intersection)` of dune-functions. -/
def subEntityDOFs {G : Type} (e : Element G) (treePath : List Nat) (i : Intersection G) : List Nat :=
  ((e.subspace treePath).filter fun s => e.faceContains i.indexInInside s.codim s.subEntity).map (·.localIndex)

/-- `forEachBoundaryDOF(basis, f)` of dune-functions for `f(localIndex, localView, intersection)`; the state is what `f` changes,
an exception ends the loops and leaves the state as it is. -/
def forEachBoundaryDOF {G σ : Type} (grid : List (Element G)) (treePath : List Nat)
    (f : σ → Nat → Element G → Intersection G → Except σ σ) (s : σ) : Except σ σ :=
  grid.foldlM (fun s e =>
    if e.hasBoundaryIntersections then
      e.intersections.foldlM (fun s i =>
        if i.boundary then (subEntityDOFs e treePath i).foldlM (fun s localIndex => f s localIndex e i) s
        else Except.ok s) s
    else Except.ok s) s

/-- A callback: the forms in which it can be called. -/
structure Callback (G : Type) where
  withIndex : Option (Flags → Nat → Except Flags Flags)
  withView : Option (Flags → Nat → Element G → Except Flags Flags)
  withIntersection : Option (Flags → Nat → Element G → Intersection G → Except Flags Flags)

/-- The first branch of `fixBoundaryDOFs` (dirichletvalues.hh:117-118). -/
def fixWithIndex {G : Type} (grid : List (Element G)) (treePath : List Nat) (f : Flags → Nat → Except Flags Flags) :
    Flags → Except Flags Flags :=
  forEachBoundaryDOF grid treePath fun flags localIndex lv _ => f flags (lv.index localIndex)

/-- The second branch (dirichletvalues.hh:120-121). -/
def fixWithView {G : Type} (grid : List (Element G)) (treePath : List Nat)
    (f : Flags → Nat → Element G → Except Flags Flags) : Flags → Except Flags Flags :=
  forEachBoundaryDOF grid treePath fun flags localIndex lv _ => f flags localIndex lv

/-- The third branch (dirichletvalues.hh:124-127). -/
def fixWithIntersection {G : Type} (grid : List (Element G)) (treePath : List Nat)
    (f : Flags → Nat → Element G → Intersection G → Except Flags Flags) : Flags → Except Flags Flags :=
  forEachBoundaryDOF grid treePath fun flags localIndex lv i => f flags localIndex lv i

/-- `fixBoundaryDOFs` (dirichletvalues.hh:110-131): the first form the callback has; `none` if it has none, the program does not
compile then. -/
def fixBoundaryDOFs {G : Type} (grid : List (Element G)) (treePath : List Nat) (f : Callback G) (flags : Flags) :
    Option (Except Flags Flags) :=
  match f.withIndex, f.withView, f.withIntersection with
  | some g, _, _ => some (fixWithIndex grid treePath g flags)
  | none, some g, _ => some (fixWithView grid treePath g flags)
  | none, none, some g => some (fixWithIntersection grid treePath g flags)
  | none, none, none => none

/-- `fixDOFs` (dirichletvalues.hh:141-144). -/
def fixDOFs (f : Flags → Except Flags Flags) (flags : Flags) : Except Flags Flags := f flags

/-- A Python callable: the forms in which it can be called, and the number of its parameters as `inspect.signature` tells it, those
with defaults counted. -/
structure PyCallback (G : Type) extends Callback G where
  numParams : Nat

/-- `fixBoundaryDOFs` of the Python module (python/ikarus/dirichlet_values.py:12-36) with `forwardCorrectFunction`
(python/dirichletvalues/dirichletvalues.hh:66-114): the form is taken by the number of parameters; a call in a form the callable
does not have raises a `TypeError`, another number of parameters an exception before anything is called. -/
def pyFixBoundaryDOFs {G : Type} (grid : List (Element G)) (treePath : List Nat) (f : PyCallback G) (flags : Flags) :
    Except Flags Flags :=
  if f.numParams = 2 then
    fixWithIndex grid treePath (fun fl k => (f.withIndex.map fun g => g fl k).getD (.error fl)) flags
  else if f.numParams = 3 then
    fixWithView grid treePath (fun fl k lv => (f.withView.map fun g => g fl k lv).getD (.error fl)) flags
  else if f.numParams = 4 then
    fixWithIntersection grid treePath (fun fl k lv i => (f.withIntersection.map fun g => g fl k lv i).getD (.error fl)) flags
  else .error flags

/-- `fixDOFs` of the bindings (python/dirichletvalues/dirichletvalues.hh:187-191): the callable writes to the flags themselves. -/
def pyFixDOFs (f : Flags → Except Flags Flags) (flags : Flags) : Except Flags Flags := fixDOFs f flags

/-- `flags[k] = true` in a callback. -/
def write (flags : Flags) (k : Nat) : Except Flags Flags :=
  if k < flags.length then .ok (flags.set k true) else .error flags

end Ikarus.Boundary
