import Mathlib.Data.List.Basic

/-!
Model of the lifetimes of the Python objects of a computation: which objects hold C++ pointers to others and which
ones Python keeps alive.

Python destroys an object as soon as no variable and no living object refers to it; `pybind11::keep_alive<a, b>` makes
the object of position `a` (0 is the result, 1 is `self`) refer to the object of position `b`.
Every other pointer of a C++ object to another one is not seen by Python.

Simplifications. Objects are numbered in the order in which they are created, the caller has one variable for each.
Objects that hold only values are not told apart further: materials, load functions, numpy arrays and solution vectors
are copied where they are passed on (ikarus/finiteelements/ferequirements.hh:290-307 for requirements). Pointers inside
dune-grid, dune-functions and dune-fufem are not modelled; `keep_alive` of the grid view and of the mask of a boundary
patch (ikarus/python/utils/boundarypatch.hh:28) concerns these.
-/

namespace Ikarus

namespace PyAlive

/-- The classes of the objects. -/
inductive Kind
  | basis | flat | patch | requirement | skill | fe | view | dirichlet | assembler | writer
  deriving DecidableEq

/-- A Python object: its class, the objects Python keeps alive for it, the boundary patches its C++ object points to
(`neumannBoundary_`, ikarus/finiteelements/mechanics/loads/traction.hh:148), the basis handlers that its local view
points to (ikarus/finiteelements/febase.hh:55-64), the requirement it is bound to (`req_`,
ikarus/assembler/interface.hh:261) and the assembler it writes the results of. -/
structure Obj where
  kind : Kind
  keeps : List Nat := []
  patches : List Nat := []
  views : List Nat := []
  bound : Option Nat := none
  writes : Option Nat := none

/-- The objects in the order of their creation, and those that a variable of the caller refers to. -/
structure State where
  objs : List Obj
  held : List Nat

/-- Statements of a Python program. The arguments are variables, named by the number of the object. -/
inductive Op
  | make (kind : Kind)
  | load (patch : Nat)
  | fe (basis : Nat) (skills : List Nat)
  | localView (fe : Nat)
  | dirichlet (flat : Nat)
  | assembler (fes : List Nat) (dirichlet : Nat)
  | manipulator (assembler : Nat)
  | bind (assembler requirement : Nat)
  | writer (assembler : Nat)
  | del (i : Nat)

namespace State

/-- The object of a variable, if it has the class that the bound function takes; otherwise pybind11 raises an error. -/
def arg (s : State) (kind : Kind) (i : Nat) : Option Obj :=
  match s.objs[i]? with
  | none => none
  | some o => if i ∈ s.held ∧ o.kind = kind then some o else none

/-- A new object, assigned to a variable. -/
def create (s : State) (o : Obj) : State := ⟨s.objs ++ [o], s.objs.length :: s.held⟩

/-- One statement. A statement that raises an error changes nothing.

* `make`: `iks.basis` (ikarus/python/basis/basis.hh:45), `flat` of a handler, which returns a copy (basis.hh:47),
  `iks.utils.boundaryPatch`, `createRequirement` (ikarus/python/finiteelements/registerferequirements.hh:22-24), and
  the skills that hold values only (ikarus/python/finiteelements/registerpreelement.hh:25-98, 131-136);
* `load`: `neumannBoundaryLoad` (registerpreelement.hh:116-119) holds a pointer to the patch and keeps it alive;
* `fe`: `makeFE` (ikarus/python/finiteelements/fe.hh:94-100) copies what the skills hold and keeps the handler alive;
* `localView`: `fe.localView()` (fe.hh:135-145) points to the basis of the element and keeps the element alive;
* `dirichlet`: `iks.dirichletValues` (ikarus/python/dirichletvalues/dirichletvalues.hh:175) copies the basis
  (ikarus/utils/dirichletvalues.hh:284) and keeps its argument alive;
* `assembler`: the assemblers (ikarus/python/assembler/flatassembler.hh:50-57, python/ikarus/assembler/__init__.py:9-58)
  copy elements and Dirichlet values and keep the latter alive; the type is that of the first element;
* `manipulator`: `assemblerManipulator` (ikarus/python/assembler/flatassemblermanipulator.hh:78) copies an assembler;
* `bind`: `assembler.bind(req, ...)` (flatassembler.hh:107-109) stores a reference
  (ikarus/assembler/interface.hh:150-164);
* `writer`: `iks.io.vtkWriter` (ikarus/python/io/vtkwriter.hh:60-65) shares the assembler and keeps it alive;
* `del`: the variable is deleted, assigned anew or goes out of scope. -/
def step (s : State) : Op → State
  | .make kind => match kind with
    | .basis | .flat | .patch | .requirement | .skill => s.create { kind }
    | _ => s
  | .load p => match s.arg .patch p with
    | none => s
    | some _ => s.create { kind := .skill, keeps := [p], patches := [p] }
  | .fe b skills => match s.arg .basis b, skills.mapM (s.arg .skill) with
    | some _, some os => s.create { kind := .fe, keeps := [b], patches := os.flatMap Obj.patches, views := [b] }
    | _, _ => s
  | .localView f => match s.arg .fe f with
    | none => s
    | some o => s.create { kind := .view, keeps := [f], views := o.views }
  | .dirichlet b => match s.arg .flat b with
    | none => s
    | some _ => s.create { kind := .dirichlet, keeps := [b] }
  | .assembler fes d => match fes.mapM (s.arg .fe), s.arg .dirichlet d with
    | some (o :: os), some _ => s.create { kind := .assembler, keeps := [d], patches := (o :: os).flatMap Obj.patches }
    | _, _ => s
  | .manipulator a => match s.arg .assembler a with
    | none => s
    | some o => s.create { kind := .assembler, patches := o.patches, bound := o.bound }
  | .bind a r => match s.arg .assembler a, s.arg .requirement r with
    | some o, some _ => { s with objs := s.objs.set a { o with bound := some r } }
    | _, _ => s
  | .writer a => match s.arg .assembler a with
    | none => s
    | some _ => s.create { kind := .writer, keeps := [a], writes := some a }
  | .del i => { s with held := s.held.filter (· ≠ i) }

/-- A program. -/
def run (ops : List Op) : State := ops.foldl step ⟨[], []⟩

/-- The objects that an object refers to in Python, by the calls with `keep_alive` (see `step`). -/
def keepsOf (s : State) (i : Nat) : List Nat :=
  match s.objs[i]? with
  | none => []
  | some o => o.keeps

/-- The objects that Python has not destroyed: going through the objects from the youngest to the oldest, those that a
variable or a living object refers to. An object refers only to older ones. -/
def living (s : State) : List Nat :=
  (List.range s.objs.length).foldr (fun i alive =>
    if i ∈ s.held ∨ ∃ j ∈ alive, i ∈ s.keepsOf j then i :: alive else alive) []

/-- The C++ objects that are read when an object is used: the patches by `calculateAt`, `calculateVector` and
assembly (traction.hh:74-148), the requirement by assembly, the basis by `bind` and `localView` of an element
(fe.hh:102, 137-142) and by a local view; a writer reads what its assembler reads
(ikarus/io/resultfunction.hh:95, 145-151). -/
def reads (s : State) (i : Nat) : List Nat :=
  match s.objs[i]? with
  | none => []
  | some o => o.views ++ o.patches ++ o.bound.toList ++
    match o.writes with
    | none => []
    | some a => a :: match s.objs[a]? with
      | none => []
      | some oa => oa.patches ++ oa.bound.toList

/-- Using an object is defined if everything that is read exists. -/
def usable (s : State) (i : Nat) : Bool := (s.reads i).all fun j => j ∈ s.living

end State

end PyAlive

end Ikarus
