import Mathlib.Logic.Function.Basic
import Mathlib.Data.Nat.Notation

/-!
Model of `ikarus/solver/linearsolver/linearsolver.hh` and `linearsolver.cpp`: the wrapper of the solvers of Eigen.

Numbers do not occur: the outcome of `solve` names the matrix whose factorisation is used.  `M` are the matrices, `P` their
sparsity patterns.  What Eigen does is simplified to: a direct solver keeps a copy of what it factorises; `factorize` of a sparse
solver needs a preceding `analyzePattern` (or `compute`) with the same pattern, which invalidates an earlier factorisation; an
iterative solver keeps a reference to the matrix last passed to any of its functions (`IterativeSolverBase::grab` of a compressed
matrix); what Eigen only guards by `eigen_assert` is undefined.  Whether a factorisation succeeds numerically is not modelled.
-/

namespace Ikarus.LinearSolver

/-- `SolverTypeTag` (linearsolver.hh:28-31). -/
inductive Tag
  | none | si_ConjugateGradient | si_LeastSquaresConjugateGradient | si_BiCGSTAB | sd_SimplicialLLT | sd_SimplicialLDLT
  | sd_SparseLU | sd_SparseQR | sd_CholmodSupernodalLLT | sd_UmfPackLU | sd_SuperLU | d_PartialPivLU | d_FullPivLU
  | d_HouseholderQR | d_ColPivHouseholderQR | d_FullPivHouseholderQR | d_CompleteOrthogonalDecomposition | d_LLT | d_LDLT
  deriving DecidableEq

/-- `MatrixTypeTag` (linearsolver.hh:37-41). -/
inductive Storage
  | dense | sparse
  deriving DecidableEq

/-- What kind of solver of Eigen an instance of `SolverImpl` wraps: derived from `IterativeSolverBase`, otherwise from
`SparseSolverBase`, or from `SolverBase`. -/
inductive Kind
  | iterative | directSparse | dense
  deriving DecidableEq

/-- The storage a kind of solver supports: `std::is_base_of` in linearsolver.hh:136, 140, 147. -/
def Kind.storage : Kind → Storage
  | .iterative => .sparse
  | .directSparse => .sparse
  | .dense => .dense

/-- The constructor with a tag (linearsolver.cpp:17-83): outer `none` if it throws, inner `none` if `solverimpl_` stays null. -/
def construct : Tag → Option (Option Kind)
  | .none => some none
  | .si_ConjugateGradient | .si_LeastSquaresConjugateGradient | .si_BiCGSTAB => some (some .iterative)
  | .sd_SimplicialLLT | .sd_SimplicialLDLT | .sd_SparseLU | .sd_SparseQR | .sd_CholmodSupernodalLLT | .sd_UmfPackLU =>
    some (some .directSparse)
  | .sd_SuperLU => none
  | .d_PartialPivLU | .d_FullPivLU | .d_HouseholderQR | .d_ColPivHouseholderQR | .d_FullPivHouseholderQR
  | .d_CompleteOrthogonalDecomposition | .d_LLT | .d_LDLT => some (some .dense)

/-- What a solver of Eigen holds: a copy (in factorised form) or a reference to a matrix, by its address. -/
inductive Held (M : Type)
  | copy (m : M)
  | ref (addr : Nat)

/-- `SolverImpl<Solver>` (linearsolver.hh:118-166) with the state of the solver of Eigen: the analysed pattern, and what is
held once a factorisation exists. -/
structure Impl (M P : Type) where
  kind : Kind
  analyzed : Option P
  held : Option (Held M)

/-- A `LinearSolverTemplate` object (linearsolver.hh:168-169). -/
structure Obj (M P : Type) where
  impl : Option (Impl M P)
  tag : Tag

/-- Objects and matrices in memory; `none` where there is none. -/
structure Mem (M P : Type) where
  obj : Nat → Option (Obj M P)
  store : Nat → Option (Storage × M)

/-- The outcome of an operation. -/
inductive Outcome (α : Type)
  | ok (a : α)
  | threw (a : α)
  | undefined

variable {M P : Type}

/-- A fresh wrapper from a tag; `none` if the constructor throws. -/
def fresh (tag : Tag) : Option (Obj M P) :=
  match construct tag with
  | none => none
  | some none => some ⟨none, tag⟩
  | some (some k) => some ⟨some ⟨k, none, none⟩, tag⟩

/-- `SolverImpl::analyzePattern` (linearsolver.hh:106, 121-126): nothing happens if the solver has no such function. -/
def Impl.analyzePattern (pat : M → P) (i : Impl M P) (addr : Nat) (A : Storage × M) : Impl M P :=
  match i.kind, A.1 with
  | .directSparse, .sparse => { i with analyzed := some (pat A.2), held := none }
  | .iterative, .sparse => { i with analyzed := some (pat A.2), held := i.held.map fun _ => .ref addr }
  | _, _ => i

/-- `SolverImpl::factorize` (linearsolver.hh:128-138). -/
def Impl.factorize [DecidableEq P] (pat : M → P) (i : Impl M P) (addr : Nat) (A : Storage × M) : Outcome (Impl M P) :=
  match i.kind, A.1 with
  | .directSparse, .sparse =>
    if i.analyzed = some (pat A.2) then .ok { i with held := some (.copy A.2) } else .undefined
  | .iterative, .sparse =>
    if i.analyzed = some (pat A.2) then .ok { i with held := some (.ref addr) } else .undefined
  | .dense, .dense => .ok { i with held := some (.copy A.2) }
  | _, _ => .ok i

/-- `SolverImpl::compute` (linearsolver.hh:139-151). -/
def Impl.compute (pat : M → P) (i : Impl M P) (addr : Nat) (A : Storage × M) : Outcome (Impl M P) :=
  match i.kind, A.1 with
  | .directSparse, .sparse => .ok { i with analyzed := some (pat A.2), held := some (.copy A.2) }
  | .iterative, .sparse => .ok { i with analyzed := some (pat A.2), held := some (.ref addr) }
  | .dense, .dense => .ok { i with held := some (.copy A.2) }
  | _, _ => .threw i

/-- `SolverImpl::solve` (linearsolver.hh:153-163): the matrix the system is solved with. -/
def Impl.solve (i : Impl M P) (store : Nat → Option (Storage × M)) : Outcome M :=
  match i.held with
  | none => .undefined
  | some (.copy m) => .ok m
  | some (.ref addr) =>
    match store addr with
    | none => .undefined
    | some A => .ok A.2

/-- What a program can do with solvers `x`, `y` and matrices at addresses `a`. -/
inductive Op (M : Type)
  | construct (x : Nat) (tag : Tag)
  | copyConstruct (x y : Nat)
  | copyAssign (x y : Nat)
  | moveAssign (x y : Nat)
  | swap (x y : Nat)
  | analyzePattern (x a : Nat)
  | factorize (x a : Nat)
  | compute (x a : Nat)
  | write (a : Nat) (s : Storage) (m : M)
  | destroy (a : Nat)

/-- Calls of the wrapper go to `solverimpl_` (linearsolver.hh:178-205); a null pointer is undefined. -/
def onImpl (mem : Mem M P) (x a : Nat) (f : Impl M P → Storage × M → Outcome (Impl M P)) : Outcome (Mem M P) :=
  match mem.obj x, mem.store a with
  | some ⟨some i, tag⟩, some A =>
    match f i A with
    | .ok i => .ok { mem with obj := Function.update mem.obj x (some ⟨some i, tag⟩) }
    | .threw i => .threw { mem with obj := Function.update mem.obj x (some ⟨some i, tag⟩) }
    | .undefined => .undefined
  | _, _ => .undefined

/-- One operation: construction (linearsolver.hh:63, linearsolver.cpp:17-83), the copy constructor (linearsolver.hh:89), which
constructs from the tag, the copy assignment (79-83), which copies and swaps, the defaulted move assignment (100), which leaves
the tag of the source, `swap` (70-73) and the calls of the solver. -/
def step [DecidableEq P] (pat : M → P) (mem : Mem M P) : Op M → Outcome (Mem M P)
  | .construct x tag =>
    match fresh tag with
    | some o => .ok { mem with obj := Function.update mem.obj x (some o) }
    | none => .threw mem
  | .copyConstruct x y | .copyAssign x y =>
    match mem.obj y with
    | none => .undefined
    | some other =>
      match fresh other.tag with
      | some o => .ok { mem with obj := Function.update mem.obj x (some o) }
      | none => .threw mem
  | .moveAssign x y =>
    match mem.obj y with
    | none => .undefined
    | some other => if x = y then .ok mem else
        .ok { mem with obj := Function.update (Function.update mem.obj x (some other)) y (some ⟨none, other.tag⟩) }
  | .swap x y =>
    match mem.obj x, mem.obj y with
    | some o, some o' => .ok { mem with obj := Function.update (Function.update mem.obj x (some o')) y (some o) }
    | _, _ => .undefined
  | .analyzePattern x a => onImpl mem x a fun i A => .ok (i.analyzePattern pat a A)
  | .factorize x a => onImpl mem x a fun i A => i.factorize pat a A
  | .compute x a => onImpl mem x a fun i A => i.compute pat a A
  | .write a s m => .ok { mem with store := Function.update mem.store a (some (s, m)) }
  | .destroy a => .ok { mem with store := Function.update mem.store a none }

/-- A program: a thrown exception is caught and the program goes on. -/
def run [DecidableEq P] (pat : M → P) (mem : Mem M P) : List (Op M) → Option (Mem M P)
  | [] => some mem
  | op :: ops =>
    match step pat mem op with
    | .ok mem => run pat mem ops
    | .threw mem => run pat mem ops
    | .undefined => none

/-- Nothing has happened yet. -/
def empty : Mem M P := ⟨fun _ => none, fun _ => none⟩

/-- `solve` of the wrapper (linearsolver.hh:212-232). -/
def solve (mem : Mem M P) (x : Nat) : Outcome M :=
  match mem.obj x with
  | some ⟨some i, _⟩ => i.solve mem.store
  | _ => .undefined

end Ikarus.LinearSolver
