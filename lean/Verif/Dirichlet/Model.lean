import Verif.Base

/-!
Model of `DirichletValues` (ikarus/utils/dirichletvalues.hh).

Objects live in a heap, because the member `dirichletFlagsBackend_` refers to a flag vector by
address and the implicit copy constructor copies this address.  A destroyed object is `none`.

Simplifications: multi indices are identified with the flat index they belong to; a stored boundary
function is the vector of its interpolation coefficients as a function of the load factor
(`Dune::Functions::interpolate` is not modelled beyond: it overwrites the entries of the basis it is
given); `Dune::FloatCmp::ne(x, 0.0)` is `x ≠ 0`, which is what its relative comparison means for a
zero operand.
-/

namespace Ikarus

variable {α : Type*}

/-- ikarus/utils/dirichletvalues.hh:287-292.  `derivSrc` is the address of the callable that the
derivative lambda refers to: it captures the argument `f` of
`storeInhomogeneousBoundaryCondition` by reference (line 215), whereas `value` is a copy of it. -/
structure StoredFn (α : Type*) where
  value : α → Nat → α
  derivative : α → Nat → α
  derivSrc : Nat

/-- ikarus/utils/dirichletvalues.hh:284-293, the members; `backend` is the address of the object
whose flag vector `dirichletFlagsBackend_` refers to, `inSub` tells which dofs belong to the basis
`runInterpolate` (lines 304-310) interpolates into. -/
structure DirichletValues (α : Type*) where
  flags : List Bool
  backend : Nat
  fns : List (StoredFn α)
  inSub : Nat → Bool

/-- The heap of `DirichletValues` objects. -/
abbrev DVHeap (α : Type*) := List (Option (DirichletValues α))

namespace DVHeap

/-- Access an object; `none` if it was never created or is destroyed. -/
def obj? (h : DVHeap α) (i : Nat) : Option (DirichletValues α) := (h[i]?).join

/-- ikarus/utils/dirichletvalues.hh:86-101, constructor: `n` flags, all false; the backend refers
to the own flags. -/
def construct (h : DVHeap α) (n : Nat) (inSub : Nat → Bool) : DVHeap α :=
  h ++ [some ⟨List.replicate n false, h.length, [], inSub⟩]

/-- The implicit copy constructor: all members are copied, the backend keeps its address. -/
def copy (h : DVHeap α) (i : Nat) : Option (DVHeap α) :=
  (h.obj? i).map fun o => h ++ [some ⟨o.flags, o.backend, o.fns, o.inSub⟩]

/-- Destruction of an object. -/
def destroy (h : DVHeap α) (i : Nat) : Option (DVHeap α) :=
  (h.obj? i).map fun _ => h.set i none

/-- ikarus/utils/dirichletvalues.hh:165-169 `setSingleDOF(std::size_t, bool)`. -/
def setSingleInt (h : DVHeap α) (i k : Nat) (b : Bool) : Option (DVHeap α) :=
  (h.obj? i).bind fun o => (setAt? o.flags k b).map fun fl => h.set i (some { o with flags := fl })

/-- ikarus/utils/dirichletvalues.hh:152-157 `setSingleDOF(MultiIndex, bool)`: writes through the
backend. -/
def setSingleMulti (h : DVHeap α) (i k : Nat) (b : Bool) : Option (DVHeap α) :=
  (h.obj? i).bind fun o => h.setSingleInt o.backend k b

/-- ikarus/utils/dirichletvalues.hh:110-145 `fixBoundaryDOFs`, `fixDOFs`: the callback writes flags
through the backend; `ws` are its writes in order. -/
def fixDOFs (h : DVHeap α) (i : Nat) : List (Nat × Bool) → Option (DVHeap α)
  | [] => some h
  | w :: ws => (h.setSingleMulti i w.1 w.2).bind fun h => h.fixDOFs i ws

/-- ikarus/utils/dirichletvalues.hh:174 `reset`. -/
def reset (h : DVHeap α) (i : Nat) : Option (DVHeap α) :=
  (h.obj? i).map fun o => h.set i (some { o with flags := o.flags.map fun _ => false })

/-- ikarus/utils/dirichletvalues.hh:180-184 `isConstrained(MultiIndex)`: reads through the
backend. -/
def isConstrainedMulti (h : DVHeap α) (i k : Nat) : Option Bool :=
  (h.obj? i).bind fun o => (h.obj? o.backend).bind fun o' => o'.flags[k]?

/-- ikarus/utils/dirichletvalues.hh:187-191 `isConstrained(std::size_t)`. -/
def isConstrainedInt (h : DVHeap α) (i k : Nat) : Option Bool :=
  (h.obj? i).bind fun o => o.flags[k]?

/-- ikarus/utils/dirichletvalues.hh:194. -/
def fixedDOFsize (h : DVHeap α) (i : Nat) : Option Nat := (h.obj? i).map fun o => o.flags.count true

end DVHeap

namespace DirichletValues

/-- The effect of `interpolate(basis, dummy, f)`: the entries of the basis are overwritten. -/
def interpolate (o : DirichletValues α) (f : Nat → α) (dummy : List α) : List α :=
  dummy.mapIdx fun i x => if o.inSub i then f i else x

/-- ikarus/utils/dirichletvalues.hh:249-255 and 273-279, the loop over the stored functions with
`xIh` and the reused dummy vector. -/
def superpose [Add α] (o : DirichletValues α) :
    List (Nat → α) → List α → List α → List α
  | [], _, x => x
  | f :: fs, dummy, x =>
    let d := o.interpolate f dummy
    superpose o fs d (List.zipWith (· + ·) x d)

/-- ikarus/utils/dirichletvalues.hh:244-257. -/
def evaluate [Zero α] [Add α] (o : DirichletValues α) (lambda : α) : List α :=
  o.superpose (o.fns.map fun f => f.value lambda) (List.replicate o.flags.length 0)
    (List.replicate o.flags.length 0)

/-- ikarus/utils/dirichletvalues.hh:268-281.  `alive a` tells whether the callable at address `a`
still exists; calling a derivative function whose callable is gone is undefined behaviour. -/
def evaluateDerivative? [Zero α] [Add α] (o : DirichletValues α) (alive : Nat → Bool)
    (lambda : α) : Option (List α) :=
  if o.fns.all fun f => alive f.derivSrc then
    some (o.superpose (o.fns.map fun f => f.derivative lambda) (List.replicate o.flags.length 0)
      (List.replicate o.flags.length 0))
  else none

/-- ikarus/utils/dirichletvalues.hh:299-301, loop over the dofs with `i`; the first argument counts
the remaining iterations. -/
def flagLoop [Zero α] [DecidableEq α] (x : List α) : Nat → Nat → List Bool → Option (List Bool)
  | 0, _, fl => some fl
  | n + 1, i, fl => (x[i]?).bind fun v =>
    if v ≠ 0 then (setAt? fl i true).bind (flagLoop x n (i + 1)) else flagLoop x n (i + 1) fl

/-- ikarus/utils/dirichletvalues.hh:229-233 `setZeroAtConstrainedDofs`, loop over the entries. -/
def zeroLoop [Zero α] (fl : List Bool) : Nat → List α → Option (List α)
  | _, [] => some []
  | i, x :: xs => (fl[i]?).bind fun b => (zeroLoop fl (i + 1) xs).map ((if b then 0 else x) :: ·)

/-- ikarus/utils/dirichletvalues.hh:229-233. -/
def setZeroAtConstrainedDofs? [Zero α] (o : DirichletValues α) (x : List α) : Option (List α) :=
  zeroLoop o.flags 0 x

end DirichletValues

/-- ikarus/utils/dirichletvalues.hh:213-222 and 295-302: the function is stored, then all dofs with
nonzero superposed value at `lambda` are flagged (integer access). -/
def DVHeap.store [Zero α] [Add α] [DecidableEq α] (h : DVHeap α) (i : Nat) (f : StoredFn α)
    (lambda : α) : Option (DVHeap α) :=
  (h.obj? i).bind fun o =>
    let o' := { o with fns := o.fns ++ [f] }
    (DirichletValues.flagLoop (o'.evaluate lambda) o'.flags.length 0 o'.flags).map fun fl =>
      h.set i (some { o' with flags := fl })

/-- Operations on a heap of `DirichletValues`; the first number is the object. -/
inductive DVOp (α : Type*)
  | construct (n : Nat) (inSub : Nat → Bool)
  | copy (i : Nat)
  | destroy (i : Nat)
  | setInt (i k : Nat) (b : Bool)
  | setMulti (i k : Nat) (b : Bool)
  | fix (i : Nat) (ws : List (Nat × Bool))
  | reset (i : Nat)
  | store (i : Nat) (f : StoredFn α) (lambda : α)

/-- One operation. -/
def DVOp.step [Zero α] [Add α] [DecidableEq α] (h : DVHeap α) : DVOp α → Option (DVHeap α)
  | .construct n s => some (h.construct n s)
  | .copy i => h.copy i
  | .destroy i => h.destroy i
  | .setInt i k b => h.setSingleInt i k b
  | .setMulti i k b => h.setSingleMulti i k b
  | .fix i ws => h.fixDOFs i ws
  | .reset i => h.reset i
  | .store i f l => h.store i f l

/-- A history of operations. -/
def DVOp.run [Zero α] [Add α] [DecidableEq α] : DVHeap α → List (DVOp α) → Option (DVHeap α)
  | h, [] => some h
  | h, op :: ops => (op.step h).bind fun h => DVOp.run h ops

end Ikarus
