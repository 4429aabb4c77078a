import Verif.Assembler.BindingModel
import Verif.FE.MixinModel

/-!
Model of ikarus/utils/differentiablefunctionfactory.hh and of ikarus/utils/differentiablefunction.hh:60-108: the functions that are
made from an assembler.

The functions return references to members of the assembler, so assemblers live in a heap and a reference names a member.
-/

namespace Ikarus.DiffFun

/-- An assembler: what is bound to it, what it computes for a requirement and an affordance, and the members that hold the
results (`scal_`, `vecRaw_`, `vecRed_`, `vec_` and the three matrices, ikarus/assembler/simpleassemblers.hh:48, 90-92,
155-157, 217-219). -/
structure Asm (R S V M α β γ : Type) where
  bind : BindState Nat S V M
  scalarImpl : R → S → α
  vectorImpl : BindState.Impls R V β
  matrixImpl : BindState.Impls R M γ
  scal : α
  vec : DBCOption → β
  mat : DBCOption → γ

/-- How the assembler is passed: a raw pointer, a shared pointer (as an lvalue or an rvalue) or the object itself. -/
inductive Passed
  | raw (p : Nat)
  | shared (p : Nat) (rvalue : Bool)
  | object (p : Nat)

/-- What calling the factory leads to. -/
inductive Outcome (β : Type)
  | done (b : β)
  | throws
  | undefined
  | doesNotCompile

/-- The function object: the captured pointer, affordances and option, and whether there is a scalar function. -/
structure Fun (S V M : Type) where
  ptr : Nat
  affordances : AffordanceColl S V M
  option : DBCOption
  hasScalar : Bool

variable {R S V M α β γ : Type}

/-- The assemblers and the next free address. -/
structure Heap (R S V M α β γ : Type) where
  get : Nat → Option (Asm R S V M α β γ)
  next : Nat

/-- Assign a member of the heap. -/
def Heap.set (h : Heap R S V M α β γ) (p : Nat) (a : Asm R S V M α β γ) : Heap R S V M α β γ :=
  { h with get := fun q => if q = p then some a else h.get q }

/-- `toSharedPointer`, differentiablefunctionfactory.hh:78-86: a pointer is kept, an object is copied (or moved) into a new one. -/
def toSharedPointer (h : Heap R S V M α β γ) : Passed → Option (Nat × Heap R S V M α β γ)
  | .raw p => some (p, h)
  | .shared p _ => some (p, h)
  | .object p => (h.get p).map fun a => (h.next, { (h.set h.next a) with next := h.next + 1 })

/-- `op(as, affordances, dbcOption)`, differentiablefunctionfactory.hh:24-51. The collection holds a vector and a matrix affordance;
`hasScalar` is a property of its type. -/
def op3 (h : Heap R S V M α β γ) (as : Passed) (aff : AffordanceColl S V M) (hasScalar : Bool) (opt : Option DBCOption) :
    Outcome (Fun S V M × Heap R S V M α β γ) :=
  match toSharedPointer h as with
  | none => .undefined
  | some (p, h') => .done (⟨p, aff, opt.getD .full, hasScalar⟩, h')

/-- `op(as, dbcOption)`, differentiablefunctionfactory.hh:53-62. The parameter `as` is used after it was forwarded: an rvalue shared
pointer is null then, and an object has no `operator->`. -/
def op2 (h : Heap R S V M α β γ) (as : Passed) (hasScalar : Bool) (opt : DBCOption) :
    Outcome (Fun S V M × Heap R S V M α β γ) :=
  match as with
  | .object _ => .doesNotCompile
  | .shared _ true => .undefined
  | .raw p | .shared p false =>
    match h.get p with
    | none => .undefined
    | some a =>
      match a.bind.affordances with
      | none => .throws
      | some aff => op3 h (.raw p) aff hasScalar (some opt)

/-- `op(as)`, differentiablefunctionfactory.hh:64-74. -/
def op1 (h : Heap R S V M α β γ) (as : Passed) (hasScalar : Bool) : Outcome (Fun S V M × Heap R S V M α β γ) :=
  match toSharedPointer h as with
  | none => .undefined
  | some (p, h') =>
    match h'.get p with
    | none => .undefined
    | some a =>
      match a.bind.affordances, a.bind.dBCOption with
      | some aff, some d => op3 h' (.raw p) aff hasScalar (some d)
      | _, _ => .throws

/-- What a function computes. -/
inductive Kind
  | scalar
  | vector
  | matrix
  deriving DecidableEq

/-- The functions in the order of the derivatives, differentiablefunctionfactory.hh:43-50; `derivative` drops the first one
(differentiablefunction.hh:83-86). -/
def Fun.kinds (f : Fun S V M) : List Kind :=
  if f.hasScalar then [.scalar, .vector, .matrix] else [.vector, .matrix]

/-- `nDerivatives`, differentiablefunction.hh:68. -/
def Fun.nDerivatives (f : Fun S V M) : Nat := f.kinds.length - 1

/-- A reference to a member of an assembler. -/
structure Ref where
  ptr : Nat
  kind : Kind
  option : DBCOption
  deriving DecidableEq

/-- What a reference refers to. -/
inductive Value (α β γ : Type)
  | scalar (a : α)
  | vector (b : β)
  | matrix (c : γ)

/-- Read through a reference. -/
def read (h : Heap R S V M α β γ) (r : Ref) : Option (Value α β γ) :=
  (h.get r.ptr).map fun a => match r.kind with
    | .scalar => .scalar a.scal
    | .vector => .vector (a.vec r.option)
    | .matrix => .matrix (a.mat r.option)

/-- Call the `k`-th derivative of `f`: the lambdas of differentiablefunctionfactory.hh:31-46 and the functions of the assembler,
ikarus/assembler/interface.hh:300-302, 355-365, 430-440. The scalar is the same member for all options. -/
def call (h : Heap R S V M α β γ) (f : Fun S V M) (k : Nat) (x : R) : Option (Ref × Heap R S V M α β γ) :=
  (f.kinds[k]?).bind fun kind => (h.get f.ptr).map fun a => match kind with
    | .scalar => (⟨f.ptr, .scalar, .full⟩, h.set f.ptr { a with scal := a.scalarImpl x f.affordances.scalarAffordance })
    | .vector => (⟨f.ptr, .vector, f.option⟩, h.set f.ptr { a with
        vec := fun d => if d = f.option then BindState.dispatch a.vectorImpl x f.affordances.vectorAffordance d else a.vec d })
    | .matrix => (⟨f.ptr, .matrix, f.option⟩, h.set f.ptr { a with
        mat := fun d => if d = f.option then BindState.dispatch a.matrixImpl x f.affordances.matrixAffordance d else a.mat d })

/-- A history of calls. -/
def run (h : Heap R S V M α β γ) : List (Fun S V M × Nat × R) → Option (Heap R S V M α β γ)
  | [] => some h
  | (f, k, x) :: cs => (call h f k x).bind fun p => run p.2 cs

end Ikarus.DiffFun

namespace Ikarus.System

/-- `vector(req, affordance, Full)`. -/
noncomputable def fullVector? (s : System) (x : List ℝ) : Option (List ℝ) :=
  (mapOpt (·.vector? x) s.elems).bind (Assembler.create s.flags).getVector?

/-- `matrix(req, affordance, Full)` of the dense assembler. -/
noncomputable def fullMatrix? (s : System) (x : List ℝ) : Option (DMat ℝ) :=
  (mapOpt (·.matrix? x) s.elems).bind (Assembler.create s.flags).getMatrix?

/-- The assembler of a system as seen by the functions; the affordances are those for which the elements were modelled. -/
noncomputable def asm {S V M : Type} (s : System) (b : BindState Nat S V M) :
    DiffFun.Asm (List ℝ) S V M (Option ℝ) (Option (List ℝ)) (Option (DMat ℝ)) where
  bind := b
  scalarImpl x _ := s.scalar? x
  vectorImpl := ⟨fun x _ => s.rawVector? x, fun x _ => s.reducedVector? x, fun x _ => s.fullVector? x⟩
  matrixImpl := ⟨fun x _ => s.rawMatrix? x, fun x _ => s.reducedMatrix? x, fun x _ => s.fullMatrix? x⟩
  scal := none
  vec _ := none
  mat _ := none

end Ikarus.System
