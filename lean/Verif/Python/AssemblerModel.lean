import Verif.Assembler.FunctionModel

/-!
Assemblers in Python: `bind`, `matrix`, `vector` and `scalar` of ikarus/python/assembler/flatassembler.hh:62-111 on top of the model
of the assembler in C++.

pybind11 tries the overloads of a name in the order of their definition and takes the first one with the same number of arguments
whose types fit; none of the types involved converts into another one. The arguments have no names in Python, and a default argument
of a lambda is not known to pybind11. If no overload fits, a `TypeError` is raised. `InvalidStateException` becomes a `RuntimeError`.

Simplification: an assembler that was constructed before; requirements are objects of Python with addresses.
-/

namespace Ikarus.PyAssembler

open DiffFun (Asm Value)

/-- Objects that are passed as arguments: requirements, affordances and options (python/ikarus/_ikarus.cc:78-97), or anything else. -/
inductive Arg (S V M : Type)
  | req (p : Nat)
  | coll (a : AffordanceColl S V M)
  | scalarAffordance (a : S)
  | vectorAffordance (a : V)
  | matrixAffordance (a : M)
  | dbc (d : DBCOption)
  | other

/-- The methods. -/
inductive Method
  | bind
  | matrix
  | vector
  | scalar
  deriving DecidableEq

variable {R S V M α β γ : Type}

/-- The assembler, the requirements, and the results that Python holds, the oldest first. -/
structure World (R S V M α β γ : Type) where
  asm : Asm R S V M α β γ
  reqs : Nat → R
  held : List (Value α β γ)

/-- What a call leads to. -/
inductive Outcome (W : Type)
  | done (w : W)
  | typeError
  | runtimeError

/-- An exception of the assembler. -/
def Outcome.ofExcept {W : Type} : Except Exc W → Outcome W
  | .ok w => .done w
  | .error _ => .runtimeError

/-- `self.vector(req, affordance, dbcOption)`, ikarus/assembler/interface.hh:355-365; the lambda (flatassembler.hh:81-85) returns a copy
of the member. -/
def assembleVector (w : World R S V M α β γ) (r : R) (a : V) (d : DBCOption) : World R S V M α β γ :=
  let b := BindState.dispatch w.asm.vectorImpl r a d
  { w with asm := { w.asm with vec := fun d' => if d' = d then b else w.asm.vec d' }, held := w.held ++ [.vector b] }

/-- `self.matrix(req, affordance, dbcOption)`, ikarus/assembler/interface.hh:430-440 and flatassembler.hh:62-68. -/
def assembleMatrix (w : World R S V M α β γ) (r : R) (a : M) (d : DBCOption) : World R S V M α β γ :=
  let c := BindState.dispatch w.asm.matrixImpl r a d
  { w with asm := { w.asm with mat := fun d' => if d' = d then c else w.asm.mat d' }, held := w.held ++ [.matrix c] }

/-- `self.scalar(req, affordance)`, ikarus/assembler/interface.hh:300-302 and flatassembler.hh:93-98. -/
def assembleScalar (w : World R S V M α β γ) (r : R) (a : S) : World R S V M α β γ :=
  let x := w.asm.scalarImpl r a
  { w with asm := { w.asm with scal := x }, held := w.held ++ [.scalar x] }

/-- The overloads of `bind`, flatassembler.hh:107-111. -/
def callBind (w : World R S V M α β γ) (args : List (Arg S V M)) : Outcome (World R S V M α β γ) :=
  let next (b : BindState Nat S V M) : Outcome (World R S V M α β γ) := .done { w with asm := { w.asm with bind := b } }
  match args with
  | [.req p, .coll a, .dbc d] => next (w.asm.bind.bindAll p a (some d))
  | [.req p] => next (w.asm.bind.bindRequirement p)
  | [.coll a] => next (w.asm.bind.bindAffordances a)
  | [.dbc d] => next (w.asm.bind.bindOption d)
  | _ => .typeError

/-- The overloads of `matrix`, flatassembler.hh:62-79; without arguments and with an option alone as
ikarus/assembler/interface.hh:450-462. -/
def callMatrix (w : World R S V M α β γ) (args : List (Arg S V M)) : Outcome (World R S V M α β γ) :=
  let bound (d : DBCOption) : Except Exc (World R S V M α β γ) := do
    let r ← w.asm.bind.requirement w.reqs
    let a ← w.asm.bind.affordanceCollection
    return assembleMatrix w r a.matrixAffordance d
  match args with
  | [.req p, .matrixAffordance a, .dbc d] => .done (assembleMatrix w (w.reqs p) a d)
  | [] => .ofExcept (w.asm.bind.getDBCOption >>= bound)
  | [.dbc d] => .ofExcept (bound d)
  | _ => .typeError

/-- The overloads of `vector`, flatassembler.hh:81-91; ikarus/assembler/interface.hh:377-389. -/
def callVector (w : World R S V M α β γ) (args : List (Arg S V M)) : Outcome (World R S V M α β γ) :=
  let bound (d : DBCOption) : Except Exc (World R S V M α β γ) := do
    let r ← w.asm.bind.requirement w.reqs
    let a ← w.asm.bind.affordanceCollection
    return assembleVector w r a.vectorAffordance d
  match args with
  | [.req p, .vectorAffordance a, .dbc d] => .done (assembleVector w (w.reqs p) a d)
  | [] => .ofExcept (w.asm.bind.getDBCOption >>= bound)
  | [.dbc d] => .ofExcept (bound d)
  | _ => .typeError

/-- The overloads of `scalar`, flatassembler.hh:93-100; ikarus/assembler/interface.hh:309-312. -/
def callScalar (w : World R S V M α β γ) (args : List (Arg S V M)) : Outcome (World R S V M α β γ) :=
  match args with
  | [.req p, .scalarAffordance a] => .done (assembleScalar w (w.reqs p) a)
  | [] => .ofExcept do
    let r ← w.asm.bind.requirement w.reqs
    let a ← w.asm.bind.affordanceCollection
    return assembleScalar w r a.scalarAffordance
  | _ => .typeError

/-- A call with positional arguments. -/
def call (w : World R S V M α β γ) : Method → List (Arg S V M) → Outcome (World R S V M α β γ)
  | .bind => callBind w
  | .matrix => callMatrix w
  | .vector => callVector w
  | .scalar => callScalar w

/-- What a program does: call a method, or change a requirement that it owns. -/
inductive Op (R S V M : Type)
  | call (m : Method) (args : List (Arg S V M))
  | change (p : Nat) (x : R)

/-- One step; exceptions are caught and leave everything as it was. -/
def step (w : World R S V M α β γ) : Op R S V M → World R S V M α β γ
  | .call m args => match call w m args with
    | .done w' => w'
    | _ => w
  | .change p x => { w with reqs := fun q => if q = p then x else w.reqs q }

/-- A program. -/
def run (w : World R S V M α β γ) (ops : List (Op R S V M)) : World R S V M α β γ := ops.foldl step w

end Ikarus.PyAssembler
