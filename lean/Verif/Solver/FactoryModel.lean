/-!
Model of `NonlinearSolverFactory` with respect to lifetimes: ikarus/solver/nonlinearsolver/nonlinearsolverfactory.hh:23-126 and
ikarus/utils/differentiablefunctionfactory.hh:24-86.

Shared pointers to assemblers are variables with addresses, factories and solvers are objects with addresses.  Assemblers are
numbered; a variable holds the number of its assembler.  A reference is the address of the object it refers to; if another
object has been made at the same address, the reference refers to that one.  What the functions compute is modelled
elsewhere (C13, C16, C59, C61), here it only matters on which objects they operate.  Assemblers are taken to be bound.
-/

namespace Ikarus.Factory

/-- The settings that a factory keeps (nonlinearsolverfactory.hh:125): the update function of the user, and the variable which
the force function refers to (line 28: the lambda captures `assembler` by reference), if `withIDBCForceFunction` was called. -/
structure Settings where
  upd : Nat
  force : Option Nat
  deriving DecidableEq

/-- A solver made by `create` (lines 110-122).  `asm` is the assembler of the copied shared pointer in the residual and its
derivative (differentiablefunctionfactory.hh:31-38); `updVar` and `updFact` are what the lambda of `updateFunctor` captured by
reference (line 34): the variable of the user, and the factory whose member `settings` was passed (line 119); `force` is
the copied force function. -/
structure Solver where
  asm : Nat
  updVar : Nat
  updFact : Nat
  force : Option Nat
  deriving DecidableEq

/-- The objects of a program: `none` if there is no object at the address, `some none` for a null pointer. -/
structure State where
  vars : Nat → Option (Option Nat)
  facts : Nat → Option Settings
  solvers : Nat → Option Solver

/-- The program starts. -/
def State.init : State := ⟨fun _ => none, fun _ => none, fun _ => none⟩

/-- Assign one value of a function. -/
def put {α : Type} (f : Nat → α) (k : Nat) (v : α) : Nat → α := fun i => if i = k then v else f i

/-- What a program does.  Objects are constructed or, if there is one at the address already, assigned. -/
inductive Op
  /-- `v = makeSparseFlatAssembler(...)`, assembler number `asm`. -/
  | assembler (v asm : Nat)
  /-- `v' = v`. -/
  | copyVar (v v' : Nat)
  /-- `v' = std::move(v)`. -/
  | moveVar (v v' : Nat)
  /-- `v` goes out of scope. -/
  | destroyVar (v : Nat)
  /-- `f = NonlinearSolverFactory(settings)` (lines 75-76) with update function `upd`. -/
  | factory (f upd : Nat)
  /-- `f' = f`. -/
  | copyFactory (f f' : Nat)
  /-- `f' = f.withIDBCForceFunction(v)` (lines 90-95). -/
  | withForce (f v f' : Nat)
  | destroyFactory (f : Nat)
  /-- `s = f.create(v)` (lines 110-122). -/
  | create (f v s : Nat)
  | destroySolver (s : Nat)
  /-- An iteration of the solver: residual, forces of the Dirichlet values, update. -/
  | iterate (s : Nat)
  /-- Synchronising with the load factor (lines 45-54). -/
  | sync (s : Nat)
  deriving DecidableEq

/-- What an iteration works on: the assemblers of residual, update and force, and the update function. -/
structure Used where
  residual : Nat
  update : Nat
  force : Option Nat
  upd : Nat
  deriving DecidableEq

namespace State

/-- Read a shared pointer through a reference and dereference it. -/
def deref (s : State) (v : Nat) : Option Nat := (s.vars v).join

/-- The force function (line 28), if there is one; the outer `none` is undefined behaviour. -/
def forceOf (s : State) : Option Nat → Option (Option Nat)
  | none => some none
  | some w => (s.deref w).map some

/-- An iteration of solver `k`: `setting.updateFunction` (lines 38, 42, 44) reads the factory. -/
def iterate? (s : State) (k : Nat) : Option Used :=
  (s.solvers k).bind fun S => (s.deref S.updVar).bind fun u => (s.facts S.updFact).bind fun c =>
    (s.forceOf S.force).map fun g => ⟨S.asm, u, g, c.upd⟩

/-- Synchronising: only the assembler is read (line 47). -/
def sync? (s : State) (k : Nat) : Option Nat := (s.solvers k).bind fun S => s.deref S.updVar

/-- One step; `none` if the behaviour is undefined. -/
def step (s : State) : Op → Option State
  | .assembler v asm => some { s with vars := put s.vars v (some (some asm)) }
  | .copyVar v v' => (s.vars v).map fun p => { s with vars := put s.vars v' (some p) }
  | .moveVar v v' => (s.vars v).map fun p => { s with vars := put (put s.vars v (some none)) v' (some p) }
  | .destroyVar v => (s.vars v).map fun _ => { s with vars := put s.vars v none }
  | .factory f upd => some { s with facts := put s.facts f (some ⟨upd, none⟩) }
  | .copyFactory f f' => (s.facts f).map fun c => { s with facts := put s.facts f' (some c) }
  | .withForce f v f' => (s.facts f).map fun c => { s with facts := put s.facts f' (some { c with force := some v }) }
  | .destroyFactory f => (s.facts f).map fun _ => { s with facts := put s.facts f none }
  | .create f v k => (s.facts f).bind fun c => (s.deref v).map fun a =>
      { s with solvers := put s.solvers k (some ⟨a, v, f, c.force⟩) }
  | .destroySolver k => (s.solvers k).map fun _ => { s with solvers := put s.solvers k none }
  | .iterate k => (s.iterate? k).map fun _ => s
  | .sync k => (s.sync? k).map fun _ => s

/-- A program. -/
def run (s : State) : List Op → Option State
  | [] => some s
  | op :: ops => (s.step op).bind fun s => run s ops

end State

end Ikarus.Factory
