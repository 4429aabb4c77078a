import Mathlib.Logic.Function.Basic

/-!
Model of what an assembler refers to and what it copies: the objects of the caller (solution vectors, load factors,
Dirichlet values, containers of elements), requirements, and assemblers bound to them.

Simplifications. Values are abstract: `V` solution vectors, `P` load factors, `F` flags of Dirichlet values, `E`
containers of elements with their state. Objects are named by numbers and all live; requirements and assemblers whose
lifetime ends are the subject of C44 and C89. The affordance and the way boundary conditions are enforced are given with
every request, their binding is the subject of C09.
-/

namespace Ikarus

namespace Sees

variable {V P F E : Type}

/-- An assembler (ikarus/assembler/interface.hh:258-265): the elements are a reference to the container of the caller if
they were passed as an lvalue, else the assembler owns them; the Dirichlet values are copied
(ikarus/assembler/simpleassemblers.hh:169-177, 223-231); the requirement is a reference. -/
structure Asm (F E : Type) where
  elems : Sum Nat E
  flags : F
  req : Option Nat

/-- The objects of the caller, the members of the requirements (ikarus/finiteelements/ferequirements.hh:405-406) and the
assemblers. -/
structure State (V P F E : Type) where
  vec : Nat → V
  par : Nat → P
  flags : Nat → F
  elems : Nat → E
  reqSol : Nat → Option V
  reqPar : Nat → Option P
  asm : Nat → Option (Asm F E)

/-- What the caller does. -/
inductive Op (V P F E : Type)
  /-- assignment to a solution vector of the caller -/
  | setVec (v : Nat) (x : V)
  /-- assignment to a load factor of the caller -/
  | setPar (p : Nat) (x : P)
  /-- change of Dirichlet values -/
  | setFlags (d : Nat) (f : F)
  /-- change of the elements of a container -/
  | setElems (e : Nat) (x : E)
  /-- `req.insertGlobalSolution(v)` -/
  | insertSol (r v : Nat)
  /-- `req.insertParameter(p)` -/
  | insertPar (r p : Nat)
  /-- assignment through `req.globalSolution()` -/
  | writeSol (r : Nat) (f : V → V)
  /-- assignment through `req.parameter()` -/
  | writePar (r : Nat) (f : P → P)
  /-- construction of an assembler with a container that is an lvalue -/
  | construct (a e d : Nat)
  /-- construction with a container that is an rvalue, and construction in Python
  (ikarus/python/assembler/flatassembler.hh:50-57) -/
  | constructOwn (a e d : Nat)
  /-- `assembler.bind(req)` -/
  | bind (a r : Nat)

open Function (update)

/-- One step.

* `insertSol`: ferequirements.hh:303-307 `sol_ = std::make_unique<SV>(solVec)`, a copy;
* `insertPar`: ferequirements.hh:290-293, a copy; in Python of the number inside the wrapper
  (ikarus/python/finiteelements/registerferequirements.hh:34-44);
* `writeSol`, `writePar`: ferequirements.hh:325-330, 361-366; no effect (an exception) if nothing was inserted;
* `construct`, `constructOwn`: interface.hh:50-62;
* `bind`: interface.hh:150-164. -/
def step (s : State V P F E) : Op V P F E → State V P F E
  | .setVec v x => { s with vec := update s.vec v x }
  | .setPar p x => { s with par := update s.par p x }
  | .setFlags d f => { s with flags := update s.flags d f }
  | .setElems e x => { s with elems := update s.elems e x }
  | .insertSol r v => { s with reqSol := update s.reqSol r (some (s.vec v)) }
  | .insertPar r p => { s with reqPar := update s.reqPar r (some (s.par p)) }
  | .writeSol r f => { s with reqSol := update s.reqSol r ((s.reqSol r).map f) }
  | .writePar r f => { s with reqPar := update s.reqPar r ((s.reqPar r).map f) }
  | .construct a e d => { s with asm := update s.asm a (some ⟨.inl e, s.flags d, none⟩) }
  | .constructOwn a e d => { s with asm := update s.asm a (some ⟨.inr (s.elems e), s.flags d, none⟩) }
  | .bind a r => match s.asm a with
    | none => s
    | some A => { s with asm := update s.asm a (some { A with req := some r }) }

/-- A program. -/
def run (s : State V P F E) (ops : List (Op V P F E)) : State V P F E := ops.foldl step s

/-- What enters `matrix()`, `vector()` or `scalar()` of an assembler (ikarus/assembler/interface.hh:229-234 and
ikarus/assembler/simpleassemblers.inl:17-299): elements, flags, solution and load factor. `none` is an exception: the
assembler is not bound or the requirement is not filled. -/
def assemble (s : State V P F E) (a : Nat) : Option (E × F × V × P) :=
  match s.asm a with
  | none => none
  | some A => match A.req with
    | none => none
    | some r => match s.reqSol r, s.reqPar r with
      | some v, some p => some (match A.elems with | .inl e => s.elems e | .inr x => x, A.flags, v, p)
      | _, _ => none

end Sees

end Ikarus
