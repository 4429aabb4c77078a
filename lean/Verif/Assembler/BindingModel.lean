import Verif.Assembler.SparseModel

/-!
Model of the binding protocol of the assemblers (ikarus/assembler/interface.hh).

Simplifications: a requirement is bound by reference, so the state holds an address and a memory
`Addr → R` holds the requirement objects; they are assumed to outlive the binding.  An affordance
collection is a triple of affordances.
-/

namespace Ikarus

/-- The exceptions of the modelled functions (`Dune::InvalidStateException`). -/
inductive Exc
  | invalidState
  deriving DecidableEq, Repr

/-- ikarus/finiteelements/ferequirements.hh:127-152, the three affordances of a collection. -/
structure AffordanceColl (S V M : Type) where
  scalarAffordance : S
  vectorAffordance : V
  matrixAffordance : M

/-- ikarus/assembler/interface.hh:261-265, the members `req_`, `affordances_`, `dBCOption_`. -/
structure BindState (Addr S V M : Type) where
  req : Option Addr
  affordances : Option (AffordanceColl S V M)
  dBCOption : Option DBCOption

namespace BindState

variable {Addr R S V M T : Type}

/-- ikarus/assembler/interface.hh:261-265, default member initialisation. -/
def init : BindState Addr S V M := ⟨none, none, none⟩

/-- ikarus/assembler/interface.hh:150-155; `opt = none` stands for the default argument. -/
def bindAll (s : BindState Addr S V M) (r : Addr) (a : AffordanceColl S V M)
    (opt : Option DBCOption) : BindState Addr S V M :=
  { s with req := some r, affordances := some a, dBCOption := some (opt.getD .full) }

/-- ikarus/assembler/interface.hh:162-164. -/
def bindRequirement (s : BindState Addr S V M) (r : Addr) : BindState Addr S V M :=
  { s with req := some r }

/-- ikarus/assembler/interface.hh:171-173. -/
def bindAffordances (s : BindState Addr S V M) (a : AffordanceColl S V M) :
    BindState Addr S V M :=
  { s with affordances := some a }

/-- ikarus/assembler/interface.hh:180. -/
def bindOption (s : BindState Addr S V M) (d : DBCOption) : BindState Addr S V M :=
  { s with dBCOption := some d }

/-- ikarus/assembler/interface.hh:188-193 with 200-222. -/
def bound (s : BindState Addr S V M) : Except Exc Bool :=
  if s.req.isSome && s.affordances.isSome && s.dBCOption.isSome then .ok true
  else .error .invalidState

/-- ikarus/assembler/interface.hh:229-234, the referenced object as it is now. -/
def requirement (s : BindState Addr S V M) (mem : Addr → R) : Except Exc R :=
  match s.req with
  | some r => .ok (mem r)
  | none => .error .invalidState

/-- ikarus/assembler/interface.hh:240-245. -/
def affordanceCollection (s : BindState Addr S V M) : Except Exc (AffordanceColl S V M) :=
  match s.affordances with
  | some a => .ok a
  | none => .error .invalidState

/-- ikarus/assembler/interface.hh:251-256. -/
def getDBCOption (s : BindState Addr S V M) : Except Exc DBCOption :=
  match s.dBCOption with
  | some d => .ok d
  | none => .error .invalidState

/-- The implementation functions an assembler provides for one kind of result: `getRawVectorImpl`,
`getReducedVectorImpl`, `getVectorImpl` (or the matrix versions). -/
structure Impls (R A T : Type) where
  raw : R → A → T
  reduced : R → A → T
  full : R → A → T

/-- ikarus/assembler/interface.hh:355-365 and 430-440, dispatch on the option. -/
def dispatch {A : Type} (f : Impls R A T) (r : R) (a : A) (d : DBCOption) : T :=
  if d = .raw then f.raw r a else if d = .reduced then f.reduced r a else f.full r a

/-- ikarus/assembler/interface.hh:309-312. -/
def scalar (s : BindState Addr S V M) (mem : Addr → R) (f : R → S → T) : Except Exc T := do
  let r ← s.requirement mem
  let a ← s.affordanceCollection
  return f r a.scalarAffordance

/-- ikarus/assembler/interface.hh:377-379. -/
def vectorWith (s : BindState Addr S V M) (mem : Addr → R) (f : Impls R V T) (d : DBCOption) :
    Except Exc T := do
  let r ← s.requirement mem
  let a ← s.affordanceCollection
  return dispatch f r a.vectorAffordance d

/-- ikarus/assembler/interface.hh:389. -/
def vector (s : BindState Addr S V M) (mem : Addr → R) (f : Impls R V T) : Except Exc T := do
  let d ← s.getDBCOption
  s.vectorWith mem f d

/-- ikarus/assembler/interface.hh:450-452. -/
def matrixWith (s : BindState Addr S V M) (mem : Addr → R) (f : Impls R M T) (d : DBCOption) :
    Except Exc T := do
  let r ← s.requirement mem
  let a ← s.affordanceCollection
  return dispatch f r a.matrixAffordance d

/-- ikarus/assembler/interface.hh:462. -/
def matrix (s : BindState Addr S V M) (mem : Addr → R) (f : Impls R M T) : Except Exc T := do
  let d ← s.getDBCOption
  s.matrixWith mem f d

end BindState

/-- The operations of a history: the bind overloads, and the client changing a requirement object
it owns. -/
inductive BindOp (Addr R S V M : Type)
  | bindAll (r : Addr) (a : AffordanceColl S V M) (opt : Option DBCOption)
  | bindRequirement (r : Addr)
  | bindAffordances (a : AffordanceColl S V M)
  | bindOption (d : DBCOption)
  | change (r : Addr) (x : R)

variable {Addr R S V M : Type} [DecidableEq Addr]

/-- One operation on assembler state and memory. -/
def BindOp.step (op : BindOp Addr R S V M) (p : BindState Addr S V M × (Addr → R)) :
    BindState Addr S V M × (Addr → R) :=
  match op with
  | .bindAll r a o => (p.1.bindAll r a o, p.2)
  | .bindRequirement r => (p.1.bindRequirement r, p.2)
  | .bindAffordances a => (p.1.bindAffordances a, p.2)
  | .bindOption d => (p.1.bindOption d, p.2)
  | .change r x => (p.1, fun k => if k = r then x else p.2 k)

/-- A history of operations starting with a new assembler. -/
def BindOp.run (mem : Addr → R) : List (BindOp Addr R S V M) →
    BindState Addr S V M × (Addr → R) :=
  List.foldl (fun p op => op.step p) (BindState.init, mem)

end Ikarus
