import Mathlib.Logic.Function.Basic

/-!
Model of `FERequirements` (ikarus/finiteelements/ferequirements.hh) with its two `unique_ptr` members, over an
explicit heap, and of references into them.

`none` is undefined behaviour: use of an object that is not alive, or of a reference into freed memory.
Simplification: addresses are never reused after they were freed, so that the use of a dangling reference is
always noticed. Objects and references are named by natural numbers.
-/

namespace Ikarus

/-- Memory of one of the two members for all objects: `std::unique_ptr<V>` members and references `V&`. -/
structure PtrStore (V : Type) where
  heap : Nat → Option V
  next : Nat
  /-- `none`: the object is not alive; `some none`: null pointer. -/
  ptr : Nat → Option (Option Nat)
  /-- references `V&` obtained by the user -/
  refs : Nat → Option Nat

namespace PtrStore

variable {V : Type}

/-- Nothing exists. -/
def empty : PtrStore V := ⟨fun _ => none, 0, fun _ => none, fun _ => none⟩

/-- Free the memory a pointer owns. -/
def free (heap : Nat → Option V) : Option Nat → (Nat → Option V)
  | none => heap
  | some p => Function.update heap p none

/-- Construction of the member with a null pointer or with `std::make_unique<V>(v)`. -/
def construct (s : PtrStore V) (o : Nat) (v : Option V) : Option (PtrStore V) :=
  match s.ptr o with
  | some _ => none
  | none => match v with
    | none => some { s with ptr := Function.update s.ptr o (some none) }
    | some v => some { s with heap := Function.update s.heap s.next (some v), next := s.next + 1,
                              ptr := Function.update s.ptr o (some (some s.next)) }

/-- `member = std::make_unique<V>(v)` or `member = nullptr`. -/
def reset (s : PtrStore V) (o : Nat) (v : Option V) : Option (PtrStore V) :=
  match s.ptr o with
  | none => none
  | some old => match v with
    | none => some { s with heap := free s.heap old, ptr := Function.update s.ptr o (some none) }
    | some v => some { s with heap := free (Function.update s.heap s.next (some v)) old, next := s.next + 1,
                              ptr := Function.update s.ptr o (some (some s.next)) }

/-- The value behind the member: `some none` for a null pointer. -/
def value (s : PtrStore V) (o : Nat) : Option (Option V) :=
  match s.ptr o with
  | none => none
  | some none => some none
  | some (some p) => match s.heap p with
    | none => none
    | some v => some (some v)

/-- `*member = v`. -/
def store (s : PtrStore V) (o : Nat) (v : V) : Option (PtrStore V) :=
  match s.ptr o with
  | some (some p) => match s.heap p with
    | none => none
    | some _ => some { s with heap := Function.update s.heap p (some v) }
  | _ => none

/-- Destruction of the member. -/
def destroy (s : PtrStore V) (o : Nat) : Option (PtrStore V) :=
  match s.ptr o with
  | none => none
  | some old => some { s with heap := free s.heap old, ptr := Function.update s.ptr o none }

/-- `V& r = *member`; `some none` for a null pointer. -/
def bind (s : PtrStore V) (r o : Nat) : Option (Option (PtrStore V)) :=
  match s.ptr o with
  | none => none
  | some none => some none
  | some (some p) => some (some { s with refs := Function.update s.refs r (some p) })

/-- Reading through a reference. -/
def readRef (s : PtrStore V) (r : Nat) : Option V :=
  match s.refs r with
  | none => none
  | some p => s.heap p

/-- Writing through a reference. -/
def writeRef (s : PtrStore V) (r : Nat) (v : V) : Option (PtrStore V) :=
  match s.refs r with
  | none => none
  | some p => match s.heap p with
    | none => none
    | some _ => some { s with heap := Function.update s.heap p (some v) }

end PtrStore

/-- All objects of type `FERequirements`: the members `sol_` and `parameter_`
(ikarus/finiteelements/ferequirements.hh:405-406). -/
structure FEReqState (SV PM : Type) where
  sol : PtrStore SV
  par : PtrStore PM

/-- What the caller can do; `o` are objects, `r` references.
`T` is the type of the right hand sides of `+=`. -/
inductive FEReqOp (SV PM T : Type) where
  | default (o : Nat)
  | init (o : Nat) (s : SV) (p : PM)
  | ofBasis (o : Nat) (n : Nat)
  | copy (o o' : Nat)
  | assign (o o' : Nat)
  | insertParameter (o : Nat) (p : PM)
  | insertGlobalSolution (o : Nat) (s : SV)
  | globalSolution (r o : Nat)
  | parameter (r o : Nat)
  | populated (o : Nat)
  | add (o : Nat) (rhs : T)
  | syncDefault (o : Nat)
  | readSol (r : Nat)
  | writeSol (r : Nat) (s : SV)
  | readPar (r : Nat)
  | writePar (r : Nat) (p : PM)
  | destroy (o : Nat)

/-- What the caller observes. -/
inductive FEReqOut (SV PM : Type) where
  | done
  | invalidState
  | sol (s : SV)
  | par (p : PM)
  | bool (b : Bool)
  deriving DecidableEq

section
variable {SV PM T : Type} (zero : Nat → SV) (zeroP : PM) (plus : SV → T → SV)

/-- One operation. `zero n` is `SV::Zero(n)`, `zeroP` is `PM(0.0)`, `plus` is `+=` of the solution vector.

* default: line 232; init: 240-243; ofBasis: 250-253; copy: 262-264; assign: 274-280 (no effect for
  self assignment; there is no move constructor, moves copy);
* insertParameter: 290-293; insertGlobalSolution: 303-307; globalSolution: 314-330; parameter: 349-366;
  populated: 373; `+=`: 382-389;
* syncDefault: `syncParameterAndGlobalSolution(utils::UpdateDefault{})`, lines 399-402 and
  ikarus/utils/defaultfunctions.hh:64-73: `+=` with the synchronisation tag only tests `sol_`.
(all of ikarus/finiteelements/ferequirements.hh). -/
def feReqStep (st : FEReqState SV PM) : FEReqOp SV PM T → Option (FEReqState SV PM × FEReqOut SV PM)
  | .default o => do
    let sol ← st.sol.construct o none
    let par ← st.par.construct o none
    some (⟨sol, par⟩, .done)
  | .init o s p => do
    let sol ← st.sol.construct o (some s)
    let par ← st.par.construct o (some p)
    some (⟨sol, par⟩, .done)
  | .ofBasis o n => do
    let sol ← st.sol.construct o (some (zero n))
    let par ← st.par.construct o (some zeroP)
    some (⟨sol, par⟩, .done)
  | .copy o o' => do
    let vs ← st.sol.value o'
    let vp ← st.par.value o'
    let sol ← st.sol.construct o vs
    let par ← st.par.construct o vp
    some (⟨sol, par⟩, .done)
  | .assign o o' => do
    let vs ← st.sol.value o'
    let vp ← st.par.value o'
    if o = o' then some (st, .done)
    else do
      let sol ← st.sol.reset o vs
      let par ← st.par.reset o vp
      some (⟨sol, par⟩, .done)
  | .insertParameter o p => do
    let par ← st.par.reset o (some p)
    some (⟨st.sol, par⟩, .done)
  | .insertGlobalSolution o s => do
    let sol ← st.sol.reset o (some s)
    some (⟨sol, st.par⟩, .done)
  | .globalSolution r o => do
    match ← st.sol.bind r o with
    | none => some (st, .invalidState)
    | some sol => some (⟨sol, st.par⟩, .done)
  | .parameter r o => do
    match ← st.par.bind r o with
    | none => some (st, .invalidState)
    | some par => some (⟨st.sol, par⟩, .done)
  | .populated o => do
    let s ← st.sol.ptr o
    let p ← st.par.ptr o
    some (st, .bool (s.isSome && p.isSome))
  | .add o rhs => do
    match ← st.sol.value o with
    | none => some (st, .invalidState)
    | some v => do
      let sol ← st.sol.store o (plus v rhs)
      some (⟨sol, st.par⟩, .done)
  | .syncDefault o => do
    match ← st.sol.value o with
    | none => some (st, .invalidState)
    | some _ => some (st, .done)
  | .readSol r => do
    let v ← st.sol.readRef r
    some (st, .sol v)
  | .writeSol r s => do
    let sol ← st.sol.writeRef r s
    some (⟨sol, st.par⟩, .done)
  | .readPar r => do
    let v ← st.par.readRef r
    some (st, .par v)
  | .writePar r p => do
    let par ← st.par.writeRef r p
    some (⟨st.sol, par⟩, .done)
  | .destroy o => do
    let sol ← st.sol.destroy o
    let par ← st.par.destroy o
    some (⟨sol, par⟩, .done)

/-- A program: the final state and the observations. -/
def feReqRun (st : FEReqState SV PM) : List (FEReqOp SV PM T) →
    Option (FEReqState SV PM × List (FEReqOut SV PM))
  | [] => some (st, [])
  | op :: ops => do
    let r ← feReqStep zero zeroP plus st op
    let r' ← feReqRun r.1 ops
    some (r'.1, r.2 :: r'.2)

end

end Ikarus
