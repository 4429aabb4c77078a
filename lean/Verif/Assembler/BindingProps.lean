import Verif.Assembler.BindingModel
import Verif.SpecList

/-!
C09: binding protocol.  The specification reads the values off the history backwards.
-/

namespace Ikarus

variable {Addr R S V M T : Type} [DecidableEq Addr]

namespace Spec

/-- The requirement bound by this call, if it binds one. -/
def bindsReq : BindOp Addr R S V M → Option Addr
  | .bindAll r _ _ => some r
  | .bindRequirement r => some r
  | _ => none

/-- The affordances bound by this call. -/
def bindsAff : BindOp Addr R S V M → Option (AffordanceColl S V M)
  | .bindAll _ a _ => some a
  | .bindAffordances a => some a
  | _ => none

/-- The option bound by this call; omitting it in the three argument call means `Full`. -/
def bindsOpt : BindOp Addr R S V M → Option DBCOption
  | .bindAll _ _ (some d) => some d
  | .bindAll _ _ none => some .full
  | .bindOption d => some d
  | _ => none

/-- The new content of the object at `r` if the call changes it. -/
def changes (r : Addr) : BindOp Addr R S V M → Option R
  | .change r' x => if r' = r then some x else none
  | _ => none

end Spec

open Spec

theorem BindOp.run_append (mem : Addr → R) (h : List (BindOp Addr R S V M))
    (op : BindOp Addr R S V M) : BindOp.run mem (h ++ [op]) = op.step (BindOp.run mem h) := by
  simp [BindOp.run, List.foldl_append]

/-- C09. After every history the three members hold the last bound value of their kind, and a
requirement object has the content it was last given, also when that happened after binding. -/
theorem binding_state_after_history (mem : Addr → R) (h : List (BindOp Addr R S V M)) :
    (BindOp.run mem h).1.req = last bindsReq h ∧
    (BindOp.run mem h).1.affordances = last bindsAff h ∧
    (BindOp.run mem h).1.dBCOption = last bindsOpt h ∧
    ∀ r, (BindOp.run mem h).2 r = (last (changes r) h).getD (mem r) := by
  induction h using List.reverseRecOn with
  | nil => simp [BindOp.run, BindState.init, last]
  | append_singleton h op ih =>
    obtain ⟨h1, h2, h3, h4⟩ := ih
    rw [BindOp.run_append]
    simp only [last_append]
    cases op with
    | bindAll r a o =>
      cases o <;> simp [BindOp.step, BindState.bindAll, bindsReq, bindsAff, bindsOpt, changes, h4]
    | bindRequirement r =>
      simp [BindOp.step, BindState.bindRequirement, bindsReq, bindsAff, bindsOpt, changes, h2, h3, h4]
    | bindAffordances r =>
      simp [BindOp.step, BindState.bindAffordances, bindsReq, bindsAff, bindsOpt, changes, h1, h3, h4]
    | bindOption r =>
      simp [BindOp.step, BindState.bindOption, bindsReq, bindsAff, bindsOpt, changes, h1, h2, h4]
    | change r x =>
      refine ⟨by simpa [BindOp.step, bindsReq] using h1, by simpa [BindOp.step, bindsAff] using h2,
        by simpa [BindOp.step, bindsOpt] using h3, fun k => ?_⟩
      by_cases hk : k = r
      · subst hk; simp [BindOp.step, changes]
      · have hk' : ¬ r = k := fun e => hk e.symm
        simp [BindOp.step, changes, hk, hk', h4]

/-- Value of an optional specification value as result or `InvalidStateException`. -/
def Spec.orThrow {β : Type} : Option β → Except Exc β
  | some x => .ok x
  | none => .error .invalidState

/-- C09. The three accessors return the last bound value and throw iff there is none; the
requirement is returned with its present content. -/
theorem binding_accessors (mem : Addr → R) (h : List (BindOp Addr R S V M)) :
    let p := BindOp.run mem h
    p.1.requirement p.2 =
        orThrow ((last bindsReq h).map fun r => (last (changes r) h).getD (mem r)) ∧
      p.1.affordanceCollection = orThrow (last bindsAff h) ∧
      p.1.getDBCOption = orThrow (last bindsOpt h) := by
  obtain ⟨h1, h2, h3, h4⟩ := binding_state_after_history mem h
  refine ⟨?_, ?_, ?_⟩
  · simp only [BindState.requirement, h1]
    cases last bindsReq h <;> simp [orThrow, h4]
  · simp only [BindState.affordanceCollection, h2]
    cases last bindsAff h <;> rfl
  · simp only [BindState.getDBCOption, h3]
    cases last bindsOpt h <;> rfl

/-- C09. `bound()` is `true` iff all three kinds were bound at some time in the history, and
throws otherwise; it never returns `false`. -/
theorem bound_iff (mem : Addr → R) (h : List (BindOp Addr R S V M)) :
    ((BindOp.run mem h).1.bound = .ok true ↔
      (∃ op ∈ h, (bindsReq op).isSome) ∧ (∃ op ∈ h, (bindsAff op).isSome) ∧
        (∃ op ∈ h, (bindsOpt op).isSome)) ∧
    ((BindOp.run mem h).1.bound = .ok true ∨
      (BindOp.run mem h).1.bound = .error .invalidState) := by
  have key : ∀ {γ : Type} (f : BindOp Addr R S V M → Option γ),
      (last f h).isSome = true ↔ ∃ op ∈ h, (f op).isSome := by
    intro γ f
    simp [last, List.findSome?_isSome_iff]
  obtain ⟨h1, h2, h3, -⟩ := binding_state_after_history mem h
  rw [← key bindsReq, ← key bindsAff, ← key bindsOpt]
  simp only [BindState.bound, h1, h2, h3]
  constructor
  · simp only [Bool.and_eq_true, and_assoc]
    split <;> rename_i hc
    · exact ⟨fun _ => hc, fun _ => rfl⟩
    · exact ⟨fun e => by simp at e, fun e => absurd e hc⟩
  · split <;> simp

/-- C09. The argument free requests evaluate with the last bound values (requirement content as of
now) and throw iff something they need was never bound: the scalar request needs requirement and
affordances, the others also the option. -/
theorem argument_free_requests (mem : Addr → R) (h : List (BindOp Addr R S V M))
    (fs : R → S → T) (fv : BindState.Impls R V T) (fm : BindState.Impls R M T) :
    let p := BindOp.run mem h
    p.1.scalar p.2 fs = orThrow (do
      let r ← last bindsReq h
      let a ← last bindsAff h
      return fs ((last (changes r) h).getD (mem r)) a.scalarAffordance) ∧
    p.1.vector p.2 fv = orThrow (do
      let d ← last bindsOpt h
      let r ← last bindsReq h
      let a ← last bindsAff h
      return match d with
        | .raw => fv.raw ((last (changes r) h).getD (mem r)) a.vectorAffordance
        | .reduced => fv.reduced ((last (changes r) h).getD (mem r)) a.vectorAffordance
        | .full => fv.full ((last (changes r) h).getD (mem r)) a.vectorAffordance) ∧
    p.1.matrix p.2 fm = orThrow (do
      let d ← last bindsOpt h
      let r ← last bindsReq h
      let a ← last bindsAff h
      return match d with
        | .raw => fm.raw ((last (changes r) h).getD (mem r)) a.matrixAffordance
        | .reduced => fm.reduced ((last (changes r) h).getD (mem r)) a.matrixAffordance
        | .full => fm.full ((last (changes r) h).getD (mem r)) a.matrixAffordance) := by
  obtain ⟨h1, h2, h3⟩ := binding_accessors mem h
  refine ⟨?_, ?_, ?_⟩
  · simp only [BindState.scalar, h1, h2]
    cases last bindsReq h <;> cases last bindsAff h <;> rfl
  · simp only [BindState.vector, BindState.vectorWith, h1, h2, h3]
    cases hd : last bindsOpt h with
    | none => rfl
    | some d =>
      cases last bindsReq h <;> cases last bindsAff h <;> cases d <;> rfl
  · simp only [BindState.matrix, BindState.matrixWith, h1, h2, h3]
    cases hd : last bindsOpt h with
    | none => rfl
    | some d =>
      cases last bindsReq h <;> cases last bindsAff h <;> cases d <;> rfl

/-- C09. Requests with an explicit option ignore a bound option. -/
theorem explicit_option_requests (mem : Addr → R) (h : List (BindOp Addr R S V M))
    (fv : BindState.Impls R V T) (fm : BindState.Impls R M T) (d : DBCOption) :
    let p := BindOp.run mem h
    p.1.vectorWith p.2 fv d = orThrow (do
      let r ← last bindsReq h
      let a ← last bindsAff h
      return match d with
        | .raw => fv.raw ((last (changes r) h).getD (mem r)) a.vectorAffordance
        | .reduced => fv.reduced ((last (changes r) h).getD (mem r)) a.vectorAffordance
        | .full => fv.full ((last (changes r) h).getD (mem r)) a.vectorAffordance) ∧
    p.1.matrixWith p.2 fm d = orThrow (do
      let r ← last bindsReq h
      let a ← last bindsAff h
      return match d with
        | .raw => fm.raw ((last (changes r) h).getD (mem r)) a.matrixAffordance
        | .reduced => fm.reduced ((last (changes r) h).getD (mem r)) a.matrixAffordance
        | .full => fm.full ((last (changes r) h).getD (mem r)) a.matrixAffordance) := by
  obtain ⟨h1, h2, -⟩ := binding_accessors mem h
  refine ⟨?_, ?_⟩
  · simp only [BindState.vectorWith, h1, h2]
    cases last bindsReq h <;> cases last bindsAff h <;> cases d <;> rfl
  · simp only [BindState.matrixWith, h1, h2]
    cases last bindsReq h <;> cases last bindsAff h <;> cases d <;> rfl

/-! A concrete history: a requirement is bound, later changed by the client, the option is bound
implicitly by the three argument call and then overridden. -/

section Example

def exampleHistory : List (BindOp Nat Int Nat Nat Nat) :=
  [.bindRequirement 3, .change 3 7, .bindAll 1 ⟨10, 20, 30⟩ none, .change 1 5,
    .bindOption .reduced]

example : (BindOp.run (fun _ => 0) exampleHistory).1.bound = .ok true := by rfl
example : let p := BindOp.run (fun _ => 0) exampleHistory
    p.1.vector p.2 ⟨fun r a => (0, r, a), fun r a => (1, r, a), fun r a => (2, r, a)⟩
      = .ok (1, (5 : Int), (20 : Nat)) := by rfl
example : (BindOp.run (fun _ => 0) (exampleHistory.take 2)).1.bound = .error .invalidState := by
  rfl
example : (BindOp.run (fun _ => 0) (exampleHistory.take 4)).1.getDBCOption = .ok .full := by rfl

end Example

end Ikarus
