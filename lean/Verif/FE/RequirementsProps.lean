import Verif.FE.RequirementsLemmas

/-!
C44: `FERequirements` behave as plain values.

The specification knows neither pointers nor a heap: an object is a pair of optional values, a reference names
an object until the value is replaced or the object dies.
-/

namespace Ikarus

/-- An object of type `FERequirements` for the user. -/
structure Spec.Requirements (SV PM : Type) where
  sol : Option SV
  par : Option PM

/-- Objects alive, and for each reference: unbound, dangling (`some none`) or naming an object. -/
structure Spec.ReqState (SV PM : Type) where
  obj : Nat → Option (Spec.Requirements SV PM)
  solRef : Nat → Option (Option Nat)
  parRef : Nat → Option (Option Nat)

namespace Spec.ReqState
variable {SV PM T : Type}

/-- No objects and no references. -/
def start : Spec.ReqState SV PM := ⟨fun _ => none, fun _ => none, fun _ => none⟩

/-- Begin the life of object `o` with value `x`. -/
def create (st : Spec.ReqState SV PM) (o : Nat) (x : Spec.Requirements SV PM) : Option (Spec.ReqState SV PM) :=
  if (st.obj o).isSome then none else some { st with obj := Function.update st.obj o (some x) }

/-- The meaning of the operations on values; `none` if the operation is not allowed. -/
def step (zero : Nat → SV) (zeroP : PM) (plus : SV → T → SV) (st : Spec.ReqState SV PM) :
    FEReqOp SV PM T → Option (Spec.ReqState SV PM × FEReqOut SV PM)
  | .default o => (st.create o ⟨none, none⟩).map (·, .done)
  | .init o s p => (st.create o ⟨some s, some p⟩).map (·, .done)
  | .ofBasis o n => (st.create o ⟨some (zero n), some zeroP⟩).map (·, .done)
  | .copy o o' => (st.obj o').bind fun x => (st.create o x).map (·, .done)
  | .assign o o' => (st.obj o').bind fun x => (st.obj o).bind fun _ =>
      if o = o' then some (st, .done)
      else some ({ obj := Function.update st.obj o (some x), solRef := Spec.dangle st.solRef o,
                   parRef := Spec.dangle st.parRef o }, .done)
  | .insertParameter o p => (st.obj o).bind fun x =>
      some ({ st with obj := Function.update st.obj o (some { x with par := some p }),
                      parRef := Spec.dangle st.parRef o }, .done)
  | .insertGlobalSolution o s => (st.obj o).bind fun x =>
      some ({ st with obj := Function.update st.obj o (some { x with sol := some s }),
                      solRef := Spec.dangle st.solRef o }, .done)
  | .globalSolution r o => (st.obj o).bind fun x =>
      if x.sol.isSome then some ({ st with solRef := Function.update st.solRef r (some (some o)) }, .done)
      else some (st, .invalidState)
  | .parameter r o => (st.obj o).bind fun x =>
      if x.par.isSome then some ({ st with parRef := Function.update st.parRef r (some (some o)) }, .done)
      else some (st, .invalidState)
  | .populated o => (st.obj o).bind fun x => some (st, .bool (decide (x.sol.isSome ∧ x.par.isSome)))
  | .add o rhs => (st.obj o).bind fun x =>
      match x.sol with
      | none => some (st, .invalidState)
      | some s => some ({ st with obj := Function.update st.obj o (some { x with sol := some (plus s rhs) }) }, .done)
  | .syncDefault o => (st.obj o).bind fun x => some (st, if x.sol.isSome then .done else .invalidState)
  | .readSol r => (st.solRef r).join.bind fun o => (st.obj o).bind fun x => x.sol.map fun s => (st, .sol s)
  | .writeSol r s => (st.solRef r).join.bind fun o => (st.obj o).bind fun x =>
      some ({ st with obj := Function.update st.obj o (some { x with sol := some s }) }, .done)
  | .readPar r => (st.parRef r).join.bind fun o => (st.obj o).bind fun x => x.par.map fun p => (st, .par p)
  | .writePar r p => (st.parRef r).join.bind fun o => (st.obj o).bind fun x =>
      some ({ st with obj := Function.update st.obj o (some { x with par := some p }) }, .done)
  | .destroy o => (st.obj o).bind fun _ =>
      some ({ obj := Function.update st.obj o none, solRef := Spec.dangle st.solRef o,
              parRef := Spec.dangle st.parRef o }, .done)

/-- The meaning of a program. -/
def run (zero : Nat → SV) (zeroP : PM) (plus : SV → T → SV) (st : Spec.ReqState SV PM) :
    List (FEReqOp SV PM T) → Option (Spec.ReqState SV PM × List (FEReqOut SV PM))
  | [] => some (st, [])
  | op :: ops => (step zero zeroP plus st op).bind fun r => (run zero zeroP plus r.1 ops).map fun r' => (r'.1, r.2 :: r'.2)

end Spec.ReqState

variable {SV PM T : Type} (zero : Nat → SV) (zeroP : PM) (plus : SV → T → SV)

/-- The heap state represents the values. -/
structure FEReqRep (st : FEReqState SV PM) (a : Spec.ReqState SV PM) : Prop where
  sol : PtrStore.Rep st.sol (fun o => (a.obj o).map (·.sol)) a.solRef
  par : PtrStore.Rep st.par (fun o => (a.obj o).map (·.par)) a.parRef

/-- Results correspond: both undefined, or same observation and related states. -/
def FEReqSim (x : Option (FEReqState SV PM × FEReqOut SV PM)) (y : Option (Spec.ReqState SV PM × FEReqOut SV PM)) :
    Prop :=
  (x = none ∧ y = none) ∨ ∃ st a out, x = some (st, out) ∧ y = some (a, out) ∧ FEReqRep st a

theorem map_update {α β : Type} (f : Nat → Option α) (g : α → β) (o : Nat) (x : Option α) :
    (fun o' => (Function.update f o x o').map g) = Function.update (fun o' => (f o').map g) o (x.map g) := by
  funext o'
  by_cases e : o' = o
  · subst e; simp
  · simp [Function.update_of_ne e]

theorem map_update_self {α β : Type} (f : Nat → Option α) (g : α → β) (o : Nat) (x : Option α)
    (h : x.map g = (f o).map g) :
    (fun o' => (Function.update f o x o').map g) = fun o' => (f o').map g := by
  rw [map_update, h]
  exact Function.update_eq_self _ _

theorem construct_sim {st : FEReqState SV PM} {a : Spec.ReqState SV PM} (h : FEReqRep st a) (o : Nat)
    (x : Spec.Requirements SV PM) :
    FEReqSim (do
      let sol ← st.sol.construct o x.sol
      let par ← st.par.construct o x.par
      some (⟨sol, par⟩, .done)) ((a.create o x).map (·, .done)) := by
  cases ho : a.obj o with
  | some y =>
    left
    have h1 := h.sol.construct_none (o := o) x.sol (by simp [ho])
    exact ⟨by rw [h1]; rfl, by simp [Spec.ReqState.create, ho]⟩
  | none =>
    right
    obtain ⟨s1, h1, r1⟩ := h.sol.construct_some (o := o) x.sol (by simp [ho])
    obtain ⟨s2, h2, r2⟩ := h.par.construct_some (o := o) x.par (by simp [ho])
    refine ⟨⟨s1, s2⟩, { a with obj := Function.update a.obj o (some x) }, .done, by rw [h1, h2]; rfl,
      by simp [Spec.ReqState.create, ho], ⟨?_, ?_⟩⟩
    · rw [map_update]; exact r1
    · rw [map_update]; exact r2

theorem step_sim {st : FEReqState SV PM} {a : Spec.ReqState SV PM} (h : FEReqRep st a) (op : FEReqOp SV PM T) :
    FEReqSim (feReqStep zero zeroP plus st op) (Spec.ReqState.step zero zeroP plus a op) := by
  cases op with
  | default o => exact construct_sim h o ⟨none, none⟩
  | init o s p => exact construct_sim h o ⟨some s, some p⟩
  | ofBasis o n => exact construct_sim h o ⟨some (zero n), some zeroP⟩
  | copy o o' =>
    simp only [feReqStep, Spec.ReqState.step, h.sol.value_eq, h.par.value_eq]
    cases ho : a.obj o' with
    | none => exact .inl ⟨rfl, rfl⟩
    | some x => exact construct_sim h o x
  | assign o o' =>
    simp only [feReqStep, Spec.ReqState.step, h.sol.value_eq, h.par.value_eq]
    cases ho : a.obj o' with
    | none => exact .inl ⟨rfl, rfl⟩
    | some x =>
      simp only [Option.map_some, Option.bind_eq_bind, Option.bind_some]
      by_cases e : o = o'
      · subst e
        rw [if_pos rfl, ho]
        exact .inr ⟨st, a, .done, rfl, by simp, h⟩
      · rw [if_neg e]
        cases ho2 : a.obj o with
        | none =>
          left
          have h1 := h.sol.reset_none (o := o) x.sol (by simp [ho2])
          exact ⟨by rw [h1]; rfl, rfl⟩
        | some y =>
          right
          obtain ⟨s1, h1, r1⟩ := h.sol.reset_some (o := o) x.sol (by simp [ho2])
          obtain ⟨s2, h2, r2⟩ := h.par.reset_some (o := o) x.par (by simp [ho2])
          refine ⟨⟨s1, s2⟩, _, .done, by rw [h1, h2]; rfl, by rw [Option.bind_some, if_neg e], ⟨?_, ?_⟩⟩
          · rw [map_update]; exact r1
          · rw [map_update]; exact r2
  | insertParameter o p =>
    simp only [feReqStep, Spec.ReqState.step]
    cases ho : a.obj o with
    | none =>
      left
      rw [h.par.reset_none (o := o) (some p) (by simp [ho])]
      exact ⟨rfl, rfl⟩
    | some x =>
      right
      obtain ⟨s2, h2, r2⟩ := h.par.reset_some (o := o) (some p) (by simp [ho])
      refine ⟨⟨st.sol, s2⟩, _, .done, by rw [h2]; rfl, rfl, ⟨?_, ?_⟩⟩
      · dsimp only
        rw [map_update_self _ _ _ _ (by simp [ho])]; exact h.sol
      · rw [map_update]; exact r2
  | insertGlobalSolution o s =>
    simp only [feReqStep, Spec.ReqState.step]
    cases ho : a.obj o with
    | none =>
      left
      rw [h.sol.reset_none (o := o) (some s) (by simp [ho])]
      exact ⟨rfl, rfl⟩
    | some x =>
      right
      obtain ⟨s2, h2, r2⟩ := h.sol.reset_some (o := o) (some s) (by simp [ho])
      refine ⟨⟨s2, st.par⟩, _, .done, by rw [h2]; rfl, rfl, ⟨?_, ?_⟩⟩
      · rw [map_update]; exact r2
      · dsimp only
        rw [map_update_self _ _ _ _ (by simp [ho])]; exact h.par
  | globalSolution r o =>
    simp only [feReqStep, Spec.ReqState.step]
    cases ho : a.obj o with
    | none =>
      left
      rw [h.sol.bind_none (o := o) r (by simp [ho])]
      exact ⟨rfl, rfl⟩
    | some x =>
      right
      cases hx : x.sol with
      | none =>
        rw [h.sol.bind_null (o := o) r (by simp [ho, hx])]
        exact ⟨st, a, .invalidState, rfl, by simp [hx], h⟩
      | some v =>
        obtain ⟨s1, h1, r1⟩ := h.sol.bind_some (o := o) (v := v) r (by simp [ho, hx])
        rw [h1]
        exact ⟨⟨s1, st.par⟩, { a with solRef := Function.update a.solRef r (some (some o)) }, .done, rfl,
          by simp [hx], ⟨r1, h.par⟩⟩
  | parameter r o =>
    simp only [feReqStep, Spec.ReqState.step]
    cases ho : a.obj o with
    | none =>
      left
      rw [h.par.bind_none (o := o) r (by simp [ho])]
      exact ⟨rfl, rfl⟩
    | some x =>
      right
      cases hx : x.par with
      | none =>
        rw [h.par.bind_null (o := o) r (by simp [ho, hx])]
        exact ⟨st, a, .invalidState, rfl, by simp [hx], h⟩
      | some v =>
        obtain ⟨s1, h1, r1⟩ := h.par.bind_some (o := o) (v := v) r (by simp [ho, hx])
        rw [h1]
        exact ⟨⟨st.sol, s1⟩, { a with parRef := Function.update a.parRef r (some (some o)) }, .done, rfl,
          by simp [hx], ⟨h.sol, r1⟩⟩
  | populated o =>
    simp only [feReqStep, Spec.ReqState.step]
    have h1 := h.sol.ptr_isSome o
    have h2 := h.par.ptr_isSome o
    cases ho : a.obj o with
    | none =>
      left
      rw [ho] at h1
      simp only [Option.map_none, Option.map_eq_none_iff] at h1
      rw [h1]
      exact ⟨rfl, rfl⟩
    | some x =>
      right
      rw [ho] at h1 h2
      simp only [Option.map_some, Option.map_eq_some_iff] at h1 h2
      obtain ⟨q1, h1, e1⟩ := h1
      obtain ⟨q2, h2, e2⟩ := h2
      rw [h1, h2]
      refine ⟨st, a, _, rfl, ?_, h⟩
      simp [e1, e2, Bool.decide_and]
  | add o rhs =>
    simp only [feReqStep, Spec.ReqState.step, h.sol.value_eq]
    cases ho : a.obj o with
    | none => exact .inl ⟨rfl, rfl⟩
    | some x =>
      right
      obtain ⟨xs, xp⟩ := x
      cases xs with
      | none => exact ⟨st, a, .invalidState, rfl, rfl, h⟩
      | some v =>
        obtain ⟨s1, h1, r1⟩ := h.sol.store_some (o := o) (v' := v) (plus v rhs) (by simp [ho])
        refine ⟨⟨s1, st.par⟩, _, .done, ?_, rfl, ⟨?_, ?_⟩⟩
        · simp only [Option.map_some, Option.bind_eq_bind, Option.bind_some]
          rw [h1]; rfl
        · rw [map_update]; exact r1
        · dsimp only
          rw [map_update_self _ _ _ _ (by simp [ho])]; exact h.par
  | syncDefault o =>
    simp only [feReqStep, Spec.ReqState.step, h.sol.value_eq]
    cases ho : a.obj o with
    | none => exact .inl ⟨rfl, rfl⟩
    | some x =>
      right
      obtain ⟨xs, xp⟩ := x
      cases xs with
      | none => exact ⟨st, a, .invalidState, rfl, rfl, h⟩
      | some v => exact ⟨st, a, .done, rfl, rfl, h⟩
  | readSol r =>
    simp only [feReqStep, Spec.ReqState.step]
    by_cases hr : ∃ o, a.solRef r = some (some o)
    · obtain ⟨o, hr⟩ := hr
      obtain ⟨v, ho, hv⟩ := h.sol.readRef_some hr
      simp only [Option.map_eq_some_iff] at ho
      obtain ⟨x, ho, hx⟩ := ho
      right
      exact ⟨st, a, .sol v, by rw [hv]; rfl, by simp [hr, ho, hx], h⟩
    · left
      have hr' : ∀ o, a.solRef r ≠ some (some o) := fun o e => hr ⟨o, e⟩
      refine ⟨by rw [h.sol.readRef_none hr']; rfl, ?_⟩
      cases h1 : a.solRef r with
      | none => rfl
      | some q => cases q with
        | none => rfl
        | some o => exact absurd h1 (hr' o)
  | writeSol r s =>
    simp only [feReqStep, Spec.ReqState.step]
    by_cases hr : ∃ o, a.solRef r = some (some o)
    · obtain ⟨o, hr⟩ := hr
      obtain ⟨v, ho, -⟩ := h.sol.readRef_some hr
      simp only [Option.map_eq_some_iff] at ho
      obtain ⟨x, ho, hx⟩ := ho
      obtain ⟨s1, h1, r1⟩ := h.sol.writeRef_some s hr
      right
      refine ⟨⟨s1, st.par⟩, _, .done, by rw [h1]; rfl, by simp [hr, ho]; rfl, ⟨?_, ?_⟩⟩
      · rw [map_update]; exact r1
      · dsimp only
        rw [map_update_self _ _ _ _ (by simp [ho])]; exact h.par
    · left
      have hr' : ∀ o, a.solRef r ≠ some (some o) := fun o e => hr ⟨o, e⟩
      refine ⟨by rw [h.sol.writeRef_none s hr']; rfl, ?_⟩
      cases h1 : a.solRef r with
      | none => rfl
      | some q => cases q with
        | none => rfl
        | some o => exact absurd h1 (hr' o)
  | readPar r =>
    simp only [feReqStep, Spec.ReqState.step]
    by_cases hr : ∃ o, a.parRef r = some (some o)
    · obtain ⟨o, hr⟩ := hr
      obtain ⟨v, ho, hv⟩ := h.par.readRef_some hr
      simp only [Option.map_eq_some_iff] at ho
      obtain ⟨x, ho, hx⟩ := ho
      right
      exact ⟨st, a, .par v, by rw [hv]; rfl, by simp [hr, ho, hx], h⟩
    · left
      have hr' : ∀ o, a.parRef r ≠ some (some o) := fun o e => hr ⟨o, e⟩
      refine ⟨by rw [h.par.readRef_none hr']; rfl, ?_⟩
      cases h1 : a.parRef r with
      | none => rfl
      | some q => cases q with
        | none => rfl
        | some o => exact absurd h1 (hr' o)
  | writePar r s =>
    simp only [feReqStep, Spec.ReqState.step]
    by_cases hr : ∃ o, a.parRef r = some (some o)
    · obtain ⟨o, hr⟩ := hr
      obtain ⟨v, ho, -⟩ := h.par.readRef_some hr
      simp only [Option.map_eq_some_iff] at ho
      obtain ⟨x, ho, hx⟩ := ho
      obtain ⟨s1, h1, r1⟩ := h.par.writeRef_some s hr
      right
      refine ⟨⟨st.sol, s1⟩, _, .done, by rw [h1]; rfl, by simp [hr, ho]; rfl, ⟨?_, ?_⟩⟩
      · dsimp only
        rw [map_update_self _ _ _ _ (by simp [ho])]; exact h.sol
      · rw [map_update]; exact r1
    · left
      have hr' : ∀ o, a.parRef r ≠ some (some o) := fun o e => hr ⟨o, e⟩
      refine ⟨by rw [h.par.writeRef_none s hr']; rfl, ?_⟩
      cases h1 : a.parRef r with
      | none => rfl
      | some q => cases q with
        | none => rfl
        | some o => exact absurd h1 (hr' o)
  | destroy o =>
    simp only [feReqStep, Spec.ReqState.step]
    cases ho : a.obj o with
    | none =>
      left
      rw [h.sol.destroy_none (o := o) (by simp [ho])]
      exact ⟨rfl, rfl⟩
    | some x =>
      right
      obtain ⟨s1, h1, r1, -⟩ := h.sol.destroy_some (o := o) (by simp [ho])
      obtain ⟨s2, h2, r2, -⟩ := h.par.destroy_some (o := o) (by simp [ho])
      refine ⟨⟨s1, s2⟩, _, .done, by rw [h1, h2]; rfl, rfl, ⟨?_, ?_⟩⟩
      · rw [map_update]; exact r1
      · rw [map_update]; exact r2

theorem run_sim {st : FEReqState SV PM} {a : Spec.ReqState SV PM} (h : FEReqRep st a)
    (ops : List (FEReqOp SV PM T)) :
    (feReqRun zero zeroP plus st ops = none ∧ Spec.ReqState.run zero zeroP plus a ops = none) ∨
    ∃ st' a' outs, feReqRun zero zeroP plus st ops = some (st', outs) ∧
      Spec.ReqState.run zero zeroP plus a ops = some (a', outs) ∧ FEReqRep st' a' := by
  induction ops generalizing st a with
  | nil => exact .inr ⟨st, a, [], rfl, rfl, h⟩
  | cons op ops ih =>
    rcases step_sim zero zeroP plus h op with ⟨h1, h2⟩ | ⟨st1, a1, out, h1, h2, h3⟩
    · left
      simp [feReqRun, Spec.ReqState.run, h1, h2]
    · rcases ih h3 with ⟨h4, h5⟩ | ⟨st2, a2, outs, h4, h5, h6⟩
      · left
        simp [feReqRun, Spec.ReqState.run, h1, h2, h4, h5]
      · right
        exact ⟨st2, a2, out :: outs, by simp [feReqRun, h1, h4], by simp [Spec.ReqState.run, h2, h5], h6⟩

/-- The state before `main`. -/
def feReqStart : FEReqState SV PM := ⟨.empty, .empty⟩

theorem rep_start : FEReqRep (feReqStart : FEReqState SV PM) Spec.ReqState.start :=
  ⟨PtrStore.rep_empty, PtrStore.rep_empty⟩

/-- C44. Every program over `FERequirements` objects and references into them (construction, copies,
assignments, insertions, accesses, updates, destruction, in any order) behaves as if the objects were pairs of
optional values without pointers: the same programs are undefined, and all others make the same observations. In
particular an access throws exactly when the value is absent. -/
theorem feRequirements_refines (ops : List (FEReqOp SV PM T)) :
    (feReqRun zero zeroP plus feReqStart ops).map (·.2) =
      (Spec.ReqState.run zero zeroP plus .start ops).map (·.2) := by
  rcases run_sim zero zeroP plus rep_start ops with ⟨h1, h2⟩ | ⟨st', a', outs, h1, h2, -⟩
  · rw [h1, h2]; rfl
  · rw [h1, h2]; rfl

/-- What a state after some program shows of object `o`. -/
def Spec.content (st : FEReqState SV PM) (o : Nat) : Option (Option SV) × Option (Option PM) :=
  (st.sol.value o, st.par.value o)

/-- The operation may change object `o` or hand out a reference into it, given the references `W` through which
`o` can be written. -/
def Spec.Touches (o : Nat) (W : Nat → Prop) : FEReqOp SV PM T → Prop
  | .default o' | .init o' _ _ | .ofBasis o' _ | .copy o' _ | .assign o' _ | .insertParameter o' _
  | .insertGlobalSolution o' _ | .globalSolution _ o' | .parameter _ o' | .add o' _ | .destroy o' => o' = o
  | .writeSol r _ | .writePar r _ => W r
  | .populated _ | .syncDefault _ | .readSol _ | .readPar _ => False

theorem spec_frame {a a' : Spec.ReqState SV PM} {out : FEReqOut SV PM} {o : Nat} {W : Nat → Prop}
    (hW : ∀ r, a.solRef r = some (some o) ∨ a.parRef r = some (some o) → W r) {op : FEReqOp SV PM T}
    (hop : ¬ Spec.Touches o W op) (h : Spec.ReqState.step zero zeroP plus a op = some (a', out)) :
    a'.obj o = a.obj o ∧ ∀ r, a'.solRef r = some (some o) ∨ a'.parRef r = some (some o) → W r := by
  have hd : ∀ (f : Nat → Option (Option Nat)) (o' r : Nat), Spec.dangle f o' r = some (some o) →
      f r = some (some o) := by
    intro f o' r h
    unfold Spec.dangle at h
    split at h
    · simp at h
    · exact h
  have hcreate : ∀ o' x, o' ≠ o → (a.create o' x).map (·, (.done : FEReqOut SV PM)) = some (a', out) →
      a'.obj o = a.obj o ∧ ∀ r, a'.solRef r = some (some o) ∨ a'.parRef r = some (some o) → W r := by
    intro o' x hne h
    unfold Spec.ReqState.create at h
    split at h
    · simp at h
    · simp only [Option.map_some, Option.some.injEq, Prod.mk.injEq] at h
      obtain ⟨rfl, -⟩ := h
      exact ⟨by simp [Function.update_of_ne (Ne.symm hne)], hW⟩
  cases op with
  | default o' => exact hcreate o' _ hop h
  | init o' s p => exact hcreate o' _ hop h
  | ofBasis o' n => exact hcreate o' _ hop h
  | copy o' o'' =>
    simp only [Spec.ReqState.step, Option.bind_eq_some_iff] at h
    obtain ⟨x, -, h⟩ := h
    exact hcreate o' x hop h
  | assign o' o'' =>
    have hne : o ≠ o' := Ne.symm hop
    simp only [Spec.ReqState.step, Option.bind_eq_some_iff] at h
    obtain ⟨x, -, y, -, h⟩ := h
    split at h
    · simp only [Option.some.injEq, Prod.mk.injEq] at h
      obtain ⟨rfl, -⟩ := h
      exact ⟨rfl, hW⟩
    · simp only [Option.some.injEq, Prod.mk.injEq] at h
      obtain ⟨rfl, -⟩ := h
      exact ⟨Function.update_of_ne hne _ _, fun r hr => hW r (hr.imp (hd _ _ _) (hd _ _ _))⟩
  | insertParameter o' p =>
    have hne : o ≠ o' := Ne.symm hop
    simp only [Spec.ReqState.step, Option.bind_eq_some_iff] at h
    obtain ⟨x, -, h⟩ := h
    simp only [Option.some.injEq, Prod.mk.injEq] at h
    obtain ⟨rfl, -⟩ := h
    exact ⟨Function.update_of_ne hne _ _, fun r hr => hW r (hr.imp id (hd _ _ _))⟩
  | insertGlobalSolution o' s =>
    have hne : o ≠ o' := Ne.symm hop
    simp only [Spec.ReqState.step, Option.bind_eq_some_iff] at h
    obtain ⟨x, -, h⟩ := h
    simp only [Option.some.injEq, Prod.mk.injEq] at h
    obtain ⟨rfl, -⟩ := h
    exact ⟨Function.update_of_ne hne _ _, fun r hr => hW r (hr.imp (hd _ _ _) id)⟩
  | globalSolution r o' =>
    have hne : o' ≠ o := hop
    simp only [Spec.ReqState.step, Option.bind_eq_some_iff] at h
    obtain ⟨x, -, h⟩ := h
    split at h
    · simp only [Option.some.injEq, Prod.mk.injEq] at h
      obtain ⟨rfl, -⟩ := h
      refine ⟨rfl, fun r' hr => ?_⟩
      by_cases e : r' = r
      · subst e
        simp only [Function.update_self, Option.some.injEq, hne, false_or] at hr
        exact hW _ (.inr hr)
      · simp only [Function.update_of_ne e] at hr
        exact hW _ hr
    · simp only [Option.some.injEq, Prod.mk.injEq] at h
      obtain ⟨rfl, -⟩ := h
      exact ⟨rfl, hW⟩
  | parameter r o' =>
    have hne : o' ≠ o := hop
    simp only [Spec.ReqState.step, Option.bind_eq_some_iff] at h
    obtain ⟨x, -, h⟩ := h
    split at h
    · simp only [Option.some.injEq, Prod.mk.injEq] at h
      obtain ⟨rfl, -⟩ := h
      refine ⟨rfl, fun r' hr => ?_⟩
      by_cases e : r' = r
      · subst e
        simp only [Function.update_self, Option.some.injEq, hne, or_false] at hr
        exact hW _ (.inl hr)
      · simp only [Function.update_of_ne e] at hr
        exact hW _ hr
    · simp only [Option.some.injEq, Prod.mk.injEq] at h
      obtain ⟨rfl, -⟩ := h
      exact ⟨rfl, hW⟩
  | populated o' =>
    simp only [Spec.ReqState.step, Option.bind_eq_some_iff] at h
    obtain ⟨x, -, h⟩ := h
    simp only [Option.some.injEq, Prod.mk.injEq] at h
    obtain ⟨rfl, -⟩ := h
    exact ⟨rfl, hW⟩
  | add o' rhs =>
    have hne : o ≠ o' := Ne.symm hop
    simp only [Spec.ReqState.step, Option.bind_eq_some_iff] at h
    obtain ⟨x, -, h⟩ := h
    split at h
    · simp only [Option.some.injEq, Prod.mk.injEq] at h
      obtain ⟨rfl, -⟩ := h
      exact ⟨rfl, hW⟩
    · simp only [Option.some.injEq, Prod.mk.injEq] at h
      obtain ⟨rfl, -⟩ := h
      exact ⟨Function.update_of_ne hne _ _, hW⟩
  | syncDefault o' =>
    simp only [Spec.ReqState.step, Option.bind_eq_some_iff] at h
    obtain ⟨x, -, h⟩ := h
    simp only [Option.some.injEq, Prod.mk.injEq] at h
    obtain ⟨rfl, -⟩ := h
    exact ⟨rfl, hW⟩
  | readSol r =>
    simp only [Spec.ReqState.step, Option.bind_eq_some_iff, Option.map_eq_some_iff] at h
    obtain ⟨_, -, _, -, _, -, h⟩ := h
    simp only [Prod.mk.injEq] at h
    obtain ⟨rfl, -⟩ := h
    exact ⟨rfl, hW⟩
  | writeSol r s =>
    simp only [Spec.ReqState.step, Option.bind_eq_some_iff] at h
    obtain ⟨o', ho', x, -, h⟩ := h
    simp only [Option.some.injEq, Prod.mk.injEq] at h
    obtain ⟨rfl, -⟩ := h
    have hne : o ≠ o' := by
      rintro rfl
      exact hop (hW r (.inl (Option.join_eq_some_iff.mp ho')))
    exact ⟨Function.update_of_ne hne _ _, hW⟩
  | readPar r =>
    simp only [Spec.ReqState.step, Option.bind_eq_some_iff, Option.map_eq_some_iff] at h
    obtain ⟨_, -, _, -, _, -, h⟩ := h
    simp only [Prod.mk.injEq] at h
    obtain ⟨rfl, -⟩ := h
    exact ⟨rfl, hW⟩
  | writePar r s =>
    simp only [Spec.ReqState.step, Option.bind_eq_some_iff] at h
    obtain ⟨o', ho', x, -, h⟩ := h
    simp only [Option.some.injEq, Prod.mk.injEq] at h
    obtain ⟨rfl, -⟩ := h
    have hne : o ≠ o' := by
      rintro rfl
      exact hop (hW r (.inr (Option.join_eq_some_iff.mp ho')))
    exact ⟨Function.update_of_ne hne _ _, hW⟩
  | destroy o' =>
    have hne : o ≠ o' := Ne.symm hop
    simp only [Spec.ReqState.step, Option.bind_eq_some_iff] at h
    obtain ⟨x, -, h⟩ := h
    simp only [Option.some.injEq, Prod.mk.injEq] at h
    obtain ⟨rfl, -⟩ := h
    exact ⟨Function.update_of_ne hne _ _, fun r hr => hW r (hr.imp (hd _ _ _) (hd _ _ _))⟩

theorem spec_frame_run {a a' : Spec.ReqState SV PM} {outs : List (FEReqOut SV PM)} {o : Nat} {W : Nat → Prop}
    (hW : ∀ r, a.solRef r = some (some o) ∨ a.parRef r = some (some o) → W r) {ops : List (FEReqOp SV PM T)}
    (hop : ∀ op ∈ ops, ¬ Spec.Touches o W op) (h : Spec.ReqState.run zero zeroP plus a ops = some (a', outs)) :
    a'.obj o = a.obj o := by
  induction ops generalizing a outs with
  | nil =>
    simp only [Spec.ReqState.run, Option.some.injEq, Prod.mk.injEq] at h
    rw [h.1]
  | cons op ops ih =>
    simp only [Spec.ReqState.run, Option.bind_eq_some_iff, Option.map_eq_some_iff] at h
    obtain ⟨⟨a1, out1⟩, h1, ⟨a2, outs2⟩, h2, h3⟩ := h
    simp only [Prod.mk.injEq] at h3
    obtain ⟨rfl, -⟩ := h3
    obtain ⟨e1, hW1⟩ := spec_frame zero zeroP plus hW (hop op (by simp)) h1
    rw [ih hW1 (fun op' h' => hop op' (by simp [h'])) h2, e1]

theorem content_eq {st : FEReqState SV PM} {a : Spec.ReqState SV PM} (h : FEReqRep st a) (o : Nat) :
    Spec.content st o = ((a.obj o).map (·.sol), (a.obj o).map (·.par)) := by
  simp [Spec.content, h.sol.value_eq, h.par.value_eq]

theorem rep_of_run {ops : List (FEReqOp SV PM T)} {st : FEReqState SV PM} {outs : List (FEReqOut SV PM)}
    (h : feReqRun zero zeroP plus feReqStart ops = some (st, outs)) : ∃ a : Spec.ReqState SV PM, FEReqRep st a := by
  rcases run_sim zero zeroP plus rep_start ops with ⟨h1, -⟩ | ⟨st', a', outs', h1, -, h3⟩
  · rw [h1] at h; simp at h
  · rw [h1] at h
    simp only [Option.some.injEq, Prod.mk.injEq] at h
    exact ⟨a', h.1 ▸ h3⟩

/-- `r` is a reference to the solution or to the parameter of object `o`. -/
def Spec.RefersTo (st : FEReqState SV PM) (o r : Nat) : Prop :=
  (∃ p, st.sol.refs r = some p ∧ st.sol.ptr o = some (some p)) ∨
    ∃ p, st.par.refs r = some p ∧ st.par.ptr o = some (some p)

/-- C44. Whatever a program does with other objects (writing to them, destroying them, copying from `o` and
changing the copies, reading from `o`) leaves the content of `o` unchanged, unless it writes through a reference
that already referred to `o`. -/
theorem feRequirements_independent {pre ops : List (FEReqOp SV PM T)} {st st' : FEReqState SV PM}
    {outs outs' : List (FEReqOut SV PM)} {o : Nat}
    (hpre : feReqRun zero zeroP plus feReqStart pre = some (st, outs))
    (h : feReqRun zero zeroP plus st ops = some (st', outs'))
    (hops : ∀ op ∈ ops, ¬ Spec.Touches o (Spec.RefersTo st o) op) :
    Spec.content st' o = Spec.content st o := by
  obtain ⟨a, ha⟩ := rep_of_run zero zeroP plus hpre
  rcases run_sim zero zeroP plus ha ops with ⟨h1, -⟩ | ⟨st2, a2, outs2, h1, h2, h3⟩
  · rw [h1] at h; simp at h
  · rw [h1] at h
    simp only [Option.some.injEq, Prod.mk.injEq] at h
    obtain ⟨rfl, -⟩ := h
    rw [content_eq h3, content_eq ha, spec_frame_run zero zeroP plus ?_ hops h2]
    rintro r (hr | hr)
    · left
      cases hp : st.sol.refs r with
      | none => rw [ha.sol.ref_none r hp] at hr; simp at hr
      | some p =>
        rcases (ha.sol.ref_some r p hp).2 with ⟨o', h4, h5⟩ | ⟨-, h5⟩
        · rw [h5] at hr
          simp only [Option.some.injEq] at hr
          exact ⟨p, rfl, hr ▸ h4⟩
        · rw [h5] at hr; simp at hr
    · right
      cases hp : st.par.refs r with
      | none => rw [ha.par.ref_none r hp] at hr; simp at hr
      | some p =>
        rcases (ha.par.ref_some r p hp).2 with ⟨o', h4, h5⟩ | ⟨-, h5⟩
        · rw [h5] at hr
          simp only [Option.some.injEq] at hr
          exact ⟨p, rfl, hr ▸ h4⟩
        · rw [h5] at hr; simp at hr

/-- C44. After a copy or an assignment both objects have the content the source had, and no reference into the
copy exists. -/
theorem feRequirements_copy {pre : List (FEReqOp SV PM T)} {st st' : FEReqState SV PM}
    {outs : List (FEReqOut SV PM)} {out : FEReqOut SV PM} {o o' : Nat} (hne : o ≠ o')
    (hpre : feReqRun zero zeroP plus feReqStart pre = some (st, outs))
    (h : feReqStep zero zeroP plus st (.copy o o') = some (st', out) ∨
      feReqStep zero zeroP plus st (.assign o o') = some (st', out)) :
    Spec.content st' o = Spec.content st o' ∧ Spec.content st' o' = Spec.content st o' ∧
      ∀ r, ¬ Spec.RefersTo st' o r := by
  obtain ⟨a, ha⟩ := rep_of_run zero zeroP plus hpre
  have key : ∃ a' x, a.obj o' = some x ∧ FEReqRep st' a' ∧ a'.obj = Function.update a.obj o (some x) ∧
      ∀ r, a'.solRef r ≠ some (some o) ∧ a'.parRef r ≠ some (some o) := by
    rcases h with h | h
    · rcases step_sim zero zeroP plus ha (.copy o o') with ⟨h1, -⟩ | ⟨st1, a1, out1, h1, h2, h3⟩
      · rw [h1] at h; simp at h
      · rw [h1] at h
        simp only [Option.some.injEq, Prod.mk.injEq] at h
        obtain ⟨rfl, -⟩ := h
        simp only [Spec.ReqState.step, Option.bind_eq_some_iff] at h2
        obtain ⟨x, hx, h2⟩ := h2
        unfold Spec.ReqState.create at h2
        split at h2
        · simp at h2
        · rename_i hdead
          simp only [Option.map_some, Option.some.injEq, Prod.mk.injEq] at h2
          obtain ⟨rfl, -⟩ := h2
          refine ⟨_, x, hx, h3, rfl, fun r => ⟨fun e => ?_, fun e => ?_⟩⟩
          · obtain ⟨v, hv, -⟩ := ha.sol.readRef_some e
            simp only [Option.map_eq_some_iff] at hv
            obtain ⟨y, hy, -⟩ := hv
            exact hdead (by rw [hy]; rfl)
          · obtain ⟨v, hv, -⟩ := ha.par.readRef_some e
            simp only [Option.map_eq_some_iff] at hv
            obtain ⟨y, hy, -⟩ := hv
            exact hdead (by rw [hy]; rfl)
    · rcases step_sim zero zeroP plus ha (.assign o o') with ⟨h1, -⟩ | ⟨st1, a1, out1, h1, h2, h3⟩
      · rw [h1] at h; simp at h
      · rw [h1] at h
        simp only [Option.some.injEq, Prod.mk.injEq] at h
        obtain ⟨rfl, -⟩ := h
        simp only [Spec.ReqState.step, Option.bind_eq_some_iff, if_neg hne] at h2
        obtain ⟨x, hx, y, -, h2⟩ := h2
        simp only [Option.some.injEq, Prod.mk.injEq] at h2
        obtain ⟨rfl, -⟩ := h2
        refine ⟨_, x, hx, h3, rfl, fun r => ⟨fun e => ?_, fun e => ?_⟩⟩
        · simp only [Spec.dangle] at e
          split at e <;> simp_all
        · simp only [Spec.dangle] at e
          split at e <;> simp_all
  obtain ⟨a', x, hx, ha', hobj, href⟩ := key
  refine ⟨?_, ?_, fun r hr => ?_⟩
  · rw [content_eq ha', content_eq ha, hobj, Function.update_self, hx]
  · rw [content_eq ha', content_eq ha, hobj, Function.update_of_ne (Ne.symm hne)]
  · rcases hr with ⟨p, h1, h2⟩ | ⟨p, h1, h2⟩
    · rcases (ha'.sol.ref_some r p h1).2 with ⟨o1, h3, h4⟩ | ⟨h3, -⟩
      · rw [ha'.sol.inj _ _ _ h3 h2] at h4
        exact (href r).1 h4
      · obtain ⟨v, hv, -⟩ := ha'.sol.val o p h2
        rw [h3] at hv; simp at hv
    · rcases (ha'.par.ref_some r p h1).2 with ⟨o1, h3, h4⟩ | ⟨h3, -⟩
      · rw [ha'.par.inj _ _ _ h3 h2] at h4
        exact (href r).2 h4
      · obtain ⟨v, hv, -⟩ := ha'.par.val o p h2
        rw [h3] at hv; simp at hv

/-- C44. After inserting a solution and a parameter both are returned whatever was stored before, until the
object is changed again; `populated` is then true. -/
theorem feRequirements_last_inserted {pre mid : List (FEReqOp SV PM T)} {st st' : FEReqState SV PM}
    {outs outs' : List (FEReqOut SV PM)} {o r : Nat} {s : SV} {p : PM}
    (hpre : feReqRun zero zeroP plus feReqStart (pre ++ [.insertGlobalSolution o s, .insertParameter o p]) =
      some (st, outs))
    (h : feReqRun zero zeroP plus st mid = some (st', outs'))
    (hmid : ∀ op ∈ mid, ¬ Spec.Touches o (fun _ => False) op) :
    (feReqRun zero zeroP plus st' [.populated o, .globalSolution r o, .readSol r, .parameter r o, .readPar r]).map
      (·.2) = some [.bool true, .done, .sol s, .done, .par p] := by
  have hrun : ∀ (a : Spec.ReqState SV PM) (l l' : List (FEReqOp SV PM T)) b out,
      Spec.ReqState.run zero zeroP plus a (l ++ l') = some (b, out) →
      ∃ a1 o1 o2, Spec.ReqState.run zero zeroP plus a l = some (a1, o1) ∧
        Spec.ReqState.run zero zeroP plus a1 l' = some (b, o2) := by
    intro a l
    induction l generalizing a with
    | nil => intro l' b out h; exact ⟨a, [], out, rfl, h⟩
    | cons op l ih =>
      intro l' b out h
      simp only [List.cons_append, Spec.ReqState.run, Option.bind_eq_some_iff, Option.map_eq_some_iff] at h
      obtain ⟨⟨a1, out1⟩, h1, ⟨a2, outs2⟩, h2, h3⟩ := h
      simp only [Prod.mk.injEq] at h3
      obtain ⟨rfl, -⟩ := h3
      obtain ⟨a3, o3, o4, h4, h5⟩ := ih a1 l' _ _ h2
      exact ⟨a3, out1 :: o3, o4, by simp [Spec.ReqState.run, h1, h4], h5⟩
  rcases run_sim zero zeroP plus rep_start (pre ++ [.insertGlobalSolution o s, .insertParameter o p]) with
    ⟨h1, -⟩ | ⟨st1, a1, outs1, h1, h2, h3⟩
  · rw [h1] at hpre; simp at hpre
  · rw [h1] at hpre
    simp only [Option.some.injEq, Prod.mk.injEq] at hpre
    obtain ⟨rfl, -⟩ := hpre
    obtain ⟨a0, o0, o2, -, h5⟩ := hrun _ _ _ _ _ h2
    simp only [Spec.ReqState.run, Spec.ReqState.step, Option.bind_eq_some_iff, Option.map_eq_some_iff] at h5
    obtain ⟨⟨b1, _⟩, ⟨x, hx, e1⟩, ⟨b2, _⟩, ⟨⟨b3, _⟩, ⟨y, hy, e2⟩, ⟨b4, _⟩, e3, e4⟩, e5⟩ := h5
    simp only [Option.some.injEq, Prod.mk.injEq] at e1 e2 e3 e4 e5
    obtain ⟨rfl, -⟩ := e1
    simp only [Function.update_self, Option.some.injEq] at hy
    subst hy
    obtain ⟨rfl, -⟩ := e2
    obtain ⟨rfl, -⟩ := e3
    obtain ⟨rfl, -⟩ := e4
    obtain ⟨rfl, -⟩ := e5
    have hW : ∀ r, (Spec.dangle a0.solRef o r = some (some o) ∨ Spec.dangle a0.parRef o r = some (some o)) →
        False := by
      intro r hr
      unfold Spec.dangle at hr
      rcases hr with hr | hr <;> split at hr <;> simp_all
    rcases run_sim zero zeroP plus h3 mid with ⟨h6, -⟩ | ⟨st2, a2, outs2, h6, h7, h8⟩
    · rw [h6] at h; simp at h
    · rw [h6] at h
      simp only [Option.some.injEq, Prod.mk.injEq] at h
      obtain ⟨rfl, -⟩ := h
      have hobj := spec_frame_run zero zeroP plus (W := fun _ => False) hW hmid h7
      simp only [Function.update_self] at hobj
      have hfin : (Spec.ReqState.run zero zeroP plus a2 [.populated o, .globalSolution r o, .readSol r,
          .parameter r o, .readPar r]).map (·.2) =
          some [.bool true, .done, .sol s, .done, (.par p : FEReqOut SV PM)] := by
        simp [Spec.ReqState.run, Spec.ReqState.step, hobj]
      rcases run_sim zero zeroP plus h8 [.populated o, .globalSolution r o, .readSol r, .parameter r o, .readPar r]
        with ⟨h9, h10⟩ | ⟨st3, a3, outs3, h9, h10, -⟩
      · rw [h10] at hfin; simp at hfin
      · rw [h10] at hfin
        rw [h9]
        exact hfin

/-- C44. Synchronising with the default update function leaves everything as it is; it throws if no solution is
stored. -/
theorem feRequirements_syncDefault {st st' : FEReqState SV PM} {out : FEReqOut SV PM} {o : Nat}
    (h : feReqStep zero zeroP plus st (.syncDefault o) = some (st', out)) :
    st' = st ∧ (out = .invalidState ↔ st.sol.value o = some none) := by
  simp only [feReqStep] at h
  cases hv : st.sol.value o with
  | none => rw [hv] at h; simp at h
  | some q =>
    rw [hv] at h
    cases q with
    | none =>
      simp only [Option.bind_eq_bind, Option.bind_some, Option.some.injEq, Prod.mk.injEq] at h
      simp [h.1.symm, h.2.symm]
    | some v =>
      simp only [Option.bind_eq_bind, Option.bind_some, Option.some.injEq, Prod.mk.injEq] at h
      simp [h.1.symm, h.2.symm]

/-- A program: create, copy, change the copy, read both; then a reference dangles. -/
def feReqExample : List (FEReqOp Int Int Int) :=
  [.default 0, .globalSolution 0 0, .populated 0, .insertGlobalSolution 0 5, .insertParameter 0 7, .copy 1 0,
    .globalSolution 0 1, .writeSol 0 9, .add 1 1, .globalSolution 1 0, .readSol 1, .readSol 0, .populated 1,
    .syncDefault 0]

example : (feReqRun (fun _ => 0) 0 (· + ·) feReqStart feReqExample).map (·.2) =
    some [.done, .invalidState, .bool false, .done, .done, .done, .done, .done, .done, .done, .sol 5, .sol 10,
      .bool true, .done] := by decide +kernel

example : (feReqRun (fun _ => (0 : Int)) (0 : Int) (fun (a b : Int) => a + b) feReqStart
    [.init 0 1 2, .globalSolution 0 0, .insertGlobalSolution 0 3, .readSol 0]).isNone := by decide +kernel

example : (feReqRun (fun _ => (0 : Int)) (0 : Int) (fun (a b : Int) => a + b) feReqStart
    [.init 0 1 2, .globalSolution 0 0, .assign 0 0, .readSol 0]).map (·.2) =
    some [.done, .done, .done, .sol 1] := by decide +kernel

example : ∃ st outs, feReqRun (fun _ => (0 : Int)) (0 : Int) (fun (a b : Int) => a + b) feReqStart
    ([.init 0 1 2] ++ [.insertGlobalSolution 0 5, .insertParameter 0 6]) = some (st, outs) ∧
    (feReqRun (fun _ => (0 : Int)) (0 : Int) (fun (a b : Int) => a + b) st [.copy 1 0, .add 1 3]).isSome ∧
    ∀ op ∈ ([.copy 1 0, .add 1 3] : List (FEReqOp Int Int Int)), ¬ Spec.Touches 0 (fun _ => False) op :=
  ⟨_, _, rfl, rfl, by simp [Spec.Touches]⟩

end Ikarus
