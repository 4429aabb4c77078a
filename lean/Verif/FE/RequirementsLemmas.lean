import Verif.FE.RequirementsModel
import Mathlib.Tactic.Common

/-! The heap model of `FERequirements` refines plain values; lemmas for `RequirementsProps.lean`. -/

namespace Ikarus

/-- References naming object `o` become dangling. -/
def Spec.dangle (refs : Nat → Option (Option Nat)) (o : Nat) : Nat → Option (Option Nat) :=
  fun r => if refs r = some (some o) then some none else refs r

/-- The store represents the values `obj`; `refs r = some (some o)` if reference `r` names the value of object
`o`, `some none` if it dangles. -/
structure PtrStore.Rep {V : Type} (s : PtrStore V) (obj : Nat → Option (Option V))
    (refs : Nat → Option (Option Nat)) : Prop where
  dead : ∀ o, s.ptr o = none → obj o = none
  null : ∀ o, s.ptr o = some none → obj o = some none
  val : ∀ o p, s.ptr o = some (some p) → ∃ v, s.heap p = some v ∧ obj o = some (some v)
  inj : ∀ o o' p, s.ptr o = some (some p) → s.ptr o' = some (some p) → o = o'
  fresh : ∀ p, s.next ≤ p → s.heap p = none
  ref_none : ∀ r, s.refs r = none → refs r = none
  ref_some : ∀ r p, s.refs r = some p → p < s.next ∧
    ((∃ o, s.ptr o = some (some p) ∧ refs r = some (some o)) ∨ (s.heap p = none ∧ refs r = some none))

namespace PtrStore
variable {V : Type} {s : PtrStore V} {obj : Nat → Option (Option V)} {refs : Nat → Option (Option Nat)}

theorem Rep.ptr_lt (h : Rep s obj refs) {o p : Nat} (hp : s.ptr o = some (some p)) : p < s.next := by
  obtain ⟨v, hv, -⟩ := h.val o p hp
  by_contra hn
  rw [h.fresh p (by omega)] at hv
  simp at hv

theorem rep_empty : Rep (empty : PtrStore V) (fun _ => none) (fun _ => none) := by
  constructor <;> simp [empty]

theorem Rep.value_eq (h : Rep s obj refs) (o : Nat) : s.value o = obj o := by
  unfold value
  cases hp : s.ptr o with
  | none => simp [h.dead o hp]
  | some q =>
    cases q with
    | none => simp [h.null o hp]
    | some p =>
      obtain ⟨v, hv, ho⟩ := h.val o p hp
      simp [hv, ho]

theorem Rep.ptr_isSome (h : Rep s obj refs) (o : Nat) :
    (s.ptr o).map (·.isSome) = (obj o).map (·.isSome) := by
  cases hp : s.ptr o with
  | none => simp [h.dead o hp]
  | some q =>
    cases q with
    | none => simp [h.null o hp]
    | some p =>
      obtain ⟨v, hv, ho⟩ := h.val o p hp
      simp [ho]

theorem Rep.construct_none (h : Rep s obj refs) {o : Nat} (v : Option V) (ho : obj o ≠ none) :
    s.construct o v = none := by
  unfold construct
  cases hp : s.ptr o with
  | none => exact absurd (h.dead o hp) ho
  | some q => rfl

theorem Rep.construct_some (h : Rep s obj refs) {o : Nat} (v : Option V) (ho : obj o = none) :
    ∃ s', s.construct o v = some s' ∧ Rep s' (Function.update obj o (some v)) refs := by
  have hp : s.ptr o = none := by
    cases hp : s.ptr o with
    | none => rfl
    | some q =>
      cases q with
      | none => rw [h.null o hp] at ho; simp at ho
      | some p => obtain ⟨v, -, hv⟩ := h.val o p hp; rw [hv] at ho; simp at ho
  have hne : ∀ {o' q}, s.ptr o' = some q → o' ≠ o := by
    rintro o' q h1 rfl; rw [hp] at h1; simp at h1
  cases v with
  | none =>
    refine ⟨_, by simp only [construct, hp]; rfl, ?_⟩
    constructor
    · intro o' h1
      by_cases e : o' = o
      · subst e; simp at h1
      · simp only [Function.update_of_ne e] at h1 ⊢; exact h.dead o' h1
    · intro o' h1
      by_cases e : o' = o
      · subst e; simp
      · simp only [Function.update_of_ne e] at h1 ⊢; exact h.null o' h1
    · intro o' p h1
      by_cases e : o' = o
      · subst e; simp at h1
      · simp only [Function.update_of_ne e] at h1 ⊢; exact h.val o' p h1
    · intro o' o'' p h1 h2
      by_cases e : o' = o
      · subst e; simp at h1
      by_cases e' : o'' = o
      · subst e'; simp at h2
      simp only [Function.update_of_ne e, Function.update_of_ne e'] at h1 h2
      exact h.inj _ _ p h1 h2
    · exact h.fresh
    · exact h.ref_none
    · intro r p h1
      obtain ⟨h2, h3⟩ := h.ref_some r p h1
      refine ⟨h2, h3.imp ?_ id⟩
      rintro ⟨o', h4, h5⟩
      exact ⟨o', by simp only [Function.update_of_ne (hne h4)]; exact h4, h5⟩
  | some v =>
    refine ⟨_, by simp only [construct, hp]; rfl, ?_⟩
    constructor
    · intro o' h1
      by_cases e : o' = o
      · subst e; simp at h1
      · simp only [Function.update_of_ne e] at h1 ⊢; exact h.dead o' h1
    · intro o' h1
      by_cases e : o' = o
      · subst e; simp at h1
      · simp only [Function.update_of_ne e] at h1 ⊢; exact h.null o' h1
    · intro o' p h1
      by_cases e : o' = o
      · subst e
        simp only [Function.update_self, Option.some.injEq] at h1
        subst h1
        exact ⟨v, by simp, by simp⟩
      · simp only [Function.update_of_ne e] at h1 ⊢
        have := h.ptr_lt h1
        rw [Function.update_of_ne (by omega)]
        exact h.val o' p h1
    · intro o' o'' p h1 h2
      by_cases e : o' = o
      · by_cases e' : o'' = o
        · rw [e, e']
        · subst e
          simp only [Function.update_self, Option.some.injEq, Function.update_of_ne e'] at h1 h2
          have := h.ptr_lt h2; omega
      · by_cases e' : o'' = o
        · subst e'
          simp only [Function.update_self, Option.some.injEq, Function.update_of_ne e] at h1 h2
          have := h.ptr_lt h1; omega
        · simp only [Function.update_of_ne e, Function.update_of_ne e'] at h1 h2
          exact h.inj _ _ p h1 h2
    · intro p hp'
      simp only at hp' ⊢
      rw [Function.update_of_ne (by omega)]
      exact h.fresh p (by omega)
    · exact h.ref_none
    · intro r p h1
      obtain ⟨h2, h3⟩ := h.ref_some r p h1
      refine ⟨by simp only; omega, ?_⟩
      rcases h3 with ⟨o', h4, h5⟩ | ⟨h4, h5⟩
      · exact .inl ⟨o', by simp only [Function.update_of_ne (hne h4)]; exact h4, h5⟩
      · exact .inr ⟨by simp only; rw [Function.update_of_ne (by omega)]; exact h4, h5⟩

/-- Freeing what object `o` owns, when `o` is about to get another pointer or to die. -/
theorem Rep.destroy_some (h : Rep s obj refs) {o : Nat} (ho : obj o ≠ none) :
    ∃ s', s.destroy o = some s' ∧ Rep s' (Function.update obj o none) (Spec.dangle refs o) ∧
      s'.next = s.next ∧ (∃ q, s.ptr o = some q ∧ s'.heap = free s.heap q) ∧
      s'.ptr = Function.update s.ptr o none ∧ s'.refs = s.refs := by
  cases hp : s.ptr o with
  | none => exact absurd (h.dead o hp) ho
  | some q =>
    refine ⟨{ s with heap := free s.heap q, ptr := Function.update s.ptr o none },
      by simp only [destroy, hp], ?_, rfl, ⟨q, rfl, rfl⟩, rfl, rfl⟩
    have hfree : ∀ p, q ≠ some p → free s.heap q p = s.heap p := by
      intro p hq
      cases q with
      | none => rfl
      | some p' =>
        have : p ≠ p' := by rintro rfl; exact hq rfl
        simp [free, Function.update_of_ne this]
    have hother : ∀ o' p, o' ≠ o → s.ptr o' = some (some p) → q ≠ some p := by
      rintro o' p e h1 rfl
      exact e (h.inj _ _ p h1 hp)
    constructor
    · intro o' h1
      by_cases e : o' = o
      · subst e; simp
      · simp only [Function.update_of_ne e] at h1 ⊢; exact h.dead o' h1
    · intro o' h1
      by_cases e : o' = o
      · subst e; simp at h1
      · simp only [Function.update_of_ne e] at h1 ⊢; exact h.null o' h1
    · intro o' p h1
      by_cases e : o' = o
      · subst e; simp at h1
      · simp only [Function.update_of_ne e] at h1 ⊢
        rw [hfree p (hother o' p e h1)]
        exact h.val o' p h1
    · intro o' o'' p h1 h2
      by_cases e : o' = o
      · subst e; simp at h1
      by_cases e' : o'' = o
      · subst e'; simp at h2
      simp only [Function.update_of_ne e, Function.update_of_ne e'] at h1 h2
      exact h.inj _ _ p h1 h2
    · intro p hp'
      simp only at hp' ⊢
      by_cases hq : q = some p
      · subst hq; simp [free]
      · rw [hfree p hq]; exact h.fresh p hp'
    · intro r h1
      have := h.ref_none r h1
      simp [Spec.dangle, this]
    · intro r p h1
      obtain ⟨h2, h3⟩ := h.ref_some r p h1
      refine ⟨h2, ?_⟩
      rcases h3 with ⟨o', h4, h5⟩ | ⟨h4, h5⟩
      · by_cases e : o' = o
        · subst e
          rw [hp] at h4
          simp only [Option.some.injEq] at h4
          subst h4
          exact .inr ⟨by simp [free], by simp [Spec.dangle, h5]⟩
        · refine .inl ⟨o', by simp only [Function.update_of_ne e]; exact h4, ?_⟩
          simp [Spec.dangle, h5, e]
      · refine .inr ⟨?_, by simp [Spec.dangle, h5]⟩
        by_cases hq : q = some p
        · subst hq; simp [free]
        · simp only; rw [hfree p hq]; exact h4

theorem Rep.destroy_none (h : Rep s obj refs) {o : Nat} (ho : obj o = none) : s.destroy o = none := by
  unfold destroy
  cases hp : s.ptr o with
  | none => rfl
  | some q =>
    cases q with
    | none => rw [h.null o hp] at ho; simp at ho
    | some p => obtain ⟨v, -, hv⟩ := h.val o p hp; rw [hv] at ho; simp at ho

theorem Rep.reset_none (h : Rep s obj refs) {o : Nat} (v : Option V) (ho : obj o = none) :
    s.reset o v = none := by
  unfold reset
  cases hp : s.ptr o with
  | none => rfl
  | some q =>
    cases q with
    | none => rw [h.null o hp] at ho; simp at ho
    | some p => obtain ⟨v, -, hv⟩ := h.val o p hp; rw [hv] at ho; simp at ho

/-- Reset is destruction and construction. -/
theorem Rep.reset_some (h : Rep s obj refs) {o : Nat} (v : Option V) (ho : obj o ≠ none) :
    ∃ s', s.reset o v = some s' ∧ Rep s' (Function.update obj o (some v)) (Spec.dangle refs o) := by
  obtain ⟨s1, -, hr, hn, ⟨q, hq, hheap⟩, hptr, href⟩ := h.destroy_some ho
  obtain ⟨s2, hs2, hr2⟩ := hr.construct_some v (o := o) (by simp)
  refine ⟨s2, ?_, by simpa using hr2⟩
  rw [← hs2]
  unfold reset construct
  simp only [hq, hptr, Function.update_self]
  cases v with
  | none => simp [hn, href, hheap]
  | some v =>
    have hqn : q ≠ some s.next := by
      rintro rfl
      have := h.ptr_lt hq
      omega
    have : free (Function.update s.heap s.next (some v)) q = Function.update (free s.heap q) s.next (some v) := by
      cases q with
      | none => rfl
      | some p =>
        have hps : p ≠ s.next := fun e => hqn (by rw [e])
        exact (Function.update_comm hps none (some v) s.heap).symm
    simp [hn, href, hheap, this]

theorem Rep.set_heap (h : Rep s obj refs) {o p : Nat} (hp : s.ptr o = some (some p)) (v : V) :
    Rep { s with heap := Function.update s.heap p (some v) } (Function.update obj o (some (some v))) refs := by
  have hlt := h.ptr_lt hp
  constructor
  · intro o' h1
    have e : o' ≠ o := by rintro rfl; rw [hp] at h1; simp at h1
    rw [Function.update_of_ne e]; exact h.dead o' h1
  · intro o' h1
    have e : o' ≠ o := by rintro rfl; rw [hp] at h1; simp at h1
    rw [Function.update_of_ne e]; exact h.null o' h1
  · intro o' p' h1
    by_cases e : o' = o
    · subst e
      simp only at h1
      rw [hp] at h1
      simp only [Option.some.injEq] at h1
      subst h1
      exact ⟨v, by simp, by simp⟩
    · have : p' ≠ p := by rintro rfl; exact e (h.inj _ _ _ h1 hp)
      simp only [Function.update_of_ne e, Function.update_of_ne this]
      exact h.val o' p' h1
  · exact h.inj
  · intro p' hp'
    simp only at hp' ⊢
    rw [Function.update_of_ne (by omega)]
    exact h.fresh p' hp'
  · exact h.ref_none
  · intro r p' h1
    obtain ⟨h2, h3⟩ := h.ref_some r p' h1
    refine ⟨h2, h3.imp id ?_⟩
    rintro ⟨h4, h5⟩
    refine ⟨?_, h5⟩
    have : p' ≠ p := by
      rintro rfl
      obtain ⟨v', hv', -⟩ := h.val o p' hp
      rw [h4] at hv'; simp at hv'
    simp only [Function.update_of_ne this]; exact h4

theorem Rep.ptr_of_obj (h : Rep s obj refs) {o : Nat} {v : V} (ho : obj o = some (some v)) :
    ∃ p, s.ptr o = some (some p) ∧ s.heap p = some v := by
  cases hp : s.ptr o with
  | none => rw [h.dead o hp] at ho; simp at ho
  | some q =>
    cases q with
    | none => rw [h.null o hp] at ho; simp at ho
    | some p =>
      obtain ⟨v', hv, hv'⟩ := h.val o p hp
      rw [hv'] at ho
      simp only [Option.some.injEq] at ho
      exact ⟨p, rfl, ho ▸ hv⟩

theorem Rep.store_some (h : Rep s obj refs) {o : Nat} {v' : V} (v : V) (ho : obj o = some (some v')) :
    ∃ s', s.store o v = some s' ∧ Rep s' (Function.update obj o (some (some v))) refs := by
  obtain ⟨p, hp, hv⟩ := h.ptr_of_obj ho
  exact ⟨_, by simp only [store, hp, hv], h.set_heap hp v⟩

theorem Rep.bind_none (h : Rep s obj refs) {o : Nat} (r : Nat) (ho : obj o = none) : s.bind r o = none := by
  unfold bind
  cases hp : s.ptr o with
  | none => rfl
  | some q =>
    cases q with
    | none => rw [h.null o hp] at ho; simp at ho
    | some p => obtain ⟨v, -, hv⟩ := h.val o p hp; rw [hv] at ho; simp at ho

theorem Rep.bind_null (h : Rep s obj refs) {o : Nat} (r : Nat) (ho : obj o = some none) :
    s.bind r o = some none := by
  unfold bind
  cases hp : s.ptr o with
  | none => rw [h.dead o hp] at ho; simp at ho
  | some q =>
    cases q with
    | none => rfl
    | some p => obtain ⟨v, -, hv⟩ := h.val o p hp; rw [hv] at ho; simp at ho

theorem Rep.bind_some (h : Rep s obj refs) {o : Nat} {v : V} (r : Nat) (ho : obj o = some (some v)) :
    ∃ s', s.bind r o = some (some s') ∧ Rep s' obj (Function.update refs r (some (some o))) := by
  obtain ⟨p, hp, hv⟩ := h.ptr_of_obj ho
  refine ⟨_, by simp only [bind, hp]; rfl, ?_⟩
  constructor
  · exact h.dead
  · exact h.null
  · exact h.val
  · exact h.inj
  · exact h.fresh
  · intro r' h1
    by_cases e : r' = r
    · subst e; simp at h1
    · simp only [Function.update_of_ne e] at h1 ⊢; exact h.ref_none r' h1
  · intro r' p' h1
    by_cases e : r' = r
    · subst e
      simp only [Function.update_self, Option.some.injEq] at h1
      subst h1
      exact ⟨h.ptr_lt hp, .inl ⟨o, hp, by simp⟩⟩
    · simp only [Function.update_of_ne e] at h1 ⊢
      exact h.ref_some r' p' h1

theorem Rep.readRef_some (h : Rep s obj refs) {r o : Nat} (hr : refs r = some (some o)) :
    ∃ v, obj o = some (some v) ∧ s.readRef r = some v := by
  unfold readRef
  cases hp : s.refs r with
  | none => rw [h.ref_none r hp] at hr; simp at hr
  | some p =>
    rcases (h.ref_some r p hp).2 with ⟨o', h4, h5⟩ | ⟨-, h5⟩
    · rw [h5] at hr
      simp only [Option.some.injEq] at hr
      subst hr
      obtain ⟨v, hv, ho⟩ := h.val o' p h4
      exact ⟨v, ho, hv⟩
    · rw [h5] at hr; simp at hr

theorem Rep.readRef_none (h : Rep s obj refs) {r : Nat} (hr : ∀ o, refs r ≠ some (some o)) :
    s.readRef r = none := by
  unfold readRef
  cases hp : s.refs r with
  | none => rfl
  | some p =>
    rcases (h.ref_some r p hp).2 with ⟨o', h4, h5⟩ | ⟨h4, -⟩
    · exact absurd h5 (hr o')
    · exact h4

theorem Rep.writeRef_some (h : Rep s obj refs) {r o : Nat} (v : V) (hr : refs r = some (some o)) :
    ∃ s', s.writeRef r v = some s' ∧ Rep s' (Function.update obj o (some (some v))) refs := by
  cases hp : s.refs r with
  | none => rw [h.ref_none r hp] at hr; simp at hr
  | some p =>
    rcases (h.ref_some r p hp).2 with ⟨o', h4, h5⟩ | ⟨-, h5⟩
    · rw [h5] at hr
      simp only [Option.some.injEq] at hr
      subst hr
      obtain ⟨v', hv, ho⟩ := h.val o' p h4
      exact ⟨_, by simp only [writeRef, hp, hv], h.set_heap h4 v⟩
    · rw [h5] at hr; simp at hr

theorem Rep.writeRef_none (h : Rep s obj refs) {r : Nat} (v : V) (hr : ∀ o, refs r ≠ some (some o)) :
    s.writeRef r v = none := by
  unfold writeRef
  cases hp : s.refs r with
  | none => rfl
  | some p =>
    rcases (h.ref_some r p hp).2 with ⟨o', h4, h5⟩ | ⟨h4, -⟩
    · exact absurd h5 (hr o')
    · simp [h4]

end PtrStore

end Ikarus
