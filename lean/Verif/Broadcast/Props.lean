import Verif.Broadcast.Model
import Mathlib.Data.List.Range
import Mathlib.Data.List.Sublists
import Mathlib.Data.List.Nodup

/-!
C14, C15: delivery of notifications and unregistering.
-/

namespace Ikarus

namespace Spec

/-- Some copy of the token `id` exists in the program. -/
def Owned (s : BState) (id : Nat) : Prop := id ∈ s.user ∨ ∃ l ∈ s.listenerTokens, id ∈ l

/-- Number of copies of the token `id`. -/
def copies (s : BState) (id : Nat) : Nat :=
  s.user.count id + (s.listenerTokens.map fun l => l.count id).sum

instance (s : BState) (id : Nat) : Decidable (Owned s id) := by unfold Owned; infer_instance

theorem owned_iff_copies (s : BState) (id : Nat) : Owned s id ↔ copies s id ≠ 0 := by
  unfold Owned copies
  have h : (∃ l ∈ s.listenerTokens, id ∈ l) ↔
      (s.listenerTokens.map fun l => l.count id).sum ≠ 0 := by
    induction s.listenerTokens with
    | nil => simp
    | cons a L ih =>
      have ha : id ∈ a ↔ a.count id ≠ 0 := by
        rw [← List.count_pos_iff]; omega
      simp only [List.mem_cons, exists_eq_or_imp, List.map_cons, List.sum_cons, ih, ha]
      omega
  rw [h, ← List.count_pos_iff (l := s.user)]
  omega

end Spec

open Spec

namespace BState

theorem locked_iff (s : BState) (id : Nat) : s.locked id = true ↔ Owned s id := by
  simp [locked, Owned]

/-- Invariant: the weak pointers are in registration order and contain every owned token; every
token was registered. -/
structure Inv (s : BState) : Prop where
  sub : s.weak.Sublist (List.range s.next)
  owned : ∀ id, Owned s id → id ∈ s.weak
  lt : ∀ id, Owned s id → id < s.next

/-- The effect of an operation on ownership. -/
theorem step_owned (s s' : BState) (op : BOp) (h : op.step s = some s') (id : Nat)
    (ho : Owned s' id) : Owned s id ∨ (op.pushes = true ∧ id = s.next) := by
  have hset : ∀ (L : List (List Nat)) (l : Nat) (ts ts' : List Nat), L[l]? = some ts →
      (∃ x ∈ L.set l ts', id ∈ x) → (∃ x ∈ L, id ∈ x) ∨ id ∈ ts' := by
    intro L l ts ts' _ ⟨x, hx, hid⟩
    rcases List.mem_or_eq_of_mem_set hx with hx | hx
    · exact Or.inl ⟨x, hx, hid⟩
    · subst hx; exact Or.inr hid
  cases op with
  | register =>
    simp only [BOp.step, Option.some.injEq] at h
    subst h
    rcases ho with ho | ho
    · simp only [registerListener, List.mem_append, List.mem_singleton] at ho
      rcases ho with ho | ho
      · exact Or.inl (Or.inl ho)
      · exact Or.inr ⟨rfl, ho⟩
    · exact Or.inl (Or.inr ho)
  | copy k =>
    simp only [BOp.step, copyToken] at h
    split at h
    · rename_i hk
      simp only [Option.some.injEq] at h
      subst h
      rcases ho with ho | ho
      · simp only [List.mem_append, List.mem_singleton] at ho
        rcases ho with ho | ho
        · exact Or.inl (Or.inl ho)
        · subst ho; exact Or.inl (Or.inl hk)
      · exact Or.inl (Or.inr ho)
    · exact absurd h (by simp)
  | drop k =>
    simp only [BOp.step, dropToken] at h
    split at h
    · simp only [Option.some.injEq] at h
      subst h
      rcases ho with ho | ho
      · exact Or.inl (Or.inl (List.mem_of_mem_erase ho))
      · exact Or.inl (Or.inr ho)
    · exact absurd h (by simp)
  | unregister k =>
    simp only [BOp.step, unregisterListener, copyToken, dropToken] at h
    split at h
    · rename_i hk
      simp only [Option.bind_some] at h
      split at h
      · simp only [Option.some.injEq] at h
        subst h
        rcases ho with ho | ho
        · have := List.mem_of_mem_erase ho
          simp only [List.mem_append, List.mem_singleton] at this
          rcases this with ho | ho
          · exact Or.inl (Or.inl ho)
          · subst ho; exact Or.inl (Or.inl hk)
        · exact Or.inl (Or.inr ho)
      · exact absurd h (by simp)
    · exact absurd h (by simp)
  | unregisterMove k =>
    simp only [BOp.step, unregisterListenerMove, dropToken] at h
    split at h
    · simp only [Option.some.injEq] at h
      subst h
      rcases ho with ho | ho
      · exact Or.inl (Or.inl (List.mem_of_mem_erase ho))
      · exact Or.inl (Or.inr ho)
    · exact absurd h (by simp)
  | subscribe l =>
    obtain ⟨ts, hts, rfl⟩ := Option.map_eq_some_iff.1 h
    rcases ho with ho | ho
    · simp only [registerListener, List.mem_append, List.mem_singleton] at ho
      rcases ho with ho | ho
      · exact Or.inl (Or.inl ho)
      · exact Or.inr ⟨rfl, ho⟩
    · rcases hset _ l ts _ hts ho with ho | ho
      · exact Or.inl (Or.inr ho)
      · rcases List.mem_append.1 ho with ho | ho
        · exact Or.inl (Or.inr ⟨ts, List.mem_of_getElem? hts, ho⟩)
        · exact Or.inr ⟨rfl, by simpa using ho⟩
  | unSubscribeAll l =>
    obtain ⟨ts, hts, rfl⟩ := Option.map_eq_some_iff.1 h
    rcases ho with ho | ho
    · exact Or.inl (Or.inl ho)
    · rcases hset _ l ts _ hts ho with ho | ho
      · exact Or.inl (Or.inr ho)
      · simp at ho
  | unSubscribeLast l =>
    obtain ⟨ts, hts, rfl⟩ := Option.map_eq_some_iff.1 h
    rcases ho with ho | ho
    · exact Or.inl (Or.inl ho)
    · rcases hset _ l ts _ hts ho with ho | ho
      · exact Or.inl (Or.inr ho)
      · exact Or.inl (Or.inr ⟨ts, List.mem_of_getElem? hts, List.dropLast_subset _ ho⟩)
  | unSubscribe l k =>
    obtain ⟨ts, hts, rfl⟩ := Option.map_eq_some_iff.1 h
    rcases ho with ho | ho
    · exact Or.inl (Or.inl ho)
    · rcases hset _ l ts _ hts ho with ho | ho
      · exact Or.inl (Or.inr ho)
      · exact Or.inl (Or.inr ⟨ts, List.mem_of_getElem? hts, List.mem_of_mem_erase ho⟩)

/-- The effect of an operation on the weak pointers. -/
theorem step_weak (s s' : BState) (op : BOp) (h : op.step s = some s') :
    if op.pushes then s'.weak = s.weak ++ [s.next] ∧ s'.next = s.next + 1
    else s'.weak = s.weak ∧ s'.next = s.next := by
  cases op with
  | register =>
    simp only [BOp.step, Option.some.injEq] at h
    subst h
    simp [BOp.pushes, registerListener]
  | subscribe l =>
    obtain ⟨ts, hts, rfl⟩ := Option.map_eq_some_iff.1 h
    simp [BOp.pushes, registerListener]
  | copy k =>
    simp only [BOp.step, copyToken] at h
    split at h
    · simp only [Option.some.injEq] at h
      subst h
      simp [BOp.pushes]
    · exact absurd h (by simp)
  | drop k =>
    simp only [BOp.step, dropToken] at h
    split at h
    · simp only [Option.some.injEq] at h
      subst h
      simp [BOp.pushes]
    · exact absurd h (by simp)
  | unregisterMove k =>
    simp only [BOp.step, unregisterListenerMove, dropToken] at h
    split at h
    · simp only [Option.some.injEq] at h
      subst h
      simp [BOp.pushes]
    · exact absurd h (by simp)
  | unregister k =>
    simp only [BOp.step, unregisterListener, copyToken, dropToken] at h
    split at h
    · simp only [Option.bind_some] at h
      split at h
      · simp only [Option.some.injEq] at h
        subst h
        simp [BOp.pushes]
      · exact absurd h (by simp)
    · exact absurd h (by simp)
  | unSubscribeAll l =>
    obtain ⟨ts, hts, rfl⟩ := Option.map_eq_some_iff.1 h
    simp [BOp.pushes]
  | unSubscribeLast l =>
    obtain ⟨ts, hts, rfl⟩ := Option.map_eq_some_iff.1 h
    simp [BOp.pushes]
  | unSubscribe l k =>
    obtain ⟨ts, hts, rfl⟩ := Option.map_eq_some_iff.1 h
    simp [BOp.pushes]

theorem inv_step {s s' : BState} (hi : s.Inv) {op : BOp} (h : op.step s = some s') : s'.Inv := by
  have hw := step_weak s s' op h
  have ho := step_owned s s' op h
  cases hp : op.pushes with
  | true =>
    rw [hp, if_pos rfl] at hw
    obtain ⟨h1, h2⟩ := hw
    refine ⟨?_, ?_, ?_⟩
    · rw [h1, h2, List.range_succ]
      exact List.Sublist.append hi.sub (List.Sublist.refl _)
    · intro id hid
      rw [h1]
      rcases ho id hid with h | ⟨-, h⟩
      · exact List.mem_append_left _ (hi.owned id h)
      · subst h; simp
    · intro id hid
      rw [h2]
      rcases ho id hid with h | ⟨-, h⟩
      · have := hi.lt id h; omega
      · omega
  | false =>
    rw [hp, if_neg (by simp)] at hw
    obtain ⟨h1, h2⟩ := hw
    have ho' : ∀ id, Owned s' id → Owned s id := fun id hid => by
      rcases ho id hid with h | ⟨h, -⟩
      · exact h
      · rw [hp] at h; exact absurd h (by simp)
    exact ⟨by rw [h1, h2]; exact hi.sub, fun id hid => by rw [h1]; exact hi.owned id (ho' id hid),
      fun id hid => by rw [h2]; exact hi.lt id (ho' id hid)⟩

theorem owned_trim (s : BState) (id : Nat) : Owned s.trim id ↔ Owned s id := Iff.rfl

theorem inv_trim {s : BState} (hi : s.Inv) : s.trim.Inv := by
  refine ⟨List.Sublist.trans List.filter_sublist hi.sub, fun id hid => ?_, hi.lt⟩
  exact List.mem_filter.2 ⟨hi.owned id hid, (locked_iff s id).2 hid⟩

theorem steps_facts {s s' : BState} {ops : List BOp} (h : BOp.steps s ops = some s')
    (hp : ops.any BOp.pushes = false) (hi : s.Inv) :
    s'.Inv ∧ s'.next = s.next ∧ ∀ id, Owned s' id → Owned s id := by
  induction ops generalizing s with
  | nil =>
    simp only [BOp.steps, Option.some.injEq] at h
    subst h
    exact ⟨hi, rfl, fun _ h => h⟩
  | cons op ops ih =>
    obtain ⟨s1, h1, h2⟩ := Option.bind_eq_some_iff.1 h
    simp only [List.any_cons, Bool.or_eq_false_iff] at hp
    obtain ⟨a, b, c⟩ := ih h2 hp.2 (inv_step hi h1)
    have hw := step_weak s s1 op h1
    rw [hp.1, if_neg (by simp)] at hw
    refine ⟨a, by rw [b, hw.2], fun id hid => ?_⟩
    rcases step_owned s s1 op h1 id (c id hid) with h | ⟨h, -⟩
    · exact h
    · rw [hp.1] at h; exact absurd h (by simp)

theorem notifyLoop_facts (eff : Nat → List BOp) (ids : List Nat) {s s' : BState}
    {calls : List Nat} (h : notifyLoop eff ids s = some (s', calls)) (hi : s.Inv) :
    s'.Inv ∧ s'.next = s.next ∧ (∀ id, Owned s' id → Owned s id) ∧ calls.Sublist ids ∧
      (∀ id ∈ calls, Owned s id) ∧
      (∀ id ∈ ids, Owned s' id → id ∈ calls) := by
  induction ids generalizing s s' calls with
  | nil =>
    simp only [notifyLoop, Option.some.injEq, Prod.mk.injEq] at h
    obtain ⟨rfl, rfl⟩ := h
    exact ⟨hi, rfl, fun _ h => h, List.Sublist.refl _, by simp, by simp⟩
  | cons i ids ih =>
    simp only [notifyLoop] at h
    split at h
    · rename_i hl
      split at h
      · exact absurd h (by simp)
      · rename_i hp
        obtain ⟨s1, h1, h2⟩ := Option.bind_eq_some_iff.1 h
        obtain ⟨⟨s2, cs⟩, h3, h4⟩ := Option.map_eq_some_iff.1 h2
        simp only [Prod.mk.injEq] at h4
        obtain ⟨rfl, rfl⟩ := h4
        obtain ⟨a1, a2, a3⟩ := steps_facts h1 (by simpa using hp) hi
        obtain ⟨b1, b2, b3, b4, b5, b6⟩ := ih h3 a1
        refine ⟨b1, by rw [b2, a2], fun id hid => a3 id (b3 id hid), b4.cons_cons i, ?_, ?_⟩
        · intro id hid
          rcases List.mem_cons.1 hid with rfl | hid
          · exact (locked_iff s id).1 hl
          · exact a3 id (b5 id hid)
        · intro id hid ho
          rcases List.mem_cons.1 hid with rfl | hid
          · simp
          · exact List.mem_cons_of_mem _ (b6 id hid ho)
    · rename_i hl
      obtain ⟨b1, b2, b3, b4, b5, b6⟩ := ih h hi
      refine ⟨b1, b2, b3, b4.trans (List.sublist_cons_self _ _), b5, ?_⟩
      intro id hid ho
      rcases List.mem_cons.1 hid with rfl | hid
      · exact absurd ((locked_iff s id).2 (b3 id ho)) (by simpa using hl)
      · exact b6 id hid ho

theorem notifyLoop_pure (ids : List Nat) (s : BState) :
    notifyLoop (fun _ => []) ids s = some (s, ids.filter s.locked) := by
  induction ids with
  | nil => rfl
  | cons i ids ih =>
    simp only [notifyLoop, List.any_nil, Bool.false_eq_true, if_false, BOp.steps, Option.bind_some,
      ih, Option.map_some, List.filter_cons]
    split <;> rfl

theorem inv_event {s s' : BState} (hi : s.Inv) {e : BEvent} {cs : List Nat}
    (h : e.step s = some (s', cs)) : s'.Inv := by
  cases e with
  | op o =>
    obtain ⟨s1, h1, h2⟩ := Option.map_eq_some_iff.1 h
    simp only [Prod.mk.injEq] at h2
    obtain ⟨rfl, -⟩ := h2
    exact inv_step hi h1
  | notify eff => exact (notifyLoop_facts eff _ h (inv_trim hi)).1

theorem inv_run {s s' : BState} (hi : s.Inv) {es : List BEvent} {outs : List (List Nat)}
    (h : BEvent.run s es = some (s', outs)) : s'.Inv := by
  induction es generalizing s outs with
  | nil =>
    simp only [BEvent.run, Option.some.injEq, Prod.mk.injEq] at h
    rw [← h.1]; exact hi
  | cons e es ih =>
    obtain ⟨⟨s1, cs⟩, h1, h2⟩ := Option.bind_eq_some_iff.1 h
    obtain ⟨⟨s2, rest⟩, h3, h4⟩ := Option.map_eq_some_iff.1 h2
    simp only [Prod.mk.injEq] at h4
    obtain ⟨rfl, -⟩ := h4
    exact ih (inv_event hi h1) h3

theorem inv_init (n : Nat) : (init n).Inv := by
  have : ∀ id, ¬ Owned (init n) id := by
    intro id h
    rcases h with h | ⟨l, hl, h⟩
    · simp [init] at h
    · simp only [init, List.mem_replicate] at hl
      rw [hl.2] at h
      simp at h
  exact ⟨by simp [init], fun id h => absurd h (this id), fun id h => absurd h (this id)⟩

end BState

open BState

/-- C14. After every history, a notification whose callbacks do not touch tokens calls exactly the
registered callbacks whose token is still owned by somebody, each once, in registration order. -/
theorem notify_calls_owned (n : Nat) (es : List BEvent) (s : BState) (outs : List (List Nat))
    (h : BEvent.run (init n) es = some (s, outs)) :
    ∃ s', s.notify (fun _ => []) = some (s', (List.range s.next).filter fun id => Owned s id) := by
  have hi := inv_run (inv_init n) h
  refine ⟨s.trim, ?_⟩
  unfold notify
  simp only
  rw [notifyLoop_pure]
  congr 2
  have e1 : s.trim.weak.filter s.trim.locked = s.weak.filter s.locked := by
    show (s.weak.filter s.locked).filter s.locked = _
    simp
  rw [e1]
  have e2 : (fun id => decide (Owned s id)) = s.locked := by
    funext id
    have := locked_iff s id
    cases hl : s.locked id <;> simp_all
  rw [e2]
  have hnd : (s.weak.filter s.locked).Sublist ((List.range s.next).filter s.locked) :=
    hi.sub.filter _
  apply hnd.eq_of_length
  apply Nat.le_antisymm hnd.length_le
  apply List.Subperm.length_le
  refine List.Nodup.subperm (List.Nodup.filter _ List.nodup_range) ?_
  intro id hid
  obtain ⟨-, h2⟩ := List.mem_filter.1 hid
  exact List.mem_filter.2 ⟨hi.owned id ((locked_iff s id).1 h2), h2⟩

/-- C14. Also when callbacks drop, copy or unsubscribe tokens during the notification: the calls are
in registration order, each callback is called at most once, only callbacks owned at the beginning
are called, and every callback owned until the end is called. -/
theorem notify_calls_with_effects (n : Nat) (es : List BEvent) (s s' : BState)
    (outs : List (List Nat)) (h : BEvent.run (init n) es = some (s, outs))
    (eff : Nat → List BOp) (calls : List Nat) (hn : s.notify eff = some (s', calls)) :
    calls.Pairwise (· < ·) ∧ (∀ id ∈ calls, id < s.next ∧ Owned s id) ∧
      (∀ id, Owned s' id → id ∈ calls) ∧ (∀ id, Owned s' id → Owned s id) := by
  have hi := inv_run (inv_init n) h
  obtain ⟨-, -, h3, h4, h5, h6⟩ := notifyLoop_facts eff _ hn (inv_trim hi)
  refine ⟨?_, fun id hid => ⟨hi.lt id (h5 id hid), h5 id hid⟩, fun id ho => ?_, h3⟩
  · exact List.Pairwise.sublist (h4.trans (inv_trim hi).sub) List.pairwise_lt_range
  · exact h6 id ((inv_trim hi).owned id (h3 id ho)) ho

/-- C14, a callback that registers a listener on the notifying broadcaster is undefined behaviour as
soon as it is called (the vector grows while it is iterated). -/
theorem notify_register_inside_undefined (n : Nat) (es : List BEvent) (s : BState)
    (outs : List (List Nat)) (h : BEvent.run (init n) es = some (s, outs)) (id : Nat)
    (hid : Owned s id) (hfirst : ∀ j, Owned s j → id ≤ j) (eff : Nat → List BOp)
    (he : BOp.register ∈ eff id) : s.notify eff = none := by
  have hi := inv_run (inv_init n) h
  have hit := inv_trim hi
  have hsort : s.trim.weak.Pairwise (· < ·) :=
    List.Pairwise.sublist hit.sub List.pairwise_lt_range
  have hmem := hit.owned id hid
  unfold notify
  simp only
  cases hw : s.trim.weak with
  | nil => rw [hw] at hmem; simp at hmem
  | cons j ids =>
    have hj : Owned s j := by
      have : j ∈ s.trim.weak := by rw [hw]; simp
      exact (locked_iff s j).1 (List.mem_filter.1 this).2
    have : j = id := by
      have h1 := hfirst j hj
      rw [hw] at hmem hsort
      rcases List.mem_cons.1 hmem with h | h
      · exact h.symm
      · have := (List.pairwise_cons.1 hsort).1 id h; omega
    subst this
    simp only [notifyLoop]
    rw [if_pos ((locked_iff s.trim j).2 hid), if_pos]
    exact List.any_eq_true.2 ⟨_, he, rfl⟩

/-- C14. A callback whose last token is gone is never called again, whatever happens later. -/
theorem dead_never_called (n : Nat) (es : List BEvent) (s : BState) (outs : List (List Nat))
    (h : BEvent.run (init n) es = some (s, outs)) (id : Nat) (hreg : id < s.next)
    (hdead : ¬ Owned s id) (later : List BEvent) (s' : BState) (outs' : List (List Nat))
    (h' : BEvent.run s later = some (s', outs')) : ¬ Owned s' id ∧ ∀ calls ∈ outs', id ∉ calls := by
  have hi := inv_run (inv_init n) h
  clear h
  induction later generalizing s outs' with
  | nil =>
    simp only [BEvent.run, Option.some.injEq, Prod.mk.injEq] at h'
    obtain ⟨rfl, rfl⟩ := h'
    exact ⟨hdead, by simp⟩
  | cons e es ih =>
    obtain ⟨⟨s1, cs⟩, h1, h2⟩ := Option.bind_eq_some_iff.1 h'
    obtain ⟨⟨s2, rest⟩, h3, h4⟩ := Option.map_eq_some_iff.1 h2
    simp only [Prod.mk.injEq] at h4
    obtain ⟨rfl, rfl⟩ := h4
    have hi1 := inv_event hi h1
    have step : id < s1.next ∧ ¬ Owned s1 id ∧ id ∉ cs := by
      cases e with
      | op o =>
        obtain ⟨s1', g1, g2⟩ := Option.map_eq_some_iff.1 h1
        simp only [Prod.mk.injEq] at g2
        obtain ⟨rfl, rfl⟩ := g2
        have hw := step_weak s s1' o g1
        refine ⟨?_, ?_, by simp⟩
        · split at hw <;> omega
        · intro ho
          rcases step_owned s s1' o g1 id ho with h | ⟨-, h⟩
          · exact hdead h
          · omega
      | notify eff =>
        obtain ⟨-, g2, g3, -, g5, -⟩ := notifyLoop_facts eff _ h1 (inv_trim hi)
        exact ⟨by rw [g2]; exact hreg, fun ho => hdead (g3 id ho), fun hm => hdead (g5 id hm)⟩
    obtain ⟨i1, i2⟩ := ih s1 step.1 step.2.1 rest h3 hi1
    refine ⟨i1, fun calls hc => ?_⟩
    rcases List.mem_cons.1 hc with rfl | hc
    · exact step.2.2
    · exact i2 calls hc

/-! ### Unregistering -/

/-- C15 in full: after `unregisterListener(token)` or `unSubscribe(token)` the callback is not
called by the next notification. -/
def Spec.UnregisterStops : Prop :=
  ∀ (n : Nat) (es : List BEvent) (s s1 s2 : BState) (outs : List (List Nat)) (id : Nat)
    (calls : List Nat) (op : BOp), BEvent.run (init n) es = some (s, outs) →
    (op = .unregister id ∨ ∃ l, op = .unSubscribe l id) → op.step s = some s1 →
    s1.notify (fun _ => []) = some (s2, calls) → id ∉ calls

/-- C15 is false of the code: `unregisterListener(token)` resets its copy of the token, the
callback is still called. -/
theorem unregister_does_not_stop : ¬ Spec.UnregisterStops := by
  intro h
  have := h 0 [.op .register] _ _ _ _ 0 _ (.unregister 0) rfl (Or.inl rfl) rfl rfl
  exact absurd this (by decide)

/-- C15, more precisely `unregisterListener(token)` never stops delivery: for every history in which
user code holds the token, the callback is called by the next notification. -/
theorem unregister_never_stops (n : Nat) (es : List BEvent) (s s1 : BState)
    (outs : List (List Nat)) (h : BEvent.run (init n) es = some (s, outs)) (id : Nat)
    (hs : s.unregisterListener id = some s1) :
    ∃ s2 calls, s1.notify (fun _ => []) = some (s2, calls) ∧ id ∈ calls := by
  have hi := inv_run (inv_init n) h
  have h1 : BEvent.run (init n) (es ++ [.op (.unregister id)]) = some (s1, outs ++ [[]]) := by
    have key : ∀ (es : List BEvent) (s0 : BState) (outs : List (List Nat)),
        BEvent.run s0 es = some (s, outs) →
        BEvent.run s0 (es ++ [.op (.unregister id)]) = some (s1, outs ++ [[]]) := by
      intro es
      induction es with
      | nil =>
        intro s0 outs h0
        simp only [BEvent.run, Option.some.injEq, Prod.mk.injEq] at h0
        obtain ⟨rfl, rfl⟩ := h0
        simp [BEvent.run, BEvent.step, BOp.step, hs]
      | cons e es ih =>
        intro s0 outs h0
        obtain ⟨⟨s1', cs⟩, g1, g2⟩ := Option.bind_eq_some_iff.1 h0
        obtain ⟨⟨s2', rest⟩, g3, g4⟩ := Option.map_eq_some_iff.1 g2
        simp only [Prod.mk.injEq] at g4
        obtain ⟨rfl, rfl⟩ := g4
        simp [BEvent.run, g1, ih s1' rest g3]
    exact key es _ _ h
  obtain ⟨s2, h2⟩ := notify_calls_owned n _ s1 _ h1
  have howned : Owned s1 id := by
    simp only [unregisterListener, copyToken, dropToken] at hs
    split at hs
    · rename_i hk
      simp only [Option.bind_some] at hs
      split at hs
      · simp only [Option.some.injEq] at hs
        subst hs
        left
        have : (s.user ++ [id]).count id = s.user.count id + 1 := by simp
        have hpos := List.count_pos_iff.2 hk
        have : 0 < ((s.user ++ [id]).erase id).count id := by
          rw [List.count_erase_self]; omega
        exact List.count_pos_iff.1 this
      · exact absurd hs (by simp)
    · exact absurd hs (by simp)
  have hi1 := inv_run (inv_init n) h1
  exact ⟨s2, _, h2, List.mem_filter.2 ⟨List.mem_range.2 (hi1.lt id howned), by simpa using howned⟩⟩

/-- Two registered callbacks of which the first is dropped, and the theorems for this history. -/
example : ∃ s outs, BEvent.run (init 0) [.op .register, .op .register, .op (.drop 0)] = some (s, outs) ∧
    (∃ s', s.notify (fun _ => []) = some (s', [1])) ∧ s.notify (fun _ => [.register]) = none ∧
    (∀ later s' outs', BEvent.run s later = some (s', outs') → ∀ calls ∈ outs', 0 ∉ calls) ∧
    ∃ s1, s.unregisterListener 1 = some s1 ∧ ∃ s2 calls, s1.notify (fun _ => []) = some (s2, calls) ∧ 1 ∈ calls := by
  obtain ⟨s, outs, h⟩ : ∃ s outs, BEvent.run (init 0) [.op .register, .op .register, .op (.drop 0)] = some (s, outs) := ⟨_, _, rfl⟩
  have h' := h
  cases h'
  refine ⟨_, _, h, ?_, ?_, fun later s' outs' hl => ?_, ?_⟩
  · obtain ⟨s', hs'⟩ := notify_calls_owned _ _ _ _ h
    exact ⟨s', hs'⟩
  · exact notify_register_inside_undefined _ _ _ _ h 1 (by decide) (fun j hj => by
      by_contra hlt
      obtain rfl : j = 0 := by omega
      exact absurd hj (by decide)) _ (by simp)
  · exact (dead_never_called _ _ _ _ h 0 (by decide) (by decide) later s' outs' hl).2
  · exact ⟨_, rfl, unregister_never_stops _ _ _ _ _ h 1 rfl⟩

/-- C15, partial: `unSubscribe(token)`, `unSubscribeAll()`, `unSubscribeLast()`, dropping or moving
the token away stop delivery for good if no other copy of the token exists.
Missing: the case that other copies exist (then delivery goes on). -/
theorem unsubscribe_stops_partial (n : Nat) (es : List BEvent) (s s1 : BState)
    (outs : List (List Nat)) (h : BEvent.run (init n) es = some (s, outs)) (id : Nat) (op : BOp)
    (hreg : id < s.next) (hone : copies s id = 1)
    (hop : op = .drop id ∨ op = .unregisterMove id ∨
      ∃ l ts, s.listenerTokens[l]? = some ts ∧ id ∈ ts ∧
        (op = .unSubscribe l id ∨ op = .unSubscribeAll l ∨
          (op = .unSubscribeLast l ∧ ts.getLast? = some id)))
    (hs : op.step s = some s1) (later : List BEvent) (s' : BState) (outs' : List (List Nat))
    (h' : BEvent.run s1 later = some (s', outs')) : ∀ calls ∈ outs', id ∉ calls := by
  have hsum : ∀ (L : List (List Nat)) (l : Nat) (ts ts' : List Nat), L[l]? = some ts →
      ((L.set l ts').map fun x => x.count id).sum + ts.count id
        = (L.map fun x => x.count id).sum + ts'.count id := by
    intro L
    induction L with
    | nil => intro l ts ts' hl; simp at hl
    | cons a L ih =>
      intro l ts ts' hl
      cases l with
      | zero =>
        simp only [List.getElem?_cons_zero, Option.some.injEq] at hl
        subst hl
        simp; omega
      | succ l =>
        simp only [List.getElem?_cons_succ] at hl
        have := ih l ts ts' hl
        simp only [List.set_cons_succ, List.map_cons, List.sum_cons]
        omega
  have hdead : copies s1 id = 0 := by
    unfold copies at hone ⊢
    rcases hop with rfl | rfl | ⟨l, ts, hl, hm, hop⟩
    · simp only [BOp.step, dropToken] at hs
      split at hs
      · rename_i hk
        simp only [Option.some.injEq] at hs
        subst hs
        simp only [List.count_erase_self]
        have := List.count_pos_iff.2 hk
        omega
      · exact absurd hs (by simp)
    · simp only [BOp.step, unregisterListenerMove, dropToken] at hs
      split at hs
      · rename_i hk
        simp only [Option.some.injEq] at hs
        subst hs
        simp only [List.count_erase_self]
        have := List.count_pos_iff.2 hk
        omega
      · exact absurd hs (by simp)
    · have hpos := List.count_pos_iff.2 hm
      rcases hop with rfl | rfl | ⟨rfl, hlast⟩
      · simp only [BOp.step, unSubscribe, hl, Option.map_some, Option.some.injEq] at hs
        subst hs
        have := hsum s.listenerTokens l ts (ts.erase id) hl
        rw [List.count_erase_self] at this
        simp only
        omega
      · simp only [BOp.step, unSubscribeAll, hl, Option.map_some, Option.some.injEq] at hs
        subst hs
        have := hsum s.listenerTokens l ts [] hl
        simp only [List.count_nil] at this
        simp only
        omega
      · simp only [BOp.step, unSubscribeLast, hl, Option.map_some, Option.some.injEq] at hs
        subst hs
        have := hsum s.listenerTokens l ts ts.dropLast hl
        have hts : ts = ts.dropLast ++ [id] := by
          have hne : ts ≠ [] := by rintro rfl; simp at hm
          rw [List.getLast?_eq_some_getLast hne, Option.some.injEq] at hlast
          rw [← hlast, List.dropLast_append_getLast]
        have hc : ts.count id = ts.dropLast.count id + 1 := by
          conv_lhs => rw [hts]
          simp
        simp only
        omega
  have hi := inv_run (inv_init n) h
  have hw := step_weak s s1 op hs
  have hrun : ∃ outs1, BEvent.run (init n) (es ++ [.op op]) = some (s1, outs1) := by
    have key : ∀ (es : List BEvent) (s0 : BState) (outs : List (List Nat)),
        BEvent.run s0 es = some (s, outs) →
        BEvent.run s0 (es ++ [.op op]) = some (s1, outs ++ [[]]) := by
      intro es
      induction es with
      | nil =>
        intro s0 outs h0
        simp only [BEvent.run, Option.some.injEq, Prod.mk.injEq] at h0
        obtain ⟨rfl, rfl⟩ := h0
        simp [BEvent.run, BEvent.step, hs]
      | cons e es ih =>
        intro s0 outs h0
        obtain ⟨⟨s1', cs⟩, g1, g2⟩ := Option.bind_eq_some_iff.1 h0
        obtain ⟨⟨s2', rest⟩, g3, g4⟩ := Option.map_eq_some_iff.1 g2
        simp only [Prod.mk.injEq] at g4
        obtain ⟨rfl, rfl⟩ := g4
        simp [BEvent.run, g1, ih s1' rest g3]
    exact ⟨_, key es _ _ h⟩
  obtain ⟨outs1, hrun⟩ := hrun
  refine (dead_never_called n _ s1 outs1 hrun id ?_ ?_ later s' outs' h').2
  · split at hw <;> omega
  · rw [owned_iff_copies]; simpa using hdead

/-! Concrete histories. -/

section Example

example : (BEvent.run (init 1) [.op .register, .op (.subscribe 0), .op .register,
    .notify (fun _ => []), .op (.drop 0), .notify (fun _ => []), .op (.drop 1),
    .op (.unSubscribe 0 1), .notify (fun _ => []), .op (.unregister 2),
    .notify (fun _ => [])]).map (·.2)
    = some [[], [], [], [0, 1, 2], [], [1, 2], [], [], [2], [], [2]] := by decide

/-- A callback that drops the token of a later one prevents its call. -/
example : (BEvent.run (init 0) [.op .register, .op .register, .op .register,
    .notify (fun id => if id = 0 then [.drop 1] else [])]).map (·.2)
    = some [[], [], [], [0, 2]] := by decide

example : (BEvent.run (init 0) [.op .register, .notify (fun _ => [.register])]).isNone = true := by
  decide

end Example

end Ikarus
