import Verif.Broadcast.LifetimeModel
import Mathlib.Data.List.Basic
import Mathlib.Data.List.Nodup
import Mathlib.Data.List.Sort

/-!
Property C84: messages reach the listeners that subscribed, with the lifetimes of the objects.
-/

namespace Ikarus.Lifetime

/-! ### Specification -/

namespace Spec

/-- The last element that satisfies `p` is removed. -/
def eraseLast {α : Type} (p : α → Bool) : List α → List α
  | [] => []
  | x :: l => if l.any p then x :: eraseLast p l else if p x then l else x :: l

/-- What exists, and who is subscribed to which broadcasters, in the order of the subscriptions. -/
structure World where
  live : Nat → Bool
  liveBc : Nat → Bool
  subs : List (Nat × (Nat → Bool))

def World.init : World := ⟨fun _ => false, fun _ => false, []⟩

/-- What should happen in programs that do not copy or move listeners and do not keep tokens; `none` if an object is used that does not
exist, or if the program does one of these. -/
def World.step (w : World) : Op → Option (World × List Nat)
  | .construct a => if w.live a then none else some ({ w with live := set w.live a true }, [])
  | .destroy a => if w.live a then
      some ({ w with live := set w.live a false, subs := w.subs.filter fun e => e.1 ≠ a }, []) else none
  | .subscribeTo a c | .feSubscribeTo a c => if w.live a && w.liveBc c then
      some ({ w with subs := w.subs ++ [(a, fun x => decide (x = c))] }, []) else none
  | .unSubscribeAll a => if w.live a then some ({ w with subs := w.subs.filter fun e => e.1 ≠ a }, []) else none
  | .unSubscribeLast a => if w.live a then some ({ w with subs := eraseLast (fun e => decide (e.1 = a)) w.subs }, []) else none
  | .bcConstruct c => if w.liveBc c then none else some ({ w with liveBc := set w.liveBc c true }, [])
  | .bcCopy c c' => if w.liveBc c then
      some ({ w with liveBc := set w.liveBc c' true, subs := w.subs.map fun e => (e.1, set e.2 c' (e.2 c)) }, []) else none
  | .bcMove c c' => if w.liveBc c && decide (c ≠ c') then
      some ({ w with liveBc := set w.liveBc c' true, subs := w.subs.map fun e => (e.1, set (set e.2 c' (e.2 c)) c false) }, []) else none
  | .bcDestroy c => if w.liveBc c then
      some ({ w with liveBc := set w.liveBc c false, subs := w.subs.map fun e => (e.1, set e.2 c false) }, []) else none
  | .notify c => if w.liveBc c then some (w, (w.subs.filter fun e => e.2 c).map (·.1)) else none
  | .copy _ _ | .move _ _ | .subscribeKeep _ _ | .dropToken _ => none

def World.run (w : World) : List Op → Option (World × List (List Nat))
  | [] => some (w, [])
  | op :: ops => (w.step op).bind fun p => (run p.1 ops).map fun q => (q.1, p.2 :: q.2)

/-- The claim that a listener can be copied: a program in which only the copy is kept is defined. -/
def CopyDefined : Prop :=
  ∀ (s : State) (outs : List (List Nat)) (ops : List Op) (w : World) (a b c : Nat), World.init.run ops = some (w, outs) →
    State.init.run ops = some (s, outs) → w.live a = true → w.live b = false → w.liveBc c = true →
    (s.run [.copy a b, .destroy a, .notify c]).isSome

/-- The claim that a control routine updates every element once, whatever was made before with the same solver. -/
def Once : Prop :=
  ∀ (ops : List Op) (w : World) (outs : List (List Nat)) (fes : List Nat) (c : Nat), World.init.run ops = some (w, outs) →
    fes.Nodup → (∀ a ∈ fes, w.live a = true) → w.liveBc c = true →
    ∃ s called, State.init.run (ops ++ createControlRoutine fes c ++ [.notify c]) = some (s, called) ∧
      ∀ a ∈ fes, ((called.getLast?).getD []).count a = 1

end Spec

/-! ### The relation between the program and the specification -/

/-- Whether the token `t` is registered at the broadcaster `c`. -/
def State.registered (s : State) (t c : Nat) : Bool := decide (t ∈ (s.bcs c).getD [])

/-- `A` are the tokens whose callback exists. -/
structure Rel (s : State) (w : Spec.World) (A : List Nat) : Prop where
  sortedA : A.Pairwise (· < ·)
  ltA : ∀ t ∈ A, t < s.next
  sortedW : ∀ c l, s.bcs c = some l → l.Pairwise (· < ·) ∧ ∀ t ∈ l, t < s.next
  owners : ∀ t, s.owners t = if t ∈ A then 1 else 0
  objs : ∀ a ts, s.objs a = some ts → ts = A.filter fun t => decide (s.target t = a)
  target : ∀ t ∈ A, (s.objs (s.target t)).isSome = true
  live : ∀ a, w.live a = (s.objs a).isSome
  liveBc : ∀ c, w.liveBc c = (s.bcs c).isSome
  subs : w.subs = A.map fun t => (s.target t, s.registered t)

theorem rel_init : Rel State.init Spec.World.init [] where
  sortedA := List.Pairwise.nil
  ltA := by simp
  sortedW := by simp [State.init]
  owners := by simp [State.init]
  objs := by simp [State.init]
  target := by simp
  live := by simp [State.init, Spec.World.init]
  liveBc := by simp [State.init, Spec.World.init]
  subs := rfl

theorem eq_of_sorted {l l' : List Nat} (h : l.Pairwise (· < ·)) (h' : l'.Pairwise (· < ·)) (hm : ∀ t, t ∈ l ↔ t ∈ l') : l = l' := by
  have n : l.Nodup := h.imp fun hab => Nat.ne_of_lt hab
  have n' : l'.Nodup := h'.imp fun hab => Nat.ne_of_lt hab
  exact ((List.perm_ext_iff_of_nodup n n').2 hm).eq_of_pairwise (fun a b _ _ hab hba => absurd hab (Nat.lt_asymm hba)) h h'

theorem eraseLast_sublist {α : Type} (p : α → Bool) (l : List α) : (Spec.eraseLast p l).Sublist l := by
  induction l with
  | nil => exact List.Sublist.slnil
  | cons x l ih =>
    simp only [Spec.eraseLast]
    split
    · exact ih.cons₂ x
    · split
      · exact List.sublist_cons_self x l
      · exact List.Sublist.refl _

theorem eraseLast_map {α β : Type} (f : α → β) (p : β → Bool) (l : List α) :
    Spec.eraseLast p (l.map f) = (Spec.eraseLast (fun x => p (f x)) l).map f := by
  induction l with
  | nil => rfl
  | cons x l ih =>
    simp only [List.map_cons, Spec.eraseLast, List.any_map, ih, Function.comp_def]
    split
    · rfl
    · split <;> rfl

theorem any_eraseLast_filter {α : Type} (p : α → Bool) (l : List α) :
    (Spec.eraseLast p l).filter p = (l.filter p).dropLast := by
  induction l with
  | nil => rfl
  | cons x l ih =>
    simp only [Spec.eraseLast]
    by_cases h : l.any p = true
    · rw [if_pos h]
      have hne : l.filter p ≠ [] := by
        obtain ⟨y, hy, hp⟩ := List.any_eq_true.1 h
        exact List.ne_nil_of_mem (List.mem_filter.2 ⟨hy, hp⟩)
      by_cases hx : p x = true
      · rw [List.filter_cons_of_pos hx, List.filter_cons_of_pos hx, ih, List.dropLast_cons_of_ne_nil hne]
      · rw [List.filter_cons_of_neg hx, List.filter_cons_of_neg hx, ih]
    · rw [if_neg h]
      have hnil : l.filter p = [] := by
        rw [List.filter_eq_nil_iff]
        intro y hy hp
        exact h (List.any_eq_true.2 ⟨y, hy, hp⟩)
      by_cases hx : p x = true
      · rw [if_pos hx, List.filter_cons_of_pos hx, hnil]; rfl
      · rw [if_neg hx, List.filter_cons_of_neg hx, hnil]; rfl

theorem eraseLast_filter_other {α : Type} (p q : α → Bool) (h : ∀ x, q x = true → p x = false) (l : List α) :
    (Spec.eraseLast p l).filter q = l.filter q := by
  induction l with
  | nil => rfl
  | cons x l ih =>
    simp only [Spec.eraseLast]
    split
    · rw [List.filter_cons, List.filter_cons, ih]
    · split
      · rename_i hx
        rw [List.filter_cons_of_neg]
        intro hq
        rw [h x hq] at hx
        cases hx
      · rfl

theorem mem_eraseLast {A : List Nat} (hn : A.Nodup) (p : Nat → Bool) (t : Nat) :
    t ∈ Spec.eraseLast p A ↔ t ∈ A ∧ t ∉ (A.filter p).drop ((A.filter p).length - 1) := by
  have hsplit : A.filter p = (A.filter p).dropLast ++ (A.filter p).drop ((A.filter p).length - 1) := by
    rw [List.dropLast_eq_take]
    exact (List.take_append_drop _ _).symm
  have hnf : (A.filter p).Nodup := hn.filter p
  by_cases hp : p t = true
  · have h1 : t ∈ Spec.eraseLast p A ↔ t ∈ (A.filter p).dropLast := by
      rw [← any_eraseLast_filter, List.mem_filter]; simp [hp]
    have h2 : t ∈ A ↔ t ∈ A.filter p := by simp [List.mem_filter, hp]
    rw [h1, h2]
    rw [hsplit] at hnf
    have hd := (List.nodup_append.1 hnf).2.2
    constructor
    · intro h
      exact ⟨List.dropLast_subset _ h, fun h' => hd t h t h' rfl⟩
    · rintro ⟨h, h'⟩
      rw [hsplit] at h
      exact (List.mem_append.1 h).resolve_right h'
  · have h1 : t ∈ Spec.eraseLast p A ↔ t ∈ A := by
      have := eraseLast_filter_other p (fun x => !p x) (by simp) A
      have h2 : t ∈ (Spec.eraseLast p A).filter (fun x => !p x) ↔ t ∈ A.filter fun x => !p x := by rw [this]
      simpa [List.mem_filter, hp] using h2
    rw [h1]
    refine ⟨fun h => ⟨h, fun h' => ?_⟩, fun h => h.1⟩
    have := List.mem_of_mem_drop h'
    exact hp (List.mem_filter.1 this).2

theorem count_filter {A : List Nat} (hn : A.Nodup) (p : Nat → Bool) (t : Nat) :
    (A.filter p).count t = if t ∈ A ∧ p t = true then 1 else 0 := by
  by_cases h : t ∈ A ∧ p t = true
  · rw [if_pos h, List.count_eq_one_of_mem (hn.filter p) (List.mem_filter.2 h)]
  · rw [if_neg h, List.count_eq_zero]
    rwa [List.mem_filter]

theorem Rel.nodup {s : State} {w : Spec.World} {A : List Nat} (h : Rel s w A) : A.Nodup := h.sortedA.imp fun hab => Nat.ne_of_lt hab

theorem notifyLoop_eq {s : State} {l : List Nat} (h : ∀ t ∈ l, s.owners t ≠ 0 ∧ (s.objs (s.target t)).isSome = true) :
    s.notifyLoop l = some (l.map s.target) := by
  induction l with
  | nil => rfl
  | cons t l ih =>
    have ht := h t List.mem_cons_self
    obtain ⟨ts, hts⟩ := Option.isSome_iff_exists.1 ht.2
    rw [State.notifyLoop, if_pos ht.1, hts, ih fun t' ht' => h t' (List.mem_cons_of_mem _ ht')]
    rfl

/-- Removing tokens of one listener. -/
theorem Rel.remove {s : State} {w : Spec.World} {A : List Nat} (h : Rel s w A) (a : Nat) (drop : List Nat) (new : Option (List Nat))
    (A' : List Nat) (hA' : A'.Sublist A) (hmem : ∀ t, t ∈ A' ↔ t ∈ A ∧ t ∉ drop) (hdrop : ∀ t ∈ drop, t ∈ A) (hnd : drop.Nodup)
    (hnew : ∀ ts, new = some ts → ts = A'.filter fun t => decide (s.target t = a))
    (hother : ∀ b, b ≠ a → A'.filter (fun t => decide (s.target t = b)) = A.filter fun t => decide (s.target t = b))
    (hnone : new = none → ∀ t ∈ A', s.target t ≠ a)
    (w' : Spec.World) (hlive : ∀ b, w'.live b = if b = a then new.isSome else w.live b) (hlb : w'.liveBc = w.liveBc)
    (hsubs : w'.subs = A'.map fun t => (s.target t, s.registered t)) :
    Rel { s.release drop with objs := set s.objs a new } w' A' where
  sortedA := h.sortedA.sublist hA'
  ltA := fun t ht => h.ltA t (hA'.subset ht)
  sortedW := h.sortedW
  owners := by
    intro t
    show s.owners t - drop.count t = _
    rw [h.owners]
    by_cases hd : t ∈ drop
    · rw [List.count_eq_one_of_mem hnd hd, if_pos (hdrop t hd), if_neg fun hh => ((hmem t).1 hh).2 hd]
    · rw [List.count_eq_zero.2 hd]
      by_cases ht : t ∈ A
      · rw [if_pos ht, if_pos ((hmem t).2 ⟨ht, hd⟩)]
      · rw [if_neg ht, if_neg fun hh => ht (hA'.subset hh)]
  objs := by
    intro b ts hb
    by_cases hba : b = a
    · subst hba
      apply hnew
      simpa [set] using hb
    · have : s.objs b = some ts := by simpa [set, hba] using hb
      rw [h.objs b ts this]
      exact (hother b hba).symm
  target := by
    intro t ht
    show (set s.objs a new (s.target t)).isSome = true
    by_cases hta : s.target t = a
    · rw [set, if_pos hta]
      cases hn : new with
      | none => exact absurd hta (hnone hn t ht)
      | some _ => rfl
    · rw [set, if_neg hta]
      exact h.target t (hA'.subset ht)
  live := by
    intro b
    rw [hlive]
    show _ = (set s.objs a new b).isSome
    by_cases hba : b = a
    · rw [if_pos hba, set, if_pos hba]
    · rw [if_neg hba, set, if_neg hba, h.live]
  liveBc := by rw [hlb]; exact h.liveBc
  subs := hsubs

/-- Changes of the broadcasters. -/
theorem Rel.rebind {s : State} {w : Spec.World} {A : List Nat} (h : Rel s w A) (bcs : Nat → Option (List Nat))
    (hb : ∀ c l, bcs c = some l → l.Pairwise (· < ·) ∧ ∀ t ∈ l, t < s.next) (w' : Spec.World) (hl : w'.live = w.live)
    (hlb : ∀ c, w'.liveBc c = (bcs c).isSome) (hsubs : w'.subs = A.map fun t => (s.target t, fun c => decide (t ∈ (bcs c).getD []))) :
    Rel { s with bcs := bcs } w' A where
  sortedA := h.sortedA
  ltA := h.ltA
  sortedW := hb
  owners := h.owners
  objs := h.objs
  target := h.target
  live := by rw [hl]; exact h.live
  liveBc := hlb
  subs := hsubs

theorem rel_subscribe {s : State} {w : Spec.World} {A : List Nat} (h : Rel s w A) (a c : Nat) (ha : w.live a = true)
    (hc : w.liveBc c = true) :
    ∃ s', s.subscribe a c = some s' ∧
      Rel s' { w with subs := w.subs ++ [(a, fun x => decide (x = c))] } (A ++ [s.next]) := by
  rw [h.live] at ha
  rw [h.liveBc] at hc
  obtain ⟨ts, hts⟩ := Option.isSome_iff_exists.1 ha
  obtain ⟨l, hl⟩ := Option.isSome_iff_exists.1 hc
  have hnot : s.next ∉ A := fun hh => Nat.lt_irrefl _ (h.ltA _ hh)
  have htgt : ∀ t ∈ A, set s.target s.next a t = s.target t := by
    intro t ht
    rw [set, if_neg (Nat.ne_of_lt (h.ltA t ht))]
  refine ⟨_, by rw [State.subscribe, hts, hl], ?_, ?_, ?_, ?_, ?_, ?_, ?_, ?_, ?_⟩
  · rw [List.pairwise_append]
    exact ⟨h.sortedA, List.pairwise_singleton _ _, fun x hx y hy => by rw [List.mem_singleton.1 hy]; exact h.ltA x hx⟩
  · intro t ht
    rcases List.mem_append.1 ht with ht | ht
    · exact Nat.lt_succ_of_lt (h.ltA t ht)
    · rw [List.mem_singleton.1 ht]; exact Nat.lt_succ_self _
  · intro c' l' hl'
    simp only [set] at hl'
    split at hl'
    · obtain rfl := Option.some.inj hl'
      obtain ⟨p1, p2⟩ := h.sortedW c l hl
      refine ⟨?_, ?_⟩
      · rw [List.pairwise_append]
        exact ⟨p1, List.pairwise_singleton _ _, fun x hx y hy => by rw [List.mem_singleton.1 hy]; exact p2 x hx⟩
      · intro t ht
        rcases List.mem_append.1 ht with ht | ht
        · exact Nat.lt_succ_of_lt (p2 t ht)
        · rw [List.mem_singleton.1 ht]; exact Nat.lt_succ_self _
    · obtain ⟨p1, p2⟩ := h.sortedW c' l' hl'
      exact ⟨p1, fun t ht => Nat.lt_succ_of_lt (p2 t ht)⟩
  · intro t
    simp only [set]
    by_cases ht : t = s.next
    · rw [if_pos ht, if_pos (by rw [ht]; simp)]
    · rw [if_neg ht, h.owners]
      simp [ht]
  · intro b ts' hb
    simp only [set] at hb
    rw [List.filter_append]
    have hf : A.filter (fun t => decide (set s.target s.next a t = b)) = A.filter fun t => decide (s.target t = b) :=
      List.filter_congr fun t ht => by rw [htgt t ht]
    rw [hf]
    split at hb
    · rename_i hba
      subst hba
      obtain rfl := Option.some.inj hb
      rw [h.objs _ _ hts]
      simp [set]
    · rename_i hba
      rw [h.objs _ _ hb]
      simp [set, Ne.symm hba]
  · intro t ht
    rcases List.mem_append.1 ht with ht | ht
    · show (set s.objs a (some (ts ++ [s.next])) (set s.target s.next a t)).isSome = true
      rw [htgt t ht, set]
      split
      · rfl
      · exact h.target t ht
    · rw [List.mem_singleton.1 ht]; simp [set]
  · intro b
    simp only [set]
    split
    · rename_i hba; rw [hba, h.live, hts]; rfl
    · exact h.live b
  · intro b
    simp only [set]
    split
    · rename_i hba; rw [hba, h.liveBc, hl]; rfl
    · exact h.liveBc b
  · rw [List.map_append]
    show w.subs ++ _ = _
    rw [h.subs]
    congr 1
    · refine List.map_congr_left fun t ht => ?_
      simp only [Prod.mk.injEq]
      refine ⟨(htgt t ht).symm, funext fun c' => ?_⟩
      simp only [State.registered, set]
      split
      · rename_i hcc
        rw [hcc, hl]
        simp [Nat.ne_of_lt (h.ltA t ht)]
      · rfl
    · simp only [List.map_cons, List.map_nil, List.cons.injEq, Prod.mk.injEq, and_true]
      refine ⟨by simp [set], funext fun c' => ?_⟩
      simp only [State.registered, set]
      by_cases hcc : c' = c
      · simp [hcc]
      · have hnot' : s.next ∉ (s.bcs c').getD [] := by
          cases hb : s.bcs c' with
          | none => simp
          | some l' => exact fun hh => Nat.lt_irrefl _ ((h.sortedW c' l' hb).2 _ hh)
        simp [hcc, hnot']

theorem rel_step {s : State} {w w' : Spec.World} {A : List Nat} (h : Rel s w A) {op : Op} {out : List Nat}
    (hs : w.step op = some (w', out)) : ∃ s' A', s.step op = some (s', out) ∧ Rel s' w' A' := by
  cases op with
  | construct a =>
    simp only [Spec.World.step] at hs
    split at hs
    · cases hs
    · rename_i hl
      cases hs
      rw [h.live] at hl
      have hn : s.objs a = none := by simpa using hl
      refine ⟨_, A, by rw [State.step, hn]; rfl, ?_⟩
      have hne : ∀ t ∈ A, s.target t ≠ a := by
        intro t ht e
        have := h.target t ht
        rw [e, hn] at this
        cases this
      have := h.remove a [] (some []) A (List.Sublist.refl _) (by simp) (by simp) List.nodup_nil
        (by
          intro ts hts
          cases hts
          symm
          rw [List.filter_eq_nil_iff]
          intro t ht
          simpa using hne t ht) (fun _ _ => rfl) (by simp) { w with live := set w.live a true }
        (by intro b; simp [set]) rfl h.subs
      simpa [State.release] using this
  | destroy a =>
    simp only [Spec.World.step] at hs
    split at hs
    · rename_i hl
      cases hs
      rw [h.live] at hl
      obtain ⟨ts, hts⟩ := Option.isSome_iff_exists.1 hl
      refine ⟨_, A.filter fun t => decide (s.target t ≠ a), by rw [State.step, hts], ?_⟩
      have e := h.objs a ts hts
      refine h.remove a ts none _ List.filter_sublist ?_ ?_ ?_ (by simp) ?_ ?_ _ ?_ rfl ?_
      · intro t
        rw [e]
        simp only [List.mem_filter, decide_eq_true_eq]
        tauto
      · intro t ht; rw [e] at ht; exact (List.mem_filter.1 ht).1
      · rw [e]; exact h.nodup.filter _
      · intro b hb
        rw [List.filter_filter]
        refine List.filter_congr fun t _ => ?_
        by_cases hh : s.target t = b
        · simp [hh, hb]
        · simp [hh]
      · intro _ t ht
        simpa using (List.mem_filter.1 ht).2
      · intro b; simp [set]
      · show w.subs.filter _ = _
        rw [h.subs, List.filter_map]
        rfl
    · cases hs
  | subscribeTo a c =>
    simp only [Spec.World.step] at hs
    split at hs
    · rename_i hl
      cases hs
      rw [Bool.and_eq_true] at hl
      obtain ⟨s', e, hr⟩ := rel_subscribe h a c hl.1 hl.2
      exact ⟨s', _, by rw [State.step, e]; rfl, hr⟩
    · cases hs
  | feSubscribeTo a c =>
    simp only [Spec.World.step] at hs
    split at hs
    · rename_i hl
      cases hs
      rw [Bool.and_eq_true] at hl
      obtain ⟨s', e, hr⟩ := rel_subscribe h a c hl.1 hl.2
      have hlive := hr.live a
      obtain ⟨ts, hts⟩ := Option.isSome_iff_exists.1 (hlive.symm.trans hl.1)
      refine ⟨s', _, ?_, hr⟩
      rw [State.step, e, Option.bind_some]
      simp only [hts, State.acquire, State.release, Nat.add_sub_cancel]
    · cases hs
  | unSubscribeAll a =>
    simp only [Spec.World.step] at hs
    split at hs
    · rename_i hl
      cases hs
      have hl' := hl
      rw [h.live] at hl
      obtain ⟨ts, hts⟩ := Option.isSome_iff_exists.1 hl
      refine ⟨_, A.filter fun t => decide (s.target t ≠ a), by rw [State.step, hts], ?_⟩
      have e := h.objs a ts hts
      refine h.remove a ts (some []) _ List.filter_sublist ?_ ?_ ?_ ?_ ?_ (by simp) _ ?_ rfl ?_
      · intro t
        rw [e]
        simp only [List.mem_filter, decide_eq_true_eq]
        tauto
      · intro t ht; rw [e] at ht; exact (List.mem_filter.1 ht).1
      · rw [e]; exact h.nodup.filter _
      · intro ts' hts'
        cases hts'
        symm
        rw [List.filter_eq_nil_iff]
        intro t ht
        simpa using (List.mem_filter.1 ht).2
      · intro b hb
        rw [List.filter_filter]
        refine List.filter_congr fun t _ => ?_
        by_cases hh : s.target t = b
        · simp [hh, hb]
        · simp [hh]
      · intro b
        by_cases hb : b = a
        · simp [hb, hl']
        · simp [hb]
      · show w.subs.filter _ = _
        rw [h.subs, List.filter_map]
        rfl
    · cases hs
  | unSubscribeLast a =>
    simp only [Spec.World.step] at hs
    split at hs
    · rename_i hl
      cases hs
      have hl' := hl
      rw [h.live] at hl
      obtain ⟨ts, hts⟩ := Option.isSome_iff_exists.1 hl
      refine ⟨_, Spec.eraseLast (fun t => decide (s.target t = a)) A, by rw [State.step, hts], ?_⟩
      have e := h.objs a ts hts
      refine h.remove a (ts.drop (ts.length - 1)) (some ts.dropLast) _ (eraseLast_sublist _ _) ?_ ?_ ?_ ?_ ?_ (by simp) _ ?_ rfl ?_
      · intro t
        rw [e]
        exact mem_eraseLast h.nodup _ t
      · intro t ht
        have := List.mem_of_mem_drop ht
        rw [e] at this; exact (List.mem_filter.1 this).1
      · rw [e]; exact (h.nodup.filter _).sublist (List.drop_sublist _ _)
      · intro ts' hts'
        cases hts'
        rw [any_eraseLast_filter, e]
      · intro b hb
        refine eraseLast_filter_other _ _ ?_ A
        intro t ht
        have : s.target t = b := by simpa using ht
        simp [this, hb]
      · intro b
        by_cases hb : b = a
        · simp [hb, hl']
        · simp [hb]
      · show Spec.eraseLast _ w.subs = _
        rw [h.subs, eraseLast_map]
    · cases hs
  | bcConstruct c =>
    simp only [Spec.World.step] at hs
    split at hs
    · cases hs
    · rename_i hl
      cases hs
      rw [h.liveBc] at hl
      have hn : s.bcs c = none := by simpa using hl
      refine ⟨_, A, by rw [State.step, hn]; rfl, h.rebind _ ?_ _ rfl ?_ ?_⟩
      · intro c' l hl'
        simp only [set] at hl'
        split at hl'
        · cases hl'; simp
        · exact h.sortedW c' l hl'
      · intro c'
        by_cases hc : c' = c
        · simp [set, hc]
        · simp [set, hc, h.liveBc]
      · show w.subs = _
        rw [h.subs]
        refine List.map_congr_left fun t _ => ?_
        simp only [Prod.mk.injEq, true_and]
        funext c'
        by_cases hc : c' = c
        · simp [State.registered, set, hc, hn]
        · simp [State.registered, set, hc]
  | bcCopy c c' =>
    simp only [Spec.World.step] at hs
    split at hs
    · rename_i hl
      cases hs
      rw [h.liveBc] at hl
      obtain ⟨l, hl⟩ := Option.isSome_iff_exists.1 hl
      refine ⟨_, A, by rw [State.step, hl], h.rebind _ ?_ _ rfl ?_ ?_⟩
      · intro d l' hl'
        simp only [set] at hl'
        split at hl'
        · cases hl'; exact h.sortedW c l hl
        · exact h.sortedW d l' hl'
      · intro d
        by_cases hc : d = c'
        · simp [set, hc]
        · simp [set, hc, h.liveBc]
      · show w.subs.map _ = _
        rw [h.subs, List.map_map]
        refine List.map_congr_left fun t _ => ?_
        simp only [Function.comp_apply, Prod.mk.injEq, true_and]
        funext d
        by_cases hc : d = c'
        · simp [State.registered, set, hc, hl]
        · simp [State.registered, set, hc]
    · cases hs
  | bcMove c c' =>
    simp only [Spec.World.step] at hs
    split at hs
    · rename_i hl
      cases hs
      rw [Bool.and_eq_true, decide_eq_true_eq, h.liveBc] at hl
      obtain ⟨hl, hne⟩ := hl
      obtain ⟨l, hl⟩ := Option.isSome_iff_exists.1 hl
      refine ⟨_, A, by rw [State.step, if_neg hne, hl], h.rebind _ ?_ _ rfl ?_ ?_⟩
      · intro d l' hl'
        simp only [set] at hl'
        split at hl'
        · cases hl'; simp
        · split at hl'
          · cases hl'; exact h.sortedW c l hl
          · exact h.sortedW d l' hl'
      · intro d
        by_cases hc : d = c
        · simp [set, hc, hne, h.liveBc, hl]
        · by_cases hc' : d = c'
          · simp [set, hc', Ne.symm hne]
          · simp [set, hc, hc', h.liveBc]
      · show w.subs.map _ = _
        rw [h.subs, List.map_map]
        refine List.map_congr_left fun t _ => ?_
        simp only [Function.comp_apply, Prod.mk.injEq, true_and]
        funext d
        by_cases hc : d = c
        · simp [set, hc]
        · by_cases hc' : d = c'
          · simp [State.registered, set, hc', Ne.symm hne, hl]
          · simp [State.registered, set, hc, hc']
    · cases hs
  | bcDestroy c =>
    simp only [Spec.World.step] at hs
    split at hs
    · rename_i hl
      cases hs
      rw [h.liveBc] at hl
      refine ⟨_, A, ?_, h.rebind (set s.bcs c none) ?_ _ rfl ?_ ?_⟩
      · rw [State.step, if_neg]
        rw [Option.isNone_iff_eq_none]
        intro hn
        rw [hn] at hl
        cases hl
      · intro d l' hl'
        simp only [set] at hl'
        split at hl'
        · cases hl'
        · exact h.sortedW d l' hl'
      · intro d
        by_cases hc : d = c
        · simp [set, hc]
        · simp [set, hc, h.liveBc]
      · show w.subs.map _ = _
        rw [h.subs, List.map_map]
        refine List.map_congr_left fun t _ => ?_
        simp only [Function.comp_apply, Prod.mk.injEq, true_and]
        funext d
        by_cases hc : d = c
        · simp [set, hc]
        · simp [State.registered, set, hc]
    · cases hs
  | notify c =>
    simp only [Spec.World.step] at hs
    split at hs
    · rename_i hl
      cases hs
      rw [h.liveBc] at hl
      obtain ⟨l, hl⟩ := Option.isSome_iff_exists.1 hl
      obtain ⟨p1, p2⟩ := h.sortedW c l hl
      have hf : (l.filter fun t => decide (s.owners t ≠ 0)) = A.filter fun t => s.registered t c := by
        refine eq_of_sorted (p1.sublist List.filter_sublist) (h.sortedA.sublist List.filter_sublist) fun t => ?_
        simp only [List.mem_filter, decide_eq_true_eq, State.registered, hl, Option.getD_some, h.owners]
        by_cases ht : t ∈ A <;> simp [ht]
      have hloop : s.notifyLoop (l.filter fun t => decide (s.owners t ≠ 0)) =
          some ((A.filter fun t => s.registered t c).map s.target) := by
        rw [notifyLoop_eq, hf]
        intro t ht
        rw [hf] at ht
        have hA := (List.mem_filter.1 ht).1
        exact ⟨by rw [h.owners, if_pos hA]; simp, h.target t hA⟩
      refine ⟨{ s with bcs := set s.bcs c (some (l.filter fun t => decide (s.owners t ≠ 0))) }, A, ?_, h.rebind _ ?_ _ rfl ?_ ?_⟩
      · simp only [State.step, hl, hloop, Option.map_some]
        congr 2
        rw [h.subs, List.filter_map, List.map_map]
        rfl
      · intro d l' hl'
        simp only [set] at hl'
        split at hl'
        · cases hl'
          exact ⟨p1.sublist List.filter_sublist, fun t ht => p2 t (List.mem_filter.1 ht).1⟩
        · exact h.sortedW d l' hl'
      · intro d
        by_cases hc : d = c
        · simp [set, hc, h.liveBc, hl]
        · simp [set, hc, h.liveBc]
      · rw [h.subs]
        refine List.map_congr_left fun t ht => ?_
        simp only [Prod.mk.injEq, true_and]
        funext d
        by_cases hc : d = c
        · simp [State.registered, set, hc, hl, h.owners, ht]
        · simp [State.registered, set, hc]
    · cases hs
  | copy a b => cases hs
  | move a b => cases hs
  | subscribeKeep a c => cases hs
  | dropToken t => cases hs

theorem rel_run {s : State} {w w' : Spec.World} {A : List Nat} (h : Rel s w A) {ops : List Op} {outs : List (List Nat)}
    (hs : w.run ops = some (w', outs)) : ∃ s' A', s.run ops = some (s', outs) ∧ Rel s' w' A' := by
  induction ops generalizing s w A outs with
  | nil =>
    cases hs
    exact ⟨s, A, rfl, h⟩
  | cons op ops ih =>
    simp only [Spec.World.run] at hs
    obtain ⟨⟨w1, o1⟩, h1, h2⟩ := Option.bind_eq_some_iff.1 hs
    obtain ⟨⟨w2, o2⟩, h3, h4⟩ := Option.map_eq_some_iff.1 h2
    cases h4
    obtain ⟨s1, A1, e1, r1⟩ := rel_step h h1
    obtain ⟨s2, A2, e2, r2⟩ := ih r1 h3
    exact ⟨s2, A2, by rw [State.run, e1, Option.bind_some, e2]; rfl, r2⟩

theorem run_append (s : State) (ops ops' : List Op) :
    s.run (ops ++ ops') = (s.run ops).bind fun p => (p.1.run ops').map fun q => (q.1, p.2 ++ q.2) := by
  induction ops generalizing s with
  | nil => cases h : s.run ops' <;> simp [State.run, h]
  | cons op ops ih =>
    simp only [List.cons_append, State.run]
    cases h : s.step op with
    | none => rfl
    | some p =>
      simp only [Option.bind_some, ih]
      cases h2 : p.1.run ops with
      | none => rfl
      | some q => cases h3 : q.1.run ops' <;> simp [h3]

theorem world_run_append (w : Spec.World) (ops ops' : List Op) :
    w.run (ops ++ ops') = (w.run ops).bind fun p => (p.1.run ops').map fun q => (q.1, p.2 ++ q.2) := by
  induction ops generalizing w with
  | nil => cases h : w.run ops' <;> simp [Spec.World.run, h]
  | cons op ops ih =>
    simp only [List.cons_append, Spec.World.run]
    cases h : w.step op with
    | none => rfl
    | some p =>
      simp only [Option.bind_some, ih]
      cases h2 : p.1.run ops with
      | none => rfl
      | some q => cases h3 : q.1.run ops' <;> simp [h3]

theorem notifyLoop_none {t : Nat} (s' : State) (l : List Nat) (hm : t ∈ l) (ho : s'.owners t ≠ 0)
    (hn : s'.objs (s'.target t) = none) : s'.notifyLoop l = none := by
  induction l with
  | nil => cases hm
  | cons x l ih =>
    simp only [State.notifyLoop]
    rcases List.mem_cons.1 hm with rfl | hm
    · rw [if_pos ho, hn]
    · split
      · cases s'.objs (s'.target x) with
        | none => rfl
        | some _ => simp only [ih hm, Option.map_none]
      · exact ih hm

/-! ### The property -/

/-- C84. For every program that neither copies nor moves listeners nor keeps tokens: nothing is undefined, and every notification
calls exactly the listeners that are alive and subscribed to the broadcaster (or to the one it was copied or moved from), once for
each subscription, in the order of the subscriptions.  What is missing for the whole property: copies and moves of listeners,
where it is false (`copy_undefined`). -/
theorem messages_reach_listeners_partial (ops : List Op) (w : Spec.World) (outs : List (List Nat))
    (h : Spec.World.init.run ops = some (w, outs)) : ∃ s, State.init.run ops = some (s, outs) := by
  obtain ⟨s, A, e, -⟩ := rel_run rel_init h
  exact ⟨s, e⟩

/-- Two listeners, one of them an element that subscribed to two solvers; one solver is copied, one listener destroyed. -/
example : (Spec.World.init.run [.construct 1, .construct 2, .bcConstruct 8, .bcConstruct 9, .feSubscribeTo 1 8, .subscribeTo 2 8,
      .feSubscribeTo 1 9, .bcCopy 8 7, .notify 7, .unSubscribeLast 1, .notify 9, .notify 8, .destroy 2, .notify 8]).map (·.2) =
    some [[], [], [], [], [], [], [], [], [1, 2], [], [], [1, 2], [], [1]] := by decide

/-- C84, copies. If a listener that is subscribed is copied (or moved) and the original is destroyed, the next notification is
undefined: the callback refers to the original.  This is what `auto logger = NonLinearSolverLogger().subscribeTo(solver)` does, and
what the growth of a vector of elements does. -/
theorem copy_undefined (ops : List Op) (w : Spec.World) (outs : List (List Nat)) (a b c : Nat) (dest : Nat → Bool)
    (h : Spec.World.init.run ops = some (w, outs)) (hsub : (a, dest) ∈ w.subs) (hto : dest c = true) (hab : a ≠ b) (hb : w.live b = false) :
    State.init.run (ops ++ [.copy a b, .destroy a, .notify c]) = none ∧
      State.init.run (ops ++ [.move a b, .destroy a, .notify c]) = none := by
  obtain ⟨s, A, e, r⟩ := rel_run rel_init h
  rw [r.subs] at hsub
  obtain ⟨t, ht, hte⟩ := List.mem_map.1 hsub
  simp only [Prod.mk.injEq] at hte
  obtain ⟨h1, h2⟩ := hte
  have hlive := r.target t ht
  rw [h1] at hlive
  obtain ⟨ts, hts⟩ := Option.isSome_iff_exists.1 hlive
  have hreg : s.registered t c = true := by rw [h2, hto]
  simp only [State.registered, decide_eq_true_eq] at hreg
  obtain ⟨l, hl⟩ : ∃ l, s.bcs c = some l := by
    cases hc : s.bcs c with
    | none => rw [hc] at hreg; simp at hreg
    | some l => exact ⟨l, rfl⟩
  rw [hl, Option.getD_some] at hreg
  have hbn : s.objs b = none := by
    have := r.live b
    rw [hb] at this
    simpa using this.symm
  have hown : s.owners t ≠ 0 := by rw [r.owners, if_pos ht]; simp
  have hnot : ∀ s' : State, s'.bcs c = some l → s'.owners t ≠ 0 → s'.objs (s'.target t) = none → s'.step (.notify c) = none := by
    intro s' e1 e2 e3
    simp only [State.step, e1]
    rw [notifyLoop_none s' _ (List.mem_filter.2 ⟨hreg, by simpa using e2⟩) e2 e3]
    rfl
  rw [run_append, run_append, e, Option.bind_some, Option.bind_some]
  constructor
  · have e1 : s.step (.copy a b) = some ({ s.acquire ts with objs := set s.objs b (some ts) }, []) := by
      simp only [State.step, hts, hbn]
    have e2 : ({ s.acquire ts with objs := set s.objs b (some ts) } : State).step (.destroy a) = some
        ({ ({ s.acquire ts with objs := set s.objs b (some ts) } : State).release ts with
            objs := set (set s.objs b (some ts)) a none }, []) := by
      simp only [State.step, set, if_neg hab, hts]
    simp only [State.run, e1, e2, Option.bind_some]
    rw [hnot]
    · rfl
    · exact hl
    · simpa [State.release, State.acquire] using hown
    · show set (set s.objs b (some ts)) a none (s.target t) = none
      rw [h1]; simp [set]
  · have e1 : s.step (.move a b) = some ({ s with objs := set (set s.objs b (some ts)) a (some []) }, []) := by
      simp only [State.step, if_neg hab, hts, hbn]
    have e2 : ({ s with objs := set (set s.objs b (some ts)) a (some []) } : State).step (.destroy a) = some
        ({ ({ s with objs := set (set s.objs b (some ts)) a (some []) } : State).release [] with
            objs := set (set (set s.objs b (some ts)) a (some [])) a none }, []) := by
      simp only [State.step, set, if_true]
    simp only [State.run, e1, e2, Option.bind_some]
    rw [hnot]
    · rfl
    · exact hl
    · simpa [State.release] using hown
    · show set (set (set s.objs b (some ts)) a (some [])) a none (s.target t) = none
      rw [h1]; simp [set]

/-- The temporary logger 1 subscribes to the solver 9. -/
example : ∃ w outs dest, Spec.World.init.run [.bcConstruct 9, .construct 1, .subscribeTo 1 9] = some (w, outs) ∧
    (1, dest) ∈ w.subs ∧ dest 9 = true ∧ w.live 2 = false :=
  ⟨_, _, _, rfl, List.mem_singleton.2 rfl, rfl, rfl⟩

/-- C84. Listeners cannot be copied. -/
theorem copyDefined_false : ¬ Spec.CopyDefined := by
  intro h
  have := h _ _ [.bcConstruct 9, .construct 1, .subscribeTo 1 9] _ 1 2 9 rfl rfl rfl rfl rfl
  revert this
  decide

/-- C84, a kept token. If the token that `subscribe` returns is kept longer than the listener lives, the next notification is
undefined. -/
theorem kept_token_undefined (ops : List Op) (w : Spec.World) (outs : List (List Nat)) (a c : Nat)
    (h : Spec.World.init.run ops = some (w, outs)) (ha : w.live a = true) (hc : w.liveBc c = true) :
    State.init.run (ops ++ [.subscribeKeep a c, .destroy a, .notify c]) = none := by
  obtain ⟨s, A, e, r⟩ := rel_run rel_init h
  rw [r.live] at ha
  rw [r.liveBc] at hc
  obtain ⟨ts, hts⟩ := Option.isSome_iff_exists.1 ha
  obtain ⟨l, hl⟩ := Option.isSome_iff_exists.1 hc
  have hnot : s.next ∉ ts := by
    rw [r.objs a ts hts]
    intro hh
    exact Nat.lt_irrefl _ (r.ltA _ (List.mem_filter.1 hh).1)
  rw [run_append, e, Option.bind_some]
  simp only [State.run, State.step, State.subscribe, hts, hl, Option.map_some, Option.bind_some, State.acquire, State.release, set,
    if_true]
  rw [notifyLoop_none (t := s.next)]
  · rfl
  · simp [List.mem_filter, List.count_eq_zero.2 hnot]
  · simp [List.count_eq_zero.2 hnot]
  · simp [set]

example : ∃ w outs, Spec.World.init.run [.bcConstruct 9, .construct 1] = some (w, outs) ∧ w.live 1 = true ∧ w.liveBc 9 = true :=
  ⟨_, _, rfl, rfl, rfl⟩

/-- The token is dropped in time. -/
example : (State.init.run [.bcConstruct 9, .construct 1, .subscribeKeep 1 9, .dropToken 0, .destroy 1, .notify 9]).isSome := by decide

theorem world_create {w : Spec.World} {fes : List Nat} {c : Nat} (hl : ∀ a ∈ fes, w.live a = true) (hc : w.liveBc c = true) :
    w.run (createControlRoutine fes c) =
      some ({ w with subs := w.subs ++ fes.map fun a => (a, fun x => decide (x = c)) }, fes.map fun _ => []) := by
  induction fes generalizing w with
  | nil => simp [createControlRoutine, Spec.World.run]
  | cons a fes ih =>
    have ha := hl a List.mem_cons_self
    have ih' := ih (w := { w with subs := w.subs ++ [(a, fun x => decide (x = c))] })
      (fun b hb => hl b (List.mem_cons_of_mem _ hb)) hc
    simp only [createControlRoutine] at ih'
    simp [createControlRoutine, Spec.World.run, Spec.World.step, ha, hc, ih']

/-- C84, elements. After the factory made a control routine from a solver and an assembler, every message of the solver goes to the
listeners from before and then to every element, once and in their order; making a second control routine with the same solver
and elements makes every message reach every element once more. -/
theorem factory_subscribes (ops : List Op) (w : Spec.World) (outs : List (List Nat)) (fes : List Nat) (c : Nat)
    (h : Spec.World.init.run ops = some (w, outs)) (hl : ∀ a ∈ fes, w.live a = true) (hc : w.liveBc c = true) (n : Nat) :
    ∃ s called, State.init.run (ops ++ (List.replicate n (createControlRoutine fes c)).flatten ++ [.notify c]) = some (s, called) ∧
      called.getLast? = some (((w.subs.filter fun e => e.2 c).map (·.1)) ++ (List.replicate n fes).flatten) := by
  have hrep : ∀ (n : Nat) (w : Spec.World), (∀ a ∈ fes, w.live a = true) → w.liveBc c = true →
      ∃ outs, w.run (List.replicate n (createControlRoutine fes c)).flatten =
        some ({ w with subs := w.subs ++ ((List.replicate n fes).flatten).map fun a => (a, fun x => decide (x = c)) }, outs) := by
    intro n
    induction n with
    | zero => intro w _ _; exact ⟨[], by simp [Spec.World.run]⟩
    | succ n ih =>
      intro w hl hc
      obtain ⟨outs, e⟩ := ih { w with subs := w.subs ++ fes.map fun a => (a, fun x => decide (x = c)) } hl hc
      refine ⟨(fes.map fun _ => []) ++ outs, ?_⟩
      rw [List.replicate_succ, List.flatten_cons, world_run_append, world_create hl hc, Option.bind_some, e]
      simp [List.replicate_succ]
  obtain ⟨outs', e⟩ := hrep n w hl hc
  have hw : Spec.World.init.run (ops ++ (List.replicate n (createControlRoutine fes c)).flatten ++ [.notify c]) = some
      ({ w with subs := w.subs ++ ((List.replicate n fes).flatten).map fun a => (a, fun x => decide (x = c)) },
        outs ++ outs' ++ [((w.subs.filter fun e => e.2 c).map (·.1)) ++ (List.replicate n fes).flatten]) := by
    rw [world_run_append, world_run_append, h, Option.bind_some, e, Option.map_some, Option.bind_some]
    simp only [Spec.World.run, Spec.World.step, hc, if_true, Option.bind_some, Option.map_some, Option.some.injEq, Prod.mk.injEq,
      true_and]
    congr 2
    rw [List.filter_append, List.map_append, List.filter_map, List.map_map]
    congr 1
    rw [List.filter_eq_self.2 (by intro a _; simp)]
    exact List.map_id' _
  obtain ⟨s, hs⟩ := messages_reach_listeners_partial _ _ _ hw
  exact ⟨s, _, hs, by simp⟩

/-- C84, elements. A second control routine with the same solver and elements: every element is called twice. -/
theorem once_false : ¬ Spec.Once := by
  intro h
  obtain ⟨s, called, e, hc⟩ := h ([.bcConstruct 9, .construct 1] ++ createControlRoutine [1] 9) _ _ [1] 9 rfl (by simp) (by simp; rfl) rfl
  have : State.init.run ([.bcConstruct 9, .construct 1] ++ createControlRoutine [1] 9 ++ createControlRoutine [1] 9 ++ [.notify 9]) =
      some (s, called) := e
  have h2 := hc 1 (by simp)
  have h3 : (State.init.run ([.bcConstruct 9, .construct 1] ++ createControlRoutine [1] 9 ++ createControlRoutine [1] 9 ++ [.notify 9])).map
      (fun p => ((p.2.getLast?).getD []).count 1) = some 2 := by decide
  rw [this, Option.map_some, h2] at h3
  cases h3

end Ikarus.Lifetime
