import Mathlib.Logic.Relation
import Mathlib.Data.List.Infix
import Verif.Python.AliveModel

/-!
Property C89: objects that Python still holds can be used.
-/

namespace Ikarus

namespace PyAlive

open State

namespace Spec

/-- An object keeps another one alive. -/
def Refers (s : State) (i j : Nat) : Prop := ∃ o : Obj, s.objs[i]? = some o ∧ j ∈ o.keeps

/-- The caller reaches an object, by a variable and by objects that keep others alive. -/
def Reached (s : State) (j : Nat) : Prop := ∃ h ∈ s.held, Relation.ReflTransGen (Refers s) h j

/-- Whatever a program did, every object it still has a variable for can be used. -/
def UsableWhileHeld : Prop := ∀ ops : List Op, ∀ i ∈ (run ops).held, (run ops).usable i = true

/-- The same for programs that do not bind assemblers. -/
def UsableUnbound : Prop :=
  ∀ ops : List Op, (∀ a r, Op.bind a r ∉ ops) → ∀ i ∈ (run ops).held, (run ops).usable i = true

end Spec

/-! ### Invariants -/

/-- What holds after every program. -/
structure Inv (ops : List Op) (s : State) : Prop where
  held_lt : ∀ i ∈ s.held, i < s.objs.length
  keeps_lt : ∀ (i : Nat) (o : Obj), s.objs[i]? = some o → ∀ k ∈ o.keeps, k < i
  keeps_kind : ∀ (i : Nat) (o : Obj), s.objs[i]? = some o → ∀ k ∈ o.keeps, ∃ ok : Obj, s.objs[k]? = some ok ∧ ok.kind ≠ .requirement
  views : ∀ (i : Nat) (o : Obj), s.objs[i]? = some o → ∀ h ∈ o.views, Relation.ReflTransGen (Spec.Refers s) i h
  patches : ∀ (i : Nat) (o : Obj), s.objs[i]? = some o → ∀ p ∈ o.patches, Op.load p ∈ ops ∧ (Op.del p ∉ ops → p ∈ s.held)
  bound : ∀ (i : Nat) (o : Obj), s.objs[i]? = some o → ∀ r, o.bound = some r →
    (∃ a, Op.bind a r ∈ ops) ∧ (Op.del r ∉ ops → r ∈ s.held) ∧ ∃ ro : Obj, s.objs[r]? = some ro ∧ ro.kind = .requirement
  writes : ∀ (i : Nat) (o : Obj), s.objs[i]? = some o → ∀ a, o.writes = some a → a ∈ o.keeps

theorem arg_some {s : State} {k : Kind} {i : Nat} {o : Obj} (h : s.arg k i = some o) :
    s.objs[i]? = some o ∧ i ∈ s.held ∧ o.kind = k := by
  unfold arg at h
  split at h
  · simp at h
  case h_2 o' ho =>
    split at h
    case isTrue hk => obtain rfl := Option.some.inj h; exact ⟨ho, hk⟩
    case isFalse => simp at h

theorem mapM_some {β γ : Type} {f : β → Option γ} {l : List β} {os : List γ} (h : l.mapM f = some os) :
    ∀ o ∈ os, ∃ i ∈ l, f i = some o := by
  induction l generalizing os with
  | nil => simp at h; subst h; simp
  | cons a l ih =>
    rw [List.mapM_cons] at h
    cases ha : f a with
    | none => simp [ha] at h
    | some b =>
      cases hl : l.mapM f with
      | none => simp [ha, hl] at h
      | some bs =>
        simp only [ha, hl, Option.bind_eq_bind, Option.bind_some, Option.pure_def, Option.some.injEq] at h
        subst h
        intro o ho
        rcases List.mem_cons.1 ho with rfl | ho
        · exact ⟨a, by simp, ha⟩
        · obtain ⟨i, hi, e⟩ := ih hl o ho
          exact ⟨i, by simp [hi], e⟩

theorem lt_of_getElem? {l : List Obj} {i : Nat} {o : Obj} (h : l[i]? = some o) : i < l.length :=
  (List.getElem?_eq_some_iff.1 h).1

theorem refers_create {s : State} (o : Obj) {i j : Nat} (h : Spec.Refers s i j) : Spec.Refers (s.create o) i j := by
  obtain ⟨oi, h1, h2⟩ := h
  exact ⟨oi, by simp only [create]; rw [List.getElem?_append_left (lt_of_getElem? h1)]; exact h1, h2⟩

theorem get_create {s : State} {o oi : Obj} {i : Nat} (h : (s.create o).objs[i]? = some oi) :
    s.objs[i]? = some oi ∨ i = s.objs.length ∧ oi = o := by
  simp only [create] at h
  by_cases hi : i < s.objs.length
  · rw [List.getElem?_append_left hi] at h; exact Or.inl h
  · rw [List.getElem?_append_right (by omega)] at h
    have := lt_of_getElem? h
    simp only [List.length_singleton] at this
    have e : i = s.objs.length := by omega
    subst e
    simp only [Nat.sub_self, List.getElem?_cons_zero, Option.some.injEq] at h
    exact Or.inr ⟨rfl, h.symm⟩

theorem get_create_of {s : State} {o oi : Obj} {i : Nat} (h : s.objs[i]? = some oi) :
    (s.create o).objs[i]? = some oi := by
  simp only [create]; rw [List.getElem?_append_left (lt_of_getElem? h)]; exact h

/-- The conditions under which a new object keeps the invariant. -/
structure Fresh (ops : List Op) (s : State) (o : Obj) : Prop where
  keeps : ∀ k ∈ o.keeps, k ∈ s.held ∧ ∃ ok : Obj, s.objs[k]? = some ok ∧ ok.kind ≠ .requirement
  views : ∀ h ∈ o.views, ∃ k ∈ o.keeps, Relation.ReflTransGen (Spec.Refers s) k h
  patches : ∀ p ∈ o.patches, Op.load p ∈ ops ∧ (Op.del p ∉ ops → p ∈ s.held)
  bound : ∀ r, o.bound = some r → (∃ a, Op.bind a r ∈ ops) ∧ (Op.del r ∉ ops → r ∈ s.held) ∧
    ∃ ro : Obj, s.objs[r]? = some ro ∧ ro.kind = .requirement
  writes : ∀ a, o.writes = some a → a ∈ o.keeps

theorem Inv.create {ops : List Op} {s : State} {o : Obj} (h : Inv ops s) (ho : Fresh ops s o) :
    Inv ops (s.create o) where
  held_lt i hi := by
    simp only [State.create, List.length_append, List.length_singleton, List.mem_cons] at hi ⊢
    rcases hi with rfl | hi
    · omega
    · have := h.held_lt i hi; omega
  keeps_lt i oi hi k hk := by
    rcases get_create hi with hi | ⟨rfl, rfl⟩
    · exact h.keeps_lt i oi hi k hk
    · exact h.held_lt k (ho.keeps k hk).1
  keeps_kind i oi hi k hk := by
    rcases get_create hi with hi | ⟨rfl, rfl⟩
    · obtain ⟨ok, h1, h2⟩ := h.keeps_kind i oi hi k hk
      exact ⟨ok, get_create_of h1, h2⟩
    · obtain ⟨ok, h1, h2⟩ := (ho.keeps k hk).2
      exact ⟨ok, get_create_of h1, h2⟩
  views i oi hi v hv := by
    rcases get_create hi with hi' | ⟨rfl, rfl⟩
    · exact Relation.ReflTransGen.lift id (fun _ _ => refers_create o) _ _ (h.views i oi hi' v hv)
    · obtain ⟨k, hk, hr⟩ := ho.views v hv
      exact Relation.ReflTransGen.head ⟨oi, hi, hk⟩ (Relation.ReflTransGen.lift id (fun _ _ => refers_create oi) _ _ hr)
  patches i oi hi p hp := by
    have : Op.load p ∈ ops ∧ (Op.del p ∉ ops → p ∈ s.held) := by
      rcases get_create hi with hi' | ⟨rfl, rfl⟩
      · exact h.patches i oi hi' p hp
      · exact ho.patches p hp
    exact ⟨this.1, fun hd => List.mem_cons_of_mem _ (this.2 hd)⟩
  bound i oi hi r hr := by
    have : (∃ a, Op.bind a r ∈ ops) ∧ (Op.del r ∉ ops → r ∈ s.held) ∧
        ∃ ro : Obj, s.objs[r]? = some ro ∧ ro.kind = .requirement := by
      rcases get_create hi with hi' | ⟨rfl, rfl⟩
      · exact h.bound i oi hi' r hr
      · exact ho.bound r hr
    obtain ⟨h1, h2, ro, h3, h4⟩ := this
    exact ⟨h1, fun hd => List.mem_cons_of_mem _ (h2 hd), ro, get_create_of h3, h4⟩
  writes i oi hi a ha := by
    rcases get_create hi with hi' | ⟨rfl, rfl⟩
    · exact h.writes i oi hi' a ha
    · exact ho.writes a ha

/-- The invariant for the same state and a longer program, if the statement does not delete a variable. -/
theorem Inv.mono {ops : List Op} {s : State} (op : Op) (h : Inv ops s) : Inv (ops ++ [op]) s where
  held_lt := h.held_lt
  keeps_lt := h.keeps_lt
  keeps_kind := h.keeps_kind
  views := h.views
  patches i o ho p hp := by
    obtain ⟨h1, h2⟩ := h.patches i o ho p hp
    exact ⟨by simp [h1], fun hd => h2 fun hm => hd (by simp [hm])⟩
  bound i o ho r hr := by
    obtain ⟨⟨a, h1⟩, h2, h3⟩ := h.bound i o ho r hr
    exact ⟨⟨a, by simp [h1]⟩, fun hd => h2 fun hm => hd (by simp [hm]), h3⟩
  writes := h.writes

/-- What a statement does: nothing, a new object, a binding or the end of a variable. -/
theorem step_cases (ops : List Op) (s : State) (op : Op) (h : Inv ops s) :
    s.step op = s ∨ (∃ o, s.step op = s.create o ∧ Fresh (ops ++ [op]) s o) ∨
    (∃ a r o, op = .bind a r ∧ s.objs[a]? = some o ∧ r ∈ s.held ∧ (∃ ro : Obj, s.objs[r]? = some ro ∧ ro.kind = .requirement) ∧
      s.step op = { s with objs := s.objs.set a { o with bound := some r } }) ∨
    ∃ i, op = .del i ∧ s.step op = { s with held := s.held.filter (· ≠ i) } := by
  have h' := h.mono op
  cases op with
  | make kind =>
    cases kind <;>
      first
      | exact Or.inl rfl
      | exact Or.inr (Or.inl ⟨_, rfl, ⟨by simp, by simp, by simp, by simp, by simp⟩⟩)
  | load p =>
    cases hp : s.arg .patch p with
    | none => exact Or.inl (by simp [State.step, hp])
    | some o =>
      obtain ⟨h1, h2, h3⟩ := arg_some hp
      refine Or.inr (Or.inl ⟨{ kind := .skill, keeps := [p], patches := [p] }, by simp [State.step, hp], ?_, by simp,
        ?_, by simp, by simp⟩)
      · intro k hk
        obtain rfl := List.mem_singleton.1 hk
        exact ⟨h2, o, h1, by simp [h3]⟩
      · intro k hk
        obtain rfl := List.mem_singleton.1 hk
        exact ⟨by simp, fun _ => h2⟩
  | fe b skills =>
    cases hb : s.arg .basis b with
    | none => exact Or.inl (by simp [State.step, hb])
    | some o =>
      cases hs : skills.mapM (s.arg .skill) with
      | none => exact Or.inl (by simp [State.step, hb, hs])
      | some os =>
        obtain ⟨h1, h2, h3⟩ := arg_some hb
        refine Or.inr (Or.inl ⟨{ kind := .fe, keeps := [b], patches := os.flatMap Obj.patches, views := [b] },
          by simp [State.step, hb, hs], ?_, ?_, ?_, by simp, by simp⟩)
        · intro k hk
          obtain rfl := List.mem_singleton.1 hk
          exact ⟨h2, o, h1, by simp [h3]⟩
        · exact fun v hv => ⟨b, by simp, by rw [List.mem_singleton.1 hv]⟩
        · intro p hp
          obtain ⟨o', ho', hp⟩ := List.mem_flatMap.1 hp
          obtain ⟨i, hi, e⟩ := mapM_some hs o' ho'
          exact h'.patches i o' (arg_some e).1 p hp
  | localView f =>
    cases hf : s.arg .fe f with
    | none => exact Or.inl (by simp [State.step, hf])
    | some o =>
      obtain ⟨h1, h2, h3⟩ := arg_some hf
      refine Or.inr (Or.inl ⟨{ kind := .view, keeps := [f], views := o.views }, by simp [State.step, hf], ?_, ?_, by simp,
        by simp, by simp⟩)
      · intro k hk
        obtain rfl := List.mem_singleton.1 hk
        exact ⟨h2, o, h1, by simp [h3]⟩
      · exact fun v hv => ⟨f, by simp, h.views f o h1 v hv⟩
  | dirichlet b =>
    cases hb : s.arg .flat b with
    | none => exact Or.inl (by simp [State.step, hb])
    | some o =>
      obtain ⟨h1, h2, h3⟩ := arg_some hb
      refine Or.inr (Or.inl ⟨{ kind := .dirichlet, keeps := [b] }, by simp [State.step, hb], ?_, by simp, by simp,
        by simp, by simp⟩)
      intro k hk
      obtain rfl := List.mem_singleton.1 hk
      exact ⟨h2, o, h1, by simp [h3]⟩
  | assembler fes d =>
    cases hf : fes.mapM (s.arg .fe) with
    | none => exact Or.inl (by simp [State.step, hf])
    | some os =>
      cases hd : s.arg .dirichlet d with
      | none => exact Or.inl (by cases os <;> simp [State.step, hf, hd])
      | some o =>
        cases os with
        | nil => exact Or.inl (by simp [State.step, hf, hd])
        | cons o1 os =>
          obtain ⟨h1, h2, h3⟩ := arg_some hd
          refine Or.inr (Or.inl ⟨{ kind := .assembler, keeps := [d], patches := (o1 :: os).flatMap Obj.patches },
            by simp [State.step, hf, hd], ?_, by simp, ?_, by simp, by simp⟩)
          · intro k hk
            obtain rfl := List.mem_singleton.1 hk
            exact ⟨h2, o, h1, by simp [h3]⟩
          · intro p hp
            obtain ⟨o', ho', hp⟩ := List.mem_flatMap.1 hp
            obtain ⟨i, hi, e⟩ := mapM_some hf o' ho'
            exact h'.patches i o' (arg_some e).1 p hp
  | manipulator a =>
    cases ha : s.arg .assembler a with
    | none => exact Or.inl (by simp [State.step, ha])
    | some o =>
      obtain ⟨h1, h2, h3⟩ := arg_some ha
      exact Or.inr (Or.inl ⟨{ kind := .assembler, patches := o.patches, bound := o.bound }, by simp [State.step, ha],
        by simp, by simp, fun p hp => h'.patches a o h1 p hp, fun r hr => h'.bound a o h1 r hr, by simp⟩)
  | bind a r =>
    cases ha : s.arg .assembler a with
    | none => exact Or.inl (by simp [State.step, ha])
    | some o =>
      cases hr : s.arg .requirement r with
      | none => exact Or.inl (by simp [State.step, ha, hr])
      | some ro =>
        obtain ⟨h1, h2, h3⟩ := arg_some ha
        obtain ⟨h4, h5, h6⟩ := arg_some hr
        exact Or.inr (Or.inr (Or.inl ⟨a, r, o, rfl, h1, h5, ⟨ro, h4, h6⟩, by simp [State.step, ha, hr]⟩))
  | writer a =>
    cases ha : s.arg .assembler a with
    | none => exact Or.inl (by simp [State.step, ha])
    | some o =>
      obtain ⟨h1, h2, h3⟩ := arg_some ha
      refine Or.inr (Or.inl ⟨{ kind := .writer, keeps := [a], writes := some a }, by simp [State.step, ha], ?_, by simp,
        by simp, by simp, by simp⟩)
      intro k hk
      obtain rfl := List.mem_singleton.1 hk
      exact ⟨h2, o, h1, by simp [h3]⟩
  | del i => exact Or.inr (Or.inr (Or.inr ⟨i, rfl, rfl⟩))

/-- Binding changes nothing that Python sees. -/
theorem get_bind {s : State} {a r i : Nat} {o oi : Obj} (ha : s.objs[a]? = some o)
    (h : (s.objs.set a { o with bound := some r })[i]? = some oi) :
    ∃ oi', s.objs[i]? = some oi' ∧ oi.kind = oi'.kind ∧ oi.keeps = oi'.keeps ∧ oi.views = oi'.views ∧
      oi.patches = oi'.patches ∧ oi.writes = oi'.writes ∧ (oi.bound = oi'.bound ∨ i = a ∧ oi.bound = some r) := by
  by_cases e : i = a
  · subst e
    rw [List.getElem?_set_self (lt_of_getElem? ha)] at h
    obtain rfl := Option.some.inj h
    exact ⟨o, ha, rfl, rfl, rfl, rfl, rfl, Or.inr ⟨rfl, rfl⟩⟩
  · rw [List.getElem?_set_ne (Ne.symm e)] at h
    exact ⟨oi, h, rfl, rfl, rfl, rfl, rfl, Or.inl rfl⟩

theorem get_bind_of {s : State} {a r i : Nat} {o oi : Obj} (ha : s.objs[a]? = some o) (h : s.objs[i]? = some oi) :
    ∃ oi', (s.objs.set a { o with bound := some r })[i]? = some oi' ∧ oi'.kind = oi.kind ∧ oi'.keeps = oi.keeps := by
  by_cases e : i = a
  · subst e
    rw [ha] at h
    obtain rfl := Option.some.inj h
    exact ⟨_, List.getElem?_set_self (lt_of_getElem? ha), rfl, rfl⟩
  · exact ⟨oi, by rw [List.getElem?_set_ne (Ne.symm e)]; exact h, rfl, rfl⟩

theorem refers_bind {s : State} {a r : Nat} {o : Obj} (ha : s.objs[a]? = some o) (i j : Nat) :
    Spec.Refers { s with objs := s.objs.set a { o with bound := some r } } i j ↔ Spec.Refers s i j := by
  constructor
  · rintro ⟨oi, h1, h2⟩
    obtain ⟨oi', h3, -, h4, -⟩ := get_bind ha h1
    exact ⟨oi', h3, h4 ▸ h2⟩
  · rintro ⟨oi, h1, h2⟩
    obtain ⟨oi', h3, -, h4⟩ := get_bind_of (r := r) ha h1
    exact ⟨oi', h3, h4 ▸ h2⟩

theorem Inv.step {ops : List Op} {s : State} (op : Op) (h : Inv ops s) : Inv (ops ++ [op]) (s.step op) := by
  have h' := h.mono op
  rcases step_cases ops s op h with e | ⟨o, e, ho⟩ | ⟨a, r, o, rfl, ha, hr, hro, e⟩ | ⟨i, rfl, e⟩
  · rw [e]; exact h'
  · rw [e]; exact h'.create ho
  · rw [e]
    refine ⟨fun i hi => by simpa using h.held_lt i hi, fun i oi hi k hk => ?_, fun i oi hi k hk => ?_,
      fun i oi hi v hv => ?_, fun i oi hi p hp => ?_, fun i oi hi q hq => ?_, fun i oi hi w hw => ?_⟩ <;>
      obtain ⟨oi', h1, h2, h3, h4, h5, h6, h7⟩ := get_bind ha hi
    · exact h.keeps_lt i oi' h1 k (h3 ▸ hk)
    · obtain ⟨ok, h8, h9⟩ := h.keeps_kind i oi' h1 k (h3 ▸ hk)
      obtain ⟨ok', h10, h11, -⟩ := get_bind_of (r := r) ha h8
      exact ⟨ok', h10, h11 ▸ h9⟩
    · exact Relation.ReflTransGen.lift id (fun _ _ => (refers_bind ha _ _).2) _ _ (h.views i oi' h1 v (h4 ▸ hv))
    · exact h'.patches i oi' h1 p (h5 ▸ hp)
    · rcases h7 with h7 | ⟨rfl, h7⟩
      · obtain ⟨b1, b2, ro, b3, b4⟩ := h'.bound i oi' h1 q (h7 ▸ hq)
        obtain ⟨ro', b5, b6, -⟩ := get_bind_of (r := r) ha b3
        exact ⟨b1, b2, ro', b5, b6 ▸ b4⟩
      · obtain rfl : r = q := Option.some.inj (h7.symm.trans hq)
        obtain ⟨ro, b3, b4⟩ := hro
        obtain ⟨ro', b5, b6, -⟩ := get_bind_of (r := r) ha b3
        exact ⟨⟨i, by simp⟩, fun _ => hr, ro', b5, b6 ▸ b4⟩
    · exact h3 ▸ h.writes i oi' h1 w (h6 ▸ hw)
  · rw [e]
    have keep : ∀ p, (Op.del p ∉ ops ++ [Op.del i] → p ∈ s.held) →
        Op.del p ∉ ops ++ [Op.del i] → p ∈ s.held.filter (· ≠ i) := fun p hp hd =>
      List.mem_filter.2 ⟨hp hd, by simpa using fun e : p = i => hd (by simp [e])⟩
    exact ⟨fun j hj => h.held_lt j (List.mem_filter.1 hj).1, h.keeps_lt, h.keeps_kind, h.views,
      fun j o hj p hp => ⟨(h'.patches j o hj p hp).1, keep p (h'.patches j o hj p hp).2⟩,
      fun j o hj r hr => ⟨(h'.bound j o hj r hr).1, keep r (h'.bound j o hj r hr).2.1, (h'.bound j o hj r hr).2.2⟩,
      h.writes⟩

theorem run_append (ops : List Op) (op : Op) : run (ops ++ [op]) = (run ops).step op := by simp [run]

theorem inv_run (ops : List Op) : Inv ops (run ops) := by
  induction ops using List.reverseRecOn with
  | nil => exact ⟨by simp [run], by simp [run], by simp [run], by simp [run], by simp [run], by simp [run], by simp [run]⟩
  | append_singleton ops op ih => rw [run_append]; exact ih.step op

/-! ### Who lives -/

theorem mem_living {ops : List Op} {s : State} (h : Inv ops s) (j : Nat) : j ∈ s.living ↔ Spec.Reached s j := by
  have key : ∀ m k, k + m = s.objs.length → (j ∈ (List.range' k m).foldr (fun i alive =>
      if i ∈ s.held ∨ ∃ j ∈ alive, i ∈ s.keepsOf j then i :: alive else alive) [] ↔ k ≤ j ∧ Spec.Reached s j) := by
    have lt : ∀ j, Spec.Reached s j → j < s.objs.length := by
      rintro j ⟨h0, hh, hr⟩
      cases Relation.ReflTransGen.cases_tail hr with
      | inl e => rw [e]; exact h.held_lt h0 hh
      | inr e =>
        obtain ⟨b, -, ob, h1, h2⟩ := e
        have := h.keeps_lt b ob h1 j h2
        have := lt_of_getElem? h1
        omega
    intro m
    induction m generalizing j with
    | zero =>
      intro k hk
      simp only [List.range'_zero, List.foldr_nil, List.not_mem_nil, false_iff, not_and]
      intro hj hr
      have := lt j hr
      omega
    | succ m ih =>
      intro k hk
      rw [List.range'_succ, List.foldr_cons]
      set alive := (List.range' (k + 1) m).foldr (fun i alive =>
        if i ∈ s.held ∨ ∃ j ∈ alive, i ∈ s.keepsOf j then i :: alive else alive) [] with hal
      have cond : (k ∈ s.held ∨ ∃ j ∈ alive, k ∈ s.keepsOf j) ↔
          Spec.Reached s k := by
        constructor
        · rintro (hh | hh)
          · exact ⟨k, hh, .refl⟩
          · obtain ⟨b, hb, hm⟩ := hh
            obtain ⟨-, h0, hh0, hr⟩ := (ih b (k + 1) (by omega)).1 hb
            cases ho : s.objs[b]? with
            | none => simp [keepsOf, ho] at hm
            | some ob => exact ⟨h0, hh0, hr.tail ⟨ob, ho, by simpa [keepsOf, ho] using hm⟩⟩
        · rintro ⟨h0, hh, hr⟩
          cases Relation.ReflTransGen.cases_tail hr with
          | inl e => exact Or.inl (e ▸ hh)
          | inr e =>
            obtain ⟨b, hb, ob, h1, h2⟩ := e
            have hlt := h.keeps_lt b ob h1 k h2
            exact Or.inr ⟨b, (ih b (k + 1) (by omega)).2 ⟨by omega, h0, hh, hb⟩, by simp [keepsOf, h1, h2]⟩
      by_cases hc : Spec.Reached s k
      · rw [if_pos (cond.2 hc), List.mem_cons, ih j (k + 1) (by omega)]
        constructor
        · rintro (rfl | ⟨h1, h2⟩)
          · exact ⟨le_rfl, hc⟩
          · exact ⟨by omega, h2⟩
        · rintro ⟨h1, h2⟩
          by_cases e : j = k
          · exact Or.inl e
          · exact Or.inr ⟨by omega, h2⟩
      · rw [if_neg fun hh => hc (cond.1 hh), ih j (k + 1) (by omega)]
        constructor
        · rintro ⟨h1, h2⟩; exact ⟨by omega, h2⟩
        · rintro ⟨h1, h2⟩
          refine ⟨?_, h2⟩
          by_contra hlt
          exact hc ((by omega : j = k) ▸ h2)
  have := key s.objs.length 0 (by omega)
  rw [← List.range_eq_range'] at this
  simpa [living] using this

theorem held_living {ops : List Op} {s : State} (h : Inv ops s) {j : Nat} (hj : j ∈ s.held) : j ∈ s.living :=
  (mem_living h j).2 ⟨j, hj, .refl⟩

/-- C89, who lives: an object lives exactly as long as the caller reaches it by a variable or through objects that keep
it alive. -/
theorem py_living (ops : List Op) (j : Nat) : j ∈ (run ops).living ↔ Spec.Reached (run ops) j :=
  mem_living (inv_run ops) j

/-- C89, destroyed objects: whatever a program does next, an object that was destroyed does not come back. -/
theorem py_dead_stays_dead (ops more : List Op) (j : Nat) (hj : j < (run ops).objs.length)
    (hd : j ∉ (run ops).living) : j ∉ (run (ops ++ more)).living := by
  induction more using List.reverseRecOn with
  | nil => simpa using hd
  | append_singleton more op ih =>
    have hlen : ∀ ms : List Op, (run ops).objs.length ≤ (run (ops ++ ms)).objs.length := by
      intro ms
      induction ms using List.reverseRecOn with
      | nil => simp
      | append_singleton ms op ih =>
        rw [← List.append_assoc, run_append]
        refine le_trans ih ?_
        rcases step_cases _ _ op (inv_run (ops ++ ms)) with e | ⟨o, e, -⟩ | ⟨a, r, o, -, -, -, -, e⟩ | ⟨i, -, e⟩ <;>
          rw [e] <;> simp [State.create]
    have hj' := lt_of_lt_of_le hj (hlen more)
    have inv := inv_run (ops ++ more)
    rw [mem_living inv] at ih
    rw [← List.append_assoc, run_append, mem_living (inv.step op)]
    intro hr
    refine ih ?_
    rcases step_cases _ _ op inv with e | ⟨o, e, ho⟩ | ⟨a, r, o, -, ha, -, -, e⟩ | ⟨i, -, e⟩
    · rwa [e] at hr
    · rw [e] at hr
      obtain ⟨h0, hh, hr⟩ := hr
      have back : ∀ b, Relation.ReflTransGen (Spec.Refers ((run (ops ++ more)).create o)) h0 b →
          Spec.Reached (run (ops ++ more)) b ∨ b = (run (ops ++ more)).objs.length := by
        intro b hb
        induction hb with
        | refl =>
          rcases List.mem_cons.1 hh with rfl | hh
          · exact Or.inr rfl
          · exact Or.inl ⟨h0, hh, .refl⟩
        | tail _ hbc ihb =>
          obtain ⟨ob, h1, h2⟩ := hbc
          rcases get_create h1 with h1 | ⟨rfl, rfl⟩
          · rcases ihb with ⟨g, hg, hgr⟩ | rfl
            · exact Or.inl ⟨g, hg, hgr.tail ⟨ob, h1, h2⟩⟩
            · exact absurd (lt_of_getElem? h1) (lt_irrefl _)
          · exact Or.inl ⟨_, (ho.keeps _ h2).1, .refl⟩
      rcases back j hr with h1 | rfl
      · exact h1
      · exact absurd hj' (lt_irrefl _)
    · rw [e] at hr
      obtain ⟨h0, hh, hr⟩ := hr
      exact ⟨h0, hh, Relation.ReflTransGen.lift id (fun _ _ => (refers_bind ha _ _).1) _ _ hr⟩
    · rw [e] at hr
      obtain ⟨h0, hh, hr⟩ := hr
      exact ⟨h0, (List.mem_filter.1 hh).1, hr⟩

/-- C89, bases: the basis that an element or a local view points to exists as long as the element or view does, for every
program. So `bind` and `localView` of an element and all functions of a local view are defined. -/
theorem py_views (ops : List Op) (i : Nat) (o : Obj) (hi : i ∈ (run ops).living) (ho : (run ops).objs[i]? = some o)
    (b : Nat) (hb : b ∈ o.views) : b ∈ (run ops).living := by
  rw [py_living] at hi ⊢
  obtain ⟨h, hh, hr⟩ := hi
  exact ⟨h, hh, hr.trans ((inv_run ops).views i o ho b hb)⟩

/-- C89, elements, assemblers and writers: if no requirement that an assembler was bound to and no boundary patch that a
load was made of is deleted, every object that the program has a variable for can be used. Missing: the other programs,
for which this is false. -/
theorem py_use_partial (ops : List Op)
    (hreq : ∀ i, Op.del i ∈ ops → Op.load i ∉ ops ∧ ∀ a, Op.bind a i ∉ ops)
    (i : Nat) (hi : i ∈ (run ops).held) : (run ops).usable i = true := by
  have inv := inv_run ops
  have hp : ∀ (k : Nat) (o : Obj), (run ops).objs[k]? = some o → ∀ p ∈ o.patches, p ∈ (run ops).living := fun k o ho p hp =>
    held_living inv ((inv.patches k o ho p hp).2 fun hd => (hreq p hd).1 (inv.patches k o ho p hp).1)
  have hb : ∀ (k : Nat) (o : Obj), (run ops).objs[k]? = some o → ∀ r, o.bound = some r → r ∈ (run ops).living := fun k o ho r hr =>
    held_living inv ((inv.bound k o ho r hr).2.1 fun hd => by
      obtain ⟨⟨a, ha⟩, -⟩ := inv.bound k o ho r hr
      exact (hreq r hd).2 a ha)
  refine List.all_eq_true.2 fun j hj => decide_eq_true ?_
  unfold reads at hj
  split at hj
  · simp at hj
  case h_2 o ho =>
    simp only [List.mem_append, Option.mem_toList] at hj
    rcases hj with ((hj | hj) | hj) | hj
    · exact py_views ops i o (held_living inv hi) ho j hj
    · exact hp i o ho j hj
    · exact hb i o ho j hj
    · split at hj
      · simp at hj
      case h_2 a ha =>
        rcases List.mem_cons.1 hj with rfl | hj
        · exact (mem_living inv j).2 ⟨i, hi, .single ⟨o, ho, inv.writes i o ho j ha⟩⟩
        · split at hj
          · simp at hj
          case h_2 oa hoa =>
            rcases List.mem_append.1 hj with hj | hj
            · exact hp a oa hoa j hj
            · exact hb a oa hoa j (Option.mem_toList.1 hj)

/-- C89, bound assemblers: an assembler that is bound to a requirement can be used exactly as long as the caller has a
variable for the requirement itself and the patches of its elements live; nothing else keeps the requirement alive. -/
theorem py_bound_requirement (ops : List Op) (a r : Nat) (o : Obj) (ho : (run ops).objs[a]? = some o)
    (hk : o.views = [] ∧ o.writes = none) (hr : o.bound = some r) :
    (run ops).usable a = true ↔ r ∈ (run ops).held ∧ ∀ p ∈ o.patches, p ∈ (run ops).living := by
  have inv := inv_run ops
  have hlive : r ∈ (run ops).living ↔ r ∈ (run ops).held := by
    refine ⟨fun h => ?_, held_living inv⟩
    obtain ⟨h0, hh, hrt⟩ := (mem_living inv r).1 h
    cases Relation.ReflTransGen.cases_tail hrt with
    | inl e => rw [e]; exact hh
    | inr e =>
      obtain ⟨b, -, ob, h1, h2⟩ := e
      obtain ⟨ok, h3, h4⟩ := inv.keeps_kind b ob h1 r h2
      obtain ⟨-, -, ro, h5, h6⟩ := inv.bound a o ho r hr
      rw [h3] at h5
      exact absurd (Option.some.inj h5 ▸ h6) h4
  simp only [usable, reads, ho, hk, hr, List.nil_append, List.append_nil, List.all_eq_true, decide_eq_true_eq,
    Option.toList_some, List.mem_append, List.mem_singleton]
  rw [← hlive]
  constructor
  · exact fun h => ⟨h r (Or.inr rfl), fun p hp => h p (Or.inl hp)⟩
  · rintro ⟨h1, h2⟩ j (hj | rfl)
    · exact h2 j hj
    · exact h1

/-- What skills, patches, bases, views, Dirichlet values and requirements point to. -/
def Simple (o : Obj) : Prop :=
  o.kind ∉ [Kind.fe, .assembler, .writer] → (∀ p ∈ o.patches, p ∈ o.keeps) ∧ o.bound = none ∧ o.writes = none

theorem simple_run (ops : List Op) (i : Nat) (o : Obj) (ho : (run ops).objs[i]? = some o) : Simple o := by
  induction ops using List.reverseRecOn generalizing i o with
  | nil => simp [run] at ho
  | append_singleton ops op ih =>
    rw [run_append] at ho
    have hc : ∀ n : Obj, Simple n → ((run ops).create n).objs[i]? = some o → Simple o := fun n hn h => by
      rcases get_create h with h | ⟨-, rfl⟩
      · exact ih i o h
      · exact hn
    unfold step at ho
    split at ho
    · split at ho
      case h_6 => exact ih i o ho
      all_goals exact hc _ (fun _ => ⟨by simp, rfl, rfl⟩) ho
    · split at ho
      · exact ih i o ho
      · exact hc _ (fun _ => ⟨by simp, rfl, rfl⟩) ho
    · split at ho
      · exact hc _ (fun h => absurd (by simp) h) ho
      · exact ih i o ho
    · split at ho
      · exact ih i o ho
      · exact hc _ (fun _ => ⟨by simp, rfl, rfl⟩) ho
    · split at ho
      · exact ih i o ho
      · exact hc _ (fun _ => ⟨by simp, rfl, rfl⟩) ho
    · split at ho
      · exact hc _ (fun h => absurd (by simp) h) ho
      · exact ih i o ho
    · split at ho
      · exact ih i o ho
      · exact hc _ (fun h => absurd (by simp) h) ho
    · split at ho
      case h_1 oa _ ha _ =>
        rcases List.getElem?_set .. ▸ ho with ho
        split at ho
        · split at ho
          · obtain rfl := Option.some.inj ho
            exact fun h => absurd (by simp [(arg_some ha).2.2]) h
          · simp at ho
        · exact ih i o ho
      case h_2 => exact ih i o ho
    · split at ho
      · exact ih i o ho
      · exact hc _ (fun h => absurd (by simp) h) ho
    · exact ih i o ho

/-- C89, skills, local views, Dirichlet values and the rest: only elements, assemblers and writers can become unusable. Every
other object that the program has a variable for can be used, whatever was deleted; a load keeps its patch alive. -/
theorem py_simple (ops : List Op) (i : Nat) (o : Obj) (hi : i ∈ (run ops).held) (ho : (run ops).objs[i]? = some o)
    (hk : o.kind ∉ [Kind.fe, .assembler, .writer]) : (run ops).usable i = true := by
  have inv := inv_run ops
  obtain ⟨h1, h2, h3⟩ := simple_run ops i o ho hk
  refine List.all_eq_true.2 fun j hj => decide_eq_true ?_
  simp only [reads, ho, h2, h3, Option.toList_none, List.append_nil, List.mem_append] at hj
  rcases hj with hj | hj
  · exact py_views ops i o (held_living inv hi) ho j hj
  · exact (mem_living inv j).2 ⟨i, hi, .single ⟨o, ho, h1 j hj⟩⟩

/-- A program: a basis, an element with a material, Dirichlet values, an assembler and a requirement. -/
def setup : List Op :=
  [.make .basis, .make .skill, .fe 0 [1], .make .flat, .dirichlet 3, .assembler [2] 4, .make .requirement]

/-- The same with a boundary load. -/
def setupLoad : List Op :=
  [.make .basis, .make .patch, .load 1, .fe 0 [2], .make .flat, .dirichlet 4, .assembler [3] 5, .make .requirement]

/-- C89, refuted in general: an assembler that is bound to a requirement, as it is when a function sets it up and returns
it, reads a requirement that was destroyed. -/
theorem bound_requirement_not_kept : ¬ Spec.UsableWhileHeld := fun h =>
  absurd (h (setup ++ [.bind 5 6, .del 6]) 5 (by decide)) (by decide)

/-- C89, refuted for boundary loads: an element made with a boundary load reads the patch after it was destroyed; the
load keeps the patch alive, but the element does not keep the load. -/
theorem patch_not_kept : ¬ Spec.UsableUnbound := fun h =>
  absurd (h (setupLoad ++ [.del 1, .del 2]) (by intro a r hm; simp [setupLoad] at hm) 3 (by decide)) (by decide)

-- everything but requirement and patch may be deleted: the assembler and the writer of its results can still be used
example : (run (setupLoad ++ [.bind 6 7, .writer 6, .del 0, .del 2, .del 3, .del 4, .del 5])).held = [8, 7, 6, 1] ∧
    (run (setupLoad ++ [.bind 6 7, .writer 6, .del 0, .del 2, .del 3, .del 4, .del 5])).usable 8 = true ∧
    (run (setupLoad ++ [.bind 6 7, .writer 6, .del 0, .del 2, .del 3, .del 4, .del 5])).usable 6 = true := by decide

-- a load can be used after its patch was deleted
example : (run (setupLoad ++ [.del 1])).held = [7, 6, 5, 4, 3, 2, 0] ∧ (run (setupLoad ++ [.del 1])).reads 2 = [1] ∧
    (run (setupLoad ++ [.del 1])).usable 2 = true := by decide

-- a local view keeps its element and the basis alive, and the deleted Dirichlet values live with the assembler
example : (run (setup ++ [.localView 2, .del 0, .del 2, .del 4])).living = [0, 1, 2, 3, 4, 5, 6, 7] := by
  decide

-- the writer reads the requirement that its assembler was bound to
example : (run (setup ++ [.bind 5 6, .writer 5, .del 6])).usable 7 = false := by decide

-- the theorems for the assembler of this program after names were deleted
example := py_dead_stays_dead (setup ++ [.del 6]) [.bind 5 5, .writer 5] 6 (by decide) (by decide)

example := py_views (setup ++ [.localView 2, .del 0]) 7 _ (by decide) rfl

example := py_use_partial (setup ++ [.bind 5 6, .del 0, .del 2]) (by
  intro i hi
  simp [setup] at hi
  rcases hi with rfl | rfl <;> simp [setup]) 5 (by decide)

example := py_bound_requirement (setup ++ [.bind 5 6, .del 0]) 5 6 _ rfl ⟨rfl, rfl⟩ rfl

example := py_simple (setup ++ [.del 3]) 4 _ (by decide) rfl (by decide)

end PyAlive

end Ikarus
