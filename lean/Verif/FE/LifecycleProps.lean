import Verif.FE.LifecycleModel
import Verif.FE.EASDecisionProps
import Verif.Material.InversionModel
import Mathlib.Tactic.NormNum
import Mathlib.Tactic.Linarith

/-!
Elements with internal variables over their life: which number of internal variables they work with, for which element of the
grid and from which values, whatever was called before.
-/

namespace Ikarus.Element.EAS

variable {G R : Type}

namespace Spec

/-- An element as its user thinks of it: the number of internal variables chosen last, the rule given last, where it is bound,
and the internal variables. -/
structure Seen (G R : Type) where
  number : Int
  rule : Option R
  place : Option G
  alpha : List ℝ

/-- A call that was accepted. Choosing a number and binding start from zero. -/
def Seen.accept : Op G R → Seen G R → Seen G R
  | .choose n, v => { v with number := n, alpha := List.replicate n.toNat 0 }
  | .bind e, v => { v with place := some e, alpha := List.replicate v.number.toNat 0 }
  | .bindRule r e, v => { v with rule := some r, place := some e, alpha := List.replicate v.number.toNat 0 }
  | .update delta, v => { v with alpha := v.alpha.mapIdx fun i a => a - delta i }

/-- Calls with what they did; a call that was rejected changes nothing. -/
def Seen.after : List (Op G R × Bool) → Seen G R → Seen G R
  | [], v => v
  | (op, true) :: rest, v => Seen.after rest (v.accept op)
  | (_, false) :: rest, v => Seen.after rest v

/-- Elements that can be enhanced: quadrilaterals with four or nine nodes, bricks with eight. -/
def Supports (dim nodes : Nat) : Prop := (nodes, dim) ∈ [(4, 2), (9, 2), (8, 3)]

instance (dim nodes : Nat) : Decidable (Supports dim nodes) := by unfold Supports; infer_instance

/-- What the user expects evaluations to work with. -/
def Seen.answer (dim : Nat) (grid : Grid G R) (v : Seen G R) : Answer G R (List ℝ) :=
  match v.place with
  | none => .undefined
  | some e => if v.number = 0 ∨ Supports dim (grid.nodes e) then .from e v.rule v.number.toNat (some e) v.alpha else .throws

/-- A call that binds. -/
def binds : Op G R → Bool
  | .bind _ => true
  | .bindRule _ _ => true
  | _ => false

/-- The state after the constructor and some calls. -/
def life (f : StrainFunction) (dim : Nat) (grid : Grid G R) (junk n : Int) (ops : List (Op G R)) :
    Body G R × List Bool := ((Body.make f dim junk n).1).run f dim grid ops

/-- What the user sees of a life. -/
def seen (f : StrainFunction) (dim : Nat) (grid : Grid G R) (junk n : Int) (ops : List (Op G R)) : Seen G R :=
  Seen.after (ops.zip (life f dim grid junk n ops).2) ⟨n, none, none, List.replicate n.toNat 0⟩

/-- The claim in full: whatever was called, evaluations work with what the user sees. -/
def Follows (G R : Type) : Prop :=
  ∀ (f : StrainFunction) (dim : Nat) (grid : Grid G R) (junk n : Int) (ops : List (Op G R)), dim = 2 ∨ dim = 3 →
    (life f dim grid junk n ops).1.answer dim = (seen f dim grid junk n ops).answer dim grid

/-- The claim in full: a rejected call has no effect on what is accepted later. -/
def Harmless (G R : Type) : Prop :=
  ∀ (f : StrainFunction) (dim : Nat) (grid : Grid G R) (junk n : Int) (ops : List (Op G R)) (op next : Op G R),
    dim = 2 ∨ dim = 3 →
    let s := (life f dim grid junk n ops).1
    (s.step f dim grid op).2 = false →
    ((s.step f dim grid op).1.step f dim grid next).2 = (s.step f dim grid next).2

/-- The claim in full: internal variables can not be chosen on elements that do not support them. -/
def RefusesUnsupported (G R : Type) : Prop :=
  ∀ (f : StrainFunction) (dim : Nat) (grid : Grid G R) (junk n k : Int) (ops : List (Op G R)) (e : G),
    dim = 2 ∨ dim = 3 →
    let s := (life f dim grid junk n ops).1
    s.place = some e → k ≠ 0 → ¬ Supports dim (grid.nodes e) → (s.step f dim grid (.choose k)).2 = false

end Spec

open Ikarus.Element.EAS.Spec

/-- The relation of an element and what its user sees, as long as no binding is rejected. -/
structure Related (f : StrainFunction) (dim : Nat) (grid : Grid G R) (s : Body G R) (v : Seen G R) : Prop where
  place : s.place = v.place
  geometry : s.geometry = v.place
  rule : s.rule = v.rule
  number : s.number = v.number ∨ createEASType f dim s.number = none
  free : v.place = none → s.var.1 = 0 ∧ s.number = v.number
  bound : ∀ e, v.place = some e → s.nodes = grid.nodes e ∧ s.var = (v.number.toNat, some e) ∧ s.alpha = v.alpha ∧
    createEASType f dim v.number = some v.number.toNat ∧ v.alpha.length = v.number.toNat

theorem createEASType_toNat {f : StrainFunction} {dim : Nat} (hd : dim = 2 ∨ dim = 3) {k : Int} {m : Nat}
    (h : createEASType f dim k = some m) : m = k.toNat ∧ createEASType f dim k = some k.toNat := by
  have := ((createEASType_iff f hd k m).1 h).1
  have e : m = k.toNat := by omega
  exact ⟨e, e ▸ h⟩

theorem setEASType_cases (f : StrainFunction) (dim : Nat) (n : Int) (s : Body G R) :
    (n ≠ 0 ∧ s.check dim = false ∧ s.setEASType f dim n = (s, false)) ∨
    (s.geometry.isSome = true ∧ createEASType f dim n = none ∧ s.setEASType f dim n = ({ s with number := n }, false)) ∨
    (∃ m, s.geometry.isSome = true ∧ createEASType f dim n = some m ∧ s.setEASType f dim n =
      ({ s with number := n, var := (m, s.geometry), alpha := List.replicate m 0 }, true)) ∨
    (s.geometry = none ∧ s.setEASType f dim n =
      ({ s with number := n, alpha := List.replicate s.var.1 0 }, true)) := by
  unfold Body.setEASType
  by_cases h1 : n ≠ 0 ∧ s.check dim = false
  · exact Or.inl ⟨h1.1, h1.2, by rw [if_pos h1]⟩
  · right
    rw [if_neg h1]
    dsimp only
    by_cases h2 : s.geometry.isSome = true
    · rw [if_pos h2]
      unfold Body.create
      dsimp only
      cases hc : createEASType f dim n with
      | none => exact Or.inl ⟨h2, rfl, rfl⟩
      | some m => exact Or.inr (Or.inl ⟨m, h2, rfl, rfl⟩)
    · rw [if_neg h2]
      exact Or.inr (Or.inr ⟨by simpa using h2, rfl⟩)

theorem update_cases (dim : Nat) (delta : Nat → ℝ) (s : Body G R) :
    (s.check dim = false ∧ s.update dim delta = (s, false)) ∨
    (s.var.1 = 0 ∧ s.update dim delta = (s, true)) ∨
    (s.var.1 ≠ 0 ∧ s.update dim delta = ({ s with alpha := s.alpha.mapIdx fun i a => a - delta i }, true)) := by
  unfold Body.update
  by_cases h1 : s.check dim = false
  · exact Or.inl ⟨h1, by rw [if_pos h1]⟩
  · right
    rw [if_neg h1]
    by_cases h2 : s.var.1 = 0
    · exact Or.inl ⟨h2, by rw [if_pos h2]⟩
    · exact Or.inr ⟨h2, by rw [if_neg h2]⟩

theorem Related.init (f : StrainFunction) (dim : Nat) (grid : Grid G R) (junk n : Int) :
    Related f dim grid (Body.make (G := G) (R := R) f dim junk n).1 ⟨n, none, none, List.replicate n.toNat 0⟩ := by
  have : (Body.make (G := G) (R := R) f dim junk n).1 = ⟨none, none, 0, none, (0, none), n, []⟩ := by
    simp [Body.make, Body.setEASType, Body.check, applicable, Body.initializeState]
  rw [this]
  exact ⟨rfl, rfl, rfl, Or.inl rfl, fun _ => ⟨rfl, rfl⟩, by simp⟩

theorem Related.bind {f : StrainFunction} {dim : Nat} (hd : dim = 2 ∨ dim = 3) {grid : Grid G R} {s : Body G R}
    {v : Seen G R} (hn : s.number = v.number ∨ createEASType f dim s.number = none) (hr : s.rule = v.rule) (e : G)
    (ok : (s.bind f dim grid e).2 = true) :
    Related f dim grid (s.bind f dim grid e).1 (v.accept (.bind e)) := by
  unfold Body.bind Body.create at ok ⊢
  dsimp only at ok ⊢
  rcases hn with hn | hn
  swap
  · rw [hn] at ok; simp at ok
  cases hc : createEASType f dim s.number with
  | none => rw [hc] at ok; simp at ok
  | some m =>
    obtain ⟨rfl, hc'⟩ := createEASType_toNat hd hc
    dsimp only
    refine ⟨rfl, rfl, hr, Or.inl hn, by simp [Seen.accept], ?_⟩
    intro e' he'
    simp only [Seen.accept, Option.some.injEq] at he'
    subst he'
    rw [hn] at hc'
    simp [Body.initializeState, Seen.accept, hn, hc']

theorem Related.step {f : StrainFunction} {dim : Nat} (hd : dim = 2 ∨ dim = 3) {grid : Grid G R} {s : Body G R}
    {v : Seen G R} (h : Related f dim grid s v) (op : Op G R) (hb : binds op = true → (s.step f dim grid op).2 = true) :
    Related f dim grid (s.step f dim grid op).1 (if (s.step f dim grid op).2 then v.accept op else v) := by
  cases op with
  | bind e =>
    have ok := hb rfl
    rw [if_pos ok]
    exact Related.bind hd h.number h.rule e ok
  | bindRule r e =>
    have ok := hb rfl
    rw [if_pos ok]
    exact Related.bind (v := { v with rule := some r }) hd (s := { s with rule := some r }) h.number rfl e ok
  | choose n =>
    rcases setEASType_cases f dim n s with ⟨_, _, e⟩ | ⟨h2, hc, e⟩ | ⟨m, h2, hc, e⟩ | ⟨h2, e⟩ <;>
      simp only [Body.step, e, Bool.false_eq_true, if_false, if_true]
    · exact h
    · have hp : v.place ≠ none := by
        intro e; rw [h.geometry, e] at h2; simp at h2
      exact ⟨h.place, h.geometry, h.rule, Or.inr hc, fun e => absurd e hp, h.bound⟩
    · obtain ⟨rfl, hc'⟩ := createEASType_toNat hd hc
      refine ⟨h.place, h.geometry, h.rule, Or.inl rfl, ?_, ?_⟩
      · intro e
        have e' : v.place = none := e
        rw [h.geometry, e'] at h2; simp at h2
      · intro e he
        have he' : v.place = some e := he
        refine ⟨(h.bound e he').1, ?_, rfl, hc', by simp [Seen.accept]⟩
        simp [Seen.accept, h.geometry, he']
    · have hp : v.place = none := by rw [← h.geometry]; exact h2
      refine ⟨h.place, h.geometry, h.rule, Or.inl rfl, fun _ => ⟨(h.free hp).1, rfl⟩, ?_⟩
      intro e he
      have he' : v.place = some e := he
      rw [hp] at he'; cases he'
  | update delta =>
    rcases update_cases dim delta s with ⟨_, e⟩ | ⟨h2, e⟩ | ⟨_, e⟩ <;>
      simp only [Body.step, e, Bool.false_eq_true, if_false, if_true]
    · exact h
    · refine ⟨h.place, h.geometry, h.rule, h.number, h.free, ?_⟩
      intro e he
      have he' : v.place = some e := he
      obtain ⟨a, b, c, d, l⟩ := h.bound e he'
      have hz : v.alpha = [] := by
        rw [← List.length_eq_zero_iff, l]
        rw [b] at h2; exact h2
      refine ⟨a, b, ?_, d, ?_⟩ <;> simp [Seen.accept, c, hz]
      rw [← l, hz]; rfl
    · refine ⟨h.place, h.geometry, h.rule, h.number, h.free, ?_⟩
      intro e he
      have he' : v.place = some e := he
      obtain ⟨a, b, c, d, l⟩ := h.bound e he'
      refine ⟨a, b, ?_, d, ?_⟩ <;> simp [Seen.accept, c, l]

theorem Related.run {f : StrainFunction} {dim : Nat} (hd : dim = 2 ∨ dim = 3) {grid : Grid G R} (ops : List (Op G R)) :
    ∀ {s : Body G R} {v : Seen G R}, Related f dim grid s v →
    (∀ p ∈ ops.zip (s.run f dim grid ops).2, binds p.1 = true → p.2 = true) →
    Related f dim grid (s.run f dim grid ops).1 (v.after (ops.zip (s.run f dim grid ops).2)) := by
  induction ops with
  | nil => intro s v h _; exact h
  | cons op ops ih =>
    intro s v h hb
    simp only [Body.run, List.zip_cons_cons, List.mem_cons, forall_eq_or_imp] at hb ⊢
    have h1 := h.step hd op hb.1
    cases hok : (s.step f dim grid op).2 with
    | true =>
      rw [if_pos hok] at h1
      exact ih h1 hb.2
    | false =>
      rw [if_neg (by simp [hok])] at h1
      exact ih h1 hb.2

/-- C113, enhanced strains. As long as no binding is rejected, an element evaluates with the number of internal variables chosen
last, for the element of the grid and with the rule it was bound to last, with internal variables that started from zero then;
it throws if the element of the grid does not support internal variables. The claim in full, without the assumption, is false:
`eas_follows_false`. -/
theorem eas_follows_partial (f : StrainFunction) (dim : Nat) (hd : dim = 2 ∨ dim = 3) (grid : Grid G R) (junk n : Int)
    (ops : List (Op G R))
    (hb : ∀ p ∈ ops.zip (life f dim grid junk n ops).2, binds p.1 = true → p.2 = true) :
    (life f dim grid junk n ops).1.answer dim = (seen f dim grid junk n ops).answer dim grid := by
  have h := (Related.init f dim grid junk n).run hd ops hb
  unfold seen life
  generalize ((Body.make f dim junk n).1.run f dim grid ops).2 = oks at *
  generalize ((Body.make f dim junk n).1.run f dim grid ops).1 = s at *
  generalize Seen.after (ops.zip oks) _ = v at *
  unfold Body.answer Seen.answer
  rw [h.place]
  cases hv : v.place with
  | none => rfl
  | some e =>
    obtain ⟨a, b, c, d, l⟩ := h.bound e hv
    dsimp only
    have hnn : 0 ≤ v.number := by have := ((createEASType_iff f hd _ _).1 d).1; omega
    have : s.check dim = true ↔ v.number = 0 ∨ Supports dim (grid.nodes e) := by
      rw [Body.check, applicable_iff, a, b]
      simp only [Supports]
      have : v.number.toNat = 0 ↔ v.number = 0 := by omega
      rw [this]
    by_cases hc : s.check dim = true
    · rw [if_pos hc, if_pos (this.1 hc), h.rule, b, c]
    · rw [if_neg hc, if_neg (fun h => hc (this.2 h))]

/-- What holds after all calls, whatever was rejected. -/
structure Invariant (f : StrainFunction) (dim : Nat) (grid : Grid G R) (s : Body G R) (v : Seen G R) : Prop where
  number : s.number = v.number ∨ createEASType f dim s.number = none
  geometry : s.geometry = s.place
  nodes : ∀ e, s.place = some e → s.nodes = grid.nodes e
  size : s.alpha.length = s.var.1

theorem Invariant.run {f : StrainFunction} {dim : Nat} {grid : Grid G R} (ops : List (Op G R)) :
    ∀ {s : Body G R} {v : Seen G R}, Invariant f dim grid s v →
    Invariant f dim grid (s.run f dim grid ops).1 (v.after (ops.zip (s.run f dim grid ops).2)) := by
  have bind : ∀ (e : G) {s : Body G R} {v w : Seen G R}, w.number = v.number → Invariant f dim grid s v →
      Invariant f dim grid (s.bind f dim grid e).1 w := by
    intro e s v w hw h
    have h1 := h.number
    rw [← hw] at h1
    unfold Body.bind Body.create
    dsimp only
    cases hc : createEASType f dim s.number with
    | none => exact ⟨h1, rfl, by simp, h.size⟩
    | some m => exact ⟨h1, rfl, by simp [Body.initializeState], by simp [Body.initializeState]⟩
  induction ops with
  | nil => intro s v h; exact h
  | cons op ops ih =>
    intro s v h
    simp only [Body.run, List.zip_cons_cons]
    have key : Invariant f dim grid (s.step f dim grid op).1 (if (s.step f dim grid op).2 then v.accept op else v) := by
      cases op with
      | bind e => exact bind e (by split_ifs <;> rfl) h
      | bindRule r e =>
        refine bind e (s := { s with rule := some r }) (v := v) (by split_ifs <;> rfl) ⟨h.number, h.geometry, h.nodes, h.size⟩
      | choose n =>
        rcases setEASType_cases f dim n s with ⟨_, _, e⟩ | ⟨h2, hc, e⟩ | ⟨m, h2, hc, e⟩ | ⟨h2, e⟩ <;>
          simp only [Body.step, e, Bool.false_eq_true, if_false, if_true]
        · exact h
        · exact ⟨Or.inr hc, h.geometry, h.nodes, h.size⟩
        · exact ⟨Or.inl rfl, h.geometry, h.nodes, by simp⟩
        · exact ⟨Or.inl rfl, h.geometry, h.nodes, by simp⟩
      | update delta =>
        rcases update_cases dim delta s with ⟨_, e⟩ | ⟨h2, e⟩ | ⟨_, e⟩ <;>
          simp only [Body.step, e, Bool.false_eq_true, if_false, if_true]
        · exact h
        · exact ⟨h.number, h.geometry, h.nodes, h.size⟩
        · exact ⟨h.number, h.geometry, h.nodes, by simpa using h.size⟩
    cases hok : (s.step f dim grid op).2 with
    | true => rw [if_pos hok] at key; exact ih key
    | false => rw [if_neg (by simp [hok])] at key; exact ih key

theorem Invariant.life (f : StrainFunction) (dim : Nat) (grid : Grid G R) (junk n : Int) (ops : List (Op G R)) :
    Invariant f dim grid (life f dim grid junk n ops).1 (seen f dim grid junk n ops) := by
  refine Invariant.run ops ?_
  have : (Body.make (G := G) (R := R) f dim junk n).1 = ⟨none, none, 0, none, (0, none), n, []⟩ := by
    simp [Body.make, Body.setEASType, Body.check, applicable, Body.initializeState]
  rw [this]
  exact ⟨Or.inl rfl, rfl, by simp, rfl⟩

/-- C113, enhanced strains, size. After all calls, rejected or not, there are as many internal variables as the enhancing function
has parameters: no evaluation reads beyond them. -/
theorem eas_size (f : StrainFunction) (dim : Nat) (grid : Grid G R) (junk n : Int) (ops : List (Op G R)) :
    (life f dim grid junk n ops).1.alpha.length = (life f dim grid junk n ops).1.var.1 :=
  (Invariant.life f dim grid junk n ops).size

/-- C113, enhanced strains, unsupported elements. After all calls, rejected or not, no evaluation on an element of the grid that
does not support internal variables works with internal variables. -/
theorem eas_unsupported (f : StrainFunction) (dim : Nat) (grid : Grid G R) (junk n : Int) (ops : List (Op G R))
    (e : G) (r : Option R) (m : Nat) (g : Option G) (alpha : List ℝ)
    (h : (life f dim grid junk n ops).1.answer dim = .from e r m g alpha) : m = 0 ∨ Supports dim (grid.nodes e) := by
  have inv := Invariant.life f dim grid junk n ops
  generalize (life f dim grid junk n ops).1 = s at *
  unfold Body.answer at h
  cases hp : s.place with
  | none => rw [hp] at h; simp at h
  | some e' =>
    rw [hp] at h
    dsimp only at h
    by_cases hc : s.check dim = true
    · rw [if_pos hc] at h
      injection h with h1 h2 h3 h4 h5
      subst h1 h3
      rw [Body.check, applicable_iff, inv.nodes _ hp] at hc
      exact hc
    · rw [if_neg hc] at h; cases h

/-- C113, enhanced strains, recovery. After all calls, rejected or not, binding succeeds only with an available number of internal
variables, which is then the one of the last accepted choice, and leaves the element as if it were new. -/
theorem eas_recovers (f : StrainFunction) (dim : Nat) (hd : dim = 2 ∨ dim = 3) (grid : Grid G R) (junk n : Int)
    (ops : List (Op G R)) (e : G) (r : R)
    (ok : ((life f dim grid junk n ops).1.step f dim grid (.bindRule r e)).2 = true) :
    (seen f dim grid junk n ops).number.toNat ∈ Spec.variants f dim ∧
    ((life f dim grid junk n ops).1.step f dim grid (.bindRule r e)).1.answer dim =
      (life f dim grid 0 (seen f dim grid junk n ops).number [.bindRule r e]).1.answer dim := by
  have inv := Invariant.life f dim grid junk n ops
  generalize (life f dim grid junk n ops).1 = s at *
  generalize seen f dim grid junk n ops = v at *
  have hn := inv.number
  simp only [Body.step, Body.bindRule, Body.bind, Body.create] at ok
  rcases hn with hn | hn
  swap
  · rw [hn] at ok; simp at ok
  cases hc : createEASType f dim s.number with
  | none => rw [hc] at ok; simp at ok
  | some m =>
    have hm : (Body.make (G := G) (R := R) f dim 0 v.number).1 = ⟨none, none, 0, none, (0, none), v.number, []⟩ := by
      simp [Body.make, Body.setEASType, Body.check, applicable, Body.initializeState]
    rw [hn] at hc
    obtain ⟨h1, h2⟩ := (createEASType_iff f hd _ _).1 hc
    refine ⟨by rwa [← h1], ?_⟩
    simp only [life, Body.run, hm, Body.step, Body.bindRule, Body.bind, Body.create, hc, hn, Body.initializeState,
      Body.answer, Body.check]

/-- C113, enhanced strains, accepted calls. Choosing available numbers and binding to elements of the grid that support internal
variables is always accepted, in every order, and so are updates. -/
theorem eas_accepts (f : StrainFunction) (dim : Nat) (hd : dim = 2 ∨ dim = 3) (grid : Grid G R) (junk n : Int)
    (ops : List (Op G R)) (hn : 0 ≤ n ∧ n.toNat ∈ Spec.variants f dim)
    (hops : ∀ op ∈ ops, match op with
      | .choose k => 0 ≤ k ∧ k.toNat ∈ Spec.variants f dim
      | .bind e => Supports dim (grid.nodes e)
      | .bindRule _ e => Supports dim (grid.nodes e)
      | .update _ => True) :
    (Body.make (G := G) (R := R) f dim junk n).2 = true ∧
      (life f dim grid junk n ops).2 = List.replicate ops.length true := by
  have hc : ∀ k : Int, 0 ≤ k ∧ k.toNat ∈ Spec.variants f dim → createEASType f dim k = some k.toNat := by
    intro k hk
    rw [createEASType_iff f hd]
    exact ⟨by omega, hk.2⟩
  have hm : Body.make (G := G) (R := R) f dim junk n = (⟨none, none, 0, none, (0, none), n, []⟩, true) := by
    simp [Body.make, Body.setEASType, Body.check, applicable, Body.initializeState]
  refine ⟨by rw [hm], ?_⟩
  unfold life
  rw [hm]
  dsimp only
  have key : ∀ (ops : List (Op G R)), (∀ op ∈ ops, match op with
      | .choose k => 0 ≤ k ∧ k.toNat ∈ Spec.variants f dim
      | .bind e => Supports dim (grid.nodes e)
      | .bindRule _ e => Supports dim (grid.nodes e)
      | .update _ => True) → ∀ s : Body G R, s.check dim = true →
      (s.geometry.isSome = true → Supports dim s.nodes) → 0 ≤ s.number ∧ s.number.toNat ∈ Spec.variants f dim →
      (s.run f dim grid ops).2 = List.replicate ops.length true := by
    intro ops
    induction ops with
    | nil => intros; rfl
    | cons op ops ih =>
      intro h s hs hsup hk
      rw [List.forall_mem_cons] at h
      have h1 : (s.step f dim grid op).2 = true ∧ (s.step f dim grid op).1.check dim = true ∧
          ((s.step f dim grid op).1.geometry.isSome = true → Supports dim (s.step f dim grid op).1.nodes) ∧
          0 ≤ (s.step f dim grid op).1.number ∧ (s.step f dim grid op).1.number.toNat ∈ Spec.variants f dim := by
        cases op with
        | choose k =>
          have hk' := h.1
          dsimp only at hk'
          rcases setEASType_cases f dim k s with ⟨_, h2, e⟩ | ⟨h2, hcc, e⟩ | ⟨m, h2, hcc, e⟩ | ⟨h2, e⟩
          · rw [hs] at h2; cases h2
          · rw [hc k hk'] at hcc; cases hcc
          · rw [Body.step, e]
            refine ⟨rfl, ?_, hsup, hk'⟩
            rw [Body.check, applicable_iff]
            exact Or.inr (hsup h2)
          · rw [Body.step, e]
            exact ⟨rfl, hs, hsup, hk'⟩
        | bind e =>
          have he := h.1
          dsimp only at he
          simp only [Body.step, Body.bind, Body.create, hc _ hk]
          refine ⟨trivial, ?_, fun _ => he, hk⟩
          simp only [Body.check, applicable_iff, Body.initializeState]
          exact Or.inr he
        | bindRule r e =>
          have he := h.1
          dsimp only at he
          simp only [Body.step, Body.bindRule, Body.bind, Body.create, hc _ hk]
          refine ⟨trivial, ?_, fun _ => he, hk⟩
          simp only [Body.check, applicable_iff, Body.initializeState]
          exact Or.inr he
        | update delta =>
          rcases update_cases dim delta s with ⟨h2, e⟩ | ⟨h2, e⟩ | ⟨_, e⟩
          · rw [hs] at h2; cases h2
          · rw [Body.step, e]; exact ⟨rfl, hs, hsup, hk⟩
          · rw [Body.step, e]; exact ⟨rfl, hs, hsup, hk⟩
      simp only [Body.run, List.length_cons, List.replicate_succ]
      rw [h1.1, ih h.2 _ h1.2.1 h1.2.2.1 h1.2.2.2]
  exact key ops hops _ rfl (by simp) hn

/-- A grid with quadrilaterals (`true`) and triangles (`false`). -/
def exampleGrid : Grid Bool Unit := ⟨fun e => if e then 4 else 3, fun _ _ => 4⟩

/-- A grid with two quadrilaterals. -/
def twoQuadrilaterals : Grid Bool Unit := ⟨fun _ => 4, fun _ _ => 4⟩

/-- C113. Evaluations do not always work with what the user sees: after a number that is not available was rejected, binding to
the next element of the grid is rejected too, but only after the element has moved there. It then evaluates with enhancing
functions and internal variables of the old element of the grid. -/
theorem eas_follows_false : ¬ Follows Bool Unit := by
  intro h
  have := h .linear 2 twoQuadrilaterals 0 4 [.bind true, .choose 6, .bind false] (Or.inl rfl)
  simp [life, seen, Body.make, Body.run, Body.step, Body.setEASType, Body.bind, Body.create, Body.check, applicable,
    Body.initializeState, createEASType, Body.answer, Seen.answer, Seen.after, Seen.accept, twoQuadrilaterals,
    Supports] at this

/-- C113. A rejected choice is not without effect: the number stays behind, and binding to the same element of the grid, which
worked before, is rejected from then on. -/
theorem eas_harmless_false : ¬ Harmless Bool Unit := by
  intro h
  have := h .linear 2 twoQuadrilaterals 0 4 [.bind true] (.choose 6) (.bind true) (Or.inl rfl)
  simp [life, Body.make, Body.run, Body.step, Body.setEASType, Body.bind, Body.create, Body.check, applicable,
    Body.initializeState, createEASType, twoQuadrilaterals] at this

/-- C113. Internal variables can be chosen for a triangle: the check looks at the number that was there before. (All evaluations
throw afterwards, `eas_unsupported`.) -/
theorem eas_refusesUnsupported_false : ¬ RefusesUnsupported Bool Unit := by
  intro h
  have := h .linear 2 exampleGrid 0 0 4 [.bind false] false (Or.inl rfl)
  simp [life, Body.make, Body.run, Body.step, Body.setEASType, Body.bind, Body.create, Body.check, applicable,
    Body.initializeState, createEASType, exampleGrid, Supports] at this

example : (life .linear 2 exampleGrid 17 4 [.bind true, .update fun _ => 1, .choose 7, .bind true]).2 =
    [true, true, true, true] ∧
    (life .linear 2 exampleGrid 17 4 [.bind true, .update fun _ => -1]).1.answer 2 =
      .from true none 4 (some true) [1, 1, 1, 1] ∧
    (life .linear 2 exampleGrid 17 4 [.bind true, .choose 6, .choose 5]).2 = [true, false, true] := by
  simp [life, Body.make, Body.run, Body.step, Body.setEASType, Body.bind, Body.create, Body.check, applicable,
    Body.initializeState, createEASType, exampleGrid, Body.update, Body.answer, List.replicate, List.mapIdx_cons]

end Ikarus.Element.EAS

namespace Ikarus.Element.AssumedStress

open EAS (Op)

variable {G R V C : Type}

namespace Spec

/-- An element as its user thinks of it: the number of internal variables chosen last, the rule given last, where it is bound,
the internal variables, and strains and compliances at the integration points. -/
structure Seen (G R V C : Type) where
  number : Int
  rule : Option R
  place : Option G
  beta : List ℝ
  strains : List V
  compliances : List C

/-- The element without stresses: internal variables are zero, strains and compliances those of the material for no stress. -/
def Seen.fresh [Zero V] (grid : Grid G R) (parts : Parts G V C) (number : Int) (rule : Option R) (e : G) : Seen G R V C :=
  ⟨number, rule, some e, List.replicate number.toNat 0,
    List.replicate (grid.points e rule) (parts.inversion 0 0).2, List.replicate (grid.points e rule) (parts.inversion 0 0).1⟩

/-- A call that was accepted. Choosing a number and binding start without stresses; updates continue from the strains that
are there. -/
def Seen.accept [Zero V] (grid : Grid G R) (parts : Parts G V C) : Op G R → Seen G R V C → Seen G R V C
  | .choose n, v => match v.place with
    | some e => Seen.fresh grid parts n v.rule e
    | none => { v with number := n }
  | .bind e, v => Seen.fresh grid parts v.number v.rule e
  | .bindRule r e, v => Seen.fresh grid parts v.number (some r) e
  | .update delta, v => match v.place with
    | some e =>
      let beta := v.beta.mapIdx fun i b => b + delta i
      { v with
        beta := beta
        strains := v.strains.mapIdx fun k E => (parts.inversion (parts.stress e k beta) E).2
        compliances := v.strains.mapIdx fun k E => (parts.inversion (parts.stress e k beta) E).1 }
    | none => v

/-- Calls with what they did; a call that was rejected changes nothing. -/
def Seen.after [Zero V] (grid : Grid G R) (parts : Parts G V C) : List (Op G R × Bool) → Seen G R V C → Seen G R V C
  | [], v => v
  | (op, true) :: rest, v => Seen.after grid parts rest (v.accept grid parts op)
  | (_, false) :: rest, v => Seen.after grid parts rest v

/-- Elements that can have assumed stresses: quadrilaterals with four nodes, bricks with eight. -/
def Supports (dim nodes : Nat) : Prop := (nodes, dim) ∈ [(4, 2), (8, 3)]

instance (dim nodes : Nat) : Decidable (Supports dim nodes) := by unfold Supports; infer_instance

/-- What the user expects evaluations to work with. -/
def Seen.answer (dim : Nat) (grid : Grid G R) (v : Seen G R V C) : Answer G R (List ℝ × List V × List C) :=
  match v.place with
  | none => .undefined
  | some e => if Supports dim (grid.nodes e) then
      .from e v.rule v.number.toNat (some e) (v.beta, v.strains, v.compliances) else .throws

/-- The state after the constructor and some calls. -/
def life [Zero V] [Zero C] (dim : Nat) (grid : Grid G R) (parts : Parts G V C) (n : Int) (ops : List (Op G R)) :
    Body G R V C × List Bool := (Body.make dim n).run dim grid parts ops

/-- What the user sees of a life. -/
def seen [Zero V] [Zero C] (dim : Nat) (grid : Grid G R) (parts : Parts G V C) (n : Int) (ops : List (Op G R)) :
    Seen G R V C := Seen.after grid parts (ops.zip (life dim grid parts n ops).2) ⟨n, none, none, [], [], []⟩

/-- Stresses are linear in the internal variables: no internal variables, no stress. -/
def Parts.Centred [Zero V] (parts : Parts G V C) : Prop := ∀ e k m, parts.stress e k (List.replicate m 0) = 0

/-- The inversion of no stress does not depend on the strain it starts from. -/
def Parts.Settled [Zero V] (parts : Parts G V C) : Prop := ∀ E, parts.inversion 0 E = parts.inversion 0 0

/-- The claim in full for a kind of materials: if no binding is rejected, evaluations work with what the user sees. -/
def Follows (G R V C : Type) [Zero V] [Zero C] (inversions : (V → V → C × V) → Prop) : Prop :=
  ∀ (dim : Nat) (grid : Grid G R) (parts : Parts G V C) (n : Int) (ops : List (Op G R)), dim = 2 ∨ dim = 3 →
    Parts.Centred parts → inversions parts.inversion →
    (∀ p ∈ ops.zip (life dim grid parts n ops).2, EAS.Spec.binds p.1 = true → p.2 = true) →
    (life dim grid parts n ops).1.answer dim = (seen dim grid parts n ops).answer dim grid

/-- The claim in full: an evaluation finds a strain for each integration point. -/
def StatesForAllPoints (G R V C : Type) [Zero V] [Zero C] : Prop :=
  ∀ (dim : Nat) (grid : Grid G R) (parts : Parts G V C) (n : Int) (ops : List (Op G R)) (e : G) (r : Option R) (m : Nat)
    (g : Option G) (inner : List ℝ × List V × List C), dim = 2 ∨ dim = 3 →
    (life dim grid parts n ops).1.answer dim = .from e r m g inner → inner.2.1.length = grid.points e r

end Spec

open Ikarus.Element.AssumedStress.Spec

theorem length_resize {α : Type} (xs : List α) (n : Nat) (x : α) : (resize xs n x).length = n := by
  simp [resize]; omega

theorem createAssumedStressType_toNat {dim : Nat} {k : Int} {m : Nat} (h : createAssumedStressType dim k = some m) :
    m = k.toNat ∧ createAssumedStressType dim k = some k.toNat := by
  have e : m = k.toNat := by
    unfold createAssumedStressType at h
    split_ifs at h with h1 h2 h2 h3 h4 <;> simp at h <;> omega
  exact ⟨e, e ▸ h⟩

theorem mapIdx_eq_replicate {α β : Type} (xs : List α) (g : Nat → α → β) (b : β) (h : ∀ k x, g k x = b) :
    xs.mapIdx g = List.replicate xs.length b := by
  apply List.ext_getElem
  · simp
  · intro i h1 h2; simp [h]

theorem map_mapIdx_eq {α β γ : Type} (xs : List α) (g : Nat → α → β) (h : β → γ) :
    (xs.mapIdx g).map h = xs.mapIdx fun k x => h (g k x) := by
  apply List.ext_getElem
  · simp
  · intro i h1 h2; simp

theorem initializeState_fresh [Zero V] [Zero C] (grid : Grid G R) (parts : Parts G V C) (hc : Parts.Centred parts)
    (hs : Parts.Settled parts) (e : G) (s : Body G R V C) :
    (s.initializeState grid parts e) = { s with
      beta := List.replicate s.var.1 0
      strainStates := List.replicate (grid.points e s.rule) (parts.inversion 0 0).2
      inverted := List.replicate (grid.points e s.rule) (parts.inversion 0 0).1 } := by
  unfold Body.initializeState Body.calculateMaterialInversion
  dsimp only
  rw [mapIdx_eq_replicate _ _ (parts.inversion 0 0) (by intro k x; rw [hc, hs]), length_resize]
  simp

/-- The relation of an element and what its user sees, as long as no binding is rejected. -/
structure Related (dim : Nat) (grid : Grid G R) (s : Body G R V C) (v : Seen G R V C) : Prop where
  place : s.place = v.place
  geometry : s.geometry = v.place
  rule : s.rule = v.rule
  number : s.number = v.number ∨ createAssumedStressType dim s.number = none
  free : v.place = none → s.nodes = 0 ∧ s.number = v.number
  bound : ∀ e, v.place = some e → s.nodes = grid.nodes e ∧ s.var = (v.number.toNat, some e) ∧ s.beta = v.beta ∧
    s.strainStates = v.strains ∧ s.inverted = v.compliances

theorem Related.bind [Zero V] [Zero C] {dim : Nat} {grid : Grid G R} {parts : Parts G V C} (hc : Parts.Centred parts)
    (hs : Parts.Settled parts) {s : Body G R V C}
    {v : Seen G R V C} (hn : s.number = v.number ∨ createAssumedStressType dim s.number = none) (hr : s.rule = v.rule) (e : G)
    (ok : (s.bind dim grid parts e).2 = true) :
    Related dim grid (s.bind dim grid parts e).1 (Seen.fresh grid parts v.number v.rule e) := by
  unfold Body.bind Body.create at ok ⊢
  dsimp only at ok ⊢
  rcases hn with hn | hn
  swap
  · rw [hn] at ok; simp at ok
  cases hk : createAssumedStressType dim s.number with
  | none => rw [hk] at ok; simp at ok
  | some m =>
    obtain ⟨rfl, hk'⟩ := createAssumedStressType_toNat hk
    dsimp only
    rw [initializeState_fresh grid parts hc hs]
    refine ⟨rfl, rfl, hr, Or.inl hn, by simp [Seen.fresh], ?_⟩
    intro e' he'
    simp only [Seen.fresh, Option.some.injEq] at he'
    subst he'
    simp [Seen.fresh, hn, hr]

theorem setAssumedStressType_cases [Zero V] [Zero C] (dim : Nat) (grid : Grid G R) (parts : Parts G V C) (n : Int)
    (s : Body G R V C) :
    (s.check dim = false ∧ s.setAssumedStressType dim grid parts n = (s, false)) ∨
    (s.check dim = true ∧ s.geometry = none) ∨
    (∃ e, s.check dim = true ∧ s.geometry = some e ∧ createAssumedStressType dim n = none ∧
      s.setAssumedStressType dim grid parts n = ({ s with number := n }, false)) ∨
    (∃ e m, s.check dim = true ∧ s.geometry = some e ∧ createAssumedStressType dim n = some m ∧
      s.setAssumedStressType dim grid parts n =
        (({ s with number := n, var := (m, some e) } : Body G R V C).initializeState grid parts e, true)) := by
  unfold Body.setAssumedStressType
  by_cases h1 : s.check dim = false
  · exact Or.inl ⟨h1, by rw [if_pos h1]⟩
  · right
    rw [if_neg h1]
    have h1' : s.check dim = true := by simpa using h1
    dsimp only
    cases hg : s.geometry with
    | none => exact Or.inl ⟨h1', rfl⟩
    | some e =>
      right
      unfold Body.create
      dsimp only
      cases hc : createAssumedStressType dim n with
      | none => left; exact ⟨e, h1', rfl, rfl, by simp [← hg]⟩
      | some m => right; exact ⟨e, m, h1', rfl, rfl, rfl⟩

theorem update_cases (dim : Nat) (parts : Parts G V C) (delta : Nat → ℝ) (s : Body G R V C) :
    s.update dim parts delta = (s, false) ∨
    ∃ e, s.place = some e ∧ s.update dim parts delta =
      (({ s with beta := s.beta.mapIdx fun i b => b + delta i } : Body G R V C).calculateMaterialInversion parts e, true) := by
  unfold Body.update
  split
  · exact Or.inl rfl
  · rename_i e he
    split_ifs
    · exact Or.inl rfl
    · exact Or.inr ⟨e, he, rfl⟩

theorem Related.step [Zero V] [Zero C] {dim : Nat} {grid : Grid G R} {parts : Parts G V C}
    (hc : Parts.Centred parts) (hs : Parts.Settled parts) {s : Body G R V C}
    {v : Seen G R V C} (h : Related dim grid s v) (op : Op G R)
    (hb : EAS.Spec.binds op = true → (s.step dim grid parts op).2 = true) :
    Related dim grid (s.step dim grid parts op).1
      (if (s.step dim grid parts op).2 then v.accept grid parts op else v) := by
  cases op with
  | bind e =>
    have ok := hb rfl
    rw [if_pos ok]
    exact Related.bind hc hs h.number h.rule e ok
  | bindRule r e =>
    have ok := hb rfl
    rw [if_pos ok]
    exact Related.bind (v := { v with rule := some r }) hc hs (s := { s with rule := some r }) h.number rfl e ok
  | choose n =>
    rcases setAssumedStressType_cases dim grid parts n s with ⟨_, e⟩ | ⟨h1, h2⟩ | ⟨p, _, h2, hk, e⟩ | ⟨p, m, _, h2, hk, e⟩
    · simp only [Body.step, e, Bool.false_eq_true, if_false]; exact h
    · have hz := (h.free (by rw [← h.geometry]; exact h2)).1
      rw [Body.check, hz] at h1
      simp at h1
    · simp only [Body.step, e, Bool.false_eq_true, if_false]
      have hp : v.place ≠ none := by rw [← h.geometry, h2]; simp
      exact ⟨h.place, h.geometry, h.rule, Or.inr hk, fun e => absurd e hp, h.bound⟩
    · simp only [Body.step, e, if_true]
      obtain ⟨rfl, hk'⟩ := createAssumedStressType_toNat hk
      have hp : v.place = some p := by rw [← h.geometry, h2]
      rw [initializeState_fresh grid parts hc hs]
      simp only [Seen.accept, hp]
      refine ⟨by simp [Seen.fresh, h.place, hp], by simp [Seen.fresh, h.geometry, hp], h.rule, Or.inl rfl,
        by simp [Seen.fresh], ?_⟩
      intro e' he'
      simp only [Seen.fresh, Option.some.injEq] at he'
      subst he'
      simp [Seen.fresh, h.rule, (h.bound p hp).1]
  | update delta =>
    rcases update_cases dim parts delta s with e | ⟨e, hp, he⟩
    · simp only [Body.step, e, Bool.false_eq_true, if_false]; exact h
    · simp only [Body.step, he, if_true]
      have hv : v.place = some e := by rw [← h.place, hp]
      obtain ⟨a, b, c, d, l⟩ := h.bound e hv
      simp only [Seen.accept, hv]
      refine ⟨by rw [← hv]; exact h.place, by rw [← hv]; exact h.geometry, h.rule, h.number, by simp, ?_⟩
      intro e' he'
      simp only [Option.some.injEq] at he'
      subst he'
      refine ⟨a, b, ?_, ?_, ?_⟩
      · simp [Body.calculateMaterialInversion, c]
      · simp [Body.calculateMaterialInversion, c, d, map_mapIdx_eq]
      · simp [Body.calculateMaterialInversion, c, d, map_mapIdx_eq]

theorem Related.run [Zero V] [Zero C] {dim : Nat} {grid : Grid G R} {parts : Parts G V C}
    (hc : Parts.Centred parts) (hs : Parts.Settled parts) (ops : List (Op G R)) :
    ∀ {s : Body G R V C} {v : Seen G R V C}, Related dim grid s v →
    (∀ p ∈ ops.zip (s.run dim grid parts ops).2, EAS.Spec.binds p.1 = true → p.2 = true) →
    Related dim grid (s.run dim grid parts ops).1 (v.after grid parts (ops.zip (s.run dim grid parts ops).2)) := by
  induction ops with
  | nil => intro s v h _; exact h
  | cons op ops ih =>
    intro s v h hb
    simp only [Body.run, List.zip_cons_cons, List.mem_cons, forall_eq_or_imp] at hb ⊢
    have h1 := h.step hc hs op hb.1
    cases hok : (s.step dim grid parts op).2 with
    | true =>
      rw [if_pos hok] at h1
      exact ih h1 hb.2
    | false =>
      rw [if_neg (by simp [hok])] at h1
      exact ih h1 hb.2

/-- C113, assumed stresses. If the material answers to no stress with the same strain wherever the inversion starts (as all
materials with an inversion in closed form do), then, as long as no binding is rejected, an element evaluates with the number of
internal variables chosen last, for the element of the grid and with the rule it was bound to last, with internal variables,
strains and compliances that started without stresses then. The claim in full is false: `as_follows_false`. -/
theorem as_follows_partial [Zero V] [Zero C] (dim : Nat) (grid : Grid G R) (parts : Parts G V C)
    (hc : Parts.Centred parts) (hs : Parts.Settled parts) (n : Int) (ops : List (Op G R))
    (hb : ∀ p ∈ ops.zip (life dim grid parts n ops).2, EAS.Spec.binds p.1 = true → p.2 = true) :
    (life dim grid parts n ops).1.answer dim = (seen dim grid parts n ops).answer dim grid := by
  have h0 : Related dim grid (Body.make (G := G) (R := R) (V := V) (C := C) dim n) ⟨n, none, none, [], [], []⟩ :=
    ⟨rfl, rfl, rfl, Or.inl rfl, fun _ => ⟨rfl, rfl⟩, by simp⟩
  have h := h0.run hc hs ops hb
  unfold seen life
  generalize ((Body.make dim n).run dim grid parts ops).2 = oks at *
  generalize ((Body.make dim n).run dim grid parts ops).1 = s at *
  generalize Seen.after grid parts (ops.zip oks) _ = v at *
  unfold Body.answer Seen.answer
  rw [h.place]
  cases hv : v.place with
  | none => rfl
  | some e =>
    obtain ⟨a, b, c, d, l⟩ := h.bound e hv
    dsimp only
    have : s.check dim = true ↔ Supports dim (grid.nodes e) := by
      rw [Body.check, a]; simp [Supports]
    by_cases hk : s.check dim = true
    · rw [if_pos hk, if_pos (this.1 hk), h.rule, b, c, d, l]
    · rw [if_neg hk, if_neg (fun h => hk (this.2 h))]

/-- C113, assumed stresses, unsupported elements. After all calls, rejected or not, the number can be chosen and evaluations
answer only on elements of the grid that support assumed stresses; in particular not before the element is bound. -/
theorem as_unsupported [Zero V] [Zero C] (dim : Nat) (grid : Grid G R) (parts : Parts G V C) (n : Int)
    (ops : List (Op G R)) :
    let s := (life dim grid parts n ops).1
    (∀ e r m g inner, s.answer dim = .from e r m g inner → Supports dim (grid.nodes e)) ∧
    ∀ k, (s.step dim grid parts (.choose k)).2 = true → ∃ e, s.place = some e ∧ Supports dim (grid.nodes e) := by
  have inv : ∀ (ops : List (Op G R)) (s : Body G R V C), (s.place = none → s.nodes = 0) →
      (∀ e, s.place = some e → s.nodes = grid.nodes e) →
      ((s.run dim grid parts ops).1.place = none → (s.run dim grid parts ops).1.nodes = 0) ∧
      ∀ e, (s.run dim grid parts ops).1.place = some e → (s.run dim grid parts ops).1.nodes = grid.nodes e := by
    intro ops
    induction ops with
    | nil => intro s h1 h2; exact ⟨h1, h2⟩
    | cons op ops ih =>
      intro s h1 h2
      simp only [Body.run]
      have key : ((s.step dim grid parts op).1.place = s.place ∧ (s.step dim grid parts op).1.nodes = s.nodes) ∨
          ∃ e, (s.step dim grid parts op).1.place = some e ∧ (s.step dim grid parts op).1.nodes = grid.nodes e := by
        have hbind : ∀ (e : G) (s : Body G R V C), (s.bind dim grid parts e).1.place = some e ∧
            (s.bind dim grid parts e).1.nodes = grid.nodes e := by
          intro e s
          unfold Body.bind Body.create
          dsimp only
          cases createAssumedStressType dim s.number <;> exact ⟨rfl, rfl⟩
        cases op with
        | bind e => exact Or.inr ⟨e, hbind e s⟩
        | bindRule r e => exact Or.inr ⟨e, hbind e _⟩
        | choose k =>
          left
          simp only [Body.step, Body.setAssumedStressType, Body.create]
          split_ifs
          · exact ⟨rfl, rfl⟩
          · cases s.geometry with
            | none => exact ⟨rfl, rfl⟩
            | some e => dsimp only; cases createAssumedStressType dim k <;> exact ⟨rfl, rfl⟩
        | update delta =>
          left
          rcases update_cases dim parts delta s with e | ⟨e, hp, he⟩
          · rw [Body.step, e]; exact ⟨rfl, rfl⟩
          · rw [Body.step, he]; exact ⟨rfl, rfl⟩
      rcases key with ⟨k1, k2⟩ | ⟨e, k1, k2⟩
      · exact ih _ (by rw [k1, k2]; exact h1) (by rw [k1, k2]; exact h2)
      · refine ih _ (by rw [k1]; simp) ?_
        intro e' he'
        rw [k1] at he'
        injection he' with he'
        rw [k2, he']
  obtain ⟨h1, h2⟩ := inv ops (Body.make dim n) (fun _ => rfl) (by simp [Body.make])
  intro s
  have h1 : s.place = none → s.nodes = 0 := h1
  have h2 : ∀ e, s.place = some e → s.nodes = grid.nodes e := h2
  have sup : s.check dim = true → ∃ e, s.place = some e ∧ Supports dim (grid.nodes e) := by
    intro hk
    cases hp : s.place with
    | none =>
      rw [Body.check, h1 hp] at hk
      simp at hk
    | some e =>
      refine ⟨e, rfl, ?_⟩
      rw [Body.check, h2 e hp] at hk
      simpa [Supports] using hk
  constructor
  · intro e r m g inner h
    unfold Body.answer at h
    cases hp : s.place with
    | none => rw [hp] at h; simp at h
    | some e' =>
      rw [hp] at h
      dsimp only at h
      by_cases hk : s.check dim = true
      · rw [if_pos hk] at h
        injection h with h1 h2 h3 h4 h5
        subst h1
        obtain ⟨e, h3, h4⟩ := sup hk
        rw [hp] at h3
        injection h3 with h3
        rwa [h3]
      · rw [if_neg hk] at h; cases h
  · intro k hk
    apply sup
    by_contra hc
    have hc' : s.check dim = false := by simpa using hc
    simp [Body.step, Body.setAssumedStressType, hc'] at hk

/-- C113, assumed stresses, accepted calls. An element that was made with an available number and is bound to elements of the
grid that support assumed stresses accepts every available number and every update then. -/
theorem as_accepts [Zero V] [Zero C] (dim : Nat) (grid : Grid G R) (parts : Parts G V C) (n : Int) (e : G)
    (ops : List (Op G R)) (hn : (createAssumedStressType dim n).isSome) (he : Supports dim (grid.nodes e))
    (hops : ∀ op ∈ ops, match op with
      | .choose k => (createAssumedStressType dim k).isSome
      | .bind e => Supports dim (grid.nodes e)
      | .bindRule _ e => Supports dim (grid.nodes e)
      | .update _ => True) :
    (life dim grid parts n (.bind e :: ops)).2 = List.replicate (ops.length + 1) true := by
  have key : ∀ (ops : List (Op G R)), (∀ op ∈ ops, match op with
      | .choose k => ((createAssumedStressType dim k).isSome : Prop)
      | .bind e => Supports dim (grid.nodes e)
      | .bindRule _ e => Supports dim (grid.nodes e)
      | .update _ => True) → ∀ s : Body G R V C, s.check dim = true → s.geometry.isSome = true → s.place.isSome = true →
      (createAssumedStressType dim s.number).isSome →
      (s.run dim grid parts ops).2 = List.replicate ops.length true := by
    intro ops
    induction ops with
    | nil => intros; rfl
    | cons op ops ih =>
      intro h s hs hg hp hk
      rw [List.forall_mem_cons] at h
      have hbind : ∀ (e : G) (s : Body G R V C), Supports dim (grid.nodes e) →
          (createAssumedStressType dim s.number).isSome →
          (s.bind dim grid parts e).2 = true ∧ (s.bind dim grid parts e).1.check dim = true ∧
          (s.bind dim grid parts e).1.geometry.isSome = true ∧ (s.bind dim grid parts e).1.place.isSome = true ∧
          (createAssumedStressType dim (s.bind dim grid parts e).1.number).isSome := by
        intro e s he hk
        unfold Body.bind Body.create
        dsimp only
        obtain ⟨m, hm⟩ := Option.isSome_iff_exists.1 hk
        rw [hm]
        refine ⟨rfl, ?_, rfl, rfl, hk⟩
        have he' : (grid.nodes e == 4 && dim == 2 || grid.nodes e == 8 && dim == 3) = true := by
          simpa [Supports] using he
        exact he'
      have h1 : (s.step dim grid parts op).2 = true ∧ (s.step dim grid parts op).1.check dim = true ∧
          (s.step dim grid parts op).1.geometry.isSome = true ∧ (s.step dim grid parts op).1.place.isSome = true ∧
          (createAssumedStressType dim (s.step dim grid parts op).1.number).isSome := by
        cases op with
        | choose k =>
          have hk' := h.1
          dsimp only at hk'
          rcases setAssumedStressType_cases dim grid parts k s with ⟨h2, _⟩ | ⟨_, h2⟩ | ⟨p, _, _, h2, _⟩ | ⟨p, m, _, h2, hm, e⟩
          · rw [hs] at h2; cases h2
          · rw [h2] at hg; simp at hg
          · rw [h2] at hk'; simp at hk'
          · rw [Body.step, e]
            exact ⟨rfl, hs, hg, hp, hk'⟩
        | bind e => exact hbind e s h.1 hk
        | bindRule r e => exact hbind e { s with rule := some r } h.1 hk
        | update delta =>
          rcases update_cases dim parts delta s with e | ⟨e, _, e'⟩
          · unfold Body.update at e
            obtain ⟨p, hp'⟩ := Option.isSome_iff_exists.1 hp
            split at e
            · rename_i h0; rw [h0] at hp'; cases hp'
            · rw [if_neg (by simp [hs])] at e
              have := congrArg Prod.snd e
              simp at this
          · rw [Body.step, e']; exact ⟨rfl, hs, hg, hp, hk⟩
      simp only [Body.run, List.length_cons, List.replicate_succ]
      rw [h1.1, ih h.2 _ h1.2.1 h1.2.2.1 h1.2.2.2.1 h1.2.2.2.2]
  have first : ((Body.make (G := G) (R := R) (V := V) (C := C) dim n).bind dim grid parts e).2 = true ∧
      ((Body.make (G := G) (R := R) (V := V) (C := C) dim n).bind dim grid parts e).1.check dim = true ∧
      ((Body.make (G := G) (R := R) (V := V) (C := C) dim n).bind dim grid parts e).1.geometry.isSome = true ∧
      ((Body.make (G := G) (R := R) (V := V) (C := C) dim n).bind dim grid parts e).1.place.isSome = true ∧
      ((Body.make (G := G) (R := R) (V := V) (C := C) dim n).bind dim grid parts e).1.number = n := by
    obtain ⟨m, hm⟩ := Option.isSome_iff_exists.1 hn
    unfold Body.bind Body.create
    dsimp only [Body.make]
    rw [hm]
    refine ⟨rfl, ?_, rfl, rfl, rfl⟩
    have he' : (grid.nodes e == 4 && dim == 2 || grid.nodes e == 8 && dim == 3) = true := by
      simpa [Supports] using he
    exact he'
  have := key ops hops _ first.2.1 first.2.2.1 first.2.2.2.1 (by rw [first.2.2.2.2]; exact hn)
  simp only [life, Body.run, Body.step, List.replicate_succ, first.1]
  rw [this]

/-- A material in one dimension that softens between the strains 1 and 2 and is free of stress at 0 and at 3. -/
noncomputable def snapMaterial : InvertibleMaterial ℝ where
  stress E := if E ≤ 1 then E else if E < 2 then 3 - 2 * E else E - 3
  compliance E r := if E ≤ 1 then r else if E < 2 then -(r / 2) else r

/-- The numerical inversion of this material, with the default tolerance and number of iterations. -/
noncomputable def snapInversion (S E : ℝ) : (ℝ → ℝ) × ℝ :=
  (numericalMaterialInversion snapMaterial S E (1 / 10 ^ 12) 20).getD (0, 0)

theorem range20 : List.range 20 = 0 :: 1 :: 2 :: [3, 4, 5, 6, 7, 8, 9, 10, 11, 12, 13, 14, 15, 16, 17, 18, 19] := by decide

theorem snapInversion_zero : (snapInversion 0 0).2 = 0 := by
  unfold snapInversion numericalMaterialInversion
  rw [range20]
  simp [inversionLoop, snapMaterial]

theorem snapInversion_load : (snapInversion 2 0).2 = 5 := by
  unfold snapInversion numericalMaterialInversion
  rw [range20]
  norm_num [inversionLoop, snapMaterial]

theorem snapInversion_unload : (snapInversion 0 5).2 = 3 := by
  unfold snapInversion numericalMaterialInversion
  rw [range20]
  norm_num [inversionLoop, snapMaterial]

/-- Two quadrilaterals with one and four integration points, and stresses that are the sum of the internal variables. -/
def exampleGrid : Grid Bool Unit := ⟨fun _ => 4, fun e _ => if e then 1 else 4⟩

/-- The parts of an element of the softening material. -/
noncomputable def exampleParts : Parts Bool ℝ (ℝ → ℝ) := ⟨fun _ _ beta => beta.sum, snapInversion⟩

/-- C113. With the numerical inversion an element that is bound again is not like a new one: the strains at the integration points
stay (`resize` keeps them), the inversion starts from them, and for a material that is free of stress at two strains finds the
other one. -/
theorem as_follows_false : ¬ Follows Bool Unit ℝ (ℝ → ℝ) (fun inv => ∃ m : InvertibleMaterial ℝ, ∀ S E,
    (numericalMaterialInversion m S E (1 / 10 ^ 12) 20).getD (0, 0) = inv S E) := by
  intro h
  have := h 2 exampleGrid exampleParts 5 [.bind true, .update fun i => if i = 0 then 2 else 0, .bind true] (Or.inl rfl)
    (by intro e k m; simp [exampleParts]) ⟨snapMaterial, fun _ _ => rfl⟩
    (by simp [life, Body.make, Body.run, Body.step, Body.bind, Body.create, Body.update, createAssumedStressType,
      Body.check, exampleGrid, Body.initializeState, Body.calculateMaterialInversion, EAS.Spec.binds])
  simp [life, seen, Body.make, Body.run, Body.step, Body.bind, Body.create, Body.update, createAssumedStressType,
    Body.check, exampleGrid, Body.initializeState, Body.calculateMaterialInversion, Body.answer, Seen.answer, Seen.after,
    Seen.accept, Seen.fresh, Supports, exampleParts, resize, List.mapIdx_cons, List.replicate, snapInversion_zero,
    snapInversion_load, snapInversion_unload] at this

/-- C113. After a rejected binding an evaluation can miss strains: the element has moved to an element of the grid with more
integration points, but has kept the strains of the old one. -/
theorem as_statesForAllPoints_false : ¬ StatesForAllPoints Bool Unit ℝ (ℝ → ℝ) := by
  intro h
  have := h 2 exampleGrid exampleParts 5 [.bind true, .choose 6, .bind false] false none 5 (some true)
    ([0, 0, 0, 0, 0], [(snapInversion 0 0).2], [(snapInversion 0 0).1]) (Or.inl rfl)
    (by simp [life, Body.make, Body.run, Body.step, Body.bind, Body.create, Body.setAssumedStressType,
      createAssumedStressType, Body.check, exampleGrid, Body.initializeState, Body.calculateMaterialInversion, Body.answer,
      exampleParts, resize, List.mapIdx_cons, List.replicate])
  simp [exampleGrid] at this

/-- A material with an inversion in closed form. -/
def linearParts : Parts Bool ℝ ℝ := ⟨fun _ _ beta => beta.sum, fun S _ => (2, 2 * S)⟩

example : Parts.Centred linearParts ∧ Parts.Settled linearParts ∧
    (life 2 exampleGrid linearParts 5 [.bind true, .update fun _ => 1]).2 = [true, true] ∧
    (life 2 exampleGrid linearParts 5 [.bind true, .update fun _ => 1]).1.answer 2 =
      .from true none 5 (some true) ([1, 1, 1, 1, 1], [10], [2]) := by
  refine ⟨by intro e k m; simp [linearParts], fun E => rfl, ?_, ?_⟩
  · simp [life, Body.make, Body.run, Body.step, Body.bind, Body.create, Body.update, createAssumedStressType,
      Body.check, exampleGrid, Body.initializeState, Body.calculateMaterialInversion]
  · norm_num [life, Body.make, Body.run, Body.step, Body.bind, Body.create, Body.update, createAssumedStressType,
      Body.check, exampleGrid, Body.initializeState, Body.calculateMaterialInversion, Body.answer, linearParts, resize,
      List.mapIdx_cons, List.replicate]

end Ikarus.Element.AssumedStress
