import Verif.Utils.AlgorithmsModel
import Mathlib.Data.List.Nodup
import Mathlib.Data.List.Infix
import Mathlib.Tactic.Common

/-!
Properties of the container and tuple helpers.
-/

namespace Ikarus.Utils

namespace Spec

/-- `i` is the first index of a list whose entry satisfies `p`, or the size if there is none. -/
def FirstIndex {α : Type*} (l : List α) (p : α → Bool) (i : Nat) : Prop :=
  i ≤ l.length ∧ (∀ j < i, ∀ a, l[j]? = some a → p a = false) ∧ (∀ a, l[i]? = some a → p a = true)

mutual
/-- The plain elements of a nested element, from left to right. -/
def leaves {τ ν : Type} : Nested τ ν → List (Elem τ ν)
  | .leaf e => [e]
  | .tuple ts => leavesList ts
/-- The plain elements of a list of nested elements. -/
def leavesList {τ ν : Type} : List (Nested τ ν) → List (Elem τ ν)
  | [] => []
  | t :: ts => leaves t ++ leavesList ts
end

mutual
/-- No tuple inside is empty. -/
def noEmpty {τ ν : Type} : Nested τ ν → Prop
  | .leaf _ => True
  | .tuple ts => ts ≠ [] ∧ noEmptyList ts
/-- No tuple inside one of the elements is empty. -/
def noEmptyList {τ ν : Type} : List (Nested τ ν) → Prop
  | [] => True
  | t :: ts => noEmpty t ∧ noEmptyList ts
end

end Spec

/-! ### Containers -/

theorem uniqueAfter_spec {α : Type*} [LinearOrder α] (l : List α) : ∀ a, (a :: l).Pairwise (· ≤ ·) →
    (∀ b ∈ uniqueAfter a l, a < b) ∧ (uniqueAfter a l).Pairwise (· < ·) ∧
      ∀ b, (b ∈ a :: uniqueAfter a l ↔ b ∈ a :: l) := by
  induction l with
  | nil => intro a _; simp [uniqueAfter]
  | cons c l ih =>
    intro a h
    rw [uniqueAfter]
    have h1 : a ≤ c := by
      rw [List.pairwise_cons] at h; exact h.1 c (by simp)
    have h2 : (c :: l).Pairwise (· ≤ ·) := (List.pairwise_cons.1 h).2
    by_cases e : c = a
    · subst e
      rw [if_pos rfl]
      obtain ⟨i1, i2, i3⟩ := ih c h2
      refine ⟨i1, i2, fun b => ?_⟩
      rw [i3 b]; simp
    · rw [if_neg e]
      obtain ⟨i1, i2, i3⟩ := ih c h2
      have hac : a < c := lt_of_le_of_ne h1 (Ne.symm e)
      refine ⟨?_, ?_, fun b => ?_⟩
      · intro b hb
        rcases List.mem_cons.1 hb with rfl | hb
        · exact hac
        · exact hac.trans (i1 b hb)
      · rw [List.pairwise_cons]; exact ⟨i1, i2⟩
      · rw [List.mem_cons, i3 b, List.mem_cons (a := b) (b := a)]

/-- C51. `makeUniqueAndSort` leaves a strictly increasing container with the same elements, and there
is only one such container. -/
theorem makeUniqueAndSort_spec {α : Type*} [LinearOrder α] (r : List α) :
    (makeUniqueAndSort r).Pairwise (· < ·) ∧ (∀ a, a ∈ makeUniqueAndSort r ↔ a ∈ r) ∧
      ∀ s : List α, s.Pairwise (· < ·) → (∀ a, a ∈ s ↔ a ∈ r) → s = makeUniqueAndSort r := by
  have hp : (makeUniqueAndSort r).Pairwise (· < ·) ∧ ∀ a, a ∈ makeUniqueAndSort r ↔ a ∈ r := by
    have hs : (r.insertionSort (· ≤ ·)).Pairwise (· ≤ ·) := List.pairwise_insertionSort _ _
    have hm : ∀ a, a ∈ r.insertionSort (· ≤ ·) ↔ a ∈ r := fun a => List.mem_insertionSort _
    unfold makeUniqueAndSort
    cases h : r.insertionSort (· ≤ ·) with
    | nil =>
      rw [h] at hm
      exact ⟨by simp [stdUnique], fun a => by rw [← hm a]; simp [stdUnique]⟩
    | cons c l =>
      rw [h] at hm hs
      obtain ⟨i1, i2, i3⟩ := uniqueAfter_spec l c hs
      refine ⟨?_, fun a => ?_⟩
      · rw [stdUnique, List.pairwise_cons]; exact ⟨i1, i2⟩
      · rw [stdUnique, i3 a, hm a]
  refine ⟨hp.1, hp.2, fun s h1 h2 => ?_⟩
  have n1 : s.Nodup := h1.imp fun h => ne_of_lt h
  have n2 : (makeUniqueAndSort r).Nodup := hp.1.imp fun h => ne_of_lt h
  have pm : s.Perm (makeUniqueAndSort r) :=
    (List.perm_ext_iff_of_nodup n1 n2).2 fun a => by rw [h2 a, hp.2 a]
  exact pm.eq_of_pairwise (fun a b _ _ h1 h2 => absurd (h1.trans h2) (lt_irrefl _)) h1 hp.1

example : makeUniqueAndSort [3, 1, 2, 3, 1] = [1, 2, 3] := by decide

theorem findPos_le {α : Type*} [DecidableEq α] (v : α) (l : List α) : findPos v l ≤ l.length := by
  induction l with
  | nil => simp [findPos]
  | cons a l ih => rw [findPos]; split <;> simp [ih]

theorem findPos_eq_length {α : Type*} [DecidableEq α] (v : α) (l : List α) :
    findPos v l = l.length ↔ v ∉ l := by
  induction l with
  | nil => simp [findPos]
  | cons a l ih =>
    rw [findPos]
    by_cases h : a = v
    · simp [h]
    · rw [if_neg h]; simp [ih, Ne.symm h]

theorem findPos_getElem? {α : Type*} [DecidableEq α] (v : α) (l : List α) (h : v ∈ l) :
    l[findPos v l]? = some v := by
  induction l with
  | nil => simp at h
  | cons a l ih =>
    rw [findPos]
    by_cases e : a = v
    · simp [e]
    · rw [if_neg e]
      rcases List.mem_cons.1 h with rfl | h
      · exact absurd rfl e
      · simpa using ih h

theorem findPos_before {α : Type*} [DecidableEq α] (v : α) (l : List α) :
    ∀ j < findPos v l, l[j]? ≠ some v := by
  induction l with
  | nil => intro j hj; simp [findPos] at hj
  | cons a l ih =>
    intro j hj
    rw [findPos] at hj
    by_cases e : a = v
    · rw [if_pos e] at hj; omega
    · rw [if_neg e] at hj
      cases j with
      | zero => simpa using e
      | succ j => simpa using ih j (by omega)

/-- C51. `appendUnique` returns the first position of the value in the container afterwards; the
container is unchanged when the value was there and has it appended otherwise; a container without
duplicates stays so; and calling it again changes nothing and returns the same index. -/
theorem appendUnique_spec {α : Type*} [DecidableEq α] (r : List α) (v : α) :
    (appendUnique r v).2[(appendUnique r v).1]? = some v ∧
    (∀ j < (appendUnique r v).1, (appendUnique r v).2[j]? ≠ some v) ∧
    (v ∈ r → (appendUnique r v).2 = r) ∧
    (v ∉ r → (appendUnique r v).2 = r ++ [v]) ∧
    (r.Nodup → (appendUnique r v).2.Nodup) ∧
    appendUnique (appendUnique r v).2 v = appendUnique r v := by
  by_cases h : v ∈ r
  · have e : appendUnique r v = (findPos v r, r) := by
      rw [appendUnique, if_neg]
      rw [findPos_eq_length]; exact fun g => g h
    rw [e]
    exact ⟨findPos_getElem? v r h, findPos_before v r, fun _ => rfl, fun g => absurd h g, fun g => g, e⟩
  · have l := (findPos_eq_length v r).2 h
    have e : appendUnique r v = (findPos v r, r ++ [v]) := by
      rw [appendUnique, if_pos l]
    have hv : v ∈ r ++ [v] := by simp
    have fe : findPos v (r ++ [v]) = findPos v r := by
      have h1 := findPos_getElem? v (r ++ [v]) hv
      have h2 := findPos_before v (r ++ [v])
      rcases lt_trichotomy (findPos v (r ++ [v])) (findPos v r) with c | c | c
      · rw [l] at c
        rw [List.getElem?_append_left c] at h1
        exact absurd (List.mem_of_getElem? h1) h
      · exact c
      · refine absurd ?_ (h2 _ c)
        rw [l]; simp
    rw [e]
    refine ⟨by simp [l], ?_, fun g => absurd g h, fun _ => rfl, fun g => ?_, ?_⟩
    · intro j hj
      rw [← fe] at hj
      exact findPos_before v (r ++ [v]) j hj
    · refine List.nodup_append.2 ⟨g, by simp, ?_⟩
      intro a ha b hb hab
      simp only [List.mem_singleton] at hb
      subst hab; subst hb
      exact h ha
    · rw [appendUnique, if_neg]
      · rw [fe]
      · rw [findPos_eq_length]; exact fun g => g hv

example : appendUnique [5, 7] 7 = (1, [5, 7]) ∧ appendUnique [5, 7] 9 = (2, [5, 7, 9]) := by decide

/-! ### Tuples -/

theorem findFold_found {α : Type*} (p : α → Bool) (l : List α) : ∀ i c,
    (l.foldl (findStep p) ⟨i, c, true⟩).index = i := by
  induction l with
  | nil => intro i c; rfl
  | cons a l ih => intro i c; rw [List.foldl_cons]; simpa [findStep] using ih i (c + 1)

theorem findFold_spec {α : Type*} (p : α → Bool) (l : List α) : ∀ i c,
    (l.foldl (findStep p) ⟨i, c, false⟩).index =
      if l.findIdx p < l.length then c + l.findIdx p else i := by
  induction l with
  | nil => intro i c; simp
  | cons a l ih =>
    intro i c
    rw [List.foldl_cons, List.findIdx_cons]
    cases h : p a with
    | true =>
      have : findStep p ⟨i, c, false⟩ a = ⟨c, c + 1, true⟩ := by simp [findStep, h]
      rw [this, findFold_found]; simp
    | false =>
      have : findStep p ⟨i, c, false⟩ a = ⟨i, c + 1, false⟩ := by simp [findStep, h]
      rw [this, ih]
      simp only [cond_false, List.length_cons, Nat.add_lt_add_iff_right]
      split <;> omega

theorem findIf_eq_findIdx {α : Type*} (l : List α) (p : α → Bool) : findIf l p = l.findIdx p := by
  rw [findIf, findFold_spec]
  have := List.findIdx_le_length (xs := l) (p := p)
  split <;> omega

theorem Spec.FirstIndex.unique {α : Type*} {l : List α} {p : α → Bool} {i j : Nat}
    (hi : Spec.FirstIndex l p i) (hj : Spec.FirstIndex l p j) : i = j := by
  obtain ⟨a1, a2, a3⟩ := hi
  obtain ⟨b1, b2, b3⟩ := hj
  rcases lt_trichotomy i j with c | c | c
  · have hl : i < l.length := by omega
    have := a3 l[i] (List.getElem?_eq_getElem hl)
    rw [b2 i c l[i] (List.getElem?_eq_getElem hl)] at this
    simp at this
  · exact c
  · have hl : j < l.length := by omega
    have := b3 l[j] (List.getElem?_eq_getElem hl)
    rw [a2 j c l[j] (List.getElem?_eq_getElem hl)] at this
    simp at this

/-- C51. `find_if` returns the first index whose element satisfies the predicate and the size if there
is none, `none_of` and `any_of` decide whether there is one. -/
theorem tuple_findIf {α : Type*} (l : List α) (p : α → Bool) :
    (∀ i, findIf l p = i ↔ Spec.FirstIndex l p i) ∧
    (findIf l p = l.length ↔ ∀ a ∈ l, p a = false) ∧
    (noneOf l p = true ↔ ∀ a ∈ l, p a = false) ∧
    (anyOf l p = true ↔ ∃ a ∈ l, p a = true) := by
  have first : Spec.FirstIndex l p (findIf l p) := by
    rw [findIf_eq_findIdx]
    refine ⟨List.findIdx_le_length, fun j hj a ha => ?_, fun a ha => ?_⟩
    · have hl : j < l.length := by
        have := List.findIdx_le_length (xs := l) (p := p); omega
      rw [List.getElem?_eq_getElem hl] at ha
      cases ha
      have := List.not_of_lt_findIdx hj
      simpa using this
    · have hl : l.findIdx p < l.length := (List.getElem?_eq_some_iff.1 ha).1
      rw [List.getElem?_eq_getElem hl] at ha
      cases ha
      exact List.findIdx_getElem
  have hnone : findIf l p = l.length ↔ ∀ a ∈ l, p a = false := by
    rw [findIf_eq_findIdx]
    constructor
    · intro h a ha
      exact (List.findIdx_eq_length.1 h) a ha
    · intro h; exact List.findIdx_eq_length.2 h
  refine ⟨fun i => ⟨fun h => h ▸ first, fun h => first.unique h⟩, hnone, ?_, ?_⟩
  · rw [noneOf, beq_iff_eq]; exact hnone
  · rw [anyOf, noneOf, Bool.not_eq_true', beq_eq_false_iff_ne, Ne, hnone]
    push Not
    simp

example : findIf [4, 6, 7, 9] (fun n => n % 2 == 1) = 2 ∧ findIf [4, 6] (fun n => n % 2 == 1) = 2 := by
  decide

theorem countIf_eq {α : Type*} (l : List α) (p : α → Bool) : countIf l p = l.countP p := by
  have : ∀ c, l.foldl (fun counter value => if p value then counter + 1 else counter) c =
      c + l.countP p := by
    induction l with
    | nil => intro c; simp
    | cons a l ih =>
      intro c
      rw [List.foldl_cons, ih, List.countP_cons]
      split <;> omega
  rw [countIf, this, Nat.zero_add]

/-- C51. `count_if` is the number of indices whose element satisfies the predicate, `countType` the
number of indices with the type asked for. -/
theorem tuple_countIf {α τ : Type} [DecidableEq τ] (l : List α) (p : α → Bool) (types : List τ)
    (ty : τ) :
    countIf l p = ((List.range l.length).filter fun i => (l[i]?).any p).length ∧
    countType types ty = types.count ty := by
  constructor
  · rw [countIf_eq]
    induction l using List.reverseRecOn with
    | nil => rfl
    | append_singleton l a ih =>
      rw [List.countP_append, ih, List.length_append, List.length_singleton, List.range_succ,
        List.filter_append, List.length_append]
      congr 1
      · congr 1
        refine List.filter_congr fun i hi => ?_
        rw [List.getElem?_append_left (List.mem_range.1 hi)]
      · simp only [List.countP_cons, List.countP_nil, Nat.zero_add, List.filter_cons,
          List.filter_nil]
        rw [List.getElem?_concat_length, Option.any_some]
        split <;> rfl
  · unfold countType
    induction types using List.reverseRecOn with
    | nil => rfl
    | append_singleton l a ih =>
      rw [List.length_append, List.length_singleton, List.range_succ, List.foldl_append,
        List.count_append, List.foldl_cons, List.foldl_nil, List.getElem?_concat_length]
      have : (List.range l.length).foldl
          (fun count i => if (l ++ [a])[i]? = some ty then count + 1 else count) 0 =
          (List.range l.length).foldl
          (fun count i => if l[i]? = some ty then count + 1 else count) 0 := by
        refine List.foldl_ext _ _ _ fun c i hi => ?_
        rw [List.getElem?_append_left (List.mem_range.1 hi)]
      rw [this, ih]
      by_cases h : a = ty
      · simp [h]
      · simp [h]

example : countIf [4, 6, 7, 9] (fun n => n % 2 == 1) = 2 := by decide

/-- C51. The specialisation lookups agree: `getSpecialization` returns the first element whose type
is a specialisation and compiles exactly when `hasTypeSpecialization` holds, which is when there is
such an element. -/
theorem tuple_specialization {τ ν : Type} (l : List (Elem τ ν)) (isSpec : τ → Bool) :
    (hasTypeSpecialization l isSpec = true ↔ ∃ e ∈ l, isSpec e.ty = true) ∧
    (getSpecialization l isSpec).isSome = hasTypeSpecialization l isSpec ∧
    getSpecialization l isSpec = (l.filter fun e => isSpec e.ty).head? := by
  have hf := tuple_findIf l fun e => isSpec e.ty
  have hle : findIf l (fun e => isSpec e.ty) ≤ l.length := ((hf.1 _).1 rfl).1
  have h1 : hasTypeSpecialization l isSpec = true ↔ ∃ e ∈ l, isSpec e.ty = true := by
    rw [hasTypeSpecialization, decide_eq_true_iff]
    have := hf.2.1
    constructor
    · intro h
      by_contra hc
      push Not at hc
      have := this.2 fun a ha => by simpa using hc a ha
      omega
    · rintro ⟨e, he, hs⟩
      rcases Nat.lt_or_ge (findIf l fun e => isSpec e.ty) l.length with c | c
      · exact c
      · have := this.1 (by omega) e he
        rw [hs] at this; simp at this
  refine ⟨h1, ?_, ?_⟩
  · rw [getSpecialization, hasTypeSpecialization, findTypeSpecialization]
    by_cases h : findIf l (fun e => isSpec e.ty) < l.length
    · simp [h]
    · simp [h]
  · rw [getSpecialization, findTypeSpecialization, List.head?_filter, findIf_eq_findIdx]
    clear hf hle h1
    induction l with
    | nil => rfl
    | cons a l ih =>
      rw [List.findIdx_cons, List.find?_cons]
      cases h : isSpec a.ty with
      | true => simp
      | false =>
        simp only [cond_false, List.length_cons, Nat.add_lt_add_iff_right, List.getElem?_cons_succ]
        exact ih

/-- C51. `filter` keeps the types of the elements satisfying the predicate, in their order. -/
theorem tuple_filter {τ ν : Type} (dflt : τ → ν) (l : List (Elem τ ν)) (p : τ → Bool) :
    (filterTuple dflt l p).map Elem.ty = (l.map Elem.ty).filter p ∧
    (∀ e ∈ filterTuple dflt l p, e.val = dflt e.ty) := by
  unfold filterTuple
  induction l with
  | nil => exact ⟨rfl, by simp⟩
  | cons a l ih =>
    obtain ⟨i1, i2⟩ := ih
    rw [List.map_cons, List.flatten_cons, List.map_append, i1, List.map_cons, List.filter_cons]
    refine ⟨by split <;> simp, fun e he => ?_⟩
    rw [List.mem_append] at he
    rcases he with he | he
    · split at he
      · simp only [List.mem_singleton] at he; subst he; rfl
      · simp at he
    · exact i2 e he

/-- C51. The full claim about `filter` as documented: the elements themselves are kept. -/
def Spec.FilterKeepsElements : Prop :=
  ∀ (τ ν : Type) (dflt : τ → ν) (l : List (Elem τ ν)) (p : τ → Bool),
    filterTuple dflt l p = l.filter fun e => p e.ty

/-- C51. The values do not survive: the elements of the result are value initialised. -/
theorem filter_loses_values : ¬ Spec.FilterKeepsElements := by
  intro h
  have := h Unit Nat (fun _ => 0) [⟨(), 5⟩] (fun _ => true)
  revert this
  decide

theorem uniqueImpl_spec {τ : Type} [DecidableEq τ] (us : List τ) : ∀ ts : List τ, ts.Nodup →
    (uniqueImpl ts us).Nodup ∧ (∀ t, t ∈ uniqueImpl ts us ↔ t ∈ ts ∨ t ∈ us) ∧
      ts <+: uniqueImpl ts us := by
  induction us with
  | nil => intro ts h; simp [uniqueImpl, h]
  | cons u us ih =>
    intro ts h
    rw [uniqueImpl]
    have hany : (ts.any fun t => decide (u = t)) = true ↔ u ∈ ts := by simp
    by_cases c : u ∈ ts
    · rw [if_pos (hany.2 c)]
      obtain ⟨i1, i2, i3⟩ := ih ts h
      refine ⟨i1, fun t => ?_, i3⟩
      rw [i2 t, List.mem_cons]
      constructor
      · rintro (h | h) <;> simp [h]
      · rintro (h | rfl | h) <;> simp [*]
    · rw [if_neg (fun g => c (hany.1 g))]
      have hn : (ts ++ [u]).Nodup := by
        refine List.nodup_append.2 ⟨h, by simp, ?_⟩
        intro a ha b hb hab
        simp only [List.mem_singleton] at hb
        subst hab; subst hb; exact c ha
      obtain ⟨i1, i2, i3⟩ := ih _ hn
      refine ⟨i1, fun t => ?_, (List.prefix_append ts [u]).trans i3⟩
      rw [i2 t, List.mem_append, List.mem_singleton, List.mem_cons, or_assoc]

/-- C51. `unique` has every type of the tuple exactly once, ordered by first occurrence: the types of a
longer tuple begin with those of a shorter one, and a type that is new is put at the end. -/
theorem tuple_unique {τ ν : Type} [DecidableEq τ] (dflt : τ → ν) (l : List (Elem τ ν)) :
    ((uniqueTuple dflt l).map Elem.ty).Nodup ∧
    (∀ t, t ∈ (uniqueTuple dflt l).map Elem.ty ↔ t ∈ l.map Elem.ty) ∧
    (∀ e : Elem τ ν, e.ty ∈ l.map Elem.ty → uniqueTuple dflt (l ++ [e]) = uniqueTuple dflt l) ∧
    (∀ e : Elem τ ν, e.ty ∉ l.map Elem.ty →
      uniqueTuple dflt (l ++ [e]) = uniqueTuple dflt l ++ [⟨e.ty, dflt e.ty⟩]) := by
  have hm : (uniqueTuple dflt l).map Elem.ty = uniqueImpl [] (l.map Elem.ty) := by
    rw [uniqueTuple, List.map_map]
    exact List.map_id _
  have app : ∀ (us : List τ) (ts : List τ) (t : τ), uniqueImpl ts (us ++ [t]) =
      if t ∈ uniqueImpl ts us then uniqueImpl ts us else uniqueImpl ts us ++ [t] := by
    intro us
    induction us with
    | nil =>
      intro ts t
      have : (ts.any fun x => decide (t = x)) = true ↔ t ∈ ts := by simp
      have e0 : uniqueImpl ts [] = ts := rfl
      have e1 : uniqueImpl ts ([] ++ [t]) =
          if (ts.any fun x => decide (t = x)) then ts else ts ++ [t] := rfl
      by_cases h : t ∈ ts
      · rw [e1, if_pos (this.2 h), if_pos (e0.symm ▸ h), e0]
      · rw [e1, if_neg (fun g => h (this.1 g)), if_neg (e0.symm ▸ h), e0]
    | cons u us ih =>
      intro ts t
      simp only [List.cons_append, uniqueImpl]
      split <;> exact ih _ _
  obtain ⟨s1, s2, -⟩ := uniqueImpl_spec (l.map Elem.ty) [] List.nodup_nil
  refine ⟨hm ▸ s1, fun t => ?_, fun e he => ?_, fun e he => ?_⟩
  · rw [hm, s2 t]; simp
  · rw [uniqueTuple, List.map_append, List.map_singleton, app, if_pos, uniqueTuple]
    rw [s2]; exact Or.inr he
  · rw [uniqueTuple, List.map_append, List.map_singleton, app, if_neg, List.map_append, uniqueTuple,
      List.map_singleton]
    rw [s2]
    rintro (g | g)
    · exact absurd g List.not_mem_nil
    · exact he g

example : (uniqueTuple (fun _ => 0) [⟨2, 7⟩, ⟨1, 8⟩, ⟨2, 9⟩] : List (Elem Nat Nat)) =
    [⟨2, 0⟩, ⟨1, 0⟩] := by decide

theorem getAll_eq_some {α : Type*} (t : List α) (I : List Nat) : ∀ s, getAll t I = some s ↔
    s.map some = I.map fun i => t[i]? := by
  induction I with
  | nil => intro s; cases s <;> simp [getAll]
  | cons i I ih =>
    intro s
    rw [getAll, List.map_cons]
    cases h : t[i]? with
    | none =>
      simp only [Option.bind_eq_bind, Option.bind_none]
      constructor
      · simp
      · intro g; cases s <;> simp at g
    | some a =>
      cases h2 : getAll t I with
      | none =>
        simp only [Option.bind_eq_bind, Option.bind_some, Option.bind_none]
        constructor
        · simp
        · intro g
          cases s with
          | nil => simp at g
          | cons b s =>
            rw [List.map_cons, List.cons.injEq] at g
            have := (ih s).2 g.2
            rw [h2] at this; simp at this
      | some as =>
        simp only [Option.bind_eq_bind, Option.bind_some, pure, Option.some.injEq]
        have := (ih as).1 h2
        constructor
        · rintro rfl; rw [List.map_cons, this]
        · intro g
          cases s with
          | nil => simp at g
          | cons b s =>
            rw [List.map_cons, List.cons.injEq] at g
            have h3 := (ih s).2 g.2
            rw [h2] at h3
            rw [Option.some.inj g.1, Option.some.inj h3]

/-- C51. `makeTupleSubset<N>` is the tuple of the first `N` elements and compiles for `N` smaller than
the size only; `makeTupleFromTupleIndices<I...>` has the elements at the indices in their order and
compiles when no index is out of range. -/
theorem tuple_subset {α : Type*} (t : List α) (N : Nat) (I : List Nat) :
    makeTupleSubset N t = (if N < t.length then some (t.take N) else none) ∧
    (∀ s, makeTupleFromTupleIndices I t = some s ↔
      s.length = I.length ∧ ∀ k : Nat, k < I.length → ∃ i, I[k]? = some i ∧ i < t.length ∧ s[k]? = t[i]?) ∧
    ((makeTupleFromTupleIndices I t).isSome = true ↔ ∀ i ∈ I, i < t.length) := by
  refine ⟨?_, fun s => ?_, ?_⟩
  · rw [makeTupleSubset]
    by_cases h : N < t.length
    · rw [if_pos h, if_pos h, getAll_eq_some]
      refine List.ext_getElem? fun k => ?_
      rw [List.getElem?_map, List.getElem?_map, List.getElem?_take]
      by_cases hk : k < N
      · rw [if_pos hk, List.getElem?_range hk]
        have : k < t.length := by omega
        simp [this]
      · rw [if_neg hk, List.getElem?_eq_none (by simpa using hk)]
        rfl
    · rw [if_neg h, if_neg h]
  · rw [makeTupleFromTupleIndices, getAll_eq_some]
    constructor
    · intro h
      have hl : s.length = I.length := by simpa using congrArg List.length h
      refine ⟨hl, fun k hk => ⟨I[k], List.getElem?_eq_getElem hk, ?_, ?_⟩⟩
      all_goals
        have h2 := congrArg (fun l => l[k]?) h
        simp only [List.getElem?_map] at h2
        rw [List.getElem?_eq_getElem hk, List.getElem?_eq_getElem (by omega), Option.map_some,
          Option.map_some, Option.some.injEq] at h2
      · exact (List.getElem?_eq_some_iff.1 h2.symm).1
      · rw [List.getElem?_eq_getElem (by omega)]; exact h2
    · rintro ⟨hl, h⟩
      refine List.ext_getElem? fun k => ?_
      rw [List.getElem?_map, List.getElem?_map]
      by_cases hk : k < I.length
      · obtain ⟨i, h1, h2, h3⟩ := h k hk
        rw [h1, h3, Option.map_some, List.getElem?_eq_getElem h2, Option.map_some]
      · rw [List.getElem?_eq_none (by omega), List.getElem?_eq_none (by omega)]; rfl
  · rw [makeTupleFromTupleIndices]
    induction I with
    | nil => simp [getAll]
    | cons i I ih =>
      rw [getAll, List.forall_mem_cons, ← ih]
      by_cases h : i < t.length
      · rw [List.getElem?_eq_getElem h]
        cases getAll t I <;> simp [h]
      · rw [List.getElem?_eq_none (by omega)]
        simp [h]

example : makeTupleSubset 2 [7, 8, 9] = some [7, 8] ∧ makeTupleSubset 3 [7, 8, 9] = none ∧
    makeTupleFromTupleIndices [2, 0, 2] [7, 8, 9] = some [9, 7, 9] := by decide

/-- C51. The full claim about `countTypeSpecialization`: the number of elements whose type is a
specialisation. -/
def Spec.CountTypeSpecialization : Prop :=
  ∀ (τ ν : Type) (l : List (Elem τ ν)) (isSpec : τ → Bool),
    countTypeSpecialization l isSpec = (l.filter fun e => isSpec e.ty).length

/-- C51. The count is returned as `bool`: two specialisations are counted as one. -/
theorem countTypeSpecialization_false : ¬ Spec.CountTypeSpecialization := by
  intro h
  have := h Unit Unit [⟨(), ()⟩, ⟨(), ()⟩] (fun _ => true)
  revert this
  decide

/-- C51. What holds of `countTypeSpecialization`: it is the number when there is at most one, one
otherwise, and so agrees with `hasTypeSpecialization`. -/
theorem countTypeSpecialization_partial {τ ν : Type} (l : List (Elem τ ν)) (isSpec : τ → Bool) :
    countTypeSpecialization l isSpec = min 1 (l.filter fun e => isSpec e.ty).length ∧
    (countTypeSpecialization l isSpec = 1 ↔ hasTypeSpecialization l isSpec = true) ∧
    ((l.filter fun e => isSpec e.ty).length ≤ 1 →
      countTypeSpecialization l isSpec = (l.filter fun e => isSpec e.ty).length) := by
  have h : countTypeSpecialization l isSpec = min 1 (l.filter fun e => isSpec e.ty).length := by
    rw [countTypeSpecialization, countIf_eq, List.countP_eq_length_filter, boolOf]
    split <;> omega
  refine ⟨h, ?_, fun g => by omega⟩
  rw [h, (tuple_specialization l isSpec).1]
  constructor
  · intro g
    have : 0 < (l.filter fun e => isSpec e.ty).length := by omega
    obtain ⟨e, he⟩ := List.exists_mem_of_length_pos this
    rw [List.mem_filter] at he
    exact ⟨e, he⟩
  · rintro ⟨e, he⟩
    have : 0 < (l.filter fun e => isSpec e.ty).length :=
      List.length_pos_of_mem (List.mem_filter.2 he)
    omega

/-! ### Nested tuples -/

mutual
theorem flatImpl_spec {τ ν β : Type} (f : Elem τ ν → β) : (ts : List (Nested τ ν)) →
    (ts ≠ [] → Spec.noEmptyList ts → flatImpl f ts = some ((Spec.leavesList ts).map f)) ∧
    (¬ (ts ≠ [] ∧ Spec.noEmptyList ts) → flatImpl f ts = none)
  | [] => ⟨fun h => absurd rfl h, fun _ => by rw [flatImpl]⟩
  | [t] => by
    obtain ⟨i1, i2⟩ := flatHead_spec f t
    refine ⟨fun _ h => ?_, fun h => ?_⟩
    · rw [flatImpl, i1 h.1, Spec.leavesList, Spec.leavesList, List.append_nil]
    · rw [flatImpl]
      refine i2 fun g => h ⟨by simp, g, trivial⟩
  | t :: u :: ts => by
    obtain ⟨i1, i2⟩ := flatHead_spec f t
    obtain ⟨j1, j2⟩ := flatImpl_spec f (u :: ts)
    refine ⟨fun _ h => ?_, fun h => ?_⟩
    · have : (Spec.leavesList (t :: u :: ts)).map f =
          (Spec.leaves t).map f ++ (Spec.leavesList (u :: ts)).map f := by
        rw [Spec.leavesList, List.map_append]
      rw [flatImpl, i1 h.1, j1 (by simp) h.2, this]
      rfl
    · rw [flatImpl]
      by_cases c : Spec.noEmpty t
      · rw [i1 c, j2 fun g => h ⟨by simp, c, g.2⟩]; rfl
      · rw [i2 c]; rfl
theorem flatHead_spec {τ ν β : Type} (f : Elem τ ν → β) : (t : Nested τ ν) →
    (Spec.noEmpty t → flatHead f t = some ((Spec.leaves t).map f)) ∧
    (¬ Spec.noEmpty t → flatHead f t = none)
  | .leaf e => ⟨fun _ => by rw [flatHead, Spec.leaves]; rfl, fun h => absurd trivial h⟩
  | .tuple ts => by
    obtain ⟨i1, i2⟩ := flatImpl_spec f ts
    refine ⟨fun h => ?_, fun h => ?_⟩
    · rw [flatHead, Spec.leaves]; exact i1 h.1 h.2
    · rw [flatHead]; exact i2 h
end

/-- C51. Flattening a nested tuple lists all its plain elements from left to right, whatever the
nesting: by reference with their values, by type with value initialised elements.  It compiles unless
some tuple inside is empty. -/
theorem tuple_flatten {τ ν : Type} (dflt : τ → ν) (tup : List (Nested τ ν)) :
    (Spec.noEmptyList tup →
      makeNestedTupleFlatAndStoreReferences tup = some (Spec.leavesList tup)) ∧
    (tup ≠ [] → Spec.noEmptyList tup → makeNestedTupleFlat dflt tup =
      some ((Spec.leavesList tup).map fun e => ⟨e.ty, dflt e.ty⟩)) ∧
    (¬ Spec.noEmptyList tup → makeNestedTupleFlatAndStoreReferences tup = none ∧
      makeNestedTupleFlat dflt tup = none) := by
  refine ⟨fun h => ?_, fun h g => (flatImpl_spec _ tup).1 h g, fun h => ⟨?_, ?_⟩⟩
  · cases tup with
    | nil => rfl
    | cons t ts =>
      have := (flatImpl_spec id (t :: ts)).1 (by simp) h
      rw [List.map_id] at this
      exact this
  · cases tup with
    | nil => exact absurd trivial h
    | cons t ts => exact (flatImpl_spec id (t :: ts)).2 fun g => h g.2
  · exact (flatImpl_spec _ tup).2 fun g => h g.2

example : makeNestedTupleFlatAndStoreReferences
    [.leaf ⟨1, 10⟩, .tuple [.leaf ⟨2, 20⟩, .tuple [.leaf ⟨3, 30⟩]], .leaf ⟨4, 40⟩] =
      some ([⟨1, 10⟩, ⟨2, 20⟩, ⟨3, 30⟩, ⟨4, 40⟩] : List (Elem Nat Nat)) := by
  refine ((tuple_flatten (fun _ => 0) _).1 ?_).trans rfl
  simp [Spec.noEmptyList, Spec.noEmpty]

end Ikarus.Utils
