import Mathlib.Data.List.Induction

/-!
Specification vocabulary for histories.
-/

namespace Ikarus.Spec

/-- The value of the last entry of a history that has one. -/
def last {β γ : Type*} (f : β → Option γ) (h : List β) : Option γ := h.reverse.findSome? f

theorem last_nil {β γ : Type*} (f : β → Option γ) : last f [] = none := rfl

theorem last_append {β γ : Type*} (f : β → Option γ) (h : List β) (x : β) :
    last f (h ++ [x]) = (f x).or (last f h) := by
  unfold last
  rw [List.reverse_append]
  simp only [List.reverse_cons, List.reverse_nil, List.nil_append, List.singleton_append,
    List.findSome?_cons]
  cases f x <;> rfl

theorem last_congr {β γ : Type*} {f g : β → Option γ} {h : List β} (e : ∀ x ∈ h, f x = g x) :
    last f h = last g h := by
  induction h using List.reverseRecOn with
  | nil => rfl
  | append_singleton h x ih =>
    rw [last_append, last_append, e x (by simp), ih (fun y hy => e y (by simp [hy]))]

theorem last_isSome_iff {β γ : Type*} (f : β → Option γ) (h : List β) :
    (last f h).isSome = true ↔ ∃ x ∈ h, (f x).isSome = true := by
  simp [last, List.findSome?_isSome_iff]

/-- The last entry with a value is at a position after which no entry has one. -/
theorem last_eq_some_iff {β γ : Type*} (f : β → Option γ) (h : List β) (c : γ) :
    last f h = some c ↔
      ∃ pre x post, h = pre ++ x :: post ∧ f x = some c ∧ ∀ y ∈ post, f y = none := by
  induction h using List.reverseRecOn with
  | nil => simp [last]
  | append_singleton h a ih =>
    rw [last_append]
    cases ha : f a with
    | some b =>
      simp only [Option.some_or, Option.some.injEq]
      constructor
      · rintro rfl; exact ⟨h, a, [], by simp, ha, by simp⟩
      · rintro ⟨pre, x, post, e, hx, hp⟩
        rcases List.eq_nil_or_concat post with rfl | ⟨post', y, rfl⟩
        · have := List.append_inj_right' e rfl
          simp only [List.cons.injEq, and_true] at this
          subst this
          rw [ha] at hx
          exact Option.some.inj hx
        · have e' : h ++ [a] = (pre ++ x :: post') ++ [y] := by simpa using e
          have := List.append_inj_right' e' rfl
          simp only [List.cons.injEq, and_true] at this
          subst this
          have := hp a (by simp)
          rw [ha] at this
          exact absurd this (by simp)
    | none =>
      rw [Option.none_or, ih]
      constructor
      · rintro ⟨pre, x, post, rfl, hx, hp⟩
        exact ⟨pre, x, post ++ [a], by simp, hx, by
          intro y hy
          rcases List.mem_append.1 hy with hy | hy
          · exact hp y hy
          · simp only [List.mem_singleton] at hy; rw [hy, ha]⟩
      · rintro ⟨pre, x, post, e, hx, hp⟩
        rcases List.eq_nil_or_concat post with rfl | ⟨post', y, rfl⟩
        · have := List.append_inj_right' e rfl
          simp only [List.cons.injEq, and_true] at this
          subst this
          rw [ha] at hx
          exact absurd hx (by simp)
        · have e' : h ++ [a] = (pre ++ x :: post') ++ [y] := by simpa using e
          have := List.append_inj_left' e' rfl
          exact ⟨pre, x, post', this, hx, fun z hz => hp z (by simp [hz])⟩

end Ikarus.Spec
