import Mathlib.Algebra.BigOperators.Group.List.Basic
import Mathlib.Algebra.BigOperators.Group.Finset.Basic

/-!
Checked containers shared by all models.  They model the unchecked accesses
`v(i)`, `v[i]`, `A(r, c)` of `Eigen` and `std::vector`: an access outside of the
container (undefined behaviour in C++) is the outcome `none`.
-/

namespace Ikarus

variable {α : Type*}

/-- `v(i) += x` on an `Eigen::VectorXd`; out of range is `none`
(e.g. ikarus/assembler/simpleassemblers.inl:73). -/
def addAt? [Add α] (v : List α) (i : Nat) (x : α) : Option (List α) :=
  match v[i]? with
  | some y => some (v.set i (y + x))
  | none => none

/-- `v(i) = x`; out of range is `none` (e.g. ikarus/assembler/simpleassemblers.inl:54). -/
def setAt? (v : List α) (i : Nat) (x : α) : Option (List α) :=
  if i < v.length then some (v.set i x) else none

/-- `v(a - b)` with signed Eigen indices: a negative or too large index is `none`
(e.g. ikarus/assembler/simpleassemblers.inl:38). -/
def getDiff? (v : List α) (a b : Nat) : Option α :=
  if b ≤ a then v[a - b]? else none

/-- An `Eigen::MatrixXd`: sizes and entries. Only entries inside of the sizes are
ever read or written by the operations below. -/
structure DMat (α : Type*) where
  rows : Nat
  cols : Nat
  val : Nat → Nat → α

namespace DMat

/-- `A(r, c)` as rvalue. -/
def get? (A : DMat α) (r c : Nat) : Option α :=
  if r < A.rows ∧ c < A.cols then some (A.val r c) else none

/-- `A.setZero(r, c)`. -/
def zero [Zero α] (r c : Nat) : DMat α := ⟨r, c, fun _ _ => 0⟩

/-- Replace the entry `(r, c)`. -/
def upd (A : DMat α) (r c : Nat) (x : α) : DMat α :=
  ⟨A.rows, A.cols, fun r' c' => if r' = r ∧ c' = c then x else A.val r' c'⟩

/-- `A(r, c) += x`. -/
def addAt? [Add α] (A : DMat α) (r c : Nat) (x : α) : Option (DMat α) :=
  if r < A.rows ∧ c < A.cols then some (A.upd r c (A.val r c + x)) else none

/-- `A(r, c) = x`. -/
def setAt? (A : DMat α) (r c : Nat) (x : α) : Option (DMat α) :=
  if r < A.rows ∧ c < A.cols then some (A.upd r c x) else none

end DMat

/-! ### Lemmas -/

/-- Sum of the contributions to the index `i` in a list of `(index, value)` pairs. -/
def sumAt {ι : Type*} [DecidableEq ι] [AddCommMonoid α] (cs : List (ι × α)) (i : ι) : α :=
  ((cs.filter (fun p => p.1 = i)).map (·.2)).sum

section sumAt
variable {ι : Type*} [DecidableEq ι] [AddCommMonoid α]

@[simp] theorem sumAt_nil (i : ι) : sumAt ([] : List (ι × α)) i = 0 := rfl

theorem sumAt_cons (p : ι × α) (cs : List (ι × α)) (i : ι) :
    sumAt (p :: cs) i = (if p.1 = i then p.2 else 0) + sumAt cs i := by
  by_cases h : p.1 = i <;> simp [sumAt, h]

theorem sumAt_append (cs ds : List (ι × α)) (i : ι) :
    sumAt (cs ++ ds) i = sumAt cs i + sumAt ds i := by
  simp [sumAt]

theorem sumAt_perm {cs ds : List (ι × α)} (h : cs.Perm ds) (i : ι) : sumAt cs i = sumAt ds i := by
  unfold sumAt
  exact List.Perm.sum_eq ((h.filter _).map _)

theorem sumAt_eq_zero {cs : List (ι × α)} {i : ι} (h : ∀ p ∈ cs, p.1 ≠ i) : sumAt cs i = 0 := by
  unfold sumAt
  rw [List.filter_eq_nil_iff.2]
  · rfl
  · intro p hp; simp [h p hp]

end sumAt

theorem addAt?_eq_some [Add α] {v w : List α} {i : Nat} {x : α} (h : addAt? v i x = some w) :
    i < v.length ∧ w.length = v.length ∧
      ∀ j, w[j]? = (v[j]?).map (fun y => if i = j then y + x else y) := by
  unfold addAt? at h
  split at h
  · rename_i y hy
    have hi : i < v.length := by
      by_contra hc
      rw [List.getElem?_eq_none (by omega)] at hy
      exact absurd hy (by simp)
    refine ⟨hi, ?_, ?_⟩
    · simp only [Option.some.injEq] at h; rw [← h]; simp
    · intro j
      simp only [Option.some.injEq] at h
      rw [← h]
      by_cases hij : i = j
      · subst hij
        rw [List.getElem?_set, hy]
        simp [hi]
      · rw [List.getElem?_set]
        simp only [hij, if_false]
        cases v[j]? <;> simp
  · exact absurd h (by simp)

theorem addAt?_isSome [Add α] {v : List α} {i : Nat} (x : α) (h : i < v.length) :
    ∃ w, addAt? v i x = some w := by
  unfold addAt?
  rw [List.getElem?_eq_getElem h]
  exact ⟨_, rfl⟩

theorem addAt?_eq_none [Add α] {v : List α} {i : Nat} (x : α) (h : v.length ≤ i) :
    addAt? v i x = none := by
  unfold addAt?
  rw [List.getElem?_eq_none h]

/-- Scatter-adding a list of contributions. -/
def scatter [Add α] : List α → List (Nat × α) → Option (List α)
  | v, [] => some v
  | v, p :: cs => (addAt? v p.1 p.2).bind (fun w => scatter w cs)

theorem scatter_append [Add α] (v : List α) (cs ds : List (Nat × α)) :
    scatter v (cs ++ ds) = (scatter v cs).bind (fun w => scatter w ds) := by
  induction cs generalizing v with
  | nil => rfl
  | cons p cs ih =>
    simp only [List.cons_append, scatter]
    cases addAt? v p.1 p.2 with
    | none => rfl
    | some w => simp [ih]

theorem scatter_eq_some [AddCommMonoid α] {v w : List α} {cs : List (Nat × α)}
    (h : scatter v cs = some w) :
    (∀ p ∈ cs, p.1 < v.length) ∧ w.length = v.length ∧
      ∀ j, w[j]? = (v[j]?).map (fun y => y + sumAt cs j) := by
  induction cs generalizing v with
  | nil =>
    simp only [scatter, Option.some.injEq] at h
    subst h
    refine ⟨by simp, rfl, ?_⟩
    intro j; cases v[j]? <;> simp
  | cons p cs ih =>
    simp only [scatter] at h
    obtain ⟨u, hu, hw⟩ := Option.bind_eq_some_iff.1 h
    obtain ⟨hi, hl, hj⟩ := addAt?_eq_some hu
    obtain ⟨h1, h2, h3⟩ := ih hw
    refine ⟨?_, by omega, ?_⟩
    · intro q hq
      rcases List.mem_cons.1 hq with rfl | hq
      · exact hi
      · rw [← hl]; exact h1 q hq
    · intro j
      rw [h3 j, hj j]
      cases v[j]? with
      | none => rfl
      | some y =>
        simp only [Option.map_some, sumAt_cons]
        by_cases hp : p.1 = j
        · simp [hp, add_assoc]
        · simp [hp]

theorem scatter_isSome [Add α] {v : List α} {cs : List (Nat × α)}
    (h : ∀ p ∈ cs, p.1 < v.length) : ∃ w, scatter v cs = some w := by
  induction cs generalizing v with
  | nil => exact ⟨v, rfl⟩
  | cons p cs ih =>
    obtain ⟨u, hu⟩ := addAt?_isSome p.2 (h p (by simp))
    have hl := (addAt?_eq_some hu).2.1
    obtain ⟨w, hw⟩ := ih (v := u) (fun q hq => by rw [hl]; exact h q (by simp [hq]))
    exact ⟨w, by simp [scatter, hu, hw]⟩

namespace DMat

/-- Scatter-adding contributions into a matrix. -/
def scatter [Add α] : DMat α → List ((Nat × Nat) × α) → Option (DMat α)
  | A, [] => some A
  | A, p :: cs => (A.addAt? p.1.1 p.1.2 p.2).bind (fun B => scatter B cs)

theorem scatter_append [Add α] (A : DMat α) (cs ds : List ((Nat × Nat) × α)) :
    scatter A (cs ++ ds) = (scatter A cs).bind (fun B => scatter B ds) := by
  induction cs generalizing A with
  | nil => rfl
  | cons p cs ih =>
    simp only [List.cons_append, scatter]
    cases A.addAt? p.1.1 p.1.2 p.2 with
    | none => rfl
    | some w => simp [ih]

theorem scatter_eq_some [AddCommMonoid α] {A B : DMat α} {cs : List ((Nat × Nat) × α)}
    (h : scatter A cs = some B) :
    (∀ p ∈ cs, p.1.1 < A.rows ∧ p.1.2 < A.cols) ∧ B.rows = A.rows ∧ B.cols = A.cols ∧
      ∀ r c, B.val r c = A.val r c + sumAt cs (r, c) := by
  induction cs generalizing A with
  | nil =>
    simp only [scatter, Option.some.injEq] at h
    subst h
    simp
  | cons p cs ih =>
    simp only [scatter] at h
    obtain ⟨C, hC, hB⟩ := Option.bind_eq_some_iff.1 h
    unfold addAt? at hC
    split at hC
    · rename_i hb
      simp only [Option.some.injEq] at hC
      obtain ⟨h1, h2, h3, h4⟩ := ih hB
      subst hC
      refine ⟨?_, h2, h3, ?_⟩
      · intro q hq
        rcases List.mem_cons.1 hq with rfl | hq
        · exact hb
        · exact h1 q hq
      · intro r c
        rw [h4, sumAt_cons]
        simp only [upd]
        by_cases hrc : r = p.1.1 ∧ c = p.1.2
        · have : p.1 = (r, c) := by rw [hrc.1, hrc.2]
          simp [this, add_assoc]
        · have : p.1 ≠ (r, c) := fun e => hrc (by rw [e]; exact ⟨rfl, rfl⟩)
          simp [hrc, this]
    · exact absurd hC (by simp)

theorem scatter_isSome [Add α] {A : DMat α} {cs : List ((Nat × Nat) × α)}
    (h : ∀ p ∈ cs, p.1.1 < A.rows ∧ p.1.2 < A.cols) : ∃ B, scatter A cs = some B := by
  induction cs generalizing A with
  | nil => exact ⟨A, rfl⟩
  | cons p cs ih =>
    have hp := h p (by simp)
    obtain ⟨B, hB⟩ := ih (A := A.upd p.1.1 p.1.2 (A.val p.1.1 p.1.2 + p.2))
      (fun q hq => h q (by simp [hq]))
    exact ⟨B, by simp [scatter, addAt?, hp, hB]⟩

end DMat

end Ikarus
