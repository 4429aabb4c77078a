import Verif.LinAlg.Model
import Mathlib.Data.List.Sort
import Mathlib.Data.List.NodupEquivFin
import Mathlib.Data.Fintype.Card
import Mathlib.Data.Fintype.BigOperators
import Mathlib.Order.Fin.Basic
import Mathlib.Tactic.Linarith

/-! Lemmas about `set_difference` and the index arrays. -/

namespace Ikarus

section
variable {α : Type*} [LinearOrder α]

theorem setDifferenceAux_length (n : Nat) (as bs : List α) (h : as.length + bs.length ≤ n) :
    as.length ≤ (setDifferenceAux n as bs).length + bs.length := by
  induction n generalizing as bs with
  | zero =>
    have : as = [] := List.length_eq_zero_iff.1 (by omega)
    subst this
    simp
  | succ n ih =>
    cases as with
    | nil => simp
    | cons a as =>
      cases bs with
      | nil => simp [setDifferenceAux]
      | cons b bs =>
        simp only [setDifferenceAux]
        simp only [List.length_cons] at h
        split
        · have := ih as (b :: bs) (by simp only [List.length_cons]; omega)
          simp only [List.length_cons] at this ⊢
          omega
        · split
          · have := ih (a :: as) bs (by simp only [List.length_cons]; omega)
            simp only [List.length_cons] at this ⊢
            omega
          · have := ih as bs (by omega)
            simp only [List.length_cons] at this ⊢
            omega

theorem setDifferenceAux_sublist (n : Nat) (as bs : List α) (h : as.length + bs.length ≤ n)
    (hl : (setDifferenceAux n as bs).length + bs.length = as.length) : bs.Sublist as := by
  induction n generalizing as bs with
  | zero =>
    have : bs = [] := List.length_eq_zero_iff.1 (by omega)
    subst this
    simp
  | succ n ih =>
    cases as with
    | nil =>
      cases bs with
      | nil => simp
      | cons b bs => simp [setDifferenceAux] at hl
    | cons a as =>
      cases bs with
      | nil => simp
      | cons b bs =>
        simp only [setDifferenceAux] at hl
        simp only [List.length_cons] at h
        split at hl
        · simp only [List.length_cons] at hl
          exact (ih as (b :: bs) (by simp only [List.length_cons]; omega)
            (by simp only [List.length_cons]; omega)).cons a
        · split at hl
          · have := setDifferenceAux_length n (a :: as) bs (by simp only [List.length_cons]; omega)
            simp only [List.length_cons] at this hl
            omega
          · simp only [List.length_cons] at hl
            have hab : a = b := le_antisymm (not_lt.1 ‹_›) (not_lt.1 ‹_›)
            subst hab
            exact (ih as bs (by omega) (by omega)).cons_cons a

theorem setDifferenceAux_sorted (n : Nat) (as bs : List α) (h : as.length + bs.length ≤ n)
    (ha : as.Pairwise (· < ·)) (hb : bs.Pairwise (· < ·)) :
    setDifferenceAux n as bs = as.filter (fun a => decide (a ∉ bs)) := by
  induction n generalizing as bs with
  | zero =>
    have : as = [] := List.length_eq_zero_iff.1 (by omega)
    subst this
    simp [setDifferenceAux]
  | succ n ih =>
    cases as with
    | nil => simp [setDifferenceAux]
    | cons a as =>
      cases bs with
      | nil => simp [setDifferenceAux]
      | cons b bs =>
        have ha' := List.pairwise_cons.1 ha
        have hb' := List.pairwise_cons.1 hb
        simp only [List.length_cons] at h
        simp only [setDifferenceAux]
        split
        · rename_i hab
          rw [ih as (b :: bs) (by simp only [List.length_cons]; omega) ha'.2 hb, List.filter_cons_of_pos]
          have h1 : a ≠ b := ne_of_lt hab
          have h2 : a ∉ bs := fun hm => absurd (hb'.1 a hm) (not_lt.2 hab.le)
          simp [h1, h2]
        · split
          · rename_i hab
            rw [ih (a :: as) bs (by simp only [List.length_cons]; omega) ha hb'.2]
            apply List.filter_congr
            intro x hx
            have : x ≠ b := by
              rcases List.mem_cons.1 hx with rfl | hx
              · exact ne_of_gt hab
              · exact ne_of_gt (hab.trans (ha'.1 x hx))
            simp [this]
          · have hab : a = b := le_antisymm (not_lt.1 ‹_›) (not_lt.1 ‹_›)
            subst hab
            rw [ih as bs (by omega) ha'.2 hb'.2, List.filter_cons_of_neg (by simp)]
            apply List.filter_congr
            intro x hx
            have : x ≠ a := ne_of_gt (ha'.1 x hx)
            simp [this]

theorem setDifference_length (as bs : List α) :
    as.length ≤ (setDifference as bs).length + bs.length :=
  setDifferenceAux_length _ as bs le_rfl

end

theorem finRange_pairwise (n : Nat) : (List.finRange n).Pairwise (· < ·) := by
  rw [List.pairwise_iff_getElem]
  intro i j hi hj h
  simpa using h

theorem ofFn_pairwise_iff {n k : Nat} (idx : Fin k → Fin n) :
    (List.ofFn idx).Pairwise (· < ·) ↔ StrictMono idx := by
  rw [List.pairwise_ofFn]
  exact Iff.rfl

theorem setDifference_finRange {n k : Nat} (idx : Fin k → Fin n) (h : StrictMono idx) :
    setDifference (List.finRange n) (List.ofFn idx)
      = (List.finRange n).filter (fun a => decide (a ∉ List.ofFn idx)) :=
  setDifferenceAux_sorted _ _ _ le_rfl (finRange_pairwise n) ((ofFn_pairwise_iff idx).2 h)

theorem filter_length {n k : Nat} (idx : Fin k → Fin n) (h : Function.Injective idx) :
    ((List.finRange n).filter (fun a => decide (a ∉ List.ofFn idx))).length + k = n := by
  have h1 : ((List.finRange n).filter (fun a => decide (a ∈ List.ofFn idx))).length = k := by
    have hp : ((List.finRange n).filter (fun a => decide (a ∈ List.ofFn idx))).Perm
        (List.ofFn idx) := by
      rw [List.perm_ext_iff_of_nodup ((List.nodup_finRange n).filter _) (List.nodup_ofFn.2 h)]
      intro a
      simp
    rw [hp.length_eq, List.length_ofFn]
  have h2 := List.length_eq_length_filter_add (l := List.finRange n)
    (fun a => decide (a ∈ List.ofFn idx))
  rw [h1, List.length_finRange] at h2
  have h3 : (fun a => !decide (a ∈ List.ofFn idx)) = fun a => decide (a ∉ List.ofFn idx) := by
    funext a; rw [decide_not]
  rw [h3] at h2
  omega

/-- The index arrays are computed without an overflow iff the given indices are strictly
increasing. -/
theorem remainingIndices_isSome_iff {n k : Nat} (idx : Fin k → Fin n) :
    (remainingIndices idx).isSome ↔ StrictMono idx := by
  constructor
  · intro h
    have hd : (setDifference (List.finRange n) (List.ofFn idx)).length + k = n := by
      by_contra hc
      simp [remainingIndices, hc] at h
    rw [← ofFn_pairwise_iff]
    have hs : (List.ofFn idx).Sublist (List.finRange n) := setDifferenceAux_sublist _ _ _ le_rfl (by
      show (setDifference (List.finRange n) (List.ofFn idx)).length + _ = _
      simp only [List.length_finRange, List.length_ofFn]
      exact hd)
    exact List.Pairwise.sublist hs (finRange_pairwise n)
  · intro h
    have hd : (setDifference (List.finRange n) (List.ofFn idx)).length + k = n := by
      rw [setDifference_finRange idx h]
      exact filter_length idx h.injective
    simp [remainingIndices, hd]

/-- For strictly increasing indices the remaining ones are strictly increasing and are exactly the
others. -/
theorem remainingIndices_spec {n k : Nat} (idx : Fin k → Fin n) (h : StrictMono idx) :
    ∃ rem, remainingIndices idx = some rem ∧ StrictMono rem ∧
      ∀ x, (∃ i, rem i = x) ↔ ∀ j, idx j ≠ x := by
  have hd : (setDifference (List.finRange n) (List.ofFn idx)).length + k = n := by
    rw [setDifference_finRange idx h]
    exact filter_length idx h.injective
  refine ⟨_, by unfold remainingIndices; rw [dif_pos hd], ?_, fun x => ?_⟩
  · have hp : (setDifference (List.finRange n) (List.ofFn idx)).Pairwise (· < ·) := by
      rw [setDifference_finRange idx h]
      exact (finRange_pairwise n).filter _
    intro i j hij
    exact List.pairwise_iff_getElem.1 hp _ _ _ _ hij
  · have hm : x ∈ setDifference (List.finRange n) (List.ofFn idx) ↔ ∀ j, idx j ≠ x := by
      rw [setDifference_finRange idx h]
      simp [List.mem_ofFn]
    rw [← hm, List.mem_iff_get]
    constructor
    · rintro ⟨i, hi⟩
      exact ⟨_, hi⟩
    · rintro ⟨i, hi⟩
      exact ⟨i.cast (by omega), hi⟩

/-- Two strictly increasing arrays with the same entries are equal. -/
theorem strictMono_unique {m n : Nat} (f g : Fin m → Fin n) (hf : StrictMono f) (hg : StrictMono g)
    (h : ∀ x, (∃ i, f i = x) ↔ ∃ i, g i = x) : f = g := by
  apply (StrictMono.range_inj hf hg).1
  ext x
  exact h x

/-- A sum over all rows is the sum over the remaining and the given ones. -/
theorem sum_split {n k : Nat} {M : Type*} [AddCommMonoid M] (idx : Fin k → Fin n)
    (rem : Fin (n - k) → Fin n) (hi : Function.Injective idx) (hr : Function.Injective rem)
    (hc : ∀ x, (∃ i, rem i = x) ↔ ∀ j, idx j ≠ x) (f : Fin n → M) :
    ∑ x, f x = ∑ i, f (rem i) + ∑ j, f (idx j) := by
  classical
  rw [← Finset.sum_filter_add_sum_filter_not Finset.univ (fun x => ∃ i, rem i = x)]
  congr 1
  · rw [← Finset.sum_image (f := f) (g := rem) (fun a _ b _ h => hr h)]
    apply Finset.sum_congr _ fun _ _ => rfl
    ext x
    simp
  · rw [← Finset.sum_image (f := f) (g := idx) (fun a _ b _ h => hi h)]
    apply Finset.sum_congr _ fun _ _ => rfl
    ext x
    simp only [Finset.mem_filter, Finset.mem_univ, true_and, Finset.mem_image]
    rw [hc]
    push Not
    rfl

end Ikarus
