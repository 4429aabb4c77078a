import Verif.Material.InversionModel
import Mathlib.Analysis.Normed.Field.Basic
import Mathlib.Tactic.Abel
import Mathlib.Tactic.Linarith
import Mathlib.Tactic.NormNum

/-!
C43: numerical inversion of a material law.
-/

namespace Ikarus

variable {V : Type} [NormedAddCommGroup V]

/-- Specification: a strain is only returned if its stress is the given one up to the tolerance. -/
def Spec.InversionReportsFailure (V : Type) [NormedAddCommGroup V] : Prop :=
  ∀ (m : InvertibleMaterial V) (S Estart : V) (tol : ℝ) (maxIter : Nat) D E, 0 < tol →
    numericalMaterialInversion m S Estart tol maxIter = some (D, E) → ‖S - m.stress E‖ < tol

open Spec

theorem inversionLoop_not_thrown (m : InvertibleMaterial V) (S : V) (tol : ℝ) (maxIter : Nat)
    (is : List Nat) (his : ∀ i ∈ is, i < maxIter) (s : InversionState V) :
    inversionLoop m S tol maxIter is s ≠ .thrown := by
  induction is generalizing s with
  | nil => simp [inversionLoop]
  | cons i is ih =>
    simp only [inversionLoop]
    split
    · simp
    · have : i ≠ maxIter := (his i (by simp)).ne
      rw [if_neg this]
      exact ih (fun j hj => his j (by simp [hj])) _

/-- C43. The exception announcing that the iteration did not converge is never thrown. -/
theorem inversion_never_throws (m : InvertibleMaterial V) (S Estart : V) (tol : ℝ) (maxIter : Nat) :
    (numericalMaterialInversion m S Estart tol maxIter).isSome := by
  unfold numericalMaterialInversion
  have := inversionLoop_not_thrown m S tol maxIter (List.range maxIter)
    (fun i hi => List.mem_range.mp hi) ⟨fun _ => 0, Estart⟩
  split
  · rfl
  · rfl
  · contradiction

/-- C43. Hence a strain is returned although its stress is not the given one; already for numbers,
with a stress equal to the strain and a compliance that does not match. -/
theorem inversion_failure_not_reported : ¬ InversionReportsFailure ℝ := by
  intro h
  have := h ⟨fun E => E, fun _ r => 0 * r⟩ 1 0 (1 / 2) 20
  obtain ⟨⟨D, E⟩, hs⟩ := Option.isSome_iff_exists.mp
    (inversion_never_throws (⟨fun E => E, fun _ r => 0 * r⟩ : InvertibleMaterial ℝ) 1 0 (1 / 2) 20)
  have hE : E = 0 := by
    have key : ∀ (is : List Nat) (s : InversionState ℝ), s.Es = 0 →
        ∀ e, (inversionLoop ⟨fun E => E, fun _ r => 0 * r⟩ (1 : ℝ) (1 / 2) 20 is s = .done e ∨
          inversionLoop ⟨fun E => E, fun _ r => 0 * r⟩ (1 : ℝ) (1 / 2) 20 is s = .broke e) →
          e.Es = 0 := by
      intro is
      induction is with
      | nil =>
        intro s hs e he
        simp only [inversionLoop, LoopExit.done.injEq, reduceCtorEq, or_false] at he
        rw [← he]
        exact hs
      | cons i is ih =>
        intro s hs e he
        simp only [inversionLoop] at he
        split at he
        · simp only [reduceCtorEq, LoopExit.broke.injEq, false_or] at he
          rw [← he]
          exact hs
        · split at he
          · simp at he
          · exact ih _ (by simp [hs]) e he
    unfold numericalMaterialInversion at hs
    split at hs
    · next e he =>
      simp only [Option.some.injEq, Prod.mk.injEq] at hs
      rw [← hs.2]
      exact key _ _ rfl e (Or.inl he)
    · next e he =>
      simp only [Option.some.injEq, Prod.mk.injEq] at hs
      rw [← hs.2]
      exact key _ _ rfl e (Or.inr he)
    · cases hs
  have h1 := this D E (by norm_num) hs
  rw [hE] at h1
  norm_num at h1

theorem inversionLoop_broke (m : InvertibleMaterial V) (S : V) (tol : ℝ) (maxIter : Nat)
    (is : List Nat) (s e : InversionState V) (h : inversionLoop m S tol maxIter is s = .broke e) :
    ‖S - m.stress e.Es‖ < tol := by
  induction is generalizing s with
  | nil => simp [inversionLoop] at h
  | cons i is ih =>
    simp only [inversionLoop] at h
    split at h
    · next hc =>
      simp only [LoopExit.broke.injEq] at h
      rw [← h]
      exact hc.1
    · split at h
      · cases h
      · exact ih _ h

/-- Specification: the iterates of the method of Newton. -/
noncomputable def Spec.inversionIterate (m : InvertibleMaterial V) (S Estart : V) : Nat → V
  | 0 => Estart
  | k + 1 =>
    let E := Spec.inversionIterate m S Estart k
    E + m.compliance E (S - m.stress E)

theorem inversionLoop_iterate (m : InvertibleMaterial V) (S Estart : V) (tol : ℝ) (maxIter n k : Nat)
    (hk : k + n = maxIter) (s : InversionState V) (hs : s.Es = inversionIterate m S Estart k)
    (hprev : ∀ j, 0 < j → j < k → tol ≤ ‖S - m.stress (inversionIterate m S Estart j)‖) :
    (∃ e j, inversionLoop m S tol maxIter (List.range' k n) s = .broke e ∧ 0 < j ∧ k ≤ j ∧
        j < maxIter ∧ e.Es = inversionIterate m S Estart j ∧
        (∀ i, 0 < i → i < j → tol ≤ ‖S - m.stress (inversionIterate m S Estart i)‖)) ∨
      (∃ e, inversionLoop m S tol maxIter (List.range' k n) s = .done e ∧
        e.Es = inversionIterate m S Estart maxIter ∧
        (∀ i, 0 < i → i < maxIter → tol ≤ ‖S - m.stress (inversionIterate m S Estart i)‖)) := by
  induction n generalizing k s with
  | zero =>
    right
    obtain rfl : k = maxIter := by omega
    exact ⟨s, rfl, hs, hprev⟩
  | succ n ih =>
    rw [List.range'_succ]
    simp only [inversionLoop]
    by_cases hc : ‖S - m.stress s.Es‖ < tol ∧ 0 < k
    · left
      rw [if_pos hc]
      exact ⟨s, k, rfl, hc.2, le_refl _, by omega, hs, hprev⟩
    · rw [if_neg hc, if_neg (by omega)]
      have hprev' : ∀ j, 0 < j → j < k + 1 →
          tol ≤ ‖S - m.stress (inversionIterate m S Estart j)‖ := by
        intro j hj hjk
        rcases Nat.lt_succ_iff_lt_or_eq.mp hjk with h | rfl
        · exact hprev j hj h
        · rw [← hs]
          by_contra hcon
          exact hc ⟨not_le.mp hcon, hj⟩
      rcases ih (k + 1) (by omega)
        { D := m.compliance s.Es, Es := s.Es + m.compliance s.Es (S - m.stress s.Es) }
        (by simp only [inversionIterate, hs]) hprev' with ⟨e, j, h1, h2, h3, h4, h5, h6⟩ | h
      · exact Or.inl ⟨e, j, h1, h2, by omega, h4, h5, h6⟩
      · exact Or.inr h

/-- C43, partial. What does hold: the result is an iterate of Newton's method, namely the first one after
the start whose residual is below the tolerance, or, if there is none before `maxIter`, the iterate
`maxIter`. In the first case the returned strain has the given stress up to the tolerance. (Missing: a
failure to converge is not reported, see `inversion_failure_not_reported`.) -/
theorem inversion_iterates_partial (m : InvertibleMaterial V) (S Estart : V) (tol : ℝ) (maxIter : Nat) :
    ∃ D E k, numericalMaterialInversion m S Estart tol maxIter = some (D, E) ∧
      E = inversionIterate m S Estart k ∧ k ≤ maxIter ∧ (k = 0 → maxIter = 0) ∧
      (∀ i, 0 < i → i < k → tol ≤ ‖S - m.stress (inversionIterate m S Estart i)‖) ∧
      (k < maxIter → ‖S - m.stress E‖ < tol) := by
  have h := inversionLoop_iterate m S Estart tol maxIter maxIter 0 (by omega)
    ⟨fun _ => 0, Estart⟩ rfl (by intro j hj hj'; omega)
  unfold numericalMaterialInversion
  rw [List.range_eq_range']
  rcases h with ⟨e, j, h1, h2, -, h4, h5, h6⟩ | ⟨e, h1, h2, h3⟩
  · rw [h1]
    refine ⟨e.D, e.Es, j, rfl, h5, h4.le, by omega, h6, fun _ => ?_⟩
    exact inversionLoop_broke m S tol maxIter _ _ e h1
  · rw [h1]
    exact ⟨e.D, e.Es, maxIter, rfl, h2, le_refl _, id, h3, fun h => absurd h (lt_irrefl _)⟩

/-- C43. For a linear material the result is exact, from every starting strain, if at least one iteration
is allowed; the returned compliance is the one of the material. -/
theorem inversion_linear (C D : V →+ V) (hCD : ∀ s, C (D s) = s) (hDC : ∀ e, D (C e) = e)
    (S Estart : V) (tol : ℝ) (htol : 0 < tol) (maxIter : Nat) (hm : 0 < maxIter) :
    numericalMaterialInversion ⟨C, fun _ => D⟩ S Estart tol maxIter = some (⇑D, D S) := by
  obtain ⟨n, rfl⟩ : ∃ n, maxIter = n + 1 := ⟨maxIter - 1, by omega⟩
  have h1 : Estart + D (S - C Estart) = D S := by rw [map_sub, hDC]; abel
  unfold numericalMaterialInversion
  rw [List.range_eq_range', List.range'_succ]
  simp only [inversionLoop]
  rw [if_neg (by simp), if_neg (by omega), h1]
  cases n with
  | zero => simp [inversionLoop]
  | succ n =>
    rw [List.range'_succ]
    simp only [inversionLoop]
    rw [if_pos]
    refine ⟨?_, by omega⟩
    rw [hCD, sub_self, norm_zero]
    exact htol

/-- Numbers meeting the hypotheses. -/
example : ∃ C D : ℝ →+ ℝ, (∀ s, C (D s) = s) ∧ (∀ e, D (C e) = e) ∧ C 1 = 2 :=
  ⟨AddMonoidHom.mulLeft 2, AddMonoidHom.mulLeft (1 / 2), fun s => by simp, fun s => by simp, by simp⟩

end Ikarus
