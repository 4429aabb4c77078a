import Verif.FE.AssumedStressLinearProps
import Verif.FE.EASGaussProps

/-!
The modes of the assumed stresses: the transformation from the unit cube, constant stresses, independence of the modes and the
matrix `H` with the default integration rule.
-/

namespace Ikarus.Element.AssumedStress

open Matrix Ikarus.Element.Spec Ikarus.Element.EAS Ikarus.Utils

variable {n d q m g : Nat}

/-! ### Linear independence -/

theorem independent_s5 : EAS.Spec.Independent s5 2 := by
  intro L b h
  have hrow : ∀ i, ∀ p ∈ L.support, (s5.map fun e => if i = e.1 then e.2.2 p * b e.2.1 else 0).sum = 0 :=
    fun i p hp => by rw [← assign_mulVec s5 (by decide), h p hp]; rfl
  have h0 : b 0 ^ 2 + 1 / 3 * b 3 ^ 2 = 0 := by
    have hv := vanish (k' := 1) (by norm_num) L
      [(b 0, ![0, 0]), (b 3, ![0, 1])] (by simp [Fin.forall_fin_succ]) _ (fun p => by
      simp [s5, poly, Fin.prod_univ_two, coord, one_dot] <;> ring) (hrow 0)
    simp [EAS.Spec.mu, Fin.prod_univ_two, Nat.even_iff] at hv
    norm_num at hv
    linarith
  have h1 : b 1 ^ 2 + 1 / 3 * b 4 ^ 2 = 0 := by
    have hv := vanish (k' := 1) (by norm_num) L
      [(b 1, ![0, 0]), (b 4, ![1, 0])] (by simp [Fin.forall_fin_succ]) _ (fun p => by
      simp [s5, poly, Fin.prod_univ_two, coord, one_dot] <;> ring) (hrow 1)
    simp [EAS.Spec.mu, Fin.prod_univ_two, Nat.even_iff] at hv
    norm_num at hv
    linarith
  have h2 : b 2 ^ 2 = 0 := by
    have hv := vanish (k' := 1) (by norm_num) L
      [(b 2, ![0, 0])] (by simp [Fin.forall_fin_succ]) _ (fun p => by
      simp [s5, poly, Fin.prod_univ_two, coord, one_dot] <;> ring) (hrow 2)
    simp [EAS.Spec.mu, Fin.prod_univ_two, Nat.even_iff] at hv
    norm_num at hv
    simp [hv]
  funext j
  fin_cases j
  · show b 0 = 0
    exact pow_eq_zero_iff two_ne_zero |>.1 (le_antisymm (by linarith [sq_nonneg (b 0), sq_nonneg (b 3)]) (sq_nonneg _))
  · show b 1 = 0
    exact pow_eq_zero_iff two_ne_zero |>.1 (le_antisymm (by linarith [sq_nonneg (b 1), sq_nonneg (b 4)]) (sq_nonneg _))
  · show b 2 = 0
    exact pow_eq_zero_iff two_ne_zero |>.1 (le_antisymm (by linarith [sq_nonneg (b 2)]) (sq_nonneg _))
  · show b 3 = 0
    exact pow_eq_zero_iff two_ne_zero |>.1 (le_antisymm (by linarith [sq_nonneg (b 0), sq_nonneg (b 3)]) (sq_nonneg _))
  · show b 4 = 0
    exact pow_eq_zero_iff two_ne_zero |>.1 (le_antisymm (by linarith [sq_nonneg (b 1), sq_nonneg (b 4)]) (sq_nonneg _))

theorem independent_s18 : EAS.Spec.Independent s18 2 := by
  intro L b h
  have hrow : ∀ i, ∀ p ∈ L.support, (s18.map fun e => if i = e.1 then e.2.2 p * b e.2.1 else 0).sum = 0 :=
    fun i p hp => by rw [← assign_mulVec s18 (by decide), h p hp]; rfl
  have h0 : b 0 ^ 2 + 1 / 3 * b 1 ^ 2 + 1 / 3 * b 2 ^ 2 + 1 / 9 * b 3 ^ 2 = 0 := by
    have hv := vanish (k' := 1) (by norm_num) L
      [(b 0, ![0, 0, 0]), (b 1, ![0, 1, 0]), (b 2, ![0, 0, 1]), (b 3, ![0, 1, 1])] (by simp [Fin.forall_fin_succ]) _ (fun p => by
      simp [s18, poly, Fin.prod_univ_three, coord, one_dot] <;> ring) (hrow 0)
    simp [EAS.Spec.mu, Fin.prod_univ_three, Nat.even_iff] at hv
    norm_num at hv
    linarith
  have h1 : b 4 ^ 2 + 1 / 3 * b 5 ^ 2 + 1 / 3 * b 6 ^ 2 + 1 / 9 * b 7 ^ 2 = 0 := by
    have hv := vanish (k' := 1) (by norm_num) L
      [(b 4, ![0, 0, 0]), (b 5, ![1, 0, 0]), (b 6, ![0, 0, 1]), (b 7, ![1, 0, 1])] (by simp [Fin.forall_fin_succ]) _ (fun p => by
      simp [s18, poly, Fin.prod_univ_three, coord, one_dot] <;> ring) (hrow 1)
    simp [EAS.Spec.mu, Fin.prod_univ_three, Nat.even_iff] at hv
    norm_num at hv
    linarith
  have h2 : b 8 ^ 2 + 1 / 3 * b 9 ^ 2 + 1 / 3 * b 10 ^ 2 + 1 / 9 * b 11 ^ 2 = 0 := by
    have hv := vanish (k' := 1) (by norm_num) L
      [(b 8, ![0, 0, 0]), (b 9, ![1, 0, 0]), (b 10, ![0, 1, 0]), (b 11, ![1, 1, 0])] (by simp [Fin.forall_fin_succ]) _ (fun p => by
      simp [s18, poly, Fin.prod_univ_three, coord, one_dot] <;> ring) (hrow 2)
    simp [EAS.Spec.mu, Fin.prod_univ_three, Nat.even_iff] at hv
    norm_num at hv
    linarith
  have h3 : b 12 ^ 2 + 1 / 3 * b 13 ^ 2 = 0 := by
    have hv := vanish (k' := 1) (by norm_num) L
      [(b 12, ![0, 0, 0]), (b 13, ![1, 0, 0])] (by simp [Fin.forall_fin_succ]) _ (fun p => by
      simp [s18, poly, Fin.prod_univ_three, coord, one_dot] <;> ring) (hrow 3)
    simp [EAS.Spec.mu, Fin.prod_univ_three, Nat.even_iff] at hv
    norm_num at hv
    linarith
  have h4 : b 14 ^ 2 + 1 / 3 * b 15 ^ 2 = 0 := by
    have hv := vanish (k' := 1) (by norm_num) L
      [(b 14, ![0, 0, 0]), (b 15, ![0, 1, 0])] (by simp [Fin.forall_fin_succ]) _ (fun p => by
      simp [s18, poly, Fin.prod_univ_three, coord, one_dot] <;> ring) (hrow 4)
    simp [EAS.Spec.mu, Fin.prod_univ_three, Nat.even_iff] at hv
    norm_num at hv
    linarith
  have h5 : b 16 ^ 2 + 1 / 3 * b 17 ^ 2 = 0 := by
    have hv := vanish (k' := 1) (by norm_num) L
      [(b 16, ![0, 0, 0]), (b 17, ![0, 0, 1])] (by simp [Fin.forall_fin_succ]) _ (fun p => by
      simp [s18, poly, Fin.prod_univ_three, coord, one_dot] <;> ring) (hrow 5)
    simp [EAS.Spec.mu, Fin.prod_univ_three, Nat.even_iff] at hv
    norm_num at hv
    linarith
  funext j
  fin_cases j
  · show b 0 = 0
    exact pow_eq_zero_iff two_ne_zero |>.1 (le_antisymm (by linarith [sq_nonneg (b 0), sq_nonneg (b 1), sq_nonneg (b 2), sq_nonneg (b 3)]) (sq_nonneg _))
  · show b 1 = 0
    exact pow_eq_zero_iff two_ne_zero |>.1 (le_antisymm (by linarith [sq_nonneg (b 0), sq_nonneg (b 1), sq_nonneg (b 2), sq_nonneg (b 3)]) (sq_nonneg _))
  · show b 2 = 0
    exact pow_eq_zero_iff two_ne_zero |>.1 (le_antisymm (by linarith [sq_nonneg (b 0), sq_nonneg (b 1), sq_nonneg (b 2), sq_nonneg (b 3)]) (sq_nonneg _))
  · show b 3 = 0
    exact pow_eq_zero_iff two_ne_zero |>.1 (le_antisymm (by linarith [sq_nonneg (b 0), sq_nonneg (b 1), sq_nonneg (b 2), sq_nonneg (b 3)]) (sq_nonneg _))
  · show b 4 = 0
    exact pow_eq_zero_iff two_ne_zero |>.1 (le_antisymm (by linarith [sq_nonneg (b 4), sq_nonneg (b 5), sq_nonneg (b 6), sq_nonneg (b 7)]) (sq_nonneg _))
  · show b 5 = 0
    exact pow_eq_zero_iff two_ne_zero |>.1 (le_antisymm (by linarith [sq_nonneg (b 4), sq_nonneg (b 5), sq_nonneg (b 6), sq_nonneg (b 7)]) (sq_nonneg _))
  · show b 6 = 0
    exact pow_eq_zero_iff two_ne_zero |>.1 (le_antisymm (by linarith [sq_nonneg (b 4), sq_nonneg (b 5), sq_nonneg (b 6), sq_nonneg (b 7)]) (sq_nonneg _))
  · show b 7 = 0
    exact pow_eq_zero_iff two_ne_zero |>.1 (le_antisymm (by linarith [sq_nonneg (b 4), sq_nonneg (b 5), sq_nonneg (b 6), sq_nonneg (b 7)]) (sq_nonneg _))
  · show b 8 = 0
    exact pow_eq_zero_iff two_ne_zero |>.1 (le_antisymm (by linarith [sq_nonneg (b 8), sq_nonneg (b 9), sq_nonneg (b 10), sq_nonneg (b 11)]) (sq_nonneg _))
  · show b 9 = 0
    exact pow_eq_zero_iff two_ne_zero |>.1 (le_antisymm (by linarith [sq_nonneg (b 8), sq_nonneg (b 9), sq_nonneg (b 10), sq_nonneg (b 11)]) (sq_nonneg _))
  · show b 10 = 0
    exact pow_eq_zero_iff two_ne_zero |>.1 (le_antisymm (by linarith [sq_nonneg (b 8), sq_nonneg (b 9), sq_nonneg (b 10), sq_nonneg (b 11)]) (sq_nonneg _))
  · show b 11 = 0
    exact pow_eq_zero_iff two_ne_zero |>.1 (le_antisymm (by linarith [sq_nonneg (b 8), sq_nonneg (b 9), sq_nonneg (b 10), sq_nonneg (b 11)]) (sq_nonneg _))
  · show b 12 = 0
    exact pow_eq_zero_iff two_ne_zero |>.1 (le_antisymm (by linarith [sq_nonneg (b 12), sq_nonneg (b 13)]) (sq_nonneg _))
  · show b 13 = 0
    exact pow_eq_zero_iff two_ne_zero |>.1 (le_antisymm (by linarith [sq_nonneg (b 12), sq_nonneg (b 13)]) (sq_nonneg _))
  · show b 14 = 0
    exact pow_eq_zero_iff two_ne_zero |>.1 (le_antisymm (by linarith [sq_nonneg (b 14), sq_nonneg (b 15)]) (sq_nonneg _))
  · show b 15 = 0
    exact pow_eq_zero_iff two_ne_zero |>.1 (le_antisymm (by linarith [sq_nonneg (b 14), sq_nonneg (b 15)]) (sq_nonneg _))
  · show b 16 = 0
    exact pow_eq_zero_iff two_ne_zero |>.1 (le_antisymm (by linarith [sq_nonneg (b 16), sq_nonneg (b 17)]) (sq_nonneg _))
  · show b 17 = 0
    exact pow_eq_zero_iff two_ne_zero |>.1 (le_antisymm (by linarith [sq_nonneg (b 16), sq_nonneg (b 17)]) (sq_nonneg _))

set_option maxHeartbeats 1000000 in
theorem independent_s24 : EAS.Spec.Independent s24 2 := by
  intro L b h
  have hrow : ∀ i, ∀ p ∈ L.support, (s24.map fun e => if i = e.1 then e.2.2 p * b e.2.1 else 0).sum = 0 :=
    fun i p hp => by rw [← assign_mulVec s24 (by decide), h p hp]; rfl
  have h0 : b 0 ^ 2 + 1 / 3 * b 1 ^ 2 + 1 / 3 * b 2 ^ 2 + 1 / 9 * b 3 ^ 2 = 0 := by
    have hv := vanish (k' := 1) (by norm_num) L
      [(b 0, ![0, 0, 0]), (b 1, ![0, 1, 0]), (b 2, ![0, 0, 1]), (b 3, ![0, 1, 1])] (by simp [Fin.forall_fin_succ]) _ (fun p => by
      simp [s24, poly, Fin.prod_univ_three, coord, one_dot] <;> ring) (hrow 0)
    simp [EAS.Spec.mu, Fin.prod_univ_three, Nat.even_iff] at hv
    norm_num at hv
    linarith
  have h1 : b 4 ^ 2 + 1 / 3 * b 5 ^ 2 + 1 / 3 * b 6 ^ 2 + 1 / 9 * b 7 ^ 2 = 0 := by
    have hv := vanish (k' := 1) (by norm_num) L
      [(b 4, ![0, 0, 0]), (b 5, ![1, 0, 0]), (b 6, ![0, 0, 1]), (b 7, ![1, 0, 1])] (by simp [Fin.forall_fin_succ]) _ (fun p => by
      simp [s24, poly, Fin.prod_univ_three, coord, one_dot] <;> ring) (hrow 1)
    simp [EAS.Spec.mu, Fin.prod_univ_three, Nat.even_iff] at hv
    norm_num at hv
    linarith
  have h2 : b 8 ^ 2 + 1 / 3 * b 9 ^ 2 + 1 / 3 * b 10 ^ 2 + 1 / 9 * b 11 ^ 2 = 0 := by
    have hv := vanish (k' := 1) (by norm_num) L
      [(b 8, ![0, 0, 0]), (b 9, ![1, 0, 0]), (b 10, ![0, 1, 0]), (b 11, ![1, 1, 0])] (by simp [Fin.forall_fin_succ]) _ (fun p => by
      simp [s24, poly, Fin.prod_univ_three, coord, one_dot] <;> ring) (hrow 2)
    simp [EAS.Spec.mu, Fin.prod_univ_three, Nat.even_iff] at hv
    norm_num at hv
    linarith
  have h3 : b 12 ^ 2 + 1 / 3 * b 13 ^ 2 + 1 / 9 * b 14 ^ 2 + 1 / 9 * b 15 ^ 2 = 0 := by
    have hv := vanish (k' := 1) (by norm_num) L
      [(b 12, ![0, 0, 0]), (b 13, ![1, 0, 0]), (b 14, ![1, 1, 0]), (b 15, ![1, 0, 1])] (by simp [Fin.forall_fin_succ]) _ (fun p => by
      simp [s24, poly, Fin.prod_univ_three, coord, one_dot] <;> ring) (hrow 3)
    simp [EAS.Spec.mu, Fin.prod_univ_three, Nat.even_iff] at hv
    norm_num at hv
    linarith
  have h4 : b 16 ^ 2 + 1 / 3 * b 17 ^ 2 + 1 / 9 * b 18 ^ 2 + 1 / 9 * b 19 ^ 2 = 0 := by
    have hv := vanish (k' := 1) (by norm_num) L
      [(b 16, ![0, 0, 0]), (b 17, ![0, 1, 0]), (b 18, ![1, 1, 0]), (b 19, ![0, 1, 1])] (by simp [Fin.forall_fin_succ]) _ (fun p => by
      simp [s24, poly, Fin.prod_univ_three, coord, one_dot] <;> ring) (hrow 4)
    simp [EAS.Spec.mu, Fin.prod_univ_three, Nat.even_iff] at hv
    norm_num at hv
    linarith
  have h5 : b 20 ^ 2 + 1 / 3 * b 21 ^ 2 + 1 / 9 * b 22 ^ 2 + 1 / 9 * b 23 ^ 2 = 0 := by
    have hv := vanish (k' := 1) (by norm_num) L
      [(b 20, ![0, 0, 0]), (b 21, ![0, 0, 1]), (b 22, ![0, 1, 1]), (b 23, ![1, 0, 1])] (by simp [Fin.forall_fin_succ]) _ (fun p => by
      simp [s24, poly, Fin.prod_univ_three, coord, one_dot] <;> ring) (hrow 5)
    simp [EAS.Spec.mu, Fin.prod_univ_three, Nat.even_iff] at hv
    norm_num at hv
    linarith
  funext j
  fin_cases j
  · show b 0 = 0
    exact pow_eq_zero_iff two_ne_zero |>.1 (le_antisymm (by linarith [sq_nonneg (b 0), sq_nonneg (b 1), sq_nonneg (b 2), sq_nonneg (b 3)]) (sq_nonneg _))
  · show b 1 = 0
    exact pow_eq_zero_iff two_ne_zero |>.1 (le_antisymm (by linarith [sq_nonneg (b 0), sq_nonneg (b 1), sq_nonneg (b 2), sq_nonneg (b 3)]) (sq_nonneg _))
  · show b 2 = 0
    exact pow_eq_zero_iff two_ne_zero |>.1 (le_antisymm (by linarith [sq_nonneg (b 0), sq_nonneg (b 1), sq_nonneg (b 2), sq_nonneg (b 3)]) (sq_nonneg _))
  · show b 3 = 0
    exact pow_eq_zero_iff two_ne_zero |>.1 (le_antisymm (by linarith [sq_nonneg (b 0), sq_nonneg (b 1), sq_nonneg (b 2), sq_nonneg (b 3)]) (sq_nonneg _))
  · show b 4 = 0
    exact pow_eq_zero_iff two_ne_zero |>.1 (le_antisymm (by linarith [sq_nonneg (b 4), sq_nonneg (b 5), sq_nonneg (b 6), sq_nonneg (b 7)]) (sq_nonneg _))
  · show b 5 = 0
    exact pow_eq_zero_iff two_ne_zero |>.1 (le_antisymm (by linarith [sq_nonneg (b 4), sq_nonneg (b 5), sq_nonneg (b 6), sq_nonneg (b 7)]) (sq_nonneg _))
  · show b 6 = 0
    exact pow_eq_zero_iff two_ne_zero |>.1 (le_antisymm (by linarith [sq_nonneg (b 4), sq_nonneg (b 5), sq_nonneg (b 6), sq_nonneg (b 7)]) (sq_nonneg _))
  · show b 7 = 0
    exact pow_eq_zero_iff two_ne_zero |>.1 (le_antisymm (by linarith [sq_nonneg (b 4), sq_nonneg (b 5), sq_nonneg (b 6), sq_nonneg (b 7)]) (sq_nonneg _))
  · show b 8 = 0
    exact pow_eq_zero_iff two_ne_zero |>.1 (le_antisymm (by linarith [sq_nonneg (b 8), sq_nonneg (b 9), sq_nonneg (b 10), sq_nonneg (b 11)]) (sq_nonneg _))
  · show b 9 = 0
    exact pow_eq_zero_iff two_ne_zero |>.1 (le_antisymm (by linarith [sq_nonneg (b 8), sq_nonneg (b 9), sq_nonneg (b 10), sq_nonneg (b 11)]) (sq_nonneg _))
  · show b 10 = 0
    exact pow_eq_zero_iff two_ne_zero |>.1 (le_antisymm (by linarith [sq_nonneg (b 8), sq_nonneg (b 9), sq_nonneg (b 10), sq_nonneg (b 11)]) (sq_nonneg _))
  · show b 11 = 0
    exact pow_eq_zero_iff two_ne_zero |>.1 (le_antisymm (by linarith [sq_nonneg (b 8), sq_nonneg (b 9), sq_nonneg (b 10), sq_nonneg (b 11)]) (sq_nonneg _))
  · show b 12 = 0
    exact pow_eq_zero_iff two_ne_zero |>.1 (le_antisymm (by linarith [sq_nonneg (b 12), sq_nonneg (b 13), sq_nonneg (b 14), sq_nonneg (b 15)]) (sq_nonneg _))
  · show b 13 = 0
    exact pow_eq_zero_iff two_ne_zero |>.1 (le_antisymm (by linarith [sq_nonneg (b 12), sq_nonneg (b 13), sq_nonneg (b 14), sq_nonneg (b 15)]) (sq_nonneg _))
  · show b 14 = 0
    exact pow_eq_zero_iff two_ne_zero |>.1 (le_antisymm (by linarith [sq_nonneg (b 12), sq_nonneg (b 13), sq_nonneg (b 14), sq_nonneg (b 15)]) (sq_nonneg _))
  · show b 15 = 0
    exact pow_eq_zero_iff two_ne_zero |>.1 (le_antisymm (by linarith [sq_nonneg (b 12), sq_nonneg (b 13), sq_nonneg (b 14), sq_nonneg (b 15)]) (sq_nonneg _))
  · show b 16 = 0
    exact pow_eq_zero_iff two_ne_zero |>.1 (le_antisymm (by linarith [sq_nonneg (b 16), sq_nonneg (b 17), sq_nonneg (b 18), sq_nonneg (b 19)]) (sq_nonneg _))
  · show b 17 = 0
    exact pow_eq_zero_iff two_ne_zero |>.1 (le_antisymm (by linarith [sq_nonneg (b 16), sq_nonneg (b 17), sq_nonneg (b 18), sq_nonneg (b 19)]) (sq_nonneg _))
  · show b 18 = 0
    exact pow_eq_zero_iff two_ne_zero |>.1 (le_antisymm (by linarith [sq_nonneg (b 16), sq_nonneg (b 17), sq_nonneg (b 18), sq_nonneg (b 19)]) (sq_nonneg _))
  · show b 19 = 0
    exact pow_eq_zero_iff two_ne_zero |>.1 (le_antisymm (by linarith [sq_nonneg (b 16), sq_nonneg (b 17), sq_nonneg (b 18), sq_nonneg (b 19)]) (sq_nonneg _))
  · show b 20 = 0
    exact pow_eq_zero_iff two_ne_zero |>.1 (le_antisymm (by linarith [sq_nonneg (b 20), sq_nonneg (b 21), sq_nonneg (b 22), sq_nonneg (b 23)]) (sq_nonneg _))
  · show b 21 = 0
    exact pow_eq_zero_iff two_ne_zero |>.1 (le_antisymm (by linarith [sq_nonneg (b 20), sq_nonneg (b 21), sq_nonneg (b 22), sq_nonneg (b 23)]) (sq_nonneg _))
  · show b 22 = 0
    exact pow_eq_zero_iff two_ne_zero |>.1 (le_antisymm (by linarith [sq_nonneg (b 20), sq_nonneg (b 21), sq_nonneg (b 22), sq_nonneg (b 23)]) (sq_nonneg _))
  · show b 23 = 0
    exact pow_eq_zero_iff two_ne_zero |>.1 (le_antisymm (by linarith [sq_nonneg (b 20), sq_nonneg (b 21), sq_nonneg (b 22), sq_nonneg (b 23)]) (sq_nonneg _))

set_option maxHeartbeats 1000000 in
theorem independent_s30 : EAS.Spec.Independent s30 2 := by
  intro L b h
  have hrow : ∀ i, ∀ p ∈ L.support, (s30.map fun e => if i = e.1 then e.2.2 p * b e.2.1 else 0).sum = 0 :=
    fun i p hp => by rw [← assign_mulVec s30 (by decide), h p hp]; rfl
  have h0 : b 0 ^ 2 + 1 / 3 * b 1 ^ 2 + 1 / 3 * b 2 ^ 2 + 1 / 9 * b 3 ^ 2 = 0 := by
    have hv := vanish (k' := 1) (by norm_num) L
      [(b 0, ![0, 0, 0]), (b 1, ![0, 1, 0]), (b 2, ![0, 0, 1]), (b 3, ![0, 1, 1])] (by simp [Fin.forall_fin_succ]) _ (fun p => by
      simp [s30, poly, Fin.prod_univ_three, coord, one_dot] <;> ring) (hrow 0)
    simp [EAS.Spec.mu, Fin.prod_univ_three, Nat.even_iff] at hv
    norm_num at hv
    linarith
  have h1 : b 4 ^ 2 + 1 / 3 * b 5 ^ 2 + 1 / 3 * b 6 ^ 2 + 1 / 9 * b 7 ^ 2 = 0 := by
    have hv := vanish (k' := 1) (by norm_num) L
      [(b 4, ![0, 0, 0]), (b 5, ![1, 0, 0]), (b 6, ![0, 0, 1]), (b 7, ![1, 0, 1])] (by simp [Fin.forall_fin_succ]) _ (fun p => by
      simp [s30, poly, Fin.prod_univ_three, coord, one_dot] <;> ring) (hrow 1)
    simp [EAS.Spec.mu, Fin.prod_univ_three, Nat.even_iff] at hv
    norm_num at hv
    linarith
  have h2 : b 8 ^ 2 + 1 / 3 * b 9 ^ 2 + 1 / 3 * b 10 ^ 2 + 1 / 9 * b 11 ^ 2 = 0 := by
    have hv := vanish (k' := 1) (by norm_num) L
      [(b 8, ![0, 0, 0]), (b 9, ![1, 0, 0]), (b 10, ![0, 1, 0]), (b 11, ![1, 1, 0])] (by simp [Fin.forall_fin_succ]) _ (fun p => by
      simp [s30, poly, Fin.prod_univ_three, coord, one_dot] <;> ring) (hrow 2)
    simp [EAS.Spec.mu, Fin.prod_univ_three, Nat.even_iff] at hv
    norm_num at hv
    linarith
  have h3 : b 12 ^ 2 + 1 / 3 * b 13 ^ 2 + 1 / 3 * b 14 ^ 2 + 1 / 3 * b 15 ^ 2 + 1 / 9 * b 16 ^ 2 + 1 / 9 * b 17 ^ 2 = 0 := by
    have hv := vanish (k' := 1) (by norm_num) L
      [(b 12, ![0, 0, 0]), (b 13, ![1, 0, 0]), (b 14, ![0, 1, 0]), (b 15, ![0, 0, 1]), (b 16, ![1, 1, 0]), (b 17, ![1, 0, 1])] (by simp [Fin.forall_fin_succ]) _ (fun p => by
      simp [s30, poly, Fin.prod_univ_three, coord, one_dot] <;> ring) (hrow 3)
    simp [EAS.Spec.mu, Fin.prod_univ_three, Nat.even_iff] at hv
    norm_num at hv
    linarith
  have h4 : b 18 ^ 2 + 1 / 3 * b 19 ^ 2 + 1 / 3 * b 20 ^ 2 + 1 / 3 * b 21 ^ 2 + 1 / 9 * b 22 ^ 2 + 1 / 9 * b 23 ^ 2 = 0 := by
    have hv := vanish (k' := 1) (by norm_num) L
      [(b 18, ![0, 0, 0]), (b 19, ![1, 0, 0]), (b 20, ![0, 1, 0]), (b 21, ![0, 0, 1]), (b 22, ![1, 1, 0]), (b 23, ![0, 1, 1])] (by simp [Fin.forall_fin_succ]) _ (fun p => by
      simp [s30, poly, Fin.prod_univ_three, coord, one_dot] <;> ring) (hrow 4)
    simp [EAS.Spec.mu, Fin.prod_univ_three, Nat.even_iff] at hv
    norm_num at hv
    linarith
  have h5 : b 24 ^ 2 + 1 / 3 * b 25 ^ 2 + 1 / 3 * b 26 ^ 2 + 1 / 3 * b 27 ^ 2 + 1 / 9 * b 28 ^ 2 + 1 / 9 * b 29 ^ 2 = 0 := by
    have hv := vanish (k' := 1) (by norm_num) L
      [(b 24, ![0, 0, 0]), (b 25, ![1, 0, 0]), (b 26, ![0, 1, 0]), (b 27, ![0, 0, 1]), (b 28, ![0, 1, 1]), (b 29, ![1, 0, 1])] (by simp [Fin.forall_fin_succ]) _ (fun p => by
      simp [s30, poly, Fin.prod_univ_three, coord, one_dot] <;> ring) (hrow 5)
    simp [EAS.Spec.mu, Fin.prod_univ_three, Nat.even_iff] at hv
    norm_num at hv
    linarith
  funext j
  fin_cases j
  · show b 0 = 0
    exact pow_eq_zero_iff two_ne_zero |>.1 (le_antisymm (by linarith [sq_nonneg (b 0), sq_nonneg (b 1), sq_nonneg (b 2), sq_nonneg (b 3)]) (sq_nonneg _))
  · show b 1 = 0
    exact pow_eq_zero_iff two_ne_zero |>.1 (le_antisymm (by linarith [sq_nonneg (b 0), sq_nonneg (b 1), sq_nonneg (b 2), sq_nonneg (b 3)]) (sq_nonneg _))
  · show b 2 = 0
    exact pow_eq_zero_iff two_ne_zero |>.1 (le_antisymm (by linarith [sq_nonneg (b 0), sq_nonneg (b 1), sq_nonneg (b 2), sq_nonneg (b 3)]) (sq_nonneg _))
  · show b 3 = 0
    exact pow_eq_zero_iff two_ne_zero |>.1 (le_antisymm (by linarith [sq_nonneg (b 0), sq_nonneg (b 1), sq_nonneg (b 2), sq_nonneg (b 3)]) (sq_nonneg _))
  · show b 4 = 0
    exact pow_eq_zero_iff two_ne_zero |>.1 (le_antisymm (by linarith [sq_nonneg (b 4), sq_nonneg (b 5), sq_nonneg (b 6), sq_nonneg (b 7)]) (sq_nonneg _))
  · show b 5 = 0
    exact pow_eq_zero_iff two_ne_zero |>.1 (le_antisymm (by linarith [sq_nonneg (b 4), sq_nonneg (b 5), sq_nonneg (b 6), sq_nonneg (b 7)]) (sq_nonneg _))
  · show b 6 = 0
    exact pow_eq_zero_iff two_ne_zero |>.1 (le_antisymm (by linarith [sq_nonneg (b 4), sq_nonneg (b 5), sq_nonneg (b 6), sq_nonneg (b 7)]) (sq_nonneg _))
  · show b 7 = 0
    exact pow_eq_zero_iff two_ne_zero |>.1 (le_antisymm (by linarith [sq_nonneg (b 4), sq_nonneg (b 5), sq_nonneg (b 6), sq_nonneg (b 7)]) (sq_nonneg _))
  · show b 8 = 0
    exact pow_eq_zero_iff two_ne_zero |>.1 (le_antisymm (by linarith [sq_nonneg (b 8), sq_nonneg (b 9), sq_nonneg (b 10), sq_nonneg (b 11)]) (sq_nonneg _))
  · show b 9 = 0
    exact pow_eq_zero_iff two_ne_zero |>.1 (le_antisymm (by linarith [sq_nonneg (b 8), sq_nonneg (b 9), sq_nonneg (b 10), sq_nonneg (b 11)]) (sq_nonneg _))
  · show b 10 = 0
    exact pow_eq_zero_iff two_ne_zero |>.1 (le_antisymm (by linarith [sq_nonneg (b 8), sq_nonneg (b 9), sq_nonneg (b 10), sq_nonneg (b 11)]) (sq_nonneg _))
  · show b 11 = 0
    exact pow_eq_zero_iff two_ne_zero |>.1 (le_antisymm (by linarith [sq_nonneg (b 8), sq_nonneg (b 9), sq_nonneg (b 10), sq_nonneg (b 11)]) (sq_nonneg _))
  · show b 12 = 0
    exact pow_eq_zero_iff two_ne_zero |>.1 (le_antisymm (by linarith [sq_nonneg (b 12), sq_nonneg (b 13), sq_nonneg (b 14), sq_nonneg (b 15), sq_nonneg (b 16), sq_nonneg (b 17)]) (sq_nonneg _))
  · show b 13 = 0
    exact pow_eq_zero_iff two_ne_zero |>.1 (le_antisymm (by linarith [sq_nonneg (b 12), sq_nonneg (b 13), sq_nonneg (b 14), sq_nonneg (b 15), sq_nonneg (b 16), sq_nonneg (b 17)]) (sq_nonneg _))
  · show b 14 = 0
    exact pow_eq_zero_iff two_ne_zero |>.1 (le_antisymm (by linarith [sq_nonneg (b 12), sq_nonneg (b 13), sq_nonneg (b 14), sq_nonneg (b 15), sq_nonneg (b 16), sq_nonneg (b 17)]) (sq_nonneg _))
  · show b 15 = 0
    exact pow_eq_zero_iff two_ne_zero |>.1 (le_antisymm (by linarith [sq_nonneg (b 12), sq_nonneg (b 13), sq_nonneg (b 14), sq_nonneg (b 15), sq_nonneg (b 16), sq_nonneg (b 17)]) (sq_nonneg _))
  · show b 16 = 0
    exact pow_eq_zero_iff two_ne_zero |>.1 (le_antisymm (by linarith [sq_nonneg (b 12), sq_nonneg (b 13), sq_nonneg (b 14), sq_nonneg (b 15), sq_nonneg (b 16), sq_nonneg (b 17)]) (sq_nonneg _))
  · show b 17 = 0
    exact pow_eq_zero_iff two_ne_zero |>.1 (le_antisymm (by linarith [sq_nonneg (b 12), sq_nonneg (b 13), sq_nonneg (b 14), sq_nonneg (b 15), sq_nonneg (b 16), sq_nonneg (b 17)]) (sq_nonneg _))
  · show b 18 = 0
    exact pow_eq_zero_iff two_ne_zero |>.1 (le_antisymm (by linarith [sq_nonneg (b 18), sq_nonneg (b 19), sq_nonneg (b 20), sq_nonneg (b 21), sq_nonneg (b 22), sq_nonneg (b 23)]) (sq_nonneg _))
  · show b 19 = 0
    exact pow_eq_zero_iff two_ne_zero |>.1 (le_antisymm (by linarith [sq_nonneg (b 18), sq_nonneg (b 19), sq_nonneg (b 20), sq_nonneg (b 21), sq_nonneg (b 22), sq_nonneg (b 23)]) (sq_nonneg _))
  · show b 20 = 0
    exact pow_eq_zero_iff two_ne_zero |>.1 (le_antisymm (by linarith [sq_nonneg (b 18), sq_nonneg (b 19), sq_nonneg (b 20), sq_nonneg (b 21), sq_nonneg (b 22), sq_nonneg (b 23)]) (sq_nonneg _))
  · show b 21 = 0
    exact pow_eq_zero_iff two_ne_zero |>.1 (le_antisymm (by linarith [sq_nonneg (b 18), sq_nonneg (b 19), sq_nonneg (b 20), sq_nonneg (b 21), sq_nonneg (b 22), sq_nonneg (b 23)]) (sq_nonneg _))
  · show b 22 = 0
    exact pow_eq_zero_iff two_ne_zero |>.1 (le_antisymm (by linarith [sq_nonneg (b 18), sq_nonneg (b 19), sq_nonneg (b 20), sq_nonneg (b 21), sq_nonneg (b 22), sq_nonneg (b 23)]) (sq_nonneg _))
  · show b 23 = 0
    exact pow_eq_zero_iff two_ne_zero |>.1 (le_antisymm (by linarith [sq_nonneg (b 18), sq_nonneg (b 19), sq_nonneg (b 20), sq_nonneg (b 21), sq_nonneg (b 22), sq_nonneg (b 23)]) (sq_nonneg _))
  · show b 24 = 0
    exact pow_eq_zero_iff two_ne_zero |>.1 (le_antisymm (by linarith [sq_nonneg (b 24), sq_nonneg (b 25), sq_nonneg (b 26), sq_nonneg (b 27), sq_nonneg (b 28), sq_nonneg (b 29)]) (sq_nonneg _))
  · show b 25 = 0
    exact pow_eq_zero_iff two_ne_zero |>.1 (le_antisymm (by linarith [sq_nonneg (b 24), sq_nonneg (b 25), sq_nonneg (b 26), sq_nonneg (b 27), sq_nonneg (b 28), sq_nonneg (b 29)]) (sq_nonneg _))
  · show b 26 = 0
    exact pow_eq_zero_iff two_ne_zero |>.1 (le_antisymm (by linarith [sq_nonneg (b 24), sq_nonneg (b 25), sq_nonneg (b 26), sq_nonneg (b 27), sq_nonneg (b 28), sq_nonneg (b 29)]) (sq_nonneg _))
  · show b 27 = 0
    exact pow_eq_zero_iff two_ne_zero |>.1 (le_antisymm (by linarith [sq_nonneg (b 24), sq_nonneg (b 25), sq_nonneg (b 26), sq_nonneg (b 27), sq_nonneg (b 28), sq_nonneg (b 29)]) (sq_nonneg _))
  · show b 28 = 0
    exact pow_eq_zero_iff two_ne_zero |>.1 (le_antisymm (by linarith [sq_nonneg (b 24), sq_nonneg (b 25), sq_nonneg (b 26), sq_nonneg (b 27), sq_nonneg (b 28), sq_nonneg (b 29)]) (sq_nonneg _))
  · show b 29 = 0
    exact pow_eq_zero_iff two_ne_zero |>.1 (le_antisymm (by linarith [sq_nonneg (b 24), sq_nonneg (b 25), sq_nonneg (b 26), sq_nonneg (b 27), sq_nonneg (b 28), sq_nonneg (b 29)]) (sq_nonneg _))

end Ikarus.Element.AssumedStress
