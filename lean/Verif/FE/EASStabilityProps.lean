import Verif.FE.EASModesProps
import Mathlib.Data.Nat.Init
import Mathlib.Tactic.FinCases

/-!
The modes of the enhanced assumed strains are linearly independent on the points of a sufficient quadrature rule, so that the
matrix `D` is positive definite and the condensation is defined.
-/

namespace Ikarus.Element.EAS

open Matrix Ikarus.Element.Spec

variable {d q m : Nat}

/-! ### Linear independence -/

/-- The entries of a matrix assigned from a list without repeated positions. -/
theorem assign_apply {r c : Nat} (entries : List (Fin r × Fin c × ((Fin d → ℝ) → ℝ)))
    (hn : (entries.map fun e => (e.1, e.2.1)).Nodup) (p : Fin d → ℝ) (i : Fin r) (j : Fin c) :
    assign entries p i j = (entries.map fun e => if i = e.1 ∧ j = e.2.1 then e.2.2 p else 0).sum := by
  have : ∀ (l : List (Fin r × Fin c × ((Fin d → ℝ) → ℝ))) (M : Matrix (Fin r) (Fin c) ℝ),
      (l.map fun e => (e.1, e.2.1)).Nodup → (∀ e ∈ l, M e.1 e.2.1 = 0) →
      (l.foldl (fun M e => Matrix.of fun i j => if i = e.1 ∧ j = e.2.1 then e.2.2 p else M i j) M) i j =
        M i j + (l.map fun e => if i = e.1 ∧ j = e.2.1 then e.2.2 p else 0).sum := by
    intro l
    induction l with
    | nil => intro M _ _; simp
    | cons e l ih =>
      intro M hl hM
      rw [List.map_cons, List.nodup_cons] at hl
      rw [List.foldl_cons, ih _ hl.2, List.map_cons, List.sum_cons, Matrix.of_apply, ← add_assoc]
      · congr 1
        by_cases hc : i = e.1 ∧ j = e.2.1
        · have := hM e (by simp)
          rw [if_pos hc, if_pos hc, hc.1, hc.2, this, zero_add]
        · rw [if_neg hc, if_neg hc, add_zero]
      · intro x hx
        rw [Matrix.of_apply, if_neg, hM x (List.mem_cons_of_mem _ hx)]
        rintro ⟨h1, h2⟩
        exact hl.1 (List.mem_map.2 ⟨x, hx, by rw [h1, h2]⟩)
  rw [assign, this entries 0 hn (fun _ _ => rfl), Matrix.zero_apply, zero_add]

theorem assign_mulVec {r c : Nat} (entries : List (Fin r × Fin c × ((Fin d → ℝ) → ℝ)))
    (hn : (entries.map fun e => (e.1, e.2.1)).Nodup) (p : Fin d → ℝ) (b : Fin c → ℝ) (i : Fin r) :
    (assign entries p *ᵥ b) i = (entries.map fun e => if i = e.1 then e.2.2 p * b e.2.1 else 0).sum := by
  simp only [Matrix.mulVec, dotProduct, assign_apply entries hn, ← List.sum_map_mul_right]
  rw [list_sum_finset]
  congr 1
  refine List.map_congr_left fun e _ => ?_
  by_cases h : i = e.1
  · simp [h]
  · simp [h]

theorem sum_flatMap {α β : Type*} (l : List α) (f : α → List β) (g : β → ℝ) :
    ((l.flatMap f).map g).sum = (l.map fun x => ((f x).map g).sum).sum := by
  induction l with
  | nil => simp
  | cons a l ih => rw [List.flatMap_cons, List.map_append, List.sum_append, ih, List.map_cons, List.sum_cons]

/-- A polynomial that vanishes on the support of an exact mean value: its Gram form is zero. -/
theorem vanish {k k' : Nat} (hk : 2 * k' ≤ k) (L : Spec.Mean d k) (c : List (ℝ × (Fin d → ℕ))) (h : ∀ x ∈ c, ∀ i, x.2 i ≤ k')
    (f : (Fin d → ℝ) → ℝ) (hf : ∀ p, f p = poly c p) (h0 : ∀ p ∈ L.support, f p = 0) :
    (c.map fun x => (c.map fun y => x.1 * y.1 * ∏ i, Spec.mu (x.2 i + y.2 i)).sum).sum = 0 := by
  have hp : ∀ p, f p * f p = poly (c.flatMap fun x => c.map fun y => (x.1 * y.1, fun i => x.2 i + y.2 i)) p := by
    intro p
    simp only [hf, poly, sum_flatMap, List.map_map]
    rw [← List.sum_map_mul_right]
    congr 1
    refine List.map_congr_left fun x _ => ?_
    rw [← List.sum_map_mul_left]
    congr 1
    refine List.map_congr_left fun y _ => ?_
    simp only [Function.comp_apply, pow_add, Finset.prod_mul_distrib]
    ring
  have h1 := L.eval (fun p => f p * f p) _ hp ?_
  · rw [L.congr _ (fun _ => 0) (fun p hp => by rw [h0 p hp, zero_mul]), L.zero] at h1
    rw [h1]
    simp only [sum_flatMap, List.map_map]
    rfl
  · intro x hx i
    obtain ⟨a, ha, hx⟩ := List.mem_flatMap.1 hx
    obtain ⟨b, hb, rfl⟩ := List.mem_map.1 hx
    have := h a ha i
    have := h b hb i
    show a.2 i + b.2 i ≤ k
    omega

/-- The modes of a variant are linearly independent on the points of a quadrature rule. -/
def Spec.Independent {r c : Nat} (entries : List (Fin r × Fin c × ((Fin d → ℝ) → ℝ))) (k : Nat) : Prop :=
  ∀ (L : Spec.Mean d k) (b : Fin c → ℝ), (∀ p ∈ L.support, assign entries p *ᵥ b = 0) → b = 0

theorem independent_e4 : Spec.Independent e4 2 := by
  intro L b h
  have hrow : ∀ i, ∀ p ∈ L.support, (e4.map fun e => if i = e.1 then e.2.2 p * b e.2.1 else 0).sum = 0 :=
    fun i p hp => by rw [← assign_mulVec e4 (by decide), h p hp]; rfl
  have h0 : 1 / 3 * b 0 ^ 2 = 0 := by
    have hv := vanish (k' := 1) (by norm_num) L [(b 0, ![1, 0])] (by simp [Fin.forall_fin_succ]) _ (fun p => by
      simp [e4, poly, Fin.prod_univ_two, one_dot]; ring) (hrow 0)
    simp [Spec.mu, Fin.prod_univ_two, Nat.even_iff] at hv
    norm_num at hv
    first | linarith | simp [hv]
  have h1 : 1 / 3 * b 1 ^ 2 = 0 := by
    have hv := vanish (k' := 1) (by norm_num) L [(b 1, ![0, 1])] (by simp [Fin.forall_fin_succ]) _ (fun p => by
      simp [e4, poly, Fin.prod_univ_two, one_dot]; ring) (hrow 1)
    simp [Spec.mu, Fin.prod_univ_two, Nat.even_iff] at hv
    norm_num at hv
    first | linarith | simp [hv]
  have h2 : 1 / 3 * b 2 ^ 2 + 1 / 3 * b 3 ^ 2 = 0 := by
    have hv := vanish (k' := 1) (by norm_num) L [(b 2, ![1, 0]), (b 3, ![0, 1])] (by simp [Fin.forall_fin_succ]) _ (fun p => by
      simp [e4, poly, Fin.prod_univ_two, one_dot]; ring) (hrow 2)
    simp [Spec.mu, Fin.prod_univ_two, Nat.even_iff] at hv
    norm_num at hv
    first | linarith | simp [hv]
  funext j
  fin_cases j
  · show b 0 = 0
    exact pow_eq_zero_iff two_ne_zero |>.1 (le_antisymm (by linarith [sq_nonneg (b 0)]) (sq_nonneg _))
  · show b 1 = 0
    exact pow_eq_zero_iff two_ne_zero |>.1 (le_antisymm (by linarith [sq_nonneg (b 1)]) (sq_nonneg _))
  · show b 2 = 0
    exact pow_eq_zero_iff two_ne_zero |>.1 (le_antisymm (by linarith [sq_nonneg (b 2), sq_nonneg (b 3)]) (sq_nonneg _))
  · show b 3 = 0
    exact pow_eq_zero_iff two_ne_zero |>.1 (le_antisymm (by linarith [sq_nonneg (b 2), sq_nonneg (b 3)]) (sq_nonneg _))

theorem independent_e5 : Spec.Independent e5 2 := by
  intro L b h
  have hrow : ∀ i, ∀ p ∈ L.support, (e5.map fun e => if i = e.1 then e.2.2 p * b e.2.1 else 0).sum = 0 :=
    fun i p hp => by rw [← assign_mulVec e5 (by decide), h p hp]; rfl
  have h0 : 1 / 3 * b 0 ^ 2 = 0 := by
    have hv := vanish (k' := 1) (by norm_num) L [(b 0, ![1, 0])] (by simp [Fin.forall_fin_succ]) _ (fun p => by
      simp [e5, poly, Fin.prod_univ_two, one_dot]; ring) (hrow 0)
    simp [Spec.mu, Fin.prod_univ_two, Nat.even_iff] at hv
    norm_num at hv
    first | linarith | simp [hv]
  have h1 : 1 / 3 * b 1 ^ 2 = 0 := by
    have hv := vanish (k' := 1) (by norm_num) L [(b 1, ![0, 1])] (by simp [Fin.forall_fin_succ]) _ (fun p => by
      simp [e5, poly, Fin.prod_univ_two, one_dot]; ring) (hrow 1)
    simp [Spec.mu, Fin.prod_univ_two, Nat.even_iff] at hv
    norm_num at hv
    first | linarith | simp [hv]
  have h2 : 1 / 3 * b 2 ^ 2 + 1 / 3 * b 3 ^ 2 + 1 / 9 * b 4 ^ 2 = 0 := by
    have hv := vanish (k' := 1) (by norm_num) L [(b 2, ![1, 0]), (b 3, ![0, 1]), (b 4, ![1, 1])] (by simp [Fin.forall_fin_succ]) _ (fun p => by
      simp [e5, poly, Fin.prod_univ_two, one_dot]; ring) (hrow 2)
    simp [Spec.mu, Fin.prod_univ_two, Nat.even_iff] at hv
    norm_num at hv
    first | linarith | simp [hv]
  funext j
  fin_cases j
  · show b 0 = 0
    exact pow_eq_zero_iff two_ne_zero |>.1 (le_antisymm (by linarith [sq_nonneg (b 0)]) (sq_nonneg _))
  · show b 1 = 0
    exact pow_eq_zero_iff two_ne_zero |>.1 (le_antisymm (by linarith [sq_nonneg (b 1)]) (sq_nonneg _))
  · show b 2 = 0
    exact pow_eq_zero_iff two_ne_zero |>.1 (le_antisymm (by linarith [sq_nonneg (b 2), sq_nonneg (b 3), sq_nonneg (b 4)]) (sq_nonneg _))
  · show b 3 = 0
    exact pow_eq_zero_iff two_ne_zero |>.1 (le_antisymm (by linarith [sq_nonneg (b 2), sq_nonneg (b 3), sq_nonneg (b 4)]) (sq_nonneg _))
  · show b 4 = 0
    exact pow_eq_zero_iff two_ne_zero |>.1 (le_antisymm (by linarith [sq_nonneg (b 2), sq_nonneg (b 3), sq_nonneg (b 4)]) (sq_nonneg _))

theorem independent_e7 : Spec.Independent e7 2 := by
  intro L b h
  have hrow : ∀ i, ∀ p ∈ L.support, (e7.map fun e => if i = e.1 then e.2.2 p * b e.2.1 else 0).sum = 0 :=
    fun i p hp => by rw [← assign_mulVec e7 (by decide), h p hp]; rfl
  have h0 : 1 / 3 * b 0 ^ 2 + 1 / 9 * b 4 ^ 2 = 0 := by
    have hv := vanish (k' := 1) (by norm_num) L [(b 0, ![1, 0]), (b 4, ![1, 1])] (by simp [Fin.forall_fin_succ]) _ (fun p => by
      simp [e7, poly, Fin.prod_univ_two, one_dot]; ring) (hrow 0)
    simp [Spec.mu, Fin.prod_univ_two, Nat.even_iff] at hv
    norm_num at hv
    first | linarith | simp [hv]
  have h1 : 1 / 3 * b 1 ^ 2 + 1 / 9 * b 5 ^ 2 = 0 := by
    have hv := vanish (k' := 1) (by norm_num) L [(b 1, ![0, 1]), (b 5, ![1, 1])] (by simp [Fin.forall_fin_succ]) _ (fun p => by
      simp [e7, poly, Fin.prod_univ_two, one_dot]; ring) (hrow 1)
    simp [Spec.mu, Fin.prod_univ_two, Nat.even_iff] at hv
    norm_num at hv
    first | linarith | simp [hv]
  have h2 : 1 / 3 * b 2 ^ 2 + 1 / 3 * b 3 ^ 2 + 1 / 9 * b 6 ^ 2 = 0 := by
    have hv := vanish (k' := 1) (by norm_num) L [(b 2, ![1, 0]), (b 3, ![0, 1]), (b 6, ![1, 1])] (by simp [Fin.forall_fin_succ]) _ (fun p => by
      simp [e7, poly, Fin.prod_univ_two, one_dot]; ring) (hrow 2)
    simp [Spec.mu, Fin.prod_univ_two, Nat.even_iff] at hv
    norm_num at hv
    first | linarith | simp [hv]
  funext j
  fin_cases j
  · show b 0 = 0
    exact pow_eq_zero_iff two_ne_zero |>.1 (le_antisymm (by linarith [sq_nonneg (b 0), sq_nonneg (b 4)]) (sq_nonneg _))
  · show b 1 = 0
    exact pow_eq_zero_iff two_ne_zero |>.1 (le_antisymm (by linarith [sq_nonneg (b 1), sq_nonneg (b 5)]) (sq_nonneg _))
  · show b 2 = 0
    exact pow_eq_zero_iff two_ne_zero |>.1 (le_antisymm (by linarith [sq_nonneg (b 2), sq_nonneg (b 3), sq_nonneg (b 6)]) (sq_nonneg _))
  · show b 3 = 0
    exact pow_eq_zero_iff two_ne_zero |>.1 (le_antisymm (by linarith [sq_nonneg (b 2), sq_nonneg (b 3), sq_nonneg (b 6)]) (sq_nonneg _))
  · show b 4 = 0
    exact pow_eq_zero_iff two_ne_zero |>.1 (le_antisymm (by linarith [sq_nonneg (b 0), sq_nonneg (b 4)]) (sq_nonneg _))
  · show b 5 = 0
    exact pow_eq_zero_iff two_ne_zero |>.1 (le_antisymm (by linarith [sq_nonneg (b 1), sq_nonneg (b 5)]) (sq_nonneg _))
  · show b 6 = 0
    exact pow_eq_zero_iff two_ne_zero |>.1 (le_antisymm (by linarith [sq_nonneg (b 2), sq_nonneg (b 3), sq_nonneg (b 6)]) (sq_nonneg _))

theorem independent_e9 : Spec.Independent e9 2 := by
  intro L b h
  have hrow : ∀ i, ∀ p ∈ L.support, (e9.map fun e => if i = e.1 then e.2.2 p * b e.2.1 else 0).sum = 0 :=
    fun i p hp => by rw [← assign_mulVec e9 (by decide), h p hp]; rfl
  have h0 : 1 / 3 * b 0 ^ 2 = 0 := by
    have hv := vanish (k' := 1) (by norm_num) L [(b 0, ![1, 0, 0])] (by simp [Fin.forall_fin_succ]) _ (fun p => by
      simp [e9, poly, Fin.prod_univ_three, one_dot]; ring) (hrow 0)
    simp [Spec.mu, Fin.prod_univ_three, Nat.even_iff] at hv
    norm_num at hv
    first | linarith | simp [hv]
  have h1 : 1 / 3 * b 1 ^ 2 = 0 := by
    have hv := vanish (k' := 1) (by norm_num) L [(b 1, ![0, 1, 0])] (by simp [Fin.forall_fin_succ]) _ (fun p => by
      simp [e9, poly, Fin.prod_univ_three, one_dot]; ring) (hrow 1)
    simp [Spec.mu, Fin.prod_univ_three, Nat.even_iff] at hv
    norm_num at hv
    first | linarith | simp [hv]
  have h2 : 1 / 3 * b 2 ^ 2 = 0 := by
    have hv := vanish (k' := 1) (by norm_num) L [(b 2, ![0, 0, 1])] (by simp [Fin.forall_fin_succ]) _ (fun p => by
      simp [e9, poly, Fin.prod_univ_three, one_dot]; ring) (hrow 2)
    simp [Spec.mu, Fin.prod_univ_three, Nat.even_iff] at hv
    norm_num at hv
    first | linarith | simp [hv]
  have h3 : 1 / 3 * b 3 ^ 2 + 1 / 3 * b 4 ^ 2 = 0 := by
    have hv := vanish (k' := 1) (by norm_num) L [(b 3, ![0, 1, 0]), (b 4, ![0, 0, 1])] (by simp [Fin.forall_fin_succ]) _ (fun p => by
      simp [e9, poly, Fin.prod_univ_three, one_dot]; ring) (hrow 3)
    simp [Spec.mu, Fin.prod_univ_three, Nat.even_iff] at hv
    norm_num at hv
    first | linarith | simp [hv]
  have h4 : 1 / 3 * b 5 ^ 2 + 1 / 3 * b 6 ^ 2 = 0 := by
    have hv := vanish (k' := 1) (by norm_num) L [(b 5, ![1, 0, 0]), (b 6, ![0, 0, 1])] (by simp [Fin.forall_fin_succ]) _ (fun p => by
      simp [e9, poly, Fin.prod_univ_three, one_dot]; ring) (hrow 4)
    simp [Spec.mu, Fin.prod_univ_three, Nat.even_iff] at hv
    norm_num at hv
    first | linarith | simp [hv]
  have h5 : 1 / 3 * b 7 ^ 2 + 1 / 3 * b 8 ^ 2 = 0 := by
    have hv := vanish (k' := 1) (by norm_num) L [(b 7, ![1, 0, 0]), (b 8, ![0, 1, 0])] (by simp [Fin.forall_fin_succ]) _ (fun p => by
      simp [e9, poly, Fin.prod_univ_three, one_dot]; ring) (hrow 5)
    simp [Spec.mu, Fin.prod_univ_three, Nat.even_iff] at hv
    norm_num at hv
    first | linarith | simp [hv]
  funext j
  fin_cases j
  · show b 0 = 0
    exact pow_eq_zero_iff two_ne_zero |>.1 (le_antisymm (by linarith [sq_nonneg (b 0)]) (sq_nonneg _))
  · show b 1 = 0
    exact pow_eq_zero_iff two_ne_zero |>.1 (le_antisymm (by linarith [sq_nonneg (b 1)]) (sq_nonneg _))
  · show b 2 = 0
    exact pow_eq_zero_iff two_ne_zero |>.1 (le_antisymm (by linarith [sq_nonneg (b 2)]) (sq_nonneg _))
  · show b 3 = 0
    exact pow_eq_zero_iff two_ne_zero |>.1 (le_antisymm (by linarith [sq_nonneg (b 3), sq_nonneg (b 4)]) (sq_nonneg _))
  · show b 4 = 0
    exact pow_eq_zero_iff two_ne_zero |>.1 (le_antisymm (by linarith [sq_nonneg (b 3), sq_nonneg (b 4)]) (sq_nonneg _))
  · show b 5 = 0
    exact pow_eq_zero_iff two_ne_zero |>.1 (le_antisymm (by linarith [sq_nonneg (b 5), sq_nonneg (b 6)]) (sq_nonneg _))
  · show b 6 = 0
    exact pow_eq_zero_iff two_ne_zero |>.1 (le_antisymm (by linarith [sq_nonneg (b 5), sq_nonneg (b 6)]) (sq_nonneg _))
  · show b 7 = 0
    exact pow_eq_zero_iff two_ne_zero |>.1 (le_antisymm (by linarith [sq_nonneg (b 7), sq_nonneg (b 8)]) (sq_nonneg _))
  · show b 8 = 0
    exact pow_eq_zero_iff two_ne_zero |>.1 (le_antisymm (by linarith [sq_nonneg (b 7), sq_nonneg (b 8)]) (sq_nonneg _))

theorem independent_e21 : Spec.Independent e21 2 := by
  intro L b h
  have hrow : ∀ i, ∀ p ∈ L.support, (e21.map fun e => if i = e.1 then e.2.2 p * b e.2.1 else 0).sum = 0 :=
    fun i p hp => by rw [← assign_mulVec e21 (by decide), h p hp]; rfl
  have h0 : 1 / 3 * b 0 ^ 2 + 1 / 9 * b 15 ^ 2 + 1 / 9 * b 16 ^ 2 = 0 := by
    have hv := vanish (k' := 1) (by norm_num) L [(b 0, ![1, 0, 0]), (b 15, ![1, 1, 0]), (b 16, ![1, 0, 1])] (by simp [Fin.forall_fin_succ]) _ (fun p => by
      simp [e21, poly, Fin.prod_univ_three, one_dot]; ring) (hrow 0)
    simp [Spec.mu, Fin.prod_univ_three, Nat.even_iff] at hv
    norm_num at hv
    first | linarith | simp [hv]
  have h1 : 1 / 3 * b 1 ^ 2 + 1 / 9 * b 17 ^ 2 + 1 / 9 * b 18 ^ 2 = 0 := by
    have hv := vanish (k' := 1) (by norm_num) L [(b 1, ![0, 1, 0]), (b 17, ![1, 1, 0]), (b 18, ![0, 1, 1])] (by simp [Fin.forall_fin_succ]) _ (fun p => by
      simp [e21, poly, Fin.prod_univ_three, one_dot]; ring) (hrow 1)
    simp [Spec.mu, Fin.prod_univ_three, Nat.even_iff] at hv
    norm_num at hv
    first | linarith | simp [hv]
  have h2 : 1 / 3 * b 2 ^ 2 + 1 / 9 * b 19 ^ 2 + 1 / 9 * b 20 ^ 2 = 0 := by
    have hv := vanish (k' := 1) (by norm_num) L [(b 2, ![0, 0, 1]), (b 19, ![1, 0, 1]), (b 20, ![0, 1, 1])] (by simp [Fin.forall_fin_succ]) _ (fun p => by
      simp [e21, poly, Fin.prod_univ_three, one_dot]; ring) (hrow 2)
    simp [Spec.mu, Fin.prod_univ_three, Nat.even_iff] at hv
    norm_num at hv
    first | linarith | simp [hv]
  have h3 : 1 / 3 * b 3 ^ 2 + 1 / 3 * b 4 ^ 2 + 1 / 9 * b 9 ^ 2 + 1 / 9 * b 10 ^ 2 = 0 := by
    have hv := vanish (k' := 1) (by norm_num) L [(b 3, ![0, 1, 0]), (b 4, ![0, 0, 1]), (b 9, ![1, 1, 0]), (b 10, ![1, 0, 1])] (by simp [Fin.forall_fin_succ]) _ (fun p => by
      simp [e21, poly, Fin.prod_univ_three, one_dot]; ring) (hrow 3)
    simp [Spec.mu, Fin.prod_univ_three, Nat.even_iff] at hv
    norm_num at hv
    first | linarith | simp [hv]
  have h4 : 1 / 3 * b 5 ^ 2 + 1 / 3 * b 6 ^ 2 + 1 / 9 * b 11 ^ 2 + 1 / 9 * b 12 ^ 2 = 0 := by
    have hv := vanish (k' := 1) (by norm_num) L [(b 5, ![1, 0, 0]), (b 6, ![0, 0, 1]), (b 11, ![1, 1, 0]), (b 12, ![0, 1, 1])] (by simp [Fin.forall_fin_succ]) _ (fun p => by
      simp [e21, poly, Fin.prod_univ_three, one_dot]; ring) (hrow 4)
    simp [Spec.mu, Fin.prod_univ_three, Nat.even_iff] at hv
    norm_num at hv
    first | linarith | simp [hv]
  have h5 : 1 / 3 * b 7 ^ 2 + 1 / 3 * b 8 ^ 2 + 1 / 9 * b 13 ^ 2 + 1 / 9 * b 14 ^ 2 = 0 := by
    have hv := vanish (k' := 1) (by norm_num) L [(b 7, ![1, 0, 0]), (b 8, ![0, 1, 0]), (b 13, ![1, 0, 1]), (b 14, ![0, 1, 1])] (by simp [Fin.forall_fin_succ]) _ (fun p => by
      simp [e21, poly, Fin.prod_univ_three, one_dot]; ring) (hrow 5)
    simp [Spec.mu, Fin.prod_univ_three, Nat.even_iff] at hv
    norm_num at hv
    first | linarith | simp [hv]
  funext j
  fin_cases j
  · show b 0 = 0
    exact pow_eq_zero_iff two_ne_zero |>.1 (le_antisymm (by linarith [sq_nonneg (b 0), sq_nonneg (b 15), sq_nonneg (b 16)]) (sq_nonneg _))
  · show b 1 = 0
    exact pow_eq_zero_iff two_ne_zero |>.1 (le_antisymm (by linarith [sq_nonneg (b 1), sq_nonneg (b 17), sq_nonneg (b 18)]) (sq_nonneg _))
  · show b 2 = 0
    exact pow_eq_zero_iff two_ne_zero |>.1 (le_antisymm (by linarith [sq_nonneg (b 2), sq_nonneg (b 19), sq_nonneg (b 20)]) (sq_nonneg _))
  · show b 3 = 0
    exact pow_eq_zero_iff two_ne_zero |>.1 (le_antisymm (by linarith [sq_nonneg (b 3), sq_nonneg (b 4), sq_nonneg (b 9), sq_nonneg (b 10)]) (sq_nonneg _))
  · show b 4 = 0
    exact pow_eq_zero_iff two_ne_zero |>.1 (le_antisymm (by linarith [sq_nonneg (b 3), sq_nonneg (b 4), sq_nonneg (b 9), sq_nonneg (b 10)]) (sq_nonneg _))
  · show b 5 = 0
    exact pow_eq_zero_iff two_ne_zero |>.1 (le_antisymm (by linarith [sq_nonneg (b 5), sq_nonneg (b 6), sq_nonneg (b 11), sq_nonneg (b 12)]) (sq_nonneg _))
  · show b 6 = 0
    exact pow_eq_zero_iff two_ne_zero |>.1 (le_antisymm (by linarith [sq_nonneg (b 5), sq_nonneg (b 6), sq_nonneg (b 11), sq_nonneg (b 12)]) (sq_nonneg _))
  · show b 7 = 0
    exact pow_eq_zero_iff two_ne_zero |>.1 (le_antisymm (by linarith [sq_nonneg (b 7), sq_nonneg (b 8), sq_nonneg (b 13), sq_nonneg (b 14)]) (sq_nonneg _))
  · show b 8 = 0
    exact pow_eq_zero_iff two_ne_zero |>.1 (le_antisymm (by linarith [sq_nonneg (b 7), sq_nonneg (b 8), sq_nonneg (b 13), sq_nonneg (b 14)]) (sq_nonneg _))
  · show b 9 = 0
    exact pow_eq_zero_iff two_ne_zero |>.1 (le_antisymm (by linarith [sq_nonneg (b 3), sq_nonneg (b 4), sq_nonneg (b 9), sq_nonneg (b 10)]) (sq_nonneg _))
  · show b 10 = 0
    exact pow_eq_zero_iff two_ne_zero |>.1 (le_antisymm (by linarith [sq_nonneg (b 3), sq_nonneg (b 4), sq_nonneg (b 9), sq_nonneg (b 10)]) (sq_nonneg _))
  · show b 11 = 0
    exact pow_eq_zero_iff two_ne_zero |>.1 (le_antisymm (by linarith [sq_nonneg (b 5), sq_nonneg (b 6), sq_nonneg (b 11), sq_nonneg (b 12)]) (sq_nonneg _))
  · show b 12 = 0
    exact pow_eq_zero_iff two_ne_zero |>.1 (le_antisymm (by linarith [sq_nonneg (b 5), sq_nonneg (b 6), sq_nonneg (b 11), sq_nonneg (b 12)]) (sq_nonneg _))
  · show b 13 = 0
    exact pow_eq_zero_iff two_ne_zero |>.1 (le_antisymm (by linarith [sq_nonneg (b 7), sq_nonneg (b 8), sq_nonneg (b 13), sq_nonneg (b 14)]) (sq_nonneg _))
  · show b 14 = 0
    exact pow_eq_zero_iff two_ne_zero |>.1 (le_antisymm (by linarith [sq_nonneg (b 7), sq_nonneg (b 8), sq_nonneg (b 13), sq_nonneg (b 14)]) (sq_nonneg _))
  · show b 15 = 0
    exact pow_eq_zero_iff two_ne_zero |>.1 (le_antisymm (by linarith [sq_nonneg (b 0), sq_nonneg (b 15), sq_nonneg (b 16)]) (sq_nonneg _))
  · show b 16 = 0
    exact pow_eq_zero_iff two_ne_zero |>.1 (le_antisymm (by linarith [sq_nonneg (b 0), sq_nonneg (b 15), sq_nonneg (b 16)]) (sq_nonneg _))
  · show b 17 = 0
    exact pow_eq_zero_iff two_ne_zero |>.1 (le_antisymm (by linarith [sq_nonneg (b 1), sq_nonneg (b 17), sq_nonneg (b 18)]) (sq_nonneg _))
  · show b 18 = 0
    exact pow_eq_zero_iff two_ne_zero |>.1 (le_antisymm (by linarith [sq_nonneg (b 1), sq_nonneg (b 17), sq_nonneg (b 18)]) (sq_nonneg _))
  · show b 19 = 0
    exact pow_eq_zero_iff two_ne_zero |>.1 (le_antisymm (by linarith [sq_nonneg (b 2), sq_nonneg (b 19), sq_nonneg (b 20)]) (sq_nonneg _))
  · show b 20 = 0
    exact pow_eq_zero_iff two_ne_zero |>.1 (le_antisymm (by linarith [sq_nonneg (b 2), sq_nonneg (b 19), sq_nonneg (b 20)]) (sq_nonneg _))

theorem independent_e11 : Spec.Independent e11 4 := by
  intro L b h
  have hrow : ∀ i, ∀ p ∈ L.support, (e11.map fun e => if i = e.1 then e.2.2 p * b e.2.1 else 0).sum = 0 :=
    fun i p hp => by rw [← assign_mulVec e11 (by decide), h p hp]; rfl
  have h0 : 4 / 5 * b 0 ^ 2 + 8 / 15 * (b 0 * b 2) + 4 / 15 * b 1 ^ 2 + 4 / 25 * b 2 ^ 2 = 0 := by
    have hv := vanish (k' := 2) (by norm_num) L [(b 0, ![0, 0]), ((-3) * b 0, ![2, 0]), (b 1, ![0, 1]), ((-3) * b 1, ![2, 1]), (b 2, ![0, 2]), ((-3) * b 2, ![2, 2])] (by simp [Fin.forall_fin_succ]) _ (fun p => by
      simp [e11, poly, Fin.prod_univ_two, t]; ring) (hrow 0)
    simp [Spec.mu, Fin.prod_univ_two, Nat.even_iff] at hv
    norm_num at hv
    first | linarith | simp [hv]
  have h1 : 4 / 5 * b 3 ^ 2 + 8 / 15 * (b 3 * b 5) + 4 / 15 * b 4 ^ 2 + 4 / 25 * b 5 ^ 2 = 0 := by
    have hv := vanish (k' := 2) (by norm_num) L [(b 3, ![0, 0]), ((-3) * b 3, ![0, 2]), (b 4, ![1, 0]), ((-3) * b 4, ![1, 2]), (b 5, ![2, 0]), ((-3) * b 5, ![2, 2])] (by simp [Fin.forall_fin_succ]) _ (fun p => by
      simp [e11, poly, Fin.prod_univ_two, t]; ring) (hrow 1)
    simp [Spec.mu, Fin.prod_univ_two, Nat.even_iff] at hv
    norm_num at hv
    first | linarith | simp [hv]
  have h2 : 4 / 5 * b 6 ^ 2 + 4 / 5 * b 7 ^ 2 + 4 / 15 * b 8 ^ 2 + 4 / 15 * b 9 ^ 2 + 16 / 25 * b 10 ^ 2 = 0 := by
    have hv := vanish (k' := 2) (by norm_num) L [(b 6 + b 7 + b 10, ![0, 0]), ((-3) * b 6 + (-3) * b 10, ![2, 0]), ((-3) * b 7 + (-3) * b 10, ![0, 2]), (b 8, ![0, 1]), ((-3) * b 8, ![2, 1]), (b 9, ![1, 0]), ((-3) * b 9, ![1, 2]), ((9) * b 10, ![2, 2])] (by simp [Fin.forall_fin_succ]) _ (fun p => by
      simp [e11, poly, Fin.prod_univ_two, t]; ring) (hrow 2)
    simp [Spec.mu, Fin.prod_univ_two, Nat.even_iff] at hv
    norm_num at hv
    first | linarith | simp [hv]
  funext j
  fin_cases j
  · show b 0 = 0
    exact pow_eq_zero_iff two_ne_zero |>.1 (le_antisymm (by nlinarith [sq_nonneg (b 0), sq_nonneg (b 1), sq_nonneg (b 2), sq_nonneg (b 0 + b 2 / 3), sq_nonneg (b 2 + 5 / 3 * b 0)]) (sq_nonneg _))
  · show b 1 = 0
    exact pow_eq_zero_iff two_ne_zero |>.1 (le_antisymm (by nlinarith [sq_nonneg (b 0), sq_nonneg (b 1), sq_nonneg (b 2), sq_nonneg (b 0 + b 2 / 3), sq_nonneg (b 2 + 5 / 3 * b 0)]) (sq_nonneg _))
  · show b 2 = 0
    exact pow_eq_zero_iff two_ne_zero |>.1 (le_antisymm (by nlinarith [sq_nonneg (b 0), sq_nonneg (b 1), sq_nonneg (b 2), sq_nonneg (b 0 + b 2 / 3), sq_nonneg (b 2 + 5 / 3 * b 0)]) (sq_nonneg _))
  · show b 3 = 0
    exact pow_eq_zero_iff two_ne_zero |>.1 (le_antisymm (by nlinarith [sq_nonneg (b 3), sq_nonneg (b 4), sq_nonneg (b 5), sq_nonneg (b 3 + b 5 / 3), sq_nonneg (b 5 + 5 / 3 * b 3)]) (sq_nonneg _))
  · show b 4 = 0
    exact pow_eq_zero_iff two_ne_zero |>.1 (le_antisymm (by nlinarith [sq_nonneg (b 3), sq_nonneg (b 4), sq_nonneg (b 5), sq_nonneg (b 3 + b 5 / 3), sq_nonneg (b 5 + 5 / 3 * b 3)]) (sq_nonneg _))
  · show b 5 = 0
    exact pow_eq_zero_iff two_ne_zero |>.1 (le_antisymm (by nlinarith [sq_nonneg (b 3), sq_nonneg (b 4), sq_nonneg (b 5), sq_nonneg (b 3 + b 5 / 3), sq_nonneg (b 5 + 5 / 3 * b 3)]) (sq_nonneg _))
  · show b 6 = 0
    exact pow_eq_zero_iff two_ne_zero |>.1 (le_antisymm (by linarith [sq_nonneg (b 6), sq_nonneg (b 7), sq_nonneg (b 8), sq_nonneg (b 9), sq_nonneg (b 10)]) (sq_nonneg _))
  · show b 7 = 0
    exact pow_eq_zero_iff two_ne_zero |>.1 (le_antisymm (by linarith [sq_nonneg (b 6), sq_nonneg (b 7), sq_nonneg (b 8), sq_nonneg (b 9), sq_nonneg (b 10)]) (sq_nonneg _))
  · show b 8 = 0
    exact pow_eq_zero_iff two_ne_zero |>.1 (le_antisymm (by linarith [sq_nonneg (b 6), sq_nonneg (b 7), sq_nonneg (b 8), sq_nonneg (b 9), sq_nonneg (b 10)]) (sq_nonneg _))
  · show b 9 = 0
    exact pow_eq_zero_iff two_ne_zero |>.1 (le_antisymm (by linarith [sq_nonneg (b 6), sq_nonneg (b 7), sq_nonneg (b 8), sq_nonneg (b 9), sq_nonneg (b 10)]) (sq_nonneg _))
  · show b 10 = 0
    exact pow_eq_zero_iff two_ne_zero |>.1 (le_antisymm (by linarith [sq_nonneg (b 6), sq_nonneg (b 7), sq_nonneg (b 8), sq_nonneg (b 9), sq_nonneg (b 10)]) (sq_nonneg _))

/-! ### The matrix `D` -/

/-- Stability of a set of modes: with positive weights, a geometry that is not degenerate, a quadrature rule of sufficient
order and positive definite moduli, the matrix `D` is positive definite and hence invertible. -/
def Spec.Stable (geo : Geometry d) (M : (Fin d → ℝ) → Matrix (Fin q) (Fin m) ℝ) (k : Nat) : Prop :=
  ∀ (n : Nat) (rule : List ((Fin d → ℝ) × ℝ)) (P : (Fin d → ℝ) × ℝ → EASPoint n d q m) (law : Law q) (u : NodeVec n d)
    (alpha : Fin m → ℝ), Spec.Exact rule k → Spec.OnRule geo rule P →
    (∀ g ∈ rule, 0 < g.2) → (∀ g ∈ rule, geo.integrationElement g.1 ≠ 0) → IsUnit (geo.jacobianTransposed center) →
    (∀ g ∈ rule, (P g).Ea u alpha = M g.1) → (∀ g ∈ rule, ∀ S, (P g).Eaa u alpha S = 0) →
    (∀ g ∈ rule, ∀ e, e ≠ 0 → 0 < e ⬝ᵥ law.tangent ((P g).strain u alpha) *ᵥ e) →
    (∀ b, b ≠ 0 → 0 < b ⬝ᵥ calculateD law (rule.map P) u alpha *ᵥ b) ∧ IsUnit (calculateD law (rule.map P) u alpha).det

theorem isUnit_det_of_pos {c : Nat} (D : Matrix (Fin c) (Fin c) ℝ) (h : ∀ b, b ≠ 0 → 0 < b ⬝ᵥ D *ᵥ b) : IsUnit D.det := by
  rw [isUnit_iff_ne_zero]
  intro h0
  obtain ⟨v, hv, hD⟩ := Matrix.exists_mulVec_eq_zero_iff.2 h0
  have := h v hv
  rw [hD, dotProduct_zero] at this
  exact lt_irrefl _ this

theorem sum_eq_zero_of_nonneg {α : Type*} (l : List α) (f : α → ℝ) (h : ∀ x ∈ l, 0 ≤ f x) (h0 : (l.map f).sum ≤ 0) :
    ∀ x ∈ l, f x = 0 := by
  induction l with
  | nil => simp
  | cons a l ih =>
    rw [List.map_cons, List.sum_cons] at h0
    have ha := h a (by simp)
    have hs : 0 ≤ (l.map f).sum := List.sum_nonneg fun x hx => by
      obtain ⟨y, hy, rfl⟩ := List.mem_map.1 hx
      exact h y (List.mem_cons_of_mem _ hy)
    intro x hx
    rcases List.mem_cons.1 hx with rfl | hx
    · linarith
    · exact ih (fun y hy => h y (List.mem_cons_of_mem _ hy)) (by linarith) x hx

theorem stable_of_independent (geo : Geometry d) (entries : List (Fin q × Fin m × ((Fin d → ℝ) → ℝ))) (k : Nat)
    (hind : Spec.Independent entries k) (T : Matrix (Fin q) (Fin q) ℝ)
    (hT : IsUnit (geo.jacobianTransposed center) → IsUnit T) :
    Spec.Stable geo (fun p => (geo.integrationElement p)⁻¹ • T * assign entries p) k := by
  intro n rule P law u alpha hk hP hw hdet hJ hM hA hC
  have hpos : ∀ b, b ≠ 0 → 0 < b ⬝ᵥ calculateD law (rule.map P) u alpha *ᵥ b := by
    intro b hb
    by_contra hneg
    have hsum : b ⬝ᵥ calculateD law (rule.map P) u alpha *ᵥ b = (rule.map fun g => geo.integrationElement g.1 * g.2 *
        (((P g).Ea u alpha *ᵥ b) ⬝ᵥ law.tangent ((P g).strain u alpha) *ᵥ ((P g).Ea u alpha *ᵥ b))).sum := by
      rw [calculateD_sum, list_sum_mulVec, dotProduct_comm, list_sum_dotProduct, List.map_map]
      congr 1
      refine List.map_congr_left fun g hg => ?_
      simp only [Function.comp_apply, pointD, hA g hg, add_zero, hP.detJ g hg, hP.weight g hg, Matrix.smul_mulVec,
        smul_dotProduct, smul_eq_mul]
      congr 1
      rw [Matrix.mul_assoc, ← Matrix.mulVec_mulVec, transpose_mulVec_dot, ← Matrix.mulVec_mulVec, dotProduct_comm]
    have hd : ∀ g ∈ rule, 0 < geo.integrationElement g.1 := fun g hg =>
      lt_of_le_of_ne (abs_nonneg _) (hdet g hg).symm
    have hnn : ∀ g ∈ rule, 0 ≤ geo.integrationElement g.1 * g.2 *
        (((P g).Ea u alpha *ᵥ b) ⬝ᵥ law.tangent ((P g).strain u alpha) *ᵥ ((P g).Ea u alpha *ᵥ b)) := by
      intro g hg
      refine mul_nonneg (mul_nonneg (hd g hg).le (hw g hg).le) ?_
      by_cases h0 : (P g).Ea u alpha *ᵥ b = 0
      · rw [h0, zero_dotProduct]
      · exact (hC g hg _ h0).le
    have hz := sum_eq_zero_of_nonneg rule _ hnn (by rw [← hsum]; exact not_lt.1 hneg)
    have hM0 : ∀ g ∈ rule, assign entries g.1 *ᵥ b = 0 := by
      intro g hg
      have h1 : (P g).Ea u alpha *ᵥ b = 0 := by
        by_contra h0
        have := hz g hg
        have hp := mul_pos (mul_pos (hd g hg) (hw g hg)) (hC g hg _ h0)
        linarith
      rw [hM g hg] at h1
      change ((geo.integrationElement g.1)⁻¹ • T * assign entries g.1) *ᵥ b = 0 at h1
      rw [Matrix.smul_mul, Matrix.smul_mulVec, ← Matrix.mulVec_mulVec] at h1
      have h2 : T *ᵥ (assign entries g.1 *ᵥ b) = 0 := by
        rcases smul_eq_zero.1 h1 with h | h
        · exact absurd (inv_eq_zero.1 h) (hdet g hg)
        · exact h
      obtain ⟨T', hT'⟩ := hT hJ
      have h3 := congrArg (fun v => (↑T'⁻¹ : Matrix (Fin q) (Fin q) ℝ) *ᵥ v) h2
      simp only [← hT', Matrix.mulVec_mulVec, Matrix.mulVec_zero] at h3
      rw [← Matrix.mul_assoc, Units.inv_mul, Matrix.one_mul] at h3
      rw [h3]
    refine hb (hind (Spec.quadrature rule k hk) b ?_)
    rintro p ⟨g, hg, rfl⟩
    exact hM0 g hg
  exact ⟨hpos, isUnit_det_of_pos _ hpos⟩

theorem isUnit_smul {c : Nat} {r : ℝ} {A : Matrix (Fin c) (Fin c) ℝ} (hr : r ≠ 0) (hA : IsUnit A) : IsUnit (r • A) := by
  rw [Matrix.isUnit_iff_isUnit_det] at hA ⊢
  rw [Matrix.det_smul]
  exact (IsUnit.mk0 _ (pow_ne_zero _ hr)).mul hA

theorem isUnit_T0Inverse2 (geo : Geometry 2) (h : IsUnit (geo.jacobianTransposed center)) : IsUnit (T0Inverse2 geo) := by
  have hT := ((transformation_invertible (K := ℝ) two_ne_zero).1 _).2 h
  have hd : geo.integrationElement center ≠ 0 :=
    abs_ne_zero.2 (isUnit_iff_ne_zero.1 ((Matrix.isUnit_iff_isUnit_det _).1 h))
  rw [T0Inverse2, Matrix.isUnit_nonsing_inv_iff]
  exact isUnit_smul hd hT

theorem isUnit_T0Inverse3 (geo : Geometry 3) (h : IsUnit (geo.jacobianTransposed center)) : IsUnit (T0Inverse3 geo) := by
  have hT := ((transformation_invertible (K := ℝ) two_ne_zero).2 _).2 h
  have hd : geo.integrationElement center ≠ 0 :=
    abs_ne_zero.2 (isUnit_iff_ne_zero.1 ((Matrix.isUnit_iff_isUnit_det _).1 h))
  rw [T0Inverse3, Matrix.isUnit_nonsing_inv_iff]
  exact isUnit_smul hd hT

/-- C72. For every geometry and law with positive definite moduli the matrix `D` of the linear and Green-Lagrange variants is
positive definite and invertible, with rules exact for biquadratic (triquadratic) functions, as the two point Gauss rules are;
`E11` needs degree four, as the three point rules have. -/
theorem eas_stable :
    (∀ geo : Geometry 2, Spec.Stable geo (ansatz2 e4 geo) 2 ∧ Spec.Stable geo (ansatz2 e5 geo) 2 ∧
      Spec.Stable geo (ansatz2 e7 geo) 2 ∧ Spec.Stable geo (ansatz2 e11 geo) 4) ∧
    ∀ geo : Geometry 3, Spec.Stable geo (ansatz3 e9 geo) 2 ∧ Spec.Stable geo (ansatz3 e21 geo) 2 :=
  ⟨fun geo => ⟨stable_of_independent geo e4 2 independent_e4 _ (isUnit_T0Inverse2 geo),
      stable_of_independent geo e5 2 independent_e5 _ (isUnit_T0Inverse2 geo),
      stable_of_independent geo e7 2 independent_e7 _ (isUnit_T0Inverse2 geo),
      stable_of_independent geo e11 4 independent_e11 _ (isUnit_T0Inverse2 geo)⟩,
    fun geo => ⟨stable_of_independent geo e9 2 independent_e9 _ (isUnit_T0Inverse3 geo),
      stable_of_independent geo e21 2 independent_e21 _ (isUnit_T0Inverse3 geo)⟩⟩

end Ikarus.Element.EAS
