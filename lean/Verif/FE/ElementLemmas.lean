import Verif.FE.ElementModel
import Mathlib.Analysis.Calculus.Deriv.Mul
import Mathlib.Analysis.Calculus.Deriv.Add
import Mathlib.Analysis.Calculus.Deriv.Pow
import Mathlib.Algebra.BigOperators.Fin
import Mathlib.Algebra.Order.BigOperators.Group.List
import Mathlib.Tactic.Ring
import Mathlib.Tactic.Linarith
import Mathlib.Tactic.FinCases
import Mathlib.Tactic.LinearCombination
import Mathlib.Tactic.NormNum

/-!
The loops of the elements as sums, and derivatives along lines.
-/

namespace Ikarus.Element

open Matrix

variable {n d q : Nat}

/-! ### Loops -/

theorem foldl_addSegment_aux (c : Fin n → Fin d → ℝ) (l : List (Fin n)) (hl : l.Nodup) :
    ∀ f : NodeVec n d, l.foldl (fun f i => addSegment f i (c i)) f =
      fun i => if i ∈ l then f i + c i else f i := by
  induction l with
  | nil => intro f; simp
  | cons a l ih =>
    intro f
    rw [List.foldl_cons, ih (List.nodup_cons.1 hl).2]
    have ha := (List.nodup_cons.1 hl).1
    funext i
    by_cases h : i = a
    · subst h
      simp [ha, addSegment]
    · simp [h, addSegment]

/-- The loop over the nodes adds one segment to each node. -/
theorem foldl_addSegment (c : Fin n → Fin d → ℝ) (f : NodeVec n d) :
    (List.finRange n).foldl (fun f i => addSegment f i (c i)) f = f + c := by
  rw [foldl_addSegment_aux c _ (List.nodup_finRange n)]
  funext i
  simp

theorem foldl_addBlock_row (M : Fin n → Matrix (Fin d) (Fin d) ℝ) (i : Fin n) (l : List (Fin n)) (hl : l.Nodup) :
    ∀ K : BlockMat n d, l.foldl (fun K j => addBlock K i j (M j)) K =
      fun I J => if I = i ∧ J ∈ l then K I J + M J else K I J := by
  induction l with
  | nil => intro K; simp
  | cons a l ih =>
    intro K
    rw [List.foldl_cons, ih (List.nodup_cons.1 hl).2]
    have ha := (List.nodup_cons.1 hl).1
    funext I J
    by_cases h : I = i
    · subst h
      by_cases g : J = a
      · subst g; simp [ha, addBlock]
      · simp [g, addBlock]
    · simp [h, addBlock]

theorem foldl_addBlock_aux (M : BlockMat n d) (l : List (Fin n)) (hl : l.Nodup) :
    ∀ K : BlockMat n d, l.foldl (fun K i => (List.finRange n).foldl (fun K j => addBlock K i j (M i j)) K) K =
      fun I J => if I ∈ l then K I J + M I J else K I J := by
  induction l with
  | nil => intro K; simp
  | cons a l ih =>
    intro K
    rw [List.foldl_cons, ih (List.nodup_cons.1 hl).2, foldl_addBlock_row _ a _ (List.nodup_finRange n)]
    have ha := (List.nodup_cons.1 hl).1
    funext I J
    by_cases h : I = a
    · subst h; simp [ha]
    · simp [h]

/-- The double loop over the nodes adds one block to each pair. -/
theorem foldl_addBlock (M : BlockMat n d) (K : BlockMat n d) :
    (List.finRange n).foldl (fun K i => (List.finRange n).foldl (fun K j => addBlock K i j (M i j)) K) K = K + M := by
  rw [foldl_addBlock_aux M _ (List.nodup_finRange n)]
  funext I J
  simp

/-- A loop that adds. -/
theorem foldl_add_sum {α M : Type*} [AddCommMonoid M] (g : α → M) (l : List α) :
    ∀ a, l.foldl (fun a x => a + g x) a = a + (l.map g).sum := by
  induction l with
  | nil => intro a; simp
  | cons x l ih => intro a; rw [List.foldl_cons, ih, List.map_cons, List.sum_cons, add_assoc]

theorem foldl_congr' {α β : Type*} {f g : β → α → β} (h : ∀ b a, f b a = g b a) (l : List α) (b : β) :
    l.foldl f b = l.foldl g b := by
  have : f = g := by funext b a; exact h b a
  rw [this]

theorem addBlock_addBlock (K : BlockMat n d) (I J : Fin n) (M M' : Matrix (Fin d) (Fin d) ℝ) :
    addBlock (addBlock K I J M) I J M' = addBlock K I J (M + M') := by
  unfold addBlock
  simp [add_assoc]

/-! ### Sums over integration points -/

theorem list_sum_apply {α β γ : Type*} [AddCommMonoid γ] (l : List α) (g : α → β → γ) (b : β) :
    (l.map g).sum b = (l.map fun x => g x b).sum := by
  induction l with
  | nil => rfl
  | cons x l ih => rw [List.map_cons, List.sum_cons, Pi.add_apply, ih, List.map_cons, List.sum_cons]

theorem hasDerivAt_list_sum {α : Type*} {E : Type*} [NormedAddCommGroup E] [NormedSpace ℝ E] (l : List α)
    (g : α → ℝ → E) (g' : α → E) (t : ℝ) (h : ∀ x ∈ l, HasDerivAt (g x) (g' x) t) :
    HasDerivAt (fun s => (l.map fun x => g x s).sum) (l.map g').sum t := by
  induction l with
  | nil => simpa using hasDerivAt_const t (0 : E)
  | cons x l ih =>
    simp only [List.map_cons, List.sum_cons]
    exact (h x (by simp)).add (ih fun y hy => h y (by simp [hy]))

theorem list_sum_add {α M : Type*} [AddCommMonoid M] (l : List α) (f g : α → M) :
    (l.map fun x => f x + g x).sum = (l.map f).sum + (l.map g).sum := by
  induction l with
  | nil => simp
  | cons x l ih => simp only [List.map_cons, List.sum_cons, ih]; abel

theorem list_sum_finset {α ι M : Type*} [AddCommMonoid M] (l : List α) (s : Finset ι) (g : α → ι → M) :
    ∑ i ∈ s, (l.map fun x => g x i).sum = (l.map fun x => ∑ i ∈ s, g x i).sum := by
  induction l with
  | nil => simp
  | cons x l ih => simp only [List.map_cons, List.sum_cons, ← ih, Finset.sum_add_distrib]

theorem list_sum_mulVec {α : Type*} {r c : Nat} (l : List α) (M : α → Matrix (Fin r) (Fin c) ℝ) (v : Fin c → ℝ) :
    (l.map M).sum *ᵥ v = (l.map fun x => M x *ᵥ v).sum := by
  induction l with
  | nil => simp
  | cons x l ih => simp only [List.map_cons, List.sum_cons, ← ih, Matrix.add_mulVec]

theorem list_sum_dotProduct {α : Type*} {r : Nat} (l : List α) (f : α → Fin r → ℝ) (v : Fin r → ℝ) :
    (l.map f).sum ⬝ᵥ v = (l.map fun x => f x ⬝ᵥ v).sum := by
  induction l with
  | nil => simp
  | cons x l ih => simp only [List.map_cons, List.sum_cons, ← ih, add_dotProduct]

/-- Forms of the matrix of one integration point. -/
theorem bilinear_form (C : Matrix (Fin q) (Fin q) ℝ) (B B' : Matrix (Fin q) (Fin d) ℝ) (v : Fin d → ℝ) :
    (Bᵀ * C * B') *ᵥ v = Bᵀ *ᵥ (C *ᵥ (B' *ᵥ v)) := by
  rw [Matrix.mulVec_mulVec, Matrix.mulVec_mulVec]

theorem transpose_mulVec_dot (B : Matrix (Fin q) (Fin d) ℝ) (s : Fin q → ℝ) (v : Fin d → ℝ) :
    (Bᵀ *ᵥ s) ⬝ᵥ v = s ⬝ᵥ (B *ᵥ v) := by
  rw [Matrix.mulVec_transpose, ← Matrix.dotProduct_mulVec]

/-- A quadratic function of the line parameter. -/
theorem hasDerivAt_quadratic {f : ℝ → ℝ} {a b c : ℝ} (h : ∀ t, f t = a + t * b + t ^ 2 * c) : HasDerivAt f b 0 := by
  have e : f = fun t => a + t * b + t ^ 2 * c := funext h
  rw [e]
  have h1 : HasDerivAt (fun t : ℝ => a + t * b + t ^ 2 * c) (0 + 1 * b + ((2 : ℕ) * (0 : ℝ) ^ (2 - 1)) * c) 0 :=
    ((hasDerivAt_const (0 : ℝ) a).add ((hasDerivAt_id' (0 : ℝ)).mul_const b)).add
      ((hasDerivAt_pow 2 (0 : ℝ)).mul_const c)
  refine h1.congr_deriv ?_
  norm_num

end Ikarus.Element
