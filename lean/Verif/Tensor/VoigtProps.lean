import Verif.Tensor.Model
import Mathlib.LinearAlgebra.Matrix.NonsingularInverse
import Mathlib.LinearAlgebra.Matrix.ToLinearEquiv
import Mathlib.Tactic.FinCases
import Mathlib.Tactic.Ring
import Mathlib.Tactic.FieldSimp
import Mathlib.Tactic.LinearCombination
import Mathlib.Algebra.BigOperators.Fin

/-!
C30, C31, C35: Voigt notation, fourth order tensors and the strain transformation.
-/

namespace Ikarus

open Matrix

variable {K : Type*} [Field K]

/-! ### Specification -/

/-- The double contraction of second order tensors. -/
def Spec.ddot {n : Nat} (A B : Matrix (Fin n) (Fin n) K) : K := ∑ i, ∑ j, A i j * B i j

/-- The contraction of a fourth order tensor with a second order tensor. -/
def Spec.contract {d : Nat} (t : Tensor4 K d) (X : Matrix (Fin d) (Fin d) K) :
    Matrix (Fin d) (Fin d) K :=
  fun i j => ∑ k, ∑ l, t i j k l * X k l

/-- Both minor symmetries. -/
def Spec.MinorSymmetric {α : Type*} {d : Nat} (t : Tensor4 α d) : Prop :=
  ∀ i j k l, t i j k l = t j i k l ∧ t i j k l = t i j l k

open Spec

/-! ### Index maps -/

/-- C30. The index maps are defined on the indices of a matrix of the dimension, the map to
Voigt notation is symmetric, and both are inverse to each other; the list of index pairs
`voigtNotationContainer` enumerates the inverse map. -/
theorem voigt_indices :
    (∀ i j, i < 3 → j < 3 → (toVoigtIndex3 i j).isSome) ∧
    (∀ i j k, i < 3 → j < 3 → toVoigtIndex3 i j = some k → k < 6 ∧ toVoigtIndex3 j i = some k ∧
      (fromVoigtIndex3 k = some (i, j) ∨ fromVoigtIndex3 k = some (j, i))) ∧
    (∀ k, k < 6 → ∃ i j, i < 3 ∧ j < 3 ∧ i ≤ j ∧ fromVoigtIndex3 k = some (i, j) ∧
      toVoigtIndex3 i j = some k ∧ (voigtNotationContainer 3)[k]? = some (i, j)) ∧
    (∀ i j, i < 2 → j < 2 → ∃ k, k < 3 ∧ toVoigtIndex2 i j = some k ∧ toVoigtIndex2 j i = some k ∧
      (fromVoigtIndex2 k = some (i, j) ∨ fromVoigtIndex2 k = some (j, i))) ∧
    (∀ k, k < 3 → ∃ i j, i < 2 ∧ j < 2 ∧ i ≤ j ∧ fromVoigtIndex2 k = some (i, j) ∧
      toVoigtIndex2 i j = some k ∧ (voigtNotationContainer 2)[k]? = some (i, j)) ∧
    (∀ k, 6 ≤ k → fromVoigtIndex3 k = none) ∧ (∀ k, 3 ≤ k → fromVoigtIndex2 k = none) := by
  refine ⟨?_, ?_, ?_, ?_, ?_, ?_, ?_⟩
  · intro i j hi hj
    rcases (show i = 0 ∨ i = 1 ∨ i = 2 by omega) with rfl | rfl | rfl <;>
      rcases (show j = 0 ∨ j = 1 ∨ j = 2 by omega) with rfl | rfl | rfl <;> decide
  · intro i j k hi hj h
    rcases (show i = 0 ∨ i = 1 ∨ i = 2 by omega) with rfl | rfl | rfl <;>
      rcases (show j = 0 ∨ j = 1 ∨ j = 2 by omega) with rfl | rfl | rfl <;>
      simp [toVoigtIndex3] at h <;> subst h <;> decide
  · intro k hk
    rcases (show k = 0 ∨ k = 1 ∨ k = 2 ∨ k = 3 ∨ k = 4 ∨ k = 5 by omega) with
      rfl | rfl | rfl | rfl | rfl | rfl
    · exact ⟨0, 0, by decide⟩
    · exact ⟨1, 1, by decide⟩
    · exact ⟨2, 2, by decide⟩
    · exact ⟨1, 2, by decide⟩
    · exact ⟨0, 2, by decide⟩
    · exact ⟨0, 1, by decide⟩
  · intro i j hi hj
    rcases (show i = 0 ∨ i = 1 by omega) with rfl | rfl <;>
      rcases (show j = 0 ∨ j = 1 by omega) with rfl | rfl
    · exact ⟨0, by decide⟩
    · exact ⟨2, by decide⟩
    · exact ⟨2, by decide⟩
    · exact ⟨1, by decide⟩
  · intro k hk
    rcases (show k = 0 ∨ k = 1 ∨ k = 2 by omega) with rfl | rfl | rfl
    · exact ⟨0, 0, by decide⟩
    · exact ⟨1, 1, by decide⟩
    · exact ⟨0, 1, by decide⟩
  · intro k hk
    simp only [fromVoigtIndex3]
    rw [if_neg (by omega), if_neg (by omega), if_neg (by omega), if_neg (by omega)]
  · intro k hk
    simp only [fromVoigtIndex2]
    rw [if_neg (by omega), if_neg (by omega)]

/-- The total index maps agree with the modelled ones. -/
theorem voigt3_eq (i j : Fin 3) : toVoigtIndex3 i j = some (voigt3 i j : Nat) := by
  revert i j; decide

theorem unvoigt3_eq (k : Fin 6) :
    fromVoigtIndex3 k = some ((unvoigt3 k).1.val, (unvoigt3 k).2.val) := by
  revert k; decide

theorem voigt2_eq (i j : Fin 2) : toVoigtIndex2 i j = some (voigt2 i j : Nat) := by
  revert i j; decide

theorem unvoigt2_eq (k : Fin 3) :
    fromVoigtIndex2 k = some ((unvoigt2 k).1.val, (unvoigt2 k).2.val) := by
  revert k; decide

/-! ### Round trips -/

theorem strainFactor_inv (h2 : (2 : K) ≠ 0) (s : Bool) (x : K) :
    x * strainFactor s * invStrainFactor s = x := by
  cases s <;> simp [strainFactor, invStrainFactor, h2]

theorem invStrainFactor_inv (h2 : (2 : K) ≠ 0) (s : Bool) (x : K) :
    x * invStrainFactor s * strainFactor s = x := by
  cases s <;> simp [strainFactor, invStrainFactor, h2]

/-- C30. Matrix to Voigt vector and back: a symmetric matrix is recovered, for each size and both
flags. -/
theorem fromVoigt_toVoigt (h2 : (2 : K) ≠ 0) (s : Bool) :
    (∀ A : Matrix (Fin 1) (Fin 1) K, fromVoigt1 (toVoigt1 A s) s = A) ∧
    (∀ A : Matrix (Fin 2) (Fin 2) K, A.IsSymm → fromVoigt2 (toVoigt2 A s) s = A) ∧
    (∀ A : Matrix (Fin 3) (Fin 3) K, A.IsSymm → fromVoigt3 (toVoigt3 A s) s = A) := by
  refine ⟨fun A => ?_, fun A hA => ?_, fun A hA => ?_⟩
  · ext i j; fin_cases i; fin_cases j; rfl
  · have h10 := hA.apply 0 1
    ext i j
    fin_cases i <;> fin_cases j <;> simp [fromVoigt2, toVoigt2, strainFactor_inv h2, h10]
  · have h10 := hA.apply 0 1
    have h20 := hA.apply 0 2
    have h21 := hA.apply 1 2
    ext i j
    fin_cases i <;> fin_cases j <;>
      simp [fromVoigt3, toVoigt3, strainFactor_inv h2, h10, h20, h21]

/-- C30. Voigt vector to matrix and back: every vector is recovered, and the matrix is symmetric. -/
theorem toVoigt_fromVoigt (h2 : (2 : K) ≠ 0) (s : Bool) :
    (∀ v : Fin 1 → K, toVoigt1 (fromVoigt1 v s) s = v) ∧
    (∀ v : Fin 3 → K, toVoigt2 (fromVoigt2 v s) s = v ∧ (fromVoigt2 v s).IsSymm) ∧
    (∀ v : Fin 6 → K, toVoigt3 (fromVoigt3 v s) s = v ∧ (fromVoigt3 v s).IsSymm) := by
  refine ⟨fun v => ?_, fun v => ⟨?_, ?_⟩, fun v => ⟨?_, ?_⟩⟩
  · ext i; fin_cases i; rfl
  · ext i
    fin_cases i <;> simp [fromVoigt2, toVoigt2, invStrainFactor_inv h2]
  · ext i j
    fin_cases i <;> fin_cases j <;> simp [fromVoigt2]
  · ext i
    fin_cases i <;> simp [fromVoigt3, toVoigt3, invStrainFactor_inv h2]
  · ext i j
    fin_cases i <;> fin_cases j <;> simp [fromVoigt3]

/-- C30. What happens to matrices that are not symmetric: the entries below the diagonal are not
read. -/
theorem fromVoigt_toVoigt_upper (h2 : (2 : K) ≠ 0) (s : Bool) (A : Matrix (Fin 3) (Fin 3) K)
    (i j : Fin 3) : fromVoigt3 (toVoigt3 A s) s i j = if i ≤ j then A i j else A j i := by
  fin_cases i <;> fin_cases j <;> simp [fromVoigt3, toVoigt3, strainFactor_inv h2]

/-- C30. Energy conjugacy: the product of the Voigt vectors of a stress and a strain is their full
double contraction, in two and three dimensions. -/
theorem voigt_conjugate :
    (∀ S E : Matrix (Fin 2) (Fin 2) K, S.IsSymm → E.IsSymm →
      toVoigt2 S false ⬝ᵥ toVoigt2 E true = ddot S E) ∧
    (∀ S E : Matrix (Fin 3) (Fin 3) K, S.IsSymm → E.IsSymm →
      toVoigt3 S false ⬝ᵥ toVoigt3 E true = ddot S E) := by
  refine ⟨fun S E hS hE => ?_, fun S E hS hE => ?_⟩
  · have h1 := hS.apply 0 1
    have h2 := hE.apply 0 1
    simp [toVoigt2, ddot, dotProduct, Fin.sum_univ_succ, strainFactor, h1, h2]
    ring
  · have h1 := hS.apply 0 1
    have h2 := hE.apply 0 1
    have h3 := hS.apply 0 2
    have h4 := hE.apply 0 2
    have h5 := hS.apply 1 2
    have h6 := hE.apply 1 2
    simp [toVoigt3, ddot, dotProduct, Fin.sum_univ_succ, strainFactor, h1, h2, h3, h4, h5, h6]
    ring

/-- C30. The Voigt maps are linear. -/
theorem toVoigt3_linear (s : Bool) (a : K) (A B : Matrix (Fin 3) (Fin 3) K) :
    toVoigt3 (a • A + B) s = a • toVoigt3 A s + toVoigt3 B s := by
  ext i
  fin_cases i <;> simp [toVoigt3] <;> ring

example : toVoigt3 (!![1, 2, 3; 2, 4, 5; 3, 5, 6] : Matrix (Fin 3) (Fin 3) ℚ) true
    = ![1, 4, 6, 10, 6, 4] ∧ (!![1, 2, 3; 2, 4, 5; 3, 5, 6] : Matrix (Fin 3) (Fin 3) ℚ).IsSymm := by
  decide +kernel

/-! ### Fourth order tensors -/

/-- C31. `symmetricIdentityFourthOrder` maps every tensor to its symmetric part, in every
dimension. -/
theorem symmetricIdentity_contract (d : Nat) (X : Matrix (Fin d) (Fin d) K) :
    contract (symmetricIdentityFourthOrder d) X = symPart X := by
  ext i j
  simp only [contract, symmetricIdentityFourthOrder, symPart, Matrix.smul_apply, Matrix.add_apply,
    Matrix.transpose_apply, delta]
  simp [mul_add, add_mul, Finset.sum_add_distrib, ite_and, mul_assoc, Finset.mul_sum]

/-- C31. `symmetricFourthOrder(A, B)` maps `X` to `A sym(X) Bᵀ`; `fourthOrderIKJL(A, B)` maps `X` to
`A X Bᵀ`; the dyadic product maps `X` to `(B : X) A`. -/
theorem fourthOrder_contract {d : Nat} (A B X : Matrix (Fin d) (Fin d) K) :
    contract (symmetricFourthOrder A B) X = A * symPart X * Bᵀ ∧
    contract (fourthOrderIKJL A B) X = A * X * Bᵀ ∧
    contract (dyadic A B) X = ddot B X • A := by
  refine ⟨?_, ?_, ?_⟩
  · ext i j
    simp only [contract, symmetricFourthOrder, symPart, Matrix.mul_apply, Matrix.transpose_apply,
      Matrix.smul_apply, Matrix.add_apply, smul_eq_mul, Finset.sum_mul]
    have h1 : ∀ f : Fin d → Fin d → K, ∑ k, ∑ l, f k l = ∑ l, ∑ k, f k l := fun f => Finset.sum_comm
    have h2 : (∑ k, ∑ l, 1 / 2 * (A i k * B j l + A i l * B j k) * X k l)
        = (∑ k, ∑ l, 1 / 2 * (A i k * B j l * X k l)) + ∑ k, ∑ l, 1 / 2 * (A i l * B j k * X k l) := by
      rw [← Finset.sum_add_distrib]
      refine Finset.sum_congr rfl fun k _ => ?_
      rw [← Finset.sum_add_distrib]
      exact Finset.sum_congr rfl fun l _ => by ring
    rw [h2, h1 (fun k l => 1 / 2 * (A i k * B j l * X k l)), ← Finset.sum_add_distrib]
    refine Finset.sum_congr rfl fun l _ => ?_
    rw [← Finset.sum_add_distrib]
    exact Finset.sum_congr rfl fun k _ => by ring
  · ext i j
    simp only [contract, fourthOrderIKJL, Matrix.mul_apply, Matrix.transpose_apply, Finset.sum_mul]
    rw [Finset.sum_comm]
    exact Finset.sum_congr rfl fun l _ => Finset.sum_congr rfl fun k _ => by ring
  · ext i j
    simp only [contract, dyadic, ddot, Matrix.smul_apply, smul_eq_mul, Finset.sum_mul]
    exact Finset.sum_congr rfl fun k _ => Finset.sum_congr rfl fun l _ => by ring

theorem identity_fold {d : Nat} (ps : List (Fin d × Fin d)) (t : Tensor4 K d) (i j k l : Fin d) :
    ps.foldl (fun t p => t.set p.1 p.1 p.2 p.2 1) t i j k l =
      if i = j ∧ k = l ∧ (i, k) ∈ ps then 1 else t i j k l := by
  induction ps generalizing t with
  | nil => simp
  | cons p ps ih =>
    rw [List.foldl_cons, ih]
    obtain ⟨a, b⟩ := p
    simp only [Tensor4.set, List.mem_cons, Prod.mk.injEq]
    by_cases h1 : i = j
    · subst h1
      by_cases h2 : k = l
      · subst h2
        by_cases h3 : (i, k) ∈ ps
        · simp [h3]
        · by_cases h4 : i = a ∧ k = b
          · simp [h4]
          · have : ¬(i = a ∧ i = a ∧ k = b ∧ k = b) := fun h => h4 ⟨h.1, h.2.2.1⟩
            simp [h3, h4, this]
      · have : ¬(i = a ∧ i = a ∧ k = b ∧ l = b) := fun h => h2 (h.2.2.1.trans h.2.2.2.symm)
        simp [h2, this]
    · have : ¬(i = a ∧ j = a ∧ k = b ∧ l = b) := fun h => h1 (h.1.trans h.2.1.symm)
      simp [h1, this]

/-- The entries of `identityFourthOrder`. -/
theorem identityFourthOrder_apply (d : Nat) (i j k l : Fin d) :
    identityFourthOrder d i j k l = (delta i j * delta k l : K) := by
  unfold identityFourthOrder
  rw [identity_fold]
  have : (i, k) ∈ identityWrites d := by simp [identityWrites]
  simp only [this, and_true, delta]
  by_cases h1 : i = j <;> by_cases h2 : k = l <;> simp [h1, h2]

/-- C31. `identityFourthOrder` maps every tensor to its trace times the identity, in every
dimension. -/
theorem identityFourthOrder_contract (d : Nat) (X : Matrix (Fin d) (Fin d) K) :
    contract (identityFourthOrder d) X = X.trace • (1 : Matrix (Fin d) (Fin d) K) := by
  ext i j
  simp only [contract, identityFourthOrder_apply, delta, Matrix.smul_apply, Matrix.one_apply,
    smul_eq_mul, Matrix.trace, Matrix.diag]
  by_cases h : i = j <;> simp [h]

/-- C31. `symTwoSlots` is defined iff both slots exist; the result is symmetric in these slots, it is
the mean of the tensor and the tensor with the slots exchanged, and a tensor that is symmetric in
them is not changed (so that applying it twice changes nothing more). -/
theorem symTwoSlots_spec (h2 : (2 : K) ≠ 0) {d : Nat} (t : Tensor4 K d) (a b : Nat) :
    ((symTwoSlots t a b).isSome ↔ a < 4 ∧ b < 4) ∧
    ∀ (ha : a < 4) (hb : b < 4), ∃ r, symTwoSlots t a b = some r ∧
      (∀ x : Fin 4 → Fin d, r.at (x ∘ Equiv.swap (⟨a, ha⟩ : Fin 4) ⟨b, hb⟩) = r.at x) ∧
      (∀ x : Fin 4 → Fin d,
        2 * r.at x = t.at x + t.at (x ∘ Equiv.swap (⟨a, ha⟩ : Fin 4) ⟨b, hb⟩)) ∧
      ((∀ x : Fin 4 → Fin d, t.at (x ∘ Equiv.swap (⟨a, ha⟩ : Fin 4) ⟨b, hb⟩) = t.at x) → r = t) ∧
      symTwoSlots r a b = some r := by
  constructor
  · unfold symTwoSlots
    split <;> simp_all
  · intro ha hb
    have hat : ∀ (u : Tensor4 K d) (x : Fin 4 → Fin d), u (x 0) (x 1) (x 2) (x 3) = u.at x :=
      fun _ _ => rfl
    have hvec : ∀ x : Fin 4 → Fin d, ![x 0, x 1, x 2, x 3] = x := by
      intro x; ext i; fin_cases i <;> rfl
    have key : ∀ u : Tensor4 K d, ∃ r, symTwoSlots u a b = some r ∧ ∀ x : Fin 4 → Fin d,
        r.at x = 1 / 2 * (u.at x + u.at (x ∘ Equiv.swap (⟨a, ha⟩ : Fin 4) ⟨b, hb⟩)) := by
      intro u
      refine ⟨_, by unfold symTwoSlots; rw [dif_pos ⟨ha, hb⟩], fun x => ?_⟩
      show 1 / 2 * (u (x 0) (x 1) (x 2) (x 3) + _) = _
      rw [hat u x, hvec]
    have hswap : ∀ x : Fin 4 → Fin d, (x ∘ Equiv.swap (⟨a, ha⟩ : Fin 4) ⟨b, hb⟩) ∘
        Equiv.swap (⟨a, ha⟩ : Fin 4) ⟨b, hb⟩ = x := by
      intro x; ext i; simp [Function.comp]
    have hext : ∀ u v : Tensor4 K d, (∀ x, u.at x = v.at x) → u = v := by
      intro u v h
      funext i j k l
      exact h ![i, j, k, l]
    have hid : ∀ u r : Tensor4 K d, (∀ x : Fin 4 → Fin d,
        r.at x = 1 / 2 * (u.at x + u.at (x ∘ Equiv.swap (⟨a, ha⟩ : Fin 4) ⟨b, hb⟩))) →
        (∀ x : Fin 4 → Fin d, u.at (x ∘ Equiv.swap (⟨a, ha⟩ : Fin 4) ⟨b, hb⟩) = u.at x) → r = u := by
      intro u r h1 h3
      refine hext _ _ fun x => ?_
      rw [h1, h3]
      field_simp
      ring
    obtain ⟨r, hr, hx⟩ := key t
    have hsym : ∀ x : Fin 4 → Fin d, r.at (x ∘ Equiv.swap (⟨a, ha⟩ : Fin 4) ⟨b, hb⟩) = r.at x := by
      intro x
      rw [hx, hx, hswap, add_comm]
    refine ⟨r, hr, hsym, fun x => ?_, fun h => hid t r hx h, ?_⟩
    · rw [hx]; field_simp
    · obtain ⟨r', hr', hx'⟩ := key r
      rw [hr', hid r r' hx' hsym]

/-! ### Voigt form of fourth order tensors -/

omit [Field K] in
theorem setEntry_fold {ι : Type*} (f g : ι → Fin 6) (v : ι → K) (ps : List ι)
    (A : Fin 6 → Fin 6 → Option K) (a b : Fin 6) :
    ps.foldl (fun A p => setEntry A (f p) (g p) (v p)) A a b =
      match ps.reverse.find? (fun p => decide (f p = a ∧ g p = b)) with
      | some p => some (v p)
      | none => A a b := by
  induction ps generalizing A with
  | nil => rfl
  | cons p ps ih =>
    rw [List.foldl_cons, ih, List.reverse_cons, List.find?_append]
    cases h : ps.reverse.find? (fun p => decide (f p = a ∧ g p = b)) with
    | some q => simp
    | none =>
      simp only [Option.none_or, List.find?_cons, List.find?_nil]
      by_cases h' : f p = a ∧ g p = b
      · simp [h', setEntry]
      · have : ¬(a = f p ∧ b = g p) := fun h => h' ⟨h.1.symm, h.2.symm⟩
        simp [h', setEntry, this]

/-- C31. The Voigt matrix of a fourth order tensor is completely initialised; without symmetries the
entries below the diagonal win. -/
theorem toVoigtTensor_entries (ft : Tensor4 K 3) (a b : Fin 6) :
    toVoigtTensor ft a b = some (ft (unvoigt3 a).2 (unvoigt3 a).1 (unvoigt3 b).2 (unvoigt3 b).1) := by
  unfold toVoigtTensor
  rw [setEntry_fold (fun p : Fin 3 × Fin 3 × Fin 3 × Fin 3 => voigt3 p.1 p.2.1)
    (fun p => voigt3 p.2.2.1 p.2.2.2) (fun p => ft p.1 p.2.1 p.2.2.1 p.2.2.2)]
  have : (allIndices4 3).reverse.find? (fun p => decide (voigt3 p.1 p.2.1 = a ∧
      voigt3 p.2.2.1 p.2.2.2 = b)) =
      some ((unvoigt3 a).2, (unvoigt3 a).1, (unvoigt3 b).2, (unvoigt3 b).1) := by
    revert a b; decide +kernel
  rw [this]

/-- C31. For a tensor with minor symmetries the Voigt matrix times the Voigt vector of a strain is
the Voigt vector of the full contraction. -/
theorem toVoigtTensor_contract (ft : Tensor4 K 3) (hs : MinorSymmetric ft)
    (X : Matrix (Fin 3) (Fin 3) K) (hX : X.IsSymm) (C : Matrix (Fin 6) (Fin 6) K)
    (hC : ∀ a b, toVoigtTensor ft a b = some (C a b)) :
    C *ᵥ toVoigt3 X true = toVoigt3 (contract ft X) false := by
  have h1 := hX.apply 0 1
  have h2 := hX.apply 0 2
  have h3 := hX.apply 1 2
  have hC' : ∀ a b, C a b = ft (unvoigt3 a).1 (unvoigt3 a).2 (unvoigt3 b).1 (unvoigt3 b).2 := by
    intro a b
    have := hC a b
    rw [toVoigtTensor_entries] at this
    simp only [Option.some.injEq] at this
    rw [← this, (hs _ _ _ _).1, (hs _ _ _ _).2]
  have hk : ∀ i j, ft i j 1 0 = ft i j 0 1 ∧ ft i j 2 0 = ft i j 0 2 ∧ ft i j 2 1 = ft i j 1 2 :=
    fun i j => ⟨(hs _ _ _ _).2, (hs _ _ _ _).2, (hs _ _ _ _).2⟩
  ext a
  fin_cases a <;>
    simp [Matrix.mulVec, dotProduct, Fin.sum_univ_succ, hC', unvoigt3, toVoigt3, contract,
      strainFactor, hk, h1, h2, h3] <;> ring

omit [Field K] in
theorem tensorSet_fold {ι : Type*} {d : Nat} (f : ι → Fin d × Fin d × Fin d × Fin d) (v : ι → K)
    (ps : List ι) (A : Tensor4 (Option K) d) (i j k l : Fin d) :
    ps.foldl (fun t p => t.set (f p).1 (f p).2.1 (f p).2.2.1 (f p).2.2.2 (some (v p))) A i j k l =
      match ps.reverse.find? (fun p => decide (f p = (i, j, k, l))) with
      | some p => some (v p)
      | none => A i j k l := by
  induction ps generalizing A with
  | nil => rfl
  | cons p ps ih =>
    rw [List.foldl_cons, ih, List.reverse_cons, List.find?_append]
    cases h : ps.reverse.find? (fun p => decide (f p = (i, j, k, l))) with
    | some q => simp
    | none =>
      simp only [Option.none_or, List.find?_cons, List.find?_nil]
      by_cases h' : f p = (i, j, k, l)
      · simp [h', Tensor4.set]
      · have : ¬(i = (f p).1 ∧ j = (f p).2.1 ∧ k = (f p).2.2.1 ∧ l = (f p).2.2.2) := by
          intro h
          apply h'
          rw [h.1, h.2.1, h.2.2.1, h.2.2.2]
        simp [h', Tensor4.set, this]

/-- The full statement about `fromVoigt` of a matrix: all entries of the tensor are defined. -/
def Spec.FromVoigtDefined (K : Type*) [Field K] : Prop :=
  ∀ (C : Matrix (Fin 6) (Fin 6) K) i j k l, (fromVoigtTensor3 C i j k l).isSome

/-- C31. The entries of `fromVoigt(matrix)` that are written are exactly those with `i ≤ j` and
`k ≤ l` (dimension three). Missing for the full statement: the other entries, which are not
initialised. -/
theorem fromVoigtTensor_entries_partial (C : Matrix (Fin 6) (Fin 6) K) (i j k l : Fin 3) :
    fromVoigtTensor3 C i j k l =
      if i ≤ j ∧ k ≤ l then some (C (voigt3 i j) (voigt3 k l)) else none := by
  unfold fromVoigtTensor3
  rw [tensorSet_fold (fun p : Fin 6 × Fin 6 => ((unvoigt3 p.1).1, (unvoigt3 p.1).2,
    (unvoigt3 p.2).1, (unvoigt3 p.2).2)) (fun p => C p.1 p.2)]
  have : (allIndices2 6).reverse.find? (fun p => decide (((unvoigt3 p.1).1, (unvoigt3 p.1).2,
      (unvoigt3 p.2).1, (unvoigt3 p.2).2) = (i, j, k, l))) =
      if i ≤ j ∧ k ≤ l then some (voigt3 i j, voigt3 k l) else none := by
    revert i j k l; decide +kernel
  rw [this]
  by_cases h : i ≤ j ∧ k ≤ l
  · rw [if_pos h, if_pos h]
  · rw [if_neg h, if_neg h]

/-- C31. The same in dimension two. -/
theorem fromVoigtTensor2_entries_partial (C : Matrix (Fin 3) (Fin 3) K) (i j k l : Fin 2) :
    fromVoigtTensor2 C i j k l =
      if i ≤ j ∧ k ≤ l then some (C (voigt2 i j) (voigt2 k l)) else none := by
  unfold fromVoigtTensor2
  rw [tensorSet_fold (fun p : Fin 3 × Fin 3 => ((unvoigt2 p.1).1, (unvoigt2 p.1).2,
    (unvoigt2 p.2).1, (unvoigt2 p.2).2)) (fun p => C p.1 p.2)]
  have : (allIndices2 3).reverse.find? (fun p => decide (((unvoigt2 p.1).1, (unvoigt2 p.1).2,
      (unvoigt2 p.2).1, (unvoigt2 p.2).2) = (i, j, k, l))) =
      if i ≤ j ∧ k ≤ l then some (voigt2 i j, voigt2 k l) else none := by
    revert i j k l; decide +kernel
  rw [this]
  by_cases h : i ≤ j ∧ k ≤ l
  · rw [if_pos h, if_pos h]
  · rw [if_neg h, if_neg h]

/-- C31 is false for `fromVoigt` of a matrix: for every matrix there are uninitialised entries. -/
theorem fromVoigtTensor_uninitialised (C : Matrix (Fin 6) (Fin 6) K) :
    fromVoigtTensor3 C 1 0 0 0 = none ∧ ¬ FromVoigtDefined K := by
  have h : ∀ C : Matrix (Fin 6) (Fin 6) K, fromVoigtTensor3 C 1 0 0 0 = none := by
    intro C
    rw [fromVoigtTensor_entries_partial]
    simp
  refine ⟨h C, fun hd => ?_⟩
  have := hd C 1 0 0 0
  rw [h C] at this
  exact absurd this (by simp)

/-- C31. On the written entries `fromVoigt` is a right inverse of `toVoigt` for tensors with minor
symmetries. -/
theorem fromVoigt_toVoigt_tensor_partial (ft : Tensor4 K 3) (hs : MinorSymmetric ft)
    (C : Matrix (Fin 6) (Fin 6) K) (hC : ∀ a b, toVoigtTensor ft a b = some (C a b))
    (i j k l : Fin 3) (h1 : i ≤ j) (h2 : k ≤ l) : fromVoigtTensor3 C i j k l = some (ft i j k l) := by
  rw [fromVoigtTensor_entries_partial, if_pos ⟨h1, h2⟩, ← hC, toVoigtTensor_entries]
  have hv : ∀ a b : Fin 3, a ≤ b → unvoigt3 (voigt3 a b) = (a, b) := by decide
  rw [hv i j h1, hv k l h2, (hs _ _ _ _).1, (hs _ _ _ _).2]

example : MinorSymmetric (symmetricIdentityFourthOrder 3 : Tensor4 ℚ 3) := by
  intro i j k l
  unfold symmetricIdentityFourthOrder
  constructor <;> ring

/-! ### Strain transformation -/

/-- C35. The transformation matrix applied to the Voigt vector of a strain gives the Voigt vector of
the congruence with the (transposed) Jacobian, in two and three dimensions. -/
theorem transformation_congruence :
    (∀ J E : Matrix (Fin 2) (Fin 2) K, E.IsSymm →
      transformationMatrix2 J *ᵥ toVoigt2 E true = toVoigt2 (J * E * Jᵀ) true) ∧
    (∀ J E : Matrix (Fin 3) (Fin 3) K, E.IsSymm →
      transformationMatrix3 J *ᵥ toVoigt3 E true = toVoigt3 (J * E * Jᵀ) true) := by
  refine ⟨fun J E hE => ?_, fun J E hE => ?_⟩
  · have h1 := hE.apply 0 1
    ext i
    fin_cases i <;>
      simp [transformationMatrix2, toVoigt2, Matrix.mulVec, dotProduct, Fin.sum_univ_succ,
        Matrix.mul_apply, strainFactor, h1] <;> ring
  · have h1 := hE.apply 0 1
    have h2 := hE.apply 0 2
    have h3 := hE.apply 1 2
    ext i
    fin_cases i <;>
      simp [transformationMatrix3, toVoigt3, Matrix.mulVec, dotProduct, Fin.sum_univ_succ,
        Matrix.mul_apply, strainFactor, h1, h2, h3] <;> ring

/-- C35. The transformation matrix is multiplicative and maps the identity to the identity. -/
theorem transformation_mul (h2 : (2 : K) ≠ 0) :
    (∀ J L : Matrix (Fin 2) (Fin 2) K,
      transformationMatrix2 (J * L) = transformationMatrix2 J * transformationMatrix2 L) ∧
    (∀ J L : Matrix (Fin 3) (Fin 3) K,
      transformationMatrix3 (J * L) = transformationMatrix3 J * transformationMatrix3 L) ∧
    transformationMatrix2 (1 : Matrix (Fin 2) (Fin 2) K) = 1 ∧
    transformationMatrix3 (1 : Matrix (Fin 3) (Fin 3) K) = 1 := by
  have e2 : ∀ v : Fin 3 → K, toVoigt2 (fromVoigt2 v true) true = v ∧ (fromVoigt2 v true).IsSymm :=
    (toVoigt_fromVoigt h2 true).2.1
  have e3 : ∀ v : Fin 6 → K, toVoigt3 (fromVoigt3 v true) true = v ∧ (fromVoigt3 v true).IsSymm :=
    (toVoigt_fromVoigt h2 true).2.2
  have hc : ∀ {n : Nat} (J E : Matrix (Fin n) (Fin n) K), E.IsSymm → (J * E * Jᵀ).IsSymm := by
    intro n J E hE
    unfold Matrix.IsSymm
    rw [Matrix.transpose_mul, Matrix.transpose_mul, Matrix.transpose_transpose, hE.eq,
      Matrix.mul_assoc]
  refine ⟨fun J L => ?_, fun J L => ?_, ?_, ?_⟩
  · apply Matrix.ext_of_mulVec_single
    intro i
    obtain ⟨hv, hs⟩ := e2 (Pi.single i 1)
    rw [← hv, ← Matrix.mulVec_mulVec, transformation_congruence.1 _ _ hs,
      transformation_congruence.1 _ _ hs, transformation_congruence.1 _ _ (hc _ _ hs),
      Matrix.transpose_mul]
    simp only [Matrix.mul_assoc]
  · apply Matrix.ext_of_mulVec_single
    intro i
    obtain ⟨hv, hs⟩ := e3 (Pi.single i 1)
    rw [← hv, ← Matrix.mulVec_mulVec, transformation_congruence.2 _ _ hs,
      transformation_congruence.2 _ _ hs, transformation_congruence.2 _ _ (hc _ _ hs),
      Matrix.transpose_mul]
    simp only [Matrix.mul_assoc]
  · apply Matrix.ext_of_mulVec_single
    intro i
    obtain ⟨hv, hs⟩ := e2 (Pi.single i 1)
    rw [← hv, transformation_congruence.1 _ _ hs]
    simp
  · apply Matrix.ext_of_mulVec_single
    intro i
    obtain ⟨hv, hs⟩ := e3 (Pi.single i 1)
    rw [← hv, transformation_congruence.2 _ _ hs]
    simp

/-- C35. The transformation matrix is invertible iff the Jacobian is. -/
theorem transformation_invertible (h2 : (2 : K) ≠ 0) :
    (∀ J : Matrix (Fin 2) (Fin 2) K, IsUnit (transformationMatrix2 J) ↔ IsUnit J) ∧
    (∀ J : Matrix (Fin 3) (Fin 3) K, IsUnit (transformationMatrix3 J) ↔ IsUnit J) := by
  obtain ⟨m2, m3, o2, o3⟩ := transformation_mul h2
  have sing : ∀ {n : Nat} (J : Matrix (Fin n) (Fin n) K), ¬ IsUnit J →
      ∃ v, v ≠ 0 ∧ J *ᵥ v = 0 := by
    intro n J hJ
    apply Matrix.exists_mulVec_eq_zero_iff.2
    by_contra hd
    exact hJ ((Matrix.isUnit_iff_isUnit_det J).2 (isUnit_iff_ne_zero.2 hd))
  have hvv : ∀ {n : Nat} (J : Matrix (Fin n) (Fin n) K) (v : Fin n → K), J *ᵥ v = 0 →
      J * Matrix.vecMulVec v v * Jᵀ = 0 ∧ (Matrix.vecMulVec v v).IsSymm := by
    intro n J v hv
    refine ⟨?_, ?_⟩
    · rw [Matrix.mul_vecMulVec, hv]
      simp
    · ext i j
      simp [Matrix.vecMulVec_apply, mul_comm]
  refine ⟨fun J => ⟨fun h => ?_, fun h => ?_⟩, fun J => ⟨fun h => ?_, fun h => ?_⟩⟩
  · by_contra hJ
    obtain ⟨v, hv0, hv⟩ := sing J hJ
    obtain ⟨h1, hs⟩ := hvv J v hv
    have h3 := transformation_congruence.1 J _ hs
    rw [h1] at h3
    have h0 : toVoigt2 (0 : Matrix (Fin 2) (Fin 2) K) true = 0 := by
      ext i; fin_cases i <;> simp [toVoigt2]
    rw [h0] at h3
    have h4 : toVoigt2 (Matrix.vecMulVec v v) true = 0 :=
      Matrix.mulVec_injective_of_isUnit h (by rw [h3, Matrix.mulVec_zero])
    apply hv0
    have a0 := congrFun h4 0
    have a1 := congrFun h4 1
    simp [toVoigt2, Matrix.vecMulVec_apply] at a0 a1
    ext i; fin_cases i <;> simp [a0, a1]
  · obtain ⟨L, hL⟩ := h.exists_right_inv
    have := m2 J L
    rw [hL, o2] at this
    exact IsUnit.of_mul_eq_one _ this.symm
  · by_contra hJ
    obtain ⟨v, hv0, hv⟩ := sing J hJ
    obtain ⟨h1, hs⟩ := hvv J v hv
    have h3 := transformation_congruence.2 J _ hs
    rw [h1] at h3
    have h0 : toVoigt3 (0 : Matrix (Fin 3) (Fin 3) K) true = 0 := by
      ext i; fin_cases i <;> simp [toVoigt3]
    rw [h0] at h3
    have h4 : toVoigt3 (Matrix.vecMulVec v v) true = 0 :=
      Matrix.mulVec_injective_of_isUnit h (by rw [h3, Matrix.mulVec_zero])
    apply hv0
    have a0 := congrFun h4 0
    have a1 := congrFun h4 1
    have a2 := congrFun h4 2
    simp [toVoigt3, Matrix.vecMulVec_apply] at a0 a1 a2
    ext i; fin_cases i <;> simp [a0, a1, a2]
  · obtain ⟨L, hL⟩ := h.exists_right_inv
    have := m3 J L
    rw [hL, o3] at this
    exact IsUnit.of_mul_eq_one _ this.symm

example : transformationMatrix2 (!![1, 2; 3, 4] : Matrix (Fin 2) (Fin 2) ℚ) *ᵥ
    toVoigt2 (!![1, 2; 2, 5] : Matrix (Fin 2) (Fin 2) ℚ) true = ![29, 137, 126] := by
  decide +kernel

/-! ### Symmetric and skew parts -/

/-- C31. Every matrix is the sum of its symmetric and skew part, which are symmetric and skew
symmetric; the skew matrix of a vector is the cross product. -/
theorem sym_skew (h2 : (2 : K) ≠ 0) {n : Nat} (A : Matrix (Fin n) (Fin n) K) (a b : Fin 3 → K) :
    symPart A + skewPart A = A ∧ (symPart A)ᵀ = symPart A ∧ (skewPart A)ᵀ = -skewPart A ∧
      (A.IsSymm → symPart A = A ∧ skewPart A = 0) ∧
      skewOf a *ᵥ b = ![a 1 * b 2 - a 2 * b 1, a 2 * b 0 - a 0 * b 2, a 0 * b 1 - a 1 * b 0] := by
  refine ⟨?_, ?_, ?_, fun h => ⟨?_, ?_⟩, ?_⟩
  · ext i j; simp [symPart, skewPart]; field_simp; ring
  · ext i j; simp [symPart]; ring
  · ext i j; simp [skewPart]; ring
  · ext i j; have := h.apply j i; simp [symPart, ← this]; field_simp; ring
  · ext i j; have := h.apply j i; simp [skewPart, ← this]
  · ext i; fin_cases i <;> simp [skewOf, Matrix.mulVec, dotProduct, Fin.sum_univ_succ] <;> ring

/-- A matrix that is not symmetric keeps its upper half. -/
example : fromVoigt3 (toVoigt3 (!![1, 2, 3; 4, 5, 6; 7, 8, 9] : Matrix (Fin 3) (Fin 3) ℚ) true) true 2 0 = 3 := by
  rw [fromVoigt_toVoigt_upper (by norm_num)]
  simp

example (t : Tensor4 ℚ 3) : ∃ r, symTwoSlots t 0 1 = some r ∧ symTwoSlots r 0 1 = some r := by
  obtain ⟨r, h, -, -, -, h'⟩ := (symTwoSlots_spec (by norm_num) t 0 1).2 (by decide) (by decide)
  exact ⟨r, h, h'⟩

end Ikarus
