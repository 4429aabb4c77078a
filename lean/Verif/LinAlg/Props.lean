import Verif.LinAlg.IndexLemmas
import Mathlib.Analysis.InnerProductSpace.Basic
import Mathlib.Analysis.InnerProductSpace.PiL2
import Mathlib.LinearAlgebra.LinearIndependent.Basic
import Mathlib.Data.Fin.VecNotation
import Mathlib.Tactic.FieldSimp
import Mathlib.Tactic.Module

/-!
C32 - C34: static condensation, reduced Voigt vectors and column orthonormalisation.
-/

namespace Ikarus

open Matrix

variable {K : Type*} [Field K]

/-! ### Static condensation -/

/-- C32, C34. The functions that remove rows or columns are defined exactly for strictly increasing
index lists: unsorted or repeated indices make `set_difference` write past the end of the array of
the remaining indices. -/
theorem condensation_defined_iff {n k : Nat} (E : Matrix (Fin n) (Fin n) K) (v : Fin n → K)
    (idx : Fin k → Fin n) :
    ((staticCondensation E idx).isSome ↔ StrictMono idx) ∧
    ((reduceMatrix E idx).isSome ↔ StrictMono idx) ∧
    ((removeCol v idx).isSome ↔ StrictMono idx) := by
  unfold staticCondensation reduceMatrix removeCol
  simp only [Option.isSome_map]
  exact ⟨remainingIndices_isSome_iff idx, remainingIndices_isSome_iff idx,
    remainingIndices_isSome_iff idx⟩

example : ¬ StrictMono (![1, 0] : Fin 2 → Fin 3) := by
  intro h
  exact absurd (h (show (0 : Fin 2) < 1 by decide)) (by decide)

/-- Specification: the retained indices in increasing order. -/
def Spec.Retained {n k m : Nat} (idx : Fin k → Fin n) (rem : Fin m → Fin n) : Prop :=
  StrictMono rem ∧ ∀ x, (∃ i, rem i = x) ↔ ∀ j, idx j ≠ x

open Spec

theorem retained_eq {n k : Nat} {idx : Fin k → Fin n} (hidx : StrictMono idx)
    {rem : Fin (n - k) → Fin n} (hr : Retained idx rem) : remainingIndices idx = some rem := by
  obtain ⟨rem', h, hm, hx⟩ := remainingIndices_spec idx hidx
  rw [h, strictMono_unique rem' rem hm hr.1 fun x => by rw [hx, hr.2]]

theorem mulVec_split {n k p : Nat} {idx : Fin k → Fin n} (hidx : StrictMono idx)
    {rem : Fin (n - k) → Fin n} (hr : Retained idx rem) (E : Matrix (Fin n) (Fin n) K)
    (e : Fin n → K) (r : Fin p → Fin n) :
    (fun i => (E *ᵥ e) (r i)) = E.submatrix r rem *ᵥ (fun i => e (rem i))
      + E.submatrix r idx *ᵥ (fun j => e (idx j)) := by
  funext i
  simp only [Matrix.mulVec, dotProduct, Pi.add_apply, Matrix.submatrix_apply]
  exact sum_split idx rem hidx.injective hr.1.injective hr.2 _

/-- C32. Static condensation: for a symmetric matrix and every vector whose image vanishes on the
condensed indices, the condensed matrix maps the retained components of the vector to the retained
components of the image. -/
theorem staticCondensation_spec {n k : Nat} (E : Matrix (Fin n) (Fin n) K) (hE : E.IsSymm)
    (idx : Fin k → Fin n) (hidx : StrictMono idx) (rem : Fin (n - k) → Fin n)
    (hr : Retained idx rem) (hinv : IsUnit (E.submatrix idx idx)) :
    ∃ C, staticCondensation E idx = some C ∧ C.IsSymm ∧
      (∀ e : Fin n → K, (∀ j, (E *ᵥ e) (idx j) = 0) →
        C *ᵥ (fun i => e (rem i)) = fun i => (E *ᵥ e) (rem i)) ∧
      ∀ er : Fin (n - k) → K, ∃ e : Fin n → K, (∀ i, e (rem i) = er i) ∧
        ∀ j, (E *ᵥ e) (idx j) = 0 := by
  have h22 : (E.submatrix idx idx)⁻¹ * E.submatrix idx idx = 1 :=
    Matrix.nonsing_inv_mul _ ((Matrix.isUnit_iff_isUnit_det _).1 hinv)
  have h22' : E.submatrix idx idx * (E.submatrix idx idx)⁻¹ = 1 :=
    Matrix.mul_nonsing_inv _ ((Matrix.isUnit_iff_isUnit_det _).1 hinv)
  have h12 : E.submatrix rem idx = (E.submatrix idx rem)ᵀ := by
    ext i j
    simp only [Matrix.submatrix_apply, Matrix.transpose_apply]
    exact hE.apply _ _
  refine ⟨_, by unfold staticCondensation; rw [retained_eq hidx hr]; rfl, ?_, fun e he => ?_,
    fun er => ?_⟩
  · show (E.submatrix rem rem - (E.submatrix idx rem)ᵀ * (E.submatrix idx idx)⁻¹ *
      E.submatrix idx rem)ᵀ = E.submatrix rem rem - (E.submatrix idx rem)ᵀ *
      (E.submatrix idx idx)⁻¹ * E.submatrix idx rem
    have hs : ∀ {p : Nat} (r : Fin p → Fin n), (E.submatrix r r)ᵀ = E.submatrix r r := by
      intro p r
      ext i j
      exact hE.apply _ _
    rw [Matrix.transpose_sub, Matrix.transpose_mul, Matrix.transpose_mul, Matrix.transpose_transpose,
      Matrix.transpose_nonsing_inv, hs, hs, Matrix.mul_assoc]
  · have h1 := mulVec_split hidx hr E e rem
    have h2 := mulVec_split hidx hr E e idx
    have h3 : (fun i => (E *ᵥ e) (idx i)) = 0 := funext he
    rw [h3] at h2
    have h4 : (fun j => e (idx j)) = -((E.submatrix idx idx)⁻¹ *ᵥ (E.submatrix idx rem *ᵥ
        fun i => e (rem i))) := by
      have := congrArg (fun v => (E.submatrix idx idx)⁻¹ *ᵥ v) h2
      simp only [Matrix.mulVec_zero, Matrix.mulVec_add, Matrix.mulVec_mulVec _ _ (E.submatrix idx idx),
        h22, Matrix.one_mulVec] at this
      exact eq_neg_of_add_eq_zero_right this.symm
    rw [h1, h4, h12, Matrix.sub_mulVec, Matrix.mulVec_neg]
    simp only [Matrix.mulVec_mulVec, Matrix.mul_assoc]
    abel
  · -- the condensed components are determined by the retained ones
    classical
    set ei : Fin k → K := -((E.submatrix idx idx)⁻¹ *ᵥ (E.submatrix idx rem *ᵥ er)) with hei
    let e : Fin n → K := fun x =>
      if h : ∃ i, rem i = x then er h.choose else if h : ∃ j, idx j = x then ei h.choose else 0
    have e1 : ∀ i, e (rem i) = er i := by
      intro i
      have h : ∃ i', rem i' = rem i := ⟨i, rfl⟩
      simp only [e, dif_pos h]
      rw [hr.1.injective h.choose_spec]
    have e2 : ∀ j, e (idx j) = ei j := by
      intro j
      have h0 : ¬ ∃ i, rem i = idx j := fun h => (hr.2 (idx j)).1 h j rfl
      have h : ∃ j', idx j' = idx j := ⟨j, rfl⟩
      simp only [e, dif_neg h0, dif_pos h]
      rw [hidx.injective h.choose_spec]
    refine ⟨e, e1, fun j => ?_⟩
    have h2 := congrFun (mulVec_split hidx hr E e idx) j
    rw [h2]
    have e1' : (fun i => e (rem i)) = er := funext e1
    have e2' : (fun j => e (idx j)) = ei := funext e2
    rw [e1', e2', hei, Matrix.mulVec_neg, Matrix.mulVec_mulVec, h22', Matrix.one_mulVec]
    simp

/-- C32. The energy of the condensed matrix is the energy of the full matrix at such a vector. -/
theorem staticCondensation_energy {n k : Nat} (E : Matrix (Fin n) (Fin n) K) (hE : E.IsSymm)
    (idx : Fin k → Fin n) (hidx : StrictMono idx) (rem : Fin (n - k) → Fin n)
    (hr : Retained idx rem) (hinv : IsUnit (E.submatrix idx idx))
    (C : Matrix (Fin (n - k)) (Fin (n - k)) K) (hC : staticCondensation E idx = some C)
    (e : Fin n → K) (he : ∀ j, (E *ᵥ e) (idx j) = 0) :
    (fun i => e (rem i)) ⬝ᵥ (C *ᵥ fun i => e (rem i)) = e ⬝ᵥ (E *ᵥ e) := by
  obtain ⟨C', hC', -, h, -⟩ := staticCondensation_spec E hE idx hidx rem hr hinv
  rw [hC] at hC'
  obtain rfl : C = C' := by simpa using hC'
  rw [h e he]
  simp only [dotProduct]
  rw [sum_split idx rem hidx.injective hr.1.injective hr.2 (fun x => e x * (E *ᵥ e) x)]
  simp [he]

/-- The statement of C32 without the symmetry of the matrix. -/
def Spec.CondensesAll : Prop :=
  ∀ (n k : Nat) (E : Matrix (Fin n) (Fin n) ℚ) (idx : Fin k → Fin n) (rem : Fin (n - k) → Fin n)
    (C : Matrix (Fin (n - k)) (Fin (n - k)) ℚ) (e : Fin n → ℚ), StrictMono idx → Retained idx rem →
    IsUnit (E.submatrix idx idx) → staticCondensation E idx = some C →
    (∀ j, (E *ᵥ e) (idx j) = 0) → C *ᵥ (fun i => e (rem i)) = fun i => (E *ᵥ e) (rem i)

/-- C32. The symmetry is needed: the code reads `E(indices, remaining)` for both off-diagonal
blocks. -/
theorem staticCondensation_unsymmetric : ¬ CondensesAll := by
  intro h
  have hr : Retained (![1] : Fin 1 → Fin 2) (![0] : Fin 1 → Fin 2) := by
    refine ⟨Subsingleton.strictMono _, ?_⟩
    decide
  have hs : StrictMono (![1] : Fin 1 → Fin 2) := Subsingleton.strictMono _
  have hu : IsUnit ((!![1, 2; 1, 1] : Matrix (Fin 2) (Fin 2) ℚ).submatrix (![1] : Fin 1 → Fin 2)
      ![1]) := by
    rw [Matrix.isUnit_iff_isUnit_det, Matrix.det_fin_one]
    exact isUnit_one
  have hC : staticCondensation (!![1, 2; 1, 1] : Matrix (Fin 2) (Fin 2) ℚ) (![1] : Fin 1 → Fin 2)
      = some 0 := by
    unfold staticCondensation
    rw [retained_eq hs hr]
    simp only [Option.map_some, Option.some.injEq]
    have : ((!![1, 2; 1, 1] : Matrix (Fin 2) (Fin 2) ℚ).submatrix (![1] : Fin 1 → Fin 2)
      ![1]) = 1 := by
      ext i j; fin_cases i; fin_cases j; simp
    rw [this]
    ext i j
    fin_cases i; fin_cases j
    simp [Matrix.sub_apply, Matrix.mul_apply, -Matrix.cons_val', -Matrix.submatrix_cons_row]
  have := h 2 1 !![1, 2; 1, 1] ![1] ![0] 0 ![1, -1] hs hr hu hC (by
    intro j; fin_cases j; simp [Matrix.mulVec, dotProduct, Fin.sum_univ_succ])
  have := congrFun this 0
  simp [Matrix.mulVec, dotProduct, Fin.sum_univ_succ] at this
  norm_num at this

/-- C32. `reduceMatrix` and `removeCol` return the retained rows (and columns) in increasing
order. -/
theorem reduce_remove_spec {n k : Nat} (E : Matrix (Fin n) (Fin n) K) (v : Fin n → K)
    (idx : Fin k → Fin n) (hidx : StrictMono idx) (rem : Fin (n - k) → Fin n)
    (hr : Retained idx rem) :
    reduceMatrix E idx = some (Matrix.of fun i j => E (rem i) (rem j)) ∧
      removeCol v idx = some fun i => v (rem i) := by
  unfold reduceMatrix removeCol
  rw [retained_eq hidx hr]
  exact ⟨rfl, rfl⟩

/-- Plane stress: the retained indices of 3x3 and the condensed ones partition. -/
example : Retained (![2, 3, 4] : Fin 3 → Fin 6) (![0, 1, 5] : Fin 3 → Fin 6) := by
  refine ⟨?_, by decide⟩
  intro i j h
  revert h
  revert i j
  decide

/-! ### Reduced Voigt vectors -/

theorem createFixed_perm {k : Nat} (fixed : Fin k → Fin 3 × Fin 3) :
    (List.ofFn (createFixedVoigtIndices fixed)).Perm
      (List.ofFn fun i => voigt3 (fixed i).1 (fixed i).2) := by
  set l := (List.ofFn fun i => voigt3 (fixed i).1 (fixed i).2).insertionSort (· ≤ ·) with hl
  have : List.ofFn (createFixedVoigtIndices fixed) = l := by
    apply List.ext_getElem
    · simp [hl, List.length_insertionSort]
    · intro i h1 h2
      simp [createFixedVoigtIndices, hl]
  rw [this]
  exact List.perm_insertionSort _ _

theorem createFixed_mono {k : Nat} (fixed : Fin k → Fin 3 × Fin 3) :
    Monotone (createFixedVoigtIndices fixed) := by
  intro i j hij
  have hp : ((List.ofFn fun i => voigt3 (fixed i).1 (fixed i).2).insertionSort (· ≤ ·)).Pairwise
      (· ≤ ·) := List.pairwise_insertionSort _ _
  rcases eq_or_lt_of_le hij with rfl | h
  · exact le_rfl
  · exact List.pairwise_iff_getElem.1 hp _ _ _ _ h

theorem createFixed_mem {k : Nat} (fixed : Fin k → Fin 3 × Fin 3) (x : Fin 6) :
    (∃ j, createFixedVoigtIndices fixed j = x) ↔ ∃ j, voigt3 (fixed j).1 (fixed j).2 = x := by
  have := (createFixed_perm fixed).mem_iff (a := x)
  simpa [List.mem_ofFn] using this

theorem createFixed_strictMono_iff {k : Nat} (fixed : Fin k → Fin 3 × Fin 3) :
    StrictMono (createFixedVoigtIndices fixed) ↔
      Function.Injective fun i => voigt3 (fixed i).1 (fixed i).2 := by
  rw [← List.nodup_ofFn, ← (createFixed_perm fixed).nodup_iff, List.nodup_ofFn]
  exact ⟨fun h => h.injective, fun h => (createFixed_mono fixed).strictMono_of_injective h⟩

/-- C34. The list of free Voigt indices exists iff the fixed pairs have different Voigt indices; then
fixed and free indices are strictly increasing and partition `0..5`, the fixed ones being the Voigt
indices of the given pairs. -/
theorem voigt_index_lists {k : Nat} (fixed : Fin k → Fin 3 × Fin 3) :
    ((createfreeVoigtIndices fixed).isSome ↔
      Function.Injective fun i => voigt3 (fixed i).1 (fixed i).2) ∧
    (∀ x, (∃ j, createFixedVoigtIndices fixed j = x) ↔ ∃ j, voigt3 (fixed j).1 (fixed j).2 = x) ∧
    ∀ free, createfreeVoigtIndices fixed = some free →
      StrictMono (createFixedVoigtIndices fixed) ∧ Retained (createFixedVoigtIndices fixed) free := by
  refine ⟨?_, createFixed_mem fixed, fun free hf => ?_⟩
  · unfold createfreeVoigtIndices
    rw [Option.isSome_map, remainingIndices_isSome_iff, createFixed_strictMono_iff]
  · unfold createfreeVoigtIndices at hf
    obtain ⟨res, hres, hfree⟩ := Option.map_eq_some_iff.1 hf
    have hsm : StrictMono (createFixedVoigtIndices fixed) := by
      rw [← remainingIndices_isSome_iff, hres]
      rfl
    refine ⟨hsm, ?_⟩
    obtain ⟨rem, h1, h2, h3⟩ := remainingIndices_spec _ hsm
    rw [hres] at h1
    obtain rfl : res = rem := by simpa using h1
    have hs : (List.ofFn res).insertionSort (· ≤ ·) = List.ofFn res := by
      apply List.Pairwise.insertionSort_eq
      rw [List.pairwise_ofFn]
      intro i j hij
      exact (h2 hij).le
    have : free = res := by
      rw [← hfree]
      funext i
      simp [hs]
    rw [this]
    exact ⟨h2, h3⟩

theorem enlargeVector_fold {m : Nat} (free : Fin m → Fin 6) (hf : Function.Injective free)
    (E : Fin m → K) (l : List (Fin m)) (p : Fin 6 → K) :
    (∀ r ∈ l, (l.foldl (fun p ri => Function.update p (free ri) (E ri)) p) (free r) = E r) ∧
    (∀ x, (∀ r ∈ l, free r ≠ x) →
      (l.foldl (fun p ri => Function.update p (free ri) (E ri)) p) x = p x) := by
  induction l generalizing p with
  | nil => simp
  | cons a l ih =>
    obtain ⟨h1, h2⟩ := ih (Function.update p (free a) (E a))
    constructor
    · intro r hr
      rw [List.foldl_cons]
      by_cases hrl : r ∈ l
      · exact h1 r hrl
      · have : r = a := by
          rcases List.mem_cons.1 hr with h | h
          · exact h
          · exact absurd h hrl
        subst this
        rw [h2 (free r) fun s hs h => hrl (hf h ▸ hs)]
        simp
    · intro x hx
      rw [List.foldl_cons, h2 x fun r hr => hx r (List.mem_cons_of_mem _ hr),
        Function.update_of_ne (fun h => hx a List.mem_cons_self h.symm)]

/-- C34. Enlarging writes the components at the free indices and zero at the fixed ones; removing the
fixed ones is its inverse; and removing and enlarging sets exactly the fixed components to zero. -/
theorem enlarge_remove {k : Nat} (fixed : Fin k → Fin 3 × Fin 3) (free : Fin (6 - k) → Fin 6)
    (hfree : createfreeVoigtIndices fixed = some free) (v : Fin (6 - k) → K) (w : Fin 6 → K) :
    (∀ r, enlargeVector free v (free r) = v r) ∧
    (∀ j, enlargeVector free v (voigt3 (fixed j).1 (fixed j).2) = 0) ∧
    removeCol (enlargeVector free v) (createFixedVoigtIndices fixed) = some v ∧
    ∃ u, removeCol w (createFixedVoigtIndices fixed) = some u ∧
      (∀ r, enlargeVector free u (free r) = w (free r)) ∧
      ∀ j, enlargeVector free u (voigt3 (fixed j).1 (fixed j).2) = 0 := by
  obtain ⟨hsm, hret⟩ := (voigt_index_lists fixed).2.2 free hfree
  have h1 : ∀ (u : Fin (6 - k) → K) r, enlargeVector free u (free r) = u r := fun u r =>
    (enlargeVector_fold free hret.1.injective u _ 0).1 r (List.mem_finRange r)
  have h2 : ∀ (u : Fin (6 - k) → K) j, enlargeVector free u (voigt3 (fixed j).1 (fixed j).2) = 0 := by
    intro u j
    have := (enlargeVector_fold free hret.1.injective u (List.finRange _) 0).2
      (voigt3 (fixed j).1 (fixed j).2) (by
        intro r _ h
        obtain ⟨i, hi⟩ := (createFixed_mem fixed _).2 ⟨j, rfl⟩
        exact (hret.2 _).1 ⟨r, h⟩ i hi)
    simpa [enlargeVector] using this
  refine ⟨h1 v, h2 v, ?_, fun i => w (free i), ?_, fun r => h1 _ r, fun j => h2 _ j⟩
  · unfold removeCol
    rw [retained_eq hsm hret]
    simp only [Option.map_some, Option.some.injEq]
    funext i
    exact h1 v i
  · unfold removeCol
    rw [retained_eq hsm hret]
    rfl

theorem enlargeMatrix_row {m : Nat} (free : Fin m → Fin 6) (hf : Function.Injective free)
    (row : Fin m → K) (ri : Fin m) (l : List (Fin m)) (p : Matrix (Fin 6) (Fin 6) K) :
    (∀ rj ∈ l, (l.foldl (fun p rj => p.updateRow (free ri)
      (Function.update (p (free ri)) (free rj) (row rj))) p) (free ri) (free rj) = row rj) ∧
    (∀ x, (∀ rj ∈ l, free rj ≠ x) → (l.foldl (fun p rj => p.updateRow (free ri)
      (Function.update (p (free ri)) (free rj) (row rj))) p) (free ri) x = p (free ri) x) ∧
    (∀ y x, y ≠ free ri → (l.foldl (fun p rj => p.updateRow (free ri)
      (Function.update (p (free ri)) (free rj) (row rj))) p) y x = p y x) := by
  induction l generalizing p with
  | nil => simp
  | cons a l ih =>
    obtain ⟨h1, h2, h3⟩ := ih (p.updateRow (free ri)
      (Function.update (p (free ri)) (free a) (row a)))
    refine ⟨fun r hr => ?_, fun x hx => ?_, fun y x hy => ?_⟩
    · rw [List.foldl_cons]
      by_cases hrl : r ∈ l
      · exact h1 r hrl
      · have : r = a := by
          rcases List.mem_cons.1 hr with h | h
          · exact h
          · exact absurd h hrl
        subst this
        rw [h2 (free r) fun s hs h => hrl (hf h ▸ hs)]
        simp
    · rw [List.foldl_cons, h2 x fun r hr => hx r (List.mem_cons_of_mem _ hr)]
      simp only [Matrix.updateRow_self]
      exact Function.update_of_ne (fun h => hx a List.mem_cons_self h.symm) _ _
    · rw [List.foldl_cons, h3 y x hy, Matrix.updateRow_ne hy]

theorem enlargeMatrix_fold {m : Nat} (free : Fin m → Fin 6) (hf : Function.Injective free)
    (E : Matrix (Fin m) (Fin m) K) (l : List (Fin m)) (p : Matrix (Fin 6) (Fin 6) K) :
    (∀ ri ∈ l, ∀ rj, (l.foldl (fun p ri => (List.finRange m).foldl (fun p rj => p.updateRow (free ri)
      (Function.update (p (free ri)) (free rj) (E ri rj))) p) p) (free ri) (free rj) = E ri rj) ∧
    (∀ y x, ((∀ ri ∈ l, free ri ≠ y) ∨ ∀ rj, free rj ≠ x) →
      (l.foldl (fun p ri => (List.finRange m).foldl (fun p rj => p.updateRow (free ri)
      (Function.update (p (free ri)) (free rj) (E ri rj))) p) p) y x = p y x) := by
  induction l generalizing p with
  | nil => simp
  | cons a l ih =>
    rw [List.foldl_cons]
    obtain ⟨r1, r2, r3⟩ := enlargeMatrix_row free hf (E a) a (List.finRange m) p
    obtain ⟨h1, h2⟩ := ih ((List.finRange m).foldl (fun p rj => p.updateRow (free a)
      (Function.update (p (free a)) (free rj) (E a rj))) p)
    constructor
    · intro r hr rj
      by_cases hrl : r ∈ l
      · exact h1 r hrl rj
      · have : r = a := by
          rcases List.mem_cons.1 hr with h | h
          · exact h
          · exact absurd h hrl
        subst this
        rw [h2 _ _ (Or.inl fun s hs h => hrl ((hf h : s = r) ▸ hs))]
        exact r1 rj (List.mem_finRange rj)
    · intro y x hyx
      rw [h2 y x (hyx.imp_left fun h r hr => h r (List.mem_cons_of_mem _ hr))]
      by_cases hy : y = free a
      · subst hy
        rcases hyx with h | h
        · exact absurd rfl (h a List.mem_cons_self)
        · exact r2 x fun rj _ => h rj
      · exact r3 y x hy

/-- C34. The enlarged matrix has the given entries at the free indices and zeros in the fixed rows and
columns; removing these gives the matrix back. -/
theorem enlargeMatrix_spec {k : Nat} (fixed : Fin k → Fin 3 × Fin 3) (free : Fin (6 - k) → Fin 6)
    (hfree : createfreeVoigtIndices fixed = some free) (E : Matrix (Fin (6 - k)) (Fin (6 - k)) K) :
    (∀ r s, enlargeMatrix free E (free r) (free s) = E r s) ∧
    (∀ j x, enlargeMatrix free E (voigt3 (fixed j).1 (fixed j).2) x = 0 ∧
      enlargeMatrix free E x (voigt3 (fixed j).1 (fixed j).2) = 0) ∧
    reduceMatrix (enlargeMatrix free E) (createFixedVoigtIndices fixed) = some E := by
  obtain ⟨hsm, hret⟩ := (voigt_index_lists fixed).2.2 free hfree
  obtain ⟨h1, h2⟩ := enlargeMatrix_fold free hret.1.injective E (List.finRange _) 0
  have hne : ∀ j r, free r ≠ voigt3 (fixed j).1 (fixed j).2 := by
    intro j r h
    obtain ⟨i, hi⟩ := (createFixed_mem fixed _).2 ⟨j, rfl⟩
    exact (hret.2 _).1 ⟨r, h⟩ i hi
  refine ⟨fun r s => h1 r (List.mem_finRange r) s, fun j x =>
    ⟨h2 _ _ (Or.inl fun r _ => hne j r), h2 _ _ (Or.inr fun r => hne j r)⟩, ?_⟩
  unfold reduceMatrix
  rw [retained_eq hsm hret]
  simp only [Option.map_some, Option.some.injEq]
  ext r s
  exact h1 r (List.mem_finRange r) s

/-- C34. `countDiagonalIndices` counts the fixed pairs on the diagonal. -/
theorem countDiagonalIndices_spec {k : Nat} (fixed : Fin k → Fin 3 × Fin 3) :
    countDiagonalIndices fixed = (Finset.univ.filter fun i => (fixed i).1 = (fixed i).2).card := by
  have key : ∀ (l : List (Fin 3 × Fin 3)) c,
      l.foldl (fun count v => if v.2 = v.1 then count + 1 else count) c
        = c + l.countP (fun v => decide (v.1 = v.2)) := by
    intro l
    induction l with
    | nil => simp
    | cons a l ih =>
      intro c
      rw [List.foldl_cons, ih, List.countP_cons]
      by_cases h : a.2 = a.1
      · simp [h]; omega
      · have h' : ¬ a.1 = a.2 := fun e => h e.symm
        simp [h, h']
  unfold countDiagonalIndices
  rw [key, zero_add, List.ofFn_eq_map, List.countP_map, List.countP_eq_length_filter,
    ← List.toFinset_card_of_nodup ((List.nodup_finRange k).filter _)]
  congr 1
  ext i
  simp

/-- C34. Converting a tensor to a reduced Voigt vector and enlarging it again gives the Voigt vector
with the fixed components set to zero. -/
theorem toVoigtAndReduce_enlarge {k : Nat} (fixed : Fin k → Fin 3 × Fin 3)
    (free : Fin (6 - k) → Fin 6) (hfree : createfreeVoigtIndices fixed = some free)
    (E : Matrix (Fin 3) (Fin 3) K) (s : Bool) :
    ∃ u, toVoigtAndReduce E fixed s = some u ∧
      ∀ x, enlargeVector free u x =
        if ∃ j, voigt3 (fixed j).1 (fixed j).2 = x then 0 else toVoigt3 E s x := by
  obtain ⟨-, -, -, u, hu, h1, h2⟩ := enlarge_remove fixed free hfree (fun _ => (0 : K)) (toVoigt3 E s)
  refine ⟨u, hu, fun x => ?_⟩
  obtain ⟨-, hret⟩ := (voigt_index_lists fixed).2.2 free hfree
  by_cases hx : ∃ j, voigt3 (fixed j).1 (fixed j).2 = x
  · rw [if_pos hx]
    obtain ⟨j, rfl⟩ := hx
    exact h2 j
  · rw [if_neg hx]
    obtain ⟨r, rfl⟩ := (hret.2 x).2 fun j hj => hx ((createFixed_mem fixed x).1 ⟨j, hj⟩)
    exact h1 r

/-- Plane stress as in ikarus/finiteelements/mechanics/materials/vanishingstress.hh. -/
example : createFixedVoigtIndices ![(2, 1), (2, 0), (2, 2)] = ![2, 3, 4] ∧
    createfreeVoigtIndices ![(2, 1), (2, 0), (2, 2)] = some ![0, 1, 5] := by
  decide +kernel

/-- The pairs `(1, 2)` and `(2, 1)` are the same Voigt index. -/
example : createfreeVoigtIndices ![(2, 1), (1, 2)] = none := by decide +kernel

/-! ### Column orthonormalisation -/

section
variable {V : Type*} [NormedAddCommGroup V] [InnerProductSpace ℝ V]

open Submodule

/-- Specification: pairwise orthogonal vectors of norm one or zero. -/
def Spec.Ortho (Q : List V) : Prop :=
  Q.Pairwise (fun q r => inner ℝ q r = (0 : ℝ)) ∧ ∀ q ∈ Q, q = 0 ∨ ‖q‖ = 1

theorem eigenNormalize_cases (v : V) : (v = 0 ∧ eigenNormalize v = 0) ∨
    (v ≠ 0 ∧ ‖eigenNormalize v‖ = 1 ∧ eigenNormalize v = ‖v‖⁻¹ • v) := by
  by_cases h : v = 0
  · left
    subst h
    simp [eigenNormalize]
  · right
    have hn : ‖v‖ ≠ 0 := norm_ne_zero_iff.2 h
    have h1 : eigenNormalize v = ‖v‖⁻¹ • v := by
      unfold eigenNormalize
      rw [if_pos (by positivity), Real.sqrt_sq (norm_nonneg v)]
    refine ⟨h, ?_, h1⟩
    rw [h1, norm_smul, norm_inv, norm_norm, inv_mul_cancel₀ hn]

theorem inner_proj (Q : List V) (hQ : Ortho Q) (a q : V) (hq : q ∈ Q) :
    inner ℝ q ((Q.map fun r => (inner ℝ r a : ℝ) • r).sum) = (inner ℝ q a : ℝ) := by
  obtain ⟨hp, hn⟩ := hQ
  induction Q with
  | nil => exact absurd hq (by simp)
  | cons b Q ih =>
    obtain ⟨hb, hp'⟩ := List.pairwise_cons.1 hp
    have hn' : ∀ q ∈ Q, q = 0 ∨ ‖q‖ = 1 := fun q hq => hn q (List.mem_cons_of_mem _ hq)
    rw [List.map_cons, List.sum_cons, inner_add_right, inner_smul_right]
    have zero : ∀ (R : List V) (x : V), (∀ r ∈ R, inner ℝ x r = (0 : ℝ)) →
        inner ℝ x ((R.map fun r => (inner ℝ r a : ℝ) • r).sum) = (0 : ℝ) := by
      intro R x
      induction R with
      | nil => simp
      | cons r R ih =>
        intro h
        rw [List.map_cons, List.sum_cons, inner_add_right, inner_smul_right, h r List.mem_cons_self,
          ih fun r hr => h r (List.mem_cons_of_mem _ hr)]
        simp
    rcases List.mem_cons.1 hq with rfl | hq
    · rw [zero Q q hb]
      rcases hn q List.mem_cons_self with h | h
      · simp [h]
      · rw [real_inner_self_eq_norm_sq, h]; ring
    · rw [ih hq hp' hn', real_inner_comm b q, hb q hq]
      ring

theorem proj_mem (Q : List V) (a : V) :
    (Q.map fun r => (inner ℝ r a : ℝ) • r).sum ∈ span ℝ {q | q ∈ Q} := by
  apply list_sum_mem
  intro x hx
  obtain ⟨r, hr, rfl⟩ := List.mem_map.1 hx
  exact smul_mem _ _ (subset_span hr)

theorem span_append (Q : List V) (q : V) :
    span ℝ {x | x ∈ Q ++ [q]} = span ℝ {x | x ∈ Q} ⊔ span ℝ {q} := by
  rw [← span_union]
  congr 1
  ext x
  simp [or_comm]

theorem span_orthonormalizeColumn (Q : List V) (a : V) :
    span ℝ {x | x ∈ Q} ⊔ span ℝ {orthonormalizeColumn Q a} = span ℝ {x | x ∈ Q} ⊔ span ℝ {a} := by
  set w := a - (Q.map fun r => (inner ℝ r a : ℝ) • r).sum with hw
  have hm := proj_mem Q a
  have h1 : span ℝ {orthonormalizeColumn Q a} = span ℝ {w} := by
    show span ℝ {eigenNormalize w} = _
    rcases eigenNormalize_cases w with ⟨h0, h⟩ | ⟨h0, -, h⟩
    · rw [h, h0]
    · rw [h]
      exact span_singleton_smul_eq (isUnit_iff_ne_zero.2 (inv_ne_zero (norm_ne_zero_iff.2 h0))) w
  rw [h1]
  apply le_antisymm
  · refine sup_le le_sup_left ?_
    rw [span_singleton_le_iff_mem]
    exact sub_mem (mem_sup_right (mem_span_singleton_self a)) (mem_sup_left hm)
  · refine sup_le le_sup_left ?_
    rw [span_singleton_le_iff_mem]
    have : a = w + (Q.map fun r => (inner ℝ r a : ℝ) • r).sum := by rw [hw]; abel
    rw [this]
    exact add_mem (mem_sup_right (mem_span_singleton_self w)) (mem_sup_left hm)

theorem ortho_append (Q : List V) (hQ : Ortho Q) (a : V) :
    Ortho (Q ++ [orthonormalizeColumn Q a]) := by
  set w := a - (Q.map fun r => (inner ℝ r a : ℝ) • r).sum with hw
  have ho : ∀ q ∈ Q, inner ℝ q w = (0 : ℝ) := by
    intro q hq
    rw [hw, inner_sub_right, inner_proj Q hQ a q hq, sub_self]
  have hc := eigenNormalize_cases w
  constructor
  · rw [List.pairwise_append]
    refine ⟨hQ.1, List.pairwise_singleton _ _, ?_⟩
    intro q hq r hr
    rw [List.mem_singleton.1 hr]
    show inner ℝ q (eigenNormalize w) = (0 : ℝ)
    rcases hc with ⟨-, h⟩ | ⟨-, -, h⟩
    · rw [h, inner_zero_right]
    · rw [h, inner_smul_right, ho q hq, mul_zero]
  · intro q hq
    rcases List.mem_append.1 hq with h | h
    · exact hQ.2 q h
    · rw [List.mem_singleton.1 h]
      rcases hc with ⟨-, h⟩ | ⟨-, h, -⟩
      · exact Or.inl h
      · exact Or.inr h

/-- A column becomes zero iff it lies in the span of the columns before. -/
theorem orthonormalizeColumn_zero (Q : List V) (a : V) (hQ : Ortho Q) :
    orthonormalizeColumn Q a = 0 ↔ a ∈ span ℝ {x | x ∈ Q} := by
  set w := a - (Q.map fun r => (inner ℝ r a : ℝ) • r).sum with hw
  have h0 : orthonormalizeColumn Q a = 0 ↔ w = 0 := by
    show eigenNormalize w = 0 ↔ _
    rcases eigenNormalize_cases w with ⟨h, h'⟩ | ⟨h, h', -⟩
    · exact ⟨fun _ => h, fun _ => h'⟩
    · refine ⟨fun e => ?_, fun e => absurd e h⟩
      rw [e, norm_zero] at h'
      exact absurd h' (by norm_num)
  rw [h0]
  constructor
  · intro h
    rw [sub_eq_zero.1 h]
    exact proj_mem Q a
  · intro h
    have ho : ∀ q ∈ Q, inner ℝ q w = (0 : ℝ) := by
      intro q hq
      rw [hw, inner_sub_right, inner_proj Q hQ a q hq, sub_self]
    have hwm : w ∈ span ℝ {x | x ∈ Q} := sub_mem h (proj_mem Q a)
    have : inner ℝ w w = (0 : ℝ) := by
      have : ∀ y ∈ span ℝ {x | x ∈ Q}, inner ℝ y w = (0 : ℝ) := by
        intro y hy
        induction hy using span_induction with
        | mem x hx => exact ho x hx
        | zero => exact inner_zero_left _
        | add x y _ _ hx hy => rw [inner_add_left, hx, hy, add_zero]
        | smul c x _ hx => rw [inner_smul_left, hx, mul_zero]
      exact this w hwm
    exact inner_self_eq_zero.1 this

/-- The invariant of the loop over the columns. -/
def Spec.OrthoInvariant (B Q : List V) : Prop :=
  Q.length = B.length ∧ Ortho Q ∧
    (∀ k ≤ B.length, span ℝ {x | x ∈ Q.take k} = span ℝ {x | x ∈ B.take k}) ∧
    ∀ k q b, Q[k]? = some q → B[k]? = some b → (q = 0 ↔ b ∈ span ℝ {x | x ∈ B.take k})

theorem orthoInvariant_append (B Q : List V) (a : V) (h : OrthoInvariant B Q) :
    OrthoInvariant (B ++ [a]) (Q ++ [orthonormalizeColumn Q a]) := by
  obtain ⟨hl, hQ, hs, hz⟩ := h
  have hsQ : span ℝ {x | x ∈ Q} = span ℝ {x | x ∈ B} := by
    have := hs B.length le_rfl
    rwa [List.take_length, ← hl, List.take_length] at this
  refine ⟨by simp [hl], ortho_append Q hQ a, ?_, ?_⟩
  · intro k hk
    rw [List.length_append, List.length_singleton] at hk
    rcases Nat.lt_or_ge B.length k with h | h
    · have : k = B.length + 1 := by omega
      subst this
      rw [List.take_of_length_le (by simp [hl]), List.take_of_length_le (by simp), span_append,
        span_append, span_orthonormalizeColumn, hsQ]
    · rw [List.take_append_of_le_length (by omega), List.take_append_of_le_length h]
      exact hs k h
  · intro k q b hq hb
    rcases Nat.lt_or_ge k B.length with h | h
    · rw [List.getElem?_append_left (by omega)] at hq
      rw [List.getElem?_append_left h] at hb
      rw [List.take_append_of_le_length h.le]
      exact hz k q b hq hb
    · have hk : k = B.length := by
        have := (List.getElem?_eq_some_iff.1 hb).1
        rw [List.length_append, List.length_singleton] at this
        omega
      subst hk
      have e1 : orthonormalizeColumn Q a = q := by simpa [← hl] using hq
      have e2 : a = b := by simpa using hb
      rw [List.take_append_of_le_length le_rfl, List.take_length, ← e1, ← e2,
        orthonormalizeColumn_zero Q a hQ, hsQ]

theorem orth_fold (A B Q : List V) (h : OrthoInvariant B Q) :
    OrthoInvariant (B ++ A) (A.foldl (fun Q a => Q ++ [orthonormalizeColumn Q a]) Q) := by
  induction A generalizing B Q with
  | nil => simpa using h
  | cons a A ih =>
    have := ih (B ++ [a]) _ (orthoInvariant_append B Q a h)
    rwa [List.append_assoc] at this

/-- C33. For every matrix with at least one column the result has pairwise orthogonal columns of norm
one or zero, each set of leading columns spans the same space as the same columns of the input, and a
column is zero iff the input column depends on the columns before it. -/
theorem orthonormalize_spec (A : List V) (hA : A ≠ []) :
    ∃ (Q : List V) (hl : Q.length = A.length), orthonormalizeMatrixColumns A = some Q ∧
      (∀ i j (hi : i < Q.length) (hj : j < Q.length), i ≠ j → inner ℝ Q[i] Q[j] = (0 : ℝ)) ∧
      (∀ i (hi : i < Q.length), Q[i] = 0 ∨ ‖Q[i]‖ = 1) ∧
      (∀ k ≤ A.length, span ℝ {x | x ∈ Q.take k} = span ℝ {x | x ∈ A.take k}) ∧
      ∀ k (h : k < A.length), Q[k] = 0 ↔ A[k] ∈ span ℝ {x | x ∈ A.take k} := by
  obtain ⟨hl, ho, hs, hz⟩ := orth_fold A [] [] ⟨rfl, ⟨List.Pairwise.nil, by simp⟩, by simp, by simp⟩
  rw [List.nil_append] at hl hs hz
  refine ⟨_, hl, ?_, ?_, fun i hi => ho.2 _ (List.getElem_mem hi), hs, fun k h =>
    hz k _ _ (List.getElem?_eq_getElem (by omega)) (List.getElem?_eq_getElem h)⟩
  · cases A with
    | nil => exact absurd rfl hA
    | cons a A => rfl
  · intro i j hi hj hij
    have := List.pairwise_iff_getElem.1 ho.1
    rcases Nat.lt_or_gt_of_ne hij with h | h
    · exact this i j hi hj h
    · rw [real_inner_comm]
      exact this j i hj hi h

/-- C33. Linearly independent columns become orthonormal columns spanning the same space. -/
theorem orthonormalize_independent (A : List V) (hA : A ≠ [])
    (hi : LinearIndependent ℝ (fun i : Fin A.length => A.get i)) :
    ∃ (Q : List V), orthonormalizeMatrixColumns A = some Q ∧ Q.length = A.length ∧
      Orthonormal ℝ (fun i : Fin Q.length => Q.get i) ∧
      span ℝ {x | x ∈ Q} = span ℝ {x | x ∈ A} := by
  obtain ⟨Q, hl, hQ, ho, hn, hs, hz⟩ := orthonormalize_spec A hA
  refine ⟨Q, hQ, hl, ⟨fun i => ?_, fun i j hij => ?_⟩, ?_⟩
  · rcases hn i i.2 with h | h
    · exfalso
      have hk : (i : Nat) < A.length := hl ▸ i.2
      have hm := (hz i hk).1 h
      have hnm := hi.notMem_span_image (s := {j | j.val < i.val}) (x := ⟨i, hk⟩) (by simp)
      apply hnm
      have hset : (fun i => A.get i) '' {j | j.val < i.val} = {x | x ∈ A.take i} := ?_
      · rw [hset]
        exact hm
      ext x
      simp only [Set.mem_image, Set.mem_setOf_eq, List.get_eq_getElem, List.mem_take_iff_getElem]
      constructor
      · rintro ⟨j, hj, rfl⟩
        exact ⟨j, by omega, rfl⟩
      · rintro ⟨j, hj, rfl⟩
        exact ⟨⟨j, by omega⟩, by simpa using (by omega : j < i.val), rfl⟩
    · exact h
  · exact ho i j i.2 j.2 fun h => hij (Fin.ext h)
  · have := hs A.length le_rfl
    rwa [List.take_length, ← hl, List.take_length] at this

/-- The identity matrix of size 2 satisfies the hypotheses. -/
example : LinearIndependent ℝ (fun i : Fin ([EuclideanSpace.single 0 1, EuclideanSpace.single 1 1] :
    List (EuclideanSpace ℝ (Fin 2))).length => ([EuclideanSpace.single 0 1,
      EuclideanSpace.single 1 1] : List (EuclideanSpace ℝ (Fin 2))).get i) := by
  apply Orthonormal.linearIndependent
  constructor
  · intro i
    match i with
    | ⟨0, _⟩ => simp
    | ⟨1, _⟩ => simp
  · intro i j hij
    match i, j with
    | ⟨0, _⟩, ⟨0, _⟩ => exact absurd rfl hij
    | ⟨1, _⟩, ⟨1, _⟩ => exact absurd rfl hij
    | ⟨0, _⟩, ⟨1, _⟩ => simp [PiLp.inner_apply]
    | ⟨1, _⟩, ⟨0, _⟩ => simp [PiLp.inner_apply]

/-- Condensing the last degree of freedom of a chain of three. -/
example : ∃ C : Matrix (Fin (3 - 1)) (Fin (3 - 1)) ℚ,
    staticCondensation (!![2, -1, 0; -1, 2, -1; 0, -1, 1] : Matrix (Fin 3) (Fin 3) ℚ) (![2] : Fin 1 → Fin 3) = some C ∧
      C.IsSymm ∧ ![1, 2] ⬝ᵥ (C *ᵥ ![1, 2]) = 2 := by
  have hs : (!![2, -1, 0; -1, 2, -1; 0, -1, 1] : Matrix (Fin 3) (Fin 3) ℚ).IsSymm := by
    ext i j; fin_cases i <;> fin_cases j <;> rfl
  have hm : StrictMono (![2] : Fin 1 → Fin 3) := Subsingleton.strictMono _
  have hr : Retained (![2] : Fin 1 → Fin 3) (![0, 1] : Fin 2 → Fin 3) := by
    refine ⟨by decide, by decide⟩
  have hu : IsUnit ((!![2, -1, 0; -1, 2, -1; 0, -1, 1] : Matrix (Fin 3) (Fin 3) ℚ).submatrix (![2] : Fin 1 → Fin 3) ![2]) := by
    rw [Matrix.isUnit_iff_isUnit_det, Matrix.det_fin_one]
    simp
  obtain ⟨C, hC, hCs, -, -⟩ := staticCondensation_spec _ hs _ hm (![0, 1] : Fin (3 - 1) → Fin 3) hr hu
  refine ⟨C, hC, hCs, ?_⟩
  have he := staticCondensation_energy _ hs _ hm (![0, 1] : Fin (3 - 1) → Fin 3) hr hu C hC ![1, 2, 2] (by
    intro j; fin_cases j
    simp [Matrix.mulVec, dotProduct, Fin.sum_univ_three])
  have h2 : (fun i => (![1, 2, 2] : Fin 3 → ℚ) ((![0, 1] : Fin (3 - 1) → Fin 3) i)) = ![1, 2] := by
    ext i; fin_cases i <;> rfl
  rw [h2] at he
  rw [he]
  simp [Matrix.mulVec, dotProduct, Fin.sum_univ_three]
  norm_num

/-- The free entries of plane stress. -/
example : ∃ free, createfreeVoigtIndices ![(2, 1), (2, 0), (2, 2)] = some free ∧
    (∀ r, enlargeVector free (![1, 2, 3] : Fin (6 - 3) → ℚ) (free r) = ![1, 2, 3] r) ∧
    (enlargeMatrix free (1 : Matrix (Fin (6 - 3)) (Fin (6 - 3)) ℚ) 2 5 = 0) := by
  have h : createfreeVoigtIndices ![(2, 1), (2, 0), (2, 2)] = some ![0, 1, 5] := by decide +kernel
  exact ⟨_, h, (enlarge_remove _ _ h ![1, 2, 3] 0).1, ((enlargeMatrix_spec _ _ h 1).2.1 2 5).1⟩

/-- Two parallel columns: the second one vanishes. -/
example : ∃ Q : List ℝ, ∃ hl : Q.length = 2, orthonormalizeMatrixColumns [(3 : ℝ), 5] = some Q ∧ Q[1] = 0 := by
  obtain ⟨Q, hl, h, -, -, -, hz⟩ := orthonormalize_spec [(3 : ℝ), 5] (by simp)
  refine ⟨Q, hl, h, (hz 1 (by decide)).2 ?_⟩
  rw [show {x : ℝ | x ∈ List.take 1 [(3 : ℝ), 5]} = {3} by ext; simp]
  exact Submodule.mem_span_singleton.2 ⟨5 / 3, by norm_num⟩

end

end Ikarus
