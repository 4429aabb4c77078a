import Verif.Solver.EigenModel
import Mathlib.Analysis.Matrix.PosDef
import Mathlib.Data.Fin.Tuple.Sort
import Mathlib.LinearAlgebra.Matrix.Determinant.Basic
import Mathlib.LinearAlgebra.Matrix.NonsingularInverse
import Mathlib.Analysis.Real.Sqrt
import Mathlib.Tactic.Ring
import Mathlib.Tactic.Linarith
import Mathlib.Tactic.LinearCombination
import Mathlib.Tactic.FinCases

/-!
C58, C75: the solvers of the generalised symmetric eigenvalue problem.
-/

namespace Ikarus.Eigensolver

open Matrix

namespace Spec

/-- The eigenvalues of the pencil `A - μ B`, ascending and with their multiplicities: there are as many eigenvectors as rows,
orthonormal with respect to `B`. -/
def Spectrum {n : Nat} (A B : Matrix (Fin n) (Fin n) ℝ) (lam : Fin n → ℝ) : Prop :=
  Monotone lam ∧ ∃ V : Fin n → Fin n → ℝ,
    (∀ i j, V i ⬝ᵥ B *ᵥ V j = if i = j then 1 else 0) ∧ ∀ i, A *ᵥ V i = lam i • B *ᵥ V i

/-- Eigenpairs of the pencil, orthonormal with respect to `B`. -/
def Eigenpairs {n k : Nat} (A B : Matrix (Fin n) (Fin n) ℝ) (values : Fin k → ℝ) (vectors : Fin k → Fin n → ℝ) : Prop :=
  (∀ i j, vectors i ⬝ᵥ B *ᵥ vectors j = if i = j then 1 else 0) ∧ ∀ i, A *ᵥ vectors i = values i • B *ᵥ vectors i

/-- What Spectra promises for the smallest eigenvalues, ascending. -/
def Smallest {p q : Nat} (A B : Matrix (Fin (p + q)) (Fin (p + q)) ℝ) (lam : Fin (p + q) → ℝ) (s : Sub (p + q) p) : Prop :=
  (∀ i, s.values i = lam (Fin.castAdd q i)) ∧ Eigenpairs A B s.values s.vectors

/-- What Spectra promises for the greatest eigenvalues, ascending. -/
def Greatest {p q : Nat} (A B : Matrix (Fin (p + q)) (Fin (p + q)) ℝ) (lam : Fin (p + q) → ℝ) (s : Sub (p + q) q) : Prop :=
  (∀ i, s.values i = lam (Fin.natAdd p i)) ∧ Eigenpairs A B s.values s.vectors

end Spec

/-! ### The spectrum -/

theorem gram_entry {n : Nat} (V : Fin n → Fin n → ℝ) (B : Matrix (Fin n) (Fin n) ℝ) (i j : Fin n) :
    (Matrix.of V * B * (Matrix.of V)ᵀ) i j = V i ⬝ᵥ B *ᵥ V j := by
  rw [Matrix.mul_assoc, Matrix.mul_apply]
  refine Finset.sum_congr rfl fun k _ => ?_
  rw [Matrix.mul_apply]
  rfl

/-- The characteristic polynomial of the pencil from orthonormal eigenpairs. -/
theorem spectrum_det {n : Nat} {A B : Matrix (Fin n) (Fin n) ℝ} {lam : Fin n → ℝ} {V : Fin n → Fin n → ℝ}
    (h : Spec.Eigenpairs A B lam V) (mu : ℝ) : (A - mu • B).det = B.det * ∏ i, (lam i - mu) := by
  set W := Matrix.of V
  have hB : W * B * Wᵀ = 1 := by
    ext i j
    rw [gram_entry, h.1, Matrix.one_apply]
  have hA : W * (A - mu • B) * Wᵀ = diagonal fun i => lam i - mu := by
    ext i j
    rw [gram_entry, Matrix.sub_mulVec, Matrix.smul_mulVec, h.2 j, ← sub_smul, dotProduct_smul, h.1, diagonal_apply]
    by_cases hij : i = j
    · subst hij; simp
    · simp [hij]
  have h1 := congrArg Matrix.det hB
  have h2 := congrArg Matrix.det hA
  rw [det_mul, det_mul, det_transpose, det_one] at h1
  rw [det_mul, det_mul, det_transpose, det_diagonal] at h2
  rw [← h2]
  linear_combination (-(A - mu • B).det) * h1

/-- A positive definite matrix is a square. -/
theorem posDef_square {n : Nat} {B : Matrix (Fin n) (Fin n) ℝ} (hB : B.PosDef) :
    ∃ S : Matrix (Fin n) (Fin n) ℝ, IsUnit S.det ∧ B = Sᵀ * S := by
  have hs := hB.1.spectral_theorem
  set U : Matrix (Fin n) (Fin n) ℝ := (hB.1.eigenvectorUnitary : Matrix (Fin n) (Fin n) ℝ)
  have hU : U * star U = 1 := Unitary.coe_mul_star_self hB.1.eigenvectorUnitary
  have hst : star U = Uᵀ := by
    rw [Matrix.star_eq_conjTranspose]; ext i j; simp
  refine ⟨diagonal (fun i => Real.sqrt (hB.1.eigenvalues i)) * Uᵀ, ?_, ?_⟩
  · rw [det_mul, det_diagonal]
    refine IsUnit.mul ?_ ?_
    · exact isUnit_iff_ne_zero.2 (Finset.prod_ne_zero_iff.2 fun i _ => (Real.sqrt_pos.2 (hB.eigenvalues_pos i)).ne')
    · rw [det_transpose]
      have := congrArg Matrix.det hU
      rw [det_mul, hst, det_transpose, det_one] at this
      exact IsUnit.of_mul_eq_one _ this
  · rw [transpose_mul, transpose_transpose, diagonal_transpose, Matrix.mul_assoc, ← Matrix.mul_assoc (diagonal _) (diagonal _),
      diagonal_mul_diagonal]
    have : (fun i => Real.sqrt (hB.1.eigenvalues i) * Real.sqrt (hB.1.eigenvalues i)) = hB.1.eigenvalues := by
      funext i; exact Real.mul_self_sqrt (hB.eigenvalues_pos i).le
    rw [this, ← Matrix.mul_assoc, ← hst]
    conv_lhs => rw [hs]
    rw [Unitary.conjStarAlgAut_apply]
    rfl

/-- C58. The spectrum that the theorems below refer to exists for each symmetric and positive definite matrix. -/
theorem spectrum_exists {n : Nat} {A B : Matrix (Fin n) (Fin n) ℝ} (hA : Aᵀ = A) (hB : B.PosDef) :
    ∃ lam, Spec.Spectrum A B lam := by
  obtain ⟨S, hS, hBS⟩ := posDef_square hB
  have hC : (S⁻¹ᵀ * A * S⁻¹).IsHermitian := by
    rw [Matrix.IsHermitian, Matrix.conjTranspose_eq_transpose_of_trivial, transpose_mul, transpose_mul, transpose_transpose, hA,
      Matrix.mul_assoc]
  have hSS : Sᵀ * S * S⁻¹ = Sᵀ := by rw [Matrix.mul_assoc, Matrix.mul_nonsing_inv _ hS, Matrix.mul_one]
  let σ := Tuple.sort hC.eigenvalues
  refine ⟨hC.eigenvalues ∘ σ, Tuple.monotone_sort _, fun i => S⁻¹ *ᵥ (hC.eigenvectorBasis (σ i)).ofLp, ?_, ?_⟩
  · intro i j
    have horth := (orthonormal_iff_ite.1 hC.eigenvectorBasis.orthonormal) (σ j) (σ i)
    rw [EuclideanSpace.inner_eq_star_dotProduct] at horth
    simp only [star_trivial] at horth
    rw [hBS, Matrix.mulVec_mulVec, hSS, Matrix.dotProduct_mulVec,
      Matrix.vecMul_transpose, Matrix.mulVec_mulVec, Matrix.mul_nonsing_inv _ hS, Matrix.one_mulVec, horth]
    simp [eq_comm]
  · intro i
    have hm := hC.mulVec_eigenvectorBasis (σ i)
    have h2 := congrArg (Sᵀ *ᵥ ·) hm
    simp only [Matrix.mulVec_mulVec, Matrix.mulVec_smul] at h2
    have h3 : Sᵀ * (S⁻¹ᵀ * A * S⁻¹) = A * S⁻¹ := by
      rw [← Matrix.mul_assoc, ← Matrix.mul_assoc, ← transpose_mul, Matrix.nonsing_inv_mul _ hS, transpose_one, Matrix.one_mul]
    rw [h3] at h2
    rw [Matrix.mulVec_mulVec, h2, hBS, Matrix.mulVec_mulVec, hSS]
    rfl

/-! ### Construction -/

theorem sizesAgree_iff (A B : Shape) : sizesAgree A B = true ↔ A = B ∧ A.rows = A.cols := by
  obtain ⟨a, b⟩ := A
  obtain ⟨c, d⟩ := B
  simp only [sizesAgree, Bool.not_eq_true', Bool.or_eq_false_iff, decide_eq_false_iff_not, not_not, Shape.mk.injEq]
  constructor
  · rintro ⟨⟨rfl, rfl⟩, rfl⟩; exact ⟨⟨rfl, rfl⟩, rfl⟩
  · rintro ⟨⟨rfl, rfl⟩, rfl⟩; exact ⟨⟨rfl, rfl⟩, rfl⟩

theorem spectraAccepts_iff (n nev ncv : Nat) : spectraAccepts n nev ncv = true ↔ 1 ≤ nev ∧ nev < n ∧ nev < ncv ∧ ncv ≤ n := by
  simp only [spectraAccepts, Bool.and_eq_true, decide_eq_true_eq]
  omega

/-- C58. The full solver is constructed exactly for two square matrices of the same size, which is two or at least four; it then
asks for all eigenvalues: each of the two parts is not empty and together they have as many as there are rows. -/
theorem constructFull_iff (A B : Shape) (p q : Nat) :
    constructFull A B = some (p, q) ↔
      A = B ∧ A.rows = A.cols ∧ (A.rows = 2 ∨ 4 ≤ A.rows) ∧ p + q = A.rows ∧ (p = q ∨ p = q + 1) := by
  unfold constructFull
  simp only [Bool.not_eq_true', ite_eq_iff, reduceCtorEq, and_false, false_or, Bool.not_eq_false, spectraAccepts_iff,
    sizesAgree_iff, Option.some.injEq, partition, Prod.mk.injEq]
  constructor
  · rintro ⟨h1, h2, ⟨h3, h4⟩, h5, h6⟩
    refine ⟨h3, h4, ?_, ?_, ?_⟩ <;> omega
  · rintro ⟨h1, h2, h3, h4, h5⟩
    refine ⟨?_, ?_, ⟨h1, h2⟩, ?_, ?_⟩ <;> omega

example : constructFull ⟨7, 7⟩ ⟨7, 7⟩ = some (4, 3) := by decide

/-- The full claim for the construction: all square matrices of the same size from two rows on are accepted. -/
def Spec.ConstructsAll : Prop := ∀ n, 2 ≤ n → ∃ p, constructFull ⟨n, n⟩ ⟨n, n⟩ = some p

/-- C58. It is false: three rows are refused. -/
theorem constructFull_false : ¬ Spec.ConstructsAll := by
  intro h
  obtain ⟨⟨p, q⟩, hp⟩ := h 3 (by decide)
  have := ((constructFull_iff _ _ p q).1 hp).2.2.1
  simp at this

/-- C58. The partial solver is constructed exactly for two square matrices of the same size and a number of eigenvalues that is
positive and less than the number of rows. -/
theorem constructPartial_iff (A B : Shape) (nev k : Nat) :
    constructPartial A B nev = some k ↔ A = B ∧ A.rows = A.cols ∧ 1 ≤ nev ∧ nev < A.rows ∧ k = nev := by
  unfold constructPartial
  simp only [Bool.not_eq_true', ite_eq_iff, reduceCtorEq, and_false, false_or, Bool.not_eq_false, spectraAccepts_iff,
    sizesAgree_iff, Option.some.injEq]
  constructor
  · rintro ⟨h1, ⟨h3, h4⟩, h5⟩
    refine ⟨h3, h4, ?_, ?_, ?_⟩ <;> omega
  · rintro ⟨h1, h2, h3, h4, h5⟩
    refine ⟨⟨h3, h4, ?_, ?_⟩, ⟨h1, h2⟩, h5.symm⟩ <;> split <;> omega

example : constructPartial ⟨7, 7⟩ ⟨7, 7⟩ 6 = some 6 := by decide

/-- The full claim for the solver with Eigen: it is constructed exactly for two square matrices of the same size, however they
are passed. -/
def Spec.ConstructsSquare : Prop := ∀ rA rB A B, (∃ m, constructEigen rA rB A B = some m) ↔ A = B ∧ A.rows = A.cols

/-- C75, in part: it is so if both matrices are passed as lvalues. -/
theorem constructEigen_lvalues_partial (A B : Shape) :
    (∃ m, constructEigen false false A B = some m) ↔ A = B ∧ A.rows = A.cols := by
  rw [← sizesAgree_iff]
  unfold constructEigen forwarded
  cases h : sizesAgree A B <;> simp [h]

example : constructEigen false false ⟨3, 3⟩ ⟨3, 3⟩ = some (⟨3, 3⟩, ⟨3, 3⟩) := by decide

/-- C75. What happens otherwise: two rvalues are accepted whatever their sizes; of one rvalue and one lvalue, only an empty
lvalue is accepted. -/
theorem constructEigen_rvalues (A B : Shape) :
    constructEigen true true A B = some (A, B) ∧
      ((∃ m, constructEigen true false A B = some m) ↔ B = ⟨0, 0⟩) ∧
        ((∃ m, constructEigen false true A B = some m) ↔ A = ⟨0, 0⟩) := by
  have h1 : sizesAgree ⟨0, 0⟩ B = true ↔ B = ⟨0, 0⟩ := by
    rw [sizesAgree_iff]; simp [eq_comm]
  have h2 : sizesAgree A ⟨0, 0⟩ = true ↔ A = ⟨0, 0⟩ := by
    rw [sizesAgree_iff]
    exact ⟨fun h => h.1, fun h => ⟨h, by rw [h]⟩⟩
  refine ⟨rfl, ?_, ?_⟩
  · rw [← h1]
    unfold constructEigen forwarded
    cases h : sizesAgree ⟨0, 0⟩ B <;> simp [h]
  · rw [← h2]
    unfold constructEigen forwarded
    cases h : sizesAgree A ⟨0, 0⟩ <;> simp [h]

/-- C75. The full claim is false. -/
theorem constructEigen_false : ¬ Spec.ConstructsSquare := by
  intro h
  have := (h true true ⟨2, 2⟩ ⟨3, 3⟩).1 ⟨_, (constructEigen_rvalues _ _).1⟩
  simp at this

/-- C75. `makeIdentitySymEigenSolver` with Eigen throws for each matrix that is passed as an rvalue and is not empty; for an lvalue
it throws exactly if the matrix is not square. -/
theorem makeIdentityEigen_iff (A : Shape) :
    ((∃ m, makeIdentityEigen true A = some m) ↔ A = ⟨0, 0⟩) ∧
      ((∃ m, makeIdentityEigen false A = some m) ↔ A.rows = A.cols) := by
  obtain ⟨r, c⟩ := A
  refine ⟨(constructEigen_rvalues _ _).2.1, ?_⟩
  unfold makeIdentityEigen
  rw [constructEigen_lvalues_partial]
  simp

/-! ### Results -/

/-- C58. If both parts were successful, the eigenvalues are the whole spectrum, ascending and each as often as it is a root of the
characteristic polynomial of the pencil, and the eigenvectors belong to them, are normalised and not zero. -/
theorem full_spectrum {p q : Nat} (A B : Matrix (Fin (p + q)) (Fin (p + q)) ℝ) (lam : Fin (p + q) → ℝ)
    (hlam : Spec.Spectrum A B lam) (s : Full (p + q)) (small : Sub (p + q) p) (great : Sub (p + q) q)
    (hs : Spec.Smallest A B lam small) (hg : Spec.Greatest A B lam great)
    (h1 : small.successful = true) (h2 : great.successful = true) :
    ∃ values vectors, (s.compute small great).2 = true ∧ (s.compute small great).1.getValues = some values ∧
      (s.compute small great).1.getVectors = some vectors ∧ values = lam ∧ Monotone values ∧
      (∀ mu : ℝ, (A - mu • B).det = B.det * ∏ i, (values i - mu)) ∧
      ∀ i, A *ᵥ vectors i = values i • B *ᵥ vectors i ∧ vectors i ⬝ᵥ B *ᵥ vectors i = 1 ∧ vectors i ≠ 0 := by
  have hvals : Fin.append small.values great.values = lam := by
    funext i
    refine Fin.addCases (fun i => ?_) (fun i => ?_) i
    · rw [Fin.append_left, hs.1]
    · rw [Fin.append_right, hg.1]
  refine ⟨Fin.append small.values great.values, Fin.append small.vectors great.vectors, ?_, ?_, ?_, hvals, ?_, ?_, ?_⟩
  · simp [Full.compute, h1, h2]
  · simp [Full.compute, Full.getValues, h1, h2]
  · simp [Full.compute, Full.getVectors, h1, h2]
  · rw [hvals]; exact hlam.1
  · obtain ⟨V, hV⟩ := hlam.2
    rw [hvals]
    exact spectrum_det hV
  · have hone : ∀ i, Fin.append small.vectors great.vectors i ⬝ᵥ B *ᵥ Fin.append small.vectors great.vectors i = 1 := by
      intro i
      refine Fin.addCases (fun i => ?_) (fun i => ?_) i
      · rw [Fin.append_left]; simpa using hs.2.1 i i
      · rw [Fin.append_right]; simpa using hg.2.1 i i
    intro i
    refine ⟨?_, hone i, fun h0 => ?_⟩
    · refine Fin.addCases (fun i => ?_) (fun i => ?_) i
      · rw [Fin.append_left, Fin.append_left]; exact hs.2.2 i
      · rw [Fin.append_right, Fin.append_right]; exact hg.2.2 i
    · have := hone i
      rw [h0] at this
      simp at this

/-- The full claim for the eigenvectors: they are linearly independent. -/
def Spec.VectorsIndependent : Prop :=
  ∀ (p q : Nat) (A B : Matrix (Fin (p + q)) (Fin (p + q)) ℝ), Aᵀ = A → Bᵀ = B → ∀ lam, Spec.Spectrum A B lam →
    ∀ (s : Full (p + q)) small great, Spec.Smallest A B lam small → Spec.Greatest A B lam great →
      small.successful = true → great.successful = true →
      ∀ vectors, (s.compute small great).1.getVectors = some vectors → LinearIndependent ℝ vectors

/-- Eigenvectors of different eigenvalues are orthogonal. -/
theorem orthogonal_of_ne {n : Nat} {A B : Matrix (Fin n) (Fin n) ℝ} (hA : Aᵀ = A) (hB : Bᵀ = B) {u v : Fin n → ℝ} {a b : ℝ}
    (hu : A *ᵥ u = a • B *ᵥ u) (hv : A *ᵥ v = b • B *ᵥ v) (hab : a ≠ b) : u ⬝ᵥ B *ᵥ v = 0 := by
  have hsym : ∀ M : Matrix (Fin n) (Fin n) ℝ, Mᵀ = M → u ⬝ᵥ M *ᵥ v = v ⬝ᵥ M *ᵥ u := by
    intro M hM
    rw [Matrix.dotProduct_mulVec, ← Matrix.mulVec_transpose, hM, dotProduct_comm]
  have h1 := hsym A hA
  rw [hu, hv, dotProduct_smul, dotProduct_smul, ← hsym B hB, smul_eq_mul, smul_eq_mul] at h1
  have : (b - a) * (u ⬝ᵥ B *ᵥ v) = 0 := by linear_combination h1
  exact (mul_eq_zero.1 this).resolve_left (sub_ne_zero.2 hab.symm)

/-- C58, in part: if the greatest of the smaller eigenvalues is less than the smallest of the greater ones, all the eigenvectors are
orthonormal with respect to `B`, hence linearly independent. -/
theorem full_orthonormal_partial {p q : Nat} (A B : Matrix (Fin (p + q)) (Fin (p + q)) ℝ) (hA : Aᵀ = A) (hB : Bᵀ = B)
    (lam : Fin (p + q) → ℝ) (hgap : ∀ i j, lam (Fin.castAdd q i) < lam (Fin.natAdd p j))
    (s : Full (p + q)) (small : Sub (p + q) p) (great : Sub (p + q) q)
    (hs : Spec.Smallest A B lam small) (hg : Spec.Greatest A B lam great)
    (h1 : small.successful = true) (h2 : great.successful = true) :
    ∃ vectors, (s.compute small great).1.getVectors = some vectors ∧
      (∀ i j, vectors i ⬝ᵥ B *ᵥ vectors j = if i = j then 1 else 0) ∧ LinearIndependent ℝ vectors := by
  have horth : ∀ i j, Fin.append small.vectors great.vectors i ⬝ᵥ B *ᵥ Fin.append small.vectors great.vectors j =
      if i = j then 1 else 0 := by
    intro i j
    refine Fin.addCases (fun i => ?_) (fun i => ?_) i <;> refine Fin.addCases (fun j => ?_) (fun j => ?_) j
    · rw [Fin.append_left, Fin.append_left, hs.2.1]
      simp
    · rw [Fin.append_left, Fin.append_right,
        orthogonal_of_ne hA hB (hs.2.2 i) (hg.2.2 j) (by rw [hs.1, hg.1]; exact (hgap i j).ne), if_neg]
      intro hc
      have := congrArg Fin.val hc
      have := i.2
      simp only [Fin.val_castAdd, Fin.val_natAdd] at *
      omega
    · rw [Fin.append_left, Fin.append_right,
        orthogonal_of_ne hA hB (hg.2.2 i) (hs.2.2 j) (by rw [hs.1, hg.1]; exact (hgap j i).ne'), if_neg]
      intro hc
      have := congrArg Fin.val hc
      have := j.2
      simp only [Fin.val_castAdd, Fin.val_natAdd] at *
      omega
    · rw [Fin.append_right, Fin.append_right, hg.2.1]
      simp
  refine ⟨Fin.append small.vectors great.vectors, by simp [Full.compute, Full.getVectors, h1, h2], horth, ?_⟩
  rw [Fintype.linearIndependent_iff]
  intro c hc i
  have := congrArg (fun v => Fin.append small.vectors great.vectors i ⬝ᵥ B *ᵥ v) hc
  simp only [Matrix.mulVec_sum, Matrix.mulVec_smul, dotProduct_sum, dotProduct_smul, horth, Matrix.mulVec_zero,
    dotProduct_zero, smul_eq_mul, mul_ite, mul_one, mul_zero, Finset.sum_ite_eq, Finset.mem_univ, if_true] at this
  exact this

/-- C58. If an eigenvalue belongs to both parts, the eigenvectors need not be independent: each part finds its own, and nothing
prevents them from being the same. -/
theorem vectors_independent_false : ¬ Spec.VectorsIndependent := by
  intro h
  have hI : Spec.Spectrum (1 : Matrix (Fin (1 + 1)) (Fin (1 + 1)) ℝ) 1 (fun _ => 1) := by
    refine ⟨fun _ _ _ => le_rfl, fun i => Pi.single i 1, fun i j => ?_, fun i => by simp⟩
    simp [Matrix.one_apply]
  let e : Sub (1 + 1) 1 := ⟨true, fun _ => 1, fun _ => Pi.single 0 1⟩
  have he : Spec.Eigenpairs (1 : Matrix (Fin (1 + 1)) (Fin (1 + 1)) ℝ) 1 e.values e.vectors := by
    refine ⟨fun i j => ?_, fun i => by simp [e]⟩
    simp [e, Subsingleton.elim i j]
  have := h 1 1 1 1 (by simp) (by simp) _ hI (Full.init _) e e ⟨fun _ => rfl, he⟩ ⟨fun _ => rfl, he⟩ rfl rfl
    (Fin.append e.vectors e.vectors) rfl
  have h01 := this.injective (a₁ := Fin.castAdd 1 0) (a₂ := Fin.natAdd 1 0) (by rw [Fin.append_left, Fin.append_right])
  simp at h01

/-- The results of a solver with diagonal matrices: the hypotheses of the theorems above are met. -/
example : ∃ (lam : Fin (2 + 1) → ℝ) (small : Sub (2 + 1) 2) (great : Sub (2 + 1) 1),
    Spec.Spectrum (diagonal lam) 1 lam ∧ Spec.Smallest (diagonal lam) 1 lam small ∧ Spec.Greatest (diagonal lam) 1 lam great ∧
      small.successful = true ∧ great.successful = true ∧ (diagonal lam)ᵀ = diagonal lam ∧
      ∀ i j, lam (Fin.castAdd 1 i) < lam (Fin.natAdd 2 j) := by
  let lam : Fin (2 + 1) → ℝ := fun i => i.val
  have hpair : ∀ (k : Nat) (f : Fin k → Fin (2 + 1)), Function.Injective f →
      Spec.Eigenpairs (diagonal lam) 1 (fun i => lam (f i)) fun i => Pi.single (f i) 1 := by
    intro k f hf
    refine ⟨fun i j => ?_, fun i => ?_⟩
    · simp [Matrix.one_apply, hf.eq_iff]
    · funext l
      by_cases h : l = f i
      · simp [Matrix.mulVec_diagonal, h]
      · simp [Matrix.mulVec_diagonal, h]
  refine ⟨lam, ⟨true, _, _⟩, ⟨true, _, _⟩, ⟨?_, _, hpair _ id Function.injective_id⟩,
    ⟨fun _ => rfl, hpair _ _ (Fin.castAdd_injective 2 1)⟩, ⟨fun _ => rfl, hpair _ _ (Fin.natAdd_injective 1 2)⟩, rfl, rfl,
    diagonal_transpose _, ?_⟩
  · intro i j hij
    simpa [lam] using hij
  · intro i j
    have hi : (i : Nat) < 2 := i.2
    simp only [lam, Fin.val_castAdd, Fin.val_natAdd]
    exact_mod_cast (by omega : (i : Nat) < 2 + j)

/-! ### Histories -/

/-- A history of calls of `compute`, with what the sub-solvers return in each. -/
def runFull {p q : Nat} (l : List (Sub (p + q) p × Sub (p + q) q)) : Full (p + q) :=
  l.foldl (fun s r => (s.compute r.1 r.2).1) (Full.init _)

/-- C58. After each history of calls of `compute`, the accessors throw unless the last call was successful, and then they return its
results: results of an earlier call are never returned. -/
theorem full_accessors {p q : Nat} (l : List (Sub (p + q) p × Sub (p + q) q)) :
    (runFull l).getValues =
        (match l.getLast? with
          | some r => if r.1.successful && r.2.successful then some (Fin.append r.1.values r.2.values) else none
          | none => none) ∧
      (runFull l).getVectors =
        (match l.getLast? with
          | some r => if r.1.successful && r.2.successful then some (Fin.append r.1.vectors r.2.vectors) else none
          | none => none) := by
  rcases List.eq_nil_or_concat l with rfl | ⟨l, r, rfl⟩
  · exact ⟨rfl, rfl⟩
  · have : runFull (l ++ [r]) = ((runFull l).compute r.1 r.2).1 := by simp [runFull]
    simp only [List.concat_eq_append, this, List.getLast?_concat]
    unfold Full.compute Full.getValues Full.getVectors
    cases h : (r.1.successful && r.2.successful) <;> simp

/-- A history of calls of `compute` of the partial solver. -/
def runPartial {n k : Nat} (l : List (Sub n k)) : Partial n k := l.foldl (fun s r => s.compute r) ⟨none, false⟩

/-- C58. The same for the partial solver; its eigenvectors can be asked for up to the number of eigenvalues it was constructed with,
the first ones are returned, and asking for more throws. -/
theorem partial_accessors {n k : Nat} (l : List (Sub n k)) :
    ((runPartial l).getValues =
        match l.getLast? with
          | some r => if r.successful then .value r.values else .throws
          | none => .throws) ∧
      (∀ m : Nat, (runPartial l).getVectors (some m) =
        match l.getLast? with
          | some r => if r.successful ∧ m ≤ k then .value ((List.ofFn r.vectors).take m) else .throws
          | none => .throws) ∧
      (runPartial l).getVectors none =
        match l.getLast? with
          | some r => if r.successful then .value (List.ofFn r.vectors) else .throws
          | none => .throws := by
  rcases List.eq_nil_or_concat l with rfl | ⟨l, r, rfl⟩
  · refine ⟨rfl, fun m => ?_, rfl⟩
    simp [runPartial, Partial.getVectors]
  · have : runPartial (l ++ [r]) = ⟨some r, r.successful⟩ := by simp [runPartial, Partial.compute]
    simp only [List.concat_eq_append, this, List.getLast?_concat]
    refine ⟨?_, fun m => ?_, ?_⟩
    · cases h : r.successful <;> simp [Partial.getValues]
    · unfold Partial.getVectors
      cases h : r.successful <;> by_cases hm : m ≤ k
      · simp
      · simp
      · have : ¬ ((m : Int) > k) := by omega
        have h0 : ¬ ((m : Int) < 0) := by omega
        simp [this, hm, h0]
      · have : (m : Int) > k := by omega
        simp [this, hm]
    · unfold Partial.getVectors
      have h0 : ¬ ((k : Int) < 0) := by omega
      cases h : r.successful
      · simp
      · simp [h0, List.take_of_length_le]

/-- A failed call after a successful one. -/
example (a b : Sub 3 2) (ha : a.successful = true) (hb : b.successful = false) :
    (runPartial [a]).getValues = .value a.values ∧ (runPartial [a, b]).getValues = .throws := by
  refine ⟨?_, ?_⟩
  · rw [(partial_accessors [a]).1]; simp [ha]
  · rw [(partial_accessors [a, b]).1]; simp [hb]

end Ikarus.Eigensolver
