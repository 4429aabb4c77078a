import Verif.IO.EvaluatorModel
import Mathlib.LinearAlgebra.Matrix.Charpoly.Basic
import Mathlib.LinearAlgebra.Matrix.Trace
import Mathlib.LinearAlgebra.Matrix.NonsingularInverse
import Mathlib.Data.Fin.Tuple.Sort
import Mathlib.Analysis.Matrix.Spectrum
import Mathlib.Algebra.Polynomial.Roots
import Mathlib.Tactic.FinCases
import Mathlib.Tactic.Ring
import Mathlib.Tactic.Linarith
import Mathlib.Tactic.NormNum
import Mathlib.Tactic.FieldSimp
import Mathlib.Tactic.Positivity
import Mathlib.Tactic.LinearCombination

/-!
Invariants computed by the result evaluators.
-/

namespace Ikarus.ResultEvaluators

open Matrix

variable {k v : Nat}

/-! ### Specification -/

/-- The deviator of a spatial stress. -/
noncomputable def Spec.deviator (σ : Matrix (Fin 3) (Fin 3) ℝ) : Matrix (Fin 3) (Fin 3) ℝ := σ - (σ.trace / 3) • 1

/-- The plane stress as a spatial stress. -/
def Spec.embed (σ : Matrix (Fin 2) (Fin 2) ℝ) : Matrix (Fin 3) (Fin 3) ℝ :=
  !![σ 0 0, σ 0 1, 0; σ 1 0, σ 1 1, 0; 0, 0, 0]

/-- A correct eigenvalue solver: ascending numbers, the entries of a diagonal form in an orthonormal basis. -/
def Spec.IsEigenvalues (σ : Matrix (Fin k) (Fin k) ℝ) (l : Fin k → ℝ) : Prop :=
  Monotone l ∧ ∃ Q : Matrix (Fin k) (Fin k) ℝ, Qᵀ * Q = 1 ∧ σ = Q * Matrix.diagonal l * Qᵀ

open Spec

/-! ### Lemmas -/

theorem fromVoigt3_toVoigt3' (σ : Matrix (Fin 3) (Fin 3) ℝ) (h : σ.IsSymm) : fromVoigt3 (toVoigt3 σ false) false = σ := by
  have h01 : σ 1 0 = σ 0 1 := h.apply 0 1
  have h02 : σ 2 0 = σ 0 2 := h.apply 0 2
  have h12 : σ 2 1 = σ 1 2 := h.apply 1 2
  ext i j
  fin_cases i <;> fin_cases j <;> simp [fromVoigt3, toVoigt3, strainFactor, invStrainFactor, h01, h02, h12]

theorem fromVoigt2_toVoigt2' (σ : Matrix (Fin 2) (Fin 2) ℝ) (h : σ.IsSymm) : fromVoigt2 (toVoigt2 σ false) false = σ := by
  have h01 : σ 1 0 = σ 0 1 := h.apply 0 1
  ext i j
  fin_cases i <;> fin_cases j <;> simp [fromVoigt2, toVoigt2, strainFactor, invStrainFactor, h01]

theorem squaredNorm_eq (A : Matrix (Fin k) (Fin k) ℝ) : squaredNorm A = (Aᵀ * A).trace := by
  simp only [squaredNorm, Matrix.trace, Matrix.diag, Matrix.mul_apply, Matrix.transpose_apply]
  rw [Finset.sum_comm]
  exact Finset.sum_congr rfl fun i _ => Finset.sum_congr rfl fun j _ => by ring

theorem squaredNorm_conj (A R : Matrix (Fin k) (Fin k) ℝ) (hR : Rᵀ * R = 1) : squaredNorm (R * A * Rᵀ) = squaredNorm A := by
  rw [squaredNorm_eq, squaredNorm_eq]
  have e : (R * A * Rᵀ)ᵀ * (R * A * Rᵀ) = R * (Aᵀ * A) * Rᵀ := by
    rw [Matrix.transpose_mul, Matrix.transpose_mul, Matrix.transpose_transpose]
    calc R * (Aᵀ * Rᵀ) * (R * A * Rᵀ) = R * Aᵀ * (Rᵀ * R) * A * Rᵀ := by simp only [Matrix.mul_assoc]
      _ = R * (Aᵀ * A) * Rᵀ := by rw [hR, Matrix.mul_one]; simp only [Matrix.mul_assoc]
  rw [e, Matrix.trace_mul_comm, ← Matrix.mul_assoc, hR, Matrix.one_mul]

theorem trace_conj (A R : Matrix (Fin k) (Fin k) ℝ) (hR : Rᵀ * R = 1) : (R * A * Rᵀ).trace = A.trace := by
  rw [Matrix.trace_mul_comm, ← Matrix.mul_assoc, hR, Matrix.one_mul]

theorem isSymm_conj (A R : Matrix (Fin k) (Fin k) ℝ) (hA : A.IsSymm) : (R * A * Rᵀ).IsSymm := by
  rw [Matrix.IsSymm, Matrix.transpose_mul, Matrix.transpose_mul, Matrix.transpose_transpose, hA.eq, Matrix.mul_assoc]

theorem vonMises_def (fv : (Fin v → ℝ) → Bool → Matrix (Fin k) (Fin k) ℝ) (r : Fin v → ℝ) :
    vonMises fv r = √(3 / 2 * (squaredNorm (fv r false) - (fv r false).trace ^ 2 / 3)) := by
  simp only [vonMises]
  congr 1
  norm_num
  ring

theorem deviator_norm (σ : Matrix (Fin 3) (Fin 3) ℝ) :
    squaredNorm σ - σ.trace ^ 2 / 3 = ∑ i, ∑ j, Spec.deviator σ i j ^ 2 := by
  simp only [squaredNorm, deviator, Matrix.trace, Matrix.diag, Fin.sum_univ_three, Matrix.sub_apply, Matrix.smul_apply,
    Matrix.one_apply, smul_eq_mul]
  simp
  ring

/-! ### Von Mises -/

/-- C56, von Mises stress in space. It is `√(3/2)` times the norm of the deviator; it is not negative, zero exactly for
hydrostatic stresses, the same in every rotated frame, unchanged by hydrostatic stress, homogeneous, and the absolute
value of a uniaxial stress. -/
theorem vonMises_space (σ : Matrix (Fin 3) (Fin 3) ℝ) (hσ : σ.IsSymm) :
    vonMises fromVoigt3 (toVoigt3 σ false) = √(3 / 2 * ∑ i, ∑ j, Spec.deviator σ i j ^ 2) ∧
    0 ≤ vonMises fromVoigt3 (toVoigt3 σ false) ∧
    (vonMises fromVoigt3 (toVoigt3 σ false) = 0 ↔ ∃ p : ℝ, σ = p • 1) ∧
    (∀ R : Matrix (Fin 3) (Fin 3) ℝ, Rᵀ * R = 1 →
      vonMises fromVoigt3 (toVoigt3 (R * σ * Rᵀ) false) = vonMises fromVoigt3 (toVoigt3 σ false)) ∧
    (∀ p : ℝ, vonMises fromVoigt3 (toVoigt3 (σ + p • 1) false) = vonMises fromVoigt3 (toVoigt3 σ false)) ∧
    (∀ c : ℝ, vonMises fromVoigt3 (toVoigt3 (c • σ) false) = |c| * vonMises fromVoigt3 (toVoigt3 σ false)) ∧
    (∀ s : ℝ, vonMises fromVoigt3 (toVoigt3 (Matrix.diagonal ![s, 0, 0]) false) = |s|) := by
  have hval : ∀ τ : Matrix (Fin 3) (Fin 3) ℝ, τ.IsSymm → vonMises fromVoigt3 (toVoigt3 τ false) =
      √(3 / 2 * ∑ i, ∑ j, Spec.deviator τ i j ^ 2) := by
    intro τ hτ
    rw [vonMises_def, fromVoigt3_toVoigt3' τ hτ, deviator_norm]
  have hnn : ∀ τ : Matrix (Fin 3) (Fin 3) ℝ, 0 ≤ ∑ i, ∑ j, Spec.deviator τ i j ^ 2 := fun τ =>
    Finset.sum_nonneg fun i _ => Finset.sum_nonneg fun j _ => sq_nonneg _
  have hone : (1 : Matrix (Fin 3) (Fin 3) ℝ).IsSymm := Matrix.isSymm_one
  refine ⟨hval σ hσ, ?_, ⟨fun h => ?_, ?_⟩, fun R hR => ?_, fun p => ?_, fun c => ?_, fun s => ?_⟩
  · rw [hval σ hσ]
    exact Real.sqrt_nonneg _
  · rw [hval σ hσ, Real.sqrt_eq_zero (mul_nonneg (by norm_num) (hnn σ))] at h
    have h0 : ∑ i, ∑ j, Spec.deviator σ i j ^ 2 = 0 := by linarith
    refine ⟨σ.trace / 3, ?_⟩
    have hz : Spec.deviator σ = 0 := by
      ext i j
      have h1 := (Finset.sum_eq_zero_iff_of_nonneg (s := Finset.univ)
        (f := fun i : Fin 3 => ∑ j, Spec.deviator σ i j ^ 2)
        fun i _ => Finset.sum_nonneg fun j _ => sq_nonneg _).1 h0 i (Finset.mem_univ i)
      have h2 := (Finset.sum_eq_zero_iff_of_nonneg (s := Finset.univ)
        (f := fun j : Fin 3 => Spec.deviator σ i j ^ 2) fun j _ => sq_nonneg _).1 h1 j (Finset.mem_univ j)
      simpa using h2
    exact sub_eq_zero.1 hz
  · rintro ⟨p, rfl⟩
    rw [hval _ hσ]
    have hz : Spec.deviator (p • (1 : Matrix (Fin 3) (Fin 3) ℝ)) = 0 := by
      simp only [deviator, Matrix.trace_smul, Matrix.trace_one, Fintype.card_fin, smul_eq_mul]
      rw [show p * ((3 : ℕ) : ℝ) / 3 = p by push_cast; ring, sub_self]
    simp [hz]
  · rw [vonMises_def, vonMises_def, fromVoigt3_toVoigt3' σ hσ, fromVoigt3_toVoigt3' _ (isSymm_conj σ R hσ),
      squaredNorm_conj σ R hR, trace_conj σ R hR]
  · rw [hval σ hσ, hval _ (hσ.add (hone.smul p))]
    have hz : Spec.deviator (σ + p • (1 : Matrix (Fin 3) (Fin 3) ℝ)) = Spec.deviator σ := by
      simp only [deviator, Matrix.trace_add, Matrix.trace_smul, Matrix.trace_one, Fintype.card_fin, smul_eq_mul]
      rw [show (σ.trace + p * ((3 : ℕ) : ℝ)) / 3 = σ.trace / 3 + p by push_cast; ring, add_smul]
      abel
    rw [hz]
  · rw [hval σ hσ, hval _ (hσ.smul c)]
    have hz : Spec.deviator (c • σ) = c • Spec.deviator σ := by
      simp only [deviator, Matrix.trace_smul, smul_eq_mul, smul_sub, smul_smul]
      rw [mul_div_assoc]
    have e : 3 / 2 * ∑ i, ∑ j, Spec.deviator (c • σ) i j ^ 2 = c ^ 2 * (3 / 2 * ∑ i, ∑ j, Spec.deviator σ i j ^ 2) := by
      rw [hz]
      simp only [Matrix.smul_apply, smul_eq_mul, mul_pow, ← Finset.mul_sum]
      ring
    rw [e, Real.sqrt_mul (sq_nonneg c), Real.sqrt_sq_eq_abs]
  · rw [vonMises_def, fromVoigt3_toVoigt3' _ (Matrix.isSymm_diagonal _)]
    have e : 3 / 2 * (squaredNorm (Matrix.diagonal ![s, 0, 0]) - (Matrix.diagonal ![s, 0, 0]).trace ^ 2 / 3) = s ^ 2 := by
      simp [squaredNorm, Matrix.trace, Fin.sum_univ_three]
      ring
    rw [e, Real.sqrt_sq_eq_abs]

/-- C56, von Mises stress in the plane. For two dimensional results it is the von Mises stress of plane stress,
`√(σ₁₁² + σ₂₂² - σ₁₁σ₂₂ + 3σ₁₂²)`, that is the one of the stress completed by zeros; it is the same in every rotated
frame and zero only without stress.  For one dimensional results it is the absolute value. -/
theorem vonMises_plane (σ : Matrix (Fin 2) (Fin 2) ℝ) (hσ : σ.IsSymm) :
    vonMises fromVoigt2 (toVoigt2 σ false) = √(σ 0 0 ^ 2 + σ 1 1 ^ 2 - σ 0 0 * σ 1 1 + 3 * σ 0 1 ^ 2) ∧
    vonMises fromVoigt2 (toVoigt2 σ false) = vonMises fromVoigt3 (toVoigt3 (Spec.embed σ) false) ∧
    (∀ R : Matrix (Fin 2) (Fin 2) ℝ, Rᵀ * R = 1 →
      vonMises fromVoigt2 (toVoigt2 (R * σ * Rᵀ) false) = vonMises fromVoigt2 (toVoigt2 σ false)) ∧
    (vonMises fromVoigt2 (toVoigt2 σ false) = 0 ↔ σ = 0) ∧
    (∀ s : ℝ, vonMises fromVoigt1 ![s] = |s|) := by
  have h01 : σ 1 0 = σ 0 1 := hσ.apply 0 1
  have hval : vonMises fromVoigt2 (toVoigt2 σ false) = √(σ 0 0 ^ 2 + σ 1 1 ^ 2 - σ 0 0 * σ 1 1 + 3 * σ 0 1 ^ 2) := by
    rw [vonMises_def, fromVoigt2_toVoigt2' σ hσ]
    congr 1
    simp only [squaredNorm, Matrix.trace, Matrix.diag, Fin.sum_univ_two, h01]
    ring
  refine ⟨hval, ?_, fun R hR => ?_, ⟨fun h => ?_, fun h => ?_⟩, fun s => ?_⟩
  · have hs : (Spec.embed σ).IsSymm := by
      ext i j
      fin_cases i <;> fin_cases j <;> simp [embed, h01]
    rw [hval, vonMises_def, fromVoigt3_toVoigt3' _ hs]
    congr 1
    simp [squaredNorm, Matrix.trace, Fin.sum_univ_three, embed, h01]
    ring
  · rw [vonMises_def, vonMises_def, fromVoigt2_toVoigt2' σ hσ, fromVoigt2_toVoigt2' _ (isSymm_conj σ R hσ),
      squaredNorm_conj σ R hR, trace_conj σ R hR]
  · have hnn : 0 ≤ σ 0 0 ^ 2 + σ 1 1 ^ 2 - σ 0 0 * σ 1 1 + 3 * σ 0 1 ^ 2 := by
      nlinarith [sq_nonneg (σ 0 0 - σ 1 1), sq_nonneg (σ 0 0), sq_nonneg (σ 1 1), sq_nonneg (σ 0 1)]
    rw [hval, Real.sqrt_eq_zero hnn] at h
    have a0 : σ 0 0 = 0 := by
      have : σ 0 0 ^ 2 = 0 := by
        nlinarith [sq_nonneg (σ 0 0 - 2 * σ 1 1), sq_nonneg (σ 0 0), sq_nonneg (σ 0 1)]
      simpa using this
    have a1 : σ 1 1 = 0 := by
      have : σ 1 1 ^ 2 = 0 := by
        rw [a0] at h
        nlinarith [sq_nonneg (σ 1 1), sq_nonneg (σ 0 1)]
      simpa using this
    have a2 : σ 0 1 = 0 := by
      rw [a0, a1] at h
      have : σ 0 1 ^ 2 = 0 := by linarith
      simpa using this
    ext i j
    fin_cases i <;> fin_cases j <;> simp [a0, a1, a2, h01]
  · rw [hval, h]
    simp
  · rw [vonMises_def]
    have e : 3 / 2 * (squaredNorm (fromVoigt1 ![s] false) - (fromVoigt1 ![s] false).trace ^ 2 / 3) = s ^ 2 := by
      simp [squaredNorm, Matrix.trace, fromVoigt1]
      ring
    rw [e, Real.sqrt_sq_eq_abs]

/-! ### Hydrostatic stress and triaxiality -/

/-- C56, hydrostatic stress. It is the mean of the normal stresses, the same in every rotated frame; triaxiality is its
ratio to the von Mises stress, does not change if the stress is scaled by a positive factor, and is not a number exactly
for hydrostatic stresses. -/
theorem hydrostatic_triaxiality (σ : Matrix (Fin 3) (Fin 3) ℝ) (hσ : σ.IsSymm) :
    hydrostaticStress fromVoigt3 (toVoigt3 σ false) = (σ 0 0 + σ 1 1 + σ 2 2) / 3 ∧
    (∀ τ : Matrix (Fin 2) (Fin 2) ℝ, τ.IsSymm → hydrostaticStress fromVoigt2 (toVoigt2 τ false) = (τ 0 0 + τ 1 1) / 2) ∧
    (∀ R : Matrix (Fin 3) (Fin 3) ℝ, Rᵀ * R = 1 →
      hydrostaticStress fromVoigt3 (toVoigt3 (R * σ * Rᵀ) false) = hydrostaticStress fromVoigt3 (toVoigt3 σ false)) ∧
    (triaxiality fromVoigt3 (toVoigt3 σ false) = none ↔ ∃ p : ℝ, σ = p • 1) ∧
    (∀ t, triaxiality fromVoigt3 (toVoigt3 σ false) = some t →
      t * vonMises fromVoigt3 (toVoigt3 σ false) = (σ 0 0 + σ 1 1 + σ 2 2) / 3) ∧
    (∀ c : ℝ, 0 < c → triaxiality fromVoigt3 (toVoigt3 (c • σ) false) = triaxiality fromVoigt3 (toVoigt3 σ false)) := by
  have hh : ∀ τ : Matrix (Fin 3) (Fin 3) ℝ, τ.IsSymm →
      hydrostaticStress fromVoigt3 (toVoigt3 τ false) = τ.trace / 3 := by
    intro τ hτ
    simp only [hydrostaticStress, fromVoigt3_toVoigt3' τ hτ]
    push_cast
    norm_num
    ring
  have htr : σ.trace = σ 0 0 + σ 1 1 + σ 2 2 := by simp [Matrix.trace, Fin.sum_univ_three]
  have hvm := vonMises_space σ hσ
  refine ⟨by rw [hh σ hσ, htr], fun τ hτ => ?_, fun R hR => ?_, ?_, fun t ht => ?_, fun c hc => ?_⟩
  · simp only [hydrostaticStress, fromVoigt2_toVoigt2' τ hτ, Matrix.trace, Matrix.diag, Fin.sum_univ_two]
    push_cast
    norm_num
    ring
  · rw [hh σ hσ, hh _ (isSymm_conj σ R hσ), trace_conj σ R hR]
  · rw [← hvm.2.2.1]
    simp only [triaxiality]
    by_cases h : vonMises fromVoigt3 (toVoigt3 σ false) = 0 <;> simp [h]
  · simp only [triaxiality] at ht
    by_cases h : vonMises fromVoigt3 (toVoigt3 σ false) = 0
    · simp [h] at ht
    · rw [if_neg h, Option.some.injEq] at ht
      rw [← ht, div_mul_cancel₀ _ h, hh σ hσ, htr]
  · have h1 := hvm.2.2.2.2.2.1 c
    rw [abs_of_pos hc] at h1
    have h2 : hydrostaticStress fromVoigt3 (toVoigt3 (c • σ) false) =
        c * hydrostaticStress fromVoigt3 (toVoigt3 σ false) := by
      rw [hh σ hσ, hh _ (hσ.smul c), Matrix.trace_smul, smul_eq_mul, mul_div_assoc]
    simp only [triaxiality, h1, h2]
    by_cases h : vonMises fromVoigt3 (toVoigt3 σ false) = 0
    · simp [h]
    · rw [if_neg h, if_neg (mul_ne_zero hc.ne' h), mul_div_mul_left _ _ hc.ne']

/-! ### Principal stresses -/

theorem eigenvalues_unique (σ : Matrix (Fin k) (Fin k) ℝ) (l l' : Fin k → ℝ) (h : Spec.IsEigenvalues σ l)
    (h' : Spec.IsEigenvalues σ l') : l = l' := by
  have hroots : ∀ l : Fin k → ℝ, Spec.IsEigenvalues σ l → σ.charpoly.roots = (List.ofFn l : Multiset ℝ) := by
    rintro l ⟨-, Q, hQ, rfl⟩
    rw [Matrix.charpoly_mul_comm, ← Matrix.mul_assoc, hQ, Matrix.one_mul, Matrix.charpoly_diagonal, ← Fin.univ_val_map]
    have := Polynomial.roots_multiset_prod_X_sub_C (Finset.univ.val.map l)
    rw [Multiset.map_map] at this
    exact this
  have hperm : (List.ofFn l).Perm (List.ofFn l') := by
    rw [← Multiset.coe_eq_coe, ← hroots l h, ← hroots l' h']
  have hs := List.sortedLE_ofFn_iff.2 h.1
  have hs' := List.sortedLE_ofFn_iff.2 h'.1
  exact List.ofFn_injective (hperm.eq_of_pairwise' hs.pairwise hs'.pairwise)

theorem eigenvalues_conj (σ R : Matrix (Fin k) (Fin k) ℝ) (hR : Rᵀ * R = 1) (l : Fin k → ℝ)
    (h : Spec.IsEigenvalues σ l) : Spec.IsEigenvalues (R * σ * Rᵀ) l := by
  obtain ⟨hm, Q, hQ, rfl⟩ := h
  refine ⟨hm, R * Q, ?_, ?_⟩
  · rw [Matrix.transpose_mul]
    calc Qᵀ * Rᵀ * (R * Q) = Qᵀ * (Rᵀ * R) * Q := by simp only [Matrix.mul_assoc]
      _ = 1 := by rw [hR, Matrix.mul_one, hQ]
  · rw [Matrix.transpose_mul]
    simp only [Matrix.mul_assoc]

/-- C56, principal stresses. For every correct eigenvalue solver the components are in descending order, do not depend on
the solver, are the same in every rotated frame, sum up to the trace and multiply to the determinant; no normal stress
exceeds the first or falls below the last, and both occur.  Components out of range are not defined. -/
theorem principal_stress (solver : Matrix (Fin 3) (Fin 3) ℝ → Fin 3 → ℝ)
    (hs : ∀ σ : Matrix (Fin 3) (Fin 3) ℝ, σ.IsSymm → Spec.IsEigenvalues σ (solver σ))
    (σ : Matrix (Fin 3) (Fin 3) ℝ) (hσ : σ.IsSymm) :
    ∃ a b c : ℝ, principalStress solver fromVoigt3 (toVoigt3 σ false) 0 = some a ∧
      principalStress solver fromVoigt3 (toVoigt3 σ false) 1 = some b ∧
      principalStress solver fromVoigt3 (toVoigt3 σ false) 2 = some c ∧
      (∀ i : Int, i < 0 ∨ 2 < i → principalStress solver fromVoigt3 (toVoigt3 σ false) i = none) ∧
      c ≤ b ∧ b ≤ a ∧ a + b + c = σ.trace ∧ a * b * c = σ.det ∧
      (∀ x : Fin 3 → ℝ, x ⬝ᵥ x = 1 → c ≤ x ⬝ᵥ (σ *ᵥ x) ∧ x ⬝ᵥ (σ *ᵥ x) ≤ a) ∧
      (∃ x : Fin 3 → ℝ, x ⬝ᵥ x = 1 ∧ x ⬝ᵥ (σ *ᵥ x) = a) ∧ (∃ x : Fin 3 → ℝ, x ⬝ᵥ x = 1 ∧ x ⬝ᵥ (σ *ᵥ x) = c) ∧
      vonMises fromVoigt3 (toVoigt3 σ false) = √(((a - b) ^ 2 + (b - c) ^ 2 + (c - a) ^ 2) / 2) ∧
      (∀ (solver' : Matrix (Fin 3) (Fin 3) ℝ → Fin 3 → ℝ),
        (∀ σ : Matrix (Fin 3) (Fin 3) ℝ, σ.IsSymm → Spec.IsEigenvalues σ (solver' σ)) → ∀ i,
        principalStress solver' fromVoigt3 (toVoigt3 σ false) i = principalStress solver fromVoigt3 (toVoigt3 σ false) i) ∧
      (∀ R : Matrix (Fin 3) (Fin 3) ℝ, Rᵀ * R = 1 → ∀ i,
        principalStress solver fromVoigt3 (toVoigt3 (R * σ * Rᵀ) false) i =
          principalStress solver fromVoigt3 (toVoigt3 σ false) i) := by
  obtain ⟨hmono, Q, hQ, hdec⟩ := hs σ hσ
  have hQ' : Q * Qᵀ = 1 := mul_eq_one_comm.1 hQ
  set l := solver σ with hl
  have hform : ∀ x : Fin 3 → ℝ, x ⬝ᵥ (σ *ᵥ x) = ∑ i, l i * (Qᵀ *ᵥ x) i ^ 2 := by
    intro x
    rw [hdec, ← Matrix.mulVec_mulVec, ← Matrix.mulVec_mulVec, Matrix.dotProduct_mulVec, ← Matrix.mulVec_transpose]
    simp only [dotProduct, Matrix.mulVec_diagonal]
    exact Finset.sum_congr rfl fun i _ => by ring
  have hnorm : ∀ x : Fin 3 → ℝ, ∑ i, (Qᵀ *ᵥ x) i ^ 2 = x ⬝ᵥ x := by
    intro x
    have : (Qᵀ *ᵥ x) ⬝ᵥ (Qᵀ *ᵥ x) = x ⬝ᵥ x := by
      rw [Matrix.dotProduct_mulVec, ← Matrix.mulVec_transpose, Matrix.mulVec_mulVec, Matrix.transpose_transpose, hQ',
        Matrix.one_mulVec]
    rw [← this]
    simp only [dotProduct]
    exact Finset.sum_congr rfl fun i _ => by ring
  have hatt : ∀ j : Fin 3, ∃ x : Fin 3 → ℝ, x ⬝ᵥ x = 1 ∧ x ⬝ᵥ (σ *ᵥ x) = l j := by
    intro j
    have hx : Qᵀ *ᵥ (Q *ᵥ Pi.single j 1) = Pi.single j 1 := by rw [Matrix.mulVec_mulVec, hQ, Matrix.one_mulVec]
    refine ⟨Q *ᵥ Pi.single j 1, ?_, ?_⟩
    · rw [← hnorm, hx]
      simp [Pi.single_apply]
    · rw [hform, hx]
      simp [Pi.single_apply]
  have h01 : l 0 ≤ l 1 := hmono (by decide)
  have h12 : l 1 ≤ l 2 := hmono (by decide)
  have htr : σ.trace = l 0 + l 1 + l 2 := by
    rw [hdec, trace_conj _ _ hQ, Matrix.trace_diagonal, Fin.sum_univ_three]
  have hdet : σ.det = l 0 * l 1 * l 2 := by
    rw [hdec, Matrix.det_mul, Matrix.det_mul, Matrix.det_diagonal, Fin.prod_univ_three, Matrix.det_transpose]
    have : Q.det * Q.det = 1 := by
      have := congrArg Matrix.det hQ
      rwa [Matrix.det_mul, Matrix.det_transpose, Matrix.det_one] at this
    linear_combination (l 0 * l 1 * l 2) * this
  refine ⟨l 2, l 1, l 0, ?_, ?_, ?_, ?_, h01, h12, by rw [htr]; ring, by rw [hdet]; ring, fun x hx => ?_, hatt 2, hatt 0,
    ?_, fun solver' hs' i => ?_, fun R hR i => ?_⟩
  · simp [principalStress, fromVoigt3_toVoigt3' σ hσ, ← hl]
  · simp [principalStress, fromVoigt3_toVoigt3' σ hσ, ← hl]
  · simp [principalStress, fromVoigt3_toVoigt3' σ hσ, ← hl]
  · intro i hi
    simp only [principalStress]
    by_cases h0 : 0 ≤ i
    · rw [if_pos h0, dif_neg (by omega)]
    · rw [if_neg h0]
  · rw [hform]
    have hn := hnorm x
    rw [hx, Fin.sum_univ_three] at hn
    rw [Fin.sum_univ_three]
    have p0 := sq_nonneg ((Qᵀ *ᵥ x) 0)
    have p1 := sq_nonneg ((Qᵀ *ᵥ x) 1)
    have p2 := sq_nonneg ((Qᵀ *ᵥ x) 2)
    generalize (Qᵀ *ᵥ x) 0 ^ 2 = y0 at hn p0 ⊢
    generalize (Qᵀ *ᵥ x) 1 ^ 2 = y1 at hn p1 ⊢
    generalize (Qᵀ *ᵥ x) 2 ^ 2 = y2 at hn p2 ⊢
    have hy0 : y0 = 1 - y1 - y2 := by linarith
    have hy2 : y2 = 1 - y0 - y1 := by linarith
    constructor
    · rw [hy0]
      nlinarith [mul_nonneg (sub_nonneg.2 h01) p1, mul_nonneg (sub_nonneg.2 (h01.trans h12)) p2]
    · rw [hy2]
      nlinarith [mul_nonneg (sub_nonneg.2 h12) p1, mul_nonneg (sub_nonneg.2 (h01.trans h12)) p0]
  · rw [vonMises_def, fromVoigt3_toVoigt3' σ hσ, htr]
    have : squaredNorm σ = l 0 ^ 2 + l 1 ^ 2 + l 2 ^ 2 := by
      rw [hdec, squaredNorm_conj _ _ hQ]
      simp [squaredNorm, Fin.sum_univ_three, Matrix.diagonal]
    rw [this]
    congr 1
    ring
  · simp only [principalStress, fromVoigt3_toVoigt3' σ hσ, eigenvalues_unique σ _ _ (hs' σ hσ) (hs σ hσ)]
  · have hsym := isSymm_conj σ R hσ
    simp only [principalStress, fromVoigt3_toVoigt3' σ hσ, fromVoigt3_toVoigt3' _ hsym,
      eigenvalues_unique _ _ _ (hs _ hsym) (eigenvalues_conj σ R hR _ (hs σ hσ))]

/-- Correct solvers exist. -/
theorem exists_eigenvalues (σ : Matrix (Fin k) (Fin k) ℝ) (hσ : σ.IsSymm) : ∃ l, Spec.IsEigenvalues σ l := by
  have hH : σ.IsHermitian := by
    ext i j
    simpa using hσ.apply i j
  set e := Tuple.sort hH.eigenvalues
  have hU : (hH.eigenvectorUnitary : Matrix (Fin k) (Fin k) ℝ)ᵀ * (hH.eigenvectorUnitary : Matrix (Fin k) (Fin k) ℝ) = 1 := by
    have := Unitary.coe_star_mul_self hH.eigenvectorUnitary
    rwa [Matrix.star_eq_conjTranspose, Matrix.conjTranspose_eq_transpose_of_trivial] at this
  have hspec : σ = (hH.eigenvectorUnitary : Matrix (Fin k) (Fin k) ℝ) * Matrix.diagonal hH.eigenvalues *
      (hH.eigenvectorUnitary : Matrix (Fin k) (Fin k) ℝ)ᵀ := by
    have := hH.spectral_theorem
    rw [Unitary.conjStarAlgAut_apply, Matrix.star_eq_conjTranspose, Matrix.conjTranspose_eq_transpose_of_trivial] at this
    exact this
  generalize (hH.eigenvectorUnitary : Matrix (Fin k) (Fin k) ℝ) = U at hU hspec
  refine ⟨hH.eigenvalues ∘ e, Tuple.monotone_sort _, U.submatrix id e, ?_, ?_⟩
  · rw [Matrix.transpose_submatrix, Matrix.submatrix_mul _ _ e id e Function.bijective_id |>.symm, hU]
    exact Matrix.submatrix_one_equiv e
  · conv_lhs => rw [hspec]
    have hd : Matrix.diagonal (hH.eigenvalues ∘ e) = (Matrix.diagonal hH.eigenvalues).submatrix e e :=
      (Matrix.submatrix_diagonal_equiv _ e).symm
    rw [hd, Matrix.transpose_submatrix, Matrix.submatrix_mul_equiv, Matrix.submatrix_mul_equiv, Matrix.submatrix_id_id]

/-- A case: a solver meeting the hypothesis of `principal_stress`. -/
example : ∃ solver : Matrix (Fin 3) (Fin 3) ℝ → Fin 3 → ℝ,
    ∀ σ : Matrix (Fin 3) (Fin 3) ℝ, σ.IsSymm → Spec.IsEigenvalues σ (solver σ) := by
  classical
  refine ⟨fun σ => if h : σ.IsSymm then (exists_eigenvalues σ h).choose else 0, fun σ h => ?_⟩
  simp only [dif_pos h]
  exact (exists_eigenvalues σ h).choose_spec

/-! ### Polar stress -/

theorem rotation2D_orth (θ : ℝ) : rotation2D (-θ) = (rotation2D θ)ᵀ ∧ (rotation2D θ)ᵀ * rotation2D θ = 1 := by
  constructor
  · ext i j
    fin_cases i <;> fin_cases j <;> simp [rotation2D]
  · ext i j
    have h := Real.sin_sq_add_cos_sq θ
    fin_cases i <;> fin_cases j <;> simp [rotation2D, Matrix.mul_apply, Fin.sum_univ_two] <;> nlinarith

/-- C56, polar stress. The components are the normal stresses in radial and circumferential direction and the shear stress
between them, for the radial direction from the origin to the position; trace, determinant and von Mises stress are those
of the stress; on the positive first axis (and at the origin) the stress is returned as it is.  Components above two throw. -/
theorem polar_stress (origin pos : Fin 2 → ℝ) (σ : Matrix (Fin 2) (Fin 2) ℝ) (hσ : σ.IsSymm) :
    ∃ P : Matrix (Fin 2) (Fin 2) ℝ, P.IsSymm ∧
      polarStress origin pos (toVoigt2 σ false) 0 = .value (P 0 0) ∧
      polarStress origin pos (toVoigt2 σ false) 1 = .value (P 1 1) ∧
      polarStress origin pos (toVoigt2 σ false) 2 = .value (P 0 1) ∧
      (∀ i : Int, 2 < i → polarStress origin pos (toVoigt2 σ false) i = .rangeError) ∧
      (pos ≠ origin →
        let r := √((pos 0 - origin 0) ^ 2 + (pos 1 - origin 1) ^ 2)
        let er : Fin 2 → ℝ := ![(pos 0 - origin 0) / r, (pos 1 - origin 1) / r]
        let eθ : Fin 2 → ℝ := ![-(pos 1 - origin 1) / r, (pos 0 - origin 0) / r]
        P 0 0 = er ⬝ᵥ (σ *ᵥ er) ∧ P 1 1 = eθ ⬝ᵥ (σ *ᵥ eθ) ∧ P 0 1 = er ⬝ᵥ (σ *ᵥ eθ)) ∧
      P.trace = σ.trace ∧ P.det = σ.det ∧
      vonMises fromVoigt2 (toVoigt2 P false) = vonMises fromVoigt2 (toVoigt2 σ false) ∧
      (origin 0 ≤ pos 0 → origin 1 = pos 1 → P = σ) := by
  set θ := atan2 ((pos - origin) 1) ((pos - origin) 0) with hθ
  obtain ⟨hneg, horth⟩ := rotation2D_orth θ
  have horth' : rotation2D θ * (rotation2D θ)ᵀ = 1 := mul_eq_one_comm.1 horth
  have hP : polarTensor origin pos σ = (rotation2D θ)ᵀ * σ * rotation2D θ := by
    simp only [polarTensor, ← hθ, hneg]
  have hR : ((rotation2D θ)ᵀ)ᵀ * (rotation2D θ)ᵀ = 1 := by rw [Matrix.transpose_transpose, horth']
  have hconj : polarTensor origin pos σ = (rotation2D θ)ᵀ * σ * ((rotation2D θ)ᵀ)ᵀ := by
    rw [hP, Matrix.transpose_transpose]
  have hsym : (polarTensor origin pos σ).IsSymm := by
    rw [hconj]
    exact isSymm_conj _ _ hσ
  have hfv := fromVoigt2_toVoigt2' σ hσ
  refine ⟨polarTensor origin pos σ, hsym, ?_, ?_, ?_, ?_, fun hne => ?_, ?_, ?_, ?_, fun h0 h1 => ?_⟩
  · simp [polarStress, hfv]
  · simp [polarStress, hfv]
  · simp [polarStress, hfv, hsym.apply 0 1]
  · intro i hi
    simp [polarStress, hi]
  · intro r er eθ
    have hz : (⟨(pos - origin) 0, (pos - origin) 1⟩ : ℂ) ≠ 0 := by
      intro h
      have a := congrArg Complex.re h
      have b := congrArg Complex.im h
      apply hne
      funext i
      fin_cases i
      · simpa [sub_eq_zero] using a
      · simpa [sub_eq_zero] using b
    have hr : ‖(⟨(pos - origin) 0, (pos - origin) 1⟩ : ℂ)‖ = r := by
      rw [Complex.norm_def, Complex.normSq_mk]
      simp only [r, Pi.sub_apply]
      congr 1
      ring
    have hc : Real.cos θ = (pos 0 - origin 0) / r := by
      rw [hθ, atan2, Complex.cos_arg hz, hr]
      rfl
    have hs : Real.sin θ = (pos 1 - origin 1) / r := by
      rw [hθ, atan2, Complex.sin_arg, hr]
      rfl
    have her : er = ![Real.cos θ, Real.sin θ] := by rw [hc, hs]
    have het : eθ = ![-Real.sin θ, Real.cos θ] := by rw [hc, hs, ← neg_div]
    have h10 : σ 1 0 = σ 0 1 := hσ.apply 0 1
    rw [her, het, hP]
    refine ⟨?_, ?_, ?_⟩ <;>
      simp [rotation2D, Matrix.mul_apply, Matrix.mulVec, dotProduct, Fin.sum_univ_two] <;> ring
  · rw [hconj, trace_conj _ _ hR]
  · rw [hP, Matrix.det_mul, Matrix.det_mul, Matrix.det_transpose]
    have : (rotation2D θ).det * (rotation2D θ).det = 1 := by
      have := congrArg Matrix.det horth
      rwa [Matrix.det_mul, Matrix.det_transpose, Matrix.det_one] at this
    linear_combination σ.det * this
  · rw [hconj]
    exact (vonMises_plane σ hσ).2.2.1 _ hR
  · have hz : θ = 0 := by
      rw [hθ, atan2]
      have e : (⟨(pos - origin) 0, (pos - origin) 1⟩ : ℂ) = (((pos - origin) 0 : ℝ) : ℂ) := by
        apply Complex.ext
        · simp
        · simp [h1]
      rw [e]
      exact Complex.arg_ofReal_of_nonneg (by simpa using h0)
    rw [hP, hz]
    have : rotation2D 0 = 1 := by
      ext i j
      fin_cases i <;> fin_cases j <;> simp [rotation2D]
    rw [this]
    simp

/-- A case: a uniaxial stress seen from a point on the second axis is circumferential. -/
example : ∃ P : Matrix (Fin 2) (Fin 2) ℝ, polarStress 0 ![0, 3] (toVoigt2 !![5, 0; 0, 0] false) 1 = .value (P 1 1) ∧
    P 1 1 = 5 := by
  have hs : (!![5, 0; 0, 0] : Matrix (Fin 2) (Fin 2) ℝ).IsSymm := by
    ext i j
    fin_cases i <;> fin_cases j <;> simp
  obtain ⟨P, -, -, h1, -, -, h, -⟩ := polar_stress 0 ![0, 3] !![5, 0; 0, 0] hs
  refine ⟨P, h1, ?_⟩
  have hne : (![0, 3] : Fin 2 → ℝ) ≠ 0 := by
    intro h
    have := congrFun h 1
    norm_num at this
  have h2 := (h hne).2.1
  have hr : √((3 : ℝ) ^ 2) = 3 := Real.sqrt_sq (by norm_num)
  simp [hr] at h2
  rw [h2]
  rfl

/-- A case: the von Mises stress of pure shear. -/
example : vonMises fromVoigt2 (toVoigt2 !![0, 1; 1, 0] false) = √3 := by
  have hs : (!![0, 1; 1, 0] : Matrix (Fin 2) (Fin 2) ℝ).IsSymm := by
    ext i j
    fin_cases i <;> fin_cases j <;> simp
  rw [(vonMises_plane _ hs).1]
  simp

/-- A stress state with shear in space, with all that `vonMises_space` and `hydrostatic_triaxiality` say about it: its
hydrostatic stress is `2` and it is not hydrostatic, so that its triaxiality is defined. -/
example : hydrostaticStress fromVoigt3 (toVoigt3 !![1, 4, 0; 4, 2, 0; 0, 0, 3] false) = 2 ∧
    vonMises fromVoigt3 (toVoigt3 !![1, 4, 0; 4, 2, 0; 0, 0, 3] false) ≠ 0 ∧
    triaxiality fromVoigt3 (toVoigt3 !![1, 4, 0; 4, 2, 0; 0, 0, 3] false) ≠ none := by
  have hs : (!![1, 4, 0; 4, 2, 0; 0, 0, 3] : Matrix (Fin 3) (Fin 3) ℝ).IsSymm := by
    ext i j; fin_cases i <;> fin_cases j <;> rfl
  have hn : ¬ ∃ p : ℝ, (!![1, 4, 0; 4, 2, 0; 0, 0, 3] : Matrix (Fin 3) (Fin 3) ℝ) = p • 1 := by
    rintro ⟨p, hp⟩
    have := congrFun (congrFun hp 0) 1
    simp at this
  refine ⟨?_, fun h => hn ((vonMises_space _ hs).2.2.1.1 h), fun h => hn ((hydrostatic_triaxiality _ hs).2.2.2.1.1 h)⟩
  rw [(hydrostatic_triaxiality _ hs).1]
  norm_num [Matrix.cons_val_two]

end Ikarus.ResultEvaluators
