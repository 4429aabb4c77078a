import Verif.Material.HyperelasticModel
import Verif.Material.MatrixCalculus
import Mathlib.LinearAlgebra.Matrix.Determinant.Basic
import Mathlib.Data.Fintype.Perm
import Mathlib.Tactic.Linarith
import Mathlib.Tactic.FieldSimp
import Mathlib.Tactic.NormNum

/-!
Spectral decompositions of 3x3 matrices: what does not depend on the choice of the eigenvectors.
-/

namespace Ikarus

open Matrix

/-- Specification: `C = N diag(mu) Nᵀ` with an orthogonal matrix `N`. -/
structure Spec.IsSpectral (C : M3) (mu : Fin 3 → ℝ) (N : M3) : Prop where
  orth : Nᵀ * N = 1
  decomp : C = N * diagonal mu * Nᵀ

open Spec

theorem Spec.IsSpectral.orth' {C : M3} {mu : Fin 3 → ℝ} {N : M3} (h : IsSpectral C mu N) : N * Nᵀ = 1 :=
  mul_eq_one_comm.mp h.orth

/-- The change of basis between two decompositions respects the eigenvalues. -/
theorem spectral_change {C : M3} {mu mu' : Fin 3 → ℝ} {N N' : M3} (h : IsSpectral C mu N)
    (h' : IsSpectral C mu' N') : ∃ Q : M3, N' = N * Q ∧ Q * Qᵀ = 1 ∧
      (∀ i j, Q i j ≠ 0 → mu i = mu' j) ∧ ∃ σ : Equiv.Perm (Fin 3), ∀ j, Q (σ j) j ≠ 0 := by
  refine ⟨Nᵀ * N', ?_, ?_, ?_, ?_⟩
  · rw [← Matrix.mul_assoc, h.orth', Matrix.one_mul]
  · rw [transpose_mul, transpose_transpose, Matrix.mul_assoc, ← Matrix.mul_assoc N', h'.orth', Matrix.one_mul,
      h.orth]
  · intro i j hq
    have e : diagonal mu * (Nᵀ * N') = (Nᵀ * N') * diagonal mu' := by
      have h1 : Nᵀ * C * N' = diagonal mu * (Nᵀ * N') := by
        rw [h.decomp, Matrix.mul_assoc N, ← Matrix.mul_assoc Nᵀ N, h.orth, Matrix.one_mul, Matrix.mul_assoc]
      have h2 : Nᵀ * C * N' = (Nᵀ * N') * diagonal mu' := by
        rw [h'.decomp, Matrix.mul_assoc, Matrix.mul_assoc (N' * diagonal mu'), h'.orth, Matrix.mul_one,
          Matrix.mul_assoc]
      rw [← h1, h2]
    have e2 := congrFun (congrFun e i) j
    rw [diagonal_mul, mul_diagonal, mul_comm] at e2
    exact mul_left_cancel₀ hq e2
  · have hdet : (Nᵀ * N').det ≠ 0 := by
      intro h0
      have h1 : (N' * Nᵀ).det * (Nᵀ * N').det = 0 := by rw [h0, mul_zero]
      have e1 := congrArg det h.orth
      have e2 := congrArg det h'.orth
      rw [det_mul, det_transpose, det_one] at e1 e2
      rw [det_mul, det_mul, det_transpose] at h1
      have : (1 : ℝ) = 0 := by
        calc (1 : ℝ) = (N.det * N.det) * (N'.det * N'.det) := by rw [e1, e2, one_mul]
        _ = N'.det * N.det * (N.det * N'.det) := by ring
        _ = 0 := h1
      exact one_ne_zero this
    rw [det_apply] at hdet
    obtain ⟨σ, _, hσ⟩ := Finset.exists_ne_zero_of_sum_ne_zero hdet
    refine ⟨σ, fun j hj => hσ ?_⟩
    have hz : ∏ i, (Nᵀ * N') (σ i) i = 0 := Finset.prod_eq_zero (i := j) (Finset.mem_univ j) hj
    rw [hz, smul_zero]

/-- Functions of the eigenvalues on the diagonal. -/
theorem spectral_diag {N Q : M3} (hQ : Q * Qᵀ = 1) {S S' : Fin 3 → ℝ}
    (hS : ∀ i j, Q i j ≠ 0 → S' j = S i) :
    (N * Q) * diagonal S' * (N * Q)ᵀ = N * diagonal S * Nᵀ := by
  have e : Q * diagonal S' = diagonal S * Q := by
    ext i j
    rw [diagonal_mul, mul_diagonal]
    by_cases hq : Q i j = 0
    · rw [hq]; ring
    · rw [hS i j hq]; ring
  rw [transpose_mul, Matrix.mul_assoc N, e, Matrix.mul_assoc, Matrix.mul_assoc (diagonal S),
    ← Matrix.mul_assoc Q, hQ, Matrix.one_mul, Matrix.mul_assoc]

/-- `(N diag(S) Nᵀ) a b` as a sum over the eigenvectors. -/
theorem diag_entry (N : M3) (S : Fin 3 → ℝ) (a b : Fin 3) :
    (N * diagonal S * Nᵀ) a b = ∑ i, S i * (N a i * N b i) := by
  rw [Matrix.mul_apply]
  refine Finset.sum_congr rfl fun i _ => ?_
  rw [mul_diagonal, transpose_apply]
  ring

/-- Functions of pairs of eigenvalues. -/
theorem spectral_pairs {N Q : M3} (hQ : Q * Qᵀ = 1) {σ : Equiv.Perm (Fin 3)} (hσ : ∀ j, Q (σ j) j ≠ 0)
    {g g' : Fin 3 → Fin 3 → ℝ} (hg : ∀ i j k l, Q i j ≠ 0 → Q k l ≠ 0 → g' j l = g i k) (a b c d : Fin 3) :
    ∑ j, ∑ l, g' j l * ((N * Q) a j * (N * Q) b j * ((N * Q) c l * (N * Q) d l)) =
      ∑ i, ∑ k, g i k * (N a i * N b i * (N c k * N d k)) := by
  have s1 : ∀ l, ∑ j, g' j l * ((N * Q) a j * (N * Q) b j) = ∑ i, g i (σ l) * (N a i * N b i) := by
    intro l
    rw [← diag_entry, ← diag_entry N]
    rw [spectral_diag hQ fun i j hij => hg i j (σ l) l hij (hσ l)]
  have s2 : ∀ i, ∑ l, g i (σ l) * ((N * Q) c l * (N * Q) d l) = ∑ k, g i k * (N c k * N d k) := by
    intro i
    rw [← diag_entry, ← diag_entry N]
    rw [spectral_diag hQ fun k l hkl => ?_]
    have hi : Q i (σ.symm i) ≠ 0 := by
      have := hσ (σ.symm i)
      rwa [Equiv.apply_symm_apply] at this
    exact (hg i _ (σ l) l hi (hσ l)).symm.trans (hg i _ k l hi hkl)
  calc ∑ j, ∑ l, g' j l * ((N * Q) a j * (N * Q) b j * ((N * Q) c l * (N * Q) d l))
      = ∑ l, (∑ j, g' j l * ((N * Q) a j * (N * Q) b j)) * ((N * Q) c l * (N * Q) d l) := by
        rw [Finset.sum_comm]
        refine Finset.sum_congr rfl fun l _ => ?_
        rw [Finset.sum_mul]
        exact Finset.sum_congr rfl fun j _ => by ring
    _ = ∑ l, (∑ i, g i (σ l) * (N a i * N b i)) * ((N * Q) c l * (N * Q) d l) := by
        simp only [s1]
    _ = ∑ i, (N a i * N b i) * ∑ l, g i (σ l) * ((N * Q) c l * (N * Q) d l) := by
        simp only [Finset.sum_mul, Finset.mul_sum]
        rw [Finset.sum_comm]
        exact Finset.sum_congr rfl fun i _ => Finset.sum_congr rfl fun l _ => by ring
    _ = ∑ i, ∑ k, g i k * (N a i * N b i * (N c k * N d k)) := by
        simp only [s2, Finset.mul_sum]
        exact Finset.sum_congr rfl fun i _ => Finset.sum_congr rfl fun l _ => by ring

theorem exists_perm_pair : ∀ i j k m : Fin 3, i ≠ j → k ≠ m →
    ∃ σ : Equiv.Perm (Fin 3), σ i = k ∧ σ j = m := by decide

end Ikarus
