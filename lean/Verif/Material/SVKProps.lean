import Verif.Material.SVKModel
import Verif.Tensor.VoigtProps
import Mathlib.LinearAlgebra.Matrix.PosDef
import Mathlib.Analysis.Calculus.Deriv.Polynomial
import Mathlib.Analysis.Calculus.Deriv.Mul
import Mathlib.Analysis.Calculus.Deriv.Add
import Mathlib.Analysis.Calculus.Deriv.Pow
import Mathlib.Tactic.Linarith
import Mathlib.Tactic.Positivity
import Mathlib.Tactic.FieldSimp
import Mathlib.Tactic.LinearCombination

/-!
C38: St. Venant-Kirchhoff material.
-/

namespace Ikarus

open Matrix Spec

variable {K : Type} [Field K]

/-- C38. The four ways of computing stresses agree, for every symmetric strain. -/
theorem svk_stress_paths (h2 : (2 : K) ≠ 0) (m : SVK K) (E : Matrix (Fin 3) (Fin 3) K)
    (hE : E.IsSymm) :
    m.stressVoigtToMatrix (toVoigt3 E true) = m.stressMatrixToMatrix E ∧
    m.stressVoigtToVoigt (toVoigt3 E true) = toVoigt3 (m.stressMatrixToMatrix E) false ∧
    m.stressMatrixToVoigt E = toVoigt3 (m.stressMatrixToMatrix E) false ∧
    (m.stressMatrixToMatrix E).IsSymm ∧
    m.energyVoigt (toVoigt3 E true) = m.energyMatrix E := by
  have e1 := hE.apply 0 1
  have e2 := hE.apply 0 2
  have e3 := hE.apply 1 2
  refine ⟨?_, ?_, ?_, ?_, ?_⟩
  · ext i j
    fin_cases i <;> fin_cases j <;>
      simp [SVK.stressVoigtToMatrix, SVK.stressMatrixToMatrix, toVoigt3, strainFactor, trace,
        Fin.sum_univ_three, e1, e2, e3] <;> ring
  · ext i
    fin_cases i <;>
      simp [SVK.stressVoigtToVoigt, SVK.stressMatrixToMatrix, toVoigt3, strainFactor, trace,
        Fin.sum_univ_three] <;> ring
  · ext i
    fin_cases i <;>
      simp [SVK.stressMatrixToVoigt, SVK.stressMatrixToMatrix, toVoigt3, strainFactor, trace,
        Fin.sum_univ_three] <;> ring
  · unfold Matrix.IsSymm SVK.stressMatrixToMatrix
    rw [transpose_add, transpose_smul, transpose_smul, transpose_one, hE]
  · simp only [SVK.energyVoigt, SVK.energyMatrix, toVoigt3, strainFactor, trace, Matrix.diag,
      Fin.sum_univ_three, e1, e2, e3]
    simp
    field_simp
    left
    ring

example := svk_stress_paths (by norm_num) (SVK.mk 2 3 : SVK ℚ) !![1, 2, 0; 2, 0, 1; 0, 1, 3] (by decide +kernel)

/-- C38. The moduli in Voigt notation are the Voigt form of the tensor of moduli; the tensor has both minor
symmetries and the major symmetry; the stress is the moduli applied to the strain, in both notations. -/
theorem svk_moduli (h2 : (2 : K) ≠ 0) (m : SVK K) :
    (∀ a b, toVoigtTensor m.moduliTensor a b = some (m.moduliVoigt a b)) ∧
    MinorSymmetric m.moduliTensor ∧
    (∀ i j k l, m.moduliTensor i j k l = m.moduliTensor k l i j) ∧
    m.moduliVoigt.IsSymm ∧
    (∀ E : Matrix (Fin 3) (Fin 3) K, E.IsSymm →
      contract m.moduliTensor E = m.stressMatrixToMatrix E) ∧
    (∀ e : Fin 6 → K, m.moduliVoigt *ᵥ e = m.stressVoigtToVoigt e) := by
  have hten : ∀ i j k l, m.moduliTensor i j k l = m.lambda * (delta i j * delta k l) +
      2 * m.mu * (1 / 2 * (delta i k * delta j l + delta i l * delta j k)) := by
    intro i j k l
    simp only [SVK.moduliTensor, identityFourthOrder_apply, symmetricIdentityFourthOrder]
  have hdc : ∀ i j : Fin 3, (delta i j : K) = delta j i := by
    intro i j
    simp only [delta, eq_comm]
  refine ⟨?_, ?_, ?_, ?_, ?_, ?_⟩
  · intro a b
    rw [toVoigtTensor_entries, hten]
    simp only [Option.some.injEq]
    fin_cases a <;> fin_cases b <;> simp [unvoigt3, delta, SVK.moduliVoigt] <;> field_simp <;> ring
  · intro i j k l
    simp only [hten]
    rw [hdc i j, hdc k l]
    refine ⟨by ring, by ring⟩
  · intro i j k l
    simp only [hten]
    rw [hdc k i, hdc l j, hdc l i, hdc k j]
    ring
  · ext i j
    simp only [Matrix.transpose_apply, SVK.moduliVoigt, and_comm, eq_comm]
  · intro E hE
    have hs : symPart E = E := by
      have := (sym_skew h2 E 0 0).2.2.2.1 hE
      exact this.1
    have h1 := identityFourthOrder_contract 3 E
    have h3 := symmetricIdentity_contract 3 E
    rw [hs] at h3
    ext i j
    have h1' := congrFun (congrFun h1 i) j
    have h3' := congrFun (congrFun h3 i) j
    simp only [contract] at h1' h3'
    simp only [contract, SVK.moduliTensor, SVK.stressMatrixToMatrix, Matrix.add_apply,
      Matrix.smul_apply, smul_eq_mul, add_mul, Finset.sum_add_distrib, mul_assoc,
      ← Finset.mul_sum]
    rw [h1', h3']
    simp [mul_assoc]
  · intro e
    ext i
    fin_cases i <;>
      simp [Matrix.mulVec, dotProduct, Fin.sum_univ_succ, SVK.moduliVoigt, SVK.stressVoigtToVoigt] <;>
      ring

/-- C38. The energy is half the stress contracted with the strain, and its exact expansion in an increment
`D` has the stress as linear part: the stress is the derivative of the energy. -/
theorem svk_energy_expansion (h2 : (2 : K) ≠ 0) (m : SVK K) (E D : Matrix (Fin 3) (Fin 3) K) :
    2 * m.energyMatrix E = ddot (m.stressMatrixToMatrix E) E ∧
    m.energyMatrix (E + D) = m.energyMatrix E + ddot (m.stressMatrixToMatrix E) D + m.energyMatrix D ∧
    m.stressMatrixToMatrix (E + D) = m.stressMatrixToMatrix E + m.stressMatrixToMatrix D := by
  refine ⟨?_, ?_, ?_⟩
  · simp only [SVK.energyMatrix, ddot, SVK.stressMatrixToMatrix, Matrix.add_apply,
      Matrix.smul_apply, smul_eq_mul, Fin.sum_univ_three, trace, Matrix.diag, Matrix.one_apply]
    simp
    field_simp
    ring
  · simp only [SVK.energyMatrix, ddot, SVK.stressMatrixToMatrix, Matrix.add_apply,
      Matrix.smul_apply, smul_eq_mul, Fin.sum_univ_three, trace, Matrix.diag, Matrix.one_apply]
    simp
    field_simp
    ring
  · ext i j
    simp only [SVK.stressMatrixToMatrix, Matrix.add_apply, Matrix.smul_apply, smul_eq_mul,
      Fin.sum_univ_three, trace, Matrix.diag]
    ring

example := svk_energy_expansion (by norm_num) (SVK.mk 2 3 : SVK ℚ) !![1, 2, 0; 2, 0, 1; 0, 1, 3] !![0, 1, 0; 1, 0, 0; 0, 0, 0]

/-- C38. Along every path of symmetric strains, the rate of the energy is the stress power and the rate of
the stress is the moduli applied to the strain rate. -/
theorem svk_derivative (m : SVK ℝ) (E : ℝ → Matrix (Fin 3) (Fin 3) ℝ)
    (dE : Matrix (Fin 3) (Fin 3) ℝ) (t : ℝ)
    (hE : ∀ i j, HasDerivAt (fun s => E s i j) (dE i j) t) :
    HasDerivAt (fun s => m.energyMatrix (E s)) (ddot (m.stressMatrixToMatrix (E t)) dE) t ∧
    ∀ i j, HasDerivAt (fun s => m.stressMatrixToMatrix (E s) i j)
      (m.stressMatrixToMatrix dE i j) t := by
  have htr : HasDerivAt (fun s => (E s).trace) dE.trace t := by
    simp only [trace, Matrix.diag]
    exact HasDerivAt.fun_sum fun i _ => hE i i
  constructor
  · have hn : HasDerivAt (fun s => ∑ i, ∑ j, E s i j * E s i j)
        (∑ i, ∑ j, (dE i j * E t i j + E t i j * dE i j)) t :=
      HasDerivAt.fun_sum fun i _ => HasDerivAt.fun_sum fun j _ => (hE i j).mul (hE i j)
    have := ((htr.const_mul (m.lambda / 2)).mul htr).add (hn.const_mul m.mu)
    refine this.congr_deriv ?_
    simp only [ddot, SVK.stressMatrixToMatrix, Matrix.add_apply,
      Matrix.smul_apply, smul_eq_mul, Fin.sum_univ_three, trace, Matrix.diag, Matrix.one_apply]
    simp
    ring
  · intro i j
    simp only [SVK.stressMatrixToMatrix, Matrix.add_apply, Matrix.smul_apply, smul_eq_mul]
    exact ((htr.const_mul m.lambda).mul_const _).add ((hE i j).const_mul _)

/-- C38. The energy is positive for every non-zero strain, i.e. the matrix of moduli is positive definite,
if and only if `mu > 0` and `3 lambda + 2 mu > 0`. -/
theorem svk_positive_definite (m : SVK ℝ) :
    m.moduliVoigt.PosDef ↔ 0 < m.mu ∧ 0 < 3 * m.lambda + 2 * m.mu := by
  have hsym : m.moduliVoigt.IsHermitian := by
    rw [Matrix.IsHermitian, conjTranspose_eq_transpose_of_trivial]
    exact (svk_moduli (two_ne_zero) m).2.2.2.1
  have hq : ∀ x : Fin 6 → ℝ, x ⬝ᵥ (m.moduliVoigt *ᵥ x) =
      m.lambda * (x 0 + x 1 + x 2) ^ 2 + 2 * m.mu * (x 0 ^ 2 + x 1 ^ 2 + x 2 ^ 2) +
        m.mu * (x 3 ^ 2 + x 4 ^ 2 + x 5 ^ 2) := by
    intro x
    rw [(svk_moduli two_ne_zero m).2.2.2.2.2 x]
    simp [dotProduct, Fin.sum_univ_succ, SVK.stressVoigtToVoigt]
    ring
  constructor
  · intro h
    have hp : ∀ x : Fin 6 → ℝ, x ≠ 0 → 0 < x ⬝ᵥ (m.moduliVoigt *ᵥ x) := by
      intro x hx
      have := h.dotProduct_mulVec_pos hx
      simpa using this
    constructor
    · have := hp ![0, 0, 0, 1, 0, 0] (by
        intro h0; have := congrFun h0 3; simp at this)
      rw [hq] at this
      simpa using this
    · have := hp ![1, 1, 1, 0, 0, 0] (by
        intro h0; have := congrFun h0 0; simp at this)
      rw [hq] at this
      simp at this
      nlinarith
  · rintro ⟨hmu, hk⟩
    refine Matrix.PosDef.of_dotProduct_mulVec_pos hsym ?_
    intro x hx
    have hx' : x 0 ^ 2 + x 1 ^ 2 + x 2 ^ 2 + x 3 ^ 2 + x 4 ^ 2 + x 5 ^ 2 ≠ 0 := by
      intro h0
      apply hx
      have hz : ∀ i, x i ^ 2 = 0 := by
        have := sq_nonneg (x 0); have := sq_nonneg (x 1); have := sq_nonneg (x 2)
        have := sq_nonneg (x 3); have := sq_nonneg (x 4); have := sq_nonneg (x 5)
        intro i
        fin_cases i <;> simp only [Fin.mk_one, Fin.zero_eta, Fin.reduceFinMk] <;> linarith
      ext i
      exact pow_eq_zero_iff (two_ne_zero) |>.mp (hz i)
    have hstar : star x = x := by ext i; simp
    rw [hstar, hq]
    -- deviatoric and volumetric parts
    have hid : m.lambda * (x 0 + x 1 + x 2) ^ 2 + 2 * m.mu * (x 0 ^ 2 + x 1 ^ 2 + x 2 ^ 2) =
        (3 * m.lambda + 2 * m.mu) / 3 * (x 0 + x 1 + x 2) ^ 2 +
        2 * m.mu / 3 * ((x 0 - x 1) ^ 2 + (x 1 - x 2) ^ 2 + (x 0 - x 2) ^ 2) := by ring
    have hid2 : 3 * (x 0 ^ 2 + x 1 ^ 2 + x 2 ^ 2) = (x 0 + x 1 + x 2) ^ 2 +
        ((x 0 - x 1) ^ 2 + (x 1 - x 2) ^ 2 + (x 0 - x 2) ^ 2) := by ring
    rw [hid]
    by_contra hcon
    have a1 : 0 ≤ (x 0 + x 1 + x 2) ^ 2 := sq_nonneg _
    have a2 : 0 ≤ (x 0 - x 1) ^ 2 + (x 1 - x 2) ^ 2 + (x 0 - x 2) ^ 2 := by positivity
    have a3 : 0 ≤ x 3 ^ 2 + x 4 ^ 2 + x 5 ^ 2 := by positivity
    have b1 : 0 < (3 * m.lambda + 2 * m.mu) / 3 := by positivity
    have b2 : 0 < 2 * m.mu / 3 := by positivity
    have c1 := mul_nonneg b1.le a1
    have c2 := mul_nonneg b2.le a2
    have c3 := mul_nonneg hmu.le a3
    have z1 : (3 * m.lambda + 2 * m.mu) / 3 * (x 0 + x 1 + x 2) ^ 2 = 0 := by linarith
    have z2 : 2 * m.mu / 3 * ((x 0 - x 1) ^ 2 + (x 1 - x 2) ^ 2 + (x 0 - x 2) ^ 2) = 0 := by linarith
    have z3 : m.mu * (x 3 ^ 2 + x 4 ^ 2 + x 5 ^ 2) = 0 := by linarith
    have y1 := (mul_eq_zero.mp z1).resolve_left b1.ne'
    have y2 := (mul_eq_zero.mp z2).resolve_left b2.ne'
    have y3 := (mul_eq_zero.mp z3).resolve_left hmu.ne'
    apply hx'
    linarith

/-- The inverse of the matrix of moduli. -/
def Spec.svkCompliance (m : SVK K) : Matrix (Fin 6) (Fin 6) K := fun i j =>
  if i.val < 3 ∧ j.val < 3 then
    - m.lambda / (2 * m.mu * (3 * m.lambda + 2 * m.mu)) + (if i = j then 1 / (2 * m.mu) else 0)
  else if i = j then 1 / m.mu else 0

theorem svk_mul_compliance (h2 : (2 : K) ≠ 0) (m : SVK K) (hmu : m.mu ≠ 0)
    (hk : 3 * m.lambda + 2 * m.mu ≠ 0) : m.moduliVoigt * svkCompliance m = 1 := by
  have hk' : m.lambda * 3 + 2 * m.mu ≠ 0 := by rwa [mul_comm m.lambda]
  ext i j
  fin_cases i <;> fin_cases j <;>
    simp [Matrix.mul_apply, Fin.sum_univ_succ, SVK.moduliVoigt, svkCompliance] <;>
    field_simp <;> ring

theorem svk_inverse (h2 : (2 : K) ≠ 0) (m : SVK K) (hmu : m.mu ≠ 0)
    (hk : 3 * m.lambda + 2 * m.mu ≠ 0) : m.moduliVoigt⁻¹ = svkCompliance m :=
  Matrix.inv_eq_right_inv (svk_mul_compliance h2 m hmu hk)

/-- C38. `materialInversion` returns the strain that causes the given symmetric stress, and the inverse
of the matrix of moduli, whenever `mu` and `3 lambda + 2 mu` are not zero. -/
theorem svk_inversion (h2 : (2 : K) ≠ 0) (m : SVK K) (hmu : m.mu ≠ 0)
    (hk : 3 * m.lambda + 2 * m.mu ≠ 0) (S : Matrix (Fin 3) (Fin 3) K) (hS : S.IsSymm) :
    m.stressVoigtToMatrix (m.materialInversionVoigt S).2 = S ∧
    m.stressMatrixToMatrix (m.materialInversionTensor S).2 = S ∧
    (m.materialInversionVoigt S).1 * m.moduliVoigt = 1 ∧
    m.moduliVoigt * (m.materialInversionVoigt S).1 = 1 ∧
    (∀ E : Matrix (Fin 3) (Fin 3) K, E.IsSymm →
      (m.materialInversionTensor (m.stressMatrixToMatrix E)).2 = E) := by
  have hu : IsUnit m.moduliVoigt.det := by
    have hd := congrArg Matrix.det (svk_mul_compliance h2 m hmu hk)
    rw [det_mul, det_one] at hd
    exact IsUnit.of_mul_eq_one _ hd
  have r3 := (toVoigt_fromVoigt (K := K) h2 true).2.2
  have hmat : m.stressMatrixToMatrix (m.materialInversionTensor S).2 = S := by
    have hsy := (r3 (m.materialInversion S).2).2
    have hp := svk_stress_paths h2 m _ hsy
    have h3 : toVoigt3 (m.stressMatrixToMatrix (fromVoigt3 (m.materialInversion S).2 true)) false =
        toVoigt3 S false := by
      rw [← hp.2.1, (r3 _).1, ← (svk_moduli h2 m).2.2.2.2.2]
      simp only [SVK.materialInversion]
      rw [Matrix.mulVec_mulVec, Matrix.mul_nonsing_inv _ hu, Matrix.one_mulVec]
    have h4 := congrArg (fun v => fromVoigt3 v false) h3
    rw [(fromVoigt_toVoigt h2 false).2.2 _ hp.2.2.2.1, (fromVoigt_toVoigt h2 false).2.2 _ hS] at h4
    exact h4
  refine ⟨?_, hmat, ?_, ?_, ?_⟩
  · simp only [SVK.materialInversionVoigt]
    rw [(svk_stress_paths h2 m _ (r3 _).2).1]
    exact hmat
  · exact Matrix.nonsing_inv_mul _ hu
  · exact Matrix.mul_nonsing_inv _ hu
  · intro E hE
    have hp := svk_stress_paths h2 m E hE
    simp only [SVK.materialInversionTensor, SVK.materialInversion]
    rw [← hp.2.1, ← (svk_moduli h2 m).2.2.2.2.2, Matrix.mulVec_mulVec,
      Matrix.nonsing_inv_mul _ hu, Matrix.one_mulVec]
    exact (fromVoigt_toVoigt h2 true).2.2 E hE

example := svk_inversion (by norm_num) (SVK.mk 2 3 : SVK ℚ) (by norm_num) (by norm_num) !![1, 2, 0; 2, 0, 1; 0, 1, 3]
  (by decide +kernel)

/-- Specification: the fourth order tensor returned by the inversion in tensor notation is the compliance,
that is it maps the stress to the strain that is returned with it. -/
def Spec.InversionTensorIsCompliance (K : Type) [Field K] : Prop :=
  ∀ (m : SVK K) (S : Matrix (Fin 3) (Fin 3) K), m.mu ≠ 0 → 3 * m.lambda + 2 * m.mu ≠ 0 → S.IsSymm →
    ∃ D : Tensor4 K 3, (∀ i j k l, (m.materialInversionTensor S).1 i j k l = some (D i j k l)) ∧
      contract D S = (m.materialInversionTensor S).2

/-- C38. In tensor notation (`voigt = false`) the returned compliance is not usable: the entries with a
lower triangular index pair are not initialised, and the shear entries are four times the shear
compliance, since the factors of the Voigt strains are not removed. -/
theorem svk_inversion_tensor_wrong (h2 : (2 : K) ≠ 0) :
    ¬ InversionTensorIsCompliance K ∧
    ∀ (m : SVK K) (S : Matrix (Fin 3) (Fin 3) K), m.mu ≠ 0 → 3 * m.lambda + 2 * m.mu ≠ 0 →
      (m.materialInversionTensor S).1 0 1 0 1 = some (1 / m.mu) ∧
      (m.materialInversionTensor S).1 1 0 0 1 = none := by
  have hval : ∀ (m : SVK K) (S : Matrix (Fin 3) (Fin 3) K), m.mu ≠ 0 →
      3 * m.lambda + 2 * m.mu ≠ 0 →
      (m.materialInversionTensor S).1 0 1 0 1 = some (1 / m.mu) ∧
      (m.materialInversionTensor S).1 1 0 0 1 = none := by
    intro m S hmu hk
    simp only [SVK.materialInversionTensor, SVK.materialInversion]
    rw [fromVoigtTensor_entries_partial, fromVoigtTensor_entries_partial, svk_inverse h2 m hmu hk]
    constructor
    · simp [voigt3, svkCompliance]
    · simp
  refine ⟨fun h => ?_, hval⟩
  obtain ⟨D, hD, -⟩ := h ⟨0, 1⟩ 0 one_ne_zero (by simpa using h2) (by simp)
  have := (hval ⟨0, 1⟩ 0 one_ne_zero (by simpa using h2)).2
  rw [hD] at this
  cases this

/-- A material and a symmetric strain meeting the hypotheses. -/
example : (SVK.mk 2 3 : SVK ℚ).stressMatrixToMatrix !![1, 2, 0; 2, 0, 1; 0, 1, 3] =
    !![14, 12, 0; 12, 8, 6; 0, 6, 26] ∧ (!![1, 2, 0; 2, 0, 1; 0, 1, 3] : Matrix _ _ ℚ).IsSymm := by
  decide +kernel

end Ikarus
