import Mathlib.LinearAlgebra.Matrix.NonsingularInverse
import Mathlib.LinearAlgebra.Matrix.Trace
import Mathlib.LinearAlgebra.Matrix.Determinant.Basic
import Mathlib.LinearAlgebra.Matrix.Adjugate
import Mathlib.Analysis.Calculus.Deriv.Mul
import Mathlib.Analysis.Calculus.Deriv.Add
import Mathlib.Analysis.Calculus.Deriv.Inv
import Mathlib.Tactic.Ring
import Mathlib.Tactic.LinearCombination

/-!
Derivatives of determinant and inverse along a path of 3x3 matrices, entry by entry.
-/

namespace Ikarus

open Matrix

abbrev M3 := Matrix (Fin 3) (Fin 3) ℝ

/-- The entries of `C` have the derivatives `dC` at `t`. -/
def HasMatDeriv {n : Type} (C : ℝ → Matrix n n ℝ) (dC : Matrix n n ℝ) (t : ℝ) : Prop :=
  ∀ i j, HasDerivAt (fun s => C s i j) (dC i j) t

variable {C D : ℝ → M3} {dC dD : M3} {t : ℝ}

theorem HasMatDeriv.mul {n : Type} [Fintype n] {C D : ℝ → Matrix n n ℝ} {dC dD : Matrix n n ℝ} {t : ℝ}
    (hC : HasMatDeriv C dC t) (hD : HasMatDeriv D dD t) :
    HasMatDeriv (fun s => C s * D s) (dC * D t + C t * dD) t := by
  intro i j
  have h : HasDerivAt (fun s => ∑ k, C s i k * D s k j)
      (∑ k, (dC i k * D t k j + C t i k * dD k j)) t :=
    HasDerivAt.fun_sum fun k _ => (hC i k).mul (hD k j)
  have he : (fun s => (C s * D s) i j) = fun s => ∑ k, C s i k * D s k j := by
    ext s; rw [Matrix.mul_apply]
  rw [he]
  refine h.congr_deriv ?_
  rw [Matrix.add_apply, Matrix.mul_apply, Matrix.mul_apply, Finset.sum_add_distrib]

/-- Jacobi's formula. -/
theorem HasMatDeriv.det (hC : HasMatDeriv C dC t) :
    HasDerivAt (fun s => (C s).det) ((adjugate (C t) * dC).trace) t := by
  simp only [Matrix.det_fin_three]
  have h := ((((((hC 0 0).mul (hC 1 1)).mul (hC 2 2)).sub (((hC 0 0).mul (hC 1 2)).mul (hC 2 1))).sub
    (((hC 0 1).mul (hC 1 0)).mul (hC 2 2))).add (((hC 0 1).mul (hC 1 2)).mul (hC 2 0))).add
    (((hC 0 2).mul (hC 1 0)).mul (hC 2 1)) |>.sub (((hC 0 2).mul (hC 1 1)).mul (hC 2 0))
  refine h.congr_deriv ?_
  rw [Matrix.adjugate_fin_three]
  simp only [Matrix.trace, Fin.sum_univ_three, Matrix.mul_apply, Matrix.diag_apply, Pi.mul_apply]
  simp
  ring

theorem HasMatDeriv.adjugate_exists (hC : HasMatDeriv C dC t) :
    ∃ dA, HasMatDeriv (fun s => adjugate (C s)) dA t := by
  have : ∀ i j, ∃ d, HasDerivAt (fun s => adjugate (C s) i j) d t := by
    intro i j
    simp only [Matrix.adjugate_fin_three]
    fin_cases i <;> fin_cases j <;> simp
    · exact ⟨_, ((hC 1 1).mul (hC 2 2)).sub ((hC 1 2).mul (hC 2 1))⟩
    · exact ⟨_, ((hC 0 1).mul (hC 2 2)).neg.add ((hC 0 2).mul (hC 2 1))⟩
    · exact ⟨_, ((hC 0 1).mul (hC 1 2)).sub ((hC 0 2).mul (hC 1 1))⟩
    · exact ⟨_, ((hC 1 0).mul (hC 2 2)).neg.add ((hC 1 2).mul (hC 2 0))⟩
    · exact ⟨_, ((hC 0 0).mul (hC 2 2)).sub ((hC 0 2).mul (hC 2 0))⟩
    · exact ⟨_, ((hC 0 0).mul (hC 1 2)).neg.add ((hC 0 2).mul (hC 1 0))⟩
    · exact ⟨_, ((hC 1 0).mul (hC 2 1)).sub ((hC 1 1).mul (hC 2 0))⟩
    · exact ⟨_, ((hC 0 0).mul (hC 2 1)).neg.add ((hC 0 1).mul (hC 2 0))⟩
    · exact ⟨_, ((hC 0 0).mul (hC 1 1)).sub ((hC 0 1).mul (hC 1 0))⟩
  choose d hd using this
  exact ⟨d, hd⟩

/-- Derivative of the inverse. -/
theorem HasMatDeriv.inv (hC : HasMatDeriv C dC t) (hdet : (C t).det ≠ 0) :
    HasMatDeriv (fun s => (C s)⁻¹) (-((C t)⁻¹ * dC * (C t)⁻¹)) t := by
  -- differentiability
  have hex : ∃ dB, HasMatDeriv (fun s => (C s)⁻¹) dB t := by
    obtain ⟨dA, hA⟩ := hC.adjugate_exists
    have hd := hC.det.inv hdet
    have hij : ∀ i j, ∃ d, HasDerivAt ((fun s => (C s).det)⁻¹ * fun s => adjugate (C s) i j) d t :=
      fun i j => ⟨_, hd.mul (hA i j)⟩
    choose d hij using hij
    refine ⟨d, fun i j => ?_⟩
    have := hij i j
    have he : (fun s => (C s)⁻¹ i j) =
        ((fun s => (C s).det)⁻¹ * fun s => adjugate (C s) i j) := by
      ext s
      simp [Matrix.inv_def]
    rw [he]
    exact this
  obtain ⟨dB, hB⟩ := hex
  have hu : IsUnit (C t).det := isUnit_iff_ne_zero.mpr hdet
  have hprod := hC.mul hB
  -- the product is constant near t
  have hev : ∀ᶠ s in nhds t, (C s).det ≠ 0 :=
    hC.det.continuousAt.eventually_ne hdet
  have hzero : dC * (C t)⁻¹ + C t * dB = 0 := by
    ext i j
    have h1 : HasDerivAt (fun s => (C s * (C s)⁻¹) i j) 0 t := by
      have hc : HasDerivAt (fun _ : ℝ => (1 : M3) i j) 0 t := hasDerivAt_const _ _
      refine hc.congr_of_eventuallyEq ?_
      filter_upwards [hev] with s hs
      rw [Matrix.mul_nonsing_inv _ (isUnit_iff_ne_zero.mpr hs)]
    exact (hprod i j).unique h1
  have hdB : dB = -((C t)⁻¹ * dC * (C t)⁻¹) := by
    have h2 : (C t)⁻¹ * (dC * (C t)⁻¹ + C t * dB) = 0 := by rw [hzero, Matrix.mul_zero]
    rw [Matrix.mul_add, ← Matrix.mul_assoc, ← Matrix.mul_assoc (C t)⁻¹ (C t),
      Matrix.nonsing_inv_mul _ hu, Matrix.one_mul] at h2
    exact eq_neg_of_add_eq_zero_right h2
  rw [← hdB]
  exact hB

/-- Derivative of the determinant with the inverse. -/
theorem HasMatDeriv.det_inv (hC : HasMatDeriv C dC t) (hdet : (C t).det ≠ 0) :
    HasDerivAt (fun s => (C s).det) ((C t).det * ((C t)⁻¹ * dC).trace) t := by
  refine hC.det.congr_deriv ?_
  rw [Matrix.inv_def, Ring.inverse_eq_inv', Matrix.smul_mul, Matrix.trace_smul, smul_eq_mul,
    mul_inv_cancel_left₀ hdet]

end Ikarus
