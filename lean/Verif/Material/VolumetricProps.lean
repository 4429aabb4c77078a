import Verif.Material.VolumetricModel
import Mathlib.Analysis.SpecialFunctions.Pow.Deriv
import Mathlib.Analysis.SpecialFunctions.Log.Deriv
import Mathlib.Analysis.Calculus.Deriv.ZPow
import Mathlib.Analysis.Calculus.Deriv.Inv
import Mathlib.Analysis.Calculus.MeanValue
import Mathlib.Tactic.FieldSimp
import Mathlib.Tactic.Linarith
import Mathlib.Tactic.Positivity

/-!
C39: volumetric functions.
-/

namespace Ikarus

/-- The parameters for which a function is defined: a zero `beta` (and one, for function 10) divides by
zero. -/
def Spec.AdmissibleVF : VF → Prop
  | .f4 b => b ≠ 0
  | .f7 b => b ≠ 0
  | .f10 b => b ≠ 0 ∧ b ≠ 1
  | _ => True

/-- Specification: energy and stress vanish in the undeformed state. -/
def Spec.VolumetricNormalised (f : VF) : Prop := f.storedEnergy 1 = 0 ∧ f.firstDerivative 1 = 0

open Spec

/-- C39. The first derivative is the derivative of the energy, and the second derivative the derivative of
the first one, for all thirteen functions, all admissible parameters and all J > 0. -/
theorem volumetric_derivatives (f : VF) (hf : AdmissibleVF f) (J : ℝ) (hJ : 0 < J) :
    HasDerivAt f.storedEnergy (f.firstDerivative J) J ∧
    HasDerivAt f.firstDerivative (f.secondDerivative J) J := by
  have hJ0 : J ≠ 0 := hJ.ne'
  have hid : HasDerivAt (fun x : ℝ => x) 1 J := hasDerivAt_id J
  have hlog := Real.hasDerivAt_log hJ0
  have hinv : HasDerivAt (fun x : ℝ => 1 / x) (-(1 / J ^ 2)) J := by
    have := hasDerivAt_inv hJ0
    simp only [one_div]
    exact this
  have hpow : ∀ n : ℕ, HasDerivAt (fun x : ℝ => x ^ n) (n * J ^ (n - 1)) J := fun n => hasDerivAt_pow n J
  have hzpow : ∀ n : ℤ, HasDerivAt (fun x : ℝ => x ^ n) (n * J ^ (n - 1)) J :=
    fun n => hasDerivAt_zpow n J (Or.inl hJ0)
  have hrpow : ∀ b : ℝ, HasDerivAt (fun x : ℝ => x ^ b) (b * J ^ (b - 1)) J :=
    fun b => Real.hasDerivAt_rpow_const (Or.inl hJ0)
  have hne : ∀ b : ℝ, J ^ b ≠ 0 := fun b => (Real.rpow_pos_of_pos hJ b).ne'
  cases f with
  | f0 => exact ⟨hasDerivAt_const _ _, hasDerivAt_const _ _⟩
  | f1 =>
    constructor
    · have := ((hid.sub_const 1).pow 2).const_mul (1 / 2)
      refine this.congr_deriv ?_
      simp [VF.firstDerivative]
    · exact hid.sub_const 1
  | f2 =>
    constructor
    · have := (((hid.sub_const 1).pow 2).add (hlog.pow 2)).const_mul (1 / 4)
      refine this.congr_deriv ?_
      simp only [VF.firstDerivative]
      field_simp
      ring
    · have := ((hid.sub_const 1).add (hinv.mul hlog)).const_mul (1 / 2)
      refine this.congr_deriv ?_
      simp only [VF.secondDerivative]
      field_simp
      ring
  | f3 =>
    constructor
    · have := (hlog.pow 2).const_mul (1 / 2)
      refine this.congr_deriv ?_
      simp only [VF.firstDerivative]
      field_simp
      ring
    · have := hinv.mul hlog
      refine this.congr_deriv ?_
      simp only [VF.secondDerivative]
      field_simp
      ring
  | f4 b =>
    have hb : b ≠ 0 := hf
    have hr1 : J ^ (1 + b) = J * J ^ b := by rw [Real.rpow_add hJ, Real.rpow_one]
    have hr2 : J ^ (2 + b) = J ^ 2 * J ^ b := by
      rw [Real.rpow_add hJ, show (2 : ℝ) = ((2 : ℕ) : ℝ) by norm_num, Real.rpow_natCast]
    have hr3 : J ^ (b - 1) = J ^ b / J := by rw [Real.rpow_sub hJ, Real.rpow_one]
    have h0 := hne b
    constructor
    · have := ((((hrpow b).inv (hne b)).sub_const 1).add (hlog.const_mul b)).const_mul (1 / b ^ 2)
      have hfun : (VF.f4 b).storedEnergy =
          fun x => 1 / b ^ 2 * ((x ^ b)⁻¹ - 1 + b * Real.log x) := by
        ext x; simp only [VF.storedEnergy, one_div]
      rw [hfun]
      refine this.congr_deriv ?_
      simp only [VF.firstDerivative, hr1, hr3]
      field_simp
      ring
    · have := (hinv.sub ((hrpow (1 + b)).inv (hne (1 + b)))).const_mul (1 / b)
      have hfun : (VF.f4 b).firstDerivative = fun x => 1 / b * (1 / x - (x ^ (1 + b))⁻¹) := by
        ext x; simp only [VF.firstDerivative, one_div]
      rw [hfun]
      refine this.congr_deriv ?_
      simp only [VF.secondDerivative, hr1, hr2, show 1 + b - 1 = b by ring]
      field_simp
      ring
  | f5 =>
    constructor
    · have := (((hpow 2).sub_const 1).sub (hlog.const_mul 2)).const_mul (1 / 4)
      refine this.congr_deriv ?_
      simp only [VF.firstDerivative]
      field_simp
      norm_num
      ring
    · have := (hid.sub hinv).const_mul (1 / 2)
      refine this.congr_deriv ?_
      simp only [VF.secondDerivative]
      ring
  | f6 =>
    constructor
    · have := (hid.sub hlog).sub_const 1
      refine this.congr_deriv ?_
      simp only [VF.firstDerivative, one_div]
    · have := hinv.const_sub 1
      refine this.congr_deriv ?_
      simp only [VF.secondDerivative, neg_neg]
  | f7 b =>
    have hb : b ≠ 0 := hf
    have hr1 : J ^ (1 - b) = J / J ^ b := by rw [Real.rpow_sub hJ, Real.rpow_one]
    have hr2 : J ^ (b - 2) = J ^ b / J ^ 2 := by
      rw [Real.rpow_sub hJ, show (2 : ℝ) = ((2 : ℕ) : ℝ) by norm_num, Real.rpow_natCast]
    have hr3 : J ^ (b - 1) = J ^ b / J := by rw [Real.rpow_sub hJ, Real.rpow_one]
    have h0 := hne b
    constructor
    · have := ((hrpow b).mul ((hlog.const_mul b).sub_const 1)).add_const 1
      refine this.congr_deriv ?_
      simp only [VF.firstDerivative, hr1, hr3]
      field_simp
      ring
    · have := (((hrpow (1 - b)).inv (hne (1 - b))).const_mul (b ^ 2)).mul hlog
      have hfun : (VF.f7 b).firstDerivative =
          fun x => b ^ 2 * (x ^ (1 - b))⁻¹ * Real.log x := by
        ext x; simp only [VF.firstDerivative, one_div]
      rw [hfun]
      refine this.congr_deriv ?_
      have hr4 : J ^ (1 - b - 1) = 1 / J ^ b := by
        rw [show 1 - b - 1 = -b by ring, Real.rpow_neg hJ.le, one_div]
      simp only [VF.secondDerivative, Pi.inv_apply, hr1, hr2, hr4]
      field_simp
      ring
  | f8 =>
    constructor
    · have := ((hid.mul hlog).sub hid).add_const 1
      refine this.congr_deriv ?_
      simp only [VF.firstDerivative]
      field_simp
      ring
    · refine hlog.congr_deriv ?_
      simp only [VF.secondDerivative, one_div]
  | f9 =>
    constructor
    · have := (((hpow 2).sub (hzpow (-2))).pow 2).const_mul (1 / 32)
      refine this.congr_deriv ?_
      simp only [VF.firstDerivative]
      norm_num [zpow_neg]
      field_simp
      ring
    · have := ((hpow 3).sub ((hpow 5).inv (pow_ne_zero 5 hJ0))).const_mul (1 / 8)
      have hfun : VF.f9.firstDerivative = fun x => 1 / 8 * (x ^ 3 - (x ^ 5)⁻¹) := by
        ext x; simp only [VF.firstDerivative, one_div]
      rw [hfun]
      refine this.congr_deriv ?_
      simp only [VF.secondDerivative]
      norm_num [zpow_neg]
      field_simp
      ring
  | f10 b =>
    obtain ⟨hb, hb1⟩ := (hf : b ≠ 0 ∧ b ≠ 1)
    have h1b : 1 - b ≠ 0 := sub_ne_zero.mpr hb1.symm
    have hr1 : J ^ (-b - 1) = J ^ (-b) / J := by rw [Real.rpow_sub hJ, Real.rpow_one]
    have hr2 : J ^ (-1 - b) = J ^ (-b) / J := by
      rw [show -1 - b = -b - 1 by ring, Real.rpow_sub hJ, Real.rpow_one]
    constructor
    · have := ((hid.div_const b).mul (((hrpow (-b)).div_const (1 - b)).const_sub 1)).add_const
        (1 / (b - 1))
      refine this.congr_deriv ?_
      simp only [VF.firstDerivative, hr1]
      field_simp
      ring
    · have := ((hrpow (-b)).const_sub 1).const_mul (1 / b)
      refine this.congr_deriv ?_
      simp only [VF.secondDerivative, hr1, hr2]
      field_simp
  | f11 =>
    constructor
    · have := (((hpow 5).add (hzpow (-5))).sub_const 2).const_mul (1 / 50)
      refine this.congr_deriv ?_
      simp only [VF.firstDerivative]
      norm_num [zpow_neg]
      field_simp
      ring
    · have := ((hpow 4).sub (hzpow (-6))).const_mul (1 / 10)
      refine this.congr_deriv ?_
      simp only [VF.secondDerivative]
      norm_num [zpow_neg]
  | f12 => exact ⟨hid.sub_const 1, hasDerivAt_const _ _⟩

/-- C39, partial. Energy and first derivative vanish at J = 1 for all functions except 10 (whose energy
has the offset 2 / (beta - 1)) and 12 (whose slope is one); the second derivative is one, so that the
material parameter is the bulk modulus, for all functions except 0, 7 (beta²) and 12. -/
theorem volumetric_normalised_partial (f : VF) (hf : AdmissibleVF f) :
    ((∀ b, f ≠ .f10 b) → f.storedEnergy 1 = 0) ∧
    (f ≠ .f12 → f.firstDerivative 1 = 0) ∧
    (∀ b, f = .f10 b → f.storedEnergy 1 = 2 / (b - 1)) ∧
    (∀ b, f = .f7 b → f.secondDerivative 1 = b ^ 2) ∧
    (f ≠ .f0 → (∀ b, f ≠ .f7 b) → f ≠ .f12 → f.secondDerivative 1 = 1) := by
  cases f with
  | f4 b =>
    have hb : b ≠ 0 := hf
    simp [VF.storedEnergy, VF.firstDerivative, VF.secondDerivative, hb]
  | f10 b =>
    obtain ⟨hb, hb1⟩ := (hf : b ≠ 0 ∧ b ≠ 1)
    have h1b : 1 - b ≠ 0 := sub_ne_zero.mpr hb1.symm
    have hb1' : b - 1 ≠ 0 := sub_ne_zero.mpr hb1
    simp [VF.storedEnergy, VF.firstDerivative, VF.secondDerivative]
    rw [show b - 1 = -(1 - b) by ring]
    field_simp
    ring
  | _ =>
    norm_num [VF.storedEnergy, VF.firstDerivative, VF.secondDerivative] <;>
      (try constructor) <;> intro b hb <;> cases hb

/-- C39. The normalisation fails for functions 10 and 12: the undeformed state has energy, respectively
stress. -/
theorem volumetric_not_normalised (b : ℝ) (hb : b ≠ 0 ∧ b ≠ 1) :
    ¬ VolumetricNormalised (.f10 b) ∧ ¬ VolumetricNormalised .f12 := by
  have h1 := (volumetric_normalised_partial (.f10 b) hb).2.2.1 b rfl
  constructor
  · intro h
    rw [h.1] at h1
    have : b - 1 ≠ 0 := sub_ne_zero.mpr hb.2
    have h2 : (2 : ℝ) / (b - 1) ≠ 0 := div_ne_zero two_ne_zero this
    exact h2 h1.symm
  · intro h
    exact one_ne_zero h.2

example := volumetric_not_normalised (-2) (by norm_num)

theorem log_sign (J : ℝ) (hJ : 0 < J) (h1 : J ≠ 1) : 0 < (J - 1) * Real.log J := by
  rcases lt_or_gt_of_ne h1 with h | h
  · exact mul_pos_of_neg_of_neg (by linarith) (Real.log_neg hJ h)
  · exact mul_pos (by linarith) (Real.log_pos h)

theorem rpow_sign (J b : ℝ) (hJ : 0 < J) (h1 : J ≠ 1) (hb : b ≠ 0) :
    0 < (J - 1) * (1 / b * (1 - J ^ (-b))) := by
  rcases lt_or_gt_of_ne h1 with h | h <;> rcases lt_or_gt_of_ne hb with hb' | hb'
  · have : J ^ (-b) < 1 := Real.rpow_lt_one hJ.le h (by linarith)
    apply mul_pos_of_neg_of_neg (by linarith)
    exact mul_neg_of_neg_of_pos (one_div_neg.mpr hb') (by linarith)
  · have : 1 < J ^ (-b) := Real.one_lt_rpow_of_pos_of_lt_one_of_neg hJ h (by linarith)
    apply mul_pos_of_neg_of_neg (by linarith)
    exact mul_neg_of_pos_of_neg (one_div_pos.mpr hb') (by linarith)
  · have : 1 < J ^ (-b) := Real.one_lt_rpow h (by linarith)
    apply mul_pos (by linarith)
    exact mul_pos_of_neg_of_neg (one_div_neg.mpr hb') (by linarith)
  · have : J ^ (-b) < 1 := Real.rpow_lt_one_of_one_lt_of_neg h (by linarith)
    apply mul_pos (by linarith)
    exact mul_pos (one_div_pos.mpr hb') (by linarith)

/-- C39. The volumetric stress has the sign of the volume change: for every function except 0 and 12,
U'(J) is positive for J > 1 and negative for 0 < J < 1. -/
theorem volumetric_sign (f : VF) (hf : AdmissibleVF f) (h0 : f ≠ .f0) (h12 : f ≠ .f12) (J : ℝ)
    (hJ : 0 < J) (h1 : J ≠ 1) : 0 < (J - 1) * f.firstDerivative J := by
  have hl := log_sign J hJ h1
  have hsq : 0 < (J - 1) ^ 2 := by
    have : J - 1 ≠ 0 := sub_ne_zero.mpr h1
    positivity
  have hJ0 : J ≠ 0 := hJ.ne'
  cases f with
  | f0 => exact absurd rfl h0
  | f1 =>
    simp only [VF.firstDerivative]
    nlinarith
  | f2 =>
    simp only [VF.firstDerivative]
    have : (J - 1) * (1 / 2 * (J - 1 + 1 / J * Real.log J)) =
        1 / 2 * (J - 1) ^ 2 + 1 / 2 * (1 / J) * ((J - 1) * Real.log J) := by ring
    rw [this]
    positivity
  | f3 =>
    simp only [VF.firstDerivative]
    have : (J - 1) * (1 / J * Real.log J) = 1 / J * ((J - 1) * Real.log J) := by ring
    rw [this]
    positivity
  | f4 b =>
    simp only [VF.firstDerivative]
    have hr := rpow_sign J b hJ h1 hf
    have he : (J - 1) * (1 / b * (1 / J - 1 / J ^ (1 + b))) =
        1 / J * ((J - 1) * (1 / b * (1 - J ^ (-b)))) := by
      rw [Real.rpow_add hJ, Real.rpow_one, Real.rpow_neg hJ.le]
      have : J ^ b ≠ 0 := (Real.rpow_pos_of_pos hJ b).ne'
      field_simp
    rw [he]
    positivity
  | f5 =>
    simp only [VF.firstDerivative]
    have : (J - 1) * (1 / 2 * (J - 1 / J)) = (J - 1) ^ 2 * ((J + 1) / (2 * J)) := by
      field_simp
      ring
    rw [this]
    positivity
  | f6 =>
    simp only [VF.firstDerivative]
    have : (J - 1) * (1 - 1 / J) = (J - 1) ^ 2 * (1 / J) := by
      field_simp
    rw [this]
    positivity
  | f7 b =>
    have hb : b ≠ 0 := hf
    simp only [VF.firstDerivative]
    have : (J - 1) * (b ^ 2 * (1 / J ^ (1 - b)) * Real.log J) =
        b ^ 2 * (1 / J ^ (1 - b)) * ((J - 1) * Real.log J) := by ring
    rw [this]
    have := Real.rpow_pos_of_pos hJ (1 - b)
    positivity
  | f8 => exact hl
  | f9 =>
    simp only [VF.firstDerivative]
    have : (J - 1) * (1 / 8 * (J ^ 3 - 1 / J ^ 5)) =
        (J - 1) ^ 2 * ((1 + J + J ^ 2 + J ^ 3 + J ^ 4 + J ^ 5 + J ^ 6 + J ^ 7) / (8 * J ^ 5)) := by
      field_simp
      ring
    rw [this]
    positivity
  | f10 b => exact rpow_sign J b hJ h1 hf.1
  | f11 =>
    simp only [VF.firstDerivative]
    have : (J - 1) * (1 / 10 * (J ^ 4 - J ^ (-6 : ℤ))) = (J - 1) ^ 2 *
        ((1 + J + J ^ 2 + J ^ 3 + J ^ 4 + J ^ 5 + J ^ 6 + J ^ 7 + J ^ 8 + J ^ 9) / (10 * J ^ 6)) := by
      rw [zpow_neg]
      norm_cast
      field_simp
      ring
    rw [this]
    positivity
  | f12 => exact absurd rfl h12

example := volumetric_sign (.f7 2) (by simp [AdmissibleVF]) (by simp) (by simp) (1 / 2) (by norm_num) (by norm_num)

/-- C39. The undeformed state is the strict minimum of the volumetric energy over all J > 0, for a
positive material parameter and every function except 0 and 12. -/
theorem volumetric_minimum (v : Volumetric) (hm : 0 < v.matPar) (hf : AdmissibleVF v.vf)
    (h0 : v.vf ≠ .f0) (h12 : v.vf ≠ .f12) (J : ℝ) (hJ : 0 < J) (h1 : J ≠ 1) :
    v.storedEnergy 1 < v.storedEnergy J := by
  have hd := fun x (hx : 0 < x) => (volumetric_derivatives v.vf hf x hx).1
  have key : v.vf.storedEnergy 1 < v.vf.storedEnergy J := by
    rcases lt_or_gt_of_ne h1 with h | h
    · obtain ⟨c, hc, he⟩ := exists_hasDerivAt_eq_slope v.vf.storedEnergy v.vf.firstDerivative h
        (fun x hx => (hd x (lt_of_lt_of_le hJ hx.1)).continuousAt.continuousWithinAt)
        (fun x hx => hd x (lt_trans hJ hx.1))
      have hs := volumetric_sign v.vf hf h0 h12 c (lt_trans hJ hc.1) hc.2.ne
      rw [he] at hs
      have hc1 : c - 1 < 0 := by linarith [hc.2]
      have hn : (v.vf.storedEnergy 1 - v.vf.storedEnergy J) / (1 - J) < 0 := by
        by_contra hcon
        have := mul_nonpos_of_nonpos_of_nonneg hc1.le (not_lt.mp hcon)
        linarith
      have h1J : 0 < 1 - J := by linarith
      have := (div_neg_iff.mp hn).resolve_left (fun hh => by linarith [hh.2])
      linarith [this.1]
    · obtain ⟨c, hc, he⟩ := exists_hasDerivAt_eq_slope v.vf.storedEnergy v.vf.firstDerivative h
        (fun x hx => (hd x (lt_of_lt_of_le one_pos hx.1)).continuousAt.continuousWithinAt)
        (fun x hx => hd x (lt_trans one_pos hx.1))
      have hs := volumetric_sign v.vf hf h0 h12 c (lt_trans one_pos hc.1) hc.1.ne'
      rw [he] at hs
      have hc1 : 0 < c - 1 := by linarith [hc.1]
      have hp : 0 < (v.vf.storedEnergy J - v.vf.storedEnergy 1) / (J - 1) :=
        (mul_pos_iff_of_pos_left hc1).mp hs
      have h1J : 0 < J - 1 := by linarith
      have := (div_pos_iff.mp hp).resolve_right (fun hh => by linarith [hh.2])
      linarith [this.1]
  exact mul_lt_mul_of_pos_left key hm

example := volumetric_minimum ⟨5, .f3⟩ (by norm_num) (by simp [AdmissibleVF]) (by simp) (by simp) 2 (by norm_num) (by norm_num)

/-- C39. The same for the functions multiplied by the material parameter. -/
theorem volumetric_scaled (v : Volumetric) (hf : AdmissibleVF v.vf) (J : ℝ) (hJ : 0 < J) :
    HasDerivAt v.storedEnergy (v.firstDerivative J) J ∧
    HasDerivAt v.firstDerivative (v.secondDerivative J) J := by
  obtain ⟨h1, h2⟩ := volumetric_derivatives v.vf hf J hJ
  exact ⟨h1.const_mul v.matPar, h2.const_mul v.matPar⟩

example : AdmissibleVF (.f10 (-2)) ∧ (VF.f10 (-2)).storedEnergy 1 = -2 / 3 := by
  constructor
  · constructor <;> norm_num
  · norm_num [VF.storedEnergy]

end Ikarus
