import Verif.Material.DeviatoricModel
import Mathlib.Analysis.SpecialFunctions.Pow.Deriv
import Mathlib.Analysis.SpecialFunctions.Log.Deriv
import Mathlib.Analysis.Calculus.Deriv.Pow
import Mathlib.Analysis.Calculus.Deriv.Inv
import Mathlib.Tactic.FieldSimp
import Mathlib.Tactic.Ring
import Mathlib.Tactic.Linarith
import Mathlib.Tactic.Positivity
import Mathlib.Tactic.FinCases

/-!
Derivatives of the deviatoric stretches and their invariants along paths.
-/

namespace Ikarus

open Real

/-- The entries of `l` have the derivatives `dl` at `t`. -/
def HasVecDeriv (l : ℝ → Fin 3 → ℝ) (dl : Fin 3 → ℝ) (t : ℝ) : Prop :=
  ∀ a, HasDerivAt (fun s => l s a) (dl a) t

variable {l : ℝ → Fin 3 → ℝ} {dl : Fin 3 → ℝ} {t : ℝ}

theorem HasVecDeriv.pos_eventually (h : HasVecDeriv l dl t) (hp : ∀ a, 0 < l t a) :
    ∀ᶠ s in nhds t, ∀ a, 0 < l s a := by
  rw [Filter.eventually_all]
  exact fun a => (h a).continuousAt.eventually (lt_mem_nhds (hp a))

theorem inv0 (x : Fin 3 → ℝ) : invariants x 0 = x 0 ^ 2 + x 1 ^ 2 + x 2 ^ 2 := rfl
theorem inv1 (x : Fin 3 → ℝ) :
    invariants x 1 = x 0 ^ 2 * x 1 ^ 2 + x 1 ^ 2 * x 2 ^ 2 + x 0 ^ 2 * x 2 ^ 2 := rfl
theorem inv2 (x : Fin 3 → ℝ) : invariants x 2 = x 0 ^ 2 * x 1 ^ 2 * x 2 ^ 2 := rfl

theorem inv2_pos {x : Fin 3 → ℝ} (h : ∀ a, 0 < x a) : 0 < invariants x 2 := by
  have := h 0; have := h 1; have := h 2
  rw [inv2]; positivity

theorem HasVecDeriv.inv0 (h : HasVecDeriv l dl t) :
    HasDerivAt (fun s => invariants (l s) 0)
      (2 * l t 0 * dl 0 + 2 * l t 1 * dl 1 + 2 * l t 2 * dl 2) t := by
  simp only [Ikarus.inv0]
  refine ((((h 0).pow 2).add ((h 1).pow 2)).add ((h 2).pow 2)).congr_deriv ?_
  simp

theorem HasVecDeriv.inv1 (h : HasVecDeriv l dl t) :
    HasDerivAt (fun s => invariants (l s) 1)
      (2 * l t 0 * dl 0 * (l t 1 ^ 2 + l t 2 ^ 2) + 2 * l t 1 * dl 1 * (l t 0 ^ 2 + l t 2 ^ 2) +
        2 * l t 2 * dl 2 * (l t 0 ^ 2 + l t 1 ^ 2)) t := by
  simp only [Ikarus.inv1]
  have h0 := (h 0).pow 2; have h1 := (h 1).pow 2; have h2 := (h 2).pow 2
  refine (((h0.mul h1).add (h1.mul h2)).add (h0.mul h2)).congr_deriv ?_
  simp
  ring

theorem HasVecDeriv.inv2 (h : HasVecDeriv l dl t) (hp : ∀ a, 0 < l t a) :
    HasDerivAt (fun s => invariants (l s) 2)
      (2 * invariants (l t) 2 * (dl 0 / l t 0 + dl 1 / l t 1 + dl 2 / l t 2)) t := by
  simp only [Ikarus.inv2]
  have h0 := (h 0).pow 2; have h1 := (h 1).pow 2; have h2 := (h 2).pow 2
  have p0 := hp 0; have p1 := hp 1; have p2 := hp 2
  refine ((h0.mul h1).mul h2).congr_deriv ?_
  simp
  field_simp

/-- Powers of the third invariant. -/
theorem HasVecDeriv.inv2_rpow (h : HasVecDeriv l dl t) (hp : ∀ a, 0 < l t a) (q : ℝ) :
    HasDerivAt (fun s => invariants (l s) 2 ^ q)
      (2 * q * invariants (l t) 2 ^ q * (dl 0 / l t 0 + dl 1 / l t 1 + dl 2 / l t 2)) t := by
  have hI := inv2_pos hp
  refine ((h.inv2 hp).rpow_const (p := q) (Or.inl hI.ne')).congr_deriv ?_
  rw [rpow_sub_one hI.ne']
  field_simp

/-- Powers of the deviatoric stretches. -/
theorem HasVecDeriv.bar_rpow (h : HasVecDeriv l dl t) (hp : ∀ a, 0 < l t a) (q : ℝ) (a : Fin 3) :
    HasDerivAt (fun s => deviatoricStretches (l s) a ^ q)
      (q * deviatoricStretches (l t) a ^ q *
        (dl a / l t a - 1 / 3 * (dl 0 / l t 0 + dl 1 / l t 1 + dl 2 / l t 2))) t := by
  have p0 := hp 0; have p1 := hp 1; have p2 := hp 2; have pa := hp a
  have hJ : 0 < l t 0 * l t 1 * l t 2 := by positivity
  have h1 : HasDerivAt (fun s => l s 0 * l s 1 * l s 2)
      ((l t 0 * l t 1 * l t 2) * (dl 0 / l t 0 + dl 1 / l t 1 + dl 2 / l t 2)) t := by
    refine (((h 0).mul (h 1)).mul (h 2)).congr_deriv ?_
    simp
    field_simp
  have h2 := h1.rpow_const (p := (-1 / 3 : ℝ)) (Or.inl hJ.ne')
  have h3 := h2.mul (h a)
  have hb : 0 < deviatoricStretches (l t) a := by
    unfold deviatoricStretches determinantFromPrincipalValues
    positivity
  have h4 := h3.rpow_const (p := q) (Or.inl (by exact hb.ne'))
  refine h4.congr_deriv ?_
  have e : ((fun s => (l s 0 * l s 1 * l s 2) ^ (-1 / 3 : ℝ)) * fun s => l s a) t =
      deviatoricStretches (l t) a := rfl
  rw [e, rpow_sub_one hb.ne' q, rpow_sub_one hJ.ne']
  have e2 : deviatoricStretches (l t) a = (l t 0 * l t 1 * l t 2) ^ (-1 / 3 : ℝ) * l t a := rfl
  have hk : 0 < (l t 0 * l t 1 * l t 2) ^ (-1 / 3 : ℝ) := rpow_pos_of_pos hJ _
  generalize (deviatoricStretches (l t) a) ^ q = B
  rw [e2]
  generalize (l t 0 * l t 1 * l t 2) ^ (-1 / 3 : ℝ) = k at *
  field_simp
  ring

theorem neg_third {x : ℝ} (hx : 0 < x) : x ^ (-1 / 3 : ℝ) = (x ^ (1 / 3 : ℝ))⁻¹ := by
  rw [← rpow_neg hx.le]; congr 1; norm_num

theorem neg_two_thirds {x : ℝ} (hx : 0 < x) : x ^ (-2 / 3 : ℝ) = (x ^ (2 / 3 : ℝ))⁻¹ := by
  rw [← rpow_neg hx.le]; congr 1; norm_num

open DeviatoricInvariants

theorem HasVecDeriv.W1 (h : HasVecDeriv l dl t) (hp : ∀ a, 0 < l t a) :
    HasDerivAt (fun s => W1 (l s)) (∑ a, dW1 (l t) a * dl a) t := by
  have hI := inv2_pos hp
  have p0 := hp 0; have p1 := hp 1; have p2 := hp 2
  refine (h.inv0.mul (h.inv2_rpow hp (-1 / 3))).congr_deriv ?_
  rw [neg_third hI, Fin.sum_univ_three]
  have hc := rpow_pos_of_pos hI (1 / 3)
  simp only [dW1, Ikarus.inv0]
  generalize invariants (l t) 2 ^ (1 / 3 : ℝ) = c at *
  field_simp
  ring

theorem HasVecDeriv.W2 (h : HasVecDeriv l dl t) (hp : ∀ a, 0 < l t a) :
    HasDerivAt (fun s => W2 (l s)) (∑ a, dW2 (l t) a * dl a) t := by
  have hI := inv2_pos hp
  have p0 := hp 0; have p1 := hp 1; have p2 := hp 2
  refine (h.inv1.mul (h.inv2_rpow hp (-2 / 3))).congr_deriv ?_
  rw [neg_two_thirds hI, Fin.sum_univ_three]
  have hc := rpow_pos_of_pos hI (2 / 3)
  simp only [dW2, Ikarus.inv1]
  generalize invariants (l t) 2 ^ (2 / 3 : ℝ) = c at *
  simp only [Ikarus.inv2]
  field_simp
  ring

theorem HasVecDeriv.dW1 (h : HasVecDeriv l dl t) (hp : ∀ a, 0 < l t a) (a : Fin 3) :
    HasDerivAt (fun s => dW1 (l s) a) (∑ b, ddW1 (l t) a b * dl b) t := by
  have hI := inv2_pos hp
  have p0 := hp 0; have p1 := hp 1; have p2 := hp 2; have pa := hp a
  have hc := rpow_pos_of_pos hI (1 / 3)
  have hnum := ((((h a).pow 2).const_mul 3).sub h.inv0).const_mul 2
  have hden := ((h a).const_mul 3).mul (h.inv2_rpow hp (1 / 3))
  refine (hnum.div hden (mul_pos (mul_pos three_pos pa) hc).ne').congr_deriv ?_
  rw [Fin.sum_univ_three]
  simp only [ddW1, Pi.mul_apply, Pi.sub_apply, Pi.pow_apply]
  generalize invariants (l t) 2 ^ (1 / 3 : ℝ) = c at *
  simp only [Ikarus.inv0]
  fin_cases a <;> simp <;> field_simp <;> ring

theorem HasVecDeriv.dW2 (h : HasVecDeriv l dl t) (hp : ∀ a, 0 < l t a) (a : Fin 3) :
    HasDerivAt (fun s => dW2 (l s) a) (∑ b, ddW2 (l t) a b * dl b) t := by
  have hI := inv2_pos hp
  have p0 := hp 0; have p1 := hp 1; have p2 := hp 2; have pa := hp a
  have hc := rpow_pos_of_pos hI (2 / 3)
  have hinv := ((h a).pow 2).inv (pow_pos pa 2).ne'
  have hnum := ((((h.inv2 hp).const_mul 3).mul hinv).sub h.inv1).const_mul (-2)
  have hden := ((h a).const_mul 3).mul (h.inv2_rpow hp (2 / 3))
  refine (hnum.div hden (mul_pos (mul_pos three_pos pa) hc).ne').congr_deriv ?_
  rw [Fin.sum_univ_three]
  simp only [ddW2, Pi.mul_apply, Pi.sub_apply, Pi.pow_apply, Pi.inv_apply]
  generalize invariants (l t) 2 ^ (2 / 3 : ℝ) = c at *
  simp only [Ikarus.inv1, Ikarus.inv2]
  fin_cases a <;> simp <;> field_simp <;> ring

end Ikarus
