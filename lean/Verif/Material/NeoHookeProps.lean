import Verif.Material.NeoHookeModel
import Verif.Material.MatrixCalculus
import Verif.Tensor.VoigtProps
import Mathlib.Analysis.SpecialFunctions.Log.Deriv
import Mathlib.Analysis.SpecialFunctions.Exp
import Mathlib.Analysis.SpecialFunctions.ExpDeriv
import Mathlib.Analysis.SpecialFunctions.Sqrt
import Mathlib.Analysis.Calculus.Deriv.MeanValue
import Mathlib.LinearAlgebra.Matrix.Symmetric
import Mathlib.LinearAlgebra.Matrix.ToLinearEquiv
import Mathlib.Tactic.Linarith
import Mathlib.Tactic.Positivity
import Mathlib.Tactic.FieldSimp
import Mathlib.Tactic.NormNum
import Mathlib.Topology.Order.IntermediateValue
import Mathlib.Tactic.GCongr

/-!
C41: Neo-Hooke material.
-/

namespace Ikarus

open Matrix Spec Real

/-! ### Specification -/

/-- A function that returns only values satisfying the defining equation of the Lambert function. -/
def Spec.IsLambert (W : ℝ → Option ℝ) : Prop := ∀ z w, W z = some w → w * exp w = z

/-- Additionally the function is defined on `[-1/e, ∞)` and returns the upper branch. -/
structure Spec.IsLambert0 (W : ℝ → Option ℝ) : Prop where
  sound : IsLambert W
  upper : ∀ z w, W z = some w → -1 ≤ w
  total : ∀ z, -exp (-1) ≤ z → (W z).isSome

/-! ### Lemmas -/

theorem checkPositive_iff {eps d : ℝ} (he1 : eps < 1) :
    checkPositiveOrAbort eps d = some () ↔ 0 < d := by
  unfold checkPositiveOrAbort floatCmpLe floatCmpEq
  constructor
  · intro h
    by_contra hd
    have : d < 0 ∨ |d - 0| ≤ eps * max |d| |0| := by
      rcases lt_or_eq_of_le (not_lt.mp hd) with h' | h'
      · exact Or.inl h'
      · right; rw [h']; simp
    rw [if_pos this] at h
    exact absurd h (by simp)
  · intro hd
    rw [if_neg]
    rintro (h | h)
    · linarith
    · rw [sub_zero, abs_zero, max_eq_left (abs_nonneg d), abs_of_pos hd] at h
      nlinarith

theorem checkPositive_some {eps d : ℝ} (he1 : eps < 1) (hd : 0 < d) :
    checkPositiveOrAbort eps d = some () := (checkPositive_iff he1).mpr hd

theorem checkPositive_none {eps d : ℝ} (he1 : eps < 1) (hd : ¬ 0 < d) :
    checkPositiveOrAbort eps d = none := by
  cases h : checkPositiveOrAbort eps d with
  | none => rfl
  | some u => exact absurd ((checkPositive_iff he1).mp h) hd

namespace NeoHooke

variable (m : NeoHooke) {eps : ℝ}

noncomputable def lnJ (C : M3) : ℝ := log (√C.det)

theorem storedEnergy_eq (he1 : eps < 1) {C : M3} (h : 0 < C.det) :
    m.storedEnergy eps C = some (m.mu / 2 * (C.trace - 3 - 2 * lnJ C) + m.lambda / 2 * lnJ C * lnJ C) := by
  simp only [storedEnergy, checkPositive_some he1 h, Option.bind_eq_bind, Option.bind_some]
  rfl

theorem stresses_eq (he1 : eps < 1) {C : M3} (h : 0 < C.det) :
    m.stresses eps C = some (m.mu • (1 - C⁻¹) + (m.lambda * lnJ C) • C⁻¹) := by
  simp only [stresses, checkPositive_some he1 h, Option.bind_eq_bind, Option.bind_some]
  rfl

/-- The moduli tensor. -/
noncomputable def moduli (C : M3) : Tensor4 ℝ 3 := fun i j k l =>
  m.lambda * (C⁻¹ i j * C⁻¹ k l) +
    2 * (m.mu - m.lambda * lnJ C) * (1 / 2 * (C⁻¹ i k * C⁻¹ j l + C⁻¹ i l * C⁻¹ j k))

theorem symTwoSlots_IKJL (A B : M3) :
    symTwoSlots (fourthOrderIKJL A B) 2 3 = some fun i j k l =>
      1 / 2 * (A i k * B j l + A i l * B j k) := by
  unfold symTwoSlots
  rw [dif_pos (by decide)]
  congr 1

theorem tangentModuli_eq (he1 : eps < 1) {C : M3} (h : 0 < C.det) :
    m.tangentModuli eps C = some (m.moduli C) := by
  simp only [tangentModuli, checkPositive_some he1 h, Option.bind_eq_bind, Option.bind_some,
    symTwoSlots_IKJL]
  rfl

theorem moduli_contract (C X : M3) (hC : C.IsSymm) (hX : X.IsSymm) :
    contract (m.moduli C) X =
      (m.lambda * (C⁻¹ * X).trace) • C⁻¹ + (2 * (m.mu - m.lambda * lnJ C)) • (C⁻¹ * X * C⁻¹) := by
  have hB : (C⁻¹).IsSymm := by rw [IsSymm, transpose_nonsing_inv, hC]
  have x1 := hX.apply 0 1
  have x2 := hX.apply 0 2
  have x3 := hX.apply 1 2
  ext i j
  simp only [contract, moduli]
  have hj : ∀ k, C⁻¹ k j = C⁻¹ j k := fun k => hB.apply j k
  have hk0 := hB.apply 0 1
  have hk1 := hB.apply 0 2
  have hk2 := hB.apply 1 2
  simp only [Matrix.add_apply, Matrix.smul_apply, Matrix.mul_apply, trace, Matrix.diag_apply, smul_eq_mul,
    Fin.sum_univ_three, hj, hk0, hk1, hk2, x1, x2, x3]
  ring

theorem det_pos_eventually {C : ℝ → M3} {dC : M3} {t : ℝ} (hC : HasMatDeriv C dC t)
    (h : 0 < (C t).det) : ∀ᶠ s in nhds t, 0 < (C s).det :=
  hC.det.continuousAt.eventually (lt_mem_nhds h)

theorem lnJ_deriv {C : ℝ → M3} {dC : M3} {t : ℝ} (hC : HasMatDeriv C dC t) (h : 0 < (C t).det) :
    HasDerivAt (fun s => lnJ (C s)) (1 / 2 * ((C t)⁻¹ * dC).trace) t := by
  have h1 := ((hC.det_inv h.ne').log h.ne').const_mul (1 / 2 : ℝ)
  have h2 : (fun s => lnJ (C s)) =ᶠ[nhds t] fun s => 1 / 2 * log (C s).det := by
    filter_upwards [det_pos_eventually hC h] with s hs
    rw [lnJ, log_sqrt hs.le]; ring
  refine (h1.congr_of_eventuallyEq h2).congr_deriv ?_
  field_simp

theorem trace_inv_mul {C X : M3} (hC : C.IsSymm) : (C⁻¹ * X).trace = ddot C⁻¹ X := by
  have hB : (C⁻¹).IsSymm := by rw [IsSymm, transpose_nonsing_inv, hC]
  have hk0 := hB.apply 0 1
  have hk1 := hB.apply 0 2
  have hk2 := hB.apply 1 2
  simp only [ddot, Matrix.mul_apply, trace, Matrix.diag_apply, Fin.sum_univ_three, hk0, hk1, hk2]
  ring

end NeoHooke

open NeoHooke

/-- C41. Energy, stresses and moduli are defined exactly for tensors of positive determinant. -/
theorem neoHooke_defined (m : NeoHooke) {eps : ℝ} (he1 : eps < 1) (C : M3) :
    ((m.storedEnergy eps C).isSome ↔ 0 < C.det) ∧
    ((m.stresses eps C).isSome ↔ 0 < C.det) ∧
    ((m.tangentModuli eps C).isSome ↔ 0 < C.det) := by
  by_cases h : 0 < C.det
  · simp [storedEnergy_eq m he1 h, stresses_eq m he1 h, tangentModuli_eq m he1 h, h]
  · simp [storedEnergy, stresses, tangentModuli, checkPositive_none he1 h, h]

example := neoHooke_defined ⟨2, 3⟩ (show (1 / 10 ^ 10 : ℝ) < 1 by norm_num) !![1, 1, 0; 1, 2, 0; 0, 0, 3]

/-- C41. The undeformed state has no energy and no stress, and its moduli are those of linear
elasticity with the same parameters. -/
theorem neoHooke_undeformed (m : NeoHooke) {eps : ℝ} (he1 : eps < 1) :
    m.storedEnergy eps 1 = some 0 ∧ m.stresses eps 1 = some 0 ∧
    ∃ L, m.tangentModuli eps 1 = some L ∧ ∀ X : M3, X.IsSymm →
      contract L X = (m.lambda * X.trace) • (1 : M3) + (2 * m.mu) • X := by
  have h : (0 : ℝ) < (1 : M3).det := by simp
  have hl : lnJ 1 = 0 := by simp [lnJ]
  refine ⟨?_, ?_, _, tangentModuli_eq m he1 h, ?_⟩
  · rw [storedEnergy_eq m he1 h, hl]
    simp [Matrix.trace_one]
  · rw [stresses_eq m he1 h, hl]
    simp
  · intro X hX
    rw [moduli_contract m 1 X (by simp [IsSymm]) hX, hl]
    simp

/-- C41. Along every path of right Cauchy-Green tensors through a symmetric tensor of positive determinant the
rate of the energy is half the PK2 stress contracted with the rate of the tensor: the stress is twice the
derivative of the energy with respect to `C`, in every direction. -/
theorem neoHooke_stress_is_derivative (m : NeoHooke) {eps : ℝ} (he1 : eps < 1) (C : ℝ → M3) (dC : M3)
    (t : ℝ) (hC : HasMatDeriv C dC t) (hs : (C t).IsSymm) (h : 0 < (C t).det) :
    ∃ W : ℝ → ℝ, (∀ᶠ s in nhds t, m.storedEnergy eps (C s) = some (W s)) ∧
      ∃ S, m.stresses eps (C t) = some S ∧ S.IsSymm ∧ HasDerivAt W (1 / 2 * ddot S dC) t := by
  have hB : ((C t)⁻¹).IsSymm := by rw [IsSymm, transpose_nonsing_inv, hs]
  refine ⟨fun s => m.mu / 2 * ((C s).trace - 3 - 2 * lnJ (C s)) + m.lambda / 2 * lnJ (C s) * lnJ (C s),
    ?_, _, stresses_eq m he1 h, ?_, ?_⟩
  · filter_upwards [det_pos_eventually hC h] with s hs
    exact storedEnergy_eq m he1 hs
  · rw [IsSymm, transpose_add, transpose_smul, transpose_smul, transpose_sub, transpose_one, hB]
  · have htr : HasDerivAt (fun s => (C s).trace) dC.trace t := by
      simp only [trace, Matrix.diag]
      exact HasDerivAt.fun_sum fun i _ => hC i i
    have hl := lnJ_deriv hC h
    have := (((htr.sub_const 3).sub (hl.const_mul 2)).const_mul (m.mu / 2)).add
      ((hl.const_mul (m.lambda / 2)).mul hl)
    refine this.congr_deriv ?_
    rw [trace_inv_mul hs]
    have e : ddot (m.mu • (1 - (C t)⁻¹) + (m.lambda * lnJ (C t)) • (C t)⁻¹) dC =
        m.mu * (dC.trace - ddot (C t)⁻¹ dC) + m.lambda * lnJ (C t) * ddot (C t)⁻¹ dC := by
      simp only [ddot, Matrix.add_apply, Matrix.sub_apply, Matrix.smul_apply, smul_eq_mul, trace,
        Matrix.diag_apply, Fin.sum_univ_three, Matrix.one_apply]
      simp
      ring
    rw [e]
    ring

/-- C41. Along every such path with a symmetric rate, the rate of the stress is the contraction of the tangent
moduli with half the rate of the tensor, i.e. with the rate of the Green-Lagrange strain. -/
theorem neoHooke_moduli_is_derivative (m : NeoHooke) {eps : ℝ} (he1 : eps < 1) (C : ℝ → M3) (dC : M3)
    (t : ℝ) (hC : HasMatDeriv C dC t) (hs : (C t).IsSymm) (hds : dC.IsSymm) (h : 0 < (C t).det) :
    ∃ S : ℝ → M3, (∀ᶠ s in nhds t, m.stresses eps (C s) = some (S s)) ∧
      ∃ L, m.tangentModuli eps (C t) = some L ∧
        HasMatDeriv S (contract L ((1 / 2 : ℝ) • dC)) t := by
  refine ⟨fun s => m.mu • (1 - (C s)⁻¹) + (m.lambda * lnJ (C s)) • (C s)⁻¹, ?_, _,
    tangentModuli_eq m he1 h, ?_⟩
  · filter_upwards [det_pos_eventually hC h] with s hs
    exact stresses_eq m he1 hs
  · rw [moduli_contract m (C t) _ hs (by rw [IsSymm, transpose_smul, hds])]
    intro i j
    have hl := lnJ_deriv hC h
    have hB := hC.inv h.ne' i j
    have h1 := ((hB.const_sub ((1 : M3) i j)).const_mul m.mu).add ((hl.const_mul m.lambda).mul hB)
    refine h1.congr_deriv ?_
    simp only [Matrix.add_apply, Matrix.smul_apply, Matrix.neg_apply, smul_eq_mul, Matrix.mul_smul,
      Matrix.smul_mul, Matrix.trace_smul]
    ring

/-- C41. The moduli have both minor symmetries and the major symmetry. -/
theorem neoHooke_moduli_symmetric (m : NeoHooke) {eps : ℝ} (he1 : eps < 1) (C : M3) (hs : C.IsSymm)
    (h : 0 < C.det) : ∃ L, m.tangentModuli eps C = some L ∧ MinorSymmetric L ∧
      ∀ i j k l, L i j k l = L k l i j := by
  have hB : (C⁻¹).IsSymm := by rw [IsSymm, transpose_nonsing_inv, hs]
  refine ⟨_, tangentModuli_eq m he1 h, ?_, ?_⟩
  · intro i j k l
    simp only [moduli]
    rw [hB.apply i j, hB.apply k l]
    constructor <;> ring
  · intro i j k l
    simp only [moduli]
    rw [hB.apply i k, hB.apply j l, hB.apply i l, hB.apply j k]
    ring

/-! ### Inversion -/

theorem floatCmpEq_zero {eps a : ℝ} (he1 : eps < 1) : floatCmpEq eps a 0 ↔ a = 0 := by
  unfold floatCmpEq
  rw [sub_zero, abs_zero, max_eq_left (abs_nonneg a)]
  constructor
  · intro h
    by_contra ha
    have := abs_pos.mpr ha
    nlinarith
  · rintro rfl; simp

/-- The upper branch is uniquely determined. -/
theorem lambert_injOn : StrictMonoOn (fun w : ℝ => w * exp w) (Set.Ici (-1)) := by
  apply strictMonoOn_of_deriv_pos (convex_Ici _)
  · fun_prop
  · intro x hx
    rw [interior_Ici, Set.mem_Ioi] at hx
    have : HasDerivAt (fun w : ℝ => w * exp w) (1 * exp x + x * exp x) x :=
      (hasDerivAt_id x).mul (Real.hasDerivAt_exp x)
    rw [this.deriv]
    have := exp_pos x
    nlinarith

namespace NeoHooke

variable (m : NeoHooke) {eps : ℝ}

theorem check_inv_iff (he1 : eps < 1) {a : ℝ} (h : m.checkInvertabilityOrAbort eps a = some ()) :
    a ≠ 0 ∧ -(3 / 2 : ℝ) ^ 3 * exp (-3 - 2 * m.mu / m.lambda) < a := by
  unfold checkInvertabilityOrAbort at h
  simp only at h
  split at h
  · exact absurd h (by simp)
  · rename_i hh
    have hh := not_not.mp hh
    exact ⟨fun h0 => hh.1 ((floatCmpEq_zero he1).mpr h0), hh.2.1⟩

/-- The logarithm of the argument of the Lambert function. -/
noncomputable def lambertB (a : ℝ) : ℝ := 2 / 3 * m.mu / m.lambda - log (3 / 2) + 1 / 3 * log |a|

open Classical in
noncomputable def lambertArg (a : ℝ) : ℝ := (if a < 0 then -1 else 1) * exp (m.lambertB a)

theorem lambertArg_domain {a : ℝ} (ha0 : a ≠ 0)
    (ha : -(3 / 2 : ℝ) ^ 3 * exp (-3 - 2 * m.mu / m.lambda) < a) : -exp (-1) < m.lambertArg a := by
  unfold lambertArg
  by_cases hneg : a < 0
  · rw [if_pos hneg, neg_one_mul, neg_lt_neg_iff, exp_lt_exp]
    have h1 : |a| < (3 / 2 : ℝ) ^ 3 * exp (-3 - 2 * m.mu / m.lambda) := by
      rw [abs_of_neg hneg]; linarith
    have h2 := log_lt_log (abs_pos.mpr ha0) h1
    rw [log_mul (by positivity) (exp_pos _).ne', log_exp, log_pow] at h2
    unfold lambertB
    push_cast at h2
    have e : 2 / 3 * m.mu / m.lambda = 1 / 3 * (2 * m.mu / m.lambda) := by ring
    rw [e]
    linarith
  · rw [if_neg hneg, one_mul]
    have := exp_pos (-1)
    have := exp_pos (m.lambertB a)
    linarith

theorem smul_inv_inv {A : M3} {x : ℝ} (hx : x ≠ 0) (hA : A.det ≠ 0) : (x • A⁻¹)⁻¹ = x⁻¹ • A := by
  apply Matrix.inv_eq_left_inv
  rw [Matrix.smul_mul, Matrix.mul_smul, smul_smul, Matrix.mul_nonsing_inv _ (isUnit_iff_ne_zero.mpr hA),
    inv_mul_cancel₀ hx, one_smul]

/-- What the defining equation of the Lambert function says about its value. -/
theorem lambert_value {a w : ℝ} (ha0 : a ≠ 0) (hw : w * exp w = m.lambertArg a) :
    w ≠ 0 ∧ (0 < w ↔ 0 < a) ∧ log |w| + w = m.lambertB a := by
  unfold lambertArg at hw
  have hew := exp_pos w
  have heb := exp_pos (m.lambertB a)
  by_cases hneg : a < 0
  · rw [if_pos hneg] at hw
    have hwn : w < 0 := by
      by_contra hc
      have := mul_nonneg (not_lt.mp hc) hew.le
      linarith
    refine ⟨hwn.ne, ⟨fun h => absurd h (by linarith), fun h => absurd h (by linarith)⟩, ?_⟩
    have h1 : |w| * exp w = exp (m.lambertB a) := by rw [abs_of_neg hwn]; linarith
    have h2 := congrArg log h1
    rwa [log_mul (abs_pos.mpr hwn.ne).ne' hew.ne', log_exp, log_exp] at h2
  · rw [if_neg hneg, one_mul] at hw
    have hap : 0 < a := lt_of_le_of_ne (not_lt.mp hneg) (Ne.symm ha0)
    have hwp : 0 < w := by
      by_contra hc
      have := mul_nonneg (neg_nonneg.mpr (not_lt.mp hc)) hew.le
      linarith
    refine ⟨hwp.ne', ⟨fun _ => hap, fun _ => hwp⟩, ?_⟩
    have h1 : |w| * exp w = exp (m.lambertB a) := by rw [abs_of_pos hwp]; exact hw
    have h2 := congrArg log h1
    rwa [log_mul (abs_pos.mpr hwp.ne').ne' hew.ne', log_exp, log_exp] at h2

theorem lambert_value_conv {a w : ℝ} (hw0 : w ≠ 0) (hs : 0 < w ↔ 0 < a) (ha0 : a ≠ 0)
    (h : log |w| + w = m.lambertB a) : w * exp w = m.lambertArg a := by
  have h1 : |w| * exp w = exp (m.lambertB a) := by
    rw [← h, exp_add, exp_log (abs_pos.mpr hw0)]
  unfold lambertArg
  by_cases hneg : a < 0
  · rw [if_pos hneg]
    have : w < 0 := by
      rcases lt_or_gt_of_ne hw0 with h' | h'
      · exact h'
      · exact absurd (hs.mp h') (by linarith)
    rw [abs_of_neg this] at h1
    linarith
  · rw [if_neg hneg, one_mul]
    have : 0 < w := hs.mpr (lt_of_le_of_ne (not_lt.mp hneg) (Ne.symm ha0))
    rwa [abs_of_pos this] at h1

/-- The tensor computed from a Lambert value. -/
noncomputable def tensorA (S : M3) : M3 := (1 / m.lambda) • (m.mu • (1 : M3) - S)

theorem inversionStrain_zero {W : ℝ → Option ℝ} {epsEq : ℝ} (heq1 : epsEq < 1) (hl : m.lambda = 0) (S : M3) :
    m.inversionStrain W epsEq eps S = some (1 - (1 / m.mu) • S)⁻¹ := by
  unfold inversionStrain
  rw [if_pos ((floatCmpEq_zero heq1).mpr hl)]

theorem inversionStrain_ne {W : ℝ → Option ℝ} {epsEq : ℝ} (heq1 : epsEq < 1) (hl : m.lambda ≠ 0) (S : M3) :
    m.inversionStrain W epsEq eps S =
      (m.checkInvertabilityOrAbort eps (m.tensorA S).det).bind fun _ =>
        (W (m.lambertArg (m.tensorA S).det)).bind fun w =>
          some ((m.mu / m.lambda - (m.mu / m.lambda - 3 / 2 * w)) • (m.tensorA S)⁻¹) := by
  unfold inversionStrain
  rw [if_neg (fun h => hl ((floatCmpEq_zero heq1).mp h))]
  rfl

theorem inversion_core (hl : m.lambda ≠ 0) {S : M3} {w : ℝ} (ha0 : (m.tensorA S).det ≠ 0)
    (hw : w * exp w = m.lambertArg (m.tensorA S).det) :
    let C := (m.mu / m.lambda - (m.mu / m.lambda - 3 / 2 * w)) • (m.tensorA S)⁻¹
    0 < C.det ∧ lnJ C = m.mu / m.lambda - 3 / 2 * w ∧
      m.mu • (1 - C⁻¹) + (m.lambda * lnJ C) • C⁻¹ = S := by
  intro C
  obtain ⟨hw0, hsign, hlog⟩ := m.lambert_value ha0 hw
  have hx0 : (3 / 2 * w) ≠ 0 := by positivity
  have hC : C = (3 / 2 * w) • (m.tensorA S)⁻¹ := by
    simp only [C]; congr 1; ring
  have hdet : C.det = (3 / 2 * w) ^ 3 / (m.tensorA S).det := by
    rw [hC, det_smul, det_nonsing_inv, Ring.inverse_eq_inv']
    simp [div_eq_mul_inv]
  have hpos : 0 < C.det := by
    rw [hdet]
    rcases lt_or_gt_of_ne hw0 with h' | h'
    · have : (m.tensorA S).det < 0 := by
        rcases lt_or_gt_of_ne ha0 with h'' | h''
        · exact h''
        · exact absurd (hsign.mpr h'') (by linarith)
      apply div_pos_of_neg_of_neg _ this
      have : 3 / 2 * w < 0 := by linarith
      exact Odd.pow_neg (by decide) this
    · exact div_pos (by positivity) (hsign.mp h')
  have hlnJ : lnJ C = m.mu / m.lambda - 3 / 2 * w := by
    have h1 : C.det = |3 / 2 * w| ^ 3 / |(m.tensorA S).det| := by
      rw [← abs_of_pos hpos, hdet, abs_div, abs_pow]
    rw [lnJ, log_sqrt hpos.le, h1, log_div (by positivity) (by positivity), log_pow, abs_mul,
      log_mul (by norm_num) (by positivity)]
    have h32 : |(3 / 2 : ℝ)| = 3 / 2 := by norm_num
    rw [h32]
    unfold lambertB at hlog
    have e : 2 / 3 * m.mu / m.lambda = 2 / 3 * (m.mu / m.lambda) := by ring
    rw [e] at hlog
    push_cast
    linarith
  refine ⟨hpos, hlnJ, ?_⟩
  have hinv : C⁻¹ = (3 / 2 * w)⁻¹ • m.tensorA S := by
    rw [hC]
    exact smul_inv_inv hx0 ha0
  rw [hlnJ, hinv, tensorA]
  ext i j
  simp only [Matrix.add_apply, Matrix.sub_apply, Matrix.smul_apply, smul_eq_mul]
  field_simp
  ring

/-- The Voigt matrix of the moduli is invertible. -/
theorem moduli_voigt_inverse {C : M3} (hs : C.IsSymm) (hd : 0 < C.det)
    (h1 : m.mu - m.lambda * lnJ C ≠ 0) (h2 : 2 * (m.mu - m.lambda * lnJ C) + 3 * m.lambda ≠ 0)
    (T : Matrix (Fin 6) (Fin 6) ℝ) (hT : ∀ a b, toVoigtTensor (m.moduli C) a b = some (T a b)) :
    IsUnit T.det := by
  have hsym : MinorSymmetric (m.moduli C) := by
    have he : (0 : ℝ) < 1 := one_pos
    obtain ⟨L, hL, hm, _⟩ := neoHooke_moduli_symmetric m he C hs hd
    rw [tangentModuli_eq m he hd] at hL
    simp only [Option.some.injEq] at hL
    rw [hL]; exact hm
  rw [isUnit_iff_ne_zero]
  intro hdet
  obtain ⟨v, hv0, hv⟩ := Matrix.exists_mulVec_eq_zero_iff.mpr hdet
  apply hv0
  obtain ⟨hto, hXs⟩ := (toVoigt_fromVoigt (K := ℝ) two_ne_zero true).2.2 v
  set X := fromVoigt3 v true with hX
  have hc := toVoigtTensor_contract (m.moduli C) hsym X hXs T hT
  rw [hto, hv] at hc
  have hu : IsUnit C.det := isUnit_iff_ne_zero.mpr hd.ne'
  rw [moduli_contract m C X hs hXs] at hc
  set c := m.mu - m.lambda * lnJ C with hcdef
  set q := (C⁻¹ * X).trace with hq
  have hYs : ((m.lambda * q) • C⁻¹ + (2 * c) • (C⁻¹ * X * C⁻¹)).IsSymm := by
    have hB : (C⁻¹)ᵀ = C⁻¹ := by rw [transpose_nonsing_inv, hs]
    rw [IsSymm, transpose_add, transpose_smul, transpose_smul, transpose_mul, transpose_mul, hB, hXs,
      Matrix.mul_assoc]
  have hY : (m.lambda * q) • C⁻¹ + (2 * c) • (C⁻¹ * X * C⁻¹) = 0 := by
    have e1 := hYs.apply 0 1
    have e2 := hYs.apply 0 2
    have e3 := hYs.apply 1 2
    generalize (m.lambda * q) • C⁻¹ + (2 * c) • (C⁻¹ * X * C⁻¹) = Y at *
    have f : ∀ k, toVoigt3 Y false k = 0 := fun k => (congrFun hc k).symm
    have f0 := f 0; have f1 := f 1; have f2 := f 2; have f3 := f 3; have f4 := f 4; have f5 := f 5
    simp [toVoigt3, strainFactor] at f0 f1 f2 f3 f4 f5
    ext i j
    fin_cases i <;> fin_cases j <;> simp <;> linarith
  have hZ : (m.lambda * q) • C + (2 * c) • X = 0 := by
    have h3 : C * ((m.lambda * q) • C⁻¹ + (2 * c) • (C⁻¹ * X * C⁻¹)) * C = 0 := by rw [hY]; simp
    rw [Matrix.mul_add, Matrix.add_mul, Matrix.mul_smul, Matrix.mul_smul, Matrix.smul_mul, Matrix.smul_mul,
      Matrix.mul_nonsing_inv _ hu, Matrix.one_mul, ← Matrix.mul_assoc, ← Matrix.mul_assoc,
      Matrix.mul_nonsing_inv _ hu, Matrix.one_mul, Matrix.mul_assoc X, Matrix.nonsing_inv_mul _ hu,
      Matrix.mul_one] at h3
    exact h3
  have hq0 : q = 0 := by
    have h4 : (C⁻¹ * ((m.lambda * q) • C + (2 * c) • X)).trace = 0 := by rw [hZ]; simp
    rw [Matrix.mul_add, Matrix.mul_smul, Matrix.mul_smul, Matrix.nonsing_inv_mul _ hu, trace_add, trace_smul,
      trace_smul, ← hq, Matrix.trace_one] at h4
    simp at h4
    have h5 : (2 * c + 3 * m.lambda) * q = 0 := by linarith
    exact (mul_eq_zero.mp h5).resolve_left h2
  have hX0 : X = 0 := by
    rw [hq0] at hZ
    simp at hZ
    rcases hZ with h | h
    · exact absurd h h1
    · exact h
  rw [← hto, hX0]
  ext k
  fin_cases k <;> simp [toVoigt3]

theorem allEntries_some {T : Fin 6 → Fin 6 → Option ℝ} {M : Matrix (Fin 6) (Fin 6) ℝ}
    (h : allEntries T = some M) : ∀ a b, T a b = some (M a b) := by
  unfold allEntries at h
  split at h
  · rename_i hh
    have h' := Option.some.inj h
    intro a b
    have hab : M a b = (T a b).getD 0 := (congrFun (congrFun h' a) b).symm
    rw [hab]
    cases hT : T a b with
    | none => have := hh a b; rw [hT] at this; simp at this
    | some x => simp
  · exact absurd h (by simp)

theorem inversionStrain_sound {W : ℝ → Option ℝ} (hW : IsLambert W) {epsEq : ℝ} (he1 : eps < 1)
    (heq1 : epsEq < 1) (hmu : m.mu ≠ 0) {S C : M3} (hS : S.IsSymm)
    (h : m.inversionStrain W epsEq eps S = some C) (hd : 0 < C.det) :
    C.IsSymm ∧ m.mu • (1 - C⁻¹) + (m.lambda * lnJ C) • C⁻¹ = S ∧ m.mu - m.lambda * lnJ C ≠ 0 ∧
      2 * (m.mu - m.lambda * lnJ C) + 3 * m.lambda ≠ 0 := by
  by_cases hl : m.lambda = 0
  · rw [m.inversionStrain_zero heq1 hl] at h
    simp only [Option.some.injEq] at h
    have hdA : (1 - (1 / m.mu) • S).det ≠ 0 := by
      intro h0
      rw [← h, det_nonsing_inv, h0] at hd
      simp at hd
    refine ⟨?_, ?_, ?_, ?_⟩
    · rw [← h, IsSymm, transpose_nonsing_inv, transpose_sub, transpose_smul, transpose_one, hS]
    · rw [← h, Matrix.nonsing_inv_nonsing_inv _ (isUnit_iff_ne_zero.mpr hdA), hl]
      simp [smul_smul, hmu]
    · rw [hl]; simpa using hmu
    · rw [hl]; simpa using hmu
  · rw [m.inversionStrain_ne heq1 hl] at h
    cases hc : m.checkInvertabilityOrAbort eps (m.tensorA S).det with
    | none => rw [hc] at h; simp at h
    | some u =>
      obtain ⟨ha0, hbound⟩ := m.check_inv_iff he1 hc
      cases hw : W (m.lambertArg (m.tensorA S).det) with
      | none => rw [hc, hw] at h; simp at h
      | some w =>
        rw [hc, hw, Option.bind_some, Option.bind_some] at h
        simp only [Option.some.injEq] at h
        have hww := hW _ _ hw
        obtain ⟨hpos, hlnJ, hstress⟩ := m.inversion_core hl ha0 hww
        rw [h] at hpos hlnJ hstress
        obtain ⟨hw0, _, _⟩ := m.lambert_value ha0 hww
        have e : m.mu - m.lambda * lnJ C = m.lambda * (3 / 2 * w) := by
          rw [hlnJ]; field_simp; ring
        refine ⟨?_, hstress, ?_, ?_⟩
        · rw [← h, IsSymm, transpose_smul, transpose_nonsing_inv, tensorA, transpose_smul, transpose_sub,
            transpose_smul, transpose_one, hS]
        · rw [e]
          exact mul_ne_zero hl (by positivity)
        · rw [e]
          have hw1 : w ≠ -1 := by
            intro h1
            rw [h1] at hww
            have := m.lambertArg_domain ha0 hbound
            linarith
          have e2 : 2 * (m.lambda * (3 / 2 * w)) + 3 * m.lambda = 3 * m.lambda * (w + 1) := by ring
          rw [e2]
          exact mul_ne_zero (mul_ne_zero (by norm_num) hl) (fun h' => hw1 (by linarith))

end NeoHooke

/-- C41. If the Lambert function returns only solutions of its defining equation, then every result
of `materialInversion` is the Voigt notation of a symmetric right Cauchy-Green tensor of positive determinant whose
stress is the given one, together with the inverse of the tangent at that tensor. -/
theorem neoHooke_inversion (m : NeoHooke) {eps epsEq : ℝ} (he1 : eps < 1) (heq1 : epsEq < 1)
    (hmu : m.mu ≠ 0) (W : ℝ → Option ℝ) (hW : IsLambert W) (S : M3) (hS : S.IsSymm)
    (D : Matrix (Fin 6) (Fin 6) ℝ) (Cv : Fin 6 → ℝ)
    (h : m.materialInversion W epsEq eps S = some (D, Cv)) :
    m.stresses eps (fromVoigt3 Cv true) = some S ∧
    ∃ (L : Tensor4 ℝ 3) (T : Matrix (Fin 6) (Fin 6) ℝ), m.tangentModuli eps (fromVoigt3 Cv true) = some L ∧
      (∀ a b, toVoigtTensor L a b = some (T a b)) ∧ D * T = 1 ∧ T * D = 1 := by
  unfold NeoHooke.materialInversion at h
  cases hC : m.inversionStrain W epsEq eps S with
  | none => rw [hC] at h; simp at h
  | some C =>
    cases hL : m.tangentModuli eps C with
    | none => simp [hC, hL] at h
    | some L =>
      cases hT : allEntries (toVoigtTensor L) with
      | none => simp [hC, hL, hT] at h
      | some T =>
        simp only [hC, hL, hT, Option.bind_eq_bind, Option.bind_some, pure, Option.some.injEq,
          Prod.mk.injEq] at h
        obtain ⟨h1, h2⟩ := h
        have hd : 0 < C.det := ((neoHooke_defined m he1 C).2.2).mp (by rw [hL]; rfl)
        obtain ⟨hs, hstress, hc1, hc2⟩ := m.inversionStrain_sound hW he1 heq1 hmu hS hC hd
        have hback : fromVoigt3 Cv true = C := by
          rw [← h2]
          exact (fromVoigt_toVoigt (K := ℝ) two_ne_zero true).2.2 C hs
        rw [hback]
        have hTe := allEntries_some hT
        have hLm : L = m.moduli C := by
          rw [tangentModuli_eq m he1 hd] at hL
          exact (Option.some.inj hL).symm
        have hu := m.moduli_voigt_inverse hs hd hc1 hc2 T (by rw [← hLm]; exact hTe)
        refine ⟨?_, L, T, hL, hTe, ?_, ?_⟩
        · rw [stresses_eq m he1 hd, hstress]
        · rw [← h1]; exact Matrix.nonsing_inv_mul _ hu
        · rw [← h1]; exact Matrix.mul_nonsing_inv _ hu

/-- C41. The check before the inversion admits only arguments in the domain of the Lambert function: for a non-zero
first Lamé parameter the inversion fails only by that check. -/
theorem neoHooke_inversion_defined (m : NeoHooke) {eps epsEq : ℝ} (he1 : eps < 1) (heq1 : epsEq < 1)
    (hl : m.lambda ≠ 0) (W : ℝ → Option ℝ) (hW : IsLambert0 W) (S : M3) :
    (m.materialInversion W epsEq eps S).isSome ↔
      m.checkInvertabilityOrAbort eps ((1 / m.lambda) • (m.mu • (1 : M3) - S)).det = some () := by
  have hA : (1 / m.lambda) • (m.mu • (1 : M3) - S) = m.tensorA S := rfl
  rw [hA]
  cases hc : m.checkInvertabilityOrAbort eps (m.tensorA S).det with
  | none =>
    simp [NeoHooke.materialInversion, m.inversionStrain_ne heq1 hl, hc]
  | some u =>
    obtain ⟨ha0, hbound⟩ := m.check_inv_iff he1 hc
    have hdom := m.lambertArg_domain ha0 hbound
    obtain ⟨w, hw⟩ := Option.isSome_iff_exists.mp (hW.total _ hdom.le)
    obtain ⟨hpos, -, -⟩ := m.inversion_core hl ha0 (hW.sound _ _ hw)
    have hall : ∀ L : Tensor4 ℝ 3, ∃ T, allEntries (toVoigtTensor L) = some T := by
      intro L
      unfold allEntries
      rw [if_pos]
      · exact ⟨_, rfl⟩
      · intro a b; rw [toVoigtTensor_entries]; rfl
    simp only [NeoHooke.materialInversion, m.inversionStrain_ne heq1 hl, hc, hw, Option.bind_eq_bind,
      Option.bind_some, tangentModuli_eq m he1 hpos]
    obtain ⟨T, hT⟩ := hall (m.moduli _)
    rw [hT]
    simp

/-- C41. The inversion recovers a tensor from its stress as long as `log J` stays below `mu / lambda + 3 / 2`. -/
theorem neoHooke_inversion_recovers (m : NeoHooke) {eps epsEq : ℝ} (he1 : eps < 1) (heq1 : epsEq < 1)
    (hl : m.lambda ≠ 0) (W : ℝ → Option ℝ) (hW : IsLambert0 W) (C : M3)
    (hd : 0 < C.det) (hbranch : log (√C.det) ≤ m.mu / m.lambda + 3 / 2)
    (S : M3) (hS : m.stresses eps C = some S)
    (hcheck : m.checkInvertabilityOrAbort eps ((1 / m.lambda) • (m.mu • (1 : M3) - S)).det = some ()) :
    m.inversionStrain W epsEq eps S = some C := by
  have hA : (1 / m.lambda) • (m.mu • (1 : M3) - S) = m.tensorA S := rfl
  rw [hA] at hcheck
  obtain ⟨ha0, hbound⟩ := m.check_inv_iff he1 hcheck
  have hdom := m.lambertArg_domain ha0 hbound
  obtain ⟨w, hw⟩ := Option.isSome_iff_exists.mp (hW.total _ hdom.le)
  rw [m.inversionStrain_ne heq1 hl, hcheck, hw, Option.bind_some, Option.bind_some]
  rw [stresses_eq m he1 hd] at hS
  simp only [Option.some.injEq] at hS
  set x := m.mu / m.lambda - lnJ C with hx
  have hAx : m.tensorA S = x • C⁻¹ := by
    rw [tensorA, ← hS, hx]
    ext i j
    simp only [Matrix.add_apply, Matrix.sub_apply, Matrix.smul_apply, smul_eq_mul]
    field_simp
    ring
  have hdetA : (m.tensorA S).det = x ^ 3 / C.det := by
    rw [hAx, det_smul, det_nonsing_inv, Ring.inverse_eq_inv']
    simp [div_eq_mul_inv]
  have hx0 : x ≠ 0 := by
    intro h0; rw [hdetA, h0] at ha0; simp at ha0
  have hsign : 0 < 2 / 3 * x ↔ 0 < (m.tensorA S).det := by
    rw [hdetA]
    constructor
    · intro h
      have : 0 < x := by linarith
      positivity
    · intro h
      rcases lt_or_gt_of_ne hx0 with h' | h'
      · have : x ^ 3 / C.det < 0 := div_neg_of_neg_of_pos (Odd.pow_neg (by decide) h') hd
        linarith
      · linarith
  have hlog : log |2 / 3 * x| + 2 / 3 * x = m.lambertB (m.tensorA S).det := by
    unfold lambertB
    rw [hdetA, abs_div, abs_pow, abs_of_pos hd, log_div (by positivity) hd.ne', log_pow, abs_mul,
      log_mul (by norm_num) (by positivity)]
    have h32 : |(2 / 3 : ℝ)| = (3 / 2)⁻¹ := by norm_num
    rw [h32, log_inv]
    have e : 2 / 3 * m.mu / m.lambda = 2 / 3 * (m.mu / m.lambda) := by ring
    have e2 : lnJ C = 1 / 2 * log C.det := by rw [lnJ, log_sqrt hd.le]; ring
    rw [e]
    push_cast
    rw [e2] at hx
    linarith
  have hv := m.lambert_value_conv (a := (m.tensorA S).det) (w := 2 / 3 * x) (by positivity) hsign ha0 hlog
  have hww := hW.sound _ _ hw
  have hmem : (2 / 3 * x) ∈ Set.Ici (-1 : ℝ) := by
    rw [Set.mem_Ici]
    have : lnJ C ≤ m.mu / m.lambda + 3 / 2 := hbranch
    linarith
  have heq : w = 2 / 3 * x :=
    lambert_injOn.injOn (hW.upper _ _ hw) hmem (hww.trans hv.symm)
  congr 1
  rw [heq, hAx]
  have e3 : m.mu / m.lambda - (m.mu / m.lambda - 3 / 2 * (2 / 3 * x)) = x := by ring
  rw [e3, smul_inv_inv hx0 hd.ne', smul_smul, mul_inv_cancel₀ hx0, one_smul]

/-- C41. Beyond that limit the inversion returns another tensor with the same stress: the stress does not determine
the strain. -/
theorem neoHooke_inversion_other_branch (m : NeoHooke) {eps epsEq : ℝ} (he1 : eps < 1) (heq1 : epsEq < 1)
    (hl : m.lambda ≠ 0) (W : ℝ → Option ℝ) (hW : IsLambert0 W) (C C' : M3)
    (hbranch : m.mu / m.lambda + 3 / 2 < log (√C.det))
    (S : M3) (h : m.inversionStrain W epsEq eps S = some C') : C' ≠ C := by
  rw [m.inversionStrain_ne heq1 hl] at h
  cases hc : m.checkInvertabilityOrAbort eps (m.tensorA S).det with
  | none => rw [hc] at h; simp at h
  | some u =>
    obtain ⟨ha0, hbound⟩ := m.check_inv_iff he1 hc
    cases hw : W (m.lambertArg (m.tensorA S).det) with
    | none => rw [hc, hw] at h; simp at h
    | some w =>
      rw [hc, hw, Option.bind_some, Option.bind_some] at h
      simp only [Option.some.injEq] at h
      obtain ⟨-, hlnJ, -⟩ := m.inversion_core hl ha0 (hW.sound _ _ hw)
      rw [h] at hlnJ
      intro heq
      rw [← heq] at hbranch
      have : log (√C'.det) = m.mu / m.lambda - 3 / 2 * w := hlnJ
      have := hW.upper _ _ hw
      linarith

/-! ### The hypotheses can be met -/

theorem exists_isLambert0 : ∃ W, IsLambert0 W := by
  have hex : ∀ z : ℝ, -exp (-1) ≤ z → ∃ w, -1 ≤ w ∧ w * exp w = z := by
    intro z hz
    have hc : ContinuousOn (fun w : ℝ => w * exp w) (Set.Icc (-1) |z|) := by fun_prop
    have hle : (-1 : ℝ) ≤ |z| := by have := abs_nonneg z; linarith
    have hmem : z ∈ Set.Icc ((-1 : ℝ) * exp (-1)) (|z| * exp |z|) := by
      refine ⟨by linarith, ?_⟩
      have h1 : (1 : ℝ) ≤ exp |z| := one_le_exp (abs_nonneg z)
      have := le_abs_self z
      nlinarith [abs_nonneg z]
    obtain ⟨w, hw, hwz⟩ := intermediate_value_Icc hle hc hmem
    exact ⟨w, hw.1, hwz⟩
  classical
  refine ⟨fun z => if h : -exp (-1) ≤ z then some (hex z h).choose else none, ?_, ?_, ?_⟩
  · intro z w h
    dsimp only at h
    split at h
    · rename_i hz
      rw [← Option.some.inj h]
      exact (hex z hz).choose_spec.2
    · exact absurd h (by simp)
  · intro z w h
    split at h
    · rename_i hz
      rw [← Option.some.inj h]
      exact (hex z hz).choose_spec.1
    · exact absurd h (by simp)
  · intro z h
    rw [dif_pos h]
    rfl

/-- A stretch in one direction and a shear. -/
example : HasMatDeriv (fun s => !![1 + s, s, 0; s, 1, 0; 0, 0, 1]) !![1, 1, 0; 1, 0, 0; 0, 0, 0] 0 ∧
    (!![1, 0, 0; 0, 1, 0; 0, 0, 1] : M3).IsSymm ∧ (0 : ℝ) < (!![1, 0, 0; 0, 1, 0; 0, 0, 1] : M3).det := by
  refine ⟨?_, ?_, ?_⟩
  · intro i j
    fin_cases i <;> fin_cases j <;> simp <;>
      first
        | exact hasDerivAt_const _ _
        | exact hasDerivAt_id _
        | exact (hasDerivAt_id _).const_add _
  · rw [IsSymm]; ext i j; fin_cases i <;> fin_cases j <;> rfl
  · simp [det_fin_three]

/-- The stress-free state of a material with `lambda = mu = 1` passes the check of the inversion and stays below the
limit. -/
theorem neoHooke_inversion_case : (NeoHooke.mk 1 1).stresses (1 / 10 ^ 10) 1 = some 0 ∧
    (NeoHooke.mk 1 1).checkInvertabilityOrAbort (1 / 10 ^ 10)
      ((1 / 1 : ℝ) • ((1 : ℝ) • (1 : M3) - 0)).det = some () ∧
    log (√(1 : M3).det) ≤ (1 : ℝ) / 1 + 3 / 2 := by
  refine ⟨(neoHooke_undeformed _ (by norm_num)).2.1, ?_, ?_⟩
  · have hdet : ((1 / 1 : ℝ) • ((1 : ℝ) • (1 : M3) - 0)).det = 1 := by simp
    rw [hdet]
    unfold NeoHooke.checkInvertabilityOrAbort
    have hpos := exp_pos (-3 - 2 * (1 : ℝ) / 1)
    have hlt : exp (-3 - 2 * (1 : ℝ) / 1) < 1 := by rw [exp_lt_one_iff]; norm_num
    simp only
    rw [if_neg]
    rw [not_not]
    refine ⟨?_, ?_, ?_⟩
    · rw [floatCmpEq_zero (by norm_num)]; norm_num
    · nlinarith
    · unfold floatCmpEq
      rw [not_le, abs_of_pos (by nlinarith : (0 : ℝ) < 1 - -(3 / 2 : ℝ) ^ 3 * exp (-3 - 2 * (1 : ℝ) / 1))]
      have h1 : max |(1 : ℝ)| |-(3 / 2 : ℝ) ^ 3 * exp (-3 - 2 * (1 : ℝ) / 1)| ≤ 4 := by
        apply max_le
        · norm_num
        · rw [abs_le]; constructor <;> nlinarith
      have h2 : (1 : ℝ) / 10 ^ 10 * max |(1 : ℝ)| |-(3 / 2 : ℝ) ^ 3 * exp (-3 - 2 * (1 : ℝ) / 1)| ≤
          1 / 10 ^ 10 * 4 := by gcongr
      have h3 : (1 : ℝ) / 10 ^ 10 * 4 < 1 := by norm_num
      nlinarith
  · simp; norm_num

example : ∃ W, IsLambert0 W ∧ (NeoHooke.mk 1 1).inversionStrain W (1 / 10) (1 / 10 ^ 10) 0 = some 1 ∧
    ∃ D Cv, (NeoHooke.mk 1 1).materialInversion W (1 / 10) (1 / 10 ^ 10) 0 = some (D, Cv) ∧
      (NeoHooke.mk 1 1).stresses (1 / 10 ^ 10) (fromVoigt3 Cv true) = some 0 := by
  obtain ⟨W, hW⟩ := exists_isLambert0
  obtain ⟨h1, h2, h3⟩ := neoHooke_inversion_case
  have he : (1 / 10 ^ 10 : ℝ) < 1 := by norm_num
  have heq : (1 / 10 : ℝ) < 1 := by norm_num
  have hd := (neoHooke_inversion_defined (NeoHooke.mk 1 1) he heq one_ne_zero W hW 0).2 h2
  obtain ⟨⟨D, Cv⟩, h⟩ := Option.isSome_iff_exists.1 hd
  exact ⟨W, hW, neoHooke_inversion_recovers (NeoHooke.mk 1 1) he heq one_ne_zero W hW 1 (by simp) h3 0 h1 h2, D, Cv, h,
    (neoHooke_inversion (NeoHooke.mk 1 1) he heq one_ne_zero W hW.sound 0 (by simp [Matrix.IsSymm]) D Cv h).1⟩

end Ikarus
