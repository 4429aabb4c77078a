import Verif.Material.HyperelasticProps
import Mathlib.Data.Real.StarOrdered

/-!
C65: stresses and moduli of hyperelastic materials are derivatives.
-/

namespace Ikarus

open Matrix Spec

/-! ### Specification -/

/-- A motion with differentiable principal stretches and principal directions: near `t` the tensor `C s` has the stretches
`l s` and the directions `N s`, and all of them are differentiable at `t`. -/
structure Spec.StretchPath (C : ℝ → M3) (dC : M3) (l : ℝ → Fin 3 → ℝ) (dl : Fin 3 → ℝ) (N : ℝ → M3) (dN : M3)
    (t : ℝ) : Prop where
  stretches : ∀ᶠ s in nhds t, HasStretches (C s) (l s) (N s)
  hC : HasMatDeriv C dC t
  hl : HasVecDeriv l dl t
  hN : HasMatDeriv N dN t

/-! ### Rates in principal directions -/

theorem HasMatDeriv.transpose {N : ℝ → M3} {dN : M3} {t : ℝ} (h : HasMatDeriv N dN t) :
    HasMatDeriv (fun s => (N s)ᵀ) dNᵀ t := fun i j => h j i

theorem HasMatDeriv.congr {A B : ℝ → M3} {dA : M3} {t : ℝ} (h : HasMatDeriv A dA t)
    (he : ∀ᶠ s in nhds t, B s = A s) : HasMatDeriv B dA t := by
  intro i j
  refine (h i j).congr_of_eventuallyEq ?_
  filter_upwards [he] with s hs
  rw [hs]

theorem HasMatDeriv.unique {A : ℝ → M3} {dA dB : M3} {t : ℝ} (h : HasMatDeriv A dA t)
    (h' : HasMatDeriv A dB t) : dA = dB := by
  ext i j
  exact (h i j).unique (h' i j)

theorem hasMatDeriv_diagonal {S : ℝ → Fin 3 → ℝ} {dS : Fin 3 → ℝ} {t : ℝ} (h : HasVecDeriv S dS t) :
    HasMatDeriv (fun s => diagonal (S s)) (diagonal dS) t := by
  intro i j
  by_cases hij : i = j
  · subst hij
    simp only [diagonal_apply_eq]
    exact h i
  · simp only [diagonal_apply_ne _ hij]
    exact hasDerivAt_const _ _

section rates

variable {N : ℝ → M3} {dN : M3} {t : ℝ} (hN : HasMatDeriv N dN t) (ho : ∀ᶠ s in nhds t, (N s)ᵀ * N s = 1)

include hN ho

theorem spin_skew : ((N t)ᵀ * dN)ᵀ = -((N t)ᵀ * dN) := by
  have h1 := hN.transpose.mul hN
  have h2 : HasMatDeriv (fun s => (N s)ᵀ * N s) 0 t := by
    refine HasMatDeriv.congr (A := fun _ => 1) (fun i j => ?_) ho
    exact hasDerivAt_const _ _
  have h3 := h1.unique h2
  rw [transpose_mul, transpose_transpose]
  exact eq_neg_of_add_eq_zero_left h3

/-- Rate of a tensor with the principal directions `N` and the principal values `S`. -/
theorem spectral_rate {S : ℝ → Fin 3 → ℝ} {dS : Fin 3 → ℝ} (hS : HasVecDeriv S dS t) :
    HasMatDeriv (fun s => N s * diagonal (S s) * (N s)ᵀ)
      (N t * (((N t)ᵀ * dN) * diagonal (S t) - diagonal (S t) * ((N t)ᵀ * dN) + diagonal dS) * (N t)ᵀ) t := by
  have h := (hN.mul (hasMatDeriv_diagonal hS)).mul hN.transpose
  have hsk := spin_skew hN ho
  have hot : N t * (N t)ᵀ = 1 := mul_eq_one_comm.mp ho.self_of_nhds
  have e1 : N t * ((N t)ᵀ * dN) = dN := by rw [← Matrix.mul_assoc, hot, Matrix.one_mul]
  have e2 : dNᵀ = -(((N t)ᵀ * dN) * (N t)ᵀ) := by
    have : dNᵀ = ((N t)ᵀ * dN)ᵀ * (N t)ᵀ := by
      rw [← transpose_mul, e1]
    rw [this, hsk, Matrix.neg_mul]
  have e3 : (dN * diagonal (S t) + N t * diagonal dS) * (N t)ᵀ + N t * diagonal (S t) * dNᵀ =
      N t * (((N t)ᵀ * dN) * diagonal (S t) - diagonal (S t) * ((N t)ᵀ * dN) + diagonal dS) * (N t)ᵀ := by
    rw [e2]
    generalize hΩ : (N t)ᵀ * dN = Ω at *
    rw [← e1]
    simp only [Matrix.mul_add, Matrix.mul_sub, Matrix.add_mul, Matrix.sub_mul, Matrix.mul_neg, Matrix.mul_assoc]
    abel
  rw [e3] at h
  exact h

/-- The rate in principal directions. -/
theorem spectral_rate_entries {S : ℝ → Fin 3 → ℝ} {dS : Fin 3 → ℝ} (hS : HasVecDeriv S dS t) {T : ℝ → M3} {dT : M3}
    (hT : HasMatDeriv T dT t) (he : ∀ᶠ s in nhds t, T s = N s * diagonal (S s) * (N s)ᵀ) :
    dT = N t * ((N t)ᵀ * dT * N t) * (N t)ᵀ ∧
    ∀ i j, ((N t)ᵀ * dT * N t) i j =
      ((N t)ᵀ * dN) i j * (S t j - S t i) + if i = j then dS i else 0 := by
  have hot' := ho.self_of_nhds
  have hot : N t * (N t)ᵀ = 1 := mul_eq_one_comm.mp hot'
  have e := hT.unique ((spectral_rate hN ho hS).congr he)
  have e2 : (N t)ᵀ * dT * N t =
      ((N t)ᵀ * dN) * diagonal (S t) - diagonal (S t) * ((N t)ᵀ * dN) + diagonal dS := by
    rw [e]
    generalize ((N t)ᵀ * dN) * diagonal (S t) - diagonal (S t) * ((N t)ᵀ * dN) + diagonal dS = X
    rw [Matrix.mul_assoc, Matrix.mul_assoc (N t * X), hot', Matrix.mul_one, ← Matrix.mul_assoc, hot', Matrix.one_mul]
  refine ⟨by rw [e2]; exact e, fun i j => ?_⟩
  rw [e2, Matrix.add_apply, Matrix.sub_apply, mul_diagonal, diagonal_mul, diagonal_apply]
  ring

end rates

/-- Contraction in principal directions. -/
theorem ddot_principal (N X : M3) (S : Fin 3 → ℝ) :
    ddot (N * diagonal S * Nᵀ) X = ∑ i, S i * (Nᵀ * X * N) i i := by
  simp only [ddot, diag_entry]
  simp only [Matrix.mul_apply, transpose_apply, Fin.sum_univ_three]
  ring

theorem inv_spectral {C : M3} {l : Fin 3 → ℝ} {N : M3} (h : HasStretches C l N) :
    C⁻¹ = N * diagonal (fun a => 1 / l a ^ 2) * Nᵀ := by
  refine inv_eq_right_inv ?_
  have e : diagonal (fun a => l a ^ 2) * diagonal (fun a => 1 / l a ^ 2) = (1 : M3) := by
    rw [diagonal_mul_diagonal, ← diagonal_one]
    congr 1
    ext a
    have := h.1 a
    field_simp
  rw [h.2.decomp, Matrix.mul_assoc, Matrix.mul_assoc, ← Matrix.mul_assoc Nᵀ, ← Matrix.mul_assoc Nᵀ, h.2.orth,
    Matrix.one_mul, ← Matrix.mul_assoc (diagonal _), e, Matrix.one_mul, h.2.orth']

theorem det_of_stretches {C : M3} {l : Fin 3 → ℝ} {N : M3} (h : HasStretches C l N) : 0 < C.det := by
  have p0 := h.1 0; have p1 := h.1 1; have p2 := h.1 2
  have e := congrArg det h.2.orth
  rw [det_mul, det_transpose, det_one] at e
  rw [h.2.decomp, det_mul, det_mul, det_transpose, det_diagonal, Fin.prod_univ_three, mul_right_comm, e, one_mul]
  positivity

namespace Spec.StretchPath

variable {C : ℝ → M3} {dC : M3} {l : ℝ → Fin 3 → ℝ} {dl : Fin 3 → ℝ} {N : ℝ → M3} {dN : M3} {t : ℝ}
  (hp : StretchPath C dC l dl N dN t)

include hp

theorem orth : ∀ᶠ s in nhds t, (N s)ᵀ * N s = 1 := by
  filter_upwards [hp.stretches] with s hs using hs.2.orth

theorem rate : dC = N t * ((N t)ᵀ * dC * N t) * (N t)ᵀ ∧
    ∀ i j, ((N t)ᵀ * dC * N t) i j =
      ((N t)ᵀ * dN) i j * (l t j ^ 2 - l t i ^ 2) + if i = j then 2 * l t i * dl i else 0 := by
  refine spectral_rate_entries hp.hN hp.orth (S := fun s a => l s a ^ 2) (dS := fun a => 2 * l t a * dl a)
    (fun a => ?_) hp.hC ?_
  · refine ((hp.hl a).pow 2).congr_deriv ?_
    simp
  · filter_upwards [hp.stretches] with s hs using hs.2.decomp

theorem rate_symm : dC.IsSymm := by
  refine HasMatDeriv.unique (A := C) ?_ hp.hC
  refine hp.hC.transpose.congr ?_
  filter_upwards [hp.stretches] with s hs
  exact (symm_of_spectral hs.2).symm

theorem rate_J : HasDerivAt (fun s => l s 0 * l s 1 * l s 2)
    ((l t 0 * l t 1 * l t 2) * (dl 0 / l t 0 + dl 1 / l t 1 + dl 2 / l t 2)) t := by
  have hs := hp.stretches.self_of_nhds.1
  have p0 := hs 0; have p1 := hs 1; have p2 := hs 2
  refine (((hp.hl 0).mul (hp.hl 1)).mul (hp.hl 2)).congr_deriv ?_
  simp only [Pi.mul_apply]
  field_simp

theorem ddot_inv : ddot (C t)⁻¹ dC = 2 * (dl 0 / l t 0 + dl 1 / l t 1 + dl 2 / l t 2) := by
  have hs := hp.stretches.self_of_nhds
  have p0 := hs.1 0; have p1 := hs.1 1; have p2 := hs.1 2
  rw [inv_spectral hs, ddot_principal]
  simp only [hp.rate.2, Fin.sum_univ_three, if_pos, sub_self, mul_zero, zero_add]
  field_simp

end Spec.StretchPath

open Hyperelastic

/-- C65. Along every motion with differentiable principal stretches and directions the rate of the energy is
half the PK2 stress contracted with the rate of the right Cauchy-Green tensor. -/
theorem hyperelastic_stress_is_derivative (h : Hyperelastic) (hf : IsotropicFun h.dev) (hv : AdmissibleVF h.vol.vf)
    {solver : EigenSolver} (hs : CorrectSolver solver) {eps : ℝ} (he : eps < 1)
    {C : ℝ → M3} {dC : M3} {l : ℝ → Fin 3 → ℝ} {dl : Fin 3 → ℝ} {N : ℝ → M3} {dN : M3} {t : ℝ}
    (hp : StretchPath C dC l dl N dN t) (hd : IsGradient h.dev (l t)) :
    ∃ W : ℝ → ℝ, (∀ᶠ s in nhds t, h.storedEnergy solver eps (C s) = some (W s)) ∧
      ∃ S, h.stresses solver eps (C t) = some S ∧ S.IsSymm ∧ HasDerivAt W (1 / 2 * ddot S dC) t := by
  obtain ⟨g, hg, hW⟩ := hd
  obtain ⟨W, hW1, hW2⟩ := hW l dl t rfl hp.hl
  have hst := hp.stretches.self_of_nhds
  have p0 := hst.1 0; have p1 := hst.1 1; have p2 := hst.1 2
  have hJ : 0 < l t 0 * l t 1 * l t 2 := by positivity
  have hS : h.dev.stresses (l t) = some fun a => g a / l t a := by
    unfold DevFun.stresses; rw [hg]; rfl
  have hB := hyperelastic_any_basis h hf hs he (le_refl (0 : ℝ)) hst
  rw [hS] at hB
  refine ⟨fun s => W s + h.vol.storedEnergy (l s 0 * l s 1 * l s 2), ?_, _, hB.2.1, ?_, ?_⟩
  · filter_upwards [hp.stretches, hW1] with s h1 h2
    rw [(hyperelastic_any_basis h hf hs he (le_refl (0 : ℝ)) h1).1, h2]
    rfl
  · have hC := symm_of_spectral hst.2
    have hD : (N t * diagonal (fun a => g a / l t a) * (N t)ᵀ)ᵀ = N t * diagonal (fun a => g a / l t a) * (N t)ᵀ := by
      rw [transpose_mul, transpose_mul, transpose_transpose, diagonal_transpose, Matrix.mul_assoc]
    rw [IsSymm, transpose_add, transpose_smul, transpose_nonsing_inv, hC, hD]
  · have hv1 := (volumetric_scaled h.vol hv _ hJ).1
    have hv2 : HasDerivAt (fun s => h.vol.storedEnergy (l s 0 * l s 1 * l s 2)) _ t :=
      HasDerivAt.comp (h₂ := h.vol.storedEnergy) t hv1 hp.rate_J
    refine (hW2.add hv2).congr_deriv ?_
    have e : ddot (N t * diagonal (fun a => g a / l t a) * (N t)ᵀ +
        (l t 0 * l t 1 * l t 2 * h.vol.firstDerivative (l t 0 * l t 1 * l t 2)) • (C t)⁻¹) dC =
        ddot (N t * diagonal (fun a => g a / l t a) * (N t)ᵀ) dC +
        (l t 0 * l t 1 * l t 2 * h.vol.firstDerivative (l t 0 * l t 1 * l t 2)) * ddot (C t)⁻¹ dC := by
      simp only [ddot, Matrix.add_apply, Matrix.smul_apply, smul_eq_mul, add_mul, Finset.sum_add_distrib,
        Finset.mul_sum, mul_assoc]
    rw [e, hp.ddot_inv, ddot_principal]
    simp only [hp.rate.2, Fin.sum_univ_three, if_pos, sub_self, mul_zero, zero_add]
    generalize h.vol.firstDerivative (l t 0 * l t 1 * l t 2) = U'
    field_simp

/-! ### Moduli -/

/-- The contraction of principal moduli with a tensor in principal directions. -/
def principalContraction (L : Tensor4 ℝ 3) (X : M3) : M3 :=
  Matrix.of fun i k => if i = k then ∑ m, L i i m m * X m m else L i k i k * (X i k + X k i)

/-- Contraction of the deviatoric moduli in principal directions. -/
theorem contract_dev (L : Tensor4 ℝ 3) (N X : M3) :
    contract (transformDeviatoricTangentModuli L N) X =
      N * principalContraction L (Nᵀ * X * N) * Nᵀ := by
  have hX : ∀ i k, (Nᵀ * X * N) i k = ∑ c, ∑ d, N c i * X c d * N d k := by
    intro i k
    simp only [Matrix.mul_apply, transpose_apply, Finset.sum_mul]
    rw [Finset.sum_comm]
  ext a b
  have hR : ∀ Y : M3, (N * Y * Nᵀ) a b = ∑ i, ∑ k, N a i * Y i k * N b k := by
    intro Y
    simp only [Matrix.mul_apply, transpose_apply, Finset.sum_mul]
    rw [Finset.sum_comm]
  have hL : contract (transformDeviatoricTangentModuli L N) X a b =
      ∑ i, ∑ k, ∑ c, ∑ d, (L i i k k * dyadic (colDyad N i i) (colDyad N k k) a b c d +
      if i ≠ k then L i k i k * dyadic (colDyad N i k) (colDyad N i k + colDyad N k i) a b c d else 0) * X c d := by
    simp only [contract, transformDeviatoricTangentModuli, Finset.sum_mul]
    rw [Finset.sum_congr rfl fun c _ => Finset.sum_comm, Finset.sum_comm]
    refine Finset.sum_congr rfl fun i _ => ?_
    rw [Finset.sum_congr rfl fun c _ => Finset.sum_comm, Finset.sum_comm]
  rw [hL, hR]
  simp only [principalContraction, Matrix.of_apply]
  have hY : ∀ i, ∑ k, N a i * (if i = k then ∑ m, L i i m m * (Nᵀ * X * N) m m
        else L i k i k * ((Nᵀ * X * N) i k + (Nᵀ * X * N) k i)) * N b k =
      ∑ k, (N a i * N b i * (L i i k k * (Nᵀ * X * N) k k) + if i ≠ k then
        N a i * N b k * (L i k i k * ((Nᵀ * X * N) i k + (Nᵀ * X * N) k i)) else 0) := by
    intro i
    rw [Finset.sum_add_distrib, ← Finset.mul_sum]
    rw [← Finset.add_sum_erase _ _ (Finset.mem_univ i), ← Finset.add_sum_erase (a := i) _
      (fun k => if i ≠ k then _ else _) (Finset.mem_univ i)]
    rw [if_pos rfl, if_neg (by simp), zero_add]
    congr 1
    · ring
    · refine Finset.sum_congr rfl fun k hk => ?_
      have : i ≠ k := (Finset.ne_of_mem_erase hk).symm
      rw [if_neg this, if_pos this]
      ring
  refine Finset.sum_congr rfl fun i _ => (Finset.sum_congr rfl fun k _ => ?_).trans (hY i).symm
  rw [hX, hX, hX]
  by_cases hik : i = k
  · subst hik
    simp only [ne_eq, not_true, if_false, add_zero, dyadic, colDyad, Fin.sum_univ_three]
    ring
  · simp only [ne_eq, hik, not_false_eq_true, if_true, dyadic, colDyad, Matrix.add_apply, Fin.sum_univ_three]
    ring

theorem contract_vol (U' U'' J : ℝ) (C X : M3) (hC : C.IsSymm) (hX : X.IsSymm) :
    contract (volModuli U' U'' C J) X =
      (J * (U' + J * U'') * ddot C⁻¹ X) • C⁻¹ - (2 * (J * U')) • (C⁻¹ * X * C⁻¹) := by
  have hB : (C⁻¹).IsSymm := by rw [IsSymm, transpose_nonsing_inv, hC]
  have x1 := hX.apply 0 1
  have x2 := hX.apply 0 2
  have x3 := hX.apply 1 2
  have hB' := fun i j => hB.apply i j
  ext i j
  simp only [contract, volModuli, ddot, Matrix.sub_apply, Matrix.smul_apply, smul_eq_mul, Matrix.mul_apply,
    Fin.sum_univ_three, x1, x2, x3]
  rw [hB' 0 j, hB' 1 j, hB' 2 j]
  ring

/-- C65. Along every motion with differentiable principal stretches and directions the rate of the stress is the
contraction of the tangent moduli with half the rate of the right Cauchy-Green tensor. Two stretches are equal or
differ by more than the tolerance of the comparison in the code. -/
theorem hyperelastic_moduli_is_derivative (h : Hyperelastic) (hf : IsotropicFun h.dev) (hv : AdmissibleVF h.vol.vf)
    {solver : EigenSolver} (hs : CorrectSolver solver) {eps epsEq : ℝ} (he : eps < 1) (heq : 0 ≤ epsEq)
    {C : ℝ → M3} {dC : M3} {l : ℝ → Fin 3 → ℝ} {dl : Fin 3 → ℝ} {N : ℝ → M3} {dN : M3} {t : ℝ}
    (hp : StretchPath C dC l dl N dN t) (hd : IsHessian h.dev (l t))
    (hpair : ∀ i j, l t i = l t j ∨ ¬ floatCmpEq epsEq (l t i) (l t j)) :
    ∃ S : ℝ → M3, (∀ᶠ s in nhds t, h.stresses solver eps (C s) = some (S s)) ∧
      ∃ M, h.tangentModuli solver eps epsEq (C t) = some M ∧
        HasMatDeriv S (contract M ((1 / 2 : ℝ) • dC)) t := by
  obtain ⟨g, H, hg, hH, hG⟩ := hd
  obtain ⟨G, hG1, hG2⟩ := hG l dl t rfl hp.hl
  have hst := hp.stretches.self_of_nhds
  have p0 := hst.1 0; have p1 := hst.1 1; have p2 := hst.1 2
  have hJ : 0 < l t 0 * l t 1 * l t 2 := by positivity
  have hGt : G t = g := Option.some.inj (hG1.self_of_nhds.symm.trans hg)
  -- moduli in principal directions
  obtain ⟨L, hL⟩ : ∃ L, h.dev.tangentModuli epsEq (l t) = some L := by
    unfold DevFun.tangentModuli DevFun.stresses
    rw [hg, hH]
    exact ⟨_, rfl⟩
  obtain ⟨g', H', hg', hH', e1, e2, e3⟩ := tangentModuli_entries hL
  obtain rfl : g = g' := Option.some.inj (hg.symm.trans hg')
  obtain rfl : H = H' := Option.some.inj (hH.symm.trans hH')
  have hB := (hyperelastic_any_basis h hf hs he heq hst).2.2
  rw [hL] at hB
  -- stresses in principal directions
  have hSd : HasVecDeriv (fun s a => G s a / l s a) (fun a => ∑ m, L a a m m * (l t m * dl m)) t := by
    intro a
    have pa := hst.1 a
    refine ((hG2 a).div (hp.hl a) pa.ne').congr_deriv ?_
    simp only [e1, hGt, Fin.sum_univ_three]
    field_simp
    ring
  refine ⟨fun s => N s * diagonal (fun a => G s a / l s a) * (N s)ᵀ +
    (l s 0 * l s 1 * l s 2 * h.vol.firstDerivative (l s 0 * l s 1 * l s 2)) • (C s)⁻¹, ?_, _, hB, ?_⟩
  · filter_upwards [hp.stretches, hG1] with s h1 h2
    rw [(hyperelastic_any_basis h hf hs he heq h1).2.1]
    unfold DevFun.stresses
    rw [h2]
    rfl
  · have hCs := symm_of_spectral hst.2
    have hX : ((1 / 2 : ℝ) • dC).IsSymm := by rw [IsSymm, transpose_smul, hp.rate_symm]
    have hadd : ∀ (A B : Tensor4 ℝ 3) (X : M3), contract (A + B) X = contract A X + contract B X := by
      intro A B X
      ext i j
      simp only [contract, Pi.add_apply, Matrix.add_apply, add_mul, Finset.sum_add_distrib]
    rw [hadd, contract_dev, contract_vol _ _ _ _ _ hCs hX]
    -- deviatoric part
    have hdev := spectral_rate hp.hN hp.orth hSd
    have hmat : principalContraction L ((N t)ᵀ * ((1 / 2 : ℝ) • dC) * N t) =
        ((N t)ᵀ * dN) * diagonal (fun a => G t a / l t a) - diagonal (fun a => G t a / l t a) * ((N t)ᵀ * dN) +
          diagonal (fun a => ∑ m, L a a m m * (l t m * dl m)) := by
      have hsk := spin_skew hp.hN hp.orth
      ext i k
      have hx : ∀ i k, ((N t)ᵀ * ((1 / 2 : ℝ) • dC) * N t) i k = 1 / 2 * ((N t)ᵀ * dC * N t) i k := by
        intro i k
        rw [Matrix.mul_smul, Matrix.smul_mul, Matrix.smul_apply, smul_eq_mul]
      simp only [principalContraction, Matrix.of_apply, hx, hp.rate.2, Matrix.add_apply, Matrix.sub_apply, mul_diagonal, diagonal_mul, diagonal_apply]
      by_cases hik : i = k
      · subst hik
        simp only [if_true, sub_self, mul_zero, zero_add]
        rw [mul_comm (((N t)ᵀ * dN) i i), sub_self, zero_add]
        exact Finset.sum_congr rfl fun m _ => by ring
      · simp only [if_neg hik, if_neg (Ne.symm hik)]
        have hki : ((N t)ᵀ * dN) k i = -((N t)ᵀ * dN) i k := by
          have := congrFun (congrFun hsk i) k
          rwa [transpose_apply, Matrix.neg_apply] at this
        rw [hki, hGt]
        rcases hpair i k with heqv | hne
        · rw [heqv, first_class hf hg heqv]
          ring
        · rw [e3 i k hik hne]
          have hne' : l t i ^ 2 - l t k ^ 2 ≠ 0 := by
            intro h0
            apply hne
            apply floatCmpEq_of_eq heq
            have hi := hst.1 i; have hk := hst.1 k
            nlinarith
          field_simp
          ring
    rw [hmat]
    intro i j
    -- volumetric part
    have hv2 : HasDerivAt (fun s => h.vol.firstDerivative (l s 0 * l s 1 * l s 2)) _ t :=
      HasDerivAt.comp (h₂ := h.vol.firstDerivative) t (volumetric_scaled h.vol hv _ hJ).2 hp.rate_J
    have hinv := hp.hC.inv (det_of_stretches hst).ne' i j
    refine ((hdev i j).add ((hp.rate_J.mul hv2).mul hinv)).congr_deriv ?_
    have hsm : ddot (C t)⁻¹ ((1 / 2 : ℝ) • dC) = dl 0 / l t 0 + dl 1 / l t 1 + dl 2 / l t 2 := by
      have : ddot (C t)⁻¹ ((1 / 2 : ℝ) • dC) = 1 / 2 * ddot (C t)⁻¹ dC := by
        simp only [ddot, Matrix.smul_apply, smul_eq_mul, Fin.sum_univ_three]
        ring
      rw [this, hp.ddot_inv]
      ring
    rw [hsm]
    simp only [Matrix.add_apply, Matrix.sub_apply, Matrix.smul_apply, smul_eq_mul, Matrix.mul_smul, Matrix.smul_mul,
      Matrix.neg_apply, Pi.mul_apply]
    ring

/-! ### The hypotheses are met -/

/-- A symmetric matrix has a spectral decomposition. -/
theorem exists_spectral {C : M3} (hC : C.IsSymm) : ∃ mu N, IsSpectral C mu N := by
  have hH : C.IsHermitian := by rw [IsHermitian, conjTranspose_eq_transpose_of_trivial]; exact hC
  have hU := hH.eigenvectorUnitary.2
  have hst : star (hH.eigenvectorUnitary : M3) = (hH.eigenvectorUnitary : M3)ᵀ := by
    rw [star_eq_conjTranspose, conjTranspose_eq_transpose_of_trivial]
  refine ⟨hH.eigenvalues, hH.eigenvectorUnitary, ?_, ?_⟩
  · rw [← hst]
    exact (Unitary.mem_iff.mp hU).1
  · have := hH.spectral_theorem
    rw [Unitary.conjStarAlgAut_apply, hst] at this
    exact this

/-- C65. There is a correct solver, and every positive definite tensor has principal stretches and directions, so that
the hypotheses of the theorems are met. -/
theorem hyperelastic_hypotheses : (∃ solver, CorrectSolver solver) ∧
    ∀ C : M3, C.PosDef → ∃ l N, HasStretches C l N := by
  classical
  constructor
  · refine ⟨fun C => if h : C.IsSymm then some ((exists_spectral h).choose, (exists_spectral h).choose_spec.choose)
      else none, fun C hC => ⟨_, _, dif_pos hC, (exists_spectral hC).choose_spec.choose_spec⟩⟩
  · intro C hC
    have hs : C.IsSymm := by
      have := hC.1
      rwa [IsHermitian, conjTranspose_eq_transpose_of_trivial] at this
    obtain ⟨mu, N, h⟩ := exists_spectral hs
    have hmu : ∀ a, 0 < mu a := by
      intro a
      have hne : (fun i => N i a) ≠ 0 := by
        intro h0
        have := congrFun (congrFun h.orth a) a
        rw [Matrix.mul_apply, one_apply_eq] at this
        simp only [transpose_apply] at this
        have h0' : ∀ i, N i a = 0 := fun i => congrFun h0 i
        simp [h0'] at this
      have hpos := hC.dotProduct_mulVec_pos hne
      have e : Nᵀ * C * N = diagonal mu := by
        rw [h.decomp, Matrix.mul_assoc, Matrix.mul_assoc (N * diagonal mu), h.orth, Matrix.mul_one,
          ← Matrix.mul_assoc, h.orth, Matrix.one_mul]
      have e2 := congrFun (congrFun e a) a
      rw [diagonal_apply_eq] at e2
      rw [← e2]
      simp only [dotProduct, mulVec, star_trivial, Fin.sum_univ_three] at hpos
      simp only [Matrix.mul_apply, transpose_apply, Fin.sum_univ_three]
      linarith
    refine ⟨fun a => √(mu a), N, fun a => Real.sqrt_pos.mpr (hmu a), h.orth, ?_⟩
    have : (fun a => √(mu a) ^ 2) = mu := funext fun a => Real.sq_sqrt (hmu a).le
    rw [this]
    exact h.decomp

/-- C65. The deviatoric functions of the library are isotropic, for all parameters. -/
theorem library_isotropic : IsotropicFun noDev ∧ (∀ mu, IsotropicFun (blatzKo mu)) ∧
    (∀ n (o : Ogden n), IsotropicFun o.dev ∧ IsotropicFun o.total) ∧
    (∀ (g : Gent) eps, IsotropicFun (g.dev eps)) ∧ (∀ m : ArrudaBoyce, IsotropicFun m.dev) ∧
    ∀ n (v : InvariantBased n) eps, IsotropicFun (v.dev eps) :=
  ⟨noDev_isotropic, blatzKo_isotropic, fun _ o => ⟨ogden_dev_isotropic o, ogden_total_isotropic o⟩, gent_isotropic,
    arrudaBoyce_isotropic, fun _ v => invariantBased_isotropic v⟩

/-- A motion with rotating principal directions and one growing stretch. -/
example : ∃ (C : ℝ → M3) (dC : M3), StretchPath C dC (fun s => ![1, 2, 3 + s]) ![0, 0, 1]
    (fun s => !![Real.cos s, -Real.sin s, 0; Real.sin s, Real.cos s, 0; 0, 0, 1])
    !![0, -1, 0; 1, 0, 0; 0, 0, 0] 0 ∧ dC ≠ 0 := by
  have hN : HasMatDeriv (fun s => (!![Real.cos s, -Real.sin s, 0; Real.sin s, Real.cos s, 0; 0, 0, 1] : M3))
      !![0, -1, 0; 1, 0, 0; 0, 0, 0] 0 := by
    have hc := Real.hasDerivAt_cos 0
    have hs := Real.hasDerivAt_sin 0
    rw [Real.sin_zero, neg_zero] at hc
    rw [Real.cos_zero] at hs
    intro i j
    fin_cases i <;> fin_cases j <;> simp <;>
      first | exact hc | exact hs | exact hs.neg | exact hasDerivAt_const _ _
  have ho : ∀ s : ℝ, (!![Real.cos s, -Real.sin s, 0; Real.sin s, Real.cos s, 0; 0, 0, 1] : M3)ᵀ *
      !![Real.cos s, -Real.sin s, 0; Real.sin s, Real.cos s, 0; 0, 0, 1] = 1 := by
    intro s
    have := Real.sin_sq_add_cos_sq s
    ext i j
    fin_cases i <;> fin_cases j <;> simp [Matrix.mul_apply, Fin.sum_univ_three] <;> nlinarith
  have hl : HasVecDeriv (fun s : ℝ => ![1, 2, 3 + s]) ![0, 0, 1] 0 := by
    intro a
    fin_cases a <;> simp <;> first | exact hasDerivAt_const _ _ | exact (hasDerivAt_id 0).const_add 3
  have hl2 : HasVecDeriv (fun (s : ℝ) a => (![1, 2, 3 + s] : Fin 3 → ℝ) a ^ 2)
      (fun a => 2 * (![1, 2, 3 + 0] : Fin 3 → ℝ) a * (![0, 0, 1] : Fin 3 → ℝ) a) 0 := by
    intro a
    refine ((hl a).pow 2).congr_deriv ?_
    simp
  have hr := spectral_rate hN (Filter.Eventually.of_forall ho) hl2
  refine ⟨_, _, ⟨?_, hr, hl, hN⟩, fun h0 => ?_⟩
  · have h3 : ∀ᶠ s : ℝ in nhds 0, 0 < 3 + s := by
      filter_upwards [lt_mem_nhds (show (-3 : ℝ) < 0 by norm_num)] with s hs
      linarith
    filter_upwards [h3] with s hs
    refine ⟨fun a => ?_, ho s, rfl⟩
    fin_cases a
    · exact one_pos
    · exact two_pos
    · exact hs
  · have := (spectral_rate_entries hN (Filter.Eventually.of_forall ho) hl2 hr (Filter.Eventually.of_forall
      fun _ => rfl)).2 2 2
    rw [h0] at this
    simp at this

/-- Stretches that meet the condition on pairs: two equal, one different. -/
example : ∀ i j : Fin 3, (![1, 1, 2] : Fin 3 → ℝ) i = ![1, 1, 2] j ∨
    ¬ floatCmpEq (1 / 10) ((![1, 1, 2] : Fin 3 → ℝ) i) (![1, 1, 2] j) := by
  intro i j
  fin_cases i <;> fin_cases j <;> simp [floatCmpEq] <;> norm_num

/-- A Blatz-Ko material with a volumetric part in a deformed state. -/
example (solver : EigenSolver) (hs : CorrectSolver solver) :
    ∃ S, (Hyperelastic.mk (blatzKo 2) ⟨3, .f3⟩).stresses solver (1 / 10) (diagonal ![1, 1, 4]) = some S ∧
      S 2 2 ≠ 0 := by
  have hC : HasStretches (diagonal ![1, 1, 4]) ![1, 1, 2] 1 := by
    refine ⟨fun a => ?_, by simp, ?_⟩
    · fin_cases a <;> simp
    · rw [Matrix.one_mul, transpose_one, Matrix.mul_one]
      congr 1
      ext a
      fin_cases a <;> norm_num
  have := (hyperelastic_any_basis (Hyperelastic.mk (blatzKo 2) ⟨3, .f3⟩) (blatzKo_isotropic 2) hs
    (show (1 / 10 : ℝ) < 1 by norm_num) (le_refl (0 : ℝ)) hC).2.1
  refine ⟨_, this, ?_⟩
  have hd : (blatzKo 2).firstDerivative ![1, 1, 2] = some (BlatzKo.firstDerivative 2 ![1, 1, 2]) := rfl
  rw [inv_spectral hC]
  simp [BlatzKo.firstDerivative, determinantFromPrincipalValues, Volumetric.firstDerivative, VF.firstDerivative]
  norm_num
  have := Real.log_pos (show (1 : ℝ) < 2 by norm_num)
  intro h
  linarith

/-- Ogden material with stretches one and two: no matter which solver, and the same after a rotation by a quarter. -/
example (solver solver' : EigenSolver) (hs : CorrectSolver solver) (hs' : CorrectSolver solver') :
    ∃ (l : Fin 3 → ℝ) (N : M3), HasStretches (diagonal ![1, 4, 4]) l N ∧
      (⟨(⟨fun _ => 1, fun _ => 2⟩ : Ogden 1).total, ⟨5, .f3⟩⟩ : Hyperelastic).stresses solver (1 / 10) (diagonal ![1, 4, 4]) =
        (⟨(⟨fun _ => 1, fun _ => 2⟩ : Ogden 1).total, ⟨5, .f3⟩⟩ : Hyperelastic).stresses solver' (1 / 10) (diagonal ![1, 4, 4]) ∧
      (⟨(⟨fun _ => 1, fun _ => 2⟩ : Ogden 1).total, ⟨5, .f3⟩⟩ : Hyperelastic).storedEnergy solver (1 / 10)
          (!![0, -1, 0; 1, 0, 0; 0, 0, 1] * diagonal ![1, 4, 4] * !![0, -1, 0; 1, 0, 0; 0, 0, 1]ᵀ) =
        (⟨(⟨fun _ => 1, fun _ => 2⟩ : Ogden 1).total, ⟨5, .f3⟩⟩ : Hyperelastic).storedEnergy solver (1 / 10) (diagonal ![1, 4, 4]) := by
  obtain ⟨l, N, hC⟩ := hyperelastic_hypotheses.2 (diagonal ![1, 4, 4]) (PosDef.diagonal fun i => by fin_cases i <;> norm_num)
  have hf := (library_isotropic.2.2.1 1 ⟨fun _ => 1, fun _ => 2⟩).2
  refine ⟨l, N, hC, (hyperelastic_solver_independent _ hf hs hs' (show (1 / 10 : ℝ) < 1 by norm_num) (le_refl 0) hC).2.1,
    (hyperelastic_isotropic _ hf hs (show (1 / 10 : ℝ) < 1 by norm_num) hC ?_).1⟩
  ext i j
  fin_cases i <;> fin_cases j <;> simp [Matrix.mul_apply, Fin.sum_univ_three]

end Ikarus
