import Verif.Material.SmoothInvariantLemmas
import Mathlib.Analysis.Calculus.FDeriv.Symmetric
import Mathlib.Analysis.SpecialFunctions.Trigonometric.Deriv

/-!
Derivatives along all motions from derivatives along motions with differentiable principal directions.
-/

namespace Ikarus

open Matrix Spec Hyperelastic
open scoped Topology

/-- A rotation in the plane of two axes. -/
noncomputable def planeRotation (i j : Fin 3) (c s : ℝ) : M3 := Matrix.of fun a b =>
  if b = i then (if a = i then c else if a = j then s else 0)
  else if b = j then (if a = i then -s else if a = j then c else 0)
  else if a = b then 1 else 0

theorem planeRotation_orth {i j : Fin 3} (hij : i ≠ j) {c s : ℝ} (h : c ^ 2 + s ^ 2 = 1) :
    (planeRotation i j c s)ᵀ * planeRotation i j c s = 1 := by
  ext a b
  rw [Matrix.mul_apply, Fin.sum_univ_three]
  fin_cases i <;> fin_cases j <;> first | exact absurd rfl hij | skip
  all_goals fin_cases a <;> fin_cases b <;> simp [planeRotation] <;> linarith

theorem planeRotation_diagonal {i j : Fin 3} (hij : i ≠ j) {c s : ℝ} (h : c ^ 2 + s ^ 2 = 1) {v : Fin 3 → ℝ} (hv : v i = v j) :
    planeRotation i j c s * diagonal v * (planeRotation i j c s)ᵀ = diagonal v := by
  ext a b
  rw [Matrix.mul_apply, Fin.sum_univ_three]
  simp only [mul_diagonal]
  fin_cases i <;> fin_cases j <;> first | exact absurd rfl hij | skip
  all_goals
    simp only [Fin.zero_eta, Fin.mk_one, Fin.reduceFinMk] at hv
    fin_cases a <;> fin_cases b <;> simp [planeRotation, hv] <;> (try ring_nf) <;>
      first | linear_combination (v 0) * h | linear_combination (v 1) * h | linear_combination (v 2) * h

/-- The rate of a rotation in the plane of two axes. -/
noncomputable def planeSpin (i j : Fin 3) : M3 := Matrix.of fun a b => if a = j ∧ b = i then 1 else if a = i ∧ b = j then -1 else 0

theorem planeRotation_rate {i j : Fin 3} (hij : i ≠ j) :
    HasMatDeriv (fun t => planeRotation i j (Real.cos t) (Real.sin t)) (planeSpin i j) 0 := by
  have hc : HasDerivAt Real.cos 0 0 := by simpa using Real.hasDerivAt_cos 0
  have hs : HasDerivAt Real.sin 1 0 := by simpa using Real.hasDerivAt_sin 0
  have hn : HasDerivAt (fun t => -Real.sin t) (-1) 0 := hs.neg
  intro a b
  fin_cases i <;> fin_cases j <;> first | exact absurd rfl hij | skip
  all_goals fin_cases a <;> fin_cases b <;> simp [planeRotation, planeSpin] <;>
    first | exact hc | exact hs | exact hn | exact hasDerivAt_const _ _

/-- The part of a symmetric matrix that belongs to two directions. -/
def dyadSum (N : M3) (i j : Fin 3) : M3 := colDyad N i j + colDyad N j i

theorem dyad_decomp {N D : M3} (hN : Nᵀ * N = 1) (hD : D.IsSymm) :
    D = ∑ i, ∑ j, (1 / 2 * (Nᵀ * D * N) i j) • dyadSum N i j := by
  have h1 : N * Nᵀ = 1 := mul_eq_one_comm.1 hN
  have h2 : D = N * (Nᵀ * D * N) * Nᵀ := by
    rw [Matrix.mul_assoc Nᵀ, ← Matrix.mul_assoc N, h1, Matrix.one_mul, Matrix.mul_assoc, h1, Matrix.mul_one]
  have h3 : (Nᵀ * D * N).IsSymm := by
    rw [IsSymm, transpose_mul, transpose_mul, transpose_transpose, hD, Matrix.mul_assoc]
  obtain ⟨X, hX⟩ : ∃ X, X = Nᵀ * D * N := ⟨_, rfl⟩
  rw [← hX] at h2 h3 ⊢
  have hs : ∀ i j, X i j = X j i := fun i j => (congrFun (congrFun h3 i) j).symm
  conv_lhs => rw [h2]
  ext a b
  simp only [Matrix.sum_apply, Matrix.smul_apply, dyadSum, Matrix.add_apply, colDyad, smul_eq_mul, Matrix.mul_apply, transpose_apply,
    Fin.sum_univ_three, hs 1 0, hs 2 0, hs 2 1]
  ring

/-- Two linear functions of the rate that agree for all motions with differentiable principal stretches and directions through
`C` agree for all rates. -/
theorem rate_ext {C : M3} {l : Fin 3 → ℝ} {N : M3} (h : HasStretches C l N) (φ : (Fin 3 → Fin 3 → ℝ) →ₗ[ℝ] ℝ)
    (hφ : ∀ (P : ℝ → M3) (dC : M3) (l' : ℝ → Fin 3 → ℝ) (dl : Fin 3 → ℝ) (N' : ℝ → M3) (dN : M3),
      StretchPath P dC l' dl N' dN 0 → P 0 = C → l' 0 = l → φ dC = 0) {D : M3} (hD : D.IsSymm) : φ D = 0 := by
  -- one direction
  have hdiag : ∀ M, HasStretches C l M → ∀ i, φ (colDyad M i i) = 0 := by
    intro M hM i
    have hp : StretchPath (fun t => M * diagonal (fun a => (l a + t * if a = i then 1 else 0) ^ 2) * Mᵀ)
        ((2 * l i) • colDyad M i i) (fun t a => l a + t * if a = i then 1 else 0) (fun a => if a = i then 1 else 0) (fun _ => M) 0 0 := by
      have hl : HasVecDeriv (fun (t : ℝ) a => l a + t * if a = i then (1 : ℝ) else 0) (fun a => if a = i then 1 else 0) 0 := fun a => by
        have := ((hasDerivAt_id (0 : ℝ)).mul_const (if a = i then (1 : ℝ) else 0)).const_add (l a)
        simpa using this
      refine ⟨?_, ?_, hl, fun a b => hasDerivAt_const _ _⟩
      · have h1 : ∀ a, ∀ᶠ t : ℝ in 𝓝 0, 0 < l a + t * if a = i then 1 else 0 := fun a => by
          have hc : ContinuousAt (fun t : ℝ => l a + t * if a = i then (1 : ℝ) else 0) 0 := by fun_prop
          exact hc.eventually (lt_mem_nhds (by simpa using h.1 a))
        filter_upwards [h1 0, h1 1, h1 2] with t t0 t1 t2
        refine ⟨fun a => ?_, hM.2.orth, rfl⟩
        fin_cases a
        exacts [t0, t1, t2]
      · have hl2 : HasVecDeriv (fun (t : ℝ) a => (l a + t * if a = i then (1 : ℝ) else 0) ^ 2) (fun a => if a = i then 2 * l i else 0) 0 := by
          intro a
          refine ((hl a).pow 2).congr_deriv ?_
          by_cases ha : a = i <;> simp [ha]
        have h0 : HasMatDeriv (fun _ : ℝ => M) 0 0 := fun a b => hasDerivAt_const _ _
        have h1 := (h0.mul (hasMatDeriv_diagonal hl2)).mul h0.transpose
        have e : (0 * diagonal (fun a => (l a + 0 * if a = i then (1 : ℝ) else 0) ^ 2) +
            M * diagonal fun a => if a = i then 2 * l i else 0) * Mᵀ +
            M * diagonal (fun a => (l a + 0 * if a = i then (1 : ℝ) else 0) ^ 2) * (0 : M3)ᵀ = (2 * l i) • colDyad M i i := by
          rw [transpose_zero, Matrix.mul_zero, Matrix.zero_mul, zero_add, add_zero]
          ext a b
          rw [Matrix.mul_apply]
          simp only [mul_diagonal, transpose_apply, Matrix.smul_apply, colDyad, smul_eq_mul, mul_ite, mul_zero, ite_mul, zero_mul,
            Finset.sum_ite_eq', Finset.mem_univ, if_true]
          ring
        rw [e] at h1
        exact h1
    have h2 := hφ _ _ _ _ _ _ hp (by simp only [zero_mul, add_zero]; exact hM.2.decomp.symm) (by funext a; simp)
    have h3 : φ ((2 * l i) • colDyad M i i) = (2 * l i) * φ (colDyad M i i) := φ.map_smul _ _
    rw [h3] at h2
    exact (mul_eq_zero.1 h2).resolve_left (mul_pos two_pos (h.1 i)).ne'
  -- two directions
  have hpair : ∀ i j, i ≠ j → φ (dyadSum N i j) = 0 := by
    intro i j hij
    by_cases hl : l i = l j
    · have hc : (√2⁻¹ : ℝ) ^ 2 + (√2⁻¹ : ℝ) ^ 2 = 1 := by rw [Real.sq_sqrt (by norm_num)]; norm_num
      have hM : HasStretches C l (N * planeRotation i j (√2⁻¹) (√2⁻¹)) := by
        refine ⟨h.1, ?_, ?_⟩
        · rw [transpose_mul, Matrix.mul_assoc, ← Matrix.mul_assoc Nᵀ, h.2.orth, Matrix.one_mul, planeRotation_orth hij hc]
        · rw [transpose_mul]
          have := planeRotation_diagonal hij hc (v := fun a => l a ^ 2) (by rw [hl])
          calc C = N * diagonal (fun a => l a ^ 2) * Nᵀ := h.2.decomp
            _ = N * (planeRotation i j (√2⁻¹) (√2⁻¹) * diagonal (fun a => l a ^ 2) * (planeRotation i j (√2⁻¹) (√2⁻¹))ᵀ) * Nᵀ := by rw [this]
            _ = _ := by simp only [Matrix.mul_assoc]
      have h1 := hdiag _ hM i
      have h2 := hdiag _ hM j
      have e : dyadSum N i j = colDyad (N * planeRotation i j (√2⁻¹) (√2⁻¹)) i i - colDyad (N * planeRotation i j (√2⁻¹) (√2⁻¹)) j j := by
        have hq : (√2⁻¹ : ℝ) * √2⁻¹ = 1 / 2 := by rw [Real.mul_self_sqrt (by norm_num)]; norm_num
        ext a b
        have hi : ∀ a, (N * planeRotation i j (√2⁻¹) (√2⁻¹)) a i = √2⁻¹ * (N a i + N a j) := fun a => by
          rw [Matrix.mul_apply, Fin.sum_univ_three]
          fin_cases i <;> fin_cases j <;> first | exact absurd rfl hij | skip
          all_goals simp [planeRotation] <;> ring
        have hj : ∀ a, (N * planeRotation i j (√2⁻¹) (√2⁻¹)) a j = √2⁻¹ * (N a j - N a i) := fun a => by
          rw [Matrix.mul_apply, Fin.sum_univ_three]
          fin_cases i <;> fin_cases j <;> first | exact absurd rfl hij | skip
          all_goals simp [planeRotation] <;> ring
        simp only [dyadSum, Matrix.add_apply, Matrix.sub_apply, colDyad, hi, hj]
        linear_combination (-((N a i + N a j) * (N b i + N b j)) + (N a j - N a i) * (N b j - N b i)) * hq
      have h3 : φ (dyadSum N i j) = φ (colDyad (N * planeRotation i j (√2⁻¹) (√2⁻¹)) i i) -
          φ (colDyad (N * planeRotation i j (√2⁻¹) (√2⁻¹)) j j) := by
        rw [e]
        exact φ.map_sub _ _
      rw [h3, h1, h2, sub_zero]
    · have hR := planeRotation_rate hij
      have h0 : HasMatDeriv (fun _ : ℝ => N) 0 0 := fun a b => hasDerivAt_const _ _
      have hd : HasMatDeriv (fun _ : ℝ => diagonal fun a => l a ^ 2) (0 : M3) 0 := fun a b => hasDerivAt_const _ _
      have hN' := h0.mul hR
      have hP := (hN'.mul hd).mul hN'.transpose
      have hR0 : planeRotation i j (Real.cos 0) (Real.sin 0) = 1 := by
        ext a b
        fin_cases i <;> fin_cases j <;> first | exact absurd rfl hij | skip
        all_goals fin_cases a <;> fin_cases b <;> simp [planeRotation]
      have hst : ∀ᶠ t in 𝓝 (0 : ℝ), HasStretches (N * planeRotation i j (Real.cos t) (Real.sin t) * diagonal (fun a => l a ^ 2) *
          (N * planeRotation i j (Real.cos t) (Real.sin t))ᵀ) l (N * planeRotation i j (Real.cos t) (Real.sin t)) := by
        refine Filter.Eventually.of_forall fun t => ⟨h.1, ?_, rfl⟩
        rw [transpose_mul, Matrix.mul_assoc, ← Matrix.mul_assoc Nᵀ, h.2.orth, Matrix.one_mul,
          planeRotation_orth hij (by rw [add_comm]; exact Real.sin_sq_add_cos_sq t)]
      have hp := Spec.StretchPath.mk (l := fun _ => l) (dl := 0) hst hP (fun a => hasDerivAt_const _ _) hN'
      have h1 := hφ _ _ _ _ _ _ hp (by simp only [hR0, Matrix.mul_one]; exact h.2.decomp.symm) rfl
      simp only [hR0, Matrix.mul_one, Matrix.zero_mul, zero_add, Matrix.mul_zero, add_zero] at h1
      have e : N * planeSpin i j * diagonal (fun a => l a ^ 2) * Nᵀ + N * diagonal (fun a => l a ^ 2) * (N * planeSpin i j)ᵀ =
          (l i ^ 2 - l j ^ 2) • dyadSum N i j := by
        ext a b
        simp only [Matrix.add_apply, Matrix.mul_apply, Matrix.smul_apply, dyadSum, colDyad, smul_eq_mul, mul_diagonal, transpose_apply,
          Fin.sum_univ_three, diagonal_apply]
        fin_cases i <;> fin_cases j <;> first | exact absurd rfl hij | skip
        all_goals simp [planeSpin] <;> ring
      rw [e] at h1
      have h2 : φ ((l i ^ 2 - l j ^ 2) • dyadSum N i j) = (l i ^ 2 - l j ^ 2) * φ (dyadSum N i j) := φ.map_smul _ _
      rw [h2] at h1
      refine (mul_eq_zero.1 h1).resolve_left fun h0 => hl ?_
      have pi := h.1 i
      have pj := h.1 j
      nlinarith
  rw [dyad_decomp h.2.orth hD]
  have e : φ (∑ i, ∑ j, (1 / 2 * (Nᵀ * D * N) i j) • dyadSum N i j) =
      ∑ i, ∑ j, (1 / 2 * (Nᵀ * D * N) i j) * φ (dyadSum N i j) := by
    refine (map_sum φ _ _).trans (Finset.sum_congr rfl fun i _ => (map_sum φ _ _).trans (Finset.sum_congr rfl fun j _ => φ.map_smul _ _))
  refine e.trans ?_
  refine Finset.sum_eq_zero fun i _ => Finset.sum_eq_zero fun j _ => ?_
  by_cases hij : i = j
  · subst hij
    have : φ (dyadSum N i i) = φ (colDyad N i i) + φ (colDyad N i i) := φ.map_add _ _
    rw [this, hdiag N h i, add_zero, mul_zero]
  · rw [hpair i j hij, mul_zero]

end Ikarus
