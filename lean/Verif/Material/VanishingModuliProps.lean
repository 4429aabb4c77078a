import Verif.Material.VanishingProps
import Verif.Material.SVKProps
import Verif.Material.ConversionProps

/-!
C42: the moduli of vanishing stress materials, plane stress of the St. Venant-Kirchhoff material, and vanishing
strain materials.
-/

namespace Ikarus

open Matrix Spec

/-- C42. The condensed moduli are the derivative of the condensed stress: along every path of strains in
which all fixed stresses vanish, the rate of the returned stresses is the returned matrix (divided by the
derivative factor of the strain measure) times the rate of the free strains. -/
theorem vanishingStress_moduli_derivative {k : Nat} (law : UnderlyingLaw) (fixed : Fin k → Fin 3 × Fin 3)
    (free : Fin (6 - k) → Fin 6) (hfree : createfreeVoigtIndices fixed = some free) (nfGt : Bool) (tol : ℝ)
    (htol : 0 ≤ tol) (Es : ℝ → M3) (S : ℝ → Fin 6 → ℝ) (t : ℝ) (v : Fin 6 → ℝ)
    (C : Matrix (Fin 6) (Fin 6) ℝ) (hC : law.moduli (Es t) = some C) (hsym : C.IsSymm)
    (hf : law.derivativeFactor ≠ 0)
    (hred : ∀ s, VanishingStress.Spec.AlreadyReduced law fixed (Es s) (S s))
    (hshear : ∀ s j, S s (createFixedVoigtIndices fixed j) = 0)
    (hder : ∀ i, HasDerivAt (fun s => S s i) (law.derivativeFactor⁻¹ * (C *ᵥ v) i) t)
    (hinv : IsUnit (C.submatrix (createFixedVoigtIndices fixed) (createFixedVoigtIndices fixed))) :
    ∃ Cc, ∃ Sred : ℝ → Fin (6 - k) → ℝ, VanishingStress.tangentModuliVoigt law fixed nfGt tol (.matrix (Es t)) = some (some Cc) ∧
      Cc.IsSymm ∧
      (∀ s, VanishingStress.stressesVoigt law fixed nfGt tol (.matrix (Es s)) = some (some (Sred s))) ∧
      ∀ i, HasDerivAt (fun s => Sred s i) (law.derivativeFactor⁻¹ * (Cc *ᵥ fun j => v (free j)) i) t := by
  obtain ⟨hsm, hret⟩ := (voigt_index_lists fixed).2.2 free hfree
  obtain ⟨Cc, hCc, hCs, hCv, -⟩ := staticCondensation_spec C hsym _ hsm free hret hinv
  have hun := fun s => VanishingStress.vanishingStress_unchanged law fixed nfGt tol htol (Es s) (S s) (hred s)
  refine ⟨Cc, fun s i => S s (free i), ?_, hCs, fun s => ?_, fun i => ?_⟩
  · unfold VanishingStress.tangentModuliVoigt
    rw [hun t]
    simp only [Option.map_some, Option.bind_eq_bind, Option.bind_some, hC, hCc]
  · exact (VanishingStress.vanishingStress_reduced_partial law fixed nfGt tol _ _ (hun s)).2.2.2 _ _ (hred s).value hfree
  · have hz : ∀ j, (C *ᵥ v) (createFixedVoigtIndices fixed j) = 0 := by
      intro j
      have h1 := hder (createFixedVoigtIndices fixed j)
      have h2 : (fun s => S s (createFixedVoigtIndices fixed j)) = fun _ => 0 := funext fun s => hshear s j
      rw [h2] at h1
      have h3 := h1.unique (hasDerivAt_const t (0 : ℝ))
      exact (mul_eq_zero.1 h3).resolve_left (inv_ne_zero hf)
    rw [hCv v hz]
    exact hder (free i)

/-- The hypotheses are met by uniaxial plane stress of a St. Venant-Kirchhoff material. -/
example : ∃ (Es : ℝ → M3) (S : ℝ → Fin 6 → ℝ),
    (∀ s, VanishingStress.Spec.AlreadyReduced (VanishingStress.svkLaw ⟨1, 1⟩) VanishingStress.planeStressPairs
      (Es s) (S s)) ∧
    (∀ s j, S s (createFixedVoigtIndices VanishingStress.planeStressPairs j) = 0) ∧
    ∀ i, HasDerivAt (fun s => S s i)
      (((SVK.mk 1 1 : SVK ℝ).moduliVoigt *ᵥ (![1, 0, -1 / 3, 0, 0, 0] : Fin 6 → ℝ)) i) 0 := by
  refine ⟨fun s => Matrix.diagonal ![s, 0, -1 / 3 * s], fun s => ![8 / 3 * s, 2 / 3 * s, 0, 0, 0, 0],
    fun s => ⟨fun a b hab _ => Matrix.diagonal_apply_ne _ hab, ?_, fun a ha => ?_, fun h => ?_⟩, fun s j => ?_,
    fun i => ?_⟩
  · simp only [VanishingStress.svkLaw, Option.some.injEq]
    funext i
    fin_cases i <;> simp [SVK.stressMatrixToVoigt, Matrix.trace, Fin.sum_univ_three] <;> ring
  · have : a = 2 := by simpa using (VanishingStress.isFixed_plane a a).1 ha
    subst this
    simp [voigt3]
  · rcases h with h | h <;> cases h
  · have h : createFixedVoigtIndices VanishingStress.planeStressPairs = ![2, 3, 4] := by decide
    rw [h]
    fin_cases j <;> simp
  · have h1 : ∀ c : ℝ, HasDerivAt (fun s : ℝ => c * s) c 0 := fun c => by
      simpa using (hasDerivAt_id (0 : ℝ)).const_mul c
    have h0 : HasDerivAt (fun _ : ℝ => (0 : ℝ)) 0 0 := hasDerivAt_const _ _
    fin_cases i
    · refine (h1 (8 / 3)).congr_deriv ?_
      simp [SVK.moduliVoigt, Matrix.mulVec, dotProduct, Fin.sum_univ_succ]; norm_num
    · refine (h1 (2 / 3)).congr_deriv ?_
      simp [SVK.moduliVoigt, Matrix.mulVec, dotProduct, Fin.sum_univ_succ]; norm_num
    all_goals
      refine h0.congr_deriv ?_
      simp [SVK.moduliVoigt, Matrix.mulVec, dotProduct, Fin.sum_univ_succ]
      try norm_num

/-- C32, C42. The inverse of the condensed matrix is the reduced inverse: condensing the moduli and removing
rows and columns of the compliance are inverse to each other. -/
theorem condensation_reduce_inverse {n k : Nat} (E : Matrix (Fin n) (Fin n) ℝ) (hE : E.IsSymm)
    (idx : Fin k → Fin n) (hidx : StrictMono idx) (hinv : IsUnit (E.submatrix idx idx)) (hu : IsUnit E) :
    ∃ C D, staticCondensation E idx = some C ∧ reduceMatrix E⁻¹ idx = some D ∧ C * D = 1 ∧ D * C = 1 := by
  obtain ⟨rem, hrem, hm, hx⟩ := remainingIndices_spec idx hidx
  have hr : Retained idx rem := ⟨hm, hx⟩
  obtain ⟨C, hC, -, hCv, -⟩ := staticCondensation_spec E hE idx hidx rem hr hinv
  have hD := (reduce_remove_spec E⁻¹ (0 : Fin n → ℝ) idx hidx rem hr).1
  have hprod : C * (Matrix.of fun i j => E⁻¹ (rem i) (rem j)) = 1 := by
    refine Matrix.ext_of_mulVec_single fun j => ?_
    rw [Matrix.one_mulVec, ← Matrix.mulVec_mulVec]
    have hs : E *ᵥ (E⁻¹ *ᵥ Pi.single (rem j) 1) = Pi.single (rem j) 1 := by
      rw [Matrix.mulVec_mulVec, Matrix.mul_nonsing_inv _ ((Matrix.isUnit_iff_isUnit_det _).1 hu), Matrix.one_mulVec]
    have h := hCv (E⁻¹ *ᵥ Pi.single (rem j) 1) (fun l => by
      rw [hs, Pi.single_apply, if_neg]
      exact (hr.2 (rem j)).1 ⟨j, rfl⟩ l)
    rw [hs] at h
    have h1 : (Matrix.of fun i j => E⁻¹ (rem i) (rem j)) *ᵥ Pi.single j 1
        = fun i => (E⁻¹ *ᵥ Pi.single (rem j) 1) (rem i) := by
      funext i
      rw [Matrix.mulVec_single_one, Matrix.mulVec_single_one]
      rfl
    rw [h1, h]
    funext i
    by_cases hij : i = j
    · subst hij; simp
    · rw [Pi.single_eq_of_ne hij, Pi.single_eq_of_ne (fun hh => hij (hr.1.injective hh))]
  exact ⟨C, _, hC, hD, hprod, mul_eq_one_comm.1 hprod⟩

example := condensation_reduce_inverse (!![2, 1, 0; 1, 3, 1; 0, 1, 4] : Matrix (Fin 3) (Fin 3) ℝ)
  (by ext i j; fin_cases i <;> fin_cases j <;> rfl) ![(2 : Fin 3)] (by intro i j h; omega)
  (by rw [Matrix.isUnit_iff_isUnit_det, Matrix.det_fin_one]; simp)
  (by rw [Matrix.isUnit_iff_isUnit_det]; simp [Matrix.det_fin_three]; norm_num)

/-! ### Plane stress of the St. Venant-Kirchhoff material -/

namespace VanishingStress

theorem plane_fixed : createFixedVoigtIndices planeStressPairs = ![2, 3, 4] := by decide

theorem plane_strictMono : StrictMono (![2, 3, 4] : Fin 3 → Fin 6) := by
  intro i j; revert i j; decide

theorem plane_retained : Retained (![2, 3, 4] : Fin 3 → Fin 6) (![0, 1, 5] : Fin (6 - 3) → Fin 6) := by
  refine ⟨?_, by decide⟩
  intro i j; revert i j; decide

theorem plane_free : createfreeVoigtIndices planeStressPairs = some ![0, 1, 5] := by decide

theorem plane_diagonal : fixedDiagonal planeStressPairs = [2] := by decide

/-- The plane stress moduli of linear elasticity with `lambda' = 2 lambda mu / (lambda + 2 mu)`. -/
noncomputable def Spec.planeStressModuli (m : SVK ℝ) : Matrix (Fin 3) (Fin 3) ℝ :=
  let l := 2 * m.lambda * m.mu / (m.lambda + 2 * m.mu)
  !![l + 2 * m.mu, l, 0; l, l + 2 * m.mu, 0; 0, 0, m.mu]

theorem svk_blocks (m : SVK ℝ) :
    m.moduliVoigt.submatrix (![2, 3, 4] : Fin 3 → Fin 6) ![2, 3, 4]
      = Matrix.diagonal ![m.lambda + 2 * m.mu, m.mu, m.mu] ∧
    m.moduliVoigt.submatrix (![2, 3, 4] : Fin 3 → Fin 6) (![0, 1, 5] : Fin (6 - 3) → Fin 6)
      = !![m.lambda, m.lambda, 0; 0, 0, 0; 0, 0, 0] ∧
    m.moduliVoigt.submatrix (![0, 1, 5] : Fin (6 - 3) → Fin 6) (![0, 1, 5] : Fin (6 - 3) → Fin 6)
      = !![m.lambda + 2 * m.mu, m.lambda, 0; m.lambda, m.lambda + 2 * m.mu, 0; 0, 0, m.mu] := by
  refine ⟨?_, ?_, ?_⟩
  all_goals
    refine Matrix.ext fun i j => ?_
    rw [Matrix.submatrix_apply]
    fin_cases i <;> fin_cases j <;> simp [SVK.moduliVoigt, Matrix.diagonal]

theorem svk_block (m : SVK ℝ) (hmu : m.mu ≠ 0) (hM : m.lambda + 2 * m.mu ≠ 0) :
    (m.moduliVoigt.submatrix (![2, 3, 4] : Fin 3 → Fin 6) ![2, 3, 4])⁻¹
      = Matrix.diagonal ![1 / (m.lambda + 2 * m.mu), 1 / m.mu, 1 / m.mu] := by
  refine Matrix.inv_eq_right_inv ?_
  rw [(svk_blocks m).1, Matrix.diagonal_mul_diagonal, ← Matrix.diagonal_one]
  congr 1
  funext i
  fin_cases i <;> simp [hmu, hM]

theorem svk_condensed (m : SVK ℝ) (hmu : m.mu ≠ 0) (hM : m.lambda + 2 * m.mu ≠ 0) :
    staticCondensation m.moduliVoigt (createFixedVoigtIndices planeStressPairs)
      = some (Spec.planeStressModuli m) := by
  rw [plane_fixed]
  unfold staticCondensation
  rw [retained_eq plane_strictMono plane_retained]
  simp only [Option.map_some, Option.some.injEq]
  rw [svk_block m hmu hM, (svk_blocks m).2.1, (svk_blocks m).2.2]
  refine Matrix.ext fun i j => ?_
  rw [Matrix.sub_apply, Matrix.mul_apply]
  simp_rw [Matrix.mul_apply]
  unfold Spec.planeStressModuli
  fin_cases i <;> fin_cases j <;>
    simp [Fin.sum_univ_three, Matrix.diagonal] <;> field_simp <;> ring

theorem svk_affine (m : SVK ℝ) : Spec.AffineLaw (svkLaw m) m.moduliVoigt 0 := by
  refine ⟨fun E => ?_, fun E => rfl⟩
  simp only [svkLaw, Option.some.injEq]
  funext i
  fin_cases i <;>
    simp [SVK.stressMatrixToVoigt, SVK.moduliVoigt, Matrix.mulVec, dotProduct, Fin.sum_univ_succ, toVoigt3,
      strainFactor, Matrix.trace] <;> ring

/-- C42. Plane stress of the St. Venant-Kirchhoff material: the reduction never throws, the moduli are the
plane stress moduli, the shear strains are zero, and the thickness strain is the given one if that satisfies
the condition up to the tolerance, and otherwise exactly the plane stress value; then the stresses are the
plane stress moduli times the strains. -/
theorem planeStress_svk (m : SVK ℝ) (hmu : m.mu ≠ 0) (hM : m.lambda + 2 * m.mu ≠ 0) (nfGt : Bool) (tol : ℝ)
    (htol : 0 ≤ tol) (E : StrainArg) :
    ∃ Esol, reduceStress (svkLaw m) planeStressPairs nfGt tol E = some (some Esol) ∧
      tangentModuliVoigt (svkLaw m) planeStressPairs nfGt tol E = some (some (Spec.planeStressModuli m)) ∧
      ((Esol 2 2 = E.maybeFromVoigt 2 2 ∧
          |(m.lambda + 2 * m.mu) * Esol 2 2 + m.lambda * (Esol 0 0 + Esol 1 1)| ≤ tol) ∨
        (Esol 2 2 = -(m.lambda / (m.lambda + 2 * m.mu)) * (E.maybeFromVoigt 0 0 + E.maybeFromVoigt 1 1) ∧
          stressesVoigt (svkLaw m) planeStressPairs nfGt tol E = some (some (Spec.planeStressModuli m *ᵥ
            ![E.maybeFromVoigt 0 0, E.maybeFromVoigt 1 1, 2 * E.maybeFromVoigt 0 1])))) := by
  have hblock : (Matrix.of fun r s => m.moduliVoigt ((fixedDiagonal planeStressPairs).get r)
      ((fixedDiagonal planeStressPairs).get s) / (svkLaw m).derivativeFactor).det ≠ 0 := by
    have : ∀ l : List (Fin 6), l = [2] → (Matrix.of fun r s : Fin l.length => m.moduliVoigt (l.get r) (l.get s)
        / (svkLaw m).derivativeFactor).det ≠ 0 := by
      rintro l rfl
      have : (Matrix.of fun r s : Fin [(2 : Fin 6)].length => m.moduliVoigt ([(2 : Fin 6)].get r)
        ([(2 : Fin 6)].get s) / (svkLaw m).derivativeFactor).det = m.lambda + 2 * m.mu := by
        refine (Matrix.det_fin_one _).trans ?_
        simp [SVK.moduliVoigt, svkLaw]
      rw [this]
      exact hM
    exact this _ plane_diagonal
  obtain ⟨Esol, hr, hcase⟩ := vanishingStress_affine (svkLaw m) m.moduliVoigt 0 (svk_affine m) planeStressPairs
    hblock nfGt tol htol E
  obtain ⟨hred, -, -, hsv⟩ := vanishingStress_reduced_partial (svkLaw m) planeStressPairs nfGt tol E Esol hr
  have h22 : IsFixed planeStressPairs 2 2 := (isFixed_plane 2 2).2 (Or.inl rfl)
  have h00 : Esol 0 0 = E.maybeFromVoigt 0 0 := hred.free 0 0 (by rw [isFixed_plane]; decide)
  have h11 : Esol 1 1 = E.maybeFromVoigt 1 1 := hred.free 1 1 (by rw [isFixed_plane]; decide)
  have h01 : Esol 0 1 = E.maybeFromVoigt 0 1 := hred.free 0 1 (by rw [isFixed_plane]; decide)
  have hst : m.stressMatrixToVoigt Esol 2
      = (m.lambda + 2 * m.mu) * Esol 2 2 + m.lambda * (Esol 0 0 + Esol 1 1) := by
    simp [SVK.stressMatrixToVoigt, Matrix.trace, Fin.sum_univ_three]; ring
  refine ⟨Esol, hr, ?_, ?_⟩
  · unfold tangentModuliVoigt
    rw [hr]
    simp only [Option.map_some, Option.bind_eq_bind, Option.bind_some, svkLaw]
    rw [svk_condensed m hmu hM]
  · rcases hcase with h | ⟨S, hS, h⟩
    · left
      refine ⟨by rw [h 2 h22, startValue_greenLagrangian rfl], ?_⟩
      rw [← hst]
      exact hred.stress _ rfl 2 h22
    · right
      obtain rfl := Option.some.inj hS
      have h0 : m.stressMatrixToVoigt Esol 2 = 0 := h 2 h22
      rw [hst] at h0
      have he : Esol 2 2 = -(m.lambda / (m.lambda + 2 * m.mu)) * (E.maybeFromVoigt 0 0 + E.maybeFromVoigt 1 1) := by
        rw [← h00, ← h11]
        field_simp
        linarith
      refine ⟨he, ?_⟩
      rw [hsv _ _ rfl plane_free]
      congr 2
      funext i
      fin_cases i
      all_goals
        simp [SVK.stressMatrixToVoigt, Matrix.trace, Fin.sum_univ_three, Spec.planeStressModuli, Matrix.mulVec,
          dotProduct, h00, h11, h01, he]
        try field_simp
        try ring

/-- The theorem applies: a material and a strain that needs one step. -/
example : ∃ Esol, reduceStress (svkLaw ⟨1, 1⟩) planeStressPairs false (1 / 10) (.voigt ![3, 0, 0, 0, 0, 4])
    = some (some Esol) ∧ Esol 2 2 = -1 := by
  obtain ⟨Esol, h1, -, h3⟩ := planeStress_svk ⟨1, 1⟩ (by norm_num) (by norm_num) false (1 / 10) (by norm_num)
    (.voigt ![3, 0, 0, 0, 0, 4])
  obtain ⟨hred, -⟩ := vanishingStress_reduced_partial _ _ _ _ _ _ h1
  have h00 : Esol 0 0 = 3 := (hred.free 0 0 (by rw [isFixed_plane]; decide)).trans (by
    simp [StrainArg.maybeFromVoigt, fromVoigt3])
  have h11 : Esol 1 1 = 0 := (hred.free 1 1 (by rw [isFixed_plane]; decide)).trans (by
    simp [StrainArg.maybeFromVoigt, fromVoigt3])
  refine ⟨Esol, h1, ?_⟩
  rcases h3 with ⟨h, hle⟩ | ⟨h, -⟩
  · simp [StrainArg.maybeFromVoigt, fromVoigt3] at h
    rw [h00, h11, h] at hle
    norm_num at hle
  · rw [h]
    simp [StrainArg.maybeFromVoigt, fromVoigt3]
    norm_num

/-- C42. The inversion in plane stress: the returned matrix is the inverse of the plane stress moduli, and the
returned strain causes the given stress. -/
theorem planeStress_inversion_svk (m : SVK ℝ) (hmu : m.mu ≠ 0) (hM : m.lambda + 2 * m.mu ≠ 0)
    (hk : 3 * m.lambda + 2 * m.mu ≠ 0) (S : Matrix (Fin 2) (Fin 2) ℝ) :
    ∃ D e, materialInversion planeStressPairs (fun S => some (m.materialInversionVoigt S)) S = some (D, e) ∧
      D * Spec.planeStressModuli m = 1 ∧ Spec.planeStressModuli m * D = 1 ∧
      Spec.planeStressModuli m *ᵥ e = ![S 0 0, S 1 1, S 0 1] := by
  have hC := svk_condensed m hmu hM
  have hsymm : m.moduliVoigt.IsSymm := (svk_moduli two_ne_zero m).2.2.2.1
  have hu : IsUnit m.moduliVoigt := IsUnit.of_mul_eq_one _ (svk_mul_compliance two_ne_zero m hmu hk)
  have hinv : IsUnit (m.moduliVoigt.submatrix (![2, 3, 4] : Fin 3 → Fin 6) ![2, 3, 4]) := by
    rw [(svk_blocks m).1, Matrix.isUnit_iff_isUnit_det, Matrix.det_diagonal, isUnit_iff_ne_zero]
    simp [Fin.prod_univ_three, hmu, hM]
  rw [plane_fixed] at hC
  obtain ⟨C, D, hC', hD, hCD, hDC⟩ := condensation_reduce_inverse m.moduliVoigt hsymm _ plane_strictMono hinv hu
  rw [hC] at hC'
  obtain rfl := Option.some.inj hC'
  obtain ⟨C, hC', -, hv, -⟩ := staticCondensation_spec m.moduliVoigt hsymm _ plane_strictMono _ plane_retained hinv
  rw [hC] at hC'
  obtain rfl := Option.some.inj hC'
  set S3 : M3 := !![S 0 0, S 0 1, 0; S 1 0, S 1 1, 0; 0, 0, 0] with hS3
  have he : (m.materialInversionVoigt S3).2 = m.moduliVoigt⁻¹ *ᵥ toVoigt3 S3 false :=
    ((toVoigt_fromVoigt (K := ℝ) two_ne_zero true).2.2 _).1
  have hce : m.moduliVoigt *ᵥ (m.materialInversionVoigt S3).2 = toVoigt3 S3 false := by
    rw [he, Matrix.mulVec_mulVec, Matrix.mul_nonsing_inv _ ((Matrix.isUnit_iff_isUnit_det _).1 hu),
      Matrix.one_mulVec]
  refine ⟨D, fun i => (m.materialInversionVoigt S3).2 ((![0, 1, 5] : Fin (6 - 3) → Fin 6) i), ?_, hDC, hCD, ?_⟩
  · unfold materialInversion
    rw [plane_fixed]
    simp only [Option.bind_eq_bind, Option.bind_some]
    rw [← hS3]
    have h1 : (m.materialInversionVoigt S3).1 = m.moduliVoigt⁻¹ := rfl
    rw [h1, hD, (reduce_remove_spec m.moduliVoigt⁻¹ _ _ plane_strictMono _ plane_retained).2]
    rfl
  · rw [hv _ fun j => ?_, hce]
    · funext i
      fin_cases i <;> simp [toVoigt3, hS3, strainFactor]
    · rw [hce]
      fin_cases j <;> simp [toVoigt3, hS3, strainFactor]

example := planeStress_inversion_svk ⟨1, 1⟩ (by norm_num) (by norm_num) (by norm_num) !![3, 4; 4, 0]

end VanishingStress

/-! ### Vanishing strain -/

namespace VanishingStrain

variable {k : Nat}

theorem setZero_fold (l : List (Fin 3 × Fin 3)) (E : M3) (a b : Fin 3) :
    ((∃ p ∈ l, p = (a, b) ∨ p = (b, a)) ∨ E a b = 0 →
      l.foldl (fun E p => setComp (setComp E p.1 p.2 0) p.2 p.1 0) E a b = 0) ∧
    ((∀ p ∈ l, p ≠ (a, b) ∧ p ≠ (b, a)) →
      l.foldl (fun E p => setComp (setComp E p.1 p.2 0) p.2 p.1 0) E a b = E a b) := by
  induction l generalizing E with
  | nil => exact ⟨fun h => h.elim (fun ⟨_, hp, _⟩ => by cases hp) id, fun _ => rfl⟩
  | cons q l ih =>
    obtain ⟨h1, h2⟩ := ih (setComp (setComp E q.1 q.2 0) q.2 q.1 0)
    refine ⟨fun h => ?_, fun h => ?_⟩
    · rw [List.foldl_cons]
      refine h1 ?_
      by_cases hq : q = (a, b) ∨ q = (b, a)
      · right
        exact setComp2_eq E (p := (q.2, q.1)) 0 (by
          rcases hq with rfl | rfl
          · exact Or.inr rfl
          · exact Or.inl rfl)
      · push Not at hq
        rcases h with ⟨p, hp, hpe⟩ | h
        · rcases List.mem_cons.1 hp with rfl | hp
          · exact absurd hpe (by push Not; exact hq)
          · exact Or.inl ⟨p, hp, hpe⟩
        · right
          rw [setComp2_ne E (p := (q.2, q.1)) 0 0 (fun hh => hq.2 (by cases q; cases hh; rfl))
            (fun hh => hq.1 (by cases q; cases hh; rfl)), h]
    · rw [List.foldl_cons]
      refine (h2 fun p hp => h p (List.mem_cons_of_mem _ hp)).trans ?_
      have hq := h q List.mem_cons_self
      exact setComp2_ne E (p := (q.2, q.1)) 0 0 (fun hh => hq.2 (by cases q; cases hh; rfl))
        (fun hh => hq.1 (by cases q; cases hh; rfl))

open Classical in
theorem setZero_entry (fixed : Fin k → Fin 3 × Fin 3) (E : M3) (a b : Fin 3) :
    setStrainsToZero fixed E a b = if IsFixed fixed a b then 0 else E a b := by
  obtain ⟨h1, h2⟩ := setZero_fold (List.ofFn fixed) E a b
  by_cases h : IsFixed fixed a b
  · rw [if_pos h]
    obtain ⟨i, hi⟩ := h
    exact h1 (Or.inl ⟨fixed i, List.mem_ofFn.2 ⟨i, rfl⟩, hi⟩)
  · rw [if_neg h]
    refine h2 fun p hp => ?_
    obtain ⟨i, rfl⟩ := List.mem_ofFn.1 hp
    exact ⟨fun hh => h ⟨i, Or.inl hh⟩, fun hh => h ⟨i, Or.inr hh⟩⟩

open Classical in
/-- Specification: the strain with the fixed components set to zero. -/
noncomputable def Spec.zeroed (fixed : Fin k → Fin 3 × Fin 3) (E : M3) : M3 :=
  Matrix.of fun a b => if IsFixed fixed a b then 0 else E a b

/-- C42. The strain at which the underlying material is evaluated: the strain with the fixed components of
its Green-Lagrange strain set to zero. For a right Cauchy-Green tensor the fixed components become those of
the identity; a deformation gradient is replaced by the stretch with that Green-Lagrange strain, if that
is a deformation. The displacement gradient is not supported. -/
theorem vanishingStrain_reduced (law : UnderlyingLaw) (fixed : Fin k → Fin 3 × Fin 3) (msqrt : M3 → M3)
    (E : StrainArg) :
    ((law.strainTag = .linear ∨ law.strainTag = .greenLagrangian) →
      reduceStrain law fixed msqrt E = some (Spec.zeroed fixed E.maybeFromVoigt)) ∧
    (law.strainTag = .rightCauchyGreenTensor →
      reduceStrain law fixed msqrt E = some (Spec.zeroed fixed (E.maybeFromVoigt - 1) + 1)) ∧
    (law.strainTag = .deformationGradient → PrincipalRoot msqrt →
      (Spec.zeroed fixed (E.maybeFromVoigtᵀ * E.maybeFromVoigt - 1) + 1).PosSemidef →
      ∃ F, reduceStrain law fixed msqrt E = some F ∧ F.IsSymm ∧
        Fᵀ * F = Spec.zeroed fixed (E.maybeFromVoigtᵀ * E.maybeFromVoigt - 1) + 1) ∧
    (law.strainTag = .displacementGradient → reduceStrain law fixed msqrt E = none) := by
  have hz : ∀ E : M3, setStrainsToZero fixed E = Spec.zeroed fixed E := fun E => by
    ext a b; rw [setZero_entry]; rfl
  have hs : ∀ X : M3, (2 : ℝ) • Spec.zeroed fixed ((1 / 2 : ℝ) • X) = Spec.zeroed fixed X := fun X => by
    ext a b
    simp only [Matrix.smul_apply, Spec.zeroed, Matrix.of_apply]
    split_ifs <;> simp
  refine ⟨fun h => ?_, fun h => ?_, fun h hm hp => ?_, fun h => ?_⟩
  · unfold reduceStrain
    rw [if_pos h, hz]
  · unfold reduceStrain
    rw [h]
    simp [transformStrain, createGreenLagrangianStrains, createRightCauchyGreen, hz]
    have := hs (E.maybeFromVoigt - 1)
    rw [one_div] at this
    exact this
  · refine ⟨msqrt (Spec.zeroed fixed (E.maybeFromVoigtᵀ * E.maybeFromVoigt - 1) + 1), ?_, ?_⟩
    · unfold reduceStrain
      rw [h]
      simp [transformStrain, createGreenLagrangianStrains, createDeformationGradient, hz]
      have := hs (E.maybeFromVoigtᵀ * E.maybeFromVoigt - 1)
      rw [one_div] at this
      rw [this]
    · obtain ⟨h1, h2⟩ := hm _ hp
      have hsym : (msqrt (Spec.zeroed fixed (E.maybeFromVoigtᵀ * E.maybeFromVoigt - 1) + 1)).IsSymm := by
        have := h1.isHermitian
        rwa [Matrix.IsHermitian, conjTranspose_eq_transpose_of_trivial] at this
      exact ⟨hsym, by rw [hsym]; exact h2⟩
  · unfold reduceStrain
    rw [h]
    simp [transformStrain, createGreenLagrangianStrains]

open Classical in
/-- C42. The results of a vanishing strain material in the reduced strain: the energy is that of the underlying
material; in Voigt notation the free stresses and the rows and columns of the free components of the moduli
are returned; in matrix notation the fixed stresses are set to zero. -/
theorem vanishingStrain_results (law : UnderlyingLaw) (fixed : Fin k → Fin 3 × Fin 3)
    (free : Fin (6 - k) → Fin 6) (hfree : createfreeVoigtIndices fixed = some free) (msqrt : M3 → M3)
    (E : StrainArg) (Esol : M3) (h : reduceStrain law fixed msqrt E = some Esol) (S : Fin 6 → ℝ)
    (C : Matrix (Fin 6) (Fin 6) ℝ) (hS : law.stress Esol = some S) (hC : law.moduli Esol = some C) :
    storedEnergy law fixed msqrt E = law.energy Esol ∧
    stressesVoigt law fixed msqrt E = some (fun i => S (free i)) ∧
    tangentModuliVoigt law fixed msqrt E = some (Matrix.of fun i j => C (free i) (free j)) ∧
    ∃ T, stressesMatrix law fixed msqrt E = some T ∧
      ∀ a b, T a b = if IsFixed fixed a b then 0 else S (voigt3 a b) := by
  obtain ⟨hsm, hret⟩ := (voigt_index_lists fixed).2.2 free hfree
  obtain ⟨h1, h2⟩ := reduce_remove_spec C S _ hsm free hret
  have hup : ∀ (l : List (Fin 6)) (S : Fin 6 → ℝ) x, (l.foldl (fun S i => Function.update S i 0) S) x
      = if x ∈ l then 0 else S x := by
    intro l
    induction l with
    | nil => intro S x; simp
    | cons y l ih =>
      intro S x
      rw [List.foldl_cons, ih]
      by_cases hxl : x ∈ l
      · simp [hxl]
      · by_cases hxy : x = y
        · subst hxy; simp
        · simp [hxl, hxy]
  have hmem : ∀ a b, voigt3 a b ∈ List.ofFn (createFixedVoigtIndices fixed) ↔ IsFixed fixed a b := by
    intro a b
    rw [List.mem_ofFn, createFixed_mem]
    have hv : ∀ a b c d : Fin 3, voigt3 c d = voigt3 a b ↔ (c, d) = (a, b) ∨ (c, d) = (b, a) := by decide
    exact exists_congr fun j => hv a b (fixed j).1 (fixed j).2
  refine ⟨?_, ?_, ?_, fromVoigt3 ((List.ofFn (createFixedVoigtIndices fixed)).foldl
    (fun S i => Function.update S i 0) S) false, ?_, ?_⟩
  · unfold storedEnergy; rw [h]; rfl
  · unfold stressesVoigt; rw [h]
    simp only [Option.bind_eq_bind, Option.bind_some, hS, h2]
  · unfold tangentModuliVoigt; rw [h]
    simp only [Option.bind_eq_bind, Option.bind_some, hC, h1]
  · unfold stressesMatrix; rw [h]
    simp only [Option.bind_eq_bind, Option.bind_some, hS]
    rfl
  · intro a b
    have hval : (if IsFixed fixed a b then 0 else S (voigt3 a b))
        = ((List.ofFn (createFixedVoigtIndices fixed)).foldl (fun S i => Function.update S i 0) S) (voigt3 a b) := by
      rw [hup]
      by_cases hf : IsFixed fixed a b
      · rw [if_pos hf, if_pos ((hmem a b).2 hf)]
      · rw [if_neg hf, if_neg fun hh => hf ((hmem a b).1 hh)]
    refine Eq.trans ?_ hval.symm
    generalize (List.ofFn (createFixedVoigtIndices fixed)).foldl (fun S i => Function.update S i 0) S = T
    fin_cases a <;> fin_cases b <;> simp [fromVoigt3, invStrainFactor, voigt3]

/-- C42. The returned moduli are the derivative of the returned stresses with respect to the free strains. -/
theorem vanishingStrain_moduli_derivative (law : UnderlyingLaw) (fixed : Fin k → Fin 3 × Fin 3)
    (free : Fin (6 - k) → Fin 6) (hfree : createfreeVoigtIndices fixed = some free) (msqrt : M3 → M3)
    (Eraw : ℝ → StrainArg) (Es : ℝ → M3) (hE : ∀ s, reduceStrain law fixed msqrt (Eraw s) = some (Es s))
    (hlin : law.strainTag = .linear ∨ law.strainTag = .greenLagrangian) (S : ℝ → Fin 6 → ℝ)
    (hS : ∀ s, law.stress (Es s) = some (S s)) (t : ℝ) (C : Matrix (Fin 6) (Fin 6) ℝ)
    (hC : law.moduli (Es t) = some C) (v : Fin 6 → ℝ)
    (hv : ∀ x, HasDerivAt (fun s => toVoigt3 (Es s) true x) (v x) t)
    (hder : ∀ i, HasDerivAt (fun s => S s i) (law.derivativeFactor⁻¹ * (C *ᵥ v) i) t) :
    ∃ Cr, ∃ Sr : ℝ → Fin (6 - k) → ℝ, tangentModuliVoigt law fixed msqrt (Eraw t) = some Cr ∧
      (∀ s, stressesVoigt law fixed msqrt (Eraw s) = some (Sr s)) ∧
      ∀ i, HasDerivAt (fun s => Sr s i) (law.derivativeFactor⁻¹ * (Cr *ᵥ fun j => v (free j)) i) t := by
  obtain ⟨hsm, hret⟩ := (voigt_index_lists fixed).2.2 free hfree
  have hst : ∀ s, stressesVoigt law fixed msqrt (Eraw s) = some (fun i => S s (free i)) := by
    intro s
    unfold stressesVoigt
    rw [hE s]
    simp only [Option.bind_eq_bind, Option.bind_some, hS s]
    exact (reduce_remove_spec C (S s) _ hsm free hret).2
  have hr := (vanishingStrain_results law fixed free hfree msqrt (Eraw t) (Es t) (hE t) (S t) C (hS t) hC).2.2.1
  refine ⟨_, fun s i => S s (free i), hr, hst, fun i => ?_⟩
  have hv0 : ∀ j, v (createFixedVoigtIndices fixed j) = 0 := by
    intro j
    have hz : (fun s => toVoigt3 (Es s) true (createFixedVoigtIndices fixed j)) = fun _ => 0 := by
      funext s
      have he : Es s = Spec.zeroed fixed (Eraw s).maybeFromVoigt :=
        Option.some.inj ((hE s).symm.trans ((vanishingStrain_reduced law fixed msqrt (Eraw s)).1 hlin))
      obtain ⟨i, hi⟩ := (createFixed_mem fixed (createFixedVoigtIndices fixed j)).1 ⟨j, rfl⟩
      rw [← hi, he]
      have hp : ∀ p : Fin 3 × Fin 3, ((∃ i, fixed i = p)) →
          toVoigt3 (Spec.zeroed fixed (Eraw s).maybeFromVoigt) true (voigt3 p.1 p.2) = 0 := by
        rintro ⟨a, b⟩ ⟨i, hi⟩
        have h1 : IsFixed fixed a b := ⟨i, Or.inl hi⟩
        have h2 : IsFixed fixed b a := ⟨i, Or.inr hi⟩
        have z1 : Spec.zeroed fixed (Eraw s).maybeFromVoigt a b = 0 := if_pos h1
        have z2 : Spec.zeroed fixed (Eraw s).maybeFromVoigt b a = 0 := if_pos h2
        clear hi h1 h2
        revert z1 z2
        generalize Spec.zeroed fixed (Eraw s).maybeFromVoigt = M
        fin_cases a <;> fin_cases b <;> simp +contextual [toVoigt3, voigt3]
      exact hp (fixed i) ⟨i, rfl⟩
    have h1 := hv (createFixedVoigtIndices fixed j)
    rw [hz] at h1
    exact h1.unique (hasDerivAt_const t (0 : ℝ))
  refine (hder (free i)).congr_deriv ?_
  congr 1
  have := congrFun (mulVec_split hsm hret C v (free)) i
  rw [this]
  have h0 : (fun j => v (createFixedVoigtIndices fixed j)) = 0 := funext hv0
  rw [h0, Matrix.mulVec_zero, add_zero]
  rfl

/-- Plane strain of a St. Venant-Kirchhoff material: a strain with transverse components. -/
example : ∃ E', reduceStrain (VanishingStress.svkLaw ⟨2, 3⟩) VanishingStress.planeStressPairs id
      (.voigt ![1, 2, 3, 4, 6, 8]) = some E' ∧
    (VanishingStress.svkLaw ⟨2, 3⟩).stress E' = some ![12, 18, 6, 0, 0, 24] := by
  refine ⟨_, (vanishingStrain_reduced _ _ _ _).1 (Or.inr rfl), ?_⟩
  have hz : Spec.zeroed VanishingStress.planeStressPairs
      (StrainArg.voigt ![1, 2, 3, 4, 6, 8]).maybeFromVoigt = !![1, 4, 0; 4, 2, 0; 0, 0, 0] := by
    ext a b
    simp only [Spec.zeroed, Matrix.of_apply, VanishingStress.isFixed_plane]
    fin_cases a <;> fin_cases b <;> simp [StrainArg.maybeFromVoigt, fromVoigt3, invStrainFactor] <;> norm_num
  rw [hz]
  simp only [VanishingStress.svkLaw, Option.some.injEq]
  funext i
  fin_cases i <;> simp [SVK.stressMatrixToVoigt, Matrix.trace, Fin.sum_univ_three] <;> norm_num

end VanishingStrain

end Ikarus
