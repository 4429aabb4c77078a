import Verif.FE.RelabelEASProps

/-!
C124, enhanced displacement gradients: quadrilaterals whose displacement gradient is enhanced and whose corners are listed in another order.
-/

namespace Ikarus.Element.EAS

open Matrix Element.Spec

variable {n d q m : Nat} {τ : Equiv.Perm (Fin n)} {σ : Equiv.Perm (Fin m)} {s : Fin m → ℝ}

/-! ### Lemmas -/

theorem along_scale_left (v : Fin d → Fin d → Fin q) (S : Fin q → ℝ) (c : ℝ) (x y : Matrix (Fin d) (Fin d) ℝ) :
    Spec.along v S (c • x) y = c * Spec.along v S x y := by
  simp only [Spec.along, Matrix.smul_apply, smul_eq_mul, Finset.mul_sum]
  exact Finset.sum_congr rfl fun i _ => Finset.sum_congr rfl fun j _ => Finset.sum_congr rfl fun a _ => by ring

theorem along_scale_right (v : Fin d → Fin d → Fin q) (S : Fin q → ℝ) (c : ℝ) (x y : Matrix (Fin d) (Fin d) ℝ) :
    Spec.along v S x (c • y) = c * Spec.along v S x y := by
  simp only [Spec.along, Matrix.smul_apply, smul_eq_mul, Finset.mul_sum]
  exact Finset.sum_congr rfl fun i _ => Finset.sum_congr rfl fun j _ => Finset.sum_congr rfl fun a _ => by ring

theorem signedPerm_mul {k : Nat} (B : Matrix (Fin m) (Fin k) ℝ) (p : Fin m) (a : Fin k) :
    ((Spec.signedPerm σ s)ᵀ * B) p a = s p * B (σ p) a := by
  rw [Matrix.mul_apply]
  simp [Spec.signedPerm]

theorem sumModes_relabel {H H' : Fin m → Matrix (Fin d) (Fin d) ℝ} (hH : ∀ r, H' r = s r • H (σ r)) (alpha : Fin m → ℝ) :
    sumModes H' alpha = sumModes H (Spec.signedPerm σ s *ᵥ alpha) := by
  rw [sumModes_eq, sumModes_eq]
  simp only [Matrix.mulVec, dotProduct, Finset.sum_smul]
  rw [Finset.sum_comm]
  refine Finset.sum_congr rfl fun r _ => ?_
  simp only [Spec.signedPerm, Matrix.of_apply, ite_mul, zero_mul, ite_smul, zero_smul, Finset.sum_ite_eq', Finset.mem_univ, if_true]
  rw [hH, smul_smul, mul_comm]

theorem gradient_relabel {dN dN' : Fin n → Fin d → ℝ} (h : ∀ I, dN' I = dN (τ I)) (u : NodeVec n d) :
    gradient dN' (relabel τ u) = gradient dN u := by
  ext i j
  simp only [gradient, h]
  exact Equiv.sum_comp τ fun I => u I i * dN I j

/-! ### Strains -/

/-- C124, enhanced strains. `DisplacementGradient` with the modes in another order and with other signs. -/
theorem displacementGradient_relabel {dim : Dimension d q} (hdim : Spec.IsVoigt dim) (detJ weight : ℝ) {dN dN' : Fin n → Fin d → ℝ}
    (h : ∀ I, dN' I = dN (τ I)) {H H' : Fin m → Matrix (Fin d) (Fin d) ℝ} (hH : ∀ r, H' r = s r • H (σ r)) :
    Spec.RelabelledEAS τ (Spec.signedPerm σ s) (displacementGradient dim detJ weight dN H) (displacementGradient dim detJ weight dN' H') where
  detJ := rfl
  weight := rfl
  strain u alpha := by
    show dim.greenLagrange _ = dim.greenLagrange _
    rw [gradient_relabel h, sumModes_relabel hH]
  Ed u alpha I := by
    show dim.bop _ _ = dim.bop _ _
    rw [gradient_relabel h, sumModes_relabel hH, h]
  Ea u alpha := by
    ext k r
    rw [mul_signedPerm]
    show dim.columnM _ _ k = dim.columnM _ _ k * s r
    rw [gradient_relabel h, sumModes_relabel hH, hH, hdim.columnM, hdim.columnM, along_scale_left, mul_comm]
  Edd u alpha S I J := by
    show (∑ i, ∑ j, S (dim.voigt i j) * dN' I i * dN' J j) • (1 : Matrix (Fin d) (Fin d) ℝ) = _
    rw [h, h]
    rfl
  Eaa u alpha S := by
    ext r r'
    rw [mul_signedPerm, signedPerm_mul]
    show alongStress dim S (H' r) (H' r') = s r * alongStress dim S (H (σ r)) (H (σ r')) * s r'
    rw [alongStress_eq dim hdim, alongStress_eq dim hdim, hH, hH, along_scale_left, along_scale_right]
    ring
  Ead u alpha S I := by
    ext r a
    rw [signedPerm_mul]
    show alongStress dim S (H' r) (rowMatrix a (dN' I)) = s r * alongStress dim S (H (σ r)) (rowMatrix a (dN (τ I)))
    rw [alongStress_eq dim hdim, alongStress_eq dim hdim, hH, h, along_scale_left]

/-- C124, enhanced strains. The same for `DisplacementGradientTransposed`. -/
theorem displacementGradientTransposed_relabel {dim : Dimension d q} (hdim : Spec.IsVoigt dim)
    (val : (Fin q → ℝ) → (Fin d → ℝ) → (Fin d → ℝ) → ℝ) (detJ weight : ℝ) {dN dN' dN0 dN0' : Fin n → Fin d → ℝ}
    (h : ∀ I, dN' I = dN (τ I)) (h0 : ∀ I, dN0' I = dN0 (τ I)) {H H' : Fin m → Matrix (Fin d) (Fin d) ℝ}
    (hH : ∀ r, H' r = s r • H (σ r)) :
    Spec.RelabelledEAS τ (Spec.signedPerm σ s) (displacementGradientTransposed dim val detJ weight dN dN0 H)
      (displacementGradientTransposed dim val detJ weight dN' dN0' H') := by
  have hE : ∀ alpha I, enhancedDN H' alpha (dN' I) (dN0' I) = enhancedDN H (Spec.signedPerm σ s *ᵥ alpha) (dN (τ I)) (dN0 (τ I)) :=
    fun alpha I => by rw [enhancedDN_eq, enhancedDN_eq, sumModes_relabel hH, h, h0]
  refine ⟨rfl, rfl, fun u alpha => ?_, fun u alpha I => ?_, fun u alpha => ?_, fun u alpha S I J => ?_, fun u alpha S => ?_,
    fun u alpha S I => ?_⟩
  · show dim.greenLagrange _ = dim.greenLagrange _
    rw [gradient_relabel h, gradient_relabel h0, sumModes_relabel hH]
  · show dim.bop _ _ = dim.bop _ _
    rw [gradient_relabel h, gradient_relabel h0, sumModes_relabel hH, hE]
  · ext k r
    rw [mul_signedPerm]
    show dim.columnM _ _ k = dim.columnM _ _ k * s r
    rw [gradient_relabel h, gradient_relabel h0, sumModes_relabel hH, hH, hdim.columnM, hdim.columnM, Matrix.transpose_smul, Matrix.mul_smul,
      along_scale_left, mul_comm]
  · show val S _ _ • (1 : Matrix (Fin d) (Fin d) ℝ) = val S _ _ • 1
    rw [hE, hE]
  · ext r r'
    rw [mul_signedPerm, signedPerm_mul]
    show alongStress dim S ((1 + gradient dN0' (relabel τ u)) * (H' r)ᵀ) ((1 + gradient dN0' (relabel τ u)) * (H' r')ᵀ) =
      s r * alongStress dim S ((1 + gradient dN0 u) * (H (σ r))ᵀ) ((1 + gradient dN0 u) * (H (σ r'))ᵀ) * s r'
    rw [alongStress_eq dim hdim, alongStress_eq dim hdim, gradient_relabel h0, hH, hH, Matrix.transpose_smul, Matrix.transpose_smul,
      Matrix.mul_smul, Matrix.mul_smul, along_scale_left, along_scale_right]
    ring
  · ext r a
    rw [signedPerm_mul]
    show alongStressTransposed dim S ((1 + gradient dN0' (relabel τ u)) * (H' r)ᵀ)
        (rowMatrix a (enhancedDN H' alpha (dN' I) (dN0' I))) (rowMatrix a (dN0' I) * (H' r)ᵀ)
        (1 + (gradient dN' (relabel τ u) + (1 + gradient dN0' (relabel τ u)) * (sumModes H' alpha)ᵀ)) =
      s r * alongStressTransposed dim S ((1 + gradient dN0 u) * (H (σ r))ᵀ)
        (rowMatrix a (enhancedDN H (Spec.signedPerm σ s *ᵥ alpha) (dN (τ I)) (dN0 (τ I)))) (rowMatrix a (dN0 (τ I)) * (H (σ r))ᵀ)
        (1 + (gradient dN u + (1 + gradient dN0 u) * (sumModes H (Spec.signedPerm σ s *ᵥ alpha))ᵀ))
    rw [alongStressTransposed_eq dim hdim, alongStressTransposed_eq dim hdim, gradient_relabel h, gradient_relabel h0,
      sumModes_relabel hH, hE, hH, h0, Matrix.transpose_smul, Matrix.mul_smul, Matrix.mul_smul, along_scale_left, along_scale_left, mul_add]

/-! ### Quadrilaterals -/

theorem ansatzH_relabel {τ : Equiv.Perm (Fin 4)} {φ : (Fin 2 → ℝ) → Fin 2 → ℝ} {P : Matrix (Fin 2) (Fin 2) ℝ}
    (h : SquareSymmetry τ φ P) (hφ : φ center = center) {modes : (Fin 2 → ℝ) → Fin m → Matrix (Fin 2) (Fin 2) ℝ}
    (hm : ∀ p r, modes (φ p) r = s r • (P * modes p (σ r) * Pᵀ)) (X : NodeVec 4 2) (p : Fin 2 → ℝ) (r : Fin m) :
    ansatzH modes (quadGeometry (relabel τ X)) (φ p) r = s r • ansatzH modes (quadGeometry X) p (σ r) := by
  have hP : IsUnit P.det := isUnit_iff_ne_zero.2 fun h0 => by
    have := h.det
    rw [h0, abs_zero] at this
    exact zero_ne_one this
  have hI : ∀ p, (quadGeometry (relabel τ X)).integrationElement (φ p) = (quadGeometry X).integrationElement p := fun p => by
    unfold Geometry.integrationElement
    rw [quad_jacobian h, Matrix.det_mul, abs_mul, h.det, one_mul]
  have h1 := hI center
  have h2 := quad_jacobian h X center
  rw [hφ] at h1 h2
  have hu : P⁻¹ * P = 1 := Matrix.nonsing_inv_mul _ hP
  have hu' : Pᵀ * (P⁻¹)ᵀ = 1 := by rw [← Matrix.transpose_mul, hu, Matrix.transpose_one]
  unfold ansatzH transformDisplacementGradient
  dsimp only
  rw [h1, h2, hI, hm, Matrix.mul_inv_rev, Matrix.transpose_mul]
  simp only [Matrix.smul_mul, Matrix.mul_smul, smul_smul, Matrix.mul_assoc]
  rw [← Matrix.mul_assoc Pᵀ, hu', Matrix.one_mul, ← Matrix.mul_assoc P⁻¹, hu, Matrix.one_mul, mul_comm (s r)]

/-- A symmetry of the square that the modes `H4` and the rule have. -/
def Spec.GradientSymmetry (rule : List ((Fin 2 → ℝ) × ℝ)) (τ : Equiv.Perm (Fin 4)) (σ : Equiv.Perm (Fin 4)) (s : Fin 4 → ℝ) : Prop :=
  (∀ i, s i * s i = 1) ∧ ∃ φ P, SquareSymmetry τ φ P ∧ φ center = center ∧ (∀ p r, h4 (φ p) r = s r • (P * h4 p (σ r) * Pᵀ)) ∧
    (rule.map fun g => (φ g.1, g.2)).Perm rule

/-- C124, enhanced strains. The corners of a quadrilateral with an enhanced displacement gradient, transposed or not, may be listed in any order that
goes with a symmetry of the modes and of the rule. -/
theorem gradientQuad_relabel {rule : List ((Fin 2 → ℝ) × ℝ)} {τ σ : Equiv.Perm (Fin 4)} {s : Fin 4 → ℝ}
    (h : Spec.GradientSymmetry rule τ σ s) (X : NodeVec 4 2) :
    IsUnit (Spec.signedPerm σ s).det ∧
      SamePoints (Spec.RelabelledEAS τ (Spec.signedPerm σ s)) (rule.map (gradientQuad X)) (rule.map (gradientQuad (relabel τ X))) ∧
      SamePoints (Spec.RelabelledEAS τ (Spec.signedPerm σ s)) (rule.map (transposedQuad X)) (rule.map (transposedQuad (relabel τ X))) := by
  obtain ⟨hs, φ, P, h1, h2, h3, hr⟩ := h
  refine ⟨signedPerm_unit σ hs, rule_points (fun g => ?_) hr, rule_points (fun g => ?_) hr⟩
  · have hq := quad_relabel h1 X g
    unfold gradientQuad
    rw [hq.detJ]
    exact displacementGradient_relabel plane_isVoigt _ _ hq.dN fun r => ansatzH_relabel h1 h2 h3 X g.1 r
  · have hq := quad_relabel h1 X g
    have h0 := quad_relabel h1 X (center, g.2)
    rw [h2] at h0
    unfold transposedQuad
    rw [hq.detJ]
    exact displacementGradientTransposed_relabel plane_isVoigt val2 _ _ hq.dN h0.dN fun r => ansatzH_relabel h1 h2 h3 X g.1 r

/-- C124, enhanced strains. The modes `H4` have all eight symmetries of the square with rules that are made of a symmetric rule on the interval: they
have the two reflections, and with two symmetries they have their product. -/
theorem gradient_symmetries (r : List (ℝ × ℝ)) (hr : (r.map fun x => (1 - x.1, x.2)).Perm r) :
    Spec.GradientSymmetry (tensorRule r) (Equiv.swap 1 2) (Equiv.swap 0 3 * Equiv.swap 1 2) (fun _ => 1) ∧
    Spec.GradientSymmetry (tensorRule r) (Equiv.swap 0 1 * Equiv.swap 2 3) 1 ![-1, -1, 1, 1] ∧
    ∀ {rule : List ((Fin 2 → ℝ) × ℝ)} {τ τ' σ σ' : Equiv.Perm (Fin 4)} {s s' : Fin 4 → ℝ}, Spec.GradientSymmetry rule τ σ s →
      Spec.GradientSymmetry rule τ' σ' s' → Spec.GradientSymmetry rule (τ * τ') (σ * σ') (fun i => s' i * s (σ' i)) := by
  refine ⟨⟨fun _ => mul_one _, _, _, square_symmetries.1, ?_, fun p r => ?_, (tensor_symmetric r).1⟩,
    ⟨fun i => ?_, _, _, square_symmetries.2.1, ?_, fun p r => ?_, (tensor_symmetric r).2 hr⟩, fun {rule τ τ' σ σ' s s'} h h' => ?_⟩
  · funext i; fin_cases i <;> rfl
  · ext i j
    rw [Matrix.smul_apply, smul_eq_mul]
    simp only [Matrix.mul_apply, Fin.sum_univ_two, Matrix.transpose_apply]
    fin_cases r <;> fin_cases i <;> fin_cases j <;> simp [h4, Equiv.swap_apply_def]
  · fin_cases i <;> simp
  · funext i; fin_cases i <;> simp [center]; norm_num
  · ext i j
    rw [Matrix.smul_apply, smul_eq_mul]
    simp only [Matrix.mul_apply, Fin.sum_univ_two, Matrix.transpose_apply]
    fin_cases r <;> fin_cases i <;> fin_cases j <;> simp [h4, one_point] <;> ring
  · obtain ⟨hs, φ, P, h1, h2, h3, h5⟩ := h
    obtain ⟨hs', φ', P', h1', h2', h3', h5'⟩ := h'
    refine ⟨fun i => ?_, φ' ∘ φ, P' * P, square_symmetries.2.2 h1 h1', by rw [Function.comp_apply, h2, h2'], fun p r => ?_, ?_⟩
    · rw [mul_mul_mul_comm, hs', hs, mul_one]
    · show h4 (φ' (φ p)) r = (s' r * s (σ' r)) • (P' * P * h4 p (σ (σ' r)) * (P' * P)ᵀ)
      rw [h3', h3, Matrix.transpose_mul]
      simp only [Matrix.smul_mul, Matrix.mul_smul, smul_smul, Matrix.mul_assoc]
    · have := h5.map fun g => (φ' g.1, g.2)
      rw [List.map_map] at this
      exact this.trans h5'

/-! ### Examples -/

/-- A quadrilateral of any shape whose corners are listed from another corner. -/
example (X : NodeVec 4 2) (a : ℝ) := gradientQuad_relabel (X := X)
  ((gradient_symmetries [(a, 1 / 2), (1 - a, 1 / 2)] (by
      simp only [List.map_cons, List.map_nil, sub_sub_cancel]
      exact List.Perm.swap _ _ _)).2.2
    (gradient_symmetries [(a, 1 / 2), (1 - a, 1 / 2)] (by
      simp only [List.map_cons, List.map_nil, sub_sub_cancel]
      exact List.Perm.swap _ _ _)).1
    (gradient_symmetries [(a, 1 / 2), (1 - a, 1 / 2)] (by
      simp only [List.map_cons, List.map_nil, sub_sub_cancel]
      exact List.Perm.swap _ _ _)).2.1)

end Ikarus.Element.EAS
