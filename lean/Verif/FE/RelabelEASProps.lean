import Verif.FE.RelabelProps
import Verif.FE.TurnQuadProps

/-!
C124, enhanced strains: quadrilaterals with enhanced strains whose corners are listed in another order.
-/

namespace Ikarus.Element.EAS

open Matrix Element.Spec

variable {n d q m : Nat} {τ : Equiv.Perm (Fin n)} {T : Matrix (Fin m) (Fin m) ℝ}

/-! ### Specification -/

/-- An integration point at the same place, with the nodes in the new order; the internal variables `alpha` of the new element stand for the
internal variables `T alpha` of the old one. -/
structure Spec.RelabelledEAS (τ : Equiv.Perm (Fin n)) (T : Matrix (Fin m) (Fin m) ℝ) (p p' : EASPoint n d q m) : Prop where
  detJ : p'.detJ = p.detJ
  weight : p'.weight = p.weight
  strain : ∀ u alpha, p'.strain (relabel τ u) alpha = p.strain u (T *ᵥ alpha)
  Ed : ∀ u alpha I, p'.Ed (relabel τ u) alpha I = p.Ed u (T *ᵥ alpha) (τ I)
  Ea : ∀ u alpha, p'.Ea (relabel τ u) alpha = p.Ea u (T *ᵥ alpha) * T
  Edd : ∀ u alpha S I J, p'.Edd (relabel τ u) alpha S I J = p.Edd u (T *ᵥ alpha) S (τ I) (τ J)
  Eaa : ∀ u alpha S, p'.Eaa (relabel τ u) alpha S = Tᵀ * p.Eaa u (T *ᵥ alpha) S * T
  Ead : ∀ u alpha S I, p'.Ead (relabel τ u) alpha S I = Tᵀ * p.Ead u (T *ᵥ alpha) S (τ I)

/-! ### Sums -/

section Point

variable {law : Law q} {p p' : EASPoint n d q m} (h : Spec.RelabelledEAS τ T p p') (u : NodeVec n d) (alpha : Fin m → ℝ)

include h

theorem pointForce_relabel : pointForce law (relabel τ u) alpha p' = relabel τ (pointForce law u (T *ᵥ alpha) p) := by
  funext I
  simp only [pointForce, relabel, h.detJ, h.weight, h.strain, h.Ed]

theorem pointMatrix_relabel : pointMatrix law (relabel τ u) alpha p' = relabelMat τ (pointMatrix law u (T *ᵥ alpha) p) := by
  funext I J
  simp only [pointMatrix, relabelMat, h.detJ, h.weight, h.strain, h.Ed, h.Edd]

theorem pointR_relabel : pointR law (relabel τ u) alpha p' = Tᵀ *ᵥ pointR law u (T *ᵥ alpha) p := by
  simp only [pointR, h.detJ, h.weight, h.strain, h.Ea, Matrix.transpose_mul, Matrix.mulVec_smul, Matrix.mulVec_mulVec]

theorem pointD_relabel : pointD law (relabel τ u) alpha p' = Tᵀ * pointD law u (T *ᵥ alpha) p * T := by
  simp only [pointD, h.detJ, h.weight, h.strain, h.Ea, h.Eaa, Matrix.transpose_mul, Matrix.mul_smul, Matrix.smul_mul, Matrix.mul_add,
    Matrix.add_mul, Matrix.mul_assoc]

theorem pointL_relabel : pointL law (relabel τ u) alpha p' = fun I => Tᵀ * pointL law u (T *ᵥ alpha) p (τ I) := by
  funext I
  simp only [pointL, h.detJ, h.weight, h.strain, h.Ea, h.Ed, h.Ead, Matrix.transpose_mul, Matrix.mul_smul, Matrix.mul_add, Matrix.mul_assoc]

end Point

section Sums

variable {law : Law q} {gps gps' : List (EASPoint n d q m)} (h : SamePoints (Spec.RelabelledEAS τ T) gps gps') (u : NodeVec n d)
  (alpha : Fin m → ℝ)

include h

theorem forces_relabel : forces law gps' (relabel τ u) alpha = relabel τ (forces law gps u (T *ᵥ alpha)) :=
  samePoints_sum h _ _ (relabel τ) relabel_zero relabel_add fun _ _ hp => pointForce_relabel hp u alpha

theorem stiffness_relabel : stiffness law gps' (relabel τ u) alpha = relabelMat τ (stiffness law gps u (T *ᵥ alpha)) :=
  samePoints_sum h _ _ (relabelMat τ) relabelMat_zero relabelMat_add fun _ _ hp => pointMatrix_relabel hp u alpha

theorem calculateD_relabel : calculateD law gps' (relabel τ u) alpha = Tᵀ * calculateD law gps u (T *ᵥ alpha) * T := by
  rw [calculateD_sum, calculateD_sum]
  exact samePoints_sum h _ _ (fun D => Tᵀ * D * T) (by rw [Matrix.mul_zero, Matrix.zero_mul])
    (fun a b => by rw [Matrix.mul_add, Matrix.add_mul]) fun _ _ hp => pointD_relabel hp u alpha

theorem calculateRtilde_relabel : calculateRtilde law gps' (relabel τ u) alpha = Tᵀ *ᵥ calculateRtilde law gps u (T *ᵥ alpha) := by
  rw [calculateRtilde_sum, calculateRtilde_sum]
  exact samePoints_sum h _ _ (fun R => Tᵀ *ᵥ R) (Matrix.mulVec_zero _) (fun a b => Matrix.mulVec_add _ _ _)
    fun _ _ hp => pointR_relabel hp u alpha

theorem calculateL_relabel : calculateL law gps' (relabel τ u) alpha = fun I => Tᵀ * calculateL law gps u (T *ᵥ alpha) (τ I) := by
  rw [calculateL_sum, calculateL_sum]
  exact samePoints_sum h _ _ (fun (L : Fin n → Matrix (Fin m) (Fin d) ℝ) I => Tᵀ * L (τ I)) (by funext I; exact Matrix.mul_zero _)
    (fun a b => by funext I; exact Matrix.mul_add _ _ _) fun _ _ hp => pointL_relabel hp u alpha

end Sums

theorem condense_relabel (hT : IsUnit T.det) (D : Matrix (Fin m) (Fin m) ℝ) : T * (Tᵀ * D * T)⁻¹ * Tᵀ = D⁻¹ := by
  have hT' : IsUnit Tᵀ.det := by rwa [Matrix.det_transpose]
  rw [Matrix.mul_inv_rev, Matrix.mul_inv_rev, ← Matrix.mul_assoc, Matrix.mul_nonsing_inv _ hT, Matrix.one_mul, Matrix.mul_assoc,
    Matrix.nonsing_inv_mul _ hT', Matrix.mul_one]

theorem relabelMat_symmetric {K : BlockMat n d} (h : Element.Spec.Symmetric K) : Element.Spec.Symmetric (relabelMat τ K) :=
  fun I J a b => h (τ I) (τ J) a b

/-! ### The element -/

/-- C124, enhanced strains. An element with enhanced strains whose nodes are listed in another order adds the same forces and the same matrix, in
the new order, and a correction changes the internal variables in the same way, if its internal variables stand for those of the element. -/
theorem eas_relabel (hT : IsUnit T.det) {law : Law q} {dom : Set (Fin q → ℝ)} {gps gps' : List (EASPoint n d q m)} {u : NodeVec n d}
    {alpha : Fin m → ℝ} (hreg : Spec.Regular law dom gps u (T *ᵥ alpha)) (h : SamePoints (Spec.RelabelledEAS τ T) gps gps') :
    (∀ aff f, calculateVector law gps' aff (relabel τ u) alpha (relabel τ f) =
      (calculateVector law gps aff u (T *ᵥ alpha) f).map (relabel τ)) ∧
    (∀ aff K, Element.Spec.Symmetric K → calculateMatrix law gps' aff (relabel τ u) alpha (relabelMat τ K) =
      (calculateMatrix law gps aff u (T *ᵥ alpha) K).map (relabelMat τ)) ∧
    (∀ N M dx, (updateState law gps' (relabel τ u) alpha N M (relabel τ dx)).map (T *ᵥ ·) =
      updateState law gps u (T *ᵥ alpha) N M dx) := by
  have eD := calculateD_relabel h (law := law) u alpha
  have eR := calculateRtilde_relabel h (law := law) u alpha
  have eL := calculateL_relabel h (law := law) u alpha
  have hc := condense_relabel hT (calculateD law gps u (T *ᵥ alpha))
  refine ⟨fun aff f => ?_, fun aff K hK => ?_, fun N M dx => ?_⟩
  · unfold calculateVector
    by_cases h1 : aff ≠ .forces
    · rw [if_pos h1, if_pos h1]; rfl
    by_cases h2 : (!applicable n d m) = true
    · rw [if_neg h1, if_neg h1, if_pos h2, if_pos h2]; rfl
    rw [if_neg h1, if_neg h1, if_neg h2, if_neg h2]
    simp only [forces_loop, eD, eR, eL]
    by_cases hm : m = 0
    · rw [if_pos hm, if_pos hm, forces_relabel h]; rfl
    rw [if_neg hm, if_neg hm, forces_relabel h, Option.map_some]
    congr 1
    funext I
    show f (τ I) + forces law gps u (T *ᵥ alpha) (τ I) - ((Tᵀ * calculateL law gps u (T *ᵥ alpha) (τ I))ᵀ *
        (Tᵀ * calculateD law gps u (T *ᵥ alpha) * T)⁻¹) *ᵥ (Tᵀ *ᵥ calculateRtilde law gps u (T *ᵥ alpha)) =
      f (τ I) + forces law gps u (T *ᵥ alpha) (τ I) - ((calculateL law gps u (T *ᵥ alpha) (τ I))ᵀ *
        (calculateD law gps u (T *ᵥ alpha))⁻¹) *ᵥ calculateRtilde law gps u (T *ᵥ alpha)
    rw [Matrix.mulVec_mulVec, Matrix.transpose_mul, Matrix.transpose_transpose, Matrix.mul_assoc, Matrix.mul_assoc, ← Matrix.mul_assoc T, hc]
  · unfold calculateMatrix
    by_cases h1 : aff ≠ .stiffness
    · rw [if_pos h1, if_pos h1]; rfl
    by_cases h2 : (!applicable n d m) = true
    · rw [if_neg h1, if_neg h1, if_pos h2, if_pos h2]; rfl
    rw [if_neg h1, if_neg h1, if_neg h2, if_neg h2]
    simp only [stiffness_loop, eD, eL]
    by_cases hm : m = 0
    · rw [if_pos hm, if_pos hm, stiffness_relabel h]; rfl
    have hKs := symmetric_add' hK (symmetric_stiffness law dom gps u (T *ᵥ alpha) hreg)
    have hM : Element.Spec.Symmetric fun I J => (calculateL law gps u (T *ᵥ alpha) I)ᵀ * (calculateD law gps u (T *ᵥ alpha))⁻¹ *
        calculateL law gps u (T *ᵥ alpha) J := by
      intro I J a b
      show ((calculateL law gps u (T *ᵥ alpha) I)ᵀ * (calculateD law gps u (T *ᵥ alpha))⁻¹ * calculateL law gps u (T *ᵥ alpha) J) a b =
        ((calculateL law gps u (T *ᵥ alpha) J)ᵀ * (calculateD law gps u (T *ᵥ alpha))⁻¹ * calculateL law gps u (T *ᵥ alpha) I) b a
      rw [← Matrix.transpose_apply ((calculateL law gps u (T *ᵥ alpha) J)ᵀ * (calculateD law gps u (T *ᵥ alpha))⁻¹ *
        calculateL law gps u (T *ᵥ alpha) I), Matrix.transpose_mul, Matrix.transpose_mul, Matrix.transpose_nonsing_inv,
        symmetric_D law dom gps u (T *ᵥ alpha) hreg, Matrix.transpose_transpose, Matrix.mul_assoc]
    have e : (fun I J => (Tᵀ * calculateL law gps u (T *ᵥ alpha) (τ I))ᵀ * (Tᵀ * calculateD law gps u (T *ᵥ alpha) * T)⁻¹ *
        (Tᵀ * calculateL law gps u (T *ᵥ alpha) (τ J))) = relabelMat τ fun I J =>
        (calculateL law gps u (T *ᵥ alpha) I)ᵀ * (calculateD law gps u (T *ᵥ alpha))⁻¹ * calculateL law gps u (T *ᵥ alpha) J := by
      funext I J
      show _ = (calculateL law gps u (T *ᵥ alpha) (τ I))ᵀ * (calculateD law gps u (T *ᵥ alpha))⁻¹ * calculateL law gps u (T *ᵥ alpha) (τ J)
      rw [← hc]
      simp only [Matrix.transpose_mul, Matrix.transpose_transpose, Matrix.mul_assoc]
    rw [if_neg hm, if_neg hm, stiffness_relabel h, ← relabelMat_add, e, subtractUpperAndMirror_eq _ _ hKs hM,
      subtractUpperAndMirror_eq _ _ (relabelMat_symmetric hKs) (relabelMat_symmetric hM)]
    rfl
  · unfold updateState
    rw [eD, eR, eL]
    split_ifs with h1 h2 h3
    · rfl
    · rfl
    · rfl
    · have hL : mulL (fun I => Tᵀ * calculateL law gps u (T *ᵥ alpha) (τ I)) (relabel τ dx) =
          Tᵀ *ᵥ mulL (calculateL law gps u (T *ᵥ alpha)) dx := by
        unfold mulL
        rw [Matrix.mulVec_sum]
        simp only [Matrix.mulVec_mulVec]
        exact Equiv.sum_comp τ fun I => (Tᵀ * calculateL law gps u (T *ᵥ alpha) I) *ᵥ dx I
      simp only [Option.map_some, hL, ← Matrix.mulVec_add, Matrix.mulVec_sub, Matrix.mulVec_mulVec]
      rw [← Matrix.mul_assoc, hc]

/-! ### Strains -/

/-- C124, enhanced strains. Linear and Green-Lagrange strains enhanced by modes. -/
theorem additive_relabel {p p' : Point n d q} (hp : RelabelledPoint τ p p') {M M' : Matrix (Fin q) (Fin m) ℝ} (hM : M' = M * T) :
    Spec.RelabelledEAS τ T (additive p M) (additive p' M') where
  detJ := hp.detJ
  weight := hp.weight
  strain u alpha := by
    show p'.strain (relabel τ u) + M' *ᵥ alpha = p.strain u + M *ᵥ (T *ᵥ alpha)
    rw [hp.strain, hM, Matrix.mulVec_mulVec]
  Ed u _ I := hp.bop u I
  Ea _ _ := hM
  Edd u _ S I J := hp.kg u S I J
  Eaa _ _ _ := by
    show (0 : Matrix (Fin m) (Fin m) ℝ) = Tᵀ * 0 * T
    rw [Matrix.mul_zero, Matrix.zero_mul]
  Ead _ _ _ _ := (Matrix.mul_zero _).symm

/-- The modes of a variant at the mapped point are combinations of the modes at the point, in the coordinates mapped by `P`. -/
def Spec.ModesMapped (φ : (Fin 2 → ℝ) → Fin 2 → ℝ) (P : Matrix (Fin 2) (Fin 2) ℝ) (entries : List (Fin 3 × Fin m × ((Fin 2 → ℝ) → ℝ)))
    (T : Matrix (Fin m) (Fin m) ℝ) : Prop := ∀ p, assign entries (φ p) = transformationMatrix2 P * assign entries p * T

theorem quad_jacobian {τ : Equiv.Perm (Fin 4)} {φ : (Fin 2 → ℝ) → Fin 2 → ℝ} {P : Matrix (Fin 2) (Fin 2) ℝ}
    (h : SquareSymmetry τ φ P) (X : NodeVec 4 2) (p : Fin 2 → ℝ) :
    (quadGeometry (relabel τ X)).jacobianTransposed (φ p) = P * (quadGeometry X).jacobianTransposed p := by
  ext a i
  rw [Matrix.mul_apply]
  show ∑ I, bilinear (φ p) I a * X (τ I) i = ∑ b, P a b * ∑ I, bilinear p I b * X I i
  simp only [h.shape, Matrix.mulVec, dotProduct]
  rw [Equiv.sum_comp τ fun I => (∑ b, P a b * bilinear p I b) * X I i]
  simp only [Finset.sum_mul, Finset.mul_sum]
  rw [Finset.sum_comm]
  exact Finset.sum_congr rfl fun b _ => Finset.sum_congr rfl fun I _ => mul_assoc _ _ _

theorem ansatz2_relabel {τ : Equiv.Perm (Fin 4)} {φ : (Fin 2 → ℝ) → Fin 2 → ℝ} {P : Matrix (Fin 2) (Fin 2) ℝ}
    (h : SquareSymmetry τ φ P) (hφ : φ center = center) {entries : List (Fin 3 × Fin m × ((Fin 2 → ℝ) → ℝ))}
    (hm : Spec.ModesMapped φ P entries T) (X : NodeVec 4 2) (p : Fin 2 → ℝ) :
    ansatz2 entries (quadGeometry (relabel τ X)) (φ p) = ansatz2 entries (quadGeometry X) p * T := by
  obtain ⟨m2, -, o2, -⟩ := transformation_mul (K := ℝ) two_ne_zero
  have hP : IsUnit P.det := isUnit_iff_ne_zero.2 fun h0 => by
    have := h.det
    rw [h0, abs_zero] at this
    exact zero_ne_one this
  have hI : ∀ p, (quadGeometry (relabel τ X)).integrationElement (φ p) = (quadGeometry X).integrationElement p := fun p => by
    unfold Geometry.integrationElement
    rw [quad_jacobian h, Matrix.det_mul, abs_mul, h.det, one_mul]
  have hinv : (transformationMatrix2 P)⁻¹ * transformationMatrix2 P = 1 := by
    rw [Matrix.inv_eq_left_inv (B := transformationMatrix2 P⁻¹) (by rw [← m2, Matrix.nonsing_inv_mul _ hP, o2]), ← m2,
      Matrix.nonsing_inv_mul _ hP, o2]
  have e : T0Inverse2 (quadGeometry (relabel τ X)) = T0Inverse2 (quadGeometry X) * (transformationMatrix2 P)⁻¹ := by
    unfold T0Inverse2
    have h1 := hI center
    have h2 := quad_jacobian h X center
    rw [hφ] at h1 h2
    rw [h1, h2, m2, ← Matrix.mul_smul, Matrix.mul_inv_rev]
  unfold ansatz2
  rw [e, hI, hm]
  simp only [Matrix.smul_mul, Matrix.mul_assoc]
  rw [← Matrix.mul_assoc (transformationMatrix2 P)⁻¹, hinv, Matrix.one_mul]

/-- C124, enhanced strains. Green-Lagrange strains of a quadrilateral, enhanced by the modes of a variant that has the symmetry. -/
theorem greenQuad_relabel {τ : Equiv.Perm (Fin 4)} {φ : (Fin 2 → ℝ) → Fin 2 → ℝ} {P : Matrix (Fin 2) (Fin 2) ℝ}
    (h : SquareSymmetry τ φ P) (hφ : φ center = center) {entries : List (Fin 3 × Fin m × ((Fin 2 → ℝ) → ℝ))}
    (hm : Spec.ModesMapped φ P entries T) (X : NodeVec 4 2) (g : (Fin 2 → ℝ) × ℝ) :
    Spec.RelabelledEAS τ T (greenQuad entries X g) (greenQuad entries (relabel τ X) (φ g.1, g.2)) :=
  additive_relabel (green_relabel plane (quad_relabel h X g)) (ansatz2_relabel h hφ hm X g.1)

/-- C124, enhanced strains. The same for linear strains. -/
theorem linearQuad_relabel {τ : Equiv.Perm (Fin 4)} {φ : (Fin 2 → ℝ) → Fin 2 → ℝ} {P : Matrix (Fin 2) (Fin 2) ℝ}
    (h : SquareSymmetry τ φ P) (hφ : φ center = center) {entries : List (Fin 3 × Fin m × ((Fin 2 → ℝ) → ℝ))}
    (hm : Spec.ModesMapped φ P entries T) (X : NodeVec 4 2) (g : (Fin 2 → ℝ) × ℝ) :
    Spec.RelabelledEAS τ T (linearQuad entries X g) (linearQuad entries (relabel τ X) (φ g.1, g.2)) := by
  have hp := quad_relabel h X g
  refine additive_relabel ⟨hp.detJ, hp.weight, fun u => ?_, fun u I => ?_, fun _ _ _ _ => rfl⟩ (ansatz2_relabel h hφ hm X g.1)
  · show ∑ I, plane.bop 1 ((quadPoint (relabel τ X) (φ g.1, g.2)).dN I) *ᵥ u (τ I) = ∑ I, plane.bop 1 ((quadPoint X g).dN I) *ᵥ u I
    simp only [hp.dN]
    exact Equiv.sum_comp τ fun I => plane.bop 1 ((quadPoint X g).dN I) *ᵥ u I
  · show plane.bop 1 _ = plane.bop 1 _
    rw [hp.dN]

/-! ### Symmetries of the modes -/

/-- The matrix that permutes the internal variables and changes some of their signs. -/
def Spec.signedPerm (σ : Equiv.Perm (Fin m)) (s : Fin m → ℝ) : Matrix (Fin m) (Fin m) ℝ := Matrix.of fun i j => if i = σ j then s j else 0

theorem mul_signedPerm {k : Nat} (A : Matrix (Fin k) (Fin m) ℝ) (σ : Equiv.Perm (Fin m)) (s : Fin m → ℝ) (i : Fin k) (j : Fin m) :
    (A * Spec.signedPerm σ s) i j = A i (σ j) * s j := by
  rw [Matrix.mul_apply]
  simp [Spec.signedPerm]

theorem signedPerm_unit (σ : Equiv.Perm (Fin m)) {s : Fin m → ℝ} (hs : ∀ i, s i * s i = 1) : IsUnit (Spec.signedPerm σ s).det := by
  refine Matrix.isUnit_det_of_left_inverse (B := (Spec.signedPerm σ s)ᵀ) ?_
  ext i j
  rw [mul_signedPerm, Matrix.transpose_apply, Matrix.one_apply]
  unfold Spec.signedPerm
  rw [Matrix.of_apply]
  by_cases h : i = j
  · subst h
    rw [if_pos rfl, if_pos rfl, hs]
  · rw [if_neg h, if_neg fun e => h (σ.injective e.symm), zero_mul]

theorem modes_of {φ : (Fin 2 → ℝ) → Fin 2 → ℝ} {P : Matrix (Fin 2) (Fin 2) ℝ} {entries : List (Fin 3 × Fin m × ((Fin 2 → ℝ) → ℝ))}
    {σ : Equiv.Perm (Fin m)} {s : Fin m → ℝ}
    (h : ∀ p i j, assign entries (φ p) i j = (transformationMatrix2 P * assign entries p) i (σ j) * s j) :
    Spec.ModesMapped φ P entries (Spec.signedPerm σ s) := fun p => by
  ext i j
  rw [mul_signedPerm]
  exact h p i j

theorem transformation_swap : transformationMatrix2 (!![0, 1; 1, 0] : Matrix (Fin 2) (Fin 2) ℝ) = !![0, 1, 0; 1, 0, 0; 0, 0, 1] := by
  ext i j
  fin_cases i <;> fin_cases j <;> simp [transformationMatrix2]

theorem transformation_reflect : transformationMatrix2 (!![-1, 0; 0, 1] : Matrix (Fin 2) (Fin 2) ℝ) = !![1, 0, 0; 0, 1, 0; 0, 0, -1] := by
  ext i j
  fin_cases i <;> fin_cases j <;> simp [transformationMatrix2]

theorem e4_matrix (p : Fin 2 → ℝ) : assign e4 p =
    !![2 * p 0 - 1.0, 0, 0, 0; 0, 2 * p 1 - 1.0, 0, 0; 0, 0, 2 * p 0 - 1.0, 2 * p 1 - 1.0] := by
  ext i j
  fin_cases i <;> fin_cases j <;> rfl

theorem e5_matrix (p : Fin 2 → ℝ) : assign e5 p =
    !![2 * p 0 - 1.0, 0, 0, 0, 0; 0, 2 * p 1 - 1.0, 0, 0, 0; 0, 0, 2 * p 0 - 1.0, 2 * p 1 - 1.0, (2 * p 0 - 1.0) * (2 * p 1 - 1.0)] := by
  ext i j
  fin_cases i <;> fin_cases j <;> rfl

theorem e7_matrix (p : Fin 2 → ℝ) : assign e7 p =
    !![2 * p 0 - 1.0, 0, 0, 0, (2 * p 0 - 1.0) * (2 * p 1 - 1.0), 0, 0; 0, 2 * p 1 - 1.0, 0, 0, 0, (2 * p 0 - 1.0) * (2 * p 1 - 1.0), 0;
      0, 0, 2 * p 0 - 1.0, 2 * p 1 - 1.0, 0, 0, (2 * p 0 - 1.0) * (2 * p 1 - 1.0)] := by
  ext i j
  fin_cases i <;> fin_cases j <;> rfl

theorem e11_matrix (p : Fin 2 → ℝ) : assign e11 p =
    !![1 - 3 * (t (p 0) * t (p 0)), t (p 1) - 3 * (t (p 0) * t (p 0)) * t (p 1),
        t (p 1) * t (p 1) - 3 * (t (p 0) * t (p 0)) * (t (p 1) * t (p 1)), 0, 0, 0, 0, 0, 0, 0, 0;
      0, 0, 0, 1 - 3 * (t (p 1) * t (p 1)), t (p 0) - 3 * t (p 0) * (t (p 1) * t (p 1)),
        t (p 0) * t (p 0) - 3 * (t (p 0) * t (p 0)) * (t (p 1) * t (p 1)), 0, 0, 0, 0, 0;
      0, 0, 0, 0, 0, 0, 1 - 3 * (t (p 0) * t (p 0)), 1 - 3 * (t (p 1) * t (p 1)), t (p 1) - 3 * (t (p 0) * t (p 0)) * t (p 1),
        t (p 0) - 3 * t (p 0) * (t (p 1) * t (p 1)),
        1 - 3 * (t (p 0) * t (p 0) + t (p 1) * t (p 1)) + 9 * (t (p 0) * t (p 0)) * (t (p 1) * t (p 1))] := by
  ext i j
  fin_cases i <;> fin_cases j <;> rfl

theorem one_point : (1.0 : ℝ) = 1 := by norm_num

set_option maxHeartbeats 1600000 in
/-- C124, enhanced strains. The modes of all variants of the plane have the symmetries of the square: mapped by the reflection that
exchanges the axes, or by the one that exchanges left and right, they are the modes in another order and with other signs. -/
theorem modes_symmetric :
    (∃ T, IsUnit T.det ∧ Spec.ModesMapped (fun p => ![p 1, p 0]) !![0, 1; 1, 0] e4 T) ∧
    (∃ T, IsUnit T.det ∧ Spec.ModesMapped (fun p => ![1 - p 0, p 1]) !![-1, 0; 0, 1] e4 T) ∧
    (∃ T, IsUnit T.det ∧ Spec.ModesMapped (fun p => ![p 1, p 0]) !![0, 1; 1, 0] e5 T) ∧
    (∃ T, IsUnit T.det ∧ Spec.ModesMapped (fun p => ![1 - p 0, p 1]) !![-1, 0; 0, 1] e5 T) ∧
    (∃ T, IsUnit T.det ∧ Spec.ModesMapped (fun p => ![p 1, p 0]) !![0, 1; 1, 0] e7 T) ∧
    (∃ T, IsUnit T.det ∧ Spec.ModesMapped (fun p => ![1 - p 0, p 1]) !![-1, 0; 0, 1] e7 T) ∧
    (∃ T, IsUnit T.det ∧ Spec.ModesMapped (fun p => ![p 1, p 0]) !![0, 1; 1, 0] e11 T) ∧
    (∃ T, IsUnit T.det ∧ Spec.ModesMapped (fun p => ![1 - p 0, p 1]) !![-1, 0; 0, 1] e11 T) := by
  refine ⟨⟨_, signedPerm_unit (Equiv.swap 0 1 * Equiv.swap 2 3) (s := fun _ => 1) fun _ => mul_one _, modes_of fun p i j => ?_⟩,
    ⟨_, signedPerm_unit 1 (s := ![-1, 1, 1, -1]) fun i => ?_, modes_of fun p i j => ?_⟩,
    ⟨_, signedPerm_unit (Equiv.swap 0 1 * Equiv.swap 2 3) (s := fun _ => 1) fun _ => mul_one _, modes_of fun p i j => ?_⟩,
    ⟨_, signedPerm_unit 1 (s := ![-1, 1, 1, -1, 1]) fun i => ?_, modes_of fun p i j => ?_⟩,
    ⟨_, signedPerm_unit (Equiv.swap 0 1 * Equiv.swap 2 3 * Equiv.swap 4 5) (s := fun _ => 1) fun _ => mul_one _, modes_of fun p i j => ?_⟩,
    ⟨_, signedPerm_unit 1 (s := ![-1, 1, 1, -1, -1, -1, 1]) fun i => ?_, modes_of fun p i j => ?_⟩,
    ⟨_, signedPerm_unit (Equiv.swap 0 3 * Equiv.swap 1 4 * Equiv.swap 2 5 * Equiv.swap 6 7 * Equiv.swap 8 9) (s := fun _ => 1)
      fun _ => mul_one _, modes_of fun p i j => ?_⟩,
    ⟨_, signedPerm_unit 1 (s := ![1, 1, 1, 1, -1, 1, -1, -1, -1, 1, -1]) fun i => ?_, modes_of fun p i j => ?_⟩⟩
  · rw [transformation_swap, Matrix.mul_apply, Fin.sum_univ_three, mul_one, e4_matrix, e4_matrix]
    fin_cases j <;> fin_cases i <;> simp [Equiv.swap_apply_def, mul_comm]
  · fin_cases i <;> simp
  · rw [transformation_reflect, Matrix.mul_apply, Fin.sum_univ_three, e4_matrix, e4_matrix]
    fin_cases j <;> fin_cases i <;> simp [one_point] <;> ring
  · rw [transformation_swap, Matrix.mul_apply, Fin.sum_univ_three, mul_one, e5_matrix, e5_matrix]
    fin_cases j <;> fin_cases i <;> simp [Equiv.swap_apply_def, mul_comm]
  · fin_cases i <;> simp
  · rw [transformation_reflect, Matrix.mul_apply, Fin.sum_univ_three, e5_matrix, e5_matrix]
    fin_cases j <;> fin_cases i <;> simp [one_point] <;> ring
  · rw [transformation_swap, Matrix.mul_apply, Fin.sum_univ_three, mul_one, e7_matrix, e7_matrix]
    fin_cases j <;> fin_cases i <;> simp [Equiv.swap_apply_def, mul_comm]
  · fin_cases i <;> simp
  · rw [transformation_reflect, Matrix.mul_apply, Fin.sum_univ_three, e7_matrix, e7_matrix]
    fin_cases j <;> fin_cases i <;> simp [one_point] <;> ring
  · rw [transformation_swap, Matrix.mul_apply, Fin.sum_univ_three, mul_one, e11_matrix, e11_matrix]
    fin_cases j <;> fin_cases i <;> simp [Equiv.swap_apply_def] <;> ring
  · fin_cases i <;> simp
  · rw [transformation_reflect, Matrix.mul_apply, Fin.sum_univ_three, e11_matrix, e11_matrix]
    have ht : t (1 - p 0) = -t (p 0) := by unfold t; ring
    fin_cases j <;> fin_cases i <;> simp [ht] <;> ring

theorem modes_comp {φ φ' : (Fin 2 → ℝ) → Fin 2 → ℝ} {P P' : Matrix (Fin 2) (Fin 2) ℝ} {entries : List (Fin 3 × Fin m × ((Fin 2 → ℝ) → ℝ))}
    {T T' : Matrix (Fin m) (Fin m) ℝ} (h : Spec.ModesMapped φ P entries T) (h' : Spec.ModesMapped φ' P' entries T') :
    Spec.ModesMapped (φ' ∘ φ) (P' * P) entries (T * T') := fun p => by
  obtain ⟨m2, -⟩ := transformation_mul (K := ℝ) two_ne_zero
  show assign entries (φ' (φ p)) = _
  rw [h', h, m2]
  simp only [Matrix.mul_assoc]

theorem rule_points {α : Type*} {P : α → α → Prop} {φ : (Fin 2 → ℝ) → Fin 2 → ℝ} {F F' : (Fin 2 → ℝ) × ℝ → α}
    (h : ∀ g, P (F g) (F' (φ g.1, g.2))) {rule : List ((Fin 2 → ℝ) × ℝ)} (hr : (rule.map fun g => (φ g.1, g.2)).Perm rule) :
    SamePoints P (rule.map F) (rule.map F') := by
  have hall : List.Forall₂ P (rule.map F) ((rule.map fun g => (φ g.1, g.2)).map F') := by
    rw [List.map_map]
    exact forall_map rule _ _ fun g _ => h g
  have hc : Relation.Comp (List.Forall₂ P) List.Perm (rule.map F) (rule.map F') := ⟨_, hall, hr.map F'⟩
  rw [List.forall₂_comp_perm_eq_perm_comp_forall₂] at hc
  obtain ⟨l0, h1, h2⟩ := hc
  exact ⟨l0, h1.symm, h2⟩

/-- A symmetry of the square that the modes of a variant and the rule have. -/
structure Spec.EASSymmetry (entries : List (Fin 3 × Fin m × ((Fin 2 → ℝ) → ℝ))) (rule : List ((Fin 2 → ℝ) × ℝ)) (τ : Equiv.Perm (Fin 4))
    (T : Matrix (Fin m) (Fin m) ℝ) : Prop where
  square : ∃ φ P, SquareSymmetry τ φ P ∧ φ center = center ∧ Spec.ModesMapped φ P entries T ∧ (rule.map fun g => (φ g.1, g.2)).Perm rule
  unit : IsUnit T.det

/-- C124, enhanced strains. The corners of a quadrilateral with enhanced strains, linear or Green-Lagrange strains, may be listed in any order that
goes with a symmetry of the modes and of the rule. -/
theorem easQuad_relabel {entries : List (Fin 3 × Fin m × ((Fin 2 → ℝ) → ℝ))} {rule : List ((Fin 2 → ℝ) × ℝ)} {τ : Equiv.Perm (Fin 4)}
    (h : Spec.EASSymmetry entries rule τ T) (X : NodeVec 4 2) :
    SamePoints (Spec.RelabelledEAS τ T) (rule.map (greenQuad entries X)) (rule.map (greenQuad entries (relabel τ X))) ∧
      SamePoints (Spec.RelabelledEAS τ T) (rule.map (linearQuad entries X)) (rule.map (linearQuad entries (relabel τ X))) := by
  obtain ⟨φ, P, h1, h2, h3, h4⟩ := h.square
  exact ⟨rule_points (fun g => greenQuad_relabel h1 h2 h3 X g) h4, rule_points (fun g => linearQuad_relabel h1 h2 h3 X g) h4⟩

/-- C124, enhanced strains. All variants of the plane have all eight symmetries of the square with rules that are made of a symmetric rule on the
interval: they have the two reflections, and with two symmetries they have their product. -/
theorem eas_symmetries (r : List (ℝ × ℝ)) (hr : (r.map fun x => (1 - x.1, x.2)).Perm r) :
    (∀ τ ∈ [Equiv.swap 1 2, Equiv.swap 0 1 * Equiv.swap 2 3], (∃ T, Spec.EASSymmetry e4 (tensorRule r) τ T) ∧
      (∃ T, Spec.EASSymmetry e5 (tensorRule r) τ T) ∧ (∃ T, Spec.EASSymmetry e7 (tensorRule r) τ T) ∧
      ∃ T, Spec.EASSymmetry e11 (tensorRule r) τ T) ∧
    ∀ {m : Nat} {entries : List (Fin 3 × Fin m × ((Fin 2 → ℝ) → ℝ))} {rule : List ((Fin 2 → ℝ) × ℝ)} {τ τ' : Equiv.Perm (Fin 4)}
      {T T' : Matrix (Fin m) (Fin m) ℝ}, Spec.EASSymmetry entries rule τ T → Spec.EASSymmetry entries rule τ' T' →
      Spec.EASSymmetry entries rule (τ * τ') (T * T') := by
  have c1 : (fun p : Fin 2 → ℝ => (![p 1, p 0] : Fin 2 → ℝ)) center = center := by
    funext i; fin_cases i <;> rfl
  have c2 : (fun p : Fin 2 → ℝ => (![1 - p 0, p 1] : Fin 2 → ℝ)) center = center := by
    funext i; fin_cases i <;> simp [center]; norm_num
  have s1 : ∀ {m : Nat} {entries : List (Fin 3 × Fin m × ((Fin 2 → ℝ) → ℝ))},
      (∃ T, IsUnit T.det ∧ Spec.ModesMapped (fun p => ![p 1, p 0]) !![0, 1; 1, 0] entries T) →
      ∃ T, Spec.EASSymmetry entries (tensorRule r) (Equiv.swap 1 2) T := fun ⟨T, hT, h⟩ =>
    ⟨T, ⟨_, _, square_symmetries.1, c1, h, (tensor_symmetric r).1⟩, hT⟩
  have s2 : ∀ {m : Nat} {entries : List (Fin 3 × Fin m × ((Fin 2 → ℝ) → ℝ))},
      (∃ T, IsUnit T.det ∧ Spec.ModesMapped (fun p => ![1 - p 0, p 1]) !![-1, 0; 0, 1] entries T) →
      ∃ T, Spec.EASSymmetry entries (tensorRule r) (Equiv.swap 0 1 * Equiv.swap 2 3) T := fun ⟨T, hT, h⟩ =>
    ⟨T, ⟨_, _, square_symmetries.2.1, c2, h, (tensor_symmetric r).2 hr⟩, hT⟩
  obtain ⟨a1, a2, b1, b2, d1, d2, f1, f2⟩ := modes_symmetric
  refine ⟨fun τ hτ => ?_, fun {m entries rule τ τ' T T'} h h' => ⟨?_, ?_⟩⟩
  · rcases List.mem_cons.1 hτ with rfl | hτ
    · exact ⟨s1 a1, s1 b1, s1 d1, s1 f1⟩
    · obtain rfl := List.mem_singleton.1 hτ
      exact ⟨s2 a2, s2 b2, s2 d2, s2 f2⟩
  · obtain ⟨φ, P, h1, h2, h3, h4⟩ := h.square
    obtain ⟨φ', P', h1', h2', h3', h4'⟩ := h'.square
    refine ⟨φ' ∘ φ, P' * P, square_symmetries.2.2 h1 h1', by rw [Function.comp_apply, h2, h2'], modes_comp h3 h3', ?_⟩
    have := h4.map fun g => (φ' g.1, g.2)
    rw [List.map_map] at this
    exact this.trans h4'
  · rw [Matrix.det_mul]
    exact h.unit.mul h'.unit

/-! ### Examples -/

/-- A quadrilateral of any shape with seven enhanced modes, Green-Lagrange strains and the rule of Gauss with two points in each direction, with its
corners listed from another corner: the internal variables start from zero in both elements. -/
example (X : NodeVec 4 2) (a : ℝ) : ∃ T, IsUnit T.det ∧ T *ᵥ (0 : Fin 7 → ℝ) = 0 ∧
    SamePoints (Spec.RelabelledEAS (Equiv.swap 1 2 * (Equiv.swap 0 1 * Equiv.swap 2 3)) T)
      ((tensorRule [(a, 1 / 2), (1 - a, 1 / 2)]).map (greenQuad e7 X))
      ((tensorRule [(a, 1 / 2), (1 - a, 1 / 2)]).map (greenQuad e7 (relabel (Equiv.swap 1 2 * (Equiv.swap 0 1 * Equiv.swap 2 3)) X))) := by
  have hr : ([(a, 1 / 2), (1 - a, 1 / 2)].map fun x : ℝ × ℝ => (1 - x.1, x.2)).Perm [(a, 1 / 2), (1 - a, 1 / 2)] := by
    simp only [List.map_cons, List.map_nil, sub_sub_cancel]
    exact List.Perm.swap _ _ _
  obtain ⟨h, hc⟩ := eas_symmetries _ hr
  obtain ⟨-, -, ⟨T, hT⟩, -⟩ := h _ List.mem_cons_self
  obtain ⟨-, -, ⟨T', hT'⟩, -⟩ := h _ (List.mem_cons_of_mem _ List.mem_cons_self)
  exact ⟨T * T', (hc hT hT').unit, Matrix.mulVec_zero _, (easQuad_relabel (hc hT hT') X).1⟩

/-- The trapezoid with four modes and a linear material: its forces, its matrix and the update of its internal variables. -/
example (C : Matrix (Fin 3) (Fin 3) ℝ) (hC : C.IsSymm) (u : NodeVec 4 2) {τ : Equiv.Perm (Fin 4)} {T : Matrix (Fin 4) (Fin 4) ℝ} (a : ℝ)
    (h : Spec.EASSymmetry e4 (tensorRule [(a, 1 / 2), (1 - a, 1 / 2)]) τ T) (alpha : Fin 4 → ℝ) :=
  eas_relabel h.unit (law := linearLaw C) (dom := Set.univ) (u := u) (alpha := alpha)
    ⟨linearLaw_contract C hC, fun gp hgp => by
      obtain ⟨g, -, rfl⟩ := List.mem_map.1 hgp
      exact additive_contract _ _ u _ (linPoint_contract _ u), fun _ _ => Set.mem_univ _⟩
    (easQuad_relabel h trapezoidCorners).2

end Ikarus.Element.EAS
