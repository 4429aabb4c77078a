import Verif.FE.TurnProps
import Verif.FE.EASGaussProps

/-!
C115, enhanced strains: elements with internal variables whose mesh, and whose deformed shape, is turned.
-/

namespace Ikarus.Element.EAS

open Matrix Element.Spec

variable {n d q m : Nat} {R Q : Matrix (Fin d) (Fin d) ℝ} {T : Matrix (Fin q) (Fin q) ℝ}

/-! ### Specification -/

/-- At the turned state and the same internal variables the enhanced strain is turned, and with it its derivatives. -/
structure Spec.TurnedEAS (Q : Matrix (Fin d) (Fin d) ℝ) (T : Matrix (Fin q) (Fin q) ℝ) (u u' : NodeVec n d) (alpha : Fin m → ℝ)
    (p p' : EASPoint n d q m) : Prop where
  detJ : p'.detJ = p.detJ
  weight : p'.weight = p.weight
  strain : p'.strain u' alpha = T *ᵥ p.strain u alpha
  Ed : ∀ I, p'.Ed u' alpha I = T * p.Ed u alpha I * Qᵀ
  Ea : p'.Ea u' alpha = T * p.Ea u alpha
  Edd : ∀ S I J, p'.Edd u' alpha S I J = Q * p.Edd u alpha (Tᵀ *ᵥ S) I J * Qᵀ
  Eaa : ∀ S, p'.Eaa u' alpha S = p.Eaa u alpha (Tᵀ *ᵥ S)
  Ead : ∀ S I, p'.Ead u' alpha S I = p.Ead u alpha (Tᵀ *ᵥ S) I * Qᵀ

/-- The geometry of the element turned by `R`. -/
def Spec.turnedGeometry (R : Matrix (Fin d) (Fin d) ℝ) (geo : Geometry d) : Geometry d :=
  ⟨fun pos => geo.jacobianTransposed pos * Rᵀ⟩

/-! ### Sums -/

theorem forall_image_sum {α β M N : Type*} [AddCommMonoid M] [AddCommMonoid N] {P : α → β → Prop} {l : List α} {l' : List β}
    (h : List.Forall₂ P l l') (φ : M → N) (h0 : φ 0 = 0) (ha : ∀ x y, φ (x + y) = φ x + φ y) (F : α → M) (G : β → N)
    (hP : ∀ x ∈ l, ∀ y, P x y → G y = φ (F x)) : (l'.map G).sum = φ (l.map F).sum := by
  induction h with
  | nil => exact h0.symm
  | cons hxy _ ih =>
    simp only [List.map_cons, List.sum_cons, ha]
    rw [hP _ List.mem_cons_self _ hxy, ih fun x hx => hP x (List.mem_cons_of_mem _ hx)]

variable {law law' : Law q} {u u' : NodeVec n d} {alpha : Fin m → ℝ} {gps gps' : List (EASPoint n d q m)}

section Point

variable {p p' : EASPoint n d q m} (h : Spec.TurnedEAS Q T u u' alpha p p') (hl : TurnedLaw T law law' (p.strain u alpha))

include h hl

theorem pointForce_turn : pointForce law' u' alpha p' = turn Q (pointForce law u alpha p) := by
  funext I
  show (p'.detJ * p'.weight) • _ = Q *ᵥ ((p.detJ * p.weight) • _)
  rw [h.detJ, h.weight, h.Ed, h.strain, Matrix.mulVec_smul, ← hl.stress]
  simp only [Matrix.transpose_mul, Matrix.transpose_transpose, Matrix.mulVec_mulVec, Matrix.mul_assoc]

theorem pointMatrix_turn : pointMatrix law' u' alpha p' = turnMat Q (pointMatrix law u alpha p) := by
  funext I J
  show (p'.detJ * p'.weight) • _ + _ = Q * ((p.detJ * p.weight) • _ + _) * Qᵀ
  rw [h.detJ, h.weight, h.Ed, h.Ed, h.Edd, h.strain, Matrix.mul_add, Matrix.add_mul, hl.stress, ← hl.tangent, Matrix.mul_smul,
    Matrix.smul_mul, Matrix.mul_smul, Matrix.smul_mul]
  congr 2
  simp only [Matrix.transpose_mul, Matrix.transpose_transpose, Matrix.mul_assoc]

theorem pointR_turn : pointR law' u' alpha p' = pointR law u alpha p := by
  show (p'.detJ * p'.weight) • _ = (p.detJ * p.weight) • _
  rw [h.detJ, h.weight, h.Ea, h.strain, ← hl.stress]
  simp only [Matrix.transpose_mul, Matrix.mulVec_mulVec]

theorem pointD_turn : pointD law' u' alpha p' = pointD law u alpha p := by
  show (p'.detJ * p'.weight) • (_ + _) = (p.detJ * p.weight) • (_ + _)
  rw [h.detJ, h.weight, h.Ea, h.strain, h.Eaa, hl.stress, ← hl.tangent]
  simp only [Matrix.transpose_mul, Matrix.mul_assoc]

theorem pointL_turn : pointL law' u' alpha p' = fun I => pointL law u alpha p I * Qᵀ := by
  funext I
  unfold pointL
  rw [h.detJ, h.weight, h.Ea, h.Ed, h.strain, h.Ead, hl.stress, ← hl.tangent, Matrix.smul_mul, Matrix.add_mul]
  simp only [Matrix.transpose_mul, Matrix.mul_assoc]

end Point

section Sums

variable (h : List.Forall₂ (Spec.TurnedEAS Q T u u' alpha) gps gps') (hl : ∀ gp ∈ gps, TurnedLaw T law law' (gp.strain u alpha))

include h hl

theorem forces_turn : forces law' gps' u' alpha = turn Q (forces law gps u alpha) :=
  turn_forall_sum h _ _ fun p hp _ hpp => pointForce_turn hpp (hl p hp)

theorem stiffness_turn : stiffness law' gps' u' alpha = turnMat Q (stiffness law gps u alpha) :=
  turnMat_forall_sum h _ _ fun p hp _ hpp => pointMatrix_turn hpp (hl p hp)

theorem calculateD_turn : calculateD law' gps' u' alpha = calculateD law gps u alpha := by
  rw [calculateD_sum, calculateD_sum]
  exact forall_image_sum h id rfl (fun _ _ => rfl) _ _ fun p hp _ hpp => pointD_turn hpp (hl p hp)

theorem calculateRtilde_turn : calculateRtilde law' gps' u' alpha = calculateRtilde law gps u alpha := by
  rw [calculateRtilde_sum, calculateRtilde_sum]
  exact forall_image_sum h id rfl (fun _ _ => rfl) _ _ fun p hp _ hpp => pointR_turn hpp (hl p hp)

theorem calculateL_turn : calculateL law' gps' u' alpha = fun I => calculateL law gps u alpha I * Qᵀ := by
  rw [calculateL_sum, calculateL_sum]
  refine forall_image_sum h (fun (L : Fin n → Matrix (Fin m) (Fin d) ℝ) I => L I * Qᵀ) ?_ (fun _ _ => ?_) _ _ fun p hp _ hpp => pointL_turn hpp (hl p hp)
  · funext I; exact Matrix.zero_mul _
  · funext I; exact Matrix.add_mul _ _ _

end Sums

theorem mulL_turn (hQ : Qᵀ * Q = 1) (L : Fin n → Matrix (Fin m) (Fin d) ℝ) (dx : NodeVec n d) :
    mulL (fun I => L I * Qᵀ) (turn Q dx) = mulL L dx := by
  refine Finset.sum_congr rfl fun I _ => ?_
  show (L I * Qᵀ) *ᵥ (Q *ᵥ dx I) = _
  rw [Matrix.mulVec_mulVec, Matrix.mul_assoc, hQ, Matrix.mul_one]

theorem turnMat_sub (K L : BlockMat n d) : turnMat Q (K - L) = turnMat Q K - turnMat Q L := by
  funext I J; simp [turnMat, Matrix.mul_sub, Matrix.sub_mul]

/-! ### The element -/

/-- C115, enhanced strains. At the turned state and the same internal variables an element with enhanced strains adds the
turned forces and the turned matrix, and a turned correction changes the internal variables in the same way. -/
theorem eas_turn (hQ : Qᵀ * Q = 1) {dom : Set (Fin q → ℝ)} (hreg : Spec.Regular law dom gps u alpha)
    (h : List.Forall₂ (Spec.TurnedEAS Q T u u' alpha) gps gps') (hl : ∀ gp ∈ gps, TurnedLaw T law law' (gp.strain u alpha)) :
    (∀ aff f, calculateVector law' gps' aff u' alpha (turn Q f) = (calculateVector law gps aff u alpha f).map (turn Q)) ∧
    (∀ aff K, Element.Spec.Symmetric K →
      calculateMatrix law' gps' aff u' alpha (turnMat Q K) = (calculateMatrix law gps aff u alpha K).map (turnMat Q)) ∧
    (∀ N M dx, updateState law' gps' u' alpha N M (turn Q dx) = updateState law gps u alpha N M dx) := by
  have eD := calculateD_turn h hl
  have eR := calculateRtilde_turn h hl
  have eL := calculateL_turn h hl
  refine ⟨fun aff f => ?_, fun aff K hK => ?_, fun N M dx => ?_⟩
  · unfold calculateVector
    by_cases h1 : aff ≠ .forces
    · rw [if_pos h1, if_pos h1]; rfl
    by_cases h2 : (!applicable n d m) = true
    · rw [if_neg h1, if_neg h1, if_pos h2, if_pos h2]; rfl
    rw [if_neg h1, if_neg h1, if_neg h2, if_neg h2]
    simp only [forces_loop, eD, eR, eL]
    by_cases hm : m = 0
    · rw [if_pos hm, if_pos hm, forces_turn h hl, ← turn_add]; rfl
    rw [if_neg hm, if_neg hm, forces_turn h hl, ← turn_add, Option.map_some, turn_sub]
    congr 2
    funext I
    simp only [turn, Matrix.mulVec_mulVec, Matrix.transpose_mul, Matrix.transpose_transpose, Matrix.mul_assoc]
  · unfold calculateMatrix
    by_cases h1 : aff ≠ .stiffness
    · rw [if_pos h1, if_pos h1]; rfl
    by_cases h2 : (!applicable n d m) = true
    · rw [if_neg h1, if_neg h1, if_pos h2, if_pos h2]; rfl
    rw [if_neg h1, if_neg h1, if_neg h2, if_neg h2]
    simp only [stiffness_loop, eD, eL]
    by_cases hm : m = 0
    · rw [if_pos hm, if_pos hm, stiffness_turn h hl, ← turnMat_add]; rfl
    have hKs := symmetric_add' hK (symmetric_stiffness law dom gps u alpha hreg)
    have hM : Element.Spec.Symmetric fun I J =>
        (calculateL law gps u alpha I)ᵀ * (calculateD law gps u alpha)⁻¹ * calculateL law gps u alpha J := by
      intro I J a b
      show ((calculateL law gps u alpha I)ᵀ * (calculateD law gps u alpha)⁻¹ * calculateL law gps u alpha J) a b =
        ((calculateL law gps u alpha J)ᵀ * (calculateD law gps u alpha)⁻¹ * calculateL law gps u alpha I) b a
      rw [← Matrix.transpose_apply ((calculateL law gps u alpha J)ᵀ * (calculateD law gps u alpha)⁻¹ *
        calculateL law gps u alpha I), Matrix.transpose_mul, Matrix.transpose_mul, Matrix.transpose_nonsing_inv,
        symmetric_D law dom gps u alpha hreg, Matrix.transpose_transpose, Matrix.mul_assoc]
    have e : (fun I J => (calculateL law gps u alpha I * Qᵀ)ᵀ * (calculateD law gps u alpha)⁻¹ *
        (calculateL law gps u alpha J * Qᵀ)) = turnMat Q fun I J =>
        (calculateL law gps u alpha I)ᵀ * (calculateD law gps u alpha)⁻¹ * calculateL law gps u alpha J := by
      funext I J
      simp only [turnMat, Matrix.transpose_mul, Matrix.transpose_transpose, Matrix.mul_assoc]
    rw [if_neg hm, if_neg hm, stiffness_turn h hl, ← turnMat_add, e, subtractUpperAndMirror_eq _ _ hKs hM,
      subtractUpperAndMirror_eq _ _ (turnMat_symmetric Q hKs) (turnMat_symmetric Q hM), ← turnMat_sub]
    rfl
  · unfold updateState
    rw [eD, eR, eL]
    simp only [mulL_turn hQ]

/-! ### Strains -/

/-- C115, strains. Linear and Green-Lagrange strains enhanced by modes: the enhanced strain is turned if the strain and the modes
are. -/
theorem additive_turned {p p' : Point n d q} (hp : TurnedStrain Q T u u' p p') {M M' : Matrix (Fin q) (Fin m) ℝ} (hM : M' = T * M) :
    Spec.TurnedEAS Q T u u' alpha (additive p M) (additive p' M') where
  detJ := hp.detJ
  weight := hp.weight
  strain := by
    show p'.strain u' + M' *ᵥ alpha = T *ᵥ (p.strain u + M *ᵥ alpha)
    rw [hp.strain, hM, Matrix.mulVec_add, Matrix.mulVec_mulVec]
  Ed := hp.bop
  Ea := hM
  Edd := hp.kg
  Eaa _ := rfl
  Ead _ _ := (Matrix.zero_mul _).symm

theorem integrationElement_turn (hR : Rᵀ * R = 1) (geo : Geometry d) (pos : Fin d → ℝ) :
    (Spec.turnedGeometry R geo).integrationElement pos = geo.integrationElement pos := by
  unfold Geometry.integrationElement Spec.turnedGeometry
  rw [Matrix.det_mul, abs_mul]
  have h := congrArg Matrix.det hR
  rw [Matrix.det_mul, Matrix.det_transpose, Matrix.det_one] at h
  rw [Matrix.det_transpose, show |R.det| = 1 from by
    rcases mul_self_eq_one_iff.1 h with h | h <;> rw [h] <;> norm_num, mul_one]

/-- C115, strains. The modes of every variant of the plane turn with the element. -/
theorem ansatz2_turn {R : Matrix (Fin 2) (Fin 2) ℝ} (hR : Rᵀ * R = 1) (entries : List (Fin 3 × Fin m × ((Fin 2 → ℝ) → ℝ)))
    (geo : Geometry 2) (pos : Fin 2 → ℝ) :
    ansatz2 entries (Spec.turnedGeometry R geo) pos = transformationMatrix2 R * ansatz2 entries geo pos := by
  obtain ⟨m2, -, o2, -⟩ := transformation_mul (K := ℝ) two_ne_zero
  have hinv : (transformationMatrix2 Rᵀ)⁻¹ = transformationMatrix2 R :=
    Matrix.inv_eq_right_inv (by rw [← m2, hR, o2])
  have e : T0Inverse2 (Spec.turnedGeometry R geo) = transformationMatrix2 R * T0Inverse2 geo := by
    unfold T0Inverse2
    rw [integrationElement_turn hR]
    show (_ • transformationMatrix2 (geo.jacobianTransposed center * Rᵀ))⁻¹ = _
    rw [m2, ← Matrix.smul_mul, Matrix.mul_inv_rev, hinv]
  unfold ansatz2
  rw [e, integrationElement_turn hR, ← Matrix.mul_smul, Matrix.mul_assoc]

/-- C115, strains. The same in space. -/
theorem ansatz3_turn {R : Matrix (Fin 3) (Fin 3) ℝ} (hR : Rᵀ * R = 1) (entries : List (Fin 6 × Fin m × ((Fin 3 → ℝ) → ℝ)))
    (geo : Geometry 3) (pos : Fin 3 → ℝ) :
    ansatz3 entries (Spec.turnedGeometry R geo) pos = transformationMatrix3 R * ansatz3 entries geo pos := by
  obtain ⟨-, m3, -, o3⟩ := transformation_mul (K := ℝ) two_ne_zero
  have hinv : (transformationMatrix3 Rᵀ)⁻¹ = transformationMatrix3 R :=
    Matrix.inv_eq_right_inv (by rw [← m3, hR, o3])
  have e : T0Inverse3 (Spec.turnedGeometry R geo) = transformationMatrix3 R * T0Inverse3 geo := by
    unfold T0Inverse3
    rw [integrationElement_turn hR]
    show (_ • transformationMatrix3 (geo.jacobianTransposed center * Rᵀ))⁻¹ = _
    rw [m3, ← Matrix.smul_mul, Matrix.mul_inv_rev, hinv]
  unfold ansatz3
  rw [e, integrationElement_turn hR, ← Matrix.mul_smul, Matrix.mul_assoc]

/-- C115, strains. The modes for the displacement gradient turn with the element. -/
theorem ansatzH_turn (hR : Rᵀ * R = 1) (modes : (Fin d → ℝ) → Fin m → Matrix (Fin d) (Fin d) ℝ) (geo : Geometry d)
    (pos : Fin d → ℝ) (p : Fin m) :
    ansatzH modes (Spec.turnedGeometry R geo) pos p = R * ansatzH modes geo pos p * Rᵀ := by
  have hinv : (Rᵀ)⁻¹ = R := Matrix.inv_eq_right_inv hR
  show (_ / _) • (geo.jacobianTransposed center * Rᵀ)⁻¹ * _ * ((geo.jacobianTransposed center * Rᵀ)⁻¹)ᵀ =
    R * ((_ / _) • (geo.jacobianTransposed center)⁻¹ * _ * ((geo.jacobianTransposed center)⁻¹)ᵀ) * Rᵀ
  rw [integrationElement_turn hR, integrationElement_turn hR, Matrix.mul_inv_rev, hinv]
  simp only [Matrix.transpose_mul, Matrix.smul_mul, Matrix.mul_smul, Matrix.mul_assoc]

theorem along_turn {dim : Dimension d q} (hT : VoigtTurn dim.voigt R T) (hQ : Qᵀ * Q = 1) (S : Fin q → ℝ)
    (x y : Matrix (Fin d) (Fin d) ℝ) :
    Spec.along dim.voigt S (Q * x * Rᵀ) (Q * y * Rᵀ) = Spec.along dim.voigt (Tᵀ *ᵥ S) x y := by
  rw [Matrix.mul_assoc, Matrix.mul_assoc, along_orth _ hQ, hT]

theorem along_row_turn {dim : Dimension d q} (hT : VoigtTurn dim.voigt R T) (S : Fin q → ℝ)
    (x : Matrix (Fin d) (Fin d) ℝ) (a : Fin d) (g : Fin d → ℝ) :
    Spec.along dim.voigt S (rowMatrix a (R *ᵥ g)) (Q * x * Rᵀ) =
      ∑ c, Spec.along dim.voigt (Tᵀ *ᵥ S) (rowMatrix c g) x * Qᵀ c a := by
  rw [← rowMatrix_mul, ← hT, along_adjoint, row_turn, along_sum_left]
  refine Finset.sum_congr rfl fun c _ => ?_
  rw [along_smul_left, Matrix.transpose_apply, mul_comm]

/-- Green-Lagrange strains of a turned deformation gradient. -/
theorem deformation_turned {dim : Dimension d q} (hdim : Spec.IsVoigt dim) (hT : VoigtTurn dim.voigt R T) (hR : Rᵀ * R = 1)
    (hQ : Qᵀ * Q = 1) {F F' : Matrix (Fin d) (Fin d) ℝ} {A A' : Fin n → Fin d → ℝ} {B B' : Fin m → Matrix (Fin d) (Fin d) ℝ}
    {G G' : Fin m → Fin n → Fin d → ℝ} (hF : F' = Q * F * Rᵀ) (hA : ∀ I, A' I = R *ᵥ A I) (hB : ∀ r, B' r = Q * B r * Rᵀ)
    (hG : ∀ r I, G' r I = R *ᵥ G r I) {p p' : EASPoint n d q m} (hd : p'.detJ = p.detJ) (hw : p'.weight = p.weight)
    (h1 : p.strain u alpha = dim.greenLagrange (F - 1)) (h1' : p'.strain u' alpha = dim.greenLagrange (F' - 1))
    (h2 : ∀ I, p.Ed u alpha I = dim.bop F (A I)) (h2' : ∀ I, p'.Ed u' alpha I = dim.bop F' (A' I))
    (h3 : ∀ k r, p.Ea u alpha k r = dim.columnM F (B r) k) (h3' : ∀ k r, p'.Ea u' alpha k r = dim.columnM F' (B' r) k)
    (h4 : ∀ S I J, p.Edd u alpha S I J = (∑ i, ∑ j, S (dim.voigt i j) * A I i * A J j) • 1)
    (h4' : ∀ S I J, p'.Edd u' alpha S I J = (∑ i, ∑ j, S (dim.voigt i j) * A' I i * A' J j) • 1)
    (h5 : ∀ S r s, p.Eaa u alpha S r s = Spec.along dim.voigt S (B r) (B s))
    (h5' : ∀ S r s, p'.Eaa u' alpha S r s = Spec.along dim.voigt S (B' r) (B' s))
    (h6 : ∀ S I r a, p.Ead u alpha S I r a = Spec.along dim.voigt S (B r) (rowMatrix a (A I)) +
      Spec.along dim.voigt S (rowMatrix a (G r I)) F)
    (h6' : ∀ S I r a, p'.Ead u' alpha S I r a = Spec.along dim.voigt S (B' r) (rowMatrix a (A' I)) +
      Spec.along dim.voigt S (rowMatrix a (G' r I)) F') : Spec.TurnedEAS Q T u u' alpha p p' where
  detJ := hd
  weight := hw
  strain := by
    rw [h1, h1']
    exact greenLagrange_turn hdim hT hR hQ (by rw [add_sub_cancel, add_sub_cancel, hF])
  Ed I := by rw [h2, h2', hF, hA, bop_turn hdim hT]
  Ea := by
    ext k r
    rw [h3', hF, hB, columnM_turn hdim hT hQ, Matrix.mul_apply, Matrix.mulVec, dotProduct]
    refine Finset.sum_congr rfl fun l _ => ?_
    rw [h3]
  Edd S I J := by rw [h4, h4', hA, hA, geometric_turn hT hQ]
  Eaa S := by
    ext r s
    rw [h5, h5', hB, hB, along_turn hT hQ]
  Ead S I := by
    ext r a
    rw [h6', hF, hB, hA, hG, along_symm _ _ hdim.symm, along_row_turn hT, along_row_turn hT, ← Finset.sum_add_distrib,
      Matrix.mul_apply]
    refine Finset.sum_congr rfl fun c _ => ?_
    rw [h6, along_symm _ _ hdim.symm (B r), add_mul]

theorem sumModes_turn (P S : Matrix (Fin d) (Fin d) ℝ) {H H' : Fin m → Matrix (Fin d) (Fin d) ℝ} (hH : ∀ p, H' p = P * H p * S)
    (alpha : Fin m → ℝ) : sumModes H' alpha = P * sumModes H alpha * S := by
  rw [sumModes_eq, sumModes_eq, Finset.mul_sum, Finset.sum_mul]
  refine Finset.sum_congr rfl fun p _ => ?_
  rw [hH, Matrix.mul_smul, Matrix.smul_mul]

/-- C115, strains. `DisplacementGradient` of an element that is turned with its deformed shape. -/
theorem displacementGradient_turned {dim : Dimension d q} (hdim : Spec.IsVoigt dim) (hT : VoigtTurn dim.voigt Q T)
    {X X' : NodeVec n d} (ht : Turned Q Q X X' u u') {dN : Fin n → Fin d → ℝ} (hX : Isoparametric X dN)
    {H H' : Fin m → Matrix (Fin d) (Fin d) ℝ} (hH : ∀ p, H' p = Q * H p * Qᵀ) (detJ weight : ℝ) :
    Spec.TurnedEAS Q T u u' alpha (displacementGradient dim detJ weight dN H)
      (displacementGradient dim detJ weight (fun I => Q *ᵥ dN I) H') := by
  have h0 : ∀ a : Fin d, rowMatrix a (0 : Fin d → ℝ) = 0 := fun a => by ext i j; simp [rowMatrix]
  refine deformation_turned hdim hT ht.orthQ ht.orthQ (F := 1 + (gradient dN u + sumModes H alpha))
    (F' := 1 + (gradient (fun I => Q *ᵥ dN I) u' + sumModes H' alpha)) (A := dN) (A' := fun I => Q *ᵥ dN I) (B := H) (B' := H')
    (G := fun _ _ => 0) (G' := fun _ _ => 0) ?_ (fun _ => rfl) hH (fun _ _ => (Matrix.mulVec_zero _).symm) rfl rfl
    ?_ ?_ (fun _ => rfl) (fun _ => rfl) (fun _ _ => rfl) (fun _ _ => rfl) (fun _ _ _ => rfl) (fun _ _ _ => rfl)
    (fun S r s => alongStress_eq dim hdim S _ _) (fun S r s => alongStress_eq dim hdim S _ _) ?_ ?_
  · rw [← add_assoc, gradient_turn ht hX, sumModes_turn Q Qᵀ hH, ← Matrix.add_mul, ← Matrix.mul_add, add_assoc]
  · simp [displacementGradient]
  · simp [displacementGradient]
  · intro S I r a
    rw [h0, along_zero_left, add_zero]
    exact alongStress_eq dim hdim S _ _
  · intro S I r a
    rw [h0, along_zero_left, add_zero]
    exact alongStress_eq dim hdim S _ _

/-- C115, strains. `DisplacementGradientTransposed`: element and deformed shape may be turned differently. -/
theorem displacementGradientTransposed_turned {dim : Dimension d q} (hdim : Spec.IsVoigt dim) (hT : VoigtTurn dim.voigt R T)
    {val : (Fin q → ℝ) → (Fin d → ℝ) → (Fin d → ℝ) → ℝ} (hval : Spec.IsVal dim val)
    {X X' : NodeVec n d} (ht : Turned R Q X X' u u') {dN dN0 : Fin n → Fin d → ℝ} (hX : Isoparametric X dN)
    (hX0 : Isoparametric X dN0) {H H' : Fin m → Matrix (Fin d) (Fin d) ℝ} (hH : ∀ p, H' p = R * H p * Rᵀ) (detJ weight : ℝ) :
    Spec.TurnedEAS Q T u u' alpha (displacementGradientTransposed dim val detJ weight dN dN0 H)
      (displacementGradientTransposed dim val detJ weight (fun I => R *ᵥ dN I) (fun I => R *ᵥ dN0 I) H') := by
  have hR := ht.orthR
  have e0 := gradient_turn ht hX0
  have hs := sumModes_turn R Rᵀ hH alpha
  have hB : ∀ M : Matrix (Fin d) (Fin d) ℝ, Q * (1 + gradient dN0 u) * Rᵀ * (R * M * Rᵀ)ᵀ = Q * ((1 + gradient dN0 u) * Mᵀ) * Rᵀ := by
    intro M
    simp only [Matrix.transpose_mul, Matrix.transpose_transpose, Matrix.mul_assoc]
    rw [← Matrix.mul_assoc Rᵀ R, hR, Matrix.one_mul]
  have hv : ∀ (M : Matrix (Fin d) (Fin d) ℝ) (g : Fin d → ℝ), (R * M * Rᵀ) *ᵥ (R *ᵥ g) = R *ᵥ (M *ᵥ g) := by
    intro M g
    simp only [Matrix.mulVec_mulVec, Matrix.mul_assoc, hR, Matrix.mul_one]
  refine deformation_turned hdim hT hR ht.orthQ
    (F := 1 + (gradient dN u + (1 + gradient dN0 u) * (sumModes H alpha)ᵀ))
    (F' := 1 + (gradient (fun I => R *ᵥ dN I) u' + (1 + gradient (fun I => R *ᵥ dN0 I) u') * (sumModes H' alpha)ᵀ))
    (A := fun I => enhancedDN H alpha (dN I) (dN0 I)) (A' := fun I => enhancedDN H' alpha (R *ᵥ dN I) (R *ᵥ dN0 I))
    (B := fun r => (1 + gradient dN0 u) * (H r)ᵀ) (B' := fun r => (1 + gradient (fun I => R *ᵥ dN0 I) u') * (H' r)ᵀ)
    (G := fun r I => H r *ᵥ dN0 I) (G' := fun r I => H' r *ᵥ (R *ᵥ dN0 I)) ?_ ?_ ?_ ?_ rfl rfl
    ?_ ?_ (fun _ => rfl) (fun _ => rfl) (fun _ _ => rfl) (fun _ _ => rfl) ?_ ?_
    (fun S r s => alongStress_eq dim hdim S _ _) (fun S r s => alongStress_eq dim hdim S _ _) ?_ ?_
  · rw [← add_assoc, gradient_turn ht hX, e0, hs, hB, ← Matrix.add_mul, ← Matrix.mul_add, add_assoc]
  · intro I
    rw [enhancedDN_eq, enhancedDN_eq, hs, hv, Matrix.mulVec_add]
  · intro r
    show (1 + gradient (fun I => R *ᵥ dN0 I) u') * (H' r)ᵀ = _
    rw [e0, hH, hB]
  · intro r I
    rw [hH, hv]
  · simp [displacementGradientTransposed]
  · simp [displacementGradientTransposed]
  · intro S I J
    rw [← hval]; rfl
  · intro S I J
    rw [← hval]; rfl
  · intro S I r a
    rw [← rowMatrix_mul]
    exact alongStressTransposed_eq dim hdim S _ _ _ _
  · intro S I r a
    rw [← rowMatrix_mul]
    exact alongStressTransposed_eq dim hdim S _ _ _ _

end Ikarus.Element.EAS
