import Verif.FE.TurnMixedProps
import Verif.FE.TurnMaterialProps
import Verif.FE.PatchExamples

/-!
C115, quadrilaterals: the integration points of the turned element with all enhanced strains and assumed stresses, and the
refutation for the displacement gradient.
-/

namespace Ikarus.Element

open Matrix AutoDiffMat VanishingStress Result Element.Spec

variable {m : Nat} {R Q : Matrix (Fin 2) (Fin 2) ℝ}

/-! ### Integration points of quadrilaterals -/

/-- Green-Lagrange strains with the modes of a variant. -/
noncomputable def Spec.greenQuad (entries : List (Fin 3 × Fin m × ((Fin 2 → ℝ) → ℝ))) (X : NodeVec 4 2) (g : (Fin 2 → ℝ) × ℝ) :
    EAS.EASPoint 4 2 3 m :=
  EAS.additive (Ikarus.Spec.greenPoint EAS.plane (quadPoint X g)) (EAS.ansatz2 entries (quadGeometry X) g.1)

/-- The linear strain at a point. -/
noncomputable def Spec.linearAt (p : GradientPoint 4 2) : LinPoint 4 2 3 := ⟨p.detJ, p.weight, fun I => EAS.plane.bop 1 (p.dN I)⟩

/-- Linear strains with the modes of a variant. -/
noncomputable def Spec.linearQuad (entries : List (Fin 3 × Fin m × ((Fin 2 → ℝ) → ℝ))) (X : NodeVec 4 2) (g : (Fin 2 → ℝ) × ℝ) :
    EAS.EASPoint 4 2 3 m :=
  EAS.additive (linearAt (quadPoint X g)).toPoint (EAS.ansatz2 entries (quadGeometry X) g.1)

/-- The displacement gradient with the modes `H4`. -/
noncomputable def Spec.gradientQuad (X : NodeVec 4 2) (g : (Fin 2 → ℝ) × ℝ) : EAS.EASPoint 4 2 3 4 :=
  EAS.displacementGradient EAS.plane (quadPoint X g).detJ g.2 (quadPoint X g).dN (EAS.ansatzH EAS.h4 (quadGeometry X) g.1)

/-- The transposed displacement gradient with the modes `H4`. -/
noncomputable def Spec.transposedQuad (X : NodeVec 4 2) (g : (Fin 2 → ℝ) × ℝ) : EAS.EASPoint 4 2 3 4 :=
  EAS.displacementGradientTransposed EAS.plane EAS.val2 (quadPoint X g).detJ g.2 (quadPoint X g).dN (quadPoint X (EAS.center, g.2)).dN
    (EAS.ansatzH EAS.h4 (quadGeometry X) g.1)

/-- Green-Lagrange strains with the assumed stresses of a variant. -/
noncomputable def Spec.stressQuad (entries : List (Fin 3 × Fin m × ((Fin 2 → ℝ) → ℝ))) (X : NodeVec 4 2) (g : (Fin 2 → ℝ) × ℝ) :
    AssumedStress.ASPoint 4 2 3 m :=
  ⟨Ikarus.Spec.greenPoint EAS.plane (quadPoint X g), AssumedStress.stressAnsatz2 entries (quadGeometry X) g.1⟩

/-! ### Turned quadrilaterals -/

theorem quadGeometry_turn (a : Fin 2 → ℝ) (X : NodeVec 4 2) :
    quadGeometry (affine a R X) = EAS.Spec.turnedGeometry R (quadGeometry X) := by
  have h0 : ∀ p a, ∑ I, Spec.bilinear p I a = 0 := fun p => (square_isoparametric p).unity
  unfold quadGeometry EAS.Spec.turnedGeometry
  congr 1
  funext p
  ext i j
  simp only [Matrix.of_apply, Matrix.mul_apply, affine, Pi.add_apply, mul_add, Finset.sum_add_distrib, Matrix.transpose_apply,
    Matrix.mulVec, dotProduct, Finset.mul_sum, Finset.sum_mul]
  rw [← Finset.sum_mul, h0, zero_mul, zero_add, Finset.sum_comm]
  exact Finset.sum_congr rfl fun k _ => Finset.sum_congr rfl fun I _ => by ring

theorem quadPoint_turn (hR : Rᵀ * R = 1) (a : Fin 2 → ℝ) (X : NodeVec 4 2) (g : (Fin 2 → ℝ) × ℝ) :
    quadPoint (affine a R X) g = turnedPoint R (quadPoint X g) := by
  unfold quadPoint turnedPoint
  rw [quadGeometry_turn]
  simp only [EAS.integrationElement_turn hR, GradientPoint.mk.injEq, true_and]
  refine funext fun I => ?_
  show (_ * Rᵀ)⁻¹ *ᵥ _ = _
  rw [Matrix.mul_inv_rev, Matrix.inv_eq_right_inv hR, Matrix.mulVec_mulVec]

theorem linear_toPoint {n d q : Nat} {Q : Matrix (Fin d) (Fin d) ℝ} {T : Matrix (Fin q) (Fin q) ℝ} {u u' : NodeVec n d}
    {p p' : LinPoint n d q} (h : TurnedLinear Q T u u' p p') : TurnedStrain Q T u u' p.toPoint p'.toPoint where
  detJ := h.detJ
  weight := h.weight
  strain := h.strain
  bop := h.bop
  kg S I J := by
    show (0 : Matrix (Fin d) (Fin d) ℝ) = Q * 0 * Qᵀ
    rw [Matrix.mul_zero, Matrix.zero_mul]

theorem turned_both {n d : Nat} {Q : Matrix (Fin d) (Fin d) ℝ} {X X' u u' : NodeVec n d} (ht : Turned Q Q X X' u u') :
    ∃ c, u' = affine c Q u := by
  obtain ⟨a, ha⟩ := ht.mesh
  obtain ⟨c, hc⟩ := ht.shape
  refine ⟨c - a, funext fun I => ?_⟩
  have h := congrFun hc I
  rw [ha] at h
  have h : a + Q *ᵥ X I + u' I = c + Q *ᵥ (X I + u I) := h
  show u' I = c - a + Q *ᵥ u I
  rw [Matrix.mulVec_add] at h
  have := eq_sub_of_add_eq' h
  rw [this]
  abel

/-- C115, quadrilaterals. The deformed shape of a quadrilateral is turned by `Q` and its corners by `R`: the Green-Lagrange strains
with the modes of any variant, the transposed displacement gradient and the assumed stresses are turned. -/
theorem quad_turned {X X' u u' : NodeVec 4 2} (ht : Turned R Q X X' u u') {g : (Fin 2 → ℝ) × ℝ}
    (hg : ((quadGeometry X).jacobianTransposed g.1).det ≠ 0) (h0 : ((quadGeometry X).jacobianTransposed EAS.center).det ≠ 0) :
    (∀ {m : Nat} (entries : List (Fin 3 × Fin m × ((Fin 2 → ℝ) → ℝ))) alpha,
      EAS.Spec.TurnedEAS Q (transformationMatrix2 R) u u' alpha (greenQuad entries X g) (greenQuad entries X' g)) ∧
    (∀ alpha, EAS.Spec.TurnedEAS Q (transformationMatrix2 R) u u' alpha (transposedQuad X g) (transposedQuad X' g)) ∧
    (∀ {m : Nat} (entries : List (Fin 3 × Fin m × ((Fin 2 → ℝ) → ℝ))),
      AssumedStress.Spec.TurnedAS Q (transformationMatrix2 R) u u' (stressQuad entries X g) (stressQuad entries X' g)) := by
  have hR := ht.orthR
  have hX := quadPoint_isoparametric X g hg
  have hX0 := quadPoint_isoparametric X (EAS.center, g.2) h0
  have hgreen := green_turned EAS.plane_isVoigt (plane_turn R) ht hX
  obtain ⟨a, ha⟩ := ht.mesh
  refine ⟨fun entries alpha => ?_, fun alpha => ?_, fun entries => ⟨?_, ?_⟩⟩
  · unfold greenQuad
    rw [ha, quadPoint_turn hR, quadGeometry_turn]
    exact EAS.additive_turned hgreen (EAS.ansatz2_turn hR _ _ _)
  · unfold transposedQuad
    have := EAS.displacementGradientTransposed_turned (alpha := alpha) EAS.plane_isVoigt (plane_turn R) EAS.plane_isVal ht hX hX0
      (EAS.ansatzH_turn hR EAS.h4 (quadGeometry X) g.1) (quadPoint X g).detJ g.2
    rw [ha, quadPoint_turn hR, quadPoint_turn hR, quadGeometry_turn]
    exact this
  · unfold stressQuad
    rw [ha, quadPoint_turn hR]
    exact hgreen
  · unfold stressQuad
    rw [ha, quadGeometry_turn]
    exact AssumedStress.stressAnsatz_turn.1 hR _ _ _

/-- C115, quadrilaterals. If corners and deformed shape are turned alike, also the linear strains with the modes of any variant
and the displacement gradient are turned. -/
theorem quad_turned_alike {X X' u u' : NodeVec 4 2} (ht : Turned Q Q X X' u u') {g : (Fin 2 → ℝ) × ℝ}
    (hg : ((quadGeometry X).jacobianTransposed g.1).det ≠ 0) :
    (∀ {m : Nat} (entries : List (Fin 3 × Fin m × ((Fin 2 → ℝ) → ℝ))) alpha,
      EAS.Spec.TurnedEAS Q (transformationMatrix2 Q) u u' alpha (linearQuad entries X g) (linearQuad entries X' g)) ∧
    (∀ alpha, EAS.Spec.TurnedEAS Q (transformationMatrix2 Q) u u' alpha (gradientQuad X g) (gradientQuad X' g)) := by
  have hX := quadPoint_isoparametric X g hg
  obtain ⟨c, hc⟩ := turned_both ht
  have hlin : TurnedLinear Q (transformationMatrix2 Q) u u' (linearAt (quadPoint X g)) (linearAt (turnedPoint Q (quadPoint X g))) := by
    rw [hc]
    exact linear_turned EAS.plane_isVoigt (plane_turn Q) ht.orthQ c hX.unity ⟨rfl, rfl, fun _ => rfl⟩ ⟨rfl, rfl, fun _ => rfl⟩
  have hgrad : ∀ alpha, _ := fun alpha => EAS.displacementGradient_turned (alpha := alpha) EAS.plane_isVoigt (plane_turn Q) ht hX
    (EAS.ansatzH_turn ht.orthQ EAS.h4 (quadGeometry X) g.1) (quadPoint X g).detJ g.2
  obtain ⟨a, ha⟩ := ht.mesh
  refine ⟨fun entries alpha => ?_, fun alpha => ?_⟩
  · unfold linearQuad
    rw [ha, quadPoint_turn ht.orthQ, quadGeometry_turn]
    exact EAS.additive_turned (linear_toPoint hlin) (EAS.ansatz2_turn ht.orthQ _ _ _)
  · unfold gradientQuad
    rw [ha, quadPoint_turn ht.orthQ, quadGeometry_turn]
    exact hgrad alpha

/-- The claim that it is sufficient for the displacement gradient to turn the deformed shape. -/
def Spec.GradientFollows : Prop :=
  ∀ (Q : Matrix (Fin 2) (Fin 2) ℝ) (X u u' : NodeVec 4 2) (g : (Fin 2 → ℝ) × ℝ) alpha, Turned 1 Q X X u u' →
    ((quadGeometry X).jacobianTransposed g.1).det ≠ 0 →
    (gradientQuad X g).strain u' alpha = (gradientQuad X g).strain u alpha

/-- C115, refutation. With the modes `H4` on the unit square a half turn of the deformed shape changes the strain of
`DisplacementGradient`, at every point off the middle line. -/
theorem gradient_not_follows : ¬ Spec.GradientFollows := by
  intro h
  have hQ : (-1 : Matrix (Fin 2) (Fin 2) ℝ)ᵀ * (-1) = 1 := by simp
  have hJ : ∀ p, (quadGeometry Spec.square).jacobianTransposed p = 1 := fun p => by
    ext i j
    fin_cases i <;> fin_cases j <;> simp [quadGeometry, Spec.square, Spec.bilinear, Fin.sum_univ_four]
  have ht := (turned_motions hQ 0 0 Spec.square 0).2
  have h := h _ _ _ _ (![1, 0], 1) ![1, 0, 0, 0] ht (by rw [hJ]; simp)
  have hX := quadPoint_isoparametric Spec.square (![1, 0], 1) (by rw [hJ]; simp)
  have e := gradient_turn ht hX
  simp only [Matrix.one_mulVec, Matrix.transpose_one, Matrix.mul_one] at e
  have e0 : EAS.gradient (quadPoint Spec.square (![1, 0], 1)).dN 0 = 0 := by
    ext i j; simp [EAS.gradient]
  have e' : EAS.gradient (quadPoint Spec.square (![1, 0], 1)).dN (affine 0 (-1) (Spec.square + 0) - Spec.square) = !![-2, 0; 0, -2] := by
    have e1 : 1 + EAS.gradient (quadPoint Spec.square (![1, 0], 1)).dN (affine 0 (-1) (Spec.square + 0) - Spec.square) =
        -1 * (1 + EAS.gradient (quadPoint Spec.square (![1, 0], 1)).dN 0) := e
    rw [eq_sub_of_add_eq' e1, e0]
    ext i j
    fin_cases i <;> fin_cases j <;> norm_num
  have hs : EAS.sumModes (EAS.ansatzH EAS.h4 (quadGeometry Spec.square) ![1, 0]) ![1, 0, 0, 0] = !![1, 0; 0, 0] := by
    rw [EAS.sumModes_eq]
    simp only [EAS.ansatzH, EAS.transformDisplacementGradient, EAS.Geometry.integrationElement, hJ, Fin.sum_univ_four]
    ext i j
    fin_cases i <;> fin_cases j <;> simp [EAS.h4]; norm_num
  have h : EAS.plane.greenLagrange (_ + _) = EAS.plane.greenLagrange (_ + _) := h
  rw [e', e0, hs] at h
  have h1 := congrFun h 0
  simp [EAS.plane, EAS.greenLagrange2, toVoigt2, Matrix.mul_apply, Fin.sum_univ_two] at h1
  norm_num at h1

/-! ### Examples -/

/-- The trapezoid. -/
theorem trapezoid_center : ((quadGeometry trapezoidCorners).jacobianTransposed EAS.center).det ≠ 0 := by
  simp [Matrix.det_fin_two, quadGeometry, Fin.sum_univ_four, Spec.bilinear, trapezoidCorners, EAS.center]
  norm_num

theorem trapezoid_turned {m : Nat} (entries : List (Fin 3 × Fin m × ((Fin 2 → ℝ) → ℝ))) (u : NodeVec 4 2) (alpha : Fin m → ℝ) :
    List.Forall₂ (EAS.Spec.TurnedEAS Spec.turn345 (transformationMatrix2 Spec.turn345) u (turn Spec.turn345 u) alpha)
      (trapezoidRule.map (greenQuad entries trapezoidCorners))
      (trapezoidRule.map (greenQuad entries (affine ![1, 2] Spec.turn345 trapezoidCorners))) :=
  forall_map _ _ _ fun g hg => (quad_turned (turned_motions turn345_orth ![1, 2] 0 trapezoidCorners u).1 (trapezoid_det g hg).ne'
    trapezoid_center).1 entries alpha

/-- With St. Venant-Kirchhoff material and the seven modes `E7`, at any displacements and internal variables. -/
example (p : SVK ℝ) (msqrt : M3 → M3) (u : NodeVec 4 2) (alpha : Fin 7 → ℝ) :=
  EAS.eas_turn (law := planeStrainLaw msqrt (svk p)) (law' := planeStrainLaw msqrt (svk p)) turn345_orth
    ⟨(planeStrain_contract msqrt (ownContract_of_law (svk_law p)) (svk_scale p)).1, fun gp hgp => by
      obtain ⟨g, hg, rfl⟩ := List.mem_map.1 hgp
      exact EAS.additive_contract _ _ _ _ (greenPoint_contract _ EAS.plane_isVoigt _ _), fun _ _ => ⟨_, trivial, by simp [svk, transformStrain]; rfl⟩⟩
    (trapezoid_turned EAS.e7 u alpha) fun gp _ => (svk_turn msqrt p).2 _ turn345_orth _

/-- The same element, only its deformed shape is turned, with the transposed displacement gradient. -/
example (u : NodeVec 4 2) (alpha : Fin 4 → ℝ) (g : (Fin 2 → ℝ) × ℝ) (hg : g ∈ trapezoidRule) :=
  (quad_turned (turned_motions turn345_orth 0 ![1, 2] trapezoidCorners u).2 (trapezoid_det g hg).ne' trapezoid_center).2.1 alpha

/-- Linear strains and displacement gradient. -/
example (u : NodeVec 4 2) (g : (Fin 2 → ℝ) × ℝ) (hg : g ∈ trapezoidRule) :=
  quad_turned_alike (turned_motions turn345_orth ![1, 2] 0 trapezoidCorners u).1 (trapezoid_det g hg).ne'

/-- The trapezoid with assumed stresses `S5` and an isotropic linear material, after it was initialised, and its updates. -/
example (p : SVK ℝ) (u : NodeVec 4 2) :=
  let C : Matrix (Fin 3) (Fin 3) ℝ := Matrix.of fun i j => p.moduliVoigt (planeFree i) (planeFree j)
  let gps : Fin trapezoidRule.length → AssumedStress.ASPoint 4 2 3 5 := fun i =>
    stressQuad AssumedStress.s5 trapezoidCorners (trapezoidRule.get i)
  let gps' : Fin trapezoidRule.length → AssumedStress.ASPoint 4 2 3 5 := fun i =>
    stressQuad AssumedStress.s5 (affine ![1, 2] Spec.turn345 trapezoidCorners) (trapezoidRule.get i)
  have h : ∀ i, AssumedStress.Spec.TurnedAS Spec.turn345 (transformationMatrix2 Spec.turn345) u (turn Spec.turn345 u) (gps i) (gps' i) :=
    fun i => (quad_turned (turned_motions turn345_orth ![1, 2] 0 trapezoidCorners u).1
      (trapezoid_det _ (List.get_mem _ i)).ne' trapezoid_center).2.2 AssumedStress.s5
  have hinv : AssumedStress.Spec.TurnedInversion (transformationMatrix2 Spec.turn345) (fun S _ => (C⁻¹, C⁻¹ *ᵥ S))
      (fun S _ => (C⁻¹, C⁻¹ *ᵥ S)) :=
    AssumedStress.linear_inversion_turn ((Matrix.isUnit_iff_isUnit_det _).1 (((transformation_invertible (K := ℝ) two_ne_zero).1 _).2
      (IsUnit.of_mul_eq_one_right _ turn345_orth))) ((linear_moduli_turn p).2.1 _ turn345_orth)
  And.intro (AssumedStress.assumedStress_turn turn345_orth h
    (st := AssumedStress.initializeState (fun S _ => (C⁻¹, C⁻¹ *ᵥ S)) gps 0)
    (st' := AssumedStress.initializeState (fun S _ => (C⁻¹, C⁻¹ *ᵥ S)) gps' fun _ => transformationMatrix2 Spec.turn345 *ᵥ 0)
    (AssumedStress.inversion_turn hinv (fun i => (h i).P) rfl fun _ => rfl)) hinv

/-- The trapezoid with one pressure; the deformed shape alone is turned. -/
example (p q : SVK ℝ) (u : NodeVec 4 2) (ph : Fin 1 → ℝ) :=
  DisplacementPressure.displacementPressure_turn (Q := Spec.turn345) (T := 1) (p := ph) (u := u)
    (u' := affine ![1, 2] Spec.turn345 (trapezoidCorners + u) - trapezoidCorners)
    (c := ⟨planeStrainLaw id (svk p), planeStrainLaw id (svk q), 5⟩) (c' := ⟨planeStrainLaw id (svk p), planeStrainLaw id (svk q), 5⟩) rfl
    (forall_map trapezoidRule
      (fun g => (⟨Ikarus.Spec.greenPoint EAS.plane (quadPoint trapezoidCorners g), fun _ => 1⟩ : DisplacementPressure.DPPoint 4 1 2 3))
      (fun g => (⟨Ikarus.Spec.greenPoint EAS.plane (turnedPoint 1 (quadPoint trapezoidCorners g)), fun _ => 1⟩ :
        DisplacementPressure.DPPoint 4 1 2 3))
      fun g hg => ⟨green_turned EAS.plane_isVoigt (plane_one ▸ plane_turn 1) (turned_motions turn345_orth 0 ![1, 2] trapezoidCorners u).2
        (quadPoint_isoparametric _ g (trapezoid_det g hg).ne'), rfl⟩)
    fun _ _ => ⟨turnedLaw_one _ _, turnedLaw_one _ _⟩

end Ikarus.Element
