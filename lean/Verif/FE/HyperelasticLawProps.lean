import Verif.FE.HyperelasticLawModel
import Verif.FE.MaterialLawProps
import Verif.Material.HyperelasticPathProps

/-!
C109: solid elements of hyperelastic materials.
-/

namespace Ikarus.Element

open Matrix AutoDiffMat VanishingStress Result Ikarus.Spec Ikarus.Element.Spec
open scoped Topology

variable {n : Nat}

/-! ### Specification -/

/-- The right Cauchy-Green tensor for a displacement gradient in space. -/
def Spec.spaceC (H : Matrix (Fin 3) (Fin 3) ℝ) : M3 := (1 + H)ᵀ * (1 + H)

/-- The right Cauchy-Green tensor in space for a displacement gradient in the plane. -/
def Spec.planeC (H : Matrix (Fin 2) (Fin 2) ℝ) : M3 :=
  Spec.spaceC !![H 0 0, H 0 1, 0; H 1 0, H 1 1, 0; 0, 0, 0]

/-- The material has moduli at `C`, and its principal stretches are equal or further apart than the tolerance. -/
def Spec.Separated (h : Hyperelastic) (epsEq : ℝ) (C : M3) : Prop :=
  ∀ l N, HasStretches C l N → IsHessian h.dev l ∧ ∀ i j, l i = l j ∨ ¬ floatCmpEq epsEq (l i) (l j)

/-! ### Lemmas -/

section

variable (h : Hyperelastic) (hf : IsotropicFun h.dev) (hv : AdmissibleVF h.vol.vf) {solver : EigenSolver}
  (hs : CorrectSolver solver) {eps epsEq : ℝ} (he : eps < 1)

include hf hv hs he in
theorem hyperelastic_own (heq : 0 ≤ epsEq) : OwnContract (hyperelasticMat h solver eps epsEq)
    {C | (∃ l N, HasStretches C l N) ∧ SmoothDev h.dev C ∧ Separated h epsEq C} := by
  have hmot : ∀ {A : M3}, A.IsSymm → Motion (fun s => A + s • (0 : M3)) 0 0 := fun hA => motion_line hA (by simp [IsSymm])
  have hA0 : ∀ A : M3, A + (0 : ℝ) • (0 : M3) = A := fun A => by simp
  refine ⟨two_ne_zero, fun A hA hs' => ?_, fun A hA hs' => ?_, fun A hA hs' => ?_, fun C dC t S hC hsym hd hA hS => ?_,
    fun C dC t L hC hsym hd hA hM => ?_⟩
  · obtain ⟨⟨l, N, hst⟩, hsm, -⟩ := hA
    obtain ⟨W, hW, -⟩ := hyperelastic_stress_any_motion h hf hv hs he (hmot hs') (by simp only [hA0]; exact hst)
      (by simp only [hA0]; exact hsm)
    have := hW.self_of_nhds
    rw [hA0] at this
    exact ⟨_, this⟩
  · obtain ⟨⟨l, N, hst⟩, hsm, -⟩ := hA
    obtain ⟨W, -, S, hS, hsy, -⟩ := hyperelastic_stress_any_motion h hf hv hs he (hmot hs') (by simp only [hA0]; exact hst)
      (by simp only [hA0]; exact hsm)
    rw [hA0] at hS
    exact ⟨S, hS, hsy⟩
  · obtain ⟨⟨l, N, hst⟩, hsm, hsep⟩ := hA
    obtain ⟨-, -, M, hM, -, hmin, hmaj⟩ := hyperelastic_moduli_any_motion h hf hv hs he heq (hmot hs')
      (by simp only [hA0]; exact hst) (by simp only [hA0]; exact hsm) (hsep l N hst).1 (hsep l N hst).2
    rw [hA0] at hM
    exact ⟨M, hM, hmin, hmaj⟩
  · obtain ⟨⟨l, N, hst⟩, hsm, -⟩ := hA
    obtain ⟨W, hW, S', hS', -, hder⟩ := hyperelastic_stress_any_motion h hf hv hs he
      ⟨Filter.Eventually.of_forall hsym, hC⟩ hst hsm
    obtain rfl := Option.some.inj (hS.symm.trans hS')
    refine hder.congr_of_eventuallyEq ?_
    filter_upwards [hW] with s h1
    show (h.storedEnergy solver eps (C s)).getD 0 = _
    rw [h1]
    rfl
  · obtain ⟨⟨l, N, hst⟩, hsm, hsep⟩ := hA
    obtain ⟨S, hS, M', hM', hder, -⟩ := hyperelastic_moduli_any_motion h hf hv hs he heq
      ⟨Filter.Eventually.of_forall hsym, hC⟩ hst hsm (hsep l N hst).1 (hsep l N hst).2
    obtain rfl := Option.some.inj (hM.symm.trans hM')
    intro i j
    refine (hder i j).congr_of_eventuallyEq ?_
    filter_upwards [hS] with s h1
    show ((h.stresses solver eps (C s)).getD 0) i j = _
    rw [h1]
    rfl

open Classical in
/-- The material with the derivative of the stresses as moduli. -/
noncomputable def exactMat (solver : EigenSolver) (eps epsEq : ℝ) : Mat :=
  { hyperelasticMat h solver eps epsEq with
    moduli := fun C => if hM : ∃ M : Tensor4 ℝ 3, MinorSymmetric M ∧ (∀ i j k l, M i j k l = M k l i j) ∧
      ∀ P dC t, Motion P dC t → P t = C → ∃ S : ℝ → M3, (∀ᶠ s in 𝓝 t, h.stresses solver eps (P s) = some (S s)) ∧
        HasMatDeriv S (contract M ((1 / 2 : ℝ) • dC)) t then some hM.choose else none }

include hf hv hs he in
theorem exact_own : OwnContract (exactMat h solver eps epsEq) {C | (∃ l N, HasStretches C l N) ∧ SmoothDev h.dev C} := by
  have hmot : ∀ {A : M3}, A.IsSymm → Motion (fun s => A + s • (0 : M3)) 0 0 := fun hA => motion_line hA (by simp [IsSymm])
  have hA0 : ∀ A : M3, A + (0 : ℝ) • (0 : M3) = A := fun A => by simp
  refine ⟨two_ne_zero, fun A hA hs' => ?_, fun A hA hs' => ?_, fun A hA hs' => ?_, fun C dC t S hC hsym hd hA hS => ?_,
    fun C dC t L hC hsym hd hA hM => ?_⟩
  · obtain ⟨⟨l, N, hst⟩, hsm⟩ := hA
    obtain ⟨W, hW, -⟩ := hyperelastic_stress_any_motion h hf hv hs he (hmot hs') (by simp only [hA0]; exact hst)
      (by simp only [hA0]; exact hsm)
    have := hW.self_of_nhds
    rw [hA0] at this
    exact ⟨_, this⟩
  · obtain ⟨⟨l, N, hst⟩, hsm⟩ := hA
    obtain ⟨W, -, S, hS, hsy, -⟩ := hyperelastic_stress_any_motion h hf hv hs he (hmot hs') (by simp only [hA0]; exact hst)
      (by simp only [hA0]; exact hsm)
    rw [hA0] at hS
    exact ⟨S, hS, hsy⟩
  · obtain ⟨⟨l, N, hst⟩, hsm⟩ := hA
    have hM := hyperelastic_stress_differentiable h hf hv hs he hst hsm
    exact ⟨hM.choose, dif_pos hM, hM.choose_spec.1, hM.choose_spec.2.1⟩
  · obtain ⟨⟨l, N, hst⟩, hsm⟩ := hA
    obtain ⟨W, hW, S', hS', -, hder⟩ := hyperelastic_stress_any_motion h hf hv hs he
      ⟨Filter.Eventually.of_forall hsym, hC⟩ hst hsm
    obtain rfl := Option.some.inj (hS.symm.trans hS')
    refine hder.congr_of_eventuallyEq ?_
    filter_upwards [hW] with s h1
    show (h.storedEnergy solver eps (C s)).getD 0 = _
    rw [h1]
    rfl
  · obtain ⟨⟨l, N, hst⟩, hsm⟩ := hA
    have hex := hyperelastic_stress_differentiable h hf hv hs he hst hsm
    have hL : some hex.choose = some L := (dif_pos hex).symm.trans hM
    obtain rfl := Option.some.inj hL
    obtain ⟨S, hS, hder⟩ := hex.choose_spec.2.2 C dC t ⟨Filter.Eventually.of_forall hsym, hC⟩ rfl
    intro i j
    refine (hder i j).congr_of_eventuallyEq ?_
    filter_upwards [hS] with s h1
    show ((h.stresses solver eps (C s)).getD 0) i j = _
    rw [h1]
    rfl

end

theorem spaceC_stretches {H : Matrix (Fin 3) (Fin 3) ℝ} (hH : (1 + H).det ≠ 0) : ∃ l N, HasStretches (spaceC H) l N := by
  refine hyperelastic_hypotheses.2 _ ?_
  have hu : IsUnit (1 + H) := (Matrix.isUnit_iff_isUnit_det _).2 (isUnit_iff_ne_zero.2 hH)
  have := Matrix.PosDef.conjTranspose_mul_self (1 + H) (Matrix.mulVec_injective_of_isUnit hu)
  rwa [conjTranspose_eq_transpose_of_trivial] at this

theorem planeC_stretches {H : Matrix (Fin 2) (Fin 2) ℝ} (hH : (1 + H).det ≠ 0) : ∃ l N, HasStretches (planeC H) l N := by
  refine spaceC_stretches ?_
  rw [Matrix.det_fin_two] at hH
  rw [Matrix.det_fin_three]
  simpa [Matrix.one_apply] using hH

theorem plane_cauchyGreen (H : Matrix (Fin 2) (Fin 2) ℝ) :
    (2 : ℝ) • fromVoigt3 (enlargeVector planeFree (EAS.greenLagrange2 H)) true + 1 = planeC H := by
  rw [fromVoigt_plane]
  ext i j
  fin_cases i <;> fin_cases j <;>
    simp [planeC, spaceC, EAS.greenLagrange2, toVoigt2, strainFactor, Matrix.mul_apply, Fin.sum_univ_two, Fin.sum_univ_three,
      Matrix.one_apply] <;> ring

/-! ### Elements -/

theorem hyperelastic_scale (h : Hyperelastic) (solver : EigenSolver) (eps epsEq : ℝ) :
    AutoDiffMat.Spec.scale .greenLagrangian (hyperelasticMat h solver eps epsEq).strainTag =
      some (hyperelasticMat h solver eps epsEq).derivativeFactor := by
  simp [AutoDiffMat.Spec.scale, hyperelasticMat]

/-- C109, elements. With a hyperelastic material the forces of an element in space and in plane strain are the gradient of its
energy for every displacement whose deformation gradient is invertible at the integration points and admissible for the
material; its matrix is the symmetric derivative of the forces if there the principal stretches are equal or further apart than
the tolerance. -/
theorem hyperelastic_elements (msqrt : M3 → M3) (h : Hyperelastic) (hf : IsotropicFun h.dev) (hv : AdmissibleVF h.vol.vf)
    {solver : EigenSolver} (hs : CorrectSolver solver) {eps epsEq : ℝ} (he : eps < 1) (heq : 0 ≤ epsEq) :
    (∀ (ps : List (GradientPoint n 3)) (u : NodeVec n 3),
      (∀ g ∈ ps, (1 + EAS.gradient g.dN u).det ≠ 0 ∧ SmoothDev h.dev (spaceC (EAS.gradient g.dN u))) →
      GradientAt (NonLinearElastic.calculateScalar false (spaceLaw msqrt (hyperelasticMat h solver eps epsEq))
          (ps.map (Ikarus.Spec.greenPoint EAS.space)))
        (NonLinearElastic.calculateVector false (spaceLaw msqrt (hyperelasticMat h solver eps epsEq))
          (ps.map (Ikarus.Spec.greenPoint EAS.space)) u 0) u ∧
      ((∀ g ∈ ps, Separated h epsEq (spaceC (EAS.gradient g.dN u))) →
        ConsistentAt (spaceLaw msqrt (hyperelasticMat h solver eps epsEq)) (ps.map (Ikarus.Spec.greenPoint EAS.space)) u)) ∧
    ∀ (ps : List (GradientPoint n 2)) (u : NodeVec n 2),
      (∀ g ∈ ps, (1 + EAS.gradient g.dN u).det ≠ 0 ∧ SmoothDev h.dev (planeC (EAS.gradient g.dN u))) →
      GradientAt (NonLinearElastic.calculateScalar false (planeStrainLaw msqrt (hyperelasticMat h solver eps epsEq))
          (ps.map (Ikarus.Spec.greenPoint EAS.plane)))
        (NonLinearElastic.calculateVector false (planeStrainLaw msqrt (hyperelasticMat h solver eps epsEq))
          (ps.map (Ikarus.Spec.greenPoint EAS.plane)) u 0) u ∧
      ((∀ g ∈ ps, Separated h epsEq (planeC (EAS.gradient g.dN u))) →
        ConsistentAt (planeStrainLaw msqrt (hyperelasticMat h solver eps epsEq)) (ps.map (Ikarus.Spec.greenPoint EAS.plane)) u) := by
  have ht : ∀ E : M3, transformStrain msqrt .greenLagrangian (hyperelasticMat h solver eps epsEq).strainTag E = some ((2 : ℝ) • E + 1) :=
    fun E => by simp [hyperelasticMat, transformStrain, createRightCauchyGreen]
  have hspace : ∀ g : GradientPoint n 3, ∀ u, (2 : ℝ) • fromVoigt3 ((Ikarus.Spec.greenPoint EAS.space g).strain u) true + 1 =
      spaceC (EAS.gradient g.dN u) := fun g u => space_cauchyGreen _
  have hplane : ∀ g : GradientPoint n 2, ∀ u, (2 : ℝ) • fromVoigt3 (enlargeVector planeFree
      ((Ikarus.Spec.greenPoint EAS.plane g).strain u)) true + 1 = planeC (EAS.gradient g.dN u) := fun g u => plane_cauchyGreen _
  have ho := hyperelastic_own h hf hv hs he heq
  have hx := exact_own h hf hv hs he (epsEq := epsEq)
  have hk := hyperelastic_scale h solver eps epsEq
  refine ⟨fun ps u hu => ⟨?_, fun hsep => ?_⟩, fun ps u hu => ⟨?_, fun hsep => ?_⟩⟩
  · have hc := consistentAt (space_contract msqrt hx hk).1 EAS.space_isVoigt ps u fun g hg => ⟨_, ?_, ht _⟩
    · exact hc.gradient
    · rw [hspace]
      exact ⟨spaceC_stretches (hu g hg).1, (hu g hg).2⟩
  · refine consistentAt (space_contract msqrt ho hk).1 EAS.space_isVoigt ps u fun g hg => ⟨_, ?_, ht _⟩
    rw [hspace]
    exact ⟨spaceC_stretches (hu g hg).1, (hu g hg).2, hsep g hg⟩
  · have hc := consistentAt (planeStrain_contract msqrt hx hk).1 EAS.plane_isVoigt ps u fun g hg => ⟨_, ?_, ht _⟩
    · exact hc.gradient
    · rw [← plane_argument, hplane]
      exact ⟨planeC_stretches (hu g hg).1, (hu g hg).2⟩
  · refine consistentAt (planeStrain_contract msqrt ho hk).1 EAS.plane_isVoigt ps u fun g hg => ⟨_, ?_, ht _⟩
    rw [← plane_argument, hplane]
    exact ⟨planeC_stretches (hu g hg).1, (hu g hg).2, hsep g hg⟩

/-- A tetrahedron of the material of Blatz and Ko, sheared: the forces are the gradient. Undeformed also the matrix is the
derivative of the forces. -/
example (msqrt : M3 → M3) : ∃ solver, CorrectSolver solver ∧
    GradientAt (NonLinearElastic.calculateScalar false (spaceLaw msqrt (hyperelasticMat ⟨blatzKo 1, ⟨1, .f1⟩⟩ solver 0 1))
        ([(⟨1, 1, ![1 / 4, 1 / 4, 1 / 4], ![![-1, -1, -1], ![1, 0, 0], ![0, 1, 0], ![0, 0, 1]]⟩ : GradientPoint 4 3)].map
          (Ikarus.Spec.greenPoint EAS.space)))
      (NonLinearElastic.calculateVector false (spaceLaw msqrt (hyperelasticMat ⟨blatzKo 1, ⟨1, .f1⟩⟩ solver 0 1))
        ([(⟨1, 1, ![1 / 4, 1 / 4, 1 / 4], ![![-1, -1, -1], ![1, 0, 0], ![0, 1, 0], ![0, 0, 1]]⟩ : GradientPoint 4 3)].map
          (Ikarus.Spec.greenPoint EAS.space)) ![0, 0, ![1 / 2, 0, 0], 0] 0) ![0, 0, ![1 / 2, 0, 0], 0] ∧
    ConsistentAt (spaceLaw msqrt (hyperelasticMat ⟨blatzKo 1, ⟨1, .f1⟩⟩ solver 0 1))
      ([(⟨1, 1, ![1 / 4, 1 / 4, 1 / 4], ![![-1, -1, -1], ![1, 0, 0], ![0, 1, 0], ![0, 0, 1]]⟩ : GradientPoint 4 3)].map
        (Ikarus.Spec.greenPoint EAS.space)) 0 := by
  obtain ⟨solver, hs⟩ := hyperelastic_hypotheses.1
  have hE := hyperelastic_elements (n := 4) msqrt ⟨blatzKo 1, ⟨1, .f1⟩⟩ (library_isotropic.2.1 1) trivial hs
    (eps := 0) (epsEq := 1) one_pos zero_le_one
  refine ⟨solver, hs, (hE.1 _ _ fun g hg => ?_).1, (hE.1 _ _ fun g hg => ?_).2 fun g hg => ?_⟩
  · obtain rfl := List.mem_singleton.1 hg
    have hd : (1 + EAS.gradient ![![-1, -1, -1], ![1, 0, 0], ![0, 1, 0], ![0, 0, 1]]
        (![0, 0, ![1 / 2, 0, 0], 0] : NodeVec 4 3)).det ≠ 0 := by
      simp [Matrix.det_fin_three, EAS.gradient, Fin.sum_univ_four]
    obtain ⟨l, N, hst⟩ := spaceC_stretches hd
    exact ⟨hd, (library_smooth hst).2.1 1⟩
  · obtain rfl := List.mem_singleton.1 hg
    have hd : (1 + EAS.gradient ![![-1, -1, -1], ![1, 0, 0], ![0, 1, 0], ![0, 0, 1]] (0 : NodeVec 4 3)).det ≠ 0 := by
      simp [Matrix.det_fin_three, EAS.gradient, Fin.sum_univ_four]
    obtain ⟨l, N, hst⟩ := spaceC_stretches hd
    exact ⟨hd, (library_smooth hst).2.1 1⟩
  · obtain rfl := List.mem_singleton.1 hg
    intro l N hst
    have h1 : spaceC (EAS.gradient ![![-1, -1, -1], ![1, 0, 0], ![0, 1, 0], ![0, 0, 1]] (0 : NodeVec 4 3)) = 1 := by
      ext i j
      fin_cases i <;> fin_cases j <;>
        simp [spaceC, EAS.gradient, Fin.sum_univ_four, Matrix.mul_apply, Fin.sum_univ_three, Matrix.one_apply]
    refine ⟨(blatzKo_derivatives 1 l hst.1).2.1, fun i j => Or.inl ?_⟩
    have hst' := hst
    rw [h1] at hst'
    have e : diagonal (fun a => l a ^ 2) = (1 : M3) := by
      have := congrArg (fun X => Nᵀ * X * N) hst'.2.decomp
      simp only [Matrix.mul_one] at this
      rw [hst'.2.orth] at this
      rw [this, Matrix.mul_assoc, Matrix.mul_assoc, Matrix.mul_assoc, hst'.2.orth, Matrix.mul_one, ← Matrix.mul_assoc,
        hst'.2.orth, Matrix.one_mul]
    have e' : ∀ a, l a = 1 := fun a => by
      have := congrFun (congrFun e a) a
      rw [diagonal_apply_eq, one_apply_eq] at this
      exact (pow_eq_one_iff_of_nonneg (hst.1 a).le two_ne_zero).1 this
    rw [e', e']

end Ikarus.Element
