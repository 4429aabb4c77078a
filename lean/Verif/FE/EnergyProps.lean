import Verif.FE.LoadProps
import Verif.FE.ShellProps
import Verif.FE.DisplacementPressureProps

/-!
C47, C67, C69, C70, C71: the scalars of the elements are the integrals of their energy densities with the quadrature rule
they are given, and the shell is free of stress in its reference configuration.
-/

namespace Ikarus.Element

open Matrix

variable {n d q m : Nat}

/-- The quadrature of a density. -/
def Spec.overPoints {P : Type} (detJ weight : P → ℝ) (gps : List P) (f : P → ℝ) : ℝ :=
  (gps.map fun gp => f gp * (detJ gp * weight gp)).sum

theorem overPoints_const {P : Type} (detJ weight : P → ℝ) (gps : List P) (f : P → ℝ) (c : ℝ) (h : ∀ gp ∈ gps, f gp = c) :
    Spec.overPoints detJ weight gps f = Spec.overPoints detJ weight gps (fun _ => 1) * c := by
  unfold Spec.overPoints
  rw [← List.sum_map_mul_right]
  congr 1
  refine List.map_congr_left fun gp hgp => ?_
  rw [h gp hgp]; ring

/-- C47. The scalar of the linear element is the integral of half the product of strain and stress, the vector that of the
stresses times the strains of the nodes; an element with the same strain at all points has its volume times the energy of this
strain. -/
theorem linearElastic_integral (C : Matrix (Fin q) (Fin q) ℝ) (gps : List (LinPoint n d q)) (u : NodeVec n d) :
    LinearElastic.calculateScalar false C gps u = Spec.overPoints LinPoint.detJ LinPoint.weight gps (fun gp =>
      1 / 2 * ∑ k, ∑ l, gp.strain u k * C k l * gp.strain u l) ∧
    (∀ I a, LinearElastic.calculateVector false C gps u 0 I a = Spec.overPoints LinPoint.detJ LinPoint.weight gps (fun gp =>
      ∑ k, ∑ l, gp.bop I k a * (C k l * gp.strain u l))) ∧
    (∀ ε, (∀ gp ∈ gps, gp.strain u = ε) → LinearElastic.calculateScalar false C gps u =
      Spec.overPoints LinPoint.detJ LinPoint.weight gps (fun _ => 1) * (1 / 2 * ∑ k, ∑ l, ε k * C k l * ε l)) := by
  have h1 : LinearElastic.calculateScalar false C gps u = Spec.overPoints LinPoint.detJ LinPoint.weight gps (fun gp =>
      1 / 2 * ∑ k, ∑ l, gp.strain u k * C k l * gp.strain u l) := by
    rw [LinearElastic.calculateScalar_sum]
    unfold Spec.overPoints
    congr 1
    refine List.map_congr_left fun gp _ => ?_
    simp only [LinearElastic.internalEnergy, dotProduct, Matrix.mulVec, Finset.mul_sum]
    rw [mul_assoc]
    congr 1
    norm_num
    refine Finset.sum_congr rfl fun k _ => Finset.sum_congr rfl fun l _ => ?_
    ring
  refine ⟨h1, fun I a => ?_, fun ε hε => ?_⟩
  · rw [LinearElastic.calculateVector_sum, zero_add, list_sum_apply, list_sum_apply]
    unfold Spec.overPoints
    congr 1
    refine List.map_congr_left fun gp _ => ?_
    simp only [LinearElastic.pointForce, LinearElastic.stress, Pi.smul_apply, smul_eq_mul, Matrix.mulVec, dotProduct,
      Matrix.transpose_apply, Finset.mul_sum]
    rw [Finset.sum_mul]
    refine Finset.sum_congr rfl fun k _ => ?_
    rw [Finset.sum_mul]
    exact Finset.sum_congr rfl fun l _ => by ring
  · rw [h1]
    exact overPoints_const _ _ _ _ _ fun gp hgp => by rw [hε gp hgp]

/-- A bar of length two with one integration point, stretched by one: energy 1/4. -/
example : LinearElastic.calculateScalar false (1 : Matrix (Fin 1) (Fin 1) ℝ)
    [(⟨1, 2, ![!![-1 / 2], !![1 / 2]]⟩ : LinPoint 2 1 1)] ![![0], ![1]] = 1 / 4 := by
  rw [(linearElastic_integral _ _ _).1]
  simp [Spec.overPoints, LinPoint.strain, Fin.sum_univ_two]
  norm_num

/-- C67. The scalar of the nonlinear element is the integral of the stored energy, the vector that of the stresses times the
derivatives of the strains; an element with the same strain at all points has its volume times the energy of this strain. -/
theorem nonLinearElastic_integral (law : Law q) (gps : List (Point n d q)) (u : NodeVec n d) :
    NonLinearElastic.calculateScalar false law gps u =
      Spec.overPoints Point.detJ Point.weight gps (fun gp => law.energy (gp.strain u)) ∧
    (∀ I a, NonLinearElastic.calculateVector false law gps u 0 I a =
      Spec.overPoints Point.detJ Point.weight gps (fun gp => ∑ k, gp.bop u I k a * law.stress (gp.strain u) k)) ∧
    (∀ ε, (∀ gp ∈ gps, gp.strain u = ε) → NonLinearElastic.calculateScalar false law gps u =
      Spec.overPoints Point.detJ Point.weight gps (fun _ => 1) * law.energy ε) := by
  have h1 : NonLinearElastic.calculateScalar false law gps u =
      Spec.overPoints Point.detJ Point.weight gps (fun gp => law.energy (gp.strain u)) := by
    rw [NonLinearElastic.calculateScalar_sum]
    unfold Spec.overPoints
    congr 1
    exact List.map_congr_left fun gp _ => by ring
  refine ⟨h1, fun I a => ?_, fun ε hε => ?_⟩
  · rw [NonLinearElastic.calculateVector_sum, zero_add, list_sum_apply, list_sum_apply]
    unfold Spec.overPoints
    congr 1
    refine List.map_congr_left fun gp _ => ?_
    simp only [NonLinearElastic.pointForce, Pi.smul_apply, smul_eq_mul, Matrix.mulVec, dotProduct, Matrix.transpose_apply]
    ring
  · rw [h1]
    exact overPoints_const _ _ _ _ _ fun gp hgp => by rw [hε gp hgp]

/-- C69. The scalar of a volume load is minus the integral of displacement times load, its vector minus that of load times
shape function. -/
theorem volumeLoad_integral (f : LoadFunction d) (gps : List (LoadPoint n d)) (lambda : ℝ) (u : NodeVec n d) :
    VolumeLoad.calculateScalar (some f) gps lambda u = -Spec.overPoints LoadPoint.detJ LoadPoint.weight gps (fun gp =>
      ∑ a, (∑ I, gp.N I * u I a) * f gp.x lambda a) ∧
    ∀ I a, VolumeLoad.calculateVector (some f) gps lambda 0 I a =
      -Spec.overPoints LoadPoint.detJ LoadPoint.weight gps (fun gp => gp.N I * f gp.x lambda a) := by
  unfold Spec.overPoints
  constructor
  · rw [VolumeLoad.calculateScalar_sum, list_sum_neg]
    congr 1
    refine List.map_congr_left fun gp _ => ?_
    simp only [LoadPoint.displacement, dotProduct, Finset.sum_apply, Pi.smul_apply, smul_eq_mul]
    ring
  · intro I a
    rw [VolumeLoad.calculateVector_sum, zero_add, list_sum_apply, list_sum_apply, list_sum_neg]
    congr 1
    refine List.map_congr_left fun gp _ => ?_
    rw [VolumeLoad.pointForce_apply]
    ring

/-- C71. The scalar of the displacement-pressure element is the integral of the deviatoric energy plus pressure times the
volumetric one minus the square of the pressure divided by twice the bulk modulus. -/
theorem displacementPressure_integral (c : DisplacementPressure.Driver q) (gps : List (DisplacementPressure.DPPoint n m d q))
    (u : NodeVec n d) (p : Fin m → ℝ) :
    DisplacementPressure.calculateScalar c gps u p =
      Spec.overPoints (fun gp : DisplacementPressure.DPPoint n m d q => gp.detJ)
        (fun gp : DisplacementPressure.DPPoint n m d q => gp.weight) gps (fun gp =>
        c.dev.energy (gp.strain u) + (∑ j, gp.Np j * p j) * c.vol.energy (gp.strain u) -
          (∑ j, gp.Np j * p j) ^ 2 / (2 * c.kappa)) := by
  rw [DisplacementPressure.calculateScalar_sum]
  unfold Spec.overPoints
  congr 1
  refine List.map_congr_left fun gp _ => ?_
  simp only [DisplacementPressure.Driver.storedEnergy, DisplacementPressure.DPPoint.pressure,
    DisplacementPressure.Driver.Uhat]
  norm_num
  ring

namespace Shell

variable {emodul nu thickness : ℝ}

/-- C70. The director points to the side given by the tangent vectors in their order. -/
theorem shell_orientation (p : ShellPoint n) (u : NodeVec n 3) (h : Spec.Regular p u) :
    0 < (Matrix.of ![p.J 0 + ∑ I, p.dN I 0 • u I, p.J 1 + ∑ I, p.dN I 1 • u I, a3 p u]).det := by
  have hr : 0 < norm (a3N p u) := Real.sqrt_pos.2 h
  have e : (Matrix.of ![p.J 0 + ∑ I, p.dN I 0 • u I, p.J 1 + ∑ I, p.dN I 1 • u I, a3 p u]).det =
      (norm (a3N p u))⁻¹ * (a3N p u ⬝ᵥ a3N p u) := by
    rw [show a3 p u = normalized (a3N p u) from rfl, normalized_eq,
      show p.J 0 + ∑ I, p.dN I 0 • u I = jcur p u 0 from rfl, show p.J 1 + ∑ I, p.dN I 1 • u I = jcur p u 1 from rfl]
    unfold a3N
    rw [Matrix.det_fin_three]
    simp [cross_apply, dotProduct, Fin.sum_univ_three]
    ring
  rw [e]
  exact mul_pos (inv_pos.2 hr) h

/-- The second fundamental form of the reference surface in Voigt notation: the components of its second derivatives along
the unit normal, the mixed one twice. -/
def Spec.ReferenceCurvature (p : ShellPoint n) : Prop :=
  ∃ N : Fin 3 → ℝ, N ⬝ᵥ N = 1 ∧ N ⬝ᵥ p.J 0 = 0 ∧ N ⬝ᵥ p.J 1 = 0 ∧ 0 < (Matrix.of ![p.J 0, p.J 1, N]).det ∧
    p.BV = ![p.H 0 ⬝ᵥ N, p.H 1 ⬝ᵥ N, 2 * (p.H 2 ⬝ᵥ N)]

/-- A unit vector orthogonal to two others on the side they give in their order. -/
theorem normal_unique (a b N : Fin 3 → ℝ) (h1 : N ⬝ᵥ N = 1) (h2 : N ⬝ᵥ a = 0) (h3 : N ⬝ᵥ b = 0)
    (h4 : 0 < (Matrix.of ![a, b, N]).det) : 0 < (a ⨯₃ b) ⬝ᵥ (a ⨯₃ b) ∧ normalized (a ⨯₃ b) = N := by
  have hdet : (Matrix.of ![a, b, N]).det = (a ⨯₃ b) ⬝ᵥ N := by
    rw [Matrix.det_fin_three]
    simp [cross_apply, dotProduct, Fin.sum_univ_three]
    ring
  rw [hdet] at h4
  -- the cross product is a multiple of the normal
  have hc : a ⨯₃ b = ((a ⨯₃ b) ⬝ᵥ N) • N := by
    have e : N ⨯₃ (a ⨯₃ b) = 0 := by
      have : N ⨯₃ (a ⨯₃ b) = (N ⬝ᵥ b) • a - (N ⬝ᵥ a) • b := by
        funext i
        fin_cases i <;> simp [cross_apply, dotProduct, Fin.sum_univ_three] <;> ring
      rw [this, h2, h3]; simp
    have e2 : (a ⨯₃ b) = ((a ⨯₃ b) ⬝ᵥ N) • N - N ⨯₃ (N ⨯₃ (a ⨯₃ b)) := by
      generalize a ⨯₃ b = c at *
      have hN : N 0 * N 0 + N 1 * N 1 + N 2 * N 2 = 1 := by simpa [dotProduct, Fin.sum_univ_three] using h1
      funext i
      fin_cases i
      · simp [cross_apply, dotProduct, Fin.sum_univ_three]
        linear_combination (-(c 0)) * hN
      · simp [cross_apply, dotProduct, Fin.sum_univ_three]
        linear_combination (-(c 1)) * hN
      · simp [cross_apply, dotProduct, Fin.sum_univ_three]
        linear_combination (-(c 2)) * hN
    rw [e] at e2
    simpa using e2
  set t := (a ⨯₃ b) ⬝ᵥ N with ht
  have hsq : (a ⨯₃ b) ⬝ᵥ (a ⨯₃ b) = t ^ 2 := by
    rw [hc, smul_dotProduct, dotProduct_smul, h1]; simp; ring
  refine ⟨by rw [hsq]; positivity, ?_⟩
  rw [normalized_eq, norm, hsq, Real.sqrt_sq h4.le, hc, smul_smul, inv_mul_cancel₀ h4.ne', one_smul]

/-- C70. A shell whose curvature is that of its reference surface has no strain, energy and forces where it is not displaced,
and none after a rotation of all tangent vectors and their derivatives. -/
theorem shell_unstressed (gps : List (ShellPoint n)) (hB : ∀ gp ∈ gps, Spec.ReferenceCurvature gp) (u : NodeVec n 3)
    (R : Matrix (Fin 3) (Fin 3) ℝ) (hR : Rᵀ * R = 1) (hdet : R.det = 1)
    (h1 : ∀ gp ∈ gps, ∀ b, gp.J b + ∑ I, gp.dN I b • u I = R *ᵥ gp.J b)
    (h2 : ∀ gp ∈ gps, ∀ i, gp.H i + ∑ I, gp.ddN I i • u I = R *ᵥ gp.H i) :
    (∀ gp ∈ gps, Spec.Regular gp u ∧ epsV gp u = 0 ∧ kappaV gp u = 0) ∧
    calculateScalar emodul nu thickness gps .mechanicalPotentialEnergy u = some 0 ∧
    ∀ f, calculateVector emodul nu thickness gps .forces u f = some f := by
  have hr := shell_rigid emodul nu thickness gps 0 u R hR hdet (by simpa using h1) (by simpa using h2)
  have hz : ∀ gp ∈ gps, Spec.Regular gp (0 : NodeVec n 3) ∧ epsV gp (0 : NodeVec n 3) = 0 ∧
      kappaV gp (0 : NodeVec n 3) = 0 := by
    intro gp hgp
    obtain ⟨N, n1, n2, n3, n4, n5⟩ := hB gp hgp
    obtain ⟨m1, m2⟩ := normal_unique (gp.J 0) (gp.J 1) N n1 n2 n3 n4
    have hj : ∀ b, jcur gp (0 : NodeVec n 3) b = gp.J b := by
      intro b
      show gp.J b + ∑ I, gp.dN I b • (0 : NodeVec n 3) I = _
      simp
    have hN : a3N gp (0 : NodeVec n 3) = gp.J 0 ⨯₃ gp.J 1 := by rw [a3N, hj, hj]
    have hn : a3 gp (0 : NodeVec n 3) = N := by rw [a3, hN, m2]
    have hh : ∀ i, hcur gp (0 : NodeVec n 3) i = gp.H i := by intro i; simp [hcur]
    obtain ⟨s1, s2⟩ := shell_strains gp (0 : NodeVec n 3)
    refine ⟨by rw [Spec.Regular, hN]; exact m1, ?_, ?_⟩
    · rw [s1]
      funext k
      fin_cases k <;> simp
    · rw [s2, hn, n5]
      funext k
      fin_cases k <;> simp
  have hs : ∀ gp ∈ gps, Spec.Regular gp u ∧ epsV gp u = 0 ∧ kappaV gp u = 0 := by
    intro gp hgp
    obtain ⟨z1, z2, z3⟩ := hz gp hgp
    refine ⟨?_, by rw [(hr.1 gp hgp).1, z2], by rw [(hr.1 gp hgp).2, z3]⟩
    have hj : ∀ b, jcur gp u b = R *ᵥ jcur gp (0 : NodeVec n 3) b := by
      intro b
      have : jcur gp (0 : NodeVec n 3) b = gp.J b := by
        show gp.J b + ∑ I, gp.dN I b • (0 : NodeVec n 3) I = _
        simp
      rw [this]
      exact h1 gp hgp b
    have hN : a3N gp u = R *ᵥ a3N gp (0 : NodeVec n 3) := by rw [a3N, hj, hj, rotate_cross R hR hdet, a3N]
    rw [Spec.Regular, hN, Matrix.dotProduct_mulVec, ← Matrix.mulVec_transpose, Matrix.mulVec_mulVec, hR, Matrix.one_mulVec]
    exact z1
  refine ⟨hs, ?_, fun f => ?_⟩
  · rw [shell_energy]
    congr 1
    refine List.sum_eq_zero fun x hx => ?_
    obtain ⟨gp, hgp, rfl⟩ := List.mem_map.1 hx
    simp [(hs gp hgp).2.1, (hs gp hgp).2.2]
  · rw [calculateVector_eq]
    congr 1
    have : forceOf emodul nu thickness gps u = 0 := by
      unfold forceOf
      refine List.sum_eq_zero fun x hx => ?_
      obtain ⟨gp, hgp, rfl⟩ := List.mem_map.1 hx
      have e1 : (membranePoint gp).strain u = 0 := (hs gp hgp).2.1
      have e2 : (bendingPoint gp).strain u = 0 := (hs gp hgp).2.2
      funext I
      simp [NonLinearElastic.pointForce, e1, e2, membraneLaw, bendingLaw, linearLaw]
    rw [this, add_zero]

/-- A point of a cylinder of radius two meets the hypothesis on the curvature. -/
example : Spec.ReferenceCurvature (n := 1) ⟨1, 1, ![![1, 0, 0], ![0, 1, 0]], ![![0, 0, -1 / 2], 0, 0], ![-1 / 2, 0, 0],
    fun _ _ => 1, fun _ _ => 1⟩ := by
  refine ⟨![0, 0, 1], by simp, by simp, by simp, by simp [Matrix.det_fin_three], ?_⟩
  funext k
  fin_cases k <;> simp

end Shell

end Ikarus.Element
