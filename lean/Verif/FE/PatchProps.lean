import Verif.FE.BalanceProps
import Verif.FE.AssumedStressLinearProps
import Verif.FE.EASModesProps

/-!
C104: an element whose displacements are affine in the coordinates adds the nodal forces of the homogeneous stress, whatever
its shape.
-/

namespace Ikarus.Element

open Matrix Element.Spec

variable {n d q m g : Nat}

/-! ### Specification -/

/-- Displacements with the same gradient `G` everywhere. -/
def Spec.affine (c : Fin d → ℝ) (G : Matrix (Fin d) (Fin d) ℝ) (X : NodeVec n d) : NodeVec n d := fun I => c + G *ᵥ X I

/-- The gradient of the shape function of node `I`, integrated over the element. -/
noncomputable def Spec.integralGradient (pts : List (Spec.GradientPoint n d)) (I : Fin n) : Fin d → ℝ :=
  (pts.map fun p => (p.detJ * p.weight) • p.dN I).sum

/-- The matrix of stresses in Voigt notation. -/
def Spec.stressMatrix (dim : EAS.Dimension d q) (S : Fin q → ℝ) : Matrix (Fin d) (Fin d) ℝ :=
  Matrix.of fun i j => S (dim.voigt i j)

/-- The nodal forces of a stress tensor `T` that is the same everywhere: force per area along the reference coordinates. -/
noncomputable def Spec.uniformForces (pts : List (Spec.GradientPoint n d)) (T : Matrix (Fin d) (Fin d) ℝ) : NodeVec n d :=
  fun I => T *ᵥ Spec.integralGradient pts I

/-- The linear strains of a displacement gradient, in Voigt notation with doubled shear. -/
noncomputable def Spec.linearStrain (dim : EAS.Dimension d q) (G : Matrix (Fin d) (Fin d) ℝ) : Fin q → ℝ :=
  fun k => EAS.Spec.along dim.voigt (Pi.single k 1) G 1

/-- An integration point with the linear strains of a solid. -/
structure Spec.LinearSolid (dim : EAS.Dimension d q) (p : Spec.GradientPoint n d) (gp : LinPoint n d q) : Prop where
  detJ : gp.detJ = p.detJ
  weight : gp.weight = p.weight
  bop : ∀ I, gp.bop I = dim.bop 1 (p.dN I)

/-- An integration point with the Green-Lagrange strains of a solid. -/
structure Spec.Solid (dim : EAS.Dimension d q) (p : Spec.GradientPoint n d) (gp : Point n d q) : Prop where
  detJ : gp.detJ = p.detJ
  weight : gp.weight = p.weight
  strain : ∀ u, gp.strain u = dim.greenLagrange (EAS.gradient p.dN u)
  bop : ∀ u I, gp.bop u I = dim.bop (1 + EAS.gradient p.dN u) (p.dN I)

/-! ### Lemmas -/

theorem gradient_affine {X : NodeVec n d} {dN : Fin n → Fin d → ℝ} (hX : Isoparametric X dN) (c : Fin d → ℝ)
    (G : Matrix (Fin d) (Fin d) ℝ) : EAS.gradient dN (affine c G X) = G := by
  have h := gradient_rigid hX 0 c G
  rw [add_zero] at h
  have h0 : EAS.gradient dN (0 : NodeVec n d) = 0 := by
    ext i j
    simp [EAS.gradient]
  rw [h0, add_zero, mul_one] at h
  exact h

theorem bop_transpose {dim : EAS.Dimension d q} (hdim : EAS.Spec.IsVoigt dim) (F : Matrix (Fin d) (Fin d) ℝ) (g : Fin d → ℝ)
    (S : Fin q → ℝ) : (dim.bop F g)ᵀ *ᵥ S = (F * stressMatrix dim S) *ᵥ g := by
  funext a
  have h1 : ((dim.bop F g)ᵀ *ᵥ S) a = EAS.Spec.along dim.voigt S (EAS.rowMatrix a g) F := by
    rw [← EAS.along_single_sum]
    simp only [Matrix.mulVec, dotProduct, Matrix.transpose_apply, hdim.bop]
  rw [h1]
  simp only [EAS.Spec.along, EAS.rowMatrix, Matrix.of_apply, ite_mul, zero_mul, Finset.sum_ite_eq', Finset.mem_univ, if_true,
    Matrix.mulVec, dotProduct, Matrix.mul_apply, stressMatrix, Finset.sum_mul]
  refine Finset.sum_congr rfl fun i _ => Finset.sum_congr rfl fun j _ => ?_
  rw [hdim.symm j i]
  ring

theorem uniformForces_sum (pts : List (Spec.GradientPoint n d)) (T : Matrix (Fin d) (Fin d) ℝ) :
    uniformForces pts T = (pts.map fun p I => (p.detJ * p.weight) • (T *ᵥ p.dN I)).sum := by
  induction pts with
  | nil => funext I; simp [uniformForces, integralGradient]
  | cons p pts ih =>
    rw [List.map_cons, List.sum_cons, ← ih]
    funext I
    simp only [uniformForces, integralGradient, List.map_cons, List.sum_cons, Matrix.mulVec_add, Matrix.mulVec_smul,
      Pi.add_apply]

theorem linear_strain_affine {dim : EAS.Dimension d q} (hdim : EAS.Spec.IsVoigt dim) {X : NodeVec n d}
    {p : Spec.GradientPoint n d} (hX : Isoparametric X p.dN) {gp : LinPoint n d q} (h : LinearSolid dim p gp) (c : Fin d → ℝ)
    (G : Matrix (Fin d) (Fin d) ℝ) : gp.strain (affine c G X) = linearStrain dim G := by
  rw [LinPoint.strain]
  simp only [h.bop]
  rw [bop_sum hdim, gradient_affine hX]
  rfl

/-! ### Displacement elements -/

/-- C104, linear element. In a homogeneous state the element adds the forces of the homogeneous stress. -/
theorem linear_patch (dim : EAS.Dimension d q) (hdim : EAS.Spec.IsVoigt dim) (C : Matrix (Fin q) (Fin q) ℝ)
    (pts : List (Spec.GradientPoint n d)) (gp : Spec.GradientPoint n d → LinPoint n d q)
    (hgp : ∀ p ∈ pts, LinearSolid dim p (gp p)) (X f : NodeVec n d) (hX : ∀ p ∈ pts, Isoparametric X p.dN)
    (c : Fin d → ℝ) (G : Matrix (Fin d) (Fin d) ℝ) :
    LinearElastic.calculateVector false C (pts.map gp) (affine c G X) f =
      f + uniformForces pts (stressMatrix dim (C *ᵥ linearStrain dim G)) := by
  rw [LinearElastic.calculateVector_sum, uniformForces_sum, List.map_map]
  congr 2
  refine List.map_congr_left fun p hp => ?_
  funext I
  have h := hgp p hp
  rw [Function.comp, LinearElastic.pointForce, linear_strain_affine hdim (hX p hp) h, h.bop, bop_transpose hdim, one_mul,
    h.detJ, h.weight]
  rfl

/-- C104, nonlinear element. In a homogeneous state the element adds the forces of the homogeneous first Piola-Kirchhoff
stress, for every law. -/
theorem nonlinear_patch (dim : EAS.Dimension d q) (hdim : EAS.Spec.IsVoigt dim) (law : Law q)
    (pts : List (Spec.GradientPoint n d)) (gp : Spec.GradientPoint n d → Point n d q) (hgp : ∀ p ∈ pts, Solid dim p (gp p))
    (X f : NodeVec n d) (hX : ∀ p ∈ pts, Isoparametric X p.dN) (c : Fin d → ℝ) (G : Matrix (Fin d) (Fin d) ℝ) :
    NonLinearElastic.calculateVector false law (pts.map gp) (affine c G X) f =
      f + uniformForces pts ((1 + G) * stressMatrix dim (law.stress (dim.greenLagrange G))) := by
  rw [NonLinearElastic.calculateVector_sum, uniformForces_sum, List.map_map]
  congr 2
  refine List.map_congr_left fun p hp => ?_
  funext I
  have h := hgp p hp
  rw [Function.comp, NonLinearElastic.pointForce, h.bop, h.strain, gradient_affine (hX p hp), bop_transpose hdim, h.detJ, h.weight]

/-- C104, displacement and pressure. With the pressure that belongs to the homogeneous volume change, the same at all nodes,
the residual of the pressures vanishes, and the forces are those of the homogeneous stress. -/
theorem displacementPressure_patch (dim : EAS.Dimension d q) (hdim : EAS.Spec.IsVoigt dim) (c : DisplacementPressure.Driver q)
    (hk : c.kappa ≠ 0) (pts : List (Spec.GradientPoint n d)) (gp : Spec.GradientPoint n d → DisplacementPressure.DPPoint n m d q)
    (hgp : ∀ p ∈ pts, Solid dim p (gp p).toPoint) (hN : ∀ p ∈ pts, ∑ j, (gp p).Np j = 1)
    (X : NodeVec n d) (f : DisplacementPressure.Vec n m d) (hX : ∀ p ∈ pts, Isoparametric X p.dN) (t : Fin d → ℝ)
    (G : Matrix (Fin d) (Fin d) ℝ) :
    DisplacementPressure.calculateVector c (pts.map gp) (affine t G X)
        (fun _ => c.kappa * c.Uhat (dim.greenLagrange G)) f =
      ⟨f.u + uniformForces pts ((1 + G) * stressMatrix dim
        (c.S (dim.greenLagrange G) (c.kappa * c.Uhat (dim.greenLagrange G)))), f.p⟩ := by
  rw [DisplacementPressure.calculateVector_sum]
  have hp : ∀ p ∈ pts, (gp p).pressure (fun _ => c.kappa * c.Uhat (dim.greenLagrange G)) =
      c.kappa * c.Uhat (dim.greenLagrange G) := by
    intro p hp
    rw [DisplacementPressure.DPPoint.pressure, ← Finset.sum_mul, hN p hp, one_mul]
  have h1 : ((pts.map gp).map fun gp => NonLinearElastic.pointForce (DisplacementPressure.lawAt c (gp.pressure
      fun _ => c.kappa * c.Uhat (dim.greenLagrange G))) (affine t G X) gp.toPoint).sum =
      uniformForces pts ((1 + G) * stressMatrix dim
        (c.S (dim.greenLagrange G) (c.kappa * c.Uhat (dim.greenLagrange G)))) := by
    rw [uniformForces_sum, List.map_map]
    congr 1
    refine List.map_congr_left fun p hpm => ?_
    funext I
    have h := hgp p hpm
    rw [Function.comp, NonLinearElastic.pointForce, h.bop, h.strain, gradient_affine (hX p hpm), bop_transpose hdim, h.detJ,
      h.weight, hp p hpm]
    rfl
  have h2 : ((pts.map gp).map (DisplacementPressure.pForce c (affine t G X)
      fun _ => c.kappa * c.Uhat (dim.greenLagrange G))).sum = 0 := by
    rw [List.map_map]
    refine List.sum_eq_zero ?_
    intro y hy
    obtain ⟨p, hpm, rfl⟩ := List.mem_map.1 hy
    funext i
    have h := hgp p hpm
    rw [Function.comp, DisplacementPressure.pForce, h.strain, gradient_affine (hX p hpm), hp p hpm, mul_div_cancel_left₀ _ hk]
    show _ * (c.Uhat _ - _) * _ * _ = _
    rw [sub_self]
    simp
  rw [h1, h2, add_zero]

/-! ### Enhanced strains -/

/-- The modes integrate to zero over the element. -/
def Spec.MeanFree {ι V : Type*} [AddCommMonoid V] [Module ℝ V] (pts : List (Spec.GradientPoint n d))
    (M : Spec.GradientPoint n d → ι → V) : Prop :=
  ∀ r, (pts.map fun p => (p.detJ * p.weight) • M p r).sum = 0

theorem Spec.MeanFree.linear {ι V W : Type*} [AddCommMonoid V] [Module ℝ V] [AddCommMonoid W] [Module ℝ W]
    {pts : List (Spec.GradientPoint n d)} {M : Spec.GradientPoint n d → ι → V} (h : MeanFree pts M) (A : V →ₗ[ℝ] W) (r : ι) :
    (pts.map fun p => (p.detJ * p.weight) • A (M p r)).sum = 0 := by
  have := congrArg A (h r)
  rw [map_zero, map_list_sum, List.map_map] at this
  rw [← this]
  congr 1
  exact List.map_congr_left fun p _ => (map_smul A _ _).symm

theorem eas_forces_patch (law : Law q) (gps : List (EAS.EASPoint n d q m)) (u f : NodeVec n d) (alpha : Fin m → ℝ)
    (ha : EAS.applicable n d m = true) (hR : EAS.calculateRtilde law gps u alpha = 0) :
    EAS.calculateVector law gps .forces u alpha f = some (f + EAS.forces law gps u alpha) := by
  obtain ⟨w, hw, h⟩ := eas_vector law gps u f alpha ha
  rw [h, hw hR]
  congr 2
  have : EAS.Spec.mulLT (EAS.calculateL law gps u alpha) 0 = 0 := by
    funext I
    rw [EAS.mulLT_eq, Matrix.mulVec_zero]
    rfl
  rw [this, sub_zero]

/-- The work of a stress on a mode, as a linear map of the mode. -/
noncomputable def workOn (S : Fin q → ℝ) : (Fin q → ℝ) →ₗ[ℝ] ℝ where
  toFun M := S ⬝ᵥ M
  map_add' := dotProduct_add S
  map_smul' c M := by rw [dotProduct_smul]; rfl

/-- C104, enhanced strains added to the strain of the displacements. In a homogeneous state the internal variables zero are in
equilibrium, and the element adds the same forces as the element without enhanced strains. -/
theorem additive_patch (dim : EAS.Dimension d q) (hdim : EAS.Spec.IsVoigt dim) (law : Law q)
    (pts : List (Spec.GradientPoint n d)) (gp : Spec.GradientPoint n d → Point n d q) (hgp : ∀ p ∈ pts, Solid dim p (gp p))
    (M : Spec.GradientPoint n d → Matrix (Fin q) (Fin m) ℝ) (hM : MeanFree pts fun p => (M p)ᵀ)
    (X f : NodeVec n d) (hX : ∀ p ∈ pts, Isoparametric X p.dN) (ha : EAS.applicable n d m = true)
    (c : Fin d → ℝ) (G : Matrix (Fin d) (Fin d) ℝ) :
    EAS.calculateRtilde law (pts.map fun p => EAS.additive (gp p) (M p)) (affine c G X) 0 = 0 ∧
    EAS.calculateVector law (pts.map fun p => EAS.additive (gp p) (M p)) .forces (affine c G X) 0 f =
      some (f + uniformForces pts ((1 + G) * stressMatrix dim (law.stress (dim.greenLagrange G)))) := by
  have hs : ∀ p ∈ pts, (gp p).strain (affine c G X) + M p *ᵥ 0 = dim.greenLagrange G := by
    intro p hp
    rw [Matrix.mulVec_zero, add_zero, (hgp p hp).strain, gradient_affine (hX p hp)]
  have hR : EAS.calculateRtilde law (pts.map fun p => EAS.additive (gp p) (M p)) (affine c G X) 0 = 0 := by
    rw [EAS.calculateRtilde_sum, List.map_map]
    funext r
    rw [list_sum_apply, Pi.zero_apply, ← hM.linear (workOn (law.stress (dim.greenLagrange G))) r]
    congr 1
    refine List.map_congr_left fun p hp => ?_
    show ((gp p).detJ * (gp p).weight) * (((M p)ᵀ *ᵥ law.stress ((gp p).strain (affine c G X) + M p *ᵥ 0)) r) = _
    rw [hs p hp, (hgp p hp).detJ, (hgp p hp).weight]
    show _ * ((M p)ᵀ r ⬝ᵥ _) = _ * (_ ⬝ᵥ (M p)ᵀ r)
    rw [dotProduct_comm]
  refine ⟨hR, ?_⟩
  rw [eas_forces_patch law _ _ f 0 ha hR, EAS.forces, List.map_map, uniformForces_sum]
  congr 3
  refine List.map_congr_left fun p hp => ?_
  funext I
  show ((gp p).detJ * (gp p).weight) • (((gp p).bop (affine c G X) I)ᵀ *ᵥ law.stress ((gp p).strain (affine c G X) + M p *ᵥ 0)) = _
  rw [hs p hp, (hgp p hp).detJ, (hgp p hp).weight, (hgp p hp).bop, gradient_affine (hX p hp), bop_transpose hdim]

/-- `S` along a mode of the displacement gradient, as a linear map of the mode. -/
noncomputable def alongOn (v : Fin d → Fin d → Fin q) (S : Fin q → ℝ) (F : Matrix (Fin d) (Fin d) ℝ) :
    Matrix (Fin d) (Fin d) ℝ →ₗ[ℝ] ℝ where
  toFun H := EAS.Spec.along v S H F
  map_add' x y := EAS.along_add_left v S x y F
  map_smul' c x := EAS.along_smul_left v S c x F

/-- C104, enhanced displacement gradient. The same for `DisplacementGradient`. -/
theorem displacementGradient_patch (dim : EAS.Dimension d q) (hdim : EAS.Spec.IsVoigt dim) (law : Law q)
    (H : (Fin d → ℝ) → Fin m → Matrix (Fin d) (Fin d) ℝ) (pts : List (Spec.GradientPoint n d))
    (hH : MeanFree pts fun p => H p.pos) (X f : NodeVec n d) (hX : ∀ p ∈ pts, Isoparametric X p.dN)
    (ha : EAS.applicable n d m = true) (c : Fin d → ℝ) (G : Matrix (Fin d) (Fin d) ℝ) :
    EAS.calculateRtilde law (gradientPoints dim H pts) (affine c G X) 0 = 0 ∧
    EAS.calculateVector law (gradientPoints dim H pts) .forces (affine c G X) 0 f =
      some (f + uniformForces pts ((1 + G) * stressMatrix dim (law.stress (dim.greenLagrange G)))) := by
  have hs : ∀ p ∈ pts, EAS.gradient p.dN (affine c G X) + EAS.sumModes (H p.pos) 0 = G := by
    intro p hp
    rw [EAS.sumModes_eq, gradient_affine (hX p hp)]
    simp
  have hR : EAS.calculateRtilde law (gradientPoints dim H pts) (affine c G X) 0 = 0 := by
    rw [EAS.calculateRtilde_sum, gradientPoints, List.map_map]
    funext r
    rw [list_sum_apply, Pi.zero_apply, ← hH.linear (alongOn dim.voigt (law.stress (dim.greenLagrange G)) (1 + G)) r]
    congr 1
    refine List.map_congr_left fun p hp => ?_
    show (p.detJ * p.weight) * ((Matrix.of fun k r => dim.columnM (1 + (EAS.gradient p.dN (affine c G X) +
      EAS.sumModes (H p.pos) 0)) (H p.pos r) k)ᵀ *ᵥ law.stress (dim.greenLagrange (EAS.gradient p.dN (affine c G X) +
      EAS.sumModes (H p.pos) 0))) r = _
    rw [hs p hp]
    show _ * ((dim.columnM (1 + G) (H p.pos r)) ⬝ᵥ _) = _ * EAS.Spec.along _ _ _ _
    rw [dotProduct_comm, columnM_along hdim]
  refine ⟨hR, ?_⟩
  rw [eas_forces_patch law _ _ f 0 ha hR, EAS.forces, gradientPoints, List.map_map, uniformForces_sum]
  congr 3
  refine List.map_congr_left fun p hp => ?_
  funext I
  show (p.detJ * p.weight) • ((dim.bop (1 + (EAS.gradient p.dN (affine c G X) + EAS.sumModes (H p.pos) 0)) (p.dN I))ᵀ *ᵥ
    law.stress (dim.greenLagrange (EAS.gradient p.dN (affine c G X) + EAS.sumModes (H p.pos) 0))) = _
  rw [hs p hp, bop_transpose hdim]

/-- C104, enhanced displacement gradient. The same for `DisplacementGradientTransposed`, `dN0` being the derivatives at the
center. -/
theorem transposed_patch (dim : EAS.Dimension d q) (hdim : EAS.Spec.IsVoigt dim)
    (val : (Fin q → ℝ) → (Fin d → ℝ) → (Fin d → ℝ) → ℝ) (law : Law q)
    (H : (Fin d → ℝ) → Fin m → Matrix (Fin d) (Fin d) ℝ) (pts : List (Spec.GradientPoint n d)) (dN0 : Fin n → Fin d → ℝ)
    (hH : MeanFree pts fun p => H p.pos) (X f : NodeVec n d) (hX : ∀ p ∈ pts, Isoparametric X p.dN)
    (hX0 : Isoparametric X dN0) (ha : EAS.applicable n d m = true) (c : Fin d → ℝ) (G : Matrix (Fin d) (Fin d) ℝ) :
    EAS.calculateRtilde law (pts.map fun p => EAS.displacementGradientTransposed dim val p.detJ p.weight p.dN dN0 (H p.pos))
      (affine c G X) 0 = 0 ∧
    EAS.calculateVector law (pts.map fun p => EAS.displacementGradientTransposed dim val p.detJ p.weight p.dN dN0 (H p.pos))
        .forces (affine c G X) 0 f =
      some (f + uniformForces pts ((1 + G) * stressMatrix dim (law.stress (dim.greenLagrange G)))) := by
  have h0 : ∀ p : Spec.GradientPoint n d, EAS.sumModes (H p.pos) 0 = 0 := fun p => by
    rw [EAS.sumModes_eq]; simp
  have hs : ∀ p ∈ pts, EAS.gradient p.dN (affine c G X) + (1 + EAS.gradient dN0 (affine c G X)) *
      (EAS.sumModes (H p.pos) 0)ᵀ = G := by
    intro p hp
    rw [h0, gradient_affine (hX p hp), Matrix.transpose_zero, mul_zero, add_zero]
  have hR : EAS.calculateRtilde law (pts.map fun p => EAS.displacementGradientTransposed dim val p.detJ p.weight p.dN dN0
      (H p.pos)) (affine c G X) 0 = 0 := by
    rw [EAS.calculateRtilde_sum, List.map_map]
    funext r
    let A : Matrix (Fin d) (Fin d) ℝ →ₗ[ℝ] Matrix (Fin d) (Fin d) ℝ :=
      { toFun := fun H => (1 + G) * Hᵀ
        map_add' := fun x y => by rw [Matrix.transpose_add, mul_add]
        map_smul' := fun c x => by rw [Matrix.transpose_smul, Matrix.mul_smul]; rfl }
    rw [list_sum_apply, Pi.zero_apply,
      ← hH.linear ((alongOn dim.voigt (law.stress (dim.greenLagrange G)) (1 + G)).comp A) r]
    congr 1
    refine List.map_congr_left fun p hp => ?_
    show (p.detJ * p.weight) * ((Matrix.of fun k r => dim.columnM (1 + (EAS.gradient p.dN (affine c G X) +
      (1 + EAS.gradient dN0 (affine c G X)) * (EAS.sumModes (H p.pos) 0)ᵀ))
      ((1 + EAS.gradient dN0 (affine c G X)) * (H p.pos r)ᵀ) k)ᵀ *ᵥ
      law.stress (dim.greenLagrange (EAS.gradient p.dN (affine c G X) +
      (1 + EAS.gradient dN0 (affine c G X)) * (EAS.sumModes (H p.pos) 0)ᵀ))) r = _
    rw [hs p hp, gradient_affine hX0]
    show _ * ((dim.columnM (1 + G) ((1 + G) * (H p.pos r)ᵀ)) ⬝ᵥ _) = _ * EAS.Spec.along _ _ _ _
    rw [dotProduct_comm, columnM_along hdim]
    rfl
  refine ⟨hR, ?_⟩
  rw [eas_forces_patch law _ _ f 0 ha hR, EAS.forces, List.map_map, uniformForces_sum]
  congr 3
  refine List.map_congr_left fun p hp => ?_
  funext I
  have he : EAS.enhancedDN (H p.pos) 0 (p.dN I) (dN0 I) = p.dN I := by
    have : ∀ (l : List (Fin m)), l.foldl (fun v t => v + H p.pos t *ᵥ ((0 : Fin m → ℝ) t • dN0 I)) 0 = 0 := by
      intro l
      induction l with
      | nil => rfl
      | cons t l ih => rw [List.foldl_cons, Pi.zero_apply, zero_smul, Matrix.mulVec_zero, add_zero]; exact ih
    rw [EAS.enhancedDN, this, add_zero]
  show (p.detJ * p.weight) • ((dim.bop (1 + (EAS.gradient p.dN (affine c G X) + (1 + EAS.gradient dN0 (affine c G X)) *
    (EAS.sumModes (H p.pos) 0)ᵀ)) (EAS.enhancedDN (H p.pos) 0 (p.dN I) (dN0 I)))ᵀ *ᵥ
    law.stress (dim.greenLagrange (EAS.gradient p.dN (affine c G X) + (1 + EAS.gradient dN0 (affine c G X)) *
    (EAS.sumModes (H p.pos) 0)ᵀ))) = _
  rw [hs p hp, he, bop_transpose hdim]

/-! ### Assumed stresses -/

/-- C104, assumed stresses. If the stress is the same everywhere and belongs to the strain of the homogeneous state, the
internal variables are in equilibrium and the forces are those of the element without assumed stresses. -/
theorem assumedStress_patch (dim : EAS.Dimension d q) (hdim : EAS.Spec.IsVoigt dim) (S : Fin q → ℝ)
    (pts : Fin g → Spec.GradientPoint n d) (gps : Fin g → AssumedStress.ASPoint n d q m)
    (hgp : ∀ i, Solid dim (pts i) (gps i).point) (X f : NodeVec n d) (hX : ∀ i, Isoparametric X (pts i).dN)
    (ha : AssumedStress.asApplicable n d = true) (c : Fin d → ℝ) (G : Matrix (Fin d) (Fin d) ℝ)
    (st : AssumedStress.State q m g) (hS : ∀ i, (gps i).P *ᵥ st.beta = S) (hE : ∀ i, st.strainStates i = dim.greenLagrange G) :
    AssumedStress.calculateRtilde gps st (affine c G X) = 0 ∧
    AssumedStress.calculateVector gps st .forces (affine c G X) f =
      some (f + uniformForces ((List.finRange g).map pts) ((1 + G) * stressMatrix dim S)) := by
  have hR : AssumedStress.calculateRtilde gps st (affine c G X) = 0 := by
    rw [AssumedStress.calculateRtilde_eq]
    refine Finset.sum_eq_zero fun i _ => ?_
    rw [hE, (hgp i).strain, gradient_affine (hX i), sub_self, Matrix.mulVec_zero, smul_zero]
  refine ⟨hR, ?_⟩
  unfold AssumedStress.calculateVector
  simp only [ne_eq, not_true_eq_false, if_false, ha, Bool.not_true, Bool.false_eq_true, hR, Matrix.mulVec_zero]
  rw [uniformForces_sum, List.map_map]
  have h0 : ∀ v : NodeVec n d, (v + fun _ => (0 : Fin d → ℝ)) = v := fun v => add_zero v
  rw [h0, ← foldl_add_sum]
  congr 1
  refine foldl_congr' (fun f i => ?_) _ _
  refine (foldl_addSegment (fun I => ((gps i).point.detJ * (gps i).point.weight) • (((gps i).point.bop (affine c G X) I)ᵀ *ᵥ
    (gps i).value st.beta)) f).trans ?_
  congr 1
  funext I
  rw [AssumedStress.ASPoint.value, hS, (hgp i).bop, gradient_affine (hX i), bop_transpose hdim, (hgp i).detJ, (hgp i).weight]
  rfl

/-! ### Quadrilaterals -/

/-- A quadrilateral with straight edges and the corners `X` in the numbering of dune, as a geometry. -/
noncomputable def Spec.quadGeometry (X : NodeVec 4 2) : EAS.Geometry 2 :=
  ⟨fun p => Matrix.of fun a i => ∑ I, Spec.bilinear p I a * X I i⟩

/-- An integration point of the quadrilateral with bilinear shape functions. -/
noncomputable def Spec.quadPoint (X : NodeVec 4 2) (g : (Fin 2 → ℝ) × ℝ) : Spec.GradientPoint 4 2 where
  detJ := (Spec.quadGeometry X).integrationElement g.1
  weight := g.2
  pos := g.1
  dN I := ((Spec.quadGeometry X).jacobianTransposed g.1)⁻¹ *ᵥ Spec.bilinear g.1 I

/-- The corner after and the corner before a corner, going round the quadrilateral counterclockwise. -/
def Spec.nextCorner : Fin 4 → Fin 4 := ![1, 3, 0, 2]
def Spec.prevCorner : Fin 4 → Fin 4 := ![2, 0, 3, 1]

theorem quadPoint_isoparametric (X : NodeVec 4 2) (g : (Fin 2 → ℝ) × ℝ)
    (h : ((Spec.quadGeometry X).jacobianTransposed g.1).det ≠ 0) : Isoparametric X (Spec.quadPoint X g).dN where
  unity j := by
    have h0 : ∀ a, ∑ I, Spec.bilinear g.1 I a = 0 := (square_isoparametric g.1).unity
    simp only [Spec.quadPoint, Matrix.mulVec, dotProduct]
    rw [Finset.sum_comm]
    exact Finset.sum_eq_zero fun a _ => by rw [← Finset.mul_sum, h0, mul_zero]
  geometry i j := by
    have hJ : ∀ a, ∑ I, X I i * Spec.bilinear g.1 I a = (Spec.quadGeometry X).jacobianTransposed g.1 a i := fun a => by
      simp only [Spec.quadGeometry, Matrix.of_apply]
      exact Finset.sum_congr rfl fun I _ => mul_comm _ _
    have h1 := Matrix.nonsing_inv_mul _ (isUnit_iff_ne_zero.2 h)
    have h2 := congrFun (congrFun h1 j) i
    rw [Matrix.mul_apply, Matrix.one_apply] at h2
    simp only [Spec.quadPoint, Matrix.mulVec, dotProduct, Finset.mul_sum]
    rw [Finset.sum_comm]
    rw [show (if i = j then (1 : ℝ) else 0) = if j = i then 1 else 0 from if_congr eq_comm rfl rfl, ← h2]
    refine Finset.sum_congr rfl fun a _ => ?_
    rw [← hJ, Finset.mul_sum]
    exact Finset.sum_congr rfl fun I _ => by ring

/-- Sums over a rule that is exact for bilinear functions. -/
theorem exact_bilinear {rule : List ((Fin 2 → ℝ) × ℝ)} (hk : EAS.Spec.Exact rule 1) (a b c e : ℝ) :
    (rule.map fun g => g.2 * (a + b * g.1 0 + c * g.1 1 + e * (g.1 0 * g.1 1))).sum = a + b / 2 + c / 2 + e / 4 := by
  have h0 := hk ![0, 0] (by decide)
  have h1 := hk ![1, 0] (by decide)
  have h2 := hk ![0, 1] (by decide)
  have h3 := hk ![1, 1] (by decide)
  simp only [Fin.prod_univ_two, Matrix.cons_val_zero, Matrix.cons_val_one, pow_zero, pow_one, mul_one, one_mul,
    EAS.Spec.mu] at h0 h1 h2 h3
  norm_num at h0 h1 h2 h3
  have key : (rule.map fun g => g.2 * (a + b * g.1 0 + c * g.1 1 + e * (g.1 0 * g.1 1))).sum =
      (a + b / 2 + c / 2 + e / 4) * (rule.map fun g => g.2).sum + (b / 2 + e / 4) * (rule.map fun g => g.2 * (2 * g.1 0 - 1)).sum +
      (c / 2 + e / 4) * (rule.map fun g => g.2 * (2 * g.1 1 - 1)).sum +
      e / 4 * (rule.map fun g => g.2 * ((2 * g.1 0 - 1) * (2 * g.1 1 - 1))).sum := by
    clear hk h0 h1 h2 h3
    induction rule with
    | nil => simp
    | cons g rule ih =>
      simp only [List.map_cons, List.sum_cons]
      rw [ih]
      ring
  rw [key]
  simp only [h0, h1, h2, h3]
  ring

/-- C104, quadrilaterals. The gradient of a shape function integrated over a quadrilateral depends only on the two corners
next to the node; it is the normal of the line between them, with half its length. -/
theorem integralGradient_quad (X : NodeVec 4 2) {rule : List ((Fin 2 → ℝ) × ℝ)} (hk : EAS.Spec.Exact rule 1)
    (hdet : ∀ g ∈ rule, 0 < ((Spec.quadGeometry X).jacobianTransposed g.1).det) (I : Fin 4) :
    integralGradient (rule.map (Spec.quadPoint X)) I =
      (1 / 2 : ℝ) • ![X (nextCorner I) 1 - X (prevCorner I) 1, -(X (nextCorner I) 0 - X (prevCorner I) 0)] := by
  have h1 : integralGradient (rule.map (Spec.quadPoint X)) I =
      (rule.map fun g => g.2 • (((Spec.quadGeometry X).jacobianTransposed g.1).adjugate *ᵥ Spec.bilinear g.1 I)).sum := by
    rw [integralGradient, List.map_map]
    congr 1
    refine List.map_congr_left fun g hg => ?_
    have hd := hdet g hg
    show ((Spec.quadGeometry X).integrationElement g.1 * g.2) • (((Spec.quadGeometry X).jacobianTransposed g.1)⁻¹ *ᵥ
      Spec.bilinear g.1 I) = _
    rw [EAS.Geometry.integrationElement, abs_of_pos hd, Matrix.inv_def, Ring.inverse_eq_inv', Matrix.smul_mulVec, smul_smul]
    congr 1
    field_simp
  rw [h1]
  funext j
  rw [list_sum_apply]
  have h3 : ∀ a b c e : ℝ, (∀ g ∈ rule, (((Spec.quadGeometry X).jacobianTransposed g.1).adjugate *ᵥ Spec.bilinear g.1 I) j =
      a + b * g.1 0 + c * g.1 1 + e * (g.1 0 * g.1 1)) →
      (rule.map fun g => (g.2 • (((Spec.quadGeometry X).jacobianTransposed g.1).adjugate *ᵥ
        Spec.bilinear g.1 I)) j).sum = a + b / 2 + c / 2 + e / 4 := fun a b c e h => by
    rw [← exact_bilinear hk]
    congr 1
    exact List.map_congr_left fun g hg => by rw [← h g hg]; rfl
  obtain ⟨F, hF⟩ : ∃ F : (Fin 2 → ℝ) → ℝ, F = fun p => (((Spec.quadGeometry X).jacobianTransposed p).adjugate *ᵥ
    Spec.bilinear p I) j := ⟨_, rfl⟩
  have hv : ∀ p, F p = if j = 0 then
      (∑ J, Spec.bilinear p J 1 * X J 1) * Spec.bilinear p I 0 - (∑ J, Spec.bilinear p J 0 * X J 1) * Spec.bilinear p I 1 else
      (∑ J, Spec.bilinear p J 0 * X J 0) * Spec.bilinear p I 1 - (∑ J, Spec.bilinear p J 1 * X J 0) * Spec.bilinear p I 0 := by
    intro p
    rw [hF]
    fin_cases j <;> simp [Matrix.adjugate_fin_two, Spec.quadGeometry, Matrix.mulVec, dotProduct, Fin.sum_univ_two] <;> ring
  refine (h3 (F ![0, 0]) (F ![1, 0] - F ![0, 0]) (F ![0, 1] - F ![0, 0]) (F ![1, 1] - F ![1, 0] - F ![0, 1] + F ![0, 0])
    fun g _ => ?_).trans ?_
  · have := congrFun hF g.1
    refine this.symm.trans ?_
    rw [hv, hv, hv, hv, hv]
    fin_cases j <;> fin_cases I <;> simp [Spec.bilinear, Fin.sum_univ_four] <;> ring
  · rw [hv, hv, hv, hv]
    fin_cases j <;> fin_cases I <;> simp [Spec.bilinear, Fin.sum_univ_four, Spec.nextCorner, Spec.prevCorner] <;> ring

/-- C104, quadrilaterals. The modes of the enhanced strains and of the enhanced displacement gradient integrate to zero over
quadrilaterals of any shape, so that the theorems on enhanced strains above apply. -/
theorem quad_meanFree (X : NodeVec 4 2) {rule : List ((Fin 2 → ℝ) × ℝ)} (hk : EAS.Spec.Exact rule 1)
    (hdet : ∀ g ∈ rule, 0 < ((Spec.quadGeometry X).jacobianTransposed g.1).det) :
    MeanFree (rule.map (Spec.quadPoint X)) (fun p => (EAS.ansatz2 EAS.e4 (quadGeometry X) p.pos)ᵀ) ∧
    MeanFree (rule.map (Spec.quadPoint X)) (fun p => (EAS.ansatz2 EAS.e5 (quadGeometry X) p.pos)ᵀ) ∧
    MeanFree (rule.map (Spec.quadPoint X)) (fun p => (EAS.ansatz2 EAS.e7 (quadGeometry X) p.pos)ᵀ) ∧
    MeanFree (rule.map (Spec.quadPoint X)) (fun p => EAS.ansatzH EAS.h4 (quadGeometry X) p.pos) ∧
    (EAS.Spec.Exact rule 2 →
      MeanFree (rule.map (Spec.quadPoint X)) (fun p => (EAS.ansatz2 EAS.e11 (quadGeometry X) p.pos)ᵀ)) := by
  have hne : ∀ p ∈ {p | ∃ g ∈ rule, g.1 = p}, (quadGeometry X).integrationElement p ≠ 0 := by
    rintro p ⟨g, hg, rfl⟩
    exact (abs_pos.2 (hdet g hg).ne').ne'
  have key : ∀ {m : Nat} (M : (Fin 2 → ℝ) → Matrix (Fin 3) (Fin m) ℝ), (∀ i j, (rule.map fun g => g.2 *
      ((quadGeometry X).integrationElement g.1 * M g.1 i j)).sum = 0) → MeanFree (rule.map (Spec.quadPoint X)) fun p => (M p.pos)ᵀ := by
    intro m M h r
    funext i
    rw [List.map_map, list_sum_apply, Pi.zero_apply, ← h i r]
    congr 1
    refine List.map_congr_left fun g _ => ?_
    show ((quadGeometry X).integrationElement g.1 * g.2) * M g.1 i r = _
    ring
  obtain ⟨h1, h2, h3⟩ := (EAS.modes_orthogonal_plane (quadGeometry X)).1 (EAS.Spec.quadrature rule 1 hk) hne
  refine ⟨key _ h1, key _ h2, key _ h3, fun r => ?_, fun hk2 => key _ ((EAS.modes_orthogonal_plane (quadGeometry X)).2
    (EAS.Spec.quadrature rule 2 hk2) hne)⟩
  have h4 := EAS.modes_orthogonal_gradient.1 (quadGeometry X) (EAS.Spec.quadrature rule 1 hk) hne
  ext i j
  have h5 : (rule.map fun g => g.2 * ((quadGeometry X).integrationElement g.1 *
    EAS.ansatzH EAS.h4 (quadGeometry X) g.1 r i j)).sum = 0 := h4 r i j
  rw [List.map_map, Matrix.zero_apply, ← h5]
  have : ∀ L : List (Matrix (Fin 2) (Fin 2) ℝ), L.sum i j = (L.map fun A => A i j).sum := by
    intro L
    induction L with
    | nil => rfl
    | cons A L ih => rw [List.sum_cons, List.map_cons, List.sum_cons, Matrix.add_apply, ih]
  rw [this, List.map_map]
  congr 1
  refine List.map_congr_left fun g _ => ?_
  show ((quadGeometry X).integrationElement g.1 * g.2) * EAS.ansatzH EAS.h4 (quadGeometry X) g.1 r i j = _
  ring

end Ikarus.Element
