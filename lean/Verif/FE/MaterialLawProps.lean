import Verif.FE.MaterialLawLemmas
import Verif.FE.PatchProps
import Verif.FE.EASFunctionProps
import Verif.Analysis.SmoothSkillProps

/-!
C108: the materials of the library keep the contract of the solid elements.
-/

namespace Ikarus.Element

open Matrix AutoDiffMat VanishingStress Result Ikarus.Spec Ikarus.Element.Spec

variable {n d q : Nat}

/-! ### Specification -/

/-- The strains of an element in space for which the strain of the material is in `D`. -/
def Spec.spaceDomain (msqrt : M3 → M3) (m : Mat) (D : Set M3) : Set (Fin 6 → ℝ) :=
  {x | ∃ A ∈ D, transformStrain msqrt .greenLagrangian m.strainTag (fromVoigt3 x true) = some A}

/-- The strains of a plane element, completed with zeros, for which the strain of the material is in `D`. -/
def Spec.planeDomain (msqrt : M3 → M3) (m : Mat) (D : Set M3) : Set (Fin 3 → ℝ) :=
  {x | ∃ A ∈ D, transformStrain msqrt .greenLagrangian m.strainTag !![x 0, x 2 / 2, 0; x 2 / 2, x 1, 0; 0, 0, 0] = some A}

/-- The forces of a nonlinear element are the gradient of its energy, its matrix is the derivative of the forces and symmetric. -/
structure Spec.ConsistentAt (law : Law q) (gps : List (Point n d q)) (u : NodeVec n d) : Prop where
  gradient : GradientAt (NonLinearElastic.calculateScalar false law gps) (NonLinearElastic.calculateVector false law gps u 0) u
  tangent : TangentAt (fun u => NonLinearElastic.calculateVector false law gps u 0)
    (NonLinearElastic.calculateMatrix false law gps u 0) u
  symm : Symmetric (NonLinearElastic.calculateMatrix false law gps u 0)

/-! ### The contract -/

/-- C108, in space. A material whose stress and moduli are derivatives, up to its factor, of its energy and stress, keeps the
contract of the elements on all strains for which it is defined, if its factor is that of the transformation of
Green-Lagrange strains to its measure; and there it answers. -/
theorem space_contract (msqrt : M3 → M3) {m : Mat} {D : Set M3} (hL : OwnContract m D)
    (hk : AutoDiffMat.Spec.scale .greenLagrangian m.strainTag = some m.derivativeFactor) :
    LawContract (spaceLaw msqrt m) (spaceDomain msqrt m D) ∧
    ∀ x ∈ spaceDomain msqrt m D,
      m.storedEnergyVoigt msqrt .greenLagrangian x = some ((spaceLaw msqrt m).energy x) ∧
      m.stressesVoigt msqrt .greenLagrangian x = some ((spaceLaw msqrt m).stress x) ∧
      m.tangentModuli msqrt .greenLagrangian (fromVoigt3 x true) = some ((spaceLaw msqrt m).tangent x) := by
  obtain ⟨c, hc, hf⟩ := spaceLaw_from msqrt m hk
  have hdom : spaceDomain msqrt m D = {x | m.derivativeFactor • fromVoigt3 ((LinearMap.id : (Fin 6 → ℝ) →ₗ[ℝ] (Fin 6 → ℝ)) x) true + c • 1 ∈ D} := by
    ext x
    simp only [spaceDomain, Set.mem_ofPred_eq, hc, Option.some.injEq, exists_eq_right', LinearMap.id_apply]
  refine ⟨hdom ▸ hf.contract hL rfl, fun x hx => ?_⟩
  obtain ⟨A, hA, hx⟩ := hx
  have hs : A.IsSymm := by
    rw [hc] at hx
    rw [← Option.some.inj hx]
    exact argument_symm _
  obtain ⟨W, hW⟩ := hL.energy A hA hs
  obtain ⟨S, hS, -⟩ := hL.stress A hA hs
  obtain ⟨L, hM, -⟩ := hL.moduli A hA hs
  simp only [spaceLaw, Mat.storedEnergyVoigt, Mat.storedEnergy, Mat.stressesVoigt, Mat.stresses, Mat.tangentModuli, hx,
    Option.bind_some, hW, hS, hM, Option.map_some, Option.getD_some, and_self]

theorem plane_argument (x : Fin 3 → ℝ) : fromVoigt3 (enlargeVector planeFree x) true =
    !![x 0, x 2 / 2, 0; x 2 / 2, x 1, 0; 0, 0, 0] := by
  rw [fromVoigt_plane]
  simp [div_eq_mul_inv]

/-- C108, plane strain. The same for a plane element with the material `planeStrain(mat)`. -/
theorem planeStrain_contract (msqrt : M3 → M3) {m : Mat} {D : Set M3} (hL : OwnContract m D)
    (hk : AutoDiffMat.Spec.scale .greenLagrangian m.strainTag = some m.derivativeFactor) :
    LawContract (planeStrainLaw msqrt m) (planeDomain msqrt m D) ∧
    ∀ x ∈ planeDomain msqrt m D, ∃ W S L,
      (∃ A, planeArgument msqrt m x = some A ∧
        VanishingStrain.storedEnergy (underlying m) planeStressPairs msqrt (.matrix A) = some W ∧
        VanishingStrain.stressesVoigt (underlying m) planeStressPairs msqrt (.matrix A) = some S ∧
        VanishingStrain.tangentModuliVoigt (underlying m) planeStressPairs msqrt (.matrix A) = some L) ∧
      (planeStrainLaw msqrt m).energy x = W ∧ (planeStrainLaw msqrt m).stress x = S ∧ (planeStrainLaw msqrt m).tangent x = L := by
  obtain ⟨c, hc, hf⟩ := planeStrainLaw_from msqrt m hk
  have hdom : planeDomain msqrt m D = {x | m.derivativeFactor • fromVoigt3 (planeEmb x) true + c • 1 ∈ D} := by
    ext x
    simp only [planeDomain, Set.mem_ofPred_eq, hc, Option.some.injEq, exists_eq_right', planeEmb_apply, plane_argument]
  refine ⟨hdom ▸ hf.contract hL rfl, fun x hx => ?_⟩
  obtain ⟨A, hA, hx⟩ := hx
  rw [← plane_argument] at hx
  have hs : A.IsSymm := by
    rw [hc] at hx
    rw [← Option.some.inj hx]
    exact argument_symm _
  obtain ⟨W, hW⟩ := hL.energy A hA hs
  obtain ⟨S, hS, -⟩ := hL.stress A hA hs
  obtain ⟨L, hM, -⟩ := hL.moduli A hA hs
  have hx : planeArgument msqrt m x = some A := hx
  have hr := reduceStrain_plane msqrt m hk x A hx
  have hu1 : (underlying m).stress A = some (toVoigt3 S false) := by simp [underlying, hS]
  have hu2 : (underlying m).moduli A = some (moduliVoigt L) := by simp [underlying, hM]
  have h1 : VanishingStrain.storedEnergy (underlying m) planeStressPairs msqrt (.matrix A) = some W := by
    unfold VanishingStrain.storedEnergy
    rw [hr]
    exact hW
  have h2 : VanishingStrain.stressesVoigt (underlying m) planeStressPairs msqrt (.matrix A) =
      some fun i => toVoigt3 S false (planeFree i) := by
    unfold VanishingStrain.stressesVoigt
    rw [hr]
    simp only [Option.bind_eq_bind, Option.bind_some, hu1]
    exact removeCol_plane _
  have h3 : VanishingStrain.tangentModuliVoigt (underlying m) planeStressPairs msqrt (.matrix A) =
      some (Matrix.of fun i j => moduliVoigt L (planeFree i) (planeFree j)) := by
    unfold VanishingStrain.tangentModuliVoigt
    rw [hr]
    simp only [Option.bind_eq_bind, Option.bind_some, hu2]
    exact reduceMatrix_plane _
  refine ⟨W, _, _, ⟨A, hx, h1, h2, h3⟩, ?_, ?_, ?_⟩
  · simp only [planeStrainLaw, hx, Option.bind_some, h1, Option.getD_some]
  · simp only [planeStrainLaw, hx, Option.bind_some]
    rw [h2]
    rfl
  · simp only [planeStrainLaw, hx, Option.bind_some]
    rw [h3]
    rfl

/-! ### Elements -/

theorem consistentAt {law : Law q} {dom : Set (Fin q → ℝ)} (hl : LawContract law dom) {dim : EAS.Dimension d q}
    (hdim : EAS.Spec.IsVoigt dim) (ps : List (GradientPoint n d)) (u : NodeVec n d)
    (hu : ∀ p ∈ ps, (Ikarus.Spec.greenPoint dim p).strain u ∈ dom) :
    ConsistentAt law (ps.map (Ikarus.Spec.greenPoint dim)) u := by
  have h1 : ∀ gp ∈ ps.map (Ikarus.Spec.greenPoint dim), StrainContract gp u := fun gp hgp => by
    obtain ⟨p, -, rfl⟩ := List.mem_map.1 hgp
    exact greenPoint_contract dim hdim p u
  have h2 : ∀ gp ∈ ps.map (Ikarus.Spec.greenPoint dim), gp.strain u ∈ dom := fun gp hgp => by
    obtain ⟨p, hp, rfl⟩ := List.mem_map.1 hgp
    exact hu p hp
  exact ⟨NonLinearElastic.nonLinearElastic_gradient law dom hl _ u h1 h2, (NonLinearElastic.nonLinearElastic_tangent law dom hl _ u h1 h2).1,
    (NonLinearElastic.nonLinearElastic_tangent law dom hl _ u h1 h2).2⟩

theorem svk_scale (p : SVK ℝ) : AutoDiffMat.Spec.scale .greenLagrangian (svk p).strainTag = some (svk p).derivativeFactor := by
  simp [AutoDiffMat.Spec.scale, svk]

theorem neoHooke_scale (p : NeoHooke) (eps : ℝ) :
    AutoDiffMat.Spec.scale .greenLagrangian (neoHooke p eps).strainTag = some (neoHooke p eps).derivativeFactor := by
  simp [AutoDiffMat.Spec.scale, neoHooke]

theorem space_cauchyGreen (H : Matrix (Fin 3) (Fin 3) ℝ) :
    (2 : ℝ) • fromVoigt3 (EAS.greenLagrange3 H) true + 1 = (1 + H)ᵀ * (1 + H) := by
  ext i j
  fin_cases i <;> fin_cases j <;>
    simp [EAS.greenLagrange3, fromVoigt3, toVoigt3, strainFactor, invStrainFactor, Matrix.mul_apply, Fin.sum_univ_three,
      Matrix.one_apply] <;> ring

theorem plane_cauchyGreen_det (H : Matrix (Fin 2) (Fin 2) ℝ) :
    ((2 : ℝ) • fromVoigt3 (enlargeVector planeFree (EAS.greenLagrange2 H)) true + 1).det = (1 + H).det ^ 2 := by
  rw [fromVoigt_plane, Matrix.det_fin_three, Matrix.det_fin_two]
  simp [EAS.greenLagrange2, toVoigt2, strainFactor, Matrix.mul_apply, Fin.sum_univ_two]
  ring

/-- C108, elements of St. Venant-Kirchhoff material. In space and in plane strain the forces are the gradient of the energy and
the matrix is the symmetric derivative of the forces, for every displacement. -/
theorem svk_elements (msqrt : M3 → M3) (p : SVK ℝ) :
    (∀ (ps : List (GradientPoint n 3)) (u : NodeVec n 3),
      ConsistentAt (spaceLaw msqrt (svk p)) (ps.map (Ikarus.Spec.greenPoint EAS.space)) u) ∧
    ∀ (ps : List (GradientPoint n 2)) (u : NodeVec n 2),
      ConsistentAt (planeStrainLaw msqrt (svk p)) (ps.map (Ikarus.Spec.greenPoint EAS.plane)) u := by
  refine ⟨fun ps u => consistentAt (space_contract msqrt (ownContract_of_law (svk_law p)) (svk_scale p)).1 EAS.space_isVoigt ps u fun _ _ =>
      ⟨_, Set.mem_univ _, by simp only [svk, transformStrain, if_true]; rfl⟩,
    fun ps u => consistentAt (planeStrain_contract msqrt (ownContract_of_law (svk_law p)) (svk_scale p)).1 EAS.plane_isVoigt ps u fun _ _ =>
      ⟨_, Set.mem_univ _, by simp only [svk, transformStrain, if_true]; rfl⟩⟩

/-- C108, elements of Neo-Hooke material. The same for every displacement whose deformation gradient is invertible at the
integration points. -/
theorem neoHooke_elements (msqrt : M3 → M3) (p : NeoHooke) {eps : ℝ} (he : eps < 1) :
    (∀ (ps : List (GradientPoint n 3)) (u : NodeVec n 3), (∀ g ∈ ps, (1 + EAS.gradient g.dN u).det ≠ 0) →
      ConsistentAt (spaceLaw msqrt (neoHooke p eps)) (ps.map (Ikarus.Spec.greenPoint EAS.space)) u) ∧
    ∀ (ps : List (GradientPoint n 2)) (u : NodeVec n 2), (∀ g ∈ ps, (1 + EAS.gradient g.dN u).det ≠ 0) →
      ConsistentAt (planeStrainLaw msqrt (neoHooke p eps)) (ps.map (Ikarus.Spec.greenPoint EAS.plane)) u := by
  have ht : ∀ E : M3, transformStrain msqrt .greenLagrangian (neoHooke p eps).strainTag E = some ((2 : ℝ) • E + 1) := fun E => by
    simp [neoHooke, transformStrain, createRightCauchyGreen]
  refine ⟨fun ps u hu => consistentAt (space_contract msqrt (ownContract_of_law (neoHooke_law p he)) (neoHooke_scale p eps)).1 EAS.space_isVoigt ps u
      fun g hg => ⟨_, ?_, ht _⟩,
    fun ps u hu => consistentAt (planeStrain_contract msqrt (ownContract_of_law (neoHooke_law p he)) (neoHooke_scale p eps)).1 EAS.plane_isVoigt ps u
      fun g hg => ⟨_, ?_, ht _⟩⟩
  · show 0 < ((2 : ℝ) • fromVoigt3 (EAS.greenLagrange3 (EAS.gradient g.dN u)) true + 1).det
    rw [space_cauchyGreen, det_mul, det_transpose]
    exact mul_self_pos.2 (hu g hg)
  · rw [← plane_argument]
    show 0 < ((2 : ℝ) • fromVoigt3 (enlargeVector planeFree (EAS.greenLagrange2 (EAS.gradient g.dN u))) true + 1).det
    rw [plane_cauchyGreen_det]
    exact sq_pos_of_ne_zero (hu g hg)

/-- A triangle of Neo-Hooke material that is stretched and sheared: the deformation gradient is invertible at the only point. -/
example (msqrt : M3 → M3) : ConsistentAt (planeStrainLaw msqrt (neoHooke ⟨2, 1⟩ 0))
    ([(⟨1, 1, ![1 / 3, 1 / 3], ![![-1, -1], ![1, 0], ![0, 1]]⟩ : GradientPoint 3 2)].map (Ikarus.Spec.greenPoint EAS.plane))
    ![![0, 0], ![1, 0], ![1 / 2, 1]] := by
  refine (neoHooke_elements msqrt ⟨2, 1⟩ (by norm_num)).2 _ _ fun g hg => ?_
  obtain rfl := List.mem_singleton.1 hg
  simp [Matrix.det_fin_two, EAS.gradient, Fin.sum_univ_three]

/-! ### Plane stress -/

/-- The reduction leaves a strain alone whose fixed stresses are within the tolerance. -/
theorem reduceStress_within (law : UnderlyingLaw) {k : Nat} (fixed : Fin k → Fin 3 × Fin 3) (nfGt : Bool) (tol : ℝ) (E : M3)
    (S : Fin 6 → ℝ) (hi : initUnknownStrains law fixed E = E) (hS : law.stress E = some S)
    (hle : euclid (fun r => S ((fixedDiagonal fixed).get r)) ≤ tol) :
    reduceStress law fixed nfGt tol (.matrix E) = some (some E) := by
  obtain ⟨n, hn, hb, hr⟩ := run law fixed nfGt tol (.matrix E)
  have hi : initUnknownStrains law fixed (StrainArg.matrix E).maybeFromVoigt = E := hi
  rw [hi] at hn hr
  have h0 : NewtonStops (problem law fixed nfGt) ⟨some tol, 100, 0⟩ (some E) () 0 := by
    refine ⟨by simp, Or.inr ?_⟩
    rw [iterates_residual]
    have hres : ((newtonIterates (problem law fixed nfGt) (some E) () 0).1).bind (VanishingStress.residual law fixed)
        = some (fun r => S ((fixedDiagonal fixed).get r)) := by
      change VanishingStress.residual law fixed E = _
      unfold VanishingStress.residual; rw [hS, Option.map_some]
    rw [hres]
    change decide (euclid (fun r => S ((fixedDiagonal fixed).get r)) > tol) = false
    simpa using hle
  have hn0 : n = 0 := by
    by_contra hne
    exact hn.2 0 (by omega) h0
  rw [hr, hn0, if_neg (by omega)]
  rfl

theorem euclid_plane (S : Fin 6 → ℝ) : euclid (fun r => S ((fixedDiagonal planeStressPairs).get r)) = |S 2| := by
  have : ∀ l : List (Fin 6), l = [2] → √(∑ r : Fin l.length, S (l.get r) * S (l.get r)) = |S 2| := by
    rintro l rfl
    have : ∑ r : Fin [(2 : Fin 6)].length, S ([(2 : Fin 6)].get r) * S ([(2 : Fin 6)].get r) = S 2 * S 2 :=
      Fin.sum_univ_one _
    rw [this, Real.sqrt_mul_self_eq_abs]
  exact this _ plane_diagonal

/-- The material of the library for plane stress, at a strain in one direction. -/
theorem planeStress_uniaxial (msqrt : M3 → M3) (p : SVK ℝ) (hmu : p.mu ≠ 0) (hM : p.lambda + 2 * p.mu ≠ 0) (nfGt : Bool)
    {tol : ℝ} (htol : 0 ≤ tol) (a : ℝ) :
    (planeStressLaw msqrt (svk p) nfGt tol).stress ![a, 0, 0] 0 =
      if |p.lambda * a| ≤ tol then (p.lambda + 2 * p.mu) * a
      else (2 * p.lambda * p.mu / (p.lambda + 2 * p.mu) + 2 * p.mu) * a := by
  have hu := underlying_svk p
  obtain ⟨E, hE⟩ : ∃ E : M3, E = !![a, 0, 0; 0, 0, 0; 0, 0, 0] := ⟨_, rfl⟩
  have ha : planeArgument msqrt (svk p) ![a, 0, 0] = some E := by
    unfold planeArgument
    rw [plane_argument, hE]
    simp [transformStrain, svk]
  simp only [planeStressLaw, ha, Option.bind_some, hu]
  split
  · next h =>
    have hi : initUnknownStrains (svkLaw p) planeStressPairs E = E := by
      ext i j
      rw [hE]
      simp only [initUnknownStrains, planeStressPairs, List.ofFn_succ, List.ofFn_zero, List.foldl_cons, List.foldl_nil, setComp,
        Matrix.of_apply, initialValue, svkLaw]
      fin_cases i <;> fin_cases j <;> simp
    have hr := reduceStress_within (svkLaw p) planeStressPairs nfGt tol E (p.stressMatrixToVoigt E) hi rfl (by
      rw [euclid_plane, hE]
      simpa [SVK.stressMatrixToVoigt, Matrix.trace, Fin.sum_univ_three, mul_comm a] using h)
    unfold stressesVoigt
    rw [hr]
    simp only [Option.map_some, Option.bind_eq_bind, Option.bind_some, svkLaw]
    rw [removeCol_plane]
    show p.stressMatrixToVoigt E 0 = _
    rw [hE]
    simp [SVK.stressMatrixToVoigt, Matrix.trace, Fin.sum_univ_three]
    ring
  · next h =>
    obtain ⟨Esol, hr, -, hc⟩ := planeStress_svk p hmu hM nfGt tol htol (.matrix E)
    obtain ⟨hred, -⟩ := vanishingStress_reduced_partial (svkLaw p) planeStressPairs nfGt tol _ Esol hr
    have h00 : Esol 0 0 = a := (hred.free 0 0 (by rw [isFixed_plane]; decide)).trans (by simp [StrainArg.maybeFromVoigt, hE])
    have h11 : Esol 1 1 = 0 := (hred.free 1 1 (by rw [isFixed_plane]; decide)).trans (by simp [StrainArg.maybeFromVoigt, hE])
    rcases hc with ⟨h22, hle⟩ | ⟨-, hst⟩
    · rw [h00, h11, h22] at hle
      simp [StrainArg.maybeFromVoigt, hE] at hle
      rw [abs_mul] at h
      exact absurd hle h
    · rw [hst]
      simp [VanishingStress.Spec.planeStressModuli, StrainArg.maybeFromVoigt, hE]
      ring

/-- The full claim: every material that keeps its own contract for all strains keeps that of plane elements with
`planeStress(mat, tol)` wherever the reduction succeeds. -/
def Spec.PlaneStressKeepsContract : Prop :=
  ∀ (msqrt : M3 → M3) (m : Mat) (nfGt : Bool) (tol : ℝ), 0 < tol → AutoDiffMat.Spec.Law m Set.univ →
    AutoDiffMat.Spec.scale .greenLagrangian m.strainTag = some m.derivativeFactor →
    LawContract (planeStressLaw msqrt m nfGt tol) {x | ∃ A E, planeArgument msqrt m x = some A ∧
      reduceStress (underlying m) planeStressPairs nfGt tol (.matrix A) = some (some E)}

/-- C108, plane stress: the claim is false.  With the tolerance the reduction leaves small strains alone, so that the stress of
St. Venant-Kirchhoff material jumps, for all its parameters with `lambda ≠ 0`: the element has no tangent there. -/
theorem planeStress_contract_false : ¬ PlaneStressKeepsContract ∧
    ∀ (msqrt : M3 → M3) (p : SVK ℝ), p.mu ≠ 0 → p.lambda + 2 * p.mu ≠ 0 → p.lambda ≠ 0 → ∀ (nfGt : Bool) (tol : ℝ), 0 < tol →
      ¬ ContinuousAt (fun a : ℝ => (planeStressLaw msqrt (svk p) nfGt tol).stress ![a, 0, 0]) (tol / |p.lambda|) := by
  have hjump : ∀ (msqrt : M3 → M3) (p : SVK ℝ), p.mu ≠ 0 → p.lambda + 2 * p.mu ≠ 0 → p.lambda ≠ 0 → ∀ (nfGt : Bool) (tol : ℝ), 0 < tol →
      ¬ ContinuousAt (fun a : ℝ => (planeStressLaw msqrt (svk p) nfGt tol).stress ![a, 0, 0]) (tol / |p.lambda|) := by
    intro msqrt p hmu hM hl nfGt tol htol hc
    have hla : 0 < |p.lambda| := abs_pos.2 hl
    obtain ⟨a, ha⟩ : ∃ a, a = tol / |p.lambda| := ⟨_, rfl⟩
    have ha0 : 0 < a := ha ▸ div_pos htol hla
    have hat : |p.lambda| * a = tol := by rw [ha]; field_simp
    rw [← ha] at hc
    have h1 : Filter.Tendsto (fun s : ℝ => (planeStressLaw msqrt (svk p) nfGt tol).stress ![s, 0, 0] 0) (nhdsWithin a (Set.Ioi a))
        (nhds ((p.lambda + 2 * p.mu) * a)) := by
      have h2 := ((continuous_apply (0 : Fin 3)).continuousAt.comp hc).tendsto
      simp only [Function.comp_def] at h2
      rw [planeStress_uniaxial msqrt p hmu hM nfGt htol.le a, if_pos (by rw [abs_mul, abs_of_pos ha0, hat])] at h2
      exact h2.mono_left nhdsWithin_le_nhds
    have h2 : Filter.Tendsto (fun s : ℝ => (planeStressLaw msqrt (svk p) nfGt tol).stress ![s, 0, 0] 0) (nhdsWithin a (Set.Ioi a))
        (nhds ((2 * p.lambda * p.mu / (p.lambda + 2 * p.mu) + 2 * p.mu) * a)) := by
      have h3 : Filter.Tendsto (fun s : ℝ => (2 * p.lambda * p.mu / (p.lambda + 2 * p.mu) + 2 * p.mu) * s) (nhdsWithin a (Set.Ioi a))
          (nhds ((2 * p.lambda * p.mu / (p.lambda + 2 * p.mu) + 2 * p.mu) * a)) :=
        ((continuous_const.mul continuous_id).tendsto a).mono_left nhdsWithin_le_nhds
      refine h3.congr' ?_
      filter_upwards [self_mem_nhdsWithin] with s hs
      have hs : a < s := hs
      rw [planeStress_uniaxial msqrt p hmu hM nfGt htol.le s, if_neg]
      rw [abs_mul, abs_of_pos (ha0.trans hs), ← hat, not_le]
      exact mul_lt_mul_of_pos_left hs hla
    have h3 := tendsto_nhds_unique h1 h2
    have h4 := mul_right_cancel₀ ha0.ne' h3
    field_simp at h4
    have h5 : p.lambda * p.lambda = 0 := by linarith
    exact hl (mul_self_eq_zero.1 h5)
  refine ⟨fun h => ?_, hjump⟩
  have hc := h id (svk ⟨1, 1⟩) false 1 one_pos (svk_law _) (svk_scale _)
  refine hjump id ⟨1, 1⟩ (by norm_num) (by norm_num) (by norm_num) false 1 one_pos ?_
  have hmu : (⟨1, 1⟩ : SVK ℝ).mu ≠ 0 := by norm_num
  have hM : (⟨1, 1⟩ : SVK ℝ).lambda + 2 * (⟨1, 1⟩ : SVK ℝ).mu ≠ 0 := by norm_num
  have hd : ∀ t : ℝ, HasDerivAt (fun s : ℝ => ![s, 0, 0]) ![1, 0, 0] t := fun t => hasDerivAt_pi.2 fun i => by
    fin_cases i
    · exact hasDerivAt_id t
    · exact hasDerivAt_const t 0
    · exact hasDerivAt_const t 0
  refine (hc.tangent (fun s => ![s, 0, 0]) ![1, 0, 0] _ ?_ (hd _)).continuousAt
  have ha : ∀ x, planeArgument id (svk ⟨1, 1⟩) x = some (fromVoigt3 (enlargeVector planeFree x) true) := fun x => by
    simp [planeArgument, transformStrain, svk]
  obtain ⟨Esol, hr, -⟩ := planeStress_svk ⟨1, 1⟩ hmu hM false 1 zero_le_one (.matrix (fromVoigt3 (enlargeVector planeFree
    ![1 / |(1 : ℝ)|, 0, 0]) true))
  exact ⟨_, Esol, ha _, by rw [underlying_svk]; exact hr⟩

end Ikarus.Element
