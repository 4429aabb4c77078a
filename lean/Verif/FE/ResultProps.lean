import Verif.FE.ResultLemmas

/-!
C101. The stresses elements report.
-/

namespace Ikarus.Element.Result

open Matrix VanishingStress

variable {n d q m g : Nat}

/-- The nodal forces of stresses `sigma` at points with volumes `dV` and strain operators `B`: their work on any virtual
displacement is the work of the stresses on the virtual strains. -/
noncomputable def Spec.forcesOf {α : Type} (pts : List α) (dV : α → ℝ) (B : α → Fin n → Matrix (Fin q) (Fin d) ℝ)
    (sigma : α → Fin q → ℝ) : NodeVec n d :=
  fun I => (pts.map fun p => dV p • ((B p I)ᵀ *ᵥ sigma p)).sum

theorem forcesOf_eq {α : Type} (pts : List α) (dV : α → ℝ) (B : α → Fin n → Matrix (Fin q) (Fin d) ℝ)
    (sigma : α → Fin q → ℝ) (F : α → NodeVec n d) (h : ∀ p ∈ pts, F p = fun I => dV p • ((B p I)ᵀ *ᵥ sigma p)) :
    (pts.map F).sum = Spec.forcesOf pts dV B sigma := by
  funext I
  rw [Spec.forcesOf, list_sum_apply]
  congr 1
  exact List.map_congr_left fun p hp => by rw [h p hp]

/-- C101, linear element. If the material is linear with the tangent of the element, the nodal forces are those of the stresses
reported at the integration points. -/
theorem linear_forces_reported (mat : ResultMaterial q) (C : Matrix (Fin q) (Fin q) ℝ) (gps : List (LinPoint n d q))
    (u f : NodeVec n d) (sigma : LinPoint n d q → Fin q → ℝ)
    (hmat : ∀ gp ∈ gps, mat.calculateStress (gp.strain u) = some (C *ᵥ gp.strain u))
    (hs : ∀ gp ∈ gps, linearElastic false mat .linearStress (gp.strain u) = some (.element (sigma gp))) :
    LinearElastic.calculateVector false C gps u f =
      f + Spec.forcesOf gps (fun gp => gp.detJ * gp.weight) (fun gp => gp.bop) sigma := by
  rw [LinearElastic.calculateVector_sum]
  congr 1
  refine forcesOf_eq _ _ _ _ _ fun gp hgp => ?_
  have h := hs gp hgp
  simp only [linearElastic, Bool.false_eq_true, if_false, hmat gp hgp, Option.map_some, Option.some.injEq,
    Reported.element.injEq] at h
  rw [← h]
  rfl

/-- C101, nonlinear element. The nodal forces are those of the second Piola-Kirchhoff stresses reported at the integration
points. -/
theorem nonLinear_forces_reported (mat : ResultMaterial q) (v : Voigt d q) (law : Law q) (gps : List (Point n d q))
    (H : Point n d q → Matrix (Fin d) (Fin d) ℝ) (u f : NodeVec n d) (sigma : Point n d q → Fin q → ℝ)
    (hmat : ∀ gp ∈ gps, mat.calculateStress (gp.strain u) = some (law.stress (gp.strain u)))
    (hH : ∀ gp ∈ gps, gp.strain u = v.toVoigt ((1 / 2 : ℝ) • (H gp + (H gp)ᵀ + (H gp)ᵀ * H gp)) true)
    (hs : ∀ gp ∈ gps, nonLinearElastic false mat v .PK2Stress (H gp) = some (.element (sigma gp))) :
    NonLinearElastic.calculateVector false law gps u f =
      f + Spec.forcesOf gps (fun gp => gp.detJ * gp.weight) (fun gp => gp.bop u) sigma := by
  rw [NonLinearElastic.calculateVector_sum]
  congr 1
  refine forcesOf_eq _ _ _ _ _ fun gp hgp => ?_
  have h := hs gp hgp
  have h2 := hmat gp hgp
  rw [hH gp hgp] at h2
  simp only [nonLinearElastic, Bool.false_eq_true, if_false, transformStrain, createDeformationGradient,
    createGreenLagrangianStrains, reduceCtorEq, or_self, Option.bind_eq_bind, Option.bind_some, h2, fromPK2,
    Option.some.injEq, Reported.element.injEq] at h
  rw [← h, ← hH gp hgp]
  rfl

/-- C101, enhanced strains, linear. Whatever internal variables the element holds, the condensed nodal forces are those of the
linear stresses reported at the integration points. -/
theorem eas_linear_forces_reported (mat : ResultMaterial q) (v : Voigt d q) (C : Matrix (Fin q) (Fin q) ℝ) (hC : C.IsSymm)
    (gps : List (LinPoint n d q × Matrix (Fin q) (Fin m) ℝ)) (H : Matrix (Fin d) (Fin d) ℝ) (hm : m ≠ 0)
    (ha : EAS.applicable n d m = true)
    (hD : IsUnit (EAS.calculateD (linearLaw C) (EAS.linearPoints gps) 0 0).det)
    (hmat : ∀ e, mat.calculateStress e = some (C *ᵥ e)) (u : NodeVec n d) (alpha : Fin m → ℝ)
    (sigma : EAS.EASPoint n d q m → Fin q → ℝ)
    (hs : ∀ gp ∈ EAS.linearPoints gps, enhancedAssumedStrains mat v (linearLaw C) (EAS.linearPoints gps) gp H .linearStress u
      alpha = some (.element (sigma gp))) :
    EAS.calculateVector (linearLaw C) (EAS.linearPoints gps) .forces u alpha 0 =
      some (Spec.forcesOf (EAS.linearPoints gps) (fun gp => gp.detJ * gp.weight) (fun gp => gp.Ed u alpha) sigma) := by
  set a := EAS.linearAlpha (linearLaw C) (EAS.linearPoints gps) u alpha with haa
  have h1 : Spec.forcesOf (EAS.linearPoints gps) (fun gp => gp.detJ * gp.weight) (fun gp => gp.Ed u alpha) sigma =
      EAS.forces (linearLaw C) (EAS.linearPoints gps) u a := by
    rw [EAS.forces]
    refine (forcesOf_eq _ _ _ _ _ fun gp hgp => ?_).symm
    have h := hs gp hgp
    simp only [enhancedAssumedStrains, true_or, if_true, hmat, Option.map_some, Option.some.injEq,
      Reported.element.injEq] at h
    rw [← h]
    obtain ⟨p, _, rfl⟩ := List.mem_map.1 hgp
    rfl
  obtain ⟨Kc, k1, k2, k3, -⟩ := EAS.eas_linear C gps hC hm ha hD
  have h2 := k2 u a
  rw [EAS.calculateVector_eq _ _ _ _ hm ha, k3 u alpha, Matrix.mulVec_zero, zero_add] at h2
  rw [k2 u alpha, h1, ← h2]
  congr 1
  funext I
  rw [Pi.sub_apply, EAS.mulLT_eq, Matrix.mulVec_zero, sub_zero]

/-- C101, enhanced strains, nonlinear. Where the internal variables of the element are in equilibrium, the nodal forces are those
of the second Piola-Kirchhoff stresses reported at the integration points. -/
theorem eas_forces_reported (mat : ResultMaterial q) (v : Voigt d q) (law : Law q) (gps : List (EAS.EASPoint n d q m))
    (H : EAS.EASPoint n d q m → Matrix (Fin d) (Fin d) ℝ) (hm : m ≠ 0) (ha : EAS.applicable n d m = true)
    (u : NodeVec n d) (alpha : Fin m → ℝ) (sigma : EAS.EASPoint n d q m → Fin q → ℝ)
    (hmat : ∀ gp ∈ gps, mat.calculateStress (gp.strain u alpha) = some (law.stress (gp.strain u alpha)))
    (heq : EAS.calculateRtilde law gps u alpha = 0)
    (hs : ∀ gp ∈ gps, enhancedAssumedStrains mat v law gps gp (H gp) .PK2Stress u alpha = some (.element (sigma gp))) :
    EAS.calculateVector law gps .forces u alpha 0 =
      some (Spec.forcesOf gps (fun gp => gp.detJ * gp.weight) (fun gp => gp.Ed u alpha) sigma) := by
  rw [EAS.calculateVector_eq _ _ _ _ hm ha, heq, Matrix.mulVec_zero, zero_add]
  congr 1
  have h0 : EAS.Spec.mulLT (EAS.calculateL law gps u alpha) 0 = 0 := by
    funext I
    rw [EAS.mulLT_eq, Matrix.mulVec_zero]
    rfl
  rw [h0, sub_zero, EAS.forces]
  refine forcesOf_eq _ _ _ _ _ fun gp hgp => ?_
  have h := hs gp hgp
  simp only [enhancedAssumedStrains, reduceCtorEq, or_self, if_false, hmat gp hgp, Option.bind_some, transformStrain,
    createDeformationGradient, fromPK2, Option.some.injEq, Reported.element.injEq] at h
  rw [← h]
  rfl

/-- C101, assumed stresses, linear. Whatever internal variables the element holds, the condensed nodal forces are those of the
linear stresses reported at the integration points. -/
theorem as_linear_forces_reported (inv : AssumedStress.Inversion q) (mat : ResultMaterial q) (v : Voigt d q)
    (A : Matrix (Fin q) (Fin q) ℝ) (hA : A.IsSymm) (gps : Fin g → LinPoint n d q × Matrix (Fin q) (Fin m) ℝ)
    (hinv : AssumedStress.Spec.Inverts inv (linearLaw A) Set.univ) (hm : m ≠ 0) (ha : AssumedStress.asApplicable n d = true)
    (hH : IsUnit (AssumedStress.calculateH (AssumedStress.linearASPoints gps)
      (AssumedStress.Spec.stateAt (linearLaw A) (AssumedStress.linearASPoints gps) 0)).det)
    (H : Matrix (Fin d) (Fin d) ℝ) (u : NodeVec n d) (st : AssumedStress.State q m g)
    (hst : AssumedStress.Spec.Reachable inv (AssumedStress.linearASPoints gps) st) (strain0 : Fin q → ℝ)
    (sigma : Fin g → Fin q → ℝ)
    (hs : ∀ i, assumedStress inv mat v (AssumedStress.linearASPoints gps) (gps i).2 H .linearStress u st strain0 =
      some (.element (sigma i))) :
    AssumedStress.calculateVector (AssumedStress.linearASPoints gps) st .forces u 0 =
      some (Spec.forcesOf (List.finRange g) (fun i => (gps i).1.detJ * (gps i).1.weight) (fun i => (gps i).1.bop) sigma) := by
  set b := AssumedStress.linearBeta (AssumedStress.linearASPoints gps) st u with hb
  obtain ⟨Kc, -, k2, k3, -⟩ := AssumedStress.as_linear A gps inv hinv hA hm ha hH
  have hR := (k3 st u hst).1
  have hst' := AssumedStress.as_states inv _ Set.univ hinv _ st hst fun _ => trivial
  have hinv1 := Matrix.nonsing_inv_mul _ hH
  have h1 : Spec.forcesOf (List.finRange g) (fun i => (gps i).1.detJ * (gps i).1.weight) (fun i => (gps i).1.bop) sigma =
      AssumedStress.Spec.forces (AssumedStress.linearASPoints gps) u b := by
    funext I
    rw [Spec.forcesOf, AssumedStress.Spec.forces, ← List.ofFn_eq_map, List.sum_ofFn]
    refine Finset.sum_congr rfl fun i _ => ?_
    have h := hs i
    simp only [assumedStress, true_or, if_true, Option.some.injEq, Reported.element.injEq] at h
    rw [← h]
    rfl
  rw [h1, AssumedStress.linear_forces, hst', AssumedStress.pair_calculateVector _ _ _ _ hm _ _ ha,
    EAS.calculateVector_eq _ _ _ _ hm (AssumedStress.applicable_of_as ha), zero_add,
    AssumedStress.pair_forces, AssumedStress.pair_D, AssumedStress.pair_L, AssumedStress.pair_R, AssumedStress.linear_forces,
    AssumedStress.linear_residual, AssumedStress.linearH A gps st.beta 0, AssumedStress.nonsing_inv_neg, Matrix.neg_mulVec, EAS.mulLT_neg,
    sub_neg_eq_add, ← EAS.mulLT_add, Matrix.mulVec_sub, Matrix.mulVec_mulVec, hinv1, Matrix.one_mulVec]
  congr 2
  rw [hb, AssumedStress.linearBeta, EAS.mulL_eq, add_sub_cancel, hst']
  rfl

/-- C101, assumed stresses, nonlinear. Where the internal variables of the element are in equilibrium, the nodal forces are those
of the second Piola-Kirchhoff stresses reported at the integration points. -/
theorem as_forces_reported (inv : AssumedStress.Inversion q) (mat : ResultMaterial q) (v : Voigt d q)
    (gps : Fin g → AssumedStress.ASPoint n d q m) (ha : AssumedStress.asApplicable n d = true)
    (H : Matrix (Fin d) (Fin d) ℝ) (u : NodeVec n d) (st : AssumedStress.State q m g) (strain0 : Fin q → ℝ)
    (sigma : Fin g → Fin q → ℝ) (heq : AssumedStress.calculateRtilde gps st u = 0)
    (hs : ∀ i, assumedStress inv mat v gps (gps i).P H .PK2Stress u st strain0 = some (.element (sigma i))) :
    AssumedStress.calculateVector gps st .forces u 0 =
      some (Spec.forcesOf (List.finRange g) (fun i => (gps i).point.detJ * (gps i).point.weight)
        (fun i => (gps i).point.bop u) sigma) := by
  unfold AssumedStress.calculateVector
  simp only [ne_eq, not_true_eq_false, if_false, ha, Bool.not_true, Bool.false_eq_true, heq, Matrix.mulVec_zero]
  congr 1
  have h0 : (fun _ : Fin n => (0 : Fin d → ℝ)) = 0 := rfl
  rw [h0, add_zero]
  refine Eq.trans (foldl_congr' (fun f i => foldl_addSegment (fun I => ((gps i).point.detJ * (gps i).point.weight) •
    (((gps i).point.bop u I)ᵀ *ᵥ (gps i).value st.beta)) f) _ _) ?_
  rw [foldl_add_sum, zero_add]
  refine forcesOf_eq _ _ _ _ _ fun i _ => ?_
  have h := hs i
  simp only [assumedStress, reduceCtorEq, or_self, if_false, transformStrain, createDeformationGradient, Option.bind_some,
    fromPK2, Option.some.injEq, Reported.element.injEq] at h
  rw [← h]
  rfl

/-- C101, displacement pressure element. The nodal forces of the displacements are those of the second Piola-Kirchhoff stresses
reported at the integration points. -/
theorem dp_forces_reported (dev vol : ResultMaterial q) (v : Voigt d q) (c : DisplacementPressure.Driver q)
    (gps : List (DisplacementPressure.DPPoint n m d q)) (H : DisplacementPressure.DPPoint n m d q → Matrix (Fin d) (Fin d) ℝ)
    (u : NodeVec n d) (p : Fin m → ℝ) (f : DisplacementPressure.Vec n m d)
    (sigma : DisplacementPressure.DPPoint n m d q → Fin q → ℝ)
    (hdev : ∀ gp ∈ gps, dev.calculateStress (gp.strain u) = some (c.dev.stress (gp.strain u)))
    (hvol : ∀ gp ∈ gps, vol.calculateStress (gp.strain u) = some (c.vol.stress (gp.strain u)))
    (hH : ∀ gp ∈ gps, gp.strain u = v.toVoigt ((1 / 2 : ℝ) • (H gp + (H gp)ᵀ + (H gp)ᵀ * H gp)) true)
    (hs : ∀ gp ∈ gps, displacementPressure dev vol v .PK2Stress (H gp) (gp.pressure p) = some (.element (sigma gp))) :
    (DisplacementPressure.calculateVector c gps u p f).u =
      f.u + Spec.forcesOf gps (fun gp => gp.detJ * gp.weight) (fun gp => gp.bop u) sigma := by
  rw [DisplacementPressure.calculateVector_sum]
  show f.u + _ = _
  congr 1
  refine forcesOf_eq _ _ _ _ _ fun gp hgp => ?_
  have h := hs gp hgp
  have h1 := hdev gp hgp
  have h2 := hvol gp hgp
  rw [hH gp hgp] at h1 h2
  simp only [displacementPressure, transformStrain, createDeformationGradient,
    createGreenLagrangianStrains, reduceCtorEq, or_self, if_false, Option.bind_eq_bind, Option.bind_some, h1, h2, fromPK2,
    Option.some.injEq, Reported.element.injEq] at h
  rw [← h, ← hH gp hgp]
  rfl

/-! ### Stresses of the current configuration -/

/-- What the conversions have to do with symmetric matrices. -/
structure Spec.RoundTrip (v : Voigt d q) : Prop where
  symm : ∀ S, (v.fromVoigt S false).IsSymm
  from_to : ∀ T : Matrix (Fin d) (Fin d) ℝ, T.IsSymm → v.fromVoigt (v.toVoigt T false) false = T

theorem plane_roundTrip : Spec.RoundTrip Voigt.plane where
  symm S := by
    ext i j
    fin_cases i <;> fin_cases j <;> simp [Voigt.plane, fromVoigt2]
  from_to T hT := by
    have h : T 1 0 = T 0 1 := hT.apply 0 1
    ext i j
    fin_cases i <;> fin_cases j <;> simp [Voigt.plane, fromVoigt2, toVoigt2, invStrainFactor, strainFactor, h]

theorem space_roundTrip : Spec.RoundTrip Voigt.space where
  symm S := by
    ext i j
    fin_cases i <;> fin_cases j <;> simp [Voigt.space, fromVoigt3]
  from_to T hT := by
    have h1 : T 1 0 = T 0 1 := hT.apply 0 1
    have h2 : T 2 0 = T 0 2 := hT.apply 0 2
    have h3 : T 2 1 = T 1 2 := hT.apply 1 2
    ext i j
    fin_cases i <;> fin_cases j <;> simp [Voigt.space, fromVoigt3, toVoigt3, invStrainFactor, strainFactor, h1, h2, h3]

/-- C101, current configuration. With the second Piola-Kirchhoff stress `S` the element reports the Kirchhoff stress
`τ = F S Fᵀ` and the Cauchy stress `σ` with `det F σ = τ`; their work on a virtual displacement gradient is that of `S`. -/
theorem spatial_reported (v : Voigt d q) (hv : Spec.RoundTrip v) (mat : ResultMaterial q) (H : Matrix (Fin d) (Fin d) ℝ)
    (S : Fin q → ℝ) (hdet : (H + 1).det ≠ 0) (hS : nonLinearElastic false mat v .PK2Stress H = some (.element S)) :
    ∃ tau sigma, nonLinearElastic false mat v .kirchhoffStress H = some (.element tau) ∧
      nonLinearElastic false mat v .cauchyStress H = some (.element sigma) ∧
      v.fromVoigt tau false = (H + 1) * v.fromVoigt S false * (H + 1)ᵀ ∧
      (H + 1).det • v.fromVoigt sigma false = v.fromVoigt tau false ∧
      ∀ dH, (v.fromVoigt tau false * (dH * (H + 1)⁻¹)).trace = (v.fromVoigt S false * ((H + 1)ᵀ * dH)).trace := by
  simp only [nonLinearElastic, Bool.false_eq_true, if_false, transformStrain, createDeformationGradient,
    createGreenLagrangianStrains, reduceCtorEq, or_self, Option.bind_eq_bind, Option.bind_some] at hS ⊢
  cases hm : mat.calculateStress (v.toVoigt ((1 / 2 : ℝ) • (H + Hᵀ + Hᵀ * H)) true) with
  | none => rw [hm] at hS; simp at hS
  | some S' =>
    rw [hm] at hS
    simp only [Option.bind_some, fromPK2, Option.some.injEq, Reported.element.injEq] at hS
    subst hS
    have hsym : ((H + 1) * v.fromVoigt S' false * (H + 1)ᵀ).IsSymm := by
      show _ = _
      rw [Matrix.transpose_mul, Matrix.transpose_mul, Matrix.transpose_transpose, (hv.symm S').eq, Matrix.mul_assoc]
    have hsym' : (((1 / (H + 1).det) • (H + 1)) * v.fromVoigt S' false * (H + 1)ᵀ).IsSymm := by
      rw [Matrix.smul_mul, Matrix.smul_mul]
      exact hsym.smul _
    refine ⟨v.toVoigt ((H + 1) * v.fromVoigt S' false * (H + 1)ᵀ) false,
      v.toVoigt (((1 / (H + 1).det) • (H + 1)) * v.fromVoigt S' false * (H + 1)ᵀ) false, ?_, ?_, hv.from_to _ hsym, ?_, ?_⟩
    · simp [fromPK2, spatialStress, transformStress, createKirchhoffStress]
    · simp [fromPK2, spatialStress, transformStress, createCauchyStress]
    · rw [hv.from_to _ hsym, hv.from_to _ hsym', Matrix.smul_mul, Matrix.smul_mul, smul_smul, mul_one_div_cancel hdet,
        one_smul]
    · intro dH
      rw [hv.from_to _ hsym]
      have hu : IsUnit (H + 1).det := isUnit_iff_ne_zero.2 hdet
      rw [← Matrix.mul_assoc, Matrix.trace_mul_comm, ← Matrix.mul_assoc, Matrix.mul_assoc (H + 1), ← Matrix.mul_assoc,
        ← Matrix.mul_assoc, Matrix.nonsing_inv_mul _ hu, Matrix.one_mul, Matrix.mul_assoc]

/-! ### Full stresses -/

/-- The full stress has the components the element reports. -/
def Spec.FullAgrees (report : ResultType → Option (Reported 3)) (rt full : ResultType) : Prop :=
  ∀ s, report rt = some (.element s) → ∃ S, report full = some (.full S) ∧ ∀ i, S (planeFree i) = s i

theorem agrees_of_map (mat : ResultMaterial 3) (e : Fin 3 → ℝ) (s : Fin 3 → ℝ)
    (h : mat.calculateStress e = (mat.calculateStressFull e).map fun S i => S (planeFree i))
    (hs : mat.calculateStress e = some s) : ∃ S, mat.calculateStressFull e = some S ∧ ∀ i, S (planeFree i) = s i := by
  rw [h] at hs
  obtain ⟨S, h1, h2⟩ := Option.map_eq_some_iff.1 hs
  exact ⟨S, h1, fun i => congrFun h2 i⟩

/-- C101, plane strain. For materials with vanishing strains the full stress extends the stress of the element: for linear and
nonlinear elements, with enhanced strains, assumed stresses (if the material is inverted exactly) and pressure. -/
theorem planeStrain_full (law dev vol : UnderlyingLaw) (tag : StrainTag) (msqrt : M3 → M3) (h : Compatible tag law)
    (hd : Compatible tag dev) (hvol : Compatible tag vol) :
    (∀ e, Spec.FullAgrees (fun rt => linearElastic false (planeStrain law tag msqrt) rt e) .linearStress .linearStressFull) ∧
    (∀ H, Spec.FullAgrees (fun rt => nonLinearElastic false (planeStrain law tag msqrt) Voigt.plane rt H)
      .PK2Stress .PK2StressFull) ∧
    (∀ (l : Law 3) (gps : List (EAS.EASPoint n 2 3 m)) gp H u alpha,
      Spec.FullAgrees (fun rt => enhancedAssumedStrains (planeStrain law tag msqrt) Voigt.plane l gps gp H rt u alpha)
        .linearStress .linearStressFull ∧
      Spec.FullAgrees (fun rt => enhancedAssumedStrains (planeStrain law tag msqrt) Voigt.plane l gps gp H rt u alpha)
        .PK2Stress .PK2StressFull) ∧
    (∀ (inv : AssumedStress.Inversion 3) (gps : Fin g → AssumedStress.ASPoint n 2 3 m) P H u st strain0,
      (∀ S, (planeStrain law tag msqrt).calculateStress (inv S strain0).2 = some S) →
      Spec.FullAgrees (fun rt => assumedStress inv (planeStrain law tag msqrt) Voigt.plane gps P H rt u st strain0)
        .linearStress .linearStressFull ∧
      Spec.FullAgrees (fun rt => assumedStress inv (planeStrain law tag msqrt) Voigt.plane gps P H rt u st strain0)
        .PK2Stress .PK2StressFull) ∧
    ∀ H p, Spec.FullAgrees (fun rt => displacementPressure (planeStrain dev tag msqrt) (planeStrain vol tag msqrt) Voigt.plane
      rt H p) .PK2Stress .PK2StressFull := by
  refine ⟨fun e s hs => ?_, fun H s hs => ?_, fun l gps gp H u alpha => ⟨fun s hs => ?_, fun s hs => ?_⟩,
    fun inv gps P H u st strain0 hinv => ⟨fun s hs => ?_, fun s hs => ?_⟩, fun H p s hs => ?_⟩
  · simp only [linearElastic, Bool.false_eq_true, if_false] at hs ⊢
    obtain ⟨s', h1, h2⟩ := Option.map_eq_some_iff.1 hs
    obtain rfl := Reported.element.inj h2
    obtain ⟨S, h3, h4⟩ := agrees_of_map _ e s' (planeStrain_stress law tag msqrt h e) h1
    exact ⟨S, by rw [h3]; rfl, h4⟩
  · simp only [nonLinearElastic, Bool.false_eq_true, if_false, transformStrain, createDeformationGradient,
      createGreenLagrangianStrains, reduceCtorEq, or_self, Option.bind_eq_bind, Option.bind_some] at hs ⊢
    obtain ⟨s', h1, h2⟩ := Option.bind_eq_some_iff.1 hs
    obtain rfl := Reported.element.inj (Option.some.inj h2)
    obtain ⟨S, h3, h4⟩ := agrees_of_map _ _ s' (planeStrain_stress law tag msqrt h _) h1
    exact ⟨S, by rw [h3]; rfl, h4⟩
  · simp only [enhancedAssumedStrains, true_or, or_true, if_true] at hs ⊢
    obtain ⟨s', h1, h2⟩ := Option.map_eq_some_iff.1 hs
    obtain rfl := Reported.element.inj h2
    obtain ⟨S, h3, h4⟩ := agrees_of_map _ _ s' (planeStrain_stress law tag msqrt h _) h1
    exact ⟨S, by rw [h3]; rfl, h4⟩
  · simp only [enhancedAssumedStrains, reduceCtorEq, or_self, if_false, transformStrain, createDeformationGradient,
      Option.bind_some] at hs ⊢
    obtain ⟨s', h1, h2⟩ := Option.bind_eq_some_iff.1 hs
    obtain rfl := Reported.element.inj (Option.some.inj h2)
    obtain ⟨S, h3, h4⟩ := agrees_of_map _ _ s' (planeStrain_stress law tag msqrt h _) h1
    exact ⟨S, by rw [h3]; rfl, h4⟩
  · simp only [assumedStress, true_or, or_true, if_true, Option.some.injEq, Reported.element.injEq] at hs ⊢
    subst hs
    obtain ⟨S, h3, h4⟩ := agrees_of_map _ _ _ (planeStrain_stress law tag msqrt h _) (hinv _)
    refine ⟨S, ?_, h4⟩
    rw [if_pos (by rfl)]
    exact congrArg (Option.map Reported.full) h3
  · simp only [assumedStress, reduceCtorEq, or_self, if_false, transformStrain, createDeformationGradient, Option.bind_some,
      fromPK2, Option.some.injEq, Reported.element.injEq] at hs ⊢
    subst hs
    obtain ⟨S, h3, h4⟩ := agrees_of_map _ _ _ (planeStrain_stress law tag msqrt h _) (hinv _)
    refine ⟨S, ?_, h4⟩
    rw [if_pos (by rfl)]
    exact congrArg (Option.map Reported.full) h3
  · simp only [displacementPressure, transformStrain, createDeformationGradient, createGreenLagrangianStrains, reduceCtorEq,
      or_self, if_false, Option.bind_eq_bind, Option.bind_some] at hs ⊢
    obtain ⟨sd, h1, h2⟩ := Option.bind_eq_some_iff.1 hs
    obtain ⟨sv, h3, h4⟩ := Option.bind_eq_some_iff.1 h2
    obtain rfl := Reported.element.inj (Option.some.inj h4)
    obtain ⟨Sd, h5, h6⟩ := agrees_of_map _ _ sd (planeStrain_stress dev tag msqrt hd _) h1
    obtain ⟨Sv, h7, h8⟩ := agrees_of_map _ _ sv (planeStrain_stress vol tag msqrt hvol _) h3
    refine ⟨Sd + p • Sv, by rw [h5, h7]; rfl, fun i => ?_⟩
    simp [h6, h8]

theorem planeStress_transform (m : SVK ℝ) (law : UnderlyingLaw) (tag : StrainTag) (msqrt : M3 → M3)
    (hl : (law = linearElasticity m ∧ tag = .linear) ∨ (law = svkLaw m ∧ tag = .greenLagrangian)) (E : M3) :
    transformStrain msqrt tag law.strainTag E = some E := by
  obtain ⟨rfl, rfl⟩ | ⟨rfl, rfl⟩ := hl <;> simp [transformStrain, linearElasticity, svkLaw]

/-- The full stress reported for plane stress. -/
theorem planeStress_fullStress (m : SVK ℝ) (law : UnderlyingLaw) (tag : StrainTag) (msqrt : M3 → M3) (nfGt : Bool) (tol : ℝ)
    (hl : (law = linearElasticity m ∧ tag = .linear) ∨ (law = svkLaw m ∧ tag = .greenLagrangian)) (e : Fin 3 → ℝ) :
    (planeStress law tag msqrt nfGt tol).calculateStressFull e =
      some ![(m.lambda + 2 * m.mu) * e 0 + m.lambda * e 1, m.lambda * e 0 + (m.lambda + 2 * m.mu) * e 1,
        m.lambda * (e 0 + e 1), 0, 0, m.mu * e 2] := by
  simp only [planeStress, ResultMaterial.calculateStressFull, ResultMaterial.underlyingStresses,
    ResultMaterial.enlargeIfReduced, solidStresses, fromVoigt_plane, planeStress_transform m law tag msqrt hl, Option.bind_some]
  have : law.stress = fun E => some (m.stressMatrixToVoigt E) := by obtain ⟨rfl, _⟩ | ⟨rfl, _⟩ := hl <;> rfl
  rw [this, Option.some.injEq]
  funext i
  fin_cases i <;> simp [SVK.stressMatrixToVoigt, Matrix.trace, Fin.sum_univ_three] <;> ring

/-- C101, plane stress. The stresses reported for the two linear materials in plane stress are the plane stress moduli times the
strains, up to the tolerance of the reduction. -/
theorem planeStress_reported (m : SVK ℝ) (hmu : m.mu ≠ 0) (hM : m.lambda + 2 * m.mu ≠ 0) (law : UnderlyingLaw) (tag : StrainTag)
    (msqrt : M3 → M3) (nfGt : Bool) (tol : ℝ) (htol : 0 ≤ tol)
    (hl : (law = linearElasticity m ∧ tag = .linear) ∨ (law = svkLaw m ∧ tag = .greenLagrangian)) (e : Fin 3 → ℝ) :
    ∃ s, (planeStress law tag msqrt nfGt tol).calculateStress e = some s ∧
      ∀ i, |s i - (VanishingStress.Spec.planeStressModuli m *ᵥ e) i| ≤ |m.lambda / (m.lambda + 2 * m.mu)| * tol := by
  have hsv : stressesVoigt law planeStressPairs nfGt tol (.matrix (fromVoigt3 (enlargeVector planeFree e) true)) =
      stressesVoigt (svkLaw m) planeStressPairs nfGt tol (.matrix (fromVoigt3 (enlargeVector planeFree e) true)) := by
    obtain ⟨rfl, _⟩ | ⟨rfl, _⟩ := hl
    · unfold stressesVoigt
      rw [linearElasticity_reduce]
      rfl
    · rfl
  simp only [planeStress, ResultMaterial.calculateStress, ResultMaterial.stresses,
    ResultMaterial.enlargeIfReduced, planeStress_transform m law tag msqrt hl, Option.bind_some, hsv]
  obtain ⟨Esol, hr, -, h⟩ := planeStress_svk m hmu hM nfGt tol htol (.matrix (fromVoigt3 (enlargeVector planeFree e) true))
  obtain ⟨hred, -, -, hs⟩ := vanishingStress_reduced_partial (svkLaw m) planeStressPairs nfGt tol _ Esol hr
  have h00 := hred.free 0 0 (by rw [isFixed_plane]; decide)
  have h11 := hred.free 1 1 (by rw [isFixed_plane]; decide)
  have h01 := hred.free 0 1 (by rw [isFixed_plane]; decide)
  rw [StrainArg.maybeFromVoigt, fromVoigt_plane] at h00 h11 h01 h
  simp at h00 h11 h01
  rcases h with ⟨h22, hle⟩ | ⟨_, hst⟩
  · rw [hs _ planeFree rfl planeFree_eq]
    refine ⟨_, rfl, fun i => ?_⟩
    simp at h22
    rw [h22, h00, h11, mul_zero, zero_add] at hle
    have key : ∀ x : ℝ, |x| = |m.lambda / (m.lambda + 2 * m.mu)| * |m.lambda * (e 0 + e 1)| ∨ x = 0 →
        |x| ≤ |m.lambda / (m.lambda + 2 * m.mu)| * tol := by
      rintro x (hx | hx)
      · rw [hx]
        exact mul_le_mul_of_nonneg_left hle (abs_nonneg _)
      · rw [hx, abs_zero]
        exact mul_nonneg (abs_nonneg _) htol
    apply key
    fin_cases i
    · left
      rw [← abs_mul]
      congr 1
      simp [planeFree, SVK.stressMatrixToVoigt, Matrix.trace, Fin.sum_univ_three, VanishingStress.Spec.planeStressModuli,
        Matrix.mulVec, dotProduct, h22, h00, h11]
      field_simp
      ring
    · left
      rw [← abs_mul]
      congr 1
      simp [planeFree, SVK.stressMatrixToVoigt, Matrix.trace, Fin.sum_univ_three, VanishingStress.Spec.planeStressModuli,
        Matrix.mulVec, dotProduct, h22, h00, h11]
      field_simp
      ring
    · right
      simp [planeFree, SVK.stressMatrixToVoigt, Matrix.trace, Fin.sum_univ_three, VanishingStress.Spec.planeStressModuli,
        Matrix.mulVec, dotProduct, h01]
      ring
  · rw [fromVoigt_plane, hst]
    refine ⟨_, rfl, fun i => ?_⟩
    have he : (![!![e 0, e 2 * (1 / 2), 0; e 2 * (1 / 2), e 1, 0; 0, 0, 0] 0 0,
        !![e 0, e 2 * (1 / 2), 0; e 2 * (1 / 2), e 1, 0; 0, 0, 0] 1 1,
        2 * !![e 0, e 2 * (1 / 2), 0; e 2 * (1 / 2), e 1, 0; 0, 0, 0] 0 1] : Fin 3 → ℝ) = e := by
      funext i
      fin_cases i <;> simp
      ring
    rw [he, sub_self, abs_zero]
    exact mul_nonneg (abs_nonneg _) htol

/-- C101, the materials meet the hypotheses above. In space and in plane strain the stress of the two linear materials is the
material tangent, in plane strain its rows and columns of the plane, times the strain. -/
theorem linear_materials (m : SVK ℝ) (law : UnderlyingLaw) (tag : StrainTag) (msqrt : M3 → M3)
    (hl : (law = linearElasticity m ∧ tag = .linear) ∨ (law = svkLaw m ∧ tag = .greenLagrangian)) :
    (∀ e, (solid law tag msqrt).calculateStress e = some (m.moduliVoigt *ᵥ e)) ∧
    ∀ e, (planeStrain law tag msqrt).calculateStress e = some (m.moduliVoigt.submatrix planeFree planeFree *ᵥ e) := by
  constructor
  · intro e
    have : (solid law tag msqrt).calculateStress e = some (m.stressMatrixToVoigt (fromVoigt3 e true)) := by
      obtain ⟨rfl, rfl⟩ | ⟨rfl, rfl⟩ := hl <;>
        simp [solid, ResultMaterial.calculateStress, ResultMaterial.stresses, ResultMaterial.enlargeIfReduced, solidStresses,
          transformStrain, linearElasticity, svkLaw]
    rw [this, Option.some.injEq]
    funext i
    fin_cases i <;> simp [SVK.stressMatrixToVoigt, SVK.moduliVoigt, Matrix.mulVec, dotProduct, Fin.sum_univ_six, Matrix.trace,
      Fin.sum_univ_three, fromVoigt3, invStrainFactor] <;> ring
  · intro e
    have hc : Compatible tag law := by
      obtain ⟨rfl, rfl⟩ | ⟨rfl, rfl⟩ := hl
      · exact Or.inl ⟨rfl, rfl⟩
      · exact Or.inr ⟨rfl, Or.inl rfl⟩
    rw [planeStrain_stress law tag msqrt hc]
    have := planeStress_fullStress m law tag msqrt true 0 hl e
    have h2 : (planeStrain law tag msqrt).calculateStressFull e = _ := this
    rw [h2, Option.map_some, Option.some.injEq]
    funext i
    fin_cases i <;> simp [planeFree, SVK.moduliVoigt, Matrix.mulVec, dotProduct, Fin.sum_univ_three]

/-- A linear element in plane strain with these materials, whatever its shape. -/
example (m' : SVK ℝ) (gps : List (LinPoint n 2 3)) (u : NodeVec n 2) :
    LinearElastic.calculateVector false (m'.moduliVoigt.submatrix planeFree planeFree) gps u 0 =
      0 + Spec.forcesOf gps (fun gp => gp.detJ * gp.weight) (fun gp => gp.bop)
        fun gp => m'.moduliVoigt.submatrix planeFree planeFree *ᵥ gp.strain u :=
  linear_forces_reported (planeStrain (linearElasticity m') .linear id) _ gps u 0 _
    (fun _ _ => (linear_materials m' _ _ _ (Or.inl ⟨rfl, rfl⟩)).2 _)
    (fun gp _ => by
      simp only [linearElastic, Bool.false_eq_true, if_false, (linear_materials m' _ _ id (Or.inl ⟨rfl, rfl⟩)).2,
        Option.map_some])

/-- A body of St. Venant-Kirchhoff material in simple shear has Kirchhoff and Cauchy stresses. -/
example : ∃ tau sigma, nonLinearElastic false (solid (svkLaw ⟨1, 1⟩) .greenLagrangian id) Voigt.space .kirchhoffStress
      !![0, 1, 0; 0, 0, 0; 0, 0, 0] = some (.element tau) ∧
    nonLinearElastic false (solid (svkLaw ⟨1, 1⟩) .greenLagrangian id) Voigt.space .cauchyStress
      !![0, 1, 0; 0, 0, 0; 0, 0, 0] = some (.element sigma) := by
  obtain ⟨tau, sigma, h1, h2, -⟩ := spatial_reported Voigt.space space_roundTrip (solid (svkLaw ⟨1, 1⟩) .greenLagrangian id)
    !![0, 1, 0; 0, 0, 0; 0, 0, 0] _ (by rw [Matrix.det_fin_three]; simp) (by
      simp only [nonLinearElastic, Bool.false_eq_true, if_false, transformStrain, createDeformationGradient,
        createGreenLagrangianStrains, reduceCtorEq, or_self, Option.bind_eq_bind, Option.bind_some,
        (linear_materials ⟨1, 1⟩ _ _ id (Or.inr ⟨rfl, rfl⟩)).1, fromPK2]
      rfl)
  exact ⟨tau, sigma, h1, h2⟩

/-- In plane stress the full stress has the components the element reports and no normal stress out of the plane. -/
def Spec.PlaneStressFull (report : ResultType → Option (Reported 3)) (rt full : ResultType) (tol : ℝ) : Prop :=
  ∀ s S, report rt = some (.element s) → report full = some (.full S) → |S 2| ≤ tol ∧ ∀ i, S (planeFree i) = s i

/-- C101, plane stress, full stresses. For the two linear materials in plane stress, the full stress is not the plane stress
state: as soon as the strains `e` of the element change the area of the plane, it has a normal stress out of the plane, for
linear and nonlinear elements, with enhanced strains and with assumed stresses. -/
theorem planeStress_full_false (m' : SVK ℝ) (hmu : m'.mu ≠ 0) (hM : m'.lambda + 2 * m'.mu ≠ 0) (msqrt : M3 → M3) (nfGt : Bool)
    (tol : ℝ) (htol : 0 ≤ tol) :
    (∀ e, tol < |m'.lambda * (e 0 + e 1)| → ¬ Spec.PlaneStressFull
      (fun rt => linearElastic false (planeStress (linearElasticity m') .linear msqrt nfGt tol) rt e)
      .linearStress .linearStressFull tol) ∧
    (∀ H : Matrix (Fin 2) (Fin 2) ℝ, tol < |m'.lambda * ((1 / 2 : ℝ) • (H + Hᵀ + Hᵀ * H)).trace| → ¬ Spec.PlaneStressFull
      (fun rt => nonLinearElastic false (planeStress (svkLaw m') .greenLagrangian msqrt nfGt tol) Voigt.plane rt H)
      .PK2Stress .PK2StressFull tol) ∧
    (∀ (l : Law 3) (gps : List (EAS.EASPoint n 2 3 m)) gp H u alpha,
      tol < |m'.lambda * (gp.strain u (EAS.linearAlpha l gps u alpha) 0 + gp.strain u (EAS.linearAlpha l gps u alpha) 1)| →
      ¬ Spec.PlaneStressFull (fun rt => enhancedAssumedStrains (planeStress (linearElasticity m') .linear msqrt nfGt tol)
        Voigt.plane l gps gp H rt u alpha) .linearStress .linearStressFull tol) ∧
    (∀ (inv : AssumedStress.Inversion 3) (gps : Fin g → AssumedStress.ASPoint n 2 3 m) P H u st strain0,
      tol < |m'.lambda * ((inv (P *ᵥ AssumedStress.linearBeta gps st u) strain0).2 0 +
        (inv (P *ᵥ AssumedStress.linearBeta gps st u) strain0).2 1)| →
      ¬ Spec.PlaneStressFull (fun rt => assumedStress inv (planeStress (linearElasticity m') .linear msqrt nfGt tol)
        Voigt.plane gps P H rt u st strain0) .linearStress .linearStressFull tol) := by
  refine ⟨fun e h hf => ?_, fun H h hf => ?_, fun l gps gp H u alpha h hf => ?_, fun inv gps P H u st strain0 h hf => ?_⟩
  · obtain ⟨s, h1, -⟩ := planeStress_reported m' hmu hM _ _ msqrt nfGt tol htol (Or.inl ⟨rfl, rfl⟩) e
    have h2 := planeStress_fullStress m' _ _ msqrt nfGt tol (Or.inl ⟨rfl, rfl⟩) e
    have := (hf s _ (by simp only [linearElastic, Bool.false_eq_true, if_false, h1]; rfl)
      (by simp only [linearElastic, Bool.false_eq_true, if_false, h2]; rfl)).1
    simp at this
    simp at h
    linarith
  · obtain ⟨s, h1, -⟩ := planeStress_reported m' hmu hM _ _ msqrt nfGt tol htol (Or.inr ⟨rfl, rfl⟩)
      (Voigt.plane.toVoigt ((1 / 2 : ℝ) • (H + Hᵀ + Hᵀ * H)) true)
    have h2 := planeStress_fullStress m' _ _ msqrt nfGt tol (Or.inr ⟨rfl, rfl⟩)
      (Voigt.plane.toVoigt ((1 / 2 : ℝ) • (H + Hᵀ + Hᵀ * H)) true)
    have ht : Voigt.plane.toVoigt ((1 / 2 : ℝ) • (H + Hᵀ + Hᵀ * H)) true 0 +
        Voigt.plane.toVoigt ((1 / 2 : ℝ) • (H + Hᵀ + Hᵀ * H)) true 1 = ((1 / 2 : ℝ) • (H + Hᵀ + Hᵀ * H)).trace := by
      rw [Matrix.trace_fin_two]
      rfl
    have := (hf s _ (by
      simp only [nonLinearElastic, Bool.false_eq_true, if_false, transformStrain, createDeformationGradient,
        createGreenLagrangianStrains, reduceCtorEq, or_self, Option.bind_eq_bind, Option.bind_some, h1]
      rfl) (by
      simp only [nonLinearElastic, Bool.false_eq_true, if_false, transformStrain, createDeformationGradient,
        createGreenLagrangianStrains, reduceCtorEq, or_self, Option.bind_eq_bind, Option.bind_some, h2]
      rfl)).1
    rw [← ht] at h
    simp at this
    simp at h
    linarith
  · obtain ⟨s, h1, -⟩ := planeStress_reported m' hmu hM _ _ msqrt nfGt tol htol (Or.inl ⟨rfl, rfl⟩)
      (gp.strain u (EAS.linearAlpha l gps u alpha))
    have h2 := planeStress_fullStress m' _ _ msqrt nfGt tol (Or.inl ⟨rfl, rfl⟩) (gp.strain u (EAS.linearAlpha l gps u alpha))
    have := (hf s _ (by simp only [enhancedAssumedStrains, true_or, if_true, h1]; rfl)
      (by simp only [enhancedAssumedStrains, or_true, if_true, h2]; rfl)).1
    simp at this
    simp at h
    linarith
  · have h2 := planeStress_fullStress m' _ _ msqrt nfGt tol (Or.inl ⟨rfl, rfl⟩)
      (inv (P *ᵥ AssumedStress.linearBeta gps st u) strain0).2
    have := (hf _ _ (by simp only [assumedStress, true_or, if_true]; rfl)
      (by
        simp only [assumedStress, or_true, if_true]
        rw [if_pos (by rfl)]
        exact congrArg (Option.map Reported.full) h2)).1
    simp at this
    simp at h
    linarith

/-- Such a strain: stretching in one direction, with the default tolerance. -/
example : ¬ Spec.PlaneStressFull (fun rt => linearElastic false (planeStress (linearElasticity ⟨1, 1⟩) .linear id false 1e-12)
    rt ![1, 0, 0]) .linearStress .linearStressFull 1e-12 :=
  (planeStress_full_false (n := 0) (m := 0) (g := 0) ⟨1, 1⟩ (by norm_num) (by norm_num) id false 1e-12 (by norm_num)).1
    _ (by norm_num)

/-- C101, plane stress, what the full stress is. It is the stress of the material if the strain out of the plane is held at
zero: the normal stresses differ from the reported ones of the element by `λ² (e0 + e1) / (λ + 2 μ)` and the normal stress
out of the plane is `λ (e0 + e1)`. -/
theorem planeStress_full_partial (m : SVK ℝ) (hmu : m.mu ≠ 0) (hM : m.lambda + 2 * m.mu ≠ 0) (law : UnderlyingLaw) (tag : StrainTag)
    (msqrt : M3 → M3) (nfGt : Bool) (tol : ℝ) (htol : 0 ≤ tol)
    (hl : (law = linearElasticity m ∧ tag = .linear) ∨ (law = svkLaw m ∧ tag = .greenLagrangian)) (e : Fin 3 → ℝ) :
    ∃ s S, (planeStress law tag msqrt nfGt tol).calculateStress e = some s ∧
      (planeStress law tag msqrt nfGt tol).calculateStressFull e = some S ∧
      (planeStrain law tag msqrt).calculateStressFull e = some S ∧
      S 2 = m.lambda * (e 0 + e 1) ∧ S 3 = 0 ∧ S 4 = 0 ∧
      |S (planeFree 0) - s 0 - m.lambda ^ 2 / (m.lambda + 2 * m.mu) * (e 0 + e 1)| ≤
        |m.lambda / (m.lambda + 2 * m.mu)| * tol ∧
      |S (planeFree 1) - s 1 - m.lambda ^ 2 / (m.lambda + 2 * m.mu) * (e 0 + e 1)| ≤
        |m.lambda / (m.lambda + 2 * m.mu)| * tol ∧
      |S (planeFree 2) - s 2| ≤ |m.lambda / (m.lambda + 2 * m.mu)| * tol := by
  obtain ⟨s, h1, h2⟩ := planeStress_reported m hmu hM law tag msqrt nfGt tol htol hl e
  refine ⟨s, _, h1, planeStress_fullStress m law tag msqrt nfGt tol hl e,
    planeStress_fullStress m law tag msqrt nfGt tol hl e, rfl, rfl, rfl, ?_, ?_, ?_⟩
  · rw [← abs_neg]
    refine Eq.trans_le (congrArg abs ?_) (h2 0)
    simp [planeFree, VanishingStress.Spec.planeStressModuli, Matrix.mulVec, dotProduct, Fin.sum_univ_three]
    field_simp
    ring
  · rw [← abs_neg]
    refine Eq.trans_le (congrArg abs ?_) (h2 1)
    simp [planeFree, VanishingStress.Spec.planeStressModuli, Matrix.mulVec, dotProduct, Fin.sum_univ_three]
    field_simp
    ring
  · rw [← abs_neg]
    refine Eq.trans_le (congrArg abs ?_) (h2 2)
    simp [planeFree, VanishingStress.Spec.planeStressModuli, Matrix.mulVec, dotProduct, Fin.sum_univ_three]

/-- In space the full stress is the stress of the element. -/
def Spec.SolidFull (report : ResultType → Option (Reported 6)) (rt full : ResultType) : Prop :=
  ∀ s, report rt = some (.element s) → report full = some (.full s)

/-- C101, full stresses in space. Linear and nonlinear elements and those with enhanced strains report the same stress for both
result types. -/
theorem solid_full (stresses : (Fin 6 → ℝ) → Option (Fin 6 → ℝ)) :
    (∀ e, Spec.SolidFull (fun rt => linearElastic false (.solid stresses) rt e) .linearStress .linearStressFull) ∧
    (∀ H, Spec.SolidFull (fun rt => nonLinearElastic false (.solid stresses) Voigt.space rt H) .PK2Stress .PK2StressFull) ∧
    ∀ (l : Law 6) (gps : List (EAS.EASPoint n 3 6 m)) gp H u alpha,
      Spec.SolidFull (fun rt => enhancedAssumedStrains (.solid stresses) Voigt.space l gps gp H rt u alpha)
        .linearStress .linearStressFull ∧
      Spec.SolidFull (fun rt => enhancedAssumedStrains (.solid stresses) Voigt.space l gps gp H rt u alpha)
        .PK2Stress .PK2StressFull := by
  refine ⟨fun e s hs => ?_, fun H s hs => ?_, fun l gps gp H u alpha => ⟨fun s hs => ?_, fun s hs => ?_⟩⟩
  · simp only [linearElastic, Bool.false_eq_true, if_false] at hs ⊢
    obtain ⟨s', h1, h2⟩ := Option.map_eq_some_iff.1 hs
    obtain rfl := Reported.element.inj h2
    exact congrArg (Option.map Reported.full) h1
  · simp only [nonLinearElastic, Bool.false_eq_true, if_false, transformStrain, createDeformationGradient,
      createGreenLagrangianStrains, reduceCtorEq, or_self, Option.bind_eq_bind, Option.bind_some] at hs ⊢
    obtain ⟨s', h1, h2⟩ := Option.bind_eq_some_iff.1 hs
    obtain rfl := Reported.element.inj (Option.some.inj h2)
    exact congrArg (Option.map Reported.full) h1
  · simp only [enhancedAssumedStrains, true_or, or_true, if_true] at hs ⊢
    obtain ⟨s', h1, h2⟩ := Option.map_eq_some_iff.1 hs
    obtain rfl := Reported.element.inj h2
    exact congrArg (Option.map Reported.full) h1
  · simp only [enhancedAssumedStrains, reduceCtorEq, or_self, if_false, transformStrain, createDeformationGradient,
      Option.bind_some] at hs ⊢
    obtain ⟨s', h1, h2⟩ := Option.bind_eq_some_iff.1 hs
    obtain rfl := Reported.element.inj (Option.some.inj h2)
    exact congrArg (Option.map Reported.full) h1

/-- C101, assumed stresses in space. There the full stress is zero whatever the state, so it is not the stress of the element
unless that vanishes. -/
theorem as_solid_full_false (inv : AssumedStress.Inversion 6) (stresses : (Fin 6 → ℝ) → Option (Fin 6 → ℝ))
    (gps : Fin g → AssumedStress.ASPoint n 3 6 m) (P : Matrix (Fin 6) (Fin m) ℝ) (H : Matrix (Fin 3) (Fin 3) ℝ)
    (u : NodeVec n 3) (st : AssumedStress.State 6 m g) (strain0 : Fin 6 → ℝ) :
    (P *ᵥ AssumedStress.linearBeta gps st u ≠ 0 → ¬ Spec.SolidFull
      (fun rt => assumedStress inv (.solid stresses) Voigt.space gps P H rt u st strain0) .linearStress .linearStressFull) ∧
    (P *ᵥ st.beta ≠ 0 → ¬ Spec.SolidFull
      (fun rt => assumedStress inv (.solid stresses) Voigt.space gps P H rt u st strain0) .PK2Stress .PK2StressFull) := by
  constructor
  · intro h hf
    have := hf _ (by simp only [assumedStress, true_or, if_true]; rfl)
    simp [assumedStress, ResultMaterial.isReduced, default] at this
    exact h this.symm
  · intro h hf
    have := hf (P *ᵥ st.beta) (by simp [assumedStress, transformStrain, createDeformationGradient, fromPK2])
    simp [assumedStress, ResultMaterial.isReduced, default] at this
    exact h this.symm

/-- C101, assumed stresses after binding. The element reports zero stresses of the nonlinear types at every point, whatever
the displacements, until its state is updated. -/
theorem as_fresh_stress (inv : AssumedStress.Inversion q) (mat : ResultMaterial q) (v : Voigt d q)
    (gps : Fin g → AssumedStress.ASPoint n d q m) (P : Matrix (Fin q) (Fin m) ℝ) (H : Matrix (Fin d) (Fin d) ℝ)
    (u : NodeVec n d) (old : Fin g → Fin q → ℝ) (strain0 : Fin q → ℝ) :
    assumedStress inv mat v gps P H .PK2Stress u (AssumedStress.initializeState inv gps old) strain0 = some (.element 0) := by
  simp [assumedStress, transformStrain, createDeformationGradient, fromPK2, AssumedStress.initializeState,
    AssumedStress.calculateMaterialInversion]

/-! ### Cauchy stresses in the plane -/

/-- A deformation of the plane, with the stretch `t` in the direction of the thickness; also a stress with its component out of
the plane. -/
def Spec.embed (A : Matrix (Fin 2) (Fin 2) ℝ) (t : ℝ) : M3 := !![A 0 0, A 0 1, 0; A 1 0, A 1 1, 0; 0, 0, t]

/-- C101, Cauchy stress in the plane. For a body deformed by `F` in the plane and stretched by `t` in the direction of the
thickness, the reported Cauchy stress is `t` times the Cauchy stress. -/
theorem cauchy_plane (mat : ResultMaterial 3) (H : Matrix (Fin 2) (Fin 2) ℝ) (t s33 : ℝ) (ht : t ≠ 0) (s sigma : Fin 3 → ℝ)
    (hs : nonLinearElastic false mat Voigt.plane .PK2Stress H = some (.element s))
    (hc : nonLinearElastic false mat Voigt.plane .cauchyStress H = some (.element sigma)) :
    ∃ T, transformStress .PK2 .Cauchy (Spec.embed (fromVoigt2 s false) s33) (Spec.embed (H + 1) t) = some T ∧
      ∀ i, sigma i = t * toVoigt3 T false (planeFree i) := by
  simp only [nonLinearElastic, Bool.false_eq_true, if_false, transformStrain, createDeformationGradient,
    createGreenLagrangianStrains, reduceCtorEq, or_self, Option.bind_eq_bind, Option.bind_some] at hs hc
  obtain ⟨s', h1, h2⟩ := Option.bind_eq_some_iff.1 hs
  obtain rfl := Reported.element.inj (Option.some.inj h2)
  rw [h1] at hc
  simp only [Option.bind_some, fromPK2, spatialStress, transformStress, createCauchyStress, reduceCtorEq, or_self, if_false,
    Option.map_some, Option.some.injEq, Reported.element.injEq] at hc
  refine ⟨_, by simp only [transformStress, createCauchyStress, reduceCtorEq, or_self, if_false]; rfl, fun i => ?_⟩
  have hd : (Spec.embed (H + 1) t).det = (H + 1).det * t := by
    rw [Matrix.det_fin_three, Matrix.det_fin_two]
    simp [Spec.embed]
    ring
  rw [hd, ← hc]
  simp only [one_div, mul_inv]
  generalize (H + 1).det⁻¹ = D
  fin_cases i <;>
    simp [planeFree, Voigt.plane, toVoigt2, toVoigt3, fromVoigt2, Spec.embed, Matrix.mul_apply, Fin.sum_univ_three] <;>
    field_simp

/-- The Cauchy stress reported in plane stress is that of the body, up to `tol`: the body is stretched in the direction of
its thickness by the `t` for which the stress in this direction vanishes. -/
def Spec.PlaneStressCauchy (m : SVK ℝ) (H : Matrix (Fin 2) (Fin 2) ℝ) (t tol : ℝ) (report : ResultType → Option (Reported 3)) :
    Prop :=
  ∀ S T, S = m.stressMatrixToMatrix ((1 / 2 : ℝ) • ((Spec.embed (H + 1) t)ᵀ * Spec.embed (H + 1) t - 1)) → S 2 2 = 0 →
    T = (1 / (Spec.embed (H + 1) t).det) • (Spec.embed (H + 1) t * S * (Spec.embed (H + 1) t)ᵀ) →
    ∀ sigma, report .cauchyStress = some (.element sigma) → ∀ i, |sigma i - toVoigt3 T false (planeFree i)| ≤ tol

/-- C101, Cauchy stress in plane stress. A sheet of a St. Venant-Kirchhoff material stretched by one half becomes thinner by one
half, and the reported Cauchy stress is 3 instead of 6. -/
theorem planeStress_cauchy_false (msqrt : M3 → M3) (nfGt : Bool) :
    ∃ (m : SVK ℝ) (H : Matrix (Fin 2) (Fin 2) ℝ) (t : ℝ), 0 < m.lambda ∧ 0 < m.mu ∧ 0 < (H + 1).det ∧ 0 < t ∧
      m.stressMatrixToMatrix ((1 / 2 : ℝ) • ((Spec.embed (H + 1) t)ᵀ * Spec.embed (H + 1) t - 1)) 2 2 = 0 ∧
      ¬ Spec.PlaneStressCauchy m H t 1 fun rt =>
        nonLinearElastic false (planeStress (svkLaw m) .greenLagrangian msqrt nfGt 1e-12) Voigt.plane rt H := by
  have hS : (⟨3, 1⟩ : SVK ℝ).stressMatrixToMatrix ((1 / 2 : ℝ) •
      ((Spec.embed (!![1 / 2, 0; 0, 0] + 1) (1 / 2))ᵀ * Spec.embed (!![1 / 2, 0; 0, 0] + 1) (1 / 2) - 1)) =
      !![2, 0, 0; 0, 3 / 4, 0; 0, 0, 0] := by
    ext i j
    fin_cases i <;> fin_cases j <;>
      simp [SVK.stressMatrixToMatrix, Spec.embed, Matrix.trace, Matrix.mul_apply, Fin.sum_univ_three] <;> norm_num
  refine ⟨⟨3, 1⟩, !![1 / 2, 0; 0, 0], 1 / 2, by norm_num, by norm_num, by rw [Matrix.det_fin_two]; simp; norm_num,
    by norm_num, by rw [hS]; rfl, fun h => ?_⟩
  obtain ⟨s, h1, h2⟩ := planeStress_reported ⟨3, 1⟩ (by norm_num) (by norm_num) _ _ msqrt nfGt 1e-12 (by norm_num)
    (Or.inr ⟨rfl, rfl⟩) (Voigt.plane.toVoigt ((1 / 2 : ℝ) • ((!![1 / 2, 0; 0, 0] : Matrix (Fin 2) (Fin 2) ℝ) +
      (!![1 / 2, 0; 0, 0] : Matrix (Fin 2) (Fin 2) ℝ)ᵀ + (!![1 / 2, 0; 0, 0] : Matrix (Fin 2) (Fin 2) ℝ)ᵀ *
      !![1 / 2, 0; 0, 0])) true)
  have h3 := h _ _ hS.symm (by rfl) rfl _ (by
    simp only [nonLinearElastic, Bool.false_eq_true, if_false, transformStrain, createDeformationGradient,
      createGreenLagrangianStrains, reduceCtorEq, or_self, Option.bind_eq_bind, Option.bind_some, h1, fromPK2, spatialStress,
      transformStress, createCauchyStress, Option.map_some]
    rfl) 0
  have h4 := h2 0
  simp [Spec.embed, planeFree, Voigt.plane, toVoigt2, toVoigt3, fromVoigt2, Matrix.det_fin_three, Matrix.det_fin_two,
    Matrix.mul_apply, Fin.sum_univ_three, VanishingStress.Spec.planeStressModuli, Matrix.mulVec, Matrix.vecMul,
    dotProduct] at h3 h4
  rw [abs_le] at h3 h4
  norm_num at h3 h4
  linarith [h3.1, h4.2]

/-! ### Which function is called -/

/-- C101, the function that reports. With enhanced strains or assumed stresses it is theirs, whose tag is larger, whichever skill
is named first; an element with both does not compile. -/
theorem calculateAt_mixed {α : Type} (a b c : α) :
    calculateAt [(tagElement, a)] = some a ∧
    calculateAt [(tagElement, a), (tagMixed, b)] = some b ∧
    calculateAt [(tagMixed, b), (tagElement, a)] = some b ∧
    calculateAt [(tagElement, a), (tagMixed, b), (tagMixed, c)] = none := by
  refine ⟨?_, ?_, ?_, ?_⟩ <;> simp [calculateAt, tagElement, tagMixed, List.filter]

/-- C101, the function that reports, in general. If one of the functions is called, it accepts the call and no other has a larger
tag; a skill without a function for the result type or with a smaller tag changes nothing. -/
theorem calculateAt_maximal {α : Type} (os : List (Nat × α)) (a : α) (h : calculateAt os = some a) :
    (∃ k ≤ 10, (k, a) ∈ os ∧ ∀ p ∈ os, p.1 ≤ 10 → p.1 ≤ k) ∧
    ∀ k b, (∃ p ∈ os, p.2 = a ∧ p.1 ≤ 10 ∧ k < p.1 ∧ ∀ r ∈ os, r.1 ≤ 10 → r.1 ≤ p.1) → calculateAt ((k, b) :: os) = some a := by
  have hcase : ∃ o, (os.filter fun o => o.1 ≤ 10).filter
      (fun o => (os.filter fun o => o.1 ≤ 10).all fun p => p.1 ≤ o.1) = [o] ∧ o.2 = a := by
    unfold calculateAt at h
    simp only at h
    split at h
    · rename_i o ho
      exact ⟨o, ho, Option.some.inj h⟩
    · exact absurd h (by simp)
  obtain ⟨o, ho, rfl⟩ := hcase
  have hmem : o ∈ (os.filter fun o => o.1 ≤ 10).filter
      (fun o => (os.filter fun o => o.1 ≤ 10).all fun p => p.1 ≤ o.1) := by rw [ho]; simp
  have hmem' := hmem
  simp only [List.mem_filter, List.all_eq_true, decide_eq_true_eq, and_imp] at hmem'
  obtain ⟨⟨h1, h2⟩, h3⟩ := hmem'
  refine ⟨⟨o.1, h2, h1, fun p hp hp' => h3 p hp hp'⟩, ?_⟩
  rintro k b ⟨p, hp, -, hp2, hlt, hmax⟩
  have hk : k < o.1 := lt_of_lt_of_le hlt (h3 p hp hp2)
  unfold calculateAt
  have hk10 : k ≤ 10 := by omega
  have e1 : ((k, b) :: os).filter (fun o => decide (o.1 ≤ 10)) = (k, b) :: os.filter fun o => o.1 ≤ 10 := by
    rw [List.filter_cons_of_pos (by simpa using hk10)]
  have e2 : ((k, b) :: os.filter fun o => o.1 ≤ 10).filter
      (fun o => ((k, b) :: os.filter fun o => o.1 ≤ 10).all fun p => p.1 ≤ o.1) = [o] := by
    rw [List.filter_cons_of_neg]
    · rw [← ho]
      apply List.filter_congr
      intro x hx
      rw [List.all_cons]
      by_cases hx' : ((os.filter fun o => o.1 ≤ 10).all fun p => p.1 ≤ x.1) = true
      · rw [hx']
        simp only [Bool.and_true, decide_eq_true_eq]
        have : o.1 ≤ x.1 := by
          have := List.all_eq_true.1 hx' o (List.mem_filter.2 ⟨h1, by simpa using h2⟩)
          simpa using this
        omega
      · rw [Bool.not_eq_true] at hx'
        rw [hx', Bool.and_false]
    · rw [List.all_eq_true]
      intro hall
      have := hall o (List.mem_cons_of_mem _ (List.mem_filter.2 ⟨h1, by simpa using h2⟩))
      simp at this
      omega
  simp only [e1, e2]

/-- Three skills: loads have no function, the element one, the enhanced strains the one that is called. -/
example : calculateAt [(1, "linear"), (2, "enhanced")] = some "enhanced" := by decide

/-- The functions of an element below enhanced strains or assumed stresses return zero: the order of the tags matters. -/
example (mat : ResultMaterial q) (v : Voigt d q) (rt : ResultType) (e : Fin q → ℝ) (H : Matrix (Fin d) (Fin d) ℝ) :
    linearElastic true mat rt e = some (default q rt) ∧ nonLinearElastic true mat v rt H = some (default q rt) :=
  ⟨rfl, rfl⟩

end Ikarus.Element.Result
