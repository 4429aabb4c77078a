import Verif.FE.TurnProps
import Verif.FE.HyperelasticLawProps
import Verif.FE.AssumedStressStabilityProps

/-!
C114, materials: the isotropic materials of the library answer turned strains with turned stresses.
-/

namespace Ikarus.Element

open Matrix AutoDiffMat VanishingStress Result Ikarus.Spec Ikarus.Element.Spec
open scoped Topology

variable {n d q : Nat} {T : Matrix (Fin q) (Fin q) ℝ}

/-! ### Specification -/

/-- The material has no preferred direction: turned strains have the same energy and the turned stresses. -/
def Spec.IsotropicMat (m : Mat) (O : Set M3) : Prop :=
  ∀ A ∈ O, A.IsSymm → ∀ Q : M3, Qᵀ * Q = 1 → m.energy (Q * A * Qᵀ) = m.energy A ∧
    m.stress (Q * A * Qᵀ) = (m.stress A).map (fun S => Q * S * Qᵀ) ∧ ∀ S, m.stress A = some S → S.IsSymm

/-! ### Laws -/

theorem matrix_ext_mulVec {A B : Matrix (Fin q) (Fin q) ℝ} (h : ∀ v, A *ᵥ v = B *ᵥ v) : A = B :=
  Matrix.mulVec_injective (funext h)

theorem hasDerivAt_mulVec (A : Matrix (Fin q) (Fin q) ℝ) {f : ℝ → Fin q → ℝ} {f' : Fin q → ℝ} {t : ℝ} (h : HasDerivAt f f' t) :
    HasDerivAt (fun s => A *ᵥ f s) (A *ᵥ f') t :=
  hasDerivAt_pi.2 fun k => HasDerivAt.fun_sum (u := Finset.univ) fun l _ => (hasDerivAt_pi.1 h l).const_mul (A k l)

theorem hasDerivAt_ray (e v : Fin q → ℝ) : HasDerivAt (fun t : ℝ => e + t • v) v 0 := by
  have := ((hasDerivAt_id (0 : ℝ)).smul_const v).const_add e
  simpa using this

/-- The moduli turn if the stresses do. -/
theorem tangent_of_stress {law law' : Law q} {dom dom' : Set (Fin q → ℝ)} (hl : LawContract law dom) (hl' : LawContract law' dom')
    {e : Fin q → ℝ} (he : e ∈ dom) (he' : T *ᵥ e ∈ dom')
    (hs : ∀ v, ∀ᶠ t in 𝓝 (0 : ℝ), Tᵀ *ᵥ law'.stress (T *ᵥ (e + t • v)) = law.stress (e + t • v)) :
    Tᵀ * law'.tangent (T *ᵥ e) * T = law.tangent e := by
  refine matrix_ext_mulVec fun v => ?_
  have e0 : e + (0 : ℝ) • v = e := by simp
  have h1 := hl.tangent (fun t : ℝ => e + t • v) v 0 (by rwa [e0]) (hasDerivAt_ray e v)
  have h2 := hasDerivAt_mulVec Tᵀ (hl'.tangent (fun t : ℝ => T *ᵥ (e + t • v)) (T *ᵥ v) 0 (by rwa [e0])
    (hasDerivAt_mulVec T (hasDerivAt_ray e v)))
  rw [e0] at h1 h2
  have := (h2.congr_of_eventuallyEq ((hs v).mono fun t ht => ht.symm)).unique h1
  rw [← Matrix.mulVec_mulVec, ← Matrix.mulVec_mulVec]
  exact this

/-- C114, laws. A law whose energy is not changed by turning the strain turns stresses and moduli. -/
theorem turnedLaw_of_energy {law law' : Law q} (hl : LawContract law Set.univ) (hl' : LawContract law' Set.univ)
    (h : ∀ x, law'.energy (T *ᵥ x) = law.energy x) (e : Fin q → ℝ) : TurnedLaw T law law' e := by
  have hs : ∀ x, Tᵀ *ᵥ law'.stress (T *ᵥ x) = law.stress x := by
    intro x
    have key : ∀ v, (Tᵀ *ᵥ law'.stress (T *ᵥ x)) ⬝ᵥ v = law.stress x ⬝ᵥ v := by
      intro v
      have e0 : x + (0 : ℝ) • v = x := by simp
      have h1 := hl.stress (fun t : ℝ => x + t • v) v 0 trivial (hasDerivAt_ray x v)
      have h2 := hl'.stress (fun t : ℝ => T *ᵥ (x + t • v)) (T *ᵥ v) 0 trivial (hasDerivAt_mulVec T (hasDerivAt_ray x v))
      simp only [h, e0] at h1 h2
      have := h2.unique h1
      rw [Matrix.mulVec_transpose, ← Matrix.dotProduct_mulVec]
      exact this
    funext k
    have := key (Pi.single k 1)
    rwa [dotProduct_single, dotProduct_single, mul_one, mul_one] at this
  exact ⟨h e, hs e, tangent_of_stress hl hl' trivial trivial fun v => .of_forall fun t => hs _⟩

/-- How strains in Voigt notation and the stresses conjugate to them turn. -/
structure Spec.TurnsComponents (T : Matrix (Fin q) (Fin q) ℝ) (Q : M3) (emb : (Fin q → ℝ) →ₗ[ℝ] (Fin 6 → ℝ)) (free : Fin q → Fin 6) :
    Prop where
  orth : Qᵀ * Q = 1
  strain : ∀ x, fromVoigt3 (emb (T *ᵥ x)) true = Q * fromVoigt3 (emb x) true * Qᵀ
  stress : ∀ S : M3, S.IsSymm → (Tᵀ *ᵥ fun i => toVoigt3 (Q * S * Qᵀ) false (free i)) = fun i => toVoigt3 S false (free i)

theorem material_turn {law : Law q} {m : Mat} {emb : (Fin q → ℝ) →ₗ[ℝ] (Fin 6 → ℝ)} {free : Fin q → Fin 6} {k c : ℝ}
    (hf : FromMaterial law m emb free k c) {dom : Set (Fin q → ℝ)} (hl : LawContract law dom) {O : Set M3} (hiso : IsotropicMat m O)
    {Q : M3} (hT : TurnsComponents T Q emb free) {e : Fin q → ℝ} (he : e ∈ dom) (he' : T *ᵥ e ∈ dom)
    (hO : ∀ v, ∀ᶠ t in 𝓝 (0 : ℝ), k • fromVoigt3 (emb (e + t • v)) true + c • 1 ∈ O) : TurnedLaw T law law e := by
  have harg : ∀ x, k • fromVoigt3 (emb (T *ᵥ x)) true + c • 1 = Q * (k • fromVoigt3 (emb x) true + c • 1) * Qᵀ := by
    intro x
    rw [hT.strain, Matrix.mul_add, Matrix.add_mul, Matrix.mul_smul, Matrix.smul_mul, Matrix.mul_smul, Matrix.smul_mul, Matrix.mul_one,
      orth_comm hT.orth]
  have hs : ∀ x, k • fromVoigt3 (emb x) true + c • 1 ∈ O → Tᵀ *ᵥ law.stress (T *ᵥ x) = law.stress x := by
    intro x hx
    obtain ⟨-, h2, h3⟩ := hiso _ hx (argument_symm _) Q hT.orth
    have e1 : law.stress (T *ᵥ x) = fun i => toVoigt3 ((m.stress (k • fromVoigt3 (emb (T *ᵥ x)) true + c • 1)).getD 0) false (free i) :=
      funext fun i => hf.stress _ i
    have e2 : law.stress x = fun i => toVoigt3 ((m.stress (k • fromVoigt3 (emb x) true + c • 1)).getD 0) false (free i) :=
      funext fun i => hf.stress _ i
    rw [e1, e2, harg, h2]
    cases hS : m.stress (k • fromVoigt3 (emb x) true + c • 1) with
    | none =>
      have := hT.stress 0 Matrix.isSymm_zero
      rw [Matrix.mul_zero, Matrix.zero_mul] at this
      exact this
    | some S => exact hT.stress S (h3 S hS)
  have hx0 : k • fromVoigt3 (emb e) true + c • 1 ∈ O := by
    have := (hO 0).self_of_nhds
    rwa [zero_smul, add_zero] at this
  refine ⟨?_, hs e hx0, tangent_of_stress hl hl he he' fun v => (hO v).mono fun t ht => hs _ ht⟩
  rw [hf.energy, hf.energy, harg, (hiso _ hx0 (argument_symm _) Q hT.orth).1]

/-! ### Components -/

theorem space_components {Q : M3} (hQ : Qᵀ * Q = 1) : TurnsComponents (transformationMatrix3 Q) Q LinearMap.id id where
  orth := hQ
  strain x := by
    ext i j
    fin_cases i <;> fin_cases j <;>
      simp [fromVoigt3, transformationMatrix3, invStrainFactor, dotProduct, Fin.sum_univ_succ, Matrix.mul_apply] <;> ring
  stress S hS := by
    have hS' : (Q * S * Qᵀ).IsSymm := by
      rw [Matrix.IsSymm, Matrix.transpose_mul, Matrix.transpose_mul, Matrix.transpose_transpose, hS.eq, Matrix.mul_assoc]
    have h := AssumedStress.stress_transformation.2 Q (Q * S * Qᵀ) hS'
    have h2 : Qᵀ * (Q * S * Qᵀ) * Q = S := by
      rw [Matrix.mul_assoc Q, ← Matrix.mul_assoc Qᵀ Q, hQ, Matrix.one_mul, Matrix.mul_assoc, hQ, Matrix.mul_one]
    rw [h2] at h
    exact h

/-- The rotation of the plane as a rotation of space. -/
def Spec.inSpace (Q : Matrix (Fin 2) (Fin 2) ℝ) : M3 := !![Q 0 0, Q 0 1, 0; Q 1 0, Q 1 1, 0; 0, 0, 1]

theorem inSpace_orth {Q : Matrix (Fin 2) (Fin 2) ℝ} (hQ : Qᵀ * Q = 1) : (inSpace Q)ᵀ * inSpace Q = 1 := by
  have h := fun i j => congrFun (congrFun hQ i) j
  have h00 := h 0 0
  have h01 := h 0 1
  have h10 := h 1 0
  have h11 := h 1 1
  simp [Matrix.mul_apply, Fin.sum_univ_two] at h00 h01 h10 h11
  ext i j
  fin_cases i <;> fin_cases j <;> simp [inSpace, Matrix.mul_apply, Fin.sum_univ_three, h00, h01, h10, h11]

theorem plane_components {Q : Matrix (Fin 2) (Fin 2) ℝ} (hQ : Qᵀ * Q = 1) :
    TurnsComponents (transformationMatrix2 Q) (inSpace Q) planeEmb planeFree where
  orth := inSpace_orth hQ
  strain x := by
    rw [planeEmb_apply, planeEmb_apply, fromVoigt_plane, fromVoigt_plane]
    ext i j
    fin_cases i <;> fin_cases j <;>
      simp [inSpace, transformationMatrix2, Matrix.mulVec, dotProduct, Fin.sum_univ_succ, Matrix.mul_apply] <;> ring
  stress S hS := by
    have h1 := hS.apply 0 1
    have h := AssumedStress.stress_transformation.1 Q (Q * !![S 0 0, S 0 1; S 0 1, S 1 1] * Qᵀ) (by
      ext i j
      fin_cases i <;> fin_cases j <;> simp [Matrix.mul_apply, Fin.sum_univ_two] <;> ring)
    have h2 : Qᵀ * (Q * !![S 0 0, S 0 1; S 0 1, S 1 1] * Qᵀ) * Q = !![S 0 0, S 0 1; S 0 1, S 1 1] := by
      rw [Matrix.mul_assoc Q, ← Matrix.mul_assoc Qᵀ Q, hQ, Matrix.one_mul, Matrix.mul_assoc, hQ, Matrix.mul_one]
    rw [h2] at h
    have e1 : (fun i => toVoigt3 (inSpace Q * S * (inSpace Q)ᵀ) false (planeFree i)) =
        toVoigt2 (Q * !![S 0 0, S 0 1; S 0 1, S 1 1] * Qᵀ) false := by
      funext i
      fin_cases i <;> simp [toVoigt3, toVoigt2, planeFree, inSpace, strainFactor, Matrix.mul_apply, Matrix.vecMul, dotProduct, Fin.sum_univ_succ, h1]
    have e2 : (fun i => toVoigt3 S false (planeFree i)) = toVoigt2 !![S 0 0, S 0 1; S 0 1, S 1 1] false := by
      funext i
      fin_cases i <;> simp [toVoigt3, toVoigt2, planeFree, strainFactor]
    rw [e1, e2, h]

/-! ### Materials of the library -/

theorem trace_turn {Q : M3} (hQ : Qᵀ * Q = 1) (A : M3) : (Q * A * Qᵀ).trace = A.trace := by
  rw [Matrix.trace_mul_comm, ← Matrix.mul_assoc, hQ, Matrix.one_mul]

theorem det_turn {Q : M3} (hQ : Qᵀ * Q = 1) (A : M3) : (Q * A * Qᵀ).det = A.det := by
  have := congrArg Matrix.det hQ
  rw [Matrix.det_mul, Matrix.det_transpose, Matrix.det_one] at this
  rw [Matrix.det_mul, Matrix.det_mul, Matrix.det_transpose, mul_right_comm, this, one_mul]

/-- C114, St. Venant-Kirchhoff. The material has no preferred direction. -/
theorem svk_isotropic (p : SVK ℝ) : IsotropicMat (svk p) Set.univ := by
  intro A _ hA Q hQ
  refine ⟨?_, ?_, ?_⟩
  · have h : ∀ B : M3, ∑ i, ∑ j, B i j * B i j = (B * Bᵀ).trace := fun B => by
      simp [Matrix.trace, Matrix.mul_apply]
    have e : Q * A * Qᵀ * (Q * A * Qᵀ)ᵀ = Q * (A * Aᵀ) * Qᵀ := by
      rw [Matrix.transpose_mul, Matrix.transpose_mul, Matrix.transpose_transpose]
      simp only [Matrix.mul_assoc]
      rw [← Matrix.mul_assoc Qᵀ Q, hQ, Matrix.one_mul]
    simp only [svk, SVK.energyMatrix, h, e, trace_turn hQ]
  · simp only [svk, SVK.stressMatrixToMatrix, Option.map_some, trace_turn hQ]
    rw [Matrix.mul_add, Matrix.add_mul, Matrix.mul_smul, Matrix.smul_mul, Matrix.mul_smul, Matrix.smul_mul, Matrix.mul_one,
      orth_comm hQ]
  · rintro S hS
    obtain rfl := Option.some.inj hS
    show (_ + _)ᵀ = _
    rw [Matrix.transpose_add, Matrix.transpose_smul, Matrix.transpose_smul, Matrix.transpose_one, hA.eq]
    rfl

/-- C114, Neo-Hooke. The material has no preferred direction. -/
theorem neoHooke_isotropic (p : NeoHooke) (eps : ℝ) : IsotropicMat (neoHooke p eps) Set.univ := by
  intro A _ hA Q hQ
  have hinv : (Q * A * Qᵀ)⁻¹ = Q * A⁻¹ * Qᵀ := by
    have h1 : Q⁻¹ = Qᵀ := Matrix.inv_eq_left_inv hQ
    have h2 : (Qᵀ)⁻¹ = Q := Matrix.inv_eq_right_inv hQ
    rw [Matrix.mul_inv_rev, Matrix.mul_inv_rev, h1, h2, Matrix.mul_assoc]
  refine ⟨?_, ?_, ?_⟩
  · simp only [neoHooke, NeoHooke.storedEnergy, trace_turn hQ, det_turn hQ]
  · simp only [neoHooke, NeoHooke.stresses, det_turn hQ, hinv]
    cases checkPositiveOrAbort eps A.det with
    | none => rfl
    | some _ =>
      refine congrArg some ?_
      show _ = Q * (p.mu • (1 - A⁻¹) + (p.lambda * Real.log √(det A)) • A⁻¹) * Qᵀ
      rw [Matrix.mul_add, Matrix.add_mul, Matrix.mul_smul, Matrix.smul_mul, Matrix.mul_smul, Matrix.smul_mul, Matrix.mul_sub,
        Matrix.sub_mul, Matrix.mul_one, orth_comm hQ]
  · intro S hS
    have hi : (A⁻¹).IsSymm := by rw [Matrix.IsSymm, Matrix.transpose_nonsing_inv, hA.eq]
    simp only [neoHooke, NeoHooke.stresses] at hS
    cases hc : checkPositiveOrAbort eps A.det with
    | none => rw [hc] at hS; exact absurd hS (by simp)
    | some _ =>
      rw [hc] at hS
      obtain rfl := Option.some.inj hS
      show (_ + _)ᵀ = _
      rw [Matrix.transpose_add, Matrix.transpose_smul, Matrix.transpose_smul, Matrix.transpose_sub, Matrix.transpose_one, hi.eq]

/-- C114, hyperelastic materials. Every material in principal stretches, with any volumetric part, has no preferred direction. -/
theorem hyperelasticMat_isotropic (h : Hyperelastic) (hf : IsotropicFun h.dev) {solver : EigenSolver} (hs : CorrectSolver solver)
    {eps epsEq : ℝ} (he : eps < 1) : IsotropicMat (hyperelasticMat h solver eps epsEq) {C | ∃ l N, HasStretches C l N} := by
  rintro A ⟨l, N, hA⟩ hsym Q hQ
  obtain ⟨h1, h2⟩ := hyperelastic_isotropic h hf hs he hA (orth_comm hQ)
  refine ⟨h1, h2, fun S hS => ?_⟩
  obtain ⟨-, hb, -⟩ := hyperelastic_any_basis h hf hs (epsEq := 0) he le_rfl hA
  have hS : h.stresses solver eps A = some S := hS
  rw [hb] at hS
  obtain ⟨S', -, rfl⟩ := Option.map_eq_some_iff.1 hS
  have hi : (A⁻¹).IsSymm := by rw [Matrix.IsSymm, Matrix.transpose_nonsing_inv, hsym.eq]
  show (_ + _)ᵀ = _
  rw [Matrix.transpose_add, Matrix.transpose_smul, hi.eq, Matrix.transpose_mul, Matrix.transpose_mul, Matrix.transpose_transpose,
    Matrix.diagonal_transpose, Matrix.mul_assoc]

/-! ### Laws of the elements -/

/-- C114, laws of St. Venant-Kirchhoff material. In space and in plane strain, at all strains. -/
theorem svk_turn (msqrt : M3 → M3) (p : SVK ℝ) :
    (∀ Q : M3, Qᵀ * Q = 1 → ∀ e, TurnedLaw (transformationMatrix3 Q) (spaceLaw msqrt (svk p)) (spaceLaw msqrt (svk p)) e) ∧
    ∀ Q : Matrix (Fin 2) (Fin 2) ℝ, Qᵀ * Q = 1 → ∀ e,
      TurnedLaw (transformationMatrix2 Q) (planeStrainLaw msqrt (svk p)) (planeStrainLaw msqrt (svk p)) e := by
  have ht : ∀ P, transformStrain msqrt .greenLagrangian (svk p).strainTag P = some P := fun P => by simp [svk, transformStrain]
  refine ⟨fun Q hQ e => ?_, fun Q hQ e => ?_⟩
  · obtain ⟨c, hc, hf⟩ := spaceLaw_from msqrt (svk p) (svk_scale p)
    exact material_turn hf (space_contract msqrt (ownContract_of_law (svk_law p)) (svk_scale p)).1 (svk_isotropic p) (space_components hQ)
      ⟨_, trivial, ht _⟩ ⟨_, trivial, ht _⟩ fun _ => .of_forall fun _ => trivial
  · obtain ⟨c, hc, hf⟩ := planeStrainLaw_from msqrt (svk p) (svk_scale p)
    exact material_turn hf (planeStrain_contract msqrt (ownContract_of_law (svk_law p)) (svk_scale p)).1 (svk_isotropic p) (plane_components hQ)
      ⟨_, trivial, ht _⟩ ⟨_, trivial, ht _⟩ fun _ => .of_forall fun _ => trivial

/-- C114, laws of Neo-Hooke material. At all strains that come from invertible deformation gradients. -/
theorem neoHooke_turn (msqrt : M3 → M3) (p : NeoHooke) {eps : ℝ} (he : eps < 1) :
    (∀ Q : M3, Qᵀ * Q = 1 → ∀ e, 0 < ((2 : ℝ) • fromVoigt3 e true + 1).det →
      TurnedLaw (transformationMatrix3 Q) (spaceLaw msqrt (neoHooke p eps)) (spaceLaw msqrt (neoHooke p eps)) e) ∧
    ∀ Q : Matrix (Fin 2) (Fin 2) ℝ, Qᵀ * Q = 1 → ∀ e, 0 < ((2 : ℝ) • fromVoigt3 (enlargeVector planeFree e) true + 1).det →
      TurnedLaw (transformationMatrix2 Q) (planeStrainLaw msqrt (neoHooke p eps)) (planeStrainLaw msqrt (neoHooke p eps)) e := by
  have ht : ∀ E : M3, transformStrain msqrt .greenLagrangian (neoHooke p eps).strainTag E = some ((2 : ℝ) • E + 1) := fun E => by
    simp [neoHooke, transformStrain, createRightCauchyGreen]
  have harg : ∀ (Q : M3), Qᵀ * Q = 1 → ∀ A : M3, (2 : ℝ) • (Q * A * Qᵀ) + 1 = Q * ((2 : ℝ) • A + 1) * Qᵀ := fun Q hQ A => by
    rw [Matrix.mul_add, Matrix.add_mul, Matrix.mul_smul, Matrix.smul_mul, Matrix.mul_one, orth_comm hQ]
  refine ⟨fun Q hQ e hd => ?_, fun Q hQ e hd => ?_⟩
  · obtain ⟨c, hc, hf⟩ := spaceLaw_from msqrt (neoHooke p eps) (neoHooke_scale p eps)
    refine material_turn hf (space_contract msqrt (ownContract_of_law (neoHooke_law p he)) (neoHooke_scale p eps)).1
      (neoHooke_isotropic p eps) (space_components hQ) ⟨_, hd, ht _⟩ ⟨_, ?_, ht _⟩ fun _ => .of_forall fun _ => trivial
    have := (space_components hQ).strain e
    simp only [LinearMap.id_apply] at this
    rw [this, harg Q hQ]
    show 0 < (Q * _ * Qᵀ).det
    rwa [det_turn hQ]
  · obtain ⟨c, hc, hf⟩ := planeStrainLaw_from msqrt (neoHooke p eps) (neoHooke_scale p eps)
    refine material_turn hf (planeStrain_contract msqrt (ownContract_of_law (neoHooke_law p he)) (neoHooke_scale p eps)).1
      (neoHooke_isotropic p eps) (plane_components hQ) ⟨_, hd, ?_⟩ ⟨_, ?_, ht _⟩ fun _ => .of_forall fun _ => trivial
    · rw [plane_argument]
      exact ht _
    · rw [← plane_argument, ← planeEmb_apply, (plane_components hQ).strain e, harg _ (inSpace_orth hQ)]
      show 0 < (inSpace Q * _ * (inSpace Q)ᵀ).det
      rwa [det_turn (inSpace_orth hQ)]

theorem stretches_turn {A : M3} {l : Fin 3 → ℝ} {N : M3} (hA : HasStretches A l N) {Q : M3} (hQ : Qᵀ * Q = 1) :
    HasStretches (Q * A * Qᵀ) l (Q * N) := by
  refine ⟨hA.1, ?_, ?_⟩
  · rw [transpose_mul, Matrix.mul_assoc, ← Matrix.mul_assoc Qᵀ, hQ, Matrix.one_mul, hA.2.orth]
  · rw [hA.2.decomp, transpose_mul]
    simp only [Matrix.mul_assoc]

theorem turn_back {Q : M3} (hQ : Qᵀ * Q = 1) (A : M3) : Qᵀ * (Q * A * Qᵀ) * Q = A := by
  rw [Matrix.mul_assoc Q, ← Matrix.mul_assoc Qᵀ Q, hQ, Matrix.one_mul, Matrix.mul_assoc, hQ, Matrix.mul_one]

theorem separated_turn {h : Hyperelastic} {epsEq : ℝ} {A : M3} (hA : Separated h epsEq A) {Q : M3} (hQ : Qᵀ * Q = 1) :
    Separated h epsEq (Q * A * Qᵀ) := by
  intro l N hst
  have := stretches_turn hst (Q := Qᵀ) (by rw [Matrix.transpose_transpose, orth_comm hQ])
  rw [Matrix.transpose_transpose, turn_back hQ] at this
  exact hA l _ this

theorem smoothDev_turn {f : DevFun} {A : M3} (hA : SmoothDev f A) {Q : M3} (hQ : Qᵀ * Q = 1) : SmoothDev f (Q * A * Qᵀ) := by
  obtain ⟨F, hF, hn⟩ := hA
  have hback : ((fun i j => (Qᵀ * Matrix.of (Q * A * Qᵀ) * Q) i j) : Fin 3 → Fin 3 → ℝ) = A := by
    funext i j
    exact congrFun (congrFun (turn_back hQ A) i) j
  have hL : ContDiff ℝ 3 fun B : Fin 3 → Fin 3 → ℝ => (fun i j => (Qᵀ * Matrix.of B * Q) i j : Fin 3 → Fin 3 → ℝ) := by
    refine contDiff_pi.2 fun i => contDiff_pi.2 fun j => ?_
    simp only [Matrix.mul_apply, Matrix.of_apply]
    fun_prop
  refine ⟨fun B => F fun i j => (Qᵀ * Matrix.of B * Q) i j, ?_, ?_⟩
  · have hF' : ContDiffAt ℝ 3 F ((fun i j => (Qᵀ * Matrix.of (Q * A * Qᵀ) * Q) i j) : Fin 3 → Fin 3 → ℝ) := by rwa [hback]
    exact ContDiffAt.comp (E := Fin 3 → Fin 3 → ℝ) (F := Fin 3 → Fin 3 → ℝ) (G := ℝ) _ hF' hL.contDiffAt
  · have ht : Filter.Tendsto (fun B : Fin 3 → Fin 3 → ℝ => (fun i j => (Qᵀ * Matrix.of B * Q) i j : Fin 3 → Fin 3 → ℝ))
        (𝓝 (Q * A * Qᵀ : Fin 3 → Fin 3 → ℝ)) (𝓝 (A : Fin 3 → Fin 3 → ℝ)) := by
      have := hL.continuous.tendsto (Q * A * Qᵀ : Fin 3 → Fin 3 → ℝ)
      rwa [hback] at this
    filter_upwards [ht.eventually hn] with B hB l N hst
    have := stretches_turn hst (Q := Qᵀ) (by rw [Matrix.transpose_transpose, orth_comm hQ])
    rw [Matrix.transpose_transpose] at this
    exact hB l _ this

/-- C114, laws of hyperelastic materials. At all strains that come from invertible deformation gradients and whose principal
stretches are equal or further apart than the tolerance. -/
theorem hyperelastic_turn (msqrt : M3 → M3) (h : Hyperelastic) (hf : IsotropicFun h.dev) (hv : AdmissibleVF h.vol.vf)
    {solver : EigenSolver} (hs : CorrectSolver solver) {eps epsEq : ℝ} (he : eps < 1) (heq : 0 ≤ epsEq) :
    (∀ Q : M3, Qᵀ * Q = 1 → ∀ H : M3, (1 + H).det ≠ 0 → SmoothDev h.dev (spaceC H) → Separated h epsEq (spaceC H) →
      TurnedLaw (transformationMatrix3 Q) (spaceLaw msqrt (hyperelasticMat h solver eps epsEq))
        (spaceLaw msqrt (hyperelasticMat h solver eps epsEq)) (EAS.greenLagrange3 H)) ∧
    ∀ Q : Matrix (Fin 2) (Fin 2) ℝ, Qᵀ * Q = 1 → ∀ H : Matrix (Fin 2) (Fin 2) ℝ, (1 + H).det ≠ 0 → SmoothDev h.dev (planeC H) →
      Separated h epsEq (planeC H) →
      TurnedLaw (transformationMatrix2 Q) (planeStrainLaw msqrt (hyperelasticMat h solver eps epsEq))
        (planeStrainLaw msqrt (hyperelasticMat h solver eps epsEq)) (EAS.greenLagrange2 H) := by
  have ht : ∀ E : M3, transformStrain msqrt .greenLagrangian (hyperelasticMat h solver eps epsEq).strainTag E = some ((2 : ℝ) • E + 1) :=
    fun E => by simp [hyperelasticMat, transformStrain, createRightCauchyGreen]
  have harg : ∀ (Q : M3), Qᵀ * Q = 1 → ∀ A : M3, (2 : ℝ) • (Q * A * Qᵀ) + 1 = Q * ((2 : ℝ) • A + 1) * Qᵀ := fun Q hQ A => by
    rw [Matrix.mul_add, Matrix.add_mul, Matrix.mul_smul, Matrix.smul_mul, Matrix.mul_one, orth_comm hQ]
  have ho := hyperelastic_own h hf hv hs he heq
  have hk := hyperelastic_scale h solver eps epsEq
  have hnear : ∀ {q : Nat} (emb : (Fin q → ℝ) →ₗ[ℝ] (Fin 6 → ℝ)) (e : Fin q → ℝ) (k c : ℝ),
      (∃ l N, HasStretches (k • fromVoigt3 (emb e) true + c • 1) l N) → ∀ v, ∀ᶠ t in 𝓝 (0 : ℝ),
        k • fromVoigt3 (emb (e + t • v)) true + c • 1 ∈ {C : M3 | ∃ l N, HasStretches C l N} := by
    rintro q emb e k c ⟨l, N, hst⟩ v
    have hd := argument_deriv (emb := emb) (k := k) (c := c) (hasDerivAt_ray e v)
    have hc : ContinuousAt (fun t : ℝ => (fun i j => (k • fromVoigt3 (emb (e + t • v)) true + c • (1 : M3)) i j : Fin 3 → Fin 3 → ℝ)) 0 :=
      continuousAt_pi.2 fun i => continuousAt_pi.2 fun j => (hd i j).continuousAt
    have h0 : (fun i j => (k • fromVoigt3 (emb (e + (0 : ℝ) • v)) true + c • (1 : M3)) i j : Fin 3 → Fin 3 → ℝ) =
        (k • fromVoigt3 (emb e) true + c • 1 : M3) := by
      rw [zero_smul, add_zero]
    have hcT := hc.tendsto
    rw [h0] at hcT
    exact (hcT.eventually (stretches_nearby hst)).mono fun t hh => hh (argument_symm _)
  refine ⟨fun Q hQ H hH hsm hsep => ?_, fun Q hQ H hH hsm hsep => ?_⟩
  · obtain ⟨c, hc, hfm⟩ := spaceLaw_from msqrt (hyperelasticMat h solver eps epsEq) hk
    have hcc : ∀ P : M3, (hyperelasticMat h solver eps epsEq).derivativeFactor • P + c • 1 = (2 : ℝ) • P + 1 := fun P =>
      Option.some.inj ((hc P).symm.trans (ht P))
    obtain ⟨l, N, hst⟩ := spaceC_stretches hH
    refine material_turn hfm (space_contract msqrt ho hk).1 (hyperelasticMat_isotropic h hf hs he) (space_components hQ)
      ⟨_, ?_, ht _⟩ ⟨_, ?_, ht _⟩ (hnear LinearMap.id _ _ _ ?_)
    · rw [space_cauchyGreen]
      exact ⟨⟨l, N, hst⟩, hsm, hsep⟩
    · have := (space_components hQ).strain (EAS.greenLagrange3 H)
      simp only [LinearMap.id_apply] at this
      rw [this, harg Q hQ, space_cauchyGreen]
      exact ⟨⟨_, _, stretches_turn hst hQ⟩, smoothDev_turn hsm hQ, separated_turn hsep hQ⟩
    · rw [hcc, LinearMap.id_apply, space_cauchyGreen]
      exact ⟨l, N, hst⟩
  · obtain ⟨c, hc, hfm⟩ := planeStrainLaw_from msqrt (hyperelasticMat h solver eps epsEq) hk
    have hcc : ∀ P : M3, (hyperelasticMat h solver eps epsEq).derivativeFactor • P + c • 1 = (2 : ℝ) • P + 1 := fun P =>
      Option.some.inj ((hc P).symm.trans (ht P))
    obtain ⟨l, N, hst⟩ := planeC_stretches hH
    refine material_turn hfm (planeStrain_contract msqrt ho hk).1 (hyperelasticMat_isotropic h hf hs he) (plane_components hQ)
      ⟨_, ?_, ht _⟩ ⟨_, ?_, ht _⟩ (hnear planeEmb _ _ _ ?_)
    · rw [← plane_argument, plane_cauchyGreen]
      exact ⟨⟨l, N, hst⟩, hsm, hsep⟩
    · rw [← plane_argument, ← planeEmb_apply, (plane_components hQ).strain, harg _ (inSpace_orth hQ), planeEmb_apply, plane_cauchyGreen]
      exact ⟨⟨_, _, stretches_turn hst (inSpace_orth hQ)⟩, smoothDev_turn hsm (inSpace_orth hQ), separated_turn hsep (inSpace_orth hQ)⟩
    · rw [hcc, planeEmb_apply, plane_cauchyGreen]
      exact ⟨l, N, hst⟩

/-! ### Moduli of the linear elements -/

theorem planeIsotropic_moduli (l mu : ℝ) {Q : Matrix (Fin 2) (Fin 2) ℝ} (hQ : Qᵀ * Q = 1) :
    (transformationMatrix2 Q)ᵀ * !![l + 2 * mu, l, 0; l, l + 2 * mu, 0; 0, 0, mu] * transformationMatrix2 Q =
      !![l + 2 * mu, l, 0; l, l + 2 * mu, 0; 0, 0, mu] := by
  have hsym : (!![l + 2 * mu, l, 0; l, l + 2 * mu, 0; 0, 0, mu] : Matrix (Fin 3) (Fin 3) ℝ).IsSymm := by
    ext i j
    fin_cases i <;> fin_cases j <;> rfl
  have hl := linearLaw_contract _ hsym
  refine (turnedLaw_of_energy (T := transformationMatrix2 Q) hl hl (fun x => ?_) 0).tangent
  have hE : ∀ x : Fin 3 → ℝ, (linearLaw !![l + 2 * mu, l, 0; l, l + 2 * mu, 0; 0, 0, mu]).energy x =
      (⟨l, mu⟩ : SVK ℝ).energyMatrix (fromVoigt3 (planeEmb x) true) := by
    intro x
    rw [planeEmb_apply, fromVoigt_plane]
    simp [linearLaw, SVK.energyMatrix, Matrix.trace, Matrix.mulVec, dotProduct, Fin.sum_univ_three]
    ring
  rw [hE, hE, (plane_components hQ).strain]
  exact Option.some.inj (svk_isotropic ⟨l, mu⟩ (fromVoigt3 (planeEmb x) true) trivial
    (by simpa using argument_symm (k := 1) (c := 0) (planeEmb x)) (inSpace Q) (inSpace_orth hQ)).1

/-- C114, moduli. The moduli of the linear elements are the same in all directions: in space, in plane strain and in plane
stress. -/
theorem linear_moduli_turn (p : SVK ℝ) :
    (∀ Q : M3, Qᵀ * Q = 1 → (transformationMatrix3 Q)ᵀ * p.moduliVoigt * transformationMatrix3 Q = p.moduliVoigt) ∧
    (∀ Q : Matrix (Fin 2) (Fin 2) ℝ, Qᵀ * Q = 1 →
      (transformationMatrix2 Q)ᵀ * (Matrix.of fun i j => p.moduliVoigt (planeFree i) (planeFree j)) * transformationMatrix2 Q =
        Matrix.of fun i j => p.moduliVoigt (planeFree i) (planeFree j)) ∧
    ∀ Q : Matrix (Fin 2) (Fin 2) ℝ, Qᵀ * Q = 1 →
      (transformationMatrix2 Q)ᵀ * VanishingStress.Spec.planeStressModuli p * transformationMatrix2 Q =
        VanishingStress.Spec.planeStressModuli p := by
  refine ⟨fun Q hQ => ?_, fun Q hQ => ?_, fun Q hQ => planeIsotropic_moduli _ _ hQ⟩
  · have h := ((svk_turn id p).1 Q hQ 0).tangent
    obtain ⟨c, -, hf⟩ := spaceLaw_from id (svk p) (svk_scale p)
    have ht : ∀ x, (spaceLaw id (svk p)).tangent x = p.moduliVoigt := fun x => by
      ext i j
      rw [hf.tangent, ← svk_moduliVoigt]
      rfl
    rwa [ht, ht] at h
  · have e : (Matrix.of fun i j => p.moduliVoigt (planeFree i) (planeFree j)) =
        !![p.lambda + 2 * p.mu, p.lambda, 0; p.lambda, p.lambda + 2 * p.mu, 0; 0, 0, p.mu] := by
      ext i j
      fin_cases i <;> fin_cases j <;> simp [planeFree, SVK.moduliVoigt]
    rw [e]
    exact planeIsotropic_moduli _ _ hQ

/-! ### Examples -/

/-- Neo-Hooke material, stretched and sheared in space, and sheared in the plane. -/
example (msqrt : M3 → M3) {Q : M3} (hQ : Qᵀ * Q = 1) := (neoHooke_turn msqrt ⟨2, 1⟩ one_pos).1 Q hQ ![1, 0, 0, 0, 0, 1 / 2] (by
  simp [Matrix.det_fin_three, fromVoigt3, invStrainFactor, Matrix.one_apply]
  norm_num)

example (msqrt : M3 → M3) {Q : Matrix (Fin 2) (Fin 2) ℝ} (hQ : Qᵀ * Q = 1) :=
  (neoHooke_turn msqrt ⟨2, 1⟩ one_pos).2 Q hQ ![0, 0, 1 / 2] (by
    rw [fromVoigt_plane]
    simp [Matrix.det_fin_three, Matrix.one_apply]
    norm_num)

/-- A law that is stiff in one direction, and the one that is stiff in the turned direction. -/
example (C : Matrix (Fin 3) (Fin 3) ℝ) (hC : C.IsSymm) (S : Matrix (Fin 3) (Fin 3) ℝ)
    (hS : S * transformationMatrix2 !![0, -1; 1, 0] = 1) (e : Fin 3 → ℝ) :=
  turnedLaw_of_energy (T := transformationMatrix2 !![0, -1; 1, 0]) (linearLaw_contract C hC)
    (linearLaw_contract (Sᵀ * C * S) (by
      rw [Matrix.IsSymm, Matrix.transpose_mul, Matrix.transpose_mul, Matrix.transpose_transpose, hC.eq, Matrix.mul_assoc]))
    (fun x => by
      show 0.5 * _ = 0.5 * _
      have h : S *ᵥ (transformationMatrix2 !![0, -1; 1, 0] *ᵥ x) = x := by rw [Matrix.mulVec_mulVec, hS, Matrix.one_mulVec]
      rw [Matrix.mul_assoc, ← Matrix.mulVec_mulVec, Matrix.dotProduct_mulVec, Matrix.vecMul_transpose, ← Matrix.mulVec_mulVec, h]) e

/-- Such a matrix is the transformation by the transposed rotation. -/
example : transformationMatrix2 !![0, 1; -1, 0] * transformationMatrix2 !![0, -1; 1, 0] = (1 : Matrix (Fin 3) (Fin 3) ℝ) := by
  ext i j
  fin_cases i <;> fin_cases j <;> simp [transformationMatrix2, Matrix.mul_apply, Fin.sum_univ_three]

/-- Blatz-Ko material with a volumetric part, at rest. -/
example (msqrt : M3 → M3) {Q : M3} (hQ : Qᵀ * Q = 1) : ∃ solver, CorrectSolver solver ∧
    TurnedLaw (transformationMatrix3 Q) (spaceLaw msqrt (hyperelasticMat ⟨blatzKo 1, ⟨1, .f1⟩⟩ solver 0 1))
      (spaceLaw msqrt (hyperelasticMat ⟨blatzKo 1, ⟨1, .f1⟩⟩ solver 0 1)) (EAS.greenLagrange3 0) := by
  obtain ⟨solver, hs⟩ := hyperelastic_hypotheses.1
  have hd : ((1 : M3) + 0).det ≠ 0 := by simp
  obtain ⟨l, N, hst⟩ := spaceC_stretches hd
  have h1 : spaceC 0 = 1 := by
    ext i j
    fin_cases i <;> fin_cases j <;> simp [spaceC]
  refine ⟨solver, hs, (hyperelastic_turn msqrt ⟨blatzKo 1, ⟨1, .f1⟩⟩ (library_isotropic.2.1 1) trivial hs (eps := 0)
    (epsEq := 1) one_pos zero_le_one).1 Q hQ 0 hd ((library_smooth hst).2.1 1) fun l N hst => ?_⟩
  refine ⟨(blatzKo_derivatives 1 l hst.1).2.1, fun i j => Or.inl ?_⟩
  rw [h1] at hst
  have e : diagonal (fun a => l a ^ 2) = (1 : M3) := by
    have := congrArg (fun X => Nᵀ * X * N) hst.2.decomp
    simp only [Matrix.mul_one] at this
    rw [hst.2.orth] at this
    rw [this, Matrix.mul_assoc, Matrix.mul_assoc, Matrix.mul_assoc, hst.2.orth, Matrix.mul_one, ← Matrix.mul_assoc,
      hst.2.orth, Matrix.one_mul]
  have e' : ∀ a, l a = 1 := fun a => by
    have := congrFun (congrFun e a) a
    rw [diagonal_apply_eq, one_apply_eq] at this
    exact (pow_eq_one_iff_of_nonneg (hst.1 a).le two_ne_zero).1 this
  rw [e', e']

end Ikarus.Element
