import Verif.FE.TurnProps
import Verif.Analysis.SmallSolidProps

/-!
C117, elements: what an element computes if lengths and forces are measured in other units.  `a` and `c` are the numbers of new
units of length and of force in the old ones: a length `x` becomes `a * x`, a force `f` becomes `c * f`.
-/

namespace Ikarus.Element

open Matrix Element.Spec

variable {n d q : Nat} {a c : ℝ}

/-! ### Specification -/

/-- The skill `s'` is the skill `s` in other units: energies are multiplied by `a * c`, forces by `c`, stiffnesses by `c / a`. -/
structure _root_.Ikarus.Spec.ScaledSkill (a c : ℝ) (s s' : Skill n d) : Prop where
  scalar : ∀ u, s'.scalar (a • u) = (s.scalar u).map (a * c * ·)
  vector : ∀ u f, s'.vector (a • u) (c • f) = (s.vector u f).map (c • ·)
  matrix : ∀ u K, s'.matrix (a • u) ((c / a) • K) = (s.matrix u K).map ((c / a) • ·)

/-- The material `law'` is the material `law` if stresses are multiplied by `k`. -/
structure Spec.ScaledLaw (k : ℝ) (law law' : Law q) : Prop where
  energy : ∀ e, law'.energy e = k * law.energy e
  stress : ∀ e, law'.stress e = k • law.stress e
  tangent : ∀ e, law'.tangent e = k • law.tangent e

/-- The integration point of the element in other units: the gradients are divided by the unit of length, the integration element
is multiplied by that of the volume. -/
noncomputable def Spec.scaledPoint (a : ℝ) (p : GradientPoint n d) : GradientPoint n d :=
  { p with detJ := a ^ d * p.detJ, dN := fun I => a⁻¹ • p.dN I }

/-- The integration point of a load on the element; `v` multiplies the integration element. -/
def Spec.scaledLoad (a v : ℝ) (p : LoadPoint n d) : LoadPoint n d := { p with x := a • p.x, detJ := v * p.detJ }

/-- An intersection of the element with the boundary. -/
def Spec.scaledFace (a v : ℝ) (i : Traction.Intersection n d) : Traction.Intersection n d :=
  { i with points := i.points.map (scaledLoad a v) }

/-- The load `t'` is the load `t` in other units: forces per length, area or volume are multiplied by `b`. -/
def Spec.LoadScales (a b : ℝ) (t t' : LoadFunction d) : Prop := ∀ x l, t' (a • x) l = b • t x l

/-! ### Lemmas -/

/-- An integration point whose strains are those of another one in other units; `v` multiplies volumes. -/
structure ScaledStrain (a v : ℝ) (p p' : Point n d q) : Prop where
  volume : p'.detJ * p'.weight = v * (p.detJ * p.weight)
  strain : ∀ u, p'.strain (a • u) = p.strain u
  bop : ∀ u I, p'.bop (a • u) I = a⁻¹ • p.bop u I
  kg : ∀ u S (k : ℝ) I J, p'.kg (a • u) (k • S) I J = (k * a⁻¹ * a⁻¹) • p.kg u S I J

theorem scaled_sum {α β M : Type*} [AddCommMonoid M] [Module ℝ M] {P : α → β → Prop} {l : List α} {l' : List β}
    (h : List.Forall₂ P l l') (k : ℝ) (F : α → M) (G : β → M) (hFG : ∀ x y, P x y → G y = k • F x) :
    (l'.map G).sum = k • (l.map F).sum := by
  induction h with
  | nil => simp
  | cons h _ ih => rw [List.map_cons, List.map_cons, List.sum_cons, List.sum_cons, smul_add, ih, hFG _ _ h]

variable {k v : ℝ} {law law' : Law q}

theorem pointEnergy_scale (hl : ScaledLaw k law law') {p p' : Point n d q} (h : ScaledStrain a v p p') (u : NodeVec n d) :
    law'.energy (p'.strain (a • u)) * p'.detJ * p'.weight = (k * v) • (law.energy (p.strain u) * p.detJ * p.weight) := by
  rw [h.strain, hl.energy, mul_assoc, h.volume, smul_eq_mul]
  ring

theorem pointForce_scale (hl : ScaledLaw k law law') {p p' : Point n d q} (h : ScaledStrain a v p p') (u : NodeVec n d) :
    NonLinearElastic.pointForce law' (a • u) p' = (k * v * a⁻¹) • NonLinearElastic.pointForce law u p := by
  funext I
  show (p'.detJ * p'.weight) • ((p'.bop (a • u) I)ᵀ *ᵥ law'.stress (p'.strain (a • u))) =
    (k * v * a⁻¹) • ((p.detJ * p.weight) • ((p.bop u I)ᵀ *ᵥ law.stress (p.strain u)))
  rw [h.strain, hl.stress, h.volume, h.bop, Matrix.transpose_smul, Matrix.smul_mulVec, Matrix.mulVec_smul, smul_smul, smul_smul,
    smul_smul]
  congr 1
  ring

theorem pointMatrix_scale (hl : ScaledLaw k law law') {p p' : Point n d q} (h : ScaledStrain a v p p') (u : NodeVec n d) :
    NonLinearElastic.pointMatrix law' (a • u) p' = (k * v * a⁻¹ * a⁻¹) • NonLinearElastic.pointMatrix law u p := by
  funext I J
  show (p'.detJ * p'.weight) • ((p'.bop (a • u) I)ᵀ * law'.tangent (p'.strain (a • u)) * p'.bop (a • u) J) +
      (p'.detJ * p'.weight) • p'.kg (a • u) (law'.stress (p'.strain (a • u))) I J =
    (k * v * a⁻¹ * a⁻¹) • ((p.detJ * p.weight) • ((p.bop u I)ᵀ * law.tangent (p.strain u) * p.bop u J) +
      (p.detJ * p.weight) • p.kg u (law.stress (p.strain u)) I J)
  rw [h.strain, hl.stress, hl.tangent, h.volume, h.bop, h.bop, h.kg, smul_add, Matrix.transpose_smul, Matrix.smul_mul, Matrix.mul_smul,
    Matrix.smul_mul, Matrix.mul_smul, Matrix.smul_mul]
  simp only [smul_smul]
  congr 2 <;> ring

/-! ### Elements -/

/-- C117, elements. If stresses times volumes have the unit of energy, the nonlinear element in other units computes the energy, the
forces and the stiffness in other units. -/
theorem nonLinearElastic_scale (ha : a ≠ 0) (hkv : k * v = a * c) (hl : ScaledLaw k law law') {gps gps' : List (Point n d q)}
    (h : List.Forall₂ (ScaledStrain a v) gps gps') :
    Ikarus.Spec.ScaledSkill a c (Skill.nonLinearElastic law gps) (Skill.nonLinearElastic law' gps') where
  scalar u := by
    refine congrArg some ?_
    beta_reduce
    rw [NonLinearElastic.calculateScalar_sum, NonLinearElastic.calculateScalar_sum, ← hkv, ← smul_eq_mul (k * v),
      scaled_sum h _ _ _ fun p p' hp => pointEnergy_scale hl hp u]
  vector u f := by
    refine congrArg some ?_
    beta_reduce
    rw [NonLinearElastic.calculateVector_sum, NonLinearElastic.calculateVector_sum, smul_add,
      scaled_sum h _ _ _ fun p p' hp => pointForce_scale hl hp u, hkv]
    congr 2
    field_simp
  matrix u K := by
    refine congrArg some ?_
    beta_reduce
    rw [NonLinearElastic.calculateMatrix_sum, NonLinearElastic.calculateMatrix_sum, smul_add,
      scaled_sum h _ _ _ fun p p' hp => pointMatrix_scale hl hp u, hkv]
    congr 2
    field_simp

theorem gradient_scale (ha : a ≠ 0) (dN : Fin n → Fin d → ℝ) (u : NodeVec n d) :
    EAS.gradient (fun I => a⁻¹ • dN I) (a • u) = EAS.gradient dN u := by
  ext i j
  show ∑ I, (a * u I i) * (a⁻¹ * dN I j) = ∑ I, u I i * dN I j
  refine Finset.sum_congr rfl fun I _ => ?_
  field_simp

theorem bop_scale {dim : EAS.Dimension d q} (hdim : EAS.Spec.IsVoigt dim) (F : Matrix (Fin d) (Fin d) ℝ) (g : Fin d → ℝ) (s : ℝ) :
    dim.bop F (s • g) = s • dim.bop F g := by
  ext k b
  rw [Matrix.smul_apply, hdim.bop, hdim.bop]
  unfold EAS.Spec.along
  rw [Finset.smul_sum]
  refine Finset.sum_congr rfl fun i _ => ?_
  rw [Finset.smul_sum]
  refine Finset.sum_congr rfl fun j _ => ?_
  have : EAS.rowMatrix b (s • g) = s • EAS.rowMatrix b g := by
    ext i j
    simp only [EAS.rowMatrix, Matrix.of_apply, Matrix.smul_apply, Pi.smul_apply, smul_eq_mul]
    split <;> simp
  have e : ((EAS.rowMatrix b (s • g))ᵀ * F) i j = s * ((EAS.rowMatrix b g)ᵀ * F) i j := by
    rw [this, Matrix.transpose_smul, Matrix.smul_mul, Matrix.smul_apply, smul_eq_mul]
  rw [smul_eq_mul, mul_left_comm]
  exact congrArg (_ * ·) e

/-- C117, solids. The Green-Lagrange strains do not depend on the units. -/
theorem green_scale (ha : a ≠ 0) {dim : EAS.Dimension d q} (hdim : EAS.Spec.IsVoigt dim) (p : GradientPoint n d) :
    ScaledStrain a (a ^ d) (Ikarus.Spec.greenPoint dim p) (Ikarus.Spec.greenPoint dim (scaledPoint a p)) where
  volume := by
    show a ^ d * p.detJ * p.weight = a ^ d * (p.detJ * p.weight)
    ring
  strain u := congrArg dim.greenLagrange (gradient_scale ha p.dN u)
  bop u I := by
    show dim.bop (1 + EAS.gradient (fun I => a⁻¹ • p.dN I) (a • u)) (a⁻¹ • p.dN I) = _
    rw [gradient_scale ha, bop_scale hdim]
    rfl
  kg u S k I J := by
    show (∑ i, ∑ j, k * S (dim.voigt i j) * (a⁻¹ * p.dN I i) * (a⁻¹ * p.dN J j)) • (1 : Matrix (Fin d) (Fin d) ℝ) =
      (k * a⁻¹ * a⁻¹) • ((∑ i, ∑ j, S (dim.voigt i j) * p.dN I i * p.dN J j) • (1 : Matrix (Fin d) (Fin d) ℝ))
    rw [smul_smul, Finset.mul_sum]
    congr 1
    refine Finset.sum_congr rfl fun i _ => ?_
    rw [Finset.mul_sum]
    exact Finset.sum_congr rfl fun j _ => by ring

/-- C117, elements. The linear element in other units. -/
theorem linearElastic_scale (ha : a ≠ 0) {dim : EAS.Dimension d q} (hdim : EAS.Spec.IsVoigt dim) (hk : k * a ^ d = a * c)
    (C : Matrix (Fin q) (Fin q) ℝ) (ps : List (GradientPoint n d)) :
    Ikarus.Spec.ScaledSkill a c (Skill.linearElastic C (ps.map (Ikarus.Spec.linearPoint dim)))
      (Skill.linearElastic (k • C) ((ps.map (scaledPoint a)).map (Ikarus.Spec.linearPoint dim))) := by
  have h : List.Forall₂ (fun p p' : LinPoint n d q => p'.detJ * p'.weight = a ^ d * (p.detJ * p.weight) ∧
      (∀ I, p'.bop I = a⁻¹ • p.bop I) ∧ ∀ u, p'.strain (a • u) = p.strain u)
      (ps.map (Ikarus.Spec.linearPoint dim)) ((ps.map (scaledPoint a)).map (Ikarus.Spec.linearPoint dim)) := by
    rw [List.map_map]
    refine forall_map ps _ _ fun p _ => ?_
    have hb : ∀ I, (Ikarus.Spec.linearPoint dim (scaledPoint a p)).bop I = a⁻¹ • (Ikarus.Spec.linearPoint dim p).bop I :=
      fun I => bop_scale hdim 1 (p.dN I) a⁻¹
    refine ⟨?_, hb, fun u => ?_⟩
    · show a ^ d * p.detJ * p.weight = a ^ d * (p.detJ * p.weight)
      ring
    · refine Finset.sum_congr rfl fun I _ => ?_
      show (Ikarus.Spec.linearPoint dim (scaledPoint a p)).bop I *ᵥ (a • u I) = (Ikarus.Spec.linearPoint dim p).bop I *ᵥ u I
      rw [hb I, Matrix.smul_mulVec, Matrix.mulVec_smul, smul_smul, inv_mul_cancel₀ ha, one_smul]
  refine ⟨fun u => congrArg some ?_, fun u f => congrArg some ?_, fun u K => congrArg some ?_⟩
  · beta_reduce
    rw [LinearElastic.calculateScalar_sum, LinearElastic.calculateScalar_sum, ← hk, ← smul_eq_mul (k * a ^ d),
      scaled_sum h _ (fun p => LinearElastic.internalEnergy C (p.strain u) * p.detJ * p.weight) _ fun p p' hp => ?_]
    rw [hp.2.2, LinearElastic.internalEnergy, LinearElastic.internalEnergy, mul_assoc _ p'.detJ, hp.1, Matrix.smul_mulVec,
      dotProduct_smul, smul_eq_mul, smul_eq_mul]
    ring
  · beta_reduce
    rw [LinearElastic.calculateVector_sum, LinearElastic.calculateVector_sum, smul_add,
      scaled_sum h (k * a ^ d * a⁻¹) (LinearElastic.pointForce C u) _ fun p p' hp => ?_, hk]
    · congr 2
      field_simp
    · funext I
      show (p'.detJ * p'.weight) • ((p'.bop I)ᵀ *ᵥ ((k • C) *ᵥ p'.strain (a • u))) =
        (k * a ^ d * a⁻¹) • ((p.detJ * p.weight) • ((p.bop I)ᵀ *ᵥ (C *ᵥ p.strain u)))
      rw [hp.1, hp.2.1, hp.2.2, Matrix.transpose_smul, Matrix.smul_mulVec, Matrix.smul_mulVec, Matrix.mulVec_smul, smul_smul, smul_smul,
        smul_smul]
      congr 1
      ring
  · beta_reduce
    rw [LinearElastic.calculateMatrix_sum, LinearElastic.calculateMatrix_sum, smul_add,
      scaled_sum h (k * a ^ d * a⁻¹ * a⁻¹) (LinearElastic.pointMatrix C) _ fun p p' hp => ?_, hk]
    · congr 2
      field_simp
    · funext I J
      show (p'.detJ * p'.weight) • ((p'.bop I)ᵀ * (k • C) * p'.bop J) =
        (k * a ^ d * a⁻¹ * a⁻¹) • ((p.detJ * p.weight) • ((p.bop I)ᵀ * C * p.bop J))
      rw [hp.1, hp.2.1, hp.2.1, Matrix.transpose_smul, Matrix.smul_mul, Matrix.mul_smul, Matrix.smul_mul, Matrix.mul_smul,
        Matrix.smul_mul]
      simp only [smul_smul]
      congr 1
      ring

/-- C117, trusses. The truss in other units: positions are multiplied by the unit of length, the cross section by its square, the
modulus by the unit of stress. -/
theorem truss_scale (ha : 0 < a) (E A : ℝ) (X1 X2 : Fin d → ℝ) :
    Ikarus.Spec.ScaledSkill a c (Skill.truss E A X1 X2) (Skill.truss (c / a ^ 2 * E) (a ^ 2 * A) (a • X1) (a • X2)) := by
  have ha0 := ha.ne'
  have hsq : ∀ x : Fin d → ℝ, Truss.squaredNorm (a • x) = a ^ 2 * Truss.squaredNorm x := fun x => by
    unfold Truss.squaredNorm
    rw [smul_dotProduct, dotProduct_smul, smul_eq_mul, smul_eq_mul]
    ring
  have hlen : Truss.squaredNorm (a • X2 - a • X1) = a ^ 2 * Truss.squaredNorm (X2 - X1) := by rw [← smul_sub, hsq]
  have hax : ∀ u : NodeVec 2 d, Truss.axis (a • X1) (a • X2) (a • u) = a • Truss.axis X1 X2 u := fun u => by
    unfold Truss.axis
    simp only [Pi.smul_apply, smul_sub, smul_add]
  have hp : ScaledStrain a a (Truss.point X1 X2) (Truss.point (a • X1) (a • X2)) := by
    refine ⟨?_, fun u => ?_, fun u I => ?_, fun u S k I J => ?_⟩
    · show √(Truss.squaredNorm (a • X2 - a • X1)) * 1 = a * (√(Truss.squaredNorm (X2 - X1)) * 1)
      rw [hlen, Real.sqrt_mul (sq_nonneg a), Real.sqrt_sq ha.le, mul_assoc]
    · funext _
      show (Truss.computeStrain (a • X1) (a • X2) (a • u)).Egl = (Truss.computeStrain X1 X2 u).Egl
      rw [Truss.Egl_eq, Truss.Egl_eq, hlen, hax, hsq, ← mul_sub, mul_left_comm, mul_div_mul_left _ _ (pow_ne_zero 2 ha0)]
    · have h : (Truss.computeStrain (a • X1) (a • X2) (a • u)).dEdu I = a⁻¹ • (Truss.computeStrain X1 X2 u).dEdu I := by
        have e : (a ^ 2 * Truss.squaredNorm (X2 - X1))⁻¹ • (a • Truss.axis X1 X2 u) =
            a⁻¹ • ((Truss.squaredNorm (X2 - X1))⁻¹ • Truss.axis X1 X2 u) := by
          rw [smul_smul, smul_smul, mul_inv]
          congr 1
          field_simp
        fin_cases I
        · show (Truss.computeStrain (a • X1) (a • X2) (a • u)).dEdu 0 = a⁻¹ • (Truss.computeStrain X1 X2 u).dEdu 0
          rw [Truss.dEdu_zero, Truss.dEdu_zero, hlen, hax, e, smul_neg]
        · show (Truss.computeStrain (a • X1) (a • X2) (a • u)).dEdu 1 = a⁻¹ • (Truss.computeStrain X1 X2 u).dEdu 1
          rw [Truss.dEdu_one, Truss.dEdu_one, hlen, hax, e]
      ext k b
      exact congrFun h b
    · show (k * S 0) • (Truss.computeStrain (a • X1) (a • X2) (a • u)).ddEddu I J =
        (k * a⁻¹ * a⁻¹) • (S 0 • (Truss.computeStrain X1 X2 u).ddEddu I J)
      rw [Truss.ddEddu_apply, Truss.ddEddu_apply, hlen, smul_smul, smul_smul, smul_smul, mul_inv]
      congr 1
      field_simp
  have hl : ScaledLaw c (Truss.law E A) (Truss.law (c / a ^ 2 * E) (a ^ 2 * A)) := by
    have hC : (!![c / a ^ 2 * E * (a ^ 2 * A)] : Matrix (Fin 1) (Fin 1) ℝ) = c • !![E * A] := by
      ext i j
      fin_cases i; fin_cases j
      show c / a ^ 2 * E * (a ^ 2 * A) = c * (E * A)
      field_simp
    refine ⟨fun e => ?_, fun e => ?_, fun e => ?_⟩
    · show 0.5 * (e ⬝ᵥ (!![c / a ^ 2 * E * (a ^ 2 * A)] *ᵥ e)) = c * (0.5 * (e ⬝ᵥ (!![E * A] *ᵥ e)))
      rw [hC, Matrix.smul_mulVec, dotProduct_smul, smul_eq_mul]
      ring
    · show !![c / a ^ 2 * E * (a ^ 2 * A)] *ᵥ e = c • (!![E * A] *ᵥ e)
      rw [hC, Matrix.smul_mulVec]
    · exact hC
  refine ⟨fun u => congrArg some ?_, fun u f => congrArg some ?_, fun u K => congrArg some ?_⟩
  · beta_reduce
    rw [Truss.calculateScalar_eq, Truss.calculateScalar_eq, pointEnergy_scale hl hp u, smul_eq_mul, mul_comm a c]
  · beta_reduce
    rw [Truss.calculateVector_eq, Truss.calculateVector_eq, pointForce_scale hl hp u, smul_add, mul_inv_cancel_right₀ ha0]
  · beta_reduce
    rw [Truss.calculateMatrix_eq, Truss.calculateMatrix_eq, pointMatrix_scale hl hp u, smul_add, mul_inv_cancel_right₀ ha0,
      div_eq_mul_inv]

/-! ### Loads -/

theorem displacement_scale (v : ℝ) (p : LoadPoint n d) (u : NodeVec n d) :
    (scaledLoad a v p).displacement (a • u) = a • p.displacement u := by
  show ∑ I, p.N I • (a • u I) = a • ∑ I, p.N I • u I
  rw [Finset.smul_sum]
  exact Finset.sum_congr rfl fun I _ => smul_comm _ _ _

/-- C117, loads. A volume load in other units. -/
theorem volumeLoad_scale {b : ℝ} (hb : v * b = c) {t t' : LoadFunction d} (ht : LoadScales a b t t') (gps : List (LoadPoint n d))
    (l : ℝ) : Ikarus.Spec.ScaledSkill a c (Skill.volumeLoad (some t) gps l)
      (Skill.volumeLoad (some t') (gps.map (scaledLoad a v)) l) where
  scalar u := by
    refine congrArg some ?_
    beta_reduce
    rw [VolumeLoad.calculateScalar_sum, VolumeLoad.calculateScalar_sum, List.map_map, ← List.sum_map_mul_left]
    congr 1
    refine List.map_congr_left fun p _ => ?_
    show -(((scaledLoad a v p).displacement (a • u) ⬝ᵥ t' (a • p.x) l) * (v * p.detJ) * p.weight) = _
    rw [ht, displacement_scale, smul_dotProduct, dotProduct_smul, ← hb, smul_eq_mul, smul_eq_mul]
    ring
  vector u f := by
    refine congrArg some ?_
    beta_reduce
    rw [VolumeLoad.calculateVector_sum, VolumeLoad.calculateVector_sum, smul_add, List.map_map, List.smul_sum]
    congr 2
    rw [List.map_map]
    refine List.map_congr_left fun p _ => ?_
    funext I i
    show VolumeLoad.pointForce t' l (scaledLoad a v p) I i = c * VolumeLoad.pointForce t l p I i
    rw [VolumeLoad.pointForce_apply, VolumeLoad.pointForce_apply]
    show -(v * p.detJ * p.weight * (p.N I * t' (a • p.x) l i)) = _
    rw [ht, ← hb, Pi.smul_apply, smul_eq_mul]
    ring
  matrix u K := rfl

/-- C117, loads. A traction on the boundary in other units. -/
theorem traction_scale {b : ℝ} (hb : v * b = c) {t t' : LoadFunction d} (ht : LoadScales a b t t')
    (is : List (Traction.Intersection n d)) (l : ℝ) : Ikarus.Spec.ScaledSkill a c (Skill.traction (some is) (some t) l)
      (Skill.traction (some (is.map (scaledFace a v))) (some t') l) := by
  have hp : loadedPoints (is.map (scaledFace a v)) = (loadedPoints is).map (scaledLoad a v) := by
    unfold loadedPoints
    rw [List.filter_map, List.flatMap_map, List.map_flatMap]
    rfl
  refine ⟨fun u => ?_, fun u f => ?_, fun u K => rfl⟩
  · refine (Traction.calculateScalar_sum _ t' l _).trans ((congrArg some ?_).trans
      (congrArg (Option.map (a * c * ·)) (Traction.calculateScalar_sum is t l u).symm))
    beta_reduce
    rw [hp, List.map_map, ← List.sum_map_mul_left]
    congr 1
    refine List.map_congr_left fun p _ => ?_
    show -((t' (a • p.x) l ⬝ᵥ (scaledLoad a v p).displacement (a • u)) * p.weight * (v * p.detJ)) = _
    rw [ht, displacement_scale, smul_dotProduct, dotProduct_smul, ← hb, smul_eq_mul, smul_eq_mul]
    ring
  · refine (Traction.calculateVector_sum _ t' l _).trans ((congrArg some ?_).trans
      (congrArg (Option.map (c • ·)) (Traction.calculateVector_sum is t l f).symm))
    beta_reduce
    rw [hp, List.map_map, smul_add, List.smul_sum]
    congr 2
    rw [List.map_map]
    refine List.map_congr_left fun p _ => ?_
    funext I i
    show Traction.pForce t' l (scaledLoad a v p) I i = c * Traction.pForce t l p I i
    rw [Traction.pForce_apply, Traction.pForce_apply]
    show -(p.weight * (v * p.detJ) * (p.N I * t' (a • p.x) l i)) = _
    rw [ht, ← hb, Pi.smul_apply, smul_eq_mul]
    ring

/-! ### Elements with several skills -/

/-- C117, elements. An element all of whose skills are in other units computes energy, forces and stiffness in other units. -/
theorem mixin_scale {ss ss' : List (Skill n d)} (h : List.Forall₂ (Ikarus.Spec.ScaledSkill a c) ss ss') :
    Ikarus.Spec.ScaledSkill a c (Mixin.together ss) (Mixin.together ss') := by
  induction h with
  | nil => exact ⟨fun u => by simp [Mixin.together, Mixin.calculateScalar], fun u f => rfl, fun u K => rfl⟩
  | @cons s s' ss ss' h1 _ ih =>
    refine ⟨fun u => ?_, fun u f => ?_, fun u K => ?_⟩
    · show (s'.scalar (a • u)).bind (fun x => ((Mixin.together ss').scalar (a • u)).map fun y => x + y) =
        ((s.scalar u).bind fun x => ((Mixin.together ss).scalar u).map fun y => x + y).map _
      rw [h1.scalar, ih.scalar]
      cases s.scalar u with
      | none => rfl
      | some x =>
        cases (Mixin.together ss).scalar u with
        | none => rfl
        | some y => exact congrArg some (mul_add _ _ _).symm
    · show (s'.vector (a • u) (c • f)).bind ((Mixin.together ss').vector (a • u)) = ((s.vector u f).bind ((Mixin.together ss).vector u)).map _
      rw [h1.vector]
      cases s.vector u f with
      | none => rfl
      | some g => exact ih.vector u g
    · show (s'.matrix (a • u) ((c / a) • K)).bind ((Mixin.together ss').matrix (a • u)) =
        ((s.matrix u K).bind ((Mixin.together ss).matrix u)).map _
      rw [h1.matrix]
      cases s.matrix u K with
      | none => rfl
      | some L => exact ih.matrix u L

end Ikarus.Element
