import Verif.FE.EASStabilityProps
import Verif.FE.AssumedStressStabilityProps

/-!
Which variants and elements are accepted, how the modes are transformed, and when there is an energy.
-/

namespace Ikarus.Element.EAS

open Matrix Ikarus

variable {n d q m : Nat}

namespace Spec

/-- The numbers of parameters on offer in two and three dimensions. -/
def variants : StrainFunction → Nat → List Nat
  | .linear, 2 => [0, 4, 5, 7, 11]
  | .greenLagrange, 2 => [0, 4, 5, 7, 11]
  | .linear, _ => [0, 9, 21]
  | .greenLagrange, _ => [0, 9, 21]
  | .displacementGradient, 2 => [0, 4]
  | .displacementGradientTransposed, 2 => [0, 4]
  | .displacementGradient, _ => [0, 9]
  | .displacementGradientTransposed, _ => [0, 9]

end Spec

/-- C49, accepted variants. The number of parameters asked for is the one of the variant, and exactly the listed numbers are
accepted; for all others there is an exception. -/
theorem createEASType_iff (f : StrainFunction) {dim : Nat} (hd : dim = 2 ∨ dim = 3) (k : Int) (m : Nat) :
    createEASType f dim k = some m ↔ (m : Int) = k ∧ m ∈ Spec.variants f dim := by
  rcases hd with rfl | rfl <;> cases f <;> simp only [createEASType, Spec.variants] <;>
    (constructor
     · intro h
       split_ifs at h with h0 <;> simp_all
       all_goals subst h; simp
     · rintro ⟨rfl, h⟩
       simp only [List.mem_cons, List.not_mem_nil, or_false] at h
       rcases h with rfl | rfl | rfl | rfl | rfl <;> simp)

/-- C49, accepted elements. Enhancements are possible for the quadrilaterals with four and nine nodes and the brick with eight
nodes; other elements go without internal variables only. -/
theorem applicable_iff (n d m : Nat) :
    applicable n d m = true ↔ m = 0 ∨ (n, d) ∈ [(4, 2), (9, 2), (8, 3)] := by
  simp [applicable]; tauto

/-- C49, energy. An element with internal variables never returns an energy, it throws; without internal variables the energy
is the integral of the energy density. -/
theorem eas_scalar (law : Law q) (gps : List (Point n d q)) (m : Nat) (u : NodeVec n d) :
    (m ≠ 0 → calculateScalar law gps m u = none) ∧
    calculateScalar law gps 0 u =
      some ((gps.map fun gp => law.energy (gp.strain u) * gp.detJ * gp.weight).sum) := by
  constructor
  · intro h
    unfold calculateScalar
    split
    · rfl
    · simp [h]
  · unfold calculateScalar
    simp [applicable, NonLinearElastic.calculateScalar_sum]

example : createEASType .linear 2 6 = none ∧ createEASType .linear 2 (-4) = none ∧
    createEASType .displacementGradient 2 5 = none ∧ createEASType .greenLagrange 3 21 = some 21 := by decide

/-- C50. The modes of an enhanced strain are strains of the unit cube moved to the physical coordinates: with the transposed
Jacobian `J` at the center the strain `E` becomes `J⁻¹ E J⁻ᵀ`, scaled with the integration elements. -/
theorem ansatz_transformation :
    (∀ (geo : Geometry 2) {m : Nat} (entries : List (Fin 3 × Fin m × ((Fin 2 → ℝ) → ℝ))) (pos : Fin 2 → ℝ)
      (alpha : Fin m → ℝ) (E : Matrix (Fin 2) (Fin 2) ℝ), IsUnit (geo.jacobianTransposed center) → E.IsSymm →
      assign entries pos *ᵥ alpha = toVoigt2 E true →
      (geo.integrationElement center * geo.integrationElement pos) • (ansatz2 entries geo pos *ᵥ alpha) =
        (geo.integrationElement pos * (geo.integrationElement pos)⁻¹) •
        toVoigt2 ((geo.jacobianTransposed center)⁻¹ * E * (geo.jacobianTransposed center)⁻¹ᵀ) true) ∧
    ∀ (geo : Geometry 3) {m : Nat} (entries : List (Fin 6 × Fin m × ((Fin 3 → ℝ) → ℝ))) (pos : Fin 3 → ℝ)
      (alpha : Fin m → ℝ) (E : Matrix (Fin 3) (Fin 3) ℝ), IsUnit (geo.jacobianTransposed center) → E.IsSymm →
      assign entries pos *ᵥ alpha = toVoigt3 E true →
      (geo.integrationElement center * geo.integrationElement pos) • (ansatz3 entries geo pos *ᵥ alpha) =
        (geo.integrationElement pos * (geo.integrationElement pos)⁻¹) •
        toVoigt3 ((geo.jacobianTransposed center)⁻¹ * E * (geo.jacobianTransposed center)⁻¹ᵀ) true := by
  have key : ∀ {k : Nat} (J E : Matrix (Fin k) (Fin k) ℝ), IsUnit J →
      J * (J⁻¹ * E * J⁻¹ᵀ) * Jᵀ = E := by
    intro k J E h
    have hd := (Matrix.isUnit_iff_isUnit_det J).1 h
    have h1 : J⁻¹ᵀ * Jᵀ = 1 := by rw [← Matrix.transpose_mul, Matrix.mul_nonsing_inv J hd, Matrix.transpose_one]
    calc J * (J⁻¹ * E * J⁻¹ᵀ) * Jᵀ = (J * J⁻¹) * E * (J⁻¹ᵀ * Jᵀ) := by simp only [Matrix.mul_assoc]
      _ = E := by rw [h1, Matrix.mul_nonsing_inv J hd, Matrix.one_mul, Matrix.mul_one]
  have hsym : ∀ {k : Nat} (J E : Matrix (Fin k) (Fin k) ℝ), E.IsSymm → (J * E * Jᵀ).IsSymm := by
    intro k J E hE
    rw [Matrix.IsSymm, Matrix.transpose_mul, Matrix.transpose_mul, Matrix.transpose_transpose, hE.eq, Matrix.mul_assoc]
  have inv : ∀ {k : Nat} (c c' : ℝ) (T : Matrix (Fin k) (Fin k) ℝ) (w v : Fin k → ℝ), c ≠ 0 → IsUnit T →
      T *ᵥ w = v → (c * c') • ((c'⁻¹ • (c • T)⁻¹) *ᵥ v) = (c' * c'⁻¹) • w := by
    intro k c c' T w v hc hT h
    have hTd := (Matrix.isUnit_iff_isUnit_det T).1 hT
    have hcT : IsUnit (c • T).det := by
      rw [Matrix.det_smul]; exact (isUnit_iff_ne_zero.2 (pow_ne_zero _ hc)).mul hTd
    have h1 : (c • T)⁻¹ *ᵥ v = c⁻¹ • w := by
      have : v = (c • T) *ᵥ (c⁻¹ • w) := by
        rw [Matrix.smul_mulVec, Matrix.mulVec_smul, h, smul_smul, mul_inv_cancel₀ hc, one_smul]
      rw [this, Matrix.mulVec_mulVec, Matrix.nonsing_inv_mul _ hcT, Matrix.one_mulVec]
    rw [Matrix.smul_mulVec, h1, smul_smul, smul_smul]
    congr 1
    field_simp
  have hne : ∀ {k : Nat} (geo : Geometry k), IsUnit (geo.jacobianTransposed center) →
      geo.integrationElement center ≠ 0 := by
    intro k geo h
    rw [Geometry.integrationElement, ne_eq, abs_eq_zero]
    exact isUnit_iff_ne_zero.1 ((Matrix.isUnit_iff_isUnit_det _).1 h)
  refine ⟨fun geo m entries pos alpha E h hE hv => ?_, fun geo m entries pos alpha E h hE hv => ?_⟩
  · rw [ansatz2, ← Matrix.mulVec_mulVec, hv, T0Inverse2]
    refine inv _ _ _ _ _ (hne geo h) (((transformation_invertible (K := ℝ) two_ne_zero).1 _).2 h) ?_
    rw [transformation_congruence.1 _ _ (hsym _ _ hE), key _ _ h]
  · rw [ansatz3, ← Matrix.mulVec_mulVec, hv, T0Inverse3]
    refine inv _ _ _ _ _ (hne geo h) (((transformation_invertible (K := ℝ) two_ne_zero).2 _).2 h) ?_
    rw [transformation_congruence.2 _ _ (hsym _ _ hE), key _ _ h]

end Ikarus.Element.EAS

namespace Ikarus.Element.AssumedStress

open Matrix Ikarus EAS

/-- C73. The modes of an assumed stress are stresses of the unit cube moved to the physical coordinates: with the Jacobian `F`
of the geometry at the center the stress `S` becomes `F S Fᵀ`. -/
theorem stressAnsatz_transformation :
    (∀ (geo : Geometry 2) {m : Nat} (entries : List (Fin 3 × Fin m × ((Fin 2 → ℝ) → ℝ))) (pos : Fin 2 → ℝ)
      (beta : Fin m → ℝ) (F S : Matrix (Fin 2) (Fin 2) ℝ), geo.jacobianTransposed center = Fᵀ → S.IsSymm →
      assign entries pos *ᵥ beta = toVoigt2 S false →
      stressAnsatz2 entries geo pos *ᵥ beta = toVoigt2 (F * S * Fᵀ) false) ∧
    ∀ (geo : Geometry 3) {m : Nat} (entries : List (Fin 6 × Fin m × ((Fin 3 → ℝ) → ℝ))) (pos : Fin 3 → ℝ)
      (beta : Fin m → ℝ) (F S : Matrix (Fin 3) (Fin 3) ℝ), geo.jacobianTransposed center = Fᵀ → S.IsSymm →
      assign entries pos *ᵥ beta = toVoigt3 S false →
      stressAnsatz3 entries geo pos *ᵥ beta = toVoigt3 (F * S * Fᵀ) false := by
  constructor
  · intro geo m entries pos beta F S hF hS hv
    rw [stressAnsatz2, ← Matrix.mulVec_mulVec, hv, T0plane, hF, stress_transformation.1 _ _ hS, transpose_transpose]
  · intro geo m entries pos beta F S hF hS hv
    rw [stressAnsatz3, ← Matrix.mulVec_mulVec, hv, T0space, hF, stress_transformation.2 _ _ hS, transpose_transpose]

/-- C73. The accepted numbers of parameters and the accepted elements. -/
theorem assumedStress_accepted {dim : Nat} (hd : dim = 2 ∨ dim = 3) (k : Int) (m n : Nat) :
    (createAssumedStressType dim k = some m ↔ (m : Int) = k ∧ m ∈ if dim = 2 then [5] else [18, 24, 30]) ∧
    (asApplicable n dim = true ↔ n = 2 ^ dim) := by
  rcases hd with rfl | rfl <;> simp only [createAssumedStressType, asApplicable] <;> refine ⟨?_, by simp⟩ <;>
    (constructor
     · intro h
       split_ifs at h with h0 <;> simp_all
       all_goals subst h; simp
     · rintro ⟨rfl, h⟩
       simp only [if_true, Nat.reduceEqDiff, if_false, List.mem_cons, List.not_mem_nil, or_false] at h
       rcases h with rfl | rfl | rfl <;> simp)

example : createAssumedStressType 3 24 = some 24 ∧ createAssumedStressType 2 4 = none ∧ asApplicable 9 2 = false := by decide

end Ikarus.Element.AssumedStress
