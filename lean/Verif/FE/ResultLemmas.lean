import Verif.FE.ResultModel
import Verif.FE.AssumedStressLinearProps
import Verif.FE.DisplacementPressureProps
import Verif.Material.VanishingModuliProps

/-! Lemmas about the reported stresses. -/

namespace Ikarus.Element.Result

open Matrix VanishingStress

variable {n d q m g : Nat}

theorem planeFree_eq : createfreeVoigtIndices planeStressPairs = some planeFree := by decide

theorem enlarge_plane (e : Fin 3 → ℝ) : enlargeVector planeFree e = ![e 0, e 1, 0, 0, 0, e 2] := by
  funext i
  fin_cases i <;> simp [enlargeVector, planeFree, List.finRange_succ, Function.update_apply]

theorem fromVoigt_plane (e : Fin 3 → ℝ) : fromVoigt3 (enlargeVector planeFree e) true =
    !![e 0, e 2 * (1 / 2), 0; e 2 * (1 / 2), e 1, 0; 0, 0, 0] := by
  rw [enlarge_plane]
  ext i j
  fin_cases i <;> fin_cases j <;> simp [fromVoigt3, invStrainFactor]

theorem removeCol_plane (S : Fin 6 → ℝ) :
    removeCol S (createFixedVoigtIndices planeStressPairs) = some fun i => S (planeFree i) := by
  have h : remainingIndices (createFixedVoigtIndices planeStressPairs) = some planeFree := by decide
  unfold removeCol
  rw [h]
  rfl

theorem zeros_plane (E : M3) (h : ∀ i, E i 2 = 0 ∧ E 2 i = 0) : VanishingStrain.setStrainsToZero planeStressPairs E = E := by
  ext i j
  simp only [VanishingStrain.setStrainsToZero, planeStressPairs, List.ofFn_succ, List.ofFn_zero, List.foldl_cons, List.foldl_nil,
    setComp, Matrix.of_apply]
  have h0 := h 0; have h1 := h 1; have h2 := h 2
  fin_cases i <;> fin_cases j <;> simp [h0, h1, h2]

/-- The strain tags of the elements and the materials that go together. -/
def Compatible (tag : StrainTag) (law : UnderlyingLaw) : Prop :=
  (tag = .linear ∧ law.strainTag = .linear) ∨
    (tag = .greenLagrangian ∧ (law.strainTag = .greenLagrangian ∨ law.strainTag = .rightCauchyGreenTensor))

theorem planeStrain_stress (law : UnderlyingLaw) (tag : StrainTag) (msqrt : M3 → M3) (h : Compatible tag law)
    (e : Fin 3 → ℝ) : (planeStrain law tag msqrt).calculateStress e =
      ((planeStrain law tag msqrt).calculateStressFull e).map fun S i => S (planeFree i) := by
  have hz : ∀ i, fromVoigt3 (enlargeVector planeFree e) true i 2 = 0 ∧ fromVoigt3 (enlargeVector planeFree e) true 2 i = 0 := by
    rw [fromVoigt_plane]
    intro i
    fin_cases i <;> simp
  simp only [planeStrain, ResultMaterial.calculateStress, ResultMaterial.calculateStressFull, ResultMaterial.stresses,
    ResultMaterial.underlyingStresses, ResultMaterial.enlargeIfReduced, solidStresses, VanishingStrain.stressesVoigt]
  generalize fromVoigt3 (enlargeVector planeFree e) true = E at hz ⊢
  have key : ∀ E', transformStrain msqrt tag law.strainTag E = some E' →
      VanishingStrain.reduceStrain law planeStressPairs msqrt (.matrix E') = some E' := by
    intro E' hE'
    unfold VanishingStrain.reduceStrain
    obtain ⟨h1, h2⟩ | ⟨h1, h2 | h2⟩ := h
    · rw [if_pos (Or.inl h2)]
      rw [h1, h2] at hE'
      simp only [transformStrain, if_true, Option.some.injEq] at hE'
      subst hE'
      rw [StrainArg.maybeFromVoigt, zeros_plane E hz]
    · rw [if_pos (Or.inr h2)]
      rw [h1, h2] at hE'
      simp only [transformStrain, if_true, Option.some.injEq] at hE'
      subst hE'
      rw [StrainArg.maybeFromVoigt, zeros_plane E hz]
    · rw [if_neg (by rw [h2]; simp)]
      rw [h1, h2] at hE'
      simp only [transformStrain, createRightCauchyGreen, reduceCtorEq, if_false, or_self, Option.some.injEq] at hE'
      subst hE'
      rw [h2]
      simp only [transformStrain, createRightCauchyGreen, createGreenLagrangianStrains, reduceCtorEq, if_false, or_self,
        StrainArg.maybeFromVoigt, Option.bind_eq_bind, Option.bind_some]
      rw [show (1 / 2 : ℝ) • ((2 : ℝ) • E + 1 - 1) = E by rw [add_sub_cancel_right, smul_smul]; norm_num, zeros_plane E hz]
  cases hE : transformStrain msqrt tag law.strainTag E with
  | none => rfl
  | some E' =>
    simp only [Option.bind_eq_bind, Option.bind_some, key E' hE]
    cases law.stress E' with
    | none => rfl
    | some S => exact removeCol_plane S

theorem linearElasticity_reduce (m : SVK ℝ) (nfGt : Bool) (tol : ℝ) (E : StrainArg) :
    reduceStress (linearElasticity m) planeStressPairs nfGt tol E = reduceStress (svkLaw m) planeStressPairs nfGt tol E := by
  have h : ∀ E, initUnknownStrains (linearElasticity m) planeStressPairs E = initUnknownStrains (svkLaw m) planeStressPairs E := by
    intro E
    unfold initUnknownStrains initialValue
    simp [linearElasticity, svkLaw]
  unfold reduceStress
  rw [h]
  rfl

end Ikarus.Element.Result
