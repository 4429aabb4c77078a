import Verif.FE.MaterialLawModel
import Verif.FE.ElementProps
import Verif.FE.ResultLemmas
import Verif.Material.AutoDiffMatProps
import Verif.Material.UndeformedProps
import Mathlib.Analysis.Calculus.FDeriv.Linear
import Mathlib.Analysis.Normed.Module.FiniteDimension

/-! Lemmas about the materials as the solid elements use them. -/

namespace Ikarus.Element

open Matrix AutoDiffMat VanishingStress Result Ikarus.Spec Ikarus.Element.Spec

variable {q : Nat}

/-! ### Voigt notation -/

theorem ddot_voigt {S : M3} (hS : S.IsSymm) (v : Fin 6 → ℝ) :
    ddot S (fromVoigt3 v true) = ∑ k, toVoigt3 S false k * v k := by
  have h1 := hS.apply 0 1
  have h2 := hS.apply 0 2
  have h3 := hS.apply 1 2
  simp [ddot, Fin.sum_univ_three, Fin.sum_univ_six, fromVoigt3, toVoigt3, strainFactor, invStrainFactor, h1, h2, h3]
  ring

theorem contract_voigt {L : Tensor4 ℝ 3} (hs : MinorSymmetric L) (v : Fin 6 → ℝ) (i : Fin 6) :
    toVoigt3 (contract L (fromVoigt3 v true)) false i = ∑ k, moduliVoigt L i k * v k := by
  have hv : fromVoigt3 v true = ∑ k, v k • fromVoigt3 (seed k) true := by
    ext a b
    simp only [Matrix.sum_apply, Matrix.smul_apply, smul_eq_mul, Fin.sum_univ_six]
    fin_cases a <;> fin_cases b <;> simp [fromVoigt3, seed, invStrainFactor]
  have hc : ∀ a b, contract L (fromVoigt3 v true) a b = ∑ k, v k * contract L (fromVoigt3 (seed k) true) a b := by
    intro a b
    rw [hv]
    simp only [contract, Matrix.sum_apply, Matrix.smul_apply, smul_eq_mul, Fin.sum_univ_three, Fin.sum_univ_six]
    ring
  simp only [← contract_seed hs]
  fin_cases i <;> simp [toVoigt3, strainFactor, hc, mul_comm]

theorem hooke_voigt (l m : ℝ) : moduliVoigt (hooke l m) = (⟨l, m⟩ : SVK ℝ).moduliVoigt := by
  ext i j
  fin_cases i <;> fin_cases j <;> simp [moduliVoigt, hooke, SVK.moduliVoigt, unvoigt3] <;> ring

theorem svk_moduliVoigt (p : SVK ℝ) : moduliVoigt p.moduliTensor = p.moduliVoigt := by
  obtain ⟨-, h1, -, -, h2, -⟩ := svk_moduli two_ne_zero p
  rw [hooke_of_contract h1 fun X hX => h2 X hX, hooke_voigt]

theorem underlying_svk (p : SVK ℝ) : underlying (svk p) = svkLaw p := by
  have h1 : ∀ E : M3, toVoigt3 (p.stressMatrixToMatrix E) false = p.stressMatrixToVoigt E := by
    intro E
    funext i
    fin_cases i <;> simp [toVoigt3, strainFactor, SVK.stressMatrixToMatrix, SVK.stressMatrixToVoigt] <;> ring
  simp only [underlying, svk, svkLaw, Option.map_some, h1, svk_moduliVoigt]

theorem toVoigt3_zero (b : Bool) : toVoigt3 (0 : M3) b = 0 := by
  funext i
  fin_cases i <;> simp [toVoigt3]

theorem moduliVoigt_zero : moduliVoigt 0 = 0 := by
  ext i j
  simp [moduliVoigt]

theorem toVoigt3_hasDerivAt {S : ℝ → M3} {dS : M3} {t : ℝ} (h : HasMatDeriv S dS t) (i : Fin 6) :
    HasDerivAt (fun s => toVoigt3 (S s) false i) (toVoigt3 dS false i) t := by
  fin_cases i <;> simp only [toVoigt3, strainFactor, Bool.false_eq_true, if_false, mul_one, Fin.zero_eta, Fin.mk_one,
    Fin.reduceFinMk, Matrix.cons_val]
  exacts [h 0 0, h 1 1, h 2 2, h 1 2, h 0 2, h 0 1]

theorem voigtLinear (v w : Fin 6 → ℝ) (t : ℝ) (b : Bool) (i j : Fin 3) :
    fromVoigt3 (v + t • w) b i j = fromVoigt3 v b i j + t * fromVoigt3 w b i j := by
  rw [fromVoigt3_add_smul]
  rfl

theorem fromVoigt3_hasDerivAt {e : ℝ → Fin 6 → ℝ} {de : Fin 6 → ℝ} {t : ℝ} (h : ∀ k, HasDerivAt (fun s => e s k) (de k) t) :
    HasMatDeriv (fun s => fromVoigt3 (e s) true) (fromVoigt3 de true) t := by
  intro i j
  fin_cases i <;> fin_cases j <;> simp only [fromVoigt3, Matrix.of_apply, Matrix.cons_val', Matrix.cons_val_zero, Matrix.cons_val_one,
    Matrix.cons_val, Fin.zero_eta, Fin.mk_one, Fin.reduceFinMk] <;>
    first | exact h _ | exact (h _).mul_const _

/-! ### A law that comes from a material -/

/-- What the elements need of a material on a set of its own strains: the contract of C81 without the requirement that
the set contains the strains nearby. -/
structure OwnContract (m : Mat) (D : Set M3) : Prop where
  factor : m.derivativeFactor ≠ 0
  energy : ∀ A ∈ D, A.IsSymm → ∃ W, m.energy A = some W
  stress : ∀ A ∈ D, A.IsSymm → ∃ S, m.stress A = some S ∧ S.IsSymm
  moduli : ∀ A ∈ D, A.IsSymm → ∃ L, m.moduli A = some L ∧ MinorSymmetric L ∧ ∀ i j k l, L i j k l = L k l i j
  stress_deriv : ∀ C dC t S, HasMatDeriv C dC t → (∀ s, (C s).IsSymm) → dC.IsSymm → C t ∈ D → m.stress (C t) = some S →
    HasDerivAt (fun s => (m.energy (C s)).getD 0) (1 / m.derivativeFactor * ddot S dC) t
  moduli_deriv : ∀ C dC t L, HasMatDeriv C dC t → (∀ s, (C s).IsSymm) → dC.IsSymm → C t ∈ D → m.moduli (C t) = some L →
    HasMatDeriv (fun s => (m.stress (C s)).getD 0) (contract L ((1 / m.derivativeFactor) • dC)) t

theorem ownContract_of_law {m : Mat} {D : Set M3} (h : AutoDiffMat.Spec.Law m D) : OwnContract m D :=
  ⟨h.factor, h.energy, h.stress, h.moduli, h.stress_deriv, h.moduli_deriv⟩

/-- The law evaluates the material at the strain `k E + c`, where `E` has the components `emb x`, and returns the components
`free` of the stresses and the moduli. -/
structure FromMaterial (law : Law q) (m : Mat) (emb : (Fin q → ℝ) →ₗ[ℝ] (Fin 6 → ℝ)) (free : Fin q → Fin 6) (k c : ℝ) : Prop where
  energy : ∀ x, law.energy x = (m.energy (k • fromVoigt3 (emb x) true + c • 1)).getD 0
  stress : ∀ x i, law.stress x i = toVoigt3 ((m.stress (k • fromVoigt3 (emb x) true + c • 1)).getD 0) false (free i)
  tangent : ∀ x i j, law.tangent x i j = moduliVoigt ((m.moduli (k • fromVoigt3 (emb x) true + c • 1)).getD 0) (free i) (free j)
  emb : ∀ (w : Fin 6 → ℝ) v, ∑ j, w j * emb v j = ∑ i, w (free i) * v i

section

variable {law : Law q} {m : Mat} {emb : (Fin q → ℝ) →ₗ[ℝ] (Fin 6 → ℝ)} {free : Fin q → Fin 6} {k c : ℝ} {D : Set M3}

theorem argument_symm (x : Fin 6 → ℝ) : (k • fromVoigt3 x true + c • 1 : M3).IsSymm := by
  have := path_symm (k := k) (c := c) x 0 0
  simpa [path] using this

theorem argument_deriv {e : ℝ → Fin q → ℝ} {de : Fin q → ℝ} {t : ℝ} (h : HasDerivAt e de t) :
    HasMatDeriv (fun s => k • fromVoigt3 (emb (e s)) true + c • 1) (k • fromVoigt3 (emb de) true) t := by
  have h1 : HasDerivAt (fun s => emb (e s)) (emb de) t := (LinearMap.toContinuousLinearMap emb).hasFDerivAt.comp_hasDerivAt t h
  intro i j
  have h2 := ((fromVoigt3_hasDerivAt (fun k => hasDerivAt_pi.1 h1 k)) i j).const_mul k
  exact (h2.add_const (c * (1 : M3) i j))

/-- A law that comes from a material whose own contract holds keeps the contract of the elements, if the strain of the material
grows with the strain that is passed by the factor of the material. -/
theorem FromMaterial.contract (h : FromMaterial law m emb free k c) (hL : OwnContract m D)
    (hk : k = m.derivativeFactor) :
    LawContract law {x | k • fromVoigt3 (emb x) true + c • 1 ∈ D} where
  stress e de t ht hd := by
    obtain ⟨S, hS, hsym⟩ := hL.stress _ ht (argument_symm _)
    have h1 := hL.stress_deriv _ _ t S (argument_deriv (emb := emb) (k := k) (c := c) hd) (fun s => argument_symm _)
      (by have := path_rate_symm (k := k) (emb de); exact this) ht hS
    simp only [h.energy]
    refine h1.congr_deriv ?_
    have h2 : ddot S (k • fromVoigt3 (emb de) true) = k * ddot S (fromVoigt3 (emb de) true) := by
      simp [ddot, Fin.sum_univ_three]; ring
    have hf := hL.factor
    rw [h2, ddot_voigt hsym, hk, ← mul_assoc, one_div, inv_mul_cancel₀ hf, one_mul, h.emb]
    refine Finset.sum_congr rfl fun i _ => ?_
    rw [h.stress, hS]
    rfl
  tangent e de t ht hd := by
    obtain ⟨L, hM, hmin, -⟩ := hL.moduli _ ht (argument_symm _)
    have h1 := hL.moduli_deriv _ _ t L (argument_deriv (emb := emb) (k := k) (c := c) hd) (fun s => argument_symm _)
      (by have := path_rate_symm (k := k) (emb de); exact this) ht hM
    rw [hasDerivAt_pi]
    intro i
    simp only [h.stress]
    refine (toVoigt3_hasDerivAt h1 (free i)).congr_deriv ?_
    have hf := hL.factor
    rw [smul_smul, hk, one_div, inv_mul_cancel₀ hf, one_smul, contract_voigt hmin, h.emb]
    refine Finset.sum_congr rfl fun l _ => ?_
    rw [h.tangent, hM]
    rfl
  symm x hx i j := by
    obtain ⟨L, hM, -, hmaj⟩ := hL.moduli _ hx (argument_symm _)
    rw [h.tangent, h.tangent, hM, Option.getD_some, moduliVoigt_symm hmaj]

end

/-! ### Elements in space and plane strain -/

theorem spaceLaw_from (msqrt : M3 → M3) (m : Mat) {k : ℝ} (hk : AutoDiffMat.Spec.scale .greenLagrangian m.strainTag = some k) :
    ∃ c, (∀ P, transformStrain msqrt .greenLagrangian m.strainTag P = some (k • P + c • 1)) ∧
      FromMaterial (spaceLaw msqrt m) m LinearMap.id id k c := by
  obtain ⟨c, hc⟩ := scale_affine hk
  refine ⟨c, hc msqrt, fun x => ?_, fun x i => ?_, fun x i j => ?_, fun w v => rfl⟩
  · simp only [spaceLaw, Mat.storedEnergyVoigt, Mat.storedEnergy, hc]
    rfl
  · simp only [spaceLaw, Mat.stressesVoigt, Mat.stresses, hc, Option.bind_some, LinearMap.id_apply]
    cases m.stress (k • fromVoigt3 x true + c • 1) with
    | none => simp [toVoigt3_zero]
    | some S => rfl
  · simp only [spaceLaw, Mat.tangentModuli, hc, Option.bind_some, LinearMap.id_apply]
    cases m.moduli (k • fromVoigt3 x true + c • 1) with
    | none => simp [moduliVoigt_zero]
    | some S => rfl

/-- `enlargeIfReduced` for plane strains. -/
noncomputable def planeEmb : (Fin 3 → ℝ) →ₗ[ℝ] (Fin 6 → ℝ) where
  toFun := enlargeVector planeFree
  map_add' x y := by
    simp only [enlarge_plane]
    funext i
    fin_cases i <;> simp
  map_smul' a x := by
    simp only [enlarge_plane]
    funext i
    fin_cases i <;> simp

theorem planeEmb_apply (x : Fin 3 → ℝ) : planeEmb x = enlargeVector planeFree x := rfl

theorem reduceMatrix_plane (C : Matrix (Fin 6) (Fin 6) ℝ) :
    reduceMatrix C (createFixedVoigtIndices planeStressPairs) = some (Matrix.of fun i j => C (planeFree i) (planeFree j)) := by
  have h : remainingIndices (createFixedVoigtIndices planeStressPairs) = some planeFree := by decide
  unfold reduceMatrix
  rw [h]
  rfl

/-- Plane strain does not change the completed strain. -/
theorem reduceStrain_plane (msqrt : M3 → M3) (m : Mat) {k : ℝ}
    (hk : AutoDiffMat.Spec.scale .greenLagrangian m.strainTag = some k) (x : Fin 3 → ℝ) (A : M3)
    (hA : planeArgument msqrt m x = some A) :
    VanishingStrain.reduceStrain (underlying m) planeStressPairs msqrt (.matrix A) = some A := by
  have hz : ∀ i, fromVoigt3 (enlargeVector planeFree x) true i 2 = 0 ∧ fromVoigt3 (enlargeVector planeFree x) true 2 i = 0 := by
    rw [fromVoigt_plane]
    intro i
    fin_cases i <;> simp
  unfold planeArgument at hA
  generalize fromVoigt3 (enlargeVector planeFree x) true = E at hz hA
  unfold VanishingStrain.reduceStrain
  have ht : m.strainTag = .greenLagrangian ∨ m.strainTag = .rightCauchyGreenTensor := by
    cases hm : m.strainTag <;> simp [AutoDiffMat.Spec.scale, hm] at hk ⊢
  rcases ht with h | h
  · have h' : (underlying m).strainTag = .greenLagrangian := h
    rw [if_pos (Or.inr h')]
    rw [h] at hA
    simp only [transformStrain, if_true, Option.some.injEq] at hA
    subst hA
    rw [StrainArg.maybeFromVoigt, zeros_plane E hz]
  · have h' : (underlying m).strainTag = .rightCauchyGreenTensor := h
    rw [if_neg (by rw [h']; simp), h']
    rw [h] at hA
    simp only [transformStrain, createRightCauchyGreen, reduceCtorEq, if_false, or_self, Option.some.injEq] at hA
    subst hA
    simp only [transformStrain, createRightCauchyGreen, createGreenLagrangianStrains, reduceCtorEq, if_false, or_self,
      StrainArg.maybeFromVoigt, Option.bind_eq_bind, Option.bind_some]
    rw [show (1 / 2 : ℝ) • ((2 : ℝ) • E + 1 - 1) = E by rw [add_sub_cancel_right, smul_smul]; norm_num, zeros_plane E hz]

theorem planeStrainLaw_from (msqrt : M3 → M3) (m : Mat) {k : ℝ} (hk : AutoDiffMat.Spec.scale .greenLagrangian m.strainTag = some k) :
    ∃ c, (∀ P, transformStrain msqrt .greenLagrangian m.strainTag P = some (k • P + c • 1)) ∧
      FromMaterial (planeStrainLaw msqrt m) m planeEmb planeFree k c := by
  obtain ⟨c, hc⟩ := scale_affine hk
  have ha : ∀ x, planeArgument msqrt m x = some (k • fromVoigt3 (planeEmb x) true + c • 1) := fun x => hc msqrt _
  have hr := fun x => reduceStrain_plane msqrt m hk x _ (ha x)
  refine ⟨c, hc msqrt, fun x => ?_, fun x i => ?_, fun x i j => ?_, fun w v => ?_⟩
  · simp only [planeStrainLaw, ha, Option.bind_some, VanishingStrain.storedEnergy, hr, Option.bind_eq_bind]
    rfl
  · simp only [planeStrainLaw, ha, Option.bind_some, VanishingStrain.stressesVoigt, hr, Option.bind_eq_bind]
    have hu : ∀ e, (underlying m).stress e = (m.stress e).map fun S => toVoigt3 S false := fun _ => rfl
    rw [hu]
    cases m.stress (k • fromVoigt3 (planeEmb x) true + c • 1) with
    | none => simp [toVoigt3_zero]
    | some S =>
      simp only [Option.map_some, Option.bind_some]
      rw [removeCol_plane]
      rfl
  · simp only [planeStrainLaw, ha, Option.bind_some, VanishingStrain.tangentModuliVoigt, hr, Option.bind_eq_bind]
    have hu : ∀ e, (underlying m).moduli e = (m.moduli e).map moduliVoigt := fun _ => rfl
    rw [hu]
    cases m.moduli (k • fromVoigt3 (planeEmb x) true + c • 1) with
    | none => simp [moduliVoigt_zero]
    | some S =>
      simp only [Option.map_some, Option.bind_some]
      rw [reduceMatrix_plane]
      rfl
  · rw [planeEmb_apply, enlarge_plane]
    simp [Fin.sum_univ_six, Fin.sum_univ_three, planeFree]

end Ikarus.Element
