import Verif.Material.DecomposeModel
import Verif.Material.HyperelasticDerivProps
import Verif.FE.HyperelasticLawModel

/-!
C112: a decomposed hyperelastic material is its two parts together.
-/

namespace Ikarus

open Matrix Spec Hyperelastic Ikarus.Element

namespace Spec

/-- Both parts answer, and the whole is the deviatoric part plus `kappa` times the volumetric one. -/
def together {α : Type} [Add α] [SMul ℝ α] (kappa : ℝ) (d v : Option α) : Option α :=
  d.bind fun x => v.map fun y => x + kappa • y

/-- The material law `w` is the sum of `d` and `kappa` times `v`. -/
structure Together (kappa : ℝ) (w d v : UnderlyingLaw) : Prop where
  energy : ∀ E, w.energy E = together kappa (d.energy E) (v.energy E)
  stress : ∀ E, w.stress E = together kappa (d.stress E) (v.stress E)
  moduli : ∀ E, w.moduli E = together kappa (d.moduli E) (v.moduli E)
  tag : w.strainTag = d.strainTag ∧ w.strainTag = v.strainTag
  factor : w.derivativeFactor = d.derivativeFactor ∧ w.derivativeFactor = v.derivativeFactor

/-- `C` is a plane strain tensor with a thickness strain for which the stresses `S` of a plane vanish. -/
def PlaneStress (S : M3 → Option M3) (C : M3) : Prop :=
  C 0 2 = 0 ∧ C 2 0 = 0 ∧ C 1 2 = 0 ∧ C 2 1 = 0 ∧ ∃ T, S C = some T ∧ T 2 0 = 0 ∧ T 2 1 = 0 ∧ T 2 2 = 0

/-- The same strains in the plane. -/
def SamePlane (C C' : M3) : Prop := C 0 0 = C' 0 0 ∧ C 0 1 = C' 0 1 ∧ C 1 0 = C' 1 0 ∧ C 1 1 = C' 1 1

/-- The full claim for plane stress: the energy of the whole is the sum of the energies of the parts, each with the thickness
strain of its own for which its stresses vanish. -/
def PlaneStressTogether (solver : EigenSolver) (eps : ℝ) : Prop :=
  ∀ (h : Hyperelastic) (C Cd Cv : M3), SamePlane C Cd → SamePlane C Cv →
    PlaneStress (h.stresses solver eps) C → PlaneStress (h.decompose.1.stresses solver eps) Cd →
    PlaneStress (h.decompose.2.1.stresses solver eps) Cv →
    h.storedEnergy solver eps C = together h.decompose.2.2 (h.decompose.1.storedEnergy solver eps Cd)
      (h.decompose.2.1.storedEnergy solver eps Cv)

end Spec

theorem f0_zero (J : ℝ) : (Volumetric.mk 0 .f0).storedEnergy J = 0 ∧ (Volumetric.mk 0 .f0).firstDerivative J = 0 ∧
    (Volumetric.mk 0 .f0).secondDerivative J = 0 :=
  ⟨zero_mul _, zero_mul _, zero_mul _⟩

theorem noDev_stresses (l : Fin 3 → ℝ) : noDev.stresses l = some 0 := by
  show some (fun a => (0 : Fin 3 → ℝ) a / l a) = some 0
  congr 1
  funext a
  simp

theorem noDev_moduli (eps : ℝ) (l : Fin 3 → ℝ) : noDev.tangentModuli eps l = some 0 := by
  unfold DevFun.tangentModuli
  rw [noDev_stresses]
  show some _ = some _
  congr 1
  funext i j k m
  simp

/-- C112. For every tensor and every solver, energy, stresses and moduli of a hyperelastic material are those of the deviatoric part
plus the volumetric parameter times those of the volumetric part; it answers exactly if both do. -/
theorem decompose_together (h : Hyperelastic) (solver : EigenSolver) (eps epsEq : ℝ) (C : M3) :
    h.storedEnergy solver eps C = together h.decompose.2.2 (h.decompose.1.storedEnergy solver eps C)
      (h.decompose.2.1.storedEnergy solver eps C) ∧
    h.stresses solver eps C = together h.decompose.2.2 (h.decompose.1.stresses solver eps C)
      (h.decompose.2.1.stresses solver eps C) ∧
    h.tangentModuli solver eps epsEq C = together h.decompose.2.2 (h.decompose.1.tangentModuli solver eps epsEq C)
      (h.decompose.2.1.tangentModuli solver eps epsEq C) := by
  obtain ⟨dev, ⟨K, vf⟩⟩ := h
  refine ⟨?_, ?_, ?_⟩
  · unfold Hyperelastic.storedEnergy Hyperelastic.decompose MaterialFactory.makePureVolumetric together
    cases principalStretches solver C with
    | none => rfl
    | some lN =>
      simp only [Option.bind_eq_bind, Option.bind_some]
      cases detF eps lN.1 with
      | none => rfl
      | some J =>
        simp only [Option.bind_some]
        cases dev.storedEnergy lN.1 with
        | none => rfl
        | some W => simp [noDev, Volumetric.storedEnergy]
  · unfold Hyperelastic.stresses Hyperelastic.decompose MaterialFactory.makePureVolumetric together
    cases principalStretches solver C with
    | none => rfl
    | some lN =>
      simp only [Option.bind_eq_bind, Option.bind_some]
      cases detF eps lN.1 with
      | none => rfl
      | some J =>
        simp only [Option.bind_some]
        cases dev.stresses lN.1 with
        | none => rfl
        | some W =>
          simp only [Option.bind_some, noDev_stresses, Option.pure_def, Option.map_some, Option.some.injEq]
          simp only [transformVolumetricStresses, transformDeviatoricStresses, Volumetric.firstDerivative, zero_mul, mul_zero,
            zero_smul, add_zero, one_mul]
          have : diagonal (0 : Fin 3 → ℝ) = 0 := diagonal_zero
          rw [this, Matrix.mul_zero, Matrix.zero_mul, zero_add, smul_smul]
          congr 2
          ring
  · unfold Hyperelastic.tangentModuli Hyperelastic.decompose MaterialFactory.makePureVolumetric together
    cases principalStretches solver C with
    | none => rfl
    | some lN =>
      simp only [Option.bind_eq_bind, Option.bind_some]
      cases detF eps lN.1 with
      | none => rfl
      | some J =>
        simp only [Option.bind_some]
        cases dev.tangentModuli epsEq lN.1 with
        | none => rfl
        | some L =>
          simp only [Option.bind_some, noDev_moduli]
          unfold transformVolumetricTangentModuli
          dsimp only
          generalize symTwoSlots (fourthOrderIKJL C⁻¹ C⁻¹) 2 3 = o
          cases o with
          | none => rfl
          | some sym =>
            simp only [Option.bind_eq_bind, Option.bind_some, Option.pure_def, Option.map_some, Option.some.injEq]
            funext a b c d
            have hz : transformDeviatoricTangentModuli 0 lN.2 a b c d = 0 := by
              unfold transformDeviatoricTangentModuli
              refine Finset.sum_eq_zero fun i _ => Finset.sum_eq_zero fun k _ => ?_
              simp
            simp only [Pi.add_apply, Pi.smul_apply, hz, Volumetric.firstDerivative, Volumetric.secondDerivative, smul_eq_mul]
            ring

/-- The parts as laws. -/
theorem decompose_laws (h : Hyperelastic) (solver : EigenSolver) (eps epsEq : ℝ) :
    Together h.decompose.2.2 (underlying (hyperelasticMat h solver eps epsEq))
      (underlying (hyperelasticMat h.decompose.1 solver eps epsEq))
      (underlying (hyperelasticMat h.decompose.2.1 solver eps epsEq)) where
  energy E := (decompose_together h solver eps epsEq E).1
  stress E := by
    have h2 := (decompose_together h solver eps epsEq E).2.1
    show (h.stresses solver eps E).map _ = together _ ((h.decompose.1.stresses solver eps E).map _)
      ((h.decompose.2.1.stresses solver eps E).map _)
    rw [h2]
    cases h.decompose.1.stresses solver eps E with
    | none => rfl
    | some x =>
      cases h.decompose.2.1.stresses solver eps E with
      | none => rfl
      | some y =>
        simp only [together, Option.map_some, Option.bind_some, Option.some.injEq]
        funext i
        fin_cases i <;> simp [toVoigt3] <;> ring
  moduli E := by
    have h2 := (decompose_together h solver eps epsEq E).2.2
    show (h.tangentModuli solver eps epsEq E).map _ = together _ ((h.decompose.1.tangentModuli solver eps epsEq E).map _)
      ((h.decompose.2.1.tangentModuli solver eps epsEq E).map _)
    rw [h2]
    cases h.decompose.1.tangentModuli solver eps epsEq E with
    | none => rfl
    | some x =>
      cases h.decompose.2.1.tangentModuli solver eps epsEq E with
      | none => rfl
      | some y =>
        simp only [together, Option.map_some, Option.bind_some, Option.some.injEq]
        ext i j
        rfl
  tag := ⟨rfl, rfl⟩
  factor := ⟨rfl, rfl⟩

/-- C112. With the strains outside of the plane, or any others, set to zero: the reduced material is together the reduced parts. -/
theorem decompose_vanishingStrain {k : Nat} (fixed : Fin k → Fin 3 × Fin 3) (msqrt : M3 → M3) (kappa : ℝ)
    (w d v : UnderlyingLaw) (hl : Together kappa w d v) (E : StrainArg) :
    VanishingStrain.storedEnergy w fixed msqrt E = together kappa (VanishingStrain.storedEnergy d fixed msqrt E)
      (VanishingStrain.storedEnergy v fixed msqrt E) ∧
    VanishingStrain.stressesVoigt w fixed msqrt E = together kappa (VanishingStrain.stressesVoigt d fixed msqrt E)
      (VanishingStrain.stressesVoigt v fixed msqrt E) ∧
    VanishingStrain.tangentModuliVoigt w fixed msqrt E = together kappa (VanishingStrain.tangentModuliVoigt d fixed msqrt E)
      (VanishingStrain.tangentModuliVoigt v fixed msqrt E) := by
  have hd : VanishingStrain.reduceStrain d fixed msqrt E = VanishingStrain.reduceStrain w fixed msqrt E := by
    unfold VanishingStrain.reduceStrain; rw [hl.tag.1]
  have hv : VanishingStrain.reduceStrain v fixed msqrt E = VanishingStrain.reduceStrain w fixed msqrt E := by
    unfold VanishingStrain.reduceStrain; rw [← hl.tag.2]
  unfold VanishingStrain.storedEnergy VanishingStrain.stressesVoigt VanishingStrain.tangentModuliVoigt
  rw [hd, hv]
  cases VanishingStrain.reduceStrain w fixed msqrt E with
  | none => exact ⟨rfl, rfl, rfl⟩
  | some E' =>
    simp only [Option.bind_eq_bind, Option.bind_some]
    refine ⟨hl.energy E', ?_, ?_⟩
    · rw [hl.stress]
      cases d.stress E' with
      | none => rfl
      | some x =>
        cases v.stress E' with
        | none => simp [together]
        | some y =>
          simp only [together, Option.bind_some, Option.map_some, removeCol]
          cases remainingIndices (createFixedVoigtIndices fixed) with
          | none => rfl
          | some rem => rfl
    · rw [hl.moduli]
      cases d.moduli E' with
      | none => rfl
      | some x =>
        cases v.moduli E' with
        | none => simp [together]
        | some y =>
          simp only [together, Option.bind_some, Option.map_some, reduceMatrix]
          cases remainingIndices (createFixedVoigtIndices fixed) with
          | none => rfl
          | some rem => rfl

/-- C112. Plane stress: if one thickness strain makes the stresses of both parts vanish, it does so for the whole, and the energies
add. -/
theorem decompose_planeStress_partial (h : Hyperelastic) (solver : EigenSolver) (eps : ℝ) (C : M3)
    (hd : PlaneStress (h.decompose.1.stresses solver eps) C) (hv : PlaneStress (h.decompose.2.1.stresses solver eps) C) :
    PlaneStress (h.stresses solver eps) C ∧
    h.storedEnergy solver eps C = together h.decompose.2.2 (h.decompose.1.storedEnergy solver eps C)
      (h.decompose.2.1.storedEnergy solver eps C) := by
  obtain ⟨h1, h2, h3⟩ := decompose_together h solver eps 0 C
  obtain ⟨a, b, c, d, S, hS, s0, s1, s2⟩ := hd
  obtain ⟨_, _, _, _, T, hT, t0, t1, t2⟩ := hv
  refine ⟨⟨a, b, c, d, S + h.decompose.2.2 • T, ?_, ?_, ?_, ?_⟩, h1⟩
  · rw [h2, hS, hT]; rfl
  · simp [s0, t0]
  · simp [s1, t1]
  · simp [s2, t2]

/-- A material of Blatz-Ko type with a volumetric function. -/
noncomputable def exampleSplit : Hyperelastic := ⟨blatzKo 4, ⟨7, .f1⟩⟩

/-- The tensor with principal stretches `a`, `b` and `x`. -/
noncomputable def exampleStretch (a b x : ℝ) : M3 := diagonal fun i => (![a, b, x] : Fin 3 → ℝ) i ^ 2

theorem exampleStretch_has (a b x : ℝ) (ha : 0 < a) (hb : 0 < b) (hx : 0 < x) :
    HasStretches (exampleStretch a b x) ![a, b, x] 1 := by
  refine ⟨fun i => by fin_cases i <;> simp [ha, hb, hx], ?_⟩
  constructor <;> simp [exampleStretch]

/-- The stresses of a material with a Blatz-Ko or no deviatoric part at the tensor. -/
theorem exampleStretch_stress (h : Hyperelastic) (hf : IsotropicFun h.dev) {solver : EigenSolver} (hs : CorrectSolver solver)
    {eps : ℝ} (he : eps < 1) (a b x : ℝ) (ha : 0 < a) (hb : 0 < b) (hx : 0 < x) (S : Fin 3 → ℝ)
    (hS : h.dev.stresses ![a, b, x] = some S)
    (hz : S 2 + (a * b * x) * h.vol.firstDerivative (a * b * x) * (x ^ 2)⁻¹ = 0) :
    PlaneStress (h.stresses solver eps) (exampleStretch a b x) := by
  have hbase := (hyperelastic_any_basis h hf hs he (le_refl 0) (exampleStretch_has a b x ha hb hx)).2.1
  rw [hS] at hbase
  have hinv : (exampleStretch a b x)⁻¹ = diagonal fun i => ((![a, b, x] : Fin 3 → ℝ) i ^ 2)⁻¹ := by
    refine inv_eq_left_inv ?_
    rw [exampleStretch, diagonal_mul_diagonal, ← diagonal_one]
    congr 1
    funext i
    refine inv_mul_cancel₀ (pow_ne_zero 2 ?_)
    fin_cases i
    · exact ha.ne'
    · exact hb.ne'
    · exact hx.ne'
  refine ⟨by simp [exampleStretch], by simp [exampleStretch], by simp [exampleStretch], by simp [exampleStretch], _, hbase, ?_, ?_, ?_⟩
  · simp [hinv]
  · simp [hinv]
  · simp only [transpose_one, Matrix.mul_one, Matrix.one_mul, hinv, Matrix.add_apply, Matrix.smul_apply, diagonal_apply_eq,
      smul_eq_mul]
    exact hz

/-- C112. The full claim for plane stress fails, for every solver: at stretches 1/2 and 1/4 in the plane the thickness stretches are 4
for the whole, 2 for the deviatoric and 8 for the volumetric part, and the energies 33, 31.5 and 0. -/
theorem decompose_planeStress_false {solver : EigenSolver} (hs : CorrectSolver solver) {eps : ℝ} (he : eps < 1) :
    ¬ PlaneStressTogether solver eps := by
  intro hall
  have hw := exampleStretch_stress exampleSplit (blatzKo_isotropic 4) hs he (1 / 2) (1 / 4) 4 (by norm_num) (by norm_num) (by norm_num) _ rfl (by
    simp [exampleSplit, blatzKo, BlatzKo.firstDerivative, determinantFromPrincipalValues, Volumetric.firstDerivative,
      VF.firstDerivative]
    norm_num)
  have hd := exampleStretch_stress exampleSplit.decompose.1 (blatzKo_isotropic 4) hs he (1 / 2) (1 / 4) 2 (by norm_num) (by norm_num) (by norm_num) _ rfl (by
    simp [Hyperelastic.decompose, exampleSplit, blatzKo, BlatzKo.firstDerivative, determinantFromPrincipalValues,
      Volumetric.firstDerivative, VF.firstDerivative]
    norm_num)
  have hv := exampleStretch_stress exampleSplit.decompose.2.1 library_isotropic.1 hs he (1 / 2) (1 / 4) 8 (by norm_num) (by norm_num) (by norm_num) _ (noDev_stresses _) (by
    simp [Hyperelastic.decompose, exampleSplit, MaterialFactory.makePureVolumetric,
      Volumetric.firstDerivative, VF.firstDerivative]
    norm_num)
  have hp : ∀ x y, SamePlane (exampleStretch (1 / 2) (1 / 4) x) (exampleStretch (1 / 2) (1 / 4) y) := fun x y => by
    simp [SamePlane, exampleStretch]
  have h1 := hall exampleSplit _ _ _ (hp 4 2) (hp 4 8) hw hd hv
  rw [(hyperelastic_any_basis exampleSplit (blatzKo_isotropic 4) hs he (le_refl 0) (exampleStretch_has (1 / 2) (1 / 4) 4 (by norm_num) (by norm_num) (by norm_num))).1,
    (hyperelastic_any_basis exampleSplit.decompose.1 (blatzKo_isotropic 4) hs he (le_refl 0)
      (exampleStretch_has (1 / 2) (1 / 4) 2 (by norm_num) (by norm_num) (by norm_num))).1,
    (hyperelastic_any_basis exampleSplit.decompose.2.1 library_isotropic.1 hs he (le_refl 0)
      (exampleStretch_has (1 / 2) (1 / 4) 8 (by norm_num) (by norm_num) (by norm_num))).1] at h1
  simp [together, Hyperelastic.decompose, exampleSplit, MaterialFactory.makePureVolumetric, blatzKo, BlatzKo.storedEnergy, noDev,
    Volumetric.storedEnergy, VF.storedEnergy, Fin.sum_univ_three] at h1
  norm_num at h1

/-- At stretches 2 and 1/2 the thickness stretch 1 is the one of both parts. -/
example {solver : EigenSolver} (hs : CorrectSolver solver) {eps : ℝ} (he : eps < 1) :
    PlaneStress (exampleSplit.stresses solver eps) (exampleStretch 2 (1 / 2) 1) := by
  refine (decompose_planeStress_partial exampleSplit solver eps _ ?_ ?_).1
  · exact exampleStretch_stress exampleSplit.decompose.1 (blatzKo_isotropic 4) hs he 2 (1 / 2) 1 (by norm_num) (by norm_num)
      (by norm_num) _ rfl (by
        simp [Hyperelastic.decompose, exampleSplit, blatzKo, BlatzKo.firstDerivative, determinantFromPrincipalValues,
          Volumetric.firstDerivative, VF.firstDerivative])
  · exact exampleStretch_stress exampleSplit.decompose.2.1 library_isotropic.1 hs he 2 (1 / 2) 1 (by norm_num) (by norm_num)
      (by norm_num) _ (noDev_stresses _) (by
        simp [Hyperelastic.decompose, exampleSplit, MaterialFactory.makePureVolumetric, Volumetric.firstDerivative,
          VF.firstDerivative])

example (solver : EigenSolver) (eps epsEq : ℝ) (msqrt : M3 → M3) (E : StrainArg) :=
  decompose_vanishingStrain VanishingStress.planeStressPairs msqrt _ _ _ _ (decompose_laws exampleSplit solver eps epsEq) E

end Ikarus
