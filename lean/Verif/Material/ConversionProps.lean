import Verif.Material.ConversionModel
import Verif.Tensor.VoigtProps
import Mathlib.Analysis.Matrix.Order
import Mathlib.LinearAlgebra.Matrix.PosDef
import Mathlib.Analysis.Calculus.Deriv.Mul
import Mathlib.Analysis.Calculus.Deriv.Add
import Mathlib.Tactic.Abel
import Mathlib.Tactic.NoncommRing

/-!
C37: conversions of strains, stresses and tangent moduli.
-/

namespace Ikarus

open Matrix

variable {n : Type} [Fintype n] [DecidableEq n]

/-! ### Specification -/

noncomputable section

/-- The strain measures of a deformation gradient. (There is no finite linear strain.) -/
def Spec.strainOf (F : Matrix n n ℝ) : StrainTag → Option (Matrix n n ℝ)
  | .deformationGradient => some F
  | .displacementGradient => some (F - 1)
  | .rightCauchyGreenTensor => some (Fᵀ * F)
  | .greenLagrangian => some ((2 : ℝ)⁻¹ • (Fᵀ * F - 1))
  | .linear => none

/-- `msqrt` returns the principal square root of positive semidefinite matrices. -/
def Spec.PrincipalRoot (msqrt : Matrix n n ℝ → Matrix n n ℝ) : Prop :=
  ∀ M : Matrix n n ℝ, M.PosSemidef → (msqrt M).PosSemidef ∧ msqrt M * msqrt M = M

/-- The stress measures of a state with deformation gradient `F` and second Piola-Kirchhoff stress `S`. -/
def Spec.stressOf (F S : Matrix n n ℝ) : StressTag → Option (Matrix n n ℝ)
  | .PK2 => some S
  | .PK1 => some (F * S)
  | .Kirchhoff => some (F * S * Fᵀ)
  | .Cauchy => some ((F.det)⁻¹ • (F * S * Fᵀ))
  | .linear => none

end

open Spec

/-! ### Strains -/

theorem posSemidef_transpose_mul (F : Matrix n n ℝ) : (Fᵀ * F).PosSemidef := by
  have := posSemidef_conjTranspose_mul_self F
  rwa [conjTranspose_eq_transpose_of_trivial] at this

/-- C37. The strain measures computed from any other measure of the same deformation gradient are the
measures of that deformation gradient. The target may be the Green-Lagrange strain or the right
Cauchy-Green tensor. -/
theorem transformStrain_measure (msqrt : Matrix n n ℝ → Matrix n n ℝ) (F e : Matrix n n ℝ)
    (frm tgt : StrainTag) (hf : strainOf F frm = some e)
    (ht : tgt = .greenLagrangian ∨ tgt = .rightCauchyGreenTensor) :
    transformStrain msqrt frm tgt e = strainOf F tgt := by
  have half : (2 : ℝ) * 2⁻¹ = 1 := by norm_num
  rcases ht with rfl | rfl <;> cases frm <;>
    simp only [strainOf, Option.some.injEq, reduceCtorEq] at hf <;> subst hf <;>
    simp only [transformStrain, strainOf, createGreenLagrangianStrains, createRightCauchyGreen,
      reduceCtorEq, if_true, if_false, or_self, Option.some.injEq, one_div, smul_smul, half,
      one_smul, sub_add_cancel]
  congr 1
  simp only [transpose_sub, transpose_one, Matrix.sub_mul, Matrix.mul_sub, Matrix.one_mul,
    Matrix.mul_one]
  abel

/-- C37. The deformation gradient is recovered from the displacement gradient; the other measures have
lost the rotation, from them the right stretch tensor is computed. -/
theorem transformStrain_deformationGradient (msqrt : Matrix n n ℝ → Matrix n n ℝ)
    (hr : PrincipalRoot msqrt) (F e : Matrix n n ℝ) (frm : StrainTag)
    (hf : strainOf F frm = some e) :
    (frm = .deformationGradient ∨ frm = .displacementGradient →
      transformStrain msqrt frm .deformationGradient e = some F) ∧
    (frm = .greenLagrangian ∨ frm = .rightCauchyGreenTensor →
      ∃ U, transformStrain msqrt frm .deformationGradient e = some U ∧ U.PosSemidef ∧
        Uᵀ * U = Fᵀ * F) := by
  have hU := hr _ (posSemidef_transpose_mul F)
  have hs : (msqrt (Fᵀ * F))ᵀ = msqrt (Fᵀ * F) := by
    have := hU.1.1.eq
    rwa [conjTranspose_eq_transpose_of_trivial] at this
  constructor
  · rintro (rfl | rfl) <;>
      simp [transformStrain, strainOf, createDeformationGradient] at hf ⊢ <;> subst hf <;> simp
  · rintro (rfl | rfl) <;> refine ⟨msqrt (Fᵀ * F), ?_, hU.1, by rw [hs, hU.2]⟩ <;>
      simp [transformStrain, strainOf, createDeformationGradient] at hf ⊢ <;> subst hf <;> simp

/-- C37. Conversions to the deformation gradient and back return the symmetric strain measures, and every
conversion of a measure to itself is the identity. -/
theorem transformStrain_round_trip (msqrt : Matrix n n ℝ → Matrix n n ℝ)
    (hr : PrincipalRoot msqrt) (e : Matrix n n ℝ) :
    (e.PosSemidef → (transformStrain msqrt .rightCauchyGreenTensor .deformationGradient e).bind
        (transformStrain msqrt .deformationGradient .rightCauchyGreenTensor) = some e) ∧
    (((2 : ℝ) • e + 1).PosSemidef →
      (transformStrain msqrt .greenLagrangian .deformationGradient e).bind
        (transformStrain msqrt .deformationGradient .greenLagrangian) = some e) ∧
    (transformStrain msqrt .rightCauchyGreenTensor .greenLagrangian e).bind
        (transformStrain msqrt .greenLagrangian .rightCauchyGreenTensor) = some e ∧
    (transformStrain msqrt .greenLagrangian .rightCauchyGreenTensor e).bind
        (transformStrain msqrt .rightCauchyGreenTensor .greenLagrangian) = some e ∧
    ∀ tag, transformStrain msqrt tag tag e = some e := by
  have hs : ∀ M : Matrix n n ℝ, M.PosSemidef → (msqrt M)ᵀ * msqrt M = M := by
    intro M hM
    have := (hr M hM).1.1.eq
    rw [conjTranspose_eq_transpose_of_trivial] at this
    rw [this, (hr M hM).2]
  refine ⟨fun h => ?_, fun h => ?_, ?_, ?_, ?_⟩
  · simp [transformStrain, createDeformationGradient, createRightCauchyGreen, hs _ h]
  · simp [transformStrain, createDeformationGradient, createGreenLagrangianStrains, hs _ h,
      smul_smul]
  · simp [transformStrain, createRightCauchyGreen, createGreenLagrangianStrains, smul_smul]
  · simp [transformStrain, createRightCauchyGreen, createGreenLagrangianStrains, smul_smul]
  · intro tag
    simp [transformStrain]

/-- C37. Conversion through an intermediate measure equals the direct conversion, for every strain
that is a measure of some deformation, unless the rotation is lost on the way (the target is the
deformation gradient and the intermediate measure is one of the symmetric ones). -/
theorem transformStrain_compose (msqrt : Matrix n n ℝ → Matrix n n ℝ) (hr : PrincipalRoot msqrt)
    (F e : Matrix n n ℝ) (a b c : StrainTag) (hf : strainOf F a = some e)
    (hb : b ≠ .linear ∧ b ≠ .displacementGradient) (hc : c ≠ .linear ∧ c ≠ .displacementGradient)
    (hrot : c = .deformationGradient → b = .deformationGradient ∨ a = .greenLagrangian ∨
      a = .rightCauchyGreenTensor) :
    (transformStrain msqrt a b e).bind (transformStrain msqrt b c) = transformStrain msqrt a c e := by
  -- the value after the first step
  have key : ∀ G : Matrix n n ℝ, Gᵀ * G = Fᵀ * F →
      (c = .greenLagrangian ∨ c = .rightCauchyGreenTensor) →
      transformStrain msqrt .deformationGradient c G = transformStrain msqrt a c e := by
    intro G hG hc'
    rw [transformStrain_measure msqrt G G .deformationGradient c rfl hc',
      transformStrain_measure msqrt F e a c hf hc']
    rcases hc' with rfl | rfl <;> simp [strainOf, hG]
  have id' := fun x : Matrix n n ℝ => (transformStrain_round_trip msqrt hr x).2.2.2.2
  rcases b with _ | _ | _ | _ | _
  · exact absurd rfl hb.1
  · -- through the deformation gradient
    have h2 := transformStrain_deformationGradient msqrt hr F e a hf
    by_cases hcF : c = .deformationGradient
    · subst hcF
      have hx : ∀ o : Option (Matrix n n ℝ),
          o.bind (transformStrain msqrt .deformationGradient .deformationGradient) = o := by
        intro o
        cases o with
        | none => rfl
        | some x => simp [id']
      rw [hx]
    · have hc' : c = .greenLagrangian ∨ c = .rightCauchyGreenTensor := by
        cases c <;> simp_all
      cases a with
      | linear => simp [strainOf] at hf
      | deformationGradient =>
        rw [h2.1 (Or.inl rfl)]
        exact key F rfl hc'
      | displacementGradient =>
        rw [h2.1 (Or.inr rfl)]
        exact key F rfl hc'
      | greenLagrangian =>
        obtain ⟨U, h, -, hU⟩ := h2.2 (Or.inl rfl)
        rw [h]
        exact key U hU hc'
      | rightCauchyGreenTensor =>
        obtain ⟨U, h, -, hU⟩ := h2.2 (Or.inr rfl)
        rw [h]
        exact key U hU hc'
  · exact absurd rfl hb.2
  · have h1 := transformStrain_measure msqrt F e a .greenLagrangian hf (Or.inl rfl)
    rw [h1]
    by_cases hcF : c = .deformationGradient
    · subst hcF
      rcases hrot rfl with h | rfl | rfl
      · cases h
      · simp only [strainOf, Option.bind_some]
        simp only [strainOf, Option.some.injEq] at hf
        rw [hf]
      · simp only [strainOf, Option.some.injEq] at hf
        subst hf
        simp [strainOf, transformStrain, createDeformationGradient]
    · have hc' : c = .greenLagrangian ∨ c = .rightCauchyGreenTensor := by
        cases c <;> simp_all
      simp only [strainOf, Option.bind_some]
      rw [transformStrain_measure msqrt F _ .greenLagrangian c rfl hc',
        transformStrain_measure msqrt F e a c hf hc']
  · have h1 := transformStrain_measure msqrt F e a .rightCauchyGreenTensor hf (Or.inr rfl)
    rw [h1]
    by_cases hcF : c = .deformationGradient
    · subst hcF
      rcases hrot rfl with h | rfl | rfl
      · cases h
      · simp only [strainOf, Option.some.injEq] at hf
        subst hf
        simp [strainOf, transformStrain, createDeformationGradient]
      · simp only [strainOf, Option.bind_some]
        simp only [strainOf, Option.some.injEq] at hf
        rw [hf]
    · have hc' : c = .greenLagrangian ∨ c = .rightCauchyGreenTensor := by
        cases c <;> simp_all
      simp only [strainOf, Option.bind_some]
      rw [transformStrain_measure msqrt F _ .rightCauchyGreenTensor c rfl hc',
        transformStrain_measure msqrt F e a c hf hc']

/-- C37. The exception in `transformStrain_compose` is needed: a rotation is lost by converting to the
right Cauchy-Green tensor and back. -/
theorem transformStrain_rotation_lost [Nonempty n] (msqrt : Matrix n n ℝ → Matrix n n ℝ)
    (hr : PrincipalRoot msqrt) :
    ∃ F : Matrix n n ℝ, Fᵀ * F = 1 ∧
      (transformStrain msqrt .deformationGradient .rightCauchyGreenTensor F).bind
        (transformStrain msqrt .rightCauchyGreenTensor .deformationGradient) ≠ some F := by
  refine ⟨-1, by simp, ?_⟩
  intro h
  have h : msqrt ((-1 : Matrix n n ℝ)ᵀ * -1) = -1 := by
    simpa only [transformStrain, createRightCauchyGreen, createDeformationGradient, reduceCtorEq,
      if_false, or_self, Option.bind_some, Option.some.injEq] using h
  rw [show (-1 : Matrix n n ℝ)ᵀ * -1 = 1 by simp] at h
  have hp := (hr 1 PosSemidef.one).1
  rw [h] at hp
  obtain ⟨i⟩ := ‹Nonempty n›
  have := hp.diag_nonneg (i := i)
  simp at this
  linarith

/-- C37. Conversions that do not exist: to or from linear strains, and to the displacement gradient. -/
theorem transformStrain_unsupported (msqrt : Matrix n n ℝ → Matrix n n ℝ) (frm tgt : StrainTag)
    (e : Matrix n n ℝ) :
    transformStrain msqrt frm tgt e = none ↔
      frm ≠ tgt ∧ (frm = .linear ∨ tgt = .linear ∨ tgt = .displacementGradient) := by
  cases frm <;> cases tgt <;>
    simp [transformStrain, createGreenLagrangianStrains, createDeformationGradient,
      createRightCauchyGreen]

open scoped MatrixOrder in
/-- The hypothesis on the square root is met by the square root of Mathlib. -/
theorem principalRoot_sqrt : PrincipalRoot (CFC.sqrt : Matrix n n ℝ → Matrix n n ℝ) := by
  intro M hM
  exact ⟨(CFC.sqrt_nonneg M).posSemidef, CFC.sqrt_mul_sqrt_self M hM.nonneg⟩

example := transformStrain_round_trip _ principalRoot_sqrt (!![0, 1 / 2; 1 / 2, 1 / 2] : Matrix (Fin 2) (Fin 2) ℝ)

/-- A simple shear from the right Cauchy-Green tensor over Green-Lagrange strains to the deformation gradient. -/
example := transformStrain_compose _ principalRoot_sqrt !![1, 1; 0, 1] _ .rightCauchyGreenTensor .greenLagrangian .deformationGradient
  rfl (by decide) (by decide) fun _ => Or.inr (Or.inr rfl)

example := transformStrain_rotation_lost (n := Fin 2) _ principalRoot_sqrt

example : transformStrain (n := Fin 2) id .deformationGradient .greenLagrangian !![1, 1; 0, 1] =
    some !![0, 1 / 2; 1 / 2, 1 / 2] := by
  simp only [transformStrain, createGreenLagrangianStrains, reduceCtorEq, if_false, or_self,
    Option.some.injEq]
  ext i j
  fin_cases i <;> fin_cases j <;> simp [Matrix.mul_apply, Fin.sum_univ_two] <;> norm_num

/-! ### Stresses -/

/-- C37. Every conversion between the stress measures of a state with invertible deformation gradient
gives the requested measure. -/
theorem transformStress_measure (F S s : Matrix n n ℝ) (hF : F.det ≠ 0) (frm tgt : StressTag)
    (hs : stressOf F S frm = some s) :
    transformStress frm tgt s F = stressOf F S tgt := by
  have hu : IsUnit F.det := isUnit_iff_ne_zero.mpr hF
  have e1 : F⁻¹ * F = 1 := nonsing_inv_mul F hu
  have e2 : Fᵀ * (F⁻¹)ᵀ = 1 := by rw [← transpose_mul, e1, transpose_one]
  have c1 : F.det * (F.det)⁻¹ = 1 := mul_inv_cancel₀ hF
  have c2 : (F.det)⁻¹ * F.det = 1 := inv_mul_cancel₀ hF
  have a1 : ∀ X : Matrix n n ℝ, F⁻¹ * (F * X) = X := by
    intro X; rw [← Matrix.mul_assoc, e1, Matrix.one_mul]
  cases frm <;> simp only [stressOf, Option.some.injEq, reduceCtorEq] at hs <;> subst hs <;>
    cases tgt <;>
    simp only [transformStress, createPK2Stress, createPK1Stress, createKirchhoffStress,
      createCauchyStress, stressOf, reduceCtorEq, if_false, if_true, or_self, Option.some.injEq,
      one_div, Matrix.smul_mul, Matrix.mul_smul, Matrix.mul_assoc, e2, a1, Matrix.mul_one,
      smul_smul, c1, c2, one_smul, or_true, ite_self]

example (S : Matrix (Fin 2) (Fin 2) ℝ) :=
  transformStress_measure !![2, 1; 0, 1] S S (by simp [Matrix.det_fin_two]) .PK2 .Cauchy rfl

/-- C37. Conversions through any intermediate stress measure agree with the direct conversion, and going
there and back returns the stress, for every stress and every invertible deformation gradient. -/
theorem transformStress_compose (F s : Matrix n n ℝ) (hF : F.det ≠ 0) (a b c : StressTag)
    (ha : a ≠ .linear) (hb : b ≠ .linear) :
    (transformStress a b s F).bind (fun x => transformStress b c x F) = transformStress a c s F ∧
    (transformStress a b s F).bind (fun x => transformStress b a x F) = some s := by
  -- every stress is the measure of some second Piola-Kirchhoff stress
  have hu : IsUnit F.det := isUnit_iff_ne_zero.mpr hF
  have e1 : F * F⁻¹ = 1 := mul_nonsing_inv F hu
  have e2 : (F⁻¹)ᵀ * Fᵀ = 1 := by rw [← transpose_mul, e1, transpose_one]
  have c2 : (F.det)⁻¹ * F.det = 1 := inv_mul_cancel₀ hF
  have a1 : ∀ X : Matrix n n ℝ, F * (F⁻¹ * X) = X := by
    intro X; rw [← Matrix.mul_assoc, e1, Matrix.one_mul]
  obtain ⟨S, hS⟩ : ∃ S, stressOf F S a = some s := by
    cases a with
    | linear => exact absurd rfl ha
    | PK2 => exact ⟨s, rfl⟩
    | PK1 => exact ⟨F⁻¹ * s, by simp only [stressOf, a1]⟩
    | Kirchhoff =>
      exact ⟨F⁻¹ * s * (F⁻¹)ᵀ, by simp only [stressOf, Matrix.mul_assoc, a1, e2, Matrix.mul_one]⟩
    | Cauchy =>
      exact ⟨F.det • (F⁻¹ * s * (F⁻¹)ᵀ), by
        simp only [stressOf, Matrix.mul_assoc, Matrix.mul_smul, Matrix.smul_mul, a1, e2,
          Matrix.mul_one, smul_smul, c2, one_smul]⟩
  have h1 := transformStress_measure F S s hF a b hS
  obtain ⟨t, ht⟩ : ∃ t, stressOf F S b = some t := by
    cases b <;> first | exact absurd rfl hb | exact ⟨_, rfl⟩
  rw [h1, ht]
  simp only [Option.bind_some]
  rw [transformStress_measure F S t hF b c ht, transformStress_measure F S t hF b a ht,
    transformStress_measure F S s hF a c hS]
  exact ⟨rfl, hS⟩

example (s : Matrix (Fin 2) (Fin 2) ℝ) :=
  transformStress_compose !![2, 1; 0, 1] s (by simp [Matrix.det_fin_two]) .Kirchhoff .PK1 .Cauchy (by decide) (by decide)

/-- C37. Symmetric second Piola-Kirchhoff, Kirchhoff and Cauchy stresses go together (balance of angular
momentum is not destroyed by a conversion). -/
theorem transformStress_symmetric (F S s : Matrix n n ℝ) (tgt : StressTag)
    (hS : Sᵀ = S) (ht : tgt = .Kirchhoff ∨ tgt = .Cauchy)
    (h : transformStress .PK2 tgt S F = some s) : sᵀ = s := by
  rcases ht with rfl | rfl <;>
    simp only [transformStress, createKirchhoffStress, createCauchyStress, reduceCtorEq, if_false,
      or_self, Option.some.injEq] at h <;> subst h <;>
    simp only [transpose_mul, transpose_transpose, transpose_smul, hS, Matrix.mul_assoc,
      Matrix.smul_mul, Matrix.mul_smul]

/-- A state meeting the hypotheses. -/
example : (!![2, 1; 0, 1] : Matrix (Fin 2) (Fin 2) ℝ).det ≠ 0 ∧
    stressOf !![2, 1; 0, 1] !![1, 0; 0, 1] .Kirchhoff =
      some (!![5, 1; 1, 1] : Matrix (Fin 2) (Fin 2) ℝ) := by
  constructor
  · simp [Matrix.det_fin_two]
  · simp only [stressOf]
    congr 1
    ext i j
    fin_cases i <;> fin_cases j <;> simp [Matrix.mul_apply, Fin.sum_univ_two]
    norm_num

/-! ### Tangent moduli -/

/-- C37. The two-point tensor made of material moduli `C` and stress `S` maps an increment `X` of the
deformation gradient to the increment of the first Piola-Kirchhoff stress. -/
theorem twoPoint_contract {K : Type} [Field K] (C A : Tensor4 K 3) (S F X : Matrix (Fin 3) (Fin 3) K)
    (hA : transformTangentModuli .Material .TwoPoint C S F = some A) :
    contract A X = X * Sᵀ + F * contract C (Fᵀ * X) := by
  simp only [transformTangentModuli, createTwoPointMaterialTensor, reduceCtorEq, if_false,
    Option.some.injEq] at hA
  subst hA
  ext i j
  simp only [contract, Matrix.add_apply, Matrix.mul_apply, Fin.sum_univ_three, List.finRange,
    List.foldl, Matrix.transpose_apply, List.ofFn, Fin.foldr, Fin.foldr.loop]
  fin_cases i <;> fin_cases j <;> simp <;> ring

example (S F X : Matrix (Fin 3) (Fin 3) ℚ) := twoPoint_contract (symmetricIdentityFourthOrder 3) _ S F X rfl

/-- C37. If the second Piola-Kirchhoff stress follows the material moduli along a motion, that is
dS/dt = C : dE/dt, then the first Piola-Kirchhoff stress `F S` follows the two-point tensor,
d(FS)/dt = A : dF/dt. -/
theorem twoPoint_is_derivative (C A : Tensor4 ℝ 3) (hC : MinorSymmetric C)
    (F S : ℝ → Matrix (Fin 3) (Fin 3) ℝ) (dF dS : Matrix (Fin 3) (Fin 3) ℝ) (t : ℝ)
    (hF : ∀ i j, HasDerivAt (fun s => F s i j) (dF i j) t)
    (hS : ∀ i j, HasDerivAt (fun s => S s i j) (dS i j) t)
    (hsym : (S t)ᵀ = S t)
    (hdS : dS = contract C ((2 : ℝ)⁻¹ • ((F t)ᵀ * dF + dFᵀ * F t)))
    (hA : transformTangentModuli .Material .TwoPoint C (S t) (F t) = some A) (i j : Fin 3) :
    HasDerivAt (fun s => (F s * S s) i j) (contract A dF i j) t := by
  have h1 : HasDerivAt (fun s => ∑ k, F s i k * S s k j)
      (∑ k, (dF i k * S t k j + F t i k * dS k j)) t :=
    HasDerivAt.fun_sum fun k _ => (hF i k).mul (hS k j)
  have h2 : (fun s => (F s * S s) i j) = fun s => ∑ k, F s i k * S s k j := by
    ext s; rw [Matrix.mul_apply]
  rw [h2]
  refine h1.congr_deriv ?_
  have hsymC : contract C ((2 : ℝ)⁻¹ • ((F t)ᵀ * dF + dFᵀ * F t)) = contract C ((F t)ᵀ * dF) := by
    ext a b
    have hT : ∀ k l, (dFᵀ * F t) k l = ((F t)ᵀ * dF) l k := by
      intro k l
      rw [← Matrix.transpose_apply ((F t)ᵀ * dF), transpose_mul, transpose_transpose]
    simp only [contract, Matrix.smul_apply, Matrix.add_apply, hT, smul_eq_mul]
    generalize (F t)ᵀ * dF = Y
    simp only [Fin.sum_univ_three]
    rw [(hC a b 1 0).2, (hC a b 2 0).2, (hC a b 2 1).2]
    ring
  rw [twoPoint_contract C A (S t) (F t) dF hA, hsym, ← hsymC, ← hdS, Matrix.add_apply,
    Matrix.mul_apply, Matrix.mul_apply, ← Finset.sum_add_distrib]

/-- C37. All the other conversions of tangent moduli are the identity or do not exist. -/
theorem transformTangentModuli_other {K : Type} [Field K] (C : Tensor4 K 3)
    (S F : Matrix (Fin 3) (Fin 3) K) (frm tgt : TangentModuliTag) :
    (frm = tgt → transformTangentModuli frm tgt C S F = some C) ∧
    (transformTangentModuli frm tgt C S F = none ↔
      frm ≠ tgt ∧ ¬ (frm = .Material ∧ tgt = .TwoPoint)) := by
  cases frm <;> cases tgt <;> simp [transformTangentModuli, createTwoPointMaterialTensor]

/-- A motion meeting the hypotheses of `twoPoint_is_derivative`: stretching with a linear law. -/
example : MinorSymmetric (symmetricIdentityFourthOrder 3 : Tensor4 ℝ 3) := by
  intro i j k l
  fin_cases i <;> fin_cases j <;> fin_cases k <;> fin_cases l <;>
    norm_num [symmetricIdentityFourthOrder, symmetricFourthOrder, delta]

end Ikarus
