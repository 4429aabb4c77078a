import Verif.Material.VanishingLemmas
import Verif.Material.SVKModel
import Verif.Material.NeoHookeProps
import Mathlib.Tactic.FinCases
import Mathlib.Tactic.FieldSimp
import Mathlib.Tactic.NormNum

/-!
C42: vanishing stress and vanishing strain materials.
-/

namespace Ikarus

open Matrix Spec

namespace VanishingStress

variable {k : Nat}

/-- Specification of the strain a vanishing stress material is evaluated at, for the given strain `E`: the
free strains are the given ones, the fixed shear strains are zero, and the fixed normal stresses do not
exceed the tolerance. -/
structure Spec.ReducedState (law : UnderlyingLaw) (fixed : Fin k → Fin 3 × Fin 3) (tol : ℝ) (E Esol : M3) :
    Prop where
  free : ∀ a b, ¬ IsFixed fixed a b → Esol a b = E a b
  shear : ∀ a b, a ≠ b → IsFixed fixed a b → Esol a b = 0
  stress : ∀ S, law.stress Esol = some S → ∀ a, IsFixed fixed a a → |S (voigt3 a a)| ≤ tol

/-- C42. Whenever the stress reduction returns a (finite) strain, it is a reduced state of the given strain;
the energy, the stresses and the moduli are those of the underlying material in that state. -/
theorem vanishingStress_reduced_partial (law : UnderlyingLaw) (fixed : Fin k → Fin 3 × Fin 3) (nfGt : Bool) (tol : ℝ)
    (E : StrainArg) (Esol : M3) (h : reduceStress law fixed nfGt tol E = some (some Esol)) :
    Spec.ReducedState law fixed tol E.maybeFromVoigt Esol ∧
    storedEnergy law fixed nfGt tol E = some (law.energy Esol) ∧
    (∀ S, law.stress Esol = some S → stressesMatrix law fixed nfGt tol E = some (some (fromVoigt3 S false))) ∧
    (∀ S free, law.stress Esol = some S → createfreeVoigtIndices fixed = some free →
      stressesVoigt law fixed nfGt tol E = some (some fun i => S (free i))) := by
  obtain ⟨n, hn, hb, hr⟩ := run law fixed nfGt tol E
  rw [hr] at h
  by_cases h100 : n = 100
  · rw [if_pos h100] at h; cases h
  rw [if_neg h100] at h
  have hx := Option.some.inj h
  have hkeep := iterates_keep law fixed nfGt _ n Esol hx
  refine ⟨⟨fun a b hab => ?_, fun a b hab hf => ?_, fun S hS a ha => ?_⟩, ?_, fun S hS => ?_, fun S free hS hf => ?_⟩
  · rw [hkeep a b (Or.inr hab), init_free law fixed _ hab]
  · rw [hkeep a b (Or.inl hab), init_shear law fixed _ hab hf]
  · have hstop := hn.1.2
    have hgt : (problem law fixed nfGt).gt ((problem law fixed nfGt).rnorm
        (newtonIterates (problem law fixed nfGt)
          (some (initUnknownStrains law fixed E.maybeFromVoigt)) () n).2) (some tol) = false := by
      rcases hstop with h | h
      · change (100 : Int) ≤ n at h; omega
      · exact h
    rw [iterates_residual, hx] at hgt
    have hres : (some Esol).bind (residual law fixed)
        = some fun r => S ((fixedDiagonal fixed).get r) := by
      change residual law fixed Esol = _
      unfold residual; rw [hS]; rfl
    rw [hres] at hgt
    have hle : euclid (fun r => S ((fixedDiagonal fixed).get r)) ≤ tol := by
      have : decide (euclid (fun r => S ((fixedDiagonal fixed).get r)) > tol) = false := hgt
      simpa using this
    obtain ⟨r, hrr⟩ := fixedDiagonal_get fixed ha
    have := abs_le_euclid (fun r => S ((fixedDiagonal fixed).get r)) r
    rw [hrr] at this
    exact this.trans hle
  · unfold storedEnergy; rw [hr, if_neg h100, h]; rfl
  · unfold stressesMatrix
    rw [hr, if_neg h100, h]
    simp only [Option.map_some, Option.bind_eq_bind, Option.bind_some, hS]
    rfl
  · obtain ⟨hsm, hret⟩ := (voigt_index_lists fixed).2.2 free hf
    unfold stressesVoigt
    rw [hr, if_neg h100, h]
    simp only [Option.map_some, Option.bind_eq_bind, Option.bind_some, hS]
    rw [(reduce_remove_spec (0 : Matrix (Fin 6) (Fin 6) ℝ) S _ hsm free hret).2]

/-- Specification: a strain that already is a reduced state, with start values that are kept. -/
structure Spec.AlreadyReduced (law : UnderlyingLaw) (fixed : Fin k → Fin 3 × Fin 3) (E : M3) (S : Fin 6 → ℝ) :
    Prop where
  shear : ∀ a b, a ≠ b → IsFixed fixed a b → E a b = 0
  value : law.stress E = some S
  stress : ∀ a, IsFixed fixed a a → S (voigt3 a a) = 0
  kept : law.strainTag = .deformationGradient ∨ law.strainTag = .rightCauchyGreenTensor →
    ∀ a, IsFixed fixed a a → E a a ≠ 0

theorem init_already {law : UnderlyingLaw} {fixed : Fin k → Fin 3 × Fin 3} {E : M3} {S : Fin 6 → ℝ}
    (h : Spec.AlreadyReduced law fixed E S) : initUnknownStrains law fixed E = E := by
  ext a b
  by_cases hf : IsFixed fixed a b
  · by_cases hab : a = b
    · subst hab
      rw [init_diag law fixed E hf]
      unfold startValue
      exact if_neg fun hh => h.kept hh.1 a hf hh.2
    · rw [init_shear law fixed E hab hf, h.shear a b hab hf]
  · rw [init_free law fixed E hf]

/-- C42. A strain that already fulfils the conditions is returned unchanged. -/
theorem vanishingStress_unchanged (law : UnderlyingLaw) (fixed : Fin k → Fin 3 × Fin 3) (nfGt : Bool) (tol : ℝ)
    (htol : 0 ≤ tol) (E : M3) (S : Fin 6 → ℝ) (h : Spec.AlreadyReduced law fixed E S) :
    reduceStress law fixed nfGt tol (.matrix E) = some (some E) := by
  obtain ⟨n, hn, hb, hr⟩ := run law fixed nfGt tol (.matrix E)
  have hi : initUnknownStrains law fixed (StrainArg.matrix E).maybeFromVoigt = E := init_already h
  rw [hi] at hn hr
  have hz : (fun r => S ((fixedDiagonal fixed).get r)) = 0 := by
    funext r
    obtain ⟨a, ha, hf⟩ := get_fixedDiagonal fixed r
    rw [ha]; exact h.stress a hf
  have h0 : NewtonStops (problem law fixed nfGt) ⟨some tol, 100, 0⟩ (some E) () 0 := by
    refine ⟨by simp, Or.inr ?_⟩
    rw [iterates_residual]
    have hres : ((newtonIterates (problem law fixed nfGt) (some E) () 0).1).bind (residual law fixed)
        = some 0 := by
      change residual law fixed E = _
      unfold residual; rw [h.value, Option.map_some, hz]
    rw [hres]
    change decide (euclid (0 : Fin (numDiagonal fixed) → ℝ) > tol) = false
    rw [euclid_zero]; simpa using htol
  have hn0 : n = 0 := by
    by_contra hne
    exact hn.2 0 (by omega) h0
  rw [hr, hn0, if_neg (by omega)]
  rfl

/-! ### Laws that are affine in the strain -/

/-- Specification: a law whose stress is affine in the strain, with its derivative as moduli. -/
structure Spec.AffineLaw (law : UnderlyingLaw) (C : Matrix (Fin 6) (Fin 6) ℝ) (S0 : Fin 6 → ℝ) : Prop where
  stress : ∀ E, law.stress E = some (law.derivativeFactor⁻¹ • (C *ᵥ toVoigt3 E true) + S0)
  moduli : ∀ E, law.moduli E = some C

/-- C42. For a law that is affine in the strain, and an invertible block of moduli of the fixed normal
components, the reduction never throws: either the start strain already fulfils the condition up to the
tolerance and is kept, or one Newton step makes all fixed normal stresses exactly zero. -/
theorem vanishingStress_affine (law : UnderlyingLaw) (C : Matrix (Fin 6) (Fin 6) ℝ) (S0 : Fin 6 → ℝ)
    (hlaw : Spec.AffineLaw law C S0) (fixed : Fin k → Fin 3 × Fin 3)
    (hblock : (Matrix.of fun r s => C ((fixedDiagonal fixed).get r) ((fixedDiagonal fixed).get s)
      / law.derivativeFactor).det ≠ 0) (nfGt : Bool) (tol : ℝ) (htol : 0 ≤ tol) (E : StrainArg) :
    ∃ Esol, reduceStress law fixed nfGt tol E = some (some Esol) ∧
      ((∀ a, IsFixed fixed a a → Esol a a = startValue law (E.maybeFromVoigt a a)) ∨
        ∃ S, law.stress Esol = some S ∧ ∀ a, IsFixed fixed a a → S (voigt3 a a) = 0) := by
  set E0 := initUnknownStrains law fixed E.maybeFromVoigt with hE0
  set A : Matrix (Fin (numDiagonal fixed)) (Fin (numDiagonal fixed)) ℝ := Matrix.of fun r s =>
    C ((fixedDiagonal fixed).get r) ((fixedDiagonal fixed).get s) / law.derivativeFactor with hA
  obtain ⟨n, hn, hb, hr⟩ := run law fixed nfGt tol E
  rw [← hE0] at hn hr
  set r0 : Fin (numDiagonal fixed) → ℝ := fun r =>
    (law.derivativeFactor⁻¹ • (C *ᵥ toVoigt3 E0 true) + S0) ((fixedDiagonal fixed).get r) with hr0
  set c : Fin (numDiagonal fixed) → ℝ := -(A⁻¹ *ᵥ r0) with hc
  have hAc : A *ᵥ c = -r0 := by
    rw [hc, Matrix.mulVec_neg, Matrix.mulVec_mulVec, Matrix.mul_nonsing_inv _ (isUnit_iff_ne_zero.2 hblock),
      Matrix.one_mulVec]
  set E1 := updateStrain fixed E0 c with hE1
  have hstress1 : ∀ r, (law.derivativeFactor⁻¹ • (C *ᵥ toVoigt3 E1 true) + S0) ((fixedDiagonal fixed).get r) = 0 := by
    intro r
    have h1 := congrFun hAc r
    simp only [Matrix.mulVec, dotProduct, hA, Matrix.of_apply, Pi.neg_apply, hr0, Pi.add_apply, Pi.smul_apply,
      smul_eq_mul] at h1
    have h2 := mulVec_update fixed C E0 c ((fixedDiagonal fixed).get r)
    simp only [Pi.add_apply, Pi.smul_apply, smul_eq_mul]
    rw [hE1, h2, mul_add, Finset.mul_sum]
    have h3 : ∑ x, law.derivativeFactor⁻¹ * (C ((fixedDiagonal fixed).get r) ((fixedDiagonal fixed).get x) * c x)
        = ∑ x, C ((fixedDiagonal fixed).get r) ((fixedDiagonal fixed).get x) / law.derivativeFactor * c x :=
      Finset.sum_congr rfl fun x _ => by rw [div_eq_mul_inv]; ring
    rw [h3]
    simp only [Matrix.mulVec, dotProduct]
    linarith
  have hit1 : (newtonIterates (problem law fixed nfGt) (some E0) () 1).1 = some E1 := by
    have hj : jacobian law fixed E0 = some A := by unfold jacobian; rw [hlaw.moduli]; rfl
    have hrs : residual law fixed E0 = some r0 := by unfold residual; rw [hlaw.stress]; rfl
    simp only [newtonIterates, newtonStep, firstResidual, problem, Option.bind_some, hj, hrs]
    have hl : linearSolve (some A) (some r0) = some c := by
      unfold linearSolve
      simp only [Option.bind_eq_bind, Option.bind_some]
      rw [if_neg hblock]
    rw [hl]; rfl
  have h1 : NewtonStops (problem law fixed nfGt) ⟨some tol, 100, 0⟩ (some E0) () 1 := by
    refine ⟨by simp, Or.inr ?_⟩
    rw [iterates_residual, hit1]
    have hres : (some E1).bind (residual law fixed) = some 0 := by
      change residual law fixed E1 = _
      unfold residual
      rw [hlaw.stress, Option.map_some]
      exact congrArg some (funext hstress1)
    rw [hres]
    change decide (euclid (0 : Fin (numDiagonal fixed) → ℝ) > tol) = false
    rw [euclid_zero]; simpa using htol
  have hn1 : n ≤ 1 := by
    by_contra hne
    exact hn.2 1 (by omega) h1
  rw [if_neg (by omega)] at hr
  rcases Nat.le_one_iff_eq_zero_or_eq_one.1 hn1 with rfl | rfl
  · refine ⟨E0, hr, Or.inl fun a ha => ?_⟩
    rw [hE0, init_diag law fixed _ ha]
  · refine ⟨E1, by rw [hr, hit1], Or.inr ⟨_, hlaw.stress E1, fun a ha => ?_⟩⟩
    obtain ⟨r, hrr⟩ := fixedDiagonal_get fixed ha
    rw [← hrr]
    exact hstress1 r

/-! ### What is not guaranteed -/

/-- The full statement: the reduction either throws or returns a finite strain. -/
def Spec.ThrowsOrReduces : Prop :=
  ∀ (law : UnderlyingLaw) (nfGt : Bool) (tol : ℝ) (E : StrainArg), 0 < tol →
    reduceStress law shellPairs nfGt tol E ≠ some none

/-- A law with `S33 = E33² + 1`. -/
noncomputable def quadraticLaw : UnderlyingLaw where
  energy := fun E => some (E 2 2 ^ 3 / 3 + E 2 2)
  stress := fun E => some ![0, 0, E 2 2 ^ 2 + 1, 0, 0, 0]
  moduli := fun E => some (Matrix.of fun i j => if i = 2 ∧ j = 2 then 2 * E 2 2 else 0)
  derivativeFactor := 1
  strainTag := .greenLagrangian

/-- C42. If the start strain does not fulfil the condition and the moduli of the fixed normal components are
singular there, the division by zero is not noticed: when the solver meets a residual norm that is not a
number (`nfGt = false`) it reports success, nothing is thrown, and a strain that is not finite is used. -/
theorem vanishingStress_singular (law : UnderlyingLaw) (fixed : Fin k → Fin 3 × Fin 3) (tol : ℝ) (E : StrainArg)
    (S : Fin 6 → ℝ) (C : Matrix (Fin 6) (Fin 6) ℝ)
    (hS : law.stress (initUnknownStrains law fixed E.maybeFromVoigt) = some S)
    (hC : law.moduli (initUnknownStrains law fixed E.maybeFromVoigt) = some C)
    (a : Fin 3) (ha : IsFixed fixed a a) (hbig : tol < |S (voigt3 a a)|)
    (hdet : (Matrix.of fun r s => C ((fixedDiagonal fixed).get r) ((fixedDiagonal fixed).get s)
      / law.derivativeFactor).det = 0) :
    reduceStress law fixed false tol E = some none := by
  obtain ⟨n, hn, hb, hr⟩ := run law fixed false tol E
  set E0 := initUnknownStrains law fixed E.maybeFromVoigt with hE0
  have hres : residual law fixed E0 = some fun r => S ((fixedDiagonal fixed).get r) := by
    unfold residual; rw [hS]; rfl
  have hit1 : (newtonIterates (problem law fixed false) (some E0) () 1).1 = none := by
    have hj : jacobian law fixed E0 = some (Matrix.of fun r s =>
        C ((fixedDiagonal fixed).get r) ((fixedDiagonal fixed).get s) / law.derivativeFactor) := by
      unfold jacobian; rw [hC]; rfl
    simp only [newtonIterates, newtonStep, firstResidual, problem, Option.bind_some, hj, hres]
    have hl : linearSolve (some (Matrix.of fun r s =>
        C ((fixedDiagonal fixed).get r) ((fixedDiagonal fixed).get s) / law.derivativeFactor))
        (some fun r => S ((fixedDiagonal fixed).get r)) = none := by
      unfold linearSolve
      simp only [Option.bind_eq_bind, Option.bind_some]
      rw [if_pos hdet]
    rw [hl]; rfl
  have h0 : ¬ NewtonStops (problem law fixed false) ⟨some tol, 100, 0⟩ (some E0) () 0 := by
    rintro ⟨-, h | h⟩
    · change (100 : Int) ≤ (0 : Nat) at h; omega
    · rw [iterates_residual] at h
      have hx : ((newtonIterates (problem law fixed false) (some E0) () 0).1).bind (residual law fixed)
          = some fun r => S ((fixedDiagonal fixed).get r) := hres
      rw [hx] at h
      have hle : decide (euclid (fun r => S ((fixedDiagonal fixed).get r)) > tol) = false := h
      obtain ⟨r, hrr⟩ := fixedDiagonal_get fixed ha
      have := abs_le_euclid (fun r => S ((fixedDiagonal fixed).get r)) r
      rw [hrr] at this
      simp only [gt_iff_lt, decide_eq_false_iff_not, not_lt] at hle
      linarith
  have h1 : NewtonStops (problem law fixed false) ⟨some tol, 100, 0⟩ (some E0) () 1 := by
    refine ⟨by simp, Or.inr ?_⟩
    rw [iterates_residual, hit1]
    rfl
  have hn1 : n = 1 := by
    have : n ≤ 1 := by
      by_contra hne
      exact hn.2 1 (by omega) h1
    rcases Nat.le_one_iff_eq_zero_or_eq_one.1 this with rfl | rfl
    · exact absurd hn.1 h0
    · rfl
  subst hn1
  rw [hr, if_neg (by omega), hit1]

theorem startValue_greenLagrangian {law : UnderlyingLaw} (h : law.strainTag = .greenLagrangian) (x : ℝ) :
    startValue law x = x := by
  unfold startValue
  rw [h]
  simp

theorem isFixed_shell : ∀ a b : Fin 3, IsFixed shellPairs a b ↔ a = 2 ∧ b = 2 := by
  unfold IsFixed shellPairs
  decide

/-- C42. The full statement is false. (For the law above the code computes `E33 = -∞`, then `NaN`, from the
start strain zero.) -/
theorem vanishingStress_singular_unnoticed : ¬ Spec.ThrowsOrReduces := by
  intro h
  refine h quadraticLaw false (1 / 2) (.matrix 0) (by norm_num) ?_
  have hE0 : initUnknownStrains quadraticLaw shellPairs (StrainArg.matrix 0).maybeFromVoigt = 0 := by
    ext a b
    by_cases hf : IsFixed shellPairs a b
    · obtain ⟨rfl, rfl⟩ := (isFixed_shell a b).1 hf
      rw [init_diag _ _ _ hf, startValue_greenLagrangian rfl]
      rfl
    · rw [init_free _ _ _ hf]; rfl
  refine vanishingStress_singular quadraticLaw shellPairs (1 / 2) (.matrix 0) ![0, 0, 1, 0, 0, 0] 0 ?_ ?_ 2
    ((isFixed_shell 2 2).2 ⟨rfl, rfl⟩) ?_ ?_
  · rw [hE0]; simp [quadraticLaw]
  · rw [hE0]
    simp only [quadraticLaw, Option.some.injEq]
    ext i j; simp
  · simp [voigt3]; norm_num
  · have : Nonempty (Fin (numDiagonal shellPairs)) :=
      ⟨(fixedDiagonal_get shellPairs ((isFixed_shell 2 2).2 ⟨rfl, rfl⟩)).choose⟩
    have hz : (Matrix.of fun r s => (0 : Matrix (Fin 6) (Fin 6) ℝ) ((fixedDiagonal shellPairs).get r)
        ((fixedDiagonal shellPairs).get s) / quadraticLaw.derivativeFactor) = 0 := by
      ext i j; simp
    rw [hz, Matrix.det_zero]

/-- The full statement for the shear components: all fixed stresses of the returned state are small. -/
def Spec.AllFixedStressesSmall : Prop :=
  ∀ (law : UnderlyingLaw) (nfGt : Bool) (tol : ℝ) (E : StrainArg) (Esol : M3) (S : Fin 6 → ℝ), 0 < tol →
    reduceStress law planeStressPairs nfGt tol E = some (some Esol) → law.stress Esol = some S →
    ∀ a b, IsFixed planeStressPairs a b → |S (voigt3 a b)| ≤ tol

/-- A linear law with a coupling of `S23` and `E11`. -/
noncomputable def coupledLaw : UnderlyingLaw where
  energy := fun E => some (E 0 0 * E 1 2)
  stress := fun E => some ![2 * E 1 2, 0, 0, E 0 0, 0, 0]
  moduli := fun _ => some (Matrix.of fun i j => if (i = 0 ∧ j = 3) ∨ (i = 3 ∧ j = 0) then 1 else 0)
  derivativeFactor := 1
  strainTag := .greenLagrangian

theorem isFixed_plane : ∀ a b : Fin 3, IsFixed planeStressPairs a b ↔ a = 2 ∨ b = 2 := by
  unfold IsFixed planeStressPairs
  decide

/-- C42. The fixed shear stresses are not made small for an arbitrary underlying material: the shear
strains are only set to zero. -/
theorem vanishingStress_shear_not_reduced : ¬ Spec.AllFixedStressesSmall := by
  intro h
  set E : M3 := Matrix.of fun i j => if i = 0 ∧ j = 0 then 1 else 0 with hE
  have hred : Spec.AlreadyReduced coupledLaw planeStressPairs E ![0, 0, 0, 1, 0, 0] := by
    refine ⟨fun a b hab hf => ?_, ?_, fun a ha => ?_, fun h => ?_⟩
    · rw [hE]
      simp only [Matrix.of_apply]
      refine if_neg ?_
      rintro ⟨rfl, rfl⟩
      exact hab rfl
    · simp [coupledLaw, hE]
    · have : a = 2 := by simpa using (isFixed_plane a a).1 ha
      subst this
      simp [voigt3]
    · rcases h with h | h <;> cases h
  have hr := vanishingStress_unchanged coupledLaw planeStressPairs false (1 / 2) (by norm_num) E _ hred
  have := h coupledLaw false (1 / 2) (.matrix E) E _ (by norm_num) hr hred.value 1 2
    ((isFixed_plane 1 2).2 (Or.inr rfl))
  simp [voigt3] at this
  norm_num at this

/-- C42. In plane stress, for every underlying material whose transverse shear stresses vanish together with
the transverse shear strains, all fixed stresses of the returned state are within the tolerance. -/
theorem planeStress_all_fixed_partial (law : UnderlyingLaw)
    (hsym : ∀ E S, law.stress E = some S → E 0 2 = 0 → E 1 2 = 0 → E 2 0 = 0 → E 2 1 = 0 → S 3 = 0 ∧ S 4 = 0)
    (nfGt : Bool) (tol : ℝ) (htol : 0 ≤ tol) (E : StrainArg) (Esol : M3) (S : Fin 6 → ℝ)
    (h : reduceStress law planeStressPairs nfGt tol E = some (some Esol)) (hS : law.stress Esol = some S)
    (a b : Fin 3) (hf : IsFixed planeStressPairs a b) : |S (voigt3 a b)| ≤ tol := by
  obtain ⟨hred, -⟩ := vanishingStress_reduced_partial law planeStressPairs nfGt tol E Esol h
  by_cases hab : a = b
  · subst hab
    exact hred.stress S hS a hf
  · have hz : ∀ a b : Fin 3, a ≠ b → (a = 2 ∨ b = 2) → Esol a b = 0 := fun a b h1 h2 =>
      hred.shear a b h1 ((isFixed_plane a b).2 h2)
    obtain ⟨h3, h4⟩ := hsym Esol S hS (hz 0 2 (by decide) (Or.inr rfl)) (hz 1 2 (by decide) (Or.inr rfl))
      (hz 2 0 (by decide) (Or.inl rfl)) (hz 2 1 (by decide) (Or.inl rfl))
    have hv : voigt3 a b = 3 ∨ voigt3 a b = 4 := by
      have := (isFixed_plane a b).1 hf
      clear hf
      revert a b
      decide
    rcases hv with hv | hv <;> rw [hv]
    · rw [h3, abs_zero]; exact htol
    · rw [h4, abs_zero]; exact htol

/-- The St. Venant-Kirchhoff material as an underlying material (svk.hh; the energy and the stresses of a
strain matrix). -/
noncomputable def svkLaw (m : SVK ℝ) : UnderlyingLaw where
  energy := fun E => some (m.energyMatrix E)
  stress := fun E => some (m.stressMatrixToVoigt E)
  moduli := fun _ => some m.moduliVoigt
  derivativeFactor := 1
  strainTag := .greenLagrangian

/-- The Neo-Hooke material as an underlying material; the Voigt components of the moduli are taken from the
fourth order tensor. -/
noncomputable def neoHookeLaw (m : NeoHooke) (eps : ℝ) : UnderlyingLaw where
  energy := m.storedEnergy eps
  stress := fun C => (m.stresses eps C).map fun S => toVoigt3 S false
  moduli := fun C => (m.tangentModuli eps C).map fun L => Matrix.of fun i j =>
    L (unvoigt3 i).1 (unvoigt3 i).2 (unvoigt3 j).1 (unvoigt3 j).2
  derivativeFactor := 2
  strainTag := .rightCauchyGreenTensor

/-- C42. The St. Venant-Kirchhoff and the Neo-Hooke material are such materials. -/
theorem planeStress_library_materials (m : SVK ℝ) (m' : NeoHooke) {eps : ℝ} (he1 : eps < 1) :
    (∀ E S, (svkLaw m).stress E = some S → E 0 2 = 0 → E 1 2 = 0 → E 2 0 = 0 → E 2 1 = 0 →
      S 3 = 0 ∧ S 4 = 0) ∧
    (∀ E S, (neoHookeLaw m' eps).stress E = some S → E 0 2 = 0 → E 1 2 = 0 → E 2 0 = 0 → E 2 1 = 0 →
      S 3 = 0 ∧ S 4 = 0) := by
  constructor
  · intro E S hS h1 h2 h3 h4
    obtain rfl := Option.some.inj hS
    simp [SVK.stressMatrixToVoigt, h1, h2]
  · intro C S hS h1 h2 h3 h4
    simp only [neoHookeLaw] at hS
    obtain ⟨T, hT, rfl⟩ := Option.map_eq_some_iff.1 hS
    have hd : 0 < C.det := by
      by_contra hd
      have := (neoHooke_defined m' he1 C)
      simp_all [NeoHooke.stresses, checkPositive_none he1 hd]
    rw [NeoHooke.stresses_eq m' he1 hd] at hT
    obtain rfl := Option.some.inj hT
    simp only [Matrix.inv_def, Matrix.adjugate_fin_three]
    simp [toVoigt3, strainFactor, h1, h2, h3, h4]

example := planeStress_library_materials ⟨1, 1⟩ ⟨2, 3⟩ (show (1 / 10 ^ 10 : ℝ) < 1 by norm_num)

end VanishingStress
end Ikarus
