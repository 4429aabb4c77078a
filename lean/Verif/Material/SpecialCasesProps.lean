import Verif.Material.HyperelasticPathProps
import Verif.Material.NeoHookeProps
import Verif.Material.FactoryModel
import Mathlib.Analysis.SpecialFunctions.Complex.LogBounds
import Mathlib.Topology.Instances.Matrix

/-!
C116: materials of the library that are special cases of one another.
-/

namespace Ikarus

open Matrix Filter Topology Spec Hyperelastic DeviatoricInvariants MaterialFactory

/-! ### Specification -/

/-- Two materials answer alike to every symmetric tensor with positive principal stretches, whichever correct eigenvalue solver
and whichever tolerances are used. -/
def Spec.SameResponse (h k : Hyperelastic) : Prop :=
  ∀ (solver : EigenSolver) (eps epsEq : ℝ) (C : M3) (l : Fin 3 → ℝ) (N : M3),
    CorrectSolver solver → eps < 1 → 0 ≤ epsEq → HasStretches C l N →
    (∃ W, h.storedEnergy solver eps C = some W ∧ k.storedEnergy solver eps C = some W) ∧
    (∃ S, h.stresses solver eps C = some S ∧ k.stresses solver eps C = some S) ∧
    ∃ M, h.tangentModuli solver eps epsEq C = some M ∧ k.tangentModuli solver eps epsEq C = some M

/-- The values are eventually defined and tend to a defined value. -/
def Spec.TendsTo {A : Type*} [TopologicalSpace A] (f : ℝ → Option A) (x : Option A) : Prop :=
  ∃ (g : ℝ → A) (a : A), x = some a ∧ (∀ᶠ r in atTop, f r = some (g r)) ∧ Tendsto g atTop (𝓝 a)

/-- The answers of a family of materials tend to the answers of a material as the parameter grows. -/
def Spec.ResponseTendsTo (h : ℝ → Hyperelastic) (k : Hyperelastic) : Prop :=
  ∀ (solver : EigenSolver) (eps epsEq : ℝ) (C : M3) (l : Fin 3 → ℝ) (N : M3),
    CorrectSolver solver → eps < 1 → 0 ≤ epsEq → HasStretches C l N →
    TendsTo (fun r => (h r).storedEnergy solver eps C) (k.storedEnergy solver eps C) ∧
    TendsTo (fun r => (h r).stresses solver eps C) (k.stresses solver eps C) ∧
    TendsTo (fun r => (h r).tangentModuli solver eps epsEq C) (k.tangentModuli solver eps epsEq C)

/-- The full claim for the Neo-Hooke material: the moduli agree at all states, also where two stretches differ by less than the
tolerance. -/
def Spec.NeoHookeModuliAgree (epsEq : ℝ) : Prop :=
  ∀ (m : NeoHooke) (solver : EigenSolver) (eps : ℝ) (C : M3) (l : Fin 3 → ℝ) (N : M3), CorrectSolver solver → eps < 1 →
    HasStretches C l N →
    ∃ M, (makeOgdenTotal ![m.mu] ![2] m.lambda .f3).tangentModuli solver eps epsEq C = some M ∧ m.tangentModuli eps C = some M

/-! ### Equal energies give equal materials -/

/-- The three functions agree and are defined. -/
def SameDev (f g : DevFun) : Prop :=
  ∀ l : Fin 3 → ℝ, (∀ a, 0 < l a) →
    (∃ W, f.storedEnergy l = some W ∧ g.storedEnergy l = some W) ∧
    (∃ d, f.firstDerivative l = some d ∧ g.firstDerivative l = some d) ∧
    ∃ H, f.secondDerivative l = some H ∧ g.secondDerivative l = some H

theorem axis_path (l : Fin 3 → ℝ) (a : Fin 3) :
    HasVecDeriv (fun s => l + s • Pi.single a (1 : ℝ)) (Pi.single a 1) 0 := by
  intro b
  have h := ((hasDerivAt_id (0 : ℝ)).mul_const ((Pi.single a (1 : ℝ) : Fin 3 → ℝ) b)).const_add (l b)
  rw [one_mul] at h
  exact h

theorem axis_pos {l : Fin 3 → ℝ} (hl : ∀ a, 0 < l a) (a : Fin 3) :
    ∀ᶠ s in 𝓝 (0 : ℝ), ∀ b, 0 < (l + s • Pi.single a (1 : ℝ) : Fin 3 → ℝ) b :=
  (axis_path l a).pos_eventually fun b => by simpa using hl b

theorem gradient_unique {f g : DevFun} (hE : ∀ l : Fin 3 → ℝ, (∀ a, 0 < l a) → f.storedEnergy l = g.storedEnergy l)
    {l : Fin 3 → ℝ} (hl : ∀ a, 0 < l a) (hf : IsGradient f l) (hg : IsGradient g l) :
    ∃ d, f.firstDerivative l = some d ∧ g.firstDerivative l = some d := by
  obtain ⟨d, e, h⟩ := hf
  obtain ⟨d', e', h'⟩ := hg
  refine ⟨d, e, ?_⟩
  rw [e']
  congr 1
  ext a
  have h0 : (l + (0 : ℝ) • Pi.single a (1 : ℝ) : Fin 3 → ℝ) = l := by simp
  obtain ⟨W, hW, dW⟩ := h _ _ 0 h0 (axis_path l a)
  obtain ⟨W', hW', dW'⟩ := h' _ _ 0 h0 (axis_path l a)
  have hev : W' =ᶠ[𝓝 0] W := by
    filter_upwards [hW, hW', axis_pos hl a] with s a1 a2 a3
    rw [hE _ a3, a2] at a1
    exact Option.some.inj a1
  have := (dW.congr_of_eventuallyEq hev).unique dW'
  simpa [Pi.single_apply] using this.symm

theorem hessian_unique {f g : DevFun}
    (hG : ∀ l : Fin 3 → ℝ, (∀ a, 0 < l a) → f.firstDerivative l = g.firstDerivative l)
    {l : Fin 3 → ℝ} (hl : ∀ a, 0 < l a) (hf : IsHessian f l) (hg : IsHessian g l) :
    ∃ H, f.secondDerivative l = some H ∧ g.secondDerivative l = some H := by
  obtain ⟨d, H, ed, e, h⟩ := hf
  obtain ⟨d', H', ed', e', h'⟩ := hg
  obtain rfl : d' = d := by
    rw [hG l hl, ed'] at ed
    exact Option.some.inj ed
  refine ⟨H, e, ?_⟩
  rw [e']
  congr 1
  ext i a
  have h0 : (l + (0 : ℝ) • Pi.single a (1 : ℝ) : Fin 3 → ℝ) = l := by simp
  obtain ⟨G, hW, dW⟩ := h _ _ 0 h0 (axis_path l a)
  obtain ⟨G', hW', dW'⟩ := h' _ _ 0 h0 (axis_path l a)
  have hev : (fun s => G' s i) =ᶠ[𝓝 0] fun s => G s i := by
    filter_upwards [hW, hW', axis_pos hl a] with s a1 a2 a3
    rw [hG _ a3, a2] at a1
    exact congrFun (Option.some.inj a1) i
  have := ((dW i).congr_of_eventuallyEq hev).unique (dW' i)
  simpa [Pi.single_apply] using this.symm

theorem sameDev_of_energy {f g : DevFun}
    (hE : ∀ l : Fin 3 → ℝ, (∀ a, 0 < l a) → ∃ W, f.storedEnergy l = some W ∧ g.storedEnergy l = some W)
    (hf : ∀ l : Fin 3 → ℝ, (∀ a, 0 < l a) → IsGradient f l ∧ IsHessian f l)
    (hg : ∀ l : Fin 3 → ℝ, (∀ a, 0 < l a) → IsGradient g l ∧ IsHessian g l) : SameDev f g := by
  have h1 : ∀ l : Fin 3 → ℝ, (∀ a, 0 < l a) → f.storedEnergy l = g.storedEnergy l := fun l hl => by
    obtain ⟨W, a, b⟩ := hE l hl
    rw [a, b]
  have h2 : ∀ l : Fin 3 → ℝ, (∀ a, 0 < l a) → ∃ d, f.firstDerivative l = some d ∧ g.firstDerivative l = some d :=
    fun l hl => gradient_unique h1 hl (hf l hl).1 (hg l hl).1
  have h3 : ∀ l : Fin 3 → ℝ, (∀ a, 0 < l a) → f.firstDerivative l = g.firstDerivative l := fun l hl => by
    obtain ⟨W, a, b⟩ := h2 l hl
    rw [a, b]
  exact fun l hl => ⟨hE l hl, h2 l hl, hessian_unique h3 hl (hf l hl).2 (hg l hl).2⟩

theorem SameDev.response {f g : DevFun} (h : SameDev f g) (hf : IsotropicFun f) (hg : IsotropicFun g) (v : Volumetric) :
    SameResponse ⟨f, v⟩ ⟨g, v⟩ := by
  intro solver eps epsEq C l N hs he heq hC
  obtain ⟨⟨W, w1, w2⟩, ⟨d, d1, d2⟩, H, h1, h2⟩ := h l hC.1
  obtain ⟨a1, a2, a3⟩ := hyperelastic_any_basis ⟨f, v⟩ hf hs he heq hC
  obtain ⟨b1, b2, b3⟩ := hyperelastic_any_basis ⟨g, v⟩ hg hs he heq hC
  refine ⟨⟨_, by rw [a1, w1, Option.map_some], by rw [b1, w2, Option.map_some]⟩, ?_, ?_⟩
  · exact ⟨_, by rw [a2, DevFun.stresses, d1]; rfl, by rw [b2, DevFun.stresses, d2]; rfl⟩
  · exact ⟨_, by rw [a3, DevFun.tangentModuli, DevFun.stresses, d1, h1]; rfl,
      by rw [b3, DevFun.tangentModuli, DevFun.stresses, d2, h2]; rfl⟩

/-! ### Ogden, Mooney-Rivlin, Yeoh -/

theorem bar_sq {l : Fin 3 → ℝ} (hl : ∀ a, 0 < l a) (a : Fin 3) :
    deviatoricStretches l a ^ (2 : ℝ) = l a ^ 2 * invariants l 2 ^ (-1 / 3 : ℝ) := by
  have p0 := hl 0; have p1 := hl 1; have p2 := hl 2
  have hJ : 0 < l 0 * l 1 * l 2 := by positivity
  have e : invariants l 2 = (l 0 * l 1 * l 2) ^ (2 : ℝ) := by rw [inv2, Real.rpow_two]; ring
  rw [e, ← Real.rpow_mul hJ.le, show (2 : ℝ) * (-1 / 3) = -1 / 3 * 2 by ring, Real.rpow_mul hJ.le]
  simp only [deviatoricStretches, determinantFromPrincipalValues, Real.rpow_two]
  ring

theorem bar_neg_sq {l : Fin 3 → ℝ} (hl : ∀ a, 0 < l a) (a : Fin 3) :
    deviatoricStretches l a ^ (-2 : ℝ) = invariants l 2 / l a ^ 2 * invariants l 2 ^ (-2 / 3 : ℝ) := by
  have hi := inv2_pos hl
  have hb : 0 ≤ deviatoricStretches l a := by
    have p0 := hl 0; have p1 := hl 1; have p2 := hl 2; have pa := hl a
    simp only [deviatoricStretches, determinantFromPrincipalValues]
    positivity
  have e : invariants l 2 * invariants l 2 ^ (-2 / 3 : ℝ) = (invariants l 2 ^ (-1 / 3 : ℝ))⁻¹ := by
    rw [← Real.rpow_neg hi.le]
    nth_rw 1 [← Real.rpow_one (invariants l 2)]
    rw [← Real.rpow_add hi]
    norm_num
  rw [Real.rpow_neg hb, bar_sq hl, mul_inv, div_mul_eq_mul_div, e]
  ring

theorem bar_sq_sum {l : Fin 3 → ℝ} (hl : ∀ a, 0 < l a) : ∑ a, deviatoricStretches l a ^ (2 : ℝ) = W1 l := by
  simp only [bar_sq hl, Fin.sum_univ_three, W1, inv0]
  ring

theorem bar_neg_sq_sum {l : Fin 3 → ℝ} (hl : ∀ a, 0 < l a) : ∑ a, deviatoricStretches l a ^ (-2 : ℝ) = W2 l := by
  have p0 := (hl 0).ne'; have p1 := (hl 1).ne'; have p2 := (hl 2).ne'
  simp only [bar_neg_sq hl, Fin.sum_univ_three, W2]
  rw [← add_mul, ← add_mul]
  congr 1
  rw [inv1, inv2]
  field_simp
  ring

theorem mooneyRivlin_some (eps : ℝ) (c : Fin 2 → ℝ) (K : ℝ) (vf : VF) :
    InvariantBased.construct ![1, 0] ![0, 1] c = some ⟨![1, 0], ![0, 1], c⟩ ∧
    makeMooneyRivlin eps c K vf = some ⟨(⟨![1, 0], ![0, 1], c⟩ : InvariantBased 2).dev eps, ⟨K, vf⟩⟩ := by
  have h : InvariantBased.construct ![1, 0] ![0, 1] c = some ⟨![1, 0], ![0, 1], c⟩ := by
    unfold InvariantBased.construct
    rw [if_neg]
    rintro ⟨i, hi⟩
    fin_cases i <;> simp at hi
  exact ⟨h, by simp [makeMooneyRivlin, makeInvariantBased, h]⟩

theorem yeoh_some (eps : ℝ) (c : Fin 3 → ℝ) (K : ℝ) (vf : VF) :
    InvariantBased.construct ![1, 2, 3] ![0, 0, 0] c = some ⟨![1, 2, 3], ![0, 0, 0], c⟩ ∧
    makeYeoh eps c K vf = some ⟨(⟨![1, 2, 3], ![0, 0, 0], c⟩ : InvariantBased 3).dev eps, ⟨K, vf⟩⟩ := by
  have h : InvariantBased.construct ![1, 2, 3] ![0, 0, 0] c = some ⟨![1, 2, 3], ![0, 0, 0], c⟩ := by
    unfold InvariantBased.construct
    rw [if_neg]
    rintro ⟨i, hi⟩
    fin_cases i <;> simp at hi
  exact ⟨h, by simp [makeYeoh, makeInvariantBased, h]⟩

theorem mooneyRivlin_energy (eps : ℝ) (c : Fin 2 → ℝ) (l : Fin 3 → ℝ) :
    ((⟨![1, 0], ![0, 1], c⟩ : InvariantBased 2).dev eps).storedEnergy l = some (c 0 * (W1 l - 3) + c 1 * (W2 l - 3)) := by
  simp [InvariantBased.dev, Fin.sum_univ_two]

/-- C116. Ogden's material with the exponents 2 and -2 of the deviatoric stretches is the material of Mooney and Rivlin. -/
theorem ogden_is_mooneyRivlin (eps c1 c2 K : ℝ) (vf : VF) :
    ∃ h, makeMooneyRivlin eps ![c1, c2] K vf = some h ∧
      SameResponse (makeOgdenDev ![2 * c1, -2 * c2] ![2, -2] K vf) h := by
  obtain ⟨hc, hm⟩ := mooneyRivlin_some eps ![c1, c2] K vf
  refine ⟨_, hm, SameDev.response (sameDev_of_energy (fun l hl => ⟨_, ?_, mooneyRivlin_energy eps _ l⟩) (fun l hl => ?_)
    fun l hl => ?_) ((library_isotropic).2.2.1 _ _).1 ((library_isotropic).2.2.2.2.2 _ _ eps) _⟩
  · simp only [Ogden.dev, Ogden.storedEnergyDev, Fin.sum_univ_two, Matrix.cons_val_zero, Matrix.cons_val_one,
      bar_sq_sum hl, bar_neg_sq_sum hl]
    congr 1
    ring
  · have := ogden_dev_derivatives_partial (by norm_num) ⟨![2 * c1, -2 * c2], ![2, -2]⟩
      (fun i => by fin_cases i <;> norm_num) l hl
    exact ⟨this.1, this.2.1⟩
  · have := invariantBased_derivatives _ _ _ _ hc eps l hl
    exact ⟨this.1, this.2.1⟩

/-- A state with three different stretches; the energy of the two materials there is not zero. -/
example : ∃ h, makeMooneyRivlin 0 ![3, 2] 5 .f1 = some h ∧ SameResponse (makeOgdenDev ![6, -4] ![2, -2] 5 .f1) h ∧
    ∃ solver C l N W, CorrectSolver solver ∧ HasStretches C l N ∧ h.storedEnergy solver 0 C = some W ∧ 0 < W := by
  obtain ⟨h, e, hr⟩ := ogden_is_mooneyRivlin 0 3 2 5 .f1
  obtain ⟨solver, hs⟩ := hyperelastic_hypotheses.1
  have hl : ∀ a, 0 < (![1, 2, 1 / 2] : Fin 3 → ℝ) a := by intro a; fin_cases a <;> simp
  refine ⟨h, e, by norm_num at hr ⊢; exact hr, solver, _, _, _, 45 / 4, hs, stretches_diagonal hl, ?_, ?_⟩
  · obtain rfl := Option.some.inj ((mooneyRivlin_some 0 ![3, 2] 5 .f1).2.symm.trans e)
    have b := (hyperelastic_any_basis ⟨(⟨![1, 0], ![0, 1], ![3, 2]⟩ : InvariantBased 2).dev 0, ⟨5, .f1⟩⟩
      ((library_isotropic).2.2.2.2.2 _ _ 0) hs one_pos le_rfl (stretches_diagonal hl)).1
    rw [b, mooneyRivlin_energy]
    have i0 : invariants (![1, 2, 1 / 2] : Fin 3 → ℝ) 0 = 21 / 4 := by simp [invariants]; norm_num
    have i1 : invariants (![1, 2, 1 / 2] : Fin 3 → ℝ) 1 = 21 / 4 := by simp [invariants]; norm_num
    have i2 : invariants (![1, 2, 1 / 2] : Fin 3 → ℝ) 2 = 1 := by simp [invariants, determinantFromPrincipalValues]
    have w1 : W1 (![1, 2, 1 / 2] : Fin 3 → ℝ) = 21 / 4 := by rw [W1, i0, i2, Real.one_rpow, mul_one]
    have w2 : W2 (![1, 2, 1 / 2] : Fin 3 → ℝ) = 21 / 4 := by rw [W2, i1, i2, Real.one_rpow, mul_one]
    rw [w1, w2]
    simp [Volumetric.storedEnergy, VF.storedEnergy]
    norm_num
  · norm_num

/-- C116. Ogden's material with the single exponent 2 of the deviatoric stretches, the material of Yeoh with its first
parameter only, and the material of Mooney and Rivlin with its first parameter only are the same material. -/
theorem ogden_is_yeoh (eps eps' c K : ℝ) (vf : VF) :
    ∃ y m, makeYeoh eps ![c, 0, 0] K vf = some y ∧ makeMooneyRivlin eps' ![c, 0] K vf = some m ∧
      SameResponse (makeOgdenDev ![2 * c] ![2] K vf) y ∧ SameResponse (makeOgdenDev ![2 * c] ![2] K vf) m ∧
      SameResponse y m := by
  obtain ⟨hc, hm⟩ := mooneyRivlin_some eps' ![c, 0] K vf
  obtain ⟨hy, hn⟩ := yeoh_some eps ![c, 0, 0] K vf
  have eo : ∀ l : Fin 3 → ℝ, (∀ a, 0 < l a) →
      (⟨![2 * c], ![2]⟩ : Ogden 1).dev.storedEnergy l = some (c * (W1 l - 3)) := fun l hl => by
    simp only [Ogden.dev, Ogden.storedEnergyDev, Fin.sum_univ_one, Matrix.cons_val_zero, bar_sq_sum hl]
    congr 1
    ring
  have ey : ∀ l : Fin 3 → ℝ, ((⟨![1, 2, 3], ![0, 0, 0], ![c, 0, 0]⟩ : InvariantBased 3).dev eps).storedEnergy l =
      some (c * (W1 l - 3)) := fun l => by
    simp [InvariantBased.dev, Fin.sum_univ_three]
  have em : ∀ l : Fin 3 → ℝ, ((⟨![1, 0], ![0, 1], ![c, 0]⟩ : InvariantBased 2).dev eps').storedEnergy l =
      some (c * (W1 l - 3)) := fun l => by
    rw [mooneyRivlin_energy]
    simp
  have d1 : ∀ l : Fin 3 → ℝ, (∀ a, 0 < l a) → IsGradient (⟨![2 * c], ![2]⟩ : Ogden 1).dev l ∧
      IsHessian (⟨![2 * c], ![2]⟩ : Ogden 1).dev l := fun l hl => by
    have := ogden_dev_derivatives_partial (by norm_num) ⟨![2 * c], ![2]⟩ (fun i => by fin_cases i; norm_num) l hl
    exact ⟨this.1, this.2.1⟩
  have d2 := fun l hl => And.intro (invariantBased_derivatives _ _ _ _ hy eps l hl).1
    (invariantBased_derivatives _ _ _ _ hy eps l hl).2.1
  have d3 := fun l hl => And.intro (invariantBased_derivatives _ _ _ _ hc eps' l hl).1
    (invariantBased_derivatives _ _ _ _ hc eps' l hl).2.1
  have i1 := ((library_isotropic).2.2.1 _ (⟨![2 * c], ![2]⟩ : Ogden 1)).1
  have i2 := (library_isotropic).2.2.2.2.2 _ (⟨![1, 2, 3], ![0, 0, 0], ![c, 0, 0]⟩ : InvariantBased 3) eps
  have i3 := (library_isotropic).2.2.2.2.2 _ (⟨![1, 0], ![0, 1], ![c, 0]⟩ : InvariantBased 2) eps'
  exact ⟨_, _, hn, hm, (sameDev_of_energy (fun l hl => ⟨_, eo l hl, ey l⟩) d1 d2).response i1 i2 _,
    (sameDev_of_energy (fun l hl => ⟨_, eo l hl, em l⟩) d1 d3).response i1 i3 _,
    (sameDev_of_energy (fun l _ => ⟨_, ey l, em l⟩) d2 d3).response i2 i3 _⟩

example := ogden_is_yeoh 0 (1 / 10 ^ 8) 3 5 .f2

/-! ### Ogden and Neo-Hooke -/

/-- C116. Ogden's material with the single exponent 2 of the total stretches and the volumetric function `VF3` is the compressible
Neo-Hooke material: the energies and the stresses are equal; the moduli are equal where the principal stretches are equal or
further apart than the tolerance. -/
theorem ogden_is_neoHooke (m : NeoHooke) {solver : EigenSolver} (hs : CorrectSolver solver) {eps epsEq : ℝ} (he : eps < 1)
    (heq : 0 ≤ epsEq) {C : M3} {l : Fin 3 → ℝ} {N : M3} (hC : HasStretches C l N) :
    let o := makeOgdenTotal ![m.mu] ![2] m.lambda .f3
    (∃ W, o.storedEnergy solver eps C = some W ∧ m.storedEnergy eps C = some W) ∧
    (∃ S, o.stresses solver eps C = some S ∧ m.stresses eps C = some S) ∧
    ((∀ i j, l i = l j ∨ ¬ floatCmpEq epsEq (l i) (l j)) →
      ∃ M, o.tangentModuli solver eps epsEq C = some M ∧ m.tangentModuli eps C = some M) := by
  intro o
  have iso : IsotropicFun o.dev := ((library_isotropic).2.2.1 _ _).2
  have stress : ∀ (A : M3) (l : Fin 3 → ℝ) (N : M3), HasStretches A l N →
      ∃ S, o.stresses solver eps A = some S ∧ m.stresses eps A = some S := by
    intro A l N hA
    have p0 := hA.1 0; have p1 := hA.1 1; have p2 := hA.1 2
    have hJ : 0 < l 0 * l 1 * l 2 := by positivity
    refine ⟨_, ?_, NeoHooke.stresses_eq m he (det_of_stretches hA)⟩
    rw [(hyperelastic_any_basis o iso hs he heq hA).2.1]
    have e1 : o.dev.stresses l = some fun a => m.mu * (1 - 1 / l a ^ 2) := by
      simp only [o, makeOgdenTotal, Ogden.total, DevFun.stresses, Ogden.firstDerivativeTotal, Fin.sum_univ_one,
        Matrix.cons_val_zero, Option.bind_eq_bind, Option.bind_some, Real.rpow_two]
      show some _ = some _
      congr 1
      ext a
      have := (hA.1 a).ne'
      field_simp
    rw [e1, Option.map_some]
    congr 1
    have e2 : N * diagonal (fun a => m.mu * (1 - 1 / l a ^ 2)) * Nᵀ = m.mu • (1 - A⁻¹) := by
      rw [inv_spectral hA, ← hA.2.orth', ← Matrix.sub_mul, ← smul_mul_assoc]
      congr 1
      nth_rw 2 [← Matrix.mul_one N]
      rw [← Matrix.mul_sub, ← mul_smul_comm, ← diagonal_one, diagonal_sub, ← diagonal_smul]
      rfl
    have e3 : l 0 * l 1 * l 2 * o.vol.firstDerivative (l 0 * l 1 * l 2) = m.lambda * NeoHooke.lnJ A := by
      rw [NeoHooke.lnJ, det_stretches_sq hA]
      simp only [o, makeOgdenTotal, Volumetric.firstDerivative, VF.firstDerivative]
      field_simp
    rw [e2, e3]
  have p0 := hC.1 0; have p1 := hC.1 1; have p2 := hC.1 2
  refine ⟨⟨_, ?_, NeoHooke.storedEnergy_eq m he (det_of_stretches hC)⟩, stress C l N hC, fun hp => ?_⟩
  · rw [(hyperelastic_any_basis o iso hs he heq hC).1]
    have e : C.trace = ∑ a, l a ^ 2 := by
      rw [hC.2.decomp]
      exact trace_spectral hC.2.orth
    simp only [o, makeOgdenTotal, Ogden.total, Ogden.storedEnergyTotal, Option.map_some, Fin.sum_univ_one,
      Matrix.cons_val_zero, Real.rpow_two, Volumetric.storedEnergy, VF.storedEnergy, NeoHooke.lnJ, det_stretches_sq hC, e]
    congr 1
    ring
  · have hsym := symm_of_spectral hC.2
    have smooth : SmoothDev o.dev C := ((library_smooth hC).2.2.1 _ _ fun i => by fin_cases i; norm_num).2
    have hess := (ogden_total_derivatives (⟨![m.mu], ![2]⟩ : Ogden 1) (fun i => by fin_cases i; norm_num) l hC.1).2.1
    have line : ∀ X : M3, C + (0 : ℝ) • X = C := fun X => by simp
    have hM : ∃ M, o.tangentModuli solver eps epsEq C = some M ∧ MinorSymmetric M := by
      obtain ⟨-, -, M, hM, -, hmin, -⟩ := hyperelastic_moduli_any_motion o iso (by trivial) hs he heq
        (motion_line hsym (symUnit_symm 0 0)) (t := 0) (by rw [line]; exact hC) (by rw [line]; exact smooth) hess hp
      rw [line] at hM
      exact ⟨M, hM, hmin⟩
    obtain ⟨M, hM, hmin⟩ := hM
    obtain ⟨L, hL, hLmin, -⟩ := neoHooke_moduli_symmetric m he C hsym (det_of_stretches hC)
    refine ⟨M, hM, ?_⟩
    rw [hL]
    congr 1
    ext i j a b
    have hmot := motion_line hsym (symUnit_symm a b)
    obtain ⟨S, hS, M', hM', dS, -⟩ := hyperelastic_moduli_any_motion o iso (by trivial) hs he heq hmot
      (t := 0) (by rw [line]; exact hC) (by rw [line]; exact smooth) hess hp
    obtain ⟨T, hT, L', hL', dT⟩ := neoHooke_moduli_is_derivative m he _ _ 0 hmot.rate (by rw [line]; exact hsym)
      (symUnit_symm a b) (by rw [line]; exact det_of_stretches hC)
    rw [line] at hM' hL'
    obtain rfl := Option.some.inj (hM.symm.trans hM')
    obtain rfl := Option.some.inj (hL.symm.trans hL')
    have cont := (matDeriv_pi hmot.rate).continuousAt
    have near : ∀ᶠ s in 𝓝 (0 : ℝ), (C + s • symUnit a b).IsSymm → ∃ l' N', HasStretches (C + s • symUnit a b) l' N' := by
      have h0 : Tendsto (fun s : ℝ => (C + s • symUnit a b : Fin 3 → Fin 3 → ℝ)) (𝓝 0) (𝓝 (C : Fin 3 → Fin 3 → ℝ)) := by
        have := cont.tendsto
        rwa [line] at this
      exact h0.eventually (stretches_nearby hC)
    have hev : (fun s => T s i j) =ᶠ[𝓝 0] fun s => S s i j := by
      filter_upwards [hS, hT, near, hmot.symm] with s a1 a2 a3 a4
      obtain ⟨l', N', h'⟩ := a3 a4
      obtain ⟨Z, z1, z2⟩ := stress _ l' N' h'
      have e1 := Option.some.inj (a1.symm.trans z1)
      have e2 := Option.some.inj (a2.symm.trans z2)
      rw [e1, e2]
    have := ((dS i j).congr_of_eventuallyEq hev).unique (dT i j)
    rw [contract_half, contract_half, ddot_symUnit, ddot_symUnit] at this
    simp only [Matrix.of_apply] at this
    rw [← (hmin i j a b).2, ← (hLmin i j a b).2] at this
    linarith

/-- A stretched state with three different stretches, and a Neo-Hooke material. -/
example : ∃ solver M, CorrectSolver solver ∧
    (makeOgdenTotal ![3] ![2] 2 .f3).tangentModuli solver 0 (1 / 10) (diagonal ![1, 4, 9]) = some M ∧
    (⟨2, 3⟩ : NeoHooke).tangentModuli 0 (diagonal ![1, 4, 9]) = some M := by
  obtain ⟨solver, hs⟩ := hyperelastic_hypotheses.1
  have hst : HasStretches (diagonal ![1, 4, 9] : M3) ![1, 2, 3] 1 := by
    have h := stretches_diagonal (l := ![1, 2, 3]) (by intro a; fin_cases a <;> simp)
    rwa [show (fun a => (![1, 2, 3] : Fin 3 → ℝ) a ^ 2) = ![1, 4, 9] by ext a; fin_cases a <;> norm_num] at h
  obtain ⟨-, -, h⟩ := ogden_is_neoHooke ⟨2, 3⟩ hs (eps := 0) (epsEq := 1 / 10) one_pos (by norm_num) hst
  obtain ⟨M, a, b⟩ := h (by
    intro i j
    fin_cases i <;> fin_cases j <;> norm_num [floatCmpEq])
  exact ⟨solver, M, hs, a, b⟩

/-- C116, within the tolerance: the moduli differ from those of the Neo-Hooke material for every positive tolerance. -/
theorem ogden_neoHooke_moduli_within_tolerance {epsEq : ℝ} (heq : 0 < epsEq) : ¬ NeoHookeModuliAgree epsEq := by
  intro h
  obtain ⟨solver, hs⟩ := hyperelastic_hypotheses.1
  obtain ⟨l, hl⟩ : ∃ l : Fin 3 → ℝ, l = ![1, 1 + epsEq, 1] := ⟨_, rfl⟩
  have hpos : ∀ a, 0 < l a := by
    intro a
    rw [hl]
    fin_cases a <;> simp <;> linarith
  have h01 : floatCmpEq epsEq (l 0) (l 1) := by
    rw [hl]
    simp only [floatCmpEq, Matrix.cons_val_zero, Matrix.cons_val_one]
    rw [show (1 : ℝ) - (1 + epsEq) = -epsEq by ring, abs_neg, abs_of_pos heq, abs_one]
    nlinarith [le_max_left (1 : ℝ) |1 + epsEq|]
  have hst := stretches_diagonal hpos
  obtain ⟨M, hM, hn⟩ := h ⟨0, 1⟩ solver 0 _ l 1 hs one_pos hst
  obtain ⟨L, hL, hmin, -⟩ := neoHooke_moduli_symmetric ⟨0, 1⟩ one_pos _ (symm_of_spectral hst.2) (det_of_stretches hst)
  obtain rfl := Option.some.inj (hn.symm.trans hL)
  obtain ⟨M', hM', hnot⟩ := (hyperelastic_moduli_within_tolerance heq).2 solver 0 hs one_pos l hpos
    (by rw [hl]; simp; exact heq.ne') h01
  have e : (makeOgdenTotal ![1] ![2] 0 .f3).tangentModuli solver 0 epsEq (diagonal fun a => l a ^ 2) =
      exampleOgden.tangentModuli solver 0 epsEq (diagonal fun a => l a ^ 2) := by
    have e1 : (![1] : Fin 1 → ℝ) = fun _ => 1 := by ext i; fin_cases i; rfl
    have e2 : (![2] : Fin 1 → ℝ) = fun _ => 2 := by ext i; fin_cases i; rfl
    simp only [tangentModuli, exampleOgden, makeOgdenTotal, Volumetric.firstDerivative, Volumetric.secondDerivative,
      zero_mul, e1, e2]
  rw [← e] at hM'
  obtain rfl := Option.some.inj (hM.symm.trans hM')
  exact hnot hmin

example := ogden_neoHooke_moduli_within_tolerance (show (0 : ℝ) < 1 / 10 ^ 8 by norm_num)

/-! ### Volumetric functions -/

/-- Two volumetric functions agree on positive arguments. -/
def Spec.SameVF (f g : VF) : Prop :=
  ∀ J, 0 < J → f.storedEnergy J = g.storedEnergy J ∧ f.firstDerivative J = g.firstDerivative J ∧
    f.secondDerivative J = g.secondDerivative J

/-- C116. Special parameters of the volumetric functions 4, 7 and 10 give the functions 5, 6, 8 and, up to a constant energy, 1. -/
theorem volumetric_special_cases :
    SameVF (.f4 (-2)) .f5 ∧ SameVF (.f4 (-1)) .f6 ∧ SameVF (.f7 1) .f8 ∧
    ∀ J, 0 < J → (VF.f10 (-1)).storedEnergy J = VF.f1.storedEnergy J - 1 ∧
      (VF.f10 (-1)).firstDerivative J = VF.f1.firstDerivative J ∧ (VF.f10 (-1)).secondDerivative J = VF.f1.secondDerivative J := by
  have p1 : ∀ J : ℝ, 0 < J → J ^ (-1 : ℝ) = J⁻¹ := fun J hJ => Real.rpow_neg_one J
  have p2 : ∀ J : ℝ, 0 < J → J ^ (-2 : ℝ) = (J ^ 2)⁻¹ := fun J hJ => by rw [Real.rpow_neg hJ.le, Real.rpow_two]
  refine ⟨fun J hJ => ?_, fun J hJ => ?_, fun J hJ => ?_, fun J hJ => ?_⟩
  · simp only [VF.storedEnergy, VF.firstDerivative, VF.secondDerivative, p2 J hJ, show (1 : ℝ) + -2 = -1 by norm_num, p1 J hJ,
      add_neg_cancel, Real.rpow_zero]
    refine ⟨?_, ?_, ?_⟩ <;> field_simp <;> ring
  · simp only [VF.storedEnergy, VF.firstDerivative, VF.secondDerivative, p1 J hJ, show (2 : ℝ) + -1 = 1 by norm_num,
      add_neg_cancel, Real.rpow_zero, Real.rpow_one]
    refine ⟨?_, ?_, ?_⟩ <;> field_simp <;> ring
  · simp only [VF.storedEnergy, VF.firstDerivative, VF.secondDerivative, Real.rpow_one, sub_self, Real.rpow_zero,
      show (1 : ℝ) - 2 = -1 by norm_num, p1 J hJ, one_div]
    refine ⟨?_, ?_, ?_⟩ <;> ring
  · simp only [VF.storedEnergy, VF.firstDerivative, VF.secondDerivative, neg_neg, Real.rpow_one,
      show (-1 : ℝ) - -1 = 0 by norm_num, Real.rpow_zero]
    refine ⟨?_, ?_, ?_⟩
    · ring
    · ring
    · trivial

example : (VF.f4 (-2)).storedEnergy 2 = 1 / 4 * (3 - 2 * Real.log 2) := by
  rw [(volumetric_special_cases.1 2 two_pos).1]
  norm_num [VF.storedEnergy]

/-! ### Limits -/

theorem Spec.TendsTo.map {A B : Type*} [TopologicalSpace A] [TopologicalSpace B] {f : ℝ → Option A} {x : Option A}
    (h : TendsTo f x) {φ : A → B} (hφ : Continuous φ) : TendsTo (fun r => (f r).map φ) (x.map φ) := by
  obtain ⟨g, a, rfl, hf, hg⟩ := h
  exact ⟨fun r => φ (g r), φ a, rfl, hf.mono fun r hr => by
    show (f r).map φ = _
    rw [hr, Option.map_some], (hφ.tendsto a).comp hg⟩

/-- The three functions tend to those of `g` at every state of positive stretches. -/
def DevTendsTo (f : ℝ → DevFun) (g : DevFun) : Prop :=
  ∀ l : Fin 3 → ℝ, (∀ a, 0 < l a) →
    TendsTo (fun r => (f r).storedEnergy l) (g.storedEnergy l) ∧
    TendsTo (fun r => (f r).firstDerivative l) (g.firstDerivative l) ∧
    TendsTo (A := Fin 3 → Fin 3 → ℝ) (fun r => (f r).secondDerivative l) (g.secondDerivative l)

theorem moduli_continuous (N : M3) (V : Tensor4 ℝ 3) :
    Continuous fun L : Tensor4 ℝ 3 => transformDeviatoricTangentModuli L N + V := by
  have h : ∀ i j k m, Continuous fun L : Tensor4 ℝ 3 => L i j k m := fun i j k m => by fun_prop
  refine continuous_pi fun a => continuous_pi fun b => continuous_pi fun c => continuous_pi fun d => ?_
  show Continuous fun L : Tensor4 ℝ 3 => transformDeviatoricTangentModuli L N a b c d + V a b c d
  unfold transformDeviatoricTangentModuli
  refine (continuous_finsetSum _ fun i _ => continuous_finsetSum _ fun k _ => ?_).add continuous_const
  refine ((h i i k k).mul continuous_const).add ?_
  split
  · exact (h i k i k).mul continuous_const
  · exact continuous_const

theorem DevTendsTo.response {f : ℝ → DevFun} {g : DevFun} (h : DevTendsTo f g) (hf : ∀ r, IsotropicFun (f r))
    (hg : IsotropicFun g) (v : Volumetric) : ResponseTendsTo (fun r => ⟨f r, v⟩) ⟨g, v⟩ := by
  classical
  intro solver eps epsEq C l N hs he heq hC
  obtain ⟨hW, hd, hH⟩ := h l hC.1
  have a := fun r => hyperelastic_any_basis ⟨f r, v⟩ (hf r) hs he heq hC
  obtain ⟨b1, b2, b3⟩ := hyperelastic_any_basis ⟨g, v⟩ hg hs he heq hC
  have hS : TendsTo (fun r => (f r).stresses l) (g.stresses l) := by
    obtain ⟨d, d0, e, he, hd⟩ := hd
    refine ⟨fun r a => d r a / l a, fun a => d0 a / l a, by rw [DevFun.stresses, e]; rfl,
      he.mono fun r hr => by simp only [DevFun.stresses, hr]; rfl, ?_⟩
    exact tendsto_pi_nhds.2 fun a => ((tendsto_pi_nhds.1 hd) a).div_const _
  have hL : TendsTo (fun r => (f r).tangentModuli epsEq l) (g.tangentModuli epsEq l) := by
    obtain ⟨S, S0, e, he, hS⟩ := hS
    obtain ⟨H, H0, e', he', hH⟩ := hH
    refine ⟨fun r i j k m => if i = j ∧ k = m then 1 / (l i * l k) * H r i k
        else if i = k ∧ j = m then
          if floatCmpEq epsEq (l i) (l j) then 1 / 2 * (1 / (l i * l i) * H r i i - 1 / (l i * l j) * H r i j)
          else 0 + (S r i - S r j) / (l i ^ 2 - l j ^ 2)
        else 0, _, by rw [DevFun.tangentModuli, e, e']; rfl, ?_, ?_⟩
    · filter_upwards [he, he'] with r a1 a2
      rw [DevFun.tangentModuli, a1, a2]
      rfl
    · have t1 : ∀ i, Tendsto (fun r => S r i) atTop (𝓝 (S0 i)) := tendsto_pi_nhds.1 hS
      have t2 : ∀ i j, Tendsto (fun r => H r i j) atTop (𝓝 (H0 i j)) := fun i j =>
        tendsto_pi_nhds.1 ((tendsto_pi_nhds.1 hH) i) j
      refine tendsto_pi_nhds.2 fun i => tendsto_pi_nhds.2 fun j => tendsto_pi_nhds.2 fun k => tendsto_pi_nhds.2 fun m => ?_
      dsimp only
      split_ifs
      · exact (t2 i k).const_mul _
      · exact (((t2 i i).const_mul _).sub ((t2 i j).const_mul _)).const_mul _
      · exact (((t1 i).sub (t1 j)).div_const _).const_add _
      · exact tendsto_const_nhds
  refine ⟨?_, ?_, ?_⟩
  · rw [b1]
    have : (fun r => Hyperelastic.storedEnergy ⟨f r, v⟩ solver eps C) = _ := funext fun r => (a r).1
    rw [this]
    exact hW.map (continuous_id.add continuous_const)
  · rw [b2]
    have : (fun r => Hyperelastic.stresses ⟨f r, v⟩ solver eps C) = _ := funext fun r => (a r).2.1
    rw [this]
    refine hS.map (Continuous.add (f := fun S : Fin 3 → ℝ => N * diagonal S * Nᵀ) ?_ continuous_const)
    exact (continuous_const.matrix_mul continuous_id.matrix_diagonal).matrix_mul continuous_const
  · rw [b3]
    have : (fun r => Hyperelastic.tangentModuli ⟨f r, v⟩ solver eps epsEq C) = _ := funext fun r => (a r).2.2
    rw [this]
    exact hL.map (moduli_continuous N _)

/-- The derivatives of the material of Mooney and Rivlin with its first parameter only. -/
theorem mooneyRivlin_derivs (eps mu : ℝ) {l : Fin 3 → ℝ} (hl : ∀ a, 0 < l a) :
    ((⟨![1, 0], ![0, 1], ![mu / 2, 0]⟩ : InvariantBased 2).dev eps).storedEnergy l = some (mu / 2 * (W1 l - 3)) ∧
    ((⟨![1, 0], ![0, 1], ![mu / 2, 0]⟩ : InvariantBased 2).dev eps).firstDerivative l = some (fun k => mu / 2 * dW1 l k) ∧
    ((⟨![1, 0], ![0, 1], ![mu / 2, 0]⟩ : InvariantBased 2).dev eps).secondDerivative l =
      some (fun i j => mu / 2 * ddW1 l i j - if i = j then mu / 2 * (dW1 l i / l i) else 0) := by
  have hc := (mooneyRivlin_some eps ![mu / 2, 0] 0 .f0).1
  have em : ∀ l : Fin 3 → ℝ, ((⟨![1, 0], ![0, 1], ![mu / 2, 0]⟩ : InvariantBased 2).dev eps).storedEnergy l =
      some (mu / 2 * (W1 l - 3)) := fun l => by
    rw [mooneyRivlin_energy]
    simp
  have eb : (⟨mu, 0⟩ : ArrudaBoyce).beta = 0 := by simp [ArrudaBoyce.beta]
  have ea : ∀ l : Fin 3 → ℝ, (⟨mu, 0⟩ : ArrudaBoyce).dev.storedEnergy l = some (mu / 2 * (W1 l - 3)) := fun l => by
    simp only [ArrudaBoyce.dev, eb, Fin.sum_univ_five, ArrudaBoyce.alphas]
    congr 1
    simp
    ring
  have h := sameDev_of_energy (f := (⟨mu, 0⟩ : ArrudaBoyce).dev) (fun l _ => ⟨_, ea l, em l⟩)
    (fun l hl => ⟨(arrudaBoyce_derivatives ⟨mu, 0⟩ l hl).1, (arrudaBoyce_derivatives ⟨mu, 0⟩ l hl).2.1⟩)
    (fun l hl => ⟨(invariantBased_derivatives _ _ _ _ hc eps l hl).1, (invariantBased_derivatives _ _ _ _ hc eps l hl).2.1⟩) l hl
  obtain ⟨-, ⟨d, d1, d2⟩, H, h1, h2⟩ := h
  refine ⟨em l, ?_, ?_⟩
  · rw [d2, ← d1]
    simp only [ArrudaBoyce.dev, eb, Fin.sum_univ_five, ArrudaBoyce.alphas]
    congr 1
    ext k
    simp [-mul_eq_mul_right_iff]
    ring
  · rw [h2, ← h1]
    simp only [ArrudaBoyce.dev, eb, Fin.sum_univ_five, ArrudaBoyce.alphas]
    congr 1
    ext i k
    by_cases hik : i = k <;> simp [hik, -mul_eq_mul_right_iff] <;> ring

/-- C116. The longer the chains of the material of Arruda and Boyce, the closer it is to the material of Mooney and Rivlin with
the first parameter `mu / 2`: energy, stresses and moduli converge. -/
theorem arrudaBoyce_limit (eps mu K : ℝ) (vf : VF) :
    ∃ m, makeMooneyRivlin eps ![mu / 2, 0] K vf = some m ∧
      ResponseTendsTo (fun lambdaM => makeArrudaBoyce ⟨mu, lambdaM⟩ K vf) m := by
  obtain ⟨hc, hm⟩ := mooneyRivlin_some eps ![mu / 2, 0] K vf
  refine ⟨_, hm, DevTendsTo.response (f := fun lambdaM => (⟨mu, lambdaM⟩ : ArrudaBoyce).dev) (fun l hl => ?_)
    (fun r => (library_isotropic).2.2.2.2.1 _) ((library_isotropic).2.2.2.2.2 _ _ eps) _⟩
  obtain ⟨e1, e2, e3⟩ := mooneyRivlin_derivs eps mu hl
  have hb : Tendsto (fun r : ℝ => (⟨mu, r⟩ : ArrudaBoyce).beta) atTop (𝓝 0) := by
    simp only [ArrudaBoyce.beta, one_div]
    exact (tendsto_pow_atTop (by norm_num)).inv_tendsto_atTop
  have lim : ∀ φ : ℝ → ℝ, Continuous φ → ∀ x, φ 0 = x → Tendsto (fun r : ℝ => φ (⟨mu, r⟩ : ArrudaBoyce).beta) atTop (𝓝 x) :=
    fun φ hφ x hx => hx ▸ (hφ.tendsto 0).comp hb
  refine ⟨⟨_, _, e1, Eventually.of_forall fun r => rfl, ?_⟩, ⟨_, _, e2, Eventually.of_forall fun r => rfl, ?_⟩,
    ⟨_, _, e3, Eventually.of_forall fun r => rfl, ?_⟩⟩
  · refine lim (fun b => (∑ i : Fin 5, ArrudaBoyce.alphas i * b ^ (i : ℕ) * (W1 l ^ ((i : ℕ) + 1) - 3 ^ ((i : ℕ) + 1))) * mu)
      (by fun_prop) _ ?_
    simp [Fin.sum_univ_five, ArrudaBoyce.alphas, -mul_eq_mul_right_iff]
    ring
  · refine tendsto_pi_nhds.2 fun k => ?_
    refine lim (fun b => ∑ j : Fin 5, mu * ArrudaBoyce.alphas j * b ^ (j : ℕ) * W1 l ^ (j : ℕ) * dW1 l k * ((j : ℕ) + 1))
      (by fun_prop) _ ?_
    simp [Fin.sum_univ_five, ArrudaBoyce.alphas, -mul_eq_mul_right_iff]
    ring
  · refine tendsto_pi_nhds.2 fun i => tendsto_pi_nhds.2 fun k => ?_
    refine lim (fun b => ∑ p : Fin 5, (mu * ArrudaBoyce.alphas p * b ^ (p : ℕ) *
        (W1 l ^ (p : ℕ) * ddW1 l i k * ((p : ℕ) + 1) +
          W1 l ^ ((p : ℕ) - 1 : ℤ) * (dW1 l i * dW1 l k) * (p : ℕ) * ((p : ℕ) + 1)) -
      (if i = k then
        dW1 l i / l i * (mu * ArrudaBoyce.alphas p * b ^ (p : ℕ)) * W1 l ^ (p : ℕ) * ((p : ℕ) + 1) else 0))) ?_ _ ?_
    · by_cases hik : i = k
      · simp only [hik, if_true]; fun_prop
      · simp only [hik, if_false]; fun_prop
    · by_cases hik : i = k <;> simp [Fin.sum_univ_five, ArrudaBoyce.alphas, hik, -mul_eq_mul_right_iff] <;> ring

example := arrudaBoyce_limit 0 3 5 .f2

/-- C116. The larger the limit `Jm` of the material of Gent, the closer it is to the material of Mooney and Rivlin with the first
parameter `mu / 2`: every deformation is admissible from some limit on, and energy, stresses and moduli converge. -/
theorem gent_limit (eps mu K : ℝ) (vf : VF) {epsJm : ℝ} (h0 : 0 ≤ epsJm) (h1 : epsJm < 1) :
    ∃ m, makeMooneyRivlin eps ![mu / 2, 0] K vf = some m ∧
      ResponseTendsTo (fun Jm => makeGent epsJm ⟨mu, Jm⟩ K vf) m := by
  obtain ⟨hc, hm⟩ := mooneyRivlin_some eps ![mu / 2, 0] K vf
  refine ⟨_, hm, DevTendsTo.response (f := fun Jm => (⟨mu, Jm⟩ : Gent).dev epsJm) (fun l hl => ?_)
    (fun r => (library_isotropic).2.2.2.1 _ _) ((library_isotropic).2.2.2.2.2 _ _ eps) _⟩
  obtain ⟨e1, e2, e3⟩ := mooneyRivlin_derivs eps mu hl
  have hJ : ∀ᶠ r in atTop, (⟨mu, r⟩ : Gent).checkJm epsJm (W1 l) = some () := by
    filter_upwards [eventually_gt_atTop (|W1 l - 3| / (1 - epsJm))] with r hr
    have hp : 0 < 1 - epsJm := by linarith
    rw [div_lt_iff₀ hp] at hr
    have hx := le_abs_self (W1 l - 3)
    have hy := abs_nonneg (W1 l - 3)
    have hr0 : 0 < r := by
      by_contra hn
      nlinarith
    have hxr : |W1 l - 3| < r := by nlinarith
    unfold Gent.checkJm floatCmpLe floatCmpEq
    rw [if_neg]
    rintro (h | h)
    · dsimp only at h
      linarith
    · rw [max_eq_left (by rw [abs_of_pos hr0]; exact hxr.le), abs_of_pos hr0] at h
      have := (abs_sub_abs_le_abs_sub r (W1 l - 3)).trans h
      rw [abs_of_pos hr0] at this
      linarith
  have hinv : Tendsto (fun r : ℝ => (W1 l - 3) / r) atTop (𝓝 0) := tendsto_const_nhds.div_atTop tendsto_id
  have hfac : Tendsto (fun r : ℝ => 1 - (W1 l - 3) / r) atTop (𝓝 1) := by simpa using hinv.const_sub 1
  refine ⟨⟨_, _, e1, hJ.mono fun r hr => by simp only [Gent.dev, hr]; rfl, ?_⟩,
    ⟨_, _, e2, hJ.mono fun r hr => by simp only [Gent.dev, hr]; rfl, ?_⟩,
    ⟨_, _, e3, hJ.mono fun r hr => by simp only [Gent.dev, hr]; rfl, ?_⟩⟩
  · have h := Real.tendsto_mul_log_one_add_of_tendsto (g := fun r => -((W1 l - 3) / r)) (t := -(W1 l - 3)) (by
      refine tendsto_const_nhds.congr' ?_
      filter_upwards [eventually_ne_atTop 0] with r hr
      field_simp)
    have h' := h.const_mul (-(mu / 2))
    rw [show -(mu / 2) * -(W1 l - 3) = mu / 2 * (W1 l - 3) by ring] at h'
    refine h'.congr fun r => ?_
    rw [← sub_eq_add_neg]
    ring
  · refine tendsto_pi_nhds.2 fun a => ?_
    have h := (hfac.inv₀ one_ne_zero).const_mul (mu / 2 * dW1 l a)
    rw [inv_one, mul_one] at h
    refine h.congr' ?_
    filter_upwards [eventually_ne_atTop 0] with r hr
    have e : 2 * (r - W1 l) + 6 = 2 * r * (1 - (W1 l - 3) / r) := by field_simp; ring
    rw [e]
    by_cases hz : 1 - (W1 l - 3) / r = 0
    · rw [hz]; simp
    · field_simp
  · refine tendsto_pi_nhds.2 fun i => tendsto_pi_nhds.2 fun j => ?_
    have t1 : Tendsto (fun r : ℝ => mu / (2 * (1 - (W1 l - 3) / r))) atTop (𝓝 (mu / 2)) := by
      have := Tendsto.div (tendsto_const_nhds (x := mu)) (hfac.const_mul 2) (by norm_num)
      rwa [mul_one] at this
    have t2 : Tendsto (fun r : ℝ => dW1 l i * dW1 l j / ((1 - (W1 l - 3) / r) * r)) atTop (𝓝 0) :=
      tendsto_const_nhds.div_atTop (hfac.pos_mul_atTop one_pos tendsto_id)
    have t3 := t1.mul (t2.const_add (ddW1 l i j))
    rw [add_zero] at t3
    refine t3.sub ?_
    by_cases hij : i = j
    · simp only [hij, if_true]
      have := Tendsto.div (tendsto_const_nhds (x := mu)) (hfac.const_mul (2 * l j)) (by have := (hl j).ne'; simpa using this)
      have := this.mul_const (dW1 l j)
      rw [mul_one] at this
      have e : mu / (2 * l j) * dW1 l j = mu / 2 * (dW1 l j / l j) := by have := (hl j).ne'; field_simp
      rwa [e] at this
    · simp only [hij, if_false]
      exact tendsto_const_nhds

example := gent_limit 0 3 5 .f2 (epsJm := 1 / 10 ^ 8) (by norm_num) (by norm_num)

end Ikarus
