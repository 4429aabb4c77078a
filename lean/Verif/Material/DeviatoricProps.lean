import Verif.Material.DeviatoricLemmas
import Mathlib.Algebra.BigOperators.Ring.Finset
import Mathlib.Algebra.BigOperators.Field

/-!
C40: deviatoric functions.
-/

namespace Ikarus

open Real

/-! ### Specification -/

/-- At `l` the first derivative is the gradient of the energy: along every differentiable path through `l` the energy is defined
and its rate is the first derivative times the rate of the stretches. -/
def Spec.IsGradient (f : DevFun) (l : Fin 3 → ℝ) : Prop :=
  ∃ g, f.firstDerivative l = some g ∧ ∀ (p : ℝ → Fin 3 → ℝ) (dp : Fin 3 → ℝ) (t : ℝ),
    p t = l → HasVecDeriv p dp t →
    ∃ W : ℝ → ℝ, (∀ᶠ s in nhds t, f.storedEnergy (p s) = some (W s)) ∧
      HasDerivAt W (∑ a, g a * dp a) t

/-- At `l` the second derivative is the Hessian of the energy minus the diagonal `W_i / l_i`: along every
differentiable path through `l` the rate of `W_i` is row `i` times the rate of the stretches, plus `W_i / l_i` times the
rate of the `i`-th stretch. -/
def Spec.IsHessian (f : DevFun) (l : Fin 3 → ℝ) : Prop :=
  ∃ g H, f.firstDerivative l = some g ∧ f.secondDerivative l = some H ∧
    ∀ (p : ℝ → Fin 3 → ℝ) (dp : Fin 3 → ℝ) (t : ℝ), p t = l → HasVecDeriv p dp t →
    ∃ G : ℝ → Fin 3 → ℝ, (∀ᶠ s in nhds t, f.firstDerivative (p s) = some (G s)) ∧
      ∀ a, HasDerivAt (fun s => G s a) (∑ b, H a b * dp b + g a / l a * dp a) t

open Spec

theorem IsGradient.of_some {f : DevFun} {l : Fin 3 → ℝ} (W : (Fin 3 → ℝ) → ℝ) (g : Fin 3 → ℝ)
    (hg : f.firstDerivative l = some g)
    (h : ∀ (p : ℝ → Fin 3 → ℝ) (dp : Fin 3 → ℝ) (t : ℝ), p t = l → HasVecDeriv p dp t →
      (∀ᶠ s in nhds t, f.storedEnergy (p s) = some (W (p s))) ∧
      HasDerivAt (fun s => W (p s)) (∑ a, g a * dp a) t) : IsGradient f l :=
  ⟨g, hg, fun p dp t hp hd => ⟨fun s => W (p s), h p dp t hp hd⟩⟩

theorem IsHessian.of_some {f : DevFun} {l : Fin 3 → ℝ} (G : (Fin 3 → ℝ) → Fin 3 → ℝ)
    (H : Matrix (Fin 3) (Fin 3) ℝ) (hg : f.firstDerivative l = some (G l))
    (hH : f.secondDerivative l = some H)
    (h : ∀ (p : ℝ → Fin 3 → ℝ) (dp : Fin 3 → ℝ) (t : ℝ), p t = l → HasVecDeriv p dp t →
      (∀ᶠ s in nhds t, f.firstDerivative (p s) = some (G (p s))) ∧
      ∀ a, HasDerivAt (fun s => G (p s) a) (∑ b, H a b * dp b + G l a / l a * dp a) t) : IsHessian f l :=
  ⟨G l, H, hg, hH, fun p dp t hp hd => ⟨fun s => G (p s), h p dp t hp hd⟩⟩

/-! ### Blatz-Ko -/

/-- C40. Blatz-Ko. -/
theorem blatzKo_derivatives (mu : ℝ) (l : Fin 3 → ℝ) (hl : ∀ a, 0 < l a) :
    IsGradient (blatzKo mu) l ∧ IsHessian (blatzKo mu) l ∧
    (blatzKo mu).storedEnergy (fun _ => 1) = some 0 ∧ (blatzKo mu).stresses (fun _ => 1) = some 0 := by
  have p0 := hl 0; have p1 := hl 1; have p2 := hl 2
  refine ⟨?_, ?_, ?_, ?_⟩
  · refine IsGradient.of_some (BlatzKo.storedEnergy mu) _ rfl fun p dp t hp hd => ⟨by simp [blatzKo], ?_⟩
    have i : ∀ a, HasDerivAt (fun s => (p s a)⁻¹ ^ 2) (-2 * dp a / l a ^ 3) t := by
      intro a
      have pa := hl a
      refine (((hd a).inv (by rw [hp]; exact pa.ne')).pow 2).congr_deriv ?_
      simp only [Pi.inv_apply, hp]
      field_simp
      simp
      field_simp
    have hs : HasDerivAt (fun s => ∑ a, (p s a)⁻¹ ^ 2) (∑ a, -2 * dp a / l a ^ 3) t :=
      HasDerivAt.fun_sum fun a _ => i a
    have hj := (((hd 0).mul (hd 1)).mul (hd 2)).const_mul 2
    refine (((hs.add hj).sub_const 5).const_mul (mu / 2)).congr_deriv ?_
    simp only [BlatzKo.firstDerivative, determinantFromPrincipalValues, Fin.sum_univ_three, Pi.mul_apply, hp]
    field_simp
    ring
  · refine IsHessian.of_some (BlatzKo.firstDerivative mu) _ rfl rfl fun p dp t hp hd =>
      ⟨by simp [blatzKo], fun a => ?_⟩
    have pa := hl a
    have h3 := ((hd a).pow 3).inv (by
      simp only [Pi.pow_apply, hp]; exact (pow_pos pa 3).ne')
    have hi := (hd a).inv (by rw [hp]; exact pa.ne')
    have hj := ((hd 0).mul (hd 1)).mul (hd 2)
    refine ((h3.neg.add (hj.mul hi)).const_mul mu).congr_deriv ?_
    simp only [BlatzKo.firstDerivative, BlatzKo.secondDerivative, determinantFromPrincipalValues, Fin.sum_univ_three,
      Pi.mul_apply, Pi.inv_apply, Pi.pow_apply, hp]
    fin_cases a <;> simp <;> field_simp <;> ring
  · simp [blatzKo, BlatzKo.storedEnergy]
    right; norm_num
  · simp [blatzKo, BlatzKo.firstDerivative, DevFun.stresses, determinantFromPrincipalValues]
    rfl

/-! ### Ogden -/

/-- The sum of the three rates. -/
theorem ogden_first_dev {n : Nat} (o : Ogden n) {l : Fin 3 → ℝ} (hl : ∀ a, 0 < l a) (a : Fin 3) :
    o.firstDerivativeDev l a =
      (∑ j, o.mu j * (deviatoricStretches l a ^ o.alpha j -
        1 / 3 * ∑ b, deviatoricStretches l b ^ o.alpha j)) / l a := by
  have hb : ∀ b, 0 < deviatoricStretches l b := by
    intro b
    have p0 := hl 0; have p1 := hl 1; have p2 := hl 2; have pb := hl b
    unfold deviatoricStretches determinantFromPrincipalValues
    positivity
  have hm : ∀ b, deviatoricStretches l b * (∑ j, o.mu j * deviatoricStretches l b ^ (o.alpha j - 1)) =
      ∑ j, o.mu j * deviatoricStretches l b ^ o.alpha j := by
    intro b
    rw [Finset.mul_sum]
    refine Finset.sum_congr rfl fun j _ => ?_
    rw [rpow_sub_one (hb b).ne']
    field_simp [(hb b).ne']
  simp only [Ogden.firstDerivativeDev, hm]
  congr 1
  rw [Finset.sum_comm, Finset.mul_sum, ← Finset.sum_sub_distrib]
  refine Finset.sum_congr rfl fun j _ => ?_
  rw [← Finset.mul_sum]
  ring

/-- C40. Ogden with deviatoric stretches and at most three parameters. -/
theorem ogden_dev_derivatives_partial {n : Nat} (hn : n ≤ 3) (o : Ogden n) (ha : ∀ i, o.alpha i ≠ 0)
    (l : Fin 3 → ℝ) (hl : ∀ a, 0 < l a) :
    IsGradient o.dev l ∧ IsHessian o.dev l ∧
    o.dev.storedEnergy (fun _ => 1) = some 0 ∧ o.dev.stresses (fun _ => 1) = some 0 := by
  have p0 := hl 0; have p1 := hl 1; have p2 := hl 2
  have hone : ∀ a, deviatoricStretches (fun _ => (1 : ℝ)) a = 1 := by
    intro a; simp [deviatoricStretches, determinantFromPrincipalValues]
  refine ⟨?_, ?_, ?_, ?_⟩
  · refine IsGradient.of_some o.storedEnergyDev _ rfl fun p dp t hp hd => ⟨by simp [Ogden.dev], ?_⟩
    have hlt : ∀ a, 0 < p t a := by rw [hp]; exact hl
    have h1 : ∀ i, HasDerivAt
        (fun s => o.mu i / o.alpha i * (∑ a, deviatoricStretches (p s) a ^ o.alpha i - 3))
        (o.mu i / o.alpha i * ∑ a, o.alpha i * deviatoricStretches (p t) a ^ o.alpha i *
          (dp a / p t a - 1 / 3 * (dp 0 / p t 0 + dp 1 / p t 1 + dp 2 / p t 2))) t := fun i =>
      ((HasDerivAt.fun_sum fun a _ => hd.bar_rpow hlt (o.alpha i) a).sub_const 3).const_mul _
    have h2 := HasDerivAt.fun_sum (u := Finset.univ) fun i _ => h1 i
    refine h2.congr_deriv ?_
    rw [hp, Fin.sum_univ_three, ogden_first_dev o hl, ogden_first_dev o hl, ogden_first_dev o hl]
    have e : ∀ (f : Fin n → ℝ) (x y : ℝ), (∑ j, f j) / x * y = ∑ j, f j / x * y := by
      intro f x y; rw [Finset.sum_div, Finset.sum_mul]
    rw [e, e, e, ← Finset.sum_add_distrib, ← Finset.sum_add_distrib]
    refine Finset.sum_congr rfl fun i _ => ?_
    have := ha i
    simp only [Fin.sum_univ_three]
    field_simp
    ring
  · refine IsHessian.of_some o.firstDerivativeDev _ rfl (if_pos hn) fun p dp t hp hd =>
      ⟨by simp [Ogden.dev], fun a => ?_⟩
    have hlt : ∀ a, 0 < p t a := by rw [hp]; exact hl
    have pa := hl a
    have hev : (fun s => o.firstDerivativeDev (p s) a) =ᶠ[nhds t] fun s =>
        (∑ j, o.mu j * (deviatoricStretches (p s) a ^ o.alpha j -
          1 / 3 * ∑ b, deviatoricStretches (p s) b ^ o.alpha j)) / p s a := by
      filter_upwards [hd.pos_eventually hlt] with s hs
      exact ogden_first_dev o hs a
    have h1 : ∀ j, HasDerivAt (fun s => o.mu j * (deviatoricStretches (p s) a ^ o.alpha j -
          1 / 3 * ∑ b, deviatoricStretches (p s) b ^ o.alpha j)) _ t := fun j =>
      ((hd.bar_rpow hlt (o.alpha j) a).sub
        ((HasDerivAt.fun_sum fun b _ => hd.bar_rpow hlt (o.alpha j) b).const_mul (1 / 3))).const_mul _
    have h2 := (HasDerivAt.fun_sum (u := Finset.univ) fun i _ => h1 i).div (hd a) (hlt a).ne'
    refine (h2.congr_of_eventuallyEq hev).congr_deriv ?_
    rw [hp, ogden_first_dev o hl, Fin.sum_univ_three]
    have e : ∀ (f : Fin n → ℝ) (x : ℝ), (∑ j, f j) / x = ∑ j, f j / x := by
      intro f x; rw [Finset.sum_div]
    have e2 : ∀ (f : Fin n → ℝ) (x : ℝ), (∑ j, f j) * x = ∑ j, f j * x := by
      intro f x; rw [Finset.sum_mul]
    have e3 : ∀ (f : Fin n → ℝ) (x : ℝ), x * (∑ j, f j) = ∑ j, x * f j := by
      intro f x; rw [Finset.mul_sum]
    simp only [Fin.sum_univ_three]
    fin_cases a <;> simp <;>
      simp only [e, e2, e3, ← Finset.sum_add_distrib, ← Finset.sum_sub_distrib] <;>
      refine Finset.sum_congr rfl fun j _ => ?_ <;> field_simp <;> ring
  · simp [Ogden.dev, Ogden.storedEnergyDev, hone]
  · simp [Ogden.dev, DevFun.stresses]
    ext a
    rw [ogden_first_dev o (fun _ => one_pos)]
    simp [hone]

/-- C40. Ogden with total stretches and any number of parameters. -/
theorem ogden_total_derivatives {n : Nat} (o : Ogden n) (ha : ∀ i, o.alpha i ≠ 0)
    (l : Fin 3 → ℝ) (hl : ∀ a, 0 < l a) :
    IsGradient o.total l ∧ IsHessian o.total l ∧
    o.total.storedEnergy (fun _ => 1) = some 0 ∧ o.total.stresses (fun _ => 1) = some 0 := by
  have p0 := hl 0; have p1 := hl 1; have p2 := hl 2
  refine ⟨?_, ?_, ?_, ?_⟩
  · refine IsGradient.of_some o.storedEnergyTotal _ rfl fun p dp t hp hd => ⟨by simp [Ogden.total], ?_⟩
    have hlt : ∀ a, 0 < p t a := by rw [hp]; exact hl
    have hJ : p t 0 * p t 1 * p t 2 ≠ 0 := by rw [hp]; positivity
    have hlog := (((hd 0).mul (hd 1)).mul (hd 2)).log hJ
    have h1 : ∀ i, HasDerivAt
        (fun s => o.mu i / o.alpha i * (∑ a, p s a ^ o.alpha i - 3) - o.mu i * log (p s 0 * p s 1 * p s 2)) _ t :=
      fun i => (((HasDerivAt.fun_sum fun a _ =>
        (hd a).rpow_const (p := o.alpha i) (Or.inl (hlt a).ne')).sub_const 3).const_mul _).sub
          (hlog.const_mul _)
    have h2 := HasDerivAt.fun_sum (u := Finset.univ) fun i _ => h1 i
    refine h2.congr_deriv ?_
    simp only [hp, Fin.sum_univ_three, Ogden.firstDerivativeTotal, Pi.mul_apply]
    rw [Finset.sum_mul, Finset.sum_mul, Finset.sum_mul, ← Finset.sum_add_distrib, ← Finset.sum_add_distrib]
    refine Finset.sum_congr rfl fun i _ => ?_
    have := ha i
    rw [rpow_sub_one p0.ne', rpow_sub_one p1.ne', rpow_sub_one p2.ne']
    field_simp
    ring
  · refine IsHessian.of_some o.firstDerivativeTotal _ rfl rfl fun p dp t hp hd =>
      ⟨by simp [Ogden.total], fun a => ?_⟩
    have hlt : ∀ a, 0 < p t a := by rw [hp]; exact hl
    have pa := hl a
    have h1 : ∀ j, HasDerivAt (fun s => (o.mu j * (p s a ^ o.alpha j - 1)) / p s a) _ t := fun j =>
      ((((hd a).rpow_const (p := o.alpha j) (Or.inl (hlt a).ne')).sub_const 1).const_mul (o.mu j)).div
        (hd a) (hlt a).ne'
    have h2 := HasDerivAt.fun_sum (u := Finset.univ) fun i _ => h1 i
    refine h2.congr_deriv ?_
    have hs : ∑ b, o.secondDerivativeTotal l a b * dp b = o.secondDerivativeTotal l a a * dp a := by
      rw [Finset.sum_eq_single a]
      · intro b _ hb
        simp [Ogden.secondDerivativeTotal, Ne.symm hb]
      · intro h; exact absurd (Finset.mem_univ a) h
    rw [hs]
    simp only [hp, Ogden.firstDerivativeTotal, Ogden.secondDerivativeTotal, if_true]
    rw [Finset.sum_mul, Finset.sum_div, Finset.sum_mul, ← Finset.sum_add_distrib]
    refine Finset.sum_congr rfl fun j _ => ?_
    rw [rpow_sub_one pa.ne']
    field_simp
    ring
  · simp [Ogden.total, Ogden.storedEnergyTotal]
  · simp [Ogden.total, DevFun.stresses, Ogden.firstDerivativeTotal]
    rfl

/-- C40, full statement for the deviatoric Ogden function: the second derivative is defined for any number of
parameters. -/
def Spec.OgdenDevDefined : Prop := ∀ (n : Nat) (o : Ogden n) (l : Fin 3 → ℝ), (∀ a, 0 < l a) →
  (o.dev.secondDerivative l).isSome

/-- C40. That is false: more than three parameters lead to an access out of range, for all stretches, and so does the
evaluation of the tangent moduli; energy and stresses are defined. -/
theorem ogden_dev_more_than_three {n : Nat} (hn : 3 < n) (o : Ogden n) (l : Fin 3 → ℝ) (eps : ℝ) :
    o.dev.secondDerivative l = none ∧ o.dev.tangentModuli eps l = none ∧
    (o.dev.storedEnergy l).isSome ∧ (o.dev.stresses l).isSome := by
  have h : o.dev.secondDerivative l = none := if_neg (by omega)
  refine ⟨h, ?_, rfl, rfl⟩
  unfold DevFun.tangentModuli
  rw [h]
  cases o.dev.stresses l <;> rfl

/-- C40. The deviatoric second derivative is not defined for every number of parameters. -/
theorem ogden_dev_not_defined : ¬ OgdenDevDefined := by
  intro h
  have := h 4 ⟨fun _ => 1, fun _ => 2⟩ (fun _ => 1) (fun _ => one_pos)
  rw [(ogden_dev_more_than_three (by omega) _ _ 0).1] at this
  simp at this

/-! ### Functions of the invariants -/

open DeviatoricInvariants

theorem W1_one : W1 (fun _ => 1) = 3 := by simp [W1, invariants, determinantFromPrincipalValues]; norm_num
theorem W2_one : W2 (fun _ => 1) = 3 := by simp [W2, invariants, determinantFromPrincipalValues]; norm_num
theorem dW1_one (a : Fin 3) : dW1 (fun _ => 1) a = 0 := by simp [dW1, invariants]; norm_num
theorem dW2_one (a : Fin 3) : dW2 (fun _ => 1) a = 0 := by
  simp [dW2, invariants, determinantFromPrincipalValues]; norm_num

theorem checkJm_iff (g : Gent) {eps x : ℝ} :
    g.checkJm eps x = some () ↔ ¬ floatCmpLe eps g.Jm (x - 3) := by
  unfold Gent.checkJm
  split <;> simp_all

theorem floatCmpLe_closed {f g : ℝ → ℝ} {eps t : ℝ} (hf : ContinuousAt f t) (hg : ContinuousAt g t)
    (he : 0 ≤ eps) (h : ¬ floatCmpLe eps (f t) (g t)) : ∀ᶠ s in nhds t, ¬ floatCmpLe eps (f s) (g s) := by
  unfold floatCmpLe floatCmpEq at *
  push Not at h ⊢
  obtain ⟨h1, h2⟩ := h
  have hlt : g t < f t := by
    rcases lt_or_eq_of_le h1 with h' | h'
    · exact h'
    · rw [h'] at h2
      simp at h2
      exact absurd h2 (by have := mul_nonneg he (abs_nonneg (f t)); linarith)
  have e1 : ∀ᶠ s in nhds t, g s < f s := hg.eventually_lt hf hlt
  have e2 : ∀ᶠ s in nhds t, eps * max |f s| |g s| < |f s - g s| :=
    ContinuousAt.eventually_lt (by fun_prop) (by fun_prop) h2
  filter_upwards [e1, e2] with s s1 s2
  exact ⟨s1.le, s2⟩

/-- C40. Gent: the functions are defined exactly as long as the check of `Jm` passes, in particular in the undeformed
state, and where they are defined the derivatives are right. -/
theorem gent_derivatives (g : Gent) (eps : ℝ) (he : 0 ≤ eps) (hJm : 0 < g.Jm) (l : Fin 3 → ℝ)
    (hl : ∀ a, 0 < l a) :
    ((g.dev eps).storedEnergy l).isSome = ((g.dev eps).firstDerivative l).isSome ∧
    ((g.dev eps).secondDerivative l).isSome = ((g.dev eps).firstDerivative l).isSome ∧
    (((g.dev eps).storedEnergy l).isSome → W1 l < g.Jm + 3 ∧ IsGradient (g.dev eps) l ∧ IsHessian (g.dev eps) l) ∧
    (((g.dev eps).storedEnergy l) = none → g.Jm ≤ W1 l - 3 + eps * max |g.Jm| |W1 l - 3|) ∧
    (eps < 1 → (g.dev eps).storedEnergy (fun _ => 1) = some 0 ∧
      (g.dev eps).stresses (fun _ => 1) = some 0) := by
  refine ⟨?_, ?_, ?_, ?_, ?_⟩
  · simp only [Gent.dev]
    cases g.checkJm eps (W1 l) <;> rfl
  · simp only [Gent.dev]
    cases g.checkJm eps (W1 l) <;> rfl
  · intro hs
    have hck : g.checkJm eps (W1 l) = some () := by
      cases h : g.checkJm eps (W1 l) with
      | none => simp [Gent.dev, h] at hs
      | some u => rfl
    have hnl := (checkJm_iff g).mp hck
    have hlt : W1 l < g.Jm + 3 := by
      unfold floatCmpLe floatCmpEq at hnl
      push Not at hnl
      rcases lt_or_eq_of_le hnl.1 with h' | h'
      · linarith
      · have := hnl.2
        rw [h'] at this
        simp at this
        exact absurd this (by have := mul_nonneg he (abs_nonneg g.Jm); linarith)
    have hev : ∀ (p : ℝ → Fin 3 → ℝ) (dp : Fin 3 → ℝ) (t : ℝ), p t = l → HasVecDeriv p dp t →
        ∀ᶠ s in nhds t, g.checkJm eps (W1 (p s)) = some () := by
      intro p dp t hp hd
      have hc := (hd.W1 (by rw [hp]; exact hl)).continuousAt
      have := floatCmpLe_closed (f := fun _ => g.Jm) (g := fun s => W1 (p s) - 3) continuousAt_const
        (hc.sub continuousAt_const) he (by simp only [hp]; exact hnl)
      filter_upwards [this] with s hs
      exact (checkJm_iff g).mpr hs
    have f1 : 0 < 1 - (W1 l - 3) / g.Jm := by
      rw [sub_pos, div_lt_one hJm]; linarith
    have f2 : 0 < 2 * (g.Jm - W1 l) + 6 := by linarith
    refine ⟨hlt, ?_, ?_⟩
    · refine IsGradient.of_some (fun l => -(g.mu / 2) * g.Jm * log (1 - (W1 l - 3) / g.Jm)) _
        (by simp only [Gent.dev, hck, Option.bind_eq_bind, Option.bind_some]; rfl) fun p dp t hp hd => ⟨?_, ?_⟩
      · filter_upwards [hev p dp t hp hd] with s hs
        simp only [Gent.dev, hs, Option.bind_eq_bind, Option.bind_some]; rfl
      · have hw := hd.W1 (by rw [hp]; exact hl)
        have h1 := ((((hw.sub_const 3).div_const g.Jm).const_sub 1).log
          (by rw [hp]; exact f1.ne')).const_mul (-(g.mu / 2) * g.Jm)
        refine h1.congr_deriv ?_
        rw [hp]
        have e : 1 - (W1 l - 3) / g.Jm = (2 * (g.Jm - W1 l) + 6) / (2 * g.Jm) := by field_simp; ring
        rw [e]
        simp only [Fin.sum_univ_three]
        generalize 2 * (g.Jm - W1 l) + 6 = x at *
        field_simp
    · refine IsHessian.of_some (fun l a => (g.mu * dW1 l a * g.Jm) / (2 * (g.Jm - W1 l) + 6)) _
        (by simp only [Gent.dev, hck, Option.bind_eq_bind, Option.bind_some]; rfl)
        (by simp only [Gent.dev, hck, Option.bind_eq_bind, Option.bind_some]; rfl)
        fun p dp t hp hd => ⟨?_, fun a => ?_⟩
      · filter_upwards [hev p dp t hp hd] with s hs
        simp only [Gent.dev, hs, Option.bind_eq_bind, Option.bind_some]; rfl
      · have hpos : ∀ a, 0 < p t a := by rw [hp]; exact hl
        have pa := hl a
        have hw := hd.W1 hpos
        have hdw := hd.dW1 hpos a
        have h1 := ((hdw.const_mul g.mu).mul_const g.Jm).div
          (((hw.const_sub g.Jm).const_mul 2).add_const 6) (by rw [hp]; exact f2.ne')
        refine h1.congr_deriv ?_
        rw [hp]
        have e : 1 - (W1 l - 3) / g.Jm = (2 * (g.Jm - W1 l) + 6) / (2 * g.Jm) := by field_simp; ring
        rw [e]
        simp only [Fin.sum_univ_three]
        generalize 2 * (g.Jm - W1 l) + 6 = x at *
        fin_cases a <;> simp <;> field_simp <;> ring
  · intro hn
    have : ¬ g.checkJm eps (W1 l) = some () := by
      intro h; simp [Gent.dev, h] at hn
    rw [checkJm_iff, not_not] at this
    rcases this with h | h
    · have : 0 ≤ eps * max |g.Jm| |W1 l - 3| := mul_nonneg he (le_max_of_le_left (abs_nonneg _))
      linarith
    · have := (abs_le.mp h).2
      linarith
  · intro he1
    have hck : g.checkJm eps 3 = some () := by
      rw [checkJm_iff, sub_self]
      unfold floatCmpLe floatCmpEq
      push Not
      refine ⟨hJm.le, ?_⟩
      rw [abs_zero, max_eq_left (abs_nonneg _), sub_zero, abs_of_pos hJm]
      nlinarith
    constructor
    · simp only [Gent.dev, W1_one, hck, Option.bind_eq_bind, Option.bind_some]
      simp
    · simp only [DevFun.stresses, Gent.dev, W1_one, dW1_one, hck, Option.bind_eq_bind, Option.bind_some]
      simp
      rfl

/-- C40. Arruda-Boyce. -/
theorem arrudaBoyce_derivatives (b : ArrudaBoyce) (l : Fin 3 → ℝ) (hl : ∀ a, 0 < l a) :
    IsGradient b.dev l ∧ IsHessian b.dev l ∧
    b.dev.storedEnergy (fun _ => 1) = some 0 ∧ b.dev.stresses (fun _ => 1) = some 0 := by
  have hW : 0 < W1 l := by
    have p0 := hl 0; have p1 := hl 1; have p2 := hl 2
    have := inv2_pos hl
    unfold W1
    rw [inv0]
    positivity
  refine ⟨?_, ?_, ?_, ?_⟩
  · refine IsGradient.of_some (fun l => (∑ i : Fin 5, ArrudaBoyce.alphas i * b.beta ^ (i : ℕ) *
      (W1 l ^ ((i : ℕ) + 1) - 3 ^ ((i : ℕ) + 1))) * b.mu) _ rfl fun p dp t hp hd => ⟨by simp [ArrudaBoyce.dev], ?_⟩
    have hw := hd.W1 (by rw [hp]; exact hl)
    have h1 : ∀ i : Fin 5, HasDerivAt (fun s => ArrudaBoyce.alphas i * b.beta ^ (i : ℕ) *
      (W1 (p s) ^ ((i : ℕ) + 1) - 3 ^ ((i : ℕ) + 1))) _ t := fun i =>
        ((hw.pow ((i : ℕ) + 1)).sub_const _).const_mul _
    refine ((HasDerivAt.fun_sum (u := Finset.univ) fun i _ => h1 i).mul_const b.mu).congr_deriv ?_
    rw [hp]
    simp only [Fin.sum_univ_three, Finset.sum_mul, ← Finset.sum_add_distrib]
    refine Finset.sum_congr rfl fun i _ => ?_
    simp
    ring
  · refine IsHessian.of_some (fun l k => ∑ j : Fin 5, b.mu * ArrudaBoyce.alphas j * b.beta ^ (j : ℕ) *
      W1 l ^ (j : ℕ) * dW1 l k * ((j : ℕ) + 1)) _ rfl rfl fun p dp t hp hd =>
        ⟨by simp [ArrudaBoyce.dev], fun a => ?_⟩
    have hpos : ∀ a, 0 < p t a := by rw [hp]; exact hl
    have pa := hl a
    have hw := hd.W1 hpos
    have hdw := hd.dW1 hpos a
    have h1 : ∀ j : Fin 5, HasDerivAt (fun s => b.mu * ArrudaBoyce.alphas j * b.beta ^ (j : ℕ) *
      W1 (p s) ^ (j : ℕ) * dW1 (p s) a * ((j : ℕ) + 1)) _ t := fun j =>
        (((hw.pow (j : ℕ)).const_mul _).mul hdw).mul_const _
    refine (HasDerivAt.fun_sum (u := Finset.univ) fun i _ => h1 i).congr_deriv ?_
    rw [hp]
    simp only [Fin.sum_univ_three, Finset.sum_mul, Finset.sum_div, ← Finset.sum_add_distrib]
    refine Finset.sum_congr rfl fun j _ => ?_
    have hz : ((j : ℕ) : ℝ) * W1 l ^ ((j : ℕ) - 1) = (j : ℕ) * W1 l ^ (((j : ℕ) : ℤ) - 1) := by
      rcases Nat.eq_zero_or_pos (j : ℕ) with h0 | h0
      · rw [h0]; simp
      · rw [← zpow_natCast, Nat.cast_sub (by omega)]; rfl
    simp only [Pi.pow_apply, hp]
    rw [hz]
    generalize W1 l ^ (((j : ℕ) : ℤ) - 1) = z
    fin_cases a <;> simp <;> field_simp <;> ring
  · simp [ArrudaBoyce.dev, W1_one]
  · simp [DevFun.stresses, ArrudaBoyce.dev, dW1_one]
    rfl

theorem powerAndMultiply_first (eps x : ℝ) (p : ℕ) :
    InvariantBased.powerAndMultiply eps x (p - 1) p = some (p * x ^ (p - 1)) := by
  unfold InvariantBased.powerAndMultiply
  rcases p with _ | _ | p
  · simp
  · simp
  · have h1 : ¬ (((p + 1 + 1 : ℕ) : ℤ) = 0) := by omega
    have h2 : ¬ (((p + 1 + 1 : ℕ) : ℤ) - 1 = 0) := by omega
    have h3 : ¬ (|x| < eps ∧ ((p + 1 + 1 : ℕ) : ℤ) - 1 < 0) := by rintro ⟨-, h⟩; omega
    rw [if_neg h1, if_neg h2, if_neg h3]
    have : ((p + 1 + 1 : ℕ) : ℤ) - 1 = ((p + 1 : ℕ) : ℤ) := by push_cast; ring
    rw [this, zpow_natCast]
    simp
    ring

theorem powerAndMultiply_second (eps x : ℝ) (p : ℕ) :
    InvariantBased.powerAndMultiply eps x (p - 2) (p * (p - 1)) =
      some (p * (((p - 1 : ℕ) : ℝ) * x ^ (p - 1 - 1))) := by
  unfold InvariantBased.powerAndMultiply
  rcases p with _ | _ | _ | p
  · simp
  · simp
  · norm_num
  · have h1 : ¬ (((p + 1 + 1 + 1 : ℕ) : ℤ) * (((p + 1 + 1 + 1 : ℕ) : ℤ) - 1) = 0) := by
      rw [mul_eq_zero]; omega
    have h2 : ¬ (((p + 1 + 1 + 1 : ℕ) : ℤ) - 2 = 0) := by omega
    have h3 : ¬ (|x| < eps ∧ ((p + 1 + 1 + 1 : ℕ) : ℤ) - 2 < 0) := by rintro ⟨-, h⟩; omega
    rw [if_neg h1, if_neg h2, if_neg h3]
    have : ((p + 1 + 1 + 1 : ℕ) : ℤ) - 2 = ((p + 1 : ℕ) : ℤ) := by push_cast; ring
    rw [this, zpow_natCast]
    simp
    ring

/-- The assertion of `powerAndMultiply` never fails: the derivatives of invariant based functions are defined for all
stretches, also in the undeformed state, where the invariants `W1 - 3` and `W2 - 3` vanish. -/
theorem optSum_some {n : Nat} {A : Type} [AddCommMonoid A] (f : Fin n → A) :
    InvariantBased.optSum (fun p => some (f p)) = some (∑ p, f p) := by
  unfold InvariantBased.optSum
  rw [if_pos (by simp)]
  simp

namespace InvariantBased

variable {n : Nat} (v : InvariantBased n)

/-- The first derivative of a term. -/
noncomputable def first (l : Fin 3 → ℝ) (p : Fin n) : Fin 3 → ℝ := fun k => v.mat p *
  (((v.pex p : ℝ) * (W1 l - 3) ^ (v.pex p - 1)) * (W2 l - 3) ^ v.qex p * dW1 l k +
    (W1 l - 3) ^ v.pex p * ((v.qex p : ℝ) * (W2 l - 3) ^ (v.qex p - 1)) * dW2 l k)

/-- The second derivative of a term. -/
noncomputable def second (l : Fin 3 → ℝ) (p : Fin n) : Matrix (Fin 3) (Fin 3) ℝ := fun i j =>
    (((v.qex p : ℝ) * (W2 l - 3) ^ (v.qex p - 1)) * (dW1 l i * dW2 l j + dW1 l j * dW2 l i) +
      (W2 l - 3) ^ v.qex p * ddW1 l i j) * ((v.pex p : ℝ) * (W1 l - 3) ^ (v.pex p - 1)) * v.mat p +
    ((v.qex p : ℝ) * (W2 l - 3) ^ (v.qex p - 1)) * ddW2 l i j * (W1 l - 3) ^ v.pex p * v.mat p +
    ((v.pex p : ℝ) * (((v.pex p - 1 : ℕ) : ℝ) * (W1 l - 3) ^ (v.pex p - 1 - 1))) * (W2 l - 3) ^ v.qex p *
      dW1 l i * dW1 l j * v.mat p +
    ((v.qex p : ℝ) * (((v.qex p - 1 : ℕ) : ℝ) * (W2 l - 3) ^ (v.qex p - 1 - 1))) * (W1 l - 3) ^ v.pex p *
      dW2 l i * dW2 l j * v.mat p -
    (if i = j then 1 / l i * v.first l p i else 0)

theorem first_eq (eps : ℝ) (l : Fin 3 → ℝ) : (v.dev eps).firstDerivative l = some (∑ p, v.first l p) := by
  simp only [InvariantBased.dev]
  rw [← optSum_some]
  congr 1
  ext1 p
  simp only [InvariantBased.firstTerm, powerAndMultiply_first, Option.bind_eq_bind, Option.bind_some]
  rfl

theorem second_eq (eps : ℝ) (l : Fin 3 → ℝ) : (v.dev eps).secondDerivative l = some (∑ p, v.second l p) := by
  simp only [InvariantBased.dev]
  rw [← optSum_some]
  congr 1
  ext1 p
  simp only [InvariantBased.secondTerm, powerAndMultiply_first, powerAndMultiply_second, Option.bind_eq_bind,
    Option.bind_some]
  rfl

end InvariantBased

/-- C40. Invariant based functions (Mooney-Rivlin, Yeoh, ...), for any number of terms and any exponents that the
constructor accepts. -/
theorem invariantBased_derivatives {n : Nat} (pex qex : Fin n → ℕ) (mat : Fin n → ℝ) (v : InvariantBased n)
    (hv : InvariantBased.construct pex qex mat = some v) (eps : ℝ) (l : Fin 3 → ℝ) (hl : ∀ a, 0 < l a) :
    IsGradient (v.dev eps) l ∧ IsHessian (v.dev eps) l ∧
    (v.dev eps).storedEnergy (fun _ => 1) = some 0 ∧ (v.dev eps).stresses (fun _ => 1) = some 0 := by
  have hex : ∀ i, ¬ (v.pex i = 0 ∧ v.qex i = 0) := by
    unfold InvariantBased.construct at hv
    split at hv
    · exact absurd hv (by simp)
    · rename_i h
      rw [← Option.some.inj hv]
      exact fun i hi => h ⟨i, hi⟩
  refine ⟨?_, ?_, ?_, ?_⟩
  · refine IsGradient.of_some (fun l => ∑ i, v.mat i * (W1 l - 3) ^ v.pex i * (W2 l - 3) ^ v.qex i) _
      (v.first_eq eps l) fun p dp t hp hd => ⟨by simp [InvariantBased.dev], ?_⟩
    have hpos : ∀ a, 0 < p t a := by rw [hp]; exact hl
    have h1 := (hd.W1 hpos).sub_const 3
    have h2 := (hd.W2 hpos).sub_const 3
    have h3 : ∀ i, HasDerivAt
        (fun s => v.mat i * (W1 (p s) - 3) ^ v.pex i * (W2 (p s) - 3) ^ v.qex i) _ t := fun i =>
      ((h1.pow (v.pex i)).const_mul (v.mat i)).mul (h2.pow (v.qex i))
    refine (HasDerivAt.fun_sum (u := Finset.univ) fun i _ => h3 i).congr_deriv ?_
    simp only [Finset.sum_apply, Fin.sum_univ_three, Finset.sum_mul, ← Finset.sum_add_distrib, hp]
    refine Finset.sum_congr rfl fun i _ => ?_
    simp only [InvariantBased.first, Pi.pow_apply, hp]
    ring
  · refine IsHessian.of_some (fun l => ∑ i, v.first l i) _ (v.first_eq eps l) (v.second_eq eps l)
      fun p dp t hp hd => ⟨by simp [v.first_eq eps], fun a => ?_⟩
    have hpos : ∀ a, 0 < p t a := by rw [hp]; exact hl
    have pa := hl a
    have h1 := (hd.W1 hpos).sub_const 3
    have h2 := (hd.W2 hpos).sub_const 3
    have hd1 := hd.dW1 hpos a
    have hd2 := hd.dW2 hpos a
    have h3 : ∀ i, HasDerivAt (fun s => v.first (p s) i a) _ t := fun i =>
      (((((h1.pow (v.pex i - 1)).const_mul (v.pex i : ℝ)).mul (h2.pow (v.qex i))).mul hd1).add
        (((h1.pow (v.pex i)).mul ((h2.pow (v.qex i - 1)).const_mul (v.qex i : ℝ))).mul hd2)).const_mul (v.mat i)
    have hfs : (fun s => (∑ i, v.first (p s) i) a) = fun s => ∑ i, v.first (p s) i a := by
      ext s; rw [Finset.sum_apply]
    rw [hfs]
    refine (HasDerivAt.fun_sum (u := Finset.univ) fun i _ => h3 i).congr_deriv ?_
    have hsum : ∀ b, (∑ i, v.second l i) a b = ∑ i, v.second l i a b := by
      intro b
      rw [Matrix.sum_apply]
    simp only [hsum, Finset.sum_apply, Fin.sum_univ_three, Finset.sum_mul, Finset.sum_div,
      ← Finset.sum_add_distrib]
    refine Finset.sum_congr rfl fun i _ => ?_
    simp only [InvariantBased.second, InvariantBased.first, Pi.pow_apply, Pi.mul_apply, hp]
    fin_cases a <;> simp <;> field_simp <;> ring
  · simp only [InvariantBased.dev, W1_one, W2_one, sub_self, Option.some.injEq]
    refine Finset.sum_eq_zero fun i _ => ?_
    rcases Nat.eq_zero_or_pos (v.pex i) with h | h
    · have : v.qex i ≠ 0 := fun h' => hex i ⟨h, h'⟩
      simp [this]
    · have : v.pex i ≠ 0 := by omega
      simp [this]
  · simp only [DevFun.stresses, v.first_eq eps, Option.bind_eq_bind, Option.bind_some]
    simp only [pure, Option.some.injEq]
    ext a
    simp [Finset.sum_apply, InvariantBased.first, dW1_one, dW2_one]

/-! ### The hypotheses can be met -/

/-- A path of positive stretches. -/
example : HasVecDeriv (fun s => ![1 + s, 2, 3 - s]) ![1, 0, -1] 0 ∧ ∀ a, (0 : ℝ) < ![1 + 0, 2, 3 - 0] a := by
  constructor
  · intro a
    fin_cases a
    · simpa using (hasDerivAt_id (0 : ℝ)).const_add 1
    · simpa using hasDerivAt_const (0 : ℝ) (2 : ℝ)
    · simpa using (hasDerivAt_id (0 : ℝ)).const_sub 3
  · intro a; fin_cases a <;> norm_num

/-- Mooney-Rivlin (hyperelastic/factory.hh:105-112). -/
example : (InvariantBased.construct ![1, 0] ![0, 1] ![3, 4]).isSome := by
  unfold InvariantBased.construct
  rw [if_neg]
  · rfl
  · rintro ⟨i, hi⟩
    fin_cases i <;> simp at hi

/-- Gent at a stretched state. -/
example : 0 < (Gent.mk 1 10).Jm ∧ (((Gent.mk 1 10).dev 0).storedEnergy fun _ => 1).isSome := by
  refine ⟨by norm_num, ?_⟩
  rw [((gent_derivatives ⟨1, 10⟩ 0 le_rfl (by norm_num) (fun _ => 1) (fun _ => one_pos)).2.2.2.2 (by norm_num)).1]
  rfl

end Ikarus
