import Verif.Control.StrategyModel
import Mathlib.Analysis.InnerProductSpace.Calculus
import Mathlib.Analysis.SpecialFunctions.Sqrt
import Mathlib.Analysis.Calculus.Deriv.Basic
import Mathlib.Analysis.Calculus.Deriv.Add
import Mathlib.Analysis.Calculus.Deriv.Mul
import Mathlib.Analysis.Calculus.Deriv.Pow
import Mathlib.Tactic.Linarith
import Mathlib.Tactic.Positivity
import Mathlib.Tactic.FieldSimp
import Mathlib.Tactic.NormNum

/-!
C24, C25, C62: step size adaption and path following functions.
-/

namespace Ikarus

noncomputable section

/-! ### Step size adaption -/

/-- C24. With a positive target the step size is multiplied by `sqrt (target / previous)` if more
than `target` iterations were used in a step other than the first, and unchanged otherwise; there is
no exception. -/
theorem iterationBased_eq (target : Int) (ht : 0 < target) (currentStep : Nat) (prev : Int)
    (stepSize : ℝ) :
    iterationBased target currentStep prev stepSize = some (some
      (if currentStep ≠ 0 ∧ target < prev then Real.sqrt ((target : ℝ) / prev) * stepSize
        else stepSize)) := by
  unfold iterationBased
  by_cases hc : currentStep = 0
  · simp [hc]
  · rw [if_neg hc, if_neg (by omega)]
    by_cases hp : target < prev
    · have hp' : (0 : ℝ) < prev := by
        have : (0 : Int) < prev := by omega
        exact_mod_cast this
      have ht' : (0 : ℝ) < target := by exact_mod_cast ht
      rw [if_pos hp]
      have hq : ¬ ((target : ℝ) / prev < 0) := not_lt.2 (div_pos ht' hp').le
      simp [div?, hp'.ne', sqrt?, hq, hc, hp]
    · rw [if_neg (by omega)]
      simp [hp]

/-- Step sizes of a run: the adaption is applied for every step of a history of step numbers and
iteration counts. -/
def stepSizes (target : Int) : List (Nat × Int) → ℝ → Option (Option ℝ)
  | [], s => some (some s)
  | (k, i) :: h, s =>
    match iterationBased target k i s with
    | none => none
    | some none => some none
    | some (some s) => stepSizes target h s

/-- C24. Over every history a positive step size stays positive and never grows, and no exception
occurs. -/
theorem stepSizes_positive (target : Int) (ht : 0 < target) (h : List (Nat × Int)) (s : ℝ)
    (hs : 0 < s) : ∃ s', stepSizes target h s = some (some s') ∧ 0 < s' ∧ s' ≤ s := by
  induction h generalizing s with
  | nil => exact ⟨s, rfl, hs, le_rfl⟩
  | cons e h ih =>
    obtain ⟨k, i⟩ := e
    simp only [stepSizes, iterationBased_eq target ht]
    by_cases hc : k ≠ 0 ∧ target < i
    · rw [if_pos hc]
      have hi' : (0 : ℝ) < i := by
        have : (0 : Int) < i := by omega
        exact_mod_cast this
      have ht' : (0 : ℝ) < target := by exact_mod_cast ht
      have h1 : 0 < Real.sqrt ((target : ℝ) / i) := Real.sqrt_pos.2 (div_pos ht' hi')
      have h2 : Real.sqrt ((target : ℝ) / i) ≤ 1 := by
        refine Real.sqrt_le_one.2 ?_
        rw [div_le_one hi']
        exact_mod_cast hc.2.le
      obtain ⟨s', e1, e2, e3⟩ := ih (Real.sqrt ((target : ℝ) / i) * s) (mul_pos h1 hs)
      exact ⟨s', e1, e2, e3.trans (by nlinarith)⟩
    · rw [if_neg hc]
      exact ih s hs

example := stepSizes_positive 4 (by norm_num) [(1, 16), (2, 3), (3, 16)] 8 (by norm_num)

/-- C24. A zero target is rejected by the setter, and by the adaption in every step but the
first. -/
theorem iterationBased_zero_target (currentStep : Nat) (hc : currentStep ≠ 0) (prev : Int)
    (stepSize : ℝ) : setTargetIterations 0 = none ∧
      iterationBased 0 currentStep prev stepSize = none := by
  refine ⟨by simp [setTargetIterations], ?_⟩
  unfold iterationBased
  rw [if_neg hc, if_pos rfl]

example := iterationBased_zero_target 3 (by norm_num) 7 2

/-- C24, negative targets are accepted by the setter; with them the step size is not a number after
the first adaption. -/
theorem iterationBased_negative_target (target : Int) (ht : target < 0) (currentStep : Nat)
    (hc : currentStep ≠ 0) (prev : Int) (hp : 0 ≤ prev) (stepSize : ℝ) :
    setTargetIterations target = some target ∧
      iterationBased target currentStep prev stepSize = some none := by
  refine ⟨by simp [setTargetIterations]; omega, ?_⟩
  unfold iterationBased
  rw [if_neg hc, if_neg (by omega), if_pos (by omega)]
  by_cases h0 : prev = 0
  · simp [div?, h0]
  · have hp' : (0 : ℝ) < prev := by
      have : (0 : Int) < prev := by omega
      exact_mod_cast this
    have ht' : (target : ℝ) < 0 := by exact_mod_cast ht
    have : (target : ℝ) / prev < 0 := div_neg_of_neg_of_pos ht' hp'
    simp [div?, hp'.ne', sqrt?, this]

example : stepSizes 4 [(1, 16), (2, 3), (3, 16)] 8 = some (some 2) := by
  have h : Real.sqrt ((4 : ℝ) / 16) = 1 / 2 := by
    rw [show (4 : ℝ) / 16 = (1 / 2) ^ 2 by norm_num, Real.sqrt_sq (by norm_num)]
  simp only [stepSizes, iterationBased_eq 4 (by decide)]
  rw [show ((4 : Int) : ℝ) / ((16 : Int) : ℝ) = 4 / 16 by norm_num, h]
  norm_num

/-! ### Path following functions -/

section
variable {V : Type} [NormedAddCommGroup V] [InnerProductSpace ℝ V]

/-- The arc-length constraint as a function of the increments: prescribed displacements are
`Dlambda * Dhat0`. -/
def Spec.arcLength (psi stepSize : ℝ) (Dhat0 DD : V) (Dlambda : ℝ) : ℝ :=
  Real.sqrt (‖DD‖ ^ 2 + ‖Dlambda • Dhat0‖ ^ 2 + psi ^ 2 * Dlambda ^ 2) - stepSize

/-- C25. The value of the arc-length function is the arc-length constraint, and the derivatives it
reports after the initial prediction are the derivatives of that constraint with respect to both
increments (prescribed displacements proportional to the load factor). -/
theorem arcLength_derivatives (p : ArcLength) (hp : p.computedInitialPredictor = true) (Dhat0 : V)
    (a : SubsidiaryArgs ℝ V) (hl : a.Dlambda ≠ 0)
    (hroot : ‖a.DD‖ ^ 2 + ‖a.Dlambda • Dhat0‖ ^ 2 + p.psi ^ 2 * a.Dlambda ^ 2 ≠ 0) :
    ∃ g b, p.op (fun l => l • Dhat0) a
        = (Spec.arcLength p.psi a.stepSize Dhat0 a.DD a.Dlambda, some g, some b) ∧
      HasFDerivAt (fun y : V × ℝ => Spec.arcLength p.psi a.stepSize Dhat0 y.1 y.2)
        ((innerSL ℝ g).comp (ContinuousLinearMap.fst ℝ V ℝ)
          + b • ContinuousLinearMap.snd ℝ V ℝ) (a.DD, a.Dlambda) := by
  set u : ℝ := ‖a.DD‖ ^ 2 + ‖a.Dlambda • Dhat0‖ ^ 2 + p.psi ^ 2 * a.Dlambda ^ 2 with hu
  have hupos : 0 < u := by
    have : 0 ≤ u := by positivity
    exact lt_of_le_of_ne this (Ne.symm hroot)
  have hs : Real.sqrt u ≠ 0 := (Real.sqrt_pos.2 hupos).ne'
  have hu' : ‖a.DD‖ ^ 2 + ‖a.Dlambda • Dhat0‖ ^ 2 + p.psi * p.psi * a.Dlambda * a.Dlambda = u := by
    rw [hu]; ring
  refine ⟨(Real.sqrt u)⁻¹ • a.DD,
    ((inner ℝ Dhat0 Dhat0 + p.psi * p.psi) * a.Dlambda) / Real.sqrt u, ?_, ?_⟩
  · unfold ArcLength.op
    simp only [hu', hp, Bool.true_eq_false, if_false, hs, hl, Option.bind_some,
      smul_smul, inv_mul_cancel₀ hl, one_smul, div?]
    rfl
  · unfold Spec.arcLength
    have h1 : HasFDerivAt (fun y : V × ℝ => ‖y.1‖ ^ 2)
        ((2 : ℝ) • (innerSL ℝ a.DD).comp (ContinuousLinearMap.fst ℝ V ℝ)) (a.DD, a.Dlambda) := by
      have := (hasStrictFDerivAt_norm_sq (a.DD)).hasFDerivAt.comp (a.DD, a.Dlambda)
        (hasFDerivAt_fst (𝕜 := ℝ) (E := V) (F := ℝ) (p := (a.DD, a.Dlambda)))
      refine this.congr_fderiv ?_
      ext y <;> simp
    have h2 : HasFDerivAt (fun y : V × ℝ => ‖Dhat0‖ ^ 2 * y.2 ^ 2 + p.psi ^ 2 * y.2 ^ 2)
        ((2 * (‖Dhat0‖ ^ 2 + p.psi ^ 2) * a.Dlambda) • ContinuousLinearMap.snd ℝ V ℝ)
        (a.DD, a.Dlambda) := by
      have hd : HasDerivAt (fun t : ℝ => ‖Dhat0‖ ^ 2 * t ^ 2 + p.psi ^ 2 * t ^ 2)
          (2 * (‖Dhat0‖ ^ 2 + p.psi ^ 2) * a.Dlambda) a.Dlambda := by
        have := ((hasDerivAt_pow 2 a.Dlambda).const_mul (‖Dhat0‖ ^ 2)).add
          ((hasDerivAt_pow 2 a.Dlambda).const_mul (p.psi ^ 2))
        refine this.congr_deriv ?_
        push_cast; ring
      have := hd.comp_hasFDerivAt (a.DD, a.Dlambda)
        (hasFDerivAt_snd (𝕜 := ℝ) (E := V) (F := ℝ) (p := (a.DD, a.Dlambda)))
      exact this
    have h3 := h1.add h2
    have h4 : HasFDerivAt (fun y : V × ℝ =>
        ‖y.1‖ ^ 2 + ‖y.2 • Dhat0‖ ^ 2 + p.psi ^ 2 * y.2 ^ 2)
        ((2 : ℝ) • (innerSL ℝ a.DD).comp (ContinuousLinearMap.fst ℝ V ℝ)
          + (2 * (‖Dhat0‖ ^ 2 + p.psi ^ 2) * a.Dlambda) • ContinuousLinearMap.snd ℝ V ℝ)
        (a.DD, a.Dlambda) := by
      refine h3.congr_of_eventuallyEq (Filter.Eventually.of_forall fun y => ?_)
      simp only [Pi.add_apply, norm_smul, mul_pow, Real.norm_eq_abs, sq_abs]
      ring
    have h5 := h4.sqrt hroot
    have h6 := h5.sub_const a.stepSize
    refine h6.congr_fderiv ?_
    ext y
    · simp [innerSL_apply_apply, ← hu]
      field_simp
    · simp [← hu]
      field_simp

/-- Before the correction of a step of length five, with prescribed displacements. -/
example := arcLength_derivatives ⟨2, true⟩ rfl (1 : ℝ) ⟨5, 3, 4, 0, none, none, 0⟩ (by norm_num) (by norm_num)

/-- C25. Before the initial prediction the reported derivatives of the arc-length function are
zero, which are not the derivatives of its value. -/
theorem arcLength_derivatives_before (p : ArcLength) (hp : p.computedInitialPredictor = false)
    (idbc : ℝ → V) (a : SubsidiaryArgs ℝ V) :
    (p.op idbc a).2 = (some 0, some 0) := by
  unfold ArcLength.op
  simp [hp]

example := arcLength_derivatives_before ArcLength.fresh rfl (fun _ => (0 : ℝ)) ⟨5, 3, 4, 0, none, none, 0⟩

/-- C25. The initial arc-length prediction satisfies the arc-length constraint for every positive
step size, its increments are the solution of the linear system scaled by the increment of the load
factor, and the increments are proportional to the step size. -/
theorem arcLength_initialPrediction (residual : ℝ → V → V) (linSolve : ℝ → V → V → V) (Dhat0 : V)
    (idbcForce sync : ℝ → V → V) (d : Dom ℝ V) (a : SubsidiaryArgs ℝ V) (hs : 0 < a.stepSize)
    (D : V) (hD : D = linSolve 1 d.x (-(residual 1 d.x + idbcForce 1 d.x)))
    (hne : D ≠ 0 ∨ Dhat0 ≠ 0) :
    ∃ p' d' a', ArcLength.initialPrediction residual linSolve (fun l => l • Dhat0) idbcForce sync d a
        = some (p', d', a') ∧
      (p'.op (fun l => l • Dhat0) a').1 = 0 ∧
      a'.DD = a'.Dlambda • D ∧
      a'.Dlambda = a.stepSize / Real.sqrt (2 * (‖D‖ ^ 2 + ‖Dhat0‖ ^ 2)) ∧
      0 < a'.Dlambda ∧ a'.stepSize = a.stepSize ∧
      p'.psi = Real.sqrt (‖D‖ ^ 2 + ‖Dhat0‖ ^ 2) ∧ p'.computedInitialPredictor = true ∧
      d'.lam = a'.Dlambda ∧ d'.x = sync a'.Dlambda (d.x + a'.DD) := by
  have hq : 0 < ‖D‖ ^ 2 + ‖Dhat0‖ ^ 2 := by
    rcases hne with h | h
    · have := norm_pos_iff.2 h; positivity
    · have := norm_pos_iff.2 h; positivity
  set Q := ‖D‖ ^ 2 + ‖Dhat0‖ ^ 2 with hQ
  have hsQ : Real.sqrt Q * Real.sqrt Q = Q := Real.mul_self_sqrt hq.le
  have hS : 0 < Real.sqrt (2 * Q) := Real.sqrt_pos.2 (by linarith)
  set S := Real.sqrt (2 * Q) with hSdef
  have hSS : S * S = 2 * Q := Real.mul_self_sqrt (by linarith)
  have hl : 0 < a.stepSize / S := div_pos hs hS
  set l := a.stepSize / S with hldef
  have hpsi : (‖l • Dhat0‖ ^ 2 + ‖l • D‖ ^ 2) / (l * l) = Q := by
    rw [norm_smul, norm_smul, Real.norm_eq_abs, abs_of_pos hl, hQ]
    field_simp
    ring
  have hinit : ArcLength.initialPrediction residual linSolve (fun l => l • Dhat0) idbcForce sync d a
      = some (⟨Real.sqrt Q, true⟩, ⟨l, sync l (d.x + l • D)⟩,
          { a with DD := l • D, Dlambda := l }) := by
    unfold ArcLength.initialPrediction
    simp only [inv_one, one_smul, mul_one, div_one, ← hD, ← hQ, hsQ]
    have e : Q + Q = 2 * Q := by ring
    rw [e, ← hSdef, if_neg hS.ne', ← hldef, if_neg (by positivity), hpsi]
  refine ⟨_, _, _, hinit, ?_, rfl, rfl, hl, rfl, rfl, rfl, rfl, rfl⟩
  unfold ArcLength.op
  simp only [Bool.true_eq_false, if_false]
  have : ‖l • D‖ ^ 2 + ‖l • Dhat0‖ ^ 2 + Real.sqrt Q * Real.sqrt Q * l * l
      = a.stepSize ^ 2 := by
    rw [hsQ, norm_smul, norm_smul, Real.norm_eq_abs, abs_of_pos hl]
    have : (l * ‖D‖) ^ 2 + (l * ‖Dhat0‖) ^ 2 + Q * l * l = l ^ 2 * (2 * Q) := by
      rw [hQ]; ring
    rw [this, ← hSS, hldef]
    field_simp
  rw [this, Real.sqrt_sq hs.le, sub_self]

/-- C25. The value, derivatives and initial prediction of load control. -/
theorem loadControl_strategy (d : Dom ℝ V) (a : SubsidiaryArgs ℝ V) :
    (∃ g b, loadControlOp a = (a.Dlambda - a.stepSize, some g, some b) ∧
      HasFDerivAt (fun y : V × ℝ => y.2 - a.stepSize)
        ((innerSL ℝ g).comp (ContinuousLinearMap.fst ℝ V ℝ)
          + b • ContinuousLinearMap.snd ℝ V ℝ) (a.DD, a.Dlambda)) ∧
      (loadControlOp (loadControlInitialPrediction d a).2).1 = 0 := by
  refine ⟨⟨0, 1, rfl, ?_⟩, by simp [loadControlOp, loadControlInitialPrediction]⟩
  have := (hasFDerivAt_snd (𝕜 := ℝ) (E := V) (F := ℝ) (p := (a.DD, a.Dlambda))).sub_const a.stepSize
  refine this.congr_fderiv ?_
  ext y <;> simp

end

/-! ### Displacement control -/

/-- The arguments with both increments moved along the direction `(h, l)`. -/
def incArgs {n : Nat} (a : SubsidiaryArgs ℝ (Fin n → ℝ)) (h : Fin n → ℝ) (l t : ℝ) :
    SubsidiaryArgs ℝ (Fin n → ℝ) where
  stepSize := a.stepSize
  DD := a.DD + t • h
  Dlambda := a.Dlambda + t * l
  f := a.f
  dfdDD := a.dfdDD
  dfdDlambda := a.dfdDlambda
  currentStep := a.currentStep

theorem foldl_update {n : Nat} (idx : List (Fin n)) (g : Fin n → ℝ) (v : Fin n → ℝ) (j : Fin n) :
    (idx.foldl (fun v i => Function.update v i (g i)) v) j = if j ∈ idx then g j else v j := by
  induction idx generalizing v with
  | nil => simp
  | cons i idx ih =>
    rw [List.foldl_cons, ih]
    by_cases h1 : j ∈ idx
    · simp [h1]
    · by_cases h2 : j = i
      · subst h2; simp [h1]
      · simp [h1, h2]

theorem sum_ite_mem {n : Nat} (idx : List (Fin n)) (hnd : idx.Nodup) (g : Fin n → ℝ) :
    ∑ j, (if j ∈ idx then g j else 0) = (idx.map g).sum := by
  induction idx with
  | nil => simp
  | cons i idx ih =>
    obtain ⟨h1, h2⟩ := List.nodup_cons.1 hnd
    have : ∀ j, (if j ∈ i :: idx then g j else 0)
        = (if j = i then g j else 0) + (if j ∈ idx then g j else 0) := by
      intro j
      by_cases hj : j = i
      · subst hj; simp [h1]
      · simp [hj]
    rw [Finset.sum_congr rfl (fun j _ => this j), Finset.sum_add_distrib, ih h2]
    simp

/-- C25. Displacement control without repeated indices: the reported derivatives are the derivatives
of the value along every direction of both increments, as long as the controlled increments do not
vanish. -/
theorem displacementControl_derivatives {n : Nat} (idx : List (Fin n)) (hnd : idx.Nodup)
    (a : SubsidiaryArgs ℝ (Fin n → ℝ)) (hne : (idx.map fun i => a.DD i ^ 2).sum ≠ 0) :
    ∃ g b, displacementControlOp idx a
        = (controlledNorm idx a.DD - a.stepSize, some g, some b) ∧
      ∀ (h : Fin n → ℝ) (l : ℝ), HasDerivAt
        (fun t => (displacementControlOp idx (incArgs a h l t)).1) (∑ i, g i * h i + b * l) 0 := by
  have hpos : 0 < (idx.map fun i => a.DD i ^ 2).sum := by
    have : 0 ≤ (idx.map fun i => a.DD i ^ 2).sum :=
      List.sum_nonneg (by intro x hx; obtain ⟨i, -, rfl⟩ := List.mem_map.1 hx; positivity)
    exact lt_of_le_of_ne this (Ne.symm hne)
  have hc : controlledNorm idx a.DD ≠ 0 := (Real.sqrt_pos.2 hpos).ne'
  refine ⟨idx.foldl (fun v i => Function.update v i (a.DD i / controlledNorm idx a.DD)) 0, 0, ?_, ?_⟩
  · unfold displacementControlOp
    simp [hc]
  · intro h l
    have hq : HasDerivAt (fun t : ℝ => (idx.map fun i => (a.DD i + t * h i) ^ 2).sum)
        (2 * (idx.map fun i => a.DD i * h i).sum) 0 := by
      clear hne hpos hc hnd
      induction idx with
      | nil => simpa using hasDerivAt_const (0 : ℝ) (0 : ℝ)
      | cons i idx ih =>
        simp only [List.map_cons, List.sum_cons]
        have h1 : HasDerivAt (fun t : ℝ => (a.DD i + t * h i) ^ 2) (2 * (a.DD i * h i)) 0 := by
          have := ((((hasDerivAt_id (0 : ℝ)).mul_const (h i)).const_add (a.DD i)).pow 2)
          refine this.congr_deriv ?_
          simp; ring
        have := h1.add ih
        rw [mul_add]
        exact this
    have hsq := hq.sqrt (by simpa using hne)
    have hfin := hsq.sub_const a.stepSize
    have hfun : (fun t => (displacementControlOp idx (incArgs a h l t)).1)
        = fun t : ℝ => Real.sqrt (idx.map fun i => (a.DD i + t * h i) ^ 2).sum - a.stepSize := by
      funext t
      simp [displacementControlOp, controlledNorm, incArgs]
    rw [hfun]
    refine hfin.congr_deriv (Eq.symm ?_)
    have e1 : ∀ i, (idx.foldl (fun v i => Function.update v i (a.DD i / controlledNorm idx a.DD)) 0) i
        * h i = if i ∈ idx then a.DD i * h i / controlledNorm idx a.DD else 0 := by
      intro i
      rw [foldl_update idx (fun i => a.DD i / controlledNorm idx a.DD)]
      split
      · ring
      · simp
    rw [Finset.sum_congr rfl (fun i _ => e1 i),
      sum_ite_mem idx hnd (fun i => a.DD i * h i / controlledNorm idx a.DD)]
    have e2 : ∀ l : List (Fin n), (l.map fun i => a.DD i * h i / controlledNorm idx a.DD).sum
        = (l.map fun i => a.DD i * h i).sum / controlledNorm idx a.DD := by
      intro l
      induction l with
      | nil => simp
      | cons i l ih => simp only [List.map_cons, List.sum_cons, ih]; ring
    rw [e2]
    have e3 : Real.sqrt (idx.map fun i => (a.DD i + 0 * h i) ^ 2).sum = controlledNorm idx a.DD := by
      simp [controlledNorm]
    rw [e3]
    field_simp
    ring

/-- Two controlled dofs of three. -/
example := displacementControl_derivatives [(0 : Fin 3), 2] (by decide) ⟨5, ![3, 1, 4], 2, 0, none, none, 0⟩ (by norm_num [Matrix.cons_val_two])

/-- C25, with a repeated index the reported derivative is wrong: for the single displacement
controlled twice the value has derivative `sqrt 2` but `1 / sqrt 2` is reported. -/
theorem displacementControl_repeated_index :
    ∃ (a : SubsidiaryArgs ℝ (Fin 1 → ℝ)) (g : Fin 1 → ℝ),
      (displacementControlOp [0, 0] a).2.1 = some g ∧
      HasDerivAt (fun t => (displacementControlOp [0, 0]
        (incArgs a 1 0 t)).1) (Real.sqrt 2) 0 ∧ g 0 ≠ Real.sqrt 2 := by
  have h2 : Real.sqrt 2 ≠ 0 := by positivity
  have hcn : controlledNorm [0, 0] (1 : Fin 1 → ℝ) = Real.sqrt 2 := by
    simp [controlledNorm]; norm_num
  refine ⟨⟨0, 1, 0, 0, none, none, 0⟩, fun _ => 1 / Real.sqrt 2, ?_, ?_, ?_⟩
  · unfold displacementControlOp
    simp only [hcn, h2, false_and, if_false, Option.some.injEq]
    funext i
    fin_cases i
    simp
  · have hfun : (fun t : ℝ => (displacementControlOp [0, 0]
        (incArgs (⟨0, 1, 0, 0, none, none, 0⟩ : SubsidiaryArgs ℝ (Fin 1 → ℝ)) 1 0 t)).1)
        = fun t : ℝ => Real.sqrt (2 * (1 + t) ^ 2) := by
      funext t
      simp only [displacementControlOp, controlledNorm, incArgs, List.map_cons, List.map_nil,
        List.sum_cons, List.sum_nil, Pi.add_apply, Pi.smul_apply, Pi.one_apply, smul_eq_mul, sub_zero]
      congr 1; ring
    rw [hfun]
    have hq : HasDerivAt (fun t : ℝ => 2 * (1 + t) ^ 2) 4 0 := by
      have := ((((hasDerivAt_id (0 : ℝ)).const_add (1 : ℝ)).pow 2).const_mul (2 : ℝ))
      refine this.congr_deriv ?_
      norm_num
    have := hq.sqrt (by norm_num)
    refine this.congr_deriv ?_
    have h22 : Real.sqrt 2 * Real.sqrt 2 = 2 := Real.mul_self_sqrt (by norm_num)
    norm_num
    field_simp
    nlinarith
  · intro h
    have h22 : Real.sqrt 2 * Real.sqrt 2 = 2 := Real.mul_self_sqrt (by norm_num)
    simp only at h
    rw [div_eq_iff h2, h22] at h
    norm_num at h

/-- C25. The value of displacement control after its initial prediction with `m` distinct indices is
`stepSize * (sqrt m - 1)`: the prediction satisfies the constraint for one index only. -/
theorem displacementControl_initialPrediction {n : Nat} (idx : List (Fin n))
    (d : Dom ℝ (Fin n → ℝ)) (a : SubsidiaryArgs ℝ (Fin n → ℝ)) (hs : 0 ≤ a.stepSize) :
    (displacementControlOp idx (displacementControlInitialPrediction idx d a).2).1
      = a.stepSize * (Real.sqrt idx.length - 1) := by
  have hsum : (idx.map fun i =>
      (idx.foldl (fun v i => Function.update v i a.stepSize) a.DD) i ^ 2).sum
      = idx.length * a.stepSize ^ 2 := by
    have : ∀ i ∈ idx, (idx.foldl (fun v i => Function.update v i a.stepSize) a.DD) i ^ 2
        = a.stepSize ^ 2 := by
      intro i hi
      rw [foldl_update idx (fun _ => a.stepSize), if_pos hi]
    rw [List.map_congr_left this]
    simp
  simp only [displacementControlOp, displacementControlInitialPrediction, controlledNorm]
  rw [hsum, Real.sqrt_mul (by positivity), Real.sqrt_sq hs]
  ring

example := displacementControl_initialPrediction [(0 : Fin 3), 2] ⟨0, 0⟩ ⟨5, 0, 0, 0, none, none, 0⟩ (by norm_num)

/-! ### The load factor and solution at the first prediction -/

/-- C62 in full: the initial predictions advance the current load factor and solution by the
increments. -/
def Spec.PredictionAdvances : Prop :=
  (∀ (d : Dom ℝ ℝ) (a : SubsidiaryArgs ℝ ℝ),
    let r := loadControlInitialPrediction d a
    r.1.lam = d.lam + r.2.Dlambda ∧ r.1.x = d.x) ∧
  (∀ (residual : ℝ → ℝ → ℝ) (linSolve : ℝ → ℝ → ℝ → ℝ) (d : Dom ℝ ℝ) (a : SubsidiaryArgs ℝ ℝ)
    (p' : ArcLength) (d' : Dom ℝ ℝ) (a' : SubsidiaryArgs ℝ ℝ),
    ArcLength.initialPrediction residual linSolve (fun _ => 0) (fun _ _ => 0) (fun _ x => x) d a
      = some (p', d', a') → d'.lam = d.lam + a'.Dlambda ∧ d'.x = d.x + a'.DD)

/-- C62 is false of the code: the load factor is overwritten by its increment. -/
theorem prediction_overwrites_load_factor : ¬ Spec.PredictionAdvances := by
  rintro ⟨h, -⟩
  have := (h ⟨1, 0⟩ ⟨1, 0, 0, 0, none, none, 0⟩).1
  norm_num [loadControlInitialPrediction] at this

/-- C62, for every start with a load factor other than zero the initial prediction of load control
and arc-length loses that load factor. -/
theorem prediction_loses_load_factor {V : Type} [NormedAddCommGroup V] [InnerProductSpace ℝ V]
    (d : Dom ℝ V) (a : SubsidiaryArgs ℝ V) :
    ((loadControlInitialPrediction d a).1.lam
        = d.lam + (loadControlInitialPrediction d a).2.Dlambda ↔ d.lam = 0) ∧
    (∀ residual linSolve idbc idbcForce sync p' d' a',
      ArcLength.initialPrediction residual linSolve idbc idbcForce sync d a = some (p', d', a') →
      (d'.lam = d.lam + a'.Dlambda ↔ d.lam = 0)) := by
  refine ⟨by simp [loadControlInitialPrediction], ?_⟩
  intro residual linSolve idbc idbcForce sync p' d' a' h
  unfold ArcLength.initialPrediction at h
  simp only at h
  split at h
  · exact absurd h (by simp)
  · split at h
    · exact absurd h (by simp)
    · simp only [Option.some.injEq, Prod.mk.injEq] at h
      obtain ⟨-, rfl, rfl⟩ := h
      simp

/-- C62, partial: the initial predictions advance solution and load factor if the run starts with a
zero load factor (load control, arc-length without inhomogeneous Dirichlet conditions) or zero
solution and zero accumulated increment (displacement control), and the intermediate predictions
always advance by the accumulated increments. Missing: other starts. -/
theorem prediction_advances_partial {V : Type} [NormedAddCommGroup V] [InnerProductSpace ℝ V] :
    (∀ (d : Dom ℝ V) (a : SubsidiaryArgs ℝ V), d.lam = 0 →
      let r := loadControlInitialPrediction d a
      r.1.lam = d.lam + r.2.Dlambda ∧ r.1.x = d.x) ∧
    (∀ residual linSolve idbc idbcForce (d : Dom ℝ V) (a : SubsidiaryArgs ℝ V) p' d' a', d.lam = 0 →
      ArcLength.initialPrediction residual linSolve idbc idbcForce (fun _ x => x) d a
        = some (p', d', a') → d'.lam = d.lam + a'.Dlambda ∧ d'.x = d.x + a'.DD) ∧
    (∀ (p p' : ArcLength) (d d' : Dom ℝ V) (a a' : SubsidiaryArgs ℝ V),
      p.intermediatePrediction (fun _ x => x) d a = some (p', d', a') →
      d'.lam = d.lam + a.Dlambda ∧ d'.x = d.x + a.DD ∧ a' = a ∧ p' = p) ∧
    (∀ (n : Nat) (idx : List (Fin n)) (d : Dom ℝ (Fin n → ℝ)) (a : SubsidiaryArgs ℝ (Fin n → ℝ)),
      d.x = 0 → let r := displacementControlInitialPrediction idx d a
      r.1.lam = d.lam ∧ r.1.x = d.x + r.2.DD) := by
  refine ⟨fun d a h => by simp [loadControlInitialPrediction, h], ?_, ?_, fun n idx d a h => by
    simp [displacementControlInitialPrediction, h]⟩
  · intro residual linSolve idbc idbcForce d a p' d' a' h0 h
    unfold ArcLength.initialPrediction at h
    simp only at h
    split at h
    · exact absurd h (by simp)
    · split at h
      · exact absurd h (by simp)
      · simp only [Option.some.injEq, Prod.mk.injEq] at h
        obtain ⟨-, rfl, rfl⟩ := h
        simp [h0]
  · intro p p' d d' a a' h
    unfold ArcLength.intermediatePrediction at h
    split at h
    · exact absurd h (by simp)
    · simp only [Option.some.injEq, Prod.mk.injEq] at h
      obtain ⟨rfl, rfl, rfl⟩ := h
      simp

/-- C62. The intermediate predictions of load control and displacement control advance the load factor and the solution
alone, by the increment of the step before, which is kept: the constraint has the value it had before. -/
theorem intermediate_prediction_advances {V : Type} [NormedAddCommGroup V] [InnerProductSpace ℝ V] :
    (∀ (d : Dom ℝ V) (a : SubsidiaryArgs ℝ V), let r := loadControlIntermediatePrediction d a
      r.1.lam = d.lam + a.Dlambda ∧ r.1.x = d.x ∧ loadControlOp r.2 = loadControlOp a ∧
      ((loadControlOp a).1 = 0 → r.1.lam = d.lam + a.stepSize)) ∧
    (∀ (n : Nat) (idx : List (Fin n)) (d : Dom ℝ (Fin n → ℝ)) (a : SubsidiaryArgs ℝ (Fin n → ℝ)),
      let r := displacementControlIntermediatePrediction d a
      r.1.lam = d.lam ∧ (∀ i, r.1.x i = d.x i + a.DD i) ∧ displacementControlOp idx r.2 = displacementControlOp idx a ∧
      ((displacementControlOp idx a).1 = 0 → controlledNorm idx (r.1.x - d.x) = a.stepSize)) := by
  refine ⟨fun d a => ⟨rfl, rfl, rfl, fun h => ?_⟩, fun n idx d a => ⟨rfl, fun _ => rfl, rfl, fun h => ?_⟩⟩
  · have h : a.Dlambda - a.stepSize = 0 := h
    show d.lam + a.Dlambda = _
    rw [sub_eq_zero.1 h]
  · have h : controlledNorm idx a.DD - a.stepSize = 0 := h
    have e : (displacementControlIntermediatePrediction d a).1.x - d.x = a.DD := by
      show d.x + a.DD - d.x = a.DD
      rw [add_sub_cancel_left]
    rw [e, sub_eq_zero.1 h]

example : (loadControlOp (⟨2, 0, 2, 0, none, none, 0⟩ : SubsidiaryArgs ℝ ℝ)).1 = 0 ∧
    (displacementControlOp [(0 : Fin 1)] ⟨2, 2, 0, 0, none, none, 0⟩).1 = 0 := by
  refine ⟨by simp [loadControlOp], ?_⟩
  simp [displacementControlOp, controlledNorm]

/-- The hypotheses of the arc-length theorems are met by a unit load on a unit spring. -/
example : ∃ p' d' a', ArcLength.initialPrediction (fun l (x : ℝ) => x - l) (fun _ _ r => r)
    (fun _ => 0) (fun _ _ => 0) (fun _ x => x) ⟨0, 0⟩ ⟨2, 0, 0, 0, none, none, 0⟩
    = some (p', d', a') := by
  obtain ⟨p', d', a', h, -⟩ := arcLength_initialPrediction (fun l (x : ℝ) => x - l)
    (fun _ _ r => r) 0 (fun _ _ => 0) (fun _ x => x) ⟨0, 0⟩ ⟨2, 0, 0, 0, none, none, 0⟩
    (by norm_num) 1 (by simp) (Or.inl one_ne_zero)
  simp only [smul_zero] at h
  exact ⟨p', d', a', h⟩

end

end Ikarus
