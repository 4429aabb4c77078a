import Verif.Control.StrategyModel
import Verif.Control.PathProps
import Verif.Solver.SubsidiaryProps
import Mathlib.Tactic.NormNum

/-!
C26: an arc-length function that has been used in a run before.
-/

namespace Ikarus

noncomputable section

open Spec
open scoped Classical

variable {V A N Q : Type} [NormedAddCommGroup V] [InnerProductSpace ℝ V]

/-- Path following with the arc-length function and the Newton-Raphson method with subsidiary
function (ikarus/controlroutines/pathfollowing.inl:28-77 with the types of pathfollowing.hh:221-226).
`fuel = maxIter` is enough for the solver (`subsidiary_terminates`); an initial prediction that is
not finite sets the flag and leaves the rest as it is (simplification). Residual norm and correction
norm of the solver information are left out. -/
def arcCollab (P : SubsidiaryProblem ℝ V A N) (set : SubsidiarySettings N) (idbc : ℝ → V)
    (idbcForce sync : ℝ → V → V)
    (adapt : Q → SolverInfo N → SubsidiaryArgs ℝ V → Option (Q × SubsidiaryArgs ℝ V)) :
    PathCollab ℝ V N Unit ArcLength Q where
  solve := fun _ p d a =>
    match ({ P with subsidiary := fun _ _ a => p.op idbc a } : SubsidiaryProblem ℝ V A N).solve set
        set.maxIter.toNat d.lam d.x a with
    | none => ((), d, a, SolverInfo.default)
    | some s => ((), ⟨s.lam, s.x⟩, s.args, ⟨s.success, none, none, s.iter⟩)
  initialPrediction := fun _ d a =>
    (ArcLength.initialPrediction P.residual (fun l x r => P.linSolve (P.jacobian l x) r) idbc
      idbcForce sync d a).getD (⟨0, true⟩, d, a)
  intermediatePrediction := ArcLength.intermediatePrediction sync
  adaptiveStepSizing := adapt

/-- Arguments that agree in everything but the derivatives. -/
def SameButDerivatives (a b : SubsidiaryArgs ℝ V) : Prop :=
  a.stepSize = b.stepSize ∧ a.DD = b.DD ∧ a.Dlambda = b.Dlambda ∧ a.f = b.f ∧
    a.currentStep = b.currentStep

/-- C26 in full, for the evaluation of the function before a prediction. -/
def Spec.UsedEvaluatesLikeFresh : Prop :=
  ∀ (p : ArcLength) (a : SubsidiaryArgs ℝ ℝ), p.op (fun _ => 0) a = ArcLength.fresh.op (fun _ => 0) a

/-- C26 is false of the code: a used function does not forget. At the start of a second run (zero
increments) it reports derivatives that are not numbers while a fresh one reports zeros, and it
accepts an intermediate prediction where a fresh one throws. -/
theorem used_function_differs : ¬ Spec.UsedEvaluatesLikeFresh ∧
    (∀ (psi stepSize : ℝ) (k : Nat),
      (ArcLength.op ⟨psi, true⟩ (fun _ => (0 : ℝ)) ⟨stepSize, 0, 0, 0, some 0, some 0, k⟩)
        = (-stepSize, none, none) ∧
      (ArcLength.fresh.op (fun _ => (0 : ℝ)) ⟨stepSize, 0, 0, 0, some 0, some 0, k⟩)
        = (-stepSize, some 0, some 0)) ∧
    (∀ (psi : ℝ) (sync : ℝ → ℝ → ℝ) (d : Dom ℝ ℝ) (a : SubsidiaryArgs ℝ ℝ),
      ArcLength.fresh.intermediatePrediction sync d a = none ∧
      (ArcLength.intermediatePrediction sync ⟨psi, true⟩ d a).isSome = true) := by
  have h2 : ∀ (psi stepSize : ℝ) (k : Nat),
      (ArcLength.op ⟨psi, true⟩ (fun _ => (0 : ℝ)) ⟨stepSize, 0, 0, 0, some 0, some 0, k⟩)
        = (-stepSize, none, none) ∧
      (ArcLength.fresh.op (fun _ => (0 : ℝ)) ⟨stepSize, 0, 0, 0, some 0, some 0, k⟩)
        = (-stepSize, some 0, some 0) := by
    intro psi stepSize k
    constructor <;> simp [ArcLength.op, ArcLength.fresh]
  refine ⟨fun h => ?_, h2, fun psi sync d a => ⟨?_, ?_⟩⟩
  · have h1 := h ⟨1, true⟩ ⟨1, 0, 0, 0, some 0, some 0, 0⟩
    rw [(h2 1 1 0).1, (h2 1 1 0).2] at h1
    simp at h1
  · simp [ArcLength.intermediatePrediction, ArcLength.fresh]
  · simp [ArcLength.intermediatePrediction]

theorem solve_zero_iterations (P : SubsidiaryProblem ℝ V A N) (set : SubsidiarySettings N)
    (fuel : Nat) (lam : ℝ) (x : V) (a : SubsidiaryArgs ℝ V)
    (heq : P.gt (P.sqrt (P.dot (P.residual lam x) (P.residual lam x))) set.tol = false) :
    ∃ s, P.solve set fuel lam x a = some s ∧ s.lam = lam ∧ s.x = x ∧ s.iter = 0 ∧
      s.args = P.callSubsidiary lam x a ∧ s.success = decide (set.maxIter ≠ 0) := by
  have hc : SubsidiaryProblem.cond P set (P.start lam x a) = false := by
    simp [SubsidiaryProblem.cond, SubsidiaryProblem.start, heq]
  have hl : P.loop set fuel (P.start lam x a) = some (P.start lam x a) := by
    cases fuel <;> simp [SubsidiaryProblem.loop, hc]
  refine ⟨SubsidiaryProblem.finish set (P.start lam x a), by simp [SubsidiaryProblem.solve, hl], ?_⟩
  by_cases h0 : set.maxIter = 0
  · simp [SubsidiaryProblem.finish, SubsidiaryProblem.start, h0]
  · have : ((0 : Nat) : Int) ≠ set.maxIter := by push_cast; exact fun h => h0 h.symm
    simp [SubsidiaryProblem.finish, SubsidiaryProblem.start, h0, Ne.symm h0]

theorem op_same (p p' : ArcLength) (idbc : ℝ → V) (a b : SubsidiaryArgs ℝ V)
    (h1 : a.DD = 0) (h2 : a.Dlambda = 0) (h3 : idbc 0 = 0) (h : SameButDerivatives a b) :
    (p.op idbc a).1 = (p'.op idbc b).1 := by
  obtain ⟨e1, e2, e3, -, -⟩ := h
  have f : ∀ (p : ArcLength) (a : SubsidiaryArgs ℝ V), a.DD = 0 → a.Dlambda = 0 →
      (p.op idbc a).1 = -a.stepSize := by
    intro p a h1 h2
    unfold ArcLength.op
    simp only [h1, h2, h3]
    split <;> simp
  rw [f p a h1 h2, f p' b (e2 ▸ h1) (e3 ▸ h2), e1]

/-- The initial prediction does not see the derivatives. -/
theorem initialPrediction_same (residual : ℝ → V → V) (linSolve : ℝ → V → V → V) (idbc : ℝ → V)
    (idbcForce sync : ℝ → V → V) (d : Dom ℝ V) (a b : SubsidiaryArgs ℝ V)
    (h : SameButDerivatives a b) :
    (ArcLength.initialPrediction residual linSolve idbc idbcForce sync d a = none ∧
      ArcLength.initialPrediction residual linSolve idbc idbcForce sync d b = none) ∨
    ∃ p' d' a' b', ArcLength.initialPrediction residual linSolve idbc idbcForce sync d a
        = some (p', d', a') ∧
      ArcLength.initialPrediction residual linSolve idbc idbcForce sync d b = some (p', d', b') ∧
      SameButDerivatives a' b' := by
  obtain ⟨e1, e2, e3, e4, e5⟩ := h
  unfold ArcLength.initialPrediction
  simp only [e1]
  split
  · left; exact ⟨rfl, rfl⟩
  · split
    · left; exact ⟨rfl, rfl⟩
    · right
      exact ⟨_, _, _, _, rfl, rfl, rfl, rfl, rfl, e4, e5⟩

/-- The solver does not see the derivatives it is given. -/
theorem solve_same (P : SubsidiaryProblem ℝ V A N) (set : SubsidiarySettings N) (fuel : Nat)
    (p : ArcLength) (idbc : ℝ → V) (lam : ℝ) (x : V) (a b : SubsidiaryArgs ℝ V)
    (h : SameButDerivatives a b) :
    ({ P with subsidiary := fun _ _ a => p.op idbc a } : SubsidiaryProblem ℝ V A N).solve set fuel
      lam x a =
    ({ P with subsidiary := fun _ _ a => p.op idbc a } : SubsidiaryProblem ℝ V A N).solve set fuel
      lam x b := by
  obtain ⟨e1, e2, e3, e4, e5⟩ := h
  have : SubsidiaryProblem.start
        ({ P with subsidiary := fun _ _ a => p.op idbc a } : SubsidiaryProblem ℝ V A N) lam x a =
      SubsidiaryProblem.start
        ({ P with subsidiary := fun _ _ a => p.op idbc a } : SubsidiaryProblem ℝ V A N) lam x b := by
    simp [SubsidiaryProblem.start, SubsidiaryProblem.callSubsidiary, ArcLength.op, e1, e2, e3, e5]
  simp only [SubsidiaryProblem.solve, this]

/-- C26, partial: from an equilibrium state a run with a used arc-length function makes the same
solves with the same states, increments and solver information as a run with a fresh one; in the
solve that establishes equilibrium at the start only the reported derivatives differ. Missing: starts
that are not in equilibrium, where the solver uses these derivatives. -/
theorem reuse_from_equilibrium_partial (P : SubsidiaryProblem ℝ V A N) (set : SubsidiarySettings N)
    (idbc : ℝ → V) (h0 : idbc 0 = 0) (idbcForce sync : ℝ → V → V)
    (adapt : Q → SolverInfo N → SubsidiaryArgs ℝ V → Option (Q × SubsidiaryArgs ℝ V))
    (used : ArcLength) (stepSize : ℝ) (q : Q) (d : Dom ℝ V)
    (heq : P.gt (P.sqrt (P.dot (P.residual d.lam d.x) (P.residual d.lam d.x))) set.tol = false)
    (hmax : 0 < set.maxIter) :
    let C := arcCollab P set idbc idbcForce sync adapt
    (∃ r r', pathSolve C stepSize () used q d 0 = some r ∧
      pathSolve C stepSize () ArcLength.fresh q d 0 = some r' ∧
      r.dom = d ∧ r'.dom = d ∧ r.info = r'.info ∧ r.info.success = true ∧
      SameButDerivatives r.args r'.args) ∧
    (pathSolve C stepSize () used q d 1).map (fun r => (r.domBefore, r.p, r.dom, r.args, r.info))
      = (pathSolve C stepSize () ArcLength.fresh q d 1).map
        (fun r => (r.domBefore, r.p, r.dom, r.args, r.info)) ∧
    ∀ k, pathSolve C stepSize () used q d (k + 2) = pathSolve C stepSize () ArcLength.fresh q d (k + 2) := by
  intro C
  have hzero : ∀ p : ArcLength, ∃ r, pathSolve C stepSize () p q d 0 = some r ∧ r.dom = d ∧
      r.w = () ∧ r.p = p ∧ r.q = q ∧ r.info = ⟨true, none, none, 0⟩ ∧
      SameButDerivatives r.args ⟨stepSize, 0, 0, -stepSize, none, none, 0⟩ := by
    intro p
    obtain ⟨s, e, e1, e2, e3, e4, e5⟩ := solve_zero_iterations
      ({ P with subsidiary := fun _ _ a => p.op idbc a } : SubsidiaryProblem ℝ V A N) set
      set.maxIter.toNat d.lam d.x { SubsidiaryArgs.setZero with stepSize := stepSize } heq
    have hm : set.maxIter ≠ 0 := by omega
    refine ⟨_, rfl, ?_, rfl, rfl, rfl, ?_, ?_⟩
    · simp only [pathAfter, C, arcCollab, e, e1, e2]
    · simp only [pathAfter, C, arcCollab, e, e3, e5]
      simp [hm]
    · simp only [pathAfter, C, arcCollab, e, e4]
      refine ⟨rfl, rfl, rfl, ?_, rfl⟩
      simp only [SubsidiaryProblem.callSubsidiary, SubsidiaryArgs.setZero, ArcLength.op, h0]
      split <;> simp
  obtain ⟨r, hr, hr1, hr2, hr3, hr4, hr5, hr6⟩ := hzero used
  obtain ⟨r', hr', hr1', hr2', hr3', hr4', hr5', hr6'⟩ := hzero ArcLength.fresh
  have hargs : SameButDerivatives r.args r'.args := by
    obtain ⟨a1, a2, a3, a4, a5⟩ := hr6
    obtain ⟨b1, b2, b3, b4, b5⟩ := hr6'
    exact ⟨a1.trans b1.symm, a2.trans b2.symm, a3.trans b3.symm, a4.trans b4.symm, a5.trans b5.symm⟩
  have hone : ∀ (p : ArcLength) (r : PathResult ℝ V N Unit ArcLength Q),
      pathSolve C stepSize () p q d 0 = some r →
      pathSolve C stepSize () p q d 1 = some (pathAfter C r.w (C.initialPrediction r.p r.dom r.args).1
        r.q (C.initialPrediction r.p r.dom r.args).2.1 (C.initialPrediction r.p r.dom r.args).2.2 0) := by
    intro p r hr
    have : r = pathAfter C () p q d { SubsidiaryArgs.setZero with stepSize := stepSize } 0 := by
      simpa [pathSolve] using hr.symm
    rw [this]; rfl
  have hinit : ∃ (p' : ArcLength) (d' : Dom ℝ V) (a' b' : SubsidiaryArgs ℝ V),
      C.initialPrediction r.p r.dom r.args = (p', d', a') ∧
      C.initialPrediction r'.p r'.dom r'.args = (p', d', b') ∧ SameButDerivatives a' b' := by
    rcases initialPrediction_same P.residual (fun l x r => P.linSolve (P.jacobian l x) r) idbc
      idbcForce sync d r.args r'.args hargs with ⟨e1, e2⟩ | ⟨p', d', a', b', e1, e2, e3⟩
    · refine ⟨⟨0, true⟩, d, r.args, r'.args, ?_, ?_, hargs⟩
      · simp only [C, arcCollab, hr1, e1, Option.getD_none]
      · simp only [C, arcCollab, hr1', e2, Option.getD_none]
    · refine ⟨p', d', a', b', ?_, ?_, e3⟩
      · simp only [C, arcCollab, hr1, e1, Option.getD_some]
      · simp only [C, arcCollab, hr1', e2, Option.getD_some]
  obtain ⟨p', d', a', b', i1, i2, i3⟩ := hinit
  have h1 := hone used r hr
  have h1' := hone ArcLength.fresh r' hr'
  rw [i1] at h1
  rw [i2] at h1'
  have hsolve : C.solve () p' d' a' = C.solve () p' d' b' := by
    by_cases hn : ({ P with subsidiary := fun _ _ a => p'.op idbc a } :
        SubsidiaryProblem ℝ V A N).solve set set.maxIter.toNat d'.lam d'.x a' = none
    · exfalso
      obtain ⟨s, hs, -⟩ := subsidiary_terminates
        ({ P with subsidiary := fun _ _ a => p'.op idbc a } : SubsidiaryProblem ℝ V A N) set
        set.maxIter.toNat (by omega) d'.lam d'.x a'
      rw [hs] at hn; exact absurd hn (by simp)
    · obtain ⟨s, hs⟩ := Option.ne_none_iff_exists'.1 hn
      have hs' := hs
      rw [solve_same P set _ p' idbc d'.lam d'.x a' b' i3] at hs'
      simp only [C, arcCollab, hs, hs']
  refine ⟨⟨r, r', hr, hr', hr1, hr1', by rw [hr5, hr5'], by rw [hr5], hargs⟩, ?_, ?_⟩
  · rw [h1, h1']
    simp [pathAfter, hsolve]
  · intro k
    induction k with
    | zero =>
      conv_lhs => unfold pathSolve
      conv_rhs => unfold pathSolve
      rw [h1, h1']
      simp [pathAfter, hsolve, hr4, hr4']
    | succ k ih =>
      conv_lhs => unfold pathSolve
      conv_rhs => unfold pathSolve
      rw [ih]

/-- A unit spring at rest is in equilibrium at load factor zero: the hypotheses are met. -/
example : ∃ (P : SubsidiaryProblem ℝ ℝ Unit ℝ) (set : SubsidiarySettings ℝ) (d : Dom ℝ ℝ),
    P.gt (P.sqrt (P.dot (P.residual d.lam d.x) (P.residual d.lam d.x))) set.tol = false ∧
      0 < set.maxIter :=
  ⟨⟨fun l x => x - l, fun _ _ => (), fun _ r => r, fun x y => x * y, Real.sqrt,
      fun a b => decide (a > b), fun x y => x + y, fun _ _ _ => (0, none, none), none⟩, ⟨1, 20⟩, ⟨0, 0⟩,
    by simp, by norm_num⟩

end

end Ikarus
