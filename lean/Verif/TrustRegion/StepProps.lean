import Verif.TrustRegion.Props
import Mathlib.LinearAlgebra.FiniteDimensional.Lemmas

/-!
C27, C28, C29: the iterations of the trust region solver are those of a specification that knows the function only, and the
truncated conjugate gradient method ends for one of its proper reasons.
-/

namespace Ikarus

noncomputable section

variable {X V S : Type} [NormedAddCommGroup V] [InnerProductSpace ℝ V]

open Spec

/-! ### When the radius is changed -/

/-- The energy does not increase by more than rounding. -/
def Spec.NotIncreased (cmpTol e e' : ℝ) : Prop :=
  e' < e + 1 / 10 ^ 12 ∨ |e - e' + 1 / 10 ^ 12| ≤ cmpTol * max |e - e'| (1 / 10 ^ 12)

/-- When the radius is quartered: unless both energies are finite, the regularised predicted decrease is positive, the
ratio of the regularised decreases is at least `10⁻⁴` and the energy does not increase. -/
def Spec.Shrinks (set : TRSettings) (cmpTol : ℝ) (energy energyProposal : Option ℝ) (m : ℝ) : Prop :=
  ¬ ∃ e e', energy = some e ∧ energyProposal = some e' ∧ 0 < m + Spec.regularisation set e ∧
    1 / 10 ^ 4 * (m + Spec.regularisation set e) ≤ e - e' + Spec.regularisation set e ∧ Spec.NotIncreased cmpTol e e'

/-- When the radius may be multiplied by 3.5: the ratio exceeds 0.99 and the inner solver has stopped at the boundary. -/
def Spec.Grows (set : TRSettings) (energy energyProposal : Option ℝ) (m : ℝ) (st : TCGStopReason) : Prop :=
  (st = .negativeCurvature ∨ st = .exceededTrustRegion) ∧ ∃ e e', energy = some e ∧ energyProposal = some e' ∧
    99 / 100 * (m + Spec.regularisation set e) < e - e' + Spec.regularisation set e

open Classical in
/-- The radius of the next iteration. -/
def Spec.radius (set : TRSettings) (cmpTol : ℝ) (energy energyProposal : Option ℝ) (m etaNorm : ℝ) (st : TCGStopReason)
    (Delta : ℝ) (rejected : Nat) : ℝ :=
  let D := if Spec.Shrinks set cmpTol energy energyProposal m then Delta / 4
    else if Spec.Grows set energy energyProposal m st then
      (match set.DeltaBar with
        | some b => min (7 / 2 * Delta) b
        | none => 7 / 2 * Delta)
    else Delta
  if Spec.Accepts set cmpTol energy energyProposal m then D
  else if 5 ≤ rejected then D / 2 else min D (etaNorm / 2)

theorem floatGe_iff (cmpTol e e' : ℝ) :
    floatGe cmpTol (e - e') (-(1 / 10 ^ 12)) = true ↔ Spec.NotIncreased cmpTol e e' := by
  unfold floatGe Spec.NotIncreased
  have hab : |(-(1 / 10 ^ 12) : ℝ)| = 1 / 10 ^ 12 := by rw [abs_neg, abs_of_pos (by positivity)]
  rw [hab, sub_neg_eq_add, Bool.or_eq_true, decide_eq_true_iff, decide_eq_true_iff]
  constructor
  · rintro (h | h)
    · left; linarith
    · right; exact h
  · rintro (h | h)
    · left; show _ < _; linarith
    · right; exact h

theorem trDecide_shrinks (set : TRSettings) (cmpTol : ℝ) (energy energyProposal : Option ℝ) (m : ℝ) :
    (rhoLtOrNan (trRho set energy energyProposal m).2 (1 / 10 ^ 4) ||
      !trModelDecreased (trRho set energy energyProposal m).1 || !trEnergyDecreased cmpTol energy energyProposal) = true ↔
      Spec.Shrinks set cmpTol energy energyProposal m := by
  unfold Spec.Shrinks
  cases energy with
  | none => simp [trEnergyDecreased]
  | some e =>
    cases energyProposal with
    | none => simp [trEnergyDecreased]
    | some e' =>
      have hex : (∃ a b, some e = some a ∧ some e' = some b ∧ 0 < m + Spec.regularisation set a ∧
          1 / 10 ^ 4 * (m + Spec.regularisation set a) ≤ a - b + Spec.regularisation set a ∧ Spec.NotIncreased cmpTol a b) ↔
          (0 < m + Spec.regularisation set e ∧
          1 / 10 ^ 4 * (m + Spec.regularisation set e) ≤ e - e' + Spec.regularisation set e ∧
            Spec.NotIncreased cmpTol e e') := by
        constructor
        · rintro ⟨a, b, ha, hb, h⟩
          simp only [Option.some.injEq] at ha hb
          subst ha hb
          exact h
        · intro h
          exact ⟨e, e', rfl, rfl, h⟩
      rw [hex, ← floatGe_iff]
      simp only [trRho, rhoReg_eq, trEnergyDecreased]
      generalize Spec.regularisation set e = R
      by_cases hden : m + R = 0
      · simp [hden, trModelDecreased]
      · rw [if_neg hden]
        by_cases hpos : 0 < m + R
        · have hr : ((if (e - e' + R) / (m + R) < 0 then (-1 : ℝ) else (e - e' + R) / (m + R)) < 1 / 10 ^ 4) ↔
              e - e' + R < 1 / 10 ^ 4 * (m + R) := by
            rw [← div_lt_iff₀ hpos]
            by_cases hn : (e - e' + R) / (m + R) < 0
            · rw [if_pos hn]
              constructor <;> intro h
              · have : (0 : ℝ) < 1 / 10 ^ 4 := by positivity
                linarith
              · have : (0 : ℝ) < 1 / 10 ^ 4 := by positivity
                linarith
            · rw [if_neg hn]
          have hx : decide ((if (e - e' + R) / (m + R) < 0 then (-1 : ℝ) else (e - e' + R) / (m + R)) < 1 / 10 ^ 4) =
              decide (e - e' + R < 1 / 10 ^ 4 * (m + R)) := decide_eq_decide.2 hr
          simp only [rhoLtOrNan, trModelDecreased, hx, gt_iff_lt, hpos, decide_true, Bool.not_true, Bool.or_false,
            Bool.or_eq_true, decide_eq_true_iff, Bool.not_eq_true', true_and, not_and, Bool.not_eq_true]
          constructor
          · rintro (h | h) h'
            · exact absurd h (not_lt.2 h')
            · exact h
          · intro h
            by_cases h' : e - e' + R < 1 / 10 ^ 4 * (m + R)
            · exact Or.inl h'
            · exact Or.inr (h (not_lt.1 h'))
        · simp [trModelDecreased, hpos]

theorem trDecide_grows (set : TRSettings) (cmpTol : ℝ) (energy energyProposal : Option ℝ) (m : ℝ) (st : TCGStopReason)
    (hs : ¬ Spec.Shrinks set cmpTol energy energyProposal m) :
    (rhoGt (trRho set energy energyProposal m).2 (99 / 100) &&
      (st == .negativeCurvature || st == .exceededTrustRegion)) = true ↔
      Spec.Grows set energy energyProposal m st := by
  obtain ⟨e, e', rfl, rfl, hpos, -, -⟩ := not_not.1 hs
  unfold Spec.Grows
  simp only [trRho, rhoReg_eq, rhoGt]
  rw [if_neg hpos.ne']
  have hex : (∃ a b, some e = some a ∧ some e' = some b ∧
      99 / 100 * (m + Spec.regularisation set a) < a - b + Spec.regularisation set a) ↔
      99 / 100 * (m + Spec.regularisation set e) < e - e' + Spec.regularisation set e := by
    constructor
    · rintro ⟨a, b, ha, hb, h⟩
      simp only [Option.some.injEq] at ha hb
      subst ha hb
      exact h
    · intro h
      exact ⟨e, e', rfl, rfl, h⟩
  rw [hex]
  generalize Spec.regularisation set e = R at *
  have hr : ((if (e - e' + R) / (m + R) < 0 then (-1 : ℝ) else (e - e' + R) / (m + R)) > 99 / 100) ↔
      99 / 100 * (m + R) < e - e' + R := by
    rw [← lt_div_iff₀ hpos]
    by_cases hn : (e - e' + R) / (m + R) < 0
    · rw [if_pos hn]
      constructor <;> intro h
      · norm_num at h
      · linarith
    · rw [if_neg hn]
  rw [Bool.and_eq_true, Bool.or_eq_true, decide_eq_true_iff, hr, beq_iff_eq, beq_iff_eq, and_comm]

/-- C28. The radius of the next iteration and the number of rejections in a row, for every outcome of an iteration. -/
theorem trDecide_radius_exact (set : TRSettings) (hp : 0 ≤ set.rho_prime) (cmpTol : ℝ) (energy energyProposal : Option ℝ)
    (m etaNorm : ℝ) (st : TCGStopReason) (Delta : ℝ) (plus minus : Int) (rej : Nat) :
    let d := trDecide set cmpTol energy energyProposal m etaNorm st Delta plus minus rej
    d.Delta = Spec.radius set cmpTol energy energyProposal m etaNorm st Delta rej ∧
      (Spec.Accepts set cmpTol energy energyProposal m → d.consecutiveRejected = 0) ∧
      (¬ Spec.Accepts set cmpTol energy energyProposal m → d.consecutiveRejected = rej + 1) := by
  intro d
  have hacc := trDecide_accept set hp cmpTol energy energyProposal m etaNorm st Delta plus minus rej
  rw [trDecide_accept_raw] at hacc
  have hsh := trDecide_shrinks set cmpTol energy energyProposal m
  have hgr := trDecide_grows set cmpTol energy energyProposal m st
  have key : (trRadius set.DeltaBar
      (rhoLtOrNan (trRho set energy energyProposal m).2 (1 / 10 ^ 4) ||
        !trModelDecreased (trRho set energy energyProposal m).1 || !trEnergyDecreased cmpTol energy energyProposal)
      (rhoGt (trRho set energy energyProposal m).2 (99 / 100) &&
        (st == .negativeCurvature || st == .exceededTrustRegion))
      ⟨false, Delta, plus, minus, rej⟩).consecutiveRejected = rej ∧
      (trRadius set.DeltaBar
      (rhoLtOrNan (trRho set energy energyProposal m).2 (1 / 10 ^ 4) ||
        !trModelDecreased (trRho set energy energyProposal m).1 || !trEnergyDecreased cmpTol energy energyProposal)
      (rhoGt (trRho set energy energyProposal m).2 (99 / 100) &&
        (st == .negativeCurvature || st == .exceededTrustRegion))
      ⟨false, Delta, plus, minus, rej⟩).Delta =
        (open Classical in if Spec.Shrinks set cmpTol energy energyProposal m then Delta / 4
        else if Spec.Grows set energy energyProposal m st then
          (match set.DeltaBar with
            | some b => min (7 / 2 * Delta) b
            | none => 7 / 2 * Delta)
        else Delta) := by
    unfold trRadius
    by_cases h1 : Spec.Shrinks set cmpTol energy energyProposal m
    · rw [if_pos (hsh.2 h1), if_pos h1]
      simp only
      split <;> exact ⟨rfl, rfl⟩
    · rw [if_neg (fun h => h1 (hsh.1 h)), if_neg h1]
      by_cases h2 : Spec.Grows set energy energyProposal m st
      · rw [if_pos ((hgr h1).2 h2), if_pos h2]
        have hcap : capDelta set.DeltaBar (7 / 2 * Delta) = (match set.DeltaBar with
            | some b => min (7 / 2 * Delta) b
            | none => 7 / 2 * Delta) := by cases set.DeltaBar <;> rfl
        rw [← hcap]
        simp only
        split <;> exact ⟨rfl, rfl⟩
      · rw [if_neg (fun h => h2 ((hgr h1).1 h)), if_neg h2]
        exact ⟨rfl, rfl⟩
  obtain ⟨k1, k2⟩ := key
  simp only [d, trDecide, Spec.radius]
  unfold trAccept
  by_cases ha : Spec.Accepts set cmpTol energy energyProposal m
  · rw [if_pos (hacc.2 ha), if_pos ha]
    exact ⟨k2, fun _ => rfl, fun h => absurd ha h⟩
  · rw [if_neg (fun h => ha (hacc.1 h)), if_neg ha]
    refine ⟨?_, fun h => absurd h ha, fun _ => ?_⟩
    · simp only [k1, k2, ge_iff_le]
    · simp only [k1]

/-- After a proposal that is accepted because of the regularisation although the energy stays the same, the radius grows
with the default settings. -/
example : Spec.radius {} 0 (some 1) (some 1) 0 10 .exceededTrustRegion 10 0 = 35 := by
  have ha : Spec.Accepts {} 0 (some 1) (some 1) 0 := ratio_ineffective 0 1 1 0 (by norm_num) (by norm_num) (by norm_num)
  have hR : Spec.regularisation {} 1 = 10 ^ 6 / 8192 := by simp [Spec.regularisation]
  have hs : ¬ Spec.Shrinks {} 0 (some 1) (some 1) 0 :=
    not_not.2 ⟨1, 1, rfl, rfl, by rw [hR]; norm_num, by rw [hR]; norm_num, Or.inl (by norm_num)⟩
  have hg : Spec.Grows {} (some 1) (some 1) 0 .exceededTrustRegion :=
    ⟨Or.inr rfl, 1, 1, rfl, rfl, by rw [hR]; norm_num⟩
  simp only [Spec.radius, if_neg hs, if_pos hg, if_pos ha]
  norm_num

/-! ### The iterations -/

/-- What determines the iterations that follow: iterate, radius, number of rejections in a row, number of iterations, the
inner solver and the norm of the last correction. -/
structure Spec.TRPoint (X S : Type) where
  x : X
  Delta : ℝ
  rejected : Nat
  iter : Nat
  inner : S
  corrNorm : ℝ

/-- The correction at an iterate: that of the inner solver for the gradient, the Hessian and the radius there; with the
random predictor the first one is compared with the Cauchy point. -/
def Spec.correction (P : TRProblem X V S) (set : TRSettings) (v : Spec.TRPoint X S) : S × V × TCGStopReason × Nat :=
  if set.useRand = true ∧ v.iter = 0 then
    let r := P.inner v.inner v.Delta (P.grad v.x) (P.hess v.x) (P.rand v.inner v.Delta (P.hess v.x))
    (r.1, trCauchy (P.energy v.x) (P.grad v.x) (P.hess v.x) ‖P.grad v.x‖ v.Delta r.2.1, r.2.2.1, r.2.2.2)
  else P.inner v.inner v.Delta (P.grad v.x) (P.hess v.x) 0

open Classical in
/-- One iteration. -/
def Spec.next (P : TRProblem X V S) (set : TRSettings) (cmpTol : ℝ) (v : Spec.TRPoint X S) : Spec.TRPoint X S :=
  let c := Spec.correction P set v
  let m := Spec.predicted (P.grad v.x) (P.hess v.x) c.2.1
  let proposal := P.update v.x c.2.1
  let accepted := Spec.Accepts set cmpTol (P.energy v.x) (P.energy proposal) m
  { x := if accepted then proposal else v.x
    Delta := Spec.radius set cmpTol (P.energy v.x) (P.energy proposal) m ‖c.2.1‖ c.2.2.1 v.Delta v.rejected
    rejected := if accepted then 0 else v.rejected + 1
    iter := v.iter + 1
    inner := c.1
    corrNorm := ‖c.2.1‖ }

/-- Whether a run ends at an iterate, and whether successfully. -/
def Spec.Converged (P : TRProblem X V S) (set : TRSettings) (v : Spec.TRPoint X S) : Prop :=
  v.iter ≠ 0 ∧ (‖P.grad v.x‖ < set.grad_tol ∨ v.corrNorm < set.corr_tol)

def Spec.Ends (P : TRProblem X V S) (set : TRSettings) (v : Spec.TRPoint X S) : Prop :=
  Spec.Converged P set v ∨ (∃ t, set.maxtime = some t ∧ t ≤ 0) ∨ set.maxIter ≤ (v.iter : Int)

/-- The start of a run. -/
def Spec.startPoint (set : TRSettings) (w : S) (x : X) : Spec.TRPoint X S := ⟨x, set.Delta0, 0, 0, w, 1⟩

/-- What is compared. -/
def TRState.point (s : TRState X V S) : Spec.TRPoint X S :=
  ⟨s.x, s.Delta, s.consecutiveRejected, s.outerIter, s.inner, s.etaNorm⟩

omit [InnerProductSpace ℝ V] in
theorem trApply_inner (P : TRProblem X V S) (s : TRState X V S) (c : S × V × TCGStopReason × Nat) (d : TRDecision) :
    (trApply P s c d).inner = c.1 := by
  unfold trApply
  simp only
  cases d.accept <;> rfl

omit [InnerProductSpace ℝ V] in
theorem tr_stops_iff (P : TRProblem X V S) (set : TRSettings) (s : TRState X V S) (hg : s.gradNorm = ‖P.grad s.x‖) :
    (∃ r, stoppingCriterion set s = some r) ↔ Spec.Ends P set s.point := by
  have ht : timeReached set = true ↔ ∃ t, set.maxtime = some t ∧ t ≤ 0 := by
    unfold timeReached
    cases set.maxtime with
    | none => simp
    | some t => simp
  unfold stoppingCriterion Spec.Ends Spec.Converged TRState.point
  simp only [← hg]
  by_cases h0 : s.outerIter = 0
  · by_cases h3 : timeReached set = true
    · simp [h0, h3, ht.1 h3]
    · have h3' : ¬ ∃ t, set.maxtime = some t ∧ t ≤ 0 := fun h => h3 (ht.2 h)
      by_cases h4 : set.maxIter ≤ (s.outerIter : Int)
      · simp only [h0, Nat.cast_zero] at h4
        simp [h0, h3, h4]
      · simp only [h0, Nat.cast_zero] at h4
        simp only [h0, ne_eq, not_true_eq_false, and_false, if_false, h3, Bool.false_eq_true, ge_iff_le, Nat.cast_zero, h4,
          false_and, h3', or_self, iff_false]
        simp
  · by_cases h1 : s.gradNorm < set.grad_tol
    · simp [h0, h1]
    · by_cases h2 : s.etaNorm < set.corr_tol
      · simp [h0, h1, h2]
      · by_cases h3 : timeReached set = true
        · simp [h0, h1, h2, h3, ht.1 h3]
        · have h3' : ¬ ∃ t, set.maxtime = some t ∧ t ≤ 0 := fun h => h3 (ht.2 h)
          by_cases h4 : set.maxIter ≤ (s.outerIter : Int)
          · simp [h1, h2, h3, h4]
          · simp only [h1, h2, h3, h4, h3', false_and, and_false, if_false, Bool.false_eq_true, or_self, iff_false]
            simp

theorem trCorrection_point (P : TRProblem X V S) (set : TRSettings) (s : TRState X V S) (he : s.energy = P.energy s.x)
    (hg : s.g = P.grad s.x) (hh : s.h = P.hess s.x) (hn : s.gradNorm = ‖P.grad s.x‖) :
    trCorrection P set s = Spec.correction P set s.point := by
  unfold trCorrection Spec.correction TRState.point
  simp only [he, hg, hh, hn]
  by_cases h : set.useRand = true ∧ s.outerIter = 0
  · simp only [if_pos h]
  · simp only [if_neg h]

/-- C27. Every iteration of every run: the correction is that of the inner solver for the gradient, the Hessian and the
radius at the iterate, the proposal is accepted exactly if its energy, compared with the predicted decrease, allows it, a
rejected proposal leaves the iterate as it is; the energy, gradient and Hessian kept by the solver are those of the new
iterate.  The update must be undone by the negative correction. -/
theorem tr_iteration_exact (P : TRProblem X V S) (hinv : ∀ x e, P.update (P.update x e) (-e) = x) (set : TRSettings)
    (hp : 0 ≤ set.rho_prime) (cmpTol : ℝ) (w : S) (st : TCGStopReason) (x : X) (eta : V) (s : TRState X V S)
    (h : TRReach P set cmpTol (trStart P set w st x eta) s) :
    let s' := trBody P set cmpTol s
    s'.point = Spec.next P set cmpTol s.point ∧
      s'.energy = P.energy s'.x ∧ s'.g = P.grad s'.x ∧ s'.h = P.hess s'.x ∧
      s'.info.correctionNorm = some ‖(Spec.correction P set s.point).2.1‖ ∧ s'.info.residualNorm = some ‖P.grad s.x‖ ∧
      (s'.acceptProposal = true ↔ Spec.Accepts set cmpTol (P.energy s.x)
        (P.energy (P.update s.x (Spec.correction P set s.point).2.1))
        (Spec.predicted (P.grad s.x) (P.hess s.x) (Spec.correction P set s.point).2.1)) := by
  intro s'
  obtain ⟨c1, c2, c3, c4⟩ := reach_consistent P hinv set cmpTol w st x eta s h
  have hc := trCorrection_point P set s c1 c2 c3 c4
  obtain ⟨f1, f2, f3, f4, f5, f6, f7, f8, f9, f10, f11, f12, -⟩ := trBody_facts P set cmpTol s
  have fi : s'.inner = (trCorrection P set s).1 := trApply_inner P s _ _
  rw [hc] at f1 f2 f3 f5 f6 f7 f12 fi
  rw [c1, c2, c3] at f1 f2 f3 f6 f7
  set c := Spec.correction P set s.point with hcdef
  have hacc := trDecide_accept set hp cmpTol (P.energy s.x) (P.energy (P.update s.x c.2.1))
    (Spec.predicted (P.grad s.x) (P.hess s.x) c.2.1) ‖c.2.1‖ c.2.2.1 s.Delta s.consecutiveTRplus s.consecutiveTRminus
    s.consecutiveRejected
  obtain ⟨r1, r2, r3⟩ := trDecide_radius_exact set hp cmpTol (P.energy s.x) (P.energy (P.update s.x c.2.1))
    (Spec.predicted (P.grad s.x) (P.hess s.x) c.2.1) ‖c.2.1‖ c.2.2.1 s.Delta s.consecutiveTRplus s.consecutiveTRminus
    s.consecutiveRejected
  set d := trDecide set cmpTol (P.energy s.x) (P.energy (P.update s.x c.2.1))
    (Spec.predicted (P.grad s.x) (P.hess s.x) c.2.1) ‖c.2.1‖ c.2.2.1 s.Delta s.consecutiveTRplus s.consecutiveTRminus
    s.consecutiveRejected with hd
  have hE := (reach_consistent P hinv set cmpTol w st x eta s h).1
  refine ⟨?_, ?_, f8, f9, by rw [f12], by rw [f12, c4], by rw [f1]; exact hacc⟩
  · show Spec.TRPoint.mk s'.x s'.Delta s'.consecutiveRejected s'.outerIter s'.inner s'.etaNorm = _
    rw [f2, f3, f4, f5, f6, fi, r1]
    unfold Spec.next
    simp only [← hcdef]
    have e1 : s.point.x = s.x := rfl
    have e2 : s.point.Delta = s.Delta := rfl
    have e3 : s.point.rejected = s.consecutiveRejected := rfl
    have e4 : s.point.iter = s.outerIter := rfl
    rw [e1, e2, e3, e4]
    by_cases ha : Spec.Accepts set cmpTol (P.energy s.x) (P.energy (P.update s.x c.2.1))
        (Spec.predicted (P.grad s.x) (P.hess s.x) c.2.1)
    · rw [hacc.2 ha, if_pos rfl, if_pos ha, if_pos ha, r2 ha]
    · have : d.accept = false := by
        cases hda : d.accept with
        | true => exact absurd (hacc.1 hda) ha
        | false => rfl
      rw [this, if_neg ha, if_neg ha, r3 ha]
      simp [hinv]
  · rw [f7, f6]
    cases d.accept with
    | true => rfl
    | false => simp [hinv]

/-- C27, C28. A run as a whole: its result is the first of the iterates of the specification at which the run ends, with
success exactly if the method has converged there, and the numbers reported are those of this iterate. -/
theorem tr_run_exact (P : TRProblem X V S) (hinv : ∀ x e, P.update (P.update x e) (-e) = x) (set : TRSettings)
    (hp : 0 ≤ set.rho_prime) (cmpTol : ℝ) (fuel : Nat) (hf : set.maxIter ≤ fuel) (w : S) (st : TCGStopReason) (x : X) (eta : V) :
    ∃ s n, trSolve P set cmpTol fuel w st x eta = some s ∧
      s.point = (Spec.next P set cmpTol)^[n] (Spec.startPoint set w x) ∧
      Spec.Ends P set s.point ∧ (∀ j < n, ¬ Spec.Ends P set ((Spec.next P set cmpTol)^[j] (Spec.startPoint set w x))) ∧
      s.info.iterations = n ∧ s.energy = P.energy s.x ∧ s.info.residualNorm = some ‖P.grad s.x‖ ∧
      (s.info.success = true ↔ Spec.Converged P set s.point) := by
  have key : ∀ s, TRReach P set cmpTol (trStart P set w st x eta) s →
      s.point = (Spec.next P set cmpTol)^[s.outerIter] (Spec.startPoint set w x) ∧
      ∀ j < s.outerIter, ¬ Spec.Ends P set ((Spec.next P set cmpTol)^[j] (Spec.startPoint set w x)) := by
    intro s hs
    induction hs with
    | start => exact ⟨rfl, fun j hj => absurd hj (Nat.not_lt_zero j)⟩
    | step s hs hstop ih =>
      have h1 := (tr_iteration_exact P hinv set hp cmpTol w st x eta s hs).1
      have h2 : (trBody P set cmpTol s).outerIter = s.outerIter + 1 := (trBody_facts P set cmpTol s).2.2.2.1
      have h3 := (reach_consistent P hinv set cmpTol w st x eta s hs).2.2.2
      refine ⟨by rw [h1, h2, Function.iterate_succ_apply', ih.1], fun j hj => ?_⟩
      rw [h2] at hj
      rcases Nat.lt_succ_iff_lt_or_eq.1 hj with hj | hj
      · exact ih.2 j hj
      · rw [hj, ← ih.1, ← tr_stops_iff P set s h3, hstop]
        simp
  obtain ⟨s1, s, h1, h2, h3, h4, h5, -, h7, -, h9, -⟩ := tr_run P set cmpTol fuel hf w st x eta
  obtain ⟨s1', r, h1', h2', h3'⟩ := trLoop_reach P set cmpTol (trStart P set w st x eta) fuel _ .start
    (by simp [trStart]; omega)
  have hs : s = trFinish { s1' with stop := r } := by
    unfold trSolve at h3
    rw [h3'] at h3
    simpa using h3.symm
  have hpt : s.point = s1'.point ∧ s.energy = s1'.energy ∧ s.x = s1'.x ∧ s.info.iterations = s1'.outerIter ∧
      s.info.success = (r == .correctionNormTolReached || r == .gradientNormTolReached) := by
    rw [hs]
    unfold trFinish
    simp only
    cases (r == .correctionNormTolReached || r == .gradientNormTolReached) <;> exact ⟨rfl, rfl, rfl, rfl, rfl⟩
  obtain ⟨p1, p2, p3, p4, p5⟩ := hpt
  have hcon := reach_consistent P hinv set cmpTol w st x eta s1' h1'
  have hend := (tr_stops_iff P set s1' hcon.2.2.2).1 ⟨r, h2'⟩
  refine ⟨s, s1'.outerIter, h3, by rw [p1]; exact (key s1' h1').1, by rw [p1]; exact hend, (key s1' h1').2, p4, ?_, h7, ?_⟩
  · rw [p2, p3]; exact hcon.1
  · rw [p5, p1]
    have hn := hcon.2.2.2
    unfold Spec.Converged TRState.point
    simp only [← hn]
    unfold stoppingCriterion at h2'
    by_cases ho : s1'.outerIter = 0
    · simp only [ho, ne_eq, not_true_eq_false, and_false, if_false, false_and, iff_false] at h2' ⊢
      revert h2'
      split
      · intro h; simp only [Option.some.injEq] at h; subst h; simp
      · split
        · intro h; simp only [Option.some.injEq] at h; subst h; simp
        · simp
    · by_cases hg : s1'.gradNorm < set.grad_tol
      · rw [if_pos ⟨hg, ho⟩] at h2'
        simp only [Option.some.injEq] at h2'
        subst h2'
        simp [hg, ho]
      · rw [if_neg (fun h => hg h.1)] at h2'
        by_cases he : s1'.etaNorm < set.corr_tol
        · rw [if_pos ⟨he, ho⟩] at h2'
          simp only [Option.some.injEq] at h2'
          subst h2'
          simp [he, ho]
        · rw [if_neg (fun h => he h.1)] at h2'
          simp only [hg, he, or_self, and_false, iff_false]
          revert h2'
          split
          · intro h; simp only [Option.some.injEq] at h; subst h; simp
          · split
            · intro h; simp only [Option.some.injEq] at h; subst h; simp
            · simp

/-- The hypotheses are met; minimising `x²/2` from 4 with an exact inner solver, the first iteration reaches the minimum. -/
def parabola : TRProblem ℝ ℝ Unit :=
  { energy := fun x => some (x ^ 2 / 2)
    grad := fun x => x
    hess := fun _ v => v
    update := fun x e => x + e
    inner := fun w D g _ _ => (w, if |g| ≤ D then -g else -D, .maximumInnerIterations, 1)
    rand := fun _ _ _ => 0 }

example : (∀ x e, parabola.update (parabola.update x e) (-e) = x) ∧ 0 ≤ ({} : TRSettings).rho_prime ∧
    ((Spec.next parabola {} 0)^[1] (Spec.startPoint {} () 4)).x = 0 := by
  refine ⟨fun x e => by simp [parabola], by norm_num, ?_⟩
  have hc : Spec.correction parabola {} (Spec.startPoint {} () 4) = ((), -4, .maximumInnerIterations, 1) := by
    simp only [Spec.correction, parabola, Spec.startPoint, Bool.false_eq_true, false_and, if_false]
    rw [if_pos (by norm_num)]
  have ha : Spec.Accepts {} 0 (parabola.energy 4) (parabola.energy (parabola.update 4 (-4)))
      (Spec.predicted (parabola.grad 4) (parabola.hess 4) (-4)) := by
    have e1 : parabola.energy 4 = some 8 := by simp [parabola]; norm_num
    have e2 : parabola.energy (parabola.update 4 (-4)) = some 0 := by simp [parabola]
    have e3 : Spec.predicted (parabola.grad 4) (parabola.hess 4) (-4 : ℝ) = 8 := by
      simp [Spec.predicted, parabola]; norm_num
    rw [e1, e2, e3]
    exact ratio_ineffective 0 8 0 8 (by norm_num) (by norm_num) (by norm_num)
  have : (Spec.startPoint {} () 4 : Spec.TRPoint ℝ Unit).x = 4 := rfl
  simp only [Function.iterate_one, Spec.next]
  rw [hc, this, if_pos ha]
  simp [parabola]

/-! ### The inner solver ends properly -/

theorem tcgBody_exit (A : V →ₗ[ℝ] V) (M : V ≃ₗ[ℝ] V) (b : V) (threshold : ℝ) (info : TCGInfo) (s : TCGLoop V)
    (hres : s.residual = b - A s.x) :
    match tcgBody A M ‖b‖ threshold info s with
    | .inl s' => s'.stop ≠ .maximumInnerIterations ∨ ‖b - A s'.x‖ < threshold
    | .inr _ => 0 < (inner ℝ s.p (A s.p) : ℝ) := by
  unfold tcgBody
  simp only
  generalize (inner ℝ s.p (A s.p) : ℝ) = dH
  generalize hal : s.absNew / dH = al
  by_cases hc : dH ≤ 0 ∨ s.e_Pe + 2 * al * s.e_Pd + al * al * s.d_Pd ≥ info.Delta * info.Delta
  · rw [if_pos hc]
    left
    show (if dH ≤ 0 then TCGStopReason.negativeCurvature else .exceededTrustRegion) ≠ _
    split <;> simp
  · rw [if_neg hc]
    rw [not_or] at hc
    by_cases h1 : (s.i : Int) ≥ info.mininner ∧ ‖s.residual - al • A s.p‖ ≤ ‖b‖ * min ‖b‖ info.kappa
    · rw [if_pos h1]
      left
      show (if info.kappa < ‖b‖ then TCGStopReason.reachedTargetResidualKappaLinear
        else .reachedTargetResidualThetaSuperLinear) ≠ _
      split <;> simp
    · rw [if_neg h1]
      by_cases h2 : ‖s.residual - al • A s.p‖ < threshold
      · rw [if_pos h2]
        right
        show ‖b - A (s.x + al • s.p)‖ < threshold
        rw [map_add, map_smul]
        have : b - (A s.x + al • A s.p) = s.residual - al • A s.p := by rw [hres]; abel
        rw [this]
        exact h2
      · rw [if_neg h2]
        exact not_le.1 hc.1

theorem tcgLoop_ends [FiniteDimensional ℝ V] (A : V →ₗ[ℝ] V) (hA : Spec.Symmetric A) (M : V ≃ₗ[ℝ] V)
    (hM : Preconditioner M) (b : V) (threshold : ℝ) (hth : 0 < threshold) (info : TCGInfo) (n : Nat) :
    ∀ (s : TCGLoop V) (S : Submodule ℝ V), TCGInv A M b info.Delta s S →
      Module.finrank ℝ V ≤ n + Module.finrank ℝ S →
      (tcgLoop A M ‖b‖ threshold info n s).stop ≠ .maximumInnerIterations ∨
        ‖b - A (tcgLoop A M ‖b‖ threshold info n s).x‖ < threshold := by
  induction n with
  | zero =>
    intro s S h hn
    exfalso
    have htop : S = ⊤ := Submodule.eq_top_of_finrank_eq (le_antisymm S.finrank_le (by omega))
    have := h.rS s.residual (by rw [htop]; trivial)
    exact h.ne (inner_self_eq_zero.1 this)
  | succ n ih =>
    intro s S h hn
    have h1 := tcgBody_spec A hA M hM b threshold hth info s S h
    have h2 := tcgBody_exit A M b threshold info s h.res
    unfold tcgLoop
    cases hb : tcgBody (⇑A) (⇑M) ‖b‖ threshold info s with
    | inl s' => rw [hb] at h2; exact h2
    | inr s' =>
      rw [hb] at h1 h2
      refine ih s' _ h1.1 ?_
      have hp : s.p ∉ S := by
        intro hpS
        have := h.conj s.p hpS
        rw [real_inner_comm] at this
        exact h2.ne' this
      have hlt : S < S ⊔ Submodule.span ℝ {s.p} := by
        refine lt_of_le_of_ne le_sup_left fun he => hp ?_
        rw [he]
        exact Submodule.mem_sup_right (Submodule.mem_span_singleton_self _)
      have := Submodule.finrank_lt_finrank_of_lt hlt
      omega

/-- C29. The method ends properly: with a symmetric matrix of any definiteness and more iterations than unknowns the result
lies on the boundary of the trust region, or its residual meets the target of the trust region method or is below the
threshold of the linear solver. -/
theorem tcg_ends [FiniteDimensional ℝ V] (A : V →ₗ[ℝ] V) (hA : Spec.Symmetric A) (M : V ≃ₗ[ℝ] V)
    (hM : Preconditioner M) (b : V) (maxIters : Nat) (tol tiny : ℝ) (ht : 0 < tiny) (info : TCGInfo)
    (hD : 0 < info.Delta) (hn : Module.finrank ℝ V < maxIters) (hstart : tiny < ‖b‖)
    (hstart2 : max (tol * tol * ‖b‖ * ‖b‖) tiny ≤ ‖b‖ * ‖b‖) :
    let r := tcg A M b 0 maxIters tol tiny info
    pnorm2 M r.1 = info.Delta ^ 2 ∨ ‖b - A r.1‖ ≤ ‖b‖ * min ‖b‖ info.kappa ∨
      ‖b - A r.1‖ < max (tol * tol * ‖b‖ * ‖b‖) tiny := by
  intro r
  have hr : r = ((tcgLoop A M ‖b‖ (max (tol * tol * ‖b‖ * ‖b‖) tiny) info (maxIters - 1)
          (tcgStart A M b 0)).x,
        { info with
          stop := (tcgLoop A M ‖b‖ (max (tol * tol * ‖b‖ * ‖b‖) tiny) info (maxIters - 1)
            (tcgStart A M b 0)).stop,
          numInnerIter := (tcgLoop A M ‖b‖ (max (tol * tol * ‖b‖ * ‖b‖) tiny) info (maxIters - 1)
            (tcgStart A M b 0)).i }) := by
    show tcg A M b 0 maxIters tol tiny info = _
    unfold tcg
    simp only
    rw [if_neg (not_le.2 hstart), if_neg (by simpa using hstart2)]
  have hbne : b ≠ 0 := by
    intro hb0
    rw [hb0, norm_zero] at hstart
    linarith
  have hinv := tcgStart_inv A M b hbne info.Delta hD
  have hth : 0 < max (tol * tol * ‖b‖ * ‖b‖) tiny := lt_max_of_lt_right ht
  obtain ⟨h1, -⟩ := tcgLoop_spec A hA M hM b _ hth info (maxIters - 1) _ _ hinv
  have h2 := tcgLoop_ends A hA M hM b _ hth info (maxIters - 1) _ _ hinv (by rw [finrank_bot]; omega)
  rw [hr]
  set e := tcgLoop A M ‖b‖ (max (tol * tol * ‖b‖ * ‖b‖) tiny) info (maxIters - 1) (tcgStart A M b 0)
  simp only
  rcases h2 with h2 | h2
  · cases hs : e.stop with
    | negativeCurvature => left; rw [sq]; exact h1.boundary (Or.inl hs)
    | exceededTrustRegion => left; rw [sq]; exact h1.boundary (Or.inr hs)
    | reachedTargetResidualKappaLinear => right; left; exact h1.kappa (Or.inl hs)
    | reachedTargetResidualThetaSuperLinear => right; left; exact h1.kappa (Or.inr hs)
    | maximumInnerIterations => exact absurd hs h2
    | modelIncreased => exact absurd hs h1.never
  · exact Or.inr (Or.inr h2)

example : Module.finrank ℝ ℝ < 2 ∧ (1 / 100 : ℝ) < ‖(1 : ℝ)‖ ∧
    max ((0 : ℝ) * 0 * ‖(1 : ℝ)‖ * ‖(1 : ℝ)‖) (1 / 100) ≤ ‖(1 : ℝ)‖ * ‖(1 : ℝ)‖ := by
  refine ⟨by simp, by norm_num, by norm_num⟩

end

end Ikarus
