import Verif.TrustRegion.Model
import Verif.TrustRegion.TCGProps
import Mathlib.Tactic.Linarith
import Mathlib.Tactic.Positivity
import Mathlib.Tactic.FieldSimp
import Mathlib.Tactic.NormNum

/-!
C27, C28, C63: the trust region solver.
-/

namespace Ikarus

noncomputable section

variable {X V S : Type} [NormedAddCommGroup V] [InnerProductSpace ℝ V]

/-! ### The decision of one iteration -/

/-- The regularisation added to actual and predicted decrease. -/
def Spec.regularisation (set : TRSettings) (e : ℝ) : ℝ := max 1 |e| * (set.rho_reg / 8192)

/-- When a proposal is to be accepted: both energies are finite, the regularised predicted decrease
is positive, the ratio of the regularised decreases exceeds the threshold and the energy does not
increase by more than rounding. -/
def Spec.Accepts (set : TRSettings) (cmpTol : ℝ) (energy energyProposal : Option ℝ) (m : ℝ) : Prop :=
  ∃ e e', energy = some e ∧ energyProposal = some e' ∧ 0 < m + Spec.regularisation set e ∧
    set.rho_prime * (m + Spec.regularisation set e) < e - e' + Spec.regularisation set e ∧
    (e' < e + 1 / 10 ^ 12 ∨ |e - e' + 1 / 10 ^ 12| ≤ cmpTol * max |e - e'| (1 / 10 ^ 12))

theorem rhoReg_eq (set : TRSettings) (e : ℝ) : rhoReg set e = Spec.regularisation set e := by
  unfold rhoReg Spec.regularisation trEps; ring

theorem trDecide_accept_raw (set : TRSettings) (cmpTol : ℝ) (energy energyProposal : Option ℝ)
    (m etaNorm : ℝ) (st : TCGStopReason) (Delta : ℝ) (plus minus : Int) (rej : Nat) :
    (trDecide set cmpTol energy energyProposal m etaNorm st Delta plus minus rej).accept =
      (trModelDecreased (trRho set energy energyProposal m).1 &&
       rhoGt (trRho set energy energyProposal m).2 set.rho_prime &&
       trEnergyDecreased cmpTol energy energyProposal) := by
  unfold trDecide trAccept
  simp only
  split
  · rename_i h
    rw [h]
  · rename_i h
    simp only [Bool.not_eq_true] at h
    rw [h]

/-- C27. A proposal is accepted exactly in the stated cases; a proposal whose energy is not finite is
rejected. -/
theorem trDecide_accept (set : TRSettings) (hp : 0 ≤ set.rho_prime) (cmpTol : ℝ)
    (energy energyProposal : Option ℝ) (m etaNorm : ℝ) (st : TCGStopReason) (Delta : ℝ)
    (plus minus : Int) (rej : Nat) :
    (trDecide set cmpTol energy energyProposal m etaNorm st Delta plus minus rej).accept = true ↔
      Spec.Accepts set cmpTol energy energyProposal m := by
  rw [trDecide_accept_raw]
  unfold Spec.Accepts
  cases energy with
  | none => simp [trEnergyDecreased]
  | some e =>
    cases energyProposal with
    | none => simp [trEnergyDecreased]
    | some e' =>
      have hex : (∃ a b, some e = some a ∧ some e' = some b ∧ 0 < m + Spec.regularisation set a ∧
          set.rho_prime * (m + Spec.regularisation set a) < a - b + Spec.regularisation set a ∧
          (b < a + 1 / 10 ^ 12 ∨ |a - b + 1 / 10 ^ 12| ≤ cmpTol * max |a - b| (1 / 10 ^ 12))) ↔
          (0 < m + Spec.regularisation set e ∧
          set.rho_prime * (m + Spec.regularisation set e) < e - e' + Spec.regularisation set e ∧
          (e' < e + 1 / 10 ^ 12 ∨ |e - e' + 1 / 10 ^ 12| ≤ cmpTol * max |e - e'| (1 / 10 ^ 12))) := by
        constructor
        · rintro ⟨a, b, ha, hb, h⟩
          simp only [Option.some.injEq] at ha hb
          subst ha hb
          exact h
        · intro h
          exact ⟨e, e', rfl, rfl, h⟩
      rw [hex]
      simp only [trRho, rhoReg_eq, Bool.and_eq_true, trEnergyDecreased]
      generalize Spec.regularisation set e = R
      have hfg : floatGe cmpTol (e - e') (-(1 / 10 ^ 12)) = true ↔
          (e' < e + 1 / 10 ^ 12 ∨ |e - e' + 1 / 10 ^ 12| ≤ cmpTol * max |e - e'| (1 / 10 ^ 12)) := by
        unfold floatGe
        have hab : |(-(1 / 10 ^ 12) : ℝ)| = 1 / 10 ^ 12 := by rw [abs_neg, abs_of_pos (by positivity)]
        rw [hab, sub_neg_eq_add, Bool.or_eq_true, decide_eq_true_iff, decide_eq_true_iff]
        constructor
        · rintro (h | h)
          · left; linarith
          · right; exact h
        · rintro (h | h)
          · left; show _ < _; linarith
          · right; exact h
      rw [hfg]
      by_cases hden : m + R = 0
      · simp [hden, trModelDecreased]
      · rw [if_neg hden]
        simp only [decide_eq_true_iff, gt_iff_lt, trModelDecreased, rhoGt]
        by_cases hpos : 0 < m + R
        · have : set.rho_prime < (if (e - e' + R) / (m + R) < 0 then -1 else (e - e' + R) / (m + R)) ↔
              set.rho_prime * (m + R) < e - e' + R := by
            rw [← lt_div_iff₀ hpos]
            by_cases hn : (e - e' + R) / (m + R) < 0
            · rw [if_pos hn]
              constructor <;> intro h <;> linarith
            · rw [if_neg hn]
          rw [this, and_assoc]
        · simp [hpos]

/-- C28. The radius after an iteration: on a shrink a quarter; on success at the boundary 3.5 times
the old one but at most `DeltaBar`; else unchanged; in addition after a rejection half of it (from
the sixth rejection in a row on) or at most half the norm of the correction. -/
theorem trDecide_radius (set : TRSettings) (cmpTol : ℝ) (energy energyProposal : Option ℝ)
    (m etaNorm : ℝ) (st : TCGStopReason) (Delta : ℝ) (plus minus : Int) (rej : Nat) :
    let d := trDecide set cmpTol energy energyProposal m etaNorm st Delta plus minus rej
    ∃ D, (D = Delta ∨ D = Delta / 4 ∨ D = capDelta set.DeltaBar (7 / 2 * Delta)) ∧
      (d.accept = true → d.Delta = D ∧ d.consecutiveRejected = 0) ∧
      (d.accept = false → d.Delta = (if 5 ≤ rej then D / 2 else min D (etaNorm / 2)) ∧
        d.consecutiveRejected = rej + 1) ∧
      (energyProposal = none → D = Delta / 4) := by
  intro d
  have hnone : energyProposal = none →
      rhoLtOrNan (trRho set energy energyProposal m).2 (1 / 10 ^ 4) = true := by
    intro h
    cases energy <;> simp [h, trRho, rhoLtOrNan]
  simp only [d, trDecide]
  revert hnone
  generalize rhoLtOrNan (trRho set energy energyProposal m).2 (1 / 10 ^ 4) = b1
  generalize trModelDecreased (trRho set energy energyProposal m).1 = b2
  generalize trEnergyDecreased cmpTol energy energyProposal = b3
  generalize (rhoGt (trRho set energy energyProposal m).2 (99 / 100) &&
    (st == .negativeCurvature || st == .exceededTrustRegion)) = b4
  generalize rhoGt (trRho set energy energyProposal m).2 set.rho_prime = b5
  intro hnone
  have hrad : ∃ D, (D = Delta ∨ D = Delta / 4 ∨ D = capDelta set.DeltaBar (7 / 2 * Delta)) ∧
      (trRadius set.DeltaBar (b1 || !b2 || !b3) b4 ⟨false, Delta, plus, minus, rej⟩).Delta = D ∧
      (trRadius set.DeltaBar (b1 || !b2 || !b3) b4 ⟨false, Delta, plus, minus, rej⟩).consecutiveRejected
        = rej ∧ (energyProposal = none → D = Delta / 4) := by
    unfold trRadius
    by_cases h1 : (b1 || !b2 || !b3) = true
    · rw [if_pos h1]
      refine ⟨Delta / 4, Or.inr (Or.inl rfl), ?_, ?_, fun _ => rfl⟩ <;> simp only <;> split <;> rfl
    · have hne : energyProposal ≠ none := by
        intro h
        rw [hnone h] at h1
        simp at h1
      rw [if_neg h1]
      by_cases h2 : b4 = true
      · rw [if_pos h2]
        refine ⟨capDelta set.DeltaBar (7 / 2 * Delta), Or.inr (Or.inr rfl), ?_, ?_,
          fun h => absurd h hne⟩ <;> simp only <;> split <;> rfl
      · rw [if_neg h2]
        exact ⟨Delta, Or.inl rfl, rfl, rfl, fun h => absurd h hne⟩
  obtain ⟨D, h1, h2, h3, h4⟩ := hrad
  refine ⟨D, h1, ?_, ?_, h4⟩
  · unfold trAccept
    split
    · intro _; exact ⟨h2, rfl⟩
    · simp
  · unfold trAccept
    split
    · simp
    · intro _
      simp only [h2, h3]
      simp

theorem accepts_energy (set : TRSettings) (cmpTol : ℝ) (h0 : 0 ≤ cmpTol) (h1 : cmpTol < 1)
    (energy energyProposal : Option ℝ) (m : ℝ) (h : Spec.Accepts set cmpTol energy energyProposal m) :
    ∃ e e', energy = some e ∧ energyProposal = some e' ∧ e' ≤ e + 1 / 10 ^ 12 / (1 - cmpTol) := by
  obtain ⟨e, e', he, he', -, -, hd⟩ := h
  refine ⟨e, e', he, he', ?_⟩
  have hpos : 0 < 1 - cmpTol := by linarith
  have hbig : (1 : ℝ) / 10 ^ 12 ≤ 1 / 10 ^ 12 / (1 - cmpTol) := by
    rw [le_div_iff₀ hpos]
    nlinarith
  by_cases hlt : e' < e + 1 / 10 ^ 12
  · linarith
  · have hge := not_lt.1 hlt
    have hd := hd.resolve_left hlt
    have hneg : e - e' + 1 / 10 ^ 12 ≤ 0 := by linarith
    have h12 : (0 : ℝ) < 1 / 10 ^ 12 := by positivity
    have hneg2 : e - e' ≤ 0 := by linarith
    rw [abs_of_nonpos hneg, abs_of_nonpos hneg2, max_eq_left (by linarith)] at hd
    have : (e' - e) * (1 - cmpTol) ≤ 1 / 10 ^ 12 := by linarith
    have := (le_div_iff₀ hpos).2 this
    linarith

/-! ### The ratio of actual and predicted decrease -/

/-- C63 in full: with the default settings a proposal whose actual decrease is less than `rho_prime`
times the predicted one is rejected. -/
def Spec.RatioDecides : Prop :=
  ∀ (e e' m : ℝ), e - e' < ({} : TRSettings).rho_prime * m →
    ¬ Spec.Accepts {} 0 (some e) (some e') m

/-- C63, false of the code: the regularisation is so large that with the default settings every
proposal that does not increase the energy is accepted, whatever the predicted decrease, as long as
that is at most `12000 * max 1 |energy|`. -/
theorem ratio_ineffective (cmpTol : ℝ) (e e' m : ℝ) (hle : e' ≤ e) (hm : 0 ≤ m)
    (hm2 : m ≤ 12000 * max 1 |e|) : Spec.Accepts {} cmpTol (some e) (some e') m := by
  have hmax : (1 : ℝ) ≤ max 1 |e| := le_max_left _ _
  have hR : Spec.regularisation {} e = max 1 |e| * (10 ^ 6 / 8192) := rfl
  have hpr : ({} : TRSettings).rho_prime = 1 / 100 := rfl
  have h12 : (0 : ℝ) < 1 / 10 ^ 12 := by positivity
  refine ⟨e, e', rfl, rfl, ?_, ?_, Or.inl (by linarith)⟩
  · rw [hR]; nlinarith
  · rw [hR, hpr]; nlinarith

/-- C63 is false. -/
theorem ratio_does_not_decide : ¬ Spec.RatioDecides := by
  intro h
  refine h 0 0 1 ?_ (ratio_ineffective 0 0 0 1 le_rfl (by norm_num) (by norm_num))
  show (0 : ℝ) - 0 < 1 / 100 * 1
  norm_num

/-- C63, partial: without regularisation (`rho_reg = 0`) the ratio decides. Missing: positive
`rho_reg`. -/
theorem ratio_decides_partial (set : TRSettings) (h0 : set.rho_reg = 0) (cmpTol e e' m : ℝ)
    (h : Spec.Accepts set cmpTol (some e) (some e') m) : 0 < m ∧ set.rho_prime * m < e - e' := by
  obtain ⟨a, b, ha, hb, h1, h2, -⟩ := h
  simp only [Option.some.injEq] at ha hb
  subst ha hb
  have : Spec.regularisation set e = 0 := by simp [Spec.regularisation, h0]
  rw [this] at h1 h2
  simp only [add_zero] at h1 h2
  exact ⟨h1, h2⟩

/-! ### One iteration -/

/-- The predicted decrease of a correction. -/
def Spec.predicted (g : V) (h : V → V) (eta : V) : ℝ := -inner ℝ eta (g + (1 / 2 : ℝ) • h eta)

theorem trBody_facts (P : TRProblem X V S) (set : TRSettings) (cmpTol : ℝ) (s : TRState X V S) :
    let c := trCorrection P set s
    let d := trDecide set cmpTol s.energy (P.energy (P.update s.x c.2.1))
      (Spec.predicted s.g s.h c.2.1) ‖c.2.1‖ c.2.2.1 s.Delta s.consecutiveTRplus
      s.consecutiveTRminus s.consecutiveRejected
    let s' := trBody P set cmpTol s
    s'.acceptProposal = d.accept ∧ s'.Delta = d.Delta ∧
      s'.consecutiveRejected = d.consecutiveRejected ∧
      s'.outerIter = s.outerIter + 1 ∧ s'.etaNorm = ‖c.2.1‖ ∧
      s'.x = (if d.accept then P.update s.x c.2.1 else P.update (P.update s.x c.2.1) (-c.2.1)) ∧
      s'.energy = (if d.accept then P.energy (P.update s.x c.2.1) else s.energy) ∧
      s'.g = P.grad s'.x ∧ s'.h = P.hess s'.x ∧ s'.gradNorm = ‖P.grad s'.x‖ ∧
      s'.eta = (if d.accept then c.2.1 else 0) ∧
      s'.info = { s.info with correctionNorm := some ‖c.2.1‖, residualNorm := some s.gradNorm } ∧
      s'.stop = s.stop ∧
      s'.trace = s.trace ++ [.iterationStarted, .correctionUpdated] ++
        (if d.accept then [.correctionnormUpdated, .residualnormUpdated, .solutionChanged] else [])
        ++ [.iterationEnded] := by
  intro c d s'
  have hs' : s' = trApply P s c d := rfl
  rw [hs']
  generalize d = d
  generalize c = c
  unfold trApply
  simp only
  cases hd : d.accept <;> simp

/-- States at the head of the loop of a run. -/
inductive Spec.TRReach (P : TRProblem X V S) (set : TRSettings) (cmpTol : ℝ) (s0 : TRState X V S) :
    TRState X V S → Prop
  | start : TRReach P set cmpTol s0 s0
  | step (s : TRState X V S) : TRReach P set cmpTol s0 s → stoppingCriterion set s = none →
      TRReach P set cmpTol s0 (trBody P set cmpTol s)

open Spec

/-- At the head of the loop the energy, gradient and Hessian are those of the iterate. -/
theorem reach_consistent (P : TRProblem X V S) (hinv : ∀ x e, P.update (P.update x e) (-e) = x)
    (set : TRSettings) (cmpTol : ℝ) (w : S) (st : TCGStopReason) (x : X) (eta : V)
    (s : TRState X V S) (h : TRReach P set cmpTol (trStart P set w st x eta) s) :
    s.energy = P.energy s.x ∧ s.g = P.grad s.x ∧ s.h = P.hess s.x ∧ s.gradNorm = ‖P.grad s.x‖ := by
  induction h with
  | start => exact ⟨rfl, rfl, rfl, rfl⟩
  | step s hs hstop ih =>
    obtain ⟨-, -, -, -, -, h6, h7, h8, h9, h10, -⟩ := trBody_facts P set cmpTol s
    refine ⟨?_, h8, h9, h10⟩
    rw [h7, h6]
    split
    · rfl
    · rw [hinv]; exact ih.1

/-- C27. In every iteration of every run: either the proposal is accepted, the energies before and
after are finite and the new energy exceeds the old one by at most `10⁻¹² / (1 - cmpTol)` (`cmpTol`
being the relative tolerance of the comparison); or it is rejected and iterate, energy, gradient,
Hessian are those before the iteration. The update must be undone by the negative correction. -/
theorem tr_iteration (P : TRProblem X V S) (hinv : ∀ x e, P.update (P.update x e) (-e) = x)
    (set : TRSettings) (hp : 0 ≤ set.rho_prime) (cmpTol : ℝ) (h0 : 0 ≤ cmpTol) (h1 : cmpTol < 1)
    (w : S) (st : TCGStopReason) (x : X) (eta : V) (s : TRState X V S)
    (h : TRReach P set cmpTol (trStart P set w st x eta) s) :
    let s' := trBody P set cmpTol s
    (s'.acceptProposal = true ∧ ∃ e e' c, P.energy s.x = some e ∧ P.energy s'.x = some e' ∧
      s'.x = P.update s.x c ∧ s'.etaNorm = ‖c‖ ∧ e' ≤ e + 1 / 10 ^ 12 / (1 - cmpTol)) ∨
    (s'.acceptProposal = false ∧ s'.x = s.x ∧ P.energy s'.x = P.energy s.x ∧ s'.g = s.g ∧
      s'.h = s.h ∧ s'.energy = s.energy ∧ s'.eta = 0) := by
  intro s'
  obtain ⟨c1, c2, c3, c4⟩ := reach_consistent P hinv set cmpTol w st x eta s h
  obtain ⟨f1, -, -, -, f5, f6, f7, f8, f9, f10, f11, -⟩ := trBody_facts P set cmpTol s
  set c := trCorrection P set s
  cases hd : (trDecide set cmpTol s.energy (P.energy (P.update s.x c.2.1))
      (Spec.predicted s.g s.h c.2.1) ‖c.2.1‖ c.2.2.1 s.Delta s.consecutiveTRplus
      s.consecutiveTRminus s.consecutiveRejected).accept with
  | true =>
    left
    rw [hd] at f1 f6
    simp only [if_true] at f6
    refine ⟨f1, ?_⟩
    have hacc := (trDecide_accept set hp cmpTol _ _ _ _ _ _ _ _ _).1 hd
    obtain ⟨e, e', he, he', hle⟩ := accepts_energy set cmpTol h0 h1 _ _ _ hacc
    exact ⟨e, e', c.2.1, by rw [← c1, he], by rw [f6, he'], f6, f5, hle⟩
  | false =>
    right
    rw [hd] at f1 f6 f7 f11
    simp only [Bool.false_eq_true, if_false, hinv] at f6 f7 f11
    refine ⟨f1, f6, by rw [f6], ?_, ?_, f7, f11⟩
    · rw [f8, f6, c2]
    · rw [f9, f6, c3]

/-- C27. Over a whole run the energy increases by at most that allowance for every iteration. -/
theorem tr_energy_history (P : TRProblem X V S) (hinv : ∀ x e, P.update (P.update x e) (-e) = x)
    (set : TRSettings) (hp : 0 ≤ set.rho_prime) (cmpTol : ℝ) (h0 : 0 ≤ cmpTol) (h1 : cmpTol < 1)
    (w : S) (st : TCGStopReason) (x : X) (eta : V) (e : ℝ) (he : P.energy x = some e)
    (s : TRState X V S) (h : TRReach P set cmpTol (trStart P set w st x eta) s) :
    ∃ e', P.energy s.x = some e' ∧ e' ≤ e + s.outerIter * (1 / 10 ^ 12 / (1 - cmpTol)) := by
  induction h with
  | start => exact ⟨e, he, by simp [trStart]⟩
  | step s hs hstop ih =>
    obtain ⟨e1, he1, hle1⟩ := ih
    have hi : (trBody P set cmpTol s).outerIter = s.outerIter + 1 :=
      (trBody_facts P set cmpTol s).2.2.2.1
    have hpos : 0 ≤ 1 / 10 ^ 12 / (1 - cmpTol) := by
      have : 0 < 1 - cmpTol := by linarith
      positivity
    rcases tr_iteration P hinv set hp cmpTol h0 h1 w st x eta s hs with
      ⟨-, a, b, -, ha, hb, -, -, hle⟩ | ⟨-, -, hE, -⟩
    · rw [he1, Option.some.injEq] at ha
      subst ha
      refine ⟨b, hb, ?_⟩
      rw [hi]; push_cast; linarith
    · refine ⟨e1, by rw [hE, he1], ?_⟩
      rw [hi]; push_cast; linarith

/-! ### Radius -/

/-- C28. Whenever an iteration is made, the radius is positive and at most `DeltaBar`. -/
theorem tr_radius (P : TRProblem X V S) (set : TRSettings) (hD : 0 < set.Delta0)
    (hb : ∀ b, set.DeltaBar = some b → set.Delta0 ≤ b) (hc : 0 < set.corr_tol) (cmpTol : ℝ) (w : S)
    (st : TCGStopReason) (x : X) (eta : V) (s : TRState X V S)
    (h : TRReach P set cmpTol (trStart P set w st x eta) s) :
    (∀ b, set.DeltaBar = some b → s.Delta ≤ b) ∧ 0 ≤ s.Delta ∧
      (stoppingCriterion set s = none → 0 < s.Delta) := by
  induction h with
  | start => exact ⟨hb, hD.le, fun _ => hD⟩
  | step s hs hstop ih =>
    obtain ⟨i1, -, i3⟩ := ih
    have hpos := i3 hstop
    obtain ⟨f1, f2, f3, f4, f5, -⟩ := trBody_facts P set cmpTol s
    set c := trCorrection P set s
    obtain ⟨D, hD1, hD2, hD3, -⟩ := trDecide_radius set cmpTol s.energy
      (P.energy (P.update s.x c.2.1)) (Spec.predicted s.g s.h c.2.1) ‖c.2.1‖ c.2.2.1 s.Delta
      s.consecutiveTRplus s.consecutiveTRminus s.consecutiveRejected
    have hDpos : 0 < D := by
      rcases hD1 with rfl | rfl | rfl
      · exact hpos
      · linarith
      · unfold capDelta
        cases hdb : set.DeltaBar with
        | none => simp only; linarith
        | some b =>
          simp only
          have := i1 b hdb
          exact lt_min (by linarith) (by linarith)
    have hDb : ∀ b, set.DeltaBar = some b → D ≤ b := by
      intro b hdb
      have := i1 b hdb
      rcases hD1 with rfl | rfl | rfl
      · exact this
      · linarith
      · simp [capDelta, hdb]
    cases hd : (trDecide set cmpTol s.energy (P.energy (P.update s.x c.2.1))
        (Spec.predicted s.g s.h c.2.1) ‖c.2.1‖ c.2.2.1 s.Delta s.consecutiveTRplus
        s.consecutiveTRminus s.consecutiveRejected).accept with
    | true =>
      rw [(hD2 hd).1] at f2
      rw [f2]
      exact ⟨hDb, hDpos.le, fun _ => hDpos⟩
    | false =>
      rw [(hD3 hd).1] at f2
      rw [f2]
      by_cases h5 : 5 ≤ s.consecutiveRejected
      · rw [if_pos h5]
        refine ⟨fun b hb' => ?_, by linarith, fun _ => by linarith⟩
        have := hDb b hb'
        linarith
      · rw [if_neg h5]
        refine ⟨fun b hb' => (min_le_left _ _).trans (hDb b hb'), le_min hDpos.le (by positivity), ?_⟩
        intro hns
        by_cases hz : ‖c.2.1‖ = 0
        · exfalso
          unfold stoppingCriterion at hns
          rw [f5, hz, f4] at hns
          by_cases hg : (trBody P set cmpTol s).gradNorm < set.grad_tol
          · simp [hg] at hns
          · simp [hg, hc] at hns
        · have : 0 < ‖c.2.1‖ := lt_of_le_of_ne (norm_nonneg _) (Ne.symm hz)
          exact lt_min hDpos (by linarith)

/-! ### Termination and success -/

theorem stoppingCriterion_max (set : TRSettings) (s : TRState X V S)
    (h : (s.outerIter : Int) ≥ set.maxIter) : ∃ r, stoppingCriterion set s = some r := by
  unfold stoppingCriterion
  split
  · exact ⟨_, rfl⟩
  · split
    · exact ⟨_, rfl⟩
    · split
      · exact ⟨_, rfl⟩
      · exact ⟨_, rfl⟩

theorem trLoop_reach (P : TRProblem X V S) (set : TRSettings) (cmpTol : ℝ) (s0 : TRState X V S)
    (fuel : Nat) (s : TRState X V S) (h : TRReach P set cmpTol s0 s)
    (hf : set.maxIter ≤ s.outerIter + fuel) :
    ∃ s1 r, TRReach P set cmpTol s0 s1 ∧ stoppingCriterion set s1 = some r ∧
      trLoop P set cmpTol fuel s = some { s1 with stop := r } := by
  induction fuel generalizing s with
  | zero =>
    obtain ⟨r, hr⟩ := stoppingCriterion_max set s (by omega)
    exact ⟨s, r, h, hr, by simp [trLoop, hr]⟩
  | succ fuel ih =>
    cases hr : stoppingCriterion set s with
    | some r => exact ⟨s, r, h, hr, by simp [trLoop, hr]⟩
    | none =>
      have hi : (trBody P set cmpTol s).outerIter = s.outerIter + 1 :=
        (trBody_facts P set cmpTol s).2.2.2.1
      obtain ⟨s1, r, a, b, c⟩ := ih (trBody P set cmpTol s) (.step s h hr) (by rw [hi]; push_cast; omega)
      refine ⟨s1, r, a, b, ?_⟩
      rw [← c]
      simp [trLoop, hr]

theorem reach_iterations (P : TRProblem X V S) (set : TRSettings) (cmpTol : ℝ) (w : S)
    (st : TCGStopReason) (x : X) (eta : V) (s : TRState X V S)
    (h : TRReach P set cmpTol (trStart P set w st x eta) s) :
    (s.outerIter : Int) ≤ max 0 set.maxIter ∧ (s.outerIter ≠ 0 → s.info.correctionNorm = some s.etaNorm)
      ∧ s.gradNorm = ‖P.grad s.x‖ ∧
      ∃ acc : List Bool, acc.length = s.outerIter ∧
        s.trace = [.init] ++ acc.flatMap fun a => [.iterationStarted, .correctionUpdated] ++
          (if a then [.correctionnormUpdated, .residualnormUpdated, .solutionChanged] else [])
          ++ [.iterationEnded] := by
  induction h with
  | start => exact ⟨by simp [trStart], fun h => absurd rfl h, rfl, [], rfl, rfl⟩
  | step s hs hstop ih =>
    obtain ⟨i1, i2, i3, acc, i4, i5⟩ := ih
    obtain ⟨f1, f2, f3, f4, f5, f6, f7, f8, f9, f10, f11, f12, f13, f14⟩ := trBody_facts P set cmpTol s
    have hlt : (s.outerIter : Int) < set.maxIter := by
      by_contra hge
      obtain ⟨r, hr⟩ := stoppingCriterion_max set s (by omega)
      rw [hstop] at hr; exact absurd hr (by simp)
    refine ⟨by rw [f4]; push_cast; omega, fun _ => by rw [f12, f5], f10,
      acc ++ [(trBody P set cmpTol s).acceptProposal], ?_, ?_⟩
    · rw [List.length_append, i4, f4]; rfl
    · rw [f14, i5, List.flatMap_append, f1]
      simp

/-- C28. Every run ends after at most `maxIter` iterations; success is reported iff an iteration has
been made and the norm of the gradient at the result or of the last correction computed is below its
tolerance; the reported numbers are those of the result, and the messages are one block for every
iteration. -/
theorem tr_run (P : TRProblem X V S) (set : TRSettings) (cmpTol : ℝ) (fuel : Nat)
    (hf : set.maxIter ≤ fuel) (w : S) (st : TCGStopReason) (x : X) (eta : V) :
    ∃ s1 s, TRReach P set cmpTol (trStart P set w st x eta) s1 ∧
      (∃ r, stoppingCriterion set s1 = some r) ∧
      trSolve P set cmpTol fuel w st x eta = some s ∧ s.x = s1.x ∧
      s.info.iterations = s1.outerIter ∧ (s1.outerIter : Int) ≤ max 0 set.maxIter ∧
      s.info.residualNorm = some ‖P.grad s.x‖ ∧
      (s1.outerIter ≠ 0 → s.info.correctionNorm = some s1.etaNorm) ∧
      (s.info.success = true ↔ s1.outerIter ≠ 0 ∧
        (‖P.grad s.x‖ < set.grad_tol ∨ s1.etaNorm < set.corr_tol)) ∧
      (set.maxtime = none → 0 < set.maxIter → s1.outerIter ≠ 0) ∧
      ∃ acc : List Bool, acc.length = s1.outerIter ∧
        s.trace = [.init] ++ (acc.flatMap fun a => [.iterationStarted, .correctionUpdated] ++
          (if a then [.correctionnormUpdated, .residualnormUpdated, .solutionChanged] else [])
          ++ [.iterationEnded]) ++ (if s.info.success then [.finishedSucessfully] else []) := by
  obtain ⟨s1, r, h1, h2, h3⟩ := trLoop_reach P set cmpTol (trStart P set w st x eta) fuel _ .start
    (by simp [trStart]; omega)
  obtain ⟨j1, j2, j3, acc, j4, j5⟩ := reach_iterations P set cmpTol w st x eta s1 h1
  have hsucc : (r == .correctionNormTolReached || r == .gradientNormTolReached) = true ↔
      s1.outerIter ≠ 0 ∧ (‖P.grad s1.x‖ < set.grad_tol ∨ s1.etaNorm < set.corr_tol) := by
    rw [← j3]
    unfold stoppingCriterion at h2
    by_cases ho : s1.outerIter = 0
    · simp only [ho, ne_eq, not_true_eq_false, and_false, if_false] at h2
      have : r = .maximumTimeReached ∨ r = .maximumIterationsReached := by
        revert h2
        split
        · intro h2; left; simpa using h2.symm
        · split
          · intro h2; right; simpa using h2.symm
          · simp
      rcases this with rfl | rfl <;> simp [ho]
    · by_cases hg : s1.gradNorm < set.grad_tol
      · rw [if_pos ⟨hg, ho⟩] at h2
        simp only [Option.some.injEq] at h2
        subst h2
        simp [hg, ho]
      · rw [if_neg (fun h => hg h.1)] at h2
        by_cases he : s1.etaNorm < set.corr_tol
        · rw [if_pos ⟨he, ho⟩] at h2
          simp only [Option.some.injEq] at h2
          subst h2
          simp [he, ho]
        · rw [if_neg (fun h => he h.1)] at h2
          have : r = .maximumTimeReached ∨ r = .maximumIterationsReached := by
            revert h2
            split
            · intro h2; left; simpa using h2.symm
            · split
              · intro h2; right; simpa using h2.symm
              · simp
          rcases this with rfl | rfl <;> simp [hg, he]
  have hone : set.maxtime = none → 0 < set.maxIter → s1.outerIter ≠ 0 := by
    intro hm hpos ho
    unfold stoppingCriterion at h2
    simp [ho, hm, timeReached] at h2
    omega
  refine ⟨s1, trFinish { s1 with stop := r }, h1, ⟨r, h2⟩, by simp [trSolve, h3], ?_⟩
  cases hs : (r == .correctionNormTolReached || r == .gradientNormTolReached) with
  | true =>
    have := hsucc.1 hs
    unfold trFinish
    simp only [hs, if_true]
    refine ⟨trivial, trivial, j1, by rw [j3], j2, ⟨fun _ => this, fun _ => trivial⟩, hone, acc, j4, ?_⟩
    rw [j5]
  | false =>
    have hno : ¬ (s1.outerIter ≠ 0 ∧ (‖P.grad s1.x‖ < set.grad_tol ∨ s1.etaNorm < set.corr_tol)) := by
      intro h
      rw [hsucc.2 h] at hs
      exact absurd hs (by simp)
    unfold trFinish
    simp only [hs, Bool.false_eq_true, if_false]
    refine ⟨trivial, trivial, j1, by rw [j3], j2, ⟨fun h => absurd h (by simp), fun h => absurd h hno⟩,
      hone, acc, j4, ?_⟩
    rw [j5]; simp

/-- C28, what success does not mean: if every proposal has an energy that is not finite and is
rejected, the radius shrinks until the rejected correction is below the tolerance; then success is
reported although the solution is the start and the gradient is not small. -/
theorem tr_success_after_rejections (P : TRProblem X V S)
    (hinv : ∀ x e, P.update (P.update x e) (-e) = x) (set : TRSettings)
    (hr : set.useRand = false) (hm : set.maxtime = none) (cmpTol : ℝ) (w : S)
    (st : TCGStopReason) (x : X) (eta : V)
    (hin : ∀ w D g h e, 0 < D → ‖(P.inner w D g h e).2.1‖ ≤ D ∧ (P.inner w D g h e).2.1 ≠ 0)
    (hbad : ∀ e, e ≠ 0 → P.energy (P.update x e) = none) (hD : 0 < set.Delta0)
    (hg : set.grad_tol ≤ ‖P.grad x‖) (n : Nat) (hn : set.Delta0 / 4 ^ n < set.corr_tol)
    (hmax : (n : Int) < set.maxIter) :
    ∃ s, trSolve P set cmpTol set.maxIter.toNat w st x eta = some s ∧ s.info.success = true ∧
      s.x = x ∧ set.grad_tol ≤ ‖P.grad s.x‖ := by
  have key : ∀ s, TRReach P set cmpTol (trStart P set w st x eta) s →
      s.x = x ∧ 0 < s.Delta ∧ s.Delta ≤ set.Delta0 / 4 ^ s.outerIter ∧
      (s.outerIter ≠ 0 → s.etaNorm ≤ set.Delta0 / 4 ^ (s.outerIter - 1)) := by
    intro s hs
    induction hs with
    | start => exact ⟨rfl, hD, by simp [trStart], fun h => absurd rfl h⟩
    | step s hs hstop ih =>
      obtain ⟨i1, i2, i3, -⟩ := ih
      obtain ⟨f1, f2, f3, f4, f5, f6, f7, -⟩ := trBody_facts P set cmpTol s
      set c := trCorrection P set s with hc
      have hcn : ‖c.2.1‖ ≤ s.Delta ∧ c.2.1 ≠ 0 := by
        rw [hc]
        unfold trCorrection
        simp only [hr, Bool.false_eq_true, false_and, if_false]
        exact hin _ _ _ _ _ i2
      have hacc : (trDecide set cmpTol s.energy (P.energy (P.update s.x c.2.1))
        (Spec.predicted s.g s.h c.2.1) ‖c.2.1‖ c.2.2.1 s.Delta s.consecutiveTRplus
        s.consecutiveTRminus s.consecutiveRejected).accept = false := by
        rw [trDecide_accept_raw, i1, hbad _ hcn.2]
        cases s.energy <;> simp [trEnergyDecreased]
      obtain ⟨D, hD1, hD2, hD3, hD4⟩ := trDecide_radius set cmpTol s.energy
        (P.energy (P.update s.x c.2.1)) (Spec.predicted s.g s.h c.2.1) ‖c.2.1‖ c.2.2.1 s.Delta
        s.consecutiveTRplus s.consecutiveTRminus s.consecutiveRejected
      have hDv : D = s.Delta / 4 := hD4 (by rw [i1]; exact hbad _ hcn.2)
      rw [hacc] at f6
      simp only [Bool.false_eq_true, if_false, hinv] at f6
      rw [(hD3 hacc).1, hDv] at f2
      have hle : (trBody P set cmpTol s).Delta ≤ s.Delta / 4 := by
        rw [f2]; split
        · linarith
        · exact min_le_left _ _
      have hge : 0 < (trBody P set cmpTol s).Delta := by
        rw [f2]; split
        · linarith
        · exact lt_min (by linarith) (half_pos (norm_pos_iff.2 hcn.2))
      refine ⟨by rw [f6, i1], hge, ?_, fun _ => ?_⟩
      · rw [f4, pow_succ]
        calc (trBody P set cmpTol s).Delta ≤ s.Delta / 4 := hle
          _ ≤ set.Delta0 / 4 ^ s.outerIter / 4 := by linarith
          _ = _ := by rw [div_div]
      · rw [f5, f4]
        exact hcn.1.trans i3
  obtain ⟨s1, s, h1, ⟨r, hr1⟩, h2, h3, -, h5, -, -, h8, h9, -⟩ := tr_run P set cmpTol
    set.maxIter.toNat (by omega) w st x eta
  obtain ⟨k1, -, -, k4⟩ := key s1 h1
  have hne : s1.outerIter ≠ 0 := h9 hm (by omega)
  have hgx : set.grad_tol ≤ ‖P.grad s.x‖ := by rw [h3, k1]; exact hg
  refine ⟨s, h2, h8.2 ⟨hne, Or.inr ?_⟩, by rw [h3, k1], hgx⟩
  by_contra hge
  have hgn : ¬ s1.gradNorm < set.grad_tol := by
    rw [(reach_iterations P set cmpTol w st x eta s1 h1).2.2.1, ← h3]
    exact not_lt.2 hgx
  unfold stoppingCriterion at hr1
  by_cases hit : (s1.outerIter : Int) ≥ set.maxIter
  · have h1 := k4 hne
    have h2 : set.Delta0 / 4 ^ (s1.outerIter - 1) ≤ set.Delta0 / 4 ^ n := by
      apply div_le_div_of_nonneg_left hD.le (by positivity)
      exact pow_le_pow_right₀ (by norm_num) (by omega)
    exact hge (by linarith)
  · simp [hgn, hge, hm, hit, timeReached] at hr1

/-! ### Together with the truncated conjugate gradient method -/

/-- C29. With the truncated conjugate gradient method as inner solver, without random predictor and
with positive regularisation, the model is found to decrease in every iteration, for every symmetric
Hessian. -/
theorem tr_tcg_model_decreases (A : V →ₗ[ℝ] V) (hA : Spec.Symmetric A) (M : V ≃ₗ[ℝ] V)
    (hM : Preconditioner M) (g : V) (maxIters : Nat) (tol tiny : ℝ) (ht : 0 < tiny) (info : TCGInfo)
    (hD : 0 < info.Delta) (set : TRSettings) (hreg : 0 < set.rho_reg) (e : ℝ) (e' : Option ℝ) :
    trModelDecreased (trRho set (some e) e'
      (Spec.predicted g A (tcg A M (-g) 0 maxIters tol tiny info).1)).1 = true := by
  obtain ⟨-, h2, -⟩ := tcg_in_trust_region A hA M hM (-g) maxIters tol tiny ht info hD
  set x := (tcg A M (-g) 0 maxIters tol tiny info).1
  have hq : Spec.predicted g A x = -quadratic A (-g) x := by
    unfold Spec.predicted quadratic
    rw [inner_add_right, inner_smul_right, inner_neg_left, real_inner_comm x g]
    ring
  have hR : 0 < rhoReg set e := by
    unfold rhoReg trEps
    have : (0 : ℝ) < max 1 |e| := lt_max_of_lt_left one_pos
    positivity
  have hpos : 0 < Spec.predicted g A x + rhoReg set e := by rw [hq]; linarith
  unfold trRho
  simp only
  cases e' with
  | none => simp [trModelDecreased, hpos]
  | some e' =>
    simp only
    split <;> simp [trModelDecreased, hpos]

/-- C29. With the random predictor the correction used in the first iteration is not worse than both
the result of the inner solver and the Cauchy point. -/
theorem tr_cauchy (e : ℝ) (g : V) (hg : g ≠ 0) (A : V →ₗ[ℝ] V) (Delta : ℝ) (eta : V) :
    let m := fun y : V => e + inner ℝ g y + 1 / 2 * inner ℝ (A y) y
    let used := trCauchy (some e) g A ‖g‖ Delta eta
    m used ≤ m eta ∧
      ∃ t : ℝ, (t = 1 ∨ 0 < (inner ℝ g (A g) : ℝ) ∧
        t = min (‖g‖ ^ 3 / (Delta * inner ℝ g (A g))) 1) ∧ m used ≤ m ((-t * Delta / ‖g‖) • g) := by
  intro m used
  have hn : ‖g‖ ≠ 0 := norm_ne_zero_iff.2 hg
  set t : ℝ := if (inner ℝ g (A g) : ℝ) ≤ 0 then 1
    else min (‖g‖ ^ 3 / (Delta * inner ℝ g (A g))) 1 with ht
  have hused : used = if m ((-t * Delta / ‖g‖) • g) < m eta then (-t * Delta / ‖g‖) • g else eta := by
    simp only [used, trCauchy, m, map_smul, ← ht, ne_eq, hn, not_false_eq_true, true_and]
  have htc : t = 1 ∨ 0 < (inner ℝ g (A g) : ℝ) ∧
      t = min (‖g‖ ^ 3 / (Delta * inner ℝ g (A g))) 1 := by
    by_cases h : (inner ℝ g (A g) : ℝ) ≤ 0
    · left; rw [ht, if_pos h]
    · right; exact ⟨not_le.1 h, by rw [ht, if_neg h]⟩
  by_cases h : m ((-t * Delta / ‖g‖) • g) < m eta
  · rw [if_pos h] at hused
    rw [hused]
    exact ⟨h.le, t, htc, le_rfl⟩
  · rw [if_neg h] at hused
    rw [hused]
    exact ⟨le_rfl, t, htc, not_lt.1 h⟩

/-! ### The preconditioner -/

/-- C28. The factorisation of the preconditioner is repeated at most six times with a larger shift:
it succeeds with the first shift that works among these, else an exception is thrown. -/
theorem factorize_retries (ok : Nat → Bool) (fuel : Nat) (hf : 7 ≤ fuel) :
    (∀ n, factorizeRetries ok fuel 0 0 = some n ↔ n ≤ 6 ∧ ok n = true ∧ ∀ m < n, ok m = false) ∧
    (factorizeRetries ok fuel 0 0 = none ↔ ∀ m ≤ 6, ok m = false) := by
  have key : ∀ (fuel k : Nat), k ≤ 6 → 7 ≤ fuel + k → (∀ m < k, ok m = false) →
      (∀ n, factorizeRetries ok fuel k k = some n ↔ n ≤ 6 ∧ ok n = true ∧ ∀ m < n, ok m = false) ∧
      (factorizeRetries ok fuel k k = none ↔ ∀ m ≤ 6, ok m = false) := by
    intro fuel
    induction fuel with
    | zero => intro k h1 h2; omega
    | succ fuel ih =>
      intro k h1 h2 h3
      unfold factorizeRetries
      cases hk : ok k with
      | true =>
        refine ⟨fun n => ⟨fun h => ?_, fun h => ?_⟩, fun h => by simp at h, fun h => ?_⟩
        · simp only [if_true, Option.some.injEq] at h
          subst h
          exact ⟨h1, hk, h3⟩
        · have : n = k := by
            rcases Nat.lt_trichotomy n k with hlt | heq | hgt
            · have := h3 n hlt
              rw [h.2.1] at this; exact absurd this (by simp)
            · exact heq
            · have := h.2.2 k hgt
              rw [hk] at this; exact absurd this (by simp)
          simp [this]
        · have := h k h1
          rw [hk] at this; exact absurd this (by simp)
      | false =>
        simp only [Bool.false_eq_true, if_false]
        have h3' : ∀ m < k + 1, ok m = false := by
          intro m hm
          rcases Nat.lt_succ_iff_lt_or_eq.1 hm with h | h
          · exact h3 m h
          · rw [h]; exact hk
        by_cases h5 : k > 5
        · rw [if_pos h5]
          have hk6 : k = 6 := by omega
          refine ⟨fun n => ⟨fun h => by simp at h, fun h => ?_⟩, fun _ m hm => h3' m (by omega),
            fun _ => rfl⟩
          have := h3' n (by omega)
          rw [h.2.1] at this; exact absurd this (by simp)
        · rw [if_neg h5]
          exact ih (k + 1) (by omega) (by omega) h3'
  exact key fuel 0 (by omega) (by omega) (fun m hm => by omega)

/-! ### Cases meeting the hypotheses -/

/-- Minimising with a function that is finite at the start only: all proposals are rejected. -/
def stuckProblem : TRProblem ℝ ℝ Unit :=
  { energy := fun x => if x = 0 then some 0 else none
    grad := fun _ => 1
    hess := fun _ _ => 0
    update := fun x e => x + e
    inner := fun w D _ _ _ => (w, -D, .exceededTrustRegion, 1)
    rand := fun _ _ _ => 0 }

/-- With the default settings success is reported for this problem at zero, where the derivative is
one. -/
example : ∃ s, trSolve stuckProblem {} 0 1000 () .negativeCurvature 0 0 = some s ∧
    s.info.success = true ∧ s.x = 0 ∧ ({} : TRSettings).grad_tol ≤ ‖stuckProblem.grad s.x‖ :=
  tr_success_after_rejections stuckProblem (fun x e => by simp [stuckProblem]) {} rfl rfl 0 () _ 0 0
    (fun w D g h e hD => ⟨by simp [stuckProblem, abs_of_pos hD], by simp [stuckProblem, hD.ne']⟩)
    (fun e he => by simp [stuckProblem, he]) (by norm_num) (by simp [stuckProblem]; norm_num) 12
    (by norm_num) (by norm_num)

example : Spec.Accepts {} 0 (some 1) (some 0) 1 :=
  ratio_ineffective 0 1 0 1 (by norm_num) (by norm_num) (by norm_num)

/-- Without regularization an accepted step has decreased the model and the energy. -/
example : Spec.Accepts { rho_reg := 0 } 0 (some 1) (some 0) 1 ∧ (0 : ℝ) < 1 ∧
    ({ rho_reg := 0 } : TRSettings).rho_prime * 1 < (1 : ℝ) - 0 :=
  have h : Spec.Accepts { rho_reg := 0 } 0 (some 1) (some 0) 1 := by
    refine ⟨1, 0, rfl, rfl, ?_⟩
    norm_num [regularisation]
  ⟨h, ratio_decides_partial { rho_reg := 0 } rfl 0 1 0 1 h⟩

/-- The default settings start with a radius that may not grow above its bound. -/
example (P : TRProblem ℝ ℝ Unit) (s : TRState ℝ ℝ Unit)
    (h : TRReach P { Delta0 := 1, DeltaBar := some 4 } 0 (trStart P { Delta0 := 1, DeltaBar := some 4 } () .negativeCurvature 0 0) s) :
    s.Delta ≤ 4 :=
  (tr_radius P { Delta0 := 1, DeltaBar := some 4 } (by norm_num) (by intro b hb; cases hb; norm_num) (by norm_num) 0 () _ 0 0 s h).1 4 rfl

end

end Ikarus
