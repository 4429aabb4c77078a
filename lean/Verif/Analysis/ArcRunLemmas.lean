import Verif.Analysis.ArcSolveLemmas

/-!
Solves and runs of arc length for nonlinear structures.
-/

namespace Ikarus

open Ikarus.Element Ikarus.Element.Spec PathAnalysis Arc

variable {a : PathAnalysis} {û : Nat → ℝ} {psi s lp : ℝ} {xp : List ℝ} {beta L theta : ℝ}

/-- The bound of the residual after `j` iterations. -/
noncomputable def level (beta s theta : ℝ) (j : Nat) : ℝ := s / (6 * beta ^ 2) * theta ^ 2 ^ j

theorem level_step (hb : 1 ≤ beta) (hs : 0 < s) {g g' : ℝ} {j : Nat} (hg : 0 ≤ g) (h : g ≤ level beta s theta j)
    (h' : g' * s ≤ 6 * beta ^ 2 * g ^ 2) : g' ≤ level beta s theta (j + 1) := by
  have hb2 : 0 < beta ^ 2 := by positivity
  have h1 : g ^ 2 ≤ level beta s theta j ^ 2 := pow_le_pow_left₀ hg h 2
  have h2 : 6 * beta ^ 2 * level beta s theta j ^ 2 = level beta s theta (j + 1) * s := by
    unfold level
    rw [pow_succ 2 j, pow_mul]
    field_simp
  have h3 : g' * s ≤ level beta s theta (j + 1) * s := by
    rw [← h2]
    exact h'.trans (mul_le_mul_of_nonneg_left h1 (by positivity))
  exact le_of_mul_le_mul_right h3 hs

theorem level_le (hb : 1 ≤ beta) (hs : 0 < s) (ht0 : 0 ≤ theta) (ht : theta ≤ 1 / 2) (j : Nat) : 12 * beta ^ 2 * level beta s theta j ≤ s := by
  have hb2 : 0 < beta ^ 2 := by positivity
  have h1 : theta ^ 2 ^ j ≤ 1 / 2 := by
    calc theta ^ 2 ^ j ≤ theta ^ 1 := pow_le_pow_of_le_one ht0 (by linarith) Nat.one_le_two_pow
      _ ≤ 1 / 2 := by rw [pow_one]; exact ht
  have h2 : 12 * beta ^ 2 * level beta s theta j = 2 * s * theta ^ 2 ^ j := by
    unfold level
    field_simp
    ring
  rw [h2]
  nlinarith

/-- The iterations of one solve. -/
theorem arc_iterations (h : Spec.Proper a.toAnalysis û) (hf : a.withForce = false) (hpsi : psi ≠ 0) {f : List ℝ}
    (hf1 : (a.system 1).rawVector? (List.replicate a.dv.flags.length 0) = some f)
    (hreg : Region (forces a.toAnalysis psi) (tangent a.toAnalysis psi f) (Metric.closedBall (at_ a psi lp xp) (2 * s)) beta L)
    (hs : Small beta L s a.settings.tol) (hp : ‖forces a.toAnalysis psi (at_ a psi lp xp)‖ ≤ a.settings.tol) (P : State → Prop)
    {m : Nat} (hP : ∀ st, P st → Arcs a psi s lp xp st → st.iter < m →
      12 * beta ^ 2 * merit (forces a.toAnalysis psi) (at_ a psi lp xp) s (at_ a psi st.lam st.x) ≤ s → a.settings.tol < st.rNorm →
      st.args.Dlambda ≠ 0 ∧ Spec.SolvesExactly a.linSolve st.Ax)
    (hPs : ∀ st st', P st → a.settings.tol < st.rNorm → a.iteration (.arcLength psi true) st = .ok st' → P st')
    (ht0 : 0 ≤ theta) (ht : theta ≤ 1 / 2)
    (k n j : Nat) {st : State} (hkn : k ≤ n) (hkm : st.iter + k ≤ m) (hlev : level beta s theta (j + k) ≤ a.settings.tol) (hst : Arcs a psi s lp xp st) (hPst : P st)
    (hm : merit (forces a.toAnalysis psi) (at_ a psi lp xp) s (at_ a psi st.lam st.x) ≤ level beta s theta j)
    (hlow : ‖forces a.toAnalysis psi (at_ a psi st.lam st.x)‖ ≤ st.rNorm)
    (hup : st.rNorm ≤ merit (forces a.toAnalysis psi) (at_ a psi lp xp) s (at_ a psi st.lam st.x)) :
    ∃ st', a.iterations (.arcLength psi true) n st = .ok st' ∧ Arcs a psi s lp xp st' ∧ P st' ∧ st'.rNorm ≤ a.settings.tol ∧
      st'.iter ≤ st.iter + k ∧ ‖forces a.toAnalysis psi (at_ a psi st'.lam st'.x)‖ ≤ a.settings.tol ∧
      ‖at_ a psi st'.lam st'.x - at_ a psi st.lam st.x‖ ≤
        4 * beta * (merit (forces a.toAnalysis psi) (at_ a psi lp xp) s (at_ a psi st.lam st.x) -
          merit (forces a.toAnalysis psi) (at_ a psi lp xp) s (at_ a psi st'.lam st'.x)) ∧
      (st' = st ∨ |‖at_ a psi st'.lam st'.x - at_ a psi lp xp‖ - s| ≤ a.settings.tol) := by
  have hstop : ∀ n, ¬ st.rNorm > a.settings.tol → a.iterations (.arcLength psi true) n st = .ok st := by
    intro n hle
    cases n with
    | zero => rfl
    | succ n => simp only [iterations]; rw [if_neg hle]
  induction k generalizing n j st with
  | zero =>
    have hle : st.rNorm ≤ a.settings.tol := hup.trans (hm.trans hlev)
    exact ⟨st, hstop n (not_lt.2 hle), hst, hPst, hle, le_rfl, hlow.trans hle, by rw [sub_self, norm_zero, sub_self, mul_zero], .inl rfl⟩
  | succ k ih =>
    by_cases hgt : st.rNorm > a.settings.tol
    · obtain ⟨n', rfl⟩ : ∃ n', n = n' + 1 := ⟨n - 1, by omega⟩
      have g0 := merit_nonneg (forces a.toAnalysis psi) (at_ a psi lp xp) s (at_ a psi st.lam st.x)
      have hb2 : 0 ≤ 12 * beta ^ 2 := by positivity
      have hz := (mul_le_mul_of_nonneg_left hm hb2).trans (level_le hs.beta hs.size ht0 ht j)
      obtain ⟨q1, q2⟩ := hP st hPst hst (by omega) hz hgt
      obtain ⟨l1, l2, hr⟩ := step_regular hreg hs hp hz
      have hs0 := hs.size
      obtain ⟨st1, v, i1, i2, i3, i4, i5, i6, i7⟩ := arc_iteration h hf hpsi hf1 hst (by linarith) q1 q2 hr
      obtain ⟨d1, d2⟩ := step_decrease hreg hs hp hz i5 i6
      rw [← i4] at d2
      have g1 := merit_nonneg (forces a.toAnalysis psi) (at_ a psi lp xp) s (at_ a psi st1.lam st1.x)
      have hm1 := level_step hs.beta hs.size g0 hm d2
      obtain ⟨st', e1, e2, e3, e4, e5, e6, e7, e8⟩ := ih n' (j + 1) (by omega) (by omega) (by rwa [show j + 1 + k = j + (k + 1) by omega]) i2
        (hPs st st1 hPst hgt i1) hm1 (by rw [i7]; exact norm_le_merit _ _ _ _) (le_of_eq i7) (fun n hle => by
          cases n with
          | zero => rfl
          | succ n => simp only [iterations]; rw [if_neg hle])
      have hhalf : merit (forces a.toAnalysis psi) (at_ a psi lp xp) s (at_ a psi st1.lam st1.x) ≤
          1 / 2 * merit (forces a.toAnalysis psi) (at_ a psi lp xp) s (at_ a psi st.lam st.x) := by
        have : merit (forces a.toAnalysis psi) (at_ a psi lp xp) s (at_ a psi st1.lam st1.x) * s ≤
            1 / 2 * merit (forces a.toAnalysis psi) (at_ a psi lp xp) s (at_ a psi st.lam st.x) * s := by
          nlinarith
        exact le_of_mul_le_mul_right this hs0
      refine ⟨st', ?_, e2, e3, e4, by omega, e6, ?_, .inr ?_⟩
      · simp only [iterations]
        rw [if_pos hgt, i1]
        exact e1
      · have e9 : at_ a psi st'.lam st'.x - at_ a psi st.lam st.x =
            (at_ a psi st'.lam st'.x - at_ a psi st1.lam st1.x) + v := by rw [i4]; abel
        rw [e9]
        refine (norm_add_le _ _).trans ?_
        have hb := hs.beta
        nlinarith
      · rcases e8 with e8 | e8
        · rw [e8]
          rw [e8, i7] at e4
          exact (arc_le_merit _ _ _ _).trans e4
        · exact e8
    · exact ⟨st, hstop n hgt, hst, hPst, not_lt.1 hgt, by omega, hlow.trans (not_lt.1 hgt),
        by rw [sub_self, norm_zero, sub_self, mul_zero], .inl rfl⟩

/-- One solve from a prediction that is good enough. -/
theorem arc_solve (h : Spec.Proper a.toAnalysis û) (hf : a.withForce = false) (hpsi : psi ≠ 0) {f : List ℝ}
    (hf1 : (a.system 1).rawVector? (List.replicate a.dv.flags.length 0) = some f)
    (hreg : Region (forces a.toAnalysis psi) (tangent a.toAnalysis psi f) (Metric.closedBall (at_ a psi lp xp) (2 * s)) beta L)
    (hs : Small beta L s a.settings.tol) (hp : ‖forces a.toAnalysis psi (at_ a psi lp xp)‖ ≤ a.settings.tol) (P : State → Prop)
    {m : Nat} (hP : ∀ st, P st → Arcs a psi s lp xp st → st.iter < m →
      12 * beta ^ 2 * merit (forces a.toAnalysis psi) (at_ a psi lp xp) s (at_ a psi st.lam st.x) ≤ s → a.settings.tol < st.rNorm →
      st.args.Dlambda ≠ 0 ∧ Spec.SolvesExactly a.linSolve st.Ax)
    (hPs : ∀ st st', P st → a.settings.tol < st.rNorm → a.iteration (.arcLength psi true) st = .ok st' → P st')
    (hm : (m : Int) < a.settings.maxIter) (ht0 : 0 ≤ theta) (ht : theta ≤ 1 / 2) (hlev : level beta s theta m ≤ a.settings.tol) {lam : ℝ} {x D : List ℝ}
    {args : PathArgs} (hx : Spec.Still a.dv.flags x) (hstep : args.stepSize = s) (hlam : lam = lp + args.Dlambda)
    (hD : IsIncrement a.toAnalysis args.DD D) (hxD : ∀ i < a.dv.flags.length, x.getD i 0 = xp.getD i 0 + D.getD i 0)
    (hP0 : ∀ st, a.start (.arcLength psi true) lam x args = .ok st → P st)
    (hpred : 6 * beta ^ 2 * merit (forces a.toAnalysis psi) (at_ a psi lp xp) s (at_ a psi lam x) ≤ theta * s) :
    ∃ st', a.solve (.arcLength psi true) lam x args = .ok ⟨st'.lam, st'.x, st'.args, .arcLength psi true, st'.iter, true⟩ ∧
      Arcs a psi s lp xp st' ∧ P st' ∧ st'.rNorm ≤ a.settings.tol ∧ st'.iter ≤ m ∧
      ‖forces a.toAnalysis psi (at_ a psi st'.lam st'.x)‖ ≤ a.settings.tol ∧
      (st'.lam = lam ∧ st'.x = x ∨ |‖at_ a psi st'.lam st'.x - at_ a psi lp xp‖ - s| ≤ a.settings.tol) ∧
      ‖at_ a psi st'.lam st'.x - at_ a psi lam x‖ ≤
        4 * beta * merit (forces a.toAnalysis psi) (at_ a psi lp xp) s (at_ a psi lam x) := by
  obtain ⟨s0, hs0⟩ := arc_start_ok h (psi := psi) (b := true) (lam := lam) (args := args) hx.1
  obtain ⟨b1, b2, b3, b4, b5, ⟨args0, b6, -, -⟩, b9, b10, b11⟩ := start_ok h hx.1 hs0
  have hA : Arcs a psi s lp xp s0 := by
    refine ⟨b1, b3 ▸ hx, b11.trans hstep, by rw [b2, b10, hlam], ⟨D, b9 ▸ hD, fun i hi => by rw [b3]; exact hxD i hi⟩, args0, ?_⟩
    rw [b2, b3]
    exact b6
  obtain ⟨r, r1, r2, r3⟩ := b1.residual
  have hrn : s0.rNorm = ‖forces a.toAnalysis psi (at_ a psi s0.lam s0.x)‖ := by
    rw [b5, r3, sqNorm_view _ _ _ r2, freeSize_sqrt, ← freeVec_norm]
    exact congrArg _ (forces_pt hpsi hA.still r1).symm
  have hb := hs.beta
  have hsz := hs.size
  have hlev0 : merit (forces a.toAnalysis psi) (at_ a psi lp xp) s (at_ a psi s0.lam s0.x) ≤ level beta s theta 0 := by
    rw [b2, b3]
    unfold level
    rw [pow_zero, pow_one]
    rw [div_mul_eq_mul_div, le_div_iff₀ (by positivity)]
    linarith
  obtain ⟨st', e1, e2, e3, e4, e5, e6, e7, e8⟩ := arc_iterations h hf hpsi hf1 hreg hs hp P hP hPs ht0 ht m a.settings.maxIter.toNat 0
    (by omega) (by omega) (by rwa [zero_add]) hA (hP0 s0 hs0) hlev0 (le_of_eq hrn.symm) (by rw [hrn]; exact norm_le_merit _ _ _ _)
  rw [b4, zero_add] at e5
  refine ⟨st', ?_, e2, e3, e4, e5, e6, ?_, ?_⟩
  · unfold solve
    rw [hs0]
    show (a.iterations _ _ s0).map _ = _
    rw [e1]
    have hd : decide ((st'.iter : Int) ≠ a.settings.maxIter) = true := decide_eq_true (by omega)
    show Except.ok (⟨_, _, _, _, _, decide _⟩ : Shown) = _
    rw [hd]
  · rcases e8 with e8 | e8
    · exact .inl ⟨by rw [e8, b2], by rw [e8, b3]⟩
    · exact .inr e8
  · rw [b2, b3] at e7
    refine e7.trans ?_
    have := merit_nonneg (forces a.toAnalysis psi) (at_ a psi lp xp) s (at_ a psi st'.lam st'.x)
    nlinarith

/-- The states of the solver which one solve may pass from `st0` on. -/
inductive Spec.Reaches (a : PathAnalysis) (p : PathStrategy) (st0 : State) : State → Prop
  | start : Spec.Reaches a p st0 st0
  | iterate {st st' : State} : Spec.Reaches a p st0 st → a.settings.tol < st.rNorm → a.iteration p st = .ok st' →
      Spec.Reaches a p st0 st'

/-! ### Runs -/

/-- The states of the solver at which a run that starts at `l0` and `x0` with `p0` may iterate, from the first prediction on: the
start of a solve, what follows an iteration, and the start of the next solve. -/
inductive Spec.Visits (a : PathAnalysis) (p0 : PathStrategy) (l0 : ℝ) (x0 : List ℝ) : PathStrategy → State → Prop
  | first {s0 : Shown} {q : Predicted} {st : State} :
      a.solve p0 l0 x0 { PathArgs.setZero x0.length with stepSize := a.stepSize } = .ok s0 →
      a.initialPrediction s0.strategy s0.lam s0.x s0.args = .ok q → a.start q.strategy q.lam q.x q.args = .ok st →
      Spec.Visits a p0 l0 x0 q.strategy st
  | iterate {p : PathStrategy} {st st' : State} : Spec.Visits a p0 l0 x0 p st → a.settings.tol < st.rNorm →
      a.iteration p st = .ok st' → Spec.Visits a p0 l0 x0 p st'
  | next {p : PathStrategy} {st st' : State} {ls : Nat} {z : ℝ} {q : Predicted} : Spec.Visits a p0 l0 x0 p st →
      st.rNorm ≤ a.settings.tol → a.adapt st.iter { st.args with currentStep := ls } = .ok z →
      a.intermediatePrediction p st.lam st.x { st.args with currentStep := ls, stepSize := z } = .ok q →
      a.start q.strategy q.lam q.x q.args = .ok st' → Spec.Visits a p0 l0 x0 q.strategy st'

/-- States in equilibrium up to the tolerance that are connected to the undeformed structure by `k` steps of the step size, up to
the tolerance. -/
inductive Spec.Chain (a : PathAnalysis) (psi : ℝ) : Nat → ℝ → List ℝ → Prop
  | start : Spec.Chain a psi 0 0 (List.replicate a.dv.flags.length 0)
  | next {k : Nat} {l l' : ℝ} {x x' r : List ℝ} : Spec.Chain a psi k l x → Spec.Still a.dv.flags x' →
      (a.system l').rawVector? x' = some r → Spec.freeSize a.dv.flags (r.getD · 0) ≤ a.settings.tol →
      |Spec.arcDistance psi l x l' x' - a.stepSize| ≤ a.settings.tol → Spec.Chain a psi (k + 1) l' x'

/-- A state of the solver on the way from a state of such a chain to the next: the distance is the step size and the state is in
equilibrium up to a fraction of the step size. -/
structure Spec.Underway (a : PathAnalysis) (psi beta : ℝ) (st : State) (k : Nat) (l : ℝ) (x : List ℝ) : Prop where
  steps : k < a.steps
  chain : Spec.Chain a psi k l x
  still : Spec.Still a.dv.flags st.x
  lam : st.lam = l + st.args.Dlambda
  arc : 12 * beta ^ 2 * |Spec.arcDistance psi l x st.lam st.x - a.stepSize| ≤ a.stepSize
  residual : ∃ r, (a.system st.lam).rawVector? st.x = some r ∧ 12 * beta ^ 2 * Spec.freeSize a.dv.flags (r.getD · 0) ≤ a.stepSize
  jacobian : a.jacobian? ⟨st.lam, some st.x⟩ = some st.Ax

theorem underway (hpsi : psi ≠ 0) {k : Nat} (hk : k < a.steps) {l : ℝ} {x : List ℝ} (hx : Spec.Still a.dv.flags x)
    (hc : Spec.Chain a psi k l x) {st : State} (hst : Arcs a psi a.stepSize l x st)
    (hm : 12 * beta ^ 2 * merit (forces a.toAnalysis psi) (at_ a psi l x) a.stepSize (at_ a psi st.lam st.x) ≤ a.stepSize) :
    Spec.Underway a psi beta st k l x := by
  have hb : 0 ≤ 12 * beta ^ 2 := by positivity
  refine ⟨hk, hc, hst.still, hst.lam, ?_, ?_, hst.sound.jacobian⟩
  · rw [arcDistance_eq hst.still hx]
    exact (mul_le_mul_of_nonneg_left (arc_le_merit _ _ _ _) hb).trans hm
  · obtain ⟨r, r1, -, -⟩ := hst.sound.residual
    refine ⟨r, r1, ?_⟩
    have := forces_pt hpsi hst.still r1
    rw [← freeVec_norm, ← this]
    exact (mul_le_mul_of_nonneg_left (norm_le_merit _ _ _ _) hb).trans hm

/-- What is known of the states shown after two states `q` and `p`. -/
def Follows (a : PathAnalysis) (psi e : ℝ) (m : Nat) : Space a.dv.flags → Space a.dv.flags → List Shown → Prop
  | _, _, [] => True
  | q, p, t :: rest => Spec.Still a.dv.flags t.x ∧ t.success = true ∧ t.iterations ≤ m ∧
      ‖forces a.toAnalysis psi (at_ a psi t.lam t.x)‖ ≤ a.settings.tol ∧
      |‖at_ a psi t.lam t.x - p‖ - a.stepSize| ≤ a.settings.tol ∧ ‖at_ a psi t.lam t.x - (p + (p - q))‖ ≤ e ∧
      Follows a psi e m p (at_ a psi t.lam t.x) rest

/-- A state of a chain is surrounded by regular states. -/
theorem chain_region (h : Spec.Proper a.toAnalysis û) (hpsi : psi ≠ 0) (hL : 0 ≤ L) (hprop : Spec.ProportionalLoads a.toAnalysis)
    {f : List ℝ} (hf1 : (a.system 1).rawVector? (List.replicate a.dv.flags.length 0) = some f) {l : ℝ} {x : List ℝ}
    (hx : Spec.Still a.dv.flags x) (hreg : Spec.ArcRegular a.toAnalysis psi beta L
      (fun l' x' => Spec.Still a.dv.flags x' ∧ Spec.arcDistance psi l x l' x' ≤ 2 * s)) :
    Region (forces a.toAnalysis psi) (tangent a.toAnalysis psi f) (Metric.closedBall (at_ a psi l x) (2 * s)) beta L := by
  refine (region h hpsi hL hprop hf1 hreg).mono fun z hz => ⟨disp_still z, ?_⟩
  rw [arcDistance_eq (disp_still z) hx, pt_congr (g := part z) (fun i _ => disp_getD z i) rfl, pt_part hpsi]
  exact mem_closedBall_iff_norm.1 hz

theorem arc_loop (h : Spec.Proper a.toAnalysis û) (hf : a.withForce = false) (hpsi : psi ≠ 0)
    (hprop : Spec.ProportionalLoads a.toAnalysis) {f : List ℝ}
    (hf1 : (a.system 1).rawVector? (List.replicate a.dv.flags.length 0) = some f)
    (hs : Small beta L a.stepSize a.settings.tol) (hadapt : ∀ k args, a.adapt k args = .ok args.stepSize)
    {m : Nat} (hm : (m : Int) < a.settings.maxIter) (hlev : level beta a.stepSize (1 / 2) m ≤ a.settings.tol)
    (hreg : ∀ k l x, k < a.steps → Spec.Chain a psi k l x → Spec.ArcRegular a.toAnalysis psi beta L
      (fun l' x' => Spec.Still a.dv.flags x' ∧ Spec.arcDistance psi l x l' x' ≤ 2 * a.stepSize))
    {p0 : PathStrategy} {l0 : ℝ} {x0 : List ℝ}
    (hpass : ∀ p st k l x, Spec.Visits a p0 l0 x0 p st → Spec.Underway a psi beta st k l x → st.iter < m →
      a.settings.tol < st.rNorm → st.args.Dlambda ≠ 0 ∧ Spec.SolvesExactly a.linSolve st.Ax) (n ls k : Nat) (hk : k + n ≤ a.steps) {st : State} {lq : ℝ}
    {xq : List ℝ} (hst : Arcs a psi a.stepSize lq xq st) (hP : Spec.Visits a p0 l0 x0 (.arcLength psi true) st)
    (hn : st.rNorm ≤ a.settings.tol) (hp : ‖forces a.toAnalysis psi (at_ a psi st.lam st.x)‖ ≤ a.settings.tol)
    (hq : ‖forces a.toAnalysis psi (at_ a psi lq xq)‖ ≤ a.settings.tol)
    (hd : |‖at_ a psi st.lam st.x - at_ a psi lq xq‖ - a.stepSize| ≤ a.settings.tol)
    (hch : Spec.Chain a psi k st.lam st.x) :
    ∃ r, a.loop n ls ⟨st.lam, st.x, st.args, .arcLength psi true, st.iter, true⟩ = .ok r ∧ r.success = true ∧ r.shown.length = n ∧
      Follows a psi (4 * beta * (2 * L * a.stepSize ^ 2 + 4 * a.settings.tol)) m (at_ a psi lq xq) (at_ a psi st.lam st.x) r.shown := by
  induction n generalizing ls k st lq xq with
  | zero => exact ⟨⟨[], true⟩, rfl, rfl, rfl, trivial⟩
  | succ n ih =>
    have hR := chain_region h hpsi hs.rate hprop hf1 hst.still (hreg k _ _ (by omega) hch)
    obtain ⟨c1, c2⟩ := predicted_small hR hs hp hq hd
    obtain ⟨D, hD, hxD, hdiff⟩ := hst.step
    let y : List ℝ := List.zipWith (· + ·) st.x D
    have hyl : y.length = a.dv.flags.length := by simp [y, hst.sound.length, hD.length]
    have hyi : ∀ i < a.dv.flags.length, y.getD i 0 = st.x.getD i 0 + D.getD i 0 := fun i hi =>
      zipAdd_getD hst.sound.length hD.length hi
    have hys : Spec.Still a.dv.flags y := ⟨hyl, fun i hi hfr => by
      rw [hyi i hi, hst.still.2 i hi hfr, hD.constrained i hi hfr, add_zero]⟩
    have hye : at_ a psi (st.lam + st.args.Dlambda) y = at_ a psi st.lam st.x + (at_ a psi st.lam st.x - at_ a psi lq xq) := by
      rw [hdiff]
      unfold at_
      rw [pt_add]
      exact pt_congr (fun i hi => hyi i (free_lt hi)) rfl
    let args' : PathArgs := { st.args with currentStep := ls }
    have hint : a.intermediatePrediction (.arcLength psi true) st.lam st.x args' =
        .ok ⟨st.lam + st.args.Dlambda, y, args', .arcLength psi true⟩ := by
      simp only [intermediatePrediction, Bool.true_eq_false, if_false]
      have hup := congrArg Dom.x (hD.update h.option st.lam hst.sound.length)
      have : args'.DD = st.args.DD := rfl
      rw [this, evaluated_ok.2 hup]
      show (a.synchronised _ _).map _ = _
      rw [unforced_synchronised hf]
      rfl
    obtain ⟨st', e1, e2, e3, e4, e5, e6, e7, e8⟩ := arc_solve h hf hpsi hf1 hR hs hp
      (fun st => Spec.Visits a p0 l0 x0 (.arcLength psi true) st) 
      (fun st' g1 g2 g3 g4 => hpass _ st' k _ _ g1 (underway hpsi (by omega) hst.still hch g2 g4) g3)
      (fun st st' h1 h2 h3 => .iterate h1 h2 h3) hm (by norm_num) le_rfl hlev (lam := st.lam + st.args.Dlambda) (x := y) (D := D) (args := args') hys
      hst.stepSize rfl hD hyi (fun s1 hs1 => .next (ls := ls) hP hn (hadapt _ _) hint hs1)
      (by rw [hye]; linarith)
    rw [hye] at e8
    have e7 : |‖at_ a psi st'.lam st'.x - at_ a psi st.lam st.x‖ - a.stepSize| ≤ a.settings.tol := by
      rcases e7 with ⟨g1, g2⟩ | e7
      · rw [g1, g2, hye, add_sub_cancel_left]
        exact hd
      · exact e7
    have hb := hs.beta
    have hch' : Spec.Chain a psi (k + 1) st'.lam st'.x := by
      obtain ⟨r, r1, r2, r3⟩ := e2.sound.residual
      refine .next hch e2.still r1 ?_ ?_
      · have := forces_pt hpsi e2.still r1
        rw [← freeVec_norm, ← this]
        exact e6
      · rw [arcDistance_eq e2.still hst.still]
        exact e7
    obtain ⟨r, r1, r2, r3, r4⟩ := ih (ls + 1) (k + 1) (by omega) e2 e3 e4 e6 hp e7 hch'
    refine ⟨⟨⟨st'.lam, st'.x, st'.args, .arcLength psi true, st'.iter, true⟩ :: r.shown, r.success⟩, ?_, r2, by simp [r3], e2.still, rfl,
      e5, e6, e7, ?_, r4⟩
    · simp only [loop]
      rw [hadapt]
      show (a.intermediatePrediction (.arcLength psi true) st.lam st.x args').bind _ = _
      rw [hint]
      show (a.solve (.arcLength psi true) (st.lam + st.args.Dlambda) y args').bind _ = _
      rw [e1]
      show (a.loop n (ls + 1) _).map _ = _
      rw [r1]
      rfl
    · refine e8.trans ?_
      exact mul_le_mul_of_nonneg_left c2 (by linarith)

theorem Follows.all {e : ℝ} {m : Nat} {l : List Shown} {q p : Space a.dv.flags} (h : Follows a psi e m q p l) :
    ∀ t ∈ l, Spec.Still a.dv.flags t.x ∧ t.success = true ∧ t.iterations ≤ m ∧
      ‖forces a.toAnalysis psi (at_ a psi t.lam t.x)‖ ≤ a.settings.tol := by
  induction l generalizing q p with
  | nil => simp
  | cons t l ih =>
    obtain ⟨h1, h2, h3, h4, -, -, h5⟩ := h
    intro u hu
    rcases List.mem_cons.1 hu with rfl | hu
    · exact ⟨h1, h2, h3, h4⟩
    · exact ih h5 u hu

theorem Follows.get {e : ℝ} {m : Nat} {l : List Shown} {q p : Space a.dv.flags} (h : Follows a psi e m q p l) :
    ∀ (k : Nat) (z z' z'' : Space a.dv.flags), (q :: p :: l.map fun t => at_ a psi t.lam t.x)[k]? = some z →
      (q :: p :: l.map fun t => at_ a psi t.lam t.x)[k + 1]? = some z' →
      (q :: p :: l.map fun t => at_ a psi t.lam t.x)[k + 2]? = some z'' →
      |‖z'' - z'‖ - a.stepSize| ≤ a.settings.tol ∧ ‖z'' - (z' + (z' - z))‖ ≤ e := by
  induction l generalizing q p with
  | nil => intro k z z' z'' _ _ h3; simp at h3
  | cons t l ih =>
    obtain ⟨-, -, -, -, h1, h2, h5⟩ := h
    intro k z z' z'' k1 k2 k3
    cases k with
    | zero =>
      obtain rfl : q = z := by simpa using k1
      obtain rfl : p = z' := by simpa using k2
      obtain rfl : at_ a psi t.lam t.x = z'' := by simpa using k3
      exact ⟨h1, h2⟩
    | succ k => exact ih h5 k z z' z'' (by simpa using k1) (by simpa using k2) (by simpa using k3)

/-- Steps that continue each other do not turn back. -/
theorem forward {Z : Type*} [NormedAddCommGroup Z] [InnerProductSpace ℝ Z] {z z' z'' : Z} {tol : ℝ} (hs : Small beta L s tol)
    (h1 : |‖z' - z‖ - s| ≤ tol) (h2 : ‖z'' - (z' + (z' - z))‖ ≤ 4 * beta * (2 * L * s ^ 2 + 4 * tol)) :
    s ^ 2 / 2 ≤ inner ℝ (z'' - z') (z' - z) := by
  have hb := hs.beta
  have hs0 := hs.size
  have c1 := hs.curvature
  have c2 := hs.tolerance
  have ht := hs.nonneg
  have hL := hs.rate
  have hN := abs_le.1 h1
  have hbb : beta ≤ beta ^ 2 := by nlinarith
  have e1 : beta * tol ≤ s / 96 := by nlinarith
  have e1' : tol ≤ s / 96 := by nlinarith
  have e2 : beta * (L * s) ≤ 1 / 32 := by nlinarith [mul_nonneg hL hs0.le]
  have e3 : 4 * beta * (2 * L * s ^ 2 + 4 * tol) ≤ 5 / 12 * s := by nlinarith
  have e4 : inner ℝ (z'' - z') (z' - z) = ‖z' - z‖ ^ 2 + inner ℝ (z'' - (z' + (z' - z))) (z' - z) := by
    rw [← real_inner_self_eq_norm_sq, ← inner_add_left]
    congr 1
    abel
  have e5 := abs_le.1 (abs_real_inner_le_norm (z'' - (z' + (z' - z))) (z' - z))
  have e6 : ‖z'' - (z' + (z' - z))‖ * ‖z' - z‖ ≤ 5 / 12 * s * ‖z' - z‖ := mul_le_mul_of_nonneg_right (h2.trans e3) (norm_nonneg _)
  rw [e4]
  have e7 : 95 / 96 * s ≤ ‖z' - z‖ := by linarith
  nlinarith [e5.1]

end Ikarus
