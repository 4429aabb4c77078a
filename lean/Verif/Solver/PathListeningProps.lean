import Verif.Solver.PathListeningModel
import Verif.Solver.ListeningIDBCProps

/-!
C92: path following with elements that hold internal variables and listen to the solver.
-/

namespace Ikarus.Listening

variable {ε W V A N : Type} [AddCommGroup V] [Module ℝ V]

/-! ### Specification -/

/-- What an iteration of path following starts from: internal variables, solution and load factor, residual, Jacobian and the arguments
of the subsidiary function. -/
structure Spec.PathPoint (ε W V A : Type) where
  w : ε → W
  x : V × ℝ
  r : V
  a : A
  args : SubsidiaryArgs ℝ V

/-- The increments are finite. -/
def Spec.PathFinite (P : PathProblem ε W V A N) (F : V) (s : Spec.PathPoint ε W V A) : Prop :=
  ∃ g b, s.args.dfdDD = some g ∧ s.args.dfdDlambda = some b ∧ P.dot g (P.linSolve s.a F) + b ≠ 0

/-- One iteration with the load vector `F` and the increments `c` and `dl`: the load factor is chosen such that the linearised
subsidiary function vanishes, every element updates its variables once, from the solution before the increment, and residual, Jacobian
and subsidiary function are those of the new solution and the new variables. -/
structure Spec.PathStep (P : PathProblem ε W V A N) (F : V) (s s' : Spec.PathPoint ε W V A) (c : V) (dl : ℝ) : Prop where
  increments : ∃ g b, s.args.dfdDD = some g ∧ s.args.dfdDlambda = some b ∧ P.dot g (P.linSolve s.a F) + b ≠ 0 ∧
    s.args.f + P.dot g (P.linSolve s.a (-s.r)) + dl * (P.dot g (P.linSolve s.a F) + b) = 0
  correction : c = P.linSolve s.a (-s.r) + dl • P.linSolve s.a F
  internal : ∀ e, P.callback e (s.w e) .correctionUpdated s.x c = some (s'.w e)
  solution : s'.x = (P.update s.x.1 c, s.x.2 + dl)
  residual : P.residual s'.w s'.x = some s'.r
  jacobian : P.jacobian s'.w s'.x = some s'.a
  args : s'.args.stepSize = s.args.stepSize ∧ s'.args.currentStep = s.args.currentStep ∧ s'.args.DD = s.args.DD + c ∧
    s'.args.Dlambda = s.args.Dlambda + dl ∧ (s'.args.f, s'.args.dfdDD, s'.args.dfdDlambda) =
      P.subsidiary s'.x { s.args with DD := s.args.DD + c, Dlambda := s.args.Dlambda + dl }

/-- The `k`-th iterate; the load vector is minus the residual of the unit load factor and no displacements, with the internal variables
at the start. -/
inductive Spec.PathIterate (P : PathProblem ε W V A N) (w0 : ε → W) (x0 : V × ℝ) (args0 : SubsidiaryArgs ℝ V) (F : V) :
    Nat → Spec.PathPoint ε W V A → Prop
  | zero (r : V) (a : A) (args : SubsidiaryArgs ℝ V) : P.residual w0 (0, 1) = some (-F) → P.residual w0 x0 = some r →
      P.jacobian w0 x0 = some a → args.stepSize = args0.stepSize → args.currentStep = args0.currentStep → args.DD = args0.DD →
      args.Dlambda = args0.Dlambda → (args.f, args.dfdDD, args.dfdDlambda) = P.subsidiary x0 args0 →
      Spec.PathIterate P w0 x0 args0 F 0 ⟨w0, x0, r, a, args⟩
  | succ (k : Nat) (s s' : Spec.PathPoint ε W V A) (c : V) (dl : ℝ) : Spec.PathIterate P w0 x0 args0 F k s →
      Spec.PathStep P F s s' c dl → Spec.PathIterate P w0 x0 args0 F (k + 1) s'

/-- The norm that is compared with the tolerance; before the first iteration the subsidiary function is left out. -/
def Spec.pathNorm (P : PathProblem ε W V A N) (k : Nat) (s : Spec.PathPoint ε W V A) : N :=
  if k = 0 then P.sqrt (P.dot s.r s.r) else P.sqrt (P.dot s.r s.r + s.args.f * s.args.f)

/-- The iteration stops after `k` steps. -/
def Spec.PathStops (P : PathProblem ε W V A N) (set : SubsidiarySettings N) (k : Nat) (s : Spec.PathPoint ε W V A) : Prop :=
  set.maxIter ≤ k ∨ P.gt (Spec.pathNorm P k s) set.tol = false

/-- Every element listens exactly once, and reacts to `CORRECTION_UPDATED` only. -/
structure Spec.PathSubscribed (P : PathProblem ε W V A N) : Prop where
  nodup : P.subs.Nodup
  all : ∀ e, e ∈ P.subs
  only : ∀ e w m x c, m ≠ .correctionUpdated → P.callback e w m x c = some w

/-! ### Lemmas -/

/-- The values of the loop variables. -/
def PathLoop.point (s : PathLoop ε W V A N) : Spec.PathPoint ε W V A := ⟨s.w, s.x, s.rx, s.Ax, s.args⟩

namespace PathProblem

/-- The same listeners with Newton's method. -/
def listeners (P : PathProblem ε W V A N) : Problem ε W (V × ℝ) V A V N Unit where
  residual := P.residual
  jacobian := P.jacobian
  rnorm r := P.sqrt (P.dot r r)
  cnorm r := P.sqrt (P.dot r r)
  gt := P.gt
  linSolve := P.linSolve
  update x c := (P.update x.1 c, x.2)
  idbc := none
  callback := P.callback
  subs := P.subs

omit [AddCommGroup V] [Module ℝ V] in
theorem listeners_subscribed (P : PathProblem ε W V A N) (h : Spec.PathSubscribed P) : Spec.Subscribed P.listeners :=
  ⟨h.nodup, h.all, h.only⟩

variable [DecidableEq ε]

omit [AddCommGroup V] [Module ℝ V] in
theorem notify_other (P : PathProblem ε W V A N) (h : Spec.PathSubscribed P) (w : ε → W) (m : SolverMessage)
    (hm : m ≠ .correctionUpdated) (x : V × ℝ) (c : V) : P.notify w m x c = some w :=
  Problem.notify_other P.listeners (P.listeners_subscribed h) w m hm x c

omit [AddCommGroup V] [Module ℝ V] in
theorem notify_correction (P : PathProblem ε W V A N) (h : Spec.PathSubscribed P) (w w' : ε → W) (x : V × ℝ) (c : V) :
    P.notify w .correctionUpdated x c = some w' ↔ ∀ e, P.callback e (w e) .correctionUpdated x c = some (w' e) :=
  Problem.notify_correction P.listeners (P.listeners_subscribed h) w w' x c

omit [DecidableEq ε] in
theorem pathStep_unique {P : PathProblem ε W V A N} {F : V} {s s1 s2 : Spec.PathPoint ε W V A} {c1 c2 : V} {l1 l2 : ℝ}
    (h1 : Spec.PathStep P F s s1 c1 l1) (h2 : Spec.PathStep P F s s2 c2 l2) : s1 = s2 ∧ c1 = c2 ∧ l1 = l2 := by
  obtain ⟨g, b, g1, b1, d1, e1⟩ := h1.increments
  obtain ⟨g', b', g2, b2, d2, e2⟩ := h2.increments
  rw [g1] at g2; cases g2
  rw [b1] at b2; cases b2
  have hl : l1 = l2 := by
    have : (l1 - l2) * (P.dot g (P.linSolve s.a F) + b) = 0 := by linear_combination e1 - e2
    rcases mul_eq_zero.1 this with h | h
    · linarith
    · exact absurd h d1
  subst hl
  have hc : c1 = c2 := by rw [h1.correction, h2.correction]
  subst hc
  have hw : s1.w = s2.w := by
    funext e
    exact Option.some.inj ((h1.internal e).symm.trans (h2.internal e))
  have hx : s1.x = s2.x := by rw [h1.solution, h2.solution]
  have hr : s1.r = s2.r := by
    have := h1.residual
    rw [hw, hx] at this
    exact Option.some.inj (this.symm.trans h2.residual)
  have ha : s1.a = s2.a := by
    have := h1.jacobian
    rw [hw, hx] at this
    exact Option.some.inj (this.symm.trans h2.jacobian)
  obtain ⟨p1, p2, p3, p4, p5⟩ := h1.args
  obtain ⟨q1, q2, q3, q4, q5⟩ := h2.args
  rw [hx, ← q5, Prod.mk.injEq, Prod.mk.injEq] at p5
  obtain ⟨w1, x1, r1, a1, ⟨t1, t2, t3, t4, t5, t6, t7⟩⟩ := s1
  obtain ⟨w2, x2, r2, a2, ⟨u1, u2, u3, u4, u5, u6, u7⟩⟩ := s2
  simp only at hw hx hr ha p1 p2 p3 p4 p5 q1 q2 q3 q4
  obtain ⟨p5, p6, p7⟩ := p5
  subst hw hx hr ha p5 p6 p7
  rw [p1, p2, p3, p4, q1, q2, q3, q4]
  exact ⟨rfl, rfl, rfl⟩

omit [DecidableEq ε] in
theorem pathIterate_unique {P : PathProblem ε W V A N} {w0 : ε → W} {x0 : V × ℝ} {args0 : SubsidiaryArgs ℝ V} {F : V} {k : Nat}
    {s s' : Spec.PathPoint ε W V A} (h : Spec.PathIterate P w0 x0 args0 F k s) (h' : Spec.PathIterate P w0 x0 args0 F k s') :
    s = s' := by
  induction h generalizing s' with
  | zero r a args h1 h2 h3 h4 h5 h6 h7 h8 =>
    cases h' with
    | zero r' a' args' g1 g2 g3 g4 g5 g6 g7 g8 =>
      rw [h2] at g2; cases g2
      rw [h3] at g3; cases g3
      rw [← h8, Prod.mk.injEq, Prod.mk.injEq] at g8
      obtain ⟨t1, t2, t3, t4, t5, t6, t7⟩ := args
      obtain ⟨u1, u2, u3, u4, u5, u6, u7⟩ := args'
      simp only at h4 h5 h6 h7 g4 g5 g6 g7 g8
      obtain ⟨p5, p6, p7⟩ := g8
      subst p5 p6 p7 h4 h5 h6 h7
      rw [g4, g5, g6, g7]
  | succ k s1 s2 c dl _ hs ih =>
    cases h' with
    | succ _ s1' _ c' dl' h0' hs' =>
      obtain rfl := ih h0'
      exact (pathStep_unique hs hs').1

omit [DecidableEq ε] in
theorem increments_iff (P : PathProblem ε W V A N) (F : V) (s : PathLoop ε W V A N) :
    (P.increments F s = none ∧ ¬ Spec.PathFinite P F s.point) ∨
      ∃ c dl, P.increments F s = some (c, dl) ∧ Spec.PathFinite P F s.point ∧ (∃ g b, s.args.dfdDD = some g ∧
        s.args.dfdDlambda = some b ∧ P.dot g (P.linSolve s.Ax F) + b ≠ 0 ∧
        s.args.f + P.dot g (P.linSolve s.Ax (-s.rx)) + dl * (P.dot g (P.linSolve s.Ax F) + b) = 0) ∧
        c = P.linSolve s.Ax (-s.rx) + dl • P.linSolve s.Ax F := by
  unfold increments
  simp only
  cases hg : s.args.dfdDD with
  | none =>
    left
    refine ⟨rfl, ?_⟩
    rintro ⟨g, b, h1, -⟩
    have : s.args.dfdDD = some g := h1
    rw [hg] at this; cases this
  | some g =>
    cases hb : s.args.dfdDlambda with
    | none =>
      left
      refine ⟨rfl, ?_⟩
      rintro ⟨g, b, -, h1, -⟩
      have : s.args.dfdDlambda = some b := h1
      rw [hb] at this; cases this
    | some b =>
      simp only
      by_cases hd : P.dot g (P.linSolve s.Ax F) + b = 0
      · left
        rw [if_pos hd]
        refine ⟨rfl, ?_⟩
        rintro ⟨g', b', h1, h2, h3⟩
        have h1' : s.args.dfdDD = some g' := h1
        have h2' : s.args.dfdDlambda = some b' := h2
        rw [hg] at h1'; cases h1'
        rw [hb] at h2'; cases h2'
        exact h3 hd
      · right
        rw [if_neg hd]
        refine ⟨_, _, rfl, ⟨g, b, hg, hb, hd⟩, ⟨g, b, rfl, rfl, hd, ?_⟩, rfl⟩
        rw [div_mul_cancel₀ _ hd]; ring

/-- The loop variables belong to iterate `iter`. -/
structure Inv (P : PathProblem ε W V A N) (w0 : ε → W) (x0 : V × ℝ) (args0 : SubsidiaryArgs ℝ V) (F : V) (s : PathLoop ε W V A N) :
    Prop where
  iterate : Spec.PathIterate P w0 x0 args0 F s.iter s.point
  rNorm : s.rNorm = Spec.pathNorm P s.iter s.point
  success : s.info.success = true
  residualNorm : s.info.residualNorm = some s.rNorm

theorem body_spec (P : PathProblem ε W V A N) (h : Spec.PathSubscribed P) {w0 : ε → W} {x0 : V × ℝ} {args0 : SubsidiaryArgs ℝ V}
    {F : V} {s : PathLoop ε W V A N} (hs : Inv P w0 x0 args0 F s) (c : V) (dl : ℝ)
    (hi : ∃ g b, s.args.dfdDD = some g ∧ s.args.dfdDlambda = some b ∧ P.dot g (P.linSolve s.Ax F) + b ≠ 0 ∧
        s.args.f + P.dot g (P.linSolve s.Ax (-s.rx)) + dl * (P.dot g (P.linSolve s.Ax F) + b) = 0)
    (hc : c = P.linSolve s.Ax (-s.rx) + dl • P.linSolve s.Ax F) :
    (P.body c dl s = none ∧ ¬ ∃ s', Spec.PathIterate P w0 x0 args0 F (s.iter + 1) s') ∨
      ∃ s', P.body c dl s = some s' ∧ s'.iter = s.iter + 1 ∧ Inv P w0 x0 args0 F s' := by
  have hno : ∀ w m x c, m ≠ SolverMessage.correctionUpdated → P.notify w m x c = some w :=
    fun w m x c hm => notify_other P h w m hm x c
  have key : ∀ s', Spec.PathIterate P w0 x0 args0 F (s.iter + 1) s' →
      P.notify s.w .correctionUpdated s.x c = some s'.w ∧ s'.x = (P.update s.x.1 c, s.x.2 + dl) ∧
      P.residual s'.w s'.x = some s'.r ∧ P.jacobian s'.w s'.x = some s'.a := by
    intro s' hh
    cases hh with
    | succ _ s1 _ c' dl' h0 hst =>
      obtain rfl := pathIterate_unique h0 hs.iterate
      obtain ⟨g, b, g1, b1, d1, e1⟩ := hi
      obtain ⟨g', b', g2, b2, d2, e2⟩ := hst.increments
      have g2' : s.args.dfdDD = some g' := g2
      have b2' : s.args.dfdDlambda = some b' := b2
      rw [g1] at g2'; cases g2'
      rw [b1] at b2'; cases b2'
      have e2' : s.args.f + P.dot g (P.linSolve s.Ax (-s.rx)) + dl' * (P.dot g (P.linSolve s.Ax F) + b) = 0 := e2
      have hl : dl' = dl := by
        have : (dl' - dl) * (P.dot g (P.linSolve s.Ax F) + b) = 0 := by linear_combination e2' - e1
        rcases mul_eq_zero.1 this with h | h
        · linarith
        · exact absurd h d1
      subst hl
      have hcc : c' = c := by rw [hst.correction, hc]; rfl
      subst hcc
      exact ⟨(notify_correction P h _ _ _ _).2 hst.internal, hst.solution, hst.residual, hst.jacobian⟩
  unfold body
  rw [hno _ _ _ _ (by decide)]
  simp only [Option.bind_eq_bind, Option.bind_some]
  cases hw : P.notify s.w .correctionUpdated s.x c with
  | none =>
    left
    refine ⟨rfl, ?_⟩
    rintro ⟨s', hh⟩
    have := (key s' hh).1
    rw [hw] at this
    cases this
  | some w =>
    simp only [Option.bind_some, hno _ .correctionnormUpdated _ _ (by decide), hno _ .solutionChanged _ _ (by decide),
      hno _ .residualnormUpdated _ _ (by decide), hno _ .iterationEnded _ _ (by decide)]
    generalize hx : (P.update s.x.1 c, s.x.2 + dl) = x
    cases hr : P.residual w x with
    | none =>
      left
      refine ⟨rfl, ?_⟩
      rintro ⟨s', hh⟩
      obtain ⟨k1, k2, k3, k4⟩ := key s' hh
      rw [hw] at k1
      rw [k2, hx, ← Option.some.inj k1, hr] at k3
      cases k3
    | some r =>
      cases ha : P.jacobian w x with
      | none =>
        left
        refine ⟨by simp, ?_⟩
        rintro ⟨s', hh⟩
        obtain ⟨k1, k2, k3, k4⟩ := key s' hh
        rw [hw] at k1
        rw [k2, hx, ← Option.some.inj k1, ha] at k4
        cases k4
      | some a =>
        right
        refine ⟨_, by simp only [Option.bind_some]; rfl, rfl, ?_⟩
        refine ⟨.succ s.iter s.point _ c dl hs.iterate ⟨hi, hc, (notify_correction P h _ _ _ _).1 hw, hx.symm, hr, ha,
          ⟨rfl, rfl, rfl, rfl, rfl⟩⟩, ?_, hs.success, rfl⟩
        simp only [Spec.pathNorm, Nat.succ_ne_zero, if_false]
        rfl

omit [AddCommGroup V] [Module ℝ V] [DecidableEq ε] in
theorem cond_iff (P : PathProblem ε W V A N) (set : SubsidiarySettings N) (s : PathLoop ε W V A N)
    (h : s.rNorm = Spec.pathNorm P s.iter s.point) : P.cond set s = false ↔ Spec.PathStops P set s.iter s.point := by
  unfold cond Spec.PathStops
  rw [h]
  simp only [Bool.and_eq_false_iff, decide_eq_false_iff_not, not_lt]
  tauto

/-- What a run does from a point of the loop. -/
def Result (P : PathProblem ε W V A N) (set : SubsidiarySettings N) (w0 : ε → W) (x0 : V × ℝ) (args0 : SubsidiaryArgs ℝ V) (F : V)
    (o : PathOutcome (PathLoop ε W V A N)) : Prop :=
  (∃ s, o = .done s ∧ Inv P w0 x0 args0 F s ∧ Spec.PathStops P set s.iter s.point ∧
    ∀ j < s.iter, ∃ p, Spec.PathIterate P w0 x0 args0 F j p ∧ ¬ Spec.PathStops P set j p) ∨
  (∃ k p, Spec.PathIterate P w0 x0 args0 F k p ∧
    (∀ j ≤ k, ∃ p, Spec.PathIterate P w0 x0 args0 F j p ∧ ¬ Spec.PathStops P set j p) ∧
    (o = .notFinite ∧ ¬ Spec.PathFinite P F p ∨
      o = .threw ∧ Spec.PathFinite P F p ∧ ¬ ∃ p', Spec.PathIterate P w0 x0 args0 F (k + 1) p'))

theorem loop_spec (P : PathProblem ε W V A N) (h : Spec.PathSubscribed P) (set : SubsidiarySettings N) {w0 : ε → W} {x0 : V × ℝ}
    {args0 : SubsidiaryArgs ℝ V} {F : V} (fuel : Nat) (s : PathLoop ε W V A N) (hs : Inv P w0 x0 args0 F s)
    (hprev : ∀ j < s.iter, ∃ p, Spec.PathIterate P w0 x0 args0 F j p ∧ ¬ Spec.PathStops P set j p)
    (hf : set.maxIter ≤ (s.iter : Int) + fuel) : Result P set w0 x0 args0 F (P.loop set F fuel s) := by
  induction fuel generalizing s with
  | zero =>
    have hst : Spec.PathStops P set s.iter s.point := by
      left
      push_cast at hf
      omega
    rw [loop, if_neg (by rw [Bool.not_eq_true]; exact (cond_iff P set s hs.rNorm).2 hst)]
    exact Or.inl ⟨s, rfl, hs, hst, hprev⟩
  | succ fuel ih =>
    rw [loop]
    by_cases hc : P.cond set s = true
    · rw [if_pos hc]
      have hns : ¬ Spec.PathStops P set s.iter s.point := by
        rw [← cond_iff P set s hs.rNorm, hc]
        decide
      have hall : ∀ j ≤ s.iter, ∃ p, Spec.PathIterate P w0 x0 args0 F j p ∧ ¬ Spec.PathStops P set j p := by
        intro j hj
        rcases Nat.lt_or_eq_of_le hj with hj | rfl
        · exact hprev j hj
        · exact ⟨_, hs.iterate, hns⟩
      rcases increments_iff P F s with ⟨hn, hnf⟩ | ⟨c, dl, hi, hfin, h1, h2⟩
      · rw [hn]
        exact Or.inr ⟨s.iter, s.point, hs.iterate, hall, Or.inl ⟨rfl, hnf⟩⟩
      · rw [hi]
        simp only
        rcases body_spec P h hs c dl h1 h2 with ⟨hb, hno⟩ | ⟨s', hb, hit, hinv⟩
        · rw [hb]
          exact Or.inr ⟨s.iter, s.point, hs.iterate, hall, Or.inr ⟨rfl, hfin, hno⟩⟩
        · rw [hb]
          refine ih s' hinv (fun j hj => hall j (by omega)) ?_
          rw [hit]
          push_cast at hf ⊢
          omega
    · rw [if_neg hc]
      exact Or.inl ⟨s, rfl, hs, (cond_iff P set s hs.rNorm).1 (by simpa using hc), hprev⟩

theorem start_spec (P : PathProblem ε W V A N) (h : Spec.PathSubscribed P) (w : ε → W) (x : V × ℝ) (args : SubsidiaryArgs ℝ V)
    (corr : V) : (P.start w x args corr = none ∧ ¬ ∃ F p, Spec.PathIterate P w x args F 0 p) ∨
      ∃ F s, P.start w x args corr = some (F, s) ∧ s.iter = 0 ∧ Inv P w x args F s := by
  have key : ∀ F p, Spec.PathIterate P w x args F 0 p → P.residual w (0, 1) = some (-F) ∧ P.residual w x = some p.r ∧
      P.jacobian w x = some p.a := by
    intro F p hh
    cases hh with
    | zero r a args h1 h2 h3 => exact ⟨h1, h2, h3⟩
  unfold start
  rw [notify_other P h w .init (by decide)]
  simp only [Option.bind_eq_bind, Option.bind_some]
  cases h0 : P.residual w (0, 1) with
  | none =>
    left
    refine ⟨rfl, ?_⟩
    rintro ⟨F, p, hh⟩
    have := (key _ _ hh).1
    rw [h0] at this
    cases this
  | some r0 =>
    cases hr : P.residual w x with
    | none =>
      left
      refine ⟨by simp, ?_⟩
      rintro ⟨F, p, hh⟩
      have := (key _ _ hh).2.1
      rw [hr] at this
      cases this
    | some r =>
      cases ha : P.jacobian w x with
      | none =>
        left
        refine ⟨by simp, ?_⟩
        rintro ⟨F, p, hh⟩
        have := (key _ _ hh).2.2
        rw [ha] at this
        cases this
      | some a =>
        right
        refine ⟨-r0, _, by simp only [Option.bind_some]; rfl, rfl, ?_⟩
        exact ⟨.zero r a _ (by rw [neg_neg]; exact h0) hr ha rfl rfl rfl rfl rfl, rfl, rfl, rfl⟩

end PathProblem

/-- C92. Everything observable about a run of the solver of path following with any elements that hold internal variables, each
subscribed once: with enough fuel the run ends, throws, or comes to increments that are not finite.  It ends with `k` iterations exactly
if `k` is the first number of iterations at which it stops, with the solution, the load factor, the arguments of the subsidiary function
and the internal variables of iterate `k`. -/
theorem path_listening_run [DecidableEq ε] (P : PathProblem ε W V A N) (h : Spec.PathSubscribed P) (set : SubsidiarySettings N)
    (w0 : ε → W) (x0 : V × ℝ) (args0 : SubsidiaryArgs ℝ V) (corr : V) (fuel : Nat) (hf : set.maxIter ≤ (fuel : Int)) :
    (P.solve set fuel w0 x0 args0 corr = .threw ∧ ¬ ∃ F p, Spec.PathIterate P w0 x0 args0 F 0 p) ∨
    ∃ F, (∃ p, Spec.PathIterate P w0 x0 args0 F 0 p) ∧
      ((∃ s, P.solve set fuel w0 x0 args0 corr = .done s ∧ Spec.PathIterate P w0 x0 args0 F s.iter ⟨s.w, s.x, s.rx, s.Ax, s.args⟩ ∧
        Spec.PathStops P set s.iter ⟨s.w, s.x, s.rx, s.Ax, s.args⟩ ∧
        (∀ j < s.iter, ∃ p, Spec.PathIterate P w0 x0 args0 F j p ∧ ¬ Spec.PathStops P set j p) ∧
        s.info.iterations = s.iter ∧ (s.info.success = true ↔ (s.iter : Int) ≠ set.maxIter) ∧
        s.info.residualNorm = some (Spec.pathNorm P s.iter ⟨s.w, s.x, s.rx, s.Ax, s.args⟩)) ∨
      ∃ k p, Spec.PathIterate P w0 x0 args0 F k p ∧
        (∀ j ≤ k, ∃ p, Spec.PathIterate P w0 x0 args0 F j p ∧ ¬ Spec.PathStops P set j p) ∧
        (P.solve set fuel w0 x0 args0 corr = .notFinite ∧ ¬ Spec.PathFinite P F p ∨
          P.solve set fuel w0 x0 args0 corr = .threw ∧ Spec.PathFinite P F p ∧
            ¬ ∃ p', Spec.PathIterate P w0 x0 args0 F (k + 1) p')) := by
  unfold PathProblem.solve
  rcases PathProblem.start_spec P h w0 x0 args0 corr with ⟨h1, h2⟩ | ⟨F, s, h1, h2, h3⟩
  · rw [h1]
    exact Or.inl ⟨rfl, h2⟩
  · right
    refine ⟨F, ⟨s.point, by rw [← h2]; exact h3.iterate⟩, ?_⟩
    rw [h1]
    simp only
    rcases PathProblem.loop_spec P h set fuel s h3 (by rw [h2]; exact fun j hj => absurd hj (Nat.not_lt_zero j))
      (by rw [h2]; push_cast; omega) with ⟨s', e1, e2, e3, e4⟩ | ⟨k, p, k1, k2, k3⟩
    · left
      simp only [e1]
      unfold PathProblem.finish
      simp only [PathProblem.notify_other P h s'.w .finishedSucessfully (by decide), Option.bind_eq_bind, Option.bind_some]
      by_cases hm : (s'.iter : Int) = set.maxIter
      · simp only [hm, if_true]
        refine ⟨_, rfl, e2.iterate, e3, e4, hm.symm, ?_, ?_⟩
        · simp [hm]
        · exact e2.residualNorm.trans (by rw [e2.rNorm]; rfl)
      · simp only [hm, if_false, e2.success, if_true]
        exact ⟨_, rfl, e2.iterate, e3, e4, rfl, by simp [hm], e2.residualNorm.trans (by rw [e2.rNorm]; rfl)⟩
    · right
      refine ⟨k, p, k1, k2, ?_⟩
      rcases k3 with ⟨k3, k4⟩ | ⟨k3, k4⟩
      · left
        simp only [k3]
        exact ⟨trivial, k4⟩
      · right
        simp only [k3]
        exact ⟨trivial, k4⟩

end Ikarus.Listening
