import Verif.Solver.ListeningModel
import Verif.FE.EASProps

/-!
C85: the Newton-Raphson solver with elements that hold internal variables and listen to it.
-/

namespace Ikarus.Listening

variable {ε W X R A C N S : Type} [DecidableEq ε]

/-! ### Specification -/

/-- The `k`-th iterate of Newton's method with internal variables: every element updates its variables from the solution before
the correction, and the next residual and Jacobian are those of the new solution and the new variables. -/
inductive Spec.Iterate (P : Problem ε W X R A C N S) (w0 : ε → W) (x0 : X) (stepSize : S) :
    Nat → (ε → W) → X → R → A → Prop
  | zero (r : R) (r' : R) (a : A) : P.residual w0 x0 = some r → P.jacobian w0 x0 = some a →
      (match P.idbc with
        | none => r' = r
        | some i => i.1 w0 x0 stepSize r = some r') → Spec.Iterate P w0 x0 stepSize 0 w0 x0 r' a
  | succ (k : Nat) (w w' : ε → W) (x x' : X) (r r' : R) (a a' : A) : Spec.Iterate P w0 x0 stepSize k w x r a →
      (∀ e, P.callback e (w e) .correctionUpdated x (P.linSolve a r) = some (w' e)) →
      x' = (match P.idbc with
        | none => P.update x (P.linSolve a r)
        | some i => i.2 (P.update x (P.linSolve a r))) →
      P.residual w' x' = some r' → P.jacobian w' x' = some a' → Spec.Iterate P w0 x0 stepSize (k + 1) w' x' r' a'

/-- The iteration may stop after `k` steps with residual `r`. -/
def Spec.Stops (P : Problem ε W X R A C N S) (set : NRSettings N) (k : Nat) (r : R) : Prop :=
  set.minIter ≤ k ∧ (set.maxIter ≤ k ∨ P.gt (P.rnorm r) set.tol = false)

/-- Every element listens exactly once, and reacts to `CORRECTION_UPDATED` only. -/
structure Spec.Subscribed (P : Problem ε W X R A C N S) : Prop where
  nodup : P.subs.Nodup
  all : ∀ e, e ∈ P.subs
  only : ∀ e w m x c, m ≠ .correctionUpdated → P.callback e w m x c = some w

/-! ### Lemmas -/

namespace Problem

theorem notify_other (P : Problem ε W X R A C N S) (h : Spec.Subscribed P) (w : ε → W) (m : SolverMessage)
    (hm : m ≠ .correctionUpdated) (x : X) (c : C) : P.notify w m x c = some w := by
  have : ∀ l : List ε, l.foldlM (fun w e => (P.callback e (w e) m x c).map (Function.update w e)) w = some w := by
    intro l
    induction l with
    | nil => rfl
    | cons e l ih =>
      rw [List.foldlM_cons, h.only e (w e) m x c hm, Option.map_some, Function.update_eq_self]
      exact ih
  exact this P.subs

theorem foldlM_update (P : Problem ε W X R A C N S) (m : SolverMessage) (x : X) (c : C) (l : List ε) (hl : l.Nodup)
    (w w' : ε → W) :
    l.foldlM (fun w e => (P.callback e (w e) m x c).map (Function.update w e)) w = some w' ↔
      (∀ e ∈ l, P.callback e (w e) m x c = some (w' e)) ∧ ∀ e, e ∉ l → w' e = w e := by
  induction l generalizing w with
  | nil =>
    constructor
    · intro h
      cases h
      exact ⟨fun e he => by simp at he, fun e _ => rfl⟩
    · rintro ⟨_, h⟩
      have : w = w' := by
        funext e
        exact (h e (by simp)).symm
      rw [this]
      rfl
  | cons e l ih =>
    have hn := List.nodup_cons.1 hl
    rw [List.foldlM_cons]
    cases hc : P.callback e (w e) m x c with
    | none =>
      constructor
      · intro h
        cases h
      · rintro ⟨h, _⟩
        have := h e (by simp)
        rw [hc] at this
        cases this
    | some v =>
      rw [Option.map_some]
      show l.foldlM _ (Function.update w e v) = some w' ↔ _
      rw [ih hn.2]
      constructor
      · rintro ⟨h1, h2⟩
        have hv : w' e = v := by rw [h2 e hn.1, Function.update_self]
        refine ⟨fun f hf => ?_, fun f hf => ?_⟩
        · by_cases hfe : f = e
          · subst hfe
            rw [hc, hv]
          · have := h1 f (by simpa [hfe] using hf)
            rwa [Function.update_of_ne hfe] at this
        · simp only [List.mem_cons, not_or] at hf
          rw [h2 f hf.2, Function.update_of_ne hf.1]
      · rintro ⟨h1, h2⟩
        refine ⟨fun f hf => ?_, fun f hf => ?_⟩
        · have hfe : f ≠ e := fun h => hn.1 (h ▸ hf)
          rw [Function.update_of_ne hfe]
          exact h1 f (by simp [hf])
        · by_cases hfe : f = e
          · subst hfe
            have := h1 f (by simp)
            rw [hc] at this
            rw [Function.update_self]
            exact (Option.some.inj this).symm
          · rw [Function.update_of_ne hfe]
            exact h2 f (by simp [hf, hfe])

theorem notify_correction (P : Problem ε W X R A C N S) (h : Spec.Subscribed P) (w w' : ε → W) (x : X) (c : C) :
    P.notify w .correctionUpdated x c = some w' ↔ ∀ e, P.callback e (w e) .correctionUpdated x c = some (w' e) := by
  unfold notify
  rw [foldlM_update P _ x c P.subs h.nodup]
  constructor
  · rintro ⟨h1, _⟩ e
    exact h1 e (h.all e)
  · intro h1
    exact ⟨fun e _ => h1 e, fun e he => absurd (h.all e) he⟩

/-- The loop variables belong to iterate `k`. -/
structure Inv (P : Problem ε W X R A C N S) (w0 : ε → W) (x0 : X) (stepSize : S) (s : Loop ε W X R A C N) : Prop where
  iterate : Spec.Iterate P w0 x0 stepSize s.iter s.w s.x s.rx s.Ax
  rNorm : s.rNorm = P.rnorm s.rx
  success : s.info.success = true
  residualNorm : P.residual s.w s.x = some s.rx ∧ s.info.residualNorm = some (P.rnorm s.rx) ∨
    s.iter = 0 ∧ ∃ r, P.residual s.w s.x = some r ∧ s.info.residualNorm = some (P.rnorm r)

omit [DecidableEq ε] in
theorem iterate_unique {P : Problem ε W X R A C N S} {w0 : ε → W} {x0 : X} {stepSize : S} {k : Nat} {w w' : ε → W}
    {x x' : X} {r r' : R} {a a' : A} (h : Spec.Iterate P w0 x0 stepSize k w x r a)
    (h' : Spec.Iterate P w0 x0 stepSize k w' x' r' a') : w = w' ∧ x = x' ∧ r = r' ∧ a = a' := by
  induction h generalizing w' x' r' a' with
  | zero r1 r2 a1 h1 h2 h3 =>
    cases h' with
    | zero r1' _ _ h1' h2' h3' =>
      rw [h1] at h1'
      rw [h2] at h2'
      cases h1'
      cases h2'
      refine ⟨rfl, rfl, ?_, rfl⟩
      cases hi : P.idbc with
      | none =>
        rw [hi] at h3 h3'
        simp only at h3 h3'
        rw [h3, h3']
      | some i =>
        rw [hi] at h3 h3'
        simp only at h3 h3'
        exact Option.some.inj (h3.symm.trans h3')
  | succ k w1 w2 x1 x2 r1 r2 a1 a2 _ hc hx hr ha ih =>
    cases h' with
    | succ _ w1' _ x1' _ r1' _ a1' _ h0' hc' hx' hr' ha' =>
      obtain ⟨rfl, rfl, rfl, rfl⟩ := ih h0'
      have hw : w2 = w' := by
        funext e
        exact Option.some.inj ((hc e).symm.trans (hc' e))
      subst hw
      rw [← hx] at hx'
      subst hx'
      rw [hr] at hr'
      rw [ha] at ha'
      cases hr'
      cases ha'
      exact ⟨rfl, rfl, rfl, rfl⟩

theorem cond_iff (P : Problem ε W X R A C N S) (set : NRSettings N) (s : Loop ε W X R A C N)
    (h : s.rNorm = P.rnorm s.rx) : P.cond set s = false ↔ Spec.Stops P set s.iter s.rx := by
  unfold cond Spec.Stops
  rw [h]
  simp only [Bool.or_eq_false_iff, Bool.and_eq_false_iff, decide_eq_false_iff_not, not_lt]
  tauto

omit [DecidableEq ε] in
theorem next_eq (P : Problem ε W X R A C N S) (x : X) (c : C) : P.next x c = (match P.idbc with
    | none => P.update x c
    | some i => i.2 (P.update x c)) := by
  unfold next
  cases P.idbc <;> rfl

theorem body_spec (P : Problem ε W X R A C N S) (h : Spec.Subscribed P) {w0 : ε → W} {x0 : X} {stepSize : S}
    {s : Loop ε W X R A C N} (hs : Inv P w0 x0 stepSize s) :
    (P.body s = none ∧ ¬ ∃ w x r a, Spec.Iterate P w0 x0 stepSize (s.iter + 1) w x r a) ∨
      ∃ s', P.body s = some s' ∧ s'.iter = s.iter + 1 ∧ s'.correction = P.linSolve s.Ax s.rx ∧
        s'.info.correctionNorm = some (P.cnorm (P.linSolve s.Ax s.rx)) ∧ Inv P w0 x0 stepSize s' := by
  have hno : ∀ w m x c, m ≠ SolverMessage.correctionUpdated → P.notify w m x c = some w :=
    fun w m x c hm => notify_other P h w m hm x c
  have key : ∀ w x r a, Spec.Iterate P w0 x0 stepSize (s.iter + 1) w x r a →
      P.notify s.w .correctionUpdated s.x (P.linSolve s.Ax s.rx) = some w ∧
      x = P.next s.x (P.linSolve s.Ax s.rx) ∧ P.residual w x = some r ∧ P.jacobian w x = some a := by
    intro w x r a hh
    cases hh with
    | succ _ w1 _ x1 _ r1 _ a1 _ h0 hc hx hr ha =>
      obtain ⟨rfl, rfl, rfl, rfl⟩ := iterate_unique h0 hs.iterate
      exact ⟨(notify_correction P h _ _ _ _).2 hc, by rw [next_eq]; exact hx, hr, ha⟩
  unfold body
  rw [hno _ _ _ _ (by decide)]
  simp only [Option.bind_eq_bind, Option.bind_some]
  cases hw : P.notify s.w .correctionUpdated s.x (P.linSolve s.Ax s.rx) with
  | none =>
    left
    refine ⟨rfl, ?_⟩
    rintro ⟨w, x, r, a, hh⟩
    have := (key w x r a hh).1
    rw [hw] at this
    cases this
  | some w =>
    simp only [Option.bind_some, hno _ .correctionnormUpdated _ _ (by decide), hno _ .solutionChanged _ _ (by decide),
      hno _ .residualnormUpdated _ _ (by decide), hno _ .iterationEnded _ _ (by decide)]
    generalize hx : P.next s.x (P.linSolve s.Ax s.rx) = x
    cases hr : P.residual w x with
    | none =>
      left
      refine ⟨rfl, ?_⟩
      rintro ⟨w', x', r, a, hh⟩
      obtain ⟨k1, k2, k3, k4⟩ := key w' x' r a hh
      rw [hw] at k1
      cases k1
      rw [k2, hx, hr] at k3
      cases k3
    | some r =>
      cases ha : P.jacobian w x with
      | none =>
        left
        refine ⟨by simp [hr, ha], ?_⟩
        rintro ⟨w', x', r', a, hh⟩
        obtain ⟨k1, k2, k3, k4⟩ := key w' x' r' a hh
        rw [hw] at k1
        cases k1
        rw [k2, hx, ha] at k4
        cases k4
      | some a =>
        right
        refine ⟨⟨w, x, r, a, P.rnorm r, s.iter + 1, P.linSolve s.Ax s.rx, _⟩, by simp [hr, ha]; rfl, rfl, rfl, rfl, ?_⟩
        exact ⟨.succ s.iter s.w w s.x x s.rx r s.Ax a hs.iterate ((notify_correction P h _ _ _ _).1 hw)
          (by rw [← hx, next_eq]) hr ha, rfl,
          hs.success, Or.inl ⟨hr, rfl⟩⟩

/-- What a run does: the first `k` at which the iteration stops or throws. -/
def Result (P : Problem ε W X R A C N S) (set : NRSettings N) (w0 : ε → W) (x0 : X) (stepSize : S)
    (o : Outcome (Loop ε W X R A C N)) : Prop :=
  (∃ s, o = .done s ∧ Inv P w0 x0 stepSize s ∧ Spec.Stops P set s.iter s.rx ∧
    ∀ j < s.iter, ∃ w x r a, Spec.Iterate P w0 x0 stepSize j w x r a ∧ ¬ Spec.Stops P set j r) ∨
  (o = .threw ∧ ∃ k, (¬ ∃ w x r a, Spec.Iterate P w0 x0 stepSize k w x r a) ∧
    ∀ j < k, ∃ w x r a, Spec.Iterate P w0 x0 stepSize j w x r a ∧ ¬ Spec.Stops P set j r)

theorem loop_spec (P : Problem ε W X R A C N S) (h : Spec.Subscribed P) (set : NRSettings N) {w0 : ε → W} {x0 : X} {stepSize : S}
    (fuel : Nat) (s : Loop ε W X R A C N) (hs : Inv P w0 x0 stepSize s)
    (hprev : ∀ j < s.iter, ∃ w x r a, Spec.Iterate P w0 x0 stepSize j w x r a ∧ ¬ Spec.Stops P set j r)
    (hf : max set.maxIter set.minIter ≤ (s.iter : Int) + fuel) : Result P set w0 x0 stepSize (P.loop set fuel s) := by
  induction fuel generalizing s with
  | zero =>
    have hst : Spec.Stops P set s.iter s.rx := by
      refine ⟨?_, Or.inl ?_⟩
      · have := le_max_right set.maxIter set.minIter
        push_cast at hf
        omega
      · have := le_max_left set.maxIter set.minIter
        push_cast at hf
        omega
    rw [loop, if_neg (by rw [Bool.not_eq_true]; exact (cond_iff P set s hs.rNorm).2 hst)]
    exact Or.inl ⟨s, rfl, hs, hst, hprev⟩
  | succ fuel ih =>
    rw [loop]
    by_cases hc : P.cond set s = true
    · rw [if_pos hc]
      have hns : ¬ Spec.Stops P set s.iter s.rx := by
        rw [← cond_iff P set s hs.rNorm, hc]
        decide
      have hall : ∀ j < s.iter + 1, ∃ w x r a, Spec.Iterate P w0 x0 stepSize j w x r a ∧ ¬ Spec.Stops P set j r := by
        intro j hj
        rcases Nat.lt_succ_iff_lt_or_eq.1 hj with hj | rfl
        · exact hprev j hj
        · exact ⟨_, _, _, _, hs.iterate, hns⟩
      rcases body_spec P h hs with ⟨hb, hno⟩ | ⟨s', hb, hi, _, _, hinv⟩
      · rw [hb]
        exact Or.inr ⟨rfl, s.iter + 1, hno, hall⟩
      · rw [hb]
        refine ih s' hinv (by rw [hi]; exact hall) ?_
        rw [hi]
        push_cast at hf ⊢
        omega
    · rw [if_neg hc]
      exact Or.inl ⟨s, rfl, hs, (cond_iff P set s hs.rNorm).1 (by simpa using hc), hprev⟩

theorem start_spec (P : Problem ε W X R A C N S) (h : Spec.Subscribed P) (w : ε → W) (x : X) (stepSize : S) (corr : C) :
    (P.start w x stepSize corr = none ∧ ¬ ∃ w' x' r a, Spec.Iterate P w x stepSize 0 w' x' r a) ∨
      ∃ s, P.start w x stepSize corr = some s ∧ s.iter = 0 ∧ Inv P w x stepSize s := by
  have key : ∀ w' x' r' a, Spec.Iterate P w x stepSize 0 w' x' r' a → ∃ r, P.residual w x = some r ∧
      P.jacobian w x = some a ∧ (match P.idbc with
        | none => r' = r
        | some i => i.1 w x stepSize r = some r') := by
    intro w' x' r' a hh
    cases hh with
    | zero r _ _ h1 h2 h3 => exact ⟨r, h1, h2, h3⟩
  unfold start
  rw [notify_other P h w .init (by decide)]
  simp only [Option.bind_eq_bind, Option.bind_some]
  cases hr : P.residual w x with
  | none =>
    left
    refine ⟨rfl, ?_⟩
    rintro ⟨w', x', r', a, hh⟩
    obtain ⟨r, h1, _⟩ := key _ _ _ _ hh
    rw [hr] at h1
    cases h1
  | some r =>
    cases ha : P.jacobian w x with
    | none =>
      left
      refine ⟨by simp [hr, ha], ?_⟩
      rintro ⟨w', x', r', a, hh⟩
      obtain ⟨r, _, h1, _⟩ := key _ _ _ _ hh
      rw [ha] at h1
      cases h1
    | some a =>
      cases hi : P.idbc with
      | none =>
        right
        refine ⟨⟨w, x, r, a, P.rnorm r, 0, corr, _⟩, by simp [hr, ha]; rfl, rfl, ?_⟩
        exact ⟨.zero r r a hr ha (by rw [hi]), rfl, rfl, Or.inl ⟨hr, rfl⟩⟩
      | some i =>
        cases hf : i.1 w x stepSize r with
        | none =>
          left
          refine ⟨by simp [ha, hf], ?_⟩
          rintro ⟨w', x', r', a', hh⟩
          obtain ⟨r1, h1, _, h2⟩ := key _ _ _ _ hh
          rw [hr] at h1
          cases h1
          rw [hi] at h2
          simp only [hf] at h2
          cases h2
        | some r' =>
          right
          refine ⟨⟨w, x, r', a, P.rnorm r', 0, corr, _⟩, by simp [ha, hf]; rfl, rfl, ?_⟩
          exact ⟨.zero r r' a hr ha (by rw [hi]; exact hf), rfl, rfl, Or.inr ⟨rfl, r, hr, rfl⟩⟩

end Problem

/-- C85. Everything observable about a run of the solver with any elements that hold internal variables, each subscribed once: with
enough fuel the run either ends or throws.  It ends with `k` iterations exactly if `k` is the first number of iterations at which it
may stop, and the solution and the internal variables of all elements are those of iterate `k`: each iteration updates every element
once, from the solution before the correction, and uses the residual and Jacobian of the new variables.  It throws exactly if an
iterate before that does not exist, that is if an element throws. -/
theorem listening_run (P : Problem ε W X R A C N S) (h : Spec.Subscribed P) (set : NRSettings N) (w0 : ε → W) (x0 : X)
    (stepSize : S) (corr : C) (fuel : Nat) (hf : max set.maxIter set.minIter ≤ (fuel : Int)) :
    (∃ s, P.solve set fuel w0 x0 stepSize corr = .done s ∧ Spec.Iterate P w0 x0 stepSize s.iter s.w s.x s.rx s.Ax ∧
      Spec.Stops P set s.iter s.rx ∧
      (∀ j < s.iter, ∃ w x r a, Spec.Iterate P w0 x0 stepSize j w x r a ∧ ¬ Spec.Stops P set j r) ∧
      s.info.iterations = s.iter ∧ (s.info.success = true ↔ (s.iter : Int) ≠ set.maxIter) ∧
      ∃ r, P.residual s.w s.x = some r ∧ s.info.residualNorm = some (P.rnorm r)) ∨
    (P.solve set fuel w0 x0 stepSize corr = .threw ∧ ∃ k, (¬ ∃ w x r a, Spec.Iterate P w0 x0 stepSize k w x r a) ∧
      ∀ j < k, ∃ w x r a, Spec.Iterate P w0 x0 stepSize j w x r a ∧ ¬ Spec.Stops P set j r) := by
  unfold Problem.solve
  rcases Problem.start_spec P h w0 x0 stepSize corr with ⟨h1, h2⟩ | ⟨s, h1, h2, h3⟩
  · rw [h1]
    exact Or.inr ⟨rfl, 0, h2, fun j hj => absurd hj (Nat.not_lt_zero j)⟩
  · rw [h1]
    rcases Problem.loop_spec P h set fuel s h3 (by rw [h2]; exact fun j hj => absurd hj (Nat.not_lt_zero j))
      (by rw [h2]; push_cast; omega) with ⟨s', e1, e2, e3, e4⟩ | ⟨e1, e2⟩
    · left
      simp only [e1]
      unfold Problem.finish
      simp only [Problem.notify_other P h s'.w .finishedSucessfully (by decide), Option.bind_eq_bind, Option.bind_some]
      have hr : ∃ r, P.residual s'.w s'.x = some r ∧ s'.info.residualNorm = some (P.rnorm r) := by
        rcases e2.residualNorm with hh | ⟨_, hh⟩
        · exact ⟨_, hh⟩
        · exact hh
      by_cases hm : (s'.iter : Int) = set.maxIter
      · simp only [hm, if_true]
        refine ⟨_, rfl, e2.iterate, e3, e4, hm.symm, ?_, hr⟩
        simp [hm]
      · simp only [hm, if_false, e2.success, if_true]
        exact ⟨_, rfl, e2.iterate, e3, e4, rfl, by simp [hm], hr⟩
    · right
      simp only [e1]
      exact ⟨trivial, e2⟩

/-! ### Elements with enhanced strains -/

open Ikarus.Element Ikarus.Element.EAS Ikarus.Element.Spec Matrix

variable {n d q m Nd : Nat}

/-- The elements of a mesh. -/
def Mesh.spec (M : Mesh ε n d q m Nd) : EAS.Spec.Mesh ε n d q m Nd := ⟨M.law, M.gps, M.dofs⟩

/-- The free degrees of freedom. -/
def Mesh.free (M : Mesh ε n d q m Nd) : Set (Fin Nd) := {i | M.constrained i = false}

variable [Fintype ε]

theorem problem_subscribed (M : Mesh ε n d q m Nd) (subs : List ε) (hn : subs.Nodup) (ha : ∀ e, e ∈ subs)
    (rnorm cnorm : (Fin Nd → ℝ) → N) (gt : N → N → Bool) (linSolve)
    (idbc : Option (((ε → Fin m → ℝ) → (Fin Nd → ℝ) × ℝ → S → (Fin Nd → ℝ) → Option (Fin Nd → ℝ)) ×
      ((Fin Nd → ℝ) × ℝ → (Fin Nd → ℝ) × ℝ))) :
    Spec.Subscribed (M.problem subs rnorm cnorm gt linSolve idbc) where
  nodup := hn
  all := ha
  only e w msg x c h := by
    show easCallback _ _ w msg _ _ _ _ = some w
    rw [easCallback, if_neg h]

omit [DecidableEq ε] in
theorem residual_some (M : Mesh ε n d q m Nd) (alpha : ε → Fin m → ℝ) (x : (Fin Nd → ℝ) × ℝ) (r : Fin Nd → ℝ)
    (h : M.residual alpha x = some r) : ∃ fc : ε → NodeVec n d,
      (∀ e, calculateVector (M.law e) (M.gps e) .forces (M.at x.1 e) (alpha e) 0 = some (fc e)) ∧
      (∀ i, M.constrained i = true → r i = 0) ∧
      ∀ i, M.constrained i = false → r i = M.spec.assemble fc i - M.load x.2 i := by
  unfold Mesh.residual at h
  simp only at h
  split at h
  · rename_i hall
    choose fc hfc using fun e => Option.isSome_iff_exists.1 (hall e)
    refine ⟨fc, hfc, fun i hi => ?_, fun i hi => ?_⟩
    · rw [← Option.some.inj h]
      simp [hi]
    · rw [← Option.some.inj h]
      simp only [hi, Bool.false_eq_true, if_false, hfc, Option.getD_some]
      rfl
  · cases h

omit [DecidableEq ε] in
theorem jacobian_some (M : Mesh ε n d q m Nd) (alpha : ε → Fin m → ℝ) (x : (Fin Nd → ℝ) × ℝ) (a : Matrix (Fin Nd) (Fin Nd) ℝ)
    (h : M.jacobian alpha x = some a) : ∃ Kc : ε → BlockMat n d,
      (∀ e, calculateMatrix (M.law e) (M.gps e) .stiffness (M.at x.1 e) (alpha e) 0 = some (Kc e)) ∧
      ∀ c, (∀ i, M.constrained i = true → (a *ᵥ c) i = c i) ∧
        ((∀ i, M.constrained i = true → c i = 0) → ∀ i, M.constrained i = false →
          (a *ᵥ c) i = M.spec.assemble (fun e => mul (Kc e) (M.at c e)) i) := by
  unfold Mesh.jacobian Mesh.raw at h
  simp only at h
  split at h
  · rename_i hall
    choose Kc hKc using fun e => Option.isSome_iff_exists.1 (hall e)
    rw [Option.map_some] at h
    refine ⟨Kc, hKc, fun c => ⟨fun i hi => ?_, fun hc i hi => ?_⟩⟩
    · rw [← Option.some.inj h]
      simp [Matrix.mulVec, dotProduct, hi]
    · rw [← Option.some.inj h]
      have h1 : ∀ j, (if (M.constrained i || M.constrained j) = true then (if i = j then (1 : ℝ) else 0)
          else ∑ e, ∑ I, ∑ a, ∑ J, ∑ b, if M.dofs e I a = i ∧ M.dofs e J b = j then Kc e I J a b else 0) * c j =
          ∑ e, ∑ I, ∑ a, ∑ J, ∑ b, if M.dofs e I a = i ∧ M.dofs e J b = j then Kc e I J a b * c j else 0 := by
        intro j
        by_cases hj : M.constrained j = true
        · rw [hc j hj]
          simp
        · rw [if_neg (by simp [hi, hj])]
          simp only [Finset.sum_mul, ite_mul, zero_mul]
      simp only [Matrix.mulVec, dotProduct, Matrix.of_apply, hKc, Option.getD_some, h1]
      unfold EAS.Spec.Mesh.assemble
      rw [Finset.sum_comm]
      refine Finset.sum_congr rfl fun e _ => ?_
      rw [Finset.sum_comm]
      refine Finset.sum_congr rfl fun I _ => ?_
      rw [Finset.sum_comm]
      refine Finset.sum_congr rfl fun a' _ => ?_
      show _ = if M.dofs e I a' = i then mul (Kc e) (M.at c e) I a' else 0
      by_cases hd : M.dofs e I a' = i
      · simp only [hd, true_and, if_true]
        unfold mul
        rw [Finset.sum_comm]
        refine Finset.sum_congr rfl fun J _ => ?_
        rw [Finset.sum_comm]
        refine Finset.sum_congr rfl fun b _ => ?_
        simp [Mesh.at]
      · simp [hd]
  · cases h

/-- What is assumed of the elements at a state: derivatives as in C49, and the matrices that are inverted are regular. -/
def Spec.RegularAt (M : Mesh ε n d q m Nd) (dom : Set (Fin q → ℝ)) (alpha : ε → Fin m → ℝ) (x : Fin Nd → ℝ) : Prop :=
  ∀ e, EAS.Spec.Regular (M.law e) dom (M.gps e) (M.at x e) (alpha e) ∧
    IsUnit (calculateD (M.law e) (M.gps e) (M.at x e) (alpha e)).det

omit [DecidableEq ε] in
theorem assemble_add (M : Mesh ε n d q m Nd) (f g : ε → NodeVec n d) (i : Fin Nd) :
    M.spec.assemble (fun e => f e + g e) i = M.spec.assemble f i + M.spec.assemble g i := by
  unfold EAS.Spec.Mesh.assemble
  simp only [← Finset.sum_add_distrib]
  refine Finset.sum_congr rfl fun e _ => Finset.sum_congr rfl fun I _ => Finset.sum_congr rfl fun a _ => ?_
  by_cases h : M.spec.dofs e I a = i <;> simp [h]

/-- One step of the solver is a step of the two field problem. -/
theorem iterate_step (M : Mesh ε n d q m Nd) (dom : Set (Fin q → ℝ)) (hm : m ≠ 0) (ha : applicable n d m = true)
    (x : (Fin Nd → ℝ) × ℝ) (alpha alpha' : ε → Fin m → ℝ) (r c : Fin Nd → ℝ) (a : Matrix (Fin Nd) (Fin Nd) ℝ)
    (hreg : Spec.RegularAt M dom alpha x.1) (hr : M.residual alpha x = some r) (hj : M.jacobian alpha x = some a)
    (hc : a *ᵥ c = -r)
    (hcall : ∀ e, easCallback (M.law e) (M.gps e) (alpha e) .correctionUpdated (M.at x.1 e) Nd (M.at c e) Nd = some (alpha' e)) :
    M.spec.TwoFieldStep M.free (M.load x.2) x.1 c alpha alpha' ∧ ∀ i, M.constrained i = true → c i = 0 := by
  obtain ⟨fc, f1, f2, f3⟩ := residual_some M alpha x r hr
  obtain ⟨Kc, k1, k2⟩ := jacobian_some M alpha x a hj
  have hz : ∀ i, M.constrained i = true → c i = 0 := by
    intro i hi
    rw [← (k2 c).1 i hi, hc, Pi.neg_apply, f2 i hi, neg_zero]
  refine ⟨(step_iff M.spec dom M.free (M.load x.2) x.1 c alpha alpha' hm ha (fun e => (hreg e).1) (fun e => (hreg e).2)).1 ?_, hz⟩
  refine ⟨Kc, fc, k1, f1, fun e => ?_, fun i hi => ?_⟩
  · have := hcall e
    rw [easCallback, if_pos rfl] at this
    exact this
  · have h1 := (k2 c).2 hz i hi
    rw [hc, Pi.neg_apply, f3 i hi] at h1
    have h2 := assemble_add M fc (fun e => mul (Kc e) (M.at c e)) i
    rw [← h1] at h2
    refine h2.trans ?_
    ring

/-- C85, elements with enhanced strains. For every mesh, load and homogeneous Dirichlet conditions: if a run with an exact linear
solver ends, its solution and the internal variables of the elements are the last of a sequence of Newton iterates of the two field
problem in all displacements and internal variables, with as many steps as iterations; the constrained degrees of freedom and the
parameter do not change; the residual that is reported is the one of the condensed problem. -/
theorem eas_solver_newton (M : Mesh ε n d q m Nd) (dom : Set (Fin q → ℝ)) (hm : m ≠ 0) (ha : applicable n d m = true)
    (subs : List ε) (hn : subs.Nodup) (hall : ∀ e, e ∈ subs) (rnorm cnorm : (Fin Nd → ℝ) → N) (gt : N → N → Bool)
    (linSolve : Matrix (Fin Nd) (Fin Nd) ℝ → (Fin Nd → ℝ) → Fin Nd → ℝ) (set : NRSettings N) (alpha0 : ε → Fin m → ℝ)
    (x0 : (Fin Nd → ℝ) × ℝ) (stepSize : S) (corr : Fin Nd → ℝ) (fuel : Nat) (hf : max set.maxIter set.minIter ≤ (fuel : Int))
    (hreg : ∀ k alpha x r a, Spec.Iterate (M.problem subs rnorm cnorm gt linSolve (none : Option _)) alpha0 x0 stepSize k alpha x r a →
      Spec.RegularAt M dom alpha x.1 ∧ a *ᵥ linSolve a r = -r)
    (s : Loop ε (Fin m → ℝ) ((Fin Nd → ℝ) × ℝ) (Fin Nd → ℝ) (Matrix (Fin Nd) (Fin Nd) ℝ) (Fin Nd → ℝ) N)
    (h : (M.problem subs rnorm cnorm gt linSolve (none : Option _)).solve set fuel alpha0 x0 stepSize corr = .done s) :
    ∃ (xs : Nat → Fin Nd → ℝ) (alphas : Nat → ε → Fin m → ℝ), xs 0 = x0.1 ∧ alphas 0 = alpha0 ∧
      (∀ j < s.iter, M.spec.TwoFieldStep M.free (M.load x0.2) (xs j) (xs (j + 1) - xs j) (alphas j) (alphas (j + 1))) ∧
      (∀ j < s.iter, ∀ i, M.constrained i = true → xs (j + 1) i = xs j i) ∧
      s.x = (xs s.iter, x0.2) ∧ s.w = alphas s.iter ∧ s.info.iterations = s.iter ∧
      (s.info.success = true ↔ (s.iter : Int) ≠ set.maxIter) ∧
      ∃ r, M.residual s.w s.x = some r ∧ s.info.residualNorm = some (rnorm r) ∧
        (s.info.success = true → 0 ≤ set.maxIter → set.minIter ≤ set.maxIter → gt (rnorm r) set.tol = false) := by
  have key : ∀ k alpha x r a,
      Spec.Iterate (M.problem subs rnorm cnorm gt linSolve (none : Option _)) alpha0 x0 stepSize k alpha x r a →
      ∃ (xs : Nat → Fin Nd → ℝ) (alphas : Nat → ε → Fin m → ℝ), xs 0 = x0.1 ∧ alphas 0 = alpha0 ∧
        (∀ j < k, M.spec.TwoFieldStep M.free (M.load x0.2) (xs j) (xs (j + 1) - xs j) (alphas j) (alphas (j + 1))) ∧
        (∀ j < k, ∀ i, M.constrained i = true → xs (j + 1) i = xs j i) ∧ x = (xs k, x0.2) ∧ alpha = alphas k ∧
        M.residual alpha x = some r ∧ M.jacobian alpha x = some a := by
    intro k alpha x r a hit
    induction hit with
    | zero r1 r2 a1 h1 h2 h3 =>
      have h3' : r2 = r1 := h3
      subst h3'
      exact ⟨fun _ => x0.1, fun _ => alpha0, rfl, rfl, fun j hj => absurd hj (Nat.not_lt_zero j),
        fun j hj => absurd hj (Nat.not_lt_zero j), rfl, rfl, h1, h2⟩
    | succ k w1 w2 x1 x2 r1 r2 a1 a2 hit hc hx hr hj ih =>
      obtain ⟨xs, alphas, e1, e2, e3, e4, e5, e6, e7, e8⟩ := ih
      obtain ⟨g1, g2⟩ := hreg _ _ _ _ _ hit
      obtain ⟨s1, s2⟩ := iterate_step M dom hm ha x1 w1 w2 r1 (linSolve a1 r1) a1 g1 e7 e8 g2 hc
      have hx' : x2 = (x1.1 + linSolve a1 r1, x1.2) := hx
      refine ⟨fun j => if j = k + 1 then x2.1 else xs j, fun j => if j = k + 1 then w2 else alphas j, by simp [e1], by simp [e2],
        fun j hj => ?_, fun j hj i hi => ?_, ?_, by simp, hr, hj⟩
      · by_cases hjk : j = k
        · subst hjk
          simp only [if_true, Nat.left_eq_add, one_ne_zero, if_false]
          rw [e5] at hx' s1
          have : x2.1 - xs j = linSolve a1 r1 := by
            rw [hx']
            exact add_sub_cancel_left _ _
          rw [this, ← e6]
          exact s1
        · have : j < k := by omega
          simp only [show ¬ j = k + 1 by omega, show ¬ j + 1 = k + 1 by omega, if_false]
          exact e3 j this
      · by_cases hjk : j = k
        · subst hjk
          simp only [if_true, Nat.left_eq_add, one_ne_zero, if_false]
          rw [hx', e5]
          show xs j i + linSolve a1 r1 i = xs j i
          rw [s2 i hi, add_zero]
        · have : j < k := by omega
          simp only [show ¬ j = k + 1 by omega, show ¬ j + 1 = k + 1 by omega, if_false]
          exact e4 j this i hi
      · simp only [if_true]
        rw [hx', e5]
  rcases listening_run (M.problem subs rnorm cnorm gt linSolve (none : Option _))
    (problem_subscribed M subs hn hall rnorm cnorm gt linSolve _) set alpha0 x0 stepSize corr fuel hf with
    ⟨s', h1, h2, h3, h4, h5, h6, h7⟩ | ⟨h1, -⟩
  · rw [h] at h1
    cases h1
    obtain ⟨xs, alphas, e1, e2, e3, e4, e5, e6, e7, e8⟩ := key _ _ _ _ _ h2
    refine ⟨xs, alphas, e1, e2, e3, e4, e5, e6, h5, h6, s.rx, e7, ?_, fun hs h0 hmm => ?_⟩
    · obtain ⟨r, r1, r2⟩ := h7
      have : some r = some s.rx := r1.symm.trans e7
      rw [r2, Option.some.inj this]
      rfl
    · have hne := h6.1 hs
      rcases h3.2 with hle | hgt
      · obtain ⟨w, x, r, a, _, hns⟩ := h4 set.maxIter.toNat (by omega)
        exact absurd ⟨by omega, Or.inl (by omega)⟩ hns
      · exact hgt
  · rw [h] at h1
    cases h1

end Ikarus.Listening
