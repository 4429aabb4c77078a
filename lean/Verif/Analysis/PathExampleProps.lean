import Verif.Analysis.PathLinearProps

/-!
C98, continued: structures that meet the hypotheses, and what path following does not do.
-/

namespace Ikarus

open Ikarus.Element Ikarus.Element.Spec PathAnalysis

/-! ### Linear structures are proper -/

theorem linear_total {n d : Nat} {s : ℝ → Skill n d} (h : Spec.LinearSkill s) (l : ℝ) : Spec.TotalSkill (s l) := by
  obtain ⟨e, f, K, -, -, hk⟩ := h
  exact ⟨fun u => ⟨_, (hk l u).1⟩, fun u r => ⟨_, (hk l u).2.1 r⟩, fun u M => ⟨_, (hk l u).2.2 M⟩⟩

theorem linear_contract {flags : List Bool} {es : List ParamElem} (h : Spec.LinearElems flags.length es) (l : ℝ) {x : List ℝ}
    (hx : x.length = flags.length) : Spec.SystemContract ⟨flags, es.map (·.at l)⟩ x := by
  refine ⟨hx, fun e he => ?_⟩
  obtain ⟨e', he', rfl⟩ := List.mem_map.1 he
  refine ⟨(h e' he').1, fun u _ sk hsk => ?_⟩
  obtain ⟨s, hs, rfl⟩ := List.mem_map.1 hsk
  obtain ⟨e, f, K, hK, -, hk⟩ := (h e' he').2 s hs
  exact ⟨fun u => e l + work (f l) u + 1 / 2 * work (mul K u) u, fun u => f l + mul K u, fun _ => K, fun w => (hk l w).1,
    fun w => (hk l w).2.1, fun w => (hk l w).2.2, (quadratic_gradient _ _ hK u).1, (quadratic_gradient (e l) _ hK u).2⟩

/-! ### A bar -/

/-- The bar of the other examples, without prescribed displacements; `f0` and `f1` tell which of its ends are held. -/
noncomputable def barPath (o : DBCOption) (f0 f1 : Bool) (steps : Nat) (adapt : Nat → PathArgs → Except PathFault ℝ) :
    PathAnalysis where
  dv := ⟨[f0, f1], 0, [], fun _ => true⟩
  alive := fun _ => true
  elems := [exampleParamBar]
  option := o
  bound := none
  linSolve := Spec.inverseSolve
  settings := { tol := 1 / 1000, minIter := 1, maxIter := 20 }
  withForce := false
  spd := Spec.inverseSolve
  steps := steps
  stepSize := 1
  adapt := adapt

variable {o : DBCOption} {f0 f1 : Bool} {steps : Nat} {adapt : Nat → PathArgs → Except PathFault ℝ}

theorem barPath_energy (l a b : ℝ) :
    ((barPath o f0 f1 steps adapt).system l).scalar? [a, b] = some (3 / 4 * (b - a) ^ 2 - l * (a + b) - l * b) :=
  exampleAnalysis_energy o l a b

/-- The residual of the bar. -/
theorem barPath_residual (l a b : ℝ) :
    ((barPath o f0 f1 steps adapt).system l).rawVector? [a, b] = some [3 / 2 * (a - b) - l, 3 / 2 * (b - a) - 2 * l] := by
  obtain ⟨K, e, g, hA⟩ := linear_system [f0, f1] [exampleParamBar] exampleAnalysis_linear
  have hA : AffineSystem (barPath o f0 f1 steps adapt).system 2 K e g := hA
  have hs : ∀ a b : ℝ, 3 / 4 * (b - a) ^ 2 - l * (a + b) - l * b = e l + (g l 0 * a + g l 1 * b) +
      1 / 2 * (a * K.val 0 0 * a + a * K.val 0 1 * b + (b * K.val 1 0 * a + b * K.val 1 1 * b)) := by
    intro a b
    have h1 := hA.scalar l [a, b] rfl
    rw [barPath_energy] at h1
    have h1 := Option.some.inj h1
    simpa [bil, Finset.sum_range_succ] using h1
  have hsym : K.val 0 1 = K.val 1 0 := by
    have := hA.symm (fun i => if i = 0 then 1 else 0) (fun i => if i = 1 then 1 else 0)
    simpa [bil, Finset.sum_range_succ] using this
  have h00 := hs 0 0
  have h10 := hs 1 0
  have h20 := hs (-1) 0
  have h01 := hs 0 1
  have h02 := hs 0 (-1)
  have h11 := hs 1 1
  have e0 : e l = 0 := by linarith
  have g0 : g l 0 = -l := by linarith
  have g1 : g l 1 = -2 * l := by linarith
  have k00 : K.val 0 0 = 3 / 2 := by linarith
  have k11 : K.val 1 1 = 3 / 2 := by linarith
  have k01 : K.val 0 1 = -3 / 2 := by linarith
  have k10 : K.val 1 0 = -3 / 2 := by linarith
  obtain ⟨r, r1, r2, r3⟩ := hA.vector l [a, b] rfl
  rw [r1]
  obtain ⟨p, q, rfl⟩ := List.length_eq_two.1 r2
  have hp := r3 0 (by norm_num)
  have hq := r3 1 (by norm_num)
  simp only [List.getD_cons_zero, List.getD_cons_succ, Finset.sum_range_succ, Finset.sum_range_zero, zero_add] at hp hq
  rw [hp, hq, g0, g1, k00, k01, k10, k11]
  congr 2
  · ring
  · congr 1; ring

theorem barPath_proper (ho : o ≠ .raw) : Spec.ProperPath (barPath o f0 f1 steps adapt) fun _ => 0 := by
  have hans : ∀ l (x : List ℝ), x.length = (barPath o f0 f1 steps adapt).dv.flags.length → ∀ A,
      (barPath o f0 f1 steps adapt).jacobian? ⟨l, some x⟩ = some A → Spec.Answers Spec.inverseSolve o [f0, f1] A := by
    intro l x hx A hA
    obtain ⟨K, e, g, hS⟩ := linear_system [f0, f1] [exampleParamBar] exampleAnalysis_linear
    exact inverseSolve_answers (barPath o f0 f1 steps adapt).toAnalysis l x ho K (hS.matrix l x hx) A hA
  refine ⟨⟨ho, fun e he l => ?_, ⟨fun l i _ => ?_, fun i _ => ?_, fun i _ h => absurd rfl h⟩, Or.inr fun _ _ => rfl,
    fun _ _ => rfl, fun _ h => absurd h (by simp [barPath]), hans⟩, hans⟩
  · exact ⟨(exampleAnalysis_linear e he).1, fun s hs => linear_total ((exampleAnalysis_linear e he).2 s hs) l⟩
  · simp [Spec.prescribed, Spec.total, barPath]
  · simp [Spec.total, barPath]

theorem barPath_exact (ho : o ≠ .raw) (l : ℝ) (x : List ℝ) (hx : x.length = 2) (A : DMat ℝ)
    (hA : (barPath o true false steps adapt).jacobian? ⟨l, some x⟩ = some A) : Spec.SolvesExactly Spec.inverseSolve A :=
  inverseSolve_solves (barPath o true false steps adapt).toAnalysis ho exampleAnalysis_linear (exampleAnalysis_supported o) l x hx A hA

theorem barPath_linear (ho : o ≠ .raw) : Spec.ProperLinear (barPath o true false steps adapt).toAnalysis fun _ => 0 :=
  have h := (barPath_proper (f0 := true) (f1 := false) (steps := steps) (adapt := adapt) ho).proper
  ⟨ho, exampleAnalysis_linear, h.prescribed, h.force, h.alive, h.bound, fun l x hx A hA => barPath_exact ho l x hx A hA⟩

theorem barPath_start : Spec.OnSupports [true, false] (fun _ => 0) 0 [0, 0] :=
  ⟨rfl, fun i hi => by
    rcases i with _ | _ | i
    · simp
    · cases hi
    · cases hi⟩

theorem barPath_free : (Finset.range ([true, false] : List Bool).length).filter (fun i => Spec.Free [true, false] i) = {1} := by
  decide

/-! ### Runs -/

/-- Load control of the bar, Full. -/
theorem barPath_load (hadapt : ∀ k args, ∃ z, adapt k args = .ok z) (hsteps : 0 < steps) :
    ∃ r, (barPath .full true false steps adapt).run (.loadControl false) 0 [0, 0] = .ok r ∧ r.success = true ∧
      ((∀ k args, adapt k args = .ok args.stepSize) →
        r.shown.map (·.lam) = 0 :: (List.range steps).map fun k : Nat => ((k : ℝ) + 1) * 1) :=
  path_linear_load (barPath_proper (by simp)).proper (barPath_linear (by simp)) rfl rfl (by norm_num [barPath])
    (by norm_num [barPath]) hsteps hadapt rfl (barPath_residual 0 0 0) (by
      show Real.sqrt (∑ i ∈ (Finset.range ([true, false] : List Bool).length).filter (fun i => Spec.Free [true, false] i), _) ≤ _
      rw [barPath_free, Finset.sum_singleton]
      norm_num [barPath])

/-- Arc length of the bar, Full or Reduced: the states are multiples of the displacements at load factor one. -/
theorem barPath_arc (ho : o ≠ .raw) (hadapt : ∀ k args, ∃ z, adapt k args = .ok z) (hsteps : 0 < steps) (psi : ℝ) (b : Bool) :
    ∃ (r : Run) (u : List ℝ) (c : ℝ), (barPath o true false steps adapt).run (.arcLength psi b) 0 [0, 0] = .ok r ∧
      r.success = true ∧ r.shown.length = steps + 1 ∧ c * Real.sqrt (2 * ∑ i ∈ Finset.range 2, u.getD i 0 ^ 2) = 1 ∧
      (u.length = 2 ∧ (∀ i < 2, ¬ Spec.Free [true, false] i → u.getD i 0 = 0) ∧
        ∃ R, ((barPath o true false steps adapt).system 1).rawVector? u = some R ∧
          ∀ i, Spec.Free [true, false] i → R.getD i 0 = 0) ∧
      ∀ (k : Nat) (s : Shown), r.shown[k]? = some s → s.lam = k * c ∧ s.x = u.map (fun v => k * c * v) ∧ s.iterations = 0 := by
  refine path_linear_arc (a := barPath o true false steps adapt) (barPath_proper ho) (barPath_linear ho) rfl
    (fun l x hx A hA => barPath_exact ho l x hx A hA) (by norm_num [barPath]) (by norm_num [barPath]) hsteps one_ne_zero hadapt
    (barPath_residual 1 0 0) (fun l f' hf' i hi => ?_) ⟨1, rfl, by norm_num⟩ psi b
  have hf' : ((barPath o true false steps adapt).system l).rawVector? [0, 0] = some f' := hf'
  rw [barPath_residual] at hf'
  obtain rfl := Option.some.inj hf'
  rcases i with _ | _ | i
  · cases hi
  · norm_num [mul_comm]
  · cases hi

/-- The hypotheses of `path_equilibrium_partial` and `path_step_sizes` are met, and the conclusions are about two states: load
control of the bar shows the start and equilibrium at load factor one. -/
example : ∃ r, (barPath .full true false 1 fun _ args => .ok args.stepSize).run (.loadControl false) 0 [0, 0] = .ok r ∧
    r.shown.map (·.lam) = [0, 1] ∧ ∀ s ∈ r.shown,
      Spec.Stationary [true, false] ((barPath .full true false 1 fun _ args => .ok args.stepSize).system s.lam).scalar? (1 / 1000) s.x := by
  obtain ⟨r, h1, h2, h3⟩ := barPath_load (steps := 1) (adapt := fun _ args => .ok args.stepSize) (fun _ _ => ⟨_, rfl⟩) one_pos
  obtain ⟨-, -, e3, e4⟩ := path_equilibrium_partial (barPath_proper (by simp)) (by norm_num [barPath]) barPath_start
    (p := .loadControl false) trivial h1
  refine ⟨r, h1, by simpa using h3 fun _ _ => rfl, fun s hs => ?_⟩
  have hsup := (e4 s hs).1 (Or.inr fun _ _ => rfl)
  exact (e4 s hs).2 ((e3.1 h2).2 s hs) (linear_contract (flags := [true, false]) (es := [exampleParamBar])
    exampleAnalysis_linear s.lam hsup.1)

theorem run_without_iterations {b : PathAnalysis} (hs : b.steps ≠ 0) (hm : b.settings.maxIter = 0) {p : PathStrategy} {lam : ℝ}
    {x : List ℝ} {s : PathAnalysis.State} (h : b.start p lam x { PathArgs.setZero x.length with stepSize := b.stepSize } = .ok s) :
    ∃ t, b.run p lam x = .ok ⟨[t], false⟩ := by
  have hi : s.iter = 0 := by
    unfold PathAnalysis.start at h
    obtain ⟨_, -, h⟩ := bind_ok.1 h
    obtain ⟨_, -, h⟩ := bind_ok.1 h
    obtain ⟨_, -, h⟩ := bind_ok.1 h
    obtain ⟨_, -, rfl⟩ := map_ok.1 h
    rfl
  refine ⟨⟨s.lam, s.x, s.args, p, s.iter, decide ((s.iter : Int) ≠ b.settings.maxIter)⟩, ?_⟩
  unfold PathAnalysis.run PathAnalysis.solve
  rw [if_neg hs, h, hm]
  show (if _ then _ else _) = _
  rw [if_pos (by simp [hi])]

/-- A run that fails, `path_stops_at_failure`: without iterations allowed, the solve before the first step counts as failed. -/
example : ∃ r s, ({ barPath .full true false 3 fun _ args => .ok args.stepSize with
      settings := { tol := 1 / 1000, minIter := 0, maxIter := 0 } } : PathAnalysis).run (.loadControl false) 0 [0, 0] = .ok r ∧
    r.success = false ∧ r.shown = [s] := by
  obtain ⟨r, h1, -⟩ := barPath_load (steps := 3) (adapt := fun _ args => .ok args.stepSize) (fun _ _ => ⟨_, rfl⟩) (by norm_num)
  unfold PathAnalysis.run at h1
  rw [if_neg (by simp [barPath])] at h1
  obtain ⟨s0, h2, -⟩ := bind_ok.1 h1
  unfold PathAnalysis.solve at h2
  obtain ⟨s, h3, -⟩ := bind_ok.1 h2
  obtain ⟨t, ht⟩ := run_without_iterations (b := { barPath .full true false 3 fun _ args => .ok args.stepSize with
      settings := { tol := 1 / 1000, minIter := 0, maxIter := 0 } }) (p := .loadControl false) (lam := 0) (x := [0, 0])
      (by simp [barPath]) rfl (s := s) h3
  exact ⟨_, t, ht, rfl, rfl⟩

/-- Arc length starts in equilibrium, `path_arc_start`, on a run that exists. -/
example : ∃ r s rest, (barPath .reduced true false 3 fun _ args => .ok args.stepSize).run (.arcLength 1 false) 0 [0, 0] = .ok r ∧
    r.shown = s :: rest ∧ s.x = [0, 0] := by
  obtain ⟨r, -, -, h1, -⟩ := barPath_arc (o := .reduced) (by simp) (steps := 3) (adapt := fun _ args => .ok args.stepSize)
    (fun _ _ => ⟨_, rfl⟩) (by norm_num) 1 false
  obtain ⟨s, rest, g1, -, -, g2, -⟩ := path_arc_start (barPath_proper (by simp)) rfl h1
  exact ⟨r, s, rest, h1, g1, g2⟩

/-- A run that ends with a fault as `path_sizes` describes it: arc length from a state that is not in equilibrium. -/
example : ∃ e, (barPath .full true false 1 fun _ args => .ok args.stepSize).run (.arcLength 1 false) 1 [0, 0] = .error e ∧
    (e = .notFinite ∨ e = .exception ∨ e = .rejected) := by
  cases hr : (barPath .full true false 1 fun _ args => .ok args.stepSize).run (.arcLength 1 false) 1 [0, 0] with
  | error e =>
    refine ⟨e, rfl, path_sizes (û := fun _ => 0) (p := .arcLength 1 false) (barPath_proper (by simp)) (by norm_num [barPath])
      (fun _ _ e he => by cases he) ⟨rfl, fun i hi => ?_⟩ trivial (Or.inl rfl) hr⟩
    rcases i with _ | _ | i
    · simp
    · cases hi
    · cases hi
  | ok r =>
    exfalso
    obtain ⟨s, rest, g1, g2, g3, g4, g5⟩ := path_arc_start (barPath_proper (by simp)) rfl hr
    have hsucc : s.success = true := by
      unfold run at hr
      rw [if_neg (by simp [barPath])] at hr
      obtain ⟨s0, hs0, hr⟩ := bind_ok.1 hr
      have h0 := first_idle (barPath_proper (by simp)).proper rfl rfl hs0
      unfold solve at hs0
      obtain ⟨t0, -, hs0⟩ := bind_ok.1 hs0
      obtain ⟨t1, -, hs0⟩ := map_ok.1 hs0
      have hss : s0.success = true := by
        subst hs0
        have : t1.iter = 0 := h0
        exact decide_eq_true (by rw [this]; norm_num [barPath])
      rw [hss] at hr
      simp only [Bool.not_true, Bool.false_eq_true, if_false] at hr
      obtain ⟨q, -, hr⟩ := bind_ok.1 hr
      obtain ⟨s1, -, hr⟩ := bind_ok.1 hr
      split at hr
      · have := congrArg Run.shown (Except.ok.inj hr)
        rw [g1] at this
        rw [← (List.cons.inj this).1]; exact hss
      · obtain ⟨r', -, hr⟩ := map_ok.1 hr
        have := congrArg Run.shown hr
        rw [g1] at this
        rw [← (List.cons.inj this).1]; exact hss
    obtain ⟨f, e1, e2⟩ := g5 (by norm_num [barPath]) hsucc
    rw [barPath_residual] at e1
    obtain rfl := Option.some.inj e1
    have e2 : Real.sqrt (∑ i ∈ (Finset.range ([true, false] : List Bool).length).filter (fun i => Spec.Free [true, false] i),
      _) ≤ _ := e2
    rw [barPath_free, Finset.sum_singleton] at e2
    have : Real.sqrt (([3 / 2 * (0 - 0) - 1, 3 / 2 * (0 - 0) - 2 * 1] : List ℝ).getD 1 0 *
        ([3 / 2 * (0 - 0) - 1, 3 / 2 * (0 - 0) - 2 * 1] : List ℝ).getD 1 0) = 2 := by
      rw [show (([3 / 2 * (0 - 0) - 1, 3 / 2 * (0 - 0) - 2 * 1] : List ℝ).getD 1 0) = -2 by norm_num,
        Real.sqrt_mul_self_eq_abs]
      norm_num
    rw [this] at e2
    norm_num [barPath] at e2

/-- A run as `path_reduced_idle` describes it: load control of the bar, Reduced, with a step so small that the residual stays
below the tolerance. The load factor changes, the displacements do not. -/
example : ∃ r, PathAnalysis.run { barPath .reduced true false 1 fun _ args => .ok args.stepSize with stepSize := 1 / 10000 }
    (.loadControl false) 0 [0, 0] = .ok r ∧ r.shown.map (·.lam) = [0, 1 / 10000] ∧ ∀ s ∈ r.shown, s.x = [0, 0] := by
  let A : PathAnalysis := { barPath .reduced true false 1 fun _ args => .ok args.stepSize with stepSize := 1 / 10000 }
  have hpr : Spec.ProperPath A fun _ => 0 := by
    have h := barPath_proper (o := .reduced) (f0 := true) (f1 := false) (steps := 1)
      (adapt := fun _ args => .ok args.stepSize) (by simp)
    exact ⟨h.proper, h.spd⟩
  have hidle : ∀ (b : Bool) (lam : ℝ) (args : PathArgs), 0 ≤ lam → lam ≤ 1 / 10000 →
      ∃ s, A.solve (.loadControl b) lam [0, 0] args = .ok s ∧ s.success = true ∧ s.iterations = 0 := by
    intro b lam args h0 h1
    obtain ⟨s0, hs0⟩ := load_start_ok hpr.proper rfl (b := b) (lam := lam) (x := [0, 0]) (args := args) rfl
    refine solve_idle hpr.proper (by norm_num [A, barPath]) rfl hs0
      (barPath_residual (o := .reduced) (f0 := true) (f1 := false) (steps := 1) (adapt := fun _ args => .ok args.stepSize) lam 0 0) ?_
    show Real.sqrt (∑ i ∈ (Finset.range ([true, false] : List Bool).length).filter (fun i => Spec.Free [true, false] i), _) ≤
      (1 / 1000 : ℝ)
    rw [barPath_free, Finset.sum_singleton]
    apply Real.sqrt_le_iff.2
    norm_num
    nlinarith
  obtain ⟨s0, a1, a2, a3⟩ := hidle false 0 { PathArgs.setZero 2 with stepSize := 1 / 10000 } le_rfl (by norm_num)
  have hsol := solve_ok hpr.proper rfl a1
  obtain ⟨i1, i2, -, -⟩ := hsol.idle a3
  have hst : s0.args.stepSize = 1 / 10000 := hsol.stepSize
  obtain ⟨s1, b1, b2, b3⟩ := hidle true (1 / 10000) { s0.args with Dlambda := 1 / 10000 } (by norm_num) le_rfl
  have hsol1 := solve_ok hpr.proper rfl b1
  obtain ⟨j1, j2, -, -⟩ := hsol1.idle b3
  have hrun : A.run (.loadControl false) 0 [0, 0] = .ok ⟨[s0, s1], true⟩ := by
    unfold run
    rw [if_neg (by simp [A, barPath])]
    show (A.solve _ 0 [0, 0] { PathArgs.setZero 2 with stepSize := 1 / 10000 }).bind _ = _
    rw [a1]
    show (if !s0.success then _ else _) = _
    rw [a2]
    show (A.initialPrediction s0.strategy _ _ _).bind _ = _
    rw [hsol.strategy]
    have hini : A.initialPrediction (.loadControl false) s0.lam s0.x s0.args =
        .ok ⟨1 / 10000, [0, 0], { s0.args with Dlambda := 1 / 10000 }, .loadControl true⟩ := by
      have hif : A.withForce = false := rfl
      simp only [initialPrediction, hif, Bool.false_eq_true, if_false]
      rw [hst, i2]
    rw [hini]
    show (A.solve _ _ [0, 0] _).bind _ = _
    rw [b1]
    show (if !s1.success then _ else _) = _
    rw [b2]
    rfl
  refine ⟨_, hrun, by simp [i1, j1], fun s hs => ?_⟩
  exact (path_reduced_idle hpr rfl (by simp [A, barPath]) (by simp) rfl hrun s hs).2 ⟨_, rfl⟩

/-! ### Refuted -/

/-- The property that the handling of constraints does not matter: a path that can be followed with the option Full can be
followed with the option Reduced. -/
def Spec.ReducedAsFull : Prop :=
  ∀ (a : PathAnalysis) (û : Nat → ℝ) (p : PathStrategy) (l0 : ℝ) (x0 : List ℝ) (r : Run), a.option = .full →
    Spec.ProperPath a û → Spec.ProperPath { a with option := .reduced } û → Spec.Controls a.dv.flags p →
    Spec.OnSupports a.dv.flags û l0 x0 → a.run p l0 x0 = .ok r → r.success = true →
    ∃ r', PathAnalysis.run { a with option := .reduced } p l0 x0 = .ok r'

/-- C98, Reduced, refuted: one step of load control of the bar. With the option Full it ends with success, with the option Reduced
the solver adds increments for the free dofs to an increment for all dofs. -/
theorem reducedAsFull_false : ¬ Spec.ReducedAsFull := by
  intro h
  obtain ⟨r, h1, h2, -⟩ := barPath_load (steps := 1) (adapt := fun _ args => .ok args.stepSize) (fun _ _ => ⟨_, rfl⟩) one_pos
  obtain ⟨r', hr⟩ := h _ _ (.loadControl false) _ _ r rfl (barPath_proper (by simp)) (barPath_proper (o := .reduced) (by simp)) trivial
    barPath_start h1 h2
  have hr : (barPath .reduced true false 1 fun _ args => .ok args.stepSize).run (.loadControl false) 0 [0, 0] = .ok r' := hr
  have hpr := barPath_proper (o := .reduced) (f0 := true) (f1 := false) (steps := 1)
    (adapt := fun _ args => .ok args.stepSize) (by simp)
  have hw : ∀ args : PathArgs, args.DD.length = 2 →
      args.DD.length ≠ (barPath .reduced true false 1 fun _ args => .ok args.stepSize).toAnalysis.width := by
    intro args hargs
    rw [hargs]
    decide
  have hsucc : ∀ {lam x args s}, (barPath .reduced true false 1 fun _ args => .ok args.stepSize).solve
      (.loadControl true) lam x args = .ok s → s.iterations = 0 → s.success = true := by
    intro lam x args s hs h0
    unfold solve at hs
    obtain ⟨t0, -, hs⟩ := bind_ok.1 hs
    obtain ⟨t1, -, hs⟩ := map_ok.1 hs
    subst hs
    have : t1.iter = 0 := h0
    exact decide_eq_true (by rw [this]; norm_num [barPath])
  unfold run at hr
  rw [if_neg (by simp [barPath])] at hr
  obtain ⟨s0, hs0, hr⟩ := bind_ok.1 hr
  have hsol := solve_ok hpr.proper rfl hs0
  obtain ⟨i1, i2, i3, i4, i5⟩ := solves_idle hsol (hw _ rfl)
  have hss : s0.success = true := by
    unfold solve at hs0
    obtain ⟨t0, -, hs0⟩ := bind_ok.1 hs0
    obtain ⟨t1, -, hs0⟩ := map_ok.1 hs0
    subst hs0
    have : t1.iter = 0 := i1
    exact decide_eq_true (by rw [this]; norm_num [barPath])
  rw [hss] at hr
  simp only [Bool.not_true, Bool.false_eq_true, if_false] at hr
  obtain ⟨q, hq, hr⟩ := bind_ok.1 hr
  obtain ⟨s1, hs1, -⟩ := bind_ok.1 hr
  rw [hsol.strategy] at hq
  have hq : (Except.ok _ : Except PathFault Predicted) = .ok q := hq
  obtain rfl := Except.ok.inj hq
  have hsol1 := solve_ok hpr.proper (by show s0.x.length = _; rw [i3]; rfl) hs1
  obtain ⟨j1, j2, j3, -⟩ := solves_idle hsol1 (hw _ (by show s0.args.DD.length = 2; rw [i4]; rfl))
  obtain ⟨R, R1, -, R3⟩ := hsol1.residual
  have R3 := R3 (by norm_num [barPath]) (hsucc hs1 j1)
  rw [j2, j3] at R1
  have R1 : ((barPath .reduced true false 1 fun _ args => .ok args.stepSize).system s0.args.stepSize).rawVector? s0.x = some R := R1
  rw [hsol.stepSize, i3] at R1
  have R1 : ((barPath .reduced true false 1 fun _ args => .ok args.stepSize).system 1).rawVector? [0, 0] = some R := R1
  rw [barPath_residual] at R1
  obtain rfl := Option.some.inj R1
  have R3 : Real.sqrt (∑ i ∈ (Finset.range ([true, false] : List Bool).length).filter (fun i => Spec.Free [true, false] i),
      _) ≤ _ := R3
  rw [barPath_free, Finset.sum_singleton] at R3
  have : Real.sqrt (([3 / 2 * (0 - 0) - 1, 3 / 2 * (0 - 0) - 2 * 1] : List ℝ).getD 1 0 *
      ([3 / 2 * (0 - 0) - 1, 3 / 2 * (0 - 0) - 2 * 1] : List ℝ).getD 1 0) = 2 := by
    rw [show (([3 / 2 * (0 - 0) - 1, 3 / 2 * (0 - 0) - 2 * 1] : List ℝ).getD 1 0) = -2 by norm_num,
      Real.sqrt_mul_self_eq_abs]
    norm_num
  rw [this] at R3
  norm_num [barPath] at R3

/-- The property that the first step of a successful run has the size asked for. -/
def Spec.StepsAsAsked : Prop :=
  ∀ (a : PathAnalysis) (û : Nat → ℝ) (p : PathStrategy) (l0 : ℝ) (x0 : List ℝ) (r : Run), a.option = .full →
    Spec.ProperPath a û → 0 < a.settings.maxIter → Spec.Controls a.dv.flags p → Spec.OnSupports a.dv.flags û l0 x0 →
    a.run p l0 x0 = .ok r → r.success = true → ∀ s t rest, r.shown = s :: t :: rest →
    Spec.ArcAdmissible a.dv.flags û t.strategy 0 (Spec.firstFrom p s.x) t.lam t.x →
    |Spec.stepLength t.strategy 0 (Spec.firstFrom p s.x) t.lam t.x - t.args.stepSize| ≤ a.settings.tol

/-- C98, step sizes, refuted: displacement control of both ends of a bar which is not held. The prediction moves both by the step
size, which is in equilibrium; the solver, whose first norm does not contain the subsidiary function, does nothing, and the size
of the step is the step size times the root of two. -/
theorem stepsAsAsked_false : ¬ Spec.StepsAsAsked := by
  intro h
  let A := barPath .full false false 1 fun _ args => .ok args.stepSize
  have hpr : Spec.ProperPath A fun _ => 0 := barPath_proper (by simp)
  have hstart : ∀ (b : Bool) (x : List ℝ) (args : PathArgs), x.length = 2 → args.DD.length = 2 →
      ∃ s0, A.start (.displacementControl [0, 1] b) 0 x args = .ok s0 := by
    intro b x args hx hDD
    obtain ⟨r, g1, g2, -⟩ := residual_ok hpr.proper 0 hx
    obtain ⟨r', f1, f2, f3⟩ := residual_ok hpr.proper 1 (x := List.replicate x.length 0) (by simp [hx]; rfl)
    obtain ⟨J, hA1, -, -⟩ := Analysis.jacobian_width hpr.proper 0 hx
    have hw : (view A.option A.dv.flags r').length = 2 := by
      obtain ⟨p, q, rfl⟩ := List.length_eq_two.1 f2
      rfl
    unfold start
    rw [evaluated_ok.2 f1]
    show ∃ s0, (evaluated _).bind _ = _
    rw [evaluated_ok.2 g1]
    show ∃ s0, (evaluated _).bind _ = _
    rw [evaluated_ok.2 hA1]
    show ∃ s0, (A.subsidiary _ _ _ _).map _ = _
    have hin : ∀ v : List ℝ, v.length = 2 → inRange [0, 1] v = .ok () := by
      intro v hv
      simp [inRange, hv]
    have hif : A.withForce = false := rfl
    simp only [subsidiary, hif, Bool.false_eq_true, if_false]
    rw [hin _ hDD]
    show ∃ s0, Except.map _ ((inRange _ _).map _) = _
    rw [hin _ (by rw [List.length_map]; split; · rename_i hl; rw [hl, hw]
                  · rw [List.length_replicate, hw])]
    exact ⟨_, rfl⟩
  have hidle : ∀ x ∈ [[(0 : ℝ), 0], [1, 1]], ∀ (b : Bool) (args : PathArgs), args.DD.length = 2 →
      ∃ s, A.solve (.displacementControl [0, 1] b) 0 x args = .ok s ∧ s.success = true ∧ s.iterations = 0 := by
    intro x hx b args hDD
    have hx' : x = [0, 0] ∨ x = [1, 1] := by simpa using hx
    have hxl : x.length = 2 := by rcases hx' with rfl | rfl <;> rfl
    obtain ⟨s0, hs0⟩ := hstart b x args hxl hDD
    have hr : (A.system 0).rawVector? x = some [0, 0] := by
      rcases hx' with rfl | rfl
      · exact (barPath_residual 0 0 0).trans (by norm_num)
      · exact (barPath_residual 0 1 1).trans (by norm_num)
    refine solve_idle hpr.proper (by norm_num [A, barPath]) hxl hs0 hr ?_
    rw [Analysis.freeSq_zero fun i hi => ?_, Real.sqrt_zero]
    · norm_num [A, barPath]
    · rcases i with _ | _ | i
      · rfl
      · rfl
      · cases hi
  obtain ⟨s0, a1, a2, a3⟩ := hidle [0, 0] (by simp) false { PathArgs.setZero 2 with stepSize := 1 } rfl
  have hsol := solve_ok hpr.proper rfl a1
  obtain ⟨i1, i2, i3, i4⟩ := hsol.idle a3
  obtain ⟨s1, b1, b2, b3⟩ := hidle [1, 1] (by simp) true { s0.args with DD := [1, 1] } rfl
  have hsol1 := solve_ok hpr.proper rfl b1
  obtain ⟨j1, j2, j3, j4⟩ := hsol1.idle b3
  have hrun : A.run (.displacementControl [0, 1] false) 0 [0, 0] = .ok ⟨[s0, s1], true⟩ := by
    unfold run
    rw [if_neg (by simp [A, barPath])]
    show (A.solve _ 0 [0, 0] { PathArgs.setZero 2 with stepSize := 1 }).bind _ = _
    rw [a1]
    show (if !s0.success then _ else _) = _
    rw [a2]
    show (A.initialPrediction s0.strategy _ _ _).bind _ = _
    rw [hsol.strategy, i1]
    have hini : A.initialPrediction (.displacementControl [0, 1] false) 0 s0.x s0.args =
        .ok ⟨0, [1, 1], { s0.args with DD := [1, 1] }, .displacementControl [0, 1] true⟩ := by
      have hif : A.withForce = false := rfl
      simp only [initialPrediction, hif, Bool.false_eq_true, if_false]
      have h1 : s0.args.stepSize = 1 := hsol.stepSize
      have h2 : s0.args.DD = [0, 0] := i3.trans rfl
      rw [h1, h2]
      rfl
    rw [hini]
    show (A.solve _ 0 [1, 1] _).bind _ = _
    rw [b1]
    show (if !s1.success then _ else _) = _
    rw [b2]
    rfl
  have := h A _ (.displacementControl [0, 1] false) 0 [0, 0] _ rfl hpr (by norm_num [A, barPath])
    (fun i hi => by
      have : i = 0 ∨ i = 1 := by simpa using hi
      rcases this with rfl | rfl <;> rfl)
    ⟨rfl, fun i hi => by
      rcases i with _ | _ | i
      · cases hi
      · cases hi
      · cases hi⟩ hrun rfl s0 s1 [] rfl (by rw [hsol1.strategy]; trivial)
  rw [hsol1.strategy, j1, j2, hsol1.stepSize] at this
  have h1 : s0.args.stepSize = 1 := hsol.stepSize
  have this : |Spec.stepLength (.displacementControl [0, 1] true) 0 (List.replicate s0.x.length 0) 0 [1, 1] - s0.args.stepSize| ≤
    (1 / 1000 : ℝ) := this
  rw [h1, i2] at this
  have hlen : Spec.stepLength (.displacementControl [0, 1] true) 0 (List.replicate ([0, 0] : List ℝ).length 0) 0 [1, 1] =
      Real.sqrt 2 := by
    simp [Spec.stepLength]
    norm_num
  rw [hlen] at this
  have h2 := (abs_le.1 this).2
  have h3 : (1.4 : ℝ) ≤ Real.sqrt 2 := Real.le_sqrt_of_sq_le (by norm_num)
  linarith

end Ikarus
