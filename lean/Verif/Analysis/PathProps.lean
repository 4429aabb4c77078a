import Verif.Analysis.PathTotalLemmas

/-!
Property C98: what path following of complete structures means, and for which sizes of vectors it is defined.
-/

namespace Ikarus

open Ikarus.Element Ikarus.Element.Spec PathAnalysis

variable {a : PathAnalysis} {û : Nat → ℝ}

/-! ### What is shown -/

/-- C98. A run of path following that ends without fault, with any path following function, Full or Reduced, with elements
of any kind and linear solvers of any quality: at least one state and at most one per step and one for the start are shown; the
run is successful exactly if all of them are shown and are successful; successful states are stationary points of the energy
up to the tolerance of the solver, without any condition on the iterations; the constrained dofs have their prescribed
displacements unless the load factor is zero.  Missing: that runs end without fault, which is false with the option
Reduced (`path_reduced_idle`, `reducedAsFull_false`). -/
theorem path_equilibrium_partial (h : Spec.ProperPath a û) (hmax : 0 ≤ a.settings.maxIter) {p : PathStrategy} {l0 : ℝ}
    {x0 : List ℝ} (hx0 : Spec.OnSupports a.dv.flags û l0 x0) (hcon : Spec.Controls a.dv.flags p) {r : Run}
    (hr : a.run p l0 x0 = .ok r) :
    0 < r.shown.length ∧ r.shown.length ≤ a.steps + 1 ∧
      (r.success = true ↔ r.shown.length = a.steps + 1 ∧ ∀ s ∈ r.shown, s.success = true) ∧
      ∀ s ∈ r.shown,
        (s.lam ≠ 0 ∨ (∀ i < a.dv.flags.length, û i = 0) → Spec.OnSupports a.dv.flags û s.lam s.x) ∧
        (s.success = true → Spec.SystemContract (a.system s.lam) s.x →
          Spec.Stationary a.dv.flags (a.system s.lam).scalar? a.settings.tol s.x) := by
  obtain ⟨h1, h2, h3, h4, -, -⟩ := run_ok h hmax hx0 hcon hr
  refine ⟨h1, h2, h3, fun s hs => ?_⟩
  have hf := h4 s hs
  refine ⟨supp_iff hf.length hf.supp, fun hsucc hc => ?_⟩
  obtain ⟨r, r1, r2, r3⟩ := hf.residual
  exact stationary_of_residual (a.system s.lam) a.settings.tol hc r1 r2 (r3 hsucc)

theorem loop_stops {n ls : Nat} {prev : Shown} {r : Run} (hr : a.loop n ls prev = .ok r) (hf : r.success = false) :
    ∃ ok s, r.shown = ok ++ [s] ∧ s.success = false ∧ ∀ t ∈ ok, t.success = true := by
  induction n generalizing ls prev r with
  | zero =>
    simp only [loop, Except.ok.injEq] at hr
    subst hr
    cases hf
  | succ n ih =>
    simp only [loop] at hr
    obtain ⟨_, _, hr⟩ := bind_ok.1 hr
    obtain ⟨_, _, hr⟩ := bind_ok.1 hr
    obtain ⟨s, -, hr⟩ := bind_ok.1 hr
    by_cases hs : s.success = true
    · rw [if_neg (by simp [hs])] at hr
      obtain ⟨r', hr', rfl⟩ := map_ok.1 hr
      obtain ⟨ok, t, h1, h2, h3⟩ := ih hr' hf
      exact ⟨s :: ok, t, by simp [h1], h2, by simpa [hs] using h3⟩
    · rw [if_pos (by simp [hs])] at hr
      simp only [Except.ok.injEq] at hr
      subst hr
      exact ⟨[], s, rfl, by simpa using hs, by simp⟩

/-- C98. Path following without success: the solve that failed is the last one made, its state is shown as well, and all
solves before were successful. -/
theorem path_stops_at_failure {p : PathStrategy} {l0 : ℝ} {x0 : List ℝ} {r : Run} (hr : a.run p l0 x0 = .ok r)
    (hf : r.success = false) : ∃ ok s, r.shown = ok ++ [s] ∧ s.success = false ∧ ∀ t ∈ ok, t.success = true := by
  unfold run at hr
  split at hr
  · cases hr
  obtain ⟨s0, -, hr⟩ := bind_ok.1 hr
  by_cases hs0 : s0.success = true
  · rw [if_neg (by simp [hs0])] at hr
    obtain ⟨_, _, hr⟩ := bind_ok.1 hr
    obtain ⟨s1, -, hr⟩ := bind_ok.1 hr
    by_cases hs1 : s1.success = true
    · rw [if_neg (by simp [hs1])] at hr
      obtain ⟨r', hr', rfl⟩ := map_ok.1 hr
      obtain ⟨ok, t, h1, h2, h3⟩ := loop_stops hr' hf
      exact ⟨s0 :: s1 :: ok, t, by simp [h1], h2, by simpa [hs0, hs1] using h3⟩
    · rw [if_pos (by simp [hs1])] at hr
      simp only [Except.ok.injEq] at hr
      subst hr
      exact ⟨[s0], s1, rfl, by simpa using hs1, by simpa using hs0⟩
  · rw [if_pos (by simp [hs0])] at hr
    simp only [Except.ok.injEq] at hr
    subst hr
    exact ⟨[], s0, rfl, by simpa using hs0, by simp⟩

/-- C98, step sizes. In a run that ends without fault, every step whose solve iterated and succeeded has the size asked for up to
the tolerance of the solver: the length of the step for arc length, the load increment for load control, the change of
the controlled dofs for displacement control.  The first step is measured from the load factor zero, and for displacement
control from displacements zero, whatever the start of the run is; the others from the state shown before. -/
theorem path_step_sizes (h : Spec.ProperPath a û) (hmax : 0 ≤ a.settings.maxIter) {p : PathStrategy} {l0 : ℝ} {x0 : List ℝ}
    (hx0 : Spec.OnSupports a.dv.flags û l0 x0) (hcon : Spec.Controls a.dv.flags p) {r : Run} (hr : a.run p l0 x0 = .ok r) :
    (∀ s t rest, r.shown = s :: t :: rest → Spec.StepMet a.dv.flags û a.settings.tol 0 (Spec.firstFrom p s.x) t) ∧
      List.IsChain (fun s t => Spec.StepMet a.dv.flags û a.settings.tol s.lam s.x t) r.shown.tail :=
  (run_ok h hmax hx0 hcon hr).2.2.2.2

/-! ### Faults -/

/-- C98, faults. With the option Full, or with an arc length function that has not been used before, no vectors of different
sizes meet and nothing is undefined: a run that does not end regularly ends with values that are not finite, with an exception,
or is not accepted by the compiler. -/
theorem path_sizes (h : Spec.ProperPath a û) (hmax : 0 ≤ a.settings.maxIter)
    (hadapt : ∀ k args e, a.adapt k args = .error e → e = .exception ∨ e = .notFinite) {p : PathStrategy} {l0 : ℝ} {x0 : List ℝ}
    (hx0 : Spec.OnSupports a.dv.flags û l0 x0) (hcon : Spec.Controls a.dv.flags p)
    (hopt : a.option = .full ∨ ∃ psi, p = .arcLength psi false) {e : PathFault} (he : a.run p l0 x0 = .error e) :
    e = .notFinite ∨ e = .exception ∨ e = .rejected := by
  obtain ⟨h1, h2⟩ := run_mild h hmax (fun k args e he => by
    rcases hadapt k args e he with rfl | rfl <;> simp) hx0 hcon hopt e he
  cases e <;> simp_all

/-- C98, Reduced. With the option Reduced and at least one constrained dof, a run of load control or displacement control that
ends without fault has not iterated in any solve: load control has not moved a single dof. -/
theorem path_reduced_idle (h : Spec.ProperPath a û) (hopt : a.option = .reduced) (hdof : true ∈ a.dv.flags) {p : PathStrategy}
    (hp : ∀ psi b, p ≠ .arcLength psi b) {l0 : ℝ} {x0 : List ℝ} (hx0 : x0.length = a.dv.flags.length) {r : Run}
    (hr : a.run p l0 x0 = .ok r) :
    ∀ s ∈ r.shown, s.iterations = 0 ∧ ((∃ b, p = .loadControl b) → s.x = x0) := by
  refine run_idle h hx0 ?_ ?_ hr
  · cases p with
    | arcLength psi b => exact absurd rfl (hp psi b)
    | loadControl b => trivial
    | displacementControl cs b => trivial
  · rw [Analysis.width, if_neg (by rw [hopt]; simp)]
    have h1 : ∀ l : List Bool, l.count true + l.count false = l.length := fun l => by
      induction l with
      | nil => rfl
      | cons b l ih => cases b <;> simp <;> omega
    have h2 : 0 < a.dv.flags.count true := List.count_pos_iff.2 hdof
    have h3 := h1 a.dv.flags
    omega

/-- C98, arc length starts in equilibrium. A run of arc length that ends without fault does not iterate before its first step: it
starts at a state with residual at most the tolerance, or stops there without success if no iterations are allowed. -/
theorem path_arc_start (h : Spec.ProperPath a û) {psi : ℝ} {b : Bool} {l0 : ℝ} {x0 : List ℝ}
    (hx0 : x0.length = a.dv.flags.length) {r : Run} (hr : a.run (.arcLength psi b) l0 x0 = .ok r) :
    ∃ s rest, r.shown = s :: rest ∧ s.iterations = 0 ∧ s.lam = l0 ∧ s.x = x0 ∧
      (0 ≤ a.settings.maxIter → s.success = true → ∃ f, (a.system l0).rawVector? x0 = some f ∧
        Real.sqrt (∑ i ∈ (Finset.range a.dv.flags.length).filter (fun i => Spec.Free a.dv.flags i), f.getD i 0 * f.getD i 0) ≤
          a.settings.tol) := by
  unfold run at hr
  split at hr
  · cases hr
  obtain ⟨s0, hs0, hr⟩ := bind_ok.1 hr
  have hsol := solve_ok h.proper hx0 hs0
  have h0 := first_idle h.proper hx0 rfl hs0
  obtain ⟨i1, i2, -, -⟩ := hsol.idle h0
  have hres : 0 ≤ a.settings.maxIter → s0.success = true → ∃ f, (a.system l0).rawVector? x0 = some f ∧
      Real.sqrt (∑ i ∈ (Finset.range a.dv.flags.length).filter (fun i => Spec.Free a.dv.flags i), f.getD i 0 * f.getD i 0) ≤
        a.settings.tol := by
    intro hm hs
    obtain ⟨f, f1, -, f3⟩ := hsol.residual
    rw [i1, i2] at f1
    exact ⟨f, f1, f3 hm hs⟩
  split at hr
  · cases hr
    exact ⟨s0, [], rfl, h0, i1, i2, hres⟩
  obtain ⟨q, -, hr⟩ := bind_ok.1 hr
  obtain ⟨s1, -, hr⟩ := bind_ok.1 hr
  split at hr
  · cases hr
    exact ⟨s0, [s1], rfl, h0, i1, i2, hres⟩
  · obtain ⟨r', -, hr⟩ := map_ok.1 hr
    subst hr
    exact ⟨s0, s1 :: r'.shown, rfl, h0, i1, i2, hres⟩

/-! ### Linear structures -/

theorem loop_load (h : Spec.Proper a.toAnalysis û) (hl : Spec.ProperLinear a.toAnalysis û) (htol : 0 ≤ a.settings.tol)
    (hmax : 3 ≤ a.settings.maxIter) (hf : a.withForce = false) (hadapt : ∀ k args, ∃ z, a.adapt k args = .ok z) (n ls : Nat)
    {prev : Shown} (hx : prev.x.length = a.dv.flags.length) (hp : prev.strategy = .loadControl true)
    (hDD : prev.args.DD.length = a.width) :
    ∃ r, a.loop n ls prev = .ok r ∧ r.success = true ∧
      ((∀ k args, a.adapt k args = .ok args.stepSize) → prev.args.Dlambda = prev.args.stepSize →
        r.shown.map (·.lam) = (List.range n).map fun k : Nat => prev.lam + ((k : ℝ) + 1) * prev.args.stepSize) := by
  induction n generalizing ls prev with
  | zero => exact ⟨⟨[], true⟩, rfl, rfl, fun _ _ => rfl⟩
  | succ n ih =>
    obtain ⟨z, hz⟩ := hadapt prev.iterations { prev.args with currentStep := ls }
    obtain ⟨s, s1, s2, s3, s4, -, s5, -⟩ := solve_load h hl htol hmax hf (b := true) (lam := prev.lam + prev.args.Dlambda)
      (args := { { prev.args with currentStep := ls } with stepSize := z }) hx hDD
    have hsol := solve_ok h hx s1
    obtain ⟨r, r1, r2, r3⟩ := ih (ls + 1) hsol.length hsol.strategy s3
    refine ⟨⟨s :: r.shown, r.success⟩, ?_, r2, fun hc he => ?_⟩
    · simp only [loop]
      rw [hz]
      show (a.intermediatePrediction prev.strategy _ _ _).bind _ = _
      rw [hp]
      simp only [intermediatePrediction, hf, Bool.false_eq_true, if_false, Bool.true_eq_false]
      show (a.solve _ _ _ _).bind _ = _
      rw [s1]
      show (if !s.success then _ else _) = _
      rw [s2]
      show (a.loop n (ls + 1) s).map _ = _
      rw [r1]
      rfl
    · have hzz : z = prev.args.stepSize := by rw [hc] at hz; exact (Except.ok.inj hz).symm
      subst hzz
      have hs : s.lam = prev.lam + prev.args.stepSize ∧ s.args.Dlambda = prev.args.stepSize := by
        rcases Nat.eq_zero_or_pos s.iterations with h0 | h0
        · obtain ⟨i1, -, -, i4⟩ := hsol.idle h0
          exact ⟨by rw [i1, he], i4.trans he⟩
        · obtain ⟨j1, j2⟩ := s5 h0
          refine ⟨?_, j1⟩
          rw [j2]
          show prev.lam + prev.args.Dlambda + (prev.args.stepSize - prev.args.Dlambda) = _
          ring
      have hr := r3 hc (by rw [hs.2, s4])
      show s.lam :: r.shown.map (·.lam) = _
      rw [hr, List.range_succ_eq_map, List.map_cons, List.map_map, hs.1, s4]
      refine congrArg₂ _ (by push_cast; ring) (List.map_congr_left fun k _ => ?_)
      simp only [Function.comp, Nat.cast_succ]
      ring

/-- C98, linear structures. Load control of a structure with linear elements and no prescribed displacements, with the option
Full, started in equilibrium, ends without fault and with success, whatever the step size adaption does; with a constant step size
the load factors are the one of the start and the multiples of the step size, whatever the load factor of the start is. -/
theorem path_linear_load (h : Spec.Proper a.toAnalysis û) (hl : Spec.ProperLinear a.toAnalysis û) (hopt : a.option = .full)
    (hf : a.withForce = false) (htol : 0 ≤ a.settings.tol) (hmax : 3 ≤ a.settings.maxIter) (hsteps : 0 < a.steps)
    (hadapt : ∀ k args, ∃ z, a.adapt k args = .ok z) {b : Bool} {l0 : ℝ} {x0 f : List ℝ} (hx0 : x0.length = a.dv.flags.length)
    (hf0 : (a.system l0).rawVector? x0 = some f)
    (hres : Real.sqrt (∑ i ∈ (Finset.range a.dv.flags.length).filter (fun i => Spec.Free a.dv.flags i), f.getD i 0 * f.getD i 0) ≤
      a.settings.tol) :
    ∃ r, a.run (.loadControl b) l0 x0 = .ok r ∧ r.success = true ∧
      ((∀ k args, a.adapt k args = .ok args.stepSize) →
        r.shown.map (·.lam) = l0 :: (List.range a.steps).map fun k : Nat => ((k : ℝ) + 1) * a.stepSize) := by
  have hfl : f.length = a.dv.flags.length := by
    obtain ⟨r, -, r2, r3⟩ := residual_ok h l0 hx0
    rw [hf0] at r3
    rw [Option.some.inj r3, r2]
  have hw : a.width = a.dv.flags.length := by rw [Analysis.width, if_pos hopt]
  obtain ⟨s0, s1, s2, s3, s4, -, -, s6⟩ := solve_load h hl htol hmax hf (b := b) (lam := l0)
    (args := { PathArgs.setZero x0.length with stepSize := a.stepSize }) hx0 (by simp [PathArgs.setZero, hw, hx0])
  have h0 := s6 (by rw [hf0, Option.getD_some, sqNorm_view _ _ _ hfl]; exact hres)
  have hsol := solve_ok h hx0 s1
  obtain ⟨i1, i2, i3, i4⟩ := hsol.idle h0
  obtain ⟨t, t1, t2, t3, t4, -, t5, -⟩ := solve_load h hl htol hmax hf (b := true) (lam := s0.args.stepSize)
    (x := s0.x) (args := { s0.args with Dlambda := s0.args.stepSize }) hsol.length s3
  have htsol := solve_ok h hsol.length t1
  obtain ⟨r, r1, r2, r3⟩ := loop_load h hl htol hmax hf hadapt (a.steps - 1) 1 htsol.length htsol.strategy t3
  refine ⟨⟨s0 :: t :: r.shown, r.success⟩, ?_, r2, fun hc => ?_⟩
  · unfold run
    rw [if_neg (by omega), s1]
    show (if !s0.success then _ else _) = _
    rw [s2]
    show (a.initialPrediction s0.strategy _ _ _).bind _ = _
    rw [hsol.strategy]
    simp only [initialPrediction, hf, Bool.false_eq_true, if_false]
    show (a.solve _ _ _ _).bind _ = _
    rw [t1]
    show (if !t.success then _ else _) = _
    rw [t2]
    show (a.loop _ _ t).map _ = _
    rw [r1]
    rfl
  · have ht : t.lam = a.stepSize ∧ t.args.Dlambda = a.stepSize := by
      rcases Nat.eq_zero_or_pos t.iterations with h0 | h0
      · obtain ⟨i1, -, -, i4⟩ := htsol.idle h0
        exact ⟨i1.trans s4, i4.trans s4⟩
      · obtain ⟨j1, j2⟩ := t5 h0
        refine ⟨?_, j1.trans s4⟩
        rw [j2]
        show s0.args.stepSize + (s0.args.stepSize - s0.args.stepSize) = _
        rw [s4]
        show a.stepSize + (a.stepSize - a.stepSize) = _
        ring
    have ht4 : t.args.stepSize = a.stepSize := t4.trans s4
    have hr := r3 hc (by rw [ht.2, ht4])
    show s0.lam :: t.lam :: r.shown.map (·.lam) = _
    rw [hr, i1, ht.1, ht4]
    obtain ⟨m, hm⟩ : ∃ m, a.steps = m + 1 := ⟨a.steps - 1, by omega⟩
    rw [hm, List.range_succ_eq_map, List.map_cons, List.map_map]
    refine congrArg₂ _ rfl (congrArg₂ _ (by push_cast; ring) (List.map_congr_left fun k _ => ?_))
    simp only [Function.comp, Nat.cast_succ]
    ring

end Ikarus
