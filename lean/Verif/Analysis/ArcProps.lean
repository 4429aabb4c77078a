import Verif.Analysis.ArcRunLemmas

/-!
C105: arc length follows regular equilibrium paths of nonlinear structures, also past limit points.
-/

namespace Ikarus

open Ikarus.Element Ikarus.Element.Spec PathAnalysis Arc

variable {a : PathAnalysis} {û : Nat → ℝ} {psi beta L : ℝ}

/-- With proportional loads the stiffness does not depend on the load factor. -/
theorem same_stiffness {b : Analysis} (hp : Spec.Proper b û) (hprop : Spec.ProportionalLoads b) {l : ℝ} {x f : List ℝ}
    (hc : Spec.SystemContract (b.system l) x) (hc1 : Spec.SystemContract (b.system 1) x) (hx : x.length = b.dv.flags.length)
    (hf : (b.system 1).rawVector? (List.replicate b.dv.flags.length 0) = some f) {K K1 : DMat ℝ}
    (hK : (b.system l).rawMatrix? x = some K) (hK1 : (b.system 1).rawMatrix? x = some K1) {v : List ℝ}
    (hv : v.length = b.dv.flags.length) {i : Nat} (hi : Spec.Free b.dv.flags i) : Spec.times K v i = Spec.times K1 v i := by
  obtain ⟨-, _, K', _, e1, d1⟩ := assembled_consistent _ _ hc
  obtain rfl : K = K' := Option.some.inj (hK.symm.trans e1)
  obtain ⟨-, _, K'', _, e2, d2⟩ := assembled_consistent _ _ hc1
  obtain rfl : K1 = K'' := Option.some.inj (hK1.symm.trans e2)
  have h1 := (d1 v hv).2 i (free_lt hi)
  have h2 := (d2 v hv).2 i (free_lt hi)
  rw [Analysis.times_eq K hv, Analysis.times_eq K1 hv]
  refine (h1.congr_of_eventuallyEq (Filter.Eventually.of_forall fun t => ?_)).unique (h2.add_const ((l - 1) * f.getD i 0))
  have hl : (Spec.line x v t).length = b.dv.flags.length := by simp [Spec.line, hx, hv]
  obtain ⟨-, r1, -, -, hr1, -⟩ := Analysis.proper_system hp l hl
  obtain ⟨-, r2, -, -, hr2, -⟩ := Analysis.proper_system hp 1 hl
  obtain ⟨-, r0, -, -, hr0, -⟩ := Analysis.proper_system hp 0 hl
  have e1 := hprop _ _ _ _ _ hl hr1 hr0 hf i hi
  have e2 := hprop _ _ _ _ _ hl hr2 hr0 hf i hi
  show (((b.system 1).rawVector? (Spec.line x v t)).getD []).getD i 0 + _ = (((b.system l).rawVector? (Spec.line x v t)).getD []).getD i 0
  rw [hr1, hr2, Option.getD_some, Option.getD_some, e1, e2]
  ring

/-- C105, one step. A structure, Full or Reduced, with loads proportional to the load factor and supports that do not move, and a state
`xp` at load factor `lp` which is in equilibrium up to the tolerance.  Suppose that within the distance `2 s` of it forces and
stiffness are derivatives, the stiffness changes at a rate of at most `L` and the equilibrium path is regular with the constant
`beta`, with the stiffness matrix singular or not, and that `32 beta² L s ≤ 1` and `96 beta² tol ≤ s`.  From every prediction
whose residual and whose error in the distance from `xp` are together at most `theta s / (6 beta²)` for some `theta ≤ 1 / 2`, the
solve finds a state which is in equilibrium up to the tolerance and, unless the prediction is accepted at once, has the
distance `s` from `xp` up to the tolerance.  It needs at most `m` iterations where `s theta ^ 2 ^ m ≤ 6 beta² tol`, and moves by at most `4 beta`
times the errors of the prediction.  As above, the linear solver must not fail and the increment of the load factor must not be
exactly zero where an iteration is made. -/
theorem arc_step (h : Spec.Proper a.toAnalysis û) (hf : a.withForce = false) (hprop : Spec.ProportionalLoads a.toAnalysis)
    {f : List ℝ} (hf1 : (a.system 1).rawVector? (List.replicate a.dv.flags.length 0) = some f) (hpsi : psi ≠ 0) {s theta : ℝ}
    (hbeta : 1 ≤ beta) (hL : 0 ≤ L) (hstep : 0 < s) (htol : 0 ≤ a.settings.tol) (hcurv : 32 * beta ^ 2 * L * s ≤ 1)
    (hacc : 96 * beta ^ 2 * a.settings.tol ≤ s) {lp lam : ℝ} {xp x rp r D : List ℝ} {args : PathArgs} (hxp : Spec.Still a.dv.flags xp)
    (hrp : (a.system lp).rawVector? xp = some rp) (hrp0 : Spec.freeSize a.dv.flags (rp.getD · 0) ≤ a.settings.tol)
    (hreg : Spec.ArcRegular a.toAnalysis psi beta L
      (fun l' x' => Spec.Still a.dv.flags x' ∧ Spec.arcDistance psi lp xp l' x' ≤ 2 * s))
    (hx : Spec.Still a.dv.flags x) (hargs : args.stepSize = s) (hlam : lam = lp + args.Dlambda)
    (hD : IsIncrement a.toAnalysis args.DD D) (hxD : ∀ i < a.dv.flags.length, x.getD i 0 = xp.getD i 0 + D.getD i 0)
    (hr : (a.system lam).rawVector? x = some r) (htheta : theta ≤ 1 / 2)
    (hpred : 6 * beta ^ 2 * (Spec.freeSize a.dv.flags (r.getD · 0) + |Spec.arcDistance psi lp xp lam x - s|) ≤ theta * s)
    {m : Nat} (hm : (m : Int) < a.settings.maxIter) (hlev : s * theta ^ 2 ^ m ≤ 6 * beta ^ 2 * a.settings.tol)
    (hpass : ∀ st0 st, a.start (.arcLength psi true) lam x args = .ok st0 → Spec.Reaches a (.arcLength psi true) st0 st → st.iter < m →
      a.settings.tol < st.rNorm → st.args.Dlambda ≠ 0 ∧ Spec.SolvesExactly a.linSolve st.Ax) :
    ∃ t R, a.solve (.arcLength psi true) lam x args = .ok t ∧ t.success = true ∧ t.iterations ≤ m ∧ Spec.Still a.dv.flags t.x ∧
      (a.system t.lam).rawVector? t.x = some R ∧ Spec.freeSize a.dv.flags (R.getD · 0) ≤ a.settings.tol ∧
      (t.lam = lam ∧ t.x = x ∨ |Spec.arcDistance psi lp xp t.lam t.x - s| ≤ a.settings.tol) ∧
      Spec.arcDistance psi lam x t.lam t.x ≤
        4 * beta * (Spec.freeSize a.dv.flags (r.getD · 0) + |Spec.arcDistance psi lp xp lam x - s|) := by
  have hs : Small beta L s a.settings.tol := ⟨hbeta, hL, hstep, htol, hcurv, hacc⟩
  have hR := chain_region h hpsi hL hprop hf1 hxp hreg
  have hFp : ‖forces a.toAnalysis psi (at_ a psi lp xp)‖ ≤ a.settings.tol := by
    have := forces_pt hpsi hxp hrp
    rw [← freeVec_norm, ← this] at hrp0
    exact hrp0
  have hF : ‖forces a.toAnalysis psi (at_ a psi lam x)‖ = Spec.freeSize a.dv.flags (r.getD · 0) := by
    have := forces_pt hpsi hx hr
    rw [← freeVec_norm, ← this]
    rfl
  have harc : Spec.arcDistance psi lp xp lam x = ‖at_ a psi lam x - at_ a psi lp xp‖ := arcDistance_eq hx hxp lam lp
  have hmer := merit_le (forces a.toAnalysis psi) (at_ a psi lp xp) s (at_ a psi lam x)
  rw [hF, ← harc] at hmer
  have hb2 : 0 < 6 * beta ^ 2 := by positivity
  have ht0 : 0 ≤ theta := by
    have : 0 ≤ theta * s := le_trans (by
      have := norm_nonneg (forces a.toAnalysis psi (at_ a psi lam x))
      rw [hF] at this
      positivity) hpred
    exact nonneg_of_mul_nonneg_left this hstep
  have hlev' : level beta s theta m ≤ a.settings.tol := by
    unfold level
    rw [div_mul_eq_mul_div, div_le_iff₀ hb2]
    linarith
  obtain ⟨st, e1, e2, e3, e4, e5, e6, e7, e8⟩ := arc_solve h hf hpsi hf1 hR hs hFp
    (fun st => ∃ st0, a.start (.arcLength psi true) lam x args = .ok st0 ∧ Spec.Reaches a (.arcLength psi true) st0 st)
    (fun st' g1 _ g3 _ => let ⟨st0, g5, g6⟩ := g1; hpass st0 st' g5 g6 g3)
    (fun st st' h1 h2 h3 => let ⟨st0, g5, g6⟩ := h1; ⟨st0, g5, .iterate g6 h2 h3⟩) hm ht0 htheta hlev' (lam := lam) (x := x) (D := D)
    (args := args) hx hargs hlam hD hxD (fun t ht => ⟨t, ht, .start⟩) ((mul_le_mul_of_nonneg_left hmer hb2.le).trans hpred)
  obtain ⟨R, R1, -, -⟩ := e2.sound.residual
  refine ⟨_, R, e1, rfl, e5, e2.still, R1, ?_, ?_, ?_⟩
  · have := forces_pt hpsi e2.still R1
    rw [← freeVec_norm, ← this]
    exact e6
  · rcases e7 with e7 | e7
    · exact .inl e7
    · refine .inr ?_
      rw [arcDistance_eq e2.still hxp]
      exact e7
  · rw [arcDistance_eq e2.still hx]
    exact e8.trans (mul_le_mul_of_nonneg_left hmer (by linarith))

/-- The load increases in the first step. -/
theorem first_load {s tol q c l : ℝ} (hs : Small beta L s tol) (hpsi : 0 < psi) (hc : 0 < c) (hq : 0 < q)
    (hqq : q * q = psi ^ 2 + psi ^ 2) (hcq : c * q = s) (h : |psi * (l - c)| ≤ 4 * beta * (2 * L * s ^ 2)) : s / (4 * psi) ≤ l := by
  have hb := hs.beta
  have hs0 := hs.size
  have hL := hs.rate
  have hcurv := hs.curvature
  have h3 : 4 * beta * (2 * L * s ^ 2) ≤ s / 4 := by
    have : beta * (L * s) ≤ 1 / 32 := by nlinarith [mul_nonneg hL hs0.le]
    nlinarith
  have h4 := (abs_le.1 (h.trans h3)).1
  have h5 : s ≤ 2 * (psi * c) := by
    have : q ≤ 2 * psi := by nlinarith
    rw [← hcq]
    nlinarith
  rw [div_le_iff₀ (by positivity)]
  nlinarith

set_option maxHeartbeats 1000000 in
/-- C105. A structure, Full or Reduced, with loads proportional to the load factor `λ` and supports that do not move.  Let `psi` be the
length of the displacements `u` its stiffness at the undeformed state gives for the load factor one, and let distances of states be
those of displacements and `psi` times the load factor.  Suppose that around all states which are in equilibrium up to the
tolerance and connected to the undeformed one by less than `steps` steps of the step size `s`, within the distance `2 s`, forces and
stiffness are derivatives, the stiffness changes at a rate of at most `L`, and the equilibrium path is regular with the constant
`beta`, with the stiffness matrix singular or not; that `32 beta² L s ≤ 1` and `96 beta² tol ≤ s`; and that in none of the states the
run visits and does not accept the linear solver fails or the increment of the load factor is exactly zero.  Then path following with
arc length and constant step size, started at the undeformed structure, ends without fault and with success; every state shown
is in equilibrium up to the tolerance, found with at most `m` iterations where `s ≤ 6 beta² tol 2 ^ 2 ^ m`; consecutive states
have the distance `s` up to the tolerance; the load increases in the first step; each state differs by terms of second order from
the one its two predecessors extrapolate to, and no step turns back. -/
theorem arc_follows (h : Spec.ProperPath a û) (hf : a.withForce = false) (hprop : Spec.ProportionalLoads a.toAnalysis) {f : List ℝ}
    (hf1 : (a.system 1).rawVector? (List.replicate a.dv.flags.length 0) = some f)
    (hc1 : Spec.SystemContract (a.system 1) (List.replicate a.dv.flags.length 0)) (hpsi : 0 < psi)
    (hlin : ∀ K u, (a.system 1).rawMatrix? (List.replicate a.dv.flags.length 0) = some K → Spec.Still a.dv.flags u →
      (∀ i, Spec.Free a.dv.flags i → Spec.times K u i + f.getD i 0 = 0) → Spec.size u = psi)
    (hspd : ∀ A, a.jacobian? ⟨1, some (List.replicate a.dv.flags.length 0)⟩ = some A → Spec.SolvesExactly a.spd A)
    (hbeta : 1 ≤ beta) (hL : 0 ≤ L) (hstep : 0 < a.stepSize) (htol : 0 ≤ a.settings.tol)
    (hcurv : 32 * beta ^ 2 * L * a.stepSize ≤ 1) (hacc : 96 * beta ^ 2 * a.settings.tol ≤ a.stepSize)
    (hsteps : 0 < a.steps) (hadapt : ∀ k args, a.adapt k args = .ok args.stepSize) {m : Nat} (hm : (m : Int) < a.settings.maxIter)
    (hlev : a.stepSize ≤ 6 * beta ^ 2 * a.settings.tol * 2 ^ 2 ^ m)
    (hreg : ∀ k l x, k < a.steps → Spec.Chain a psi k l x → Spec.ArcRegular a.toAnalysis psi beta L
      (fun l' x' => Spec.Still a.dv.flags x' ∧ Spec.arcDistance psi l x l' x' ≤ 2 * a.stepSize)) (psi0 : ℝ) (b : Bool)
    (hpass : ∀ p st k l x, Spec.Visits a (.arcLength psi0 b) 0 (List.replicate a.dv.flags.length 0) p st →
      Spec.Underway a psi beta st k l x → st.iter < m → a.settings.tol < st.rNorm →
      st.args.Dlambda ≠ 0 ∧ Spec.SolvesExactly a.linSolve st.Ax) :
    ∃ r, a.run (.arcLength psi0 b) 0 (List.replicate a.dv.flags.length 0) = .ok r ∧ r.success = true ∧
      r.shown.length = a.steps + 1 ∧
      (∀ s ∈ r.shown, Spec.Still a.dv.flags s.x ∧ s.iterations ≤ m ∧
        ∃ R, (a.system s.lam).rawVector? s.x = some R ∧ Spec.freeSize a.dv.flags (R.getD · 0) ≤ a.settings.tol) ∧
      (∀ s, r.shown[0]? = some s → s.lam = 0 ∧ s.x = List.replicate a.dv.flags.length 0) ∧
      (∀ s, r.shown[1]? = some s → a.stepSize / (4 * psi) ≤ s.lam) ∧
      (∀ (k : Nat) (s s' : Shown), r.shown[k]? = some s → r.shown[k + 1]? = some s' →
        |Spec.arcDistance psi s.lam s.x s'.lam s'.x - a.stepSize| ≤ a.settings.tol) ∧
      ∀ (k : Nat) (s s' s'' : Shown), r.shown[k]? = some s → r.shown[k + 1]? = some s' → r.shown[k + 2]? = some s'' →
        Spec.arcDistance psi (2 * s'.lam - s.lam) (List.zipWith (fun u v => 2 * v - u) s.x s'.x) s''.lam s''.x ≤
          4 * beta * (2 * L * a.stepSize ^ 2 + 4 * a.settings.tol) ∧
        a.stepSize ^ 2 / 2 ≤ (∑ i ∈ Finset.range a.dv.flags.length,
          (s''.x.getD i 0 - s'.x.getD i 0) * (s'.x.getD i 0 - s.x.getD i 0)) + psi ^ 2 * (s''.lam - s'.lam) * (s'.lam - s.lam) := by
  have hs : Small beta L a.stepSize a.settings.tol := ⟨hbeta, hL, hstep, htol, hcurv, hacc⟩
  have hlev' : level beta a.stepSize (1 / 2) m ≤ a.settings.tol := by
    unfold level
    rw [div_pow, one_pow, div_mul_div_comm, mul_one, div_le_iff₀ (by positivity)]
    linarith
  let N := a.dv.flags.length
  let x0 : List ℝ := List.replicate N 0
  have hx0 : x0.length = N := by simp [x0]
  have hx0i : ∀ i, x0.getD i 0 = 0 := fun i => by
    simp only [x0, List.getD_eq_getElem?_getD, List.getElem?_replicate]
    split <;> rfl
  have hx0s : Spec.Still a.dv.flags x0 := ⟨hx0, fun i _ _ => hx0i i⟩
  have hch0 : Spec.Chain a psi 0 0 x0 := .start
  have hmax : 0 < a.settings.maxIter := by omega
  obtain ⟨_, f', K, -, hf1', hfl, hK, -⟩ := Analysis.proper_system h.proper 1 hx0
  obtain rfl : f = f' := Option.some.inj (hf1.symm.trans hf1')
  obtain ⟨-, r0, K0, -, hr0, -, hK0, -⟩ := Analysis.proper_system h.proper 0 hx0
  -- the undeformed structure is in equilibrium
  have hr0i : ∀ i, Spec.Free a.dv.flags i → r0.getD i 0 = 0 := fun i hi => by
    have := hprop 1 x0 f r0 f hx0 hf1 hr0 hf1 i hi
    linarith
  have hF0 : forces a.toAnalysis psi (at_ a psi 0 x0) = 0 := by
    show forces a.toAnalysis psi (pt a.dv.flags psi (x0.getD · 0) 0) = 0
    rw [forces_pt hpsi.ne' hx0s hr0]
    ext i
    simp only [freeVec, vec]
    split
    · exact hr0i _ ‹_›
    · rfl
  -- the direction of the prediction
  obtain ⟨A, hJ, -, -⟩ := Analysis.jacobian_width h.proper 1 hx0
  obtain ⟨D, hD, hDK⟩ := solved_increment h.proper hx0 hJ hK (h.spd 1 x0 hx0 A hJ) (hspd A hJ) (B := f.map fun b => -b)
    (by simp [hfl])
  have hDv : ∀ i, Spec.Free a.dv.flags i → Spec.times K D i + f.getD i 0 = 0 := fun i hi => by
    rw [hDK i hi, map_getD _ (by simp)]
    ring
  have hDs : Spec.size D = psi := hlin K D hK hD.still hDv
  have hSum : ∑ i ∈ Finset.range a.dv.flags.length, D.getD i 0 * D.getD i 0 = psi ^ 2 := by
    rw [← hDs, size_sq hD.length]
    simp only [pow_two]
  let q := Real.sqrt (psi ^ 2 + psi ^ 2)
  have hq : 0 < q := Real.sqrt_pos.2 (by positivity)
  have hqq : q * q = psi ^ 2 + psi ^ 2 := Real.mul_self_sqrt (by positivity)
  let c := a.stepSize / q
  have hc : 0 < c := div_pos hstep hq
  have hcq : c * q = a.stepSize := div_mul_cancel₀ _ hq.ne'
  have hD' := hD.smul c
  let y : List ℝ := List.zipWith (· + ·) x0 (D.map fun b => b * c)
  have hyl : y.length = N := by simp [y, hx0, hD.length]; rfl
  have hyi : ∀ i < N, y.getD i 0 = x0.getD i 0 + (D.map fun b => b * c).getD i 0 := fun i hi => zipAdd_getD hx0 hD'.length hi
  have hys : Spec.Still a.dv.flags y := ⟨hyl, fun i hi hfr => by
    rw [hyi i hi, hx0i, hD'.constrained i hi hfr, add_zero]⟩
  -- the first solve
  let args0 : PathArgs := { PathArgs.setZero N with stepSize := a.stepSize }
  obtain ⟨t0, ht0⟩ := arc_start_ok h.proper (psi := psi0) (b := b) (lam := 0) (args := args0) hx0
  obtain ⟨s0, s1, s2, s3⟩ := solve_idle h.proper hmax hx0 ht0 hr0 (by
    rw [Analysis.freeSq_zero hr0i, Real.sqrt_zero]; exact htol)
  have hsol := solve_ok h.proper hx0 s1
  obtain ⟨i1, i2, i3, i4⟩ := hsol.idle s3
  -- the prediction
  have hini : ∃ args : PathArgs, a.initialPrediction s0.strategy s0.lam s0.x s0.args =
      .ok ⟨c, y, args, .arcLength psi true⟩ ∧
      args.DD = (a.spd A (view a.option a.dv.flags (f.map fun b => -b))).map (fun b => b * c) ∧ args.Dlambda = c ∧
      args.stepSize = a.stepSize := by
    have hst : s0.args.stepSize = a.stepSize := hsol.stepSize
    rw [i1, i2, hsol.strategy]
    simp only [initialPrediction]
    rw [unforced_increment hf]
    show ∃ args, (evaluated _).bind _ = _ ∧ _
    rw [evaluated_ok.2 (a.residual_view h.proper.option hf1)]
    show ∃ args, (evaluated _).bind _ = _ ∧ _
    rw [evaluated_ok.2 hJ]
    show ∃ args, (if a.withForce then _ else _ : Except PathFault (List ℝ)).bind _ = _ ∧ _
    rw [hf]
    show ∃ args, (if _ = _ then _ else _) = _ ∧ _
    rw [view_neg]
    have hsq : sqNorm (a.spd A (view a.option a.dv.flags (f.map fun b => -b))) + sqNorm (List.replicate x0.length 0) = psi ^ 2 := by
      rw [hD.sq, sqNorm_replicate, add_zero, hSum]
    have hroot : Real.sqrt (sqNorm (a.spd A (view a.option a.dv.flags (f.map fun b => -b))) + sqNorm (List.replicate x0.length 0) +
        Real.sqrt (sqNorm (a.spd A (view a.option a.dv.flags (f.map fun b => -b))) + sqNorm (List.replicate x0.length 0)) *
        Real.sqrt (sqNorm (a.spd A (view a.option a.dv.flags (f.map fun b => -b))) + sqNorm (List.replicate x0.length 0))) = q := by
      rw [hsq, Real.mul_self_sqrt (sq_nonneg psi)]
    rw [hroot, if_neg hq.ne', hst]
    have he : (fun d : ℝ => d * a.stepSize / q) = fun b => b * c := funext fun d => mul_div_assoc _ _ _
    simp only [he]
    rw [evaluated_ok.2 (congrArg Dom.x (hD'.update h.proper.option 1 hx0))]
    show ∃ args, (a.synchronised _ _).bind _ = _ ∧ _
    rw [unforced_synchronised hf]
    show ∃ args, (if c = 0 then _ else _) = _ ∧ _
    rw [if_neg hc.ne']
    have hps : Real.sqrt ((sqNorm ((List.replicate x0.length 0).map fun d => d * c) +
        sqNorm ((a.spd A (view a.option a.dv.flags (f.map fun b => -b))).map fun b => b * c)) / (c * c)) = psi := by
      rw [hD'.sq, List.map_replicate, zero_mul, sqNorm_replicate, zero_add]
      have : ∑ i ∈ Finset.range a.dv.flags.length, (D.map fun b => b * c).getD i 0 * (D.map fun b => b * c).getD i 0 =
          c * c * psi ^ 2 := by
        rw [← hSum, Finset.mul_sum]
        refine Finset.sum_congr rfl fun i _ => ?_
        rw [map_getD _ (by simp)]
        ring
      rw [this, mul_div_cancel_left₀ _ (mul_ne_zero hc.ne' hc.ne'), Real.sqrt_sq hpsi.le]
    refine ⟨{ s0.args with DD := _, Dlambda := c, stepSize := a.stepSize }, ?_, rfl, rfl, rfl⟩
    congr 2
    exact congrArg (PathStrategy.arcLength · true) hps
  obtain ⟨args, p1, p2, p3, p4⟩ := hini
  -- the first step
  have hR0 := chain_region (s := a.stepSize) h.proper hpsi.ne' hL hprop hf1 hx0s (hreg 0 _ _ hsteps hch0)
  let d := pt a.dv.flags psi ((D.map fun b => b * c).getD · 0) c
  have hdn : ‖d‖ = a.stepSize := by
    have h1 : ‖d‖ ^ 2 = a.stepSize ^ 2 := by
      rw [norm_still hD'.still, size_sq hD'.length]
      have : ∑ i ∈ Finset.range a.dv.flags.length, (D.map fun b => b * c).getD i 0 ^ 2 = c ^ 2 * psi ^ 2 := by
        rw [← hSum, Finset.mul_sum]
        refine Finset.sum_congr rfl fun i _ => ?_
        rw [map_getD _ (by simp)]
        ring
      rw [this, ← hcq]
      linear_combination (-c ^ 2) * hqq
    exact (sq_eq_sq₀ (norm_nonneg _) hstep.le).1 h1
  have hye : at_ a psi c y = at_ a psi 0 x0 + d := by
    unfold at_
    rw [pt_add]
    exact pt_congr (fun i hi => hyi i (free_lt hi)) (zero_add c).symm
  have hT : tangent a.toAnalysis psi f (at_ a psi 0 x0) d = 0 := by
    show tangent a.toAnalysis psi f (pt a.dv.flags psi (x0.getD · 0) 0) _ = 0
    rw [tangent_pt hpsi.ne' hx0s hK0 hD'.still]
    have hcon : Spec.SystemContract (a.system 0) x0 := (hreg 0 _ _ hsteps hch0).contract 0 x0 ⟨hx0s, by
      rw [arcDistance_eq hx0s hx0s, sub_self, norm_zero]; positivity⟩
    ext i
    simp only [freeVec, vec]
    split
    · rename_i hi
      rw [same_stiffness h.proper hprop hcon hc1 hx0 hf1 hK0 hK hD'.length hi, Analysis.times_eq K hD'.length]
      have := hDv _ hi
      rw [Analysis.times_eq K hD.length] at this
      rw [show (0 : EuclideanSpace ℝ (Fin a.dv.flags.length)).ofLp i = 0 from rfl]
      rw [Finset.sum_congr rfl fun j _ => by rw [map_getD (fun b : ℝ => b * c) (by simp), ← mul_assoc], ← Finset.sum_mul]
      linear_combination c * this
    · rfl
  obtain ⟨c1, c2⟩ := first_small hR0 hs hF0 hdn hT
  obtain ⟨st, e1, e2, e3, e4, e5, e6, e7, e8⟩ := arc_solve h.proper hf hpsi.ne' hf1 hR0 hs (by rw [hF0, norm_zero]; exact htol)
    (fun st => Spec.Visits a (.arcLength psi0 b) 0 x0 (.arcLength psi true) st) 
    (fun st' g1 g2 g3 g4 => hpass _ st' 0 _ _ g1 (underway hpsi.ne' hsteps hx0s hch0 g2 g4) g3)
    (fun st st' h1 h2 h3 => .iterate h1 h2 h3) hm (by norm_num) le_rfl hlev' (lam := c) (x := y) (D := D.map fun b => b * c) (args := args) hys p4
    (by rw [p3, zero_add]) (by rw [p2]; exact hD') hyi
    (fun t ht => .first (s0 := s0) (by rw [hx0]; exact s1) p1 ht)
    (by rw [hye]; linarith)
  rw [hye] at e8
  have e7 : |‖at_ a psi st.lam st.x - at_ a psi 0 x0‖ - a.stepSize| ≤ a.settings.tol := by
    rcases e7 with ⟨g1, g2⟩ | e7
    · rw [g1, g2, hye, add_sub_cancel_left, hdn, sub_self, abs_zero]
      exact htol
    · exact e7
  have hch1 : Spec.Chain a psi 1 st.lam st.x := by
    obtain ⟨r, r1, r2, r3⟩ := e2.sound.residual
    refine .next hch0 e2.still r1 ?_ ?_
    · have := forces_pt hpsi.ne' e2.still r1
      rw [← freeVec_norm, ← this]
      exact e6
    · rw [arcDistance_eq e2.still hx0s]
      exact e7
  obtain ⟨r, q1, q2, q3, q4⟩ := arc_loop h.proper hf hpsi.ne' hprop hf1 hs hadapt hm hlev' hreg hpass (a.steps - 1) 1 1 (by omega) e2 e3 e4
    e6 (by rw [hF0, norm_zero]; exact htol) e7 hch1
  let w : Shown := ⟨st.lam, st.x, st.args, .arcLength psi true, st.iter, true⟩
  have hstill : ∀ t ∈ s0 :: w :: r.shown, Spec.Still a.dv.flags t.x ∧ t.iterations ≤ m ∧
      ‖forces a.toAnalysis psi (at_ a psi t.lam t.x)‖ ≤ a.settings.tol := by
    intro t ht
    rcases List.mem_cons.1 ht with rfl | ht
    · rw [i1, i2, s3, hF0, norm_zero]
      exact ⟨hx0s, Nat.zero_le m, htol⟩
    · rcases List.mem_cons.1 ht with rfl | ht
      · exact ⟨e2.still, e5, e6⟩
      · obtain ⟨g1, -, g3, g4⟩ := q4.all t ht
        exact ⟨g1, g3, g4⟩
  have hmap : at_ a psi 0 x0 :: at_ a psi st.lam st.x :: r.shown.map (fun t => at_ a psi t.lam t.x) =
      (s0 :: w :: r.shown).map fun t => at_ a psi t.lam t.x := by
    rw [List.map_cons, List.map_cons, i1, i2]
  have hget : ∀ (k : Nat) (t : Shown), (s0 :: w :: r.shown)[k]? = some t →
      (at_ a psi 0 x0 :: at_ a psi st.lam st.x :: r.shown.map (fun t => at_ a psi t.lam t.x))[k]? = some (at_ a psi t.lam t.x) := by
    intro k t hk
    rw [hmap, List.getElem?_map, hk]
    rfl
  have hdist : ∀ (k : Nat) (s s' : Shown), (s0 :: w :: r.shown)[k]? = some s → (s0 :: w :: r.shown)[k + 1]? = some s' →
      |‖at_ a psi s'.lam s'.x - at_ a psi s.lam s.x‖ - a.stepSize| ≤ a.settings.tol := by
    intro k s s' k1 k2
    cases k with
    | zero =>
      obtain rfl : s0 = s := by simpa using k1
      obtain rfl : w = s' := by simpa using k2
      rw [i1, i2]
      exact e7
    | succ k =>
      have hlt : k < (s0 :: w :: r.shown).length := by
        have := (List.getElem?_eq_some_iff.1 k1).1
        omega
      exact (q4.get k _ _ _ (hget k _ (List.getElem?_eq_getElem hlt)) (hget _ _ k1) (hget _ _ k2)).1
  refine ⟨⟨s0 :: w :: r.shown, r.success⟩, ?_, q2, by simp [q3]; omega, fun t ht => ?_, fun s hk => ?_, fun s hk => ?_,
    fun k s s' k1 k2 => ?_, fun k s s' s'' k1 k2 k3 => ?_⟩
  · show a.run _ 0 x0 = _
    unfold run
    rw [if_neg (by omega), hx0, s1]
    show (if !s0.success then _ else _) = _
    rw [s2]
    show (a.initialPrediction s0.strategy _ _ _).bind _ = _
    rw [p1]
    show (a.solve _ _ _ _).bind _ = _
    rw [e1]
    show (a.loop _ _ w).map _ = _
    rw [q1]
    rfl
  · obtain ⟨g1, g2, g3⟩ := hstill t ht
    obtain ⟨-, R, -, -, hR, -⟩ := Analysis.proper_system h.proper t.lam g1.1
    refine ⟨g1, g2, R, hR, ?_⟩
    have := forces_pt hpsi.ne' g1 hR
    rw [← freeVec_norm, ← this]
    exact g3
  · obtain rfl : s0 = s := by simpa using hk
    exact ⟨i1, i2⟩
  · obtain rfl : w = s := by simpa using hk
    show _ ≤ st.lam
    have h1 : ‖at_ a psi st.lam st.x - (at_ a psi 0 x0 + d)‖ ≤ 4 * beta * (2 * L * a.stepSize ^ 2) :=
      e8.trans (mul_le_mul_of_nonneg_left c2 (by linarith))
    have h2 : |psi * (st.lam - c)| ≤ ‖at_ a psi st.lam st.x - (at_ a psi 0 x0 + d)‖ := by
      rw [← hye]
      unfold at_
      rw [pt_sub]
      refine abs_le_of_sq_le_sq ?_ (norm_nonneg _)
      rw [pt_norm]
      have : 0 ≤ ∑ i ∈ (Finset.range a.dv.flags.length).filter (fun i => Spec.Free a.dv.flags i), (st.x.getD i 0 - y.getD i 0) ^ 2 :=
        Finset.sum_nonneg fun i _ => sq_nonneg _
      rw [mul_pow]
      exact le_add_of_nonneg_left this
    exact first_load hs hpsi hc hq hqq hcq (h2.trans h1)
  · rw [arcDistance_eq (hstill s' (List.mem_of_getElem? k2)).1 (hstill s (List.mem_of_getElem? k1)).1]
    exact hdist k s s' k1 k2
  · obtain ⟨g1, g2⟩ := q4.get k _ _ _ (hget _ _ k1) (hget _ _ k2) (hget _ _ k3)
    have hS := (hstill s (List.mem_of_getElem? k1)).1
    have hS' := (hstill s' (List.mem_of_getElem? k2)).1
    have hS'' := (hstill s'' (List.mem_of_getElem? k3)).1
    have hzi : ∀ i < a.dv.flags.length, (List.zipWith (fun u v => 2 * v - u) s.x s'.x).getD i 0 = 2 * s'.x.getD i 0 - s.x.getD i 0 := by
      intro i hi
      rw [List.getD_eq_getElem?_getD, List.getElem?_zipWith, getElem?_eq_getD (hS.1 ▸ hi), getElem?_eq_getD (hS'.1 ▸ hi)]
      rfl
    have hzs : Spec.Still a.dv.flags (List.zipWith (fun u v => 2 * v - u) s.x s'.x) :=
      ⟨by simp [hS.1, hS'.1], fun i hi hfr => by rw [hzi i hi, hS.2 i hi hfr, hS'.2 i hi hfr]; ring⟩
    constructor
    · rw [arcDistance_eq hS'' hzs]
      refine le_trans (le_of_eq ?_) g2
      congr 2
      unfold at_
      rw [pt_sub, pt_add]
      refine pt_congr (fun i hi => ?_) (by ring)
      rw [hzi i (free_lt hi)]
      ring
    · have h1 := forward hs (hdist k s s' k1 k2) g2
      refine h1.trans (le_of_eq ?_)
      unfold at_
      rw [pt_sub, pt_sub, pt_inner, Finset.sum_filter]
      congr 1
      refine Finset.sum_congr rfl fun i hi => ?_
      split
      · rfl
      · rename_i hfr
        have hi := Finset.mem_range.1 hi
        rw [hS.2 i hi hfr, hS'.2 i hi hfr]
        ring

/-- C105, steps without a change of the load factor. Without prescribed displacements, a solve of arc length that has to iterate and
whose increment of the load factor is exactly zero, however the structure and the prediction may be, ends with a value that is
not finite: the derivative by the load factor contains the increments of the prescribed displacements, zero, divided by that
of the load factor. -/
theorem arc_horizontal (h : Spec.Proper a.toAnalysis û) (hf : a.withForce = false) (hmax : 0 < a.settings.maxIter) {lam : ℝ}
    {x r D : List ℝ} {args : PathArgs} (hx : x.length = a.dv.flags.length) (hD : IsIncrement a.toAnalysis args.DD D)
    (hr : (a.system lam).rawVector? x = some r) (hgt : a.settings.tol < Spec.freeSize a.dv.flags (r.getD · 0))
    (hzero : args.Dlambda = 0) : a.solve (.arcLength psi true) lam x args = .error .notFinite := by
  obtain ⟨s0, hs0⟩ := arc_start_ok h (psi := psi) (b := true) (lam := lam) (args := args) hx
  obtain ⟨b1, b2, b3, b4, b5, ⟨args0, b6, b7, -⟩, b9, b10, b11⟩ := start_ok h hx hs0
  obtain ⟨f, f0, f2, f1⟩ := residual_ok h 1 (x := List.replicate a.dv.flags.length 0) (by simp)
  obtain ⟨r', r1, r2, r3⟩ := b1.residual
  rw [b2, b3] at r1
  obtain rfl : r = r' := Option.some.inj (hr.symm.trans r1)
  have hgt' : s0.rNorm > a.settings.tol := by
    rw [b5, r3, sqNorm_view _ _ _ r2, freeSize_sqrt]
    exact hgt
  have hans := h.linSolve s0.lam s0.x b1.length s0.Ax b1.jacobian
  obtain ⟨CR, hCR⟩ := Analysis.answers_increment h b1.length b1.jacobian hans (B := r.map fun b => -b) (by simp [r2])
  obtain ⟨CL, hCL⟩ := Analysis.answers_increment h b1.length b1.jacobian hans (B := f.map fun b => -b) (by simp [f2])
  have hargs : s0.args.dfdDD.length = a.width ∧ s0.args.finite = false := by
    have hk := subsidiary_keeps b6
    simp only [PathAnalysis.subsidiary, unforced_increment hf] at b6
    simp only [Except.bind, Bool.true_eq_false, if_false] at b6
    have hsub := Except.ok.inj b6
    have h0 : args0.Dlambda = 0 := by rw [← hk.2.2.1, b10, hzero]
    rw [← hsub]
    refine ⟨?_, ?_⟩
    · show (args0.DD.map _).length = _
      rw [List.length_map, b7, hD.width]
    · exact decide_eq_false fun hh => hh.2 h0
  have hit : a.iteration (.arcLength psi true) s0 = .error .notFinite := by
    unfold iteration
    rw [loadColumn_eq h hf f1 s0.lam b1.length]
    show (dotSized s0.args.dfdDD (a.linSolve s0.Ax (s0.rx.map fun b => -b))).bind _ = _
    rw [r3, view_neg, dotSized, if_pos (by rw [hargs.1, hCR.width])]
    show (dotSized s0.args.dfdDD (a.linSolve s0.Ax (view a.option a.dv.flags (f.map fun b => -b)))).bind _ = _
    rw [dotSized, if_pos (by rw [hargs.1, hCL.width])]
    show (if s0.args.finite then _ else _ : Except PathFault ℝ).bind _ = _
    rw [hargs.2]
    rfl
  unfold solve
  rw [hs0]
  show (a.iterations _ _ s0).map _ = _
  obtain ⟨k, hk⟩ : ∃ k, a.settings.maxIter.toNat = k + 1 := ⟨a.settings.maxIter.toNat - 1, by omega⟩
  rw [hk]
  simp only [iterations]
  rw [if_pos hgt', hit]
  rfl

/-- What a user expects of a step, with `psi` one: from two states in equilibrium up to the tolerance at the distance of the step
size on a regular path, with an exact linear solver in all states around, the solve of the next step succeeds. -/
def Spec.ArcStepSucceeds : Prop :=
  ∀ (a : PathAnalysis) (û : Nat → ℝ) (beta L s : ℝ) (lq lp : ℝ) (xq xp rq rp D x f : List ℝ) (args : PathArgs),
    Spec.Proper a.toAnalysis û → a.withForce = false → Spec.ProportionalLoads a.toAnalysis →
    (a.system 1).rawVector? (List.replicate a.dv.flags.length 0) = some f →
    1 ≤ beta → 0 ≤ L → 0 < s → 0 ≤ a.settings.tol → 32 * beta ^ 2 * L * s ≤ 1 → 96 * beta ^ 2 * a.settings.tol ≤ s →
    s ≤ 6 * beta ^ 2 * a.settings.tol * 2 ^ 2 ^ 19 → a.settings.maxIter = 20 →
    Spec.Still a.dv.flags xq → Spec.Still a.dv.flags xp →
    (a.system lq).rawVector? xq = some rq → Spec.freeSize a.dv.flags (rq.getD · 0) ≤ a.settings.tol →
    (a.system lp).rawVector? xp = some rp → Spec.freeSize a.dv.flags (rp.getD · 0) ≤ a.settings.tol →
    |Spec.arcDistance 1 lq xq lp xp - s| ≤ a.settings.tol →
    Spec.ArcRegular a.toAnalysis 1 beta L (fun l' x' => Spec.Still a.dv.flags x' ∧ Spec.arcDistance 1 lp xp l' x' ≤ 2 * s) →
    args.stepSize = s → args.Dlambda = lp - lq → IsIncrement a.toAnalysis args.DD D →
    (∀ i < a.dv.flags.length, D.getD i 0 = xp.getD i 0 - xq.getD i 0) → x = List.zipWith (· + ·) xp D →
    (∀ A, a.jacobian? ⟨lp + args.Dlambda, some x⟩ = some A → Spec.SolvesExactly a.linSolve A) →
    ∃ t, a.solve (.arcLength 1 true) (lp + args.Dlambda) x args = .ok t ∧ t.success = true

end Ikarus
