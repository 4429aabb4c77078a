import Verif.Analysis.TrustLemmas

/-!
Property C99: what the trust region method, alone and within load control, means for structures.
-/

namespace Ikarus

noncomputable section

open Analysis

/-! ### Specification -/

/-- What the last solve of a structure has to offer: with load factor `l` from state `u` it has made `info.iterations`
iterations and ended at `y`. -/
structure Spec.TrustSolved (a : Analysis) (c : TrustConfig a.trSize) (l : ℝ) (u y : List ℝ) (info : SolverInfo ℝ) : Prop where
  length : y.length = a.dv.flags.length
  energy : ∃ E E', (a.system l).scalar? u = some E ∧ (a.system l).scalar? y = some E' ∧
    E' ≤ E + info.iterations * (1 / 10 ^ 12 / (1 - c.cmpTol))
  residual : ∃ r : List ℝ, (a.system l).rawVector? y = some r ∧ r.length = a.dv.flags.length ∧
    info.residualNorm = some (Real.sqrt (∑ i ∈ (Finset.range a.dv.flags.length).filter (fun i => Spec.Free a.dv.flags i),
      r.getD i 0 * r.getD i 0))
  iterations : 0 ≤ info.iterations ∧ info.iterations ≤ max 0 c.parameters.maxIter
  begun : c.parameters.maxtime = none → 0 < c.parameters.maxIter → 0 < info.iterations
  success : info.success = true ↔ 0 < info.iterations ∧
    ((∃ t, info.residualNorm = some t ∧ t < c.parameters.grad_tol) ∨
      ∃ t, info.correctionNorm = some t ∧ t < c.parameters.corr_tol)
  stationary : ∀ t, info.residualNorm = some t → Spec.SystemContract (a.system l) y →
    Spec.Stationary a.dv.flags (a.system l).scalar? t y
  supports : (a.option = .full → c.parameters.useRand = false ∧ Spec.KeepsZeros a.dv.flags c.precond) →
    ∀ i : Nat, a.dv.flags[i]? = some true → y[i]? = u[i]?

/-! ### One solve -/

theorem trust_reach_supports {a : Analysis} (h : Spec.TrustProper a) (c : TrustConfig a.trSize) (hp : 0 ≤ c.parameters.rho_prime)
    (hc : a.option = .full → c.parameters.useRand = false ∧ Spec.KeepsZeros a.dv.flags c.precond) (l : ℝ) {u : List ℝ}
    (hu : u.length = a.dv.flags.length) (w : TCGInfo × Nat) (st : TCGStopReason) (eta : TRVec a.trSize)
    (s : TRState (Dom ℝ (Option (List ℝ))) (TRVec a.trSize) (TCGInfo × Nat))
    (hs : Spec.TRReach ((a.trProblem c).restrict (a.Sized l)) c.parameters c.cmpTol
      (trStart ((a.trProblem c).restrict (a.Sized l)) c.parameters w st ⟨l, some u⟩ eta) s) :
    ∃ y : List ℝ, s.x = ⟨l, some y⟩ ∧ y.length = a.dv.flags.length ∧
      ∀ i : Nat, a.dv.flags[i]? = some true → y[i]? = u[i]? := by
  induction hs with
  | start => exact ⟨u, rfl, hu, fun _ _ => rfl⟩
  | step s hs hstop ih =>
    obtain ⟨y, h1, h2, h3⟩ := ih
    have hn := (tr_iteration_exact _ (restrict_undone (trust_undone h c l)) c.parameters hp c.cmpTol w st ⟨l, some u⟩ eta s hs).1
    have hx := congrArg Spec.TRPoint.x hn
    unfold Spec.next at hx
    simp only at hx
    have hcal : (Spec.correction (a.trProblem c) c.parameters s.point).2.1 ∈ a.calm := calm_correction h c hc l h2 s.point h1
    have hcor : Spec.correction ((a.trProblem c).restrict (a.Sized l)) c.parameters s.point =
      Spec.correction (a.trProblem c) c.parameters s.point := rfl
    rw [hcor] at hx
    have hpx : s.point.x = ⟨l, some y⟩ := h1
    obtain ⟨v, v1, v2, v3⟩ := calm_update h c l h2 hcal
    have hup : ((a.trProblem c).restrict (a.Sized l)).update s.point.x (Spec.correction (a.trProblem c) c.parameters s.point).2.1 =
        ⟨l, some v⟩ := by
      rw [hpx, ← v1]
      exact if_pos ⟨y, rfl, h2⟩
    rw [hup, hpx] at hx
    have hx : (trBody ((a.trProblem c).restrict (a.Sized l)) c.parameters c.cmpTol s).x = _ := hx
    rw [hx]
    split
    · exact ⟨v, rfl, v2, fun i hi => (v3 i hi).trans (h3 i hi)⟩
    · exact ⟨y, rfl, h2, h3⟩

theorem trust_reach_sized {a : Analysis} (h : Spec.TrustProper a) (c : TrustConfig a.trSize) (l : ℝ) {u : List ℝ}
    (hu : u.length = a.dv.flags.length) (w : TCGInfo × Nat) (st : TCGStopReason) (eta : TRVec a.trSize)
    (s : TRState (Dom ℝ (Option (List ℝ))) (TRVec a.trSize) (TCGInfo × Nat))
    (hs : Spec.TRReach ((a.trProblem c).restrict (a.Sized l)) c.parameters c.cmpTol
      (trStart ((a.trProblem c).restrict (a.Sized l)) c.parameters w st ⟨l, some u⟩ eta) s) : a.Sized l s.x := by
  induction hs with
  | start => exact ⟨u, rfl, hu⟩
  | step s hs hstop ih =>
    obtain ⟨h1, h2⟩ := trBody_restrict (trust_undone h c l) c.parameters c.cmpTol ih
    rw [h1]; exact h2

/-- C99. Every solve of a structure with the trust region method, whatever its elements, with Full or Reduced: it ends
after at most `maxIter` iterations; the energy of the result exceeds that of the start at most by the allowance of the
comparison for every iteration; the norm reported is that of the forces at the free dofs of the result, which is a
stationary point of the energy up to this norm; success means that this norm or that of the last correction is below its
tolerance; and the constrained dofs keep their values, with Full if the random predictor is not used and the
preconditioner respects unit rows. -/
theorem trust_solve {a : Analysis} (h : Spec.TrustProper a) (c : TrustConfig a.trSize) (hp : 0 ≤ c.parameters.rho_prime)
    (h0 : 0 ≤ c.cmpTol) (h1 : c.cmpTol < 1) (w : TRMemory a.trSize) (l stepSize : ℝ) {u : List ℝ}
    (hu : u.length = a.dv.flags.length) :
    ∃ w' y info, (a.trSolver c).solve w ⟨l, some u⟩ stepSize = (w', ⟨l, some y⟩, info) ∧ Spec.TrustSolved a c l u y info := by
  let P := (a.trProblem c).restrict (a.Sized l)
  have hinv : ∀ x e, P.update (P.update x e) (-e) = x := restrict_undone (trust_undone h c l)
  obtain ⟨s1, s, r1, -, r3, r4, r5, r6, r7, r8, r9, r10, -⟩ :=
    tr_run P c.parameters c.cmpTol c.parameters.maxIter.toNat (by omega) (w.info, w.draws) w.info.stop ⟨l, some u⟩ w.eta
  obtain ⟨y, y1, y2⟩ := trust_reach_sized h c l hu _ _ _ s1 r1
  rw [trSolve_restrict (trust_undone h c l) c.parameters c.cmpTol _ _ _ ⟨u, rfl, hu⟩] at r3
  obtain ⟨E, -, -, hE, -⟩ := trust_system h l hu
  obtain ⟨E', r, -, hE', hr, hrl, -⟩ := trust_system h l y2
  have hg : ‖P.grad s.x‖ = Real.sqrt (freeSq a.dv.flags (r.getD · 0)) := by
    rw [r4, y1]
    exact (trust_grad h c hr hrl).2
  rw [hg] at r7 r9
  refine ⟨⟨s.inner.1, s.inner.2, s.eta⟩, y, s.info, ?_, ?_⟩
  · show (match trSolve (a.trProblem c) c.parameters c.cmpTol c.parameters.maxIter.toNat (w.info, w.draws) w.info.stop
        ⟨l, some u⟩ w.eta with | some s => _ | none => _) = _
    rw [r3]
    simp only
    rw [r4, y1]
  · obtain ⟨E2, he2, hle⟩ := tr_energy_history P hinv c.parameters hp c.cmpTol h0 h1 (w.info, w.draws) w.info.stop ⟨l, some u⟩
      w.eta E hE s1 r1
    have he2' : (a.system l).scalar? y = some E2 := by
      rw [y1] at he2
      exact he2
    refine ⟨y2, ⟨E, E2, hE, he2', by rw [r5]; exact_mod_cast hle⟩, ⟨r, hr, hrl, r7⟩, ⟨by omega, by omega⟩,
      fun hm hpos => ?_, ?_, ?_, ?_⟩
    · have := r10 hm hpos
      omega
    · rw [r9, r5, r7]
      constructor
      · rintro ⟨ho, hor⟩
        refine ⟨by omega, ?_⟩
        rcases hor with hor | hor
        · exact Or.inl ⟨_, rfl, hor⟩
        · exact Or.inr ⟨_, r8 ho, hor⟩
      · rintro ⟨ho, hor⟩
        have ho' : s1.outerIter ≠ 0 := by omega
        refine ⟨ho', ?_⟩
        rcases hor with ⟨t, ht, hlt⟩ | ⟨t, ht, hlt⟩
        · injection ht with ht
          left; rw [ht]; exact hlt
        · rw [r8 ho'] at ht
          injection ht with ht
          right; rw [ht]; exact hlt
    · intro t ht hcon
      rw [r7] at ht
      injection ht with ht
      exact stationary_of_residual (a.system l) t hcon hr hrl ht.le
    · intro hc i hi
      obtain ⟨y', z1, -, z3⟩ := trust_reach_supports h c hp hc l hu _ _ _ s1 r1
      have : y' = y := by
        rw [y1] at z1
        injection z1 with _ z1
        exact (Option.some.inj z1).symm
      rw [← this]
      exact z3 i hi

/-! ### Load control -/

/-- C99. Load control with the trust region method: the listeners are shown one state per solve made, each the result of
a solve from the state before with the new load factor; success of the whole is success of all solves; and over the whole
run the constrained dofs keep the values they had at the start, whatever displacements are prescribed. -/
theorem trust_load_control_partial {a : Analysis} (h : Spec.TrustProper a) (c : TrustConfig a.trSize)
    (hp : 0 ≤ c.parameters.rho_prime) (h0 : 0 ≤ c.cmpTol) (h1 : c.cmpTol < 1) (hmax : 0 < c.parameters.maxIter)
    (htime : c.parameters.maxtime = none) (w : TRMemory a.trSize) (n : Nat) (hn : 0 < n) (tbegin tend l0 : ℝ)
    {x0 : List ℝ} (hx0 : x0.length = a.dv.flags.length) :
    ∃ (r : LCState ℝ (Option (List ℝ)) ℝ (TRMemory a.trSize)) (us : Nat → List ℝ),
      a.trLoadControl? c n tbegin tend w ⟨l0, some x0⟩ = some r ∧ us 0 = x0 ∧ 0 < r.info.solverInfos.length ∧
      r.info.solverInfos.length ≤ n + 1 ∧
      ((r.info.success = true ↔ r.info.solverInfos.length = n + 1 ∧ ∀ info ∈ r.info.solverInfos, info.success = true) ∧
        (r.info.solverInfos.length ≤ n → ∃ info, r.info.solverInfos.getLast? = some info ∧ info.success = false)) ∧
      Spec.shown r = (List.range r.info.solverInfos.length).map
        (fun k : Nat => ⟨l0 + k * ((tend - tbegin) / n), some (us (k + 1))⟩) ∧
      (Spec.shown r).getLast? = some r.dom ∧
      ∀ (k : Nat) (info : SolverInfo ℝ), r.info.solverInfos[k]? = some info →
        Spec.TrustSolved a c (l0 + k * ((tend - tbegin) / n)) (us k) (us (k + 1)) info ∧
        ((a.option = .full → c.parameters.useRand = false ∧ Spec.KeepsZeros a.dv.flags c.precond) →
          ∀ i : Nat, a.dv.flags[i]? = some true → (us (k + 1))[i]? = x0[i]?) := by
  generalize hstep : (tend - tbegin) / (n : ℝ) = step at *
  have hmk : LoadControl.mk? (n : Int) tbegin tend = some ⟨n, step⟩ := by
    unfold LoadControl.mk?
    rw [if_neg (by omega)]
    simp [hstep]
  -- one state after the other
  have hst : ∀ k, ∃ u, Spec.loadAfter (a.trSolver c) step w ⟨l0, some x0⟩ k = ⟨l0 + k * step, some u⟩ ∧
      u.length = a.dv.flags.length ∧
      ∃ u', (k = 0 → u' = x0) ∧ (∀ k', k = k' + 1 → Spec.loadAfter (a.trSolver c) step w ⟨l0, some x0⟩ k' = ⟨l0 + k' * step, some u'⟩) ∧
        Spec.TrustSolved a c (l0 + k * step) u' u (Spec.loadInfo (a.trSolver c) step w ⟨l0, some x0⟩ k) := by
    intro k
    induction k with
    | zero =>
      obtain ⟨w', y, info, s1, s2⟩ := trust_solve h c hp h0 h1 w l0 0 hx0
      have hlam : l0 + ((0 : Nat) : ℝ) * step = l0 := by simp
      rw [hlam]
      refine ⟨y, ?_, s2.length, x0, fun _ => rfl, fun k' hk' => by omega, ?_⟩
      · show ((a.trSolver c).solve w ⟨l0, some x0⟩ 0).2.1 = _
        rw [s1]
      · show Spec.TrustSolved a c l0 x0 y ((a.trSolver c).solve w ⟨l0, some x0⟩ 0).2.2
        rw [s1]; exact s2
    | succ k ih =>
      obtain ⟨u, i1, i2, -⟩ := ih
      generalize hl : l0 + ((k + 1 : Nat) : ℝ) * step = l
      have hll : l0 + (k : ℝ) * step + step = l := by rw [← hl]; push_cast; ring
      obtain ⟨w', y, info, s1, s2⟩ := trust_solve h c hp h0 h1
        (Spec.loadSolve (a.trSolver c) step w ⟨l0, some x0⟩ k).2.1 l step i2
      have hy1 : ({ (Spec.loadSolve (a.trSolver c) step w ⟨l0, some x0⟩ k).2.2.1 with
          lam := (Spec.loadSolve (a.trSolver c) step w ⟨l0, some x0⟩ k).2.2.1.lam + step } : Dom ℝ (Option (List ℝ))) = ⟨l, some u⟩ := by
        have h1 : (Spec.loadSolve (a.trSolver c) step w ⟨l0, some x0⟩ k).2.2.1 = ⟨l0 + k * step, some u⟩ := i1
        rw [h1, ← hll]
      refine ⟨y, ?_, s2.length, u, fun hk => by omega, fun k' hk' => ?_, ?_⟩
      · show (if ((a.trSolver c).solve (Spec.loadSolve (a.trSolver c) step w ⟨l0, some x0⟩ k).2.1 _ step).2.2.iterations = 0 then
          a.sync ((a.trSolver c).solve (Spec.loadSolve (a.trSolver c) step w ⟨l0, some x0⟩ k).2.1 _ step).2.1 else
          ((a.trSolver c).solve (Spec.loadSolve (a.trSolver c) step w ⟨l0, some x0⟩ k).2.1 _ step).2.1) = _
        rw [hy1, s1]
        have := s2.begun htime hmax
        rw [if_neg (by show ¬ info.iterations = 0; omega)]
      · obtain rfl : k = k' := by omega
        exact i1
      · show Spec.TrustSolved a c l u y ((a.trSolver c).solve (Spec.loadSolve (a.trSolver c) step w ⟨l0, some x0⟩ k).2.1 _ step).2.2
        rw [hy1, s1]; exact s2
  choose us hus husl us' hus0 huss hsol using hst
  have husk : ∀ k, us' (k + 1) = us k := by
    intro k
    have e1 := huss (k + 1) k rfl
    rw [hus k] at e1
    injection e1 with _ e1
    exact (Option.some.inj e1).symm
  let vs : Nat → List ℝ := fun k => match k with | 0 => x0 | k + 1 => us k
  have hvs : ∀ k : Nat, Spec.TrustSolved a c (l0 + k * step) (vs k) (vs (k + 1)) (Spec.loadInfo (a.trSolver c) step w ⟨l0, some x0⟩ k) := by
    intro k
    have := hsol k
    cases k with
    | zero => rw [hus0 0 rfl] at this; exact this
    | succ k => rw [husk k] at this; exact this
  obtain ⟨m, ls, hm, g1, g2, g3, -, g5, g6⟩ := load_control_run n hn step (a.trSolver c) w ⟨l0, some x0⟩
  obtain ⟨m1, m2, m3, m4⟩ := hm
  generalize hr : (LoadControl.mk (n : Int) step).run (a.trSolver c) w ⟨l0, some x0⟩ = r at *
  have hlen : r.info.solverInfos.length = m := by rw [g3]; simp
  have hshown : Spec.shown r = (List.range m).map (fun k : Nat => ⟨l0 + k * step, some (vs (k + 1))⟩) := by
    unfold Spec.shown
    rw [g6, List.cons_append, List.filterMap_cons_none rfl, List.filterMap_append, List.filterMap_flatMap]
    have hend : ((if r.info.success = true then [CEvent.notify .controlEnded r.dom ls step] else []).filterMap Spec.solutionOf) = ([] : List (Dom ℝ (Option (List ℝ)))) := by split <;> rfl
    rw [hend, List.append_nil]
    have hev : ∀ k, ((Spec.loadEvents (a.trSolver c) step w ⟨l0, some x0⟩ k).filterMap Spec.solutionOf) = [Spec.loadAfter (a.trSolver c) step w ⟨l0, some x0⟩ k] := by
      intro k
      cases k <;> rfl
    rw [List.flatMap_congr fun k _ => hev k, ← List.map_eq_flatMap]
    exact List.map_congr_left fun k hk => hus k
  refine ⟨r, vs, ?_, rfl, by omega, by omega, ?_, by rw [hshown, hlen], ?_, fun k info hi => ?_⟩
  · unfold Analysis.trLoadControl?
    rw [hmk, Option.map_some, hr]
  · rw [hlen]
    refine ⟨⟨fun hs => ?_, ?_⟩, fun hle => ⟨_, ?_, m4 hle⟩⟩
    · refine ⟨g2 hs, fun info hi => ?_⟩
      rw [g3] at hi
      obtain ⟨k, hk, rfl⟩ := List.mem_map.1 hi
      have := List.mem_range.1 hk
      exact g1.1 hs k (by omega)
    · rintro ⟨hmn, hall⟩
      refine g1.2 fun k hk => hall _ ?_
      rw [g3]
      exact List.mem_map.2 ⟨k, List.mem_range.2 (by omega), rfl⟩
    · rw [g3, List.getLast?_map]
      obtain ⟨m', rfl⟩ : ∃ m', m = m' + 1 := ⟨m - 1, by omega⟩
      rw [List.range_succ, List.getLast?_concat, Option.map_some, Nat.add_sub_cancel]
  · rw [hshown, g5, hus (m - 1)]
    obtain ⟨m', rfl⟩ : ∃ m', m = m' + 1 := ⟨m - 1, by omega⟩
    rw [List.range_succ, List.map_append, List.map_singleton, List.getLast?_concat, Nat.add_sub_cancel]
  · have hkm : k < m := by
      rw [← hlen]
      exact (List.getElem?_eq_some_iff.1 hi).1
    have hi' : info = Spec.loadInfo (a.trSolver c) step w ⟨l0, some x0⟩ k := by
      rw [g3, List.getElem?_map, List.getElem?_range hkm] at hi
      exact (Option.some.inj hi).symm
    rw [hi']
    refine ⟨hvs k, fun hc i hfi => ?_⟩
    clear hi hi' hkm
    induction k with
    | zero => exact (hvs 0).supports hc i hfi
    | succ k ih => exact ((hvs (k + 1)).supports hc i hfi).trans ih

end

end Ikarus
