import Verif.Analysis.TrustExampleLemmas

/-!
Property C99, continued: examples that meet the hypotheses, and what the trust region method does not do.
-/

namespace Ikarus

noncomputable section

open Element Analysis

/-! ### Specification -/

/-- The settings make sense: the threshold of the ratio is not negative, there is at least one iteration and no limit of the
time, and tolerances are what they are for floating point numbers. -/
structure Spec.TrustSound {m : Nat} (c : TrustConfig m) : Prop where
  rho : 0 ≤ c.parameters.rho_prime
  maxIter : 0 < c.parameters.maxIter
  maxtime : c.parameters.maxtime = none
  cmpTol : 0 ≤ c.cmpTol ∧ c.cmpTol < 1
  tiny : 0 ≤ c.tiny

/-- The parameters of the inner solver are the defaults (ikarus/linearalgebra/truncatedconjugategradient.hh:35-44). -/
def Spec.InnerDefaults {m : Nat} (w : TRMemory m) : Prop := w.info.kappa = 1 / 10 ∧ w.info.mininner = 1

/-- What one expects of prescribed displacements: after a successful run of load control the constrained dofs have them. -/
def Spec.TrustPrescribes : Prop :=
  ∀ (a : Analysis) (û : Nat → ℝ), Spec.TrustProper a → Spec.PrescribedLinearly a.dv û → ∀ c : TrustConfig a.trSize,
    Spec.TrustSound c → ∀ (w : TRMemory a.trSize) (n : Nat), 0 < n → ∀ (tbegin tend : ℝ) (x0 : List ℝ),
      Spec.OnSupports a.dv.flags û tbegin x0 → ∀ r, a.trLoadControl? c n tbegin tend w ⟨tbegin, some x0⟩ = some r →
        r.info.success = true → ∃ u, r.dom.x = some u ∧ Spec.OnSupports a.dv.flags û tend u

/-- What one expects of supports: a successful solve does not move them. -/
def Spec.TrustKeepsSupports : Prop :=
  ∀ a : Analysis, Spec.TrustProper a → ∀ c : TrustConfig a.trSize, Spec.TrustSound c → Spec.KeepsZeros a.dv.flags c.precond →
    ∀ (w : TRMemory a.trSize), Spec.InnerDefaults w → ∀ (l stepSize : ℝ) (u : List ℝ), u.length = a.dv.flags.length →
      ∀ w' y info, (a.trSolver c).solve w ⟨l, some u⟩ stepSize = (w', ⟨l, some y⟩, info) → info.success = true →
        ∀ i : Nat, a.dv.flags[i]? = some true → y[i]? = u[i]?

/-- What one expects of success: the forces at the free dofs are balanced up to the tolerance. -/
def Spec.TrustBalances : Prop :=
  ∀ a : Analysis, Spec.TrustProper a → ∀ c : TrustConfig a.trSize, Spec.TrustSound c → Spec.KeepsZeros a.dv.flags c.precond →
    ∀ (w : TRMemory a.trSize), Spec.InnerDefaults w → ∀ (l stepSize : ℝ) (u : List ℝ), u.length = a.dv.flags.length →
      ∀ w' y info, (a.trSolver c).solve w ⟨l, some u⟩ stepSize = (w', ⟨l, some y⟩, info) → info.success = true →
        ∃ r, (a.system l).rawVector? y = some r ∧
          ∑ i ∈ (Finset.range a.dv.flags.length).filter (fun i => Spec.Free a.dv.flags i), r.getD i 0 * r.getD i 0 ≤
            c.parameters.grad_tol ^ 2

/-! ### Settings of the examples -/

/-- The default settings, with or without random predictor, without preconditioner. -/
def plainTrust (useRand : Bool) (v : TRVec 2) : TrustConfig 2 :=
  ⟨{ useRand := useRand }, identityPreconditioner, fun _ => v, 1 / 10 ^ 12, 1 / 10 ^ 15, 1 / 10 ^ 100⟩

theorem plainTrust_sound (useRand : Bool) (v : TRVec 2) : Spec.TrustSound (plainTrust useRand v) :=
  ⟨by norm_num [plainTrust], by norm_num [plainTrust], rfl, by norm_num [plainTrust], by norm_num [plainTrust]⟩

/-- The solver before the first solve. -/
def freshMemory : TRMemory 2 := ⟨⟨.maximumInnerIterations, 100000, 1 / 10, 1, 0⟩, 0, 0⟩

/-! ### The hypotheses are met -/

/-- A solve of two loaded springs, Full and Reduced. -/
example (o : DBCOption) (ho : o ≠ .raw) (c : TrustConfig (springs o true false [] 1 2 0 21).trSize) (hs : Spec.TrustSound c)
    (w : TRMemory (springs o true false [] 1 2 0 21).trSize) :
    ∃ w' y info, ((springs o true false [] 1 2 0 21).trSolver c).solve w ⟨1, some [0, 0]⟩ 0 = (w', ⟨1, some y⟩, info) ∧
      Spec.TrustSolved (springs o true false [] 1 2 0 21) c 1 [0, 0] y info :=
  trust_solve (springs_proper ho (by norm_num) (by norm_num)) c hs.rho hs.cmpTol.1 hs.cmpTol.2 w 1 0 rfl

/-- Load control in three steps. -/
example : ∃ (r : LCState ℝ (Option (List ℝ)) ℝ (TRMemory 2)),
    (springs .full true false [] 1 2 0 21).trLoadControl? (plainTrust false 0) 3 0 1 freshMemory ⟨0, some [7, 0]⟩ = some r ∧
      0 < r.info.solverInfos.length ∧ r.info.solverInfos.length ≤ 4 := by
  have hs := plainTrust_sound false 0
  obtain ⟨r, us, h1, -, h2, h3, -⟩ := trust_load_control_partial
    (springs_proper (o := .full) (c0 := true) (c1 := false) (fns := []) (k0 := 1) (k1 := 2) (f0 := 0) (f1 := 21) (by simp)
      (by norm_num) (by norm_num)) (plainTrust false 0) hs.rho hs.cmpTol.1 hs.cmpTol.2 hs.maxIter hs.maxtime freshMemory 3
    (by norm_num) 0 1 0 (x0 := [7, 0]) rfl
  exact ⟨r, h1, h2, h3⟩


/-! ### Prescribed displacements -/

/-- The displacement of the second dof is the load factor. -/
def pulledSupport : StoredFn ℝ := ⟨fun l i => if i = 1 then l else 0, fun _ i => if i = 1 then 1 else 0, 0⟩

/-- C99, refuted for prescribed displacements: load control with the trust region method reports success with supports that
have not moved, because the solver never applies the prescribed displacements and load control only does so before a solve
without iterations. -/
theorem trust_prescribed_refuted : ¬ Spec.TrustPrescribes := by
  intro h
  have hp := springs_proper (o := .full) (c0 := true) (c1 := true) (fns := [pulledSupport]) (k0 := 1) (k1 := 2) (f0 := 0)
    (f1 := 0) (by simp) (by norm_num) (by norm_num)
  have hs := plainTrust_sound false 0
  obtain ⟨r, us, h1, h2, h3, h4, h5, h6, h7, h8⟩ := trust_load_control_partial hp (plainTrust false 0) hs.rho hs.cmpTol.1
    hs.cmpTol.2 hs.maxIter hs.maxtime freshMemory 1 (by norm_num) 0 1 0 (x0 := [0, 0]) rfl
  have hfree : ∀ i, ¬ Spec.Free [true, true] i := by
    intro i
    rcases i with _ | _ | i <;> simp [Spec.Free]
  have hall : ∀ info ∈ r.info.solverInfos, info.success = true := by
    intro info hi
    obtain ⟨k, hk⟩ := List.mem_iff_getElem?.1 hi
    obtain ⟨t, -⟩ := h8 k info hk
    refine t.success.2 ⟨t.begun rfl hs.maxIter, Or.inl ?_⟩
    obtain ⟨q, -, -, hq⟩ := t.residual
    refine ⟨_, hq, ?_⟩
    have : (Finset.range (springs .full true true [pulledSupport] 1 2 0 0).dv.flags.length).filter
        (fun i => Spec.Free (springs .full true true [pulledSupport] 1 2 0 0).dv.flags i) = ∅ :=
      Finset.filter_eq_empty_iff.2 fun i _ => hfree i
    rw [this, Finset.sum_empty, Real.sqrt_zero]
    norm_num [plainTrust]
  have hlen : r.info.solverInfos.length = 2 := by
    by_contra hne
    obtain ⟨info, g1, g2⟩ := h5.2 (by omega)
    rw [hall info (List.mem_of_getLast? g1)] at g2
    cases g2
  have hsucc := h5.1.2 ⟨hlen, hall⟩
  obtain ⟨u, u1, -, u2⟩ := h (springs .full true true [pulledSupport] 1 2 0 0) (fun i => if i = 1 then 1 else 0) hp
    ⟨fun l i _ => by simp [Spec.prescribed, Spec.total, springs, pulledSupport],
      fun i _ => by simp [Spec.total, springs, pulledSupport], fun i hi hne => by
        have : i = 1 := by
          by_contra h
          exact hne (if_neg h)
        subst this
        rfl⟩ (plainTrust false 0) hs freshMemory 1 one_pos 0 1 [0, 0]
    ⟨rfl, fun i hi => by rcases i with _ | _ | i <;> simp_all [springs]⟩ r h1 hsucc
  have hu := u2 1 rfl
  obtain ⟨info, hinfo⟩ : ∃ info, r.info.solverInfos[1]? = some info := ⟨_, List.getElem?_eq_getElem (by omega)⟩
  have hk := (h8 1 info hinfo).2 (fun _ => ⟨rfl, identity_keepsZeros _⟩) 1 rfl
  rw [h6, hlen] at h7
  have hdom : r.dom.x = some (us 2) := by
    have := Option.some.inj h7
    rw [← this]
    rfl
  rw [hdom] at u1
  rw [← Option.some.inj u1] at hu
  rw [hk] at hu
  norm_num at hu

/-! ### Supports with the random predictor -/

/-- A random vector near the load. -/
def nearLoad : TRVec 2 := !₂[1 / 1000, 9 / 10]

/-- The step of the conjugate gradients from there. -/
def nearStep : ℝ := ((1 / 1000) ^ 2 + (96 / 5) ^ 2) / ((1 / 1000) ^ 2 + 2 * (96 / 5) ^ 2)

theorem rand_first {m : Nat} (c : TrustConfig m) (w : TCGInfo × Nat) (Delta : ℝ) (h : TRVec m → TRVec m)
    (hk : ¬ Inner.inner ℝ (c.setRandom w.2) (h (c.setRandom w.2)) > Delta * Delta) : c.rand w Delta h = c.setRandom w.2 := by
  have h0 : ¬ Inner.inner ℝ (trEps ^ 0 • c.setRandom w.2) (h (trEps ^ 0 • c.setRandom w.2)) > Delta * Delta := by
    rw [pow_zero, one_smul]; exact hk
  unfold TrustConfig.rand
  rw [dif_pos ⟨0, h0⟩]
  rw [(Nat.find_eq_zero _).2 h0, pow_zero, one_smul]

theorem nearLoad_correction (w : TCGInfo × Nat) (st : TCGStopReason) (eta : TRVec 2) (hk : w.1.kappa = 1 / 10)
    (hm : w.1.mininner = 1) :
    let P : TRProblem (Dom ℝ (Option (List ℝ))) (TRVec 2) (TCGInfo × Nat) :=
      (springs .full true false [] 1 2 0 21).trProblem (plainTrust true nearLoad)
    (trCorrection P (plainTrust true nearLoad).parameters
      (trStart P (plainTrust true nearLoad).parameters w st ⟨1, some [0, 0]⟩ eta)).2.1 =
      !₂[1 / 1000 - nearStep * (1 / 1000), 9 / 10 + nearStep * (96 / 5)] := by
  intro P
  obtain ⟨p1, p2, p3, p4⟩ := springs_problem (c0 := true) (c1 := false) (fns := []) (k0 := 1) (k1 := 2) (f0 := 0) (f1 := 21)
    (by norm_num) (by norm_num) (plainTrust true nearLoad) 1 0 0
  have p1 : P.grad ⟨1, some [0, 0]⟩ = !₂[0, -21] := by
    refine p1.trans ?_
    norm_num
  have p2 : P.hess ⟨1, some [0, 0]⟩ = scaleTwo 1 2 := by
    refine p2.trans ?_
    norm_num
  have hrand : P.rand w 10 (scaleTwo 1 2) = nearLoad := by
    refine rand_first _ _ _ _ ?_
    show ¬ Inner.inner ℝ nearLoad (scaleTwo 1 2 nearLoad) > _
    unfold nearLoad
    rw [scaleTwo_apply, two_inner]
    norm_num
  have hnorm : ‖(!₂[0, -21] : TRVec 2)‖ = 21 := by
    rw [two_norm]
    rw [Real.sqrt_eq_iff_mul_self_eq_of_pos (by norm_num)]
    norm_num
  have hinner : (P.inner w 10 !₂[0, -21] (scaleTwo 1 2) nearLoad).2.1 =
      !₂[1 / 1000 - nearStep * (1 / 1000), 9 / 10 + nearStep * (96 / 5)] := by
    show (tcg (TRVec.transposed (scaleTwo 1 2)) (identityPreconditioner (scaleTwo 1 2)) (-!₂[0, -21]) nearLoad (2 + 2)
      (1 / 10 ^ 15) (1 / 10 ^ 100) { w.1 with Delta := 10 }).1 = _
    rw [scaleTwo_transposed, two_neg, neg_zero, neg_neg]
    have hres : (!₂[0, 21] : TRVec 2) - scaleTwo 1 2 nearLoad = !₂[-(1 / 1000), 96 / 5] := by
      unfold nearLoad
      rw [scaleTwo_apply, two_sub]
      norm_num
    have hn : ‖(!₂[0, 21] : TRVec 2)‖ = 21 := by
      rw [two_norm]
      rw [Real.sqrt_eq_iff_mul_self_eq_of_pos (by norm_num)]
      norm_num
    have hsq : ‖(!₂[-(1 / 1000), 96 / 5] : TRVec 2)‖ * ‖(!₂[-(1 / 1000), 96 / 5] : TRVec 2)‖ = (1 / 1000) ^ 2 + (96 / 5) ^ 2 := by
      rw [← sq, two_norm_sq]
      norm_num
    rw [tcg_first (scaleTwo 1 2) _ !₂[0, 21] nearLoad 2 _ _ { w.1 with Delta := 10 } (p := !₂[-(1 / 1000), 96 / 5])
      (alpha := nearStep)]
    · unfold nearLoad
      rw [two_smul', two_add]
      congr 2
      ring_nf
    · rw [hn]; norm_num
    · rw [hres, hsq, hn]
      norm_num
    · rw [hres]; rfl
    · rw [hres, scaleTwo_apply, two_inner, two_inner]
      unfold nearStep
      norm_num
    · rw [scaleTwo_apply, two_inner]
      norm_num
    · rw [hres, two_inner]
      unfold nearLoad nearStep
      rw [two_norm_sq]
      norm_num
    · show w.1.mininner ≤ 1
      rw [hm]
    · rw [hres, scaleTwo_apply, two_smul', two_sub, hn, two_norm]
      show _ ≤ 21 * min 21 w.1.kappa
      rw [hk]
      refine Real.sqrt_le_iff.2 ⟨by norm_num, ?_⟩
      unfold nearStep
      norm_num
  unfold trCorrection
  simp only
  have hcond : (plainTrust true nearLoad).parameters.useRand = true ∧
      (trStart P (plainTrust true nearLoad).parameters w st ⟨1, some [0, 0]⟩ eta).outerIter = 0 := ⟨rfl, rfl⟩
  rw [if_pos hcond, if_pos hcond]
  show trCauchy (P.energy ⟨1, some [0, 0]⟩) (P.grad ⟨1, some [0, 0]⟩) (P.hess ⟨1, some [0, 0]⟩) ‖P.grad ⟨1, some [0, 0]⟩‖ 10
    (P.inner w 10 (P.grad ⟨1, some [0, 0]⟩) (P.hess ⟨1, some [0, 0]⟩) (P.rand w 10 (P.hess ⟨1, some [0, 0]⟩))).2.1 = _
  rw [p1, p2, hrand, hinner, p3]
  unfold trCauchy
  simp only
  rw [if_neg]
  rintro ⟨-, hlt⟩
  rw [hnorm, scaleTwo_apply, scaleTwo_apply, two_inner, two_smul', two_smul', two_inner, two_inner, two_inner, two_inner] at hlt
  unfold nearStep at hlt
  norm_num at hlt

theorem trSolver_of {a : Analysis} {c : TrustConfig a.trSize} {w : TRMemory a.trSize} {x : Dom ℝ (Option (List ℝ))} {t : ℝ}
    {s : TRState (Dom ℝ (Option (List ℝ))) (TRVec a.trSize) (TCGInfo × Nat)}
    (h : trSolve (a.trProblem c) c.parameters c.cmpTol c.parameters.maxIter.toNat (w.info, w.draws) w.info.stop x w.eta = some s) :
    (a.trSolver c).solve w x t = (⟨s.inner.1, s.inner.2, s.eta⟩, s.x, s.info) := by
  unfold trSolver
  simp only
  rw [h]

/-- C99, refuted for supports with the random predictor and Full: the first correction of two springs, of which the first is
held, contains a part of the random vector, and the solve ends successfully with a support that has moved. -/
theorem trust_rand_moves_supports : ¬ Spec.TrustKeepsSupports := by
  intro h
  let a := springs .full true false [] 1 2 0 21
  let P : TRProblem (Dom ℝ (Option (List ℝ))) (TRVec 2) (TCGInfo × Nat) := a.trProblem (plainTrust true nearLoad)
  have hs := plainTrust_sound true nearLoad
  have hc := nearLoad_correction (freshMemory.info, 0) freshMemory.info.stop 0 rfl rfl
  obtain ⟨p1, p2, p3, p4⟩ := springs_problem (c0 := true) (c1 := false) (fns := []) (k0 := 1) (k1 := 2) (f0 := 0) (f1 := 21)
    (by norm_num) (by norm_num) (plainTrust true nearLoad) 1 0 0
  -- the state after the first iteration
  let s0 := trStart P (plainTrust true nearLoad).parameters (freshMemory.info, 0) freshMemory.info.stop ⟨1, some [0, 0]⟩ 0
  have hc : (trCorrection P (plainTrust true nearLoad).parameters s0).2.1 =
      !₂[1 / 1000 - nearStep * (1 / 1000), 9 / 10 + nearStep * (96 / 5)] := hc
  obtain ⟨-, -, -, -, -, f6, -⟩ := trBody_facts P (plainTrust true nearLoad).parameters (plainTrust true nearLoad).cmpTol s0
  have hupd : P.update s0.x !₂[1 / 1000 - nearStep * (1 / 1000), 9 / 10 + nearStep * (96 / 5)] =
      ⟨1, some [1 / 1000 - nearStep * (1 / 1000), 9 / 10 + nearStep * (96 / 5)]⟩ := by
    refine (p4 _ _).trans ?_
    simp only [zero_add]
  have hen : P.energy s0.x = some 0 := by
    refine p3.trans ?_
    norm_num
  have hen' : ∃ e' : ℝ, e' ≤ 0 ∧
      P.energy ⟨1, some [1 / 1000 - nearStep * (1 / 1000), 9 / 10 + nearStep * (96 / 5)]⟩ = some e' := by
    refine ⟨_, ?_, springs_energy (o := .full) (c0 := true) (c1 := false) (fns := []) (k0 := 1) (k1 := 2) (f0 := 0) (f1 := 21) 1 _ _⟩
    unfold nearStep
    norm_num
  obtain ⟨e', he', hen'⟩ := hen'
  have hpred : 0 ≤ Spec.predicted (P.grad s0.x) (P.hess s0.x) !₂[1 / 1000 - nearStep * (1 / 1000), 9 / 10 + nearStep * (96 / 5)] ∧
      Spec.predicted (P.grad s0.x) (P.hess s0.x) !₂[1 / 1000 - nearStep * (1 / 1000), 9 / 10 + nearStep * (96 / 5)] ≤ 12000 := by
    have e1 : P.grad s0.x = _ := p1
    have e2 : P.hess s0.x = _ := p2
    unfold Spec.predicted
    rw [e1, e2, scaleTwo_apply, two_smul', two_add, two_inner]
    unfold nearStep
    norm_num
  have hacc : Spec.Accepts (plainTrust true nearLoad).parameters (plainTrust true nearLoad).cmpTol (some 0) (some e')
      (Spec.predicted (P.grad s0.x) (P.hess s0.x) !₂[1 / 1000 - nearStep * (1 / 1000), 9 / 10 + nearStep * (96 / 5)]) :=
    ratio_ineffective _ 0 e' _ he' hpred.1 (hpred.2.trans (by norm_num))
  have hx : (trBody P (plainTrust true nearLoad).parameters (plainTrust true nearLoad).cmpTol s0).x =
      ⟨1, some [1 / 1000 - nearStep * (1 / 1000), 9 / 10 + nearStep * (96 / 5)]⟩ := by
    rw [hc, hupd, hen', show s0.energy = some 0 from hen, if_pos] at f6
    · exact f6
    · exact (trDecide_accept _ hs.rho _ _ _ _ _ _ _ _ _ _).2 hacc
  have hg : ‖P.grad (trBody P (plainTrust true nearLoad).parameters (plainTrust true nearLoad).cmpTol s0).x‖ <
      (plainTrust true nearLoad).parameters.grad_tol := by
    rw [hx]
    obtain ⟨q1, -⟩ := springs_problem (c0 := true) (c1 := false) (fns := []) (k0 := 1) (k1 := 2) (f0 := 0) (f1 := 21)
      (by norm_num) (by norm_num) (plainTrust true nearLoad) 1 (1 / 1000 - nearStep * (1 / 1000)) (9 / 10 + nearStep * (96 / 5))
    have q1 : P.grad ⟨1, some [1 / 1000 - nearStep * (1 / 1000), 9 / 10 + nearStep * (96 / 5)]⟩ = _ := q1
    rw [q1, two_norm]
    show _ < (1 : ℝ) / 10 ^ 6
    rw [Real.sqrt_lt' (by norm_num)]
    unfold nearStep
    norm_num
  obtain ⟨s, g1, g2, g3, g4, -⟩ := tr_first_ends P (plainTrust true nearLoad).parameters (plainTrust true nearLoad).cmpTol 999
    (freshMemory.info, 0) freshMemory.info.stop ⟨1, some [0, 0]⟩ 0 hs.maxIter hs.maxtime (Or.inl hg)
  have hsolve : (a.trSolver (plainTrust true nearLoad)).solve freshMemory ⟨1, some [0, 0]⟩ 0 =
      (⟨s.inner.1, s.inner.2, s.eta⟩, s.x, s.info) := by
    exact trSolver_of (a := a) g1
  rw [g2, hx] at hsolve
  have := h a (springs_proper (by simp) (by norm_num) (by norm_num)) (plainTrust true nearLoad) hs (identity_keepsZeros _)
    freshMemory ⟨rfl, rfl⟩ 1 0 [0, 0] rfl _ _ _ hsolve g3 0 rfl
  have this : (1 : ℝ) / 1000 - nearStep * (1 / 1000) = 0 := Option.some.inj this
  unfold nearStep at this
  norm_num at this

/-! ### Success -/

/-- The step of the conjugate gradients for a stiff and a soft spring. -/
def stiffStep : ℝ := (1 + 1 / 400) / (10 ^ 8 + 1 / 400)

theorem stiff_correction (w : TCGInfo × Nat) (st : TCGStopReason) (eta : TRVec 2) (hk : w.1.kappa = 1 / 10)
    (hm : w.1.mininner = 1) :
    let P : TRProblem (Dom ℝ (Option (List ℝ))) (TRVec 2) (TCGInfo × Nat) :=
      (springs .full false false [] (10 ^ 8) 1 1 (1 / 20)).trProblem (plainTrust false 0)
    (trCorrection P (plainTrust false 0).parameters
      (trStart P (plainTrust false 0).parameters w st ⟨1, some [0, 0]⟩ eta)).2.1 = !₂[stiffStep, stiffStep * (1 / 20)] := by
  intro P
  obtain ⟨p1, p2, p3, p4⟩ := springs_problem (c0 := false) (c1 := false) (fns := []) (k0 := 10 ^ 8) (k1 := 1) (f0 := 1)
    (f1 := 1 / 20) (by norm_num) (by norm_num) (plainTrust false 0) 1 0 0
  have p1 : P.grad ⟨1, some [0, 0]⟩ = !₂[-1, -(1 / 20)] := by
    refine p1.trans ?_
    norm_num
  have p2 : P.hess ⟨1, some [0, 0]⟩ = scaleTwo (10 ^ 8) 1 := by
    refine p2.trans ?_
    norm_num
  have hinner : (P.inner w 10 !₂[-1, -(1 / 20)] (scaleTwo (10 ^ 8) 1) 0).2.1 = !₂[stiffStep, stiffStep * (1 / 20)] := by
    show (tcg (TRVec.transposed (scaleTwo (10 ^ 8) 1)) (identityPreconditioner (scaleTwo (10 ^ 8) 1)) (-!₂[-1, -(1 / 20)]) 0
      (2 + 2) (1 / 10 ^ 15) (1 / 10 ^ 100) { w.1 with Delta := 10 }).1 = _
    rw [scaleTwo_transposed, two_neg, neg_neg, neg_neg]
    have hres : (!₂[1, 1 / 20] : TRVec 2) - scaleTwo (10 ^ 8) 1 0 = !₂[1, 1 / 20] := by
      rw [two_zero, scaleTwo_apply, two_sub]
      norm_num
    have hsq : ‖(!₂[1, 1 / 20] : TRVec 2)‖ * ‖(!₂[1, 1 / 20] : TRVec 2)‖ = 1 + 1 / 400 := by
      rw [← sq, two_norm_sq]
      norm_num
    have hlow : 1 ≤ ‖(!₂[1, 1 / 20] : TRVec 2)‖ := by
      rw [two_norm]
      refine Real.le_sqrt_of_sq_le ?_
      norm_num
    rw [tcg_first (scaleTwo (10 ^ 8) 1) _ !₂[1, 1 / 20] 0 2 _ _ { w.1 with Delta := 10 } (p := !₂[1, 1 / 20])
      (alpha := stiffStep)]
    · rw [two_smul', zero_add, mul_one]
    · refine lt_of_lt_of_le ?_ hlow
      norm_num
    · rw [hres, mul_assoc _ ‖_‖, hsq]
      norm_num
    · rw [hres]; rfl
    · rw [hres, scaleTwo_apply, two_inner, two_inner]
      unfold stiffStep
      norm_num
    · rw [scaleTwo_apply, two_inner]
      norm_num
    · rw [hres, two_inner, norm_zero]
      unfold stiffStep
      norm_num
    · show w.1.mininner ≤ 1
      rw [hm]
    · show _ ≤ ‖(!₂[1, 1 / 20] : TRVec 2)‖ * min ‖(!₂[1, 1 / 20] : TRVec 2)‖ w.1.kappa
      rw [hk, min_eq_right (by linarith), hres, scaleTwo_apply, two_smul', two_sub, two_norm]
      refine le_trans (b := (1 : ℝ) / 10) (Real.sqrt_le_iff.2 ⟨by norm_num, ?_⟩) (by linarith)
      unfold stiffStep
      norm_num
  unfold trCorrection
  simp only
  have hcond : ¬ ((plainTrust false 0).parameters.useRand = true ∧
      (trStart P (plainTrust false 0).parameters w st ⟨1, some [0, 0]⟩ eta).outerIter = 0) := fun hh => by cases hh.1
  rw [if_neg hcond, if_neg hcond]
  show (P.inner w 10 (P.grad ⟨1, some [0, 0]⟩) (P.hess ⟨1, some [0, 0]⟩) 0).2.1 = _
  rw [p1, p2, hinner]

/-- C99, refuted for equilibrium: with the default settings the trust region method reports success for a stiff and a soft
spring after one iteration, because the correction is small, with a force of more than 0.049 that nothing balances. -/
theorem trust_success_unbalanced : ¬ Spec.TrustBalances := by
  intro h
  let a := springs .full false false [] (10 ^ 8) 1 1 (1 / 20)
  let P : TRProblem (Dom ℝ (Option (List ℝ))) (TRVec 2) (TCGInfo × Nat) := a.trProblem (plainTrust false 0)
  have hs := plainTrust_sound false 0
  have hp : Spec.TrustProper a := springs_proper (by simp) (by norm_num) (by norm_num)
  let s0 := trStart P (plainTrust false 0).parameters (freshMemory.info, 0) freshMemory.info.stop ⟨1, some [0, 0]⟩ 0
  have hc : (trCorrection P (plainTrust false 0).parameters s0).2.1 = !₂[stiffStep, stiffStep * (1 / 20)] :=
    stiff_correction (freshMemory.info, 0) freshMemory.info.stop 0 rfl rfl
  obtain ⟨-, -, -, -, -, f6, -⟩ := trBody_facts P (plainTrust false 0).parameters (plainTrust false 0).cmpTol s0
  have hpr : ∀ u v : ℝ, ∀ p q : ℝ, P.update ⟨1, some [u, v]⟩ !₂[p, q] = ⟨1, some [u + p, v + q]⟩ := fun u v =>
    (springs_problem (c0 := false) (c1 := false) (fns := []) (k0 := 10 ^ 8) (k1 := 1) (f0 := 1)
    (f1 := 1 / 20) (by norm_num) (by norm_num) (plainTrust false 0) 1 u v).2.2.2
  have hx : ∃ u v : ℝ, (trBody P (plainTrust false 0).parameters (plainTrust false 0).cmpTol s0).x = ⟨1, some [u, v]⟩ ∧
      v ≤ 1 / 1000 := by
    rw [hc, two_neg, show s0.x = ⟨1, some [0, 0]⟩ from rfl, hpr, hpr] at f6
    split at f6
    · exact ⟨_, _, f6, by unfold stiffStep; norm_num⟩
    · exact ⟨_, _, f6, by norm_num⟩
  obtain ⟨u, v, hx, hv⟩ := hx
  have hg : ‖(trCorrection P (plainTrust false 0).parameters s0).2.1‖ < (plainTrust false 0).parameters.corr_tol := by
    rw [hc, two_norm]
    show _ < (1 : ℝ) / 10 ^ 6
    rw [Real.sqrt_lt' (by norm_num)]
    unfold stiffStep
    norm_num
  obtain ⟨s, g1, g2, g3, g4, -⟩ := tr_first_ends P (plainTrust false 0).parameters (plainTrust false 0).cmpTol 999
    (freshMemory.info, 0) freshMemory.info.stop ⟨1, some [0, 0]⟩ 0 hs.maxIter hs.maxtime (Or.inr hg)
  have hsolve : (a.trSolver (plainTrust false 0)).solve freshMemory ⟨1, some [0, 0]⟩ 0 =
      (⟨s.inner.1, s.inner.2, s.eta⟩, s.x, s.info) := by
    exact trSolver_of (a := a) g1
  rw [g2, hx] at hsolve
  obtain ⟨r, r1, r2⟩ := h a hp (plainTrust false 0) hs (identity_keepsZeros _)
    freshMemory ⟨rfl, rfl⟩ 1 0 [0, 0] rfl _ _ _ hsolve g3
  have r1' := (springs_raw (o := .full) (c0 := false) (c1 := false) (fns := []) (k0 := 10 ^ 8) (k1 := 1) (f0 := 1)
    (f1 := 1 / 20) (by norm_num) (by norm_num) 1 u v).1
  have : r = [10 ^ 8 * u - 1 * 1, 1 * v - 1 * (1 / 20)] := Option.some.inj (r1.symm.trans r1')
  have hle := (Finset.single_le_sum (f := fun i => r.getD i 0 * r.getD i 0) (fun i _ => mul_self_nonneg (r.getD i 0))
    (Finset.mem_filter.2 ⟨Finset.mem_range.2 (by simp [a, springs] : 1 < a.dv.flags.length), by simp [a, springs, Spec.Free]⟩)).trans r2
  rw [this] at hle
  have hle : (1 * v - 1 * (1 / 20)) * (1 * v - 1 * (1 / 20)) ≤ (1 / 10 ^ 6 : ℝ) ^ 2 := hle
  nlinarith

end

end Ikarus
