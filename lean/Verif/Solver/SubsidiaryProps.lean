import Verif.Solver.SubsidiaryModel
import Mathlib.Algebra.Module.LinearMap.Basic
import Mathlib.Order.Basic
import Mathlib.Algebra.Order.Ring.Int
import Mathlib.Algebra.Order.Field.Rat
import Mathlib.Data.Rat.Defs
import Mathlib.Tactic.Abel
import Mathlib.Tactic.FieldSimp
import Mathlib.Tactic.LinearCombination
import Mathlib.Tactic.NormNum
import Mathlib.Tactic.Ring

/-!
C20: Newton-Raphson with a scalar subsidiary function (path following).
-/

namespace Ikarus

section
variable {K V A N : Type} [Field K] [DecidableEq K] [AddCommGroup V] [Module K V]

namespace Spec

/-- The bordered linear system for the increments: tangent `L`, load vector `F`, residual `r`,
constraint value `f` with derivatives `a` and `b`. -/
def Bordered (dot : V → V → K) (L : V → V) (F r a : V) (b f : K) (deltaD : V) (deltalambda : K) :
    Prop :=
  L deltaD - deltalambda • F = -r ∧ dot a deltaD + b * deltalambda = -f

end Spec

open Spec

namespace SubsidiaryProblem

theorem loop_induct (P : SubsidiaryProblem K V A N) (set : SubsidiarySettings N)
    (I : SubsidiaryLoop K V A N → Prop) (hI : ∀ s, I s → P.cond set s = true → I (P.body s))
    (fuel : Nat) (s s' : SubsidiaryLoop K V A N) (hs : I s) (h : P.loop set fuel s = some s') :
    I s' ∧ P.cond set s' = false := by
  induction fuel generalizing s with
  | zero =>
    simp only [loop] at h
    split at h
    · exact absurd h (by simp)
    · rename_i hc
      simp only [Option.some.injEq] at h
      subst h
      exact ⟨hs, by simpa using hc⟩
  | succ fuel ih =>
    simp only [loop] at h
    split at h
    · rename_i hc
      exact ih (P.body s) (hI s hs hc) h
    · rename_i hc
      simp only [Option.some.injEq] at h
      subst h
      exact ⟨hs, by simpa using hc⟩

theorem body_iter (P : SubsidiaryProblem K V A N) (s : SubsidiaryLoop K V A N) :
    (P.body s).iter = s.iter + 1 ∧ (P.body s).success = s.success
      ∧ (P.body s).trace = s.trace ++ messages := by
  unfold body
  split <;> exact ⟨rfl, rfl, rfl⟩

theorem loop_isSome (P : SubsidiaryProblem K V A N) (set : SubsidiarySettings N) (fuel : Nat)
    (s : SubsidiaryLoop K V A N) (hf : set.maxIter ≤ (s.iter + fuel : Nat)) :
    (P.loop set fuel s).isSome = true := by
  induction fuel generalizing s with
  | zero =>
    simp only [loop]
    rw [if_neg]
    · rfl
    · unfold cond
      simp only [Bool.and_eq_true, decide_eq_true_eq, not_and]
      omega
  | succ fuel ih =>
    simp only [loop]
    split
    · apply ih
      rw [(body_iter P s).1]
      omega
    · rfl

theorem finish_same (set : SubsidiarySettings N) (s : SubsidiaryLoop K V A N) :
    (finish set s).x = s.x ∧ (finish set s).lam = s.lam ∧ (finish set s).args = s.args ∧
      (finish set s).iter = s.iter ∧ (finish set s).finite = s.finite ∧
      (finish set s).rx = s.rx ∧ (finish set s).rNorm = s.rNorm := by
  unfold finish
  by_cases h : (s.iter : Int) = set.maxIter
  · simp [h]
  · cases hs : s.success <;> simp [h, hs]

end SubsidiaryProblem

open SubsidiaryProblem

/-- C20. If the derivatives of the subsidiary function are finite and the denominator is not zero,
the increments of an iteration solve the bordered system with the load column
`F = -R(λ = 1, D = 0)`, minus the force of the inhomogeneous Dirichlet conditions at the current
state if there are any, and the iteration adds them to the solution, the load factor and the
accumulated increments. -/
theorem subsidiary_step_solves_bordered (P : SubsidiaryProblem K V A N)
    (s : SubsidiaryLoop K V A N) (L : V →ₗ[K] V) (hL : ∀ b, L (P.linSolve s.Ax b) = b)
    (hadd : ∀ a x y, P.dot a (x + y) = P.dot a x + P.dot a y)
    (hsmul : ∀ a (c : K) x, P.dot a (c • x) = c * P.dot a x)
    (a : V) (b : K) (ha : s.args.dfdDD = some a) (hb : s.args.dfdDlambda = some b)
    (F : V) (hF : F = -P.residual 1 0 - P.idbc.elim 0 fun i => i.1 s.lam s.x)
    (hden : P.dot a (P.linSolve s.Ax F) + b ≠ 0) :
    ∃ deltaD deltalambda, Bordered P.dot L F s.rx a b s.args.f deltaD deltalambda ∧
      (P.body s).lam = s.lam + deltalambda ∧
      (P.idbc = none → (P.body s).x = P.update s.x deltaD) ∧
      (P.body s).args.DD = s.args.DD + deltaD ∧
      (P.body s).args.Dlambda = s.args.Dlambda + deltalambda ∧
      (P.body s).rx = P.residual (P.body s).lam (P.body s).x ∧
      (P.body s).args.f = (P.subsidiary (P.body s).lam (P.body s).x
        { s.args with DD := s.args.DD + deltaD, Dlambda := s.args.Dlambda + deltalambda }).1 ∧
      (P.body s).rNorm = some (P.sqrt (P.dot (P.body s).rx (P.body s).rx
        + (P.body s).args.f * (P.body s).args.f)) ∧
      (P.body s).finite = s.finite := by
  obtain rfl : F = P.loadColumn s.lam s.x := by
    rw [hF]
    unfold loadColumn Fext0
    cases P.idbc <;> simp
  set dr := P.linSolve s.Ax (-s.rx) with hdr
  set dl := P.linSolve s.Ax (P.loadColumn s.lam s.x) with hdl
  set lam := (-s.args.f - P.dot a dr) / (P.dot a dl + b) with hlam
  have hinc : P.increments s = some (dr + lam • dl, lam) := by
    unfold increments
    simp only [ha, hb]
    rw [if_neg hden]
  refine ⟨dr + lam • dl, lam, ⟨?_, ?_⟩, ?_⟩
  · rw [map_add, map_smul, hdr, hdl, hL, hL]
    abel
  · rw [hadd, hsmul]
    have : lam * (P.dot a dl + b) = -s.args.f - P.dot a dr := by
      rw [hlam]; field_simp
    linear_combination this
  · unfold body
    rw [hinc]
    refine ⟨rfl, ?_, rfl, rfl, rfl, rfl, rfl, rfl⟩
    intro hn
    simp only [hn]

/-- C20. The bordered system determines the increments if the tangent is injective and the
denominator is not zero. -/
theorem bordered_unique (dot : V → V → K) (hadd : ∀ a x y, dot a (x + y) = dot a x + dot a y)
    (hsmul : ∀ a (c : K) x, dot a (c • x) = c * dot a x) (L : V →ₗ[K] V)
    (hinj : Function.Injective L) (F r a dl : V) (b f : K) (hdl : L dl = F)
    (hden : dot a dl + b ≠ 0) (d1 d2 : V) (l1 l2 : K)
    (h1 : Bordered dot L F r a b f d1 l1) (h2 : Bordered dot L F r a b f d2 l2) :
    d1 = d2 ∧ l1 = l2 := by
  obtain ⟨h1a, h1b⟩ := h1
  obtain ⟨h2a, h2b⟩ := h2
  have hd : d1 = d2 + (l1 - l2) • dl := by
    apply hinj
    rw [map_add, map_smul, hdl, sub_smul]
    have e1 := eq_add_of_sub_eq h1a
    have e2 := eq_add_of_sub_eq h2a
    rw [e1, e2]
    abel
  have hl : (l1 - l2) * (dot a dl + b) = 0 := by
    rw [hd, hadd, hsmul] at h1b
    linear_combination h1b - h2b
  have : l1 - l2 = 0 := by
    rcases mul_eq_zero.1 hl with h | h
    · exact h
    · exact absurd h hden
  have hl12 : l1 = l2 := sub_eq_zero.1 this
  refine ⟨?_, hl12⟩
  rw [hd, this, zero_smul, add_zero]

/-- C20. The solver terminates after at most `maxIter` iterations, and its messages are `INIT`, six
per iteration and `FINISHED_SUCESSFULLY` iff successful. -/
theorem subsidiary_terminates (P : SubsidiaryProblem K V A N) (set : SubsidiarySettings N)
    (fuel : Nat) (hf : set.maxIter ≤ fuel) (lam : K) (x : V) (args : SubsidiaryArgs K V) :
    ∃ s, P.solve set fuel lam x args = some s ∧ (s.iter : Int) ≤ max 0 set.maxIter ∧
      (s.success = true ↔ (s.iter : Int) ≠ set.maxIter) ∧
      s.trace = [.init] ++ (List.replicate s.iter
        [.iterationStarted, .correctionUpdated, .solutionChanged, .correctionnormUpdated,
          .residualnormUpdated, .iterationEnded]).flatten
        ++ (if s.success then [.finishedSucessfully] else []) := by
  have hs := loop_isSome P set fuel (P.start lam x args) (by simpa [start] using hf)
  obtain ⟨s, hs⟩ := Option.isSome_iff_exists.1 hs
  obtain ⟨⟨h1, h2, h3⟩, -⟩ := loop_induct P set
    (fun s => (s.iter : Int) ≤ max 0 set.maxIter ∧ s.success = true ∧
      s.trace = [.init] ++ (List.replicate s.iter messages).flatten)
    (fun s ⟨h1, h2, h3⟩ hc => by
      obtain ⟨b1, b2, b3⟩ := body_iter P s
      refine ⟨?_, by rw [b2, h2], ?_⟩
      · unfold SubsidiaryProblem.cond at hc
        simp only [Bool.and_eq_true, decide_eq_true_eq] at hc
        rw [b1]
        push_cast
        omega
      · rw [b3, b1, h3, List.replicate_succ', List.flatten_append]
        simp) fuel _ s
    (by simp [start]) hs
  refine ⟨finish set s, by unfold solve; rw [hs]; rfl, ?_⟩
  unfold finish
  by_cases hm : (s.iter : Int) = set.maxIter
  · simp only [hm, if_true, Bool.false_eq_true, if_false]
    refine ⟨by omega, by simp, ?_⟩
    simp [h3, messages]
  · simp only [hm, if_false, h2, if_true]
    refine ⟨h1, by simp [h2, hm], ?_⟩
    simp [h3, messages, h2]

/-- C20. With an additive update and without inhomogeneous Dirichlet conditions the accumulated
increments change by exactly the change of solution and load factor. -/
theorem subsidiary_accumulates (P : SubsidiaryProblem K V A N) (hidbc : P.idbc = none)
    (hupd : ∀ x d, P.update x d = x + d) (set : SubsidiarySettings N) (fuel : Nat) (lam : K) (x : V)
    (args : SubsidiaryArgs K V) (s : SubsidiaryLoop K V A N)
    (h : P.solve set fuel lam x args = some s) :
    s.x - x = s.args.DD - args.DD ∧ s.lam - lam = s.args.Dlambda - args.Dlambda ∧
      s.args.stepSize = args.stepSize ∧ s.args.currentStep = args.currentStep := by
  obtain ⟨s0, h0, h1⟩ := Option.map_eq_some_iff.1 h
  obtain ⟨hinv, -⟩ := loop_induct P set
    (fun s => s.x - x = s.args.DD - args.DD ∧ s.lam - lam = s.args.Dlambda - args.Dlambda ∧
      s.args.stepSize = args.stepSize ∧ s.args.currentStep = args.currentStep)
    (fun s ⟨i1, i2, i3, i4⟩ _ => by
      unfold body
      split
      · exact ⟨i1, i2, i3, i4⟩
      · rename_i d l _
        simp only [hidbc, callSubsidiary, hupd]
        refine ⟨?_, ?_, i3, i4⟩
        · rw [add_sub_right_comm, i1]; abel
        · rw [add_sub_right_comm, i2]; ring) fuel _ s0
    (by simp [start, callSubsidiary]) h0
  have hf : s.x = s0.x ∧ s.lam = s0.lam ∧ s.args = s0.args := by
    rw [← h1]
    obtain ⟨f1, f2, f3, -⟩ := finish_same set s0
    exact ⟨f1, f2, f3⟩
  rw [hf.1, hf.2.1, hf.2.2]
  exact hinv

/-- The result of a run in terms of its last loop state. -/
theorem subsidiary_end (P : SubsidiaryProblem K V A N) (set : SubsidiarySettings N) (fuel : Nat)
    (lam : K) (x : V) (args : SubsidiaryArgs K V) (s : SubsidiaryLoop K V A N)
    (h : P.solve set fuel lam x args = some s) :
    (s.finite = true → s.rx = P.residual s.lam s.x ∧
      s.rNorm = some (if s.iter = 0 then P.sqrt (P.dot s.rx s.rx)
        else P.sqrt (P.dot s.rx s.rx + s.args.f * s.args.f))) ∧
      (s.success = true → (s.iter : Int) ≠ set.maxIter) ∧
      (∀ r, s.rNorm = some r → (s.iter : Int) < set.maxIter → P.gt r set.tol = false) := by
  obtain ⟨s0, h0, h1⟩ := Option.map_eq_some_iff.1 h
  obtain ⟨hinv, hc⟩ := loop_induct P set
    (fun s => (s.finite = true → s.rx = P.residual s.lam s.x ∧
      s.rNorm = some (if s.iter = 0 then P.sqrt (P.dot s.rx s.rx)
        else P.sqrt (P.dot s.rx s.rx + s.args.f * s.args.f))))
    (fun s i1 _ => by
      unfold body
      split
      · simp
      · intro _
        exact ⟨rfl, by simp⟩) fuel _ s0
    (by simp [start]) h0
  have hf : s.x = s0.x ∧ s.lam = s0.lam ∧ s.args = s0.args ∧ s.iter = s0.iter ∧
      s.finite = s0.finite ∧ s.rx = s0.rx ∧ s.rNorm = s0.rNorm := by
    rw [← h1]
    exact finish_same set s0
  obtain ⟨f1, f2, f3, f4, f5, f6, f7⟩ := hf
  refine ⟨?_, ?_, ?_⟩
  · rw [f1, f2, f3, f4, f5, f6, f7]; exact hinv
  · intro hs hm
    rw [← h1] at hs
    unfold finish at hs
    rw [f4] at hm
    rw [if_pos hm] at hs
    simp at hs
  · intro r hr hlt
    unfold SubsidiaryProblem.cond at hc
    rw [f7] at hr
    rw [f4] at hlt
    rw [hr] at hc
    simp only [Bool.and_eq_false_iff, decide_eq_false_iff_not, not_lt] at hc
    rcases hc with hc | hc
    · exact hc
    · omega

/-- C20 in full: success of a run with finite result means that residual and constraint together are
within the tolerance. -/
def Spec.SubsidiarySuccess : Prop :=
  ∀ (P : SubsidiaryProblem ℚ ℚ ℚ ℚ), (∀ a b, P.gt a b = decide (a > b)) →
    (∀ a b, P.dot a b = a * b) → P.sqrt = id →
    ∀ (set : SubsidiarySettings ℚ) (fuel : Nat) (lam x : ℚ) (args : SubsidiaryArgs ℚ ℚ)
      (s : SubsidiaryLoop ℚ ℚ ℚ ℚ), P.solve set fuel lam x args = some s → 0 < set.maxIter →
      s.finite = true → s.success = true →
      P.sqrt (P.dot s.rx s.rx + s.args.f * s.args.f) ≤ set.tol

/-- C20, the full statement is false of the code: the first norm ignores the constraint, so a start
in equilibrium is accepted although the constraint is violated. -/
theorem subsidiary_success_ignores_constraint : ¬ Spec.SubsidiarySuccess := by
  intro h
  let P : SubsidiaryProblem ℚ ℚ ℚ ℚ :=
    { residual := fun lam x => x - lam, jacobian := fun _ _ => 1, linSolve := fun a b => b / a
      dot := fun a b => a * b, sqrt := id, gt := fun a b => decide (a > b)
      update := fun x d => x + d
      subsidiary := fun _ _ a => (a.Dlambda - a.stepSize, some 0, some 1)
      idbc := none }
  let args : SubsidiaryArgs ℚ ℚ := { SubsidiaryArgs.setZero with stepSize := 3 }
  let set : SubsidiarySettings ℚ := ⟨1 / 10, 20⟩
  have hc : P.cond set (P.start 5 5 args) = false := by decide +kernel
  have hs : P.solve set 20 5 5 args = some (finish set (P.start 5 5 args)) := by
    simp [SubsidiaryProblem.solve, loop, hc]
  have := h P (fun _ _ => rfl) (fun _ _ => rfl) rfl set 20 5 5 args _ hs (by decide)
    (by decide +kernel) (by decide +kernel)
  revert this
  decide +kernel

/-- C20, partial: success with finite result means fewer than `maxIter` iterations, a residual
within the tolerance if no iteration was made, and residual and constraint together within the
tolerance if an iteration was made. Missing: the constraint when no iteration was made. -/
theorem subsidiary_success_partial [LinearOrder N] (P : SubsidiaryProblem K V A N)
    (hgt : ∀ a b, P.gt a b = decide (a > b)) (set : SubsidiarySettings N) (hmax : 0 ≤ set.maxIter)
    (fuel : Nat) (hfuel : set.maxIter ≤ fuel) (lam : K) (x : V) (args : SubsidiaryArgs K V)
    (s : SubsidiaryLoop K V A N) (h : P.solve set fuel lam x args = some s)
    (hfin : s.finite = true) (hs : s.success = true) :
    (s.iter : Int) < set.maxIter ∧ s.rx = P.residual s.lam s.x ∧
      (s.iter = 0 → P.sqrt (P.dot s.rx s.rx) ≤ set.tol) ∧
      (s.iter ≠ 0 → P.sqrt (P.dot s.rx s.rx + s.args.f * s.args.f) ≤ set.tol) := by
  obtain ⟨h1, h2, h3⟩ := subsidiary_end P set fuel lam x args s h
  obtain ⟨s', ht, hle, -, -⟩ := subsidiary_terminates P set fuel hfuel lam x args
  rw [h] at ht
  obtain rfl : s = s' := by simpa using ht
  have hlt : (s.iter : Int) < set.maxIter := by
    have := h2 hs
    omega
  obtain ⟨hr, hn⟩ := h1 hfin
  have := h3 _ hn hlt
  rw [hgt] at this
  simp only [gt_iff_lt, decide_eq_false_iff_not, not_lt] at this
  refine ⟨hlt, hr, fun h0 => ?_, fun h0 => ?_⟩
  · rw [if_pos h0] at this; exact this
  · rw [if_neg h0] at this; exact this

/-- C20, if the derivatives of the constraint vanish (as those of the arc-length function do before
its first prediction) and the start is not in equilibrium, the solution becomes not finite and
success is reported. -/
theorem subsidiary_zero_derivative_success (P : SubsidiaryProblem K V A N)
    (set : SubsidiarySettings N) (hmax : 1 < set.maxIter) (lam : K) (x : V)
    (args : SubsidiaryArgs K V)
    (hdot : ∀ v, P.dot 0 v = 0)
    (hsub : (P.subsidiary lam x args).2 = (some 0, some 0))
    (hr : P.gt (P.sqrt (P.dot (P.residual lam x) (P.residual lam x))) set.tol = true)
    (fuel : Nat) (hf : 1 ≤ fuel) :
    ∃ s, P.solve set fuel lam x args = some s ∧ s.finite = false ∧ s.success = true ∧
      s.iter = 1 := by
  obtain ⟨fuel, rfl⟩ : ∃ n, fuel = n + 1 := ⟨fuel - 1, by omega⟩
  have hc : P.cond set (P.start lam x args) = true := by
    have : ((0 : Nat) : Int) < set.maxIter := by omega
    simp only [SubsidiaryProblem.cond, start, hr, Bool.true_and]
    exact decide_eq_true this
  have hinc : P.increments (P.start lam x args) = none := by
    have h1 : (P.start lam x args).args.dfdDD = some 0 := by
      simp [start, callSubsidiary, hsub]
    have h2 : (P.start lam x args).args.dfdDlambda = some 0 := by
      simp [start, callSubsidiary, hsub]
    unfold increments
    simp only [h1, h2]
    rw [if_pos]
    simp [hdot]
  have hb : P.body (P.start lam x args) = { P.start lam x args with
      rNorm := none, iter := 1, finite := false, trace := [.init] ++ messages } := by
    unfold body
    rw [hinc]
    rfl
  have hl : P.loop set (fuel + 1) (P.start lam x args) = some (P.body (P.start lam x args)) := by
    have hc2 : P.cond set (P.body (P.start lam x args)) = false := by
      rw [hb]; simp [SubsidiaryProblem.cond]
    cases fuel with
    | zero => simp [loop, hc, hc2]
    | succ n => simp [loop, hc, hc2]
  refine ⟨finish set (P.body (P.start lam x args)), by unfold solve; rw [hl]; rfl, ?_⟩
  rw [hb]
  have hm : ¬ ((1 : Nat) : Int) = set.maxIter := by omega
  unfold finish
  simp only [hm, if_false, start, if_true]
  exact ⟨trivial, trivial, trivial⟩

/-- C20. For a residual `L x - lambda F` and an affine constraint one iteration satisfies
equilibrium and constraint exactly. -/
theorem subsidiary_affine_one_step (P : SubsidiaryProblem K V A N) (hidbc : P.idbc = none)
    (hupd : ∀ x d, P.update x d = x + d) (L : V →ₗ[K] V) (F a : V) (b c : K)
    (hres : ∀ lam x, P.residual lam x = L x - lam • F)
    (hL : ∀ lam x v, L (P.linSolve (P.jacobian lam x) v) = v)
    (hadd : ∀ a x y, P.dot a (x + y) = P.dot a x + P.dot a y)
    (hsmul : ∀ a (c : K) x, P.dot a (c • x) = c * P.dot a x)
    (hsub : ∀ lam x (g : SubsidiaryArgs K V), P.subsidiary lam x g
      = (P.dot a g.DD + b * g.Dlambda - c, some a, some b))
    (lam : K) (x : V) (args : SubsidiaryArgs K V)
    (hden : P.dot a (P.linSolve (P.jacobian lam x) F) + b ≠ 0) :
    (P.body (P.start lam x args)).rx = 0 ∧ (P.body (P.start lam x args)).args.f = 0 := by
  have hF : F = -P.residual 1 0 - P.idbc.elim 0 fun i => i.1 lam x := by rw [hres, hidbc]; simp
  have h := subsidiary_step_solves_bordered P (P.start lam x args) L (fun v => hL lam x v) hadd
    hsmul a b (by simp [start, callSubsidiary, hsub]) (by simp [start, callSubsidiary, hsub]) F hF hden
  obtain ⟨d, l, ⟨e1, e2⟩, h1, h2, h3, h4, h5, h6, -⟩ := h
  have hx : (P.body (P.start lam x args)).x = x + d := by rw [h2 hidbc, hupd]; rfl
  have hl : (P.body (P.start lam x args)).lam = lam + l := h1
  constructor
  · rw [h5, hl, hx, hres, map_add, add_smul]
    have e1' : L d - l • F = -(L x - lam • F) := by
      have e1'' := e1
      simp only [start] at e1''
      rw [hres] at e1''
      exact e1''
    have : L x + L d - (lam • F + l • F) = (L x - lam • F) + (L d - l • F) := by abel
    rw [this, e1']
    abel
  · rw [h6, hsub]
    have e2' : P.dot a d + b * l = -(P.dot a args.DD + b * args.Dlambda - c) := by
      have e2'' := e2
      simp only [start, callSubsidiary, hsub] at e2''
      exact e2''
    show P.dot a (args.DD + d) + b * (args.Dlambda + l) - c = 0
    rw [hadd]
    linear_combination e2'

end

/-! A concrete path-following problem: `2 x = lambda`, constraint `x-increment = 1`. -/

section Example
open SubsidiaryProblem

/-- Example problem. -/
def exampleSub : SubsidiaryProblem ℚ ℚ ℚ ℚ :=
  { residual := fun lam x => 2 * x - lam, jacobian := fun _ _ => 2, linSolve := fun a b => b / a
    dot := fun a b => a * b, sqrt := id, gt := fun a b => decide (a > b)
    update := fun x d => x + d
    subsidiary := fun _ _ a => (a.DD + 0 * a.Dlambda - 1, some 1, some 0)
    idbc := none }

example : (exampleSub.solve ⟨1 / 10, 20⟩ 20 5 0 (SubsidiaryArgs.setZero)).map
    (fun s => ((s.lam, s.x, s.args.DD, s.args.Dlambda), s.iter, s.success, s.finite)) =
    some ((2, 1, 1, -3), 1, true, true) := by decide +kernel

example : (2 : ℚ) ≠ 0 ∧ exampleSub.dot 1 (exampleSub.linSolve (exampleSub.jacobian 5 0) 1) + 0 ≠ 0
    := by constructor <;> decide +kernel

end Example

end Ikarus
