import Verif.Analysis.TrustConvergenceProps
import Verif.Analysis.TrustExampleProps

/-!
C102: springs that meet the hypotheses, and stiff springs that show which of them the tolerance of the corrections needs.
-/

namespace Ikarus

noncomputable section

open Analysis

/-! ### Springs -/

theorem springs_stiffness (o : DBCOption) (c0 c1 : Bool) (fns : List (StoredFn ℝ)) {k0 k1 f0 f1 lam L : ℝ} (hl : 0 < lam)
    (hl1 : lam ≤ 1) (hL1 : 1 ≤ L) (h0 : lam ≤ k0 ∧ k0 ≤ L) (h1 : lam ≤ k1 ∧ k1 ≤ L) :
    Spec.StiffnessBounds (springs o c0 c1 fns k0 k1 f0 f1) lam L := by
  refine ⟨hl, hl1.trans hL1, fun _ => ⟨hl1, hL1⟩, fun l x v hx hv _ => ?_⟩
  have hx : x.length = 2 := hx
  have hv : v.length = 2 := hv
  obtain ⟨x0, x1, rfl⟩ := List.length_eq_two.1 hx
  obtain ⟨v0, v1, rfl⟩ := List.length_eq_two.1 hv
  refine ⟨_, _, _, springs_energy l (x0 + 1 * v0) (x1 + 1 * v1), springs_energy l (x0 + -1 * v0) (x1 + -1 * v1),
    springs_energy l x0 x1, ?_, ?_⟩
  · simp only [List.map_cons, List.map_nil, List.sum_cons, List.sum_nil]
    nlinarith [mul_nonneg (sub_nonneg.2 h0.1) (mul_self_nonneg v0), mul_nonneg (sub_nonneg.2 h1.1) (mul_self_nonneg v1)]
  · simp only [List.map_cons, List.map_nil, List.sum_cons, List.sum_nil]
    nlinarith [mul_nonneg (sub_nonneg.2 h0.2) (mul_self_nonneg v0), mul_nonneg (sub_nonneg.2 h1.2) (mul_self_nonneg v1)]

theorem freeSq_two (f : Nat → ℝ) : freeSq [true, false] f = f 1 ^ 2 := by
  unfold freeSq
  rw [Finset.sum_filter]
  simp [Finset.sum_range_succ, Spec.Free]
  ring

/-- The default settings with the diagonal preconditioner. -/
def diagonalTrust : TrustConfig 2 :=
  ⟨{}, diagonalPreconditioner, fun _ => 0, 1 / 10 ^ 12, 1 / 10 ^ 15, 1 / 10 ^ 100⟩

theorem diagonalTrust_sane : Spec.TRSane diagonalTrust.parameters :=
  ⟨by norm_num [diagonalTrust], by norm_num [diagonalTrust], by norm_num [diagonalTrust], by norm_num [diagonalTrust],
    fun _ h => (by simp [diagonalTrust] at h), rfl⟩

theorem diagonalTrust_tolerances : Spec.TRTolerances diagonalTrust.parameters diagonalTrust.tol diagonalTrust.tiny :=
  ⟨by norm_num [diagonalTrust], by norm_num [diagonalTrust], by norm_num [diagonalTrust], by norm_num [diagonalTrust]⟩

/-- Two springs, the first held. -/
def heldSprings : Analysis := springs .full true false [] 1 4 0 1

theorem heldSprings_suits : Spec.TrustSuits heldSprings diagonalTrust 1 4 (1 / 4) (1 / 1) where
  stiffness := springs_stiffness _ _ _ _ one_pos le_rfl (by norm_num) ⟨le_rfl, by norm_num⟩ ⟨by norm_num, le_rfl⟩
  precond := diagonal_bounds (a := heldSprings) (by simp [heldSprings, springs]) (springs_linear (by norm_num) (by norm_num))
    diagonalTrust rfl (springs_stiffness _ _ _ _ one_pos le_rfl (by norm_num) ⟨le_rfl, by norm_num⟩ ⟨by norm_num, le_rfl⟩)
  zeros := fun _ => diagonal_keepsZeros _
  sane := diagonalTrust_sane
  tolerances := diagonalTrust_tolerances
  time := rfl
  corr := by norm_num [diagonalTrust]

theorem heldSprings_tol : Spec.trustTol diagonalTrust.parameters (1 / 10) 4 = 1 / 10 ^ 6 := by
  unfold Spec.trustTol
  rw [max_eq_left]
  · rfl
  · norm_num [diagonalTrust]

theorem heldSprings_enough : Spec.EnoughIterations diagonalTrust.parameters (1 / 10) 1 4 (1 / 4) (1 / 1) 1 7 0 :=
  ⟨by norm_num, by norm_num [diagonalTrust], Or.inl ⟨rfl, by norm_num [diagonalTrust]⟩, by norm_num [diagonalTrust]⟩

/-- `trust_linear_solve`: one solve needs at most seven iterations. -/
example : ∃ w' y info, (heldSprings.trSolver diagonalTrust).solve freshMemory ⟨1, some [0, 0]⟩ 0 = (w', ⟨1, some y⟩, info) ∧
    info.success = true ∧ info.iterations ≤ 7 := by
  obtain ⟨w', y, info, h1, h2, -, h3, -⟩ := trust_linear_solve (a := heldSprings)
    (springs_proper (by simp) (by norm_num) (by norm_num)) (springs_linear (by norm_num) (by norm_num)) diagonalTrust
    heldSprings_suits freshMemory (by norm_num [freshMemory]) (by norm_num [freshMemory]) 1 0 (u := [0, 0]) rfl (G := 1)
    (fun r hr => by
      have := (springs_raw (o := .full) (c0 := true) (c1 := false) (fns := []) (k0 := 1) (k1 := 4) (f0 := 0) (f1 := 1)
        (by norm_num) (by norm_num) 1 0 0).1
      have hr : r = _ := Option.some.inj (hr.symm.trans this)
      rw [hr]
      show Real.sqrt (freeSq [true, false] _) ≤ 1
      rw [freeSq_two]
      norm_num)
    (by norm_num [diagonalTrust, freshMemory]) (J := 7) (bs := 0) heldSprings_enough
  exact ⟨w', y, info, h1, h2, h3⟩

/-- `trust_linear_load_control`: the load in four steps. -/
example : ∃ r : LCState ℝ (Option (List ℝ)) ℝ (TRMemory 2),
    heldSprings.trLoadControl? diagonalTrust 4 0 1 freshMemory ⟨0, some [7, 0]⟩ = some r ∧ r.info.success = true ∧
      r.info.solverInfos.length = 5 := by
  have hraw : ∀ l a b : ℝ, (heldSprings.system l).rawVector? [a, b] = some [1 * a - l * 0, 4 * b - l * 1] := fun l a b =>
    (springs_raw (o := .full) (c0 := true) (c1 := false) (fns := []) (k0 := 1) (k1 := 4) (f0 := 0) (f1 := 1)
        (by norm_num) (by norm_num) l a b).1
  obtain ⟨r, us, h1, h2, h3, -⟩ := trust_linear_load_control (a := heldSprings)
    (springs_proper (by simp) (by norm_num) (by norm_num)) (springs_linear (by norm_num) (by norm_num)) diagonalTrust
    heldSprings_suits freshMemory (by norm_num [freshMemory]) (by norm_num [freshMemory]) 4 (by norm_num) 0 1 0
    (x0 := [7, 0]) rfl (F := 1 / 4) (G := 1)
    (fun r hr => by
      have hr : r = _ := Option.some.inj (hr.symm.trans (hraw _ _ _))
      rw [hr]
      show Real.sqrt (freeSq [true, false] _) ≤ 1
      rw [freeSq_two]
      norm_num)
    (fun k _ u r r' hu hr hr' => by
      have hu : u.length = 2 := hu
      obtain ⟨a, b, rfl⟩ := List.length_eq_two.1 hu
      have hr : r = _ := Option.some.inj (hr.symm.trans (hraw _ _ _))
      have hr' : r' = _ := Option.some.inj (hr'.symm.trans (hraw _ _ _))
      have : (freeSq heldSprings.dv.flags fun i => r'.getD i 0 - r.getD i 0) = (1 / 4) ^ 2 := by
        rw [hr, hr']
        refine (freeSq_two _).trans ?_
        simp only [List.getD_cons_succ, List.getD_cons_zero]
        push_cast
        ring
      rw [this, Real.sqrt_sq (by norm_num)])
    (by
      have := heldSprings_tol
      show Spec.trustTol diagonalTrust.parameters (1 / 10) 4 + _ ≤ _
      rw [this]; norm_num)
    (by norm_num [diagonalTrust, freshMemory]) (J := 7) (bs := 0) heldSprings_enough
  exact ⟨r, h1, h2, h3⟩

/-! ### A radius that is small compared with the tolerance of the corrections -/

/-- What one expects of the tolerances of a successful solve of a linear structure, whatever the radius at the start. -/
def Spec.TrustAccurate : Prop :=
  ∀ a : Analysis, Spec.TrustProper a → Spec.LinearElems a.dv.flags.length a.elems → ∀ (c : TrustConfig a.trSize)
    (lam L mu nu : ℝ), Spec.StiffnessBounds a lam L → Spec.PrecondBounds a c mu nu → Spec.KeepsZeros a.dv.flags c.precond →
    Spec.TRSane c.parameters → Spec.TRTolerances c.parameters c.tol c.tiny → c.parameters.maxtime = none →
    ∀ w : TRMemory a.trSize, Spec.InnerDefaults w → ∀ (l stepSize : ℝ) (u : List ℝ), u.length = a.dv.flags.length →
    ∀ w' y info, (a.trSolver c).solve w ⟨l, some u⟩ stepSize = (w', ⟨l, some y⟩, info) → info.success = true →
    ∀ r, (a.system l).rawVector? y = some r →
      Real.sqrt (freeSq a.dv.flags (r.getD · 0)) ≤ Spec.trustTol c.parameters w.info.kappa L

/-- The first iteration of the conjugate gradients, if it ends at the boundary of the trust region. -/
theorem tcg_first_boundary {V : Type} [NormedAddCommGroup V] [InnerProductSpace ℝ V] (mat precond : V → V) (rhs : V) (n : Nat)
    (tol tiny : ℝ) (info : TCGInfo) (h0 : mat 0 = 0) (hr : tiny < ‖rhs‖)
    (ht : max (tol * tol * ‖rhs‖ * ‖rhs‖) tiny ≤ ‖rhs‖ * ‖rhs‖) (p : V) (hp : p = precond rhs) (q alpha : ℝ)
    (hq : q = Inner.inner ℝ rhs p) (ha : alpha = q / Inner.inner ℝ p (mat p))
    (hD : info.Delta * info.Delta ≤ alpha * alpha * q) :
    (tcg mat precond rhs 0 (n + 2) tol tiny info).1 = (Real.sqrt (q * (info.Delta * info.Delta)) / q) • p := by
  unfold tcg
  simp only [h0, sub_zero]
  rw [if_neg (not_le.2 hr), if_neg (not_lt.2 ht)]
  show (tcgLoop mat precond _ _ info (n + 1) _).x = _
  unfold tcgLoop tcgBody tcgStart
  simp only [h0, sub_zero, ← hp, ← hq]
  rw [← ha, if_pos]
  · simp
  · exact Or.inr (by simpa using hD)

/-- A very stiff spring with a large load. -/
def verySpring : Analysis := springs .full true false [] 1 (10 ^ 16) 0 (10 ^ 10)

theorem scaleTwo_entry (s t : ℝ) : TRVec.entry (scaleTwo s t) 0 0 = s ∧ TRVec.entry (scaleTwo s t) 1 1 = t := by
  constructor <;> simp [TRVec.entry, scaleTwo]

theorem diagonal_two {s t : ℝ} (hs : s ≠ 0) (ht : t ≠ 0) (p q : ℝ) :
    diagonalPreconditioner (scaleTwo s t) !₂[p, q] = !₂[1 / s * p, 1 / t * q] := by
  obtain ⟨h1, h2⟩ := scaleTwo_entry s t
  ext i
  fin_cases i
  · show (if TRVec.entry (scaleTwo s t) 0 0 = 0 then 1 else 1 / TRVec.entry (scaleTwo s t) 0 0) * p = _
    rw [h1, if_neg hs]; rfl
  · show (if TRVec.entry (scaleTwo s t) 1 1 = 0 then 1 else 1 / TRVec.entry (scaleTwo s t) 1 1) * q = _
    rw [h2, if_neg ht]; rfl

theorem verySpring_correction (w : TCGInfo × Nat) (st : TCGStopReason) (eta : TRVec 2) :
    let P : TRProblem (Dom ℝ (Option (List ℝ))) (TRVec 2) (TCGInfo × Nat) := verySpring.trProblem diagonalTrust
    (trCorrection P diagonalTrust.parameters (trStart P diagonalTrust.parameters w st ⟨1, some [0, 0]⟩ eta)).2.1 =
      !₂[0, 1 / 10 ^ 7] := by
  intro P
  obtain ⟨p1, p2, p3, p4⟩ := springs_problem (c0 := true) (c1 := false) (fns := []) (k0 := 1) (k1 := 10 ^ 16) (f0 := 0)
    (f1 := 10 ^ 10) (by norm_num) (by norm_num) diagonalTrust 1 0 0
  have p1 : P.grad ⟨1, some [0, 0]⟩ = !₂[0, -10 ^ 10] := by
    refine p1.trans ?_
    norm_num
  have p2 : P.hess ⟨1, some [0, 0]⟩ = scaleTwo 1 (10 ^ 16) := by
    refine p2.trans ?_
    norm_num
  have hinner : (P.inner w 10 !₂[0, -10 ^ 10] (scaleTwo 1 (10 ^ 16)) 0).2.1 = !₂[0, 1 / 10 ^ 7] := by
    show (tcg (TRVec.transposed (scaleTwo 1 (10 ^ 16))) (diagonalPreconditioner (scaleTwo 1 (10 ^ 16))) (-!₂[0, -10 ^ 10]) 0
      (2 + 2) (1 / 10 ^ 15) (1 / 10 ^ 100) { w.1 with Delta := 10 }).1 = _
    rw [scaleTwo_transposed, two_neg, neg_neg, neg_zero]
    have hn : ‖(!₂[0, 10 ^ 10] : TRVec 2)‖ = 10 ^ 10 := by
      rw [two_norm, show (0 : ℝ) ^ 2 + (10 ^ 10) ^ 2 = (10 ^ 10) ^ 2 by norm_num, Real.sqrt_sq (by norm_num)]
    rw [tcg_first_boundary (scaleTwo 1 (10 ^ 16)) _ !₂[0, 10 ^ 10] 2 _ _ { w.1 with Delta := 10 }
      (p := !₂[0, 1 / 10 ^ 6]) (q := 10 ^ 4) (alpha := 1)]
    · rw [show (10 : ℝ) ^ 4 * (10 * 10) = (10 ^ 3) ^ 2 by norm_num, Real.sqrt_sq (by norm_num), two_smul']
      norm_num
    · rw [two_zero, scaleTwo_apply]; norm_num
    · rw [hn]; norm_num
    · rw [hn]; norm_num
    · rw [diagonal_two (by norm_num) (by norm_num)]; norm_num
    · rw [two_inner]; norm_num
    · rw [scaleTwo_apply, two_inner]; norm_num
    · show (10 : ℝ) * 10 ≤ _
      norm_num
  unfold trCorrection
  simp only
  have hcond : ¬ (diagonalTrust.parameters.useRand = true ∧
      (trStart P diagonalTrust.parameters w st ⟨1, some [0, 0]⟩ eta).outerIter = 0) := fun hh => by cases hh.1
  rw [if_neg hcond, if_neg hcond]
  show (P.inner w 10 (P.grad ⟨1, some [0, 0]⟩) (P.hess ⟨1, some [0, 0]⟩) 0).2.1 = _
  rw [p1, p2, hinner]

/-- C102, refuted without the condition on the radius: with the default settings and the diagonal preconditioner, the first
step of a very stiff spring ends at the boundary of the trust region, is shorter than the tolerance of the corrections, and the
method reports success with a residual of eight times what the tolerance accounts for. -/
theorem trust_boundary_success : ¬ Spec.TrustAccurate := by
  intro h
  let P : TRProblem (Dom ℝ (Option (List ℝ))) (TRVec 2) (TCGInfo × Nat) := verySpring.trProblem diagonalTrust
  have hp : Spec.TrustProper verySpring := springs_proper (by simp) (by norm_num) (by norm_num)
  have hb : Spec.StiffnessBounds verySpring 1 (10 ^ 16) :=
    springs_stiffness _ _ _ _ one_pos le_rfl (by norm_num) ⟨le_rfl, by norm_num⟩ ⟨by norm_num, le_rfl⟩
  have hl : Spec.LinearElems verySpring.dv.flags.length verySpring.elems := springs_linear (by norm_num) (by norm_num)
  let s0 := trStart P diagonalTrust.parameters (freshMemory.info, 0) freshMemory.info.stop ⟨1, some [0, 0]⟩ 0
  have hc : (trCorrection P diagonalTrust.parameters s0).2.1 = !₂[0, 1 / 10 ^ 7] :=
    verySpring_correction (freshMemory.info, 0) freshMemory.info.stop 0
  obtain ⟨-, -, -, -, -, f6, -⟩ := trBody_facts P diagonalTrust.parameters diagonalTrust.cmpTol s0
  have hpr : ∀ u v : ℝ, ∀ p q : ℝ, P.update ⟨1, some [u, v]⟩ !₂[p, q] = ⟨1, some [u + p, v + q]⟩ := fun u v =>
    (springs_problem (c0 := true) (c1 := false) (fns := []) (k0 := 1) (k1 := 10 ^ 16) (f0 := 0)
    (f1 := 10 ^ 10) (by norm_num) (by norm_num) diagonalTrust 1 u v).2.2.2
  have hx : ∃ u v : ℝ, (trBody P diagonalTrust.parameters diagonalTrust.cmpTol s0).x = ⟨1, some [u, v]⟩ ∧
      v ≤ 1 / 10 ^ 7 := by
    rw [hc, two_neg, show s0.x = ⟨1, some [0, 0]⟩ from rfl, hpr, hpr] at f6
    split at f6
    · exact ⟨_, _, f6, by norm_num⟩
    · exact ⟨_, _, f6, by norm_num⟩
  obtain ⟨u, v, hx, hv⟩ := hx
  have hg : ‖(trCorrection P diagonalTrust.parameters s0).2.1‖ < diagonalTrust.parameters.corr_tol := by
    rw [hc, two_norm]
    show _ < (1 : ℝ) / 10 ^ 6
    rw [Real.sqrt_lt' (by norm_num)]
    norm_num
  obtain ⟨s, g1, g2, g3, g4, -⟩ := tr_first_ends P diagonalTrust.parameters diagonalTrust.cmpTol 999
    (freshMemory.info, 0) freshMemory.info.stop ⟨1, some [0, 0]⟩ 0 (by norm_num [diagonalTrust]) rfl (Or.inr hg)
  have hsolve : (verySpring.trSolver diagonalTrust).solve freshMemory ⟨1, some [0, 0]⟩ 0 =
      (⟨s.inner.1, s.inner.2, s.eta⟩, s.x, s.info) := by
    exact trSolver_of (a := verySpring) g1
  rw [g2, hx] at hsolve
  have r1' := (springs_raw (o := .full) (c0 := true) (c1 := false) (fns := []) (k0 := 1) (k1 := 10 ^ 16) (f0 := 0)
    (f1 := 10 ^ 10) (by norm_num) (by norm_num) 1 u v).1
  have hle := h verySpring hp hl diagonalTrust 1 (10 ^ 16) _ _ hb
    (diagonal_bounds (a := verySpring) (by simp [verySpring, springs]) hl diagonalTrust rfl hb)
    (diagonal_keepsZeros _) diagonalTrust_sane diagonalTrust_tolerances rfl freshMemory ⟨rfl, rfl⟩ 1 0 [0, 0] rfl _ _ _
    hsolve g3 _ r1'
  have ht : Spec.trustTol diagonalTrust.parameters freshMemory.info.kappa (10 ^ 16) ≤ 2 * 10 ^ 9 := by
    refine max_le ?_ ?_
    · norm_num [diagonalTrust]
    · norm_num [diagonalTrust, freshMemory]
  have hsq : freeSq verySpring.dv.flags (List.getD [1 * u - 1 * 0, 10 ^ 16 * v - 1 * 10 ^ 10] · 0) =
      (10 ^ 16 * v - 10 ^ 10) ^ 2 := by
    refine (freeSq_two _).trans ?_
    simp only [List.getD_cons_succ, List.getD_cons_zero]
    ring
  rw [hsq, Real.sqrt_sq_eq_abs, abs_of_nonpos (by nlinarith)] at hle
  nlinarith

end

end Ikarus
