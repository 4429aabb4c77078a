import Verif.Analysis.PathProps
import Verif.Analysis.UnloadingProps
import Verif.Analysis.TrussSupportProps

/-!
C98, continued: arc length on linear structures, structures that meet all hypotheses, and what path following does not do.
-/

namespace Ikarus

open Ikarus.Element Ikarus.Element.Spec PathAnalysis

variable {a : PathAnalysis} {û : Nat → ℝ}

/-! ### Arc length -/

namespace PathAnalysis

theorem arc_start_ok (h : Spec.Proper a.toAnalysis û) {psi : ℝ} {b : Bool} {lam : ℝ} {x : List ℝ} {args : PathArgs}
    (hx : x.length = a.dv.flags.length) : ∃ s0, a.start (.arcLength psi b) lam x args = .ok s0 := by
  obtain ⟨r, g1, g2, -⟩ := residual_ok h lam hx
  obtain ⟨r', f1, f2, -⟩ := residual_ok h 1 (x := List.replicate x.length 0) (by simp [hx])
  obtain ⟨A, hA1, -, -⟩ := Analysis.jacobian_width h lam hx
  obtain ⟨δ, h1, -⟩ := idbcIncrement_ok h lam args.Dlambda hx
  unfold start
  rw [evaluated_ok.2 f1]
  show ∃ s0, (evaluated _).bind _ = _
  rw [evaluated_ok.2 g1]
  show ∃ s0, (evaluated _).bind _ = _
  rw [evaluated_ok.2 hA1]
  show ∃ s0, (a.subsidiary _ _ _ _).map _ = _
  simp only [subsidiary, h1]
  cases b
  · exact ⟨_, rfl⟩
  · exact ⟨_, rfl⟩

theorem load_start_ok (h : Spec.Proper a.toAnalysis û) (hf : a.withForce = false) {b : Bool} {lam : ℝ} {x : List ℝ}
    {args : PathArgs} (hx : x.length = a.dv.flags.length) : ∃ s0, a.start (.loadControl b) lam x args = .ok s0 := by
  obtain ⟨r, g1, g2, -⟩ := residual_ok h lam hx
  obtain ⟨r', f1, f2, -⟩ := residual_ok h 1 (x := List.replicate x.length 0) (by simp [hx])
  obtain ⟨A, hA1, -, -⟩ := Analysis.jacobian_width h lam hx
  unfold start
  rw [evaluated_ok.2 f1]
  show ∃ s0, (evaluated _).bind _ = _
  rw [evaluated_ok.2 g1]
  show ∃ s0, (evaluated _).bind _ = _
  rw [evaluated_ok.2 hA1]
  show ∃ s0, (a.subsidiary _ _ _ _).map _ = _
  simp only [subsidiary, hf, Bool.false_eq_true, if_false]
  exact ⟨_, rfl⟩

/-- A solve which starts in equilibrium does nothing. -/
theorem solve_idle (h : Spec.Proper a.toAnalysis û) (hmax : 0 < a.settings.maxIter) {p : PathStrategy} {lam : ℝ} {x : List ℝ}
    {args : PathArgs} {s0 : State} (hx : x.length = a.dv.flags.length) (hs0 : a.start p lam x args = .ok s0) {r : List ℝ}
    (hr : (a.system lam).rawVector? x = some r) (hn : Real.sqrt (freeSq a.dv.flags (r.getD · 0)) ≤ a.settings.tol) :
    ∃ s, a.solve p lam x args = .ok s ∧ s.success = true ∧ s.iterations = 0 := by
  obtain ⟨b1, b2, b3, b4, b5, -⟩ := start_ok h hx hs0
  obtain ⟨r', r1, r2, r3⟩ := b1.residual
  rw [b2, b3] at r1
  obtain rfl : r = r' := Option.some.inj (hr.symm.trans r1)
  have hle : s0.rNorm ≤ a.settings.tol := by rw [b5, r3, sqNorm_view _ _ _ r2]; exact hn
  have hsolve : a.solve p lam x args = .ok ⟨s0.lam, s0.x, s0.args, p, s0.iter,
      decide ((s0.iter : Int) ≠ a.settings.maxIter)⟩ := by
    unfold solve
    rw [hs0]
    show (a.iterations _ _ s0).map _ = _
    rw [idle_iterations _ hle]
    rfl
  refine ⟨_, hsolve, ?_, ?_⟩
  · exact decide_eq_true (by rw [b4]; push_cast; omega)
  · exact b4

/-- The state at load factor `m` times `c` on the straight path along `D`. -/
structure OnPath (a : PathAnalysis) (D : List ℝ) (c : ℝ) (m : Nat) (s : Shown) : Prop where
  length : s.x.length = a.dv.flags.length
  lam : s.lam = m * c
  x : ∀ i < a.dv.flags.length, s.x.getD i 0 = m * c * D.getD i 0
  idle : s.iterations = 0
  success : s.success = true

theorem unforced_synchronised (hf : a.withForce = false) (l : ℝ) (x : List ℝ) : a.synchronised l x = .ok x := by
  unfold synchronised
  rw [hf]
  rfl

variable {K : DMat ℝ} {e : ℝ → ℝ} {g : ℝ → Nat → ℝ}

/-- States on the straight path are in equilibrium. -/
theorem path_residual (hA : AffineSystem a.system a.dv.flags.length K e g)
    (hprop : ∀ l i, Spec.Free a.dv.flags i → g l i = l * g 1 i) {D : List ℝ}
    (hD : ∀ i, Spec.Free a.dv.flags i → ∑ j ∈ Finset.range a.dv.flags.length, K.val i j * D.getD j 0 = -g 1 i) {l : ℝ} {x : List ℝ}
    (hx : x.length = a.dv.flags.length) (hxi : ∀ i < a.dv.flags.length, x.getD i 0 = l * D.getD i 0) :
    ∃ r, (a.system l).rawVector? x = some r ∧ freeSq a.dv.flags (r.getD · 0) = 0 := by
  obtain ⟨r, r1, r2, r3⟩ := hA.vector l x hx
  refine ⟨r, r1, Analysis.freeSq_zero fun i hi => ?_⟩
  rw [r3 i (free_lt hi), hprop l i hi, Finset.sum_congr rfl fun j hj => by rw [hxi j (Finset.mem_range.1 hj), mul_left_comm],
    ← Finset.mul_sum, hD i hi]
  ring

theorem loop_arc (h : Spec.Proper a.toAnalysis û) (hA : AffineSystem a.system a.dv.flags.length K e g) (hf : a.withForce = false)
    (htol : 0 ≤ a.settings.tol) (hmax : 0 < a.settings.maxIter) (hadapt : ∀ k args, ∃ z, a.adapt k args = .ok z)
    (hprop : ∀ l i, Spec.Free a.dv.flags i → g l i = l * g 1 i) {D d : List ℝ} {c : ℝ}
    (hD : ∀ i, Spec.Free a.dv.flags i → ∑ j ∈ Finset.range a.dv.flags.length, K.val i j * D.getD j 0 = -g 1 i)
    (hd : IsIncrement a.toAnalysis d (D.map fun b => b * c)) {psi : ℝ} (n ls m : Nat) {prev : Shown} (hp : OnPath a D c m prev)
    (hstr : prev.strategy = .arcLength psi true) (hDD : prev.args.DD = d) (hDl : prev.args.Dlambda = c) :
    ∃ r, a.loop n ls prev = .ok r ∧ r.success = true ∧ r.shown.length = n ∧
      ∀ (k : Nat) (s : Shown), r.shown[k]? = some s → OnPath a D c (m + 1 + k) s := by
  induction n generalizing ls m prev with
  | zero => exact ⟨⟨[], true⟩, rfl, rfl, rfl, by simp⟩
  | succ n ih =>
    obtain ⟨z, hz⟩ := hadapt prev.iterations { prev.args with currentStep := ls }
    have hDl' : D.length = a.dv.flags.length := by simpa using hd.length
    have hup := congrArg Dom.x (hd.update h.option prev.lam hp.length)
    let y : List ℝ := List.zipWith (· + ·) prev.x (D.map fun b => b * c)
    have hyl : y.length = a.dv.flags.length := by simp [y, hp.length, hDl']
    have hyi : ∀ i < a.dv.flags.length, y.getD i 0 = (prev.lam + c) * D.getD i 0 := fun i hi => by
      rw [zipAdd_getD hp.length hd.length hi, hp.x i hi, map_getD _ (by simp), hp.lam]
      ring
    obtain ⟨r0, q1, q2⟩ := path_residual hA hprop hD hyl hyi
    let args' : PathArgs := { { prev.args with currentStep := ls } with stepSize := z }
    obtain ⟨s0, hs0⟩ := arc_start_ok h (psi := psi) (b := true) (lam := prev.lam + c) (args := args') hyl
    obtain ⟨s, s1, s2, s3⟩ := solve_idle h hmax hyl hs0 q1 (by rw [q2, Real.sqrt_zero]; exact htol)
    have hsol := solve_ok h hyl s1
    obtain ⟨i1, i2, i3, i4⟩ := hsol.idle s3
    have hps : OnPath a D c (m + 1) s := by
      refine ⟨hsol.length, by rw [i1, hp.lam]; push_cast; ring, fun i hi => ?_, s3, s2⟩
      rw [i2, hyi i hi, hp.lam]
      push_cast; ring
    obtain ⟨r, r1, r2, r3, r4⟩ := ih (ls + 1) (m + 1) hps hsol.strategy (i3.trans hDD) (i4.trans hDl)
    refine ⟨⟨s :: r.shown, r.success⟩, ?_, r2, by simp [r3], fun k t hk => ?_⟩
    · simp only [loop]
      rw [hz]
      show (a.intermediatePrediction prev.strategy _ _ args').bind _ = _
      rw [hstr]
      have hint : a.intermediatePrediction (.arcLength psi true) prev.lam prev.x args' = .ok ⟨prev.lam + c, y, args', .arcLength psi true⟩ := by
        simp only [intermediatePrediction, Bool.true_eq_false, if_false]
        have : args'.DD = d := hDD
        rw [this, evaluated_ok.2 hup]
        show (a.synchronised _ _).map _ = _
        rw [unforced_synchronised hf]
        have : args'.Dlambda = c := hDl
        rw [this]
        rfl
      rw [hint]
      show (a.solve _ _ _ _).bind _ = _
      rw [s1]
      show (if !s.success then _ else _) = _
      rw [s2]
      show (a.loop n (ls + 1) s).map _ = _
      rw [r1]
      rfl
    · cases k with
      | zero =>
        have : s = t := by simpa using hk
        subst this
        exact hps
      | succ k =>
        have := r4 k t (by simpa using hk)
        rwa [show m + 1 + (k + 1) = m + 1 + 1 + k by omega]

end PathAnalysis

/-- C98, arc length on linear structures. For a structure with linear elements, loads proportional to the load factor and no
prescribed displacements, Full or Reduced, with exact linear solvers, arc length started at the undeformed structure ends without
fault and with success.  With `u` the displacements at load factor one, the states shown are the multiples of `c` times
`u`, where `c` is the step size divided by `√2` times the length of `u`; no solve iterates, so that the step size
adaption has no effect at all. -/
theorem path_linear_arc (h : Spec.ProperPath a û) (hl : Spec.ProperLinear a.toAnalysis û) (hf : a.withForce = false)
    (hspd : ∀ l (x : List ℝ), x.length = a.dv.flags.length → ∀ A, a.jacobian? ⟨l, some x⟩ = some A → Spec.SolvesExactly a.spd A)
    (htol : 0 ≤ a.settings.tol) (hmax : 0 < a.settings.maxIter) (hsteps : 0 < a.steps) (hstep : a.stepSize ≠ 0)
    (hadapt : ∀ k args, ∃ z, a.adapt k args = .ok z) {f : List ℝ}
    (hf1 : (a.system 1).rawVector? (List.replicate a.dv.flags.length 0) = some f)
    (hprop : ∀ l f', (a.system l).rawVector? (List.replicate a.dv.flags.length 0) = some f' →
      ∀ i, Spec.Free a.dv.flags i → f'.getD i 0 = l * f.getD i 0)
    (hne : ∃ i, Spec.Free a.dv.flags i ∧ f.getD i 0 ≠ 0) (psi : ℝ) (b : Bool) :
    ∃ (r : Run) (u : List ℝ) (c : ℝ), a.run (.arcLength psi b) 0 (List.replicate a.dv.flags.length 0) = .ok r ∧
      r.success = true ∧ r.shown.length = a.steps + 1 ∧
      c * Real.sqrt (2 * ∑ i ∈ Finset.range a.dv.flags.length, u.getD i 0 ^ 2) = a.stepSize ∧
      (u.length = a.dv.flags.length ∧ (∀ i < a.dv.flags.length, ¬ Spec.Free a.dv.flags i → u.getD i 0 = 0) ∧
        ∃ R, (a.system 1).rawVector? u = some R ∧ ∀ i, Spec.Free a.dv.flags i → R.getD i 0 = 0) ∧
      ∀ (k : Nat) (s : Shown), r.shown[k]? = some s → s.lam = k * c ∧ s.x = u.map (fun v => k * c * v) ∧ s.iterations = 0 := by
  let N := a.dv.flags.length
  let x0 : List ℝ := List.replicate N 0
  have hx0 : x0.length = N := by simp [x0]
  have hx0i : ∀ i, x0.getD i 0 = 0 := fun i => by
    simp only [x0, List.getD_eq_getElem?_getD, List.getElem?_replicate]
    split <;> rfl
  obtain ⟨K, e, g, hA⟩ := linear_system a.dv.flags a.elems hl.elems
  have hA : AffineSystem a.system a.dv.flags.length K e g := hA
  have hg : ∀ l f', (a.system l).rawVector? x0 = some f' → f'.length = N ∧ ∀ i < N, f'.getD i 0 = g l i := by
    intro l f' hf'
    obtain ⟨r, r1, r2, r3⟩ := hA.vector l x0 hx0
    obtain rfl : f' = r := Option.some.inj (hf'.symm.trans r1)
    refine ⟨r2, fun i hi => ?_⟩
    rw [r3 i hi, Finset.sum_eq_zero fun j _ => by rw [hx0i, mul_zero], add_zero]
  obtain ⟨hfl, hfi⟩ := hg 1 f hf1
  have hprop' : ∀ l i, Spec.Free a.dv.flags i → g l i = l * g 1 i := by
    intro l i hi
    obtain ⟨r, r1, -, -⟩ := hA.vector l x0 hx0
    rw [← (hg l r r1).2 i (free_lt hi), hprop l r r1 i hi, hfi i (free_lt hi)]
  -- the direction of the prediction
  obtain ⟨A, hJ, -, -⟩ := Analysis.jacobian_width h.proper 1 hx0
  obtain ⟨D, hD⟩ := Analysis.answers_increment h.proper hx0 hJ (h.spd 1 x0 hx0 A hJ) (B := f.map fun b => -b) (by simp [hfl]; rfl)
  let a' : Analysis := { a.toAnalysis with linSolve := a.spd }
  obtain ⟨x', c1, c2, v, c3, c4, c5⟩ := a'.correction_view h.proper.option hx0 hfl (hA.matrix 1 x0 hx0) (hspd 1 x0 hx0)
  have hu : a.update ⟨1, some x0⟩ (some (a.spd A (view a.option a.dv.flags (f.map fun b => -b)))) = ⟨1, some x'⟩ := by
    rw [← view_neg, ← c1]
    have : a'.jacobian? ⟨1, some x0⟩ = some A := hJ
    rw [this]
    rfl
  rw [hD.update h.proper.option 1 hx0] at hu
  have hx' : List.zipWith (· + ·) x0 D = x' := Option.some.inj (congrArg Dom.x hu)
  have hDv : ∀ i, Spec.Free a.dv.flags i → ∑ j ∈ Finset.range a.dv.flags.length, K.val i j * D.getD j 0 = -g 1 i := by
    intro i hi
    have h5 := c5 i hi
    rw [hfi i (free_lt hi)] at h5
    rw [← h5]
    refine Finset.sum_congr rfl fun j hj => ?_
    have := c4 j (Finset.mem_range.1 hj)
    rw [← hx', zipAdd_getD hx0 hD.length (Finset.mem_range.1 hj)] at this
    rw [add_left_cancel this]
  have hDne : 0 < ∑ i ∈ Finset.range a.dv.flags.length, D.getD i 0 * D.getD i 0 := by
    obtain ⟨i, hi, hfne⟩ := hne
    by_contra hle
    have h0 : ∀ j ∈ Finset.range a.dv.flags.length, D.getD j 0 * D.getD j 0 = 0 :=
      (Finset.sum_eq_zero_iff_of_nonneg fun j _ => mul_self_nonneg _).1
        (le_antisymm (not_lt.1 hle) (Finset.sum_nonneg fun j _ => mul_self_nonneg _))
    have := hDv i hi
    rw [Finset.sum_eq_zero fun j hj => by rw [mul_self_eq_zero.1 (h0 j hj), mul_zero], ← hfi i (free_lt hi)] at this
    exact hfne (by linarith)
  let S := ∑ i ∈ Finset.range a.dv.flags.length, D.getD i 0 * D.getD i 0
  -- the first solve
  obtain ⟨r0, z1, z2⟩ := path_residual hA hprop' hDv (l := 0) hx0 fun i _ => by rw [hx0i, zero_mul]
  have hn0 : ∀ r : List ℝ, freeSq a.dv.flags (r.getD · 0) = 0 → Real.sqrt (freeSq a.dv.flags (r.getD · 0)) ≤ a.settings.tol :=
    fun r hr => by rw [hr, Real.sqrt_zero]; exact htol
  let args0 : PathArgs := { PathArgs.setZero N with stepSize := a.stepSize }
  obtain ⟨t0, ht0⟩ := arc_start_ok h.proper (psi := psi) (b := b) (lam := 0) (args := args0) hx0
  obtain ⟨s0, s1, s2, s3⟩ := solve_idle h.proper hmax hx0 ht0 z1 (hn0 _ z2)
  have hsol := solve_ok h.proper hx0 s1
  obtain ⟨i1, i2, i3, i4⟩ := hsol.idle s3
  -- the prediction
  let s := Real.sqrt (S + S)
  have hs : 0 < s := Real.sqrt_pos.2 (by show 0 < S + S; exact add_pos hDne hDne)
  let c := a.stepSize / s
  have hc : c ≠ 0 := div_ne_zero hstep hs.ne'
  have hD' := hD.smul c
  let y : List ℝ := List.zipWith (· + ·) x0 (D.map fun b => b * c)
  have hyl : y.length = N := by simp [y, hx0, hD.length]; rfl
  have hyi : ∀ i < N, y.getD i 0 = c * D.getD i 0 := fun i hi => by
    rw [zipAdd_getD hx0 hD'.length hi, hx0i, map_getD _ (by simp)]
    ring
  have hini : ∃ (psi' : ℝ) (args : PathArgs), a.initialPrediction (.arcLength psi b) s0.lam s0.x s0.args =
      .ok ⟨c, y, args, .arcLength psi' true⟩ ∧
      args.DD = (a.spd A (view a.option a.dv.flags (f.map fun b => -b))).map (fun b => b * c) ∧ args.Dlambda = c := by
    have hst : s0.args.stepSize = a.stepSize := hsol.stepSize
    rw [i1, i2]
    simp only [initialPrediction]
    have hidb : a.idbcIncrement 0 x0 1 = .ok (List.replicate x0.length 0) := by
      unfold idbcIncrement
      rw [hf]; rfl
    rw [hidb]
    show ∃ psi' args, (evaluated _).bind _ = _ ∧ _
    rw [evaluated_ok.2 (a.residual_view h.proper.option hf1)]
    show ∃ psi' args, (evaluated _).bind _ = _ ∧ _
    rw [evaluated_ok.2 hJ]
    show ∃ psi' args, (if a.withForce then _ else _ : Except PathFault (List ℝ)).bind _ = _ ∧ _
    rw [hf]
    show ∃ psi' args, (if _ = _ then _ else _) = _ ∧ _
    rw [view_neg]
    have hsq : sqNorm (a.spd A (view a.option a.dv.flags (f.map fun b => -b))) + sqNorm (List.replicate x0.length 0) = S := by
      rw [hD.sq]
      have : sqNorm (List.replicate x0.length 0) = 0 := by simp [sqNorm]
      rw [this, add_zero]
    have hroot : Real.sqrt (sqNorm (a.spd A (view a.option a.dv.flags (f.map fun b => -b))) + sqNorm (List.replicate x0.length 0) +
        Real.sqrt (sqNorm (a.spd A (view a.option a.dv.flags (f.map fun b => -b))) + sqNorm (List.replicate x0.length 0)) *
        Real.sqrt (sqNorm (a.spd A (view a.option a.dv.flags (f.map fun b => -b))) + sqNorm (List.replicate x0.length 0))) = s := by
      rw [hsq, Real.mul_self_sqrt hDne.le]
    rw [hroot, if_neg hs.ne', hst]
    have he : (fun d : ℝ => d * a.stepSize / s) = fun b => b * c := funext fun d => mul_div_assoc _ _ _
    simp only [he]
    rw [evaluated_ok.2 (congrArg Dom.x (hD'.update h.proper.option 1 hx0))]
    show ∃ psi' args, (a.synchronised _ _).bind _ = _ ∧ _
    rw [unforced_synchronised hf]
    show ∃ psi' args, (if c = 0 then _ else _) = _ ∧ _
    rw [if_neg hc]
    exact ⟨_, _, rfl, rfl, rfl⟩
  obtain ⟨psi', args, p1, p2, p3⟩ := hini
  -- the first step
  obtain ⟨r1, y1, y2⟩ := path_residual hA hprop' hDv (l := c) hyl hyi
  obtain ⟨t1, ht1⟩ := arc_start_ok h.proper (psi := psi') (b := true) (lam := c) (args := args) hyl
  obtain ⟨w, w1, w2, w3⟩ := solve_idle h.proper hmax hyl ht1 y1 (hn0 _ y2)
  have hwsol := solve_ok h.proper hyl w1
  obtain ⟨j1, j2, j3, j4⟩ := hwsol.idle w3
  have hw : OnPath a D c 1 w := by
    refine ⟨hwsol.length, by rw [j1]; push_cast; ring, fun i hi => ?_, w3, w2⟩
    rw [j2, hyi i hi]
    push_cast; ring
  obtain ⟨r, q1, q2, q3, q4⟩ := loop_arc h.proper hA hf htol hmax hadapt hprop' hDv hD' (a.steps - 1) 1 1 hw hwsol.strategy
    (j3.trans p2) (j4.trans p3)
  have hs0p : OnPath a D c 0 s0 := by
    refine ⟨hsol.length, by rw [i1]; push_cast; ring, fun i hi => ?_, s3, s2⟩
    rw [i2, hx0i]
    push_cast; ring
  have hall : ∀ (k : Nat) (t : Shown), (s0 :: w :: r.shown)[k]? = some t → OnPath a D c k t := by
    intro k t hk
    match k with
    | 0 => obtain rfl : s0 = t := by simpa using hk
           exact hs0p
    | 1 => obtain rfl : w = t := by simpa using hk
           exact hw
    | k + 2 =>
      have := q4 k t (by simpa using hk)
      rwa [show 1 + 1 + k = k + 2 by omega] at this
  have hDl : D.length = a.dv.flags.length := hD.length
  obtain ⟨R, R1, R2⟩ := path_residual hA hprop' hDv (l := 1) hDl fun i _ => (one_mul _).symm
  obtain ⟨R', R3, R4, -⟩ := hA.vector 1 D hDl
  obtain rfl : R = R' := Option.some.inj (R1.symm.trans R3)
  refine ⟨⟨s0 :: w :: r.shown, r.success⟩, D, c, ?_, q2, by simp [q3]; omega, ?_, ⟨hDl, hD.constrained, R, R1, fun i hi => ?_⟩,
    fun k t hk => ?_⟩
  · show a.run _ 0 x0 = _
    unfold run
    rw [if_neg (by omega), hx0, s1]
    show (if !s0.success then _ else _) = _
    rw [s2]
    show (a.initialPrediction s0.strategy _ _ _).bind _ = _
    rw [hsol.strategy, p1]
    show (a.solve _ _ _ _).bind _ = _
    rw [w1]
    show (if !w.success then _ else _) = _
    rw [w2]
    show (a.loop _ _ w).map _ = _
    rw [q1]
    rfl
  · have : (2 * ∑ i ∈ Finset.range a.dv.flags.length, D.getD i 0 ^ 2) = S + S := by
      rw [two_mul]
      simp only [pow_two]
      rfl
    rw [this]
    show a.stepSize / s * s = _
    exact div_mul_cancel₀ _ hs.ne'
  · have h0 := (Finset.sum_eq_zero_iff_of_nonneg fun j _ => mul_self_nonneg (R.getD j 0)).1 R2 i
      (Finset.mem_filter.2 ⟨Finset.mem_range.2 (free_lt hi), hi⟩)
    exact mul_self_eq_zero.1 h0
  · have hp := hall k t hk
    refine ⟨hp.lam, ?_, hp.idle⟩
    apply List.ext_getElem?
    intro i
    by_cases hi : i < a.dv.flags.length
    · rw [getElem?_eq_getD (hp.length ▸ hi), hp.x i hi, List.getElem?_map, getElem?_eq_getD (hDl ▸ hi)]
      rfl
    · rw [List.getElem?_eq_none (by rw [hp.length]; omega), List.getElem?_eq_none (by rw [List.length_map, hDl]; omega)]

end Ikarus
