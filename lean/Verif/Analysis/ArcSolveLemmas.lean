import Verif.Analysis.ArcLemmas

/-!
The iterations of the solver with arc length are Newton's method in the space of displacements and load factor.
-/

namespace Ikarus

open Ikarus.Element Ikarus.Element.Spec PathAnalysis Arc

variable {a : PathAnalysis} {û : Nat → ℝ}

/-! ### Increments -/

theorem IsIncrement.dot {b : Analysis} {c d C D : List ℝ} (hc : IsIncrement b c C) (hd : IsIncrement b d D) :
    dotSized c d = .ok (∑ i ∈ Finset.range b.dv.flags.length, C.getD i 0 * D.getD i 0) := by
  have hl : c.length = d.length := by rw [hc.width, hd.width]
  have h1 := (hc.add hd).2.sq
  have h2 : sqNorm (List.zipWith (· + ·) c d) = sqNorm c + 2 * (List.zipWith (· * ·) c d).sum + sqNorm d := by
    rw [sqNorm_getD, sqNorm_getD, sqNorm_getD, zipWith_sum_range _ c d c.length rfl hl.symm, ← hl, Finset.mul_sum,
      ← Finset.sum_add_distrib, ← Finset.sum_add_distrib]
    have : (List.zipWith (· + ·) c d).length = c.length := by simp [hl]
    rw [this]
    refine Finset.sum_congr rfl fun i hi => ?_
    rw [zipAdd_getD rfl hl.symm (Finset.mem_range.1 hi)]
    ring
  have h3 : ∑ i ∈ Finset.range b.dv.flags.length, (List.zipWith (· + ·) C D).getD i 0 * (List.zipWith (· + ·) C D).getD i 0 =
      sqNorm c + 2 * (∑ i ∈ Finset.range b.dv.flags.length, C.getD i 0 * D.getD i 0) + sqNorm d := by
    rw [hc.sq, hd.sq, Finset.mul_sum, ← Finset.sum_add_distrib, ← Finset.sum_add_distrib]
    refine Finset.sum_congr rfl fun i hi => ?_
    rw [zipAdd_getD hc.length hd.length (Finset.mem_range.1 hi)]
    ring
  rw [dotSized_ok hl]
  congr 1
  linarith

theorem IsIncrement.still {b : Analysis} {c C : List ℝ} (h : IsIncrement b c C) : Spec.Still b.dv.flags C := ⟨h.length, h.constrained⟩

/-- What an exact linear solver returns. -/
theorem solved_increment {b : Analysis} (h : Spec.Proper b û) {ls : DMat ℝ → List ℝ → List ℝ} {l : ℝ} {x : List ℝ}
    (hx : x.length = b.dv.flags.length) {A K : DMat ℝ} (hA : b.jacobian? ⟨l, some x⟩ = some A)
    (hK : (b.system l).rawMatrix? x = some K) (hans : Spec.Answers ls b.option b.dv.flags A) (hex : Spec.SolvesExactly ls A)
    {B : List ℝ} (hB : B.length = b.dv.flags.length) :
    ∃ C, IsIncrement b (ls A (view b.option b.dv.flags B)) C ∧
      ∀ i, Spec.Free b.dv.flags i → Spec.times K C i = B.getD i 0 := by
  obtain ⟨C, hC⟩ := Analysis.answers_increment h hx hA hans hB
  refine ⟨C, hC, fun i hi => ?_⟩
  let b' : Analysis := { b with linSolve := ls }
  have hnn : (B.map fun v => -v).map (fun v => -v) = B := by simp
  obtain ⟨x', c1, c2, v, c3, c4, c5⟩ := b'.correction_view (R := B.map fun v => -v) h.option hx (by simpa using hB) hK fun A' hA' => by
    have hA' : b.jacobian? ⟨l, some x⟩ = some A' := hA'
    obtain rfl : A = A' := Option.some.inj (hA.symm.trans hA')
    exact hex
  have hu : b.update ⟨l, some x⟩ (some (ls A (view b.option b.dv.flags B))) = ⟨l, some x'⟩ := by
    rw [← c1]
    have h1 : b'.jacobian? ⟨l, some x⟩ = some A := hA
    rw [h1]
    show _ = b.update _ (some (ls A ((view b.option b.dv.flags _).map fun v => -v)))
    rw [view_neg, hnn]
  rw [hC.update h.option l hx] at hu
  have hx' : List.zipWith (· + ·) x C = x' := Option.some.inj (congrArg Dom.x hu)
  have h5 := c5 i hi
  rw [map_getD _ (by simp), neg_neg] at h5
  rw [← h5, Analysis.times_eq K hC.length]
  refine Finset.sum_congr rfl fun j hj => ?_
  have := c4 j (Finset.mem_range.1 hj)
  rw [← hx', zipAdd_getD hx hC.length (Finset.mem_range.1 hj)] at this
  rw [add_left_cancel this]

/-! ### The states of the solver -/

/-- A state of the solver during a step of size `s` from `xp` and `lp`. -/
structure Arcs (a : PathAnalysis) (psi s lp : ℝ) (xp : List ℝ) (st : State) : Prop where
  sound : Sound a st
  still : Spec.Still a.dv.flags st.x
  stepSize : st.args.stepSize = s
  lam : st.lam = lp + st.args.Dlambda
  increment : ∃ D, IsIncrement a.toAnalysis st.args.DD D ∧ ∀ i < a.dv.flags.length, st.x.getD i 0 = xp.getD i 0 + D.getD i 0
  subsidiary : ∃ args, a.subsidiary (.arcLength psi true) st.lam st.x args = .ok st.args

/-- The point of a state. -/
noncomputable def at_ (a : PathAnalysis) (psi l : ℝ) (x : List ℝ) : Space a.dv.flags := pt a.dv.flags psi (x.getD · 0) l

variable {psi s lp : ℝ} {xp : List ℝ} {st : State}

theorem Arcs.step (h : Arcs a psi s lp xp st) : ∃ D, IsIncrement a.toAnalysis st.args.DD D ∧
    (∀ i < a.dv.flags.length, st.x.getD i 0 = xp.getD i 0 + D.getD i 0) ∧
    at_ a psi st.lam st.x - at_ a psi lp xp = pt a.dv.flags psi (D.getD · 0) st.args.Dlambda := by
  obtain ⟨D, h1, h2⟩ := h.increment
  refine ⟨D, h1, h2, ?_⟩
  unfold at_
  rw [pt_sub]
  refine pt_congr (fun i hi => ?_) (by rw [h.lam]; ring)
  rw [h2 i (free_lt hi)]
  ring

theorem unforced_increment (hf : a.withForce = false) (l : ℝ) (x : List ℝ) (dl : ℝ) :
    a.idbcIncrement l x dl = .ok (List.replicate x.length 0) := by
  unfold idbcIncrement
  rw [hf]
  rfl

theorem sqNorm_replicate (m : Nat) : sqNorm (List.replicate m 0) = 0 := by simp [sqNorm]

/-- The path following function, evaluated. -/
theorem Arcs.values (hf : a.withForce = false) (h : Arcs a psi s lp xp st) (N : ℝ) (hN : N = ‖at_ a psi st.lam st.x - at_ a psi lp xp‖) :
    st.args.f = N - s ∧ st.args.dfdDD = st.args.DD.map (fun d => d / N) ∧ st.args.dfdDlambda = psi ^ 2 * st.args.Dlambda / N ∧
      (N ≠ 0 → st.args.Dlambda ≠ 0 → st.args.finite = true) := by
  obtain ⟨D, h1, -, h3⟩ := h.step
  obtain ⟨args, hsub⟩ := h.subsidiary
  obtain ⟨k1, k2, k3, -⟩ := subsidiary_keeps hsub
  have hroot : Real.sqrt (sqNorm args.DD + sqNorm (List.replicate st.x.length 0) + psi * psi * args.Dlambda * args.Dlambda) = N := by
    rw [hN, Real.sqrt_eq_iff_mul_self_eq (by
      have := sqNorm_nonneg args.DD
      have := sqNorm_nonneg (List.replicate st.x.length (0 : ℝ))
      have : psi * psi * args.Dlambda * args.Dlambda = (psi * args.Dlambda) ^ 2 := by ring
      rw [this]
      positivity) (norm_nonneg _), ← pow_two ‖_‖, h3, norm_still h1.still, size_sq h1.length, sqNorm_replicate, ← k2, ← k3, h1.sq]
    simp only [pow_two]
    ring
  simp only [PathAnalysis.subsidiary, unforced_increment hf] at hsub
  simp only [Except.bind, Bool.true_eq_false, if_false, hroot] at hsub
  have hsub := Except.ok.inj hsub
  rw [← hsub] at k1 k2 k3 ⊢
  refine ⟨?_, rfl, ?_, fun hN' hD => ?_⟩
  · rw [← h.stepSize, ← hsub]
  · have : sqNorm ((List.replicate st.x.length (0 : ℝ)).map fun d => d / args.Dlambda) = 0 := by simp [sqNorm]
    simp only [this]
    ring
  · exact decide_eq_true ⟨hN', hD⟩

theorem loadColumn_eq (hopt : Spec.Proper a.toAnalysis û) (hf : a.withForce = false) {f : List ℝ}
    (hf1 : (a.system 1).rawVector? (List.replicate a.dv.flags.length 0) = some f) (l : ℝ) {x : List ℝ}
    (hx : x.length = a.dv.flags.length) : a.loadColumn l x = .ok (view a.option a.dv.flags (f.map fun b => -b)) := by
  unfold loadColumn
  rw [hx, evaluated_ok.2 (a.residual_view hopt.option hf1)]
  show (if a.withForce = true then _ else _) = _
  rw [hf, view_neg]
  rfl

/-- One iteration is one step of Newton's method. -/
theorem arc_iteration (h : Spec.Proper a.toAnalysis û) (hf : a.withForce = false) (hpsi : psi ≠ 0) {f : List ℝ}
    (hf1 : (a.system 1).rawVector? (List.replicate a.dv.flags.length 0) = some f) (hst : Arcs a psi s lp xp st)
    (hN : 0 < ‖at_ a psi st.lam st.x - at_ a psi lp xp‖) (hDl : st.args.Dlambda ≠ 0) (hex : Spec.SolvesExactly a.linSolve st.Ax)
    {c : ℝ} (hreg : ∀ w, ‖w‖ ^ 2 ≤ c * (‖tangent a.toAnalysis psi f (at_ a psi st.lam st.x) w‖ ^ 2 +
      (inner ℝ (at_ a psi st.lam st.x - at_ a psi lp xp) w / ‖at_ a psi st.lam st.x - at_ a psi lp xp‖) ^ 2)) :
    ∃ st' v, a.iteration (.arcLength psi true) st = .ok st' ∧ Arcs a psi s lp xp st' ∧ st'.iter = st.iter + 1 ∧
      at_ a psi st'.lam st'.x = at_ a psi st.lam st.x + v ∧
      tangent a.toAnalysis psi f (at_ a psi st.lam st.x) v = -forces a.toAnalysis psi (at_ a psi st.lam st.x) ∧
      inner ℝ (at_ a psi st.lam st.x - at_ a psi lp xp) v / ‖at_ a psi st.lam st.x - at_ a psi lp xp‖ =
        -(‖at_ a psi st.lam st.x - at_ a psi lp xp‖ - s) ∧
      st'.rNorm = merit (forces a.toAnalysis psi) (at_ a psi lp xp) s (at_ a psi st'.lam st'.x) := by
  obtain ⟨N, hNe⟩ : ∃ N, N = ‖at_ a psi st.lam st.x - at_ a psi lp xp‖ := ⟨_, rfl⟩
  obtain ⟨v1, v2, v3, v4⟩ := hst.values hf N hNe
  rw [← hNe] at hN hreg ⊢
  have hfin := v4 hN.ne' hDl
  obtain ⟨D, hD, hxD, hdiff⟩ := hst.step
  rw [hdiff] at hreg ⊢
  obtain ⟨-, r, K, -, hr, hrl, hK, -⟩ := Analysis.proper_system h st.lam hst.sound.length
  obtain ⟨r', g1, g2, g3⟩ := hst.sound.residual
  obtain rfl : r = r' := Option.some.inj (hr.symm.trans g1)
  have hfl : f.length = a.dv.flags.length := by
    obtain ⟨r1, -, e2, e3⟩ := residual_ok h 1 (x := List.replicate a.dv.flags.length 0) (by simp)
    obtain rfl : r1 = f := Option.some.inj (e3.symm.trans hf1)
    exact e2
  have hans := h.linSolve st.lam st.x hst.sound.length st.Ax hst.sound.jacobian
  obtain ⟨CR, hCR, kR⟩ := solved_increment h hst.sound.length hst.sound.jacobian hK hans hex (B := r.map fun b => -b) (by simp [hrl])
  obtain ⟨CL, hCL, kL⟩ := solved_increment h hst.sound.length hst.sound.jacobian hK hans hex (B := f.map fun b => -b) (by simp [hfl])
  have hdf := hD.smul N⁻¹
  simp only [← div_eq_mul_inv] at hdf
  rw [← v2] at hdf
  -- the denominator
  obtain ⟨cR, hcR⟩ : ∃ cR, cR = ∑ i ∈ Finset.range a.dv.flags.length, (D.map fun d => d / N).getD i 0 * CR.getD i 0 := ⟨_, rfl⟩
  obtain ⟨cL, hcL⟩ : ∃ cL, cL = ∑ i ∈ Finset.range a.dv.flags.length, (D.map fun d => d / N).getD i 0 * CL.getD i 0 := ⟨_, rfl⟩
  have hinner : ∀ (C : List ℝ) (m : ℝ), inner ℝ (pt a.dv.flags psi (D.getD · 0) st.args.Dlambda) (pt a.dv.flags psi (C.getD · 0) m) / N =
      (∑ i ∈ Finset.range a.dv.flags.length, (D.map fun d => d / N).getD i 0 * C.getD i 0) + st.args.dfdDlambda * m := by
    intro C m
    rw [pt_inner, still_sq hD.still (fun i v => v * C.getD i 0) (by simp), v3, add_div, Finset.sum_div]
    congr 1
    · refine Finset.sum_congr rfl fun i _ => ?_
      rw [map_getD _ (by simp)]
      ring
    · ring
  have hden : cL + st.args.dfdDlambda ≠ 0 := by
    intro h0
    have h1 := hreg (pt a.dv.flags psi (CL.getD · 0) 1)
    have h2 : tangent a.toAnalysis psi f (at_ a psi st.lam st.x) (pt a.dv.flags psi (CL.getD · 0) 1) = 0 := by
      unfold at_
      rw [tangent_pt hpsi hst.still hK hCL.still]
      ext i
      simp only [freeVec, vec]
      split
      · rw [kL _ ‹_›, map_getD _ (by simp)]
        simp
      · rfl
    rw [h2, hinner, ← hcL, mul_one, h0, norm_still hCL.still] at h1
    have : 0 < psi ^ 2 := by positivity
    norm_num at h1
    nlinarith [sq_nonneg (Spec.size CL)]
  obtain ⟨dl, hdl⟩ : ∃ dl, dl = (-st.args.f - cR) / (cL + st.args.dfdDlambda) := ⟨_, rfl⟩
  have hdl' : cR + dl * cL + st.args.dfdDlambda * dl = -st.args.f := by
    rw [hdl]
    field_simp
    ring
  -- the correction
  have hCL' := hCL.smul dl
  simp only [mul_comm _ dl] at hCL'
  obtain ⟨hs1, hs2⟩ := hCR.add hCL'
  obtain ⟨hs3, hs4⟩ := hD.add hs2
  generalize hVe : List.zipWith (· + ·) CR (CL.map fun d => dl * d) = V at hs2 hs4
  have hV : ∀ i < a.dv.flags.length, V.getD i 0 = CR.getD i 0 + dl * CL.getD i 0 := fun i hi => by
    rw [← hVe, zipAdd_getD hCR.length hCL'.length hi, map_getD _ (by simp)]
  let x : List ℝ := List.zipWith (· + ·) st.x V
  have hxl : x.length = a.dv.flags.length := by simp [x, hst.sound.length, hs2.length]
  have hxi : ∀ i < a.dv.flags.length, x.getD i 0 = st.x.getD i 0 + V.getD i 0 := fun i hi =>
    zipAdd_getD hst.sound.length hs2.length hi
  have hxs : Spec.Still a.dv.flags x := ⟨hxl, fun i hi hfr => by
    rw [hxi i hi, hst.still.2 i hi hfr, hs2.constrained i hi hfr, add_zero]⟩
  obtain ⟨rn, q1, q2, q3⟩ := residual_ok h (st.lam + dl) hxl
  obtain ⟨An, hAn, -, -⟩ := Analysis.jacobian_width h (st.lam + dl) hxl
  let args1 : PathArgs := { st.args with
    DD := List.zipWith (· + ·) st.args.DD (List.zipWith (· + ·) (a.linSolve st.Ax (view a.option a.dv.flags (r.map fun b => -b)))
      ((a.linSolve st.Ax (view a.option a.dv.flags (f.map fun b => -b))).map fun d => dl * d)), Dlambda := st.args.Dlambda + dl }
  obtain ⟨args2, hargs2⟩ : ∃ args2, a.subsidiary (.arcLength psi true) (st.lam + dl) x args1 = .ok args2 := by
    simp only [subsidiary, unforced_increment hf]
    exact ⟨_, rfl⟩
  obtain ⟨k1, k2, k3, k4⟩ := subsidiary_keeps hargs2
  let st' : State := ⟨st.lam + dl, x, view a.option a.dv.flags rn, An, args2,
    Real.sqrt (sqNorm (view a.option a.dv.flags rn) + args2.f * args2.f), st.iter + 1⟩
  have harcs : Arcs a psi s lp xp st' := by
    refine ⟨⟨hxl, ⟨rn, q3, q2, rfl⟩, hAn⟩, hxs, k1.trans hst.stepSize, ?_, ⟨List.zipWith (· + ·) D V, ?_, fun i hi => ?_⟩, ⟨args1, hargs2⟩⟩
    · show st.lam + dl = lp + args2.Dlambda
      rw [k3, hst.lam]
      show _ = lp + (st.args.Dlambda + dl)
      ring
    · show IsIncrement a.toAnalysis args2.DD _
      rw [k2]
      exact hs4
    · show x.getD i 0 = _
      rw [hxi i hi, hxD i hi, zipAdd_getD hD.length hs2.length hi]
      ring
  refine ⟨st', pt a.dv.flags psi (V.getD · 0) dl, ?_, harcs, rfl, ?_, ?_, ?_, ?_⟩
  · unfold iteration
    rw [loadColumn_eq h hf hf1 st.lam hst.sound.length]
    show (dotSized st.args.dfdDD (a.linSolve st.Ax (st.rx.map fun b => -b))).bind _ = _
    rw [g3, view_neg, hdf.dot hCR, ← hcR]
    show (dotSized st.args.dfdDD (a.linSolve st.Ax (view a.option a.dv.flags (f.map fun b => -b)))).bind _ = _
    rw [hdf.dot hCL, ← hcL]
    show (if st.args.finite then quotient (-st.args.f - cR) (cL + st.args.dfdDlambda) else _ : Except PathFault ℝ).bind _ = _
    rw [if_pos hfin, quotient, if_neg hden, ← hdl]
    show (addSized _ _).bind _ = _
    rw [hs1]
    show (evaluated (a.update ⟨st.lam, some st.x⟩ (some _)).x).bind _ = _
    rw [evaluated_ok.2 (congrArg Dom.x (hs2.update h.option st.lam hst.sound.length))]
    show (addSized st.args.DD _).bind _ = _
    rw [hs3]
    show (a.synchronised (st.lam + dl) x).bind _ = _
    rw [unforced_synchronised hf]
    show (evaluated (a.residual? ⟨st.lam + dl, some x⟩)).bind _ = _
    rw [evaluated_ok.2 q1]
    show (evaluated (a.jacobian? ⟨st.lam + dl, some x⟩)).bind _ = _
    rw [evaluated_ok.2 hAn]
    show (a.subsidiary (.arcLength psi true) (st.lam + dl) x args1).map _ = _
    rw [hargs2]
    rfl
  · show pt a.dv.flags psi (x.getD · 0) (st.lam + dl) = pt a.dv.flags psi (st.x.getD · 0) st.lam + _
    rw [pt_add]
    exact pt_congr (fun i hi => hxi i (free_lt hi)) rfl
  · unfold at_
    rw [tangent_pt hpsi hst.still hK hs2.still, forces_pt hpsi hst.still hr]
    have hn : -freeVec a.dv.flags (r.getD · 0) = freeVec a.dv.flags fun i => -r.getD i 0 := by
      ext i
      simp only [freeVec, vec, PiLp.neg_apply]
      split <;> simp
    rw [hn]
    refine freeVec_congr fun i hi => ?_
    have e1 := kR i hi
    have e2 := kL i hi
    rw [Analysis.times_eq K hCR.length, map_getD _ (by simp)] at e1
    rw [Analysis.times_eq K hCL.length, map_getD _ (by simp)] at e2
    rw [Analysis.times_eq K hs2.length]
    have e3 : ∑ j ∈ Finset.range a.dv.flags.length, K.val i j * V.getD j 0 =
        ∑ j ∈ Finset.range a.dv.flags.length, K.val i j * CR.getD j 0 +
        dl * ∑ j ∈ Finset.range a.dv.flags.length, K.val i j * CL.getD j 0 := by
      rw [Finset.mul_sum, ← Finset.sum_add_distrib]
      refine Finset.sum_congr rfl fun j hj => ?_
      rw [hV j (Finset.mem_range.1 hj)]
      ring
    rw [e3]
    have e1 : ∑ j ∈ Finset.range a.dv.flags.length, K.val i j * CR.getD j 0 = -r.getD i 0 := e1
    have e2 : ∑ j ∈ Finset.range a.dv.flags.length, K.val i j * CL.getD j 0 = -f.getD i 0 := e2
    rw [e1, e2]
    ring
  · rw [hinner, ← v1, ← hdl', hcR, hcL, Finset.mul_sum, ← Finset.sum_add_distrib]
    congr 1
    refine Finset.sum_congr rfl fun i hi => ?_
    rw [hV i (Finset.mem_range.1 hi)]
    ring
  · obtain ⟨w1, -, -, -⟩ := harcs.values hf _ rfl
    show Real.sqrt (sqNorm (view a.option a.dv.flags rn) + st'.args.f * st'.args.f) = _
    unfold merit
    rw [w1, sqNorm_view _ _ _ q2]
    have : forces a.toAnalysis psi (at_ a psi st'.lam st'.x) = freeVec a.dv.flags (rn.getD · 0) := forces_pt hpsi hxs q3
    rw [this, freeVec_norm, ← freeSize_sqrt, Real.sq_sqrt (show 0 ≤ freeSq _ _ from Finset.sum_nonneg fun i _ => mul_self_nonneg _)]
    congr 1
    ring

end Ikarus
