import Verif.Analysis.PathRunLemmas

/-!
Lemmas on path following of complete structures: which faults can end a run, and that load control of linear structures ends
without fault.
-/

namespace Ikarus

open Ikarus.Element Ikarus.Element.Spec

/-- No sizes clash, and nothing is undefined. -/
def Mild {α : Type} (x : Except PathFault α) : Prop := ∀ e, x = .error e → e ≠ .size ∧ e ≠ .undefined

theorem Mild.ok {α : Type} (b : α) : Mild (.ok b : Except PathFault α) := by
  intro e h; cases h

theorem Mild.of_ok {α : Type} {x : Except PathFault α} {b : α} (h : x = .ok b) : Mild x := h ▸ Mild.ok b

theorem Mild.bind {α β : Type} {x : Except PathFault α} {f : α → Except PathFault β} (hx : Mild x)
    (hf : ∀ c, x = .ok c → Mild (f c)) : Mild (x.bind f) := by
  intro e he
  rcases bind_error.1 he with h | ⟨c, hc, h⟩
  · exact hx e h
  · exact hf c hc e h

theorem Mild.map {α β : Type} {x : Except PathFault α} {f : α → β} (hx : Mild x) : Mild (x.map f) :=
  fun e he => hx e (map_error.1 he)

theorem Mild.rejected {α : Type} : Mild (.error .rejected : Except PathFault α) := by
  intro e h; cases h; simp

theorem Mild.exception {α : Type} : Mild (.error .exception : Except PathFault α) := by
  intro e h; cases h; simp

theorem Mild.notFinite {α : Type} : Mild (.error .notFinite : Except PathFault α) := by
  intro e h; cases h; simp

theorem quotient_mild (b c : ℝ) : Mild (quotient b c) := by
  unfold quotient
  split
  · exact Mild.notFinite
  · exact Mild.ok _

theorem dotSized_ok {u v : List ℝ} (h : u.length = v.length) : dotSized u v = .ok (List.zipWith (· * ·) u v).sum := if_pos h

theorem dotSized_zero {u v : List ℝ} (h : u.length = v.length) (h0 : ∀ b ∈ u, b = 0) : dotSized u v = .ok 0 := by
  rw [dotSized_ok h]
  congr 1
  induction u generalizing v with
  | nil => simp
  | cons b u ih =>
    cases v with
    | nil => simp
    | cons c v =>
      rw [List.zipWith_cons_cons, List.sum_cons, h0 b (by simp), zero_mul, zero_add]
      exact ih (by simpa using h) fun b hb => h0 b (by simp [hb])

namespace PathAnalysis

open Analysis (synced)

variable {a : PathAnalysis} {û : Nat → ℝ}

theorem inRange_ok {cs : List Nat} {v : List ℝ} (h : ∀ i ∈ cs, i < v.length) : inRange cs v = .ok () := by
  unfold inRange
  rw [if_pos]
  simpa using h

/-- The controlled dofs are entries of vectors of size `n`. -/
def Within (p : PathStrategy) (n : Nat) : Prop :=
  match p with
  | .displacementControl cs _ => ∀ i ∈ cs, i < n
  | _ => True

theorem subsidiary_mild (h : Spec.Proper a.toAnalysis û) {p : PathStrategy} {l : ℝ} {x : List ℝ} {args : PathArgs}
    (hx : x.length = a.dv.flags.length) (hDD : Within p args.DD.length) (hdf : Within p args.dfdDD.length) :
    Mild (a.subsidiary p l x args) := by
  cases p with
  | arcLength psi predicted =>
    obtain ⟨δ, h1, -⟩ := idbcIncrement_ok h l args.Dlambda hx
    unfold subsidiary
    refine Mild.bind (Mild.of_ok h1) fun c _ => ?_
    simp only
    split
    · exact Mild.ok _
    · exact Mild.ok _
  | loadControl predicted =>
    simp only [subsidiary]
    split
    · exact Mild.rejected
    · exact Mild.ok _
  | displacementControl cs predicted =>
    simp only [subsidiary]
    split
    · exact Mild.rejected
    · refine Mild.bind (Mild.of_ok (inRange_ok hDD)) fun c _ => Mild.map (Mild.of_ok (inRange_ok ?_))
      intro i hi
      simpa using hdf i hi

theorem iteration_mild (h : Spec.Proper a.toAnalysis û) {p : PathStrategy} {s : State} (hs : Sound a s)
    (hDD : s.args.DD.length = a.width) (hdf : s.args.dfdDD.length = a.width) (hp : Within p a.width) :
    Mild (a.iteration p s) := by
  obtain ⟨B, CR, CL, h1, h2, h3⟩ := corrections h hs
  unfold iteration
  refine Mild.bind (Mild.of_ok h1) fun load hload => ?_
  rw [h1] at hload
  cases hload
  refine Mild.bind (Mild.of_ok (dotSized_ok (hdf.trans h2.width.symm))) fun cR _ => ?_
  refine Mild.bind (Mild.of_ok (dotSized_ok (hdf.trans h3.width.symm))) fun cL _ => ?_
  refine Mild.bind ?_ fun dl _ => ?_
  · split
    · exact quotient_mild _ _
    · exact Mild.notFinite
  have h3' := h3.smul dl
  simp only [mul_comm _ dl] at h3'
  obtain ⟨h4, h5⟩ := h2.add h3'
  refine Mild.bind (Mild.of_ok h4) fun deltaD hdD => ?_
  rw [h4] at hdD
  obtain rfl := Except.ok.inj hdD
  have hup := congrArg Dom.x (h5.update h.option s.lam hs.length)
  refine Mild.bind (Mild.of_ok (evaluated_ok.2 hup)) fun x hx => ?_
  rw [hup] at hx
  have hx := (Option.some.inj (evaluated_ok.1 hx)).symm
  have hxl : x.length = a.dv.flags.length := by rw [hx]; simp [hs.length, h5.length]
  refine Mild.bind (Mild.of_ok (addSized_ok.2 ⟨hDD.trans h5.width.symm, rfl⟩)) fun DD hDD' => ?_
  obtain ⟨-, hDD'⟩ := addSized_ok.1 hDD'
  have hDDl : DD.length = a.width := by
    rw [← hDD', List.length_zipWith, hDD, h5.width, min_self]
  obtain ⟨y, hy1, hy2, -⟩ := synchronised_ok h (s.lam + dl) hxl
  refine Mild.bind (Mild.of_ok hy1) fun y' hy => ?_
  rw [hy1] at hy
  obtain rfl := Except.ok.inj hy
  obtain ⟨r, hr1, -, -⟩ := residual_ok h (s.lam + dl) hy2
  refine Mild.bind (Mild.of_ok (evaluated_ok.2 hr1)) fun rx _ => ?_
  obtain ⟨A, hA1, -, -⟩ := Analysis.jacobian_width h (s.lam + dl) hy2
  refine Mild.bind (Mild.of_ok (evaluated_ok.2 hA1)) fun Ax _ => ?_
  refine Mild.map (subsidiary_mild h hy2 ?_ ?_)
  · show Within p DD.length
    rw [hDDl]; exact hp
  · show Within p s.args.dfdDD.length
    rw [hdf]; exact hp

theorem iterates_widths {p : PathStrategy} {s s' : State} (hi : Iterates a û p s s')
    (hargs : ∃ args, a.subsidiary p s'.lam s'.x args = .ok s'.args ∧ args.dfdDD.length = a.width) :
    s'.args.DD.length = a.width ∧ s'.args.dfdDD.length = a.width := by
  obtain ⟨c, C, dl, h1, h2, -⟩ := hi.increment
  have hDD : s'.args.DD.length = a.width := by
    rw [h2, List.length_zipWith, hi.widthDD, h1.width, min_self]
  refine ⟨hDD, ?_⟩
  obtain ⟨args, g1, g2⟩ := hargs
  have k := subsidiary_keeps g1
  rw [subsidiary_size g1]
  split
  · rw [← k.2.1, hDD]
  · exact g2

theorem iteration_args {p : PathStrategy} {s s' : State} (hit : a.iteration p s = .ok s') :
    ∃ args, a.subsidiary p s'.lam s'.x args = .ok s'.args ∧ args.dfdDD = s.args.dfdDD := by
  unfold iteration at hit
  obtain ⟨load, hload, hit⟩ := bind_ok.1 hit
  obtain ⟨cR, hR, hit⟩ := bind_ok.1 hit
  obtain ⟨cL, hL, hit⟩ := bind_ok.1 hit
  obtain ⟨dl, hq, hit⟩ := bind_ok.1 hit
  obtain ⟨deltaD, hD, hit⟩ := bind_ok.1 hit
  obtain ⟨x, hx, hit⟩ := bind_ok.1 hit
  obtain ⟨DD, hDD, hit⟩ := bind_ok.1 hit
  obtain ⟨y, hy, hit⟩ := bind_ok.1 hit
  obtain ⟨rx, hrx, hit⟩ := bind_ok.1 hit
  obtain ⟨Ax, hAx, hit⟩ := bind_ok.1 hit
  obtain ⟨args, hargs, hit⟩ := map_ok.1 hit
  subst hit
  exact ⟨_, hargs, rfl⟩

theorem iterations_mild (h : Spec.Proper a.toAnalysis û) {p : PathStrategy} (n : Nat) {s : State} (hs : Sound a s)
    (hDD : s.args.DD.length = a.width) (hdf : s.args.dfdDD.length = a.width) (hp : Within p a.width) :
    Mild (a.iterations p n s) := by
  induction n generalizing s with
  | zero => exact Mild.ok _
  | succ n ih =>
    simp only [iterations]
    split
    · refine Mild.bind (iteration_mild h hs hDD hdf hp) fun t ht => ?_
      have hi := iteration_ok h hs ht
      obtain ⟨args, g1, g2⟩ := iteration_args ht
      obtain ⟨w1, w2⟩ := iterates_widths hi ⟨args, g1, by rw [g2, hdf]⟩
      exact ih hi.sound w1 w2
    · exact Mild.ok _

theorem start_mild (h : Spec.Proper a.toAnalysis û) {p : PathStrategy} {lam : ℝ} {x : List ℝ} {args : PathArgs}
    (hx : x.length = a.dv.flags.length) (hDD : Within p args.DD.length) (hp : Within p a.width) :
    Mild (a.start p lam x args) := by
  obtain ⟨r, g1, g2, -⟩ := residual_ok h lam hx
  obtain ⟨r', f1, f2, -⟩ := residual_ok h 1 (x := List.replicate x.length 0) (by simp [hx])
  obtain ⟨A, hA1, -, -⟩ := Analysis.jacobian_width h lam hx
  unfold start
  refine Mild.bind (Mild.of_ok (evaluated_ok.2 f1)) fun r0 hr0 => ?_
  rw [f1] at hr0
  have hr0 := (Except.ok.inj hr0).symm
  refine Mild.bind (Mild.of_ok (evaluated_ok.2 g1)) fun rx _ => ?_
  refine Mild.bind (Mild.of_ok (evaluated_ok.2 hA1)) fun Ax _ => ?_
  refine Mild.map (subsidiary_mild h hx hDD ?_)
  have hw : r0.length = a.width := by rw [hr0, view_length f2]; rfl
  have : (if args.dfdDD.length = r0.length then args.dfdDD else List.replicate r0.length 0).length = a.width := by
    split
    · omega
    · simp [hw]
  show Within p (if args.dfdDD.length = r0.length then args.dfdDD else List.replicate r0.length 0).length
  rw [this]; exact hp

theorem start_widths (h : Spec.Proper a.toAnalysis û) {p : PathStrategy} {lam : ℝ} {x : List ℝ} {args : PathArgs} {s : State}
    (hx : x.length = a.dv.flags.length) (hDD : args.DD.length = a.width) (hs : a.start p lam x args = .ok s) :
    s.args.DD.length = a.width ∧ s.args.dfdDD.length = a.width := by
  obtain ⟨-, -, -, -, -, ⟨args', g1, g2, g3⟩, g4, -, -⟩ := start_ok h hx hs
  refine ⟨by rw [g4, hDD], ?_⟩
  rw [subsidiary_size g1]
  split
  · rw [g2, hDD]
  · exact g3

theorem solve_mild (h : Spec.Proper a.toAnalysis û) {p : PathStrategy} {lam : ℝ} {x : List ℝ} {args : PathArgs}
    (hx : x.length = a.dv.flags.length) (hDD : args.DD.length = a.width) (hp : Within p a.width) :
    Mild (a.solve p lam x args) := by
  unfold solve
  refine Mild.bind (start_mild h hx (by rw [hDD]; exact hp) hp) fun s hs => Mild.map ?_
  obtain ⟨w1, w2⟩ := start_widths h hx hDD hs
  exact iterations_mild h _ (start_ok h hx hs).1 w1 w2 hp

theorem solves_width {p : PathStrategy} {lam : ℝ} {x : List ℝ} {args : PathArgs} {s : Shown}
    (hs : Solves a û p lam x args s) : s.args.DD.length = args.DD.length ∨ s.args.DD.length = a.width := by
  refine hs.invariant (fun _ _ DD _ => DD.length = args.DD.length ∨ DD.length = a.width) (.inl rfl) ?_
  intro lam x DD Dl c C dl y _ h1 h2 _ _
  right
  rw [List.length_zipWith, h1, h2.width, min_self]

/-- Arc length without prediction cannot iterate. -/
theorem fresh_iteration (h : Spec.Proper a.toAnalysis û) {psi : ℝ} {s : State} (hs : Sound a s)
    (hdf : s.args.dfdDD.length = a.width) (h0 : ∀ b ∈ s.args.dfdDD, b = 0) (hl : s.args.dfdDlambda = 0) :
    a.iteration (.arcLength psi false) s = .error .notFinite := by
  obtain ⟨B, CR, CL, h1, h2, h3⟩ := corrections h hs
  unfold iteration
  rw [h1]
  show (dotSized _ _).bind _ = _
  rw [dotSized_zero (hdf.trans h2.width.symm) h0]
  show (dotSized _ _).bind _ = _
  rw [dotSized_zero (hdf.trans h3.width.symm) h0, hl]
  show (if _ then quotient _ (0 + 0) else _).bind _ = _
  rw [add_zero]
  unfold quotient
  rw [if_pos rfl]
  split <;> rfl

theorem fresh_solve (h : Spec.Proper a.toAnalysis û) {psi : ℝ} {lam : ℝ} {x : List ℝ} {args : PathArgs}
    (hx : x.length = a.dv.flags.length) :
    Mild (a.solve (.arcLength psi false) lam x args) ∧ ∀ s, a.solve (.arcLength psi false) lam x args = .ok s → s.iterations = 0 := by
  have key : ∀ s0, a.start (.arcLength psi false) lam x args = .ok s0 → ∀ n,
      a.iterations (.arcLength psi false) n s0 = .ok s0 ∨ a.iterations (.arcLength psi false) n s0 = .error .notFinite := by
    intro s0 hs0 n
    obtain ⟨g0, -, -, -, -, ⟨args', g1, g2, g3⟩, -⟩ := start_ok h hx hs0
    have hz : (∀ b ∈ s0.args.dfdDD, b = 0) ∧ s0.args.dfdDlambda = 0 := by
      obtain ⟨δ, -, g1⟩ := bind_ok.1 g1
      have g1 := Except.ok.inj g1
      rw [← g1]
      simp
    have hw := subsidiary_size g1
    simp only at hw
    cases n with
    | zero => exact .inl rfl
    | succ n =>
      simp only [iterations]
      split
      · rw [fresh_iteration h g0 (hw.trans g3) hz.1 hz.2]
        exact .inr rfl
      · exact .inl rfl
  constructor
  · unfold solve
    refine Mild.bind (start_mild h hx trivial trivial) fun s0 hs0 => Mild.map ?_
    rcases key s0 hs0 a.settings.maxIter.toNat with hk | hk
    · exact Mild.of_ok hk
    · rw [hk]; exact Mild.notFinite
  · intro s hs
    unfold solve at hs
    obtain ⟨s0, hs0, hs⟩ := bind_ok.1 hs
    obtain ⟨t, ht, hs⟩ := map_ok.1 hs
    rcases key s0 hs0 a.settings.maxIter.toNat with hk | hk
    · rw [hk] at ht
      have ht := (Except.ok.inj ht).symm
      subst hs ht
      exact (start_ok h hx hs0).2.2.2.1
    · rw [hk] at ht; cases ht

theorem initial_mild (h : Spec.ProperPath a û) {p : PathStrategy} {l : ℝ} {x : List ℝ} {args : PathArgs}
    (hx : x.length = a.dv.flags.length) (hp : Within p args.DD.length) :
    Mild (a.initialPrediction p l x args) ∧ ∀ q, a.initialPrediction p l x args = .ok q →
      q.args.DD.length = match p with
        | .arcLength _ _ => a.width
        | _ => args.DD.length := by
  cases p with
  | arcLength psi predicted =>
    obtain ⟨δ, h1, -⟩ := idbcIncrement_ok h.proper l 1 hx
    obtain ⟨r, g1, g2, -⟩ := residual_ok h.proper 1 hx
    obtain ⟨K, hK, -, -⟩ := Analysis.jacobian_width h.proper 1 hx
    have hR : ∃ B, (if a.withForce then evaluated (a.addForce ⟨1, some x⟩ 1 (some (view a.option a.dv.flags r)))
        else .ok (view a.option a.dv.flags r)) = .ok (view a.option a.dv.flags B) ∧ B.length = a.dv.flags.length := by
      by_cases hf : a.withForce = true
      · obtain ⟨B, b1, b2⟩ := Analysis.addForce_view h.proper 1 1 hx g2
        exact ⟨B, by rw [if_pos hf, b1]; rfl, b2⟩
      · exact ⟨r, by rw [if_neg hf], g2⟩
    obtain ⟨B, hB, hBl⟩ := hR
    obtain ⟨D, hD⟩ := Analysis.answers_increment h.proper hx hK (h.spd 1 x hx K hK) (B := B.map fun b => -b) (by simp [hBl])
    unfold initialPrediction
    simp only
    rw [h1, g1, hK]
    show Mild ((if a.withForce then _ else _ : Except PathFault (List ℝ)).bind _) ∧ ∀ q,
      (if a.withForce then _ else _ : Except PathFault (List ℝ)).bind _ = _ → _
    rw [hB]
    show Mild (if _ = _ then _ else _) ∧ ∀ q, (if _ = _ then _ else _) = _ → _
    rw [view_neg]
    generalize a.spd K (view a.option a.dv.flags (B.map fun b => -b)) = DD at hD
    generalize Real.sqrt (sqNorm DD + sqNorm δ + Real.sqrt (sqNorm DD + sqNorm δ) * Real.sqrt (sqNorm DD + sqNorm δ)) = s
    split
    · exact ⟨Mild.notFinite, fun q hq => by cases hq⟩
    have hD' := hD.smul (args.stepSize / s)
    have he : (fun d : ℝ => d * args.stepSize / s) = fun b => b * (args.stepSize / s) := funext fun d => mul_div_assoc _ _ _
    simp only [he]
    have hup := hD'.update h.proper.option 1 hx
    rw [hup]
    obtain ⟨z, z1, -, -⟩ := synchronised_ok h.proper (args.stepSize / s)
      (x := List.zipWith (· + ·) x (D.map fun b => b * (args.stepSize / s))) (by simp [hx, hD.length])
    show Mild ((a.synchronised _ _).bind _) ∧ ∀ q, (a.synchronised _ _).bind _ = _ → _
    rw [z1]
    show Mild (if _ = _ then _ else _) ∧ ∀ q, (if _ = _ then _ else _) = _ → _
    split
    · exact ⟨Mild.notFinite, fun q hq => by cases hq⟩
    · refine ⟨Mild.ok _, fun q hq => ?_⟩
      cases hq
      exact hD'.width
  | loadControl predicted =>
    simp only [initialPrediction]
    split
    · exact ⟨Mild.rejected, fun q hq => by cases hq⟩
    · refine ⟨Mild.ok _, fun q hq => ?_⟩
      cases hq; rfl
  | displacementControl cs predicted =>
    simp only [initialPrediction]
    split
    · exact ⟨Mild.rejected, fun q hq => by cases hq⟩
    · refine ⟨Mild.map (Mild.of_ok (inRange_ok hp)), fun q hq => ?_⟩
      obtain ⟨-, -, hq⟩ := map_ok.1 hq
      subst hq
      exact foldl_set_length (fun _ => args.stepSize) cs args.DD

theorem intermediate_mild (h : Spec.ProperPath a û) {p : PathStrategy} {l : ℝ} {x : List ℝ} {args : PathArgs}
    (hx : x.length = a.dv.flags.length) (hopt : a.option = .full ∨ ∃ psi b, p = .arcLength psi b)
    (hDD : args.DD.length = a.width) {lb : ℝ} {xb : List ℝ} (ht : Track a p lb xb l x args.DD args.Dlambda) :
    Mild (a.intermediatePrediction p l x args) := by
  cases p with
  | arcLength psi predicted =>
    obtain ⟨-, D, hD, -⟩ := ht
    simp only [intermediatePrediction]
    split
    · exact Mild.exception
    have hup := congrArg Dom.x (hD.update h.proper.option l hx)
    refine Mild.bind (Mild.of_ok (evaluated_ok.2 hup)) fun y hy => ?_
    rw [hup] at hy
    have hy := (Except.ok.inj hy).symm
    have hyl : y.length = a.dv.flags.length := by rw [hy]; simp [hx, hD.length]
    obtain ⟨z', z1, -, -⟩ := synchronised_ok h.proper (l + args.Dlambda) hyl
    exact Mild.map (Mild.of_ok z1)
  | loadControl predicted =>
    simp only [intermediatePrediction]
    split
    · exact Mild.rejected
    split
    · exact Mild.exception
    · exact Mild.ok _
  | displacementControl cs predicted =>
    have ho : a.option = .full := hopt.resolve_right (by rintro ⟨_, _, h⟩; cases h)
    simp only [intermediatePrediction]
    split
    · exact Mild.rejected
    split
    · exact Mild.exception
    · refine Mild.map (Mild.of_ok (addSized_ok.2 ⟨?_, rfl⟩))
      rw [hx, hDD, Analysis.width, if_pos ho]

theorem controls_within {p : PathStrategy} (hopt : a.option = .full ∨ ∃ psi b, p = .arcLength psi b)
    (hcon : Spec.Controls a.dv.flags p) : Within p a.width := by
  cases p with
  | arcLength psi b => trivial
  | loadControl b => trivial
  | displacementControl cs b =>
    have ho : a.option = .full := hopt.resolve_right (by rintro ⟨_, _, h⟩; cases h)
    intro i hi
    rw [Analysis.width, if_pos ho]
    exact free_lt (hcon i hi)

theorem loop_mild (h : Spec.ProperPath a û) (hmax : 0 ≤ a.settings.maxIter) (hadapt : ∀ k args, Mild (a.adapt k args)) (n ls : Nat)
    {prev : Shown} (hfine : Fine a û prev) (hcon : Spec.Controls a.dv.flags prev.strategy)
    (hopt : a.option = .full ∨ ∃ psi b, prev.strategy = .arcLength psi b) {lb : ℝ} {xb : List ℝ}
    (ht : Track a prev.strategy lb xb prev.lam prev.x prev.args.DD prev.args.Dlambda)
    (hDD : prev.args.DD.length = a.width) : Mild (a.loop n ls prev) := by
  induction n generalizing ls prev lb xb with
  | zero => exact Mild.ok _
  | succ n ih =>
    simp only [loop]
    refine Mild.bind (hadapt _ _) fun size _ => ?_
    refine Mild.bind (intermediate_mild h hfine.length hopt hDD
      (args := { { prev.args with currentStep := ls } with stepSize := size }) ht) fun q hq => ?_
    obtain ⟨hp, hps, hpa⟩ := intermediate_ok h hfine.length hfine.supp hcon
      (args := { { prev.args with currentStep := ls } with stepSize := size }) ht hq
    have hqD : q.args.DD.length = a.width := by rw [hpa]; exact hDD
    refine Mild.bind (solve_mild h.proper hp.length hqD (controls_within (by rw [hps]; exact hopt) hp.controls)) fun s hs => ?_
    have hsol := solve_ok h.proper hp.length hs
    split
    · exact Mild.ok _
    · have hst := solves_track h.proper hsol hp.track
      rw [← hsol.strategy] at hst
      refine Mild.map (ih (ls + 1) (solves_fine hmax hsol hp.supp) (by rw [hsol.strategy]; exact hp.controls)
        (by rw [hsol.strategy, hps]; exact hopt) hst ?_)
      rcases solves_width hsol with hw | hw
      · rw [hw, hqD]
      · exact hw

theorem predicts_kind {p : PathStrategy} {l : ℝ} {x : List ℝ} {args : PathArgs} {q : Predicted}
    (hq : a.initialPrediction p l x args = .ok q) (hopt : a.option = .full ∨ ∃ psi b, p = .arcLength psi b) :
    a.option = .full ∨ ∃ psi b, q.strategy = .arcLength psi b := by
  rcases hopt with ho | ⟨psi, b, rfl⟩
  · exact .inl ho
  · right
    unfold initialPrediction at hq
    simp only at hq
    obtain ⟨δ, -, hq⟩ := bind_ok.1 hq
    obtain ⟨R, -, hq⟩ := bind_ok.1 hq
    obtain ⟨K, -, hq⟩ := bind_ok.1 hq
    obtain ⟨R', -, hq⟩ := bind_ok.1 hq
    split at hq
    · cases hq
    obtain ⟨y, -, hq⟩ := bind_ok.1 hq
    obtain ⟨z, -, hq⟩ := bind_ok.1 hq
    split at hq
    · cases hq
    · cases hq; exact ⟨_, _, rfl⟩

theorem run_mild (h : Spec.ProperPath a û) (hmax : 0 ≤ a.settings.maxIter) (hadapt : ∀ k args, Mild (a.adapt k args))
    {p : PathStrategy} {l0 : ℝ} {x0 : List ℝ} (hx0 : Spec.OnSupports a.dv.flags û l0 x0) (hcon : Spec.Controls a.dv.flags p)
    (hopt : a.option = .full ∨ ∃ psi, p = .arcLength psi false) : Mild (a.run p l0 x0) := by
  have hopt' : a.option = .full ∨ ∃ psi b, p = .arcLength psi b := hopt.imp id fun ⟨psi, hp⟩ => ⟨psi, false, hp⟩
  unfold run
  split
  · exact Mild.exception
  refine Mild.bind ?_ fun s0 hs0 => ?_
  · rcases hopt with ho | ⟨psi, rfl⟩
    · refine solve_mild h.proper hx0.1 ?_ (controls_within hopt' hcon)
      simp [PathArgs.setZero, Analysis.width, ho, hx0.1]
    · exact (fresh_solve h.proper hx0.1).1
  have hsol := solve_ok h.proper hx0.1 hs0
  have hsf := solves_fine hmax hsol (supp_of_onSupports hx0)
  split
  · exact Mild.ok _
  rw [hsol.strategy]
  have hDD0 : a.option = .full → s0.args.DD.length = a.width := fun ho => by
    rcases solves_width hsol with hw | hw
    · rw [hw]; simp [PathArgs.setZero, Analysis.width, ho, hx0.1]
    · exact hw
  have hwith : Within p s0.args.DD.length := by
    cases p with
    | arcLength psi b => trivial
    | loadControl b => trivial
    | displacementControl cs b =>
      rw [hDD0 (hopt'.resolve_right (by rintro ⟨_, _, h⟩; cases h))]
      exact controls_within hopt' hcon
  obtain ⟨hm, hw⟩ := initial_mild h (l := s0.lam) hsol.length hwith
  refine Mild.bind hm fun q hq => ?_
  have hpred := initial_ok h hsol.length hsf.supp hcon (fun ⟨cs, b, hp⟩ => by
    subst hp
    have ht := solves_track h.proper hsol (lb := l0) (xb := x0) (by
      refine ⟨⟨by simp [PathArgs.setZero, hx0.1], fun i hi _ => ?_⟩, fun i hi => ?_⟩
      · simp [PathArgs.setZero, List.getD_eq_getElem?_getD, hx0.1, hi]
      · simp [PathArgs.setZero, List.getD_eq_getElem?_getD, hx0.1, hi])
    exact ht.1) hq
  have hqopt := predicts_kind hq hopt'
  have hqD : q.args.DD.length = a.width := by
    rw [hw q hq]
    cases p with
    | arcLength psi b => rfl
    | loadControl b => exact hDD0 (hopt'.resolve_right (by rintro ⟨_, _, h⟩; cases h))
    | displacementControl cs b => exact hDD0 (hopt'.resolve_right (by rintro ⟨_, _, h⟩; cases h))
  refine Mild.bind (solve_mild h.proper hpred.length hqD (controls_within hqopt hpred.controls)) fun s1 hs1 => ?_
  have hsol1 := solve_ok h.proper hpred.length hs1
  split
  · exact Mild.ok _
  have hst1 := solves_track h.proper hsol1 hpred.track
  rw [← hsol1.strategy] at hst1
  refine Mild.map (loop_mild h hmax hadapt _ _ (solves_fine hmax hsol1 hpred.supp) (by rw [hsol1.strategy]; exact hpred.controls)
    (by rw [hsol1.strategy]; exact hqopt) hst1 ?_)
  rcases solves_width hsol1 with hw | hw
  · rw [hw, hqD]
  · exact hw

/-! ### Solves without iterations -/

/-- If the increment does not have the size of the residual, a solve without fault does not iterate. -/
theorem solves_idle {p : PathStrategy} {lam : ℝ} {x : List ℝ} {args : PathArgs} {s : Shown} (hs : Solves a û p lam x args s)
    (hw : args.DD.length ≠ a.width) :
    s.iterations = 0 ∧ s.lam = lam ∧ s.x = x ∧ s.args.DD = args.DD ∧ s.args.Dlambda = args.Dlambda := by
  have h0 : s.iterations = 0 := by
    by_contra hne
    exact hw (hs.busy (Nat.pos_of_ne_zero hne)).1
  exact ⟨h0, hs.idle h0⟩

/-- Arc length does not iterate before the first step. -/
theorem first_idle (h : Spec.Proper a.toAnalysis û) {psi : ℝ} {b : Bool} {lam : ℝ} {x : List ℝ} {args : PathArgs} {s : Shown}
    (hx : x.length = a.dv.flags.length) (hD : args.Dlambda = 0) (hs : a.solve (.arcLength psi b) lam x args = .ok s) :
    s.iterations = 0 := by
  cases b with
  | false => exact (fresh_solve h hx).2 s hs
  | true =>
    by_contra hne
    have hsol := solve_ok h hx hs
    obtain ⟨-, s0, hs0, hfin, -⟩ := hsol.busy (Nat.pos_of_ne_zero hne)
    obtain ⟨-, -, -, -, -, ⟨args', g1, -, -⟩, -, g2, -⟩ := start_ok h hx hs0
    obtain ⟨-, -, k3, -⟩ := subsidiary_keeps g1
    obtain ⟨δ, -, g1⟩ := bind_ok.1 g1
    have g1 := congrArg PathArgs.finite (Except.ok.inj g1)
    dsimp only at g1
    rw [hfin] at g1
    have := (of_decide_eq_true g1).2
    rw [← k3, g2] at this
    exact this hD

/-- Not arc length. -/
def Stiff : PathStrategy → Prop
  | .arcLength _ _ => False
  | _ => True

theorem loop_idle (h : Spec.ProperPath a û) (n ls : Nat) {prev : Shown} {r : Run} (hx : prev.x.length = a.dv.flags.length)
    (hk : Stiff prev.strategy) (hw : prev.args.DD.length ≠ a.width) (hr : a.loop n ls prev = .ok r) :
    ∀ s ∈ r.shown, s.iterations = 0 ∧ ((∃ b, prev.strategy = .loadControl b) → s.x = prev.x) := by
  induction n generalizing ls prev r with
  | zero =>
    simp only [loop, Except.ok.injEq] at hr
    subst hr
    simp
  | succ n ih =>
    simp only [loop] at hr
    obtain ⟨size, -, hr⟩ := bind_ok.1 hr
    obtain ⟨q, hq, hr⟩ := bind_ok.1 hr
    obtain ⟨s, hs, hr⟩ := bind_ok.1 hr
    have hqq : q.args.DD = prev.args.DD ∧ q.strategy = prev.strategy ∧ q.x.length = a.dv.flags.length ∧
        ((∃ b, prev.strategy = .loadControl b) → q.x = prev.x) := by
      cases hps : prev.strategy with
      | arcLength psi b => rw [hps] at hk; exact hk.elim
      | loadControl b =>
        rw [hps] at hq
        simp only [intermediatePrediction] at hq
        split at hq
        · cases hq
        split at hq
        · cases hq
        cases hq
        exact ⟨rfl, rfl, hx, fun _ => rfl⟩
      | displacementControl cs b =>
        rw [hps] at hq
        simp only [intermediatePrediction] at hq
        split at hq
        · cases hq
        split at hq
        · cases hq
        obtain ⟨y, hy, hq⟩ := map_ok.1 hq
        obtain ⟨e1, e2⟩ := addSized_ok.1 hy
        subst hq
        refine ⟨rfl, rfl, ?_, fun ⟨_, h⟩ => by cases h⟩
        show y.length = _
        have e1 : prev.x.length = prev.args.DD.length := e1
        rw [← e2, List.length_zipWith, ← e1, min_self, hx]
    obtain ⟨q1, q2, q3, q4⟩ := hqq
    have hsol := solve_ok h.proper q3 hs
    obtain ⟨i1, i2, i3, i4, i5⟩ := solves_idle hsol (by rw [q1]; exact hw)
    have hthis : s.iterations = 0 ∧ ((∃ b, prev.strategy = .loadControl b) → s.x = prev.x) :=
      ⟨i1, fun hb => by rw [i3, q4 hb]⟩
    split at hr
    · simp only [Except.ok.injEq] at hr
      subst hr
      simpa using hthis
    · obtain ⟨r', hr', hr⟩ := map_ok.1 hr
      subst hr
      intro t ht
      rcases List.mem_cons.1 ht with rfl | ht
      · exact hthis
      · obtain ⟨j1, j2⟩ := ih (ls + 1) (by rw [i3]; exact q3) (by rw [hsol.strategy, q2]; exact hk) (by rw [i4, q1]; exact hw) hr' t ht
        refine ⟨j1, fun hb => ?_⟩
        rw [j2 (by rw [hsol.strategy, q2]; exact hb), hthis.2 hb]

theorem run_idle (h : Spec.ProperPath a û) {p : PathStrategy} {l0 : ℝ} {x0 : List ℝ} {r : Run}
    (hx0 : x0.length = a.dv.flags.length) (hk : Stiff p) (hw : a.dv.flags.length ≠ a.width) (hr : a.run p l0 x0 = .ok r) :
    ∀ s ∈ r.shown, s.iterations = 0 ∧ ((∃ b, p = .loadControl b) → s.x = x0) := by
  unfold run at hr
  split at hr
  · cases hr
  obtain ⟨s0, hs0, hr⟩ := bind_ok.1 hr
  have hsol := solve_ok h.proper hx0 hs0
  obtain ⟨i1, i2, i3, i4, i5⟩ := solves_idle hsol (by simp [PathArgs.setZero, hx0, hw])
  split at hr
  · simp only [Except.ok.injEq] at hr
    subst hr
    simp [i1, i3]
  obtain ⟨q, hq, hr⟩ := bind_ok.1 hr
  obtain ⟨s1, hs1, hr⟩ := bind_ok.1 hr
  rw [hsol.strategy] at hq
  have hD0 : s0.args.DD.length = a.dv.flags.length := by rw [i4]; simp [PathArgs.setZero, hx0]
  have hqq : q.args.DD.length = a.dv.flags.length ∧ Stiff q.strategy ∧ q.x.length = a.dv.flags.length ∧
      ((∃ b, p = .loadControl b) → q.x = x0 ∧ ∃ b, q.strategy = .loadControl b) := by
    cases p with
    | arcLength psi b => exact hk.elim
    | loadControl b =>
      simp only [initialPrediction] at hq
      split at hq
      · cases hq
      cases hq
      exact ⟨hD0, trivial, by rw [i3]; exact hx0, fun _ => ⟨i3, true, rfl⟩⟩
    | displacementControl cs b =>
      simp only [initialPrediction] at hq
      split at hq
      · cases hq
      obtain ⟨-, -, hq⟩ := map_ok.1 hq
      subst hq
      have hl := foldl_set_length (fun _ => s0.args.stepSize) cs s0.args.DD
      exact ⟨hl.trans hD0, trivial, hl.trans hD0, fun ⟨_, h⟩ => by cases h⟩
  obtain ⟨q1, q2, q3, q4⟩ := hqq
  have hsol1 := solve_ok h.proper q3 hs1
  obtain ⟨j1, j2, j3, j4, j5⟩ := solves_idle hsol1 (by rw [q1]; exact hw)
  have hall : ∀ t, t = s0 ∨ t = s1 → t.iterations = 0 ∧ ((∃ b, p = .loadControl b) → t.x = x0) := by
    rintro t (rfl | rfl)
    · exact ⟨i1, fun _ => i3⟩
    · exact ⟨j1, fun hb => by rw [j3, (q4 hb).1]⟩
  split at hr
  · simp only [Except.ok.injEq] at hr
    subst hr
    intro t ht
    exact hall t (by simpa using ht)
  obtain ⟨r', hr', hr⟩ := map_ok.1 hr
  subst hr
  intro t ht
  rcases List.mem_cons.1 ht with rfl | ht
  · exact hall _ (.inl rfl)
  rcases List.mem_cons.1 ht with rfl | ht
  · exact hall _ (.inr rfl)
  obtain ⟨k1, k2⟩ := loop_idle h _ _ (by rw [j3]; exact q3) (by rw [hsol1.strategy]; exact q2) (by rw [j4, q1]; exact hw) hr' t ht
  refine ⟨k1, fun hb => ?_⟩
  rw [k2 (by rw [hsol1.strategy]; exact (q4 hb).2), j3, (q4 hb).1]

/-! ### Load control of linear structures -/

/-- What the solver knows of load control between iterations. -/
structure LoadReady (a : PathAnalysis) (s : State) : Prop where
  sound : Sound a s
  finite : s.args.finite = true
  zero : ∀ b ∈ s.args.dfdDD, b = 0
  dlambda : s.args.dfdDlambda = 1
  f : s.args.f = s.args.Dlambda - s.args.stepSize
  widthDD : s.args.DD.length = a.width
  widthdf : s.args.dfdDD.length = a.width

theorem load_args {b : Bool} {l : ℝ} {x : List ℝ} {args args' : PathArgs} (h : a.subsidiary (.loadControl b) l x args = .ok args') :
    args'.finite = true ∧ (∀ b ∈ args'.dfdDD, b = 0) ∧ args'.dfdDlambda = 1 ∧ args'.f = args'.Dlambda - args'.stepSize ∧
      args'.dfdDD.length = args.dfdDD.length := by
  simp only [subsidiary] at h
  split at h
  · cases h
  · cases h
    simp

/-- An exact solution of a linear system leaves no residual. -/
theorem linear_correction (h : Spec.ProperLinear a.toAnalysis û) {K : DMat ℝ} {e : ℝ → ℝ} {g : ℝ → Nat → ℝ}
    (hA : AffineSystem a.system a.dv.flags.length K e g) {s : State} (hs : Sound a s) {C : List ℝ}
    (hC : IsIncrement a.toAnalysis (a.linSolve s.Ax (s.rx.map fun b => -b)) C) {r : List ℝ}
    (hr : (a.system s.lam).rawVector? s.x = some r) {y : List ℝ}
    (hy : ∀ i < a.dv.flags.length, y.getD i 0 = s.x.getD i 0 + C.getD i 0) {r' : List ℝ} (hyl : y.length = a.dv.flags.length)
    (hr' : (a.system s.lam).rawVector? y = some r') : ∀ i, Spec.Free a.dv.flags i → r'.getD i 0 = 0 := by
  intro i hf
  have hi := free_lt hf
  obtain ⟨R, h1, h2, h3⟩ := hs.residual
  obtain rfl : r = R := Option.some.inj (hr.symm.trans h1)
  obtain ⟨x', c1, c2, v, c3, c4, c5⟩ := a.correction_view h.option hs.length h2 (hA.matrix s.lam s.x hs.length)
    (h.linSolve s.lam s.x hs.length)
  have hu : a.update ⟨s.lam, some s.x⟩ (some (a.linSolve s.Ax (s.rx.map fun b => -b))) = ⟨s.lam, some x'⟩ := by
    rw [← c1, hs.jacobian, h3]; rfl
  rw [hC.update h.option s.lam hs.length] at hu
  have hx' : List.zipWith (· + ·) s.x C = x' := Option.some.inj (congrArg Dom.x hu)
  have hv : ∀ j < a.dv.flags.length, v j = C.getD j 0 := fun j hj => by
    have := c4 j hj
    rw [← hx', zipAdd_getD hs.length hC.length hj] at this
    linarith
  obtain ⟨R, g1, g2, g3⟩ := hA.vector s.lam s.x hs.length
  obtain rfl : r = R := Option.some.inj (hr.symm.trans g1)
  obtain ⟨R', f1, f2, f3⟩ := hA.vector s.lam y hyl
  obtain rfl : r' = R' := Option.some.inj (hr'.symm.trans f1)
  rw [f3 i hi, Finset.sum_congr rfl fun j hj => by rw [hy j (Finset.mem_range.1 hj)]]
  have h5 := c5 i hf
  rw [g3 i hi, Finset.sum_congr rfl fun j hj => by rw [hv j (Finset.mem_range.1 hj)]] at h5
  simp only [mul_add, Finset.sum_add_distrib, h5]
  ring

theorem iteration_load (h : Spec.Proper a.toAnalysis û) (hf : a.withForce = false) {b : Bool} {s : State} (hs : LoadReady a s) :
    ∃ s', a.iteration (.loadControl b) s = .ok s' ∧ LoadReady a s' ∧ s'.iter = s.iter + 1 ∧ s'.args.f = 0 ∧
      s'.args.stepSize = s.args.stepSize ∧ s'.lam = s.lam - s.args.f ∧
      s'.rNorm = Real.sqrt (sqNorm s'.rx + s'.args.f * s'.args.f) ∧
      ∃ C, IsIncrement a.toAnalysis (a.linSolve s.Ax (s.rx.map fun b => -b)) C ∧
        (s.args.f = 0 → ∀ i < a.dv.flags.length, s'.x.getD i 0 = s.x.getD i 0 + C.getD i 0) := by
  obtain ⟨B, CR, CL, h1, h2, h3⟩ := corrections h hs.sound
  have hit := iteration_mild h hs.sound hs.widthDD hs.widthdf (p := .loadControl b) trivial
  have hok : ∃ s', a.iteration (.loadControl b) s = .ok s' := by
    unfold iteration
    rw [h1]
    show ∃ s', (dotSized _ _).bind _ = _
    rw [dotSized_zero (hs.widthdf.trans h2.width.symm) hs.zero]
    show ∃ s', (dotSized _ _).bind _ = _
    rw [dotSized_zero (hs.widthdf.trans h3.width.symm) hs.zero]
    show ∃ s', (if s.args.finite then quotient _ _ else _).bind _ = _
    have hq : (if s.args.finite = true then quotient (-s.args.f - 0) (0 + s.args.dfdDlambda) else .error .notFinite)
        = .ok (-s.args.f) := by
      rw [if_pos hs.finite, hs.dlambda]
      unfold quotient
      rw [if_neg (by norm_num)]
      norm_num
    rw [hq]
    have h3' := h3.smul (-s.args.f)
    simp only [mul_comm _ (-s.args.f)] at h3'
    obtain ⟨h4, h5⟩ := h2.add h3'
    show ∃ s', (addSized _ _).bind _ = _
    rw [h4]
    have hup := congrArg Dom.x (h5.update h.option s.lam hs.sound.length)
    show ∃ s', (evaluated _).bind _ = _
    rw [evaluated_ok.2 hup]
    show ∃ s', (addSized _ _).bind _ = _
    rw [addSized_ok.2 ⟨hs.widthDD.trans h5.width.symm, rfl⟩]
    have hxl : (List.zipWith (· + ·) s.x (List.zipWith (· + ·) CR (CL.map fun b => -s.args.f * b))).length = a.dv.flags.length := by
      simp only [List.length_zipWith, List.length_map, hs.sound.length, h2.length, h3.length, min_self]
    obtain ⟨y, hy1, hy2, -⟩ := synchronised_ok h (s.lam + -s.args.f) hxl
    show ∃ s', (a.synchronised _ _).bind _ = _
    rw [hy1]
    obtain ⟨r, hr1, -, -⟩ := residual_ok h (s.lam + -s.args.f) hy2
    show ∃ s', (evaluated _).bind _ = _
    rw [evaluated_ok.2 hr1]
    obtain ⟨A, hA1, -, -⟩ := Analysis.jacobian_width h (s.lam + -s.args.f) hy2
    show ∃ s', (evaluated _).bind _ = _
    rw [evaluated_ok.2 hA1]
    show ∃ s', (a.subsidiary _ _ _ _).map _ = _
    simp only [subsidiary, hf, Bool.false_eq_true, if_false]
    exact ⟨_, rfl⟩
  obtain ⟨s', hok⟩ := hok
  have hi := iteration_ok h hs.sound hok
  obtain ⟨args, g1, g2⟩ := iteration_args hok
  obtain ⟨w1, w2⟩ := iterates_widths hi ⟨args, g1, by rw [g2, hs.widthdf]⟩
  obtain ⟨l1, l2, l3, l4, -⟩ := load_args g1
  -- the increment of the load factor
  have hdl : s'.lam = s.lam - s.args.f ∧ s'.args.Dlambda = s.args.Dlambda - s.args.f ∧
      (s.args.f = 0 → ∀ i < a.dv.flags.length, s'.x.getD i 0 = s.x.getD i 0 + CR.getD i 0) := by
    unfold iteration at hok
    rw [h1] at hok
    obtain ⟨load, hload, hok⟩ := bind_ok.1 hok
    cases hload
    obtain ⟨cR, hR, hok⟩ := bind_ok.1 hok
    obtain ⟨cL, hL, hok⟩ := bind_ok.1 hok
    rw [dotSized_zero (hs.widthdf.trans h2.width.symm) hs.zero] at hR
    rw [dotSized_zero (hs.widthdf.trans h3.width.symm) hs.zero] at hL
    obtain rfl := Except.ok.inj hR
    obtain rfl := Except.ok.inj hL
    obtain ⟨dl, hq, hok⟩ := bind_ok.1 hok
    rw [if_pos hs.finite, hs.dlambda] at hq
    unfold quotient at hq
    rw [if_neg (by norm_num)] at hq
    have hq := (Except.ok.inj hq).symm
    norm_num at hq
    have h3' := h3.smul dl
    simp only [mul_comm _ dl] at h3'
    obtain ⟨h4, h5⟩ := h2.add h3'
    rw [h4] at hok
    obtain ⟨dD, hdD, hok⟩ := bind_ok.1 hok
    obtain rfl := Except.ok.inj hdD
    obtain ⟨x, hx, hok⟩ := bind_ok.1 hok
    rw [h5.update h.option s.lam hs.sound.length] at hx
    have hx := (Option.some.inj (evaluated_ok.1 hx)).symm
    have hxl : x.length = a.dv.flags.length := by
      rw [hx]; simp only [List.length_zipWith, List.length_map, hs.sound.length, h2.length, h3.length, min_self]
    obtain ⟨DD, hDD, hok⟩ := bind_ok.1 hok
    obtain ⟨y, hy, hok⟩ := bind_ok.1 hok
    obtain ⟨y', hy1, hy2, hy3⟩ := synchronised_ok h (s.lam + dl) hxl
    rw [hy1] at hy
    obtain rfl := Except.ok.inj hy
    obtain ⟨rx, hrx, hok⟩ := bind_ok.1 hok
    obtain ⟨Ax, hAx, hok⟩ := bind_ok.1 hok
    obtain ⟨args, hargs, hok⟩ := map_ok.1 hok
    obtain ⟨-, -, k3, -⟩ := subsidiary_keeps hargs
    subst hok
    refine ⟨by show s.lam + dl = _; rw [hq]; ring, by rw [k3]; show s.args.Dlambda + dl = _; rw [hq]; ring, fun h0 i hi => ?_⟩
    show y'.getD i 0 = _
    rw [hy3 i hi, unforced_synced h hf _ hi, hx, zipAdd_getD hs.sound.length h5.length hi,
      zipAdd_getD h2.length h3'.length hi, hq, h0]
    congr 1
    rw [map_getD _ (by simp)]
    ring
  refine ⟨s', hok, ⟨hi.sound, l1, l2, l3, l4, w1, w2⟩, hi.iter, ?_, hi.stepSize, hdl.1, hi.norm, CR, h2, hdl.2.2⟩
  rw [l4, hdl.2.1, hi.stepSize, hs.f]
  ring

theorem idle_iterations {p : PathStrategy} (n : Nat) {s : State} (h : s.rNorm ≤ a.settings.tol) : a.iterations p n s = .ok s := by
  cases n with
  | zero => rfl
  | succ n => simp only [iterations]; rw [if_neg (not_lt.2 h)]

/-- After an iteration which does not change the load factor, the solver is done. -/
theorem load_second (h : Spec.Proper a.toAnalysis û) (hl : Spec.ProperLinear a.toAnalysis û) (htol : 0 ≤ a.settings.tol)
    (hf : a.withForce = false) {b : Bool} (n : Nat) {s : State} (hs : LoadReady a s) (h0 : s.args.f = 0) :
    ∃ t, a.iterations (.loadControl b) (n + 1) s = .ok t ∧ LoadReady a t ∧ t.iter ≤ s.iter + 1 ∧ t.args.f = 0 ∧
      t.args.stepSize = s.args.stepSize ∧ t.lam = s.lam := by
  simp only [iterations]
  split
  · obtain ⟨s', i1, i2, i3, i4, i5, i6, i7, C, i8, i9⟩ := iteration_load h hf (b := b) hs
    obtain ⟨K, e, g, hA⟩ := linear_system a.dv.flags a.elems hl.elems
    obtain ⟨r, r1, r2, r3⟩ := hs.sound.residual
    obtain ⟨r', q1, q2, q3⟩ := i2.sound.residual
    have hlam : s'.lam = s.lam := by rw [i6, h0, sub_zero]
    have hz := linear_correction hl hA hs.sound i8 r1 (i9 h0) i2.sound.length (hlam ▸ q1)
    have hn : s'.rNorm = 0 := by
      rw [i7, i4, q3, sqNorm_view _ _ _ q2, Analysis.freeSq_zero hz]
      simp
    refine ⟨s', ?_, i2, i3.le, i4, i5, hlam⟩
    rw [i1]
    exact idle_iterations n (by rw [hn]; exact htol)
  · exact ⟨s, rfl, hs, by omega, h0, rfl, rfl⟩

theorem load_iterations (h : Spec.Proper a.toAnalysis û) (hl : Spec.ProperLinear a.toAnalysis û) (htol : 0 ≤ a.settings.tol)
    (hf : a.withForce = false) {b : Bool} (n : Nat) {s : State} (hs : LoadReady a s) :
    ∃ t, a.iterations (.loadControl b) (n + 2) s = .ok t ∧ LoadReady a t ∧ t.iter ≤ s.iter + 2 ∧
      (t.iter = s.iter → t = s) ∧ (s.iter < t.iter → t.args.f = 0 ∧ t.lam = s.lam - s.args.f) ∧
      t.args.stepSize = s.args.stepSize ∧ s.iter ≤ t.iter := by
  simp only [iterations]
  split
  · obtain ⟨s', i1, i2, i3, i4, i5, i6, i7, -⟩ := iteration_load h hf (b := b) hs
    obtain ⟨t, t1, t2, t3, t4, t5, t6⟩ := load_second h hl htol hf (b := b) n i2 i4
    have hle : s'.iter ≤ t.iter := (iterations_ok h _ i2.sound t1).2.1
    refine ⟨t, ?_, t2, by omega, fun he => by omega, fun _ => ⟨t4, by rw [t6, i6]⟩, by rw [t5, i5], by omega⟩
    rw [i1]
    exact t1
  · exact ⟨s, rfl, hs, by omega, fun _ => rfl, fun hlt => absurd hlt (lt_irrefl _), rfl, le_rfl⟩

/-- One solve of load control of a linear structure. -/
theorem solve_load (h : Spec.Proper a.toAnalysis û) (hl : Spec.ProperLinear a.toAnalysis û) (htol : 0 ≤ a.settings.tol)
    (hmax : 3 ≤ a.settings.maxIter) (hf : a.withForce = false) {b : Bool} {lam : ℝ} {x : List ℝ} {args : PathArgs}
    (hx : x.length = a.dv.flags.length) (hDD : args.DD.length = a.width) :
    ∃ s, a.solve (.loadControl b) lam x args = .ok s ∧ s.success = true ∧ s.args.DD.length = a.width ∧
      s.args.stepSize = args.stepSize ∧ s.iterations ≤ 2 ∧
      (0 < s.iterations → s.args.Dlambda = args.stepSize ∧ s.lam = lam + (args.stepSize - args.Dlambda)) ∧
      (Real.sqrt (sqNorm (view a.option a.dv.flags (((a.system lam).rawVector? x).getD []))) ≤ a.settings.tol → s.iterations = 0) := by
  have hst : ∃ s0, a.start (.loadControl b) lam x args = .ok s0 := by
    obtain ⟨r, g1, g2, -⟩ := residual_ok h lam hx
    obtain ⟨r', f1, f2, -⟩ := residual_ok h 1 (x := List.replicate x.length 0) (by simp [hx])
    obtain ⟨A, hA1, -, -⟩ := Analysis.jacobian_width h lam hx
    unfold start
    rw [evaluated_ok.2 f1]
    show ∃ s0, (evaluated _).bind _ = _
    rw [evaluated_ok.2 g1]
    show ∃ s0, (evaluated _).bind _ = _
    rw [evaluated_ok.2 hA1]
    show ∃ s0, (a.subsidiary _ _ _ _).map _ = _
    simp only [subsidiary, hf, Bool.false_eq_true, if_false]
    exact ⟨_, rfl⟩
  obtain ⟨s0, hs0⟩ := hst
  obtain ⟨b1, b2, b3, b4, b5, ⟨args0, b6, b7, b8⟩, b9, b10, b11⟩ := start_ok h hx hs0
  obtain ⟨w1, w2⟩ := start_widths h hx hDD hs0
  obtain ⟨l1, l2, l3, l4, -⟩ := load_args b6
  obtain ⟨n, hn⟩ : ∃ n, a.settings.maxIter.toNat = n + 2 := ⟨a.settings.maxIter.toNat - 2, by omega⟩
  obtain ⟨t, t1, t2, t3, t4, t5, t6, t7⟩ := load_iterations h hl htol hf (b := b) n ⟨b1, l1, l2, l3, l4, w1, w2⟩
  have hsol : a.solve (.loadControl b) lam x args =
      .ok ⟨t.lam, t.x, t.args, .loadControl b, t.iter, decide ((t.iter : Int) ≠ a.settings.maxIter)⟩ := by
    unfold solve
    rw [hs0]
    show (a.iterations _ _ s0).map _ = _
    rw [hn, t1]
    rfl
  refine ⟨_, hsol, decide_eq_true (by omega), t2.widthDD, by rw [← b11]; exact t6, by show t.iter ≤ 2; omega, fun hpos => ?_, fun hr => ?_⟩
  · have hpos : 0 < t.iter := hpos
    obtain ⟨u1, u2⟩ := t5 (by omega)
    have hf0 := t2.f
    rw [u1, t6, b11] at hf0
    refine ⟨by show t.args.Dlambda = _; linarith, ?_⟩
    show t.lam = _
    rw [u2, b2, l4, b10, b11]
    ring
  · obtain ⟨r, g1, g2, g3⟩ := b1.residual
    rw [b2, b3] at g1
    rw [g1, Option.getD_some, ← g3, ← b5] at hr
    have := idle_iterations (p := .loadControl b) (a := a) (n + 2) hr
    rw [t1] at this
    show t.iter = 0
    rw [Except.ok.inj this, b4]

end PathAnalysis

end Ikarus
