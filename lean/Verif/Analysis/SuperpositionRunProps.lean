import Verif.Analysis.SuperpositionProps
import Verif.Analysis.TurnLinearProps

/-!
C118: load control of linear structures under several loads, and stiffer structures.
-/

namespace Ikarus

open Matrix Element Element.Spec

/-! ### Load control -/

/-- A run of load control of a linear structure shows states in exact equilibrium. -/
theorem linear_run_exact {a : Analysis} {û : Nat → ℝ} (h : Spec.ProperLinear a û) (hset : Spec.Settings a.settings 1)
    (hmin : 1 ≤ a.settings.minIter) (n : Nat) (hn : 0 < n) (tbegin tend l0 : ℝ) {x0 : List ℝ} (hx0 : x0.length = a.dv.flags.length)
    (hc0 : ∀ i : Nat, a.dv.flags[i]? = some true → x0[i]? = some (l0 * û i))
    (hz : ∀ k : Nat, 0 < k → k ≤ n → l0 + k * ((tend - tbegin) / n) = 0 → ∀ i < a.dv.flags.length, û i = 0) :
    ∃ (r : LCState ℝ (Option (List ℝ)) ℝ (Option (List ℝ))) (us : Nat → List ℝ),
      a.loadControl? n tbegin tend ⟨l0, some x0⟩ = some r ∧ r.info.success = true ∧ r.dom = ⟨l0 + (tend - tbegin), some (us n)⟩ ∧
      Spec.shown r = (List.range (n + 1)).map (fun k : Nat => ⟨l0 + k * ((tend - tbegin) / n), some (us k)⟩) ∧
      ∀ k ≤ n, Spec.InEquilibrium a.dv.flags (a.system (l0 + k * ((tend - tbegin) / n))).scalar? û
        (l0 + k * ((tend - tbegin) / n)) 0 (us k) := by
  obtain ⟨r, us, h1, h2, h3, h4, h5, h6⟩ := linear_load_control h hset n hn tbegin tend l0 hx0 hc0 hz
  have hsh : Spec.shown r = r.trace.filterMap (fun ev => match ev with
      | .notify .solutionChanged x _ _ => some x
      | _ => none) := by
    unfold Spec.shown
    congr 1
    funext ev
    cases ev <;> first | rfl | (rename_i msg _ _ _; cases msg <;> rfl)
  refine ⟨r, us, h1, h2, h4, hsh.trans h5, fun k hk => ?_⟩
  obtain ⟨i, hi⟩ : ∃ i, r.info.solverInfos[k]? = some i := ⟨_, List.getElem?_eq_getElem (by omega)⟩
  obtain ⟨-, h7, -, h8⟩ := (h6 k hk).2 i hi
  exact h8 (by omega)

section
variable {cs : List Spec.LoadCases} {a b c : Analysis} {û û' : Nat → ℝ}

/-- C118, load control. The same supports and elements under the first loads and prescribed displacements, under the second, and under the
sum of both, each with its own options, settings and linear solver: at every load step the displacements of the third run are the
sum of those of the first two. -/
theorem linear_load_control_superposes (ha : Spec.ProperLinear a û) (hb : Spec.ProperLinear b û')
    (hc : Spec.ProperLinear c fun i => û i + û' i) (hcs : ∀ e ∈ cs, e.Proper a.dv.flags.length)
    (hfb : b.dv.flags = a.dv.flags) (hfc : c.dv.flags = a.dv.flags)
    (hea : a.elems = cs.map (·.one)) (heb : b.elems = cs.map (·.two)) (hec : c.elems = cs.map (·.both))
    (hsa : Spec.Settings a.settings 1) (hsb : Spec.Settings b.settings 1) (hsc : Spec.Settings c.settings 1)
    (hma : 1 ≤ a.settings.minIter) (hmb : 1 ≤ b.settings.minIter) (hmc : 1 ≤ c.settings.minIter)
    (hsup : Spec.Supported a.dv.flags (Spec.LoadCases.bareSystem a.dv.flags cs).scalar?) (n : Nat) (hn : 0 < n) (tbegin tend l0 : ℝ) {x y z : List ℝ}
    (hx : x.length = a.dv.flags.length) (hy : y.length = a.dv.flags.length) (hzl : z.length = a.dv.flags.length)
    (hxs : ∀ i : Nat, a.dv.flags[i]? = some true → x[i]? = some (l0 * û i))
    (hys : ∀ i : Nat, a.dv.flags[i]? = some true → y[i]? = some (l0 * û' i))
    (hzs : ∀ i : Nat, a.dv.flags[i]? = some true → z[i]? = some (l0 * (û i + û' i)))
    (hz : ∀ k : Nat, 0 < k → k ≤ n → l0 + k * ((tend - tbegin) / n) = 0 → ∀ i < a.dv.flags.length, û i = 0 ∧ û' i = 0) :
    ∃ (ra rb rc : LCState ℝ (Option (List ℝ)) ℝ (Option (List ℝ))) (u v : Nat → List ℝ),
      a.loadControl? n tbegin tend ⟨l0, some x⟩ = some ra ∧ b.loadControl? n tbegin tend ⟨l0, some y⟩ = some rb ∧
      c.loadControl? n tbegin tend ⟨l0, some z⟩ = some rc ∧ ra.info.success = true ∧ rb.info.success = true ∧ rc.info.success = true ∧
      Spec.shown ra = (List.range (n + 1)).map (fun k : Nat => ⟨l0 + k * ((tend - tbegin) / n), some (u k)⟩) ∧
      Spec.shown rb = (List.range (n + 1)).map (fun k : Nat => ⟨l0 + k * ((tend - tbegin) / n), some (v k)⟩) ∧
      Spec.shown rc = (List.range (n + 1)).map
        (fun k : Nat => ⟨l0 + k * ((tend - tbegin) / n), some (Spec.sumList (u k) (v k))⟩) := by
  obtain ⟨ra, u, a1, a2, -, a3, a4⟩ := linear_run_exact ha hsa hma n hn tbegin tend l0 hx hxs fun k h1 h2 h3 i hi => (hz k h1 h2 h3 i hi).1
  obtain ⟨rb, v, b1, b2, -, b3, b4⟩ := linear_run_exact hb hsb hmb n hn tbegin tend l0 (by rw [hfb]; exact hy) (by rw [hfb]; exact hys)
    fun k h1 h2 h3 i hi => (hz k h1 h2 h3 i (by rw [← hfb]; exact hi)).2
  obtain ⟨rc, w, c1, c2, -, c3, c4⟩ := linear_run_exact hc hsc hmc n hn tbegin tend l0 (by rw [hfc]; exact hzl) (by rw [hfc]; exact hzs)
    fun k h1 h2 h3 i hi => by
      obtain ⟨q1, q2⟩ := hz k h1 h2 h3 i (by rw [← hfc]; exact hi)
      rw [q1, q2, add_zero]
  refine ⟨ra, rb, rc, u, v, a1, b1, c1, a2, b2, c2, a3, b3, ?_⟩
  rw [c3]
  refine List.map_congr_left fun k hk => ?_
  have hk : k ≤ n := by have := List.mem_range.1 hk; omega
  have sa : ∀ l, a.system l = Spec.LoadCases.firstSystem a.dv.flags cs l := fun l => by
    show System.mk _ (a.elems.map _) = _
    rw [hea]
  have sb : ∀ l, b.system l = Spec.LoadCases.secondSystem a.dv.flags cs l := fun l => by
    show System.mk b.dv.flags (b.elems.map _) = _
    rw [heb, hfb]
  have sc : ∀ l, c.system l = Spec.LoadCases.bothSystem a.dv.flags cs l := fun l => by
    show System.mk c.dv.flags (c.elems.map _) = _
    rw [hec, hfc]
  have p := a4 k hk
  have q := b4 k hk
  have r := c4 k hk
  rw [sa] at p
  rw [sb, hfb] at q
  rw [sc, hfc] at r
  have := equilibrium_unique _ _ _ _ ((supported_cases hcs _).2.2.2 hsup) _ _ r (equilibrium_superposes hcs p q)
  rw [this]

end

/-! ### Stiffer structures -/

section
variable {flags flags' : List Bool} {cs cs' : List Spec.LoadCases}

/-- C118, stiffness. Two structures with fixed supports and the same loads `-f`: if the second has the supports of the first and more, and
stores at least as much energy in every state, the loads do not more work on its displacements, and never negative work. -/
theorem stiffer (h : ∀ c ∈ cs, c.Proper flags.length) (h' : ∀ c ∈ cs', c.Proper flags'.length) (hl : flags'.length = flags.length)
    (hs : ∀ i : Nat, flags[i]? = some true → flags'[i]? = some true) {l l' : ℝ} {u u' f : List ℝ}
    (hf : (Spec.LoadCases.firstSystem flags cs l).rawVector? (List.replicate flags.length 0) = some f)
    (hf' : (Spec.LoadCases.firstSystem flags' cs' l').rawVector? (List.replicate flags.length 0) = some f)
    (hE : ∀ x E E', x.length = flags.length → (Spec.LoadCases.bareSystem flags cs).scalar? x = some E →
      (Spec.LoadCases.bareSystem flags' cs').scalar? x = some E' → E ≤ E')
    (hu : Spec.InEquilibrium flags (Spec.LoadCases.firstSystem flags cs l).scalar? (fun _ => 0) l 0 u)
    (hu' : Spec.InEquilibrium flags' (Spec.LoadCases.firstSystem flags' cs' l').scalar? (fun _ => 0) l' 0 u') :
    0 ≤ -Spec.dotL f u' ∧ -Spec.dotL f u' ≤ -Spec.dotL f u := by
  obtain ⟨K, e1, -, -, g1, -, A0, A1, -, -⟩ := cases_affine flags h
  obtain ⟨K', e1', -, -, g1', -, A0', A1', -, -⟩ := cases_affine flags' h'
  obtain ⟨q, E, q1, q2, q3⟩ := stored_energy h hu
  obtain ⟨q', E', q1', q2', q3'⟩ := stored_energy h' hu'
  rw [hf] at q1
  rw [hl, hf'] at q1'
  obtain rfl := Option.some.inj q1
  obtain rfl := Option.some.inj q1'
  have hlu' : u'.length = flags.length := hu'.1.trans hl
  have E1 := A0'.scalar 0 u' hu'.1
  have E2 := A0.scalar 0 u' hlu'
  have E3 := A0.scalar 0 u hu.1
  beta_reduce at E1 E2 E3
  have i1 := hE u' _ _ hlu' E2 q2'
  have o1 := Option.some.inj (E1.symm.trans q2')
  have o3 := Option.some.inj (E3.symm.trans q2)
  have hpos := A0'.psd (u'.getD · 0)
  obtain ⟨f0, f1, f2, f3⟩ := affine_zero A1 l
  rw [hf] at f1
  obtain rfl := Option.some.inj f1
  obtain ⟨hlu, -, F, hFu, hmin⟩ := hu
  obtain ⟨F', hFu', hle⟩ := hmin u' hlu' fun i hi => by
    rw [hu'.2.1 i (hs i hi), mul_zero, mul_zero]
  have F1 := A1.scalar l u hlu
  have F2 := A1.scalar l u' hlu'
  beta_reduce at F1 F2
  have G1 := Option.some.inj (F1.symm.trans hFu)
  have G2 := Option.some.inj (F2.symm.trans hFu')
  have d : ∀ x : List ℝ, x.length = flags.length → Spec.dotL f x = ∑ i ∈ Finset.range flags.length, g1 l i * x.getD i 0 := by
    intro x hx
    rw [dotL_eq_sum f x _ f2 hx]
    exact Finset.sum_congr rfl fun i hi => by rw [f3 i (Finset.mem_range.1 hi)]
  rw [← d u hlu] at G1
  rw [← d u' hlu'] at G2
  simp only [zero_mul, Finset.sum_const_zero, add_zero, zero_add] at o1 o3 i1
  constructor
  · linarith
  · linarith

theorem loads_eq (h : ∀ c ∈ cs, c.Proper flags.length) (h' : ∀ c ∈ cs', c.Proper flags'.length) (hl : flags'.length = flags.length)
    (l : ℝ) (hE : ∀ x : List ℝ, x.length = flags.length → ∃ s s' a, (Spec.LoadCases.bareSystem flags cs).scalar? x = some s ∧
      (Spec.LoadCases.bareSystem flags' cs').scalar? x = some s' ∧ (Spec.LoadCases.firstSystem flags cs l).scalar? x = some (s + a) ∧
      (Spec.LoadCases.firstSystem flags' cs' l).scalar? x = some (s' + a)) :
    ∃ f, (Spec.LoadCases.firstSystem flags cs l).rawVector? (List.replicate flags.length 0) = some f ∧
      (Spec.LoadCases.firstSystem flags' cs' l).rawVector? (List.replicate flags.length 0) = some f := by
  obtain ⟨K, e1, -, -, g1, -, A0, A1, -, -⟩ := cases_affine flags h
  obtain ⟨K', e1', -, -, g1', -, A0', A1', -, -⟩ := cases_affine flags' h'
  rw [hl] at A0' A1'
  obtain ⟨f, f1, f2, f3⟩ := affine_zero A1 l
  obtain ⟨f', f1', f2', f3'⟩ := affine_zero A1' l
  have hx : ∀ x : List ℝ, x.length = flags.length → e1 l + ∑ i ∈ Finset.range flags.length, g1 l i * x.getD i 0 =
      e1' l + ∑ i ∈ Finset.range flags.length, g1' l i * x.getD i 0 := by
    intro x hx
    obtain ⟨s, s', a, h1, h2, h3, h4⟩ := hE x hx
    have p0 := Option.some.inj ((A0.scalar 0 x hx).symm.trans h1)
    have p0' := Option.some.inj ((A0'.scalar 0 x hx).symm.trans h2)
    have p1 := Option.some.inj ((A1.scalar l x hx).symm.trans h3)
    have p1' := Option.some.inj ((A1'.scalar l x hx).symm.trans h4)
    simp only [zero_mul, Finset.sum_const_zero, add_zero, zero_add] at p0 p0'
    linarith
  have h0 := hx (List.replicate flags.length 0) List.length_replicate
  have hzg : ∀ k, (List.replicate flags.length (0 : ℝ)).getD k 0 = 0 := fun k => by
    rw [List.getD_eq_getElem?_getD, List.getElem?_replicate]
    split <;> rfl
  simp only [hzg, mul_zero, Finset.sum_const_zero, add_zero] at h0
  have hg : ∀ i < flags.length, g1 l i = g1' l i := by
    intro i hi
    have h1 := hx _ (listOf_length flags.length fun k => if k = i then (1 : ℝ) else 0)
    rw [sum_unit _ hi, sum_unit _ hi] at h1
    linarith
  obtain rfl : f = f' := by
    refine List.ext_getElem (f2.trans f2'.symm) fun i hi hi' => ?_
    have a := f3 i (f2 ▸ hi)
    have b := f3' i (f2 ▸ hi)
    rw [List.getD_eq_getElem?_getD, List.getElem?_eq_getElem hi, Option.getD_some] at a
    rw [List.getD_eq_getElem?_getD, List.getElem?_eq_getElem hi', Option.getD_some] at b
    rw [a, b, hg i (f2 ▸ hi)]
  exact ⟨f, f1, f1'⟩

theorem scalar_flags (flags flags' : List Bool) (es : List Elem) : (System.mk flags' es).scalar? = (System.mk flags es).scalar? := rfl

theorem bare_zero (cs : List Spec.LoadCases) (h : ∀ c ∈ cs, c.Proper flags.length) (l : ℝ) {x : List ℝ} (hx : x.length = flags.length) :
    (System.mk flags ((cs.map (·.bare)).map (·.at l))).scalar? x = (Spec.LoadCases.bareSystem flags cs).scalar? x := by
  obtain ⟨K, e1, e2, e3, g1, g2, A0, -⟩ := cases_affine flags h
  exact (A0.scalar l x hx).trans (A0.scalar 0 x hx).symm

/-- C118, supports. More supports do not make the structure softer: under the same loads `-f` the loads do not more work. -/
theorem more_supports (h : ∀ c ∈ cs, c.Proper flags.length) (hl : flags'.length = flags.length)
    (hs : ∀ i : Nat, flags[i]? = some true → flags'[i]? = some true) {l : ℝ} {u u' : List ℝ}
    (hu : Spec.InEquilibrium flags (Spec.LoadCases.firstSystem flags cs l).scalar? (fun _ => 0) l 0 u)
    (hu' : Spec.InEquilibrium flags' (Spec.LoadCases.firstSystem flags' cs l).scalar? (fun _ => 0) l 0 u') :
    ∃ f, (Spec.LoadCases.firstSystem flags cs l).rawVector? (List.replicate flags.length 0) = some f ∧
      (Spec.LoadCases.firstSystem flags' cs l).rawVector? (List.replicate flags.length 0) = some f ∧
      0 ≤ -Spec.dotL f u' ∧ -Spec.dotL f u' ≤ -Spec.dotL f u := by
  have h' : ∀ c ∈ cs, c.Proper flags'.length := by rw [hl]; exact h
  obtain ⟨f, h1, h2⟩ := loads_eq h h' hl l fun x hx => by
    obtain ⟨K, e1, -, -, g1, -, A0, A1, -, -⟩ := cases_affine flags h
    have a0 := A0.scalar 0 x hx
    have a1 := A1.scalar l x hx
    beta_reduce at a0 a1
    refine ⟨_, _, e1 l + ∑ i ∈ Finset.range flags.length, g1 l i * x.getD i 0, a0, (congrFun (scalar_flags flags flags' _) x).trans a0, ?_, ?_⟩
    · rw [a1]
      congr 1
      simp only [zero_mul, Finset.sum_const_zero, add_zero, zero_add]
      ring
    · rw [scalar_flags flags flags', a1]
      congr 1
      simp only [zero_mul, Finset.sum_const_zero, add_zero, zero_add]
      ring
  refine ⟨f, h1, h2, stiffer h h' hl hs h1 h2 (fun x E E' _ e e' => ?_) hu hu'⟩
  rw [scalar_flags flags flags', e] at e'
  exact (Option.some.inj e').le

theorem mapOpt_append {α β : Type} (f : α → Option β) (xs ys : List α) {as bs : List β} (h : mapOpt f xs = some as) (h' : mapOpt f ys = some bs) :
    mapOpt f (xs ++ ys) = some (as ++ bs) := by
  induction xs generalizing as with
  | nil =>
    obtain rfl := Option.some.inj h
    exact h'
  | cons x xs ih =>
    have h : (f x).bind (fun y => (mapOpt f xs).map (y :: ·)) = some as := h
    show (f x).bind (fun y => (mapOpt f (xs ++ ys)).map (y :: ·)) = _
    cases hx : f x with
    | none => rw [hx] at h; cases h
    | some y =>
      rw [hx, Option.bind_some] at h
      cases hxs : mapOpt f xs with
      | none => rw [hxs] at h; cases h
      | some zs =>
        rw [hxs] at h
        obtain rfl := Option.some.inj h
        rw [Option.bind_some, ih hxs]
        rfl

theorem system_append (flags : List Bool) (xs ys : List Elem) (x : List ℝ) {a b : ℝ} (h : (System.mk flags xs).scalar? x = some a)
    (h' : (System.mk flags ys).scalar? x = some b) : (System.mk flags (xs ++ ys)).scalar? x = some (a + b) := by
  have h : (mapOpt (·.scalar? x) xs).map _ = _ := h
  have h' : (mapOpt (·.scalar? x) ys).map _ = _ := h'
  cases hx : mapOpt (·.scalar? x) xs with
  | none => rw [hx] at h; cases h
  | some as =>
    cases hy : mapOpt (·.scalar? x) ys with
    | none => rw [hy] at h'; cases h'
    | some bs =>
      have e1 := (scalar_sum (System.mk flags xs) x hx).symm.trans h
      have e2 := (scalar_sum (System.mk flags ys) x hy).symm.trans h'
      rw [scalar_sum (System.mk flags (xs ++ ys)) x (mapOpt_append _ _ _ hx hy), List.sum_append, Option.some.inj e1, Option.some.inj e2]

/-- C118, elements. More elements do not make the structure softer. -/
theorem more_elements {ds : List Spec.LoadCases} (h : ∀ c ∈ cs, c.Proper flags.length) (hd : ∀ c ∈ ds, c.Proper flags.length ∧ c.first = [])
    {l : ℝ} {u u' : List ℝ}
    (hu : Spec.InEquilibrium flags (Spec.LoadCases.firstSystem flags cs l).scalar? (fun _ => 0) l 0 u)
    (hu' : Spec.InEquilibrium flags (Spec.LoadCases.firstSystem flags (cs ++ ds) l).scalar? (fun _ => 0) l 0 u') :
    ∃ f, (Spec.LoadCases.firstSystem flags cs l).rawVector? (List.replicate flags.length 0) = some f ∧
      (Spec.LoadCases.firstSystem flags (cs ++ ds) l).rawVector? (List.replicate flags.length 0) = some f ∧
      0 ≤ -Spec.dotL f u' ∧ -Spec.dotL f u' ≤ -Spec.dotL f u := by
  have hd1 : ∀ c ∈ ds, c.Proper flags.length := fun c hc => (hd c hc).1
  have h' : ∀ c ∈ cs ++ ds, c.Proper flags.length := fun c hc => (List.mem_append.1 hc).elim (h c) (hd1 c)
  obtain ⟨K, e1, -, -, g1, -, A0, A1, -, -⟩ := cases_affine flags h
  obtain ⟨D, -, -, -, -, -, B0, -⟩ := cases_affine flags hd1
  have hone : ds.map (·.one) = ds.map (·.bare) := List.map_congr_left fun c hc => by
    show ParamElem.mk c.n c.d c.children c.index (c.stiffness ++ c.first) = _
    rw [(hd c hc).2, List.append_nil]
    rfl
  have hbare : ∀ x : List ℝ, x.length = flags.length → (Spec.LoadCases.bareSystem flags (cs ++ ds)).scalar? x =
      some (1 / 2 * bil K flags.length (x.getD · 0) (x.getD · 0) + 1 / 2 * bil D flags.length (x.getD · 0) (x.getD · 0)) := by
    intro x hx
    have := system_append flags _ _ x (A0.scalar 0 x hx) (B0.scalar 0 x hx)
    rw [← List.map_append, ← List.map_append] at this
    rw [this]
    congr 1
    simp only [zero_mul, Finset.sum_const_zero, add_zero, zero_add]
  obtain ⟨f, h1, h2⟩ := loads_eq h h' rfl l fun x hx => by
    have a0 := A0.scalar 0 x hx
    have a1 := A1.scalar l x hx
    have b1 := system_append flags _ _ x (A1.scalar l x hx) (B0.scalar l x hx)
    rw [← hone, ← List.map_append, ← List.map_append] at b1
    beta_reduce at a0 a1 b1
    refine ⟨_, _, e1 l + ∑ i ∈ Finset.range flags.length, g1 l i * x.getD i 0, a0, hbare x hx, ?_, ?_⟩
    · rw [a1]
      congr 1
      simp only [zero_mul, Finset.sum_const_zero, add_zero, zero_add]
      ring
    · rw [b1]
      congr 1
      simp only [zero_mul, Finset.sum_const_zero, add_zero, zero_add]
      ring
  refine ⟨f, h1, h2, stiffer h h' rfl (fun _ hi => hi) h1 h2 (fun x E E' hx e e' => ?_) hu hu'⟩
  rw [hbare x hx] at e'
  obtain rfl := Option.some.inj e'
  obtain rfl := Option.some.inj ((A0.scalar 0 x hx).symm.trans e)
  have := B0.psd (x.getD · 0)
  simp only [zero_mul, Finset.sum_const_zero, zero_add]
  linarith

/-- The element with other stiffness. -/
def Spec.LoadCases.restiffened (c : Spec.LoadCases) (st : List (ℝ → Skill c.n c.d)) : Spec.LoadCases := { c with stiffness := st }

theorem stiff_load_factor {n d : Nat} (ss : List (ℝ → Skill n d)) (h : ∀ s ∈ ss, Spec.StiffSkill s) (l l' : ℝ) (u : NodeVec n d) :
    Mixin.calculateScalar u (ss.map (· l)) = Mixin.calculateScalar u (ss.map (· l')) := by
  induction ss with
  | nil => rfl
  | cons s ss ih =>
    obtain ⟨K, -, -, hK⟩ := h s List.mem_cons_self
    show ((s l).scalar u).bind _ = ((s l').scalar u).bind _
    rw [(hK l u).1, (hK l' u).1, Option.bind_some, Option.bind_some]
    show (Mixin.calculateScalar u (ss.map (· l))).map _ = (Mixin.calculateScalar u (ss.map (· l'))).map _
    rw [ih fun s hs => h s (List.mem_cons_of_mem _ hs)]

theorem restiffened_case {size : Nat} (c : Spec.LoadCases) (st : List (ℝ → Skill c.n c.d)) (h : c.Proper size)
    (hst : ∀ s ∈ st, Spec.StiffSkill s)
    (hle : ∀ v E E', Mixin.calculateScalar v (c.stiffness.map (· 0)) = some E → Mixin.calculateScalar v (st.map (· 0)) = some E' → E ≤ E')
    (l : ℝ) (x : List ℝ) : (c.bare.at 0).scalar? x = none ∨
    ∃ s s' b, (c.bare.at 0).scalar? x = some s ∧ ((c.restiffened st).bare.at 0).scalar? x = some s' ∧
      (c.one.at l).scalar? x = some (s + b) ∧ ((c.restiffened st).one.at l).scalar? x = some (s' + b) ∧ s ≤ s' := by
  show ((c.bare.at 0).local? x).bind _ = none ∨ ∃ s s' b, ((c.bare.at 0).local? x).bind _ = some s ∧
    ((c.bare.at 0).local? x).bind _ = some s' ∧ ((c.bare.at 0).local? x).bind _ = some (s + b) ∧
    ((c.bare.at 0).local? x).bind _ = some (s' + b) ∧ s ≤ s'
  cases (c.bare.at 0).local? x with
  | none => exact Or.inl rfl
  | some u =>
    right
    change NodeVec c.n c.d at u
    obtain ⟨s, hs, -⟩ := stiff_scalar c.stiffness h.stiff 0 1 u
    obtain ⟨s', hs', -⟩ := stiff_scalar st hst 0 1 u
    obtain ⟨b, hb⟩ := load_scalar c.first h.load l u
    refine ⟨s, s', b, hs, hs', ?_, ?_, hle u s s' hs hs'⟩
    · show Mixin.calculateScalar u ((c.stiffness ++ c.first).map (· l)) = _
      rw [List.map_append]
      exact calculateScalar_append u _ _ ((stiff_load_factor _ h.stiff l 0 u).trans hs) hb
    · show Mixin.calculateScalar u ((st ++ c.first).map (· l)) = _
      rw [List.map_append]
      exact calculateScalar_append u _ _ ((stiff_load_factor _ hst l 0 u).trans hs') hb

theorem mapOpt_map_map_at {α β : Type} (c : α → β) (p : β → ParamElem) (l : ℝ) (x : List ℝ) (as : List α) :
    mapOpt (·.scalar? x) (((as.map c).map p).map (·.at l)) = mapOpt (fun a => ((p (c a)).at l).scalar? x) as := by
  rw [← mapOpt_map_at (fun a => p (c a)), List.map_map (g := p)]
  rfl

theorem restiffened_scalar {α : Type} {size : Nat} (as : List α) (c : α → Spec.LoadCases) (st : ∀ a, List (ℝ → Skill (c a).n (c a).d))
    (h : ∀ a ∈ as, (c a).Proper size) (hst : ∀ a ∈ as, ∀ s ∈ st a, Spec.StiffSkill s)
    (hle : ∀ a ∈ as, ∀ v E E', Mixin.calculateScalar v ((c a).stiffness.map (· 0)) = some E →
      Mixin.calculateScalar v ((st a).map (· 0)) = some E' → E ≤ E') (l : ℝ) (x : List ℝ) :
    mapOpt (fun a => ((c a).bare.at 0).scalar? x) as = none ∨ ∃ S S' A A' : List ℝ,
      mapOpt (fun a => ((c a).bare.at 0).scalar? x) as = some S ∧
      mapOpt (fun a => (((c a).restiffened (st a)).bare.at 0).scalar? x) as = some S' ∧
      mapOpt (fun a => ((c a).one.at l).scalar? x) as = some A ∧
      mapOpt (fun a => (((c a).restiffened (st a)).one.at l).scalar? x) as = some A' ∧ S.sum ≤ S'.sum ∧
      A.sum - S.sum = A'.sum - S'.sum := by
  induction as with
  | nil => exact Or.inr ⟨[], [], [], [], rfl, rfl, rfl, rfl, le_rfl, rfl⟩
  | cons a as ih =>
    rcases restiffened_case (c a) (st a) (h a List.mem_cons_self) (hst a List.mem_cons_self) (hle a List.mem_cons_self) l x with
      hn | ⟨s, s', b, h1, h2, h3, h4, h5⟩
    · left
      show (((c a).bare.at 0).scalar? x).bind _ = _
      rw [hn]; rfl
    · rcases ih (fun a ha => h a (List.mem_cons_of_mem _ ha)) (fun a ha => hst a (List.mem_cons_of_mem _ ha))
        (fun a ha => hle a (List.mem_cons_of_mem _ ha)) with hn | ⟨S, S', A, A', g1, g2, g3, g4, g5, g6⟩
      · left
        show (((c a).bare.at 0).scalar? x).bind _ = _
        rw [h1, Option.bind_some, hn]; rfl
      · refine Or.inr ⟨s :: S, s' :: S', (s + b) :: A, (s' + b) :: A', ?_, ?_, ?_, ?_, ?_, ?_⟩
        · show (((c a).bare.at 0).scalar? x).bind _ = _
          rw [h1, Option.bind_some, g1]; rfl
        · show ((((c a).restiffened (st a)).bare.at 0).scalar? x).bind _ = _
          rw [h2, Option.bind_some, g2]; rfl
        · show (((c a).one.at l).scalar? x).bind _ = _
          rw [h3, Option.bind_some, g3]; rfl
        · show ((((c a).restiffened (st a)).one.at l).scalar? x).bind _ = _
          rw [h4, Option.bind_some, g4]; rfl
        · simp only [List.sum_cons]; linarith
        · simp only [List.sum_cons]; linarith

/-- C118, material. A linear elastic element stores at least as much energy with moduli `C'` as with moduli `C`, if `C' - C` is positive
semidefinite. -/
theorem linearElastic_stiffer {n d q : Nat} {C C' : Matrix (Fin q) (Fin q) ℝ} (hC : (C' - C).PosSemidef) (gps : List (LinPoint n d q))
    (hw : ∀ gp ∈ gps, 0 ≤ gp.detJ * gp.weight) (v : NodeVec n d) {E E' : ℝ}
    (hE : Mixin.calculateScalar v [Skill.linearElastic C gps] = some E) (hE' : Mixin.calculateScalar v [Skill.linearElastic C' gps] = some E') :
    E ≤ E' := by
  have hE : some (LinearElastic.calculateScalar false C gps v + 0) = some E := hE
  have hE' : some (LinearElastic.calculateScalar false C' gps v + 0) = some E' := hE'
  rw [add_zero] at hE hE'
  rw [← Option.some.inj hE, ← Option.some.inj hE', LinearElastic.calculateScalar_sum, LinearElastic.calculateScalar_sum]
  refine List.sum_le_sum fun gp hgp => ?_
  have hp : 0 ≤ gp.strain v ⬝ᵥ ((C' - C) *ᵥ gp.strain v) := by simpa using hC.dotProduct_mulVec_nonneg (gp.strain v)
  rw [Matrix.sub_mulVec, dotProduct_sub] at hp
  have hm := mul_nonneg (hw gp hgp) hp
  rw [LinearElastic.internalEnergy, LinearElastic.internalEnergy]
  linarith

/-- C118, material. Elements that store at least as much energy at each of their displacements do not make the structure softer. -/
theorem stiffer_elements {α : Type} (as : List α) (c : α → Spec.LoadCases) (st : ∀ a, List (ℝ → Skill (c a).n (c a).d))
    (h : ∀ a ∈ as, (c a).Proper flags.length) (hst : ∀ a ∈ as, ∀ s ∈ st a, Spec.StiffSkill s)
    (hle : ∀ a ∈ as, ∀ v E E', Mixin.calculateScalar v ((c a).stiffness.map (· 0)) = some E →
      Mixin.calculateScalar v ((st a).map (· 0)) = some E' → E ≤ E') {l : ℝ} {u u' : List ℝ}
    (hu : Spec.InEquilibrium flags (Spec.LoadCases.firstSystem flags (as.map c) l).scalar? (fun _ => 0) l 0 u)
    (hu' : Spec.InEquilibrium flags (Spec.LoadCases.firstSystem flags (as.map fun a => (c a).restiffened (st a)) l).scalar?
      (fun _ => 0) l 0 u') :
    ∃ f, (Spec.LoadCases.firstSystem flags (as.map c) l).rawVector? (List.replicate flags.length 0) = some f ∧
      (Spec.LoadCases.firstSystem flags (as.map fun a => (c a).restiffened (st a)) l).rawVector? (List.replicate flags.length 0) = some f ∧
      0 ≤ -Spec.dotL f u' ∧ -Spec.dotL f u' ≤ -Spec.dotL f u := by
  have hp : ∀ e ∈ as.map c, e.Proper flags.length := fun e he => by
    obtain ⟨a, ha, rfl⟩ := List.mem_map.1 he
    exact h a ha
  have hr : ∀ a ∈ as, ((c a).restiffened (st a)).Proper flags.length := fun a ha =>
    ⟨(h a ha).fits, hst a ha, (h a ha).load, (h a ha).load'⟩
  have hp' : ∀ e ∈ as.map (fun a => (c a).restiffened (st a)), e.Proper flags.length := fun e he => by
    obtain ⟨a, ha, rfl⟩ := List.mem_map.1 he
    exact hr a ha
  have key := fun x => restiffened_scalar as c st h hst hle l x
  have hE : ∀ x : List ℝ, x.length = flags.length → ∃ s s' b, s ≤ s' ∧
      (Spec.LoadCases.bareSystem flags (as.map c)).scalar? x = some s ∧
      (Spec.LoadCases.bareSystem flags (as.map fun a => (c a).restiffened (st a))).scalar? x = some s' ∧
      (Spec.LoadCases.firstSystem flags (as.map c) l).scalar? x = some (s + b) ∧
      (Spec.LoadCases.firstSystem flags (as.map fun a => (c a).restiffened (st a)) l).scalar? x = some (s' + b) := by
    intro x hx
    obtain ⟨K, e1, e2, e3, g1, g2, A0, -⟩ := cases_affine flags hp
    have a0 := A0.scalar 0 x hx
    rcases key x with hn | ⟨S, S', A, A', g1, g2, g3, g4, g5, g6⟩
    · have : (Spec.LoadCases.bareSystem flags (as.map c)).scalar? x = none := by
        show (mapOpt _ ((List.map _ (as.map c)).map _)).map _ = none
        rw [mapOpt_map_map_at]
        show (mapOpt (fun a => ((c a).bare.at 0).scalar? x) as).map _ = none
        rw [hn]
        rfl
      exact absurd (this.symm.trans a0) (by simp)
    · refine ⟨S.sum, S'.sum, A.sum - S.sum, g5, ?_, ?_, ?_, ?_⟩
      · refine scalar_sum _ x ?_
        show mapOpt _ ((List.map _ (as.map c)).map _) = _
        rw [mapOpt_map_map_at]
        exact g1
      · refine scalar_sum _ x ?_
        show mapOpt _ ((List.map _ (as.map _)).map _) = _
        rw [mapOpt_map_map_at]
        exact g2
      · rw [add_sub_cancel]
        refine scalar_sum _ x ?_
        show mapOpt _ ((List.map _ (as.map c)).map _) = _
        rw [mapOpt_map_map_at]
        exact g3
      · rw [show S'.sum + (A.sum - S.sum) = A'.sum by linarith]
        refine scalar_sum _ x ?_
        show mapOpt _ ((List.map _ (as.map _)).map _) = _
        rw [mapOpt_map_map_at]
        exact g4
  obtain ⟨f, h1, h2⟩ := loads_eq hp hp' rfl l fun x hx => by
    obtain ⟨s, s', b, -, q⟩ := hE x hx
    exact ⟨s, s', b, q⟩
  refine ⟨f, h1, h2, stiffer hp hp' rfl (fun _ hi => hi) h1 h2 (fun x E E' hx e e' => ?_) hu hu'⟩
  obtain ⟨s, s', b, q, q1, q2, -⟩ := hE x hx
  rw [q1] at e
  rw [q2] at e'
  obtain rfl := Option.some.inj e
  obtain rfl := Option.some.inj e'
  exact q

end

/-! ### Example -/

/-- A load that grows with the distance from the left edge. -/
def exampleWind : LoadFunction 2 := fun x l => ![l * x 0, 0]

/-- The mesh with its weight as first and the wind as second load. -/
noncomputable def exampleCase (C : Matrix (Fin 3) (Fin 3) ℝ) (e : Spec.SolidElem 2) : Spec.LoadCases :=
  ⟨e.n, 2, e.children, e.index, [fun _ => Skill.linearElastic C (e.points.map (Spec.linearPoint EAS.plane))],
    [fun l => Skill.volumeLoad (some exampleWeight) e.volume l], [fun l => Skill.volumeLoad (some exampleWind) e.volume l]⟩

noncomputable def exampleCases : List Spec.LoadCases := exampleSolids.map (exampleCase exampleMeshC)

theorem exampleSolids_weights : ∀ e ∈ exampleSolids, ∀ gp ∈ e.points.map (Spec.linearPoint EAS.plane), 0 ≤ gp.detJ * gp.weight := by
  intro e he gp hgp
  obtain ⟨p, hp, rfl⟩ := List.mem_map.1 hgp
  obtain ⟨q, hq, rfl⟩ := List.mem_map.1 he
  obtain ⟨g, hg, rfl⟩ := List.mem_map.1 hp
  exact mul_nonneg (abs_nonneg _) ((EAS.gauss_exact 2).1.2 g hg).le

theorem exampleCase_stiff {C : Matrix (Fin 3) (Fin 3) ℝ} (hC : C.PosDef) {e : Spec.SolidElem 2} (he : e ∈ exampleSolids) :
    ∀ s ∈ (exampleCase C e).stiffness, Spec.StiffSkill s := by
  intro s hs
  obtain rfl := List.mem_singleton.1 hs
  exact linearElastic_stiff _ (by simpa using hC.isHermitian) hC.posSemidef _ (exampleSolids_weights e he)

theorem exampleCase_proper {C : Matrix (Fin 3) (Fin 3) ℝ} (hC : C.PosDef) {e : Spec.SolidElem 2} (he : e ∈ exampleSolids) :
    (exampleCase C e).Proper 14 where
  fits := (exampleSolids_placed e he).1
  stiff := exampleCase_stiff hC he
  load s hs := by
    obtain rfl := List.mem_singleton.1 hs
    exact volumeLoad_load _ _
  load' s hs := by
    obtain rfl := List.mem_singleton.1 hs
    exact volumeLoad_load _ _

theorem exampleCases_proper : ∀ c ∈ exampleCases, c.Proper 14 := by
  intro c hc
  obtain ⟨e, he, rfl⟩ := List.mem_map.1 hc
  exact exampleCase_proper exampleMeshC_posDef he

theorem exampleCases_supported : Spec.Supported exampleMeshFlags (Spec.LoadCases.bareSystem exampleMeshFlags exampleCases).scalar? := by
  have h : Spec.LoadCases.bareSystem exampleMeshFlags exampleCases =
      System.mk exampleMeshFlags ((exampleMesh.quads.map (exampleMesh.param exampleMeshC)).map (·.at 0)) := by
    unfold exampleCases exampleSolids
    show System.mk _ (List.map _ (List.map _ (List.map _ (List.map _ _)))) = System.mk _ (List.map _ (List.map _ _))
    rw [List.map_map, List.map_map, List.map_map, List.map_map]
    rfl
  rw [h]
  exact exampleMesh_supported 0

/-- The supports of the mesh, moved by `k` times the displacements of the example. -/
noncomputable def exampleMoves (ks : List ℝ) : DirichletValues ℝ :=
  ⟨exampleMeshFlags, 0, ks.map fun k => ⟨fun l i => l * (k * exampleMeshSupport i), fun _ i => k * exampleMeshSupport i, 0⟩, fun _ => true⟩

/-- Runs of the mesh. -/
noncomputable def exampleCaseRun (o : DBCOption) (ks : List ℝ) (es : List ParamElem) : Analysis :=
  { exampleMeshAnalysis o with dv := exampleMoves ks, elems := es }

theorem exampleCaseRun_proper (o : DBCOption) (ho : o ≠ .raw) (ks : List ℝ) (es : List ParamElem) (he : Spec.LinearElems 14 es)
    (hs : ∀ l, Spec.Supported exampleMeshFlags (System.mk exampleMeshFlags (es.map (·.at l))).scalar?) {û : Nat → ℝ}
    (hû : ∀ i, û i = ks.sum * exampleMeshSupport i) :
    Spec.ProperLinear (exampleCaseRun o ks es) û where
  option := ho
  elems := he
  prescribed := by
    have hsum : ∀ (l : ℝ) i, (ks.map fun k => l * (k * exampleMeshSupport i)).sum = l * û i := by
      intro l i
      rw [hû, List.sum_map_mul_left, List.sum_map_mul_right, List.map_id']
    refine ⟨fun l i _ => ?_, fun i _ => ?_, fun i hi hne => ?_⟩
    · simp only [Spec.prescribed, Spec.total, exampleCaseRun, exampleMoves, List.map_map, if_true]
      exact hsum l i
    · have := hsum 1 i
      simp only [one_mul] at this
      simp only [Spec.total, exampleCaseRun, exampleMoves, List.map_map, if_true]
      exact this
    · have h2 : 2 ≤ i := by
        by_contra h
        exact hne (by rw [hû, exampleMeshSupport, if_neg h, mul_zero])
      have hi : i < 14 := hi
      show exampleMeshFlags[i]? = some true
      interval_cases i <;> rfl
  force := Or.inl rfl
  alive _ _ := rfl
  bound _ h := absurd h (by simp [exampleCaseRun, exampleMeshAnalysis])
  linSolve l x hx A hA := inverseSolve_solves (exampleCaseRun o ks es) ho he hs l x hx A hA

/-- Weight and moved supports, wind and supports moved three times as far, and all together, with different options. -/
example := linear_load_control_superposes (cs := exampleCases) (a := exampleCaseRun .full [1] (exampleCases.map (·.one)))
  (b := exampleCaseRun .reduced [3] (exampleCases.map (·.two))) (c := exampleCaseRun .full [1, 3] (exampleCases.map (·.both)))
  (û := exampleMeshSupport) (û' := fun i => 3 * exampleMeshSupport i)
  (exampleCaseRun_proper .full (by decide) [1] _ (cases_linear exampleCases_proper).2.1
    (fun l => (supported_cases exampleCases_proper l).1.2 exampleCases_supported) fun i => by simp)
  (exampleCaseRun_proper .reduced (by decide) [3] _ (cases_linear exampleCases_proper).2.2.1
    (fun l => (supported_cases exampleCases_proper l).2.1.2 exampleCases_supported) fun i => by simp)
  (exampleCaseRun_proper .full (by decide) [1, 3] _ (cases_linear exampleCases_proper).2.2.2
    (fun l => (supported_cases exampleCases_proper l).2.2.2 exampleCases_supported) fun i => by simp; ring)
  exampleCases_proper rfl rfl rfl rfl rfl
  ⟨by norm_num [exampleCaseRun, exampleMeshAnalysis], by norm_num [exampleCaseRun, exampleMeshAnalysis], by norm_num [exampleCaseRun, exampleMeshAnalysis]⟩
  ⟨by norm_num [exampleCaseRun, exampleMeshAnalysis], by norm_num [exampleCaseRun, exampleMeshAnalysis], by norm_num [exampleCaseRun, exampleMeshAnalysis]⟩
  ⟨by norm_num [exampleCaseRun, exampleMeshAnalysis], by norm_num [exampleCaseRun, exampleMeshAnalysis], by norm_num [exampleCaseRun, exampleMeshAnalysis]⟩
  le_rfl le_rfl le_rfl exampleCases_supported 4 (by norm_num) 0 1 0 (x := List.replicate 14 0) (y := List.replicate 14 0)
  (z := List.replicate 14 0) rfl rfl rfl
  (fun i hi => by
    have hi : i < 14 := (List.getElem?_eq_some_iff.1 hi).1
    rw [List.getElem?_replicate, if_pos hi, zero_mul])
  (fun i hi => by
    have hi : i < 14 := (List.getElem?_eq_some_iff.1 hi).1
    rw [List.getElem?_replicate, if_pos hi, zero_mul])
  (fun i hi => by
    have hi : i < 14 := (List.getElem?_eq_some_iff.1 hi).1
    rw [List.getElem?_replicate, if_pos hi, zero_mul])
  (fun k hk _ h0 => by
    have : (0 : ℝ) < k := by exact_mod_cast hk
    norm_num at h0
    omega)

/-- The supports of the mesh and one more. -/
def exampleMoreFlags : List Bool := true :: exampleMeshFlags.tail

/-- The mesh with fixed supports. -/
noncomputable def exampleFixedRun (flags : List Bool) (es : List ParamElem) : Analysis :=
  { exampleMeshAnalysis .full with dv := ⟨flags, 0, [], fun _ => true⟩, elems := es }

/-- A linear structure with sufficient fixed supports has a state in equilibrium. -/
theorem exampleFixed_equilibrium (flags : List Bool) (es : List ParamElem) (he : Spec.LinearElems flags.length es)
    (hs : ∀ l, Spec.Supported flags (System.mk flags (es.map (·.at l))).scalar?) :
    ∃ u, Spec.InEquilibrium flags (System.mk flags (es.map (·.at 1))).scalar? (fun _ => 0) 1 0 u := by
  have hp : Spec.ProperLinear (exampleFixedRun flags es) fun _ => 0 :=
    { option := fun h => nomatch h
      elems := he
      prescribed := by
        refine ⟨fun l i _ => ?_, fun i _ => ?_, fun i _ hne => absurd rfl hne⟩
        · simp [Spec.prescribed, Spec.total, exampleFixedRun]
        · simp [Spec.total, exampleFixedRun]
      force := Or.inl rfl
      alive := fun _ _ => rfl
      bound := fun _ h => absurd h (by simp [exampleFixedRun, exampleMeshAnalysis])
      linSolve := fun l x hx A hA => inverseSolve_solves (exampleFixedRun flags es) (fun h => nomatch h) he hs l x hx A hA }
  obtain ⟨r, us, -, -, -, -, h⟩ := linear_run_exact hp
    ⟨by norm_num [exampleFixedRun, exampleMeshAnalysis], by norm_num [exampleFixedRun, exampleMeshAnalysis],
      by norm_num [exampleFixedRun, exampleMeshAnalysis]⟩ le_rfl 1 one_pos 0 1 0 (x0 := List.replicate flags.length 0)
    List.length_replicate (fun i hi => by
      have hi : i < flags.length := (List.getElem?_eq_some_iff.1 hi).1
      rw [List.getElem?_replicate, if_pos hi, zero_mul]) (fun _ _ _ _ _ _ => rfl)
  have := h 1 le_rfl
  norm_num at this
  exact ⟨us 1, this⟩

/-- Reciprocity and energy of the mesh under weight and wind. -/
example : ∃ u v f f' E, Spec.InEquilibrium exampleMeshFlags (Spec.LoadCases.firstSystem exampleMeshFlags exampleCases 1).scalar? (fun _ => 0) 1 0 u ∧
    Spec.InEquilibrium exampleMeshFlags (Spec.LoadCases.secondSystem exampleMeshFlags exampleCases 1).scalar? (fun _ => 0) 1 0 v ∧
    (Spec.LoadCases.firstSystem exampleMeshFlags exampleCases 1).rawVector? (List.replicate 14 0) = some f ∧
    (Spec.LoadCases.secondSystem exampleMeshFlags exampleCases 1).rawVector? (List.replicate 14 0) = some f' ∧
    Spec.dotL f v = Spec.dotL f' u ∧ (Spec.LoadCases.bareSystem exampleMeshFlags exampleCases).scalar? u = some E ∧
    E = -(1 / 2) * Spec.dotL f u := by
  obtain ⟨u, hu⟩ := exampleFixed_equilibrium exampleMeshFlags _ (cases_linear exampleCases_proper).2.1
    (fun l => (supported_cases exampleCases_proper l).1.2 exampleCases_supported)
  obtain ⟨v, hv⟩ := exampleFixed_equilibrium exampleMeshFlags _ (cases_linear exampleCases_proper).2.2.1
    (fun l => (supported_cases exampleCases_proper l).2.1.2 exampleCases_supported)
  obtain ⟨f, f', h1, h2, h3⟩ := reciprocity_fixed exampleCases_proper hu hv
  obtain ⟨q, E, h4, h5, h6⟩ := stored_energy exampleCases_proper hu
  obtain rfl := Option.some.inj (h1.symm.trans h4)
  exact ⟨u, v, f, f', E, hu, hv, h1, h2, h3, h5, h6⟩

theorem exampleMore_supported : Spec.Supported exampleMoreFlags (Spec.LoadCases.bareSystem exampleMoreFlags exampleCases).scalar? := by
  intro x v hx hv h0 hne
  refine exampleCases_supported x v hx hv (fun i hi => h0 i ?_) hne
  rcases i with _ | i
  · cases hi
  · exact hi

/-- One more support. -/
example : ∃ u u' f, Spec.InEquilibrium exampleMeshFlags (Spec.LoadCases.firstSystem exampleMeshFlags exampleCases 1).scalar? (fun _ => 0) 1 0 u ∧
    Spec.InEquilibrium exampleMoreFlags (Spec.LoadCases.firstSystem exampleMoreFlags exampleCases 1).scalar? (fun _ => 0) 1 0 u' ∧
    (Spec.LoadCases.firstSystem exampleMeshFlags exampleCases 1).rawVector? (List.replicate 14 0) = some f ∧
    0 ≤ -Spec.dotL f u' ∧ -Spec.dotL f u' ≤ -Spec.dotL f u := by
  obtain ⟨u, hu⟩ := exampleFixed_equilibrium exampleMeshFlags _ (cases_linear exampleCases_proper).2.1
    (fun l => (supported_cases exampleCases_proper l).1.2 exampleCases_supported)
  obtain ⟨u', hu'⟩ := exampleFixed_equilibrium exampleMoreFlags _ (cases_linear exampleCases_proper).2.1
    (fun l => (supported_cases (flags := exampleMoreFlags) exampleCases_proper l).1.2 exampleMore_supported)
  obtain ⟨f, h1, -, h2⟩ := more_supports (flags := exampleMeshFlags) (flags' := exampleMoreFlags) exampleCases_proper rfl (fun i hi => by
    rcases i with _ | i
    · rfl
    · exact hi) hu hu'
  exact ⟨u, u', f, hu, hu', h1, h2⟩

/-- The mesh with all elements doubled: the second ones carry no loads. -/
noncomputable def exampleDoubles : List Spec.LoadCases := exampleSolids.map fun e => { exampleCase exampleMeshC e with first := [] }

theorem exampleDoubles_proper : ∀ c ∈ exampleDoubles, c.Proper 14 ∧ c.first = [] := by
  intro c hc
  obtain ⟨e, he, rfl⟩ := List.mem_map.1 hc
  have h := exampleCase_proper exampleMeshC_posDef he
  exact ⟨⟨h.fits, h.stiff, fun s hs => absurd hs List.not_mem_nil, h.load'⟩, rfl⟩

/-- More elements. -/
example {u u' : List ℝ}
    (hu : Spec.InEquilibrium exampleMeshFlags (Spec.LoadCases.firstSystem exampleMeshFlags exampleCases 1).scalar? (fun _ => 0) 1 0 u)
    (hu' : Spec.InEquilibrium exampleMeshFlags (Spec.LoadCases.firstSystem exampleMeshFlags (exampleCases ++ exampleDoubles) 1).scalar?
      (fun _ => 0) 1 0 u') := more_elements exampleCases_proper exampleDoubles_proper hu hu'

theorem exampleStiffer : (exampleMeshC + exampleMeshC - exampleMeshC).PosSemidef := by
  rw [add_sub_cancel_right]
  exact exampleMeshC_posDef.posSemidef

/-- A stiffer material. -/
example {u u' : List ℝ}
    (hu : Spec.InEquilibrium exampleMeshFlags (Spec.LoadCases.firstSystem exampleMeshFlags exampleCases 1).scalar? (fun _ => 0) 1 0 u)
    (hu' : Spec.InEquilibrium exampleMeshFlags (Spec.LoadCases.firstSystem exampleMeshFlags
      (exampleSolids.map fun e => (exampleCase exampleMeshC e).restiffened (exampleCase (exampleMeshC + exampleMeshC) e).stiffness) 1).scalar?
      (fun _ => 0) 1 0 u') :=
  stiffer_elements (flags := exampleMeshFlags) exampleSolids (exampleCase exampleMeshC) (fun e => (exampleCase (exampleMeshC + exampleMeshC) e).stiffness)
    (fun e he => exampleCase_proper exampleMeshC_posDef he) (fun e he => exampleCase_stiff (exampleMeshC_posDef.add exampleMeshC_posDef) he)
    (fun e he v E E' h h' => linearElastic_stiffer exampleStiffer _ (exampleSolids_weights e he) v h h') hu hu'

end Ikarus
