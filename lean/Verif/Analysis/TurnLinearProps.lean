import Verif.Analysis.TurnSolidProps

/-!
C114, load control: a linear structure that is turned with its loads and supports shows the turned displacements.
-/

namespace Ikarus

open Matrix Element Element.Spec Assembler

variable {k d q : Nat} {Q : Matrix (Fin d) (Fin d) ℝ} {T : Matrix (Fin q) (Fin q) ℝ} {flags : List Bool}
  {L : Spec.Layout k d flags.length}

/-! ### Specification -/

/-- Turned states have the same energy. -/
def Spec.SameTurned (L : Spec.Layout k d flags.length) (Q : Matrix (Fin d) (Fin d) ℝ) (E E' : List ℝ → Option ℝ) : Prop :=
  ∀ x x', Spec.TurnedList L Q x x' → E' x' = E x

/-- The displacements of the supports are turned. -/
def Spec.TurnedSupports (L : Spec.Layout k d flags.length) (Q : Matrix (Fin d) (Fin d) ℝ) (û û' : Nat → ℝ) : Prop :=
  ∀ p a, û' (L.dof p a) = ∑ b, Q a b * û (L.dof p b)

/-! ### Equilibrium -/

theorem sameTurned_back (hQ : Qᵀ * Q = 1) {E E' : List ℝ → Option ℝ} (h : Spec.SameTurned L Q E E') : Spec.SameTurned L Qᵀ E' E := by
  intro x x' hx
  have := turned_back (Q := Qᵀ) (by rw [Matrix.transpose_transpose]; exact orth_comm hQ) hx
  rw [Matrix.transpose_transpose] at this
  exact (h x' x this).symm

theorem turnedSupports_back (hQ : Qᵀ * Q = 1) {û û' : Nat → ℝ} (h : Spec.TurnedSupports L Q û û') : Spec.TurnedSupports L Qᵀ û' û := by
  intro p a
  have e : (fun b => û' (L.dof p b)) = Q *ᵥ fun b => û (L.dof p b) := funext fun b => h p b
  have e2 : Qᵀ *ᵥ (fun b => û' (L.dof p b)) = fun b => û (L.dof p b) := by rw [e, Matrix.mulVec_mulVec, hQ, Matrix.one_mulVec]
  exact (congrFun e2 a).symm

theorem not_free_node (hf : Spec.Unmixed flags L Q) {p : Fin k} {a : Fin d} (h : flags[L.dof p a]? = some true) (b : Fin d)
    (hq : Q a b ≠ 0) : flags[L.dof p b]? = some true := by
  have hlt := L.bound p b
  rw [← not_free_iff hlt]
  intro hb
  have := (hf p a b hq).2 hb
  rw [Spec.Free, h] at this
  exact absurd this (by simp)

theorem onSupports_turn (hf : Spec.Unmixed flags L Q) {û û' : Nat → ℝ} (hû : Spec.TurnedSupports L Q û û') {l : ℝ} {x x' : List ℝ}
    (hx : Spec.TurnedList L Q x x') (h : ∀ i : Nat, flags[i]? = some true → x[i]? = some (l * û i)) :
    ∀ i : Nat, flags[i]? = some true → x'[i]? = some (l * û' i) := by
  intro i hi
  have hlt : i < flags.length := (List.getElem?_eq_some_iff.1 hi).1
  obtain ⟨p, a, rfl⟩ := L.all i hlt
  rw [getElem?_eq_getD (by rw [hx.length']; exact hlt), hx.value, hû, Finset.mul_sum]
  refine congrArg some (Finset.sum_congr rfl fun b _ => ?_)
  by_cases hq : Q a b = 0
  · rw [hq, zero_mul, zero_mul, mul_zero]
  rw [List.getD_eq_getElem?_getD, h _ (not_free_node hf hi b hq), Option.getD_some]
  ring

theorem distance_turn (hQ : Qᵀ * Q = 1) {x x' y y' : List ℝ} (hx : Spec.TurnedList L Q x x') (hy : Spec.TurnedList L Q y y') :
    Spec.distance x' y' = Spec.distance x y := by
  unfold Spec.distance
  rw [zipWith_sum_range _ _ _ flags.length hx.length' hy.length', zipWith_sum_range _ _ _ flags.length hx.length hy.length,
    layout_sum L, layout_sum L]
  congr 1
  refine Finset.sum_congr rfl fun p _ => ?_
  have e : (fun a => x'.getD (L.dof p a) 0 - y'.getD (L.dof p a) 0) = Q *ᵥ fun a => x.getD (L.dof p a) 0 - y.getD (L.dof p a) 0 := by
    have h1 := turned_node L hx p
    have h2 := turned_node L hy p
    have : (fun a => x.getD (L.dof p a) 0 - y.getD (L.dof p a) 0) = (fun a => x.getD (L.dof p a) 0) - fun a => y.getD (L.dof p a) 0 := rfl
    rw [this, Matrix.mulVec_sub, ← h1, ← h2]
    rfl
  have := orth_dot hQ (fun a => x.getD (L.dof p a) 0 - y.getD (L.dof p a) 0) (fun a => x.getD (L.dof p a) 0 - y.getD (L.dof p a) 0)
  rw [← e] at this
  simp only [dotProduct] at this
  simpa only [sq, pow_two] using this

theorem equilibrium_turn' (hQ : Qᵀ * Q = 1) (hf : Spec.Unmixed flags L Q) {E E' : List ℝ → Option ℝ} (hE : Spec.SameTurned L Q E E')
    {û û' : Nat → ℝ} (hû : Spec.TurnedSupports L Q û û') {l tol : ℝ} {x x' : List ℝ} (hx : Spec.TurnedList L Q x x')
    (h : Spec.InEquilibrium flags E û l tol x) : Spec.InEquilibrium flags E' û' l tol x' := by
  obtain ⟨h1, h2, e, h3, h4⟩ := h
  refine ⟨hx.length', onSupports_turn hf hû hx h2, e, (hE x x' hx).trans h3, fun y' hy' hs => ?_⟩
  obtain ⟨y, hy⟩ := turned_from (L := L) hQ hy'
  obtain ⟨e', g1, g2⟩ := h4 y hy.length (onSupports_turn (unmixed_transpose L hf) (turnedSupports_back hQ hû) (turned_back hQ hy) hs)
  exact ⟨e', (hE y y' hy).trans g1, by rw [distance_turn hQ hx hy]; exact g2⟩

/-- C114, equilibrium. If turned states have the same energy and the supports, which the turning does not mix with free dofs, are turned, a state is in
equilibrium up to a tolerance if and only if the turned state is. -/
theorem equilibrium_turn (hQ : Qᵀ * Q = 1) (hf : Spec.Unmixed flags L Q) {E E' : List ℝ → Option ℝ} (hE : Spec.SameTurned L Q E E')
    {û û' : Nat → ℝ} (hû : Spec.TurnedSupports L Q û û') {l tol : ℝ} {x x' : List ℝ} (hx : Spec.TurnedList L Q x x') :
    Spec.InEquilibrium flags E' û' l tol x' ↔ Spec.InEquilibrium flags E û l tol x :=
  ⟨equilibrium_turn' (Q := Qᵀ) (by rw [Matrix.transpose_transpose]; exact orth_comm hQ) (unmixed_transpose L hf) (sameTurned_back hQ hE)
    (turnedSupports_back hQ hû) (turned_back hQ hx), equilibrium_turn' hQ hf hE hû hx⟩

/-- C114, supports. Supports that suffice for the structure suffice for the turned one. -/
theorem supported_turn (hQ : Qᵀ * Q = 1) (hf : Spec.Unmixed flags L Q) {E E' : List ℝ → Option ℝ} (hE : Spec.SameTurned L Q E E')
    (h : Spec.Supported flags E) : Spec.Supported flags E' := by
  intro x' v' hx' hv' h0 hne
  obtain ⟨x, hx⟩ := turned_from (L := L) hQ hx'
  obtain ⟨v, hv⟩ := turned_from (L := L) hQ hv'
  have hline : ∀ t, Spec.TurnedList L Q (Spec.line x v t) (Spec.line x' v' t) := by
    intro t
    have e1 : x.length = v.length := hx.length.trans hv.length.symm
    have e2 : x'.length = v'.length := hx'.trans hv'.symm
    refine ⟨(line_length x v t e1).trans hx.length, (line_length x' v' t e2).trans hx', fun p a => ?_⟩
    rw [line_getD x' v' t e2, hx.value, hv.value, Finset.mul_sum, ← Finset.sum_add_distrib]
    refine Finset.sum_congr rfl fun b _ => ?_
    rw [line_getD x v t e1]
    ring
  have hv0 : ∀ i : Nat, flags[i]? = some true → v[i]? = some 0 := by
    have := onSupports_turn (l := 0) (unmixed_transpose L hf) (û := fun _ => 0) (û' := fun _ => 0) (fun p a => by simp) (turned_back hQ hv)
      (fun i hi => by rw [zero_mul]; exact h0 i hi)
    simpa only [mul_zero] using this
  have hvn : ∃ c ∈ v, c ≠ 0 := by
    by_contra hall
    push Not at hall
    obtain ⟨c, hc, hcn⟩ := hne
    obtain ⟨i, hi, rfl⟩ := List.mem_iff_getElem.1 hc
    apply hcn
    have hz : ∀ j, v.getD j 0 = 0 := fun j => by
      rw [List.getD_eq_getElem?_getD]
      cases hj : v[j]? with
      | none => rfl
      | some w => exact hall w (List.mem_of_getElem? hj)
    obtain ⟨p, a, hpa⟩ := L.all i (by rw [← hv']; exact hi)
    have hval := hv.value p a
    simp only [hz, mul_zero, Finset.sum_const_zero] at hval
    rw [hpa, List.getD_eq_getElem?_getD, List.getElem?_eq_getElem hi] at hval
    exact hval
  obtain ⟨e1, e2, e3, g1, g2, g3, g4⟩ := h x v hx.length hv.length hv0 hvn
  exact ⟨e1, e2, e3, (hE _ _ (hline 1)).trans g1, (hE _ _ (hline (-1))).trans g2, (hE _ _ hx).trans g3, g4⟩

/-! ### Load control -/

/-- C114, load control. Two linear structures of which the second is the first one turned: the same numbers of the dofs, turned
states have the same energy, and the supports are turned, which mixes no free dofs with held ones. Load control of the turned structure shows, step
by step, the turned displacements, for any options, settings and linear solvers that solve their systems and make an iteration. -/
theorem linear_load_control_turn {a b : Analysis} {û û' : Nat → ℝ} (ha : Spec.ProperLinear a û) (hb : Spec.ProperLinear b û')
    (hfl : b.dv.flags = a.dv.flags) (hsa : Spec.Settings a.settings 1) (hsb : Spec.Settings b.settings 1)
    (hma : 1 ≤ a.settings.minIter) (hmb : 1 ≤ b.settings.minIter) (hsup : ∀ l, Spec.Supported a.dv.flags (a.system l).scalar?)
    (L : Spec.Layout k d a.dv.flags.length) (hQ : Qᵀ * Q = 1) (hf : Spec.Unmixed a.dv.flags L Q)
    (hE : ∀ l, Spec.SameTurned L Q (a.system l).scalar? (b.system l).scalar?) (hû : Spec.TurnedSupports L Q û û')
    (n : Nat) (hn : 0 < n) (tbegin tend l0 : ℝ) {x0 x0' : List ℝ} (hx0 : Spec.TurnedList L Q x0 x0')
    (hc0 : ∀ i : Nat, a.dv.flags[i]? = some true → x0[i]? = some (l0 * û i))
    (hz : ∀ k : Nat, 0 < k → k ≤ n → l0 + k * ((tend - tbegin) / n) = 0 → ∀ i < a.dv.flags.length, û i = 0) :
    ∃ (ra rb : LCState ℝ (Option (List ℝ)) ℝ (Option (List ℝ))) (ua ub : Nat → List ℝ),
      a.loadControl? n tbegin tend ⟨l0, some x0⟩ = some ra ∧ b.loadControl? n tbegin tend ⟨l0, some x0'⟩ = some rb ∧
      ra.info.success = true ∧ rb.info.success = true ∧
      Spec.shown ra = (List.range (n + 1)).map (fun k : Nat => ⟨l0 + k * ((tend - tbegin) / n), some (ua k)⟩) ∧
      Spec.shown rb = (List.range (n + 1)).map (fun k : Nat => ⟨l0 + k * ((tend - tbegin) / n), some (ub k)⟩) ∧
      ∀ k ≤ n, Spec.TurnedList L Q (ua k) (ub k) := by
  have hz' : ∀ k : Nat, 0 < k → k ≤ n → l0 + k * ((tend - tbegin) / n) = 0 → ∀ i < b.dv.flags.length, û' i = 0 := by
    intro k hk hkn h0 i hi
    rw [hfl] at hi
    obtain ⟨p, c, rfl⟩ := L.all i hi
    rw [hû]
    exact Finset.sum_eq_zero fun e _ => by rw [hz k hk hkn h0 _ (L.bound p e), mul_zero]
  obtain ⟨ra, ua, a1, a2, a3, -, a4, a5⟩ := linear_load_control ha hsa n hn tbegin tend l0 hx0.length hc0 hz
  obtain ⟨rb, ub, b1, b2, b3, -, b4, b5⟩ := linear_load_control hb hsb n hn tbegin tend l0 (by rw [hfl]; exact hx0.length')
    (by rw [hfl]; exact onSupports_turn hf hû hx0 hc0) hz'
  have hsh : ∀ r : LCState ℝ (Option (List ℝ)) ℝ (Option (List ℝ)), Spec.shown r = r.trace.filterMap (fun ev => match ev with
      | .notify .solutionChanged x _ _ => some x
      | _ => none) := by
    intro r
    unfold Spec.shown
    congr 1
    funext ev
    cases ev <;> first | rfl | (rename_i msg _ _ _; cases msg <;> rfl)
  refine ⟨ra, rb, ua, ub, a1, b1, a2, b2, (hsh ra).trans a4, (hsh rb).trans b4, fun k hk => ?_⟩
  obtain ⟨ia, hia⟩ : ∃ i, ra.info.solverInfos[k]? = some i := ⟨_, List.getElem?_eq_getElem (by omega)⟩
  obtain ⟨ib, hib⟩ : ∃ i, rb.info.solverInfos[k]? = some i := ⟨_, List.getElem?_eq_getElem (by omega)⟩
  obtain ⟨-, a6, -, a7⟩ := (a5 k hk).2 ia hia
  obtain ⟨-, b6, -, b7⟩ := (b5 k hk).2 ib hib
  have a8 := a7 (by omega)
  have b8 := b7 (by omega)
  rw [hfl] at b8
  obtain ⟨w, hw⟩ := turned_from (L := L) hQ b8.1
  have := equilibrium_unique _ _ _ _ (hsup _) _ _ a8 ((equilibrium_turn hQ hf (hE _) hû hw).1 b8)
  rw [this]
  exact hw

/-- C94, supports. For a linear structure the supports suffice under all loads if they suffice under one. -/
theorem supported_all {sys : ℝ → System} {K : DMat ℝ} {e : ℝ → ℝ} {g : ℝ → Nat → ℝ}
    (hA : AffineSystem sys flags.length K e g) {l0 : ℝ} (h : Spec.Supported flags (sys l0).scalar?) (l : ℝ) :
    Spec.Supported flags (sys l).scalar? := by
  intro x v hx hv h0 hne
  have hline : ∀ t, (Spec.line x v t).length = flags.length := fun t => (line_length x v t (hx.trans hv.symm)).trans hx
  have key : ∀ l, ∃ p q r, (sys l).scalar? (Spec.line x v 1) = some p ∧ (sys l).scalar? (Spec.line x v (-1)) = some q ∧
      (sys l).scalar? x = some r ∧ p + q = 2 * r + bil K flags.length (v.getD · 0) (v.getD · 0) := by
    intro l
    obtain ⟨E, p, g1, g2, g3⟩ := energy_difference hA l hx (hline 1)
    obtain ⟨E', q, g1', g2', g3'⟩ := energy_difference hA l hx (hline (-1))
    obtain rfl := Option.some.inj (g1.symm.trans g1')
    refine ⟨p, q, E, g2, g2', g1, ?_⟩
    have hd : ∀ t i, (Spec.line x v t).getD i 0 - x.getD i 0 = t * v.getD i 0 := fun t i => by
      rw [line_getD x v t (hx.trans hv.symm)]
      ring
    simp only [hd] at g3 g3'
    have hb : bil K flags.length (fun i => -1 * v.getD i 0) (fun i => -1 * v.getD i 0) = bil K flags.length (v.getD · 0) (v.getD · 0) := by
      unfold bil
      exact Finset.sum_congr rfl fun i _ => Finset.sum_congr rfl fun j _ => by ring
    have hs : ∑ i ∈ Finset.range flags.length, Analysis.resAt K g flags.length l x i * (-1 * v.getD i 0) =
        -∑ i ∈ Finset.range flags.length, Analysis.resAt K g flags.length l x i * v.getD i 0 := by
      rw [← Finset.sum_neg_distrib]
      exact Finset.sum_congr rfl fun i _ => by ring
    rw [hb, hs] at g3'
    simp only [one_mul] at g3
    rw [g3, g3']
    ring
  obtain ⟨p, q, r, g1, g2, g3, g4⟩ := h x v hx hv h0 hne
  obtain ⟨p', q', r', k1, k2, k3, k4⟩ := key l0
  obtain rfl := Option.some.inj (g1.symm.trans k1)
  obtain rfl := Option.some.inj (g2.symm.trans k2)
  obtain rfl := Option.some.inj (g3.symm.trans k3)
  obtain ⟨p', q', r', m1, m2, m3, m4⟩ := key l
  exact ⟨p', q', r', m1, m2, m3, by linarith⟩

/-! ### The mesh of three quadrilaterals, turned -/

/-- The dofs of the mesh. -/
def exampleLayout : Spec.Layout 7 2 exampleMeshFlags.length where
  dof p a := 2 * p + a
  bound p a := by
    show 2 * (p : Nat) + a < 14
    omega
  inj {p a p' a'} h := ⟨Fin.ext (by omega), Fin.ext (by omega)⟩
  all i hi := by
    have hi : i < 14 := hi
    exact ⟨⟨i / 2, by omega⟩, ⟨i % 2, by omega⟩, by show 2 * (i / 2) + i % 2 = i; omega⟩

/-- A rotation. -/
noncomputable def exampleTurn : Matrix (Fin 2) (Fin 2) ℝ := !![3 / 5, -4 / 5; 4 / 5, 3 / 5]

theorem exampleTurn_orth : exampleTurnᵀ * exampleTurn = 1 := by
  ext i j
  fin_cases i <;> fin_cases j <;> norm_num [exampleTurn, Matrix.mul_apply, Fin.sum_univ_two]

theorem exampleSolids_placed : ∀ e ∈ exampleSolids, e.Placed exampleLayout fun p => exampleMesh.pos p := by
  intro e he
  obtain ⟨q, hq, rfl⟩ := List.mem_map.1 he
  have hn := exampleMesh_valid.node q hq
  refine ⟨tile_fits (skills := fun _ => []) hn, fun I => ⟨q I, hn I⟩, fun dofs hd I a => ?_, fun p hp => ?_⟩
  · have h3 : (exampleMesh.tile (fun _ => []) q).elem.dofs? = some dofs := hd
    rw [tile_dofs] at h3
    obtain rfl := Option.some.inj h3
    change Fin 4 at I
    fin_cases I <;> fin_cases a <;> rfl
  · obtain ⟨g, hg, rfl⟩ := List.mem_map.1 hp
    exact quadPoint_isoparametric _ _ (exampleMesh_valid.det q hq g hg).ne'

theorem exampleFlags_whole : Spec.WholeNodes exampleMeshFlags exampleLayout := by
  intro p a b h
  fin_cases p <;> fin_cases a <;> fin_cases b <;> exact h

theorem exampleFlags_unmixed {Q : Matrix (Fin 2) (Fin 2) ℝ} : Spec.Unmixed exampleMeshFlags exampleLayout Q :=
  unmixed_whole _ exampleFlags_whole Q

/-- The dead load, turned. -/
noncomputable def exampleTurnedWeight : LoadFunction 2 := fun x l => exampleTurn *ᵥ exampleWeight x l

theorem exampleMeshC_turn : (transformationMatrix2 exampleTurn)ᵀ * exampleMeshC * transformationMatrix2 exampleTurn = exampleMeshC := by
  have h : exampleMeshC = !![2 + 2 * 1, 2, 0; 2, 2 + 2 * 1, 0; 0, 0, 1] := by
    unfold exampleMeshC
    norm_num
  rw [h]
  exact planeIsotropic_moduli 2 1 exampleTurn_orth

/-- The mesh of linear elements under dead load, whose outer nodes are displaced. -/
noncomputable def exampleLoaded (o : DBCOption) : Analysis :=
  { exampleMeshAnalysis o with
    elems := exampleSolids.map fun e => e.linear EAS.plane exampleWeight exampleWeight exampleMeshC }

/-- The displacements of the outer nodes, turned. -/
noncomputable def exampleTurnedSupport (i : Nat) : ℝ :=
  ∑ b : Fin 2, exampleTurn ⟨i % 2, Nat.mod_lt _ (by norm_num)⟩ b * exampleMeshSupport (2 * (i / 2) + b)

/-- The turned mesh. -/
noncomputable def exampleTurned (o : DBCOption) : Analysis :=
  { exampleLoaded o with
    dv := ⟨exampleMeshFlags, 0, [⟨fun l i => l * exampleTurnedSupport i, fun _ i => exampleTurnedSupport i, 0⟩], fun _ => true⟩
    elems := exampleSolids.map fun e => (e.turned exampleTurn ![5, 7]).linear EAS.plane exampleTurnedWeight exampleTurnedWeight
      exampleMeshC }

theorem exampleWeight_turn : LoadTurns exampleTurn ![5, 7] exampleTurn exampleWeight exampleTurnedWeight := fun _ _ => rfl

theorem exampleTurned_same (o : DBCOption) (l : ℝ) :
    Spec.SameTurned exampleLayout exampleTurn ((exampleLoaded o).system l).scalar? ((exampleTurned o).system l).scalar? := by
  intro x x' hx
  refine (linear_solids_turn (A := (exampleLoaded o).system l) (B := (exampleTurned o).system l) EAS.plane_isVoigt
    (plane_turn exampleTurn) exampleTurn_orth exampleWeight_turn exampleWeight_turn exampleMeshC_turn
    (by simpa using exampleMeshC_posDef.isHermitian) exampleSolids_placed hx l ?_ ?_).2
  · show System.mk _ (List.map _ (List.map _ _)) = _
    rw [List.map_map]
    rfl
  · show System.mk _ (List.map _ (List.map _ _)) = _
    rw [List.map_map]
    rfl

theorem exampleLoaded_elems : Spec.LinearElems 14 (exampleSolids.map fun e => e.linear EAS.plane exampleWeight exampleWeight exampleMeshC) ∧
    Spec.LinearElems 14 (exampleSolids.map fun e => (e.turned exampleTurn ![5, 7]).linear EAS.plane exampleTurnedWeight
      exampleTurnedWeight exampleMeshC) := by
  have hp : ∀ e ∈ exampleSolids, ∀ p ∈ e.points, 0 ≤ p.detJ * p.weight := by
    intro e he p hp
    obtain ⟨q, hq, rfl⟩ := List.mem_map.1 he
    obtain ⟨g, hg, rfl⟩ := List.mem_map.1 hp
    exact mul_nonneg (abs_nonneg _) ((EAS.gauss_exact 2).1.2 g hg).le
  constructor
  · intro e' he'
    obtain ⟨e, he, rfl⟩ := List.mem_map.1 he'
    refine ⟨(exampleSolids_placed e he).1, fun s hs => ?_⟩
    rcases mem_three hs with rfl | rfl | rfl
    · refine linearElastic_linear _ (by simpa using exampleMeshC_posDef.isHermitian) exampleMeshC_posDef.posSemidef _ fun gp hgp => ?_
      obtain ⟨p, hpp, rfl⟩ := List.mem_map.1 hgp
      exact hp e he p hpp
    · exact volumeLoad_linear _ _
    · exact traction_linear _ _
  · intro e' he'
    obtain ⟨e, he, rfl⟩ := List.mem_map.1 he'
    refine ⟨(exampleSolids_placed e he).1, fun s hs => ?_⟩
    rcases mem_three hs with rfl | rfl | rfl
    · refine linearElastic_linear _ (by simpa using exampleMeshC_posDef.isHermitian) exampleMeshC_posDef.posSemidef _ fun gp hgp => ?_
      obtain ⟨p', hp', rfl⟩ := List.mem_map.1 hgp
      obtain ⟨p, hpp, rfl⟩ := List.mem_map.1 hp'
      exact hp e he p hpp
    · exact volumeLoad_linear _ _
    · exact traction_linear _ _

theorem exampleLoaded_supported (o : DBCOption) (l : ℝ) : Spec.Supported exampleMeshFlags ((exampleLoaded o).system l).scalar? := by
  obtain ⟨K, e, g, hA⟩ := linear_system exampleMeshFlags _ exampleLoaded_elems.1
  refine supported_all (l0 := 0) hA ?_ l
  have hsc : (System.mk exampleMeshFlags ((exampleSolids.map fun e => e.linear EAS.plane exampleWeight exampleWeight exampleMeshC).map
      (·.at 0))).scalar? = (System.mk exampleMeshFlags ((exampleMesh.quads.map (exampleMesh.param exampleMeshC)).map (·.at 0))).scalar? := by
    funext x
    show (mapOpt _ (List.map _ (List.map _ (List.map _ _)))).map _ = (mapOpt _ (List.map _ (List.map _ _))).map _
    rw [List.map_map, List.map_map, List.map_map]
    congr 1
    refine mapOpt_forall₂ (R := fun x y => ∃ q, x = ((exampleMesh.param exampleMeshC) q).at 0 ∧ y = (((⟨4,
      (exampleMesh.tile (exampleMesh.linear exampleMeshC) q).children, (exampleMesh.tile (exampleMesh.linear exampleMeshC) q).index,
      exampleMesh.rule.map (quadPoint (exampleMesh.corners q)),
      exampleMesh.rule.map fun g => ⟨∑ I, bilinearShape g.1 I • exampleMesh.corners q I,
      (quadPoint (exampleMesh.corners q) g).detJ, g.2, bilinearShape g.1⟩, []⟩ : Spec.SolidElem 2).linear EAS.plane exampleWeight
        exampleWeight exampleMeshC).at 0)) ?_ ?_
    · exact forall_map _ _ _ fun q _ => ⟨q, rfl, rfl⟩
    · rintro _ - _ ⟨q, rfl, rfl⟩
      show ((exampleMesh.tile (fun _ => []) q).elem.local? x).bind _ = ((exampleMesh.tile (fun _ => []) q).elem.local? x).bind _
      congr 1
      funext u
      have h0 : ∀ x, exampleWeight x 0 = 0 := fun x => by simp [exampleWeight]
      exact scalar_vanishes _ _ _ _ (volumeLoad_vanishes h0 _ u 0).1 (traction_vanishes h0 [] u 0).1
  rw [hsc]
  exact exampleMesh_supported 0

theorem exampleSupport_turn : Spec.TurnedSupports exampleLayout exampleTurn exampleMeshSupport exampleTurnedSupport := by
  intro p a
  show exampleTurnedSupport (2 * p + a) = ∑ b : Fin 2, exampleTurn a b * exampleMeshSupport (2 * p + b)
  unfold exampleTurnedSupport
  have h1 : (2 * (p : Nat) + a) / 2 = p := by omega
  have h2 : (⟨(2 * (p : Nat) + a) % 2, Nat.mod_lt _ (by norm_num)⟩ : Fin 2) = a := Fin.ext (by show (2 * (p : Nat) + a) % 2 = a; omega)
  rw [h1, h2]

theorem exampleLoaded_proper (o : DBCOption) (ho : o ≠ .raw) : Spec.ProperLinear (exampleLoaded o) exampleMeshSupport :=
  { exampleMesh_proper o ho with
    elems := exampleLoaded_elems.1
    linSolve := fun l x hx A hA => inverseSolve_solves (exampleLoaded o) ho exampleLoaded_elems.1 (exampleLoaded_supported o) l x hx A hA }

theorem exampleTurned_proper (o : DBCOption) (ho : o ≠ .raw) : Spec.ProperLinear (exampleTurned o) exampleTurnedSupport where
  option := ho
  elems := exampleLoaded_elems.2
  prescribed := by
    refine ⟨fun l i _ => ?_, fun i _ => ?_, fun i hi hne => ?_⟩
    · simp [Spec.prescribed, Spec.total, exampleTurned]
    · simp [Spec.total, exampleTurned]
    · have h2 : 2 ≤ i := by
        by_contra h
        apply hne
        unfold exampleTurnedSupport
        have : i / 2 = 0 := by omega
        rw [this]
        refine Finset.sum_eq_zero fun b _ => ?_
        rw [exampleMeshSupport, if_neg (by omega), mul_zero]
      have hi : i < 14 := hi
      show exampleMeshFlags[i]? = some true
      interval_cases i <;> rfl
  force := Or.inl rfl
  alive _ _ := rfl
  bound _ h := absurd h (by simp [exampleTurned, exampleLoaded, exampleMeshAnalysis])
  linSolve l x hx A hA := inverseSolve_solves (exampleTurned o) ho exampleLoaded_elems.2
    (fun l => supported_turn exampleTurn_orth exampleFlags_unmixed (exampleTurned_same o l) (exampleLoaded_supported o l)) l x hx A hA

/-- Four load steps of the mesh and of the turned mesh, one with each of the options. -/
example := linear_load_control_turn (a := exampleLoaded .full) (b := exampleTurned .reduced) (exampleLoaded_proper .full (by decide))
  (exampleTurned_proper .reduced (by decide)) rfl
  ⟨by norm_num [exampleLoaded, exampleMeshAnalysis], by norm_num [exampleLoaded, exampleMeshAnalysis],
    by norm_num [exampleLoaded, exampleMeshAnalysis]⟩
  ⟨by norm_num [exampleTurned, exampleLoaded, exampleMeshAnalysis], by norm_num [exampleTurned, exampleLoaded, exampleMeshAnalysis],
    by norm_num [exampleTurned, exampleLoaded, exampleMeshAnalysis]⟩ le_rfl le_rfl
  (exampleLoaded_supported .full) exampleLayout exampleTurn_orth exampleFlags_unmixed
  (fun l => exampleTurned_same .full l) exampleSupport_turn 4 (by norm_num) 0 1 0 (x0 := List.replicate 14 0) (x0' := List.replicate 14 0)
  (turned_zero exampleLayout)
  (fun i hi => by
    have hi : i < 14 := (List.getElem?_eq_some_iff.1 hi).1
    rw [List.getElem?_replicate, if_pos hi, zero_mul])
  (fun k hk _ h0 => by
    have : (0 : ℝ) < k := by exact_mod_cast hk
    norm_num at h0
    omega)

/-- States of the mesh and of the turned mesh are in equilibrium together, and its supports suffice together. -/
example (o : DBCOption) (l tol : ℝ) (x x' : List ℝ) (hx : Spec.TurnedList exampleLayout exampleTurn x x') :=
  equilibrium_turn exampleTurn_orth exampleFlags_unmixed (exampleTurned_same o l) exampleSupport_turn (l := l) (tol := tol) hx

example (o : DBCOption) (l : ℝ) := supported_turn exampleTurn_orth exampleFlags_unmixed (exampleTurned_same o l) (exampleLoaded_supported o l)

/-- The mesh with large strains, whose deformed shape is turned, and whose loads follow. -/
example (x : List ℝ) (hx : x.length = 14) (C : Matrix (Fin 3) (Fin 3) ℝ) (hC : C.IsSymm) : ∃ x',
    ∃ r r' K K', (System.mk exampleMeshFlags (exampleSolids.map fun e => (e.nonlinear EAS.plane exampleWeight exampleWeight
        (linearLaw C)).at 3)).rawVector? x = some r ∧
      (System.mk exampleMeshFlags (exampleSolids.map fun e => ((e.turned 1 0).nonlinear EAS.plane exampleTurnedWeight
        exampleTurnedWeight (linearLaw C)).at 3)).rawVector? x' = some r' ∧
      (System.mk exampleMeshFlags (exampleSolids.map fun e => (e.nonlinear EAS.plane exampleWeight exampleWeight
        (linearLaw C)).at 3)).rawMatrix? x = some K ∧
      (System.mk exampleMeshFlags (exampleSolids.map fun e => ((e.turned 1 0).nonlinear EAS.plane exampleTurnedWeight
        exampleTurnedWeight (linearLaw C)).at 3)).rawMatrix? x' = some K' ∧
      Spec.TurnedList exampleLayout exampleTurn r r' ∧ Spec.TurnedMatrix exampleLayout exampleTurn K K' ∧
      freeSq exampleMeshFlags (r'.getD · 0) = freeSq exampleMeshFlags (r.getD · 0) ∧
      ∀ D D', Spec.TurnedList exampleLayout exampleTurn D D' →
        (Spec.Correction exampleMeshFlags K' r' D' ↔ Spec.Correction exampleMeshFlags K r D) := by
  obtain ⟨x', hx', hv⟩ := layout_list exampleLayout (fun p a => ∑ b, exampleTurn a b * (exampleMesh.pos p b + x.getD (exampleLayout.dof p b) 0) -
    exampleMesh.pos p a)
  have hsh : Spec.TurnedShape exampleLayout (fun p => exampleMesh.pos p) 1 exampleTurn 0 x x' := by
    refine ⟨hx, hx', 0, fun p => funext fun i => ?_⟩
    rw [Matrix.one_mulVec, zero_add, zero_add]
    show exampleMesh.pos p i + x'.getD (exampleLayout.dof p i) 0 = _
    rw [hv, add_sub_cancel]
    rfl
  obtain ⟨r, r', K, K', h1, h2, h3, h4, hr, hK⟩ := (solids_turn (R := 1) (a := 0) (x := x) (x' := x') (law := linearLaw C) (law' := linearLaw C) EAS.plane_isVoigt (plane_turn 1)
    (by rw [Matrix.transpose_one, Matrix.one_mul]) exampleTurn_orth (f := exampleWeight) (f' := exampleTurnedWeight)
    (t := exampleWeight) (t' := exampleTurnedWeight) (fun _ _ => rfl) (fun _ _ => rfl) exampleSolids_placed hsh
    (fun _ _ s _ => ⟨Element.plane_one ▸ turnedLaw_one _ s, hC⟩) 3 rfl rfl).1
  exact ⟨x', r, r', K, K', h1, h2, h3, h4, hr, hK, free_residual_turn exampleLayout exampleTurn_orth exampleFlags_unmixed hr,
    fun D D' hD => correction_turn exampleLayout exampleTurn_orth exampleFlags_unmixed hK hr hD⟩

end Ikarus
