import Verif.Analysis.LinearProps
import Mathlib.LinearAlgebra.Matrix.NonsingularInverse
import Mathlib.LinearAlgebra.Matrix.ToLinearEquiv

/-!
C94, continued: linear solvers that solve the systems exist, complete unloading, and an analysis that meets all hypotheses.
-/

namespace Ikarus

open Element

/-! ### Linear solvers -/

/-- Solving with the inverse matrix. -/
noncomputable def Spec.inverseSolve (A : DMat ℝ) (b : List ℝ) : List ℝ :=
  listOf A.rows fun i => if h : i < A.rows then
    ((Matrix.of fun i j : Fin A.rows => A.val i j)⁻¹.mulVec fun j => b.getD j 0) ⟨i, h⟩ else 0

theorem inverseSolve_exact (A : DMat ℝ) (hsq : A.cols = A.rows)
    (hinj : ∀ c : Nat → ℝ, (∀ i < A.rows, ∑ j ∈ Finset.range A.rows, A.val i j * c j = 0) → ∀ i < A.rows, c i = 0) :
    Spec.SolvesExactly Spec.inverseSolve A := by
  intro b hb
  let M : Matrix (Fin A.rows) (Fin A.rows) ℝ := Matrix.of fun i j => A.val i j
  have hdet : IsUnit M.det := by
    rw [isUnit_iff_ne_zero]
    intro h0
    obtain ⟨v, hv, hv0⟩ := Matrix.exists_mulVec_eq_zero_iff.2 h0
    apply hv
    funext i
    have := hinj (fun k => if h : k < A.rows then v ⟨k, h⟩ else 0) (fun k hk => ?_) i i.2
    · simpa using this
    · have h1 := congrFun hv0 ⟨k, hk⟩
      rw [Finset.sum_range]
      simpa [Matrix.mulVec, dotProduct, M] using h1
  have hlen : (Spec.inverseSolve A b).length = A.cols := by rw [hsq]; exact listOf_length _ _
  refine ⟨hlen, fun i hi => ?_⟩
  have h1 := congrFun (Matrix.mulVec_mulVec (fun j : Fin A.rows => b.getD j 0) M M⁻¹) ⟨i, hi⟩
  rw [Matrix.mul_nonsing_inv M hdet, Matrix.one_mulVec] at h1
  rw [← h1, hsq, Finset.sum_range]
  refine Finset.sum_congr rfl fun j _ => ?_
  show A.val i j * (listOf _ _).getD j 0 = _
  rw [listOf_getD _ _ j.2, dif_pos j.2]
  rfl

theorem supported_definite {sys : ℝ → System} {flags : List Bool} {K : DMat ℝ} {e : ℝ → ℝ} {g : ℝ → Nat → ℝ}
    (hA : AffineSystem sys flags.length K e g) {l : ℝ} (hs : Spec.Supported flags (sys l).scalar?) (c : Nat → ℝ)
    (hc : ∀ i < flags.length, ¬ Spec.Free flags i → c i = 0) (h0 : bil K flags.length c c ≤ 0) :
    ∀ i < flags.length, c i = 0 := by
  by_contra hne
  push Not at hne
  obtain ⟨i, hi, hci⟩ := hne
  let v := listOf flags.length c
  have hv : v.length = flags.length := listOf_length _ _
  have hvd : ∀ i < flags.length, v.getD i 0 = c i := fun i hi => listOf_getD _ _ hi
  let x := List.replicate flags.length (0 : ℝ)
  have hx : x.length = flags.length := List.length_replicate
  have hlt : ∀ {i : Nat}, flags[i]? = some true → i < flags.length := fun h => (List.getElem?_eq_some_iff.1 h).1
  obtain ⟨p, q, r, e1, e2, e3, e4⟩ := hs x v hx hv
    (fun j hj => by
      rw [getElem?_eq_getD (hv ▸ hlt hj), hvd j (hlt hj), hc j (hlt hj) ((not_free_iff (hlt hj)).2 hj)])
    ⟨c i, by
      rw [← hvd i hi, List.getD_eq_getElem?_getD, List.getElem?_eq_getElem (hv ▸ hi)]
      exact List.getElem_mem _, hci⟩
  have hd : ∀ t : ℝ, ∀ i < flags.length, (Spec.line x v t).getD i 0 - x.getD i 0 = t * c i := by
    intro t i hi
    rw [List.getD_eq_getElem?_getD, line_getElem x v t (by omega) (by omega), Option.getD_some, hvd i hi]
    ring
  have hb : ∀ t : ℝ, bil K flags.length (fun i => (Spec.line x v t).getD i 0 - x.getD i 0)
      (fun i => (Spec.line x v t).getD i 0 - x.getD i 0) = t * t * bil K flags.length c c := by
    intro t
    unfold bil
    rw [Finset.mul_sum]
    refine Finset.sum_congr rfl fun i hi => ?_
    rw [Finset.mul_sum]
    refine Finset.sum_congr rfl fun j hj => ?_
    show ((Spec.line x v t).getD i 0 - x.getD i 0) * K.val i j * ((Spec.line x v t).getD j 0 - x.getD j 0) = _
    rw [hd t i (Finset.mem_range.1 hi), hd t j (Finset.mem_range.1 hj)]
    ring
  have hr : ∀ t : ℝ, ∑ i ∈ Finset.range flags.length, Analysis.resAt K g flags.length l x i *
      ((Spec.line x v t).getD i 0 - x.getD i 0) = t * ∑ i ∈ Finset.range flags.length, Analysis.resAt K g flags.length l x i * c i := by
    intro t
    rw [Finset.mul_sum]
    refine Finset.sum_congr rfl fun i hi => ?_
    rw [hd t i (Finset.mem_range.1 hi)]
    ring
  obtain ⟨r1, p1, f1, f2, f3⟩ := energy_difference hA l hx (y := Spec.line x v 1) (by rw [line_length x v _ (by omega), hx])
  obtain ⟨r2, q1, f4, f5, f6⟩ := energy_difference hA l hx (y := Spec.line x v (-1)) (by rw [line_length x v _ (by omega), hx])
  rw [e3] at f1 f4
  rw [e1] at f2
  rw [e2] at f5
  cases f1; cases f2; cases f4; cases f5
  rw [hb, hr] at f3 f6
  linarith

/-- Solving with the inverse matrix is exact, Full as well as Reduced, if no direction that keeps the constrained dofs has
vanishing forces at the free dofs. -/
theorem inverseSolve_regular (a : Analysis) (hopt : a.option ≠ .raw) (l : ℝ) (x : List ℝ) (K : DMat ℝ)
    (hK : (a.system l).rawMatrix? x = some K)
    (hdef : ∀ c : Nat → ℝ, (∀ i < a.dv.flags.length, ¬ Spec.Free a.dv.flags i → c i = 0) →
      (∀ i, Spec.Free a.dv.flags i → ∑ j ∈ Finset.range a.dv.flags.length, K.val i j * c j = 0) →
      ∀ i < a.dv.flags.length, c i = 0)
    (A : DMat ℝ) (hA : a.jacobian? ⟨l, some x⟩ = some A) : Spec.SolvesExactly Spec.inverseSolve A := by
  unfold System.rawMatrix? at hK
  obtain ⟨fes, h1, h2⟩ := Option.bind_eq_some_iff.1 hK
  unfold Analysis.jacobian? at hA
  rw [Option.bind_some] at hA
  cases ho : a.option with
  | raw => exact absurd ho hopt
  | full =>
    rw [ho] at hA
    obtain ⟨A', hA', hAr, hAc, hAv⟩ := fullMatrix_eq a.dv.flags fes K h2
    have : (a.system l).fullMatrix? x = some A' := by
      unfold System.fullMatrix?
      rw [h1, Option.bind_some]; exact hA'
    obtain rfl : A' = A := Option.some.inj (this.symm.trans hA)
    refine inverseSolve_exact A' (hAc.trans hAr.symm) fun c hc i hi => ?_
    rw [hAr] at hc hi
    have hz : ∀ j < a.dv.flags.length, ¬ Spec.Free a.dv.flags j → c j = 0 := by
      intro j hj hjf
      have := hc j hj
      rw [Finset.sum_eq_single j] at this
      · rw [hAv j j hj hj, if_neg (by tauto), if_pos rfl, one_mul] at this
        exact this
      · intro k hk hkj
        rw [hAv j k hj (Finset.mem_range.1 hk), if_neg (by tauto), if_neg (Ne.symm hkj), zero_mul]
      · intro h; exact absurd (Finset.mem_range.2 hj) h
    refine hdef c hz (fun k hf => ?_) i hi
    rw [← hc k (free_lt hf)]
    refine Finset.sum_congr rfl fun j hj => ?_
    by_cases hjf : Spec.Free a.dv.flags j
    · rw [hAv k j (free_lt hf) (Finset.mem_range.1 hj), if_pos ⟨hf, hjf⟩]
    · rw [hz j (Finset.mem_range.1 hj) hjf, mul_zero, mul_zero]
  | reduced =>
    rw [ho] at hA
    obtain ⟨A', hA', hAr, hAc, hAv⟩ := reducedMatrix_eq a.dv.flags fes K h2
    have : (a.system l).reducedMatrix? x = some A' := by
      unfold System.reducedMatrix?
      rw [h1, Option.bind_some]; exact hA'
    obtain rfl : A' = A := Option.some.inj (this.symm.trans hA)
    rw [Assembler.reducedSize?_create] at hAr hAc
    have hAr := (Option.some.inj hAr).symm
    have hAc := (Option.some.inj hAc).symm
    have hAval : ∀ i j, Spec.Free a.dv.flags i → Spec.Free a.dv.flags j →
        A'.val (Spec.rank a.dv.flags i) (Spec.rank a.dv.flags j) = K.val i j := by
      intro i j hi hj
      obtain ⟨ki, kj, e1, e2, -, -, e3⟩ := hAv i j hi hj
      rw [Assembler.reducedIndex?_create (free_lt hi)] at e1
      rw [Assembler.reducedIndex?_create (free_lt hj)] at e2
      rw [Option.some.inj e1, Option.some.inj e2, e3]
    refine inverseSolve_exact A' (hAc.trans hAr.symm) fun c hc i hi => ?_
    rw [hAr] at hc hi
    have h0 := hdef (fun k => if Spec.Free a.dv.flags k then c (Spec.rank a.dv.flags k) else 0)
      (fun k _ hk => if_neg hk) fun k hf => by
        have := hc _ (rank_lt hf)
        rw [sum_reduced, Finset.sum_filter] at this
        refine (Finset.sum_congr rfl fun j hj => ?_).trans this
        by_cases hjf : Spec.Free a.dv.flags j
        · rw [if_pos hjf, if_pos hjf, hAval k j hf hjf]
        · rw [if_neg hjf, if_neg hjf, mul_zero]
    obtain ⟨k, hk, rfl⟩ := rank_surj a.dv.flags hi
    have := h0 k (free_lt hk)
    rw [if_pos hk] at this
    exact this

/-- C94, linear solvers. If the supports suffice, the systems of the solver are regular, Full as well as Reduced: solving with
the inverse matrix is a linear solver as the other theorems assume it. -/
theorem inverseSolve_solves (a : Analysis) (hopt : a.option ≠ .raw) (hel : Spec.LinearElems a.dv.flags.length a.elems)
    (hs : ∀ l, Spec.Supported a.dv.flags (a.system l).scalar?) (l : ℝ) (x : List ℝ) (hx : x.length = a.dv.flags.length)
    (A : DMat ℝ) (hA : a.jacobian? ⟨l, some x⟩ = some A) : Spec.SolvesExactly Spec.inverseSolve A := by
  obtain ⟨K, e, g, hS⟩ := linear_system a.dv.flags a.elems hel
  have hS : AffineSystem a.system a.dv.flags.length K e g := hS
  have hK := hS.matrix l x hx
  -- forces of a direction which vanish at the free dofs
  have hdef : ∀ c : Nat → ℝ, (∀ i < a.dv.flags.length, ¬ Spec.Free a.dv.flags i → c i = 0) →
      (∀ i, Spec.Free a.dv.flags i → ∑ j ∈ Finset.range a.dv.flags.length, K.val i j * c j = 0) →
      ∀ i < a.dv.flags.length, c i = 0 := by
    intro c hc hf
    refine supported_definite hS (hs l) c hc (le_of_eq (Finset.sum_eq_zero fun i hi => ?_))
    have h3 : ∑ j ∈ Finset.range a.dv.flags.length, c i * K.val i j * c j =
        c i * ∑ j ∈ Finset.range a.dv.flags.length, K.val i j * c j := by
      rw [Finset.mul_sum]
      exact Finset.sum_congr rfl fun j _ => by ring
    by_cases hi' : Spec.Free a.dv.flags i
    · rw [h3, hf i hi', mul_zero]
    · rw [h3, hc i (Finset.mem_range.1 hi) hi', zero_mul]
  exact inverseSolve_regular a hopt l x K hK hdef A hA

/-! ### Complete unloading -/

open Analysis in
/-- C94, unloading. A run which takes the load factor from `l0` to zero in `n` steps is successful, but leaves the constrained
dofs where they were before the last step: at `l0 / n` times their prescribed displacements.  The structure is in equilibrium
with those displacements, not with the prescribed ones, which are zero. -/
theorem linear_unloading {a : Analysis} {û : Nat → ℝ} (h : Spec.ProperLinear a û) (hset : Spec.Settings a.settings 2)
    (hmin1 : 1 ≤ a.settings.minIter) (n : Nat) (hn : 0 < n) (l0 : ℝ) (hl0 : l0 ≠ 0) {x0 : List ℝ}
    (hx0 : x0.length = a.dv.flags.length) (hc0 : ∀ i : Nat, a.dv.flags[i]? = some true → x0[i]? = some (l0 * û i)) :
    ∃ (r : LCState ℝ (Option (List ℝ)) ℝ (Option (List ℝ))) (u : List ℝ),
      a.loadControl? n l0 0 ⟨l0, some x0⟩ = some r ∧ r.info.success = true ∧ r.dom = ⟨0, some u⟩ ∧
      Spec.InEquilibrium a.dv.flags (a.system 0).scalar? û (l0 / n) a.settings.tol u := by
  have hn' : (n : ℝ) ≠ 0 := by exact_mod_cast hn.ne'
  have hset1 : Spec.Settings a.settings 1 := ⟨hset.1, hset.2.1, by have := hset.2.2; omega⟩
  obtain ⟨step, hstep⟩ : ∃ s, s = (0 - l0) / (n : ℝ) := ⟨_, rfl⟩
  have hln : l0 / n = -step := by rw [hstep]; ring
  have hlast : l0 + (n : ℝ) * step = 0 := by rw [hstep]; field_simp; ring
  have hmk : LoadControl.mk? (n : Int) l0 0 = some ⟨n, step⟩ := by
    unfold LoadControl.mk?
    rw [if_neg (by omega)]
    simp [hstep]
  have hnz : ∀ k : Nat, k < n → l0 + (k : ℝ) * step ≠ 0 := by
    intro k hk h0
    have hs : step ≠ 0 := by
      intro hs
      rw [hs, mul_zero, add_zero] at hlast
      exact hl0 hlast
    have h1 : ((n : ℝ) - k) * step = 0 := by linarith
    rcases mul_eq_zero.1 h1 with h2 | h2
    · have : (k : ℝ) < n := by exact_mod_cast hk
      linarith
    · exact hs h2
  have hsolve : ∀ k, k < n → _ := fun k hk => solves_linear h hset1 step l0 hx0 hc0 none k fun j hj h0 =>
    absurd (by push_cast; exact h0) (hnz (j + 1) (by omega))
  -- the last step
  obtain ⟨k, rfl⟩ : ∃ k, n = k + 1 := ⟨n - 1, by omega⟩
  obtain ⟨u, i1, -, -, -, -, i2, -⟩ := hsolve k (by omega)
  obtain ⟨K, e, g, hA⟩ := linear_system a.dv.flags a.elems h.elems
  have hA : AffineSystem a.system a.dv.flags.length K e g := hA
  have hll : l0 + (k : ℝ) * step + step = 0 := by rw [← hlast]; push_cast; ring
  have hlk : l0 + (k : ℝ) * step = -step := by linarith
  obtain ⟨w', y, info, kk, s1, s2, s3, s4, s5, s6, -, s8, -⟩ := solve_linear h hA hset.1 2 (Or.inr rfl) hset.2.1 hset.2.2 0 step
    i2.1 (Or.inl rfl) (Spec.loadSolve a.solver step none ⟨l0, some x0⟩ k).2.1
  have hkk : 0 < kk := by omega
  have hy1 : ({ (Spec.loadSolve a.solver step none ⟨l0, some x0⟩ k).2.2.1 with
      lam := (Spec.loadSolve a.solver step none ⟨l0, some x0⟩ k).2.2.1.lam + step } : Dom ℝ (Option (List ℝ))) = ⟨0, some u⟩ := by
    have h1 : (Spec.loadSolve a.solver step none ⟨l0, some x0⟩ k).2.2.1 = ⟨l0 + k * step, some u⟩ := i1
    rw [h1, ← hll]
  have hinf : Spec.loadInfo a.solver step none ⟨l0, some x0⟩ (k + 1) = info := by
    show (a.solver.solve (Spec.loadSolve a.solver step none ⟨l0, some x0⟩ k).2.1 _ step).2.2 = _
    rw [hy1, s1]
  have haft : Spec.loadAfter a.solver step none ⟨l0, some x0⟩ (k + 1) = ⟨0, some y⟩ := by
    show (if (a.solver.solve (Spec.loadSolve a.solver step none ⟨l0, some x0⟩ k).2.1 _ step).2.2.iterations = 0 then
      a.sync (a.solver.solve (Spec.loadSolve a.solver step none ⟨l0, some x0⟩ k).2.1 _ step).2.1 else
      (a.solver.solve (Spec.loadSolve a.solver step none ⟨l0, some x0⟩ k).2.1 _ step).2.1) = _
    rw [hy1, s1]
    show (if info.iterations = 0 then a.sync ⟨0, some y⟩ else ⟨0, some y⟩) = _
    rw [if_neg (by omega)]
  obtain ⟨m, ls, hm, h1, h2, h3, -, h5, -⟩ := load_control_run (k + 1) hn step a.solver none ⟨l0, some x0⟩
  generalize hr : (LoadControl.mk ((k + 1 : Nat) : Int) step).run a.solver none ⟨l0, some x0⟩ = r at *
  have hs : r.info.success = true := by
    refine h1.2 fun j hj => ?_
    by_cases hjk : j < k + 1
    · obtain ⟨_, _, g2, _⟩ := hsolve j hjk
      exact g2
    · obtain rfl : j = k + 1 := by omega
      rw [hinf]; exact s2
  have hmn := h2 hs
  subst hmn
  refine ⟨r, y, ?_, hs, by rw [h5]; exact haft, ?_⟩
  · unfold loadControl?
    rw [hmk, Option.map_some, hr]
  · refine equilibrium_of_residual hA û 0 _ _ s6 (fun i hi hf => ?_) (s8 hkk).2
    rw [(s8 hkk).1 i hi hf]
    unfold synced
    rw [zero_mul, if_neg (by simp), List.getD_eq_getElem?_getD, i2.2.1 i ((not_free_iff hi).1 hf), Option.getD_some, hlk, hln]

/-- What one expects: after a successful run from `tbegin` to `tend` the constrained dofs have the displacements prescribed for
`tend`. -/
def Spec.SupportsFollow : Prop :=
  ∀ (a : Analysis) (û : Nat → ℝ), Spec.ProperLinear a û → Spec.Settings a.settings 2 → ∀ (n : Nat), 0 < n →
    ∀ (tbegin tend : ℝ) (x0 : List ℝ), x0.length = a.dv.flags.length →
      (∀ i : Nat, a.dv.flags[i]? = some true → x0[i]? = some (tbegin * û i)) →
      ∀ r, a.loadControl? n tbegin tend ⟨tbegin, some x0⟩ = some r → r.info.success = true →
        ∃ u, r.dom.x = some u ∧ ∀ i : Nat, a.dv.flags[i]? = some true → u[i]? = some (tend * û i)

/-! ### An example -/

/-- A bar with a volume load and a traction which grow with the load factor. -/
noncomputable def exampleParamBar : ParamElem where
  n := 2
  d := 1
  children := [.leaf [0, 1]]
  index := [0, 1]
  skills := [fun _ => .linearElastic !![(3 : ℝ)] [⟨2, 1, ![!![-1 / 2], !![1 / 2]]⟩],
    fun l => .volumeLoad (some fun _ l => ![l]) [⟨![0], 2, 1, ![1 / 2, 1 / 2]⟩] l,
    fun l => .traction (some [⟨true, [⟨![1], 1, 1, ![0, 1]⟩]⟩]) (some fun x l => ![l * x 0]) l]

/-- The left end of the bar is displaced by the load factor. -/
noncomputable def exampleAnalysis (option : DBCOption) : Analysis where
  dv := ⟨[true, false], 0, [⟨fun l i => if i = 0 then l else 0, fun _ i => if i = 0 then 1 else 0, 0⟩], fun _ => true⟩
  alive := fun _ => true
  elems := [exampleParamBar]
  option := option
  bound := none
  linSolve := Spec.inverseSolve
  settings := { tol := 1 / 1000, minIter := 1, maxIter := 20 }
  withForce := true

theorem exampleAnalysis_linear : Spec.LinearElems 2 [exampleParamBar] := by
  intro e he
  obtain rfl := List.mem_singleton.1 he
  refine ⟨⟨rfl, rfl, [0, 1], ?_, by simp⟩, fun (s : ℝ → Skill 2 1) hs => ?_⟩
  · simp [Elem.dofs?, ParamElem.at, exampleParamBar, FETree.globalIndices, FETree.firstIsLeaf, FETree.powerNodeIndices,
      FETree.leafSize?, FETree.childIndex?, FETree.leafIndex?, mapOpt, List.range, List.range.loop]
  · rcases List.mem_cons.1 hs with rfl | hs
    · refine linearElastic_linear _ ?_ ?_ _ ?_
      · ext a b; fin_cases a; fin_cases b; rfl
      · have : !![(3 : ℝ)] = Matrix.diagonal fun _ => 3 := by ext i j; fin_cases i; fin_cases j; rfl
        rw [this]
        exact Matrix.PosSemidef.diagonal fun _ => by norm_num
      · intro gp hgp
        obtain rfl := List.mem_singleton.1 hgp
        norm_num
    rcases List.mem_cons.1 hs with rfl | hs
    · exact volumeLoad_linear _ _
    rcases List.mem_cons.1 hs with rfl | hs
    · exact traction_linear _ _
    · exact absurd hs List.not_mem_nil

theorem exampleParamBar_local (l a b : ℝ) :
    Elem.local? (exampleParamBar.at l) [a, b] = some (fun I _ => ![a, b] I : NodeVec 2 1) := by
  have : FETree.localSolution 1 [a, b] [0, 1] (.power [.leaf [0, 1]]) none = some [[a], [b]] := rfl
  unfold Elem.local?
  show (FETree.localSolution 1 [a, b] [0, 1] (.power [.leaf [0, 1]]) none).map Elem.nodes = _
  rw [this, Option.map_some]
  congr 1
  funext I c
  fin_cases I <;> fin_cases c <;> rfl

theorem exampleAnalysis_energy (o : DBCOption) (l a b : ℝ) :
    ((exampleAnalysis o).system l).scalar? [a, b] = some (3 / 4 * (b - a) ^ 2 - l * (a + b) - l * b) := by
  show ((mapOpt (·.scalar? [a, b]) [exampleParamBar.at l]).map fun fes => Assembler.getScalar fes 0) = _
  have : (exampleParamBar.at l).scalar? [a, b] = some (3 / 4 * (b - a) ^ 2 - l * (a + b) - l * b) := by
    unfold Elem.scalar?
    rw [exampleParamBar_local]
    show Mixin.calculateScalar (fun I _ => ![a, b] I : NodeVec 2 1) [.linearElastic !![(3 : ℝ)] [⟨2, 1, ![!![-1 / 2], !![1 / 2]]⟩],
      .volumeLoad (some fun _ l => ![l]) [⟨![0], 2, 1, ![1 / 2, 1 / 2]⟩] l,
      .traction (some [⟨true, [⟨![1], 1, 1, ![0, 1]⟩]⟩]) (some fun x l => ![l * x 0]) l] = _
    have h1 : LinearElastic.calculateScalar false !![(3 : ℝ)] [⟨2, 1, ![!![-1 / 2], !![1 / 2]]⟩]
        (fun I _ => ![a, b] I : NodeVec 2 1) = 3 / 4 * (b - a) ^ 2 := by
      simp [LinearElastic.calculateScalar, LinearElastic.internalEnergy, LinPoint.strain, dotProduct, Fin.sum_univ_two]
      ring
    have h2 : VolumeLoad.calculateScalar (some fun _ l => ![l]) [⟨![0], 2, 1, ![1 / 2, 1 / 2]⟩] l
        (fun I _ => ![a, b] I : NodeVec 2 1) = -(l * (a + b)) := by
      simp [VolumeLoad.calculateScalar_sum, LoadPoint.displacement, dotProduct, Fin.sum_univ_two]
      ring
    have h3 : Traction.calculateScalar (some [⟨true, [⟨![1], 1, 1, ![0, 1]⟩]⟩]) (some fun x l => ![l * x 0]) l
        (fun I _ => ![a, b] I : NodeVec 2 1) = some (-(l * b)) := by
      simp [Traction.calculateScalar_sum, Element.Spec.loadedPoints, LoadPoint.displacement, dotProduct, Fin.sum_univ_two]
    simp only [Mixin.calculateScalar, Skill.linearElastic, Skill.volumeLoad, Skill.traction, h1, h2, h3, Option.bind_some,
      Option.map_some]
    congr 1; ring
  simp [mapOpt, this, Assembler.getScalar, Assembler.getScalarLoop]

theorem exampleAnalysis_supported (o : DBCOption) (l : ℝ) :
    Spec.Supported (exampleAnalysis o).dv.flags ((exampleAnalysis o).system l).scalar? := by
  intro x v hx hv h0 hne
  obtain ⟨a, b, rfl⟩ := List.length_eq_two.1 hx
  obtain ⟨z, c, rfl⟩ := List.length_eq_two.1 hv
  obtain rfl : z = 0 := by simpa using h0 0 rfl
  have hc : c ≠ 0 := by simpa using hne
  have hl : ∀ t : ℝ, Spec.line [a, b] [0, c] t = [a, b + t * c] := by
    intro t
    simp [Spec.line]
  rw [hl, hl, exampleAnalysis_energy, exampleAnalysis_energy, exampleAnalysis_energy]
  refine ⟨_, _, _, rfl, rfl, rfl, ?_⟩
  have : 0 < c ^ 2 := by positivity
  nlinarith

/-- The displacement of the left end at load factor one. -/
def exampleSupport (i : Nat) : ℝ := if i = 0 then 1 else 0

theorem exampleAnalysis_proper (o : DBCOption) (ho : o ≠ .raw) : Spec.ProperLinear (exampleAnalysis o) exampleSupport where
  option := ho
  elems := exampleAnalysis_linear
  prescribed := by
    refine ⟨fun l i _ => ?_, fun i _ => ?_, fun i hi hne => ?_⟩
    · simp [Spec.prescribed, Spec.total, exampleAnalysis, exampleSupport]
    · simp [Spec.total, exampleAnalysis, exampleSupport]
    · have : i = 0 := by
        by_contra h
        exact hne (if_neg h)
      subst this
      rfl
  force := Or.inl rfl
  alive _ _ := rfl
  bound _ h := absurd h (by simp [exampleAnalysis])
  linSolve l x hx A hA := inverseSolve_solves (exampleAnalysis o) ho exampleAnalysis_linear (exampleAnalysis_supported o) l x hx A hA

theorem exampleAnalysis_settings (o : DBCOption) : Spec.Settings (exampleAnalysis o).settings 2 :=
  ⟨by norm_num [exampleAnalysis], by norm_num [exampleAnalysis], by norm_num [exampleAnalysis]⟩

/-- A run in four steps, Full and Reduced: both end in the same state. -/
example : ∃ ra rb, (exampleAnalysis .full).loadControl? 4 0 1 ⟨0, some [0, 0]⟩ = some ra ∧
    (exampleAnalysis .reduced).loadControl? 4 0 1 ⟨0, some [0, 0]⟩ = some rb ∧
    ra.info.success = true ∧ rb.info.success = true ∧ ra.dom = rb.dom := by
  have hs : ∀ o, Spec.Settings (exampleAnalysis o).settings 1 := fun o =>
    ⟨(exampleAnalysis_settings o).1, (exampleAnalysis_settings o).2.1, by norm_num [exampleAnalysis]⟩
  refine linear_same_result (exampleAnalysis_proper .full (by simp)) (exampleAnalysis_proper .reduced (by simp)) rfl rfl
    (hs _) (hs _) le_rfl le_rfl (exampleAnalysis_supported _) 4 (by norm_num) 0 1 0 rfl (fun i hi => ?_) (fun k hk _ h0 => ?_)
  · have : i = 0 := by
      rcases i with _ | _ | i
      · rfl
      · cases hi
      · cases hi
    subst this
    simp
  · have : (0 : ℝ) < k := by exact_mod_cast hk
    norm_num at h0
    omega

/-- C94, refuted for complete unloading: taking the bar from load factor one to zero leaves its left end displaced by one. -/
theorem supportsFollow_false : ¬ Spec.SupportsFollow := by
  intro h
  obtain ⟨r, u, h1, h2, h3, h4⟩ := linear_unloading (exampleAnalysis_proper .reduced (by simp)) (exampleAnalysis_settings _) le_rfl
    1 one_pos 1 one_ne_zero (x0 := [1, 0]) rfl (fun i hi => by
      rcases i with _ | _ | i
      · simp [exampleSupport]
      · cases hi
      · cases hi)
  obtain ⟨u', g1, g2⟩ := h _ _ (exampleAnalysis_proper .reduced (by simp)) (exampleAnalysis_settings _) 1 one_pos 1 0 [1, 0] rfl
    (fun i hi => by
      rcases i with _ | _ | i
      · simp [exampleSupport]
      · cases hi
      · cases hi) r h1 h2
  rw [h3] at g1
  obtain rfl : u = u' := Option.some.inj g1
  have e1 := h4.2.1 0 rfl
  have e2 := g2 0 rfl
  rw [e1] at e2
  simp [exampleSupport] at e2

end Ikarus
