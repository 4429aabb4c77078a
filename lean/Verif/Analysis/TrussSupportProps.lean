import Verif.Analysis.NonlinearProps
import Verif.Analysis.UnloadingProps
import Verif.FE.TrussProps

/-!
C96, continued: a truss bar whose left end is moved across its axis.  Load control reports success although the state it
shows is far from equilibrium.  If the solver is made to iterate, it finds equilibrium.
-/

namespace Ikarus

open Ikarus.Element Ikarus.Element.Spec

variable {n d : Nat}

/-! ### The truss as a skill -/

/-- The skill Truss, ikarus/finiteelements/mechanics/truss.hh:197-221. -/
noncomputable def Skill.truss (E A : ℝ) (X1 X2 : Fin d → ℝ) : Skill 2 d where
  scalar u := some (Truss.calculateScalar E A X1 X2 u)
  vector u f := some (Truss.calculateVector E A X1 X2 u f)
  matrix u K := some (Truss.calculateMatrix E A X1 X2 u K)

/-- C96, elements. The truss keeps the contract of a skill everywhere and never fails. -/
theorem truss_skill (E A : ℝ) (X1 X2 : Fin d → ℝ) (u : NodeVec 2 d) :
    Spec.SkillContract (Skill.truss E A X1 X2) u ∧ Spec.TotalSkill (Skill.truss E A X1 X2) :=
  ⟨⟨_, fun u => Truss.calculateVector E A X1 X2 u 0, fun u => Truss.calculateMatrix E A X1 X2 u 0, fun _ => rfl,
    fun w f => congrArg some (Truss.truss_adds E A X1 X2 w f 0).1, fun w M => congrArg some (Truss.truss_adds E A X1 X2 w 0 M).2,
    (Truss.truss_consistent E A X1 X2 u).1, (Truss.truss_consistent E A X1 X2 u).2.1⟩,
    fun _ => ⟨_, rfl⟩, fun _ _ => ⟨_, rfl⟩, fun _ _ => ⟨_, rfl⟩⟩

/-! ### Linear solvers -/

/-- C96, linear solvers. Solving with the inverse matrix (zero for a singular matrix) is a linear solver as the theorem
asks for, whatever the elements. -/
theorem inverseSolve_answers (a : Analysis) (l : ℝ) (x : List ℝ) (hopt : a.option ≠ .raw)
    (K : DMat ℝ) (hK : (a.system l).rawMatrix? x = some K) (A : DMat ℝ) (hA : a.jacobian? ⟨l, some x⟩ = some A) :
    Spec.Answers Spec.inverseSolve a.option a.dv.flags A := by
  unfold System.rawMatrix? at hK
  obtain ⟨fes, h1, h2⟩ := Option.bind_eq_some_iff.1 hK
  unfold Analysis.jacobian? at hA
  rw [Option.bind_some] at hA
  cases ho : a.option with
  | raw => exact absurd ho hopt
  | full =>
    rw [ho] at hA
    obtain ⟨A', hA', hAr, hAc, hAv⟩ := fullMatrix_eq a.dv.flags fes K h2
    have : (a.system l).fullMatrix? x = some A' := by
      unfold System.fullMatrix?
      rw [h1, Option.bind_some]; exact hA'
    obtain rfl : A' = A := Option.some.inj (this.symm.trans hA)
    intro b hb
    refine ⟨(listOf_length _ _).trans (hAr.trans hAc.symm), fun _ i hi hbi => ?_⟩
    have hlt : i < A'.rows := by rw [hAr]; exact (List.getElem?_eq_some_iff.1 hi).1
    have hif : ¬ Spec.Free a.dv.flags i := (not_free_iff (hAr ▸ hlt)).2 hi
    unfold Spec.inverseSolve
    rw [listOf_getD _ _ hlt, dif_pos hlt]
    let M : Matrix (Fin A'.rows) (Fin A'.rows) ℝ := Matrix.of fun i j => A'.val i j
    show (M⁻¹.mulVec fun j : Fin A'.rows => b.getD j 0) ⟨i, hlt⟩ = 0
    by_cases hdet : IsUnit M.det
    · have h3 := congrFun (Matrix.mulVec_mulVec (fun j : Fin A'.rows => b.getD j 0) M M⁻¹) ⟨i, hlt⟩
      rw [Matrix.mul_nonsing_inv M hdet, Matrix.one_mulVec] at h3
      have h4 : (M.mulVec (M⁻¹.mulVec fun j : Fin A'.rows => b.getD j 0)) ⟨i, hlt⟩ =
          (M⁻¹.mulVec fun j : Fin A'.rows => b.getD j 0) ⟨i, hlt⟩ := by
        show ∑ j : Fin A'.rows, A'.val i j * (M⁻¹.mulVec fun j : Fin A'.rows => b.getD j 0) j = _
        rw [Finset.sum_eq_single ⟨i, hlt⟩]
        · rw [hAv i i (hAr ▸ hlt) (hAr ▸ hlt), if_neg (by tauto), if_pos rfl, one_mul]
        · intro j _ hj
          rw [hAv i j (hAr ▸ hlt) (hAr ▸ j.2), if_neg (by tauto), if_neg (fun h => hj (Fin.ext h.symm)), zero_mul]
        · intro h; exact absurd (Finset.mem_univ _) h
      rw [← h4, h3]
      exact hbi
    · rw [Matrix.nonsing_inv_apply_not_isUnit M hdet, Matrix.zero_mulVec]; rfl
  | reduced =>
    rw [ho] at hA
    obtain ⟨A', hA', hAr, hAc, hAv⟩ := reducedMatrix_eq a.dv.flags fes K h2
    have : (a.system l).reducedMatrix? x = some A' := by
      unfold System.reducedMatrix?
      rw [h1, Option.bind_some]; exact hA'
    obtain rfl : A' = A := Option.some.inj (this.symm.trans hA)
    rw [hAr] at hAc
    intro b hb
    exact ⟨(listOf_length _ _).trans (Option.some.inj hAc), fun h => by cases h⟩

/-! ### The bar -/

/-- A bar from (0, 0) to (1, 0) with unit stiffness. -/
noncomputable def exampleTruss : ParamElem where
  n := 2
  d := 2
  children := [.leaf [0, 1], .leaf [2, 3]]
  index := [0, 2, 1, 3]
  skills := [fun _ => .truss 1 1 ![0, 0] ![1, 0]]

/-- The left end is moved across the axis by the load factor, the right end can move along the axis. -/
noncomputable def trussAnalysis (option : DBCOption) (settings : NRSettings ℝ) : Analysis where
  dv := ⟨[true, true, false, true], 0,
    [⟨fun l i => if i = 1 then l else 0, fun _ i => if i = 1 then 1 else 0, 0⟩], fun _ => true⟩
  alive := fun _ => true
  elems := [exampleTruss]
  option := option
  bound := none
  linSolve := Spec.inverseSolve
  settings := settings
  withForce := true

/-- The displacement of the left end at load factor one. -/
def trussSupport (i : Nat) : ℝ := if i = 1 then 1 else 0

theorem exampleTruss_fits (l : ℝ) : Spec.ElemFits 4 (exampleTruss.at l) := by
  refine ⟨rfl, rfl, [0, 1, 2, 3], ?_, by simp⟩
  simp [Elem.dofs?, ParamElem.at, exampleTruss, FETree.globalIndices, FETree.firstIsLeaf, FETree.powerNodeIndices,
    FETree.leafSize?, FETree.childIndex?, FETree.leafIndex?, mapOpt, List.range, List.range.loop]

theorem trussAnalysis_contract (o : DBCOption) (st : NRSettings ℝ) (l : ℝ) (x : List ℝ)
    (hx : x.length = (trussAnalysis o st).dv.flags.length) : Spec.SystemContract ((trussAnalysis o st).system l) x := by
  refine ⟨hx, fun e he => ?_⟩
  obtain rfl : e = exampleTruss.at l := List.mem_singleton.1 he
  refine ⟨exampleTruss_fits l, fun u _ sk hsk => ?_⟩
  obtain rfl : sk = Skill.truss 1 1 ![0, 0] ![1, 0] := List.mem_singleton.1 hsk
  exact (truss_skill _ _ _ _ _).1

theorem exampleTruss_local (l a b c e : ℝ) :
    Elem.local? (exampleTruss.at l) [a, b, c, e] = some (![![a, b], ![c, e]] : NodeVec 2 2) := by
  have : FETree.localSolution 2 [a, b, c, e] [0, 2, 1, 3] (.power [.leaf [0, 1], .leaf [2, 3]]) none =
    some [[a, b], [c, e]] := rfl
  unfold Elem.local?
  show (FETree.localSolution 2 [a, b, c, e] [0, 2, 1, 3] (.power [.leaf [0, 1], .leaf [2, 3]]) none).map Elem.nodes = _
  rw [this, Option.map_some]
  congr 1
  funext I c
  fin_cases I <;> fin_cases c <;> rfl

theorem trussAnalysis_energy (o : DBCOption) (st : NRSettings ℝ) (l a b c e : ℝ) :
    ((trussAnalysis o st).system l).scalar? [a, b, c, e] = some (1 / 8 * ((1 + c - a) ^ 2 + (e - b) ^ 2 - 1) ^ 2) := by
  show ((mapOpt (·.scalar? [a, b, c, e]) [exampleTruss.at l]).map fun fes => Assembler.getScalar fes 0) = _
  have : (exampleTruss.at l).scalar? [a, b, c, e] = some (1 / 8 * ((1 + c - a) ^ 2 + (e - b) ^ 2 - 1) ^ 2) := by
    unfold Elem.scalar?
    rw [exampleTruss_local]
    show Mixin.calculateScalar (![![a, b], ![c, e]] : NodeVec 2 2) [.truss 1 1 ![0, 0] ![1, 0]] = _
    simp only [Mixin.calculateScalar, Skill.truss, Option.bind_some, Option.map_some]
    congr 1
    simp [Truss.calculateScalar, Truss.computeStrain, Truss.squaredNorm, dotProduct, Fin.sum_univ_two]
    ring
  simp [mapOpt, this, Assembler.getScalar, Assembler.getScalarLoop]

/-- The force at the right end along the axis. -/
theorem trussAnalysis_force (o : DBCOption) (st : NRSettings ℝ) (l a b c e : ℝ) :
    ∃ r : List ℝ, ((trussAnalysis o st).system l).rawVector? [a, b, c, e] = some r ∧ r.length = 4 ∧
      r.getD 2 0 = 1 / 2 * ((1 + c - a) ^ 2 + (e - b) ^ 2 - 1) * (1 + c - a) := by
  obtain ⟨-, r, K, hr, -, hd⟩ := assembled_consistent _ _ (trussAnalysis_contract o st l [a, b, c, e] rfl)
  have hrl : r.length = 4 := by
    unfold System.rawVector? at hr
    obtain ⟨fes, -, h2⟩ := Option.bind_eq_some_iff.1 hr
    exact (rawVector_eq_sum _ _ _ h2).1
  refine ⟨r, hr, hrl, ?_⟩
  have h1 := (hd [0, 0, 1, 0] rfl).1
  have hline : ∀ t : ℝ, Spec.line [a, b, c, e] [0, 0, 1, 0] t = [a, b, c + t, e] := by
    intro t
    simp [Spec.line]
  have h2 : HasDerivAt (fun t : ℝ => 1 / 8 * ((1 + (c + t) - a) ^ 2 + (e - b) ^ 2 - 1) ^ 2)
      (1 / 2 * ((1 + c - a) ^ 2 + (e - b) ^ 2 - 1) * (1 + c - a)) 0 := by
    have h3 : HasDerivAt (fun t : ℝ => 1 + (c + t) - a) 1 0 := (((hasDerivAt_id (0 : ℝ)).const_add c).const_add 1).sub_const a
    have h4 := ((((h3.pow 2).add_const ((e - b) ^ 2)).sub_const 1).pow 2).const_mul (1 / 8 : ℝ)
    refine h4.congr_deriv ?_
    norm_num
    ring
  have h5 := h1.unique (h2.congr_of_eventuallyEq (Filter.Eventually.of_forall fun t => by
    show (((trussAnalysis o st).system l).scalar? (Spec.line [a, b, c, e] [0, 0, 1, 0] t)).getD 0 = _
    rw [hline, trussAnalysis_energy, Option.getD_some]))
  rw [← h5, dotL_eq_sum r [0, 0, 1, 0] 4 hrl rfl]
  simp [Finset.sum_range_succ]

/-- The stiffness of the right end along the axis. -/
theorem trussAnalysis_stiffness (o : DBCOption) (st : NRSettings ℝ) (l a b c e : ℝ) (K : DMat ℝ)
    (hK : ((trussAnalysis o st).system l).rawMatrix? [a, b, c, e] = some K) :
    K.val 2 1 = -(e - b) * (1 + c - a) ∧ K.val 2 2 = (1 + c - a) ^ 2 + 1 / 2 * ((1 + c - a) ^ 2 + (e - b) ^ 2 - 1) := by
  obtain ⟨-, r, K', -, hK', hd⟩ := assembled_consistent _ _ (trussAnalysis_contract o st l [a, b, c, e] rfl)
  obtain rfl : K = K' := Option.some.inj (hK.symm.trans hK')
  have hf : ∀ a b c e : ℝ, ((((trussAnalysis o st).system l).rawVector? [a, b, c, e]).getD []).getD 2 0 =
      1 / 2 * ((1 + c - a) ^ 2 + (e - b) ^ 2 - 1) * (1 + c - a) := by
    intro a b c e
    obtain ⟨r, h1, -, h2⟩ := trussAnalysis_force o st l a b c e
    rw [h1, Option.getD_some, h2]
  have hfl : ((trussAnalysis o st).system l).flags.length = 4 := rfl
  constructor
  · have h1 := (hd [0, 1, 0, 0] rfl).2 2 (by rw [hfl]; norm_num)
    have hline : ∀ t : ℝ, Spec.line [a, b, c, e] [0, 1, 0, 0] t = [a, b + t, c, e] := by
      intro t
      simp [Spec.line]
    have h2 : HasDerivAt (fun t : ℝ => 1 / 2 * ((1 + c - a) ^ 2 + (e - (b + t)) ^ 2 - 1) * (1 + c - a))
        (-(e - b) * (1 + c - a)) 0 := by
      have h3 : HasDerivAt (fun t : ℝ => e - (b + t)) (-1) 0 := ((hasDerivAt_id (0 : ℝ)).const_add b).const_sub e
      have h4 := ((((h3.pow 2).const_add ((1 + c - a) ^ 2)).sub_const 1).const_mul (1 / 2 : ℝ)).mul_const (1 + c - a)
      refine h4.congr_deriv ?_
      norm_num
      ring
    have h5 := h1.unique (h2.congr_of_eventuallyEq (Filter.Eventually.of_forall fun t => by
      show ((((trussAnalysis o st).system l).rawVector? (Spec.line [a, b, c, e] [0, 1, 0, 0] t)).getD []).getD 2 0 = _
      rw [hline, hf]))
    rw [← h5, hfl]
    simp [Finset.sum_range_succ]
  · have h1 := (hd [0, 0, 1, 0] rfl).2 2 (by rw [hfl]; norm_num)
    have hline : ∀ t : ℝ, Spec.line [a, b, c, e] [0, 0, 1, 0] t = [a, b, c + t, e] := by
      intro t
      simp [Spec.line]
    have h2 : HasDerivAt (fun t : ℝ => 1 / 2 * ((1 + (c + t) - a) ^ 2 + (e - b) ^ 2 - 1) * (1 + (c + t) - a))
        ((1 + c - a) ^ 2 + 1 / 2 * ((1 + c - a) ^ 2 + (e - b) ^ 2 - 1)) 0 := by
      have h3 : HasDerivAt (fun t : ℝ => 1 + (c + t) - a) 1 0 := (((hasDerivAt_id (0 : ℝ)).const_add c).const_add 1).sub_const a
      have h4 := ((((h3.pow 2).add_const ((e - b) ^ 2)).sub_const 1).const_mul (1 / 2 : ℝ)).mul h3
      refine h4.congr_deriv ?_
      norm_num
      ring
    have h5 := h1.unique (h2.congr_of_eventuallyEq (Filter.Eventually.of_forall fun t => by
      show ((((trussAnalysis o st).system l).rawVector? (Spec.line [a, b, c, e] [0, 0, 1, 0] t)).getD []).getD 2 0 = _
      rw [hline, hf]))
    rw [← h5, hfl]
    simp [Finset.sum_range_succ]

theorem trussAnalysis_proper (o : DBCOption) (ho : o ≠ .raw) (st : NRSettings ℝ) :
    Spec.Proper (trussAnalysis o st) trussSupport where
  option := ho
  elems e he l := by
    obtain rfl : e = exampleTruss := List.mem_singleton.1 he
    refine ⟨exampleTruss_fits l, fun s hs => ?_⟩
    obtain rfl : s = fun _ => Skill.truss 1 1 ![0, 0] ![1, 0] := List.mem_singleton.1 hs
    exact (truss_skill _ _ _ _ 0).2
  prescribed := by
    refine ⟨fun l i _ => ?_, fun i _ => ?_, fun i hi hne => ?_⟩
    · simp [Spec.prescribed, Spec.total, trussAnalysis, trussSupport]
    · simp [Spec.total, trussAnalysis, trussSupport]
    · have : i = 1 := by
        by_contra h
        exact hne (if_neg h)
      subst this
      rfl
  force := Or.inl rfl
  alive _ _ := rfl
  bound _ h := absurd h (by simp [trussAnalysis])
  linSolve l x hx A hA := by
    obtain ⟨-, -, K, -, hK, -⟩ := assembled_consistent _ _ (trussAnalysis_contract o st l x hx)
    exact inverseSolve_answers (trussAnalysis o st) l x ho K hK A hA

theorem trussAnalysis_start : Spec.OnSupports [true, true, false, true] trussSupport 0 [0, 0, 0, 0] :=
  ⟨rfl, fun i hi => by
    rcases i with _ | _ | _ | _ | i
    · simp
    · simp
    · cases hi
    · simp
    · cases hi⟩

theorem freeSq_truss (R : Nat → ℝ) : freeSq [true, true, false, true] R = R 2 * R 2 := by
  have : (Finset.range ([true, true, false, true] : List Bool).length).filter
      (fun i => Spec.Free [true, true, false, true] i) = {2} := by decide
  unfold freeSq
  rw [this, Finset.sum_singleton]

open Analysis in
/-- With the default settings a solve at the undeformed bar makes no iteration. -/
theorem truss_no_iteration (o : DBCOption) (ho : o ≠ .raw) (st : NRSettings ℝ) (htol : 0 ≤ st.tol) (hmin : st.minIter = 0)
    (hmax : 0 < st.maxIter) (l s : ℝ) (w : Option (List ℝ)) :
    ∃ w' info, (trussAnalysis o st).solver.solve w ⟨l, some [0, 0, 0, 0]⟩ s = (w', ⟨l, some [0, 0, 0, 0]⟩, info) ∧
      info.success = true ∧ info.iterations = 0 := by
  obtain ⟨k, ⟨hstop, hfirst⟩, hk, hrun⟩ := newton_run (trussAnalysis o st).problem st ⟨l, some [0, 0, 0, 0]⟩ s w
  obtain ⟨t, hs, hsx, hsi, hss, -⟩ := hrun (max 0 (max st.maxIter st.minIter)).toNat (by omega)
  have h0 : k = 0 := by
    by_contra hne
    refine hfirst 0 (by omega) ⟨by omega, Or.inr ?_⟩
    obtain ⟨R, r, K, f1, f2, f3, f4, f5, f6⟩ := first_proper (trussAnalysis_proper o ho st) l s (x := [0, 0, 0, 0]) rfl
    have h1 : (trussAnalysis o st).problem.rnorm (Spec.newtonIterates (trussAnalysis o st).problem
        ⟨l, some [0, 0, 0, 0]⟩ s 0).2 = 0 := by
      show Analysis.norm (Spec.firstResidual (trussAnalysis o st).problem ⟨l, some [0, 0, 0, 0]⟩ s) = 0
      rw [f1, norm_view _ _ _ f2]
      show Real.sqrt (freeSq [true, true, false, true] _) = 0
      obtain ⟨r', g1, -, g2⟩ := trussAnalysis_force o st l 0 0 0 0
      obtain rfl : r = r' := Option.some.inj (f3.symm.trans g1)
      have hK := trussAnalysis_stiffness o st l 0 0 0 0 K (f5 rfl)
      have h3 := f6 2 (by show 2 < 4; norm_num)
      have hl : (trussAnalysis o st).dv.flags.length = 4 := rfl
      rw [g2, hl] at h3
      simp [trussSupport, hK.1] at h3
      rw [freeSq_truss]
      simp [h3]
    rw [h1]
    show decide (0 > st.tol) = false
    simpa using htol
  subst h0
  refine ⟨t.correction, t.info, ?_, hss.2 (by omega), hsi⟩
  show (match (trussAnalysis o st).problem.solve st (max 0 (max st.maxIter st.minIter)).toNat ⟨l, some [0, 0, 0, 0]⟩ s w with
    | some s => (s.correction, s.x, s.info)
    | none => (w, _, SolverInfo.default)) = _
  rw [hs]
  show (t.correction, t.x, t.info) = _
  rw [hsx]
  rfl

open Analysis in
/-- C96, supports. Moving the left end of the bar across its axis by one in one load step with the default settings of the
solver: load control reports success without an iteration.  It shows the bar with the moved left end and the right end where
it was; the free force there is a half, whatever the tolerance. -/
theorem truss_support (o : DBCOption) (ho : o ≠ .raw) (st : NRSettings ℝ) (htol : 0 ≤ st.tol) (hmin : st.minIter = 0)
    (hmax : 0 < st.maxIter) :
    ∃ r, (trussAnalysis o st).loadControl? 1 0 1 ⟨0, some [0, 0, 0, 0]⟩ = some r ∧ r.info.success = true ∧
      r.info.totalIterations = 0 ∧ Spec.shown r = [⟨0, some [0, 0, 0, 0]⟩, ⟨1, some [0, 1, 0, 0]⟩] ∧
      HasDerivAt (fun t => (((trussAnalysis o st).system 1).scalar? [0, 1, t, 0]).getD 0) (1 / 2) 0 := by
  obtain ⟨w0, i0, a1, a2, a3⟩ := truss_no_iteration o ho st htol hmin hmax 0 0 none
  obtain ⟨w1, i1, b1, b2, b3⟩ := truss_no_iteration o ho st htol hmin hmax 1 1 w0
  have hsync : (trussAnalysis o st).sync ⟨1, some [0, 0, 0, 0]⟩ = ⟨1, some [0, 1, 0, 0]⟩ := by
    obtain ⟨z, z1, z2, z3⟩ := proper_sync (trussAnalysis_proper o ho st) 1 (x := [0, 0, 0, 0]) rfl
    rw [z1]
    congr 2
    apply List.ext_getElem?
    intro i
    by_cases hi : i < 4
    · rw [getElem?_eq_getD (by rw [z2]; exact hi), z3 i hi]
      unfold synced trussSupport
      rcases i with _ | _ | _ | _ | i
      · simp
      · simp
      · simp
      · simp
      · omega
    · rw [List.getElem?_eq_none (by rw [z2]; exact Nat.le_of_not_lt hi), List.getElem?_eq_none (Nat.le_of_not_lt hi)]
  obtain ⟨m, ls, hm, h1, h2, h3, h4, h5, h6⟩ := load_control_run 1 one_pos (1 : ℝ) (trussAnalysis o st).solver none
    ⟨0, some [0, 0, 0, 0]⟩
  have hs0 : Spec.loadSolve (trussAnalysis o st).solver 1 none ⟨0, some [0, 0, 0, 0]⟩ 0 =
      (⟨0, some [0, 0, 0, 0]⟩, w0, ⟨0, some [0, 0, 0, 0]⟩, i0) := by
    unfold Spec.loadSolve
    rw [a1]
  have hs1 : Spec.loadSolve (trussAnalysis o st).solver 1 none ⟨0, some [0, 0, 0, 0]⟩ 1 =
      (⟨1, some [0, 0, 0, 0]⟩, w1, ⟨1, some [0, 1, 0, 0]⟩, i1) := by
    unfold Spec.loadSolve
    rw [hs0]
    simp only [zero_add]
    rw [b1]
    show (_, w1, (if i1.iterations = 0 then (trussAnalysis o st).sync ⟨1, some [0, 0, 0, 0]⟩ else _), i1) = _
    rw [if_pos b3, hsync]
  generalize hr : (LoadControl.mk ((1 : Nat) : Int) (1 : ℝ)).run (trussAnalysis o st).solver none ⟨0, some [0, 0, 0, 0]⟩ = r at *
  have hs : r.info.success = true := h1.2 fun k hk => by
    have : k = 0 ∨ k = 1 := by omega
    rcases this with rfl | rfl
    · unfold Spec.loadInfo; rw [hs0]; exact a2
    · unfold Spec.loadInfo; rw [hs1]; exact b2
  obtain rfl : m = 1 + 1 := h2 hs
  refine ⟨r, ?_, hs, ?_, ?_, ?_⟩
  · have hmk : LoadControl.mk? (1 : Int) (0 : ℝ) 1 = some ⟨1, 1⟩ := by
      unfold LoadControl.mk?
      rw [if_neg (by omega)]
      simp
    unfold Analysis.loadControl?
    rw [hmk, Option.map_some, ← hr]
    rfl
  · rw [h4]
    show (Spec.loadInfo _ _ _ _ 0).iterations + ((Spec.loadInfo _ _ _ _ 1).iterations + 0) = 0
    unfold Spec.loadInfo
    rw [hs0, hs1]
    show i0.iterations + (i1.iterations + 0) = 0
    omega
  · unfold Spec.shown
    rw [h6, if_pos hs]
    show [Spec.loadAfter _ _ _ _ 0, Spec.loadAfter _ _ _ _ 1] = _
    unfold Spec.loadAfter
    rw [hs0, hs1]
  · have h3 : HasDerivAt (fun t : ℝ => 1 + t) 1 0 := (hasDerivAt_id (0 : ℝ)).const_add 1
    have h4 := (((h3.pow 2).pow 2)).const_mul (1 / 8 : ℝ)
    refine (h4.congr_deriv (by norm_num)).congr_of_eventuallyEq (Filter.Eventually.of_forall fun t => ?_)
    show (((trussAnalysis o st).system 1).scalar? [0, 1, t, 0]).getD 0 = _
    rw [trussAnalysis_energy, Option.getD_some]
    simp only [Pi.pow_apply]
    ring

/-- C96, refuted: the bar, with the default settings, ends in a state that is not stationary, for all tolerances below a half. -/
theorem success_not_stationary : ¬ Spec.SuccessIsStationary := by
  intro h
  obtain ⟨r, h1, h2, -, h3, h4⟩ := truss_support .reduced (by simp) { tol := 1 / 10 ^ 8, maxIter := 20, minIter := 0 }
    (by norm_num) rfl (by norm_num)
  obtain ⟨u, g1, g2⟩ := h _ _ (trussAnalysis_proper .reduced (by simp) { tol := 1 / 10 ^ 8, maxIter := 20, minIter := 0 })
    (le_refl (0 : Int)) (by norm_num [trussAnalysis])
    (fun l x hx => trussAnalysis_contract _ _ l x hx) 1 one_pos 0 1 0 [0, 0, 0, 0] trussAnalysis_start
    (fun k hk _ => by
      have : (0 : ℝ) < k := by exact_mod_cast hk
      norm_num
      omega) r (by exact_mod_cast h1) h2 ⟨1, some [0, 1, 0, 0]⟩ (by rw [h3]; simp)
  obtain rfl : [0, 1, 0, 0] = u := Option.some.inj g1
  obtain ⟨-, D, hD, hle⟩ := g2 [0, 0, 1, 0] rfl (fun i hi => by
    rcases i with _ | _ | _ | _ | i
    · rfl
    · rfl
    · cases hi
    · rfl
    · cases hi)
  have hline : ∀ t : ℝ, Spec.line [0, 1, 0, 0] [0, 0, 1, 0] t = [0, 1, t, 0] := by
    intro t
    simp [Spec.line]
  simp only [hline] at hD
  have := hD.unique h4
  rw [this] at hle
  have hsz : Spec.size [0, 0, 1, 0] = 1 := by simp [Spec.size]
  rw [hsz] at hle
  norm_num [trussAnalysis, abs_of_pos] at hle

/-! ### The bar with iterations -/

open Analysis in
/-- One iteration of the solver at the bar. -/
theorem truss_step (st : NRSettings ℝ) (l b c : ℝ) {R : List ℝ} (hR : R.length = 4) (Q : ℝ) (hQ : Q ≠ 0)
    (hQ' : Q = (1 + c) ^ 2 + 1 / 2 * ((1 + c) ^ 2 + b ^ 2 - 1)) :
    Spec.newtonStep (trussAnalysis .reduced st).problem ⟨l, some [0, b, c, 0]⟩
      (some (view .reduced (trussAnalysis .reduced st).dv.flags R)) = ⟨l, some [0, if l = 0 then b else l, c - R.getD 2 0 / Q, 0]⟩ := by
  have hp := trussAnalysis_proper .reduced (by simp) st
  obtain ⟨-, -, K, -, -, -, hK, -, -⟩ := proper_system hp l (x := [0, b, c, 0]) rfl
  have hK2 : K.val 2 2 = Q := by
    rw [(trussAnalysis_stiffness .reduced st l 0 b c 0 K hK).2, hQ']
    ring
  have hK' := hK
  unfold System.rawMatrix? at hK'
  obtain ⟨fes, k1, k2⟩ := Option.bind_eq_some_iff.1 hK'
  obtain ⟨A, hA, hAr, hAc, hAv⟩ := reducedMatrix_eq _ fes K k2
  have hJ : (trussAnalysis .reduced st).jacobian? ⟨l, some [0, b, c, 0]⟩ = some A := by
    show ((trussAnalysis .reduced st).system l).reducedMatrix? [0, b, c, 0] = _
    unfold System.reducedMatrix?
    rw [k1, Option.bind_some]; exact hA
  have hls : ∀ A', (trussAnalysis .reduced st).jacobian? ⟨l, some [0, b, c, 0]⟩ = some A' →
      Spec.SolvesExactly Spec.inverseSolve A' := by
    intro A' hA'
    obtain rfl : A = A' := Option.some.inj (hJ.symm.trans hA')
    rw [Assembler.reducedSize?_create] at hAr hAc
    have h1 : A.rows = 1 := (Option.some.inj hAr).symm
    have h2 : A.cols = 1 := (Option.some.inj hAc).symm
    obtain ⟨k, k', e1, e2, e3, e4, e5⟩ := hAv 2 2 rfl rfl
    refine inverseSolve_exact A (h2.trans h1.symm) fun v hv i hi => ?_
    have h3 := hv 0 (by omega)
    have hk : k = 0 := by omega
    have hk' : k' = 0 := by omega
    rw [hk, hk', hK2] at e5
    rw [h1, Finset.sum_range_one, e5] at h3
    have : i = 0 := by omega
    subst this
    exact (mul_eq_zero.1 h3).resolve_left hQ
  obtain ⟨y, y1, y2, v, v1, v2, v3⟩ := (trussAnalysis .reduced st).correction_view (by simp [trussAnalysis]) rfl hR hK hls
  have hv2 : v 2 = -(R.getD 2 0 / Q) := by
    have h3 := v3 2 rfl
    have hfl : (trussAnalysis .reduced st).dv.flags.length = 4 := rfl
    have g0 := v1 0 (by rw [hfl]; norm_num) (show ¬ Spec.Free [true, true, false, true] 0 by decide)
    have g1 := v1 1 (by rw [hfl]; norm_num) (show ¬ Spec.Free [true, true, false, true] 1 by decide)
    have g3 := v1 3 (by rw [hfl]; norm_num) (show ¬ Spec.Free [true, true, false, true] 3 by decide)
    rw [hfl] at h3
    simp only [Finset.sum_range_succ, Finset.sum_range_zero, g0, g1, g3, hK2, mul_zero, zero_add, add_zero] at h3
    field_simp
    linarith
  obtain ⟨z, z1, z2, z3⟩ := proper_sync hp l y2
  have hstep : Spec.newtonStep (trussAnalysis .reduced st).problem ⟨l, some [0, b, c, 0]⟩
      (some (view .reduced (trussAnalysis .reduced st).dv.flags R)) = ⟨l, some z⟩ := by
    have y1' : (trussAnalysis .reduced st).problem.update ⟨l, some [0, b, c, 0]⟩
        ((trussAnalysis .reduced st).problem.linSolve ((trussAnalysis .reduced st).problem.jacobian ⟨l, some [0, b, c, 0]⟩)
          (some (view .reduced (trussAnalysis .reduced st).dv.flags R))) = ⟨l, some y⟩ := y1
    unfold Spec.newtonStep
    show (trussAnalysis .reduced st).sync ((trussAnalysis .reduced st).problem.update _ _) = _
    rw [y1', z1]
  rw [hstep]
  congr 2
  apply List.ext_getElem?
  intro i
  by_cases hi : i < 4
  · rw [getElem?_eq_getD (by rw [z2]; exact hi), z3 i hi, v2 i hi]
    unfold synced trussSupport
    have g0 := v1 0 (show 0 < 4 by norm_num) (show ¬ Spec.Free [true, true, false, true] 0 by decide)
    have g3 := v1 3 (show 3 < 4 by norm_num) (show ¬ Spec.Free [true, true, false, true] 3 by decide)
    rcases i with _ | _ | _ | _ | i
    · simp [g0]
    · have g1 := v1 1 (show 1 < 4 by norm_num) (show ¬ Spec.Free [true, true, false, true] 1 by decide)
      by_cases hl : l = 0 <;> simp [hl, g1]
    · simp [hv2, sub_eq_add_neg]
    · simp [g3]
    · omega
  · rw [List.getElem?_eq_none (by rw [z2]; exact Nat.le_of_not_lt hi), List.getElem?_eq_none (Nat.le_of_not_lt hi)]

/-- The residual at the bar. -/
theorem truss_residual (st : NRSettings ℝ) (l b c : ℝ) :
    ∃ R : List ℝ, (trussAnalysis .reduced st).problem.residual ⟨l, some [0, b, c, 0]⟩ =
        some (view .reduced (trussAnalysis .reduced st).dv.flags R) ∧ R.length = 4 ∧
      R.getD 2 0 = 1 / 2 * ((1 + c) ^ 2 + b ^ 2 - 1) * (1 + c) := by
  obtain ⟨r, h1, h2, h3⟩ := trussAnalysis_force .reduced st l 0 b c 0
  refine ⟨r, (trussAnalysis .reduced st).residual_view (by simp [trussAnalysis]) h1, h2, ?_⟩
  rw [h3]
  ring

open Analysis in
/-- The first two iterations from the undeformed bar. -/
theorem truss_iterates (st : NRSettings ℝ) (l s : ℝ) (hl : l = 0 ∨ l = 1) :
    ∃ R : List ℝ, Spec.newtonIterates (trussAnalysis .reduced st).problem ⟨l, some [0, 0, 0, 0]⟩ s 2 =
        (⟨l, some [0, l, if l = 0 then 0 else -(1 / 3), 0]⟩, some (view .reduced (trussAnalysis .reduced st).dv.flags R)) ∧
      R.length = 4 ∧ R.getD 2 0 = if l = 0 then 0 else 4 / 27 := by
  have hp := trussAnalysis_proper .reduced (by simp) st
  obtain ⟨R0, r, K, f1, f2, f3, -, f5, f6⟩ := first_proper hp l s (x := [0, 0, 0, 0]) rfl
  have hR0 : R0.getD 2 0 = 0 := by
    obtain ⟨r', g1, -, g2⟩ := trussAnalysis_force .reduced st l 0 0 0 0
    obtain rfl : r = r' := Option.some.inj (f3.symm.trans g1)
    have hK := trussAnalysis_stiffness .reduced st l 0 0 0 0 K (f5 rfl)
    have h3 := f6 2 (by show 2 < 4; norm_num)
    have hfl : (trussAnalysis .reduced st).dv.flags.length = 4 := rfl
    rw [g2, hfl] at h3
    simpa [trussSupport, hK.1] using h3
  have s1 := truss_step st l 0 0 f2 1 one_ne_zero (by norm_num)
  have hif : (if l = 0 then 0 else l) = l := by split <;> simp_all
  rw [hR0, zero_div, sub_zero, hif] at s1
  obtain ⟨R1, r1, r2, r3⟩ := truss_residual st l l 0
  have h1 : Spec.newtonIterates (trussAnalysis .reduced st).problem ⟨l, some [0, 0, 0, 0]⟩ s 1 =
      (⟨l, some [0, l, 0, 0]⟩, some (view .reduced (trussAnalysis .reduced st).dv.flags R1)) := by
    show (Spec.newtonStep (trussAnalysis .reduced st).problem ⟨l, some [0, 0, 0, 0]⟩ (Spec.firstResidual (trussAnalysis .reduced st).problem ⟨l, some [0, 0, 0, 0]⟩ s),
      (trussAnalysis .reduced st).problem.residual (Spec.newtonStep (trussAnalysis .reduced st).problem ⟨l, some [0, 0, 0, 0]⟩
        (Spec.firstResidual (trussAnalysis .reduced st).problem ⟨l, some [0, 0, 0, 0]⟩ s))) = _
    rw [f1]
    show (Spec.newtonStep (trussAnalysis .reduced st).problem ⟨l, some [0, 0, 0, 0]⟩ (some (view .reduced _ R0)), (trussAnalysis .reduced st).problem.residual
      (Spec.newtonStep (trussAnalysis .reduced st).problem ⟨l, some [0, 0, 0, 0]⟩ (some (view .reduced _ R0)))) = _
    rw [s1, r1]
  have s2 := truss_step st l l 0 r2 (1 + 1 / 2 * l ^ 2) (by positivity) (by ring)
  have hif2 : (if l = 0 then l else l) = l := by split <;> rfl
  have hc : (0 : ℝ) - R1.getD 2 0 / (1 + 1 / 2 * l ^ 2) = if l = 0 then 0 else -(1 / 3) := by
    rw [r3]
    rcases hl with rfl | rfl <;> norm_num
  rw [hc, hif2] at s2
  obtain ⟨R2, q1, q2, q3⟩ := truss_residual st l l (if l = 0 then 0 else -(1 / 3))
  refine ⟨R2, ?_, q2, ?_⟩
  · show (Spec.newtonStep (trussAnalysis .reduced st).problem (Spec.newtonIterates (trussAnalysis .reduced st).problem ⟨l, some [0, 0, 0, 0]⟩ s 1).1
      (Spec.newtonIterates (trussAnalysis .reduced st).problem ⟨l, some [0, 0, 0, 0]⟩ s 1).2, (trussAnalysis .reduced st).problem.residual
      (Spec.newtonStep (trussAnalysis .reduced st).problem (Spec.newtonIterates (trussAnalysis .reduced st).problem ⟨l, some [0, 0, 0, 0]⟩ s 1).1
        (Spec.newtonIterates (trussAnalysis .reduced st).problem ⟨l, some [0, 0, 0, 0]⟩ s 1).2)) = _
    rw [h1]
    show (Spec.newtonStep (trussAnalysis .reduced st).problem ⟨l, some [0, l, 0, 0]⟩ (some (view .reduced _ R1)), (trussAnalysis .reduced st).problem.residual
      (Spec.newtonStep (trussAnalysis .reduced st).problem ⟨l, some [0, l, 0, 0]⟩ (some (view .reduced _ R1)))) = _
    rw [s2, q1]
  · rw [q3]
    rcases hl with rfl | rfl <;> norm_num

/-- The settings of the example with iterations. -/
noncomputable def trussSettings : NRSettings ℝ := { tol := 3 / 20, maxIter := 20, minIter := 2 }

open Analysis in
theorem truss_two_iterations (l s : ℝ) (hl : l = 0 ∨ l = 1) (w : Option (List ℝ)) :
    ∃ w' info, (trussAnalysis .reduced trussSettings).solver.solve w ⟨l, some [0, 0, 0, 0]⟩ s =
        (w', ⟨l, some [0, l, if l = 0 then 0 else -(1 / 3), 0]⟩, info) ∧ info.success = true ∧ info.iterations = 2 := by
  obtain ⟨k, ⟨hstop, hfirst⟩, hk, hrun⟩ := newton_run (trussAnalysis .reduced trussSettings).problem trussSettings
    ⟨l, some [0, 0, 0, 0]⟩ s w
  obtain ⟨t, hs, hsx, hsi, hss, -⟩ := hrun (max 0 (max trussSettings.maxIter trussSettings.minIter)).toNat (by omega)
  obtain ⟨R, h1, h2, h3⟩ := truss_iterates trussSettings l s hl
  have hmin : trussSettings.minIter = 2 := rfl
  have hmax : trussSettings.maxIter = 20 := rfl
  have h0 : k = 2 := by
    have hge : (2 : Int) ≤ k := hmin ▸ hstop.1
    by_contra hne
    refine hfirst 2 (by omega) ⟨by omega, Or.inr ?_⟩
    rw [h1]
    show decide (Analysis.norm (some (view .reduced (trussAnalysis .reduced trussSettings).dv.flags R)) > trussSettings.tol) = false
    rw [norm_view _ _ _ h2]
    show decide (Real.sqrt (freeSq [true, true, false, true] _) > _) = false
    rw [freeSq_truss, h3, Real.sqrt_mul_self (by split <;> norm_num)]
    rcases hl with rfl | rfl <;> norm_num [trussSettings]
  subst h0
  refine ⟨t.correction, t.info, ?_, hss.2 (by rw [hmax]; norm_num), hsi⟩
  show (match (trussAnalysis .reduced trussSettings).problem.solve trussSettings
      (max 0 (max trussSettings.maxIter trussSettings.minIter)).toNat ⟨l, some [0, 0, 0, 0]⟩ s w with
    | some s => (s.correction, s.x, s.info)
    | none => (w, _, SolverInfo.default)) = _
  rw [hs]
  show (t.correction, t.x, t.info) = _
  rw [hsx, h1]

/-- Load control of the bar with at least two iterations: both solves are successful, and the final state is stationary. -/
example : ∃ r u, (trussAnalysis .reduced trussSettings).loadControl? 1 0 1 ⟨0, some [0, 0, 0, 0]⟩ = some r ∧
    r.info.success = true ∧ r.dom = ⟨1, some u⟩ ∧
    Spec.Stationary [true, true, false, true] ((trussAnalysis .reduced trussSettings).system 1).scalar? (3 / 20) u := by
  obtain ⟨w0, i0, a1, a2, a3⟩ := truss_two_iterations 0 0 (Or.inl rfl) none
  obtain ⟨w1, i1, b1, b2, b3⟩ := truss_two_iterations 1 1 (Or.inr rfl) w0
  rw [if_pos rfl] at a1
  obtain ⟨m, ls, hm, h1, h2, h3, h4, h5, h6⟩ := load_control_run 1 one_pos (1 : ℝ) (trussAnalysis .reduced trussSettings).solver
    none ⟨0, some [0, 0, 0, 0]⟩
  have hs0 : Spec.loadSolve (trussAnalysis .reduced trussSettings).solver 1 none ⟨0, some [0, 0, 0, 0]⟩ 0 =
      (⟨0, some [0, 0, 0, 0]⟩, w0, ⟨0, some [0, 0, 0, 0]⟩, i0) := by
    unfold Spec.loadSolve
    rw [a1]
  have hs1 : Spec.loadInfo (trussAnalysis .reduced trussSettings).solver 1 none ⟨0, some [0, 0, 0, 0]⟩ 1 = i1 := by
    unfold Spec.loadInfo Spec.loadSolve
    rw [hs0]
    simp only [zero_add]
    rw [b1]
  have hi0 : Spec.loadInfo (trussAnalysis .reduced trussSettings).solver 1 none ⟨0, some [0, 0, 0, 0]⟩ 0 = i0 := by
    unfold Spec.loadInfo
    rw [hs0]
  have hs := h1.2 fun k hk => by
    have : k = 0 ∨ k = 1 := by omega
    rcases this with rfl | rfl
    · rw [hi0]; exact a2
    · rw [hs1]; exact b2
  obtain ⟨r, us, r1, r2, r3, r4, r5, r6, r7⟩ := nonlinear_load_control_partial
    (trussAnalysis_proper .reduced (by simp) trussSettings) (by norm_num [trussAnalysis, trussSettings])
    (by norm_num [trussAnalysis, trussSettings]) 1 one_pos 0 1 0 (x0 := [0, 0, 0, 0]) trussAnalysis_start (fun k hk hk1 h0 => by
      have : k = 1 := by omega
      subst this
      norm_num at h0)
  have hrr : r = (LoadControl.mk ((1 : Nat) : Int) (1 : ℝ)).run (trussAnalysis .reduced trussSettings).solver none
      ⟨0, some [0, 0, 0, 0]⟩ := by
    have hmk : LoadControl.mk? ((1 : Nat) : Int) (0 : ℝ) 1 = some ⟨1, 1⟩ := by
      unfold LoadControl.mk?
      rw [if_neg (by omega)]
      simp
    unfold Analysis.loadControl? at r1
    rw [hmk, Option.map_some] at r1
    exact (Option.some.inj r1).symm
  rw [← hrr] at hs h3 h2
  obtain rfl : m = 1 + 1 := h2 hs
  have hlen := (r4.1.1 hs).1
  have hinfo : r.info.solverInfos[1]? = some i1 := by
    rw [h3]
    show some (Spec.loadInfo _ _ _ _ 1) = _
    rw [hs1]
  obtain ⟨-, hst, -⟩ := r7 1 i1 hinfo
  have hlam : (0 : ℝ) + ((1 : Nat) : ℝ) * ((1 - 0) / ((1 : Nat) : ℝ)) = 1 := by norm_num
  rw [hlam] at hst
  refine ⟨r, us 1, r1, hs, ?_, hst b2 (Or.inr (Or.inl (by omega))) (trussAnalysis_contract _ _ _ _ ?_)⟩
  · rw [r5, hlen] at r6
    have hd := (Option.some.inj r6).symm
    rw [hd]
    show (⟨(0 : ℝ) + ((1 : Nat) : ℝ) * ((1 - 0) / ((1 : Nat) : ℝ)), some (us 1)⟩ : Dom ℝ (Option (List ℝ))) = _
    rw [hlam]
  · exact (r7 1 i1 hinfo).1.1

end Ikarus
