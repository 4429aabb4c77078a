import Verif.Analysis.UnitsPathProps
import Verif.Analysis.PathProps

/-!
C117, path following: a spring in two units of force.
-/

namespace Ikarus

open Matrix Element Element.Spec Assembler

/-! ### Specification -/

/-- What path following with arc length should do: the run of the same structure in other units succeeds too, if the step size is a
length and the tolerance a force. -/
def Spec.PathUnits : Prop :=
  ∀ (s c : ℝ) (a b : PathAnalysis) (û : Nat → ℝ), Spec.UnitAnalyses s c a.toAnalysis b.toAnalysis û → b.steps = a.steps →
    b.stepSize = s * a.stepSize → Spec.ExactSolver a.spd → Spec.ExactSolver b.spd →
    (∀ n args, a.adapt n args = .ok args.stepSize) → (∀ n args, b.adapt n args = .ok args.stepSize) →
    ∀ (lam : ℝ) (x : List ℝ) (r : PathAnalysis.Run), a.run (.arcLength 1 false) lam x = .ok r → r.success = true →
      ∃ r', b.run (.arcLength 1 false) lam (Spec.scaledList s x) = .ok r' ∧ r'.success = true

/-! ### The spring -/

/-- A spring that gets stiffer, in newtons for `c = 1`: the force is `c * (x + x ^ 2 - lambda)`. -/
noncomputable def unitSpringSkill (c lam : ℝ) : Skill 1 1 where
  scalar u := some (c * (u 0 0 ^ 2 / 2 + u 0 0 ^ 3 / 3 - lam * u 0 0))
  vector u f := some (f + fun _ _ => c * (u 0 0 + u 0 0 ^ 2 - lam))
  matrix u K := some (K + fun _ _ => Matrix.of fun _ _ => c * (1 + 2 * u 0 0))

/-- The spring as an element with one dof. -/
noncomputable def unitSpring (c : ℝ) : ParamElem where
  n := 1
  d := 1
  children := [.leaf [0]]
  index := [0]
  skills := [unitSpringSkill c]

/-- One step of arc length for the spring. -/
noncomputable def unitSpringPath (c : ℝ) : PathAnalysis where
  dv := ⟨[false], 0, [], fun _ => true⟩
  alive := fun _ => true
  elems := [unitSpring c]
  option := .full
  bound := none
  linSolve := Spec.inverseSolve
  settings := { tol := c * (1 / 2), minIter := 0, maxIter := 2 }
  withForce := false
  spd := Spec.inverseSolve
  steps := 1
  stepSize := Real.sqrt 2
  adapt := fun _ args => .ok args.stepSize

theorem spring_local (c l x : ℝ) : Elem.local? ((unitSpring c).at l) [x] = some (fun _ _ => x) := by
  have : FETree.localSolution 1 [x] [0] (.power [.leaf [0]]) none = some [[x]] := rfl
  unfold Elem.local?
  show (FETree.localSolution 1 [x] [0] (.power [.leaf [0]]) none).map Elem.nodes = _
  rw [this, Option.map_some]
  congr 1
  funext I c
  fin_cases I
  fin_cases c
  rfl

theorem spring_dofs (c l : ℝ) : ((unitSpring c).at l).dofs? = some [0] := by
  simp [Elem.dofs?, ParamElem.at, unitSpring, FETree.globalIndices, FETree.firstIsLeaf, FETree.powerNodeIndices,
    FETree.leafSize?, FETree.childIndex?, FETree.leafIndex?, mapOpt, List.range, List.range.loop]

theorem spring_residual (c l x : ℝ) : (unitSpringPath c).residual? ⟨l, some [x]⟩ = some [c * (x + x ^ 2 - l)] := by
  have h1 : ((unitSpring c).at l).vector? [x] = some ⟨[0], [c * (x + x ^ 2 - l)]⟩ := by
    unfold Elem.vector?
    rw [spring_dofs, spring_local, Option.bind_some, Option.bind_some]
    show ((Mixin.calculateVector (fun _ _ => x : NodeVec 1 1) [unitSpringSkill c l] 0).map _) = _
    simp [Mixin.calculateVector, unitSpringSkill, Elem.flat]
    rfl
  show ((unitSpringPath c).system l).fullVector? [x] = _
  have h2 : mapOpt (·.vector? [x]) ((unitSpringPath c).system l).elems = some [⟨[0], [c * (x + x ^ 2 - l)]⟩] := by
    show mapOpt (·.vector? [x]) [(unitSpring c).at l] = _
    simp [mapOpt, h1]
  unfold System.fullVector?
  rw [h2, Option.bind_some]
  simp [getVector?, getRawVector?, rawVectorOuter, rawVectorInner, addAt?, forConstrained, isConstrained?, create, Analysis.system, unitSpringPath,
    Assembler.size]

theorem spring_jacobian (c l x : ℝ) : ∃ A, (unitSpringPath c).jacobian? ⟨l, some [x]⟩ = some A ∧ A.rows = 1 ∧ A.cols = 1 ∧
    A.val 0 0 = c * (1 + 2 * x) := by
  have h1 : ((unitSpring c).at l).matrix? [x] =
      some ⟨[0], Elem.flatMat (fun _ _ => Matrix.of fun _ _ => c * (1 + 2 * x) : BlockMat 1 1)⟩ := by
    unfold Elem.matrix?
    rw [spring_dofs, spring_local, Option.bind_some, Option.bind_some]
    show ((Mixin.calculateMatrix (fun _ _ => x : NodeVec 1 1) [unitSpringSkill c l] 0).map _) = _
    simp [Mixin.calculateMatrix, unitSpringSkill]
    rfl
  have h2 : mapOpt (·.matrix? [x]) ((unitSpringPath c).system l).elems =
      some [⟨[0], Elem.flatMat (fun _ _ => Matrix.of fun _ _ => c * (1 + 2 * x) : BlockMat 1 1)⟩] := by
    show mapOpt (·.matrix? [x]) [(unitSpring c).at l] = _
    simp [mapOpt, h1]
  have h3 : (unitSpringPath c).jacobian? ⟨l, some [x]⟩ = ((unitSpringPath c).system l).fullMatrix? [x] := rfl
  rw [h3]
  unfold System.fullMatrix?
  rw [h2, Option.bind_some]
  simp [getMatrix?, getRawMatrix?, rawMatrixOuter, rawMatrixRows, rawMatrixCols, DMat.addAt?, DMat.get?, DMat.zero, DMat.upd, forConstrained,
    isConstrained?, create, Analysis.system, unitSpringPath, Assembler.size, Elem.flatMat]

theorem inverseSolve_single {A : DMat ℝ} (hr : A.rows = 1) (hc : A.cols = 1) (h0 : A.val 0 0 ≠ 0) (b : ℝ) :
    Spec.inverseSolve A [b] = [b / A.val 0 0] := by
  obtain ⟨r, c, v⟩ := A
  obtain rfl : r = 1 := hr
  have hdet : IsUnit (Matrix.of fun i j : Fin 1 => v i j).det := by
    rw [Matrix.det_fin_one]
    exact isUnit_iff_ne_zero.2 h0
  have h := congrFun (Matrix.mulVec_mulVec (fun j : Fin 1 => [b].getD j 0) (Matrix.of fun i j : Fin 1 => v i j)
    (Matrix.of fun i j : Fin 1 => v i j)⁻¹) 0
  rw [Matrix.mul_nonsing_inv _ hdet, Matrix.one_mulVec] at h
  have h : v 0 0 * ((Matrix.of fun i j : Fin 1 => v i j)⁻¹.mulVec (fun j : Fin 1 => [b].getD j 0)) 0 = b := by
    simpa [Matrix.mulVec, dotProduct] using h
  show [((Matrix.of fun i j : Fin 1 => v i j)⁻¹.mulVec (fun j : Fin 1 => [b].getD j 0)) 0] = [b / v 0 0]
  refine congrArg (fun y => [y]) ?_
  have h0 : v 0 0 ≠ 0 := h0
  rw [eq_div_iff h0, mul_comm, h]

theorem spring_update (c l x d : ℝ) : (unitSpringPath c).update ⟨l, some [x]⟩ (some [d]) = ⟨l, some [x + d]⟩ := rfl

theorem iteration_counts (a : PathAnalysis) {p : PathStrategy} {s s' : PathAnalysis.State} (h : a.iteration p s = .ok s') :
    s'.iter = s.iter + 1 := by
  unfold PathAnalysis.iteration at h
  simp only [bind_ok, map_ok] at h
  obtain ⟨-, -, -, -, -, -, -, -, -, -, -, -, -, -, -, -, -, -, -, -, -, -, rfl⟩ := h
  rfl

theorem sqrt_bounds : (1414 / 1000 : ℝ) < Real.sqrt 2 ∧ Real.sqrt 2 < 1415 / 1000 ∧ (1457 / 1000 : ℝ) < Real.sqrt (17 / 8) ∧
    Real.sqrt (17 / 8) < 1458 / 1000 :=
  ⟨Real.lt_sqrt_of_sq_lt (by norm_num), (Real.sqrt_lt' (by norm_num)).2 (by norm_num), Real.lt_sqrt_of_sq_lt (by norm_num),
    (Real.sqrt_lt' (by norm_num)).2 (by norm_num)⟩

/-- The solve of the start: the spring is in equilibrium. -/
theorem spring_start {c : ℝ} (hc : 0 < c) : (unitSpringPath c).solve (.arcLength 1 false) 0 [0]
    { PathArgs.setZero [(0 : ℝ)].length with stepSize := Real.sqrt 2 } =
      .ok ⟨0, [0], ⟨Real.sqrt 2, [0], 0, -Real.sqrt 2, [0], 0, true, 0⟩, .arcLength 1 false, 0, true⟩ := by
  obtain ⟨A, h1, -, -, -⟩ := spring_jacobian c 0 0
  have hst : (unitSpringPath c).start (.arcLength 1 false) 0 [0] { PathArgs.setZero [(0 : ℝ)].length with stepSize := Real.sqrt 2 } =
      .ok ⟨0, [0], [0], A, ⟨Real.sqrt 2, [0], 0, -Real.sqrt 2, [0], 0, true, 0⟩, 0, 0⟩ := by
    unfold PathAnalysis.start
    have h2 : (unitSpringPath c).residual? ⟨1, some (List.replicate [(0 : ℝ)].length 0)⟩ = some [-c] := by
      refine (spring_residual c 1 0).trans ?_
      simp
    rw [h1, h2, spring_residual]
    simp [evaluated, PathAnalysis.subsidiary, PathAnalysis.idbcIncrement, unitSpringPath, PathArgs.setZero, sqNorm, Except.bind, Except.map]
  unfold PathAnalysis.solve
  rw [hst]
  have hn : ¬ ((0 : ℝ) > (unitSpringPath c).settings.tol) := by
    show ¬ ((0 : ℝ) > c * (1 / 2))
    linarith
  show ((unitSpringPath c).iterations (.arcLength 1 false) 2 _).map _ = _
  unfold PathAnalysis.iterations
  rw [if_neg hn]
  rfl

theorem sqrt_two_sq : Real.sqrt 2 * Real.sqrt 2 = 2 := Real.mul_self_sqrt (by norm_num)

theorem spring_predicted {c : ℝ} (hc : 0 < c) : (unitSpringPath c).initialPrediction (.arcLength 1 false) 0 [0]
    ⟨Real.sqrt 2, [0], 0, -Real.sqrt 2, [0], 0, true, 0⟩ =
      .ok ⟨1, [1], ⟨Real.sqrt 2, [1], 1, -Real.sqrt 2, [0], 0, true, 0⟩, .arcLength 1 true⟩ := by
  obtain ⟨A, h1, hr, hcol, hv⟩ := spring_jacobian c 1 0
  have hv0 : A.val 0 0 ≠ 0 := by
    rw [hv]
    simpa using hc.ne'
  have hsol : (unitSpringPath c).spd A [c] = [1] := by
    refine (inverseSolve_single hr hcol hv0 c).trans ?_
    rw [hv]
    simp [hc.ne']
  have hs2 : Real.sqrt 2 ≠ 0 := by positivity
  unfold PathAnalysis.initialPrediction
  have hid : (unitSpringPath c).idbcIncrement 0 [0] 1 = .ok [0] := rfl
  have hwf : (unitSpringPath c).withForce = false := rfl
  rw [h1, spring_residual]
  simp only [hid, hwf, evaluated, Except.bind, Bool.false_eq_true, if_false, List.map_cons, List.map_nil]
  have e1 : -(c * (0 + 0 ^ 2 - 1)) = c := by ring
  have e2 : Real.sqrt (sqNorm [1] + sqNorm [0] + Real.sqrt (sqNorm [1] + sqNorm [0]) * Real.sqrt (sqNorm [1] + sqNorm [0])) =
      Real.sqrt 2 := by
    norm_num [sqNorm]
  rw [e1, hsol, e2, if_neg hs2]
  simp only [List.map_cons, List.map_nil]
  have e3 : 1 * Real.sqrt 2 / Real.sqrt 2 = 1 := by rw [one_mul, div_self hs2]
  have e4 : Real.sqrt 2 / Real.sqrt 2 = 1 := div_self hs2
  rw [e3, e4, spring_update]
  have hsync : (unitSpringPath c).synchronised 1 [0 + 1] = .ok [0 + 1] := rfl
  dsimp only
  rw [hsync]
  simp [sqNorm]

/-- The state after one iteration. -/
theorem spring_iterated {c : ℝ} (hc : 0 < c) : ∃ (s0 s1 : PathAnalysis.State),
    (unitSpringPath c).start (.arcLength 1 true) 1 [1] ⟨Real.sqrt 2, [1], 1, -Real.sqrt 2, [0], 0, true, 0⟩ = .ok s0 ∧ s0.rNorm = c ∧
    (unitSpringPath c).iteration (.arcLength 1 true) s0 = .ok s1 ∧
    s1.rNorm = Real.sqrt ((c * (1 / 16)) ^ 2 + (Real.sqrt (17 / 8) - Real.sqrt 2) ^ 2) ∧ s1.iter = 1 := by
  obtain ⟨A, h1, hr, hcol, hv⟩ := spring_jacobian c 1 1
  have hs2 : Real.sqrt 2 ≠ 0 := by positivity
  have hst : (unitSpringPath c).start (.arcLength 1 true) 1 [1] ⟨Real.sqrt 2, [1], 1, -Real.sqrt 2, [0], 0, true, 0⟩ =
      .ok ⟨1, [1], [c], A, ⟨Real.sqrt 2, [1], 1, 0, [1 / Real.sqrt 2], 1 / Real.sqrt 2, true, 0⟩, c, 0⟩ := by
    unfold PathAnalysis.start
    have h2 : (unitSpringPath c).residual? ⟨1, some (List.replicate [(1 : ℝ)].length 0)⟩ = some [-c] := by
      refine (spring_residual c 1 0).trans ?_
      simp
    rw [h1, h2, spring_residual]
    have e : (1 : ℝ) + 1 = 2 := by norm_num
    simp [evaluated, PathAnalysis.subsidiary, PathAnalysis.idbcIncrement, unitSpringPath, sqNorm, Except.bind, Except.map, e, hc.le,
      (show c * (2 - 1) = c by ring)]
  have hv0 : A.val 0 0 ≠ 0 := by
    rw [hv]
    positivity
  have hsol : ∀ b, (unitSpringPath c).linSolve A [b] = [b / (3 * c)] := fun b => by
    refine (inverseSolve_single hr hcol hv0 b).trans ?_
    rw [hv]
    norm_num
    ring
  obtain ⟨A', h1', -, -, -⟩ := spring_jacobian c (5 / 4) (3 / 4)
  have hload : (unitSpringPath c).loadColumn 1 [1] = .ok [c] := by
    unfold PathAnalysis.loadColumn
    have h2 : (unitSpringPath c).residual? ⟨1, some (List.replicate [(1 : ℝ)].length 0)⟩ = some [-c] := by
      refine (spring_residual c 1 0).trans ?_
      simp
    rw [h2]
    simp [evaluated, Except.bind, unitSpringPath]
  have d1 : -c / (3 * c) = -(1 / 3) := by
    have := hc.ne'
    field_simp
  have d2 : c / (3 * c) = 1 / 3 := by
    have := hc.ne'
    field_simp
  have hq : quotient (-0 - 1 / Real.sqrt 2 * -(1 / 3)) (1 / Real.sqrt 2 * (1 / 3) + 1 / Real.sqrt 2) = .ok (1 / 4) := by
    have hne : 1 / Real.sqrt 2 * (1 / 3) + 1 / Real.sqrt 2 ≠ 0 := by positivity
    unfold quotient
    rw [if_neg hne]
    congr 1
    field_simp
    norm_num
  have hroot : Real.sqrt (sqNorm [(3 / 4 : ℝ)] + sqNorm [(0 : ℝ)] + 1 * 1 * (5 / 4) * (5 / 4)) = Real.sqrt (17 / 8) := by
    norm_num [sqNorm]
  have hsub : (unitSpringPath c).subsidiary (.arcLength 1 true) (5 / 4) [3 / 4]
      ⟨Real.sqrt 2, [3 / 4], 5 / 4, 0, [1 / Real.sqrt 2], 1 / Real.sqrt 2, true, 0⟩ =
        .ok ⟨Real.sqrt 2, [3 / 4], 5 / 4, Real.sqrt (17 / 8) - Real.sqrt 2, [3 / 4 / Real.sqrt (17 / 8)],
          (sqNorm [(0 : ℝ) / (5 / 4)] + 1 * 1) * (5 / 4) / Real.sqrt (17 / 8), decide (Real.sqrt (17 / 8) ≠ 0 ∧ (5 / 4 : ℝ) ≠ 0), 0⟩ := by
    rw [← hroot]
    rfl
  have hres : (unitSpringPath c).residual? ⟨5 / 4, some [3 / 4]⟩ = some [c * (1 / 16)] := by
    rw [spring_residual]
    norm_num
  refine ⟨_, ⟨5 / 4, [3 / 4], [c * (1 / 16)], A', ⟨Real.sqrt 2, [3 / 4], 5 / 4, Real.sqrt (17 / 8) - Real.sqrt 2,
    [3 / 4 / Real.sqrt (17 / 8)], (sqNorm [(0 : ℝ) / (5 / 4)] + 1 * 1) * (5 / 4) / Real.sqrt (17 / 8),
    decide (Real.sqrt (17 / 8) ≠ 0 ∧ (5 / 4 : ℝ) ≠ 0), 0⟩,
    Real.sqrt (sqNorm [c * (1 / 16)] + (Real.sqrt (17 / 8) - Real.sqrt 2) * (Real.sqrt (17 / 8) - Real.sqrt 2)), 1⟩, hst, rfl, ?_, ?_, rfl⟩
  · unfold PathAnalysis.iteration
    simp only [hload, Except.bind, List.map_cons, List.map_nil, hsol, d1, d2, dotSized, addSized, List.length_cons, List.length_nil, if_true,
      List.zipWith_cons_cons, List.zipWith_nil_left, List.sum_cons, List.sum_nil, add_zero, hq]
    rw [spring_update]
    have e1 : (1 : ℝ) + (-(1 / 3) + 1 / 4 * (1 / 3)) = 3 / 4 := by norm_num
    have e2 : (1 : ℝ) + 1 / 4 = 5 / 4 := by norm_num
    have hsync : (unitSpringPath c).synchronised (5 / 4) [3 / 4] = .ok [3 / 4] := rfl
    simp only [evaluated, e1, e2, hsync, hres, h1', hsub, Except.map]
  · show Real.sqrt (sqNorm [c * (1 / 16)] + (Real.sqrt (17 / 8) - Real.sqrt 2) * (Real.sqrt (17 / 8) - Real.sqrt 2)) = _
    congr 1
    simp only [sqNorm, List.map_cons, List.map_nil, List.sum_cons, List.sum_nil]
    ring

theorem spring_run {c : ℝ} (hc : 0 < c) : (unitSpringPath c).run (.arcLength 1 false) 0 [0] =
    ((unitSpringPath c).solve (.arcLength 1 true) 1 [1] ⟨Real.sqrt 2, [1], 1, -Real.sqrt 2, [0], 0, true, 0⟩).bind fun s1 =>
      .ok ⟨[⟨0, [0], ⟨Real.sqrt 2, [0], 0, -Real.sqrt 2, [0], 0, true, 0⟩, .arcLength 1 false, 0, true⟩, s1], s1.success⟩ := by
  have h := spring_start hc
  have e1 : (unitSpringPath c).steps = 1 := rfl
  have e2 : (unitSpringPath c).stepSize = Real.sqrt 2 := rfl
  unfold PathAnalysis.run
  rw [e1, e2, if_neg (by norm_num), h]
  show (Except.bind ((unitSpringPath c).initialPrediction _ _ _ _) _) = _
  rw [spring_predicted hc]
  show Except.bind ((unitSpringPath c).solve _ _ _ _) _ = _
  congr 1
  funext s1
  obtain ⟨l, x, args, p, i, b⟩ := s1
  cases b <;> rfl

theorem spring_proper {c : ℝ} {û : Nat → ℝ} (hû : ∀ i, û i = 0) : Spec.Proper (unitSpringPath c).toAnalysis û where
  option h := by cases h
  elems e he l := by
    obtain rfl : e = unitSpring c := List.mem_singleton.1 he
    refine ⟨⟨rfl, rfl, [0], spring_dofs c l, by simp [unitSpringPath]⟩, fun s hs => ?_⟩
    obtain rfl : s = unitSpringSkill c := List.mem_singleton.1 hs
    exact ⟨fun _ => ⟨_, rfl⟩, fun _ _ => ⟨_, rfl⟩, fun _ _ => ⟨_, rfl⟩⟩
  prescribed := ⟨fun l i _ => by simp [Spec.prescribed, Spec.total, unitSpringPath, hû], fun i _ => by
    simp [Spec.total, unitSpringPath, hû], fun i _ hne => absurd (hû i) hne⟩
  force := Or.inr fun i _ => hû i
  alive _ _ := rfl
  bound _ h := absurd h (by simp [unitSpringPath])
  linSolve l x hx A hA := by
    obtain ⟨-, -, K, -, -, -, hK, -⟩ := total_system ((unitSpringPath c).system l) (fun e he => by
      obtain rfl : e = (unitSpring c).at l := List.mem_singleton.1 he
      refine ⟨⟨rfl, rfl, [0], spring_dofs c l, by simp [unitSpringPath, Analysis.system]⟩, fun s hs => ?_⟩
      obtain rfl : s = unitSpringSkill c l := List.mem_singleton.1 hs
      exact ⟨fun _ => ⟨_, rfl⟩, fun _ _ => ⟨_, rfl⟩, fun _ _ => ⟨_, rfl⟩⟩) hx
    exact inverseSolve_answers (unitSpringPath c).toAnalysis l x (fun h => by cases h) K hK A hA

/-- The spring in two units of force. -/
noncomputable def unitSpringTwin (c : ℝ) : Spec.UnitTwin 1 c where
  n := 1
  d := 1
  children := [.leaf [0]]
  index := [0]
  skills := [unitSpringSkill 1]
  skills' := [unitSpringSkill c]
  scaled := .cons (fun l => by
    refine ⟨fun u => ?_, fun u f => ?_, fun u K => ?_⟩
    · simp [unitSpringSkill]
    · simp only [unitSpringSkill, one_smul, Option.map_some]
      refine congrArg some ?_
      funext I j
      simp [mul_add]
    · simp only [unitSpringSkill, one_smul, div_one, Option.map_some]
      refine congrArg some ?_
      funext I J
      ext i j
      simp [mul_add]) .nil

/-! ### Property -/

/-- C117, path following: refuted. Beside the norm of the residual, which is a force, the norm that the solver compares with the
tolerance contains the value of the path following function, which is a length. A spring for which one step of arc length takes one
iteration in one unit of force does not converge in two iterations in a unit of force a hundred times larger. -/
theorem path_units_false : ¬ Spec.PathUnits := by
  intro h
  obtain ⟨b1, b2, b3, b4⟩ := sqrt_bounds
  obtain ⟨s0, s1, h1, h2, h3, h4, h5⟩ := spring_iterated (c := 1) one_pos
  obtain ⟨t0, t1, g1, g2, g3, g4, g5⟩ := spring_iterated (c := 1 / 100) (by norm_num)
  have hU : Spec.UnitAnalyses 1 (1 / 100) (unitSpringPath 1).toAnalysis (unitSpringPath (1 / 100)).toAnalysis fun _ => 0 :=
    { length := one_pos, force := by norm_num, proper := spring_proper fun _ => rfl, proper' := spring_proper fun _ => mul_zero _
      flags := rfl, minIter := rfl, maxIter := rfl
      tol := by
        show (1 / 100 * (1 / 2) : ℝ) = 1 / 100 * (1 * (1 / 2))
        norm_num
      bound := Or.inl rfl, bound' := Or.inl rfl, solver := inverseSolve_exactSolver, solver' := inverseSolve_exactSolver
      systems := fun l => by
        have := assembled_units [false] [unitSpringTwin (1 / 100)] l
        exact ⟨this.rawVector, this.rawMatrix⟩ }
  have hs1 : ¬ (s1.rNorm > (unitSpringPath 1).settings.tol) := by
    rw [h4, not_lt]
    show _ ≤ (1 * (1 / 2) : ℝ)
    rw [Real.sqrt_le_iff]
    refine ⟨by norm_num, ?_⟩
    nlinarith
  have hsolve : (unitSpringPath 1).solve (.arcLength 1 true) 1 [1] ⟨Real.sqrt 2, [1], 1, -Real.sqrt 2, [0], 0, true, 0⟩ =
      .ok ⟨s1.lam, s1.x, s1.args, .arcLength 1 true, 1, true⟩ := by
    unfold PathAnalysis.solve
    rw [h1]
    show ((unitSpringPath 1).iterations _ 2 s0).map _ = _
    unfold PathAnalysis.iterations
    rw [if_pos (by rw [h2]; show (1 : ℝ) > 1 * (1 / 2); norm_num), h3]
    show ((unitSpringPath 1).iterations _ 1 s1).map _ = _
    unfold PathAnalysis.iterations
    rw [if_neg hs1]
    show Except.ok (PathAnalysis.Shown.mk _ _ _ _ s1.iter (decide ((s1.iter : Int) ≠ 2))) = _
    rw [h5]
    rfl
  have hrun := spring_run (c := 1) one_pos
  rw [hsolve] at hrun
  obtain ⟨r', k1, k2⟩ := h 1 (1 / 100) (unitSpringPath 1) (unitSpringPath (1 / 100)) (fun _ => 0) hU rfl (one_mul _).symm inverseSolve_exactSolver
    inverseSolve_exactSolver (fun _ _ => rfl) (fun _ _ => rfl) 0 [0] _ hrun rfl
  have hl : Spec.scaledList 1 [0] = [0] := by simp [Spec.scaledList]
  rw [hl, spring_run (by norm_num)] at k1
  obtain ⟨s2, k3, k4⟩ := bind_ok.1 k1
  have k4 : (⟨_, s2.success⟩ : PathAnalysis.Run) = r' := Except.ok.inj k4
  rw [← k4] at k2
  have k2 : s2.success = true := k2
  unfold PathAnalysis.solve at k3
  rw [g1] at k3
  obtain ⟨t2, k5, k6⟩ := map_ok.1 (show ((unitSpringPath (1 / 100)).iterations _ 2 t0).map _ = _ from k3)
  have ht1 : t1.rNorm > (unitSpringPath (1 / 100)).settings.tol := by
    rw [g4]
    show _ > (1 / 100 * (1 / 2) : ℝ)
    refine Real.lt_sqrt_of_sq_lt ?_
    nlinarith
  unfold PathAnalysis.iterations at k5
  rw [if_pos (by rw [g2]; show (1 / 100 : ℝ) > 1 / 100 * (1 / 2); norm_num), g3] at k5
  have k5 : (unitSpringPath (1 / 100)).iterations _ 1 t1 = .ok t2 := k5
  unfold PathAnalysis.iterations at k5
  rw [if_pos ht1] at k5
  obtain ⟨t3, k7, k8⟩ := bind_ok.1 k5
  have k8 : Except.ok t3 = Except.ok t2 := k8
  have hit : t2.iter = 2 := by
    rw [← Except.ok.inj k8, iteration_counts _ k7, g5]
  rw [← k6] at k2
  have k2 : decide ((t2.iter : Int) ≠ 2) = true := k2
  rw [hit] at k2
  exact absurd k2 (by decide)

end Ikarus
