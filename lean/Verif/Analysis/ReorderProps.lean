import Verif.Analysis.ReorderLemmas
import Verif.Analysis.PathModel
import Verif.Analysis.TrustModel
import Verif.Analysis.SymmetryProps

/-!
C124: what an analysis computes does not depend on the order of the elements, of the nodes within the elements and of the integration points.
-/

namespace Ikarus

open Matrix Element Element.Spec Assembler

/-! ### Specification -/

/-- The elements with load factors. -/
def Spec.ReorderedParam (size : Nat) (e e' : ParamElem) : Prop := ∀ l, Spec.Reordered size (e.at l) (e'.at l)

/-- The analysis of other elements, with everything else the same. -/
def Spec.withElems (a : Analysis) (es : List ParamElem) : Analysis := { a with elems := es }

/-- The same for path following. -/
def Spec.pathWithElems (a : PathAnalysis) (es : List ParamElem) : PathAnalysis := { a with elems := es }

/-! ### The assembled quantities -/

/-- C124, assembled quantities. Elements in another order, with their nodes in other orders, are assembled to the same energy, vectors and
matrices, for all options; and these are defined for the same vectors. -/
theorem reordered_system (flags : List Bool) {es es' : List Elem} (h : SamePoints (Spec.Reordered flags.length) es es') :
    Spec.SameSystem ⟨flags, es⟩ ⟨flags, es'⟩ := by
  have hv : ∀ x, _ := fun x => mapOpt_samePoints h fun e e' he => reordered_vector he x
  have hm : ∀ x, _ := fun x => mapOpt_samePoints h fun e e' he => reordered_matrix he x
  refine ⟨fun x => ?_, fun x => ?_, fun x => ?_, fun x => ?_, fun x => ?_, fun x => ?_, fun x => ?_⟩
  · rcases mapOpt_samePoints (S := fun a b : ℝ => b = a) (f := fun e : Elem => e.scalar? x) h fun e e' he => by
      rw [reordered_scalar he x]
      cases e.scalar? x with
      | none => exact .none
      | some s => exact .some rfl with ⟨h1, h2⟩ | ⟨v, v', h1, h2, h3⟩
    · show (mapOpt (fun e : Elem => e.scalar? x) es').map _ = (mapOpt (fun e : Elem => e.scalar? x) es).map _
      rw [h1, h2]
    · show (mapOpt (fun e : Elem => e.scalar? x) es').map _ = (mapOpt (fun e : Elem => e.scalar? x) es).map _
      rw [h1, h2]
      refine congrArg some ?_
      show getScalar v' 0 = getScalar v 0
      rw [scalar_eq_sum, scalar_eq_sum]
      have := samePoints_scalar h3 id id fun _ _ e => e
      rwa [List.map_id, List.map_id] at this
  · show (mapOpt (fun e : Elem => e.vector? x) es').bind _ = (mapOpt (fun e : Elem => e.vector? x) es).bind _
    rcases hv x with ⟨h1, h2⟩ | ⟨v, v', h1, h2, h3⟩
    · rw [h1, h2]
    · obtain ⟨r, e1, e2⟩ := rawVector_same h3
      rw [h1, h2, Option.bind_some, Option.bind_some, e1, e2]
  · show (mapOpt (fun e : Elem => e.vector? x) es').bind _ = (mapOpt (fun e : Elem => e.vector? x) es).bind _
    rcases hv x with ⟨h1, h2⟩ | ⟨v, v', h1, h2, h3⟩
    · rw [h1, h2]
    · obtain ⟨r, e1, e2⟩ := rawVector_same h3
      rw [h1, h2, Option.bind_some, Option.bind_some, reducedVector_eq_select flags v r e1, reducedVector_eq_select flags v' r e2]
  · show (mapOpt (fun e : Elem => e.vector? x) es').bind _ = (mapOpt (fun e : Elem => e.vector? x) es).bind _
    rcases hv x with ⟨h1, h2⟩ | ⟨v, v', h1, h2, h3⟩
    · rw [h1, h2]
    · obtain ⟨r, e1, e2⟩ := rawVector_same h3
      rw [h1, h2, Option.bind_some, Option.bind_some]
      unfold getVector?
      rw [e1, e2]
  · show (mapOpt (fun e : Elem => e.matrix? x) es').bind _ = (mapOpt (fun e : Elem => e.matrix? x) es).bind _
    rcases hm x with ⟨h1, h2⟩ | ⟨v, v', h1, h2, h3⟩
    · rw [h1, h2]
    · obtain ⟨r, e1, e2⟩ := rawMatrix_same h3
      rw [h1, h2, Option.bind_some, Option.bind_some, e1, e2]
  · show (mapOpt (fun e : Elem => e.matrix? x) es').bind _ = (mapOpt (fun e : Elem => e.matrix? x) es).bind _
    rcases hm x with ⟨h1, h2⟩ | ⟨v, v', h1, h2, h3⟩
    · rw [h1, h2]
    · obtain ⟨r, e1, e2⟩ := rawMatrix_same h3
      rw [h1, h2, Option.bind_some, Option.bind_some]
      exact reducedMatrix_same e1 e2
  · show (mapOpt (fun e : Elem => e.matrix? x) es').bind _ = (mapOpt (fun e : Elem => e.matrix? x) es).bind _
    rcases hm x with ⟨h1, h2⟩ | ⟨v, v', h1, h2, h3⟩
    · rw [h1, h2]
    · obtain ⟨r, e1, e2⟩ := rawMatrix_same h3
      rw [h1, h2, Option.bind_some, Option.bind_some]
      unfold getMatrix?
      rw [e1, e2]

/-! ### Analyses -/

section Analyses

variable {a : Analysis} {es : List ParamElem}

theorem withElems_system (h : SamePoints (Spec.ReorderedParam a.dv.flags.length) a.elems es) (l : ℝ) :
    Spec.SameSystem (a.system l) ((Spec.withElems a es).system l) :=
  reordered_system a.dv.flags (samePoints_map (fun e => e.at l) (fun e => e.at l) (fun _ _ he => he l) h)

theorem withElems_residual (h : SamePoints (Spec.ReorderedParam a.dv.flags.length) a.elems es) :
    (Spec.withElems a es).residual? = a.residual? := by
  funext x
  show x.x.bind _ = x.x.bind _
  congr 1
  funext u
  have hs := withElems_system h x.lam
  show (match a.option with | .raw => _ | .reduced => _ | .full => _) = _
  cases a.option
  · exact hs.rawVector u
  · exact hs.reducedVector u
  · exact hs.fullVector u

theorem withElems_jacobian (h : SamePoints (Spec.ReorderedParam a.dv.flags.length) a.elems es) :
    (Spec.withElems a es).jacobian? = a.jacobian? := by
  funext x
  show x.x.bind _ = x.x.bind _
  congr 1
  funext u
  have hs := withElems_system h x.lam
  show (match a.option with | .raw => _ | .reduced => _ | .full => _) = _
  cases a.option
  · exact hs.rawMatrix u
  · exact hs.reducedMatrix u
  · exact hs.fullMatrix u

theorem withElems_force (h : SamePoints (Spec.ReorderedParam a.dv.flags.length) a.elems es) :
    (Spec.withElems a es).addForce = a.addForce := by
  funext x s r
  unfold Analysis.addForce
  congr 1
  funext r
  show (a.bound.getD x).x.bind _ = _
  congr 1
  funext u
  have hs := (withElems_system h (a.bound.getD x).lam).rawMatrix u
  show Option.bind (((Spec.withElems a es).system (a.bound.getD x).lam).rawMatrix? u) _ = _
  rw [hs]
  rfl

theorem withElems_energy (h : SamePoints (Spec.ReorderedParam a.dv.flags.length) a.elems es) :
    (Spec.withElems a es).energy? = a.energy? := by
  funext x
  show x.x.bind _ = x.x.bind _
  congr 1
  funext u
  exact (withElems_system h x.lam).scalar u

theorem withElems_problem (h : SamePoints (Spec.ReorderedParam a.dv.flags.length) a.elems es) :
    (Spec.withElems a es).problem = a.problem := by
  unfold Analysis.problem
  rw [withElems_residual h, withElems_jacobian h, withElems_force h]
  rfl

/-- C124, load control. With elements, nodes and integration points in other orders, load control with Newton's method gives the same result: the
same displacements and information at every step, whatever the option, the linear solver and the start, and also where the
method fails. -/
theorem reordered_load_control (h : SamePoints (Spec.ReorderedParam a.dv.flags.length) a.elems es) (n : Int) (tbegin tend : ℝ)
    (x : Dom ℝ (Option (List ℝ))) : (Spec.withElems a es).loadControl? n tbegin tend x = a.loadControl? n tbegin tend x := by
  have hs : (Spec.withElems a es).solver = a.solver := by
    unfold Analysis.solver
    rw [withElems_problem h]
    rfl
  unfold Analysis.loadControl?
  rw [hs]

/-- The solver from the problem. -/
noncomputable def trSolverOf {m : Nat} (P : TRProblem (Dom ℝ (Option (List ℝ))) (TRVec m) (TCGInfo × Nat)) (c : TrustConfig m)
    (sync : Dom ℝ (Option (List ℝ)) → Dom ℝ (Option (List ℝ))) : NLSolver ℝ (Option (List ℝ)) ℝ (Analysis.TRMemory m) where
  solve w x _ :=
    match trSolve P c.parameters c.cmpTol c.parameters.maxIter.toNat (w.info, w.draws) w.info.stop x w.eta with
    | some s => (⟨s.inner.1, s.inner.2, s.eta⟩, s.x, s.info)
    | none => (w, x, SolverInfo.default)
  sync := sync

theorem trSolver_eq_of (b : Analysis) (c : TrustConfig b.trSize) : b.trSolver c = trSolverOf (b.trProblem c) c b.sync := by
  unfold Analysis.trSolver trSolverOf
  congr 1
  funext w x _
  generalize trSolve (b.trProblem c) c.parameters c.cmpTol c.parameters.maxIter.toNat (w.info, w.draws) w.info.stop x w.eta = r
  cases r <;> rfl

/-- C124, trust regions. The same for load control with the trust region method. -/
theorem reordered_trust_region (h : SamePoints (Spec.ReorderedParam a.dv.flags.length) a.elems es) (c : TrustConfig a.trSize) (n : Int)
    (tbegin tend : ℝ) (w : Analysis.TRMemory a.trSize) (x : Dom ℝ (Option (List ℝ))) :
    (Spec.withElems a es).trLoadControl? c n tbegin tend w x = a.trLoadControl? c n tbegin tend w x := by
  have hp : (Spec.withElems a es).trProblem c = a.trProblem c := by
    unfold Analysis.trProblem
    rw [withElems_residual h, withElems_jacobian h, withElems_energy h]
    rfl
  have hs : (Spec.withElems a es).trSolver c = a.trSolver c := by
    exact (trSolver_eq_of (Spec.withElems a es) c).trans
      ((congrArg (fun P => trSolverOf P c a.sync) hp).trans (trSolver_eq_of a c).symm)
  unfold Analysis.trLoadControl?
  rw [hs]
  rfl

end Analyses

section Path

variable {a : PathAnalysis} {es : List ParamElem}

/-- C124, path following. The same for path following with arc length, load or displacement control: the run is the same, also where it ends with a
fault. -/
theorem reordered_path (h : SamePoints (Spec.ReorderedParam a.dv.flags.length) a.elems es) (p : PathStrategy) (l : ℝ) (x : List ℝ) :
    (Spec.pathWithElems a es).run p l x = a.run p l x := by
  have hr : (Spec.pathWithElems a es).residual? = a.residual? := withElems_residual (a := a.toAnalysis) h
  have hj : (Spec.pathWithElems a es).jacobian? = a.jacobian? := withElems_jacobian (a := a.toAnalysis) h
  have hf : (Spec.pathWithElems a es).addForce = a.addForce := withElems_force (a := a.toAnalysis) h
  have hlc : (Spec.pathWithElems a es).loadColumn = a.loadColumn := by
    funext l x
    unfold PathAnalysis.loadColumn
    rw [hr, hf]
    rfl
  have hsub : (Spec.pathWithElems a es).subsidiary = a.subsidiary := rfl
  have hit : (Spec.pathWithElems a es).iteration = a.iteration := by
    funext p s
    unfold PathAnalysis.iteration
    rw [hr, hj, hlc, hsub]
    rfl
  have hits : ∀ p n s, (Spec.pathWithElems a es).iterations p n s = a.iterations p n s := by
    intro p n
    induction n with
    | zero => exact fun _ => rfl
    | succ n ih =>
      intro s
      unfold PathAnalysis.iterations
      rw [hit, funext ih]
      rfl
  have hst : (Spec.pathWithElems a es).start = a.start := by
    funext p l x args
    unfold PathAnalysis.start
    rw [hr, hj, hsub]
  have hso : (Spec.pathWithElems a es).solve = a.solve := by
    funext p l x args
    unfold PathAnalysis.solve
    rw [hst]
    simp only [hits]
    rfl
  have hin : (Spec.pathWithElems a es).initialPrediction = a.initialPrediction := by
    funext p l x args
    unfold PathAnalysis.initialPrediction
    rw [hr, hj, hf]
    rfl
  have hmid : (Spec.pathWithElems a es).intermediatePrediction = a.intermediatePrediction := rfl
  have hlo : ∀ n ls s, (Spec.pathWithElems a es).loop n ls s = a.loop n ls s := by
    intro n
    induction n with
    | zero => exact fun _ _ => rfl
    | succ n ih =>
      intro ls s
      unfold PathAnalysis.loop
      rw [hmid, hso]
      simp only [ih]
      rfl
  unfold PathAnalysis.run
  rw [hso, hin]
  simp only [hlo]
  rfl

end Path

/-! ### Examples -/

/-- The bar of the truss of von Mises with its ends exchanged. -/
noncomputable def vonMisesBarBack (index : List Nat) (x : ℝ) : ParamElem where
  n := 2
  d := 2
  children := [.leaf [0, 1], .leaf [2, 3]]
  index := index
  skills := [fun _ => .truss 1 1 ![0, 3] ![x, 0]]

theorem vonMisesBar_dofs (n d : Nat) (sk : List (Skill n d)) (i j p q : Nat) :
    Elem.dofs? ⟨n, d, [.leaf [0, 1], .leaf [2, 3]], [i, j, p, q], sk⟩ = some [i, p, j, q] := by
  simp [Elem.dofs?, FETree.globalIndices, FETree.firstIsLeaf, FETree.powerNodeIndices, FETree.leafSize?, FETree.childIndex?,
    FETree.leafIndex?, mapOpt, List.range, List.range.loop]

theorem vonMisesBar_back (i j p q : Nat) (hi : i < 6) (hj : j < 6) (hp : p < 6) (hq : q < 6) (x : ℝ) :
    Spec.ReorderedParam 6 (vonMisesBar [i, j, p, q] x) (vonMisesBarBack [j, i, q, p] x) := by
  intro l
  refine .mk (n := 2) (d := 2) (Equiv.swap 0 1) ⟨rfl, rfl, _, vonMisesBar_dofs _ _ _ _ _ _ _, by simp [hi, hj, hp, hq]⟩
    ⟨rfl, rfl, _, vonMisesBar_dofs _ _ _ _ _ _ _, by simp [hi, hj, hp, hq]⟩ (fun d d' hd hd' I a => ?_)
    (.cons (truss_relabel 1 1 _ _) .nil)
  obtain rfl := Option.some.inj ((vonMisesBar_dofs _ _ _ i j p q).symm.trans hd)
  obtain rfl := Option.some.inj ((vonMisesBar_dofs _ _ _ j i q p).symm.trans hd')
  fin_cases I <;> fin_cases a <;> rfl

/-- The truss of von Mises with its bars in the other order and the ends of one of them exchanged. -/
theorem vonMises_reordered : SamePoints (Spec.ReorderedParam 6) [vonMisesBar [0, 4, 1, 5] (-4), vonMisesBar [2, 4, 3, 5] 4]
    [vonMisesBarBack [4, 2, 5, 3] 4, vonMisesBarBack [4, 0, 5, 1] (-4)] :=
  ⟨[vonMisesBar [2, 4, 3, 5] 4, vonMisesBar [0, 4, 1, 5] (-4)], .swap _ _ _,
    .cons (vonMisesBar_back 2 4 3 5 (by norm_num) (by norm_num) (by norm_num) (by norm_num) 4)
      (.cons (vonMisesBar_back 0 4 1 5 (by norm_num) (by norm_num) (by norm_num) (by norm_num) (-4)) .nil)⟩

/-- Its assembled quantities. -/
example (flags : List Bool) (hf : flags.length = 6) (l : ℝ) :
    Spec.SameSystem ⟨flags, [(vonMisesBar [0, 4, 1, 5] (-4)).at l, (vonMisesBar [2, 4, 3, 5] 4).at l]⟩
      ⟨flags, [(vonMisesBarBack [4, 2, 5, 3] 4).at l, (vonMisesBarBack [4, 0, 5, 1] (-4)).at l]⟩ :=
  reordered_system flags (samePoints_map (fun e => e.at l) (fun e => e.at l) (fun _ _ he => he l) (hf ▸ vonMises_reordered))

/-- Load control with Newton's method. -/
example (o : DBCOption) (st : NRSettings ℝ) (n : Int) (tend : ℝ) :
    (Spec.withElems (vonMisesTruss o st) [vonMisesBarBack [4, 2, 5, 3] 4, vonMisesBarBack [4, 0, 5, 1] (-4)]).loadControl? n 0 tend
      ⟨0, some [0, 0, 0, 0, 0, 0]⟩ = (vonMisesTruss o st).loadControl? n 0 tend ⟨0, some [0, 0, 0, 0, 0, 0]⟩ :=
  reordered_load_control (a := vonMisesTruss o st) vonMises_reordered n 0 tend _

/-- Load control with the trust region method. -/
example (o : DBCOption) (st : NRSettings ℝ) (c : TrustConfig (vonMisesTruss o st).trSize) (n : Int) (tend : ℝ)
    (w : Analysis.TRMemory (vonMisesTruss o st).trSize) :
    (Spec.withElems (vonMisesTruss o st) [vonMisesBarBack [4, 2, 5, 3] 4, vonMisesBarBack [4, 0, 5, 1] (-4)]).trLoadControl? c n 0 tend w
      ⟨0, some [0, 0, 0, 0, 0, 0]⟩ = (vonMisesTruss o st).trLoadControl? c n 0 tend w ⟨0, some [0, 0, 0, 0, 0, 0]⟩ :=
  reordered_trust_region (a := vonMisesTruss o st) vonMises_reordered c n 0 tend w _

/-- The truss for path following. -/
noncomputable def vonMisesPath (o : DBCOption) (st : NRSettings ℝ) (steps : Nat) (s : ℝ) : PathAnalysis :=
  { vonMisesTruss o st with spd := Spec.inverseSolve, steps := steps, stepSize := s, adapt := fun _ args => .ok args.stepSize }

/-- Path following, with the load on the apex prescribed by a displacement or an arc length. -/
example (o : DBCOption) (st : NRSettings ℝ) (p : PathStrategy) (steps : Nat) (s : ℝ) :
    (Spec.pathWithElems (vonMisesPath o st steps s) [vonMisesBarBack [4, 2, 5, 3] 4, vonMisesBarBack [4, 0, 5, 1] (-4)]).run p 0
      [0, 0, 0, 0, 0, 0] = (vonMisesPath o st steps s).run p 0 [0, 0, 0, 0, 0, 0] :=
  reordered_path (a := vonMisesPath o st steps s) vonMises_reordered p 0 _

end Ikarus
