import Verif.FE.MixinModel
import Verif.Assembler.FunctionModel
import Verif.Dirichlet.IDBCModel
import Verif.Control.LoadModel
import Mathlib.Analysis.Real.Sqrt

/-!
Model of a complete analysis: elements, assembler, Dirichlet values, the Newton solver which
`NonlinearSolverFactory` builds from them (ikarus/solver/nonlinearsolver/nonlinearsolverfactory.hh:67-126) and load
control on top of it.  The parts are the models of mixin.hh, of the flat assemblers, of dirichletvalues.hh,
of newtonraphson.hh and of loadcontrol.inl; this file only connects them the way the code does.

`none` for a solution, residual, matrix or correction stands for undefined behaviour on the way.  Numbers are real.
-/

namespace Ikarus

/-- An element whose skills read the load factor from the requirement (`par.parameter()`, e.g.
ikarus/finiteelements/mechanics/loads/volume.hh:76, 96). -/
structure ParamElem where
  n : Nat
  d : Nat
  children : List FETree
  index : List Nat
  skills : List (ℝ → Skill n d)

/-- The element as it computes with load factor `lambda`. -/
def ParamElem.at (e : ParamElem) (lambda : ℝ) : Elem :=
  ⟨e.n, e.d, e.children, e.index, e.skills.map fun s => s lambda⟩

/-- What a user sets up before calling `run`.  `bound` is the requirement the assembler is bound to
(ikarus/assembler/interface.hh:152, a reference): `none` if it is the object the solver works on.  `linSolve A b` is the
linear solver.  `withForce` tells whether the factory was asked for the forces of inhomogeneous Dirichlet conditions
(nonlinearsolverfactory.hh:90-95). -/
structure Analysis where
  dv : DirichletValues ℝ
  alive : Nat → Bool
  elems : List ParamElem
  option : DBCOption
  bound : Option (Dom ℝ (Option (List ℝ)))
  linSolve : DMat ℝ → List ℝ → List ℝ
  settings : NRSettings ℝ
  withForce : Bool

namespace Analysis

/-- The elements with the load factor of the requirement, and the flags of the Dirichlet values. -/
def system (a : Analysis) (lambda : ℝ) : System := ⟨a.dv.flags, a.elems.map (·.at lambda)⟩

/-- The function of the solver: `assembler->vector(x, vectorAffordance, dbcOption)`,
ikarus/utils/differentiablefunctionfactory.hh:35-38. -/
noncomputable def residual? (a : Analysis) (x : Dom ℝ (Option (List ℝ))) : Option (List ℝ) :=
  x.x.bind fun u => match a.option with
    | .raw => (a.system x.lam).rawVector? u
    | .reduced => (a.system x.lam).reducedVector? u
    | .full => (a.system x.lam).fullVector? u

/-- The derivative of the function: `assembler->matrix(x, matrixAffordance, dbcOption)`,
ikarus/utils/differentiablefunctionfactory.hh:31-33. -/
noncomputable def jacobian? (a : Analysis) (x : Dom ℝ (Option (List ℝ))) : Option (DMat ℝ) :=
  x.x.bind fun u => match a.option with
    | .raw => (a.system x.lam).rawMatrix? u
    | .reduced => (a.system x.lam).reducedMatrix? u
    | .full => (a.system x.lam).fullMatrix? u

/-- `floatingPointNorm` of a vector, ikarus/utils/linearalgebrahelper.hh:271-291: the Euclidean norm. -/
noncomputable def norm (r : Option (List ℝ)) : ℝ := Real.sqrt ((r.getD []).map fun a => a * a).sum

/-- `updateFunction_(x.globalSolution(), correction_)`, nonlinearsolverfactory.hh:33-44. -/
noncomputable def update (a : Analysis) (x : Dom ℝ (Option (List ℝ))) (c : Option (List ℝ)) :
    Dom ℝ (Option (List ℝ)) :=
  { x with x := x.x.bind fun u => c.bind fun c => updateFunctor? (Assembler.create a.dv.flags) a.option u c }

/-- `x.syncParameterAndGlobalSolution(updateFunction_)`, ikarus/finiteelements/ferequirements.hh:399-402 and
nonlinearsolverfactory.hh:45-54. -/
noncomputable def sync (a : Analysis) (x : Dom ℝ (Option (List ℝ))) : Dom ℝ (Option (List ℝ)) :=
  { x with x := x.x.bind fun u => (syncFunctor? a.dv ⟨u, x.lam⟩).map (·.sol) }

/-- `rx += idbcForceFunction_(x) * stepSize`, ikarus/solver/nonlinearsolver/newtonraphson.hh:215, with
nonlinearsolverfactory.hh:28: the force is computed with the Raw matrix at the requirement the assembler is bound to. -/
noncomputable def addForce (a : Analysis) (x : Dom ℝ (Option (List ℝ))) (stepSize : ℝ) (r : Option (List ℝ)) :
    Option (List ℝ) :=
  r.bind fun r => (a.bound.getD x).x.bind fun u => ((a.system (a.bound.getD x).lam).rawMatrix? u).bind fun K =>
    (obtainForcesDueToIDBC? (Assembler.create a.dv.flags) K a.dv a.alive a.option).bind fun F =>
      (initialised? F).bind fun F => addVec? r (F.map fun f => f * stepSize)

/-- The Newton solver, newtonraphson.hh:296-302, as created by nonlinearsolverfactory.hh:110-122. -/
noncomputable def problem (a : Analysis) :
    NRProblem (Dom ℝ (Option (List ℝ))) (Option (List ℝ)) (Option (DMat ℝ)) (Option (List ℝ)) ℝ ℝ where
  residual := a.residual?
  jacobian := a.jacobian?
  rnorm := norm
  cnorm := norm
  gt r tol := decide (r > tol)
  linSolve A r := A.bind fun A => r.map fun r => a.linSolve A (r.map fun b => -b)
  update := a.update
  idbc := if a.withForce then some ⟨a.addForce, a.sync⟩ else none

/-- The solver as load control calls it; its own state is the member `correction_`.  The fuel suffices for every run
(C16), so that the second branch is never taken. -/
noncomputable def solver (a : Analysis) : NLSolver ℝ (Option (List ℝ)) ℝ (Option (List ℝ)) where
  solve w x stepSize :=
    match a.problem.solve a.settings (max 0 (max a.settings.maxIter a.settings.minIter)).toNat x stepSize w with
    | some s => (s.correction, s.x, s.info)
    | none => (w, x, SolverInfo.default)
  sync := a.sync

/-- `LoadControl(nonLinearSolver, loadSteps, {tbegin, tend}).run(x)`; `none` for the exception of the constructor. -/
noncomputable def loadControl? (a : Analysis) (loadSteps : Int) (tbegin tend : ℝ) (x : Dom ℝ (Option (List ℝ))) :
    Option (LCState ℝ (Option (List ℝ)) ℝ (Option (List ℝ))) :=
  (LoadControl.mk? loadSteps tbegin tend).map fun c => c.run a.solver none x

end Analysis

end Ikarus
