import Verif.Analysis.Model
import Verif.TrustRegion.Model
import Mathlib.Analysis.InnerProductSpace.PiL2

/-!
Model of a complete analysis with the trust region method: the solver which `NonlinearSolverFactory`
(ikarus/solver/nonlinearsolver/nonlinearsolverfactory.hh:110-122) builds from a `TrustRegionConfig`
(ikarus/solver/nonlinearsolver/trustregion.hh:64-119) and an assembler, and load control on top of it.  The parts are the
models of the assembler, of trustregion.hh and of truncatedconjugategradient.hh; this file only connects them.
-/

namespace Ikarus

noncomputable section

/-- The vectors of the solver: `Eigen::VectorXd` of size `m` with the Euclidean scalar product. -/
abbrev TRVec (m : Nat) : Type := EuclideanSpace ℝ (Fin m)

namespace TRVec
variable {m : Nat}

/-- A vector of the assembler as a vector of the solver. -/
def ofList (m : Nat) (l : List ℝ) : TRVec m := WithLp.toLp 2 fun i => l.getD i 0

/-- A vector of the solver as a vector of the assembler. -/
def toList (v : TRVec m) : List ℝ := List.ofFn fun i => v i

/-- `h * v`. -/
def mul (A : DMat ℝ) (v : TRVec m) : TRVec m := WithLp.toLp 2 fun i : Fin m => ∑ j : Fin m, A.val i j * v j

/-- The entry of a matrix that is given by its products. -/
def entry (h : TRVec m → TRVec m) (i j : Fin m) : ℝ := h (EuclideanSpace.single j 1) i

/-- The matrix the conjugate gradients multiply with: for `UpLo = Lower | Upper` and a matrix stored by columns its
transpose, ikarus/linearalgebra/truncatedconjugategradient.hh:259-276. -/
def transposed (h : TRVec m → TRVec m) (v : TRVec m) : TRVec m :=
  WithLp.toLp 2 fun i => ∑ j : Fin m, entry h j i * v j

end TRVec

/-- `Eigen::IdentityPreconditioner`, selected by ikarus/solver/nonlinearsolver/trustregion.hh:569-573. -/
def identityPreconditioner {m : Nat} (_ : TRVec m → TRVec m) (r : TRVec m) : TRVec m := r

/-- `Eigen::DiagonalPreconditioner`, selected by ikarus/solver/nonlinearsolver/trustregion.hh:569-573: entries are divided
by those of the diagonal of the matrix, unless they are zero. -/
def diagonalPreconditioner {m : Nat} (h : TRVec m → TRVec m) (r : TRVec m) : TRVec m :=
  WithLp.toLp 2 fun i => (if TRVec.entry h i i = 0 then 1 else 1 / TRVec.entry h i i) * r i

/-- `TrustRegionConfig`, ikarus/solver/nonlinearsolver/trustregion.hh:64-92, for vectors of size `m`: the settings, the
preconditioner (`precond h r` solves with what is built from the matrix `h`; any function, the incomplete Cholesky
factorisation of the default included; that its factorisation fails for good, line 542, is left out), the vectors
`setRandom` delivers one after the other, the relative tolerance of `Dune::FloatCmp`, the tolerance of
`Eigen::IterativeSolverBase` and the smallest normalised number. -/
structure TrustConfig (m : Nat) where
  parameters : TRSettings
  precond : (TRVec m → TRVec m) → TRVec m → TRVec m
  setRandom : Nat → TRVec m
  cmpTol : ℝ
  tol : ℝ
  tiny : ℝ

namespace TrustConfig
variable {m : Nat}

/-- ikarus/solver/nonlinearsolver/trustregion.hh:529-550: the truncated conjugate gradients with at most twice as many
iterations as unknowns (the default of `Eigen::IterativeSolverBase`); the state is the information they keep
(`innerInfo_`) and the number of vectors drawn so far. -/
def inner (c : TrustConfig m) (w : TCGInfo × Nat) (Delta : ℝ) (g : TRVec m) (h : TRVec m → TRVec m) (eta : TRVec m) :
    (TCGInfo × Nat) × TRVec m × TCGStopReason × Nat :=
  let r := tcg (TRVec.transposed h) (c.precond h) (-g) eta (2 * m) c.tol c.tiny { w.1 with Delta := Delta }
  ((r.2, w.2 + 1), r.1, r.2.stop, r.2.numInnerIter)

open Classical in
/-- ikarus/solver/nonlinearsolver/trustregion.hh:266-268: a random vector, multiplied by `eps_` until `eta·(h eta)` is at
most the square of the radius. -/
def rand (c : TrustConfig m) (w : TCGInfo × Nat) (Delta : ℝ) (h : TRVec m → TRVec m) : TRVec m :=
  if hk : ∃ k : Nat, ¬ Inner.inner ℝ (trEps ^ k • c.setRandom w.2) (h (trEps ^ k • c.setRandom w.2)) > Delta * Delta then
    trEps ^ Nat.find hk • c.setRandom w.2
  else c.setRandom w.2

end TrustConfig

namespace Analysis

/-- The size of the vectors of the solver (`eta_.resizeLike(g)`, ikarus/solver/nonlinearsolver/trustregion.hh:250): that
of the assembled vector for the option. -/
def trSize (a : Analysis) : Nat :=
  match a.option with
  | .reduced => (Assembler.create a.dv.flags).reducedSize?.getD 0
  | _ => (Assembler.create a.dv.flags).size

/-- The energy: `assembler->scalar(x, scalarAffordance)`, ikarus/utils/differentiablefunctionfactory.hh:40-43. -/
def energy? (a : Analysis) (x : Dom ℝ (Option (List ℝ))) : Option ℝ := x.x.bind fun u => (a.system x.lam).scalar? u

/-- The energy, gradient and Hessian of the assembler, the update functor of the factory and the inner solver. -/
def trProblem (a : Analysis) (c : TrustConfig a.trSize) :
    TRProblem (Dom ℝ (Option (List ℝ))) (TRVec a.trSize) (TCGInfo × Nat) where
  energy := a.energy?
  grad x := TRVec.ofList a.trSize ((a.residual? x).getD [])
  hess x := TRVec.mul ((a.jacobian? x).getD (DMat.zero 0 0))
  update x e := a.update x (some e.toList)
  inner := c.inner
  rand := c.rand

/-- What the solver keeps between two calls: `innerInfo_`, the state of the random numbers and `eta_`. -/
structure TRMemory (m : Nat) where
  info : TCGInfo
  draws : Nat
  eta : TRVec m

/-- The solver as load control calls it; it does not use the step size.  The fuel suffices for every run (C28), so that
the second branch is never taken. -/
def trSolver (a : Analysis) (c : TrustConfig a.trSize) : NLSolver ℝ (Option (List ℝ)) ℝ (TRMemory a.trSize) where
  solve w x _ :=
    match trSolve (a.trProblem c) c.parameters c.cmpTol c.parameters.maxIter.toNat (w.info, w.draws) w.info.stop x w.eta with
    | some s => (⟨s.inner.1, s.inner.2, s.eta⟩, s.x, s.info)
    | none => (w, x, SolverInfo.default)
  sync := a.sync

/-- `LoadControl(nonLinearSolver, loadSteps, {tbegin, tend}).run(x)` with the trust region method; `none` for the
exception of the constructor. -/
def trLoadControl? (a : Analysis) (c : TrustConfig a.trSize) (loadSteps : Int) (tbegin tend : ℝ)
    (w : TRMemory a.trSize) (x : Dom ℝ (Option (List ℝ))) :
    Option (LCState ℝ (Option (List ℝ)) ℝ (TRMemory a.trSize)) :=
  (LoadControl.mk? loadSteps tbegin tend).map fun lc => lc.run (a.trSolver c) w x

end Analysis

end

end Ikarus
