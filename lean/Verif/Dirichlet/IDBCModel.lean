import Verif.Dirichlet.Model
import Verif.Assembler.SparseModel

/-!
Model of the functions that connect assembler, Dirichlet values and nonlinear solver:
ikarus/utils/functionhelper.hh, ikarus/controlroutines/common.hh and
ikarus/solver/nonlinearsolver/nonlinearsolverfactory.hh.

Simplifications: the requirement object is the pair of solution vector and parameter; a
vector-vector operation of mismatching sizes is undefined (`none`).
-/

namespace Ikarus

variable {α : Type*}

/-- One row of `K * x`: `Σ_j K(r, j) x(j)` for `j = i, i+1, ...`. -/
def dotFrom [Zero α] [Add α] [Mul α] (K : DMat α) (r : Nat) : Nat → List α → α
  | _, [] => 0
  | j, x :: xs => K.val r j * x + dotFrom K r (j + 1) xs

/-- Eigen `K * x`; the sizes have to match (ikarus/utils/functionhelper.hh:177). -/
def matVec? [Zero α] [Add α] [Mul α] (K : DMat α) (x : List α) : Option (List α) :=
  if K.cols = x.length then some ((List.range K.rows).map fun r => dotFrom K r 0 x) else none

/-- ikarus/utils/functionhelper.hh:170-184, `obtainForcesDueToIDBC`; `K` is the Raw matrix and
`alive` tells which callables of the Dirichlet object exist.  The derivative is always evaluated at
load factor one.  An entry `none` of the result is uninitialised. -/
def obtainForcesDueToIDBC? [Zero α] [One α] [Add α] [Mul α] (a : Assembler) (K : DMat α)
    (dv : DirichletValues α) (alive : Nat → Bool) (opt : DBCOption) : Option (List (Option α)) :=
  (dv.evaluateDerivative? alive 1).bind fun newInc => (matVec? K newInc).bind fun F =>
    if opt = .full then (dv.setZeroAtConstrainedDofs? F).map (List.map some)
    else a.createReducedVector? F

/-- The requirement object as the solvers see it. -/
structure SolPar (α : Type*) where
  sol : List α
  par : α

/-- `x += b` with Eigen vectors, ikarus/utils/defaultfunctions.hh:64-73 and
ikarus/finiteelements/ferequirements.hh:382-389. -/
def addVec? [Add α] (x b : List α) : Option (List α) :=
  if x.length = b.length then some (List.zipWith (· + ·) x b) else none

/-- The vector `createReducedVector` returned, if all of its entries are initialised. -/
def initialised? : List (Option α) → Option (List α)
  | [] => some []
  | x :: xs => x.bind fun y => (initialised? xs).map (y :: ·)

/-- ikarus/solver/nonlinearsolver/nonlinearsolverfactory.hh:34-44, the update with an increment `b`
of a solution vector `x`. -/
def updateFunctor? [Zero α] [Add α] (a : Assembler) (opt : DBCOption) (x b : List α) :
    Option (List α) :=
  if opt = .reduced ∧ a.reducedSize? = some b.length then
    (a.createFullVector? b).bind fun v => addVec? x v
  else if a.reducedSize? = some x.length ∧ a.size = b.length then
    (a.createReducedVector? b).bind fun v => (initialised? v).bind fun v => addVec? x v
  else addVec? x b

/-- ikarus/solver/nonlinearsolver/nonlinearsolverfactory.hh:50-52, loop over the dofs with `i`. -/
def syncLoop [Zero α] [DecidableEq α] : List α → Nat → List α → Option (List α)
  | [], _, x => some x
  | v :: vs, i, x => if v ≠ 0 then (setAt? x i v).bind (syncLoop vs (i + 1))
                     else syncLoop vs (i + 1) x

/-- ikarus/solver/nonlinearsolver/nonlinearsolverfactory.hh:45-54, the update with the marker
`SyncFERequirements`. -/
def syncFunctor? [Zero α] [Add α] [DecidableEq α] (dv : DirichletValues α) (x : SolPar α) :
    Option (SolPar α) :=
  (syncLoop (dv.evaluate x.par) 0 x.sol).map fun s => ⟨s, x.par⟩

/-- ikarus/controlroutines/common.hh:63-76, `idbcIncrement` for solvers with a force function:
the copy `y` of `x` is moved to the new load factor and synchronised. -/
def idbcIncrement? [Zero α] [Add α] [Sub α] [DecidableEq α] (dv : DirichletValues α) (x : SolPar α)
    (dlambda : α) : Option (List α) :=
  (syncFunctor? dv ⟨x.sol, x.par + dlambda⟩).map fun y => List.zipWith (· - ·) y.sol x.sol

end Ikarus
