import Verif.FE.MixinModel
import Mathlib.Analysis.Calculus.Deriv.Basic

/-!
Model of ikarus/finiteelements/autodifffe.hh: a finite element whose vector and matrix are made by the library autodiff.

The library is not part of the code and is modelled by what it is documented to compute: exact partial derivatives.  The
requirement is fixed, apart from the solution; numbers are real.
-/

namespace Ikarus.AutoDiff

open Ikarus.Element

variable {n d : Nat}

/-- The direction in which `autodiff` seeds component `b` of node `J`. -/
def unit (J : Fin n) (b : Fin d) : NodeVec n d := fun I a => if I = J ∧ a = b then 1 else 0

/-- `autodiff::gradient(f, wrt(dx), at(dx), e, g)`: `g` is resized and overwritten by the partial derivatives. -/
noncomputable def gradient (f : NodeVec n d → ℝ) (x : NodeVec n d) : NodeVec n d :=
  fun I a => deriv (fun t : ℝ => f (x + t • unit I a)) 0

/-- `autodiff::jacobian(f, wrt(dx), at(dx), g, h)`: column by column, `h` is overwritten. -/
noncomputable def jacobian (f : NodeVec n d → NodeVec n d) (x : NodeVec n d) : BlockMat n d :=
  fun I J => Matrix.of fun a b => deriv (fun t : ℝ => f (x + t • unit J b) I a) 0

/-- The mixed second derivative `autodiff` gets for the seeds `wrt(x_i, x_j)`. -/
noncomputable def second (f : NodeVec n d → ℝ) (x : NodeVec n d) (I J : Fin n) (a b : Fin d) : ℝ :=
  deriv (fun s : ℝ => deriv (fun t : ℝ => f (x + s • unit I a + t • unit J b)) 0) 0

/-- `autodiff::hessian(f, wrt(dx), at(dx), e, g, h)`: the entries with `i ≤ j` are computed and copied to `(j, i)`. -/
noncomputable def hessian (f : NodeVec n d → ℝ) (x : NodeVec n d) : BlockMat n d :=
  fun I J => Matrix.of fun a b => if (I : Nat) * d + a ≤ J * d + b then second f x I J a b else second f x J I b a

/-- What calling a function of the wrapper gives: it does not compile (`static_assert`), a skill fails, or a value. -/
inductive Outcome (α : Type)
  | staticAssert
  | fails
  | ok (a : α)

/-- A function that may fail gives an outcome. -/
def Outcome.ofOption {α : Type} : Option α → Outcome α
  | none => .fails
  | some a => .ok a

/-- What the wrapped element implements, as functions of the increment `dx`: `calculateScalarImpl`, `calculateVectorImpl` with
the vector it adds to, and `calculateMatrixImpl`, which is only called without increment (mixin.hh:200-264).  `none`: the
`requires` clause is not met. -/
structure Impl (n d : Nat) where
  scalar : Option (NodeVec n d → Option ℝ)
  vector : Option (NodeVec n d → NodeVec n d → Option (NodeVec n d))
  matrix : Option (BlockMat n d → Option (BlockMat n d))

/-- `AutoDiffFE::calculateScalar`, autodifffe.hh:211-224. -/
def calculateScalar (e : Impl n d) : Outcome ℝ :=
  match e.scalar with
  | some f => .ofOption (f 0)
  | none => .staticAssert

/-- `AutoDiffFE::calculateVector`, autodifffe.hh:181-209. -/
noncomputable def calculateVector (forceAutoDiff : Bool) (e : Impl n d) (g : NodeVec n d) :
    Outcome (NodeVec n d) :=
  match e.vector, forceAutoDiff with
  | some f, false => .ofOption (f 0 g)
  | _, _ =>
    match e.scalar with
    | some f => .ofOption ((f 0).map fun _ => gradient (fun dx => (f dx).getD 0) 0)
    | none => .staticAssert

/-- `AutoDiffFE::calculateMatrix`, autodifffe.hh:133-179: the function that is differentiated sets the vector to zero
(line 157). -/
noncomputable def calculateMatrix (forceAutoDiff : Bool) (e : Impl n d) (h : BlockMat n d) :
    Outcome (BlockMat n d) :=
  match e.matrix, forceAutoDiff with
  | some f, false => .ofOption (f h)
  | _, _ =>
    match e.vector with
    | some f => .ofOption ((f 0 0).map fun _ => jacobian (fun dx => (f dx 0).getD 0) 0)
    | none =>
      match e.scalar with
      | some f => .ofOption ((f 0).map fun _ => hessian (fun dx => (f dx).getD 0) 0)
      | none => .staticAssert

/-- The displacements of the nodes with an increment (`localSolutionBlockVector` with `dx`, fehelper.hh:27-46). -/
noncomputable def localAt (e : Elem) (x : List ℝ) (dx : NodeVec e.n e.d) : Option (NodeVec e.n e.d) :=
  (FETree.localSolution e.d x e.index (.power e.children) (some (Elem.flat dx))).map Elem.nodes

/-- The functions of an element at the global solution `x`; `hasVector` and `hasMatrix` say whether its skills implement
them. -/
noncomputable def implOf (hasVector hasMatrix : Bool) (x : List ℝ) (e : Elem) : Impl e.n e.d where
  scalar := some fun dx => (localAt e x dx).bind fun u => Mixin.calculateScalar u e.skills
  vector := if hasVector then some fun dx f => (localAt e x dx).bind fun u => Mixin.calculateVector u e.skills f else none
  matrix := if hasMatrix then some fun K => (e.local? x).bind fun u => Mixin.calculateMatrix u e.skills K else none

/-- The assembler's call for a wrapped element: zeroed vector (simpleassemblers.inl:66-71). -/
noncomputable def vector? (force hasVector hasMatrix : Bool) (x : List ℝ) (e : Elem) : Option (VecElem ℝ) :=
  e.dofs?.bind fun dofs =>
    match calculateVector force (implOf hasVector hasMatrix x e) 0 with
    | .ok f => some ⟨dofs, Elem.flat f⟩
    | _ => none

/-- The assembler's call for a wrapped element: zeroed matrix (simpleassemblers.inl:307-312). -/
noncomputable def matrix? (force hasVector hasMatrix : Bool) (x : List ℝ) (e : Elem) : Option (MatElem ℝ) :=
  e.dofs?.bind fun dofs =>
    match calculateMatrix force (implOf hasVector hasMatrix x e) 0 with
    | .ok K => some ⟨dofs, Elem.flatMat K⟩
    | _ => none

end Ikarus.AutoDiff
