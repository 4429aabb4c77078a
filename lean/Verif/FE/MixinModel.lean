import Verif.FE.GatherModel
import Verif.FE.ElementModel

/-!
Model of ikarus/finiteelements/mixin.hh and of the path from the global solution through the elements to the assembled
scalar, vector and matrix.

An element has `n` nodes with `d` displacements each (power basis of dimension `d`).  A skill is what it computes for one
requirement and affordance; `none` is a failure of a skill (traction.hh can dereference a null pointer).  Numbers are real.
-/

namespace Ikarus

open Ikarus.Element

/-- The three functions of a skill (e.g. nonlinearelastic.hh:375-430, volume.hh:67-111, traction.hh:66-145), for a fixed
requirement apart from the solution.  Vector and matrix are passed by reference and changed. -/
structure Skill (n d : Nat) where
  scalar : NodeVec n d → Option ℝ
  vector : NodeVec n d → NodeVec n d → Option (NodeVec n d)
  matrix : NodeVec n d → BlockMat n d → Option (BlockMat n d)

namespace Mixin

variable {n d : Nat}

/-- `FEMixin::calculateScalarImpl`, mixin.hh:200-208: the fold `(skill + ... + 0)`, associated to the right. -/
noncomputable def calculateScalar (u : NodeVec n d) : List (Skill n d) → Option ℝ
  | [] => some 0
  | s :: ss => (s.scalar u).bind fun a => (calculateScalar u ss).map fun b => a + b

/-- `FEMixin::calculateVectorImpl`, mixin.hh:228-236: each skill in turn gets the same `force`. -/
def calculateVector (u : NodeVec n d) : List (Skill n d) → NodeVec n d → Option (NodeVec n d)
  | [], force => some force
  | s :: ss, force => (s.vector u force).bind (calculateVector u ss)

/-- `FEMixin::calculateMatrixImpl`, mixin.hh:256-264. -/
def calculateMatrix (u : NodeVec n d) : List (Skill n d) → BlockMat n d → Option (BlockMat n d)
  | [], K => some K
  | s :: ss, K => (s.matrix u K).bind (calculateMatrix u ss)

end Mixin

/-- A finite element: its basis (ikarus/finiteelements/febase.hh:114-128, the bound local view) and its skills. -/
structure Elem where
  n : Nat
  d : Nat
  children : List FETree
  index : List Nat
  skills : List (Skill n d)

namespace Elem

/-- The nodal values of the list of vectors `localSolutionBlockVector` returns. -/
def nodes {n d : Nat} (X : List (List ℝ)) : NodeVec n d := fun I a => (X.getD I []).getD a 0

/-- The element vector as `Eigen::VectorXd`: entry `I * d + a` is component `a` of node `I`. -/
def flat {n d : Nat} (f : NodeVec n d) : List ℝ := List.ofFn fun k : Fin (n * d) => f k.divNat k.modNat

/-- The element matrix as `Eigen::MatrixXd`. -/
def flatMat {n d : Nat} (K : BlockMat n d) : DMat ℝ where
  rows := n * d
  cols := n * d
  val := fun i j =>
    if h : i < n * d ∧ j < n * d then
      K (⟨i, h.1⟩ : Fin (n * d)).divNat (⟨j, h.2⟩ : Fin (n * d)).divNat (⟨i, h.1⟩ : Fin (n * d)).modNat
        (⟨j, h.2⟩ : Fin (n * d)).modNat
    else 0

/-- `globalIndices(fe, dofs)`, ikarus/finiteelements/fehelper.hh:194-197. -/
def dofs? (e : Elem) : Option (List Nat) := FETree.globalIndices e.index (.power e.children)

/-- The displacements of the nodes for the global solution `x` (`displacementFunction`, e.g. nonlinearelastic.hh:136-142). -/
noncomputable def local? (e : Elem) (x : List ℝ) : Option (NodeVec e.n e.d) :=
  (FETree.localSolution e.d x e.index (.power e.children) none).map nodes

/-- `calculateScalar(fe, req, affordance)`, mixin.hh:126-128. -/
noncomputable def scalar? (e : Elem) (x : List ℝ) : Option ℝ :=
  (e.local? x).bind fun u => Mixin.calculateScalar u e.skills

/-- `calculateVector(fe, req, affordance, vecLocal)`, mixin.hh:137-140, with the zeroed `vecLocal` of
ikarus/assembler/simpleassemblers.inl:66-71. -/
noncomputable def vector? (e : Elem) (x : List ℝ) : Option (VecElem ℝ) :=
  e.dofs?.bind fun dofs => (e.local? x).bind fun u =>
    (Mixin.calculateVector u e.skills 0).map fun f => ⟨dofs, flat f⟩

/-- `calculateMatrix(fe, req, affordance, matLocal)`, mixin.hh:149-152, with the zeroed `matLocal` of
ikarus/assembler/simpleassemblers.inl:307-312. -/
noncomputable def matrix? (e : Elem) (x : List ℝ) : Option (MatElem ℝ) :=
  e.dofs?.bind fun dofs => (e.local? x).bind fun u =>
    (Mixin.calculateMatrix u e.skills 0).map fun K => ⟨dofs, flatMat K⟩

end Elem

/-- What the user passes to the assembler: the elements and the flags of the Dirichlet values. -/
structure System where
  flags : List Bool
  elems : List Elem

namespace System

/-- `scalar(req, affordance)`, ikarus/assembler/simpleassemblers.inl:16-24.  The elements are evaluated before the sum,
which makes no difference as they do not depend on it. -/
noncomputable def scalar? (s : System) (x : List ℝ) : Option ℝ :=
  (mapOpt (·.scalar? x) s.elems).map fun fes => Assembler.getScalar fes 0

/-- `vector(req, affordance, Raw)`. -/
noncomputable def rawVector? (s : System) (x : List ℝ) : Option (List ℝ) :=
  (mapOpt (·.vector? x) s.elems).bind (Assembler.create s.flags).getRawVector?

/-- `vector(req, affordance, Reduced)`. -/
noncomputable def reducedVector? (s : System) (x : List ℝ) : Option (List ℝ) :=
  (mapOpt (·.vector? x) s.elems).bind (Assembler.create s.flags).getReducedVector?

/-- `matrix(req, affordance, Raw)` of the dense assembler. -/
noncomputable def rawMatrix? (s : System) (x : List ℝ) : Option (DMat ℝ) :=
  (mapOpt (·.matrix? x) s.elems).bind (Assembler.create s.flags).getRawMatrix?

/-- `matrix(req, affordance, Reduced)` of the dense assembler. -/
noncomputable def reducedMatrix? (s : System) (x : List ℝ) : Option (DMat ℝ) :=
  (mapOpt (·.matrix? x) s.elems).bind (Assembler.create s.flags).getReducedMatrix?

end System

end Ikarus
