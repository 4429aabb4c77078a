import Verif.FE.GatherModel
import Mathlib.Data.Real.Basic
import Mathlib.Data.List.FinRange
import Mathlib.Tactic.NormNum

/-!
Model of ikarus/utils/functionhelper.hh:29-115 and ikarus/utils/traversal.hh:53-108: the nodes of a Lagrange basis and the
search of a node by its position.
-/

namespace Ikarus.NodeSearch

/-- A bound local view: the map of the geometry, what `Dune::HierarchicSearch` (dune-grid, not part of the code) accepts as
inside of the element, the Lagrange nodes of the first leaf, the tree and the global indices. -/
structure View (d w : Nat) where
  global : (Fin d → ℝ) → Fin w → ℝ
  inside : (Fin w → ℝ) → Bool
  nodes : List (Fin d → ℝ)
  tree : FETree
  index : List Nat

/-- The exceptions of Dune, and behaviour that is undefined. -/
inductive Failure
  | gridError
  | invalidState
  | undefined
  deriving DecidableEq

variable {d w : Nat}

/-- `localFE.localInterpolation().interpolate(f, out)` of a Lagrange element: the values at its nodes. -/
def interpolate (nodes : List (Fin d → ℝ)) (f : (Fin d → ℝ) → ℝ) : List ℝ := nodes.map f

/-- traversal.hh:100-101: `lagrangeNodeCoords[j][i] = out[j]` for all `j`; both lists have the size of the local finite element. -/
def writeCoordinate (i : Fin d) (out : List ℝ) (coords : List (Fin d → ℝ)) : List (Fin d → ℝ) :=
  List.zipWith (fun c o => Function.update c i o) coords out

/-- traversal.hh:94-102. -/
def nodeCoordinates (nodes : List (Fin d → ℝ)) : List (Fin d → ℝ) :=
  (List.finRange d).foldl (fun coords i => writeCoordinate i (interpolate nodes fun x => x i) coords)
    (List.replicate nodes.length 0)

/-- traversal.hh:103-105: the loop over the nodes that stops when `f` returns true; `f` changes a state. -/
def loop {σ : Type} (f : Nat → (Fin d → ℝ) → σ → Bool × σ) : Nat → List (Fin d → ℝ) → σ → σ
  | _, [], s => s
  | n, c :: cs, s => if (f n c s).1 then (f n c s).2 else loop f (n + 1) cs (f n c s).2

/-- `forEachLagrangeNodePosition`, traversal.hh:75-106. -/
def forEachNode {σ : Type} (v : View d w) (f : Nat → (Fin d → ℝ) → σ → Bool × σ) (s : σ) : σ :=
  loop f 0 (nodeCoordinates v.nodes) s

/-- `obtainLagrangeGlobalNodePositions`, functionhelper.hh:29-39. -/
def globalNodePositions (v : View d w) (coords : List (Fin w → ℝ)) : List (Fin w → ℝ) :=
  forEachNode v (fun _ c s => (false, s ++ [v.global c])) coords

/-- functionhelper.hh:89-94 and traversal.hh:80-85: the first child of a composite tree. -/
def node? : FETree → Option FETree
  | .composite cs => cs[0]?
  | t => some t

/-- `Tree::isLeaf`. -/
def isScalar : FETree → Bool
  | .leaf _ => true
  | _ => false

/-- `PreBasisInfo<Tree>::size`, ikarus/utils/flatprebasis.hh:123-148. -/
def numChildren : FETree → Nat
  | .leaf _ => 0
  | .power cs => cs.length
  | .composite (.power cs :: _) => cs.length
  | .composite _ => 0

/-- functionhelper.hh:101-106: the indices of node `n`. -/
def indices? (v : View d w) (n : Nat) : Option (List Nat) :=
  (node? v.tree).bind fun node =>
    if isScalar v.tree then ((node.leafIndex? n).bind fun k => v.index[k]?).map fun i => [i]
    else mapOpt (fun j => FETree.nodeIndex? v.index node n j) (List.range (numChildren v.tree))

/-- The absolute comparison `Dune::FloatCmp::eq` of all components. -/
def close (tol : ℝ) (a b : Fin w → ℝ) : Prop := ∀ i, |a i - b i| ≤ tol

open Classical in
/-- `globalIndexFromGlobalPosition`, functionhelper.hh:60-115. The search for the element takes the first of the elements, in the
order in which the hierarchy is searched, that contains the position. -/
noncomputable def globalIndexFromGlobalPosition (views : List (View d w)) (pos : Fin w → ℝ) : Except Failure (List Nat) :=
  match views.find? (·.inside pos) with
  | none => .error .gridError
  | some v =>
    match forEachNode v (fun n c (s : Option (Option (List Nat))) =>
      if close (1 / 10 ^ 8) (v.global c) pos then (true, some (indices? v n)) else (false, s)) none with
    | none => .error .invalidState
    | some none => .error .undefined
    | some (some l) => .ok l

end Ikarus.NodeSearch
