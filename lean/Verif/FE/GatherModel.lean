import Verif.Assembler.Model

/-!
Model of ikarus/finiteelements/fehelper.hh: the degrees of freedom of an element and its local solution.

The local view of an element is its tree and the list `index` that maps local indices to global (flat) indices.
`none` is an access out of range.
-/

namespace Ikarus

/-- The tree of a local view (dune-functions). A leaf lists `localIndex(i)` for all shape functions `i`. -/
inductive FETree where
  | leaf (localIndex : List Nat)
  | power (children : List FETree)
  | composite (children : List FETree)

/-- A loop that collects results. -/
def mapOpt {β γ : Type*} (f : β → Option γ) : List β → Option (List γ)
  | [] => some []
  | b :: bs => (f b).bind fun c => (mapOpt f bs).map (c :: ·)

namespace FETree

/-- `node.localIndex(i)` of a leaf. -/
def leafIndex? : FETree → Nat → Option Nat
  | .leaf l, i => l[i]?
  | _, _ => none

/-- `node.finiteElement().size()` of a leaf. -/
def leafSize? : FETree → Option Nat
  | .leaf l => some l.length
  | _ => none

/-- `leafNodeIndices`, fehelper.hh:127-133. -/
def leafNodeIndices (index l : List Nat) : Option (List Nat) :=
  mapOpt (fun i => (l[i]?).bind fun k => index[k]?) (List.range l.length)

/-- `localView.index(node.child(j).localIndex(i))`. -/
def childIndex? (index : List Nat) (children : List FETree) (i j : Nat) : Option Nat :=
  (children[j]?).bind fun c => (c.leafIndex? i).bind fun k => index[k]?

/-- `powerNodeIndices`, fehelper.hh:145-153. -/
def powerNodeIndices (index : List Nat) (children : List FETree) : Option (List Nat) :=
  (children[0]?).bind fun c => c.leafSize?.bind fun n =>
    (mapOpt (fun i => mapOpt (fun j => childIndex? index children i j) (List.range children.length))
      (List.range n)).map List.flatten

/-- `Child<0>::Type::isLeaf`. -/
def firstIsLeaf : List FETree → Bool
  | .leaf _ :: _ => true
  | _ => false

mutual
/-- `globalIndicesFromLocalView`, fehelper.hh:164-181, with the traversal `forEachLeafOrPowerLeafNode`,
ikarus/utils/traversal.hh:30-51. -/
def globalIndices (index : List Nat) : FETree → Option (List Nat)
  | .leaf l => leafNodeIndices index l
  | .power cs => if firstIsLeaf cs then powerNodeIndices index cs else globalIndicesList index cs
  | .composite cs => globalIndicesList index cs
/-- The loops over the children, ikarus/utils/traversal.hh:39-42 and 45-49. -/
def globalIndicesList (index : List Nat) : List FETree → Option (List Nat)
  | [] => some []
  | c :: cs => (globalIndices index c).bind fun a => (globalIndicesList index cs).map (a ++ ·)
end

/-- `node.child(i)`. -/
def child? : FETree → Nat → Option FETree
  | .power cs, i => cs[i]?
  | .composite cs, i => cs[i]?
  | .leaf _, _ => none

variable {α : Type*}

/-- `localView.index(node.child(j).localIndex(i))[0]` of the power node `node`. -/
def nodeIndex? (index : List Nat) (node : FETree) (i j : Nat) : Option Nat :=
  (node.child? j).bind fun c => (c.leafIndex? i).bind fun k => index[k]?

/-- `fe.size()` with `fe = node.child(0).finiteElement()`. -/
def nodeSize? (node : FETree) : Option Nat := (node.child? 0).bind leafSize?

/-- `localSolutionBlockVector`, fehelper.hh:27-46, for the power basis `node`: `dx` is accessed with the local
position `i * worldDim + j`. -/
def localSolution [Add α] (worldDim : Nat) (x : List α) (index : List Nat) (node : FETree)
    (dx : Option (List α)) : Option (List (List α)) :=
  node.nodeSize?.bind fun n =>
    match dx with
    | some dx =>
      mapOpt (fun i => mapOpt (fun j =>
        (dx[i * worldDim + j]?).bind fun d => (nodeIndex? index node i j).bind fun k => (x[k]?).map (d + ·))
        (List.range worldDim)) (List.range n)
    | none =>
      mapOpt (fun i => mapOpt (fun j => (nodeIndex? index node i j).bind fun k => x[k]?) (List.range worldDim))
        (List.range n)

/-- `localSolutionBlockVectorComposite`, fehelper.hh:94-114; `node = localView.tree().child(treePath)`. Here `dx`
is accessed with the global index. -/
def localSolutionComposite [Add α] (worldDim : Nat) (x : List α) (index : List Nat) (node : FETree)
    (dx : Option (List α)) : Option (List (List α)) :=
  node.nodeSize?.bind fun n =>
    match dx with
    | some dx =>
      mapOpt (fun i => mapOpt (fun j =>
        (nodeIndex? index node i j).bind fun k => (dx[k]?).bind fun d => (x[k]?).map (d + ·))
        (List.range worldDim)) (List.range n)
    | none =>
      mapOpt (fun i => mapOpt (fun j => (nodeIndex? index node i j).bind fun k => x[k]?) (List.range worldDim))
        (List.range n)

/-- `localSolutionBlockVectorScalar`, fehelper.hh:61-79; `node = localView.tree().child(treePath)` is a leaf. Here
`dx` is accessed with the global index. -/
def localSolutionScalar [Add α] (x : List α) (index : List Nat) (node : FETree)
    (dx : Option (List α)) : Option (List (List α)) :=
  node.leafSize?.bind fun n =>
    match dx with
    | some dx =>
      mapOpt (fun i => ((node.leafIndex? i).bind fun l => index[l]?).bind fun k =>
        (dx[k]?).bind fun d => (x[k]?).map fun y => [d + y]) (List.range n)
    | none =>
      mapOpt (fun i => ((node.leafIndex? i).bind fun l => index[l]?).bind fun k => (x[k]?).map fun y => [y])
        (List.range n)

end FETree

end Ikarus
