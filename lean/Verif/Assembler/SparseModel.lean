import Verif.Assembler.Model

/-!
Model of `SparseFlatAssembler` (ikarus/assembler/simpleassemblers.inl:120-299) and of the Eigen
sparse matrix operations it uses.

Simplifications: an `Eigen::SparseMatrix` (column major) is the list of its stored positions
`(column, row)` in storage order, the list of values and the compressed flag.  The Eigen functions
`setFromTriplets`, `coeffs`, `coeffRef`, `coeff` and the scaling of a row or column are modelled by
their documented effect; `searchLowerIndex` by its binary search.
-/

namespace Ikarus

variable {α : Type*}

/-- Column major sparse matrix; `keys` are the stored `(column, row)` positions. -/
structure SpMat (α : Type*) where
  rows : Nat
  cols : Nat
  keys : List (Nat × Nat)
  vals : List α
  compressed : Bool

namespace SpMat

/-- Storage order of column major matrices: by column, then by row. -/
def keyLt (a b : Nat × Nat) : Bool := a.1 < b.1 || (a.1 == b.1 && a.2 < b.2)

/-- Insertion of a position into the storage order, duplicates are merged (Eigen
`setFromTriplets`, `insert`). -/
def insertKey (k : Nat × Nat) : List (Nat × Nat) → List (Nat × Nat)
  | [] => [k]
  | x :: xs => if keyLt k x then k :: x :: xs else if k = x then x :: xs else x :: insertKey k xs

/-- Eigen `resize` and `setFromTriplets` with triplets `(row, col, 0.0)`; an index out of range is
undefined behaviour (ikarus/assembler/simpleassemblers.inl:208, 221). -/
def setFromTriplets? [Zero α] (n : Nat) (ts : List (Nat × Nat)) : Option (SpMat α) :=
  if ts.all (fun t => t.1 < n && t.2 < n) then
    let keys := ts.foldl (fun ks t => insertKey (t.2, t.1) ks) []
    some ⟨n, n, keys, List.replicate keys.length 0, true⟩
  else none

/-- Eigen `m_outerIndex[c]`: start of the column `c`. -/
def outerIndex (A : SpMat α) (c : Nat) : Nat := A.keys.countP (fun k => k.1 < c)

/-- Eigen `CompressedStorage::searchLowerIndex(start, end, key)`:
`while (end > start) { mid = (end + start) >> 1; if (index[mid] < key) start = mid + 1; else end = mid; }`.
The first argument bounds the number of iterations (the interval shrinks in each one). -/
def searchLoop (A : SpMat α) : Nat → Nat → Nat → Nat → Option Nat
  | 0, start, stop, _ => if stop > start then none else some start
  | n + 1, start, stop, key =>
    if stop > start then
      match A.keys[(stop + start) / 2]? with
      | none => none
      | some k => if k.2 < key then searchLoop A n ((stop + start) / 2 + 1) stop key
                  else searchLoop A n start ((stop + start) / 2) key
    else some start

/-- Eigen `CompressedStorage::searchLowerIndex`. -/
def searchLowerIndex (A : SpMat α) (start stop key : Nat) : Option Nat :=
  A.searchLoop (stop - start) start stop key

/-- ikarus/utils/eigensparseaddon.hh:19-31 `getLinearIndex` for a compressed column major matrix. -/
def getLinearIndex (A : SpMat α) (row col : Nat) : Option Nat :=
  A.searchLowerIndex (A.outerIndex col) (A.outerIndex (col + 1) - 1) row

/-- `A.coeffs()(i) += x`; `coeffs()` needs a compressed matrix. -/
def addCoeff? [Add α] (A : SpMat α) (i : Nat) (x : α) : Option (SpMat α) :=
  if A.compressed then (addAt? A.vals i x).map fun v => { A with vals := v } else none

/-- `A.coeffs().setZero()`; `coeffs()` needs a compressed matrix. -/
def zeroCoeffs? [Zero α] (A : SpMat α) : Option (SpMat α) :=
  if A.compressed then some { A with vals := A.vals.map fun _ => 0 } else none

/-- Scale all stored entries whose position satisfies `p` by zero
(`col(i) *= 0`, `row(i) *= 0`, ikarus/assembler/simpleassemblers.inl:161, 164). -/
def scaleZero [Zero α] [Mul α] (p : Nat × Nat → Bool) (A : SpMat α) : SpMat α :=
  { A with vals := List.zipWith (fun k x => if p k then x * 0 else x) A.keys A.vals }

/-- Insertion of a new entry into keys and values. -/
def insertVal (k : Nat × Nat) (x : α) : List (Nat × Nat) → List α → List α
  | a :: ks, v :: vs => if keyLt k a then x :: v :: vs else v :: insertVal k x ks vs
  | _, _ => [x]

/-- `A.diagonal()[i] = 1` (ikarus/assembler/simpleassemblers.inl:167): an existing entry is
overwritten, a missing one is inserted, which leaves the matrix uncompressed. -/
def setDiagOne [One α] (A : SpMat α) (i : Nat) : SpMat α :=
  if (i, i) ∈ A.keys then
    { A with vals := List.zipWith (fun k x => if k = (i, i) then 1 else x) A.keys A.vals }
  else
    { A with keys := insertKey (i, i) A.keys, vals := insertVal (i, i) 1 A.keys A.vals,
             compressed := false }

/-- Eigen `A.coeff(r, c)`: the stored value or zero. -/
def coeff [Zero α] (A : SpMat α) (r c : Nat) : α :=
  match (A.keys.zip A.vals).find? (fun p => p.1 = (c, r)) with
  | some p => p.2
  | none => 0

end SpMat

/-- The members of `SparseFlatAssembler` (ikarus/assembler/simpleassemblers.hh). -/
structure SparseState (α : Type*) where
  base : Assembler
  preRaw : Bool
  preFull : Bool
  preReduced : Bool
  spRaw : SpMat α
  spFull : SpMat α
  spReduced : SpMat α
  linIdx : List (List Nat)
  linIdxReduced : List (List Nat)

namespace SparseState

/-- Construction: all flags false, matrices and index lists empty. -/
def create (flags : List Bool) : SparseState α :=
  ⟨Assembler.create flags, false, false, false, ⟨0, 0, [], [], true⟩, ⟨0, 0, [], [], true⟩,
    ⟨0, 0, [], [], true⟩, [], []⟩

/-- ikarus/assembler/simpleassemblers.inl:206-222. -/
def occupationPattern (fes : List (MatElem α)) : List (Nat × Nat) :=
  fes.flatMap fun e => e.dofs.flatMap fun i => e.dofs.map fun j => (i, j)

/-- The free dofs of an element in order, with their local index and reduced index
(ikarus/assembler/simpleassemblers.inl:190-197, 237-245, 276-283); out of range is `none`. -/
def freeLocal (a : Assembler) : List Nat → Nat → Option (List (Nat × Nat))
  | [], _ => some []
  | d :: ds, i =>
    (a.isConstrained? d).bind fun b =>
      if b then freeLocal a ds (i + 1)
      else (a.reducedIndex? d).bind fun k => (freeLocal a ds (i + 1)).map ((i, k) :: ·)

/-- ikarus/assembler/simpleassemblers.inl:224-251. -/
def reducedPattern (a : Assembler) : List (MatElem α) → Option (List (Nat × Nat))
  | [] => some []
  | e :: es =>
    (freeLocal a e.dofs 0).bind fun fr => (reducedPattern a es).map fun rest =>
      (fr.flatMap fun r => fr.map fun c => (r.2, c.2)) ++ rest

/-- Linear indices of a list of `(row, col)` positions. -/
def linearIndices (A : SpMat α) : List (Nat × Nat) → Option (List Nat)
  | [] => some []
  | p :: ps => (A.getLinearIndex p.1 p.2).bind fun i => (linearIndices A ps).map (i :: ·)

/-- ikarus/assembler/simpleassemblers.inl:253-265: one list per element, columns outer, rows
inner. -/
def linearDofs (A : SpMat α) : List (MatElem α) → Option (List (List Nat))
  | [] => some []
  | e :: es =>
    (linearIndices A (e.dofs.flatMap fun c => e.dofs.map fun r => (r, c))).bind fun l =>
      (linearDofs A es).map (l :: ·)

/-- ikarus/assembler/simpleassemblers.inl:267-287: rows outer, columns inner, free dofs only. -/
def linearDofsReduced (a : Assembler) (A : SpMat α) : List (MatElem α) → Option (List (List Nat))
  | [] => some []
  | e :: es =>
    (freeLocal a e.dofs 0).bind fun fr =>
      (linearIndices A (fr.flatMap fun r => fr.map fun c => (r.2, c.2))).bind fun l =>
        (linearDofsReduced a A es).map (l :: ·)

/-- ikarus/assembler/simpleassemblers.inl:133-134: add the values at the linear indices; a value
without linear index is an out of range read. -/
def addAll [Add α] : List α → List Nat → SpMat α → Option (SpMat α)
  | [], _, A => some A
  | x :: xs, i :: is, A => (A.addCoeff? i x).bind (addAll xs is)
  | _ :: _, [], _ => none

/-- `A.reshaped()` of a column major dense matrix. -/
def reshaped (A : DMat α) : List α :=
  (List.range A.cols).flatMap fun c => (List.range A.rows).map fun r => A.val r c

/-- ikarus/assembler/simpleassemblers.inl:126-136, loop over the elements; a missing index list is
an out of range read of `elementLinearIndices_`. -/
def addElements [Add α] : List (MatElem α) → List (List Nat) → SpMat α → Option (SpMat α)
  | [], _, A => some A
  | e :: es, l :: ls, A => (addAll (reshaped e.mat) l A).bind (addElements es ls)
  | _ :: _, [], _ => none

/-- ikarus/assembler/simpleassemblers.inl:120-137. -/
def assembleRaw [Zero α] [Add α] (fes : List (MatElem α)) (lin : List (List Nat)) (A : SpMat α) :
    Option (SpMat α) :=
  A.zeroCoeffs?.bind (addElements fes lin)

/-- ikarus/assembler/simpleassemblers.inl:289-293: new pattern, and the index lists are
*appended* to the member. -/
def preProcess [Zero α] (s : SparseState α) (fes : List (MatElem α)) :
    Option (SpMat α × List (List Nat)) :=
  (SpMat.setFromTriplets? s.base.size (occupationPattern fes)).bind fun A =>
    (linearDofs A fes).map fun l => (A, s.linIdx ++ l)

/-- ikarus/assembler/simpleassemblers.inl:139-149. -/
def getRaw [Zero α] [Add α] (s : SparseState α) (fes : List (MatElem α)) :
    Option (SparseState α × SpMat α) :=
  (if s.preRaw then some (s.spRaw, s.linIdx) else s.preProcess fes).bind fun p =>
    (assembleRaw fes p.2 p.1).map fun A =>
      ({ s with preRaw := true, linIdx := p.2, spRaw := A }, A)

/-- ikarus/assembler/simpleassemblers.inl:151-169. -/
def getFull [Zero α] [One α] [Add α] [Mul α] (s : SparseState α) (fes : List (MatElem α)) :
    Option (SparseState α × SpMat α) :=
  (if s.preFull then some (s.spFull, s.linIdx) else s.preProcess fes).bind fun p =>
    (assembleRaw fes p.2 p.1).bind fun A =>
      (s.base.forConstrained (fun A i => some (A.scaleZero fun k => k.1 = i)) s.base.size 0 A).bind
        fun A =>
      (s.base.forConstrained (fun A i => some (A.scaleZero fun k => k.2 = i)) s.base.size 0 A).bind
        fun A =>
      (s.base.forConstrained (fun A i => some (A.setDiagOne i)) s.base.size 0 A).map fun A =>
        ({ s with preFull := true, linIdx := p.2, spFull := A }, A)

/-- ikarus/assembler/simpleassemblers.inl:181-202, loop over the elements of the reduced
assembly. -/
def addElementsReduced [Add α] (a : Assembler) :
    List (MatElem α) → List (List Nat) → SpMat α → Option (SpMat α)
  | [], _, A => some A
  | e :: es, l :: ls, A =>
    (freeLocal a e.dofs 0).bind fun fr =>
      ((fr.flatMap fun r => fr.map fun c => (r.1, c.1)).mapM fun p => e.mat.get? p.1 p.2).bind
        fun xs => (addAll xs l A).bind (addElementsReduced a es ls)
  | _ :: _, [], _ => none

/-- ikarus/assembler/simpleassemblers.inl:295-299. -/
def preProcessReduced [Zero α] (s : SparseState α) (fes : List (MatElem α)) :
    Option (SpMat α × List (List Nat)) :=
  s.base.reducedSize?.bind fun m => (reducedPattern s.base fes).bind fun ts =>
    (SpMat.setFromTriplets? m ts).bind fun A =>
      (linearDofsReduced s.base A fes).map fun l => (A, s.linIdxReduced ++ l)

/-- ikarus/assembler/simpleassemblers.inl:171-204. -/
def getReduced [Zero α] [Add α] (s : SparseState α) (fes : List (MatElem α)) :
    Option (SparseState α × SpMat α) :=
  (if s.preReduced then some (s.spReduced, s.linIdxReduced) else s.preProcessReduced fes).bind
    fun p => (p.1.zeroCoeffs?.bind (addElementsReduced s.base fes p.2)).map fun A =>
      ({ s with preReduced := true, linIdxReduced := p.2, spReduced := A }, A)

end SparseState

/-- `DBCOption` (ikarus/assembler/dirichletbcenforcement.hh, without the markers BEGIN and END). -/
inductive DBCOption
  | raw | reduced | full
  deriving DecidableEq, Repr

/-- `matrix(..., dbcOption)` of the sparse assembler, ikarus/assembler/interface.hh:430-440. -/
def SparseState.matrix [Zero α] [One α] [Add α] [Mul α] (s : SparseState α)
    (fes : List (MatElem α)) : DBCOption → Option (SparseState α × SpMat α)
  | .raw => s.getRaw fes
  | .reduced => s.getReduced fes
  | .full => s.getFull fes

/-- `matrix(..., dbcOption)` of the dense assembler, ikarus/assembler/interface.hh:430-440. -/
def Assembler.matrix? [Zero α] [One α] [Add α] (a : Assembler) (fes : List (MatElem α)) :
    DBCOption → Option (DMat α)
  | .raw => a.getRawMatrix? fes
  | .reduced => a.getReducedMatrix? fes
  | .full => a.getMatrix? fes

/-- A history of matrix requests to one sparse assembler; the returned matrices in order. -/
def SparseState.run [Zero α] [One α] [Add α] [Mul α] (s : SparseState α) :
    List (DBCOption × List (MatElem α)) → Option (List (SpMat α))
  | [] => some []
  | q :: qs => (s.matrix q.2 q.1).bind fun p => (SparseState.run p.1 qs).map (p.2 :: ·)

end Ikarus
