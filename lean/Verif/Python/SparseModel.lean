import Verif.Assembler.ManipulatorModel

/-!
Callbacks for the assembled matrix that are written in Python, ikarus/python/assembler/flatassemblermanipulator.hh.

A callback gets a wrapper of a reference to the sparse matrix that the assembler holds.  It can read and write single entries;
what it does next may depend on what it has read.  The Eigen function `coeffRef` is modelled by its documented effect, as in
`Verif/Assembler/SparseModel.lean`.
-/

namespace Ikarus

namespace Python

/-- A Python function that reads and writes entries `A[i, j]` of the matrix it is given. -/
inductive Prog (α : Type)
  | done
  | get (i j : Nat) (next : α → Prog α)
  | set (i j : Nat) (value : α) (next : Prog α)

variable {α : Type}

/-- Eigen `A.coeffRef(i, j)`, the effect on the storage: a missing entry is inserted with the value zero, which leaves the matrix
uncompressed. -/
def coeffRef [Zero α] (A : SpMat α) (i j : Nat) : SpMat α :=
  if (j, i) ∈ A.keys then A
  else { A with keys := SpMat.insertKey (j, i) A.keys, vals := SpMat.insertVal (j, i) 0 A.keys A.vals, compressed := false }

/-- `__getitem__`, flatassemblermanipulator.hh:63-65: the matrix afterwards and the value. -/
def getItem [Zero α] (A : SpMat α) (i j : Nat) : SpMat α × α :=
  let A := coeffRef A i j
  (A, A.coeff i j)

/-- `__setitem__`, flatassemblermanipulator.hh:61-62. -/
def setItem [Zero α] (A : SpMat α) (i j : Nat) (value : α) : SpMat α :=
  let A := coeffRef A i j
  { A with vals := List.zipWith (fun k x => if k = (j, i) then value else x) A.keys A.vals }

/-- The call of the Python function (flatassemblermanipulator.hh:28-40) with the wrapper (lines 45-51); an index out of range is
undefined (an assertion of Eigen). -/
def Prog.run [Zero α] : Prog α → SpMat α → Option (SpMat α)
  | .done, A => some A
  | .get i j next, A => if i < A.rows ∧ j < A.cols then (next (getItem A i j).2).run (getItem A i j).1 else none
  | .set i j value next, A => if i < A.rows ∧ j < A.cols then next.run (setItem A i j value) else none

/-- A history of matrix requests to a manipulated sparse assembler in Python (flatassembler.hh:62-79, the matrix is copied to Python)
with the callbacks `fs` (flatassemblermanipulator.hh:105-109), which see the option of the request among their arguments. -/
def history [Zero α] [One α] [Add α] [Mul α] (fs : List (DBCOption → Prog α)) (s : SparseState α) :
    List (DBCOption × List (MatElem α)) → Option (List (SpMat α))
  | [] => some []
  | q :: qs => (s.matrix q.2 q.1).bind fun p =>
    (fs.foldlM (fun A (f : DBCOption → Prog α) => (f q.1).run A) p.2).bind fun A =>
      (history fs (p.1.put A q.1) qs).map (A :: ·)

end Python

end Ikarus
