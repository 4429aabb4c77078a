import Verif.Assembler.SparseModel

/-!
Model of the assembler manipulators (ikarus/assembler/assemblermanipulatorbuildingblocks.hh and
ikarus/assembler/assemblermanipulatorfuser.hh).

A request lets the wrapped assembler fill one of its members and return a reference to it; the
callbacks then change this member in place.  The members are therefore part of the state and the
assembly functions receive the member as it was left by the callbacks of earlier requests.
Simplifications: callbacks are functions of requirement, affordance, option and the passed result;
callbacks that look at the wrapped assembler have its (constant) data fixed.
-/

namespace Ikarus

variable {α R AS AV AM : Type}

/-- The element evaluations for a requirement and an affordance. -/
structure Elements (α R AS AV AM : Type) where
  scalars : R → AS → List α
  vectors : R → AV → List (VecElem α)
  matrices : R → AM → List (MatElem α)

/-- The members of the wrapped dense assembler (ikarus/assembler/simpleassemblers.hh:48, 90-92,
217-219) and the callback lists of the manipulator
(ikarus/assembler/assemblermanipulatorbuildingblocks.hh:52, 100, 161). -/
structure Manip (α R AS AV AM : Type) where
  asm : Assembler
  scal : α
  vecRaw : List α
  vec : List α
  vecRed : List α
  matRaw : DMat α
  mat : DMat α
  matRed : DMat α
  sfs : List (R → AS → α → α)
  vfs : List (R → AV → DBCOption → List α → List α)
  mfs : List (R → AM → DBCOption → DMat α → DMat α)

namespace Manip

/-- A new manipulator for the given Dirichlet flags: empty members, no callbacks. -/
def create [Zero α] (flags : List Bool) : Manip α R AS AV AM :=
  ⟨Assembler.create flags, 0, [], [], [], DMat.zero 0 0, DMat.zero 0 0, DMat.zero 0 0, [], [], []⟩

/-- Eigen `v.setZero(n)`: resizes and zeroes, whatever `v` was. -/
def setZeroVec [Zero α] (_v : List α) (n : Nat) : List α := List.replicate n 0

/-- Eigen `A.setZero(n, n)`: resizes and zeroes, whatever `A` was. -/
def setZeroMat [Zero α] (_A : DMat α) (n : Nat) : DMat α := DMat.zero n n

/-- ikarus/assembler/simpleassemblers.inl:59-77, assembly into the passed vector. -/
def assembleRawVector? [Zero α] [Add α] (a : Assembler) (fes : List (VecElem α)) (v : List α) :
    Option (List α) :=
  Assembler.rawVectorOuter fes (setZeroVec v a.size)

/-- ikarus/assembler/simpleassemblers.inl:301-321, assembly into the passed matrix. -/
def assembleRawMatrix? [Zero α] [Add α] (a : Assembler) (fes : List (MatElem α)) (A : DMat α) :
    Option (DMat α) :=
  Assembler.rawMatrixOuter fes (setZeroMat A a.size)

/-- ikarus/assembler/simpleassemblers.inl:16-24 followed by
ikarus/assembler/assemblermanipulatorbuildingblocks.hh:55-60. -/
def getScalar [Zero α] [Add α] (m : Manip α R AS AV AM) (E : Elements α R AS AV AM) (r : R)
    (a : AS) : Manip α R AS AV AM × α :=
  let x := m.sfs.foldl (fun x f => f r a x) (Assembler.getScalar (E.scalars r a) m.scal)
  ({ m with scal := x }, x)

/-- ikarus/assembler/simpleassemblers.inl:79-84 followed by
ikarus/assembler/assemblermanipulatorbuildingblocks.hh:103-108. -/
def getRawVector [Zero α] [Add α] (m : Manip α R AS AV AM) (E : Elements α R AS AV AM) (r : R)
    (a : AV) : Option (Manip α R AS AV AM × List α) :=
  (assembleRawVector? m.asm (E.vectors r a) m.vecRaw).map fun v =>
    let v := m.vfs.foldl (fun v f => f r a .raw v) v
    ({ m with vecRaw := v }, v)

/-- ikarus/assembler/simpleassemblers.inl:86-94 followed by
ikarus/assembler/assemblermanipulatorbuildingblocks.hh:110-115. -/
def getVector [Zero α] [Add α] (m : Manip α R AS AV AM) (E : Elements α R AS AV AM) (r : R)
    (a : AV) : Option (Manip α R AS AV AM × List α) :=
  ((assembleRawVector? m.asm (E.vectors r a) m.vec).bind
      (m.asm.forConstrained (fun v i => setAt? v i 0) m.asm.size 0)).map fun v =>
    let v := m.vfs.foldl (fun v f => f r a .full v) v
    ({ m with vec := v }, v)

/-- ikarus/assembler/simpleassemblers.inl:96-118 followed by
ikarus/assembler/assemblermanipulatorbuildingblocks.hh:117-122. -/
def getReducedVector [Zero α] [Add α] (m : Manip α R AS AV AM) (E : Elements α R AS AV AM)
    (r : R) (a : AV) : Option (Manip α R AS AV AM × List α) :=
  (m.asm.reducedSize?.bind fun n =>
    Assembler.reducedVectorOuter m.asm (E.vectors r a) (setZeroVec m.vecRed n)).map fun v =>
    let v := m.vfs.foldl (fun v f => f r a .reduced v) v
    ({ m with vecRed := v }, v)

/-- ikarus/assembler/simpleassemblers.inl:323-328 followed by
ikarus/assembler/assemblermanipulatorbuildingblocks.hh:164-169. -/
def getRawMatrix [Zero α] [Add α] (m : Manip α R AS AV AM) (E : Elements α R AS AV AM) (r : R)
    (a : AM) : Option (Manip α R AS AV AM × DMat α) :=
  (assembleRawMatrix? m.asm (E.matrices r a) m.matRaw).map fun A =>
    let A := m.mfs.foldl (fun A f => f r a .raw A) A
    ({ m with matRaw := A }, A)

/-- ikarus/assembler/simpleassemblers.inl:330-344 followed by
ikarus/assembler/assemblermanipulatorbuildingblocks.hh:171-176. -/
def getMatrix [Zero α] [One α] [Add α] (m : Manip α R AS AV AM) (E : Elements α R AS AV AM)
    (r : R) (a : AM) : Option (Manip α R AS AV AM × DMat α) :=
  ((assembleRawMatrix? m.asm (E.matrices r a) m.mat).bind fun A =>
    (m.asm.forConstrained Assembler.zeroCol m.asm.size 0 A).bind fun A =>
      (m.asm.forConstrained Assembler.zeroRow m.asm.size 0 A).bind
        (m.asm.forConstrained Assembler.unitDiag m.asm.size 0)).map fun A =>
    let A := m.mfs.foldl (fun A f => f r a .full A) A
    ({ m with mat := A }, A)

/-- ikarus/assembler/simpleassemblers.inl:346-375 followed by
ikarus/assembler/assemblermanipulatorbuildingblocks.hh:178-183. -/
def getReducedMatrix [Zero α] [Add α] (m : Manip α R AS AV AM) (E : Elements α R AS AV AM)
    (r : R) (a : AM) : Option (Manip α R AS AV AM × DMat α) :=
  (m.asm.reducedSize?.bind fun n =>
    Assembler.reducedMatrixOuter m.asm (E.matrices r a) (setZeroMat m.matRed n)).map fun A =>
    let A := m.mfs.foldl (fun A f => f r a .reduced A) A
    ({ m with matRed := A }, A)

end Manip

/-- Operations on a manipulator. -/
inductive ManipOp (α R AS AV AM : Type)
  | bindScalar (f : R → AS → α → α)
  | bindVector (f : R → AV → DBCOption → List α → List α)
  | bindMatrix (f : R → AM → DBCOption → DMat α → DMat α)
  | scalar (r : R) (a : AS)
  | vector (r : R) (a : AV) (d : DBCOption)
  | matrix (r : R) (a : AM) (d : DBCOption)

/-- What an operation returns. -/
inductive ManipOut (α : Type)
  | unit
  | scalar (x : α)
  | vector (v : List α)
  | matrix (A : DMat α)

/-- One operation: the `bind`s of ikarus/assembler/assemblermanipulatorbuildingblocks.hh:49, 97,
158 (`emplace_back`) and the dispatch of ikarus/assembler/interface.hh:300, 355-365, 430-440. -/
def ManipOp.step [Zero α] [One α] [Add α] (E : Elements α R AS AV AM) (m : Manip α R AS AV AM) :
    ManipOp α R AS AV AM → Option (Manip α R AS AV AM × ManipOut α)
  | .bindScalar f => some ({ m with sfs := m.sfs ++ [f] }, .unit)
  | .bindVector f => some ({ m with vfs := m.vfs ++ [f] }, .unit)
  | .bindMatrix f => some ({ m with mfs := m.mfs ++ [f] }, .unit)
  | .scalar r a => let p := m.getScalar E r a; some (p.1, .scalar p.2)
  | .vector r a .raw => (m.getRawVector E r a).map fun p => (p.1, .vector p.2)
  | .vector r a .reduced => (m.getReducedVector E r a).map fun p => (p.1, .vector p.2)
  | .vector r a .full => (m.getVector E r a).map fun p => (p.1, .vector p.2)
  | .matrix r a .raw => (m.getRawMatrix E r a).map fun p => (p.1, .matrix p.2)
  | .matrix r a .reduced => (m.getReducedMatrix E r a).map fun p => (p.1, .matrix p.2)
  | .matrix r a .full => (m.getMatrix E r a).map fun p => (p.1, .matrix p.2)

/-- A history of operations, with the list of what they return. -/
def ManipOp.run [Zero α] [One α] [Add α] (E : Elements α R AS AV AM) (m : Manip α R AS AV AM) :
    List (ManipOp α R AS AV AM) → Option (List (ManipOut α))
  | [] => some []
  | op :: ops => (op.step E m).bind fun p => (ManipOp.run E p.1 ops).map (p.2 :: ·)

/-! ### Manipulated sparse assembler -/

/-- Put a matrix changed by the callbacks back into the member it is a reference to. -/
def SparseState.put (s : SparseState α) (A : SpMat α) : DBCOption → SparseState α
  | .raw => { s with spRaw := A }
  | .reduced => { s with spReduced := A }
  | .full => { s with spFull := A }

/-- A history of matrix requests to a manipulated sparse assembler
(ikarus/assembler/assemblermanipulatorbuildingblocks.hh:164-183) with the callbacks `fs`. -/
def SparseState.runManipulated [Zero α] [One α] [Add α] [Mul α]
    (fs : List (DBCOption → SpMat α → SpMat α)) (s : SparseState α) :
    List (DBCOption × List (MatElem α)) → Option (List (SpMat α))
  | [] => some []
  | q :: qs => (s.matrix q.2 q.1).bind fun p =>
    let A := fs.foldl (fun A f => f q.1 A) p.2
    (SparseState.runManipulated fs (p.1.put A q.1) qs).map (A :: ·)

end Ikarus
