import Verif.Base

/-!
Model of the flat assemblers: `ikarus/assembler/interface.hh` and
`ikarus/assembler/simpleassemblers.inl` (scalar, vector and dense matrix part).

Simplifications: numbers are an exact additive monoid or ring; a finite element is
what one evaluation of it yields (its global indices and its local scalar, vector
or matrix); the `assert`s are those of a release build, i.e. absent.
-/

namespace Ikarus

variable {α : Type*}

/-- ikarus/assembler/interface.hh:259-265, the members of `FlatAssemblerBase` that
describe the constraints: the flags of the stored `DirichletValues`,
`constraintsBelow_` and `fixedDofs_`. -/
structure Assembler where
  flags : List Bool
  constraintsBelow : List Nat
  fixedDofs : Nat

namespace Assembler

/-- ikarus/assembler/interface.hh:55-60, the loop of the constructor with its `counter`. -/
def constraintsBelowLoop : List Bool → Nat → List Nat
  | [], _ => []
  | b :: bs, counter => counter :: constraintsBelowLoop bs (if b then counter + 1 else counter)

/-- ikarus/assembler/interface.hh:50-62, constructor of `FlatAssemblerBase`.
`fixedDOFsize` is `std::ranges::count(flags, true)` (ikarus/utils/dirichletvalues.hh:194). -/
def create (flags : List Bool) : Assembler :=
  ⟨flags, constraintsBelowLoop flags 0, flags.count true⟩

/-- ikarus/assembler/interface.hh:74. -/
def size (a : Assembler) : Nat := a.flags.length

/-- ikarus/assembler/interface.hh:68, unsigned subtraction; `none` would be a wrap around. -/
def reducedSize? (a : Assembler) : Option Nat :=
  if a.fixedDofs ≤ a.size then some (a.size - a.fixedDofs) else none

/-- ikarus/assembler/interface.hh:132. -/
def isConstrained? (a : Assembler) (i : Nat) : Option Bool := a.flags[i]?

/-- ikarus/assembler/interface.hh:124. -/
def constraintsBelow? (a : Assembler) (i : Nat) : Option Nat := a.constraintsBelow[i]?

/-- `i - constraintsBelow(i)`, e.g. ikarus/assembler/simpleassemblers.inl:114; `none` for an
out of range access or an unsigned wrap around. -/
def reducedIndex? (a : Assembler) (i : Nat) : Option Nat :=
  match a.constraintsBelow? i with
  | some k => if k ≤ i then some (i - k) else none
  | none => none

/-! ### Conversion of vectors -/

/-- ikarus/assembler/simpleassemblers.inl:30-39, loop over the dofs `i` with `reducedCounter`.
The entries of `fullVec` are written in increasing order, so they are returned as a list. -/
def createFullLoop [Zero α] (red : List α) : List Bool → Nat → Nat → Option (List α)
  | [], _, _ => some []
  | true :: bs, i, rc => (createFullLoop red bs (i + 1) (rc + 1)).map (0 :: ·)
  | false :: bs, i, rc =>
    (getDiff? red i rc).bind (fun x => (createFullLoop red bs (i + 1) rc).map (x :: ·))

/-- ikarus/assembler/simpleassemblers.inl:26-41. -/
def createFullVector? [Zero α] (a : Assembler) (red : List α) : Option (List α) :=
  createFullLoop red a.flags 0 0

/-- ikarus/assembler/simpleassemblers.inl:49-55, loop over the entries `i` of `fullVector`.
`out` is the vector under construction, an entry `none` is uninitialised. -/
def createReducedLoop (a : Assembler) : List α → Nat → Nat → List (Option α) →
    Option (List (Option α))
  | [], _, _, out => some out
  | x :: xs, i, rc, out =>
    (a.isConstrained? i).bind fun b =>
      if b then createReducedLoop a xs (i + 1) (rc + 1) out
      else if rc ≤ i then
        (setAt? out (i - rc) (some x)).bind (createReducedLoop a xs (i + 1) rc)
      else none

/-- ikarus/assembler/simpleassemblers.inl:43-57; an entry `none` in the result is a value that
was never written. -/
def createReducedVector? (a : Assembler) (full : List α) : Option (List (Option α)) :=
  a.reducedSize?.bind fun m => createReducedLoop a full 0 0 (List.replicate m none)

end Assembler

/-! ### Element evaluations -/

/-- One element as seen by vector assembly: global indices (`globalIndices(fe, dofs)`) and the
local vector computed by `calculateVector`. -/
structure VecElem (α : Type*) where
  dofs : List Nat
  vec : List α

/-- One element as seen by matrix assembly. -/
structure MatElem (α : Type*) where
  dofs : List Nat
  mat : DMat α

namespace Assembler

/-- ikarus/assembler/simpleassemblers.inl:16-24 (`getScalarImpl`), `fes` are the element scalars. -/
def getScalarLoop [Add α] : List α → α → α
  | [], acc => acc
  | x :: xs, acc => getScalarLoop xs (acc + x)

/-- ikarus/assembler/simpleassemblers.inl:16-24, `scal_ = 0.0` before the loop. The previous
value of the member `scal_` is an argument to show that it does not matter. -/
def getScalar [Zero α] [Add α] (fes : List α) (_scalBefore : α) : α := getScalarLoop fes 0

/-! ### Vector assembly -/

/-- ikarus/assembler/simpleassemblers.inl:72-75, inner loop over the dofs with local index `i`. -/
def rawVectorInner [Add α] (loc : List α) : List Nat → Nat → List α → Option (List α)
  | [], _, v => some v
  | d :: ds, i, v =>
    (loc[i]?).bind fun x => (addAt? v d x).bind (rawVectorInner loc ds (i + 1))

/-- ikarus/assembler/simpleassemblers.inl:66-76, outer loop over the elements. -/
def rawVectorOuter [Add α] : List (VecElem α) → List α → Option (List α)
  | [], v => some v
  | e :: es, v => (rawVectorInner e.vec e.dofs 0 v).bind (rawVectorOuter es)

/-- ikarus/assembler/simpleassemblers.inl:59-84 (`assembleRawVectorImpl`, `getRawVectorImpl`). -/
def getRawVector? [Zero α] [Add α] (a : Assembler) (fes : List (VecElem α)) : Option (List α) :=
  rawVectorOuter fes (List.replicate a.size 0)

/-- The loops `for i < size: if isConstrained(i) op(i)` of
ikarus/assembler/simpleassemblers.inl:90-92 and 334-342; first number: remaining iterations,
second number: `i`. -/
def forConstrained {β : Type*} (a : Assembler) (op : β → Nat → Option β) :
    Nat → Nat → β → Option β
  | 0, _, A => some A
  | n + 1, i, A =>
    (a.isConstrained? i).bind fun b =>
      if b then (op A i).bind (forConstrained a op n (i + 1))
      else forConstrained a op n (i + 1) A

/-- ikarus/assembler/simpleassemblers.inl:86-94. -/
def getVector? [Zero α] [Add α] (a : Assembler) (fes : List (VecElem α)) : Option (List α) :=
  (a.getRawVector? fes).bind (forConstrained a (fun v i => setAt? v i 0) a.size 0)

/-- ikarus/assembler/simpleassemblers.inl:109-115, inner loop with `localConstrainedCounter`. -/
def reducedVectorInner [Add α] (a : Assembler) (loc : List α) :
    List Nat → Nat → List α → Option (List α)
  | [], _, v => some v
  | d :: ds, lc, v =>
    (a.isConstrained? d).bind fun b =>
      if b then reducedVectorInner a loc ds (lc + 1) v
      else (a.reducedIndex? d).bind fun k => (loc[lc]?).bind fun x =>
        (addAt? v k x).bind (reducedVectorInner a loc ds (lc + 1))

/-- ikarus/assembler/simpleassemblers.inl:102-116. -/
def reducedVectorOuter [Add α] (a : Assembler) : List (VecElem α) → List α → Option (List α)
  | [], v => some v
  | e :: es, v => (reducedVectorInner a e.vec e.dofs 0 v).bind (reducedVectorOuter a es)

/-- ikarus/assembler/simpleassemblers.inl:96-118. -/
def getReducedVector? [Zero α] [Add α] (a : Assembler) (fes : List (VecElem α)) :
    Option (List α) :=
  a.reducedSize?.bind fun m => reducedVectorOuter a fes (List.replicate m 0)

/-! ### Dense matrix assembly -/

/-- ikarus/assembler/simpleassemblers.inl:314-317, loop over the columns `j`. -/
def rawMatrixCols [Add α] (loc : DMat α) (i r : Nat) : List Nat → Nat → DMat α → Option (DMat α)
  | [], _, A => some A
  | c :: cs, j, A =>
    (loc.get? i j).bind fun x => (A.addAt? r c x).bind (rawMatrixCols loc i r cs (j + 1))

/-- ikarus/assembler/simpleassemblers.inl:313-319, loop over the rows `i`. -/
def rawMatrixRows [Add α] (loc : DMat α) (dofs : List Nat) :
    List Nat → Nat → DMat α → Option (DMat α)
  | [], _, A => some A
  | r :: rs, i, A => (rawMatrixCols loc i r dofs 0 A).bind (rawMatrixRows loc dofs rs (i + 1))

/-- ikarus/assembler/simpleassemblers.inl:307-320, loop over the elements. -/
def rawMatrixOuter [Add α] : List (MatElem α) → DMat α → Option (DMat α)
  | [], A => some A
  | e :: es, A => (rawMatrixRows e.mat e.dofs e.dofs 0 A).bind (rawMatrixOuter es)

/-- ikarus/assembler/simpleassemblers.inl:301-328 (dense `assembleRawMatrixImpl`,
`getRawMatrixImpl`). -/
def getRawMatrix? [Zero α] [Add α] (a : Assembler) (fes : List (MatElem α)) : Option (DMat α) :=
  rawMatrixOuter fes (DMat.zero a.size a.size)

/-- `mat_.col(i).setZero()`, ikarus/assembler/simpleassemblers.inl:336. -/
def zeroCol [Zero α] (A : DMat α) (i : Nat) : Option (DMat α) :=
  if i < A.cols then some ⟨A.rows, A.cols, fun r c => if c = i then 0 else A.val r c⟩ else none

/-- `mat_.row(i).setZero()`, ikarus/assembler/simpleassemblers.inl:339. -/
def zeroRow [Zero α] (A : DMat α) (i : Nat) : Option (DMat α) :=
  if i < A.rows then some ⟨A.rows, A.cols, fun r c => if r = i then 0 else A.val r c⟩ else none

/-- `mat_(i, i) = 1`, ikarus/assembler/simpleassemblers.inl:342. -/
def unitDiag [One α] (A : DMat α) (i : Nat) : Option (DMat α) := A.setAt? i i 1

/-- ikarus/assembler/simpleassemblers.inl:330-344. -/
def getMatrix? [Zero α] [One α] [Add α] (a : Assembler) (fes : List (MatElem α)) :
    Option (DMat α) :=
  (a.getRawMatrix? fes).bind fun A =>
    (forConstrained a zeroCol a.size 0 A).bind fun A =>
      (forConstrained a zeroRow a.size 0 A).bind (forConstrained a unitDiag a.size 0)

/-- ikarus/assembler/simpleassemblers.inl:364-370, loop over the columns `c`. -/
def reducedMatrixCols [Add α] (a : Assembler) (loc : DMat α) (r dr : Nat) :
    List Nat → Nat → DMat α → Option (DMat α)
  | [], _, A => some A
  | dc :: ds, c, A =>
    (a.isConstrained? dc).bind fun b =>
      if b then reducedMatrixCols a loc r dr ds (c + 1) A
      else (a.reducedIndex? dr).bind fun kr => (a.reducedIndex? dc).bind fun kc =>
        (loc.get? r c).bind fun x =>
          (A.addAt? kr kc x).bind (reducedMatrixCols a loc r dr ds (c + 1))

/-- ikarus/assembler/simpleassemblers.inl:360-372, loop over the rows `r`. -/
def reducedMatrixRows [Add α] (a : Assembler) (loc : DMat α) (dofs : List Nat) :
    List Nat → Nat → DMat α → Option (DMat α)
  | [], _, A => some A
  | dr :: ds, r, A =>
    (a.isConstrained? dr).bind fun b =>
      if b then reducedMatrixRows a loc dofs ds (r + 1) A
      else (reducedMatrixCols a loc r dr dofs 0 A).bind (reducedMatrixRows a loc dofs ds (r + 1))

/-- ikarus/assembler/simpleassemblers.inl:352-373, loop over the elements. -/
def reducedMatrixOuter [Add α] (a : Assembler) : List (MatElem α) → DMat α → Option (DMat α)
  | [], A => some A
  | e :: es, A => (reducedMatrixRows a e.mat e.dofs e.dofs 0 A).bind (reducedMatrixOuter a es)

/-- ikarus/assembler/simpleassemblers.inl:346-375. -/
def getReducedMatrix? [Zero α] [Add α] (a : Assembler) (fes : List (MatElem α)) :
    Option (DMat α) :=
  a.reducedSize?.bind fun m => reducedMatrixOuter a fes (DMat.zero m m)

end Assembler
end Ikarus
