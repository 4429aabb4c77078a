import Verif.Tensor.Model
import Mathlib.Data.Real.Basic

/-!
Model of the containers of results and of the output of results: ikarus/finiteelements/feresulttypes.hh,
ikarus/io/resultfunction.hh, ikarus/io/vtkwriter.hh, ikarus/python/io/vtkwriter.hh,
ikarus/python/finiteelements/fe.hh and python/ikarus/io/__init__.py.
-/

namespace Ikarus.Output

open Matrix

/-! ### Containers of results -/

/-- `VectorizeGeneric::transform` (feresulttypes.hh:30-36): `reshaped()` lists the columns one after another. -/
def vectorizeGeneric {r c : Nat} (A : Matrix (Fin r) (Fin c) ℝ) : List ℝ :=
  (List.finRange c).flatMap fun j => (List.finRange r).map fun i => A i j

/-- `MatricizeGeneric::transform` (feresulttypes.hh:52-59): `reshaped(rows, cols)`; a size that does not fit is `none` (the
assertion of Eigen). -/
def matricizeGeneric (v : List ℝ) (rows cols : Nat) : Option (Matrix (Fin rows) (Fin cols) ℝ) :=
  if v.length = rows * cols then some (Matrix.of fun i j => v.getD (i.val + j.val * rows) 0) else none

/-- How a result type is stored as a vector: in Voigt notation as a stress, or column by column
(feresulttypes.hh:64-148). -/
inductive Layout
  | voigt (dim : Nat)
  | dense (rows cols : Nat)
  | dynamic
  deriving DecidableEq

/-- The registered result types for a world dimension (feresulttypes.hh:125-148). -/
def registered (worldDim : Nat) : List (String × Layout) :=
  [("linearStress", .voigt worldDim), ("PK2Stress", .voigt worldDim), ("kirchhoffStress", .voigt worldDim),
   ("cauchyStress", .voigt worldDim), ("linearStressFull", .voigt 3), ("PK2StressFull", .voigt 3),
   ("cauchyStressFull", .voigt 3), ("director", .dense worldDim 1), ("magnetization", .dense worldDim 1),
   ("gradientNormOfMagnetization", .dense 1 1), ("vectorPotential", .dense worldDim 1),
   ("divergenceOfVectorPotential", .dense 1 1), ("BField", .dense worldDim 1), ("HField", .dense worldDim 1),
   ("cauchyAxialForce", .dense 1 1), ("PK2AxialForce", .dense 1 1), ("linearAxialForce", .dense 1 1),
   ("customType", .dynamic)]

/-- The value inside a `ResultWrapper` (feresulttypes.hh:163-226), stored as vector or as matrix. -/
inductive Stored (rows cols : Nat)
  | vec (v : List ℝ)
  | mat (A : Matrix (Fin rows) (Fin cols) ℝ)

/-- `asVec` for the types stored column by column (feresulttypes.hh:185-190). -/
def Stored.asVec {rows cols : Nat} : Stored rows cols → List ℝ
  | .vec v => v
  | .mat A => vectorizeGeneric A

/-- `asMat` for the types stored column by column (feresulttypes.hh:198-211). -/
def Stored.asMat {rows cols : Nat} : Stored rows cols → Option (Matrix (Fin rows) (Fin cols) ℝ)
  | .vec v => matricizeGeneric v rows cols
  | .mat A => some A

/-- The value inside a `ResultWrapper` of a type in Voigt notation, three dimensions. -/
inductive StoredVoigt
  | vec (v : Fin 6 → ℝ)
  | mat (A : Matrix (Fin 3) (Fin 3) ℝ)

/-- `asVec` for the types in Voigt notation (feresulttypes.hh:21-28, 185-190); all registered types pass
`strainlike = false`. -/
noncomputable def StoredVoigt.asVec : StoredVoigt → Fin 6 → ℝ
  | .vec v => v
  | .mat A => toVoigt3 A false

/-- `asMat` for the types in Voigt notation (feresulttypes.hh:38-50, 198-211). -/
noncomputable def StoredVoigt.asMat : StoredVoigt → Matrix (Fin 3) (Fin 3) ℝ
  | .vec v => fromVoigt3 v false
  | .mat A => A

/-! ### Result functions -/

/-- `gridView().indexSet().index(e)` for the element at position `k` of the iteration over the grid, whose elements have the
geometry types `types`.  Dune numbers the elements of every geometry type consecutively from zero; here in the order of the
iteration. -/
def elementIndex (types : List Nat) (k : Nat) : Nat :=
  match types[k]? with
  | some t => (types.take k).count t
  | none => 0

/-- `ResultFunction::evaluate` and `evaluateComponent` (resultfunction.hh:80-83, 143-148) for the element at position `k`.  The
finite element at position `i` of the container was made for the element at position `i` of the grid; `calculateAt i` is the
result of that finite element at the local coordinates asked for, and `user` the user function.  `none` is the exception of
`at`, or an invalid component in `user`. -/
def evaluate (types : List Nat) (calculateAt : Nat → List ℝ) (user : List ℝ → Nat → Nat → Option ℝ) (k comp : Nat) :
    Option ℝ := do
  let eleID := elementIndex types k
  let fe ← (List.range types.length)[eleID]?
  user (calculateAt fe) fe comp

/-- `DefaultUserFunction` (resultfunction.hh:23-37); an invalid index is `none`. -/
def defaultUserFunction (resultArray : List ℝ) (_fe comp : Nat) : Option ℝ := resultArray[comp]?

/-- `ResultFunction::ncomps` with the default user function (resultfunction.hh:92-99): the size of the result of the first
finite element at the origin; `none` is the exception of `at`. -/
def ncomps (types : List Nat) (calculateAt : Nat → List ℝ) : Option Nat := do
  let fe ← (List.range types.length)[0]?
  pure (calculateAt fe).length

/-! ### The writer -/

/-- `DataTag` (vtkdatatag.hh:13). -/
inductive DataTag
  | asCellData
  | asPointData
  | asCellAndPointData
  deriving DecidableEq

/-- The data of the writer of dune-vtk; an entry `none` is a pointer that was moved from. -/
structure Writer (F : Type) where
  cell : List (Option F)
  point : List (Option F)

/-- A function argument: whether it is an rvalue, and its content. -/
structure Arg (F : Type) where
  rvalue : Bool
  content : Option F

/-- `Base::addCellData(std::forward<RF>(resultFunction))`: the entry is added; `consumes` says whether the base class moves from
an rvalue. -/
def Writer.addCellData {F : Type} (consumes : Bool) (w : Writer F) (a : Arg F) : Writer F × Arg F :=
  ({ w with cell := w.cell ++ [a.content] }, if a.rvalue && consumes then { a with content := none } else a)

/-- `Base::addPointData(std::forward<RF>(resultFunction))`. -/
def Writer.addPointData {F : Type} (consumes : Bool) (w : Writer F) (a : Arg F) : Writer F × Arg F :=
  ({ w with point := w.point ++ [a.content] }, if a.rvalue && consumes then { a with content := none } else a)

/-- `Writer::addResultFunction` (vtkwriter.hh:80-86). -/
def Writer.addResultFunction {F : Type} (consumes : Bool) (w : Writer F) (a : Arg F) (dataTag : DataTag) : Writer F :=
  let (w, a) := if dataTag = .asCellData ∨ dataTag = .asCellAndPointData then w.addCellData consumes a else (w, a)
  let (w, _) := if dataTag = .asPointData ∨ dataTag = .asCellAndPointData then w.addPointData consumes a else (w, a)
  w

/-- `Writer::addResult` (vtkwriter.hh:94-99): the new result function is passed as an rvalue. -/
def Writer.addResult {F : Type} (consumes : Bool) (w : Writer F) (f : F) (dataTag : DataTag) : Writer F :=
  w.addResultFunction consumes ⟨true, some f⟩ dataTag

/-- `Writer::addAllResults` (vtkwriter.hh:106-110) for the supported result types. -/
def Writer.addAllResults {F : Type} (consumes : Bool) (w : Writer F) (supported : List F) (dataTag : DataTag) : Writer F :=
  supported.foldl (fun w f => w.addResult consumes f dataTag) w

/-- `Writer::addInterpolation` (vtkwriter.hh:125-137): the grid function is passed as an lvalue. -/
def Writer.addInterpolation {F : Type} (consumes : Bool) (w : Writer F) (f : F) (dataTag : DataTag) : Writer F :=
  let a : Arg F := ⟨false, some f⟩
  let (w, a) := if dataTag = .asCellData ∨ dataTag = .asCellAndPointData then w.addCellData consumes a else (w, a)
  let (w, _) := if dataTag = .asPointData ∨ dataTag = .asCellAndPointData then w.addPointData consumes a else (w, a)
  w

/-- The truth value Python gives to a member of the enumeration: objects without `__bool__` and `__len__` are true. -/
def truthy (_ : DataTag) : Bool := true

/-- `addInterpolation` of the Python module (python/ikarus/io/__init__.py:17-25); `x or y` is `x` if that is true, else `y`. -/
def Writer.pyAddInterpolation {F : Type} (w : Writer F) (f : F) (dataTag : DataTag) : Writer F :=
  let w := if (decide (dataTag = .asPointData)) || truthy .asCellAndPointData then { w with point := w.point ++ [some f] } else w
  if (decide (dataTag = .asCellData)) || truthy .asCellAndPointData then { w with cell := w.cell ++ [some f] } else w

/-- `addResult` of the Python bindings (ikarus/python/io/vtkwriter.hh:75-92): the names of the supported types are compared
one after another; `none` is the exception. -/
def Writer.pyAddResult (consumes : Bool) (w : Writer String) (supported : List String) (resType : String) (dataTag : DataTag) :
    Option (Writer String) :=
  let (w, success) := supported.foldl (fun (s : Writer String × Bool) rt =>
    if resType = rt then (s.1.addResult consumes rt dataTag, true) else s) (w, false)
  if success then some w else none

/-- `calculateAt` of the Python bindings (ikarus/python/finiteelements/fe.hh:54-69): the result of the last supported type with
the given name; `none` is the exception. -/
def pyCalculateAt (supported : List String) (calculateAt : String → List ℝ) (resType : String) : Option (List ℝ) :=
  supported.foldl (fun result rt => if resType = rt then some (calculateAt rt) else result) none

end Ikarus.Output
