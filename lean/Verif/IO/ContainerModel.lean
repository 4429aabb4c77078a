import Mathlib.Data.List.Basic

/-!
Model of the types in which interpolated fields are evaluated for output (ikarus/io/vtkcontainertypes.hh) and of the number of
components `Writer::addInterpolation` declares (ikarus/io/vtkwriter.hh:125-137).  Types are modelled as data; index merging
strategies and the finite elements of the leaf bases play no role and are left out.
-/

namespace Ikarus.Output

/-- Pre-bases of dune-functions: a leaf, `PowerPreBasis` with the number of copies, `CompositePreBasis` with its sub-bases. -/
inductive PreBasis where
  | leaf
  | power (size : Nat) (sub : PreBasis)
  | composite (first : PreBasis) (rest : List PreBasis)

/-- Containers: `double` and `std::array<C, n>`. -/
inductive Container where
  | double
  | array (entry : Container) (size : Nat)
deriving DecidableEq

/-- `sizeOfContainer` (vtkcontainertypes.hh:21-27): `std::tuple_size` if there is one, else one. -/
def sizeOfContainer : Container → Nat
  | .double => 1
  | .array _ n => n

/-- `ResultContainerPre` (vtkcontainertypes.hh:29-33, 42-50, 81-85). -/
def resultContainerPre : PreBasis → Container
  | .leaf => .double
  | .power n sub => .array (resultContainerPre sub) n
  | .composite first rest => .array (resultContainerPre first) (rest.length + 1)

/-- A basis: a global basis or `SubspaceBasis` of one with a prefix path. -/
inductive OutBasis where
  | root (pre : PreBasis)
  | subspace (root : PreBasis) (path : List Nat)

/-- `ResultContainerSSB` (vtkcontainertypes.hh:53-66): `PP{}.get<0>()` selects the sub-basis, the rest of the path is not used;
`none` if it does not compile. -/
def resultContainerSSB : PreBasis → List Nat → Option Container
  | .composite first rest, i :: _ => ((first :: rest)[i]?).map resultContainerPre
  | .composite _ _, [] => none
  | _, _ => some .double

/-- `ResultContainer_t` (vtkcontainertypes.hh:35-39, 69-78). -/
def resultContainer : OutBasis → Option Container
  | .root pre => some (resultContainerPre pre)
  | .subspace root path => resultContainerSSB root path

/-- The number of components in the `FieldInfo` of `addInterpolation` (vtkwriter.hh:127, 131). -/
def interpolationComponents (b : OutBasis) : Option Nat := (resultContainer b).map sizeOfContainer

end Ikarus.Output
