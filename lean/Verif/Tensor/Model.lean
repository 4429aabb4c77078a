import Mathlib.Algebra.Field.Defs
import Mathlib.LinearAlgebra.Matrix.Notation
import Mathlib.LinearAlgebra.Matrix.Trace
import Mathlib.Data.Fin.VecNotation
import Mathlib.Logic.Equiv.Basic

/-!
Model of the Voigt notation and of the fourth order tensors
(ikarus/utils/tensorutils.hh, ikarus/utils/linearalgebrahelper.hh).

Numbers are elements of a field.  Fixed size Eigen matrices are Mathlib matrices; an array that is not
initialised and written entry by entry has entries `Option K`, `none` for an entry not written.
-/

namespace Ikarus

open Matrix

variable {K : Type*} [Field K]

/-! ### Index maps -/

/-- ikarus/utils/tensorutils.hh:182-202, `dim == 3`; `none` is `__builtin_unreachable`. -/
def toVoigtIndex3 (i j : Nat) : Option Nat :=
  if i = j then some i
  else if (i = 1 ∧ j = 2) ∨ (i = 2 ∧ j = 1) then some 3
  else if (i = 0 ∧ j = 2) ∨ (i = 2 ∧ j = 0) then some 4
  else if (i = 0 ∧ j = 1) ∨ (i = 1 ∧ j = 0) then some 5
  else none

/-- ikarus/utils/tensorutils.hh:182-202, `dim == 2`. -/
def toVoigtIndex2 (i j : Nat) : Option Nat :=
  if i = j then some i
  else if (i = 0 ∧ j = 1) ∨ (i = 1 ∧ j = 0) then some 2
  else none

/-- ikarus/utils/tensorutils.hh:345-369, `dim == 3`; `none` is `__builtin_unreachable`. -/
def fromVoigtIndex3 (i : Nat) : Option (Nat × Nat) :=
  if i < 3 then some (i, i)
  else if i = 3 then some (1, 2)
  else if i = 4 then some (0, 2)
  else if i = 5 then some (0, 1)
  else none

/-- ikarus/utils/tensorutils.hh:345-369, `dim == 2`. -/
def fromVoigtIndex2 (i : Nat) : Option (Nat × Nat) :=
  if i < 2 then some (i, i)
  else if i = 2 then some (0, 1)
  else none

/-- ikarus/utils/linearalgebrahelper.hh:493-507, `voigtNotationContainer<dim>`. -/
def voigtNotationContainer : Nat → List (Nat × Nat)
  | 1 => [(0, 0)]
  | 2 => [(0, 0), (1, 1), (0, 1)]
  | 3 => [(0, 0), (1, 1), (2, 2), (1, 2), (0, 2), (0, 1)]
  | _ => []

/-- The index map on the indices of a 3x3 matrix, as a total function (see `voigt3_eq`). -/
def voigt3 (i j : Fin 3) : Fin 6 :=
  if i = j then ⟨i, by omega⟩
  else if (i = 1 ∧ j = 2) ∨ (i = 2 ∧ j = 1) then 3
  else if (i = 0 ∧ j = 2) ∨ (i = 2 ∧ j = 0) then 4
  else 5

/-- The inverse index map as a total function (see `unvoigt3_eq`). -/
def unvoigt3 (i : Fin 6) : Fin 3 × Fin 3 :=
  ![(0, 0), (1, 1), (2, 2), (1, 2), (0, 2), (0, 1)] i

/-- The index map on the indices of a 2x2 matrix, as a total function. -/
def voigt2 (i j : Fin 2) : Fin 3 := if i = j then ⟨i, by omega⟩ else 2

/-- The inverse index map as a total function. -/
def unvoigt2 (i : Fin 3) : Fin 2 × Fin 2 := ![(0, 0), (1, 1), (0, 1)] i

/-! ### Matrices and Voigt vectors -/

/-- ikarus/utils/tensorutils.hh:252, `isStrain ? 2.0 : 1.0`. -/
def strainFactor (isStrain : Bool) : K := if isStrain then 2 else 1

/-- ikarus/utils/tensorutils.hh:298, `isStrain ? 0.5 : 1.0`. -/
def invStrainFactor (isStrain : Bool) : K := if isStrain then 1 / 2 else 1

/-- ikarus/utils/tensorutils.hh:250-276 for size 1. -/
def toVoigt1 (E : Matrix (Fin 1) (Fin 1) K) (_isStrain : Bool) : Fin 1 → K := ![E 0 0]

/-- ikarus/utils/tensorutils.hh:250-276 for size 2. -/
def toVoigt2 (E : Matrix (Fin 2) (Fin 2) K) (isStrain : Bool) : Fin 3 → K :=
  ![E 0 0, E 1 1, E 0 1 * strainFactor isStrain]

/-- ikarus/utils/tensorutils.hh:250-276 for size 3. -/
def toVoigt3 (E : Matrix (Fin 3) (Fin 3) K) (isStrain : Bool) : Fin 6 → K :=
  ![E 0 0, E 1 1, E 2 2, E 1 2 * strainFactor isStrain, E 0 2 * strainFactor isStrain,
    E 0 1 * strainFactor isStrain]

/-- ikarus/utils/tensorutils.hh:296-326 for matrix size 1. -/
def fromVoigt1 (v : Fin 1 → K) (_isStrain : Bool) : Matrix (Fin 1) (Fin 1) K := !![v 0]

/-- ikarus/utils/tensorutils.hh:296-326 for matrix size 2. -/
def fromVoigt2 (v : Fin 3 → K) (isStrain : Bool) : Matrix (Fin 2) (Fin 2) K :=
  !![v 0, v 2 * invStrainFactor isStrain; v 2 * invStrainFactor isStrain, v 1]

/-- ikarus/utils/tensorutils.hh:296-326 for matrix size 3. -/
def fromVoigt3 (v : Fin 6 → K) (isStrain : Bool) : Matrix (Fin 3) (Fin 3) K :=
  !![v 0, v 5 * invStrainFactor isStrain, v 4 * invStrainFactor isStrain;
     v 5 * invStrainFactor isStrain, v 1, v 3 * invStrainFactor isStrain;
     v 4 * invStrainFactor isStrain, v 3 * invStrainFactor isStrain, v 2]

/-- ikarus/utils/linearalgebrahelper.hh:421-424. -/
def symPart {n : Type*} (A : Matrix n n K) : Matrix n n K := (1 / 2 : K) • (A + Aᵀ)

/-- ikarus/utils/linearalgebrahelper.hh:433-436. -/
def skewPart {n : Type*} (A : Matrix n n K) : Matrix n n K := (1 / 2 : K) • (A - Aᵀ)

/-- ikarus/utils/linearalgebrahelper.hh:485-490. -/
def skewOf (a : Fin 3 → K) : Matrix (Fin 3) (Fin 3) K :=
  !![0, -a 2, a 1; a 2, 0, -a 0; -a 1, a 0, 0]

/-! ### Fourth order tensors -/

/-- `Eigen::TensorFixedSize<T, Sizes<d, d, d, d>>`. -/
abbrev Tensor4 (K : Type*) (d : Nat) := Fin d → Fin d → Fin d → Fin d → K

/-- `0` or `1` for a comparison of indices. -/
def delta {d : Nat} (i j : Fin d) : K := if i = j then 1 else 0

/-- ikarus/utils/tensorutils.hh:73-81. -/
def symmetricIdentityFourthOrder (d : Nat) : Tensor4 K d := fun i j k l =>
  1 / 2 * (delta i k * delta j l + delta i l * delta j k)

/-- ikarus/utils/tensorutils.hh:95-103. -/
def symmetricFourthOrder {d : Nat} (A B : Matrix (Fin d) (Fin d) K) : Tensor4 K d := fun i j k l =>
  1 / 2 * (A i k * B j l + A i l * B j k)

/-- ikarus/utils/tensorutils.hh:117-119, the assignments `idTensor(i, i, k, k) = 1.0` in order. -/
def identityWrites (d : Nat) : List (Fin d × Fin d) :=
  (List.finRange d).flatMap fun i => (List.finRange d).map fun k => (i, k)

/-- `t(i, j, k, l) = x`. -/
def Tensor4.set {α : Type*} {d : Nat} (t : Tensor4 α d) (i j k l : Fin d) (x : α) : Tensor4 α d :=
  fun i' j' k' l' => if i' = i ∧ j' = j ∧ k' = k ∧ l' = l then x else t i' j' k' l'

/-- ikarus/utils/tensorutils.hh:114-121. -/
def identityFourthOrder (d : Nat) : Tensor4 K d :=
  (identityWrites d).foldl (fun t p => t.set p.1 p.1 p.2 p.2 1) (fun _ _ _ _ => 0)

/-- ikarus/utils/tensorutils.hh:135-147. -/
def fourthOrderIKJL {d : Nat} (A B : Matrix (Fin d) (Fin d) K) : Tensor4 K d := fun i j k l =>
  A i k * B j l

/-- ikarus/utils/tensorutils.hh:47-50, the dyadic product of second order tensors. -/
def dyadic {d : Nat} (A B : Matrix (Fin d) (Fin d) K) : Tensor4 K d := fun i j k l => A i j * B k l

/-- Access with an array of indices. -/
def Tensor4.at {d : Nat} (t : Tensor4 K d) (x : Fin 4 → Fin d) : K := t (x 0) (x 1) (x 2) (x 3)

/-- ikarus/utils/tensorutils.hh:158-164: `shuffleSlot` is `0,1,2,3` with two entries swapped; a slot
above three is an access out of range. -/
def symTwoSlots {d : Nat} (t : Tensor4 K d) (s0 s1 : Nat) : Option (Tensor4 K d) :=
  if h : s0 < 4 ∧ s1 < 4 then
    some fun i j k l =>
      1 / 2 * (t i j k l + t.at (![i, j, k, l] ∘ Equiv.swap (⟨s0, h.1⟩ : Fin 4) ⟨s1, h.2⟩))
  else none

/-- The indices of the four nested loops of ikarus/utils/tensorutils.hh:221-224. -/
def allIndices4 (d : Nat) : List (Fin d × Fin d × Fin d × Fin d) :=
  (List.finRange d).flatMap fun i => (List.finRange d).flatMap fun j =>
    (List.finRange d).flatMap fun k => (List.finRange d).map fun l => (i, j, k, l)

/-- `m(a, b) = x` on a matrix with uninitialised entries. -/
def setEntry {α m n : Type*} [DecidableEq m] [DecidableEq n] (A : m → n → Option α) (a : m) (b : n)
    (x : α) : m → n → Option α :=
  fun a' b' => if a' = a ∧ b' = b then some x else A a' b'

/-- ikarus/utils/tensorutils.hh:219-227. -/
def toVoigtTensor (ft : Tensor4 K 3) : Fin 6 → Fin 6 → Option K :=
  (allIndices4 3).foldl (fun A p => setEntry A (voigt3 p.1 p.2.1) (voigt3 p.2.2.1 p.2.2.2)
    (ft p.1 p.2.1 p.2.2.1 p.2.2.2)) (fun _ _ => none)

/-- The indices of the two nested loops of ikarus/utils/tensorutils.hh:387-388. -/
def allIndices2 (n : Nat) : List (Fin n × Fin n) :=
  (List.finRange n).flatMap fun i => (List.finRange n).map fun j => (i, j)

/-- ikarus/utils/tensorutils.hh:383-395 for `dim == 3`; an entry `none` is never written. -/
def fromVoigtTensor3 (C : Matrix (Fin 6) (Fin 6) K) : Tensor4 (Option K) 3 :=
  (allIndices2 6).foldl (fun t p => t.set (unvoigt3 p.1).1 (unvoigt3 p.1).2 (unvoigt3 p.2).1
    (unvoigt3 p.2).2 (some (C p.1 p.2))) (fun _ _ _ _ => none)

/-- ikarus/utils/tensorutils.hh:383-395 for `dim == 2`; an entry `none` is never written. -/
def fromVoigtTensor2 (C : Matrix (Fin 3) (Fin 3) K) : Tensor4 (Option K) 2 :=
  (allIndices2 3).foldl (fun t p => t.set (unvoigt2 p.1).1 (unvoigt2 p.1).2 (unvoigt2 p.2).1
    (unvoigt2 p.2).2 (some (C p.1 p.2))) (fun _ _ _ _ => none)

/-! ### Strain transformation -/

/-- ikarus/utils/tensorutils.hh:408-425; `J` is the transposed Jacobian of the geometry. -/
def transformationMatrix2 (J : Matrix (Fin 2) (Fin 2) K) : Matrix (Fin 3) (Fin 3) K :=
  !![J 0 0 * J 0 0, J 0 1 * J 0 1, J 0 0 * J 0 1;
     J 1 0 * J 1 0, J 1 1 * J 1 1, J 1 0 * J 1 1;
     2 * J 0 0 * J 1 0, 2 * J 0 1 * J 1 1, J 1 0 * J 0 1 + J 0 0 * J 1 1]

/-- ikarus/utils/tensorutils.hh:438-465; `J` is the transposed Jacobian of the geometry. -/
def transformationMatrix3 (J : Matrix (Fin 3) (Fin 3) K) : Matrix (Fin 6) (Fin 6) K :=
  !![J 0 0 * J 0 0, J 0 1 * J 0 1, J 0 2 * J 0 2, J 0 1 * J 0 2, J 0 0 * J 0 2, J 0 0 * J 0 1;
     J 1 0 * J 1 0, J 1 1 * J 1 1, J 1 2 * J 1 2, J 1 1 * J 1 2, J 1 0 * J 1 2, J 1 0 * J 1 1;
     J 2 0 * J 2 0, J 2 1 * J 2 1, J 2 2 * J 2 2, J 2 1 * J 2 2, J 2 0 * J 2 2, J 2 0 * J 2 1;
     2 * J 1 0 * J 2 0, 2 * J 1 1 * J 2 1, 2 * J 1 2 * J 2 2, J 1 1 * J 2 2 + J 2 1 * J 1 2,
       J 2 0 * J 1 2 + J 1 0 * J 2 2, J 1 0 * J 2 1 + J 2 0 * J 1 1;
     2 * J 0 0 * J 2 0, 2 * J 0 1 * J 2 1, 2 * J 0 2 * J 2 2, J 0 1 * J 2 2 + J 2 1 * J 0 2,
       J 0 0 * J 2 2 + J 2 0 * J 0 2, J 0 0 * J 2 1 + J 2 0 * J 0 1;
     2 * J 0 0 * J 1 0, 2 * J 0 1 * J 1 1, 2 * J 0 2 * J 1 2, J 0 1 * J 1 2 + J 1 1 * J 0 2,
       J 0 0 * J 1 2 + J 1 0 * J 0 2, J 0 0 * J 1 1 + J 0 1 * J 1 0]

end Ikarus
