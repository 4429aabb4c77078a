import Verif.Tensor.Model
import Mathlib.LinearAlgebra.Matrix.NonsingularInverse
import Mathlib.Analysis.InnerProductSpace.Basic
import Mathlib.Data.List.Sort

/-!
Index sets, static condensation, enlarging and removing of components and orthonormalisation,
ikarus/utils/linearalgebrahelper.hh and ikarus/finiteelements/mechanics/materials/materialhelpers.hh.

An `std::array<size_t, k>` of indices of a matrix of size `n` is a function `Fin k → Fin n`.
`none` stands for writing past the end of an array.
-/

namespace Ikarus

open Matrix

/-- The loop of `std::ranges::set_difference` (C++ standard, [set.difference]), used in
ikarus/utils/linearalgebrahelper.hh:528, 544, 573 and materialhelpers.hh:45. The first argument is
fuel; each step shortens one of the lists. -/
def setDifferenceAux {α : Type*} [LT α] [DecidableLT α] : Nat → List α → List α → List α
  | 0, _, _ => []
  | _ + 1, [], _ => []
  | _ + 1, a :: as, [] => a :: as
  | n + 1, a :: as, b :: bs =>
    if a < b then a :: setDifferenceAux n as (b :: bs)
    else if b < a then setDifferenceAux n (a :: as) bs
    else setDifferenceAux n as bs

/-- `std::ranges::set_difference`. -/
def setDifference {α : Type*} [LT α] [DecidableLT α] (as bs : List α) : List α :=
  setDifferenceAux (as.length + bs.length) as bs

/-- ikarus/utils/linearalgebrahelper.hh:527-528 (and 543-544, 572-573): the array
`remainingIndices` has `n - k` entries; if `set_difference` returns more it writes past its end.
(It never returns fewer, see `setDifference_length`. The code does not compile for `k > n`.) -/
def remainingIndices {n k : Nat} (idx : Fin k → Fin n) : Option (Fin (n - k) → Fin n) :=
  let d := setDifference (List.finRange n) (List.ofFn idx)
  if h : d.length + k = n then some fun i => d.get (i.cast (by omega)) else none

section
variable {K : Type*} [Field K]

/-- ikarus/utils/linearalgebrahelper.hh:521-535. The inverse of a singular block (not finite numbers
in the code) is Mathlib's zero. -/
noncomputable def staticCondensation {n k : Nat} (E : Matrix (Fin n) (Fin n) K)
    (idx : Fin k → Fin n) : Option (Matrix (Fin (n - k)) (Fin (n - k)) K) :=
  (remainingIndices idx).map fun rem =>
    let K11 := E.submatrix rem rem
    let K12 := E.submatrix idx rem
    let K22 := E.submatrix idx idx
    K11 - K12ᵀ * K22⁻¹ * K12

/-- ikarus/utils/linearalgebrahelper.hh:537-549. -/
def reduceMatrix {n k : Nat} (E : Matrix (Fin n) (Fin n) K) (idx : Fin k → Fin n) :
    Option (Matrix (Fin (n - k)) (Fin (n - k)) K) :=
  (remainingIndices idx).map fun rem => E.submatrix rem rem

/-- ikarus/utils/linearalgebrahelper.hh:563-576. -/
def removeCol {n k : Nat} (v : Fin n → K) (idx : Fin k → Fin n) : Option (Fin (n - k) → K) :=
  (remainingIndices idx).map fun rem i => v (rem i)

/-- ikarus/finiteelements/mechanics/materials/materialhelpers.hh:57-62 (and 42-44), the Voigt
indices of the pairs, sorted. -/
def createFixedVoigtIndices {k : Nat} (fixed : Fin k → Fin 3 × Fin 3) : Fin k → Fin 6 :=
  let l := (List.ofFn fun i => voigt3 (fixed i).1 (fixed i).2).insertionSort (· ≤ ·)
  fun i => l.get (i.cast (by simp [l, List.length_insertionSort]))

/-- ikarus/finiteelements/mechanics/materials/materialhelpers.hh:40-49; line 46 sorts the result. -/
def createfreeVoigtIndices {k : Nat} (fixed : Fin k → Fin 3 × Fin 3) :
    Option (Fin (6 - k) → Fin 6) :=
  (remainingIndices (createFixedVoigtIndices fixed)).map fun res =>
    let l := (List.ofFn res).insertionSort (· ≤ ·)
    fun i => l.get (i.cast (by simp [l, List.length_insertionSort]))

/-- ikarus/finiteelements/mechanics/materials/materialhelpers.hh:71-78. -/
def countDiagonalIndices {k : Nat} (fixed : Fin k → Fin 3 × Fin 3) : Nat :=
  (List.ofFn fixed).foldl (fun count v => if v.2 = v.1 then count + 1 else count) 0

/-- ikarus/utils/linearalgebrahelper.hh:617-624, the enlarged vector. -/
def enlargeVector {m : Nat} (free : Fin m → Fin 6) (E : Fin m → K) : Fin 6 → K :=
  (List.finRange m).foldl (fun p ri => Function.update p (free ri) (E ri)) 0

/-- ikarus/utils/linearalgebrahelper.hh:629-639, the enlarged matrix. -/
def enlargeMatrix {m : Nat} (free : Fin m → Fin 6) (E : Matrix (Fin m) (Fin m) K) :
    Matrix (Fin 6) (Fin 6) K :=
  (List.finRange m).foldl (fun p ri =>
    (List.finRange m).foldl (fun p rj => p.updateRow (free ri)
      (Function.update (p (free ri)) (free rj) (E ri rj))) p) 0

/-- ikarus/utils/linearalgebrahelper.hh:594-606 for a reduced material. -/
def toVoigtAndReduce {k : Nat} (E : Matrix (Fin 3) (Fin 3) K) (fixed : Fin k → Fin 3 × Fin 3)
    (isStrain : Bool) : Option (Fin (6 - k) → K) :=
  removeCol (toVoigt3 E isStrain) (createFixedVoigtIndices fixed)

end

section
variable {V : Type*} [NormedAddCommGroup V] [InnerProductSpace ℝ V]

/-- Eigen's `normalize()`: no effect unless the squared norm is positive. -/
noncomputable def eigenNormalize (v : V) : V :=
  open Classical in if 0 < ‖v‖ ^ 2 then (Real.sqrt (‖v‖ ^ 2))⁻¹ • v else v

/-- ikarus/utils/linearalgebrahelper.hh:38 and 40-43, one column: `Q` are the left columns, `a` the
column of `A`. For the first column `Q` is empty and only `normalize()` is called. -/
noncomputable def orthonormalizeColumn (Q : List V) (a : V) : V :=
  eigenNormalize (a - (Q.map fun q => (inner ℝ q a : ℝ) • q).sum)

/-- ikarus/utils/linearalgebrahelper.hh:33-46, the columns of the result; `none` for a matrix
without columns (`Q.col(0)` does not exist). -/
noncomputable def orthonormalizeMatrixColumns : List V → Option (List V)
  | [] => none
  | A => some (A.foldl (fun Q a => Q ++ [orthonormalizeColumn Q a]) [])

end

end Ikarus
