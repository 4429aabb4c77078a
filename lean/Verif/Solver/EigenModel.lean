import Mathlib.Data.Real.Basic
import Mathlib.Data.Fin.Tuple.Basic

/-!
Model of `ikarus/solver/eigenvaluesolver/generalizedeigensolver.hh` and `generalizedeigensolverfactory.hh`.

The sub-solvers are those of Spectra and Eigen: only what they require at construction and what they return is used.  Spectra's
`SymGEigsSolver(op, bop, nev, ncv)` throws unless `1 <= nev <= n - 1` and `nev < ncv <= n` with `n` the rows of `op`.  `std::ceil`
of a half is exact (sizes below 2^53).
-/

namespace Ikarus.Eigensolver

/-- The number of rows and columns of a matrix. -/
structure Shape where
  rows : Nat
  cols : Nat
  deriving DecidableEq

/-- What Spectra requires of the number of eigenvalues and of the dimension of the subspace. -/
def spectraAccepts (n nev ncv : Nat) : Bool :=
  decide (1 ≤ nev) && decide (nev + 1 ≤ n) && decide (nev < ncv) && decide (ncv ≤ n)

/-- The check of the sizes (generalizedeigensolver.hh:79-81, 198-200, 308-310). -/
def sizesAgree (A B : Shape) : Bool :=
  !(decide (A.cols ≠ B.cols) || decide (A.rows ≠ B.rows) || decide (A.cols ≠ A.rows))

/-- `nevsPartition_` (generalizedeigensolver.hh:73-74). -/
def partition (nev : Nat) : Nat × Nat := ((nev + 1) / 2, nev - (nev + 1) / 2)

/-- The constructor of the full solver with Spectra (generalizedeigensolver.hh:71-85): the numbers of smallest and of greatest
eigenvalues; `none` if it throws. -/
def constructFull (A B : Shape) : Option (Nat × Nat) :=
  let nev := A.rows
  let p := partition nev
  if !spectraAccepts A.rows p.1 (min (p.2 * 2) nev) then none
  else if !spectraAccepts A.rows p.2 (p.2 * 2) then none
  else if !sizesAgree A B then none
  else some p

/-- What is left of a dynamic matrix after it was forwarded to a member: nothing if it was an rvalue. -/
def forwarded (rvalue : Bool) (A : Shape) : Shape := if rvalue then ⟨0, 0⟩ else A

/-- The constructor of the solver with Eigen (generalizedeigensolver.hh:194-201), which checks the arguments after it has moved
them: the shapes of the members; `none` if it throws. -/
def constructEigen (rA rB : Bool) (A B : Shape) : Option (Shape × Shape) :=
  if !sizesAgree (forwarded rA A) (forwarded rB B) then none else some (A, B)

/-- `makeIdentitySymEigenSolver` with Eigen (generalizedeigensolverfactory.hh:63-69): the identity is an lvalue. -/
def makeIdentityEigen (rA : Bool) (A : Shape) : Option (Shape × Shape) := constructEigen rA false A ⟨A.rows, A.cols⟩

/-- The constructor of the partial solver (generalizedeigensolver.hh:303-311): the number of eigenvalues. -/
def constructPartial (A B : Shape) (nev : Nat) : Option Nat :=
  if !spectraAccepts A.rows nev (if 2 * nev ≤ A.cols then 2 * nev else A.cols) then none
  else if !sizesAgree A B then none
  else some nev

/-- What a sub-solver returns: whether it was successful, `k` eigenvalues and `k` eigenvectors. -/
structure Sub (n k : Nat) where
  successful : Bool
  values : Fin k → ℝ
  vectors : Fin k → Fin n → ℝ

/-- The members of the full solver that `compute` sets (generalizedeigensolver.hh:159-162); the vectors are the columns. -/
structure Full (n : Nat) where
  eigenvalues : Fin n → ℝ
  eigenvectors : Fin n → Fin n → ℝ
  computed : Bool

/-- The full solver as constructed (82-83; the contents are not specified, here zero). -/
def Full.init (n : Nat) : Full n := ⟨fun _ => 0, fun _ _ => 0, false⟩

/-- `compute` of the full solver (generalizedeigensolver.hh:107-126), from what the two sub-solvers return. -/
def Full.compute {p q : Nat} (s : Full (p + q)) (small : Sub (p + q) p) (great : Sub (p + q) q) : Full (p + q) × Bool :=
  let computed := small.successful && great.successful
  if !computed then ({ s with computed := computed }, false)
  else (⟨Fin.append small.values great.values, Fin.append small.vectors great.vectors, computed⟩, computed)

/-- `eigenvalues` (133-136); `none` if `assertCompute` (164-167) throws. -/
def Full.getValues {n : Nat} (s : Full n) : Option (Fin n → ℝ) := if !s.computed then none else some s.eigenvalues

/-- `eigenvectors` (143-146). -/
def Full.getVectors {n : Nat} (s : Full n) : Option (Fin n → Fin n → ℝ) := if !s.computed then none else some s.eigenvectors

/-- The outcome of an accessor. -/
inductive Result (α : Type)
  | value (a : α)
  | throws
  | undefined

/-- The partial solver after a `compute` (generalizedeigensolver.hh:336-344): what the sub-solver returned, if anything yet. -/
structure Partial (n k : Nat) where
  sub : Option (Sub n k)
  computed : Bool

/-- `compute` of the partial solver. -/
def Partial.compute {n k : Nat} (_ : Partial n k) (sub : Sub n k) : Partial n k := ⟨some sub, sub.successful⟩

/-- `eigenvalues` of the partial solver (351-354). -/
def Partial.getValues {n k : Nat} (s : Partial n k) : Result (Fin k → ℝ) :=
  if !s.computed then .throws
  else match s.sub with
    | some sub => .value sub.values
    | none => .undefined

/-- `eigenvectors` of the partial solver (362-366) with `assertNev` (265-268): the first vectors asked for.  A negative number is
undefined. -/
def Partial.getVectors {n k : Nat} (s : Partial n k) (nev : Option Int) : Result (List (Fin n → ℝ)) :=
  if (match nev with | some m => decide (m > k) | none => false) then .throws
  else if !s.computed then .throws
  else match s.sub with
    | none => .undefined
    | some sub =>
      let m := nev.getD k
      if m < 0 then .undefined else .value ((List.ofFn sub.vectors).take m.toNat)

end Ikarus.Eigensolver
