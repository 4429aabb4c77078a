import Verif.Material.NeoHookeModel

/-!
The principal branch of the Lambert function, ikarus/utils/lambertw.hh. Numbers are real numbers, with `nan` and the
infinities apart; `tol` is the default tolerance of `Dune::FloatCmp`. The instantiation with scalars of automatic
differentiation (which skips lines 43-48) is not modelled as such; see `halley_dual` in LambertProps.
-/

namespace Ikarus

namespace Lambert

open Real

/-- The argument of `lambertW0` as a floating point number. -/
inductive Arg
  | nan
  | posInf
  | negInf
  | real (z : ℝ)

/-- What a call of `lambertW0` ends with: a value or one of the two exceptions (lambertw.hh:58, 92). -/
inductive Result
  | value (a : Arg)
  | invalidState
  | mathError

/-- `branchPoint`, lambertw.hh:50. -/
noncomputable def branchPoint : ℝ := -1 / exp 1

/-- `log1p`, lambertw.hh:21-24. -/
noncomputable def log1p (x : ℝ) : ℝ := log (1 + x)

open Classical in
/-- The initial guess, lambertw.hh:61-68. -/
noncomputable def start (tol z : ℝ) : ℝ :=
  if floatCmpGt tol z 1 then
    let lx := log z
    let llx := log lx
    lx - llx - 0.5 * log1p (-llx / lx)
  else 0.567 * z

/-- `denom`, lambertw.hh:75-79. -/
noncomputable def denom (z x : ℝ) : ℝ :=
  let ex := exp x
  let f := x * ex - z
  let fPrime := ex * (x + 1)
  let fPrimePrime := ex * (x + 2)
  fPrime - 1 / 2 * (fPrimePrime / fPrime) * f

/-- `newX`, lambertw.hh:75-81. -/
noncomputable def newX (z x : ℝ) : ℝ := x - (x * exp x - z) / denom z x

open Classical in
/-- The loop, lambertw.hh:74-92, with `n` iterations left. -/
noncomputable def loop (tol eps z : ℝ) : Nat → ℝ → ℝ → Result
  | 0, _, _ => .mathError
  | n + 1, x, lastDiff =>
    let diff := |newX z x - x|
    if floatCmpLe tol diff (3 * eps * |x|) ∨ floatCmpEq tol diff lastDiff then .value (.real (newX z x))
    else loop tol eps z n (newX z x) diff

open Classical in
/-- `lambertW0`, lambertw.hh:42-93. -/
noncomputable def lambertW0 (tol : ℝ) (maxIterations : Nat) (eps : ℝ) : Arg → Result
  | .nan => .value .nan
  | .posInf => .value .posInf
  | .negInf => .value .negInf
  | .real z =>
    if floatCmpEq tol z branchPoint then .value (.real (-1))
    else if z < branchPoint then .invalidState
    else loop tol eps z maxIterations (start tol z) 0

end Lambert

end Ikarus
