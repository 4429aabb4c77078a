import Mathlib.Analysis.InnerProductSpace.Basic
import Mathlib.Analysis.Real.Sqrt

/-!
Model of the truncated conjugate gradient method
(ikarus/linearalgebra/truncatedconjugategradient.hh) over the real numbers.
-/

namespace Ikarus

noncomputable section

/-- ikarus/linearalgebra/truncatedconjugategradient.hh:25-33. -/
inductive TCGStopReason
  | negativeCurvature
  | exceededTrustRegion
  | reachedTargetResidualKappaLinear
  | reachedTargetResidualThetaSuperLinear
  | maximumInnerIterations
  | modelIncreased
  deriving DecidableEq, Repr

/-- ikarus/linearalgebra/truncatedconjugategradient.hh:35-44 (`theta` and `maxinner` are not used by
the algorithm). -/
structure TCGInfo where
  stop : TCGStopReason
  Delta : ℝ
  kappa : ℝ
  mininner : Int
  numInnerIter : Nat

variable {V : Type} [NormedAddCommGroup V] [InnerProductSpace ℝ V]

/-- The variables of the loop. -/
structure TCGLoop (V : Type) where
  x : V
  residual : V
  p : V
  absNew : ℝ
  e_Pd : ℝ
  e_Pe : ℝ
  d_Pd : ℝ
  i : Nat
  stop : TCGStopReason

/-- ikarus/linearalgebra/truncatedconjugategradient.hh:115-164, the body of the loop; `Sum.inl` is
the state at a `break`. `mat` and `precond` are the products with the matrix and the inverse of the
preconditioner. The quotient of line 118 is only used if its denominator is positive. -/
def tcgBody (mat precond : V → V) (rhsNorm threshold : ℝ) (info : TCGInfo) (s : TCGLoop V) :
    TCGLoop V ⊕ TCGLoop V :=
  let tmp := mat s.p
  let d_Hd := inner ℝ s.p tmp
  let alpha := s.absNew / d_Hd
  let e_Pe_new := s.e_Pe + 2 * alpha * s.e_Pd + alpha * alpha * s.d_Pd
  if d_Hd ≤ 0 ∨ e_Pe_new ≥ info.Delta * info.Delta then
    let tau := (-s.e_Pd + Real.sqrt (s.e_Pd * s.e_Pd + s.d_Pd * (info.Delta * info.Delta - s.e_Pe)))
      / s.d_Pd
    .inl { s with
      x := s.x + tau • s.p
      stop := if d_Hd ≤ 0 then .negativeCurvature else .exceededTrustRegion }
  else
    let s := { s with e_Pe := e_Pe_new, x := s.x + alpha • s.p, residual := s.residual - alpha • tmp }
    let residualNorm := ‖s.residual‖
    if (s.i : Int) ≥ info.mininner ∧ residualNorm ≤ rhsNorm * min rhsNorm info.kappa then
      .inl { s with stop := if info.kappa < rhsNorm then .reachedTargetResidualKappaLinear
        else .reachedTargetResidualThetaSuperLinear }
    else if residualNorm < threshold then .inl s
    else
      let z := precond s.residual
      let absOld := s.absNew
      let absNew := inner ℝ s.residual z
      let beta := absNew / absOld
      let e_Pd := beta * (s.e_Pd + alpha * s.d_Pd)
      let d_Pd := absNew + beta * beta * s.d_Pd
      .inr { s with absNew := absNew, e_Pd := e_Pd, d_Pd := d_Pd, p := z + beta • s.p, i := s.i + 1 }

/-- ikarus/linearalgebra/truncatedconjugategradient.hh:115-164: `n` iterations are left
(`maxIters - i`). -/
def tcgLoop (mat precond : V → V) (rhsNorm threshold : ℝ) (info : TCGInfo) :
    Nat → TCGLoop V → TCGLoop V
  | 0, s => s
  | n + 1, s =>
    match tcgBody mat precond rhsNorm threshold info s with
    | .inl s => s
    | .inr s => tcgLoop mat precond rhsNorm threshold info n s

/-- ikarus/linearalgebra/truncatedconjugategradient.hh:102-114, the values before the loop. -/
def tcgStart (mat precond : V → V) (rhs x : V) : TCGLoop V :=
  let residual := rhs - mat x
  let p := precond residual
  let absNew := inner ℝ residual p
  { x := x, residual := residual, p := p, absNew := absNew, e_Pd := 0, e_Pe := ‖x‖ ^ 2,
    d_Pd := absNew, i := 1, stop := .maximumInnerIterations }

/-- ikarus/linearalgebra/truncatedconjugategradient.hh:69-168; `tiny` is the smallest positive
normalised number. The result is the solution and the information. -/
def tcg (mat precond : V → V) (rhs x : V) (maxIters : Nat) (tol tiny : ℝ) (info : TCGInfo) :
    V × TCGInfo :=
  let residual := rhs - mat x
  let rhsNorm := ‖rhs‖
  if rhsNorm ≤ tiny then (0, info)
  else
    let threshold := max (tol * tol * rhsNorm * rhsNorm) tiny
    if ‖residual‖ * ‖residual‖ < threshold then (x, info)
    else
      let s := tcgLoop mat precond rhsNorm threshold info (maxIters - 1) (tcgStart mat precond rhs x)
      (s.x, { info with stop := s.stop, numInnerIter := s.i })

end

end Ikarus
