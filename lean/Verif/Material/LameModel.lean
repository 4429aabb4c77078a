import Mathlib.Analysis.SpecialFunctions.Pow.Real

/-!
Material parameters, ikarus/finiteelements/physicshelper.hh:18-297. Numbers are real numbers.
-/

namespace Ikarus

noncomputable section

/-- ikarus/finiteelements/physicshelper.hh:18-58, the six supported pairs. -/
inductive MatPair where
  | youngPoisson (emodul nu : ℝ)
  | youngShear (emodul mu : ℝ)
  | youngBulk (emodul K : ℝ)
  | youngLambda (emodul lambda : ℝ)
  | bulkLambda (K lambda : ℝ)
  | lambdaShear (lambda mu : ℝ)

/-- `Dune::FloatCmp::eq(a, b)` with its default style (relative to the larger number). -/
def floatCmpEq (eps a b : ℝ) : Prop := |a - b| ≤ eps * max |a| |b|

/-- ikarus/finiteelements/physicshelper.hh:238-242. -/
def calcR (E lambda : ℝ) : ℝ := Real.sqrt (E * E + 9 * lambda * lambda + 2 * E * lambda)

namespace MatPair

/-- ikarus/finiteelements/physicshelper.hh:80-97; `none` stands for `assert(false)` and for the
infinite value of lines 84-85. -/
def toLamesFirstParameter (eps : ℝ) : MatPair → Option ℝ
  | youngPoisson E nu => open Classical in
    if floatCmpEq eps nu (1 / 2) then none else some (E * nu / ((1 + nu) * (1 - 2 * nu)))
  | youngShear E mu => some (mu * (E - 2 * mu) / (3 * mu - E))
  | youngBulk E K => some (3 * K * (3 * K - E) / (9 * K - E))
  | youngLambda _ lambda => some lambda
  | bulkLambda _ lambda => some lambda
  | lambdaShear lambda _ => some lambda

/-- ikarus/finiteelements/physicshelper.hh:100-121. -/
def toBulkModulus : MatPair → Option ℝ
  | youngPoisson E nu => some (E / (3 * (1 - 2 * nu)))
  | youngShear E mu => some (E * mu / (3 * (3 * mu - E)))
  | youngBulk _ K => some K
  | youngLambda E lambda => some ((E + 3 * lambda + calcR E lambda) / 6)
  | bulkLambda K _ => some K
  | lambdaShear lambda mu => some (lambda + 2 * mu / 3)

/-- ikarus/finiteelements/physicshelper.hh:123-144. -/
def toShearModulus : MatPair → Option ℝ
  | youngPoisson E nu => some (E / (2 * (1 + nu)))
  | youngShear _ mu => some mu
  | youngBulk E K => some (3 * K * E / (9 * K - E))
  | youngLambda E lambda => some ((E - 3 * lambda + calcR E lambda) / 4)
  | bulkLambda K lambda => some (3 * (K - lambda) / 2)
  | lambdaShear _ mu => some mu

/-- ikarus/finiteelements/physicshelper.hh:146-173. -/
def toPWaveModulus : MatPair → Option ℝ
  | youngPoisson E nu => some (E * (1 - nu) / ((1 + nu) * (1 - 2 * nu)))
  | youngShear E mu => some (mu * (4 * mu - E) / (3 * mu - E))
  | youngBulk E K => some (3 * K * (3 * K + E) / (9 * K - E))
  | youngLambda E lambda => some ((E - lambda + calcR E lambda) / 2)
  | bulkLambda K lambda => some (3 * K - 2 * lambda)
  | lambdaShear lambda mu => some (lambda + 2 * mu)

/-- ikarus/finiteelements/physicshelper.hh:175-200. -/
def toPoissonsRatio : MatPair → Option ℝ
  | youngPoisson _ nu => some nu
  | youngShear E mu => some (E / (2 * mu) - 1)
  | youngBulk E K => some ((3 * K - E) / (6 * K))
  | youngLambda E lambda => some (2 * lambda / (E + lambda + calcR E lambda))
  | bulkLambda K lambda => some (lambda / (3 * K - lambda))
  | lambdaShear lambda mu => some (lambda / (2 * (lambda + mu)))

/-- ikarus/finiteelements/physicshelper.hh:202-213. -/
def toYoungsModulus : MatPair → Option ℝ
  | youngPoisson E _ => some E
  | youngShear E _ => some E
  | youngBulk E _ => some E
  | youngLambda E _ => some E
  | bulkLambda K lambda => some (9 * K * (K - lambda) / (3 * K - lambda))
  | lambdaShear lambda mu => some (mu * (3 * lambda + 2 * mu) / (lambda + mu))

end MatPair

/-- ikarus/finiteelements/physicshelper.hh:276-281. -/
def toLamesFirstParameterAndShearModulus (eps E nu : ℝ) : Option MatPair := do
  let lambda ← (MatPair.youngPoisson E nu).toLamesFirstParameter eps
  let mu ← (MatPair.youngPoisson E nu).toShearModulus
  some (.lambdaShear lambda mu)

/-- ikarus/finiteelements/physicshelper.hh:289-294. -/
def toYoungsModulusAndPoissonsRatio (lambda mu : ℝ) : Option MatPair := do
  let emod ← (MatPair.lambdaShear lambda mu).toYoungsModulus
  let nu ← (MatPair.lambdaShear lambda mu).toPoissonsRatio
  some (.youngPoisson emod nu)

end

end Ikarus
