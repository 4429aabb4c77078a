import Verif.Material.NeoHookeModel
import Mathlib.Analysis.SpecialFunctions.Pow.Real

/-!
Deviatoric functions,
ikarus/finiteelements/mechanics/materials/hyperelastic/deviatoric. Numbers are real numbers; vectors of principal
stretches are functions on `Fin 3`; a loop that accumulates with `+=` is a sum; `pow` with a floating point exponent
is the real power. Exceptions and accesses out of range are `none`.
-/

namespace Ikarus

noncomputable section

/-- The three functions required of a deviatoric function, hyperelastic/concepts.hh:25-44. -/
structure DevFun where
  storedEnergy : (Fin 3 → ℝ) → Option ℝ
  firstDerivative : (Fin 3 → ℝ) → Option (Fin 3 → ℝ)
  secondDerivative : (Fin 3 → ℝ) → Option (Matrix (Fin 3) (Fin 3) ℝ)

/-- ikarus/finiteelements/mechanics/materials/materialhelpers.hh:161-164. -/
def determinantFromPrincipalValues (l : Fin 3 → ℝ) : ℝ := l 0 * l 1 * l 2

/-- ikarus/finiteelements/mechanics/materials/materialhelpers.hh:174-180. -/
def deviatoricStretches (l : Fin 3 → ℝ) : Fin 3 → ℝ :=
  let J := determinantFromPrincipalValues l
  let Jmod := J ^ (-1 / 3 : ℝ)
  fun a => Jmod * l a

/-- ikarus/finiteelements/mechanics/materials/materialhelpers.hh:189-201. -/
def invariants (l : Fin 3 → ℝ) : Fin 3 → ℝ :=
  let sq := fun a => l a ^ 2
  ![sq 0 + sq 1 + sq 2, sq 0 * sq 1 + sq 1 * sq 2 + sq 0 * sq 2, determinantFromPrincipalValues sq]

/-- deviatoric/nodeviatoricfunction.hh:56-84. -/
def noDev : DevFun where
  storedEnergy _ := some 0
  firstDerivative _ := some 0
  secondDerivative _ := some 0

/-! ### Blatz-Ko -/

namespace BlatzKo

/-- deviatoric/blatzko.hh:72-75. -/
def storedEnergy (mu : ℝ) (l : Fin 3 → ℝ) : ℝ :=
  mu / 2 * (∑ a, (l a)⁻¹ ^ 2 + 2 * (l 0 * l 1 * l 2) - 5)

/-- deviatoric/blatzko.hh:83-89. -/
def firstDerivative (mu : ℝ) (l : Fin 3 → ℝ) : Fin 3 → ℝ :=
  let J := determinantFromPrincipalValues l
  fun a => mu * (-(l a ^ 3)⁻¹ + J * (l a)⁻¹)

/-- deviatoric/blatzko.hh:98-109. -/
def secondDerivative (mu : ℝ) (l : Fin 3 → ℝ) : Matrix (Fin 3) (Fin 3) ℝ :=
  let J := determinantFromPrincipalValues l
  fun a b => (if a = b then (l a ^ 2)⁻¹ * ((l a ^ 2)⁻¹ - J) + 3 / l a ^ 4 else J / (l a * l b)) * mu

end BlatzKo

/-- deviatoric/blatzko.hh:33-125. -/
def blatzKo (mu : ℝ) : DevFun where
  storedEnergy l := some (BlatzKo.storedEnergy mu l)
  firstDerivative l := some (BlatzKo.firstDerivative mu l)
  secondDerivative l := some (BlatzKo.secondDerivative mu l)

/-! ### Ogden -/

/-- deviatoric/ogden.hh:70-72, 202-203. -/
structure Ogden (n : Nat) where
  mu : Fin n → ℝ
  alpha : Fin n → ℝ

namespace Ogden

variable {n : Nat} (o : Ogden n)

/-- deviatoric/ogden.hh:99-102, deviatoric stretches. -/
def storedEnergyDev (l : Fin 3 → ℝ) : ℝ :=
  let lb := deviatoricStretches l
  ∑ i, o.mu i / o.alpha i * (∑ a, lb a ^ o.alpha i - 3)

/-- deviatoric/ogden.hh:103-108, total stretches. -/
def storedEnergyTotal (l : Fin 3 → ℝ) : ℝ :=
  let J := l 0 * l 1 * l 2
  let logJ := Real.log J
  ∑ i, (o.mu i / o.alpha i * (∑ a, l a ^ o.alpha i - 3) - o.mu i * logJ)

/-- deviatoric/ogden.hh:126-134. -/
def firstDerivativeDev (l : Fin 3 → ℝ) : Fin 3 → ℝ :=
  let lb := deviatoricStretches l
  let dWdLambdaBar : Fin 3 → ℝ := fun a => ∑ j, o.mu j * lb a ^ (o.alpha j - 1)
  let sumLambdaBar := ∑ a, lb a * dWdLambdaBar a
  fun a => (lb a * dWdLambdaBar a - 1 / 3 * sumLambdaBar) / l a

/-- deviatoric/ogden.hh:135-137. -/
def firstDerivativeTotal (l : Fin 3 → ℝ) : Fin 3 → ℝ :=
  fun a => ∑ j, (o.mu j * (l a ^ o.alpha j - 1)) / l a

/-- deviatoric/ogden.hh:156-180. The array `lambdaBarPowSum` has three entries (line 160) and is indexed by
the number of the parameter (line 162). -/
def secondDerivativeDev (l : Fin 3 → ℝ) : Option (Matrix (Fin 3) (Fin 3) ℝ) :=
  let lb := deviatoricStretches l
  let dWdLambda := o.firstDerivativeDev l
  if n ≤ 3 then
    let lambdaBarPowSum : Fin n → ℝ := fun p => ∑ a, lb a ^ o.alpha p
    some fun a b =>
      if a = b then
        (∑ p, o.mu p * o.alpha p * (1 / 3 * lb a ^ o.alpha p + 1 / 9 * lambdaBarPowSum p)) *
          (1 / (l a * l b)) - 2 / l a * dWdLambda a
      else
        (∑ p, o.mu p * o.alpha p *
          (-(1 / 3) * (lb a ^ o.alpha p + lb b ^ o.alpha p) + 1 / 9 * lambdaBarPowSum p)) *
          (1 / (l a * l b))
  else none

/-- deviatoric/ogden.hh:181-187. -/
def secondDerivativeTotal (l : Fin 3 → ℝ) : Matrix (Fin 3) (Fin 3) ℝ := fun a b =>
  if a = b then
    ∑ j, (-2 * o.mu j * (l a ^ o.alpha j - 1) + o.mu j * l a ^ o.alpha j * o.alpha j) / l a ^ 2
  else 0

/-- deviatoric/ogden.hh:39-207 with `PrincipalStretchTags::deviatoric`. -/
def dev : DevFun where
  storedEnergy l := some (o.storedEnergyDev l)
  firstDerivative l := some (o.firstDerivativeDev l)
  secondDerivative l := o.secondDerivativeDev l

/-- deviatoric/ogden.hh:39-207 with `PrincipalStretchTags::total`. -/
def total : DevFun where
  storedEnergy l := some (o.storedEnergyTotal l)
  firstDerivative l := some (o.firstDerivativeTotal l)
  secondDerivative l := some (o.secondDerivativeTotal l)

end Ogden

/-! ### Invariants of the deviatoric stretches -/

namespace DeviatoricInvariants

/-- deviatoric/deviatoricinvariants.hh:55-60, first entry. -/
def W1 (l : Fin 3 → ℝ) : ℝ := invariants l 0 * invariants l 2 ^ (-1 / 3 : ℝ)

/-- deviatoric/deviatoricinvariants.hh:55-60, second entry. -/
def W2 (l : Fin 3 → ℝ) : ℝ := invariants l 1 * invariants l 2 ^ (-2 / 3 : ℝ)

/-- deviatoric/deviatoricinvariants.hh:65-69. -/
def dW1 (l : Fin 3 → ℝ) : Fin 3 → ℝ := fun a =>
  2 * (3 * l a ^ 2 - invariants l 0) / (3 * l a * invariants l 2 ^ (1 / 3 : ℝ))

/-- deviatoric/deviatoricinvariants.hh:70-71. -/
def dW2 (l : Fin 3 → ℝ) : Fin 3 → ℝ := fun a =>
  -2 * (3 * invariants l 2 * (l a ^ 2)⁻¹ - invariants l 1) / (3 * l a * invariants l 2 ^ (2 / 3 : ℝ))

/-- deviatoric/deviatoricinvariants.hh:79-97, first entry. -/
def ddW1 (l : Fin 3 → ℝ) : Matrix (Fin 3) (Fin 3) ℝ := fun i j =>
  if i = j then 2 / 9 * (5 * invariants l 0 - 3 * l i ^ 2) / (l i ^ 2 * invariants l 2 ^ (1 / 3 : ℝ))
  else 4 / 9 * (invariants l 0 - 3 * (l i ^ 2 + l j ^ 2)) / (l i * l j * invariants l 2 ^ (1 / 3 : ℝ))

/-- deviatoric/deviatoricinvariants.hh:79-97, second entry. -/
def ddW2 (l : Fin 3 → ℝ) : Matrix (Fin 3) (Fin 3) ℝ := fun i j =>
  if i = j then
    2 / 9 * (15 * invariants l 2 / l i ^ 2 - invariants l 1) / (l i ^ 2 * invariants l 2 ^ (2 / 3 : ℝ))
  else
    -4 / 9 * (2 * invariants l 1 - 3 * l i ^ 2 * l j ^ 2) / (l i * l j * invariants l 2 ^ (2 / 3 : ℝ))

end DeviatoricInvariants

open DeviatoricInvariants

/-! ### Gent -/

/-- deviatoric/gent.hh:20-24. -/
structure Gent where
  mu : ℝ
  Jm : ℝ

namespace Gent

variable (g : Gent)

open Classical in
/-- deviatoric/gent.hh:174-177. -/
def checkJm (eps W1 : ℝ) : Option Unit := if floatCmpLe eps g.Jm (W1 - 3) then none else some ()

/-- deviatoric/gent.hh:52-178. -/
def dev (eps : ℝ) : DevFun where
  storedEnergy l := do
    g.checkJm eps (W1 l)
    return -(g.mu / 2) * g.Jm * Real.log (1 - (W1 l - 3) / g.Jm)
  firstDerivative l := do
    g.checkJm eps (W1 l)
    return fun a => (g.mu * dW1 l a * g.Jm) / (2 * (g.Jm - W1 l) + 6)
  secondDerivative l := do
    g.checkJm eps (W1 l)
    let factor1 := 1 - (W1 l - 3) / g.Jm
    return fun i j =>
      g.mu / (2 * factor1) * (ddW1 l i j + dW1 l i * dW1 l j / (factor1 * g.Jm)) -
        (if i = j then g.mu / (2 * l i * factor1) * dW1 l i else 0)

end Gent

/-! ### Arruda-Boyce -/

/-- deviatoric/arrudaboyce.hh:20-24. -/
structure ArrudaBoyce where
  mu : ℝ
  lambdaM : ℝ

namespace ArrudaBoyce

variable (b : ArrudaBoyce)

/-- deviatoric/arrudaboyce.hh:184-185. -/
def alphas : Fin 5 → ℝ := ![1 / 2, 1 / 20, 11 / 1050, 19 / 7000, 519 / 673750]

/-- deviatoric/arrudaboyce.hh:105. -/
def beta : ℝ := 1 / b.lambdaM ^ 2

/-- deviatoric/arrudaboyce.hh:53-189. In `secondDerivative` the exponent `p - 1` is an integer, which is `-1` in the
first term (line 164). -/
def dev : DevFun where
  storedEnergy l := some
    ((∑ i : Fin 5, alphas i * b.beta ^ (i : ℕ) * (W1 l ^ ((i : ℕ) + 1) - 3 ^ ((i : ℕ) + 1))) * b.mu)
  firstDerivative l := some fun k =>
    ∑ j : Fin 5, b.mu * alphas j * b.beta ^ (j : ℕ) * W1 l ^ (j : ℕ) * dW1 l k * ((j : ℕ) + 1)
  secondDerivative l := some fun i k =>
    ∑ p : Fin 5,
      (b.mu * alphas p * b.beta ^ (p : ℕ) *
        (W1 l ^ (p : ℕ) * ddW1 l i k * ((p : ℕ) + 1) +
          W1 l ^ ((p : ℕ) - 1 : ℤ) * (dW1 l i * dW1 l k) * (p : ℕ) * ((p : ℕ) + 1)) -
      (if i = k then
        dW1 l i / l i * (b.mu * alphas p * b.beta ^ (p : ℕ)) * W1 l ^ (p : ℕ) * ((p : ℕ) + 1) else 0))

end ArrudaBoyce

/-! ### Invariant based -/

/-- deviatoric/invariantbased.hh:186-187. -/
structure InvariantBased (n : Nat) where
  pex : Fin n → ℕ
  qex : Fin n → ℕ
  mat : Fin n → ℝ

namespace InvariantBased

variable {n : Nat} (v : InvariantBased n)

open Classical in
/-- deviatoric/invariantbased.hh:74-79, 218-223: the constructor throws if both exponents of a term are zero. -/
def construct (pex qex : Fin n → ℕ) (mat : Fin n → ℝ) : Option (InvariantBased n) :=
  if ∃ i, pex i = 0 ∧ qex i = 0 then none else some ⟨pex, qex, mat⟩

open Classical in
/-- deviatoric/invariantbased.hh:206-215; the assertion is `none`. -/
def powerAndMultiply (eps x : ℝ) (p m : ℤ) : Option ℝ :=
  if m = 0 then some 0
  else if p = 0 then some m
  else if |x| < eps ∧ p < 0 then none
  else some (x ^ p * m)

/-- deviatoric/invariantbased.hh:122-128, the term of one parameter. -/
def firstTerm (eps : ℝ) (l : Fin 3 → ℝ) (p : Fin n) : Option (Fin 3 → ℝ) := do
  let W1 := W1 l - 3
  let W2 := W2 l - 3
  let W1pm1p ← powerAndMultiply eps W1 (v.pex p - 1) (v.pex p)
  let W2qm1q ← powerAndMultiply eps W2 (v.qex p - 1) (v.qex p)
  return fun k => v.mat p * (W1pm1p * W2 ^ v.qex p * dW1 l k + W1 ^ v.pex p * W2qm1q * dW2 l k)

/-- deviatoric/invariantbased.hh:153-171, the term of one parameter. -/
def secondTerm (eps : ℝ) (l : Fin 3 → ℝ) (p : Fin n) : Option (Matrix (Fin 3) (Fin 3) ℝ) := do
  let W1 := W1 l - 3
  let W2 := W2 l - 3
  let W1pm1p ← powerAndMultiply eps W1 (v.pex p - 1) (v.pex p)
  let W2qm1q ← powerAndMultiply eps W2 (v.qex p - 1) (v.qex p)
  let W1pm2pp ← powerAndMultiply eps W1 (v.pex p - 2) (v.pex p * (v.pex p - 1))
  let W2qm2qq ← powerAndMultiply eps W2 (v.qex p - 2) (v.qex p * (v.qex p - 1))
  return fun i j =>
    let dW1W2 := dW1 l i * dW2 l j + dW1 l j * dW2 l i
    let factor1 := (W2qm1q * dW1W2 + W2 ^ v.qex p * ddW1 l i j) * W1pm1p * v.mat p
    let factor2 := W2qm1q * ddW2 l i j * W1 ^ v.pex p * v.mat p
    let factor3 := W1pm2pp * W2 ^ v.qex p * dW1 l i * dW1 l j * v.mat p
    let factor4 := W2qm2qq * W1 ^ v.pex p * dW2 l i * dW2 l j * v.mat p
    let factor5 := v.mat p * (W1pm1p * W2 ^ v.qex p * dW1 l i + W1 ^ v.pex p * W2qm1q * dW2 l i)
    factor1 + factor2 + factor3 + factor4 - (if i = j then 1 / l i * factor5 else 0)

/-- A sum of terms, undefined if one of them is. -/
def optSum {A : Type} [AddCommMonoid A] (f : Fin n → Option A) : Option A :=
  if ∀ p, (f p).isSome then some (∑ p, (f p).getD 0) else none

/-- deviatoric/invariantbased.hh:34-224. -/
def dev (eps : ℝ) : DevFun where
  storedEnergy l := some (∑ i, v.mat i * (W1 l - 3) ^ v.pex i * (W2 l - 3) ^ v.qex i)
  firstDerivative l := optSum (v.firstTerm eps l)
  secondDerivative l := optSum (v.secondTerm eps l)

end InvariantBased

/-! ### Interface -/

namespace DevFun

variable (f : DevFun)

/-- deviatoric/interface.hh:88-92. -/
def stresses (l : Fin 3 → ℝ) : Option (Fin 3 → ℝ) := do
  let dWdLambda ← f.firstDerivative l
  return fun a => dWdLambda a / l a

open Classical in
/-- deviatoric/interface.hh:102-125; `L(i, k, i, k)` is zero before line 121. -/
def tangentModuli (eps : ℝ) (l : Fin 3 → ℝ) : Option (Tensor4 ℝ 3) := do
  let S ← f.stresses l
  let dS ← f.secondDerivative l
  let diag : Fin 3 → Fin 3 → ℝ := fun i k => 1 / (l i * l k) * dS i k
  return fun i j k m =>
    if i = j ∧ k = m then diag i k
    else if i = k ∧ j = m then
      if floatCmpEq eps (l i) (l j) then 1 / 2 * (diag i i - diag i j)
      else 0 + (S i - S j) / (l i ^ 2 - l j ^ 2)
    else 0

end DevFun

end

end Ikarus
