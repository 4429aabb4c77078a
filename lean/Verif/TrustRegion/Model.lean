import Verif.TrustRegion.TCGModel
import Verif.Solver.NewtonModel

/-!
Model of the trust region solver (ikarus/solver/nonlinearsolver/trustregion.hh) over the real
numbers.

Energies are `none` if they are not a number or `+∞`; corrections and gradients are finite. The inner
solver is an arbitrary function with a state of its own (`S`).
-/

namespace Ikarus

noncomputable section

/-- ikarus/solver/nonlinearsolver/trustregion.hh:43-57; `maxtime` and `DeltaBar` are `none` for
infinity. -/
structure TRSettings where
  maxtime : Option ℝ := none
  minIter : Int := 3
  maxIter : Int := 1000
  grad_tol : ℝ := 1 / 10 ^ 6
  corr_tol : ℝ := 1 / 10 ^ 6
  rho_prime : ℝ := 1 / 100
  useRand : Bool := false
  rho_reg : ℝ := 10 ^ 6
  DeltaBar : Option ℝ := none
  Delta0 : ℝ := 10

/-- ikarus/solver/nonlinearsolver/trustregion.hh:563. -/
def trEps : ℝ := 1 / 8192

/-- ikarus/solver/nonlinearsolver/trustregion.hh:125-132. -/
inductive StopReason
  | gradientNormTolReached
  | correctionNormTolReached
  | maximumTimeReached
  | maximumIterationsReached
  | dontStop
  deriving DecidableEq, Repr

variable {X V S : Type} [NormedAddCommGroup V] [InnerProductSpace ℝ V]

/-- The function to be minimised, the update function and the inner solver. -/
structure TRProblem (X V S : Type) where
  energy : X → Option ℝ
  grad : X → V
  hess : X → V → V
  update : X → V → X
  /-- `truncatedConjugateGradient_.solveWithGuess(-g, eta_)` with the current radius (lines 529-550):
  correction, reason for stopping and number of iterations. Exceptions are left out. -/
  inner : S → ℝ → V → (V → V) → V → S × V × TCGStopReason × Nat
  /-- The random vector of lines 266-268 after scaling. -/
  rand : S → ℝ → (V → V) → V

/-- `x`, `e`, `g`, `h`, `eta_`, the statistics (lines 158-168), algorithmic information (lines
138-152), radius and state of the inner solver, solver information and messages. -/
structure TRState (X V S : Type) where
  x : X
  g : V
  h : V → V
  eta : V
  gradNorm : ℝ
  etaNorm : ℝ
  energy : Option ℝ
  energyProposal : Option ℝ
  outerIter : Nat
  innerIterSum : Nat
  consecutiveTRplus : Int
  consecutiveTRminus : Int
  consecutiveRejected : Nat
  acceptProposal : Bool
  Delta : ℝ
  stopTCG : TCGStopReason
  stop : StopReason
  inner : S
  info : SolverInfo ℝ
  trace : List SolverMessage

/-- `Dune::FloatCmp::ge(first, second)` with the default relative comparison
(dune-common floatcmp.hh): greater, or equal up to the relative tolerance `tol`. -/
def floatGe (tol a b : ℝ) : Bool := a > b || |a - b| ≤ tol * max |a| |b|

/-- ikarus/solver/nonlinearsolver/trustregion.hh:324-326. -/
def rhoReg (set : TRSettings) (energy : ℝ) : ℝ := max 1 |energy| * trEps * set.rho_reg

/-- ikarus/solver/nonlinearsolver/trustregion.hh:318-334: the regularised denominator and the ratio;
the ratio is `none` if it is not finite. -/
def trRho (set : TRSettings) (energy energyProposal : Option ℝ) (rhoden : ℝ) :
    Option ℝ × Option ℝ :=
  match energy with
  | none => (some (rhoden + 1 * trEps * set.rho_reg), none)
  | some e =>
    let rhoden := rhoden + rhoReg set e
    match energyProposal with
    | none => (some rhoden, none)
    | some e' =>
      let rhonum := e - e' + rhoReg set e
      if rhoden = 0 then (some rhoden, none)
      else
        let rho := rhonum / rhoden
        (some rhoden, some (if rho < 0 then -1 else rho))

/-- `std::min(a, DeltaBar)`. -/
def capDelta (DeltaBar : Option ℝ) (a : ℝ) : ℝ :=
  match DeltaBar with
  | none => a
  | some b => min a b

/-- What an iteration decides, lines 318-389, from the state of the statistics. `rhoden` is
`-eta·(g + Heta/2)`. -/
structure TRDecision where
  accept : Bool
  Delta : ℝ
  consecutiveTRplus : Int
  consecutiveTRminus : Int
  consecutiveRejected : Nat

/-- ikarus/solver/nonlinearsolver/trustregion.hh:328. -/
def trModelDecreased (rhoden : Option ℝ) : Bool :=
  match rhoden with
  | some d => d > 0
  | none => false

/-- ikarus/solver/nonlinearsolver/trustregion.hh:339; `cmpTol` is the tolerance of the comparison. -/
def trEnergyDecreased (cmpTol : ℝ) (energy energyProposal : Option ℝ) : Bool :=
  match energy, energyProposal with
  | some e, some e' => floatGe cmpTol (e - e') (-(1 / 10 ^ 12))
  | _, _ => false

/-- `rho > c`, false for a ratio that is not a number. -/
def rhoGt (rho : Option ℝ) (c : ℝ) : Bool :=
  match rho with
  | some r => r > c
  | none => false

/-- `rho < c || std::isnan(rho)`. -/
def rhoLtOrNan (rho : Option ℝ) (c : ℝ) : Bool :=
  match rho with
  | some r => r < c
  | none => true

/-- ikarus/solver/nonlinearsolver/trustregion.hh:342-368. Resetting a counter to minus the infinity
of `int` sets it to zero. Simplification: the verbosity that guards the resets of the counters (lines
347 and 359) is taken to be at least one. -/
def trRadius (DeltaBar : Option ℝ) (shrink grow : Bool) (d : TRDecision) : TRDecision :=
  if shrink then
    let d : TRDecision := { d with
      Delta := d.Delta / 4
      consecutiveTRplus := 0
      consecutiveTRminus := d.consecutiveTRminus + 1 }
    if d.consecutiveTRminus ≥ 5 then { d with consecutiveTRminus := 0 } else d
  else if grow then
    let d : TRDecision := { d with
      Delta := capDelta DeltaBar (7 / 2 * d.Delta)
      consecutiveTRminus := 0
      consecutiveTRplus := d.consecutiveTRplus + 1 }
    if d.consecutiveTRplus ≥ 5 then { d with consecutiveTRplus := 0 }
    else { d with consecutiveTRplus := 0, consecutiveTRminus := 0 }
  else d

/-- ikarus/solver/nonlinearsolver/trustregion.hh:370-389. -/
def trAccept (accept : Bool) (etaNorm : ℝ) (d : TRDecision) : TRDecision :=
  if accept then { d with accept := true, consecutiveRejected := 0 }
  else
    let d : TRDecision := { d with
      accept := false
      Delta := if d.consecutiveRejected ≥ 5 then d.Delta / 2 else min d.Delta (etaNorm / 2) }
    { d with consecutiveRejected := d.consecutiveRejected + 1 }

/-- ikarus/solver/nonlinearsolver/trustregion.hh:318-389. -/
def trDecide (set : TRSettings) (cmpTol : ℝ) (energy energyProposal : Option ℝ) (rhoden etaNorm : ℝ)
    (stopTCG : TCGStopReason) (Delta : ℝ) (plus minus : Int) (rejected : Nat) : TRDecision :=
  let r := trRho set energy energyProposal rhoden
  let modelDecreased := trModelDecreased r.1
  let energyDecreased := trEnergyDecreased cmpTol energy energyProposal
  let d := trRadius set.DeltaBar
    (rhoLtOrNan r.2 (1 / 10 ^ 4) || !modelDecreased || !energyDecreased)
    (rhoGt r.2 (99 / 100) && (stopTCG == .negativeCurvature || stopTCG == .exceededTrustRegion))
    ⟨false, Delta, plus, minus, rejected⟩
  trAccept (modelDecreased && rhoGt r.2 set.rho_prime && energyDecreased) etaNorm d

/-- ikarus/solver/nonlinearsolver/trustregion.hh:283-304: the correction after the comparison with
the Cauchy point. For a zero gradient the Cauchy point is not a number and not used. -/
def trCauchy (energy : Option ℝ) (g : V) (h : V → V) (gradNorm Delta : ℝ) (eta : V) : V :=
  let Hg := h g
  let g_Hg := inner ℝ g Hg
  let tauC := if g_Hg ≤ 0 then 1 else min (gradNorm ^ 3 / (Delta * g_Hg)) 1
  let etaC := (-tauC * Delta / gradNorm) • g
  let HetaC := (-tauC * Delta / gradNorm) • Hg
  match energy with
  | none => eta
  | some e =>
    let mdle := e + inner ℝ g eta + 1 / 2 * inner ℝ (h eta) eta
    let mdlec := e + inner ℝ g etaC + 1 / 2 * inner ℝ HetaC etaC
    if gradNorm ≠ 0 ∧ mdlec < mdle then etaC else eta

/-- ikarus/solver/nonlinearsolver/trustregion.hh:510 `stats_.time >= settings_.maxtime`; the time is
never written and stays zero. -/
def timeReached (set : TRSettings) : Bool :=
  match set.maxtime with
  | some t => decide (0 ≥ t)
  | none => false

/-- ikarus/solver/nonlinearsolver/trustregion.hh:487-527: whether to stop, and the reason recorded. -/
def stoppingCriterion (set : TRSettings) (s : TRState X V S) : Option StopReason :=
  if s.gradNorm < set.grad_tol ∧ s.outerIter ≠ 0 then some .gradientNormTolReached
  else if s.etaNorm < set.corr_tol ∧ s.outerIter ≠ 0 then some .correctionNormTolReached
  else if timeReached set then
    some .maximumTimeReached
  else if (s.outerIter : Int) ≥ set.maxIter then some .maximumIterationsReached
  else none

/-- The correction of an iteration, lines 264-306. -/
def trCorrection (P : TRProblem X V S) (set : TRSettings) (s : TRState X V S) :
    S × V × TCGStopReason × Nat :=
  let eta0 := if set.useRand ∧ s.outerIter = 0 then P.rand s.inner s.Delta s.h else 0
  let r := P.inner s.inner s.Delta s.g s.h eta0
  let eta := if set.useRand ∧ s.outerIter = 0 then
    trCauchy s.energy s.g s.h s.gradNorm s.Delta r.2.1 else r.2.1
  (r.1, eta, r.2.2.1, r.2.2.2)

/-- The part of an iteration that changes the state, lines 264-316 and 370-415 for the correction `c`
and the decision `d`. -/
def trApply (P : TRProblem X V S) (s : TRState X V S) (c : S × V × TCGStopReason × Nat)
    (d : TRDecision) : TRState X V S :=
  let eta := c.2.1
  let s : TRState X V S := { s with
    trace := s.trace ++ [.iterationStarted]
    inner := c.1, eta := eta, stopTCG := c.2.2.1,
    innerIterSum := s.innerIterSum + c.2.2.2 }
  let s : TRState X V S := { s with etaNorm := ‖eta‖, x := P.update s.x eta }
  let s : TRState X V S := { s with energyProposal := P.energy s.x }
  let s : TRState X V S := { s with
    Delta := d.Delta, consecutiveTRplus := d.consecutiveTRplus,
    consecutiveTRminus := d.consecutiveTRminus, consecutiveRejected := d.consecutiveRejected,
    acceptProposal := d.accept, outerIter := s.outerIter + 1 }
  let s : TRState X V S := { s with info := { s.info with
    correctionNorm := some s.etaNorm,
    residualNorm := some s.gradNorm } }
  let s : TRState X V S := { s with trace := s.trace ++ [.correctionUpdated] }
  let s : TRState X V S :=
    if s.acceptProposal then
      { s with
        energy := s.energyProposal,
        trace := s.trace ++ [.correctionnormUpdated, .residualnormUpdated, .solutionChanged] }
    else { s with x := P.update s.x (-eta), eta := 0 }
  let s : TRState X V S := { s with g := P.grad s.x, h := P.hess s.x, gradNorm := ‖P.grad s.x‖ }
  { s with trace := s.trace ++ [.iterationEnded] }

/-- ikarus/solver/nonlinearsolver/trustregion.hh:263-416, the loop body. -/
def trBody (P : TRProblem X V S) (set : TRSettings) (cmpTol : ℝ) (s : TRState X V S) :
    TRState X V S :=
  let c := trCorrection P set s
  let eta := c.2.1
  let rhoden := -inner ℝ eta (s.g + (1 / 2 : ℝ) • s.h eta)
  let d := trDecide set cmpTol s.energy (P.energy (P.update s.x eta)) rhoden ‖eta‖ c.2.2.1 s.Delta
    s.consecutiveTRplus s.consecutiveTRminus s.consecutiveRejected
  trApply P s c d

/-- ikarus/solver/nonlinearsolver/trustregion.hh:262-416 with at most `fuel` iterations. -/
def trLoop (P : TRProblem X V S) (set : TRSettings) (cmpTol : ℝ) :
    Nat → TRState X V S → Option (TRState X V S)
  | 0, s =>
    match stoppingCriterion set s with
    | some r => some { s with stop := r }
    | none => none
  | fuel + 1, s =>
    match stoppingCriterion set s with
    | some r => some { s with stop := r }
    | none => trLoop P set cmpTol fuel (trBody P set cmpTol s)

/-- ikarus/solver/nonlinearsolver/trustregion.hh:236-257, before the loop. `acceptProposal` is not
initialised by the code; it is not read before it is written. -/
def trStart (P : TRProblem X V S) (set : TRSettings) (w : S) (stopTCG : TCGStopReason) (x : X)
    (eta : V) : TRState X V S :=
  { x := x, g := P.grad x, h := P.hess x, eta := eta, gradNorm := ‖P.grad x‖, etaNorm := 1,
    energy := P.energy x, energyProposal := some 0, outerIter := 0, innerIterSum := 0,
    consecutiveTRplus := 0, consecutiveTRminus := 0, consecutiveRejected := 0,
    acceptProposal := false, Delta := set.Delta0, stopTCG := stopTCG, stop := .dontStop, inner := w,
    info := SolverInfo.default, trace := [.init] }

/-- ikarus/solver/nonlinearsolver/trustregion.hh:420-427, after the loop. -/
def trFinish (s : TRState X V S) : TRState X V S :=
  let success := s.stop == .correctionNormTolReached || s.stop == .gradientNormTolReached
  let s : TRState X V S := { s with info := { s.info with
    success := success, iterations := s.outerIter,
    residualNorm := some s.gradNorm } }
  if success then { s with trace := s.trace ++ [.finishedSucessfully] } else s

/-- ikarus/solver/nonlinearsolver/trustregion.hh:233-428. -/
def trSolve (P : TRProblem X V S) (set : TRSettings) (cmpTol : ℝ) (fuel : Nat) (w : S)
    (stopTCG : TCGStopReason) (x : X) (eta : V) : Option (TRState X V S) :=
  (trLoop P set cmpTol fuel (trStart P set w stopTCG x eta)).map trFinish

/-- ikarus/solver/nonlinearsolver/trustregion.hh:530-547: factorisation of the preconditioner with
growing shift, `ok n` tells whether the factorisation after `n` changes of the shift succeeds; `none`
stands for the exception. The result is the number of changes. -/
def factorizeRetries (ok : Nat → Bool) : Nat → Nat → Nat → Option Nat
  | 0, _, _ => none
  | fuel + 1, attempts, n =>
    if ok n then some n
    else if attempts > 5 then none
    else factorizeRetries ok fuel (attempts + 1) (n + 1)

end

end Ikarus
