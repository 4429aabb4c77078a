import Verif.Material.FactoryModel
import Verif.Material.HyperelasticDerivProps
import Verif.Material.NeoHookeProps
import Verif.Material.SVKProps

/-!
C106: near the undeformed state every material is linear elastic, with the moduli its parameters stand for.
-/

namespace Ikarus

open Matrix Spec Hyperelastic MaterialFactory

/-! ### Specification -/

/-- The tensor of Hooke's law with the constants of Lamé. -/
def Spec.hooke (lambda mu : ℝ) : Tensor4 ℝ 3 := fun i j k l =>
  lambda * ((if i = j then 1 else 0) * (if k = l then 1 else 0)) +
    mu * ((if i = k then 1 else 0) * (if j = l then 1 else 0) + (if i = l then 1 else 0) * (if j = k then 1 else 0))

/-- A material given by its stresses and moduli as functions of the right Cauchy-Green tensor is, for small strains, linear elastic
with the constants of Lamé: no stress in the undeformed state, there the moduli of Hooke's law, and along every straight line
of Green-Lagrange strains `t E` the stresses have the derivative of Hooke's law. -/
structure Spec.LinearElasticAt (stresses : M3 → Option M3) (moduli : M3 → Option (Tensor4 ℝ 3)) (lambda mu : ℝ) : Prop where
  stressFree : stresses 1 = some 0
  moduli : moduli 1 = some (Spec.hooke lambda mu)
  small : ∀ E : M3, E.IsSymm → ∃ S : ℝ → M3, (∀ᶠ t in nhds 0, stresses (1 + (2 * t) • E) = some (S t)) ∧
    HasMatDeriv S ((lambda * E.trace) • (1 : M3) + (2 * mu) • E) 0

/-! ### Hyperelastic materials -/

theorem contract_hooke (lambda mu : ℝ) {E : M3} (hE : E.IsSymm) :
    contract (hooke lambda mu) E = (lambda * E.trace) • (1 : M3) + (2 * mu) • E := by
  ext i j
  have hs : ∀ a b, E a b = E b a := fun a b => (congrFun (congrFun hE a) b).symm
  fin_cases i <;> fin_cases j <;>
    simp [contract, hooke, Fin.sum_univ_three, trace_fin_three] <;>
    linarith [hs 0 1, hs 0 2, hs 1 2, congrArg (mu * ·) (hs 0 1), congrArg (mu * ·) (hs 0 2), congrArg (mu * ·) (hs 1 2)]

theorem one_stretches : HasStretches (1 : M3) (fun _ => 1) 1 := by
  refine ⟨fun _ => one_pos, by simp, ?_⟩
  simp

/-- Stresses and moduli of a hyperelastic material in the undeformed state. -/
theorem hyperelastic_at_one (h : Hyperelastic) (hf : IsotropicFun h.dev) {solver : EigenSolver} (hs : CorrectSolver solver)
    {eps epsEq : ℝ} (he : eps < 1) (heq : 0 ≤ epsEq) {p q : ℝ} {H : M3} (h0 : h.dev.stresses (fun _ => 1) = some 0)
    (hH : h.dev.secondDerivative (fun _ => 1) = some H) (hpq : ∀ a b, H a b = if a = b then p else q)
    (hv : h.vol.firstDerivative 1 = 0) :
    h.stresses solver eps 1 = some 0 ∧
    h.tangentModuli solver eps epsEq 1 = some (hooke (q + h.vol.secondDerivative 1) ((p - q) / 2)) := by
  obtain ⟨-, h2, h3⟩ := hyperelastic_any_basis h hf hs he heq one_stretches
  have e1 : floatCmpEq epsEq 1 1 := by simp [floatCmpEq, heq]
  refine ⟨?_, ?_⟩
  · rw [h2, h0]
    simp [hv]
  · have hL : h.dev.tangentModuli epsEq (fun _ => 1) = some (fun i j k m =>
        if i = j ∧ k = m then H i k else if i = k ∧ j = m then 1 / 2 * (H i i - H i j) else 0) := by
      simp only [DevFun.tangentModuli, h0, hH, Option.bind_eq_bind, Option.bind_some, pure, if_pos e1, mul_one, div_one, one_mul]
    rw [h3, hL, Option.map_some]
    congr 1
    funext a b c d
    simp only [mul_one, hv, transformDeviatoricTangentModuli, volModuli, Pi.add_apply, Fin.sum_univ_three, hpq, dyadic, colDyad,
      Matrix.add_apply, hooke, inv_one, Matrix.one_apply]
    fin_cases a <;> fin_cases b <;> fin_cases c <;> fin_cases d <;> simp <;> ring_nf

theorem line_path {E : M3} {e : Fin 3 → ℝ} {N : M3} (h : IsSpectral E e N) :
    StretchPath (fun t => 1 + (2 * t) • E) ((2 : ℝ) • E) (fun t a => √(1 + 2 * t * e a)) e (fun _ => N) 0 0 := by
  refine ⟨?_, ?_, ?_, ?_⟩
  · have h1 : ∀ a, ∀ᶠ t : ℝ in nhds 0, 0 < 1 + 2 * t * e a := by
      intro a
      have hc : ContinuousAt (fun t : ℝ => 1 + 2 * t * e a) 0 := by fun_prop
      exact hc.eventually (lt_mem_nhds (by norm_num))
    filter_upwards [h1 0, h1 1, h1 2] with t t0 t1 t2
    have ht : ∀ a, 0 < 1 + 2 * t * e a := by
      intro a
      fin_cases a
      exacts [t0, t1, t2]
    refine ⟨fun a => Real.sqrt_pos.2 (ht a), h.orth, ?_⟩
    have hd : diagonal (fun a => √(1 + 2 * t * e a) ^ 2) = 1 + (2 * t) • diagonal e := by
      ext a b
      by_cases hab : a = b
      · subst hab
        simp [Real.sq_sqrt (ht a).le]
      · simp [hab]
    rw [hd, Matrix.mul_add, Matrix.mul_one, Matrix.add_mul, h.orth', Matrix.mul_smul, Matrix.smul_mul, ← h.decomp]
  · intro i j
    have h1 : HasDerivAt (fun s : ℝ => (1 : M3) i j + 2 * s * E i j) (2 * E i j) 0 := by
      have := (((hasDerivAt_id (0 : ℝ)).const_mul 2).mul_const (E i j)).const_add ((1 : M3) i j)
      simpa using this
    simpa using h1
  · intro a
    have h1 : HasDerivAt (fun s : ℝ => 1 + 2 * s * e a) (2 * e a) 0 := by
      have := (((hasDerivAt_id (0 : ℝ)).const_mul 2).mul_const (e a)).const_add 1
      simpa using this
    have := h1.sqrt (by norm_num)
    refine this.congr_deriv ?_
    simp
  · intro i j
    exact hasDerivAt_const _ _

/-- A hyperelastic material whose function of the stretches has no stress and the second derivatives `p` on the diagonal and `q`
beside it in the undeformed state. -/
theorem hyperelastic_linear (h : Hyperelastic) (hf : IsotropicFun h.dev) (hv : AdmissibleVF h.vol.vf) {solver : EigenSolver}
    (hs : CorrectSolver solver) {eps epsEq : ℝ} (he : eps < 1) (heq : 0 ≤ epsEq) {p q : ℝ}
    (hd : IsHessian h.dev fun _ => 1) (h0 : h.dev.stresses (fun _ => 1) = some 0)
    (hH : ∃ H : M3, h.dev.secondDerivative (fun _ => 1) = some H ∧ ∀ a b, H a b = if a = b then p else q)
    (hv0 : h.vol.firstDerivative 1 = 0) {lambda mu : ℝ} (hl : q + h.vol.secondDerivative 1 = lambda) (hm : (p - q) / 2 = mu) :
    LinearElasticAt (h.stresses solver eps) (h.tangentModuli solver eps epsEq) lambda mu := by
  obtain ⟨H, hH, hpq⟩ := hH
  obtain ⟨h1, h2⟩ := hyperelastic_at_one h hf hs he heq h0 hH hpq hv0
  rw [hl, hm] at h2
  refine ⟨h1, h2, fun E hE => ?_⟩
  obtain ⟨e, N, -, hN⟩ := hs E hE
  have hone : (fun a : Fin 3 => √(1 + 2 * 0 * e a)) = fun _ => 1 := by
    funext a
    simp
  obtain ⟨S, hS, M, hM, hder⟩ := hyperelastic_moduli_is_derivative h hf hv hs he heq (line_path hN) (by rw [hone]; exact hd)
    (fun i j => .inl (by rw [congrFun hone i, congrFun hone j]))
  refine ⟨S, hS, ?_⟩
  have hC : (1 + (2 * 0 : ℝ) • E : M3) = 1 := by simp
  rw [hC, h2] at hM
  obtain rfl := Option.some.inj hM
  rw [smul_smul, show (1 / 2 * 2 : ℝ) = 1 by norm_num, one_smul, contract_hooke _ _ hE] at hder
  exact hder

/-! ### The functions of the library -/

/-- The factor of the bulk modulus in the second derivative of a volumetric function in the undeformed state. -/
noncomputable def Spec.bulkFactor : VF → ℝ
  | .f0 => 0
  | .f7 b => b ^ 2
  | _ => 1

theorem volumetric_at_one {K : ℝ} {vf : VF} (hv : AdmissibleVF vf) (h12 : vf ≠ .f12) :
    (Volumetric.mk K vf).firstDerivative 1 = 0 ∧ (Volumetric.mk K vf).secondDerivative 1 = K * bulkFactor vf := by
  obtain ⟨-, h1, -, h7, h2⟩ := volumetric_normalised_partial vf hv
  refine ⟨by simp [Volumetric.firstDerivative, h1 h12], ?_⟩
  simp only [Volumetric.secondDerivative]
  congr 1
  cases vf with
  | f0 => rfl
  | f7 b => exact h7 b rfl
  | f12 => exact absurd rfl h12
  | _ => exact h2 (by simp) (by simp) (by simp)

open DeviatoricInvariants in
theorem invariants_at_one : W1 (fun _ => 1) = 3 ∧ W2 (fun _ => 1) = 3 ∧ dW1 (fun _ => 1) = 0 ∧ dW2 (fun _ => 1) = 0 ∧
    (∀ a b, ddW1 (fun _ => 1) a b = if a = b then 8 / 3 else -4 / 3) ∧
    ∀ a b, ddW2 (fun _ => 1) a b = if a = b then 8 / 3 else -4 / 3 := by
  have h0 : invariants (fun _ => 1) 0 = 3 := by norm_num [invariants]
  have h1 : invariants (fun _ => 1) 1 = 3 := by norm_num [invariants]
  have h2 : invariants (fun _ => 1) 2 = 1 := by simp [invariants, determinantFromPrincipalValues]
  refine ⟨?_, ?_, ?_, ?_, fun a b => ?_, fun a b => ?_⟩
  · rw [W1, h0, h2]; norm_num
  · rw [W2, h1, h2]; norm_num
  · funext a; rw [dW1, h0, h2]; norm_num
  · funext a; rw [dW2, h1, h2]; norm_num
  · rw [ddW1, h0, h2]; split <;> norm_num
  · rw [ddW2, h1, h2]; split <;> norm_num

variable {solver : EigenSolver} {eps epsEq : ℝ} {K : ℝ} {vf : VF}

/-- C106. A Blatz-Ko material has the shear modulus it is given, and a Poisson's ratio of one quarter: both constants of Lamé are
the parameter. -/
theorem blatzKo_linear (hs : CorrectSolver solver) (he : eps < 1) (heq : 0 ≤ epsEq) (mu : ℝ) :
    LinearElasticAt ((makeBlatzKo mu).stresses solver eps) ((makeBlatzKo mu).tangentModuli solver eps epsEq) mu mu := by
  obtain ⟨-, h1, -, h2⟩ := blatzKo_derivatives mu (fun _ => 1) fun _ => one_pos
  refine hyperelastic_linear (p := 3 * mu) (q := mu) (makeBlatzKo mu) (library_isotropic.2.1 mu) trivial hs he heq h1 h2
    ⟨_, rfl, fun a b => ?_⟩ ?_ ?_ ?_
  · simp only [BlatzKo.secondDerivative, determinantFromPrincipalValues]
    split <;> norm_num
  · simp [makeBlatzKo, Volumetric.firstDerivative]
  · simp [makeBlatzKo, Volumetric.secondDerivative]
  · ring

/-- C106. An Ogden material of deviatoric stretches with at most three terms has the shear modulus `∑ mu_i alpha_i / 2` and the
bulk modulus it is given. -/
theorem ogdenDev_linear (hs : CorrectSolver solver) (he : eps < 1) (heq : 0 ≤ epsEq) (hv : AdmissibleVF vf) (h12 : vf ≠ .f12)
    {n : Nat} (hn : n ≤ 3) (mu alpha : Fin n → ℝ) (ha : ∀ i, alpha i ≠ 0) :
    LinearElasticAt ((makeOgdenDev mu alpha K vf).stresses solver eps) ((makeOgdenDev mu alpha K vf).tangentModuli solver eps epsEq)
      (K * bulkFactor vf - 2 / 3 * ((∑ i, mu i * alpha i) / 2)) ((∑ i, mu i * alpha i) / 2) := by
  obtain ⟨v1, v2⟩ := volumetric_at_one (K := K) hv h12
  obtain ⟨-, h1, -, h2⟩ := ogden_dev_derivatives_partial hn ⟨mu, alpha⟩ ha (fun _ => 1) fun _ => one_pos
  have hl : deviatoricStretches (fun _ => 1) = fun _ => 1 := by
    funext a
    simp [deviatoricStretches, determinantFromPrincipalValues]
  have hg : (Ogden.mk mu alpha).firstDerivativeDev (fun _ => 1) = 0 := by
    have := h2
    simp only [DevFun.stresses, Ogden.dev, Option.bind_eq_bind, Option.bind_some, pure, Option.some.injEq, div_one] at this
    exact this
  refine hyperelastic_linear (p := 2 / 3 * ∑ i, mu i * alpha i) (q := -(1 / 3) * ∑ i, mu i * alpha i) (makeOgdenDev mu alpha K vf)
    (library_isotropic.2.2.1 n ⟨mu, alpha⟩).1 hv hs he heq h1 h2 ⟨_, if_pos hn, fun a b => ?_⟩ v1 ?_ ?_
  · simp only [hl, hg, Real.one_rpow]
    by_cases hab : a = b
    · rw [if_pos hab, if_pos hab]
      simp only [Finset.sum_const, Finset.card_univ, Fintype.card_fin, Pi.zero_apply, mul_zero, sub_zero, mul_one, div_one,
        ← Finset.sum_mul]
      norm_num
      ring
    · rw [if_neg hab, if_neg hab]
      simp only [Finset.sum_const, Finset.card_univ, Fintype.card_fin, mul_one, div_one, ← Finset.sum_mul]
      norm_num
      ring
  · rw [show (makeOgdenDev mu alpha K vf).vol.secondDerivative 1 = _ from v2]
    ring
  · ring

/-- C106. An Ogden material of total stretches has the shear modulus `∑ mu_i alpha_i / 2`; the parameter of the volumetric
function is Lamé's first constant. -/
theorem ogdenTotal_linear (hs : CorrectSolver solver) (he : eps < 1) (heq : 0 ≤ epsEq) (hv : AdmissibleVF vf) (h12 : vf ≠ .f12)
    {n : Nat} (mu alpha : Fin n → ℝ) (ha : ∀ i, alpha i ≠ 0) :
    LinearElasticAt ((makeOgdenTotal mu alpha K vf).stresses solver eps)
      ((makeOgdenTotal mu alpha K vf).tangentModuli solver eps epsEq) (K * bulkFactor vf) ((∑ i, mu i * alpha i) / 2) := by
  obtain ⟨v1, v2⟩ := volumetric_at_one (K := K) hv h12
  obtain ⟨-, h1, -, h2⟩ := ogden_total_derivatives ⟨mu, alpha⟩ ha (fun _ => 1) fun _ => one_pos
  refine hyperelastic_linear (p := ∑ i, mu i * alpha i) (q := 0) (makeOgdenTotal mu alpha K vf)
    (library_isotropic.2.2.1 n ⟨mu, alpha⟩).2 hv hs he heq h1 h2 ⟨_, rfl, fun a b => ?_⟩ v1 ?_ ?_
  · simp only [Ogden.secondDerivativeTotal, Real.one_rpow]
    simp
  · rw [show (makeOgdenTotal mu alpha K vf).vol.secondDerivative 1 = _ from v2]
    ring
  · ring

/-- C106. A Gent material has the shear modulus and the bulk modulus it is given. -/
theorem gent_linear (hs : CorrectSolver solver) (he : eps < 1) (heq : 0 ≤ epsEq) (hv : AdmissibleVF vf) (h12 : vf ≠ .f12)
    {epsJm : ℝ} (hj : 0 ≤ epsJm) (hj1 : epsJm < 1) (g : Gent) (hJm : 0 < g.Jm) :
    LinearElasticAt ((makeGent epsJm g K vf).stresses solver eps) ((makeGent epsJm g K vf).tangentModuli solver eps epsEq)
      (K * bulkFactor vf - 2 / 3 * g.mu) g.mu := by
  obtain ⟨v1, v2⟩ := volumetric_at_one (K := K) hv h12
  obtain ⟨-, -, h1, -, h2⟩ := gent_derivatives g epsJm hj hJm (fun _ => 1) fun _ => one_pos
  obtain ⟨h3, h4⟩ := h2 hj1
  obtain ⟨-, -, h5⟩ := h1 (by rw [h3]; rfl)
  obtain ⟨i1, -, i3, -, i5, -⟩ := invariants_at_one
  have hc : g.checkJm epsJm 3 = some () := by
    have := h3
    simp only [Gent.dev, i1] at this
    cases hc : g.checkJm epsJm 3 with
    | none => rw [hc] at this; cases this
    | some u => rfl
  refine hyperelastic_linear (p := 4 / 3 * g.mu) (q := -(2 / 3) * g.mu) (makeGent epsJm g K vf) (library_isotropic.2.2.2.1 g epsJm) hv hs he
    heq h5 h4 ⟨fun i j => g.mu / 2 * if i = j then 8 / 3 else -4 / 3, ?_, fun a b => ?_⟩ v1 ?_ ?_
  · show (Gent.dev g epsJm).secondDerivative _ = _
    simp only [Gent.dev, i1, hc, Option.bind_eq_bind, Option.bind_some, pure, i3, i5]
    simp
    rfl
  · show g.mu / 2 * (if a = b then 8 / 3 else -4 / 3) = _
    by_cases hab : a = b
    · rw [if_pos hab, if_pos hab]
      ring
    · rw [if_neg hab, if_neg hab]
      ring
  · rw [show (makeGent epsJm g K vf).vol.secondDerivative 1 = _ from v2]
    ring
  · ring

/-- C106. An Arruda-Boyce material has the bulk modulus it is given and the shear modulus of the series of the inverse Langevin
function up to the fifth term, which exceeds the parameter `mu`. -/
theorem arrudaBoyce_linear (hs : CorrectSolver solver) (he : eps < 1) (heq : 0 ≤ epsEq) (hv : AdmissibleVF vf) (h12 : vf ≠ .f12)
    (b : ArrudaBoyce) {mu : ℝ} (hmu : mu = b.mu * (1 + 3 / 5 * (1 / b.lambdaM ^ 2) + 99 / 175 * (1 / b.lambdaM ^ 4) +
      513 / 875 * (1 / b.lambdaM ^ 6) + 42039 / 67375 * (1 / b.lambdaM ^ 8))) :
    LinearElasticAt ((makeArrudaBoyce b K vf).stresses solver eps) ((makeArrudaBoyce b K vf).tangentModuli solver eps epsEq)
      (K * bulkFactor vf - 2 / 3 * mu) mu := by
  obtain ⟨v1, v2⟩ := volumetric_at_one (K := K) hv h12
  obtain ⟨-, h1, -, h2⟩ := arrudaBoyce_derivatives b (fun _ => 1) fun _ => one_pos
  obtain ⟨i1, -, i3, -, i5, -⟩ := invariants_at_one
  have hsum : ∀ a c, (∑ p : Fin 5, (b.mu * ArrudaBoyce.alphas p * b.beta ^ (p : ℕ) *
        ((3 : ℝ) ^ (p : ℕ) * (if a = c then 8 / 3 else -4 / 3) * ((p : ℕ) + 1)))) =
      mu / 2 * (if (a : Fin 3) = c then 8 / 3 else -4 / 3) := by
    intro a c
    rw [hmu]
    simp [Fin.sum_univ_succ, ArrudaBoyce.alphas, ArrudaBoyce.beta]
    ring_nf
  refine hyperelastic_linear (p := 4 / 3 * mu) (q := -(2 / 3) * mu) (makeArrudaBoyce b K vf) (library_isotropic.2.2.2.2.1 b) hv hs he
    heq h1 h2 ⟨_, rfl, fun a c => ?_⟩ v1 ?_ ?_
  · simp only [i1, i3, i5, Pi.zero_apply, mul_zero, zero_mul, add_zero, zero_div, ite_self, sub_zero, hsum]
    split <;> ring
  · rw [show (makeArrudaBoyce b K vf).vol.secondDerivative 1 = _ from v2]
    ring
  · ring

theorem powerAndMultiply_zero_first (epsInv : ℝ) (p : ℕ) :
    InvariantBased.powerAndMultiply epsInv 0 ((p : ℤ) - 1) p = some (if p = 1 then 1 else 0) := by
  unfold InvariantBased.powerAndMultiply
  rcases p with _ | _ | p
  · simp
  · simp
  · have h1 : ((p + 1 + 1 : ℕ) : ℤ) ≠ 0 := by positivity
    have h2 : ((p + 1 + 1 : ℕ) : ℤ) - 1 ≠ 0 := by push_cast; omega
    have h3 : ¬ ((p + 1 + 1 : ℕ) : ℤ) - 1 < 0 := by push_cast; omega
    rw [if_neg h1, if_neg h2, if_neg fun h => h3 h.2, if_neg (by omega), _root_.zero_zpow _ h2, zero_mul]

theorem powerAndMultiply_zero_second (epsInv : ℝ) (p : ℕ) :
    ∃ y, InvariantBased.powerAndMultiply epsInv 0 ((p : ℤ) - 2) (p * (p - 1)) = some y := by
  unfold InvariantBased.powerAndMultiply
  by_cases h0 : (p : ℤ) * (p - 1) = 0
  · exact ⟨0, if_pos h0⟩
  rw [if_neg h0]
  by_cases h1 : (p : ℤ) - 2 = 0
  · exact ⟨_, if_pos h1⟩
  rw [if_neg h1, if_neg]
  · exact ⟨_, rfl⟩
  rintro ⟨-, h⟩
  have h2 : p = 0 ∨ p = 1 := by omega
  rcases h2 with rfl | rfl <;> simp at h0

/-- C106. An invariant-based material has the bulk modulus it is given; its shear modulus is twice the sum of the parameters of
the terms that are linear in one of the invariants. -/
theorem invariantBased_linear (hs : CorrectSolver solver) (he : eps < 1) (heq : 0 ≤ epsEq) (hv : AdmissibleVF vf) (h12 : vf ≠ .f12)
    {n : Nat} {epsInv : ℝ} {c : Fin n → ℝ} {pex qex : Fin n → ℕ} {h : Hyperelastic}
    (hh : makeInvariantBased epsInv c pex qex K vf = some h) {mu : ℝ}
    (hmu : mu = 2 * ∑ i, if pex i + qex i = 1 then c i else 0) :
    LinearElasticAt (h.stresses solver eps) (h.tangentModuli solver eps epsEq) (K * bulkFactor vf - 2 / 3 * mu) mu := by
  obtain ⟨v1, v2⟩ := volumetric_at_one (K := K) hv h12
  cases hc : InvariantBased.construct pex qex c with
  | none =>
    rw [makeInvariantBased, hc] at hh
    cases hh
  | some v =>
    rw [makeInvariantBased, hc] at hh
    obtain rfl := Option.some.inj hh
    obtain ⟨-, h1, -, h2⟩ := invariantBased_derivatives pex qex c v hc epsInv (fun _ => 1) fun _ => one_pos
    have hv' : v = ⟨pex, qex, c⟩ := by
      unfold InvariantBased.construct at hc
      split at hc
      · cases hc
      · exact (Option.some.inj hc).symm
    subst hv'
    obtain ⟨i1, i2, i3, i4, i5, i6⟩ := invariants_at_one
    have ht : ∀ p, InvariantBased.secondTerm ⟨pex, qex, c⟩ epsInv (fun _ => 1) p =
        some fun i j => (if pex p + qex p = 1 then c p else 0) * if i = j then 8 / 3 else -4 / 3 := by
      intro p
      obtain ⟨y, hy⟩ := powerAndMultiply_zero_second epsInv (pex p)
      obtain ⟨z, hz⟩ := powerAndMultiply_zero_second epsInv (qex p)
      simp only [InvariantBased.secondTerm, i1, i2, i3, i4, i5, i6, sub_self, powerAndMultiply_zero_first, hy, hz, Option.bind_eq_bind,
        Option.bind_some, pure, Pi.zero_apply, mul_zero, add_zero, zero_add, ite_self, sub_zero]
      refine congrArg some (funext fun i => funext fun j => ?_)
      generalize (if i = j then (8 / 3 : ℝ) else -4 / 3) = X
      rcases hp : pex p with _ | _ | a <;> rcases hq : qex p with _ | _ | b <;> simp <;>
        first | ring1 | exact fun h => absurd h (by omega)
    refine hyperelastic_linear (p := 4 / 3 * mu) (q := -(2 / 3) * mu) _ (library_isotropic.2.2.2.2.2 n _ epsInv) hv hs he heq h1 h2
      ⟨fun i j => mu / 2 * if i = j then 8 / 3 else -4 / 3, ?_, fun a b => ?_⟩ v1 ?_ ?_
    · show InvariantBased.optSum _ = _
      unfold InvariantBased.optSum
      rw [if_pos fun p => by rw [ht]; rfl]
      refine congrArg some (funext fun i => funext fun j => ?_)
      have hget : ∀ x, (InvariantBased.secondTerm ⟨pex, qex, c⟩ epsInv (fun _ => 1) x).getD 0 i j =
          (if pex x + qex x = 1 then c x else 0) * if i = j then 8 / 3 else -4 / 3 := by
        intro x
        rw [ht x]
        rfl
      rw [Matrix.sum_apply, hmu]
      simp only [hget, ← Finset.sum_mul]
      generalize (if i = j then (8 / 3 : ℝ) else -4 / 3) = X
      ring
    · show mu / 2 * (if a = b then 8 / 3 else -4 / 3) = _
      by_cases hab : a = b
      · rw [if_pos hab, if_pos hab]
        ring
      · rw [if_neg hab, if_neg hab]
        ring
    · rw [show Volumetric.secondDerivative _ 1 = _ from v2]
      ring
    · ring

/-- C106. A Mooney-Rivlin material can be created; its shear modulus is twice the sum of its two parameters. -/
theorem mooneyRivlin_linear (hs : CorrectSolver solver) (he : eps < 1) (heq : 0 ≤ epsEq) (hv : AdmissibleVF vf) (h12 : vf ≠ .f12)
    (epsInv : ℝ) (c : Fin 2 → ℝ) : ∃ h, makeMooneyRivlin epsInv c K vf = some h ∧
      LinearElasticAt (h.stresses solver eps) (h.tangentModuli solver eps epsEq)
        (K * bulkFactor vf - 2 / 3 * (2 * (c 0 + c 1))) (2 * (c 0 + c 1)) := by
  have hc : InvariantBased.construct ![1, 0] ![0, 1] c = some ⟨![1, 0], ![0, 1], c⟩ := by
    unfold InvariantBased.construct
    rw [if_neg]
    simp [Fin.exists_fin_two]
  have hh : makeMooneyRivlin epsInv c K vf = some ⟨(InvariantBased.mk ![1, 0] ![0, 1] c).dev epsInv, ⟨K, vf⟩⟩ := by
    rw [makeMooneyRivlin, makeInvariantBased, hc]
    rfl
  exact ⟨_, hh, invariantBased_linear hs he heq hv h12 hh (by simp [Fin.sum_univ_two])⟩

/-- C106. A Yeoh material can be created; its shear modulus is twice its first parameter. -/
theorem yeoh_linear (hs : CorrectSolver solver) (he : eps < 1) (heq : 0 ≤ epsEq) (hv : AdmissibleVF vf) (h12 : vf ≠ .f12)
    (epsInv : ℝ) (c : Fin 3 → ℝ) : ∃ h, makeYeoh epsInv c K vf = some h ∧
      LinearElasticAt (h.stresses solver eps) (h.tangentModuli solver eps epsEq)
        (K * bulkFactor vf - 2 / 3 * (2 * c 0)) (2 * c 0) := by
  have hc : InvariantBased.construct ![1, 2, 3] ![0, 0, 0] c = some ⟨![1, 2, 3], ![0, 0, 0], c⟩ := by
    unfold InvariantBased.construct
    rw [if_neg]
    rintro ⟨i, hi, -⟩
    fin_cases i <;> simp at hi
  have hh : makeYeoh epsInv c K vf = some ⟨(InvariantBased.mk ![1, 2, 3] ![0, 0, 0] c).dev epsInv, ⟨K, vf⟩⟩ := by
    rw [makeYeoh, makeInvariantBased, hc]
    rfl
  exact ⟨_, hh, invariantBased_linear hs he heq hv h12 hh (by simp [Fin.sum_univ_three])⟩

/-- C106. A purely volumetric material has the bulk modulus it is given and no shear modulus. -/
theorem pureVolumetric_linear (hs : CorrectSolver solver) (he : eps < 1) (heq : 0 ≤ epsEq) (hv : AdmissibleVF vf) (h12 : vf ≠ .f12) :
    LinearElasticAt ((makePureVolumetric vf K).stresses solver eps) ((makePureVolumetric vf K).tangentModuli solver eps epsEq)
      (K * bulkFactor vf) 0 := by
  obtain ⟨v1, v2⟩ := volumetric_at_one (K := K) hv h12
  refine hyperelastic_linear (p := 0) (q := 0) (makePureVolumetric vf K) library_isotropic.1 hv hs he heq
    ⟨0, 0, rfl, rfl, fun p dp t _ _ => ⟨fun _ => 0, Filter.Eventually.of_forall fun _ => rfl, fun a => ?_⟩⟩ ?_ ⟨0, rfl, fun a b => ?_⟩ v1 ?_ ?_
  · simpa using hasDerivAt_const t (0 : ℝ)
  · simp [makePureVolumetric, noDev, DevFun.stresses]
    rfl
  · simp
  · rw [show (makePureVolumetric vf K).vol.secondDerivative 1 = _ from v2]
    ring
  · ring

theorem hooke_of_contract {L : Tensor4 ℝ 3} (hL : MinorSymmetric L) {lambda mu : ℝ}
    (h : ∀ X : M3, X.IsSymm → contract L X = (lambda * X.trace) • (1 : M3) + (2 * mu) • X) : L = hooke lambda mu := by
  funext i j k l
  have hX : (Matrix.single k l (1 : ℝ) + Matrix.single l k 1 : M3).IsSymm := by
    rw [Matrix.IsSymm, transpose_add, transpose_single, transpose_single, add_comm]
  have e : ∀ T : Tensor4 ℝ 3, contract T (Matrix.single k l 1 + Matrix.single l k 1) i j = T i j k l + T i j l k := by
    intro T
    simp only [contract, Matrix.add_apply, mul_add, Finset.sum_add_distrib, Matrix.single_apply, mul_ite, mul_one, mul_zero]
    congr 1
    · rw [Finset.sum_eq_single k, Finset.sum_eq_single l] <;> simp +contextual [eq_comm]
    · rw [Finset.sum_eq_single l, Finset.sum_eq_single k] <;> simp +contextual [eq_comm]
  have h1 := e L
  have h2 := e (hooke lambda mu)
  rw [h _ hX, ← contract_hooke _ _ hX] at h1
  have h3 : hooke lambda mu i j l k = hooke lambda mu i j k l := by
    simp only [hooke, eq_comm (a := l) (b := k)]
    ring
  have h4 : L i j l k = L i j k l := (hL i j k l).2.symm
  linarith

/-- C106. A Neo-Hooke material has the constants of Lamé it is given. -/
theorem neoHooke_linear (he : eps < 1) (m : NeoHooke) : LinearElasticAt (m.stresses eps) (m.tangentModuli eps) m.lambda m.mu := by
  obtain ⟨-, h1, L, h2, h3⟩ := neoHooke_undeformed m he
  obtain ⟨L', h4, h5, -⟩ := neoHooke_moduli_symmetric m he 1 (by simp [Matrix.IsSymm]) (by simp)
  obtain rfl := Option.some.inj (h2.symm.trans h4)
  obtain rfl := hooke_of_contract h5 h3
  refine ⟨h1, h2, fun E hE => ?_⟩
  have hC0 : (1 + (2 * 0 : ℝ) • E : M3) = 1 := by simp
  have hder : HasMatDeriv (fun t : ℝ => 1 + (2 * t) • E) ((2 : ℝ) • E) 0 := by
    intro i j
    have h1 : HasDerivAt (fun s : ℝ => (1 : M3) i j + 2 * s * E i j) (2 * E i j) 0 := by
      have := (((hasDerivAt_id (0 : ℝ)).const_mul 2).mul_const (E i j)).const_add ((1 : M3) i j)
      simpa using this
    simpa using h1
  obtain ⟨S, s1, M, s2, s3⟩ := neoHooke_moduli_is_derivative m he _ _ 0 hder (by rw [hC0]; simp [Matrix.IsSymm])
    (by rw [Matrix.IsSymm, transpose_smul, hE]) (by rw [hC0]; simp)
  refine ⟨S, s1, ?_⟩
  rw [hC0, h2] at s2
  obtain rfl := Option.some.inj s2
  rw [smul_smul, show (1 / 2 * 2 : ℝ) = 1 by norm_num, one_smul, contract_hooke _ _ hE] at s3
  exact s3

/-- C106. A St. Venant-Kirchhoff material, evaluated with the Green-Lagrange strains of the right Cauchy-Green tensor, has the
constants of Lamé it is given. -/
theorem svk_linear (m : SVK ℝ) : LinearElasticAt (fun C => some (m.stressMatrixToMatrix ((1 / 2 : ℝ) • (C - 1))))
    (fun _ => some m.moduliTensor) m.lambda m.mu := by
  obtain ⟨-, h1, -, -, h2, -⟩ := svk_moduli two_ne_zero m
  refine ⟨by simp [SVK.stressMatrixToMatrix], congrArg some (hooke_of_contract h1 fun X hX => h2 X hX), fun E hE => ?_⟩
  refine ⟨fun t => t • ((m.lambda * E.trace) • (1 : M3) + (2 * m.mu) • E), Filter.Eventually.of_forall fun t => ?_, fun i j => ?_⟩
  · refine congrArg some ?_
    have : (1 / 2 : ℝ) • (1 + (2 * t) • E - 1 : M3) = t • E := by
      rw [add_sub_cancel_left, smul_smul]
      congr 1
      ring
    rw [this, SVK.stressMatrixToMatrix, trace_smul]
    ext i j
    simp
    ring
  · simpa using (hasDerivAt_id (0 : ℝ)).mul_const (((m.lambda * E.trace) • (1 : M3) + (2 * m.mu) • E) i j)

/-! ### Exceptions and examples -/

/-- The parameter of the volumetric function is the bulk modulus (in the sense of a Gent material). -/
def Spec.BulkModulusGiven (vf : VF) : Prop :=
  ∀ (solver : EigenSolver) (K : ℝ) (g : Gent), CorrectSolver solver → 0 < K → 0 < g.mu → 0 < g.Jm →
    LinearElasticAt ((makeGent 0 g K vf).stresses solver 0) ((makeGent 0 g K vf).tangentModuli solver 0 0) (K - 2 / 3 * g.mu) g.mu

theorem hooke_injective {l l' m m' : ℝ} (h : hooke l m = hooke l' m') : l = l' ∧ m = m' := by
  have h1 := congrFun (congrFun (congrFun (congrFun h 0) 0) 1) 1
  have h2 := congrFun (congrFun (congrFun (congrFun h 0) 1) 0) 1
  simp [hooke] at h1 h2
  exact ⟨h1, h2⟩

/-- C106, the exceptions. The parameter of the volumetric function is the bulk modulus for all functions but `VF0`, which has
none, `VF7` with an exponent other than one in modulus, which has `beta^2` times the parameter, and `VF12`, with which the undeformed state is
not free of stress. -/
theorem bulkModulus_partial (hv : AdmissibleVF vf) : BulkModulusGiven vf ↔
    vf ≠ .f0 ∧ vf ≠ .f12 ∧ ∀ b, vf = .f7 b → b ^ 2 = 1 := by
  obtain ⟨solver, hs⟩ := hyperelastic_hypotheses.1
  constructor
  · intro h
    have h1 := h solver 1 ⟨1, 1⟩ hs one_pos one_pos one_pos
    have h12 : vf ≠ .f12 := by
      rintro rfl
      have h2 := (hyperelastic_any_basis (makeGent 0 ⟨1, 1⟩ 1 .f12) (library_isotropic.2.2.2.1 _ _) hs zero_lt_one (le_refl (0 : ℝ))
        one_stretches).2.1
      have h3 := (gent_derivatives ⟨1, 1⟩ 0 le_rfl one_pos (fun _ => 1) fun _ => one_pos).2.2.2.2 zero_lt_one
      rw [h1.stressFree, show (makeGent 0 ⟨1, 1⟩ 1 .f12).dev.stresses (fun _ => 1) = some 0 from h3.2] at h2
      have h4 := congrFun (congrFun (Option.some.inj h2) 0) 0
      simp [makeGent, Volumetric.firstDerivative, VF.firstDerivative] at h4
    have h2 := gent_linear (K := 1) hs zero_lt_one (le_refl (0 : ℝ)) hv h12 (le_refl (0 : ℝ)) zero_lt_one ⟨1, 1⟩ one_pos
    have h3 := (hooke_injective (Option.some.inj (h1.moduli.symm.trans h2.moduli))).1
    have h4 : bulkFactor vf = 1 := by linarith
    refine ⟨?_, h12, ?_⟩
    · rintro rfl
      simp [bulkFactor] at h4
    · rintro b rfl
      exact h4
  · rintro ⟨h0, h12, h7⟩ solver K g hs - - hJm
    have h2 := gent_linear (K := K) hs zero_lt_one (le_refl (0 : ℝ)) hv h12 (le_refl (0 : ℝ)) zero_lt_one g hJm
    have h4 : bulkFactor vf = 1 := by
      cases vf with
      | f0 => exact absurd rfl h0
      | f7 b => exact h7 b rfl
      | _ => rfl
    rwa [h4, mul_one] at h2

/-- The hypotheses are met: an Ogden material with two terms and the volumetric function `VF7` with exponent two. -/
example : ∃ solver, CorrectSolver solver ∧ LinearElasticAt ((makeOgdenDev ![2, 1] ![3, -2] 5 (.f7 2)).stresses solver (1 / 10))
    ((makeOgdenDev ![2, 1] ![3, -2] 5 (.f7 2)).tangentModuli solver (1 / 10) (1 / 10)) (56 / 3) 2 := by
  obtain ⟨solver, hs⟩ := hyperelastic_hypotheses.1
  refine ⟨solver, hs, ?_⟩
  have h := ogdenDev_linear (K := 5) (vf := .f7 2) hs (show (1 / 10 : ℝ) < 1 by norm_num) (show (0 : ℝ) ≤ 1 / 10 by norm_num)
    (by simp [AdmissibleVF]) (by simp) (show 2 ≤ 3 by norm_num) ![2, 1] ![3, -2] (by simp [Fin.forall_fin_two])
  have e1 : (∑ i : Fin 2, (![2, 1] : Fin 2 → ℝ) i * (![3, -2] : Fin 2 → ℝ) i) / 2 = 2 := by
    norm_num [Fin.sum_univ_two]
  have e2 : 5 * bulkFactor (.f7 2) - 2 / 3 * 2 = 56 / 3 := by norm_num [bulkFactor]
  rw [e1, e2] at h
  exact h

/-- An Arruda-Boyce material with `lambda_m = 1` is stiffer in shear than its parameter says. -/
example : ∃ solver mu, CorrectSolver solver ∧ 3 < mu ∧ LinearElasticAt ((makeArrudaBoyce ⟨1, 1⟩ 5 .f3).stresses solver (1 / 10))
    ((makeArrudaBoyce ⟨1, 1⟩ 5 .f3).tangentModuli solver (1 / 10) 0) (5 - 2 / 3 * mu) mu := by
  obtain ⟨solver, hs⟩ := hyperelastic_hypotheses.1
  have h := arrudaBoyce_linear (K := 5) (vf := .f3) hs (show (1 / 10 : ℝ) < 1 by norm_num) (le_refl (0 : ℝ))
    trivial (by simp) ⟨1, 1⟩ rfl
  rw [show 5 * bulkFactor .f3 = 5 by norm_num [bulkFactor]] at h
  refine ⟨solver, _, hs, ?_, h⟩
  norm_num

/-- The other materials: Blatz-Ko, Ogden in the total stretches, Gent, Mooney-Rivlin, Yeoh, a polynomial in the invariants and the
pure volumetric material. -/
example : ∃ solver, CorrectSolver solver ∧
    LinearElasticAt ((makeBlatzKo 4).stresses solver (1 / 10)) ((makeBlatzKo 4).tangentModuli solver (1 / 10) (1 / 10)) 4 4 ∧
    LinearElasticAt ((makeGent (1 / 10) ⟨3, 2⟩ 5 .f3).stresses solver (1 / 10))
      ((makeGent (1 / 10) ⟨3, 2⟩ 5 .f3).tangentModuli solver (1 / 10) (1 / 10)) 3 3 ∧
    LinearElasticAt ((makeOgdenTotal ![2, 1] ![3, -2] 5 .f3).stresses solver (1 / 10))
      ((makeOgdenTotal ![2, 1] ![3, -2] 5 .f3).tangentModuli solver (1 / 10) (1 / 10)) 5 2 ∧
    (∃ h, makeMooneyRivlin (1 / 10) ![1, 2] 5 .f3 = some h ∧
      LinearElasticAt (h.stresses solver (1 / 10)) (h.tangentModuli solver (1 / 10) (1 / 10)) 1 6) ∧
    (∃ h, makeYeoh (1 / 10) ![3, 2, 1] 5 .f3 = some h ∧
      LinearElasticAt (h.stresses solver (1 / 10)) (h.tangentModuli solver (1 / 10) (1 / 10)) 1 6) ∧
    LinearElasticAt ((makePureVolumetric .f3 5).stresses solver (1 / 10))
      ((makePureVolumetric .f3 5).tangentModuli solver (1 / 10) (1 / 10)) 5 0 := by
  obtain ⟨solver, hs⟩ := hyperelastic_hypotheses.1
  have he : (1 / 10 : ℝ) < 1 := by norm_num
  have heq : (0 : ℝ) ≤ 1 / 10 := by norm_num
  have hv : AdmissibleVF .f3 := trivial
  have hb : 5 * bulkFactor .f3 = 5 := by norm_num [bulkFactor]
  refine ⟨solver, hs, blatzKo_linear hs he heq 4, ?_, ?_, ?_, ?_, ?_⟩
  · have h := gent_linear (K := 5) hs he heq hv (by simp) (epsJm := 1 / 10) heq he ⟨3, 2⟩ (by norm_num)
    rw [hb] at h
    norm_num at h ⊢
    exact h
  · have h := ogdenTotal_linear (K := 5) hs he heq hv (by simp) ![2, 1] ![3, -2] (by simp [Fin.forall_fin_two])
    rw [hb, show (∑ i : Fin 2, (![2, 1] : Fin 2 → ℝ) i * (![3, -2] : Fin 2 → ℝ) i) / 2 = 2 by norm_num [Fin.sum_univ_two]] at h
    exact h
  · obtain ⟨h, h1, h2⟩ := mooneyRivlin_linear (K := 5) hs he heq hv (by simp) (1 / 10) ![1, 2]
    rw [hb] at h2
    norm_num at h2 ⊢
    exact ⟨h, by simpa using h1, h2⟩
  · obtain ⟨h, h1, h2⟩ := yeoh_linear (K := 5) hs he heq hv (by simp) (1 / 10) ![3, 2, 1]
    rw [hb] at h2
    norm_num at h2 ⊢
    exact ⟨h, by simpa using h1, h2⟩
  · have h := pureVolumetric_linear (K := 5) hs he heq hv (by simp)
    rw [hb] at h
    exact h

end Ikarus
