import Verif.TrustRegion.ConvergenceLemmas

/-!
C102: the trust region method converges on problems whose energy is a positive definite quadratic form, within an explicit
number of iterations and to a state that is as close to the minimum as the tolerances tell.
-/

namespace Ikarus

noncomputable section

open Spec

variable {X V S : Type} [NormedAddCommGroup V] [InnerProductSpace ℝ V]

/-! ### The first direction of the inner solver -/

/-- C29. The result of the inner solver is at least as good as every point of the trust region in the direction of the
preconditioned right hand side, in particular as the Cauchy point, with a matrix of any definiteness. -/
theorem tcg_cauchy (A : V →ₗ[ℝ] V) (hA : Spec.Symmetric A) (M : V ≃ₗ[ℝ] V) (hM : Preconditioner M) (b : V) (maxIters : Nat)
    (hn : 2 ≤ maxIters) (tol tiny : ℝ) (ht : 0 < tiny) (info : TCGInfo) (hD : 0 < info.Delta) (hstart : tiny < ‖b‖)
    (hstart2 : max (tol * tol * ‖b‖ * ‖b‖) tiny ≤ ‖b‖ * ‖b‖) (t : ℝ) (ht0 : 0 ≤ t)
    (htD : t ^ 2 * inner ℝ b (M b) ≤ info.Delta ^ 2) :
    quadratic A b (tcg A M b 0 maxIters tol tiny info).1 ≤ quadratic A b (t • M b) := by
  refine (tcg_monotone A hA M hM b tol tiny ht info hD 2 maxIters hn).2.1.trans ?_
  have hbne : b ≠ 0 := by
    intro hb0
    rw [hb0, norm_zero] at hstart
    linarith
  have hrho : 0 < (inner ℝ b (M b) : ℝ) := hM.pos _ hbne
  have hq : ∀ τ : ℝ, quadratic A b (τ • M b) = -τ * inner ℝ b (M b) + 1 / 2 * τ ^ 2 * inner ℝ (M b) (A (M b)) := by
    intro τ
    unfold quadratic
    simp only [map_smul, inner_smul_left, inner_smul_right, conj_trivial]
    ring
  have hb : ∀ s, tcgBody A M ‖b‖ (max (tol * tol * ‖b‖ * ‖b‖) tiny) info (tcgStart A M b 0) = s →
      (tcg A M b 0 2 tol tiny info).1 = (match s with | .inl s => s.x | .inr s => s.x) := by
    intro s hs
    unfold tcg
    simp only
    rw [if_neg (not_le.2 hstart), if_neg (by simpa using hstart2)]
    show (tcgLoop _ _ _ _ _ 1 _).x = _
    unfold tcgLoop
    rw [hs]
    cases s <;> rfl
  have h1 := hb _ rfl
  rw [h1]
  have e1 : (tcgStart A M b 0).p = M b := by simp [tcgStart]
  have e2 : (tcgStart A M b 0).absNew = inner ℝ b (M b) := by simp [tcgStart]
  have e3 : (tcgStart A M b 0).d_Pd = inner ℝ b (M b) := by simp [tcgStart]
  have e4 : (tcgStart A M b 0).e_Pd = 0 := rfl
  have e5 : (tcgStart A M b 0).e_Pe = 0 := by simp [tcgStart]
  have e6 : (tcgStart A M b 0).x = 0 := rfl
  generalize hd : (inner ℝ (M b) (A (M b)) : ℝ) = d at *
  generalize hr : (inner ℝ b (M b) : ℝ) = rho at *
  have hint : 0 < d → ∀ τ : ℝ, quadratic A b ((rho / d) • M b) ≤ quadratic A b (τ • M b) := by
    intro hdp τ
    rw [hq, hq]
    have : -τ * rho + 1 / 2 * τ ^ 2 * d - (-(rho / d) * rho + 1 / 2 * (rho / d) ^ 2 * d) = 1 / 2 * d * (τ - rho / d) ^ 2 := by
      field_simp
      ring
    nlinarith [sq_nonneg (τ - rho / d)]
  unfold tcgBody
  simp only [e1, e2, e3, e4, e5, e6, hd, mul_zero, add_zero, zero_add, neg_zero, sub_zero]
  by_cases hc : d ≤ 0 ∨ rho / d * (rho / d) * rho ≥ info.Delta * info.Delta
  · rw [if_pos hc]
    simp only
    have hsq : Real.sqrt (rho * (info.Delta * info.Delta)) = Real.sqrt rho * info.Delta := by
      rw [Real.sqrt_mul hrho.le, Real.sqrt_mul_self hD.le]
    have hsr : Real.sqrt rho * Real.sqrt rho = rho := Real.mul_self_sqrt hrho.le
    have hsp : 0 < Real.sqrt rho := Real.sqrt_pos.2 hrho
    rw [hsq]
    obtain ⟨tau, htau⟩ : ∃ tau, tau = Real.sqrt rho * info.Delta / rho := ⟨_, rfl⟩
    rw [← htau]
    have htau2 : tau ^ 2 * rho = info.Delta ^ 2 := by
      rw [htau, div_pow, mul_pow, Real.sq_sqrt hrho.le]
      field_simp
    have htau0 : 0 < tau := by rw [htau]; positivity
    have hle : t ≤ tau := by
      have : t ^ 2 ≤ tau ^ 2 := by
        rw [← htau2] at htD
        exact le_of_mul_le_mul_right htD hrho
      exact (sq_le_sq₀ ht0 htau0.le).1 this
    rw [hq, hq]
    rcases le_or_gt d 0 with hdn | hdp
    · nlinarith [mul_nonneg (sub_nonneg.2 hle) hrho.le, mul_nonneg (mul_nonneg (sub_nonneg.2 hle) (add_nonneg ht0 htau0.le)) (neg_nonneg.2 hdn)]
    · have hge := hc.resolve_left (not_le.2 hdp)
      have hal : tau ≤ rho / d := by
        have : tau ^ 2 ≤ (rho / d) ^ 2 := by
          have h3 : tau ^ 2 * rho ≤ (rho / d) ^ 2 * rho := by
            rw [htau2, sq, sq]; exact hge
          exact le_of_mul_le_mul_right h3 hrho
        exact (sq_le_sq₀ htau0.le (by positivity)).1 this
      have htd : tau * d ≤ rho := by rwa [le_div_iff₀ hdp] at hal
      have : t * d ≤ rho := (mul_le_mul_of_nonneg_right hle hdp.le).trans htd
      nlinarith [mul_nonneg (sub_nonneg.2 hle) (sub_nonneg.2 htd), mul_nonneg (sub_nonneg.2 hle) (sub_nonneg.2 this)]
  · rw [if_neg hc]
    have hdp : 0 < d := not_le.1 fun h => hc (Or.inl h)
    by_cases h1 : ((tcgStart A M b 0).i : Int) ≥ info.mininner ∧
        ‖(tcgStart A M b 0).residual - (rho / d) • A (M b)‖ ≤ ‖b‖ * min ‖b‖ info.kappa
    · rw [if_pos h1]; exact hint hdp t
    · by_cases h2 : ‖(tcgStart A M b 0).residual - (rho / d) • A (M b)‖ < max (tol * tol * ‖b‖ * ‖b‖) tiny
      · rw [if_neg h1, if_pos h2]; exact hint hdp t
      · rw [if_neg h1, if_neg h2]; exact hint hdp t

/-! ### Convergence -/

section
variable {P : TRProblem X V S} {I : X → Prop} {A : V →ₗ[ℝ] V} {W : Submodule ℝ V} {M : V ≃ₗ[ℝ] V} {ti : S → TCGInfo}
  {maxIters : Nat} {tol tiny : ℝ} {set : TRSettings} {lam L mu : ℝ}

/-- The inner solver has stopped at the boundary of the trust region in iteration `k`. -/
def trAtBoundary (P : TRProblem X V S) (A : V →ₗ[ℝ] V) (M : V ≃ₗ[ℝ] V) (ti : S → TCGInfo) (maxIters : Nat) (tol tiny : ℝ)
    (set : TRSettings) (cmpTol : ℝ) (w : S) (x : X) (k : Nat) : Prop :=
  let v := trIterate P set cmpTol w x k
  let r := tcg A M (-P.grad v.x) 0 maxIters tol tiny { ti v.inner with Delta := v.Delta }
  (r.2.stop = .negativeCurvature ∨ r.2.stop = .exceededTrustRegion) ∧ pnorm2 M r.1 = v.Delta ^ 2

/-- The tolerances of outer and inner solver fit together: `tiny` and `tol` are the constants of the inner solver. -/
structure Spec.TRTolerances (set : TRSettings) (tol tiny : ℝ) : Prop where
  pos : 0 < tiny
  grad : tiny < set.grad_tol
  grad2 : tiny ≤ set.grad_tol ^ 2
  rel : tol * tol ≤ 1

/-- What a successful run from a state with gradient `g0` offers. -/
structure Spec.TRConverged (P : TRProblem X V S) (I : X → Prop) (W : Submodule ℝ V) (set : TRSettings) (ti : S → TCGInfo)
    (lam L kappa : ℝ) (N : Nat) (s : TRState X V S) : Prop where
  success : s.info.success = true
  iterations : 0 < s.info.iterations ∧ s.info.iterations ≤ N
  state : I s.x
  inner : (ti s.inner).kappa = kappa
  gradient : ‖P.grad s.x‖ ≤ max set.grad_tol (kappa / (1 - kappa) * (L * set.corr_tol))
  minimum : ∃ e ∈ W, ‖e‖ ≤ ‖P.grad s.x‖ / lam ∧ P.grad (P.update s.x e) = 0

open Classical in
theorem converges_of_count [FiniteDimensional ℝ V] (hP : QuadraticProblem P I A W) (hinv : ∀ x e, P.update (P.update x e) (-e) = x)
    (hT : InnerTCG P A M W ti maxIters tol tiny) (hB : SpectralBounds A M lam L mu) (hs : TRSane set)
    (htl : TRTolerances set tol tiny) (htime : set.maxtime = none) (hcorr : set.corr_tol ^ 2 ≤ mu * set.Delta0 ^ 2)
    (cmpTol : ℝ) (fuel : Nat) (hf : set.maxIter ≤ fuel) (w : S)
    (hk0 : 0 < (ti w).kappa) (hk1 : (ti w).kappa < 1) (st : TCGStopReason) {x : X} (hx : I x) (eta : V)
    (htk : tol * tol * (L * (‖P.grad x‖ / lam)) ≤ (ti w).kappa) {J bs : Nat} (hJ : 0 < J)
    (hJk : (ti w).kappa ^ J * (L * (‖P.grad x‖ / lam)) < set.grad_tol) (hmax : (((bs + 1) * J : Nat) : Int) ≤ set.maxIter)
    (hc : ∀ n, (∀ k, 0 < k → k < n → set.grad_tol ≤ ‖P.grad (trIterate P set cmpTol w x k).x‖) →
      ((Finset.range n).filter (trAtBoundary P A M ti maxIters tol tiny set cmpTol w x)).card ≤ bs) :
    ∃ s, trSolve P set cmpTol fuel w st x eta = some s ∧
      TRConverged P I W set ti lam L (ti w).kappa ((bs + 1) * J) s := by
  obtain ⟨s0, hs0⟩ := SpectralBounds.solution hB (P.grad x)
  have htr := trIterate_spec hP hT htl.pos hs cmpTol w hx hs0
  have hL := hB.nonneg
  have hG : ∀ k, ‖P.grad (trIterate P set cmpTol w x k).x‖ ≤ L * (‖P.grad x‖ / lam) := by
    intro k
    obtain ⟨-, -, -, -, s, h5, h6⟩ := htr k
    rw [← h5]
    exact (hB.above s).trans (mul_le_mul_of_nonneg_left (SpectralBounds.error_bound hB hs0 h6) hL)
  have hout : ∀ k, trAtBoundary P A M ti maxIters tol tiny set cmpTol w x k ∨
      ‖P.grad (trIterate P set cmpTol w x (k + 1)).x‖ ≤ (ti w).kappa * ‖P.grad (trIterate P set cmpTol w x k).x‖ ∨
      ‖P.grad (trIterate P set cmpTol w x (k + 1)).x‖ < set.grad_tol := by
    intro k
    obtain ⟨h1, h2, -, h4, -⟩ := htr k
    have := iteration_outcome hP hT htl.pos hs htl.grad htl.grad2 htl.rel cmpTol _ h1 h2
      (by rw [h4]; exact (mul_le_mul_of_nonneg_left (hG k) (mul_self_nonneg tol)).trans htk)
    rw [trIterate_succ, ← h4]
    exact this
  obtain ⟨k, hk, hkN, hkg⟩ := count_iterations (fun k => ‖P.grad (trIterate P set cmpTol w x k).x‖) _ hJ hk0.le hG hJk hout hc
  obtain ⟨s, n, r1, r2, r3, r4, r5, r6, r7, r8⟩ := tr_run_exact P hinv set hs.prime cmpTol fuel hf w st x eta
  have hit : ∀ j, (Spec.next P set cmpTol)^[j] (Spec.startPoint set w x) = trIterate P set cmpTol w x j := fun _ => rfl
  rw [hit] at r2
  simp only [hit] at r4
  have hconv : Spec.Converged P set (trIterate P set cmpTol w x k) := ⟨by rw [(htr k).2.2.1]; omega, Or.inl hkg⟩
  have hnk : n ≤ k := by
    by_contra hlt
    exact r4 k (by omega) (Or.inl hconv)
  have hcon : Spec.Converged P set s.point := by
    rcases hnk.eq_or_lt with h | h
    · rw [r2, h]; exact hconv
    · rcases r3 with h' | ⟨t, h', -⟩ | h'
      · exact h'
      · rw [htime] at h'; cases h'
      · rw [r2, (htr n).2.2.1] at h'
        omega
  have hsx : s.x = (trIterate P set cmpTol w x n).x := congrArg TRPoint.x r2
  have hn0 : n ≠ 0 := by
    have := hcon.1
    rwa [r2, (htr n).2.2.1] at this
  have hIx : I s.x := by rw [hsx]; exact (htr n).1
  obtain ⟨e, heW, he⟩ := SpectralBounds.solution_mem hB hP.keeps (hP.gradient _ hIx)
  have hgt : 0 < set.grad_tol := htl.pos.trans htl.grad
  refine ⟨s, r1, r8.2 hcon, ⟨by omega, by rw [r5]; exact_mod_cast hnk.trans hkN⟩, hIx,
    by have := congrArg TRPoint.inner r2; rw [show s.inner = _ from this, (htr n).2.2.2.1], ?_,
    -e, W.neg_mem heW, by rw [norm_neg]; exact SpectralBounds.error_le hB he,
    by rw [hP.grad _ hIx _ (W.neg_mem heW), map_neg, he, add_neg_cancel]⟩
  rcases hcon.2 with h | h
  · exact le_max_of_le_left (le_of_lt h)
  · obtain ⟨j, rfl⟩ : ∃ j, n = j + 1 := ⟨n - 1, by omega⟩
    obtain ⟨h1, h2, -, -⟩ := htr j
    obtain ⟨-, -, -, n4, n5, -⟩ := quadratic_next hP hT htl.pos hs cmpTol _ h1 h2
    have hcn : s.point.corrNorm = (trIterate P set cmpTol w x (j + 1)).corrNorm := congrArg TRPoint.corrNorm r2
    rw [hcn, trIterate_succ, n5] at h
    rw [hsx]
    rcases hout j with ⟨-, ho⟩ | ho | ho
    · exfalso
      generalize (tcg A M _ 0 maxIters tol tiny _).1 = e at ho h
      have h3 := hB.metric e
      rw [ho] at h3
      have h4 : set.Delta0 ^ 2 ≤ (trIterate P set cmpTol w x j).Delta ^ 2 := by
        have := hs.radius
        nlinarith
      have h5 : ‖e‖ ^ 2 < set.corr_tol ^ 2 := by nlinarith [norm_nonneg e]
      nlinarith [hB.pos']
    · refine le_max_of_le_right ?_
      rw [trIterate_succ] at ho ⊢
      rw [n4] at ho ⊢
      generalize (tcg A M _ 0 maxIters tol tiny _).1 = e at ho h
      generalize P.grad (trIterate P set cmpTol w x j).x = g at *
      have h3 : ‖g‖ ≤ ‖g + A e‖ + L * set.corr_tol := by
        have : g = (g + A e) - A e := by abel
        calc ‖g‖ = ‖(g + A e) - A e‖ := by rw [← this]
          _ ≤ ‖g + A e‖ + ‖A e‖ := norm_sub_le _ _
          _ ≤ _ := by
            have := (hB.above e).trans (mul_le_mul_of_nonneg_left h.le hL)
            linarith
      rw [div_mul_eq_mul_div, le_div_iff₀ (by linarith)]
      nlinarith
    · exact le_max_of_le_left (by rw [trIterate_succ] at ho ⊢; exact ho.le)

theorem QuadraticProblem.restrict (hP : QuadraticProblem P I A W) : QuadraticProblem (P.restrict I) I A W where
  symm := hP.symm
  keeps := hP.keeps
  update x e hx := by
    have h1 : (P.restrict I).update x e = P.update x e := if_pos hx
    have h2 : (P.restrict I).update (P.update x e) (-e) = P.update (P.update x e) (-e) := if_pos (hP.update x e hx).1
    rw [h1, h2]; exact hP.update x e hx
  hess := hP.hess
  gradient := hP.gradient
  grad x hx e he := by
    have h1 : (P.restrict I).update x e = P.update x e := if_pos hx
    rw [h1]; exact hP.grad x hx e he
  energy x hx e he := by
    have h1 : (P.restrict I).update x e = P.update x e := if_pos hx
    rw [h1]; exact hP.energy x hx e he

theorem InnerTCG.restrict (hT : InnerTCG P A M W ti maxIters tol tiny) (I : X → Prop) :
    InnerTCG (P.restrict I) A M W ti maxIters tol tiny :=
  ⟨hT.precond, hT.keeps, hT.iters, hT.correction, hT.stop, hT.info⟩

theorem TRConverged.unrestrict {kappa : ℝ} {N : Nat} {s : TRState X V S}
    (h : TRConverged (P.restrict I) I W set ti lam L kappa N s) : TRConverged P I W set ti lam L kappa N s := by
  refine ⟨h.success, h.iterations, h.state, h.inner, h.gradient, ?_⟩
  obtain ⟨e, h1, h2, h3⟩ := h.minimum
  have h4 : (P.restrict I).update s.x e = P.update s.x e := if_pos h.state
  rw [h4] at h3
  exact ⟨e, h1, h2, h3⟩

open Classical in
/-- Without a largest radius, the number of iterations that stop at the boundary. -/
theorem boundary_count (hP : QuadraticProblem P I A W) (hT : InnerTCG P A M W ti maxIters tol tiny)
    (hB : SpectralBounds A M lam L mu) (hs : TRSane set) (ht : 0 < tiny) (hbar : set.DeltaBar = none)
    (cmpTol : ℝ) (w : S) {x : X} (hx : I x) {s0 : V} (hs0 : A s0 = P.grad x) {bs : Nat}
    (hbs : (2 * (‖P.grad x‖ / lam)) ^ 2 < mu * ((7 / 2) ^ bs * set.Delta0) ^ 2) (n : Nat) :
    ((Finset.range n).filter (trAtBoundary P A M ti maxIters tol tiny set cmpTol w x)).card ≤ bs ∧
      (7 / 2) ^ ((Finset.range n).filter (trAtBoundary P A M ti maxIters tol tiny set cmpTol w x)).card * set.Delta0 ≤
        (trIterate P set cmpTol w x n).Delta := by
  have htr := trIterate_spec hP hT ht hs cmpTol w hx hs0
  induction n with
  | zero => exact ⟨by simp, by simp [trIterate, Spec.startPoint]⟩
  | succ n ih =>
    obtain ⟨h1, h2, -, -, s, h5, h6⟩ := htr n
    obtain ⟨-, -, -, -, s', h5', h6'⟩ := htr (n + 1)
    obtain ⟨-, -, -, n4, -, -, -, -, n9⟩ := quadratic_next hP hT ht hs cmpTol _ h1 h2
    obtain ⟨n10, n11⟩ := n9 hbar
    rw [Finset.range_add_one, Finset.filter_insert, trIterate_succ]
    by_cases hb : trAtBoundary P A M ti maxIters tol tiny set cmpTol w x n
    · rw [if_pos hb, Finset.card_insert_of_notMem (by simp)]
      generalize ((Finset.range n).filter (trAtBoundary P A M ti maxIters tol tiny set cmpTol w x)).card = c at *
      obtain ⟨hb1, hb2⟩ := hb
      rw [n11 hb1]
      refine ⟨?_, by rw [pow_succ']; linarith [ih.2]⟩
      rw [trIterate_succ] at h5'
      rw [n4] at h5'
      generalize (tcg A M _ 0 maxIters tol tiny _).1 = e at h5' hb2
      have hse : s' = s + e := by
        have : A (s' - (s + e)) = 0 := by rw [map_sub, map_add, h5', h5, sub_self]
        exact sub_eq_zero.1 (SpectralBounds.injective hB this)
      have he : ‖e‖ ≤ 2 * (‖P.grad x‖ / lam) := by
        have e1 : e = s' - s := by rw [hse]; abel
        rw [e1]
        have b1 := SpectralBounds.error_bound hB hs0 h6
        have b2 := SpectralBounds.error_bound hB hs0 h6'
        have := norm_sub_le s' s
        linarith
      have hm := hB.metric e
      rw [hb2] at hm
      by_contra hlt
      have hcb : bs ≤ c := by omega
      have hp : (7 / 2 : ℝ) ^ bs * set.Delta0 ≤ (trIterate P set cmpTol w x n).Delta := by
        refine le_trans ?_ ih.2
        exact mul_le_mul_of_nonneg_right (pow_le_pow_right₀ (by norm_num) hcb) hs.radius.le
      have hp0 : 0 ≤ (7 / 2 : ℝ) ^ bs * set.Delta0 := mul_nonneg (by positivity) hs.radius.le
      have h7 : ((7 / 2 : ℝ) ^ bs * set.Delta0) ^ 2 ≤ (trIterate P set cmpTol w x n).Delta ^ 2 := pow_le_pow_left₀ hp0 hp 2
      have h8 : ‖e‖ ^ 2 ≤ (2 * (‖P.grad x‖ / lam)) ^ 2 := pow_le_pow_left₀ (norm_nonneg _) he 2
      have h9 := mul_le_mul_of_nonneg_left h7 hB.pos'.le
      linarith
    · rw [if_neg hb]
      exact ⟨ih.1, ih.2.trans n10⟩

/-- C102. The trust region method without largest radius, for every positive definite quadratic energy in any number of
unknowns, from every state: it succeeds within `(bs + 1) J` iterations, where `J` iterations reduce the largest possible
gradient to the tolerance and `bs` enlargements let the radius exceed every step; the norm of the gradient at the result is
at most the tolerance, or that tolerance which the one of the corrections implies; the minimum is as close as this tells.
The latter tolerance must not exceed the first radius, measured as the preconditioner measures it. -/
theorem tr_converges [FiniteDimensional ℝ V] (hP : QuadraticProblem P I A W)
    (hT : InnerTCG P A M W ti maxIters tol tiny) (hB : SpectralBounds A M lam L mu) (hs : TRSane set)
    (htl : TRTolerances set tol tiny) (htime : set.maxtime = none) (hcorr : set.corr_tol ^ 2 ≤ mu * set.Delta0 ^ 2)
    (hbar : set.DeltaBar = none) (cmpTol : ℝ) (fuel : Nat) (hf : set.maxIter ≤ fuel) (w : S)
    (hk0 : 0 < (ti w).kappa) (hk1 : (ti w).kappa < 1) (st : TCGStopReason) {x : X} (hx : I x) (eta : V)
    (htk : tol * tol * (L * (‖P.grad x‖ / lam)) ≤ (ti w).kappa) {J bs : Nat} (hJ : 0 < J)
    (hJk : (ti w).kappa ^ J * (L * (‖P.grad x‖ / lam)) < set.grad_tol)
    (hbs : (2 * (‖P.grad x‖ / lam)) ^ 2 < mu * ((7 / 2) ^ bs * set.Delta0) ^ 2)
    (hmax : (((bs + 1) * J : Nat) : Int) ≤ set.maxIter) :
    ∃ s, trSolve P set cmpTol fuel w st x eta = some s ∧
      TRConverged P I W set ti lam L (ti w).kappa ((bs + 1) * J) s := by
  classical
  obtain ⟨s0, hs0⟩ := SpectralBounds.solution hB (P.grad x)
  obtain ⟨s, h1, h2⟩ := converges_of_count (QuadraticProblem.restrict hP) (restrict_undone hP.update) (InnerTCG.restrict hT I) hB hs htl htime hcorr
    cmpTol fuel hf w hk0 hk1 st hx eta htk hJ hJk hmax fun n _ =>
      (boundary_count (QuadraticProblem.restrict hP) (InnerTCG.restrict hT I) hB hs htl.pos hbar cmpTol w hx hs0 hbs n).1
  rw [trSolve_restrict hP.update set cmpTol fuel w st hx eta] at h1
  exact ⟨s, h1, TRConverged.unrestrict h2⟩

/-- Such numbers exist. -/
theorem tr_numbers {kappa G gamma mu Delta0 R : ℝ} (hk0 : 0 < kappa) (hk1 : kappa < 1) (hg : 0 < gamma) (hmu : 0 < mu)
    (hD : 0 < Delta0) : ∃ J bs : Nat, 0 < J ∧ kappa ^ J * G < gamma ∧ R < mu * ((7 / 2) ^ bs * Delta0) ^ 2 := by
  obtain ⟨n, hn⟩ := exists_pow_lt_of_lt_one (div_pos hg (by positivity : 0 < |G| + 1)) hk1
  obtain ⟨bs, hbs⟩ := pow_unbounded_of_one_lt (|R| / (mu * Delta0 ^ 2)) (show (1 : ℝ) < 7 / 2 by norm_num)
  refine ⟨n + 1, bs, by omega, ?_, ?_⟩
  · rw [lt_div_iff₀ (by positivity)] at hn
    have h1 : kappa ^ (n + 1) ≤ kappa ^ n := pow_le_pow_of_le_one hk0.le hk1.le (by omega)
    have h2 : 0 ≤ kappa ^ (n + 1) := by positivity
    have h3 := le_abs_self G
    have h4 : kappa ^ (n + 1) * G ≤ kappa ^ (n + 1) * (|G| + 1) := mul_le_mul_of_nonneg_left (by linarith) h2
    have h5 : kappa ^ (n + 1) * (|G| + 1) ≤ kappa ^ n * (|G| + 1) := mul_le_mul_of_nonneg_right h1 (by positivity)
    linarith
  · rw [div_lt_iff₀ (by positivity)] at hbs
    have h1 : (1 : ℝ) ≤ (7 / 2) ^ bs := one_le_pow₀ (by norm_num)
    have h2 : (7 / 2 : ℝ) ^ bs ≤ ((7 / 2) ^ bs) ^ 2 := by nlinarith
    have h3 := mul_le_mul_of_nonneg_right h2 (show 0 ≤ mu * Delta0 ^ 2 by positivity)
    have h4 := le_abs_self R
    rw [mul_pow]
    nlinarith

/-- The least decrease of the model while the gradient exceeds `gamma`. -/
def Spec.leastDecrease (L mu nu Delta0 gamma : ℝ) : ℝ :=
  1 / 2 * min (Delta0 * (Real.sqrt mu * gamma)) (mu * gamma ^ 2 / (L * nu))

theorem precond_below (hM : Preconditioner M) (hmu : 0 < mu) (hm : ∀ v, mu * pnorm2 M v ≤ ‖v‖ ^ 2) (b : V) :
    mu * ‖b‖ ^ 2 ≤ inner ℝ b (M b) := by
  by_cases hb : b = 0
  · rw [hb]; simp
  have hrho : 0 < (inner ℝ b (M b) : ℝ) := hM.pos _ hb
  have h1 : ∀ t : ℝ, 0 ≤ pnorm2 M b + 2 * t * ‖b‖ ^ 2 + t * t * inner ℝ b (M b) := by
    intro t
    have h2 := pnorm2_add hM b (M b) t
    have h3 : pnorm2 M (M b) = inner ℝ b (M b) := by
      unfold pnorm2
      rw [LinearEquiv.symm_apply_apply, real_inner_comm]
    rw [LinearEquiv.symm_apply_apply, real_inner_self_eq_norm_sq, h3] at h2
    rw [← h2]
    by_cases h0 : b + t • M b = 0
    · rw [h0]; simp [pnorm2]
    · exact (hM.pos' _ h0).le
  have h2 := h1 (-(‖b‖ ^ 2 / inner ℝ b (M b)))
  have h3 := hm b
  generalize (inner ℝ b (M b) : ℝ) = rho at *
  have h4 : pnorm2 M b + 2 * -(‖b‖ ^ 2 / rho) * ‖b‖ ^ 2 + -(‖b‖ ^ 2 / rho) * -(‖b‖ ^ 2 / rho) * rho =
      pnorm2 M b - (‖b‖ ^ 2) ^ 2 / rho := by
    field_simp
    ring
  rw [h4] at h2
  have h5 : (‖b‖ ^ 2) ^ 2 ≤ pnorm2 M b * rho := by
    rw [sub_nonneg, div_le_iff₀ hrho] at h2
    exact h2
  have hn : 0 < ‖b‖ ^ 2 := by have := norm_pos_iff.2 hb; positivity
  have h6 : ‖b‖ ^ 2 * (mu * ‖b‖ ^ 2) ≤ ‖b‖ ^ 2 * rho := by
    calc ‖b‖ ^ 2 * (mu * ‖b‖ ^ 2) = mu * (‖b‖ ^ 2) ^ 2 := by ring
      _ ≤ mu * (pnorm2 M b * rho) := mul_le_mul_of_nonneg_left h5 hmu.le
      _ = mu * pnorm2 M b * rho := by ring
      _ ≤ ‖b‖ ^ 2 * rho := mul_le_mul_of_nonneg_right h3 hrho.le
  exact le_of_mul_le_mul_left h6 hn

/-- C29. The decrease of the model in terms of the norm of the right hand side. -/
theorem tcg_decrease (hA : Spec.Symmetric A) (hM : Preconditioner M) (hB : SpectralBounds A M lam L mu) (hL : 0 < L) {nu : ℝ}
    (hnu : 0 < nu) (hn : ∀ v, ‖v‖ ^ 2 ≤ nu * pnorm2 M v) {gamma Delta0 : ℝ} (hgam : 0 < gamma) (hD0 : 0 < Delta0) (b : V)
    (hb : gamma ≤ ‖b‖) (hit : 2 ≤ maxIters) (ht : 0 < tiny) (htg : tiny < gamma) (htg2 : tiny ≤ gamma ^ 2) (htol : tol * tol ≤ 1)
    (info : TCGInfo) (hD : Delta0 ≤ info.Delta) :
    quadratic A b (tcg A M b 0 maxIters tol tiny info).1 ≤ -Spec.leastDecrease L mu nu Delta0 gamma := by
  have hbp : 0 < ‖b‖ := lt_of_lt_of_le hgam hb
  have hbne : b ≠ 0 := norm_pos_iff.1 hbp
  have hrho : 0 < (inner ℝ b (M b) : ℝ) := hM.pos _ hbne
  have hrl : mu * gamma ^ 2 ≤ inner ℝ b (M b) := by
    refine le_trans ?_ (precond_below hM hB.pos' hB.metric b)
    exact mul_le_mul_of_nonneg_left (pow_le_pow_left₀ hgam.le hb 2) hB.pos'.le
  have hd : (inner ℝ (M b) (A (M b)) : ℝ) ≤ L * nu * inner ℝ b (M b) := by
    have h1 := real_inner_le_norm (M b) (A (M b))
    have h2 := hB.above (M b)
    have h3 := hn (M b)
    have h4 : pnorm2 M (M b) = inner ℝ b (M b) := by
      unfold pnorm2
      rw [LinearEquiv.symm_apply_apply, real_inner_comm]
    rw [h4] at h3
    calc _ ≤ ‖M b‖ * ‖A (M b)‖ := h1
      _ ≤ ‖M b‖ * (L * ‖M b‖) := mul_le_mul_of_nonneg_left h2 (norm_nonneg _)
      _ = L * ‖M b‖ ^ 2 := by ring
      _ ≤ L * (nu * inner ℝ b (M b)) := mul_le_mul_of_nonneg_left h3 hL.le
      _ = _ := by ring
  generalize hr : (inner ℝ b (M b) : ℝ) = rho at *
  have hsr : Real.sqrt rho * Real.sqrt rho = rho := Real.mul_self_sqrt hrho.le
  have hsp : 0 < Real.sqrt rho := Real.sqrt_pos.2 hrho
  have hLn : 0 < L * nu := mul_pos hL hnu
  obtain ⟨t, htdef⟩ : ∃ t, t = min (Delta0 / Real.sqrt rho) (1 / (L * nu)) := ⟨_, rfl⟩
  have ht0 : 0 < t := by rw [htdef]; exact lt_min (by positivity) (by positivity)
  have ht1 : t ≤ Delta0 / Real.sqrt rho := htdef ▸ min_le_left _ _
  have ht2 : t ≤ 1 / (L * nu) := htdef ▸ min_le_right _ _
  have htD : t ^ 2 * rho ≤ info.Delta ^ 2 := by
    have h1 : t * Real.sqrt rho ≤ Delta0 := by rwa [le_div_iff₀ hsp] at ht1
    have h2 : t ^ 2 * rho = (t * Real.sqrt rho) ^ 2 := by rw [mul_pow, Real.sq_sqrt hrho.le]
    rw [h2]
    exact pow_le_pow_left₀ (by positivity) (h1.trans hD) 2
  refine (tcg_cauchy A hA M hM b maxIters hit tol tiny ht info (lt_of_lt_of_le hD0 hD) (lt_of_lt_of_le htg hb) ?_ t ht0.le
    (by rw [hr]; exact htD)).trans ?_
  · refine max_le ?_ ?_
    · have := mul_nonneg hbp.le hbp.le
      nlinarith
    · nlinarith
  · have hq : quadratic A b (t • M b) = -t * rho + 1 / 2 * t ^ 2 * inner ℝ (M b) (A (M b)) := by
      unfold quadratic
      simp only [map_smul, inner_smul_left, inner_smul_right, conj_trivial, hr]
      ring
    rw [hq]
    have h1 : t * (L * nu) ≤ 1 := by rwa [le_div_iff₀ hLn] at ht2
    have h2 : 1 / 2 * t ^ 2 * inner ℝ (M b) (A (M b)) ≤ 1 / 2 * (t * rho) := by
      calc 1 / 2 * t ^ 2 * inner ℝ (M b) (A (M b)) ≤ 1 / 2 * t ^ 2 * (L * nu * rho) :=
            mul_le_mul_of_nonneg_left hd (by positivity)
        _ = 1 / 2 * (t * rho) * (t * (L * nu)) := by ring
        _ ≤ 1 / 2 * (t * rho) * 1 := mul_le_mul_of_nonneg_left h1 (by positivity)
        _ = _ := by ring
    have h3 : min (Delta0 * (Real.sqrt mu * gamma)) (mu * gamma ^ 2 / (L * nu)) ≤ t * rho := by
      rw [htdef, min_mul_of_nonneg _ _ hrho.le]
      refine min_le_min ?_ ?_
      · have h4 : Delta0 / Real.sqrt rho * rho = Delta0 * Real.sqrt rho := by
          field_simp
          exact (Real.sq_sqrt hrho.le).symm
        rw [h4]
        refine mul_le_mul_of_nonneg_left ?_ hD0.le
        refine Real.le_sqrt_of_sq_le ?_
        rw [mul_pow, Real.sq_sqrt hB.pos'.le]
        exact hrl
      · rw [one_div_mul_eq_div]
        gcongr
    unfold Spec.leastDecrease
    linarith

open Classical in
/-- The number of iterations that stop at the boundary, with any largest radius. -/
theorem boundary_count_capped [FiniteDimensional ℝ V] (hP : QuadraticProblem P I A W) (hT : InnerTCG P A M W ti maxIters tol tiny)
    (hB : SpectralBounds A M lam L mu) {nu : ℝ} (hnu : 0 < nu) (hn : ∀ v, ‖v‖ ^ 2 ≤ nu * pnorm2 M v) (hs : TRSane set)
    (htl : TRTolerances set tol tiny) (cmpTol : ℝ) (w : S) {x : X} (hx : I x) {s0 : V} (hs0 : A s0 = P.grad x) {bs : Nat}
    (hbs : ‖P.grad x‖ ^ 2 / lam < 2 * Spec.leastDecrease L mu nu set.Delta0 set.grad_tol * bs) (n : Nat)
    (hnc : ∀ k, 0 < k → k < n → set.grad_tol ≤ ‖P.grad (trIterate P set cmpTol w x k).x‖) :
    ((Finset.range n).filter (trAtBoundary P A M ti maxIters tol tiny set cmpTol w x)).card ≤ bs := by
  have hgt : 0 < set.grad_tol := htl.pos.trans htl.grad
  have hL : 0 < L := by
    rcases hB.nonneg.eq_or_lt with h | h
    · exfalso
      have : Spec.leastDecrease L mu nu set.Delta0 set.grad_tol = 0 := by
        unfold Spec.leastDecrease
        rw [← h, zero_mul, div_zero, min_eq_right, mul_zero]
        have := hs.radius
        positivity
      rw [this] at hbs
      have := hB.pos
      have : 0 ≤ ‖P.grad x‖ ^ 2 / lam := by positivity
      linarith
    · exact h
  have hdel : 0 < Spec.leastDecrease L mu nu set.Delta0 set.grad_tol := by
    unfold Spec.leastDecrease
    have := hs.radius
    have := Real.sqrt_pos.2 hB.pos'
    have := hB.pos'
    refine mul_pos (by norm_num) (lt_min (by positivity) (by positivity))
  have htr := trIterate_spec hP hT htl.pos hs cmpTol w hx hs0
  generalize hde : Spec.leastDecrease L mu nu set.Delta0 set.grad_tol = delta at *
  have key : ∀ n, (∀ k, 0 < k → k < n → set.grad_tol ≤ ‖P.grad (trIterate P set cmpTol w x k).x‖) →
      ∃ s, A s = P.grad (trIterate P set cmpTol w x n).x ∧ inner ℝ s (A s) +
        2 * delta * (((Finset.range n).filter (trAtBoundary P A M ti maxIters tol tiny set cmpTol w x)).card - 1) ≤
          (inner ℝ s0 (A s0) : ℝ) := by
    intro n
    induction n with
    | zero => exact fun _ => ⟨s0, hs0, by simp; linarith⟩
    | succ n ih =>
      intro hnc
      obtain ⟨s, hs1, hs2⟩ := ih fun k h1 h2 => hnc k h1 (by omega)
      obtain ⟨h1, h2, -⟩ := htr n
      obtain ⟨-, -, -, n4, -⟩ := quadratic_next hP hT htl.pos hs cmpTol _ h1 h2
      have hDp := lt_of_lt_of_le hs.radius h2
      obtain ⟨e, he⟩ : ∃ e, e = (tcg A M (-P.grad (trIterate P set cmpTol w x n).x) 0 maxIters tol tiny
          { ti (trIterate P set cmpTol w x n).inner with Delta := (trIterate P set cmpTol w x n).Delta }).1 := ⟨_, rfl⟩
      have n4' : P.grad (Spec.next P set cmpTol (trIterate P set cmpTol w x n)).x =
          P.grad (trIterate P set cmpTol w x n).x + A e := by rw [he]; exact n4
      have hq : quadratic A (-P.grad (trIterate P set cmpTol w x n).x) e ≤ 0 := by
        rw [he]
        exact (tcg_in_trust_region A hP.symm M hT.precond (-P.grad (trIterate P set cmpTol w x n).x) maxIters tol tiny htl.pos
          _ hDp).2.1
      have hst : ∀ e : V, inner ℝ (s + e) (A (s + e)) = (inner ℝ s (A s) : ℝ) +
          2 * quadratic A (-P.grad (trIterate P set cmpTol w x n).x) e := by
        intro e
        have e1 : inner ℝ e (A s) = (inner ℝ (A s) e : ℝ) := real_inner_comm _ _
        have e2 : inner ℝ s (A e) = (inner ℝ (A s) e : ℝ) := (hP.symm s e).symm
        unfold quadratic
        rw [inner_neg_left, ← hs1]
        simp only [map_add, inner_add_left, inner_add_right, e1, e2]
        ring
      have hdec : 0 < n → quadratic A (-P.grad (trIterate P set cmpTol w x n).x) e ≤ -delta := by
        intro hn0
        have hg := hnc n hn0 (by omega)
        have hpos : 0 < Module.finrank ℝ V := by
          have : P.grad (trIterate P set cmpTol w x n).x ≠ 0 := norm_pos_iff.1 (lt_of_lt_of_le hgt hg)
          have : Nontrivial V := ⟨⟨_, 0, this⟩⟩
          exact Module.finrank_pos
        rw [← hde, he]
        exact tcg_decrease hP.symm hT.precond hB hL hnu hn hgt hs.radius _ (by rw [norm_neg]; exact hg)
          (by have := hT.iters hpos; omega) htl.pos htl.grad htl.grad2 htl.rel _ h2
      refine ⟨s + e, by rw [trIterate_succ, n4', ← hs1, ← map_add], ?_⟩
      rw [hst, Finset.range_add_one, Finset.filter_insert]
      by_cases hb : trAtBoundary P A M ti maxIters tol tiny set cmpTol w x n
      · rw [if_pos hb, Finset.card_insert_of_notMem (by simp)]
        rcases Nat.eq_zero_or_pos n with h0 | h0
        · subst h0
          simp only [Finset.range_zero, Finset.filter_empty, Finset.card_empty, zero_add, Nat.cast_one,
            sub_self, mul_zero, add_zero]
          have e0 : s = s0 := by
            have : A (s - s0) = 0 := by rw [map_sub, hs1, hs0]; exact sub_self _
            exact sub_eq_zero.1 (SpectralBounds.injective hB this)
          rw [e0]; linarith
        · have := hdec h0
          push_cast
          linarith
      · rw [if_neg hb]
        linarith
  obtain ⟨s, -, hs2⟩ := key n hnc
  have h1 : 0 ≤ (inner ℝ s (A s) : ℝ) := le_trans (by have := hB.pos; positivity) (hB.below s)
  have h2 : (inner ℝ s0 (A s0) : ℝ) ≤ ‖P.grad x‖ ^ 2 / lam := by
    have h3 := SpectralBounds.error_le hB hs0
    have h4 : (inner ℝ s0 (A s0) : ℝ) ≤ ‖s0‖ * ‖P.grad x‖ := by rw [hs0]; exact real_inner_le_norm _ _
    have h5 := mul_le_mul_of_nonneg_right h3 (norm_nonneg (P.grad x))
    have h6 : ‖P.grad x‖ / lam * ‖P.grad x‖ = ‖P.grad x‖ ^ 2 / lam := by ring
    linarith
  generalize ((Finset.range n).filter (trAtBoundary P A M ti maxIters tol tiny set cmpTol w x)).card = c at *
  by_contra hlt
  have h3 : (bs : ℝ) + 1 ≤ c := by exact_mod_cast Nat.not_le.1 hlt
  have h4 : 2 * delta * bs ≤ 2 * delta * ((c : ℝ) - 1) := mul_le_mul_of_nonneg_left (by linarith) (by linarith)
  linarith

/-- C102. The same with every largest radius that is not below the first one: `bs` is then the number of decreases of the
energy, each at least that of the Cauchy point while the gradient exceeds its tolerance, that the energy admits. -/
theorem tr_converges_capped [FiniteDimensional ℝ V] (hP : QuadraticProblem P I A W)
    (hT : InnerTCG P A M W ti maxIters tol tiny) (hB : SpectralBounds A M lam L mu) {nu : ℝ} (hnu : 0 < nu)
    (hn : ∀ v, ‖v‖ ^ 2 ≤ nu * pnorm2 M v) (hs : TRSane set)
    (htl : TRTolerances set tol tiny) (htime : set.maxtime = none) (hcorr : set.corr_tol ^ 2 ≤ mu * set.Delta0 ^ 2)
    (cmpTol : ℝ) (fuel : Nat) (hf : set.maxIter ≤ fuel) (w : S)
    (hk0 : 0 < (ti w).kappa) (hk1 : (ti w).kappa < 1) (st : TCGStopReason) {x : X} (hx : I x) (eta : V)
    (htk : tol * tol * (L * (‖P.grad x‖ / lam)) ≤ (ti w).kappa) {J bs : Nat} (hJ : 0 < J)
    (hJk : (ti w).kappa ^ J * (L * (‖P.grad x‖ / lam)) < set.grad_tol)
    (hbs : ‖P.grad x‖ ^ 2 / lam < 2 * Spec.leastDecrease L mu nu set.Delta0 set.grad_tol * bs)
    (hmax : (((bs + 1) * J : Nat) : Int) ≤ set.maxIter) :
    ∃ s, trSolve P set cmpTol fuel w st x eta = some s ∧
      TRConverged P I W set ti lam L (ti w).kappa ((bs + 1) * J) s := by
  classical
  obtain ⟨s0, hs0⟩ := SpectralBounds.solution hB (P.grad x)
  obtain ⟨s, h1, h2⟩ := converges_of_count (QuadraticProblem.restrict hP) (restrict_undone hP.update) (InnerTCG.restrict hT I) hB hs htl htime hcorr
    cmpTol fuel hf w hk0 hk1 st hx eta htk hJ hJk hmax fun n hnc =>
      boundary_count_capped (QuadraticProblem.restrict hP) (InnerTCG.restrict hT I) hB hnu hn hs htl cmpTol w hx hs0 hbs n hnc
  rw [trSolve_restrict hP.update set cmpTol fuel w st hx eta] at h1
  exact ⟨s, h1, TRConverged.unrestrict h2⟩

end

end

end Ikarus
