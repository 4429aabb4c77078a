import Verif.TrustRegion.RestrictLemmas

/-!
Lemmas for C102: the trust region method on problems whose energy is a positive definite quadratic form.
-/

namespace Ikarus

noncomputable section

open Spec

variable {X V S : Type} [NormedAddCommGroup V] [InnerProductSpace ℝ V]

/-! ### Specification -/

/-- On the states that meet `I` the energy is quadratic: corrections from `W` change it by `g·e + 1/2 e·Ae` and the gradient
by `Ae`; gradients stay in `W`. -/
structure Spec.QuadraticProblem (P : TRProblem X V S) (I : X → Prop) (A : V →ₗ[ℝ] V) (W : Submodule ℝ V) : Prop where
  symm : Spec.Symmetric A
  keeps : ∀ v ∈ W, A v ∈ W
  update : ∀ x e, I x → I (P.update x e) ∧ P.update (P.update x e) (-e) = x
  hess : ∀ x, I x → P.hess x = A
  gradient : ∀ x, I x → P.grad x ∈ W
  grad : ∀ x, I x → ∀ e ∈ W, P.grad (P.update x e) = P.grad x + A e
  energy : ∀ x, I x → ∀ e ∈ W, ∃ E, P.energy x = some E ∧
    P.energy (P.update x e) = some (E + inner ℝ (P.grad x) e + 1 / 2 * inner ℝ e (A e))

/-- The inner solver is the truncated conjugate gradient method with matrix `A` and preconditioner `M`; `ti` is the
information it keeps. -/
structure Spec.InnerTCG (P : TRProblem X V S) (A : V →ₗ[ℝ] V) (M : V ≃ₗ[ℝ] V) (W : Submodule ℝ V) (ti : S → TCGInfo)
    (maxIters : Nat) (tol tiny : ℝ) : Prop where
  precond : Preconditioner M
  keeps : ∀ v ∈ W, M v ∈ W
  iters : 0 < Module.finrank ℝ V → Module.finrank ℝ V < maxIters
  correction : ∀ w Delta, ∀ g ∈ W, (P.inner w Delta g A 0).2.1 = (tcg A M (-g) 0 maxIters tol tiny { ti w with Delta := Delta }).1
  stop : ∀ w Delta, ∀ g ∈ W,
    (P.inner w Delta g A 0).2.2.1 = (tcg A M (-g) 0 maxIters tol tiny { ti w with Delta := Delta }).2.stop
  info : ∀ w Delta, ∀ g ∈ W, ti (P.inner w Delta g A 0).1 = (tcg A M (-g) 0 maxIters tol tiny { ti w with Delta := Delta }).2

/-- Bounds of the matrix and the preconditioner. -/
structure Spec.SpectralBounds (A : V →ₗ[ℝ] V) (M : V ≃ₗ[ℝ] V) (lam L mu : ℝ) : Prop where
  pos : 0 < lam
  pos' : 0 < mu
  nonneg : 0 ≤ L
  below : ∀ v, lam * ‖v‖ ^ 2 ≤ inner ℝ v (A v)
  above : ∀ v, ‖A v‖ ≤ L * ‖v‖
  metric : ∀ v, mu * pnorm2 M v ≤ ‖v‖ ^ 2

/-! ### The inner solver -/

theorem tcg_keeps (mat precond : V → V) (b x : V) (maxIters : Nat) (tol tiny : ℝ) (info : TCGInfo) :
    (tcg mat precond b x maxIters tol tiny info).2.kappa = info.kappa := by
  unfold tcg
  simp only
  split
  · rfl
  · split <;> rfl

/-- What the inner solver achieves. -/
theorem tcg_outcome [FiniteDimensional ℝ V] (A : V →ₗ[ℝ] V) (hA : Spec.Symmetric A) (M : V ≃ₗ[ℝ] V)
    (hM : Preconditioner M) (b : V) (maxIters : Nat) (tol tiny : ℝ) (ht : 0 < tiny) (info : TCGInfo)
    (hD : 0 < info.Delta) (hn : 0 < Module.finrank ℝ V → Module.finrank ℝ V < maxIters) :
    let r := tcg A M b 0 maxIters tol tiny info
    (r.1 = 0 ∧ (‖b‖ ≤ tiny ∨ ‖b‖ * ‖b‖ < max (tol * tol * ‖b‖ * ‖b‖) tiny)) ∨
    ((r.2.stop = .negativeCurvature ∨ r.2.stop = .exceededTrustRegion) ∧ pnorm2 M r.1 = info.Delta ^ 2) ∨
    ‖b - A r.1‖ ≤ ‖b‖ * min ‖b‖ info.kappa ∨ ‖b - A r.1‖ < max (tol * tol * ‖b‖ * ‖b‖) tiny := by
  intro r
  by_cases h1 : ‖b‖ ≤ tiny
  · left
    refine ⟨?_, Or.inl h1⟩
    show (tcg A M b 0 maxIters tol tiny info).1 = 0
    unfold tcg
    simp only
    rw [if_pos h1]
  by_cases h2 : ‖b‖ * ‖b‖ < max (tol * tol * ‖b‖ * ‖b‖) tiny
  · left
    refine ⟨?_, Or.inr h2⟩
    show (tcg A M b 0 maxIters tol tiny info).1 = 0
    unfold tcg
    simp only
    rw [if_neg h1, if_pos (by simpa using h2)]
  right
  have hstart := not_le.1 h1
  have hstart2 := not_lt.1 h2
  have hbne : b ≠ 0 := by
    intro hb0
    rw [hb0, norm_zero] at hstart
    linarith
  have hpos : 0 < Module.finrank ℝ V := by
    have : Nontrivial V := ⟨⟨b, 0, hbne⟩⟩
    exact Module.finrank_pos
  have hr : r = ((tcgLoop A M ‖b‖ (max (tol * tol * ‖b‖ * ‖b‖) tiny) info (maxIters - 1)
          (tcgStart A M b 0)).x,
        { info with
          stop := (tcgLoop A M ‖b‖ (max (tol * tol * ‖b‖ * ‖b‖) tiny) info (maxIters - 1)
            (tcgStart A M b 0)).stop,
          numInnerIter := (tcgLoop A M ‖b‖ (max (tol * tol * ‖b‖ * ‖b‖) tiny) info (maxIters - 1)
            (tcgStart A M b 0)).i }) := by
    show tcg A M b 0 maxIters tol tiny info = _
    unfold tcg
    simp only
    rw [if_neg h1, if_neg (by simpa using hstart2)]
  have h5 := tcgLoop_ends A hA M hM b (max (tol * tol * ‖b‖ * ‖b‖) tiny) (lt_max_of_lt_right ht) info (maxIters - 1) _ _
    (tcgStart_inv A M b hbne info.Delta hD) (by have := hn hpos; omega)
  obtain ⟨k1, k2, k3, -⟩ := tcg_stop_reason A hA M hM b maxIters tol tiny ht info hD hstart hstart2
  have e1 : (tcgLoop A M ‖b‖ (max (tol * tol * ‖b‖ * ‖b‖) tiny) info (maxIters - 1) (tcgStart A M b 0)).stop = r.2.stop := by
    rw [hr]
  have e2 : (tcgLoop A M ‖b‖ (max (tol * tol * ‖b‖ * ‖b‖) tiny) info (maxIters - 1) (tcgStart A M b 0)).x = r.1 := by
    rw [hr]
  rw [e1, e2] at h5
  change r.2.stop = _ ∨ r.2.stop = _ → _ at k1
  change r.2.stop = _ ∨ r.2.stop = _ → _ at k2
  change r.2.stop ≠ _ at k3
  rcases h5 with h5 | h5
  · cases hst : r.2.stop with
    | negativeCurvature => exact Or.inl ⟨Or.inl rfl, k1 (Or.inl hst)⟩
    | exceededTrustRegion => exact Or.inl ⟨Or.inr rfl, k1 (Or.inr hst)⟩
    | reachedTargetResidualKappaLinear => exact Or.inr (Or.inl (k2 (Or.inl hst)))
    | reachedTargetResidualThetaSuperLinear => exact Or.inr (Or.inl (k2 (Or.inr hst)))
    | maximumInnerIterations => exact absurd hst h5
    | modelIncreased => exact absurd hst k3
  · exact Or.inr (Or.inr h5)

/-! ### One iteration -/

/-- The settings for which the theorems hold. -/
structure Spec.TRSane (set : TRSettings) : Prop where
  prime : 0 ≤ set.rho_prime
  prime1 : set.rho_prime < 1
  reg : 0 < set.rho_reg
  radius : 0 < set.Delta0
  cap : ∀ b, set.DeltaBar = some b → set.Delta0 ≤ b
  noRand : set.useRand = false

theorem quadratic_next {P : TRProblem X V S} {I : X → Prop} {A : V →ₗ[ℝ] V} {W : Submodule ℝ V} (hP : QuadraticProblem P I A W)
    {M : V ≃ₗ[ℝ] V} {ti : S → TCGInfo} {maxIters : Nat} {tol tiny : ℝ} (hT : InnerTCG P A M W ti maxIters tol tiny)
    (ht : 0 < tiny) {set : TRSettings} (hs : TRSane set) (cmpTol : ℝ) (v : TRPoint X S) (hI : I v.x)
    (hD : set.Delta0 ≤ v.Delta) :
    let r := tcg A M (-P.grad v.x) 0 maxIters tol tiny { ti v.inner with Delta := v.Delta }
    let v' := Spec.next P set cmpTol v
    r.1 ∈ W ∧ v'.x = P.update v.x r.1 ∧ I v'.x ∧ P.grad v'.x = P.grad v.x + A r.1 ∧ v'.corrNorm = ‖r.1‖ ∧
      v'.iter = v.iter + 1 ∧ (ti v'.inner).kappa = (ti v.inner).kappa ∧ set.Delta0 ≤ v'.Delta ∧
      (set.DeltaBar = none → v.Delta ≤ v'.Delta ∧
        (r.2.stop = .negativeCurvature ∨ r.2.stop = .exceededTrustRegion → v'.Delta = 7 / 2 * v.Delta)) := by
  intro r v'
  have hDpos : 0 < v.Delta := lt_of_lt_of_le hs.radius hD
  have hg := hP.gradient _ hI
  have hc : Spec.correction P set v = P.inner v.inner v.Delta (P.grad v.x) A 0 := by
    unfold Spec.correction
    rw [if_neg (by simp [hs.noRand]), hP.hess _ hI]
  have c1 : (Spec.correction P set v).2.1 = r.1 := by rw [hc]; exact hT.correction _ _ _ hg
  have c2 : (Spec.correction P set v).2.2.1 = r.2.stop := by rw [hc]; exact hT.stop _ _ _ hg
  have c3 : ti (Spec.correction P set v).1 = r.2 := by rw [hc]; exact hT.info _ _ _ hg
  have hW : r.1 ∈ W := by
    exact tcg_mem W hP.keeps hT.keeps (W.neg_mem hg) W.zero_mem _ _ _ _
  obtain ⟨E, hE, hE'⟩ := hP.energy _ hI _ hW
  have hq := (tcg_in_trust_region A hP.symm M hT.precond (-P.grad v.x) maxIters tol tiny ht
    { ti v.inner with Delta := v.Delta } hDpos).2.1
  change quadratic A (-P.grad v.x) r.1 ≤ 0 at hq
  have hm : Spec.predicted (P.grad v.x) (P.hess v.x) r.1 = -(inner ℝ (P.grad v.x) r.1 + 1 / 2 * inner ℝ r.1 (A r.1)) := by
    unfold Spec.predicted
    rw [hP.hess _ hI, inner_add_right, inner_smul_right, real_inner_comm]
  have hq' : 0 ≤ -(inner ℝ (P.grad v.x) r.1 + 1 / 2 * inner ℝ r.1 (A r.1)) := by
    unfold quadratic at hq
    rw [inner_neg_left] at hq
    linarith
  generalize hmm : -(inner ℝ (P.grad v.x) r.1 + 1 / 2 * inner ℝ r.1 (A r.1)) = m at *
  have hE2 : P.energy (P.update v.x r.1) = some (E - m) := by
    rw [hE', ← hmm]; congr 1; ring
  have hR : 0 < Spec.regularisation set E := by
    unfold Spec.regularisation
    have : (0 : ℝ) < max 1 |E| := lt_max_of_lt_left one_pos
    have := hs.reg
    positivity
  have hacc : Spec.Accepts set cmpTol (P.energy v.x) (P.energy (P.update v.x r.1)) m := by
    refine ⟨E, E - m, hE, hE2, by linarith, ?_, Or.inl ?_⟩
    · have := hs.prime1
      nlinarith
    · have : (0 : ℝ) < 1 / 10 ^ 12 := by positivity
      linarith
  have hshr : ¬ Spec.Shrinks set cmpTol (P.energy v.x) (P.energy (P.update v.x r.1)) m := by
    refine not_not.2 ⟨E, E - m, hE, hE2, by linarith, ?_, Or.inl ?_⟩
    · have : (0 : ℝ) < m + Spec.regularisation set E := by linarith
      norm_num
      nlinarith
    · have : (0 : ℝ) < 1 / 10 ^ 12 := by positivity
      linarith
  have hgr : r.2.stop = .negativeCurvature ∨ r.2.stop = .exceededTrustRegion →
      Spec.Grows set (P.energy v.x) (P.energy (P.update v.x r.1)) m r.2.stop := by
    intro h
    refine ⟨h, E, E - m, hE, hE2, ?_⟩
    nlinarith
  have hx : v'.x = P.update v.x r.1 := by
    show (Spec.next P set cmpTol v).x = _
    rw [← c1] at hacc hm ⊢
    rw [← hm] at hacc
    exact if_pos hacc
  have hDel : v'.Delta = Spec.radius set cmpTol (P.energy v.x) (P.energy (P.update v.x r.1)) m ‖r.1‖ r.2.stop v.Delta v.rejected := by
    show (Spec.next P set cmpTol v).Delta = _
    unfold Spec.next
    simp only [c1, c2, hm]
  unfold Spec.radius at hDel
  simp only [if_neg hshr, if_pos hacc] at hDel
  refine ⟨hW, hx, by rw [hx]; exact (hP.update _ _ hI).1, by rw [hx]; exact hP.grad _ hI _ hW, ?_, rfl, ?_, ?_, ?_⟩
  · show ‖(Spec.correction P set v).2.1‖ = _
    rw [c1]
  · show (ti (Spec.correction P set v).1).kappa = _
    rw [c3]
    exact tcg_keeps _ _ _ _ _ _ _ _
  · rw [hDel]
    by_cases h : Spec.Grows set (P.energy v.x) (P.energy (P.update v.x r.1)) m r.2.stop
    · rw [if_pos h]
      cases hb : set.DeltaBar with
      | none => simp only; linarith
      | some b => exact le_min (by linarith) (hs.cap b hb)
    · rw [if_neg h]; exact hD
  · intro hb
    rw [hb] at hDel
    refine ⟨?_, fun h => ?_⟩
    · rw [hDel]
      split
      · linarith
      · exact le_rfl
    · rw [hDel, if_pos (hgr h)]

/-! ### Trajectories -/

/-- The iterates of a run. -/
def trIterate (P : TRProblem X V S) (set : TRSettings) (cmpTol : ℝ) (w : S) (x : X) (k : Nat) : TRPoint X S :=
  (Spec.next P set cmpTol)^[k] (Spec.startPoint set w x)

theorem trIterate_succ (P : TRProblem X V S) (set : TRSettings) (cmpTol : ℝ) (w : S) (x : X) (k : Nat) :
    trIterate P set cmpTol w x (k + 1) = Spec.next P set cmpTol (trIterate P set cmpTol w x k) :=
  Function.iterate_succ_apply' _ _ _

section
variable {P : TRProblem X V S} {I : X → Prop} {A : V →ₗ[ℝ] V} {W : Submodule ℝ V} {M : V ≃ₗ[ℝ] V} {ti : S → TCGInfo}
  {maxIters : Nat} {tol tiny : ℝ} {set : TRSettings} {lam L mu : ℝ}

/-- The energy norm of the error does not increase. -/
theorem energyNorm_step (hA : Spec.Symmetric A) {g s e : V} (hs : A s = g) (hq : quadratic A (-g) e ≤ 0) :
    inner ℝ (s + e) (A (s + e)) ≤ (inner ℝ s (A s) : ℝ) := by
  unfold quadratic at hq
  have e1 : inner ℝ e (A s) = (inner ℝ (A s) e : ℝ) := real_inner_comm _ _
  have e2 : inner ℝ s (A e) = (inner ℝ (A s) e : ℝ) := (hA s e).symm
  rw [inner_neg_left, ← hs] at hq
  simp only [map_add, inner_add_left, inner_add_right, e1, e2]
  linarith

theorem trIterate_spec (hP : QuadraticProblem P I A W) (hT : InnerTCG P A M W ti maxIters tol tiny)
    (ht : 0 < tiny) (hs : TRSane set) (cmpTol : ℝ) (w : S) {x : X} (hx : I x) {s0 : V} (hs0 : A s0 = P.grad x) (k : Nat) :
    let v := trIterate P set cmpTol w x k
    I v.x ∧ set.Delta0 ≤ v.Delta ∧ v.iter = k ∧ (ti v.inner).kappa = (ti w).kappa ∧
      ∃ s, A s = P.grad v.x ∧ inner ℝ s (A s) ≤ (inner ℝ s0 (A s0) : ℝ) := by
  induction k with
  | zero => exact ⟨hx, le_rfl, rfl, rfl, s0, hs0, le_rfl⟩
  | succ k ih =>
    obtain ⟨h1, h2, h3, h4, s, h5, h6⟩ := ih
    obtain ⟨-, -, n3, n4, -, n6, n7, n8, -⟩ := quadratic_next hP hT ht hs cmpTol _ h1 h2
    have hq := (tcg_in_trust_region A hP.symm M hT.precond (-P.grad (trIterate P set cmpTol w x k).x) maxIters tol tiny ht
      { ti (trIterate P set cmpTol w x k).inner with Delta := (trIterate P set cmpTol w x k).Delta }
      (lt_of_lt_of_le hs.radius h2)).2.1
    rw [trIterate_succ]
    refine ⟨n3, n8, by rw [n6, h3], by rw [n7, h4], _, ?_, (energyNorm_step hP.symm h5 hq).trans h6⟩
    rw [n4, map_add, h5]

theorem SpectralBounds.injective (hB : SpectralBounds A M lam L mu) {v : V} (hv : A v = 0) : v = 0 := by
  have := hB.below v
  rw [hv, inner_zero_right] at this
  have h2 : ‖v‖ ^ 2 ≤ 0 := by
    by_contra h
    have := mul_pos hB.pos (not_le.1 h)
    linarith
  exact norm_eq_zero.1 (by nlinarith [norm_nonneg v])

theorem SpectralBounds.solution [FiniteDimensional ℝ V] (hB : SpectralBounds A M lam L mu) (g : V) : ∃ s, A s = g :=
  LinearMap.injective_iff_surjective.1
    ((injective_iff_map_eq_zero A).2 fun _ h => SpectralBounds.injective hB h) g

theorem SpectralBounds.solution_mem [FiniteDimensional ℝ V] (hB : SpectralBounds A M lam L mu) (hW : ∀ v ∈ W, A v ∈ W) {g : V}
    (hg : g ∈ W) : ∃ s ∈ W, A s = g := by
  have hi : Function.Injective (A.restrict hW) := by
    refine (injective_iff_map_eq_zero _).2 fun v hv => ?_
    have h1 : A v = 0 := congrArg Subtype.val hv
    exact Subtype.ext (SpectralBounds.injective hB h1)
  obtain ⟨s, hs⟩ := LinearMap.injective_iff_surjective.1 hi ⟨g, hg⟩
  exact ⟨s, s.2, congrArg Subtype.val hs⟩

theorem SpectralBounds.error_le (hB : SpectralBounds A M lam L mu) {s g : V} (hs : A s = g) : ‖s‖ ≤ ‖g‖ / lam := by
  have h1 := hB.below s
  rw [hs] at h1
  have h2 := real_inner_le_norm s g
  rw [le_div_iff₀ hB.pos]
  rcases (norm_nonneg s).eq_or_lt with h | h
  · rw [← h, zero_mul]; exact norm_nonneg g
  · have : ‖s‖ * (‖s‖ * lam) ≤ ‖s‖ * ‖g‖ := by nlinarith
    exact le_of_mul_le_mul_left this h

/-- Errors that are not larger than the first one in the energy norm. -/
theorem SpectralBounds.error_bound (hB : SpectralBounds A M lam L mu) {s s0 g0 : V} (hs0 : A s0 = g0)
    (h : inner ℝ s (A s) ≤ (inner ℝ s0 (A s0) : ℝ)) : ‖s‖ ≤ ‖g0‖ / lam := by
  have h1 := hB.below s
  have h2 : (inner ℝ s0 (A s0) : ℝ) ≤ ‖s0‖ * ‖g0‖ := by rw [hs0]; exact real_inner_le_norm _ _
  have h3 := SpectralBounds.error_le hB hs0
  have h4 : lam * ‖s‖ ^ 2 ≤ ‖g0‖ / lam * ‖g0‖ :=
    h1.trans (h.trans (h2.trans (mul_le_mul_of_nonneg_right h3 (norm_nonneg _))))
  have h5 : ‖s‖ ^ 2 ≤ (‖g0‖ / lam) ^ 2 := by
    have : lam * (‖g0‖ / lam) ^ 2 = ‖g0‖ / lam * ‖g0‖ := by
      have := hB.pos
      field_simp
    rw [← this] at h4
    exact le_of_mul_le_mul_left h4 hB.pos
  exact (sq_le_sq₀ (norm_nonneg _) (div_nonneg (norm_nonneg _) hB.pos.le)).1 h5

/-- What an iteration achieves: it stops at the boundary, reduces the gradient or brings it below the tolerance. -/
theorem iteration_outcome [FiniteDimensional ℝ V] (hP : QuadraticProblem P I A W) (hT : InnerTCG P A M W ti maxIters tol tiny)
    (ht : 0 < tiny) (hs : TRSane set) (ht1 : tiny < set.grad_tol) (ht2 : tiny ≤ set.grad_tol ^ 2) (htol : tol * tol ≤ 1)
    (cmpTol : ℝ) (v : TRPoint X S) (hI : I v.x) (hD : set.Delta0 ≤ v.Delta)
    (hk : tol * tol * ‖P.grad v.x‖ ≤ (ti v.inner).kappa) :
    let r := tcg A M (-P.grad v.x) 0 maxIters tol tiny { ti v.inner with Delta := v.Delta }
    let v' := Spec.next P set cmpTol v
    ((r.2.stop = .negativeCurvature ∨ r.2.stop = .exceededTrustRegion) ∧ pnorm2 M r.1 = v.Delta ^ 2) ∨
      ‖P.grad v'.x‖ ≤ (ti v.inner).kappa * ‖P.grad v.x‖ ∨ ‖P.grad v'.x‖ < set.grad_tol := by
  intro r v'
  obtain ⟨-, -, -, n4, -⟩ := quadratic_next hP hT ht hs cmpTol v hI hD
  have hg : ‖-P.grad v.x - A r.1‖ = ‖P.grad v'.x‖ := by
    rw [n4, ← norm_neg]
    congr 1
    show _ = P.grad v.x + A r.1
    abel
  have hn : ‖-P.grad v.x‖ = ‖P.grad v.x‖ := norm_neg _
  have ho := tcg_outcome A hP.symm M hT.precond (-P.grad v.x) maxIters tol tiny ht { ti v.inner with Delta := v.Delta }
    (lt_of_lt_of_le hs.radius hD) hT.iters
  change (r.1 = 0 ∧ _) ∨ (_ ∧ pnorm2 M r.1 = v.Delta ^ 2) ∨ ‖-P.grad v.x - A r.1‖ ≤ _ * min _ (ti v.inner).kappa ∨
    ‖-P.grad v.x - A r.1‖ < _ at ho
  rw [hg, hn] at ho
  have hg0 := norm_nonneg (P.grad v.x)
  have hsq : ‖P.grad v.x‖ * ‖P.grad v.x‖ < tiny → ‖P.grad v.x‖ < set.grad_tol := by
    intro h
    have : 0 < set.grad_tol := ht.trans ht1
    nlinarith
  rcases ho with ⟨h0, h⟩ | h | h | h
  · right; right
    have : P.grad v'.x = P.grad v.x := by
      rw [n4]
      show P.grad v.x + A r.1 = _
      rw [h0, map_zero, add_zero]
    rw [this]
    rcases h with h | h
    · exact lt_of_le_of_lt h ht1
    · rcases lt_max_iff.1 h with h | h
      · exfalso
        nlinarith [mul_nonneg hg0 hg0]
      · exact hsq h
  · exact Or.inl h
  · right; left
    rw [mul_comm]
    exact h.trans (mul_le_mul_of_nonneg_left (min_le_right _ _) hg0)
  · rcases lt_max_iff.1 h with h | h
    · right; left
      refine h.le.trans ?_
      exact mul_le_mul_of_nonneg_right hk hg0
    · right; right
      exact h.trans ht1

end

/-! ### Counting iterations -/

/-- If every iteration stops at the boundary or reduces by the factor `kappa`, and at most `bs` stop at the boundary, the
tolerance is reached within `(bs + 1) J` iterations. -/
theorem count_iterations (a : Nat → ℝ) (B : Nat → Prop) [DecidablePred B] {kappa G gamma : ℝ} {J bs : Nat} (hJ : 0 < J)
    (h0 : 0 ≤ kappa) (hG : ∀ k, a k ≤ G) (hJk : kappa ^ J * G < gamma)
    (hstep : ∀ k, B k ∨ a (k + 1) ≤ kappa * a k ∨ a (k + 1) < gamma)
    (hB : ∀ n, (∀ k, 0 < k → k < n → gamma ≤ a k) → ((Finset.range n).filter B).card ≤ bs) :
    ∃ k, 0 < k ∧ k ≤ (bs + 1) * J ∧ a k < gamma := by
  by_contra hno
  push Not at hno
  have key : ∀ k, k ≤ (bs + 1) * J → ∃ j < J, k ≤ ((Finset.range k).filter B).card * J + j ∧ a k ≤ kappa ^ j * G := by
    intro k
    induction k with
    | zero => exact fun _ => ⟨0, hJ, by simp, by simpa using hG 0⟩
    | succ k ih =>
      intro hk
      obtain ⟨j, hj, h1, h2⟩ := ih (by omega)
      have hno' := hno (k + 1) (by omega) hk
      rw [Finset.range_add_one, Finset.filter_insert]
      by_cases hb : B k
      · rw [if_pos hb, Finset.card_insert_of_notMem (by simp)]
        refine ⟨0, hJ, ?_, by simpa using hG _⟩
        rw [Nat.add_mul]
        omega
      · rw [if_neg hb]
        rcases hstep k with h | h | h
        · exact absurd h hb
        · have h3 : a (k + 1) ≤ kappa ^ (j + 1) * G := by
            refine h.trans ?_
            rw [pow_succ', mul_assoc]
            exact mul_le_mul_of_nonneg_left h2 h0
          rcases Nat.lt_or_ge (j + 1) J with h4 | h4
          · exact ⟨j + 1, h4, by omega, h3⟩
          · obtain rfl : j + 1 = J := by omega
            linarith
        · linarith
  obtain ⟨j, hj, h1, -⟩ := key _ le_rfl
  have h2 := hB ((bs + 1) * J) fun k hk hlt => hno k hk hlt.le
  have h3 := Nat.mul_le_mul_right J h2
  have h4 : (bs + 1) * J = bs * J + J := by ring
  generalize ((Finset.range ((bs + 1) * J)).filter B).card * J = c at h1 h3
  omega

end

end Ikarus
