import Verif.Analysis.TrustLinearLemmas

/-!
C102, structures: the trust region method, alone and within load control, on linear structures whose supports suffice.
-/

namespace Ikarus

noncomputable section

open Analysis

/-! ### Specification -/

/-- The second difference of the energy along every direction that keeps the constrained dofs lies between `lam` and `L`
times the square of its length. -/
structure Spec.StiffnessBounds (a : Analysis) (lam L : ℝ) : Prop where
  pos : 0 < lam
  le : lam ≤ L
  unit : a.option = .full → lam ≤ 1 ∧ 1 ≤ L
  bounds : ∀ (l : ℝ) (x v : List ℝ), x.length = a.dv.flags.length → v.length = a.dv.flags.length →
    (∀ i : Nat, a.dv.flags[i]? = some true → v[i]? = some 0) → ∃ p q r, (a.system l).scalar? (Spec.line x v 1) = some p ∧
      (a.system l).scalar? (Spec.line x v (-1)) = some q ∧ (a.system l).scalar? x = some r ∧
      lam * (v.map fun t => t * t).sum ≤ p + q - 2 * r ∧ p + q - 2 * r ≤ L * (v.map fun t => t * t).sum

/-- What the configured preconditioner makes of the matrices of the structure is linear, symmetric and positive definite. -/
structure Spec.PrecondBounds (a : Analysis) (c : TrustConfig a.trSize) (mu nu : ℝ) : Prop where
  pos : 0 < mu
  pos' : 0 < nu
  linear : ∀ (l : ℝ) (u : List ℝ), u.length = a.dv.flags.length → ∀ (r s : TRVec a.trSize) (t : ℝ),
    c.precond ((a.trProblem c).hess ⟨l, some u⟩) (r + t • s) =
      c.precond ((a.trProblem c).hess ⟨l, some u⟩) r + t • c.precond ((a.trProblem c).hess ⟨l, some u⟩) s
  symm : ∀ (l : ℝ) (u : List ℝ), u.length = a.dv.flags.length → ∀ r s : TRVec a.trSize,
    Inner.inner ℝ (c.precond ((a.trProblem c).hess ⟨l, some u⟩) r) s =
      Inner.inner ℝ r (c.precond ((a.trProblem c).hess ⟨l, some u⟩) s)
  bounds : ∀ (l : ℝ) (u : List ℝ), u.length = a.dv.flags.length → ∀ r : TRVec a.trSize,
    mu * ‖r‖ ^ 2 ≤ Inner.inner ℝ r (c.precond ((a.trProblem c).hess ⟨l, some u⟩) r) ∧
      Inner.inner ℝ r (c.precond ((a.trProblem c).hess ⟨l, some u⟩) r) ≤ nu * ‖r‖ ^ 2

/-! ### Bounds -/

section
variable {V : Type} [NormedAddCommGroup V] [InnerProductSpace ℝ V]

theorem psd_norm_le {A : V →ₗ[ℝ] V} (hA : Spec.Symmetric A) {L : ℝ} (hL : 0 < L) (h0 : ∀ v, 0 ≤ (Inner.inner ℝ v (A v) : ℝ))
    (h1 : ∀ v, (Inner.inner ℝ v (A v) : ℝ) ≤ L * ‖v‖ ^ 2) (v : V) : ‖A v‖ ^ 2 ≤ L * Inner.inner ℝ v (A v) := by
  have h2 := h0 (v + (-(1 / L)) • A v)
  have h3 := h1 (A v)
  have e1 : (Inner.inner ℝ v (A (A v)) : ℝ) = ‖A v‖ ^ 2 := by
    rw [← hA v (A v), real_inner_self_eq_norm_sq]
  have e2 : (Inner.inner ℝ (A v) (A v) : ℝ) = ‖A v‖ ^ 2 := real_inner_self_eq_norm_sq _
  simp only [map_add, map_smul, inner_add_left, inner_add_right, inner_smul_left, inner_smul_right, conj_trivial, e1, e2] at h2
  generalize (Inner.inner ℝ (A v) (A (A v)) : ℝ) = p at *
  generalize (Inner.inner ℝ v (A v) : ℝ) = q at *
  generalize ‖A v‖ ^ 2 = s at *
  have h4 : L * (q + -(1 / L) * s + -(1 / L) * (s + -(1 / L) * p)) = L * q - 2 * s + p / L := by
    field_simp
    ring
  have h5 : p / L ≤ s := by rw [div_le_iff₀ hL]; linarith
  have h6 : 0 ≤ L * (q + -(1 / L) * s + -(1 / L) * (s + -(1 / L) * p)) := mul_nonneg hL.le (by linarith)
  rw [h4] at h6
  linarith

end

namespace Analysis
variable {a : Analysis} {pos : Fin a.trSize → Nat} {K : DMat ℝ} {e : ℝ → ℝ} {g : ℝ → Nat → ℝ}

/-- The second difference of the energy. -/
theorem second_difference (hA : AffineSystem a.system a.dv.flags.length K e g) (l : ℝ) {x v : List ℝ}
    (hx : x.length = a.dv.flags.length) (hv : v.length = a.dv.flags.length) :
    ∃ p q r, (a.system l).scalar? (Spec.line x v 1) = some p ∧ (a.system l).scalar? (Spec.line x v (-1)) = some q ∧
      (a.system l).scalar? x = some r ∧ p + q - 2 * r = bil K a.dv.flags.length (v.getD · 0) (v.getD · 0) := by
  have hd : ∀ t : ℝ, ∀ i < a.dv.flags.length, (Spec.line x v t).getD i 0 - x.getD i 0 = t * v.getD i 0 := by
    intro t i hi
    rw [List.getD_eq_getElem?_getD, line_getElem x v t (by omega) (by omega), Option.getD_some]
    ring
  have hb : ∀ t : ℝ, bil K a.dv.flags.length (fun i => (Spec.line x v t).getD i 0 - x.getD i 0)
      (fun i => (Spec.line x v t).getD i 0 - x.getD i 0) = t * t * bil K a.dv.flags.length (v.getD · 0) (v.getD · 0) := by
    intro t
    rw [bil_congr K _ (hd t) (hd t)]
    unfold bil
    rw [Finset.mul_sum]
    refine Finset.sum_congr rfl fun i _ => ?_
    rw [Finset.mul_sum]
    exact Finset.sum_congr rfl fun j _ => by ring
  have hr : ∀ t : ℝ, ∑ i ∈ Finset.range a.dv.flags.length, resAt K g a.dv.flags.length l x i *
      ((Spec.line x v t).getD i 0 - x.getD i 0) = t * ∑ i ∈ Finset.range a.dv.flags.length, resAt K g a.dv.flags.length l x i * v.getD i 0 := by
    intro t
    rw [Finset.mul_sum]
    refine Finset.sum_congr rfl fun i hi => ?_
    rw [hd t i (Finset.mem_range.1 hi)]
    ring
  obtain ⟨r1, p1, f1, f2, f3⟩ := energy_difference hA l hx (y := Spec.line x v 1) (by rw [line_length x v _ (by omega), hx])
  obtain ⟨r2, q1, f4, f5, f6⟩ := energy_difference hA l hx (y := Spec.line x v (-1)) (by rw [line_length x v _ (by omega), hx])
  rw [f1] at f4
  cases f4
  refine ⟨p1, q1, r1, f2, f5, f1, ?_⟩
  rw [hb, hr] at f3 f6
  rw [f3, f6]
  ring

/-- The list with the entries of a correction. -/
theorem spread_list (h : a.option ≠ .raw) (hp : Layout a pos) {v : TRVec a.trSize} (hv : v ∈ a.calm) :
    let w := listOf a.dv.flags.length (a.spread v)
    w.length = a.dv.flags.length ∧ (∀ i : Nat, a.dv.flags[i]? = some true → w[i]? = some 0) ∧
      (w.map fun t => t * t).sum = ‖v‖ ^ 2 := by
  intro w
  have hw : w.length = a.dv.flags.length := listOf_length _ _
  have hwd : ∀ i < a.dv.flags.length, w.getD i 0 = a.spread v i := fun i hi => listOf_getD _ _ hi
  refine ⟨hw, fun i hi => ?_, ?_⟩
  · have hlt : i < a.dv.flags.length := (List.getElem?_eq_some_iff.1 hi).1
    rw [getElem?_eq_getD (hw ▸ hlt), hwd i hlt]
    congr 1
    by_cases hc : ∃ k, pos k = i
    · obtain ⟨k, rfl⟩ := hc
      rw [hp.spread_pos]
      exact (hp.calm_iff v).1 hv k ((not_free_iff hlt).2 hi)
    · exact hp.spread_zero h v hlt fun k hk => hc ⟨k, hk⟩
  · rw [list_sum_getD, List.length_map, hw, norm_sum]
    have e1 : ∑ i, v i * v i = ∑ j ∈ Finset.range a.dv.flags.length, a.spread v j * a.spread v j := by
      rw [hp.sum h (a.spread v) v]
      exact Finset.sum_congr rfl fun i _ => by rw [hp.spread_pos]
    rw [e1]
    refine Finset.sum_congr rfl fun i hi => ?_
    have hi := Finset.mem_range.1 hi
    simp only [List.getD_eq_getElem?_getD, List.getElem?_map]
    rw [getElem?_eq_getD (hw ▸ hi), hwd i hi]; rfl

theorem stiff_bounds (h : a.option ≠ .raw) (hp : Layout a pos) (hA : AffineSystem a.system a.dv.flags.length K e g) {lam L : ℝ}
    (hb : Spec.StiffnessBounds a lam L) (v : TRVec a.trSize) :
    lam * ‖v‖ ^ 2 ≤ Inner.inner ℝ v (a.stiff pos K v) ∧ Inner.inner ℝ v (a.stiff pos K v) ≤ L * ‖v‖ ^ 2 := by
  obtain ⟨w1, w2, w3⟩ := spread_list h hp (calmPart_mem hp v)
  have hx : (List.replicate a.dv.flags.length (0 : ℝ)).length = a.dv.flags.length := List.length_replicate
  obtain ⟨p, q, r, b1, b2, b3, b4, b5⟩ := hb.bounds 0 _ _ hx w1 w2
  obtain ⟨p', q', r', c1, c2, c3, c4⟩ := second_difference hA 0 hx w1
  rw [b1] at c1
  rw [b2] at c2
  rw [b3] at c3
  cases c1; cases c2; cases c3
  rw [c4, w3, bil_congr K _ (fun i hi => listOf_getD _ _ hi) (fun i hi => listOf_getD _ _ hi)] at b4 b5
  rw [stiff_form h hp, calmPart_norm (pos := pos) v]
  obtain ⟨s, hs⟩ : ∃ s, s = ∑ i, if Spec.Free a.dv.flags (pos i) then 0 else v i * v i := ⟨_, rfl⟩
  rw [← hs]
  have hs0 : 0 ≤ s := by
    rw [hs]
    refine Finset.sum_nonneg fun i _ => ?_
    split
    · exact le_rfl
    · exact mul_self_nonneg _
  by_cases ho : a.option = .full
  · obtain ⟨u1, u2⟩ := hb.unit ho
    constructor <;> nlinarith
  · have : s = 0 := by
      rw [hs]
      exact Finset.sum_eq_zero fun i _ => if_pos (hp.free ho i)
    rw [this, add_zero, add_zero]
    exact ⟨b4, b5⟩

/-- The preconditioner as a linear map. -/
theorem exists_precond (h : a.option ≠ .raw) (hp : Layout a pos) (hA : AffineSystem a.system a.dv.flags.length K e g)
    {c : TrustConfig a.trSize} {mu nu : ℝ} (hc : Spec.PrecondBounds a c mu nu) :
    ∃ M : TRVec a.trSize ≃ₗ[ℝ] TRVec a.trSize, c.precond (a.stiff pos K) = M ∧ Spec.Preconditioner M ∧
      (∀ v, mu * Spec.pnorm2 M v ≤ ‖v‖ ^ 2) ∧ ∀ v, ‖v‖ ^ 2 ≤ nu * Spec.pnorm2 M v := by
  have hx : (List.replicate a.dv.flags.length (0 : ℝ)).length = a.dv.flags.length := List.length_replicate
  have hh := (trust_hess_eq h hp hA c 0 hx).1
  have h1 := hc.linear 0 _ hx
  have h2 := hc.symm 0 _ hx
  have h3 := hc.bounds 0 _ hx
  rw [hh] at h1 h2 h3
  obtain ⟨p, hpre⟩ : ∃ p, p = c.precond (a.stiff pos K) := ⟨_, rfl⟩
  rw [← hpre] at h1 h2 h3
  rw [← hpre]
  have h0 : p 0 = 0 := by
    have := h1 0 0 1
    simpa using this
  let f : TRVec a.trSize →ₗ[ℝ] TRVec a.trSize :=
    { toFun := p
      map_add' := fun r s => by
        have := h1 r s 1
        rwa [one_smul, one_smul] at this
      map_smul' := fun t s => by
        have := h1 0 s t
        rwa [zero_add, h0, zero_add] at this }
  have hpos : ∀ r, r ≠ 0 → 0 < (Inner.inner ℝ r (p r) : ℝ) := fun r hr =>
    lt_of_lt_of_le (mul_pos hc.pos (by have := norm_pos_iff.2 hr; positivity)) (h3 r).1
  have hinj : Function.Injective f := by
    rw [injective_iff_map_eq_zero]
    intro r hr
    by_contra hne
    have h4 := hpos r hne
    have h5 : p r = 0 := hr
    rw [h5, inner_zero_right] at h4
    exact absurd h4 (lt_irrefl _)
  let M := LinearEquiv.ofInjectiveEndo f hinj
  have hM : (M : TRVec a.trSize → TRVec a.trSize) = p := rfl
  refine ⟨M, hM.symm, ⟨h2, hpos⟩, fun v => ?_, fun v => ?_⟩
  · obtain ⟨w, rfl⟩ := M.surjective v
    unfold Spec.pnorm2
    rw [LinearEquiv.symm_apply_apply]
    have h4 := (h3 w).1
    have h5 := real_inner_le_norm w (p w)
    show mu * Inner.inner ℝ (p w) w ≤ ‖p w‖ ^ 2
    rw [real_inner_comm]
    have h6 : mu * ‖w‖ ≤ ‖p w‖ := by
      by_cases hw : w = 0
      · rw [hw, norm_zero, mul_zero]; exact norm_nonneg _
      · have := norm_pos_iff.2 hw
        have h7 : ‖w‖ * (mu * ‖w‖) ≤ ‖w‖ * ‖p w‖ := by nlinarith
        exact le_of_mul_le_mul_left h7 this
    nlinarith [norm_nonneg (p w), norm_nonneg w, hc.pos, mul_le_mul_of_nonneg_left h5 hc.pos.le,
      mul_le_mul_of_nonneg_right h6 (norm_nonneg (p w))]
  · obtain ⟨w, rfl⟩ := M.surjective v
    unfold Spec.pnorm2
    rw [LinearEquiv.symm_apply_apply]
    have h4 := psd_norm_le (A := f) h2 hc.pos'
      (fun v => (mul_nonneg hc.pos.le (sq_nonneg _)).trans (h3 v).1) (fun v => (h3 v).2) w
    rw [real_inner_comm]
    exact h4

/-- The solver is the truncated conjugate gradient method. -/
theorem trust_inner (h : Spec.TrustProper a) (hp : Layout a pos) (hA : AffineSystem a.system a.dv.flags.length K e g)
    (c : TrustConfig a.trSize) (hz : a.option = .full → Spec.KeepsZeros a.dv.flags c.precond)
    {M : TRVec a.trSize ≃ₗ[ℝ] TRVec a.trSize} (hM : c.precond (a.stiff pos K) = M) (hpre : Spec.Preconditioner M) :
    Spec.InnerTCG (a.trProblem c) (a.stiff pos K) M a.calm Prod.fst (2 * a.trSize) c.tol c.tiny := by
  have hx : (List.replicate a.dv.flags.length (0 : ℝ)).length = a.dv.flags.length := List.length_replicate
  have ht := (trust_hess_eq h.option hp hA c 0 hx).2
  have hi : ∀ w Delta g, (a.trProblem c).inner w Delta g (a.stiff pos K) 0 =
      ((((tcg (a.stiff pos K) M (-g) 0 (2 * a.trSize) c.tol c.tiny { w.1 with Delta := Delta }).2, w.2 + 1),
        (tcg (a.stiff pos K) M (-g) 0 (2 * a.trSize) c.tol c.tiny { w.1 with Delta := Delta }).1,
        (tcg (a.stiff pos K) M (-g) 0 (2 * a.trSize) c.tol c.tiny { w.1 with Delta := Delta }).2.stop,
        (tcg (a.stiff pos K) M (-g) 0 (2 * a.trSize) c.tol c.tiny { w.1 with Delta := Delta }).2.numInnerIter)) := by
    intro w Delta g
    show c.inner w Delta g (a.stiff pos K) 0 = _
    unfold TrustConfig.inner
    rw [ht, hM]
  refine ⟨hpre, fun v hv ho i hfi => ?_, fun hr => ?_, fun w D g _ => by rw [hi], fun w D g _ => by rw [hi], fun w D g _ => by rw [hi]⟩
  · rw [← hM]
    refine hz ho _ _ (fun i j hij => ?_) (hv ho) i hfi
    have hent : TRVec.entry (a.stiff pos K) i j =
        if Spec.Free a.dv.flags (pos i) ∧ Spec.Free a.dv.flags (pos j) then K.val (pos i) (pos j) else if i = j then 1 else 0 := by
      unfold TRVec.entry
      rw [stiff_apply]
      simp
    rw [hent, if_neg]
    rintro ⟨h1, h2⟩
    rw [hp.same ho] at h1 h2
    rcases hij with hf | hf
    · exact (not_free_iff (List.getElem?_eq_some_iff.1 hf).1).2 hf h1
    · exact (not_free_iff (List.getElem?_eq_some_iff.1 hf).1).2 hf h2
  · simp only [finrank_euclideanSpace, Fintype.card_fin] at hr ⊢
    omega

theorem trust_spectral (h : a.option ≠ .raw) (hp : Layout a pos) (hA : AffineSystem a.system a.dv.flags.length K e g) {lam L mu : ℝ}
    (hb : Spec.StiffnessBounds a lam L) {M : TRVec a.trSize ≃ₗ[ℝ] TRVec a.trSize} (hmu : 0 < mu)
    (hM : ∀ v, mu * Spec.pnorm2 M v ≤ ‖v‖ ^ 2) : Spec.SpectralBounds (a.stiff pos K) M lam L mu := by
  have hL : 0 < L := lt_of_lt_of_le hb.pos hb.le
  have hbd := stiff_bounds h hp hA hb
  refine ⟨hb.pos, hmu, hL.le, fun v => (hbd v).1, fun v => ?_, hM⟩
  have h1 := psd_norm_le (stiff_symm hp hA) hL (fun v => (mul_nonneg hb.pos.le (sq_nonneg _)).trans (hbd v).1) (fun v => (hbd v).2) v
  have h2 := (hbd v).2
  have h3 : ‖a.stiff pos K v‖ ^ 2 ≤ (L * ‖v‖) ^ 2 := by nlinarith
  exact (sq_le_sq₀ (norm_nonneg _) (mul_nonneg hL.le (norm_nonneg _))).1 h3

end Analysis

/-! ### One solve -/

/-- The numbers `J` and `bs` suffice for a start with residual norm at most `G`: `J` iterations of the inner solver that end
by its own tolerance, and `bs` that end at the boundary of the trust region. -/
structure Spec.EnoughIterations (set : TRSettings) (kappa lam L mu nu G : ℝ) (J bs : Nat) : Prop where
  pos : 0 < J
  reduce : kappa ^ J * (L * (G / lam)) < set.grad_tol
  radius : (set.DeltaBar = none ∧ (2 * (G / lam)) ^ 2 < mu * ((7 / 2) ^ bs * set.Delta0) ^ 2) ∨
    G ^ 2 / lam < 2 * Spec.leastDecrease L mu nu set.Delta0 set.grad_tol * bs
  enough : (((bs + 1) * J : Nat) : Int) ≤ set.maxIter

/-- The tolerance that the result meets. -/
def Spec.trustTol (set : TRSettings) (kappa L : ℝ) : ℝ := max set.grad_tol (kappa / (1 - kappa) * (L * set.corr_tol))

/-- The configuration suits the structure. -/
structure Spec.TrustSuits (a : Analysis) (c : TrustConfig a.trSize) (lam L mu nu : ℝ) : Prop where
  stiffness : Spec.StiffnessBounds a lam L
  precond : Spec.PrecondBounds a c mu nu
  zeros : a.option = .full → Spec.KeepsZeros a.dv.flags c.precond
  sane : Spec.TRSane c.parameters
  tolerances : Spec.TRTolerances c.parameters c.tol c.tiny
  time : c.parameters.maxtime = none
  corr : c.parameters.corr_tol ^ 2 ≤ mu * c.parameters.Delta0 ^ 2

/-- C102. One solve of a linear structure whose supports suffice, Full or Reduced, from every state, with every linear,
symmetric, positive definite preconditioner: it succeeds within the stated number of iterations, keeps the constrained dofs,
and ends at a state in equilibrium up to the stated tolerance, at most this tolerance divided by the smallest stiffness from
the state of least energy. -/
theorem trust_linear_solve {a : Analysis} (h : Spec.TrustProper a) (hel : Spec.LinearElems a.dv.flags.length a.elems)
    (c : TrustConfig a.trSize) {lam L mu nu : ℝ} (hc : Spec.TrustSuits a c lam L mu nu) (w : TRMemory a.trSize)
    (hk0 : 0 < w.info.kappa) (hk1 : w.info.kappa < 1) (l stepSize : ℝ) {u : List ℝ} (hu : u.length = a.dv.flags.length) {G : ℝ}
    (hG : ∀ r, (a.system l).rawVector? u = some r → Real.sqrt (freeSq a.dv.flags (r.getD · 0)) ≤ G)
    (htk : c.tol * c.tol * (L * (G / lam)) ≤ w.info.kappa) {J bs : Nat}
    (hn : Spec.EnoughIterations c.parameters w.info.kappa lam L mu nu G J bs) :
    ∃ w' y info, (a.trSolver c).solve w ⟨l, some u⟩ stepSize = (w', ⟨l, some y⟩, info) ∧ info.success = true ∧
      0 < info.iterations ∧ info.iterations ≤ (((bs + 1) * J : Nat) : Int) ∧ w'.info.kappa = w.info.kappa ∧
      (∀ r, (a.system l).rawVector? y = some r →
        Real.sqrt (freeSq a.dv.flags (r.getD · 0)) ≤ Spec.trustTol c.parameters w.info.kappa L) ∧
      Spec.InEquilibrium a.dv.flags (a.system l).scalar? (u.getD · 0) 1 (Spec.trustTol c.parameters w.info.kappa L) y ∧
      ∃ z, Spec.InEquilibrium a.dv.flags (a.system l).scalar? (u.getD · 0) 1 0 z ∧
        Spec.distance y z ≤ Spec.trustTol c.parameters w.info.kappa L / lam := by
  obtain ⟨pos, hp⟩ := exists_layout h.option
  obtain ⟨K, e, g, hA⟩ := linear_system a.dv.flags a.elems hel
  have hA : AffineSystem a.system a.dv.flags.length K e g := hA
  obtain ⟨M, hM, hpre, hmu, hnu⟩ := exists_precond h.option hp hA hc.precond
  have hP := trust_quadratic h hp hA c l
  have hT := trust_inner h hp hA c hc.zeros hM hpre
  have hB := trust_spectral h.option hp hA hc.stiffness hc.precond.pos hmu
  have hx : a.Sized l ⟨l, some u⟩ := ⟨u, rfl, hu⟩
  have hg0 : ‖(a.trProblem c).grad ⟨l, some u⟩‖ ≤ G := by
    obtain ⟨r, r1, r2, -⟩ := hA.vector l u hu
    rw [(trust_grad h c r1 r2).2]
    exact hG r r1
  have hlam := hc.stiffness.pos
  have hL : 0 ≤ L := hB.nonneg
  have hG0 : 0 ≤ G := (norm_nonneg _).trans hg0
  have hgl : ‖(a.trProblem c).grad ⟨l, some u⟩‖ / lam ≤ G / lam := div_le_div_of_nonneg_right hg0 hlam.le
  have hLg := mul_le_mul_of_nonneg_left hgl hL
  have htk' := (mul_le_mul_of_nonneg_left hLg (mul_self_nonneg c.tol)).trans htk
  have hJk := lt_of_le_of_lt (mul_le_mul_of_nonneg_left hLg (pow_nonneg hk0.le J)) hn.reduce
  have hconv : ∃ s, trSolve (a.trProblem c) c.parameters c.cmpTol c.parameters.maxIter.toNat (w.info, w.draws) w.info.stop ⟨l, some u⟩
      w.eta = some s ∧ Spec.TRConverged (a.trProblem c) (a.Sized l) a.calm c.parameters Prod.fst lam L w.info.kappa ((bs + 1) * J) s := by
    rcases hn.radius with ⟨hr1, hr2⟩ | hr
    · refine tr_converges hP hT hB hc.sane hc.tolerances hc.time hc.corr hr1 c.cmpTol _ (by omega) (w.info, w.draws) hk0 hk1
        w.info.stop hx w.eta htk' hn.pos hJk (lt_of_le_of_lt ?_ hr2) hn.enough
      have : 0 ≤ ‖(a.trProblem c).grad ⟨l, some u⟩‖ / lam := div_nonneg (norm_nonneg _) hlam.le
      exact pow_le_pow_left₀ (by linarith) (by linarith) 2
    · refine tr_converges_capped hP hT hB hc.precond.pos' hnu hc.sane hc.tolerances hc.time hc.corr c.cmpTol _ (by omega)
        (w.info, w.draws) hk0 hk1 w.info.stop hx w.eta htk' hn.pos hJk (lt_of_le_of_lt ?_ hr) hn.enough
      exact div_le_div_of_nonneg_right (pow_le_pow_left₀ (norm_nonneg _) hg0 2) hlam.le
  obtain ⟨s, hs, hcon⟩ := hconv
  -- the constrained dofs
  obtain ⟨s1, s', r1, -, r3, r4, -⟩ :=
    tr_run ((a.trProblem c).restrict (a.Sized l)) c.parameters c.cmpTol c.parameters.maxIter.toNat (by omega) (w.info, w.draws)
      w.info.stop ⟨l, some u⟩ w.eta
  rw [trSolve_restrict (trust_undone h c l) c.parameters c.cmpTol _ _ _ hx, hs] at r3
  obtain rfl := Option.some.inj r3
  obtain ⟨y, y1, y2, y3⟩ := trust_reach_supports h c hc.sane.prime (fun ho => ⟨hc.sane.noRand, hc.zeros ho⟩) l hu _ _ _ s1 r1
  rw [← r4] at y1
  have hgy := trust_grad_linear h hp hA c l y2
  have hgrad := hcon.gradient
  rw [y1, hgy.2] at hgrad
  have hyc : ∀ i < a.dv.flags.length, ¬ Spec.Free a.dv.flags i → y.getD i 0 = 1 * u.getD i 0 := by
    intro i hi hf
    rw [one_mul, List.getD_eq_getElem?_getD, List.getD_eq_getElem?_getD, y3 i ((not_free_iff hi).1 hf)]
  refine ⟨⟨s.inner.1, s.inner.2, s.eta⟩, y, s.info, ?_, hcon.success, hcon.iterations.1, hcon.iterations.2, hcon.inner,
    fun r hr => ?_, equilibrium_of_residual hA _ l 1 _ y2 hyc hgrad, ?_⟩
  · show (match trSolve (a.trProblem c) c.parameters c.cmpTol c.parameters.maxIter.toNat (w.info, w.draws) w.info.stop
        ⟨l, some u⟩ w.eta with | some s => _ | none => _) = _
    rw [hs]
    simp only
    rw [y1]
  · obtain ⟨r', q1, q2, -⟩ := hA.vector l y y2
    rw [hr] at q1
    obtain rfl := Option.some.inj q1
    rw [← (trust_grad h c hr q2).2, hgy.2]
    exact hgrad
  · obtain ⟨v, v1, v2, v3⟩ := hcon.minimum
    rw [y1] at v2 v3
    obtain ⟨z, z1, z2, z3⟩ := trust_update h c l y2 v
    have z3 : ∀ i < a.dv.flags.length, z.getD i 0 = y.getD i 0 + a.spread v i := z3
    have hgz := trust_grad_linear h hp hA c l z2
    rw [z1] at v3
    have hrz : Real.sqrt (freeSq a.dv.flags (resAt K g a.dv.flags.length l z)) ≤ 0 := by
      rw [← hgz.2, v3, norm_zero]
    obtain ⟨w1, w2, w3⟩ := spread_list h.option hp v1
    have w4 : ∀ i < a.dv.flags.length, (listOf a.dv.flags.length (a.spread v)).getD i 0 = a.spread v i := fun i hi => listOf_getD _ _ hi
    generalize listOf a.dv.flags.length (a.spread v) = q at w1 w2 w3 w4
    have hsz : ∀ i < a.dv.flags.length, ¬ Spec.Free a.dv.flags i → a.spread v i = 0 := by
      intro i hi hf
      have := w2 i ((not_free_iff hi).1 hf)
      rw [← w4 i hi, List.getD_eq_getElem?_getD, this, Option.getD_some]
    refine ⟨z, equilibrium_of_residual hA _ l 1 _ z2 (fun i hi hf => ?_) hrz, ?_⟩
    · rw [z3 i hi, hsz i hi hf, add_zero, hyc i hi hf]
    · have hd : Spec.distance y z = ‖v‖ := by
        unfold Spec.distance
        rw [← Real.sqrt_sq (norm_nonneg v), ← w3, zipWith_sum_range _ y z _ y2 z2, list_sum_getD, List.length_map, w1]
        congr 1
        refine Finset.sum_congr rfl fun i hi => ?_
        have hi := Finset.mem_range.1 hi
        have h5 : (q.map fun t => t * t).getD i 0 = a.spread v i * a.spread v i := by
          rw [List.getD_eq_getElem?_getD, List.getElem?_map, getElem?_eq_getD (w1 ▸ hi), w4 i hi]; rfl
        rw [h5, z3 i hi]
        ring
      rw [hd]
      refine v2.trans (div_le_div_of_nonneg_right ?_ hlam.le)
      rw [hgy.2]; exact hgrad

/-! ### Load control -/

theorem freeSq_norm (flags : List Bool) (R : Nat → ℝ) : Real.sqrt (freeSq flags R) =
    ‖(WithLp.toLp 2 fun i : Fin flags.length => if Spec.Free flags i then R i else 0 : TRVec flags.length)‖ := by
  rw [EuclideanSpace.norm_eq]
  congr 1
  unfold freeSq
  rw [Finset.sum_filter, Finset.sum_range]
  refine Finset.sum_congr rfl fun i _ => ?_
  show _ = ‖if Spec.Free flags i then R i else 0‖ ^ 2
  by_cases hi : Spec.Free flags i
  · rw [if_pos hi, if_pos hi, Real.norm_eq_abs, sq_abs, sq]
  · rw [if_neg hi, if_neg hi, norm_zero]; ring

theorem freeSq_triangle (flags : List Bool) (R R' : Nat → ℝ) : Real.sqrt (freeSq flags R') ≤
    Real.sqrt (freeSq flags R) + Real.sqrt (freeSq flags fun i => R' i - R i) := by
  rw [freeSq_norm, freeSq_norm flags R, freeSq_norm flags fun i => R' i - R i]
  refine le_trans (le_of_eq ?_) (norm_add_le _ _)
  congr 1
  ext i
  show (if Spec.Free flags i then R' i else 0) = (if Spec.Free flags i then R i else 0) +
    if Spec.Free flags i then R' i - R i else 0
  split <;> ring

/-- C102. Load control with the trust region method on a linear structure whose supports suffice: all `n + 1` solves succeed
within the stated number of iterations, and every state shown is in equilibrium up to the stated tolerance with the
displacements of the constrained dofs at the start, and as close to the exact solution as the stiffness tells.  `F` bounds the
change of the loads from one step to the next, `G` the residual a solve starts from. -/
theorem trust_linear_load_control {a : Analysis} (h : Spec.TrustProper a) (hel : Spec.LinearElems a.dv.flags.length a.elems)
    (c : TrustConfig a.trSize) {lam L mu nu : ℝ} (hc : Spec.TrustSuits a c lam L mu nu) (w : TRMemory a.trSize)
    (hk0 : 0 < w.info.kappa) (hk1 : w.info.kappa < 1) (n : Nat) (hn : 0 < n) (tbegin tend l0 : ℝ) {x0 : List ℝ}
    (hx0 : x0.length = a.dv.flags.length) {F G : ℝ}
    (hG : ∀ r, (a.system l0).rawVector? x0 = some r → Real.sqrt (freeSq a.dv.flags (r.getD · 0)) ≤ G)
    (hF : ∀ k : Nat, k < n → ∀ (u r r' : List ℝ), u.length = a.dv.flags.length →
      (a.system (l0 + k * ((tend - tbegin) / n))).rawVector? u = some r →
      (a.system (l0 + (k + 1 : Nat) * ((tend - tbegin) / n))).rawVector? u = some r' →
      Real.sqrt (freeSq a.dv.flags fun i => r'.getD i 0 - r.getD i 0) ≤ F)
    (hFG : Spec.trustTol c.parameters w.info.kappa L + F ≤ G)
    (htk : c.tol * c.tol * (L * (G / lam)) ≤ w.info.kappa) {J bs : Nat}
    (hN : Spec.EnoughIterations c.parameters w.info.kappa lam L mu nu G J bs) :
    ∃ (r : LCState ℝ (Option (List ℝ)) ℝ (TRMemory a.trSize)) (us : Nat → List ℝ),
      a.trLoadControl? c n tbegin tend w ⟨l0, some x0⟩ = some r ∧ r.info.success = true ∧
      r.info.solverInfos.length = n + 1 ∧
      (∀ info ∈ r.info.solverInfos, info.success = true ∧ 0 < info.iterations ∧ info.iterations ≤ (((bs + 1) * J : Nat) : Int)) ∧
      Spec.shown r = (List.range (n + 1)).map (fun k : Nat => ⟨l0 + k * ((tend - tbegin) / n), some (us k)⟩) ∧
      r.dom = ⟨l0 + n * ((tend - tbegin) / n), some (us n)⟩ ∧
      ∀ k ≤ n, Spec.InEquilibrium a.dv.flags (a.system (l0 + k * ((tend - tbegin) / n))).scalar? (x0.getD · 0) 1
          (Spec.trustTol c.parameters w.info.kappa L) (us k) ∧
        ∃ z, Spec.InEquilibrium a.dv.flags (a.system (l0 + k * ((tend - tbegin) / n))).scalar? (x0.getD · 0) 1 0 z ∧
          Spec.distance (us k) z ≤ Spec.trustTol c.parameters w.info.kappa L / lam := by
  generalize hstep : (tend - tbegin) / (n : ℝ) = step at *
  have hmk : LoadControl.mk? (n : Int) tbegin tend = some ⟨n, step⟩ := by
    unfold LoadControl.mk?
    rw [if_neg (by omega)]
    simp [hstep]
  have hcong : ∀ (l tol : ℝ) (u y : List ℝ), (∀ i : Nat, a.dv.flags[i]? = some true → u[i]? = x0[i]?) →
      Spec.InEquilibrium a.dv.flags (a.system l).scalar? (u.getD · 0) 1 tol y →
      Spec.InEquilibrium a.dv.flags (a.system l).scalar? (x0.getD · 0) 1 tol y := by
    intro l tol u y hux hy
    have e1 : ∀ i : Nat, a.dv.flags[i]? = some true → u.getD i 0 = x0.getD i 0 := by
      intro i hi
      rw [List.getD_eq_getElem?_getD, List.getD_eq_getElem?_getD, hux i hi]
    refine ⟨hy.1, fun i hi => by show _ = some (1 * x0.getD i 0); rw [← e1 i hi]; exact hy.2.1 i hi, ?_⟩
    obtain ⟨E, hE, hmin⟩ := hy.2.2
    exact ⟨E, hE, fun z hz hzc => hmin z hz fun i hi => by
      show _ = some (1 * u.getD i 0)
      rw [e1 i hi]; exact hzc i hi⟩
  have hsup : ∀ (l tol : ℝ) (y : List ℝ), Spec.InEquilibrium a.dv.flags (a.system l).scalar? (x0.getD · 0) 1 tol y →
      ∀ i : Nat, a.dv.flags[i]? = some true → y[i]? = x0[i]? := by
    intro l tol y hy i hi
    rw [hy.2.1 i hi, one_mul, getElem?_eq_getD (hx0 ▸ (List.getElem?_eq_some_iff.1 hi).1)]
  have hst : ∀ k, k ≤ n → ∃ u, Spec.loadAfter (a.trSolver c) step w ⟨l0, some x0⟩ k = ⟨l0 + k * step, some u⟩ ∧
      (Spec.loadSolve (a.trSolver c) step w ⟨l0, some x0⟩ k).2.1.info.kappa = w.info.kappa ∧
      (Spec.loadInfo (a.trSolver c) step w ⟨l0, some x0⟩ k).success = true ∧
      0 < (Spec.loadInfo (a.trSolver c) step w ⟨l0, some x0⟩ k).iterations ∧
      (Spec.loadInfo (a.trSolver c) step w ⟨l0, some x0⟩ k).iterations ≤ (((bs + 1) * J : Nat) : Int) ∧
      (∀ r, (a.system (l0 + k * step)).rawVector? u = some r →
        Real.sqrt (freeSq a.dv.flags (r.getD · 0)) ≤ Spec.trustTol c.parameters w.info.kappa L) ∧
      Spec.InEquilibrium a.dv.flags (a.system (l0 + k * step)).scalar? (x0.getD · 0) 1
        (Spec.trustTol c.parameters w.info.kappa L) u ∧
      ∃ z, Spec.InEquilibrium a.dv.flags (a.system (l0 + k * step)).scalar? (x0.getD · 0) 1 0 z ∧
        Spec.distance u z ≤ Spec.trustTol c.parameters w.info.kappa L / lam := by
    intro k
    induction k with
    | zero =>
      intro _
      obtain ⟨w', y, info, s1, s2, s3, s4, s5, s6, s7, s8⟩ := trust_linear_solve h hel c hc w hk0 hk1 l0 0 hx0 hG htk hN
      have hlam : l0 + ((0 : Nat) : ℝ) * step = l0 := by simp
      have hls : Spec.loadSolve (a.trSolver c) step w ⟨l0, some x0⟩ 0 = (⟨l0, some x0⟩, w', ⟨l0, some y⟩, info) := by
        unfold Spec.loadSolve
        rw [s1]
      rw [hlam]
      unfold Spec.loadAfter Spec.loadInfo
      rw [hls]
      exact ⟨y, rfl, s5, s2, s3, s4, s6, s7, s8⟩
    | succ k ih =>
      intro hkn
      obtain ⟨u, i1, i2, -, -, -, i3, i4, -⟩ := ih (by omega)
      have hFk := hF k (by omega) u
      generalize hl : l0 + ((k + 1 : Nat) : ℝ) * step = l at *
      have hll : l0 + (k : ℝ) * step + step = l := by rw [← hl]; push_cast; ring
      have hux := hsup _ _ _ i4
      obtain ⟨-, r, -, -, r1, r2, -⟩ := trust_system h (l0 + (k : ℝ) * step) i4.1
      have hGk : ∀ r', (a.system l).rawVector? u = some r' → Real.sqrt (freeSq a.dv.flags (r'.getD · 0)) ≤ G := by
        intro r' hr'
        have t1 := freeSq_triangle a.dv.flags (r.getD · 0) (r'.getD · 0)
        have t2 := hFk r r' i4.1 r1 hr'
        have t3 := i3 r r1
        linarith
      generalize hw1 : (Spec.loadSolve (a.trSolver c) step w ⟨l0, some x0⟩ k).2.1 = w1 at *
      rw [← i2] at hN htk hk0 hk1
      obtain ⟨w', y, info, s1, s2, s3, s4, s5, s6, s7, s8⟩ :=
        trust_linear_solve h hel c hc w1 hk0 hk1 l step i4.1 hGk htk hN
      rw [i2] at s5 s6 s7 s8
      have hls : Spec.loadSolve (a.trSolver c) step w ⟨l0, some x0⟩ (k + 1) = (⟨l, some u⟩, w', ⟨l, some y⟩, info) := by
        have h1 : (Spec.loadSolve (a.trSolver c) step w ⟨l0, some x0⟩ k).2.2.1 = ⟨l0 + k * step, some u⟩ := i1
        show (_, ((a.trSolver c).solve (Spec.loadSolve (a.trSolver c) step w ⟨l0, some x0⟩ k).2.1 _ step).1,
          (if ((a.trSolver c).solve (Spec.loadSolve (a.trSolver c) step w ⟨l0, some x0⟩ k).2.1 _ step).2.2.iterations = 0 then _ else _), _) = _
        rw [h1, hw1, hll, s1]
        simp only
        rw [if_neg (by omega)]
      unfold Spec.loadAfter Spec.loadInfo
      rw [hls]
      obtain ⟨z, z1, z2⟩ := s8
      exact ⟨y, rfl, s5, s2, s3, s4, s6, hcong _ _ _ _ hux s7, z, hcong _ _ _ _ hux z1, z2⟩
  have hst' : ∀ k, ∃ u, k ≤ n → _ := fun k => by
    by_cases hk : k ≤ n
    · obtain ⟨u, hu⟩ := hst k hk
      exact ⟨u, fun _ => hu⟩
    · exact ⟨[], fun hh => absurd hh hk⟩
  choose us hus using hst'
  obtain ⟨m, ls, hm, g1, g2, g3, -, g5, g6⟩ := load_control_run n hn step (a.trSolver c) w ⟨l0, some x0⟩
  generalize hr : (LoadControl.mk (n : Int) step).run (a.trSolver c) w ⟨l0, some x0⟩ = r at *
  have hs : r.info.success = true := g1.2 fun k hk => (hus k (by omega)).2.2.1
  obtain rfl := g2 hs
  refine ⟨r, us, ?_, hs, by rw [g3]; simp, fun info hi => ?_, ?_, ?_, fun k hk => ⟨(hus k hk).2.2.2.2.2.2.1, (hus k hk).2.2.2.2.2.2.2⟩⟩
  · unfold Analysis.trLoadControl?
    rw [hmk, Option.map_some, hr]
  · rw [g3] at hi
    obtain ⟨k, hk, rfl⟩ := List.mem_map.1 hi
    have := List.mem_range.1 hk
    obtain ⟨-, -, k1, k2, k3, -⟩ := hus k (by omega)
    exact ⟨k1, k2, k3⟩
  · unfold Spec.shown
    rw [g6, List.cons_append, List.filterMap_cons_none rfl, List.filterMap_append, List.filterMap_flatMap]
    have hend : ((if r.info.success = true then [CEvent.notify .controlEnded r.dom ls step] else []).filterMap Spec.solutionOf) = ([] : List (Dom ℝ (Option (List ℝ)))) := by split <;> rfl
    rw [hend, List.append_nil]
    have hev : ∀ k, ((Spec.loadEvents (a.trSolver c) step w ⟨l0, some x0⟩ k).filterMap Spec.solutionOf) = [Spec.loadAfter (a.trSolver c) step w ⟨l0, some x0⟩ k] := by
      intro k
      cases k <;> rfl
    rw [List.flatMap_congr fun k _ => hev k, ← List.map_eq_flatMap]
    exact List.map_congr_left fun k hk => (hus k (by have := List.mem_range.1 hk; omega)).1
  · rw [g5, Nat.add_sub_cancel]
    exact (hus n le_rfl).1

/-! ### The hypotheses can be met -/

theorem definite_bound {V : Type} [NormedAddCommGroup V] [InnerProductSpace ℝ V] [FiniteDimensional ℝ V] (A : V →ₗ[ℝ] V)
    (hA : ∀ v, v ≠ 0 → 0 < (Inner.inner ℝ v (A v) : ℝ)) :
    ∃ lam L : ℝ, 0 < lam ∧ ∀ v, lam * ‖v‖ ^ 2 ≤ Inner.inner ℝ v (A v) ∧ Inner.inner ℝ v (A v) ≤ L * ‖v‖ ^ 2 := by
  have hc : Continuous A := LinearMap.continuous_of_finiteDimensional A
  have hup : ∀ v, (Inner.inner ℝ v (A v) : ℝ) ≤ ‖LinearMap.toContinuousLinearMap A‖ * ‖v‖ ^ 2 := by
    intro v
    have h1 := real_inner_le_norm v (A v)
    have h2 : ‖A v‖ ≤ ‖LinearMap.toContinuousLinearMap A‖ * ‖v‖ := (LinearMap.toContinuousLinearMap A).le_opNorm v
    have h3 := mul_le_mul_of_nonneg_left h2 (norm_nonneg v)
    nlinarith
  by_cases hn : Nontrivial V
  · have : ProperSpace V := FiniteDimensional.proper_real V
    obtain ⟨v0, hv0⟩ := exists_ne (0 : V)
    have hne : (Metric.sphere (0 : V) 1).Nonempty :=
      ⟨‖v0‖⁻¹ • v0, by simp [norm_smul, norm_ne_zero_iff.2 hv0]⟩
    obtain ⟨w, hw, hmin⟩ := (isCompact_sphere (0 : V) 1).exists_isMinOn hne (f := fun v => (Inner.inner ℝ v (A v) : ℝ))
      (by fun_prop)
    have hw1 : ‖w‖ = 1 := by simpa using hw
    have hw0 : w ≠ 0 := by
      intro h0
      rw [h0, norm_zero] at hw1
      exact zero_ne_one hw1
    refine ⟨Inner.inner ℝ w (A w), ‖LinearMap.toContinuousLinearMap A‖, hA w hw0, fun v => ⟨?_, hup v⟩⟩
    by_cases hv : v = 0
    · rw [hv]; simp
    · have hvn := norm_pos_iff.2 hv
      have h1 : Inner.inner ℝ w (A w) ≤ (Inner.inner ℝ (‖v‖⁻¹ • v) (A (‖v‖⁻¹ • v)) : ℝ) :=
        hmin (show ‖v‖⁻¹ • v ∈ Metric.sphere (0 : V) 1 by simp [norm_smul, hvn.ne'])
      rw [map_smul, inner_smul_left, inner_smul_right, conj_trivial] at h1
      calc Inner.inner ℝ w (A w) * ‖v‖ ^ 2 ≤ (‖v‖⁻¹ * (‖v‖⁻¹ * Inner.inner ℝ v (A v))) * ‖v‖ ^ 2 :=
            mul_le_mul_of_nonneg_right h1 (sq_nonneg _)
        _ = Inner.inner ℝ v (A v) := by field_simp
  · refine ⟨1, ‖LinearMap.toContinuousLinearMap A‖, one_pos, fun v => ⟨?_, hup v⟩⟩
    rw [not_nontrivial_iff_subsingleton] at hn
    rw [Subsingleton.elim v 0]
    simp

/-- C102, hypotheses. If the supports suffice, the stiffness is bounded. -/
theorem stiffness_bounds {a : Analysis} (hopt : a.option ≠ .raw) (hel : Spec.LinearElems a.dv.flags.length a.elems) (l : ℝ)
    (hs : Spec.Supported a.dv.flags (a.system l).scalar?) : ∃ lam L, Spec.StiffnessBounds a lam L := by
  obtain ⟨pos, hp⟩ := exists_layout hopt
  obtain ⟨K, e, g, hA⟩ := linear_system a.dv.flags a.elems hel
  have hA : AffineSystem a.system a.dv.flags.length K e g := hA
  have hspz : ∀ v : TRVec a.trSize, v ∈ a.calm → ∀ i < a.dv.flags.length, ¬ Spec.Free a.dv.flags i → a.spread v i = 0 := by
    intro v hv i hi hf
    obtain ⟨w1, w2, -⟩ := spread_list hopt hp hv
    have := w2 i ((not_free_iff hi).1 hf)
    rw [← listOf_getD a.dv.flags.length (a.spread v) hi, List.getD_eq_getElem?_getD, this, Option.getD_some]
  have hdef : ∀ v, v ≠ 0 → 0 < (Inner.inner ℝ v (a.stiff pos K v) : ℝ) := by
    intro v hv
    rw [stiff_form hopt hp]
    have h1 := hA.psd (a.spread (calmPart pos v))
    have h2 : ∀ i, 0 ≤ if Spec.Free a.dv.flags (pos i) then (0 : ℝ) else v i * v i := by
      intro i
      split
      · exact le_rfl
      · exact mul_self_nonneg _
    have h3 := Finset.sum_nonneg fun i (_ : i ∈ Finset.univ) => h2 i
    by_contra hle
    have h4 : bil K a.dv.flags.length (a.spread (calmPart pos v)) (a.spread (calmPart pos v)) ≤ 0 := by linarith
    have h5 : (∑ i, if Spec.Free a.dv.flags (pos i) then (0 : ℝ) else v i * v i) = 0 := by linarith
    have h6 := supported_definite hA hs _ (hspz _ (calmPart_mem hp v)) h4
    apply hv
    ext i
    by_cases hf : Spec.Free a.dv.flags (pos i)
    · have := h6 (pos i) (hp.lt i)
      rwa [hp.spread_pos, calmPart_apply, if_pos hf] at this
    · have := (Finset.sum_eq_zero_iff_of_nonneg fun i _ => h2 i).1 h5 i (Finset.mem_univ _)
      rw [if_neg hf] at this
      exact mul_self_eq_zero.1 this
  obtain ⟨lam, L, hlam, hb⟩ := definite_bound _ hdef
  refine ⟨min lam 1, max L (max lam 1), lt_min hlam one_pos, (min_le_left _ _).trans (le_max_of_le_right (le_max_left _ _)),
    fun _ => ⟨min_le_right _ _, le_max_of_le_right (le_max_right _ _)⟩, fun l x v hx hv hv0 => ?_⟩
  obtain ⟨p, q, r, f1, f2, f3, f4⟩ := second_difference hA l hx hv
  refine ⟨p, q, r, f1, f2, f3, ?_⟩
  rw [f4]
  let w : TRVec a.trSize := WithLp.toLp 2 fun i => v.getD (pos i) 0
  have hw : w ∈ a.calm := by
    rw [hp.calm_iff]
    intro i hi
    show v.getD (pos i) 0 = 0
    rw [List.getD_eq_getElem?_getD, hv0 _ ((not_free_iff (hp.lt i)).1 hi), Option.getD_some]
  have hsw : ∀ i < a.dv.flags.length, v.getD i 0 = a.spread w i := by
    intro i hi
    by_cases hf : Spec.Free a.dv.flags i
    · obtain ⟨k, rfl⟩ := hp.cover i hf
      rw [hp.spread_pos]
    · rw [hspz w hw i hi hf, List.getD_eq_getElem?_getD, hv0 _ ((not_free_iff hi).1 hf), Option.getD_some]
  have hcp : calmPart pos w = w := by
    ext i
    rw [calmPart_apply]
    split
    · rfl
    · rename_i hi; exact ((hp.calm_iff w).1 hw i hi).symm
  have hz : (∑ i, if Spec.Free a.dv.flags (pos i) then 0 else w i * w i) = 0 := by
    refine Finset.sum_eq_zero fun i _ => ?_
    split
    · rfl
    · rename_i hi; rw [(hp.calm_iff w).1 hw i hi, mul_zero]
  have hform := stiff_form hopt hp K w
  rw [hcp, hz, add_zero] at hform
  obtain ⟨w1, -, w3⟩ := spread_list hopt hp hw
  have hsum : (v.map fun t => t * t).sum = ‖w‖ ^ 2 := by
    rw [← w3]
    congr 2
    apply List.ext_getElem?
    intro i
    by_cases hi : i < a.dv.flags.length
    · rw [getElem?_eq_getD (hv ▸ hi), getElem?_eq_getD (by rw [w1]; exact hi), hsw i hi, listOf_getD _ _ hi]
    · rw [List.getElem?_eq_none (by omega), List.getElem?_eq_none (by omega)]
  rw [bil_congr K _ hsw hsw, ← hform, hsum]
  have h0 := sq_nonneg ‖w‖
  exact ⟨(mul_le_mul_of_nonneg_right (min_le_left _ _) h0).trans (hb w).1,
    (hb w).2.trans (mul_le_mul_of_nonneg_right (le_max_left _ _) h0)⟩

/-- C102, hypotheses. Without preconditioner. -/
theorem identity_bounds (a : Analysis) (c : TrustConfig a.trSize) (hc : c.precond = identityPreconditioner) :
    Spec.PrecondBounds a c 1 1 := by
  have hid : ∀ h r, c.precond h r = r := fun h r => by rw [hc]; rfl
  refine ⟨one_pos, one_pos, fun l u _ r s t => by simp only [hid], fun l u _ r s => by simp only [hid], fun l u _ r => ?_⟩
  rw [hid, real_inner_self_eq_norm_sq, one_mul]
  exact ⟨le_rfl, le_rfl⟩

/-- C102, hypotheses. With the diagonal preconditioner. -/
theorem diagonal_bounds {a : Analysis} (hopt : a.option ≠ .raw) (hel : Spec.LinearElems a.dv.flags.length a.elems)
    (c : TrustConfig a.trSize) (hc : c.precond = diagonalPreconditioner) {lam L : ℝ} (hb : Spec.StiffnessBounds a lam L) :
    Spec.PrecondBounds a c (1 / L) (1 / lam) := by
  obtain ⟨pos, hp⟩ := exists_layout hopt
  obtain ⟨K, e, g, hA⟩ := linear_system a.dv.flags a.elems hel
  have hA : AffineSystem a.system a.dv.flags.length K e g := hA
  have hlam := hb.pos
  have hL : 0 < L := lt_of_lt_of_le hb.pos hb.le
  have hent : ∀ i, lam ≤ TRVec.entry (a.stiff pos K) i i ∧ TRVec.entry (a.stiff pos K) i i ≤ L := by
    intro i
    have h1 := stiff_bounds hopt hp hA hb (EuclideanSpace.single i 1)
    have h2 : ‖(EuclideanSpace.single i 1 : TRVec a.trSize)‖ = 1 := by simp
    have h3 : Inner.inner ℝ (EuclideanSpace.single i 1 : TRVec a.trSize) (a.stiff pos K (EuclideanSpace.single i 1)) =
        TRVec.entry (a.stiff pos K) i i := by
      rw [EuclideanSpace.inner_single_left]
      simp [TRVec.entry]
    rw [h2, h3] at h1
    simpa using h1
  have hpc : ∀ (l : ℝ) (u : List ℝ), u.length = a.dv.flags.length → ∀ r i,
      c.precond ((a.trProblem c).hess ⟨l, some u⟩) r i = 1 / TRVec.entry (a.stiff pos K) i i * r i := by
    intro l u hu r i
    rw [(trust_hess_eq hopt hp hA c l hu).1, hc]
    show (if TRVec.entry (a.stiff pos K) i i = 0 then 1 else 1 / TRVec.entry (a.stiff pos K) i i) * r i = _
    rw [if_neg (by have := (hent i).1; linarith)]
  refine ⟨by positivity, by positivity, fun l u hu r s t => ?_, fun l u hu r s => ?_, fun l u hu r => ?_⟩
  · ext i
    show c.precond _ _ i = c.precond _ _ i + t * c.precond _ _ i
    rw [hpc l u hu, hpc l u hu, hpc l u hu]
    show _ * (r i + t * s i) = _
    ring
  · rw [inner_sum, inner_sum]
    refine Finset.sum_congr rfl fun i _ => ?_
    rw [hpc l u hu, hpc l u hu]
    ring
  · rw [inner_sum, norm_sum, Finset.mul_sum, Finset.mul_sum]
    constructor
    · refine Finset.sum_le_sum fun i _ => ?_
      rw [hpc l u hu]
      have h1 : 1 / L ≤ 1 / TRVec.entry (a.stiff pos K) i i :=
        one_div_le_one_div_of_le (lt_of_lt_of_le hlam (hent i).1) (hent i).2
      nlinarith [mul_self_nonneg (r i), mul_le_mul_of_nonneg_right h1 (mul_self_nonneg (r i))]
    · refine Finset.sum_le_sum fun i _ => ?_
      rw [hpc l u hu]
      have h1 : 1 / TRVec.entry (a.stiff pos K) i i ≤ 1 / lam := one_div_le_one_div_of_le hlam (hent i).1
      nlinarith [mul_self_nonneg (r i), mul_le_mul_of_nonneg_right h1 (mul_self_nonneg (r i))]

/-- C102, hypotheses. Enough iterations exist. -/
theorem enough_iterations (set : TRSettings) (hs : Spec.TRSane set) (hg : 0 < set.grad_tol) {kappa lam L mu nu : ℝ} (hk0 : 0 < kappa)
    (hk1 : kappa < 1) (hL : 0 < L) (hmu : 0 < mu) (hnu : 0 < nu) (G : ℝ) :
    ∃ J bs : Nat, ∀ M : Int, (((bs + 1) * J : Nat) : Int) ≤ M →
      Spec.EnoughIterations { set with maxIter := M } kappa lam L mu nu G J bs := by
  obtain ⟨J, -, hJ, hJk, -⟩ := tr_numbers (G := L * (G / lam)) (R := 0) hk0 hk1 hg hmu hs.radius
  have hdel : 0 < Spec.leastDecrease L mu nu set.Delta0 set.grad_tol := by
    unfold Spec.leastDecrease
    have := hs.radius
    have := Real.sqrt_pos.2 hmu
    exact mul_pos (by norm_num) (lt_min (by positivity) (by positivity))
  obtain ⟨bs, hbs⟩ := exists_nat_gt (G ^ 2 / lam / (2 * Spec.leastDecrease L mu nu set.Delta0 set.grad_tol))
  rw [div_lt_iff₀ (by positivity)] at hbs
  exact ⟨J, bs, fun M hM => ⟨hJ, hJk, Or.inr (by show _ < 2 * _ * (bs : ℝ); linarith), hM⟩⟩

end

end Ikarus
