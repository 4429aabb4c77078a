import Verif.TrustRegion.TCGModel
import Mathlib.LinearAlgebra.Span.Basic
import Mathlib.Tactic.Linarith
import Mathlib.Tactic.Positivity
import Mathlib.Tactic.FieldSimp
import Mathlib.Tactic.LinearCombination
import Mathlib.Tactic.Module
import Mathlib.Tactic.NormNum

/-!
C29: the truncated conjugate gradient method.
-/

namespace Ikarus

noncomputable section

variable {V : Type} [NormedAddCommGroup V] [InnerProductSpace ℝ V]

/-- The matrix is symmetric. -/
def Spec.Symmetric (A : V →ₗ[ℝ] V) : Prop := ∀ x y, inner ℝ (A x) y = inner ℝ x (A y)

/-- The preconditioner `M` (applied as `M z = r`, `z = P⁻¹ r`) is symmetric and positive definite. -/
structure Spec.Preconditioner (M : V ≃ₗ[ℝ] V) : Prop where
  symm : ∀ x y, inner ℝ (M x) y = inner ℝ x (M y)
  pos : ∀ x, x ≠ 0 → 0 < inner ℝ x (M x)

/-- Squared norm with respect to the preconditioner, `M` being its inverse. -/
def Spec.pnorm2 (M : V ≃ₗ[ℝ] V) (x : V) : ℝ := inner ℝ x (M.symm x)

/-- The quadratic model `1/2 x·A x - b·x`. -/
def Spec.quadratic (A : V →ₗ[ℝ] V) (b x : V) : ℝ := (1 / 2) * inner ℝ x (A x) - inner ℝ b x

open Spec

theorem Spec.Preconditioner.symm' {M : V ≃ₗ[ℝ] V} (h : Preconditioner M) (x y : V) :
    inner ℝ x (M.symm y) = inner ℝ (M.symm x) y := by
  have := h.symm (M.symm x) (M.symm y)
  simpa using this

theorem Spec.Preconditioner.pos' {M : V ≃ₗ[ℝ] V} (h : Preconditioner M) (x : V) (hx : x ≠ 0) :
    0 < pnorm2 M x := by
  have := h.pos (M.symm x) (by simpa using hx)
  unfold pnorm2
  rw [h.symm']
  simpa using this

theorem pnorm2_add {M : V ≃ₗ[ℝ] V} (h : Preconditioner M) (x p : V) (t : ℝ) :
    pnorm2 M (x + t • p) = pnorm2 M x + 2 * t * inner ℝ x (M.symm p) + t * t * pnorm2 M p := by
  unfold pnorm2
  have e : inner ℝ p (M.symm x) = inner ℝ x (M.symm p) := by
    rw [h.symm', real_inner_comm]
  simp only [map_add, map_smul, inner_add_left, inner_add_right, inner_smul_left, inner_smul_right,
    conj_trivial, e]
  ring

theorem quadratic_add {A : V →ₗ[ℝ] V} (h : Spec.Symmetric A) (b x p : V) (t : ℝ) :
    quadratic A b (x + t • p) = quadratic A b x - t * inner ℝ (b - A x) p
      + (1 / 2) * (t * t) * inner ℝ p (A p) := by
  unfold quadratic
  have e : inner ℝ p (A x) = inner ℝ (A x) p := real_inner_comm _ _
  have e2 : inner ℝ x (A p) = inner ℝ (A x) p := (h x p).symm
  simp only [map_add, map_smul, inner_add_left, inner_add_right, inner_smul_left, inner_smul_right,
    conj_trivial, e, e2, inner_sub_left]
  ring

/-- What holds at the head of the loop. `S` is the space of the earlier search directions. -/
structure TCGInv (A : V →ₗ[ℝ] V) (M : V ≃ₗ[ℝ] V) (b : V) (Delta : ℝ) (s : TCGLoop V)
    (S : Submodule ℝ V) : Prop where
  xS : s.x ∈ S
  res : s.residual = b - A s.x
  rS : ∀ v ∈ S, inner ℝ s.residual v = 0
  conj : ∀ v ∈ S, inner ℝ (A v) s.p = 0
  dir : s.p - M s.residual ∈ S
  krylov : ∀ v ∈ S, ∃ w ∈ S, ∃ c : ℝ, M (A v) = w + c • s.p
  ne : s.residual ≠ 0
  abs : s.absNew = inner ℝ s.residual (M s.residual)
  dPd : s.d_Pd = pnorm2 M s.p
  ePd : s.e_Pd = inner ℝ s.x (M.symm s.p)
  ePe : s.e_Pe = pnorm2 M s.x
  ePd_nonneg : 0 ≤ s.e_Pd
  inside : s.e_Pe < Delta * Delta
  stop : s.stop = .maximumInnerIterations

namespace TCGInv

variable {A : V →ₗ[ℝ] V} {M : V ≃ₗ[ℝ] V} {b : V} {Delta : ℝ} {s : TCGLoop V} {S : Submodule ℝ V}

theorem absPos (h : TCGInv A M b Delta s S) (hM : Preconditioner M) : 0 < s.absNew := by
  rw [h.abs]; exact hM.pos _ h.ne

theorem rp (h : TCGInv A M b Delta s S) : inner ℝ s.residual s.p = s.absNew := by
  have := h.rS _ h.dir
  rw [inner_sub_right] at this
  rw [h.abs]; linarith

theorem pne (h : TCGInv A M b Delta s S) (hM : Preconditioner M) : s.p ≠ 0 := by
  intro hp
  have := h.rp
  rw [hp, inner_zero_right] at this
  exact absurd this.symm (h.absPos hM).ne'

theorem dPos (h : TCGInv A M b Delta s S) (hM : Preconditioner M) : 0 < s.d_Pd := by
  rw [h.dPd]; exact hM.pos' _ (h.pne hM)

end TCGInv

/-- How a state is related to a later one. -/
structure TCGProgress (A : V →ₗ[ℝ] V) (M : V ≃ₗ[ℝ] V) (b : V) (s s' : TCGLoop V) : Prop where
  norm : pnorm2 M s.x ≤ pnorm2 M s'.x
  quad : quadratic A b s'.x ≤ quadratic A b s.x

/-- What holds at the end. -/
structure TCGEnd (A : V →ₗ[ℝ] V) (M : V ≃ₗ[ℝ] V) (b : V) (info : TCGInfo) (s : TCGLoop V) :
    Prop where
  inside : pnorm2 M s.x ≤ info.Delta * info.Delta
  boundary : s.stop = .negativeCurvature ∨ s.stop = .exceededTrustRegion →
    pnorm2 M s.x = info.Delta * info.Delta
  kappa : s.stop = .reachedTargetResidualKappaLinear ∨
    s.stop = .reachedTargetResidualThetaSuperLinear → ‖b - A s.x‖ ≤ ‖b‖ * min ‖b‖ info.kappa
  never : s.stop ≠ .modelIncreased

theorem tcgBody_spec (A : V →ₗ[ℝ] V) (hA : Spec.Symmetric A) (M : V ≃ₗ[ℝ] V) (hM : Preconditioner M)
    (b : V) (threshold : ℝ) (hth : 0 < threshold) (info : TCGInfo) (s : TCGLoop V)
    (S : Submodule ℝ V) (h : TCGInv A M b info.Delta s S) :
    match tcgBody A M ‖b‖ threshold info s with
    | .inl s' => TCGEnd A M b info s' ∧ TCGProgress A M b s s' ∧
        quadratic A b s'.x < quadratic A b s.x
    | .inr s' => TCGInv A M b info.Delta s' (S ⊔ Submodule.span ℝ {s.p}) ∧
        TCGProgress A M b s s' ∧ quadratic A b s'.x < quadratic A b s.x ∧ s'.i = s.i + 1 := by
  have habs := h.absPos hM
  have hd := h.dPos hM
  have hpn : ∀ t, pnorm2 M (s.x + t • s.p) = s.e_Pe + 2 * t * s.e_Pd + t * t * s.d_Pd := by
    intro t
    rw [pnorm2_add hM, h.ePe, h.ePd, h.dPd]
  have hqu : ∀ t, quadratic A b (s.x + t • s.p) = quadratic A b s.x - t * s.absNew
      + (1 / 2) * (t * t) * inner ℝ s.p (A s.p) := by
    intro t
    rw [quadratic_add hA, ← h.res, h.rp]
  set dH : ℝ := inner ℝ s.p (A s.p) with hdH
  unfold tcgBody
  simp only [← hdH]
  by_cases hc : dH ≤ 0 ∨ s.e_Pe + 2 * (s.absNew / dH) * s.e_Pd
      + s.absNew / dH * (s.absNew / dH) * s.d_Pd ≥ info.Delta * info.Delta
  · rw [if_pos hc]
    simp only
    set D := info.Delta * info.Delta - s.e_Pe with hD
    have hDpos : 0 < D := by have := h.inside; linarith
    set q := Real.sqrt (s.e_Pd * s.e_Pd + s.d_Pd * D) with hq
    have hq2 : q * q = s.e_Pd * s.e_Pd + s.d_Pd * D := Real.mul_self_sqrt (by
      have := mul_pos hd hDpos; nlinarith [mul_self_nonneg s.e_Pd])
    have hqpos : 0 ≤ q := Real.sqrt_nonneg _
    have hqgt : s.e_Pd < q := by
      have := mul_pos hd hDpos
      nlinarith
    set tau := (-s.e_Pd + q) / s.d_Pd with htau
    have htau0 : 0 < tau := div_pos (by linarith) hd
    have htd : tau * s.d_Pd = q - s.e_Pd := by rw [htau]; field_simp; ring
    have hbd : pnorm2 M (s.x + tau • s.p) = info.Delta * info.Delta := by
      rw [hpn]
      have h1 : (2 * tau * s.e_Pd + tau * tau * s.d_Pd) * s.d_Pd = D * s.d_Pd := by
        have : (2 * tau * s.e_Pd + tau * tau * s.d_Pd) * s.d_Pd
            = 2 * (tau * s.d_Pd) * s.e_Pd + (tau * s.d_Pd) * (tau * s.d_Pd) := by ring
        rw [this, htd]
        linear_combination hq2
      have := mul_right_cancel₀ hd.ne' h1
      rw [hD] at this
      linarith
    have hquad : quadratic A b (s.x + tau • s.p) < quadratic A b s.x := by
      rw [hqu]
      by_cases hneg : dH ≤ 0
      · have h1 := mul_pos htau0 habs
        have h2 : tau * tau * dH ≤ 0 := by nlinarith [mul_pos htau0 htau0]
        nlinarith
      · have hdpos : 0 < dH := not_le.1 hneg
        rcases hc with hc | hc
        · exact absurd hc hneg
        · set al := s.absNew / dH with hal
          have halpos : 0 < al := div_pos habs hdpos
          have hle : tau ≤ al := by
            by_contra hlt
            have hlt := not_le.1 hlt
            have hb := hbd
            rw [hpn] at hb
            have h1 : al * s.e_Pd ≤ tau * s.e_Pd := mul_le_mul_of_nonneg_right hlt.le h.ePd_nonneg
            have h2 : al * al < tau * tau := by nlinarith
            have h3 : al * al * s.d_Pd < tau * tau * s.d_Pd := mul_lt_mul_of_pos_right h2 hd
            nlinarith
          have hal2 : al * dH = s.absNew := by rw [hal]; field_simp
          have : tau * dH ≤ s.absNew := by rw [← hal2]; nlinarith
          nlinarith [mul_pos htau0 habs]
    refine ⟨⟨hbd.le, fun _ => hbd, ?_, ?_⟩, ⟨?_, hquad.le⟩, hquad⟩
    · intro hk
      exfalso
      revert hk
      by_cases hneg : dH ≤ 0 <;> simp [hneg]
    · by_cases hneg : dH ≤ 0 <;> simp [hneg]
    · rw [hbd, ← h.ePe]; exact h.inside.le
  · rw [if_neg hc]
    simp only [not_or, not_le, ge_iff_le] at hc
    obtain ⟨hdpos, hin⟩ := hc
    set al := s.absNew / dH with hal
    have halpos : 0 < al := div_pos habs hdpos
    have hal2 : al * dH = s.absNew := by rw [hal]; field_simp
    have hnorm : pnorm2 M s.x ≤ pnorm2 M (s.x + al • s.p) := by
      rw [hpn, ← h.ePe]
      have := mul_nonneg halpos.le h.ePd_nonneg
      have := mul_pos (mul_pos halpos halpos) hd
      linarith
    have hquad : quadratic A b (s.x + al • s.p) < quadratic A b s.x := by
      rw [hqu]
      have : al * al * dH = al * s.absNew := by rw [mul_assoc, hal2]
      have := mul_pos halpos habs
      nlinarith
    have hres : s.residual - al • A s.p = b - A (s.x + al • s.p) := by
      rw [h.res, map_add, map_smul]; abel
    have hpn' : pnorm2 M (s.x + al • s.p) < info.Delta * info.Delta := by rw [hpn]; exact hin
    by_cases hk : (s.i : Int) ≥ info.mininner ∧ ‖s.residual - al • A s.p‖ ≤ ‖b‖ * min ‖b‖ info.kappa
    · rw [if_pos hk]
      refine ⟨⟨hpn'.le, ?_, ?_, ?_⟩, ⟨hnorm, hquad.le⟩, hquad⟩
      · intro hst
        exfalso
        revert hst
        by_cases hq : info.kappa < ‖b‖ <;> simp [hq]
      · intro _
        rw [← hres]
        exact hk.2
      · by_cases hq : info.kappa < ‖b‖ <;> simp [hq]
    · rw [if_neg hk]
      by_cases hth2 : ‖s.residual - al • A s.p‖ < threshold
      · rw [if_pos hth2]
        refine ⟨⟨hpn'.le, ?_, ?_, ?_⟩, ⟨hnorm, hquad.le⟩, hquad⟩
        · intro hst; simp [h.stop] at hst
        · intro hst; simp [h.stop] at hst
        · simp [h.stop]
      · rw [if_neg hth2]
        refine ⟨?_, ⟨hnorm, hquad.le⟩, hquad, rfl⟩
        set r' := s.residual - al • A s.p with hr'
        set z' := M r' with hz'
        set an : ℝ := inner ℝ r' z' with han
        set be := an / s.absNew with hbe
        set p' := z' + be • s.p with hp'
        have hbe2 : be * s.absNew = an := by rw [hbe]; field_simp
        have hr'ne : r' ≠ 0 := by
          intro h0
          apply hth2
          rw [h0, norm_zero]; exact hth
        have hanpos : 0 < an := by rw [han, hz']; exact hM.pos _ hr'ne
        have hbepos : 0 < be := div_pos hanpos habs
        -- membership in the enlarged space
        have hmem : ∀ v, v ∈ S ⊔ Submodule.span ℝ {s.p} ↔ ∃ w ∈ S, ∃ c : ℝ, v = w + c • s.p := by
          intro v
          rw [Submodule.mem_sup]
          constructor
          · rintro ⟨w, hw, u, hu, rfl⟩
            obtain ⟨c, rfl⟩ := Submodule.mem_span_singleton.1 hu
            exact ⟨w, hw, c, rfl⟩
          · rintro ⟨w, hw, c, rfl⟩
            exact ⟨w, hw, c • s.p, Submodule.mem_span_singleton.2 ⟨c, rfl⟩, rfl⟩
        have hr'p : inner ℝ r' s.p = 0 := by
          rw [hr', inner_sub_left, inner_smul_left, h.rp, conj_trivial, hA, ← hdH, hal2, sub_self]
        have hr'S : ∀ v ∈ S ⊔ Submodule.span ℝ {s.p}, inner ℝ r' v = 0 := by
          intro v hv
          obtain ⟨w, hw, c, rfl⟩ := (hmem v).1 hv
          rw [inner_add_right, inner_smul_right, hr'p, mul_zero, add_zero, hr', inner_sub_left,
            h.rS w hw, inner_smul_left, hA, real_inner_comm, h.conj w hw]
          simp
        have hx' : s.x + al • s.p ∈ S ⊔ Submodule.span ℝ {s.p} :=
          (hmem _).2 ⟨s.x, h.xS, al, rfl⟩
        have hzS : M s.residual ∈ S ⊔ Submodule.span ℝ {s.p} := by
          refine (hmem _).2 ⟨-(s.p - M s.residual), S.neg_mem h.dir, 1, ?_⟩
          module
        have hkr : ∀ v ∈ S, M (A v) ∈ S ⊔ Submodule.span ℝ {s.p} := by
          intro v hv
          obtain ⟨w, hw, c, e⟩ := h.krylov v hv
          exact (hmem _).2 ⟨w, hw, c, e⟩
        have hAp : A s.p = al⁻¹ • (s.residual - r') := by
          rw [hr', sub_sub_cancel, smul_smul, inv_mul_cancel₀ halpos.ne', one_smul]
        refine ⟨hx', hres, hr'S, ?_, ?_, ?_, hr'ne, rfl, ?_, ?_, ?_, ?_, hin, h.stop⟩
        · -- conjugacy
          intro v hv
          obtain ⟨w, hw, c, rfl⟩ := (hmem v).1 hv
          have h1 : inner ℝ (A w) p' = 0 := by
            rw [hp', inner_add_right, inner_smul_right, h.conj w hw, mul_zero, add_zero, hz',
              ← hM.symm, real_inner_comm]
            exact hr'S _ (hkr w hw)
          have h2 : inner ℝ (A s.p) p' = 0 := by
            rw [hp', inner_add_right, inner_smul_right, hA s.p s.p, ← hdH]
            have h3 : inner ℝ (A s.p) z' = -(al⁻¹ * an) := by
              rw [hAp, inner_smul_left, inner_sub_left, conj_trivial, ← han]
              have h4 : inner ℝ s.residual z' = 0 := by
                rw [hz', ← hM.symm, real_inner_comm]
                exact hr'S _ hzS
              rw [h4]; ring
            rw [h3, ← hbe2, hal]
            field_simp
            ring
          rw [map_add, map_smul, inner_add_left, inner_smul_left, h1, h2]
          simp
        · -- direction
          refine (hmem _).2 ⟨0, S.zero_mem, be, ?_⟩
          simp only [hp', hz']
          module
        · -- krylov
          intro v hv
          obtain ⟨w, hw, c, rfl⟩ := (hmem v).1 hv
          refine ⟨M (A w) + (c * al⁻¹) • (M s.residual + be • s.p),
            Submodule.add_mem _ (hkr w hw) (Submodule.smul_mem _ _ (Submodule.add_mem _ hzS
              ((hmem _).2 ⟨0, S.zero_mem, be, by simp⟩))), -(c * al⁻¹), ?_⟩
          rw [map_add, map_add, map_smul, map_smul, hAp, map_smul, map_sub]
          simp only [hp', hz']
          module
        · -- d_Pd
          show an + be * be * s.d_Pd = pnorm2 M p'
          have h5 : pnorm2 M z' = an := by
            unfold pnorm2
            rw [hz', LinearEquiv.symm_apply_apply, real_inner_comm]
          have h6 : inner ℝ z' (M.symm s.p) = 0 := by
            rw [hM.symm', hz', LinearEquiv.symm_apply_apply]
            exact hr'p
          rw [hp', pnorm2_add hM, h5, h6, h.dPd]
          ring
        · -- e_Pd
          show be * (s.e_Pd + al * s.d_Pd) = inner ℝ (s.x + al • s.p) (M.symm p')
          have h7 : inner ℝ (s.x + al • s.p) (M.symm z') = 0 := by
            rw [hz', LinearEquiv.symm_apply_apply, real_inner_comm]
            exact hr'S _ hx'
          rw [hp', map_add, map_smul, inner_add_right, h7, inner_smul_right, inner_add_left,
            inner_smul_left, ← h.ePd, conj_trivial, h.dPd]
          unfold pnorm2
          ring
        · -- e_Pe
          show s.e_Pe + 2 * al * s.e_Pd + al * al * s.d_Pd = _
          rw [hpn]
        · show 0 ≤ be * (s.e_Pd + al * s.d_Pd)
          have := mul_pos halpos hd
          have := h.ePd_nonneg
          positivity

theorem TCGProgress.trans {A : V →ₗ[ℝ] V} {M : V ≃ₗ[ℝ] V} {b : V} {s s' s'' : TCGLoop V}
    (h : TCGProgress A M b s s') (h' : TCGProgress A M b s' s'') : TCGProgress A M b s s'' :=
  ⟨h.norm.trans h'.norm, h'.quad.trans h.quad⟩

theorem TCGInv.end {A : V →ₗ[ℝ] V} {M : V ≃ₗ[ℝ] V} {b : V} {info : TCGInfo} {s : TCGLoop V}
    {S : Submodule ℝ V} (h : TCGInv A M b info.Delta s S) : TCGEnd A M b info s :=
  ⟨by rw [← h.ePe]; exact h.inside.le, fun hs => by simp [h.stop] at hs,
    fun hs => by simp [h.stop] at hs, by simp [h.stop]⟩

theorem tcgLoop_spec (A : V →ₗ[ℝ] V) (hA : Spec.Symmetric A) (M : V ≃ₗ[ℝ] V)
    (hM : Preconditioner M) (b : V) (threshold : ℝ) (hth : 0 < threshold) (info : TCGInfo) (n : Nat)
    (s : TCGLoop V) (S : Submodule ℝ V) (h : TCGInv A M b info.Delta s S) :
    TCGEnd A M b info (tcgLoop A M ‖b‖ threshold info n s) ∧
      TCGProgress A M b s (tcgLoop A M ‖b‖ threshold info n s) ∧
      TCGProgress A M b (tcgLoop A M ‖b‖ threshold info n s)
        (tcgLoop A M ‖b‖ threshold info (n + 1) s) ∧
      (0 < n → quadratic A b (tcgLoop A M ‖b‖ threshold info n s).x < quadratic A b s.x) ∧
      (tcgLoop A M ‖b‖ threshold info n s).i ≤ s.i + n := by
  induction n generalizing s S with
  | zero =>
    refine ⟨h.end, ⟨le_rfl, le_rfl⟩, ?_, fun h => absurd h (by omega), by simp [tcgLoop]⟩
    have := tcgBody_spec A hA M hM b threshold hth info s S h
    unfold tcgLoop
    cases hb : tcgBody (⇑A) (⇑M) ‖b‖ threshold info s with
    | inl s' => rw [hb] at this; exact this.2.1
    | inr s' => rw [hb] at this; exact this.2.1
  | succ n ih =>
    have := tcgBody_spec A hA M hM b threshold hth info s S h
    have hi : ∀ s', tcgBody (⇑A) (⇑M) ‖b‖ threshold info s = .inl s' → s'.i = s.i := by
      intro s' hs'
      unfold tcgBody at hs'
      simp only at hs'
      split at hs'
      · simp only [Sum.inl.injEq] at hs'
        rw [← hs']
      · split at hs'
        · simp only [Sum.inl.injEq] at hs'
          rw [← hs']
        · split at hs'
          · simp only [Sum.inl.injEq] at hs'
            rw [← hs']
          · simp at hs'
    have e : ∀ m, tcgLoop (⇑A) (⇑M) ‖b‖ threshold info (m + 1) s =
        match tcgBody (⇑A) (⇑M) ‖b‖ threshold info s with
        | .inl s => s
        | .inr s => tcgLoop (⇑A) (⇑M) ‖b‖ threshold info m s := fun m => rfl
    rw [e n, e (n + 1)]
    cases hb : tcgBody (⇑A) (⇑M) ‖b‖ threshold info s with
    | inl s' =>
      rw [hb] at this
      obtain ⟨h1, h2, h3⟩ := this
      refine ⟨h1, h2, ⟨le_rfl, le_rfl⟩, fun _ => h3, ?_⟩
      have := hi s' hb
      simp only [this]; omega
    | inr s' =>
      rw [hb] at this
      obtain ⟨h1, h2, h3, h4⟩ := this
      obtain ⟨i1, i2, i3, i4, i5⟩ := ih s' _ h1
      exact ⟨i1, h2.trans i2, i3, fun _ => lt_of_le_of_lt i2.quad h3, by simp only at i5 ⊢; omega⟩

theorem tcgStart_inv (A : V →ₗ[ℝ] V) (M : V ≃ₗ[ℝ] V) (b : V) (hb : b ≠ 0)
    (Delta : ℝ) (hD : 0 < Delta) : TCGInv A M b Delta (tcgStart A M b 0) ⊥ := by
  refine ⟨?_, ?_, ?_, ?_, ?_, ?_, ?_, rfl, ?_, ?_, ?_, le_rfl, ?_, rfl⟩
  · simp [tcgStart]
  · simp [tcgStart]
  · intro v hv; rw [(Submodule.mem_bot ℝ).1 hv, inner_zero_right]
  · intro v hv; rw [(Submodule.mem_bot ℝ).1 hv, map_zero, inner_zero_left]
  · simp [tcgStart]
  · intro v hv
    exact ⟨0, Submodule.zero_mem _, 0, by rw [(Submodule.mem_bot ℝ).1 hv]; simp⟩
  · simpa [tcgStart] using hb
  · simp [tcgStart, pnorm2, real_inner_comm]
  · simp [tcgStart]
  · simp [tcgStart, pnorm2]
  · simp only [tcgStart, norm_zero]
    have := mul_pos hD hD
    simpa using this

/-- The three ways the method ends. -/
theorem tcg_cases (A : V →ₗ[ℝ] V) (M : V ≃ₗ[ℝ] V) (b : V) (maxIters : Nat) (tol tiny : ℝ)
    (info : TCGInfo) :
    tcg A M b 0 maxIters tol tiny info = (0, info) ∨
    (tiny < ‖b‖ ∧ tcg A M b 0 maxIters tol tiny info =
      ((tcgLoop A M ‖b‖ (max (tol * tol * ‖b‖ * ‖b‖) tiny) info (maxIters - 1)
          (tcgStart A M b 0)).x,
        { info with
          stop := (tcgLoop A M ‖b‖ (max (tol * tol * ‖b‖ * ‖b‖) tiny) info (maxIters - 1)
            (tcgStart A M b 0)).stop,
          numInnerIter := (tcgLoop A M ‖b‖ (max (tol * tol * ‖b‖ * ‖b‖) tiny) info (maxIters - 1)
            (tcgStart A M b 0)).i })) := by
  unfold tcg
  simp only
  split
  · exact Or.inl rfl
  · rename_i h
    split
    · exact Or.inl rfl
    · exact Or.inr ⟨not_le.1 h, rfl⟩

/-- C29. Started from zero with a symmetric matrix (of any definiteness) and a symmetric positive
definite preconditioner, for every right hand side, radius, tolerance and number of iterations: the
result lies in the trust region, its model value is at most that of zero, and the radius and limits
in the information are kept. -/
theorem tcg_in_trust_region (A : V →ₗ[ℝ] V) (hA : Spec.Symmetric A) (M : V ≃ₗ[ℝ] V)
    (hM : Preconditioner M) (b : V) (maxIters : Nat) (tol tiny : ℝ) (ht : 0 < tiny) (info : TCGInfo)
    (hD : 0 < info.Delta) :
    pnorm2 M (tcg A M b 0 maxIters tol tiny info).1 ≤ info.Delta ^ 2 ∧
      quadratic A b (tcg A M b 0 maxIters tol tiny info).1 ≤ 0 ∧
      (tcg A M b 0 maxIters tol tiny info).2.Delta = info.Delta := by
  have h0 : quadratic A b 0 = 0 := by simp [quadratic]
  rcases tcg_cases A M b maxIters tol tiny info with h | ⟨hb, h⟩
  · rw [h]
    refine ⟨?_, h0.le, rfl⟩
    have := mul_pos hD hD
    simp [pnorm2]
    positivity
  · rw [h]
    have hbne : b ≠ 0 := by
      intro hb0
      rw [hb0, norm_zero] at hb
      linarith
    obtain ⟨h1, h2, -⟩ := tcgLoop_spec A hA M hM b _ (lt_max_of_lt_right ht) info (maxIters - 1) _ _
      (tcgStart_inv A M b hbne info.Delta hD)
    refine ⟨by rw [sq]; exact h1.inside, ?_, rfl⟩
    have := h2.quad
    simp only [tcgStart] at this
    rw [h0] at this
    exact this

/-- C29. More iterations: along the iterates (runs stopped after more and more iterations) the norm
grows and the model value decreases, and the model value strictly decreases in the first iteration
unless the right hand side is negligible. -/
theorem tcg_monotone (A : V →ₗ[ℝ] V) (hA : Spec.Symmetric A) (M : V ≃ₗ[ℝ] V)
    (hM : Preconditioner M) (b : V) (tol tiny : ℝ) (ht : 0 < tiny) (info : TCGInfo)
    (hD : 0 < info.Delta) (m n : Nat) (hmn : m ≤ n) :
    pnorm2 M (tcg A M b 0 m tol tiny info).1 ≤ pnorm2 M (tcg A M b 0 n tol tiny info).1 ∧
      quadratic A b (tcg A M b 0 n tol tiny info).1 ≤ quadratic A b (tcg A M b 0 m tol tiny info).1 ∧
      (2 ≤ n → (tcg A M b 0 n tol tiny info).1 ≠ 0 →
        quadratic A b (tcg A M b 0 n tol tiny info).1 < 0) := by
  have h0 : quadratic A b 0 = 0 := by simp [quadratic]
  by_cases hearly : ‖b‖ ≤ tiny ∨ ‖b - A 0‖ * ‖b - A 0‖ < max (tol * tol * ‖b‖ * ‖b‖) tiny
  · have : ∀ k, (tcg A M b 0 k tol tiny info).1 = 0 := by
      intro k
      unfold tcg
      simp only
      by_cases h1 : ‖b‖ ≤ tiny
      · rw [if_pos h1]
      · rw [if_neg h1, if_pos (hearly.resolve_left h1)]
    rw [this m, this n]
    exact ⟨le_rfl, le_rfl, fun _ h => absurd rfl h⟩
  · simp only [not_or] at hearly
    obtain ⟨hb, hr⟩ := hearly
    have hk : ∀ k, (tcg A M b 0 k tol tiny info).1 = (tcgLoop A M ‖b‖
        (max (tol * tol * ‖b‖ * ‖b‖) tiny) info (k - 1) (tcgStart A M b 0)).x := by
      intro k
      unfold tcg
      simp only
      rw [if_neg hb, if_neg hr]
    have hbne : b ≠ 0 := by
      intro hb0
      apply hb
      rw [hb0, norm_zero]; exact ht.le
    have hinv := tcgStart_inv A M b hbne info.Delta hD
    have hsp := fun k => tcgLoop_spec A hA M hM b
      (max (tol * tol * ‖b‖ * ‖b‖) tiny) (lt_max_of_lt_right ht) info k _ _ hinv
    have hmono : ∀ k j, TCGProgress A M b
        (tcgLoop A M ‖b‖ (max (tol * tol * ‖b‖ * ‖b‖) tiny) info k (tcgStart A M b 0))
        (tcgLoop A M ‖b‖ (max (tol * tol * ‖b‖ * ‖b‖) tiny) info (k + j) (tcgStart A M b 0)) := by
      intro k j
      induction j with
      | zero => exact ⟨le_rfl, le_rfl⟩
      | succ j ih => exact ih.trans (hsp (k + j)).2.2.1
    have hq := hmono (m - 1) (n - 1 - (m - 1))
    have e : m - 1 + (n - 1 - (m - 1)) = n - 1 := by omega
    rw [e] at hq
    rw [hk m, hk n]
    refine ⟨hq.norm, hq.quad, fun h2 _ => ?_⟩
    have := (hsp (n - 1)).2.2.2.1 (by omega)
    simp only [tcgStart] at this ⊢
    rw [h0] at this
    exact this

/-- C29. The reasons for stopping mean what they say: unless the method returns at once, negative
curvature and leaving the trust region give a point exactly on the boundary, the two residual
criteria give the stated residual; the reason "model increased" is never given and at most
`max 1 maxIters` iterations are counted. -/
theorem tcg_stop_reason (A : V →ₗ[ℝ] V) (hA : Spec.Symmetric A) (M : V ≃ₗ[ℝ] V)
    (hM : Preconditioner M) (b : V) (maxIters : Nat) (tol tiny : ℝ) (ht : 0 < tiny) (info : TCGInfo)
    (hD : 0 < info.Delta) (hstart : tiny < ‖b‖)
    (hstart2 : max (tol * tol * ‖b‖ * ‖b‖) tiny ≤ ‖b‖ * ‖b‖) :
    let r := tcg A M b 0 maxIters tol tiny info
    (r.2.stop = .negativeCurvature ∨ r.2.stop = .exceededTrustRegion →
      pnorm2 M r.1 = info.Delta ^ 2) ∧
    (r.2.stop = .reachedTargetResidualKappaLinear ∨
      r.2.stop = .reachedTargetResidualThetaSuperLinear →
      ‖b - A r.1‖ ≤ ‖b‖ * min ‖b‖ info.kappa) ∧
    r.2.stop ≠ .modelIncreased ∧ r.2.numInnerIter ≤ max 1 maxIters := by
  intro r
  have hr : r = ((tcgLoop A M ‖b‖ (max (tol * tol * ‖b‖ * ‖b‖) tiny) info (maxIters - 1)
          (tcgStart A M b 0)).x,
        { info with
          stop := (tcgLoop A M ‖b‖ (max (tol * tol * ‖b‖ * ‖b‖) tiny) info (maxIters - 1)
            (tcgStart A M b 0)).stop,
          numInnerIter := (tcgLoop A M ‖b‖ (max (tol * tol * ‖b‖ * ‖b‖) tiny) info (maxIters - 1)
            (tcgStart A M b 0)).i }) := by
    show tcg A M b 0 maxIters tol tiny info = _
    unfold tcg
    simp only
    rw [if_neg (not_le.2 hstart), if_neg (by simpa using hstart2)]
  have hbne : b ≠ 0 := by
    intro hb0
    rw [hb0, norm_zero] at hstart
    linarith
  obtain ⟨h1, -, -, -, h5⟩ := tcgLoop_spec A hA M hM b _ (lt_max_of_lt_right ht) info (maxIters - 1)
    _ _ (tcgStart_inv A M b hbne info.Delta hD)
  rw [hr]
  refine ⟨fun h => by rw [sq]; exact h1.boundary h, h1.kappa, h1.never, ?_⟩
  simp only [tcgStart] at h5 ⊢
  omega

/-! ### Other starting points -/

/-- The bound of the trust region for every starting point inside of it. -/
def Spec.InsideFromEveryStart : Prop :=
  ∀ (A : ℝ →ₗ[ℝ] ℝ) (M : ℝ ≃ₗ[ℝ] ℝ), Spec.Symmetric A → Spec.Preconditioner M →
    ∀ (b x : ℝ) (maxIters : Nat) (tol tiny : ℝ) (info : TCGInfo), 0 < tiny → 0 < info.Delta →
      pnorm2 M x < info.Delta ^ 2 → pnorm2 M (tcg A M b x maxIters tol tiny info).1 ≤ info.Delta ^ 2

/-- C29, the start at zero is needed: with a nonzero guess (random predictor) the product of the
guess with the first direction is taken to be zero and the result can leave the trust region. -/
theorem tcg_guess_leaves_trust_region : ¬ Spec.InsideFromEveryStart := by
  intro h
  have := h LinearMap.id (LinearEquiv.refl ℝ ℝ) (fun x y => rfl)
    ⟨fun x y => rfl, fun x hx => by
      show 0 < inner ℝ x x
      exact real_inner_self_pos.2 hx⟩ (5 / 2) 1 2 0 (1 / 100)
    ⟨.maximumInnerIterations, 2, 1 / 10, 1, 0⟩ (by norm_num) (by norm_num)
    (by simp [pnorm2])
  have e : (tcg (LinearMap.id : ℝ →ₗ[ℝ] ℝ) (LinearEquiv.refl ℝ ℝ) (5 / 2) 1 2 0 (1 / 100)
    ⟨.maximumInnerIterations, 2, 1 / 10, 1, 0⟩).1 = 5 / 2 := by
    unfold tcg
    simp only [LinearMap.id_coe, id_eq]
    have n1 : ‖(5 / 2 : ℝ)‖ = 5 / 2 := by rw [Real.norm_eq_abs, abs_of_pos (by norm_num)]
    have n2 : ‖(5 / 2 - 1 : ℝ)‖ = 3 / 2 := by rw [Real.norm_eq_abs, abs_of_pos (by norm_num)]; norm_num
    rw [n1, n2, if_neg (by norm_num), if_neg (by norm_num)]
    show (tcgLoop _ _ _ _ _ 1 _).x = _
    unfold tcgLoop tcgBody tcgStart
    simp only [id_eq, LinearEquiv.refl_apply]
    norm_num
  rw [e] at this
  simp [pnorm2] at this
  norm_num at this

/-- The hypotheses of the theorems are met by a matrix of negative curvature; the result is on the
boundary of the trust region of radius two. -/
example : Spec.Symmetric (-LinearMap.id : ℝ →ₗ[ℝ] ℝ) ∧ Spec.Preconditioner (LinearEquiv.refl ℝ ℝ) ∧
    (tcg (-LinearMap.id : ℝ →ₗ[ℝ] ℝ) (LinearEquiv.refl ℝ ℝ) 1 0 2 0 (1 / 100)
      ⟨.maximumInnerIterations, 2, 1 / 10, 1, 0⟩).2.stop = .negativeCurvature := by
  refine ⟨fun x y => by simp, ⟨fun x y => rfl, fun x hx => ?_⟩, ?_⟩
  · show 0 < inner ℝ x x
    exact real_inner_self_pos.2 hx
  · unfold tcg
    simp only [LinearMap.neg_apply, LinearMap.id_coe, id_eq]
    rw [if_neg (by norm_num), if_neg (by norm_num)]
    show (tcgLoop _ _ _ _ _ 1 _).stop = _
    unfold tcgLoop tcgBody tcgStart
    norm_num

end

/-- C29. A zero right hand side gives the zero solution from every start, without iterations. -/
theorem tcg_zero_rhs {V : Type} [NormedAddCommGroup V] [InnerProductSpace ℝ V] (A M : V → V) (x : V) (maxIters : Nat) (tol tiny : ℝ) (ht : 0 ≤ tiny)
    (info : TCGInfo) : tcg A M (0 : V) x maxIters tol tiny info = (0, info) := by
  unfold tcg
  simp [ht]

example (info : TCGInfo) : tcg (fun v : ℝ => -v) id 0 3 10 1e-6 0 info = (0, info) := tcg_zero_rhs _ _ _ _ _ _ le_rfl _

end Ikarus
