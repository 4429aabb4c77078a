import Verif.Analysis.LocalPathLemmas

/-!
C107: a regular state of equilibrium lies on a regular path of equilibrium, the only one nearby.
-/

namespace Ikarus

open Ikarus.Element Ikarus.Element.Spec

namespace Analysis

variable {a : Analysis} {û : Nat → ℝ} {l0 eta rho beta L B P : ℝ} {x0 : List ℝ}

/-- Unbalanced forces at the free dofs, and at the others the deviation from the prescribed displacement. -/
noncomputable def defect (a : Analysis) (û : Nat → ℝ) (l : ℝ) (x : EuclideanSpace ℝ (Fin a.dv.flags.length)) :
    EuclideanSpace ℝ (Fin a.dv.flags.length) :=
  vec _ fun i => if Spec.Free a.dv.flags i then (((a.system l).rawVector? (ofVec x)).getD []).getD i 0
    else (ofVec x).getD i 0 - l * û i

/-- The derivative of the defect at the state of equilibrium. -/
noncomputable def defectTangent (flags : List Bool) (K : DMat ℝ) :
    EuclideanSpace ℝ (Fin flags.length) →ₗ[ℝ] EuclideanSpace ℝ (Fin flags.length) where
  toFun v := vec _ fun i => if Spec.Free flags i then Spec.times K (ofVec v) i else (ofVec v).getD i 0
  map_add' v w := by
    ext i
    simp only [vec, PiLp.add_apply, times_eq K (ofVec_length _), Finset.sum_range, ofVec_getD, mul_add, Finset.sum_add_distrib]
    split <;> rfl
  map_smul' c v := by
    ext i
    simp only [vec, PiLp.smul_apply, times_eq K (ofVec_length _), Finset.sum_range, ofVec_getD, smul_eq_mul, RingHom.id_apply]
    split
    · rw [Finset.mul_sum]
      exact Finset.sum_congr rfl fun j _ => by ring
    · rfl

theorem defect_zero {l : ℝ} {u r : List ℝ} (hu : u.length = a.dv.flags.length) (hr : (a.system l).rawVector? u = some r) :
    defect a û l (vec _ (u.getD · 0)) = 0 ↔
      Spec.OnSupports a.dv.flags û l u ∧ ∀ i, Spec.Free a.dv.flags i → r.getD i 0 = 0 := by
  have e : ∀ i : Fin a.dv.flags.length, defect a û l (vec _ (u.getD · 0)) i =
      if Spec.Free a.dv.flags i then r.getD i 0 else u.getD i 0 - l * û i := by
    intro i
    simp only [defect, ofVec_vec hu, hr, Option.getD_some]
    rfl
  constructor
  · intro h
    have h' : ∀ i : Fin a.dv.flags.length, (if Spec.Free a.dv.flags i then r.getD i 0 else u.getD i 0 - l * û i) = 0 := by
      intro i
      rw [← e, h]; rfl
    refine ⟨⟨hu, fun i hi => ?_⟩, fun i hi => ?_⟩
    · have hlt : i < a.dv.flags.length := (List.getElem?_eq_some_iff.1 hi).1
      have := h' ⟨i, hlt⟩
      rw [if_neg ((not_free_iff hlt).2 hi)] at this
      rw [getElem?_eq_getD (hu ▸ hlt)]
      congr 1
      exact sub_eq_zero.1 this
    · have := h' ⟨i, free_lt hi⟩
      rwa [if_pos hi] at this
  · rintro ⟨h1, h2⟩
    ext i
    rw [e]
    split
    · exact h2 _ ‹_›
    · rename_i hf
      have := h1.2 i ((not_free_iff i.2).1 hf)
      rw [List.getD_eq_getElem?_getD, this, Option.getD_some, sub_self]; rfl

theorem norm_split {flags : List Bool} (f g : Nat → ℝ) :
    ‖vec flags.length (fun i => if Spec.Free flags i then f i else g i)‖ ≤ Spec.freeSize flags f + ‖vec flags.length g‖ := by
  have e : vec flags.length (fun i => if Spec.Free flags i then f i else g i) =
      freeVec flags f + vec flags.length (fun i => if Spec.Free flags i then 0 else g i) := by
    ext i
    simp only [freeVec, vec, PiLp.add_apply]
    split <;> simp
  rw [e, ← freeVec_norm]
  refine (norm_add_le _ _).trans (add_le_add le_rfl ?_)
  rw [vec_norm, vec_norm]
  refine Real.sqrt_le_sqrt (Finset.sum_le_sum fun i _ => ?_)
  split
  · simpa using sq_nonneg (g i)
  · exact le_rfl

theorem norm_parts {flags : List Bool} (f g : Nat → ℝ) :
    Spec.freeSize flags f ≤ ‖vec flags.length (fun i => if Spec.Free flags i then f i else g i)‖ ∧
    ‖vec flags.length (fun i => if Spec.Free flags i then 0 else g i)‖ ≤
      ‖vec flags.length (fun i => if Spec.Free flags i then f i else g i)‖ := by
  constructor
  · rw [← freeVec_norm]
    unfold freeVec
    rw [vec_norm, vec_norm]
    refine Real.sqrt_le_sqrt (Finset.sum_le_sum fun i _ => ?_)
    split
    · exact le_rfl
    · simpa using sq_nonneg (g i)
  · rw [vec_norm, vec_norm]
    refine Real.sqrt_le_sqrt (Finset.sum_le_sum fun i _ => ?_)
    split
    · simpa using sq_nonneg (f i)
    · exact le_rfl

/-- The tangent of the defect has an inverse of norm at most `1 + beta (1 + B)`. -/
theorem defectTangent_bound {flags : List Bool} {K : DMat ℝ} (hb : 0 ≤ beta) 
    (hst : ∀ v : List ℝ, v.length = flags.length → (∀ i : Nat, flags[i]? = some true → v[i]? = some 0) →
      Spec.size v ≤ beta * Spec.freeSize flags (Spec.times K v))
    (hbd : ∀ v : List ℝ, v.length = flags.length → Spec.freeSize flags (Spec.times K v) ≤ B * Spec.size v) (hB : 0 ≤ B)
    (v : EuclideanSpace ℝ (Fin flags.length)) : ‖v‖ ≤ (1 + beta * (1 + B)) * ‖defectTangent flags K v‖ := by
  let f : EuclideanSpace ℝ (Fin flags.length) := vec _ fun i => if Spec.Free flags i then (ofVec v).getD i 0 else 0
  let c : EuclideanSpace ℝ (Fin flags.length) := vec _ fun i => if Spec.Free flags i then 0 else (ofVec v).getD i 0
  have hfc : v = f + c := by
    ext i
    simp only [f, c, vec, PiLp.add_apply, ofVec_getD]
    split <;> simp
  have hN := norm_parts (flags := flags) (Spec.times K (ofVec v)) ((ofVec v).getD · 0)
  have hc : ‖c‖ ≤ ‖defectTangent flags K v‖ := hN.2
  have hKv : Spec.freeSize flags (Spec.times K (ofVec v)) ≤ ‖defectTangent flags K v‖ := hN.1
  have h1 := hst (ofVec f) (ofVec_length f) fun i hi => by
    have hlt : i < flags.length := (List.getElem?_eq_some_iff.1 hi).1
    rw [getElem?_eq_getD (by rw [ofVec_length]; exact hlt)]
    have : (ofVec f).getD i 0 = f ⟨i, hlt⟩ := ofVec_getD f ⟨i, hlt⟩
    rw [this]
    simp only [f, vec]
    rw [if_neg ((not_free_iff hlt).2 hi)]
  have h2 := hbd (ofVec c) (ofVec_length c)
  rw [size_ofVec] at h1 h2
  have h3 : Spec.freeSize flags (Spec.times K (ofVec f)) ≤
      Spec.freeSize flags (Spec.times K (ofVec v)) + Spec.freeSize flags (Spec.times K (ofVec c)) := by
    rw [← freeSize_neg flags (Spec.times K (ofVec c))]
    refine le_of_eq_of_le (freeSize_congr fun i _ => ?_) (freeSize_add _ _ _)
    rw [times_eq K (ofVec_length f), times_eq K (ofVec_length v), times_eq K (ofVec_length c), ← sub_eq_add_neg,
      ← Finset.sum_sub_distrib]
    refine Finset.sum_congr rfl fun j hj => ?_
    have hj := Finset.mem_range.1 hj
    have e : ∀ x : EuclideanSpace ℝ (Fin flags.length), (ofVec x).getD j 0 = x ⟨j, hj⟩ := fun x => ofVec_getD x ⟨j, hj⟩
    rw [e, e, e, ← mul_sub]
    congr 1
    conv_rhs => rw [hfc]
    simp
  have h4 : ‖v‖ ≤ ‖f‖ + ‖c‖ := by
    conv_lhs => rw [hfc]
    exact norm_add_le _ _
  have h5 : B * ‖c‖ ≤ B * ‖defectTangent flags K v‖ := mul_le_mul_of_nonneg_left hc hB
  have h6 : beta * Spec.freeSize flags (Spec.times K (ofVec f)) ≤ beta * ((1 + B) * ‖defectTangent flags K v‖) :=
    mul_le_mul_of_nonneg_left (by linarith) hb
  linarith

theorem defectTangent_surjective {flags : List Bool} {K : DMat ℝ} {kap : ℝ}
    (h : ∀ v, ‖v‖ ≤ kap * ‖defectTangent flags K v‖) : Function.Surjective (defectTangent flags K) := by
  refine LinearMap.injective_iff_surjective.1 ((injective_iff_map_eq_zero _).2 fun v hv => ?_)
  have := h v
  rw [hv, norm_zero, mul_zero] at this
  exact norm_le_zero_iff.1 this

theorem near_refl {x : List ℝ} (hx : x.length = a.dv.flags.length) (hr : 0 ≤ rho) : Spec.Near a x rho x := ⟨hx, by
  rw [distance_eq _ _ _ hx hx, vec_sub, sub_self, norm_zero]; exact hr⟩

set_option maxHeartbeats 800000 in
/-- C107, existence. Through a regular state of equilibrium leads a regular path of equilibrium, and near the state there is no
other equilibrium. -/
theorem regular_path_through (h : Spec.RegularNear a û l0 x0 eta rho beta L B P) :
    ∃ (X : ℝ → List ℝ) (eta' rho' M : ℝ), 0 < eta' ∧ eta' ≤ eta ∧ 0 < rho' ∧ X l0 = x0 ∧
      Spec.RegularPath a û X (l0 - eta') (l0 + eta') rho' beta L B M ∧
      (∀ l, |l - l0| ≤ eta' → Spec.Near a x0 (rho / 2) (X l)) ∧
      ∀ l, |l - l0| ≤ eta' → ∀ u, Spec.Near a x0 rho' u → Spec.OnSupports a.dv.flags û l u → ∀ r,
        (a.system l).rawVector? u = some r → (∀ i, Spec.Free a.dv.flags i → r.getD i 0 = 0) → u = X l := by
  obtain ⟨hb, hL, hB, hP⟩ := h.nonneg
  have hx0l := h.supports.1
  have hl0 : |l0 - l0| ≤ eta := by rw [sub_self, abs_zero]; exact h.pos.1.le
  have hx0n : Spec.Near a x0 rho x0 := near_refl hx0l h.pos.2.le
  obtain ⟨-, r0, K, hr0, hK, -⟩ := assembled_consistent _ _ (h.contract l0 hl0 x0 hx0n)
  have hA := defectTangent_bound hb (h.stable l0 hl0 x0 hx0n K hK) (h.bounded l0 hl0 x0 hx0n K hK) hB
  obtain ⟨kap, hkap⟩ : ∃ kap, kap = 1 + beta * (1 + B) := ⟨_, rfl⟩
  rw [← hkap] at hA
  have hk : 0 < kap := by rw [hkap]; positivity
  obtain ⟨Q, hQ⟩ : ∃ Q, Q = P + ‖vec a.dv.flags.length û‖ := ⟨_, rfl⟩
  have hQ0 : 0 ≤ Q := by rw [hQ]; positivity
  obtain ⟨r1, hr1⟩ : ∃ r1, r1 = min (rho / 2) (1 / (4 * kap * (L + 1))) := ⟨_, rfl⟩
  have hr1p : 0 < r1 := by rw [hr1]; exact lt_min (half_pos h.pos.2) (by positivity)
  have hr1a : r1 ≤ rho / 2 := hr1 ▸ min_le_left _ _
  have hr1b : r1 * (4 * kap * (L + 1)) ≤ 1 := by
    rw [← le_div_iff₀ (by positivity)]; exact hr1 ▸ min_le_right _ _
  obtain ⟨e1, he1⟩ : ∃ e1, e1 = min eta (min r1 (r1 / (2 * kap * (Q + 1)))) := ⟨_, rfl⟩
  have he1p : 0 < e1 := by rw [he1]; exact lt_min h.pos.1 (lt_min hr1p (by positivity))
  have he1a : e1 ≤ eta := he1 ▸ min_le_left _ _
  have he1b : e1 ≤ r1 := he1 ▸ (min_le_right _ _).trans (min_le_left _ _)
  have he1c : e1 * (2 * kap * (Q + 1)) ≤ r1 := by
    rw [← le_div_iff₀ (by positivity)]; exact he1 ▸ (min_le_right _ _).trans (min_le_right _ _)
  have hr1r : r1 ≤ rho := by linarith [h.pos.2]
  let A := LinearMap.toContinuousLinearMap (defectTangent a.dv.flags K)
  let y0 : EuclideanSpace ℝ (Fin a.dv.flags.length) := vec _ (x0.getD · 0)
  have hy0 : ofVec y0 = x0 := ofVec_vec hx0l
  have hball : ∀ {x : EuclideanSpace ℝ (Fin a.dv.flags.length)} {s : ℝ}, x ∈ Metric.closedBall y0 s ↔ Spec.Near a x0 s (ofVec x) := by
    intro x s
    rw [Metric.mem_closedBall, dist_eq_norm, ← distance_ofVec, hy0]
    exact ⟨fun h => ⟨ofVec_length x, h⟩, fun h => h.2⟩
  have hw : ∀ {u}, Spec.Near a x0 r1 u → Spec.Near a x0 rho u := fun hu => ⟨hu.1, hu.2.trans hr1r⟩
  have hvec : ∀ l, |l - l0| ≤ eta → ∀ u, Spec.Near a x0 rho u → ∃ r, (a.system l).rawVector? u = some r := by
    intro l hl u hu
    obtain ⟨-, r, -, hr, -⟩ := assembled_consistent _ _ (h.contract l hl u hu)
    exact ⟨r, hr⟩
  have happ : ∀ l, |l - l0| ≤ e1 → ∀ x ∈ Metric.closedBall y0 r1, ∀ y ∈ Metric.closedBall y0 r1,
      2 * kap * ‖defect a û l x - defect a û l y - A (x - y)‖ ≤ ‖x - y‖ := by
    intro l hl x hx y hy
    have hx' := hball.1 hx
    have hy' := hball.1 hy
    obtain ⟨r, hr⟩ := hvec l (hl.trans he1a) _ (hw hx')
    obtain ⟨s, hs⟩ := hvec l (hl.trans he1a) _ (hw hy')
    have h1 := forces_differ h hl he1a hr1r hy' hx' hs hr hK
    have e : defect a û l x - defect a û l y - A (x - y) =
        freeVec a.dv.flags (fun i => r.getD i 0 - s.getD i 0 - Spec.times K (diff a.dv.flags.length (ofVec x) (ofVec y)) i) := by
      have ht : ∀ i, Spec.times K (ofVec (x - y)) i = Spec.times K (diff a.dv.flags.length (ofVec x) (ofVec y)) i := by
        intro i
        rw [times_eq K (ofVec_length _), times_eq K (diff_length _ _ _), Finset.sum_range, Finset.sum_range]
        refine Finset.sum_congr rfl fun j _ => ?_
        rw [diff_getD _ _ _ j.2, ofVec_getD, ofVec_getD, ofVec_getD]
        rfl
      ext i
      have hAi : A (x - y) i = if Spec.Free a.dv.flags i then Spec.times K (ofVec (x - y)) i else (ofVec (x - y)).getD i 0 := rfl
      simp only [PiLp.sub_apply, hAi, ht]
      simp only [defect, hr, hs, Option.getD_some, freeVec, vec]
      split
      · rfl
      · rw [ofVec_getD, ofVec_getD, ofVec_getD, PiLp.sub_apply]; ring
    rw [e, freeVec_norm, ← norm_sub_rev y x, ← distance_ofVec]
    have hd := distance_nonneg (ofVec y) (ofVec x)
    calc 2 * kap * _ ≤ 2 * kap * (L * (e1 + r1) * Spec.distance (ofVec y) (ofVec x)) :=
          mul_le_mul_of_nonneg_left h1 (by positivity)
      _ = (2 * kap * L * (e1 + r1)) * Spec.distance (ofVec y) (ofVec x) := by ring
      _ ≤ 1 * Spec.distance (ofVec y) (ofVec x) := by
          refine mul_le_mul_of_nonneg_right ?_ hd
          have : 2 * kap * L * (e1 + r1) ≤ 2 * kap * L * (2 * r1) := mul_le_mul_of_nonneg_left (by linarith) (by positivity)
          nlinarith [mul_pos hk hr1p]
      _ = _ := one_mul _
  have hzero : ∀ l, |l - l0| ≤ eta → ∀ x, Spec.Near a x0 rho (ofVec x) → ∀ r, (a.system l).rawVector? (ofVec x) = some r →
      (defect a û l x = 0 ↔ Spec.OnSupports a.dv.flags û l (ofVec x) ∧ ∀ i, Spec.Free a.dv.flags i → r.getD i 0 = 0) := by
    intro l hl x hx r hr
    have := defect_zero (û := û) (ofVec_length x) hr
    rwa [vec_ofVec] at this
  have h0 : defect a û l0 y0 = 0 := by
    obtain ⟨r, q1, q2⟩ := h.balance
    exact (defect_zero hx0l q1).2 ⟨h.supports, q2⟩
  have hPP : ∀ l, |l - l0| ≤ e1 → ∀ l', |l' - l0| ≤ e1 → ∀ x ∈ Metric.closedBall y0 r1,
      ‖defect a û l x - defect a û l' x‖ ≤ Q * |l - l'| := by
    intro l hl l' hl' x hx
    have hx' := hw (hball.1 hx)
    obtain ⟨r, hr⟩ := hvec l (hl.trans he1a) _ hx'
    obtain ⟨s, hs⟩ := hvec l' (hl'.trans he1a) _ hx'
    have h1 := h.loads l (hl.trans he1a) l' (hl'.trans he1a) _ hx' r s hr hs
    have e : defect a û l x - defect a û l' x = vec _ (fun i => if Spec.Free a.dv.flags i then r.getD i 0 - s.getD i 0
        else (-(l - l')) * û i) := by
      ext i
      simp only [PiLp.sub_apply, defect, hr, hs, Option.getD_some, vec]
      split
      · rfl
      · ring
    rw [e]
    refine (norm_split _ _).trans ?_
    rw [vec_smul, norm_smul, Real.norm_eq_abs, abs_neg, hQ, add_mul]
    linarith
  obtain ⟨X, hX0, hX⟩ := abstract_path (A := A) (defectTangent_surjective hA) hk hA he1p.le hr1p.le happ h0 hPP hQ0
    (by nlinarith [mul_pos hk he1p])
  have hin : ∀ l, l0 - e1 ≤ l → l ≤ l0 + e1 → |l - l0| ≤ e1 := fun l h1 h2 => abs_le.2 ⟨by linarith, by linarith⟩
  have hsup : ∀ l, |l - l0| ≤ e1 → ∃ r, (a.system l).rawVector? (ofVec (X l)) = some r ∧
      Spec.OnSupports a.dv.flags û l (ofVec (X l)) ∧ ∀ i, Spec.Free a.dv.flags i → r.getD i 0 = 0 := by
    intro l hl
    have hn := hw (hball.1 (hX l hl).1)
    obtain ⟨r, hr⟩ := hvec l (hl.trans he1a) _ hn
    exact ⟨r, hr, (hzero l (hl.trans he1a) _ hn r hr).1 (hX l hl).2.1⟩
  have hnear : ∀ l, |l - l0| ≤ e1 → Spec.Near a x0 (rho / 2) (ofVec (X l)) := fun l hl =>
    ⟨ofVec_length _, (hball.1 (hX l hl).1).2.trans hr1a⟩
  have hsub : ∀ l, |l - l0| ≤ e1 → ∀ u, Spec.Near a (ofVec (X l)) r1 u → Spec.Near a x0 rho u := by
    intro l hl u hu
    refine ⟨hu.1, ?_⟩
    have := distance_triangle _ u (ofVec (X l)) x0 hu.1 (ofVec_length _) hx0l
    have h1 := hu.2
    have h2 := (hnear l hl).2
    linarith
  refine ⟨fun l => ofVec (X l), e1, r1, 2 * kap * Q, he1p, he1a, hr1p, by show ofVec (X l0) = x0; rw [hX0, hy0], ⟨fun l h1 h2 => ?_, fun l h1 h2 => ?_,
    fun l l' h1 h2 h3 h4 => ?_, hb, hL, hB, by positivity⟩, hnear, fun l hl u hu hs r hr hf => ?_⟩
  · have hl := hin l h1 h2
    have hle := hl.trans he1a
    obtain ⟨r, q1, -, q2⟩ := hsup l hl
    refine ⟨ofVec_length _, ⟨r, q1, q2⟩, fun u hu => h.contract l hle u (hsub l hl u hu),
      fun u hu => h.solves l hle u (hsub l hl u hu), fun u hu => h.stable l hle u (hsub l hl u hu),
      fun u hu => h.bounded l hle u (hsub l hl u hu), fun u u' hu hu' K K' hK hK' v hv => ?_⟩
    have := h.lipschitz l hle l hle u u' (hsub l hl u hu) (hsub l hl u' hu') K K' hK hK' v hv
    rwa [sub_self, abs_zero, zero_add] at this
  · exact (hsup l (hin l h1 h2)).choose_spec.2.1
  · show Spec.distance (ofVec (X l)) (ofVec (X l')) ≤ _
    rw [distance_ofVec]
    exact (hX l (hin l h1 h2)).2.2 l' (hin l' h3 h4)
  · have hd := (defect_zero (û := û) hu.1 hr).2 ⟨hs, hf⟩
    have hu' : ofVec (vec a.dv.flags.length (u.getD · 0)) = u := ofVec_vec hu.1
    have hmem : vec a.dv.flags.length (u.getD · 0) ∈ Metric.closedBall y0 r1 := hball.2 (by rw [hu']; exact hu)
    have h1 := distance_of_values (A := A) hk hA (happ l hl _ hmem _ (hX l hl).1)
    rw [hd, (hX l hl).2.1, sub_zero, norm_zero, mul_zero] at h1
    have h2 := sub_eq_zero.1 (norm_le_zero_iff.1 h1)
    show u = ofVec (X l)
    rw [← h2, hu']

end Analysis

end Ikarus
