import Verif.Analysis.ConvergenceProps
import Mathlib.Analysis.Calculus.InverseFunctionTheorem.ApproximatesLinearOn

/-!
Lemmas for C107: a regular state of equilibrium lies on a regular path of equilibrium.
-/

namespace Ikarus

open Ikarus.Element Ikarus.Element.Spec

/-! ### Normed spaces -/

theorem distance_of_values {E : Type*} [NormedAddCommGroup E] [NormedSpace ℝ E] {G : E → E} {A : E →L[ℝ] E} {kap : ℝ}
    (hk : 0 < kap) (hA : ∀ v, ‖v‖ ≤ kap * ‖A v‖) {x y : E} (h : 2 * kap * ‖G x - G y - A (x - y)‖ ≤ ‖x - y‖) :
    ‖x - y‖ ≤ 2 * kap * ‖G x - G y‖ := by
  have h1 := hA (x - y)
  have h2 : ‖A (x - y)‖ ≤ ‖G x - G y‖ + ‖G x - G y - A (x - y)‖ := by
    have := norm_sub_le (G x - G y) (G x - G y - A (x - y))
    rwa [sub_sub_cancel] at this
  nlinarith

/-- Where a family of functions is close to one regular linear map, its zeros form a path. -/
theorem abstract_path {E : Type*} [NormedAddCommGroup E] [NormedSpace ℝ E] [CompleteSpace E] {G : ℝ → E → E} {A : E →L[ℝ] E}
    (hs : Function.Surjective A) {kap : ℝ} (hk : 0 < kap) (hA : ∀ v, ‖v‖ ≤ kap * ‖A v‖) {x0 : E} {l0 eta rho P : ℝ}
    (heta : 0 ≤ eta) (hrho : 0 ≤ rho)
    (happ : ∀ l, |l - l0| ≤ eta → ∀ x ∈ Metric.closedBall x0 rho, ∀ y ∈ Metric.closedBall x0 rho,
      2 * kap * ‖G l x - G l y - A (x - y)‖ ≤ ‖x - y‖)
    (h0 : G l0 x0 = 0)
    (hP : ∀ l, |l - l0| ≤ eta → ∀ l', |l' - l0| ≤ eta → ∀ x ∈ Metric.closedBall x0 rho, ‖G l x - G l' x‖ ≤ P * |l - l'|)
    (hP0 : 0 ≤ P) (hsmall : 2 * kap * P * eta ≤ rho) :
    ∃ X : ℝ → E, X l0 = x0 ∧ ∀ l, |l - l0| ≤ eta → X l ∈ Metric.closedBall x0 rho ∧ G l (X l) = 0 ∧
      ∀ l', |l' - l0| ≤ eta → ‖X l - X l'‖ ≤ 2 * kap * P * |l - l'| := by
  have hx0 : x0 ∈ Metric.closedBall x0 rho := Metric.mem_closedBall_self hrho
  have hl0 : |l0 - l0| ≤ eta := by simpa using heta
  have hex : ∀ l, ∃ x, |l - l0| ≤ eta → x ∈ Metric.closedBall x0 rho ∧ G l x = 0 := by
    intro l
    by_cases hl : |l - l0| ≤ eta
    · have happ' : ApproximatesLinearOn (G l) A (Metric.closedBall x0 rho) ⟨1 / (2 * kap), by positivity⟩ := by
        intro x hx y hy
        have := happ l hl x hx y hy
        show _ ≤ 1 / (2 * kap) * _
        rw [one_div, ← div_eq_inv_mul, le_div_iff₀ (by positivity)]
        linarith
      obtain ⟨B, hB⟩ := hs.hasRightInverse
      let R : A.NonlinearRightInverse := ⟨B, ⟨kap, hk.le⟩, fun y => by have := hA (B y); rwa [hB y] at this, hB⟩
      have h1 := happ'.surjOn_closedBall_of_nonlinearRightInverse R hrho (le_refl _)
      obtain ⟨x, hx, hx0⟩ := h1 (a := 0) (by
        rw [Metric.mem_closedBall, dist_eq_norm, zero_sub, norm_neg]
        have h2 := hP l hl l0 hl0 x0 hx0
        rw [h0, sub_zero] at h2
        show _ ≤ (kap⁻¹ - 1 / (2 * kap)) * rho
        have h3 : kap⁻¹ - 1 / (2 * kap) = 1 / (2 * kap) := by field_simp; ring
        rw [h3, one_div, ← div_eq_inv_mul, le_div_iff₀ (by positivity)]
        have h4 : P * |l - l0| ≤ P * eta := mul_le_mul_of_nonneg_left hl hP0
        nlinarith)
      exact ⟨x, fun _ => ⟨hx, hx0⟩⟩
    · exact ⟨x0, fun h => absurd h hl⟩
  choose X hX using hex
  refine ⟨X, ?_, fun l hl => ⟨(hX l hl).1, (hX l hl).2, fun l' hl' => ?_⟩⟩
  · have h1 := distance_of_values hk hA (happ l0 hl0 _ (hX l0 hl0).1 _ hx0)
    rw [(hX l0 hl0).2, h0, sub_zero, norm_zero, mul_zero] at h1
    exact sub_eq_zero.1 (norm_le_zero_iff.1 h1)
  · have h1 := distance_of_values hk hA (happ l hl _ (hX l hl).1 _ (hX l' hl').1)
    have h2 := hP l hl l' hl' _ (hX l' hl').1
    rw [(hX l' hl').2, sub_zero] at h2
    rw [(hX l hl).2, zero_sub, norm_neg] at h1
    nlinarith

/-! ### Vectors and lists -/

section lists

variable {m : Nat}

/-- The entries of a vector as a list. -/
noncomputable def ofVec (x : EuclideanSpace ℝ (Fin m)) : List ℝ := List.ofFn fun i => x i

theorem ofVec_length (x : EuclideanSpace ℝ (Fin m)) : (ofVec x).length = m := List.length_ofFn

theorem ofVec_getD (x : EuclideanSpace ℝ (Fin m)) (i : Fin m) : (ofVec x).getD i 0 = x i := by
  simp [ofVec, List.getD_eq_getElem?_getD]

theorem vec_ofVec (x : EuclideanSpace ℝ (Fin m)) : vec m ((ofVec x).getD · 0) = x := by
  ext i
  exact ofVec_getD x i

theorem ofVec_vec {u : List ℝ} (h : u.length = m) : ofVec (vec m (u.getD · 0)) = u := by
  refine List.ext_getElem (by rw [ofVec_length, h]) fun i h1 h2 => ?_
  simp [ofVec, vec, List.getD_eq_getElem?_getD, h2]

theorem distance_ofVec (x y : EuclideanSpace ℝ (Fin m)) : Spec.distance (ofVec x) (ofVec y) = ‖x - y‖ := by
  rw [distance_eq m _ _ (ofVec_length x) (ofVec_length y), vec_sub, vec_ofVec, vec_ofVec]

theorem size_ofVec (x : EuclideanSpace ℝ (Fin m)) : Spec.size (ofVec x) = ‖x‖ := by
  rw [size_eq m _ (ofVec_length x), vec_ofVec]

end lists

/-! ### Regular states -/

/-- The structure is regular around the state of equilibrium `x0` at load factor `l0`: for load factors within `eta` and
states within `rho` the elements fulfil their contract, the linear solver solves the systems it gets, the stiffness has on
the free dofs an inverse of norm at most `beta` and a norm of at most `B`, and changes with load factor and state at a rate
of at most `L`; the forces change with the load factor at a rate of at most `P`. -/
structure Spec.RegularNear (a : Analysis) (û : Nat → ℝ) (l0 : ℝ) (x0 : List ℝ) (eta rho beta L B P : ℝ) : Prop where
  supports : Spec.OnSupports a.dv.flags û l0 x0
  balance : ∃ r, (a.system l0).rawVector? x0 = some r ∧ ∀ i, Spec.Free a.dv.flags i → r.getD i 0 = 0
  contract : ∀ l, |l - l0| ≤ eta → ∀ u, Spec.Near a x0 rho u → Spec.SystemContract (a.system l) u
  solves : ∀ l, |l - l0| ≤ eta → ∀ u, Spec.Near a x0 rho u → ∀ A, a.jacobian? ⟨l, some u⟩ = some A →
    Spec.SolvesExactly a.linSolve A
  stable : ∀ l, |l - l0| ≤ eta → ∀ u, Spec.Near a x0 rho u → ∀ K, (a.system l).rawMatrix? u = some K → ∀ v : List ℝ,
    v.length = a.dv.flags.length → (∀ i : Nat, a.dv.flags[i]? = some true → v[i]? = some 0) →
    Spec.size v ≤ beta * Spec.freeSize a.dv.flags (Spec.times K v)
  bounded : ∀ l, |l - l0| ≤ eta → ∀ u, Spec.Near a x0 rho u → ∀ K, (a.system l).rawMatrix? u = some K → ∀ v : List ℝ,
    v.length = a.dv.flags.length → Spec.freeSize a.dv.flags (Spec.times K v) ≤ B * Spec.size v
  lipschitz : ∀ l, |l - l0| ≤ eta → ∀ l', |l' - l0| ≤ eta → ∀ u u', Spec.Near a x0 rho u → Spec.Near a x0 rho u' →
    ∀ K K', (a.system l).rawMatrix? u = some K → (a.system l').rawMatrix? u' = some K' → ∀ v : List ℝ,
    v.length = a.dv.flags.length →
    Spec.freeSize a.dv.flags (fun i => Spec.times K v i - Spec.times K' v i) ≤ L * (|l - l'| + Spec.distance u u') * Spec.size v
  loads : ∀ l, |l - l0| ≤ eta → ∀ l', |l' - l0| ≤ eta → ∀ u, Spec.Near a x0 rho u → ∀ r r',
    (a.system l).rawVector? u = some r → (a.system l').rawVector? u = some r' →
    Spec.freeSize a.dv.flags (fun i => r.getD i 0 - r'.getD i 0) ≤ P * |l - l'|
  pos : 0 < eta ∧ 0 < rho
  nonneg : 0 ≤ beta ∧ 0 ≤ L ∧ 0 ≤ B ∧ 0 ≤ P

namespace Analysis

variable {a : Analysis} {û : Nat → ℝ} {l0 eta rho beta L B P : ℝ} {x0 : List ℝ}

theorem freeVec_near {flags : List Bool} (f : Nat → ℝ) : ‖freeVec flags f‖ ≤ ‖vec flags.length f‖ := by
  rw [freeVec_norm, vec_norm, Spec.freeSize]
  refine Real.sqrt_le_sqrt ?_
  rw [Finset.sum_filter]
  refine Finset.sum_le_sum fun i _ => ?_
  split
  · exact le_rfl
  · exact sq_nonneg _

/-- The forces on the way from one state to another. -/
theorem between (h : Spec.RegularNear a û l0 x0 eta rho beta L B P) {l : ℝ} (hl : |l - l0| ≤ eta) {u u' : List ℝ}
    (hu : Spec.Near a x0 rho u) (hu' : Spec.Near a x0 rho u') :
    Spec.line u (diff a.dv.flags.length u' u) 0 = u ∧ Spec.line u (diff a.dv.flags.length u' u) 1 = u' ∧
    Spec.size (diff a.dv.flags.length u' u) = Spec.distance u u' ∧
    (∀ t, 0 ≤ t → Spec.distance (Spec.line u (diff a.dv.flags.length u' u) t) u = t * Spec.distance u u') ∧
    ∃ Kt : ℝ → DMat ℝ, ∀ t ∈ Set.Icc (0 : ℝ) 1, Spec.Near a x0 rho (Spec.line u (diff a.dv.flags.length u' u) t) ∧
      (a.system l).rawMatrix? (Spec.line u (diff a.dv.flags.length u' u) t) = some (Kt t) ∧
      HasDerivAt (forcesOn a l u (diff a.dv.flags.length u' u))
        (freeVec a.dv.flags (Spec.times (Kt t) (diff a.dv.flags.length u' u))) t := by
  obtain ⟨m, hm⟩ : ∃ m, a.dv.flags.length = m := ⟨_, rfl⟩
  rw [show diff a.dv.flags.length u' u = diff m u' u by rw [hm]]
  have hul : u.length = m := hm ▸ hu.1
  have hxl : u'.length = m := hm ▸ hu'.1
  have h0l : x0.length = m := hm ▸ h.supports.1
  generalize hv : diff m u' u = v
  have hvl : v.length = m := by rw [← hv, diff_length]
  have hvi : ∀ i < m, v.getD i 0 = u'.getD i 0 - u.getD i 0 := fun i hi => by rw [← hv]; exact listOf_getD m _ hi
  have hvs : Spec.size v = Spec.distance u u' := by
    rw [← hv, size_diff m u' u hxl hul, distance_eq m u' u hxl hul, distance_eq m u u' hul hxl, vec_sub, vec_sub, norm_sub_rev]
  have hll : ∀ t, (Spec.line u v t).length = m := fun t => by rw [line_length u v t (hul.trans hvl.symm), hul]
  have hdist : ∀ t ∈ Set.Icc (0 : ℝ) 1, Spec.distance (Spec.line u v t) x0 ≤ rho := by
    intro t ht
    rw [distance_eq m _ x0 (hll t) h0l]
    have e : vec m (fun i => (Spec.line u v t).getD i 0 - x0.getD i 0) =
        (1 - t) • vec m (fun i => u.getD i 0 - x0.getD i 0) + t • vec m (fun i => u'.getD i 0 - x0.getD i 0) := by
      rw [← vec_smul, ← vec_smul]
      ext i
      simp only [vec, PiLp.add_apply]
      rw [line_getD m u v t hul hvl i.2, hvi i i.2]; ring
    rw [e]
    refine (norm_add_le _ _).trans ?_
    rw [norm_smul, norm_smul, ← distance_eq m u x0 hul h0l, ← distance_eq m u' x0 hxl h0l, Real.norm_eq_abs, Real.norm_eq_abs,
      abs_of_nonneg ht.1, abs_of_nonneg (by linarith [ht.2])]
    nlinarith [ht.1, ht.2, hu.2, hu'.2]
  have hdist0 : ∀ t, 0 ≤ t → Spec.distance (Spec.line u v t) u = t * Spec.distance u u' := by
    intro t ht
    rw [distance_eq m _ u (hll t) hul, distance_eq m u u' hul hxl]
    have : vec m (fun i => (Spec.line u v t).getD i 0 - u.getD i 0) = (-t) • vec m (fun i => u.getD i 0 - u'.getD i 0) := by
      rw [← vec_smul]
      refine vec_congr fun i hi => ?_
      rw [line_getD m u v t hul hvl hi, hvi i hi]; ring
    rw [this, norm_smul, Real.norm_eq_abs, abs_neg, abs_of_nonneg ht]
  have hnear : ∀ t ∈ Set.Icc (0 : ℝ) 1, Spec.Near a x0 rho (Spec.line u v t) := fun t ht =>
    ⟨(hll t).trans hm.symm, hdist t ht⟩
  have hcons : ∀ t, ∃ Kt, t ∈ Set.Icc (0 : ℝ) 1 → (a.system l).rawMatrix? (Spec.line u v t) = some Kt ∧
      ∀ i < m, HasDerivAt (fun s => (((a.system l).rawVector? (Spec.line u v s)).getD []).getD i 0) (Spec.times Kt v i) t := by
    intro t
    by_cases ht : t ∈ Set.Icc (0 : ℝ) 1
    · obtain ⟨-, _, Kt, -, hKt, hder⟩ := assembled_consistent (a.system l) _ (h.contract l hl _ (hnear t ht))
      refine ⟨Kt, fun _ => ⟨hKt, fun i hi => ?_⟩⟩
      have h1 := (hder v (hvl.trans hm.symm)).2 i (show i < a.dv.flags.length from hm ▸ hi)
      simp only [line_line] at h1
      have h2 : (∑ j ∈ Finset.range (a.system l).flags.length, Kt.val i j * v.getD j 0) = Spec.times Kt v i :=
        (times_eq Kt (hvl.trans hm.symm) i).symm
      rw [h2] at h1
      have h3 := HasDerivAt.comp_sub_const t t (f := fun s => (((a.system l).rawVector? (Spec.line u v (t + s))).getD []).getD i 0)
        (by rw [sub_self]; exact h1)
      simpa using h3
    · exact ⟨DMat.zero 0 0, fun h => absurd h ht⟩
  choose Kt hKt using hcons
  have h0 : Spec.line u v 0 = u := by
    apply List.ext_getElem (by rw [hll, hul])
    intro i h1 h2
    simp [Spec.line]
  have h1 : Spec.line u v 1 = u' := by
    apply List.ext_getElem?
    intro i
    by_cases hi : i < m
    · rw [getElem?_eq_getD (by rw [hll]; exact hi), getElem?_eq_getD (hxl ▸ hi), line_getD m u v 1 hul hvl hi, hvi i hi]
      congr 1; ring
    · rw [List.getElem?_eq_none (by rw [hll]; omega), List.getElem?_eq_none (by omega)]
  refine ⟨h0, h1, hvs, hdist0, Kt, fun t ht => ⟨hnear t ht, (hKt t ht).1, ?_⟩⟩
  unfold forcesOn freeVec
  refine hasDerivAt_vec _ (fun s i => if Spec.Free a.dv.flags i then _ else 0) _ t fun i hi => ?_
  by_cases hf : Spec.Free a.dv.flags i
  · simp only [if_pos hf]
    exact (hKt t ht).2 i (hm ▸ hi)
  · simp only [if_neg hf]
    exact hasDerivAt_const _ _

/-- The forces at two states differ in first order by the stiffness at the state of equilibrium times their difference. -/
theorem forces_differ (h : Spec.RegularNear a û l0 x0 eta rho beta L B P) {l e r1 : ℝ} (hl : |l - l0| ≤ e) (he : e ≤ eta)
    (hr1 : r1 ≤ rho) {u u' r r' : List ℝ} {K : DMat ℝ} (hu : Spec.Near a x0 r1 u) (hu' : Spec.Near a x0 r1 u')
    (hr : (a.system l).rawVector? u = some r) (hr' : (a.system l).rawVector? u' = some r')
    (hK : (a.system l0).rawMatrix? x0 = some K) :
    Spec.freeSize a.dv.flags (fun i => r'.getD i 0 - r.getD i 0 - Spec.times K (diff a.dv.flags.length u' u) i) ≤
      L * (e + r1) * Spec.distance u u' := by
  have hle : |l - l0| ≤ eta := hl.trans he
  have hl0 : |l0 - l0| ≤ eta := by rw [sub_self, abs_zero]; exact h.pos.1.le
  have w : ∀ {v}, Spec.Near a x0 r1 v → Spec.Near a x0 rho v := fun hv => ⟨hv.1, hv.2.trans hr1⟩
  have hx0 : Spec.Near a x0 rho x0 := ⟨h.supports.1, by
    rw [distance_eq _ _ _ h.supports.1 h.supports.1, vec_sub, sub_self, norm_zero]; exact h.pos.2.le⟩
  obtain ⟨h0, h1, hvs, hd, Kt, hKt⟩ := between h hle (w hu) (w hu')
  have hvl := diff_length a.dv.flags.length u' u
  have hconv : ∀ t ∈ Set.Icc (0 : ℝ) 1, Spec.distance (Spec.line u (diff a.dv.flags.length u' u) t) x0 ≤ r1 := by
    intro t ht
    have hll : (Spec.line u (diff a.dv.flags.length u' u) t).length = a.dv.flags.length := (hKt t ht).1.1
    rw [distance_eq _ _ x0 hll h.supports.1]
    have e : vec a.dv.flags.length (fun i => (Spec.line u (diff a.dv.flags.length u' u) t).getD i 0 - x0.getD i 0) =
        (1 - t) • vec a.dv.flags.length (fun i => u.getD i 0 - x0.getD i 0) +
          t • vec a.dv.flags.length (fun i => u'.getD i 0 - x0.getD i 0) := by
      rw [← vec_smul, ← vec_smul]
      ext i
      simp only [vec, PiLp.add_apply]
      rw [line_getD _ u _ t hu.1 hvl i.2, diff_getD _ u' u i.2]; ring
    rw [e]
    refine (norm_add_le _ _).trans ?_
    rw [norm_smul, norm_smul, ← distance_eq _ u x0 hu.1 h.supports.1, ← distance_eq _ u' x0 hu'.1 h.supports.1, Real.norm_eq_abs,
      Real.norm_eq_abs, abs_of_nonneg ht.1, abs_of_nonneg (by linarith [ht.2])]
    nlinarith [ht.1, ht.2, hu.2, hu'.2]
  generalize diff a.dv.flags.length u' u = v at *
  have key := norm_image_sub_le_of_norm_deriv_right_le_segment
    (f := fun t => forcesOn a l u v t - t • freeVec a.dv.flags (Spec.times K v))
    (f' := fun t => freeVec a.dv.flags (Spec.times (Kt t) v) - freeVec a.dv.flags (Spec.times K v)) (a := 0) (b := 1)
    (C := L * (e + r1) * Spec.distance u u')
    (fun t ht => (((hKt t ht).2.2).sub (by simpa using (hasDerivAt_id t).smul_const _)).continuousAt.continuousWithinAt)
    (fun t ht => (((hKt t ⟨ht.1, ht.2.le⟩).2.2).sub (by simpa using (hasDerivAt_id t).smul_const _)).hasDerivWithinAt)
    (fun t ht => ?_) 1 ⟨zero_le_one, le_rfl⟩
  · simp only [forcesOn, h0, h1, hr, hr', Option.getD_some, one_smul, zero_smul, sub_zero, mul_one] at key
    rw [← freeVec_sub, ← freeVec_sub, freeVec_norm] at key
    refine le_of_eq_of_le (freeSize_congr fun i hi => ?_) key
    ring
  · have ht' : t ∈ Set.Icc (0 : ℝ) 1 := ⟨ht.1, ht.2.le⟩
    rw [← freeVec_sub, freeVec_norm, ← hvs]
    refine (h.lipschitz l hle l0 hl0 _ _ (hKt t ht').1 hx0 _ _ (hKt t ht').2.1 hK v hvl).trans ?_
    refine mul_le_mul_of_nonneg_right (mul_le_mul_of_nonneg_left (add_le_add hl (hconv t ht')) h.nonneg.2.1) ?_
    rw [hvs]; exact distance_nonneg _ _

end Analysis

end Ikarus
