import Verif.Analysis.SmoothLemmas

/-!
C107: structures of smooth elements.
-/

namespace Ikarus

open Ikarus.Element Ikarus.Element.Spec

namespace Analysis

variable {a : Analysis} {û : Nat → ℝ} {l0 : ℝ} {x0 : List ℝ}

/-- The elements fit the structure and are smooth near the state. -/
def _root_.Ikarus.Spec.SmoothElems (a : Analysis) (l0 : ℝ) (x0 : List ℝ) : Prop :=
  ∀ e ∈ a.elems, Spec.ElemFits a.dv.flags.length (e.at l0) ∧
    ∀ u, (e.at l0).local? x0 = some u → ∀ s ∈ e.skills, Spec.SmoothSkill s l0 u

set_option maxHeartbeats 400000 in
/-- C107, regularity. A structure of smooth elements is regular around a state of equilibrium at which its stiffness is
regular. -/
theorem smooth_regular (hopt : a.option ≠ .raw) (hlin : Spec.ExactSolver a.linSolve) (hel : Spec.SmoothElems a l0 x0)
    (hsup : Spec.OnSupports a.dv.flags û l0 x0)
    (hbal : ∃ r, (a.system l0).rawVector? x0 = some r ∧ ∀ i, Spec.Free a.dv.flags i → r.getD i 0 = 0)
    (hreg : ∀ K, (a.system l0).rawMatrix? x0 = some K → Spec.RegularStiffness a.dv.flags K) :
    ∃ eta rho beta L B P, Spec.RegularNear a û l0 x0 eta rho beta L B P := by
  have hx0 := hsup.1
  obtain ⟨delta, hd, Lam, hLam, rs, hrs⟩ := smooth_elems a.elems a.dv.flags.length l0 x0 hx0 hel
  obtain ⟨c, hc, hent⟩ := smooth_entries hrs hx0 hLam
  have hl0 : |l0 - l0| ≤ delta := by rw [sub_self, abs_zero]; exact hd.le
  have hn0 : Spec.Near a x0 delta x0 := near_refl hx0 hd.le
  obtain ⟨-, -, K0, hK0, -⟩ := smooth_system hrs hx0 hl0 hn0
  obtain ⟨b0, hb0, hst0⟩ := regular_inverse (hreg K0 hK0)
  obtain ⟨m, hm⟩ : ∃ m : ℝ, m = a.dv.flags.length := ⟨_, rfl⟩
  have hm0 : 0 ≤ m := by rw [hm]; positivity
  obtain ⟨L, hL⟩ : ∃ L, L = m * (m * c) := ⟨_, rfl⟩
  have hL0 : 0 ≤ L := by rw [hL]; positivity
  obtain ⟨s, hs⟩ : ∃ s, s = min delta (1 / (4 * b0 * (L + 1))) := ⟨_, rfl⟩
  have hs0 : 0 < s := by rw [hs]; exact lt_min hd (by positivity)
  have hs1 : s ≤ delta := hs ▸ min_le_left _ _
  have hs2 : s * (4 * b0 * (L + 1)) ≤ 1 := by
    rw [← le_div_iff₀ (by positivity)]; exact hs ▸ min_le_right _ _
  have hnear : ∀ {u}, Spec.Near a x0 s u → Spec.Near a x0 delta u := fun hu => ⟨hu.1, hu.2.trans hs1⟩
  have hlip : ∀ l, |l - l0| ≤ s → ∀ l', |l' - l0| ≤ s → ∀ u u', Spec.Near a x0 s u → Spec.Near a x0 s u' →
      ∀ K K', (a.system l).rawMatrix? u = some K → (a.system l').rawMatrix? u' = some K' → ∀ v : List ℝ,
      v.length = a.dv.flags.length → Spec.freeSize a.dv.flags (fun i => Spec.times K v i - Spec.times K' v i) ≤
        L * (|l - l'| + Spec.distance u u') * Spec.size v := by
    intro l hl l' hl' u u' hu hu' K K' hK hK' v hv
    have h1 := (hent l (hl.trans hs1) l' (hl'.trans hs1) u u' (hnear hu) (hnear hu')).1 K K' hK hK'
    refine (freeSize_le_sum a.dv.flags _ (c := m * (c * (|l - l'| + Spec.distance u u')) * Spec.size v) fun i hi => ?_).trans ?_
    · have h2 := times_le (K := ⟨K.rows, K.cols, fun i j => K.val i j - K'.val i j⟩) hv (i := i) (fun j hj => h1 i hi j hj)
      rw [times_eq _ hv] at h2
      rw [times_eq K hv, times_eq K' hv, ← Finset.sum_sub_distrib, hm]
      simpa only [sub_mul] using h2
    · rw [hL, hm]
      exact le_of_eq (by ring)
  have hbase : ∃ B0 ≥ 0, ∀ v : List ℝ, v.length = a.dv.flags.length → Spec.freeSize a.dv.flags (Spec.times K0 v) ≤ B0 * Spec.size v := by
    obtain ⟨k0, hk0⟩ : ∃ k0, k0 = ∑ i ∈ Finset.range a.dv.flags.length, ∑ j ∈ Finset.range a.dv.flags.length, |K0.val i j| := ⟨_, rfl⟩
    have hk : 0 ≤ k0 := by rw [hk0]; positivity
    refine ⟨m * (m * k0), by positivity, fun v hv => ?_⟩
    refine (freeSize_le_sum a.dv.flags _ (c := m * k0 * Spec.size v) fun i hi => ?_).trans ?_
    · rw [hm]
      refine times_le hv fun j hj => ?_
      rw [hk0]
      refine le_trans ?_ (Finset.single_le_sum (f := fun i => ∑ j ∈ Finset.range a.dv.flags.length, |K0.val i j|)
        (fun i _ => Finset.sum_nonneg fun j _ => abs_nonneg _) (Finset.mem_range.2 hi))
      exact Finset.single_le_sum (f := fun j => |K0.val i j|) (fun j _ => abs_nonneg _) (Finset.mem_range.2 hj)
    · rw [hm]
      exact le_of_eq (by ring)
  obtain ⟨B0, hB0, hbd0⟩ := hbase
  have hl0' : |l0 - l0| ≤ s := by rw [sub_self, abs_zero]; exact hs0.le
  have hn0' : Spec.Near a x0 s x0 := near_refl hx0 hs0.le
  have hdist : ∀ l, |l - l0| ≤ s → ∀ u, Spec.Near a x0 s u → ∀ K, (a.system l).rawMatrix? u = some K → ∀ v : List ℝ,
      v.length = a.dv.flags.length → Spec.freeSize a.dv.flags (fun i => Spec.times K v i - Spec.times K0 v i) ≤
        L * (2 * s) * Spec.size v := by
    intro l hl u hu K hK v hv
    refine (hlip l hl l0 hl0' u x0 hu hn0' K K0 hK hK0 v hv).trans (mul_le_mul_of_nonneg_right
      (mul_le_mul_of_nonneg_left ?_ hL0) (Real.sqrt_nonneg _))
    have := hu.2
    linarith
  have hstab : ∀ l, |l - l0| ≤ s → ∀ u, Spec.Near a x0 s u → ∀ K, (a.system l).rawMatrix? u = some K → ∀ v : List ℝ,
      v.length = a.dv.flags.length → (∀ i : Nat, a.dv.flags[i]? = some true → v[i]? = some 0) →
      Spec.size v ≤ 2 * b0 * Spec.freeSize a.dv.flags (Spec.times K v) := by
    intro l hl u hu K hK v hv hv0
    have h1 := hst0 v hv hv0
    have h2 := hdist l hl u hu K hK v hv
    have h3 : Spec.freeSize a.dv.flags (Spec.times K0 v) ≤ Spec.freeSize a.dv.flags (Spec.times K v) +
        Spec.freeSize a.dv.flags (fun i => Spec.times K v i - Spec.times K0 v i) := by
      rw [← freeSize_neg a.dv.flags (fun i => Spec.times K v i - Spec.times K0 v i)]
      refine le_of_eq_of_le (freeSize_congr fun i _ => ?_) (freeSize_add _ _ _)
      ring
    have hsz : 0 ≤ Spec.size v := Real.sqrt_nonneg _
    have h4 : b0 * (L * (2 * s) * Spec.size v) ≤ 1 / 2 * Spec.size v := by
      have : b0 * (L * (2 * s)) ≤ 1 / 2 := by nlinarith [mul_pos hb0 hs0]
      calc _ = b0 * (L * (2 * s)) * Spec.size v := by ring
        _ ≤ _ := mul_le_mul_of_nonneg_right this hsz
    have h5 : b0 * Spec.freeSize a.dv.flags (Spec.times K0 v) ≤
        b0 * (Spec.freeSize a.dv.flags (Spec.times K v) + L * (2 * s) * Spec.size v) :=
      mul_le_mul_of_nonneg_left (by linarith) hb0.le
    linarith
  refine ⟨s, s, 2 * b0, L, B0 + L * (2 * s), m * c, hsup, hbal, fun l hl u hu => ?_, fun l hl u hu A hA => ?_, hstab,
    fun l hl u hu K hK v hv => ?_, hlip, fun l hl l' hl' u hu r r' hr hr' => ?_, ⟨hs0, hs0⟩,
    by positivity, hL0, by positivity, by positivity⟩
  · exact (smooth_system hrs hx0 (hl.trans hs1) (hnear hu)).1
  · obtain ⟨-, -, K, hK, -⟩ := smooth_system hrs hx0 (hl.trans hs1) (hnear hu)
    exact solves_of_stable hopt hlin hK (hstab l hl u hu K hK) A hA
  · have h1 := hbd0 v hv
    have h2 := hdist l hl u hu K hK v hv
    have h3 : Spec.freeSize a.dv.flags (Spec.times K v) ≤ Spec.freeSize a.dv.flags (Spec.times K0 v) +
        Spec.freeSize a.dv.flags (fun i => Spec.times K v i - Spec.times K0 v i) := by
      refine le_of_eq_of_le (freeSize_congr fun i _ => ?_) (freeSize_add _ _ _)
      ring
    linarith
  · refine (freeSize_le_sum a.dv.flags _ (c := c * |l - l'|) fun i hi => ?_).trans (le_of_eq (by rw [hm]; ring))
    exact (hent l (hl.trans hs1) l' (hl'.trans hs1) u u (hnear hu) (hnear hu)).2 r r' hr hr' i hi

end Analysis

end Ikarus
