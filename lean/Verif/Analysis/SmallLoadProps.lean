import Verif.Analysis.SmoothProps

/-!
C107: under small loads a nonlinear structure answers like the linear one, up to an error of second order.
-/

namespace Ikarus

open Ikarus.Element Ikarus.Element.Spec

/-! ### Specification -/

/-- No displacements. -/
def Spec.rest (a : Analysis) : List ℝ := List.replicate a.dv.flags.length 0

/-- The structure `b` has the same supports as `a`, without displacements the same forces under every load, and the same
stiffness. -/
structure Spec.SameAtRest (a b : Analysis) : Prop where
  supports : b.dv.flags = a.dv.flags
  forces : ∀ l, (b.system l).rawVector? (Spec.rest a) = (a.system l).rawVector? (Spec.rest a)
  stiffness : (b.system 0).rawMatrix? (Spec.rest a) = (a.system 0).rawMatrix? (Spec.rest a)

namespace Analysis

variable {a b : Analysis} {û : Nat → ℝ} {eta rho beta L B P : ℝ}

theorem rest_length : (Spec.rest a).length = a.dv.flags.length := List.length_replicate

theorem rest_getD (i : Nat) : (Spec.rest a).getD i 0 = 0 := by
  simp [Spec.rest, List.getD_eq_getElem?_getD, List.getElem?_replicate]
  split <;> rfl

/-- The energy tells the unbalanced forces. -/
theorem residual_of_equilibrium {sys : ℝ → System} {flags : List Bool} {K : DMat ℝ} {e : ℝ → ℝ} {g : ℝ → Nat → ℝ}
    (hA : AffineSystem sys flags.length K e g) {û : Nat → ℝ} {l tol : ℝ} (htol : 0 ≤ tol) {y : List ℝ}
    (h : Spec.InEquilibrium flags (sys l).scalar? û l tol y) : Spec.freeSize flags (resAt K g flags.length l y) ≤ tol := by
  obtain ⟨hy, hs, E, hE, hmin⟩ := h
  obtain ⟨R, hR⟩ : ∃ R, R = resAt K g flags.length l y := ⟨_, rfl⟩
  rw [← hR]
  let w : Nat → ℝ := fun i => if Spec.Free flags i then R i else 0
  obtain ⟨S, hS⟩ : ∃ S, S = Spec.freeSize flags R := ⟨_, rfl⟩
  have hS0 : 0 ≤ S := hS ▸ freeSize_nonneg _ _
  have hSS : ∑ i ∈ Finset.range flags.length, R i * w i = S * S := by
    rw [hS, Spec.freeSize, Real.mul_self_sqrt (Finset.sum_nonneg fun i _ => sq_nonneg _), Finset.sum_filter]
    refine Finset.sum_congr rfl fun i _ => ?_
    simp only [w]
    split
    · ring
    · ring
  have hWW : ∑ i ∈ Finset.range flags.length, w i * w i = S * S := by
    rw [← hSS]
    refine Finset.sum_congr rfl fun i _ => ?_
    simp only [w]
    split
    · rfl
    · ring
  have key : ∀ t : ℝ, 0 < t → S * S ≤ tol * S + t * (1 / 2 * bil K flags.length w w) := by
    intro t ht
    let z := listOf flags.length fun i => y.getD i 0 - t * w i
    have hz : z.length = flags.length := listOf_length _ _
    obtain ⟨E', hE', hle⟩ := hmin z hz fun i hi => by
      have hlt : i < flags.length := (List.getElem?_eq_some_iff.1 hi).1
      rw [getElem?_eq_getD (by rw [hz]; exact hlt)]
      have h1 := hs i hi
      rw [getElem?_eq_getD (by rw [hy]; exact hlt)] at h1
      rw [← Option.some.inj h1]
      congr 1
      show (listOf _ _).getD i 0 = _
      rw [listOf_getD _ _ hlt]
      simp only [w]
      rw [if_neg ((not_free_iff hlt).2 hi), mul_zero, sub_zero]
    obtain ⟨E1, E2, q1, q2, q3⟩ := energy_difference hA l hy hz
    obtain rfl := Option.some.inj (hE.symm.trans q1)
    obtain rfl := Option.some.inj (hE'.symm.trans q2)
    have hzi : ∀ i < flags.length, z.getD i 0 - y.getD i 0 = -t * w i := by
      intro i hi
      show (listOf _ _).getD i 0 - _ = _
      rw [listOf_getD _ _ hi]
      ring
    have s1 : ∑ i ∈ Finset.range flags.length, resAt K g flags.length l y i * (z.getD i 0 - y.getD i 0) = -t * (S * S) := by
      rw [← hSS, Finset.mul_sum, ← hR]
      refine Finset.sum_congr rfl fun i hi => ?_
      rw [hzi i (Finset.mem_range.1 hi)]
      ring
    have s2 : bil K flags.length (fun i => z.getD i 0 - y.getD i 0) (fun i => z.getD i 0 - y.getD i 0) =
        t * t * bil K flags.length w w := by
      rw [bil_congr K _ hzi hzi]
      simp only [bil, Finset.mul_sum]
      refine Finset.sum_congr rfl fun i _ => Finset.sum_congr rfl fun j _ => ?_
      ring
    have s3 : Spec.distance y z = t * S := by
      rw [Spec.distance, zipWith_sum_range _ _ _ _ hy hz]
      have : ∑ i ∈ Finset.range flags.length, (y.getD i 0 - z.getD i 0) * (y.getD i 0 - z.getD i 0) = (t * S) * (t * S) := by
        calc _ = ∑ i ∈ Finset.range flags.length, t * t * (w i * w i) := by
              refine Finset.sum_congr rfl fun i hi => ?_
              have := hzi i (Finset.mem_range.1 hi)
              rw [← neg_sub (z.getD i 0), this]
              ring
          _ = _ := by rw [← Finset.mul_sum, hWW]; ring
      rw [this, Real.sqrt_mul_self (by positivity)]
    rw [s1, s2] at q3
    rw [s3] at hle
    have h3 : t * (S * S) ≤ t * (tol * S + t * (1 / 2 * bil K flags.length w w)) := by nlinarith
    exact le_of_mul_le_mul_left h3 ht
  have hlim : S * S ≤ tol * S := by
    refine le_of_forall_pos_le_add fun eps he => ?_
    have hb0 : 0 ≤ bil K flags.length w w := hA.psd w
    have h1 := key (eps / (bil K flags.length w w + 1)) (by positivity)
    have h2 : eps / (bil K flags.length w w + 1) * (1 / 2 * bil K flags.length w w) ≤ eps := by
      rw [div_mul_eq_mul_div, div_le_iff₀ (by positivity)]
      nlinarith
    linarith
  rw [← hS]
  rcases hS0.eq_or_lt with h0 | h0
  · rw [← h0]; exact htol
  · exact le_of_mul_le_mul_right hlim h0

/-- A state near rest of the nonlinear structure, compared with one of the linear structure at the same load. -/
theorem compare_at (h : Spec.RegularNear a û 0 (Spec.rest a) eta rho beta L B P) (hs : Spec.SameAtRest a b) {K : DMat ℝ} {e : ℝ → ℝ}
    {g : ℝ → Nat → ℝ} (hA : AffineSystem b.system a.dv.flags.length K e g) {l r1 : ℝ} (hl : |l| ≤ eta) (hr1 : r1 ≤ rho) {u y r : List ℝ}
    (hu : Spec.Near a (Spec.rest a) r1 u) (hus : Spec.OnSupports a.dv.flags û l u) (hr : (a.system l).rawVector? u = some r)
    (hr0 : ∀ i, Spec.Free a.dv.flags i → r.getD i 0 = 0) (hy : Spec.OnSupports a.dv.flags û l y) :
    Spec.distance u y ≤ beta * (L * (|l| + r1) * r1 + Spec.freeSize a.dv.flags (resAt K g a.dv.flags.length l y)) := by
  have hl' : |l - 0| ≤ |l| := by rw [sub_zero]
  have hK : (a.system 0).rawMatrix? (Spec.rest a) = some K := by rw [← hs.stiffness]; exact hA.matrix 0 _ rest_length
  have h00 : |(0 : ℝ) - 0| ≤ eta := by rw [sub_self, abs_zero]; exact h.pos.1.le
  have hn0 : Spec.Near a (Spec.rest a) r1 (Spec.rest a) := near_refl rest_length ((distance_nonneg _ _).trans hu.2)
  obtain ⟨f, hf, -, hfe⟩ := hA.vector l _ (rest_length (a := a))
  have hf' : (a.system l).rawVector? (Spec.rest a) = some f := by rw [← hs.forces]; exact hf
  have hfg : ∀ i < a.dv.flags.length, f.getD i 0 = g l i := by
    intro i hi
    rw [hfe i hi, Finset.sum_eq_zero, add_zero]
    intro j _
    rw [rest_getD, mul_zero]
  have h1 := forces_differ h hl' hl hr1 hn0 hu hf' hr hK
  have hd : Spec.distance (Spec.rest a) u ≤ r1 := by
    have := hu.2
    rw [distance_eq _ _ _ rest_length hu.1, vec_sub, norm_sub_rev, ← vec_sub, ← distance_eq _ _ _ hu.1 rest_length]
    exact this
  have hwl := diff_length a.dv.flags.length u y
  have h2 := h.stable 0 h00 _ ⟨rest_length, hn0.2.trans hr1⟩ K hK (diff a.dv.flags.length u y) hwl fun i hi => by
    have hlt : i < a.dv.flags.length := (List.getElem?_eq_some_iff.1 hi).1
    rw [getElem?_eq_getD (by rw [hwl]; exact hlt), diff_getD _ _ _ hlt, List.getD_eq_getElem?_getD, List.getD_eq_getElem?_getD,
      hus.2 i hi, hy.2 i hi]
    simp
  have h3 : Spec.size (diff a.dv.flags.length u y) = Spec.distance u y := by
    rw [size_eq _ _ hwl, distance_eq _ _ _ hus.1 hy.1]
    exact congrArg _ (vec_congr fun i hi => diff_getD _ _ _ hi)
  rw [h3] at h2
  refine h2.trans (mul_le_mul_of_nonneg_left ?_ h.nonneg.1)
  have h4 : Spec.freeSize a.dv.flags (Spec.times K (diff a.dv.flags.length u y)) ≤
      Spec.freeSize a.dv.flags (fun i => r.getD i 0 - f.getD i 0 - Spec.times K (diff a.dv.flags.length u (Spec.rest a)) i) +
        Spec.freeSize a.dv.flags (resAt K g a.dv.flags.length l y) := by
    rw [← freeSize_neg a.dv.flags (resAt K g a.dv.flags.length l y),
      ← freeSize_neg a.dv.flags (fun i => r.getD i 0 - f.getD i 0 - _)]
    refine le_of_eq_of_le (freeSize_congr fun i hi => ?_) (freeSize_add _ _ _)
    have hi' := free_lt hi
    rw [times_eq K hwl, times_eq K (diff_length _ _ _), hr0 i hi, hfg i hi', resAt]
    have e1 : ∑ j ∈ Finset.range a.dv.flags.length, K.val i j * (diff a.dv.flags.length u y).getD j 0 =
        ∑ j ∈ Finset.range a.dv.flags.length, K.val i j * (diff a.dv.flags.length u (Spec.rest a)).getD j 0 -
        ∑ j ∈ Finset.range a.dv.flags.length, K.val i j * y.getD j 0 := by
      rw [← Finset.sum_sub_distrib]
      refine Finset.sum_congr rfl fun j hj => ?_
      have hj := Finset.mem_range.1 hj
      rw [diff_getD _ _ _ hj, diff_getD _ _ _ hj, rest_getD]
      ring
    rw [e1]
    ring
  have h5 : L * (|l| + r1) * Spec.distance (Spec.rest a) u ≤ L * (|l| + r1) * r1 := by
    have hr0 : 0 ≤ r1 := (distance_nonneg _ _).trans hu.2
    exact mul_le_mul_of_nonneg_left hd (mul_nonneg h.nonneg.2.1 (by positivity))
  linarith

/-- A supported linear structure has regular stiffness. -/
theorem regular_of_supported {flags : List Bool} {sys : ℝ → System} {K : DMat ℝ} {e : ℝ → ℝ} {g : ℝ → Nat → ℝ}
    (hA : AffineSystem sys flags.length K e g) {l : ℝ} (hs : Spec.Supported flags (sys l).scalar?) : Spec.RegularStiffness flags K := by
  intro v hv hv0 hK i hi
  refine supported_definite hA hs (v.getD · 0) (fun j hj hjf => ?_) (le_of_eq ?_) i hi
  · show v.getD j 0 = 0
    rw [List.getD_eq_getElem?_getD, hv0 j ((not_free_iff hj).1 hjf), Option.getD_some]
  · unfold bil
    refine Finset.sum_eq_zero fun j hj => ?_
    have hj := Finset.mem_range.1 hj
    by_cases hf : Spec.Free flags j
    · have := hK j hf
      rw [times_eq K hv] at this
      calc _ = v.getD j 0 * ∑ k ∈ Finset.range flags.length, K.val j k * v.getD k 0 := by
            rw [Finset.mul_sum]
            exact Finset.sum_congr rfl fun k _ => by ring
        _ = 0 := by rw [this, mul_zero]
    · refine Finset.sum_eq_zero fun k _ => ?_
      show v.getD j 0 * K.val j k * v.getD k 0 = 0
      rw [List.getD_eq_getElem?_getD (i := j), hv0 j ((not_free_iff hj).1 hf), Option.getD_some, zero_mul, zero_mul]

/-- The settings of the solver are no part of what makes a path regular. -/
theorem path_settings {X : ℝ → List ℝ} {lo hi M : ℝ} (h : Spec.RegularPath a û X lo hi rho beta L B M) (s : NRSettings ℝ) :
    Spec.RegularPath { a with settings := s } û X lo hi rho beta L B M :=
  ⟨fun l h1 h2 => ⟨(h.regular l h1 h2).length, (h.regular l h1 h2).balance, (h.regular l h1 h2).contract, (h.regular l h1 h2).solves,
    (h.regular l h1 h2).stable, (h.regular l h1 h2).bounded, (h.regular l h1 h2).lipschitz⟩, h.supports, h.speed, h.nonneg⟩

theorem proper_settings (h : Spec.Proper a û) (s : NRSettings ℝ) : Spec.Proper { a with settings := s } û :=
  ⟨h.option, h.elems, h.prescribed, h.force, h.alive, h.bound, h.linSolve⟩

set_option maxHeartbeats 800000 in
/-- C107. Let the nonlinear structure `a` be unstressed and unloaded at load factor zero, its elements smooth there, and its
linear solver exact; let the linear structure `b` have the same supports, the same stiffness and, without displacements, the
same forces, and let its supports suffice.  Then there are a range `eta` of load factors, a tolerance `tol0` and constants such
that for every setting of the solver with a tolerance up to `tol0` and enough iterations, every load factor in the range and
every number of load steps, load control of `a` succeeds, and every state it shows is within `C l ^ 2` of the equilibrium of
the linear structure at the same load factor `l`, up to multiples of the tolerances. -/
theorem small_loads (hp : Spec.Proper a û) (hbd : a.bound = none ∨ ∀ i < a.dv.flags.length, û i = 0)
    (hlin : Spec.ExactSolver a.linSolve) (hel : Spec.SmoothElems a 0 (Spec.rest a))
    (hbal : ∃ r, (a.system 0).rawVector? (Spec.rest a) = some r ∧ ∀ i, Spec.Free a.dv.flags i → r.getD i 0 = 0)
    (hb : Spec.LinearElems b.dv.flags.length b.elems) (hs : Spec.SameAtRest a b)
    (hsup : Spec.Supported b.dv.flags (b.system 0).scalar?) :
    ∃ eta tol0 beta C M : ℝ, 0 < eta ∧ 0 < tol0 ∧ 0 ≤ beta ∧ 0 ≤ C ∧ 0 ≤ M ∧
      ∀ s : NRSettings ℝ, 0 < s.tol → s.tol ≤ tol0 → ∃ m : Nat, s.minIter ≤ m → (m : Int) < s.maxIter →
      ∀ n : Nat, 0 < n → ∀ l : ℝ, l ≠ 0 → |l| ≤ eta →
      ∃ (r : LCState ℝ (Option (List ℝ)) ℝ (Option (List ℝ))) (us : Nat → List ℝ),
        { a with settings := s }.loadControl? n 0 l ⟨0, some (Spec.rest a)⟩ = some r ∧ r.info.success = true ∧
        Spec.shown r = (List.range (n + 1)).map (fun k : Nat => ⟨k * (l / n), some (us k)⟩) ∧
        ∀ k ≤ n, ∃ info, r.info.solverInfos[k]? = some info ∧ info.success = true ∧ info.iterations ≤ m ∧
          ∀ tol, 0 ≤ tol → ∀ y, Spec.InEquilibrium b.dv.flags (b.system (k * (l / n))).scalar? û (k * (l / n)) tol y →
            Spec.distance (us k) y ≤ C * (k * (l / n)) ^ 2 + 2 * beta * s.tol + M * |l / n| + beta * tol ∧
            (k = 0 ∨ 0 < info.iterations ∨ (∀ i < a.dv.flags.length, û i = 0) →
              Spec.distance (us k) y ≤ C * (k * (l / n)) ^ 2 + 2 * beta * s.tol + beta * tol) := by
  obtain ⟨K, e, g, hA⟩ := linear_system b.dv.flags b.elems hb
  have hA : AffineSystem b.system b.dv.flags.length K e g := hA
  have hregK := regular_of_supported hA hsup
  rw [hs.supports] at hA hregK ⊢
  have hrest : Spec.OnSupports a.dv.flags û 0 (Spec.rest a) := by
    refine ⟨rest_length, fun i hi => ?_⟩
    have hlt : i < a.dv.flags.length := (List.getElem?_eq_some_iff.1 hi).1
    rw [getElem?_eq_getD (by rw [rest_length]; exact hlt), rest_getD, zero_mul]
  obtain ⟨eta, rho, beta, L, B, P, hR⟩ := smooth_regular (û := û) hp.option hlin hel hrest hbal fun K' hK' => by
    have h1 := hA.matrix 0 _ (rest_length (a := a))
    rw [hs.stiffness] at h1
    rwa [← Option.some.inj (h1.symm.trans hK')]
  obtain ⟨X, eta', rho', M, he0, he1, hr0, hX0, hpath, hnear, -⟩ := regular_path_through hR
  rw [zero_sub, zero_add] at hpath
  obtain ⟨hbeta, hL, hB, hM⟩ := hpath.nonneg
  obtain ⟨delta, hdelta⟩ : ∃ delta, delta = min rho' (1 / (beta * L + 1)) := ⟨_, rfl⟩
  have hd0 : 0 < delta := by rw [hdelta]; exact lt_min hr0 (by positivity)
  have hd1 : delta ≤ rho' := hdelta ▸ min_le_left _ _
  have hd2 : beta * L * delta ≤ 1 := by
    have : delta ≤ 1 / (beta * L + 1) := hdelta ▸ min_le_right _ _
    rw [le_div_iff₀ (by positivity)] at this
    nlinarith
  obtain ⟨eta2, heta2⟩ : ∃ eta2, eta2 = min eta' (min (delta / (4 * (M + 1))) (rho / (M + 1))) := ⟨_, rfl⟩
  have h20 : 0 < eta2 := by
    rw [heta2]; exact lt_min he0 (lt_min (by positivity) (div_pos hR.pos.2 (by positivity)))
  have h21 : eta2 ≤ eta' := heta2 ▸ min_le_left _ _
  have h22 : eta2 * (4 * (M + 1)) ≤ delta := by
    rw [← le_div_iff₀ (by positivity)]; exact heta2 ▸ (min_le_right _ _).trans (min_le_left _ _)
  have h23 : eta2 * (M + 1) ≤ rho := by
    rw [← le_div_iff₀ (by positivity)]; exact heta2 ▸ (min_le_right _ _).trans (min_le_right _ _)
  refine ⟨eta2, delta / (4 * (beta + 1)), beta, beta * (L * (1 + M) * M), M, h20, by positivity, hbeta, by positivity, hM,
    fun s ht0 ht1 => ?_⟩
  obtain ⟨m, hm0, hm⟩ : ∃ m : Nat, 0 < m ∧ B * (delta / 2 ^ (2 ^ m - 1)) ≤ s.tol := by
    obtain ⟨m, hm⟩ := pow_unbounded_of_one_lt (B * delta / s.tol) (one_lt_two (α := ℝ))
    refine ⟨m + 1, by omega, ?_⟩
    have h1 : m ≤ 2 ^ (m + 1) - 1 := by
      have := Nat.lt_two_pow_self (n := m + 1)
      omega
    have h2 : (2 : ℝ) ^ m ≤ 2 ^ (2 ^ (m + 1) - 1) := pow_le_pow_right₀ one_le_two h1
    rw [← mul_div_assoc, div_le_iff₀ (by positivity)]
    rw [div_lt_iff₀ ht0] at hm
    nlinarith
  refine ⟨m, fun hmin hmax n hn l hl0 hl => ?_⟩
  have hn0 : (0 : ℝ) < n := by exact_mod_cast hn
  have hstepl : |l / n| ≤ |l| := by
    rw [abs_div, abs_of_pos hn0]
    exact div_le_self (abs_nonneg l) (by exact_mod_cast hn)
  have hk : ∀ k : Nat, k ≤ n → |(k : ℝ) * (l / n)| ≤ |l| := by
    intro k hk
    rw [abs_mul, abs_div, abs_of_pos hn0, abs_of_nonneg (by positivity : (0 : ℝ) ≤ k), ← mul_div_assoc, div_le_iff₀ hn0, mul_comm]
    exact mul_le_mul_of_nonneg_left (by exact_mod_cast hk) (abs_nonneg l)
  have hstep : 2 * beta * s.tol + 2 * (M * |(l - 0) / n|) ≤ delta := by
    rw [sub_zero]
    have h1 : s.tol * (4 * (beta + 1)) ≤ delta := by rwa [← le_div_iff₀ (by positivity)]
    have h2 : M * |l / n| ≤ M * eta2 := mul_le_mul_of_nonneg_left (hstepl.trans hl) hM
    nlinarith
  have hx0d : Spec.distance (Spec.rest a) (X 0) ≤ delta := by
    rw [hX0]
    exact (near_refl (a := a) rest_length hd0.le).2
  obtain ⟨r, us, q1, q2, -, -, q5, q6⟩ := load_control_follows (a := { a with settings := s }) (proper_settings hp s) hbd
    (path_settings hpath s) hd1 hd2 hm0 hmin hmax hm n hn 0 l 0 hstep hrest hx0d (fun k hk' => by
      have := abs_le.1 (((hk k hk').trans hl).trans h21)
      rw [sub_zero, zero_add]
      exact this) (fun k hk1 hk2 hz => by
      exfalso
      rw [sub_zero, zero_add] at hz
      rcases mul_eq_zero.1 hz with h | h
      · have : k = 0 := by exact_mod_cast h
        omega
      · rcases div_eq_zero_iff.1 h with h | h
        · exact hl0 h
        · exact hn0.ne' h)
  simp only [sub_zero, zero_add] at q5 q6
  refine ⟨r, us, q1, q2, q5, fun k hk' => ?_⟩
  obtain ⟨info, i1, i2, i3, i4, i5, i6⟩ := q6 k hk'
  refine ⟨info, i1, i2, i3, fun tol htol y hy => ?_⟩
  have hlk := (hk k hk').trans hl
  obtain ⟨lk, hlk'⟩ : ∃ lk, lk = (k : ℝ) * (l / n) := ⟨_, rfl⟩
  rw [← hlk'] at hlk hy i4 i5 i6 ⊢
  have hin := abs_le.1 (hlk.trans h21)
  obtain ⟨rX, hrX, hrX0⟩ := (hpath.regular lk hin.1 hin.2).balance
  have hXs := hpath.supports lk hin.1 hin.2
  have hXd : Spec.Near a (Spec.rest a) (M * |lk|) (X lk) := by
    refine ⟨hXs.1, ?_⟩
    have := hpath.speed lk 0 hin.1 hin.2 (by linarith) he0.le
    rwa [hX0, sub_zero] at this
  have hM1 : M * |lk| ≤ rho := by nlinarith [abs_nonneg lk]
  have hcmp := compare_at hR hs hA ((hlk.trans h21).trans he1) hM1 hXd hXs hrX hrX0 ⟨hy.1, hy.2.1⟩
  have hres := residual_of_equilibrium hA htol hy
  have h7 : Spec.distance (X lk) y ≤ beta * (L * (1 + M) * M) * lk ^ 2 + beta * tol := by
    refine hcmp.trans ?_
    have : L * (|lk| + M * |lk|) * (M * |lk|) = L * (1 + M) * M * lk ^ 2 := by rw [← sq_abs]; ring
    rw [this]
    nlinarith
  have h8 := distance_triangle _ (us k) (X lk) y i4.1 hXs.1 hy.1
  refine ⟨?_, fun hc => ?_⟩
  · have h9 : Spec.distance (us k) (X lk) ≤ 2 * beta * s.tol + M * |l / n| := i5
    linarith
  · have h9 : Spec.distance (us k) (X lk) ≤ 2 * beta * s.tol := i6 hc
    linarith

end Analysis

end Ikarus
