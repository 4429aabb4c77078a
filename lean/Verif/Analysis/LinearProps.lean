import Verif.Analysis.LinearLemmas

/-!
Property C94: an analysis of a linear structure with load control is in equilibrium at every load step.
-/

namespace Ikarus

open Ikarus.Element Ikarus.Element.Spec

/-! ### Specification -/

/-- The distance of two vectors. -/
noncomputable def Spec.distance (u v : List ℝ) : ℝ := Real.sqrt ((List.zipWith (fun a b => (a - b) * (a - b)) u v).sum)

/-- The state `u` has the prescribed displacements of load factor `l`, and no other state with these displacements has an
energy that is lower by more than `tol` times the distance to it.  For `tol = 0` this says that `u` minimises the energy. -/
def Spec.InEquilibrium (flags : List Bool) (energy : List ℝ → Option ℝ) (û : Nat → ℝ) (l tol : ℝ) (u : List ℝ) : Prop :=
  u.length = flags.length ∧ (∀ i : Nat, flags[i]? = some true → u[i]? = some (l * û i)) ∧
    ∃ E, energy u = some E ∧ ∀ y : List ℝ, y.length = flags.length → (∀ i : Nat, flags[i]? = some true → y[i]? = some (l * û i)) →
      ∃ E', energy y = some E' ∧ E ≤ E' + tol * Spec.distance u y

/-- The supports suffice: along every direction that keeps the constrained dofs the energy is strictly convex. -/
def Spec.Supported (flags : List Bool) (energy : List ℝ → Option ℝ) : Prop :=
  ∀ x v : List ℝ, x.length = flags.length → v.length = flags.length → (∀ i : Nat, flags[i]? = some true → v[i]? = some 0) →
    (∃ c ∈ v, c ≠ 0) → ∃ p q r, energy (Spec.line x v 1) = some p ∧ energy (Spec.line x v (-1)) = some q ∧
      energy x = some r ∧ 2 * r < p + q

/-! ### Linear skills of the code -/

variable {n d : Nat}

/-- C94, elements. The linear elastic element is a linear skill if the material matrix is symmetric and positive
semidefinite and no integration point has a negative weight. -/
theorem linearElastic_linear {q : Nat} (C : Matrix (Fin q) (Fin q) ℝ) (hC : C.IsSymm) (hp : C.PosSemidef)
    (gps : List (LinPoint n d q)) (hw : ∀ gp ∈ gps, 0 ≤ gp.detJ * gp.weight) :
    Spec.LinearSkill fun _ => Skill.linearElastic C gps := by
  refine ⟨fun _ => 0, fun _ => 0, LinearElastic.calculateMatrix false C gps 0,
    LinearElastic.linearElastic_symmetric C hC gps, fun v => (LinearElastic.linearElastic_definite C gps v hw).1 hp,
    fun l u => ⟨?_, fun r => ?_, fun M => ?_⟩⟩
  · show some (LinearElastic.calculateScalar false C gps u) = _
    rw [LinearElastic.linearElastic_energy]
    simp [work]
  · show some (LinearElastic.calculateVector false C gps u r) = _
    rw [(LinearElastic.linearElastic_adds C gps u r 0).2.1, LinearElastic.linearElastic_forces, zero_add]
  · exact congrArg some (LinearElastic.linearElastic_adds C gps 0 0 M).1

/-- A skill with linear energy. -/
theorem load_linear (s : ℝ → Skill n d) (e : ℝ → NodeVec n d → ℝ) (f : ℝ → NodeVec n d)
    (hs : ∀ l u, (s l).scalar u = some (e l u)) (hlin : ∀ l u, e l u = work (f l) u)
    (hv : ∀ l u r, (s l).vector u r = some (r + f l)) (hm : ∀ l u M, (s l).matrix u M = some M) : Spec.LinearSkill s := by
  have hz : ∀ u : NodeVec n d, mul (0 : BlockMat n d) u = 0 := by intro u; funext I a; simp [mul]
  refine ⟨fun _ => 0, f, 0, fun _ _ _ _ => rfl, fun v => ?_, fun l u => ⟨?_, fun r => ?_, fun M => ?_⟩⟩
  · rw [hz]; simp [work]
  · rw [hs, hlin, hz]; simp [work]
  · rw [hv, hz, add_zero]
  · rw [hm, add_zero]

/-- C94, elements. A volume load which depends on the load factor in any way is a linear skill. -/
theorem volumeLoad_linear (load : Option (LoadFunction d)) (gps : List (LoadPoint n d)) :
    Spec.LinearSkill fun l => Skill.volumeLoad load gps l := by
  cases load with
  | none =>
    refine load_linear _ (fun _ _ => 0) (fun _ => 0) (fun _ _ => rfl) (fun _ _ => by simp [work]) (fun _ _ r => ?_)
      fun _ _ _ => rfl
    rw [add_zero]; rfl
  | some f =>
    refine load_linear _ (fun l u => VolumeLoad.calculateScalar (some f) gps l u)
      (fun l => VolumeLoad.calculateVector (some f) gps l 0) (fun _ _ => rfl) (fun l u => ?_) (fun l u r => ?_) fun _ _ _ => rfl
    · rw [VolumeLoad.calculateVector_sum, zero_add, work_list_sum, VolumeLoad.calculateScalar_sum]
      congr 1
      exact List.map_congr_left fun gp _ => by rw [VolumeLoad.work_pointForce]
    · exact congrArg some (volumeLoad_consistent f gps l u r 0).2.2.1

/-- C94, elements. A traction with patch and load function is a linear skill. -/
theorem traction_linear (is : List (Traction.Intersection n d)) (t : LoadFunction d) :
    Spec.LinearSkill fun l => Skill.traction (some is) (some t) l := by
  refine load_linear _ (fun l u => ((loadedPoints is).map fun p : LoadPoint n d => -((t p.x l ⬝ᵥ p.displacement u) * p.weight * p.detJ)).sum)
    (fun l => ((loadedPoints is).map (Traction.pForce t l)).sum) (fun l u => Traction.calculateScalar_sum is t l u)
    (fun l u => ?_) (fun l _ r => Traction.calculateVector_sum is t l r) fun _ _ _ => rfl
  rw [work_list_sum]
  congr 1
  exact List.map_congr_left fun p _ => by rw [Traction.work_pForce]

/-! ### From residuals to energies -/

theorem bil_add_left (K : DMat ℝ) (m : Nat) (u u' v : Nat → ℝ) :
    bil K m (fun i => u i + u' i) v = bil K m u v + bil K m u' v := by
  simp only [bil, add_mul, Finset.sum_add_distrib]

theorem bil_add_right (K : DMat ℝ) (m : Nat) (u v v' : Nat → ℝ) :
    bil K m u (fun i => v i + v' i) = bil K m u v + bil K m u v' := by
  simp only [bil, mul_add, Finset.sum_add_distrib]

theorem not_free_iff {flags : List Bool} {i : Nat} (hi : i < flags.length) :
    ¬ Spec.Free flags i ↔ flags[i]? = some true := by
  unfold Spec.Free
  rw [List.getElem?_eq_getElem hi]
  cases flags[i] <;> simp

theorem getElem?_eq_getD {l : List ℝ} {i : Nat} (h : i < l.length) : l[i]? = some (l.getD i 0) := by
  rw [List.getD_eq_getElem?_getD, List.getElem?_eq_getElem h]; rfl

theorem zipWith_sum_range (f : ℝ → ℝ → ℝ) (u v : List ℝ) (m : Nat) (hu : u.length = m) (hv : v.length = m) :
    (List.zipWith f u v).sum = ∑ i ∈ Finset.range m, f (u.getD i 0) (v.getD i 0) := by
  rw [list_sum_getD]
  have hl : (List.zipWith f u v).length = m := by simp [hu, hv]
  rw [hl]
  refine Finset.sum_congr rfl fun i hi => ?_
  have hi := Finset.mem_range.1 hi
  simp only [List.getD_eq_getElem?_getD, List.getElem?_zipWith]
  rw [List.getElem?_eq_getElem (hu ▸ hi), List.getElem?_eq_getElem (hv ▸ hi)]; rfl

/-- The energy of a state compared with that of another one. -/
theorem energy_difference {sys : ℝ → System} {m : Nat} {K : DMat ℝ} {e : ℝ → ℝ} {g : ℝ → Nat → ℝ}
    (hA : AffineSystem sys m K e g) (l : ℝ) {u y : List ℝ} (hu : u.length = m) (hy : y.length = m) :
    ∃ E E', (sys l).scalar? u = some E ∧ (sys l).scalar? y = some E' ∧
      E' = E + ∑ i ∈ Finset.range m, Analysis.resAt K g m l u i * (y.getD i 0 - u.getD i 0) +
        1 / 2 * bil K m (fun i => y.getD i 0 - u.getD i 0) (fun i => y.getD i 0 - u.getD i 0) := by
  refine ⟨_, _, hA.scalar l u hu, hA.scalar l y hy, ?_⟩
  obtain ⟨w, hw⟩ : ∃ w : Nat → ℝ, w = fun i => y.getD i 0 - u.getD i 0 := ⟨_, rfl⟩
  have hw' : ∀ i, y.getD i 0 - u.getD i 0 = w i := fun i => (congrFun hw i).symm
  have hy' : ∀ i, y.getD i 0 = u.getD i 0 + w i := fun i => by rw [← hw' i]; ring
  have hq : bil K m (y.getD · 0) (y.getD · 0) = bil K m (u.getD · 0) (u.getD · 0) + 2 * bil K m w (u.getD · 0) +
      bil K m w w := by
    have : (y.getD · (0 : ℝ)) = fun i => u.getD i 0 + w i := funext hy'
    rw [this, bil_add_left, bil_add_right, bil_add_right, hA.symm (u.getD · 0) w]
    ring
  have hb : bil K m w (u.getD · 0) = ∑ i ∈ Finset.range m, (∑ j ∈ Finset.range m, K.val i j * u.getD j 0) * w i := by
    unfold bil
    refine Finset.sum_congr rfl fun i _ => ?_
    rw [Finset.sum_mul]
    exact Finset.sum_congr rfl fun j _ => by ring
  rw [hq, hb]
  simp only [hw']
  simp only [hy', Analysis.resAt, mul_add, add_mul, Finset.sum_add_distrib]
  ring

theorem equilibrium_of_residual {sys : ℝ → System} {flags : List Bool} {K : DMat ℝ} {e : ℝ → ℝ} {g : ℝ → Nat → ℝ}
    (hA : AffineSystem sys flags.length K e g) (û : Nat → ℝ) (l l' tol : ℝ) {u : List ℝ} (hu : u.length = flags.length)
    (hc : ∀ i < flags.length, ¬ Spec.Free flags i → u.getD i 0 = l' * û i)
    (hr : Real.sqrt (freeSq flags (Analysis.resAt K g flags.length l u)) ≤ tol) :
    Spec.InEquilibrium flags (sys l).scalar? û l' tol u := by
  have hlt : ∀ {i : Nat}, flags[i]? = some true → i < flags.length := fun h => (List.getElem?_eq_some_iff.1 h).1
  refine ⟨hu, fun i hi => ?_, ?_⟩
  · rw [getElem?_eq_getD (hu ▸ hlt hi), hc i (hlt hi) ((not_free_iff (hlt hi)).2 hi)]
  · obtain ⟨E, -, hE, -, -⟩ := energy_difference hA l hu hu
    refine ⟨E, hE, fun y hy hyc => ?_⟩
    obtain ⟨E1, E', hE1, hE', hd⟩ := energy_difference hA l hu hy
    rw [hE] at hE1
    cases hE1
    refine ⟨E', hE', ?_⟩
    have hpsd := hA.psd fun i => y.getD i 0 - u.getD i 0
    have hz : ∀ i < flags.length, ¬ Spec.Free flags i → y.getD i 0 - u.getD i 0 = 0 := by
      intro i hi hf
      have h1 := hyc i ((not_free_iff hi).1 hf)
      rw [List.getD_eq_getElem?_getD, h1, Option.getD_some, hc i hi hf, sub_self]
    have hsum : ∀ f : Nat → ℝ, ∑ i ∈ Finset.range flags.length, f i * (y.getD i 0 - u.getD i 0) =
        ∑ i ∈ (Finset.range flags.length).filter (fun i => Spec.Free flags i), f i * (y.getD i 0 - u.getD i 0) := by
      intro f
      rw [Finset.sum_filter]
      refine Finset.sum_congr rfl fun i hi => ?_
      split
      · rfl
      · rw [hz i (Finset.mem_range.1 hi) ‹_›, mul_zero]
    have hdist : Spec.distance u y = Real.sqrt (freeSq flags fun i => y.getD i 0 - u.getD i 0) := by
      unfold Spec.distance freeSq
      rw [zipWith_sum_range _ u y _ hu hy, ← hsum]
      congr 1
      exact Finset.sum_congr rfl fun i _ => by ring
    have hcs : (∑ i ∈ (Finset.range flags.length).filter (fun i => Spec.Free flags i),
        Analysis.resAt K g flags.length l u i * (y.getD i 0 - u.getD i 0)) ^ 2 ≤
        freeSq flags (Analysis.resAt K g flags.length l u) * freeSq flags fun i => y.getD i 0 - u.getD i 0 := by
      have := Finset.sum_mul_sq_le_sq_mul_sq ((Finset.range flags.length).filter (fun i => Spec.Free flags i))
        (Analysis.resAt K g flags.length l u) fun i => y.getD i 0 - u.getD i 0
      simpa only [freeSq, ← sq] using this
    have hn1 : 0 ≤ freeSq flags (Analysis.resAt K g flags.length l u) := Finset.sum_nonneg fun i _ => mul_self_nonneg _
    have habs : |∑ i ∈ (Finset.range flags.length).filter (fun i => Spec.Free flags i),
        Analysis.resAt K g flags.length l u i * (y.getD i 0 - u.getD i 0)| ≤ tol * Spec.distance u y := by
      calc _ ≤ Real.sqrt (freeSq flags (Analysis.resAt K g flags.length l u) *
            freeSq flags fun i => y.getD i 0 - u.getD i 0) := Real.abs_le_sqrt hcs
        _ = Real.sqrt (freeSq flags (Analysis.resAt K g flags.length l u)) * Spec.distance u y := by
          rw [Real.sqrt_mul hn1, hdist]
        _ ≤ tol * Spec.distance u y := mul_le_mul_of_nonneg_right hr (Real.sqrt_nonneg _)
    rw [hd, hsum]
    have := neg_abs_le (∑ i ∈ (Finset.range flags.length).filter (fun i => Spec.Free flags i),
      Analysis.resAt K g flags.length l u i * (y.getD i 0 - u.getD i 0))
    linarith

/-! ### Load control -/

/-- The settings of the solver admit `m` iterations. -/
def Spec.Settings (s : NRSettings ℝ) (m : Int) : Prop := 0 ≤ s.tol ∧ 0 ≤ s.minIter ∧ max m s.minIter < s.maxIter

open Analysis in
/-- All solves of a run. -/
theorem solves_linear {a : Analysis} {û : Nat → ℝ} (h : Spec.ProperLinear a û) (hset : Spec.Settings a.settings 1)
    (step l0 : ℝ) {x0 : List ℝ} (hx0 : x0.length = a.dv.flags.length)
    (hc0 : ∀ i : Nat, a.dv.flags[i]? = some true → x0[i]? = some (l0 * û i)) (w : Option (List ℝ)) (k : Nat)
    (hk : ∀ j < k, l0 + ((j : ℝ) + 1) * step = 0 → ∀ i < a.dv.flags.length, û i = 0) :
    ∃ u : List ℝ, Spec.loadAfter a.solver step w ⟨l0, some x0⟩ k = ⟨l0 + k * step, some u⟩ ∧
      (Spec.loadInfo a.solver step w ⟨l0, some x0⟩ k).success = true ∧
      0 ≤ (Spec.loadInfo a.solver step w ⟨l0, some x0⟩ k).iterations ∧
      a.settings.minIter ≤ (Spec.loadInfo a.solver step w ⟨l0, some x0⟩ k).iterations ∧
      (Spec.loadInfo a.solver step w ⟨l0, some x0⟩ k).iterations ≤ max 1 a.settings.minIter ∧
      Spec.InEquilibrium a.dv.flags (a.system (l0 + k * step)).scalar? û (l0 + k * step) a.settings.tol u ∧
      (0 < (Spec.loadInfo a.solver step w ⟨l0, some x0⟩ k).iterations →
        Spec.InEquilibrium a.dv.flags (a.system (l0 + k * step)).scalar? û (l0 + k * step) 0 u) := by
  obtain ⟨K, e, g, hA⟩ := linear_system a.dv.flags a.elems h.elems
  have hA : AffineSystem a.system a.dv.flags.length K e g := hA
  obtain ⟨htol, hmin, hmax⟩ := hset
  have hexact : ∀ l (y : List ℝ), (∀ i, Spec.Free a.dv.flags i → resAt K g a.dv.flags.length l y i = 0) →
      Real.sqrt (freeSq a.dv.flags (resAt K g a.dv.flags.length l y)) ≤ 0 := by
    intro l y hy
    rw [freeSq_zero hy, Real.sqrt_zero]
  induction k with
  | zero =>
    have hc : ∀ i < a.dv.flags.length, ¬ Spec.Free a.dv.flags i → x0.getD i 0 = l0 * û i := by
      intro i hi hf
      rw [List.getD_eq_getElem?_getD, hc0 i ((not_free_iff hi).1 hf), Option.getD_some]
    have hsy : ∀ i < a.dv.flags.length, ¬ Spec.Free a.dv.flags i → synced û l0 i (x0.getD i 0) = l0 * û i := by
      intro i hi hf
      unfold synced
      rw [hc i hi hf]
      split <;> rfl
    obtain ⟨w', y, info, k, s1, s2, s3, s4, s5, s6, s7, s8, s9⟩ := solve_linear h hA htol 1 (Or.inl rfl) hmin hmax l0 0 hx0
      (Or.inr fun i hi hf => by rw [hsy i hi hf, hc i hi hf]; ring) w
    have hlam : l0 + ((0 : Nat) : ℝ) * step = l0 := by simp
    rw [hlam]
    have haft : Spec.loadAfter a.solver step w ⟨l0, some x0⟩ 0 = ⟨l0, some y⟩ := by
      show (a.solver.solve w ⟨l0, some x0⟩ 0).2.1 = _
      rw [s1]
    have hinf : Spec.loadInfo a.solver step w ⟨l0, some x0⟩ 0 = info := by
      show (a.solver.solve w ⟨l0, some x0⟩ 0).2.2 = _
      rw [s1]
    rw [haft, hinf]
    have hyc : ∀ i < a.dv.flags.length, ¬ Spec.Free a.dv.flags i → y.getD i 0 = l0 * û i := by
      intro i hi hf
      rcases Nat.eq_zero_or_pos k with h0 | h0
      · rw [(s7 h0).1]; exact hc i hi hf
      · rw [(s8 h0).1 i hi hf]; exact hsy i hi hf
    refine ⟨y, rfl, s2, by omega, by omega, by rw [s3]; exact s4, ?_, fun hpos => ?_⟩
    · refine equilibrium_of_residual hA û l0 l0 a.settings.tol s6 hyc ?_
      rcases Nat.eq_zero_or_pos k with h0 | h0
      · have := (s7 h0).2
        simp only [zero_mul, add_zero] at this
        rw [(s7 h0).1]
        exact this
      · exact (s8 h0).2
    · exact equilibrium_of_residual hA û l0 l0 0 s6 hyc (hexact _ _ (s9 (by omega)))
  | succ k ih =>
    obtain ⟨u, i1, -, -, -, -, i2, -⟩ := ih fun j hj => hk j (by omega)
    have hux : u.length = a.dv.flags.length := i2.1
    generalize hl : l0 + ((k + 1 : Nat) : ℝ) * step = l
    have hll : l0 + (k : ℝ) * step + step = l := by rw [← hl]; push_cast; ring
    have hc : ∀ i < a.dv.flags.length, ¬ Spec.Free a.dv.flags i → u.getD i 0 = (l0 + k * step) * û i := by
      intro i hi hf
      rw [List.getD_eq_getElem?_getD, i2.2.1 i ((not_free_iff hi).1 hf), Option.getD_some]
    have hsy : ∀ i < a.dv.flags.length, ¬ Spec.Free a.dv.flags i → synced û l i (u.getD i 0) = l * û i := by
      intro i hi hf
      unfold synced
      split
      · rfl
      · rename_i h0
        push Not at h0
        rw [hc i hi hf, h0]
        rcases mul_eq_zero.1 h0 with h1 | h1
        · rw [hk k (by omega) (by rw [← h1, ← hl]; push_cast; ring) i hi, mul_zero]
        · rw [h1, mul_zero]
    have hgood : ∀ i < a.dv.flags.length, ¬ Spec.Free a.dv.flags i →
        synced û l i (u.getD i 0) = u.getD i 0 + step * û i := by
      intro i hi hf
      rw [hsy i hi hf, hc i hi hf, ← hll]; ring
    obtain ⟨w', y, info, kk, s1, s2, s3, s4, s5, s6, s7, s8, s9⟩ := solve_linear h hA htol 1 (Or.inl rfl) hmin hmax l step hux
      (Or.inr hgood) (Spec.loadSolve a.solver step w ⟨l0, some x0⟩ k).2.1
    have hy1 : ({ (Spec.loadSolve a.solver step w ⟨l0, some x0⟩ k).2.2.1 with
        lam := (Spec.loadSolve a.solver step w ⟨l0, some x0⟩ k).2.2.1.lam + step } : Dom ℝ (Option (List ℝ))) = ⟨l, some u⟩ := by
      have h1 : (Spec.loadSolve a.solver step w ⟨l0, some x0⟩ k).2.2.1 = ⟨l0 + k * step, some u⟩ := i1
      rw [h1, ← hll]
    have hinf : Spec.loadInfo a.solver step w ⟨l0, some x0⟩ (k + 1) = info := by
      show (a.solver.solve (Spec.loadSolve a.solver step w ⟨l0, some x0⟩ k).2.1 _ step).2.2 = _
      rw [hy1, s1]
    obtain ⟨z, z1, z2, z3⟩ := sync_eq h l s6
    have haft : Spec.loadAfter a.solver step w ⟨l0, some x0⟩ (k + 1) = ⟨l, some (if kk = 0 then z else y)⟩ := by
      show (if (a.solver.solve (Spec.loadSolve a.solver step w ⟨l0, some x0⟩ k).2.1 _ step).2.2.iterations = 0 then
        a.sync (a.solver.solve (Spec.loadSolve a.solver step w ⟨l0, some x0⟩ k).2.1 _ step).2.1 else
        (a.solver.solve (Spec.loadSolve a.solver step w ⟨l0, some x0⟩ k).2.1 _ step).2.1) = _
      rw [hy1, s1]
      show (if info.iterations = 0 then a.sync ⟨l, some y⟩ else ⟨l, some y⟩) = _
      rw [s3, z1]
      by_cases h0 : kk = 0
      · rw [if_pos (by omega), if_pos h0]
      · rw [if_neg (by omega), if_neg h0]
    rw [haft, hinf]
    by_cases h0 : kk = 0
    · rw [if_pos h0]
      have hyu := (s7 h0).1
      have hzu : ∀ i < a.dv.flags.length, z.getD i 0 = u.getD i 0 + step * û i := by
        intro i hi
        rw [z3 i hi, hyu]
        by_cases hf : Spec.Free a.dv.flags i
        · unfold synced
          rw [free_zero h hf, mul_zero, mul_zero, if_neg (by simp), add_zero]
        · exact hgood i hi hf
      refine ⟨z, rfl, s2, by omega, by omega, by rw [s3]; exact s4, ?_, fun hpos => by omega⟩
      refine equilibrium_of_residual hA û l l a.settings.tol z2 (fun i hi hf => ?_) ?_
      · rw [z3 i hi, hyu]; exact hsy i hi hf
      · have := (s7 h0).2
        rw [freeSq_congr (R' := resAt K g a.dv.flags.length l z) fun i hi => ?_] at this
        · exact this
        · have hs : ∑ j ∈ Finset.range a.dv.flags.length, K.val i j * z.getD j 0 =
              ∑ j ∈ Finset.range a.dv.flags.length, K.val i j * (u.getD j 0 + step * û j) :=
            Finset.sum_congr rfl fun j hj => by rw [hzu j (Finset.mem_range.1 hj)]
          unfold resAt
          rw [hs]
          simp only [mul_add, Finset.sum_add_distrib, Finset.mul_sum, mul_left_comm _ step]
          ring
    · rw [if_neg h0]
      have hpos : 0 < kk := by omega
      have hyc : ∀ i < a.dv.flags.length, ¬ Spec.Free a.dv.flags i → y.getD i 0 = l * û i := by
        intro i hi hf
        rw [(s8 hpos).1 i hi hf]; exact hsy i hi hf
      exact ⟨y, rfl, s2, by omega, by omega, by rw [s3]; exact s4,
        equilibrium_of_residual hA û l l a.settings.tol s6 hyc (s8 hpos).2,
        fun _ => equilibrium_of_residual hA û l l 0 s6 hyc (hexact _ _ (s9 (by omega)))⟩

/-- C94. Load control of a linear structure, Full or Reduced, with or without displacements that are prescribed in
proportion to the load factor: if the linear solver solves its systems, the run is successful; the listeners are shown one
state per load step; and at every load step the state has the prescribed displacements and is in equilibrium up to the
tolerance of the solver, exactly if the solver made an iteration.  No solve takes more than one iteration, unless the
user asked for more.  The load factor must not become zero in a step if there are prescribed displacements. -/
theorem linear_load_control {a : Analysis} {û : Nat → ℝ} (h : Spec.ProperLinear a û) (hset : Spec.Settings a.settings 1)
    (n : Nat) (hn : 0 < n) (tbegin tend l0 : ℝ) {x0 : List ℝ} (hx0 : x0.length = a.dv.flags.length)
    (hc0 : ∀ i : Nat, a.dv.flags[i]? = some true → x0[i]? = some (l0 * û i))
    (hz : ∀ k : Nat, 0 < k → k ≤ n → l0 + k * ((tend - tbegin) / n) = 0 → ∀ i < a.dv.flags.length, û i = 0) :
    ∃ (r : LCState ℝ (Option (List ℝ)) ℝ (Option (List ℝ))) (us : Nat → List ℝ),
      a.loadControl? n tbegin tend ⟨l0, some x0⟩ = some r ∧ r.info.success = true ∧ r.info.solverInfos.length = n + 1 ∧
      r.dom = ⟨l0 + (tend - tbegin), some (us n)⟩ ∧
      (r.trace.filterMap fun ev => match ev with
        | .notify .solutionChanged x _ _ => some x
        | _ => none) = (List.range (n + 1)).map (fun k : Nat => ⟨l0 + k * ((tend - tbegin) / n), some (us k)⟩) ∧
      ∀ k ≤ n,
        Spec.InEquilibrium a.dv.flags (a.system (l0 + k * ((tend - tbegin) / n))).scalar? û
          (l0 + k * ((tend - tbegin) / n)) a.settings.tol (us k) ∧
        ∀ info, r.info.solverInfos[k]? = some info → info.success = true ∧ a.settings.minIter ≤ info.iterations ∧
          info.iterations ≤ max 1 a.settings.minIter ∧ (0 < info.iterations →
            Spec.InEquilibrium a.dv.flags (a.system (l0 + k * ((tend - tbegin) / n))).scalar? û
              (l0 + k * ((tend - tbegin) / n)) 0 (us k)) := by
  have hn' : (n : ℝ) ≠ 0 := by exact_mod_cast hn.ne'
  generalize hstep : (tend - tbegin) / (n : ℝ) = step at *
  have hmk : LoadControl.mk? (n : Int) tbegin tend = some ⟨n, step⟩ := by
    unfold LoadControl.mk?
    rw [if_neg (by omega)]
    simp [hstep]
  have hall : ∀ k, k ≤ n → ∀ j < k, l0 + ((j : ℝ) + 1) * step = 0 → ∀ i < a.dv.flags.length, û i = 0 := by
    intro k hk j hj h0
    exact hz (j + 1) (by omega) (by omega) (by rw [← h0]; push_cast; ring)
  have key : ∀ k, ∃ u : List ℝ, k ≤ n →
      Spec.loadAfter a.solver step none ⟨l0, some x0⟩ k = ⟨l0 + k * step, some u⟩ ∧
      (Spec.loadInfo a.solver step none ⟨l0, some x0⟩ k).success = true ∧
      0 ≤ (Spec.loadInfo a.solver step none ⟨l0, some x0⟩ k).iterations ∧
      a.settings.minIter ≤ (Spec.loadInfo a.solver step none ⟨l0, some x0⟩ k).iterations ∧
      (Spec.loadInfo a.solver step none ⟨l0, some x0⟩ k).iterations ≤ max 1 a.settings.minIter ∧
      Spec.InEquilibrium a.dv.flags (a.system (l0 + k * step)).scalar? û (l0 + k * step) a.settings.tol u ∧
      (0 < (Spec.loadInfo a.solver step none ⟨l0, some x0⟩ k).iterations →
        Spec.InEquilibrium a.dv.flags (a.system (l0 + k * step)).scalar? û (l0 + k * step) 0 u) := by
    intro k
    by_cases hk : k ≤ n
    · obtain ⟨u, hu⟩ := solves_linear h hset step l0 hx0 hc0 none k (hall k hk)
      exact ⟨u, fun _ => hu⟩
    · exact ⟨[], fun h => absurd h hk⟩
  choose us hus using key
  obtain ⟨m, ls, hm, h1, h2, h3, -, h5, h6⟩ := load_control_run n hn step a.solver none ⟨l0, some x0⟩
  generalize hr : (LoadControl.mk (n : Int) step).run a.solver none ⟨l0, some x0⟩ = r at *
  have hs : r.info.success = true := h1.2 fun k hk => (hus k (by omega)).2.1
  have hmn : m = n + 1 := h2 hs
  subst hmn
  refine ⟨r, us, ?_, hs, by simp [h3], ?_, ?_, fun k hk => ⟨(hus k hk).2.2.2.2.2.1, fun info hi => ?_⟩⟩
  · unfold Analysis.loadControl?
    rw [hmk, Option.map_some, hr]
  · rw [h5, Nat.add_sub_cancel, (hus n le_rfl).1, ← hstep, mul_div_cancel₀ _ hn']
  · rw [h6, if_pos hs, List.cons_append, List.filterMap_cons_none rfl, List.filterMap_append, List.filterMap_flatMap]
    have hend : ([CEvent.notify .controlEnded r.dom ls step].filterMap fun ev => match ev with
        | .notify .solutionChanged x _ _ => some x
        | _ => none) = ([] : List (Dom ℝ (Option (List ℝ)))) := rfl
    rw [hend, List.append_nil]
    have hev : ∀ k, ((Spec.loadEvents a.solver step none ⟨l0, some x0⟩ k).filterMap fun ev => match ev with
        | .notify .solutionChanged x _ _ => some x
        | _ => none) = [Spec.loadAfter a.solver step none ⟨l0, some x0⟩ k] := by
      intro k
      cases k <;> rfl
    rw [List.flatMap_congr fun k _ => hev k, ← List.map_eq_flatMap]
    refine List.map_congr_left fun k hk => (hus k ?_).1
    have := List.mem_range.1 hk
    omega
  · have hi' : info = Spec.loadInfo a.solver step none ⟨l0, some x0⟩ k := by
      rw [h3, List.getElem?_map, List.getElem?_range (by omega)] at hi
      exact (Option.some.inj hi).symm
    rw [hi']
    obtain ⟨-, g1, -, g2, g3, -, g4⟩ := hus k hk
    exact ⟨g1, g2, g3, g4⟩

/-! ### Uniqueness -/

theorem line_getElem (x v : List ℝ) (t : ℝ) (h : x.length = v.length) {i : Nat} (hi : i < x.length) :
    (Spec.line x v t)[i]? = some (x.getD i 0 + t * v.getD i 0) := by
  rw [getElem?_eq_getD (by rw [line_length x v t h]; exact hi), line_getD x v t h]

/-- C94, uniqueness. If the supports suffice, there is only one state in exact equilibrium. -/
theorem equilibrium_unique (flags : List Bool) (energy : List ℝ → Option ℝ) (û : Nat → ℝ) (l : ℝ)
    (hs : Spec.Supported flags energy) (u u' : List ℝ) (hu : Spec.InEquilibrium flags energy û l 0 u)
    (hu' : Spec.InEquilibrium flags energy û l 0 u') : u = u' := by
  obtain ⟨h1, h2, E, h3, h4⟩ := hu
  obtain ⟨h1', h2', E', h3', h4'⟩ := hu'
  by_contra hne
  have hlt : ∀ {i : Nat}, flags[i]? = some true → i < flags.length := fun h => (List.getElem?_eq_some_iff.1 h).1
  let v := listOf flags.length fun i => (u'.getD i 0 - u.getD i 0) / 2
  let x := listOf flags.length fun i => (u'.getD i 0 + u.getD i 0) / 2
  have hv : v.length = flags.length := listOf_length _ _
  have hx : x.length = flags.length := listOf_length _ _
  have hvd : ∀ i < flags.length, v.getD i 0 = (u'.getD i 0 - u.getD i 0) / 2 := fun i hi => listOf_getD _ _ hi
  have hxd : ∀ i < flags.length, x.getD i 0 = (u'.getD i 0 + u.getD i 0) / 2 := fun i hi => listOf_getD _ _ hi
  have hp : Spec.line x v 1 = u' := by
    apply List.ext_getElem?
    intro i
    by_cases hi : i < flags.length
    · rw [line_getElem x v 1 (by omega) (by omega), getElem?_eq_getD (by omega), hvd i hi, hxd i hi]
      congr 1; ring
    · rw [List.getElem?_eq_none (by rw [line_length x v 1 (by omega)]; omega), List.getElem?_eq_none (by omega)]
  have hm : Spec.line x v (-1) = u := by
    apply List.ext_getElem?
    intro i
    by_cases hi : i < flags.length
    · rw [line_getElem x v (-1) (by omega) (by omega), getElem?_eq_getD (by omega), hvd i hi, hxd i hi]
      congr 1; ring
    · rw [List.getElem?_eq_none (by rw [line_length x v (-1) (by omega)]; omega), List.getElem?_eq_none (by omega)]
  have hg : ∀ {i : Nat}, flags[i]? = some true → u.getD i 0 = l * û i ∧ u'.getD i 0 = l * û i := by
    intro i hi
    rw [List.getD_eq_getElem?_getD, List.getD_eq_getElem?_getD, h2 i hi, h2' i hi]
    exact ⟨rfl, rfl⟩
  obtain ⟨p, q, r, e1, e2, e3, e4⟩ := hs x v hx hv (fun i hi => by
      rw [getElem?_eq_getD (hv ▸ hlt hi), hvd i (hlt hi), (hg hi).1, (hg hi).2]; simp) (by
      by_contra hc
      push Not at hc
      apply hne
      rw [← hp, ← hm]
      apply List.ext_getElem?
      intro i
      by_cases hi : i < flags.length
      · have h0 : v.getD i 0 = 0 := by
          have : v.getD i 0 ∈ v := by
            have hi' : i < v.length := by omega
            rw [List.getD_eq_getElem?_getD, List.getElem?_eq_getElem hi']
            exact List.getElem_mem hi'
          exact hc _ this
        rw [line_getElem x v 1 (by omega) (by omega), line_getElem x v (-1) (by omega) (by omega), h0]
        simp
      · rw [List.getElem?_eq_none (by rw [line_length x v _ (by omega)]; omega),
          List.getElem?_eq_none (by rw [line_length x v _ (by omega)]; omega)])
  rw [hp, h3'] at e1
  rw [hm, h3] at e2
  cases e1
  cases e2
  have hxc : ∀ i : Nat, flags[i]? = some true → x[i]? = some (l * û i) := by
    intro i hi
    rw [getElem?_eq_getD (hx ▸ hlt hi), hxd i (hlt hi), (hg hi).1, (hg hi).2]
    congr 1; ring
  obtain ⟨r1, f1, f2⟩ := h4 x hx hxc
  obtain ⟨r2, f3, f4⟩ := h4' x hx hxc
  rw [e3] at f1 f3
  cases f1
  cases f3
  linarith

/-- C94, options. Two analyses of the same supported structure which differ in the option (Full or Reduced), the linear
solver, the settings or the bound requirement end with the same displacements if their solvers make at least one iteration. -/
theorem linear_same_result {a b : Analysis} {û : Nat → ℝ} (ha : Spec.ProperLinear a û) (hb : Spec.ProperLinear b û)
    (hdv : b.dv = a.dv) (hel : b.elems = a.elems) (hsa : Spec.Settings a.settings 1) (hsb : Spec.Settings b.settings 1)
    (hma : 1 ≤ a.settings.minIter) (hmb : 1 ≤ b.settings.minIter)
    (hsup : ∀ l, Spec.Supported a.dv.flags (a.system l).scalar?)
    (n : Nat) (hn : 0 < n) (tbegin tend l0 : ℝ) {x0 : List ℝ} (hx0 : x0.length = a.dv.flags.length)
    (hc0 : ∀ i : Nat, a.dv.flags[i]? = some true → x0[i]? = some (l0 * û i))
    (hz : ∀ k : Nat, 0 < k → k ≤ n → l0 + k * ((tend - tbegin) / n) = 0 → ∀ i < a.dv.flags.length, û i = 0) :
    ∃ ra rb, a.loadControl? n tbegin tend ⟨l0, some x0⟩ = some ra ∧ b.loadControl? n tbegin tend ⟨l0, some x0⟩ = some rb ∧
      ra.info.success = true ∧ rb.info.success = true ∧ ra.dom = rb.dom := by
  obtain ⟨ra, ua, a1, a2, a3, a4, -, a5⟩ := linear_load_control ha hsa n hn tbegin tend l0 hx0 hc0 hz
  obtain ⟨rb, ub, b1, b2, b3, b4, -, b5⟩ := linear_load_control hb hsb n hn tbegin tend l0 (by rw [hdv]; exact hx0)
    (by rw [hdv]; exact hc0) (by rw [hdv]; exact hz)
  have hsys : ∀ l, b.system l = a.system l := fun l => by unfold Analysis.system; rw [hdv, hel]
  refine ⟨ra, rb, a1, b1, a2, b2, ?_⟩
  obtain ⟨ia, hia⟩ : ∃ i, ra.info.solverInfos[n]? = some i := ⟨_, List.getElem?_eq_getElem (by omega)⟩
  obtain ⟨ib, hib⟩ : ∃ i, rb.info.solverInfos[n]? = some i := ⟨_, List.getElem?_eq_getElem (by omega)⟩
  obtain ⟨-, a6, -, a7⟩ := (a5 n le_rfl).2 ia hia
  obtain ⟨-, b6, -, b7⟩ := (b5 n le_rfl).2 ib hib
  have b8 := b7 (by omega)
  rw [hsys, hdv] at b8
  rw [a4, b4, equilibrium_unique _ _ _ _ (hsup _) _ _ (a7 (by omega)) b8]

end Ikarus
