import Verif.Analysis.NonlinearLemmas

/-!
Property C96: what a successful analysis with load control means for nonlinear structures.
-/

namespace Ikarus

open Ikarus.Element Ikarus.Element.Spec

variable {n d : Nat}

/-! ### Specification -/

/-- The length of a direction. -/
noncomputable def Spec.size (v : List ℝ) : ℝ := Real.sqrt (v.map fun a => a * a).sum

/-- The state `u` is a stationary point of the energy up to `tol`: along every direction `v` that keeps the constrained dofs
the energy has a derivative, which is at most `tol` times the length of `v`. -/
def Spec.Stationary (flags : List Bool) (energy : List ℝ → Option ℝ) (tol : ℝ) (u : List ℝ) : Prop :=
  ∀ v : List ℝ, v.length = flags.length → (∀ i : Nat, flags[i]? = some true → v[i]? = some 0) →
    (∀ t, (energy (Spec.line u v t)).isSome) ∧
    ∃ D, HasDerivAt (fun t => (energy (Spec.line u v t)).getD 0) D 0 ∧ |D| ≤ tol * Spec.size v

/-- The constrained dofs have the values prescribed for the load factor `l`. -/
def Spec.OnSupports (flags : List Bool) (û : Nat → ℝ) (l : ℝ) (u : List ℝ) : Prop :=
  u.length = flags.length ∧ ∀ i : Nat, flags[i]? = some true → u[i]? = some (l * û i)

/-- The state a listener is shown by the message that the solution has changed. -/
def Spec.solutionOf {V : Type} : CEvent ℝ V → Option (Dom ℝ V)
  | .notify .solutionChanged x _ _ => some x
  | _ => none

/-- The states a listener to load control is shown as solutions of the load steps. -/
def Spec.shown {V N W : Type} (r : LCState ℝ V N W) : List (Dom ℝ V) := r.trace.filterMap Spec.solutionOf

/-- The claim as a user would read it: all states load control shows after successful solves are stationary. -/
def Spec.SuccessIsStationary : Prop :=
  ∀ (a : Analysis) (û : Nat → ℝ), Spec.Proper a û → 0 ≤ a.settings.minIter → a.settings.minIter ≤ a.settings.maxIter →
    (∀ l x, x.length = a.dv.flags.length → Spec.SystemContract (a.system l) x) →
    ∀ (n : Nat), 0 < n → ∀ (tbegin tend l0 : ℝ) (x0 : List ℝ), Spec.OnSupports a.dv.flags û l0 x0 →
    (∀ k : Nat, 0 < k → k ≤ n → l0 + k * ((tend - tbegin) / n) ≠ 0) →
    ∀ r, a.loadControl? n tbegin tend ⟨l0, some x0⟩ = some r → r.info.success = true →
      ∀ x ∈ Spec.shown r, ∃ u, x.x = some u ∧ Spec.Stationary a.dv.flags (a.system x.lam).scalar? a.settings.tol u

/-! ### From residuals to derivatives -/

theorem stationary_of_residual (s : System) (tol : ℝ) {u r : List ℝ} (h : Spec.SystemContract s u)
    (hr : s.rawVector? u = some r) (hrl : r.length = s.flags.length)
    (hn : Real.sqrt (freeSq s.flags (r.getD · 0)) ≤ tol) : Spec.Stationary s.flags s.scalar? tol u := by
  obtain ⟨h1, r', _, h2, _, h3⟩ := assembled_consistent s u h
  obtain rfl : r = r' := Option.some.inj (hr.symm.trans h2)
  intro v hv hv0
  refine ⟨fun t => (h1 _ (by rw [line_length u v t (h.1.trans hv.symm), h.1])).1, _, (h3 v hv).1, ?_⟩
  have hz : ∀ i < s.flags.length, ¬ Spec.Free s.flags i → v.getD i 0 = 0 := by
    intro i hi hf
    rw [List.getD_eq_getElem?_getD, hv0 i ((not_free_iff hi).1 hf), Option.getD_some]
  have hsum : ∀ f : Nat → ℝ, ∑ i ∈ Finset.range s.flags.length, f i * v.getD i 0 =
      ∑ i ∈ (Finset.range s.flags.length).filter (fun i => Spec.Free s.flags i), f i * v.getD i 0 := by
    intro f
    rw [Finset.sum_filter]
    refine Finset.sum_congr rfl fun i hi => ?_
    split
    · rfl
    · rw [hz i (Finset.mem_range.1 hi) ‹_›, mul_zero]
  have hsize : Spec.size v = Real.sqrt (freeSq s.flags (v.getD · 0)) := by
    unfold Spec.size freeSq
    congr 1
    rw [← hsum, list_sum_getD, List.length_map, hv]
    refine Finset.sum_congr rfl fun i _ => ?_
    simp only [List.getD_eq_getElem?_getD, List.getElem?_map]
    cases v[i]? <;> simp
  have hcs : (∑ i ∈ (Finset.range s.flags.length).filter (fun i => Spec.Free s.flags i), r.getD i 0 * v.getD i 0) ^ 2 ≤
      freeSq s.flags (r.getD · 0) * freeSq s.flags (v.getD · 0) := by
    have := Finset.sum_mul_sq_le_sq_mul_sq ((Finset.range s.flags.length).filter (fun i => Spec.Free s.flags i))
      (r.getD · 0) (v.getD · 0)
    simpa only [freeSq, ← sq] using this
  have hn1 : 0 ≤ freeSq s.flags (r.getD · 0) := Finset.sum_nonneg fun i _ => mul_self_nonneg _
  rw [dotL_eq_sum _ _ s.flags.length hrl hv, hsum]
  calc _ ≤ Real.sqrt (freeSq s.flags (r.getD · 0) * freeSq s.flags (v.getD · 0)) := Real.abs_le_sqrt hcs
    _ = Real.sqrt (freeSq s.flags (r.getD · 0)) * Spec.size v := by rw [Real.sqrt_mul hn1, hsize]
    _ ≤ tol * Spec.size v := mul_le_mul_of_nonneg_right hn (Real.sqrt_nonneg _)

/-! ### All solves -/

open Analysis in
/-- All solves of a run. -/
theorem solves_proper {a : Analysis} {û : Nat → ℝ} (h : Spec.Proper a û) (hmin : 0 ≤ a.settings.minIter)
    (hmax : a.settings.minIter ≤ a.settings.maxIter) (step l0 : ℝ) {x0 : List ℝ} (hx0 : Spec.OnSupports a.dv.flags û l0 x0)
    (w : Option (List ℝ)) (n : Nat) (hk : ∀ j < n, l0 + ((j : ℝ) + 1) * step = 0 → ∀ i < a.dv.flags.length, û i = 0) :
    ∃ us : Nat → List ℝ, ∀ k ≤ n,
      Spec.loadAfter a.solver step w ⟨l0, some x0⟩ k = ⟨l0 + k * step, some (us k)⟩ ∧
      Spec.OnSupports a.dv.flags û (l0 + k * step) (us k) ∧
      ((Spec.loadInfo a.solver step w ⟨l0, some x0⟩ k).success = true →
        (k = 0 ∨ 0 < (Spec.loadInfo a.solver step w ⟨l0, some x0⟩ k).iterations ∨ ∀ i < a.dv.flags.length, û i = 0) →
        ∃ r : List ℝ, (a.system (l0 + k * step)).rawVector? (us k) = some r ∧ r.length = a.dv.flags.length ∧
          Real.sqrt (freeSq a.dv.flags (r.getD · 0)) ≤ a.settings.tol) ∧
      (0 < k → (Spec.loadInfo a.solver step w ⟨l0, some x0⟩ k).iterations = 0 →
        (∀ i < a.dv.flags.length, (us k).getD i 0 = (us (k - 1)).getD i 0 + step * û i) ∧
        ((Spec.loadInfo a.solver step w ⟨l0, some x0⟩ k).success = true → a.bound = none →
          ∃ (r : List ℝ) (K : DMat ℝ), (a.system (l0 + k * step)).rawVector? (us (k - 1)) = some r ∧
            (a.system (l0 + k * step)).rawMatrix? (us (k - 1)) = some K ∧
            Real.sqrt (freeSq a.dv.flags fun i => r.getD i 0 +
              step * ∑ j ∈ Finset.range a.dv.flags.length, K.val i j * û j) ≤ a.settings.tol)) := by
  -- one state after the other
  have hstep : ∀ k, ∃ u, Spec.loadAfter a.solver step w ⟨l0, some x0⟩ k = ⟨l0 + k * step, some u⟩ ∧
      u.length = a.dv.flags.length := by
    intro k
    induction k with
    | zero =>
      obtain ⟨w', y, r, info, k, s1, -, s3, -⟩ := solve_proper h hmin hmax l0 0 hx0.1 w
      refine ⟨y, ?_, s3⟩
      have hlam : l0 + ((0 : Nat) : ℝ) * step = l0 := by simp
      rw [hlam]
      show (a.solver.solve w ⟨l0, some x0⟩ 0).2.1 = _
      rw [s1]
    | succ k ih =>
      obtain ⟨u, i1, i2⟩ := ih
      generalize hl : l0 + ((k + 1 : Nat) : ℝ) * step = l
      have hll : l0 + (k : ℝ) * step + step = l := by rw [← hl]; push_cast; ring
      obtain ⟨w', y, r, info, kk, s1, s2, s3, -⟩ := solve_proper h hmin hmax l step i2
        (Spec.loadSolve a.solver step w ⟨l0, some x0⟩ k).2.1
      have hy1 : ({ (Spec.loadSolve a.solver step w ⟨l0, some x0⟩ k).2.2.1 with
          lam := (Spec.loadSolve a.solver step w ⟨l0, some x0⟩ k).2.2.1.lam + step } : Dom ℝ (Option (List ℝ))) = ⟨l, some u⟩ := by
        have h1 : (Spec.loadSolve a.solver step w ⟨l0, some x0⟩ k).2.2.1 = ⟨l0 + k * step, some u⟩ := i1
        rw [h1, ← hll]
      obtain ⟨z, z1, z2, z3⟩ := proper_sync h l s3
      refine ⟨if info.iterations = 0 then z else y, ?_, by split <;> assumption⟩
      show (if (a.solver.solve (Spec.loadSolve a.solver step w ⟨l0, some x0⟩ k).2.1 _ step).2.2.iterations = 0 then
        a.sync (a.solver.solve (Spec.loadSolve a.solver step w ⟨l0, some x0⟩ k).2.1 _ step).2.1 else
        (a.solver.solve (Spec.loadSolve a.solver step w ⟨l0, some x0⟩ k).2.1 _ step).2.1) = _
      rw [hy1, s1]
      show (if info.iterations = 0 then a.sync ⟨l, some y⟩ else ⟨l, some y⟩) = _
      rw [z1]
      split <;> rfl
  choose us hus husl using hstep
  refine ⟨us, fun k => ?_⟩
  induction k with
  | zero =>
    intro _
    obtain ⟨w', y, r, info, k, s1, s2, s3, s4, s5, s6, s7⟩ := solve_proper h hmin hmax l0 0 hx0.1 w
    have hlam : l0 + ((0 : Nat) : ℝ) * step = l0 := by simp
    have h0 := hus 0
    rw [hlam] at h0 ⊢
    have haft : Spec.loadAfter a.solver step w ⟨l0, some x0⟩ 0 = ⟨l0, some y⟩ := by
      show (a.solver.solve w ⟨l0, some x0⟩ 0).2.1 = _
      rw [s1]
    have hinf : Spec.loadInfo a.solver step w ⟨l0, some x0⟩ 0 = info := by
      show (a.solver.solve w ⟨l0, some x0⟩ 0).2.2 = _
      rw [s1]
    have hyu : us 0 = y := by
      rw [haft] at h0
      injection h0 with _ h0
      exact (Option.some.inj h0).symm
    have hlt : ∀ {i : Nat}, a.dv.flags[i]? = some true → i < a.dv.flags.length := fun h => (List.getElem?_eq_some_iff.1 h).1
    refine ⟨h0, ⟨husl 0, fun i hi => ?_⟩, fun hsucc _ => ?_, fun h => absurd h (lt_irrefl 0)⟩
    · rw [hyu]
      rcases Nat.eq_zero_or_pos k with hk0 | hk0
      · rw [(s6 hk0).1]; exact hx0.2 i hi
      · have := (s7 hk0).1 i (hlt hi) ((not_free_iff (hlt hi)).2 hi)
        rw [getElem?_eq_getD (s3 ▸ hlt hi), this, List.getD_eq_getElem?_getD, hx0.2 i hi, Option.getD_some]
        unfold synced
        split <;> rfl
    · rw [hinf] at hsucc
      rw [hyu]
      refine ⟨r, s4, s5, ?_⟩
      rcases Nat.eq_zero_or_pos k with hk0 | hk0
      · obtain ⟨-, K, -, h1⟩ := s6 hk0
        have h1 := h1 hsucc
        simp only [zero_mul, add_zero] at h1
        exact h1
      · exact (s7 hk0).2 hsucc
  | succ k ih =>
    intro hkn
    obtain ⟨i1, ⟨i2, i3⟩, -⟩ := ih (by omega)
    have hn := hus (k + 1)
    generalize hl : l0 + ((k + 1 : Nat) : ℝ) * step = l at *
    have hll : l0 + (k : ℝ) * step + step = l := by rw [← hl]; push_cast; ring
    have hlt : ∀ {i : Nat}, a.dv.flags[i]? = some true → i < a.dv.flags.length := fun h => (List.getElem?_eq_some_iff.1 h).1
    have hc : ∀ i < a.dv.flags.length, ¬ Spec.Free a.dv.flags i → (us k).getD i 0 = (l0 + k * step) * û i := by
      intro i hi hf
      rw [List.getD_eq_getElem?_getD, i3 i ((not_free_iff hi).1 hf), Option.getD_some]
    have hsy : ∀ i < a.dv.flags.length, ¬ Spec.Free a.dv.flags i → synced û l i ((us k).getD i 0) = l * û i := by
      intro i hi hf
      unfold synced
      split
      · rfl
      · rename_i h0
        push Not at h0
        rw [hc i hi hf, h0]
        rcases mul_eq_zero.1 h0 with h1 | h1
        · rw [hk k (by omega) (by rw [← h1, ← hl]; push_cast; ring) i hi, mul_zero]
        · rw [h1, mul_zero]
    have hgood : ∀ i < a.dv.flags.length, ¬ Spec.Free a.dv.flags i →
        synced û l i ((us k).getD i 0) = (us k).getD i 0 + step * û i := by
      intro i hi hf
      rw [hsy i hi hf, hc i hi hf, ← hll]; ring
    obtain ⟨w', y, r, info, kk, s1, s2, s3, s4, s5, s6, s7⟩ := solve_proper h hmin hmax l step i2
      (Spec.loadSolve a.solver step w ⟨l0, some x0⟩ k).2.1
    have hy1 : ({ (Spec.loadSolve a.solver step w ⟨l0, some x0⟩ k).2.2.1 with
        lam := (Spec.loadSolve a.solver step w ⟨l0, some x0⟩ k).2.2.1.lam + step } : Dom ℝ (Option (List ℝ))) = ⟨l, some (us k)⟩ := by
      have h1 : (Spec.loadSolve a.solver step w ⟨l0, some x0⟩ k).2.2.1 = ⟨l0 + k * step, some (us k)⟩ := i1
      rw [h1, ← hll]
    have hinf : Spec.loadInfo a.solver step w ⟨l0, some x0⟩ (k + 1) = info := by
      show (a.solver.solve (Spec.loadSolve a.solver step w ⟨l0, some x0⟩ k).2.1 _ step).2.2 = _
      rw [hy1, s1]
    obtain ⟨z, z1, z2, z3⟩ := proper_sync h l s3
    have haft : Spec.loadAfter a.solver step w ⟨l0, some x0⟩ (k + 1) = ⟨l, some (if kk = 0 then z else y)⟩ := by
      show (if (a.solver.solve (Spec.loadSolve a.solver step w ⟨l0, some x0⟩ k).2.1 _ step).2.2.iterations = 0 then
        a.sync (a.solver.solve (Spec.loadSolve a.solver step w ⟨l0, some x0⟩ k).2.1 _ step).2.1 else
        (a.solver.solve (Spec.loadSolve a.solver step w ⟨l0, some x0⟩ k).2.1 _ step).2.1) = _
      rw [hy1, s1]
      show (if info.iterations = 0 then a.sync ⟨l, some y⟩ else ⟨l, some y⟩) = _
      rw [s2, z1]
      by_cases h0 : kk = 0
      · rw [if_pos (by omega), if_pos h0]
      · rw [if_neg (by omega), if_neg h0]
    have hu : us (k + 1) = if kk = 0 then z else y := by
      rw [haft] at hn
      injection hn with _ hn
      exact (Option.some.inj hn).symm
    rw [hinf, Nat.add_sub_cancel]
    have hul : (us (k + 1)).length = a.dv.flags.length := husl (k + 1)
    have hzk : kk = 0 → ∀ i < a.dv.flags.length, (us (k + 1)).getD i 0 = (us k).getD i 0 + step * û i := by
      intro h0 i hi
      rw [hu, if_pos h0, z3 i hi, (s6 h0).1]
      by_cases hf : Spec.Free a.dv.flags i
      · unfold synced
        rw [proper_free_zero h hf, mul_zero, mul_zero, if_neg (by simp), add_zero]
      · exact hgood i hi hf
    refine ⟨hn, ⟨hul, fun i hi => ?_⟩, fun hsucc hor => ?_, fun _ hit => ?_⟩
    · rw [getElem?_eq_getD (hul ▸ hlt hi)]
      have hf := (not_free_iff (hlt hi)).2 hi
      by_cases h0 : kk = 0
      · rw [hzk h0 i (hlt hi), ← hgood i (hlt hi) hf, hsy i (hlt hi) hf]
      · rw [hu, if_neg h0, (s7 (by omega)).1 i (hlt hi) hf, hsy i (hlt hi) hf]
    · rcases hor with h0 | h0 | h0
      · omega
      · rw [hu, if_neg (by omega)]
        exact ⟨r, s4, s5, (s7 (by omega)).2 hsucc⟩
      · by_cases hkk : kk = 0
        · have he : us (k + 1) = y := by
            rw [(s6 hkk).1]
            apply List.ext_getElem?
            intro i
            by_cases hi : i < a.dv.flags.length
            · rw [getElem?_eq_getD (hul ▸ hi), getElem?_eq_getD (i2 ▸ hi), hzk hkk i hi, h0 i hi, mul_zero, add_zero]
            · rw [List.getElem?_eq_none (by omega), List.getElem?_eq_none (by omega)]
          rw [he]
          refine ⟨r, s4, s5, ?_⟩
          obtain ⟨-, K, -, h1⟩ := s6 hkk
          have h1 := h1 hsucc
          rw [freeSq_congr (R' := (r.getD · 0)) fun i hi => ?_] at h1
          · exact h1
          · rw [Finset.sum_eq_zero fun j hj => by rw [h0 j (Finset.mem_range.1 hj), mul_zero], mul_zero, add_zero]
        · rw [hu, if_neg hkk]
          exact ⟨r, s4, s5, (s7 (by omega)).2 hsucc⟩
    · have hkk : kk = 0 := by omega
      refine ⟨hzk hkk, fun hsucc hb => ?_⟩
      obtain ⟨hyk, K, hK, h1⟩ := s6 hkk
      rw [hyk] at s4
      exact ⟨r, K, s4, hK hb, h1 hsucc⟩

/-! ### Load control -/

/-- C96. Load control of structures with elements of any kind, Full or Reduced, with a linear solver of any quality: the
listeners are shown one state per solve made; all of them have the prescribed displacements of their load factor; and the
states after successful solves are stationary points of the energy up to the tolerance of the solver if the solver made an
iteration, if it is the first solve or if no displacements are prescribed.  In the remaining case, a later solve without
iteration with prescribed displacements, the free dofs are left alone, the constrained ones are moved, and the tolerance
bounds the forces at the state before, extrapolated by the stiffness, not those at the state which is shown. -/
theorem nonlinear_load_control_partial {a : Analysis} {û : Nat → ℝ} (h : Spec.Proper a û) (hmin : 0 ≤ a.settings.minIter)
    (hmax : a.settings.minIter ≤ a.settings.maxIter) (n : Nat) (hn : 0 < n) (tbegin tend l0 : ℝ) {x0 : List ℝ}
    (hx0 : Spec.OnSupports a.dv.flags û l0 x0)
    (hz : ∀ k : Nat, 0 < k → k ≤ n → l0 + k * ((tend - tbegin) / n) = 0 → ∀ i < a.dv.flags.length, û i = 0) :
    ∃ (r : LCState ℝ (Option (List ℝ)) ℝ (Option (List ℝ))) (us : Nat → List ℝ),
      a.loadControl? n tbegin tend ⟨l0, some x0⟩ = some r ∧ 0 < r.info.solverInfos.length ∧
      r.info.solverInfos.length ≤ n + 1 ∧
      ((r.info.success = true ↔ r.info.solverInfos.length = n + 1 ∧ ∀ info ∈ r.info.solverInfos, info.success = true) ∧
        (r.info.solverInfos.length ≤ n → ∃ info, r.info.solverInfos.getLast? = some info ∧ info.success = false)) ∧
      Spec.shown r = (List.range r.info.solverInfos.length).map
        (fun k : Nat => ⟨l0 + k * ((tend - tbegin) / n), some (us k)⟩) ∧
      (Spec.shown r).getLast? = some r.dom ∧
      ∀ (k : Nat) (info : SolverInfo ℝ), r.info.solverInfos[k]? = some info →
        Spec.OnSupports a.dv.flags û (l0 + k * ((tend - tbegin) / n)) (us k) ∧
        (info.success = true → (k = 0 ∨ 0 < info.iterations ∨ ∀ i < a.dv.flags.length, û i = 0) →
          Spec.SystemContract (a.system (l0 + k * ((tend - tbegin) / n))) (us k) →
          Spec.Stationary a.dv.flags (a.system (l0 + k * ((tend - tbegin) / n))).scalar? a.settings.tol (us k)) ∧
        (0 < k → info.iterations = 0 →
          (∀ i < a.dv.flags.length, (us k).getD i 0 = (us (k - 1)).getD i 0 + (tend - tbegin) / n * û i) ∧
          (info.success = true → a.bound = none →
            ∃ (f : List ℝ) (K : DMat ℝ), (a.system (l0 + k * ((tend - tbegin) / n))).rawVector? (us (k - 1)) = some f ∧
              (a.system (l0 + k * ((tend - tbegin) / n))).rawMatrix? (us (k - 1)) = some K ∧
              Real.sqrt (∑ i ∈ (Finset.range a.dv.flags.length).filter (fun i => Spec.Free a.dv.flags i),
                (f.getD i 0 + (tend - tbegin) / n * ∑ j ∈ Finset.range a.dv.flags.length, K.val i j * û j) ^ 2) ≤
                a.settings.tol)) := by
  generalize hstep : (tend - tbegin) / (n : ℝ) = step at *
  have hmk : LoadControl.mk? (n : Int) tbegin tend = some ⟨n, step⟩ := by
    unfold LoadControl.mk?
    rw [if_neg (by omega)]
    simp [hstep]
  obtain ⟨us, hus⟩ := solves_proper h hmin hmax step l0 hx0 none n fun j hj h0 =>
    hz (j + 1) (by omega) (by omega) (by rw [← h0]; push_cast; ring)
  obtain ⟨m, ls, hm, h1, h2, h3, -, h5, h6⟩ := load_control_run n hn step a.solver none ⟨l0, some x0⟩
  obtain ⟨m1, m2, m3, m4⟩ := hm
  generalize hr : (LoadControl.mk (n : Int) step).run a.solver none ⟨l0, some x0⟩ = r at *
  have hlen : r.info.solverInfos.length = m := by rw [h3]; simp
  have hshown : Spec.shown r = (List.range m).map (fun k : Nat => ⟨l0 + k * step, some (us k)⟩) := by
    unfold Spec.shown
    rw [h6, List.cons_append, List.filterMap_cons_none rfl, List.filterMap_append, List.filterMap_flatMap]
    have hend : ((if r.info.success = true then [CEvent.notify .controlEnded r.dom ls step] else []).filterMap Spec.solutionOf) = ([] : List (Dom ℝ (Option (List ℝ)))) := by split <;> rfl
    rw [hend, List.append_nil]
    have hev : ∀ k, ((Spec.loadEvents a.solver step none ⟨l0, some x0⟩ k).filterMap Spec.solutionOf) = [Spec.loadAfter a.solver step none ⟨l0, some x0⟩ k] := by
      intro k
      cases k <;> rfl
    rw [List.flatMap_congr fun k _ => hev k, ← List.map_eq_flatMap]
    refine List.map_congr_left fun k hk => (hus k ?_).1
    have := List.mem_range.1 hk
    omega
  refine ⟨r, us, ?_, by omega, by omega, ?_, by rw [hshown, hlen], ?_, fun k info hi => ?_⟩
  · unfold Analysis.loadControl?
    rw [hmk, Option.map_some, hr]
  · rw [hlen]
    refine ⟨⟨fun hs => ?_, ?_⟩, fun hle => ⟨_, ?_, m4 hle⟩⟩
    · refine ⟨h2 hs, fun info hi => ?_⟩
      rw [h3] at hi
      obtain ⟨k, hk, rfl⟩ := List.mem_map.1 hi
      have := List.mem_range.1 hk
      exact h1.1 hs k (by omega)
    · rintro ⟨hmn, hall⟩
      refine h1.2 fun k hk => hall _ ?_
      rw [h3]
      exact List.mem_map.2 ⟨k, List.mem_range.2 (by omega), rfl⟩
    · rw [h3, List.getLast?_map]
      obtain ⟨m', rfl⟩ : ∃ m', m = m' + 1 := ⟨m - 1, by omega⟩
      rw [List.range_succ, List.getLast?_concat, Option.map_some, Nat.add_sub_cancel]
  · rw [hshown, h5, (hus (m - 1) (by omega)).1]
    obtain ⟨m', rfl⟩ : ∃ m', m = m' + 1 := ⟨m - 1, by omega⟩
    rw [List.range_succ, List.map_append, List.map_singleton, List.getLast?_concat, Nat.add_sub_cancel]
  · have hkm : k < m := by
      rw [← hlen]
      exact (List.getElem?_eq_some_iff.1 hi).1
    have hi' : info = Spec.loadInfo a.solver step none ⟨l0, some x0⟩ k := by
      rw [h3, List.getElem?_map, List.getElem?_range hkm] at hi
      exact (Option.some.inj hi).symm
    rw [hi']
    obtain ⟨-, g1, g2, g3⟩ := hus k (by omega)
    refine ⟨g1, fun hs hor hcon => ?_, fun hk hit => ⟨(g3 hk hit).1, fun hs hb => ?_⟩⟩
    · obtain ⟨f, f1, f2, f3⟩ := g2 hs hor
      exact stationary_of_residual (a.system (l0 + k * step)) a.settings.tol hcon f1 f2 f3
    · obtain ⟨f, K, f1, f2, f3⟩ := (g3 hk hit).2 hs hb
      refine ⟨f, K, f1, f2, ?_⟩
      simpa only [freeSq, ← sq] using f3

end Ikarus
