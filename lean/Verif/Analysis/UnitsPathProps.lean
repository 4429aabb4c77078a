import Verif.Analysis.UnitsProps

/-!
C117, Newton's method and load control of structures in other units of length and force.
-/

namespace Ikarus

open Matrix Element Element.Spec Assembler

variable {s c : ℝ}

/-! ### Specification -/

/-- At the displacements in other units, residual and stiffness are those in other units. -/
def Spec.UnitSystems (s c : ℝ) (A B : System) : Prop :=
  (∀ x, B.rawVector? (Spec.scaledList s x) = (A.rawVector? x).map (Spec.scaledList c)) ∧
    ∀ x, B.rawMatrix? (Spec.scaledList s x) = (A.rawMatrix? x).map (Spec.scaledMatrix (c / s))

/-- The two solves ended alike, with norms of residuals in the two units of force. -/
def Spec.UnitInfo (c : ℝ) (i i' : SolverInfo ℝ) : Prop :=
  i'.success = i.success ∧ i'.iterations = i.iterations ∧ i'.residualNorm = i.residualNorm.map (c * ·)

/-- The states have the same load factor, and the displacements in the two units of length. -/
def Spec.UnitState (s : ℝ) (x x' : Dom ℝ (Option (List ℝ))) : Prop :=
  x'.lam = x.lam ∧ ∃ u, x.x = some u ∧ x'.x = some (Spec.scaledList s u)

/-- The same structure, analysed in two systems of units: `s` is the factor of lengths, `c` that of forces. The tolerance of Newton's
method is a force. -/
structure Spec.UnitAnalyses (s c : ℝ) (a b : Analysis) (û : Nat → ℝ) : Prop where
  length : 0 < s
  force : 0 < c
  proper : Spec.Proper a û
  proper' : Spec.Proper b fun i => s * û i
  flags : b.dv.flags = a.dv.flags
  minIter : b.settings.minIter = a.settings.minIter
  maxIter : b.settings.maxIter = a.settings.maxIter
  tol : b.settings.tol = c * a.settings.tol
  bound : a.bound = none ∨ ∀ i < a.dv.flags.length, û i = 0
  bound' : b.bound = none ∨ ∀ i < a.dv.flags.length, û i = 0
  solver : Spec.ExactSolver a.linSolve
  solver' : Spec.ExactSolver b.linSolve
  systems : ∀ l, Spec.UnitSystems s c (a.system l) (b.system l)

/-! ### Lemmas -/

theorem scaledList_length (k : ℝ) (x : List ℝ) : (Spec.scaledList k x).length = x.length := List.length_map _

theorem scaledList_ext {k : ℝ} {x y : List ℝ} {n : Nat} (hx : x.length = n) (hy : y.length = n)
    (h : ∀ i < n, y.getD i 0 = k * x.getD i 0) : y = Spec.scaledList k x := by
  refine List.ext_getElem? fun i => ?_
  by_cases hi : i < n
  · rw [getElem?_eq_getD (hy ▸ hi), h i hi, ← scaledList_getD, ← getElem?_eq_getD (by rw [scaledList_length, hx]; exact hi)]
  · rw [List.getElem?_eq_none (by omega), List.getElem?_eq_none (by rw [scaledList_length]; omega)]

theorem regular_units {flags : List Bool} {K : DMat ℝ} {k : ℝ} (hk : k ≠ 0) (hreg : Spec.RegularStiffness flags K) :
    Spec.RegularStiffness flags (Spec.scaledMatrix k K) := by
  intro v hv hs hz
  refine hreg v hv hs fun i hi => ?_
  have h := hz i hi
  rw [Analysis.times_eq _ hv] at h ⊢
  have e : ∑ j ∈ Finset.range flags.length, (Spec.scaledMatrix k K).val i j * v.getD j 0 =
      k * ∑ j ∈ Finset.range flags.length, K.val i j * v.getD j 0 := by
    rw [Finset.mul_sum]
    exact Finset.sum_congr rfl fun j _ => mul_assoc _ _ _
  rw [e] at h
  exact (mul_eq_zero.1 h).resolve_left hk

theorem correction_units {flags : List Bool} {K : DMat ℝ} {r D : List ℝ} (hs : s ≠ 0) (h : Spec.Correction flags K r D) :
    Spec.Correction flags (Spec.scaledMatrix (c / s) K) (Spec.scaledList c r) (Spec.scaledList s D) := by
  refine ⟨fun i hi hf => by rw [scaledList_getD, h.1 i hi hf, mul_zero], fun i hi => ?_⟩
  have e : ∑ j ∈ Finset.range flags.length, (Spec.scaledMatrix (c / s) K).val i j * (Spec.scaledList s D).getD j 0 =
      c * ∑ j ∈ Finset.range flags.length, K.val i j * D.getD j 0 := by
    rw [Finset.mul_sum]
    refine Finset.sum_congr rfl fun j _ => ?_
    rw [scaledList_getD]
    show c / s * K.val i j * (s * _) = _
    field_simp
  rw [e, scaledList_getD, ← mul_add, h.2 i hi, mul_zero]

theorem norm_units {flags : List Bool} (o o' : DBCOption) {r : List ℝ} (hr : r.length = flags.length) (hc : 0 ≤ c) :
    Analysis.norm (some (view o' flags (Spec.scaledList c r))) = c * Analysis.norm (some (view o flags r)) := by
  rw [norm_view _ _ _ hr, norm_view _ _ _ (by rw [scaledList_length, hr])]
  have e : freeSq flags ((Spec.scaledList c r).getD · 0) = c ^ 2 * freeSq flags (r.getD · 0) := by
    unfold freeSq
    rw [Finset.mul_sum]
    refine Finset.sum_congr rfl fun i _ => ?_
    simp only [scaledList_getD]
    try split
    all_goals ring
  rw [e, Real.sqrt_mul (sq_nonneg c), Real.sqrt_sq hc]

theorem synced_units (hs : s ≠ 0) (û : Nat → ℝ) (l : ℝ) (i : Nat) (v : ℝ) :
    Analysis.synced (fun i => s * û i) l i (s * v) = s * Analysis.synced û l i v := by
  unfold Analysis.synced
  have e : l * (s * û i) = s * (l * û i) := by ring
  rw [e]
  by_cases h : l * û i = 0
  · simp [h]
  · rw [if_pos h, if_pos (mul_ne_zero hs h)]

namespace Analysis

variable {a b : Analysis} {û : Nat → ℝ}

theorem first_units (h : Spec.UnitAnalyses s c a b û) (l t : ℝ) {x : List ℝ} (hx : x.length = a.dv.flags.length) :
    ∃ R : List ℝ, R.length = a.dv.flags.length ∧ Spec.firstResidual a.problem ⟨l, some x⟩ t = some (view a.option a.dv.flags R) ∧
      Spec.firstResidual b.problem ⟨l, some (Spec.scaledList s x)⟩ t = some (view b.option a.dv.flags (Spec.scaledList c R)) := by
  obtain ⟨R, r, K, h1, h2, h3, h4, h5, h6⟩ := first_newton h.proper h.bound l t hx
  obtain ⟨R', r', K', g1, g2, g3, g4, g5, g6⟩ := first_newton h.proper' (h.bound'.imp id fun hz i hi => by
    rw [hz i (h.flags ▸ hi), mul_zero]) l t (u := Spec.scaledList s x) (by rw [scaledList_length, h.flags, hx])
  rw [h.flags] at g1 g2 g4 g6
  rw [(h.systems l).1, h3] at g3
  rw [(h.systems l).2, h5] at g5
  obtain rfl := Option.some.inj g3
  obtain rfl := Option.some.inj g5
  have hs := h.length.ne'
  obtain rfl := scaledList_ext (k := c) h2 g2 fun i hi => by
    rw [g6 i hi, h6 i hi, scaledList_getD, mul_add, mul_left_comm c t]
    congr 2
    rw [Finset.mul_sum]
    refine Finset.sum_congr rfl fun j _ => ?_
    show c / s * K.val i j * (s * û j) = _
    field_simp
  exact ⟨R, h2, h1, g1⟩

theorem step_units (h : Spec.UnitAnalyses s c a b û) {l : ℝ} {x R : List ℝ} (hx : x.length = a.dv.flags.length)
    (hR : R.length = a.dv.flags.length) (hreg : Spec.RegularHere a ⟨l, some x⟩) :
    ∃ y : List ℝ, y.length = a.dv.flags.length ∧
      Spec.newtonStep a.problem ⟨l, some x⟩ (some (view a.option a.dv.flags R)) = ⟨l, some y⟩ ∧
      Spec.newtonStep b.problem ⟨l, some (Spec.scaledList s x)⟩ (some (view b.option a.dv.flags (Spec.scaledList c R))) =
        ⟨l, some (Spec.scaledList s y)⟩ := by
  obtain ⟨-, -, K, -, -, -, -, hK, -⟩ := first_newton h.proper h.bound l 0 hx
  have hK' := (h.systems l).2 x
  rw [hK, Option.map_some] at hK'
  have hreg := hreg x K rfl hx hK
  have hs := h.length.ne'
  have hreg' : Spec.RegularStiffness b.dv.flags (Spec.scaledMatrix (c / s) K) := by
    rw [h.flags]
    exact regular_units (div_ne_zero h.force.ne' hs) hreg
  obtain ⟨y, D, h1, h2, h3, h4, h5⟩ := step_exact h.proper hx hK (solves_of_regular h.proper.option h.solver hK hreg) hR
  obtain ⟨y', D', g1, g2, g3, g4, g5⟩ := step_exact h.proper' (R := Spec.scaledList c R) (u := Spec.scaledList s x)
    (by rw [scaledList_length, h.flags, hx]) hK' (solves_of_regular h.proper'.option h.solver' hK' hreg')
    (by rw [scaledList_length, h.flags, hR])
  rw [h.flags] at g1 g2 g3 g4 g5 hreg'
  obtain rfl := correction_unique hreg' (by rw [scaledList_length, h3]) g3 (correction_units hs h4) g4
  obtain rfl := scaledList_ext (k := s) h2 g2 fun i hi => by
    rw [g5 i hi, h5 i hi, scaledList_getD, scaledList_getD, ← mul_add, synced_units hs]
  exact ⟨y, h2, h1, g1⟩

theorem iterates_units (h : Spec.UnitAnalyses s c a b û) {l : ℝ} (t : ℝ) {x : List ℝ} (hx : x.length = a.dv.flags.length) (n : Nat)
    (hreg : ∀ j < n, Spec.RegularHere a (Spec.newtonIterates a.problem ⟨l, some x⟩ t j).1) :
    ∃ y R : List ℝ, y.length = a.dv.flags.length ∧ R.length = a.dv.flags.length ∧
      Spec.newtonIterates a.problem ⟨l, some x⟩ t n = (⟨l, some y⟩, some (view a.option a.dv.flags R)) ∧
      Spec.newtonIterates b.problem ⟨l, some (Spec.scaledList s x)⟩ t n =
        (⟨l, some (Spec.scaledList s y)⟩, some (view b.option a.dv.flags (Spec.scaledList c R))) := by
  induction n with
  | zero =>
    obtain ⟨R, h1, h2, h3⟩ := first_units h l t hx
    refine ⟨x, R, hx, h1, ?_, ?_⟩
    · rw [← h2]; rfl
    · rw [← h3]; rfl
  | succ n ih =>
    obtain ⟨y, R, h1, h2, h3, h4⟩ := ih fun j hj => hreg j (by omega)
    have hr := hreg n (by omega)
    rw [h3] at hr
    obtain ⟨w, g1, g2, g3⟩ := step_units h h1 h2 hr
    obtain ⟨-, r, K, -, -, e1, e2, -, -⟩ := first_newton h.proper h.bound l 0 g1
    have e1' := (h.systems l).1 w
    rw [e1, Option.map_some] at e1'
    refine ⟨w, r, g1, e2, ?_, ?_⟩
    · have e : Spec.newtonIterates a.problem ⟨l, some x⟩ t (n + 1) =
          (Spec.newtonStep a.problem (Spec.newtonIterates a.problem ⟨l, some x⟩ t n).1 (Spec.newtonIterates a.problem ⟨l, some x⟩ t n).2,
            a.residual? (Spec.newtonStep a.problem (Spec.newtonIterates a.problem ⟨l, some x⟩ t n).1
              (Spec.newtonIterates a.problem ⟨l, some x⟩ t n).2)) := rfl
      rw [e, h3, g2, residual_view a h.proper.option e1]
    · have e : Spec.newtonIterates b.problem ⟨l, some (Spec.scaledList s x)⟩ t (n + 1) =
          (Spec.newtonStep b.problem (Spec.newtonIterates b.problem ⟨l, some (Spec.scaledList s x)⟩ t n).1
              (Spec.newtonIterates b.problem ⟨l, some (Spec.scaledList s x)⟩ t n).2,
            b.residual? (Spec.newtonStep b.problem (Spec.newtonIterates b.problem ⟨l, some (Spec.scaledList s x)⟩ t n).1
              (Spec.newtonIterates b.problem ⟨l, some (Spec.scaledList s x)⟩ t n).2)) := rfl
      rw [e, h4, g3, residual_view b h.proper'.option e1', h.flags]

theorem solve_units (h : Spec.UnitAnalyses s c a b û) {l : ℝ} (t : ℝ) {x : List ℝ} (hx : x.length = a.dv.flags.length)
    (w w' : Option (List ℝ))
    (hreg : ∀ j : Nat, (j : Int) < (a.solver.solve w ⟨l, some x⟩ t).2.2.iterations →
      Spec.RegularHere a (Spec.newtonIterates a.problem ⟨l, some x⟩ t j).1) :
    ∃ y : List ℝ, y.length = a.dv.flags.length ∧ (a.solver.solve w ⟨l, some x⟩ t).2.1 = ⟨l, some y⟩ ∧
      (b.solver.solve w' ⟨l, some (Spec.scaledList s x)⟩ t).2.1 = ⟨l, some (Spec.scaledList s y)⟩ ∧
      Spec.UnitInfo c (a.solver.solve w ⟨l, some x⟩ t).2.2 (b.solver.solve w' ⟨l, some (Spec.scaledList s x)⟩ t).2.2 := by
  obtain ⟨n, ⟨hstop, hfirst⟩, hn, hrun⟩ := newton_run a.problem a.settings ⟨l, some x⟩ t w
  obtain ⟨st, hs, hsx, hsi, hss, hsr, -⟩ := hrun (max 0 (max a.settings.maxIter a.settings.minIter)).toNat (by omega)
  obtain ⟨n', ⟨hstop', hfirst'⟩, hn', hrun'⟩ := newton_run b.problem b.settings ⟨l, some (Spec.scaledList s x)⟩ t w'
  obtain ⟨st', hs', hsx', hsi', hss', hsr', -⟩ := hrun' (max 0 (max b.settings.maxIter b.settings.minIter)).toNat (by omega)
  have e : a.solver.solve w ⟨l, some x⟩ t = (st.correction, st.x, st.info) := by
    show (match a.problem.solve a.settings _ ⟨l, some x⟩ t w with
      | some s => (s.correction, s.x, s.info)
      | none => (w, _, SolverInfo.default)) = _
    rw [hs]
  have e' : b.solver.solve w' ⟨l, some (Spec.scaledList s x)⟩ t = (st'.correction, st'.x, st'.info) := by
    show (match b.problem.solve b.settings _ ⟨l, some (Spec.scaledList s x)⟩ t w' with
      | some s => (s.correction, s.x, s.info)
      | none => (w', _, SolverInfo.default)) = _
    rw [hs']
  rw [e] at hreg ⊢
  rw [e']
  have hreg : ∀ j < n, Spec.RegularHere a (Spec.newtonIterates a.problem ⟨l, some x⟩ t j).1 := fun j hj => hreg j (by
    show (j : Int) < st.info.iterations
    omega)
  have hit := fun j (hj : j ≤ n) => iterates_units h t hx j fun i hi => hreg i (by omega)
  have hst : ∀ j ≤ n, Spec.NewtonStops b.problem b.settings ⟨l, some (Spec.scaledList s x)⟩ t j ↔
      Spec.NewtonStops a.problem a.settings ⟨l, some x⟩ t j := by
    intro j hj
    obtain ⟨y, R, -, hR, h1, h2⟩ := hit j hj
    unfold Spec.NewtonStops
    rw [h1, h2, h.minIter, h.maxIter, h.tol]
    show _ ∧ (_ ∨ decide (norm (some (view b.option a.dv.flags (Spec.scaledList c R))) > _) = false) ↔
      _ ∧ (_ ∨ decide (norm (some (view a.option a.dv.flags R)) > _) = false)
    rw [norm_units a.option _ hR h.force.le, decide_eq_false_iff_not, decide_eq_false_iff_not, gt_iff_lt, gt_iff_lt,
      mul_lt_mul_iff_right₀ h.force]
  obtain rfl : n' = n := by
    rcases Nat.lt_trichotomy n' n with hlt | heq | hgt
    · exact absurd ((hst n' hlt.le).1 hstop') (hfirst n' hlt)
    · exact heq
    · exact absurd ((hst n le_rfl).2 hstop) (hfirst' n hgt)
  obtain ⟨y, R, hy, -, h1, h2⟩ := hit n' le_rfl
  rw [h1] at hsx
  rw [h2] at hsx'
  refine ⟨y, hy, hsx, hsx', ?_, hsi'.trans hsi.symm, ?_⟩
  · rw [Bool.eq_iff_iff, hss, hss', h.maxIter]
  · obtain ⟨-, r, -, -, -, e1, e2, -, -⟩ := first_newton h.proper h.bound l 0 hy
    have e1' := (h.systems l).1 y
    rw [e1, Option.map_some] at e1'
    rw [hsr, hsr', hsx, hsx']
    show some (norm (b.residual? ⟨l, some (Spec.scaledList s y)⟩)) = (some (norm (a.residual? ⟨l, some y⟩))).map _
    rw [residual_view a h.proper.option e1, residual_view b h.proper'.option e1', h.flags, norm_units a.option _ e2 h.force.le]
    rfl

theorem loads_units (h : Spec.UnitAnalyses s c a b û) (step l0 : ℝ) {x : List ℝ} (hx : x.length = a.dv.flags.length) {n : Nat}
    (hreg : ∀ k ≤ n, (∀ i < k, (Spec.loadInfo a.solver step none ⟨l0, some x⟩ i).success = true) →
      Spec.RegularSolve a step ⟨l0, some x⟩ k) :
    ∀ k ≤ n, (∀ i < k, (Spec.loadInfo a.solver step none ⟨l0, some x⟩ i).success = true) →
      ∃ y : List ℝ, y.length = a.dv.flags.length ∧ Spec.loadAfter a.solver step none ⟨l0, some x⟩ k = ⟨l0 + k * step, some y⟩ ∧
        Spec.loadAfter b.solver step none ⟨l0, some (Spec.scaledList s x)⟩ k = ⟨l0 + k * step, some (Spec.scaledList s y)⟩ ∧
        Spec.UnitInfo c (Spec.loadInfo a.solver step none ⟨l0, some x⟩ k)
          (Spec.loadInfo b.solver step none ⟨l0, some (Spec.scaledList s x)⟩ k) := by
  intro k
  induction k with
  | zero =>
    intro hk hs
    obtain ⟨y, h1, h2, h3, h4⟩ := solve_units h 0 hx none none (hreg 0 hk hs)
    rw [Nat.cast_zero, zero_mul, add_zero]
    exact ⟨y, h1, h2, h3, h4⟩
  | succ k ih =>
    intro hk hs
    obtain ⟨y, hy, h1, h2, h5⟩ := ih (by omega) fun i hi => hs i (by omega)
    have hll : l0 + (k : ℝ) * step + step = l0 + ((k + 1 : Nat) : ℝ) * step := by push_cast; ring
    have hy1 : ({ (Spec.loadSolve a.solver step none ⟨l0, some x⟩ k).2.2.1 with
        lam := (Spec.loadSolve a.solver step none ⟨l0, some x⟩ k).2.2.1.lam + step } : Dom ℝ (Option (List ℝ))) =
          ⟨l0 + ((k + 1 : Nat) : ℝ) * step, some y⟩ := by
      have h1 : (Spec.loadSolve a.solver step none ⟨l0, some x⟩ k).2.2.1 = ⟨l0 + k * step, some y⟩ := h1
      rw [h1, ← hll]
    have hy2 : ({ (Spec.loadSolve b.solver step none ⟨l0, some (Spec.scaledList s x)⟩ k).2.2.1 with
        lam := (Spec.loadSolve b.solver step none ⟨l0, some (Spec.scaledList s x)⟩ k).2.2.1.lam + step } : Dom ℝ (Option (List ℝ))) =
          ⟨l0 + ((k + 1 : Nat) : ℝ) * step, some (Spec.scaledList s y)⟩ := by
      have h2 : (Spec.loadSolve b.solver step none ⟨l0, some (Spec.scaledList s x)⟩ k).2.2.1 =
        ⟨l0 + k * step, some (Spec.scaledList s y)⟩ := h2
      rw [h2, ← hll]
    have hr := hreg (k + 1) hk hs
    have hr : ∀ j : Nat, (j : Int) < (a.solver.solve (Spec.loadSolve a.solver step none ⟨l0, some x⟩ k).2.1
        ⟨l0 + ((k + 1 : Nat) : ℝ) * step, some y⟩ step).2.2.iterations →
        Spec.RegularHere a (Spec.newtonIterates a.problem ⟨l0 + ((k + 1 : Nat) : ℝ) * step, some y⟩ step j).1 := fun j hj => by
      rw [← hy1] at hj ⊢
      have := hr j hj
      rwa [if_neg (by omega)] at this
    generalize l0 + ((k + 1 : Nat) : ℝ) * step = l at *
    generalize l0 + (k : ℝ) * step = m at *
    obtain ⟨w, hw, g1, g2, g4⟩ := solve_units h step hy (Spec.loadSolve a.solver step none ⟨l0, some x⟩ k).2.1
      (Spec.loadSolve b.solver step none ⟨l0, some (Spec.scaledList s x)⟩ k).2.1 hr
    have hinf : Spec.loadInfo a.solver step none ⟨l0, some x⟩ (k + 1) =
        (a.solver.solve (Spec.loadSolve a.solver step none ⟨l0, some x⟩ k).2.1 ⟨l, some y⟩ step).2.2 := by rw [← hy1]; rfl
    have hinf' : Spec.loadInfo b.solver step none ⟨l0, some (Spec.scaledList s x)⟩ (k + 1) =
        (b.solver.solve (Spec.loadSolve b.solver step none ⟨l0, some (Spec.scaledList s x)⟩ k).2.1
          ⟨l, some (Spec.scaledList s y)⟩ step).2.2 := by rw [← hy2]; rfl
    have haft : Spec.loadAfter a.solver step none ⟨l0, some x⟩ (k + 1) =
        if (a.solver.solve (Spec.loadSolve a.solver step none ⟨l0, some x⟩ k).2.1 ⟨l, some y⟩ step).2.2.iterations = 0 then
          a.sync (a.solver.solve (Spec.loadSolve a.solver step none ⟨l0, some x⟩ k).2.1 ⟨l, some y⟩ step).2.1 else
          (a.solver.solve (Spec.loadSolve a.solver step none ⟨l0, some x⟩ k).2.1 ⟨l, some y⟩ step).2.1 := by rw [← hy1]; rfl
    have haft' : Spec.loadAfter b.solver step none ⟨l0, some (Spec.scaledList s x)⟩ (k + 1) =
        if (b.solver.solve (Spec.loadSolve b.solver step none ⟨l0, some (Spec.scaledList s x)⟩ k).2.1
            ⟨l, some (Spec.scaledList s y)⟩ step).2.2.iterations = 0 then
          b.sync (b.solver.solve (Spec.loadSolve b.solver step none ⟨l0, some (Spec.scaledList s x)⟩ k).2.1
            ⟨l, some (Spec.scaledList s y)⟩ step).2.1 else
          (b.solver.solve (Spec.loadSolve b.solver step none ⟨l0, some (Spec.scaledList s x)⟩ k).2.1
            ⟨l, some (Spec.scaledList s y)⟩ step).2.1 := by rw [← hy2]; rfl
    rw [haft, haft', hinf, hinf', g4.2.1, g1, g2]
    by_cases h0 : (a.solver.solve (Spec.loadSolve a.solver step none ⟨l0, some x⟩ k).2.1 ⟨l, some y⟩ step).2.2.iterations = 0
    · rw [if_pos h0, if_pos h0]
      obtain ⟨z, z1, z2, z3⟩ := proper_sync h.proper l hw
      obtain ⟨z', z1', z2', z3'⟩ := proper_sync h.proper' (x := Spec.scaledList s w) l (by rw [scaledList_length, h.flags, hw])
      rw [h.flags] at z2' z3'
      obtain rfl := scaledList_ext (k := s) z2 z2' fun i hi => by
        rw [z3' i hi, z3 i hi, scaledList_getD, synced_units h.length.ne']
      exact ⟨z, z2, z1, z1', g4⟩
    · rw [if_neg h0, if_neg h0]
      exact ⟨w, hw, rfl, rfl, g4⟩

theorem solves_units (h : Spec.UnitAnalyses s c a b û) (step l0 : ℝ) {x : List ℝ} (hx : x.length = a.dv.flags.length) {n m m' : Nat}
    (hreg : ∀ k ≤ n, (∀ i < k, (Spec.loadInfo a.solver step none ⟨l0, some x⟩ i).success = true) →
      Spec.RegularSolve a step ⟨l0, some x⟩ k)
    (hm : Spec.SolvesMade a.solver step none ⟨l0, some x⟩ n m)
    (hm' : Spec.SolvesMade b.solver step none ⟨l0, some (Spec.scaledList s x)⟩ n m') :
    m' = m ∧ ((∀ k < n + 1, (Spec.loadInfo b.solver step none ⟨l0, some (Spec.scaledList s x)⟩ k).success = true) ↔
      ∀ k < n + 1, (Spec.loadInfo a.solver step none ⟨l0, some x⟩ k).success = true) := by
  have hl := loads_units h step l0 hx hreg
  obtain ⟨m1, m2, m3, m4⟩ := hm
  obtain ⟨m1', m2', m3', m4'⟩ := hm'
  constructor
  · rcases Nat.lt_trichotomy m' m with hlt | heq | hgt
    · exfalso
      obtain ⟨-, -, -, -, hsi⟩ := hl (m' - 1) (by omega) fun i hi => m3 i (by omega)
      have h1 := m4' (by omega)
      rw [hsi.1, m3 (m' - 1) (by omega)] at h1
      exact Bool.noConfusion h1
    · exact heq
    · exfalso
      obtain ⟨-, -, -, -, hsi⟩ := hl (m - 1) (by omega) fun i hi => m3 i (by omega)
      have h1 := m4 (by omega)
      rw [← hsi.1, m3' (m - 1) (by omega)] at h1
      exact Bool.noConfusion h1
  · constructor
    · intro hb k
      induction k using Nat.strong_induction_on with
      | _ k ih =>
        intro hk
        obtain ⟨-, -, -, -, hsi⟩ := hl k (by omega) fun i hi => ih i hi (by omega)
        rw [← hsi.1]
        exact hb k hk
    · intro ha k hk
      obtain ⟨-, -, -, -, hsi⟩ := hl k (by omega) fun i hi => ha i (by omega)
      rw [hsi.1]
      exact ha k hk

end Analysis

/-! ### Load control -/

/-- C117, load control. The same structure analysed in two systems of units, with the tolerance of Newton's method in the unit of
force, with linear solvers that solve all systems that have solutions, and with regular matrices in the first analysis: load control
makes the same solves with the same numbers of iterations, ends alike, and shows the same load factors and the same displacements in
the two units, whatever option each of the two uses. -/
theorem load_control_units {a b : Analysis} {û : Nat → ℝ} (h : Spec.UnitAnalyses s c a b û) (n : Nat) (hn : 0 < n)
    (tbegin tend l0 : ℝ) {x0 : List ℝ} (hx0 : x0.length = a.dv.flags.length)
    (hreg : ∀ k ≤ n, (∀ i < k, (Spec.loadInfo a.solver ((tend - tbegin) / n) none ⟨l0, some x0⟩ i).success = true) →
      Spec.RegularSolve a ((tend - tbegin) / n) ⟨l0, some x0⟩ k) :
    ∃ ra rb : LCState ℝ (Option (List ℝ)) ℝ (Option (List ℝ)),
      a.loadControl? n tbegin tend ⟨l0, some x0⟩ = some ra ∧
      b.loadControl? n tbegin tend ⟨l0, some (Spec.scaledList s x0)⟩ = some rb ∧
      rb.info.success = ra.info.success ∧ rb.info.totalIterations = ra.info.totalIterations ∧
      List.Forall₂ (Spec.UnitInfo c) ra.info.solverInfos rb.info.solverInfos ∧
      List.Forall₂ (Spec.UnitState s) (Spec.shown ra) (Spec.shown rb) ∧ Spec.UnitState s ra.dom rb.dom := by
  generalize hstep : (tend - tbegin) / (n : ℝ) = step at *
  have hmk : LoadControl.mk? (n : Int) tbegin tend = some ⟨n, step⟩ := by
    unfold LoadControl.mk?
    rw [if_neg (by omega)]
    simp [hstep]
  obtain ⟨m, ls, hm, h1, -, h3, h4, h5, h6⟩ := load_control_run n hn step a.solver none ⟨l0, some x0⟩
  obtain ⟨m', ls', hm', h1', -, h3', h4', h5', h6'⟩ := load_control_run n hn step b.solver none ⟨l0, some (Spec.scaledList s x0)⟩
  obtain ⟨rfl, hsucc⟩ := Analysis.solves_units h step l0 hx0 hreg hm hm'
  have hl := Analysis.loads_units h step l0 hx0 hreg
  obtain ⟨m1, m2, m3, -⟩ := hm
  have hl := fun k (hk : k < m') => hl k (by omega) fun i hi => m3 i (by omega)
  have hdom : ∀ k < m', Spec.UnitState s (Spec.loadAfter a.solver step none ⟨l0, some x0⟩ k)
      (Spec.loadAfter b.solver step none ⟨l0, some (Spec.scaledList s x0)⟩ k) := fun k hk => by
    obtain ⟨y, -, g1, g2, -⟩ := hl k hk
    rw [g1, g2]
    exact ⟨rfl, y, rfl, rfl⟩
  refine ⟨_, _, by unfold Analysis.loadControl?; rw [hmk, Option.map_some], by unfold Analysis.loadControl?; rw [hmk, Option.map_some],
    ?_, ?_, ?_, ?_, ?_⟩
  · rw [Bool.eq_iff_iff, h1, h1', hsucc]
  · rw [h4, h4']
    refine congrArg List.sum (List.map_congr_left fun k hk => ?_)
    obtain ⟨-, -, -, -, g⟩ := hl k (List.mem_range.1 hk)
    exact g.2.1
  · rw [h3, h3', List.forall₂_map_left_iff, List.forall₂_map_right_iff, List.forall₂_same]
    intro k hk
    obtain ⟨-, -, -, -, g⟩ := hl k (List.mem_range.1 hk)
    exact g
  · rw [Analysis.shown_run _ _ _ _ _ _ h6, Analysis.shown_run _ _ _ _ _ _ h6', List.forall₂_map_left_iff, List.forall₂_map_right_iff,
      List.forall₂_same]
    exact fun k hk => hdom k (List.mem_range.1 hk)
  · rw [h5, h5']
    exact hdom (m' - 1) (by omega)

/-! ### A truss in metres and newtons, and in millimetres and kilonewtons -/

/-- The truss in the two systems of units. -/
noncomputable def exampleTrussUnits : Spec.UnitTwin 1000 (1 / 1000) where
  n := 2
  d := 2
  children := [.leaf [0, 1], .leaf [2, 3]]
  index := [0, 2, 1, 3]
  skills := [fun _ => .truss 1 1 ![0, 0] ![1, 0]]
  skills' := [fun _ => .truss ((1 / 1000) / 1000 ^ 2 * 1) (1000 ^ 2 * 1) ((1000 : ℝ) • ![0, 0]) ((1000 : ℝ) • ![1, 0])]
  scaled := .cons (fun _ => truss_scale (by norm_num) 1 1 ![0, 0] ![1, 0]) .nil

/-- The analysis of the truss in millimetres and kilonewtons. -/
noncomputable def trussUnits (option : DBCOption) (settings : NRSettings ℝ) : Analysis :=
  { trussAnalysis option settings with
    dv := ⟨[true, true, false, true], 0,
      [⟨fun l i => if i = 1 then 1000 * l else 0, fun _ i => if i = 1 then 1000 else 0, 0⟩], fun _ => true⟩
    elems := [exampleTrussUnits.second] }

theorem trussUnits_contract (o : DBCOption) (st : NRSettings ℝ) (l : ℝ) (x : List ℝ)
    (hx : x.length = (trussUnits o st).dv.flags.length) : Spec.SystemContract ((trussUnits o st).system l) x := by
  refine ⟨hx, fun e he => ?_⟩
  obtain rfl : e = exampleTrussUnits.second.at l := List.mem_singleton.1 he
  refine ⟨exampleTruss_fits l, fun u _ sk hsk => ?_⟩
  obtain rfl : sk = Skill.truss _ _ _ _ := List.mem_singleton.1 hsk
  exact (truss_skill _ _ _ _ _).1

theorem trussUnits_proper (o : DBCOption) (ho : o ≠ .raw) (st : NRSettings ℝ) :
    Spec.Proper (trussUnits o st) fun i => 1000 * trussSupport i where
  option := ho
  elems e he l := by
    obtain rfl : e = exampleTrussUnits.second := List.mem_singleton.1 he
    refine ⟨exampleTruss_fits l, fun s hs => ?_⟩
    obtain rfl : s = fun _ => Skill.truss _ _ _ _ := List.mem_singleton.1 hs
    exact (truss_skill _ _ _ _ 0).2
  prescribed := by
    refine ⟨fun l i _ => ?_, fun i _ => ?_, fun i hi hne => ?_⟩
    · simp [Spec.prescribed, Spec.total, trussUnits, trussSupport, mul_comm]
    · simp [Spec.total, trussUnits, trussSupport]
    · have : i = 1 := by
        by_contra h
        refine hne ?_
        simp [trussSupport, h]
      subst this
      rfl
  force := Or.inl rfl
  alive _ _ := rfl
  bound _ h := absurd h (by simp [trussUnits, trussAnalysis])
  linSolve l x hx A hA := by
    obtain ⟨-, -, K, -, hK, -⟩ := assembled_consistent _ _ (trussUnits_contract o st l x hx)
    exact inverseSolve_answers (trussUnits o st) l x ho K hK A hA

/-- 400 load steps of the truss whose end is moved across its axis, in metres and newtons with the option Full and in millimetres and
kilonewtons with the option Reduced. -/
example : ∃ ra rb : LCState ℝ (Option (List ℝ)) ℝ (Option (List ℝ)),
    (trussAnalysis .full { tol := 1 / 10 ^ 8, maxIter := 20, minIter := 0 }).loadControl? 400 0 (1 / 2) ⟨0, some [0, 0, 0, 0]⟩ = some ra ∧
    (trussUnits .reduced { tol := 1 / 1000 * (1 / 10 ^ 8), maxIter := 20, minIter := 0 }).loadControl? 400 0 (1 / 2)
      ⟨0, some (Spec.scaledList 1000 [0, 0, 0, 0])⟩ = some rb ∧
    rb.info.success = ra.info.success ∧ rb.info.totalIterations = ra.info.totalIterations ∧
    List.Forall₂ (Spec.UnitInfo (1 / 1000)) ra.info.solverInfos rb.info.solverInfos ∧
    List.Forall₂ (Spec.UnitState 1000) (Spec.shown ra) (Spec.shown rb) ∧ Spec.UnitState 1000 ra.dom rb.dom := by
  have hU : Spec.UnitAnalyses 1000 (1 / 1000) (trussAnalysis .full { tol := 1 / 10 ^ 8, maxIter := 20, minIter := 0 })
      (trussUnits .reduced { tol := 1 / 1000 * (1 / 10 ^ 8), maxIter := 20, minIter := 0 }) trussSupport :=
    { length := by norm_num, force := by norm_num, proper := trussAnalysis_proper .full (by decide) _
      proper' := trussUnits_proper .reduced (by decide) _, flags := rfl, minIter := rfl, maxIter := rfl, tol := rfl
      bound := Or.inl rfl, bound' := Or.inl rfl, solver := inverseSolve_exactSolver, solver' := inverseSolve_exactSolver
      systems := fun l => by
        have := assembled_units [true, true, false, true] [exampleTrussUnits] l
        exact ⟨this.rawVector, this.rawMatrix⟩ }
  have hz : ∀ k : Nat, 0 < k → k ≤ 400 → (0 : ℝ) + k * ((1 / 2 - 0) / (400 : ℕ)) = 0 → ∀ i < 4, trussSupport i = 0 := by
    intro k hk _ h0
    have : (0 : ℝ) < k := by exact_mod_cast hk
    norm_num at h0
    omega
  refine load_control_units hU 400 (by norm_num) 0 (1 / 2) 0 rfl fun k hk _ => ?_
  refine Analysis.follows_regular (trussAnalysis_proper .full (by decide) _) (Or.inl rfl) (truss_path .full (by decide) _) (delta := 1 / 72)
    (by norm_num) (by norm_num) (m := 5) (by norm_num) (by norm_num [trussAnalysis]) (by norm_num [trussAnalysis])
    (by norm_num [trussAnalysis]) _ 0 ?_ trussAnalysis_start (by simp [trussPath, Spec.distance]) 400 (fun k hk => ?_) hz k hk
  · norm_num [trussAnalysis, abs_of_nonneg]
  · have : (k : ℝ) ≤ 400 := by exact_mod_cast hk
    norm_num
    linarith

end Ikarus
