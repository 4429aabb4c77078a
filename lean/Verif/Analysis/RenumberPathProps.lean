import Verif.Analysis.RenumberProps

/-!
C119, Newton's method and load control of structures with renumbered dofs and reordered elements.
-/

namespace Ikarus

open Matrix Element Element.Spec Assembler

variable {π : Equiv.Perm Nat}

/-! ### Specification -/

/-- The element whose basis has the new numbers. -/
def Spec.renumberedParam (π : Equiv.Perm Nat) (e : ParamElem) : ParamElem := ⟨e.n, e.d, e.children, e.index.map π, e.skills⟩

/-- The states have the same load factor, and the displacements of the second are those of the first, renumbered. -/
def Spec.RenumberedState (π : Equiv.Perm Nat) (x x' : Dom ℝ (Option (List ℝ))) : Prop :=
  x'.lam = x.lam ∧ ∃ u, x.x = some u ∧ x'.x = some (Spec.renumbered π u)

/-- The same structure, analysed with two numberings of the dofs and two orders of the elements. -/
structure Spec.RenumberedAnalyses (π : Equiv.Perm Nat) (a b : Analysis) (û û' : Nat → ℝ) : Prop where
  renumbers : Spec.Renumbers π a.dv.flags.length
  flags : Spec.RenumberedFlags π a.dv.flags b.dv.flags
  elems : b.elems.Perm (a.elems.map (Spec.renumberedParam π))
  prescribed : ∀ i, û' (π i) = û i
  proper : Spec.Proper a û
  proper' : Spec.Proper b û'
  minIter : b.settings.minIter = a.settings.minIter
  maxIter : b.settings.maxIter = a.settings.maxIter
  tol : b.settings.tol = a.settings.tol
  bound : a.bound = none ∨ ∀ i < a.dv.flags.length, û i = 0
  bound' : b.bound = none ∨ ∀ i < a.dv.flags.length, û' i = 0
  solver : Spec.ExactSolver a.linSolve
  solver' : Spec.ExactSolver b.linSolve

/-! ### Lemmas -/

theorem sum_renumber {n : Nat} (h : Spec.Renumbers π n) (f : Nat → ℝ) : ∑ j ∈ Finset.range n, f j = ∑ j ∈ Finset.range n, f (π j) :=
  (Finset.sum_equiv π (fun i => by simp only [Finset.mem_range, h i]) fun _ _ => rfl).symm

theorem times_renumber {n : Nat} (h : Spec.Renumbers π n) (K : DMat ℝ) (x : Nat → ℝ) (i : Nat) :
    ∑ j ∈ Finset.range n, (Spec.renumberedMatrix π K).val (π i) j * x j = ∑ j ∈ Finset.range n, K.val i j * x (π j) := by
  rw [sum_renumber h]
  refine Finset.sum_congr rfl fun j _ => ?_
  show K.val (π.symm (π i)) (π.symm (π j)) * _ = _
  rw [Equiv.symm_apply_apply, Equiv.symm_apply_apply]

theorem free_renumber {fl fl' : List Bool} (hf : Spec.RenumberedFlags π fl fl') (i : Nat) : Spec.Free fl' (π i) ↔ Spec.Free fl i := by
  unfold Spec.Free
  rw [hf.2]

section
variable {fl fl' : List Bool} (hπ : Spec.Renumbers π fl.length) (hf : Spec.RenumberedFlags π fl fl')
include hπ hf

theorem regular_renumber {K : DMat ℝ} (hreg : Spec.RegularStiffness fl K) : Spec.RegularStiffness fl' (Spec.renumberedMatrix π K) := by
  intro v hv hs hz i hi
  have hv' : v.length = fl.length := hv.trans hf.1
  have hw : (Spec.renumbered π.symm v).length = fl.length := by rw [renumbered_length, hv']
  have hπv : Spec.Renumbers π.symm v.length := hv'.symm ▸ hπ.symm
  have hg : ∀ j, (Spec.renumbered π.symm v).getD j 0 = v.getD (π j) 0 := fun j => by
    rw [List.getD_eq_getElem?_getD, renumbered_get' v hπv, Equiv.symm_symm, List.getD_eq_getElem?_getD]
  have := hreg (Spec.renumbered π.symm v) hw (fun j hj => ?_) (fun j hj => ?_) (π.symm i) ((hπ.symm i).2 (hf.1 ▸ hi))
  · rw [hg, Equiv.apply_symm_apply] at this
    exact this
  · rw [renumbered_get' v hπv, Equiv.symm_symm, hs _ (by rw [hf.2, hj])]
  · have h := hz (π j) ((free_renumber hf j).2 hj)
    rw [Analysis.times_eq _ hv] at h
    rw [hf.1, times_renumber hπ] at h
    rw [Analysis.times_eq _ hw]
    simpa only [hg] using h

theorem correction_renumber {K : DMat ℝ} {r D : List ℝ} (hr : r.length = fl.length) (hD : D.length = fl.length)
    (h : Spec.Correction fl K r D) :
    Spec.Correction fl' (Spec.renumberedMatrix π K) (Spec.renumbered π r) (Spec.renumbered π D) := by
  refine ⟨fun i hi hn => ?_, fun i hi => ?_⟩
  · obtain ⟨j, rfl⟩ := π.surjective i
    rw [renumbered_getD D (hD.symm ▸ hπ), h.1 j ((hπ j).1 (hf.1 ▸ hi)) (mt (free_renumber hf j).2 hn)]
  · obtain ⟨j, rfl⟩ := π.surjective i
    rw [hf.1, times_renumber hπ, renumbered_getD r (hr.symm ▸ hπ)]
    simp only [renumbered_getD D (hD.symm ▸ hπ)]
    exact h.2 j ((free_renumber hf j).1 hi)

theorem norm_renumber (o o' : DBCOption) {r : List ℝ} (hr : r.length = fl.length) :
    Analysis.norm (some (view o' fl' (Spec.renumbered π r))) = Analysis.norm (some (view o fl r)) := by
  rw [norm_view _ _ _ hr, norm_view _ _ _ (by rw [renumbered_length, hr, hf.1])]
  congr 1
  unfold freeSq
  rw [Finset.sum_filter, Finset.sum_filter, hf.1, sum_renumber hπ]
  refine Finset.sum_congr rfl fun i _ => ?_
  simp only [free_renumber hf, renumbered_getD r (hr.symm ▸ hπ)]

end

theorem synced_renumber {û û' : Nat → ℝ} (h : ∀ i, û' (π i) = û i) (l : ℝ) (i : Nat) (v : ℝ) :
    Analysis.synced û' l (π i) v = Analysis.synced û l i v := by
  unfold Analysis.synced
  rw [h]

theorem Spec.RenumberedAnalyses.systems {a b : Analysis} {û û' : Nat → ℝ} (h : Spec.RenumberedAnalyses π a b û û') (l : ℝ) :
    Spec.SameStructure π (a.system l) (b.system l) := by
  refine ⟨h.renumbers, h.flags, ?_⟩
  show (b.elems.map (·.at l)).Perm ((a.elems.map (·.at l)).map _)
  have := h.elems.map (·.at l)
  rw [List.map_map] at this ⊢
  exact this

namespace Analysis

variable {a b : Analysis} {û û' : Nat → ℝ}

theorem first_renumber (h : Spec.RenumberedAnalyses π a b û û') (l t : ℝ) {x : List ℝ} (hx : x.length = a.dv.flags.length) :
    ∃ R : List ℝ, R.length = a.dv.flags.length ∧ Spec.firstResidual a.problem ⟨l, some x⟩ t = some (view a.option a.dv.flags R) ∧
      Spec.firstResidual b.problem ⟨l, some (Spec.renumbered π x)⟩ t = some (view b.option b.dv.flags (Spec.renumbered π R)) := by
  obtain ⟨R, r, K, h1, h2, h3, h4, h5, h6⟩ := first_newton h.proper h.bound l t hx
  obtain ⟨R', r', K', g1, g2, g3, g4, g5, g6⟩ := first_newton h.proper' (h.bound'.imp id fun hz i hi => hz i (h.flags.1 ▸ hi)) l t
    (u := Spec.renumbered π x) (by rw [renumbered_length, h.flags.1, hx])
  rw [h.flags.1] at g2 g4 g6
  obtain ⟨-, s1, s2⟩ := assembled_renumbered (h.systems l) hx
  rw [s1, h3] at g3
  rw [s2, h5] at g5
  obtain rfl := Option.some.inj g3
  obtain rfl := Option.some.inj g5
  obtain rfl := renumbered_ext h2 g2 h.renumbers fun i hi => by
    rw [g6 _ ((h.renumbers i).2 hi), h6 i hi, renumbered_getD r (h4.symm ▸ h.renumbers), times_renumber h.renumbers]
    simp only [h.prescribed]
  exact ⟨R, h2, h1, g1⟩

theorem step_renumber (h : Spec.RenumberedAnalyses π a b û û') {l : ℝ} {x R : List ℝ} (hx : x.length = a.dv.flags.length)
    (hR : R.length = a.dv.flags.length) (hreg : Spec.RegularHere a ⟨l, some x⟩) :
    ∃ y : List ℝ, y.length = a.dv.flags.length ∧
      Spec.newtonStep a.problem ⟨l, some x⟩ (some (view a.option a.dv.flags R)) = ⟨l, some y⟩ ∧
      Spec.newtonStep b.problem ⟨l, some (Spec.renumbered π x)⟩ (some (view b.option b.dv.flags (Spec.renumbered π R))) =
        ⟨l, some (Spec.renumbered π y)⟩ := by
  obtain ⟨-, -, K, -, -, -, -, hK, -⟩ := first_newton h.proper h.bound l 0 hx
  have hK' := (assembled_renumbered (h.systems l) hx).2.2
  rw [hK, Option.map_some] at hK'
  have hreg := hreg x K rfl hx hK
  have hreg' : Spec.RegularStiffness b.dv.flags (Spec.renumberedMatrix π K) := regular_renumber h.renumbers h.flags hreg
  obtain ⟨y, D, h1, h2, h3, h4, h5⟩ := step_exact h.proper hx hK (solves_of_regular h.proper.option h.solver hK hreg) hR
  obtain ⟨y', D', g1, g2, g3, g4, g5⟩ := step_exact h.proper' (R := Spec.renumbered π R) (u := Spec.renumbered π x)
    (by rw [renumbered_length, h.flags.1, hx]) hK' (solves_of_regular h.proper'.option h.solver' hK' hreg')
    (by rw [renumbered_length, h.flags.1, hR])
  obtain rfl := correction_unique hreg' (by rw [renumbered_length, h3, h.flags.1]) g3 (correction_renumber h.renumbers h.flags hR h3 h4) g4
  rw [h.flags.1] at g2 g5
  obtain rfl := renumbered_ext h2 g2 h.renumbers fun i hi => by
    rw [g5 _ ((h.renumbers i).2 hi), h5 i hi, renumbered_getD x (hx.symm ▸ h.renumbers), renumbered_getD D (h3.symm ▸ h.renumbers),
      synced_renumber h.prescribed]
  exact ⟨y, h2, h1, g1⟩

theorem iterates_renumber (h : Spec.RenumberedAnalyses π a b û û') {l : ℝ} (t : ℝ) {x : List ℝ} (hx : x.length = a.dv.flags.length) (n : Nat)
    (hreg : ∀ j < n, Spec.RegularHere a (Spec.newtonIterates a.problem ⟨l, some x⟩ t j).1) :
    ∃ y R : List ℝ, y.length = a.dv.flags.length ∧ R.length = a.dv.flags.length ∧
      Spec.newtonIterates a.problem ⟨l, some x⟩ t n = (⟨l, some y⟩, some (view a.option a.dv.flags R)) ∧
      Spec.newtonIterates b.problem ⟨l, some (Spec.renumbered π x)⟩ t n =
        (⟨l, some (Spec.renumbered π y)⟩, some (view b.option b.dv.flags (Spec.renumbered π R))) := by
  induction n with
  | zero =>
    obtain ⟨R, h1, h2, h3⟩ := first_renumber h l t hx
    refine ⟨x, R, hx, h1, ?_, ?_⟩
    · rw [← h2]; rfl
    · rw [← h3]; rfl
  | succ n ih =>
    obtain ⟨y, R, h1, h2, h3, h4⟩ := ih fun j hj => hreg j (by omega)
    have hr := hreg n (by omega)
    rw [h3] at hr
    obtain ⟨w, g1, g2, g3⟩ := step_renumber h h1 h2 hr
    obtain ⟨-, r, K, -, -, e1, e2, -, -⟩ := first_newton h.proper h.bound l 0 g1
    have e1' := (assembled_renumbered (h.systems l) g1).2.1
    rw [e1, Option.map_some] at e1'
    refine ⟨w, r, g1, e2, ?_, ?_⟩
    · have e : Spec.newtonIterates a.problem ⟨l, some x⟩ t (n + 1) =
          (Spec.newtonStep a.problem (Spec.newtonIterates a.problem ⟨l, some x⟩ t n).1 (Spec.newtonIterates a.problem ⟨l, some x⟩ t n).2,
            a.residual? (Spec.newtonStep a.problem (Spec.newtonIterates a.problem ⟨l, some x⟩ t n).1
              (Spec.newtonIterates a.problem ⟨l, some x⟩ t n).2)) := rfl
      rw [e, h3, g2, residual_view a h.proper.option e1]
    · have e : Spec.newtonIterates b.problem ⟨l, some (Spec.renumbered π x)⟩ t (n + 1) =
          (Spec.newtonStep b.problem (Spec.newtonIterates b.problem ⟨l, some (Spec.renumbered π x)⟩ t n).1
              (Spec.newtonIterates b.problem ⟨l, some (Spec.renumbered π x)⟩ t n).2,
            b.residual? (Spec.newtonStep b.problem (Spec.newtonIterates b.problem ⟨l, some (Spec.renumbered π x)⟩ t n).1
              (Spec.newtonIterates b.problem ⟨l, some (Spec.renumbered π x)⟩ t n).2)) := rfl
      rw [e, h4, g3, residual_view b h.proper'.option e1']

theorem solve_renumber (h : Spec.RenumberedAnalyses π a b û û') {l : ℝ} (t : ℝ) {x : List ℝ} (hx : x.length = a.dv.flags.length)
    (w w' : Option (List ℝ))
    (hreg : ∀ j : Nat, (j : Int) < (a.solver.solve w ⟨l, some x⟩ t).2.2.iterations →
      Spec.RegularHere a (Spec.newtonIterates a.problem ⟨l, some x⟩ t j).1) :
    ∃ y : List ℝ, y.length = a.dv.flags.length ∧ (a.solver.solve w ⟨l, some x⟩ t).2.1 = ⟨l, some y⟩ ∧
      (b.solver.solve w' ⟨l, some (Spec.renumbered π x)⟩ t).2.1 = ⟨l, some (Spec.renumbered π y)⟩ ∧
      Spec.SameInfo (a.solver.solve w ⟨l, some x⟩ t).2.2 (b.solver.solve w' ⟨l, some (Spec.renumbered π x)⟩ t).2.2 := by
  obtain ⟨n, ⟨hstop, hfirst⟩, hn, hrun⟩ := newton_run a.problem a.settings ⟨l, some x⟩ t w
  obtain ⟨st, hs, hsx, hsi, hss, hsr, -⟩ := hrun (max 0 (max a.settings.maxIter a.settings.minIter)).toNat (by omega)
  obtain ⟨n', ⟨hstop', hfirst'⟩, hn', hrun'⟩ := newton_run b.problem b.settings ⟨l, some (Spec.renumbered π x)⟩ t w'
  obtain ⟨st', hs', hsx', hsi', hss', hsr', -⟩ := hrun' (max 0 (max b.settings.maxIter b.settings.minIter)).toNat (by omega)
  have e : a.solver.solve w ⟨l, some x⟩ t = (st.correction, st.x, st.info) := by
    show (match a.problem.solve a.settings _ ⟨l, some x⟩ t w with
      | some s => (s.correction, s.x, s.info)
      | none => (w, _, SolverInfo.default)) = _
    rw [hs]
  have e' : b.solver.solve w' ⟨l, some (Spec.renumbered π x)⟩ t = (st'.correction, st'.x, st'.info) := by
    show (match b.problem.solve b.settings _ ⟨l, some (Spec.renumbered π x)⟩ t w' with
      | some s => (s.correction, s.x, s.info)
      | none => (w', _, SolverInfo.default)) = _
    rw [hs']
  rw [e] at hreg ⊢
  rw [e']
  have hreg : ∀ j < n, Spec.RegularHere a (Spec.newtonIterates a.problem ⟨l, some x⟩ t j).1 := fun j hj => hreg j (by
    show (j : Int) < st.info.iterations
    omega)
  have hit := fun j (hj : j ≤ n) => iterates_renumber h t hx j fun i hi => hreg i (by omega)
  have hst : ∀ j ≤ n, Spec.NewtonStops b.problem b.settings ⟨l, some (Spec.renumbered π x)⟩ t j ↔
      Spec.NewtonStops a.problem a.settings ⟨l, some x⟩ t j := by
    intro j hj
    obtain ⟨y, R, -, hR, h1, h2⟩ := hit j hj
    unfold Spec.NewtonStops
    rw [h1, h2, h.minIter, h.maxIter, h.tol]
    show _ ∧ (_ ∨ decide (norm (some (view b.option b.dv.flags (Spec.renumbered π R))) > _) = false) ↔
      _ ∧ (_ ∨ decide (norm (some (view a.option a.dv.flags R)) > _) = false)
    rw [norm_renumber h.renumbers h.flags a.option _ hR]
  obtain rfl : n' = n := by
    rcases Nat.lt_trichotomy n' n with hlt | heq | hgt
    · exact absurd ((hst n' hlt.le).1 hstop') (hfirst n' hlt)
    · exact heq
    · exact absurd ((hst n le_rfl).2 hstop) (hfirst' n hgt)
  obtain ⟨y, R, hy, -, h1, h2⟩ := hit n' le_rfl
  rw [h1] at hsx
  rw [h2] at hsx'
  refine ⟨y, hy, hsx, hsx', ?_, hsi'.trans hsi.symm, ?_⟩
  · rw [Bool.eq_iff_iff, hss, hss', h.maxIter]
  · obtain ⟨-, r, -, -, -, e1, e2, -, -⟩ := first_newton h.proper h.bound l 0 hy
    have e1' := (assembled_renumbered (h.systems l) hy).2.1
    rw [e1, Option.map_some] at e1'
    rw [hsr, hsr', hsx, hsx']
    show some (norm (b.residual? ⟨l, some (Spec.renumbered π y)⟩)) = some (norm (a.residual? ⟨l, some y⟩))
    rw [residual_view a h.proper.option e1, residual_view b h.proper'.option e1', norm_renumber h.renumbers h.flags a.option _ e2]

theorem loads_renumber (h : Spec.RenumberedAnalyses π a b û û') (step l0 : ℝ) {x : List ℝ} (hx : x.length = a.dv.flags.length) {n : Nat}
    (hreg : ∀ k ≤ n, (∀ i < k, (Spec.loadInfo a.solver step none ⟨l0, some x⟩ i).success = true) →
      Spec.RegularSolve a step ⟨l0, some x⟩ k) :
    ∀ k ≤ n, (∀ i < k, (Spec.loadInfo a.solver step none ⟨l0, some x⟩ i).success = true) →
      ∃ y : List ℝ, y.length = a.dv.flags.length ∧ Spec.loadAfter a.solver step none ⟨l0, some x⟩ k = ⟨l0 + k * step, some y⟩ ∧
        Spec.loadAfter b.solver step none ⟨l0, some (Spec.renumbered π x)⟩ k = ⟨l0 + k * step, some (Spec.renumbered π y)⟩ ∧
        Spec.SameInfo (Spec.loadInfo a.solver step none ⟨l0, some x⟩ k)
          (Spec.loadInfo b.solver step none ⟨l0, some (Spec.renumbered π x)⟩ k) := by
  intro k
  induction k with
  | zero =>
    intro hk hs
    obtain ⟨y, h1, h2, h3, h4⟩ := solve_renumber h 0 hx none none (hreg 0 hk hs)
    rw [Nat.cast_zero, zero_mul, add_zero]
    exact ⟨y, h1, h2, h3, h4⟩
  | succ k ih =>
    intro hk hs
    obtain ⟨y, hy, h1, h2, h5⟩ := ih (by omega) fun i hi => hs i (by omega)
    have hll : l0 + (k : ℝ) * step + step = l0 + ((k + 1 : Nat) : ℝ) * step := by push_cast; ring
    have hy1 : ({ (Spec.loadSolve a.solver step none ⟨l0, some x⟩ k).2.2.1 with
        lam := (Spec.loadSolve a.solver step none ⟨l0, some x⟩ k).2.2.1.lam + step } : Dom ℝ (Option (List ℝ))) =
          ⟨l0 + ((k + 1 : Nat) : ℝ) * step, some y⟩ := by
      have h1 : (Spec.loadSolve a.solver step none ⟨l0, some x⟩ k).2.2.1 = ⟨l0 + k * step, some y⟩ := h1
      rw [h1, ← hll]
    have hy2 : ({ (Spec.loadSolve b.solver step none ⟨l0, some (Spec.renumbered π x)⟩ k).2.2.1 with
        lam := (Spec.loadSolve b.solver step none ⟨l0, some (Spec.renumbered π x)⟩ k).2.2.1.lam + step } : Dom ℝ (Option (List ℝ))) =
          ⟨l0 + ((k + 1 : Nat) : ℝ) * step, some (Spec.renumbered π y)⟩ := by
      have h2 : (Spec.loadSolve b.solver step none ⟨l0, some (Spec.renumbered π x)⟩ k).2.2.1 =
        ⟨l0 + k * step, some (Spec.renumbered π y)⟩ := h2
      rw [h2, ← hll]
    have hr := hreg (k + 1) hk hs
    have hr : ∀ j : Nat, (j : Int) < (a.solver.solve (Spec.loadSolve a.solver step none ⟨l0, some x⟩ k).2.1
        ⟨l0 + ((k + 1 : Nat) : ℝ) * step, some y⟩ step).2.2.iterations →
        Spec.RegularHere a (Spec.newtonIterates a.problem ⟨l0 + ((k + 1 : Nat) : ℝ) * step, some y⟩ step j).1 := fun j hj => by
      rw [← hy1] at hj ⊢
      have := hr j hj
      rwa [if_neg (by omega)] at this
    generalize l0 + ((k + 1 : Nat) : ℝ) * step = l at *
    generalize l0 + (k : ℝ) * step = m at *
    obtain ⟨w, hw, g1, g2, g4⟩ := solve_renumber h step hy (Spec.loadSolve a.solver step none ⟨l0, some x⟩ k).2.1
      (Spec.loadSolve b.solver step none ⟨l0, some (Spec.renumbered π x)⟩ k).2.1 hr
    have hinf : Spec.loadInfo a.solver step none ⟨l0, some x⟩ (k + 1) =
        (a.solver.solve (Spec.loadSolve a.solver step none ⟨l0, some x⟩ k).2.1 ⟨l, some y⟩ step).2.2 := by rw [← hy1]; rfl
    have hinf' : Spec.loadInfo b.solver step none ⟨l0, some (Spec.renumbered π x)⟩ (k + 1) =
        (b.solver.solve (Spec.loadSolve b.solver step none ⟨l0, some (Spec.renumbered π x)⟩ k).2.1
          ⟨l, some (Spec.renumbered π y)⟩ step).2.2 := by rw [← hy2]; rfl
    have haft : Spec.loadAfter a.solver step none ⟨l0, some x⟩ (k + 1) =
        if (a.solver.solve (Spec.loadSolve a.solver step none ⟨l0, some x⟩ k).2.1 ⟨l, some y⟩ step).2.2.iterations = 0 then
          a.sync (a.solver.solve (Spec.loadSolve a.solver step none ⟨l0, some x⟩ k).2.1 ⟨l, some y⟩ step).2.1 else
          (a.solver.solve (Spec.loadSolve a.solver step none ⟨l0, some x⟩ k).2.1 ⟨l, some y⟩ step).2.1 := by rw [← hy1]; rfl
    have haft' : Spec.loadAfter b.solver step none ⟨l0, some (Spec.renumbered π x)⟩ (k + 1) =
        if (b.solver.solve (Spec.loadSolve b.solver step none ⟨l0, some (Spec.renumbered π x)⟩ k).2.1
            ⟨l, some (Spec.renumbered π y)⟩ step).2.2.iterations = 0 then
          b.sync (b.solver.solve (Spec.loadSolve b.solver step none ⟨l0, some (Spec.renumbered π x)⟩ k).2.1
            ⟨l, some (Spec.renumbered π y)⟩ step).2.1 else
          (b.solver.solve (Spec.loadSolve b.solver step none ⟨l0, some (Spec.renumbered π x)⟩ k).2.1
            ⟨l, some (Spec.renumbered π y)⟩ step).2.1 := by rw [← hy2]; rfl
    rw [haft, haft', hinf, hinf', g4.2.1, g1, g2]
    by_cases h0 : (a.solver.solve (Spec.loadSolve a.solver step none ⟨l0, some x⟩ k).2.1 ⟨l, some y⟩ step).2.2.iterations = 0
    · rw [if_pos h0, if_pos h0]
      obtain ⟨z, z1, z2, z3⟩ := proper_sync h.proper l hw
      obtain ⟨z', z1', z2', z3'⟩ := proper_sync h.proper' (x := Spec.renumbered π w) l (by rw [renumbered_length, h.flags.1, hw])
      rw [h.flags.1] at z2' z3'
      obtain rfl := renumbered_ext z2 z2' h.renumbers fun i hi => by
        rw [z3' _ ((h.renumbers i).2 hi), z3 i hi, renumbered_getD w (hw.symm ▸ h.renumbers), synced_renumber h.prescribed]
      exact ⟨z, z2, z1, z1', g4⟩
    · rw [if_neg h0, if_neg h0]
      exact ⟨w, hw, rfl, rfl, g4⟩

theorem solves_renumber (h : Spec.RenumberedAnalyses π a b û û') (step l0 : ℝ) {x : List ℝ} (hx : x.length = a.dv.flags.length) {n m m' : Nat}
    (hreg : ∀ k ≤ n, (∀ i < k, (Spec.loadInfo a.solver step none ⟨l0, some x⟩ i).success = true) →
      Spec.RegularSolve a step ⟨l0, some x⟩ k)
    (hm : Spec.SolvesMade a.solver step none ⟨l0, some x⟩ n m)
    (hm' : Spec.SolvesMade b.solver step none ⟨l0, some (Spec.renumbered π x)⟩ n m') :
    m' = m ∧ ((∀ k < n + 1, (Spec.loadInfo b.solver step none ⟨l0, some (Spec.renumbered π x)⟩ k).success = true) ↔
      ∀ k < n + 1, (Spec.loadInfo a.solver step none ⟨l0, some x⟩ k).success = true) := by
  have hl := loads_renumber h step l0 hx hreg
  obtain ⟨m1, m2, m3, m4⟩ := hm
  obtain ⟨m1', m2', m3', m4'⟩ := hm'
  constructor
  · rcases Nat.lt_trichotomy m' m with hlt | heq | hgt
    · exfalso
      obtain ⟨-, -, -, -, hsi⟩ := hl (m' - 1) (by omega) fun i hi => m3 i (by omega)
      have h1 := m4' (by omega)
      rw [hsi.1, m3 (m' - 1) (by omega)] at h1
      exact Bool.noConfusion h1
    · exact heq
    · exfalso
      obtain ⟨-, -, -, -, hsi⟩ := hl (m - 1) (by omega) fun i hi => m3 i (by omega)
      have h1 := m4 (by omega)
      rw [← hsi.1, m3' (m - 1) (by omega)] at h1
      exact Bool.noConfusion h1
  · constructor
    · intro hb k
      induction k using Nat.strong_induction_on with
      | _ k ih =>
        intro hk
        obtain ⟨-, -, -, -, hsi⟩ := hl k (by omega) fun i hi => ih i hi (by omega)
        rw [← hsi.1]
        exact hb k hk
    · intro ha k hk
      obtain ⟨-, -, -, -, hsi⟩ := hl k (by omega) fun i hi => ha i (by omega)
      rw [hsi.1]
      exact ha k hk

end Analysis

/-! ### Load control -/

/-- C119, load control. The same structure analysed with two numberings of its dofs and two orders of its elements, with linear solvers
that solve all systems that have solutions, and with regular matrices in the first analysis: load control makes the same solves with the
same numbers of iterations and the same norms of residuals, ends alike, and shows the same load factors and the renumbered displacements,
whatever option each of the two uses. -/
theorem load_control_renumbered {a b : Analysis} {û û' : Nat → ℝ} (h : Spec.RenumberedAnalyses π a b û û') (n : Nat) (hn : 0 < n)
    (tbegin tend l0 : ℝ) {x0 : List ℝ} (hx0 : x0.length = a.dv.flags.length)
    (hreg : ∀ k ≤ n, (∀ i < k, (Spec.loadInfo a.solver ((tend - tbegin) / n) none ⟨l0, some x0⟩ i).success = true) →
      Spec.RegularSolve a ((tend - tbegin) / n) ⟨l0, some x0⟩ k) :
    ∃ ra rb : LCState ℝ (Option (List ℝ)) ℝ (Option (List ℝ)),
      a.loadControl? n tbegin tend ⟨l0, some x0⟩ = some ra ∧
      b.loadControl? n tbegin tend ⟨l0, some (Spec.renumbered π x0)⟩ = some rb ∧
      rb.info.success = ra.info.success ∧ rb.info.totalIterations = ra.info.totalIterations ∧
      List.Forall₂ (Spec.SameInfo) ra.info.solverInfos rb.info.solverInfos ∧
      List.Forall₂ (Spec.RenumberedState π) (Spec.shown ra) (Spec.shown rb) ∧ Spec.RenumberedState π ra.dom rb.dom := by
  generalize hstep : (tend - tbegin) / (n : ℝ) = step at *
  have hmk : LoadControl.mk? (n : Int) tbegin tend = some ⟨n, step⟩ := by
    unfold LoadControl.mk?
    rw [if_neg (by omega)]
    simp [hstep]
  obtain ⟨m, ls, hm, h1, -, h3, h4, h5, h6⟩ := load_control_run n hn step a.solver none ⟨l0, some x0⟩
  obtain ⟨m', ls', hm', h1', -, h3', h4', h5', h6'⟩ := load_control_run n hn step b.solver none ⟨l0, some (Spec.renumbered π x0)⟩
  obtain ⟨rfl, hsucc⟩ := Analysis.solves_renumber h step l0 hx0 hreg hm hm'
  have hl := Analysis.loads_renumber h step l0 hx0 hreg
  obtain ⟨m1, m2, m3, -⟩ := hm
  have hl := fun k (hk : k < m') => hl k (by omega) fun i hi => m3 i (by omega)
  have hdom : ∀ k < m', Spec.RenumberedState π (Spec.loadAfter a.solver step none ⟨l0, some x0⟩ k)
      (Spec.loadAfter b.solver step none ⟨l0, some (Spec.renumbered π x0)⟩ k) := fun k hk => by
    obtain ⟨y, -, g1, g2, -⟩ := hl k hk
    rw [g1, g2]
    exact ⟨rfl, y, rfl, rfl⟩
  refine ⟨_, _, by unfold Analysis.loadControl?; rw [hmk, Option.map_some], by unfold Analysis.loadControl?; rw [hmk, Option.map_some],
    ?_, ?_, ?_, ?_, ?_⟩
  · rw [Bool.eq_iff_iff, h1, h1', hsucc]
  · rw [h4, h4']
    refine congrArg List.sum (List.map_congr_left fun k hk => ?_)
    obtain ⟨-, -, -, -, g⟩ := hl k (List.mem_range.1 hk)
    exact g.2.1
  · rw [h3, h3', List.forall₂_map_left_iff, List.forall₂_map_right_iff, List.forall₂_same]
    intro k hk
    obtain ⟨-, -, -, -, g⟩ := hl k (List.mem_range.1 hk)
    exact g
  · rw [Analysis.shown_run _ _ _ _ _ _ h6, Analysis.shown_run _ _ _ _ _ _ h6', List.forall₂_map_left_iff, List.forall₂_map_right_iff,
      List.forall₂_same]
    exact fun k hk => hdom k (List.mem_range.1 hk)
  · rw [h5, h5']
    exact hdom (m' - 1) (by omega)

/-! ### A truss whose dofs are numbered by nodes, and by directions -/

/-- From the numbers by nodes to the numbers by directions. -/
def exampleByDirection : Equiv.Perm Nat := Equiv.swap 1 2

theorem exampleByDirection_renumbers : Spec.Renumbers exampleByDirection 4 := fun i => by
  show Equiv.swap 1 2 i < 4 ↔ _
  rw [Equiv.swap_apply_def]
  split_ifs <;> omega

/-- The analysis of the truss with the dofs numbered by directions. -/
noncomputable def trussByDirection (option : DBCOption) (settings : NRSettings ℝ) : Analysis :=
  { trussAnalysis option settings with
    dv := ⟨[true, false, true, true], 0,
      [⟨fun l i => if i = 2 then l else 0, fun _ i => if i = 2 then 1 else 0, 0⟩], fun _ => true⟩
    elems := [Spec.renumberedParam exampleByDirection exampleTruss] }

/-- The displacement of the left end at load factor one. -/
def trussSupportByDirection (i : Nat) : ℝ := if i = 2 then 1 else 0

theorem trussByDirection_fits (l : ℝ) : Spec.ElemFits 4 ((Spec.renumberedParam exampleByDirection exampleTruss).at l) := by
  refine ⟨rfl, rfl, [0, 2, 1, 3], ?_, by simp⟩
  refine (dofs_renumber (π := exampleByDirection) (exampleTruss.at l)).trans ?_
  have : (exampleTruss.at l).dofs? = some [0, 1, 2, 3] := by
    simp [Elem.dofs?, ParamElem.at, exampleTruss, FETree.globalIndices, FETree.firstIsLeaf, FETree.powerNodeIndices,
      FETree.leafSize?, FETree.childIndex?, FETree.leafIndex?, mapOpt, List.range, List.range.loop]
  rw [this]
  rfl

theorem trussByDirection_contract (o : DBCOption) (st : NRSettings ℝ) (l : ℝ) (x : List ℝ)
    (hx : x.length = (trussByDirection o st).dv.flags.length) : Spec.SystemContract ((trussByDirection o st).system l) x := by
  refine ⟨hx, fun e he => ?_⟩
  obtain rfl : e = (Spec.renumberedParam exampleByDirection exampleTruss).at l := List.mem_singleton.1 he
  refine ⟨trussByDirection_fits l, fun u _ sk hsk => ?_⟩
  obtain rfl : sk = Skill.truss 1 1 ![0, 0] ![1, 0] := List.mem_singleton.1 hsk
  exact (truss_skill _ _ _ _ _).1

theorem trussByDirection_proper (o : DBCOption) (ho : o ≠ .raw) (st : NRSettings ℝ) :
    Spec.Proper (trussByDirection o st) trussSupportByDirection where
  option := ho
  elems e he l := by
    obtain rfl : e = Spec.renumberedParam exampleByDirection exampleTruss := List.mem_singleton.1 he
    refine ⟨trussByDirection_fits l, fun s hs => ?_⟩
    obtain rfl : s = fun _ => Skill.truss 1 1 ![0, 0] ![1, 0] := List.mem_singleton.1 hs
    exact (truss_skill _ _ _ _ 0).2
  prescribed := by
    refine ⟨fun l i _ => ?_, fun i _ => ?_, fun i hi hne => ?_⟩
    · simp [Spec.prescribed, Spec.total, trussByDirection, trussSupportByDirection]
    · simp [Spec.total, trussByDirection, trussSupportByDirection]
    · have : i = 2 := by
        by_contra h
        refine hne ?_
        simp [trussSupportByDirection, h]
      subst this
      rfl
  force := Or.inl rfl
  alive _ _ := rfl
  bound _ h := absurd h (by simp [trussByDirection, trussAnalysis])
  linSolve l x hx A hA := by
    obtain ⟨-, -, K, -, hK, -⟩ := assembled_consistent _ _ (trussByDirection_contract o st l x hx)
    exact inverseSolve_answers (trussByDirection o st) l x ho K hK A hA

/-- 400 load steps of the truss whose end is moved across its axis, with the dofs numbered by nodes and the option Full, and with the dofs
numbered by directions and the option Reduced. -/
example : ∃ ra rb : LCState ℝ (Option (List ℝ)) ℝ (Option (List ℝ)),
    (trussAnalysis .full { tol := 1 / 10 ^ 8, maxIter := 20, minIter := 0 }).loadControl? 400 0 (1 / 2) ⟨0, some [0, 0, 0, 0]⟩ = some ra ∧
    (trussByDirection .reduced { tol := 1 / 10 ^ 8, maxIter := 20, minIter := 0 }).loadControl? 400 0 (1 / 2)
      ⟨0, some (Spec.renumbered exampleByDirection [0, 0, 0, 0])⟩ = some rb ∧
    rb.info.success = ra.info.success ∧ rb.info.totalIterations = ra.info.totalIterations ∧
    List.Forall₂ Spec.SameInfo ra.info.solverInfos rb.info.solverInfos ∧
    List.Forall₂ (Spec.RenumberedState exampleByDirection) (Spec.shown ra) (Spec.shown rb) ∧
    Spec.RenumberedState exampleByDirection ra.dom rb.dom := by
  have hU : Spec.RenumberedAnalyses exampleByDirection (trussAnalysis .full { tol := 1 / 10 ^ 8, maxIter := 20, minIter := 0 })
      (trussByDirection .reduced { tol := 1 / 10 ^ 8, maxIter := 20, minIter := 0 }) trussSupport trussSupportByDirection :=
    { renumbers := exampleByDirection_renumbers
      flags := by
        refine ⟨rfl, fun i => ?_⟩
        show ([true, false, true, true] : List Bool)[Equiv.swap 1 2 i]? = ([true, true, false, true] : List Bool)[i]?
        rw [Equiv.swap_apply_def]
        split_ifs with h1 h2
        · rw [h1]; rfl
        · rw [h2]; rfl
        · match i, h1, h2 with
          | 0, _, _ => rfl
          | 3, _, _ => rfl
          | k + 4, _, _ => rfl
      elems := List.Perm.refl _
      prescribed := fun i => by
        show (if Equiv.swap 1 2 i = 2 then (1 : ℝ) else 0) = if i = 1 then 1 else 0
        refine if_congr ?_ rfl rfl
        rw [Equiv.swap_apply_def]
        split_ifs <;> omega
      proper := trussAnalysis_proper .full (by decide) _
      proper' := trussByDirection_proper .reduced (by decide) _, minIter := rfl, maxIter := rfl, tol := rfl
      bound := Or.inl rfl, bound' := Or.inl rfl, solver := inverseSolve_exactSolver, solver' := inverseSolve_exactSolver }
  have hz : ∀ k : Nat, 0 < k → k ≤ 400 → (0 : ℝ) + k * ((1 / 2 - 0) / (400 : ℕ)) = 0 → ∀ i < 4, trussSupport i = 0 := by
    intro k hk _ h0
    have : (0 : ℝ) < k := by exact_mod_cast hk
    norm_num at h0
    omega
  refine load_control_renumbered hU 400 (by norm_num) 0 (1 / 2) 0 rfl fun k hk _ => ?_
  refine Analysis.follows_regular (trussAnalysis_proper .full (by decide) _) (Or.inl rfl) (truss_path .full (by decide) _) (delta := 1 / 72)
    (by norm_num) (by norm_num) (m := 5) (by norm_num) (by norm_num [trussAnalysis]) (by norm_num [trussAnalysis])
    (by norm_num [trussAnalysis]) _ 0 ?_ trussAnalysis_start (by simp [trussPath, Spec.distance]) 400 (fun k hk => ?_) hz k hk
  · norm_num [trussAnalysis, abs_of_nonneg]
  · have : (k : ℝ) ≤ 400 := by exact_mod_cast hk
    norm_num
    linarith

end Ikarus
