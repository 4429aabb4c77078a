import Verif.Analysis.PathModel
import Verif.Analysis.NonlinearProps

/-!
Lemmas on path following of complete structures: increments of either size, and what one iteration of the solver does.
-/

namespace Ikarus

open Ikarus.Element Ikarus.Element.Spec

/-! ### Results -/

theorem bind_ok {ε α β : Type} {x : Except ε α} {f : α → Except ε β} {b : β} :
    x.bind f = .ok b ↔ ∃ c, x = .ok c ∧ f c = .ok b := by
  cases x <;> simp [Except.bind]

theorem bind_error {ε α β : Type} {x : Except ε α} {f : α → Except ε β} {e : ε} :
    x.bind f = .error e ↔ x = .error e ∨ ∃ c, x = .ok c ∧ f c = .error e := by
  cases x <;> simp [Except.bind]

theorem map_ok {ε α β : Type} {x : Except ε α} {f : α → β} {b : β} :
    x.map f = .ok b ↔ ∃ c, x = .ok c ∧ f c = b := by
  cases x <;> simp [Except.map]

theorem map_error {ε α β : Type} {x : Except ε α} {f : α → β} {e : ε} : x.map f = .error e ↔ x = .error e := by
  cases x <;> simp [Except.map]

theorem evaluated_ok {α : Type} {o : Option α} {b : α} : evaluated o = .ok b ↔ o = some b := by
  cases o <;> simp [evaluated]

theorem evaluated_error {α : Type} {o : Option α} {e : PathFault} : evaluated o = .error e ↔ o = none ∧ e = .undefined := by
  cases o <;> simp [evaluated, eq_comm]

theorem addSized_ok {u v w : List ℝ} : addSized u v = .ok w ↔ u.length = v.length ∧ List.zipWith (· + ·) u v = w := by
  unfold addSized
  split <;> simp [*]

/-! ### Increments of either size -/

/-- The number of entries of residuals and increments of the solver. -/
def Analysis.width (a : Analysis) : Nat := if a.option = .full then a.dv.flags.length else a.dv.flags.count false

/-- `c` is, as the solver handles it, the increment `C` of the solution, which leaves the constrained dofs. -/
structure IsIncrement (a : Analysis) (c C : List ℝ) : Prop where
  length : C.length = a.dv.flags.length
  constrained : ∀ i < a.dv.flags.length, ¬ Spec.Free a.dv.flags i → C.getD i 0 = 0
  eq : c = view a.option a.dv.flags C

theorem sqNorm_getD (v : List ℝ) : sqNorm v = ∑ i ∈ Finset.range v.length, v.getD i 0 * v.getD i 0 := by
  unfold sqNorm
  rw [list_sum_getD, List.length_map]
  refine Finset.sum_congr rfl fun i _ => ?_
  simp only [List.getD_eq_getElem?_getD, List.getElem?_map]
  cases v[i]? <;> simp

theorem sqNorm_nonneg (v : List ℝ) : 0 ≤ sqNorm v := by
  rw [sqNorm_getD]
  exact Finset.sum_nonneg fun i _ => mul_self_nonneg _

theorem sqNorm_view (opt : DBCOption) (flags : List Bool) (v : List ℝ) (h : v.length = flags.length) :
    sqNorm (view opt flags v) = freeSq flags (v.getD · 0) := by
  have h1 := norm_view opt flags v h
  have h2 : Real.sqrt (sqNorm (view opt flags v)) = Real.sqrt (freeSq flags (v.getD · 0)) := h1
  exact (Real.sqrt_inj (sqNorm_nonneg _) (Finset.sum_nonneg fun i _ => mul_self_nonneg _)).1 h2

theorem zipAdd_getD {u v : List ℝ} {m : Nat} (hu : u.length = m) (hv : v.length = m) {i : Nat} (hi : i < m) :
    (List.zipWith (· + ·) u v).getD i 0 = u.getD i 0 + v.getD i 0 := by
  simp only [List.getD_eq_getElem?_getD, List.getElem?_zipWith]
  rw [List.getElem?_eq_getElem (hu ▸ hi), List.getElem?_eq_getElem (hv ▸ hi)]; rfl

theorem map_getD (f : ℝ → ℝ) (hf : f 0 = 0) (v : List ℝ) (i : Nat) : (v.map f).getD i 0 = f (v.getD i 0) := by
  simp only [List.getD_eq_getElem?_getD, List.getElem?_map]
  cases v[i]? <;> simp [hf]

namespace IsIncrement

variable {a : Analysis} {c d C D : List ℝ}

theorem width (h : IsIncrement a c C) : c.length = a.width := by rw [h.eq, view_length h.length]; rfl

theorem add (hc : IsIncrement a c C) (hd : IsIncrement a d D) :
    addSized c d = .ok (List.zipWith (· + ·) c d) ∧ IsIncrement a (List.zipWith (· + ·) c d) (List.zipWith (· + ·) C D) := by
  have hl : c.length = d.length := by rw [hc.width, hd.width]
  refine ⟨by unfold addSized; rw [if_pos hl], by simp [hc.length, hd.length], fun i hi hf => ?_, ?_⟩
  · rw [zipAdd_getD hc.length hd.length hi, hc.constrained i hi hf, hd.constrained i hi hf, add_zero]
  · have := view_add a.option a.dv.flags C D hc.length hd.length
    unfold addVec? at this
    rw [← hc.eq, ← hd.eq, if_pos hl] at this
    exact Option.some.inj this

theorem smul (hc : IsIncrement a c C) (s : ℝ) : IsIncrement a (c.map fun b => b * s) (C.map fun b => b * s) := by
  refine ⟨by simp [hc.length], fun i hi hf => ?_, ?_⟩
  · rw [map_getD _ (by simp), hc.constrained i hi hf, zero_mul]
  · rw [hc.eq, view_smul]

theorem sq (h : IsIncrement a c C) : sqNorm c = ∑ i ∈ Finset.range a.dv.flags.length, C.getD i 0 * C.getD i 0 := by
  rw [h.eq, sqNorm_view _ _ _ h.length]
  unfold freeSq
  rw [Finset.sum_filter]
  refine Finset.sum_congr rfl fun i hi => ?_
  split
  · rfl
  · rw [h.constrained i (Finset.mem_range.1 hi) ‹_›, mul_zero]

theorem update (h : IsIncrement a c C) (hopt : a.option ≠ .raw) (l : ℝ) {x : List ℝ} (hx : x.length = a.dv.flags.length) :
    a.update ⟨l, some x⟩ (some c) = ⟨l, some (List.zipWith (· + ·) x C)⟩ := by
  unfold Analysis.update
  simp only [Option.bind_some]
  congr 1
  cases ho : a.option with
  | raw => exact absurd ho hopt
  | full =>
    have hcC : c = C := by
      rw [h.eq, view, if_pos ho]
      apply List.ext_getElem?
      intro i
      by_cases hi : i < a.dv.flags.length
      · have hm : (Spec.mask a.dv.flags C).length = a.dv.flags.length := by simp [Spec.mask, h.length]
        rw [getElem?_eq_getD (hm ▸ hi), getElem?_eq_getD (h.length ▸ hi), mask_getD h.length]
        split
        · rfl
        · rw [h.constrained i hi ‹_›]
      · rw [List.getElem?_eq_none (by simp [Spec.mask]; omega), List.getElem?_eq_none (by rw [h.length]; omega)]
    rw [hcC, update_full_increment a.dv.flags x C .full (by simp) hx h.length]
  | reduced =>
    have hlen : c.length = a.dv.flags.count false := by rw [h.width, Analysis.width, if_neg (by rw [ho]; simp)]
    obtain ⟨w, hw, hwl, hw0, hwr⟩ := reduced_full_roundtrip a.dv.flags c (by rw [Assembler.reducedSize?_create, hlen])
    have hwC : w = C := by
      rw [createReducedVector_eq a.dv.flags w hwl] at hwr
      have hs : Spec.selectFree a.dv.flags w = c := by
        have := Option.some.inj hwr
        exact List.map_injective_iff.2 (Option.some_injective _) this
      rw [h.eq, view, if_neg (by rw [ho]; simp)] at hs
      apply List.ext_getElem?
      intro i
      by_cases hi : i < a.dv.flags.length
      · rw [getElem?_eq_getD (hwl ▸ hi), getElem?_eq_getD (h.length ▸ hi)]
        by_cases hf : Spec.Free a.dv.flags i
        · rw [← selectFree_getD _ w hwl hf, ← selectFree_getD _ C h.length hf, hs]
        · rw [h.constrained i hi hf, List.getD_eq_getElem?_getD, hw0 i ((not_free_iff hi).1 hf), Option.getD_some]
      · rw [List.getElem?_eq_none (by omega), List.getElem?_eq_none (by rw [h.length]; omega)]
    unfold updateFunctor?
    rw [if_pos ⟨rfl, by rw [Assembler.reducedSize?_create, hlen]⟩, hw, Option.bind_some, hwC]
    unfold addVec?
    rw [if_pos (by rw [hx, h.length])]

end IsIncrement

/-- A vector of the right size is an increment: any for Reduced, one that leaves the constrained dofs for Full. -/
theorem exists_increment {a : Analysis} (hopt : a.option ≠ .raw) {c : List ℝ} (hc : c.length = a.width)
    (h0 : a.option = .full → ∀ i : Nat, a.dv.flags[i]? = some true → c.getD i 0 = 0) : ∃ C, IsIncrement a c C := by
  cases ho : a.option with
  | raw => exact absurd ho hopt
  | full =>
    rw [Analysis.width, if_pos ho] at hc
    refine ⟨c, hc, fun i hi hf => h0 ho i ((not_free_iff hi).1 hf), ?_⟩
    rw [view, if_pos ho]
    apply List.ext_getElem?
    intro i
    by_cases hi : i < a.dv.flags.length
    · have hm : (Spec.mask a.dv.flags c).length = a.dv.flags.length := by simp [Spec.mask, hc]
      rw [getElem?_eq_getD (hc ▸ hi), getElem?_eq_getD (hm ▸ hi), mask_getD hc]
      split
      · rfl
      · rw [h0 ho i ((not_free_iff hi).1 ‹_›)]
    · rw [List.getElem?_eq_none (by omega), List.getElem?_eq_none (by simp [Spec.mask]; omega)]
  | reduced =>
    rw [Analysis.width, if_neg (by rw [ho]; simp)] at hc
    obtain ⟨v, h1, h2⟩ := Assembler.selectFree_surj a.dv.flags c hc
    have hm : (Spec.mask a.dv.flags v).length = a.dv.flags.length := by simp [Spec.mask, h1]
    refine ⟨Spec.mask a.dv.flags v, hm, fun i hi hf => by rw [mask_getD h1, if_neg hf], ?_⟩
    rw [view, if_neg (by rw [ho]; simp), Assembler.selectFree_mask, h2]

/-! ### Proper structures -/

/-- A structure set up properly for path following: both linear solvers answer. -/
structure Spec.ProperPath (a : PathAnalysis) (û : Nat → ℝ) : Prop where
  proper : Spec.Proper a.toAnalysis û
  spd : ∀ l (x : List ℝ), x.length = a.dv.flags.length → ∀ A, a.jacobian? ⟨l, some x⟩ = some A →
    Spec.Answers a.spd a.option a.dv.flags A

theorem view_neg (opt : DBCOption) (flags : List Bool) (v : List ℝ) :
    (view opt flags v).map (fun b => -b) = view opt flags (v.map fun b => -b) := by
  have := view_smul opt flags v (-1)
  simpa only [mul_neg, mul_one] using this

namespace Analysis

variable {a : Analysis} {û : Nat → ℝ}

theorem jacobian_width (h : Spec.Proper a û) (l : ℝ) {x : List ℝ} (hx : x.length = a.dv.flags.length) :
    ∃ A, a.jacobian? ⟨l, some x⟩ = some A ∧ A.rows = a.width ∧ A.cols = a.width := by
  obtain ⟨-, -, K, -, -, -, hK, -, -⟩ := proper_system h l hx
  unfold System.rawMatrix? at hK
  obtain ⟨fes, h1, h2⟩ := Option.bind_eq_some_iff.1 hK
  cases ho : a.option with
  | raw => exact absurd ho h.option
  | full =>
    obtain ⟨A, hA, hAr, hAc, -⟩ := fullMatrix_eq a.dv.flags fes K h2
    refine ⟨A, ?_, by rw [width, if_pos ho, hAr], by rw [width, if_pos ho, hAc]⟩
    unfold jacobian?
    rw [Option.bind_some, ho]
    show (a.system l).fullMatrix? x = _
    unfold System.fullMatrix?
    rw [h1, Option.bind_some]; exact hA
  | reduced =>
    obtain ⟨A, hA, hAr, hAc, -⟩ := reducedMatrix_eq a.dv.flags fes K h2
    rw [Assembler.reducedSize?_create] at hAr hAc
    refine ⟨A, ?_, by rw [width, if_neg (by rw [ho]; simp), Option.some.inj hAr],
      by rw [width, if_neg (by rw [ho]; simp), Option.some.inj hAc]⟩
    unfold jacobian?
    rw [Option.bind_some, ho]
    show (a.system l).reducedMatrix? x = _
    unfold System.reducedMatrix?
    rw [h1, Option.bind_some]; exact hA

theorem answers_increment (h : Spec.Proper a û) {ls : DMat ℝ → List ℝ → List ℝ} {l : ℝ} {x : List ℝ}
    (hx : x.length = a.dv.flags.length) {A : DMat ℝ} (hA : a.jacobian? ⟨l, some x⟩ = some A)
    (hls : Spec.Answers ls a.option a.dv.flags A) {B : List ℝ} (hB : B.length = a.dv.flags.length) :
    ∃ D, IsIncrement a (ls A (view a.option a.dv.flags B)) D := by
  obtain ⟨A', h1, h2, h3⟩ := jacobian_width h l hx
  obtain rfl : A = A' := Option.some.inj (hA.symm.trans h1)
  obtain ⟨g1, g2⟩ := hls (view a.option a.dv.flags B) (by rw [view_length hB, h2]; rfl)
  refine exists_increment h.option (g1.trans h3) fun ho i hi => g2 ho i hi ?_
  rw [view, if_pos ho, mask_getD hB, if_neg]
  exact (not_free_iff (List.getElem?_eq_some_iff.1 hi).1).2 hi

theorem addForce_view (h : Spec.Proper a û) (l s : ℝ) {x r : List ℝ} (hx : x.length = a.dv.flags.length)
    (hr : r.length = a.dv.flags.length) :
    ∃ R : List ℝ, a.addForce ⟨l, some x⟩ s (some (view a.option a.dv.flags r)) = some (view a.option a.dv.flags R) ∧
      R.length = a.dv.flags.length := by
  have hb : ∃ u : List ℝ, (a.bound.getD ⟨l, some x⟩).x = some u ∧ u.length = a.dv.flags.length := by
    cases hbd : a.bound with
    | none => exact ⟨x, rfl, hx⟩
    | some d => exact h.bound d hbd
  obtain ⟨u, hu, hul⟩ := hb
  obtain ⟨-, -, M, -, -, -, hM, hMr, hMc⟩ := proper_system h (a.bound.getD ⟨l, some x⟩).lam hul
  have hforce := idbc_forces_eq a.dv M a.alive hMr hMc h.alive a.option
  simp only at hforce
  generalize hF : (List.range a.dv.flags.length).map
    (Spec.rowTimes M (Spec.total a.dv.inSub (a.dv.fns.map fun f => f.derivative 1))) = F at hforce
  have hFl : F.length = a.dv.flags.length := by rw [← hF]; simp
  have hforce' : obtainForcesDueToIDBC? (Assembler.create a.dv.flags) M a.dv a.alive a.option =
      some ((view a.option a.dv.flags F).map some) := by
    rw [hforce]
    unfold view
    split <;> rfl
  refine ⟨List.zipWith (· + ·) r (F.map fun f => f * s), ?_, by simp [hr, hFl]⟩
  unfold addForce
  rw [Option.bind_some, hu, Option.bind_some, hM, Option.bind_some, hforce', Option.bind_some,
    initialised?_map_some, Option.bind_some, view_smul, view_add _ _ _ _ hr (by simp [hFl])]

end Analysis

namespace PathAnalysis

open Analysis (synced)

variable {a : PathAnalysis} {û : Nat → ℝ}

theorem residual_ok (h : Spec.Proper a.toAnalysis û) (l : ℝ) {x : List ℝ} (hx : x.length = a.dv.flags.length) :
    ∃ r, a.residual? ⟨l, some x⟩ = some (view a.option a.dv.flags r) ∧ r.length = a.dv.flags.length ∧
      (a.system l).rawVector? x = some r := by
  obtain ⟨-, r, -, -, h1, h2, -⟩ := Analysis.proper_system h l hx
  exact ⟨r, a.residual_view h.option h1, h2, h1⟩

theorem unforced_synced (h : Spec.Proper a.toAnalysis û) (hf : a.withForce = false) (l : ℝ) {i : Nat}
    (hi : i < a.dv.flags.length) (v : ℝ) : synced û l i v = v := by
  unfold synced
  rw [(h.force.resolve_left (by simp [hf])) i hi, mul_zero, if_neg (by simp)]

theorem synchronised_ok (h : Spec.Proper a.toAnalysis û) (l : ℝ) {x : List ℝ} (hx : x.length = a.dv.flags.length) :
    ∃ y, a.synchronised l x = .ok y ∧ y.length = a.dv.flags.length ∧
      ∀ i < a.dv.flags.length, y.getD i 0 = synced û l i (x.getD i 0) := by
  unfold synchronised
  cases hf : a.withForce with
  | false => exact ⟨x, rfl, hx, fun i hi => (unforced_synced h hf l hi _).symm⟩
  | true =>
    obtain ⟨y, h1, h2, h3⟩ := Analysis.proper_sync h l hx
    refine ⟨y, ?_, h2, h3⟩
    rw [if_pos rfl, h1]; rfl

theorem idbcIncrement_ok (h : Spec.Proper a.toAnalysis û) (l dl : ℝ) {x : List ℝ} (hx : x.length = a.dv.flags.length) :
    ∃ δ, a.idbcIncrement l x dl = .ok δ ∧ δ.length = a.dv.flags.length ∧
      ∀ i < a.dv.flags.length, δ.getD i 0 = synced û (l + dl) i (x.getD i 0) - x.getD i 0 := by
  unfold idbcIncrement
  cases hf : a.withForce with
  | false =>
    refine ⟨List.replicate x.length 0, rfl, by simp [hx], fun i hi => ?_⟩
    rw [unforced_synced h hf _ hi, sub_self, List.getD_eq_getElem?_getD, List.getElem?_replicate, if_pos (hx ▸ hi)]; rfl
  | true =>
    obtain ⟨y, h1, h2, h3⟩ := Analysis.proper_sync h (l + dl) hx
    have h4 : (syncFunctor? a.dv ⟨x, l + dl⟩).map (·.sol) = some y := by
      have : (a.sync ⟨l + dl, some x⟩).x = some y := by rw [h1]
      exact this
    obtain ⟨z, h5, h6⟩ := Option.map_eq_some_iff.1 h4
    refine ⟨List.zipWith (· - ·) y x, ?_, by simp [h2, hx], fun i hi => ?_⟩
    · rw [if_pos rfl]
      unfold idbcIncrement?
      show evaluated ((syncFunctor? a.dv ⟨x, l + dl⟩).map fun y => List.zipWith (· - ·) y.sol x) = _
      rw [h5, Option.map_some, h6]; rfl
    · rw [← h3 i hi]
      simp only [List.getD_eq_getElem?_getD, List.getElem?_zipWith]
      rw [List.getElem?_eq_getElem (h2 ▸ hi), List.getElem?_eq_getElem (hx ▸ hi)]; rfl

theorem loadColumn_ok (h : Spec.Proper a.toAnalysis û) (l : ℝ) {x : List ℝ} (hx : x.length = a.dv.flags.length) :
    ∃ B, a.loadColumn l x = .ok (view a.option a.dv.flags B) ∧ B.length = a.dv.flags.length := by
  obtain ⟨r, h1, h2, -⟩ := residual_ok h 1 (x := List.replicate x.length 0) (by simp [hx])
  unfold loadColumn
  rw [h1]
  show ∃ B, (if a.withForce = true then _ else _) = _ ∧ _
  rw [view_neg]
  split
  · obtain ⟨R, g1, g2⟩ := Analysis.addForce_view h l (-1) hx (r := r.map fun b => -b) (by simp [h2])
    exact ⟨R, by rw [g1]; rfl, g2⟩
  · exact ⟨_, rfl, by simp [h2]⟩

/-! ### The path following functions -/

theorem subsidiary_keeps {p : PathStrategy} {l : ℝ} {x : List ℝ} {args args' : PathArgs} (h : a.subsidiary p l x args = .ok args') :
    args'.stepSize = args.stepSize ∧ args'.DD = args.DD ∧ args'.Dlambda = args.Dlambda ∧ args'.currentStep = args.currentStep := by
  cases p with
  | arcLength psi predicted =>
    obtain ⟨δ, -, h⟩ := bind_ok.1 h
    simp only at h
    split at h <;> · cases h; exact ⟨rfl, rfl, rfl, rfl⟩
  | loadControl predicted =>
    simp only [subsidiary] at h
    split at h
    · cases h
    · cases h; exact ⟨rfl, rfl, rfl, rfl⟩
  | displacementControl controlled predicted =>
    simp only [subsidiary] at h
    split at h
    · cases h
    · obtain ⟨-, -, h⟩ := bind_ok.1 h
      obtain ⟨-, -, h⟩ := map_ok.1 h
      cases h; exact ⟨rfl, rfl, rfl, rfl⟩

theorem foldl_set_length (f : Nat → ℝ) (is : List Nat) (v : List ℝ) :
    (is.foldl (fun v i => v.set i (f i)) v).length = v.length := by
  induction is generalizing v with
  | nil => rfl
  | cons i is ih => rw [List.foldl_cons, ih]; simp

/-- The derivative has the size it had, or for arc length after a prediction the size of the increment. -/
theorem subsidiary_size {p : PathStrategy} {l : ℝ} {x : List ℝ} {args args' : PathArgs} (h : a.subsidiary p l x args = .ok args') :
    args'.dfdDD.length = match p with
      | .arcLength _ true => args.DD.length
      | _ => args.dfdDD.length := by
  cases p with
  | arcLength psi predicted =>
    obtain ⟨δ, -, h⟩ := bind_ok.1 h
    simp only at h
    cases predicted
    · rw [if_pos rfl] at h; cases h; simp
    · rw [if_neg (by simp)] at h; cases h; simp
  | loadControl predicted =>
    simp only [subsidiary] at h
    split at h
    · cases h
    · cases h; simp
  | displacementControl controlled predicted =>
    simp only [subsidiary] at h
    split at h
    · cases h
    · obtain ⟨-, -, h⟩ := bind_ok.1 h
      obtain ⟨-, -, h⟩ := map_ok.1 h
      cases h
      simp only [foldl_set_length, List.length_map]

/-! ### One iteration -/

/-- The state of the solver between iterations. -/
structure Sound (a : PathAnalysis) (s : State) : Prop where
  length : s.x.length = a.dv.flags.length
  residual : ∃ r, (a.system s.lam).rawVector? s.x = some r ∧ r.length = a.dv.flags.length ∧
    s.rx = view a.option a.dv.flags r
  jacobian : a.jacobian? ⟨s.lam, some s.x⟩ = some s.Ax

/-- What an iteration without fault does. -/
structure Iterates (a : PathAnalysis) (û : Nat → ℝ) (p : PathStrategy) (s s' : State) : Prop where
  sound : Sound a s'
  iter : s'.iter = s.iter + 1
  norm : s'.rNorm = Real.sqrt (sqNorm s'.rx + s'.args.f * s'.args.f)
  subsidiary : ∃ args, a.subsidiary p s'.lam s'.x args = .ok s'.args
  stepSize : s'.args.stepSize = s.args.stepSize
  currentStep : s'.args.currentStep = s.args.currentStep
  finite : s.args.finite = true
  widthDD : s.args.DD.length = a.width
  widthdf : s.args.dfdDD.length = a.width
  increment : ∃ c C dl, IsIncrement a.toAnalysis c C ∧ s'.args.DD = List.zipWith (· + ·) s.args.DD c ∧
    s'.args.Dlambda = s.args.Dlambda + dl ∧ s'.lam = s.lam + dl ∧
    ∀ i < a.dv.flags.length, s'.x.getD i 0 = synced û s'.lam i (s.x.getD i 0 + C.getD i 0)

theorem corrections (h : Spec.Proper a.toAnalysis û) {s : State} (hs : Sound a s) :
    ∃ B CR CL, a.loadColumn s.lam s.x = .ok (view a.option a.dv.flags B) ∧
      IsIncrement a.toAnalysis (a.linSolve s.Ax (s.rx.map fun b => -b)) CR ∧
      IsIncrement a.toAnalysis (a.linSolve s.Ax (view a.option a.dv.flags B)) CL := by
  obtain ⟨B, h1, h2⟩ := loadColumn_ok h s.lam hs.length
  obtain ⟨r, h3, h4, h5⟩ := hs.residual
  have hls := h.linSolve s.lam s.x hs.length s.Ax hs.jacobian
  obtain ⟨CL, h6⟩ := Analysis.answers_increment h hs.length hs.jacobian hls h2
  obtain ⟨CR, h7⟩ := Analysis.answers_increment h hs.length hs.jacobian hls (B := r.map fun b => -b) (by simp [h4])
  refine ⟨B, CR, CL, h1, ?_, h6⟩
  rw [h5, view_neg]
  exact h7

theorem iteration_ok (h : Spec.Proper a.toAnalysis û) {p : PathStrategy} {s s' : State} (hs : Sound a s)
    (hit : a.iteration p s = .ok s') : Iterates a û p s s' := by
  obtain ⟨B, CR, CL, h1, h2, h3⟩ := corrections h hs
  unfold iteration at hit
  rw [h1] at hit
  obtain ⟨load, hload, hit⟩ := bind_ok.1 hit
  cases hload
  obtain ⟨cR, hR, hit⟩ := bind_ok.1 hit
  obtain ⟨cL, hL, hit⟩ := bind_ok.1 hit
  obtain ⟨dl, hq, hit⟩ := bind_ok.1 hit
  obtain ⟨deltaD, hD, hit⟩ := bind_ok.1 hit
  obtain ⟨x, hx, hit⟩ := bind_ok.1 hit
  obtain ⟨DD, hDD, hit⟩ := bind_ok.1 hit
  obtain ⟨y, hy, hit⟩ := bind_ok.1 hit
  obtain ⟨rx, hrx, hit⟩ := bind_ok.1 hit
  obtain ⟨Ax, hAx, hit⟩ := bind_ok.1 hit
  obtain ⟨args, hargs, hit⟩ := map_ok.1 hit
  have h3' := h3.smul dl
  simp only [mul_comm _ dl] at h3'
  obtain ⟨h4, h5⟩ := h2.add h3'
  rw [h4] at hD
  obtain rfl := Except.ok.inj hD
  rw [h5.update h.option s.lam hs.length] at hx
  have hx := (Option.some.inj (evaluated_ok.1 hx)).symm
  have hxl : x.length = a.dv.flags.length := by rw [hx]; simp [hs.length, h5.length]
  obtain ⟨y', hy1, hy2, hy3⟩ := synchronised_ok h (s.lam + dl) hxl
  rw [hy1] at hy
  obtain rfl := Except.ok.inj hy
  obtain ⟨r, hr1, hr2, hr3⟩ := residual_ok h (s.lam + dl) hy2
  rw [hr1] at hrx
  obtain rfl := Except.ok.inj hrx
  obtain ⟨k1, k2, k3, k4⟩ := subsidiary_keeps hargs
  obtain ⟨d1, d2⟩ := addSized_ok.1 hDD
  have hfin : s.args.finite = true := by
    by_contra hf
    rw [if_neg hf] at hq
    cases hq
  have hdf : s.args.dfdDD.length = a.width := by
    rw [← h2.width]
    unfold dotSized at hR
    split at hR
    · assumption
    · cases hR
  subst hit
  refine ⟨⟨hy2, ⟨r, hr3, hr2, rfl⟩, evaluated_ok.1 hAx⟩, rfl, rfl, ⟨_, hargs⟩, k1, k4, hfin, d1.trans h5.width, hdf,
    ⟨_, _, dl, h5, k2.trans d2.symm, k3, rfl, fun i hi => ?_⟩⟩
  show y'.getD i 0 = _
  rw [hy3 i hi, hx, zipAdd_getD hs.length h5.length hi]

/-! ### One solve -/

/-- What a solve without fault does. -/
structure Solves (a : PathAnalysis) (û : Nat → ℝ) (p : PathStrategy) (lam : ℝ) (x : List ℝ) (args : PathArgs) (s : Shown) : Prop where
  strategy : s.strategy = p
  length : s.x.length = a.dv.flags.length
  residual : ∃ r, (a.system s.lam).rawVector? s.x = some r ∧ r.length = a.dv.flags.length ∧
    (0 ≤ a.settings.maxIter → s.success = true → Real.sqrt (freeSq a.dv.flags (r.getD · 0)) ≤ a.settings.tol)
  constraint : 0 ≤ a.settings.maxIter → s.success = true → 0 < s.iterations → |s.args.f| ≤ a.settings.tol
  subsidiary : ∃ args, a.subsidiary p s.lam s.x args = .ok s.args
  stepSize : s.args.stepSize = args.stepSize
  idle : s.iterations = 0 → s.lam = lam ∧ s.x = x ∧ s.args.DD = args.DD ∧ s.args.Dlambda = args.Dlambda
  busy : 0 < s.iterations → args.DD.length = a.width ∧ ∃ s0, a.start p lam x args = .ok s0 ∧ s0.args.finite = true ∧
    s0.args.dfdDD.length = a.width
  invariant : ∀ P : ℝ → List ℝ → List ℝ → ℝ → Prop, P lam x args.DD args.Dlambda →
    (∀ lam x DD Dlambda c C dl y, x.length = a.dv.flags.length → DD.length = a.width → IsIncrement a.toAnalysis c C →
      (∀ i < a.dv.flags.length, y.getD i 0 = synced û (lam + dl) i (x.getD i 0 + C.getD i 0)) →
      P lam x DD Dlambda → P (lam + dl) y (List.zipWith (· + ·) DD c) (Dlambda + dl)) →
    P s.lam s.x s.args.DD s.args.Dlambda

theorem start_ok (h : Spec.Proper a.toAnalysis û) {p : PathStrategy} {lam : ℝ} {x : List ℝ} {args : PathArgs} {s : State}
    (hx : x.length = a.dv.flags.length) (hs : a.start p lam x args = .ok s) :
    Sound a s ∧ s.lam = lam ∧ s.x = x ∧ s.iter = 0 ∧ s.rNorm = Real.sqrt (sqNorm s.rx) ∧
      (∃ args', a.subsidiary p lam x args' = .ok s.args ∧ args'.DD = args.DD ∧ args'.dfdDD.length = a.width) ∧
      s.args.DD = args.DD ∧ s.args.Dlambda = args.Dlambda ∧ s.args.stepSize = args.stepSize := by
  unfold start at hs
  obtain ⟨r0, h0, hs⟩ := bind_ok.1 hs
  obtain ⟨rx, h1, hs⟩ := bind_ok.1 hs
  obtain ⟨Ax, h2, hs⟩ := bind_ok.1 hs
  obtain ⟨args', h3, hs⟩ := map_ok.1 hs
  obtain ⟨r, g1, g2, g3⟩ := residual_ok h lam hx
  obtain ⟨r', f1, f2, -⟩ := residual_ok h 1 (x := List.replicate x.length 0) (by simp [hx])
  rw [f1] at h0
  have h0 := (Except.ok.inj h0).symm
  rw [g1] at h1
  have h1 := (Except.ok.inj h1).symm
  obtain ⟨k1, k2, k3, k4⟩ := subsidiary_keeps h3
  subst hs
  refine ⟨⟨hx, ⟨r, g3, g2, h1⟩, evaluated_ok.1 h2⟩, rfl, rfl, rfl, rfl, ⟨_, h3, rfl, ?_⟩, k2, k3, k1⟩
  have hw : r0.length = a.width := by rw [h0, view_length f2]; rfl
  show (if _ then args.dfdDD else List.replicate r0.length 0).length = _
  split
  · omega
  · simp [hw]

theorem iterations_ok (h : Spec.Proper a.toAnalysis û) {p : PathStrategy} (n : Nat) {s s' : State} (hs : Sound a s)
    (hit : a.iterations p n s = .ok s') :
    Sound a s' ∧ s.iter ≤ s'.iter ∧ s'.iter ≤ s.iter + n ∧ (s'.iter = s.iter + n ∨ s'.rNorm ≤ a.settings.tol) ∧
      (s'.iter = s.iter → s' = s) ∧ (s.iter < s'.iter → (∃ t, Iterates a û p s t) ∧ ∃ t, Iterates a û p t s') ∧
      ∀ P : State → Prop, P s → (∀ t t', Sound a t → Iterates a û p t t' → P t → P t') → P s' := by
  induction n generalizing s with
  | zero =>
    simp only [iterations, Except.ok.injEq] at hit
    subst hit
    exact ⟨hs, le_rfl, le_rfl, .inl rfl, fun _ => rfl, fun h => absurd h (lt_irrefl _), fun P h _ => h⟩
  | succ n ih =>
    simp only [iterations] at hit
    split at hit
    · obtain ⟨t, h1, h2⟩ := bind_ok.1 hit
      have hst := iteration_ok h hs h1
      obtain ⟨i1, i2, i3, i4, i5, i6, i7⟩ := ih hst.sound h2
      have hi := hst.iter
      refine ⟨i1, by omega, by omega, by rcases i4 with i4 | i4; · exact .inl (by omega)
                                         · exact .inr i4, fun h => by omega, fun _ => ⟨⟨t, hst⟩, ?_⟩, fun P hP hstep =>
        i7 P (hstep s t hs hst hP) hstep⟩
      by_cases hlt : t.iter < s'.iter
      · exact (i6 hlt).2
      · rw [i5 (by omega)]; exact ⟨s, hst⟩
    · simp only [Except.ok.injEq] at hit
      subst hit
      exact ⟨hs, le_rfl, by omega, .inr (not_lt.1 ‹_›), fun _ => rfl, fun h => absurd h (lt_irrefl _), fun P h _ => h⟩

theorem solve_ok (h : Spec.Proper a.toAnalysis û) {p : PathStrategy} {lam : ℝ} {x : List ℝ} {args : PathArgs} {s : Shown}
    (hx : x.length = a.dv.flags.length) (hs : a.solve p lam x args = .ok s) : Solves a û p lam x args s := by
  unfold solve at hs
  obtain ⟨s0, hs0, hs⟩ := bind_ok.1 hs
  obtain ⟨t, ht, hs⟩ := map_ok.1 hs
  obtain ⟨b1, b2, b3, b4, b5, ⟨args0, b6, b7, b8⟩, b9, b10, b11⟩ := start_ok h hx hs0
  obtain ⟨c1, c2, c3, c4, c5, c6, c7⟩ := iterations_ok h _ b1 ht
  subst hs
  obtain ⟨r, r1, r2, r3⟩ := c1.residual
  have hsq : sqNorm t.rx = freeSq a.dv.flags (r.getD · 0) := by rw [r3, sqNorm_view _ _ _ r2]
  have hsucc : 0 ≤ a.settings.maxIter → decide ((t.iter : Int) ≠ a.settings.maxIter) = true → t.rNorm ≤ a.settings.tol := by
    intro hm hd
    rcases c4 with c4 | c4
    · have := of_decide_eq_true hd
      omega
    · exact c4
  refine ⟨rfl, c1.length, ⟨r, r1, r2, fun hm hd => ?_⟩, fun hm hd hit => ?_, ?_, ?_, fun hit => ?_, fun hit => ?_,
    fun P hP hstep => ?_⟩
  · have hn := hsucc hm hd
    by_cases hit : s0.iter < t.iter
    · obtain ⟨-, u, hu⟩ := c6 hit
      rw [hu.norm, hsq] at hn
      exact (Real.sqrt_le_sqrt (by nlinarith [mul_self_nonneg t.args.f])).trans hn
    · rw [c5 (by omega), b5] at hn
      rw [← hsq, c5 (by omega)]
      exact hn
  · have hn := hsucc hm hd
    obtain ⟨-, u, hu⟩ := c6 (by simp only at hit; omega)
    rw [hu.norm] at hn
    show |t.args.f| ≤ _
    rw [← Real.sqrt_sq_eq_abs, pow_two]
    exact (Real.sqrt_le_sqrt (by linarith [sqNorm_nonneg t.rx])).trans hn
  · show ∃ args, a.subsidiary p t.lam t.x args = .ok t.args
    by_cases hit : s0.iter < t.iter
    · obtain ⟨-, u, hu⟩ := c6 hit
      exact hu.subsidiary
    · rw [c5 (by omega), b2, b3]
      exact ⟨args0, b6⟩
  · exact c7 (fun t => t.args.stepSize = args.stepSize) b11 fun u v _ huv hu => huv.stepSize.trans hu
  · have : t = s0 := c5 (by simp only at hit; omega)
    subst this
    exact ⟨b2, b3, b9, b10⟩
  · obtain ⟨⟨u, hu⟩, -⟩ := c6 (by simp only at hit; omega)
    exact ⟨b9 ▸ hu.widthDD, s0, hs0, hu.finite, hu.widthdf⟩
  · refine c7 (fun t => P t.lam t.x t.args.DD t.args.Dlambda) (by rw [b2, b3, b9, b10]; exact hP) fun u v hu huv hPu => ?_
    obtain ⟨c, C, dl, e1, e2, e3, e4, e5⟩ := huv.increment
    rw [e2, e3, e4]
    rw [e4] at e5
    exact hstep _ _ _ _ c C dl _ hu.length huv.widthDD e1 e5 hPu

end PathAnalysis

end Ikarus
