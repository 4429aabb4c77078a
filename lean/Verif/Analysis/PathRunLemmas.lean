import Verif.Analysis.PathLemmas
import Mathlib.Data.List.Chain

/-!
Specification of the steps of path following, and what a run of it shows.
-/

namespace Ikarus

open Ikarus.Element Ikarus.Element.Spec

/-! ### Specification -/

/-- The controlled dofs of displacement control are free. -/
def Spec.Controls (flags : List Bool) : PathStrategy → Prop
  | .displacementControl controlled _ => ∀ i ∈ controlled, Spec.Free flags i
  | _ => True

/-- The size of the step from load factor `l` and displacements `u` to `l'` and `u'` as a user of the path following function
understands it: the length of the step in the space of displacements and load factor, the load increment, or the size of the
change of the controlled dofs. -/
noncomputable def Spec.stepLength (p : PathStrategy) (l : ℝ) (u : List ℝ) (l' : ℝ) (u' : List ℝ) : ℝ :=
  match p with
  | .arcLength psi _ => Real.sqrt ((∑ i ∈ Finset.range u'.length, (u'.getD i 0 - u.getD i 0) ^ 2) + psi ^ 2 * (l' - l) ^ 2)
  | .loadControl _ => l' - l
  | .displacementControl controlled _ => Real.sqrt (controlled.map fun i => (u'.getD i 0 - u.getD i 0) ^ 2).sum

/-- For arc length with prescribed displacements: they are met at both ends of the step, and the load factor extrapolated by the
step is not zero. -/
def Spec.ArcAdmissible (flags : List Bool) (û : Nat → ℝ) (p : PathStrategy) (l : ℝ) (u : List ℝ) (l' : ℝ) (u' : List ℝ) : Prop :=
  match p with
  | .arcLength _ _ => Spec.OnSupports flags û l u ∧ Spec.OnSupports flags û l' u' ∧
      ((∀ i < flags.length, û i = 0) ∨ 2 * l' ≠ l)
  | _ => True

/-- If the solve iterated and succeeded, the step which ends in `s` has the size asked for, up to `tol`. -/
def Spec.StepMet (flags : List Bool) (û : Nat → ℝ) (tol : ℝ) (l : ℝ) (u : List ℝ) (s : PathAnalysis.Shown) : Prop :=
  s.success = true → 0 < s.iterations → Spec.ArcAdmissible flags û s.strategy l u s.lam s.x →
    |Spec.stepLength s.strategy l u s.lam s.x - s.args.stepSize| ≤ tol

/-- Where the first step is measured from: load factor zero, and for displacement control displacements zero, whatever the state
at the start is. -/
def Spec.firstFrom (p : PathStrategy) (u : List ℝ) : List ℝ :=
  match p with
  | .displacementControl _ _ => List.replicate u.length 0
  | _ => u

namespace PathAnalysis

open Analysis (synced)

variable {a : PathAnalysis} {û : Nat → ℝ}

/-! ### Supports -/

/-- The constrained dofs: those without prescribed displacement are zero, the others follow the load factor unless it is zero. -/
def Supp (a : PathAnalysis) (û : Nat → ℝ) (lam : ℝ) (x : List ℝ) : Prop :=
  ∀ i < a.dv.flags.length, ¬ Spec.Free a.dv.flags i → (û i = 0 → x.getD i 0 = 0) ∧ (lam ≠ 0 → x.getD i 0 = lam * û i)

theorem supp_sync {l l' : ℝ} {x y : List ℝ} (h : Supp a û l x)
    (hy : ∀ i < a.dv.flags.length, ¬ Spec.Free a.dv.flags i → y.getD i 0 = synced û l' i (x.getD i 0)) : Supp a û l' y := by
  intro i hi hf
  have h1 := (h i hi hf).1
  rw [hy i hi hf]
  unfold synced
  split
  · rename_i h2
    exact ⟨fun h0 => by rw [h0, mul_zero], fun _ => rfl⟩
  · rename_i h2
    push Not at h2
    refine ⟨h1, fun h3 => ?_⟩
    have h4 : û i = 0 := (mul_eq_zero.1 h2).resolve_left h3
    rw [h1 h4, h4, mul_zero]

theorem supp_iff {l : ℝ} {x : List ℝ} (hx : x.length = a.dv.flags.length) (h : Supp a û l x)
    (hl : l ≠ 0 ∨ ∀ i < a.dv.flags.length, û i = 0) : Spec.OnSupports a.dv.flags û l x := by
  refine ⟨hx, fun i hi => ?_⟩
  have hlt := (List.getElem?_eq_some_iff.1 hi).1
  obtain ⟨h1, h2⟩ := h i hlt ((not_free_iff hlt).2 hi)
  rw [getElem?_eq_getD (hx ▸ hlt)]
  rcases hl with hl | hl
  · rw [h2 hl]
  · rw [h1 (hl i hlt), hl i hlt, mul_zero]

theorem supp_of_onSupports {l : ℝ} {x : List ℝ} (h : Spec.OnSupports a.dv.flags û l x) : Supp a û l x := by
  intro i hi hf
  have := h.2 i ((not_free_iff hi).1 hf)
  rw [List.getD_eq_getElem?_getD, this, Option.getD_some]
  exact ⟨fun h0 => by rw [h0, mul_zero], fun _ => rfl⟩

theorem solves_supp {p : PathStrategy} {lam : ℝ} {x : List ℝ} {args : PathArgs} {s : Shown}
    (h : Solves a û p lam x args s) (hx : Supp a û lam x) : Supp a û s.lam s.x := by
  refine h.invariant (fun l x _ _ => Supp a û l x) hx fun l x DD Dl c C dl y hxl _ hc hy hP => supp_sync hP fun i hi hf => ?_
  rw [hy i hi, hc.constrained i hi hf, add_zero]

/-! ### Increments -/

/-- The increment as displacement control handles it: of the size of the solution. -/
structure Loose (a : PathAnalysis) (D : List ℝ) : Prop where
  length : D.length = a.dv.flags.length
  constrained : ∀ i < a.dv.flags.length, ¬ Spec.Free a.dv.flags i → D.getD i 0 = 0

theorem view_id (hopt : a.option ≠ .raw) {D : List ℝ} (h : Loose a D) (hw : a.dv.flags.length = a.width) :
    view a.option a.dv.flags D = D := by
  cases ho : a.option with
  | raw => exact absurd ho hopt
  | full =>
    rw [view, if_pos rfl]
    apply List.ext_getElem?
    intro i
    by_cases hi : i < a.dv.flags.length
    · have hm : (Spec.mask a.dv.flags D).length = a.dv.flags.length := by simp [Spec.mask, h.length]
      rw [getElem?_eq_getD (hm ▸ hi), getElem?_eq_getD (h.length ▸ hi), mask_getD h.length]
      split
      · rfl
      · rw [h.constrained i hi ‹_›]
    · rw [List.getElem?_eq_none (by simp [Spec.mask]; omega), List.getElem?_eq_none (by rw [h.length]; omega)]
  | reduced =>
    rw [view, if_neg (by simp)]
    have hc : a.dv.flags.count false = a.dv.flags.length := by
      rw [hw, Analysis.width, if_neg (by rw [ho]; simp)]
    have hall : ∀ b ∈ a.dv.flags, b = false := fun b hb => (List.count_eq_length.1 hc b hb).symm
    have hl := h.length
    clear h hw hc ho
    revert hall hl
    generalize a.dv.flags = fl
    intro hall hl
    induction fl generalizing D with
    | nil => cases D with
      | nil => rfl
      | cons _ _ => cases hl
    | cons b fl ih =>
      cases D with
      | nil => cases hl
      | cons d D =>
        obtain rfl : b = false := hall b (by simp)
        have := ih (D := D) (fun b hb => hall b (by simp [hb])) (by simpa using hl)
        simp only [Spec.selectFree, this]
        rfl

/-- What is known of load factor, solution and increments between a prediction and the end of the solve. -/
def Track (a : PathAnalysis) (p : PathStrategy) (lb : ℝ) (xb : List ℝ) (lam : ℝ) (x DD : List ℝ) (Dl : ℝ) : Prop :=
  match p with
  | .arcLength _ _ => lam = lb + Dl ∧ ∃ D, IsIncrement a.toAnalysis DD D ∧
      ∀ i < a.dv.flags.length, Spec.Free a.dv.flags i → x.getD i 0 = xb.getD i 0 + D.getD i 0
  | .loadControl _ => lam = lb + Dl
  | .displacementControl _ _ => Loose a DD ∧ ∀ i < a.dv.flags.length, x.getD i 0 = xb.getD i 0 + DD.getD i 0

theorem synced_free (h : Spec.Proper a.toAnalysis û) (l : ℝ) {i : Nat} (hf : Spec.Free a.dv.flags i) (v : ℝ) :
    synced û l i v = v := by
  unfold synced
  rw [Analysis.proper_free_zero h hf, mul_zero, if_neg (by simp)]

theorem solves_track (h : Spec.Proper a.toAnalysis û) {p : PathStrategy} {lam : ℝ} {x : List ℝ} {args : PathArgs} {s : Shown}
    (hs : Solves a û p lam x args s) {lb : ℝ} {xb : List ℝ}
    (ht : Track a p lb xb lam x args.DD args.Dlambda) : Track a p lb xb s.lam s.x s.args.DD s.args.Dlambda := by
  refine hs.invariant (Track a p lb xb) ht fun l x DD Dl c C dl y hxl hw hc hy hP => ?_
  cases p with
  | arcLength psi predicted =>
    obtain ⟨h1, D, h2, h3⟩ := hP
    refine ⟨by rw [h1]; ring, _, (h2.add hc).2, fun i hi hf => ?_⟩
    rw [hy i hi, synced_free h _ hf, h3 i hi hf, zipAdd_getD h2.length hc.length hi, add_assoc]
  | loadControl predicted =>
    have h1 : l = lb + Dl := hP
    show l + dl = lb + (Dl + dl)
    rw [h1]; ring
  | displacementControl controlled predicted =>
    obtain ⟨h2, h3⟩ := hP
    have hz : a.withForce = false := by
      obtain ⟨_, hsub⟩ := hs.subsidiary
      by_contra hf
      simp only [subsidiary] at hsub
      rw [if_pos (by simpa using hf)] at hsub
      cases hsub
    have hcC : c = C := by rw [hc.eq]; exact view_id h.option ⟨hc.length, hc.constrained⟩ (h2.length.symm.trans hw)
    subst hcC
    refine ⟨⟨by simp [h2.length, hc.length], fun i hi hf => ?_⟩, fun i hi => ?_⟩
    · rw [zipAdd_getD h2.length hc.length hi, h2.constrained i hi hf, hc.constrained i hi hf, add_zero]
    · rw [hy i hi, unforced_synced h hz _ hi, h3 i hi, zipAdd_getD h2.length hc.length hi, add_assoc]

/-- The constraint in terms of the step. -/
theorem solves_step (h : Spec.Proper a.toAnalysis û) (hmax : 0 ≤ a.settings.maxIter) {p : PathStrategy} {lam : ℝ} {x : List ℝ}
    {args : PathArgs} {s : Shown} (hs : Solves a û p lam x args s) (hcon : Spec.Controls a.dv.flags p) {lb : ℝ} {xb : List ℝ}
    (ht : Track a p lb xb s.lam s.x s.args.DD s.args.Dlambda) : Spec.StepMet a.dv.flags û a.settings.tol lb xb s := by
  intro hsucc hit hadm
  refine le_trans (le_of_eq ?_) (hs.constraint hmax hsucc hit)
  congr 1
  obtain ⟨args0, hsub⟩ := hs.subsidiary
  obtain ⟨k1, k2, k3, -⟩ := subsidiary_keeps hsub
  rw [hs.strategy] at hadm ⊢
  cases p with
  | arcLength psi predicted =>
    obtain ⟨h1, D, h2, h3⟩ := ht
    obtain ⟨o1, o2, o3⟩ := hadm
    unfold subsidiary at hsub
    obtain ⟨δ, hδ, hsub⟩ := bind_ok.1 hsub
    obtain ⟨δ', d1, d2, d3⟩ := idbcIncrement_ok h s.lam args0.Dlambda hs.length
    rw [d1] at hδ
    obtain rfl := Except.ok.inj hδ
    have hf : s.args.f = Real.sqrt (sqNorm args0.DD + sqNorm δ' + psi * psi * args0.Dlambda * args0.Dlambda) - args0.stepSize := by
      simp only at hsub
      split at hsub <;> exact (congrArg PathArgs.f (Except.ok.inj hsub)).symm
    rw [hf, k1, ← k2, ← k3]
    unfold Spec.stepLength
    simp only
    congr 2
    rw [h2.sq, sqNorm_getD, d2, ← Finset.sum_add_distrib, hs.length]
    have hDl : s.args.Dlambda = s.lam - lb := by rw [h1]; ring
    congr 1
    · refine Finset.sum_congr rfl fun i hi => ?_
      have hi := Finset.mem_range.1 hi
      rw [d3 i hi, ← k3]
      by_cases hfree : Spec.Free a.dv.flags i
      · rw [synced_free h _ hfree, h3 i hi hfree]; ring
      · have e1 : s.x.getD i 0 = s.lam * û i := by
          rw [List.getD_eq_getElem?_getD, o2.2 i ((not_free_iff hi).1 hfree), Option.getD_some]
        have e2 : xb.getD i 0 = lb * û i := by
          rw [List.getD_eq_getElem?_getD, o1.2 i ((not_free_iff hi).1 hfree), Option.getD_some]
        have e3 : synced û (s.lam + s.args.Dlambda) i (s.x.getD i 0) = (s.lam + s.args.Dlambda) * û i := by
          unfold synced
          split
          · rfl
          · rename_i h0
            push Not at h0
            have : û i = 0 := by
              rcases o3 with o3 | o3
              · exact o3 i hi
              · refine (mul_eq_zero.1 h0).resolve_left fun h00 => o3 ?_
                rw [hDl] at h00; linarith
            rw [e1, this]; ring
        rw [e3, e1, e2, h2.constrained i hi hfree, hDl]; ring
    · rw [hDl]; ring
  | loadControl predicted =>
    have h1 : s.lam = lb + s.args.Dlambda := ht
    simp only [subsidiary] at hsub
    split at hsub
    · cases hsub
    · have hf : s.args.f = args0.Dlambda - args0.stepSize := (congrArg PathArgs.f (Except.ok.inj hsub)).symm
      rw [hf, k1, ← k3]
      show s.lam - lb - _ = _
      rw [h1]; ring
  | displacementControl controlled predicted =>
    obtain ⟨h2, h3⟩ := ht
    simp only [subsidiary] at hsub
    split at hsub
    · cases hsub
    · rename_i hwf
      obtain ⟨-, -, hsub⟩ := bind_ok.1 hsub
      obtain ⟨-, -, hsub⟩ := map_ok.1 hsub
      have hf : s.args.f = normAt controlled args0.DD - args0.stepSize := (congrArg PathArgs.f hsub).symm
      rw [hf, k1, ← k2]
      unfold Spec.stepLength normAt sqNorm
      simp only [List.map_map]
      congr 3
      refine List.map_congr_left fun i hi => ?_
      rw [h3 i (free_lt (hcon i hi))]
      simp only [Function.comp]
      ring

/-! ### Predictions -/

theorem foldl_set_getD (v0 : ℝ) (is : List Nat) (v : List ℝ) {i : Nat} (hi : i ∉ is) :
    (is.foldl (fun v j => v.set j v0) v).getD i 0 = v.getD i 0 := by
  induction is generalizing v with
  | nil => rfl
  | cons j is ih =>
    rw [List.foldl_cons, ih _ fun h => hi (by simp [h])]
    simp only [List.getD_eq_getElem?_getD]
    rw [List.getElem?_set_ne fun h => hi (by simp [h])]

/-- A prediction has been made. -/
def Ready : PathStrategy → Prop
  | .arcLength _ b => b = true
  | .loadControl b => b = true
  | .displacementControl _ b => b = true

/-- What a prediction without fault does; the step is measured from `lb` and `xb`. -/
structure Predicts (a : PathAnalysis) (û : Nat → ℝ) (lb : ℝ) (xb : List ℝ) (q : Predicted) : Prop where
  length : q.x.length = a.dv.flags.length
  supp : Supp a û q.lam q.x
  controls : Spec.Controls a.dv.flags q.strategy
  ready : Ready q.strategy
  track : Track a q.strategy lb xb q.lam q.x q.args.DD q.args.Dlambda

theorem unforced_zero (h : Spec.Proper a.toAnalysis û) (hf : ¬ a.withForce = true) {i : Nat} (hi : i < a.dv.flags.length) :
    û i = 0 := (h.force.resolve_left hf) i hi

theorem initial_ok (h : Spec.ProperPath a û) {p : PathStrategy} {l : ℝ} {x : List ℝ} {args : PathArgs} {q : Predicted}
    (hx : x.length = a.dv.flags.length) (hsupp : Supp a û l x) (hcon : Spec.Controls a.dv.flags p)
    (hDD : (∃ cs b, p = .displacementControl cs b) → Loose a args.DD) (hq : a.initialPrediction p l x args = .ok q) :
    Predicts a û 0 (Spec.firstFrom p x) q := by
  cases p with
  | arcLength psi predicted =>
    simp only [initialPrediction] at hq
    obtain ⟨δ, hδ, hq⟩ := bind_ok.1 hq
    obtain ⟨R, hR, hq⟩ := bind_ok.1 hq
    obtain ⟨K, hK, hq⟩ := bind_ok.1 hq
    obtain ⟨R', hR', hq⟩ := bind_ok.1 hq
    have hK := evaluated_ok.1 hK
    obtain ⟨r, g1, g2, g3⟩ := residual_ok h.proper 1 hx
    rw [g1] at hR
    have hR := (Except.ok.inj hR).symm
    have hRv : ∃ B, R' = view a.option a.dv.flags B ∧ B.length = a.dv.flags.length := by
      by_cases hf : a.withForce = true
      · rw [if_pos hf, hR] at hR'
        obtain ⟨B, b1, b2⟩ := Analysis.addForce_view h.proper 1 1 hx g2
        rw [b1] at hR'
        exact ⟨B, (Except.ok.inj hR').symm, b2⟩
      · rw [if_neg hf] at hR'
        exact ⟨r, (Except.ok.inj hR').symm.trans hR, g2⟩
    obtain ⟨B, hB, hBl⟩ := hRv
    obtain ⟨D, hD⟩ := Analysis.answers_increment h.proper hx hK (h.spd 1 x hx K hK) (B := B.map fun b => -b) (by simp [hBl])
    rw [hB, view_neg] at hq
    generalize a.spd K (view a.option a.dv.flags (B.map fun b => -b)) = DD at hD hq
    generalize Real.sqrt (sqNorm DD + sqNorm δ + Real.sqrt (sqNorm DD + sqNorm δ) * Real.sqrt (sqNorm DD + sqNorm δ)) = s at hq
    split at hq
    · cases hq
    obtain ⟨y, hy, hq⟩ := bind_ok.1 hq
    obtain ⟨z, hz, hq⟩ := bind_ok.1 hq
    have hD' := hD.smul (args.stepSize / s)
    have he : (fun d : ℝ => d * args.stepSize / s) = fun b => b * (args.stepSize / s) := funext fun d => mul_div_assoc _ _ _
    simp only [he] at hq hy
    rw [hD'.update h.proper.option 1 hx] at hy
    have hy := (Except.ok.inj hy).symm
    have hyl : y.length = a.dv.flags.length := by rw [hy]; simp [hx, hD.length]
    obtain ⟨z', z1, z2, z3⟩ := synchronised_ok h.proper (args.stepSize / s) hyl
    rw [z1] at hz
    have hz := (Except.ok.inj hz).symm
    split at hq
    · cases hq
    have hq := (Except.ok.inj hq).symm
    subst hq hz
    refine ⟨z2, supp_sync hsupp fun i hi hf => ?_, trivial, rfl, ⟨(zero_add _).symm, _, hD', fun i hi hf => ?_⟩⟩
    · show z.getD i 0 = _
      rw [z3 i hi, hy, zipAdd_getD hx hD'.length hi, hD'.constrained i hi hf, add_zero]
    · show z.getD i 0 = _
      rw [z3 i hi, synced_free h.proper _ hf, hy, zipAdd_getD hx hD'.length hi]
      rfl
  | loadControl predicted =>
    simp only [initialPrediction] at hq
    split at hq
    · cases hq
    have hq := (Except.ok.inj hq).symm
    subst hq
    refine ⟨hx, supp_sync hsupp fun i hi hf => ?_, trivial, rfl, (zero_add _).symm⟩
    rw [unforced_synced h.proper (by simpa using ‹¬ a.withForce = true›) _ hi]
  | displacementControl controlled predicted =>
    simp only [initialPrediction] at hq
    split at hq
    · cases hq
    rename_i hwf
    obtain ⟨-, -, hq⟩ := map_ok.1 hq
    have hL := hDD ⟨_, _, rfl⟩
    subst hq
    have hlen : (controlled.foldl (fun v i => v.set i args.stepSize) args.DD).length = a.dv.flags.length := by
      rw [foldl_set_length (fun _ => args.stepSize), hL.length]
    have hzero : ∀ i < a.dv.flags.length, ¬ Spec.Free a.dv.flags i →
        (controlled.foldl (fun v i => v.set i args.stepSize) args.DD).getD i 0 = 0 := by
      intro i hi hf
      rw [foldl_set_getD _ _ _ fun hm => hf (hcon i hm), hL.constrained i hi hf]
    refine ⟨hlen, fun i hi hf => ?_, hcon, rfl, ⟨hlen, hzero⟩, fun i hi => ?_⟩
    · rw [unforced_zero h.proper hwf hi, mul_zero]
      exact ⟨fun _ => hzero i hi hf, fun _ => hzero i hi hf⟩
    · have : (Spec.firstFrom (.displacementControl controlled predicted) x).getD i 0 = 0 := by
        show (List.replicate x.length 0).getD i 0 = 0
        rw [List.getD_eq_getElem?_getD, List.getElem?_replicate]
        split <;> rfl
      rw [this, zero_add]

theorem intermediate_ok (h : Spec.ProperPath a û) {p : PathStrategy} {l : ℝ} {x : List ℝ} {args : PathArgs} {q : Predicted}
    (hx : x.length = a.dv.flags.length) (hsupp : Supp a û l x) (hcon : Spec.Controls a.dv.flags p) {lb : ℝ} {xb : List ℝ}
    (ht : Track a p lb xb l x args.DD args.Dlambda) (hq : a.intermediatePrediction p l x args = .ok q) :
    Predicts a û l x q ∧ q.strategy = p ∧ q.args = args := by
  cases p with
  | arcLength psi predicted =>
    obtain ⟨-, D, hD, -⟩ := ht
    simp only [intermediatePrediction] at hq
    split at hq
    · cases hq
    obtain ⟨y, hy, hq⟩ := bind_ok.1 hq
    obtain ⟨z, hz, hq⟩ := map_ok.1 hq
    rw [hD.update h.proper.option l hx] at hy
    have hy := (Except.ok.inj hy).symm
    have hyl : y.length = a.dv.flags.length := by rw [hy]; simp [hx, hD.length]
    obtain ⟨z', z1, z2, z3⟩ := synchronised_ok h.proper (l + args.Dlambda) hyl
    rw [z1] at hz
    have hz := (Except.ok.inj hz).symm
    subst hq hz
    refine ⟨⟨z2, supp_sync hsupp fun i hi hf => ?_, trivial, by simpa [Ready] using ‹¬ predicted = false›,
      ⟨rfl, _, hD, fun i hi hf => ?_⟩⟩, rfl, rfl⟩
    · show z.getD i 0 = _
      rw [z3 i hi, hy, zipAdd_getD hx hD.length hi, hD.constrained i hi hf, add_zero]
    · show z.getD i 0 = _
      rw [z3 i hi, synced_free h.proper _ hf, hy, zipAdd_getD hx hD.length hi]
  | loadControl predicted =>
    simp only [intermediatePrediction] at hq
    split at hq
    · cases hq
    split at hq
    · cases hq
    have hq := (Except.ok.inj hq).symm
    subst hq
    refine ⟨⟨hx, supp_sync hsupp fun i hi hf => ?_, trivial, by simpa [Ready] using ‹¬ predicted = false›, rfl⟩, rfl, rfl⟩
    rw [unforced_synced h.proper (by simpa using ‹¬ a.withForce = true›) _ hi]
  | displacementControl controlled predicted =>
    obtain ⟨hL, -⟩ := ht
    simp only [intermediatePrediction] at hq
    split at hq
    · cases hq
    rename_i hwf
    split at hq
    · cases hq
    obtain ⟨y, hy, hq⟩ := map_ok.1 hq
    have hy := (addSized_ok.1 hy).2.symm
    subst hq
    have hyi : ∀ i < a.dv.flags.length, y.getD i 0 = x.getD i 0 + args.DD.getD i 0 := fun i hi => by
      rw [hy, zipAdd_getD hx hL.length hi]
    refine ⟨⟨by rw [hy]; simp [hx, hL.length], fun i hi hf => ?_, hcon, by simpa [Ready] using ‹¬ predicted = false›, hL, hyi⟩,
      rfl, rfl⟩
    show (û i = 0 → y.getD i 0 = 0) ∧ (l ≠ 0 → y.getD i 0 = l * û i)
    rw [hyi i hi, hL.constrained i hi hf, add_zero]
    exact hsupp i hi hf

/-! ### Runs -/

/-- What is known of a state that is shown. -/
structure Fine (a : PathAnalysis) (û : Nat → ℝ) (s : Shown) : Prop where
  length : s.x.length = a.dv.flags.length
  residual : ∃ r, (a.system s.lam).rawVector? s.x = some r ∧ r.length = a.dv.flags.length ∧
    (s.success = true → Real.sqrt (freeSq a.dv.flags (r.getD · 0)) ≤ a.settings.tol)
  supp : Supp a û s.lam s.x

theorem solves_fine (hmax : 0 ≤ a.settings.maxIter) {p : PathStrategy} {lam : ℝ} {x : List ℝ} {args : PathArgs} {s : Shown}
    (hs : Solves a û p lam x args s) (hx : Supp a û lam x) : Fine a û s := by
  obtain ⟨r, h1, h2, h3⟩ := hs.residual
  exact ⟨hs.length, ⟨r, h1, h2, h3 hmax⟩, solves_supp hs hx⟩

theorem loop_ok (h : Spec.ProperPath a û) (hmax : 0 ≤ a.settings.maxIter) (n ls : Nat) {prev : Shown} {r : Run}
    (hfine : Fine a û prev) (hcon : Spec.Controls a.dv.flags prev.strategy) {lb : ℝ} {xb : List ℝ}
    (ht : Track a prev.strategy lb xb prev.lam prev.x prev.args.DD prev.args.Dlambda) (hr : a.loop n ls prev = .ok r) :
    (∀ s ∈ r.shown, Fine a û s) ∧ r.shown.length ≤ n ∧
      (r.success = true ↔ r.shown.length = n ∧ ∀ s ∈ r.shown, s.success = true) ∧
      List.IsChain (fun s t => Spec.StepMet a.dv.flags û a.settings.tol s.lam s.x t) (prev :: r.shown) := by
  induction n generalizing ls prev r lb xb with
  | zero =>
    simp only [loop, Except.ok.injEq] at hr
    subst hr
    exact ⟨by simp, le_rfl, by simp, by simp⟩
  | succ n ih =>
    simp only [loop] at hr
    obtain ⟨size, -, hr⟩ := bind_ok.1 hr
    obtain ⟨q, hq, hr⟩ := bind_ok.1 hr
    obtain ⟨s, hs, hr⟩ := bind_ok.1 hr
    obtain ⟨hp, hps, -⟩ := intermediate_ok h hfine.length hfine.supp hcon (args := { { prev.args with currentStep := ls } with stepSize := size }) ht hq
    have hsol := solve_ok h.proper hp.length hs
    have hsf := solves_fine hmax hsol hp.supp
    have hst := solves_track h.proper hsol hp.track
    have hmet := solves_step h.proper hmax hsol hp.controls hst
    split at hr
    · rename_i hns
      have hns : s.success = false := by simpa using hns
      simp only [Except.ok.injEq] at hr
      subst hr
      refine ⟨by simpa using hsf, by simp, ?_, by simpa using hmet⟩
      simp [hns]
    · rename_i hss
      have hss : s.success = true := by simpa using hss
      obtain ⟨r', hr', hr⟩ := map_ok.1 hr
      subst hr
      rw [← hsol.strategy] at hst
      obtain ⟨i1, i2, i3, i4⟩ := ih (ls + 1) hsf (by rw [hsol.strategy]; exact hp.controls) hst hr'
      refine ⟨fun t ht => ?_, by simpa using i2, ?_, ?_⟩
      · rcases List.mem_cons.1 ht with rfl | ht
        · exact hsf
        · exact i1 t ht
      · simp only [i3, List.length_cons, Nat.add_right_cancel_iff, List.mem_cons, forall_eq_or_imp, hss, true_and]
      · exact List.isChain_cons_cons.2 ⟨hmet, i4⟩

theorem run_ok (h : Spec.ProperPath a û) (hmax : 0 ≤ a.settings.maxIter) {p : PathStrategy} {l0 : ℝ} {x0 : List ℝ} {r : Run}
    (hx0 : Spec.OnSupports a.dv.flags û l0 x0) (hcon : Spec.Controls a.dv.flags p) (hr : a.run p l0 x0 = .ok r) :
    0 < r.shown.length ∧ r.shown.length ≤ a.steps + 1 ∧
      (r.success = true ↔ r.shown.length = a.steps + 1 ∧ ∀ s ∈ r.shown, s.success = true) ∧
      (∀ s ∈ r.shown, Fine a û s) ∧
      (∀ s t rest, r.shown = s :: t :: rest → Spec.StepMet a.dv.flags û a.settings.tol 0 (Spec.firstFrom p s.x) t) ∧
      List.IsChain (fun s t => Spec.StepMet a.dv.flags û a.settings.tol s.lam s.x t) r.shown.tail := by
  unfold run at hr
  split at hr
  · cases hr
  rename_i hsteps
  obtain ⟨s0, hs0, hr⟩ := bind_ok.1 hr
  have hsol := solve_ok h.proper hx0.1 hs0
  have hsf := solves_fine hmax hsol (supp_of_onSupports hx0)
  split at hr
  · rename_i hns
    have hns : s0.success = false := by simpa using hns
    simp only [Except.ok.injEq] at hr
    subst hr
    refine ⟨by simp, by simp, by simp [hns], by simpa using hsf, by simp, by simp⟩
  · rename_i hss
    have hss : s0.success = true := by simpa using hss
    obtain ⟨q, hq, hr⟩ := bind_ok.1 hr
    obtain ⟨s1, hs1, hr⟩ := bind_ok.1 hr
    rw [hsol.strategy] at hq
    have hpred := initial_ok h hsol.length hsf.supp hcon (fun ⟨cs, b, hp⟩ => by
      subst hp
      have ht := solves_track h.proper hsol (lb := l0) (xb := x0) (by
        refine ⟨⟨by simp [PathArgs.setZero, hx0.1], fun i hi _ => ?_⟩, fun i hi => ?_⟩
        · simp [PathArgs.setZero, List.getD_eq_getElem?_getD, hx0.1, hi]
        · simp [PathArgs.setZero, List.getD_eq_getElem?_getD, hx0.1, hi])
      exact ht.1) hq
    have hsol1 := solve_ok h.proper hpred.length hs1
    have hsf1 := solves_fine hmax hsol1 hpred.supp
    have hst1 := solves_track h.proper hsol1 hpred.track
    have hmet := solves_step h.proper hmax hsol1 hpred.controls hst1
    split at hr
    · rename_i hns
      have hns : s1.success = false := by simpa using hns
      simp only [Except.ok.injEq] at hr
      subst hr
      refine ⟨by simp, by simp; omega, by simp [hns], by simp [hsf, hsf1], ?_, by simp⟩
      rintro s t rest he
      cases he
      exact hmet
    · rename_i hss1
      have hss1 : s1.success = true := by simpa using hss1
      obtain ⟨r', hr', hr⟩ := map_ok.1 hr
      subst hr
      rw [← hsol1.strategy] at hst1
      obtain ⟨i1, i2, i3, i4⟩ := loop_ok h hmax _ _ hsf1 (by rw [hsol1.strategy]; exact hpred.controls) hst1 hr'
      refine ⟨by simp, by simp; omega, ?_, ?_, ?_, i4⟩
      · simp only [i3, List.length_cons, List.mem_cons, forall_eq_or_imp, hss, hss1, true_and]
        exact and_congr_left fun _ => by omega
      · intro t ht
        rcases List.mem_cons.1 ht with rfl | ht
        · exact hsf
        rcases List.mem_cons.1 ht with rfl | ht
        · exact hsf1
        · exact i1 t ht
      · rintro s t rest he
        cases he
        exact hmet

end PathAnalysis

end Ikarus
