import Verif.Analysis.ArcAbstractLemmas
import Verif.Analysis.PathLinearProps
import Mathlib.Analysis.InnerProductSpace.ProdL2

/-!
Lemmas on arc length for nonlinear structures: displacements of the free dofs and load factor as a point of Euclidean space, and
the iterations of the solver as Newton's method there.
-/

set_option linter.unusedSectionVars false

namespace Ikarus

open Ikarus.Element Ikarus.Element.Spec

/-! ### Specification -/

/-- Displacements that leave the constrained dofs where they are. -/
def Spec.Still (flags : List Bool) (x : List ℝ) : Prop :=
  x.length = flags.length ∧ ∀ i < flags.length, ¬ Spec.Free flags i → x.getD i 0 = 0

/-- The distance of two states in the space of displacements and load factor, the load factor scaled by `psi`. -/
noncomputable def Spec.arcDistance (psi l : ℝ) (x : List ℝ) (l' : ℝ) (x' : List ℝ) : ℝ :=
  Real.sqrt (Spec.distance x' x ^ 2 + psi ^ 2 * (l' - l) ^ 2)

/-- The loads are proportional to the load factor and do not depend on the displacements. -/
def Spec.ProportionalLoads (a : Analysis) : Prop :=
  ∀ (l : ℝ) (x r r0 f : List ℝ), x.length = a.dv.flags.length → (a.system l).rawVector? x = some r →
    (a.system 0).rawVector? x = some r0 → (a.system 1).rawVector? (List.replicate a.dv.flags.length 0) = some f →
    ∀ i, Spec.Free a.dv.flags i → r.getD i 0 = r0.getD i 0 + l * f.getD i 0

/-- At the states of a region `S` the elements fulfil their contract (forces and stiffness are derivatives), the stiffness changes
with the state at a rate of at most `L`, and the path through the state is regular: the forces change, to first order, along
exactly one direction `t` of displacements and load factor not at all, and orthogonally to it by at least `1 / beta` times the
change of the state.  This allows the stiffness matrix to be singular, as it is at limit points. -/
structure Spec.ArcRegular (a : Analysis) (psi beta L : ℝ) (S : ℝ → List ℝ → Prop) : Prop where
  contract : ∀ l u, S l u → Spec.SystemContract (a.system l) u
  lipschitz : ∀ l u l' u', S l u → S l' u' → ∀ K K', (a.system l).rawMatrix? u = some K →
    (a.system l').rawMatrix? u' = some K' → ∀ v, Spec.Still a.dv.flags v →
    Spec.freeSize a.dv.flags (fun i => Spec.times K v i - Spec.times K' v i) ≤ L * Spec.distance u u' * Spec.size v
  regular : ∀ l u, S l u → ∀ K f, (a.system l).rawMatrix? u = some K →
    (a.system 1).rawVector? (List.replicate a.dv.flags.length 0) = some f → ∃ t tl, Spec.Still a.dv.flags t ∧
    Spec.size t ^ 2 + psi ^ 2 * tl ^ 2 = 1 ∧ (∀ i, Spec.Free a.dv.flags i → Spec.times K t i + tl * f.getD i 0 = 0) ∧
    ∀ w wl, Spec.Still a.dv.flags w →
      (∑ i ∈ Finset.range a.dv.flags.length, t.getD i 0 * w.getD i 0) + psi ^ 2 * tl * wl = 0 →
      Real.sqrt (Spec.size w ^ 2 + psi ^ 2 * wl ^ 2) ≤
        beta * Spec.freeSize a.dv.flags (fun i => Spec.times K w i + wl * f.getD i 0)

/-! ### The space of displacements and load factor -/

namespace Arc

/-- Displacements of the free dofs, and the scaled load factor. -/
abbrev Space (flags : List Bool) : Type :=
  WithLp 2 (EuclideanSpace ℝ {i : Fin flags.length // Spec.Free flags i} × ℝ)

variable {flags : List Bool} {psi : ℝ}

noncomputable def pt (flags : List Bool) (psi : ℝ) (f : Nat → ℝ) (l : ℝ) : Space flags :=
  WithLp.toLp 2 (WithLp.toLp 2 fun i => f i.1, psi * l)

/-- The displacements of a point. -/
noncomputable def part (z : Space flags) (i : Nat) : ℝ :=
  if h : ∃ _ : i < flags.length, Spec.Free flags i then z.fst ⟨⟨i, h.1⟩, h.2⟩ else 0

noncomputable def load (psi : ℝ) (z : Space flags) : ℝ := z.snd / psi

theorem part_free (z : Space flags) {i : Nat} (hi : i < flags.length) (hf : Spec.Free flags i) : part z i = z.fst ⟨⟨i, hi⟩, hf⟩ := by
  unfold part
  rw [dif_pos ⟨hi, hf⟩]

theorem part_fixed (z : Space flags) {i : Nat} (hf : ¬ Spec.Free flags i) : part z i = 0 := by
  unfold part
  rw [dif_neg fun h => hf h.2]

theorem part_pt (f : Nat → ℝ) (l : ℝ) {i : Nat} (hf : Spec.Free flags i) : part (pt flags psi f l) i = f i := by
  rw [part_free _ (free_lt hf) hf]
  rfl

theorem load_pt (hpsi : psi ≠ 0) (f : Nat → ℝ) (l : ℝ) : load psi (pt flags psi f l) = l := by
  show psi * l / psi = l
  field_simp

theorem pt_part (hpsi : psi ≠ 0) (z : Space flags) : pt flags psi (part z) (load psi z) = z := by
  apply WithLp.ofLp_injective
  refine Prod.ext ?_ ?_
  · apply WithLp.ofLp_injective
    funext i
    exact part_free z i.1.2 i.2
  · show psi * (z.snd / psi) = z.snd
    field_simp

theorem part_add (z w : Space flags) (i : Nat) : part (z + w) i = part z i + part w i := by
  by_cases hf : Spec.Free flags i
  · rw [part_free _ (free_lt hf) hf, part_free _ (free_lt hf) hf, part_free _ (free_lt hf) hf]
    rfl
  · rw [part_fixed _ hf, part_fixed _ hf, part_fixed _ hf, add_zero]

theorem part_smul (c : ℝ) (z : Space flags) (i : Nat) : part (c • z) i = c * part z i := by
  by_cases hf : Spec.Free flags i
  · rw [part_free _ (free_lt hf) hf, part_free _ (free_lt hf) hf]
    rfl
  · rw [part_fixed _ hf, part_fixed _ hf, mul_zero]

theorem load_add (z w : Space flags) : load psi (z + w) = load psi z + load psi w := add_div z.snd w.snd psi

theorem load_smul (c : ℝ) (z : Space flags) : load psi (c • z) = c * load psi z := mul_div_assoc c z.snd psi

theorem pt_congr {f g : Nat → ℝ} {l m : ℝ} (h : ∀ i, Spec.Free flags i → f i = g i) (hl : l = m) :
    pt flags psi f l = pt flags psi g m := by
  subst hl
  unfold pt
  congr 2
  congr 1
  funext i
  exact h _ i.2

theorem pt_sub (f g : Nat → ℝ) (l m : ℝ) : pt flags psi f l - pt flags psi g m = pt flags psi (fun i => f i - g i) (l - m) := by
  apply WithLp.ofLp_injective
  refine Prod.ext ?_ ?_
  · rfl
  · exact (mul_sub psi l m).symm

theorem pt_add (f g : Nat → ℝ) (l m : ℝ) : pt flags psi f l + pt flags psi g m = pt flags psi (fun i => f i + g i) (l + m) := by
  apply WithLp.ofLp_injective
  refine Prod.ext ?_ ?_
  · rfl
  · exact (mul_add psi l m).symm

theorem sum_free (g : Nat → ℝ) :
    ∑ i : {i : Fin flags.length // Spec.Free flags i}, g i.1 = ∑ i ∈ (Finset.range flags.length).filter (fun i => Spec.Free flags i), g i := by
  rw [Finset.sum_filter, Finset.sum_range, ← Finset.sum_filter]
  exact (Finset.sum_subtype (p := fun i : Fin flags.length => Spec.Free flags i) _ (by simp) (fun i : Fin flags.length => g i)).symm

theorem pt_inner (f g : Nat → ℝ) (l m : ℝ) : inner ℝ (pt flags psi f l) (pt flags psi g m) =
    (∑ i ∈ (Finset.range flags.length).filter (fun i => Spec.Free flags i), f i * g i) + psi ^ 2 * l * m := by
  rw [WithLp.prod_inner_apply, ← sum_free fun i => f i * g i]
  congr 1
  · rw [PiLp.inner_apply]
    refine Finset.sum_congr rfl fun i _ => ?_
    show g i.1 * f i.1 = _
    ring
  · show psi * m * (psi * l) = _
    ring

theorem pt_norm (f : Nat → ℝ) (l : ℝ) : ‖pt flags psi f l‖ ^ 2 =
    (∑ i ∈ (Finset.range flags.length).filter (fun i => Spec.Free flags i), f i ^ 2) + psi ^ 2 * l ^ 2 := by
  rw [← real_inner_self_eq_norm_sq, pt_inner]
  congr 1
  · exact Finset.sum_congr rfl fun i _ => by ring
  · ring

/-- The displacements of all dofs. -/
noncomputable def disp (z : Space flags) : List ℝ := listOf flags.length (part z)

theorem disp_length (z : Space flags) : (disp z).length = flags.length := listOf_length _ _

theorem disp_getD (z : Space flags) (i : Nat) : (disp z).getD i 0 = part z i := by
  by_cases hi : i < flags.length
  · exact listOf_getD _ _ hi
  · rw [List.getD_eq_getElem?_getD, List.getElem?_eq_none (by rw [disp_length]; omega)]
    unfold part
    rw [dif_neg fun h => hi h.1]
    rfl

theorem disp_still (z : Space flags) : Spec.Still flags (disp z) :=
  ⟨disp_length z, fun i _ hf => by rw [disp_getD, part_fixed z hf]⟩

theorem disp_pt {x : List ℝ} (hx : Spec.Still flags x) (l : ℝ) : disp (pt flags psi (x.getD · 0) l) = x := by
  apply List.ext_getElem?
  intro i
  by_cases hi : i < flags.length
  · rw [getElem?_eq_getD (by rw [disp_length]; exact hi), getElem?_eq_getD (hx.1 ▸ hi), disp_getD]
    by_cases hf : Spec.Free flags i
    · rw [part_pt _ _ hf]
    · rw [part_fixed _ hf, hx.2 i hi hf]
  · rw [List.getElem?_eq_none (by rw [disp_length]; omega), List.getElem?_eq_none (by rw [hx.1]; omega)]

theorem disp_line (z v : Space flags) (t : ℝ) : disp (z + t • v) = Spec.line (disp z) (disp v) t := by
  apply List.ext_getElem?
  intro i
  by_cases hi : i < flags.length
  · rw [getElem?_eq_getD (by rw [disp_length]; exact hi), getElem?_eq_getD (by
      rw [line_length _ _ _ ((disp_length z).trans (disp_length v).symm), disp_length]; exact hi),
      Analysis.line_getD flags.length _ _ _ (disp_length z) (disp_length v) hi, disp_getD, disp_getD, disp_getD, part_add, part_smul]
  · rw [List.getElem?_eq_none (by rw [disp_length]; omega), List.getElem?_eq_none (by
      rw [line_length _ _ _ ((disp_length z).trans (disp_length v).symm), disp_length]; omega)]

theorem still_sq {x : List ℝ} (hx : Spec.Still flags x) (g : Nat → ℝ → ℝ) (hg : ∀ i, g i 0 = 0) :
    ∑ i ∈ (Finset.range flags.length).filter (fun i => Spec.Free flags i), g i (x.getD i 0) =
      ∑ i ∈ Finset.range flags.length, g i (x.getD i 0) := by
  rw [Finset.sum_filter]
  refine Finset.sum_congr rfl fun i hi => ?_
  split
  · rfl
  · rw [hx.2 i (Finset.mem_range.1 hi) ‹_›, hg]

theorem size_sq {x : List ℝ} (hx : x.length = flags.length) : Spec.size x ^ 2 = ∑ i ∈ Finset.range flags.length, x.getD i 0 ^ 2 := by
  rw [size_eq flags.length x hx, vec_norm, Real.sq_sqrt (Finset.sum_nonneg fun i _ => sq_nonneg _)]

theorem norm_still {x : List ℝ} (hx : Spec.Still flags x) (l : ℝ) :
    ‖pt flags psi (x.getD · 0) l‖ ^ 2 = Spec.size x ^ 2 + psi ^ 2 * l ^ 2 := by
  rw [pt_norm, size_sq hx.1, still_sq hx (fun _ v => v ^ 2) (by simp)]

theorem distance_sq {x y : List ℝ} (hx : x.length = flags.length) (hy : y.length = flags.length) :
    Spec.distance x y ^ 2 = ∑ i ∈ Finset.range flags.length, (x.getD i 0 - y.getD i 0) ^ 2 := by
  rw [distance_eq flags.length x y hx hy, vec_norm, Real.sq_sqrt (Finset.sum_nonneg fun i _ => sq_nonneg _)]

theorem arcDistance_eq {x y : List ℝ} (hx : Spec.Still flags x) (hy : Spec.Still flags y) (l m : ℝ) :
    Spec.arcDistance psi m y l x = ‖pt flags psi (x.getD · 0) l - pt flags psi (y.getD · 0) m‖ := by
  unfold Spec.arcDistance
  rw [Real.sqrt_eq_iff_mul_self_eq (by positivity) (norm_nonneg _), ← pow_two, pt_sub, pt_norm, distance_sq hx.1 hy.1,
    Finset.sum_filter]
  congr 1
  refine Finset.sum_congr rfl fun i hi => ?_
  split
  · rfl
  · rw [hx.2 i (Finset.mem_range.1 hi) ‹_›, hy.2 i (Finset.mem_range.1 hi) ‹_›, sub_zero]
    norm_num

/-! ### Forces and stiffness -/

variable (a : Analysis)

/-- The forces at the free dofs. -/
noncomputable def forces (psi : ℝ) (z : Space a.dv.flags) : EuclideanSpace ℝ (Fin a.dv.flags.length) :=
  freeVec a.dv.flags fun i => (((a.system (load psi z)).rawVector? (disp z)).getD []).getD i 0

/-- The derivative of the forces; `f` are those of the undeformed structure at load factor one. -/
noncomputable def tangent (psi : ℝ) (f : List ℝ) (z : Space a.dv.flags) :
    Space a.dv.flags →ₗ[ℝ] EuclideanSpace ℝ (Fin a.dv.flags.length) where
  toFun v := freeVec a.dv.flags fun i =>
    Spec.times (((a.system (load psi z)).rawMatrix? (disp z)).getD (DMat.zero 0 0)) (disp v) i + load psi v * f.getD i 0
  map_add' v w := by
    rw [← freeVec_add]
    refine freeVec_congr fun i _ => ?_
    rw [Analysis.times_eq _ (disp_length _), Analysis.times_eq _ (disp_length _), Analysis.times_eq _ (disp_length _), load_add]
    simp only [disp_getD, part_add, mul_add, Finset.sum_add_distrib]
    ring
  map_smul' c v := by
    have : ∀ g : Nat → ℝ, c • freeVec a.dv.flags g = freeVec a.dv.flags fun i => c * g i := by
      intro g
      ext i
      simp only [freeVec, vec, PiLp.smul_apply, smul_eq_mul]
      split <;> simp
    rw [RingHom.id_apply, this]
    refine freeVec_congr fun i _ => ?_
    rw [Analysis.times_eq _ (disp_length _), Analysis.times_eq _ (disp_length _), load_smul]
    simp only [disp_getD, part_smul, Finset.mul_sum, mul_add]
    congr 1
    · exact Finset.sum_congr rfl fun j _ => by ring
    · ring

theorem tangent_apply (psi : ℝ) (f : List ℝ) (z v : Space a.dv.flags) : tangent a psi f z v = freeVec a.dv.flags fun i =>
    Spec.times (((a.system (load psi z)).rawMatrix? (disp z)).getD (DMat.zero 0 0)) (disp v) i + load psi v * f.getD i 0 := rfl

variable {a} {û : Nat → ℝ} {beta L : ℝ}

theorem forces_pt (hpsi : psi ≠ 0) {x r : List ℝ} (hx : Spec.Still a.dv.flags x) {l : ℝ}
    (hr : (a.system l).rawVector? x = some r) : forces a psi (pt a.dv.flags psi (x.getD · 0) l) = freeVec a.dv.flags (r.getD · 0) := by
  unfold forces
  rw [load_pt hpsi, disp_pt hx, hr]
  rfl

theorem tangent_pt (hpsi : psi ≠ 0) {x f v : List ℝ} {K : DMat ℝ} (hx : Spec.Still a.dv.flags x) {l m : ℝ}
    (hK : (a.system l).rawMatrix? x = some K) (hv : Spec.Still a.dv.flags v) :
    tangent a psi f (pt a.dv.flags psi (x.getD · 0) l) (pt a.dv.flags psi (v.getD · 0) m) =
      freeVec a.dv.flags fun i => Spec.times K v i + m * f.getD i 0 := by
  rw [tangent_apply, load_pt hpsi, disp_pt hx, hK, disp_pt hv, load_pt hpsi]
  rfl

/-- Regular states in the terms of Euclidean space. -/
theorem region (hp : Spec.Proper a û) (hpsi : psi ≠ 0) (hL : 0 ≤ L) (hprop : Spec.ProportionalLoads a) {f : List ℝ}
    (hf : (a.system 1).rawVector? (List.replicate a.dv.flags.length 0) = some f) {S : ℝ → List ℝ → Prop}
    (h : Spec.ArcRegular a psi beta L S) :
    Region (forces a psi) (tangent a psi f) {z | S (load psi z) (disp z)} beta L := by
  refine ⟨fun z hz v => ?_, fun z hz z' hz' v => ?_, fun z hz => ?_⟩
  · obtain ⟨-, r, K, hr, hK, hder⟩ := assembled_consistent (a.system (load psi z)) _ (h.contract _ _ hz)
    show HasDerivAt (fun t : ℝ => freeVec _ _) (freeVec _ _) 0
    rw [hK, Option.getD_some]
    unfold freeVec
    refine hasDerivAt_vec _ (fun s i => if Spec.Free a.dv.flags i then _ else 0) _ 0 fun i hi => ?_
    by_cases hfi : Spec.Free a.dv.flags i
    · simp only [if_pos hfi]
      have h1 := (hder (disp v) (disp_length v)).2 i hi
      have h2 : HasDerivAt (fun t : ℝ => t * load psi v * f.getD i 0) (load psi v * f.getD i 0) 0 := by
        simpa [mul_assoc] using (hasDerivAt_id (0 : ℝ)).mul_const (load psi v * f.getD i 0)
      rw [Analysis.times_eq _ (disp_length v)]
      refine HasDerivAt.congr_of_eventuallyEq (h1.add h2) (Filter.Eventually.of_forall fun t => ?_)
      have hl := (disp_length (z + t • v))
      obtain ⟨-, r1, -, -, hr1, -⟩ := Analysis.proper_system hp (load psi (z + t • v)) hl
      obtain ⟨-, r2, -, -, hr2, -⟩ := Analysis.proper_system hp (load psi z) hl
      obtain ⟨-, r0, -, -, hr0, -⟩ := Analysis.proper_system hp 0 hl
      have e1 := hprop _ _ _ _ _ hl hr1 hr0 hf i hfi
      have e2 := hprop _ _ _ _ _ hl hr2 hr0 hf i hfi
      show (((a.system (load psi (z + t • v))).rawVector? (disp (z + t • v))).getD []).getD i 0 =
        (((a.system (load psi z)).rawVector? (Spec.line (disp z) (disp v) t)).getD []).getD i 0 + t * load psi v * f.getD i 0
      rw [← disp_line, hr1, hr2, Option.getD_some, Option.getD_some, e1, e2, load_add, load_smul]
      ring
    · simp only [if_neg hfi]
      exact hasDerivAt_const _ _
  · obtain ⟨-, -, K, -, -, -, hK, -⟩ := Analysis.proper_system hp (load psi z) (disp_length z)
    obtain ⟨-, -, K', -, -, -, hK', -⟩ := Analysis.proper_system hp (load psi z') (disp_length z')
    show ‖freeVec _ _ - freeVec _ _‖ ≤ _
    rw [hK, hK', Option.getD_some, Option.getD_some, ← freeVec_sub, freeVec_norm]
    have h1 := h.lipschitz _ _ _ _ hz hz' K K' hK hK' (disp v) (disp_still v)
    refine le_trans (le_of_eq (freeSize_congr fun i _ => by ring)) (h1.trans ?_)
    have e1 : Spec.size (disp v) ≤ ‖v‖ := by
      refine abs_le_of_sq_le_sq' ?_ (norm_nonneg _) |>.2
      have := norm_still (psi := psi) (disp_still v) (load psi v)
      rw [pt_congr (g := part v) (fun i _ => disp_getD v i) rfl, pt_part hpsi] at this
      rw [this]
      nlinarith [mul_nonneg (sq_nonneg psi) (sq_nonneg (load psi v))]
    have e2 : Spec.distance (disp z) (disp z') ≤ ‖z - z'‖ := by
      have := arcDistance_eq (psi := psi) (disp_still z) (disp_still z') (load psi z) (load psi z')
      rw [pt_congr (g := part z) (fun i _ => disp_getD z i) rfl, pt_congr (g := part z') (fun i _ => disp_getD z' i) rfl,
        pt_part hpsi, pt_part hpsi] at this
      rw [← this]
      exact Real.le_sqrt_of_sq_le (by nlinarith [mul_nonneg (sq_nonneg psi) (sq_nonneg (load psi z - load psi z'))])
    exact mul_le_mul (mul_le_mul_of_nonneg_left e2 hL) e1 (Real.sqrt_nonneg _) (by positivity)
  · obtain ⟨-, -, K, -, -, -, hK, -⟩ := Analysis.proper_system hp (load psi z) (disp_length z)
    obtain ⟨t, tl, ht, hn, hk, hw⟩ := h.regular _ _ hz K f hK hf
    have hz' : z = pt a.dv.flags psi ((disp z).getD · 0) (load psi z) := by
      rw [pt_congr (g := part z) (fun i _ => disp_getD z i) rfl, pt_part hpsi]
    refine ⟨pt a.dv.flags psi (t.getD · 0) tl, ?_, ?_, fun w hiw => ?_⟩
    · have := norm_still (psi := psi) ht tl
      rw [hn] at this
      nlinarith [norm_nonneg (pt a.dv.flags psi (t.getD · 0) tl)]
    · rw [hz', tangent_pt hpsi (disp_still z) hK ht]
      ext i
      simp only [freeVec, vec]
      split
      · exact hk _ ‹_›
      · rfl
    · have hw' : w = pt a.dv.flags psi ((disp w).getD · 0) (load psi w) := by
        rw [pt_congr (g := part w) (fun i _ => disp_getD w i) rfl, pt_part hpsi]
      have h1 := hw (disp w) (load psi w) (disp_still w) (by
        rw [hw', pt_inner, still_sq ht (fun i v => v * (disp w).getD i 0) (by simp)] at hiw
        exact hiw)
      rw [← norm_still (disp_still w), ← hw', Real.sqrt_sq (norm_nonneg _)] at h1
      refine h1.trans (le_of_eq ?_)
      conv_rhs => rw [hz', hw']
      rw [tangent_pt hpsi (disp_still z) hK (disp_still w), freeVec_norm]

end Arc

end Ikarus
