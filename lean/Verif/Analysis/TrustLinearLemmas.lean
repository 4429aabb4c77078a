import Verif.Analysis.TrustProps
import Verif.Analysis.UnloadingProps
import Verif.TrustRegion.ConvergenceProps

/-!
Lemmas for C102: what the trust region method sees of a linear structure, Full as well as Reduced.
-/

namespace Ikarus

noncomputable section

open Analysis

namespace Analysis
variable {a : Analysis}

/-! ### Entries of the vectors of the solver and dofs -/

/-- The dofs behind the entries of the vectors of the solver. -/
structure Layout (a : Analysis) (pos : Fin a.trSize → Nat) : Prop where
  lt : ∀ i, pos i < a.dv.flags.length
  inj : Function.Injective pos
  cover : ∀ j, Spec.Free a.dv.flags j → ∃ i, pos i = j
  full : ∀ i, ¬ Spec.Free a.dv.flags (pos i) → a.option = .full ∧ pos i = i
  same : a.option = .full → ∀ i : Fin a.trSize, pos i = i
  rank : a.option ≠ .full → ∀ i : Fin a.trSize, Spec.rank a.dv.flags (pos i) = i

/-- What a correction adds to the dofs. -/
def spread (a : Analysis) (e : TRVec a.trSize) (i : Nat) : ℝ :=
  if a.option = .full then e.toList.getD i 0 else
    if Spec.Free a.dv.flags i then e.toList.getD (Spec.rank a.dv.flags i) 0 else 0

theorem exists_layout (h : a.option ≠ .raw) : ∃ pos, Layout a pos := by
  have hs := trSize_eq h
  by_cases ho : a.option = .full
  · rw [if_pos ho] at hs
    exact ⟨fun i => i, fun i => hs ▸ i.2, Fin.val_injective, fun j hj => ⟨⟨j, hs ▸ free_lt hj⟩, rfl⟩, fun _ _ => ⟨ho, rfl⟩,
      fun _ _ => rfl, fun h => absurd ho h⟩
  · rw [if_neg ho] at hs
    choose pos h1 h2 using fun i : Fin a.trSize => rank_surj a.dv.flags (show (i : Nat) < _ from hs ▸ i.2)
    refine ⟨pos, fun i => free_lt (h1 i), fun i j hij => ?_, fun j hj => ?_, fun i hi => absurd (h1 i) hi, fun h => absurd h ho,
      fun _ => h2⟩
    · have := congrArg (Spec.rank a.dv.flags) hij
      rw [h2, h2] at this
      exact Fin.ext this
    · refine ⟨⟨Spec.rank a.dv.flags j, hs ▸ rank_lt hj⟩, ?_⟩
      exact rank_inj (h1 _) hj (h2 _)

variable {pos : Fin a.trSize → Nat}

theorem Layout.free (hp : Layout a pos) (h : a.option ≠ .full) (i : Fin a.trSize) : Spec.Free a.dv.flags (pos i) := by
  by_contra hf
  exact h (hp.full i hf).1

theorem Layout.spread_pos (hp : Layout a pos) (e : TRVec a.trSize) (i : Fin a.trSize) : a.spread e (pos i) = e i := by
  unfold spread
  by_cases ho : a.option = .full
  · rw [if_pos ho, hp.same ho, TRVec.toList_getD]
  · rw [if_neg ho, if_pos (hp.free ho i), hp.rank ho, TRVec.toList_getD]

theorem Layout.spread_zero (h : a.option ≠ .raw) (hp : Layout a pos) (e : TRVec a.trSize) {j : Nat} (hj : j < a.dv.flags.length)
    (hn : ∀ i, pos i ≠ j) : a.spread e j = 0 := by
  have hs := trSize_eq h
  unfold spread
  by_cases ho : a.option = .full
  · rw [if_pos ho] at hs
    exact absurd (hp.same ho ⟨j, hs ▸ hj⟩) (hn _)
  · rw [if_neg ho, if_neg]
    intro hf
    obtain ⟨i, hi⟩ := hp.cover j hf
    exact hn i hi

theorem Layout.sum (h : a.option ≠ .raw) (hp : Layout a pos) (f : Nat → ℝ) (e : TRVec a.trSize) :
    ∑ j ∈ Finset.range a.dv.flags.length, f j * a.spread e j = ∑ i, f (pos i) * e i := by
  symm
  rw [← Finset.sum_subset (s₁ := Finset.univ.image pos)]
  · rw [Finset.sum_image fun i _ j _ hij => hp.inj hij]
    exact Finset.sum_congr rfl fun i _ => by rw [hp.spread_pos]
  · intro j hj
    obtain ⟨i, -, rfl⟩ := Finset.mem_image.1 hj
    exact Finset.mem_range.2 (hp.lt i)
  · intro j hj hn
    rw [hp.spread_zero h e (Finset.mem_range.1 hj), mul_zero]
    intro i hi
    exact hn (Finset.mem_image.2 ⟨i, Finset.mem_univ _, hi⟩)

theorem Layout.bil (h : a.option ≠ .raw) (hp : Layout a pos) (K : DMat ℝ) (e e' : TRVec a.trSize) :
    Ikarus.bil K a.dv.flags.length (a.spread e) (a.spread e') = ∑ i, ∑ j, e i * K.val (pos i) (pos j) * e' j := by
  unfold Ikarus.bil
  have h1 : ∀ i, ∑ j ∈ Finset.range a.dv.flags.length, a.spread e i * K.val i j * a.spread e' j =
      (∑ j, K.val i (pos j) * e' j) * a.spread e i := by
    intro i
    rw [hp.sum h (fun j => a.spread e i * K.val i j) e', Finset.sum_mul]
    exact Finset.sum_congr rfl fun j _ => by ring
  rw [Finset.sum_congr rfl fun i _ => h1 i, hp.sum h (fun i => ∑ j, K.val i (pos j) * e' j) e]
  refine Finset.sum_congr rfl fun i _ => ?_
  rw [Finset.sum_mul]
  exact Finset.sum_congr rfl fun j _ => by ring

theorem Layout.calm_iff (hp : Layout a pos) (e : TRVec a.trSize) :
    e ∈ a.calm ↔ ∀ i, ¬ Spec.Free a.dv.flags (pos i) → e i = 0 := by
  constructor
  · intro h i hi
    obtain ⟨ho, hi'⟩ := hp.full i hi
    refine h ho i ?_
    rw [← hi']
    exact (not_free_iff (hp.lt i)).1 hi
  · intro h ho i hi
    refine h i ?_
    rw [hp.same ho i]
    exact (not_free_iff (List.getElem?_eq_some_iff.1 hi).1).2 hi

theorem Layout.view (hp : Layout a pos) {r : List ℝ} (hr : r.length = a.dv.flags.length) (i : Fin a.trSize) :
    (view a.option a.dv.flags r).getD i 0 = if Spec.Free a.dv.flags (pos i) then r.getD (pos i) 0 else 0 := by
  unfold Ikarus.view
  by_cases ho : a.option = .full
  · rw [if_pos ho, hp.same ho, mask_getD hr]
  · rw [if_neg ho, if_pos (hp.free ho i), ← selectFree_getD _ _ hr (hp.free ho i), hp.rank ho]

/-- The matrix of the solver. -/
theorem Layout.hess (h : a.option ≠ .raw) (hp : Layout a pos) (c : TrustConfig a.trSize) (l : ℝ) {u : List ℝ} {K : DMat ℝ}
    (hK : (a.system l).rawMatrix? u = some K) : ∃ J : DMat ℝ, (a.trProblem c).hess ⟨l, some u⟩ = TRVec.mul J ∧
      ∀ i j : Fin a.trSize, J.val i j =
        if Spec.Free a.dv.flags (pos i) ∧ Spec.Free a.dv.flags (pos j) then K.val (pos i) (pos j) else if i = j then 1 else 0 := by
  unfold System.rawMatrix? at hK
  obtain ⟨fes, h1, h2⟩ := Option.bind_eq_some_iff.1 hK
  have key : ∀ J, a.jacobian? ⟨l, some u⟩ = some J → (a.trProblem c).hess ⟨l, some u⟩ = TRVec.mul J := by
    intro J hJ
    show TRVec.mul ((a.jacobian? ⟨l, some u⟩).getD _) = _
    rw [hJ]; rfl
  by_cases ho : a.option = .full
  · obtain ⟨A, hA, -, -, hAv⟩ := fullMatrix_eq a.dv.flags fes K h2
    refine ⟨A, key A ?_, fun i j => ?_⟩
    · unfold jacobian?
      rw [Option.bind_some, ho]
      show (a.system l).fullMatrix? u = _
      unfold System.fullMatrix?
      rw [h1, Option.bind_some]; exact hA
    · have hi := hp.lt i
      have hj := hp.lt j
      rw [hp.same ho] at hi hj
      rw [hp.same ho, hp.same ho, hAv i j hi hj]
      simp only [Fin.ext_iff]
  · have ho' : a.option = .reduced := by
      cases hh : a.option
      · exact absurd hh h
      all_goals first | rfl | exact absurd hh ho
    obtain ⟨A, hA, -, -, hAv⟩ := reducedMatrix_eq a.dv.flags fes K h2
    refine ⟨A, key A ?_, fun i j => ?_⟩
    · unfold jacobian?
      rw [Option.bind_some, ho']
      show (a.system l).reducedMatrix? u = _
      unfold System.reducedMatrix?
      rw [h1, Option.bind_some]; exact hA
    · rw [if_pos ⟨hp.free ho i, hp.free ho j⟩]
      obtain ⟨ki, kj, e1, e2, -, -, e3⟩ := hAv (pos i) (pos j) (hp.free ho i) (hp.free ho j)
      rw [Assembler.reducedIndex?_create (hp.lt i), hp.rank ho] at e1
      rw [Assembler.reducedIndex?_create (hp.lt j), hp.rank ho] at e2
      rw [Option.some.inj e1, Option.some.inj e2, e3]

/-! ### The matrix as a linear map -/

/-- The matrix of the solver, with unit rows and columns at the constrained dofs. -/
def stiff (a : Analysis) (pos : Fin a.trSize → Nat) (K : DMat ℝ) : TRVec a.trSize →ₗ[ℝ] TRVec a.trSize where
  toFun e := WithLp.toLp 2 fun i => ∑ j, (if Spec.Free a.dv.flags (pos i) ∧ Spec.Free a.dv.flags (pos j) then K.val (pos i) (pos j)
    else if i = j then 1 else 0) * e j
  map_add' e e' := by
    ext i
    show ∑ j, _ * (e j + e' j) = ∑ j, _ * e j + ∑ j, _ * e' j
    rw [← Finset.sum_add_distrib]
    exact Finset.sum_congr rfl fun j _ => by ring
  map_smul' t e := by
    ext i
    show ∑ j, _ * (t * e j) = t * ∑ j, _ * e j
    rw [Finset.mul_sum]
    exact Finset.sum_congr rfl fun j _ => by ring

theorem stiff_apply (K : DMat ℝ) (e : TRVec a.trSize) (i : Fin a.trSize) : a.stiff pos K e i =
    ∑ j, (if Spec.Free a.dv.flags (pos i) ∧ Spec.Free a.dv.flags (pos j) then K.val (pos i) (pos j)
      else if i = j then 1 else 0) * e j := rfl

theorem inner_sum {m : Nat} (v w : TRVec m) : Inner.inner ℝ v w = ∑ i, v i * w i := by
  rw [PiLp.inner_apply]
  exact Finset.sum_congr rfl fun i _ => by simp [mul_comm]

theorem norm_sum {m : Nat} (v : TRVec m) : ‖v‖ ^ 2 = ∑ i, v i * v i := by
  rw [← real_inner_self_eq_norm_sq, inner_sum]

theorem val_symm {sys : ℝ → System} {m : Nat} {K : DMat ℝ} {e : ℝ → ℝ} {g : ℝ → Nat → ℝ} (hA : AffineSystem sys m K e g)
    {i j : Nat} (hi : i < m) (hj : j < m) : K.val i j = K.val j i := by
  have h := hA.symm (fun k => if k = i then 1 else 0) (fun k => if k = j then 1 else 0)
  simpa [Ikarus.bil, Finset.sum_ite_eq', hi, hj, ite_mul, mul_ite] using h

section
variable {K : DMat ℝ} {e : ℝ → ℝ} {g : ℝ → Nat → ℝ}

theorem stiff_symm (hp : Layout a pos) (hA : AffineSystem a.system a.dv.flags.length K e g) : Spec.Symmetric (a.stiff pos K) := by
  intro v w
  rw [inner_sum, inner_sum]
  simp only [stiff_apply, Finset.sum_mul, Finset.mul_sum]
  rw [Finset.sum_comm]
  refine Finset.sum_congr rfl fun i _ => Finset.sum_congr rfl fun j _ => ?_
  rw [val_symm hA (hp.lt i) (hp.lt j)]
  by_cases h1 : Spec.Free a.dv.flags (pos i) <;> by_cases h2 : Spec.Free a.dv.flags (pos j) <;> simp only [h1, h2, and_self, and_true, and_false, if_true, if_false, eq_comm (a := i) (b := j)] <;> ring

theorem stiff_calm (hp : Layout a pos) (K : DMat ℝ) {v : TRVec a.trSize} (hv : v ∈ a.calm) (i : Fin a.trSize) :
    a.stiff pos K v i = if Spec.Free a.dv.flags (pos i) then ∑ j, K.val (pos i) (pos j) * v j else 0 := by
  rw [hp.calm_iff] at hv
  rw [stiff_apply]
  split
  · rename_i hi
    refine Finset.sum_congr rfl fun j _ => ?_
    by_cases hj : Spec.Free a.dv.flags (pos j)
    · rw [if_pos ⟨hi, hj⟩]
    · rw [hv j hj, mul_zero, mul_zero]
  · rename_i hi
    refine Finset.sum_eq_zero fun j _ => ?_
    rw [if_neg fun hh => hi hh.1]
    split
    · rename_i hij
      rw [← hij, hv i hi, mul_zero]
    · rw [zero_mul]

theorem stiff_keeps (hp : Layout a pos) (K : DMat ℝ) (v : TRVec a.trSize) (hv : v ∈ a.calm) : a.stiff pos K v ∈ a.calm := by
  rw [hp.calm_iff]
  intro i hi
  rw [stiff_calm hp K hv, if_neg hi]

/-- The part of a vector at the free dofs. -/
def calmPart (pos : Fin a.trSize → Nat) (v : TRVec a.trSize) : TRVec a.trSize :=
  WithLp.toLp 2 fun i => if Spec.Free a.dv.flags (pos i) then v i else 0

theorem calmPart_apply (v : TRVec a.trSize) (i : Fin a.trSize) :
    calmPart pos v i = if Spec.Free a.dv.flags (pos i) then v i else 0 := rfl

theorem calmPart_mem (hp : Layout a pos) (v : TRVec a.trSize) : calmPart pos v ∈ a.calm := by
  rw [hp.calm_iff]
  intro i hi
  rw [calmPart_apply, if_neg hi]

theorem calmPart_norm (v : TRVec a.trSize) :
    ‖v‖ ^ 2 = ‖calmPart pos v‖ ^ 2 + ∑ i, if Spec.Free a.dv.flags (pos i) then 0 else v i * v i := by
  rw [norm_sum, norm_sum, ← Finset.sum_add_distrib]
  refine Finset.sum_congr rfl fun i _ => ?_
  rw [calmPart_apply]
  split <;> ring

theorem stiff_form (h : a.option ≠ .raw) (hp : Layout a pos) (K : DMat ℝ) (v : TRVec a.trSize) :
    Inner.inner ℝ v (a.stiff pos K v) = Ikarus.bil K a.dv.flags.length (a.spread (calmPart pos v)) (a.spread (calmPart pos v)) +
      ∑ i, if Spec.Free a.dv.flags (pos i) then 0 else v i * v i := by
  rw [inner_sum, hp.bil h, ← Finset.sum_add_distrib]
  refine Finset.sum_congr rfl fun i _ => ?_
  rw [stiff_apply, Finset.mul_sum]
  simp only [calmPart_apply]
  by_cases hi : Spec.Free a.dv.flags (pos i)
  · rw [if_pos hi, if_pos hi, add_zero]
    refine Finset.sum_congr rfl fun j _ => ?_
    by_cases hj : Spec.Free a.dv.flags (pos j)
    · rw [if_pos ⟨hi, hj⟩, if_pos hj]; ring
    · have hij : i ≠ j := fun hh => hj (hh ▸ hi)
      rw [if_neg fun hh => hj hh.2, if_neg hij, if_neg hj]; ring
  · rw [if_neg hi, if_neg hi, Finset.sum_eq_single i]
    · rw [if_neg fun hh => hi hh.1, if_pos rfl, Finset.sum_eq_zero fun j _ => by rw [zero_mul, zero_mul]]; ring
    · intro j _ hji
      rw [if_neg fun hh => hi hh.1, if_neg (Ne.symm hji)]; ring
    · intro hh; exact absurd (Finset.mem_univ _) hh

theorem trust_hess_eq (h : a.option ≠ .raw) (hp : Layout a pos) (hA : AffineSystem a.system a.dv.flags.length K e g)
    (c : TrustConfig a.trSize) (l : ℝ) {u : List ℝ} (hu : u.length = a.dv.flags.length) :
    (a.trProblem c).hess ⟨l, some u⟩ = a.stiff pos K ∧ TRVec.transposed (a.stiff pos K) = a.stiff pos K := by
  obtain ⟨J, h1, h2⟩ := hp.hess h c l (hA.matrix l u hu)
  have h3 : (TRVec.mul J : TRVec a.trSize → TRVec a.trSize) = a.stiff pos K := by
    funext v
    ext i
    rw [TRVec.mul_apply, stiff_apply]
    exact Finset.sum_congr rfl fun j _ => by rw [h2]
  refine ⟨h1.trans h3, ?_⟩
  rw [← h3]
  funext v
  ext i
  rw [TRVec.transposed_mul_apply, TRVec.mul_apply]
  refine Finset.sum_congr rfl fun j _ => ?_
  rw [h2, h2, val_symm hA (hp.lt i) (hp.lt j)]
  by_cases h1 : Spec.Free a.dv.flags (pos i) <;> by_cases h2 : Spec.Free a.dv.flags (pos j) <;> simp only [h1, h2, and_self, and_true, and_false, if_true, if_false, eq_comm (a := i) (b := j)]

/-- The residual of a linear structure as the solver sees it. -/
theorem trust_grad_linear (h : Spec.TrustProper a) (hp : Layout a pos) (hA : AffineSystem a.system a.dv.flags.length K e g)
    (c : TrustConfig a.trSize) (l : ℝ) {u : List ℝ} (hu : u.length = a.dv.flags.length) :
    (∀ i, (a.trProblem c).grad ⟨l, some u⟩ i = if Spec.Free a.dv.flags (pos i) then resAt K g a.dv.flags.length l u (pos i) else 0) ∧
    ‖(a.trProblem c).grad ⟨l, some u⟩‖ = Real.sqrt (freeSq a.dv.flags (resAt K g a.dv.flags.length l u)) := by
  obtain ⟨r, r1, r2, r3⟩ := hA.vector l u hu
  obtain ⟨g1, g2⟩ := trust_grad h c r1 r2
  refine ⟨fun i => ?_, ?_⟩
  · rw [g1, TRVec.ofList_apply, hp.view r2, r3 _ (hp.lt i)]
    rfl
  · rw [g2]
    congr 1
    exact freeSq_congr fun i hi => r3 i hi

/-- The energy of a linear structure is quadratic for the solver. -/
theorem trust_quadratic (h : Spec.TrustProper a) (hp : Layout a pos) (hA : AffineSystem a.system a.dv.flags.length K e g)
    (c : TrustConfig a.trSize) (l : ℝ) :
    Spec.QuadraticProblem (a.trProblem c) (a.Sized l) (a.stiff pos K) a.calm := by
  have hsp : ∀ (v : TRVec a.trSize) (u : List ℝ), u.length = a.dv.flags.length → ∃ w : List ℝ,
      (a.trProblem c).update ⟨l, some u⟩ v = ⟨l, some w⟩ ∧ w.length = a.dv.flags.length ∧
      ∀ i < a.dv.flags.length, w.getD i 0 = u.getD i 0 + a.spread v i := fun v u hu => trust_update h c l hu v
  refine ⟨stiff_symm hp hA, fun v hv => stiff_keeps hp K v hv, fun x v hx => trust_undone h c l x v hx, ?_, ?_, ?_, ?_⟩
  · rintro x ⟨u, rfl, hu⟩
    exact (trust_hess_eq h.option hp hA c l hu).1
  · rintro x ⟨u, rfl, hu⟩
    rw [hp.calm_iff]
    intro i hi
    rw [(trust_grad_linear h hp hA c l hu).1, if_neg hi]
  · rintro x ⟨u, rfl, hu⟩ v hv
    obtain ⟨w, w1, w2, w3⟩ := hsp v u hu
    rw [w1]
    ext i
    show _ = (a.trProblem c).grad ⟨l, some u⟩ i + a.stiff pos K v i
    rw [(trust_grad_linear h hp hA c l w2).1, (trust_grad_linear h hp hA c l hu).1, stiff_calm hp K hv]
    split
    · unfold resAt
      rw [Finset.sum_congr rfl fun j hj => by rw [w3 j (Finset.mem_range.1 hj), mul_add], Finset.sum_add_distrib,
        hp.sum h.option (fun j => K.val (pos i) j) v]
      ring
    · ring
  · rintro x ⟨u, rfl, hu⟩ v hv
    obtain ⟨w, w1, w2, w3⟩ := hsp v u hu
    obtain ⟨E, E', f1, f2, f3⟩ := energy_difference hA l hu w2
    refine ⟨E, f1, ?_⟩
    rw [w1]
    refine f2.trans ?_
    rw [f3]
    have e1 : ∀ i < a.dv.flags.length, w.getD i 0 - u.getD i 0 = a.spread v i := fun i hi => by rw [w3 i hi]; ring
    have hv' := (hp.calm_iff v).1 hv
    have e2 : calmPart pos v = v := by
      ext i
      rw [calmPart_apply]
      split
      · rfl
      · rename_i hi; exact (hv' i hi).symm
    have e3 : (∑ i, if Spec.Free a.dv.flags (pos i) then 0 else v i * v i) = 0 := by
      refine Finset.sum_eq_zero fun i _ => ?_
      split
      · rfl
      · rename_i hi; rw [hv' i hi, mul_zero]
    have e4 : ∑ i, resAt K g a.dv.flags.length l u (pos i) * v i = ∑ i, (a.trProblem c).grad ⟨l, some u⟩ i * v i := by
      refine Finset.sum_congr rfl fun i _ => ?_
      rw [(trust_grad_linear h hp hA c l hu).1]
      split
      · rfl
      · rename_i hi; rw [hv' i hi, mul_zero, mul_zero]
    rw [Finset.sum_congr rfl fun i hi => by rw [e1 i (Finset.mem_range.1 hi)], bil_congr K _ e1 e1, stiff_form h.option hp, e2, e3,
      add_zero, hp.sum h.option _ v, inner_sum, e4]

end

end Analysis

end

end Ikarus
