import Verif.Analysis.TrustModel
import Verif.Analysis.NonlinearProps
import Verif.TrustRegion.StepProps
import Verif.TrustRegion.RestrictLemmas

/-!
Lemmas on structures solved with the trust region method: vectors of the solver and of the assembler, updates that are
undone.
-/

namespace Ikarus

noncomputable section

/-! ### Vectors -/

namespace TRVec
variable {m : Nat}

@[simp] theorem ofList_apply (l : List ℝ) (i : Fin m) : ofList m l i = l.getD i 0 := rfl

@[simp] theorem toList_length (v : TRVec m) : v.toList.length = m := by simp [toList]

theorem toList_getD (v : TRVec m) (i : Fin m) : v.toList.getD i 0 = v i := by
  rw [List.getD_eq_getElem?_getD, List.getElem?_eq_getElem (by simp)]
  simp [toList]

theorem ofList_toList (v : TRVec m) : ofList m v.toList = v := by
  ext i
  rw [ofList_apply, toList_getD]

theorem toList_neg (v : TRVec m) : (-v).toList = v.toList.map fun a => -a := by
  apply List.ext_getElem (by simp)
  intro i h1 h2
  simp [toList]

theorem norm_ofList {l : List ℝ} (h : l.length = m) : ‖ofList m l‖ = Analysis.norm (some l) := by
  rw [EuclideanSpace.norm_eq]
  unfold Analysis.norm
  congr 1
  rw [Option.getD_some, list_sum_getD, List.length_map, h, Finset.sum_range]
  refine Finset.sum_congr rfl fun i _ => ?_
  simp only [ofList_apply, List.getD_eq_getElem?_getD, List.getElem?_map]
  cases l[(i : Nat)]? <;> simp [sq]

theorem entry_mul (A : DMat ℝ) (i j : Fin m) : entry (mul A) i j = A.val i j := by
  unfold entry mul
  simp

theorem transposed_mul_apply (A : DMat ℝ) (v : TRVec m) (i : Fin m) : transposed (mul A) v i = ∑ j : Fin m, A.val j i * v j := by
  simp only [transposed, entry_mul]

theorem mul_apply (A : DMat ℝ) (v : TRVec m) (i : Fin m) : mul A v i = ∑ j : Fin m, A.val i j * v j := rfl

end TRVec

/-! ### Structures -/

/-- The structure is set up properly for the trust region method: Full or Reduced, elements that fit and do not fail. -/
structure Spec.TrustProper (a : Analysis) : Prop where
  option : a.option ≠ .raw
  elems : ∀ e ∈ a.elems, ∀ l, Spec.ElemFits a.dv.flags.length (e.at l) ∧ ∀ s ∈ e.skills, Spec.TotalSkill (s l)

/-- The preconditioner leaves zeros at the dofs with unit row and unit column of the matrix. -/
def Spec.KeepsZeros {m : Nat} (flags : List Bool) (precond : (TRVec m → TRVec m) → TRVec m → TRVec m) : Prop :=
  ∀ h r, (∀ i j : Fin m, flags[(i : Nat)]? = some true ∨ flags[(j : Nat)]? = some true →
      TRVec.entry h i j = if i = j then 1 else 0) →
    (∀ i : Fin m, flags[(i : Nat)]? = some true → r i = 0) → ∀ i : Fin m, flags[(i : Nat)]? = some true → precond h r i = 0

theorem identity_keepsZeros {m : Nat} (flags : List Bool) : Spec.KeepsZeros flags (identityPreconditioner (m := m)) :=
  fun _ _ _ h i hi => h i hi

theorem diagonal_keepsZeros {m : Nat} (flags : List Bool) : Spec.KeepsZeros flags (diagonalPreconditioner (m := m)) := by
  intro h r _ hr i hi
  show _ * r i = 0
  rw [hr i hi, mul_zero]

namespace Analysis

variable {a : Analysis}

theorem trust_system (h : Spec.TrustProper a) (l : ℝ) {x : List ℝ} (hx : x.length = a.dv.flags.length) :
    ∃ E r K, (a.system l).scalar? x = some E ∧ (a.system l).rawVector? x = some r ∧ r.length = a.dv.flags.length ∧
      (a.system l).rawMatrix? x = some K ∧ K.rows = a.dv.flags.length ∧ K.cols = a.dv.flags.length := by
  refine total_system (a.system l) (fun e he => ?_) hx
  obtain ⟨pe, hpe, rfl⟩ := List.mem_map.1 he
  refine ⟨(h.elems pe hpe l).1, fun sk hsk => ?_⟩
  obtain ⟨s, hs, rfl⟩ := List.mem_map.1 hsk
  exact (h.elems pe hpe l).2 s hs

theorem trSize_eq (h : a.option ≠ .raw) : a.trSize = if a.option = .full then a.dv.flags.length else a.dv.flags.count false := by
  unfold trSize
  cases ho : a.option with
  | raw => exact absurd ho h
  | full => simp
  | reduced => simp [Assembler.reducedSize?_create]

/-- The gradient and its norm. -/
theorem trust_grad (h : Spec.TrustProper a) (c : TrustConfig a.trSize) {l : ℝ} {u r : List ℝ}
    (hr : (a.system l).rawVector? u = some r) (hrl : r.length = a.dv.flags.length) :
    (a.trProblem c).grad ⟨l, some u⟩ = TRVec.ofList a.trSize (view a.option a.dv.flags r) ∧
      ‖(a.trProblem c).grad ⟨l, some u⟩‖ = Real.sqrt (freeSq a.dv.flags (r.getD · 0)) := by
  have h1 : (a.trProblem c).grad ⟨l, some u⟩ = TRVec.ofList a.trSize (view a.option a.dv.flags r) := by
    show TRVec.ofList a.trSize ((a.residual? ⟨l, some u⟩).getD []) = _
    rw [residual_view a h.option hr]; rfl
  refine ⟨h1, ?_⟩
  rw [h1, TRVec.norm_ofList, norm_view _ _ _ hrl]
  rw [view_length hrl, trSize_eq h.option]

/-- The update adds a correction of the right size, or what `createFullVector` makes of it. -/
theorem trust_update (h : Spec.TrustProper a) (c : TrustConfig a.trSize) (l : ℝ) {u : List ℝ}
    (hu : u.length = a.dv.flags.length) (e : TRVec a.trSize) :
    ∃ v : List ℝ, (a.trProblem c).update ⟨l, some u⟩ e = ⟨l, some v⟩ ∧ v.length = a.dv.flags.length ∧
      (∀ i < a.dv.flags.length, v.getD i 0 = u.getD i 0 +
        if a.option = .full then e.toList.getD i 0 else
          if Spec.Free a.dv.flags i then e.toList.getD (Spec.rank a.dv.flags i) 0 else 0) := by
  have hgd : ∀ (u w : List ℝ), u.length = a.dv.flags.length → w.length = a.dv.flags.length → ∀ i < a.dv.flags.length,
      (List.zipWith (· + ·) u w).getD i 0 = u.getD i 0 + w.getD i 0 := by
    intro u w hu hw i hi
    simp only [List.getD_eq_getElem?_getD, List.getElem?_zipWith]
    rw [List.getElem?_eq_getElem (hu ▸ hi), List.getElem?_eq_getElem (hw ▸ hi)]; rfl
  have hl : e.toList.length = if a.option = .full then a.dv.flags.length else a.dv.flags.count false := by
    rw [TRVec.toList_length, trSize_eq h.option]
  show ∃ v, a.update ⟨l, some u⟩ (some e.toList) = _ ∧ _
  generalize e.toList = b at hl
  cases ho : a.option with
  | raw => exact absurd ho h.option
  | full =>
    rw [ho, if_pos rfl] at hl
    refine ⟨List.zipWith (· + ·) u b, ?_, by simp [hu, hl], fun i hi => ?_⟩
    · unfold update
      simp only [Option.bind_some, ho]
      rw [update_full_increment a.dv.flags u b .full (by simp) hu hl]
    · rw [hgd u b hu hl i hi, if_pos rfl]
  | reduced =>
    rw [ho, if_neg (by simp)] at hl
    obtain ⟨w, hw, hwl, hw0, hwr⟩ := reduced_full_roundtrip a.dv.flags b (by rw [Assembler.reducedSize?_create, hl])
    have hsel : Spec.selectFree a.dv.flags w = b := by
      rw [createReducedVector_eq a.dv.flags w hwl] at hwr
      exact (List.map_injective_iff.2 (Option.some_injective ℝ)) (Option.some.inj hwr)
    refine ⟨List.zipWith (· + ·) u w, ?_, by simp [hu, hwl], fun i hi => ?_⟩
    · unfold update
      simp only [Option.bind_some, ho]
      congr 1
      unfold updateFunctor?
      rw [if_pos ⟨rfl, by rw [Assembler.reducedSize?_create, hl]⟩, hw, Option.bind_some]
      unfold addVec?
      rw [if_pos (by rw [hu, hwl])]
    · rw [hgd u w hu hwl i hi, if_neg (by simp)]
      congr 1
      split
      · rename_i hf
        rw [← hsel, selectFree_getD _ _ hwl hf]
      · rename_i hf
        rw [List.getD_eq_getElem?_getD, hw0 i ((not_free_iff hi).1 hf), Option.getD_some]

/-- The states of a run at load factor `l`. -/
def Sized (a : Analysis) (l : ℝ) (x : Dom ℝ (Option (List ℝ))) : Prop :=
  ∃ u : List ℝ, x = ⟨l, some u⟩ ∧ u.length = a.dv.flags.length

theorem trust_undone (h : Spec.TrustProper a) (c : TrustConfig a.trSize) (l : ℝ) (x : Dom ℝ (Option (List ℝ)))
    (e : TRVec a.trSize) (hx : a.Sized l x) :
    a.Sized l ((a.trProblem c).update x e) ∧ (a.trProblem c).update ((a.trProblem c).update x e) (-e) = x := by
  obtain ⟨u, rfl, hu⟩ := hx
  obtain ⟨v, h1, h2, h3⟩ := trust_update h c l hu e
  obtain ⟨w, h4, h5, h6⟩ := trust_update h c l h2 (-e)
  have hneg : ∀ i, (-e).toList.getD i 0 = -e.toList.getD i 0 := by
    intro i
    rw [TRVec.toList_neg]
    simp only [List.getD_eq_getElem?_getD, List.getElem?_map]
    cases e.toList[i]? <;> simp
  refine ⟨⟨v, h1, h2⟩, ?_⟩
  rw [h1, h4]
  congr 2
  apply List.ext_getElem?
  intro i
  by_cases hi : i < a.dv.flags.length
  · rw [getElem?_eq_getD (h5 ▸ hi), getElem?_eq_getD (hu ▸ hi), h6 i hi, h3 i hi, hneg, hneg]
    congr 1
    split
    · ring
    · split <;> ring
  · rw [List.getElem?_eq_none (by omega), List.getElem?_eq_none (by omega)]

/-- The corrections that leave the constrained dofs alone. -/
def calm (a : Analysis) : Submodule ℝ (TRVec a.trSize) where
  carrier := {v | a.option = .full → ∀ i : Fin a.trSize, a.dv.flags[(i : Nat)]? = some true → v i = 0}
  add_mem' {v w} hv hw ho i hi := by
    show v i + w i = 0
    rw [hv ho i hi, hw ho i hi, add_zero]
  zero_mem' _ _ _ := rfl
  smul_mem' t v hv ho i hi := by
    show t * v i = 0
    rw [hv ho i hi, mul_zero]

theorem calm_update (h : Spec.TrustProper a) (c : TrustConfig a.trSize) (l : ℝ) {u : List ℝ}
    (hu : u.length = a.dv.flags.length) {e : TRVec a.trSize} (he : e ∈ a.calm) :
    ∃ v : List ℝ, (a.trProblem c).update ⟨l, some u⟩ e = ⟨l, some v⟩ ∧ v.length = a.dv.flags.length ∧
      ∀ i : Nat, a.dv.flags[i]? = some true → v[i]? = u[i]? := by
  obtain ⟨v, h1, h2, h3⟩ := trust_update h c l hu e
  refine ⟨v, h1, h2, fun i hi => ?_⟩
  have hlt : i < a.dv.flags.length := (List.getElem?_eq_some_iff.1 hi).1
  rw [getElem?_eq_getD (h2 ▸ hlt), getElem?_eq_getD (hu ▸ hlt), h3 i hlt]
  congr 1
  split
  · rename_i ho
    have hs : i < a.trSize := by rw [trSize_eq h.option, if_pos ho]; exact hlt
    have h0 := he ho ⟨i, hs⟩ hi
    have := TRVec.toList_getD e ⟨i, hs⟩
    rw [h0] at this
    rw [this, add_zero]
  · rw [if_neg ((not_free_iff hlt).2 hi), add_zero]

theorem trust_hess (h : Spec.TrustProper a) (c : TrustConfig a.trSize) (l : ℝ) {u : List ℝ}
    (hu : u.length = a.dv.flags.length) (ho : a.option = .full) :
    ∃ A : DMat ℝ, (a.trProblem c).hess ⟨l, some u⟩ = TRVec.mul A ∧
      ∀ i j : Fin a.trSize, a.dv.flags[(i : Nat)]? = some true ∨ a.dv.flags[(j : Nat)]? = some true →
        A.val i j = if i = j then 1 else 0 := by
  obtain ⟨-, -, K, -, -, -, hK, -, -⟩ := trust_system h l hu
  unfold System.rawMatrix? at hK
  obtain ⟨fes, h1, h2⟩ := Option.bind_eq_some_iff.1 hK
  obtain ⟨A, hA, hAr, hAc, hAv⟩ := fullMatrix_eq a.dv.flags fes K h2
  have hJ : a.jacobian? ⟨l, some u⟩ = some A := by
    unfold jacobian?
    rw [Option.bind_some, ho]
    show (a.system l).fullMatrix? u = _
    unfold System.fullMatrix?
    rw [h1, Option.bind_some]; exact hA
  have hs : a.trSize = a.dv.flags.length := by rw [trSize_eq h.option, if_pos ho]
  refine ⟨A, ?_, fun i j hij => ?_⟩
  · show TRVec.mul ((a.jacobian? ⟨l, some u⟩).getD _) = _
    rw [hJ]; rfl
  · have hi : (i : Nat) < a.dv.flags.length := hs ▸ i.2
    have hj : (j : Nat) < a.dv.flags.length := hs ▸ j.2
    rw [hAv i j hi hj, if_neg ?_]
    · simp only [Fin.ext_iff]
    · rintro ⟨h1, h2⟩
      rcases hij with hf | hf
      · exact (not_free_iff hi).2 hf h1
      · exact (not_free_iff hj).2 hf h2

/-- Without the random predictor the corrections leave the constrained dofs alone. -/
theorem calm_correction (h : Spec.TrustProper a) (c : TrustConfig a.trSize)
    (hc : a.option = .full → c.parameters.useRand = false ∧ Spec.KeepsZeros a.dv.flags c.precond) (l : ℝ) {u : List ℝ}
    (hu : u.length = a.dv.flags.length) (v : Spec.TRPoint (Dom ℝ (Option (List ℝ))) (TCGInfo × Nat)) (hv : v.x = ⟨l, some u⟩) :
    (Spec.correction (a.trProblem c) c.parameters v).2.1 ∈ a.calm := by
  by_cases ho : a.option = .full
  · obtain ⟨hr, hk⟩ := hc ho
    unfold Spec.correction
    rw [if_neg (by simp [hr]), hv]
    obtain ⟨A, hA, hAv⟩ := trust_hess h c l hu ho
    obtain ⟨-, r, -, -, r1, r2, -⟩ := trust_system h l hu
    have hg := (trust_grad h c r1 r2).1
    rw [hA]
    have hent : ∀ i j : Fin a.trSize, a.dv.flags[(i : Nat)]? = some true ∨ a.dv.flags[(j : Nat)]? = some true →
        TRVec.entry (TRVec.mul A) i j = if i = j then 1 else 0 := fun i j hij => by rw [TRVec.entry_mul, hAv i j hij]
    show (tcg (TRVec.transposed (TRVec.mul A)) (c.precond (TRVec.mul A)) (-(a.trProblem c).grad ⟨l, some u⟩) 0
      (2 * a.trSize) c.tol c.tiny _).1 ∈ a.calm
    refine tcg_mem a.calm (fun w hw _ i hi => ?_) (fun w hw ho' i hi => hk _ _ hent (hw ho) i hi) ?_ a.calm.zero_mem _ _ _ _
    · rw [TRVec.transposed_mul_apply]
      refine Finset.sum_eq_zero fun j _ => ?_
      rw [hAv j i (Or.inr hi)]
      split
      · rename_i hji
        rw [hji, hw ho i hi, mul_zero]
      · rw [zero_mul]
    · refine a.calm.neg_mem fun _ i hi => ?_
      rw [hg, TRVec.ofList_apply]
      have hlt : (i : Nat) < a.dv.flags.length := (List.getElem?_eq_some_iff.1 hi).1
      unfold view
      rw [if_pos ho, mask_getD r2, if_neg ((not_free_iff hlt).2 hi)]
  · intro h'
    exact absurd h' ho

end Analysis

end

end Ikarus
