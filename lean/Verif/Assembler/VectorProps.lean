import Verif.Assembler.Lemmas

/-!
Properties C01 - C04 and C08: scalar and vector assembly.
-/

namespace Ikarus
open Spec Assembler
variable {α : Type*}

/-- All `(global index, value)` pairs of all elements. -/
def Spec.vecContribs (fes : List (VecElem α)) : List (Nat × α) :=
  fes.flatMap fun e => e.dofs.zip e.vec

/-- The element data fits: each dof has a local value and is a valid global index. -/
def Spec.VecOK (n : Nat) (fes : List (VecElem α)) : Prop :=
  ∀ e ∈ fes, e.dofs.length ≤ e.vec.length ∧ ∀ d ∈ e.dofs, d < n

/-! ### C01 -/

private theorem rawVectorOuter_eq_scatter [Add α] (fes : List (VecElem α)) (v : List α)
    (h : ∀ e ∈ fes, e.dofs.length ≤ e.vec.length) :
    rawVectorOuter fes v = scatter v (Spec.vecContribs fes) := by
  induction fes generalizing v with
  | nil => rfl
  | cons e es ih =>
    have he := h e (by simp)
    simp only [rawVectorOuter, Spec.vecContribs, List.flatMap_cons]
    rw [scatter_append, rawVectorInner_eq_scatter _ _ _ _ (by simpa using he), List.drop_zero]
    congr 1
    funext w
    exact ih w (fun e' he' => h e' (by simp [he']))

private theorem rawVectorOuter_some_lengths [Add α] {fes : List (VecElem α)} {v w : List α}
    (h : rawVectorOuter fes v = some w) : ∀ e ∈ fes, e.dofs.length ≤ e.vec.length := by
  induction fes generalizing v with
  | nil => simp
  | cons e es ih =>
    simp only [rawVectorOuter] at h
    obtain ⟨u, hu, h⟩ := Option.bind_eq_some_iff.1 h
    intro e' he'
    rcases List.mem_cons.1 he' with rfl | he'
    · by_cases hd : e'.dofs = []
      · simp [hd]
      · simpa using rawVectorInner_some hu hd
    · exact ih h e' he'

/-- C01. Whatever `vector(Raw)` returns has `size()` entries, entry `i` being the sum of all
element contributions with global index `i`. -/
theorem rawVector_eq_sum [AddCommMonoid α] (a : Assembler) (fes : List (VecElem α)) (v : List α)
    (h : a.getRawVector? fes = some v) :
    v.length = a.size ∧ ∀ i, i < a.size → v[i]? = some (sumAt (Spec.vecContribs fes) i) := by
  unfold getRawVector? at h
  rw [rawVectorOuter_eq_scatter _ _ (rawVectorOuter_some_lengths h)] at h
  obtain ⟨-, h2, h3⟩ := scatter_eq_some h
  refine ⟨by simpa using h2, fun i hi => ?_⟩
  rw [h3 i]
  simp [hi]

/-- C01. The assembly stays within bounds exactly if the element data fits. -/
theorem rawVector_defined_iff [AddCommMonoid α] (a : Assembler) (fes : List (VecElem α)) :
    (∃ v, a.getRawVector? fes = some v) ↔ Spec.VecOK a.size fes := by
  constructor
  · rintro ⟨v, h⟩
    unfold getRawVector? at h
    have hl := rawVectorOuter_some_lengths h
    rw [rawVectorOuter_eq_scatter _ _ hl] at h
    obtain ⟨h1, -, -⟩ := scatter_eq_some h
    intro e he
    refine ⟨hl e he, fun d hd => ?_⟩
    obtain ⟨j, hj, rfl⟩ := List.getElem_of_mem hd
    have hj' : j < e.vec.length := lt_of_lt_of_le hj (hl e he)
    have := h1 (e.dofs[j], e.vec[j]) (by
      unfold Spec.vecContribs
      refine List.mem_flatMap.2 ⟨e, he, ?_⟩
      rw [List.mem_iff_getElem]
      exact ⟨j, by simp; omega, by simp⟩)
    simpa using this
  · intro h
    unfold getRawVector?
    rw [rawVectorOuter_eq_scatter _ _ (fun e he => (h e he).1)]
    apply scatter_isSome
    intro p hp
    obtain ⟨e, he, hp⟩ := List.mem_flatMap.1 hp
    have := (h e he).2 p.1 (List.of_mem_zip hp).1
    simpa using this

/-- C01. The result does not depend on the order of the elements. -/
theorem rawVector_perm [AddCommMonoid α] (a : Assembler) {fes fes' : List (VecElem α)}
    (hp : fes.Perm fes') : a.getRawVector? fes = a.getRawVector? fes' := by
  have key : ∀ {f g : List (VecElem α)}, f.Perm g → ∀ v, a.getRawVector? f = some v →
      a.getRawVector? g = some v := by
    intro f g hfg v hv
    have hok : Spec.VecOK a.size g := fun e he =>
      (rawVector_defined_iff a f).1 ⟨v, hv⟩ e (hfg.mem_iff.2 he)
    obtain ⟨w, hw⟩ := (rawVector_defined_iff a g).2 hok
    rw [hw]
    congr 1
    obtain ⟨l1, e1⟩ := rawVector_eq_sum a f v hv
    obtain ⟨l2, e2⟩ := rawVector_eq_sum a g w hw
    refine List.ext_getElem? fun i => ?_
    by_cases hi : i < a.size
    · rw [e1 i hi, e2 i hi]
      congr 1
      exact (sumAt_perm (List.Perm.flatMap_right _ hfg) i).symm
    · rw [List.getElem?_eq_none (by omega), List.getElem?_eq_none (by omega)]
  cases h : a.getRawVector? fes with
  | some v => exact (key hp v h).symm
  | none =>
    cases h' : a.getRawVector? fes' with
    | none => rfl
    | some w => rw [key hp.symm w h'] at h; exact absurd h (by simp)

/-- The two elements in the other order. -/
example : (create [false, true, false, false]).getRawVector? [⟨[0, 2], [1, 2]⟩, ⟨[2, 1, 2], [(10 : ℤ), 20, 30]⟩] =
    (create [false, true, false, false]).getRawVector? [⟨[2, 1, 2], [10, 20, 30]⟩, ⟨[0, 2], [1, 2]⟩] :=
  rawVector_perm _ (List.Perm.swap ..)

/-- C01. An entry which no element touches is zero. -/
theorem rawVector_untouched [AddCommMonoid α] (a : Assembler) (fes : List (VecElem α))
    (v : List α) (h : a.getRawVector? fes = some v) (i : Nat) (hi : i < a.size)
    (hu : ∀ e ∈ fes, i ∉ e.dofs) : v[i]? = some 0 := by
  rw [(rawVector_eq_sum a fes v h).2 i hi, sumAt_eq_zero]
  intro p hp hpi
  obtain ⟨e, he, hp⟩ := List.mem_flatMap.1 hp
  exact hu e he (hpi ▸ (List.of_mem_zip hp).1)

/-- Two elements sharing dof 2, one with a repeated index. -/
example : (create [false, true, false, false]).getRawVector?
    [⟨[0, 2], [1, 2]⟩, ⟨[2, 1, 2], [10, 20, 30]⟩] = some [(1 : ℤ), 20, 42, 0] := by decide

example : Spec.VecOK 4 [⟨[0, 2], [(1 : ℤ), 2]⟩, ⟨[2, 1, 2], [10, 20, 30]⟩] := by
  intro e he
  simp only [List.mem_cons, List.not_mem_nil, or_false] at he
  rcases he with rfl | rfl <;> decide

/-- An element index outside of the vector is not silently ignored. -/
example : (create [false]).getRawVector? [⟨[1], [(1 : ℤ)]⟩] = none := by decide

/-! ### C02 -/

/-- C02. `vector(Full)` is `vector(Raw)` with zeros at the constrained dofs. -/
theorem fullVector_eq_mask [Zero α] [Add α] (flags : List Bool) (fes : List (VecElem α))
    (v : List α) (h : (create flags).getRawVector? fes = some v) :
    (create flags).getVector? fes = some (mask flags v) := by
  have hl : v.length = flags.length := by
    unfold getRawVector? at h
    rw [rawVectorOuter_length h]; simp
  unfold getVector?
  rw [h, Option.bind_some]
  exact zeroLoop_eq (create flags) [] flags rfl v [] hl 0 rfl rfl

/-- C02. `vector(Reduced)` consists of the free entries of `vector(Raw)`, in order. -/
theorem reducedVector_eq_select [Zero α] [Add α] (flags : List Bool) (fes : List (VecElem α))
    (v : List α) (h : (create flags).getRawVector? fes = some v) :
    (create flags).getReducedVector? fes = some (selectFree flags v) := by
  unfold getReducedVector?
  rw [reducedSize?_create, Option.bind_some, ← selectFree_replicate]
  exact reducedVectorOuter_sim flags fes _ v (by simp) h

/-- C02. `vector(Reduced)` has `reducedSize()` entries and the entry at the reduced index of a
free dof `i` is the raw entry `i`. -/
theorem reducedVector_entry [Zero α] [Add α] (flags : List Bool) (fes : List (VecElem α))
    (v r : List α) (h : (create flags).getRawVector? fes = some v)
    (hr : (create flags).getReducedVector? fes = some r) :
    (create flags).reducedSize? = some r.length ∧
    ∀ i, Free flags i → ∃ k, (create flags).reducedIndex? i = some k ∧ r[k]? = v[i]? := by
  rw [reducedVector_eq_select flags fes v h] at hr
  have hl : v.length = flags.length := by
    unfold getRawVector? at h
    rw [rawVectorOuter_length h]; simp
  injection hr with hr
  subst hr
  refine ⟨by rw [reducedSize?_create, selectFree_length hl], fun i hi => ?_⟩
  exact ⟨_, reducedIndex?_create (free_lt hi), selectFree_getElem? hl hi⟩

/-- The free dof 2 of four is the second of the reduced vector. -/
example := reducedVector_entry [false, true, false, true] [⟨[0, 2, 3], [(1 : ℤ), 2, 3]⟩] [1, 0, 2, 3] [1, 2] (by decide) (by decide)

/-- C02. Both derived vectors are obtained from each other by the conversion functions:
`createReducedVector(vector(Raw)) = vector(Reduced)` (with all entries written) and
`createFullVector(vector(Reduced)) = vector(Full)`. -/
theorem vector_views_agree [Zero α] [Add α] (flags : List Bool) (fes : List (VecElem α))
    (v : List α) (h : (create flags).getRawVector? fes = some v) :
    (create flags).createReducedVector? v
        = ((create flags).getReducedVector? fes).map (List.map some) ∧
    ((create flags).getReducedVector? fes).bind (create flags).createFullVector?
        = (create flags).getVector? fes := by
  have hl : v.length = flags.length := by
    unfold getRawVector? at h
    rw [rawVectorOuter_length h]; simp
  rw [reducedVector_eq_select flags fes v h, fullVector_eq_mask flags fes v h]
  constructor
  · unfold createReducedVector?
    rw [reducedSize?_create, Option.bind_some, Option.map_some]
    exact createReducedLoop_eq _ v [] flags rfl hl 0 0 rfl rfl [] rfl _ rfl
  · rw [Option.bind_some]
    exact createFullLoop_eq flags v [] 0 0 hl rfl

example : (create [false, true, false, true, false]).getReducedVector?
    [⟨[0, 1, 2], [1, 2, 3]⟩, ⟨[4, 3, 2], [10, 20, 30]⟩] = some [(1 : ℤ), 33, 10] ∧
  (create [false, true, false, true, false]).getVector?
    [⟨[0, 1, 2], [1, 2, 3]⟩, ⟨[4, 3, 2], [10, 20, 30]⟩] = some [(1 : ℤ), 0, 33, 0, 10] ∧
  (create [false, true, false, true, false]).getRawVector?
    [⟨[0, 1, 2], [1, 2, 3]⟩, ⟨[4, 3, 2], [10, 20, 30]⟩] = some [(1 : ℤ), 2, 33, 20, 10] := by
  decide

/-! ### C03 -/

/-- C03. `createReducedVector` keeps the free entries in order and writes every entry. -/
theorem createReducedVector_eq (flags : List Bool) (v : List α) (h : v.length = flags.length) :
    (create flags).createReducedVector? v = some ((selectFree flags v).map some) := by
  unfold createReducedVector?
  rw [reducedSize?_create, Option.bind_some]
  exact createReducedLoop_eq _ v [] flags rfl h 0 0 rfl rfl [] rfl _ rfl

/-- C03. `createReducedVector(createFullVector(r)) = r` for every `r` of size `reducedSize()`;
the full vector has `size()` entries, is zero at the constrained dofs and nothing is read out of
bounds. -/
theorem reduced_full_roundtrip [Zero α] (flags : List Bool) (r : List α)
    (h : (create flags).reducedSize? = some r.length) :
    ∃ v, (create flags).createFullVector? r = some v ∧ v.length = flags.length ∧
      (∀ i : Nat, flags[i]? = some true → v[i]? = some 0) ∧
      (create flags).createReducedVector? v = some (r.map some) := by
  rw [reducedSize?_create] at h
  injection h with h
  obtain ⟨v, h1, h2⟩ := selectFree_surj flags r h.symm
  subst h2
  have hml : (mask flags v).length = flags.length := by simp [mask, h1]
  refine ⟨mask flags v, createFullLoop_eq flags v [] 0 0 h1 rfl, hml, ?_, ?_⟩
  · intro i hi
    have hi' : i < flags.length := (List.getElem?_eq_some_iff.1 hi).1
    unfold mask
    rw [List.getElem?_zipWith, hi, List.getElem?_eq_getElem (by omega)]
    simp
  · rw [createReducedVector_eq flags _ hml, selectFree_mask]

/-- C03. Going from full to reduced and back zeroes the constrained entries. -/
theorem full_reduced_full [Zero α] (flags : List Bool) (v r : List α)
    (h : v.length = flags.length)
    (hr : (create flags).createReducedVector? v = some (r.map some)) :
    (create flags).createFullVector? r = some (mask flags v) := by
  rw [createReducedVector_eq flags v h] at hr
  injection hr with hr
  have : selectFree flags v = r := (List.map_injective_iff.2 (Option.some_injective α)) hr
  subst this
  exact createFullLoop_eq flags v [] 0 0 h rfl

example : (create [true, false, true, false]).createFullVector? [(5 : ℤ), 7] = some (mask [true, false, true, false] [3, 5, 4, 7]) :=
  full_reduced_full _ _ _ rfl (by decide)

/-- C03. The round trip full, reduced, full is the identity exactly for the vectors which vanish
at all constrained dofs. -/
theorem full_reduced_roundtrip_iff [Zero α] (flags : List Bool) (v r : List α)
    (h : v.length = flags.length)
    (hr : (create flags).createReducedVector? v = some (r.map some)) :
    (create flags).createFullVector? r = some v ↔
      ∀ i : Nat, flags[i]? = some true → v[i]? = some 0 := by
  rw [full_reduced_full flags v r h hr]
  constructor
  · intro he i hi
    injection he with he
    have hi' : i < flags.length := (List.getElem?_eq_some_iff.1 hi).1
    rw [← he]
    unfold mask
    rw [List.getElem?_zipWith, hi, List.getElem?_eq_getElem (by omega)]
    simp
  · intro hz
    congr 1
    refine List.ext_getElem? fun i => ?_
    unfold mask
    rw [List.getElem?_zipWith]
    by_cases hi : i < flags.length
    · have hi2 : i < v.length := by omega
      rw [List.getElem?_eq_getElem hi, List.getElem?_eq_getElem hi2]
      cases hb : flags[i] with
      | true =>
        have := hz i (by rw [List.getElem?_eq_getElem hi, hb])
        rw [List.getElem?_eq_getElem hi2] at this
        simpa using this.symm
      | false => simp
    · rw [List.getElem?_eq_none (by omega), List.getElem?_eq_none (by omega : v.length ≤ i)]

example : (create [true, false, true, false]).createFullVector? [(5 : ℤ), 7]
    = some [0, 5, 0, 7] ∧
  (create [true, false, true, false]).createReducedVector? [(0 : ℤ), 5, 0, 7]
    = some [some 5, some 7] ∧ (create [true, false, true, false]).reducedSize? = some 2 := by
  decide

/-! ### C04 -/

/-- C04. `constraintsBelow(i)` is the number of constrained dofs with smaller index. -/
theorem constraintsBelow_count (flags : List Bool) (i : Nat) (h : i < flags.length) :
    (create flags).constraintsBelow? i
      = some ((List.range i).countP (fun j => flags[j]? = some true)) := by
  rw [constraintsBelow?_create h]
  congr 1
  have key : ∀ k, k ≤ flags.length → constrainedBelow flags k
      = (List.range k).countP (fun j => flags[j]? = some true) := by
    intro k
    induction k with
    | zero => intro _; rfl
    | succ k ih =>
      intro hk
      rw [List.range_succ, List.countP_append, ← ih (by omega)]
      unfold constrainedBelow
      rw [List.take_add_one, List.getElem?_eq_getElem (by omega), List.count_append]
      have hk' : flags[k]? = some flags[k] := List.getElem?_eq_getElem (by omega)
      cases hb : flags[k] <;> simp [hk', hb]
  exact key i (by omega)

example : (create [true, false, true, false]).constraintsBelow? 3 = some 2 :=
  (constraintsBelow_count [true, false, true, false] 3 (by decide)).trans (by decide)

/-- C04. `reducedSize()` is the number of free dofs, without unsigned wrap around. -/
theorem reducedSize_count (flags : List Bool) :
    (create flags).reducedSize? = some (flags.count false) := reducedSize?_create flags

/-- C04. Every free dof has a reduced index below `reducedSize()`, computed without wrap around;
the map is strictly increasing and onto. -/
theorem reducedIndex_bijection (flags : List Bool) :
    (∀ i, Free flags i → ∃ k, (create flags).reducedIndex? i = some k ∧ k < flags.count false) ∧
    (∀ i j k l, Free flags i → Free flags j → (create flags).reducedIndex? i = some k →
      (create flags).reducedIndex? j = some l → (i < j ↔ k < l)) ∧
    (∀ k, k < flags.count false → ∃ i, Free flags i ∧ (create flags).reducedIndex? i = some k) := by
  refine ⟨fun i hi => ⟨_, reducedIndex?_create (free_lt hi), rank_lt hi⟩, ?_, ?_⟩
  · intro i j k l hi hj hk hl
    rw [reducedIndex?_create (free_lt hi)] at hk
    rw [reducedIndex?_create (free_lt hj)] at hl
    injection hk with hk
    injection hl with hl
    subst hk hl
    constructor
    · exact rank_lt_rank hi
    · intro h
      by_contra hc
      have := rank_le_rank flags (show j ≤ i by omega)
      omega
  · intro k hk
    obtain ⟨i, hi, hik⟩ := rank_surj flags hk
    exact ⟨i, hi, by rw [reducedIndex?_create (free_lt hi), hik]⟩

example : (create [false, true, true, false, true, false]).reducedIndex? 5 = some 2 ∧
  Free [false, true, true, false, true, false] 5 := by decide

/-! ### C08 -/

/-- C08. `scalar()` is the sum of the element scalars, whatever the assembler's scalar was before. -/
theorem scalar_eq_sum [AddCommMonoid α] (fes : List α) (before : α) :
    getScalar fes before = fes.sum := by
  unfold getScalar; rw [getScalarLoop_eq, zero_add]

/-- C08. Independence of the order of the elements. -/
theorem scalar_perm [AddCommMonoid α] {fes fes' : List α} (h : fes.Perm fes') (b b' : α) :
    getScalar fes b = getScalar fes' b' := by
  rw [scalar_eq_sum, scalar_eq_sum]; exact h.sum_eq

example : getScalar [(3 : ℤ), 4, 5] 100 = getScalar [4, 3, 5] 7 := scalar_perm (List.Perm.swap ..) _ _

/-- C08. Additivity: splitting the container splits the scalar. -/
theorem scalar_append [AddCommMonoid α] (fes fes' : List α) (b b' b'' : α) :
    getScalar (fes ++ fes') b = getScalar fes b' + getScalar fes' b'' := by
  simp [scalar_eq_sum]

example : getScalar [(3 : ℤ), 4, 5] 100 = 12 := by decide

end Ikarus
