import Verif.Assembler.SparseModel
import Verif.Assembler.MatrixProps

namespace Ikarus
open Spec Assembler
variable {α : Type*}

namespace SpMat

/-! ### Storage order -/

theorem keyLt_iff (a b : Nat × Nat) : keyLt a b = true ↔ a.1 < b.1 ∨ (a.1 = b.1 ∧ a.2 < b.2) := by
  simp [keyLt]

theorem keyLt_trans {a b c : Nat × Nat} (h1 : keyLt a b) (h2 : keyLt b c) : keyLt a c := by
  rw [keyLt_iff] at *; omega

theorem keyLt_irrefl (a : Nat × Nat) : keyLt a a = false := by simp [keyLt]

/-- Strictly sorted storage. -/
abbrev Sorted (l : List (Nat × Nat)) : Prop := l.Pairwise (fun a b => keyLt a b = true)

theorem mem_insertKey {k x : Nat × Nat} {l : List (Nat × Nat)} :
    x ∈ insertKey k l ↔ x = k ∨ x ∈ l := by
  induction l with
  | nil => simp [insertKey]
  | cons a l ih =>
    simp only [insertKey]
    split
    · simp
    · split
      · rename_i h; subst h; simp
      · simp [ih]; tauto

theorem sorted_insertKey {k : Nat × Nat} {l : List (Nat × Nat)} (h : Sorted l) :
    Sorted (insertKey k l) := by
  induction l with
  | nil => simp [insertKey, Sorted]
  | cons a l ih =>
    obtain ⟨h1, h2⟩ := List.pairwise_cons.1 h
    simp only [insertKey]
    split
    · rename_i hk
      refine List.pairwise_cons.2 ⟨?_, h⟩
      intro b hb
      rcases List.mem_cons.1 hb with rfl | hb
      · exact hk
      · exact keyLt_trans hk (h1 b hb)
    · split
      · exact h
      · rename_i hk hne
        refine List.pairwise_cons.2 ⟨?_, ih h2⟩
        intro b hb
        rcases mem_insertKey.1 hb with rfl | hb
        · rw [keyLt_iff]
          rw [keyLt_iff] at hk
          have : ¬ (b.1 = a.1 ∧ b.2 = a.2) := fun h => hne (Prod.ext h.1 h.2)
          omega
        · exact h1 b hb

/-- The stored positions produced by `setFromTriplets`. -/
def keysOf (ts : List (Nat × Nat)) : List (Nat × Nat) :=
  ts.foldl (fun ks t => insertKey (t.2, t.1) ks) []

theorem foldl_insertKey (ts : List (Nat × Nat)) (l : List (Nat × Nat)) (h : Sorted l) :
    Sorted (ts.foldl (fun ks t => insertKey (t.2, t.1) ks) l) ∧
    ∀ r c, (c, r) ∈ ts.foldl (fun ks t => insertKey (t.2, t.1) ks) l ↔ (r, c) ∈ ts ∨ (c, r) ∈ l := by
  induction ts generalizing l with
  | nil => exact ⟨h, by simp⟩
  | cons t ts ih =>
    obtain ⟨h1, h2⟩ := ih (insertKey (t.2, t.1) l) (sorted_insertKey h)
    refine ⟨h1, fun r c => ?_⟩
    rw [List.foldl_cons, h2, mem_insertKey]
    obtain ⟨t1, t2⟩ := t
    simp only [Prod.mk.injEq, List.mem_cons]
    tauto

theorem keysOf_sorted (ts : List (Nat × Nat)) : Sorted (keysOf ts) :=
  (foldl_insertKey ts [] List.Pairwise.nil).1

theorem mem_keysOf {ts : List (Nat × Nat)} {r c : Nat} : (c, r) ∈ keysOf ts ↔ (r, c) ∈ ts := by
  have := (foldl_insertKey ts [] List.Pairwise.nil).2 r c
  simpa [keysOf] using this

theorem Sorted.nodup {l : List (Nat × Nat)} (h : Sorted l) : l.Nodup := by
  refine List.Pairwise.imp ?_ h
  intro a b hab he
  subst he
  rw [keyLt_irrefl] at hab
  exact absurd hab (by simp)

/-! ### `getLinearIndex` finds the position of a stored entry -/

theorem lt_countP_iff {l : List (Nat × Nat)} (h : Sorted l) (c q : Nat) (k : Nat × Nat)
    (hk : l[q]? = some k) : k.1 < c ↔ q < l.countP (fun k => k.1 < c) := by
  induction l generalizing q with
  | nil => simp at hk
  | cons a l ih =>
    obtain ⟨h1, h2⟩ := List.pairwise_cons.1 h
    by_cases ha : a.1 < c
    · rw [List.countP_cons_of_pos (by simpa using ha)]
      cases q with
      | zero =>
        have : a = k := by simpa using hk
        subst this
        simp [ha]
      | succ q =>
        have := ih h2 q (by simpa using hk)
        rw [this]; omega
    · have h0 : l.countP (fun k => decide (k.1 < c)) = 0 := by
        rw [List.countP_eq_zero]
        intro b hb
        have := h1 b hb
        rw [keyLt_iff] at this
        simp; omega
      rw [List.countP_cons_of_neg (by simpa using ha), h0]
      have hk' : k ∈ a :: l := List.mem_of_getElem? hk
      rcases List.mem_cons.1 hk' with rfl | hk'
      · simp; omega
      · have := h1 k hk'
        rw [keyLt_iff] at this
        simp; omega

theorem searchLoop_eq (A : SpMat α) (p key : Nat) (n start stop : Nat) (hn : stop - start ≤ n)
    (h1 : start ≤ p) (h2 : p ≤ stop)
    (h : ∀ mid, start ≤ mid → mid < stop → ∃ k, A.keys[mid]? = some k ∧ (k.2 < key ↔ mid < p)) :
    A.searchLoop n start stop key = some p := by
  induction n generalizing start stop with
  | zero =>
    unfold searchLoop
    rw [if_neg (by omega)]
    congr 1; omega
  | succ n ih =>
    unfold searchLoop
    by_cases hs : stop > start
    · rw [if_pos hs]
      obtain ⟨k, hk, hkp⟩ := h ((stop + start) / 2) (by omega) (by omega)
      simp only [hk]
      by_cases hlt : k.2 < key
      · rw [if_pos hlt]
        have := hkp.1 hlt
        exact ih _ _ (by omega) (by omega) h2 (fun mid a b => h mid (by omega) b)
      · rw [if_neg hlt]
        have : ¬ (stop + start) / 2 < p := fun hc => hlt (hkp.2 hc)
        exact ih _ _ (by omega) h1 (by omega) (fun mid a b => h mid a (by omega))
    · rw [if_neg hs]
      congr 1; omega

theorem searchLowerIndex_eq (A : SpMat α) (p key : Nat) (start stop : Nat) (h1 : start ≤ p)
    (h2 : p ≤ stop)
    (h : ∀ mid, start ≤ mid → mid < stop → ∃ k, A.keys[mid]? = some k ∧ (k.2 < key ↔ mid < p)) :
    A.searchLowerIndex start stop key = some p :=
  searchLoop_eq A p key _ start stop (Nat.le_refl _) h1 h2 h

theorem getLinearIndex_eq (A : SpMat α) (h : Sorted A.keys) (p r c : Nat)
    (hp : A.keys[p]? = some (c, r)) : A.getLinearIndex r c = some p := by
  unfold getLinearIndex outerIndex
  have hs := lt_countP_iff h c p _ hp
  have he := lt_countP_iff h (c + 1) p _ hp
  simp only [Nat.lt_irrefl, false_iff, Nat.lt_succ_self, true_iff] at hs he
  apply searchLowerIndex_eq
  · omega
  · omega
  · intro mid hm1 hm2
    have hlen : mid < A.keys.length := by
      have := List.countP_le_length (p := fun k : Nat × Nat => decide (k.1 < c + 1)) (l := A.keys)
      omega
    refine ⟨A.keys[mid], List.getElem?_eq_getElem hlen, ?_⟩
    have hk := List.getElem?_eq_getElem hlen
    have a1 := lt_countP_iff h c mid _ hk
    have a2 := lt_countP_iff h (c + 1) mid _ hk
    have hcol : A.keys[mid].1 = c := by
      have b1 : ¬ A.keys[mid].1 < c := fun hc => by have := a1.1 hc; omega
      have b2 : A.keys[mid].1 < c + 1 := a2.2 (by omega)
      omega
    obtain ⟨hpl, hpe⟩ := List.getElem?_eq_some_iff.1 hp
    rcases Nat.lt_trichotomy mid p with hlt | heq | hgt
    · have := List.pairwise_iff_getElem.1 h mid p hlen hpl hlt
      rw [keyLt_iff, hpe] at this
      simp only at this
      constructor
      · intro _; exact hlt
      · intro _; omega
    · subst heq; rw [hpe]; simp
    · have := List.pairwise_iff_getElem.1 h p mid hpl hlen hgt
      rw [keyLt_iff, hpe] at this
      simp only at this
      constructor
      · intro _; omega
      · intro _; omega

/-! ### `coeff` -/

theorem find_zip {ks : List (Nat × Nat)} {vs : List α} (hl : vs.length = ks.length) (hn : ks.Nodup)
    {p : Nat} {k : Nat × Nat} {x : α} (hk : ks[p]? = some k) (hx : vs[p]? = some x) :
    (ks.zip vs).find? (fun q => q.1 = k) = some (k, x) := by
  induction ks generalizing vs p with
  | nil => simp at hk
  | cons a ks ih =>
    cases vs with
    | nil => simp at hl
    | cons y vs =>
      obtain ⟨h1, h2⟩ := List.nodup_cons.1 hn
      cases p with
      | zero =>
        have e1 : a = k := by simpa using hk
        have e2 : y = x := by simpa using hx
        simp [e1, e2]
      | succ p =>
        have hk' : ks[p]? = some k := by simpa using hk
        have hne : a ≠ k := fun h => h1 (h ▸ List.mem_of_getElem? hk')
        simp only [List.zip_cons_cons, List.find?_cons, hne, decide_false]
        exact ih (by simpa using hl) h2 hk' (by simpa using hx)

theorem coeff_of_pos [Zero α] {A : SpMat α} (hl : A.vals.length = A.keys.length)
    (hs : Sorted A.keys) {p r c : Nat} {x : α} (hk : A.keys[p]? = some (c, r))
    (hx : A.vals[p]? = some x) : A.coeff r c = x := by
  unfold coeff
  rw [find_zip hl hs.nodup hk hx]

theorem coeff_of_notMem [Zero α] {A : SpMat α} {r c : Nat} (h : (c, r) ∉ A.keys) :
    A.coeff r c = 0 := by
  unfold coeff
  have : (A.keys.zip A.vals).find? (fun p => p.1 = (c, r)) = none := by
    rw [List.find?_eq_none]
    intro p hp
    have := (List.of_mem_zip (a := p.1) (b := p.2) hp).1
    simp only [decide_eq_true_eq]
    intro he
    rw [he] at this
    exact h this
  rw [this]

/-- `A` has the storage structure `keys` and is compressed. -/
structure Good (n : Nat) (keys : List (Nat × Nat)) (A : SpMat α) : Prop where
  rows : A.rows = n
  cols : A.cols = n
  keys_eq : A.keys = keys
  len : A.vals.length = keys.length
  comp : A.compressed = true

theorem setFromTriplets?_eq [Zero α] {n : Nat} {ts : List (Nat × Nat)}
    (h : ∀ t ∈ ts, t.1 < n ∧ t.2 < n) :
    ∃ A : SpMat α, setFromTriplets? n ts = some A ∧ Good n (keysOf ts) A := by
  unfold setFromTriplets?
  rw [if_pos (by simpa using fun a b hab => h (a, b) hab)]
  exact ⟨_, rfl, rfl, rfl, rfl, by simp [keysOf], rfl⟩

theorem linearIndices_eq {A : SpMat α} (hs : Sorted A.keys) {ps : List (Nat × Nat)}
    (h : ∀ p ∈ ps, (p.2, p.1) ∈ A.keys) :
    SparseState.linearIndices A ps = some (ps.map fun p => A.keys.idxOf (p.2, p.1)) := by
  induction ps with
  | nil => rfl
  | cons p ps ih =>
    have hm := h p (by simp)
    have : A.getLinearIndex p.1 p.2 = some (A.keys.idxOf (p.2, p.1)) := by
      apply getLinearIndex_eq A hs
      rw [List.getElem?_eq_getElem (List.idxOf_lt_length_iff.2 hm)]
      simp
    simp [SparseState.linearIndices, this, ih fun p hp => h p (by simp [hp])]

end SpMat

namespace SparseState
open SpMat

theorem addAll_eq [Add α] (xs : List α) (is : List Nat) (A : SpMat α) (hl : xs.length ≤ is.length)
    (hc : A.compressed = true) :
    addAll xs is A = (scatter A.vals (is.zip xs)).map fun v => { A with vals := v } := by
  induction xs generalizing is A with
  | nil => cases is <;> simp [addAll, scatter]
  | cons x xs ih =>
    cases is with
    | nil => simp at hl
    | cons i is =>
      simp only [addAll, SpMat.addCoeff?, List.zip_cons_cons, scatter]
      rw [if_pos hc]
      cases addAt? A.vals i x with
      | none => rfl
      | some v =>
        simp only [Option.map_some, Option.bind_some]
        rw [ih is { A with vals := v } (by simpa using hl) hc]

/-- Contributions of one element in the order of the sparse assembler. -/
def elemContribs (pos : Nat × Nat → Nat) (e : MatElem α) : List (Nat × α) :=
  e.dofs.zipIdx.flatMap fun c => e.dofs.zipIdx.map fun r => (pos (c.1, r.1), e.mat.val r.2 c.2)

theorem zip_elem (pos : Nat × Nat → Nat) (e : MatElem α) (hr : e.mat.rows = e.dofs.length)
    (hc : e.mat.cols = e.dofs.length) :
    ((e.dofs.flatMap fun c => e.dofs.map fun r => (r, c)).map fun p => pos (p.2, p.1)).zip
      (reshaped e.mat) = elemContribs pos e := by
  have h1 : ((e.dofs.flatMap fun c => e.dofs.map fun r => (r, c)).map fun p => pos (p.2, p.1))
      = (e.dofs.zipIdx.flatMap fun c => e.dofs.zipIdx.map fun r => (c, r)).map
          fun q => pos (q.1.1, q.2.1) := by
    simp only [List.map_flatMap, List.map_map]
    conv_lhs => rw [← List.zipIdx_map_fst 0 e.dofs]
    simp only [List.flatMap_map, List.map_map]
    rfl
  have h2 : reshaped e.mat
      = (e.dofs.zipIdx.flatMap fun c => e.dofs.zipIdx.map fun r => (c, r)).map
          fun q => e.mat.val q.2.2 q.1.2 := by
    unfold reshaped
    rw [hr, hc]
    simp only [List.map_flatMap, List.map_map]
    have : List.range e.dofs.length = e.dofs.zipIdx.map Prod.snd := by
      rw [List.zipIdx_map_snd, List.range_eq_range']
    rw [this]
    simp only [List.flatMap_map, List.map_map]
    rfl
  rw [h1, h2, List.zip_map']
  simp only [elemContribs, List.map_flatMap, List.map_map]
  rfl

/-- Expected linear indices of one element. -/
def elemLin (keys : List (Nat × Nat)) (ds : List Nat) : List Nat :=
  (ds.flatMap fun c => ds.map fun r => (r, c)).map fun p => keys.idxOf (p.2, p.1)

theorem elemLin_length (keys : List (Nat × Nat)) (ds : List Nat) :
    (elemLin keys ds).length = ds.length * ds.length := by
  unfold elemLin
  simp [List.length_flatMap]

theorem reshaped_length (A : DMat α) : (reshaped A).length = A.cols * A.rows := by
  simp [reshaped, List.length_flatMap]

theorem addElements_eq [Add α] (keys : List (Nat × Nat)) (fes : List (MatElem α))
    (hsz : ∀ e ∈ fes, e.mat.rows = e.dofs.length ∧ e.mat.cols = e.dofs.length)
    (rest : List (List Nat)) (A : SpMat α) (hc : A.compressed = true) :
    addElements fes (fes.map (fun e => elemLin keys e.dofs) ++ rest) A
      = (scatter A.vals (fes.flatMap (elemContribs keys.idxOf))).map
          fun v => { A with vals := v } := by
  induction fes generalizing A with
  | nil => simp [addElements, scatter]
  | cons e es ih =>
    obtain ⟨hr, hcl⟩ := hsz e (by simp)
    simp only [List.map_cons, List.cons_append, addElements, List.flatMap_cons]
    rw [addAll_eq _ _ _ (by rw [elemLin_length, reshaped_length, hr, hcl]) hc]
    have hz : (elemLin keys e.dofs).zip (reshaped e.mat) = elemContribs keys.idxOf e :=
      zip_elem (fun a => keys.idxOf a) e hr hcl
    rw [hz, scatter_append]
    cases scatter A.vals (elemContribs (keys.idxOf) e) with
    | none => rfl
    | some v =>
      simp only [Option.map_some, Option.bind_some]
      exact ih (fun e he => hsz e (by simp [he])) { A with vals := v } hc

theorem sumAt_pos [AddCommMonoid α] (keys : List (Nat × Nat)) (fes : List (MatElem α))
    (r c : Nat) (hk : (c, r) ∈ keys) :
    sumAt (fes.flatMap (elemContribs keys.idxOf)) (keys.idxOf (c, r))
      = sumAt (Spec.matContribs fes) (r, c) := by
  unfold Spec.matContribs
  rw [sumAt_flatMap, sumAt_flatMap]
  congr 1
  refine List.map_congr_left fun e _ => ?_
  unfold elemContribs Spec.elemMatContribs
  rw [sumAt_flatMap, sumAt_flatMap]
  simp only [sumAt_map]
  rw [list_sum_comm]
  congr 1
  refine List.map_congr_left fun p _ => ?_
  congr 1
  refine List.map_congr_left fun q _ => ?_
  congr 1
  simp only [Prod.mk.injEq, eq_iff_iff]
  rw [show (keys.idxOf (q.1, p.1) = keys.idxOf (c, r)) ↔ (c, r) = (q.1, p.1) from ?_]
  · simp only [Prod.mk.injEq]; tauto
  · constructor
    · intro h
      have := List.idxOf_lt_length_iff.2 hk
      have h1 := List.getElem_idxOf this
      have h2 := List.getElem_idxOf (xs := keys) (x := (q.1, p.1)) (by rw [h]; exact this)
      rw [← h1, ← h2]
      congr 1
      exact h.symm
    · intro h; rw [h]

/-- Positions touched by the elements, as `(row, col)`. -/
def patternOf (conn : List (List Nat)) : List (Nat × Nat) :=
  conn.flatMap fun ds => ds.flatMap fun i => ds.map fun j => (i, j)

theorem occupationPattern_eq (fes : List (MatElem α)) :
    occupationPattern fes = patternOf (fes.map (·.dofs)) := by
  simp [occupationPattern, patternOf, List.flatMap_map]

theorem mem_patternOf {conn : List (List Nat)} {r c : Nat} :
    (r, c) ∈ patternOf conn ↔ ∃ ds ∈ conn, r ∈ ds ∧ c ∈ ds := by
  simp [patternOf]

theorem sumAt_matContribs_notMem [AddCommMonoid α] {fes : List (MatElem α)} {r c : Nat}
    (h : (r, c) ∉ patternOf (fes.map (·.dofs))) : sumAt (Spec.matContribs fes) (r, c) = 0 := by
  apply sumAt_eq_zero
  intro p hp he
  obtain ⟨e, hem, hp⟩ := List.mem_flatMap.1 hp
  have := mem_elemMatContribs hp
  rw [he] at this
  exact h (mem_patternOf.2 ⟨e.dofs, List.mem_map_of_mem hem, this.1, this.2⟩)

theorem linearDofs_eq (keys : List (Nat × Nat)) (hs : Sorted keys) (A : SpMat α)
    (hA : A.keys = keys) (fes : List (MatElem α))
    (h : ∀ e ∈ fes, ∀ r ∈ e.dofs, ∀ c ∈ e.dofs, (c, r) ∈ keys) :
    linearDofs A fes = some (fes.map fun e => elemLin keys e.dofs) := by
  induction fes with
  | nil => rfl
  | cons e es ih =>
    simp only [linearDofs, List.map_cons]
    rw [linearIndices_eq (by rw [hA]; exact hs), Option.bind_some,
      ih fun e he => h e (by simp [he])]
    · simp [elemLin, hA]
    · intro p hp
      simp only [List.mem_flatMap, List.mem_map] at hp
      obtain ⟨c, hc, r, hr, rfl⟩ := hp
      rw [hA]
      exact h e (by simp) r hr c hc

/-- The raw assembly into a good matrix with the right index lists. -/
theorem assembleRaw_eq [AddCommMonoid α] (n : Nat) (fes : List (MatElem α))
    (hsz : ∀ e ∈ fes, e.mat.rows = e.dofs.length ∧ e.mat.cols = e.dofs.length)
    (rest : List (List Nat)) (A : SpMat α)
    (hA : Good n (keysOf (patternOf (fes.map (·.dofs)))) A) :
    ∃ B, assembleRaw fes (fes.map (fun e => elemLin (keysOf (patternOf (fes.map (·.dofs)))) e.dofs)
        ++ rest) A = some B ∧ Good n (keysOf (patternOf (fes.map (·.dofs)))) B ∧
      ∀ r c, B.coeff r c = sumAt (Spec.matContribs fes) (r, c) := by
  set keys := keysOf (patternOf (fes.map (·.dofs))) with hkeys
  unfold assembleRaw zeroCoeffs?
  rw [if_pos hA.comp, Option.bind_some, addElements_eq keys fes hsz rest
    { A with vals := A.vals.map fun _ => (0 : α) } hA.comp]
  obtain ⟨v, hv⟩ := scatter_isSome (v := A.vals.map fun _ => (0 : α))
    (cs := fes.flatMap (elemContribs keys.idxOf)) (by
      intro p hp
      obtain ⟨e, he, hp⟩ := List.mem_flatMap.1 hp
      unfold elemContribs at hp
      simp only [List.mem_flatMap, List.mem_map] at hp
      obtain ⟨c, hc, r, hr, rfl⟩ := hp
      have hc' := List.fst_mem_of_mem_zipIdx hc
      have hr' := List.fst_mem_of_mem_zipIdx hr
      rw [List.length_map, hA.len]
      apply List.idxOf_lt_length_iff.2
      rw [hkeys, mem_keysOf, mem_patternOf]
      exact ⟨e.dofs, List.mem_map_of_mem he, hr', hc'⟩)
  simp only [hv, Option.map_some]
  obtain ⟨-, hl, hval⟩ := scatter_eq_some hv
  have hgood : Good n keys ({ A with vals := v } : SpMat α) :=
    ⟨hA.rows, hA.cols, hA.keys_eq, by simp [hl, hA.len], hA.comp⟩
  refine ⟨_, rfl, hgood, fun r c => ?_⟩
  by_cases hk : (c, r) ∈ keys
  · have hlt := List.idxOf_lt_length_iff.2 hk
    apply coeff_of_pos (p := keys.idxOf (c, r)) (by rw [hgood.len, hgood.keys_eq])
      (by rw [hgood.keys_eq]; exact keysOf_sorted _)
    · simp only [hA.keys_eq]
      rw [List.getElem?_eq_getElem hlt]; simp
    · simp only [hval]
      rw [List.getElem?_eq_getElem (by rw [List.length_map, hA.len]; exact hlt)]
      simp only [List.getElem_map, Option.map_some, zero_add]
      rw [sumAt_pos keys fes r c hk]
  · rw [coeff_of_notMem (by simp only [hA.keys_eq]; exact hk), sumAt_matContribs_notMem]
    rw [hkeys, mem_keysOf] at hk
    exact hk

/-! ### Row, column and diagonal operations -/

theorem coeff_zipWith [Zero α] {n : Nat} {keys : List (Nat × Nat)} (hs : Sorted keys) {A : SpMat α}
    (hA : Good n keys A) (f : Nat × Nat → α → α) :
    Good n keys ({ A with vals := List.zipWith f A.keys A.vals } : SpMat α) ∧
    ∀ r c, ({ A with vals := List.zipWith f A.keys A.vals } : SpMat α).coeff r c
      = if (c, r) ∈ keys then f (c, r) (A.coeff r c) else 0 := by
  have hg : Good n keys ({ A with vals := List.zipWith f A.keys A.vals } : SpMat α) :=
    ⟨hA.rows, hA.cols, hA.keys_eq, by simp [hA.len, hA.keys_eq], hA.comp⟩
  refine ⟨hg, fun r c => ?_⟩
  by_cases hk : (c, r) ∈ keys
  · rw [if_pos hk]
    have hlt := List.idxOf_lt_length_iff.2 hk
    have hkp : A.keys[keys.idxOf (c, r)]? = some (c, r) := by
      rw [hA.keys_eq, List.getElem?_eq_getElem hlt]; simp
    have hlt2 : keys.idxOf (c, r) < A.vals.length := by rw [hA.len]; exact hlt
    have hvp := List.getElem?_eq_getElem hlt2
    have h1 := coeff_of_pos (A := A) (by rw [hA.len, hA.keys_eq]) (by rw [hA.keys_eq]; exact hs)
      hkp hvp
    rw [h1]
    apply coeff_of_pos (p := keys.idxOf (c, r)) (by rw [hg.len, hg.keys_eq])
      (by rw [hg.keys_eq]; exact hs)
    · exact hkp
    · rw [List.getElem?_zipWith, hkp, hvp]
  · rw [if_neg hk, coeff_of_notMem]
    simp only [hA.keys_eq]; exact hk

theorem forConstrained_sim {β γ : Type*} (R : β → γ → Prop) (fl : List Bool)
    (op1 : β → Nat → Option β) (op2 : γ → Nat → Option γ)
    (hop : ∀ A D i D', fl[i]? = some true → R A D → op2 D i = some D' →
      ∃ A', op1 A i = some A' ∧ R A' D')
    (n i : Nat) (A : β) (D D' : γ) (hR : R A D)
    (h : forConstrained (Assembler.create fl) op2 n i D = some D') :
    ∃ A', forConstrained (Assembler.create fl) op1 n i A = some A' ∧ R A' D' := by
  induction n generalizing i A D with
  | zero =>
    simp only [forConstrained, Option.some.injEq] at h
    subst h
    exact ⟨A, rfl, hR⟩
  | succ n ih =>
    simp only [forConstrained] at h ⊢
    obtain ⟨b, hb, h⟩ := Option.bind_eq_some_iff.1 h
    rw [hb, Option.bind_some]
    cases b with
    | true =>
      simp only [if_true] at h ⊢
      obtain ⟨D1, hD1, h⟩ := Option.bind_eq_some_iff.1 h
      obtain ⟨A1, hA1, hR1⟩ := hop A D i D1 hb hR hD1
      rw [hA1, Option.bind_some]
      exact ih (i + 1) A1 D1 hR1 h
    | false =>
      simp only [Bool.false_eq_true, if_false] at h ⊢
      exact ih (i + 1) A D hR h

/-- Sparse and dense matrix with equal entries. -/
structure Rel [Zero α] (n : Nat) (keys : List (Nat × Nat)) (A : SpMat α) (D : DMat α) : Prop where
  good : Good n keys A
  rows : D.rows = n
  cols : D.cols = n
  val : ∀ r c, A.coeff r c = D.val r c

theorem rel_zeroCol [MulZeroClass α] {n : Nat} {keys : List (Nat × Nat)} (hs : Sorted keys)
    (A : SpMat α) (D D' : DMat α) (i : Nat) (h : Rel n keys A D) (hD : zeroCol D i = some D') :
    Rel n keys (A.scaleZero fun k => k.1 = i) D' := by
  obtain ⟨hg, hc⟩ := coeff_zipWith hs h.good (fun k x => if k.1 = i then x * 0 else x)
  unfold zeroCol at hD
  split at hD
  · injection hD with hD
    subst hD
    refine ⟨?_, h.rows, h.cols, fun r c => ?_⟩
    · unfold SpMat.scaleZero; simpa using hg
    · unfold SpMat.scaleZero
      simp only [decide_eq_true_eq]
      rw [hc]
      by_cases hk : (c, r) ∈ keys
      · rw [if_pos hk, ← h.val]; simp
      · rw [if_neg hk]
        have : D.val r c = 0 := by
          rw [← h.val, coeff_of_notMem]; rw [h.good.keys_eq]; exact hk
        simp [this]
  · exact absurd hD (by simp)

theorem rel_zeroRow [MulZeroClass α] {n : Nat} {keys : List (Nat × Nat)} (hs : Sorted keys)
    (A : SpMat α) (D D' : DMat α) (i : Nat) (h : Rel n keys A D) (hD : zeroRow D i = some D') :
    Rel n keys (A.scaleZero fun k => k.2 = i) D' := by
  obtain ⟨hg, hc⟩ := coeff_zipWith hs h.good (fun k x => if k.2 = i then x * 0 else x)
  unfold zeroRow at hD
  split at hD
  · injection hD with hD
    subst hD
    refine ⟨?_, h.rows, h.cols, fun r c => ?_⟩
    · unfold SpMat.scaleZero; simpa using hg
    · unfold SpMat.scaleZero
      simp only [decide_eq_true_eq]
      rw [hc]
      by_cases hk : (c, r) ∈ keys
      · rw [if_pos hk, ← h.val]; simp
      · rw [if_neg hk]
        have : D.val r c = 0 := by
          rw [← h.val, coeff_of_notMem]; rw [h.good.keys_eq]; exact hk
        simp [this]
  · exact absurd hD (by simp)

theorem rel_unitDiag [Zero α] [One α] {n : Nat} {keys : List (Nat × Nat)} (hs : Sorted keys)
    (A : SpMat α) (D D' : DMat α) (i : Nat) (h : Rel n keys A D) (hi : (i, i) ∈ keys)
    (hD : unitDiag D i = some D') : Rel n keys (A.setDiagOne i) D' := by
  obtain ⟨hg, hc⟩ := coeff_zipWith hs h.good (fun k x => if k = (i, i) then 1 else x)
  unfold unitDiag DMat.setAt? at hD
  split at hD
  · injection hD with hD
    subst hD
    have he : A.setDiagOne i
        = { A with vals := List.zipWith (fun k x => if k = (i, i) then 1 else x) A.keys A.vals } := by
      unfold SpMat.setDiagOne
      rw [if_pos (by rw [h.good.keys_eq]; exact hi)]
    rw [he]
    refine ⟨hg, h.rows, h.cols, fun r c => ?_⟩
    rw [hc]
    simp only [DMat.upd, Prod.mk.injEq]
    by_cases hk : (c, r) ∈ keys
    · rw [if_pos hk, ← h.val]
      congr 1
      apply propext
      tauto
    · rw [if_neg hk]
      have : D.val r c = 0 := by
        rw [← h.val, coeff_of_notMem]; rw [h.good.keys_eq]; exact hk
      rw [this, if_neg]
      rintro ⟨rfl, rfl⟩
      exact hk hi
  · exact absurd hD (by simp)

/-! ### Reduced part -/

theorem freeLocal_eq (fl : List Bool) (ds : List Nat) (i : Nat) (h : ∀ d ∈ ds, d < fl.length) :
    freeLocal (Assembler.create fl) ds i
      = some (((ds.zipIdx i).filter fun p => Free fl p.1).map fun p => (p.2, rank fl p.1)) := by
  induction ds generalizing i with
  | nil => rfl
  | cons d ds ih =>
    have hd := h d (by simp)
    simp only [freeLocal, isConstrained?_create hd, Option.bind_some, List.zipIdx_cons]
    rw [ih (i + 1) fun d hd => h d (by simp [hd])]
    by_cases hf : Free fl d
    · simp [hf, reducedIndex?_create hd]
    · simp [hf]

/-- The pairs of free local dofs of one element. -/
def freePairs (fl : List Bool) (ds : List Nat) : List ((Nat × Nat) × (Nat × Nat)) :=
  (ds.zipIdx.filter fun p => Free fl p.1).flatMap fun r =>
    (ds.zipIdx.filter fun p => Free fl p.1).map fun c => (r, c)

/-- Reduced positions touched by the elements. -/
def reducedPatternOf (fl : List Bool) (conn : List (List Nat)) : List (Nat × Nat) :=
  conn.flatMap fun ds => (freePairs fl ds).map fun q => (rank fl q.1.1, rank fl q.2.1)

theorem pairs_eq (fl : List Bool) (ds : List Nat) :
    ((((ds.zipIdx).filter fun p => Free fl p.1).map fun p => (p.2, rank fl p.1)).flatMap fun r =>
      (((ds.zipIdx).filter fun p => Free fl p.1).map fun p => (p.2, rank fl p.1)).map
        fun c => (r.2, c.2))
      = (freePairs fl ds).map fun q => (rank fl q.1.1, rank fl q.2.1) := by
  simp only [freePairs, List.flatMap_map, List.map_flatMap, List.map_map]
  rfl

theorem pairs_eq' (fl : List Bool) (ds : List Nat) :
    ((((ds.zipIdx).filter fun p => Free fl p.1).map fun p => (p.2, rank fl p.1)).flatMap fun r =>
      (((ds.zipIdx).filter fun p => Free fl p.1).map fun p => (p.2, rank fl p.1)).map
        fun c => (r.1, c.1))
      = (freePairs fl ds).map fun q => (q.1.2, q.2.2) := by
  simp only [freePairs, List.flatMap_map, List.map_flatMap, List.map_map]
  rfl

theorem reducedPattern_eq (fl : List Bool) (fes : List (MatElem α))
    (h : ∀ e ∈ fes, ∀ d ∈ e.dofs, d < fl.length) :
    reducedPattern (Assembler.create fl) fes
      = some (reducedPatternOf fl (fes.map (·.dofs))) := by
  induction fes with
  | nil => rfl
  | cons e es ih =>
    simp only [reducedPattern]
    rw [freeLocal_eq fl e.dofs 0 (h e (by simp)), Option.bind_some,
      ih fun e he => h e (by simp [he]), Option.map_some, pairs_eq]
    simp [reducedPatternOf]

/-- Expected reduced linear indices of one element. -/
def elemLinReduced (fl : List Bool) (keys : List (Nat × Nat)) (ds : List Nat) : List Nat :=
  (freePairs fl ds).map fun q => keys.idxOf (rank fl q.2.1, rank fl q.1.1)

theorem mem_freePairs {fl : List Bool} {ds : List Nat} {q : (Nat × Nat) × (Nat × Nat)}
    (h : q ∈ freePairs fl ds) : q.1 ∈ ds.zipIdx ∧ q.2 ∈ ds.zipIdx ∧ Free fl q.1.1 ∧
      Free fl q.2.1 := by
  unfold freePairs at h
  simp only [List.mem_flatMap, List.mem_map, List.mem_filter, decide_eq_true_eq] at h
  obtain ⟨r, ⟨hr1, hr2⟩, c, ⟨hc1, hc2⟩, rfl⟩ := h
  exact ⟨hr1, hc1, hr2, hc2⟩

theorem linearDofsReduced_eq (fl : List Bool) (keys : List (Nat × Nat)) (hs : Sorted keys)
    (A : SpMat α) (hA : A.keys = keys) (fes : List (MatElem α))
    (hd : ∀ e ∈ fes, ∀ d ∈ e.dofs, d < fl.length)
    (h : ∀ e ∈ fes, ∀ q ∈ freePairs fl e.dofs, (rank fl q.2.1, rank fl q.1.1) ∈ keys) :
    linearDofsReduced (Assembler.create fl) A fes
      = some (fes.map fun e => elemLinReduced fl keys e.dofs) := by
  induction fes with
  | nil => rfl
  | cons e es ih =>
    simp only [linearDofsReduced, List.map_cons]
    rw [freeLocal_eq fl e.dofs 0 (hd e (by simp)), Option.bind_some, pairs_eq,
      linearIndices_eq (by rw [hA]; exact hs), Option.bind_some,
      ih (fun e he => hd e (by simp [he])) (fun e he => h e (by simp [he]))]
    · simp only [Option.map_some, List.map_map, hA]
      rfl
    · intro p hp
      obtain ⟨q, hq, rfl⟩ := List.mem_map.1 hp
      rw [hA]
      exact h e (by simp) q hq

/-- Contributions of one element to the reduced matrix. -/
def elemContribsReduced (fl : List Bool) (pos : Nat × Nat → Nat) (e : MatElem α) :
    List (Nat × α) :=
  (freePairs fl e.dofs).map fun q =>
    (pos (rank fl q.2.1, rank fl q.1.1), e.mat.val q.1.2 q.2.2)

theorem mapM_get (D : DMat α) (ps : List (Nat × Nat)) (h : ∀ p ∈ ps, p.1 < D.rows ∧ p.2 < D.cols) :
    (ps.mapM fun p => D.get? p.1 p.2) = some (ps.map fun p => D.val p.1 p.2) := by
  induction ps with
  | nil => rfl
  | cons p ps ih =>
    have hp := h p (by simp)
    rw [List.mapM_cons, ih fun p hp => h p (by simp [hp])]
    simp [DMat.get?, hp]

theorem addElementsReduced_eq [Add α] (fl : List Bool) (keys : List (Nat × Nat))
    (fes : List (MatElem α)) (hd : ∀ e ∈ fes, ∀ d ∈ e.dofs, d < fl.length)
    (hsz : ∀ e ∈ fes, e.mat.rows = e.dofs.length ∧ e.mat.cols = e.dofs.length)
    (rest : List (List Nat)) (A : SpMat α) (hc : A.compressed = true) :
    addElementsReduced (Assembler.create fl) fes
        (fes.map (fun e => elemLinReduced fl keys e.dofs) ++ rest) A
      = (scatter A.vals (fes.flatMap (elemContribsReduced fl keys.idxOf))).map
          fun v => { A with vals := v } := by
  induction fes generalizing A with
  | nil => simp [addElementsReduced, scatter]
  | cons e es ih =>
    obtain ⟨hr, hcl⟩ := hsz e (by simp)
    simp only [List.map_cons, List.cons_append, addElementsReduced, List.flatMap_cons]
    rw [freeLocal_eq fl e.dofs 0 (hd e (by simp)), Option.bind_some, pairs_eq', mapM_get,
      Option.bind_some, addAll_eq _ _ _ (by simp [elemLinReduced]) hc, scatter_append]
    · rw [show (elemLinReduced fl keys e.dofs).zip
          (((freePairs fl e.dofs).map fun q => (q.1.2, q.2.2)).map fun p => e.mat.val p.1 p.2)
          = elemContribsReduced fl keys.idxOf e from ?_]
      · cases scatter A.vals (elemContribsReduced fl keys.idxOf e) with
        | none => rfl
        | some v =>
          simp only [Option.map_some, Option.bind_some]
          exact ih (fun e he => hd e (by simp [he])) (fun e he => hsz e (by simp [he]))
            { A with vals := v } hc
      · unfold elemLinReduced elemContribsReduced
        rw [List.map_map, List.zip_map']
        rfl
    · intro p hp
      obtain ⟨q, hq, rfl⟩ := List.mem_map.1 hp
      have hm := mem_freePairs hq
      have h1 := List.mem_zipIdx (x := q.1.1) (i := q.1.2) hm.1
      have h2 := List.mem_zipIdx (x := q.2.1) (i := q.2.2) hm.2.1
      simp only
      omega

theorem sum_filter_map [AddCommMonoid α] {β : Type*} (l : List β) (P : β → Bool) (f : β → α) :
    ((l.filter P).map f).sum = (l.map fun b => if P b then f b else 0).sum := by
  induction l with
  | nil => rfl
  | cons a l ih => by_cases h : P a <;> simp [h, ih]

theorem sumAt_pos_reduced [AddCommMonoid α] (fl : List Bool) (keys : List (Nat × Nat))
    (fes : List (MatElem α)) (r c : Nat) (hr : Free fl r) (hc : Free fl c)
    (hk : (rank fl c, rank fl r) ∈ keys) :
    sumAt (fes.flatMap (elemContribsReduced fl keys.idxOf)) (keys.idxOf (rank fl c, rank fl r))
      = sumAt (Spec.matContribs fes) (r, c) := by
  unfold Spec.matContribs
  rw [sumAt_flatMap, sumAt_flatMap]
  congr 1
  refine List.map_congr_left fun e _ => ?_
  unfold elemContribsReduced Spec.elemMatContribs freePairs
  simp only [List.map_flatMap, List.map_map]
  rw [sumAt_flatMap, sumAt_flatMap, sum_filter_map]
  congr 1
  refine List.map_congr_left fun p _ => ?_
  by_cases hp : Free fl p.1
  · simp only [hp, decide_true, if_true]
    rw [show (((fun q : (Nat × Nat) × (Nat × Nat) =>
        (keys.idxOf (rank fl q.2.1, rank fl q.1.1), e.mat.val q.1.2 q.2.2)) ∘ fun c => (p, c)))
        = fun q => (keys.idxOf (rank fl q.1, rank fl p.1), e.mat.val p.2 q.2) from rfl]
    rw [sumAt_map, sumAt_map, sum_filter_map]
    congr 1
    refine List.map_congr_left fun q _ => ?_
    by_cases hq : Free fl q.1
    · simp only [hq, decide_true, if_true]
      congr 1
      simp only [Prod.mk.injEq, eq_iff_iff]
      constructor
      · intro h
        have hlt := List.idxOf_lt_length_iff.2 hk
        have h1 := List.getElem_idxOf hlt
        have h2 := List.getElem_idxOf (xs := keys) (x := (rank fl q.1, rank fl p.1))
          (by rw [h]; exact hlt)
        have h3 : (rank fl c, rank fl r) = (rank fl q.1, rank fl p.1) := by
          rw [← h1, ← h2]; congr 1; exact h.symm
        simp only [Prod.mk.injEq] at h3
        exact ⟨rank_inj hp hr h3.2.symm, rank_inj hq hc h3.1.symm⟩
      · rintro ⟨h1, h2⟩; rw [h1, h2]
    · have : ¬ (p.1 = r ∧ q.1 = c) := by rintro ⟨-, h⟩; exact hq (h ▸ hc)
      simp [hq, this]
  · have hne : p.1 ≠ r := fun h => hp (h ▸ hr)
    simp only [hp, decide_false, Bool.false_eq_true, if_false]
    rw [sumAt_eq_zero]
    intro q hq he
    obtain ⟨s, -, rfl⟩ := List.mem_map.1 hq
    simp only [Prod.mk.injEq] at he
    exact hne he.1

end SparseState
end Ikarus
