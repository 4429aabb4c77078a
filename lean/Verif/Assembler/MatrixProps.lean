import Verif.Assembler.MatrixLemmas
import Verif.Assembler.VectorProps

/-!
Properties C05 and C06: dense matrix assembly and the equivalence of both ways of enforcing
Dirichlet boundary conditions.
-/

namespace Ikarus
open Spec Assembler
variable {α : Type*}

/-! ### C05 -/

/-- C05. Whatever `matrix(Raw)` returns is `size() x size()` and entry `(r, c)` is the sum of all
element entries with these global indices. -/
theorem rawMatrix_eq_sum [AddCommMonoid α] (a : Assembler) (fes : List (MatElem α)) (A : DMat α)
    (h : a.getRawMatrix? fes = some A) :
    A.rows = a.size ∧ A.cols = a.size ∧
      ∀ r c, A.val r c = sumAt (Spec.matContribs fes) (r, c) := by
  unfold getRawMatrix? at h
  rw [rawMatrixOuter_eq _ _ (rawMatrixOuter_some h)] at h
  obtain ⟨-, h2, h3, h4⟩ := DMat.scatter_eq_some h
  refine ⟨h2, h3, fun r c => ?_⟩
  rw [h4]; simp [DMat.zero]

/-- C05. The assembly stays within bounds exactly if the element data fits. -/
theorem rawMatrix_defined_iff [AddCommMonoid α] (a : Assembler) (fes : List (MatElem α)) :
    (∃ A, a.getRawMatrix? fes = some A) ↔ Spec.MatOK a.size fes := by
  constructor
  · rintro ⟨A, h⟩
    unfold getRawMatrix? at h
    have hl := rawMatrixOuter_some h
    rw [rawMatrixOuter_eq _ _ hl] at h
    obtain ⟨h1, -, -, -⟩ := DMat.scatter_eq_some h
    intro e he
    refine ⟨hl e he, fun d hd => ?_⟩
    obtain ⟨j, hj, rfl⟩ := List.getElem_of_mem hd
    have hz : (e.dofs[j], j) ∈ e.dofs.zipIdx := by
      rw [List.mem_iff_getElem]
      exact ⟨j, by simpa using hj, by simp⟩
    have := h1 ((e.dofs[j], e.dofs[j]), e.mat.val j j) (by
      unfold Spec.matContribs Spec.elemMatContribs
      refine List.mem_flatMap.2 ⟨e, he, List.mem_flatMap.2 ⟨_, hz, List.mem_map.2 ⟨_, hz, rfl⟩⟩⟩)
    exact this.1
  · intro h
    unfold getRawMatrix?
    rw [rawMatrixOuter_eq _ _ (fun e he => (h e he).1)]
    apply DMat.scatter_isSome
    intro p hp
    obtain ⟨e, he, hp⟩ := List.mem_flatMap.1 hp
    have hm := mem_elemMatContribs hp
    exact ⟨(h e he).2 _ hm.1, (h e he).2 _ hm.2⟩

/-- C05. `matrix(Full)` is `matrix(Raw)` with the rows and columns of the constrained dofs
replaced by those of the identity. -/
theorem fullMatrix_eq [AddCommMonoid α] [One α] (flags : List Bool) (fes : List (MatElem α))
    (A : DMat α) (h : (create flags).getRawMatrix? fes = some A) :
    ∃ B, (create flags).getMatrix? fes = some B ∧ B.rows = flags.length ∧ B.cols = flags.length ∧
      ∀ r c, r < flags.length → c < flags.length →
        B.val r c = if Free flags r ∧ Free flags c then A.val r c
          else if r = c then 1 else 0 := by
  obtain ⟨hr, hc, -⟩ := rawMatrix_eq_sum _ _ _ h
  rw [size_create] at hr hc
  obtain ⟨B1, e1, r1, c1, v1⟩ := forConstrained_zeroCol flags flags.length 0 A (by omega) hc
  obtain ⟨B2, e2, r2, c2, v2⟩ := forConstrained_zeroRow flags flags.length 0 B1 (by omega)
    (by omega)
  obtain ⟨B3, e3, r3, c3, v3⟩ := forConstrained_unitDiag flags flags.length 0 B2 (by omega)
    (by omega) (by omega)
  refine ⟨B3, ?_, by omega, by omega, fun r c hr' hc' => ?_⟩
  · unfold getMatrix?
    rw [h, Option.bind_some, size_create, e1, Option.bind_some, e2, Option.bind_some, e3]
  · rw [v3, v2, v1]
    have hfr : Free flags r ↔ ¬ flags[r]? = some true := by
      unfold Free; rw [List.getElem?_eq_getElem hr']; cases flags[r] <;> simp
    have hfc : Free flags c ↔ ¬ flags[c]? = some true := by
      unfold Free; rw [List.getElem?_eq_getElem hc']; cases flags[c] <;> simp
    simp only [hfr, hfc, Nat.zero_le, Nat.zero_add, hr', hc', true_and]
    by_cases h1 : flags[r]? = some true
    · simp only [h1, and_true, not_true_eq_false, false_and, if_false, if_true]
    · by_cases h2 : flags[c]? = some true
      · have : r ≠ c := fun h => h1 (h ▸ h2)
        simp [h1, h2, this]
      · simp [h1, h2]

/-- C05. `matrix(Reduced)` is the principal submatrix of `matrix(Raw)` on the free dofs: the entry
at the reduced indices of two free dofs is the raw entry. -/
theorem reducedMatrix_eq [AddCommMonoid α] (flags : List Bool) (fes : List (MatElem α))
    (A : DMat α) (h : (create flags).getRawMatrix? fes = some A) :
    ∃ B, (create flags).getReducedMatrix? fes = some B ∧
      (create flags).reducedSize? = some B.rows ∧ (create flags).reducedSize? = some B.cols ∧
      ∀ r c, Free flags r → Free flags c →
        ∃ kr kc, (create flags).reducedIndex? r = some kr ∧
          (create flags).reducedIndex? c = some kc ∧ kr < B.rows ∧ kc < B.cols ∧
          B.val kr kc = A.val r c := by
  have hok := (rawMatrix_defined_iff _ _).1 ⟨A, h⟩
  unfold getRawMatrix? at h
  have h0 : SubRel flags (DMat.zero flags.length flags.length : DMat α)
      (DMat.zero (flags.count false) (flags.count false)) :=
    ⟨rfl, rfl, rfl, rfl, fun _ _ _ _ => rfl⟩
  obtain ⟨B, hB, hs⟩ := reducedMatrixOuter_sim flags fes (fun e he => (hok e he).2) _ A _ h0 h
  refine ⟨B, ?_, ?_, ?_, ?_⟩
  · unfold getReducedMatrix?; rw [reducedSize?_create, Option.bind_some, hB]
  · rw [reducedSize?_create, hs.rowsB]
  · rw [reducedSize?_create, hs.colsB]
  · intro r c hr hc
    exact ⟨_, _, reducedIndex?_create (free_lt hr), reducedIndex?_create (free_lt hc),
      by rw [hs.rowsB]; exact rank_lt hr, by rw [hs.colsB]; exact rank_lt hc, hs.val r c hr hc⟩

private theorem elem_symm [AddCommMonoid α] (e : MatElem α)
    (hs : ∀ i j, i < e.dofs.length → j < e.dofs.length → e.mat.val i j = e.mat.val j i)
    (r c : Nat) : sumAt (Spec.elemMatContribs e) (r, c) = sumAt (Spec.elemMatContribs e) (c, r) := by
  unfold Spec.elemMatContribs
  rw [sumAt_flatMap, sumAt_flatMap]
  simp only [sumAt_map]
  rw [list_sum_comm]
  congr 1
  refine List.map_congr_left fun p hp => ?_
  congr 1
  refine List.map_congr_left fun q hq => ?_
  have hp' : p.2 < e.dofs.length := by
    have := List.mem_zipIdx (x := p.1) (i := p.2) hp; omega
  have hq' : q.2 < e.dofs.length := by
    have := List.mem_zipIdx (x := q.1) (i := q.2) hq; omega
  rw [hs q.2 p.2 hq' hp']
  congr 1
  simp only [Prod.mk.injEq, eq_iff_iff]
  tauto

/-- C05. Symmetric element matrices give symmetric raw, full and reduced matrices. -/
theorem matrix_symm [AddCommMonoid α] [One α] (flags : List Bool) (fes : List (MatElem α))
    (hs : ∀ e ∈ fes, ∀ i j, i < e.dofs.length → j < e.dofs.length → e.mat.val i j = e.mat.val j i)
    (A B C : DMat α) (hA : (create flags).getRawMatrix? fes = some A)
    (hB : (create flags).getMatrix? fes = some B)
    (hC : (create flags).getReducedMatrix? fes = some C) :
    (∀ r c, A.val r c = A.val c r) ∧
    (∀ r c, r < flags.length → c < flags.length → B.val r c = B.val c r) ∧
    (∀ r c, r < C.rows → c < C.rows → C.val r c = C.val c r) := by
  have hAs : ∀ r c, A.val r c = A.val c r := by
    intro r c
    have h := (rawMatrix_eq_sum _ _ _ hA).2.2
    rw [h, h]
    unfold Spec.matContribs
    rw [sumAt_flatMap, sumAt_flatMap]
    congr 1
    exact List.map_congr_left fun e he => elem_symm e (hs e he) r c
  refine ⟨hAs, ?_, ?_⟩
  · intro r c hr hc
    obtain ⟨B', hB', -, -, hv⟩ := fullMatrix_eq flags fes A hA
    rw [hB] at hB'; injection hB' with hB'; subst hB'
    rw [hv r c hr hc, hv c r hc hr, hAs r c]
    by_cases h1 : Free flags r <;> by_cases h2 : Free flags c <;> simp [h1, h2, eq_comm]
  · intro r c hr hc
    obtain ⟨C', hC', hn, -, hv⟩ := reducedMatrix_eq flags fes A hA
    rw [hC] at hC'; injection hC' with hC'; subst hC'
    rw [reducedSize?_create] at hn
    injection hn with hn
    obtain ⟨i, hi, rfl⟩ := rank_surj flags (show r < flags.count false by omega)
    obtain ⟨j, hj, rfl⟩ := rank_surj flags (show c < flags.count false by omega)
    obtain ⟨k1, k2, e1, e2, -, -, v1⟩ := hv i j hi hj
    obtain ⟨k3, k4, e3, e4, -, -, v2⟩ := hv j i hj hi
    rw [reducedIndex?_create (free_lt hi)] at e1 e4
    rw [reducedIndex?_create (free_lt hj)] at e2 e3
    injection e1 with e1; injection e2 with e2; injection e3 with e3; injection e4 with e4
    subst e1 e2 e3 e4
    rw [v1, v2, hAs]

/-- C05. Independence of the order of the elements. -/
theorem rawMatrix_perm [AddCommMonoid α] (a : Assembler) {fes fes' : List (MatElem α)}
    (hp : fes.Perm fes') (A A' : DMat α) (hA : a.getRawMatrix? fes = some A)
    (hA' : a.getRawMatrix? fes' = some A') (r c : Nat) : A.val r c = A'.val r c := by
  rw [(rawMatrix_eq_sum a fes A hA).2.2, (rawMatrix_eq_sum a fes' A' hA').2.2]
  exact sumAt_perm (List.Perm.flatMap_right _ hp) _

/-- A symmetric two element example with an interior constraint. -/
def exampleMat : List (MatElem ℤ) :=
  [⟨[0, 1], ⟨2, 2, fun i j => if i = j then 2 else -1⟩⟩,
   ⟨[1, 2], ⟨2, 2, fun i j => if i = j then 3 else -1⟩⟩]

example : Spec.MatOK 3 exampleMat := by
  intro e he
  simp only [exampleMat, List.mem_cons, List.not_mem_nil, or_false] at he
  rcases he with rfl | rfl <;> decide

example : ((create [false, false, true]).getRawMatrix? exampleMat).bind (·.get? 1 1) = some 5 ∧
    ((create [false, false, true]).getMatrix? exampleMat).bind (·.get? 1 2) = some 0 ∧
    ((create [false, false, true]).getMatrix? exampleMat).bind (·.get? 2 2) = some 1 ∧
    ((create [false, true, false]).getReducedMatrix? exampleMat).bind (·.get? 1 1) = some 3 := by
  decide

/-! ### C06 -/

/-- `x` solves the square linear system `A x = b`. -/
def Spec.Solves [AddCommMonoid α] [Mul α] (A : DMat α) (x b : List α) : Prop :=
  A.rows = A.cols ∧ x.length = A.cols ∧ b.length = A.rows ∧
  ∀ r, r < A.rows → ∑ c ∈ Finset.range A.cols, A.val r c * x.getD c 0 = b.getD r 0

/-- C06. The solutions of the full system are exactly the extensions of the solutions of the
reduced system. `fesM` and `fesV` are the element evaluations of the matrix and the vector
request. -/
theorem full_reduced_system_equiv [Ring α] (flags : List Bool) (fesM : List (MatElem α))
    (fesV : List (VecElem α)) (K Kr : DMat α) (f fr : List α)
    (hMok : Spec.MatOK flags.length fesM) (hVok : Spec.VecOK flags.length fesV)
    (hK : (create flags).getMatrix? fesM = some K)
    (hKr : (create flags).getReducedMatrix? fesM = some Kr)
    (hf : (create flags).getVector? fesV = some f)
    (hfr : (create flags).getReducedVector? fesV = some fr) (x : List α) :
    Spec.Solves K x f ↔
      ∃ y, Spec.Solves Kr y fr ∧ (create flags).createFullVector? y = some x := by
  obtain ⟨A, hA⟩ := (rawMatrix_defined_iff (create flags) fesM).2 hMok
  obtain ⟨v, hv⟩ := (rawVector_defined_iff (create flags) fesV).2 hVok
  have hvl : v.length = flags.length := (rawVector_eq_sum _ _ _ hv).1
  obtain ⟨K', hK', hKrow, hKcol, hKval⟩ := fullMatrix_eq flags fesM A hA
  rw [hK] at hK'; injection hK' with hK'; subst hK'
  obtain ⟨Kr', hKr', hn1, hn2, hKrval⟩ := reducedMatrix_eq flags fesM A hA
  rw [hKr] at hKr'; injection hKr' with hKr'; subst hKr'
  rw [reducedSize?_create] at hn1 hn2
  injection hn1 with hn1; injection hn2 with hn2
  rw [fullVector_eq_mask flags fesV v hv] at hf
  rw [reducedVector_eq_select flags fesV v hv] at hfr
  injection hf with hf; injection hfr with hfr
  subst hf hfr
  have hKrval' : ∀ r c, Free flags r → Free flags c →
      Kr.val (rank flags r) (rank flags c) = A.val r c := by
    intro r c hr hc
    obtain ⟨k1, k2, e1, e2, -, -, v1⟩ := hKrval r c hr hc
    rw [reducedIndex?_create (free_lt hr)] at e1
    rw [reducedIndex?_create (free_lt hc)] at e2
    injection e1 with e1; injection e2 with e2
    rw [e1, e2, v1]
  have hml : (mask flags v).length = flags.length := by simp [mask, hvl]
  have hmask : ∀ r, r < flags.length → (mask flags v).getD r 0
      = if Free flags r then v.getD r 0 else 0 := by
    intro r hr
    have hrv : r < v.length := by omega
    simp only [List.getD, mask, List.getElem?_zipWith, List.getElem?_eq_getElem hr,
      List.getElem?_eq_getElem hrv, Free]
    cases flags[r] <;> simp
  have hsel : ∀ w : List α, w.length = flags.length → ∀ r, Free flags r →
      (selectFree flags w).getD (rank flags r) 0 = w.getD r 0 := by
    intro w hw r hr
    simp only [List.getD]
    rw [selectFree_getElem? hw hr]
  -- row equations
  have hsum : ∀ w : List α, w.length = flags.length → ∀ r, Free flags r →
      ∑ c ∈ Finset.range Kr.cols, Kr.val (rank flags r) c * (selectFree flags w).getD c 0
        = ∑ c ∈ (Finset.range flags.length).filter (fun i => Free flags i),
            A.val r c * w.getD c 0 := by
    intro w hw r hr
    rw [← hn2, sum_reduced]
    refine Finset.sum_congr rfl fun c hc => ?_
    have hfc := (Finset.mem_filter.1 hc).2
    rw [hKrval' r c hr hfc, hsel w hw c hfc]
  have hfsum : ∀ w : List α, ∀ r, r < flags.length → Free flags r →
      ∑ c ∈ Finset.range K.cols, K.val r c * w.getD c 0
        = ∑ c ∈ (Finset.range flags.length).filter (fun i => Free flags i),
            A.val r c * w.getD c 0 := by
    intro w r hr hfr
    rw [hKcol, Finset.sum_filter]
    refine Finset.sum_congr rfl fun c hc => ?_
    have hcl := Finset.mem_range.1 hc
    rw [hKval r c hr hcl]
    by_cases hfc : Free flags c
    · simp [hfr, hfc]
    · have : r ≠ c := fun h => hfc (h ▸ hfr)
      simp [hfc, this]
  have hcsum : ∀ w : List α, ∀ r, r < flags.length → ¬ Free flags r →
      ∑ c ∈ Finset.range K.cols, K.val r c * w.getD c 0 = w.getD r 0 := by
    intro w r hr hfr
    rw [hKcol, Finset.sum_eq_single r]
    · rw [hKval r r hr hr]; simp [hfr]
    · intro c hc hcr
      rw [hKval r c hr (Finset.mem_range.1 hc)]
      simp [hfr, Ne.symm hcr]
    · intro h; exact absurd (Finset.mem_range.2 hr) h
  constructor
  · rintro ⟨-, hxl, hbl, hx⟩
    rw [hKcol] at hxl
    refine ⟨selectFree flags x, ⟨by omega, by rw [selectFree_length hxl, ← hn2],
      by rw [selectFree_length hvl, ← hn1], ?_⟩, ?_⟩
    · intro k hk
      obtain ⟨r, hr, rfl⟩ := rank_surj flags (show k < flags.count false by omega)
      rw [hsum x hxl r hr, hsel v hvl r hr, ← hfsum x r (free_lt hr) hr,
        hx r (by rw [hKrow]; exact free_lt hr), hmask r (free_lt hr), if_pos hr]
    · have hcf := createFullLoop_eq flags x [] 0 0 hxl rfl
      rw [List.nil_append] at hcf
      unfold createFullVector?
      rw [flags_create, hcf]
      congr 1
      have hz : ∀ r, r < flags.length → ¬ Free flags r → x.getD r 0 = 0 := by
        intro r hr hfr
        rw [← hcsum x r hr hfr, hx r (by omega), hmask r hr, if_neg hfr]
      refine List.ext_getElem (by simp [mask, hxl]) fun i h1 h2 => ?_
      have hil : i < flags.length := by omega
      simp only [mask, List.getElem_zipWith]
      cases hb : flags[i] with
      | false => simp
      | true =>
        have := hz i hil (by unfold Free; rw [List.getElem?_eq_getElem hil, hb]; simp)
        simp only [List.getD, List.getElem?_eq_getElem h2, Option.getD_some] at this
        simp [this]
  · rintro ⟨y, ⟨-, hyl, -, hy⟩, hxy⟩
    obtain ⟨w, hw1, hw2⟩ := selectFree_surj flags y (by omega)
    subst hw2
    have hcf := createFullLoop_eq flags w [] 0 0 hw1 rfl
    rw [List.nil_append] at hcf
    unfold createFullVector? at hxy
    rw [flags_create, hcf] at hxy
    injection hxy with hxy
    subst hxy
    have hmw : (mask flags w).length = flags.length := by simp [mask, hw1]
    refine ⟨by omega, by omega, by omega, ?_⟩
    intro r hr
    rw [hKrow] at hr
    by_cases hfr : Free flags r
    · have h1 := hy (rank flags r) (by rw [← hn1]; exact rank_lt hfr)
      rw [← selectFree_mask, hsum _ hmw r hfr, hsel v hvl r hfr] at h1
      rw [hfsum _ r hr hfr, h1, hmask r hr, if_pos hfr]
    · rw [hcsum _ r hr hfr, hmask r hr, if_neg hfr]
      have hrw : r < w.length := by omega
      have : flags[r] = true := by
        cases hb : flags[r] with
        | true => rfl
        | false => exact absurd (by unfold Free; rw [List.getElem?_eq_getElem hr, hb]) hfr
      simp [List.getD, mask, List.getElem?_zipWith, List.getElem?_eq_getElem hr,
        List.getElem?_eq_getElem hrw, this]

/-- Hypotheses of C06 are met by the example, with a nonzero solution of the full system. -/
example : ∃ K Kr f fr, (create [false, false, true]).getMatrix? exampleMat = some K ∧
    (create [false, false, true]).getReducedMatrix? exampleMat = some Kr ∧
    (create [false, false, true]).getVector? [⟨[0, 1], [(3 : ℤ), 3]⟩, ⟨[1, 2], [0, 8]⟩] = some f ∧
    (create [false, false, true]).getReducedVector? [⟨[0, 1], [(3 : ℤ), 3]⟩, ⟨[1, 2], [0, 8]⟩]
      = some fr ∧ Spec.Solves K [2, 1, 0] f ∧ Spec.Solves Kr [2, 1] fr := by
  refine ⟨_, _, _, _, rfl, rfl, rfl, rfl, ⟨rfl, rfl, rfl, ?_⟩, ⟨rfl, rfl, rfl, ?_⟩⟩
  · intro r hr
    have hr' : r < 3 := hr
    rcases r with _ | _ | _ | r
    · decide
    · decide
    · decide
    · omega
  · intro r hr
    have hr' : r < 2 := hr
    rcases r with _ | _ | r
    · decide
    · decide
    · omega

end Ikarus
