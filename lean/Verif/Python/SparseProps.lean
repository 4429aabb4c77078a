import Verif.Python.SparseModel
import Verif.Assembler.ManipulatorProps

/-!
Property C88: a Python callback reads and writes the entries of the assembled matrix.
-/

namespace Ikarus

namespace Python

open Spec Assembler SpMat SparseState

variable {α : Type}

namespace Spec

/-- What a Python function does to a matrix, given by all its entries. -/
def exec : Prog α → (Nat → Nat → α) → Nat → Nat → α
  | .done, M => M
  | .get i j next, M => exec (next (M i j)) M
  | .set i j value next, M => exec next fun r c => if r = i ∧ c = j then value else M r c

/-- The functions called one after another. -/
def execAll (ps : List (Prog α)) (M : Nat → Nat → α) : Nat → Nat → α := ps.foldl (fun M p => exec p M) M

/-- All entries that a Python function could look at or change are in `P`. -/
def Uses (P : Nat → Nat → Prop) : Prog α → Prop
  | .done => True
  | .get i j next => P i j ∧ ∀ x, Uses P (next x)
  | .set i j _ next => P i j ∧ Uses P next

/-- All entries that are looked at or changed when called for the matrix `M` are in `P`. -/
def UsesAt (P : Nat → Nat → Prop) : Prog α → (Nat → Nat → α) → Prop
  | .done, _ => True
  | .get i j next, M => P i j ∧ UsesAt P (next (M i j)) M
  | .set i j value next, M => P i j ∧ UsesAt P next fun r c => if r = i ∧ c = j then value else M r c

/-- A Python function that reads and does not write. -/
def ReadsOnly : Prog α → Prop
  | .done => True
  | .get _ _ next => ∀ x, ReadsOnly (next x)
  | .set _ _ _ _ => False

/-- The entries of the matrix of a request to which an element contributes. -/
def Coupled (flags : List Bool) (conn : List (List Nat)) : DBCOption → Nat → Nat → Prop
  | .reduced, i, j => ∃ ds ∈ conn, ∃ r ∈ ds, ∃ c ∈ ds, flags[r]? = some false ∧ flags[c]? = some false ∧
      i = (flags.take r).count false ∧ j = (flags.take c).count false
  | _, i, j => ∃ ds ∈ conn, i ∈ ds ∧ j ∈ ds

end Spec

/-! ### Entries -/

/-- The storage of a sparse matrix is in order. -/
def Stored (A : SpMat α) : Prop := Sorted A.keys ∧ A.vals.length = A.keys.length

theorem find_insert {k : Nat × Nat} {x : α} {ks : List (Nat × Nat)} {vs : List α} (hk : k ∉ ks)
    (hl : vs.length = ks.length) (q : Nat × Nat) :
    ((insertKey k ks).zip (insertVal k x ks vs)).find? (fun p => p.1 = q) =
      if q = k then some (k, x) else (ks.zip vs).find? fun p => p.1 = q := by
  induction ks generalizing vs with
  | nil =>
    by_cases h : q = k
    · simp [insertKey, insertVal, h]
    · simp [insertKey, insertVal, h, Ne.symm h]
  | cons a ks ih =>
    cases vs with
    | nil => simp at hl
    | cons v vs =>
      have hne : k ≠ a := fun h => hk (by simp [h])
      simp only [insertKey, insertVal]
      by_cases hlt : keyLt k a
      · simp only [hlt, if_true, List.zip_cons_cons, List.find?_cons]
        by_cases h : q = k
        · simp [h]
        · simp [h, Ne.symm h]
      · simp only [hlt, if_false, hne, List.zip_cons_cons, List.find?_cons, Bool.false_eq_true]
        rw [ih (fun h => hk (by simp [h])) (by simpa using hl)]
        by_cases h : q = k
        · subst h
          simp [Ne.symm hne]
        · simp [h]

theorem length_insert {k : Nat × Nat} {x : α} {ks : List (Nat × Nat)} {vs : List α} (hk : k ∉ ks)
    (hl : vs.length = ks.length) : (insertVal k x ks vs).length = (insertKey k ks).length := by
  induction ks generalizing vs with
  | nil => simp [insertKey, insertVal]
  | cons a ks ih =>
    cases vs with
    | nil => simp at hl
    | cons v vs =>
      have hne : k ≠ a := fun h => hk (by simp [h])
      simp only [insertKey, insertVal]
      split
      · simpa using hl
      · simp [ih (fun h => hk (by simp [h])) (by simpa using hl)]

theorem coeffRef_stored [Zero α] {A : SpMat α} (h : Stored A) (i j : Nat) :
    Stored (coeffRef A i j) ∧ (coeffRef A i j).rows = A.rows ∧ (coeffRef A i j).cols = A.cols ∧ (j, i) ∈ (coeffRef A i j).keys ∧
      ∀ r c, (coeffRef A i j).coeff r c = A.coeff r c := by
  unfold coeffRef
  split
  case isTrue hk => exact ⟨h, rfl, rfl, hk, fun _ _ => rfl⟩
  case isFalse hk =>
    refine ⟨⟨sorted_insertKey h.1, length_insert hk h.2⟩, rfl, rfl, mem_insertKey.2 (Or.inl rfl), fun r c => ?_⟩
    unfold coeff
    simp only
    rw [find_insert hk h.2]
    by_cases e : (c, r) = (j, i)
    · rw [if_pos e]
      have hn := coeff_of_notMem (A := A) (r := r) (c := c) (by rw [e]; exact hk)
      unfold coeff at hn
      rw [hn]
    · rw [if_neg e]

theorem setItem_stored [Zero α] {A : SpMat α} (h : Stored A) (i j : Nat) (value : α) :
    Stored (setItem A i j value) ∧ (setItem A i j value).rows = A.rows ∧ (setItem A i j value).cols = A.cols ∧
      ∀ r c, (setItem A i j value).coeff r c = if r = i ∧ c = j then value else A.coeff r c := by
  obtain ⟨h1, h2, h3, h4, h5⟩ := coeffRef_stored h i j
  have hg : Good A.rows (coeffRef A i j).keys { coeffRef A i j with rows := A.rows, cols := A.rows, compressed := true } :=
    ⟨rfl, rfl, rfl, h1.2, rfl⟩
  have hz := (coeff_zipWith h1.1 hg fun k x => if k = (j, i) then value else x).2
  refine ⟨⟨h1.1, ?_⟩, h2, h3, fun r c => ?_⟩
  · simp [setItem, h1.2]
  · have e : (setItem A i j value).coeff r c = if (c, r) ∈ (coeffRef A i j).keys then
        (if (c, r) = (j, i) then value else (coeffRef A i j).coeff r c) else 0 := hz r c
    rw [e]
    by_cases hk : (c, r) ∈ (coeffRef A i j).keys
    · rw [if_pos hk, h5]
      by_cases hr : r = i ∧ c = j
      · rw [if_pos hr, if_pos (by rw [hr.1, hr.2])]
      · rw [if_neg hr, if_neg fun he => hr ⟨(Prod.mk.inj he).2, (Prod.mk.inj he).1⟩]
    · rw [if_neg hk]
      have hr : ¬(r = i ∧ c = j) := fun hr => hk (by rw [hr.1, hr.2]; exact h4)
      rw [if_neg hr, ← h5, coeff_of_notMem hk]

/-- The matrix after a call, and when there is one. -/
theorem run_entries [Zero α] (p : Prog α) (A : SpMat α) (h : Stored A) :
    ((p.run A).isSome ↔ Spec.UsesAt (fun i j => i < A.rows ∧ j < A.cols) p A.coeff) ∧
    ∀ B, p.run A = some B → Stored B ∧ B.rows = A.rows ∧ B.cols = A.cols ∧ B.coeff = Spec.exec p A.coeff := by
  induction p generalizing A with
  | done => exact ⟨by simp [Prog.run, Spec.UsesAt], fun B hB => by
      obtain rfl := Option.some.inj hB; exact ⟨h, rfl, rfl, rfl⟩⟩
  | get i j next ih =>
    obtain ⟨h1, h2, h3, -, h5⟩ := coeffRef_stored h i j
    have h6 : (coeffRef A i j).coeff = A.coeff := funext fun r => funext fun c => h5 r c
    obtain ⟨i1, i2⟩ := ih (A.coeff i j) (coeffRef A i j) h1
    rw [h2, h3, h6] at i1 i2
    simp only [Prog.run, getItem, Spec.UsesAt, Spec.exec, h5]
    split
    case isTrue hr => exact ⟨by rw [i1]; simp [hr], i2⟩
    case isFalse hr => simp [hr]
  | set i j value next ih =>
    obtain ⟨h1, h2, h3, h5⟩ := setItem_stored h i j value
    have h6 : (setItem A i j value).coeff = fun r c => if r = i ∧ c = j then value else A.coeff r c :=
      funext fun r => funext fun c => h5 r c
    obtain ⟨i1, i2⟩ := ih (setItem A i j value) h1
    rw [h2, h3, h6] at i1 i2
    simp only [Prog.run, Spec.UsesAt, Spec.exec]
    split
    case isTrue hr => exact ⟨by rw [i1]; simp [hr], i2⟩
    case isFalse hr => simp [hr]

/-- C88. A Python function called for a sparse matrix sees the entries of the matrix, zero where nothing is stored, together with what
it has written itself; afterwards the matrix has the entries it wrote and otherwise those it had. The call is defined exactly if
the entries it uses exist. -/
theorem py_matrix_values [Zero α] (p : Prog α) (A : SpMat α) (hs : Sorted A.keys) (hl : A.vals.length = A.keys.length) :
    ((p.run A).isSome ↔ Spec.UsesAt (fun i j => i < A.rows ∧ j < A.cols) p A.coeff) ∧
    ∀ B, p.run A = some B → B.rows = A.rows ∧ B.cols = A.cols ∧ B.coeff = Spec.exec p A.coeff :=
  ⟨(run_entries p A ⟨hs, hl⟩).1, fun B hB => ((run_entries p A ⟨hs, hl⟩).2 B hB).2⟩

/-- A function that doubles the entry `(0, 0)` and writes the sum of the first row to `(1, 1)`. -/
def exampleProg : Prog ℤ := .get 0 0 fun x => .set 0 0 (2 * x) (.get 0 0 fun y => .get 0 1 fun z => .set 1 1 (y + z) .done)

example : ((exampleProg.run ⟨2, 2, [(0, 0)], [5], true⟩).map fun B => (B.coeff 0 0, B.coeff 0 1, B.coeff 1 1)) =
    some (10, 0, 10) := by decide

example : Spec.exec exampleProg (fun i j => if i = 0 ∧ j = 0 then 5 else 0) 1 1 = 10 := by decide

/-! ### Histories -/

theorem coeffRef_of_mem [Zero α] {A : SpMat α} {i j : Nat} (h : (j, i) ∈ A.keys) : coeffRef A i j = A := by
  unfold coeffRef
  rw [if_pos h]

/-- A call that uses stored entries only is defined and keeps the storage. -/
theorem run_keeps [Zero α] (p : Prog α) (n : Nat) (keys : List (Nat × Nat)) (hs : Sorted keys) (hn : ∀ k ∈ keys, k.1 < n ∧ k.2 < n)
    (A : SpMat α) (h : Good n keys A) (hp : Spec.Uses (fun i j => (j, i) ∈ keys) p) :
    ∃ B, p.run A = some B ∧ Good n keys B := by
  induction p generalizing A with
  | done => exact ⟨A, rfl, h⟩
  | get i j next ih =>
    obtain ⟨hk, hp⟩ := hp
    have hr : i < A.rows ∧ j < A.cols := by
      rw [h.rows, h.cols]; exact ⟨(hn _ hk).2, (hn _ hk).1⟩
    simp only [Prog.run, getItem, coeffRef_of_mem (by rw [h.keys_eq]; exact hk : (j, i) ∈ A.keys), if_pos hr]
    exact ih _ A h (hp _)
  | set i j value next ih =>
    obtain ⟨hk, hp⟩ := hp
    have hr : i < A.rows ∧ j < A.cols := by
      rw [h.rows, h.cols]; exact ⟨(hn _ hk).2, (hn _ hk).1⟩
    simp only [Prog.run, if_pos hr]
    refine ih _ ?_ hp
    simp only [setItem, coeffRef_of_mem (by rw [h.keys_eq]; exact hk : (j, i) ∈ A.keys)]
    exact (coeff_zipWith hs h fun k x => if k = (j, i) then value else x).1

theorem foldlM_keeps [Zero α] (ps : List (Prog α)) (n : Nat) (keys : List (Nat × Nat)) (hs : Sorted keys)
    (hn : ∀ k ∈ keys, k.1 < n ∧ k.2 < n) (A : SpMat α) (h : Good n keys A)
    (hp : ∀ p ∈ ps, Spec.Uses (fun i j => (j, i) ∈ keys) p) :
    ∃ B, ps.foldlM (fun A (p : Prog α) => p.run A) A = some B ∧ Good n keys B ∧ B.coeff = Spec.execAll ps A.coeff := by
  induction ps generalizing A with
  | nil => exact ⟨A, rfl, h, rfl⟩
  | cons p ps ih =>
    obtain ⟨B, hB, hg⟩ := run_keeps p n keys hs hn A h (hp p (by simp))
    have he := ((run_entries p A ⟨by rw [h.keys_eq]; exact hs, by rw [h.keys_eq]; exact h.len⟩).2 B hB).2.2.2
    obtain ⟨C, hC, hgC, hvC⟩ := ih B hg fun p hp' => hp p (by simp [hp'])
    refine ⟨C, ?_, hgC, ?_⟩
    · rw [List.foldlM_cons, hB]; exact hC
    · rw [hvC, he]; rfl

/-- The storage of the matrix of a request. -/
def keysFor (flags : List Bool) (conn : List (List Nat)) : DBCOption → Nat × List (Nat × Nat)
  | .reduced => (flags.count false, keysOf (reducedPatternOf flags conn))
  | _ => (flags.length, keysOf (patternOf conn))

theorem coupled_iff (flags : List Bool) (conn : List (List Nat)) (d : DBCOption) (i j : Nat) :
    Spec.Coupled flags conn d i j ↔ (j, i) ∈ (keysFor flags conn d).2 := by
  cases d with
  | raw => exact (mem_keysOf.trans mem_patternOf).symm
  | full => exact (mem_keysOf.trans mem_patternOf).symm
  | reduced =>
    rw [keysFor, mem_keysOf]
    simp only [Spec.Coupled, reducedPatternOf, List.mem_flatMap, List.mem_map, Prod.mk.injEq]
    constructor
    · rintro ⟨ds, hds, r, hr, c, hc, fr, fc, rfl, rfl⟩
      obtain ⟨a, ha, rfl⟩ := List.mem_iff_getElem.1 hr
      obtain ⟨b, hb, rfl⟩ := List.mem_iff_getElem.1 hc
      have m1 : (ds[a], a) ∈ ds.zipIdx := by rw [List.mem_iff_getElem]; exact ⟨a, by simpa using ha, by simp⟩
      have m2 : (ds[b], b) ∈ ds.zipIdx := by rw [List.mem_iff_getElem]; exact ⟨b, by simpa using hb, by simp⟩
      refine ⟨ds, hds, ((ds[a], a), (ds[b], b)), ?_, rfl, rfl⟩
      exact List.mem_flatMap.2 ⟨(ds[a], a), List.mem_filter.2 ⟨m1, decide_eq_true fr⟩,
        List.mem_map.2 ⟨(ds[b], b), List.mem_filter.2 ⟨m2, decide_eq_true fc⟩, rfl⟩⟩
    · rintro ⟨ds, hds, q, hq, rfl, rfl⟩
      obtain ⟨h1, h2, h3, h4⟩ := mem_freePairs hq
      exact ⟨ds, hds, q.1.1, (List.mem_zipIdx' h1).2 ▸ List.getElem_mem _, q.2.1, (List.mem_zipIdx' h2).2 ▸ List.getElem_mem _,
        h3, h4, rfl, rfl⟩

theorem keysFor_sorted (flags : List Bool) (conn : List (List Nat)) (d : DBCOption) : Sorted (keysFor flags conn d).2 := by
  cases d <;> exact keysOf_sorted _

theorem count_take_lt {flags : List Bool} {r : Nat} (h : flags[r]? = some false) :
    (flags.take r).count false < flags.count false := by
  obtain ⟨hr, he⟩ := List.getElem?_eq_some_iff.1 h
  have e := List.take_append_drop r flags
  have e2 : flags.drop r = false :: flags.drop (r + 1) := by rw [← he]; exact List.drop_eq_getElem_cons hr
  calc (flags.take r).count false < (flags.take r).count false + (flags.drop r).count false := by
        rw [e2, List.count_cons_self]; omega
    _ = flags.count false := by rw [← List.count_append, e]

theorem keysFor_range (flags : List Bool) (conn : List (List Nat)) (hd : ∀ ds ∈ conn, ∀ d ∈ ds, d < flags.length) (d : DBCOption)
    (k : Nat × Nat) (hk : k ∈ (keysFor flags conn d).2) : k.1 < (keysFor flags conn d).1 ∧ k.2 < (keysFor flags conn d).1 := by
  obtain ⟨j, i⟩ := k
  have hc := (coupled_iff flags conn d i j).2 hk
  cases d with
  | raw => obtain ⟨ds, h1, h2, h3⟩ := hc; exact ⟨hd ds h1 j h3, hd ds h1 i h2⟩
  | full => obtain ⟨ds, h1, h2, h3⟩ := hc; exact ⟨hd ds h1 j h3, hd ds h1 i h2⟩
  | reduced =>
    obtain ⟨ds, h1, r, -, c, -, fr, fc, rfl, rfl⟩ := hc
    exact ⟨count_take_lt fc, count_take_lt fr⟩

theorem uses_mono {P Q : Nat → Nat → Prop} (h : ∀ i j, P i j → Q i j) (p : Prog α) (hp : Spec.Uses P p) : Spec.Uses Q p := by
  induction p with
  | done => trivial
  | get i j next ih => exact ⟨h i j hp.1, fun x => ih x (hp.2 x)⟩
  | set i j value next ih => exact ⟨h i j hp.1, ih hp.2⟩

/-- The matrix of a request has the storage of its kind. -/
theorem slot_good {fl : List Bool} {conn : List (List Nat)} {s : SparseState α} (h : Inv fl conn s) {d : DBCOption} {A : SpMat α}
    (hs : s.InSlot A d) : Good (keysFor fl conn d).1 (keysFor fl conn d).2 A := by
  cases d with
  | raw => obtain ⟨h1, rfl⟩ := hs; exact h.raw h1
  | full => obtain ⟨h1, rfl⟩ := hs; exact h.full h1
  | reduced => obtain ⟨h1, rfl⟩ := hs; exact h.red h1

/-- C88, part that holds. If the callbacks only use entries to which an element contributes, every history of requests from Python is
answered, and each answer has the entries of the matrix of the dense assembler changed by the callbacks, each called once and in
order. -/
theorem py_sparse_history_partial [Semiring α] (flags : List Bool) (conn : List (List Nat))
    (hd : ∀ ds ∈ conn, ∀ d ∈ ds, d < flags.length) (htouch : ∀ i : Nat, flags[i]? = some true → ∃ ds ∈ conn, i ∈ ds)
    (fs : List (DBCOption → Prog α)) (hfs : ∀ f ∈ fs, ∀ d, Spec.Uses (Spec.Coupled flags conn d) (f d))
    (reqs : List (DBCOption × List (MatElem α)))
    (hreq : ∀ q ∈ reqs, q.2.map (·.dofs) = conn ∧ ∀ e ∈ q.2, e.mat.rows = e.dofs.length ∧ e.mat.cols = e.dofs.length) :
    ∃ outs, history fs (SparseState.create flags) reqs = some outs ∧
      List.Forall₂ (fun q A => ∃ D, (Assembler.create flags).matrix? q.2 q.1 = some D ∧ A.rows = D.rows ∧ A.cols = D.cols ∧
        ∃ M : Nat → Nat → α, (∀ r c, r < D.rows → c < D.cols → M r c = D.val r c) ∧
          A.coeff = Spec.execAll (fs.map fun f => f q.1) M) reqs outs := by
  have key : ∀ (reqs : List (DBCOption × List (MatElem α))) (s : SparseState α), Inv flags conn s →
      (∀ q ∈ reqs, q.2.map (·.dofs) = conn ∧ ∀ e ∈ q.2, e.mat.rows = e.dofs.length ∧ e.mat.cols = e.dofs.length) →
      ∃ outs, history fs s reqs = some outs ∧
        List.Forall₂ (fun q A => ∃ D, (Assembler.create flags).matrix? q.2 q.1 = some D ∧ A.rows = D.rows ∧ A.cols = D.cols ∧
          ∃ M : Nat → Nat → α, (∀ r c, r < D.rows → c < D.cols → M r c = D.val r c) ∧
            A.coeff = Spec.execAll (fs.map fun f => f q.1) M) reqs outs := by
    intro reqs
    induction reqs with
    | nil => intro s _ _; exact ⟨[], rfl, List.Forall₂.nil⟩
    | cons q reqs ih =>
      intro s hinv hq
      obtain ⟨h1, h2⟩ := hq q (by simp)
      obtain ⟨s', A, D, e1, e2, e3, e4, e5, e6⟩ := matrix_step hinv q.2 h1 hd htouch h2 q.1
      have hslot := matrix_slot e1
      have hg := slot_good e2 hslot
      obtain ⟨B, hB, hgB, hvB⟩ := foldlM_keeps (fs.map fun f => f q.1) _ _ (keysFor_sorted flags conn q.1)
        (keysFor_range flags conn hd q.1) A hg fun p hp => by
          obtain ⟨f, hf, rfl⟩ := List.mem_map.1 hp
          exact uses_mono (fun i j => (coupled_iff flags conn q.1 i j).1) _ (hfs f hf q.1)
      have hinv' := inv_put e2 hslot (B := B) ⟨by rw [hgB.rows, hg.rows], by rw [hgB.cols, hg.cols],
        by rw [hgB.keys_eq, hg.keys_eq], by rw [hgB.len, hg.len], by rw [hgB.comp, hg.comp]⟩
      obtain ⟨outs, o1, o2⟩ := ih _ hinv' fun q hq' => hq q (by simp [hq'])
      have hB' : fs.foldlM (fun A (f : DBCOption → Prog α) => (f q.1).run A) A = some B := by
        rw [← hB, List.foldlM_map]
      refine ⟨B :: outs, ?_, List.Forall₂.cons ⟨D, e3, ?_, ?_, A.coeff, e6, hvB⟩ o2⟩
      · simp [history, e1, hB', o1]
      · rw [hgB.rows, ← e4, hg.rows]
      · rw [hgB.cols, ← e5, hg.cols]
  exact key reqs _ (inv_create flags conn) hreq

example : Spec.Uses (Spec.Coupled [false, false, true] [[0, 1], [1, 2]] .full)
    (.get 1 2 fun x => .set 2 2 (x + 1) .done : Prog ℤ) := by
  refine ⟨⟨[1, 2], by simp, by simp, by simp⟩, fun x => ⟨⟨[1, 2], by simp, by simp, by simp⟩, trivial⟩⟩

/-! ### Callbacks that only read -/

namespace Spec

/-- The full claim for reading: callbacks that only read existing entries do not disturb the requests; each is answered with the
entries of the dense assembler. -/
def ReadingHarmless : Prop :=
  ∀ (flags : List Bool) (conn : List (List Nat)) (fs : List (DBCOption → Prog ℤ)) (reqs : List (DBCOption × List (MatElem ℤ))),
    (∀ ds ∈ conn, ∀ d ∈ ds, d < flags.length) → (∀ i : Nat, flags[i]? = some true → ∃ ds ∈ conn, i ∈ ds) →
    (∀ q ∈ reqs, q.2.map (·.dofs) = conn ∧ ∀ e ∈ q.2, e.mat.rows = e.dofs.length ∧ e.mat.cols = e.dofs.length) →
    (∀ f ∈ fs, ∀ d, ReadsOnly (f d) ∧
      Uses (fun i j => i < (keysFor flags conn d).1 ∧ j < (keysFor flags conn d).1) (f d)) →
    ∃ outs, history fs (SparseState.create flags) reqs = some outs ∧
      List.Forall₂ (fun q A => ∃ D, (Assembler.create flags).matrix? q.2 q.1 = some D ∧ SameMatrix A D) reqs outs

end Spec

theorem exec_readsOnly (p : Prog α) (h : Spec.ReadsOnly p) (M : Nat → Nat → α) : Spec.exec p M = M := by
  induction p with
  | done => rfl
  | get i j next ih => exact ih _ (h _)
  | set i j value next ih => exact absurd h id

/-- C88, part that holds. A function that only reads leaves all entries as they are, whatever it reads. -/
theorem py_reading_partial [Zero α] (p : Prog α) (hp : Spec.ReadsOnly p) (A B : SpMat α) (hs : Sorted A.keys)
    (hl : A.vals.length = A.keys.length) (h : p.run A = some B) : B.coeff = A.coeff := by
  rw [((py_matrix_values p A hs hl).2 B h).2.2, exec_readsOnly p hp]

/-- C88. The full claim is false: reading an entry to which no element contributes inserts it into the matrix that the assembler
keeps, and the next request is undefined. -/
theorem reading_not_harmless : ¬ Spec.ReadingHarmless := by
  intro h
  obtain ⟨outs, ho, -⟩ := h [false, false] [[0], [1]] [fun _ => .get 0 1 fun _ => .done]
    [(.raw, [⟨[0], ⟨1, 1, fun _ _ => 4⟩⟩, ⟨[1], ⟨1, 1, fun _ _ => 4⟩⟩]), (.raw, [⟨[0], ⟨1, 1, fun _ _ => 4⟩⟩, ⟨[1], ⟨1, 1, fun _ _ => 4⟩⟩])]
    (by simp) (fun i hi => by
      match i with
      | 0 => simp at hi
      | 1 => simp at hi
      | n + 2 => simp at hi) (by simp) (fun f hf d => by
      obtain rfl := List.mem_singleton.1 hf
      refine ⟨fun _ => trivial, ?_, fun _ => trivial⟩
      cases d <;> decide)
  have e : history (α := ℤ) [fun _ => .get 0 1 fun _ => .done] (SparseState.create [false, false])
    [(.raw, [⟨[0], ⟨1, 1, fun _ _ => 4⟩⟩, ⟨[1], ⟨1, 1, fun _ _ => 4⟩⟩]), (.raw, [⟨[0], ⟨1, 1, fun _ _ => 4⟩⟩, ⟨[1], ⟨1, 1, fun _ _ => 4⟩⟩])] = none := rfl
  rw [e] at ho
  cases ho

example : ∃ B, (Prog.get 0 1 fun _ => .get 0 0 fun _ => .done : Prog ℤ).run ⟨2, 2, [(0, 0)], [5], true⟩ = some B ∧
    B.coeff = (⟨2, 2, [(0, 0)], [5], true⟩ : SpMat ℤ).coeff :=
  ⟨_, rfl, py_reading_partial (.get 0 1 fun _ => .get 0 0 fun _ => .done) (fun _ _ => trivial) _ _ (by decide) rfl rfl⟩

end Python

end Ikarus
