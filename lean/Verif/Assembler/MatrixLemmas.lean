import Verif.Assembler.Lemmas
import Mathlib.Algebra.BigOperators.Ring.Finset

namespace Ikarus
open Spec Assembler
variable {α : Type*}

/-- All `((row, column), value)` contributions of one element. -/
def Spec.elemMatContribs (e : MatElem α) : List ((Nat × Nat) × α) :=
  e.dofs.zipIdx.flatMap fun r => e.dofs.zipIdx.map fun c => ((r.1, c.1), e.mat.val r.2 c.2)

/-- All `((row, column), value)` contributions of all elements. -/
def Spec.matContribs (fes : List (MatElem α)) : List ((Nat × Nat) × α) :=
  fes.flatMap Spec.elemMatContribs

/-- The element data fits. -/
def Spec.MatOK (n : Nat) (fes : List (MatElem α)) : Prop :=
  ∀ e ∈ fes, (e.dofs ≠ [] → e.dofs.length ≤ e.mat.rows ∧ e.dofs.length ≤ e.mat.cols) ∧
    ∀ d ∈ e.dofs, d < n

namespace Assembler

theorem rawMatrixCols_eq [Add α] (loc : DMat α) (i r : Nat) (cs : List Nat) (j : Nat) (A : DMat α)
    (hi : i < loc.rows) (hj : j + cs.length ≤ loc.cols) :
    rawMatrixCols loc i r cs j A
      = A.scatter ((cs.zipIdx j).map fun c => ((r, c.1), loc.val i c.2)) := by
  induction cs generalizing j A with
  | nil => rfl
  | cons c cs ih =>
    have hj' : j < loc.cols := by simp at hj; omega
    simp only [rawMatrixCols, List.zipIdx_cons, List.map_cons, DMat.scatter, DMat.get?]
    rw [if_pos ⟨hi, hj'⟩, Option.bind_some]
    congr 1
    funext B
    exact ih (j + 1) B (by simp at hj; omega)

theorem rawMatrixRows_eq [Add α] (loc : DMat α) (dofs rs : List Nat) (i : Nat) (A : DMat α)
    (hi : i + rs.length ≤ loc.rows) (hj : dofs.length ≤ loc.cols) :
    rawMatrixRows loc dofs rs i A
      = A.scatter ((rs.zipIdx i).flatMap fun r => dofs.zipIdx.map
          fun c => ((r.1, c.1), loc.val r.2 c.2)) := by
  induction rs generalizing i A with
  | nil => rfl
  | cons r rs ih =>
    simp only [rawMatrixRows, List.zipIdx_cons, List.flatMap_cons]
    rw [DMat.scatter_append, rawMatrixCols_eq _ _ _ _ _ _ (by simp at hi; omega) (by simpa using hj)]
    congr 1
    funext B
    exact ih (i + 1) B (by simp at hi; omega)

theorem rawMatrixOuter_eq [Add α] (fes : List (MatElem α)) (A : DMat α)
    (h : ∀ e ∈ fes, e.dofs ≠ [] → e.dofs.length ≤ e.mat.rows ∧ e.dofs.length ≤ e.mat.cols) :
    rawMatrixOuter fes A = A.scatter (Spec.matContribs fes) := by
  induction fes generalizing A with
  | nil => rfl
  | cons e es ih =>
    simp only [rawMatrixOuter, Spec.matContribs, List.flatMap_cons]
    rw [DMat.scatter_append]
    have : rawMatrixRows e.mat e.dofs e.dofs 0 A = A.scatter (Spec.elemMatContribs e) := by
      by_cases hd : e.dofs = []
      · simp [hd, rawMatrixRows, Spec.elemMatContribs, DMat.scatter]
      · have := h e (by simp) hd
        exact rawMatrixRows_eq e.mat e.dofs e.dofs 0 A (by omega) (by omega)
    rw [this]
    congr 1
    funext B
    exact ih B (fun e' he' => h e' (by simp [he']))

theorem rawMatrixCols_some [Add α] {loc : DMat α} {i r : Nat} {cs : List Nat} {j : Nat}
    {A B : DMat α} (h : rawMatrixCols loc i r cs j A = some B) (hne : cs ≠ []) :
    i < loc.rows ∧ j + cs.length ≤ loc.cols := by
  induction cs generalizing j A with
  | nil => exact absurd rfl hne
  | cons c cs ih =>
    simp only [rawMatrixCols] at h
    obtain ⟨x, hx, h⟩ := Option.bind_eq_some_iff.1 h
    obtain ⟨C, -, h⟩ := Option.bind_eq_some_iff.1 h
    have hb : i < loc.rows ∧ j < loc.cols := by
      unfold DMat.get? at hx
      by_contra hc
      rw [if_neg hc] at hx
      exact absurd hx (by simp)
    by_cases hcs : cs = []
    · subst hcs; simp; omega
    · have := ih h hcs
      simp; omega

theorem rawMatrixRows_some [Add α] {loc : DMat α} {dofs rs : List Nat} {i : Nat}
    {A B : DMat α} (h : rawMatrixRows loc dofs rs i A = some B) (hne : rs ≠ []) (hd : dofs ≠ []) :
    i + rs.length ≤ loc.rows ∧ dofs.length ≤ loc.cols := by
  induction rs generalizing i A with
  | nil => exact absurd rfl hne
  | cons r rs ih =>
    simp only [rawMatrixRows] at h
    obtain ⟨C, hC, h⟩ := Option.bind_eq_some_iff.1 h
    have hb := rawMatrixCols_some hC hd
    by_cases hrs : rs = []
    · subst hrs; simp; omega
    · have := ih h hrs
      simp; omega

theorem rawMatrixOuter_some [Add α] {fes : List (MatElem α)} {A B : DMat α}
    (h : rawMatrixOuter fes A = some B) : ∀ e ∈ fes, e.dofs ≠ [] →
      e.dofs.length ≤ e.mat.rows ∧ e.dofs.length ≤ e.mat.cols := by
  induction fes generalizing A with
  | nil => simp
  | cons e es ih =>
    simp only [rawMatrixOuter] at h
    obtain ⟨C, hC, h⟩ := Option.bind_eq_some_iff.1 h
    intro e' he' hd
    rcases List.mem_cons.1 he' with rfl | he'
    · simpa using rawMatrixRows_some hC hd hd
    · exact ih h e' he' hd

theorem mem_elemMatContribs {e : MatElem α} {p : (Nat × Nat) × α}
    (h : p ∈ Spec.elemMatContribs e) : p.1.1 ∈ e.dofs ∧ p.1.2 ∈ e.dofs := by
  unfold Spec.elemMatContribs at h
  simp only [List.mem_flatMap, List.mem_map] at h
  obtain ⟨r, hr, c, hc, rfl⟩ := h
  have h1 := List.fst_mem_of_mem_zipIdx hr
  have h2 := List.fst_mem_of_mem_zipIdx hc
  exact ⟨h1, h2⟩

/-! ### The loops over the constrained dofs -/

theorem forConstrained_zeroCol [Zero α] (fl : List Bool) (n i : Nat) (A : DMat α)
    (hn : i + n ≤ fl.length) (hA : A.cols = fl.length) :
    ∃ B, forConstrained (create fl) zeroCol n i A = some B ∧ B.rows = A.rows ∧ B.cols = A.cols ∧
      ∀ r c, B.val r c = if i ≤ c ∧ c < i + n ∧ fl[c]? = some true then 0 else A.val r c := by
  induction n generalizing i A with
  | zero => exact ⟨A, rfl, rfl, rfl, fun r c => by rw [if_neg (by omega)]⟩
  | succ n ih =>
    have hi : i < fl.length := by omega
    have hc : (create fl).isConstrained? i = some fl[i] := by
      unfold isConstrained?; simp [hi]
    simp only [forConstrained, hc, Option.bind_some]
    have hg : fl[i]? = some fl[i] := List.getElem?_eq_getElem hi
    cases hb : fl[i] with
    | true =>
      simp only [if_true, zeroCol]
      rw [if_pos (by omega), Option.bind_some]
      obtain ⟨B, h1, h2, h3, h4⟩ := ih (i + 1)
        ⟨A.rows, A.cols, fun r c => if c = i then 0 else A.val r c⟩ (by omega) hA
      refine ⟨B, h1, h2, h3, fun r c => ?_⟩
      rw [h4]
      by_cases hci : c = i
      · subst hci
        rw [if_neg (by omega), if_pos ⟨le_refl _, by omega, by rw [hg, hb]⟩]
        simp
      · simp only [hci, if_false]
        congr 1
        apply propext
        constructor
        · rintro ⟨h1, h2, h3⟩; exact ⟨by omega, by omega, h3⟩
        · rintro ⟨h1, h2, h3⟩; exact ⟨by omega, by omega, h3⟩
    | false =>
      simp only [Bool.false_eq_true, if_false]
      obtain ⟨B, h1, h2, h3, h4⟩ := ih (i + 1) A (by omega) hA
      refine ⟨B, h1, h2, h3, fun r c => ?_⟩
      rw [h4]
      by_cases hci : c = i
      · subst hci
        rw [if_neg (by omega), if_neg]
        rintro ⟨-, -, h⟩
        rw [hg, hb] at h
        exact absurd h (by simp)
      · congr 1
        apply propext
        constructor
        · rintro ⟨h1, h2, h3⟩; exact ⟨by omega, by omega, h3⟩
        · rintro ⟨h1, h2, h3⟩; exact ⟨by omega, by omega, h3⟩

theorem forConstrained_zeroRow [Zero α] (fl : List Bool) (n i : Nat) (A : DMat α)
    (hn : i + n ≤ fl.length) (hA : A.rows = fl.length) :
    ∃ B, forConstrained (create fl) zeroRow n i A = some B ∧ B.rows = A.rows ∧ B.cols = A.cols ∧
      ∀ r c, B.val r c = if i ≤ r ∧ r < i + n ∧ fl[r]? = some true then 0 else A.val r c := by
  induction n generalizing i A with
  | zero => exact ⟨A, rfl, rfl, rfl, fun r c => by rw [if_neg (by omega)]⟩
  | succ n ih =>
    have hi : i < fl.length := by omega
    have hc : (create fl).isConstrained? i = some fl[i] := by
      unfold isConstrained?; simp [hi]
    simp only [forConstrained, hc, Option.bind_some]
    have hg : fl[i]? = some fl[i] := List.getElem?_eq_getElem hi
    cases hb : fl[i] with
    | true =>
      simp only [if_true, zeroRow]
      rw [if_pos (by omega), Option.bind_some]
      obtain ⟨B, h1, h2, h3, h4⟩ := ih (i + 1)
        ⟨A.rows, A.cols, fun r c => if r = i then 0 else A.val r c⟩ (by omega) hA
      refine ⟨B, h1, h2, h3, fun r c => ?_⟩
      rw [h4]
      by_cases hci : r = i
      · subst hci
        rw [if_neg (by omega), if_pos ⟨le_refl _, by omega, by rw [hg, hb]⟩]
        simp
      · simp only [hci, if_false]
        congr 1
        apply propext
        constructor
        · rintro ⟨h1, h2, h3⟩; exact ⟨by omega, by omega, h3⟩
        · rintro ⟨h1, h2, h3⟩; exact ⟨by omega, by omega, h3⟩
    | false =>
      simp only [Bool.false_eq_true, if_false]
      obtain ⟨B, h1, h2, h3, h4⟩ := ih (i + 1) A (by omega) hA
      refine ⟨B, h1, h2, h3, fun r c => ?_⟩
      rw [h4]
      by_cases hci : r = i
      · subst hci
        rw [if_neg (by omega), if_neg]
        rintro ⟨-, -, h⟩
        rw [hg, hb] at h
        exact absurd h (by simp)
      · congr 1
        apply propext
        constructor
        · rintro ⟨h1, h2, h3⟩; exact ⟨by omega, by omega, h3⟩
        · rintro ⟨h1, h2, h3⟩; exact ⟨by omega, by omega, h3⟩

theorem forConstrained_unitDiag [One α] (fl : List Bool) (n i : Nat) (A : DMat α)
    (hn : i + n ≤ fl.length) (hA : A.rows = fl.length) (hA' : A.cols = fl.length) :
    ∃ B, forConstrained (create fl) unitDiag n i A = some B ∧ B.rows = A.rows ∧
      B.cols = A.cols ∧
      ∀ r c, B.val r c = if r = c ∧ i ≤ r ∧ r < i + n ∧ fl[r]? = some true then 1
        else A.val r c := by
  induction n generalizing i A with
  | zero => exact ⟨A, rfl, rfl, rfl, fun r c => by rw [if_neg (by omega)]⟩
  | succ n ih =>
    have hi : i < fl.length := by omega
    have hc : (create fl).isConstrained? i = some fl[i] := by
      unfold isConstrained?; simp [hi]
    simp only [forConstrained, hc, Option.bind_some]
    have hg : fl[i]? = some fl[i] := List.getElem?_eq_getElem hi
    cases hb : fl[i] with
    | true =>
      simp only [if_true, unitDiag, DMat.setAt?]
      rw [if_pos (by omega), Option.bind_some]
      obtain ⟨B, h1, h2, h3, h4⟩ := ih (i + 1) (A.upd i i 1) (by omega) hA hA'
      refine ⟨B, h1, h2, h3, fun r c => ?_⟩
      rw [h4]
      by_cases hci : r = i
      · subst hci
        rw [if_neg (by omega)]
        by_cases hrc : r = c
        · subst hrc
          rw [if_pos ⟨rfl, le_refl _, by omega, by rw [hg, hb]⟩]
          simp [DMat.upd]
        · rw [if_neg (by tauto)]
          have : c ≠ r := fun h => hrc h.symm
          simp [DMat.upd, this]
      · simp only [DMat.upd, hci, false_and, if_false]
        congr 1
        apply propext
        constructor
        · rintro ⟨h0, h1, h2, h3⟩; exact ⟨h0, by omega, by omega, h3⟩
        · rintro ⟨h0, h1, h2, h3⟩; exact ⟨h0, by omega, by omega, h3⟩
    | false =>
      simp only [Bool.false_eq_true, if_false]
      obtain ⟨B, h1, h2, h3, h4⟩ := ih (i + 1) A (by omega) hA hA'
      refine ⟨B, h1, h2, h3, fun r c => ?_⟩
      rw [h4]
      by_cases hci : r = i
      · subst hci
        rw [if_neg (by omega), if_neg]
        rintro ⟨-, -, -, h⟩
        rw [hg, hb] at h
        exact absurd h (by simp)
      · congr 1
        apply propext
        constructor
        · rintro ⟨h0, h1, h2, h3⟩; exact ⟨h0, by omega, by omega, h3⟩
        · rintro ⟨h0, h1, h2, h3⟩; exact ⟨h0, by omega, by omega, h3⟩

/-! ### Reduced matrix follows the raw matrix -/

/-- `B` is the principal submatrix of `A` on the free dofs. -/
structure SubRel (fl : List Bool) (A B : DMat α) : Prop where
  rowsA : A.rows = fl.length
  colsA : A.cols = fl.length
  rowsB : B.rows = fl.count false
  colsB : B.cols = fl.count false
  val : ∀ r c, Free fl r → Free fl c → B.val (rank fl r) (rank fl c) = A.val r c

theorem SubRel.upd_constrained {fl : List Bool} {A B : DMat α} (h : SubRel fl A B) {r c : Nat}
    (x : α) (hrc : ¬ (Free fl r ∧ Free fl c)) : SubRel fl (A.upd r c x) B := by
  refine ⟨h.1, h.2, h.3, h.4, fun r' c' hr' hc' => ?_⟩
  rw [h.val r' c' hr' hc']
  simp only [DMat.upd]
  rw [if_neg]
  rintro ⟨rfl, rfl⟩
  exact hrc ⟨hr', hc'⟩

theorem SubRel.upd_free {fl : List Bool} {A B : DMat α} (h : SubRel fl A B) {r c : Nat}
    (x : α) (hr : Free fl r) (hc : Free fl c) :
    SubRel fl (A.upd r c x) (B.upd (rank fl r) (rank fl c) x) := by
  refine ⟨h.1, h.2, h.3, h.4, fun r' c' hr' hc' => ?_⟩
  simp only [DMat.upd]
  by_cases he : r' = r ∧ c' = c
  · rw [if_pos (by rw [he.1, he.2]; exact ⟨rfl, rfl⟩), if_pos he]
  · rw [if_neg, if_neg he, h.val r' c' hr' hc']
    rintro ⟨h1, h2⟩
    exact he ⟨rank_inj hr' hr h1, rank_inj hc' hc h2⟩

theorem isConstrained?_create {fl : List Bool} {i : Nat} (h : i < fl.length) :
    (create fl).isConstrained? i = some (!decide (Free fl i)) := by
  unfold isConstrained? Free
  simp only [flags_create, List.getElem?_eq_getElem h]
  cases fl[i] <;> simp

theorem DMat.addAt?_some [Add α] {A B : DMat α} {r c : Nat} {x : α}
    (h : A.addAt? r c x = some B) : r < A.rows ∧ c < A.cols ∧ B = A.upd r c (A.val r c + x) := by
  unfold DMat.addAt? at h
  by_cases hb : r < A.rows ∧ c < A.cols
  · rw [if_pos hb] at h; injection h with h; exact ⟨hb.1, hb.2, h.symm⟩
  · rw [if_neg hb] at h; exact absurd h (by simp)

theorem reducedMatrixCols_sim [Add α] (fl : List Bool) (loc : DMat α) (r dr : Nat)
    (hdr : Free fl dr) (cs : List Nat) (j : Nat) (A A' B : DMat α) (hAB : SubRel fl A B)
    (h : rawMatrixCols loc r dr cs j A = some A') :
    ∃ B', reducedMatrixCols (create fl) loc r dr cs j B = some B' ∧ SubRel fl A' B' := by
  induction cs generalizing j A B with
  | nil =>
    simp only [rawMatrixCols, Option.some.injEq] at h
    subst h
    exact ⟨B, rfl, hAB⟩
  | cons c cs ih =>
    simp only [rawMatrixCols] at h
    obtain ⟨x, hx, h⟩ := Option.bind_eq_some_iff.1 h
    obtain ⟨C, hC, h⟩ := Option.bind_eq_some_iff.1 h
    obtain ⟨hb1, hb2, rfl⟩ := DMat.addAt?_some hC
    have hcl : c < fl.length := by rw [← hAB.colsA]; exact hb2
    simp only [reducedMatrixCols, isConstrained?_create hcl, Option.bind_some]
    by_cases hf : Free fl c
    · simp only [hf, decide_true, Bool.not_true, Bool.false_eq_true, if_false]
      rw [reducedIndex?_create (free_lt hdr), Option.bind_some, reducedIndex?_create hcl,
        Option.bind_some, hx, Option.bind_some]
      have : B.addAt? (rank fl dr) (rank fl c) x
          = some (B.upd (rank fl dr) (rank fl c) (A.val dr c + x)) := by
        unfold DMat.addAt?
        rw [if_pos ⟨by rw [hAB.rowsB]; exact rank_lt hdr, by rw [hAB.colsB]; exact rank_lt hf⟩,
          hAB.val _ _ hdr hf]
      rw [this, Option.bind_some]
      exact ih (j + 1) _ _ (hAB.upd_free _ hdr hf) h
    · simp only [hf, decide_false, Bool.not_false, if_true]
      exact ih (j + 1) _ _ (hAB.upd_constrained _ (fun h => hf h.2)) h

theorem SubRel.rawMatrixCols_constrained [Add α] {fl : List Bool} {loc : DMat α} {r dr : Nat}
    (hdr : ¬ Free fl dr) {cs : List Nat} {j : Nat} {A A' B : DMat α} (hAB : SubRel fl A B)
    (h : rawMatrixCols loc r dr cs j A = some A') : SubRel fl A' B := by
  induction cs generalizing j A with
  | nil => simp only [rawMatrixCols, Option.some.injEq] at h; subst h; exact hAB
  | cons c cs ih =>
    simp only [rawMatrixCols] at h
    obtain ⟨x, hx, h⟩ := Option.bind_eq_some_iff.1 h
    obtain ⟨C, hC, h⟩ := Option.bind_eq_some_iff.1 h
    obtain ⟨hb1, hb2, rfl⟩ := DMat.addAt?_some hC
    exact ih (hAB.upd_constrained _ (fun h => hdr h.1)) h

theorem reducedMatrixRows_sim [Add α] (fl : List Bool) (loc : DMat α) (dofs rs : List Nat)
    (hd : ∀ r ∈ rs, r < fl.length) (i : Nat) (A A' B : DMat α) (hAB : SubRel fl A B)
    (h : rawMatrixRows loc dofs rs i A = some A') :
    ∃ B', reducedMatrixRows (create fl) loc dofs rs i B = some B' ∧ SubRel fl A' B' := by
  induction rs generalizing i A B with
  | nil =>
    simp only [rawMatrixRows, Option.some.injEq] at h
    subst h
    exact ⟨B, rfl, hAB⟩
  | cons r rs ih =>
    simp only [rawMatrixRows] at h
    obtain ⟨C, hC, h⟩ := Option.bind_eq_some_iff.1 h
    have hrl : r < fl.length := hd r (by simp)
    simp only [reducedMatrixRows, isConstrained?_create hrl, Option.bind_some]
    by_cases hf : Free fl r
    · simp only [hf, decide_true, Bool.not_true, Bool.false_eq_true, if_false]
      obtain ⟨D, hD, hCD⟩ := reducedMatrixCols_sim fl loc i r hf dofs 0 A C B hAB hC
      rw [hD, Option.bind_some]
      exact ih (fun r hr => hd r (by simp [hr])) (i + 1) C D hCD h
    · simp only [hf, decide_false, Bool.not_false, if_true]
      exact ih (fun r hr => hd r (by simp [hr])) (i + 1) C B
        (hAB.rawMatrixCols_constrained hf hC) h

theorem reducedMatrixOuter_sim [Add α] (fl : List Bool) (fes : List (MatElem α))
    (hd : ∀ e ∈ fes, ∀ d ∈ e.dofs, d < fl.length) (A A' B : DMat α) (hAB : SubRel fl A B)
    (h : rawMatrixOuter fes A = some A') :
    ∃ B', reducedMatrixOuter (create fl) fes B = some B' ∧ SubRel fl A' B' := by
  induction fes generalizing A B with
  | nil =>
    simp only [rawMatrixOuter, Option.some.injEq] at h
    subst h
    exact ⟨B, rfl, hAB⟩
  | cons e es ih =>
    simp only [rawMatrixOuter] at h
    obtain ⟨C, hC, h⟩ := Option.bind_eq_some_iff.1 h
    obtain ⟨D, hD, hCD⟩ := reducedMatrixRows_sim fl e.mat e.dofs e.dofs
      (fun r hr => hd e (by simp) r hr) 0 A C B hAB hC
    simp only [reducedMatrixOuter, hD, Option.bind_some]
    exact ih (fun e' he' => hd e' (by simp [he'])) C D hCD h

end Assembler

theorem list_sum_comm [AddCommMonoid α] {β γ : Type*} (l : List β) (m : List γ)
    (f : β → γ → α) : (l.map fun a => (m.map (f a)).sum).sum
      = (m.map fun b => (l.map fun a => f a b).sum).sum := by
  induction l with
  | nil => simp
  | cons a l ih => simp [ih, List.sum_map_add]

theorem sumAt_flatMap {β ι : Type*} [DecidableEq ι] [AddCommMonoid α] (l : List β)
    (f : β → List (ι × α)) (i : ι) : sumAt (l.flatMap f) i = (l.map fun b => sumAt (f b) i).sum := by
  induction l with
  | nil => rfl
  | cons a l ih => simp [sumAt_append, ih]

theorem sumAt_map {β ι : Type*} [DecidableEq ι] [AddCommMonoid α] (l : List β)
    (f : β → ι) (g : β → α) (i : ι) :
    sumAt (l.map fun b => (f b, g b)) i = (l.map fun b => if f b = i then g b else 0).sum := by
  induction l with
  | nil => rfl
  | cons a l ih => simp [sumAt_cons, ih]

/-- Sums over the reduced index range are sums over the free dofs. -/
theorem sum_reduced [AddCommMonoid α] (fl : List Bool) (f : Nat → α) :
    ∑ k ∈ Finset.range (fl.count false), f k
      = ∑ i ∈ (Finset.range fl.length).filter (fun i => Free fl i), f (rank fl i) := by
  symm
  refine Finset.sum_bij (fun i _ => rank fl i) ?_ ?_ ?_ ?_
  · intro i hi
    simp only [Finset.mem_filter] at hi
    exact Finset.mem_range.2 (rank_lt hi.2)
  · intro i hi j hj h
    simp only [Finset.mem_filter] at hi hj
    exact rank_inj hi.2 hj.2 h
  · intro k hk
    obtain ⟨i, hi, hik⟩ := rank_surj fl (Finset.mem_range.1 hk)
    exact ⟨i, by simp only [Finset.mem_filter, Finset.mem_range]; exact ⟨free_lt hi, hi⟩, hik⟩
  · intro i _; rfl

end Ikarus
