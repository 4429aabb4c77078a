import Verif.Assembler.SparseLemmas

/-!
Property C07: the sparse assembler agrees with the dense assembler for every history of requests.
-/

namespace Ikarus
open Spec Assembler SpMat
variable {α : Type*}

namespace SparseState

/-- Invariant of the sparse assembler over request histories. -/
structure Inv (fl : List Bool) (conn : List (List Nat)) (s : SparseState α) : Prop where
  base : s.base = Assembler.create fl
  raw : s.preRaw = true → Good fl.length (keysOf (patternOf conn)) s.spRaw
  full : s.preFull = true → Good fl.length (keysOf (patternOf conn)) s.spFull
  red : s.preReduced = true →
    Good (fl.count false) (keysOf (reducedPatternOf fl conn)) s.spReduced
  lin : s.preRaw = true ∨ s.preFull = true →
    ∃ rest, s.linIdx = conn.map (elemLin (keysOf (patternOf conn))) ++ rest
  linNil : s.preRaw = false → s.preFull = false → s.linIdx = []
  linRed : s.preReduced = true →
    ∃ rest, s.linIdxReduced
      = conn.map (elemLinReduced fl (keysOf (reducedPatternOf fl conn))) ++ rest
  linRedNil : s.preReduced = false → s.linIdxReduced = []

theorem inv_create (fl : List Bool) (conn : List (List Nat)) :
    Inv fl conn (SparseState.create (α := α) fl) := by
  constructor <;> simp [SparseState.create]

/-- The pattern and the index lists after the preprocessing step of the raw or full matrix. -/
theorem preprocessed [AddCommMonoid α] {fl : List Bool} {conn : List (List Nat)}
    {s : SparseState α} (hinv : Inv fl conn s) (fes : List (MatElem α))
    (hconn : fes.map (·.dofs) = conn) (hd : ∀ ds ∈ conn, ∀ d ∈ ds, d < fl.length)
    (pre : Bool) (A0 : SpMat α) (hpre : pre = true → s.preRaw = true ∨ s.preFull = true)
    (hA0 : pre = true → Good fl.length (keysOf (patternOf conn)) A0) :
    ∃ A rest, (if pre then some (A0, s.linIdx) else s.preProcess fes)
        = some (A, conn.map (elemLin (keysOf (patternOf conn))) ++ rest) ∧
      Good fl.length (keysOf (patternOf conn)) A := by
  cases pre with
  | true =>
    obtain ⟨rest, hrest⟩ := hinv.lin (hpre rfl)
    exact ⟨A0, rest, by simp [hrest], hA0 rfl⟩
  | false =>
    simp only [Bool.false_eq_true, if_false]
    unfold preProcess
    rw [occupationPattern_eq, hconn, hinv.base, size_create]
    obtain ⟨A, hA, hg⟩ := setFromTriplets?_eq (α := α) (n := fl.length) (ts := patternOf conn) (by
      rintro ⟨r, c⟩ ht
      obtain ⟨ds, hds, h1, h2⟩ := mem_patternOf.1 ht
      exact ⟨hd ds hds r h1, hd ds hds c h2⟩)
    rw [hA, Option.bind_some, linearDofs_eq (keysOf (patternOf conn)) (keysOf_sorted _) A
      hg.keys_eq fes]
    · have hm : fes.map (fun e => elemLin (keysOf (patternOf conn)) e.dofs)
          = conn.map (elemLin (keysOf (patternOf conn))) := by
        rw [← hconn, List.map_map]; rfl
      rw [hm, Option.map_some]
      by_cases hp : s.preRaw = true ∨ s.preFull = true
      · obtain ⟨rest, hrest⟩ := hinv.lin hp
        exact ⟨A, rest ++ conn.map (elemLin (keysOf (patternOf conn))), by
          rw [hrest, List.append_assoc], hg⟩
      · have h1 : s.preRaw = false := by
          cases h : s.preRaw with
          | false => rfl
          | true => exact absurd (Or.inl h) hp
        have h2 : s.preFull = false := by
          cases h : s.preFull with
          | false => rfl
          | true => exact absurd (Or.inr h) hp
        exact ⟨A, [], by simp [hinv.linNil h1 h2], hg⟩
    · intro e he r hr c hc
      rw [mem_keysOf, mem_patternOf]
      exact ⟨e.dofs, by rw [← hconn]; exact List.mem_map_of_mem he, hr, hc⟩

theorem matOK_of {fl : List Bool} {conn : List (List Nat)} {fes : List (MatElem α)}
    (hconn : fes.map (·.dofs) = conn) (hd : ∀ ds ∈ conn, ∀ d ∈ ds, d < fl.length)
    (hsz : ∀ e ∈ fes, e.mat.rows = e.dofs.length ∧ e.mat.cols = e.dofs.length) :
    Spec.MatOK fl.length fes := by
  intro e he
  have := hsz e he
  exact ⟨fun _ => ⟨by omega, by omega⟩,
    hd e.dofs (by rw [← hconn]; exact List.mem_map_of_mem he)⟩

/-- One request: the sparse result exists, equals the dense one, and the invariant is kept. -/
theorem matrix_step [Semiring α] {fl : List Bool} {conn : List (List Nat)} {s : SparseState α}
    (hinv : Inv fl conn s) (fes : List (MatElem α)) (hconn : fes.map (·.dofs) = conn)
    (hd : ∀ ds ∈ conn, ∀ d ∈ ds, d < fl.length)
    (htouch : ∀ i, fl[i]? = some true → ∃ ds ∈ conn, i ∈ ds)
    (hsz : ∀ e ∈ fes, e.mat.rows = e.dofs.length ∧ e.mat.cols = e.dofs.length)
    (opt : DBCOption) :
    ∃ s' A D, s.matrix fes opt = some (s', A) ∧ Inv fl conn s' ∧
      (Assembler.create fl).matrix? fes opt = some D ∧ A.rows = D.rows ∧ A.cols = D.cols ∧
      ∀ r c, r < D.rows → c < D.cols → A.coeff r c = D.val r c := by
  have hok : Spec.MatOK (Assembler.create fl).size fes := matOK_of hconn hd hsz
  obtain ⟨Draw, hDraw⟩ := (rawMatrix_defined_iff (Assembler.create fl) fes).2 hok
  obtain ⟨hDr, hDc, hDv⟩ := rawMatrix_eq_sum _ _ _ hDraw
  rw [size_create] at hDr hDc
  cases opt with
  | raw =>
    obtain ⟨A, rest, hpre, hg⟩ := preprocessed hinv fes hconn hd s.preRaw s.spRaw Or.inl hinv.raw
    subst hconn
    obtain ⟨B, hB, hgB, hBv⟩ := assembleRaw_eq fl.length fes hsz rest A hg
    have hB' : assembleRaw fes
        ((fes.map (·.dofs)).map (elemLin (keysOf (patternOf (fes.map (·.dofs))))) ++ rest) A
        = some B := by rw [← hB, List.map_map]; rfl
    refine ⟨{ s with
        preRaw := true
        linIdx := (fes.map (·.dofs)).map (elemLin (keysOf (patternOf (fes.map (·.dofs))))) ++ rest
        spRaw := B }, B, Draw, ?_, ?_, hDraw,
      by rw [hgB.rows, hDr], by rw [hgB.cols, hDc], fun r c _ _ => by rw [hBv, hDv]⟩
    · unfold matrix getRaw
      simp only [hpre, Option.bind_some, hB', Option.map_some]
    · exact ⟨hinv.base, fun _ => hgB, hinv.full, hinv.red, fun _ => ⟨rest, rfl⟩,
        fun h => by simp at h, hinv.linRed, hinv.linRedNil⟩
  | full =>
    obtain ⟨A, rest, hpre, hg⟩ :=
      preprocessed hinv fes hconn hd s.preFull s.spFull Or.inr hinv.full
    subst hconn
    obtain ⟨B, hB, hgB, hBv⟩ := assembleRaw_eq fl.length fes hsz rest A hg
    have hB' : assembleRaw fes
        ((fes.map (·.dofs)).map (elemLin (keysOf (patternOf (fes.map (·.dofs))))) ++ rest) A
        = some B := by rw [← hB, List.map_map]; rfl
    obtain ⟨D, hD, hDr', hDc', hDv'⟩ := fullMatrix_eq fl fes Draw hDraw
    have hD2 := hD
    unfold getMatrix? at hD2
    rw [hDraw, Option.bind_some, size_create] at hD2
    obtain ⟨D1, e1, hD2⟩ := Option.bind_eq_some_iff.1 hD2
    obtain ⟨D2, e2, e3⟩ := Option.bind_eq_some_iff.1 hD2
    have hs := keysOf_sorted (patternOf (fes.map (·.dofs)))
    have hR0 : Rel fl.length (keysOf (patternOf (fes.map (·.dofs)))) B Draw :=
      ⟨hgB, hDr, hDc, fun r c => by rw [hBv, hDv]⟩
    obtain ⟨B1, f1, hR1⟩ := forConstrained_sim (Rel fl.length _) fl
      (fun A i => some (A.scaleZero fun k => k.1 = i)) zeroCol
      (fun A D i D' _ hR hD' => ⟨_, rfl, rel_zeroCol hs A D D' i hR hD'⟩)
      fl.length 0 B Draw D1 hR0 e1
    obtain ⟨B2, f2, hR2⟩ := forConstrained_sim (Rel fl.length _) fl
      (fun A i => some (A.scaleZero fun k => k.2 = i)) zeroRow
      (fun A D i D' _ hR hD' => ⟨_, rfl, rel_zeroRow hs A D D' i hR hD'⟩)
      fl.length 0 B1 D1 D2 hR1 e2
    obtain ⟨B3, f3, hR3⟩ := forConstrained_sim (Rel fl.length _) fl
      (fun A i => some (A.setDiagOne i)) unitDiag
      (fun A D i D' hi hR hD' => ⟨_, rfl, rel_unitDiag hs A D D' i hR (by
        obtain ⟨ds, hds, hm⟩ := htouch i hi
        rw [mem_keysOf, mem_patternOf]
        exact ⟨ds, hds, hm, hm⟩) hD'⟩)
      fl.length 0 B2 D2 D hR2 e3
    refine ⟨{ s with
        preFull := true
        linIdx := (fes.map (·.dofs)).map (elemLin (keysOf (patternOf (fes.map (·.dofs))))) ++ rest
        spFull := B3 }, B3, D, ?_, ?_, hD,
      by rw [hR3.good.rows, hDr'], by rw [hR3.good.cols, hDc'], fun r c _ _ => hR3.val r c⟩
    · unfold matrix getFull
      simp only [hpre, Option.bind_some, hB', hinv.base, size_create, f1, f2, f3, Option.map_some]
    · exact ⟨hinv.base, hinv.raw, fun _ => hR3.good, hinv.red, fun _ => ⟨rest, rfl⟩,
        fun _ h => by simp at h, hinv.linRed, hinv.linRedNil⟩
  | reduced =>
    have hd' : ∀ e ∈ fes, ∀ d ∈ e.dofs, d < fl.length := fun e he =>
      hd e.dofs (by rw [← hconn]; exact List.mem_map_of_mem he)
    have hs := keysOf_sorted (reducedPatternOf fl conn)
    have hpairs : ∀ e ∈ fes, ∀ q ∈ freePairs fl e.dofs,
        (rank fl q.2.1, rank fl q.1.1) ∈ keysOf (reducedPatternOf fl conn) := by
      intro e he q hq
      rw [mem_keysOf]
      unfold reducedPatternOf
      exact List.mem_flatMap.2 ⟨e.dofs, by rw [← hconn]; exact List.mem_map_of_mem he,
        List.mem_map.2 ⟨q, hq, rfl⟩⟩
    -- preprocessing
    obtain ⟨A, rest, hpre, hg⟩ : ∃ A rest,
        (if s.preReduced then some (s.spReduced, s.linIdxReduced) else s.preProcessReduced fes)
          = some (A, conn.map (elemLinReduced fl (keysOf (reducedPatternOf fl conn))) ++ rest) ∧
        Good (fl.count false) (keysOf (reducedPatternOf fl conn)) A := by
      cases hp : s.preReduced with
      | true =>
        obtain ⟨rest, hrest⟩ := hinv.linRed hp
        exact ⟨s.spReduced, rest, by simp [hrest], hinv.red hp⟩
      | false =>
        simp only [Bool.false_eq_true, if_false]
        unfold preProcessReduced
        rw [hinv.base, reducedSize?_create, Option.bind_some, reducedPattern_eq fl fes hd',
          Option.bind_some, hconn]
        obtain ⟨A, hA, hg⟩ := setFromTriplets?_eq (α := α) (n := fl.count false)
          (ts := reducedPatternOf fl conn) (by
            intro t ht
            unfold reducedPatternOf at ht
            obtain ⟨ds, -, ht⟩ := List.mem_flatMap.1 ht
            obtain ⟨q, hq, rfl⟩ := List.mem_map.1 ht
            have := mem_freePairs hq
            exact ⟨rank_lt this.2.2.1, rank_lt this.2.2.2⟩)
        rw [hA, Option.bind_some, linearDofsReduced_eq fl _ hs A hg.keys_eq fes hd' hpairs,
          Option.map_some]
        refine ⟨A, [], ?_, hg⟩
        rw [hinv.linRedNil hp, List.nil_append, List.append_nil, ← hconn, List.map_map]
        rfl
    obtain ⟨D, hD, hn1, hn2, hDv'⟩ := reducedMatrix_eq fl fes Draw hDraw
    rw [reducedSize?_create] at hn1 hn2
    injection hn1 with hn1
    injection hn2 with hn2
    -- assembly
    have hadd := addElementsReduced_eq fl (keysOf (reducedPatternOf fl conn)) fes hd' hsz rest
      { A with vals := A.vals.map fun _ => (0 : α) } hg.comp
    obtain ⟨v, hv⟩ := scatter_isSome (v := A.vals.map fun _ => (0 : α))
      (cs := fes.flatMap (elemContribsReduced fl
        (fun k => (keysOf (reducedPatternOf fl conn)).idxOf k))) (by
        intro p hp
        obtain ⟨e, he, hp⟩ := List.mem_flatMap.1 hp
        obtain ⟨q, hq, rfl⟩ := List.mem_map.1 hp
        rw [List.length_map, hg.len]
        exact List.idxOf_lt_length_iff.2 (hpairs e he q hq))
    obtain ⟨-, hl, hval⟩ := scatter_eq_some hv
    simp only at hadd
    rw [hv, Option.map_some] at hadd
    have hgB : Good (fl.count false) (keysOf (reducedPatternOf fl conn))
        ({ A with vals := v } : SpMat α) :=
      ⟨hg.rows, hg.cols, hg.keys_eq, by simp [hl, hg.len], hg.comp⟩
    have hadd' : addElementsReduced (Assembler.create fl) fes
        (conn.map (elemLinReduced fl (keysOf (reducedPatternOf fl conn))) ++ rest)
        { A with vals := A.vals.map fun _ => (0 : α) } = some { A with vals := v } := by
      rw [← hadd]
      congr 2
      rw [← hconn, List.map_map]; rfl
    refine ⟨{ s with
        preReduced := true
        linIdxReduced := conn.map (elemLinReduced fl (keysOf (reducedPatternOf fl conn))) ++ rest
        spReduced := { A with vals := v } }, { A with vals := v }, D, ?_, ?_, hD,
      by rw [hgB.rows, ← hn1], by rw [hgB.cols, ← hn2], ?_⟩
    · unfold matrix getReduced zeroCoeffs?
      simp only [hpre, Option.bind_some, hg.comp, if_true, hinv.base]
      have : ({ A with vals := A.vals.map fun _ => (0 : α), compressed := true } : SpMat α)
          = { A with vals := A.vals.map fun _ => (0 : α) } := by
        rw [← hg.comp]
      rw [← hg.comp, hadd']
      simp
    · exact ⟨hinv.base, hinv.raw, hinv.full, fun _ => hgB, hinv.lin, hinv.linNil,
        fun _ => ⟨rest, rfl⟩, fun h => by simp at h⟩
    · intro kr kc hkr hkc
      rw [← hn1] at hkr
      rw [← hn2] at hkc
      obtain ⟨r, hr, rfl⟩ := rank_surj fl hkr
      obtain ⟨c, hc, rfl⟩ := rank_surj fl hkc
      have hDval : D.val (rank fl r) (rank fl c) = Draw.val r c := by
        obtain ⟨k1, k2, g1, g2, -, -, g3⟩ := hDv' r c hr hc
        rw [reducedIndex?_create (free_lt hr)] at g1
        rw [reducedIndex?_create (free_lt hc)] at g2
        injection g1 with g1
        injection g2 with g2
        rw [g1, g2, g3]
      rw [hDval, hDv]
      by_cases hk : (rank fl c, rank fl r) ∈ keysOf (reducedPatternOf fl conn)
      · have hlt := List.idxOf_lt_length_iff.2 hk
        apply coeff_of_pos (p := (keysOf (reducedPatternOf fl conn)).idxOf (rank fl c, rank fl r))
          (by rw [hgB.len, hgB.keys_eq]) (by rw [hgB.keys_eq]; exact hs)
        · simp only [hg.keys_eq]
          rw [List.getElem?_eq_getElem hlt]; simp
        · simp only [hval]
          rw [List.getElem?_eq_getElem (by rw [List.length_map, hg.len]; exact hlt)]
          simp only [List.getElem_map, Option.map_some, zero_add]
          rw [sumAt_pos_reduced fl _ fes r c hr hc hk]
      · rw [coeff_of_notMem (by simp only [hg.keys_eq]; exact hk), sumAt_matContribs_notMem]
        intro hm
        obtain ⟨ds, hds, hrd, hcd⟩ := mem_patternOf.1 hm
        apply hk
        rw [mem_keysOf]
        unfold reducedPatternOf
        refine List.mem_flatMap.2 ⟨ds, by rw [← hconn]; exact hds, ?_⟩
        obtain ⟨i, hi, rfl⟩ := List.getElem_of_mem hrd
        obtain ⟨j, hj, rfl⟩ := List.getElem_of_mem hcd
        refine List.mem_map.2 ⟨((ds[i], i), (ds[j], j)), ?_, rfl⟩
        unfold freePairs
        have m1 : (ds[i], i) ∈ ds.zipIdx := by
          rw [List.mem_iff_getElem]; exact ⟨i, by simpa using hi, by simp⟩
        have m2 : (ds[j], j) ∈ ds.zipIdx := by
          rw [List.mem_iff_getElem]; exact ⟨j, by simpa using hj, by simp⟩
        refine List.mem_flatMap.2 ⟨(ds[i], i), List.mem_filter.2 ⟨m1, by simpa using hr⟩,
          List.mem_map.2 ⟨(ds[j], j), List.mem_filter.2 ⟨m2, by simpa using hc⟩, rfl⟩⟩

end SparseState

/-- Two matrices of the two assemblers agree: same sizes, same entries. -/
def Spec.SameMatrix [Zero α] (A : SpMat α) (D : DMat α) : Prop :=
  A.rows = D.rows ∧ A.cols = D.cols ∧ ∀ r c, r < D.rows → c < D.cols → A.coeff r c = D.val r c

/-- C07. For every history of matrix requests to one sparse assembler (any order and number of
Raw, Full and Reduced, element matrices changing arbitrarily from request to request, element dofs
fixed), all requests are answered without out-of-range access, and each returned matrix has the
entries of the matrix of the dense assembler for that request, provided every constrained dof
belongs to an element. -/
theorem sparse_eq_dense [Semiring α] (flags : List Bool) (conn : List (List Nat))
    (hd : ∀ ds ∈ conn, ∀ d ∈ ds, d < flags.length)
    (htouch : ∀ i : Nat, flags[i]? = some true → ∃ ds ∈ conn, i ∈ ds)
    (reqs : List (DBCOption × List (MatElem α)))
    (hreq : ∀ q ∈ reqs, q.2.map (·.dofs) = conn ∧
      ∀ e ∈ q.2, e.mat.rows = e.dofs.length ∧ e.mat.cols = e.dofs.length) :
    ∃ outs, (SparseState.create flags).run reqs = some outs ∧
      List.Forall₂ (fun q A => ∃ D, (Assembler.create flags).matrix? q.2 q.1 = some D ∧
        Spec.SameMatrix A D) reqs outs := by
  have key : ∀ (reqs : List (DBCOption × List (MatElem α))) (s : SparseState α),
      SparseState.Inv flags conn s →
      (∀ q ∈ reqs, q.2.map (·.dofs) = conn ∧
        ∀ e ∈ q.2, e.mat.rows = e.dofs.length ∧ e.mat.cols = e.dofs.length) →
      ∃ outs, s.run reqs = some outs ∧
        List.Forall₂ (fun q A => ∃ D, (Assembler.create flags).matrix? q.2 q.1 = some D ∧
          Spec.SameMatrix A D) reqs outs := by
    intro reqs
    induction reqs with
    | nil => intro s _ _; exact ⟨[], rfl, List.Forall₂.nil⟩
    | cons q qs ih =>
      intro s hinv hq
      obtain ⟨h1, h2⟩ := hq q (by simp)
      obtain ⟨s', A, D, e1, e2, e3, e4⟩ :=
        SparseState.matrix_step hinv q.2 h1 hd htouch h2 q.1
      obtain ⟨outs, e5, e6⟩ := ih s' e2 (fun q hq' => hq q (by simp [hq']))
      refine ⟨A :: outs, ?_, List.Forall₂.cons ⟨D, e3, e4⟩ e6⟩
      simp [SparseState.run, e1, e5]
  exact key reqs _ (SparseState.inv_create flags conn) hreq

/-- The request history full, raw, full, reduced, full on a three dof chain. -/
example : ((SparseState.create [false, false, true]).run
    [(.full, exampleMat), (.raw, exampleMat), (.full, exampleMat), (.reduced, exampleMat),
     (.full, exampleMat)]).map (fun l => l.map fun A => (A.coeff 1 1, A.coeff 2 2))
    = some [(5, 1), (5, 3), (5, 1), (5, 0), (5, 1)] := by decide

example : (∀ ds ∈ exampleMat.map (·.dofs), ∀ d ∈ ds, d < [false, false, true].length) ∧
    (∀ i : Nat, [false, false, true][i]? = some true → ∃ ds ∈ exampleMat.map (·.dofs), i ∈ ds) ∧
    ∀ e ∈ exampleMat, e.mat.rows = e.dofs.length ∧ e.mat.cols = e.dofs.length := by
  refine ⟨by decide, ?_, ?_⟩
  · intro i hi
    rcases i with _ | _ | _ | i
    · simp at hi
    · simp at hi
    · decide
    · simp at hi
  · intro e he
    simp only [exampleMat, List.mem_cons, List.not_mem_nil, or_false] at he
    rcases he with rfl | rfl <;> exact ⟨rfl, rfl⟩

/-- C07, the condition on the constrained dofs is necessary: if a constrained dof belongs to no
element, the first Full request inserts a new entry and the second Full request uses index lists of
the old storage (undefined behaviour). The dense assembler answers both requests. -/
theorem sparse_untouched_constraint_breaks :
    ∃ (flags : List Bool) (fes : List (MatElem ℤ)),
      Spec.MatOK flags.length fes ∧
      ((SparseState.create flags).run [(.full, fes)]).isSome = true ∧
      (SparseState.create flags).run [(.full, fes), (.full, fes)] = none ∧
      ((Assembler.create flags).matrix? fes .full).isSome = true := by
  refine ⟨[false, true], [⟨[0], ⟨1, 1, fun _ _ => 4⟩⟩], ?_, ?_, ?_, ?_⟩
  · intro e he
    simp only [List.mem_cons, List.not_mem_nil, or_false] at he
    subst he
    decide
  · decide
  · rfl
  · decide

end Ikarus
