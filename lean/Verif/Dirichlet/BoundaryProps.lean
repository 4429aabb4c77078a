import Verif.Dirichlet.BoundaryModel

/-!
C110: what `fixBoundaryDOFs` constrains, in C++ and in Python.
-/

namespace Ikarus.Boundary

variable {G : Type}

namespace Spec

/-- Local dof `a` of the subspace at `treePath` sits on the face of the intersection. -/
def OnFace (e : Element G) (treePath : List Nat) (i : Intersection G) (a : Nat) : Prop :=
  ∃ l ∈ e.leaves, treePath <+: l.1 ∧ ∃ s ∈ l.2, e.faceContains i.indexInInside s.codim s.subEntity = true ∧ s.localIndex = a

/-- A place where a dof of the subspace lies on the boundary. -/
def Place (grid : List (Element G)) (treePath : List Nat) (a : Nat) (e : Element G) (i : Intersection G) : Prop :=
  e ∈ grid ∧ i ∈ e.intersections ∧ i.boundary = true ∧ OnFace e treePath i a

/-- Global dof `k` lies on the boundary at a place that `P` accepts. -/
def Chosen (grid : List (Element G)) (treePath : List Nat) (P : Nat → Element G → Intersection G → Bool) (k : Nat) : Prop :=
  ∃ a e i, Place grid treePath a e i ∧ P a e i = true ∧ e.index a = k

/-- The grid says of its elements rightly whether they touch the boundary. -/
def RightGrid (grid : List (Element G)) : Prop :=
  ∀ e ∈ grid, (e.hasBoundaryIntersections = true ↔ ∃ i ∈ e.intersections, i.boundary = true)

/-- Dof `k` is constrained. -/
def Fixed (flags : Flags) (k : Nat) : Prop := flags[k]? = some true

end Spec

/-! ### The loops as one loop -/

theorem foldlM_flatMap_except {α β σ : Type} (l : List α) (g : α → List β) (f : σ → β → Except σ σ) (s : σ) :
    (l.flatMap g).foldlM f s = l.foldlM (fun s a => (g a).foldlM f s) s := by
  induction l generalizing s with
  | nil => rfl
  | cons a l ih =>
    rw [List.flatMap_cons, List.foldlM_append, List.foldlM_cons]
    congr 1
    funext s'
    exact ih s'

/-- The calls in their order. -/
def calls (grid : List (Element G)) (treePath : List Nat) : List (Nat × Element G × Intersection G) :=
  grid.flatMap fun e => if e.hasBoundaryIntersections then
    e.intersections.flatMap fun i => if i.boundary then (subEntityDOFs e treePath i).map fun a => (a, e, i) else []
    else []

theorem forEach_calls {σ : Type} (grid : List (Element G)) (treePath : List Nat)
    (f : σ → Nat → Element G → Intersection G → Except σ σ) (s : σ) :
    forEachBoundaryDOF grid treePath f s = (calls grid treePath).foldlM (fun s c => f s c.1 c.2.1 c.2.2) s := by
  rw [calls, foldlM_flatMap_except, forEachBoundaryDOF]
  congr 1
  funext s e
  by_cases he : e.hasBoundaryIntersections = true
  · rw [if_pos he, if_pos he, foldlM_flatMap_except]
    congr 1
    funext s i
    by_cases hi : i.boundary = true
    · rw [if_pos hi, if_pos hi, List.foldlM_map]
    · rw [if_neg hi, if_neg hi]; rfl
  · rw [if_neg he, if_neg he]; rfl

theorem mem_subEntityDOFs (e : Element G) (treePath : List Nat) (i : Intersection G) (a : Nat) :
    a ∈ subEntityDOFs e treePath i ↔ Spec.OnFace e treePath i a := by
  simp only [subEntityDOFs, Element.subspace, List.mem_map, List.mem_filter, List.mem_flatMap, Spec.OnFace]
  constructor
  · rintro ⟨s, ⟨⟨l, ⟨hl, hp⟩, hs⟩, hc⟩, rfl⟩
    exact ⟨l, hl, List.isPrefixOf_iff_prefix.1 hp, s, hs, hc, rfl⟩
  · rintro ⟨l, hl, hp, s, hs, hc, rfl⟩
    exact ⟨s, ⟨⟨l, ⟨hl, List.isPrefixOf_iff_prefix.2 hp⟩, hs⟩, hc⟩, rfl⟩

theorem mem_calls_place (grid : List (Element G)) (treePath : List Nat) (c : Nat × Element G × Intersection G)
    (h : c ∈ calls grid treePath) : Spec.Place grid treePath c.1 c.2.1 c.2.2 := by
  simp only [calls, List.mem_flatMap] at h
  obtain ⟨e, he, h⟩ := h
  split at h
  · obtain ⟨i, hi, h⟩ := List.mem_flatMap.1 h
    split at h
    · rename_i hb
      obtain ⟨a, ha, rfl⟩ := List.mem_map.1 h
      exact ⟨he, hi, hb, (mem_subEntityDOFs e treePath i a).1 ha⟩
    · cases h
  · cases h

theorem place_mem_calls (grid : List (Element G)) (hg : Spec.RightGrid grid) (treePath : List Nat) (a : Nat) (e : Element G)
    (i : Intersection G) (h : Spec.Place grid treePath a e i) : (a, e, i) ∈ calls grid treePath := by
  obtain ⟨he, hi, hb, ha⟩ := h
  refine List.mem_flatMap.2 ⟨e, he, ?_⟩
  rw [if_pos ((hg e he).2 ⟨i, hi, hb⟩)]
  refine List.mem_flatMap.2 ⟨i, hi, ?_⟩
  rw [if_pos hb]
  exact List.mem_map.2 ⟨a, (mem_subEntityDOFs e treePath i a).2 ha, rfl⟩

/-! ### Callbacks that fix -/

theorem write_fixed {flags flags' : Flags} {k : Nat} (h : write flags k = .ok flags') :
    flags'.length = flags.length ∧ ∀ j, Spec.Fixed flags' j ↔ Spec.Fixed flags j ∨ j = k := by
  unfold write at h
  split at h
  · rename_i hk
    cases h
    refine ⟨by simp, fun j => ?_⟩
    unfold Spec.Fixed
    rw [List.getElem?_set]
    by_cases hj : k = j
    · subst hj; simp [hk]
    · rw [if_neg hj]; simp [Ne.symm hj]
  · cases h

theorem fixing_loop (index : Nat × Element G × Intersection G → Nat) (P : Nat × Element G × Intersection G → Bool)
    (l : List (Nat × Element G × Intersection G)) (flags : Flags)
    (hin : ∀ c ∈ l, P c = true → index c < flags.length) :
    ∃ flags', l.foldlM (fun fl c => if P c then write fl (index c) else Except.ok fl) flags = .ok flags' ∧
      flags'.length = flags.length ∧
      ∀ k, Spec.Fixed flags' k ↔ Spec.Fixed flags k ∨ ∃ c ∈ l, P c = true ∧ index c = k := by
  induction l generalizing flags with
  | nil => exact ⟨flags, rfl, rfl, fun k => by simp⟩
  | cons c l ih =>
    rw [List.foldlM_cons]
    by_cases hc : P c = true
    · have hw : write flags (index c) = .ok (flags.set (index c) true) := if_pos (hin c (by simp) hc)
      obtain ⟨hlen, hfix⟩ := write_fixed hw
      obtain ⟨fl, h1, h2, h3⟩ := ih (flags.set (index c) true) (fun c' hc' hp => by
        rw [hlen]; exact hin c' (List.mem_cons_of_mem _ hc') hp)
      refine ⟨fl, ?_, h2.trans hlen, fun k => ?_⟩
      · rw [if_pos hc, hw]; exact h1
      · rw [h3, hfix]
        constructor
        · rintro ((h | rfl) | ⟨c', hc', hp, hk⟩)
          · exact Or.inl h
          · exact Or.inr ⟨c, by simp, hc, rfl⟩
          · exact Or.inr ⟨c', List.mem_cons_of_mem _ hc', hp, hk⟩
        · rintro (h | ⟨c', hc', hp, hk⟩)
          · exact Or.inl (Or.inl h)
          · rcases List.mem_cons.1 hc' with rfl | hc'
            · exact Or.inl (Or.inr hk.symm)
            · exact Or.inr ⟨c', hc', hp, hk⟩
    · obtain ⟨fl, h1, h2, h3⟩ := ih flags (fun c' hc' hp => hin c' (List.mem_cons_of_mem _ hc') hp)
      refine ⟨fl, ?_, h2, fun k => ?_⟩
      · rw [if_neg hc]; exact h1
      · rw [h3]
        constructor
        · rintro (h | ⟨c', hc', hp, hk⟩)
          · exact Or.inl h
          · exact Or.inr ⟨c', List.mem_cons_of_mem _ hc', hp, hk⟩
        · rintro (h | ⟨c', hc', hp, hk⟩)
          · exact Or.inl h
          · rcases List.mem_cons.1 hc' with rfl | hc'
            · exact absurd hp hc
            · exact Or.inr ⟨c', hc', hp, hk⟩

/-- The callback that fixes the dofs at the places that `P` accepts. -/
def fixWhere (P : Nat → Element G → Intersection G → Bool) (flags : Flags) (a : Nat) (e : Element G) (i : Intersection G) :
    Except Flags Flags :=
  if P a e i then write flags (e.index a) else .ok flags

/-- C110. A callback with intersection that fixes the dofs at the places it likes: afterwards exactly those dofs are constrained
that were before and those of the subspace that lie on the boundary at such a place. -/
theorem fixWithIntersection_exact (grid : List (Element G)) (hg : Spec.RightGrid grid) (treePath : List Nat)
    (P : Nat → Element G → Intersection G → Bool) (flags : Flags)
    (hin : ∀ k, Spec.Chosen grid treePath P k → k < flags.length) :
    ∃ flags', fixWithIntersection grid treePath (fixWhere P) flags = .ok flags' ∧ flags'.length = flags.length ∧
      ∀ k, Spec.Fixed flags' k ↔ Spec.Fixed flags k ∨ Spec.Chosen grid treePath P k := by
  obtain ⟨fl, h1, h2, h3⟩ := fixing_loop (fun c : Nat × Element G × Intersection G => c.2.1.index c.1)
    (fun c => P c.1 c.2.1 c.2.2) (calls grid treePath) flags (fun c hc hp =>
      hin _ ⟨c.1, c.2.1, c.2.2, mem_calls_place grid treePath c hc, hp, rfl⟩)
  refine ⟨fl, ?_, h2, fun k => ?_⟩
  · rw [fixWithIntersection, forEach_calls]; exact h1
  · rw [h3]
    constructor
    · rintro (h | ⟨c, hc, hp, hk⟩)
      · exact Or.inl h
      · exact Or.inr ⟨c.1, c.2.1, c.2.2, mem_calls_place grid treePath c hc, hp, hk⟩
    · rintro (h | ⟨a, e, i, hpl, hp, hk⟩)
      · exact Or.inl h
      · exact Or.inr ⟨(a, e, i), place_mem_calls grid hg treePath a e i hpl, hp, hk⟩

/-- C110. The same with a callback that is given the local view. -/
theorem fixWithView_exact (grid : List (Element G)) (hg : Spec.RightGrid grid) (treePath : List Nat)
    (P : Nat → Element G → Bool) (flags : Flags)
    (hin : ∀ k, Spec.Chosen grid treePath (fun a e _ => P a e) k → k < flags.length) :
    ∃ flags', fixWithView grid treePath (fun fl a e => if P a e then write fl (e.index a) else .ok fl) flags = .ok flags' ∧
      flags'.length = flags.length ∧
      ∀ k, Spec.Fixed flags' k ↔ Spec.Fixed flags k ∨ Spec.Chosen grid treePath (fun a e _ => P a e) k :=
  fixWithIntersection_exact grid hg treePath (fun a e _ => P a e) flags hin

/-- C110. The same with a callback that is given the global index: it constrains, of the dofs of the subspace that lie on the
boundary, exactly those it likes. -/
theorem fixWithIndex_exact (grid : List (Element G)) (hg : Spec.RightGrid grid) (treePath : List Nat)
    (P : Nat → Bool) (flags : Flags)
    (hin : ∀ k, Spec.Chosen grid treePath (fun _ _ _ => true) k → P k = true → k < flags.length) :
    ∃ flags', fixWithIndex grid treePath (fun fl k => if P k then write fl k else .ok fl) flags = .ok flags' ∧
      flags'.length = flags.length ∧
      ∀ k, Spec.Fixed flags' k ↔ Spec.Fixed flags k ∨ (P k = true ∧ Spec.Chosen grid treePath (fun _ _ _ => true) k) := by
  obtain ⟨fl, h1, h2, h3⟩ := fixWithIntersection_exact grid hg treePath (fun a e _ => P (e.index a)) flags (by
    rintro k ⟨a, e, i, hpl, hp, rfl⟩
    exact hin _ ⟨a, e, i, hpl, rfl, rfl⟩ hp)
  refine ⟨fl, h1, h2, fun k => ?_⟩
  rw [h3]
  refine or_congr Iff.rfl ⟨?_, ?_⟩
  · rintro ⟨a, e, i, hpl, hp, rfl⟩
    exact ⟨hp, a, e, i, hpl, rfl, rfl⟩
  · rintro ⟨hp, a, e, i, hpl, _, rfl⟩
    exact ⟨a, e, i, hpl, hp, rfl⟩

/-! ### Any callback -/

/-- The flags after a run, whether it ended with an exception or not. -/
def left : Except Flags Flags → Flags
  | .ok s => s
  | .error s => s

theorem loop_untouched (l : List (Nat × Element G × Intersection G))
    (f : Flags → Nat × Element G × Intersection G → Except Flags Flags) (k : Nat) (flags : Flags)
    (hf : ∀ c ∈ l, ∀ fl, (left (f fl c))[k]? = fl[k]?) : (left (l.foldlM f flags))[k]? = flags[k]? := by
  induction l generalizing flags with
  | nil => rfl
  | cons c l ih =>
    rw [List.foldlM_cons]
    have h := hf c (by simp) flags
    cases hc : f flags c with
    | error s => rw [hc] at h; exact h
    | ok s =>
      rw [hc] at h
      exact (ih s fun c' hc' => hf c' (List.mem_cons_of_mem _ hc')).trans h

/-- C110. Whatever the callback does to the flag of the dof it is called for, and whether it throws: the flags of dofs that are
not on the boundary, or belong to other parts of the basis than the one of the tree path, stay as they are. -/
theorem fixBoundaryDOFs_untouched (grid : List (Element G)) (treePath : List Nat)
    (f : Flags → Nat → Element G → Intersection G → Except Flags Flags)
    (hf : ∀ fl a e i k, k ≠ e.index a → (left (f fl a e i))[k]? = fl[k]?) (flags : Flags) (k : Nat)
    (hk : ¬ Spec.Chosen grid treePath (fun _ _ _ => true) k) :
    (left (fixWithIntersection grid treePath f flags))[k]? = flags[k]? := by
  rw [fixWithIntersection, forEach_calls]
  refine loop_untouched _ _ k flags fun c hc fl => hf fl _ _ _ k fun h => hk ?_
  exact ⟨c.1, c.2.1, c.2.2, mem_calls_place grid treePath c hc, rfl, h.symm⟩

/-- C110. The order in which the grid lists its elements and intersections makes no difference to what is fixed: grids with the
same places give the same flags. -/
theorem fixBoundaryDOFs_order (grid grid' : List (Element G)) (hg : Spec.RightGrid grid) (hg' : Spec.RightGrid grid')
    (treePath : List Nat) (P : Nat → Element G → Intersection G → Bool) (flags : Flags)
    (hsame : ∀ k, Spec.Chosen grid treePath P k ↔ Spec.Chosen grid' treePath P k)
    (hin : ∀ k, Spec.Chosen grid treePath P k → k < flags.length) :
    fixWithIntersection grid treePath (fixWhere P) flags = fixWithIntersection grid' treePath (fixWhere P) flags := by
  obtain ⟨fl, h1, h2, h3⟩ := fixWithIntersection_exact grid hg treePath P flags hin
  obtain ⟨fl', h1', h2', h3'⟩ := fixWithIntersection_exact grid' hg' treePath P flags fun k h => hin k ((hsame k).2 h)
  rw [h1, h1']
  congr 1
  refine List.ext_getElem (h2.trans h2'.symm) fun k hk hk' => ?_
  have h : Spec.Fixed fl k ↔ Spec.Fixed fl' k := by rw [h3, h3', hsame]
  unfold Spec.Fixed at h
  rw [List.getElem?_eq_getElem hk, List.getElem?_eq_getElem hk'] at h
  simpa using h

/-! ### Python -/

namespace Spec

/-- The callable has exactly one form, the one of its number of parameters. -/
def OneForm (f : PyCallback G) : Prop :=
  (f.withIndex.isSome = true ↔ f.numParams = 2) ∧ (f.withView.isSome = true ↔ f.numParams = 3) ∧
    (f.withIntersection.isSome = true ↔ f.numParams = 4)

/-- The full claim: in Python a callable that fits its number of parameters does what it does in C++. -/
def PySame : Prop :=
  ∀ (grid : List (Element Unit)) (treePath : List Nat) (f : PyCallback Unit) (flags : Flags) (r : Except Flags Flags),
    (f.numParams = 2 → f.withIndex.isSome = true) → (f.numParams = 3 → f.withView.isSome = true) →
    (f.numParams = 4 → f.withIntersection.isSome = true) → f.numParams ∈ [2, 3, 4] →
    fixBoundaryDOFs grid treePath f.toCallback flags = some r → pyFixBoundaryDOFs grid treePath f flags = r

end Spec

/-- C110. A Python callable that can be called in one way only does in Python what it does in C++. -/
theorem pyFixBoundaryDOFs_same (grid : List (Element G)) (treePath : List Nat) (f : PyCallback G) (flags : Flags)
    (r : Except Flags Flags) (hf : Spec.OneForm f) (h : fixBoundaryDOFs grid treePath f.toCallback flags = some r) :
    pyFixBoundaryDOFs grid treePath f flags = r := by
  obtain ⟨⟨w, v, i⟩, n⟩ := f
  obtain ⟨h2, h3, h4⟩ := hf
  dsimp only at h2 h3 h4
  cases w with
  | some g =>
    have hn : n = 2 := h2.1 rfl
    subst hn
    simp only [fixBoundaryDOFs, Option.some.injEq] at h
    simpa [pyFixBoundaryDOFs] using h
  | none =>
    cases v with
    | some g =>
      have hn : n = 3 := h3.1 rfl
      subst hn
      simp only [fixBoundaryDOFs, Option.some.injEq] at h
      simpa [pyFixBoundaryDOFs] using h
    | none =>
      cases i with
      | some g =>
        have hn : n = 4 := h4.1 rfl
        subst hn
        simp only [fixBoundaryDOFs, Option.some.injEq] at h
        simpa [pyFixBoundaryDOFs] using h
      | none => simp [fixBoundaryDOFs] at h

/-- C110. A callable with another number of parameters is rejected and changes nothing. -/
theorem pyFixBoundaryDOFs_rejects (grid : List (Element G)) (treePath : List Nat) (f : PyCallback G) (flags : Flags)
    (h : f.numParams ∉ [2, 3, 4]) : pyFixBoundaryDOFs grid treePath f flags = .error flags := by
  simp only [List.mem_cons, List.not_mem_nil, or_false, not_or] at h
  simp [pyFixBoundaryDOFs, h.1, h.2.1, h.2.2]

/-! ### Example -/

/-- A bar of one element with two vector valued shape functions: dofs 0, 1 at the left end and 2, 3 at the right end, here at
global places `10 - ·`. -/
def exampleBar : Element Unit where
  leaves := [([0], [⟨0, 0, 1⟩, ⟨2, 1, 1⟩]), ([1], [⟨1, 0, 1⟩, ⟨3, 1, 1⟩])]
  index a := 3 - a
  hasBoundaryIntersections := true
  intersections := [⟨true, 0, ()⟩, ⟨false, 1, ()⟩]
  faceContains face codim sub := decide (codim = 1 ∧ face = sub)

/-- A callable of Python `def f(flags, i, lv=None)` that sets `flags[i]`. -/
def exampleDefault : PyCallback Unit where
  withIndex := some write
  withView := some fun fl a _ => write fl a
  withIntersection := none
  numParams := 3

/-- C110. The full claim fails: a function with a default for the local view is called with the local index in Python and with
the global one in C++, and fixes another dof. -/
theorem pySame_false : ¬ Spec.PySame := by
  intro h
  have h1 := h [exampleBar] [0] exampleDefault [false, false, false, false]
    (.ok [false, false, false, true]) (by decide) (by decide) (by decide) (by decide) (by rfl)
  have h2 : pyFixBoundaryDOFs [exampleBar] [0] exampleDefault [false, false, false, false] =
      .ok [true, false, false, false] := by rfl
  rw [h2] at h1
  injection h1 with h1
  exact absurd h1 (by decide)

theorem exampleBar_right : Spec.RightGrid [exampleBar] := by
  intro e he
  rw [List.mem_singleton] at he
  subst he
  simp [exampleBar]

/-- The place at the left end, the second component. -/
theorem exampleBar_place : Spec.Place [exampleBar] [1] 1 exampleBar ⟨true, 0, ()⟩ :=
  ⟨by simp, by simp [exampleBar], rfl, ([1], [⟨1, 0, 1⟩, ⟨3, 1, 1⟩]), by simp [exampleBar], List.prefix_refl _,
    ⟨1, 0, 1⟩, by simp, by decide, rfl⟩

example : ∃ flags', fixWithIndex [exampleBar] [1] (fun fl k => if true then write fl k else .ok fl) [false, true, false, false] =
      .ok flags' ∧ Spec.Fixed flags' 2 := by
  obtain ⟨fl, h1, _, h3⟩ := fixWithIndex_exact [exampleBar] exampleBar_right [1] (fun _ => true) [false, true, false, false] (by
    rintro k ⟨a, e, i, ⟨he, _⟩, _, rfl⟩ _
    rw [List.mem_singleton] at he
    subst he
    show 3 - a < 4
    omega)
  exact ⟨fl, h1, (h3 2).2 (Or.inr ⟨rfl, 1, exampleBar, ⟨true, 0, ()⟩, exampleBar_place, rfl, rfl⟩)⟩

example : Spec.OneForm (⟨⟨some write, none, none⟩, 2⟩ : PyCallback Unit) := by simp [Spec.OneForm]

example : fixWithIndex [exampleBar] [] write [false, false, false, false] = .ok [false, false, true, true] := by rfl

example : fixWithIndex [exampleBar] [1] write [false, true, false, false] = .ok [false, true, true, false] := by rfl

end Ikarus.Boundary
