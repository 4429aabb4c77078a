import Verif.IO.ContainerModel

/-!
C111: the components of interpolated fields are the components of the basis.
-/

namespace Ikarus.Output

namespace Spec

/-- A container has a place for every scalar component of the basis, and only these. -/
inductive Holds : Container → PreBasis → Prop
  | leaf : Holds .double .leaf
  | power (c : Container) (n : Nat) (sub : PreBasis) : Holds c sub → Holds (.array c n) (.power n sub)
  | composite (c : Container) (n : Nat) (first : PreBasis) (rest : List PreBasis) : n = rest.length + 1 → Holds c first →
      (∀ s ∈ rest, Holds c s) → Holds (.array c n) (.composite first rest)

/-- The sub-bases of a pre-basis. -/
def child : PreBasis → Nat → Option PreBasis
  | .leaf, _ => none
  | .power n sub, i => if i < n then some sub else none
  | .composite first rest, i => (first :: rest)[i]?

/-- The part of the basis at a path. -/
def partAt : PreBasis → List Nat → Option PreBasis
  | b, [] => some b
  | b, i :: path => (child b i).bind fun c => partAt c path

/-- The part of the basis that is interpolated. -/
def part : OutBasis → Option PreBasis
  | .root pre => some pre
  | .subspace root path => partAt root path

/-- Scalar field or vector field of scalars with `n` components. -/
inductive Components : PreBasis → Nat → Prop
  | scalar : Components .leaf 1
  | vector (n : Nat) : Components (.power n .leaf) n
  | fields (rest : List PreBasis) : (∀ s ∈ rest, s = .leaf) → Components (.composite .leaf rest) (rest.length + 1)

/-- Interpolation works for the basis: its container holds the components. -/
def Works (b : OutBasis) : Prop := ∃ p c, part b = some p ∧ resultContainer b = some c ∧ Holds c p

/-- The full claim: every part of every basis can be interpolated. -/
def AllWork : Prop := ∀ b p, part b = some p → Works b

end Spec

/-- A basis is held by one container only. -/
theorem holds_unique {c : Container} {p : PreBasis} (h : Spec.Holds c p) : c = resultContainerPre p := by
  induction h with
  | leaf => rfl
  | power c n sub _ ih => rw [ih]; rfl
  | composite c n first rest hn _ _ ih _ => rw [ih, hn]; rfl

/-- C111. A whole basis can be interpolated exactly if the sub-bases of each composite in it have the same components. -/
theorem works_root_composite (first : PreBasis) (rest : List PreBasis) :
    Spec.Works (.root (.composite first rest)) ↔ ∀ s ∈ first :: rest, Spec.Holds (resultContainerPre first) s := by
  constructor
  · rintro ⟨p, c, hp, hc, h⟩
    simp only [Spec.part, Option.some.injEq] at hp
    subst hp
    cases h with
    | composite c n first rest hn h1 h2 =>
      have hc1 := holds_unique h1
      subst hc1
      intro s hs
      rcases List.mem_cons.1 hs with rfl | hs
      · exact h1
      · exact h2 s hs
  · intro h
    exact ⟨_, _, rfl, rfl, .composite _ _ first rest rfl (h first (by simp)) fun s hs => h s (List.mem_cons_of_mem _ hs)⟩

/-- C111. Scalars and powers can be interpolated if what they are powers of can. -/
theorem works_root_power (n : Nat) (sub : PreBasis) : Spec.Works (.root (.power n sub)) ↔ Spec.Works (.root sub) := by
  constructor
  · rintro ⟨p, c, hp, hc, h⟩
    simp only [Spec.part, Option.some.injEq] at hp
    subst hp
    cases h with
    | power c n sub h =>
      have hc1 := holds_unique h
      subst hc1
      exact ⟨sub, _, rfl, rfl, h⟩
  · rintro ⟨p, c, hp, hc, h⟩
    simp only [Spec.part, Option.some.injEq] at hp
    subst hp
    have hc1 := holds_unique h
    subst hc1
    exact ⟨_, _, rfl, rfl, .power _ n _ h⟩

/-- C111. A part of a composite basis that is named by one index can be interpolated exactly if it can be as a basis of its own:
the displacements and the pressure of a basis for both. -/
theorem works_child_of_composite (first : PreBasis) (rest : List PreBasis) (i : Nat) (p : PreBasis)
    (hi : (first :: rest)[i]? = some p) :
    Spec.Works (.subspace (.composite first rest) [i]) ↔ Spec.Works (.root p) := by
  have hpart : Spec.part (.subspace (.composite first rest) [i]) = some p := by
    simp [Spec.part, Spec.partAt, Spec.child, hi]
  have hres : resultContainer (.subspace (.composite first rest) [i]) = some (resultContainerPre p) := by
    simp [resultContainer, resultContainerSSB, hi]
  constructor
  · rintro ⟨p', c, hp, hc, h⟩
    rw [hpart] at hp
    rw [hres] at hc
    cases hp; cases hc
    exact ⟨p, _, rfl, rfl, h⟩
  · rintro ⟨p', c, hp, hc, h⟩
    simp only [Spec.part, Option.some.injEq] at hp
    simp only [resultContainer, Option.some.injEq] at hc
    subst hp; subst hc
    exact ⟨p, _, hpart, hres, h⟩

/-- C111. A part of a power basis can be interpolated exactly if it is a scalar. -/
theorem works_part_of_power (n : Nat) (sub : PreBasis) (path : List Nat) (p : PreBasis)
    (hp : Spec.partAt (.power n sub) path = some p) :
    Spec.Works (.subspace (.power n sub) path) ↔ p = .leaf := by
  constructor
  · rintro ⟨p', c, hp', hc, h⟩
    rw [Spec.part, hp] at hp'
    cases hp'
    simp only [resultContainer, resultContainerSSB, Option.some.injEq] at hc
    subst hc
    cases h
    rfl
  · rintro rfl
    exact ⟨.leaf, .double, hp, rfl, .leaf⟩

/-- The number of levels of a pre-basis along its first sub-bases. -/
def levels : Container → Nat
  | .double => 0
  | .array c _ => levels c + 1

theorem levels_of_holds {c : Container} {p q : PreBasis} {i : Nat} (h : Spec.Holds c p) (hq : Spec.child p i = some q) :
    ∃ c', Spec.Holds c' q ∧ levels c' + 1 = levels c := by
  cases h with
  | leaf => cases hq
  | power c n sub h =>
    have hq' : (if i < n then some sub else none) = some q := hq
    by_cases hi : i < n
    · rw [if_pos hi] at hq'
      cases hq'
      exact ⟨c, h, rfl⟩
    · rw [if_neg hi] at hq'
      cases hq'
  | composite c n first rest hn h1 h2 =>
    have hm : q ∈ first :: rest := List.mem_of_getElem? hq
    refine ⟨c, ?_, rfl⟩
    rcases List.mem_cons.1 hm with rfl | hm
    · exact h1
    · exact h2 q hm

theorem levels_of_path {c : Container} {p q : PreBasis} (path : List Nat) (h : Spec.Holds c p)
    (hq : Spec.partAt p path = some q) : ∃ c', Spec.Holds c' q ∧ levels c' + path.length = levels c := by
  induction path generalizing c p with
  | nil =>
    simp only [Spec.partAt, Option.some.injEq] at hq
    subst hq
    exact ⟨c, h, by simp⟩
  | cons i path ih =>
    simp only [Spec.partAt] at hq
    cases hc : Spec.child p i with
    | none => rw [hc] at hq; cases hq
    | some p' =>
      rw [hc] at hq
      obtain ⟨c1, h1, hl1⟩ := levels_of_holds h hc
      obtain ⟨c2, h2, hl2⟩ := ih h1 hq
      refine ⟨c2, h2, ?_⟩
      rw [List.length_cons]
      omega

/-- C111. A part of a composite basis that is named by two or more indices never can, if the part of the first index can: the
rest of the path is forgotten, a single component of the displacements is given the container of all. -/
theorem fails_below_child_of_composite (first : PreBasis) (rest : List PreBasis) (i j : Nat) (path : List Nat) (q : PreBasis)
    (hi : (first :: rest)[i]? = some q) (hq : Spec.Works (.root q)) :
    ¬ Spec.Works (.subspace (.composite first rest) (i :: j :: path)) := by
  rintro ⟨p, c, hp, hc, h⟩
  have hc' : c = resultContainerPre q := by
    simp only [resultContainer, resultContainerSSB, hi, Option.map_some, Option.some.injEq] at hc
    exact hc.symm
  have hp' : Spec.partAt q (j :: path) = some p := by
    simp only [Spec.part, Spec.partAt, Spec.child, hi, Option.bind_some] at hp
    exact hp
  obtain ⟨q', cq, hq1, hq2, hq3⟩ := hq
  simp only [Spec.part, Option.some.injEq] at hq1
  subst hq1
  obtain ⟨c2, h2, hl⟩ := levels_of_path (j :: path) hq3 hp'
  have e1 := holds_unique hq3
  have e2 := holds_unique h2
  have e3 := holds_unique h
  have : c2 = cq := by rw [e2, ← e3, hc', e1]
  subst this
  simp at hl

/-- C111. If the field is a scalar or a vector of scalars and can be interpolated, the number of components that is declared is
the one it has. -/
theorem declared_components (b : OutBasis) (hb : Spec.Works b) (p : PreBasis) (n : Nat) (hp : Spec.part b = some p)
    (hn : Spec.Components p n) : interpolationComponents b = some n := by
  obtain ⟨p', c, hp', hc, h⟩ := hb
  rw [hp] at hp'
  cases hp'
  have e := holds_unique h
  unfold interpolationComponents
  rw [hc, Option.map_some, e]
  cases hn with
  | scalar => rfl
  | vector n => rfl
  | fields rest _ => rfl

/-- The basis of displacements in the plane and a pressure. -/
def displacementPressure : PreBasis := .composite (.power 2 .leaf) [.leaf]

/-- C111. The full claim fails: the basis of displacements and pressure as a whole, and a single component of the displacements in
it, which is declared to have two components. -/
theorem allWork_false : ¬ Spec.AllWork ∧ ¬ Spec.Works (.root displacementPressure) ∧
    ¬ Spec.Works (.subspace displacementPressure [0, 1]) ∧
    interpolationComponents (.subspace displacementPressure [0, 1]) = some 2 := by
  have h1 : ¬ Spec.Works (.root displacementPressure) := by
    intro h
    have := (works_root_composite _ _).1 h .leaf (by simp)
    cases this
  refine ⟨fun h => h1 (h _ _ rfl), h1, ?_, rfl⟩
  refine fails_below_child_of_composite _ _ 0 1 [] (.power 2 .leaf) rfl ?_
  exact (works_root_power 2 .leaf).2 ⟨_, _, rfl, rfl, .leaf⟩

example : Spec.Works (.subspace displacementPressure [0]) :=
  (works_child_of_composite _ _ 0 _ rfl).2 ((works_root_power 2 .leaf).2 ⟨_, _, rfl, rfl, .leaf⟩)

example : interpolationComponents (.subspace displacementPressure [0]) = some 2 :=
  declared_components _ ((works_child_of_composite _ _ 0 _ rfl).2 ((works_root_power 2 .leaf).2 ⟨_, _, rfl, rfl, .leaf⟩)) _ _ rfl
    (.vector 2)

example : Spec.Works (.subspace (.power 3 .leaf) [1]) := (works_part_of_power 3 .leaf [1] .leaf rfl).2 rfl

end Ikarus.Output
