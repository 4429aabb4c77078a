import Verif.FE.AffordanceModel
import Mathlib.Tactic.Common
import Mathlib.Data.List.Nodup

/-! C45: affordances; C55: enumerations. -/

namespace Ikarus

/-- The problem an affordance belongs to. -/
inductive Spec.Family where
  | mechanics | micromagnetics
  deriving DecidableEq

/-- Which derivatives of which potential the affordances name: `(family, order)`. Affordances that are not a
complete derivative of a potential have no entry. -/
def Spec.derivativeOf : Affordance → Option (Spec.Family × Nat)
  | .scalar .mechanicalPotentialEnergy => some (.mechanics, 0)
  | .vector .forces => some (.mechanics, 1)
  | .matrix .stiffness => some (.mechanics, 2)
  | .scalar .microMagneticPotentialEnergy => some (.micromagnetics, 0)
  | .vector .microMagneticForces => some (.micromagnetics, 1)
  | .matrix .microMagneticHessian => some (.micromagnetics, 2)
  | _ => none

/-- C45. The vector and scalar affordance of a matrix or vector affordance belong to the same potential, one or
two orders lower; for affordances that are no complete derivative of a potential the result is `noAffordance`. -/
theorem affordance_conversions :
    (∀ m f, Spec.derivativeOf (.matrix m) = some (f, 2) →
      Spec.derivativeOf (.vector (vectorAffordanceOfMatrix m)) = some (f, 1) ∧
      Spec.derivativeOf (.scalar (scalarAffordanceOfMatrix m)) = some (f, 0)) ∧
    (∀ v f, Spec.derivativeOf (.vector v) = some (f, 1) →
      Spec.derivativeOf (.scalar (scalarAffordanceOfVector v)) = some (f, 0)) ∧
    (∀ m, Spec.derivativeOf (.matrix m) = none →
      vectorAffordanceOfMatrix m = .noAffordance ∧ scalarAffordanceOfMatrix m = .noAffordance) ∧
    (∀ v, Spec.derivativeOf (.vector v) = none → scalarAffordanceOfVector v = .noAffordance) ∧
    ∀ m, scalarAffordanceOfVector (vectorAffordanceOfMatrix m) = scalarAffordanceOfMatrix m := by
  refine ⟨?_, ?_, ?_, ?_, ?_⟩
  · intro m f h; cases m <;> simp_all [Spec.derivativeOf, vectorAffordanceOfMatrix, scalarAffordanceOfMatrix]
  · intro v f h; cases v <;> simp_all [Spec.derivativeOf, scalarAffordanceOfVector]
  · intro m h; cases m <;> simp_all [Spec.derivativeOf, vectorAffordanceOfMatrix, scalarAffordanceOfMatrix]
  · intro v h; cases v <;> simp_all [Spec.derivativeOf, scalarAffordanceOfVector]
  · intro m; cases m <;> rfl

example : Spec.derivativeOf (.matrix .microMagneticHessian) = some (.micromagnetics, 2) ∧
    Spec.derivativeOf (.matrix .mass) = none := ⟨rfl, rfl⟩

theorem hasType_iff (t : AffordanceKind) (ts : List AffordanceKind) : hasType t ts = true ↔ t ∈ ts := by
  induction ts with
  | nil => simp [hasType]
  | cons u ts ih =>
    by_cases h : t = u
    · simp [hasType, h]
    · simp [hasType, h, ih]

/-- What `std::get<T>` finds. -/
theorem getByType_eq_some (t : AffordanceKind) (c : List Affordance) (a : Affordance) :
    getByType t c = some a ↔ a ∈ c ∧ a.kind = t ∧ (c.map Affordance.kind).count t = 1 := by
  induction c with
  | nil => simp [getByType]
  | cons b c ih =>
    by_cases hb : b.kind = t
    · by_cases hm : t ∈ c.map Affordance.kind
      · have hpos := List.count_pos_iff.mpr hm
        have hh : hasType t (c.map Affordance.kind) = true := (hasType_iff _ _).mpr hm
        simp only [getByType, hb, if_pos, hh, List.map_cons, List.count_cons_self]
        constructor
        · simp
        · rintro ⟨-, -, h⟩; omega
      · have hh : ¬ hasType t (c.map Affordance.kind) = true := fun h => hm ((hasType_iff _ _).mp h)
        have h0 : (c.map Affordance.kind).count t = 0 := List.count_eq_zero.mpr hm
        simp only [getByType, hb, if_pos, if_neg hh, List.map_cons, List.count_cons_self, h0, Option.some.injEq,
          List.mem_cons]
        constructor
        · rintro rfl; exact ⟨.inl rfl, hb, by simp⟩
        · rintro ⟨h | h, hk, -⟩
          · exact h.symm
          · exact absurd (hk ▸ List.mem_map_of_mem h) hm
    · simp only [getByType, if_neg hb, ih, List.map_cons, List.count_cons_of_ne hb, List.mem_cons]
      constructor
      · rintro ⟨h1, h2, h3⟩; exact ⟨.inr h1, h2, h3⟩
      · rintro ⟨h | h, h2, h3⟩
        · subst h; exact absurd h2 hb
        · exact ⟨h, h2, h3⟩

/-- C45. `hasAffordance(a)` is true exactly if `a` is stored in the collection, for every collection in which the
kind of `a` does not occur twice; otherwise the call does not compile. The accessors return the stored affordance
of their kind, they compile exactly if there is exactly one. -/
theorem affordanceCollection_reports (c : List Affordance) :
    (∀ a, (c.map Affordance.kind).count a.kind ≤ 1 → collectionHasAffordance c a = some (decide (a ∈ c))) ∧
    (∀ a, 1 < (c.map Affordance.kind).count a.kind → collectionHasAffordance c a = none) ∧
    (∀ t a, collectionGet t c = some a ↔ a ∈ c ∧ a.kind = t ∧ ∀ b ∈ c, b.kind = t → b = a ∧
      (c.map Affordance.kind).count t = 1) := by
  refine ⟨fun a h => ?_, fun a h => ?_, fun t a => ?_⟩
  · unfold collectionHasAffordance
    by_cases hm : a.kind ∈ c.map Affordance.kind
    · rw [if_pos ((hasType_iff _ _).mpr hm)]
      have h1 : (c.map Affordance.kind).count a.kind = 1 := by
        have := List.count_pos_iff.mpr hm; omega
      obtain ⟨b, hb, hk⟩ := List.mem_map.mp hm
      have hg := (getByType_eq_some a.kind c b).mpr ⟨hb, hk, h1⟩
      rw [hg]
      simp only [Option.map_some, Option.some.injEq, decide_eq_decide]
      constructor
      · rintro rfl; exact hb
      · intro ha
        have := (getByType_eq_some a.kind c a).mpr ⟨ha, rfl, h1⟩
        rw [hg] at this
        exact (Option.some.inj this).symm
    · rw [if_neg (fun h => hm ((hasType_iff _ _).mp h))]
      have : a ∉ c := fun h => hm (List.mem_map_of_mem h)
      simp [this]
  · unfold collectionHasAffordance
    have hm : a.kind ∈ c.map Affordance.kind := List.count_pos_iff.mp (by omega)
    rw [if_pos ((hasType_iff _ _).mpr hm)]
    have : getByType a.kind c = none := by
      cases hg : getByType a.kind c with
      | none => rfl
      | some b => have := ((getByType_eq_some _ _ _).mp hg).2.2; omega
    rw [this]; rfl
  · have : collectionGet t c = getByType t c := by
      unfold collectionGet
      split
      · rfl
      · rename_i hn
        cases hg : getByType t c with
        | none => rfl
        | some b =>
          have := ((getByType_eq_some _ _ _).mp hg).2.2
          exact absurd ((hasType_iff _ _).mpr (List.count_pos_iff.mp (by omega))) hn
    rw [this, getByType_eq_some]
    constructor
    · rintro ⟨h1, h2, h3⟩
      refine ⟨h1, h2, fun b hb hk => ⟨?_, h3⟩⟩
      have e1 := (getByType_eq_some t c a).mpr ⟨h1, h2, h3⟩
      have e2 := (getByType_eq_some t c b).mpr ⟨hb, hk, h3⟩
      rw [e1] at e2
      exact (Option.some.inj e2).symm
    · rintro ⟨h1, h2, h3⟩
      exact ⟨h1, h2, (h3 a h1 h2).2⟩

example : collectionHasAffordance elastoStatics (.vector .forces) = some true ∧
    collectionHasAffordance elastoStatics (.matrix .mass) = some false ∧
    collectionHasAffordance [.matrix .mass] (.vector .forces) = some false ∧
    collectionHasAffordance [.matrix .mass, .matrix .stiffness] (.matrix .mass) = none ∧
    collectionGet .matrix elastoStatics = some (.matrix .stiffness) ∧ collectionGet .vector [.matrix .mass] = none :=
  by decide

/-- The collection for statics belongs together: the lower affordances are those of the matrix affordance. -/
example : elastoStatics = [.scalar (scalarAffordanceOfMatrix .stiffness),
    .vector (vectorAffordanceOfMatrix .stiffness), .matrix .stiffness] := rfl

namespace MadeEnum

theorem nameCases_eq (names : List String) (e k : Int) :
    nameCases e k names = if k ≤ e then names[(e - k).toNat]? else none := by
  induction names generalizing k with
  | nil => simp [nameCases]
  | cons n ns ih =>
    unfold nameCases
    by_cases h : e = k
    · subst h; simp
    · rw [if_neg h, ih]
      by_cases h1 : k + 1 ≤ e
      · rw [if_pos h1, if_pos (by omega)]
        have : (e - k).toNat = (e - (k + 1)).toNat + 1 := by omega
        rw [this, List.getElem?_cons_succ]
      · rw [if_neg h1, if_neg (by omega)]

/-- All enumerators in the order of their declaration. -/
def Spec.enumerators (names : List String) : List String := "BEGIN" :: names ++ ["END"]

/-- C55. The enumerator with position `i` has the underlying value `i`, `toString` returns its name. -/
theorem enum_toString (names : List String) (i : Nat) (h : i < (Spec.enumerators names).length) :
    toString names i = (Spec.enumerators names)[i]? := by
  simp only [Spec.enumerators, List.cons_append, List.length_cons, List.length_append, List.length_nil] at h
  unfold toString begin «end»
  rcases i with _ | i
  · simp [Spec.enumerators]
  · rw [if_neg (by omega), nameCases_eq, if_pos (by omega)]
    have : ((((i + 1 : Nat) : Int)) - 1).toNat = i := by omega
    rw [this, Spec.enumerators, List.cons_append, List.getElem?_cons_succ]
    by_cases hi : i < names.length
    · rw [List.getElem?_append_left hi, List.getElem?_eq_getElem hi]
    · have : i = names.length := by omega
      subst this
      simp

/-- Apply `increment` repeatedly. -/
def Spec.incrementTimes (names : List String) : Nat → Int → Option Int
  | 0, e => some e
  | k + 1, e => (increment names e).bind (Spec.incrementTimes names k)

/-- C55. `increment` moves from each enumerator to the next one and throws exactly at `END`. -/
theorem enum_increment (names : List String) (i : Nat) (h : i < (Spec.enumerators names).length) :
    increment names i =
      if i + 1 < (Spec.enumerators names).length then some ((i + 1 : Nat) : Int) else none := by
  simp only [Spec.enumerators, List.cons_append, List.length_cons, List.length_append, List.length_nil] at h ⊢
  unfold increment «end»
  by_cases hi : (i : Int) = names.length + 1
  · rw [if_pos hi, if_neg (by omega)]
  · rw [if_neg hi, if_pos (by omega)]; simp

/-- C55. Incrementing `k` times from `BEGIN` yields the `k`-th enumerator, and throws if there is none. -/
theorem enum_traversal (names : List String) (k : Nat) :
    Spec.incrementTimes names k begin =
      if k < (Spec.enumerators names).length then some (k : Int) else none := by
  have key : ∀ k i : Nat, i < (Spec.enumerators names).length → Spec.incrementTimes names k i =
      if k + i < (Spec.enumerators names).length then some ((k + i : Nat) : Int) else none := by
    intro k
    induction k with
    | zero => intro i h; simp [Spec.incrementTimes, h]
    | succ k ih =>
      intro i h
      rw [Spec.incrementTimes, enum_increment names i h]
      by_cases h1 : i + 1 < (Spec.enumerators names).length
      · rw [if_pos h1, Option.bind_some, ih (i + 1) h1]
        have : k + (i + 1) = k + 1 + i := by omega
        rw [this]
      · rw [if_neg h1, if_neg (by omega)]; rfl
  have := key k 0 (by simp [Spec.enumerators])
  simpa [begin] using this

theorem bindLoop_eq (names : List String) (fuel i : Nat) (hi : i ≤ names.length) (hf : names.length < fuel + i) :
    bindLoop names fuel ((i + 1 : Nat) : Int) =
      some ((names.drop i).zip ((List.range' (i + 1) (names.length - i)).map fun j : Nat => (j : Int))) := by
  induction fuel generalizing i with
  | zero => omega
  | succ fuel ih =>
    unfold bindLoop
    by_cases he : i = names.length
    · subst he
      rw [if_pos (by simp [«end»])]
      simp
    · have hlt : i < names.length := by omega
      have hne : ¬ (((i + 1 : Nat) : Int) = «end» names) := by unfold «end»; omega
      rw [if_neg hne]
      have hts := enum_toString names (i + 1) (by simp [Spec.enumerators]; omega)
      have hname : (Spec.enumerators names)[i + 1]? = some names[i] := by
        rw [Spec.enumerators, List.cons_append, List.getElem?_cons_succ, List.getElem?_append_left hlt,
          List.getElem?_eq_getElem hlt]
      rw [hname] at hts
      have hinc : increment names ((i + 1 : Nat) : Int) = some (((i + 1) + 1 : Nat) : Int) := by
        unfold increment; rw [if_neg hne]; simp
      simp only [hts, hinc, Option.bind_eq_bind, Option.bind_some]
      rw [ih (i + 1) (by omega) (by omega), Option.bind_some]
      have h2 : names.length - i = (names.length - (i + 1)) + 1 := by omega
      rw [h2, List.range'_succ, List.map_cons, List.drop_eq_getElem_cons hlt, List.zip_cons_cons]

/-- C55. The Python bindings of an enumeration register every enumerator of the declaration once, in order, with
its name and value, and neither `BEGIN` nor `END`; the loop ends without an exception. -/
theorem enum_bindings (names : List String) (fuel : Nat) (hf : names.length < fuel) :
    bindings names fuel =
      some (names.zip ((List.range' 1 names.length).map fun j : Nat => (j : Int))) := by
  unfold bindings
  have h0 : increment names begin = some ((0 + 1 : Nat) : Int) := by
    unfold increment begin «end»; rw [if_neg (by omega)]; rfl
  simp only [h0, Option.bind_eq_bind, Option.bind_some]
  rw [bindLoop_eq names fuel 0 (by omega) (by omega)]
  simp

example : bindings ["Raw", "Reduced", "Full"] 10 = some [("Raw", 1), ("Reduced", 2), ("Full", 3)] := by decide +kernel

example : Spec.incrementTimes ["Spectra", "Eigen"] 3 begin = some (MadeEnum.end ["Spectra", "Eigen"]) ∧
    Spec.incrementTimes ["Spectra", "Eigen"] 4 begin = none := by decide +kernel

/-- C55. `toString` tells the enumerators apart if the names in the declaration differ and none is `BEGIN` or
`END` (which C++ requires). -/
theorem enum_toString_injective (names : List String) (hn : (Spec.enumerators names).Nodup) (i j : Nat)
    (hi : i < (Spec.enumerators names).length) (hj : j < (Spec.enumerators names).length)
    (h : toString names i = toString names j) : i = j := by
  rw [enum_toString names i hi, enum_toString names j hj] at h
  exact (List.getElem?_inj hi hn).mp h

example : (Spec.enumerators ["Raw", "Reduced", "Full"]).Nodup := by decide +kernel

end MadeEnum

end Ikarus
