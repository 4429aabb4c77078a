import Verif.IO.OutputModel
import Verif.Tensor.VoigtProps
import Mathlib.Tactic.Linarith

/-!
Properties of the containers of results and of the output of results.
-/

namespace Ikarus.Output

open Matrix

/-! ### Containers of results -/

theorem flatMap_block {α β : Type*} {r : Nat} (l : List α) (f : α → List β) (hf : ∀ a, (f a).length = r) (i j : Nat)
    (hi : i < r) : (l.flatMap f)[i + j * r]? = (l[j]?).bind fun a => (f a)[i]? := by
  induction l generalizing j with
  | nil => simp
  | cons a l ih =>
    rw [List.flatMap_cons]
    cases j with
    | zero => rw [Nat.zero_mul, Nat.add_zero, List.getElem?_append_left (by rw [hf]; exact hi)]; rfl
    | succ j =>
      have e : i + (j + 1) * r = r + (i + j * r) := by ring
      rw [List.getElem?_append_right (by rw [hf, e]; omega), hf, e, Nat.add_sub_cancel_left, ih]
      rfl

theorem vectorizeGeneric_length {r c : Nat} (A : Matrix (Fin r) (Fin c) ℝ) :
    (vectorizeGeneric A).length = r * c := by
  rw [vectorizeGeneric, List.length_flatMap]
  simp [Nat.mul_comm]

/-- C79. The vector of a result lists the matrix column by column. -/
theorem vectorizeGeneric_entry {r c : Nat} (A : Matrix (Fin r) (Fin c) ℝ) (i : Fin r) (j : Fin c) :
    (vectorizeGeneric A)[i.val + j.val * r]? = some (A i j) := by
  rw [vectorizeGeneric, flatMap_block _ _ (fun a => by simp) _ _ i.isLt]
  simp

/-- C79. Vector and matrix of a result that is stored column by column determine each other, whichever is stored: the matrix
made of the vector is the matrix, and the vector made of the matrix is the vector if it has as many entries. -/
theorem stored_roundtrip {r c : Nat} :
    (∀ A : Matrix (Fin r) (Fin c) ℝ, (Stored.vec (Stored.mat A).asVec : Stored r c).asMat = some A) ∧
    (∀ v : List ℝ, v.length = r * c →
      ∃ A, (Stored.vec v : Stored r c).asMat = some A ∧ (Stored.mat A).asVec = v) ∧
    (∀ v : List ℝ, v.length ≠ r * c → (Stored.vec v : Stored r c).asMat = none) := by
  have h1 : ∀ A : Matrix (Fin r) (Fin c) ℝ, (Stored.vec (Stored.mat A).asVec : Stored r c).asMat = some A := by
    intro A
    change matricizeGeneric (vectorizeGeneric A) r c = some A
    rw [matricizeGeneric, if_pos (vectorizeGeneric_length A)]
    congr 1
    ext i j
    rw [Matrix.of_apply, List.getD_eq_getElem?_getD, vectorizeGeneric_entry]
    rfl
  refine ⟨h1, fun v hv => ?_, fun v hv => ?_⟩
  · refine ⟨Matrix.of fun i j => v.getD (i.val + j.val * r) 0, by simp [Stored.asMat, matricizeGeneric, hv], ?_⟩
    simp only [Stored.asVec]
    refine List.ext_getElem? fun k => ?_
    rcases Nat.lt_or_ge k (r * c) with hk | hk
    · have hr : 0 < r := Nat.pos_of_ne_zero fun h => by subst h; simp at hk
      have hi : k % r < r := Nat.mod_lt _ hr
      have hj : k / r < c := Nat.div_lt_of_lt_mul hk
      have e : k = k % r + k / r * r := by rw [Nat.mul_comm]; exact (Nat.mod_add_div k r).symm
      have := vectorizeGeneric_entry (Matrix.of fun (i : Fin r) (j : Fin c) => v.getD (i.val + j.val * r) 0)
        ⟨k % r, hi⟩ ⟨k / r, hj⟩
      simp only [Matrix.of_apply] at this
      rw [← e] at this
      rw [this, List.getD_eq_getElem?_getD, List.getElem?_eq_getElem (by omega)]
      rfl
    · rw [List.getElem?_eq_none (by rw [vectorizeGeneric_length]; exact hk), List.getElem?_eq_none (by omega)]
  · simp [Stored.asMat, matricizeGeneric, hv]

example : (Stored.mat (!![1, 2; 3, 4] : Matrix (Fin 2) (Fin 2) ℝ)).asVec = [1, 3, 2, 4] := by
  simp [Stored.asVec, vectorizeGeneric, List.finRange_succ]

/-- C79. For a result in Voigt notation component `c` is the entry `(i, j)` of the symmetric tensor that Voigt notation puts
there, whichever is stored, and the tensor is symmetric if the vector is stored. -/
theorem storedVoigt_entry :
    (∀ A : Matrix (Fin 3) (Fin 3) ℝ, A.IsSymm → ∀ i j, (StoredVoigt.mat A).asVec (voigt3 i j) = A i j) ∧
    (∀ (v : Fin 6 → ℝ) (i j : Fin 3), (StoredVoigt.vec v).asMat i j = v (voigt3 i j)) ∧
    (∀ v : Fin 6 → ℝ, (StoredVoigt.mat (StoredVoigt.vec v).asMat).asVec = v) := by
  refine ⟨fun A hA i j => ?_, fun v i j => ?_, fun v => ?_⟩
  · have h10 := hA.apply 0 1
    have h20 := hA.apply 0 2
    have h21 := hA.apply 1 2
    fin_cases i <;> fin_cases j <;> simp [StoredVoigt.asVec, toVoigt3, voigt3, strainFactor, h10, h20, h21]
  · fin_cases i <;> fin_cases j <;> simp [StoredVoigt.asMat, fromVoigt3, voigt3, invStrainFactor]
  · exact ((toVoigt_fromVoigt (two_ne_zero) false).2.2 v).1

/-- C79. The registered result types have different names. -/
theorem registered_nodup (worldDim : Nat) : ((registered worldDim).map Prod.fst).Nodup := by
  simp [registered]

namespace Spec

/-- How many numbers a user finds in the vector of a result, by the physical kind of the quantity. -/
inductive Kind
  | symmetricTensor (dim : Nat)
  | vector (dim : Nat)
  | scalar

/-- The independent numbers of a quantity. -/
def Kind.numbers : Kind → Nat
  | .symmetricTensor dim => dim * (dim + 1) / 2
  | .vector dim => dim
  | .scalar => 1

/-- The kind of the quantities with a name in the library, in a world of dimension `w`; the full stresses are those of the
three-dimensional body whatever the world. -/
def kindOf (w : Nat) : String → Option Kind
  | "linearStress" | "PK2Stress" | "kirchhoffStress" | "cauchyStress" => some (.symmetricTensor w)
  | "linearStressFull" | "PK2StressFull" | "cauchyStressFull" => some (.symmetricTensor 3)
  | "director" | "magnetization" | "vectorPotential" | "BField" | "HField" => some (.vector w)
  | "gradientNormOfMagnetization" | "divergenceOfVectorPotential" | "cauchyAxialForce" | "PK2AxialForce"
  | "linearAxialForce" => some .scalar
  | _ => none

/-- The numbers in the vector of a result with a known size. -/
def sizeOf : Layout → Option Nat
  | .voigt dim => some (dim * (dim + 1) / 2)
  | .dense rows cols => some (rows * cols)
  | .dynamic => none

end Spec

/-- C79. A type with a given physical kind is registered, as many numbers are stored as the quantity has, and exactly the
symmetric tensors are in Voigt notation; the only other registered type has no fixed size. -/
theorem registered_layout (w : Nat) (name : String) :
    (∀ k, Spec.kindOf w name = some k → ∃ l, (registered w).lookup name = some l ∧ Spec.sizeOf l = some k.numbers ∧
      ((∃ dim, l = .voigt dim) ↔ ∃ dim, k = .symmetricTensor dim)) ∧
    (Spec.kindOf w name = none → ∀ l, (name, l) ∈ registered w → name = "customType" ∧ l = .dynamic) := by
  unfold Spec.kindOf
  split <;> refine ⟨fun k hk => ?_, fun h l hl => ?_⟩ <;>
    first
    | (obtain rfl := Option.some.inj hk
       simp [registered, Spec.sizeOf, Spec.Kind.numbers, List.lookup])
    | (simp only [reduceCtorEq] at h; done)
    | (simp only [reduceCtorEq] at hk; done)
    | (simp [registered] at hl
       simp_all)

example : (registered 2).lookup "PK2StressFull" = some (.voigt 3) ∧ (registered 2).lookup "BField" = some (.dense 2 1) := by
  decide

/-! ### Result functions -/

namespace Spec

/-- The value to be written for the element at position `k`: made by the user function from the result of its own finite
element. -/
def ownValue (calculateAt : Nat → List ℝ) (user : List ℝ → Nat → Nat → Option ℝ) (k comp : Nat) : Option ℝ :=
  user (calculateAt k) k comp

/-- The full claim: on every grid every element gets its own value. -/
def OwnElement : Prop :=
  ∀ (types : List Nat) (calculateAt : Nat → List ℝ) (user : List ℝ → Nat → Nat → Option ℝ) (k comp : Nat),
    k < types.length → evaluate types calculateAt user k comp = ownValue calculateAt user k comp

end Spec

theorem count_take_le (types : List Nat) (k t : Nat) : (types.take k).count t ≤ k :=
  List.count_le_length.trans (by rw [List.length_take]; exact Nat.min_le_left _ _)

/-- C79. The element that is evaluated is its own if, and only if, all elements before it have the same geometry type. -/
theorem elementIndex_iff (types : List Nat) (k : Nat) (hk : k < types.length) :
    elementIndex types k = k ↔ ∀ j, j < k → types[j]? = types[k]? := by
  rw [elementIndex, List.getElem?_eq_getElem hk]
  simp only
  have hl : (types.take k).length = k := by rw [List.length_take]; omega
  constructor
  · intro h j hj
    have h1 := List.count_eq_length.1 (h.trans hl.symm)
    have hj' : j < (types.take k).length := by omega
    have := h1 _ (List.getElem_mem hj')
    rw [List.getElem_take] at this
    rw [List.getElem?_eq_getElem (by omega), this]
  · intro h
    refine (List.count_eq_length.2 ?_).trans hl
    intro b hb
    obtain ⟨j, hj, rfl⟩ := List.mem_iff_getElem.1 hb
    rw [List.getElem_take]
    have := h j (by omega)
    rw [List.getElem?_eq_getElem (by omega)] at this
    exact (Option.some.inj this).symm

/-- C79, part that holds. On a grid with one geometry type every element gets its own value, for every result type, user function
and component. -/
theorem evaluate_own_partial (types : List Nat) (t : Nat) (ht : ∀ s ∈ types, s = t) (calculateAt : Nat → List ℝ)
    (user : List ℝ → Nat → Nat → Option ℝ) (k comp : Nat) (hk : k < types.length) :
    evaluate types calculateAt user k comp = Spec.ownValue calculateAt user k comp := by
  have hi : elementIndex types k = k := (elementIndex_iff types k hk).2 fun j hj => by
    rw [List.getElem?_eq_getElem (by omega), List.getElem?_eq_getElem hk, ht _ (List.getElem_mem _),
      ht _ (List.getElem_mem _)]
  simp only [evaluate, hi, List.getElem?_range hk, Option.bind_eq_bind, Option.bind_some, Spec.ownValue]

example : ∀ s ∈ [7, 7, 7], s = 7 := by decide

/-- C79. In any case no element outside the container is read. -/
theorem evaluate_inside (types : List Nat) (k : Nat) (hk : k < types.length) :
    ∃ fe < types.length, (List.range types.length)[elementIndex types k]? = some fe := by
  have : elementIndex types k < types.length := by
    rw [elementIndex, List.getElem?_eq_getElem hk]
    exact (count_take_le types k _).trans_lt hk
  exact ⟨elementIndex types k, this, List.getElem?_range this⟩

/-- C79. The full claim is false: on a grid with a triangle and a quadrilateral the quadrilateral gets the value of the
triangle. -/
theorem ownElement_false : ¬ Spec.OwnElement := by
  intro h
  have := h [3, 4] (fun fe => [(fe : ℝ)]) defaultUserFunction 1 0 (by decide)
  simp [evaluate, elementIndex, Spec.ownValue, defaultUserFunction] at this

/-- C79. With the default user function and results of one size, the components are those of the result, and there are as many
as announced. -/
theorem evaluate_components (types : List Nat) (t : Nat) (ht : ∀ s ∈ types, s = t) (calculateAt : Nat → List ℝ) (n : Nat)
    (hn : ∀ fe < types.length, (calculateAt fe).length = n) (hne : types ≠ []) :
    ncomps types calculateAt = some n ∧ ∀ k < types.length, ∀ comp,
      evaluate types calculateAt defaultUserFunction k comp = (calculateAt k)[comp]? ∧
      ((calculateAt k)[comp]?.isSome ↔ comp < n) := by
  have h0 : 0 < types.length := List.length_pos_iff.2 hne
  refine ⟨by simp [ncomps, List.getElem?_range h0, hn 0 h0], fun k hk comp => ⟨?_, ?_⟩⟩
  · rw [evaluate_own_partial types t ht _ _ _ _ hk]; rfl
  · rw [← hn k hk]; simp

/-! ### The writer -/

namespace Spec

/-- Whether the data is to be written for the cells. -/
def atCells : DataTag → Bool
  | .asCellData => true
  | .asPointData => false
  | .asCellAndPointData => true

/-- Whether the data is to be written for the points. -/
def atPoints : DataTag → Bool
  | .asCellData => false
  | .asPointData => true
  | .asCellAndPointData => true

/-- `w'` is `w` with the functions `fs` added exactly at the places the tag names. -/
def Added {F : Type} (w w' : Writer F) (fs : List F) (tag : DataTag) : Prop :=
  w'.cell = w.cell ++ (if atCells tag then fs.map some else []) ∧
  w'.point = w.point ++ (if atPoints tag then fs.map some else [])

/-- The full claim for the result functions of the writer. -/
def ResultsAdded : Prop :=
  ∀ (F : Type) (consumes : Bool) (w : Writer F) (f : F) (tag : DataTag), Added w (w.addResult consumes f tag) [f] tag

/-- The full claim for the interpolation of the Python module. -/
def PyInterpolationAdded : Prop :=
  ∀ (F : Type) (w : Writer F) (f : F) (tag : DataTag), Added w (w.pyAddInterpolation f tag) [f] tag

end Spec

variable {F : Type}

/-- C79. `addInterpolation` adds the data exactly at the places the tag names. -/
theorem addInterpolation_places (consumes : Bool) (w : Writer F) (f : F) (tag : DataTag) :
    Spec.Added w (w.addInterpolation consumes f tag) [f] tag := by
  cases tag <;> simp [Spec.Added, Writer.addInterpolation, Writer.addCellData, Writer.addPointData, Spec.atCells, Spec.atPoints]

/-- C79. `addResultFunction` adds a function passed as an lvalue exactly at the places the tag names. -/
theorem addResultFunction_lvalue (consumes : Bool) (w : Writer F) (f : F) (tag : DataTag) :
    Spec.Added w (w.addResultFunction consumes ⟨false, some f⟩ tag) [f] tag := by
  cases tag <;> simp [Spec.Added, Writer.addResultFunction, Writer.addCellData, Writer.addPointData, Spec.atCells, Spec.atPoints]

/-- C79, part that holds. `addResult` adds the result exactly at the places the tag names if it names one place, or if the base
class does not move from rvalues. -/
theorem addResult_places_partial (consumes : Bool) (w : Writer F) (f : F) (tag : DataTag)
    (h : tag ≠ .asCellAndPointData ∨ consumes = false) : Spec.Added w (w.addResult consumes f tag) [f] tag := by
  cases tag <;> cases consumes <;>
    simp_all [Spec.Added, Writer.addResult, Writer.addResultFunction, Writer.addCellData, Writer.addPointData, Spec.atCells,
      Spec.atPoints]

/-- C79. Otherwise the point data gets a function that was moved from. -/
theorem addResult_moved (w : Writer F) (f : F) :
    (w.addResult true f .asCellAndPointData).point = w.point ++ [none] := by
  simp [Writer.addResult, Writer.addResultFunction, Writer.addCellData, Writer.addPointData]

/-- C79. So the full claim is false. -/
theorem resultsAdded_false : ¬ Spec.ResultsAdded := by
  intro h
  have := (h Unit true ⟨[], []⟩ () .asCellAndPointData).2
  rw [addResult_moved] at this
  simp [Spec.atPoints] at this

/-- C79. `addAllResults` adds every supported result once, in their order. -/
theorem addAllResults_places_partial (consumes : Bool) (w : Writer F) (supported : List F) (tag : DataTag)
    (h : tag ≠ .asCellAndPointData ∨ consumes = false) :
    Spec.Added w (w.addAllResults consumes supported tag) supported tag := by
  unfold Writer.addAllResults
  induction supported generalizing w with
  | nil => simp [Spec.Added]
  | cons f fs ih =>
    obtain ⟨a, b⟩ := addResult_places_partial consumes w f tag h
    obtain ⟨c, d⟩ := ih (w.addResult consumes f tag)
    rw [List.foldl_cons]
    refine ⟨by rw [c, a]; split <;> simp, by rw [d, b]; split <;> simp⟩

/-- C79. The interpolation of the Python module ignores the tag: the data is always added for points and for cells. -/
theorem pyAddInterpolation_ignores (w : Writer F) (f : F) (tag : DataTag) :
    (w.pyAddInterpolation f tag).cell = w.cell ++ [some f] ∧ (w.pyAddInterpolation f tag).point = w.point ++ [some f] := by
  simp [Writer.pyAddInterpolation, truthy]

/-- C79. So the full claim is false of the Python module. -/
theorem pyInterpolationAdded_false : ¬ Spec.PyInterpolationAdded := by
  intro h
  have := (h Unit ⟨[], []⟩ () .asPointData).1
  rw [(pyAddInterpolation_ignores _ _ _).1] at this
  simp [Spec.atCells] at this

theorem pyAddResult_fold (consumes : Bool) (resType : String) (tag : DataTag) (supported : List String)
    (hnd : supported.Nodup) (w : Writer String) (b : Bool) :
    supported.foldl (fun (s : Writer String × Bool) rt =>
      if resType = rt then (s.1.addResult consumes rt tag, true) else s) (w, b) =
    if resType ∈ supported then (w.addResult consumes resType tag, true) else (w, b) := by
  induction supported generalizing w b with
  | nil => simp
  | cons rt l ih =>
    rw [List.nodup_cons] at hnd
    rw [List.foldl_cons]
    by_cases h : resType = rt
    · subst h
      rw [if_pos rfl, ih hnd.2, if_neg hnd.1, if_pos List.mem_cons_self]
    · rw [if_neg h, ih hnd.2]
      simp [h]

/-- C79. Adding a result by its name in Python adds that result once if the element supports it, and is refused otherwise. -/
theorem pyAddResult_spec (consumes : Bool) (w : Writer String) (supported : List String) (hnd : supported.Nodup)
    (resType : String) (tag : DataTag) :
    w.pyAddResult consumes supported resType tag =
      if resType ∈ supported then some (w.addResult consumes resType tag) else none := by
  unfold Writer.pyAddResult
  rw [pyAddResult_fold consumes resType tag supported hnd]
  by_cases h : resType ∈ supported <;> simp [h]

/-- C79. Asking for a result by its name in Python gives the result of that type, and an exception exactly if the element does
not support it. -/
theorem pyCalculateAt_spec (supported : List String) (calculateAt : String → List ℝ) (resType : String) :
    pyCalculateAt supported calculateAt resType = if resType ∈ supported then some (calculateAt resType) else none := by
  have : ∀ (l : List String) (r : Option (List ℝ)),
      l.foldl (fun result rt => if resType = rt then some (calculateAt rt) else result) r =
      if resType ∈ l then some (calculateAt resType) else r := by
    intro l
    induction l with
    | nil => simp
    | cons rt l ih =>
      intro r
      rw [List.foldl_cons, ih]
      by_cases h1 : resType ∈ l
      · simp [h1]
      · by_cases h2 : resType = rt
        · subst h2; simp [h1]
        · simp [h1, h2]
  exact this supported none

example : ["linearStress", "linearStressFull"].Nodup := by decide

/-- In a grid of triangles (`3`) and quadrilaterals (`4`) the third cell is looked up as the second element, which exists. -/
example : elementIndex [3, 4, 3, 3] 2 ≠ 2 ∧ ∃ fe < 4, (List.range 4)[elementIndex [3, 4, 3, 3] 2]? = some fe :=
  ⟨fun h => absurd ((elementIndex_iff [3, 4, 3, 3] 2 (by decide)).1 h 1 (by decide)) (by decide),
    evaluate_inside [3, 4, 3, 3] 2 (by decide)⟩

/-- Three quadrilaterals with two components each. -/
example : ncomps [4, 4, 4] (fun fe => [(fe : ℝ), 7]) = some 2 ∧
    evaluate [4, 4, 4] (fun fe => [(fe : ℝ), 7]) defaultUserFunction 1 0 = some 1 := by
  have h := evaluate_components [4, 4, 4] 4 (by decide) (fun fe => [(fe : ℝ), 7]) 2 (by simp) (by simp)
  refine ⟨h.1, ?_⟩
  rw [(h.2 1 (by decide) 0).1]
  simp

/-- Cell data of a writer that takes its function over. -/
example (w : Writer Nat) : Spec.Added w (w.addResult true 3 .asCellData) [3] .asCellData ∧
    Spec.Added w (w.addAllResults true [3, 5] .asPointData) [3, 5] .asPointData :=
  ⟨addResult_places_partial true w 3 .asCellData (.inl (by decide)),
    addAllResults_places_partial true w [3, 5] .asPointData (.inl (by decide))⟩

/-- A result the elements do not know is refused from Python. -/
example (w : Writer String) : w.pyAddResult true ["linearStress", "linearStressFull"] "PK2Stress" .asCellData = none := by
  rw [pyAddResult_spec true w _ (by decide)]
  exact if_neg (by decide)

end Ikarus.Output
