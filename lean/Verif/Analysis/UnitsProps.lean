import Verif.FE.UnitsProps
import Verif.Analysis.TurnPathProps

/-!
C117, assembled quantities: what the assembler returns for elements in other units.
-/

namespace Ikarus

open Matrix Element Element.Spec

variable {a c : ℝ}

/-! ### Specification -/

/-- An element in two systems of units, with the load factor of the requirement. -/
structure Spec.UnitTwin (a c : ℝ) where
  n : Nat
  d : Nat
  children : List FETree
  index : List Nat
  skills : List (ℝ → Skill n d)
  skills' : List (ℝ → Skill n d)
  scaled : List.Forall₂ (fun s s' => ∀ l, Spec.ScaledSkill a c (s l) (s' l)) skills skills'

/-- The element in the old units. -/
def Spec.UnitTwin.first (t : Spec.UnitTwin a c) : ParamElem := ⟨t.n, t.d, t.children, t.index, t.skills⟩

/-- The element in the new units. -/
def Spec.UnitTwin.second (t : Spec.UnitTwin a c) : ParamElem := ⟨t.n, t.d, t.children, t.index, t.skills'⟩

/-- The matrix in other units. -/
def Spec.scaledMatrix (k : ℝ) (A : DMat ℝ) : DMat ℝ := ⟨A.rows, A.cols, fun i j => k * A.val i j⟩

/-- The vector in other units. -/
def Spec.scaledList (k : ℝ) (x : List ℝ) : List ℝ := x.map (k * ·)

/-- The system `B` is the system `A` in other units, for all displacements: one has a value if the other has one, and energies are
multiplied by `a * c`, forces by `c`, stiffnesses by `c / a`. -/
structure Spec.ScaledSystem (a c : ℝ) (A B : System) : Prop where
  scalar : ∀ x, B.scalar? (Spec.scaledList a x) = (A.scalar? x).map (a * c * ·)
  rawVector : ∀ x, B.rawVector? (Spec.scaledList a x) = (A.rawVector? x).map (Spec.scaledList c)
  reducedVector : ∀ x, B.reducedVector? (Spec.scaledList a x) = (A.reducedVector? x).map (Spec.scaledList c)
  fullVector : ∀ x, B.fullVector? (Spec.scaledList a x) = (A.fullVector? x).map (Spec.scaledList c)
  rawMatrix : ∀ x, B.rawMatrix? (Spec.scaledList a x) = (A.rawMatrix? x).map (Spec.scaledMatrix (c / a))
  reducedMatrix : ∀ x, B.reducedMatrix? (Spec.scaledList a x) = (A.reducedMatrix? x).map (Spec.scaledMatrix (c / a))

/-! ### Lemmas -/

theorem mapOpt_scale {α β γ : Type*} (f : α → Option β) (f' : α → Option γ) (g : β → γ) (l : List α)
    (h : ∀ x ∈ l, f' x = (f x).map g) : mapOpt f' l = (mapOpt f l).map (List.map g) := by
  induction l with
  | nil => rfl
  | cons x l ih =>
    show (f' x).bind _ = ((f x).bind _).map _
    rw [h x List.mem_cons_self, ih fun y hy => h y (List.mem_cons_of_mem _ hy)]
    cases f x with
    | none => rfl
    | some y =>
      show ((mapOpt f l).map _).map _ = ((mapOpt f l).map _).map _
      cases mapOpt f l <;> rfl

theorem scaledList_get (k : ℝ) (x : List ℝ) (i : Nat) : (Spec.scaledList k x)[i]? = x[i]?.map (k * ·) := List.getElem?_map

theorem scaledList_getD (k : ℝ) (x : List ℝ) (i : Nat) : (Spec.scaledList k x).getD i 0 = k * x.getD i 0 := by
  rw [List.getD_eq_getElem?_getD, scaledList_get, List.getD_eq_getElem?_getD]
  cases x[i]? with
  | none => exact (mul_zero k).symm
  | some _ => rfl

theorem local_scale (e : Elem) (a : ℝ) (x : List ℝ) : e.local? (Spec.scaledList a x) = (e.local? x).map (a • ·) := by
  unfold Elem.local? FETree.localSolution
  dsimp only
  cases (FETree.power e.children).nodeSize? with
  | none => rfl
  | some n =>
    simp only [Option.bind_some]
    rw [mapOpt_scale (fun i => mapOpt (fun j => (FETree.nodeIndex? e.index (.power e.children) i j).bind fun k => x[k]?)
      (List.range e.d)) _ (List.map (a * ·)) _ fun i _ => ?_]
    · rw [Option.map_map, Option.map_map]
      congr 1
      funext X
      funext I j
      show (((X.map (List.map (a * ·))).getD I []).getD j 0) = a * (X.getD I []).getD j 0
      rw [List.getD_eq_getElem?_getD (l := X.map (List.map (a * ·))), List.getElem?_map, List.getD_eq_getElem?_getD (l := X)]
      cases X[(I : Nat)]? with
      | none => simp
      | some y => exact scaledList_getD a y j
    · refine mapOpt_scale _ _ _ _ fun j _ => ?_
      cases FETree.nodeIndex? e.index (.power e.children) i j with
      | none => rfl
      | some k => exact scaledList_get a x k

theorem flat_scale {n d : Nat} (c : ℝ) (f : NodeVec n d) : Elem.flat (c • f) = Spec.scaledList c (Elem.flat f) := by
  unfold Elem.flat Spec.scaledList
  rw [List.map_ofFn]
  rfl

theorem flatMat_scale {n d : Nat} (k : ℝ) (K : BlockMat n d) : Elem.flatMat (k • K) = Spec.scaledMatrix k (Elem.flatMat K) := by
  unfold Elem.flatMat Spec.scaledMatrix
  congr 1
  funext i j
  by_cases h : i < n * d ∧ j < n * d
  · simp only [dif_pos h]
    rfl
  · simp only [dif_neg h, mul_zero]

section
variable {n d : Nat} (ch : List FETree) (ix : List Nat) {ss ss' : List (Skill n d)} (h : List.Forall₂ (Spec.ScaledSkill a c) ss ss')
  (x : List ℝ)
include h

theorem elem_scalar_scale : (Elem.mk n d ch ix ss').scalar? (Spec.scaledList a x) =
    ((Elem.mk n d ch ix ss).scalar? x).map (a * c * ·) := by
  show ((Elem.mk n d ch ix ss').local? _).bind _ = (((Elem.mk n d ch ix ss).local? x).bind _).map _
  rw [local_scale]
  have hl : (Elem.mk n d ch ix ss').local? x = (Elem.mk n d ch ix ss).local? x := rfl
  rw [hl]
  cases (Elem.mk n d ch ix ss).local? x with
  | none => rfl
  | some u => exact (mixin_scale h).scalar u

theorem elem_vector_scale : (Elem.mk n d ch ix ss').vector? (Spec.scaledList a x) =
    ((Elem.mk n d ch ix ss).vector? x).map fun e => ⟨e.dofs, Spec.scaledList c e.vec⟩ := by
  show (Elem.mk n d ch ix ss).dofs?.bind _ = ((Elem.mk n d ch ix ss).dofs?.bind _).map _
  cases (Elem.mk n d ch ix ss).dofs? with
  | none => rfl
  | some dofs =>
    show ((Elem.mk n d ch ix ss').local? _).bind _ = (((Elem.mk n d ch ix ss).local? x).bind _).map _
    rw [local_scale]
    have hl : (Elem.mk n d ch ix ss').local? x = (Elem.mk n d ch ix ss).local? x := rfl
    rw [hl]
    cases (Elem.mk n d ch ix ss).local? x with
    | none => rfl
    | some u =>
      have hh := (mixin_scale h).vector u 0
      rw [smul_zero] at hh
      refine (congrArg (Option.map fun f => VecElem.mk dofs (Elem.flat f)) hh).trans ?_
      show _ = (((Mixin.together ss).vector u 0).map _).map _
      rw [Option.map_map, Option.map_map]
      congr 1
      funext f
      exact congrArg (VecElem.mk dofs) (flat_scale c f)

theorem elem_matrix_scale : (Elem.mk n d ch ix ss').matrix? (Spec.scaledList a x) =
    ((Elem.mk n d ch ix ss).matrix? x).map fun e => ⟨e.dofs, Spec.scaledMatrix (c / a) e.mat⟩ := by
  show (Elem.mk n d ch ix ss).dofs?.bind _ = ((Elem.mk n d ch ix ss).dofs?.bind _).map _
  cases (Elem.mk n d ch ix ss).dofs? with
  | none => rfl
  | some dofs =>
    show ((Elem.mk n d ch ix ss').local? _).bind _ = (((Elem.mk n d ch ix ss).local? x).bind _).map _
    rw [local_scale]
    have hl : (Elem.mk n d ch ix ss').local? x = (Elem.mk n d ch ix ss).local? x := rfl
    rw [hl]
    cases (Elem.mk n d ch ix ss).local? x with
    | none => rfl
    | some u =>
      have hh := (mixin_scale h).matrix u 0
      rw [smul_zero] at hh
      refine (congrArg (Option.map fun f => MatElem.mk dofs (Elem.flatMat f)) hh).trans ?_
      show _ = (((Mixin.together ss).matrix u 0).map _).map _
      rw [Option.map_map, Option.map_map]
      congr 1
      funext f
      exact congrArg (MatElem.mk dofs) (flatMat_scale _ f)

end

theorem twin_skills (t : Spec.UnitTwin a c) (l : ℝ) :
    List.Forall₂ (Spec.ScaledSkill a c) (t.skills.map (· l)) (t.skills'.map (· l)) := by
  rw [List.forall₂_map_left_iff, List.forall₂_map_right_iff]
  exact t.scaled.imp fun _ _ h => h l

theorem elem_scalar (t : Spec.UnitTwin a c) (l : ℝ) (x : List ℝ) :
    (t.second.at l).scalar? (Spec.scaledList a x) = ((t.first.at l).scalar? x).map (a * c * ·) :=
  elem_scalar_scale t.children t.index (twin_skills t l) x

theorem elem_vector (t : Spec.UnitTwin a c) (l : ℝ) (x : List ℝ) : (t.second.at l).vector? (Spec.scaledList a x) =
    ((t.first.at l).vector? x).map fun e => ⟨e.dofs, Spec.scaledList c e.vec⟩ :=
  elem_vector_scale t.children t.index (twin_skills t l) x

theorem elem_matrix (t : Spec.UnitTwin a c) (l : ℝ) (x : List ℝ) : (t.second.at l).matrix? (Spec.scaledList a x) =
    ((t.first.at l).matrix? x).map fun e => ⟨e.dofs, Spec.scaledMatrix (c / a) e.mat⟩ :=
  elem_matrix_scale t.children t.index (twin_skills t l) x

theorem addAt_scale (k : ℝ) (v : List ℝ) (i : Nat) (x : ℝ) :
    addAt? (Spec.scaledList k v) i (k * x) = (addAt? v i x).map (Spec.scaledList k) := by
  unfold addAt?
  rw [scaledList_get]
  cases v[i]? with
  | none => rfl
  | some y =>
    refine congrArg some ?_
    unfold Spec.scaledList
    rw [List.map_set, mul_add]

theorem addAt_scaledMatrix (k : ℝ) (A : DMat ℝ) (r s : Nat) (x : ℝ) :
    (Spec.scaledMatrix k A).addAt? r s (k * x) = (A.addAt? r s x).map (Spec.scaledMatrix k) := by
  unfold DMat.addAt?
  by_cases h : r < A.rows ∧ s < A.cols
  · rw [if_pos h, if_pos (show r < (Spec.scaledMatrix k A).rows ∧ s < (Spec.scaledMatrix k A).cols from h)]
    refine congrArg some ?_
    unfold DMat.upd Spec.scaledMatrix
    congr 1
    funext i j
    dsimp only
    split
    · rw [mul_add]
    · rfl
  · rw [if_neg h, if_neg (show ¬ (r < (Spec.scaledMatrix k A).rows ∧ s < (Spec.scaledMatrix k A).cols) from h)]
    rfl

theorem get_scaledMatrix (k : ℝ) (A : DMat ℝ) (r s : Nat) : (Spec.scaledMatrix k A).get? r s = (A.get? r s).map (k * ·) := by
  unfold DMat.get?
  by_cases h : r < A.rows ∧ s < A.cols
  · rw [if_pos h, if_pos (show r < (Spec.scaledMatrix k A).rows ∧ s < (Spec.scaledMatrix k A).cols from h)]
    rfl
  · rw [if_neg h, if_neg (show ¬ (r < (Spec.scaledMatrix k A).rows ∧ s < (Spec.scaledMatrix k A).cols) from h)]
    rfl

namespace Assembler

variable (k : ℝ) (A : Assembler)

theorem getScalarLoop_scale (l : List ℝ) (x : ℝ) : getScalarLoop (l.map (k * ·)) (k * x) = k * getScalarLoop l x := by
  induction l generalizing x with
  | nil => rfl
  | cons y l ih =>
    show getScalarLoop (l.map (k * ·)) (k * x + k * y) = k * getScalarLoop l (x + y)
    rw [← mul_add, ih]

theorem rawVectorInner_scale (loc : List ℝ) (ds : List Nat) (i : Nat) (v : List ℝ) :
    rawVectorInner (Spec.scaledList k loc) ds i (Spec.scaledList k v) = (rawVectorInner loc ds i v).map (Spec.scaledList k) := by
  induction ds generalizing i v with
  | nil => rfl
  | cons d ds ih =>
    unfold rawVectorInner
    rw [scaledList_get]
    cases loc[i]? with
    | none => rfl
    | some x =>
      show (addAt? (Spec.scaledList k v) d (k * x)).bind _ = ((addAt? v d x).bind _).map _
      rw [addAt_scale]
      cases addAt? v d x with
      | none => rfl
      | some w => exact ih (i + 1) w

theorem rawVectorOuter_scale (es : List (VecElem ℝ)) (v : List ℝ) :
    rawVectorOuter (es.map fun e => ⟨e.dofs, Spec.scaledList k e.vec⟩) (Spec.scaledList k v) =
      (rawVectorOuter es v).map (Spec.scaledList k) := by
  induction es generalizing v with
  | nil => rfl
  | cons e es ih =>
    show (rawVectorInner (Spec.scaledList k e.vec) e.dofs 0 (Spec.scaledList k v)).bind _ = ((rawVectorInner e.vec e.dofs 0 v).bind _).map _
    rw [rawVectorInner_scale]
    cases rawVectorInner e.vec e.dofs 0 v with
    | none => rfl
    | some w => exact ih w

theorem scaled_zeros (m : Nat) : Spec.scaledList k (List.replicate m 0) = List.replicate m 0 := by
  unfold Spec.scaledList
  rw [List.map_replicate, mul_zero]

theorem getRawVector_scale (es : List (VecElem ℝ)) :
    A.getRawVector? (es.map fun e => ⟨e.dofs, Spec.scaledList k e.vec⟩) = (A.getRawVector? es).map (Spec.scaledList k) := by
  unfold getRawVector?
  rw [← rawVectorOuter_scale, scaled_zeros]

theorem forConstrained_scale (m i : Nat) (v : List ℝ) :
    forConstrained A (fun v i => setAt? v i 0) m i (Spec.scaledList k v) =
      (forConstrained A (fun v i => setAt? v i 0) m i v).map (Spec.scaledList k) := by
  induction m generalizing i v with
  | zero => rfl
  | succ m ih =>
    unfold forConstrained
    cases A.isConstrained? i with
    | none => rfl
    | some b =>
      cases b with
      | false => exact ih (i + 1) v
      | true =>
        show (setAt? (Spec.scaledList k v) i 0).bind _ = ((setAt? v i 0).bind _).map _
        have h : setAt? (Spec.scaledList k v) i 0 = (setAt? v i 0).map (Spec.scaledList k) := by
          unfold setAt? Spec.scaledList
          rw [List.length_map]
          split
          · refine congrArg some ?_
            beta_reduce
            rw [List.map_set, mul_zero]
          · rfl
        rw [h]
        cases setAt? v i 0 with
        | none => rfl
        | some w => exact ih (i + 1) w

theorem getVector_scale (es : List (VecElem ℝ)) :
    A.getVector? (es.map fun e => ⟨e.dofs, Spec.scaledList k e.vec⟩) = (A.getVector? es).map (Spec.scaledList k) := by
  unfold getVector?
  rw [getRawVector_scale]
  cases A.getRawVector? es with
  | none => rfl
  | some v => exact forConstrained_scale k A _ _ v

theorem reducedVectorInner_scale (loc : List ℝ) (ds : List Nat) (i : Nat) (v : List ℝ) :
    reducedVectorInner A (Spec.scaledList k loc) ds i (Spec.scaledList k v) =
      (reducedVectorInner A loc ds i v).map (Spec.scaledList k) := by
  induction ds generalizing i v with
  | nil => rfl
  | cons d ds ih =>
    unfold reducedVectorInner
    cases A.isConstrained? d with
    | none => rfl
    | some b =>
      cases b with
      | true => exact ih (i + 1) v
      | false =>
        show (A.reducedIndex? d).bind _ = ((A.reducedIndex? d).bind _).map _
        cases A.reducedIndex? d with
        | none => rfl
        | some r =>
          show ((Spec.scaledList k loc)[i]?).bind _ = ((loc[i]?).bind _).map _
          rw [scaledList_get]
          cases loc[i]? with
          | none => rfl
          | some x =>
            show (addAt? (Spec.scaledList k v) r (k * x)).bind _ = ((addAt? v r x).bind _).map _
            rw [addAt_scale]
            cases addAt? v r x with
            | none => rfl
            | some w => exact ih (i + 1) w

theorem reducedVectorOuter_scale (es : List (VecElem ℝ)) (v : List ℝ) :
    reducedVectorOuter A (es.map fun e => ⟨e.dofs, Spec.scaledList k e.vec⟩) (Spec.scaledList k v) =
      (reducedVectorOuter A es v).map (Spec.scaledList k) := by
  induction es generalizing v with
  | nil => rfl
  | cons e es ih =>
    show (reducedVectorInner A (Spec.scaledList k e.vec) e.dofs 0 (Spec.scaledList k v)).bind _ =
      ((reducedVectorInner A e.vec e.dofs 0 v).bind _).map _
    rw [reducedVectorInner_scale]
    cases reducedVectorInner A e.vec e.dofs 0 v with
    | none => rfl
    | some w => exact ih w

theorem getReducedVector_scale (es : List (VecElem ℝ)) :
    A.getReducedVector? (es.map fun e => ⟨e.dofs, Spec.scaledList k e.vec⟩) = (A.getReducedVector? es).map (Spec.scaledList k) := by
  unfold getReducedVector?
  cases A.reducedSize? with
  | none => rfl
  | some m =>
    show reducedVectorOuter A _ (List.replicate m 0) = (reducedVectorOuter A es (List.replicate m 0)).map _
    rw [← reducedVectorOuter_scale, scaled_zeros]

theorem rawMatrixCols_scale (loc : DMat ℝ) (i r : Nat) (cs : List Nat) (j : Nat) (M : DMat ℝ) :
    rawMatrixCols (Spec.scaledMatrix k loc) i r cs j (Spec.scaledMatrix k M) = (rawMatrixCols loc i r cs j M).map (Spec.scaledMatrix k) := by
  induction cs generalizing j M with
  | nil => rfl
  | cons s cs ih =>
    unfold rawMatrixCols
    rw [get_scaledMatrix]
    cases loc.get? i j with
    | none => rfl
    | some x =>
      show ((Spec.scaledMatrix k M).addAt? r s (k * x)).bind _ = ((M.addAt? r s x).bind _).map _
      rw [addAt_scaledMatrix]
      cases M.addAt? r s x with
      | none => rfl
      | some N => exact ih (j + 1) N

theorem rawMatrixRows_scale (loc : DMat ℝ) (dofs rs : List Nat) (i : Nat) (M : DMat ℝ) :
    rawMatrixRows (Spec.scaledMatrix k loc) dofs rs i (Spec.scaledMatrix k M) =
      (rawMatrixRows loc dofs rs i M).map (Spec.scaledMatrix k) := by
  induction rs generalizing i M with
  | nil => rfl
  | cons r rs ih =>
    unfold rawMatrixRows
    rw [rawMatrixCols_scale]
    cases rawMatrixCols loc i r dofs 0 M with
    | none => rfl
    | some N => exact ih (i + 1) N

theorem rawMatrixOuter_scale (es : List (MatElem ℝ)) (M : DMat ℝ) :
    rawMatrixOuter (es.map fun e => ⟨e.dofs, Spec.scaledMatrix k e.mat⟩) (Spec.scaledMatrix k M) =
      (rawMatrixOuter es M).map (Spec.scaledMatrix k) := by
  induction es generalizing M with
  | nil => rfl
  | cons e es ih =>
    show (rawMatrixRows (Spec.scaledMatrix k e.mat) e.dofs e.dofs 0 (Spec.scaledMatrix k M)).bind _ =
      ((rawMatrixRows e.mat e.dofs e.dofs 0 M).bind _).map _
    rw [rawMatrixRows_scale]
    cases rawMatrixRows e.mat e.dofs e.dofs 0 M with
    | none => rfl
    | some N => exact ih N

theorem scaled_zeroMatrix (r s : Nat) : Spec.scaledMatrix k (DMat.zero r s) = DMat.zero r s := by
  unfold Spec.scaledMatrix DMat.zero
  congr 1
  funext i j
  exact mul_zero k

theorem getRawMatrix_scale (es : List (MatElem ℝ)) :
    A.getRawMatrix? (es.map fun e => ⟨e.dofs, Spec.scaledMatrix k e.mat⟩) = (A.getRawMatrix? es).map (Spec.scaledMatrix k) := by
  unfold getRawMatrix?
  rw [← rawMatrixOuter_scale, scaled_zeroMatrix]

theorem reducedMatrixCols_scale (loc : DMat ℝ) (r dr : Nat) (ds : List Nat) (j : Nat) (M : DMat ℝ) :
    reducedMatrixCols A (Spec.scaledMatrix k loc) r dr ds j (Spec.scaledMatrix k M) =
      (reducedMatrixCols A loc r dr ds j M).map (Spec.scaledMatrix k) := by
  induction ds generalizing j M with
  | nil => rfl
  | cons d ds ih =>
    unfold reducedMatrixCols
    cases A.isConstrained? d with
    | none => rfl
    | some b =>
      cases b with
      | true => exact ih (j + 1) M
      | false =>
        show (A.reducedIndex? dr).bind _ = ((A.reducedIndex? dr).bind _).map _
        cases A.reducedIndex? dr with
        | none => rfl
        | some kr =>
          show (A.reducedIndex? d).bind _ = ((A.reducedIndex? d).bind _).map _
          cases A.reducedIndex? d with
          | none => rfl
          | some kc =>
            show ((Spec.scaledMatrix k loc).get? r j).bind _ = ((loc.get? r j).bind _).map _
            rw [get_scaledMatrix]
            cases loc.get? r j with
            | none => rfl
            | some x =>
              show ((Spec.scaledMatrix k M).addAt? kr kc (k * x)).bind _ = ((M.addAt? kr kc x).bind _).map _
              rw [addAt_scaledMatrix]
              cases M.addAt? kr kc x with
              | none => rfl
              | some N => exact ih (j + 1) N

theorem reducedMatrixRows_scale (loc : DMat ℝ) (dofs rs : List Nat) (i : Nat) (M : DMat ℝ) :
    reducedMatrixRows A (Spec.scaledMatrix k loc) dofs rs i (Spec.scaledMatrix k M) =
      (reducedMatrixRows A loc dofs rs i M).map (Spec.scaledMatrix k) := by
  induction rs generalizing i M with
  | nil => rfl
  | cons r rs ih =>
    unfold reducedMatrixRows
    cases A.isConstrained? r with
    | none => rfl
    | some b =>
      cases b with
      | true => exact ih (i + 1) M
      | false =>
        show (reducedMatrixCols A _ i r dofs 0 _).bind _ = ((reducedMatrixCols A loc i r dofs 0 M).bind _).map _
        rw [reducedMatrixCols_scale]
        cases reducedMatrixCols A loc i r dofs 0 M with
        | none => rfl
        | some N => exact ih (i + 1) N

theorem reducedMatrixOuter_scale (es : List (MatElem ℝ)) (M : DMat ℝ) :
    reducedMatrixOuter A (es.map fun e => ⟨e.dofs, Spec.scaledMatrix k e.mat⟩) (Spec.scaledMatrix k M) =
      (reducedMatrixOuter A es M).map (Spec.scaledMatrix k) := by
  induction es generalizing M with
  | nil => rfl
  | cons e es ih =>
    show (reducedMatrixRows A (Spec.scaledMatrix k e.mat) e.dofs e.dofs 0 (Spec.scaledMatrix k M)).bind _ =
      ((reducedMatrixRows A e.mat e.dofs e.dofs 0 M).bind _).map _
    rw [reducedMatrixRows_scale]
    cases reducedMatrixRows A e.mat e.dofs e.dofs 0 M with
    | none => rfl
    | some N => exact ih N

theorem getReducedMatrix_scale (es : List (MatElem ℝ)) :
    A.getReducedMatrix? (es.map fun e => ⟨e.dofs, Spec.scaledMatrix k e.mat⟩) = (A.getReducedMatrix? es).map (Spec.scaledMatrix k) := by
  unfold getReducedMatrix?
  cases A.reducedSize? with
  | none => rfl
  | some m =>
    show reducedMatrixOuter A _ (DMat.zero m m) = (reducedMatrixOuter A es (DMat.zero m m)).map _
    rw [← reducedMatrixOuter_scale, scaled_zeroMatrix]

end Assembler

/-! ### Property -/

theorem mapOpt_comp {α β γ : Type*} (f : β → Option γ) (g : α → β) (l : List α) : mapOpt f (l.map g) = mapOpt (fun x => f (g x)) l := by
  induction l with
  | nil => rfl
  | cons x l ih =>
    show (f (g x)).bind _ = (f (g x)).bind _
    rw [ih]

/-- C117, assembled quantities. Energy, forces and stiffness matrix of elements in other units are those in other units, for every
constraint and every state, also where there is no value. -/
theorem assembled_units (flags : List Bool) (ts : List (Spec.UnitTwin a c)) (l : ℝ) :
    Spec.ScaledSystem a c ⟨flags, (ts.map Spec.UnitTwin.first).map (·.at l)⟩ ⟨flags, (ts.map Spec.UnitTwin.second).map (·.at l)⟩ := by
  have hv : ∀ x, mapOpt (·.vector? (Spec.scaledList a x)) ((ts.map Spec.UnitTwin.second).map (·.at l)) =
      (mapOpt (·.vector? x) ((ts.map Spec.UnitTwin.first).map (·.at l))).map (List.map fun e => ⟨e.dofs, Spec.scaledList c e.vec⟩) := by
    intro x
    rw [List.map_map, List.map_map, mapOpt_comp, mapOpt_comp]
    exact mapOpt_scale _ _ _ _ fun t _ => elem_vector t l x
  have hm : ∀ x, mapOpt (·.matrix? (Spec.scaledList a x)) ((ts.map Spec.UnitTwin.second).map (·.at l)) =
      (mapOpt (·.matrix? x) ((ts.map Spec.UnitTwin.first).map (·.at l))).map
        (List.map fun e => ⟨e.dofs, Spec.scaledMatrix (c / a) e.mat⟩) := by
    intro x
    rw [List.map_map, List.map_map, mapOpt_comp, mapOpt_comp]
    exact mapOpt_scale _ _ _ _ fun t _ => elem_matrix t l x
  refine ⟨fun x => ?_, fun x => ?_, fun x => ?_, fun x => ?_, fun x => ?_, fun x => ?_⟩
  · have hs : mapOpt (·.scalar? (Spec.scaledList a x)) ((ts.map Spec.UnitTwin.second).map (·.at l)) =
        (mapOpt (·.scalar? x) ((ts.map Spec.UnitTwin.first).map (·.at l))).map (List.map (a * c * ·)) := by
      rw [List.map_map, List.map_map, mapOpt_comp, mapOpt_comp]
      exact mapOpt_scale _ _ _ _ fun t _ => elem_scalar t l x
    unfold System.scalar?
    rw [hs, Option.map_map, Option.map_map]
    congr 1
    funext fes
    have h := Assembler.getScalarLoop_scale (a * c) fes 0
    rw [mul_zero] at h
    exact h
  · unfold System.rawVector?
    rw [hv]
    cases mapOpt (·.vector? x) ((ts.map Spec.UnitTwin.first).map (·.at l)) with
    | none => rfl
    | some es => exact Assembler.getRawVector_scale c _ es
  · unfold System.reducedVector?
    rw [hv]
    cases mapOpt (·.vector? x) ((ts.map Spec.UnitTwin.first).map (·.at l)) with
    | none => rfl
    | some es => exact Assembler.getReducedVector_scale c _ es
  · unfold System.fullVector?
    rw [hv]
    cases mapOpt (·.vector? x) ((ts.map Spec.UnitTwin.first).map (·.at l)) with
    | none => rfl
    | some es => exact Assembler.getVector_scale c _ es
  · unfold System.rawMatrix?
    rw [hm]
    cases mapOpt (·.matrix? x) ((ts.map Spec.UnitTwin.first).map (·.at l)) with
    | none => rfl
    | some es => exact Assembler.getRawMatrix_scale _ _ es
  · unfold System.reducedMatrix?
    rw [hm]
    cases mapOpt (·.matrix? x) ((ts.map Spec.UnitTwin.first).map (·.at l)) with
    | none => rfl
    | some es => exact Assembler.getReducedMatrix_scale _ _ es

/-! ### Solids -/

/-- The solid element in other units; `v` multiplies the integration elements of the boundary. -/
noncomputable def Spec.SolidElem.scaled {d : Nat} (a v : ℝ) (e : Spec.SolidElem d) : Spec.SolidElem d :=
  { e with
    points := e.points.map (Element.Spec.scaledPoint a)
    volume := e.volume.map (Element.Spec.scaledLoad a (a ^ d))
    boundary := e.boundary.map (Element.Spec.scaledFace a v) }

theorem green_points {n d q : Nat} (ha : a ≠ 0) {dim : EAS.Dimension d q} (hdim : EAS.Spec.IsVoigt dim) (ps : List (GradientPoint n d)) :
    List.Forall₂ (ScaledStrain a (a ^ d)) (ps.map (Spec.greenPoint dim)) ((ps.map (Element.Spec.scaledPoint a)).map (Spec.greenPoint dim)) := by
  rw [List.map_map, List.forall₂_map_left_iff, List.forall₂_map_right_iff, List.forall₂_same]
  exact fun p _ => green_scale ha hdim p

/-- C117, solids. Structures of nonlinear solids with volume loads and tractions in other units: stresses are multiplied by `k`, volume
loads by `b` and tractions by `t`. -/
theorem solids_units {d q : Nat} {dim : EAS.Dimension d q} (hdim : EAS.Spec.IsVoigt dim) {k b t v : ℝ} (ha : a ≠ 0) (hk : k * a ^ d = a * c)
    (hb : a ^ d * b = c) (ht : v * t = c) {law law' : Law q} (hlaw : Element.Spec.ScaledLaw k law law') {f f' g g' : LoadFunction d}
    (hf : Element.Spec.LoadScales a b f f') (hg : Element.Spec.LoadScales a t g g') (flags : List Bool) (es : List (Spec.SolidElem d)) (l : ℝ) :
    Spec.ScaledSystem a c ⟨flags, (es.map fun e => e.nonlinear dim f g law).map (·.at l)⟩
      ⟨flags, (es.map fun e => (e.scaled a v).nonlinear dim f' g' law').map (·.at l)⟩ := by
  have h := assembled_units flags (es.map fun e => (⟨e.n, d, e.children, e.index, (e.nonlinear dim f g law).skills,
    ((e.scaled a v).nonlinear dim f' g' law').skills, by
      refine .cons (fun l => ?_) (.cons (fun l => volumeLoad_scale hb hf e.volume l) (.cons (fun l => traction_scale ht hg e.boundary l) .nil))
      exact nonLinearElastic_scale ha hk hlaw (green_points ha hdim e.points)⟩ : Spec.UnitTwin a c)) l
  simp only [List.map_map] at h ⊢
  exact h

/-- C117, solids. The integration point of a bilinear quadrilateral whose corners are in another unit of length. -/
theorem quadPoint_units (ha : 0 < a) (X : NodeVec 4 2) (g : (Fin 2 → ℝ) × ℝ) :
    Element.Spec.quadPoint (a • X) g = Element.Spec.scaledPoint a (Element.Spec.quadPoint X g) := by
  have hJ : (Element.Spec.quadGeometry (a • X)).jacobianTransposed g.1 = a • (Element.Spec.quadGeometry X).jacobianTransposed g.1 := by
    ext i j
    show ∑ I, Element.Spec.bilinear g.1 I i * (a * X I j) = a * ∑ I, Element.Spec.bilinear g.1 I i * X I j
    rw [Finset.mul_sum]
    exact Finset.sum_congr rfl fun I _ => by ring
  unfold Element.Spec.quadPoint Element.Spec.scaledPoint EAS.Geometry.integrationElement
  simp only [hJ, Matrix.det_smul, Fintype.card_fin, abs_mul, abs_pow, abs_of_pos ha, GradientPoint.mk.injEq, true_and]
  funext I
  by_cases hd : IsUnit ((Element.Spec.quadGeometry X).jacobianTransposed g.1).det
  · have := invertibleOfNonzero ha.ne'
    rw [Matrix.inv_smul _ _ hd, Matrix.smul_mulVec, invOf_eq_inv]
  · rw [Matrix.nonsing_inv_apply_not_isUnit _ hd, Matrix.nonsing_inv_apply_not_isUnit, Matrix.zero_mulVec, smul_zero]
    rw [Matrix.det_smul, IsUnit.mul_iff]
    exact fun h => hd h.2

/-- A mesh of nonlinear solids under its own weight, in metres and newtons and in millimetres and kilonewtons. -/
example (l : ℝ) : Spec.ScaledSystem 1000 (1 / 1000)
    ⟨exampleMeshFlags, (exampleSolids.map fun e => e.nonlinear EAS.plane exampleWeight exampleWeight (linearLaw exampleMeshC)).map (·.at l)⟩
    ⟨exampleMeshFlags, (exampleSolids.map fun e => (e.scaled 1000 1000).nonlinear EAS.plane (fun x l => (1 / 10 ^ 9 : ℝ) • exampleWeight x l)
      (fun x l => (1 / 10 ^ 6 : ℝ) • exampleWeight x l) (linearLaw ((1 / 10 ^ 6 : ℝ) • exampleMeshC))).map (·.at l)⟩ :=
  solids_units EAS.plane_isVoigt (k := 1 / 10 ^ 6) (b := 1 / 10 ^ 9) (t := 1 / 10 ^ 6) (v := 1000) (by norm_num) (by norm_num) (by norm_num)
    (by norm_num) ⟨fun e => by
      simp only [linearLaw, Matrix.smul_mulVec, dotProduct_smul, smul_eq_mul]
      ring, fun e => by
      simp only [linearLaw, Matrix.smul_mulVec], fun e => rfl⟩ (fun _ _ => rfl) (fun _ _ => rfl) _ _ l

/-- Linear quadrilaterals whose corners are given in metres and in millimetres. -/
example (X : NodeVec 4 2) (rule : List ((Fin 2 → ℝ) × ℝ)) : Spec.ScaledSkill 1000 (1 / 1000)
    (Skill.linearElastic exampleMeshC ((rule.map (Element.Spec.quadPoint X)).map (Spec.linearPoint EAS.plane)))
    (Skill.linearElastic ((1 / 10 ^ 6 : ℝ) • exampleMeshC)
      ((rule.map (Element.Spec.quadPoint ((1000 : ℝ) • X))).map (Spec.linearPoint EAS.plane))) := by
  have h := linearElastic_scale (a := 1000) (c := 1 / 1000) (by norm_num) EAS.plane_isVoigt (k := 1 / 10 ^ 6) (by norm_num) exampleMeshC
    (rule.map (Element.Spec.quadPoint X))
  have e : rule.map (Element.Spec.quadPoint ((1000 : ℝ) • X)) = (rule.map (Element.Spec.quadPoint X)).map (Element.Spec.scaledPoint 1000) := by
    rw [List.map_map]
    exact List.map_congr_left fun g _ => quadPoint_units (by norm_num) X g
  rw [e]
  exact h

end Ikarus
