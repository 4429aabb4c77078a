import Verif.FE.RelabelProps
import Verif.Analysis.RenumberProps

/-!
Lemmas for C124: assembling elements whose nodes are listed in another order.
-/

namespace Ikarus

open Matrix Element Element.Spec Assembler

variable {n d size : Nat}

/-! ### Specification -/

/-- Two elements which differ in the order of their nodes: node `I` of the second has the dofs of node `τ I` of the first, and the skills of the
second compute the same in the new order. -/
inductive Spec.Reordered (size : Nat) : Elem → Elem → Prop
  | mk {n d : Nat} {children children' : List FETree} {index index' : List Nat} {skills skills' : List (Skill n d)}
      (τ : Equiv.Perm (Fin n))
      (fits : Spec.ElemFits size ⟨n, d, children, index, skills⟩) (fits' : Spec.ElemFits size ⟨n, d, children', index', skills'⟩)
      (dofs : ∀ l l', Elem.dofs? ⟨n, d, children, index, skills⟩ = some l → Elem.dofs? ⟨n, d, children', index', skills'⟩ = some l' →
        ∀ (I : Fin n) (a : Fin d), l'.getD (I * d + a) 0 = l.getD (τ I * d + a) 0)
      (skill : List.Forall₂ (Spec.RelabelledSkill τ) skills skills') :
      Spec.Reordered size ⟨n, d, children, index, skills⟩ ⟨n, d, children', index', skills'⟩

/-- Both systems evaluate to the same for every vector, defined or not. -/
structure Spec.SameSystem (A B : System) : Prop where
  scalar : ∀ x, B.scalar? x = A.scalar? x
  rawVector : ∀ x, B.rawVector? x = A.rawVector? x
  reducedVector : ∀ x, B.reducedVector? x = A.reducedVector? x
  fullVector : ∀ x, B.fullVector? x = A.fullVector? x
  rawMatrix : ∀ x, B.rawMatrix? x = A.rawMatrix? x
  reducedMatrix : ∀ x, B.reducedMatrix? x = A.reducedMatrix? x
  fullMatrix : ∀ x, B.fullMatrix? x = A.fullMatrix? x

/-! ### One element -/

theorem local_any {e : Elem} {dofs : List Nat} (h1 : e.children.length = e.d)
    (h2 : (FETree.power e.children).nodeSize? = some e.n) (h3 : e.dofs? = some dofs) (x : List ℝ) :
    e.local? x = if ∀ i ∈ dofs, i < x.length then some (gathered e.n e.d dofs x) else none := by
  by_cases h : ∀ i ∈ dofs, i < x.length
  · rw [if_pos h]
    obtain ⟨-, X, -, h4, -⟩ := local_eq h1 h2 h3 h x rfl
    exact h4
  · rw [if_neg h]
    obtain ⟨l1, -⟩ := localSolution_gathers x e.index e.children e.n dofs h2 h3
    unfold Elem.local?
    rw [Option.map_eq_none_iff]
    cases hX : FETree.localSolution e.d x e.index (.power e.children) none with
    | none => rfl
    | some X => exact absurd (l1.1 ⟨X, by rw [h1]; exact hX⟩) h

theorem fits_length {e : Elem} {dofs : List Nat} (h1 : e.children.length = e.d)
    (h2 : (FETree.power e.children).nodeSize? = some e.n) (h3 : e.dofs? = some dofs) : dofs.length = e.n * e.d := by
  rw [← h1]
  exact (globalIndices_power h2 h3).1

theorem node_index (I : Fin n) (a : Fin d) : (I : Nat) * d + a < n * d :=
  calc (I : Nat) * d + a < I * d + d := Nat.add_lt_add_left a.2 _
    _ = (I + 1) * d := by ring
    _ ≤ n * d := Nat.mul_le_mul_right d I.2

theorem dofs_mem {l : List Nat} (h : l.length = n * d) (i : Nat) :
    i ∈ l ↔ ∃ (I : Fin n) (a : Fin d), l.getD (I * d + a) 0 = i := by
  constructor
  · intro hi
    obtain ⟨k, hk, rfl⟩ := List.getElem_of_mem hi
    have hk' : k < n * d := h ▸ hk
    refine ⟨(⟨k, hk'⟩ : Fin (n * d)).divNat, (⟨k, hk'⟩ : Fin (n * d)).modNat, ?_⟩
    have e : ((⟨k, hk'⟩ : Fin (n * d)).divNat : Nat) * d + ((⟨k, hk'⟩ : Fin (n * d)).modNat : Nat) = k := Nat.div_add_mod' k d
    rw [e, List.getD_eq_getElem?_getD, List.getElem?_eq_getElem hk, Option.getD_some]
  · rintro ⟨I, a, rfl⟩
    have := node_index I a
    rw [List.getD_eq_getElem?_getD, List.getElem?_eq_getElem (h.symm ▸ this), Option.getD_some]
    exact List.getElem_mem _

theorem dofs_reordered {l l' : List Nat} {τ : Equiv.Perm (Fin n)} (h : l.length = n * d) (h' : l'.length = n * d)
    (hd : ∀ (I : Fin n) (a : Fin d), l'.getD (I * d + a) 0 = l.getD (τ I * d + a) 0) (i : Nat) : i ∈ l' ↔ i ∈ l := by
  rw [dofs_mem h, dofs_mem h']
  constructor
  · rintro ⟨I, a, rfl⟩
    exact ⟨τ I, a, (hd I a).symm⟩
  · rintro ⟨I, a, rfl⟩
    exact ⟨τ.symm I, a, by rw [hd, Equiv.apply_symm_apply]⟩

theorem sumAt_zip {l : List Nat} (h : l.length = n * d) (f : NodeVec n d) (i : Nat) :
    sumAt (l.zip (Elem.flat f)) i = ∑ I : Fin n, ∑ a : Fin d, if l.getD (I * d + a) 0 = i then f I a else 0 := by
  have e : l.zip (Elem.flat f) = (List.finRange (n * d)).map fun k : Fin (n * d) => (l.getD k 0, (Elem.flat f).getD k 0) := by
    apply List.ext_getElem
    · simp [flat_length, h]
    · intro k h1 h2
      have hk : k < n * d := by simpa using h2
      simp [List.getElem?_eq_getElem (h.symm ▸ hk : k < l.length), List.getElem?_eq_getElem ((flat_length f).symm ▸ hk)]
  rw [e, sumAt_map, ← List.ofFn_eq_map, List.sum_ofFn, ← finProdFinEquiv.sum_comp, Fintype.sum_prod_type]
  refine Finset.sum_congr rfl fun I _ => Finset.sum_congr rfl fun a _ => ?_
  have hc : ((finProdFinEquiv (I, a) : Fin (n * d)) : Nat) = a + d * I := rfl
  rw [hc, flat_getD, add_comm (a : Nat), mul_comm d]

theorem sumAt_block {l : List Nat} (h : l.length = n * d) (K : BlockMat n d) (i j : Nat) :
    sumAt (Spec.elemMatContribs ⟨l, Elem.flatMat K⟩) (i, j) = ∑ I : Fin n, ∑ a : Fin d, ∑ J : Fin n, ∑ b : Fin d,
      if l.getD (I * d + a) 0 = i ∧ l.getD (J * d + b) 0 = j then K I J a b else 0 := by
  have e : l.zipIdx = (List.finRange (n * d)).map fun k : Fin (n * d) => (l.getD k 0, (k : Nat)) := by
    apply List.ext_getElem
    · simp [h]
    · intro k h1 h2
      have hk : k < n * d := by simpa using h2
      simp [List.getElem?_eq_getElem (h.symm ▸ hk : k < l.length)]
  have hs : ∀ g : Fin (n * d) → ℝ, ((List.finRange (n * d)).map g).sum = ∑ I : Fin n, ∑ a : Fin d, g (finProdFinEquiv (I, a)) := fun g => by
    rw [← List.ofFn_eq_map, List.sum_ofFn, ← finProdFinEquiv.sum_comp, Fintype.sum_prod_type]
  have hc : ∀ (I : Fin n) (a : Fin d), ((finProdFinEquiv (I, a) : Fin (n * d)) : Nat) = a + d * I := fun _ _ => rfl
  have hc2 : ∀ (I : Fin n) (a : Fin d), (a : Nat) + d * I = I * d + a := fun I a => by ring
  unfold Spec.elemMatContribs
  rw [sumAt_flatMap]
  simp only [sumAt_map, e, List.map_map, Function.comp_def]
  rw [hs]
  refine Finset.sum_congr rfl fun I _ => Finset.sum_congr rfl fun a _ => ?_
  rw [hs]
  refine Finset.sum_congr rfl fun J _ => Finset.sum_congr rfl fun b _ => ?_
  rw [hc, hc, flatMat_val, hc2, hc2]
  simp only [Prod.mk.injEq]

theorem block_relabel (g : Fin n → Fin d → Nat) (τ : Equiv.Perm (Fin n)) (K : BlockMat n d) (i j : Nat) :
    (∑ I, ∑ a, ∑ J, ∑ b, if g (τ I) a = i ∧ g (τ J) b = j then relabelMat τ K I J a b else 0) =
      ∑ I, ∑ a, ∑ J, ∑ b, if g I a = i ∧ g J b = j then K I J a b else 0 := by
  refine (Equiv.sum_comp τ fun I => ∑ a, ∑ J, ∑ b, if g I a = i ∧ g (τ J) b = j then K I (τ J) a b else 0).trans ?_
  refine Finset.sum_congr rfl fun I _ => Finset.sum_congr rfl fun a _ => ?_
  exact Equiv.sum_comp τ fun J => ∑ b, if g I a = i ∧ g J b = j then K I J a b else 0

/-- The data of two elements add up to the same. -/
def SameVec (size : Nat) (v v' : VecElem ℝ) : Prop :=
  Spec.VecOK size [v] ∧ Spec.VecOK size [v'] ∧ ∀ i, sumAt (v'.dofs.zip v'.vec) i = sumAt (v.dofs.zip v.vec) i

def SameMat (size : Nat) (v v' : MatElem ℝ) : Prop :=
  Spec.MatOK size [v] ∧ Spec.MatOK size [v'] ∧ ∀ i, sumAt (Spec.elemMatContribs v') i = sumAt (Spec.elemMatContribs v) i

theorem reordered_local {children children' : List FETree} {index index' : List Nat} {skills skills' : List (Skill n d)}
    {τ : Equiv.Perm (Fin n)} (fits : Spec.ElemFits size ⟨n, d, children, index, skills⟩)
    (fits' : Spec.ElemFits size ⟨n, d, children', index', skills'⟩)
    (dofs : ∀ l l', Elem.dofs? ⟨n, d, children, index, skills⟩ = some l → Elem.dofs? ⟨n, d, children', index', skills'⟩ = some l' →
        ∀ (I : Fin n) (a : Fin d), l'.getD (I * d + a) 0 = l.getD (τ I * d + a) 0) :
    ∃ l l', Elem.dofs? ⟨n, d, children, index, skills⟩ = some l ∧ Elem.dofs? ⟨n, d, children', index', skills'⟩ = some l' ∧
      l.length = n * d ∧ l'.length = n * d ∧ (∀ i ∈ l, i < size) ∧ (∀ i ∈ l', i < size) ∧
      (∀ (I : Fin n) (a : Fin d), l'.getD (I * d + a) 0 = l.getD (τ I * d + a) 0) ∧
      ∀ x, Elem.local? ⟨n, d, children', index', skills'⟩ x = (Elem.local? ⟨n, d, children, index, skills⟩ x).map (relabel τ) := by
  obtain ⟨h1, h2, l, h3, h4⟩ := fits
  obtain ⟨h1', h2', l', h3', h4'⟩ := fits'
  have e := fits_length h1 h2 h3
  have e' := fits_length h1' h2' h3'
  have hd := dofs l l' h3 h3'
  refine ⟨l, l', h3, h3', e, e', h4, h4', hd, fun x => ?_⟩
  rw [local_any h1 h2 h3 x, local_any h1' h2' h3' x]
  have hm := dofs_reordered e e' hd
  by_cases h : ∀ i ∈ l, i < x.length
  · rw [if_pos h, if_pos fun i hi => h i ((hm i).1 hi)]
    refine congrArg some (funext fun I => funext fun a => ?_)
    exact congrArg (fun i => x.getD i 0) (hd I a)
  · rw [if_neg h, if_neg fun h' => h fun i hi => h' i ((hm i).2 hi)]
    rfl

theorem reordered_scalar {e e' : Elem} (h : Spec.Reordered size e e') (x : List ℝ) : e'.scalar? x = e.scalar? x := by
  obtain ⟨τ, fits, fits', dofs, skill⟩ := h
  obtain ⟨l, l', -, -, -, -, -, -, -, hx⟩ := reordered_local fits fits' dofs
  unfold Elem.scalar?
  rw [hx]
  cases Elem.local? _ x with
  | none => rfl
  | some u => exact (mixin_relabel skill).scalar u

theorem reordered_vector {e e' : Elem} (h : Spec.Reordered size e e') (x : List ℝ) :
    Option.Rel (SameVec size) (e.vector? x) (e'.vector? x) := by
  obtain ⟨τ, fits, fits', dofs, skill⟩ := h
  obtain ⟨l, l', h3, h3', e1, e1', h4, h4', hd, hx⟩ := reordered_local fits fits' dofs
  unfold Elem.vector?
  rw [hx, h3, h3', Option.bind_some, Option.bind_some]
  cases Elem.local? _ x with
  | none => exact .none
  | some u =>
    rw [Option.map_some, Option.bind_some, Option.bind_some]
    have hv : Mixin.calculateVector (relabel τ u) _ (relabel τ 0) = (Mixin.calculateVector u _ 0).map (relabel τ) :=
      (mixin_relabel skill).vector u 0
    rw [relabel_zero] at hv
    simp only []
    rw [hv]
    cases Mixin.calculateVector u _ 0 with
    | none => exact .none
    | some f =>
      refine .some ⟨?_, ?_, fun i => ?_⟩
      · intro v hv
        obtain rfl := List.mem_singleton.1 hv
        exact ⟨by rw [e1, flat_length], h4⟩
      · intro v hv
        obtain rfl := List.mem_singleton.1 hv
        exact ⟨by rw [e1', flat_length], h4'⟩
      · show sumAt (l'.zip (Elem.flat (relabel τ f))) i = sumAt (l.zip (Elem.flat f)) i
        rw [sumAt_zip e1, sumAt_zip e1']
        simp only [hd]
        exact Equiv.sum_comp τ fun I => ∑ a : Fin _, if l.getD (I * _ + a) 0 = i then f I a else 0

theorem reordered_matrix {e e' : Elem} (h : Spec.Reordered size e e') (x : List ℝ) :
    Option.Rel (SameMat size) (e.matrix? x) (e'.matrix? x) := by
  obtain ⟨τ, fits, fits', dofs, skill⟩ := h
  obtain ⟨l, l', h3, h3', e1, e1', h4, h4', hd, hx⟩ := reordered_local fits fits' dofs
  unfold Elem.matrix?
  rw [hx, h3, h3', Option.bind_some, Option.bind_some]
  cases Elem.local? _ x with
  | none => exact .none
  | some u =>
    rw [Option.map_some, Option.bind_some, Option.bind_some]
    have hv : Mixin.calculateMatrix (relabel τ u) _ (relabelMat τ 0) = (Mixin.calculateMatrix u _ 0).map (relabelMat τ) :=
      (mixin_relabel skill).matrix u 0
    rw [relabelMat_zero] at hv
    simp only []
    rw [hv]
    cases Mixin.calculateMatrix u _ 0 with
    | none => exact .none
    | some K =>
      refine .some ⟨?_, ?_, fun i => ?_⟩
      · intro v hv
        obtain rfl := List.mem_singleton.1 hv
        exact ⟨fun _ => ⟨e1.le, e1.le⟩, h4⟩
      · intro v hv
        obtain rfl := List.mem_singleton.1 hv
        exact ⟨fun _ => ⟨e1'.le, e1'.le⟩, h4'⟩
      · obtain ⟨i, j⟩ := i
        show sumAt (Spec.elemMatContribs ⟨l', Elem.flatMat (relabelMat τ K)⟩) (i, j) = sumAt (Spec.elemMatContribs ⟨l, Elem.flatMat K⟩) (i, j)
        rw [sumAt_block e1, sumAt_block e1']
        simp only [hd]
        exact block_relabel (fun I a => l.getD (I * _ + a) 0) τ K i j

/-! ### Lists of elements -/

theorem mapOpt_rel {α β : Type*} {R : α → α → Prop} {S : β → β → Prop} {f : α → Option β} {l l' : List α} (h : List.Forall₂ R l l')
    (hR : ∀ x y, R x y → Option.Rel S (f x) (f y)) : Option.Rel (List.Forall₂ S) (mapOpt f l) (mapOpt f l') := by
  induction h with
  | nil => exact .some .nil
  | @cons x y l l' hxy _ ih =>
    unfold mapOpt
    have h1 := hR x y hxy
    generalize f x = fx at h1 ⊢
    generalize f y = fy at h1 ⊢
    generalize mapOpt f l = ml at ih ⊢
    generalize mapOpt f l' = ml' at ih ⊢
    cases h1 with
    | none => exact .none
    | some h1 =>
      rw [Option.bind_some, Option.bind_some]
      cases ih with
      | none => exact .none
      | some ih => exact .some (.cons h1 ih)

/-- Either both lists cannot be evaluated, or both can, and the data of the second are those of the first in another order and form. -/
theorem mapOpt_samePoints {α β : Type*} {R : α → α → Prop} {S : β → β → Prop} {f : α → Option β} {l l' : List α} (h : SamePoints R l l')
    (hR : ∀ x y, R x y → Option.Rel S (f x) (f y)) :
    (mapOpt f l = none ∧ mapOpt f l' = none) ∨ ∃ v v', mapOpt f l = some v ∧ mapOpt f l' = some v' ∧ SamePoints S v v' := by
  obtain ⟨l0, hp, h⟩ := h
  have hr := mapOpt_rel h hR
  cases h0 : mapOpt f l0 with
  | none =>
    rw [h0] at hr
    refine Or.inl ⟨(mapOpt_perm_none f hp).1 h0, ?_⟩
    cases h1 : mapOpt f l' with
    | none => rfl
    | some v => rw [h1] at hr; cases hr
  | some v0 =>
    rw [h0] at hr
    obtain ⟨v, hv, hpv⟩ := mapOpt_perm f hp h0
    cases h1 : mapOpt f l' with
    | none => rw [h1] at hr; cases hr
    | some v' =>
      rw [h1] at hr
      cases hr with
      | some hr => exact Or.inr ⟨v, v', hv, rfl, v0, hpv, hr⟩

theorem samePoints_mem {α : Type*} {P : α → α → Prop} {l l' : List α} (h : SamePoints P l l') :
    (∀ x ∈ l, ∃ y, P x y) ∧ ∀ y ∈ l', ∃ x, P x y := by
  obtain ⟨l0, hp, h⟩ := h
  refine ⟨fun x hx => ?_, fun y hy => ?_⟩
  · have hx := hp.mem_iff.2 hx
    clear hp
    induction h with
    | nil => simp at hx
    | cons hxy _ ih =>
      rcases List.mem_cons.1 hx with rfl | hx
      · exact ⟨_, hxy⟩
      · exact ih hx
  · clear hp
    induction h with
    | nil => simp at hy
    | cons hxy _ ih =>
      rcases List.mem_cons.1 hy with rfl | hy
      · exact ⟨_, hxy⟩
      · exact ih hy

theorem rawVector_same {flags : List Bool} {v v' : List (VecElem ℝ)} (h : SamePoints (SameVec flags.length) v v') :
    ∃ r, (create flags).getRawVector? v = some r ∧ (create flags).getRawVector? v' = some r := by
  obtain ⟨h1, h2⟩ := samePoints_mem h
  obtain ⟨r, hr⟩ := (rawVector_defined_iff (create flags) v).2 fun e he => by
    obtain ⟨y, hy⟩ := h1 e he
    exact hy.1 e (List.mem_singleton.2 rfl)
  obtain ⟨r', hr'⟩ := (rawVector_defined_iff (create flags) v').2 fun e he => by
    obtain ⟨y, hy⟩ := h2 e he
    exact hy.2.1 e (List.mem_singleton.2 rfl)
  refine ⟨r, hr, hr'.trans (congrArg some ?_)⟩
  obtain ⟨g1, g2⟩ := rawVector_eq_sum _ _ _ hr
  obtain ⟨g1', g2'⟩ := rawVector_eq_sum _ _ _ hr'
  apply List.ext_getElem?
  intro i
  by_cases hi : i < (create flags).size
  · rw [g2 i hi, g2' i hi]
    refine congrArg some ?_
    unfold Spec.vecContribs
    rw [sumAt_flatMap, sumAt_flatMap]
    exact samePoints_scalar h _ _ fun x y hxy => hxy.2.2 i
  · rw [List.getElem?_eq_none (by omega), List.getElem?_eq_none (by omega)]

theorem rawMatrix_same {flags : List Bool} {v v' : List (MatElem ℝ)} (h : SamePoints (SameMat flags.length) v v') :
    ∃ r, (create flags).getRawMatrix? v = some r ∧ (create flags).getRawMatrix? v' = some r := by
  obtain ⟨h1, h2⟩ := samePoints_mem h
  obtain ⟨r, hr⟩ := (rawMatrix_defined_iff (create flags) v).2 fun e he => by
    obtain ⟨y, hy⟩ := h1 e he
    exact hy.1 e (List.mem_singleton.2 rfl)
  obtain ⟨r', hr'⟩ := (rawMatrix_defined_iff (create flags) v').2 fun e he => by
    obtain ⟨y, hy⟩ := h2 e he
    exact hy.2.1 e (List.mem_singleton.2 rfl)
  refine ⟨r, hr, hr'.trans (congrArg some ?_)⟩
  obtain ⟨g1, g2, g3⟩ := rawMatrix_eq_sum _ _ _ hr
  obtain ⟨g1', g2', g3'⟩ := rawMatrix_eq_sum _ _ _ hr'
  have e : r'.val = r.val := by
    funext i j
    rw [g3, g3']
    unfold Spec.matContribs
    rw [sumAt_flatMap, sumAt_flatMap]
    exact samePoints_scalar h _ _ fun x y hxy => hxy.2.2 (i, j)
  cases r
  cases r'
  simp only at g1 g2 g1' g2' e
  subst g1 g2 g1' g2' e
  rfl

/-! ### Reduced matrices -/

theorem reducedMatrixCols_outside (a : Assembler) (loc : DMat ℝ) (r dr : Nat) (cs : List Nat) :
    ∀ (j : Nat) (A B : DMat ℝ), reducedMatrixCols a loc r dr cs j A = some B →
      B.rows = A.rows ∧ B.cols = A.cols ∧ ∀ i k, ¬ (i < A.rows ∧ k < A.cols) → B.val i k = A.val i k := by
  induction cs with
  | nil => intro j A B h; obtain rfl := Option.some.inj h; exact ⟨rfl, rfl, fun _ _ _ => rfl⟩
  | cons c cs ih =>
    intro j A B h
    simp only [reducedMatrixCols] at h
    obtain ⟨b, -, h⟩ := Option.bind_eq_some_iff.1 h
    cases b with
    | true => exact ih _ A B h
    | false =>
      simp only [Bool.false_eq_true, if_false] at h
      obtain ⟨kr, -, h⟩ := Option.bind_eq_some_iff.1 h
      obtain ⟨kc, -, h⟩ := Option.bind_eq_some_iff.1 h
      obtain ⟨x, -, h⟩ := Option.bind_eq_some_iff.1 h
      obtain ⟨C, hC, h⟩ := Option.bind_eq_some_iff.1 h
      obtain ⟨h1, h2, rfl⟩ := Assembler.DMat.addAt?_some hC
      obtain ⟨e1, e2, e3⟩ := ih _ _ B h
      refine ⟨e1, e2, fun i k hik => (e3 i k hik).trans ?_⟩
      show (if i = kr ∧ k = kc then _ else _) = _
      rw [if_neg]
      rintro ⟨rfl, rfl⟩
      exact hik ⟨h1, h2⟩

theorem reducedMatrixRows_outside (a : Assembler) (loc : DMat ℝ) (dofs rs : List Nat) :
    ∀ (j : Nat) (A B : DMat ℝ), reducedMatrixRows a loc dofs rs j A = some B →
      B.rows = A.rows ∧ B.cols = A.cols ∧ ∀ i k, ¬ (i < A.rows ∧ k < A.cols) → B.val i k = A.val i k := by
  induction rs with
  | nil => intro j A B h; obtain rfl := Option.some.inj h; exact ⟨rfl, rfl, fun _ _ _ => rfl⟩
  | cons c cs ih =>
    intro j A B h
    simp only [reducedMatrixRows] at h
    obtain ⟨b, -, h⟩ := Option.bind_eq_some_iff.1 h
    cases b with
    | true => exact ih _ A B h
    | false =>
      simp only [Bool.false_eq_true, if_false] at h
      obtain ⟨C, hC, h⟩ := Option.bind_eq_some_iff.1 h
      obtain ⟨e1, e2, e3⟩ := reducedMatrixCols_outside a loc _ _ _ _ A C hC
      obtain ⟨g1, g2, g3⟩ := ih _ C B h
      exact ⟨g1.trans e1, g2.trans e2, fun i k hik => (g3 i k (by rw [e1, e2]; exact hik)).trans (e3 i k hik)⟩

theorem reducedMatrixOuter_outside (a : Assembler) (fes : List (MatElem ℝ)) :
    ∀ (A B : DMat ℝ), reducedMatrixOuter a fes A = some B →
      B.rows = A.rows ∧ B.cols = A.cols ∧ ∀ i k, ¬ (i < A.rows ∧ k < A.cols) → B.val i k = A.val i k := by
  induction fes with
  | nil => intro A B h; obtain rfl := Option.some.inj h; exact ⟨rfl, rfl, fun _ _ _ => rfl⟩
  | cons e es ih =>
    intro A B h
    simp only [reducedMatrixOuter] at h
    obtain ⟨C, hC, h⟩ := Option.bind_eq_some_iff.1 h
    obtain ⟨e1, e2, e3⟩ := reducedMatrixRows_outside a _ _ _ _ A C hC
    obtain ⟨g1, g2, g3⟩ := ih C B h
    exact ⟨g1.trans e1, g2.trans e2, fun i k hik => (g3 i k (by rw [e1, e2]; exact hik)).trans (e3 i k hik)⟩

/-- The Reduced matrix is a function of the Raw matrix. -/
theorem reducedMatrix_same {flags : List Bool} {v v' : List (MatElem ℝ)} {A : DMat ℝ}
    (h : (create flags).getRawMatrix? v = some A) (h' : (create flags).getRawMatrix? v' = some A) :
    (create flags).getReducedMatrix? v' = (create flags).getReducedMatrix? v := by
  obtain ⟨B, hB, b1, b2, b3⟩ := reducedMatrix_eq flags v A h
  obtain ⟨B', hB', b1', b2', b3'⟩ := reducedMatrix_eq flags v' A h'
  rw [hB, hB']
  refine congrArg some ?_
  rw [reducedSize?_create] at b1 b2 b1' b2'
  have c1 := Option.some.inj b1
  have c2 := Option.some.inj b2
  have c1' := Option.some.inj b1'
  have c2' := Option.some.inj b2'
  have out : ∀ {v : List (MatElem ℝ)} {B : DMat ℝ}, (create flags).getReducedMatrix? v = some B →
      ∀ i k, ¬ (i < flags.count false ∧ k < flags.count false) → B.val i k = 0 := by
    intro v B hB i k hik
    unfold getReducedMatrix? at hB
    rw [reducedSize?_create, Option.bind_some] at hB
    exact (reducedMatrixOuter_outside _ _ _ _ hB).2.2 i k hik
  have e : B'.val = B.val := by
    funext i k
    by_cases hik : i < flags.count false ∧ k < flags.count false
    · obtain ⟨r, hr, rfl⟩ := rank_surj flags hik.1
      obtain ⟨c, hc, rfl⟩ := rank_surj flags hik.2
      obtain ⟨kr, kc, e1, e2, -, -, e3⟩ := b3 r c hr hc
      obtain ⟨kr', kc', e1', e2', -, -, e3'⟩ := b3' r c hr hc
      rw [reducedIndex?_create (free_lt hr)] at e1 e1'
      rw [reducedIndex?_create (free_lt hc)] at e2 e2'
      obtain rfl := Option.some.inj e1
      obtain rfl := Option.some.inj e2
      obtain rfl := Option.some.inj e1'
      obtain rfl := Option.some.inj e2'
      rw [e3, e3']
    · rw [out hB i k hik, out hB' i k hik]
  cases B
  cases B'
  simp only at c1 c2 c1' c2' e
  subst c1 c1' e
  subst c2
  rw [c2']

end Ikarus
