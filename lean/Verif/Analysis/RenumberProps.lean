import Verif.Analysis.UnitsPathProps
import Verif.Assembler.VectorProps

/-!
C119, assembled quantities: what the assembler returns if the dofs are numbered differently and the elements come in another order.
-/

namespace Ikarus

open Matrix Element Element.Spec

/-! ### Specification -/

/-- `π` renumbers the dofs below `n`. -/
def Spec.Renumbers (π : Equiv.Perm Nat) (n : Nat) : Prop := ∀ i, π i < n ↔ i < n

/-- The vector whose entry `π i` is entry `i` of `x`. -/
def Spec.renumbered (π : Equiv.Perm Nat) (x : List ℝ) : List ℝ := (List.range x.length).map fun i => x.getD (π.symm i) 0

/-- The matrix whose entry `π i, π j` is entry `i, j` of `A`. -/
def Spec.renumberedMatrix (π : Equiv.Perm Nat) (A : DMat ℝ) : DMat ℝ := ⟨A.rows, A.cols, fun i j => A.val (π.symm i) (π.symm j)⟩

/-- Dof `π i` is constrained if and only if dof `i` was. -/
def Spec.RenumberedFlags (π : Equiv.Perm Nat) (fl fl' : List Bool) : Prop := fl'.length = fl.length ∧ ∀ i : Nat, fl'[π i]? = fl[i]?

/-- The element whose basis has the new numbers. -/
def Spec.renumberedElem (π : Equiv.Perm Nat) (e : Elem) : Elem := ⟨e.n, e.d, e.children, e.index.map π, e.skills⟩

/-- The same structure: the elements have the new numbers and may come in another order. -/
structure Spec.SameStructure (π : Equiv.Perm Nat) (A B : System) : Prop where
  renumbers : Spec.Renumbers π A.flags.length
  flags : Spec.RenumberedFlags π A.flags B.flags
  elems : B.elems.Perm (A.elems.map (Spec.renumberedElem π))

/-! ### Lemmas on the elements -/

variable {π : Equiv.Perm Nat} {n : Nat}

theorem Spec.Renumbers.symm (h : Spec.Renumbers π n) : Spec.Renumbers π.symm n := fun i => by
  have := h (π.symm i)
  rw [Equiv.apply_symm_apply] at this
  exact this.symm

theorem renumbered_length (x : List ℝ) : (Spec.renumbered π x).length = x.length := by
  rw [Spec.renumbered, List.length_map, List.length_range]

theorem renumbered_get' (x : List ℝ) (h : Spec.Renumbers π x.length) (i : Nat) : (Spec.renumbered π x)[i]? = x[π.symm i]? := by
  have hs := h.symm i
  unfold Spec.renumbered
  by_cases hi : i < x.length
  · rw [List.getElem?_map, List.getElem?_range hi, Option.map_some, getElem?_eq_getD (hs.2 hi)]
  · rw [List.getElem?_eq_none (by rw [List.length_map, List.length_range]; omega), List.getElem?_eq_none (by
      have := mt hs.1 hi
      omega)]

theorem renumbered_get (x : List ℝ) (h : Spec.Renumbers π x.length) (i : Nat) : (Spec.renumbered π x)[π i]? = x[i]? := by
  rw [renumbered_get' x h, Equiv.symm_apply_apply]

theorem renumbered_getD (x : List ℝ) (h : Spec.Renumbers π x.length) (i : Nat) : (Spec.renumbered π x).getD (π i) 0 = x.getD i 0 := by
  rw [List.getD_eq_getElem?_getD, renumbered_get x h, List.getD_eq_getElem?_getD]

theorem renumbered_ext {x y : List ℝ} (hx : x.length = n) (hy : y.length = n) (hπ : Spec.Renumbers π n)
    (h : ∀ i < n, y.getD (π i) 0 = x.getD i 0) : y = Spec.renumbered π x := by
  refine List.ext_getElem? fun i => ?_
  rw [renumbered_get' x (hx.symm ▸ hπ)]
  have hs := hπ.symm i
  by_cases hi : i < n
  · rw [getElem?_eq_getD (hy ▸ hi), getElem?_eq_getD (hx ▸ hs.2 hi), ← h _ (hs.2 hi), Equiv.apply_symm_apply]
  · rw [List.getElem?_eq_none (by omega), List.getElem?_eq_none (by
      have := mt hs.1 hi
      omega)]

namespace FETree

variable (g : Nat → Nat) (index : List Nat)

theorem leafNodeIndices_map (l : List Nat) :
    leafNodeIndices (index.map g) l = (leafNodeIndices index l).map (List.map g) := by
  refine mapOpt_scale _ _ _ _ fun i _ => ?_
  cases l[i]? with
  | none => rfl
  | some k => exact List.getElem?_map

theorem childIndex_map (cs : List FETree) (i j : Nat) : childIndex? (index.map g) cs i j = (childIndex? index cs i j).map g := by
  unfold childIndex?
  cases cs[j]? with
  | none => rfl
  | some c =>
    rw [Option.bind_some, Option.bind_some]
    cases c.leafIndex? i with
    | none => rfl
    | some k => exact List.getElem?_map

theorem nodeIndex_map (t : FETree) (i j : Nat) : nodeIndex? (index.map g) t i j = (nodeIndex? index t i j).map g := by
  unfold nodeIndex?
  cases t.child? j with
  | none => rfl
  | some c =>
    rw [Option.bind_some, Option.bind_some]
    cases c.leafIndex? i with
    | none => rfl
    | some k => exact List.getElem?_map

theorem powerNodeIndices_map (cs : List FETree) :
    powerNodeIndices (index.map g) cs = (powerNodeIndices index cs).map (List.map g) := by
  unfold powerNodeIndices
  cases cs[0]? with
  | none => rfl
  | some c =>
    rw [Option.bind_some, Option.bind_some]
    cases c.leafSize? with
    | none => rfl
    | some k =>
      rw [Option.bind_some, Option.bind_some, mapOpt_scale (fun i => mapOpt (fun j => childIndex? index cs i j) (List.range cs.length)) _
        (List.map g) _ fun i _ => mapOpt_scale _ _ g _ fun j _ => childIndex_map g index cs i j]
      rw [Option.map_map, Option.map_map]
      congr 1
      funext X
      exact List.map_flatten.symm

mutual
theorem globalIndices_map : ∀ t : FETree, globalIndices (index.map g) t = (globalIndices index t).map (List.map g)
  | .leaf l => by
    unfold globalIndices
    exact leafNodeIndices_map g index l
  | .power cs => by
    unfold globalIndices
    by_cases h : firstIsLeaf cs = true
    · rw [if_pos h, if_pos h]
      exact powerNodeIndices_map g index cs
    · rw [if_neg h, if_neg h]
      exact globalIndicesList_map cs
  | .composite cs => by
    unfold globalIndices
    exact globalIndicesList_map cs
theorem globalIndicesList_map : ∀ cs : List FETree, globalIndicesList (index.map g) cs = (globalIndicesList index cs).map (List.map g)
  | [] => by
    unfold globalIndicesList
    rfl
  | c :: cs => by
    unfold globalIndicesList
    rw [globalIndices_map c, globalIndicesList_map cs]
    cases globalIndices index c with
    | none => rfl
    | some X =>
      cases globalIndicesList index cs with
      | none => rfl
      | some Y => exact congrArg some List.map_append.symm
end

end FETree

theorem mapOpt_same {β γ : Type*} {f g : β → Option γ} {l : List β} (h : ∀ b ∈ l, f b = g b) : mapOpt f l = mapOpt g l := by
  rw [mapOpt_scale g f id l fun b hb => by rw [h b hb, Option.map_id]; rfl, List.map_id_fun, Option.map_id]
  rfl

section
variable (e : Elem) {x : List ℝ} (h : Spec.Renumbers π x.length)

theorem dofs_renumber : (Spec.renumberedElem π e).dofs? = e.dofs?.map (List.map π) := FETree.globalIndices_map π e.index _

include h

theorem local_renumber : (Spec.renumberedElem π e).local? (Spec.renumbered π x) = e.local? x := by
  unfold Elem.local? FETree.localSolution
  dsimp only [Spec.renumberedElem]
  congr 2
  funext m
  refine mapOpt_same fun i _ => mapOpt_same fun j _ => ?_
  rw [FETree.nodeIndex_map]
  cases FETree.nodeIndex? e.index (.power e.children) i j with
  | none => rfl
  | some k => exact renumbered_get x h k

theorem elem_scalar_renumber : (Spec.renumberedElem π e).scalar? (Spec.renumbered π x) = e.scalar? x := by
  show ((Spec.renumberedElem π e).local? _).bind _ = (e.local? x).bind _
  rw [local_renumber e h]
  rfl

theorem elem_vector_renumber : (Spec.renumberedElem π e).vector? (Spec.renumbered π x) =
    (e.vector? x).map fun f => ⟨f.dofs.map π, f.vec⟩ := by
  show (Spec.renumberedElem π e).dofs?.bind _ = (e.dofs?.bind _).map _
  rw [dofs_renumber]
  cases e.dofs? with
  | none => rfl
  | some dofs =>
    show ((Spec.renumberedElem π e).local? _).bind _ = ((e.local? x).bind _).map _
    rw [local_renumber e h]
    cases e.local? x with
    | none => rfl
    | some u =>
      show (Mixin.calculateVector u e.skills 0).map _ = ((Mixin.calculateVector u e.skills 0).map _).map _
      rw [Option.map_map]
      rfl

theorem elem_matrix_renumber : (Spec.renumberedElem π e).matrix? (Spec.renumbered π x) =
    (e.matrix? x).map fun f => ⟨f.dofs.map π, f.mat⟩ := by
  show (Spec.renumberedElem π e).dofs?.bind _ = (e.dofs?.bind _).map _
  rw [dofs_renumber]
  cases e.dofs? with
  | none => rfl
  | some dofs =>
    show ((Spec.renumberedElem π e).local? _).bind _ = ((e.local? x).bind _).map _
    rw [local_renumber e h]
    cases e.local? x with
    | none => rfl
    | some u =>
      show (Mixin.calculateMatrix u e.skills 0).map _ = ((Mixin.calculateMatrix u e.skills 0).map _).map _
      rw [Option.map_map]
      rfl

end

/-! ### Lemmas on the assembly -/

theorem mapOpt_perm {β γ : Type*} (f : β → Option γ) {l l' : List β} (h : l.Perm l') {r : List γ} (hr : mapOpt f l = some r) :
    ∃ r', mapOpt f l' = some r' ∧ r.Perm r' := by
  rw [mapOpt_eq_some] at hr
  have hp : (l'.map f).Perm (r.map some) := hr ▸ (h.map f).symm
  have e : ∀ (m : List γ) (l : List (Option γ)), l.Perm (m.map some) → ∃ m' : List γ, l = m'.map some := by
    intro m l hl
    refine ⟨l.filterMap id, ?_⟩
    have : ∀ o ∈ l, o.isSome := fun o ho => by
      obtain ⟨c, -, rfl⟩ := List.mem_map.1 (hl.mem_iff.1 ho)
      rfl
    clear hl
    induction l with
    | nil => rfl
    | cons o l ih =>
      obtain ⟨c, rfl⟩ := Option.isSome_iff_exists.1 (this o List.mem_cons_self)
      simp only [List.filterMap_cons, id, List.map_cons]
      exact congrArg (some c :: ·) (ih fun o ho => this o (List.mem_cons_of_mem _ ho))
  obtain ⟨r', hr'⟩ := e r _ hp
  refine ⟨r', mapOpt_eq_some.2 hr', ?_⟩
  rw [hr'] at hp
  have := hp.symm.filterMap id
  simpa using this

theorem mapOpt_map_comp {α β γ : Type*} (f : β → Option γ) (g : α → β) (l : List α) : mapOpt f (l.map g) = mapOpt (fun a => f (g a)) l := by
  induction l with
  | nil => rfl
  | cons a l ih =>
    show (f (g a)).bind _ = (f (g a)).bind _
    rw [ih]

theorem mapOpt_perm_none {β γ : Type*} (f : β → Option γ) {l l' : List β} (h : l.Perm l') : mapOpt f l = none ↔ mapOpt f l' = none := by
  have key : ∀ {l l' : List β}, l.Perm l' → mapOpt f l = none → mapOpt f l' = none := by
    intro l l' h hn
    cases h' : mapOpt f l' with
    | none => rfl
    | some r =>
      obtain ⟨r', hr', -⟩ := mapOpt_perm f h.symm h'
      rw [hn] at hr'
      exact nomatch hr'
  exact ⟨key h, key h.symm⟩

namespace Assembler

theorem sumAt_rekey {ι κ : Type*} [DecidableEq ι] [DecidableEq κ] (g : ι → κ) (hg : Function.Injective g) (ps : List (ι × ℝ)) (i : ι) :
    sumAt (ps.map fun p => (g p.1, p.2)) (g i) = sumAt ps i := by
  induction ps with
  | nil => rfl
  | cons p ps ih =>
    unfold sumAt at ih ⊢
    simp only [List.map_cons, List.filter_cons, hg.eq_iff]
    split
    · simp only [List.map_cons, List.sum_cons, ih]
    · exact ih

theorem vecContribs_renumber (fes : List (VecElem ℝ)) :
    Spec.vecContribs (fes.map fun f => ⟨f.dofs.map π, f.vec⟩) = (Spec.vecContribs fes).map fun p => (π p.1, p.2) := by
  unfold Spec.vecContribs
  rw [List.flatMap_map, List.map_flatMap]
  refine List.flatMap_congr fun f _ => ?_
  rw [List.zip_map_left]
  rfl

theorem rawVector_renumber {fl fl' : List Bool} (hπ : Spec.Renumbers π fl.length) (hfl : fl'.length = fl.length) (fes : List (VecElem ℝ)) :
    (create fl').getRawVector? (fes.map fun f => ⟨f.dofs.map π, f.vec⟩) = ((create fl).getRawVector? fes).map (Spec.renumbered π) := by
  have hok : Spec.VecOK fl.length (fes.map fun f => (⟨f.dofs.map π, f.vec⟩ : VecElem ℝ)) ↔ Spec.VecOK fl.length fes := by
    unfold Spec.VecOK
    rw [List.forall_mem_map]
    refine forall₂_congr fun f _ => ?_
    simp only [List.length_map, List.forall_mem_map, hπ _]
  have d := rawVector_defined_iff (create fl) fes
  have d' := rawVector_defined_iff (create fl') (fes.map fun f => (⟨f.dofs.map π, f.vec⟩ : VecElem ℝ))
  rw [size_create] at d d'
  rw [hfl, hok, ← d] at d'
  cases h : (create fl).getRawVector? fes with
  | none =>
    cases h' : (create fl').getRawVector? (fes.map fun f => (⟨f.dofs.map π, f.vec⟩ : VecElem ℝ)) with
    | none => rfl
    | some w =>
      obtain ⟨v, hv⟩ := d'.1 ⟨w, h'⟩
      rw [h] at hv
      exact nomatch hv
  | some v =>
    obtain ⟨w, hw⟩ := d'.2 ⟨v, h⟩
    rw [hw, Option.map_some]
    obtain ⟨v1, v2⟩ := rawVector_eq_sum _ _ _ h
    obtain ⟨w1, w2⟩ := rawVector_eq_sum _ _ _ hw
    rw [size_create] at v1 v2 w1 w2
    rw [hfl] at w1 w2
    refine congrArg some (renumbered_ext v1 w1 hπ fun i hi => ?_)
    rw [List.getD_eq_getElem?_getD, List.getD_eq_getElem?_getD, v2 i hi, w2 _ ((hπ i).2 hi), vecContribs_renumber,
      sumAt_rekey _ π.injective]

theorem matContribs_renumber (fes : List (MatElem ℝ)) :
    Spec.matContribs (fes.map fun f => ⟨f.dofs.map π, f.mat⟩) = (Spec.matContribs fes).map fun p => ((π p.1.1, π p.1.2), p.2) := by
  unfold Spec.matContribs
  rw [List.flatMap_map, List.map_flatMap]
  refine List.flatMap_congr fun f _ => ?_
  unfold Spec.elemMatContribs
  dsimp only
  rw [List.zipIdx_map, List.flatMap_map, List.map_flatMap]
  refine List.flatMap_congr fun r _ => ?_
  rw [List.map_map, List.map_map]
  rfl

theorem rawMatrix_renumber {fl fl' : List Bool} (hπ : Spec.Renumbers π fl.length) (hfl : fl'.length = fl.length) (fes : List (MatElem ℝ)) :
    (create fl').getRawMatrix? (fes.map fun f => ⟨f.dofs.map π, f.mat⟩) = ((create fl).getRawMatrix? fes).map (Spec.renumberedMatrix π) := by
  have hok : Spec.MatOK fl.length (fes.map fun f => (⟨f.dofs.map π, f.mat⟩ : MatElem ℝ)) ↔ Spec.MatOK fl.length fes := by
    unfold Spec.MatOK
    rw [List.forall_mem_map]
    refine forall₂_congr fun f _ => ?_
    simp only [List.length_map, List.forall_mem_map, hπ _, ne_eq, List.map_eq_nil_iff]
  have d := rawMatrix_defined_iff (create fl) fes
  have d' := rawMatrix_defined_iff (create fl') (fes.map fun f => (⟨f.dofs.map π, f.mat⟩ : MatElem ℝ))
  rw [size_create] at d d'
  rw [hfl, hok, ← d] at d'
  cases h : (create fl).getRawMatrix? fes with
  | none =>
    cases h' : (create fl').getRawMatrix? (fes.map fun f => (⟨f.dofs.map π, f.mat⟩ : MatElem ℝ)) with
    | none => rfl
    | some w =>
      obtain ⟨v, hv⟩ := d'.1 ⟨w, h'⟩
      rw [h] at hv
      exact nomatch hv
  | some v =>
    obtain ⟨w, hw⟩ := d'.2 ⟨v, h⟩
    rw [hw, Option.map_some]
    obtain ⟨v1, v2, v3⟩ := rawMatrix_eq_sum _ _ _ h
    obtain ⟨w1, w2, w3⟩ := rawMatrix_eq_sum _ _ _ hw
    rw [size_create] at v1 v2 w1 w2
    rw [hfl] at w1 w2
    refine congrArg some ?_
    obtain ⟨r, c, val⟩ := w
    obtain ⟨r', c', val'⟩ := v
    dsimp only at *
    subst v1 v2 w1 w2
    unfold Spec.renumberedMatrix
    congr 1
    funext i j
    dsimp only
    rw [w3, v3, matContribs_renumber]
    have := sumAt_rekey (fun p : Nat × Nat => (π p.1, π p.2)) (fun p q h => by
      simp only [Prod.mk.injEq, EmbeddingLike.apply_eq_iff_eq] at h
      exact Prod.ext h.1 h.2) (Spec.matContribs fes) (π.symm i, π.symm j)
    simpa only [Equiv.apply_symm_apply] using this

theorem rawMatrix_perm_eq (a : Assembler) {fes fes' : List (MatElem ℝ)} (hp : fes.Perm fes') : a.getRawMatrix? fes = a.getRawMatrix? fes' := by
  have d := rawMatrix_defined_iff a fes
  have d' := rawMatrix_defined_iff a fes'
  have hok : Spec.MatOK a.size fes ↔ Spec.MatOK a.size fes' := by
    unfold Spec.MatOK
    simp only [hp.mem_iff]
  rw [hok, ← d'] at d
  cases h : a.getRawMatrix? fes with
  | none =>
    cases h' : a.getRawMatrix? fes' with
    | none => rfl
    | some w =>
      obtain ⟨v, hv⟩ := d.2 ⟨w, h'⟩
      rw [h] at hv
      exact nomatch hv
  | some v =>
    obtain ⟨w, hw⟩ := d.1 ⟨v, h⟩
    rw [hw]
    have e := rawMatrix_perm a hp v w h hw
    obtain ⟨v1, v2, -⟩ := rawMatrix_eq_sum _ _ _ h
    obtain ⟨w1, w2, -⟩ := rawMatrix_eq_sum _ _ _ hw
    obtain ⟨r, c, val⟩ := w
    obtain ⟨r', c', val'⟩ := v
    dsimp only at *
    subst v1 v2 w1 w2
    obtain rfl : val = val' := by
      funext i j
      exact (e i j).symm
    rfl

end Assembler

/-! ### The assembled quantities -/

/-- C119, assembled quantities. If the dofs of a structure are renumbered and its elements are passed in another order, then at the
renumbered displacements the assembler returns the same energy, the renumbered forces and the renumbered stiffness matrix, and it has
them if and only if it had them before. -/
theorem assembled_renumbered {A B : System} (h : Spec.SameStructure π A B) {x : List ℝ} (hx : x.length = A.flags.length) :
    B.scalar? (Spec.renumbered π x) = A.scalar? x ∧
    B.rawVector? (Spec.renumbered π x) = (A.rawVector? x).map (Spec.renumbered π) ∧
    B.rawMatrix? (Spec.renumbered π x) = (A.rawMatrix? x).map (Spec.renumberedMatrix π) := by
  obtain ⟨hπ, ⟨hfl, -⟩, hel⟩ := h
  have hπx : Spec.Renumbers π x.length := hx ▸ hπ
  refine ⟨?_, ?_, ?_⟩
  · unfold System.scalar?
    have e : mapOpt (·.scalar? (Spec.renumbered π x)) (A.elems.map (Spec.renumberedElem π)) = mapOpt (·.scalar? x) A.elems := by
      rw [mapOpt_map_comp]
      exact mapOpt_same fun e _ => elem_scalar_renumber e hπx
    cases hr : mapOpt (·.scalar? (Spec.renumbered π x)) B.elems with
    | none =>
      rw [mapOpt_perm_none _ hel, e] at hr
      rw [hr]
    | some r =>
      obtain ⟨r', hr', hp⟩ := mapOpt_perm _ hel hr
      rw [e] at hr'
      rw [hr', Option.map_some, Option.map_some]
      unfold Assembler.getScalar
      rw [Assembler.getScalarLoop_eq, Assembler.getScalarLoop_eq, hp.sum_eq]
  · unfold System.rawVector?
    have e : mapOpt (·.vector? (Spec.renumbered π x)) (A.elems.map (Spec.renumberedElem π)) =
        (mapOpt (·.vector? x) A.elems).map (List.map fun f => ⟨f.dofs.map π, f.vec⟩) := by
      rw [mapOpt_map_comp]
      exact mapOpt_scale _ _ _ _ fun e _ => elem_vector_renumber e hπx
    cases hr : mapOpt (·.vector? (Spec.renumbered π x)) B.elems with
    | none =>
      rw [mapOpt_perm_none _ hel, e, Option.map_eq_none_iff] at hr
      rw [hr]
      rfl
    | some r =>
      obtain ⟨r', hr', hp⟩ := mapOpt_perm _ hel hr
      rw [e] at hr'
      obtain ⟨s, hs, rfl⟩ := Option.map_eq_some_iff.1 hr'
      rw [hs, Option.bind_some, Option.bind_some, rawVector_perm _ hp]
      exact Assembler.rawVector_renumber hπ hfl s
  · unfold System.rawMatrix?
    have e : mapOpt (·.matrix? (Spec.renumbered π x)) (A.elems.map (Spec.renumberedElem π)) =
        (mapOpt (·.matrix? x) A.elems).map (List.map fun f => ⟨f.dofs.map π, f.mat⟩) := by
      rw [mapOpt_map_comp]
      exact mapOpt_scale _ _ _ _ fun e _ => elem_matrix_renumber e hπx
    cases hr : mapOpt (·.matrix? (Spec.renumbered π x)) B.elems with
    | none =>
      rw [mapOpt_perm_none _ hel, e, Option.map_eq_none_iff] at hr
      rw [hr]
      rfl
    | some r =>
      obtain ⟨r', hr', hp⟩ := mapOpt_perm _ hel hr
      rw [e] at hr'
      obtain ⟨s, hs, rfl⟩ := Option.map_eq_some_iff.1 hr'
      rw [hs, Option.bind_some, Option.bind_some, Assembler.rawMatrix_perm_eq _ hp]
      exact Assembler.rawMatrix_renumber hπ hfl s

theorem Spec.SameStructure.symm {A B : System} (h : Spec.SameStructure π A B) : Spec.SameStructure π.symm B A := by
  obtain ⟨h1, ⟨h2, h3⟩, h4⟩ := h
  refine ⟨h2 ▸ h1.symm, ⟨h2.symm, fun i => ?_⟩, ?_⟩
  · rw [← h3, Equiv.apply_symm_apply]
  · have := (h4.map (Spec.renumberedElem π.symm)).symm
    rw [List.map_map] at this
    convert this using 1
    refine (List.map_id _).symm.trans (List.map_congr_left fun e _ => ?_)
    show e = (⟨e.n, e.d, e.children, (e.index.map π).map π.symm, e.skills⟩ : Elem)
    rw [List.map_map, show ⇑π.symm ∘ ⇑π = id from funext π.symm_apply_apply, List.map_id]

theorem renumbered_symm (x : List ℝ) (h : Spec.Renumbers π x.length) : Spec.renumbered π.symm (Spec.renumbered π x) = x := by
  refine List.ext_getElem? fun i => ?_
  rw [renumbered_get' _ (by rw [renumbered_length]; exact h.symm), Equiv.symm_symm, renumbered_get x h]

theorem renumbered_symm' (x : List ℝ) (h : Spec.Renumbers π x.length) : Spec.renumbered π (Spec.renumbered π.symm x) = x := by
  refine List.ext_getElem? fun i => ?_
  have := renumbered_get' (π := π.symm) x h.symm
  rw [renumbered_get' _ (by rw [renumbered_length]; exact h), this, Equiv.symm_symm, Equiv.apply_symm_apply]

theorem distance_renumber {x y : List ℝ} (hx : x.length = n) (hy : y.length = n) (h : Spec.Renumbers π n) :
    Spec.distance (Spec.renumbered π x) (Spec.renumbered π y) = Spec.distance x y := by
  unfold Spec.distance
  rw [zipWith_sum_range _ _ _ n (by rw [renumbered_length, hx]) (by rw [renumbered_length, hy]), zipWith_sum_range _ _ _ n hx hy]
  congr 1
  refine (Finset.sum_equiv π (fun i => by simp only [Finset.mem_range, h i]) fun i _ => ?_).symm
  rw [renumbered_getD x (hx.symm ▸ h), renumbered_getD y (hy.symm ▸ h)]

theorem equilibrium_renumber_one {A B : System} (h : Spec.SameStructure π A B) {û û' : Nat → ℝ} (hu : ∀ i, û' (π i) = û i) {l tol : ℝ}
    {u : List ℝ} (he : Spec.InEquilibrium A.flags A.scalar? û l tol u) :
    Spec.InEquilibrium B.flags B.scalar? û' l tol (Spec.renumbered π u) := by
  obtain ⟨h1, h2, E, h3, h4⟩ := he
  have hπ := h.renumbers
  refine ⟨by rw [renumbered_length, h1, h.flags.1], fun i hi => ?_, E, by rw [(assembled_renumbered h h1).1, h3], fun y hy hc => ?_⟩
  · obtain ⟨k, rfl⟩ := π.surjective i
    rw [h.flags.2] at hi
    rw [renumbered_get u (h1 ▸ hπ), hu, h2 k hi]
  · rw [h.flags.1] at hy
    have hz : (Spec.renumbered π.symm y).length = A.flags.length := by rw [renumbered_length, hy]
    have hs := hπ.symm
    rw [← hy] at hs
    obtain ⟨E', e1, e2⟩ := h4 (Spec.renumbered π.symm y) hz fun i hi => by
      rw [renumbered_get' y hs, Equiv.symm_symm, hc _ (by rw [h.flags.2, hi]), hu]
    have hys : Spec.renumbered π (Spec.renumbered π.symm y) = y := renumbered_symm' y (hy ▸ hπ)
    rw [← (assembled_renumbered h hz).1, hys] at e1
    refine ⟨E', e1, ?_⟩
    have := distance_renumber h1 hz hπ
    rw [hys] at this
    rw [this]
    exact e2

/-- C119, equilibria. The equilibria of the structure with renumbered dofs and reordered elements are the renumbered equilibria, with any
tolerance. -/
theorem equilibrium_renumbered {A B : System} (h : Spec.SameStructure π A B) {û û' : Nat → ℝ} (hu : ∀ i, û' (π i) = û i) (l tol : ℝ)
    {u : List ℝ} (hul : u.length = A.flags.length) :
    Spec.InEquilibrium B.flags B.scalar? û' l tol (Spec.renumbered π u) ↔ Spec.InEquilibrium A.flags A.scalar? û l tol u := by
  refine ⟨fun he => ?_, equilibrium_renumber_one h hu⟩
  have := equilibrium_renumber_one h.symm (û := û') (û' := û) (fun i => by rw [← hu, Equiv.apply_symm_apply]) he
  rwa [renumbered_symm u (hul ▸ h.renumbers)] at this

theorem count_eq_sum_free (fl : List Bool) : fl.count false = ∑ i ∈ Finset.range fl.length, if fl[i]? = some false then 1 else 0 := by
  induction fl with
  | nil => rfl
  | cons b fl ih =>
    rw [List.length_cons, Finset.sum_range_succ', List.count_cons, ih]
    simp only [List.getElem?_cons_succ, List.getElem?_cons_zero]
    cases b <;> rfl

theorem count_renumber {fl fl' : List Bool} (h : Spec.Renumbers π fl.length) (hf : Spec.RenumberedFlags π fl fl') :
    fl'.count false = fl.count false := by
  rw [count_eq_sum_free, count_eq_sum_free, hf.1]
  refine (Finset.sum_equiv π (fun i => by simp only [Finset.mem_range, h i]) fun i _ => ?_).symm
  rw [hf.2]

/-- C119, Reduced. Also the vectors and matrices without constrained dofs are those of the original structure: the entries of free dofs
are found at the positions of the renumbered dofs. -/
theorem reduced_renumbered {A B : System} (h : Spec.SameStructure π A B) {x r : List ℝ} {K : DMat ℝ} (hx : x.length = A.flags.length)
    (hr : A.rawVector? x = some r) (hK : A.rawMatrix? x = some K) :
    ∃ v v' k k', A.reducedVector? x = some v ∧ B.reducedVector? (Spec.renumbered π x) = some v' ∧ A.reducedMatrix? x = some k ∧
      B.reducedMatrix? (Spec.renumbered π x) = some k' ∧ v'.length = v.length ∧ k'.rows = k.rows ∧ k'.cols = k.cols ∧
      (∀ i, Spec.Free A.flags i → v'[Spec.rank B.flags (π i)]? = v[Spec.rank A.flags i]?) ∧
      ∀ i j, Spec.Free A.flags i → Spec.Free A.flags j →
        k'.get? (Spec.rank B.flags (π i)) (Spec.rank B.flags (π j)) = k.get? (Spec.rank A.flags i) (Spec.rank A.flags j) := by
  obtain ⟨-, h2, h3⟩ := assembled_renumbered h hx
  rw [hr, Option.map_some] at h2
  rw [hK, Option.map_some] at h3
  obtain ⟨fv, a1, a2⟩ := Option.bind_eq_some_iff.1 hr
  obtain ⟨fm, b1, b2⟩ := Option.bind_eq_some_iff.1 hK
  obtain ⟨fv', a1', a2'⟩ := Option.bind_eq_some_iff.1 h2
  obtain ⟨fm', b1', b2'⟩ := Option.bind_eq_some_iff.1 h3
  obtain ⟨k, k1, k2, k3, k4⟩ := reducedMatrix_eq A.flags fm K b2
  obtain ⟨k', k1', k2', k3', k4'⟩ := reducedMatrix_eq B.flags fm' _ b2'
  have hv := reducedVector_eq_select A.flags fv r a2
  have hv' := reducedVector_eq_select B.flags fv' _ a2'
  have hrl : r.length = A.flags.length := by
    have := (rawVector_eq_sum _ _ _ a2).1
    rwa [Assembler.size_create] at this
  have hc := count_renumber h.renumbers h.flags
  rw [Assembler.reducedSize?_create, Option.some.injEq] at k2 k3 k2' k3'
  have hfree : ∀ i, Spec.Free A.flags i → Spec.Free B.flags (π i) := fun i hi => (h.flags.2 i).trans hi
  refine ⟨Spec.selectFree A.flags r, Spec.selectFree B.flags (Spec.renumbered π r), k, k', ?_, ?_, ?_, ?_, ?_, ?_, ?_, fun i hi => ?_, fun i j hi hj => ?_⟩
  · unfold System.reducedVector?
    rw [a1, Option.bind_some, hv]
  · unfold System.reducedVector?
    rw [a1', Option.bind_some, hv']
  · unfold System.reducedMatrix?
    rw [b1, Option.bind_some, k1]
  · unfold System.reducedMatrix?
    rw [b1', Option.bind_some, k1']
  · rw [selectFree_length (by rw [renumbered_length, hrl, h.flags.1]), selectFree_length hrl, hc]
  · rw [← k2, ← k2', hc]
  · rw [← k3, ← k3', hc]
  · rw [selectFree_getElem? (by rw [renumbered_length, hrl, h.flags.1]) (hfree i hi), selectFree_getElem? hrl hi,
      renumbered_get r (hrl ▸ h.renumbers)]
  · obtain ⟨p, q, e1, e2, e3, e4, e5⟩ := k4 i j hi hj
    obtain ⟨p', q', e1', e2', e3', e4', e5'⟩ := k4' (π i) (π j) (hfree i hi) (hfree j hj)
    rw [Assembler.reducedIndex?_create (free_lt hi), Option.some.injEq] at e1
    rw [Assembler.reducedIndex?_create (free_lt hj), Option.some.injEq] at e2
    rw [Assembler.reducedIndex?_create (free_lt (hfree i hi)), Option.some.injEq] at e1'
    rw [Assembler.reducedIndex?_create (free_lt (hfree j hj)), Option.some.injEq] at e2'
    subst e1 e2 e1' e2'
    unfold DMat.get?
    rw [if_pos ⟨e3', e4'⟩, if_pos ⟨e3, e4⟩, e5, e5']
    show some (K.val (π.symm (π i)) (π.symm (π j))) = _
    rw [Equiv.symm_apply_apply, Equiv.symm_apply_apply]

/-! ### Three quadrilaterals -/

/-- The numbers of the dofs from last to first. -/
def exampleReversed : Equiv.Perm Nat :=
  Function.Involutive.toPerm (fun i => if i < 14 then 13 - i else i) fun i => by
    dsimp only
    split_ifs <;> omega

theorem exampleReversed_renumbers : Spec.Renumbers exampleReversed 14 := fun i => by
  show (if i < 14 then 13 - i else i) < 14 ↔ _
  split_ifs <;> omega

/-- The mesh of three quadrilaterals with the dofs numbered from last to first and the elements in reverse order. -/
noncomputable def exampleReversedSystem : System :=
  ⟨exampleMeshFlags.reverse,
    (((exampleMesh.quads.map (exampleMesh.param exampleMeshC)).map (·.at 1)).map (Spec.renumberedElem exampleReversed)).reverse⟩

theorem exampleReversed_same :
    Spec.SameStructure exampleReversed ((exampleMeshAnalysis .full).system 1) exampleReversedSystem where
  renumbers := exampleReversed_renumbers
  flags := by
    refine ⟨List.length_reverse, fun i => ?_⟩
    show exampleMeshFlags.reverse[if i < 14 then 13 - i else i]? = exampleMeshFlags[i]?
    by_cases hi : i < 14
    · rw [if_pos hi, List.getElem?_reverse (show 13 - i < 14 by omega)]
      congr 1
      show 14 - 1 - (13 - i) = i
      omega
    · rw [if_neg hi, List.getElem?_eq_none (show 14 ≤ i by omega), List.getElem?_eq_none (show 14 ≤ i by omega)]
  elems := List.reverse_perm _

example (l tol : ℝ) (u : List ℝ) (hu : u.length = 14) :
    Spec.InEquilibrium exampleMeshFlags.reverse exampleReversedSystem.scalar? (fun i => exampleMeshSupport (exampleReversed i)) l tol
      (Spec.renumbered exampleReversed u) ↔
    Spec.InEquilibrium exampleMeshFlags ((exampleMeshAnalysis .full).system 1).scalar? exampleMeshSupport l tol u :=
  equilibrium_renumbered exampleReversed_same (û' := fun i => exampleMeshSupport (exampleReversed i)) (fun i => congrArg exampleMeshSupport (exampleReversed.symm_apply_apply i)) l tol hu

end Ikarus
