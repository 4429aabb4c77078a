import Verif.FE.TurnProps
import Verif.Analysis.PatchMeshProps

/-!
C114, structures: the assembled quantities of a turned structure are the turned ones.
-/

namespace Ikarus

open Matrix Element Element.Spec Assembler

variable {k d size : Nat} {Q : Matrix (Fin d) (Fin d) ℝ}

/-! ### Specification -/

/-- The dofs of a structure: every node has one for each direction, and there are no others. -/
structure Spec.Layout (k d size : Nat) where
  dof : Fin k → Fin d → Nat
  bound : ∀ p a, dof p a < size
  inj : ∀ {p a p' a'}, dof p a = dof p' a' → p = p' ∧ a = a'
  all : ∀ i < size, ∃ p a, dof p a = i

/-- The vector `x'` is `x` with the values of all nodes turned by `Q`. -/
structure Spec.TurnedList (L : Spec.Layout k d size) (Q : Matrix (Fin d) (Fin d) ℝ) (x x' : List ℝ) : Prop where
  length : x.length = size
  length' : x'.length = size
  value : ∀ p a, x'.getD (L.dof p a) 0 = ∑ b, Q a b * x.getD (L.dof p b) 0

/-- The matrix `K'` is `K` with the blocks of all pairs of nodes turned by `Q`. -/
def Spec.TurnedMatrix (L : Spec.Layout k d size) (Q : Matrix (Fin d) (Fin d) ℝ) (K K' : DMat ℝ) : Prop :=
  ∀ p q a b, K'.val (L.dof p a) (L.dof q b) = ∑ c, ∑ e, Q a c * K.val (L.dof p c) (L.dof q e) * Q b e

/-- An element of the structure and the one at its place in the turned structure. -/
structure Spec.Twin (d : Nat) where
  n : Nat
  children : List FETree
  index : List Nat
  skills : List (Skill n d)
  skills' : List (Skill n d)

/-- The element. -/
def Spec.Twin.first (t : Spec.Twin d) : Elem := ⟨t.n, d, t.children, t.index, t.skills⟩

/-- The turned element. -/
def Spec.Twin.second (t : Spec.Twin d) : Elem := ⟨t.n, d, t.children, t.index, t.skills'⟩

/-- The dofs of the element are those of nodes of the structure. -/
def Spec.Twin.At (t : Spec.Twin d) (L : Spec.Layout k d size) : Prop :=
  Spec.ElemFits size t.first ∧ ∃ nodes : Fin t.n → Fin k, ∀ dofs, t.first.dofs? = some dofs →
    ∀ (I : Fin t.n) (a : Fin d), dofs.getD (I * d + a) 0 = L.dof (nodes I) a

/-- The supports hold nodes in all directions or not at all. -/
def Spec.WholeNodes (flags : List Bool) (L : Spec.Layout k d flags.length) : Prop :=
  ∀ p a b, Spec.Free flags (L.dof p a) → Spec.Free flags (L.dof p b)

/-- The turning does not mix dofs that are free with dofs that are held. Supports that hold nodes in all directions or not at all
are not mixed by any turning; a reflection in a coordinate plane mixes no supports, so that rollers may be reflected. -/
def Spec.Unmixed (flags : List Bool) (L : Spec.Layout k d flags.length) (Q : Matrix (Fin d) (Fin d) ℝ) : Prop :=
  ∀ p a b, Q a b ≠ 0 → (Spec.Free flags (L.dof p a) ↔ Spec.Free flags (L.dof p b))

/-- The correction `D` of Newton's method: it does not move the supports and removes the residual `r` at the free dofs. -/
def Spec.Correction (flags : List Bool) (K : DMat ℝ) (r D : List ℝ) : Prop :=
  (∀ i < flags.length, ¬ Spec.Free flags i → D.getD i 0 = 0) ∧
    ∀ i, Spec.Free flags i → ∑ j ∈ Finset.range flags.length, K.val i j * D.getD j 0 + r.getD i 0 = 0

/-! ### Lemmas -/

theorem twin_local {t : Spec.Twin d} {L : Spec.Layout k d size} (h : t.At L) :
    ∃ nodes : Fin t.n → Fin k, ∀ x : List ℝ, x.length = size →
      t.first.local? x = some fun I a => x.getD (L.dof (nodes I) a) 0 := by
  obtain ⟨⟨h1, h2, dofs, h3, h4⟩, nodes, hn⟩ := h
  refine ⟨nodes, fun x hx => ?_⟩
  obtain ⟨-, X, -, hl, -⟩ := local_eq h1 h2 h3 h4 x hx
  rw [hl]
  refine congrArg some (funext fun I => funext fun a => ?_)
  exact congrArg (fun i => x.getD i 0) (hn dofs h3 I a)

theorem rawMatrix_of_matrices {β : Type*} {flags : List Bool} (l : List β) (el : β → Elem)
    (hfit : ∀ b ∈ l, Spec.ElemFits flags.length (el b)) {y : List ℝ}
    (hy : y.length = flags.length) (M : (b : β) → BlockMat (el b).n (el b).d)
    (hM : ∀ b ∈ l, ∀ u, (el b).local? y = some u → Mixin.calculateMatrix u (el b).skills 0 = some (M b)) :
    ∃ K, (System.mk flags (l.map el)).rawMatrix? y = some K ∧ ∀ u v : List ℝ, u.length = flags.length → v.length = flags.length →
      ∑ r ∈ Finset.range flags.length, ∑ c ∈ Finset.range flags.length, u.getD r 0 * K.val r c * v.getD c 0 =
        (l.map fun b => work (mul (M b) (((el b).local? v).getD 0)) (((el b).local? u).getD 0)).sum := by
  have hd : ∀ b ∈ l, (el b).dofs? = some ((el b).dofs?.getD []) ∧ (∀ i ∈ (el b).dofs?.getD [], i < flags.length) ∧
      ∀ x : List ℝ, x.length = flags.length → ((el b).dofs?.getD []).length = (el b).n * (el b).d ∧
        ∃ X, FETree.localSolution (el b).children.length x (el b).index (.power (el b).children) none = some X ∧
          (el b).local? x = some (gathered (el b).n (el b).d ((el b).dofs?.getD []) x) ∧
          X.flatten = Elem.flat (gathered (el b).n (el b).d ((el b).dofs?.getD []) x) := fun b hb => by
    obtain ⟨h1, h2, dofs, h3, h4⟩ := hfit b hb
    rw [h3]
    exact ⟨rfl, h4, fun x hx => local_eq h1 h2 h3 h4 x hx⟩
  have hv : mapOpt (·.matrix? y) (l.map el) = some (l.map fun b => ⟨(el b).dofs?.getD [], Elem.flatMat (M b)⟩) :=
    mapOpt_map (fun e : Elem => e.matrix? y) el (fun b => ⟨(el b).dofs?.getD [], Elem.flatMat (M b)⟩) l
      fun b hb => by
        obtain ⟨h1, -, h2⟩ := hd b hb
        obtain ⟨-, X, -, hl, -⟩ := h2 y hy
        unfold Elem.matrix?
        rw [h1, Option.bind_some, hl, Option.bind_some, hM b hb _ hl, Option.map_some]
        rfl
  unfold System.rawMatrix?
  rw [hv, Option.bind_some]
  obtain ⟨K, hK⟩ := (rawMatrix_defined_iff (Assembler.create flags)
    (l.map fun b => ⟨(el b).dofs?.getD [], Elem.flatMat (M b)⟩)).2 (by
      intro e he
      obtain ⟨r, hr, rfl⟩ := List.mem_map.1 he
      have := ((hd r hr).2.2 y hy).1
      exact ⟨fun _ => ⟨this.le, this.le⟩, (hd r hr).2.1⟩)
  refine ⟨K, hK, fun u v hu hv => ?_⟩
  have := assembly_adjoint_matrix (Assembler.create flags) u v K
    (l.map fun b => (⟨(el b).index, (el b).children, Elem.flat (gathered (el b).n (el b).d ((el b).dofs?.getD []) v),
      Elem.flatMat (M b), (el b).dofs?.getD [], Elem.flat (gathered (el b).n (el b).d ((el b).dofs?.getD []) v)⟩,
      Elem.flat (gathered (el b).n (el b).d ((el b).dofs?.getD []) u))) hu hv (by
      intro e he
      obtain ⟨r, hr, rfl⟩ := List.mem_map.1 he
      obtain ⟨h1, X, hX, -, hfl⟩ := (hd r hr).2.2 v hv
      obtain ⟨h1', X', hX', -, hfl'⟩ := (hd r hr).2.2 u hu
      exact ⟨⟨(hd r hr).1, ⟨X, hX, hfl.symm⟩, by rw [flat_length, h1]⟩,
        ⟨(hd r hr).1, ⟨X', hX', hfl'.symm⟩, by rw [flat_length, h1]⟩⟩) (by rw [List.map_map]; exact hK)
  rw [show (Assembler.create flags).size = flags.length from rfl] at this
  rw [this, List.map_map]
  congr 1
  refine List.map_congr_left fun b hb => ?_
  obtain ⟨h1, X, -, hl, -⟩ := (hd b hb).2.2 v hv
  obtain ⟨-, X', -, hl', -⟩ := (hd b hb).2.2 u hu
  rw [hl, hl', Option.getD_some, Option.getD_some]
  show ∑ i ∈ Finset.range ((el b).dofs?.getD []).length, ∑ j ∈ Finset.range ((el b).dofs?.getD []).length, _ = _
  rw [h1]
  exact bilinear_flat _ _ _

theorem layout_sum (L : Spec.Layout k d size) (f : Nat → ℝ) : ∑ i ∈ Finset.range size, f i = ∑ p, ∑ a, f (L.dof p a) := by
  rw [← Fintype.sum_prod_type' (fun p a => f (L.dof p a))]
  symm
  refine Finset.sum_bij (fun x _ => L.dof x.1 x.2) (fun x _ => Finset.mem_range.2 (L.bound _ _)) (fun x _ y _ h => ?_)
    (fun i hi => ?_) fun x _ => rfl
  · obtain ⟨h1, h2⟩ := L.inj h
    exact Prod.ext h1 h2
  · obtain ⟨p, a, h⟩ := L.all i (Finset.mem_range.1 hi)
    exact ⟨(p, a), Finset.mem_univ _, h⟩

theorem layout_list (L : Spec.Layout k d size) (f : Fin k → Fin d → ℝ) :
    ∃ w : List ℝ, w.length = size ∧ ∀ p a, w.getD (L.dof p a) 0 = f p a := by
  classical
  refine ⟨(List.range size).map fun i => if h : ∃ x : Fin k × Fin d, L.dof x.1 x.2 = i then f h.choose.1 h.choose.2 else 0,
    by simp, fun p' b => ?_⟩
  have hex : ∃ x : Fin k × Fin d, L.dof x.1 x.2 = L.dof p' b := ⟨(p', b), rfl⟩
  obtain ⟨h1, h2⟩ := L.inj hex.choose_spec
  rw [List.getD_eq_getElem?_getD, List.getElem?_map, List.getElem?_range (L.bound p' b)]
  simp only [Option.map_some, Option.getD_some]
  rw [dif_pos hex, h1, h2]

theorem turned_exists (L : Spec.Layout k d size) (Q : Matrix (Fin d) (Fin d) ℝ) {x : List ℝ} (hx : x.length = size) :
    ∃ x', Spec.TurnedList L Q x x' := by
  obtain ⟨w, h1, h2⟩ := layout_list L fun p a => ∑ b, Q a b * x.getD (L.dof p b) 0
  exact ⟨w, hx, h1, h2⟩

theorem turned_back {L : Spec.Layout k d size} (hQ : Qᵀ * Q = 1) {x x' : List ℝ} (h : Spec.TurnedList L Q x x') :
    Spec.TurnedList L Qᵀ x' x where
  length := h.length'
  length' := h.length
  value p a := by
    have e : (fun b => x'.getD (L.dof p b) 0) = Q *ᵥ fun b => x.getD (L.dof p b) 0 := funext fun b => h.value p b
    have e2 : Qᵀ *ᵥ (fun b => x'.getD (L.dof p b) 0) = fun b => x.getD (L.dof p b) 0 := by
      rw [e, Matrix.mulVec_mulVec, hQ, Matrix.one_mulVec]
    exact (congrFun e2 a).symm

theorem turned_from {L : Spec.Layout k d size} (hQ : Qᵀ * Q = 1) {x' : List ℝ} (hx : x'.length = size) :
    ∃ x, Spec.TurnedList L Q x x' := by
  obtain ⟨x, h⟩ := turned_exists L Qᵀ hx
  have := turned_back (Q := Qᵀ) (by rw [Matrix.transpose_transpose]; exact orth_comm hQ) h
  rw [Matrix.transpose_transpose] at this
  exact ⟨x, this⟩

theorem turned_zero (L : Spec.Layout k d size) : Spec.TurnedList L Q (List.replicate size 0) (List.replicate size 0) := by
  have h : ∀ i, (List.replicate size (0 : ℝ)).getD i 0 = 0 := fun i => by
    rw [List.getD_eq_getElem?_getD, List.getElem?_replicate]
    split <;> rfl
  exact ⟨by simp, by simp, fun p a => by simp only [h, mul_zero, Finset.sum_const_zero]⟩

theorem unit_back (L : Spec.Layout k d size) (hQ : Qᵀ * Q = 1) (p : Fin k) (a : Fin d) :
    ∃ w w' : List ℝ, Spec.TurnedList L Q w w' ∧ (∀ p' b, w.getD (L.dof p' b) 0 = if p' = p then Q a b else 0) ∧
      ∀ p' b, w'.getD (L.dof p' b) 0 = if p' = p ∧ b = a then 1 else 0 := by
  classical
  obtain ⟨w, hw, hwv⟩ := layout_list L fun p' b => if p' = p then Q a b else 0
  obtain ⟨w', hw', hwv'⟩ := layout_list L fun p' b => if p' = p ∧ b = a then 1 else 0
  refine ⟨w, w', ⟨hw, hw', fun p' b => ?_⟩, hwv, hwv'⟩
  rw [hwv']
  simp only [hwv]
  by_cases hp : p' = p
  · simp only [hp, true_and, if_true]
    have := congrFun (congrFun (orth_comm hQ) b) a
    rw [Matrix.mul_apply] at this
    simp only [Matrix.transpose_apply, Matrix.one_apply] at this
    exact this.symm
  · simp [hp]

/-! ### The assembled quantities -/

section System

variable {flags : List Bool} (L : Spec.Layout k d flags.length) {ts : List (Spec.Twin d)} {x x' : List ℝ}

theorem local_turn (hat : ∀ t ∈ ts, t.At L) {w w' : List ℝ} (hw : Spec.TurnedList L Q w w') {t : Spec.Twin d} (ht : t ∈ ts) :
    ∃ u, t.first.local? w = some u ∧ t.second.local? w' = some (turn Q u) := by
  obtain ⟨nodes, hn⟩ := twin_local (hat t ht)
  refine ⟨_, hn w hw.length, (hn w' hw.length').trans (congrArg some (funext fun I => funext fun a => ?_))⟩
  exact hw.value (nodes I) a

/-- C114, assembled forces. If the skills of all elements are turned, the assembled vector is turned. -/
theorem assembled_vector_turn (hQ : Qᵀ * Q = 1) (hat : ∀ t ∈ ts, t.At L) (hx : x.length = flags.length)
    (hx' : x'.length = flags.length)
    (hsk : ∀ t ∈ ts, ∀ u u', t.first.local? x = some u → t.second.local? x' = some u' →
      List.Forall₂ (Spec.TurnedSkill Q u u') t.skills t.skills')
    {r : List ℝ} (hr : (System.mk flags (ts.map Spec.Twin.first)).rawVector? x = some r) :
    ∃ r', (System.mk flags (ts.map Spec.Twin.second)).rawVector? x' = some r' ∧ Spec.TurnedList L Q r r' := by
  have hsome : ∀ t ∈ ts, ∃ f, Mixin.calculateVector ((t.first.local? x).getD 0) t.skills 0 = some f := by
    intro t ht
    obtain ⟨nodes, hn⟩ := twin_local (hat t ht)
    have hr := hr
    unfold System.rawVector? at hr
    obtain ⟨vs, hvs, -⟩ := Option.bind_eq_some_iff.1 hr
    rw [mapOpt_eq_some] at hvs
    have hmem : t.first.vector? x ∈ (ts.map Spec.Twin.first).map (·.vector? x) :=
      List.mem_map.2 ⟨_, List.mem_map_of_mem ht, rfl⟩
    have hmem2 : t.first.vector? x ∈ vs.map some := hvs ▸ hmem
    obtain ⟨v, -, hv⟩ := List.mem_map.1 hmem2
    unfold Elem.vector? at hv
    obtain ⟨dofs, -, hv⟩ := Option.bind_eq_some_iff.1 hv.symm
    obtain ⟨u, hu, hv⟩ := Option.bind_eq_some_iff.1 hv
    obtain ⟨f, hf, -⟩ := Option.map_eq_some_iff.1 hv
    rw [hu]
    exact ⟨f, hf⟩
  obtain ⟨r0, h1, h2, h3⟩ := rawVector_of_vectors (flags := flags) ts Spec.Twin.first (fun t ht => (hat t ht).1) hx
    (fun t => (Mixin.calculateVector ((t.first.local? x).getD 0) t.skills 0).getD 0) (fun t ht u hu => by
      obtain ⟨f, hf⟩ := hsome t ht
      rw [hf]
      rw [hu] at hf
      exact hf)
  obtain rfl := Option.some.inj (hr.symm.trans h1)
  obtain ⟨r', h1', h2', h3'⟩ := rawVector_of_vectors (flags := flags) ts Spec.Twin.second (fun t ht => (hat t ht).1) hx'
    (fun t => turn Q ((Mixin.calculateVector ((t.first.local? x).getD 0) t.skills 0).getD 0)) (fun t ht u' hu' => by
      obtain ⟨f, hf⟩ := hsome t ht
      obtain ⟨nodes, hn⟩ := twin_local (hat t ht)
      have hu := hn x hx
      rw [hf, Option.getD_some]
      rw [hu] at hf
      have := (mixin_turn.1 (hsk t ht _ _ hu hu')).vector 0
      rw [turn_zero] at this
      exact this.trans (congrArg (Option.map (turn Q)) hf))
  have hadj : ∀ w w', Spec.TurnedList L Q w w' → Spec.dotL r' w' = Spec.dotL r w := by
    intro w w' hw
    rw [h3 w hw.length, h3' w' hw.length']
    congr 1
    refine List.map_congr_left fun t ht => ?_
    obtain ⟨u, hu, hu'⟩ := local_turn L hat hw ht
    rw [hu, hu']
    exact work_turn hQ _ _
  refine ⟨r', h1', h2, h2', fun p a => ?_⟩
  obtain ⟨w, w', hw, hv, hv'⟩ := unit_back L hQ p a
  have := hadj w w' hw
  rw [dotL_eq_sum _ _ flags.length h2' hw.length', dotL_eq_sum _ _ flags.length h2 hw.length,
    layout_sum L (fun i => r'.getD i 0 * w'.getD i 0), layout_sum L (fun i => r.getD i 0 * w.getD i 0)] at this
  simp only [hv, hv'] at this
  have e1 : ∑ p', ∑ b, r'.getD (L.dof p' b) 0 * (if p' = p ∧ b = a then (1 : ℝ) else 0) = r'.getD (L.dof p a) 0 := by
    rw [Finset.sum_eq_single p (fun q _ hq => by simp [hq]) (by simp), Finset.sum_eq_single a (fun b _ hb => by simp [hb]) (by simp)]
    simp
  have e2 : ∑ p', ∑ b, r.getD (L.dof p' b) 0 * (if p' = p then Q a b else 0) = ∑ b, Q a b * r.getD (L.dof p b) 0 := by
    rw [Finset.sum_eq_single p (fun q _ hq => by simp [hq]) (by simp)]
    exact Finset.sum_congr rfl fun b _ => by rw [if_pos rfl, mul_comm]
  rw [e1, e2] at this
  exact this

/-- C114, assembled matrices. If the skills of all elements are turned, the assembled matrix is turned. -/
theorem assembled_matrix_turn (hQ : Qᵀ * Q = 1) (hat : ∀ t ∈ ts, t.At L) (hx : x.length = flags.length)
    (hx' : x'.length = flags.length)
    (hsk : ∀ t ∈ ts, ∀ u u', t.first.local? x = some u → t.second.local? x' = some u' →
      List.Forall₂ (Spec.TurnedSkill Q u u') t.skills t.skills')
    {K : DMat ℝ} (hK : (System.mk flags (ts.map Spec.Twin.first)).rawMatrix? x = some K) :
    ∃ K', (System.mk flags (ts.map Spec.Twin.second)).rawMatrix? x' = some K' ∧ Spec.TurnedMatrix L Q K K' := by
  have hsome : ∀ t ∈ ts, ∃ f, Mixin.calculateMatrix ((t.first.local? x).getD 0) t.skills 0 = some f := by
    intro t ht
    obtain ⟨nodes, hn⟩ := twin_local (hat t ht)
    have hK := hK
    unfold System.rawMatrix? at hK
    obtain ⟨vs, hvs, -⟩ := Option.bind_eq_some_iff.1 hK
    rw [mapOpt_eq_some] at hvs
    have hmem : t.first.matrix? x ∈ (ts.map Spec.Twin.first).map (·.matrix? x) :=
      List.mem_map.2 ⟨_, List.mem_map_of_mem ht, rfl⟩
    have hmem2 : t.first.matrix? x ∈ vs.map some := hvs ▸ hmem
    obtain ⟨v, -, hv⟩ := List.mem_map.1 hmem2
    unfold Elem.matrix? at hv
    obtain ⟨dofs, -, hv⟩ := Option.bind_eq_some_iff.1 hv.symm
    obtain ⟨u, hu, hv⟩ := Option.bind_eq_some_iff.1 hv
    obtain ⟨f, hf, -⟩ := Option.map_eq_some_iff.1 hv
    rw [hu]
    exact ⟨f, hf⟩
  obtain ⟨K0, h1, h3⟩ := rawMatrix_of_matrices (flags := flags) ts Spec.Twin.first (fun t ht => (hat t ht).1) hx
    (fun t => (Mixin.calculateMatrix ((t.first.local? x).getD 0) t.skills 0).getD 0) (fun t ht u hu => by
      obtain ⟨f, hf⟩ := hsome t ht
      rw [hf]
      rw [hu] at hf
      exact hf)
  obtain rfl := Option.some.inj (hK.symm.trans h1)
  obtain ⟨K', h1', h3'⟩ := rawMatrix_of_matrices (flags := flags) ts Spec.Twin.second (fun t ht => (hat t ht).1) hx'
    (fun t => turnMat Q ((Mixin.calculateMatrix ((t.first.local? x).getD 0) t.skills 0).getD 0)) (fun t ht u' hu' => by
      obtain ⟨f, hf⟩ := hsome t ht
      obtain ⟨nodes, hn⟩ := twin_local (hat t ht)
      have hu := hn x hx
      rw [hf, Option.getD_some]
      rw [hu] at hf
      have := (mixin_turn.1 (hsk t ht _ _ hu hu')).matrix 0 (fun I J a b => rfl)
      rw [turnMat_zero] at this
      exact this.trans (congrArg (Option.map (turnMat Q)) hf))
  have hmul : ∀ {n : Nat} (M : BlockMat n d) (u v : NodeVec n d), work (mul (turnMat Q M) (turn Q v)) (turn Q u) = work (mul M v) u := by
    intro n M u v
    rw [← work_turn hQ (mul M v) u]
    congr 1
    funext I
    show (fun a => ∑ J, ∑ b, (Q * M I J * Qᵀ) a b * (Q *ᵥ v J) b) = Q *ᵥ fun a => ∑ J, ∑ b, M I J a b * v J b
    have e1 : (fun a => ∑ J, ∑ b, (Q * M I J * Qᵀ) a b * (Q *ᵥ v J) b) = ∑ J, (Q * M I J * Qᵀ) *ᵥ (Q *ᵥ v J) := by
      funext a
      rw [Finset.sum_apply]
      rfl
    have e2 : (fun a => ∑ J, ∑ b, M I J a b * v J b) = ∑ J, M I J *ᵥ v J := by
      funext a
      rw [Finset.sum_apply]
      rfl
    rw [e1, e2, Matrix.mulVec_sum]
    refine Finset.sum_congr rfl fun J _ => ?_
    rw [Matrix.mulVec_mulVec, Matrix.mulVec_mulVec, Matrix.mul_assoc, hQ, Matrix.mul_one]
  have hadj : ∀ w w' v v', Spec.TurnedList L Q w w' → Spec.TurnedList L Q v v' →
      ∑ r ∈ Finset.range flags.length, ∑ c ∈ Finset.range flags.length, w'.getD r 0 * K'.val r c * v'.getD c 0 =
      ∑ r ∈ Finset.range flags.length, ∑ c ∈ Finset.range flags.length, w.getD r 0 * K.val r c * v.getD c 0 := by
    intro w w' v v' hw hv
    rw [h3 w v hw.length hv.length, h3' w' v' hw.length' hv.length']
    congr 1
    refine List.map_congr_left fun t ht => ?_
    obtain ⟨u, hu, hu'⟩ := local_turn L hat hw ht
    obtain ⟨z, hz, hz'⟩ := local_turn L hat hv ht
    rw [hu, hu', hz, hz']
    exact hmul _ _ _
  refine ⟨K', h1', fun p q a b => ?_⟩
  obtain ⟨w, w', hw, hwv, hwv'⟩ := unit_back L hQ p a
  obtain ⟨v, v', hv, hvv, hvv'⟩ := unit_back L hQ q b
  have := hadj w w' v v' hw hv
  rw [layout_sum L (fun r => ∑ c ∈ Finset.range flags.length, w'.getD r 0 * K'.val r c * v'.getD c 0),
    layout_sum L (fun r => ∑ c ∈ Finset.range flags.length, w.getD r 0 * K.val r c * v.getD c 0)] at this
  have hs : ∀ (w v : List ℝ) (K : DMat ℝ) (r : Nat), ∑ c ∈ Finset.range flags.length, w.getD r 0 * K.val r c * v.getD c 0 =
      ∑ q', ∑ e, w.getD r 0 * K.val r (L.dof q' e) * v.getD (L.dof q' e) 0 := fun w v K r =>
    layout_sum L (fun c => w.getD r 0 * K.val r c * v.getD c 0)
  simp only [hs] at this
  simp only [hwv, hwv', hvv, hvv'] at this
  have e1 : ∑ p', ∑ c, ∑ q', ∑ e, (if p' = p ∧ c = a then (1 : ℝ) else 0) * K'.val (L.dof p' c) (L.dof q' e) *
      (if q' = q ∧ e = b then (1 : ℝ) else 0) = K'.val (L.dof p a) (L.dof q b) := by
    rw [Finset.sum_eq_single p (fun p' _ hp => by simp [hp]) (by simp), Finset.sum_eq_single a (fun c _ hc => by simp [hc]) (by simp),
      Finset.sum_eq_single q (fun q' _ hq => by simp [hq]) (by simp), Finset.sum_eq_single b (fun e _ he => by simp [he]) (by simp)]
    simp
  have e2 : ∑ p', ∑ c, ∑ q', ∑ e, (if p' = p then Q a c else 0) * K.val (L.dof p' c) (L.dof q' e) *
      (if q' = q then Q b e else 0) = ∑ c, ∑ e, Q a c * K.val (L.dof p c) (L.dof q e) * Q b e := by
    rw [Finset.sum_eq_single p (fun p' _ hp => by simp [hp]) (by simp)]
    refine Finset.sum_congr rfl fun c _ => ?_
    rw [Finset.sum_eq_single q (fun q' _ hq => by simp [hq]) (by simp)]
    exact Finset.sum_congr rfl fun e _ => by rw [if_pos rfl, if_pos rfl]
  rw [e1, e2] at this
  exact this

/-- C114, energy. The energy of the turned structure is the same. -/
theorem assembled_scalar_turn (hat : ∀ t ∈ ts, t.At L) (hx : x.length = flags.length) (hx' : x'.length = flags.length)
    (hsk : ∀ t ∈ ts, ∀ u u', t.first.local? x = some u → t.second.local? x' = some u' →
      List.Forall₂ (Spec.SameEnergy u u') t.skills t.skills') :
    (System.mk flags (ts.map Spec.Twin.second)).scalar? x' = (System.mk flags (ts.map Spec.Twin.first)).scalar? x := by
  unfold System.scalar?
  congr 1
  refine mapOpt_forall₂ (R := fun e e' => ∃ t ∈ ts, e = Spec.Twin.first t ∧ e' = Spec.Twin.second t)
    (forall_map ts _ _ fun t ht => ⟨t, ht, rfl, rfl⟩) ?_
  rintro _ - _ ⟨t, ht, rfl, rfl⟩
  obtain ⟨nodes, hn⟩ := twin_local (hat t ht)
  have hu := hn x hx
  have hu' : t.second.local? x' = _ := hn x' hx'
  unfold Elem.scalar?
  rw [hu, hu']
  exact (mixin_turn (Q := (1 : Matrix (Fin d) (Fin d) ℝ))).2 (hsk t ht _ _ hu hu')

/-! ### Equilibrium and corrections -/

theorem turned_node {x x' : List ℝ} (h : Spec.TurnedList L Q x x') (p : Fin k) :
    (fun a => x'.getD (L.dof p a) 0) = Q *ᵥ fun a => x.getD (L.dof p a) 0 := funext fun a => h.value p a

theorem unmixed_whole (h : Spec.WholeNodes flags L) (Q : Matrix (Fin d) (Fin d) ℝ) : Spec.Unmixed flags L Q :=
  fun p a b _ => ⟨h p a b, h p b a⟩

theorem unmixed_diagonal (v : Fin d → ℝ) : Spec.Unmixed flags L (Matrix.diagonal v) := by
  intro p a b h
  by_cases e : a = b
  · rw [e]
  · exact absurd (Matrix.diagonal_apply_ne v e) h

theorem unmixed_transpose (h : Spec.Unmixed flags L Q) : Spec.Unmixed flags L Qᵀ :=
  fun p a b hq => (h p b a hq).symm

/-- The entries of a vector of node `p` that pass the test. -/
noncomputable def masked (s : Nat → Prop) (L : Spec.Layout k d size) (p : Fin k) (v : Fin d → ℝ) : Fin d → ℝ := by
  classical
  exact fun a => if s (L.dof p a) then v a else 0

theorem masked_zero (s : Nat → Prop) (L : Spec.Layout k d size) (p : Fin k) (v : Fin d → ℝ) :
    masked s L p v = 0 ↔ ∀ a, s (L.dof p a) → v a = 0 := by
  classical
  rw [funext_iff]
  refine forall_congr' fun a => ?_
  unfold masked
  by_cases h : s (L.dof p a)
  · simp [h]
  · simp [h]

theorem masked_turn {s : Nat → Prop} {L : Spec.Layout k d size} (h : ∀ p a b, Q a b ≠ 0 → (s (L.dof p a) ↔ s (L.dof p b))) (p : Fin k)
    (v : Fin d → ℝ) : masked s L p (Q *ᵥ v) = Q *ᵥ masked s L p v := by
  classical
  funext a
  show (if s (L.dof p a) then ∑ b, Q a b * v b else 0) = ∑ b, Q a b * (if s (L.dof p b) then v b else 0)
  by_cases ha : s (L.dof p a)
  · rw [if_pos ha]
    refine Finset.sum_congr rfl fun b _ => ?_
    by_cases hq : Q a b = 0
    · rw [hq, zero_mul, zero_mul]
    · rw [if_pos ((h p a b hq).1 ha)]
  · rw [if_neg ha]
    refine (Finset.sum_eq_zero fun b _ => ?_).symm
    by_cases hq : Q a b = 0
    · rw [hq, zero_mul]
    · rw [if_neg fun hb => ha ((h p a b hq).2 hb), mul_zero]

/-- C114, equilibrium. If the turning does not mix free and held dofs, the residuals of the structure and of the turned structure
at the free dofs are of the same size: one is in equilibrium, up to any tolerance, if and only if the other is. -/
theorem free_residual_turn (hQ : Qᵀ * Q = 1) (hf : Spec.Unmixed flags L Q) {r r' : List ℝ} (h : Spec.TurnedList L Q r r') :
    freeSq flags (r'.getD · 0) = freeSq flags (r.getD · 0) := by
  classical
  unfold freeSq
  rw [Finset.sum_filter, Finset.sum_filter, layout_sum L, layout_sum L]
  refine Finset.sum_congr rfl fun p _ => ?_
  have e : ∀ x : List ℝ, (∑ a, if Spec.Free flags (L.dof p a) then x.getD (L.dof p a) 0 * x.getD (L.dof p a) 0 else 0) =
      masked (Spec.Free flags) L p (fun a => x.getD (L.dof p a) 0) ⬝ᵥ masked (Spec.Free flags) L p (fun a => x.getD (L.dof p a) 0) := by
    intro x
    refine Finset.sum_congr rfl fun a _ => ?_
    unfold masked
    by_cases ha : Spec.Free flags (L.dof p a)
    · simp [ha]
    · simp [ha]
  have := orth_dot hQ (masked (Spec.Free flags) L p fun a => r.getD (L.dof p a) 0)
    (masked (Spec.Free flags) L p fun a => r.getD (L.dof p a) 0)
  rw [← masked_turn hf, ← turned_node L h p, ← e, ← e] at this
  exact this

theorem correction_nodes (K : DMat ℝ) (r D : List ℝ) :
    Spec.Correction flags K r D ↔ ∀ p : Fin k,
      masked (fun i => ¬ Spec.Free flags i) L p (fun a => D.getD (L.dof p a) 0) = 0 ∧
      masked (Spec.Free flags) L p ((∑ q, (Matrix.of fun a b => K.val (L.dof p a) (L.dof q b)) *ᵥ fun b => D.getD (L.dof q b) 0) +
        (fun a => r.getD (L.dof p a) 0)) = 0 := by
  have hs : ∀ p a, ((∑ q, (Matrix.of fun a b => K.val (L.dof p a) (L.dof q b)) *ᵥ fun b => D.getD (L.dof q b) 0) +
        (fun a => r.getD (L.dof p a) 0)) a =
      ∑ j ∈ Finset.range flags.length, K.val (L.dof p a) j * D.getD j 0 + r.getD (L.dof p a) 0 := by
    intro p a
    rw [Pi.add_apply, Finset.sum_apply, layout_sum L (fun j => K.val (L.dof p a) j * D.getD j 0)]
    rfl
  simp only [masked_zero]
  constructor
  · rintro ⟨h1, h2⟩ p
    exact ⟨fun a h => h1 _ (L.bound p a) h, fun a h => by rw [hs]; exact h2 _ h⟩
  · intro h
    refine ⟨fun i hi hn => ?_, fun i hi => ?_⟩
    · obtain ⟨p, a, rfl⟩ := L.all i hi
      exact (h p).1 a hn
    · have hlt : i < flags.length := by
        by_contra hge
        rw [Spec.Free, List.getElem?_eq_none (not_lt.1 hge)] at hi
        exact absurd hi (by simp)
      obtain ⟨p, a, rfl⟩ := L.all i hlt
      rw [← hs]
      exact (h p).2 a hi

/-- C114, Newton's method. The corrections of the turned structure are the turned corrections. -/
theorem correction_turn (hQ : Qᵀ * Q = 1) (hf : Spec.Unmixed flags L Q) {K K' : DMat ℝ} (hK : Spec.TurnedMatrix L Q K K')
    {r r' D D' : List ℝ} (hr : Spec.TurnedList L Q r r') (hD : Spec.TurnedList L Q D D') :
    Spec.Correction flags K' r' D' ↔ Spec.Correction flags K r D := by
  have hz : ∀ v : Fin d → ℝ, Q *ᵥ v = 0 ↔ v = 0 := fun v => by
    constructor
    · intro h
      rw [← Matrix.one_mulVec v, ← hQ, ← Matrix.mulVec_mulVec, h, Matrix.mulVec_zero]
    · rintro rfl
      exact Matrix.mulVec_zero _
  have hb : ∀ p q, (Matrix.of fun a b => K'.val (L.dof p a) (L.dof q b)) =
      Q * (Matrix.of fun a b => K.val (L.dof p a) (L.dof q b)) * Qᵀ := by
    intro p q
    ext a b
    rw [Matrix.of_apply, hK, Matrix.mul_apply, Finset.sum_comm]
    refine Finset.sum_congr rfl fun e _ => ?_
    rw [Matrix.mul_apply, Finset.sum_mul]
    rfl
  rw [correction_nodes L, correction_nodes L]
  refine forall_congr' fun p => ?_
  rw [turned_node L hD p, masked_turn fun p a b hq => not_congr (hf p a b hq), hz]
  have e : (∑ q, (Matrix.of fun a b => K'.val (L.dof p a) (L.dof q b)) *ᵥ fun b => D'.getD (L.dof q b) 0) +
      (fun a => r'.getD (L.dof p a) 0) = Q *ᵥ ((∑ q, (Matrix.of fun a b => K.val (L.dof p a) (L.dof q b)) *ᵥ
        fun b => D.getD (L.dof q b) 0) + (fun a => r.getD (L.dof p a) 0)) := by
    rw [Matrix.mulVec_add, Matrix.mulVec_sum, turned_node L hr p]
    congr 1
    refine Finset.sum_congr rfl fun q _ => ?_
    rw [hb, turned_node L hD q, Matrix.mulVec_mulVec, Matrix.mulVec_mulVec, Matrix.mul_assoc, hQ, Matrix.mul_one]
  rw [e, masked_turn hf, hz]

end System

end Ikarus
