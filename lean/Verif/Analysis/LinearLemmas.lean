import Verif.Analysis.Model
import Verif.Assembler.FunctionProps
import Verif.FE.MixinProps
import Verif.Dirichlet.IDBCProps
import Verif.Solver.NewtonProps
import Verif.Control.LoadProps

/-!
Lemmas on analyses with linear elements: specification of such elements, their assembled form, and one call of the
Newton solver.
-/

namespace Ikarus

open Ikarus.Element Ikarus.Element.Spec

variable {n d : Nat}

/-! ### Specification -/

/-- A linear skill: for every load factor its energy is quadratic in the displacements with a matrix that does not depend on
the load factor, is symmetric and positive semidefinite; vector and matrix are its derivatives. -/
def Spec.LinearSkill (s : ℝ → Skill n d) : Prop :=
  ∃ (e : ℝ → ℝ) (f : ℝ → NodeVec n d) (K : BlockMat n d), Symmetric K ∧ (∀ v, 0 ≤ work (mul K v) v) ∧
    ∀ l u, (s l).scalar u = some (e l + work (f l) u + 1 / 2 * work (mul K u) u) ∧
      (∀ r, (s l).vector u r = some (r + (f l + mul K u))) ∧ ∀ M, (s l).matrix u M = some (M + K)

/-- All elements fit to the system and all their skills are linear. -/
def Spec.LinearElems (size : Nat) (es : List ParamElem) : Prop :=
  ∀ e ∈ es, Spec.ElemFits size (e.at 0) ∧ ∀ s ∈ e.skills, Spec.LinearSkill s

/-! ### Elements -/

theorem mul_zero_vec (K : BlockMat n d) : mul K 0 = 0 := by funext I a; simp [mul]

theorem work_add_left (f g v : NodeVec n d) : work (f + g) v = work f v + work g v := by
  simp [work, add_mul, Finset.sum_add_distrib]

theorem mul_add_left (K L : BlockMat n d) (v : NodeVec n d) : mul (K + L) v = mul K v + mul L v := by
  funext I a; simp [mul, add_mul, Finset.sum_add_distrib]

theorem mul_add_right (K : BlockMat n d) (v w : NodeVec n d) : mul K (v + w) = mul K v + mul K w := by
  funext I a; simp [mul, mul_add, Finset.sum_add_distrib]

theorem work_mul_symm {K : BlockMat n d} (h : Symmetric K) (v w : NodeVec n d) :
    work (mul K v) w = work (mul K w) v := by
  unfold work mul
  simp only [Finset.sum_mul]
  have : ∀ (F : Fin n → Fin d → Fin n → Fin d → ℝ),
      ∑ I, ∑ a, ∑ J, ∑ b, F I a J b = ∑ J, ∑ b, ∑ I, ∑ a, F I a J b := by
    intro F
    have h1 : ∀ G : Fin n → Fin d → ℝ, ∑ I, ∑ a, G I a = ∑ p : Fin n × Fin d, G p.1 p.2 :=
      fun G => (Fintype.sum_prod_type' G).symm
    simp only [h1]
    exact Finset.sum_comm
  rw [this]
  refine Finset.sum_congr rfl fun J _ => Finset.sum_congr rfl fun b _ => Finset.sum_congr rfl fun I _ =>
    Finset.sum_congr rfl fun a _ => ?_
  rw [h I J a b]; ring

/-- The skills of an element together form a linear skill. -/
theorem linear_together (ss : List (ℝ → Skill n d)) (h : ∀ s ∈ ss, Spec.LinearSkill s) :
    Spec.LinearSkill fun l => Mixin.together (ss.map fun s => s l) := by
  induction ss with
  | nil =>
    refine ⟨fun _ => 0, fun _ => 0, 0, fun _ _ _ _ => rfl, fun v => ?_, fun l u => ⟨?_, fun r => ?_, fun M => ?_⟩⟩
    · simp [work, mul]
    · simp [Mixin.together, Mixin.calculateScalar, work, mul]
    · have : mul (0 : BlockMat n d) u = 0 := by funext I a; simp [mul]
      simp [Mixin.together, Mixin.calculateVector, this]
    · simp [Mixin.together, Mixin.calculateMatrix]
  | cons s ss ih =>
    obtain ⟨e, f, K, hs, hp, hk⟩ := h s (by simp)
    obtain ⟨e', f', K', hs', hp', hk'⟩ := ih fun s' hs' => h s' (by simp [hs'])
    refine ⟨fun l => e l + e' l, fun l => f l + f' l, K + K', fun I J a b => ?_, fun v => ?_,
      fun l u => ⟨?_, fun r => ?_, fun M => ?_⟩⟩
    · simp [hs I J a b, hs' I J a b]
    · rw [mul_add_left, work_add_left]; exact add_nonneg (hp v) (hp' v)
    · have h1 := (hk l u).1
      have h2 := (hk' l u).1
      simp only [Mixin.together] at h2
      simp only [Mixin.together, List.map_cons, Mixin.calculateScalar, h1, h2, Option.bind_some, Option.map_some,
        mul_add_left, work_add_left, Option.some.injEq]
      ring
    · have h1 := (hk l u).2.1 r
      have h2 := (hk' l u).2.1 (r + (f l + mul K u))
      simp only [Mixin.together] at h2
      simp only [Mixin.together, List.map_cons, Mixin.calculateVector, h1, h2, Option.bind_some, mul_add_left,
        Option.some.injEq]
      abel
    · have h1 := (hk l u).2.2 M
      have h2 := (hk' l u).2.2 (M + K)
      simp only [Mixin.together] at h2
      simp only [Mixin.together, List.map_cons, Mixin.calculateMatrix, h1, h2, Option.bind_some, add_assoc]

/-- A linear element with its parts. -/
structure LinearPart (size : Nat) where
  pe : ParamElem
  dofs : List Nat
  e : ℝ → ℝ
  f : ℝ → NodeVec pe.n pe.d
  K : BlockMat pe.n pe.d
  symm : Symmetric K
  psd : ∀ v, 0 ≤ work (mul K v) v
  parts : ∀ l u, (Mixin.together (pe.skills.map fun s => s l)).scalar u =
      some (e l + work (f l) u + 1 / 2 * work (mul K u) u) ∧
    (∀ r, (Mixin.together (pe.skills.map fun s => s l)).vector u r = some (r + (f l + mul K u))) ∧
    ∀ M, (Mixin.together (pe.skills.map fun s => s l)).matrix u M = some (M + K)
  dim : pe.children.length = pe.d
  nodes : (FETree.power pe.children).nodeSize? = some pe.n
  hdofs : (pe.at 0).dofs? = some dofs
  bound : ∀ i ∈ dofs, i < size

theorem linear_parts {size : Nat} {es : List ParamElem} (h : Spec.LinearElems size es) :
    ∃ ps : List (LinearPart size), es = ps.map (·.pe) := by
  induction es with
  | nil => exact ⟨[], rfl⟩
  | cons e es ih =>
    obtain ⟨ps, hps⟩ := ih fun e' he' => h e' (by simp [he'])
    obtain ⟨⟨h1, h2, dofs, h3, h4⟩, h5⟩ := h e (by simp)
    obtain ⟨e0, f, K, hs, hp, hk⟩ := linear_together e.skills h5
    exact ⟨⟨e, dofs, e0, f, K, hs, hp, hk, h1, h2, h3, h4⟩ :: ps, by simp [hps]⟩

theorem quadratic_gradient (c : ℝ) (f : NodeVec n d) {K : BlockMat n d} (h : Symmetric K) (u : NodeVec n d) :
    GradientAt (fun u => c + work f u + 1 / 2 * work (mul K u) u) (f + mul K u) u ∧
    TangentAt (fun u => f + mul K u) K u := by
  have hw : ∀ (a b c : NodeVec n d) (t : ℝ), work a (b + t • c) = work a b + t * work a c := by
    intro a b c t
    simp only [work, Pi.add_apply, Pi.smul_apply, smul_eq_mul, mul_add, Finset.sum_add_distrib, Finset.mul_sum]
    congr 1
    exact Finset.sum_congr rfl fun _ _ => Finset.sum_congr rfl fun _ _ => by ring
  have hm : ∀ (b c : NodeVec n d) (t : ℝ), mul K (b + t • c) = mul K b + t • mul K c := by
    intro b c t
    rw [mul_add_right]
    congr 1
    funext I a
    simp only [mul, Pi.smul_apply, smul_eq_mul, Finset.mul_sum]
    exact Finset.sum_congr rfl fun _ _ => Finset.sum_congr rfl fun _ _ => by ring
  have hs : ∀ (a b c : NodeVec n d) (t : ℝ), work (a + t • b) c = work a c + t * work b c := by
    intro a b c t
    rw [work_add_left]
    congr 1
    simp only [work, Pi.smul_apply, smul_eq_mul, Finset.mul_sum]
    exact Finset.sum_congr rfl fun _ _ => Finset.sum_congr rfl fun _ _ => by ring
  refine ⟨fun v => ?_, fun v => ?_⟩
  · refine hasDerivAt_quadratic (a := c + work f u + 1 / 2 * work (mul K u) u)
      (c := 1 / 2 * work (mul K v) v) fun t => ?_
    simp only [hw, hm, hs, work_add_left, work_mul_symm h u v]
    ring
  · have : (fun t : ℝ => f + mul K (u + t • v)) = fun t => (f + mul K u) + t • mul K v := by
      funext t; rw [hm, add_assoc]
    rw [this]
    simpa using (((hasDerivAt_id (0 : ℝ)).smul_const (mul K v)).const_add (f + mul K u))

namespace LinearPart

/-- The element at a load factor, with what its skills add. -/
noncomputable def resolved {size : Nat} (p : LinearPart size) (l : ℝ) (x : List ℝ) : Resolved size x where
  e := p.pe.at l
  dofs := p.dofs
  E u := p.e l + work (p.f l) u + 1 / 2 * work (mul p.K u) u
  F u := p.f l + mul p.K u
  K _ := p.K
  dim := p.dim
  nodes := p.nodes
  hdofs := p.hdofs
  bound := p.bound
  hE w := (p.parts l w).1
  hF w := (p.parts l w).2.1
  hK w := (p.parts l w).2.2
  grad := (quadratic_gradient _ _ p.symm _).1
  tang := (quadratic_gradient (p.e l) (p.f l) p.symm _).2

end LinearPart

/-- `u^T K v` -/
def bil (K : DMat ℝ) (m : Nat) (u v : Nat → ℝ) : ℝ := ∑ i ∈ Finset.range m, ∑ j ∈ Finset.range m, u i * K.val i j * v j

/-- What an assembled linear system looks like. -/
structure AffineSystem (sys : ℝ → System) (m : Nat) (K : DMat ℝ) (e : ℝ → ℝ) (g : ℝ → Nat → ℝ) : Prop where
  rows : K.rows = m
  cols : K.cols = m
  symm : ∀ u v, bil K m u v = bil K m v u
  psd : ∀ u, 0 ≤ bil K m u u
  matrix : ∀ l (x : List ℝ), x.length = m → (sys l).rawMatrix? x = some K
  vector : ∀ l (x : List ℝ), x.length = m → ∃ r, (sys l).rawVector? x = some r ∧ r.length = m ∧
    ∀ i < m, r.getD i 0 = g l i + ∑ j ∈ Finset.range m, K.val i j * x.getD j 0
  scalar : ∀ l (x : List ℝ), x.length = m → (sys l).scalar? x =
    some (e l + ∑ i ∈ Finset.range m, g l i * x.getD i 0 + 1 / 2 * bil K m (x.getD · 0) (x.getD · 0))

theorem gathered_zero (dofs : List Nat) (m : Nat) : gathered n d dofs (List.replicate m 0) = 0 := by
  funext I a
  simp only [gathered, Pi.zero_apply, List.getD_eq_getElem?_getD, List.getElem?_replicate]
  split <;> rfl

/-- The list with entries `u`. -/
def listOf (m : Nat) (u : Nat → ℝ) : List ℝ := (List.range m).map u

theorem listOf_length (m : Nat) (u : Nat → ℝ) : (listOf m u).length = m := by simp [listOf]

theorem listOf_getD (m : Nat) (u : Nat → ℝ) {i : Nat} (h : i < m) : (listOf m u).getD i 0 = u i := by
  simp [listOf, List.getD_eq_getElem?_getD, h]

theorem bil_congr (K : DMat ℝ) (m : Nat) {u u' v v' : Nat → ℝ} (hu : ∀ i < m, u i = u' i) (hv : ∀ i < m, v i = v' i) :
    bil K m u v = bil K m u' v' := by
  refine Finset.sum_congr rfl fun i hi => Finset.sum_congr rfl fun j hj => ?_
  rw [hu i (Finset.mem_range.1 hi), hv j (Finset.mem_range.1 hj)]

theorem linear_system (flags : List Bool) (es : List ParamElem) (h : Spec.LinearElems flags.length es) :
    ∃ K e g, AffineSystem (fun l => ⟨flags, es.map (·.at l)⟩) flags.length K e g := by
  obtain ⟨ps, hps⟩ := linear_parts h
  let m := flags.length
  let sys : ℝ → System := fun l => ⟨flags, es.map (·.at l)⟩
  have hrs : ∀ l (x : List ℝ), (sys l).elems = (ps.map fun p => p.resolved l x).map (·.e) := by
    intro l x
    show es.map (·.at l) = _
    rw [hps, List.map_map, List.map_map]
    rfl
  have hz : (List.replicate m (0 : ℝ)).length = m := by simp
  -- the matrix
  obtain ⟨K, hK, hKr, hKc, hKb⟩ := rawMatrix_resolved (s := sys 0) (x := List.replicate m 0) (hrs 0 _) hz hz
  have hmat : ∀ l (x : List ℝ), x.length = m → (sys l).rawMatrix? x = some K := by
    intro l x hx
    have h1 := matrices_resolved (s := sys l) (x := x) (hrs l x) hx
    have h2 := matrices_resolved (s := sys 0) (x := List.replicate m 0) (hrs 0 _) hz
    rw [← hK]
    unfold System.rawMatrix?
    rw [h1, h2, List.map_map, List.map_map]
    rfl
  have hbil : ∀ u v : List ℝ, u.length = m → v.length = m → bil K m (u.getD · 0) (v.getD · 0) =
      (ps.map fun p => work (mul p.K (gathered p.pe.n p.pe.d p.dofs v)) (gathered p.pe.n p.pe.d p.dofs u)).sum := by
    intro u v hu hv
    have := hKb u v hu hv
    rw [List.map_map] at this
    exact this
  have hlist : ∀ u : Nat → ℝ, ∀ i < m, u i = (listOf m u).getD i 0 := fun u i hi => (listOf_getD m u hi).symm
  -- the vector at zero
  choose r0 hr0 hr0l hr0d using fun l => rawVector_resolved (s := sys l) (x := List.replicate m 0) (hrs l _) hz hz
  have hr0' : ∀ l (w : List ℝ), w.length = m → Spec.dotL (r0 l) w =
      (ps.map fun p => work (p.f l) (gathered p.pe.n p.pe.d p.dofs w)).sum := by
    intro l w hw
    rw [hr0d l w hw, List.map_map]
    congr 1
    refine List.map_congr_left fun p _ => ?_
    show work (p.f l + mul p.K (gathered p.pe.n p.pe.d p.dofs (List.replicate m 0))) _ = _
    rw [gathered_zero, mul_zero_vec, add_zero]
    rfl
  refine ⟨K, fun l => (ps.map fun p => p.e l).sum, fun l i => (r0 l).getD i 0, hKr, hKc, fun u v => ?_, fun u => ?_,
    hmat, fun l x hx => ?_, fun l x hx => ?_⟩
  · rw [bil_congr K m (hlist u) (hlist v), bil_congr K m (hlist v) (hlist u),
      hbil _ _ (listOf_length m u) (listOf_length m v), hbil _ _ (listOf_length m v) (listOf_length m u)]
    congr 1
    exact List.map_congr_left fun p _ => work_mul_symm p.symm _ _
  · rw [bil_congr K m (hlist u) (hlist u), hbil _ _ (listOf_length m u) (listOf_length m u)]
    refine List.sum_nonneg fun a ha => ?_
    obtain ⟨p, -, rfl⟩ := List.mem_map.1 ha
    exact p.psd _
  · obtain ⟨r, hr, hrl, hrd⟩ := rawVector_resolved (s := sys l) (x := x) (hrs l x) hx hx
    refine ⟨r, hr, hrl, fun i hi => ?_⟩
    have hul := listOf_length m fun k => if k = i then (1 : ℝ) else 0
    have hug : ∀ k ∈ Finset.range m, (listOf m fun k => if k = i then (1 : ℝ) else 0).getD k 0 = if k = i then 1 else 0 :=
      fun k hk => listOf_getD m _ (Finset.mem_range.1 hk)
    generalize (listOf m fun k => if k = i then (1 : ℝ) else 0) = u at hul hug
    have key : ∀ v : List ℝ, v.length = m → Spec.dotL v u = v.getD i 0 := by
      intro v hv
      rw [dotL_eq_sum _ _ m hv hul, Finset.sum_congr rfl fun k hk => by rw [hug k hk]]
      have hi' : i < m := hi
      simp [Finset.sum_ite_eq', hi']
    rw [← key r hrl, ← key (r0 l) (hr0l l), hr0' l u hul, hrd u hul, List.map_map]
    have hb : ∑ j ∈ Finset.range m, K.val i j * x.getD j 0 = bil K m (u.getD · 0) (x.getD · 0) := by
      symm
      unfold bil
      rw [Finset.sum_eq_single i]
      · refine Finset.sum_congr rfl fun j _ => ?_
        show u.getD i 0 * K.val i j * _ = _
        rw [hug i (Finset.mem_range.2 hi), if_pos rfl, one_mul]
      · intro k hk hki
        refine Finset.sum_eq_zero fun j _ => ?_
        show u.getD k 0 * K.val k j * _ = _
        rw [hug k hk, if_neg hki]; ring
      · intro hni; exact absurd (Finset.mem_range.2 hi) hni
    rw [hb, hbil u x hul hx, ← List.sum_map_add]
    congr 1
    refine List.map_congr_left fun p _ => ?_
    exact work_add_left (p.f l) (mul p.K (gathered p.pe.n p.pe.d p.dofs x)) (gathered p.pe.n p.pe.d p.dofs u)
  · rw [scalar_resolved (s := sys l) (x := x) (hrs l x) hx, hbil x x hx hx, List.map_map]
    have hd := hr0' l x hx
    rw [dotL_eq_sum _ _ m (hr0l l) hx] at hd
    rw [hd, ← List.sum_map_mul_left, ← List.sum_map_add, ← List.sum_map_add]
    rfl

/-! ### What the solver sees -/

/-- The linear solver solves the systems with the matrix `A` exactly. -/
def Spec.SolvesExactly (linSolve : DMat ℝ → List ℝ → List ℝ) (A : DMat ℝ) : Prop :=
  ∀ b : List ℝ, b.length = A.rows → (linSolve A b).length = A.cols ∧
    ∀ i < A.rows, ∑ j ∈ Finset.range A.cols, A.val i j * (linSolve A b).getD j 0 = b.getD i 0

/-- A vector as the solver gets it. -/
def view (opt : DBCOption) (flags : List Bool) (v : List ℝ) : List ℝ :=
  if opt = .full then Spec.mask flags v else Spec.selectFree flags v

theorem selectFree_getD (flags : List Bool) (v : List ℝ) (h : v.length = flags.length) {i : Nat}
    (hi : Spec.Free flags i) : (Spec.selectFree flags v).getD (Spec.rank flags i) 0 = v.getD i 0 := by
  simp only [List.getD_eq_getElem?_getD]
  rw [selectFree_getElem? h hi]

theorem view_length {opt : DBCOption} {flags : List Bool} {v : List ℝ} (h : v.length = flags.length) :
    (view opt flags v).length = if opt = .full then flags.length else flags.count false := by
  unfold view
  split
  · simp [Spec.mask, h]
  · exact selectFree_length h

theorem list_sum_getD (l : List ℝ) : l.sum = ∑ i ∈ Finset.range l.length, l.getD i 0 := by
  induction l with
  | nil => rfl
  | cons a l ih => rw [List.sum_cons, List.length_cons, Finset.sum_range_succ', ih, add_comm]; rfl

/-- The sum of squares of the free entries. -/
def freeSq (flags : List Bool) (R : Nat → ℝ) : ℝ :=
  ∑ i ∈ (Finset.range flags.length).filter (fun i => Spec.Free flags i), R i * R i

theorem norm_view (opt : DBCOption) (flags : List Bool) (v : List ℝ) (h : v.length = flags.length) :
    Analysis.norm (some (view opt flags v)) = Real.sqrt (freeSq flags (v.getD · 0)) := by
  unfold Analysis.norm freeSq
  congr 1
  rw [Option.getD_some, list_sum_getD, List.length_map, view_length h]
  have hsq : ∀ (l : List ℝ) i, (l.map fun a => a * a).getD i 0 = l.getD i 0 * l.getD i 0 := by
    intro l i
    simp only [List.getD_eq_getElem?_getD, List.getElem?_map]
    cases l[i]? <;> simp
  simp only [hsq]
  unfold view
  split
  · rw [Finset.sum_filter]
    refine Finset.sum_congr rfl fun i _ => ?_
    rw [mask_getD h i]
    split <;> simp
  · rw [sum_reduced]
    refine Finset.sum_congr rfl fun i hi => ?_
    rw [selectFree_getD flags v h (Finset.mem_filter.1 hi).2]

theorem view_add (opt : DBCOption) (flags : List Bool) (u v : List ℝ) (hu : u.length = flags.length)
    (hv : v.length = flags.length) :
    addVec? (view opt flags u) (view opt flags v) = some (view opt flags (List.zipWith (· + ·) u v)) := by
  have hl : (view opt flags u).length = (view opt flags v).length := by rw [view_length hu, view_length hv]
  unfold addVec?
  rw [if_pos hl]
  congr 1
  unfold view
  split
  · clear hl
    induction flags generalizing u v with
    | nil => simp [Spec.mask]
    | cons b fl ih =>
      cases u with
      | nil => simp at hu
      | cons x u => cases v with
        | nil => simp at hv
        | cons y v =>
          have := ih u v (by simpa using hu) (by simpa using hv)
          unfold Spec.mask at *
          cases b <;> simp_all
  · clear hl
    induction flags generalizing u v with
    | nil => simp [Spec.selectFree]
    | cons b fl ih =>
      cases u with
      | nil => simp at hu
      | cons x u => cases v with
        | nil => simp at hv
        | cons y v =>
          have := ih u v (by simpa using hu) (by simpa using hv)
          cases b <;> simp_all [Spec.selectFree]

theorem view_smul (opt : DBCOption) (flags : List Bool) (v : List ℝ) (s : ℝ) :
    (view opt flags v).map (fun f => f * s) = view opt flags (v.map fun f => f * s) := by
  unfold view
  split
  · induction flags generalizing v with
    | nil => simp [Spec.mask]
    | cons b fl ih =>
      cases v with
      | nil => simp [Spec.mask]
      | cons y v =>
        have := ih v
        unfold Spec.mask at *
        cases b <;> simp_all
  · induction flags generalizing v with
    | nil => simp [Spec.selectFree]
    | cons b fl ih =>
      cases v with
      | nil => simp [Spec.selectFree]
      | cons y v =>
        have := ih v
        cases b <;> simp_all [Spec.selectFree]

namespace Analysis

variable (a : Analysis)

theorem residual_view (hopt : a.option ≠ .raw) {l : ℝ} {x r : List ℝ}
    (h : (a.system l).rawVector? x = some r) : a.residual? ⟨l, some x⟩ = some (view a.option a.dv.flags r) := by
  unfold System.rawVector? at h
  obtain ⟨fes, h1, h2⟩ := Option.bind_eq_some_iff.1 h
  unfold residual? view
  rw [Option.bind_some]
  cases ho : a.option with
  | raw => exact absurd ho hopt
  | reduced =>
    show (a.system l).reducedVector? x = _
    unfold System.reducedVector?
    rw [h1, Option.bind_some, reducedVector_eq_select _ fes r h2]
    rfl
  | full =>
    show (a.system l).fullVector? x = _
    unfold System.fullVector?
    rw [h1, Option.bind_some, fullVector_eq_mask _ fes r h2]
    rfl

/-- The correction of one iteration, added to the solution. -/
theorem correction_view (hopt : a.option ≠ .raw) {l : ℝ} {x R : List ℝ} {K : DMat ℝ}
    (hx : x.length = a.dv.flags.length) (hR : R.length = a.dv.flags.length)
    (hK : (a.system l).rawMatrix? x = some K)
    (hls : ∀ A, a.jacobian? ⟨l, some x⟩ = some A → Spec.SolvesExactly a.linSolve A) :
    ∃ x' : List ℝ, a.update ⟨l, some x⟩ (a.problem.linSolve (a.jacobian? ⟨l, some x⟩) (some (view a.option a.dv.flags R))) =
        ⟨l, some x'⟩ ∧ x'.length = a.dv.flags.length ∧
      ∃ v : Nat → ℝ, (∀ i < a.dv.flags.length, ¬ Spec.Free a.dv.flags i → v i = 0) ∧
        (∀ i < a.dv.flags.length, x'.getD i 0 = x.getD i 0 + v i) ∧
        ∀ i, Spec.Free a.dv.flags i → ∑ j ∈ Finset.range a.dv.flags.length, K.val i j * v j = -R.getD i 0 := by
  unfold System.rawMatrix? at hK
  obtain ⟨fes, h1, h2⟩ := Option.bind_eq_some_iff.1 hK
  have hneg : ∀ (w : List ℝ) i, (w.map fun b => -b).getD i 0 = -w.getD i 0 := by
    intro w i
    simp only [List.getD_eq_getElem?_getD, List.getElem?_map]
    cases w[i]? <;> simp
  have hgd : ∀ (u w : List ℝ), u.length = a.dv.flags.length → w.length = a.dv.flags.length → ∀ i < a.dv.flags.length,
      (List.zipWith (· + ·) u w).getD i 0 = u.getD i 0 + w.getD i 0 := by
    intro u w hu hw i hi
    simp only [List.getD_eq_getElem?_getD, List.getElem?_zipWith]
    rw [List.getElem?_eq_getElem (hu ▸ hi), List.getElem?_eq_getElem (hw ▸ hi)]; rfl
  cases ho : a.option with
  | raw => exact absurd ho hopt
  | full =>
    obtain ⟨A, hA, hAr, hAc, hAv⟩ := fullMatrix_eq a.dv.flags fes K h2
    have hJ : a.jacobian? ⟨l, some x⟩ = some A := by
      unfold jacobian?
      rw [Option.bind_some, ho]
      show (a.system l).fullMatrix? x = _
      unfold System.fullMatrix?
      rw [h1, Option.bind_some]; exact hA
    obtain ⟨hcl, hc⟩ := hls A hJ ((view .full a.dv.flags R).map fun b => -b)
      (by rw [List.length_map, view_length hR, if_pos rfl, hAr])
    rw [hJ]
    show ∃ x', a.update _ (some (a.linSolve A ((view .full a.dv.flags R).map fun b => -b))) = _ ∧ _
    generalize a.linSolve A ((view .full a.dv.flags R).map fun b => -b) = c at hcl hc
    rw [hAc] at hcl hc
    rw [hAr] at hc
    have hz : ∀ j < a.dv.flags.length, ¬ Spec.Free a.dv.flags j → c.getD j 0 = 0 := by
      intro j hj hjf
      have := hc j hj
      rw [hneg] at this
      have h0 : (view .full a.dv.flags R).getD j 0 = 0 := by
        unfold view
        rw [if_pos rfl, mask_getD hR, if_neg hjf]
      rw [h0, neg_zero, Finset.sum_eq_single j] at this
      · rw [hAv j j hj hj, if_neg (by tauto), if_pos rfl, one_mul] at this
        exact this
      · intro k hk hkj
        rw [hAv j k hj (Finset.mem_range.1 hk), if_neg (by tauto), if_neg (Ne.symm hkj), zero_mul]
      · intro h; exact absurd (Finset.mem_range.2 hj) h
    refine ⟨List.zipWith (· + ·) x c, ?_, by simp [hx, hcl], fun i => c.getD i 0, hz, hgd x c hx hcl, fun i hf => ?_⟩
    · unfold update
      simp only [Option.bind_some, ho]
      rw [update_full_increment a.dv.flags x c .full (by simp) hx hcl]
    · have hi := free_lt hf
      have := hc i hi
      rw [hneg] at this
      have h0 : (view .full a.dv.flags R).getD i 0 = R.getD i 0 := by
        unfold view
        rw [if_pos rfl, mask_getD hR, if_pos hf]
      rw [h0] at this
      rw [← this]
      refine Finset.sum_congr rfl fun j hj => ?_
      by_cases hjf : Spec.Free a.dv.flags j
      · rw [hAv i j hi (Finset.mem_range.1 hj), if_pos ⟨hf, hjf⟩]
      · show K.val i j * c.getD j 0 = _
        rw [hz j (Finset.mem_range.1 hj) hjf, mul_zero, mul_zero]
  | reduced =>
    obtain ⟨A, hA, hAr, hAc, hAv⟩ := reducedMatrix_eq a.dv.flags fes K h2
    rw [Assembler.reducedSize?_create] at hAr hAc
    have hAr := (Option.some.inj hAr).symm
    have hAc := (Option.some.inj hAc).symm
    have hAval : ∀ i j, Spec.Free a.dv.flags i → Spec.Free a.dv.flags j →
        A.val (Spec.rank a.dv.flags i) (Spec.rank a.dv.flags j) = K.val i j := by
      intro i j hi hj
      obtain ⟨ki, kj, e1, e2, -, -, e3⟩ := hAv i j hi hj
      rw [Assembler.reducedIndex?_create (free_lt hi)] at e1
      rw [Assembler.reducedIndex?_create (free_lt hj)] at e2
      rw [Option.some.inj e1, Option.some.inj e2, e3]
    have hJ : a.jacobian? ⟨l, some x⟩ = some A := by
      unfold jacobian?
      rw [Option.bind_some, ho]
      show (a.system l).reducedMatrix? x = _
      unfold System.reducedMatrix?
      rw [h1, Option.bind_some]; exact hA
    obtain ⟨hcl, hc⟩ := hls A hJ ((view .reduced a.dv.flags R).map fun b => -b)
      (by rw [List.length_map, view_length hR, if_neg (by simp), hAr])
    rw [hJ]
    show ∃ x', a.update _ (some (a.linSolve A ((view .reduced a.dv.flags R).map fun b => -b))) = _ ∧ _
    generalize a.linSolve A ((view .reduced a.dv.flags R).map fun b => -b) = c at hcl hc
    rw [hAc] at hcl hc
    rw [hAr] at hc
    obtain ⟨w, hw, hwl, hw0, hwr⟩ := reduced_full_roundtrip a.dv.flags c (by rw [Assembler.reducedSize?_create, hcl])
    have hsel : Spec.selectFree a.dv.flags w = c := by
      rw [createReducedVector_eq a.dv.flags w hwl] at hwr
      exact (List.map_injective_iff.2 (Option.some_injective ℝ)) (Option.some.inj hwr)
    have hz : ∀ i < a.dv.flags.length, ¬ Spec.Free a.dv.flags i → w.getD i 0 = 0 := by
      intro i hi hf
      have : a.dv.flags[i]? = some true := by
        unfold Spec.Free at hf
        rw [List.getElem?_eq_getElem hi] at hf ⊢
        cases hb : a.dv.flags[i] <;> simp_all
      rw [List.getD_eq_getElem?_getD, hw0 i this, Option.getD_some]
    refine ⟨List.zipWith (· + ·) x w, ?_, by simp [hx, hwl], fun i => w.getD i 0, hz, hgd x w hx hwl, fun i hf => ?_⟩
    · unfold update
      simp only [Option.bind_some, ho]
      congr 1
      unfold updateFunctor?
      rw [if_pos ⟨rfl, by rw [Assembler.reducedSize?_create, hcl]⟩, hw, Option.bind_some]
      unfold addVec?
      rw [if_pos (by rw [hx, hwl])]
    · have := hc _ (rank_lt hf)
      rw [hneg] at this
      have h0 : (view .reduced a.dv.flags R).getD (Spec.rank a.dv.flags i) 0 = R.getD i 0 := by
        unfold view
        rw [if_neg (by simp), selectFree_getD _ _ hR hf]
      rw [h0, sum_reduced] at this
      rw [← this, Finset.sum_filter]
      refine Finset.sum_congr rfl fun j hj => ?_
      by_cases hjf : Spec.Free a.dv.flags j
      · rw [if_pos hjf, hAval i j hf hjf, ← hsel, selectFree_getD _ _ hwl hjf]
      · show K.val i j * w.getD j 0 = _
        rw [if_neg hjf, hz j (Finset.mem_range.1 hj) hjf, mul_zero]

end Analysis

/-- The prescribed displacements are `l * û` at load factor `l`, their derivative is `û`, and every dof with a prescribed
displacement is constrained. -/
structure Spec.PrescribedLinearly (dv : DirichletValues ℝ) (û : Nat → ℝ) : Prop where
  value : ∀ l : ℝ, ∀ i < dv.flags.length, Spec.prescribed dv l i = l * û i
  deriv : ∀ i < dv.flags.length, Spec.total dv.inSub (dv.fns.map fun f => f.derivative 1) i = û i
  flagged : ∀ i < dv.flags.length, û i ≠ 0 → dv.flags[i]? = some true

/-- The analysis is set up properly: Full or Reduced, linear elements, prescribed displacements proportional to the load
factor which the solver knows of, callables that live, the bound requirement has a solution vector of the right size, and
the linear solver solves the systems it gets. -/
structure Spec.ProperLinear (a : Analysis) (û : Nat → ℝ) : Prop where
  option : a.option ≠ .raw
  elems : Spec.LinearElems a.dv.flags.length a.elems
  prescribed : Spec.PrescribedLinearly a.dv û
  force : a.withForce = true ∨ ∀ i < a.dv.flags.length, û i = 0
  alive : ∀ f ∈ a.dv.fns, a.alive f.derivSrc = true
  bound : ∀ d, a.bound = some d → ∃ u, d.x = some u ∧ u.length = a.dv.flags.length
  linSolve : ∀ l (x : List ℝ), x.length = a.dv.flags.length → ∀ A, a.jacobian? ⟨l, some x⟩ = some A →
    Spec.SolvesExactly a.linSolve A

namespace Analysis

variable {a : Analysis} {û : Nat → ℝ} {K : DMat ℝ} {e : ℝ → ℝ} {g : ℝ → Nat → ℝ}

/-- What synchronising makes of the value `v` of dof `i`. -/
noncomputable def synced (û : Nat → ℝ) (l : ℝ) (i : Nat) (v : ℝ) : ℝ := if l * û i ≠ 0 then l * û i else v

theorem free_zero (h : Spec.ProperLinear a û) {i : Nat} (hf : Spec.Free a.dv.flags i) : û i = 0 := by
  by_contra hne
  have h1 := h.prescribed.flagged i (free_lt hf) hne
  unfold Spec.Free at hf
  rw [hf] at h1
  cases h1

theorem sync_eq (h : Spec.ProperLinear a û) (l : ℝ) {x : List ℝ} (hx : x.length = a.dv.flags.length) :
    ∃ x' : List ℝ, a.sync ⟨l, some x⟩ = ⟨l, some x'⟩ ∧ x'.length = a.dv.flags.length ∧
      ∀ i < a.dv.flags.length, x'.getD i 0 = synced û l i (x.getD i 0) := by
  obtain ⟨y, h1, h2, h3, h4⟩ := sync_sets_prescribed_partial a.dv ⟨x, l⟩ hx
  refine ⟨y.sol, ?_, h3.trans hx, fun i hi => ?_⟩
  · unfold sync
    simp only [Option.bind_some, h1, Option.map_some]
  · have := h4 i hi
    rw [List.getD_eq_getElem?_getD, this]
    unfold synced
    rw [h.prescribed.value l i hi]
    split
    · rfl
    · rw [List.getD_eq_getElem?_getD]

theorem rawRes (h : Spec.ProperLinear a û) (hA : AffineSystem a.system a.dv.flags.length K e g) (l : ℝ) {x : List ℝ}
    (hx : x.length = a.dv.flags.length) :
    ∃ R : List ℝ, a.residual? ⟨l, some x⟩ = some (view a.option a.dv.flags R) ∧ R.length = a.dv.flags.length ∧
      ∀ i < a.dv.flags.length, R.getD i 0 = g l i + ∑ j ∈ Finset.range a.dv.flags.length, K.val i j * x.getD j 0 := by
  obtain ⟨R, h1, h2, h3⟩ := hA.vector l x hx
  exact ⟨R, a.residual_view h.option h1, h2, h3⟩

theorem step_linear (h : Spec.ProperLinear a û) (hA : AffineSystem a.system a.dv.flags.length K e g) (l : ℝ) {x R : List ℝ}
    (hx : x.length = a.dv.flags.length) (hR : R.length = a.dv.flags.length) :
    ∃ x' : List ℝ, Spec.newtonStep a.problem ⟨l, some x⟩ (some (view a.option a.dv.flags R)) = ⟨l, some x'⟩ ∧
      x'.length = a.dv.flags.length ∧
      ∃ v : Nat → ℝ, (∀ i < a.dv.flags.length, ¬ Spec.Free a.dv.flags i → v i = 0) ∧
        (∀ i < a.dv.flags.length, x'.getD i 0 = synced û l i (x.getD i 0 + v i)) ∧
        ∀ i, Spec.Free a.dv.flags i → ∑ j ∈ Finset.range a.dv.flags.length, K.val i j * v j = -R.getD i 0 := by
  obtain ⟨y, h1, h2, v, h3, h4, h5⟩ := a.correction_view h.option hx hR (hA.matrix l x hx) (h.linSolve l x hx)
  have h1 : a.problem.update ⟨l, some x⟩ (a.problem.linSolve (a.problem.jacobian ⟨l, some x⟩)
      (some (view a.option a.dv.flags R))) = ⟨l, some y⟩ := h1
  unfold Spec.newtonStep
  by_cases hf : a.withForce = true
  · have hi : a.problem.idbc = some ⟨a.addForce, a.sync⟩ := by simp [problem, hf]
    obtain ⟨z, h6, h7, h8⟩ := sync_eq h l h2
    refine ⟨z, ?_, h7, v, h3, fun i hi => by rw [h8 i hi, h4 i hi], h5⟩
    rw [hi]
    show a.sync (a.problem.update _ _) = _
    rw [h1, h6]
  · have hi : a.problem.idbc = none := by simp [problem, hf]
    refine ⟨y, ?_, h2, v, h3, fun i hi => ?_, h5⟩
    · rw [hi]; exact h1
    · rw [h4 i hi]
      unfold synced
      rw [(h.force.resolve_left hf) i hi, mul_zero, if_neg (by simp)]

theorem first_linear (h : Spec.ProperLinear a û) (hA : AffineSystem a.system a.dv.flags.length K e g) (l s : ℝ) {x : List ℝ}
    (hx : x.length = a.dv.flags.length) :
    ∃ R : List ℝ, Spec.firstResidual a.problem ⟨l, some x⟩ s = some (view a.option a.dv.flags R) ∧
      R.length = a.dv.flags.length ∧
      ∀ i < a.dv.flags.length, R.getD i 0 = g l i + ∑ j ∈ Finset.range a.dv.flags.length, K.val i j * x.getD j 0 +
        s * ∑ j ∈ Finset.range a.dv.flags.length, K.val i j * û j := by
  obtain ⟨R, h1, h2, h3⟩ := rawRes h hA l hx
  unfold Spec.firstResidual
  by_cases hf : a.withForce = true
  · have hi : a.problem.idbc = some ⟨a.addForce, a.sync⟩ := by simp [problem, hf]
    rw [hi]
    show ∃ R', a.addForce ⟨l, some x⟩ s (a.residual? ⟨l, some x⟩) = _ ∧ _
    have hb : ∃ u : List ℝ, (a.bound.getD ⟨l, some x⟩).x = some u ∧ u.length = a.dv.flags.length := by
      cases hbd : a.bound with
      | none => exact ⟨x, rfl, hx⟩
      | some d => exact h.bound d hbd
    obtain ⟨u, hu, hul⟩ := hb
    have hforce := idbc_forces_eq a.dv K a.alive hA.rows hA.cols h.alive a.option
    simp only at hforce
    generalize hF : (List.range a.dv.flags.length).map
      (Spec.rowTimes K (Spec.total a.dv.inSub (a.dv.fns.map fun f => f.derivative 1))) = F at hforce
    have hFl : F.length = a.dv.flags.length := by rw [← hF]; simp
    have hforce' : obtainForcesDueToIDBC? (Assembler.create a.dv.flags) K a.dv a.alive a.option =
        some ((view a.option a.dv.flags F).map some) := by
      rw [hforce]
      unfold view
      split <;> rfl
    have hFi : ∀ i < a.dv.flags.length, F.getD i 0 = ∑ j ∈ Finset.range a.dv.flags.length, K.val i j * û j := by
      intro i hi
      rw [← hF]
      simp only [List.getD_eq_getElem?_getD, List.getElem?_map, List.getElem?_range hi, Option.map_some, Option.getD_some]
      unfold Spec.rowTimes
      rw [hA.cols, ← List.sum_toFinset _ List.nodup_range, List.toFinset_range]
      exact Finset.sum_congr rfl fun j hj => by rw [h.prescribed.deriv j (Finset.mem_range.1 hj)]
    refine ⟨List.zipWith (· + ·) R (F.map fun f => f * s), ?_, by simp [h2, hFl], fun i hi => ?_⟩
    · unfold addForce
      rw [h1, Option.bind_some, hu, Option.bind_some, hA.matrix _ u hul, Option.bind_some, hforce', Option.bind_some,
        initialised?_map_some, Option.bind_some, view_smul, view_add _ _ _ _ h2 (by simp [hFl])]
    · have : (List.zipWith (· + ·) R (F.map fun f => f * s)).getD i 0 = R.getD i 0 + F.getD i 0 * s := by
        simp only [List.getD_eq_getElem?_getD, List.getElem?_zipWith, List.getElem?_map]
        rw [List.getElem?_eq_getElem (h2 ▸ hi), List.getElem?_eq_getElem (hFl ▸ hi)]; rfl
      rw [this, h3 i hi, hFi i hi]; ring
  · have hi : a.problem.idbc = none := by simp [problem, hf]
    rw [hi]
    refine ⟨R, h1, h2, fun i hi => ?_⟩
    have h0 : ∑ j ∈ Finset.range a.dv.flags.length, K.val i j * û j = 0 :=
      Finset.sum_eq_zero fun j hj => by rw [(h.force.resolve_left hf) j (Finset.mem_range.1 hj), mul_zero]
    rw [h3 i hi, h0, mul_zero, add_zero]

/-- The value of the residual at dof `i`. -/
noncomputable def resAt (K : DMat ℝ) (g : ℝ → Nat → ℝ) (m : Nat) (l : ℝ) (x : List ℝ) (i : Nat) : ℝ :=
  g l i + ∑ j ∈ Finset.range m, K.val i j * x.getD j 0

theorem synced_idem (û : Nat → ℝ) (l : ℝ) (i : Nat) (v : ℝ) : synced û l i (synced û l i v) = synced û l i v := by
  unfold synced
  split <;> rfl

/-- The iterates: from the first iteration on the constrained dofs are synchronised; the residual at the free dofs is zero
after the first iteration if the values before plus the increment are the synchronised ones, and after the second always. -/
theorem iterates_linear (h : Spec.ProperLinear a û) (hA : AffineSystem a.system a.dv.flags.length K e g) (l s : ℝ) {x : List ℝ}
    (hx : x.length = a.dv.flags.length) (k : Nat) :
    ∃ (y R : List ℝ), Spec.newtonIterates a.problem ⟨l, some x⟩ s (k + 1) =
        (⟨l, some y⟩, some (view a.option a.dv.flags R)) ∧ y.length = a.dv.flags.length ∧ R.length = a.dv.flags.length ∧
      (∀ i < a.dv.flags.length, R.getD i 0 = resAt K g a.dv.flags.length l y i) ∧
      (∀ i < a.dv.flags.length, ¬ Spec.Free a.dv.flags i → y.getD i 0 = synced û l i (x.getD i 0)) ∧
      ((0 < k ∨ ∀ i < a.dv.flags.length, ¬ Spec.Free a.dv.flags i →
          synced û l i (x.getD i 0) = x.getD i 0 + s * û i) →
        ∀ i, Spec.Free a.dv.flags i → R.getD i 0 = 0) := by
  induction k with
  | zero =>
    obtain ⟨R0, f1, f2, f3⟩ := first_linear h hA l s hx
    obtain ⟨y, s1, s2, v, s3, s4, s5⟩ := step_linear h hA l hx f2
    obtain ⟨R, r1, r2, r3⟩ := rawRes h hA l s2
    refine ⟨y, R, ?_, s2, r2, r3, fun i hi hf => ?_, fun hgood i hf => ?_⟩
    · show (Spec.newtonStep a.problem ⟨l, some x⟩ (Spec.firstResidual a.problem ⟨l, some x⟩ s),
        a.residual? (Spec.newtonStep a.problem ⟨l, some x⟩ (Spec.firstResidual a.problem ⟨l, some x⟩ s))) = _
      rw [f1, s1, r1]
    · rw [s4 i hi, s3 i hi hf, add_zero]
    · rcases hgood with h0 | hgood
      · exact absurd h0 (lt_irrefl 0)
      have hi := free_lt hf
      have hy : ∀ j < a.dv.flags.length, y.getD j 0 = x.getD j 0 + v j + s * û j := by
        intro j hj
        rw [s4 j hj]
        by_cases hjf : Spec.Free a.dv.flags j
        · have h0 := free_zero h hjf
          unfold synced
          rw [h0, mul_zero, mul_zero, if_neg (by simp), add_zero]
        · rw [s3 j hj hjf, add_zero, hgood j hj hjf]
      rw [r3 i hi, Finset.sum_congr rfl fun j hj => by rw [hy j (Finset.mem_range.1 hj)]]
      have h5 := s5 i hf
      rw [f3 i hi] at h5
      simp only [mul_add, Finset.sum_add_distrib, h5, Finset.mul_sum, mul_left_comm _ s]
      ring
  | succ k ih =>
    obtain ⟨y0, R0, i1, i2, i3, i4, i5, -⟩ := ih
    obtain ⟨y, s1, s2, v, s3, s4, s5⟩ := step_linear h hA l i2 i3
    obtain ⟨R, r1, r2, r3⟩ := rawRes h hA l s2
    refine ⟨y, R, ?_, s2, r2, r3, fun i hi hf => ?_, fun _ i hf => ?_⟩
    · show (Spec.newtonStep a.problem (Spec.newtonIterates a.problem ⟨l, some x⟩ s (k + 1)).1
          (Spec.newtonIterates a.problem ⟨l, some x⟩ s (k + 1)).2,
        a.residual? (Spec.newtonStep a.problem (Spec.newtonIterates a.problem ⟨l, some x⟩ s (k + 1)).1
          (Spec.newtonIterates a.problem ⟨l, some x⟩ s (k + 1)).2)) = _
      rw [i1]
      show (Spec.newtonStep a.problem ⟨l, some y0⟩ (some (view a.option a.dv.flags R0)),
        a.residual? (Spec.newtonStep a.problem ⟨l, some y0⟩ (some (view a.option a.dv.flags R0)))) = _
      rw [s1, r1]
    · rw [s4 i hi, s3 i hi hf, add_zero, i5 i hi hf, synced_idem]
    · have hi := free_lt hf
      have hy : ∀ j < a.dv.flags.length, y.getD j 0 = y0.getD j 0 + v j := by
        intro j hj
        rw [s4 j hj]
        by_cases hjf : Spec.Free a.dv.flags j
        · have h0 := free_zero h hjf
          unfold synced
          rw [h0, mul_zero, if_neg (by simp)]
        · rw [s3 j hj hjf, add_zero, i5 j hj hjf, synced_idem]
      rw [r3 i hi, Finset.sum_congr rfl fun j hj => by rw [hy j (Finset.mem_range.1 hj)]]
      have h5 := s5 i hf
      rw [i4 i hi] at h5
      simp only [mul_add, Finset.sum_add_distrib, h5]
      unfold resAt
      ring

theorem freeSq_zero {flags : List Bool} {R : Nat → ℝ} (h : ∀ i, Spec.Free flags i → R i = 0) : freeSq flags R = 0 :=
  Finset.sum_eq_zero fun i hi => by rw [h i (Finset.mem_filter.1 hi).2, mul_zero]

theorem freeSq_congr {flags : List Bool} {R R' : Nat → ℝ} (h : ∀ i < flags.length, R i = R' i) :
    freeSq flags R = freeSq flags R' :=
  Finset.sum_congr rfl fun i hi => by rw [h i (Finset.mem_range.1 (Finset.mem_filter.1 hi).1)]

/-- One call of the solver. -/
theorem solve_linear (h : Spec.ProperLinear a û) (hA : AffineSystem a.system a.dv.flags.length K e g)
    (htol : 0 ≤ a.settings.tol) (m : Nat) (hm : m = 1 ∨ m = 2) (hmin : 0 ≤ a.settings.minIter)
    (hmax : max (m : Int) a.settings.minIter < a.settings.maxIter) (l s : ℝ) {x : List ℝ}
    (hx : x.length = a.dv.flags.length)
    (hgood : m = 2 ∨ ∀ i < a.dv.flags.length, ¬ Spec.Free a.dv.flags i →
      synced û l i (x.getD i 0) = x.getD i 0 + s * û i) (w : Option (List ℝ)) :
    ∃ (w' : Option (List ℝ)) (y : List ℝ) (info : SolverInfo ℝ) (k : Nat),
      a.solver.solve w ⟨l, some x⟩ s = (w', ⟨l, some y⟩, info) ∧
      info.success = true ∧ info.iterations = k ∧ (k : Int) ≤ max (m : Int) a.settings.minIter ∧ a.settings.minIter ≤ k ∧
      y.length = a.dv.flags.length ∧
      (k = 0 → y = x ∧ Real.sqrt (freeSq a.dv.flags fun i => resAt K g a.dv.flags.length l x i +
        s * ∑ j ∈ Finset.range a.dv.flags.length, K.val i j * û j) ≤ a.settings.tol) ∧
      (0 < k → (∀ i < a.dv.flags.length, ¬ Spec.Free a.dv.flags i → y.getD i 0 = synced û l i (x.getD i 0)) ∧
        Real.sqrt (freeSq a.dv.flags (resAt K g a.dv.flags.length l y)) ≤ a.settings.tol) ∧
      (m ≤ k → ∀ i, Spec.Free a.dv.flags i → resAt K g a.dv.flags.length l y i = 0) := by
  obtain ⟨k, ⟨hstop, hfirst⟩, hk, hrun⟩ := newton_run a.problem a.settings ⟨l, some x⟩ s w
  obtain ⟨st, hs, hsx, hsi, hss, -⟩ := hrun (max 0 (max a.settings.maxIter a.settings.minIter)).toNat (by omega)
  -- the residual norm after `k` iterations
  have hzero : ∀ k, m ≤ k → a.problem.rnorm (Spec.newtonIterates a.problem ⟨l, some x⟩ s k).2 = 0 := by
    intro k hk
    obtain ⟨k, rfl⟩ : ∃ k', k = k' + 1 := ⟨k - 1, by omega⟩
    obtain ⟨y, R, h1, -, h3, -, -, h6⟩ := iterates_linear h hA l s hx k
    rw [h1]
    show norm (some (view a.option a.dv.flags R)) = 0
    rw [norm_view _ _ _ h3, freeSq_zero (h6 ?_), Real.sqrt_zero]
    rcases hgood with h2 | h2
    · left; omega
    · exact Or.inr h2
  have hkm : (k : Int) ≤ max (m : Int) a.settings.minIter := by
    by_contra hlt
    push Not at hlt
    have hle : max m a.settings.minIter.toNat < k := by omega
    refine hfirst _ hle ⟨by omega, Or.inr ?_⟩
    rw [hzero _ (le_max_left _ _)]
    show decide (0 > a.settings.tol) = false
    simp [htol]
  have hnorm : a.problem.rnorm (Spec.newtonIterates a.problem ⟨l, some x⟩ s k).2 ≤ a.settings.tol := by
    rcases hstop.2 with h1 | h1
    · omega
    · have h2 : decide (a.problem.rnorm (Spec.newtonIterates a.problem ⟨l, some x⟩ s k).2 > a.settings.tol) = false := h1
      simpa using h2
  have hsolve : a.solver.solve w ⟨l, some x⟩ s = (st.correction, st.x, st.info) := by
    show (match a.problem.solve a.settings _ ⟨l, some x⟩ s w with
      | some s => (s.correction, s.x, s.info)
      | none => (w, _, SolverInfo.default)) = _
    rw [hs]
  have hsucc : st.info.success = true := hss.2 (by omega)
  cases k with
  | zero =>
    obtain ⟨R, f1, f2, f3⟩ := first_linear h hA l s hx
    refine ⟨st.correction, x, st.info, 0, ?_, hsucc, hsi, hkm, hstop.1, hx, fun _ => ⟨rfl, ?_⟩, fun h0 => absurd h0 (lt_irrefl 0),
      fun h0 => by omega⟩
    · rw [hsolve, hsx]; rfl
    · have h1 : norm (Spec.firstResidual a.problem ⟨l, some x⟩ s) ≤ a.settings.tol := hnorm
      rw [f1, norm_view _ _ _ f2] at h1
      rw [freeSq_congr f3] at h1
      exact h1
  | succ k =>
    obtain ⟨y, R, h1, h2, h3, h4, h5, h6⟩ := iterates_linear h hA l s hx k
    refine ⟨st.correction, y, st.info, k + 1, ?_, hsucc, hsi, hkm, hstop.1, h2, fun h0 => by omega, fun _ => ⟨h5, ?_⟩,
      fun hmk i hf => ?_⟩
    · rw [hsolve, hsx, h1]
    · rw [h1] at hnorm
      have h7 : norm (some (view a.option a.dv.flags R)) ≤ a.settings.tol := hnorm
      rw [norm_view _ _ _ h3] at h7
      rw [freeSq_congr h4] at h7
      exact h7
    · rw [← h4 i (free_lt hf)]
      refine h6 ?_ i hf
      rcases hgood with h2 | h2
      · left; omega
      · exact Or.inr h2

end Analysis

end Ikarus
