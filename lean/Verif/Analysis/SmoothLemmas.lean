import Verif.Analysis.LocalPathProps
import Verif.Analysis.UnloadingProps

/-!
Lemmas for C107: a structure of elements whose stiffness changes smoothly is regular around every state of equilibrium whose
stiffness is regular.
-/

namespace Ikarus

open Ikarus.Element Ikarus.Element.Spec

variable {n d : Nat}

/-! ### Specification -/

/-- Near load factor `l0` and displacements `u0` the skill keeps its contract, its stiffness changes with both at a rate of at
most `Lam`, and its forces with the load factor. -/
def Spec.SmoothWithin (E : ℝ → NodeVec n d → ℝ) (F : ℝ → NodeVec n d → NodeVec n d) (K : ℝ → NodeVec n d → BlockMat n d) (l0 : ℝ)
    (u0 : NodeVec n d) (delta Lam : ℝ) : Prop :=
  ∀ l, |l - l0| ≤ delta → ∀ u, ‖u - u0‖ ≤ delta → GradientAt (E l) (F l u) u ∧ TangentAt (F l) (K l u) u ∧
    ∀ l', |l' - l0| ≤ delta → (∀ I a, |F l u I a - F l' u I a| ≤ Lam * |l - l'|) ∧
      ∀ u', ‖u' - u0‖ ≤ delta → ∀ I J a b, |K l u I J a b - K l' u' I J a b| ≤ Lam * (|l - l'| + ‖u - u'‖)

/-- A skill that is smooth near load factor `l0` and displacements `u0`. -/
def Spec.SmoothSkill (s : ℝ → Skill n d) (l0 : ℝ) (u0 : NodeVec n d) : Prop :=
  ∃ (E : ℝ → NodeVec n d → ℝ) (F : ℝ → NodeVec n d → NodeVec n d) (K : ℝ → NodeVec n d → BlockMat n d),
    (∀ l w, (s l).scalar w = some (E l w)) ∧ (∀ l w f, (s l).vector w f = some (f + F l w)) ∧
    (∀ l w M, (s l).matrix w M = some (M + K l w)) ∧ ∃ delta > 0, ∃ Lam ≥ 0, Spec.SmoothWithin E F K l0 u0 delta Lam

/-- The linear solver solves every square system that can be solved for all right-hand sides. -/
def Spec.ExactSolver (linSolve : DMat ℝ → List ℝ → List ℝ) : Prop :=
  ∀ A : DMat ℝ, A.rows = A.cols → (∀ b : List ℝ, b.length = A.rows → ∃ c : List ℝ, c.length = A.cols ∧
    ∀ i < A.rows, ∑ j ∈ Finset.range A.cols, A.val i j * c.getD j 0 = b.getD i 0) → Spec.SolvesExactly linSolve A

/-- The stiffness matrix of the structure is regular on the free dofs. -/
def Spec.RegularStiffness (flags : List Bool) (K : DMat ℝ) : Prop :=
  ∀ v : List ℝ, v.length = flags.length → (∀ i : Nat, flags[i]? = some true → v[i]? = some 0) →
    (∀ i, Spec.Free flags i → Spec.times K v i = 0) → ∀ i < flags.length, v.getD i 0 = 0

/-! ### Skills -/

theorem Spec.SmoothWithin.mono {E : ℝ → NodeVec n d → ℝ} {F : ℝ → NodeVec n d → NodeVec n d} {K : ℝ → NodeVec n d → BlockMat n d}
    {l0 : ℝ} {u0 : NodeVec n d} {delta Lam delta' Lam' : ℝ} (h : Spec.SmoothWithin E F K l0 u0 delta Lam) (hd : delta' ≤ delta)
    (hL : Lam ≤ Lam') : Spec.SmoothWithin E F K l0 u0 delta' Lam' := by
  intro l hl u hu
  obtain ⟨h1, h2, h3⟩ := h l (hl.trans hd) u (hu.trans hd)
  refine ⟨h1, h2, fun l' hl' => ⟨fun I a => ?_, fun u' hu' I J a b => ?_⟩⟩
  · exact ((h3 l' (hl'.trans hd)).1 I a).trans (mul_le_mul_of_nonneg_right hL (abs_nonneg _))
  · exact ((h3 l' (hl'.trans hd)).2 u' (hu'.trans hd) I J a b).trans (mul_le_mul_of_nonneg_right hL (by positivity))

theorem smooth_together (ss : List (ℝ → Skill n d)) (l0 : ℝ) (u0 : NodeVec n d) (h : ∀ s ∈ ss, Spec.SmoothSkill s l0 u0) :
    ∃ (E : ℝ → NodeVec n d → ℝ) (F : ℝ → NodeVec n d → NodeVec n d) (K : ℝ → NodeVec n d → BlockMat n d),
      (∀ l w, Mixin.calculateScalar w (ss.map fun s => s l) = some (E l w)) ∧
      (∀ l w f, Mixin.calculateVector w (ss.map fun s => s l) f = some (f + F l w)) ∧
      (∀ l w M, Mixin.calculateMatrix w (ss.map fun s => s l) M = some (M + K l w)) ∧
      ∃ delta > 0, ∃ Lam ≥ 0, Spec.SmoothWithin E F K l0 u0 delta Lam ∧
        ∀ l, |l - l0| ≤ delta → ∀ u, ‖u - u0‖ ≤ delta → ∀ s ∈ ss, Spec.SkillContract (s l) u := by
  induction ss with
  | nil =>
    refine ⟨fun _ _ => 0, fun _ _ => 0, fun _ _ => 0, fun _ _ => rfl, fun l w f => ?_, fun l w M => ?_, 1, one_pos, 0, le_rfl,
      fun l _ u _ => ⟨fun v => ?_, tangent_const _ u, fun l' _ => ⟨fun I a => ?_, fun u' _ I J a b => ?_⟩⟩, by simp⟩
    · rw [add_zero]; rfl
    · rw [add_zero]; rfl
    · rw [show Spec.work (0 : NodeVec n d) v = 0 by simp [work]]
      exact hasDerivAt_const _ _
    · simp
    · simp
  | cons s ss ih =>
    obtain ⟨E, F, K, hE, hF, hK, d1, hd1, L1, hL1, hG⟩ := h s (by simp)
    obtain ⟨E', F', K', hE', hF', hK', d2, hd2, L2, hL2, hG', hC'⟩ := ih fun s' hs' => h s' (by simp [hs'])
    have g1 := hG.mono (min_le_left d1 d2) (le_refl L1)
    have g2 := hG'.mono (min_le_right d1 d2) (le_refl L2)
    refine ⟨fun l w => E l w + E' l w, fun l w => F l w + F' l w, fun l w => K l w + K' l w, fun l w => ?_, fun l w f => ?_,
      fun l w M => ?_, min d1 d2, lt_min hd1 hd2, L1 + L2, by positivity, fun l hl u hu => ?_, fun l hl u hu t ht => ?_⟩
    · simp [Mixin.calculateScalar, hE l w, hE' l w]
    · simp [Mixin.calculateVector, hF l w f, hF' l w, add_assoc]
    · simp [Mixin.calculateMatrix, hK l w M, hK' l w, add_assoc]
    · obtain ⟨a1, a2, a3⟩ := g1 l hl u hu
      obtain ⟨b1, b2, b3⟩ := g2 l hl u hu
      refine ⟨fun v => ?_, fun v => ?_, fun l' hl' => ⟨fun I a => ?_, fun u' hu' I J a b => ?_⟩⟩
      · refine ((a1 v).add (b1 v)).congr_deriv ?_
        simp [work, add_mul, Finset.sum_add_distrib]
      · refine ((a2 v).add (b2 v)).congr_deriv ?_
        funext I a
        simp [mul, add_mul, Finset.sum_add_distrib]
      · have := abs_add_le (F l u I a - F l' u I a) (F' l u I a - F' l' u I a)
        have e : (F l u + F' l u) I a - (F l' u + F' l' u) I a = F l u I a - F l' u I a + (F' l u I a - F' l' u I a) := by
          simp only [Pi.add_apply]; ring
        rw [e, add_mul]
        exact this.trans (add_le_add ((a3 l' hl').1 I a) ((b3 l' hl').1 I a))
      · have := abs_add_le (K l u I J a b - K l' u' I J a b) (K' l u I J a b - K' l' u' I J a b)
        have e : (K l u + K' l u) I J a b - (K l' u' + K' l' u') I J a b =
            K l u I J a b - K l' u' I J a b + (K' l u I J a b - K' l' u' I J a b) := by
          simp only [Pi.add_apply, Matrix.add_apply]; ring
        rw [e, add_mul]
        exact this.trans (add_le_add ((a3 l' hl').2 u' hu' I J a b) ((b3 l' hl').2 u' hu' I J a b))
    · rcases List.mem_cons.1 ht with rfl | ht
      · exact ⟨E l, F l, K l, hE l, hF l, hK l, (g1 l hl u hu).1, (g1 l hl u hu).2.1⟩
      · exact hC' l (hl.trans (min_le_right _ _)) u (hu.trans (min_le_right _ _)) t ht

/-! ### Elements -/

/-- An element with what its skills add, for all load factors. -/
structure SmoothElem (size : Nat) (l0 : ℝ) (x0 : List ℝ) (delta Lam : ℝ) where
  e : ParamElem
  dofs : List Nat
  E : ℝ → NodeVec e.n e.d → ℝ
  F : ℝ → NodeVec e.n e.d → NodeVec e.n e.d
  K : ℝ → NodeVec e.n e.d → BlockMat e.n e.d
  dim : e.children.length = e.d
  nodes : (FETree.power e.children).nodeSize? = some e.n
  hdofs : FETree.globalIndices e.index (.power e.children) = some dofs
  bound : ∀ i ∈ dofs, i < size
  hE : ∀ l w, Mixin.calculateScalar w (e.skills.map fun s => s l) = some (E l w)
  hF : ∀ l w f, Mixin.calculateVector w (e.skills.map fun s => s l) f = some (f + F l w)
  hK : ∀ l w M, Mixin.calculateMatrix w (e.skills.map fun s => s l) M = some (M + K l w)
  smooth : Spec.SmoothWithin E F K l0 (gathered e.n e.d dofs x0) delta Lam
  contract : ∀ l, |l - l0| ≤ delta → ∀ u, ‖u - gathered e.n e.d dofs x0‖ ≤ delta → ∀ s ∈ e.skills, Spec.SkillContract (s l) u

variable {size : Nat} {l0 : ℝ} {x0 : List ℝ} {delta Lam : ℝ}

def SmoothElem.mono (r : SmoothElem size l0 x0 delta Lam) {delta' Lam' : ℝ} (hd : delta' ≤ delta) (hL : Lam ≤ Lam') :
    SmoothElem size l0 x0 delta' Lam' :=
  ⟨r.e, r.dofs, r.E, r.F, r.K, r.dim, r.nodes, r.hdofs, r.bound, r.hE, r.hF, r.hK, r.smooth.mono hd hL,
    fun l hl u hu => r.contract l (hl.trans hd) u (hu.trans hd)⟩

theorem smooth_elems (es : List ParamElem) (size : Nat) (l0 : ℝ) (x0 : List ℝ) (hx0 : x0.length = size)
    (h : ∀ e ∈ es, Spec.ElemFits size (e.at l0) ∧ ∀ u, (e.at l0).local? x0 = some u → ∀ s ∈ e.skills, Spec.SmoothSkill s l0 u) :
    ∃ delta > 0, ∃ Lam ≥ 0, ∃ rs : List (SmoothElem size l0 x0 delta Lam), es = rs.map (·.e) := by
  induction es with
  | nil => exact ⟨1, one_pos, 0, le_rfl, [], rfl⟩
  | cons e es ih =>
    obtain ⟨d1, hd1, L1, hL1, rs, hrs⟩ := ih fun e' he' => h e' (by simp [he'])
    obtain ⟨⟨h1, h2, dofs, h3, h4⟩, h5⟩ := h e (by simp)
    obtain ⟨-, X, -, hl, -⟩ := local_eq (e := e.at l0) h1 h2 h3 h4 x0 hx0
    obtain ⟨E, F, K, hE, hF, hK, d2, hd2, L2, hL2, hS, hC⟩ := smooth_together e.skills l0 _ (h5 _ hl)
    let r : SmoothElem size l0 x0 d2 L2 := ⟨e, dofs, E, F, K, h1, h2, h3, h4, hE, hF, hK, hS, hC⟩
    refine ⟨min d1 d2, lt_min hd1 hd2, max L1 L2, le_max_of_le_left hL1,
      r.mono (min_le_right _ _) (le_max_right _ _) :: rs.map fun r => r.mono (min_le_left _ _) (le_max_left _ _), ?_⟩
    rw [List.map_cons, List.map_map, hrs]
    rfl

/-- The element as it computes with load factor `l` near the state `u`. -/
def SmoothElem.resolved (r : SmoothElem size l0 x0 delta Lam) (l : ℝ) (hl : |l - l0| ≤ delta) (u : List ℝ)
    (hu : ‖gathered r.e.n r.e.d r.dofs u - gathered r.e.n r.e.d r.dofs x0‖ ≤ delta) : Resolved size u :=
  ⟨r.e.at l, r.dofs, r.E l, r.F l, r.K l, r.dim, r.nodes, r.hdofs, r.bound, r.hE l, r.hF l, r.hK l,
    (r.smooth l hl _ hu).1, (r.smooth l hl _ hu).2.1⟩

theorem gathered_distance (dofs : List Nat) {u u' : List ℝ} {m : Nat} (hu : u.length = m) (hu' : u'.length = m) :
    ‖gathered n d dofs u - gathered n d dofs u'‖ ≤ Spec.distance u u' := by
  refine (pi_norm_le_iff_of_nonneg (distance_nonneg _ _)).2 fun I => (pi_norm_le_iff_of_nonneg (distance_nonneg _ _)).2 fun a => ?_
  show ‖u.getD (dofs.getD (I * d + a) 0) 0 - u'.getD (dofs.getD (I * d + a) 0) 0‖ ≤ _
  generalize dofs.getD (I * d + a) 0 = k
  by_cases hk : k < m
  · rw [distance_eq m u u' hu hu']
    exact PiLp.norm_apply_le (vec m fun i => u.getD i 0 - u'.getD i 0) ⟨k, hk⟩
  · rw [List.getD_eq_getElem?_getD, List.getD_eq_getElem?_getD, List.getElem?_eq_none (by omega),
      List.getElem?_eq_none (by omega)]
    simpa using distance_nonneg u u'

/-! ### The system -/

/-- The vector with a one at `i`. -/
noncomputable def unitList (m i : Nat) : List ℝ := listOf m fun k => if k = i then 1 else 0

theorem unitList_length (m i : Nat) : (unitList m i).length = m := listOf_length _ _

theorem unitList_getD (m : Nat) {i k : Nat} (hk : k < m) : (unitList m i).getD k 0 = if k = i then 1 else 0 := listOf_getD m _ hk

theorem gathered_unit (dofs : List Nat) (m i : Nat) (I : Fin n) (a : Fin d) : |gathered n d dofs (unitList m i) I a| ≤ 1 := by
  show |(unitList m i).getD (dofs.getD (I * d + a) 0) 0| ≤ 1
  generalize dofs.getD (I * d + a) 0 = k
  by_cases hk : k < m
  · rw [unitList_getD m hk]
    split <;> simp
  · rw [List.getD_eq_getElem?_getD, List.getElem?_eq_none (by rw [unitList_length]; omega)]
    simp

theorem work_le {f v : NodeVec n d} {c : ℝ} (hf : ∀ I a, |f I a| ≤ c) (hv : ∀ I a, |v I a| ≤ 1) : |work f v| ≤ n * d * c := by
  unfold work
  calc |∑ I, ∑ a, f I a * v I a| ≤ ∑ I : Fin n, ∑ a : Fin d, c := by
        refine (Finset.abs_sum_le_sum_abs _ _).trans (Finset.sum_le_sum fun I _ =>
          (Finset.abs_sum_le_sum_abs _ _).trans (Finset.sum_le_sum fun a _ => ?_))
        rw [abs_mul]
        have h1 := hf I a
        have h2 := hv I a
        nlinarith [abs_nonneg (f I a), abs_nonneg (v I a)]
    _ = n * d * c := by simp; ring

theorem mul_le' {K : BlockMat n d} {v : NodeVec n d} {c : ℝ} (hK : ∀ I J a b, |K I J a b| ≤ c) (hv : ∀ I a, |v I a| ≤ 1) (I : Fin n)
    (a : Fin d) : |mul K v I a| ≤ n * d * c := by
  unfold mul
  calc |∑ J, ∑ b, K I J a b * v J b| ≤ ∑ J : Fin n, ∑ b : Fin d, c := by
        refine (Finset.abs_sum_le_sum_abs _ _).trans (Finset.sum_le_sum fun J _ =>
          (Finset.abs_sum_le_sum_abs _ _).trans (Finset.sum_le_sum fun b _ => ?_))
        rw [abs_mul]
        have h1 := hK I J a b
        have h2 := hv J b
        nlinarith [abs_nonneg (K I J a b), abs_nonneg (v J b)]
    _ = n * d * c := by simp; ring

theorem list_sum_sub_le {α : Type*} (l : List α) (f g c : α → ℝ) (h : ∀ x ∈ l, |f x - g x| ≤ c x) :
    |(l.map f).sum - (l.map g).sum| ≤ (l.map c).sum := by
  induction l with
  | nil => simp
  | cons x l ih =>
    simp only [List.map_cons, List.sum_cons]
    have h1 := h x (by simp)
    have h2 := ih fun y hy => h y (by simp [hy])
    have := abs_add_le (f x - g x) ((l.map f).sum - (l.map g).sum)
    have e : f x + (l.map f).sum - (g x + (l.map g).sum) = f x - g x + ((l.map f).sum - (l.map g).sum) := by ring
    rw [e]
    linarith

namespace Analysis

variable {a : Analysis}

theorem smooth_system {rs : List (SmoothElem a.dv.flags.length l0 x0 delta Lam)} (hrs : a.elems = rs.map (·.e))
    (hx0 : x0.length = a.dv.flags.length) {l : ℝ} (hl : |l - l0| ≤ delta) {u : List ℝ} (hu : Spec.Near a x0 delta u) :
    Spec.SystemContract (a.system l) u ∧
    (∃ r, (a.system l).rawVector? u = some r ∧ ∀ i < a.dv.flags.length, r.getD i 0 = (rs.map fun r =>
      work (r.F l (gathered r.e.n r.e.d r.dofs u)) (gathered r.e.n r.e.d r.dofs (unitList a.dv.flags.length i))).sum) ∧
    ∃ K, (a.system l).rawMatrix? u = some K ∧ ∀ i < a.dv.flags.length, ∀ j < a.dv.flags.length, K.val i j = (rs.map fun r =>
      work (mul (r.K l (gathered r.e.n r.e.d r.dofs u)) (gathered r.e.n r.e.d r.dofs (unitList a.dv.flags.length j)))
        (gathered r.e.n r.e.d r.dofs (unitList a.dv.flags.length i))).sum := by
  have hg : ∀ r : SmoothElem a.dv.flags.length l0 x0 delta Lam,
      ‖gathered r.e.n r.e.d r.dofs u - gathered r.e.n r.e.d r.dofs x0‖ ≤ delta := fun r =>
    (gathered_distance r.dofs hu.1 hx0).trans hu.2
  let ss : List (Resolved a.dv.flags.length u) := rs.map fun r => r.resolved l hl u (hg r)
  have hss : (a.system l).elems = ss.map (·.e) := by
    show a.elems.map (·.at l) = _
    rw [hrs, List.map_map, List.map_map]
    rfl
  refine ⟨⟨hu.1, fun e he => ?_⟩, ?_, ?_⟩
  · have he : e ∈ a.elems.map (·.at l) := he
    rw [hrs, List.map_map] at he
    obtain ⟨r, hr, rfl⟩ := List.mem_map.1 he
    refine ⟨⟨r.dim, r.nodes, r.dofs, r.hdofs, r.bound⟩, fun w hw sk hsk => ?_⟩
    obtain ⟨-, -, -, hloc, -⟩ := local_eq (e := r.e.at l) (size := a.dv.flags.length) r.dim r.nodes r.hdofs r.bound u hu.1
    obtain rfl := Option.some.inj (hloc.symm.trans hw)
    obtain ⟨s, hs, rfl⟩ := List.mem_map.1 hsk
    exact r.contract l hl _ (hg r) s hs
  · obtain ⟨v, hv, hvl, hv2⟩ := rawVector_resolved hss hu.1 hu.1
    refine ⟨v, hv, fun i hi => ?_⟩
    have h1 := hv2 (unitList a.dv.flags.length i) (unitList_length _ _)
    rw [dotL_eq_sum _ _ a.dv.flags.length hvl (unitList_length _ _)] at h1
    rw [Finset.sum_congr rfl fun k hk => by rw [unitList_getD _ (Finset.mem_range.1 hk)]] at h1
    simp only [mul_ite, mul_one, mul_zero, Finset.sum_ite_eq', Finset.mem_range, hi, if_true] at h1
    refine h1.trans ?_
    have h2 : ∀ qs : List (SmoothElem a.dv.flags.length l0 x0 delta Lam), ((qs.map fun r => r.resolved l hl u (hg r)).map fun r =>
        work (r.F (gathered r.e.n r.e.d r.dofs u)) (gathered r.e.n r.e.d r.dofs (unitList a.dv.flags.length i))).sum =
        (qs.map fun r =>
          work (r.F l (gathered r.e.n r.e.d r.dofs u)) (gathered r.e.n r.e.d r.dofs (unitList a.dv.flags.length i))).sum := by
      intro qs
      rw [List.map_map]
      rfl
    exact h2 rs
  · obtain ⟨K, hK, -, -, hK2⟩ := rawMatrix_resolved hss hu.1 hu.1
    refine ⟨K, hK, fun i hi j hj => ?_⟩
    have h1 := hK2 (unitList a.dv.flags.length i) (unitList a.dv.flags.length j) (unitList_length _ _) (unitList_length _ _)
    have h2 : ∑ r ∈ Finset.range a.dv.flags.length, ∑ c ∈ Finset.range a.dv.flags.length,
        (unitList a.dv.flags.length i).getD r 0 * K.val r c * (unitList a.dv.flags.length j).getD c 0 = K.val i j := by
      rw [Finset.sum_eq_single i, Finset.sum_eq_single j]
      · rw [unitList_getD _ hi, unitList_getD _ hj]; simp
      · intro c hc hcj
        rw [unitList_getD _ (Finset.mem_range.1 hc) (i := j), if_neg hcj, mul_zero]
      · intro h; exact absurd (Finset.mem_range.2 hj) h
      · intro r hr hri
        refine Finset.sum_eq_zero fun c _ => ?_
        rw [unitList_getD _ (Finset.mem_range.1 hr) (i := i), if_neg hri, zero_mul, zero_mul]
      · intro h; exact absurd (Finset.mem_range.2 hi) h
    rw [← h2]
    refine h1.trans ?_
    have h3 : ∀ qs : List (SmoothElem a.dv.flags.length l0 x0 delta Lam), ((qs.map fun r => r.resolved l hl u (hg r)).map fun r =>
        work (mul (r.K (gathered r.e.n r.e.d r.dofs u)) (gathered r.e.n r.e.d r.dofs (unitList a.dv.flags.length j)))
          (gathered r.e.n r.e.d r.dofs (unitList a.dv.flags.length i))).sum = (qs.map fun r =>
        work (mul (r.K l (gathered r.e.n r.e.d r.dofs u)) (gathered r.e.n r.e.d r.dofs (unitList a.dv.flags.length j)))
          (gathered r.e.n r.e.d r.dofs (unitList a.dv.flags.length i))).sum := by
      intro qs
      rw [List.map_map]
      rfl
    exact h3 rs

theorem freeSize_le_sum (flags : List Bool) (f : Nat → ℝ) {c : ℝ} (h : ∀ i < flags.length, |f i| ≤ c) :
    Spec.freeSize flags f ≤ flags.length * c := by
  rw [← freeVec_norm]
  have h1 : ‖freeVec flags f‖ ≤ ∑ i : Fin flags.length, c := by
    rw [EuclideanSpace.norm_eq]
    refine (Real.sqrt_le_sqrt (Finset.sum_le_sum (f := fun i => ‖(freeVec flags f) i‖ ^ 2)
      (g := fun i : Fin flags.length => (|f i|) ^ 2) fun i _ => ?_)).trans ?_
    · simp only [freeVec, vec]
      split
      · exact le_of_eq (by rw [Real.norm_eq_abs])
      · simpa using sq_nonneg (|f i|)
    · refine Real.sqrt_le_iff.2 ⟨Finset.sum_nonneg fun (i : Fin flags.length) _ => (abs_nonneg _).trans (h i i.2), ?_⟩
      calc ∑ i : Fin flags.length, |f i| ^ 2 ≤ (∑ i : Fin flags.length, |f i|) ^ 2 :=
            Finset.sum_sq_le_sq_sum_of_nonneg fun i _ => abs_nonneg _
        _ ≤ _ := by
            refine pow_le_pow_left₀ (Finset.sum_nonneg fun i _ => abs_nonneg _) (Finset.sum_le_sum fun (i : Fin flags.length) _ => h i i.2) 2
  simpa using h1

theorem entry_le_size {v : List ℝ} {m : Nat} (hv : v.length = m) {j : Nat} (hj : j < m) : |v.getD j 0| ≤ Spec.size v := by
  rw [size_eq m v hv]
  exact PiLp.norm_apply_le (vec m (v.getD · 0)) ⟨j, hj⟩

theorem times_le {K : DMat ℝ} {v : List ℝ} {m : Nat} (hv : v.length = m) {c : ℝ} {i : Nat} (hc : ∀ j < m, |K.val i j| ≤ c) :
    |Spec.times K v i| ≤ m * c * Spec.size v := by
  rw [times_eq K hv]
  calc |∑ j ∈ Finset.range m, K.val i j * v.getD j 0| ≤ ∑ j ∈ Finset.range m, c * Spec.size v := by
        refine (Finset.abs_sum_le_sum_abs _ _).trans (Finset.sum_le_sum fun j hj => ?_)
        rw [abs_mul]
        have hj := Finset.mem_range.1 hj
        exact mul_le_mul (hc j hj) (entry_le_size hv hj) (abs_nonneg _) ((abs_nonneg _).trans (hc j hj))
    _ = m * c * Spec.size v := by simp; ring

/-- How the entries of stiffness and forces change. -/
theorem smooth_entries {rs : List (SmoothElem a.dv.flags.length l0 x0 delta Lam)} (hrs : a.elems = rs.map (·.e))
    (hx0 : x0.length = a.dv.flags.length) (hLam : 0 ≤ Lam) : ∃ c ≥ 0, ∀ l, |l - l0| ≤ delta → ∀ l', |l' - l0| ≤ delta →
    ∀ u u', Spec.Near a x0 delta u → Spec.Near a x0 delta u' →
    (∀ K K', (a.system l).rawMatrix? u = some K → (a.system l').rawMatrix? u' = some K' → ∀ i < a.dv.flags.length,
      ∀ j < a.dv.flags.length, |K.val i j - K'.val i j| ≤ c * (|l - l'| + Spec.distance u u')) ∧
    ∀ r r', (a.system l).rawVector? u = some r → (a.system l').rawVector? u = some r' → ∀ i < a.dv.flags.length,
      |r.getD i 0 - r'.getD i 0| ≤ c * |l - l'| := by
  obtain ⟨c1, hc1⟩ : ∃ c1, c1 = (rs.map fun r => (r.e.n * r.e.d : ℝ) * (r.e.n * r.e.d * Lam)).sum := ⟨_, rfl⟩
  obtain ⟨c2, hc2⟩ : ∃ c2, c2 = (rs.map fun r => (r.e.n * r.e.d : ℝ) * Lam).sum := ⟨_, rfl⟩
  have h1 : 0 ≤ c1 := hc1 ▸ List.sum_nonneg (by simp only [List.mem_map]; rintro _ ⟨r, -, rfl⟩; positivity)
  have h2 : 0 ≤ c2 := hc2 ▸ List.sum_nonneg (by simp only [List.mem_map]; rintro _ ⟨r, -, rfl⟩; positivity)
  refine ⟨c1 + c2, by positivity, fun l hl l' hl' u u' hu hu' => ⟨fun K K' hK hK' i hi j hj => ?_, fun r r' hr hr' i hi => ?_⟩⟩
  · obtain ⟨-, -, K1, hK1, e1⟩ := smooth_system hrs hx0 hl hu
    obtain ⟨-, -, K2, hK2, e2⟩ := smooth_system hrs hx0 hl' hu'
    obtain rfl := Option.some.inj (hK.symm.trans hK1)
    obtain rfl := Option.some.inj (hK'.symm.trans hK2)
    rw [e1 i hi j hj, e2 i hi j hj]
    refine (list_sum_sub_le rs _ _ (fun r => (r.e.n * r.e.d : ℝ) * (r.e.n * r.e.d * Lam) * (|l - l'| + Spec.distance u u'))
      fun r _ => ?_).trans ?_
    · have hg := (gathered_distance (n := r.e.n) (d := r.e.d) r.dofs hu.1 hx0).trans hu.2
      have hg' := (gathered_distance (n := r.e.n) (d := r.e.d) r.dofs hu'.1 hx0).trans hu'.2
      have e : ∀ (A B : BlockMat r.e.n r.e.d) (v w : NodeVec r.e.n r.e.d), work (mul A v) w - work (mul B v) w =
          work (mul (A - B) v) w := by
        intro A B v w
        simp only [work, mul, ← Finset.sum_sub_distrib, Pi.sub_apply, Matrix.sub_apply, ← sub_mul]
      rw [e]
      have := work_le (fun I b => mul_le' (K := r.K l (gathered r.e.n r.e.d r.dofs u) - r.K l' (gathered r.e.n r.e.d r.dofs u'))
        (c := Lam * (|l - l'| + Spec.distance u u')) (fun I J b c => ((r.smooth l hl _ hg).2.2 l' hl').2 _ hg' I J b c |>.trans
          (mul_le_mul_of_nonneg_left (add_le_add le_rfl (gathered_distance r.dofs hu.1 hu'.1)) hLam))
        (gathered_unit r.dofs a.dv.flags.length j) I b) (gathered_unit r.dofs a.dv.flags.length i)
      refine this.trans (le_of_eq ?_)
      ring
    · rw [List.sum_map_mul_right, ← hc1]
      exact mul_le_mul_of_nonneg_right (by linarith) (add_nonneg (abs_nonneg _) (distance_nonneg _ _))
  · obtain ⟨-, ⟨r1, hr1, e1⟩, -⟩ := smooth_system hrs hx0 hl hu
    obtain ⟨-, ⟨r2, hr2, e2⟩, -⟩ := smooth_system hrs hx0 hl' hu
    obtain rfl := Option.some.inj (hr.symm.trans hr1)
    obtain rfl := Option.some.inj (hr'.symm.trans hr2)
    rw [e1 i hi, e2 i hi]
    refine (list_sum_sub_le rs _ _ (fun r => (r.e.n * r.e.d : ℝ) * Lam * |l - l'|) fun r _ => ?_).trans ?_
    · have hg := (gathered_distance (n := r.e.n) (d := r.e.d) r.dofs hu.1 hx0).trans hu.2
      have e : ∀ (f g v : NodeVec r.e.n r.e.d), work f v - work g v = work (f - g) v := by
        intro f g v
        simp only [work, ← Finset.sum_sub_distrib, Pi.sub_apply, ← sub_mul]
      rw [e]
      refine (work_le (fun I b => ((r.smooth l hl _ hg).2.2 l' hl').1 I b)
        (gathered_unit r.dofs a.dv.flags.length i)).trans (le_of_eq ?_)
      ring
    · rw [List.sum_map_mul_right, ← hc2]
      exact mul_le_mul_of_nonneg_right (by linarith) (abs_nonneg _)

/-- Regular stiffness has an inverse of some norm. -/
theorem regular_inverse {flags : List Bool} {K : DMat ℝ} (h : Spec.RegularStiffness flags K) : ∃ beta > 0, ∀ v : List ℝ,
    v.length = flags.length → (∀ i : Nat, flags[i]? = some true → v[i]? = some 0) →
    Spec.size v ≤ beta * Spec.freeSize flags (Spec.times K v) := by
  have hker : LinearMap.ker (defectTangent flags K) = ⊥ := by
    refine LinearMap.ker_eq_bot'.2 fun v hv => ?_
    have hi : ∀ i : Fin flags.length, (if Spec.Free flags i then Spec.times K (ofVec v) i else (ofVec v).getD i 0) = 0 := by
      intro i
      exact congrArg (fun w : EuclideanSpace ℝ (Fin flags.length) => w i) hv
    have := h (ofVec v) (ofVec_length v) (fun i hi' => by
      have hlt : i < flags.length := (List.getElem?_eq_some_iff.1 hi').1
      have := hi ⟨i, hlt⟩
      rw [if_neg ((not_free_iff hlt).2 hi')] at this
      rw [getElem?_eq_getD (by rw [ofVec_length]; exact hlt)]
      exact congrArg some this) (fun i hf => by
      have := hi ⟨i, free_lt hf⟩
      rwa [if_pos hf] at this)
    ext i
    rw [← ofVec_getD]
    exact this i i.2
  obtain ⟨k, hk, hA⟩ := LinearMap.exists_antilipschitzWith (defectTangent flags K) hker
  refine ⟨k, hk, fun v hv hv0 => ?_⟩
  have h1 := hA.le_mul_dist (vec flags.length (v.getD · 0)) 0
  rw [map_zero, dist_zero_right, dist_zero_right, ← size_eq _ v hv] at h1
  refine h1.trans (mul_le_mul_of_nonneg_left ?_ k.2)
  have e : defectTangent flags K (vec flags.length (v.getD · 0)) = freeVec flags (Spec.times K v) := by
    ext i
    show (if Spec.Free flags i then Spec.times K (ofVec (vec flags.length (v.getD · 0))) i else
      (ofVec (vec flags.length (v.getD · 0))).getD i 0) = if Spec.Free flags i then Spec.times K v i else 0
    rw [ofVec_vec hv]
    split
    · rfl
    · rename_i hf
      rw [List.getD_eq_getElem?_getD, hv0 i ((not_free_iff i.2).1 hf), Option.getD_some]
  rw [e, freeVec_norm]

/-- The linear solver solves what it gets where the stiffness has an inverse. -/
theorem solves_of_stable (hopt : a.option ≠ .raw) (hlin : Spec.ExactSolver a.linSolve) {l beta : ℝ} {u : List ℝ} {K : DMat ℝ}
    (hK : (a.system l).rawMatrix? u = some K)
    (hst : ∀ v : List ℝ, v.length = a.dv.flags.length → (∀ i : Nat, a.dv.flags[i]? = some true → v[i]? = some 0) →
      Spec.size v ≤ beta * Spec.freeSize a.dv.flags (Spec.times K v)) (A : DMat ℝ) (hA : a.jacobian? ⟨l, some u⟩ = some A) :
    Spec.SolvesExactly a.linSolve A := by
  have h := inverseSolve_regular a hopt l u K hK (fun c hc hf i hi => ?_) A hA
  · refine hlin A ?_ fun b hb => ⟨_, (h b hb).1, (h b hb).2⟩
    exact (listOf_length _ _).symm.trans (h (List.replicate A.rows 0) List.length_replicate).1
  · have h1 := hst (listOf a.dv.flags.length c) (listOf_length _ _) fun j hj => by
      have hlt : j < a.dv.flags.length := (List.getElem?_eq_some_iff.1 hj).1
      rw [getElem?_eq_getD (by rw [listOf_length]; exact hlt), listOf_getD _ _ hlt, hc j hlt ((not_free_iff hlt).2 hj)]
    have h2 : Spec.freeSize a.dv.flags (Spec.times K (listOf a.dv.flags.length c)) = 0 := by
      rw [freeSize_congr (g := fun _ => 0), Spec.freeSize]
      · simp
      · intro j hj
        rw [times_eq K (listOf_length _ _)]
        refine Eq.trans ?_ (hf j hj)
        exact Finset.sum_congr rfl fun k hk => by rw [listOf_getD _ _ (Finset.mem_range.1 hk)]
    rw [h2, mul_zero] at h1
    have h3 := entry_le_size (listOf_length a.dv.flags.length c) hi
    rw [listOf_getD _ _ hi] at h3
    exact abs_nonpos_iff.1 (h3.trans h1)

end Analysis

end Ikarus
