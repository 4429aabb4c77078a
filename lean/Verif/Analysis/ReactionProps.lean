import Verif.Analysis.TrussSupportProps
import Verif.FE.BalanceProps

/-!
C103, continued: the forces at the supports of a structure in equilibrium carry its loads.
-/

namespace Ikarus

open Ikarus.Element Ikarus.Element.Spec Matrix

variable {n d : Nat}

/-! ### Specification -/

/-- At the displacements `u` the skill adds forces which do the work `-P` on the rigid virtual motions about the positions
`x`; `P` is the work of the loads the skill applies, zero for a skill that only resists deformation. -/
def Spec.Carries (s : Skill n d) (u x : NodeVec n d) (P : NodeVec n d → ℝ) : Prop :=
  ∃ F, (∀ f, s.vector u f = some (f + F)) ∧
    ∀ (c : Fin d → ℝ) (W : Matrix (Fin d) (Fin d) ℝ), Wᵀ = -W → work F (rigid c W x) = -P (rigid c W x)

/-- The work of a load on the virtual displacements `v`, integrated over the points. -/
noncomputable def Spec.loadWork (load : LoadFunction d) (lambda : ℝ) (points : List (LoadPoint n d)) (v : NodeVec n d) : ℝ :=
  (points.map fun p => (∑ a, load p.x lambda a * ∑ I, p.N I * v I a) * (p.detJ * p.weight)).sum

/-- The global vector `w` moves each element rigidly about its positions `pos`. -/
def Spec.MovesRigidly (elems : List Elem) (pos : ∀ e : Elem, NodeVec e.n e.d) (w : List ℝ) : Prop :=
  ∀ e ∈ elems, ∃ (c : Fin e.d → ℝ) (W : Matrix (Fin e.d) (Fin e.d) ℝ), Wᵀ = -W ∧ e.local? w = some (rigid c W (pos e))

/-- The work the loads `P` of the elements do on the global vector `w`. -/
noncomputable def Spec.totalWork (elems : List Elem) (P : ∀ e : Elem, NodeVec e.n e.d → ℝ) (w : List ℝ) : ℝ :=
  (elems.map fun e => (e.local? w).elim 0 (P e)).sum

/-! ### Skills -/

/-- C103, skills. The nonlinear element carries no load. -/
theorem nonLinearElastic_carries {q : Nat} (dim : EAS.Dimension d q) (hdim : EAS.Spec.IsVoigt dim) (law : Law q)
    (gps : List (Point n d q)) (X u : NodeVec n d) (hX : ∀ gp ∈ gps, GreenLagrangeOperator dim X u (gp.bop u)) :
    Spec.Carries (Skill.nonLinearElastic law gps) u (X + u) 0 := by
  obtain ⟨F, h1, h2⟩ := nonlinear_balance dim hdim law gps X u 0 hX
  refine ⟨F, fun f => congrArg some ?_, fun c W hW => by rw [h2 c W hW]; simp⟩
  rw [(NonLinearElastic.nonLinearElastic_adds law gps u f 0).2.1, h1, zero_add]

/-- C103, skills. The membrane carries no load. -/
theorem membrane_carries (law : Law 3) (gps : List (Point n 3 3)) (X u : NodeVec n 3)
    (hX : ∀ gp ∈ gps, ∃ J dN, SurfaceIsoparametric X J dN ∧ gp.bop = Membrane.derivative J dN) :
    Spec.Carries (Skill.nonLinearElastic law gps) u (X + u) 0 := by
  obtain ⟨F, h1, h2⟩ := membrane_balance law gps X u 0 hX
  refine ⟨F, fun f => congrArg some ?_, fun c W hW => by rw [h2 c W hW]; simp⟩
  rw [(NonLinearElastic.nonLinearElastic_adds law gps u f 0).2.1, h1, zero_add]

/-- C103, skills. The linear element carries no load; its moments vanish about the reference positions. -/
theorem linearElastic_carries {q : Nat} (dim : EAS.Dimension d q) (hdim : EAS.Spec.IsVoigt dim)
    (C : Matrix (Fin q) (Fin q) ℝ) (gps : List (LinPoint n d q)) (X u : NodeVec n d)
    (hX : ∀ gp ∈ gps, GreenLagrangeOperator dim X 0 gp.bop) : Spec.Carries (Skill.linearElastic C gps) u X 0 := by
  obtain ⟨F, h1, h2⟩ := linear_balance dim hdim C gps X u 0 hX
  refine ⟨F, fun f => congrArg some ?_, fun c W hW => by rw [h2 c W hW]; simp⟩
  rw [(LinearElastic.linearElastic_adds C gps u f 0).2.1, h1, zero_add]

/-- C103, skills. The truss carries no load. -/
theorem truss_carries (E A : ℝ) (X1 X2 : Fin d → ℝ) (u : NodeVec 2 d) :
    Spec.Carries (Skill.truss E A X1 X2) u (![X1, X2] + u) 0 := by
  obtain ⟨F, h1, h2⟩ := truss_balance E A X1 X2 u 0
  refine ⟨F, fun f => congrArg some ?_, fun c W hW => by rw [h2 c W hW]; simp⟩
  rw [(Truss.truss_adds E A X1 X2 u f 0).1, h1, zero_add]

/-- C103, skills. The volume load carries the load function integrated over the element, whatever the displacements. -/
theorem volumeLoad_carries (load : LoadFunction d) (gps : List (LoadPoint n d)) (lambda : ℝ) (u x : NodeVec n d) :
    Spec.Carries (Skill.volumeLoad (some load) gps lambda) u x (Spec.loadWork load lambda gps) := by
  refine ⟨_, fun f => congrArg some (VolumeLoad.calculateVector_sum load gps lambda f), fun c W _ => ?_⟩
  rw [work_list_sum, Spec.loadWork, list_sum_neg]
  congr 1
  refine List.map_congr_left fun p _ => ?_
  rw [VolumeLoad.work_pointForce]
  simp only [dotProduct, LoadPoint.displacement, Finset.sum_apply, Pi.smul_apply, smul_eq_mul]
  rw [Finset.sum_congr rfl fun a _ => mul_comm (∑ I, p.N I * rigid c W x I a) (load p.x lambda a)]
  ring

/-- C103, skills. The traction carries the load function integrated over the loaded part of the boundary. -/
theorem traction_carries (is : List (Traction.Intersection n d)) (load : LoadFunction d) (lambda : ℝ) (u x : NodeVec n d) :
    Spec.Carries (Skill.traction (some is) (some load) lambda) u x (Spec.loadWork load lambda (loadedPoints is)) := by
  refine ⟨_, fun f => Traction.calculateVector_sum is load lambda f, fun c W _ => ?_⟩
  rw [work_list_sum, Spec.loadWork, list_sum_neg]
  congr 1
  refine List.map_congr_left fun p _ => ?_
  rw [Traction.work_pForce]
  simp only [dotProduct, LoadPoint.displacement, Finset.sum_apply, Pi.smul_apply, smul_eq_mul]
  ring

/-- C103, mixin. An element with several skills carries the loads of all of them. -/
theorem mixin_carries (sP : List (Skill n d × (NodeVec n d → ℝ))) (u x : NodeVec n d)
    (h : ∀ p ∈ sP, Spec.Carries p.1 u x p.2) :
    Spec.Carries (Mixin.together (sP.map (·.1))) u x fun v => (sP.map fun p => p.2 v).sum := by
  induction sP with
  | nil =>
    refine ⟨0, fun f => ?_, fun c W _ => ?_⟩
    · rw [add_zero]; rfl
    · simp [work]
  | cons p sP ih =>
    obtain ⟨F, hF, hw⟩ := h p (by simp)
    obtain ⟨F', hF', hw'⟩ := ih fun p' hp' => h p' (by simp [hp'])
    refine ⟨F + F', fun f => ?_, fun c W hW => ?_⟩
    · have := hF' (f + F)
      simp only [Mixin.together] at this
      simp [Mixin.together, Mixin.calculateVector, hF f, this, add_assoc]
    · rw [Element.work_add, hw c W hW, hw' c W hW]
      simp only [List.map_cons, List.sum_cons, neg_add]

/-! ### Structures -/

/-- C103, structures. The assembled forces do the work of the loads, with the opposite sign, on all virtual displacements that
move each element rigidly: the inner forces do not contribute. -/
theorem support_work (s : System) {y w : List ℝ} (h : Spec.SystemContract s y) (pos : ∀ e : Elem, NodeVec e.n e.d)
    (P : ∀ e : Elem, NodeVec e.n e.d → ℝ)
    (hP : ∀ e ∈ s.elems, ∀ u, e.local? y = some u → Spec.Carries (Mixin.together e.skills) u (pos e) (P e))
    (hw : w.length = s.flags.length) (hm : Spec.MovesRigidly s.elems pos w) :
    ∃ r, s.rawVector? y = some r ∧ r.length = s.flags.length ∧ Spec.dotL r w = -Spec.totalWork s.elems P w := by
  obtain ⟨rs, hrs⟩ := resolve h
  obtain ⟨r, h1, h2, h3⟩ := rawVector_resolved hrs h.1 h.1
  refine ⟨r, h1, h2, ?_⟩
  rw [h3 w hw, Spec.totalWork, hrs, List.map_map, list_sum_neg]
  congr 1
  refine List.map_congr_left fun q hq => ?_
  have hmem : q.e ∈ s.elems := by rw [hrs]; exact List.mem_map_of_mem hq
  obtain ⟨F, hF, hFw⟩ := hP q.e hmem _ (q.local h.1)
  obtain ⟨c, W, hW, hl⟩ := hm q.e hmem
  have e1 : q.F (gathered q.e.n q.e.d q.dofs y) = F := by
    have := (hF 0).symm.trans (q.hF _ 0)
    simpa using (Option.some.inj this).symm
  have e2 := (q.local hw).symm.trans hl
  rw [Function.comp, hl, Option.elim_some, e1, Option.some.inj e2, hFw c W hW]

/-- In a stationary state the free forces are within the tolerance. -/
theorem residual_of_stationary (s : System) (tol : ℝ) (htol : 0 ≤ tol) {u : List ℝ} (h : Spec.SystemContract s u)
    (hst : Spec.Stationary s.flags s.scalar? tol u) {r : List ℝ} (hr : s.rawVector? u = some r)
    (hrl : r.length = s.flags.length) : Real.sqrt (freeSq s.flags (r.getD · 0)) ≤ tol := by
  classical
  obtain ⟨-, r', _, h2, _, h3⟩ := assembled_consistent s u h
  obtain rfl : r = r' := Option.some.inj (hr.symm.trans h2)
  set v : List ℝ := List.ofFn fun i : Fin s.flags.length => if Spec.Free s.flags i then r.getD i 0 else 0 with hv
  have hvl : v.length = s.flags.length := by simp [hv]
  have hvd : ∀ i < s.flags.length, v.getD i 0 = if Spec.Free s.flags i then r.getD i 0 else 0 := by
    intro i hi
    rw [hv, List.getD_eq_getElem?_getD, List.getElem?_ofFn, dif_pos hi, Option.getD_some]
  have hv0 : ∀ i : Nat, s.flags[i]? = some true → v[i]? = some 0 := by
    intro i hi
    have hlt : i < s.flags.length := (List.getElem?_eq_some_iff.1 hi).1
    rw [hv, List.getElem?_ofFn, dif_pos hlt, if_neg ((not_free_iff hlt).2 hi)]
  obtain ⟨-, D, hD, hDle⟩ := hst v hvl hv0
  have hDr := hD.unique (h3 v hvl).1
  have hsq : Spec.dotL r v = freeSq s.flags (r.getD · 0) := by
    rw [dotL_eq_sum _ _ s.flags.length hrl hvl, freeSq, Finset.sum_filter]
    refine Finset.sum_congr rfl fun i hi => ?_
    rw [hvd i (Finset.mem_range.1 hi)]
    split <;> simp
  have hsize : Spec.size v = Real.sqrt (freeSq s.flags (r.getD · 0)) := by
    unfold Spec.size freeSq
    congr 1
    rw [list_sum_getD, List.length_map, hvl, Finset.sum_filter]
    refine Finset.sum_congr rfl fun i hi => ?_
    have : (v.map fun a => a * a).getD i 0 = v.getD i 0 * v.getD i 0 := by
      simp only [List.getD_eq_getElem?_getD, List.getElem?_map]
      cases v[i]? <;> simp
    rw [this, hvd i (Finset.mem_range.1 hi)]
    split <;> simp
  rw [hDr, hsq, hsize] at hDle
  have hn : 0 ≤ freeSq s.flags (r.getD · 0) := Finset.sum_nonneg fun i _ => mul_self_nonneg _
  rw [abs_of_nonneg hn] at hDle
  by_contra hlt
  push Not at hlt
  rcases hn.lt_or_eq with hpos | h0
  · have h5 := Real.mul_self_sqrt hn
    have h6 := Real.sqrt_pos.2 hpos
    nlinarith
  · rw [← h0, Real.sqrt_zero] at hlt
    linarith

/-- C103, supports. In a state of equilibrium the work of the constrained forces and the loads on every virtual displacement
that moves each element rigidly vanishes, up to the tolerance: the supports carry the loads. -/
theorem support_forces (s : System) (tol : ℝ) (htol : 0 ≤ tol) {y w : List ℝ} (h : Spec.SystemContract s y)
    (hst : Spec.Stationary s.flags s.scalar? tol y) (pos : ∀ e : Elem, NodeVec e.n e.d)
    (P : ∀ e : Elem, NodeVec e.n e.d → ℝ)
    (hP : ∀ e ∈ s.elems, ∀ u, e.local? y = some u → Spec.Carries (Mixin.together e.skills) u (pos e) (P e))
    (hw : w.length = s.flags.length) (hm : Spec.MovesRigidly s.elems pos w) :
    ∃ r, s.rawVector? y = some r ∧
      |∑ i ∈ (Finset.range s.flags.length).filter (fun i => s.flags[i]? = some true), r.getD i 0 * w.getD i 0 +
          Spec.totalWork s.elems P w| ≤
        tol * Real.sqrt (∑ i ∈ (Finset.range s.flags.length).filter (fun i => s.flags[i]? = some false), w.getD i 0 ^ 2) := by
  obtain ⟨r, h1, h2, h3⟩ := support_work s h pos P hP hw hm
  refine ⟨r, h1, ?_⟩
  have hres := residual_of_stationary s tol htol h hst h1 h2
  have hfree : ∀ f : Nat → ℝ, ∑ i ∈ (Finset.range s.flags.length).filter (fun i => s.flags[i]? = some false), f i =
      ∑ i ∈ (Finset.range s.flags.length).filter (fun i => Spec.Free s.flags i), f i := by
    intro f
    refine Finset.sum_congr (Finset.filter_congr fun i hi => ?_) fun _ _ => rfl
    have := not_free_iff (flags := s.flags) (Finset.mem_range.1 hi)
    have hi' := List.getElem?_eq_getElem (Finset.mem_range.1 hi)
    rw [hi'] at this ⊢
    cases hb : s.flags[i]'(Finset.mem_range.1 hi) <;> simp_all
  have hsplit : ∑ i ∈ Finset.range s.flags.length, r.getD i 0 * w.getD i 0 =
      ∑ i ∈ (Finset.range s.flags.length).filter (fun i => s.flags[i]? = some true), r.getD i 0 * w.getD i 0 +
      ∑ i ∈ (Finset.range s.flags.length).filter (fun i => Spec.Free s.flags i), r.getD i 0 * w.getD i 0 := by
    rw [← Finset.sum_filter_add_sum_filter_not _ (fun i => s.flags[i]? = some true)]
    congr 1
    refine Finset.sum_congr (Finset.filter_congr fun i hi => ?_) fun _ _ => rfl
    rw [← not_free_iff (Finset.mem_range.1 hi), not_not]
  rw [dotL_eq_sum _ _ s.flags.length h2 hw, hsplit] at h3
  have hcs := Finset.sum_mul_sq_le_sq_mul_sq ((Finset.range s.flags.length).filter (fun i => Spec.Free s.flags i))
    (r.getD · 0) (w.getD · 0)
  have hn1 : 0 ≤ freeSq s.flags (r.getD · 0) := Finset.sum_nonneg fun i _ => mul_self_nonneg _
  have hrr : ∑ i ∈ (Finset.range s.flags.length).filter (fun i => Spec.Free s.flags i), r.getD i 0 ^ 2 =
      freeSq s.flags (r.getD · 0) := by simp only [freeSq, ← sq]
  rw [hrr] at hcs
  have hab : ∑ i ∈ (Finset.range s.flags.length).filter (fun i => s.flags[i]? = some true), r.getD i 0 * w.getD i 0 +
      Spec.totalWork s.elems P w =
      -∑ i ∈ (Finset.range s.flags.length).filter (fun i => Spec.Free s.flags i), r.getD i 0 * w.getD i 0 := by linarith
  rw [hfree, hab, abs_neg]
  calc _ ≤ _ := Real.abs_le_sqrt hcs
    _ = Real.sqrt (freeSq s.flags (r.getD · 0)) * _ := Real.sqrt_mul hn1 _
    _ ≤ tol * _ := mul_le_mul_of_nonneg_right hres (Real.sqrt_nonneg _)

/-! ### Resultants -/

/-- The dofs of all elements are labelled with their directions. -/
def Spec.Directions (elems : List Elem) (dir : Nat → Nat) : Prop :=
  ∀ e ∈ elems, ∀ dofs, e.dofs? = some dofs → ∀ (I : Fin e.n) (a : Fin e.d), dir (dofs.getD (I * e.d + a) 0) = a

/-- The unit translation in the direction `a`, of an element. -/
def Spec.unit (a : Nat) : NodeVec n d := fun _ b => if (b : Nat) = a then 1 else 0

/-- The unit translation in the direction `a`, of the structure. -/
def Spec.unitGlobal (size : Nat) (dir : Nat → Nat) (a : Nat) : List ℝ := List.ofFn fun i : Fin size => if dir i = a then 1 else 0

theorem unitGlobal_getD (size : Nat) (dir : Nat → Nat) (a i : Nat) (hi : i < size) :
    (Spec.unitGlobal size dir a).getD i 0 = if dir i = a then 1 else 0 := by
  rw [Spec.unitGlobal, List.getD_eq_getElem?_getD, List.getElem?_ofFn, dif_pos hi, Option.getD_some]

theorem unitGlobal_local {size : Nat} {e : Elem} (h : Spec.ElemFits size e) {dir : Nat → Nat}
    (hdir : ∀ dofs, e.dofs? = some dofs → ∀ (I : Fin e.n) (a : Fin e.d), dir (dofs.getD (I * e.d + a) 0) = a) (a : Nat) :
    e.local? (Spec.unitGlobal size dir a) = some (Spec.unit a) := by
  obtain ⟨h1, h2, dofs, h3, h4⟩ := h
  obtain ⟨hl, X, -, h5, -⟩ := local_eq h1 h2 h3 h4 (Spec.unitGlobal size dir a) (by simp [Spec.unitGlobal])
  rw [h5]
  congr 1
  funext I b
  have hk : I * e.d + b < dofs.length := by
    rw [hl]
    calc (I : Nat) * e.d + b < I * e.d + e.d := by omega
      _ = (I + 1) * e.d := by ring
      _ ≤ e.n * e.d := Nat.mul_le_mul_right _ I.2
  have hb : dofs.getD (I * e.d + b) 0 < size := by
    rw [List.getD_eq_getElem?_getD, List.getElem?_eq_getElem hk, Option.getD_some]
    exact h4 _ (List.getElem_mem hk)
  unfold gathered Spec.unit
  rw [unitGlobal_getD _ _ _ _ hb, hdir dofs h3]

/-- C103, supports. The sum of the constrained forces in a direction and the resultants of the loads in that direction
cancel, up to the tolerance times the root of the number of free dofs in that direction. -/
theorem support_resultant (s : System) (tol : ℝ) (htol : 0 ≤ tol) {y : List ℝ} (h : Spec.SystemContract s y)
    (hst : Spec.Stationary s.flags s.scalar? tol y) (pos : ∀ e : Elem, NodeVec e.n e.d)
    (P : ∀ e : Elem, NodeVec e.n e.d → ℝ)
    (hP : ∀ e ∈ s.elems, ∀ u, e.local? y = some u → Spec.Carries (Mixin.together e.skills) u (pos e) (P e))
    (dir : Nat → Nat) (hdir : Spec.Directions s.elems dir) (a : Nat) :
    ∃ r, s.rawVector? y = some r ∧
      |∑ i ∈ (Finset.range s.flags.length).filter (fun i => s.flags[i]? = some true ∧ dir i = a), r.getD i 0 +
          (s.elems.map fun e => P e (Spec.unit a)).sum| ≤
        tol * Real.sqrt ((Finset.range s.flags.length).filter (fun i => s.flags[i]? = some false ∧ dir i = a)).card := by
  have hl : ∀ e ∈ s.elems, e.local? (Spec.unitGlobal s.flags.length dir a) = some (Spec.unit a) :=
    fun e he => unitGlobal_local (h.2 e he).1 (hdir e he) a
  obtain ⟨r, h1, h2⟩ := support_forces s tol htol h hst pos P hP (w := Spec.unitGlobal s.flags.length dir a)
    (by simp [Spec.unitGlobal]) fun e he => by
      refine ⟨fun b => if (b : Nat) = a then 1 else 0, 0, by simp, ?_⟩
      rw [hl e he]
      congr 1
      funext I b
      simp [rigid, Spec.unit]
  refine ⟨r, h1, ?_⟩
  have e1 : ∑ i ∈ (Finset.range s.flags.length).filter (fun i => s.flags[i]? = some true),
      r.getD i 0 * (Spec.unitGlobal s.flags.length dir a).getD i 0 =
      ∑ i ∈ (Finset.range s.flags.length).filter (fun i => s.flags[i]? = some true ∧ dir i = a), r.getD i 0 := by
    rw [← Finset.filter_filter, Finset.sum_filter (fun i => dir i = a)]
    refine Finset.sum_congr rfl fun i hi => ?_
    rw [unitGlobal_getD _ _ _ _ (Finset.mem_range.1 (Finset.mem_filter.1 hi).1)]
    split <;> simp
  have e2 : ∑ i ∈ (Finset.range s.flags.length).filter (fun i => s.flags[i]? = some false),
      (Spec.unitGlobal s.flags.length dir a).getD i 0 ^ 2 =
      (((Finset.range s.flags.length).filter (fun i => s.flags[i]? = some false ∧ dir i = a)).card : ℝ) := by
    rw [← Finset.filter_filter, Finset.card_filter]
    push_cast
    refine Finset.sum_congr rfl fun i hi => ?_
    rw [unitGlobal_getD _ _ _ _ (Finset.mem_range.1 (Finset.mem_filter.1 hi).1)]
    split <;> simp
  have e3 : Spec.totalWork s.elems P (Spec.unitGlobal s.flags.length dir a) = (s.elems.map fun e => P e (Spec.unit a)).sum := by
    unfold Spec.totalWork
    congr 1
    exact List.map_congr_left fun e he => by rw [hl e he, Option.elim_some]
  rw [e1, e2, e3] at h2
  exact h2

/-- C103, loads. With shape functions that sum to one the resultant of a load is the integral of the load function. -/
theorem loadWork_unit (load : LoadFunction d) (lambda : ℝ) (points : List (LoadPoint n d))
    (hN : ∀ p ∈ points, ∑ I, p.N I = 1) (a : Fin d) : Spec.loadWork load lambda points (Spec.unit a) =
      (points.map fun p => load p.x lambda a * (p.detJ * p.weight)).sum := by
  unfold Spec.loadWork
  congr 1
  refine List.map_congr_left fun p hp => ?_
  congr 1
  rw [Finset.sum_eq_single a]
  · simp [Spec.unit, hN p hp]
  · intro b _ hb
    have : (b : Nat) ≠ a := fun h => hb (Fin.ext h)
    simp [Spec.unit, this]
  · simp

/-! ### Example: two bars with volume loads and tractions, clamped at the left -/

theorem exampleBar_local (i j : Nat) (x : List ℝ) (hi : i < x.length) (hj : j < x.length) :
    (exampleBar [i, j]).local? x = some (![![x.getD i 0], ![x.getD j 0]] : NodeVec 2 1) := by
  obtain ⟨-, X, -, h, -⟩ := local_eq (e := exampleBar [i, j]) (dofs := [i, j]) (size := x.length) rfl rfl (by
    simp [Elem.dofs?, exampleBar, FETree.globalIndices, FETree.firstIsLeaf, FETree.powerNodeIndices, FETree.leafSize?,
      FETree.childIndex?, FETree.leafIndex?, mapOpt, List.range, List.range.loop]) (by simp [hi, hj]) x rfl
  rw [h]
  congr 1
  funext I a
  change Fin 2 at I
  change Fin 1 at a
  fin_cases a
  fin_cases I <;> rfl

/-- The loads of a bar. -/
noncomputable def exampleLoad (v : NodeVec 2 1) : ℝ :=
  Spec.loadWork (fun _ l => ![l]) 5 [⟨![0], 2, 1, ![1 / 2, 1 / 2]⟩] v +
    Spec.loadWork (fun x l => ![l * x 0]) 5 [⟨![1], 1, 1, ![0, 1]⟩] v

theorem exampleLoad_eq (v : NodeVec 2 1) : exampleLoad v = 5 * v 0 0 + 10 * v 1 0 := by
  simp [exampleLoad, Spec.loadWork, Fin.sum_univ_two]
  ring

theorem exampleBar_carries (u x : NodeVec 2 1) : Spec.Carries (Mixin.together
    [.linearElastic !![(3 : ℝ)] [⟨2, 1, ![!![-1 / 2], !![1 / 2]]⟩],
      .volumeLoad (some fun _ l => ![l]) [⟨![0], 2, 1, ![1 / 2, 1 / 2]⟩] 5,
      .traction (some [⟨true, [⟨![1], 1, 1, ![0, 1]⟩]⟩]) (some fun x l => ![l * x 0]) 5]) u x exampleLoad := by
  have hz : Spec.Carries (Skill.linearElastic !![(3 : ℝ)] [(⟨2, 1, ![!![-1 / 2], !![1 / 2]]⟩ : LinPoint 2 1 1)]) u x 0 := by
    refine ⟨_, fun f => congrArg some (LinearElastic.linearElastic_adds _ _ u f 0).2.1, fun c W hW => ?_⟩
    have hW0 : W 0 0 = 0 := by
      have : W 0 0 = -W 0 0 := congrFun (congrFun hW 0) 0
      linarith
    rw [LinearElastic.calculateVector_sum]
    simp [work, Fin.sum_univ_two, rigid, Matrix.mulVec, dotProduct, hW0, LinearElastic.pointForce, LinearElastic.stress,
      LinPoint.strain]
    ring
  have := mixin_carries [(Skill.linearElastic !![(3 : ℝ)] [(⟨2, 1, ![!![-1 / 2], !![1 / 2]]⟩ : LinPoint 2 1 1)], 0),
    (Skill.volumeLoad (some fun _ l => ![l]) [⟨![0], 2, 1, ![1 / 2, 1 / 2]⟩] 5,
      Spec.loadWork (fun _ l => ![l]) 5 [⟨![0], 2, 1, ![1 / 2, 1 / 2]⟩]),
    (Skill.traction (some [⟨true, [⟨![1], 1, 1, ![0, 1]⟩]⟩]) (some fun x l => ![l * x 0]) 5,
      Spec.loadWork (fun x l => ![l * x 0]) 5 [⟨![1], 1, 1, ![0, 1]⟩])] u x (by
      intro p hp
      rcases List.mem_cons.1 hp with rfl | hp
      · exact hz
      rcases List.mem_cons.1 hp with rfl | hp
      · exact volumeLoad_carries _ _ _ _ _
      rcases List.mem_cons.1 hp with rfl | hp
      · exact traction_carries [⟨true, [⟨![1], 1, 1, ![0, 1]⟩]⟩] (fun x l => ![l * x 0]) 5 u x
      · exact absurd hp List.not_mem_nil)
  obtain ⟨F, h1, h2⟩ := this
  refine ⟨F, h1, fun c W hW => ?_⟩
  rw [h2 c W hW]
  simp [exampleLoad]

theorem exampleSystem_energy (x0 x1 x2 : ℝ) : exampleSystem.scalar? [x0, x1, x2] =
    some (3 / 4 * (x1 - x0) ^ 2 - 5 * x0 - 10 * x1 + (3 / 4 * (x2 - x1) ^ 2 - 5 * x1 - 10 * x2)) := by
  have key : ∀ i j, i < 3 → j < 3 → (exampleBar [i, j]).scalar? [x0, x1, x2] =
      some (3 / 4 * ([x0, x1, x2].getD j 0 - [x0, x1, x2].getD i 0) ^ 2 - 5 * [x0, x1, x2].getD i 0 -
        10 * [x0, x1, x2].getD j 0) := by
    intro i j hi hj
    unfold Elem.scalar?
    rw [exampleBar_local i j [x0, x1, x2] hi hj]
    generalize [x0, x1, x2].getD i 0 = a
    generalize [x0, x1, x2].getD j 0 = b
    show Mixin.calculateScalar (![![a], ![b]] : NodeVec 2 1) [.linearElastic !![(3 : ℝ)] [⟨2, 1, ![!![-1 / 2], !![1 / 2]]⟩],
      .volumeLoad (some fun _ l => ![l]) [⟨![0], 2, 1, ![1 / 2, 1 / 2]⟩] 5,
      .traction (some [⟨true, [⟨![1], 1, 1, ![0, 1]⟩]⟩]) (some fun x l => ![l * x 0]) 5] = _
    simp [Mixin.calculateScalar, Skill.linearElastic, Skill.volumeLoad, Skill.traction, VolumeLoad.calculateScalar_sum,
      Traction.calculateScalar_sum, loadedPoints, LoadPoint.displacement, Fin.sum_univ_two, LinearElastic.calculateScalar_sum,
      LinearElastic.internalEnergy, LinPoint.strain]
    ring
  unfold System.scalar?
  show (mapOpt (fun e : Elem => e.scalar? [x0, x1, x2]) [exampleBar [0, 1], exampleBar [1, 2]]).map _ = _
  simp only [mapOpt, key 0 1 (by norm_num) (by norm_num), key 1 2 (by norm_num) (by norm_num), Option.bind_some,
    Option.map_some, scalar_eq_sum]
  simp

/-- The state in which the bars are in equilibrium. -/
theorem exampleSystem_stationary : Spec.Stationary exampleSystem.flags exampleSystem.scalar? 0 [0, 50 / 3, 70 / 3] := by
  intro v hv hv0
  obtain ⟨a, b, c, rfl⟩ : ∃ a b c, v = [a, b, c] := List.length_eq_three.1 hv
  obtain rfl : a = 0 := Option.some.inj (hv0 0 rfl)
  have hl : ∀ t, Spec.line [0, 50 / 3, 70 / 3] [0, b, c] t = [0, 50 / 3 + t * b, 70 / 3 + t * c] := by
    intro t
    simp [Spec.line]
  refine ⟨fun t => by rw [hl, exampleSystem_energy]; rfl, 0, ?_, by simp⟩
  simp only [hl, exampleSystem_energy, Option.getD_some]
  refine hasDerivAt_quadratic (a := -725 / 3) (c := 3 / 4 * b ^ 2 + 3 / 4 * (c - b) ^ 2) fun t => ?_
  ring

/-- The support at the left carries the total load of both bars, which is 30. -/
example : ∃ r, exampleSystem.rawVector? [0, 50 / 3, 70 / 3] = some r ∧ r.getD 0 0 = -30 := by
  obtain ⟨r, h1, h2⟩ := support_resultant exampleSystem 0 le_rfl (exampleSystem_contract _ _ _) exampleSystem_stationary
    (fun _ => 0) (fun e v => if h : e.n = 2 ∧ e.d = 1 then exampleLoad fun I a => v (I.cast h.1.symm) (a.cast h.2.symm) else 0)
    (by
      intro e he u _
      simp only [exampleSystem, List.mem_cons, List.not_mem_nil, or_false] at he
      rcases he with rfl | rfl
      · exact exampleBar_carries _ _
      · exact exampleBar_carries _ _)
    (fun _ => 0) (by
      intro e he dofs _ I a
      simp only [exampleSystem, List.mem_cons, List.not_mem_nil, or_false] at he
      rcases he with rfl | rfl
      · change Fin 1 at a
        fin_cases a; rfl
      · change Fin 1 at a
        fin_cases a; rfl) 0
  refine ⟨r, h1, ?_⟩
  rw [zero_mul] at h2
  have h3 := abs_nonpos_iff.1 h2
  have h4 : (Finset.range exampleSystem.flags.length).filter (fun i => exampleSystem.flags[i]? = some true ∧ (0 : Nat) = 0) = {0} := by
    decide
  rw [h4, Finset.sum_singleton] at h3
  simp [exampleSystem, exampleBar, exampleLoad_eq, Spec.unit] at h3
  rw [List.getD_eq_getElem?_getD]
  linarith

/-! ### Load control -/

/-- C103, load control. Whatever load control shows after a successful load step with an iteration, or without prescribed
displacements: the supports carry the loads of that step in each direction. -/
theorem load_control_reactions {a : Analysis} {û : Nat → ℝ} (h : Spec.Proper a û) (htol : 0 ≤ a.settings.tol)
    (hmin : 0 ≤ a.settings.minIter)
    (hmax : a.settings.minIter ≤ a.settings.maxIter) (n : Nat) (hn : 0 < n) (tbegin tend l0 : ℝ) {x0 : List ℝ}
    (hx0 : Spec.OnSupports a.dv.flags û l0 x0)
    (hz : ∀ k : Nat, 0 < k → k ≤ n → l0 + k * ((tend - tbegin) / n) = 0 → ∀ i < a.dv.flags.length, û i = 0)
    (dir : Nat → Nat) (hdir : ∀ l, Spec.Directions (a.system l).elems dir) :
    ∃ (r : LCState ℝ (Option (List ℝ)) ℝ (Option (List ℝ))) (us : Nat → List ℝ),
      a.loadControl? n tbegin tend ⟨l0, some x0⟩ = some r ∧
      Spec.shown r = (List.range r.info.solverInfos.length).map
        (fun k : Nat => ⟨l0 + k * ((tend - tbegin) / n), some (us k)⟩) ∧
      ∀ (k : Nat) (info : SolverInfo ℝ), r.info.solverInfos[k]? = some info → info.success = true →
        (k = 0 ∨ 0 < info.iterations ∨ ∀ i < a.dv.flags.length, û i = 0) →
        ∀ l, l = l0 + k * ((tend - tbegin) / n) → Spec.SystemContract (a.system l) (us k) →
        ∀ (pos : ∀ e : Elem, NodeVec e.n e.d) (P : ∀ e : Elem, NodeVec e.n e.d → ℝ),
        (∀ e ∈ (a.system l).elems, ∀ u, e.local? (us k) = some u →
          Spec.Carries (Mixin.together e.skills) u (pos e) (P e)) →
        ∀ b, ∃ f, (a.system l).rawVector? (us k) = some f ∧
          |∑ i ∈ (Finset.range a.dv.flags.length).filter (fun i => a.dv.flags[i]? = some true ∧ dir i = b), f.getD i 0 +
            ((a.system l).elems.map fun e => P e (Spec.unit b)).sum| ≤ a.settings.tol *
          Real.sqrt ((Finset.range a.dv.flags.length).filter (fun i => a.dv.flags[i]? = some false ∧ dir i = b)).card := by
  obtain ⟨r, us, h1, -, -, -, h2, -, h3⟩ := nonlinear_load_control_partial h hmin hmax n hn tbegin tend l0 hx0 hz
  refine ⟨r, us, h1, h2, fun k info hi hs hor l hl hc pos P hP b => ?_⟩
  subst hl
  exact support_resultant _ _ htol hc ((h3 k info hi).2.1 hs hor hc) pos P hP dir (hdir _) b

end Ikarus
