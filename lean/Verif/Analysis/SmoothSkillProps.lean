import Verif.Analysis.SmallLoadProps
import Verif.FE.MembraneProps
import Verif.FE.EASFunctionProps
import Verif.FE.PatchProps
import Mathlib.Analysis.Calculus.ContDiff.RCLike
import Mathlib.Analysis.Calculus.ContDiff.Operations

/-!
C107: the elements of the library are smooth, and linear elements are the linearisation of nonlinear ones.
-/

namespace Ikarus

open Ikarus.Element Ikarus.Element.Spec
open scoped Topology

variable {n d q : Nat}

/-! ### Specification -/

/-- The load changes with the load factor at a bounded rate near `l0`. -/
def Spec.SmoothLoad (t : LoadFunction d) (l0 : ℝ) : Prop :=
  ∃ delta > 0, ∃ Lam ≥ 0, ∀ x l l', |l - l0| ≤ delta → |l' - l0| ≤ delta → ∀ a, |t x l a - t x l' a| ≤ Lam * |l - l'|

/-- On an open set of strains the material keeps its contract, and stress and tangent are continuously differentiable. -/
structure Spec.SmoothLaw (law : Law q) (dom : Set (Fin q → ℝ)) : Prop where
  isOpen : IsOpen dom
  contract : LawContract law dom
  stress : ∀ E ∈ dom, ContDiffAt ℝ 1 law.stress E
  tangent : ∀ E ∈ dom, ∀ k l, ContDiffAt ℝ 1 (fun E => law.tangent E k l) E

/-- The strain measure keeps its contract and is, with its derivatives, continuously differentiable. -/
structure Spec.SmoothPoint (gp : Point n d q) (u0 : NodeVec n d) : Prop where
  contract : ∀ᶠ u in 𝓝 u0, StrainContract gp u
  strain : ContDiffAt ℝ 1 gp.strain u0
  bop : ∀ I k a, ContDiffAt ℝ 1 (fun u => gp.bop u I k a) u0
  kg : ∀ S I J a b, ContDiffAt ℝ 1 (fun p : NodeVec n d × (Fin q → ℝ) => gp.kg p.1 p.2 I J a b) (u0, S)

/-- Without displacements the skill `t` adds the same forces under every load as `s`, and the same stiffness. -/
def Spec.Linearized (s t : ℝ → Skill n d) : Prop :=
  (∀ l f, (t l).vector 0 f = (s l).vector 0 f) ∧ ∀ K, (t 0).matrix 0 K = (s 0).matrix 0 K

/-- An element with other skills on the same nodes, in the same order. -/
def Spec.LinearizedElem (e e' : ParamElem) : Prop :=
  ∃ ss : List (ℝ → Skill e.n e.d), e' = { e with skills := ss } ∧ List.Forall₂ Spec.Linearized e.skills ss

/-- An integration point with the Green-Lagrange strains of a solid and their second derivatives. -/
noncomputable def Spec.greenPoint (dim : EAS.Dimension d q) (p : GradientPoint n d) : Point n d q where
  detJ := p.detJ
  weight := p.weight
  strain u := dim.greenLagrange (EAS.gradient p.dN u)
  bop u I := dim.bop (1 + EAS.gradient p.dN u) (p.dN I)
  kg _ S I J := (∑ i, ∑ j, S (dim.voigt i j) * p.dN I i * p.dN J j) • (1 : Matrix (Fin d) (Fin d) ℝ)

/-! ### Linear skills -/

theorem linear_smooth {s : ℝ → Skill n d} (e : ℝ → ℝ) (f : ℝ → NodeVec n d) {K : BlockMat n d} (hK : Symmetric K)
    (hs : ∀ l u, (s l).scalar u = some (e l + work (f l) u + 1 / 2 * work (mul K u) u) ∧
      (∀ r, (s l).vector u r = some (r + (f l + mul K u))) ∧ ∀ M, (s l).matrix u M = some (M + K)) {l0 : ℝ}
    (hf : ∃ delta > 0, ∃ Lam ≥ 0, ∀ l l', |l - l0| ≤ delta → |l' - l0| ≤ delta → ∀ I a, |f l I a - f l' I a| ≤ Lam * |l - l'|)
    (u0 : NodeVec n d) : Spec.SmoothSkill s l0 u0 := by
  obtain ⟨delta, hd, Lam, hL, hf⟩ := hf
  refine ⟨fun l u => e l + work (f l) u + 1 / 2 * work (mul K u) u, fun l u => f l + mul K u, fun _ _ => K, fun l u => (hs l u).1,
    fun l u => (hs l u).2.1, fun l u => (hs l u).2.2, delta, hd, Lam, hL, fun l hl u hu => ?_⟩
  obtain ⟨h1, h2⟩ := quadratic_gradient (e l) (f l) hK u
  refine ⟨h1, h2, fun l' hl' => ⟨fun I a => ?_, fun u' _ I J a b => ?_⟩⟩
  · have := hf l l' hl hl' I a
    simpa using this
  · simp only [sub_self, abs_zero]
    positivity

/-- C107, elements. The linear elastic element is smooth. -/
theorem linearElastic_smooth (C : Matrix (Fin q) (Fin q) ℝ) (hC : C.IsSymm) (gps : List (LinPoint n d q)) (l0 : ℝ)
    (u0 : NodeVec n d) : Spec.SmoothSkill (fun _ => Skill.linearElastic C gps) l0 u0 := by
  refine linear_smooth (fun _ => 0) (fun _ => 0) (LinearElastic.linearElastic_symmetric C hC gps) (fun l u => ⟨?_, fun r => ?_, fun M => ?_⟩)
    ⟨1, one_pos, 0, le_rfl, fun l l' _ _ I a => by simp⟩ u0
  · show some (LinearElastic.calculateScalar false C gps u) = _
    rw [LinearElastic.linearElastic_energy]
    simp [work]
  · show some (LinearElastic.calculateVector false C gps u r) = _
    rw [zero_add, ← LinearElastic.linearElastic_forces, LinearElastic.calculateVector_sum, LinearElastic.calculateVector_sum, zero_add]
  · show some (LinearElastic.calculateMatrix false C gps M) = _
    rw [LinearElastic.calculateMatrix_sum, LinearElastic.calculateMatrix_sum C gps 0, zero_add]

theorem list_sum_entry {α : Type*} (l : List α) (F : α → NodeVec n d) (I : Fin n) (a : Fin d) :
    (l.map F).sum I a = (l.map fun x => F x I a).sum := by
  induction l with
  | nil => rfl
  | cons x l ih => simp only [List.map_cons, List.sum_cons, Pi.add_apply, ih]

theorem load_smooth {s : ℝ → Skill n d} (e : ℝ → NodeVec n d → ℝ) (f : ℝ → NodeVec n d)
    (hs : ∀ l u, (s l).scalar u = some (e l u)) (hlin : ∀ l u, e l u = work (f l) u)
    (hv : ∀ l u r, (s l).vector u r = some (r + f l)) (hm : ∀ l u M, (s l).matrix u M = some M) {l0 : ℝ}
    (hf : ∃ delta > 0, ∃ Lam ≥ 0, ∀ l l', |l - l0| ≤ delta → |l' - l0| ≤ delta → ∀ I a, |f l I a - f l' I a| ≤ Lam * |l - l'|)
    (u0 : NodeVec n d) : Spec.SmoothSkill s l0 u0 := by
  have hz : ∀ u : NodeVec n d, mul (0 : BlockMat n d) u = 0 := by intro u; funext I a; simp [mul]
  refine linear_smooth (fun _ => 0) f (K := 0) (fun _ _ _ _ => rfl) (fun l u => ⟨?_, fun r => ?_, fun M => ?_⟩) hf u0
  · rw [hs, hlin, hz]; simp [work]
  · rw [hv, hz, add_zero]
  · rw [hm, add_zero]

theorem forces_smooth (t : LoadFunction d) {l0 : ℝ} (ht : Spec.SmoothLoad t l0) (ps : List (LoadPoint n d))
    (F : ℝ → LoadPoint n d → NodeVec n d) (c : LoadPoint n d → Fin n → ℝ) (hF : ∀ l p I a, F l p I a = c p I * t p.x l a) :
    ∃ delta > 0, ∃ Lam ≥ 0, ∀ l l', |l - l0| ≤ delta → |l' - l0| ≤ delta → ∀ (I : Fin n) (a : Fin d),
      |(ps.map (F l)).sum I a - (ps.map (F l')).sum I a| ≤ Lam * |l - l'| := by
  obtain ⟨delta, hd, Lam, hL, h⟩ := ht
  refine ⟨delta, hd, (ps.map fun p => (∑ I, |c p I|) * Lam).sum, List.sum_nonneg (by
    simp only [List.mem_map]; rintro _ ⟨p, -, rfl⟩; positivity), fun l l' hl hl' I a => ?_⟩
  rw [list_sum_entry, list_sum_entry]
  refine (list_sum_sub_le ps _ _ (fun p => (∑ I, |c p I|) * Lam * |l - l'|) fun p _ => ?_).trans (le_of_eq ?_)
  · rw [hF, hF, ← mul_sub, abs_mul, mul_assoc]
    exact mul_le_mul (Finset.single_le_sum (f := fun I => |c p I|) (fun _ _ => abs_nonneg _) (Finset.mem_univ I))
      (h p.x l l' hl hl' a) (abs_nonneg _) (by positivity)
  · rw [List.sum_map_mul_right]

/-- C107, elements. A volume load that changes with the load factor at a bounded rate is smooth. -/
theorem volumeLoad_smooth (t : LoadFunction d) {l0 : ℝ} (ht : Spec.SmoothLoad t l0) (gps : List (LoadPoint n d)) (u0 : NodeVec n d) :
    Spec.SmoothSkill (fun l => Skill.volumeLoad (some t) gps l) l0 u0 := by
  refine load_smooth (fun l u => VolumeLoad.calculateScalar (some t) gps l u)
    (fun l => (gps.map (VolumeLoad.pointForce t l)).sum) (fun _ _ => rfl) (fun l u => ?_) (fun l u r => ?_) (fun _ _ _ => rfl)
    (forces_smooth t ht gps _ (fun p I => -(p.detJ * p.weight * p.N I)) fun l p I a => ?_) u0
  · rw [work_list_sum, VolumeLoad.calculateScalar_sum]
    congr 1
    exact List.map_congr_left fun gp _ => by rw [VolumeLoad.work_pointForce]
  · exact congrArg some (VolumeLoad.calculateVector_sum t gps l r)
  · simp [VolumeLoad.pointForce, Matrix.smul_mulVec]
    ring

/-- C107, elements. A traction that changes with the load factor at a bounded rate is smooth. -/
theorem traction_smooth (t : LoadFunction d) {l0 : ℝ} (ht : Spec.SmoothLoad t l0) (is : List (Traction.Intersection n d))
    (u0 : NodeVec n d) : Spec.SmoothSkill (fun l => Skill.traction (some is) (some t) l) l0 u0 := by
  refine load_smooth
    (fun l u => ((loadedPoints is).map fun p : LoadPoint n d => -((t p.x l ⬝ᵥ p.displacement u) * p.weight * p.detJ)).sum)
    (fun l => ((loadedPoints is).map (Traction.pForce t l)).sum) (fun l u => Traction.calculateScalar_sum is t l u)
    (fun l u => ?_) (fun l _ r => Traction.calculateVector_sum is t l r) (fun _ _ _ => rfl)
    (forces_smooth t ht (loadedPoints is) _ (fun p I => -(p.weight * p.detJ * p.N I)) fun l p I a => ?_) u0
  · rw [work_list_sum]
    congr 1
    exact List.map_congr_left fun p _ => by rw [Traction.work_pForce]
  · rw [Traction.pForce_apply]
    ring

/-! ### Nonlinear elements -/

theorem lipschitz_entries {ι : Type*} [Finite ι] {E : Type*} [NormedAddCommGroup E] [NormedSpace ℝ E] (f : ι → E → ℝ) (u0 : E)
    (h : ∀ i, ContDiffAt ℝ 1 (f i) u0) : ∃ t ∈ 𝓝 u0, ∃ Lam ≥ 0, ∀ u ∈ t, ∀ u' ∈ t, ∀ i, |f i u - f i u'| ≤ Lam * ‖u - u'‖ := by
  have := Fintype.ofFinite ι
  choose k t ht hk using fun i => (h i).exists_lipschitzOnWith
  refine ⟨⋂ i, t i, Filter.iInter_mem.2 ht, ∑ i, (k i : ℝ), by positivity, fun u hu u' hu' i => ?_⟩
  have h1 := (hk i).dist_le_mul u (Set.mem_iInter.1 hu i) u' (Set.mem_iInter.1 hu' i)
  rw [Real.dist_eq, dist_eq_norm] at h1
  refine h1.trans (mul_le_mul_of_nonneg_right ?_ (norm_nonneg _))
  exact Finset.single_le_sum (f := fun i => (k i : ℝ)) (fun i _ => (k i).2) (Finset.mem_univ i)

theorem block_sum_entry {α : Type*} (l : List α) (F : α → BlockMat n d) (I J : Fin n) (a b : Fin d) :
    (l.map F).sum I J a b = (l.map fun x => F x I J a b).sum := by
  induction l with
  | nil => rfl
  | cons x l ih => simp only [List.map_cons, List.sum_cons, Pi.add_apply, Matrix.add_apply, ih]

theorem contDiffAt_list_sum {α E : Type*} [NormedAddCommGroup E] [NormedSpace ℝ E] (l : List α) (f : α → E → ℝ) (u0 : E)
    (h : ∀ x ∈ l, ContDiffAt ℝ 1 (f x) u0) : ContDiffAt ℝ 1 (fun u => (l.map fun x => f x u).sum) u0 := by
  induction l with
  | nil => exact contDiffAt_const
  | cons x l ih =>
    simp only [List.map_cons, List.sum_cons]
    exact (h x (by simp)).add (ih fun y hy => h y (by simp [hy]))

/-- C107, elements. The nonlinear element is smooth where its material and its strains are. -/
theorem nonLinearElastic_smooth {law : Law q} {dom : Set (Fin q → ℝ)} (hl : Spec.SmoothLaw law dom) (gps : List (Point n d q))
    (l0 : ℝ) (u0 : NodeVec n d) (hp : ∀ gp ∈ gps, Spec.SmoothPoint gp u0) (hu : ∀ gp ∈ gps, gp.strain u0 ∈ dom) :
    Spec.SmoothSkill (fun _ => Skill.nonLinearElastic law gps) l0 u0 := by
  have hentry : ∀ i : Fin n × Fin n × Fin d × Fin d, ContDiffAt ℝ 1
      (fun u => NonLinearElastic.calculateMatrix false law gps u 0 i.1 i.2.1 i.2.2.1 i.2.2.2) u0 := by
    rintro ⟨I, J, a, b⟩
    simp only [NonLinearElastic.calculateMatrix_sum, zero_add, block_sum_entry]
    refine contDiffAt_list_sum gps (fun gp u => NonLinearElastic.pointMatrix law u gp I J a b) u0 fun gp hgp => ?_
    have h := hp gp hgp
    have hE := hu gp hgp
    have hS : ContDiffAt ℝ 1 (fun u => law.stress (gp.strain u)) u0 := (hl.stress _ hE).comp u0 h.strain
    have hC : ∀ k l, ContDiffAt ℝ 1 (fun u => law.tangent (gp.strain u) k l) u0 := fun k l =>
      (hl.tangent _ hE k l).comp u0 h.strain
    simp only [NonLinearElastic.pointMatrix, Matrix.add_apply, Matrix.smul_apply, smul_eq_mul, Matrix.mul_apply, Matrix.transpose_apply]
    refine (contDiffAt_const.mul (ContDiffAt.sum fun k _ => (ContDiffAt.sum fun l _ => (h.bop I l a).mul (hC l k)).mul (h.bop J k b))).add
      (contDiffAt_const.mul ?_)
    exact (h.kg (law.stress (gp.strain u0)) I J a b).comp u0 (contDiffAt_id.prodMk hS)
  obtain ⟨t, ht, Lam, hL, hLip⟩ := lipschitz_entries _ u0 hentry
  have hgood : ∀ᶠ u in 𝓝 u0, ∀ gp ∈ gps, StrainContract gp u ∧ gp.strain u ∈ dom := by
    have : ∀ L : List (Point n d q), (∀ gp ∈ L, ∀ᶠ u in 𝓝 u0, StrainContract gp u ∧ gp.strain u ∈ dom) →
        ∀ᶠ u in 𝓝 u0, ∀ gp ∈ L, StrainContract gp u ∧ gp.strain u ∈ dom := by
      intro L
      induction L with
      | nil => intro _; simp
      | cons gp L ih =>
        intro h
        filter_upwards [h gp (by simp), ih fun g hg => h g (by simp [hg])] with u h1 h2 g hg
        rcases List.mem_cons.1 hg with rfl | hg
        · exact h1
        · exact h2 g hg
    exact this gps fun gp hgp => (hp gp hgp).contract.and
      ((hp gp hgp).strain.continuousAt.eventually (hl.isOpen.mem_nhds (hu gp hgp)))
  obtain ⟨delta, hd, hball⟩ := Metric.nhds_basis_closedBall.mem_iff.1 (Filter.inter_mem ht hgood)
  have hmem : ∀ u, ‖u - u0‖ ≤ delta → u ∈ t ∧ ∀ gp ∈ gps, StrainContract gp u ∧ gp.strain u ∈ dom := fun u hu =>
    hball (by rw [Metric.mem_closedBall, dist_eq_norm]; exact hu)
  refine ⟨fun _ u => NonLinearElastic.calculateScalar false law gps u, fun _ u => NonLinearElastic.calculateVector false law gps u 0,
    fun _ u => NonLinearElastic.calculateMatrix false law gps u 0, fun _ _ => rfl,
    fun _ w f => congrArg some (NonLinearElastic.nonLinearElastic_adds law gps w f 0).2.1,
    fun _ w M => congrArg some (NonLinearElastic.nonLinearElastic_adds law gps w 0 M).1, delta, hd, Lam, hL, fun l _ u hun => ?_⟩
  obtain ⟨h1, h2⟩ := hmem u hun
  refine ⟨NonLinearElastic.nonLinearElastic_gradient law dom hl.contract gps u (fun gp hgp => (h2 gp hgp).1) fun gp hgp => (h2 gp hgp).2,
    (NonLinearElastic.nonLinearElastic_tangent law dom hl.contract gps u (fun gp hgp => (h2 gp hgp).1) fun gp hgp => (h2 gp hgp).2).1,
    fun l' _ => ⟨fun I a => ?_, fun u' hu' I J a b => ?_⟩⟩
  · rw [sub_self, abs_zero]
    positivity
  · refine (hLip u h1 u' (hmem u' hu').1 (I, J, a, b)).trans (mul_le_mul_of_nonneg_left ?_ hL)
    linarith [abs_nonneg (l - l')]

/-! ### Solids -/

theorem greenPoint_solid (dim : EAS.Dimension d q) (p : GradientPoint n d) : Solid dim p (Spec.greenPoint dim p) :=
  ⟨rfl, rfl, fun _ => rfl, fun _ _ => rfl⟩

theorem hasDerivs_deformation (dN : Fin n → Fin d → ℝ) (u v : NodeVec n d) :
    EAS.HasDerivs (fun t => 1 + EAS.gradient dN (u + t • v)) (EAS.gradient dN v) :=
  ((EAS.HasDerivs.const 1).add (EAS.hasDerivs_gradient dN u v)).congr (zero_add _)

theorem along_gradient (w : Fin d → Fin d → Fin q) (S : Fin q → ℝ) (dN : Fin n → Fin d → ℝ) (v : NodeVec n d)
    (F : Matrix (Fin d) (Fin d) ℝ) : EAS.Spec.along w S (EAS.gradient dN v) F =
      ∑ I, ∑ a, EAS.Spec.along w S (EAS.rowMatrix a (dN I)) F * v I a := by
  rw [EAS.gradient_rows, EAS.along_sum_left]
  refine Finset.sum_congr rfl fun I _ => ?_
  rw [EAS.along_sum_left]
  exact Finset.sum_congr rfl fun a _ => by rw [EAS.along_smul_left, mul_comm]

/-- C107, strains. The Green-Lagrange strains of a solid keep the contract of a strain measure. -/
theorem greenPoint_contract (dim : EAS.Dimension d q) (hdim : EAS.Spec.IsVoigt dim) (p : GradientPoint n d) (u : NodeVec n d) :
    StrainContract (Spec.greenPoint dim p) u where
  strain v := by
    rw [hasDerivAt_pi]
    intro k
    have h := EAS.hasDerivAt_along (v := dim.voigt) (S := Pi.single k 1) (hasDerivs_deformation p.dN u v)
      (hasDerivs_deformation p.dN u v)
    have h1 := (h.sub_const (EAS.Spec.along dim.voigt (Pi.single k 1) 1 1)).const_mul (1 / 2)
    simp only [zero_smul, add_zero] at h1
    rw [EAS.along_symm _ _ hdim.symm (1 + EAS.gradient p.dN u) (EAS.gradient p.dN v), ← two_mul, ← mul_assoc] at h1
    show HasDerivAt (fun t : ℝ => dim.greenLagrange (EAS.gradient p.dN (u + t • v)) k)
      (∑ I, ∑ a, dim.bop (1 + EAS.gradient p.dN u) (p.dN I) k a * v I a) 0
    simp only [hdim.greenLagrange, hdim.bop, ← along_gradient]
    refine h1.congr_deriv ?_
    norm_num
  bop v S I a := by
    have e : ∀ F : Matrix (Fin d) (Fin d) ℝ, ∑ k, dim.bop F (p.dN I) k a * S k =
        EAS.Spec.along dim.voigt S (EAS.rowMatrix a (p.dN I)) F := by
      intro F
      simp only [hdim.bop]
      exact EAS.along_single_sum _ _ _ _
    have h := EAS.hasDerivAt_along (v := dim.voigt) (S := S) (EAS.HasDerivs.const (EAS.rowMatrix a (p.dN I)))
      (hasDerivs_deformation p.dN u v)
    rw [EAS.along_zero_left, zero_add, EAS.along_symm _ _ hdim.symm, along_gradient] at h
    show HasDerivAt (fun t : ℝ => ∑ k, dim.bop (1 + EAS.gradient p.dN (u + t • v)) (p.dN I) k a * S k) _ 0
    simp only [e]
    refine h.congr_deriv (Finset.sum_congr rfl fun J _ => Finset.sum_congr rfl fun b _ => ?_)
    rw [EAS.along_symm _ _ hdim.symm, EAS.along_rows]
    rfl
  symm S I J a b := by
    show ((∑ i, ∑ j, S (dim.voigt i j) * p.dN I i * p.dN J j) • (1 : Matrix (Fin d) (Fin d) ℝ)) a b =
      ((∑ i, ∑ j, S (dim.voigt i j) * p.dN J i * p.dN I j) • (1 : Matrix (Fin d) (Fin d) ℝ)) b a
    rw [Finset.sum_comm, Matrix.smul_apply, Matrix.smul_apply, ← Matrix.transpose_apply (1 : Matrix (Fin d) (Fin d) ℝ) a b,
      Matrix.transpose_one]
    congr 1
    refine Finset.sum_congr rfl fun i _ => Finset.sum_congr rfl fun j _ => ?_
    rw [hdim.symm]
    ring

theorem contDiff_deformation (dN : Fin n → Fin d → ℝ) (i j : Fin d) :
    ContDiff ℝ 1 (fun u : NodeVec n d => (1 + EAS.gradient dN u) i j) := by
  simp only [Matrix.add_apply, EAS.gradient, Matrix.of_apply]
  exact contDiff_const.add (ContDiff.sum fun I _ => (contDiff_apply_apply ℝ ℝ I i).mul contDiff_const)

theorem contDiff_along {E : Type*} [NormedAddCommGroup E] [NormedSpace ℝ E] (w : Fin d → Fin d → Fin q) (S : Fin q → ℝ)
    {x y : E → Matrix (Fin d) (Fin d) ℝ} (hx : ∀ i j, ContDiff ℝ 1 fun u => x u i j) (hy : ∀ i j, ContDiff ℝ 1 fun u => y u i j) :
    ContDiff ℝ 1 fun u => EAS.Spec.along w S (x u) (y u) := by
  unfold EAS.Spec.along
  exact ContDiff.sum fun i _ => ContDiff.sum fun j _ => contDiff_const.mul (ContDiff.sum fun a _ => (hx a i).mul (hy a j))

/-- C107, strains. The Green-Lagrange strains of a solid are smooth. -/
theorem greenPoint_smooth (dim : EAS.Dimension d q) (hdim : EAS.Spec.IsVoigt dim) (p : GradientPoint n d) (u0 : NodeVec n d) :
    Spec.SmoothPoint (Spec.greenPoint dim p) u0 where
  contract := Filter.Eventually.of_forall fun u => greenPoint_contract dim hdim p u
  strain := by
    refine (contDiff_pi.2 fun k => ?_).contDiffAt
    show ContDiff ℝ 1 fun u => dim.greenLagrange (EAS.gradient p.dN u) k
    simp only [hdim.greenLagrange]
    exact contDiff_const.mul ((contDiff_along _ _ (contDiff_deformation p.dN) (contDiff_deformation p.dN)).sub contDiff_const)
  bop I k a := by
    show ContDiffAt ℝ 1 (fun u => dim.bop (1 + EAS.gradient p.dN u) (p.dN I) k a) u0
    simp only [hdim.bop]
    exact (contDiff_along dim.voigt (Pi.single k 1) (x := fun _ : NodeVec n d => EAS.rowMatrix a (p.dN I))
      (fun _ _ => contDiff_const) (contDiff_deformation p.dN)).contDiffAt
  kg S I J a b := by
    show ContDiffAt ℝ 1 (fun r : NodeVec n d × (Fin q → ℝ) =>
      ((∑ i, ∑ j, r.2 (dim.voigt i j) * p.dN I i * p.dN J j) • (1 : Matrix (Fin d) (Fin d) ℝ)) a b) (u0, S)
    simp only [Matrix.smul_apply, smul_eq_mul]
    refine (ContDiff.mul (ContDiff.sum fun i _ => ContDiff.sum fun j _ => ?_) contDiff_const).contDiffAt
    exact (((contDiff_apply ℝ ℝ (dim.voigt i j)).comp contDiff_snd).mul contDiff_const).mul contDiff_const

/-- C107, materials. The linear law is smooth at all strains. -/
theorem linearLaw_smooth (C : Matrix (Fin q) (Fin q) ℝ) (hC : C.IsSymm) : Spec.SmoothLaw (linearLaw C) Set.univ where
  isOpen := isOpen_univ
  contract := linearLaw_contract C hC
  stress E _ := by
    refine (contDiff_pi.2 fun k => ?_).contDiffAt
    show ContDiff ℝ 1 fun E : Fin q → ℝ => ∑ l, C k l * E l
    exact ContDiff.sum fun l _ => contDiff_const.mul (contDiff_apply ℝ ℝ l)
  tangent _ _ _ _ := contDiffAt_const

/-! ### Linearisation -/

theorem Spec.Linearized.refl (s : ℝ → Skill n d) : Spec.Linearized s s := ⟨fun _ _ => rfl, fun _ => rfl⟩

/-- C107, linearisation. The linear element is the linearisation of the nonlinear one if the material is unstressed without
strain and the material matrix is its tangent there. -/
theorem nonLinearElastic_linearized (dim : EAS.Dimension d q) (hdim : EAS.Spec.IsVoigt dim) {law : Law q}
    {C : Matrix (Fin q) (Fin q) ℝ} (h0 : law.stress 0 = 0) (hC : law.tangent 0 = C) (ps : List (GradientPoint n d))
    (lp : GradientPoint n d → LinPoint n d q) (hlp : ∀ p ∈ ps, LinearSolid dim p (lp p)) :
    Spec.Linearized (fun _ => Skill.nonLinearElastic law (ps.map (Spec.greenPoint dim))) (fun _ => Skill.linearElastic C (ps.map lp)) := by
  have hg0 : ∀ p : GradientPoint n d, EAS.gradient p.dN 0 = 0 := by
    intro p
    ext i j
    simp [EAS.gradient]
  have hs : ∀ p : GradientPoint n d, (Spec.greenPoint dim p).strain 0 = 0 := by
    intro p
    funext k
    show dim.greenLagrange (EAS.gradient p.dN 0) k = 0
    rw [hg0, hdim.greenLagrange, add_zero, sub_self, mul_zero]
  constructor
  · intro _ f
    refine congrArg some ?_
    rw [LinearElastic.calculateVector_sum, NonLinearElastic.calculateVector_sum]
    congr 2
    rw [List.map_map, List.map_map]
    refine List.map_congr_left fun p hp => ?_
    funext I
    simp only [Function.comp, LinearElastic.pointForce, NonLinearElastic.pointForce, LinearElastic.stress, LinPoint.strain, hs, h0]
    simp
  · intro K
    refine congrArg some ?_
    rw [LinearElastic.calculateMatrix_sum, NonLinearElastic.calculateMatrix_sum]
    congr 2
    rw [List.map_map, List.map_map]
    refine List.map_congr_left fun p hp => ?_
    funext I J
    have h := hlp p hp
    simp only [Function.comp, LinearElastic.pointMatrix, NonLinearElastic.pointMatrix, hs, h0, hC, h.detJ, h.weight, h.bop]
    show _ = (p.detJ * p.weight) • ((dim.bop (1 + EAS.gradient p.dN 0) (p.dN I)).transpose * C * dim.bop (1 + EAS.gradient p.dN 0) (p.dN J)) +
      (p.detJ * p.weight) • ((∑ i, ∑ j, (0 : Fin q → ℝ) (dim.voigt i j) * p.dN I i * p.dN J j) • (1 : Matrix (Fin d) (Fin d) ℝ))
    rw [hg0]
    simp

theorem vector_linearized {ss ts : List (ℝ → Skill n d)} (h : List.Forall₂ Spec.Linearized ss ts) (l : ℝ) (f : NodeVec n d) :
    Mixin.calculateVector 0 (ts.map fun s => s l) f = Mixin.calculateVector 0 (ss.map fun s => s l) f := by
  induction h generalizing f with
  | nil => rfl
  | cons h _ ih =>
    simp only [List.map_cons, Mixin.calculateVector, h.1 l f]
    exact congrArg _ (funext fun g => ih g)

theorem matrix_linearized {ss ts : List (ℝ → Skill n d)} (h : List.Forall₂ Spec.Linearized ss ts) (K : BlockMat n d) :
    Mixin.calculateMatrix 0 (ts.map fun s => s 0) K = Mixin.calculateMatrix 0 (ss.map fun s => s 0) K := by
  induction h generalizing K with
  | nil => rfl
  | cons h _ ih =>
    simp only [List.map_cons, Mixin.calculateMatrix, h.2 K]
    exact congrArg _ (funext fun g => ih g)

theorem mapOpt_forall₂ {α β γ : Type*} {R : α → β → Prop} {f : α → Option γ} {g : β → Option γ} {l : List α} {l' : List β}
    (h : List.Forall₂ R l l') (hR : ∀ x ∈ l, ∀ y, R x y → g y = f x) : mapOpt g l' = mapOpt f l := by
  induction h with
  | nil => rfl
  | cons hxy _ ih =>
    simp only [mapOpt, hR _ (by simp) _ hxy, ih fun x hx => hR x (by simp [hx])]

/-- C107, linearisation. A structure whose elements are the linearisations of those of another has the same forces and the
same stiffness at rest. -/
theorem sameAtRest {a b : Analysis} (hdv : b.dv.flags = a.dv.flags)
    (hfit : ∀ e ∈ a.elems, Spec.ElemFits a.dv.flags.length (e.at 0)) (hel : List.Forall₂ Spec.LinearizedElem a.elems b.elems) :
    Spec.SameAtRest a b := by
  have hloc : ∀ e ∈ a.elems, ∀ l, (e.at l).local? (Spec.rest a) = some (0 : NodeVec e.n e.d) := by
    intro e he l
    obtain ⟨h1, h2, dofs, h3, h4⟩ := hfit e he
    obtain ⟨-, X, -, hl, -⟩ := local_eq (e := e.at l) h1 h2 h3 h4 (Spec.rest a) Analysis.rest_length
    rw [hl]
    exact congrArg some (gathered_zero dofs _)
  refine ⟨hdv, fun l => ?_, ?_⟩
  · show (mapOpt _ (b.elems.map (·.at l))).bind _ = (mapOpt _ (a.elems.map (·.at l))).bind _
    rw [show (b.system l).flags = (a.system l).flags from hdv]
    congr 1
    refine mapOpt_forall₂ (R := fun x y => ∃ e ∈ a.elems, ∃ e', x = e.at l ∧ y = e'.at l ∧ Spec.LinearizedElem e e') ?_ ?_
    · rw [List.forall₂_map_left_iff, List.forall₂_map_right_iff]
      have : ∀ L L', List.Forall₂ Spec.LinearizedElem L L' → (∀ e ∈ L, e ∈ a.elems) →
          List.Forall₂ (fun c d => ∃ e ∈ a.elems, ∃ e', c.at l = e.at l ∧ d.at l = e'.at l ∧ Spec.LinearizedElem e e') L L' := by
        intro L L' h
        induction h with
        | nil => intro _; exact .nil
        | cons h _ ih => intro hm; exact .cons ⟨_, hm _ (by simp), _, rfl, rfl, h⟩ (ih fun e he => hm e (by simp [he]))
      exact this _ _ hel fun _ h => h
    · rintro _ - _ ⟨e, he, e', rfl, rfl, ss, rfl, h⟩
      have h1 := hloc e he l
      show (Elem.dofs? (e.at l)).bind _ = (Elem.dofs? (e.at l)).bind _
      congr 1
      funext dofs
      show (((e.at l).local? (Spec.rest a)).bind fun u => _) = ((e.at l).local? (Spec.rest a)).bind fun u => _
      rw [h1]
      show Option.map _ (Mixin.calculateVector 0 (ss.map fun s => s l) 0) = Option.map _ (Mixin.calculateVector 0 (e.skills.map fun s => s l) 0)
      rw [vector_linearized h]
      rfl
  · show (mapOpt _ (b.elems.map (·.at 0))).bind _ = (mapOpt _ (a.elems.map (·.at 0))).bind _
    rw [show (b.system 0).flags = (a.system 0).flags from hdv]
    congr 1
    refine mapOpt_forall₂ (R := fun x y => ∃ e ∈ a.elems, ∃ e', x = e.at 0 ∧ y = e'.at 0 ∧ Spec.LinearizedElem e e') ?_ ?_
    · rw [List.forall₂_map_left_iff, List.forall₂_map_right_iff]
      have : ∀ L L', List.Forall₂ Spec.LinearizedElem L L' → (∀ e ∈ L, e ∈ a.elems) →
          List.Forall₂ (fun c d => ∃ e ∈ a.elems, ∃ e', c.at 0 = e.at 0 ∧ d.at 0 = e'.at 0 ∧ Spec.LinearizedElem e e') L L' := by
        intro L L' h
        induction h with
        | nil => intro _; exact .nil
        | cons h _ ih => intro hm; exact .cons ⟨_, hm _ (by simp), _, rfl, rfl, h⟩ (ih fun e he => hm e (by simp [he]))
      exact this _ _ hel fun _ h => h
    · rintro _ - _ ⟨e, he, e', rfl, rfl, ss, rfl, h⟩
      have h1 := hloc e he 0
      show (Elem.dofs? (e.at 0)).bind _ = (Elem.dofs? (e.at 0)).bind _
      congr 1
      funext dofs
      show (((e.at 0).local? (Spec.rest a)).bind fun u => _) = ((e.at 0).local? (Spec.rest a)).bind fun u => _
      rw [h1]
      show Option.map _ (Mixin.calculateMatrix 0 (ss.map fun s => s 0) 0) = Option.map _ (Mixin.calculateMatrix 0 (e.skills.map fun s => s 0) 0)
      rw [matrix_linearized h]
      rfl

end Ikarus
