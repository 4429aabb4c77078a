import Verif.FE.RelabelEASProps
import Verif.FE.TurnShellProps

/-!
C124, shells: shells whose nodes are listed in another order, with the axes of the surface exchanged, reversed or mapped in any
other way that keeps areas.
-/

namespace Ikarus.Element

open Matrix Element.Spec
open scoped Topology

variable {n d q : Nat} {τ : Equiv.Perm (Fin n)} {T : Matrix (Fin q) (Fin q) ℝ}

/-! ### Specification -/

/-- An integration point at the same place, with the nodes in the new order and strains in mapped coordinates. -/
structure Spec.MappedPoint (τ : Equiv.Perm (Fin n)) (T : Matrix (Fin q) (Fin q) ℝ) (u : NodeVec n d) (p p' : Point n d q) : Prop where
  detJ : p'.detJ = p.detJ
  weight : p'.weight = p.weight
  strain : p'.strain (relabel τ u) = T *ᵥ p.strain u
  bop : ∀ I, p'.bop (relabel τ u) I = T * p.bop u (τ I)
  kg : ∀ S I J, p'.kg (relabel τ u) S I J = p.kg u (Tᵀ *ᵥ S) (τ I) (τ J)

/-- How second derivatives change if the coordinates are mapped by `P`. -/
def Spec.hessianMap (P : Matrix (Fin 2) (Fin 2) ℝ) : Matrix (Fin 3) (Fin 3) ℝ :=
  !![P 0 0 * P 0 0, P 0 1 * P 0 1, 2 * (P 0 0 * P 0 1);
     P 1 0 * P 1 0, P 1 1 * P 1 1, 2 * (P 1 0 * P 1 1);
     P 0 0 * P 1 0, P 0 1 * P 1 1, P 0 0 * P 1 1 + P 0 1 * P 1 0]

/-- The same point of a shell, with the nodes in the new order and the coordinates of the surface mapped by `P`; the normal, and with it the
second fundamental form, is reversed if `P` reverses the orientation. -/
structure Spec.RelabelledShell (τ : Equiv.Perm (Fin n)) (P : Matrix (Fin 2) (Fin 2) ℝ) (p p' : Shell.ShellPoint n) : Prop where
  detJ : p'.detJ = p.detJ
  weight : p'.weight = p.weight
  J : ∀ a, p'.J a = P a 0 • p.J 0 + P a 1 • p.J 1
  dN : ∀ I, p'.dN I = P *ᵥ p.dN (τ I)
  H : ∀ i, p'.H i = ∑ j, hessianMap P i j • p.H j
  ddN : ∀ I, p'.ddN I = hessianMap P *ᵥ p.ddN (τ I)
  BV : p'.BV = P.det • (transformationMatrix2 P *ᵥ p.BV)

/-! ### Strains as functions -/

theorem sum_relabel_spike (B : Fin n → Fin d → ℝ) (I : Fin n) (c : Fin d) :
    ∑ J, ∑ b, B J b * relabel τ (spike (τ I) c) J b = B I c := by
  simp [spike, relabel]

theorem mapped_bop {p p' : Point n d q} (hs : ∀ w, p'.strain (relabel τ w) = T *ᵥ p.strain w) (w : NodeVec n d)
    (h : StrainContract p w) (h' : StrainContract p' (relabel τ w)) (I : Fin n) :
    p'.bop (relabel τ w) I = T * p.bop w (τ I) := by
  ext k c
  have v1 := hasDerivAt_pi.1 (h'.strain (relabel τ (spike (τ I) c))) k
  have v2 : HasDerivAt (fun t : ℝ => (T *ᵥ p.strain (w + t • spike (τ I) c)) k)
      (∑ l, T k l * ∑ J, ∑ b, p.bop w J l b * spike (τ I) c J b) 0 :=
    HasDerivAt.fun_sum (u := Finset.univ) fun l _ => (hasDerivAt_pi.1 (h.strain (spike (τ I) c)) l).const_mul (T k l)
  have e : ∀ t : ℝ, relabel τ w + t • relabel τ (spike (τ I) c) = relabel τ (w + t • spike (τ I) c) := fun _ => rfl
  simp only [e, hs] at v1
  have := v1.unique v2
  rw [sum_relabel_spike (fun J b => p'.bop (relabel τ w) J k b)] at this
  rw [Matrix.mul_apply, this]
  exact Finset.sum_congr rfl fun l _ => by rw [sum_spike (fun J b => p.bop w J l b)]

/-- C124, strains. If a strain measure as a function of the displacements is that of the other order in mapped coordinates, so are its
derivatives: the relation of the strains is enough. -/
theorem mappedPoint_of_strain {p p' : Point n d q} (hd : p'.detJ = p.detJ) (hw : p'.weight = p.weight) (u : NodeVec n d)
    (hs : ∀ w, p'.strain (relabel τ w) = T *ᵥ p.strain w) (hp : ∀ᶠ w in 𝓝 u, StrainContract p w)
    (hp' : ∀ᶠ w in 𝓝 u, StrainContract p' (relabel τ w)) : MappedPoint τ T u p p' := by
  refine ⟨hd, hw, hs u, mapped_bop hs u hp.self_of_nhds hp'.self_of_nhds, fun S I J => ?_⟩
  ext r c
  have hline : Filter.Tendsto (fun t : ℝ => u + t • (spike (τ J) c : NodeVec n d)) (𝓝 0) (𝓝 u) := by
    have : Continuous fun t : ℝ => u + t • (spike (τ J) c : NodeVec n d) := by fun_prop
    have := this.tendsto 0
    rwa [zero_smul, add_zero] at this
  have v1 := hp'.self_of_nhds.bop (relabel τ (spike (τ J) c)) S I r
  have v2 := hp.self_of_nhds.bop (spike (τ J) c) (Tᵀ *ᵥ S) (τ I) r
  have e : ∀ t : ℝ, relabel τ u + t • relabel τ (spike (τ J) c) = relabel τ (u + t • spike (τ J) c) := fun _ => rfl
  simp only [e] at v1
  have hE : (fun t : ℝ => ∑ k, p'.bop (relabel τ (u + t • spike (τ J) c)) I k r * S k) =ᶠ[𝓝 0]
      fun t : ℝ => ∑ k, p.bop (u + t • spike (τ J) c) (τ I) k r * (Tᵀ *ᵥ S) k := by
    filter_upwards [hline.eventually hp, hline.eventually hp'] with t h1 h2
    generalize u + t • (spike (τ J) c : NodeVec n d) = w at h1 h2 ⊢
    have e : ∑ k, p'.bop (relabel τ w) I k r * S k = ((p'.bop (relabel τ w) I)ᵀ *ᵥ S) r := rfl
    rw [e, mapped_bop hs w h1 h2, Matrix.transpose_mul, ← Matrix.mulVec_mulVec]
    rfl
  have := v1.unique (v2.congr_of_eventuallyEq hE)
  rwa [sum_relabel_spike (fun L b => p'.kg (relabel τ u) S I L r b), sum_spike (fun L e => p.kg u (Tᵀ *ᵥ S) (τ I) L r e)] at this

theorem pointForce_mapped {law law' : Law q} {u : NodeVec n d} {p p' : Point n d q} (h : MappedPoint τ T u p p')
    (hl : TurnedLaw T law law' (p.strain u)) :
    NonLinearElastic.pointForce law' (relabel τ u) p' = relabel τ (NonLinearElastic.pointForce law u p) := by
  funext I
  show (p'.detJ * p'.weight) • _ = (p.detJ * p.weight) • _
  rw [h.detJ, h.weight, h.bop, h.strain, ← hl.stress, Matrix.transpose_mul, Matrix.mulVec_mulVec]

theorem pointMatrix_mapped {law law' : Law q} {u : NodeVec n d} {p p' : Point n d q} (h : MappedPoint τ T u p p')
    (hl : TurnedLaw T law law' (p.strain u)) :
    NonLinearElastic.pointMatrix law' (relabel τ u) p' = relabelMat τ (NonLinearElastic.pointMatrix law u p) := by
  funext I J
  show (p'.detJ * p'.weight) • _ + _ = (p.detJ * p.weight) • _ + _
  rw [h.detJ, h.weight, h.bop, h.bop, h.kg, h.strain, hl.stress, ← hl.tangent]
  congr 2
  simp only [Matrix.transpose_mul, Matrix.mul_assoc]

/-! ### Mapped surfaces -/

namespace Shell

variable {P : Matrix (Fin 2) (Fin 2) ℝ} {p p' : ShellPoint n}

theorem jcur_relabel (h : RelabelledShell τ P p p') (u : NodeVec n 3) (a : Fin 2) :
    jcur p' (relabel τ u) a = P a 0 • jcur p u 0 + P a 1 • jcur p u 1 := by
  have hg : ∑ I, p'.dN I a • u (τ I) = ∑ I, (P *ᵥ p.dN I) a • u I := by
    simp only [h.dN]
    exact Equiv.sum_comp τ fun I => (P *ᵥ p.dN I) a • u I
  show p'.J a + ∑ I, p'.dN I a • u (τ I) = P a 0 • (p.J 0 + ∑ I, p.dN I 0 • u I) + P a 1 • (p.J 1 + ∑ I, p.dN I 1 • u I)
  rw [hg, h.J]
  simp only [Matrix.mulVec, dotProduct, Fin.sum_univ_two, add_smul, mul_smul, Finset.sum_add_distrib, smul_add, Finset.smul_sum]
  abel

theorem hcur_relabel (h : RelabelledShell τ P p p') (u : NodeVec n 3) (i : Fin 3) :
    hcur p' (relabel τ u) i = ∑ j, hessianMap P i j • hcur p u j := by
  have hg : ∑ I, p'.ddN I i • u (τ I) = ∑ I, (hessianMap P *ᵥ p.ddN I) i • u I := by
    simp only [h.ddN]
    exact Equiv.sum_comp τ fun I => (hessianMap P *ᵥ p.ddN I) i • u I
  show p'.H i + ∑ I, p'.ddN I i • u (τ I) = ∑ j, hessianMap P i j • (p.H j + ∑ I, p.ddN I j • u I)
  rw [hg, h.H]
  simp only [Matrix.mulVec, dotProduct, Finset.sum_smul, mul_smul, smul_add, Finset.sum_add_distrib, Finset.smul_sum]
  rw [Finset.sum_comm]

theorem a3N_relabel (h : RelabelledShell τ P p p') (u : NodeVec n 3) : a3N p' (relabel τ u) = P.det • a3N p u := by
  rw [a3N, jcur_relabel h, jcur_relabel h, a3N, cross_apply, cross_apply, Matrix.det_fin_two]
  funext i
  fin_cases i <;> simp <;> ring

theorem a3_relabel (h : RelabelledShell τ P p p') (hP : P.det * P.det = 1) (u : NodeVec n 3) :
    a3 p' (relabel τ u) = P.det • a3 p u := by
  rw [a3, a3, normalized_eq, normalized_eq, a3N_relabel h, norm, norm, smul_dotProduct, dotProduct_smul,
    smul_smul P.det P.det (a3N p u ⬝ᵥ a3N p u), hP, one_smul, smul_comm]

theorem epsV_relabel (h : RelabelledShell τ P p p') (u : NodeVec n 3) :
    epsV p' (relabel τ u) = transformationMatrix2 P *ᵥ epsV p u := by
  have e : ∀ (p : ShellPoint n) (u : NodeVec n 3), epsV p u = ![(jcur p u 0 ⬝ᵥ jcur p u 0 - p.J 0 ⬝ᵥ p.J 0) / 2,
      (jcur p u 1 ⬝ᵥ jcur p u 1 - p.J 1 ⬝ᵥ p.J 1) / 2, jcur p u 0 ⬝ᵥ jcur p u 1 - p.J 0 ⬝ᵥ p.J 1] := fun p u => (shell_strains p u).1
  rw [e, e]
  simp only [jcur_relabel h, h.J, add_dotProduct, dotProduct_add, smul_dotProduct, dotProduct_smul, smul_eq_mul,
    dotProduct_comm (jcur p u 1) (jcur p u 0), dotProduct_comm (p.J 1) (p.J 0)]
  funext k
  fin_cases k <;> simp [transformationMatrix2, Matrix.mulVec, dotProduct, Fin.sum_univ_three] <;> ring

theorem kappaV_relabel (h : RelabelledShell τ P p p') (hP : P.det * P.det = 1) (u : NodeVec n 3) :
    kappaV p' (relabel τ u) = (P.det • transformationMatrix2 P) *ᵥ kappaV p u := by
  funext k
  have hk : kappaV p' (relabel τ u) k = P.det * (transformationMatrix2 P *ᵥ p.BV) k -
      P.det * ((∑ j, hessianMap P k j * (hcur p u j ⬝ᵥ a3 p u)) * two k) := by
    show p'.BV k - (hcur p' (relabel τ u) k ⬝ᵥ a3 p' (relabel τ u)) * two k = _
    rw [h.BV, hcur_relabel h, a3_relabel h hP, dotProduct_smul, sum_dotProduct]
    simp only [smul_dotProduct, smul_eq_mul, Pi.smul_apply]
    ring
  rw [hk, Matrix.smul_mulVec, Pi.smul_apply, smul_eq_mul, ← mul_sub]
  congr 1
  fin_cases k <;> simp [transformationMatrix2, hessianMap, kappaV, two, Matrix.mulVec, dotProduct, Fin.sum_univ_three] <;> ring

/-! ### Material -/

/-- The map of the tangent plane, with the normal. -/
def blockOf (P : Matrix (Fin 2) (Fin 2) ℝ) : Matrix (Fin 3) (Fin 3) ℝ := !![P 0 0, P 0 1, 0; P 1 0, P 1 1, 0; 0, 0, 1]

theorem blockOf_det (P : Matrix (Fin 2) (Fin 2) ℝ) : (blockOf P).det = P.det := by
  rw [Matrix.det_fin_three, Matrix.det_fin_two]
  simp [blockOf]

theorem metric_relabel (h : RelabelledShell τ P p p') : metric p'.J = blockOf P * metric p.J * (blockOf P)ᵀ := by
  unfold metric blockOf
  simp only [h.J, add_dotProduct, dotProduct_add, smul_dotProduct, dotProduct_smul, smul_eq_mul]
  ext i j
  fin_cases i <;> fin_cases j <;> simp [Matrix.mul_apply, Fin.sum_univ_three] <;> ring

set_option maxHeartbeats 1600000 in
theorem materialTangent_map (emodul nu : ℝ) {A : Matrix (Fin 3) (Fin 3) ℝ} (hA : A.IsSymm) (P : Matrix (Fin 2) (Fin 2) ℝ) :
    (transformationMatrix2 P)ᵀ * materialTangent emodul nu A * transformationMatrix2 P =
      materialTangent emodul nu ((blockOf P)ᵀ * A * blockOf P) := by
  have h10 : A 1 0 = A 0 1 := hA.apply 0 1
  have hB : ∀ i j, ((blockOf P)ᵀ * A * blockOf P) i j = ∑ k, ∑ l, blockOf P l i * A l k * blockOf P k j := fun i j => by
    simp only [Matrix.mul_apply, Matrix.transpose_apply, Finset.sum_mul]
  ext i j
  simp only [materialTangent_apply, moduli, dyadic, symmetricFourthOrder, hB, Matrix.mul_apply, Fin.sum_univ_three, Matrix.transpose_apply]
  generalize emodul * nu / ((1 + nu) * (1 - 2 * nu)) = la
  generalize emodul / (2 * (1 + nu)) = mu
  generalize 2 * la * mu / (la + 2 * mu) = lb
  fin_cases i <;> fin_cases j <;> simp [unvoigt3, transformationMatrix2, blockOf, h10] <;> ring

theorem tangentAt_relabel (emodul nu : ℝ) (h : RelabelledShell τ P p p') (hP : P.det * P.det = 1) :
    (transformationMatrix2 P)ᵀ * tangentAt emodul nu p' * transformationMatrix2 P = tangentAt emodul nu p := by
  have hu : IsUnit (blockOf P).det := by
    rw [blockOf_det]
    exact isUnit_iff_ne_zero.2 fun h0 => by rw [h0, zero_mul] at hP; exact zero_ne_one hP
  have hu' : IsUnit (blockOf P)ᵀ.det := by rwa [Matrix.det_transpose]
  unfold tangentAt
  rw [materialTangent_map emodul nu (inv_metric_symm p'.J), metric_relabel h, Matrix.mul_inv_rev, Matrix.mul_inv_rev]
  congr 1
  rw [Matrix.mul_assoc, Matrix.mul_assoc, Matrix.mul_assoc, Matrix.nonsing_inv_mul _ hu, Matrix.mul_one, ← Matrix.mul_assoc,
    Matrix.mul_nonsing_inv _ hu', Matrix.one_mul]

theorem linear_mapped {q : Nat} {T C C' : Matrix (Fin q) (Fin q) ℝ} (h : Tᵀ * C' * T = C) (e : Fin q → ℝ) :
    TurnedLaw T (linearLaw C) (linearLaw C') e where
  energy := by
    show 0.5 * ((T *ᵥ e) ⬝ᵥ (C' *ᵥ (T *ᵥ e))) = 0.5 * (e ⬝ᵥ (C *ᵥ e))
    rw [← h, ← Matrix.mulVec_mulVec, ← Matrix.mulVec_mulVec, Matrix.dotProduct_mulVec e, Matrix.vecMul_transpose]
  stress := by
    show Tᵀ *ᵥ (C' *ᵥ (T *ᵥ e)) = C *ᵥ e
    rw [← h, Matrix.mulVec_mulVec, Matrix.mulVec_mulVec, Matrix.mul_assoc]
  tangent := h

/-! ### The element -/

theorem membrane_mapped (h : RelabelledShell τ P p p') (u : NodeVec n 3) :
    MappedPoint τ (transformationMatrix2 P) u (membranePoint p) (membranePoint p') :=
  mappedPoint_of_strain h.detJ h.weight u (epsV_relabel h) (Filter.Eventually.of_forall fun w => Membrane.membrane_contract _ _ _ _ w)
    (Filter.Eventually.of_forall fun _ => Membrane.membrane_contract _ _ _ _ _)

theorem bending_mapped (h : RelabelledShell τ P p p') (hP : P.det * P.det = 1) {u : NodeVec n 3} (hu : Spec.Regular p u) :
    MappedPoint τ (P.det • transformationMatrix2 P) u (bendingPoint p) (bendingPoint p') := by
  have hreg : ∀ᶠ w in 𝓝 u, Spec.Regular p w := by
    have hc : Continuous fun w : NodeVec n 3 => a3N p w ⬝ᵥ a3N p w := by
      unfold a3N jcur Membrane.jcur Membrane.gradu
      simp only [cross_apply, dotProduct, Fin.sum_univ_three]
      simp
      fun_prop
    exact hc.continuousAt.eventually (lt_mem_nhds hu)
  refine mappedPoint_of_strain (p := bendingPoint p) (p' := bendingPoint p') h.detJ h.weight u (kappaV_relabel h hP)
    (hreg.mono fun w hw => bending_contract p w hw) (hreg.mono fun w hw => bending_contract p' _ ?_)
  rw [a3N_relabel h, smul_dotProduct, dotProduct_smul, smul_smul, hP, one_smul]
  exact hw

/-- C124, shells. A shell whose nodes are listed in another order, whose integration points come in another order and whose coordinates are
mapped by `P` with determinant `1` or `-1` has the same energy and adds the same forces and, to a symmetric matrix, the same matrix, in the
new order. -/
theorem shell_relabel (emodul nu thickness : ℝ) (hP : P.det * P.det = 1) {gps gps' : List (ShellPoint n)}
    (h : SamePoints (RelabelledShell τ P) gps gps') {u : NodeVec n 3} (hu : ∀ gp ∈ gps, Spec.Regular gp u) :
    (∀ aff, calculateScalar emodul nu thickness gps' aff (relabel τ u) = calculateScalar emodul nu thickness gps aff u) ∧
    (∀ aff f, calculateVector emodul nu thickness gps' aff (relabel τ u) (relabel τ f) =
      (calculateVector emodul nu thickness gps aff u f).map (relabel τ)) ∧
    (∀ aff K, Element.Spec.Symmetric K → calculateMatrix emodul nu thickness gps' aff (relabel τ u) (relabelMat τ K) =
      (calculateMatrix emodul nu thickness gps aff u K).map (relabelMat τ)) := by
  have h2 : SamePoints (fun p p' => RelabelledShell τ P p p' ∧ Spec.Regular p u) gps gps' := by
    obtain ⟨l0, hp, hf⟩ := h
    refine ⟨l0, hp, ?_⟩
    have hl : ∀ gp ∈ l0, Spec.Regular gp u := fun gp hgp => hu gp (hp.mem_iff.1 hgp)
    clear hp
    induction hf with
    | nil => exact .nil
    | cons hxy _ ih => exact .cons ⟨hxy, hl _ List.mem_cons_self⟩ (ih fun gp hgp => hl gp (List.mem_cons_of_mem _ hgp))
  have hC : ∀ {p p' : ShellPoint n}, RelabelledShell τ P p p' → ∀ (c : ℝ),
      (transformationMatrix2 P)ᵀ * (c • tangentAt emodul nu p') * transformationMatrix2 P = c • tangentAt emodul nu p := fun h c => by
    rw [Matrix.mul_smul, Matrix.smul_mul, tangentAt_relabel emodul nu h hP]
  have hC' : ∀ {p p' : ShellPoint n}, RelabelledShell τ P p p' → ∀ (c : ℝ),
      (P.det • transformationMatrix2 P)ᵀ * (c • tangentAt emodul nu p') * (P.det • transformationMatrix2 P) = c • tangentAt emodul nu p :=
    fun h c => by
      rw [Matrix.transpose_smul, Matrix.smul_mul, Matrix.smul_mul, Matrix.mul_smul, smul_smul, hP, one_smul, hC h]
  have hm : ∀ {p p' : ShellPoint n}, RelabelledShell τ P p p' → TurnedLaw (transformationMatrix2 P) (membraneLaw emodul nu thickness p)
      (membraneLaw emodul nu thickness p') ((membranePoint p).strain u) := fun h => linear_mapped (hC h _) _
  have hb : ∀ {p p' : ShellPoint n}, RelabelledShell τ P p p' → TurnedLaw (P.det • transformationMatrix2 P)
      (bendingLaw emodul nu thickness p) (bendingLaw emodul nu thickness p') ((bendingPoint p).strain u) := fun h =>
    linear_mapped (hC' h _) _
  have hmat : ∀ (l : List (ShellPoint n)) (w : NodeVec n 3) (K0 : BlockMat n 3), Symmetric K0 →
      calculateMatrix emodul nu thickness l .stiffness w K0 = some (K0 + matrixOf emodul nu thickness l w) := by
    intro l w K0 h0
    rw [calculateMatrix_closed, mirror_eq K0 _ h0 (matrixOf_symmetric emodul nu thickness l w)]
    intro I J h
    rw [if_pos h]
  refine ⟨fun aff => ?_, fun aff f => ?_, fun aff K hK => ?_⟩
  · by_cases ha : aff = .mechanicalPotentialEnergy
    · subst ha
      rw [calculateScalar_eq, calculateScalar_eq]
      refine congrArg some (samePoints_scalar h2 _ _ fun x y hxy => ?_)
      have e1 := (membrane_mapped hxy.1 u).strain
      have e2 := (bending_mapped hxy.1 hP hxy.2).strain
      rw [e1, e2, (hm hxy.1).energy, (hb hxy.1).energy]
      rw [(membrane_mapped hxy.1 u).detJ, (membrane_mapped hxy.1 u).weight, (bending_mapped hxy.1 hP hxy.2).detJ,
        (bending_mapped hxy.1 hP hxy.2).weight]
    · unfold calculateScalar
      rw [if_pos ha, if_pos ha]
  · by_cases ha : aff = .forces
    · subst ha
      rw [calculateVector_eq, calculateVector_eq, Option.map_some, relabel_add]
      refine congrArg (fun x => some (relabel τ f + x)) ?_
      refine samePoints_sum h2 _ _ (relabel τ) relabel_zero relabel_add fun x y hxy => ?_
      rw [relabel_add, pointForce_mapped (membrane_mapped hxy.1 u) (hm hxy.1), pointForce_mapped (bending_mapped hxy.1 hP hxy.2) (hb hxy.1)]
    · unfold calculateVector
      rw [if_pos ha, if_pos ha]
      rfl
  · by_cases ha : aff = .stiffness
    · subst ha
      rw [hmat _ _ _ hK, hmat _ _ _ (EAS.relabelMat_symmetric hK), Option.map_some, relabelMat_add]
      refine congrArg (fun x => some (relabelMat τ K + x)) ?_
      refine samePoints_sum h2 _ _ (relabelMat τ) relabelMat_zero relabelMat_add fun x y hxy => ?_
      rw [relabelMat_add, pointMatrix_mapped (membrane_mapped hxy.1 u) (hm hxy.1),
        pointMatrix_mapped (bending_mapped hxy.1 hP hxy.2) (hb hxy.1)]
    · unfold calculateMatrix
      rw [if_pos ha, if_pos ha]
      rfl

theorem hessianMap_mul (P' P : Matrix (Fin 2) (Fin 2) ℝ) : hessianMap (P' * P) = hessianMap P' * hessianMap P := by
  unfold hessianMap
  simp only [Matrix.mul_apply, Fin.sum_univ_two]
  ext i j
  fin_cases i <;> fin_cases j <;> simp [Matrix.mul_apply, Fin.sum_univ_three] <;> ring

/-- C124, shells. Two changes of the order and of the axes may follow each other; with the two reflections of the square there are
all eight symmetries. -/
theorem relabelledShell_comp {τ τ' : Equiv.Perm (Fin n)} {P P' : Matrix (Fin 2) (Fin 2) ℝ} {p p' p'' : ShellPoint n}
    (h : RelabelledShell τ P p p') (h' : RelabelledShell τ' P' p' p'') : RelabelledShell (τ * τ') (P' * P) p p'' where
  detJ := h'.detJ.trans h.detJ
  weight := h'.weight.trans h.weight
  J a := by
    rw [h'.J, h.J, h.J, Matrix.mul_apply, Matrix.mul_apply, Fin.sum_univ_two, Fin.sum_univ_two]
    module
  dN I := by
    rw [h'.dN, h.dN, Matrix.mulVec_mulVec]
    rfl
  H i := by
    rw [h'.H, hessianMap_mul]
    simp only [h.H, Matrix.mul_apply, Finset.smul_sum, Finset.sum_smul, smul_smul]
    exact Finset.sum_comm
  ddN I := by
    rw [h'.ddN, h.ddN, Matrix.mulVec_mulVec, hessianMap_mul]
    rfl
  BV := by
    obtain ⟨m2, -⟩ := transformation_mul (K := ℝ) two_ne_zero
    rw [h'.BV, h.BV, Matrix.mulVec_smul, Matrix.mulVec_mulVec, m2, Matrix.det_mul, smul_smul]

/-! ### Examples -/

/-- Shells on bilinear quadrilaterals of any shape, with the axes exchanged. -/
theorem shellPoint_swap (X : NodeVec 4 3) (x y : ℝ) :
    RelabelledShell (Equiv.swap 1 2) !![0, 1; 1, 0] (Spec.shellPoint X ![x, y]) (Spec.shellPoint (relabel (Equiv.swap 1 2) X) ![y, x]) where
  detJ := rfl
  weight := rfl
  J a := by
    fin_cases a <;> simp [Element.Spec.shellPoint, Element.Spec.bilinear, relabel, Fin.sum_univ_four, Equiv.swap_apply_def] <;> abel
  dN I := by
    have := square_symmetries.1.shape ![x, y] I
    exact (by simpa using this : bilinear ![y, x] I = !![0, 1; 1, 0] *ᵥ bilinear ![x, y] (Equiv.swap 1 2 I))
  H i := by
    fin_cases i <;> simp [Element.Spec.shellPoint, hessianMap, relabel, Fin.sum_univ_four, Fin.sum_univ_three, Equiv.swap_apply_def]; abel
  ddN I := by
    funext i
    fin_cases I <;> fin_cases i <;>
      simp [Element.Spec.shellPoint, hessianMap, Matrix.mulVec, dotProduct, Fin.sum_univ_three, Equiv.swap_apply_def]
  BV := by
    simp [Element.Spec.shellPoint]

/-- Shells on bilinear quadrilaterals of any shape, with left and right exchanged. -/
theorem shellPoint_reflect (X : NodeVec 4 3) (x y : ℝ) :
    RelabelledShell (Equiv.swap 0 1 * Equiv.swap 2 3) !![-1, 0; 0, 1] (Spec.shellPoint X ![x, y]) (Spec.shellPoint (relabel (Equiv.swap 0 1 * Equiv.swap 2 3) X) ![1 - x, y]) where
  detJ := rfl
  weight := rfl
  J a := by
    fin_cases a <;> simp [Element.Spec.shellPoint, Element.Spec.bilinear, relabel, Fin.sum_univ_four, Equiv.swap_apply_def] <;> module
  dN I := by
    have := square_symmetries.2.1.shape ![x, y] I
    exact (by simpa using this : bilinear ![1 - x, y] I = !![-1, 0; 0, 1] *ᵥ bilinear ![x, y] ((Equiv.swap 0 1 * Equiv.swap 2 3 : Equiv.Perm (Fin 4)) I))
  H i := by
    fin_cases i <;> simp [Element.Spec.shellPoint, hessianMap, relabel, Fin.sum_univ_four, Fin.sum_univ_three, Equiv.swap_apply_def]; abel
  ddN I := by
    funext i
    fin_cases I <;> fin_cases i <;>
      simp [Element.Spec.shellPoint, hessianMap, Matrix.mulVec, dotProduct, Fin.sum_univ_three, Equiv.swap_apply_def]
  BV := by
    simp [Element.Spec.shellPoint]

/-- The corners listed from another corner. -/
example (X : NodeVec 4 3) (x y : ℝ) := relabelledShell_comp (shellPoint_swap X x y) (shellPoint_reflect (relabel (Equiv.swap 1 2) X) y x)

/-- A twisted shell with any displacements that keep it regular, with two integration points that change places. -/
example (u : NodeVec 4 3) (X : NodeVec 4 3) (hu : ∀ gp ∈ [Element.Spec.shellPoint X ![1 / 4, 3 / 4], Element.Spec.shellPoint X ![3 / 4, 1 / 4]], Spec.Regular gp u) :=
  shell_relabel 1000 (1 / 5) (1 / 10) (τ := Equiv.swap 1 2) (P := !![0, 1; 1, 0]) (by simp [Matrix.det_fin_two])
    (gps := [Element.Spec.shellPoint X ![1 / 4, 3 / 4], Element.Spec.shellPoint X ![3 / 4, 1 / 4]])
    (gps' := [Element.Spec.shellPoint (relabel (Equiv.swap 1 2) X) ![1 / 4, 3 / 4],
      Element.Spec.shellPoint (relabel (Equiv.swap 1 2) X) ![3 / 4, 1 / 4]])
    ⟨[Element.Spec.shellPoint X ![3 / 4, 1 / 4], Element.Spec.shellPoint X ![1 / 4, 3 / 4]], List.Perm.swap _ _ _,
      .cons (shellPoint_swap X _ _) (.cons (shellPoint_swap X _ _) .nil)⟩ hu

end Shell

end Ikarus.Element
