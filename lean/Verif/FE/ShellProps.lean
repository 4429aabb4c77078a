import Verif.FE.ShellLemmas
import Mathlib.LinearAlgebra.Matrix.Adjugate

/-!
The Kirchhoff-Love shell: consistency of energy, forces and stiffness, and its material tangent.
-/

namespace Ikarus.Element

open Matrix Spec

variable {n : Nat}

namespace Shell

/-! ### Material tangent -/

theorem materialTangent_apply (emodul nu : ℝ) (A : Matrix (Fin 3) (Fin 3) ℝ) (a b : Fin 3) :
    materialTangent emodul nu A a b = moduli emodul nu A (unvoigt3 (![0, 1, 5] a)).2 (unvoigt3 (![0, 1, 5] a)).1
      (unvoigt3 (![0, 1, 5] b)).2 (unvoigt3 (![0, 1, 5] b)).1 := by
  simp only [materialTangent, Matrix.of_apply]
  rw [toVoigtTensor_entries]
  rfl

theorem metric_symm (J : Fin 2 → Fin 3 → ℝ) : (metric J).IsSymm := by
  ext i j
  fin_cases i <;> fin_cases j <;> simp [metric, dotProduct_comm]

theorem inv_metric_symm (J : Fin 2 → Fin 3 → ℝ) : ((metric J)⁻¹).IsSymm := by
  rw [Matrix.IsSymm, Matrix.transpose_nonsing_inv, (metric_symm J).eq]

theorem materialTangent_symm (emodul nu : ℝ) (A : Matrix (Fin 3) (Fin 3) ℝ) (hA : A.IsSymm) :
    (materialTangent emodul nu A).IsSymm := by
  have h : ∀ i j, A i j = A j i := fun i j => hA.apply j i
  ext a b
  rw [Matrix.transpose_apply, materialTangent_apply, materialTangent_apply]
  simp only [moduli, dyadic, symmetricFourthOrder]
  rw [h (unvoigt3 (![0, 1, 5] b)).2 (unvoigt3 (![0, 1, 5] a)).2, h (unvoigt3 (![0, 1, 5] b)).1 (unvoigt3 (![0, 1, 5] a)).1,
    h (unvoigt3 (![0, 1, 5] b)).2 (unvoigt3 (![0, 1, 5] a)).1, h (unvoigt3 (![0, 1, 5] b)).1 (unvoigt3 (![0, 1, 5] a)).2]
  ring

theorem tangentAt_symm (emodul nu : ℝ) (p : ShellPoint n) : (tangentAt emodul nu p).IsSymm :=
  materialTangent_symm _ _ _ (inv_metric_symm _)

/-! ### The contract of the bending strain -/

/-- The bending part of an integration point. -/
noncomputable def bendingPoint (p : ShellPoint n) : Point n 3 3 where
  detJ := p.detJ
  weight := p.weight
  strain := kappaV p
  bop := bopBending p
  kg := kgBending p

theorem kgBending_symm (p : ShellPoint n) (u : NodeVec n 3) (S : Fin 3 → ℝ) (I J : Fin n) :
    (kgBending p u S I J)ᵀ = kgBending p u S J I := by
  have hv : ∀ b c : Fin 3 → ℝ, (vecMulVec b c)ᵀ = vecMulVec c b := by
    intro b c
    ext i j
    simp [vecMulVec_apply, mul_comm]
  have hs : ∀ (c : ℝ) (g : Fin 3 → ℝ), (skewOf (c • g))ᵀ = skewOf ((-c) • g) := by
    intro c g
    ext i j
    fin_cases i <;> fin_cases j <;> simp [skewOf]
  simp only [kgBending, Matrix.transpose_sum]
  refine Finset.sum_congr rfl fun i _ => ?_
  simp only [Matrix.transpose_neg, Matrix.transpose_smul, Matrix.transpose_add, Matrix.transpose_mul,
    Matrix.transpose_transpose, Matrix.transpose_sub, Matrix.transpose_one, hv, hs, Matrix.mul_assoc]
  have e1 : -(p.dN I 1 * p.dN J 0 - p.dN I 0 * p.dN J 1) = p.dN J 1 * p.dN I 0 - p.dN J 0 * p.dN I 1 := by ring
  rw [e1, add_comm (p.ddN I i • _) (p.ddN J i • _)]
  congr 5
  abel_nf

theorem bending_contract (p : ShellPoint n) (u : NodeVec n 3) (hp : 0 < a3N p u ⬝ᵥ a3N p u) :
    StrainContract (bendingPoint p) u where
  strain := by
    intro v
    rw [hasDerivAt_pi]
    exact fun i => hasDerivAt_kappaV p u v hp i
  bop := by
    intro v S I a
    have e : ∀ w : NodeVec n 3, ∑ k, bopBending p w I k a * S k = ∑ k, -(S k * two k) *
        (hcur p w k ⬝ᵥ (projector (a3N p w) (a3 p w) *ᵥ (a3Nd p w I *ᵥ (Pi.single a 1 : Fin 3 → ℝ))) +
          p.ddN I k * a3 p w a) := by
      intro w
      refine Finset.sum_congr rfl fun k _ => ?_
      rw [bopBending_apply]
      ring
    show HasDerivAt (fun t : ℝ => ∑ k, bopBending p (u + t • v) I k a * S k)
      (∑ J, ∑ b, kgBending p u S I J a b * v J b) 0
    simp only [e]
    have h2 : ∑ J, ∑ b, kgBending p u S I J a b * v J b = ∑ J, (kgBending p u S I J *ᵥ v J) a := rfl
    rw [h2, sum_kg_row]
    exact HasDerivAt.fun_sum fun k _ => (hasDerivAt_bop_component p u v hp I k a).const_mul _
  symm := by
    intro S I J a b
    show kgBending p u S I J a b = kgBending p u S J I b a
    rw [← kgBending_symm p u S I J, Matrix.transpose_apply]

/-! ### The sums computed by the element -/

/-- The membrane part of an integration point. -/
noncomputable def membranePoint (p : ShellPoint n) : Point n 3 3 := Membrane.point p.detJ p.weight p.J p.dN

noncomputable def membraneLaw (emodul nu thickness : ℝ) (p : ShellPoint n) : Law 3 :=
  linearLaw (thickness • tangentAt emodul nu p)

noncomputable def bendingLaw (emodul nu thickness : ℝ) (p : ShellPoint n) : Law 3 :=
  linearLaw ((thickness ^ 3 / 12) • tangentAt emodul nu p)

variable (emodul nu thickness : ℝ)

noncomputable def energyOf (gps : List (ShellPoint n)) (u : NodeVec n 3) : ℝ :=
  (gps.map fun gp => (membraneLaw emodul nu thickness gp).energy ((membranePoint gp).strain u) *
      (membranePoint gp).detJ * (membranePoint gp).weight +
    (bendingLaw emodul nu thickness gp).energy ((bendingPoint gp).strain u) *
      (bendingPoint gp).detJ * (bendingPoint gp).weight).sum

noncomputable def forceOf (gps : List (ShellPoint n)) (u : NodeVec n 3) : NodeVec n 3 :=
  (gps.map fun gp => NonLinearElastic.pointForce (membraneLaw emodul nu thickness gp) u (membranePoint gp) +
    NonLinearElastic.pointForce (bendingLaw emodul nu thickness gp) u (bendingPoint gp)).sum

noncomputable def matrixOf (gps : List (ShellPoint n)) (u : NodeVec n 3) : BlockMat n 3 :=
  (gps.map fun gp => NonLinearElastic.pointMatrix (membraneLaw emodul nu thickness gp) u (membranePoint gp) +
    NonLinearElastic.pointMatrix (bendingLaw emodul nu thickness gp) u (bendingPoint gp)).sum

theorem calculateScalar_eq (gps : List (ShellPoint n)) (u : NodeVec n 3) :
    calculateScalar emodul nu thickness gps .mechanicalPotentialEnergy u = some (energyOf emodul nu thickness gps u) := by
  unfold calculateScalar energyOf
  rw [if_neg (by simp)]
  congr 1
  rw [← zero_add ((gps.map _).sum), ← foldl_add_sum]
  refine foldl_congr' (fun e gp => ?_) _ _
  have h1 : (membraneLaw emodul nu thickness gp).energy ((membranePoint gp).strain u) =
      0.5 * thickness * (epsV gp u ⬝ᵥ (tangentAt emodul nu gp *ᵥ epsV gp u)) := by
    show 0.5 * (epsV gp u ⬝ᵥ ((thickness • tangentAt emodul nu gp) *ᵥ epsV gp u)) = _
    rw [Matrix.smul_mulVec, dotProduct_smul, smul_eq_mul, mul_assoc]
  have h2 : (bendingLaw emodul nu thickness gp).energy ((bendingPoint gp).strain u) =
      0.5 * thickness ^ 3 / 12 * (kappaV gp u ⬝ᵥ (tangentAt emodul nu gp *ᵥ kappaV gp u)) := by
    show 0.5 * (kappaV gp u ⬝ᵥ (((thickness ^ 3 / 12) • tangentAt emodul nu gp) *ᵥ kappaV gp u)) = _
    rw [Matrix.smul_mulVec, dotProduct_smul, smul_eq_mul]
    ring
  rw [h1, h2]
  show e + (_ + _) * gp.detJ * gp.weight = e + (_ * gp.detJ * gp.weight + _ * gp.detJ * gp.weight)
  ring

theorem addSegment_addSegment {d : Nat} (f : NodeVec n d) (i : Fin n) (a b : Fin d → ℝ) :
    addSegment (addSegment f i a) i b = addSegment f i (a + b) := by
  unfold addSegment
  simp [add_assoc]

theorem calculateVector_eq (gps : List (ShellPoint n)) (u f : NodeVec n 3) :
    calculateVector emodul nu thickness gps .forces u f = some (f + forceOf emodul nu thickness gps u) := by
  unfold calculateVector forceOf
  rw [if_neg (by simp)]
  congr 1
  rw [← foldl_add_sum]
  refine foldl_congr' (fun f gp => ?_) _ _
  simp only [addSegment_addSegment]
  exact foldl_addSegment (NonLinearElastic.pointForce (membraneLaw emodul nu thickness gp) u (membranePoint gp) +
    NonLinearElastic.pointForce (bendingLaw emodul nu thickness gp) u (bendingPoint gp)) f

/-- The loops over the upper blocks. -/
theorem foldl_upper (M : BlockMat n 3) (l : List (Fin n)) (hl : l.Nodup) : ∀ K : BlockMat n 3,
    l.foldl (fun K i => ((List.finRange n).filter (fun j => i ≤ j)).foldl (fun K j => addBlock K i j (M i j)) K) K =
      fun I J => if I ∈ l ∧ I ≤ J then K I J + M I J else K I J := by
  induction l with
  | nil => intro K; simp
  | cons a l ih =>
    intro K
    rw [List.foldl_cons, ih (List.nodup_cons.1 hl).2,
      foldl_addBlock_row _ a _ ((List.nodup_finRange n).filter _)]
    have ha := (List.nodup_cons.1 hl).1
    funext I J
    by_cases h : I = a
    · subst h
      by_cases g : I ≤ J <;> simp [ha, g]
    · simp [h]

theorem mirror_eq (K M : BlockMat n 3) (hK : Symmetric K) (hM : Symmetric M) (U : BlockMat n 3)
    (hU : ∀ I J, I ≤ J → U I J = K I J + M I J) : mirror U = K + M := by
  funext I J
  ext a b
  simp only [mirror, Matrix.of_apply, Pi.add_apply, Matrix.add_apply]
  by_cases h : J < I ∨ (I = J ∧ b < a)
  · rw [if_pos h]
    have hle : J ≤ I := by
      rcases h with h | h
      · exact h.le
      · exact h.1.ge
    rw [hU J I hle, Matrix.add_apply, hK J I b a, hM J I b a]
  · rw [if_neg h]
    have hle : I ≤ J := not_lt.1 fun hlt => h (Or.inl hlt)
    rw [hU I J hle, Matrix.add_apply]

/-- The sum accumulated in the upper blocks. -/
theorem foldl_gps_upper {α : Type*} (M : α → BlockMat n 3) (gps : List α) : ∀ (K : BlockMat n 3) (I J : Fin n),
    (gps.foldl (fun K gp => fun I J => if I ≤ J then K I J + M gp I J else K I J) K) I J =
      if I ≤ J then K I J + (gps.map M).sum I J else K I J := by
  induction gps with
  | nil => intro K I J; simp
  | cons g gps ih =>
    intro K I J
    rw [List.foldl_cons, ih]
    by_cases h : I ≤ J
    · simp [h, add_assoc]
    · simp [h]

/-- The matrix before it is mirrored, and its mirror image, in closed form. -/
theorem calculateMatrix_closed (gps : List (ShellPoint n)) (u : NodeVec n 3) (K : BlockMat n 3) :
    calculateMatrix emodul nu thickness gps .stiffness u K = some (mirror fun I J =>
      if I ≤ J then K I J + matrixOf emodul nu thickness gps u I J else K I J) := by
  unfold calculateMatrix matrixOf
  rw [if_neg (by simp)]
  congr 2
  funext I J
  rw [← foldl_gps_upper]
  refine congrFun (congrFun (foldl_congr' (fun K gp => ?_) _ _) I) J
  have hpt : ∀ i j, (gp.detJ * gp.weight) • (thickness • ((Membrane.derivative gp.J gp.dN u i)ᵀ * tangentAt emodul nu gp *
        Membrane.derivative gp.J gp.dN u j)) +
      (gp.detJ * gp.weight) • ((thickness ^ 3 / 12) • ((bopBending gp u i)ᵀ * tangentAt emodul nu gp * bopBending gp u j)) +
      (gp.detJ * gp.weight) • Membrane.secondDerivative gp.dN (membraneForces emodul nu thickness gp u) i j +
      (gp.detJ * gp.weight) • kgBending gp u (moments emodul nu thickness gp u) i j =
      (NonLinearElastic.pointMatrix (membraneLaw emodul nu thickness gp) u (membranePoint gp) +
        NonLinearElastic.pointMatrix (bendingLaw emodul nu thickness gp) u (bendingPoint gp)) i j := by
    intro i j
    have e1 : NonLinearElastic.pointMatrix (membraneLaw emodul nu thickness gp) u (membranePoint gp) i j =
        (gp.detJ * gp.weight) • ((Membrane.derivative gp.J gp.dN u i)ᵀ * (thickness • tangentAt emodul nu gp) *
          Membrane.derivative gp.J gp.dN u j) +
        (gp.detJ * gp.weight) • Membrane.secondDerivative gp.dN (membraneForces emodul nu thickness gp u) i j := rfl
    have e2 : NonLinearElastic.pointMatrix (bendingLaw emodul nu thickness gp) u (bendingPoint gp) i j =
        (gp.detJ * gp.weight) • ((bopBending gp u i)ᵀ * ((thickness ^ 3 / 12) • tangentAt emodul nu gp) *
          bopBending gp u j) +
        (gp.detJ * gp.weight) • kgBending gp u (moments emodul nu thickness gp u) i j := rfl
    rw [Pi.add_apply, Pi.add_apply, e1, e2, Matrix.mul_smul, Matrix.smul_mul, Matrix.mul_smul, Matrix.smul_mul]
    abel
  simp only [addBlock_addBlock, ← add_assoc]
  simp only [hpt]
  rw [foldl_upper _ _ (List.nodup_finRange n)]
  funext I J
  simp

/-! ### Properties -/

/-- The reference configuration is regular at a displacement: the current tangent vectors are not parallel. -/
def Spec.Regular (p : ShellPoint n) (u : NodeVec n 3) : Prop := 0 < a3N p u ⬝ᵥ a3N p u

theorem matrixOf_symmetric (gps : List (ShellPoint n)) (u : NodeVec n 3) : Symmetric (matrixOf emodul nu thickness gps u) := by
  refine symmetric_list_sum _ _ fun gp _ => ?_
  have hm := NonLinearElastic.symmetric_pointMatrix (membraneLaw emodul nu thickness gp) Set.univ
    (linearLaw_contract _ ((tangentAt_symm emodul nu gp).smul _)) (membranePoint gp) u
    (Membrane.membrane_contract _ _ _ _ u) trivial
  have hb : Symmetric (NonLinearElastic.pointMatrix (bendingLaw emodul nu thickness gp) u (bendingPoint gp)) := by
    intro I J a b
    have hC : ((thickness ^ 3 / 12) • tangentAt emodul nu gp)ᵀ = (thickness ^ 3 / 12) • tangentAt emodul nu gp :=
      ((tangentAt_symm emodul nu gp).smul _).eq
    have h : ((bopBending gp u I)ᵀ * ((thickness ^ 3 / 12) • tangentAt emodul nu gp) * bopBending gp u J)ᵀ =
        (bopBending gp u J)ᵀ * ((thickness ^ 3 / 12) • tangentAt emodul nu gp) * bopBending gp u I := by
      rw [Matrix.transpose_mul, Matrix.transpose_mul, Matrix.transpose_transpose, hC, Matrix.mul_assoc]
    have h2 := congrFun (congrFun h b) a
    have h3 := congrFun (congrFun (kgBending_symm gp u (moments emodul nu thickness gp u) I J) b) a
    show (gp.detJ * gp.weight) * _ + (gp.detJ * gp.weight) * _ = (gp.detJ * gp.weight) * _ + (gp.detJ * gp.weight) * _
    exact congrArg₂ (· + ·) (congrArg _ h2) (congrArg _ h3)
  intro I J a b
  simp only [Pi.add_apply, Matrix.add_apply]
  rw [hm I J a b, hb I J a b]

/-- C70. At every displacement for which the tangent vectors are independent at the integration points, the forces the
shell adds are the gradient of its energy, and the matrix it adds to a symmetric matrix is the derivative of the forces
and symmetric; other affordances are refused. -/
theorem shell_consistent (gps : List (ShellPoint n)) :
    ∃ (E : NodeVec n 3 → ℝ) (F : NodeVec n 3 → NodeVec n 3) (K : NodeVec n 3 → BlockMat n 3),
      (∀ u, calculateScalar emodul nu thickness gps .mechanicalPotentialEnergy u = some (E u)) ∧
      (∀ u f, calculateVector emodul nu thickness gps .forces u f = some (f + F u)) ∧
      (∀ u K0, Spec.Symmetric K0 → calculateMatrix emodul nu thickness gps .stiffness u K0 = some (K0 + K u)) ∧
      (∀ u, (∀ gp ∈ gps, Spec.Regular gp u) → GradientAt E (F u) u ∧ TangentAt F (K u) u) ∧
      (∀ u, Spec.Symmetric (K u)) ∧
      (∀ a u, a ≠ .mechanicalPotentialEnergy → calculateScalar emodul nu thickness gps a u = none) ∧
      (∀ a u f, a ≠ .forces → calculateVector emodul nu thickness gps a u f = none) ∧
      (∀ a u K0, a ≠ .stiffness → calculateMatrix emodul nu thickness gps a u K0 = none) := by
  refine ⟨energyOf emodul nu thickness gps, forceOf emodul nu thickness gps, matrixOf emodul nu thickness gps,
    calculateScalar_eq _ _ _ gps, calculateVector_eq _ _ _ gps, fun u K0 hK => ?_, fun u hu => ⟨fun v => ?_, fun v => ?_⟩,
    matrixOf_symmetric _ _ _ gps, fun a u h => if_pos h, fun a u f h => if_pos h, fun a u K0 h => if_pos h⟩
  · rw [calculateMatrix_closed, mirror_eq K0 _ hK (matrixOf_symmetric emodul nu thickness gps u)]
    intro I J h
    rw [if_pos h]
  · simp only [energyOf, forceOf]
    rw [work_list_sum]
    refine hasDerivAt_list_sum _ _ _ _ fun gp hgp => ?_
    have hm := NonLinearElastic.hasDerivAt_pointEnergy (membraneLaw emodul nu thickness gp) Set.univ
      (linearLaw_contract _ ((tangentAt_symm emodul nu gp).smul _)) (membranePoint gp) u
      (Membrane.membrane_contract _ _ _ _ u) trivial v
    have hb := NonLinearElastic.hasDerivAt_pointEnergy (bendingLaw emodul nu thickness gp) Set.univ
      (linearLaw_contract _ ((tangentAt_symm emodul nu gp).smul _)) (bendingPoint gp) u
      (bending_contract gp u (hu gp hgp)) trivial v
    refine (hm.add hb).congr_deriv ?_
    simp [work, add_mul, Finset.sum_add_distrib]
  · simp only [forceOf, matrixOf]
    rw [mul_list_sum]
    refine hasDerivAt_list_sum _ _ _ _ fun gp hgp => ?_
    have hm := NonLinearElastic.hasDerivAt_pointForce (membraneLaw emodul nu thickness gp) Set.univ
      (linearLaw_contract _ ((tangentAt_symm emodul nu gp).smul _)) (membranePoint gp) u
      (Membrane.membrane_contract _ _ _ _ u) trivial v
    have hb := NonLinearElastic.hasDerivAt_pointForce (bendingLaw emodul nu thickness gp) Set.univ
      (linearLaw_contract _ ((tangentAt_symm emodul nu gp).smul _)) (bendingPoint gp) u
      (bending_contract gp u (hu gp hgp)) trivial v
    refine (hm.add hb).congr_deriv ?_
    funext I a
    simp [mul, add_mul, Finset.sum_add_distrib]

/-- C70, energy. The energy is the integral of `t/2 ε·Cε + t³/24 κ·Cκ`. -/
theorem shell_energy (gps : List (ShellPoint n)) (u : NodeVec n 3) :
    calculateScalar emodul nu thickness gps .mechanicalPotentialEnergy u = some ((gps.map fun gp =>
      (thickness / 2 * ∑ a, ∑ b, epsV gp u a * tangentAt emodul nu gp a b * epsV gp u b +
        thickness ^ 3 / 24 * ∑ a, ∑ b, kappaV gp u a * tangentAt emodul nu gp a b * kappaV gp u b) *
      (gp.detJ * gp.weight)).sum) := by
  rw [calculateScalar_eq, energyOf]
  congr 2
  refine List.map_congr_left fun gp _ => ?_
  have hq : ∀ (c : ℝ) (e : Fin 3 → ℝ), (linearLaw (c • tangentAt emodul nu gp)).energy e =
      c / 2 * ∑ a, ∑ b, e a * tangentAt emodul nu gp a b * e b := by
    intro c e
    show 0.5 * ∑ a, e a * ∑ b, (c * tangentAt emodul nu gp a b) * e b = _
    simp only [Finset.mul_sum]
    refine Finset.sum_congr rfl fun a _ => Finset.sum_congr rfl fun b _ => ?_
    ring
  have h1 : (membraneLaw emodul nu thickness gp).energy ((membranePoint gp).strain u) = _ := hq thickness (epsV gp u)
  have h2 : (bendingLaw emodul nu thickness gp).energy ((bendingPoint gp).strain u) = _ :=
    hq (thickness ^ 3 / 12) (kappaV gp u)
  rw [h1, h2]
  show _ * gp.detJ * gp.weight + _ * gp.detJ * gp.weight = _
  ring

/-- C70, director. The director is a unit vector orthogonal to both current tangent vectors. -/
theorem shell_director (p : ShellPoint n) (u : NodeVec n 3) (h : Spec.Regular p u) :
    a3 p u ⬝ᵥ a3 p u = 1 ∧ ∀ b, a3 p u ⬝ᵥ (p.J b + ∑ I, p.dN I b • u I) = 0 := by
  have hr : norm (a3N p u) ≠ 0 := (Real.sqrt_pos.2 h).ne'
  have hsq : a3N p u ⬝ᵥ a3N p u = norm (a3N p u) ^ 2 := (Real.sq_sqrt (le_of_lt h)).symm
  rw [show a3 p u = normalized (a3N p u) from rfl, normalized_eq]
  refine ⟨?_, fun b => ?_⟩
  · rw [smul_dotProduct, dotProduct_smul, hsq, smul_eq_mul, smul_eq_mul]
    field_simp
  · rw [smul_dotProduct, show p.J b + ∑ I, p.dN I b • u I = jcur p u b from rfl, dotProduct_comm]
    fin_cases b
    · show _ • (jcur p u 0 ⬝ᵥ jcur p u 0 ⨯₃ jcur p u 1) = 0
      rw [dot_self_cross, smul_zero]
    · show _ • (jcur p u 1 ⬝ᵥ jcur p u 0 ⨯₃ jcur p u 1) = 0
      rw [dot_cross_self, smul_zero]

/-- The cross product of rotated vectors. -/
theorem rotate_cross (R : Matrix (Fin 3) (Fin 3) ℝ) (hR : Rᵀ * R = 1) (hdet : R.det = 1) (a b : Fin 3 → ℝ) :
    (R *ᵥ a) ⨯₃ (R *ᵥ b) = R *ᵥ (a ⨯₃ b) := by
  have hR' : R * Rᵀ = 1 := mul_eq_one_comm.1 hR
  have key : Rᵀ *ᵥ ((R *ᵥ a) ⨯₃ (R *ᵥ b)) = R.det • (a ⨯₃ b) := by
    rw [Matrix.det_fin_three]
    funext k
    fin_cases k <;>
      simp [Matrix.mulVec, dotProduct, cross_apply, Fin.sum_univ_three] <;> ring
  calc (R *ᵥ a) ⨯₃ (R *ᵥ b) = (R * Rᵀ) *ᵥ ((R *ᵥ a) ⨯₃ (R *ᵥ b)) := by rw [hR', Matrix.one_mulVec]
    _ = R *ᵥ (a ⨯₃ b) := by rw [← Matrix.mulVec_mulVec, key, hdet, one_smul]

/-- C70, rigid motions. If a displacement turns the tangent vectors and their derivatives of another by a common
rotation, membrane strain, bending strain and energy are the same. -/
theorem shell_rigid (gps : List (ShellPoint n)) (u u' : NodeVec n 3) (R : Matrix (Fin 3) (Fin 3) ℝ)
    (hR : Rᵀ * R = 1) (hdet : R.det = 1)
    (h1 : ∀ gp ∈ gps, ∀ b, gp.J b + ∑ I, gp.dN I b • u' I = R *ᵥ (gp.J b + ∑ I, gp.dN I b • u I))
    (h2 : ∀ gp ∈ gps, ∀ i, gp.H i + ∑ I, gp.ddN I i • u' I = R *ᵥ (gp.H i + ∑ I, gp.ddN I i • u I)) :
    (∀ gp ∈ gps, epsV gp u' = epsV gp u ∧ kappaV gp u' = kappaV gp u) ∧
    calculateScalar emodul nu thickness gps .mechanicalPotentialEnergy u' =
      calculateScalar emodul nu thickness gps .mechanicalPotentialEnergy u := by
  have hdot : ∀ x y : Fin 3 → ℝ, (R *ᵥ x) ⬝ᵥ (R *ᵥ y) = x ⬝ᵥ y := by
    intro x y
    rw [Matrix.dotProduct_mulVec, ← Matrix.mulVec_transpose, Matrix.mulVec_mulVec, hR, Matrix.one_mulVec]
  have hs : ∀ gp ∈ gps, epsV gp u' = epsV gp u ∧ kappaV gp u' = kappaV gp u := by
    intro gp hgp
    have hj : ∀ b, jcur gp u' b = R *ᵥ jcur gp u b := h1 gp hgp
    have hh : ∀ i, hcur gp u' i = R *ᵥ hcur gp u i := h2 gp hgp
    have hN : a3N gp u' = R *ᵥ a3N gp u := by
      rw [a3N, hj, hj, rotate_cross R hR hdet, a3N]
    have ha : a3 gp u' = R *ᵥ a3 gp u := by
      rw [show a3 gp u' = normalized (a3N gp u') from rfl, show a3 gp u = normalized (a3N gp u) from rfl,
        normalized_eq, normalized_eq, Matrix.mulVec_smul, norm, hN, hdot, norm]
    constructor
    · have hm : ∀ a b, Membrane.jcur gp.J gp.dN u' a ⬝ᵥ Membrane.jcur gp.J gp.dN u' b =
          Membrane.jcur gp.J gp.dN u a ⬝ᵥ Membrane.jcur gp.J gp.dN u b := by
        intro a b
        have := hdot (jcur gp u a) (jcur gp u b)
        rw [← hj, ← hj] at this
        exact this
      have hval : ∀ (w : NodeVec n 3), epsV gp w = ![
          (Membrane.jcur gp.J gp.dN w 0 ⬝ᵥ Membrane.jcur gp.J gp.dN w 0 - gp.J 0 ⬝ᵥ gp.J 0) / 2,
          (Membrane.jcur gp.J gp.dN w 1 ⬝ᵥ Membrane.jcur gp.J gp.dN w 1 - gp.J 1 ⬝ᵥ gp.J 1) / 2,
          Membrane.jcur gp.J gp.dN w 0 ⬝ᵥ Membrane.jcur gp.J gp.dN w 1 - gp.J 0 ⬝ᵥ gp.J 1] := by
        intro w
        funext k
        fin_cases k
        · simp only [epsV, Membrane.value, Membrane.jcur, Fin.zero_eta, Matrix.cons_val_zero, dotProduct_add,
            add_dotProduct, dotProduct_comm (Membrane.gradu gp.dN w 0) (gp.J 0)]
          ring
        · simp only [epsV, Membrane.value, Membrane.jcur, Fin.mk_one, Matrix.cons_val_one, Matrix.cons_val_zero,
            dotProduct_add, add_dotProduct, dotProduct_comm (Membrane.gradu gp.dN w 1) (gp.J 1)]
          ring
        · rfl
      rw [hval, hval, hm, hm, hm]
    · funext i
      rw [kappaV, kappaV, hh, ha, hdot]
  refine ⟨hs, ?_⟩
  rw [shell_energy, shell_energy]
  congr 2
  refine List.map_congr_left fun gp hgp => ?_
  rw [(hs gp hgp).1, (hs gp hgp).2]

/-- C70, lower half. The entries below the diagonal of the matrix passed in have no influence: the result is the same for
all matrices with the same upper half, and it is symmetric.  What was added below the diagonal before is lost. -/
theorem shell_lower_half (gps : List (ShellPoint n)) (u : NodeVec n 3) (K0 K1 : BlockMat n 3)
    (h : ∀ I J a b, I < J ∨ (I = J ∧ a ≤ b) → K0 I J a b = K1 I J a b) :
    calculateMatrix emodul nu thickness gps .stiffness u K0 = calculateMatrix emodul nu thickness gps .stiffness u K1 ∧
    ∃ K, calculateMatrix emodul nu thickness gps .stiffness u K0 = some K ∧ Spec.Symmetric K := by
  rw [calculateMatrix_closed, calculateMatrix_closed]
  constructor
  · congr 1
    funext I J
    ext a b
    simp only [mirror, Matrix.of_apply]
    by_cases hc : J < I ∨ (I = J ∧ b < a)
    · rw [if_pos hc, if_pos hc]
      have hle : J ≤ I := by
        rcases hc with hc | hc
        · exact hc.le
        · exact hc.1.ge
      have hk : K0 J I b a = K1 J I b a := h J I b a (by
        rcases hc with hc | hc
        · exact Or.inl hc
        · exact Or.inr ⟨hc.1.symm, hc.2.le⟩)
      simp only [if_pos hle, Matrix.add_apply, hk]
    · rw [if_neg hc, if_neg hc]
      have hle : I ≤ J := not_lt.1 fun hlt => hc (Or.inl hlt)
      have hk : K0 I J a b = K1 I J a b := h I J a b (by
        rcases hle.lt_or_eq with hl | he
        · exact Or.inl hl
        · exact Or.inr ⟨he, not_lt.1 fun hlt => hc (Or.inr ⟨he, hlt⟩)⟩)
      simp only [if_pos hle, Matrix.add_apply, hk]
  · refine ⟨_, rfl, fun I J a b => ?_⟩
    simp only [mirror, Matrix.of_apply]
    rcases lt_trichotomy I J with hlt | he | hgt
    · rw [if_neg (not_or.2 ⟨hlt.asymm, fun h => hlt.ne h.1⟩), if_pos (Or.inl hlt)]
    · subst he
      rcases lt_trichotomy a b with hab | hab | hab
      · rw [if_neg (not_or.2 ⟨lt_irrefl I, fun h => hab.asymm h.2⟩), if_pos (Or.inr ⟨rfl, hab⟩)]
      · subst hab; rfl
      · rw [if_pos (Or.inr ⟨rfl, hab⟩), if_neg (not_or.2 ⟨lt_irrefl I, fun h => hab.asymm h.2⟩)]
    · rw [if_pos (Or.inl hgt), if_neg (not_or.2 ⟨hgt.asymm, fun h => hgt.ne h.1⟩)]

/-! ### Positivity -/

theorem quadratic_form (A : Matrix (Fin 3) (Fin 3) ℝ) (hA : A.IsSymm) (lambdbar mu : ℝ)
    (C : Matrix (Fin 3) (Fin 3) ℝ) (hC : ∀ a b, C a b = lambdbar * dyadic A A (unvoigt3 (![0, 1, 5] a)).2
      (unvoigt3 (![0, 1, 5] a)).1 (unvoigt3 (![0, 1, 5] b)).2 (unvoigt3 (![0, 1, 5] b)).1 +
      2 * mu * symmetricFourthOrder A A (unvoigt3 (![0, 1, 5] a)).2
      (unvoigt3 (![0, 1, 5] a)).1 (unvoigt3 (![0, 1, 5] b)).2 (unvoigt3 (![0, 1, 5] b)).1) (e : Fin 3 → ℝ) :
    ∑ a, ∑ b, e a * C a b * e b = lambdbar * (A 0 0 * e 0 + A 0 1 * e 2 + A 1 1 * e 1) ^ 2 +
      2 * mu * ((A 0 0 * e 0 + A 0 1 * e 2 + A 1 1 * e 1) ^ 2 -
        2 * (A 0 0 * A 1 1 - A 0 1 ^ 2) * (e 0 * e 1 - e 2 ^ 2 / 4)) := by
  have h10 : A 1 0 = A 0 1 := hA.apply 0 1
  simp only [Fin.sum_univ_three, hC, dyadic, symmetricFourthOrder, unvoigt3]
  simp [h10]
  ring

theorem plane_moduli (hE : 0 < emodul) (hnu : -1 < nu) (hnu2 : nu < 1 / 2) (lambda mu : ℝ)
    (hlam : lambda = emodul * nu / ((1 + nu) * (1 - 2 * nu))) (hmu : mu = emodul / (2 * (1 + nu))) :
    0 < mu ∧ 0 < 2 * lambda * mu / (lambda + 2 * mu) + mu := by
  have h1nu : 0 < 1 + nu := by linarith
  have h2nu : 0 < 1 - 2 * nu := by linarith
  have h3nu : 0 < 1 - nu := by linarith
  refine ⟨by rw [hmu]; positivity, ?_⟩
  have n1 := h1nu.ne'
  have n2 := h2nu.ne'
  have n3 := h3nu.ne'
  have e1 : lambda + 2 * mu = emodul * (1 - nu) / ((1 + nu) * (1 - 2 * nu)) := by
    rw [hlam, hmu, div_add' _ _ _ (mul_ne_zero n1 n2)]
    congr 1
    field_simp
    ring
  have e2 : 2 * lambda * mu / (lambda + 2 * mu) = emodul * nu / ((1 + nu) * (1 - nu)) := by
    rw [e1, hlam, hmu]; field_simp
  have e3 : 2 * lambda * mu / (lambda + 2 * mu) + mu = emodul / (2 * (1 - nu)) := by
    rw [e2, hmu]; field_simp; ring
  rw [e3]
  positivity

theorem plane_form_nonneg (p q r x y z lambdbar mu : ℝ) (hp : 0 < p) (hd : 0 < p * r - q ^ 2) (hmu : 0 < mu)
    (hsum : 0 < lambdbar + mu) :
    0 ≤ lambdbar * (p * x + q * z + r * y) ^ 2 +
      2 * mu * ((p * x + q * z + r * y) ^ 2 - 2 * (p * r - q ^ 2) * (x * y - z ^ 2 / 4)) := by
  have hid : (p * x + q * z + r * y) ^ 2 - 4 * ((p * r - q ^ 2) * (x * y - z ^ 2 / 4)) =
      (p * x + q * z + q ^ 2 / p * y - (p * r - q ^ 2) / p * y) ^ 2 +
        4 * ((p * r - q ^ 2) / p ^ 2) * (p * (z / 2) + q * y) ^ 2 := by
    field_simp
    ring
  have hdisc : 0 ≤ (p * x + q * z + r * y) ^ 2 - 4 * ((p * r - q ^ 2) * (x * y - z ^ 2 / 4)) := by
    rw [hid]
    positivity
  have e : lambdbar * (p * x + q * z + r * y) ^ 2 +
      2 * mu * ((p * x + q * z + r * y) ^ 2 - 2 * (p * r - q ^ 2) * (x * y - z ^ 2 / 4)) =
      (lambdbar + mu) * (p * x + q * z + r * y) ^ 2 +
        mu * ((p * x + q * z + r * y) ^ 2 - 4 * ((p * r - q ^ 2) * (x * y - z ^ 2 / 4))) := by ring
  rw [e]
  exact add_nonneg (mul_nonneg hsum.le (sq_nonneg _)) (mul_nonneg hmu.le hdisc)

/-- The entries of the inverse metric. -/
theorem inv_metric_entries (J : Fin 2 → Fin 3 → ℝ) (hD : (J 0 ⬝ᵥ J 0) * (J 1 ⬝ᵥ J 1) - (J 0 ⬝ᵥ J 1) ^ 2 ≠ 0) :
    (metric J)⁻¹ = !![(J 1 ⬝ᵥ J 1) / ((J 0 ⬝ᵥ J 0) * (J 1 ⬝ᵥ J 1) - (J 0 ⬝ᵥ J 1) ^ 2),
        -(J 0 ⬝ᵥ J 1) / ((J 0 ⬝ᵥ J 0) * (J 1 ⬝ᵥ J 1) - (J 0 ⬝ᵥ J 1) ^ 2), 0;
      -(J 0 ⬝ᵥ J 1) / ((J 0 ⬝ᵥ J 0) * (J 1 ⬝ᵥ J 1) - (J 0 ⬝ᵥ J 1) ^ 2),
        (J 0 ⬝ᵥ J 0) / ((J 0 ⬝ᵥ J 0) * (J 1 ⬝ᵥ J 1) - (J 0 ⬝ᵥ J 1) ^ 2), 0; 0, 0, 1] := by
  have hmet : metric J = !![J 0 ⬝ᵥ J 0, J 0 ⬝ᵥ J 1, 0; J 0 ⬝ᵥ J 1, J 1 ⬝ᵥ J 1, 0; 0, 0, 1] := by
    rw [metric, dotProduct_comm (J 1) (J 0)]
  rw [hmet]
  generalize J 0 ⬝ᵥ J 0 = g00 at *
  generalize J 1 ⬝ᵥ J 1 = g11 at *
  generalize J 0 ⬝ᵥ J 1 = g01 at *
  refine Matrix.inv_eq_right_inv ?_
  ext i j
  fin_cases i <;> fin_cases j <;>
    simp [Matrix.mul_apply, Fin.sum_univ_three] <;> field_simp <;> ring

theorem inv_metric_pos (J : Fin 2 → Fin 3 → ℝ) (hD : 0 < (J 0 ⬝ᵥ J 0) * (J 1 ⬝ᵥ J 1) - (J 0 ⬝ᵥ J 1) ^ 2) :
    0 < (metric J)⁻¹ 0 0 ∧ 0 < (metric J)⁻¹ 0 0 * (metric J)⁻¹ 1 1 - (metric J)⁻¹ 0 1 ^ 2 := by
  have h0 : 0 ≤ J 1 ⬝ᵥ J 1 := by
    show 0 ≤ ∑ i, J 1 i * J 1 i
    exact Finset.sum_nonneg fun i _ => mul_self_nonneg (J 1 i)
  rw [inv_metric_entries J hD.ne']
  generalize J 0 ⬝ᵥ J 0 = g00 at *
  generalize J 1 ⬝ᵥ J 1 = g11 at *
  generalize J 0 ⬝ᵥ J 1 = g01 at *
  have hD' : g00 * g11 - g01 ^ 2 ≠ 0 := hD.ne'
  have hg : 0 < g11 := by
    rcases h0.lt_or_eq with h | h
    · exact h
    · rw [← h] at hD
      nlinarith [sq_nonneg g01]
  constructor
  · show 0 < g11 / (g00 * g11 - g01 ^ 2)
    positivity
  · have e : g11 / (g00 * g11 - g01 ^ 2) * (g00 / (g00 * g11 - g01 ^ 2)) - (-g01 / (g00 * g11 - g01 ^ 2)) ^ 2 =
        1 / (g00 * g11 - g01 ^ 2) := by
      field_simp
    show 0 < g11 / (g00 * g11 - g01 ^ 2) * (g00 / (g00 * g11 - g01 ^ 2)) - (-g01 / (g00 * g11 - g01 ^ 2)) ^ 2
    rw [e]
    positivity

/-- C70, strains. The membrane strain is half the change of the metric and the bending strain the change of the second
fundamental form, in Voigt notation: the third components are doubled. -/
theorem shell_strains (p : ShellPoint n) (u : NodeVec n 3) :
    let a := fun b => p.J b + ∑ I, p.dN I b • u I
    let h := fun i => p.H i + ∑ I, p.ddN I i • u I
    epsV p u = ![(a 0 ⬝ᵥ a 0 - p.J 0 ⬝ᵥ p.J 0) / 2, (a 1 ⬝ᵥ a 1 - p.J 1 ⬝ᵥ p.J 1) / 2, a 0 ⬝ᵥ a 1 - p.J 0 ⬝ᵥ p.J 1] ∧
    kappaV p u = ![p.BV 0 - h 0 ⬝ᵥ a3 p u, p.BV 1 - h 1 ⬝ᵥ a3 p u, p.BV 2 - 2 * (h 2 ⬝ᵥ a3 p u)] := by
  intro a h
  constructor
  · have ha : ∀ b, a b = p.J b + Membrane.gradu p.dN u b := fun b => rfl
    funext k
    fin_cases k
    · simp only [epsV, Membrane.value, ha, Fin.zero_eta, Matrix.cons_val_zero, dotProduct_add,
        add_dotProduct, dotProduct_comm (Membrane.gradu p.dN u 0) (p.J 0)]
      ring
    · simp only [epsV, Membrane.value, ha, Fin.mk_one, Matrix.cons_val_one, Matrix.cons_val_zero,
        dotProduct_add, add_dotProduct, dotProduct_comm (Membrane.gradu p.dN u 1) (p.J 1)]
      ring
    · rfl
  · funext k
    fin_cases k
    · simp [kappaV, two, h, hcur]
    · simp [kappaV, two, h, hcur]
    · simp [kappaV, two, h, hcur]
      ring

/-- C70, moduli. The density `e·Ce` of a strain `ε` with Voigt components `e` is that of plane stress in the metric `g` of
the reference surface: `E/(1-ν²) (ν tr(g⁻¹ε)² + (1-ν) tr(g⁻¹εg⁻¹ε))`. -/
theorem shell_moduli (p : ShellPoint n) (x y z : ℝ) (hnu : -1 < nu) (hnu2 : nu < 1 / 2) (hE : 0 < emodul)
    (hJ : 0 < (p.J 0 ⬝ᵥ p.J 0) * (p.J 1 ⬝ᵥ p.J 1) - (p.J 0 ⬝ᵥ p.J 1) ^ 2) :
    let g : Matrix (Fin 2) (Fin 2) ℝ := Matrix.of fun a b => p.J a ⬝ᵥ p.J b
    let ε : Matrix (Fin 2) (Fin 2) ℝ := !![x, z; z, y]
    ∑ a, ∑ b, (![x, y, 2 * z] : Fin 3 → ℝ) a * tangentAt emodul nu p a b * (![x, y, 2 * z] : Fin 3 → ℝ) b =
      emodul / (1 - nu ^ 2) * (nu * (g⁻¹ * ε).trace ^ 2 + (1 - nu) * (g⁻¹ * ε * (g⁻¹ * ε)).trace) := by
  intro g ε
  have n1 : 1 + nu ≠ 0 := by intro h; linarith
  have n2 : 1 - 2 * nu ≠ 0 := by intro h; linarith
  have n3 : 1 - nu ≠ 0 := by intro h; linarith
  have n4 : 1 - nu ^ 2 ≠ 0 := by
    have : 1 - nu ^ 2 = (1 + nu) * (1 - nu) := by ring
    rw [this]
    exact mul_ne_zero n1 n3
  rw [quadratic_form _ (inv_metric_symm p.J) _ _ (tangentAt emodul nu p)
      (fun a b => by rw [tangentAt, materialTangent_apply]; rfl)]
  have hbar : 2 * (emodul * nu / ((1 + nu) * (1 - 2 * nu))) * (emodul / (2 * (1 + nu))) /
      (emodul * nu / ((1 + nu) * (1 - 2 * nu)) + 2 * (emodul / (2 * (1 + nu)))) = emodul / (1 - nu ^ 2) * nu := by
    have e1 : emodul * nu / ((1 + nu) * (1 - 2 * nu)) + 2 * (emodul / (2 * (1 + nu))) =
        emodul * (1 - nu) / ((1 + nu) * (1 - 2 * nu)) := by
      rw [div_add' _ _ _ (mul_ne_zero n1 n2)]
      congr 1
      field_simp
      ring
    have hE' := hE.ne'
    rw [e1, show 1 - nu ^ 2 = (1 + nu) * (1 - nu) by ring]
    field_simp
  have hmu : 2 * (emodul / (2 * (1 + nu))) = emodul / (1 - nu ^ 2) * (1 - nu) := by
    rw [show 1 - nu ^ 2 = (1 + nu) * (1 - nu) by ring]
    field_simp
  rw [hbar, hmu]
  have hg : g⁻¹ = !![(metric p.J)⁻¹ 0 0, (metric p.J)⁻¹ 0 1; (metric p.J)⁻¹ 0 1, (metric p.J)⁻¹ 1 1] := by
    refine Matrix.inv_eq_right_inv ?_
    have hD' := hJ.ne'
    rw [inv_metric_entries p.J hD']
    have hgm : g = !![p.J 0 ⬝ᵥ p.J 0, p.J 0 ⬝ᵥ p.J 1; p.J 0 ⬝ᵥ p.J 1, p.J 1 ⬝ᵥ p.J 1] := by
      ext a b
      fin_cases a <;> fin_cases b <;> simp [g, dotProduct_comm]
    rw [hgm]
    generalize p.J 0 ⬝ᵥ p.J 0 = g00 at *
    generalize p.J 1 ⬝ᵥ p.J 1 = g11 at *
    generalize p.J 0 ⬝ᵥ p.J 1 = g01 at *
    ext i j
    fin_cases i <;> fin_cases j <;>
      simp [Matrix.mul_apply, Fin.sum_univ_two] <;> field_simp <;> ring
  rw [hg]
  generalize (metric p.J)⁻¹ 0 0 = A00
  generalize (metric p.J)⁻¹ 0 1 = A01
  generalize (metric p.J)⁻¹ 1 1 = A11
  generalize emodul / (1 - nu ^ 2) = k
  simp [ε, Matrix.trace, Matrix.mul_apply, Fin.sum_univ_two]
  ring

/-- C70, positivity. For a positive modulus of elasticity, a Poisson ratio between -1 and 1/2, independent reference
tangent vectors and nonnegative thickness and weights, the energy is not negative. -/
theorem shell_energy_nonneg (gps : List (ShellPoint n)) (u : NodeVec n 3) (hE : 0 < emodul) (hnu : -1 < nu)
    (hnu2 : nu < 1 / 2) (ht : 0 ≤ thickness) (hw : ∀ gp ∈ gps, 0 ≤ gp.detJ * gp.weight)
    (hJ : ∀ gp ∈ gps, 0 < (gp.J 0 ⬝ᵥ gp.J 0) * (gp.J 1 ⬝ᵥ gp.J 1) - (gp.J 0 ⬝ᵥ gp.J 1) ^ 2) :
    ∃ E, calculateScalar emodul nu thickness gps .mechanicalPotentialEnergy u = some E ∧ 0 ≤ E := by
  refine ⟨_, shell_energy emodul nu thickness gps u, ?_⟩
  refine List.sum_nonneg fun x hx => ?_
  obtain ⟨gp, hgp, rfl⟩ := List.mem_map.1 hx
  have key : ∀ e : Fin 3 → ℝ, 0 ≤ ∑ a, ∑ b, e a * tangentAt emodul nu gp a b * e b := by
    intro e
    obtain ⟨hmu, hsum⟩ := plane_moduli emodul nu hE hnu hnu2 _ _ rfl rfl
    obtain ⟨h00, hdet⟩ := inv_metric_pos gp.J (hJ gp hgp)
    rw [quadratic_form _ (inv_metric_symm gp.J) _ _ (tangentAt emodul nu gp)
      (fun a b => by rw [tangentAt, materialTangent_apply]; rfl) e]
    exact plane_form_nonneg _ _ _ _ _ _ _ _ h00 hdet hmu hsum
  have k1 := key (epsV gp u)
  have k2 := key (kappaV gp u)
  have hw' := hw gp hgp
  positivity

/-- The hypotheses are met: a flat point with one node, undeformed. -/
example : Spec.Regular (n := 1) ⟨1, 1, ![![1, 0, 0], ![0, 1, 0]], 0, 0, fun _ _ => 1, fun _ _ => 1⟩ 0 ∧
    a3 (n := 1) ⟨1, 1, ![![1, 0, 0], ![0, 1, 0]], 0, 0, fun _ _ => 1, fun _ _ => 1⟩ 0 = ![0, 0, 1] := by
  have h : a3N (n := 1) ⟨1, 1, ![![1, 0, 0], ![0, 1, 0]], 0, 0, fun _ _ => 1, fun _ _ => 1⟩ 0 = ![0, 0, 1] := by
    simp [a3N, jcur, Membrane.jcur, Membrane.gradu, cross_apply]
  constructor
  · rw [Spec.Regular, h]; simp
  · rw [a3, h, normalized_eq, norm]; simp

/-- A bent point: the bending strain is not zero. -/
example : kappaV (n := 1) ⟨1, 1, ![![1, 0, 0], ![0, 1, 0]], 0, 0, fun _ _ => 0, fun _ _ => 1⟩ (fun _ => ![0, 0, 2]) =
    ![-2, -2, -4] := by
  have h : a3N (n := 1) ⟨1, 1, ![![1, 0, 0], ![0, 1, 0]], 0, 0, fun _ _ => 0, fun _ _ => 1⟩ (fun _ => ![0, 0, 2]) =
      ![0, 0, 1] := by
    simp [a3N, jcur, Membrane.jcur, Membrane.gradu, cross_apply]
  funext i
  rw [kappaV, a3, h, normalized_eq, norm]
  fin_cases i <;> simp [hcur, two] <;> norm_num

end Shell

end Ikarus.Element
