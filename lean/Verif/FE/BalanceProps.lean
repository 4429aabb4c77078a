import Verif.FE.BalanceLemmas

/-!
C103: the forces an element adds for its deformation are in balance; their resultant and all their moments vanish.
-/

namespace Ikarus.Element

open Matrix Element.Spec

variable {n d q m g : Nat}

/-- C103, meaning. Forces are in balance if and only if their resultant and their moments about the origin vanish in all
planes of coordinates. -/
theorem balance_iff (f x : NodeVec n d) : InBalance f x ↔
    (∀ a, ∑ I, f I a = 0) ∧ ∀ a b, ∑ I, (x I a * f I b - x I b * f I a) = 0 := by
  have key : ∀ (c : Fin d → ℝ) (W : Matrix (Fin d) (Fin d) ℝ), work f (rigid c W x) =
      ∑ a, c a * ∑ I, f I a + ∑ a, ∑ b, W a b * ∑ I, f I a * x I b := by
    intro c W
    simp only [work, rigid, Pi.add_apply, Matrix.mulVec, dotProduct, mul_add, Finset.sum_add_distrib, Finset.mul_sum]
    congr 1
    · rw [Finset.sum_comm]
      exact Finset.sum_congr rfl fun a _ => Finset.sum_congr rfl fun I _ => mul_comm _ _
    · rw [Finset.sum_comm]
      refine Finset.sum_congr rfl fun a _ => ?_
      rw [Finset.sum_comm]
      exact Finset.sum_congr rfl fun b _ => Finset.sum_congr rfl fun I _ => by ring
  constructor
  · intro h
    constructor
    · intro a
      have := h (Pi.single a 1) 0 (by simp)
      rw [key] at this
      simpa [Pi.single_apply] using this
    · intro a b
      have := h 0 (Matrix.single b a 1 - Matrix.single a b 1) (by
        rw [Matrix.transpose_sub, Matrix.transpose_single, Matrix.transpose_single, neg_sub])
      rw [key] at this
      simp only [Pi.zero_apply, zero_mul, Finset.sum_const_zero, zero_add, Matrix.sub_apply, sub_mul,
        Finset.sum_sub_distrib] at this
      have hs : ∀ a b, ∑ i, ∑ j, Matrix.single a b (1 : ℝ) i j * ∑ I, f I i * x I j = ∑ I, f I a * x I b := by
        intro a b
        rw [Finset.sum_eq_single a, Finset.sum_eq_single b]
        · simp
        · intro j _ hj
          rw [Matrix.single_apply_of_col_ne _ _ hj.symm, zero_mul]
        · simp
        · intro i _ hi
          exact Finset.sum_eq_zero fun j _ => by rw [Matrix.single_apply_of_row_ne hi.symm, zero_mul]
        · simp
      rw [hs, hs] at this
      rw [Finset.sum_sub_distrib]
      simp only [mul_comm (x _ _)]
      exact this
  · rintro ⟨h1, h2⟩ c W hW
    have hsym : ∀ a b, ∑ I, f I a * x I b = ∑ I, f I b * x I a := by
      intro a b
      have := h2 b a
      rw [Finset.sum_sub_distrib] at this
      simp only [mul_comm (x _ _)] at this
      linarith
    have hz : ∑ a, ∑ b, W a b * ∑ I, f I a * x I b = 0 := by
      have e : ∑ a, ∑ b, W a b * ∑ I, f I a * x I b = -∑ a, ∑ b, W a b * ∑ I, f I a * x I b := by
        conv_lhs => rw [Finset.sum_comm]
        rw [← Finset.sum_neg_distrib]
        refine Finset.sum_congr rfl fun a _ => ?_
        rw [← Finset.sum_neg_distrib]
        refine Finset.sum_congr rfl fun b _ => ?_
        have : W b a = -W a b := congrFun (congrFun hW a) b
        rw [this, hsym b a, neg_mul]
      linarith
    rw [key, hz, add_zero]
    exact Finset.sum_eq_zero fun a _ => by rw [h1, mul_zero]

/-! ### Displacement elements -/

/-- The strain operator `B` of Green-Lagrange strains at the displacements `u`, in the dimension `dim`, for an element whose
geometry is interpolated from its nodes `X`.  For `u = 0` these are the linear strains. -/
def Spec.GreenLagrangeOperator (dim : EAS.Dimension d q) (X u : NodeVec n d) (B : Fin n → Matrix (Fin q) (Fin d) ℝ) : Prop :=
  ∃ dN, Isoparametric X dN ∧ ∀ I, B I = dim.bop (1 + EAS.gradient dN u) (dN I)

theorem Spec.GreenLagrangeOperator.noStrain {dim : EAS.Dimension d q} (hdim : EAS.Spec.IsVoigt dim) {X u : NodeVec n d}
    {B : Fin n → Matrix (Fin q) (Fin d) ℝ} (h : GreenLagrangeOperator dim X u B) : NoStrain B (X + u) := by
  obtain ⟨dN, h1, h2⟩ := h
  rw [show B = fun I => dim.bop (1 + EAS.gradient dN u) (dN I) from funext h2]
  exact greenLagrange_noStrain hdim h1 u

/-- C103, linear element. The forces are in balance about the reference positions, for every material and displacement. -/
theorem linear_balance (dim : EAS.Dimension d q) (hdim : EAS.Spec.IsVoigt dim) (C : Matrix (Fin q) (Fin q) ℝ)
    (gps : List (LinPoint n d q)) (X u f : NodeVec n d) (hX : ∀ gp ∈ gps, GreenLagrangeOperator dim X 0 gp.bop) :
    ∃ F, LinearElastic.calculateVector false C gps u f = f + F ∧ InBalance F X := by
  refine ⟨_, LinearElastic.calculateVector_sum C gps u f, InBalance.list_sum _ _ _ fun gp hgp => ?_⟩
  have := GreenLagrangeOperator.noStrain hdim (hX gp hgp)
  rw [add_zero] at this
  exact this.balance _ _

/-- C103, nonlinear element. The forces are in balance about the current positions, for every law of stress, even one
without energy, and at every displacement. -/
theorem nonlinear_balance (dim : EAS.Dimension d q) (hdim : EAS.Spec.IsVoigt dim) (law : Law q) (gps : List (Point n d q))
    (X u f : NodeVec n d) (hX : ∀ gp ∈ gps, GreenLagrangeOperator dim X u (gp.bop u)) :
    ∃ F, NonLinearElastic.calculateVector false law gps u f = f + F ∧ InBalance F (X + u) :=
  ⟨_, NonLinearElastic.calculateVector_sum law gps u f, InBalance.list_sum _ _ _ fun gp hgp =>
    (GreenLagrangeOperator.noStrain hdim (hX gp hgp)).balance _ _⟩

/-- C103, membrane. The same with the membrane strains on a surface in space. -/
theorem membrane_balance (law : Law 3) (gps : List (Point n 3 3)) (X u f : NodeVec n 3)
    (hX : ∀ gp ∈ gps, ∃ J dN, SurfaceIsoparametric X J dN ∧ gp.bop = Membrane.derivative J dN) :
    ∃ F, NonLinearElastic.calculateVector false law gps u f = f + F ∧ InBalance F (X + u) := by
  refine ⟨_, NonLinearElastic.calculateVector_sum law gps u f, InBalance.list_sum _ _ _ fun gp hgp => ?_⟩
  obtain ⟨J, dN, h1, h2⟩ := hX gp hgp
  have := membrane_noStrain h1 u
  rw [← h2] at this
  exact this.balance _ _

/-- C103, shell. The forces of membrane strains and bending strains are in balance, at every displacement, also where the
director is not defined. -/
theorem shell_balance (emodul nu thickness : ℝ) (gps : List (Shell.ShellPoint n)) (X u f : NodeVec n 3)
    (hX : ∀ gp ∈ gps, ShellIsoparametric X gp) :
    ∃ F, Shell.calculateVector emodul nu thickness gps .forces u f = some (f + F) ∧ InBalance F (X + u) :=
  ⟨_, Shell.calculateVector_eq _ _ _ gps u f, InBalance.list_sum _ _ _ fun gp hgp =>
    ((membrane_noStrain (hX gp hgp).toSurfaceIsoparametric u).balance _ _).add ((bending_noStrain (hX gp hgp) u).balance _ _)⟩

/-- C103, truss. The two forces are opposite and act along the line through the current positions. -/
theorem truss_balance (E A : ℝ) (X1 X2 : Fin d → ℝ) (u f : NodeVec 2 d) :
    ∃ F, Truss.calculateVector E A X1 X2 u f = f + F ∧ InBalance F (![X1, X2] + u) := by
  refine ⟨_, rfl, fun c W hW => ?_⟩
  rw [work_smul, work_eq, Fin.sum_univ_two, Truss.dEdu_zero, Truss.dEdu_one, neg_dotProduct, smul_dotProduct, smul_dotProduct]
  have e : rigid c W (![X1, X2] + u) 1 = rigid c W (![X1, X2] + u) 0 + W *ᵥ Truss.axis X1 X2 u := by
    simp only [rigid, Truss.axis, Matrix.mulVec_sub, Pi.add_apply, Matrix.cons_val_zero, Matrix.cons_val_one]
    abel
  rw [e, dotProduct_add, skew_self hW]
  simp

/-- C103, displacement and pressure. The displacement part of the forces is in balance at all displacements and pressures. -/
theorem displacementPressure_balance (dim : EAS.Dimension d q) (hdim : EAS.Spec.IsVoigt dim) (c : DisplacementPressure.Driver q)
    (gps : List (DisplacementPressure.DPPoint n m d q)) (X u : NodeVec n d) (p : Fin m → ℝ) (f : DisplacementPressure.Vec n m d)
    (hX : ∀ gp ∈ gps, GreenLagrangeOperator dim X u (gp.bop u)) :
    ∃ F, (DisplacementPressure.calculateVector c gps u p f).u = f.u + F ∧ InBalance F (X + u) := by
  rw [DisplacementPressure.calculateVector_sum]
  exact ⟨_, rfl, InBalance.list_sum _ _ _ fun gp hgp =>
    (GreenLagrangeOperator.noStrain hdim (hX gp hgp)).balance _ _⟩

/-! ### Assumed stress -/

theorem Spec.InBalance.mulLT {L : Fin n → Matrix (Fin m) (Fin d) ℝ} {x : NodeVec n d} (h : NoStrain L x) (w : Fin m → ℝ) :
    InBalance (EAS.Spec.mulLT L w) x := by
  have := h.balance 1 w
  simp only [one_smul] at this
  exact this

theorem Spec.NoStrain.list_sum {α : Type*} (l : List α) (B : α → Fin n → Matrix (Fin q) (Fin d) ℝ) (x : NodeVec n d)
    (h : ∀ p ∈ l, NoStrain (B p) x) : NoStrain (l.map B).sum x := by
  intro c W hW
  rw [← EAS.mulLv_eq, EAS.mulLv_list_sum]
  refine List.sum_eq_zero fun y hy => ?_
  obtain ⟨p, hp, rfl⟩ := List.mem_map.1 hy
  rw [EAS.mulLv_eq]
  exact h p hp c W hW

theorem Spec.NoStrain.comp {B : Fin n → Matrix (Fin q) (Fin d) ℝ} {x : NodeVec n d} (h : NoStrain B x) (w : ℝ)
    (A : Matrix (Fin m) (Fin q) ℝ) : NoStrain (fun I => w • (A * B I)) x := by
  intro c W hW
  have : ∀ I, (w • (A * B I)) *ᵥ rigid c W x I = w • (A *ᵥ (B I *ᵥ rigid c W x I)) := by
    intro I
    rw [Matrix.smul_mulVec, Matrix.mulVec_mulVec]
  simp only [this]
  rw [← Finset.smul_sum, ← Matrix.mulVec_sum, h c W hW, Matrix.mulVec_zero, smul_zero]

theorem Spec.NoStrain.add {B B' : Fin n → Matrix (Fin q) (Fin d) ℝ} {x : NodeVec n d} (h : NoStrain B x) (h' : NoStrain B' x) :
    NoStrain (fun I => B I + B' I) x := by
  intro c W hW
  simp only [Matrix.add_mulVec, Finset.sum_add_distrib, h c W hW, h' c W hW, add_zero]

/-- C103, assumed stress. The forces are in balance for every state of the element, whether its internal variables are in
equilibrium or not; about the current positions (`v = u`) with Green-Lagrange strains and about the reference positions
(`v = 0`) with linear strains. -/
theorem assumedStress_balance (dim : EAS.Dimension d q) (hdim : EAS.Spec.IsVoigt dim)
    (gps : Fin g → AssumedStress.ASPoint n d q m) (st : AssumedStress.State q m g) (X u v f : NodeVec n d)
    (ha : AssumedStress.asApplicable n d = true) (hX : ∀ i, GreenLagrangeOperator dim X v ((gps i).point.bop u)) :
    ∃ F, AssumedStress.calculateVector gps st .forces u f = some (f + F) ∧ InBalance F (X + v) := by
  have hns : ∀ i, NoStrain ((gps i).point.bop u) (X + v) := fun i => GreenLagrangeOperator.noStrain hdim (hX i)
  have hf : (List.finRange g).foldl (fun force i => (List.finRange n).foldl (fun force I => addSegment force I
        (((gps i).point.detJ * (gps i).point.weight) • (((gps i).point.bop u I)ᵀ *ᵥ (gps i).value st.beta))) force) f =
      f + ((List.finRange g).map fun i I => ((gps i).point.detJ * (gps i).point.weight) •
        (((gps i).point.bop u I)ᵀ *ᵥ (gps i).value st.beta)).sum := by
    rw [← foldl_add_sum]
    exact foldl_congr' (fun f i => foldl_addSegment (fun I => ((gps i).point.detJ * (gps i).point.weight) •
      (((gps i).point.bop u I)ᵀ *ᵥ (gps i).value st.beta)) f) _ _
  have hG : NoStrain (AssumedStress.calculateG gps u) (X + v) := by
    have : AssumedStress.calculateG gps u = ((List.finRange g).map fun i I => ((gps i).point.detJ * (gps i).point.weight) •
        ((gps i).Pᵀ * (gps i).point.bop u I)).sum := by
      rw [← zero_add ((List.finRange g).map _).sum, ← foldl_add_sum]
      refine foldl_congr' (fun G i => ?_) _ _
      refine (EAS.foldl_update_add (fun I => ((gps i).point.detJ * (gps i).point.weight) •
        ((gps i).Pᵀ * (gps i).point.bop u I)) _ (List.nodup_finRange n) G).trans ?_
      funext I
      simp
    rw [this]
    exact NoStrain.list_sum _ _ _ fun i _ => (hns i).comp _ _
  refine ⟨_, ?_, (InBalance.list_sum (List.finRange g) _ _ fun i _ => (hns i).balance
    ((gps i).point.detJ * (gps i).point.weight) ((gps i).value st.beta)).add
    (InBalance.mulLT hG ((AssumedStress.calculateH gps st)⁻¹ *ᵥ AssumedStress.calculateRtilde gps st u))⟩
  unfold AssumedStress.calculateVector
  simp only [ne_eq, not_true_eq_false, if_false, ha, Bool.not_true, Bool.false_eq_true]
  rw [hf, add_assoc]
  congr 3
  funext I
  rw [EAS.mulLT_eq, Matrix.mulVec_mulVec]

/-! ### Enhanced assumed strains -/

theorem eas_vector (law : Law q) (gps : List (EAS.EASPoint n d q m)) (u f : NodeVec n d) (alpha : Fin m → ℝ)
    (ha : EAS.applicable n d m = true) : ∃ w : Fin m → ℝ, (EAS.calculateRtilde law gps u alpha = 0 → w = 0) ∧
    EAS.calculateVector law gps .forces u alpha f =
      some (f + (EAS.forces law gps u alpha - EAS.Spec.mulLT (EAS.calculateL law gps u alpha) w)) := by
  by_cases hm : m = 0
  · subst hm
    refine ⟨0, fun _ => rfl, ?_⟩
    unfold EAS.calculateVector
    simp only [ne_eq, not_true_eq_false, if_false, ha, Bool.not_true, Bool.false_eq_true, if_true]
    rw [EAS.forces_loop]
    congr 2
    have : EAS.Spec.mulLT (EAS.calculateL law gps u alpha) 0 = 0 := by
      funext I
      rw [EAS.mulLT_eq, Matrix.mulVec_zero]
      rfl
    rw [this, sub_zero]
  · exact ⟨_, fun h => by rw [h, Matrix.mulVec_zero], EAS.calculateVector_eq law gps u alpha hm ha f⟩

/-- C103, enhanced strains. If linear or Green-Lagrange strains are enhanced, the forces are in balance for all internal
variables, in equilibrium or not. -/
theorem additive_balance (dim : EAS.Dimension d q) (hdim : EAS.Spec.IsVoigt dim) (law : Law q)
    (gps : List (Point n d q × Matrix (Fin q) (Fin m) ℝ)) (X u v f : NodeVec n d) (alpha : Fin m → ℝ)
    (ha : EAS.applicable n d m = true) (hX : ∀ gp ∈ gps, GreenLagrangeOperator dim X v (gp.1.bop u)) :
    ∃ F, EAS.calculateVector law (gps.map fun gp => EAS.additive gp.1 gp.2) .forces u alpha f = some (f + F) ∧
      InBalance F (X + v) := by
  obtain ⟨w, -, hw⟩ := eas_vector law (gps.map fun gp => EAS.additive gp.1 gp.2) u f alpha ha
  refine ⟨_, hw, InBalance.sub ?_ (InBalance.mulLT ?_ _)⟩
  · refine InBalance.list_sum _ _ _ fun p hp => ?_
    obtain ⟨gp, hgp, rfl⟩ := List.mem_map.1 hp
    exact (GreenLagrangeOperator.noStrain hdim (hX gp hgp)).balance _ _
  · rw [EAS.calculateL_sum]
    refine NoStrain.list_sum _ _ _ fun p hp => ?_
    obtain ⟨gp, hgp, rfl⟩ := List.mem_map.1 hp
    have := (GreenLagrangeOperator.noStrain hdim (hX gp hgp)).comp (gp.1.detJ * gp.1.weight)
      (gp.2ᵀ * law.tangent (gp.1.strain u + gp.2 *ᵥ alpha))
    have e : EAS.pointL law u alpha (EAS.additive gp.1 gp.2) = fun I => (gp.1.detJ * gp.1.weight) •
        (gp.2ᵀ * law.tangent (gp.1.strain u + gp.2 *ᵥ alpha) * gp.1.bop u I) := by
      funext I
      simp only [EAS.pointL, EAS.additive, add_zero]
    rw [e]
    exact this

theorem along_skew_move {v : Fin d → Fin d → Fin q} (S : Fin q → ℝ) {W : Matrix (Fin d) (Fin d) ℝ} (hW : Wᵀ = -W)
    (x y : Matrix (Fin d) (Fin d) ℝ) : EAS.Spec.along v S x (W * y) = -EAS.Spec.along v S (W * x) y := by
  simp only [EAS.Spec.along, ← Finset.sum_neg_distrib]
  refine Finset.sum_congr rfl fun i _ => Finset.sum_congr rfl fun j _ => ?_
  rw [← mul_neg]
  congr 1
  have := skew_dot hW (fun b => x b i) (fun b => y b j)
  simp only [dotProduct, Matrix.mulVec] at this
  simp only [Matrix.mul_apply]
  linarith

theorem along_gradient (v : Fin d → Fin d → Fin q) (S : Fin q → ℝ) (dN : Fin n → Fin d → ℝ) (w : NodeVec n d)
    (M y : Matrix (Fin d) (Fin d) ℝ) : EAS.Spec.along v S (EAS.gradient dN w * M) y =
      ∑ I, ∑ r, w I r * EAS.Spec.along v S (EAS.rowMatrix r (dN I) * M) y := by
  rw [EAS.gradient_rows dN w, Finset.sum_mul, EAS.along_sum_left]
  refine Finset.sum_congr rfl fun I _ => ?_
  rw [Finset.sum_mul, EAS.along_sum_left]
  refine Finset.sum_congr rfl fun r _ => ?_
  rw [Matrix.smul_mul, EAS.along_smul_left]

theorem gradient_enhanced (H : Fin m → Matrix (Fin d) (Fin d) ℝ) (alpha : Fin m → ℝ) (dN dN0 : Fin n → Fin d → ℝ)
    (v : NodeVec n d) : EAS.gradient (fun I => EAS.enhancedDN H alpha (dN I) (dN0 I)) v =
      EAS.gradient dN v + EAS.gradient dN0 v * (EAS.sumModes H alpha)ᵀ := by
  ext i j
  simp only [EAS.gradient, Matrix.of_apply, Matrix.add_apply, Matrix.mul_apply, EAS.enhancedDN_eq, Pi.add_apply, mul_add,
    Finset.sum_add_distrib, Matrix.transpose_apply, Matrix.mulVec, dotProduct, Finset.mul_sum, Finset.sum_mul]
  congr 1
  rw [Finset.sum_comm]
  exact Finset.sum_congr rfl fun b _ => Finset.sum_congr rfl fun I _ => by ring

/-- C103, enhanced strains. The forces of `DisplacementGradientTransposed` are in balance about the current positions for all
internal variables, in equilibrium or not. -/
theorem transposed_balance (dim : EAS.Dimension d q) (hdim : EAS.Spec.IsVoigt dim)
    (val : (Fin q → ℝ) → (Fin d → ℝ) → (Fin d → ℝ) → ℝ) (law : Law q) (gps : List (EAS.EASPoint n d q m))
    (X u f : NodeVec n d) (alpha : Fin m → ℝ) (ha : EAS.applicable n d m = true)
    (hX : ∀ gp ∈ gps, ∃ detJ weight dN dN0 H, Isoparametric X dN ∧ Isoparametric X dN0 ∧
      gp = EAS.displacementGradientTransposed dim val detJ weight dN dN0 H) :
    ∃ F, EAS.calculateVector law gps .forces u alpha f = some (f + F) ∧ InBalance F (X + u) := by
  obtain ⟨w, -, hw⟩ := eas_vector law gps u f alpha ha
  have hgrad : ∀ (dN dN0 : Fin n → Fin d → ℝ) (H : Fin m → Matrix (Fin d) (Fin d) ℝ), Isoparametric X dN →
      Isoparametric X dN0 → ∀ c W, EAS.gradient (fun I => EAS.enhancedDN H alpha (dN I) (dN0 I)) (rigid c W (X + u)) =
        W * (1 + (EAS.gradient dN u + (1 + EAS.gradient dN0 u) * (EAS.sumModes H alpha)ᵀ)) := by
    intro dN dN0 H h1 h2 c W
    rw [gradient_enhanced, gradient_rigid h1, gradient_rigid h2, ← add_assoc, mul_add W (1 + EAS.gradient dN u), Matrix.mul_assoc]
  have hEd : ∀ gp ∈ gps, NoStrain (gp.Ed u alpha) (X + u) := by
    intro gp hgp
    obtain ⟨detJ, weight, dN, dN0, H, h1, h2, rfl⟩ := hX gp hgp
    intro c W hW
    refine (bop_sum hdim _ (fun I => EAS.enhancedDN H alpha (dN I) (dN0 I)) _).trans ?_
    rw [hgrad dN dN0 H h1 h2]
    funext k
    exact along_skew hdim.symm _ hW _
  refine ⟨_, hw, InBalance.sub ?_ (InBalance.mulLT ?_ _)⟩
  · exact InBalance.list_sum _ _ _ fun gp hgp => (hEd gp hgp).balance _ _
  · rw [EAS.calculateL_sum]
    refine NoStrain.list_sum _ _ _ fun gp hgp => ?_
    have hEad : NoStrain (gp.Ead u alpha (law.stress (gp.strain u alpha))) (X + u) := by
      generalize law.stress (gp.strain u alpha) = S
      obtain ⟨detJ, weight, dN, dN0, H, h1, h2, rfl⟩ := hX gp hgp
      intro c W hW
      funext p
      rw [Finset.sum_apply]
      set F := 1 + (EAS.gradient dN u + (1 + EAS.gradient dN0 u) * (EAS.sumModes H alpha)ᵀ) with hF
      set v := rigid c W (X + u) with hv
      have e : ∀ I, ((EAS.displacementGradientTransposed dim val detJ weight dN dN0 H).Ead u alpha S I *ᵥ v I) p =
          ∑ r, v I r * EAS.Spec.along dim.voigt S (EAS.rowMatrix r (EAS.enhancedDN H alpha (dN I) (dN0 I)))
            ((1 + EAS.gradient dN0 u) * (H p)ᵀ) + ∑ r, v I r * EAS.Spec.along dim.voigt S (EAS.rowMatrix r (dN0 I) * (H p)ᵀ) F := by
        intro I
        rw [← Finset.sum_add_distrib, Matrix.mulVec, dotProduct]
        refine Finset.sum_congr rfl fun r _ => ?_
        show EAS.alongStressTransposed dim S _ _ _ _ * v I r = _
        rw [EAS.alongStressTransposed_eq dim hdim, EAS.along_symm _ _ hdim.symm ((1 + EAS.gradient dN0 u) * (H p)ᵀ)]
        ring
      simp only [e, Finset.sum_add_distrib]
      have e1 : ∑ I, ∑ r, v I r * EAS.Spec.along dim.voigt S (EAS.rowMatrix r (EAS.enhancedDN H alpha (dN I) (dN0 I)))
            ((1 + EAS.gradient dN0 u) * (H p)ᵀ) = EAS.Spec.along dim.voigt S (W * F) ((1 + EAS.gradient dN0 u) * (H p)ᵀ) := by
        rw [← hgrad dN dN0 H h1 h2 c W, ← Matrix.mul_one (EAS.gradient _ (rigid c W (X + u))), along_gradient]
        simp only [Matrix.mul_one]
        rfl
      have e2 : ∑ I, ∑ r, v I r * EAS.Spec.along dim.voigt S (EAS.rowMatrix r (dN0 I) * (H p)ᵀ) F =
          EAS.Spec.along dim.voigt S (W * ((1 + EAS.gradient dN0 u) * (H p)ᵀ)) F := by
        rw [← Matrix.mul_assoc, ← gradient_rigid h2 u c W, along_gradient]
      rw [e1, e2, EAS.along_symm _ _ hdim.symm (W * F), along_skew_move _ hW, neg_add_cancel]
      rfl
    have := ((hEd gp hgp).comp (gp.detJ * gp.weight) ((gp.Ea u alpha)ᵀ * law.tangent (gp.strain u alpha))).add
      (hEad.comp (gp.detJ * gp.weight) (1 : Matrix (Fin m) (Fin m) ℝ))
    have e : EAS.pointL law u alpha gp = fun I => (gp.detJ * gp.weight) •
        ((gp.Ea u alpha)ᵀ * law.tangent (gp.strain u alpha) * gp.Ed u alpha I) +
        (gp.detJ * gp.weight) • ((1 : Matrix (Fin m) (Fin m) ℝ) * gp.Ead u alpha (law.stress (gp.strain u alpha)) I) := by
      funext I
      rw [EAS.pointL, smul_add, Matrix.one_mul]
    rw [e]
    exact this

/-- The modes at the points `pts` are complete: with a field of displacement gradients they contain the field turned by any
matrix. -/
def Spec.Complete {α : Type} (H : α → Fin m → Matrix (Fin d) (Fin d) ℝ) : Prop :=
  ∀ (W : Matrix (Fin d) (Fin d) ℝ) (alpha : Fin m → ℝ), ∃ beta : Fin m → ℝ, ∀ p,
    W * ∑ r, alpha r • H p r = ∑ r, beta r • H p r

theorem complete_transform {α : Type} (geo : EAS.Geometry d) (hgeo : IsUnit (geo.jacobianTransposed EAS.center).det)
    (modes : (Fin d → ℝ) → Fin m → Matrix (Fin d) (Fin d) ℝ) (h : Complete modes) (pos : α → Fin d → ℝ) :
    Complete fun p => EAS.ansatzH modes geo (pos p) := by
  intro W alpha
  set J := geo.jacobianTransposed EAS.center with hJ
  obtain ⟨beta, hb⟩ := h (J * W * J⁻¹) alpha
  refine ⟨beta, fun p => ?_⟩
  have e : ∀ al : Fin m → ℝ, ∑ r, al r • EAS.ansatzH modes geo (pos p) r =
      (geo.integrationElement EAS.center / geo.integrationElement (pos p)) • (J⁻¹ * (∑ r, al r • modes (pos p) r) * (J⁻¹)ᵀ) := by
    intro al
    rw [Matrix.mul_sum, Finset.sum_mul, Finset.smul_sum]
    refine Finset.sum_congr rfl fun r _ => ?_
    simp only [EAS.ansatzH, EAS.transformDisplacementGradient, ← hJ, Matrix.smul_mul, Matrix.mul_smul]
    rw [smul_comm]
  rw [e, e, ← hb, Matrix.mul_smul, Matrix.mul_assoc J W, Matrix.mul_assoc J, ← Matrix.mul_assoc J⁻¹ J, Matrix.nonsing_inv_mul _ hgeo,
    Matrix.one_mul]
  simp only [Matrix.mul_assoc]

/-- C103, modes. The modes `H4` of the code are complete on every element with an invertible Jacobian at the center. -/
theorem h4_complete {α : Type} (geo : EAS.Geometry 2) (hgeo : IsUnit (geo.jacobianTransposed EAS.center).det)
    (pos : α → Fin 2 → ℝ) : Complete fun p => EAS.ansatzH EAS.h4 geo (pos p) := by
  refine complete_transform geo hgeo _ (fun W alpha => ?_) pos
  refine ⟨![W 0 0 * alpha 0 + W 0 1 * alpha 2, W 0 0 * alpha 1 + W 0 1 * alpha 3,
    W 1 0 * alpha 0 + W 1 1 * alpha 2, W 1 0 * alpha 1 + W 1 1 * alpha 3], fun p => ?_⟩
  unfold EAS.h4
  generalize 2 * p 0 - 1.0 = xi
  generalize 2 * p 1 - 1.0 = eta
  ext i j
  fin_cases i <;> fin_cases j <;>
    simp [Fin.sum_univ_succ, Matrix.mul_apply] <;> ring

/-- C103, modes. The modes `H9` of the code are complete on every element with an invertible Jacobian at the center. -/
theorem h9_complete {α : Type} (geo : EAS.Geometry 3) (hgeo : IsUnit (geo.jacobianTransposed EAS.center).det)
    (pos : α → Fin 3 → ℝ) : Complete fun p => EAS.ansatzH EAS.h9 geo (pos p) := by
  refine complete_transform geo hgeo _ (fun W alpha => ?_) pos
  refine ⟨![W 0 0 * alpha 0 + W 0 1 * alpha 3 + W 0 2 * alpha 6, W 0 0 * alpha 1 + W 0 1 * alpha 4 + W 0 2 * alpha 7,
    W 0 0 * alpha 2 + W 0 1 * alpha 5 + W 0 2 * alpha 8,
    W 1 0 * alpha 0 + W 1 1 * alpha 3 + W 1 2 * alpha 6, W 1 0 * alpha 1 + W 1 1 * alpha 4 + W 1 2 * alpha 7,
    W 1 0 * alpha 2 + W 1 1 * alpha 5 + W 1 2 * alpha 8,
    W 2 0 * alpha 0 + W 2 1 * alpha 3 + W 2 2 * alpha 6, W 2 0 * alpha 1 + W 2 1 * alpha 4 + W 2 2 * alpha 7,
    W 2 0 * alpha 2 + W 2 1 * alpha 5 + W 2 2 * alpha 8], fun p => ?_⟩
  unfold EAS.h9
  generalize 2 * p 0 - 1.0 = xi
  generalize 2 * p 1 - 1.0 = eta
  generalize 2 * p 2 - 1.0 = zeta
  ext i j
  fin_cases i <;> fin_cases j <;>
    simp [Fin.sum_univ_succ, Matrix.mul_apply, Fin.succ] <;> ring

/-- The data of an integration point of `DisplacementGradient`. -/
structure Spec.GradientPoint (n d : Nat) where
  detJ : ℝ
  weight : ℝ
  pos : Fin d → ℝ
  dN : Fin n → Fin d → ℝ

/-- The integration points with the modes `H`. -/
noncomputable def Spec.gradientPoints (dim : EAS.Dimension d q) (H : (Fin d → ℝ) → Fin m → Matrix (Fin d) (Fin d) ℝ)
    (gps : List (Spec.GradientPoint n d)) : List (EAS.EASPoint n d q m) :=
  gps.map fun gp => EAS.displacementGradient dim gp.detJ gp.weight gp.dN (H gp.pos)

theorem columnM_along {dim : EAS.Dimension d q} (hdim : EAS.Spec.IsVoigt dim) (F H : Matrix (Fin d) (Fin d) ℝ) (S : Fin q → ℝ) :
    S ⬝ᵥ dim.columnM F H = EAS.Spec.along dim.voigt S H F := by
  rw [← EAS.along_single_sum, dotProduct]
  exact Finset.sum_congr rfl fun k _ => by rw [hdim.columnM, mul_comm]

/-- C103, enhanced strains. `DisplacementGradient` adds modes that do not turn with the element.  The resultant of its forces
vanishes for all internal variables; the forces are in balance if the internal variables are in equilibrium and the modes are
complete. -/
theorem displacementGradient_balance (dim : EAS.Dimension d q) (hdim : EAS.Spec.IsVoigt dim) (law : Law q)
    (H : (Fin d → ℝ) → Fin m → Matrix (Fin d) (Fin d) ℝ) (gps : List (Spec.GradientPoint n d)) (X u f : NodeVec n d)
    (alpha : Fin m → ℝ) (ha : EAS.applicable n d m = true) (hX : ∀ gp ∈ gps, Isoparametric X gp.dN) :
    ∃ F, EAS.calculateVector law (gradientPoints dim H gps) .forces u alpha f = some (f + F) ∧ (∀ a, ∑ I, F I a = 0) ∧
      (Complete H → EAS.calculateRtilde law (gradientPoints dim H gps) u alpha = 0 → InBalance F (X + u)) := by
  obtain ⟨w, hw0, hw⟩ := eas_vector law (gradientPoints dim H gps) u f alpha ha
  have hstrain : ∀ gp ∈ gps, ∀ (c : Fin d → ℝ) (W : Matrix (Fin d) (Fin d) ℝ) (S : Fin q → ℝ),
      S ⬝ᵥ ∑ I, (EAS.displacementGradient dim gp.detJ gp.weight gp.dN (H gp.pos)).Ed u alpha I *ᵥ rigid c W (X + u) I =
        EAS.Spec.along dim.voigt S (W * (1 + EAS.gradient gp.dN u))
          (1 + (EAS.gradient gp.dN u + EAS.sumModes (H gp.pos) alpha)) := by
    intro gp hgp c W S
    have := bop_sum hdim (1 + (EAS.gradient gp.dN u + EAS.sumModes (H gp.pos) alpha)) gp.dN (rigid c W (X + u))
    rw [gradient_rigid (hX gp hgp)] at this
    refine (congrArg (S ⬝ᵥ ·) this).trans ?_
    rw [← EAS.along_single_sum, dotProduct]
    exact Finset.sum_congr rfl fun k _ => mul_comm _ _
  have hwork : ∀ v, work (EAS.forces law (gradientPoints dim H gps) u alpha) v = (gps.map fun gp => gp.detJ * gp.weight *
      (law.stress ((EAS.displacementGradient dim gp.detJ gp.weight gp.dN (H gp.pos)).strain u alpha) ⬝ᵥ
        ∑ I, (EAS.displacementGradient dim gp.detJ gp.weight gp.dN (H gp.pos)).Ed u alpha I *ᵥ v I)).sum := by
    intro v
    rw [EAS.forces, work_list_sum, gradientPoints, List.map_map]
    congr 1
    exact List.map_congr_left fun gp _ => work_point _ _ _ _
  refine ⟨_, hw, ?_, ?_⟩
  · intro a
    have hg : ∀ gp ∈ gps, EAS.gradient gp.dN (fun _ => Pi.single a 1) = 0 := by
      intro gp hgp
      have := gradient_rigid (hX gp hgp) u (Pi.single a 1) 0
      rw [Matrix.zero_mul] at this
      rw [← this]
      congr 1
      funext I
      simp [rigid]
    have hsum : ∀ h : NodeVec n d, ∑ I, h I a = work h (fun _ => Pi.single a 1) := by
      intro h
      rw [work_eq]
      exact Finset.sum_congr rfl fun I _ => by simp
    have hEd : ∀ gp ∈ gps, ∑ I, (EAS.displacementGradient dim gp.detJ gp.weight gp.dN (H gp.pos)).Ed u alpha I *ᵥ
        (Pi.single a 1 : Fin d → ℝ) = 0 := by
      intro gp hgp
      refine (bop_sum hdim (1 + (EAS.gradient gp.dN u + EAS.sumModes (H gp.pos) alpha)) gp.dN
        (fun _ => Pi.single a 1)).trans ?_
      rw [hg gp hgp]
      funext k
      exact EAS.along_zero_left _ _ _
    have hEad : ∀ gp ∈ gps, ∀ S, ∑ I, (EAS.displacementGradient dim gp.detJ gp.weight gp.dN (H gp.pos)).Ead u alpha S I *ᵥ
        (Pi.single a 1 : Fin d → ℝ) = 0 := by
      intro gp hgp S
      funext p
      rw [Finset.sum_apply]
      have e : ∀ I, ((EAS.displacementGradient dim gp.detJ gp.weight gp.dN (H gp.pos)).Ead u alpha S I *ᵥ
          (Pi.single a 1 : Fin d → ℝ)) p = ∑ r, (Pi.single a 1 : Fin d → ℝ) r *
            EAS.Spec.along dim.voigt S (EAS.rowMatrix r (gp.dN I) * 1) (H gp.pos p) := by
        intro I
        rw [Matrix.mulVec, dotProduct]
        refine Finset.sum_congr rfl fun r _ => ?_
        show EAS.alongStress dim S _ _ * _ = _
        rw [EAS.alongStress_eq dim hdim, EAS.along_symm _ _ hdim.symm, Matrix.mul_one, mul_comm]
      simp only [e]
      rw [← along_gradient dim.voigt S gp.dN (fun _ => Pi.single a 1) 1, hg gp hgp, Matrix.zero_mul]
      exact EAS.along_zero_left _ _ _
    rw [hsum, work_sub, hwork]
    have z1 : (gps.map fun gp => gp.detJ * gp.weight *
      (law.stress ((EAS.displacementGradient dim gp.detJ gp.weight gp.dN (H gp.pos)).strain u alpha) ⬝ᵥ
        ∑ I, (EAS.displacementGradient dim gp.detJ gp.weight gp.dN (H gp.pos)).Ed u alpha I *ᵥ
          (Pi.single a 1 : Fin d → ℝ))).sum = 0 := by
      refine List.sum_eq_zero fun y hy => ?_
      obtain ⟨gp, hgp, rfl⟩ := List.mem_map.1 hy
      rw [hEd gp hgp, dotProduct_zero, mul_zero]
    rw [z1, zero_sub, neg_eq_zero]
    have z2 : ∑ I, EAS.calculateL law (gradientPoints dim H gps) u alpha I *ᵥ (Pi.single a 1 : Fin d → ℝ) = 0 := by
      have := EAS.mulLv_eq (EAS.calculateL law (gradientPoints dim H gps) u alpha) (fun _ => Pi.single a 1)
      rw [← this, EAS.calculateL_sum, EAS.mulLv_list_sum, gradientPoints, List.map_map]
      refine List.sum_eq_zero fun y hy => ?_
      obtain ⟨gp, hgp, rfl⟩ := List.mem_map.1 hy
      show EAS.Spec.mulLv _ _ = 0
      rw [EAS.mulLv_eq]
      simp only [EAS.pointL, Matrix.smul_mulVec, Matrix.add_mulVec, ← Finset.smul_sum, Finset.sum_add_distrib]
      simp only [← Matrix.mulVec_mulVec, ← Matrix.mulVec_sum]
      rw [hEd gp hgp, hEad gp hgp]
      simp
    rw [show EAS.Spec.mulLT (EAS.calculateL law (gradientPoints dim H gps) u alpha) w =
      fun I => (EAS.calculateL law (gradientPoints dim H gps) u alpha I)ᵀ *ᵥ w from rfl, work_stress, z2, dotProduct_zero]
  · intro hc hR c W hW
    rw [hw0 hR]
    have h0 : EAS.Spec.mulLT (EAS.calculateL law (gradientPoints dim H gps) u alpha) 0 = 0 := by
      funext I
      rw [EAS.mulLT_eq, Matrix.mulVec_zero]
      rfl
    rw [h0, sub_zero, hwork]
    obtain ⟨beta, hb⟩ := hc W alpha
    have hz : ∑ r, beta r * EAS.calculateRtilde law (gradientPoints dim H gps) u alpha r = 0 := by
      rw [hR]
      simp
    have hl : ∀ (l : List (Spec.GradientPoint n d)) (k : Spec.GradientPoint n d → Fin m → ℝ),
        ∑ r, beta r * (l.map k).sum r = (l.map fun gp => ∑ r, beta r * k gp r).sum := by
      intro l k
      induction l with
      | nil => simp
      | cons gp l ih =>
        simp only [List.map_cons, List.sum_cons, Pi.add_apply, mul_add, Finset.sum_add_distrib]
        rw [ih]
    rw [EAS.calculateRtilde_sum, gradientPoints, List.map_map, hl] at hz
    rw [← neg_eq_zero, ← hz, list_sum_neg]
    congr 1
    refine List.map_congr_left fun gp hgp => ?_
    rw [hstrain gp hgp]
    set F := 1 + (EAS.gradient gp.dN u + EAS.sumModes (H gp.pos) alpha) with hF
    set S := law.stress ((EAS.displacementGradient dim gp.detJ gp.weight gp.dN (H gp.pos)).strain u alpha) with hS
    have e1 : W * F = W * (1 + EAS.gradient gp.dN u) + ∑ r, beta r • H gp.pos r := by
      rw [hF, ← add_assoc, mul_add, EAS.sumModes_eq, hb]
    have e2 := along_skew hdim.symm S hW F
    rw [e1, EAS.along_add_left, EAS.along_sum_left] at e2
    have e3 : ∀ r, beta r * EAS.pointR law u alpha (EAS.displacementGradient dim gp.detJ gp.weight gp.dN (H gp.pos)) r =
        gp.detJ * gp.weight * EAS.Spec.along dim.voigt S (beta r • H gp.pos r) F := by
      intro r
      rw [EAS.along_smul_left, ← columnM_along hdim, dotProduct_comm]
      show beta r * (gp.detJ * gp.weight * _) = _
      rw [mul_left_comm]
      rfl
    simp only [Function.comp_apply, e3]
    rw [← Finset.mul_sum]
    linear_combination (-(gp.detJ * gp.weight)) * e2

/-! ### Examples -/

/-- The unit square. -/
def Spec.square : NodeVec 4 2 := ![![0, 0], ![1, 0], ![0, 1], ![1, 1]]

/-- The derivatives of the bilinear shape functions at a point of the unit square. -/
def Spec.bilinear (p : Fin 2 → ℝ) : Fin 4 → Fin 2 → ℝ :=
  ![![-(1 - p 1), -(1 - p 0)], ![1 - p 1, -(p 0)], ![-(p 1), 1 - p 0], ![p 1, p 0]]

theorem square_isoparametric (p : Fin 2 → ℝ) : Isoparametric Spec.square (Spec.bilinear p) where
  unity j := by
    fin_cases j <;> simp [Spec.bilinear, Fin.sum_univ_succ]
  geometry i j := by
    fin_cases i <;> fin_cases j <;> simp [Spec.bilinear, Spec.square, Fin.sum_univ_succ]

/-- A point of the four-node element with Green-Lagrange strains. -/
noncomputable def Spec.squarePoint (weight : ℝ) (p : Fin 2 → ℝ) : Point 4 2 3 where
  detJ := 1
  weight := weight
  strain u := EAS.plane.greenLagrange (EAS.gradient (Spec.bilinear p) u)
  bop u I := EAS.plane.bop (1 + EAS.gradient (Spec.bilinear p) u) (Spec.bilinear p I)
  kg _ _ _ _ := 0

theorem squarePoint_operator (weight : ℝ) (p : Fin 2 → ℝ) (u : NodeVec 4 2) :
    GreenLagrangeOperator EAS.plane Spec.square u ((Spec.squarePoint weight p).bop u) :=
  ⟨Spec.bilinear p, square_isoparametric p, fun _ => rfl⟩

/-- Any quadrature rule, any law and any displacement. -/
example (law : Law 3) (rule : List (ℝ × (Fin 2 → ℝ))) (u f : NodeVec 4 2) :
    ∃ F, NonLinearElastic.calculateVector false law (rule.map fun p => Spec.squarePoint p.1 p.2) u f = f + F ∧
      InBalance F (Spec.square + u) :=
  nonlinear_balance EAS.plane EAS.plane_isVoigt law _ _ u f fun gp hgp => by
    obtain ⟨p, -, rfl⟩ := List.mem_map.1 hgp
    exact squarePoint_operator _ _ u

/-- Linear strains are those at the undeformed state. -/
example (C : Matrix (Fin 3) (Fin 3) ℝ) (rule : List (ℝ × (Fin 2 → ℝ))) (u f : NodeVec 4 2) :
    ∃ F, LinearElastic.calculateVector false C (rule.map fun p => ⟨1, p.1, (Spec.squarePoint p.1 p.2).bop 0⟩) u f = f + F ∧
      InBalance F Spec.square :=
  linear_balance EAS.plane EAS.plane_isVoigt C _ _ u f fun gp hgp => by
    obtain ⟨p, -, rfl⟩ := List.mem_map.1 hgp
    exact squarePoint_operator p.1 p.2 0

/-- Five modes of enhanced strains, not in equilibrium. -/
example (law : Law 3) (M : (Fin 2 → ℝ) → Matrix (Fin 3) (Fin 5) ℝ) (rule : List (ℝ × (Fin 2 → ℝ))) (u f : NodeVec 4 2)
    (alpha : Fin 5 → ℝ) :
    ∃ F, EAS.calculateVector law ((rule.map fun p => (Spec.squarePoint p.1 p.2, M p.2)).map fun gp => EAS.additive gp.1 gp.2)
      .forces u alpha f = some (f + F) ∧ InBalance F (Spec.square + u) :=
  additive_balance EAS.plane EAS.plane_isVoigt law _ _ u u f alpha rfl fun gp hgp => by
    obtain ⟨p, -, rfl⟩ := List.mem_map.1 hgp
    exact squarePoint_operator _ _ u

/-- Four modes that turn with the element, not in equilibrium. -/
example (law : Law 3) (p : Fin 2 → ℝ) (u f : NodeVec 4 2) (alpha : Fin 4 → ℝ) :
    ∃ F, EAS.calculateVector law [EAS.displacementGradientTransposed EAS.plane EAS.val2 1 1 (Spec.bilinear p)
      (Spec.bilinear EAS.center) (EAS.ansatzH EAS.h4 ⟨fun _ => 1⟩ p)] .forces u alpha f = some (f + F) ∧
      InBalance F (Spec.square + u) :=
  transposed_balance EAS.plane EAS.plane_isVoigt EAS.val2 law _ _ u f alpha rfl fun gp hgp => by
    obtain rfl := List.mem_singleton.1 hgp
    exact ⟨_, _, _, _, _, square_isoparametric p, square_isoparametric _, rfl⟩

/-- Assumed stresses with five parameters. -/
example (P : Fin 4 → Matrix (Fin 3) (Fin 5) ℝ) (pos : Fin 4 → Fin 2 → ℝ) (st : AssumedStress.State 3 5 4) (u f : NodeVec 4 2) :
    ∃ F, AssumedStress.calculateVector (fun i => ⟨Spec.squarePoint 1 (pos i), P i⟩) st .forces u f = some (f + F) ∧
      InBalance F (Spec.square + u) :=
  assumedStress_balance EAS.plane EAS.plane_isVoigt _ st _ u u f rfl fun _ => squarePoint_operator _ _ u

/-- Displacements and one pressure. -/
example (c : DisplacementPressure.Driver 3) (p0 : Fin 2 → ℝ) (u : NodeVec 4 2) (p : Fin 1 → ℝ)
    (f : DisplacementPressure.Vec 4 1 2) :
    ∃ F, (DisplacementPressure.calculateVector c [⟨Spec.squarePoint 1 p0, fun _ => 1⟩] u p f).u = f.u + F ∧
      InBalance F (Spec.square + u) :=
  displacementPressure_balance EAS.plane EAS.plane_isVoigt c _ _ u p f fun gp hgp => by
    obtain rfl := List.mem_singleton.1 hgp
    exact squarePoint_operator _ _ u

/-- A point of a shell with four nodes anywhere in space. -/
def Spec.shellPoint (X : NodeVec 4 3) (p : Fin 2 → ℝ) : Shell.ShellPoint 4 where
  detJ := 1
  weight := 1
  J a := ∑ I, Spec.bilinear p I a • X I
  H i := ∑ I, (![![0, 0, 1], ![0, 0, -1], ![0, 0, -1], ![0, 0, 1]] : Fin 4 → Fin 3 → ℝ) I i • X I
  BV := 0
  dN := Spec.bilinear p
  ddN := ![![0, 0, 1], ![0, 0, -1], ![0, 0, -1], ![0, 0, 1]]

theorem shellPoint_isoparametric (X : NodeVec 4 3) (p : Fin 2 → ℝ) : ShellIsoparametric X (Spec.shellPoint X p) where
  unity a := (square_isoparametric p).unity a
  geometry _ := rfl
  unity2 i := by
    fin_cases i <;> simp [Spec.shellPoint, Fin.sum_univ_succ]
  geometry2 _ := rfl

/-- A shell and a membrane on the same nodes. -/
example (emodul nu t : ℝ) (law : Law 3) (X u f : NodeVec 4 3) (p : Fin 2 → ℝ) :
    (∃ F, Shell.calculateVector emodul nu t [Spec.shellPoint X p] .forces u f = some (f + F) ∧ InBalance F (X + u)) ∧
    ∃ F, NonLinearElastic.calculateVector false law [Membrane.point 1 1 (Spec.shellPoint X p).J (Spec.bilinear p)] u f = f + F ∧
      InBalance F (X + u) := by
  refine ⟨shell_balance _ _ _ _ X u f fun gp hgp => ?_, membrane_balance law _ X u f fun gp hgp => ?_⟩
  · obtain rfl := List.mem_singleton.1 hgp
    exact shellPoint_isoparametric X p
  · obtain rfl := List.mem_singleton.1 hgp
    exact ⟨_, _, (shellPoint_isoparametric X p).toSurfaceIsoparametric, rfl⟩

/-- Two points placed symmetrically in the unit square with the modes `H4`: the undeformed element under initial stresses is
in equilibrium, whatever the law. -/
example (law : Law 3) (f : NodeVec 4 2) :
    ∃ F, EAS.calculateVector law (gradientPoints EAS.plane (EAS.ansatzH EAS.h4 ⟨fun _ => 1⟩)
      [⟨1, 1 / 2, ![1 / 4, 1 / 4], Spec.bilinear ![1 / 4, 1 / 4]⟩, ⟨1, 1 / 2, ![3 / 4, 3 / 4], Spec.bilinear ![3 / 4, 3 / 4]⟩])
      .forces 0 0 f = some (f + F) ∧ InBalance F (Spec.square + 0) := by
  obtain ⟨F, h1, -, h2⟩ := displacementGradient_balance EAS.plane EAS.plane_isVoigt law (EAS.ansatzH EAS.h4 ⟨fun _ => 1⟩)
      [⟨1, 1 / 2, ![1 / 4, 1 / 4], Spec.bilinear ![1 / 4, 1 / 4]⟩, ⟨1, 1 / 2, ![3 / 4, 3 / 4], Spec.bilinear ![3 / 4, 3 / 4]⟩]
      Spec.square 0 f 0 rfl (by
        intro gp hgp
        rcases List.mem_cons.1 hgp with rfl | hgp
        · exact square_isoparametric _
        · obtain rfl := List.mem_singleton.1 hgp
          exact square_isoparametric _)
  refine ⟨F, h1, h2 (h4_complete ⟨fun _ => 1⟩ (by simp) fun p => p) ?_⟩
  have hH : ∀ p, EAS.ansatzH EAS.h4 ⟨fun _ => 1⟩ p = EAS.h4 p := by
    intro p
    funext i
    simp [EAS.ansatzH, EAS.transformDisplacementGradient, EAS.Geometry.integrationElement]
  have hg : ∀ dN : Fin 4 → Fin 2 → ℝ, EAS.gradient dN 0 = 0 := fun dN => by
    ext i j
    simp [EAS.gradient]
  have hm : ∀ H : Fin 4 → Matrix (Fin 2) (Fin 2) ℝ, EAS.sumModes H 0 = 0 := fun H => by simp [EAS.sumModes_eq]
  rw [EAS.calculateRtilde_sum]
  simp only [gradientPoints, List.map_cons, List.map_nil, List.sum_cons, List.sum_nil, EAS.pointR, EAS.displacementGradient,
    hH, hg, hm, add_zero]
  rw [← smul_add, ← Matrix.add_mulVec, ← Matrix.transpose_add]
  have hz : (Matrix.of fun k p => EAS.plane.columnM 1 (EAS.h4 ![1 / 4, 1 / 4] p) k) +
      (Matrix.of fun k p => EAS.plane.columnM 1 (EAS.h4 ![3 / 4, 3 / 4] p) k) = (0 : Matrix (Fin 3) (Fin 4) ℝ) := by
    ext k p
    fin_cases k <;> fin_cases p <;> simp [EAS.plane, EAS.columnM2, EAS.h4] <;> norm_num
  rw [hz]
  simp

end Ikarus.Element
