import Verif.FE.TurnProps

/-!
C114, membranes and shells: forces and matrices of turned surfaces are the turned forces and matrices.
-/

namespace Ikarus.Element

open Matrix Element.Spec
open scoped Topology

variable {n d q : Nat} {R Q : Matrix (Fin d) (Fin d) ℝ} {T : Matrix (Fin q) (Fin q) ℝ}

/-! ### Strains as functions -/

theorem turn_line (a : NodeVec n d) (w v : NodeVec n d) (t : ℝ) :
    a + turn Q (w + t • v) = a + turn Q w + t • turn Q v := by
  rw [turn_add, turn_smul, add_assoc]

/-- The displacement of one node along one axis. -/
def Spec.spike (I : Fin n) (c : Fin d) : NodeVec n d := fun J b => if J = I then if b = c then 1 else 0 else 0

theorem sum_spike (B : Fin n → Fin d → ℝ) (I : Fin n) (c : Fin d) : ∑ J, ∑ b, B J b * spike I c J b = B I c := by
  simp [spike]

theorem sum_turn_spike (B : Fin n → Fin d → ℝ) (I : Fin n) (c : Fin d) :
    ∑ J, ∑ b, B J b * turn Q (spike I c) J b = ∑ b, B I b * Q b c := by
  have : ∀ J b, turn Q (spike I c) J b = if J = I then Q b c else 0 := by
    intro J b
    unfold turn spike
    by_cases h : J = I <;> simp [h, Matrix.mulVec, dotProduct]
  simp [this]

theorem turned_bop {p p' : Point n d q} (a w : NodeVec n d) (hs : ∀ w, p'.strain (a + turn Q w) = T *ᵥ p.strain w)
    (hQ : Qᵀ * Q = 1) (h : StrainContract p w) (h' : StrainContract p' (a + turn Q w)) (I : Fin n) :
    p'.bop (a + turn Q w) I = T * p.bop w I * Qᵀ := by
  have key : p'.bop (a + turn Q w) I * Q = T * p.bop w I := by
    ext k c
    have v1 := hasDerivAt_pi.1 (h'.strain (turn Q (spike I c))) k
    have v2 : HasDerivAt (fun t : ℝ => (T *ᵥ p.strain (w + t • spike I c)) k)
        (∑ l, T k l * ∑ J, ∑ b, p.bop w J l b * spike I c J b) 0 :=
      HasDerivAt.fun_sum (u := Finset.univ) fun l _ => (hasDerivAt_pi.1 (h.strain (spike I c)) l).const_mul (T k l)
    simp only [← turn_line, hs] at v1
    have := v1.unique v2
    rw [sum_turn_spike (fun J b => p'.bop (a + turn Q w) J k b)] at this
    rw [Matrix.mul_apply, Matrix.mul_apply, this]
    exact Finset.sum_congr rfl fun l _ => by rw [sum_spike (fun J b => p.bop w J l b)]
  rw [← key, Matrix.mul_assoc, orth_comm hQ, Matrix.mul_one]

/-- C114, strains. If a strain measure as a function of the displacements is turned, so are its derivatives: the relation of
the strains is enough. -/
theorem turnedStrain_of_strain (hQ : Qᵀ * Q = 1) {p p' : Point n d q} (hd : p'.detJ = p.detJ) (hw : p'.weight = p.weight)
    (a u : NodeVec n d) (hs : ∀ w, p'.strain (a + turn Q w) = T *ᵥ p.strain w) (hp : ∀ᶠ w in 𝓝 u, StrainContract p w)
    (hp' : ∀ᶠ w in 𝓝 u, StrainContract p' (a + turn Q w)) : TurnedStrain Q T u (a + turn Q u) p p' := by
  refine ⟨hd, hw, hs u, turned_bop a u hs hQ hp.self_of_nhds hp'.self_of_nhds, fun S I J => ?_⟩
  have key : p'.kg (a + turn Q u) S I J * Q = Q * p.kg u (Tᵀ *ᵥ S) I J := by
    ext r c
    have hline : Filter.Tendsto (fun t : ℝ => u + t • (spike J c : NodeVec n d)) (𝓝 0) (𝓝 u) := by
      have : Continuous fun t : ℝ => u + t • (spike J c : NodeVec n d) := by fun_prop
      have := this.tendsto 0
      rwa [zero_smul, add_zero] at this
    have v1 := hp'.self_of_nhds.bop (turn Q (spike J c)) S I r
    have v2 : HasDerivAt (fun t : ℝ => ∑ b, Q r b * ∑ k, p.bop (u + t • spike J c) I k b * (Tᵀ *ᵥ S) k)
        (∑ b, Q r b * ∑ L, ∑ e, p.kg u (Tᵀ *ᵥ S) I L b e * spike J c L e) 0 :=
      HasDerivAt.fun_sum fun b _ => (hp.self_of_nhds.bop (spike J c) _ I b).const_mul (Q r b)
    simp only [← turn_line] at v1
    have hE : (fun t : ℝ => ∑ k, p'.bop (a + turn Q (u + t • spike J c)) I k r * S k) =ᶠ[𝓝 0]
        fun t : ℝ => ∑ b, Q r b * ∑ k, p.bop (u + t • spike J c) I k b * (Tᵀ *ᵥ S) k := by
      filter_upwards [hline.eventually hp, hline.eventually hp'] with t h1 h2
      generalize u + t • (spike J c : NodeVec n d) = w at h1 h2 ⊢
      have e : ∑ k, p'.bop (a + turn Q w) I k r * S k = ((p'.bop (a + turn Q w) I)ᵀ *ᵥ S) r := rfl
      rw [e, turned_bop a w hs hQ h1 h2, Matrix.transpose_mul, Matrix.transpose_mul, Matrix.transpose_transpose,
        ← Matrix.mulVec_mulVec, ← Matrix.mulVec_mulVec]
      rfl
    have := v1.unique (v2.congr_of_eventuallyEq hE)
    rw [sum_turn_spike (fun L b => p'.kg (a + turn Q u) S I L r b)] at this
    rw [Matrix.mul_apply, Matrix.mul_apply, this]
    exact Finset.sum_congr rfl fun b _ => by rw [sum_spike (fun L e => p.kg u (Tᵀ *ᵥ S) I L b e)]
  rw [← key, Matrix.mul_assoc, orth_comm hQ, Matrix.mul_one]

/-! ### Membranes -/

section Surfaces

variable {R Q : Matrix (Fin 3) (Fin 3) ℝ} {X X' u u' : NodeVec n 3}

theorem turned_start (ht : Turned R Q X X' u u') : ∃ c, u' = affine c Q X - X' + turn Q u := by
  obtain ⟨c, hc⟩ := ht.shape
  refine ⟨c, ?_⟩
  have : u' = affine c Q (X + u) - X' := by rw [← hc, add_sub_cancel_left]
  rw [this]
  funext I
  simp only [Pi.add_apply, Pi.sub_apply, affine, turn, Matrix.mulVec_add]
  abel

theorem tangent_turn {c : Fin 3 → ℝ} (ht : Turned R Q X X' u u') {J : Fin 2 → Fin 3 → ℝ} {dN : Fin n → Fin 2 → ℝ}
    (hX : SurfaceIsoparametric X J dN) (w : NodeVec n 3) (k : Fin 2) :
    Membrane.jcur (fun b => R *ᵥ J b) dN (affine c Q X - X' + turn Q w) k = Q *ᵥ Membrane.jcur J dN w k := by
  obtain ⟨a, rfl⟩ := ht.mesh
  have h0 : ∀ x : Fin 3 → ℝ, ∑ I, dN I k • x = 0 := fun x => by rw [← Finset.sum_smul, hX.unity, zero_smul]
  unfold Membrane.jcur Membrane.gradu
  simp only [Pi.add_apply, Pi.sub_apply, affine, turn, smul_add, smul_sub, Finset.sum_add_distrib, Finset.sum_sub_distrib,
    h0, hX.geometry, Matrix.mulVec_add, Matrix.mulVec_sum, Matrix.mulVec_smul]
  abel

theorem membraneStrain_turn {c : Fin 3 → ℝ} (ht : Turned R Q X X' u u') {J : Fin 2 → Fin 3 → ℝ} {dN : Fin n → Fin 2 → ℝ}
    (hX : SurfaceIsoparametric X J dN) (w : NodeVec n 3) :
    Membrane.value (fun b => R *ᵥ J b) dN (affine c Q X - X' + turn Q w) = Membrane.value J dN w := by
  have hval : ∀ (J : Fin 2 → Fin 3 → ℝ) (w : NodeVec n 3), Membrane.value J dN w = ![
      (Membrane.jcur J dN w 0 ⬝ᵥ Membrane.jcur J dN w 0 - J 0 ⬝ᵥ J 0) / 2,
      (Membrane.jcur J dN w 1 ⬝ᵥ Membrane.jcur J dN w 1 - J 1 ⬝ᵥ J 1) / 2,
      Membrane.jcur J dN w 0 ⬝ᵥ Membrane.jcur J dN w 1 - J 0 ⬝ᵥ J 1] := by
    intro J w
    funext k
    fin_cases k
    · simp only [Membrane.value, Membrane.jcur, Fin.zero_eta, Matrix.cons_val_zero, dotProduct_add,
        add_dotProduct, dotProduct_comm (Membrane.gradu dN w 0) (J 0)]
      ring
    · simp only [Membrane.value, Membrane.jcur, Fin.mk_one, Matrix.cons_val_one, Matrix.cons_val_zero,
        dotProduct_add, add_dotProduct, dotProduct_comm (Membrane.gradu dN w 1) (J 1)]
      ring
    · rfl
  rw [hval, hval]
  simp only [tangent_turn ht hX, orth_dot ht.orthQ, orth_dot ht.orthR]

/-- C114, membranes. If the surface is turned by `R` and its deformed shape by `Q`, the membrane strains stay the same and
their derivatives are turned by `Q`. -/
theorem membrane_turned (ht : Turned R Q X X' u u') (detJ weight : ℝ) {J : Fin 2 → Fin 3 → ℝ} {dN : Fin n → Fin 2 → ℝ}
    (hX : SurfaceIsoparametric X J dN) :
    TurnedStrain Q 1 u u' (Membrane.point detJ weight J dN) (Membrane.point detJ weight (fun b => R *ᵥ J b) dN) := by
  obtain ⟨c, rfl⟩ := turned_start ht
  refine turnedStrain_of_strain ht.orthQ (p := Membrane.point detJ weight J dN)
    (p' := Membrane.point detJ weight (fun b => R *ᵥ J b) dN) rfl rfl _ u (fun w => ?_)
    (.of_forall fun w => Membrane.membrane_contract _ _ _ _ w) (.of_forall fun w => Membrane.membrane_contract _ _ _ _ _)
  rw [Matrix.one_mulVec]
  exact membraneStrain_turn ht hX w

/-! ### Shells -/

/-- The integration point of the turned shell: first and second derivatives of the position are turned, the second
fundamental form is the same. -/
def Spec.turnedShell (R : Matrix (Fin 3) (Fin 3) ℝ) (p : Shell.ShellPoint n) : Shell.ShellPoint n :=
  { p with J := fun b => R *ᵥ p.J b, H := fun i => R *ᵥ p.H i }

theorem normal_turn {c : Fin 3 → ℝ} (ht : Turned R Q X X' u u') (hdet : Q.det = 1) {p : Shell.ShellPoint n}
    (hX : ShellIsoparametric X p) (w : NodeVec n 3) :
    Shell.a3N (turnedShell R p) (affine c Q X - X' + turn Q w) = Q *ᵥ Shell.a3N p w := by
  have hj : ∀ b, Shell.jcur (turnedShell R p) (affine c Q X - X' + turn Q w) b = Q *ᵥ Shell.jcur p w b := fun b =>
    tangent_turn ht hX.toSurfaceIsoparametric w b
  rw [Shell.a3N, hj, hj, Shell.rotate_cross Q ht.orthQ hdet, Shell.a3N]

theorem bendingStrain_turn {c : Fin 3 → ℝ} (ht : Turned R Q X X' u u') (hdet : Q.det = 1) {p : Shell.ShellPoint n}
    (hX : ShellIsoparametric X p) (w : NodeVec n 3) :
    Shell.kappaV (turnedShell R p) (affine c Q X - X' + turn Q w) = Shell.kappaV p w := by
  have hN := normal_turn (c := c) ht hdet hX w
  have ha : Shell.a3 (turnedShell R p) (affine c Q X - X' + turn Q w) = Q *ᵥ Shell.a3 p w := by
    show Shell.normalized (Shell.a3N (turnedShell R p) (affine c Q X - X' + turn Q w)) = Q *ᵥ Shell.normalized (Shell.a3N p w)
    rw [Shell.normalized_eq, Shell.normalized_eq, Matrix.mulVec_smul, Shell.norm, hN, orth_dot ht.orthQ, Shell.norm]
  have hh : ∀ i, Shell.hcur (turnedShell R p) (affine c Q X - X' + turn Q w) i = Q *ᵥ Shell.hcur p w i := by
    intro i
    obtain ⟨a, rfl⟩ := ht.mesh
    have h0 : ∀ x : Fin 3 → ℝ, ∑ I, p.ddN I i • x = 0 := fun x => by rw [← Finset.sum_smul, hX.unity2, zero_smul]
    unfold Shell.hcur
    simp only [turnedShell, Pi.add_apply, Pi.sub_apply, affine, turn, smul_add, smul_sub, Finset.sum_add_distrib,
      Finset.sum_sub_distrib, h0, hX.geometry2, Matrix.mulVec_add, Matrix.mulVec_sum, Matrix.mulVec_smul]
    abel
  funext i
  rw [Shell.kappaV, Shell.kappaV, hh, ha, orth_dot ht.orthQ]
  rfl

/-- C114, shells. If the surface is turned by `R` and its deformed shape by the rotation `Q`, the bending strains stay the same
and their derivatives are turned by `Q`. -/
theorem bending_turned (ht : Turned R Q X X' u u') (hdet : Q.det = 1) {p : Shell.ShellPoint n} (hX : ShellIsoparametric X p)
    (hu : Shell.Spec.Regular p u) : TurnedStrain Q 1 u u' (Shell.bendingPoint p) (Shell.bendingPoint (turnedShell R p)) := by
  obtain ⟨c, rfl⟩ := turned_start ht
  have hreg : ∀ᶠ w in 𝓝 u, Shell.Spec.Regular p w := by
    have hc : Continuous fun w : NodeVec n 3 => Shell.a3N p w ⬝ᵥ Shell.a3N p w := by
      unfold Shell.a3N Shell.jcur Membrane.jcur Membrane.gradu
      simp only [cross_apply, dotProduct, Fin.sum_univ_three]
      simp
      fun_prop
    exact hc.continuousAt.eventually (lt_mem_nhds hu)
  refine turnedStrain_of_strain ht.orthQ (p := Shell.bendingPoint p) (p' := Shell.bendingPoint (turnedShell R p)) rfl rfl _ u (fun w => ?_)
    (hreg.mono fun w hw => Shell.bending_contract p w hw) (hreg.mono fun w hw => Shell.bending_contract _ _ ?_)
  · rw [Matrix.one_mulVec]
    exact bendingStrain_turn ht hdet hX w
  · rw [normal_turn ht hdet hX, orth_dot ht.orthQ]
    exact hw

theorem tangentAt_turn (hR : Rᵀ * R = 1) (emodul nu : ℝ) (p : Shell.ShellPoint n) :
    Shell.tangentAt emodul nu (turnedShell R p) = Shell.tangentAt emodul nu p := by
  unfold Shell.tangentAt
  congr 2
  unfold Shell.metric turnedShell
  simp only [orth_dot hR]

/-- The shell as a skill of an element (kirchhoffloveshell.hh:232-334). -/
noncomputable def _root_.Ikarus.Skill.shell (emodul nu thickness : ℝ) (gps : List (Shell.ShellPoint n)) : Skill n 3 where
  scalar u := Shell.calculateScalar emodul nu thickness gps .mechanicalPotentialEnergy u
  vector u f := Shell.calculateVector emodul nu thickness gps .forces u f
  matrix u K := Shell.calculateMatrix emodul nu thickness gps .stiffness u K

/-- C114, shells. Forces, matrix and energy of a shell whose surface is turned by `R` and whose deformed shape is turned by the
rotation `Q`: turned forces, the turned matrix, the same energy. -/
theorem shell_turn (emodul nu thickness : ℝ) (ht : Turned R Q X X' u u') (hdet : Q.det = 1) {gps : List (Shell.ShellPoint n)}
    (hX : ∀ gp ∈ gps, ShellIsoparametric X gp) (hu : ∀ gp ∈ gps, Shell.Spec.Regular gp u) :
    Ikarus.Spec.TurnedSkill Q u u' (Skill.shell emodul nu thickness gps) (Skill.shell emodul nu thickness (gps.map (turnedShell R))) ∧
      Ikarus.Spec.SameEnergy u u' (Skill.shell emodul nu thickness gps)
        (Skill.shell emodul nu thickness (gps.map (turnedShell R))) := by
  have hm : ∀ gp ∈ gps, TurnedStrain Q 1 u u' (Shell.membranePoint gp) (Shell.membranePoint (turnedShell R gp)) := fun gp h =>
    membrane_turned ht _ _ (hX gp h).toSurfaceIsoparametric
  have hb : ∀ gp ∈ gps, TurnedStrain Q 1 u u' (Shell.bendingPoint gp) (Shell.bendingPoint (turnedShell R gp)) := fun gp h =>
    bending_turned ht hdet (hX gp h) (hu gp h)
  have hlm : ∀ gp : Shell.ShellPoint n, Shell.membraneLaw emodul nu thickness (turnedShell R gp) = Shell.membraneLaw emodul nu thickness gp := fun gp => by
    unfold Shell.membraneLaw
    rw [tangentAt_turn ht.orthR]
  have hlb : ∀ gp : Shell.ShellPoint n, Shell.bendingLaw emodul nu thickness (turnedShell R gp) = Shell.bendingLaw emodul nu thickness gp := fun gp => by
    unfold Shell.bendingLaw
    rw [tangentAt_turn ht.orthR]
  have hF : ∀ P : Shell.ShellPoint n → Shell.ShellPoint n → Prop, (∀ gp ∈ gps, P gp (turnedShell R gp)) →
      List.Forall₂ P gps (gps.map (turnedShell R)) := fun P h => by
    simpa using forall_map gps id (turnedShell R) h
  have hf := turn_forall_sum (Q := Q) (hF (fun a b => b = turnedShell R a) fun _ _ => rfl)
    (fun gp => NonLinearElastic.pointForce (Shell.membraneLaw emodul nu thickness gp) u (Shell.membranePoint gp) +
      NonLinearElastic.pointForce (Shell.bendingLaw emodul nu thickness gp) u (Shell.bendingPoint gp))
    (fun gp => NonLinearElastic.pointForce (Shell.membraneLaw emodul nu thickness gp) u' (Shell.membranePoint gp) +
      NonLinearElastic.pointForce (Shell.bendingLaw emodul nu thickness gp) u' (Shell.bendingPoint gp))
    (fun gp h y hy => by
      subst hy
      rw [hlm, hlb, turn_add, pointForce_turn (hm gp h) (turnedLaw_one _ _), pointForce_turn (hb gp h) (turnedLaw_one _ _)])
  have hK := turnMat_forall_sum (Q := Q) (hF (fun a b => b = turnedShell R a) fun _ _ => rfl)
    (fun gp => NonLinearElastic.pointMatrix (Shell.membraneLaw emodul nu thickness gp) u (Shell.membranePoint gp) +
      NonLinearElastic.pointMatrix (Shell.bendingLaw emodul nu thickness gp) u (Shell.bendingPoint gp))
    (fun gp => NonLinearElastic.pointMatrix (Shell.membraneLaw emodul nu thickness gp) u' (Shell.membranePoint gp) +
      NonLinearElastic.pointMatrix (Shell.bendingLaw emodul nu thickness gp) u' (Shell.bendingPoint gp))
    (fun gp h y hy => by
      subst hy
      rw [hlm, hlb, turnMat_add, pointMatrix_turn (hm gp h) (turnedLaw_one _ _), pointMatrix_turn (hb gp h) (turnedLaw_one _ _)])
  have hmat : ∀ (l : List (Shell.ShellPoint n)) (w : NodeVec n 3) (K0 : BlockMat n 3), Symmetric K0 →
      Shell.calculateMatrix emodul nu thickness l .stiffness w K0 = some (K0 + Shell.matrixOf emodul nu thickness l w) := by
    intro l w K0 h0
    rw [Shell.calculateMatrix_closed, Shell.mirror_eq K0 _ h0 (Shell.matrixOf_symmetric emodul nu thickness l w)]
    intro I J h
    rw [if_pos h]
  refine ⟨⟨fun f => ?_, fun K h0 => ?_, fun K L h0 hL => ?_⟩, ?_⟩
  · unfold Skill.shell
    dsimp only
    rw [Shell.calculateVector_eq, Shell.calculateVector_eq, Option.map_some, turn_add]
    exact congrArg some (congrArg _ hf)
  · unfold Skill.shell
    dsimp only
    rw [hmat _ _ _ h0, hmat _ _ _ (turnMat_symmetric Q h0), Option.map_some, turnMat_add]
    exact congrArg some (congrArg _ hK)
  · have hL' : Shell.calculateMatrix emodul nu thickness gps .stiffness u K = some L := hL
    rw [hmat _ _ _ h0] at hL'
    obtain rfl := Option.some.inj hL'
    exact symmetric_add' h0 (Shell.matrixOf_symmetric _ _ _ _ _)
  · unfold Ikarus.Spec.SameEnergy Skill.shell
    dsimp only
    rw [Shell.calculateScalar_eq, Shell.calculateScalar_eq]
    refine congrArg some (forall_sum (hF (fun a b => b = turnedShell R a) fun _ _ => rfl) _ _ fun gp h y hy => ?_)
    subst hy
    rw [hlm, hlb, (hm gp h).strain, (hb gp h).strain, (turnedLaw_one _ _).energy, (turnedLaw_one _ _).energy]
    rfl

end Surfaces

/-! ### Examples -/

/-- A rotation about the third axis. -/
noncomputable def Spec.turnSpace : Matrix (Fin 3) (Fin 3) ℝ := !![3 / 5, -4 / 5, 0; 4 / 5, 3 / 5, 0; 0, 0, 1]

theorem turnSpace_orth : Spec.turnSpaceᵀ * Spec.turnSpace = 1 := by
  ext i j
  fin_cases i <;> fin_cases j <;> simp [Spec.turnSpace, Matrix.mul_apply, Fin.sum_univ_three] <;> norm_num

theorem turnSpace_det : Spec.turnSpace.det = 1 := by
  rw [Matrix.det_fin_three]
  simp [Spec.turnSpace]
  norm_num

/-- Membranes of any shape. -/
example (X u : NodeVec 4 3) (p : Fin 2 → ℝ) := membrane_turned (turned_motions turnSpace_orth ![1, 2, 3] 0 X u).1 1 1
  (shellPoint_isoparametric X p).toSurfaceIsoparametric

/-- A twisted shell with any displacements that keep it regular, at the middle. -/
example (u : NodeVec 4 3) (hu : Shell.Spec.Regular (Spec.shellPoint ![![0, 0, 0], ![1, 0, 0], ![0, 1, 0], ![1, 1, 1]] ![1 / 2, 1 / 2]) u) :=
  shell_turn 1000 (1 / 5) (1 / 10) (turned_motions turnSpace_orth 0 ![1, 2, 3] ![![0, 0, 0], ![1, 0, 0], ![0, 1, 0], ![1, 1, 1]] u).2
    turnSpace_det (gps := [Spec.shellPoint ![![0, 0, 0], ![1, 0, 0], ![0, 1, 0], ![1, 1, 1]] ![1 / 2, 1 / 2]])
    (fun gp hgp => by obtain rfl := List.mem_singleton.1 hgp; exact shellPoint_isoparametric _ _)
    (fun gp hgp => by obtain rfl := List.mem_singleton.1 hgp; exact hu)

/-- At rest the shell is regular. -/
example := bending_turned (turned_motions turnSpace_orth 0 ![1, 2, 3] ![![0, 0, 0], ![1, 0, 0], ![0, 1, 0], ![1, 1, 1]] 0).2
    turnSpace_det (shellPoint_isoparametric _ ![1 / 2, 1 / 2]) (by
      show 0 < Shell.a3N _ _ ⬝ᵥ Shell.a3N _ _
      simp [Shell.a3N, Shell.jcur, Membrane.jcur, Membrane.gradu, Spec.shellPoint, Spec.bilinear, cross_apply, dotProduct,
        Fin.sum_univ_three, Fin.sum_univ_four]
      norm_num)

end Ikarus.Element
