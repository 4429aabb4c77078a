import Verif.FE.DisplacementPressureModel
import Verif.FE.MembraneProps
import Verif.Material.VolumetricModel
import Mathlib.Tactic.FieldSimp
import Mathlib.Algebra.BigOperators.Field

/-!
The displacement-pressure element: the vector is the gradient of the scalar, the matrix its derivative, and what the
element computes for the material it is given.
-/

namespace Ikarus.Element.DisplacementPressure

open Matrix Ikarus.Element.Spec

variable {n m d q : Nat}

/-! ### Specification -/

/-- The vector is the gradient of the scalar in displacements and pressures. -/
def Spec.GradientAt (E : NodeVec n d → (Fin m → ℝ) → ℝ) (f : Vec n m d) (u : NodeVec n d) (p : Fin m → ℝ) : Prop :=
  ∀ v w, HasDerivAt (fun t : ℝ => E (u + t • v) (p + t • w)) (work f.u v + ∑ i, f.p i * w i) 0

/-- The matrix is the derivative of the vector. -/
def Spec.TangentAt (f : NodeVec n d → (Fin m → ℝ) → Vec n m d) (K : Mat n m d) (u : NodeVec n d) (p : Fin m → ℝ) :
    Prop :=
  ∀ v w,
    HasDerivAt (fun t : ℝ => (f (u + t • v) (p + t • w)).u)
      (mul K.uu v + fun I a => ∑ j, K.up I j a * w j) 0 ∧
    HasDerivAt (fun t : ℝ => (f (u + t • v) (p + t • w)).p)
      (fun i => ∑ J, ∑ b, K.pu i J b * v J b + ∑ j, K.pp i j * w j) 0

/-- Symmetry of the matrix. -/
def Spec.SymmetricMat (K : Mat n m d) : Prop :=
  Symmetric K.uu ∧ (∀ I j a, K.up I j a = K.pu j I a) ∧ ∀ i j, K.pp i j = K.pp j i

/-! ### Loops -/

theorem foldl_addAt_row {r c : Nat} {V : Type} [AddCommMonoid V] (M : Fin c → V) (i : Fin r) (l : List (Fin c))
    (hl : l.Nodup) : ∀ K : Fin r → Fin c → V, l.foldl (fun K j => addAt K i j (M j)) K =
      fun I J => if I = i ∧ J ∈ l then K I J + M J else K I J := by
  induction l with
  | nil => intro K; simp
  | cons a l ih =>
    intro K
    rw [List.foldl_cons, ih (List.nodup_cons.1 hl).2]
    have ha := (List.nodup_cons.1 hl).1
    funext I J
    by_cases h : I = i
    · subst h
      by_cases g : J = a
      · subst g; simp [ha, addAt]
      · simp [g, addAt]
    · simp [h, addAt]

theorem foldl_addAt_aux {r c : Nat} {V : Type} [AddCommMonoid V] (M : Fin r → Fin c → V) (l : List (Fin r))
    (hl : l.Nodup) : ∀ K : Fin r → Fin c → V,
    l.foldl (fun K i => (List.finRange c).foldl (fun K j => addAt K i j (M i j)) K) K =
      fun I J => if I ∈ l then K I J + M I J else K I J := by
  induction l with
  | nil => intro K; simp
  | cons a l ih =>
    intro K
    rw [List.foldl_cons, ih (List.nodup_cons.1 hl).2, foldl_addAt_row _ a _ (List.nodup_finRange c)]
    have ha := (List.nodup_cons.1 hl).1
    funext I J
    by_cases h : I = a
    · subst h; simp [ha]
    · simp [h]

theorem foldl_addAt {r c : Nat} {V : Type} [AddCommMonoid V] (M K : Fin r → Fin c → V) :
    (List.finRange r).foldl (fun K i => (List.finRange c).foldl (fun K j => addAt K i j (M i j)) K) K = K + M := by
  rw [foldl_addAt_aux M _ (List.nodup_finRange r)]
  funext I J
  simp

theorem foldl_addEntry_aux (g : Fin m → ℝ) (l : List (Fin m)) (hl : l.Nodup) : ∀ f : Fin m → ℝ,
    l.foldl (fun f i => Function.update f i (f i + g i)) f = fun i => if i ∈ l then f i + g i else f i := by
  induction l with
  | nil => intro f; simp
  | cons a l ih =>
    intro f
    rw [List.foldl_cons, ih (List.nodup_cons.1 hl).2]
    have ha := (List.nodup_cons.1 hl).1
    funext i
    by_cases h : i = a
    · subst h; simp [ha]
    · simp [h]

theorem foldl_addEntry (g f : Fin m → ℝ) :
    (List.finRange m).foldl (fun f i => Function.update f i (f i + g i)) f = f + g := by
  rw [foldl_addEntry_aux g _ (List.nodup_finRange m)]
  funext i
  simp

/-! ### Sums -/

/-- The material at a fixed pressure. -/
noncomputable def lawAt (c : Driver q) (ph : ℝ) : Law q where
  energy E := c.dev.energy E + ph * c.vol.energy E
  stress E := c.dev.stress E + ph • c.vol.stress E
  tangent E := c.dev.tangent E + ph • c.vol.tangent E

noncomputable def pForce (c : Driver q) (u : NodeVec n d) (p : Fin m → ℝ) (gp : DPPoint n m d q) : Fin m → ℝ :=
  fun i => gp.Np i * (c.vol.energy (gp.strain u) - gp.pressure p / c.kappa) * gp.detJ * gp.weight

theorem calculateScalar_sum (c : Driver q) (gps : List (DPPoint n m d q)) (u : NodeVec n d) (p : Fin m → ℝ) :
    calculateScalar c gps u p =
      (gps.map fun gp => c.storedEnergy (gp.strain u) (gp.pressure p) * gp.detJ * gp.weight).sum := by
  unfold calculateScalar
  rw [foldl_add_sum, zero_add]

theorem calculateVector_sum (c : Driver q) (gps : List (DPPoint n m d q)) (u : NodeVec n d) (p : Fin m → ℝ) :
    ∀ f : Vec n m d, calculateVector c gps u p f =
      ⟨f.u + (gps.map fun gp => NonLinearElastic.pointForce (lawAt c (gp.pressure p)) u gp.toPoint).sum,
       f.p + (gps.map (pForce c u p)).sum⟩ := by
  unfold calculateVector
  induction gps with
  | nil => intro f; simp
  | cons gp gps ih =>
    intro f
    rw [List.foldl_cons, ih]
    have e1 := foldl_addSegment (NonLinearElastic.pointForce (lawAt c (gp.pressure p)) u gp.toPoint) f.u
    have e2 := foldl_addEntry (pForce c u p gp) f.p
    simp only [List.map_cons, List.sum_cons, ← add_assoc]
    rw [← e1, ← e2]
    rfl

noncomputable def upMat (c : Driver q) (u : NodeVec n d) (gp : DPPoint n m d q) : Fin n → Fin m → Fin d → ℝ :=
  fun I j => (gp.detJ * gp.weight) • (gp.Np j • ((gp.bop u I)ᵀ *ᵥ c.vol.stress (gp.strain u)))

noncomputable def puMat (c : Driver q) (u : NodeVec n d) (gp : DPPoint n m d q) : Fin m → Fin n → Fin d → ℝ :=
  fun j I => (gp.detJ * gp.weight) • (gp.Np j • ((gp.bop u I)ᵀ *ᵥ c.vol.stress (gp.strain u)))

noncomputable def ppMat (c : Driver q) (gp : DPPoint n m d q) : Fin m → Fin m → ℝ :=
  fun i j => -(gp.Np i * (1.0 / c.kappa) * gp.Np j * (gp.detJ * gp.weight))

theorem calculateMatrix_sum (c : Driver q) (gps : List (DPPoint n m d q)) (u : NodeVec n d) (p : Fin m → ℝ) :
    ∀ K : Mat n m d, calculateMatrix c gps u p K =
      ⟨K.uu + (gps.map fun gp => NonLinearElastic.pointMatrix (lawAt c (gp.pressure p)) u gp.toPoint).sum,
       K.up + (gps.map (upMat c u)).sum, K.pu + (gps.map (puMat c u)).sum, K.pp + (gps.map (ppMat c)).sum⟩ := by
  unfold calculateMatrix
  induction gps with
  | nil => intro K; simp
  | cons gp gps ih =>
    intro K
    rw [List.foldl_cons, ih]
    have e1 := foldl_addBlock (NonLinearElastic.pointMatrix (lawAt c (gp.pressure p)) u gp.toPoint) K.uu
    have e2 := foldl_addAt (upMat c u gp) K.up
    have e3 := foldl_addAt (puMat c u gp) K.pu
    have e4 := foldl_addAt (ppMat c gp) K.pp
    simp only [List.map_cons, List.sum_cons, ← add_assoc]
    rw [← e1, ← e2, ← e3, ← e4]
    simp only [addBlock_addBlock]
    rfl

theorem lawAt_contract (c : Driver q) (dom : Set (Fin q → ℝ)) (hd : LawContract c.dev dom) (hv : LawContract c.vol dom)
    (ph : ℝ) : LawContract (lawAt c ph) dom where
  stress := by
    intro e de t he hde
    refine ((hd.stress e de t he hde).add ((hv.stress e de t he hde).const_mul ph)).congr_deriv ?_
    simp only [lawAt, Pi.add_apply, Pi.smul_apply, smul_eq_mul, add_mul, Finset.sum_add_distrib, Finset.mul_sum]
    congr 1
    exact Finset.sum_congr rfl fun k _ => by ring
  tangent := by
    intro e de t he hde
    refine ((hd.tangent e de t he hde).add ((hv.tangent e de t he hde).const_smul ph)).congr_deriv ?_
    funext k
    simp only [lawAt, Pi.add_apply, Pi.smul_apply, Matrix.add_apply, Matrix.smul_apply, smul_eq_mul, add_mul,
      Finset.sum_add_distrib, Finset.mul_sum]
    congr 1
    exact Finset.sum_congr rfl fun k _ => by ring
  symm := by
    intro e he k l
    simp only [lawAt, Matrix.add_apply, Matrix.smul_apply, hd.symm e he k l, hv.symm e he k l]

theorem pressure_line (gp : DPPoint n m d q) (p w : Fin m → ℝ) (t : ℝ) :
    gp.pressure (p + t • w) = gp.pressure p + t * gp.pressure w := by
  simp only [DPPoint.pressure, Pi.add_apply, Pi.smul_apply, smul_eq_mul, mul_add, Finset.sum_add_distrib, Finset.mul_sum]
  congr 1
  exact Finset.sum_congr rfl fun j _ => by ring

theorem hasDerivAt_pressure (gp : DPPoint n m d q) (p w : Fin m → ℝ) :
    HasDerivAt (fun t : ℝ => gp.pressure (p + t • w)) (gp.pressure w) 0 := by
  simp only [pressure_line]
  refine ((hasDerivAt_const (0 : ℝ) (gp.pressure p)).add ((hasDerivAt_id' (0 : ℝ)).mul_const (gp.pressure w))).congr_deriv ?_
  ring

theorem work_pointForce_vol (law : Law q) (gp : DPPoint n m d q) (u v : NodeVec n d) :
    work (NonLinearElastic.pointForce law u gp.toPoint) v =
      gp.detJ * gp.weight * ∑ J, ∑ b, ((gp.bop u J)ᵀ *ᵥ law.stress (gp.strain u)) b * v J b := by
  simp only [work, NonLinearElastic.pointForce, Pi.smul_apply, smul_eq_mul, Finset.mul_sum]
  exact Finset.sum_congr rfl fun J _ => Finset.sum_congr rfl fun b _ => by ring

/-! ### Properties -/

/-- C71. For deviatoric and volumetric parts whose stresses and moduli are derivatives, the vector of the
displacement-pressure element is the gradient of its energy in displacements and pressures, the matrix the derivative of
the vector, and the matrix is symmetric; both are added to what is passed in. -/
theorem displacementPressure_consistent (c : Driver q) (dom : Set (Fin q → ℝ)) (hd : LawContract c.dev dom)
    (hv : LawContract c.vol dom) (gps : List (DPPoint n m d q)) (u : NodeVec n d)
    (p : Fin m → ℝ) (hp : ∀ gp ∈ gps, StrainContract gp.toPoint u) (hu : ∀ gp ∈ gps, gp.strain u ∈ dom) :
    Spec.GradientAt (calculateScalar c gps) (calculateVector c gps u p ⟨0, 0⟩) u p ∧
    Spec.TangentAt (fun u p => calculateVector c gps u p ⟨0, 0⟩) (calculateMatrix c gps u p ⟨0, 0, 0, 0⟩) u p ∧
    Spec.SymmetricMat (calculateMatrix c gps u p ⟨0, 0, 0, 0⟩) ∧
    (∀ f, calculateVector c gps u p f = ⟨f.u + (calculateVector c gps u p ⟨0, 0⟩).u,
      f.p + (calculateVector c gps u p ⟨0, 0⟩).p⟩) ∧
    (∀ K, calculateMatrix c gps u p K = ⟨K.uu + (calculateMatrix c gps u p ⟨0, 0, 0, 0⟩).uu,
      K.up + (calculateMatrix c gps u p ⟨0, 0, 0, 0⟩).up, K.pu + (calculateMatrix c gps u p ⟨0, 0, 0, 0⟩).pu,
      K.pp + (calculateMatrix c gps u p ⟨0, 0, 0, 0⟩).pp⟩) := by
  refine ⟨fun v w => ?_, fun v w => ⟨?_, ?_⟩, ⟨?_, ?_, ?_⟩, fun f => ?_, fun K => ?_⟩
  · -- gradient
    simp only [calculateScalar_sum]
    rw [calculateVector_sum]
    simp only [zero_add]
    rw [work_list_sum]
    have hsum : ∑ i, (gps.map (pForce c u p)).sum i * w i = (gps.map fun gp => ∑ i, pForce c u p gp i * w i).sum := by
      rw [← list_sum_finset]
      refine Finset.sum_congr rfl fun i _ => ?_
      rw [list_sum_apply, ← List.sum_map_mul_right]
    rw [hsum, ← list_sum_add]
    refine hasDerivAt_list_sum _ _ _ _ fun gp hgp => ?_
    have h1 := NonLinearElastic.hasDerivAt_pointEnergy (lawAt c (gp.pressure p)) dom (lawAt_contract c dom hd hv _)
      gp.toPoint u (hp gp hgp) (hu gp hgp) v
    have h2 := (hv.stress (fun t => gp.strain (u + t • v)) _ 0 (by simpa using hu gp hgp) ((hp gp hgp).strain v))
    have h3 := (((hasDerivAt_id' (0 : ℝ)).mul_const (gp.pressure w)).mul h2)
    have h4 := ((hasDerivAt_pressure gp p w).pow 2).const_mul (1.0 / (2.0 * c.kappa))
    have hf : (fun t : ℝ => c.storedEnergy (gp.strain (u + t • v)) (gp.pressure (p + t • w)) * gp.detJ * gp.weight) =
        fun t => (lawAt c (gp.pressure p)).energy (gp.strain (u + t • v)) * gp.detJ * gp.weight +
          (t * gp.pressure w * c.vol.energy (gp.strain (u + t • v)) -
            1.0 / (2.0 * c.kappa) * gp.pressure (p + t • w) ^ 2) * (gp.detJ * gp.weight) := by
      funext t
      simp only [Driver.storedEnergy, Driver.Uhat, lawAt, pressure_line]
      generalize (1.0 : ℝ) / (2.0 * c.kappa) = k
      ring
    rw [hf]
    refine (h1.add ((h3.sub h4).mul_const (gp.detJ * gp.weight))).congr_deriv ?_
    have hw : ∑ i, pForce c u p gp i * w i =
        (c.vol.energy (gp.strain u) - gp.pressure p / c.kappa) * gp.pressure w * (gp.detJ * gp.weight) := by
      simp only [pForce, DPPoint.pressure, Finset.mul_sum, Finset.sum_mul]
      refine Finset.sum_congr rfl fun i _ => ?_
      ring
    rw [hw]
    have h0 : u + (0 : ℝ) • v = u := by simp
    have h0' : p + (0 : ℝ) • w = p := by simp
    have hk : (1.0 : ℝ) / (2.0 * c.kappa) = 1 / 2 * (1 / c.kappa) := by
      rw [show (1.0 : ℝ) = 1 by norm_num, show (2.0 : ℝ) = 2 by norm_num, one_div, mul_inv]
      ring
    rw [h0, h0', hk]
    simp only [Nat.cast_ofNat, Nat.add_one_sub_one, pow_one]
    ring
  · -- displacement rows
    simp only [calculateVector_sum, zero_add]
    rw [calculateMatrix_sum]
    simp only [zero_add]
    rw [mul_list_sum]
    have hsum : (fun (I : Fin n) (a : Fin d) => ∑ j, (gps.map (upMat c u)).sum I j a * w j) =
        (gps.map fun gp => fun (I : Fin n) (a : Fin d) => ∑ j, upMat c u gp I j a * w j).sum := by
      funext I a
      simp only [list_sum_apply]
      rw [← list_sum_finset]
      refine Finset.sum_congr rfl fun j _ => ?_
      rw [← List.sum_map_mul_right]
    rw [hsum, ← list_sum_add]
    refine hasDerivAt_list_sum _ _ _ _ fun gp hgp => ?_
    have h1 := NonLinearElastic.hasDerivAt_pointForce (lawAt c (gp.pressure p)) dom (lawAt_contract c dom hd hv _)
      gp.toPoint u (hp gp hgp) (hu gp hgp) v
    have h2 := NonLinearElastic.hasDerivAt_pointForce c.vol dom hv gp.toPoint u (hp gp hgp) (hu gp hgp) v
    have h3 := ((hasDerivAt_id' (0 : ℝ)).mul_const (gp.pressure w)).smul h2
    have hf : (fun t : ℝ => NonLinearElastic.pointForce (lawAt c (gp.pressure (p + t • w))) (u + t • v) gp.toPoint) =
        fun t => NonLinearElastic.pointForce (lawAt c (gp.pressure p)) (u + t • v) gp.toPoint +
          (t * gp.pressure w) • NonLinearElastic.pointForce c.vol (u + t • v) gp.toPoint := by
      funext t I
      simp only [NonLinearElastic.pointForce, lawAt, pressure_line, Pi.add_apply, Pi.smul_apply, Matrix.mulVec_add,
        Matrix.mulVec_smul, add_smul, smul_add]
      rw [smul_comm (t * gp.pressure w) (gp.detJ * gp.weight), add_assoc]
    rw [hf]
    refine (h1.add h3).congr_deriv ?_
    have h0 : u + (0 : ℝ) • v = u := by simp
    rw [h0]
    funext I a
    simp only [Pi.add_apply, Pi.smul_apply, NonLinearElastic.pointForce, upMat, smul_eq_mul, zero_mul, zero_smul,
      zero_add, one_mul, DPPoint.pressure, Finset.sum_mul]
    congr 1
    refine Finset.sum_congr rfl fun j _ => ?_
    ring
  · -- pressure rows
    simp only [calculateVector_sum, zero_add]
    rw [calculateMatrix_sum]
    simp only [zero_add]
    have hsum : (fun i => ∑ J, ∑ b, (gps.map (puMat c u)).sum i J b * v J b + ∑ j, (gps.map (ppMat c)).sum i j * w j) =
        (gps.map fun gp => fun i => ∑ J, ∑ b, puMat c u gp i J b * v J b + ∑ j, ppMat c gp i j * w j).sum := by
      funext i
      simp only [list_sum_apply]
      rw [list_sum_add, ← list_sum_finset, ← list_sum_finset]
      congr 1
      · refine Finset.sum_congr rfl fun J _ => ?_
        rw [← list_sum_finset]
        refine Finset.sum_congr rfl fun b _ => ?_
        rw [← List.sum_map_mul_right]
      · refine Finset.sum_congr rfl fun J _ => ?_
        rw [← List.sum_map_mul_right]
    rw [hsum]
    refine hasDerivAt_list_sum _ _ _ _ fun gp hgp => ?_
    rw [hasDerivAt_pi]
    intro i
    have h1 := NonLinearElastic.hasDerivAt_pointEnergy c.vol dom hv gp.toPoint u (hp gp hgp) (hu gp hgp) v
    have h2 := (((hasDerivAt_pressure gp p w).div_const c.kappa).mul_const (gp.detJ * gp.weight))
    have hf : (fun t : ℝ => pForce c (u + t • v) (p + t • w) gp i) = fun t =>
        gp.Np i * (c.vol.energy (gp.strain (u + t • v)) * gp.detJ * gp.weight -
          gp.pressure (p + t • w) / c.kappa * (gp.detJ * gp.weight)) := by
      funext t
      simp only [pForce]
      ring
    rw [hf]
    refine ((h1.sub h2).const_mul (gp.Np i)).congr_deriv ?_
    rw [work_pointForce_vol]
    have e1 : ∑ J, ∑ b, puMat c u gp i J b * v J b =
        gp.Np i * (gp.detJ * gp.weight * ∑ J, ∑ b, ((gp.bop u J)ᵀ *ᵥ c.vol.stress (gp.strain u)) b * v J b) := by
      simp only [puMat, Pi.smul_apply, smul_eq_mul, Finset.mul_sum]
      exact Finset.sum_congr rfl fun J _ => Finset.sum_congr rfl fun b _ => by ring
    have e2 : ∑ j, ppMat c gp i j * w j = -(gp.Np i * (gp.pressure w / c.kappa * (gp.detJ * gp.weight))) := by
      simp only [ppMat, DPPoint.pressure, Finset.sum_div, Finset.sum_mul, Finset.mul_sum, ← Finset.sum_neg_distrib]
      refine Finset.sum_congr rfl fun j _ => ?_
      rw [show (1.0 : ℝ) = 1 by norm_num]
      ring
    rw [e1, e2]
    ring
  · rw [calculateMatrix_sum]
    simp only [zero_add]
    exact symmetric_list_sum _ _ fun gp hgp => NonLinearElastic.symmetric_pointMatrix _ dom
      (lawAt_contract c dom hd hv _) gp.toPoint u (hp gp hgp) (hu gp hgp)
  · intro I j a
    rw [calculateMatrix_sum]
    simp only [zero_add, list_sum_apply]
    rfl
  · intro i j
    rw [calculateMatrix_sum]
    simp only [zero_add, list_sum_apply]
    congr 1
    refine List.map_congr_left fun gp _ => ?_
    simp only [ppMat]
    rw [mul_right_comm (gp.Np i), mul_right_comm (gp.Np j), mul_comm (gp.Np i)]
  · rw [calculateVector_sum, calculateVector_sum c gps u p ⟨0, 0⟩]
    simp only [zero_add]
  · rw [calculateMatrix_sum, calculateMatrix_sum c gps u p ⟨0, 0, 0, 0⟩]
    simp only [zero_add]

/-- The element stands for the material it is constructed from: where the energy is stationary in the pressure, it is the
energy of the material, the deviatoric energy plus the volumetric parameter times the volumetric function. -/
def Spec.RepresentsMaterial (U : ℝ → ℝ) : Prop :=
  ∀ (c : Driver 1), (∀ J, c.vol.energy ![J] = U J) → ∀ (J p : ℝ), 0 < J → c.kappa ≠ 0 →
    HasDerivAt (fun s => c.storedEnergy ![J] s) 0 p →
    c.storedEnergy ![J] p = c.dev.energy ![J] + c.kappa * U J

theorem hasDerivAt_storedEnergy (c : Driver q) (E : Fin q → ℝ) (hk : c.kappa ≠ 0) (p : ℝ) :
    HasDerivAt (fun s => c.storedEnergy E s) (c.vol.energy E - p / c.kappa) p := by
  have h := (((hasDerivAt_id' p).mul_const (c.vol.energy E)).const_add (c.dev.energy E)).sub
    (((hasDerivAt_id' p).pow 2).const_mul (1.0 / (2.0 * c.kappa)))
  refine h.congr_deriv ?_
  norm_num
  field_simp

/-- C71, material. The element does not stand for the material it is constructed from: with the volumetric function
`½(J-1)²` its energy for stationary pressure is `κ/8 (J-1)⁴`. -/
theorem displacementPressure_material_false : ¬ Spec.RepresentsMaterial VF.f1.storedEnergy := by
  intro h
  let c : Driver 1 := ⟨⟨fun _ => 0, fun _ => 0, fun _ => 0⟩, ⟨fun e => VF.f1.storedEnergy (e 0), fun _ => 0, fun _ => 0⟩, 1⟩
  have h1 := h c (fun J => rfl) 2 (1 / 2) (by norm_num) one_ne_zero (by
    refine (hasDerivAt_storedEnergy c ![2] one_ne_zero (1 / 2)).congr_deriv ?_
    simp [c, VF.storedEnergy]
    norm_num)
  simp [c, Driver.storedEnergy, Driver.Uhat, VF.storedEnergy] at h1
  norm_num at h1

/-- C71, condensed energy. Where the energy is stationary in the pressure, the pressure is the parameter times the
volumetric function, and the energy is the deviatoric energy plus half the parameter times the square of the volumetric
function.  So the element stands for a material exactly if the square of the volumetric function is twice that of the
material; with function 12, `J-1`, it stands for the material with function 1, `½(J-1)²`.  Missing: that the function
passed is the one of the material, which is false. -/
theorem displacementPressure_material_partial (c : Driver q) (E : Fin q → ℝ) (hk : c.kappa ≠ 0) (p : ℝ) :
    (HasDerivAt (fun s => c.storedEnergy E s) 0 p ↔ p = c.kappa * c.vol.energy E) ∧
    (p = c.kappa * c.vol.energy E →
      c.storedEnergy E p = c.dev.energy E + c.kappa * (1 / 2 * c.vol.energy E ^ 2)) ∧
    (∀ J, c.vol.energy E = VF.f12.storedEnergy J → p = c.kappa * c.vol.energy E →
      c.storedEnergy E p = c.dev.energy E + c.kappa * VF.f1.storedEnergy J) := by
  have hval : p = c.kappa * c.vol.energy E →
      c.storedEnergy E p = c.dev.energy E + c.kappa * (1 / 2 * c.vol.energy E ^ 2) := by
    intro h
    simp only [Driver.storedEnergy, Driver.Uhat, h]
    norm_num
    field_simp
    ring
  refine ⟨⟨fun h => ?_, fun h => ?_⟩, hval, fun J hJ h => ?_⟩
  · have := (hasDerivAt_storedEnergy c E hk p).unique h
    field_simp at this
    linarith
  · refine (hasDerivAt_storedEnergy c E hk p).congr_deriv ?_
    rw [h]
    field_simp
    ring
  · rw [hval h, hJ]
    simp [VF.storedEnergy]

/-- The hypotheses are met: quadratic parts and membrane strains, at every displacement and pressure. -/
example (dN : Fin 2 → Fin 2 → ℝ) (u : NodeVec 2 3) (p : Fin 1 → ℝ) :
    let c : Driver 3 := ⟨linearLaw 1, linearLaw 1, 5⟩
    let gp : DPPoint 2 1 3 3 := ⟨Membrane.point 1 1 ![![1, 0, 0], ![0, 1, 0]] dN, fun _ => 1⟩
    Spec.GradientAt (calculateScalar c [gp]) (calculateVector c [gp] u p ⟨0, 0⟩) u p := by
  intro c gp
  refine (displacementPressure_consistent c Set.univ (linearLaw_contract 1 Matrix.isSymm_one)
    (linearLaw_contract 1 Matrix.isSymm_one) [gp] u p (fun g hg => ?_) fun _ _ => trivial).1
  rw [List.mem_singleton.1 hg]
  exact Membrane.membrane_contract _ _ _ _ u

end Ikarus.Element.DisplacementPressure
