import Verif.FE.PatchProps
import Verif.FE.MixinProps
import Verif.Analysis.SmoothSkillProps
import Verif.Tensor.VoigtProps

/-!
Turned structures: what it means that a mesh, its deformed shape and its material are turned, and how strains and their
derivatives of a solid change.
-/

namespace Ikarus.Element

open Matrix Element.Spec

variable {n d q m : Nat}

/-! ### Specification -/

/-- Vectors at the nodes, turned by `Q`. -/
def Spec.turn (Q : Matrix (Fin d) (Fin d) ℝ) (f : NodeVec n d) : NodeVec n d := fun I => Q *ᵥ f I

/-- An element matrix whose rows and columns are turned by `Q`. -/
def Spec.turnMat (Q : Matrix (Fin d) (Fin d) ℝ) (K : BlockMat n d) : BlockMat n d := fun I J => Q * K I J * Qᵀ

/-- The nodes of the element are turned by `R` and moved by `a`; the deformed shape is turned by `Q` and moved by `c`. -/
structure Spec.Turned (R Q : Matrix (Fin d) (Fin d) ℝ) (X X' u u' : NodeVec n d) : Prop where
  orthR : Rᵀ * R = 1
  orthQ : Qᵀ * Q = 1
  mesh : ∃ a, X' = affine a R X
  shape : ∃ c, X' + u' = affine c Q (X + u)

/-- The integration point of the turned element: the gradients of the shape functions are turned. -/
def Spec.turnedPoint (R : Matrix (Fin d) (Fin d) ℝ) (p : Spec.GradientPoint n d) : Spec.GradientPoint n d :=
  { p with dN := fun I => R *ᵥ p.dN I }

/-- `T` turns strains in Voigt notation as `R` turns tensors: the power of a stress on the turned strain is the one of the
stress turned back on the strain. -/
def Spec.VoigtTurn (voigt : Fin d → Fin d → Fin q) (R : Matrix (Fin d) (Fin d) ℝ) (T : Matrix (Fin q) (Fin q) ℝ) : Prop :=
  ∀ S x y, EAS.Spec.along voigt (Tᵀ *ᵥ S) x y = EAS.Spec.along voigt S (x * Rᵀ) (y * Rᵀ)

/-- The law `law'` at the turned strain is the law `law` at the strain `e`, turned. -/
structure Spec.TurnedLaw (T : Matrix (Fin q) (Fin q) ℝ) (law law' : Law q) (e : Fin q → ℝ) : Prop where
  energy : law'.energy (T *ᵥ e) = law.energy e
  stress : Tᵀ *ᵥ law'.stress (T *ᵥ e) = law.stress e
  tangent : Tᵀ * law'.tangent (T *ᵥ e) * T = law.tangent e

/-! ### Turned vectors and matrices -/

theorem turn_add (Q : Matrix (Fin d) (Fin d) ℝ) (f g : NodeVec n d) : turn Q (f + g) = turn Q f + turn Q g := by
  funext I; exact mulVec_add _ _ _

theorem turn_sub (Q : Matrix (Fin d) (Fin d) ℝ) (f g : NodeVec n d) : turn Q (f - g) = turn Q f - turn Q g := by
  funext I; exact mulVec_sub _ _ _

theorem turn_zero (Q : Matrix (Fin d) (Fin d) ℝ) : turn Q (0 : NodeVec n d) = 0 := by funext I; exact mulVec_zero _

theorem turn_smul (Q : Matrix (Fin d) (Fin d) ℝ) (c : ℝ) (f : NodeVec n d) : turn Q (c • f) = c • turn Q f := by
  funext I; exact mulVec_smul Q c (f I)

theorem turnMat_add (Q : Matrix (Fin d) (Fin d) ℝ) (K L : BlockMat n d) : turnMat Q (K + L) = turnMat Q K + turnMat Q L := by
  funext I J; simp [turnMat, Matrix.mul_add, Matrix.add_mul]

theorem turnMat_zero (Q : Matrix (Fin d) (Fin d) ℝ) : turnMat Q (0 : BlockMat n d) = 0 := by funext I J; simp [turnMat]

theorem turn_list_sum {α : Type*} (Q : Matrix (Fin d) (Fin d) ℝ) (l : List α) (F G : α → NodeVec n d)
    (h : ∀ x ∈ l, G x = turn Q (F x)) : (l.map G).sum = turn Q (l.map F).sum := by
  induction l with
  | nil => exact (turn_zero Q).symm
  | cons x l ih =>
    simp only [List.map_cons, List.sum_cons, turn_add]
    rw [h x List.mem_cons_self, ih fun y hy => h y (List.mem_cons_of_mem _ hy)]

theorem turnMat_list_sum {α : Type*} (Q : Matrix (Fin d) (Fin d) ℝ) (l : List α) (F G : α → BlockMat n d)
    (h : ∀ x ∈ l, G x = turnMat Q (F x)) : (l.map G).sum = turnMat Q (l.map F).sum := by
  induction l with
  | nil => exact (turnMat_zero Q).symm
  | cons x l ih =>
    simp only [List.map_cons, List.sum_cons, turnMat_add]
    rw [h x List.mem_cons_self, ih fun y hy => h y (List.mem_cons_of_mem _ hy)]

theorem orth_comm {Q : Matrix (Fin d) (Fin d) ℝ} (h : Qᵀ * Q = 1) : Q * Qᵀ = 1 := mul_eq_one_comm.1 h

theorem orth_transpose {Q : Matrix (Fin d) (Fin d) ℝ} (h : Qᵀ * Q = 1) : Qᵀᵀ * Qᵀ = 1 := by
  rw [transpose_transpose]; exact orth_comm h

theorem turn_turn (P Q : Matrix (Fin d) (Fin d) ℝ) (f : NodeVec n d) : turn P (turn Q f) = turn (P * Q) f := by
  funext I; exact mulVec_mulVec _ _ _

theorem turn_one (f : NodeVec n d) : turn 1 f = f := by funext I; exact one_mulVec _

theorem orth_dot {Q : Matrix (Fin d) (Fin d) ℝ} (h : Qᵀ * Q = 1) (x y : Fin d → ℝ) : (Q *ᵥ x) ⬝ᵥ (Q *ᵥ y) = x ⬝ᵥ y := by
  rw [Matrix.dotProduct_mulVec, ← Matrix.mulVec_transpose, Matrix.mulVec_mulVec, h, Matrix.one_mulVec]

theorem work_turn {Q : Matrix (Fin d) (Fin d) ℝ} (h : Qᵀ * Q = 1) (f v : NodeVec n d) : work (turn Q f) (turn Q v) = work f v := by
  rw [work_eq, work_eq]
  exact Finset.sum_congr rfl fun I _ => orth_dot h _ _

theorem turnMat_symmetric (Q : Matrix (Fin d) (Fin d) ℝ) {K : BlockMat n d} (h : Symmetric K) : Symmetric (turnMat Q K) := by
  intro I J a b
  have hK : K I J = (K J I)ᵀ := by ext a b; exact h I J a b
  show (Q * K I J * Qᵀ) a b = (Q * K J I * Qᵀ) b a
  rw [hK, ← Matrix.transpose_apply (Q * K J I * Qᵀ), Matrix.transpose_mul, Matrix.transpose_mul, Matrix.transpose_transpose,
    Matrix.mul_assoc]

/-! ### Voigt notation -/

theorem plane_turn (R : Matrix (Fin 2) (Fin 2) ℝ) : VoigtTurn EAS.plane.voigt R (transformationMatrix2 R) := by
  intro S x y
  rw [EAS.along_plane, EAS.along_plane]
  simp [transformationMatrix2, Matrix.mul_apply, Fin.sum_univ_succ, Matrix.mulVec, dotProduct]
  ring

theorem space_turn (R : Matrix (Fin 3) (Fin 3) ℝ) : VoigtTurn EAS.space.voigt R (transformationMatrix3 R) := by
  intro S x y
  rw [EAS.along_space, EAS.along_space]
  simp [transformationMatrix3, Matrix.mul_apply, Fin.sum_univ_succ, Matrix.mulVec, dotProduct]
  ring

theorem along_orth (v : Fin d → Fin d → Fin q) {Q : Matrix (Fin d) (Fin d) ℝ} (hQ : Qᵀ * Q = 1) (S : Fin q → ℝ)
    (x y : Matrix (Fin d) (Fin d) ℝ) : EAS.Spec.along v S (Q * x) (Q * y) = EAS.Spec.along v S x y := by
  unfold EAS.Spec.along
  refine Finset.sum_congr rfl fun i _ => Finset.sum_congr rfl fun j _ => ?_
  have : ((Q * x)ᵀ * (Q * y)) i j = (xᵀ * y) i j := by
    rw [Matrix.transpose_mul, Matrix.mul_assoc, ← Matrix.mul_assoc Qᵀ, hQ, Matrix.one_mul]
  exact congrArg (S (v i j) * ·) this

theorem along_adjoint (v : Fin d → Fin d → Fin q) (Q : Matrix (Fin d) (Fin d) ℝ) (S : Fin q → ℝ)
    (x y : Matrix (Fin d) (Fin d) ℝ) : EAS.Spec.along v S x (Q * y) = EAS.Spec.along v S (Qᵀ * x) y := by
  unfold EAS.Spec.along
  refine Finset.sum_congr rfl fun i _ => Finset.sum_congr rfl fun j _ => ?_
  have : (xᵀ * (Q * y)) i j = ((Qᵀ * x)ᵀ * y) i j := by
    rw [Matrix.transpose_mul, Matrix.transpose_transpose, Matrix.mul_assoc]
  exact congrArg (S (v i j) * ·) this

theorem along_stress_sum {ι : Type*} (s : Finset ι) (v : Fin d → Fin d → Fin q) (c : ι → ℝ) (S : ι → Fin q → ℝ)
    (x y : Matrix (Fin d) (Fin d) ℝ) :
    EAS.Spec.along v (∑ i ∈ s, c i • S i) x y = ∑ i ∈ s, c i * EAS.Spec.along v (S i) x y := by
  simp only [← EAS.along_single_sum v (∑ i ∈ s, c i • S i), ← EAS.along_single_sum v (S _), Finset.mul_sum]
  rw [Finset.sum_comm]
  refine Finset.sum_congr rfl fun k _ => ?_
  rw [Finset.sum_apply, Finset.mul_sum]
  refine Finset.sum_congr rfl fun i _ => ?_
  simp only [Pi.smul_apply, smul_eq_mul]
  ring

/-- Voigt components of the turned strains. -/
theorem along_component {v : Fin d → Fin d → Fin q} {R : Matrix (Fin d) (Fin d) ℝ} {T : Matrix (Fin q) (Fin q) ℝ}
    (hT : VoigtTurn v R T) (k : Fin q) (x y : Matrix (Fin d) (Fin d) ℝ) :
    EAS.Spec.along v (Pi.single k 1) (x * Rᵀ) (y * Rᵀ) = ∑ l, T k l * EAS.Spec.along v (Pi.single l 1) x y := by
  rw [← hT, ← along_stress_sum]
  congr 1
  funext l
  simp [Finset.sum_apply, Pi.single_apply, Matrix.mulVec, dotProduct]

theorem row_turn (Q : Matrix (Fin d) (Fin d) ℝ) (a : Fin d) (g : Fin d → ℝ) :
    Qᵀ * EAS.rowMatrix a g = ∑ c, Q a c • EAS.rowMatrix c g := by
  ext i j
  rw [Matrix.sum_apply, Matrix.mul_apply]
  simp [EAS.rowMatrix]

variable {R Q : Matrix (Fin d) (Fin d) ℝ} {T : Matrix (Fin q) (Fin q) ℝ} {dim : EAS.Dimension d q}

theorem greenLagrange_turn (hdim : EAS.Spec.IsVoigt dim) (hT : VoigtTurn dim.voigt R T) (hR : Rᵀ * R = 1) (hQ : Qᵀ * Q = 1)
    {H H' : Matrix (Fin d) (Fin d) ℝ} (hH : 1 + H' = Q * (1 + H) * Rᵀ) : dim.greenLagrange H' = T *ᵥ dim.greenLagrange H := by
  funext k
  rw [hdim.greenLagrange, hH, Matrix.mul_assoc, along_orth _ hQ, along_component hT]
  have h1 : EAS.Spec.along dim.voigt (Pi.single k 1) 1 1 =
      ∑ l, T k l * EAS.Spec.along dim.voigt (Pi.single l 1) 1 1 := by
    rw [← along_component hT, Matrix.one_mul]
    have := along_orth dim.voigt hR (Pi.single k 1) Rᵀ Rᵀ
    rw [orth_comm hR] at this
    exact this
  rw [h1, ← Finset.sum_sub_distrib, Finset.mul_sum]
  refine Finset.sum_congr rfl fun l _ => ?_
  rw [hdim.greenLagrange]
  ring

theorem bop_turn (hdim : EAS.Spec.IsVoigt dim) (hT : VoigtTurn dim.voigt R T) (F : Matrix (Fin d) (Fin d) ℝ) (g : Fin d → ℝ) :
    dim.bop (Q * F * Rᵀ) (R *ᵥ g) = T * dim.bop F g * Qᵀ := by
  ext k a
  rw [hdim.bop, ← EAS.rowMatrix_mul, along_component hT, Matrix.mul_apply]
  simp only [Matrix.mul_apply, Finset.sum_mul, Matrix.transpose_apply]
  rw [Finset.sum_comm]
  refine Finset.sum_congr rfl fun l _ => ?_
  rw [along_adjoint, row_turn, EAS.along_sum_left, Finset.mul_sum]
  refine Finset.sum_congr rfl fun c _ => ?_
  rw [EAS.along_smul_left, hdim.bop]
  ring

theorem columnM_turn (hdim : EAS.Spec.IsVoigt dim) (hT : VoigtTurn dim.voigt R T) (hQ : Qᵀ * Q = 1)
    (F H : Matrix (Fin d) (Fin d) ℝ) : dim.columnM (Q * F * Rᵀ) (Q * H * Rᵀ) = T *ᵥ dim.columnM F H := by
  funext k
  rw [hdim.columnM, Matrix.mul_assoc, Matrix.mul_assoc, along_orth _ hQ, along_component hT]
  exact Finset.sum_congr rfl fun l _ => by rw [hdim.columnM]

/-- The geometric part turns with the stress. -/
theorem geometric_turn (hT : VoigtTurn dim.voigt R T) (hQ : Qᵀ * Q = 1) (S : Fin q → ℝ) (g h : Fin d → ℝ) :
    (∑ i, ∑ j, S (dim.voigt i j) * (R *ᵥ g) i * (R *ᵥ h) j) • (1 : Matrix (Fin d) (Fin d) ℝ) =
      Q * ((∑ i, ∑ j, (Tᵀ *ᵥ S) (dim.voigt i j) * g i * h j) • (1 : Matrix (Fin d) (Fin d) ℝ)) * Qᵀ := by
  rw [Matrix.mul_smul, Matrix.smul_mul, Matrix.mul_one, orth_comm hQ]
  ext a b
  rw [← EAS.along_rows, ← EAS.along_rows, hT, EAS.rowMatrix_mul, EAS.rowMatrix_mul]

/-- The deformation gradient of the turned element. -/
theorem gradient_turn {X X' u u' : NodeVec n d} {dN : Fin n → Fin d → ℝ} (ht : Turned R Q X X' u u') (hX : Isoparametric X dN) :
    1 + EAS.gradient (fun I => R *ᵥ dN I) u' = Q * (1 + EAS.gradient dN u) * Rᵀ := by
  obtain ⟨a, ha⟩ := ht.mesh
  obtain ⟨c, hc⟩ := ht.shape
  have hx : EAS.gradient dN (X + u) = 1 + EAS.gradient dN u := by
    ext i j
    simp only [EAS.gradient, Matrix.of_apply, Pi.add_apply, add_mul, Finset.sum_add_distrib, hX.geometry, Matrix.add_apply,
      Matrix.one_apply]
  have hmap : ∀ (P : Matrix (Fin d) (Fin d) ℝ) (c : Fin d → ℝ) (y : NodeVec n d),
      EAS.gradient (fun I => R *ᵥ dN I) (affine c P y) = P * EAS.gradient dN y * Rᵀ := by
    intro P c y
    ext i j
    have h0 : ∑ I, (R *ᵥ dN I) j = 0 := by
      simp only [Matrix.mulVec, dotProduct]
      rw [Finset.sum_comm]
      exact Finset.sum_eq_zero fun k _ => by rw [← Finset.mul_sum, hX.unity, mul_zero]
    have h1 : EAS.gradient (fun I => R *ᵥ dN I) (affine c P y) i j = ∑ I, (P *ᵥ y I) i * (R *ᵥ dN I) j := by
      simp only [EAS.gradient, Matrix.of_apply, affine, Pi.add_apply, add_mul, Finset.sum_add_distrib]
      rw [← Finset.mul_sum, h0, mul_zero, zero_add]
    rw [h1]
    simp only [Matrix.mul_apply, EAS.gradient, Matrix.of_apply, Matrix.mulVec, dotProduct, Matrix.transpose_apply,
      Finset.sum_mul, Finset.mul_sum]
    rw [Finset.sum_comm]
    refine Finset.sum_congr rfl fun k _ => ?_
    rw [Finset.sum_comm]
    refine Finset.sum_congr rfl fun l _ => Finset.sum_congr rfl fun I _ => by ring
  have h1 : EAS.gradient (fun I => R *ᵥ dN I) X' = 1 := by
    rw [ha, hmap]
    have : EAS.gradient dN X = 1 := by
      ext i j
      simp only [EAS.gradient, Matrix.of_apply, hX.geometry, Matrix.one_apply]
    rw [this, Matrix.mul_one, orth_comm ht.orthR]
  have h2 := hmap Q c (X + u)
  rw [← hc, hx] at h2
  rw [← h2, ← h1]
  ext i j
  simp only [EAS.gradient, Matrix.of_apply, Pi.add_apply, add_mul, Finset.sum_add_distrib, Matrix.add_apply]

end Ikarus.Element
