import Verif.FE.EASProps
import Mathlib.Tactic.FinCases

/-!
The enhanced strain functions satisfy their contract: the displacement gradient and its transposed variant are
Green-Lagrange strains of an enhanced displacement gradient, and their derivatives are the ones of these strains.
-/

namespace Ikarus.Element.EAS

open Matrix Ikarus.Element.Spec

variable {n d q m : Nat}

/-- `∑ S_ij x_i · y_j` over the columns of two matrices, `S` in Voigt notation. -/
def Spec.along (voigt : Fin d → Fin d → Fin q) (S : Fin q → ℝ) (x y : Matrix (Fin d) (Fin d) ℝ) : ℝ :=
  ∑ i, ∑ j, S (voigt i j) * ∑ a, x a i * y a j

/-- The parts that depend on the dimension agree with a symmetric Voigt index. -/
structure Spec.IsVoigt (dim : Dimension d q) : Prop where
  symm : ∀ i j, dim.voigt i j = dim.voigt j i
  greenLagrange : ∀ H k, dim.greenLagrange H k =
    (1 / 2) * (Spec.along dim.voigt (Pi.single k 1) (1 + H) (1 + H) - Spec.along dim.voigt (Pi.single k 1) 1 1)
  bop : ∀ F g k a, dim.bop F g k a = Spec.along dim.voigt (Pi.single k 1) (rowMatrix a g) F
  columnM : ∀ F H k, dim.columnM F H k = Spec.along dim.voigt (Pi.single k 1) H F

theorem along_plane (S : Fin 3 → ℝ) (x y : Matrix (Fin 2) (Fin 2) ℝ) : Spec.along plane.voigt S x y =
    S 0 * (x 0 0 * y 0 0 + x 1 0 * y 1 0) + S 1 * (x 0 1 * y 0 1 + x 1 1 * y 1 1) +
      S 2 * (x 0 0 * y 0 1 + x 1 0 * y 1 1 + (x 0 1 * y 0 0 + x 1 1 * y 1 0)) := by
  simp only [Spec.along, Fin.sum_univ_two]
  change S 0 * _ + S 2 * _ + (S 2 * _ + S 1 * _) = _
  ring

theorem along_space (S : Fin 6 → ℝ) (x y : Matrix (Fin 3) (Fin 3) ℝ) : Spec.along space.voigt S x y =
    S 0 * (x 0 0 * y 0 0 + x 1 0 * y 1 0 + x 2 0 * y 2 0) + S 1 * (x 0 1 * y 0 1 + x 1 1 * y 1 1 + x 2 1 * y 2 1) +
      S 2 * (x 0 2 * y 0 2 + x 1 2 * y 1 2 + x 2 2 * y 2 2) +
      S 3 * (x 0 1 * y 0 2 + x 1 1 * y 1 2 + x 2 1 * y 2 2 + (x 0 2 * y 0 1 + x 1 2 * y 1 1 + x 2 2 * y 2 1)) +
      S 4 * (x 0 0 * y 0 2 + x 1 0 * y 1 2 + x 2 0 * y 2 2 + (x 0 2 * y 0 0 + x 1 2 * y 1 0 + x 2 2 * y 2 0)) +
      S 5 * (x 0 0 * y 0 1 + x 1 0 * y 1 1 + x 2 0 * y 2 1 + (x 0 1 * y 0 0 + x 1 1 * y 1 0 + x 2 1 * y 2 0)) := by
  simp only [Spec.along, Fin.sum_univ_three]
  change S 0 * _ + S 5 * _ + S 4 * _ + (S 5 * _ + S 1 * _ + S 3 * _) + (S 4 * _ + S 3 * _ + S 2 * _) = _
  ring

theorem plane_isVoigt : Spec.IsVoigt plane where
  symm i j := by fin_cases i <;> fin_cases j <;> rfl
  greenLagrange H k := by
    rw [along_plane, along_plane]
    fin_cases k <;> simp [plane, greenLagrange2, toVoigt2, Matrix.mul_apply, Fin.sum_univ_two, Pi.single_apply,
      Matrix.one_apply, strainFactor] <;> norm_num <;> ring
  bop F g k a := by
    rw [along_plane]
    fin_cases k <;> fin_cases a <;> simp [plane, bop2, rowMatrix, Pi.single_apply] <;> ring
  columnM F H k := by
    rw [along_plane]
    fin_cases k <;> simp [plane, columnM2, Fin.sum_univ_two, Pi.single_apply, dotProduct] <;> ring

theorem space_isVoigt : Spec.IsVoigt space where
  symm i j := by fin_cases i <;> fin_cases j <;> rfl
  greenLagrange H k := by
    rw [along_space, along_space]
    fin_cases k <;> simp [space, greenLagrange3, toVoigt3, Matrix.mul_apply, Fin.sum_univ_three, Pi.single_apply,
      Matrix.one_apply, strainFactor] <;> norm_num <;> ring
  bop F g k a := by
    rw [along_space]
    fin_cases k <;> fin_cases a <;> simp [space, bop3, rowMatrix, Pi.single_apply] <;> ring
  columnM F H k := by
    rw [along_space]
    fin_cases k <;> simp [space, columnM3, Fin.sum_univ_three, Pi.single_apply, dotProduct] <;> ring

/-! ### Algebra of `along` -/

section Along

variable (v : Fin d → Fin d → Fin q) (S : Fin q → ℝ)

theorem along_add_left (x x' y : Matrix (Fin d) (Fin d) ℝ) :
    Spec.along v S (x + x') y = Spec.along v S x y + Spec.along v S x' y := by
  simp only [Spec.along, Matrix.add_apply, add_mul, Finset.sum_add_distrib, mul_add]

theorem along_smul_left (c : ℝ) (x y : Matrix (Fin d) (Fin d) ℝ) : Spec.along v S (c • x) y = c * Spec.along v S x y := by
  simp only [Spec.along, Matrix.smul_apply, smul_eq_mul, Finset.mul_sum]
  exact Finset.sum_congr rfl fun i _ => Finset.sum_congr rfl fun j _ => Finset.sum_congr rfl fun a _ => by ring

theorem along_symm (hv : ∀ i j, v i j = v j i) (x y : Matrix (Fin d) (Fin d) ℝ) :
    Spec.along v S x y = Spec.along v S y x := by
  simp only [Spec.along]
  rw [Finset.sum_comm]
  refine Finset.sum_congr rfl fun i _ => Finset.sum_congr rfl fun j _ => ?_
  rw [hv]
  congr 1
  exact Finset.sum_congr rfl fun a _ => mul_comm _ _

theorem along_zero_left (y : Matrix (Fin d) (Fin d) ℝ) : Spec.along v S 0 y = 0 := by simp [Spec.along]

theorem along_sum_left {ι : Type*} (s : Finset ι) (x : ι → Matrix (Fin d) (Fin d) ℝ) (y : Matrix (Fin d) (Fin d) ℝ) :
    Spec.along v S (∑ i ∈ s, x i) y = ∑ i ∈ s, Spec.along v S (x i) y := by
  classical
  induction s using Finset.induction_on with
  | empty => simp [along_zero_left]
  | insert i s hi ih => rw [Finset.sum_insert hi, Finset.sum_insert hi, along_add_left, ih]

theorem along_single_sum (x y : Matrix (Fin d) (Fin d) ℝ) :
    ∑ k, Spec.along v (Pi.single k 1) x y * S k = Spec.along v S x y := by
  simp only [Spec.along, Finset.sum_mul]
  rw [Finset.sum_comm]
  refine Finset.sum_congr rfl fun i _ => ?_
  rw [Finset.sum_comm]
  refine Finset.sum_congr rfl fun j _ => ?_
  simp only [Pi.single_apply, ite_mul, one_mul, zero_mul]
  rw [Finset.sum_ite_eq Finset.univ (v i j)]
  simp [mul_comm]

/-- Entries of a moving matrix and their derivatives. -/
def HasDerivs (x : ℝ → Matrix (Fin d) (Fin d) ℝ) (dx : Matrix (Fin d) (Fin d) ℝ) : Prop :=
  ∀ i j, HasDerivAt (fun t => x t i j) (dx i j) 0

theorem hasDerivAt_along {x y : ℝ → Matrix (Fin d) (Fin d) ℝ} {dx dy : Matrix (Fin d) (Fin d) ℝ} (hx : HasDerivs x dx)
    (hy : HasDerivs y dy) :
    HasDerivAt (fun t => Spec.along v S (x t) (y t)) (Spec.along v S dx (y 0) + Spec.along v S (x 0) dy) 0 := by
  have h : HasDerivAt (fun t => ∑ i, ∑ j, S (v i j) * ∑ a, x t a i * y t a j)
      (∑ i, ∑ j, S (v i j) * ∑ a, (dx a i * y 0 a j + x 0 a i * dy a j)) 0 :=
    HasDerivAt.fun_sum fun i _ => HasDerivAt.fun_sum fun j _ => HasDerivAt.const_mul _ <|
      HasDerivAt.fun_sum fun a _ => (hx a i).mul (hy a j)
  refine h.congr_deriv ?_
  simp only [Spec.along, Finset.sum_add_distrib, mul_add]

end Along

theorem HasDerivs.const (x : Matrix (Fin d) (Fin d) ℝ) : HasDerivs (fun _ => x) 0 := fun i j => hasDerivAt_const _ _

/-! ### Enhanced Green-Lagrange strains -/

/-- A deformation gradient `F` with derivatives: `A` and `B` are the derivatives with respect to the displacements and the
internal variables, `G` the mixed second derivative. -/
structure Spec.Deformation (F : NodeVec n d → (Fin m → ℝ) → Matrix (Fin d) (Fin d) ℝ)
    (A : NodeVec n d → (Fin m → ℝ) → Fin n → Fin d → ℝ) (B : NodeVec n d → (Fin m → ℝ) → Fin m → Matrix (Fin d) (Fin d) ℝ)
    (G : Fin m → Fin n → Fin d → ℝ) : Prop where
  F : ∀ u alpha v al w, al 0 = alpha → HasDerivAt al w 0 → HasDerivs (fun t => F (u + t • v) (al t))
    (∑ I, ∑ a, v I a • rowMatrix a (A u alpha I) + ∑ r, w r • B u alpha r)
  A : ∀ u alpha v al w I a, al 0 = alpha → HasDerivAt al w 0 → HasDerivs (fun t => rowMatrix a (A (u + t • v) (al t) I))
    (∑ r, w r • rowMatrix a (G r I))
  B : ∀ u alpha v al w r, al 0 = alpha → HasDerivAt al w 0 → HasDerivs (fun t => B (u + t • v) (al t) r)
    (∑ J, ∑ b, v J b • rowMatrix b (G r J))

/-- Green-Lagrange strains of a deformation gradient with derivatives satisfy the contract. -/
theorem deformation_contract (dim : Dimension d q) (hdim : Spec.IsVoigt dim)
    (F : NodeVec n d → (Fin m → ℝ) → Matrix (Fin d) (Fin d) ℝ) (A : NodeVec n d → (Fin m → ℝ) → Fin n → Fin d → ℝ)
    (B : NodeVec n d → (Fin m → ℝ) → Fin m → Matrix (Fin d) (Fin d) ℝ) (G : Fin m → Fin n → Fin d → ℝ)
    (hF : Spec.Deformation F A B G) (p : EASPoint n d q m)
    (h1 : ∀ u alpha, p.strain u alpha = dim.greenLagrange (F u alpha - 1))
    (h2 : ∀ u alpha I, p.Ed u alpha I = dim.bop (F u alpha) (A u alpha I))
    (h3 : ∀ u alpha k r, p.Ea u alpha k r = dim.columnM (F u alpha) (B u alpha r) k)
    (h4 : ∀ u alpha S I J a b, p.Edd u alpha S I J a b =
      Spec.along dim.voigt S (rowMatrix a (A u alpha I)) (rowMatrix b (A u alpha J)))
    (h5 : ∀ u alpha S r s, p.Eaa u alpha S r s = Spec.along dim.voigt S (B u alpha r) (B u alpha s))
    (h6 : ∀ u alpha S I r a, p.Ead u alpha S I r a = Spec.along dim.voigt S (B u alpha r) (rowMatrix a (A u alpha I)) +
      Spec.along dim.voigt S (rowMatrix a (G r I)) (F u alpha))
    (u : NodeVec n d) (alpha : Fin m → ℝ) : Spec.EASContract p u alpha := by
  have hs := hdim.symm
  have h0 : ∀ v : NodeVec n d, u + (0 : ℝ) • v = u := fun v => by simp
  refine ⟨fun v al w hal hal' => ?_, fun v al w hal hal' S I a => ?_, fun v al w hal hal' S r => ?_,
    fun S I J a b => ?_, fun S r s => ?_⟩
  · rw [hasDerivAt_pi]
    intro k
    have hd := hF.F u alpha v al w hal hal'
    have h := ((hasDerivAt_along dim.voigt (Pi.single k 1) hd hd).sub_const
      (Spec.along dim.voigt (Pi.single k 1) 1 1)).const_mul (1 / 2 : ℝ)
    have e : (fun t : ℝ => p.strain (u + t • v) (al t) k) = fun t : ℝ => 1 / 2 *
        (Spec.along dim.voigt (Pi.single k 1) (F (u + t • v) (al t)) (F (u + t • v) (al t)) -
          Spec.along dim.voigt (Pi.single k 1) 1 1) := by
      funext t
      rw [h1, hdim.greenLagrange, add_sub_cancel]
    rw [e]
    refine h.congr_deriv ?_
    simp only [h0, hal]
    rw [along_symm _ _ hs (F u alpha), along_add_left, along_sum_left, along_sum_left]
    simp only [along_sum_left, along_smul_left, h2, h3, hdim.bop, hdim.columnM]
    simp only [mul_comm (v _ _), mul_comm (w _)]
    ring
  · have h := hasDerivAt_along dim.voigt S (hF.A u alpha v al w I a hal hal') (hF.F u alpha v al w hal hal')
    simp only [h2, hdim.bop, along_single_sum]
    refine h.congr_deriv ?_
    simp only [h0, hal]
    rw [along_symm _ _ hs (rowMatrix a (A u alpha I)), along_add_left, along_sum_left, along_sum_left, along_sum_left]
    simp only [along_sum_left, along_smul_left, h4, h6, add_mul, Finset.sum_add_distrib]
    simp only [mul_comm (v _ _), mul_comm (w _), along_symm _ _ hs (rowMatrix a (A u alpha I))]
    ring
  · have h := hasDerivAt_along dim.voigt S (hF.B u alpha v al w r hal hal') (hF.F u alpha v al w hal hal')
    simp only [h3, hdim.columnM, along_single_sum]
    refine h.congr_deriv ?_
    simp only [h0, hal]
    rw [along_symm _ _ hs (B u alpha r), along_add_left, along_sum_left, along_sum_left, along_sum_left]
    simp only [along_sum_left, along_smul_left, h5, h6, add_mul, Finset.sum_add_distrib]
    simp only [mul_comm (v _ _), mul_comm (w _), along_symm _ _ hs (B u alpha r)]
    ring
  · rw [h4, h4, along_symm _ _ hs]
  · rw [h5, h5, along_symm _ _ hs]

/-! ### The functions of the model -/

theorem foldl_double_sum (g : Fin d → Fin d → ℝ) :
    (List.finRange d).foldl (fun kg i => (List.finRange d).foldl (fun kg j => kg + g i j) kg) 0 = ∑ i, ∑ j, g i j := by
  have h1 : ∀ (l : List (Fin d)) (f : Fin d → ℝ) (x : ℝ), l.foldl (fun kg j => kg + f j) x = x + (l.map f).sum := by
    intro l f
    induction l with
    | nil => intro x; simp
    | cons a l ih => intro x; rw [List.foldl_cons, ih, List.map_cons, List.sum_cons, add_assoc]
  simp only [h1, zero_add, ← List.ofFn_eq_map, List.sum_ofFn]

theorem alongStress_eq (dim : Dimension d q) (hdim : Spec.IsVoigt dim) (S : Fin q → ℝ) (x y : Matrix (Fin d) (Fin d) ℝ) :
    alongStress dim S x y = Spec.along dim.voigt S x y := by
  have h : alongStress dim S x y = ∑ i, ∑ j, 0.5 * S (dim.voigt i j) * (xᵀ i ⬝ᵥ yᵀ j + xᵀ j ⬝ᵥ yᵀ i) :=
    foldl_double_sum _
  have h' : ∑ i, ∑ j, S (dim.voigt i j) * (xᵀ j ⬝ᵥ yᵀ i) = Spec.along dim.voigt S x y := by
    rw [Finset.sum_comm]
    exact Finset.sum_congr rfl fun i _ => Finset.sum_congr rfl fun j _ => by rw [hdim.symm]; rfl
  have h'' : ∑ i, ∑ j, S (dim.voigt i j) * (xᵀ i ⬝ᵥ yᵀ j) = Spec.along dim.voigt S x y := rfl
  rw [h]
  calc ∑ i, ∑ j, 0.5 * S (dim.voigt i j) * (xᵀ i ⬝ᵥ yᵀ j + xᵀ j ⬝ᵥ yᵀ i)
      = (1 / 2) * (∑ i, ∑ j, S (dim.voigt i j) * (xᵀ i ⬝ᵥ yᵀ j)) +
          (1 / 2) * (∑ i, ∑ j, S (dim.voigt i j) * (xᵀ j ⬝ᵥ yᵀ i)) := by
        simp only [Finset.mul_sum, ← Finset.sum_add_distrib]
        refine Finset.sum_congr rfl fun i _ => Finset.sum_congr rfl fun j _ => ?_
        norm_num
        ring
    _ = _ := by rw [h', h'']; ring

theorem alongStressTransposed_eq (dim : Dimension d q) (hdim : Spec.IsVoigt dim) (S : Fin q → ℝ)
    (Hp R X F : Matrix (Fin d) (Fin d) ℝ) :
    alongStressTransposed dim S Hp R X F = Spec.along dim.voigt S Hp R + Spec.along dim.voigt S X F := by
  rw [← alongStress_eq dim hdim, ← alongStress_eq dim hdim]
  have h : ∀ x y : Matrix (Fin d) (Fin d) ℝ,
      alongStress dim S x y = ∑ i, ∑ j, 0.5 * S (dim.voigt i j) * (xᵀ i ⬝ᵥ yᵀ j + xᵀ j ⬝ᵥ yᵀ i) :=
    fun _ _ => foldl_double_sum _
  have h' : alongStressTransposed dim S Hp R X F = ∑ i, ∑ j, 0.5 * S (dim.voigt i j) *
      (Hpᵀ i ⬝ᵥ Rᵀ j + Hpᵀ j ⬝ᵥ Rᵀ i + Xᵀ i ⬝ᵥ Fᵀ j + Xᵀ j ⬝ᵥ Fᵀ i) := foldl_double_sum _
  rw [h', h, h]
  simp only [← Finset.sum_add_distrib]
  exact Finset.sum_congr rfl fun i _ => Finset.sum_congr rfl fun j _ => by ring

theorem along_rows (v : Fin d → Fin d → Fin q) (S : Fin q → ℝ) (g h : Fin d → ℝ) (a b : Fin d) :
    Spec.along v S (rowMatrix a g) (rowMatrix b h) =
      ((∑ i, ∑ j, S (v i j) * g i * h j) • (1 : Matrix (Fin d) (Fin d) ℝ)) a b := by
  by_cases hab : a = b
  · subst hab
    simp [Spec.along, rowMatrix, mul_assoc]
  · simp [Spec.along, rowMatrix, hab, Matrix.one_apply, Ne.symm hab]

theorem sumModes_eq (H : Fin m → Matrix (Fin d) (Fin d) ℝ) (alpha : Fin m → ℝ) : sumModes H alpha = ∑ p, alpha p • H p := by
  have : ∀ (l : List (Fin m)) (x : Matrix (Fin d) (Fin d) ℝ),
      l.foldl (fun Ht p => Ht + alpha p • H p) x = x + (l.map fun p => alpha p • H p).sum := by
    intro l
    induction l with
    | nil => intro x; simp
    | cons a l ih => intro x; rw [List.foldl_cons, ih, List.map_cons, List.sum_cons, add_assoc]
  rw [sumModes, this, zero_add, ← List.ofFn_eq_map, List.sum_ofFn]

theorem gradient_line (dN : Fin n → Fin d → ℝ) (u v : NodeVec n d) (t : ℝ) :
    gradient dN (u + t • v) = gradient dN u + t • gradient dN v := by
  ext i j
  simp only [gradient, Matrix.of_apply, Matrix.add_apply, Matrix.smul_apply, Pi.add_apply, Pi.smul_apply, smul_eq_mul, add_mul,
    Finset.sum_add_distrib, Finset.mul_sum, mul_assoc]

theorem gradient_rows (dN : Fin n → Fin d → ℝ) (v : NodeVec n d) :
    gradient dN v = ∑ I, ∑ a, v I a • rowMatrix a (dN I) := by
  ext i j
  simp [gradient, rowMatrix, Matrix.sum_apply]

theorem hasDerivs_gradient (dN : Fin n → Fin d → ℝ) (u v : NodeVec n d) :
    HasDerivs (fun t => gradient dN (u + t • v)) (gradient dN v) := by
  intro i j
  simp only [gradient_line]
  refine hasDerivAt_quadratic (a := gradient dN u i j) (c := 0) fun t => ?_
  simp

theorem hasDerivs_sumModes (H : Fin m → Matrix (Fin d) (Fin d) ℝ) (al : ℝ → Fin m → ℝ) (w : Fin m → ℝ)
    (h : HasDerivAt al w 0) : HasDerivs (fun t => sumModes H (al t)) (sumModes H w) := by
  intro i j
  rw [hasDerivAt_pi] at h
  simp only [sumModes_eq, Matrix.sum_apply, Matrix.smul_apply, smul_eq_mul]
  exact HasDerivAt.fun_sum fun p _ => (h p).mul_const _

theorem HasDerivs.add {x y : ℝ → Matrix (Fin d) (Fin d) ℝ} {dx dy : Matrix (Fin d) (Fin d) ℝ} (hx : HasDerivs x dx)
    (hy : HasDerivs y dy) : HasDerivs (fun t => x t + y t) (dx + dy) := fun i j => (hx i j).add (hy i j)

theorem HasDerivs.mul {x y : ℝ → Matrix (Fin d) (Fin d) ℝ} {dx dy : Matrix (Fin d) (Fin d) ℝ} (hx : HasDerivs x dx)
    (hy : HasDerivs y dy) : HasDerivs (fun t => x t * y t) (dx * y 0 + x 0 * dy) := by
  intro i j
  simp only [Matrix.mul_apply, Matrix.add_apply, ← Finset.sum_add_distrib]
  exact HasDerivAt.fun_sum fun k _ => (hx i k).mul (hy k j)

theorem HasDerivs.transpose {x : ℝ → Matrix (Fin d) (Fin d) ℝ} {dx : Matrix (Fin d) (Fin d) ℝ} (hx : HasDerivs x dx) :
    HasDerivs (fun t => (x t)ᵀ) dxᵀ := fun i j => hx j i

theorem HasDerivs.congr {x : ℝ → Matrix (Fin d) (Fin d) ℝ} {dx dx' : Matrix (Fin d) (Fin d) ℝ} (hx : HasDerivs x dx)
    (h : dx = dx') : HasDerivs x dx' := h ▸ hx

/-- C49, displacement gradient. The enhanced Green-Lagrange strain with modes added to the displacement gradient satisfies
the contract at every state, in two and three dimensions. -/
theorem displacementGradient_contract (dim : Dimension d q) (hdim : Spec.IsVoigt dim) (detJ weight : ℝ)
    (dN : Fin n → Fin d → ℝ) (H : Fin m → Matrix (Fin d) (Fin d) ℝ) (u : NodeVec n d) (alpha : Fin m → ℝ) :
    Spec.EASContract (displacementGradient dim detJ weight dN H) u alpha := by
  refine deformation_contract dim hdim (fun u alpha => 1 + (gradient dN u + sumModes H alpha)) (fun _ _ => dN) (fun _ _ => H)
    (fun _ _ => 0) ⟨?_, ?_, ?_⟩ _ ?_ ?_ ?_ ?_ ?_ ?_ u alpha
  · intro u alpha v al w hal hal'
    refine ((HasDerivs.const 1).add ((hasDerivs_gradient dN u v).add (hasDerivs_sumModes H al w hal'))).congr ?_
    rw [zero_add, gradient_rows, sumModes_eq]
  · intro u alpha v al w I a hal hal'
    refine (HasDerivs.const (rowMatrix a (dN I))).congr ?_
    ext i j
    simp [Matrix.sum_apply, rowMatrix]
  · intro u alpha v al w r hal hal'
    refine (HasDerivs.const (H r)).congr ?_
    ext i j
    simp [Matrix.sum_apply, rowMatrix]
  · intro u alpha
    simp [displacementGradient]
  · intro u alpha I
    rfl
  · intro u alpha k r
    rfl
  · intro u alpha S I J a b
    rw [along_rows]
    rfl
  · intro u alpha S r s
    exact alongStress_eq dim hdim S _ _
  · intro u alpha S I r a
    have h0 : rowMatrix a (0 : Fin d → ℝ) = 0 := by ext i j; simp [rowMatrix]
    rw [h0, along_zero_left, add_zero]
    exact alongStress_eq dim hdim S _ _

theorem enhancedDN_eq (H : Fin m → Matrix (Fin d) (Fin d) ℝ) (alpha : Fin m → ℝ) (dN dN0 : Fin d → ℝ) :
    enhancedDN H alpha dN dN0 = dN + sumModes H alpha *ᵥ dN0 := by
  have : ∀ (l : List (Fin m)) (x : Fin d → ℝ),
      l.foldl (fun v t => v + H t *ᵥ (alpha t • dN0)) x = x + (l.map fun p => H p *ᵥ (alpha p • dN0)).sum := by
    intro l
    induction l with
    | nil => intro x; simp
    | cons a l ih => intro x; rw [List.foldl_cons, ih, List.map_cons, List.sum_cons, add_assoc]
  rw [enhancedDN, this, zero_add, ← List.ofFn_eq_map, List.sum_ofFn, sumModes_eq, Matrix.sum_mulVec]
  congr 1
  refine Finset.sum_congr rfl fun p _ => ?_
  rw [Matrix.mulVec_smul, Matrix.smul_mulVec]

theorem rowMatrix_mul (a : Fin d) (g : Fin d → ℝ) (H : Matrix (Fin d) (Fin d) ℝ) :
    rowMatrix a g * Hᵀ = rowMatrix a (H *ᵥ g) := by
  ext i j
  by_cases h : i = a
  · simp [rowMatrix, Matrix.mul_apply, h, Matrix.mulVec, dotProduct, mul_comm]
  · simp [rowMatrix, Matrix.mul_apply, h]

theorem rowMatrix_add (a : Fin d) (g h : Fin d → ℝ) : rowMatrix a (g + h) = rowMatrix a g + rowMatrix a h := by
  ext i j
  by_cases h : i = a <;> simp [rowMatrix, h]

/-- `val2` and `val3` are the second derivatives along a stress. -/
def Spec.IsVal (dim : Dimension d q) (val : (Fin q → ℝ) → (Fin d → ℝ) → (Fin d → ℝ) → ℝ) : Prop :=
  ∀ S g h, val S g h = ∑ i, ∑ j, S (dim.voigt i j) * g i * h j

theorem plane_isVal : Spec.IsVal plane val2 := by
  intro S g h
  simp only [Fin.sum_univ_two]
  change _ = S 0 * _ * _ + S 2 * _ * _ + (S 2 * _ * _ + S 1 * _ * _)
  simp only [val2]
  ring

theorem space_isVal : Spec.IsVal space val3 := by
  intro S g h
  simp only [Fin.sum_univ_three]
  change _ = S 0 * _ * _ + S 5 * _ * _ + S 4 * _ * _ + (S 5 * _ * _ + S 1 * _ * _ + S 3 * _ * _) +
    (S 4 * _ * _ + S 3 * _ * _ + S 2 * _ * _)
  simp only [val3]
  ring

/-- C49, transposed displacement gradient. The enhanced Green-Lagrange strain of
`1 + grad u + (1 + grad₀ u) H̃ᵀ` satisfies the contract at every state, in two and three dimensions. -/
theorem displacementGradientTransposed_contract (dim : Dimension d q) (hdim : Spec.IsVoigt dim)
    (val : (Fin q → ℝ) → (Fin d → ℝ) → (Fin d → ℝ) → ℝ) (hval : Spec.IsVal dim val) (detJ weight : ℝ)
    (dN dN0 : Fin n → Fin d → ℝ) (H : Fin m → Matrix (Fin d) (Fin d) ℝ) (u : NodeVec n d) (alpha : Fin m → ℝ) :
    Spec.EASContract (displacementGradientTransposed dim val detJ weight dN dN0 H) u alpha := by
  refine deformation_contract dim hdim
    (fun u alpha => 1 + (gradient dN u + (1 + gradient dN0 u) * (sumModes H alpha)ᵀ))
    (fun _ alpha I => enhancedDN H alpha (dN I) (dN0 I)) (fun u _ r => (1 + gradient dN0 u) * (H r)ᵀ)
    (fun r I => H r *ᵥ dN0 I) ⟨?_, ?_, ?_⟩ _ ?_ ?_ ?_ ?_ ?_ ?_ u alpha
  · intro u alpha v al w hal hal'
    refine ((HasDerivs.const 1).add ((hasDerivs_gradient dN u v).add (((HasDerivs.const 1).add
      (hasDerivs_gradient dN0 u v)).mul (hasDerivs_sumModes H al w hal').transpose))).congr ?_
    simp only [zero_add, zero_smul, add_zero, hal, enhancedDN_eq, rowMatrix_add, smul_add, Finset.sum_add_distrib,
      ← rowMatrix_mul]
    rw [gradient_rows dN, gradient_rows dN0 v, add_assoc]
    congr 2
    · rw [Finset.sum_mul]
      simp only [Finset.sum_mul, Matrix.smul_mul]
    · rw [sumModes_eq, Matrix.transpose_sum, Finset.mul_sum]
      simp only [Matrix.transpose_smul, Matrix.mul_smul]
  · intro u alpha v al w I a hal hal'
    have h := (HasDerivs.const (rowMatrix a (dN I))).add ((HasDerivs.const (rowMatrix a (dN0 I))).mul
      (hasDerivs_sumModes H al w hal').transpose)
    simp only [enhancedDN_eq, rowMatrix_add, ← rowMatrix_mul]
    refine h.congr ?_
    rw [zero_mul, zero_add, zero_add, sumModes_eq, Matrix.transpose_sum, Finset.mul_sum]
    simp only [Matrix.transpose_smul, Matrix.mul_smul]
  · intro u alpha v al w r hal hal'
    refine (((HasDerivs.const 1).add (hasDerivs_gradient dN0 u v)).mul (HasDerivs.const (H r)ᵀ)).congr ?_
    rw [mul_zero, add_zero, zero_add, gradient_rows, Finset.sum_mul]
    simp only [Finset.sum_mul, Matrix.smul_mul, rowMatrix_mul]
  · intro u alpha
    simp [displacementGradientTransposed]
  · intro u alpha I
    rfl
  · intro u alpha k r
    rfl
  · intro u alpha S I J a b
    rw [along_rows, ← hval]
    rfl
  · intro u alpha S r s
    exact alongStress_eq dim hdim S _ _
  · intro u alpha S I r a
    rw [← rowMatrix_mul]
    exact alongStressTransposed_eq dim hdim S _ _ _ _

/-- The strain of both functions is the Green-Lagrange strain `(Fᵀ F - 1) / 2` of the enhanced deformation gradient. -/
theorem greenLagrange_plane (H : Matrix (Fin 2) (Fin 2) ℝ) :
    plane.greenLagrange H = toVoigt2 ((1 / 2 : ℝ) • ((1 + H)ᵀ * (1 + H) - 1)) true := by
  have : H + Hᵀ + Hᵀ * H = (1 + H)ᵀ * (1 + H) - 1 := by
    rw [Matrix.transpose_add, Matrix.transpose_one, add_mul, mul_add, mul_add, one_mul, one_mul, mul_one]
    abel
  show toVoigt2 ((0.5 : ℝ) • (H + Hᵀ + Hᵀ * H)) true = _
  rw [this]
  norm_num

theorem greenLagrange_space (H : Matrix (Fin 3) (Fin 3) ℝ) :
    space.greenLagrange H = toVoigt3 ((1 / 2 : ℝ) • ((1 + H)ᵀ * (1 + H) - 1)) true := by
  have : H + Hᵀ + Hᵀ * H = (1 + H)ᵀ * (1 + H) - 1 := by
    rw [Matrix.transpose_add, Matrix.transpose_one, add_mul, mul_add, mul_add, one_mul, one_mul, mul_one]
    abel
  show toVoigt3 ((0.5 : ℝ) • (H + Hᵀ + Hᵀ * H)) true = _
  rw [this]
  norm_num

/-! ### Objectivity -/

/-- C49, objectivity. Superposing a rotation `Q` on the displacement gradient at the integration point and at the center
leaves the transposed enhanced strain unchanged for every internal variable. -/
theorem displacementGradientTransposed_objective (detJ weight : ℝ) (dN dN0 : Fin n → Fin 3 → ℝ)
    (H : Fin m → Matrix (Fin 3) (Fin 3) ℝ) (u u' : NodeVec n 3) (alpha : Fin m → ℝ) (Q : Matrix (Fin 3) (Fin 3) ℝ)
    (hQ : Qᵀ * Q = 1) (h1 : 1 + gradient dN u' = Q * (1 + gradient dN u))
    (h0 : 1 + gradient dN0 u' = Q * (1 + gradient dN0 u)) :
    (displacementGradientTransposed space val3 detJ weight dN dN0 H).strain u' alpha =
      (displacementGradientTransposed space val3 detJ weight dN dN0 H).strain u alpha := by
  show space.greenLagrange _ = space.greenLagrange _
  rw [greenLagrange_space, greenLagrange_space]
  have hF : 1 + (gradient dN u' + (1 + gradient dN0 u') * (sumModes H alpha)ᵀ) =
      Q * (1 + (gradient dN u + (1 + gradient dN0 u) * (sumModes H alpha)ᵀ)) := by
    rw [← add_assoc, h1, h0, ← add_assoc, mul_add Q (1 + gradient dN u), Matrix.mul_assoc]
  rw [hF, Matrix.transpose_mul, Matrix.mul_assoc, ← Matrix.mul_assoc Qᵀ, hQ, one_mul]

/-- Objectivity of an enhanced strain in the plane: rotations leave it unchanged for fixed internal variables. -/
def Spec.PlaneObjective (strain : (Fin n → Fin 2 → ℝ) → (Fin m → Matrix (Fin 2) (Fin 2) ℝ) → NodeVec n 2 → (Fin m → ℝ) → Fin 3 → ℝ) :
    Prop :=
  ∀ dN H u u' alpha (Q : Matrix (Fin 2) (Fin 2) ℝ), Qᵀ * Q = 1 → Q.det = 1 →
    1 + gradient dN u' = Q * (1 + gradient dN u) → strain dN H u' alpha = strain dN H u alpha

/-- C49, objectivity of the other function. `DisplacementGradient` adds the modes to the gradient and is not objective: the
half turn of an element whose internal variable is one changes the strain. -/
theorem displacementGradient_not_objective (detJ weight : ℝ) :
    ¬ Spec.PlaneObjective (n := 2) (m := 1) fun dN H => (displacementGradient plane detJ weight dN H).strain := by
  intro h
  have := h (fun I j => if I = j then 1 else 0) (fun _ => !![1, 0; 0, 0]) 0 (fun I i => if I = i then -2 else 0) 1 (-1)
    (by simp) (by simp [Matrix.det_fin_two]) (by
      ext i j
      fin_cases i <;> fin_cases j <;> simp [gradient] <;> norm_num)
  have h0 := congrFun this 0
  simp [displacementGradient, plane, greenLagrange2, toVoigt2, gradient, sumModes_eq, Fin.sum_univ_two, Matrix.mul_apply, vecHead, vecTail] at h0
  norm_num at h0

/-! ### Nonlinear elements -/

/-- A state of an element with the displacement gradient functions is regular for every consistent law. -/
example (law : Law 6) (hl : LawContract law Set.univ) (dN dN0 : Fin 8 → Fin 3 → ℝ) (H : Fin 9 → Matrix (Fin 3) (Fin 3) ℝ)
    (u : NodeVec 8 3) (alpha : Fin 9 → ℝ) :
    Spec.Regular law Set.univ [displacementGradient space 1 1 dN H, displacementGradientTransposed space val3 1 1 dN dN0 H]
      u alpha where
  law := hl
  points gp hgp := by
    rcases List.mem_cons.1 hgp with rfl | hgp
    · exact displacementGradient_contract space space_isVoigt _ _ _ _ _ _
    · rcases List.mem_cons.1 hgp with rfl | hgp
      · exact displacementGradientTransposed_contract space space_isVoigt val3 space_isVal _ _ _ _ _ _ _
      · simp at hgp
  strains _ _ := trivial

/-- Green-Lagrange strains of dune plus modes, on a membrane: a nonlinear compatible strain. -/
example (J : Fin 2 → Fin 3 → ℝ) (dN : Fin 4 → Fin 2 → ℝ) (M : Matrix (Fin 3) (Fin 4) ℝ) (u : NodeVec 4 3)
    (alpha : Fin 4 → ℝ) : Spec.EASContract (additive (Membrane.point 1 1 J dN) M) u alpha :=
  additive_contract _ _ u alpha (Membrane.membrane_contract 1 1 J dN u)

/-- A linear element with one mode: its matrix `D` is invertible. -/
noncomputable def Spec.oneMode : List (LinPoint 4 2 3 × Matrix (Fin 3) (Fin 1) ℝ) :=
  [(⟨1, 2, fun I => !![(I : ℝ), 0; 0, 1; 1, 3]⟩, !![1; 2; 0])]

theorem oneMode_D : calculateD (linearLaw 1) (linearPoints Spec.oneMode) 0 0 = !![10] := by
  ext i j
  fin_cases i; fin_cases j
  simp [calculateD, linearPoints, Spec.oneMode, additive, LinPoint.toPoint, linearLaw, Matrix.mul_apply, Fin.sum_univ_three]
  norm_num

example : ∃ Kc, (∀ u alpha, calculateMatrix (linearLaw 1) (linearPoints Spec.oneMode) .stiffness u alpha 0 = some Kc) ∧
    ∀ u alpha, calculateVector (linearLaw 1) (linearPoints Spec.oneMode) .forces u alpha 0 = some (mul Kc u) := by
  obtain ⟨Kc, h1, h2, -⟩ := eas_linear (1 : Matrix (Fin 3) (Fin 3) ℝ) Spec.oneMode Matrix.isSymm_one (by norm_num)
    (by decide) (by rw [oneMode_D]; simp)
  exact ⟨Kc, h1, h2⟩

/-- The path of internal variables of the linear element: the hypotheses of the condensed tangent hold. -/
example (u v : NodeVec 4 2) : ∃ (al : ℝ → Fin 1 → ℝ) (w : Fin 1 → ℝ), HasDerivAt al w 0 ∧
    ∀ t, calculateRtilde (linearLaw 1) (linearPoints Spec.oneMode) (u + t • v) (al t) = 0 := by
  obtain ⟨Kc, -, -, h3, -⟩ := eas_linear (1 : Matrix (Fin 3) (Fin 3) ℝ) Spec.oneMode Matrix.isSymm_one (by norm_num)
    (by decide) (by rw [oneMode_D]; simp)
  refine ⟨fun t => linearAlpha (linearLaw 1) (linearPoints Spec.oneMode) (u + t • v) 0,
    linearAlpha (linearLaw 1) (linearPoints Spec.oneMode) v 0, ?_, fun t => h3 _ _⟩
  have hlin : ∀ t : ℝ, linearAlpha (linearLaw 1) (linearPoints Spec.oneMode) (u + t • v) 0 =
      linearAlpha (linearLaw 1) (linearPoints Spec.oneMode) u 0 +
        t • linearAlpha (linearLaw 1) (linearPoints Spec.oneMode) v 0 := by
    intro t
    simp only [linearAlpha, one_ne_zero, if_false, mulL]
    rw [linear_D 1 Spec.oneMode (u + t • v) u 0 0, linear_L 1 Spec.oneMode (u + t • v) u 0 0,
      linear_D 1 Spec.oneMode v u 0 0, linear_L 1 Spec.oneMode v u 0 0]
    simp only [Pi.add_apply, Pi.smul_apply, Matrix.mulVec_add, Matrix.mulVec_smul, Finset.sum_add_distrib, ← Finset.smul_sum,
      neg_add, smul_neg]
  simp only [hlin]
  rw [hasDerivAt_pi]
  intro r
  refine hasDerivAt_quadratic (a := linearAlpha (linearLaw 1) (linearPoints Spec.oneMode) u 0 r) (c := 0) fun t => ?_
  simp

theorem oneMode_regular (u : NodeVec 4 2) (alpha : Fin 1 → ℝ) :
    Spec.Regular (linearLaw 1) Set.univ (linearPoints Spec.oneMode) u alpha where
  law := linearLaw_contract 1 Matrix.isSymm_one
  points gp hgp := by
    obtain ⟨p, -, rfl⟩ := List.mem_map.1 hgp
    exact additive_contract _ _ u alpha (linPoint_contract p.1 u)
  strains _ _ := trivial

theorem oneMode_unit (u : NodeVec 4 2) (alpha : Fin 1 → ℝ) :
    IsUnit (calculateD (linearLaw 1) (linearPoints Spec.oneMode) u alpha).det := by
  rw [linear_D 1 Spec.oneMode u 0 alpha 0, oneMode_D]
  simp

example (u : NodeVec 4 2) (alpha : Fin 1 → ℝ) := eas_gradient _ _ _ u alpha (oneMode_regular u alpha)

example (u : NodeVec 4 2) (alpha : Fin 1 → ℝ) := eas_tangent _ _ _ u alpha (oneMode_regular u alpha)

example (u : NodeVec 4 2) (alpha : Fin 1 → ℝ) : ∃ Kc, calculateMatrix (linearLaw 1) (linearPoints Spec.oneMode) .stiffness u alpha 0 =
    some Kc ∧ Symmetric Kc ∧ ∀ beta, (1 / 2) * work (mul Kc u) u ≤ Spec.energy (linearLaw 1) (linearPoints Spec.oneMode) u beta := by
  obtain ⟨Kc, h1, -⟩ := eas_linear (1 : Matrix (Fin 3) (Fin 3) ℝ) Spec.oneMode Matrix.isSymm_one (by norm_num)
    (by decide) (by rw [oneMode_D]; simp)
  refine ⟨Kc, h1 u alpha, eas_symmetric _ _ _ u alpha 0 Kc (by norm_num) (h1 u alpha),
    (eas_linear_minimum (1 : Matrix (Fin 3) (Fin 3) ℝ) Spec.oneMode Matrix.isSymm_one (fun e => ?_) (fun gp hgp => ?_) (by norm_num)
      (by decide) (oneMode_unit 0 0) Kc u alpha (h1 u alpha)).2⟩
  · rw [Matrix.one_mulVec]
    exact Finset.sum_nonneg fun i _ => mul_self_nonneg _
  · rw [Spec.oneMode, List.mem_singleton] at hgp
    subst hgp
    norm_num

/-- Two such elements that share the dofs of two nodes: the Newton iterates of the condensed elements are those of the two
field problem. -/
example (x : ℕ → Fin 12 → ℝ) (alpha : ℕ → Bool → Fin 1 → ℝ) (P : Fin 12 → ℝ) :=
  eas_newton (⟨fun _ => linearLaw 1, fun _ => linearPoints Spec.oneMode, fun e I a => Fin.ofNat 12 ((if e then 4 else 0) + 2 * I + a)⟩ :
    Spec.Mesh Bool 4 2 3 1 12) Set.univ {i | 3 ≤ i} P x alpha (by norm_num) (by decide)
    (fun _ _ => oneMode_regular _ _) fun _ _ => oneMode_unit _ _

/-- A body turned by a quarter about the third axis, at the point and at the centre. -/
example (dN : Fin 8 → Fin 3 → ℝ) (X : NodeVec 8 3) (hX : gradient dN X = 1) (H : Fin 9 → Matrix (Fin 3) (Fin 3) ℝ) (alpha : Fin 9 → ℝ) :
    let Q : Matrix (Fin 3) (Fin 3) ℝ := !![0, -1, 0; 1, 0, 0; 0, 0, 1]
    (displacementGradientTransposed space val3 2 1 dN dN H).strain (fun I => Q *ᵥ X I - X I) alpha =
      (displacementGradientTransposed space val3 2 1 dN dN H).strain 0 alpha := by
  intro Q
  have h1 : 1 + gradient dN (fun I => Q *ᵥ X I - X I) = Q * (1 + gradient dN 0) := by
    have : gradient dN (fun I => Q *ᵥ X I - X I) = Q * gradient dN X - gradient dN X := by
      ext i j
      simp only [gradient, Matrix.of_apply, Matrix.sub_apply, Matrix.mul_apply, Pi.sub_apply, Matrix.mulVec, dotProduct,
        Finset.mul_sum, Finset.sum_mul, sub_mul, Finset.sum_sub_distrib]
      rw [Finset.sum_comm]
      congr 1
      exact Finset.sum_congr rfl fun _ _ => Finset.sum_congr rfl fun _ _ => by ring
    rw [this, hX]
    have h0 : gradient dN (0 : NodeVec 8 3) = 0 := by
      ext i j
      simp [gradient]
    rw [h0]
    simp
  refine displacementGradientTransposed_objective 2 1 dN dN H _ _ alpha Q ?_ h1 h1
  ext i j
  fin_cases i <;> fin_cases j <;> simp [Q, Matrix.mul_apply, Fin.sum_univ_three]

end Ikarus.Element.EAS
