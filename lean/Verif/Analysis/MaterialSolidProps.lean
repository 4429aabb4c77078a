import Verif.FE.MaterialLawProps
import Verif.Analysis.SmallSolidProps
import Mathlib.Analysis.SpecialFunctions.Log.Deriv
import Mathlib.Analysis.SpecialFunctions.Sqrt

/-!
C108: solids of the materials of the library are, under small loads, linear elastic with the constants of Lamé of the material.
-/

namespace Ikarus

open Matrix AutoDiffMat Ikarus.Element Ikarus.Element.Spec Ikarus.Element.Result VanishingStress
open scoped Topology

variable {q : Nat}

/-! ### Smooth entries -/

section Smooth

variable {E : Type*} [NormedAddCommGroup E] [NormedSpace ℝ E] {A : E → M3} {x : E}

theorem contDiffAt_det (hA : ∀ i j, ContDiffAt ℝ 1 (fun y => A y i j) x) : ContDiffAt ℝ 1 (fun y => (A y).det) x := by
  simp only [Matrix.det_fin_three]
  exact (((((((hA 0 0).mul (hA 1 1)).mul (hA 2 2)).sub (((hA 0 0).mul (hA 1 2)).mul (hA 2 1))).sub
    (((hA 0 1).mul (hA 1 0)).mul (hA 2 2))).add (((hA 0 1).mul (hA 1 2)).mul (hA 2 0))).add
    (((hA 0 2).mul (hA 1 0)).mul (hA 2 1))).sub (((hA 0 2).mul (hA 1 1)).mul (hA 2 0))

theorem contDiffAt_inv (hA : ∀ i j, ContDiffAt ℝ 1 (fun y => A y i j) x) (h : (A x).det ≠ 0) (i j : Fin 3) :
    ContDiffAt ℝ 1 (fun y => (A y)⁻¹ i j) x := by
  simp only [Matrix.inv_def, Ring.inverse_eq_inv', Matrix.smul_apply, smul_eq_mul]
  refine ((contDiffAt_det hA).inv h).mul ?_
  have hd : ∀ a b c d e f g k : Fin 3, ContDiffAt ℝ 1 (fun y => A y a b * A y c d - A y e f * A y g k) x := fun a b c d e f g k =>
    ((hA a b).mul (hA c d)).sub ((hA e f).mul (hA g k))
  have hn : ∀ a b c d e f g k : Fin 3, ContDiffAt ℝ 1 (fun y => -(A y a b * A y c d) + A y e f * A y g k) x := fun a b c d e f g k =>
    (((hA a b).mul (hA c d)).neg).add ((hA e f).mul (hA g k))
  simp only [Matrix.adjugate_fin_three]
  fin_cases i <;> fin_cases j <;> first | exact hd _ _ _ _ _ _ _ _ | exact hn _ _ _ _ _ _ _ _

theorem contDiffAt_lnJ (hA : ∀ i j, ContDiffAt ℝ 1 (fun y => A y i j) x) (h : 0 < (A x).det) :
    ContDiffAt ℝ 1 (fun y => NeoHooke.lnJ (A y)) x :=
  ((contDiffAt_det hA).sqrt h.ne').log (Real.sqrt_pos.2 h).ne'

theorem contDiffAt_toVoigt3 (hA : ∀ i j, ContDiffAt ℝ 1 (fun y => A y i j) x) (i : Fin 6) :
    ContDiffAt ℝ 1 (fun y => toVoigt3 (A y) false i) x := by
  fin_cases i <;> simp only [toVoigt3, strainFactor, Bool.false_eq_true, if_false, mul_one, Fin.zero_eta, Fin.mk_one,
    Fin.reduceFinMk, Matrix.cons_val]
  exacts [hA 0 0, hA 1 1, hA 2 2, hA 1 2, hA 0 2, hA 0 1]

end Smooth

variable {law : Law q} {emb : (Fin q → ℝ) →ₗ[ℝ] (Fin 6 → ℝ)} {free : Fin q → Fin 6} {k c : ℝ}

theorem argument_contDiff (i j : Fin 3) : ContDiff ℝ 1 (fun x : Fin q → ℝ => (k • fromVoigt3 (emb x) true + c • 1 : M3) i j) := by
  have he : ∀ l, ContDiff ℝ 1 (fun x : Fin q → ℝ => emb x l) := fun l =>
    contDiff_pi.1 (LinearMap.toContinuousLinearMap emb).contDiff l
  refine ContDiff.add (contDiff_const.mul ?_) contDiff_const
  fin_cases i <;> fin_cases j <;> simp only [fromVoigt3, Matrix.of_apply, Matrix.cons_val', Matrix.cons_val_zero, Matrix.cons_val_one,
    Matrix.cons_val, Fin.zero_eta, Fin.mk_one, Fin.reduceFinMk] <;>
    first | exact he _ | exact (he _).mul contDiff_const

/-- St. Venant-Kirchhoff. -/
theorem svk_smooth {p : SVK ℝ} (h : FromMaterial law (svk p) emb free 1 c) : Spec.SmoothLaw law Set.univ where
  isOpen := isOpen_univ
  contract := by
    have := h.contract (ownContract_of_law (svk_law p)) rfl
    simpa using this
  stress E _ := by
    refine contDiffAt_pi.2 fun i => ?_
    simp only [h.stress]
    refine contDiffAt_toVoigt3 (fun a b => ?_) _
    refine ContDiffAt.add ?_ (contDiffAt_const.mul (argument_contDiff a b).contDiffAt)
    refine (contDiffAt_const.mul ?_).mul contDiffAt_const
    simp only [Matrix.trace, Fin.sum_univ_three, Matrix.diag]
    exact (((argument_contDiff 0 0).add (argument_contDiff 1 1)).add (argument_contDiff 2 2)).contDiffAt
  tangent E _ k l := by
    simp only [h.tangent]
    exact contDiffAt_const

/-- Neo-Hooke, where the determinant is positive. -/
theorem neoHooke_smooth {p : NeoHooke} {eps : ℝ} (he : eps < 1) (h : FromMaterial law (neoHooke p eps) emb free 2 c) :
    Spec.SmoothLaw law {x | 0 < ((2 : ℝ) • fromVoigt3 (emb x) true + c • 1 : M3).det} := by
  have hopen : IsOpen {x : Fin q → ℝ | 0 < ((2 : ℝ) • fromVoigt3 (emb x) true + c • 1 : M3).det} := by
    refine isOpen_lt continuous_const (ContDiff.continuous (𝕜 := ℝ) (n := 1) ?_)
    exact contDiff_iff_contDiffAt.2 fun x => contDiffAt_det fun i j => (argument_contDiff i j).contDiffAt
  have hev : ∀ x ∈ {x : Fin q → ℝ | 0 < ((2 : ℝ) • fromVoigt3 (emb x) true + c • 1 : M3).det},
      ∀ᶠ y in 𝓝 x, 0 < ((2 : ℝ) • fromVoigt3 (emb y) true + c • 1 : M3).det := fun x hx => hopen.mem_nhds hx
  have hA : ∀ (x : Fin q → ℝ) i j, ContDiffAt ℝ 1 (fun y : Fin q → ℝ => ((2 : ℝ) • fromVoigt3 (emb y) true + c • 1 : M3) i j) x :=
    fun x i j => (argument_contDiff i j).contDiffAt
  refine ⟨hopen, h.contract (ownContract_of_law (neoHooke_law p he)) rfl, fun x hx => ?_, fun x hx i j => ?_⟩
  · have hI := contDiffAt_inv (hA x) (ne_of_gt hx)
    refine contDiffAt_pi.2 fun i => ?_
    have h1 : ContDiffAt ℝ 1 (fun y : Fin q → ℝ => toVoigt3 (p.mu • (1 - ((2 : ℝ) • fromVoigt3 (emb y) true + c • 1 : M3)⁻¹) +
        (p.lambda * NeoHooke.lnJ ((2 : ℝ) • fromVoigt3 (emb y) true + c • 1)) • ((2 : ℝ) • fromVoigt3 (emb y) true + c • 1 : M3)⁻¹)
        false (free i)) x :=
      contDiffAt_toVoigt3 (fun a b => (contDiffAt_const.mul (contDiffAt_const.sub (hI a b))).add
        ((contDiffAt_const.mul (contDiffAt_lnJ (hA x) hx)).mul (hI a b))) _
    refine h1.congr_of_eventuallyEq ?_
    filter_upwards [hev x hx] with y hy
    rw [h.stress]
    show toVoigt3 ((p.stresses eps _).getD 0) false (free i) = _
    rw [NeoHooke.stresses_eq p he hy]
    rfl
  · have hI := contDiffAt_inv (hA x) (ne_of_gt hx)
    have h1 : ContDiffAt ℝ 1 (fun y : Fin q → ℝ => moduliVoigt (p.moduli ((2 : ℝ) • fromVoigt3 (emb y) true + c • 1)) (free i) (free j)) x := by
      simp only [moduliVoigt, NeoHooke.moduli, Matrix.of_apply]
      exact (contDiffAt_const.mul ((hI _ _).mul (hI _ _))).add
        ((contDiffAt_const.mul (contDiffAt_const.sub (contDiffAt_const.mul (contDiffAt_lnJ (hA x) hx)))).mul
          (contDiffAt_const.mul (((hI _ _).mul (hI _ _)).add ((hI _ _).mul (hI _ _)))))
    refine h1.congr_of_eventuallyEq ?_
    filter_upwards [hev x hx] with y hy
    rw [h.tangent]
    show moduliVoigt ((p.tangentModuli eps _).getD 0) _ _ = _
    rw [NeoHooke.tangentModuli_eq p he hy]
    rfl

/-! ### The state at rest -/

/-- The matrix of linear elasticity in plane strain with the constants of Lamé. -/
def Spec.planeStrainMatrix (lambda mu : ℝ) : Matrix (Fin 3) (Fin 3) ℝ :=
  !![lambda + 2 * mu, lambda, 0; lambda, lambda + 2 * mu, 0; 0, 0, mu]

/-- The matrix of linear elasticity in space with the constants of Lamé. -/
def Spec.spaceMatrix (lambda mu : ℝ) : Matrix (Fin 6) (Fin 6) ℝ :=
  !![lambda + 2 * mu, lambda, lambda, 0, 0, 0; lambda, lambda + 2 * mu, lambda, 0, 0, 0; lambda, lambda, lambda + 2 * mu, 0, 0, 0;
    0, 0, 0, mu, 0, 0; 0, 0, 0, 0, mu, 0; 0, 0, 0, 0, 0, mu]

/-- The materials with constants of Lamé in the elements with large strains: dimension, law of the element, the matrix of linear
elasticity with the same constants. -/
inductive Spec.MaterialLaw (msqrt : M3 → M3) (lambda mu : ℝ) :
    (d q : Nat) → EAS.Dimension d q → Law q → Matrix (Fin q) (Fin q) ℝ → Prop
  | svkSpace : MaterialLaw msqrt lambda mu 3 6 EAS.space (spaceLaw msqrt (svk ⟨lambda, mu⟩)) (spaceMatrix lambda mu)
  | neoHookeSpace (eps : ℝ) : eps < 1 →
      MaterialLaw msqrt lambda mu 3 6 EAS.space (spaceLaw msqrt (neoHooke ⟨lambda, mu⟩ eps)) (spaceMatrix lambda mu)
  | svkPlane : MaterialLaw msqrt lambda mu 2 3 EAS.plane (planeStrainLaw msqrt (svk ⟨lambda, mu⟩)) (planeStrainMatrix lambda mu)
  | neoHookePlane (eps : ℝ) : eps < 1 →
      MaterialLaw msqrt lambda mu 2 3 EAS.plane (planeStrainLaw msqrt (neoHooke ⟨lambda, mu⟩ eps)) (planeStrainMatrix lambda mu)

theorem spaceMatrix_eq (l m : ℝ) : Spec.spaceMatrix l m = (⟨l, m⟩ : SVK ℝ).moduliVoigt := by
  ext i j
  fin_cases i <;> fin_cases j <;> simp [Spec.spaceMatrix, SVK.moduliVoigt]

theorem planeStrainMatrix_eq (l m : ℝ) (i j : Fin 3) :
    Spec.planeStrainMatrix l m i j = (⟨l, m⟩ : SVK ℝ).moduliVoigt (planeFree i) (planeFree j) := by
  fin_cases i <;> fin_cases j <;> simp [Spec.planeStrainMatrix, SVK.moduliVoigt, planeFree]

theorem spaceMatrix_posSemidef {l m : ℝ} (hm : 0 ≤ m) (hl : 0 ≤ 3 * l + 2 * m) : (Spec.spaceMatrix l m).PosSemidef := by
  refine Matrix.PosSemidef.of_dotProduct_mulVec_nonneg ?_ fun x => ?_
  · ext i j
    fin_cases i <;> fin_cases j <;> simp [Spec.spaceMatrix]
  · have h : star x ⬝ᵥ (Spec.spaceMatrix l m *ᵥ x) = (3 * l + 2 * m) / 3 * (x 0 + x 1 + x 2) ^ 2 +
        2 * m / 3 * ((x 0 - x 1) ^ 2 + (x 1 - x 2) ^ 2 + (x 0 - x 2) ^ 2) + m * (x 3 ^ 2 + x 4 ^ 2 + x 5 ^ 2) := by
      simp [Spec.spaceMatrix, Matrix.mulVec, dotProduct, Fin.sum_univ_six]
      ring
    rw [h]
    positivity

theorem planeStrainMatrix_posSemidef {l m : ℝ} (hm : 0 ≤ m) (hl : 0 ≤ 3 * l + 2 * m) : (Spec.planeStrainMatrix l m).PosSemidef := by
  refine Matrix.PosSemidef.of_dotProduct_mulVec_nonneg ?_ fun x => ?_
  · ext i j
    fin_cases i <;> fin_cases j <;> simp [Spec.planeStrainMatrix]
  · have h : star x ⬝ᵥ (Spec.planeStrainMatrix l m *ᵥ x) = (3 * l + 2 * m) / 3 * (x 0 + x 1) ^ 2 +
        m / 3 * (x 0 + x 1) ^ 2 + m * (x 0 - x 1) ^ 2 + m * x 2 ^ 2 := by
      simp [Spec.planeStrainMatrix, Matrix.mulVec, dotProduct, Fin.sum_univ_three]
      ring
    rw [h]
    positivity

theorem svk_rest {l m : ℝ} (h : FromMaterial law (svk ⟨l, m⟩) emb free 1 0) :
    law.stress 0 = 0 ∧ ∀ i j, law.tangent 0 i j = (⟨l, m⟩ : SVK ℝ).moduliVoigt (free i) (free j) := by
  have h0 : ((1 : ℝ) • fromVoigt3 (emb 0) true + (0 : ℝ) • 1 : M3) = 0 := by
    rw [map_zero]
    ext i j
    fin_cases i <;> fin_cases j <;> simp [fromVoigt3]
  have hs : (SVK.mk l m).stressMatrixToMatrix (0 : M3) = 0 := by simp [SVK.stressMatrixToMatrix]
  refine ⟨funext fun i => ?_, fun i j => ?_⟩
  · rw [h.stress, h0]
    show toVoigt3 ((SVK.mk l m).stressMatrixToMatrix 0) false _ = 0
    rw [hs, toVoigt3_zero]
    rfl
  · rw [h.tangent]
    show moduliVoigt (SVK.mk l m).moduliTensor _ _ = _
    rw [svk_moduliVoigt]

theorem neoHooke_rest {l m eps : ℝ} (he : eps < 1) (h : FromMaterial law (neoHooke ⟨l, m⟩ eps) emb free 2 1) :
    (0 < ((2 : ℝ) • fromVoigt3 (emb 0) true + (1 : ℝ) • 1 : M3).det) ∧
    law.stress 0 = 0 ∧ ∀ i j, law.tangent 0 i j = (⟨l, m⟩ : SVK ℝ).moduliVoigt (free i) (free j) := by
  have h0 : ((2 : ℝ) • fromVoigt3 (emb 0) true + (1 : ℝ) • 1 : M3) = 1 := by
    rw [map_zero, one_smul]
    ext i j
    fin_cases i <;> fin_cases j <;> simp [fromVoigt3]
  have hl := neoHooke_linear he ⟨l, m⟩
  refine ⟨by rw [h0]; simp, funext fun i => ?_, fun i j => ?_⟩
  · rw [h.stress, h0]
    show toVoigt3 (((NeoHooke.mk l m).stresses eps 1).getD 0) false _ = 0
    rw [hl.stressFree, Option.getD_some, toVoigt3_zero]
    rfl
  · rw [h.tangent, h0]
    show moduliVoigt (((NeoHooke.mk l m).tangentModuli eps 1).getD 0) _ _ = _
    rw [hl.moduli, Option.getD_some, hooke_voigt]

/-- C108, the state at rest. In space and in plane strain, St. Venant-Kirchhoff and Neo-Hooke materials are smooth near the
undeformed state, stress-free there, and have there the moduli of linear elasticity with the same constants of Lamé. -/
theorem materials_at_rest {msqrt : M3 → M3} {lambda mu : ℝ} {d q : Nat} {dim : EAS.Dimension d q} {law : Law q}
    {C : Matrix (Fin q) (Fin q) ℝ} (h : Spec.MaterialLaw msqrt lambda mu d q dim law C) :
    ∃ dom, Spec.SmoothLaw law dom ∧ 0 ∈ dom ∧ law.stress 0 = 0 ∧ law.tangent 0 = C := by
  have ht1 : ∀ p P, transformStrain msqrt .greenLagrangian (svk p).strainTag P = some P := fun p P => by
    simp [svk, transformStrain]
  have ht2 : ∀ p eps E, transformStrain msqrt .greenLagrangian (neoHooke p eps).strainTag E = some ((2 : ℝ) • E + 1) :=
    fun p eps E => by simp [neoHooke, transformStrain, createRightCauchyGreen]
  have hc1 : ∀ {c : ℝ} {p}, (∀ P, transformStrain msqrt .greenLagrangian (svk p).strainTag P = some ((svk p).derivativeFactor • P + c • 1)) →
      c = 0 := fun {c p} hc => by
    have := congrFun (congrFun (Option.some.inj ((ht1 p 0).symm.trans (hc 0))) 0) 0
    simpa using this.symm
  have hc2 : ∀ {c : ℝ} {p eps}, (∀ P, transformStrain msqrt .greenLagrangian (neoHooke p eps).strainTag P =
      some ((neoHooke p eps).derivativeFactor • P + c • 1)) → c = 1 := fun {c p eps} hc => by
    have := congrFun (congrFun (Option.some.inj ((ht2 p eps 0).symm.trans (hc 0))) 0) 0
    simpa using this.symm
  cases h with
  | svkSpace =>
    obtain ⟨c, hc, hf⟩ := spaceLaw_from msqrt _ (svk_scale ⟨lambda, mu⟩)
    obtain rfl := hc1 hc
    obtain ⟨h1, h2⟩ := svk_rest hf
    exact ⟨_, svk_smooth hf, Set.mem_univ _, h1, by ext i j; rw [h2, spaceMatrix_eq]; rfl⟩
  | neoHookeSpace eps he =>
    obtain ⟨c, hc, hf⟩ := spaceLaw_from msqrt _ (neoHooke_scale ⟨lambda, mu⟩ eps)
    obtain rfl := hc2 hc
    obtain ⟨h0, h1, h2⟩ := neoHooke_rest he hf
    exact ⟨_, neoHooke_smooth he hf, h0, h1, by ext i j; rw [h2, spaceMatrix_eq]; rfl⟩
  | svkPlane =>
    obtain ⟨c, hc, hf⟩ := planeStrainLaw_from msqrt _ (svk_scale ⟨lambda, mu⟩)
    obtain rfl := hc1 hc
    obtain ⟨h1, h2⟩ := svk_rest hf
    exact ⟨_, svk_smooth hf, Set.mem_univ _, h1, by ext i j; rw [h2, planeStrainMatrix_eq]⟩
  | neoHookePlane eps he =>
    obtain ⟨c, hc, hf⟩ := planeStrainLaw_from msqrt _ (neoHooke_scale ⟨lambda, mu⟩ eps)
    obtain rfl := hc2 hc
    obtain ⟨h0, h1, h2⟩ := neoHooke_rest he hf
    exact ⟨_, neoHooke_smooth he hf, h0, h1, by ext i j; rw [h2, planeStrainMatrix_eq]⟩

theorem MaterialLaw_isVoigt {msqrt : M3 → M3} {lambda mu : ℝ} {d q : Nat} {dim : EAS.Dimension d q} {law : Law q}
    {C : Matrix (Fin q) (Fin q) ℝ} (h : Spec.MaterialLaw msqrt lambda mu d q dim law C) : EAS.Spec.IsVoigt dim := by
  cases h
  exacts [EAS.space_isVoigt, EAS.space_isVoigt, EAS.plane_isVoigt, EAS.plane_isVoigt]

theorem MaterialLaw_posSemidef {msqrt : M3 → M3} {lambda mu : ℝ} {d q : Nat} {dim : EAS.Dimension d q} {law : Law q}
    {C : Matrix (Fin q) (Fin q) ℝ} (h : Spec.MaterialLaw msqrt lambda mu d q dim law C) (hm : 0 ≤ mu) (hl : 0 ≤ 3 * lambda + 2 * mu) :
    C.PosSemidef := by
  cases h
  exacts [spaceMatrix_posSemidef hm hl, spaceMatrix_posSemidef hm hl, planeStrainMatrix_posSemidef hm hl,
    planeStrainMatrix_posSemidef hm hl]

/-! ### Solids of these materials under small loads -/

variable {a b : Analysis} {û : Nat → ℝ}

/-- C108, small loads. Solids of St. Venant-Kirchhoff or Neo-Hooke material, in space or in plane strain, with constants of Lamé
for which linear elasticity is stable: load control succeeds for small loads with any number of steps, and shows the
displacements of linear elasticity with the same constants of Lamé, up to an error of second order in the load factor and
multiples of the tolerances. -/
theorem small_material_solids {msqrt : M3 → M3} {lambda mu : ℝ} (hmu : 0 ≤ mu) (hla : 0 ≤ 3 * lambda + 2 * mu)
    {d q : Nat} {dim : EAS.Dimension d q} {law : Law q} {C : Matrix (Fin q) (Fin q) ℝ}
    (hlaw : Spec.MaterialLaw msqrt lambda mu d q dim law C) {f t : LoadFunction d}
    (hf : Spec.SmoothLoad f 0) (hf0 : ∀ x, f x 0 = 0) (ht : Spec.SmoothLoad t 0) (ht0 : ∀ x, t x 0 = 0)
    (es : List (Spec.SolidElem d)) (hw : ∀ e ∈ es, ∀ p ∈ e.points, 0 ≤ p.detJ * p.weight)
    (hp : Spec.Proper a û) (hbd : a.bound = none ∨ ∀ i < a.dv.flags.length, û i = 0) (hlin : Spec.ExactSolver a.linSolve)
    (ha : a.elems = es.map fun e => e.nonlinear dim f t law) (hb : b.elems = es.map fun e => e.linear dim f t C)
    (hdv : b.dv.flags = a.dv.flags)
    (hsup : Spec.Supported a.dv.flags (System.mk a.dv.flags (es.map fun e => e.unloaded dim C)).scalar?) :
    ∃ eta tol0 beta B M : ℝ, 0 < eta ∧ 0 < tol0 ∧ 0 ≤ beta ∧ 0 ≤ B ∧ 0 ≤ M ∧
      ∀ s : NRSettings ℝ, 0 < s.tol → s.tol ≤ tol0 → ∃ m : Nat, s.minIter ≤ m → (m : Int) < s.maxIter →
      ∀ n : Nat, 0 < n → ∀ l : ℝ, l ≠ 0 → |l| ≤ eta →
      ∃ (r : LCState ℝ (Option (List ℝ)) ℝ (Option (List ℝ))) (us : Nat → List ℝ),
        { a with settings := s }.loadControl? n 0 l ⟨0, some (Spec.rest a)⟩ = some r ∧ r.info.success = true ∧
        Spec.shown r = (List.range (n + 1)).map (fun k : Nat => ⟨k * (l / n), some (us k)⟩) ∧
        ∀ k ≤ n, ∃ info, r.info.solverInfos[k]? = some info ∧ info.success = true ∧ info.iterations ≤ m ∧
          ∀ tol, 0 ≤ tol → ∀ y, Spec.InEquilibrium b.dv.flags (b.system (k * (l / n))).scalar? û (k * (l / n)) tol y →
            Spec.distance (us k) y ≤ B * (k * (l / n)) ^ 2 + 2 * beta * s.tol + M * |l / n| + beta * tol ∧
            (k = 0 ∨ 0 < info.iterations ∨ (∀ i < a.dv.flags.length, û i = 0) →
              Spec.distance (us k) y ≤ B * (k * (l / n)) ^ 2 + 2 * beta * s.tol + beta * tol) := by
  obtain ⟨dom, hsm, h0, hs, rfl⟩ := materials_at_rest hlaw
  exact small_solids (MaterialLaw_isVoigt hlaw) hsm h0 hs (MaterialLaw_posSemidef hlaw hmu hla) hf hf0 ht ht0 es hw hp hbd hlin ha hb
    hdv hsup

/-- The mesh of three quadrilaterals of Neo-Hooke material in plane strain. -/
noncomputable def exampleNeoHooke (option : DBCOption) : Analysis :=
  { exampleMeshAnalysis option with
    elems := exampleSolids.map fun e => e.nonlinear EAS.plane exampleWeight exampleWeight (planeStrainLaw id (neoHooke ⟨2, 1⟩ 0)) }

theorem exampleMeshC_eq : exampleMeshC = Spec.planeStrainMatrix 2 1 := by
  unfold exampleMeshC Spec.planeStrainMatrix
  norm_num

theorem exampleNeoHooke_proper (o : DBCOption) (ho : o ≠ .raw) : Spec.Proper (exampleNeoHooke o) exampleMeshSupport := by
  have h := exampleMesh_proper o ho
  have hel : ∀ e ∈ (exampleNeoHooke o).elems, ∀ l, Spec.ElemFits (exampleNeoHooke o).dv.flags.length (e.at l) ∧
      ∀ s ∈ e.skills, Spec.TotalSkill (s l) := by
    intro e' he' l
    obtain ⟨e, he, rfl⟩ := List.mem_map.1 he'
    obtain ⟨q, hq, rfl⟩ := List.mem_map.1 he
    refine ⟨tile_fits (skills := exampleMesh.linear exampleMeshC) (exampleMesh_valid.node q hq), fun s hs => ?_⟩
    rcases mem_three hs with rfl | rfl | rfl
    · exact ⟨fun _ => ⟨_, rfl⟩, fun _ _ => ⟨_, rfl⟩, fun _ _ => ⟨_, rfl⟩⟩
    · exact linear_total (volumeLoad_linear _ _) l
    · exact linear_total (traction_linear _ _) l
  refine ⟨ho, hel, h.prescribed, h.force, h.alive, h.bound, fun l x hx A hA => ?_⟩
  obtain ⟨E, r, K, -, -, -, hK, -⟩ := total_system ((exampleNeoHooke o).system l) (fun e he => by
    obtain ⟨e', he', rfl⟩ := List.mem_map.1 he
    refine ⟨(hel e' he' l).1, fun sk hsk => ?_⟩
    obtain ⟨s, hs, rfl⟩ := List.mem_map.1 hsk
    exact (hel e' he' l).2 s hs) hx
  exact inverseSolve_answers (exampleNeoHooke o) l x ho K hK A hA

/-- Small loads and small displacements of the outer nodes: the mesh of Neo-Hooke material. -/
example (o : DBCOption) (ho : o ≠ .raw) := small_material_solids (a := exampleNeoHooke o)
  (b := { exampleMeshAnalysis o with
    elems := exampleSolids.map fun e => e.linear EAS.plane exampleWeight exampleWeight (Spec.planeStrainMatrix 2 1) })
  (by norm_num) (by norm_num) (Spec.MaterialLaw.neoHookePlane (msqrt := id) (lambda := 2) (mu := 1) 0 one_pos)
  exampleWeight_smooth (fun _ => by simp [exampleWeight]) exampleWeight_smooth
  (fun _ => by simp [exampleWeight]) exampleSolids
  (fun e he p hp => by
    obtain ⟨q, hq, rfl⟩ := List.mem_map.1 he
    obtain ⟨g, hg, rfl⟩ := List.mem_map.1 hp
    exact mul_nonneg (abs_nonneg _) ((EAS.gauss_exact 2).1.2 g hg).le)
  (exampleNeoHooke_proper o ho) (Or.inl rfl) inverseSolve_exactSolver rfl rfl rfl
  (by
    have := exampleMesh_supported 0
    rw [List.map_map] at this
    rw [← exampleMeshC_eq]
    show Spec.Supported exampleMeshFlags (System.mk exampleMeshFlags (List.map _ (List.map _ _))).scalar?
    rw [List.map_map]
    exact this)

end Ikarus
