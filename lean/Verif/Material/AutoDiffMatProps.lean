import Verif.Material.AutoDiffMatModel
import Verif.Material.SVKProps
import Verif.Material.NeoHookeProps

/-!
Property C81: a material wrapped in AutoDiffMAT gives the stresses and the tangent moduli of the material.
-/

namespace Ikarus.AutoDiffMat

open Matrix Ikarus.Spec

/-! ### Specification -/

namespace Spec

/-- What the derivatives of a material have to satisfy on a set of its own strains: stress and moduli are, up to the factor of
the material, derivatives of energy and stress along every path of symmetric strains. -/
structure Law (m : Mat) (D : Set M3) : Prop where
  nearby : ∀ C dC t, HasMatDeriv C dC t → C t ∈ D → ∀ᶠ s in nhds t, C s ∈ D
  factor : m.derivativeFactor ≠ 0
  energy : ∀ A ∈ D, A.IsSymm → ∃ W, m.energy A = some W
  stress : ∀ A ∈ D, A.IsSymm → ∃ S, m.stress A = some S ∧ S.IsSymm
  moduli : ∀ A ∈ D, A.IsSymm → ∃ L, m.moduli A = some L ∧ MinorSymmetric L ∧ ∀ i j k l, L i j k l = L k l i j
  stress_deriv : ∀ C dC t S, HasMatDeriv C dC t → (∀ s, (C s).IsSymm) → dC.IsSymm → C t ∈ D → m.stress (C t) = some S →
    HasDerivAt (fun s => (m.energy (C s)).getD 0) (1 / m.derivativeFactor * ddot S dC) t
  moduli_deriv : ∀ C dC t L, HasMatDeriv C dC t → (∀ s, (C s).IsSymm) → dC.IsSymm → C t ∈ D → m.moduli (C t) = some L →
    HasMatDeriv (fun s => (m.stress (C s)).getD 0) (contract L ((1 / m.derivativeFactor) • dC)) t

/-- How much the strain of the material grows with the strain that is passed. -/
noncomputable def scale (tag own : StrainTag) : Option ℝ :=
  if tag = own then some 1
  else match tag, own with
    | .greenLagrangian, .rightCauchyGreenTensor => some 2
    | .rightCauchyGreenTensor, .greenLagrangian => some (1 / 2)
    | _, _ => none

/-- The full claim: the wrapped material gives the stresses and the moduli of the material, for every strain measure that can be
transformed and every choice of the derivatives and of the notation. -/
def Same : Prop :=
  ∀ (msqrt : M3 → M3) (m : Mat) (D : Set M3), Law m D → ∀ (tag : StrainTag) (E A S : M3) (L : Tensor4 ℝ 3),
    (scale tag m.strainTag).isSome → E.IsSymm → transformStrain msqrt tag m.strainTag E = some A → A ∈ D →
    m.stress A = some S → m.moduli A = some L → ∀ fV fS voigt : Bool,
      stresses msqrt m fV fS tag voigt E = some (if voigt then .voigt (toVoigt3 S false) else .tensor S) ∧
      tangentModuli msqrt m fV fS tag voigt E = some (if voigt then .voigt (moduliVoigt L) else .tensor L)

end Spec

/-! ### Strains in Voigt notation -/

theorem scale_affine {tag own : StrainTag} {k : ℝ} (h : Spec.scale tag own = some k) :
    ∃ c : ℝ, ∀ (msqrt : M3 → M3) (P : M3), transformStrain msqrt tag own P = some (k • P + c • 1) := by
  unfold Spec.scale at h
  split at h
  · next he =>
    subst he
    exact ⟨0, fun _ P => by simp [transformStrain, ← Option.some.inj h]⟩
  · split at h
    · refine ⟨1, fun _ P => ?_⟩
      rw [← Option.some.inj h]
      simp [transformStrain, createRightCauchyGreen]
    · refine ⟨-1 / 2, fun _ P => ?_⟩
      rw [← Option.some.inj h]
      simp only [transformStrain, createGreenLagrangianStrains, reduceCtorEq, if_false, or_self, smul_sub, Option.some.injEq]
      rw [sub_eq_add_neg, ← neg_smul]
      norm_num
    · simp at h

theorem fromVoigt3_symm (v : Fin 6 → ℝ) (b : Bool) : (fromVoigt3 v b).IsSymm := by
  ext i j
  fin_cases i <;> fin_cases j <;> rfl

theorem fromVoigt3_add_smul (v w : Fin 6 → ℝ) (t : ℝ) (b : Bool) :
    fromVoigt3 (v + t • w) b = fromVoigt3 v b + t • fromVoigt3 w b := by
  ext i j
  fin_cases i <;> fin_cases j <;> simp [fromVoigt3] <;> ring

theorem fromVoigt3_toVoigt3 {E : M3} (hE : E.IsSymm) : fromVoigt3 (toVoigt3 E true) true = E := by
  have h1 := hE.apply 0 1
  have h2 := hE.apply 0 2
  have h3 := hE.apply 1 2
  ext i j
  fin_cases i <;> fin_cases j <;> simp [fromVoigt3, toVoigt3, strainFactor, invStrainFactor, h1, h2, h3]

theorem ddot_seed {S : M3} (hS : S.IsSymm) (k : Fin 6) : ddot S (fromVoigt3 (seed k) true) = toVoigt3 S false k := by
  have h1 := hS.apply 0 1
  have h2 := hS.apply 0 2
  have h3 := hS.apply 1 2
  fin_cases k <;>
    simp [ddot, Fin.sum_univ_three, fromVoigt3, seed, toVoigt3, strainFactor, invStrainFactor, h1, h2, h3] <;> ring

theorem contract_seed {L : Tensor4 ℝ 3} (hs : MinorSymmetric L) (i k : Fin 6) :
    toVoigt3 (contract L (fromVoigt3 (seed k) true)) false i = moduliVoigt L i k := by
  have hk : ∀ i j, L i j 1 0 = L i j 0 1 ∧ L i j 2 0 = L i j 0 2 ∧ L i j 2 1 = L i j 1 2 :=
    fun i j => ⟨(hs _ _ _ _).2, (hs _ _ _ _).2, (hs _ _ _ _).2⟩
  have hl : ∀ i j, L 1 0 i j = L 0 1 i j ∧ L 2 0 i j = L 0 2 i j ∧ L 2 1 i j = L 1 2 i j :=
    fun i j => ⟨(hs _ _ _ _).1, (hs _ _ _ _).1, (hs _ _ _ _).1⟩
  fin_cases i <;> fin_cases k <;>
    simp [contract, Fin.sum_univ_three, fromVoigt3, seed, toVoigt3, strainFactor, invStrainFactor, moduliVoigt, unvoigt3, hk, hl]
    <;> ring

theorem moduliVoigt_symm {L : Tensor4 ℝ 3} (h : ∀ i j k l, L i j k l = L k l i j) (i j : Fin 6) :
    moduliVoigt L i j = moduliVoigt L j i := by
  simp only [moduliVoigt, Matrix.of_apply]
  exact h _ _ _ _

/-! ### Paths of strains -/

section

variable {m : Mat} {D : Set M3} {k c : ℝ}

/-- The strain of the material along a direction of the strain passed, in Voigt notation. -/
noncomputable def path (k c : ℝ) (x w : Fin 6 → ℝ) (t : ℝ) : M3 := k • fromVoigt3 (x + t • w) true + c • 1

theorem path_symm (x w : Fin 6 → ℝ) (t : ℝ) : (path k c x w t).IsSymm := by
  have := fromVoigt3_symm (x + t • w) true
  rw [IsSymm] at this ⊢
  rw [path, transpose_add, transpose_smul, transpose_smul, transpose_one, this]

theorem path_deriv (x w : Fin 6 → ℝ) (t : ℝ) : HasMatDeriv (path k c x w) (k • fromVoigt3 w true) t := by
  intro i j
  simp only [path, fromVoigt3_add_smul, Matrix.add_apply, Matrix.smul_apply, smul_eq_mul]
  have h := (((hasDerivAt_id t).mul_const (fromVoigt3 w true i j)).const_add (fromVoigt3 x true i j)).const_mul k
  have h2 := h.add_const (c * (1 : M3) i j)
  refine h2.congr_deriv ?_
  ring

theorem path_rate_symm (w : Fin 6 → ℝ) : (k • fromVoigt3 w true).IsSymm := by
  have := fromVoigt3_symm w true
  rw [IsSymm] at this ⊢
  rw [transpose_smul, this]

variable (hL : Spec.Law m D)
include hL

theorem energy_seed {x w : Fin 6 → ℝ} {t : ℝ} (j : Fin 6) {S : M3} (hx : path k c x w t ∈ D)
    (hS : m.stress (path k c x w t) = some S) :
    HasDerivAt (fun r : ℝ => (m.energy (path k c (x + t • w) (seed j) r)).getD 0)
      (k / m.derivativeFactor * toVoigt3 S false j) 0 := by
  have h0 : path k c (x + t • w) (seed j) 0 = path k c x w t := by simp [path]
  obtain ⟨S', hS', hsym⟩ := hL.stress _ hx (path_symm x w t)
  rw [hS] at hS'
  obtain rfl := Option.some.inj hS'
  refine (hL.stress_deriv (path k c (x + t • w) (seed j)) _ 0 S (path_deriv _ _ 0) (path_symm _ _)
    (path_rate_symm _) (by rw [h0]; exact hx) (by rw [h0]; exact hS)).congr_deriv ?_
  have : ddot S (k • fromVoigt3 (seed j) true) = k * ddot S (fromVoigt3 (seed j) true) := by
    simp [ddot, Fin.sum_univ_three]; ring
  rw [this, ddot_seed hsym]
  ring

theorem stress_seed {x : Fin 6 → ℝ} (j : Fin 6) {L : Tensor4 ℝ 3} (hx : path k c x (seed j) 0 ∈ D)
    (hM : m.moduli (path k c x (seed j) 0) = some L) (i : Fin 6) :
    HasDerivAt (fun t : ℝ => toVoigt3 ((m.stress (path k c x (seed j) t)).getD 0) false i)
      (k / m.derivativeFactor * moduliVoigt L i j) 0 := by
  obtain ⟨L', hL', hmin, -⟩ := hL.moduli _ hx (path_symm x _ 0)
  rw [hM] at hL'
  obtain rfl := Option.some.inj hL'
  have h1 := hL.moduli_deriv (path k c x (seed j)) _ 0 L (path_deriv _ _ 0) (path_symm _ _) (path_rate_symm _) hx hM
  have hlin : contract L ((1 / m.derivativeFactor) • k • fromVoigt3 (seed j) true) =
      (k / m.derivativeFactor) • contract L (fromVoigt3 (seed j) true) := by
    ext a b
    simp only [contract, Matrix.smul_apply, smul_eq_mul, Finset.mul_sum]
    refine Finset.sum_congr rfl fun p _ => Finset.sum_congr rfl fun q _ => ?_
    ring
  rw [hlin] at h1
  rw [← contract_seed hmin]
  fin_cases i <;> simp only [toVoigt3, strainFactor, Bool.false_eq_true, if_false, mul_one, Fin.zero_eta, Fin.mk_one,
    Fin.reduceFinMk, Matrix.cons_val]
  exacts [h1 0 0, h1 1 1, h1 2 2, h1 1 2, h1 0 2, h1 0 1]

end

/-! ### The properties -/

variable {m : Mat} {D : Set M3} {tag : StrainTag} {k : ℝ} {E A S : M3} {L : Tensor4 ℝ 3}

theorem setting (msqrt : M3 → M3) (hk : Spec.scale tag m.strainTag = some k) (hE : E.IsSymm)
    (hA : transformStrain msqrt tag m.strainTag E = some A) :
    ∃ c : ℝ, (∀ x, m.storedEnergyVoigt msqrt tag x = m.energy (k • fromVoigt3 x true + c • 1)) ∧
      (∀ x, m.stressesVoigt msqrt tag x = (m.stress (k • fromVoigt3 x true + c • 1)).map fun S => toVoigt3 S false) ∧
      k • fromVoigt3 (toVoigt3 E true) true + c • 1 = A := by
  obtain ⟨c, hc⟩ := scale_affine hk
  refine ⟨c, fun x => by rw [Mat.storedEnergyVoigt, Mat.storedEnergy, hc]; rfl, fun x => by
    rw [Mat.stressesVoigt, Mat.stresses, hc]; rfl, ?_⟩
  rw [fromVoigt3_toVoigt3 hE]
  rw [hc] at hA
  exact Option.some.inj hA

/-- C81, stresses, part that holds. A derived stress is the stress of the material times the factor by which the strain of the
material grows with the strain that is passed, for every law and strain. -/
theorem autoDiffMat_stress_partial (msqrt : M3 → M3) (hL : Spec.Law m D) (hk : Spec.scale tag m.strainTag = some k)
    (hE : E.IsSymm) (hA : transformStrain msqrt tag m.strainTag E = some A) (hD : A ∈ D) (hS : m.stress A = some S)
    (fV fS voigt : Bool) (hf : fV = true ∨ fS = true) :
    stresses msqrt m fV fS tag voigt E = some (.voigt (k • toVoigt3 S false)) := by
  obtain ⟨c, he, -, hA'⟩ := setting (m := m) msqrt hk hE hA
  have hp : ∀ w, path k c (toVoigt3 E true) w 0 = A := fun w => by simp [path, hA']
  have hsym : A.IsSymm := by rw [← hp 0]; exact path_symm _ _ _
  obtain ⟨W, hW⟩ := hL.energy A hD hsym
  have hg : gradient (fun x => (m.storedEnergyVoigt msqrt tag x).getD 0) (toVoigt3 E true) =
      (k / m.derivativeFactor) • toVoigt3 S false := by
    funext j
    have := energy_seed hL (x := toVoigt3 E true) (w := 0) (t := 0) (k := k) (c := c) j (S := S) (by rw [hp]; exact hD)
      (by rw [hp]; exact hS)
    rw [smul_zero, add_zero] at this
    simp only [gradient, he]
    exact this.deriv
  have hb : (!(fV || fS)) = false := by rcases hf with h | h <;> simp [h]
  simp only [stresses, hb, Bool.false_eq_true, if_false]
  rw [hg, he, hA', hW, Option.map_some, smul_smul, mul_div_cancel₀ _ hL.factor]

/-- C81, moduli, part that holds. Moduli derived from the stresses have the same factor, moduli derived from the energy its
square. -/
theorem autoDiffMat_moduli_partial (msqrt : M3 → M3) (hL : Spec.Law m D) (hk : Spec.scale tag m.strainTag = some k)
    (hE : E.IsSymm) (hA : transformStrain msqrt tag m.strainTag E = some A) (hD : A ∈ D) (hM : m.moduli A = some L)
    (voigt : Bool) :
    tangentModuli msqrt m true false tag voigt E = some (.voigt (k • moduliVoigt L)) ∧
    ∀ fV, tangentModuli msqrt m fV true tag voigt E = some (.voigt ((k * k) • moduliVoigt L)) := by
  obtain ⟨c, he, hs, hA'⟩ := setting (m := m) msqrt hk hE hA
  have hp : ∀ w, path k c (toVoigt3 E true) w 0 = A := fun w => by simp [path, hA']
  have hsym : A.IsSymm := by rw [← hp 0]; exact path_symm _ _ _
  obtain ⟨W, hW⟩ := hL.energy A hD hsym
  obtain ⟨S, hS, -⟩ := hL.stress A hD hsym
  obtain ⟨L', hL', -, hmaj⟩ := hL.moduli A hD hsym
  rw [hM] at hL'
  obtain rfl := Option.some.inj hL'
  have hst : ∀ i j, HasDerivAt (fun t : ℝ => toVoigt3 ((m.stress (path k c (toVoigt3 E true) (seed j) t)).getD 0) false i)
      (k / m.derivativeFactor * moduliVoigt L i j) 0 := fun i j =>
    stress_seed hL j (by rw [hp]; exact hD) (by rw [hp]; exact hM) i
  have hnear : ∀ w, ∀ᶠ t in nhds (0 : ℝ), path k c (toVoigt3 E true) w t ∈ D := fun w =>
    hL.nearby _ _ 0 (path_deriv _ _ 0) (by rw [hp]; exact hD)
  constructor
  · have hj : jacobian (fun x => (m.stressesVoigt msqrt tag x).getD 0) (toVoigt3 E true) =
        (k / m.derivativeFactor) • moduliVoigt L := by
      ext i j
      simp only [jacobian, Matrix.of_apply, Matrix.smul_apply, smul_eq_mul, hs]
      refine HasDerivAt.deriv ((hst i j).congr_of_eventuallyEq ?_)
      filter_upwards [hnear (seed j)] with t ht
      obtain ⟨S', hS', -⟩ := hL.stress _ ht (path_symm _ _ _)
      have hS2 : m.stress (k • fromVoigt3 (toVoigt3 E true + t • seed j) true + c • 1) = some S' := hS'
      rw [hS', hS2]
      rfl
    simp only [tangentModuli, Bool.or_false, Bool.not_true, Bool.false_eq_true, if_false, Bool.not_false, Bool.and_self,
      if_true]
    rw [hj, hs, hA', hS, Option.map_some, Option.map_some, smul_smul, mul_div_cancel₀ _ hL.factor]
  · intro fV
    have hh : hessian (fun x => (m.storedEnergyVoigt msqrt tag x).getD 0) (toVoigt3 E true) =
        (k / m.derivativeFactor * (k / m.derivativeFactor)) • moduliVoigt L := by
      have key : ∀ i j, deriv (fun s : ℝ => deriv (fun t : ℝ =>
          (m.storedEnergyVoigt msqrt tag (toVoigt3 E true + s • seed i + t • seed j)).getD 0) 0) 0 =
          k / m.derivativeFactor * (k / m.derivativeFactor * moduliVoigt L j i) := by
        intro i j
        refine HasDerivAt.deriv (((hst j i).const_mul (k / m.derivativeFactor)).congr_of_eventuallyEq ?_)
        filter_upwards [hnear (seed i)] with s hs'
        obtain ⟨S', hS', -⟩ := hL.stress _ hs' (path_symm _ _ _)
        rw [hS', Option.getD_some]
        simp only [he]
        exact (energy_seed hL j hs' hS').deriv
      ext i j
      simp only [hessian, Matrix.of_apply, key, Matrix.smul_apply, smul_eq_mul]
      rcases le_total i j with h | h
      · rw [min_eq_left h, max_eq_right h, moduliVoigt_symm hmaj j i]
        ring
      · rw [min_eq_right h, max_eq_left h]
        ring
    have hf := hL.factor
    have hb : ∀ fV : Bool, (!(fV || true)) = false ∧ (fV && !true) = false := by decide
    simp only [tangentModuli, (hb fV).1, (hb fV).2, Bool.false_eq_true, if_false]
    rw [hh, he, hA', hW, Option.map_some, smul_smul]
    congr 3
    field_simp

/-- C81, part that holds. If the strain is passed in the measure of the material and the result is asked for in Voigt notation, the
wrapped material gives energy, stresses and moduli of the material, with any choice of the derivatives. -/
theorem autoDiffMat_same_partial (msqrt : M3 → M3) (hL : Spec.Law m D) (hE : E.IsSymm) (hD : E ∈ D)
    (hS : m.stress E = some S) (hM : m.moduli E = some L) (fV fS : Bool) :
    storedEnergy msqrt m m.strainTag E = m.energy E ∧
    stresses msqrt m fV fS m.strainTag true E = some (.voigt (toVoigt3 S false)) ∧
    tangentModuli msqrt m fV fS m.strainTag true E = some (.voigt (moduliVoigt L)) := by
  have hk : Spec.scale m.strainTag m.strainTag = some 1 := by simp [Spec.scale]
  have hA : transformStrain msqrt m.strainTag m.strainTag E = some E := by simp [transformStrain]
  have h2 := autoDiffMat_moduli_partial msqrt hL hk hE hA hD hM true
  simp only [mul_one, one_smul] at h2
  have h1 : fV = true ∨ fS = true → stresses msqrt m fV fS m.strainTag true E = some (.voigt (toVoigt3 S false)) := by
    intro hf
    have := autoDiffMat_stress_partial msqrt hL hk hE hA hD hS fV fS true hf
    rwa [one_smul] at this
  refine ⟨by simp [storedEnergy, Mat.storedEnergy, hA], ?_, ?_⟩
  · cases fV
    · cases fS
      · simp [stresses, Mat.stresses, hA, hS]
      · exact h1 (.inr rfl)
    · exact h1 (.inl rfl)
  · cases fS
    · cases fV
      · simp [tangentModuli, Mat.tangentModuli, hA, hM]
      · exact h2.1
    · exact h2.2 fV

/-! ### The materials of the library -/

/-- St. Venant-Kirchhoff with the factor of svk.hh:55. -/
noncomputable def svk (p : SVK ℝ) : Mat where
  strainTag := .greenLagrangian
  derivativeFactor := 1
  energy E := some (p.energyMatrix E)
  stress E := some (p.stressMatrixToMatrix E)
  moduli _ := some p.moduliTensor

/-- Neo-Hooke with the factor of neohooke.hh:56. -/
noncomputable def neoHooke (p : NeoHooke) (eps : ℝ) : Mat where
  strainTag := .rightCauchyGreenTensor
  derivativeFactor := 2
  energy C := p.storedEnergy eps C
  stress C := p.stresses eps C
  moduli C := p.tangentModuli eps C

/-- C81, St. Venant-Kirchhoff. The material satisfies the hypotheses for all strains. -/
theorem svk_law (p : SVK ℝ) : Spec.Law (svk p) Set.univ where
  nearby := fun _ _ _ _ _ => Filter.Eventually.of_forall fun _ => Set.mem_univ _
  factor := one_ne_zero
  energy := fun A _ _ => ⟨_, rfl⟩
  stress := fun A _ hA => ⟨_, rfl, by
    rw [SVK.stressMatrixToMatrix, IsSymm, transpose_add, transpose_smul, transpose_smul, transpose_one, hA]⟩
  moduli := fun A _ _ => ⟨_, rfl, (svk_moduli two_ne_zero p).2.1, (svk_moduli two_ne_zero p).2.2.1⟩
  stress_deriv := fun C dC t S hC _ _ _ hS => by
    obtain rfl := Option.some.inj hS
    refine (svk_derivative p C dC t hC).1.congr_deriv ?_
    simp [svk]
  moduli_deriv := fun C dC t L hC _ hd _ hM => by
    obtain rfl := Option.some.inj hM
    intro i j
    refine ((svk_derivative p C dC t hC).2 i j).congr_deriv ?_
    change _ = contract p.moduliTensor ((1 / 1 : ℝ) • dC) i j
    rw [div_one, one_smul, (svk_moduli two_ne_zero p).2.2.2.2.1 dC hd]

/-- C81, Neo-Hooke. The material satisfies the hypotheses for all right Cauchy-Green tensors of positive determinant. -/
theorem neoHooke_law (p : NeoHooke) {eps : ℝ} (he1 : eps < 1) : Spec.Law (neoHooke p eps) {C | 0 < C.det} where
  nearby := fun _ _ _ hC h => NeoHooke.det_pos_eventually hC h
  factor := two_ne_zero
  energy := fun A hA hs => by
    obtain ⟨W, hW, -⟩ := neoHooke_stress_is_derivative p he1 (fun _ => A) 0 0 (fun _ _ => hasDerivAt_const _ _) hs hA
    exact ⟨_, hW.self_of_nhds⟩
  stress := fun A hA hs => by
    obtain ⟨-, -, S, hS, hsym, -⟩ := neoHooke_stress_is_derivative p he1 (fun _ => A) 0 0 (fun _ _ => hasDerivAt_const _ _) hs hA
    exact ⟨S, hS, hsym⟩
  moduli := fun A hA hs => neoHooke_moduli_symmetric p he1 A hs hA
  stress_deriv := fun C dC t S hC hs _ h hS => by
    obtain ⟨W, hW, S', hS', -, hd⟩ := neoHooke_stress_is_derivative p he1 C dC t hC (hs t) h
    obtain rfl := Option.some.inj (hS.symm.trans hS')
    refine hd.congr_of_eventuallyEq ?_
    filter_upwards [hW] with s h1
    change (p.storedEnergy eps (C s)).getD 0 = W s
    rw [h1]; rfl
  moduli_deriv := fun C dC t L hC hs hd h hM => by
    obtain ⟨S, hS, L', hL', hd'⟩ := neoHooke_moduli_is_derivative p he1 C dC t hC (hs t) hd h
    obtain rfl := Option.some.inj (hM.symm.trans hL')
    intro i j
    refine (hd' i j).congr_of_eventuallyEq ?_
    filter_upwards [hS] with s h1
    change (p.stresses eps (C s)).getD 0 i j = S s i j
    rw [h1]; rfl

/-- C81. The full claim is false, in two ways: the factor of the material is used for every strain measure, so that for
St. Venant-Kirchhoff and a right Cauchy-Green tensor half the stress is returned; and the wish for a result that is not in Voigt
notation is ignored. -/
theorem same_false : ¬ Spec.Same ∧
    (∀ (p : SVK ℝ) (msqrt : M3 → M3) (C : M3), C.IsSymm → ∀ voigt,
      stresses msqrt (svk p) true false .rightCauchyGreenTensor voigt C =
        some (.voigt ((1 / 2 : ℝ) • toVoigt3 (p.stressMatrixToMatrix ((1 / 2 : ℝ) • (C - 1))) false)) ∧
      tangentModuli msqrt (svk p) true true .rightCauchyGreenTensor voigt C =
        some (.voigt ((1 / 4 : ℝ) • moduliVoigt p.moduliTensor))) ∧
    ∀ (msqrt : M3 → M3) (m : Mat) (fV fS : Bool) (tag : StrainTag) (E : M3),
      stresses msqrt m fV fS tag false E = stresses msqrt m fV fS tag true E ∧
      tangentModuli msqrt m fV fS tag false E = tangentModuli msqrt m fV fS tag true E := by
  have hsvk : ∀ (p : SVK ℝ) (msqrt : M3 → M3) (C : M3), C.IsSymm → ∀ voigt,
      stresses msqrt (svk p) true false .rightCauchyGreenTensor voigt C =
        some (.voigt ((1 / 2 : ℝ) • toVoigt3 (p.stressMatrixToMatrix ((1 / 2 : ℝ) • (C - 1))) false)) ∧
      tangentModuli msqrt (svk p) true true .rightCauchyGreenTensor voigt C =
        some (.voigt ((1 / 4 : ℝ) • moduliVoigt p.moduliTensor)) := by
    intro p msqrt C hC voigt
    have hk : Spec.scale .rightCauchyGreenTensor (svk p).strainTag = some (1 / 2) := by simp [Spec.scale, svk]
    have hA : transformStrain msqrt .rightCauchyGreenTensor (svk p).strainTag C = some ((1 / 2 : ℝ) • (C - 1)) := by
      simp [transformStrain, svk, createGreenLagrangianStrains]
    refine ⟨autoDiffMat_stress_partial msqrt (svk_law p) hk hC hA (Set.mem_univ _) rfl _ _ _ (.inl rfl), ?_⟩
    have := (autoDiffMat_moduli_partial msqrt (svk_law p) hk hC hA (Set.mem_univ _) rfl voigt).2 true
    rw [this]
    norm_num
  refine ⟨fun h => ?_, hsvk, fun _ _ _ _ _ _ => ⟨rfl, rfl⟩⟩
  have h1 := (h id (svk ⟨0, 1⟩) Set.univ (svk_law _) .rightCauchyGreenTensor ((3 : ℝ) • 1) ((1 / 2 : ℝ) • ((3 : ℝ) • 1 - 1)) _ _
    (by simp [Spec.scale, svk]) (by rw [IsSymm, transpose_smul, transpose_one])
    (by simp [transformStrain, svk, createGreenLagrangianStrains]) (Set.mem_univ _) rfl rfl true false true).1
  rw [((hsvk ⟨0, 1⟩ id ((3 : ℝ) • 1) (by rw [IsSymm, transpose_smul, transpose_one]) true).1)] at h1
  simp only [if_true, Option.some.injEq, Result.voigt.injEq] at h1
  have h2 := congrFun h1 0
  simp [toVoigt3, SVK.stressMatrixToMatrix] at h2
  norm_num at h2

/-- A case that meets the hypotheses of the theorems: Neo-Hooke at a stretch. -/
example (p : NeoHooke) : Spec.Law (neoHooke p 0) {C | 0 < C.det} ∧ (Matrix.diagonal ![2, 1, 1] : M3).IsSymm ∧
    (Matrix.diagonal ![2, 1, 1] : M3) ∈ {C : M3 | 0 < C.det} := by
  refine ⟨neoHooke_law p (by norm_num), by rw [IsSymm, diagonal_transpose], ?_⟩
  simp [Matrix.det_diagonal, Fin.prod_univ_three]

example (p : NeoHooke) (msqrt : M3 → M3) : ∃ S L, stresses msqrt (neoHooke p 0) true true (neoHooke p 0).strainTag true
    (Matrix.diagonal ![2, 1, 1]) = some (.voigt (toVoigt3 S false)) ∧ (neoHooke p 0).moduli (Matrix.diagonal ![2, 1, 1]) = some L := by
  have hd : 0 < (Matrix.diagonal ![2, 1, 1] : M3).det := by simp [Matrix.det_diagonal, Fin.prod_univ_three]
  obtain ⟨h1, h2, h3⟩ := neoHooke_defined p (show (0 : ℝ) < 1 by norm_num) (Matrix.diagonal ![2, 1, 1])
  obtain ⟨S, hS⟩ := Option.isSome_iff_exists.1 (h2.2 hd)
  obtain ⟨L, hL⟩ := Option.isSome_iff_exists.1 (h3.2 hd)
  exact ⟨S, L, (autoDiffMat_same_partial (m := neoHooke p 0) msqrt (neoHooke_law p (by norm_num))
    (by rw [IsSymm, diagonal_transpose]) hd hS hL true true).2.1, hL⟩

end Ikarus.AutoDiffMat
