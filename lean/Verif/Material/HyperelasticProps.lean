import Verif.Material.SpectralLemmas
import Verif.Material.DeviatoricProps
import Verif.Material.NeoHookeProps
import Verif.Material.VolumetricProps
import Mathlib.Analysis.Matrix.Spectrum
import Mathlib.LinearAlgebra.Matrix.PosDef

/-!
C65: hyperelastic materials.
-/

namespace Ikarus

open Matrix Spec

/-! ### Specification -/

/-- A correct eigenvalue solver returns a spectral decomposition of each symmetric matrix; nothing is said about order
or sign of the eigenvectors. -/
def Spec.CorrectSolver (solver : EigenSolver) : Prop :=
  ∀ C : M3, C.IsSymm → ∃ mu N, solver C = some (mu, N) ∧ IsSpectral C mu N

/-- All three functions of a deviatoric function respect permutations of the stretches. -/
structure Spec.IsotropicFun (f : DevFun) : Prop where
  energy : ∀ (σ : Equiv.Perm (Fin 3)) l, f.storedEnergy (l ∘ σ) = f.storedEnergy l
  first : ∀ (σ : Equiv.Perm (Fin 3)) l, f.firstDerivative (l ∘ σ) = (f.firstDerivative l).map fun g a => g (σ a)
  second : ∀ (σ : Equiv.Perm (Fin 3)) l,
    f.secondDerivative (l ∘ σ) = (f.secondDerivative l).map fun H => (fun a b => H (σ a) (σ b) : M3)

/-! ### The functions of the library are isotropic -/

theorem det_perm (σ : Equiv.Perm (Fin 3)) (l : Fin 3 → ℝ) :
    determinantFromPrincipalValues (l ∘ σ) = determinantFromPrincipalValues l := by
  have : ∀ x : Fin 3 → ℝ, determinantFromPrincipalValues x = ∏ a, x a := by
    intro x; rw [Fin.prod_univ_three]; rfl
  rw [this, this]
  exact Equiv.prod_comp σ l

theorem prod_perm (σ : Equiv.Perm (Fin 3)) (l : Fin 3 → ℝ) :
    l (σ 0) * l (σ 1) * l (σ 2) = l 0 * l 1 * l 2 := det_perm σ l

theorem bar_perm (σ : Equiv.Perm (Fin 3)) (l : Fin 3 → ℝ) (a : Fin 3) :
    deviatoricStretches (l ∘ σ) a = deviatoricStretches l (σ a) := by
  simp only [deviatoricStretches, det_perm, Function.comp]

theorem sum_perm (σ : Equiv.Perm (Fin 3)) (f : Fin 3 → ℝ) : ∑ a, f (σ a) = ∑ a, f a := Equiv.sum_comp σ f

theorem invariants_perm (σ : Equiv.Perm (Fin 3)) (l : Fin 3 → ℝ) : invariants (l ∘ σ) = invariants l := by
  have h0 : ∀ x : Fin 3 → ℝ, invariants x 0 = ∑ a, x a ^ 2 := by
    intro x; rw [Fin.sum_univ_three]; rfl
  have h2 : ∀ x : Fin 3 → ℝ, invariants x 2 = ∏ a, x a ^ 2 := by
    intro x; rw [Fin.prod_univ_three]; rfl
  have h1 : ∀ x : Fin 3 → ℝ, 2 * invariants x 1 = (∑ a, x a ^ 2) ^ 2 - ∑ a, (x a ^ 2) ^ 2 := by
    intro x; rw [inv1, Fin.sum_univ_three, Fin.sum_univ_three]; ring
  ext a
  fin_cases a
  · exact (h0 _).trans ((sum_perm σ fun a => l a ^ 2).trans (h0 l).symm)
  · have e := h1 (l ∘ σ)
    have e1 := sum_perm σ fun a => l a ^ 2
    have e2 := sum_perm σ fun a => (l a ^ 2) ^ 2
    simp only [Function.comp] at e
    rw [e1, e2, ← h1 l] at e
    have := mul_left_cancel₀ two_ne_zero e
    exact this
  · exact (h2 _).trans ((Equiv.prod_comp σ fun a => l a ^ 2).trans (h2 l).symm)

open DeviatoricInvariants in
theorem devInvariants_perm (σ : Equiv.Perm (Fin 3)) (l : Fin 3 → ℝ) :
    W1 (l ∘ σ) = W1 l ∧ W2 (l ∘ σ) = W2 l ∧ (∀ a, dW1 (l ∘ σ) a = dW1 l (σ a)) ∧
    (∀ a, dW2 (l ∘ σ) a = dW2 l (σ a)) ∧ (∀ a b, ddW1 (l ∘ σ) a b = ddW1 l (σ a) (σ b)) ∧
    (∀ a b, ddW2 (l ∘ σ) a b = ddW2 l (σ a) (σ b)) := by
  refine ⟨?_, ?_, ?_, ?_, ?_, ?_⟩
  · simp only [W1, invariants_perm]
  · simp only [W2, invariants_perm]
  · intro a; simp only [dW1, invariants_perm]; rfl
  · intro a; simp only [dW2, invariants_perm]; rfl
  · intro a b; simp only [ddW1, invariants_perm, Function.comp, EmbeddingLike.apply_eq_iff_eq]
  · intro a b; simp only [ddW2, invariants_perm, Function.comp, EmbeddingLike.apply_eq_iff_eq]

theorem some_perm (σ : Equiv.Perm (Fin 3)) {X H : M3} (h : ∀ a b, X a b = H (σ a) (σ b)) :
    some X = (some H).map fun H => (fun a b => H (σ a) (σ b) : M3) := by
  rw [Option.map_some]
  exact congrArg some (Matrix.ext h)

theorem noDev_isotropic : IsotropicFun noDev := ⟨fun _ _ => rfl, fun _ _ => rfl, fun _ _ => rfl⟩

theorem blatzKo_isotropic (mu : ℝ) : IsotropicFun (blatzKo mu) := by
  refine ⟨?_, ?_, ?_⟩
  · intro σ l
    simp only [blatzKo, BlatzKo.storedEnergy, Function.comp, prod_perm, sum_perm σ fun a => (l a)⁻¹ ^ 2]
  · intro σ l
    simp only [blatzKo, BlatzKo.firstDerivative, det_perm, Option.map_some]
    rfl
  · intro σ l
    refine some_perm σ fun a b => ?_
    simp only [BlatzKo.secondDerivative, det_perm, Function.comp, EmbeddingLike.apply_eq_iff_eq]

theorem ogden_total_isotropic {n : Nat} (o : Ogden n) : IsotropicFun o.total := by
  refine ⟨?_, ?_, ?_⟩
  · intro σ l
    simp only [Ogden.total, Ogden.storedEnergyTotal, Function.comp, prod_perm]
    congr 1
    refine Finset.sum_congr rfl fun i _ => ?_
    rw [sum_perm σ fun a => l a ^ o.alpha i]
  · intro σ l
    simp only [Ogden.total, Ogden.firstDerivativeTotal, Option.map_some]
    rfl
  · intro σ l
    refine some_perm σ fun a b => ?_
    simp only [Ogden.secondDerivativeTotal, Function.comp, EmbeddingLike.apply_eq_iff_eq]

theorem ogden_first_perm {n : Nat} (o : Ogden n) (σ : Equiv.Perm (Fin 3)) (l : Fin 3 → ℝ) (a : Fin 3) :
    o.firstDerivativeDev (l ∘ σ) a = o.firstDerivativeDev l (σ a) := by
  simp only [Ogden.firstDerivativeDev, bar_perm]
  rw [sum_perm σ fun a => deviatoricStretches l a * ∑ j, o.mu j * deviatoricStretches l a ^ (o.alpha j - 1)]
  rfl

theorem ogden_dev_isotropic {n : Nat} (o : Ogden n) : IsotropicFun o.dev := by
  refine ⟨?_, ?_, ?_⟩
  · intro σ l
    simp only [Ogden.dev, Ogden.storedEnergyDev, bar_perm]
    congr 1
    refine Finset.sum_congr rfl fun i _ => ?_
    rw [sum_perm σ fun a => deviatoricStretches l a ^ o.alpha i]
  · intro σ l
    simp only [Ogden.dev, Option.map_some, Option.some.injEq]
    ext a
    exact ogden_first_perm o σ l a
  · intro σ l
    simp only [Ogden.dev, Ogden.secondDerivativeDev]
    split
    · refine some_perm σ fun a b => ?_
      simp only [bar_perm, ogden_first_perm, EmbeddingLike.apply_eq_iff_eq]
      have : ∀ p, ∑ a, deviatoricStretches l (σ a) ^ o.alpha p = ∑ a, deviatoricStretches l a ^ o.alpha p :=
        fun p => sum_perm σ fun a => deviatoricStretches l a ^ o.alpha p
      simp only [this]
      rfl
    · rfl

theorem gent_isotropic (g : Gent) (eps : ℝ) : IsotropicFun (g.dev eps) := by
  refine ⟨?_, ?_, ?_⟩ <;> intro σ l <;> obtain ⟨h1, h2, h3, h4, h5, h6⟩ := devInvariants_perm σ l
  · simp only [Gent.dev, h1]
  · simp only [Gent.dev, h1, h3]
    cases g.checkJm eps (DeviatoricInvariants.W1 l) <;> rfl
  · simp only [Gent.dev, h1, h3, h5, Function.comp]
    cases g.checkJm eps (DeviatoricInvariants.W1 l)
    · rfl
    · simp only [Option.bind_eq_bind, Option.bind_some, pure]
      refine some_perm σ fun a b => ?_
      simp only [EmbeddingLike.apply_eq_iff_eq]

theorem arrudaBoyce_isotropic (m : ArrudaBoyce) : IsotropicFun m.dev := by
  refine ⟨?_, ?_, ?_⟩ <;> intro σ l <;> obtain ⟨h1, h2, h3, h4, h5, h6⟩ := devInvariants_perm σ l
  · simp only [ArrudaBoyce.dev, h1]
  · simp only [ArrudaBoyce.dev, h1, h3]
    rfl
  · simp only [ArrudaBoyce.dev]
    refine some_perm σ fun a b => ?_
    simp only [h1, h3, h5, Function.comp, EmbeddingLike.apply_eq_iff_eq]

theorem invariantBased_isotropic {n : Nat} (v : InvariantBased n) (eps : ℝ) : IsotropicFun (v.dev eps) := by
  refine ⟨?_, ?_, ?_⟩ <;> intro σ l <;> obtain ⟨h1, h2, h3, h4, h5, h6⟩ := devInvariants_perm σ l
  · simp only [InvariantBased.dev, h1, h2]
  · rw [v.first_eq, v.first_eq]
    simp only [Option.map_some, Option.some.injEq]
    ext a
    simp only [Finset.sum_apply, InvariantBased.first, h1, h2, h3, h4]
  · rw [v.second_eq, v.second_eq]
    refine some_perm σ fun a b => ?_
    rw [Matrix.sum_apply]
    have : (∑ p, v.second l p) (σ a) (σ b) = ∑ p, v.second l p (σ a) (σ b) := by rw [Matrix.sum_apply]
    rw [this]
    refine Finset.sum_congr rfl fun p _ => ?_
    simp only [InvariantBased.second, InvariantBased.first, h1, h2, h3, h4, h5, h6, Function.comp,
      EmbeddingLike.apply_eq_iff_eq]


/-! ### Functions of the stretches respect equal stretches -/

theorem comp_swap {l : Fin 3 → ℝ} {i k : Fin 3} (h : l i = l k) : l ∘ Equiv.swap i k = l := by
  ext x
  simp only [Function.comp]
  by_cases h1 : x = i
  · rw [h1, Equiv.swap_apply_left, h]
  · by_cases h2 : x = k
    · rw [h2, Equiv.swap_apply_right, h]
    · rw [Equiv.swap_apply_of_ne_of_ne h1 h2]

theorem comp_pair {l : Fin 3 → ℝ} {i j k m : Fin 3} (hij : i ≠ j) (h1 : l i = l k) (h2 : l j = l m)
    {σ : Equiv.Perm (Fin 3)} (e1 : σ i = k) (e2 : σ j = m) : l ∘ σ = l := by
  have hs := sum_perm σ l
  rw [Fin.sum_univ_three, Fin.sum_univ_three] at hs
  have r1 : l (σ i) = l i := by rw [e1, h1]
  have r2 : l (σ j) = l j := by rw [e2, h2]
  ext x
  simp only [Function.comp]
  by_cases hx1 : x = i
  · rw [hx1, r1]
  by_cases hx2 : x = j
  · rw [hx2, r2]
  clear e1 e2 h1 h2
  fin_cases i <;> fin_cases j <;> fin_cases x <;> simp_all <;> linarith

section classes

variable {f : DevFun} (hf : IsotropicFun f) {l : Fin 3 → ℝ}

include hf

theorem first_class {g : Fin 3 → ℝ} (hg : f.firstDerivative l = some g) {i k : Fin 3} (h : l i = l k) :
    g i = g k := by
  have e := hf.first (Equiv.swap i k) l
  rw [comp_swap h, hg, Option.map_some] at e
  have := congrFun (Option.some.inj e) i
  rwa [Equiv.swap_apply_left] at this

theorem second_diag_class {H : M3} (hH : f.secondDerivative l = some H) {i k : Fin 3} (h : l i = l k) :
    H i i = H k k := by
  have e := hf.second (Equiv.swap i k) l
  rw [comp_swap h, hH, Option.map_some] at e
  have := congrFun (congrFun (Option.some.inj e) i) i
  rwa [Equiv.swap_apply_left] at this

theorem second_class {H : M3} (hH : f.secondDerivative l = some H) {i j k m : Fin 3} (hij : i ≠ j)
    (hkm : k ≠ m) (h1 : l i = l k) (h2 : l j = l m) : H i j = H k m := by
  obtain ⟨σ, e1, e2⟩ := exists_perm_pair i j k m hij hkm
  have e := hf.second σ l
  rw [comp_pair hij h1 h2 e1 e2, hH, Option.map_some] at e
  have := congrFun (congrFun (Option.some.inj e) i) j
  rwa [e1, e2] at this

end classes

/-- Coefficients of a moduli tensor that depend on the values of the stretches only. -/
theorem moduli_coefficients {l : Fin 3 → ℝ} {A : Fin 3 → Fin 3 → ℝ} {G : Fin 3 → Fin 3 → ℝ}
    (hA : ∀ i j k m, i ≠ j → k ≠ m → l i = l k → l j = l m → A i j = A k m)
    (hD : ∀ i k, l i = l k → A i i = A k k)
    (hG : ∀ i j k m, i ≠ j → k ≠ m → l i = l k → l j = l m → G i j = G k m)
    (hE : ∀ i j, i ≠ j → l i = l j → G i j = 1 / 2 * (A i i - A i j)) :
    ∃ u v : Fin 3 → Fin 3 → ℝ, (∀ i j, i ≠ j → u i j = A i j ∧ v i j = G i j) ∧
      (∀ i, u i i + 2 * v i i = A i i) ∧
      (∀ i j k m, l i = l k → l j = l m → u i j = u k m ∧ v i j = v k m) := by
  classical
  let u : Fin 3 → Fin 3 → ℝ := fun i j =>
    if i ≠ j then A i j else if h : ∃ p, p ≠ i ∧ l p = l i then A i h.choose else A i i
  let v : Fin 3 → Fin 3 → ℝ := fun i j => if i ≠ j then G i j else 1 / 2 * (A i i - u i i)
  have u1 : ∀ i j, i ≠ j → u i j = A i j := fun i j h => if_pos h
  have u2 : ∀ i, (∃ p, p ≠ i ∧ l p = l i) → ∃ p, p ≠ i ∧ l p = l i ∧ u i i = A i p := by
    intro i h
    refine ⟨h.choose, h.choose_spec.1, h.choose_spec.2, ?_⟩
    change (if i ≠ i then A i i else if h : ∃ p, p ≠ i ∧ l p = l i then A i h.choose else A i i) = _
    rw [if_neg (by simp), dif_pos h]
  have v1 : ∀ i j, i ≠ j → v i j = G i j := fun i j h => if_pos h
  have v2 : ∀ i, v i i = 1 / 2 * (A i i - u i i) := fun i => if_neg (by simp)
  -- one diagonal and one other entry
  have mixed : ∀ i k m, k ≠ m → l i = l k → l i = l m → u i i = u k m ∧ v i i = v k m := by
    intro i k m hkm h1 h2
    have hp : ∃ p, p ≠ i ∧ l p = l i := by
      by_cases hk : k = i
      · exact ⟨m, fun h => hkm (hk.trans h.symm), h2.symm⟩
      · exact ⟨k, hk, h1.symm⟩
    obtain ⟨p, hp1, hp2, hu⟩ := u2 i hp
    have e : A i p = A k m := hA i p k m hp1.symm hkm h1 (hp2.trans h2)
    refine ⟨by rw [hu, u1 k m hkm, e], ?_⟩
    rw [v2, v1 k m hkm, hE k m hkm (h1.symm.trans h2), hu, e, hD i k h1]
  refine ⟨u, v, fun i j h => ⟨u1 i j h, v1 i j h⟩, fun i => ?_, fun i j k m h1 h2 => ?_⟩
  · rw [v2]; ring
  · by_cases hij : i = j
    · subst hij
      by_cases hkm : k = m
      · subst hkm
        by_cases hik : i = k
        · subst hik; exact ⟨rfl, rfl⟩
        · obtain ⟨p, hp1, hp2, hu⟩ := u2 i ⟨k, Ne.symm hik, h1.symm⟩
          obtain ⟨q, hq1, hq2, hu'⟩ := u2 k ⟨i, hik, h1⟩
          have e : A i p = A k q := hA i p k q hp1.symm hq1.symm h1 (by rw [hp2, h1, hq2])
          refine ⟨by rw [hu, hu', e], ?_⟩
          rw [v2, v2, hu, hu', e, hD i k h1]
      · exact mixed i k m hkm h1 h2
    · by_cases hkm : k = m
      · subst hkm
        have := mixed k i j hij h1.symm h2.symm
        exact ⟨this.1.symm, this.2.symm⟩
      · rw [u1 i j hij, u1 k m hkm, v1 i j hij, v1 k m hkm]
        exact ⟨hA i j k m hij hkm h1 h2, hG i j k m hij hkm h1 h2⟩

open Hyperelastic in
/-- The transformed moduli as sums over pairs of projections. -/
theorem transform_eq (L : Tensor4 ℝ 3) (N : M3) (u v : Fin 3 → Fin 3 → ℝ)
    (h1 : ∀ i j, i ≠ j → u i j = L i i j j ∧ v i j = L i j i j) (h2 : ∀ i, u i i + 2 * v i i = L i i i i)
    (a b c d : Fin 3) :
    transformDeviatoricTangentModuli L N a b c d =
      ∑ i, ∑ k, u i k * (N a i * N b i * (N c k * N d k)) +
      ∑ i, ∑ k, v i k * (N a i * N c i * (N b k * N d k)) +
      ∑ i, ∑ k, v i k * (N a i * N d i * (N b k * N c k)) := by
  rw [← Finset.sum_add_distrib, ← Finset.sum_add_distrib]
  refine Finset.sum_congr rfl fun i _ => ?_
  rw [← Finset.sum_add_distrib, ← Finset.sum_add_distrib]
  refine Finset.sum_congr rfl fun k _ => ?_
  simp only [dyadic, colDyad, Matrix.add_apply]
  by_cases h : i = k
  · subst h
    rw [if_neg (by simp), ← h2]
    ring
  · rw [if_pos h, ← (h1 i k h).1, ← (h1 i k h).2]
    ring

open Hyperelastic in
/-- The transformed moduli do not depend on the choice of the eigenvectors. -/
theorem transform_change {l : Fin 3 → ℝ} {L : Tensor4 ℝ 3} {N Q : M3} (hQ : Q * Qᵀ = 1)
    {σ : Equiv.Perm (Fin 3)} (hσ : ∀ j, Q (σ j) j ≠ 0) (hl : ∀ i j, Q i j ≠ 0 → l i = l (σ j))
    {u v : Fin 3 → Fin 3 → ℝ}
    (h1 : ∀ i j, i ≠ j → u i j = L i i j j ∧ v i j = L i j i j) (h2 : ∀ i, u i i + 2 * v i i = L i i i i)
    (h3 : ∀ i j k m, l i = l k → l j = l m → u i j = u k m ∧ v i j = v k m) :
    transformDeviatoricTangentModuli (fun i j k m => L (σ i) (σ j) (σ k) (σ m)) (N * Q) =
      transformDeviatoricTangentModuli L N := by
  ext a b c d
  rw [transform_eq L N u v h1 h2, transform_eq _ (N * Q) (fun i j => u (σ i) (σ j)) (fun i j => v (σ i) (σ j))
    (fun i j h => h1 _ _ fun h' => h (σ.injective h')) (fun i => h2 _)]
  rw [spectral_pairs (N := N) (g := u) hQ hσ fun i j k m hq1 hq2 => (h3 _ _ _ _ (hl i j hq1).symm (hl k m hq2).symm).1,
    spectral_pairs (N := N) (g := v) hQ hσ fun i j k m hq1 hq2 => (h3 _ _ _ _ (hl i j hq1).symm (hl k m hq2).symm).2,
    spectral_pairs (N := N) (g := v) hQ hσ fun i j k m hq1 hq2 => (h3 _ _ _ _ (hl i j hq1).symm (hl k m hq2).symm).2]

/-! ### Evaluation in any basis of eigenvectors -/

theorem floatCmpEq_of_eq {eps a b : ℝ} (he : 0 ≤ eps) (h : a = b) : floatCmpEq eps a b := by
  unfold floatCmpEq
  rw [h, sub_self, abs_zero]
  exact mul_nonneg he (le_max_of_le_left (abs_nonneg _))

theorem stresses_perm {f : DevFun} (hf : IsotropicFun f) (σ : Equiv.Perm (Fin 3)) (l : Fin 3 → ℝ) :
    f.stresses (l ∘ σ) = (f.stresses l).map fun S a => S (σ a) := by
  unfold DevFun.stresses
  rw [hf.first]
  cases f.firstDerivative l <;> rfl

theorem tangentModuli_perm {f : DevFun} (hf : IsotropicFun f) (eps : ℝ) (σ : Equiv.Perm (Fin 3))
    (l : Fin 3 → ℝ) : f.tangentModuli eps (l ∘ σ) =
      (f.tangentModuli eps l).map fun L i j k m => L (σ i) (σ j) (σ k) (σ m) := by
  unfold DevFun.tangentModuli
  rw [stresses_perm hf, hf.second]
  cases f.stresses l with
  | none => rfl
  | some S =>
    cases f.secondDerivative l with
    | none => rfl
    | some H =>
      simp only [Option.map_some, Option.bind_eq_bind, Option.bind_some, pure, Function.comp,
        EmbeddingLike.apply_eq_iff_eq]
      rfl

/-- Entries of the moduli in principal directions. -/
theorem tangentModuli_entries {f : DevFun} {eps : ℝ} {l : Fin 3 → ℝ} {L : Tensor4 ℝ 3}
    (hL : f.tangentModuli eps l = some L) : ∃ g H, f.firstDerivative l = some g ∧ f.secondDerivative l = some H ∧
      (∀ i k, L i i k k = 1 / (l i * l k) * H i k) ∧
      (∀ i k, i ≠ k → floatCmpEq eps (l i) (l k) → L i k i k = 1 / 2 * (L i i i i - L i i k k)) ∧
      ∀ i k, i ≠ k → ¬ floatCmpEq eps (l i) (l k) → L i k i k = (g i / l i - g k / l k) / (l i ^ 2 - l k ^ 2) := by
  unfold DevFun.tangentModuli DevFun.stresses at hL
  cases hg : f.firstDerivative l with
  | none => rw [hg] at hL; cases hL
  | some g =>
    cases hH : f.secondDerivative l with
    | none => rw [hg, hH] at hL; cases hL
    | some H =>
      rw [hg, hH] at hL
      have hL := Option.some.inj hL
      have e1 : ∀ i k, L i i k k = 1 / (l i * l k) * H i k := by
        intro i k
        rw [← hL]
        exact if_pos ⟨rfl, rfl⟩
      refine ⟨g, H, rfl, rfl, e1, ?_, ?_⟩
      · intro i k hik hc
        rw [e1, e1, ← hL]
        exact (if_neg fun hh => hik hh.1).trans ((if_pos ⟨rfl, rfl⟩).trans (if_pos hc))
      · intro i k hik hc
        rw [← hL]
        exact (if_neg fun hh => hik hh.1).trans ((if_pos ⟨rfl, rfl⟩).trans ((if_neg hc).trans (zero_add _)))

/-- Specification: `C` has the principal stretches `l` and the principal directions `N`. -/
def Spec.HasStretches (C : M3) (l : Fin 3 → ℝ) (N : M3) : Prop :=
  (∀ a, 0 < l a) ∧ IsSpectral C (fun a => l a ^ 2) N

theorem symm_of_spectral {C : M3} {mu : Fin 3 → ℝ} {N : M3} (h : IsSpectral C mu N) : C.IsSymm := by
  rw [IsSymm, h.decomp, transpose_mul, transpose_mul, transpose_transpose, diagonal_transpose, Matrix.mul_assoc]

/-- What a correct solver returns. -/
theorem principalStretches_eq {solver : EigenSolver} (hs : CorrectSolver solver) {C : M3} {l : Fin 3 → ℝ} {N : M3}
    (h : HasStretches C l N) : ∃ (σ : Equiv.Perm (Fin 3)) (Q : M3),
      principalStretches solver C = some (l ∘ σ, N * Q) ∧ Q * Qᵀ = 1 ∧ (∀ j, Q (σ j) j ≠ 0) ∧
      ∀ i j, Q i j ≠ 0 → l i = l (σ j) := by
  obtain ⟨mu, N', e, hN'⟩ := hs C (symm_of_spectral h.2)
  obtain ⟨Q, hQ, hQo, hmu, σ, hσ⟩ := spectral_change h.2 hN'
  have hsq : ∀ i j, Q i j ≠ 0 → √(mu j) = l i := by
    intro i j hq
    rw [← hmu i j hq, Real.sqrt_sq (h.1 i).le]
  refine ⟨σ, Q, ?_, hQo, hσ, fun i j hq => ?_⟩
  · unfold principalStretches
    rw [e, ← hQ]
    have : (fun a => √(mu a)) = l ∘ σ := funext fun j => hsq _ j (hσ j)
    exact congrArg some (Prod.ext this rfl)
  · rw [← hsq i j hq, hsq _ j (hσ j)]

namespace Hyperelastic

variable (h : Hyperelastic)

theorem detF_eq {eps : ℝ} (he : eps < 1) {l : Fin 3 → ℝ} (hl : ∀ a, 0 < l a) (σ : Equiv.Perm (Fin 3)) :
    detF eps (l ∘ σ) = some (l 0 * l 1 * l 2) := by
  have p0 := hl 0; have p1 := hl 1; have p2 := hl 2
  unfold detF
  rw [det_perm]
  have : 0 < determinantFromPrincipalValues l := by
    unfold determinantFromPrincipalValues; positivity
  simp only [checkPositive_some he this, Option.bind_eq_bind, Option.bind_some]
  rfl

/-- The volumetric part of the moduli. -/
noncomputable def volModuli (U' U'' : ℝ) (C : M3) (J : ℝ) : Tensor4 ℝ 3 := fun a b c d =>
  J * ((U' + J * U'') * (C⁻¹ a b * C⁻¹ c d) -
    2 * U' * (1 / 2 * (C⁻¹ a c * C⁻¹ b d + C⁻¹ a d * C⁻¹ b c)))

theorem volModuli_eq (U' U'' : ℝ) (C : M3) (J : ℝ) :
    transformVolumetricTangentModuli U' U'' C J = some (volModuli U' U'' C J) := by
  unfold transformVolumetricTangentModuli
  simp only [NeoHooke.symTwoSlots_IKJL, Option.bind_eq_bind, Option.bind_some]
  rfl

end Hyperelastic

open Hyperelastic in
/-- C65. Energy, stresses and moduli are those of the principal stretches and any principal directions: they do not
depend on the order, the signs or the choice of the eigenvectors the solver returns. -/
theorem hyperelastic_any_basis (h : Hyperelastic) (hf : IsotropicFun h.dev) {solver : EigenSolver}
    (hs : CorrectSolver solver) {eps epsEq : ℝ} (he : eps < 1) (heq : 0 ≤ epsEq) {C : M3} {l : Fin 3 → ℝ} {N : M3}
    (hC : HasStretches C l N) :
    h.storedEnergy solver eps C = (h.dev.storedEnergy l).map (fun W => W + h.vol.storedEnergy (l 0 * l 1 * l 2)) ∧
    h.stresses solver eps C = (h.dev.stresses l).map (fun S =>
      N * diagonal S * Nᵀ + ((l 0 * l 1 * l 2) * h.vol.firstDerivative (l 0 * l 1 * l 2)) • C⁻¹) ∧
    h.tangentModuli solver eps epsEq C = (h.dev.tangentModuli epsEq l).map (fun L =>
      transformDeviatoricTangentModuli L N + volModuli (h.vol.firstDerivative (l 0 * l 1 * l 2))
        (h.vol.secondDerivative (l 0 * l 1 * l 2)) C (l 0 * l 1 * l 2)) := by
  obtain ⟨σ, Q, e, hQ, hσ, hl⟩ := principalStretches_eq hs hC
  have hJ := detF_eq he hC.1 σ
  refine ⟨?_, ?_, ?_⟩
  · simp only [storedEnergy, e, hJ, hf.energy, Option.bind_eq_bind, Option.bind_some]
    cases h.dev.storedEnergy l <;> rfl
  · simp only [stresses, e, hJ, stresses_perm hf, Option.bind_eq_bind, Option.bind_some]
    cases hS : h.dev.stresses l with
    | none => rfl
    | some S =>
      have hcl : ∀ i k, l i = l k → S i = S k := by
        intro i k hik
        have e := stresses_perm hf (Equiv.swap i k) l
        rw [comp_swap hik, hS, Option.map_some] at e
        have := congrFun (Option.some.inj e) i
        rwa [Equiv.swap_apply_left] at this
      simp only [Option.map_some, Option.bind_some, pure, Option.some.injEq, transformDeviatoricStresses,
        transformVolumetricStresses]
      rw [spectral_diag (N := N) (S := S) hQ fun i j hq => (hcl i _ (hl i j hq)).symm]
  · simp only [tangentModuli, e, hJ, tangentModuli_perm hf, volModuli_eq, Option.bind_eq_bind, Option.bind_some]
    cases hL : h.dev.tangentModuli epsEq l with
    | none => rfl
    | some L =>
      obtain ⟨g, H, hg, hH, e1, e2, e3⟩ := tangentModuli_entries hL
      have hA : ∀ i j k m, i ≠ j → k ≠ m → l i = l k → l j = l m → L i i j j = L k k m m := by
        intro i j k m a b c d
        rw [e1, e1, second_class hf hH a b c d, c, d]
      have hD : ∀ i k, l i = l k → L i i i i = L k k k k := by
        intro i k a
        rw [e1, e1, second_diag_class hf hH a, a]
      have hg' : ∀ i k, l i = l k → g i = g k := fun i k a => first_class hf hg a
      have hG : ∀ i j k m, i ≠ j → k ≠ m → l i = l k → l j = l m → L i j i j = L k m k m := by
        intro i j k m a b c d
        by_cases hc : floatCmpEq epsEq (l i) (l j)
        · rw [e2 i j a hc, e2 k m b (by rwa [← c, ← d]), hD i k c, hA i j k m a b c d]
        · rw [e3 i j a hc, e3 k m b (by rwa [← c, ← d]), hg' i k c, hg' j m d, c, d]
      obtain ⟨u, v, h1, h2, h3⟩ := moduli_coefficients (l := l) (A := fun i k => L i i k k)
        (G := fun i k => L i k i k) hA hD hG (fun i j a b => e2 i j a (floatCmpEq_of_eq heq b))
      have := transform_change (N := N) hQ hσ hl h1 h2 h3
      simp only [Option.map_some, Option.bind_some, pure, Option.some.injEq]
      rw [this]
      rfl

/-- C65. Two correct solvers give the same energy, stresses and moduli. -/
theorem hyperelastic_solver_independent (h : Hyperelastic) (hf : IsotropicFun h.dev) {solver solver' : EigenSolver}
    (hs : CorrectSolver solver) (hs' : CorrectSolver solver') {eps epsEq : ℝ} (he : eps < 1) (heq : 0 ≤ epsEq)
    {C : M3} {l : Fin 3 → ℝ} {N : M3} (hC : HasStretches C l N) :
    h.storedEnergy solver eps C = h.storedEnergy solver' eps C ∧
    h.stresses solver eps C = h.stresses solver' eps C ∧
    h.tangentModuli solver eps epsEq C = h.tangentModuli solver' eps epsEq C := by
  obtain ⟨a, b, c⟩ := hyperelastic_any_basis h hf hs he heq hC
  obtain ⟨a', b', c'⟩ := hyperelastic_any_basis h hf hs' he heq hC
  exact ⟨a.trans a'.symm, b.trans b'.symm, c.trans c'.symm⟩

/-- C65. The material is isotropic: in a rotated or reflected frame the energy is the same and the stresses rotate. -/
theorem hyperelastic_isotropic (h : Hyperelastic) (hf : IsotropicFun h.dev) {solver : EigenSolver}
    (hs : CorrectSolver solver) {eps : ℝ} (he : eps < 1)
    {C : M3} {l : Fin 3 → ℝ} {N : M3} (hC : HasStretches C l N) {Q : M3} (hQ : Q * Qᵀ = 1) :
    h.storedEnergy solver eps (Q * C * Qᵀ) = h.storedEnergy solver eps C ∧
    h.stresses solver eps (Q * C * Qᵀ) = (h.stresses solver eps C).map fun S => Q * S * Qᵀ := by
  have hQ' : Qᵀ * Q = 1 := mul_eq_one_comm.mp hQ
  have hC' : HasStretches (Q * C * Qᵀ) l (Q * N) := by
    refine ⟨hC.1, ?_, ?_⟩
    · rw [transpose_mul, Matrix.mul_assoc, ← Matrix.mul_assoc Qᵀ, hQ', Matrix.one_mul, hC.2.orth]
    · rw [hC.2.decomp, transpose_mul]
      simp only [Matrix.mul_assoc]
  obtain ⟨a, b, -⟩ := hyperelastic_any_basis h hf hs (epsEq := 0) he le_rfl hC
  obtain ⟨a', b', -⟩ := hyperelastic_any_basis h hf hs (epsEq := 0) he le_rfl hC'
  refine ⟨a'.trans a.symm, ?_⟩
  rw [b, b']
  cases h.dev.stresses l with
  | none => rfl
  | some S =>
    simp only [Option.map_some, Option.some.injEq]
    have hinv : (Q * C * Qᵀ)⁻¹ = Q * C⁻¹ * Qᵀ := by
      have i1 : Q⁻¹ = Qᵀ := inv_eq_right_inv hQ
      have i2 : Qᵀ⁻¹ = Q := inv_eq_right_inv hQ'
      rw [Matrix.mul_inv_rev, Matrix.mul_inv_rev, i1, i2, Matrix.mul_assoc]
    rw [hinv, transpose_mul, Matrix.mul_add, Matrix.add_mul, Matrix.mul_smul, Matrix.smul_mul]
    simp only [Matrix.mul_assoc]

end Ikarus
