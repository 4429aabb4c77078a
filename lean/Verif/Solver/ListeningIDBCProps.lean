import Verif.Solver.ListeningProps
import Mathlib.Tactic.FinCases

/-!
C85: what a successful run of the Newton-Raphson solver says about the internal variables of the elements, inhomogeneous Dirichlet
conditions, and `DBCOption::Reduced`.
-/

namespace Ikarus.Listening

open Ikarus.Element Ikarus.Element.EAS Ikarus.Element.Spec Matrix

variable {ε W X R A C N S : Type} {n d q m Nd : Nat}

/-! ### An element -/

/-- The derivative of the strains with respect to the first degree of freedom. -/
def exampleBop : Fin 4 → Matrix (Fin 3) (Fin 2) ℝ := fun I => if I = 0 then !![1, 0; 0, 0; 0, 0] else 0

/-- Three integration points of an element with four nodes in the plane and four internal variables. -/
def examplePoints : List (LinPoint 4 2 3 × Matrix (Fin 3) (Fin 4) ℝ) :=
  [(⟨1, 1, exampleBop⟩, !![1, 0, 0, 0; 0, 1, 0, 0; 0, 0, 1, 0]), (⟨1, 1, 0⟩, !![0, 0, 0, 1; 0, 0, 0, 0; 0, 0, 0, 0]),
    (⟨1, 1, exampleBop⟩, 0)]

/-- One element, with given constraints. -/
noncomputable def exampleMesh (constrained : Fin 8 → Bool) : Mesh (Fin 1) 4 2 3 4 8 where
  law _ := linearLaw 1
  gps _ := linearPoints examplePoints
  dofs _ I a := ⟨I * 2 + a, by omega⟩
  load lambda i := if i = 0 then lambda else 0
  constrained := constrained

theorem example_D (u : NodeVec 4 2) (alpha : Fin 4 → ℝ) : calculateD (linearLaw 1) (linearPoints examplePoints) u alpha = 1 := by
  rw [calculateD_sum]
  simp only [linearPoints, examplePoints, List.map_cons, List.map_nil, List.sum_cons, List.sum_nil, pointD, additive, linearLaw,
    LinPoint.toPoint]
  ext i j
  fin_cases i <;> fin_cases j <;> simp [Matrix.mul_apply, Fin.sum_univ_succ, Matrix.one_apply]

theorem example_L (u : NodeVec 4 2) (alpha : Fin 4 → ℝ) (I : Fin 4) :
    calculateL (linearLaw 1) (linearPoints examplePoints) u alpha I = if I = 0 then !![1, 0; 0, 0; 0, 0; 0, 0] else 0 := by
  rw [calculateL_sum]
  simp only [linearPoints, examplePoints, List.map_cons, List.map_nil, List.sum_cons, List.sum_nil, pointL, additive, linearLaw,
    LinPoint.toPoint, exampleBop, Pi.add_apply]
  by_cases hI : I = 0
  · subst hI
    ext i j
    fin_cases i <;> fin_cases j <;> simp [Matrix.mul_apply, Fin.sum_univ_succ]
  · simp [hI]

theorem example_regular (constrained : Fin 8 → Bool) (alpha : Fin 1 → Fin 4 → ℝ) (x : Fin 8 → ℝ) :
    Spec.RegularAt (exampleMesh constrained) Set.univ alpha x := by
  intro e
  refine ⟨linear_regular 1 examplePoints Matrix.isSymm_one _ _, ?_⟩
  show IsUnit (calculateD (linearLaw 1) (linearPoints examplePoints) _ _).det
  rw [example_D, Matrix.det_one]
  exact isUnit_one

/-- The first entry of the condensed matrix. -/
theorem example_K (u : NodeVec 4 2) (alpha : Fin 4 → ℝ) :
    ∃ Kc : BlockMat 4 2, calculateMatrix (linearLaw 1) (linearPoints examplePoints) .stiffness u alpha 0 = some Kc ∧ Kc 0 0 0 0 = 1 := by
  refine ⟨_, calculateMatrix_eq (linearLaw 1) Set.univ _ u alpha (linear_regular 1 examplePoints Matrix.isSymm_one _ _) (by decide)
    (by decide) 0 (fun I J a b => rfl), ?_⟩
  rw [example_D, inv_one]
  simp only [zero_add, Pi.sub_apply, Matrix.sub_apply, example_L]
  simp only [stiffness, linearPoints, examplePoints, List.map_cons, List.map_nil,
    List.sum_cons, List.sum_nil, pointMatrix, additive, linearLaw, LinPoint.toPoint, exampleBop, Pi.add_apply, Matrix.add_apply]
  simp [Matrix.mul_apply, Fin.sum_univ_succ]

theorem example_residual (constrained : Fin 8 → Bool) (alpha : Fin 1 → Fin 4 → ℝ) (x : (Fin 8 → ℝ) × ℝ) :
    ∃ r, (exampleMesh constrained).residual alpha x = some r := by
  unfold Mesh.residual
  simp only
  rw [if_pos]
  · exact ⟨_, rfl⟩
  · intro e
    show (calculateVector (linearLaw 1) (linearPoints examplePoints) .forces _ _ 0).isSome = true
    rw [calculateVector_eq _ _ _ _ (by decide) (by decide)]
    rfl

theorem example_raw (constrained : Fin 8 → Bool) (alpha : Fin 1 → Fin 4 → ℝ) (x : (Fin 8 → ℝ) × ℝ) :
    ∃ a, (exampleMesh constrained).raw alpha x = some a ∧ a 0 0 = 1 := by
  obtain ⟨Kc, h1, h2⟩ := example_K ((exampleMesh constrained).at x.1 0) (alpha 0)
  have h1' : ∀ e, calculateMatrix ((exampleMesh constrained).law e) ((exampleMesh constrained).gps e) .stiffness
      ((exampleMesh constrained).at x.1 e) (alpha e) 0 = some Kc := by
    intro e
    obtain rfl : e = 0 := Subsingleton.elim _ _
    exact h1
  unfold Mesh.raw
  simp only [h1']
  rw [if_pos (show ∀ e : Fin 1, (some Kc).isSome = true from fun _ => rfl)]
  refine ⟨_, rfl, ?_⟩
  rw [Matrix.of_apply, Fin.sum_univ_one]
  have hd : ∀ (I : Fin 4) (a : Fin 2), (exampleMesh constrained).dofs 0 I a = 0 ↔ I = 0 ∧ a = 0 := by
    intro I a
    simp only [exampleMesh, Fin.ext_iff]
    show I.val * 2 + a.val = 0 ↔ I.val = 0 ∧ a.val = 0
    omega
  show (∑ I, ∑ a, ∑ J, ∑ b, if (exampleMesh constrained).dofs 0 I a = 0 ∧ (exampleMesh constrained).dofs 0 J b = 0
    then Kc I J a b else 0) = 1
  simp only [hd]
  rw [← h2]
  simp [Fin.sum_univ_succ]

/-- With the first degree of freedom free the matrix is the identity. -/
theorem example_jacobian (constrained : Fin 8 → Bool) (hc : ∀ i, i ≠ 0 → constrained i = true) (alpha : Fin 1 → Fin 4 → ℝ)
    (x : (Fin 8 → ℝ) × ℝ) : (exampleMesh constrained).jacobian alpha x = some 1 := by
  obtain ⟨a, h1, h2⟩ := example_raw constrained alpha x
  unfold Mesh.jacobian
  rw [h1, Option.map_some]
  congr 1
  ext i j
  rw [Matrix.of_apply, Matrix.one_apply]
  show (if (constrained i || constrained j) = true then _ else _) = _
  by_cases hi : i = 0
  · by_cases hj : j = 0
    · subst hi hj
      by_cases h0 : constrained 0 = true
      · simp [h0]
      · simp [h0, h2]
    · simp [hc j hj]
  · simp [hc i hi]

/-- `eas_solver_newton` applies: one free degree of freedom, the load of parameter 3, and internal variables that change. -/
example : let M := exampleMesh fun i => decide (i ≠ 0)
    let P := M.problem [0] (fun r => ∑ i, |r i|) (fun c => ∑ i, |c i|) (fun a b => decide (a > b)) (fun _ r => -r)
      (none : Option (_ × _))
    ∀ (alpha0 : Fin 1 → Fin 4 → ℝ) (x0 : (Fin 8 → ℝ) × ℝ) (stepSize : ℝ) (k : Nat) (alpha : Fin 1 → Fin 4 → ℝ)
      (x : (Fin 8 → ℝ) × ℝ) (r : Fin 8 → ℝ) (a : Matrix (Fin 8) (Fin 8) ℝ), Spec.Iterate P alpha0 x0 stepSize k alpha x r a →
      Spec.RegularAt M Set.univ alpha x.1 ∧ a *ᵥ -r = -r := by
  intro M P alpha0 x0 stepSize k alpha x r a h
  refine ⟨example_regular _ _ _, ?_⟩
  have ha : a = 1 := by
    have hj : ∀ alpha x, P.jacobian alpha x = some 1 := fun alpha x =>
      example_jacobian (fun i => decide (i ≠ 0)) (fun i hi => by simpa using hi) alpha x
    cases h with
    | zero _ _ _ _ h2 => exact Option.some.inj (h2.symm.trans (hj _ _))
    | succ _ _ _ _ _ _ _ _ _ _ _ _ _ h2 => exact Option.some.inj (h2.symm.trans (hj _ _))
  rw [ha, Matrix.one_mulVec]

/-! ### Inhomogeneous Dirichlet conditions -/

/-- The whole property for inhomogeneous Dirichlet conditions: with values that follow the parameter, every two consecutive iterates are
a Newton step of the two field problem. -/
def Spec.InhomogeneousNewton : Prop :=
  ∀ (E n d q m Nd : Nat) (M : Mesh (Fin E) n d q m Nd) (dom : Set (Fin q → ℝ)) (value : Fin Nd → ℝ)
    (linSolve : Matrix (Fin Nd) (Fin Nd) ℝ → (Fin Nd → ℝ) → Fin Nd → ℝ) (alpha0 : Fin E → Fin m → ℝ)
    (x0 : (Fin Nd → ℝ) × ℝ) (stepSize : ℝ), m ≠ 0 → applicable n d m = true →
    (∀ i, M.constrained i = false → value i = 0) →
    (∀ i, M.constrained i = true → x0.1 i = (x0.2 - stepSize) * value i) →
    ∀ (norm : (Fin Nd → ℝ) → ℝ) (k : Nat) (alpha alpha' : Fin E → Fin m → ℝ) (x x' : (Fin Nd → ℝ) × ℝ) (r r' : Fin Nd → ℝ)
      (a a' : Matrix (Fin Nd) (Fin Nd) ℝ),
      let P := M.problem (List.finRange E) norm norm (fun a b => decide (a > b)) linSolve (some (M.inhomogeneous value))
      Spec.Iterate P alpha0 x0 stepSize k alpha x r a → Spec.Iterate P alpha0 x0 stepSize (k + 1) alpha' x' r' a' →
      Spec.RegularAt M dom alpha x.1 → a *ᵥ linSolve a r = -r →
      M.spec.TwoFieldStep M.free (M.load x.2) x.1 (x'.1 - x.1) alpha alpha'

/-- C85, inhomogeneous conditions. The update of the internal variables of an element does not see the prescribed displacements: of
the linearised equation of the internal variables remains `L` times their increment. -/
theorem idbc_internal [DecidableEq ε] [Fintype ε] (M : Mesh ε n d q m Nd) (hm : m ≠ 0) (ha : applicable n d m = true)
    (subs : List ε) (norm : (Fin Nd → ℝ) → N) (gt : N → N → Bool) (linSolve) (value : Fin Nd → ℝ) (alpha0 : ε → Fin m → ℝ)
    (x0 : (Fin Nd → ℝ) × ℝ) (stepSize : ℝ) (k : Nat) (alpha alpha' : ε → Fin m → ℝ) (x x' : (Fin Nd → ℝ) × ℝ) (r r' : Fin Nd → ℝ)
    (a a' : Matrix (Fin Nd) (Fin Nd) ℝ)
    (h : Spec.Iterate (M.problem subs norm norm gt linSolve (some (M.inhomogeneous value))) alpha0 x0 stepSize k alpha x r a)
    (h' : Spec.Iterate (M.problem subs norm norm gt linSolve (some (M.inhomogeneous value))) alpha0 x0 stepSize (k + 1) alpha' x' r' a')
    (e : ε) (hD : IsUnit (calculateD (M.law e) (M.gps e) (M.at x.1 e) (alpha e)).det) :
    calculateRtilde (M.law e) (M.gps e) (M.at x.1 e) (alpha e) +
        EAS.Spec.mulLv (calculateL (M.law e) (M.gps e) (M.at x.1 e) (alpha e)) (M.at (x'.1 - x.1) e) +
        calculateD (M.law e) (M.gps e) (M.at x.1 e) (alpha e) *ᵥ (alpha' e - alpha e) =
      EAS.Spec.mulLv (calculateL (M.law e) (M.gps e) (M.at x.1 e) (alpha e)) (M.at (fun i =>
        if x.2 * value i ≠ 0 then x.2 * value i - (x.1 + linSolve a r) i else 0) e) := by
  cases h' with
  | succ _ w1 _ x1 _ r1 _ a1 _ h0 hc hx hr hj =>
    obtain ⟨rfl, rfl, rfl, rfl⟩ := Problem.iterate_unique h0 h
    have hce := hc e
    have hcall : easCallback (M.law e) (M.gps e) (w1 e) .correctionUpdated (M.at x1.1 e) Nd (M.at (linSolve a1 r1) e) Nd =
        some (alpha' e) := hce
    rw [easCallback, if_pos rfl, updateState_eq _ _ _ _ hm ha] at hcall
    have hal := Option.some.inj hcall
    have hinv := Matrix.mul_nonsing_inv _ hD
    rw [← hal, sub_sub_cancel_left, Matrix.mulVec_neg, Matrix.mulVec_mulVec, hinv, Matrix.one_mulVec]
    have hx' : x'.1 - x1.1 = linSolve a1 r1 + fun i =>
        if x1.2 * value i ≠ 0 then x1.2 * value i - (x1.1 + linSolve a1 r1) i else 0 := by
      have : x' = ((fun i => if x1.2 * value i ≠ 0 then x1.2 * value i else (x1.1 + linSolve a1 r1) i), x1.2) := hx
      rw [this]
      funext i
      simp only [Pi.sub_apply, Pi.add_apply]
      split <;> ring
    have hat : ∀ u v : Fin Nd → ℝ, M.at (u + v) e = M.at u e + M.at v e := fun u v => rfl
    rw [hx', hat]
    simp only [mulLv_eq, Pi.add_apply, Matrix.mulVec_add, Finset.sum_add_distrib]
    abel

/-- C85, inhomogeneous conditions. The whole property is false for inhomogeneous Dirichlet conditions. -/
theorem inhomogeneousNewton_false : ¬ Spec.InhomogeneousNewton := by
  intro h
  let M := exampleMesh fun _ => true
  let value : Fin 8 → ℝ := fun i => if i = 0 then 1 else 0
  let P := M.problem (S := ℝ) (List.finRange 1) (fun _ => (0 : ℝ)) (fun _ => (0 : ℝ)) (fun a b => decide (a > b)) (fun _ _ => 0)
    (some (M.inhomogeneous value))
  have hj : ∀ alpha x, M.jacobian alpha x = some 1 := fun alpha x => example_jacobian (fun _ => true) (fun _ _ => rfl) alpha x
  have hr : ∀ alpha x, M.residual alpha x = some 0 := by
    intro alpha x
    obtain ⟨r, hr⟩ := example_residual (fun _ => true) alpha x
    have : M.residual alpha x = some r := hr
    rw [this]
    congr 1
    funext i
    obtain ⟨_, _, h0, _⟩ := residual_some M alpha x r this
    exact h0 i rfl
  have h0 : Spec.Iterate P (fun _ => 0) (0, 1) 1 0 (fun _ => 0) (0, 1) 0 1 := by
    refine .zero 0 0 1 (hr _ _) (hj _ _) ?_
    obtain ⟨K, hK, -⟩ := example_raw (fun _ => true) (fun _ => 0) (0, 1)
    show (M.inhomogeneous value).1 (fun _ => 0) (0, 1) 1 0 = some 0
    unfold Mesh.inhomogeneous
    simp only
    have hK' : M.raw (fun _ => 0) (0, 1) = some K := hK
    rw [hK', Option.map_some]
    congr 1
    funext i
    show (0 : ℝ) + 1 * (if true = true then 0 else _) = 0
    simp
  have hup : ∀ e : Fin 1, P.callback e 0 .correctionUpdated (0, 1) 0 = some 0 := by
    intro e
    show easCallback (linearLaw 1) (linearPoints examplePoints) 0 .correctionUpdated (M.at 0 e) 8 (M.at 0 e) 8 = some 0
    rw [easCallback, if_pos rfl, updateState_eq _ _ _ _ (by decide) (by decide), linear_R]
    have : M.at 0 e = 0 := rfl
    rw [this]
    simp [mulLv_eq]
  have h1 : Spec.Iterate P (fun _ => 0) (0, 1) 1 1 (fun _ => 0) (fun i => if (1 : ℝ) * value i ≠ 0 then 1 * value i else (0 + 0 : Fin 8 → ℝ) i, 1) 0 1 :=
    .succ 0 _ _ _ _ _ _ _ _ h0 hup rfl (hr _ _) (hj _ _)
  have := h 1 4 2 3 4 8 M Set.univ value (fun _ _ => 0) (fun _ => 0) (0, 1) 1 (by decide) (by decide)
    (fun i hi => by cases hi) (fun i _ => by simp) (fun _ => 0) 0 _ _ _ _ _ _ _ _ h0 h1 (example_regular _ _ _) (by simp)
  obtain ⟨rr, h2, -⟩ := this
  have h3 := congrFun (h2 0).internal 0
  have hL : calculateL (M.law 0) (M.gps 0) (M.spec.local (0, (1 : ℝ)).1 0) ((fun _ => 0 : Fin 1 → Fin 4 → ℝ) 0) =
      fun I => if I = 0 then !![1, 0; 0, 0; 0, 0; 0, 0] else 0 := funext fun I => example_L _ _ I
  have hR : calculateRtilde (M.law 0) (M.gps 0) (M.spec.local (0, (1 : ℝ)).1 0) ((fun _ => 0 : Fin 1 → Fin 4 → ℝ) 0) = 0 := by
    show calculateRtilde (linearLaw 1) (linearPoints examplePoints) 0 0 = 0
    rw [linear_R]
    simp [mulLv_eq]
  have hR' : calculateRtilde (M.spec.law 0) (M.spec.gps 0) (M.spec.local (0, (1 : ℝ)).1 0) ((fun _ => 0 : Fin 1 → Fin 4 → ℝ) 0) = 0 := hR
  have hL' : calculateL (M.spec.law 0) (M.spec.gps 0) (M.spec.local (0, (1 : ℝ)).1 0) ((fun _ => 0 : Fin 1 → Fin 4 → ℝ) 0) = _ := hL
  rw [hR', hL'] at h3
  revert h3
  simp [EAS.Spec.mulLv, EAS.Spec.Mesh.local, Mesh.spec, M, exampleMesh, value, Fin.sum_univ_succ]

/-! ### What success means -/

/-- The whole property about success, for a solver that accepts residuals that are zero only: the forces are in equilibrium and the
internal variables have no residual. -/
def Spec.SuccessMeansEquilibrium : Prop :=
  ∀ (E n d q m Nd : Nat) (M : Mesh (Fin E) n d q m Nd) (dom : Set (Fin q → ℝ))
    (linSolve : Matrix (Fin Nd) (Fin Nd) ℝ → (Fin Nd → ℝ) → Fin Nd → ℝ) (alpha0 : Fin E → Fin m → ℝ)
    (x0 : (Fin Nd → ℝ) × ℝ) (corr : Fin Nd → ℝ) (set : NRSettings ℝ) (fuel : Nat), m ≠ 0 → applicable n d m = true →
    set.tol = 0 → 0 ≤ set.maxIter → set.minIter ≤ set.maxIter →
    ∀ s, (M.problem (List.finRange E) (fun r => ∑ i, |r i|) (fun c => ∑ i, |c i|) (fun a b => decide (a > b)) linSolve none).solve
        set fuel alpha0 x0 (0 : ℝ) corr = .done s → s.info.success = true → Spec.RegularAt M dom s.w s.x.1 →
      (∀ i, M.constrained i = false → M.spec.assemble
        (fun e => forces (M.law e) (M.gps e) (M.at s.x.1 e) (s.w e)) i = M.load s.x.2 i) ∧
      ∀ e, calculateRtilde (M.law e) (M.gps e) (M.at s.x.1 e) (s.w e) = 0

/-- C85, leftover internal variables. An element with a strain that is enhanced additively, as the linear and the Green-Lagrange strain,
and a linear law, where the displacements give no strain: it returns no forces, whatever internal variables it holds, although these
give strains and stresses. -/
theorem eas_leftover (Cm : Matrix (Fin q) (Fin q) ℝ) (hC : Cm.IsSymm) (gps : List (Point n d q × Matrix (Fin q) (Fin m) ℝ))
    (u : NodeVec n d) (hu : ∀ gp ∈ gps, gp.1.strain u = 0) (alpha : Fin m → ℝ) (hm : m ≠ 0) (ha : applicable n d m = true)
    (hD : IsUnit (calculateD (linearLaw Cm) (gps.map fun gp => additive gp.1 gp.2) u alpha).det) :
    calculateVector (linearLaw Cm) (gps.map fun gp => additive gp.1 gp.2) .forces u alpha 0 = some 0 ∧
      (∀ gp ∈ gps, (additive gp.1 gp.2).strain u alpha = gp.2 *ᵥ alpha) ∧
      calculateRtilde (linearLaw Cm) (gps.map fun gp => additive gp.1 gp.2) u alpha =
        calculateD (linearLaw Cm) (gps.map fun gp => additive gp.1 gp.2) u alpha *ᵥ alpha := by
  have hs : ∀ gp ∈ gps, (additive gp.1 gp.2).strain u alpha = gp.2 *ᵥ alpha := by
    intro gp hgp
    show gp.1.strain u + gp.2 *ᵥ alpha = _
    rw [hu gp hgp, zero_add]
  have hR : calculateRtilde (linearLaw Cm) (gps.map fun gp => additive gp.1 gp.2) u alpha =
      calculateD (linearLaw Cm) (gps.map fun gp => additive gp.1 gp.2) u alpha *ᵥ alpha := by
    rw [calculateRtilde_sum, calculateD_sum, list_sum_mulVec]
    congr 1
    rw [List.map_map, List.map_map]
    refine List.map_congr_left fun gp hgp => ?_
    simp only [Function.comp_apply, pointR, pointD, hs gp hgp]
    simp only [additive, linearLaw, add_zero, Matrix.smul_mulVec, Matrix.mulVec_mulVec, Matrix.mul_assoc]
  have hf : forces (linearLaw Cm) (gps.map fun gp => additive gp.1 gp.2) u alpha =
      EAS.Spec.mulLT (calculateL (linearLaw Cm) (gps.map fun gp => additive gp.1 gp.2) u alpha) alpha := by
    rw [forces, calculateL_sum, mulLT_list_sum]
    congr 1
    rw [List.map_map, List.map_map]
    refine List.map_congr_left fun gp hgp => ?_
    funext I
    rw [Function.comp_apply, Function.comp_apply, mulLT_eq]
    simp only [pointForce, pointL, hs gp hgp]
    simp only [additive, linearLaw, add_zero, Matrix.transpose_smul, Matrix.transpose_mul, Matrix.transpose_transpose, hC.eq,
      Matrix.smul_mulVec, Matrix.mulVec_mulVec, Matrix.mul_assoc]
  refine ⟨?_, hs, hR⟩
  rw [calculateVector_eq _ _ _ _ hm ha, hf, hR, Matrix.mulVec_mulVec, Matrix.nonsing_inv_mul _ hD, Matrix.one_mulVec, sub_self, add_zero]

/-- The element of the example without displacements. -/
example : ∃ gps : List (Point 4 2 3 × Matrix (Fin 3) (Fin 4) ℝ), (∀ gp ∈ gps, gp.1.strain 0 = 0) ∧
    (∀ alpha, IsUnit (calculateD (linearLaw 1) (gps.map fun gp => additive gp.1 gp.2) 0 alpha).det) ∧
    ∃ gp ∈ gps, gp.2 *ᵥ (fun _ => 1) ≠ 0 := by
  refine ⟨examplePoints.map fun gp => (gp.1.toPoint, gp.2), fun gp hgp => ?_, fun alpha => ?_, ?_⟩
  · obtain ⟨p, _, rfl⟩ := List.mem_map.1 hgp
    simp [LinPoint.toPoint, LinPoint.strain]
  · have : (examplePoints.map fun gp => (gp.1.toPoint, gp.2)).map (fun gp => additive gp.1 gp.2) = linearPoints examplePoints := by
      unfold linearPoints
      rw [List.map_map]
      rfl
    rw [this, example_D, Matrix.det_one]
    exact isUnit_one
  · refine ⟨(LinPoint.toPoint ⟨1, 1, exampleBop⟩, !![1, 0, 0, 0; 0, 1, 0, 0; 0, 0, 1, 0]), by simp [examplePoints], fun h => ?_⟩
    have := congrFun h 0
    simp [Matrix.mulVec, dotProduct, Fin.sum_univ_succ] at this

/-- C85, success. A successful run does not mean that the internal variables belong to the solution: they may be left over. -/
theorem equilibrium_false : ¬ Spec.SuccessMeansEquilibrium := by
  intro h
  let M := exampleMesh fun i => decide (i ≠ 0)
  let alpha0 : Fin 1 → Fin 4 → ℝ := fun _ _ => 1
  let P := M.problem (S := ℝ) (List.finRange 1) (fun r => ∑ i, |r i|) (fun c => ∑ i, |c i|) (fun a b => decide (a > b)) (fun _ r => -r)
    none
  have hj : ∀ alpha x, M.jacobian alpha x = some 1 := fun alpha x =>
    example_jacobian (fun i => decide (i ≠ 0)) (fun i hi => by simpa using hi) alpha x
  have hv : ∀ e, calculateVector (M.law e) (M.gps e) .forces (M.at 0 e) (alpha0 e) 0 = some 0 := by
    intro e
    obtain ⟨Kc, -, h2, -⟩ := eas_linear 1 examplePoints Matrix.isSymm_one (by decide) (by decide)
      (by rw [example_D, Matrix.det_one]; exact isUnit_one)
    have := h2 (M.at 0 e) (alpha0 e)
    refine this.trans ?_
    congr 1
    funext I a
    simp [mul, Mesh.at]
  have hr : M.residual alpha0 (0, 0) = some 0 := by
    obtain ⟨r, hr⟩ := example_residual (fun i => decide (i ≠ 0)) alpha0 (0, 0)
    have hr' : M.residual alpha0 (0, 0) = some r := hr
    rw [hr']
    obtain ⟨fc, f1, f2, f3⟩ := residual_some M alpha0 (0, 0) r hr'
    have hfc : fc = 0 := by
      funext e
      have := (f1 e).symm.trans (hv e)
      exact Option.some.inj this
    congr 1
    funext i
    by_cases hi : M.constrained i = true
    · exact f2 i hi
    · rw [f3 i (by simpa using hi), hfc]
      simp [EAS.Spec.Mesh.assemble, M, exampleMesh]
  have hsub : Spec.Subscribed P := problem_subscribed M (List.finRange 1) (List.nodup_finRange 1) (List.mem_finRange) _ _ _ _ none
  have h0 : Spec.Iterate P alpha0 (0, 0) 0 0 alpha0 (0, 0) 0 1 := .zero 0 0 1 hr (hj _ _) rfl
  have hst : Spec.Stops P ⟨0, 10, 0⟩ 0 0 := ⟨by simp, Or.inr (by simp [P, Mesh.problem])⟩
  rcases listening_run P hsub ⟨0, 10, 0⟩ alpha0 (0, 0) 0 0 10 (by simp) with ⟨s, h1, h2, h3, h4, h5, h6, -⟩ | ⟨-, k, hk, h4⟩
  · have hit : s.iter = 0 := by
      rcases Nat.eq_zero_or_pos s.iter with hz | hp
      · exact hz
      · obtain ⟨w, x, r, a, hit, hns⟩ := h4 0 hp
        obtain ⟨-, -, rfl, -⟩ := Problem.iterate_unique hit h0
        exact absurd hst hns
    rw [hit] at h2
    obtain ⟨hw, hx, -, -⟩ := Problem.iterate_unique h2 h0
    have hres := (h 1 4 2 3 4 8 M Set.univ (fun _ r => -r) alpha0 (0, 0) 0 ⟨0, 10, 0⟩ 10 (by decide) (by decide) rfl (by simp) (by simp)
      s h1 (h6.2 (by rw [hit]; simp)) (example_regular _ _ _)).2 0
    rw [hw, hx] at hres
    have hRR : calculateRtilde (M.law 0) (M.gps 0) (M.at (0, (0 : ℝ)).1 0) (alpha0 0) = alpha0 0 := by
      show calculateRtilde (linearLaw 1) (linearPoints examplePoints) 0 (alpha0 0) = alpha0 0
      rw [linear_R, example_D, Matrix.one_mulVec]
      simp [mulLv_eq]
    rw [hRR] at hres
    have := congrFun hres 0
    simp [alpha0] at this
  · rcases Nat.eq_zero_or_pos k with hz | hp
    · subst hz
      exact hk ⟨_, _, _, _, h0⟩
    · obtain ⟨w, x, r, a, hit, hns⟩ := h4 0 hp
      obtain ⟨-, -, rfl, -⟩ := Problem.iterate_unique hit h0
      exact absurd hst hns

/-- C85, linear elements. With the linear strain, linear laws and homogeneous conditions the internal variables of every element
have no residual after every iteration but the start. -/
theorem eas_linear_solved [DecidableEq ε] [Fintype ε] (M : Mesh ε n d q m Nd) (Cm : ε → Matrix (Fin q) (Fin q) ℝ)
    (pts : ε → List (LinPoint n d q × Matrix (Fin q) (Fin m) ℝ)) (hlaw : ∀ e, M.law e = linearLaw (Cm e))
    (hgps : ∀ e, M.gps e = linearPoints (pts e)) (hC : ∀ e, (Cm e).IsSymm) (hm : m ≠ 0) (ha : applicable n d m = true)
    (hD : ∀ e, IsUnit (calculateD (linearLaw (Cm e)) (linearPoints (pts e)) 0 0).det) (subs : List ε)
    (rnorm cnorm : (Fin Nd → ℝ) → N) (gt : N → N → Bool) (linSolve) (alpha0 : ε → Fin m → ℝ) (x0 : (Fin Nd → ℝ) × ℝ) (stepSize : S)
    (k : Nat) (alpha : ε → Fin m → ℝ) (x : (Fin Nd → ℝ) × ℝ) (r : Fin Nd → ℝ) (a : Matrix (Fin Nd) (Fin Nd) ℝ)
    (h : Spec.Iterate (M.problem subs rnorm cnorm gt linSolve (none : Option _)) alpha0 x0 stepSize (k + 1) alpha x r a) (e : ε) :
    calculateRtilde (M.law e) (M.gps e) (M.at x.1 e) (alpha e) = 0 := by
  cases h with
  | succ _ w1 _ x1 _ r1 _ a1 _ h0 hc hx hr hj =>
    have hcall : easCallback (M.law e) (M.gps e) (w1 e) .correctionUpdated (M.at x1.1 e) Nd (M.at (linSolve a1 r1) e) Nd =
        some (alpha e) := hc e
    rw [easCallback, if_pos rfl, hlaw, hgps] at hcall
    obtain ⟨_, -, -, -, h4⟩ := eas_linear (Cm e) (pts e) (hC e) hm ha (hD e)
    obtain ⟨alpha', e1, e2⟩ := h4 (M.at x1.1 e) (w1 e) (M.at (linSolve a1 r1) e) Nd
    rw [hcall] at e1
    rw [hlaw, hgps, Option.some.inj e1]
    have hx' : x = (x1.1 + linSolve a1 r1, x1.2) := hx
    rw [hx']
    exact e2

/-- The element of the example: the first iterate exists, and its internal variables are the ones of the displacement. -/
example (c : Fin 8 → Bool) (e : Fin 1) : (exampleMesh c).law e = linearLaw 1 ∧ (exampleMesh c).gps e = linearPoints examplePoints ∧
    (1 : Matrix (Fin 3) (Fin 3) ℝ).IsSymm ∧ applicable 4 2 4 = true ∧
    IsUnit (calculateD (linearLaw 1) (linearPoints examplePoints) 0 0).det :=
  ⟨rfl, rfl, Matrix.isSymm_one, by decide, by rw [example_D, Matrix.det_one]; exact isUnit_one⟩

/-- C85, `DBCOption::Reduced`. With a constrained degree of freedom the correction is smaller than the solution, and the first
iteration throws. -/
theorem reduced_throws [DecidableEq ε] (M : Mesh ε n d q m Nd) (hm : m ≠ 0) (subs : List ε) (hn : subs.Nodup)
    (hall : ∀ e, e ∈ subs) (e0 : ε) (nred : Nat) (hred : nred ≠ Nd)
    (residual : (ε → Fin m → ℝ) → (Fin Nd → ℝ) × ℝ → Option R) (jacobian : (ε → Fin m → ℝ) → (Fin Nd → ℝ) × ℝ → Option A)
    (rnorm : R → N) (cnorm : (Fin nred → ℝ) → N) (gt : N → N → Bool) (linSolve : A → R → Fin nred → ℝ)
    (expand : (Fin nred → ℝ) → Fin Nd → ℝ) (gather : ε → (Fin nred → ℝ) → NodeVec n d) (set : NRSettings N) (fuel : Nat)
    (hf : max set.maxIter set.minIter ≤ (fuel : Int)) (alpha0 : ε → Fin m → ℝ) (x0 : (Fin Nd → ℝ) × ℝ) (stepSize : S)
    (corr : Fin nred → ℝ) (hstart : ∀ r, residual alpha0 x0 = some r → gt (rnorm r) set.tol = true) (hmax : 0 < set.maxIter) :
    (M.reducedProblem subs nred residual jacobian rnorm cnorm gt linSolve expand gather).solve set fuel alpha0 x0 stepSize corr =
      .threw := by
  have hnone : ∀ alpha u c, easCallback (M.law e0) (M.gps e0) alpha .correctionUpdated u Nd c nred = none := by
    intro alpha u c
    unfold easCallback updateState
    simp [hm, hred]
  rcases listening_run (S := S) (M.reducedProblem subs nred residual jacobian rnorm cnorm gt linSolve expand gather)
    ⟨hn, hall, fun e w msg x c h => by
      show easCallback _ _ w msg _ _ _ _ = some w
      rw [easCallback, if_neg h]⟩ set alpha0 x0 stepSize corr fuel hf with ⟨s, h1, h2, h3, -⟩ | ⟨h1, -⟩
  · exfalso
    generalize s.iter = k at h2 h3
    cases h2 with
    | zero r r' a i1 i2 i3 =>
      have i3' : s.rx = r := i3
      rcases h3.2 with hle | hgt
      · push_cast at hle
        omega
      · have := hstart r i1
        rw [← i3'] at this
        have hgt' : gt (rnorm s.rx) set.tol = false := hgt
        rw [this] at hgt'
        cases hgt'
    | succ _ w1 _ x1 _ r1 _ a1 _ h0 hc hx hr hj =>
      have := (hnone _ _ _).symm.trans (hc e0)
      cases this
  · exact h1

/-- C85, `DBCOption::Reduced`. Without constrained degrees of freedom, where the reduced correction is the correction of the solution and
elements gather from it as from the solution, the run is the one with `DBCOption::Full` in everything: outcome, solution, internal
variables and information. -/
theorem reduced_unconstrained [DecidableEq ε] [Fintype ε] (M : Mesh ε n d q m Nd) (subs : List ε) (rnorm cnorm : (Fin Nd → ℝ) → N)
    (gt : N → N → Bool) (linSolve : Matrix (Fin Nd) (Fin Nd) ℝ → (Fin Nd → ℝ) → Fin Nd → ℝ)
    (expand : (Fin Nd → ℝ) → Fin Nd → ℝ) (hexp : ∀ c i, expand c i = c i) (gather : ε → (Fin Nd → ℝ) → NodeVec n d)
    (hg : ∀ e c I a, gather e c I a = c (M.dofs e I a)) (set : NRSettings N) (fuel : Nat) (alpha0 : ε → Fin m → ℝ)
    (x0 : (Fin Nd → ℝ) × ℝ) (stepSize : S) (corr : Fin Nd → ℝ) :
    (M.reducedProblem subs Nd M.residual M.jacobian rnorm cnorm gt linSolve expand gather).solve set fuel alpha0 x0 stepSize corr =
      (M.problem subs rnorm cnorm gt linSolve none).solve set fuel alpha0 x0 stepSize corr := by
  obtain rfl : expand = fun c => c := funext fun c => funext fun i => hexp c i
  obtain rfl : gather = fun e c => M.at c e := funext fun e => funext fun c => funext fun I => funext fun a => hg e c I a
  rfl

/-- One free degree of freedom of eight, and a residual that is not zero. -/
example : ((exampleMesh fun i => decide (i ≠ 0)).reducedProblem (S := ℝ) [0] 1 (fun _ _ => some (1 : ℝ)) (fun _ _ => some (1 : ℝ)) id
    (fun c => c 0) (fun a b => decide (a > b)) (fun a r _ => -r / a) (fun c _ => c 0) (fun _ _ => 0)).solve ⟨1 / 2, 20, 0⟩ 20
      (fun _ => 0) (0, 1) 0 0 = .threw :=
  reduced_throws _ (by decide) [0] (by simp) (fun e => by simp [Subsingleton.elim e 0]) 0 1 (by decide) _ _ _ _ _ _ _ _ _ 20
    (by simp) _ _ _ _ (fun r hr => by cases hr; norm_num) (by simp)

end Ikarus.Listening
