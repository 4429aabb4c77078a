import Verif.Solver.PathListeningProps

/-!
C92: path following with elements with enhanced strains.
-/

namespace Ikarus.Listening

open Ikarus.Element Ikarus.Element.EAS Ikarus.Element.Spec Matrix

variable {ε W V A N : Type} {n d q m Nd : Nat}

theorem pathIterate_residual [AddCommGroup V] [Module ℝ V] {P : PathProblem ε W V A N} {w0 : ε → W} {x0 : V × ℝ}
    {args0 : SubsidiaryArgs ℝ V} {F : V} {k : Nat} {s : Spec.PathPoint ε W V A} (h : Spec.PathIterate P w0 x0 args0 F k s) :
    P.residual w0 (0, 1) = some (-F) ∧ P.residual s.w s.x = some s.r ∧ P.jacobian s.w s.x = some s.a := by
  induction h with
  | zero r a args h1 h2 h3 => exact ⟨h1, h2, h3⟩
  | succ k s s' c dl _ hs ih => exact ⟨ih.1, hs.residual, hs.jacobian⟩

variable [DecidableEq ε] [Fintype ε]

omit [DecidableEq ε] in
/-- C92, elements with enhanced strains. What an iteration with an exact linear solver does, for every mesh, state and subsidiary
function: it is a Newton step of the two field problem in displacements and internal variables for the load at the new load factor,
minus the increment of the load factor times the forces of the elements without displacements but with the internal variables at the
start; the linearised subsidiary function vanishes. -/
theorem path_eas_step (M : Mesh ε n d q m Nd) (dom : Set (Fin q → ℝ)) (hm : m ≠ 0) (ha : applicable n d m = true)
    (hload : ∀ l i, M.load l i = l * M.load 1 i) (subs : List ε)
    (linSolve : Matrix (Fin Nd) (Fin Nd) ℝ → (Fin Nd → ℝ) → Fin Nd → ℝ) (sqrt : ℝ → N) (gt : N → N → Bool) (sub)
    (alpha0 : ε → Fin m → ℝ) (x0 : (Fin Nd → ℝ) × ℝ) (args0 : SubsidiaryArgs ℝ (Fin Nd → ℝ)) (F : Fin Nd → ℝ) (k : Nat)
    (s s' : Spec.PathPoint ε (Fin m → ℝ) (Fin Nd → ℝ) (Matrix (Fin Nd) (Fin Nd) ℝ)) (c : Fin Nd → ℝ) (dl : ℝ)
    (h : Spec.PathIterate (M.path subs linSolve sqrt gt sub) alpha0 x0 args0 F k s)
    (hs : Spec.PathStep (M.path subs linSolve sqrt gt sub) F s s' c dl) (hreg : Spec.RegularAt M dom s.w s.x.1)
    (hsolve : ∀ b, s.a *ᵥ linSolve s.a b = b) :
    ∃ f0 : ε → NodeVec n d, (∀ e, calculateVector (M.law e) (M.gps e) .forces 0 (alpha0 e) 0 = some (f0 e)) ∧
      M.spec.TwoFieldStep M.free (fun i => M.load s'.x.2 i - (s'.x.2 - s.x.2) * M.spec.assemble f0 i) s.x.1 (s'.x.1 - s.x.1)
        s.w s'.w ∧
      (∀ i, M.constrained i = true → s'.x.1 i = s.x.1 i) ∧
      ∃ g b, s.args.dfdDD = some g ∧ s.args.dfdDlambda = some b ∧
        s.args.f + ∑ i, g i * (s'.x.1 i - s.x.1 i) + b * (s'.x.2 - s.x.2) = 0 := by
  obtain ⟨r0, r1, r2⟩ := pathIterate_residual h
  obtain ⟨f0, g1, g2, g3⟩ := residual_some M alpha0 (0, 1) (-F) r0
  obtain ⟨fc, f1, f2, f3⟩ := residual_some M s.w s.x s.r r1
  obtain ⟨Kc, k1, k2⟩ := jacobian_some M s.w s.x s.a r2
  have hc : s.a *ᵥ c = -s.r + dl • F := by
    rw [hs.correction, Matrix.mulVec_add, Matrix.mulVec_smul]
    show s.a *ᵥ linSolve s.a (-s.r) + dl • (s.a *ᵥ linSolve s.a F) = _
    rw [hsolve, hsolve]
  have hx1 : s'.x.1 = s.x.1 + c := by rw [hs.solution]; rfl
  have hx2 : s'.x.2 = s.x.2 + dl := by rw [hs.solution]
  have hd1 : s'.x.1 - s.x.1 = c := by rw [hx1]; exact add_sub_cancel_left _ _
  have hd2 : s'.x.2 - s.x.2 = dl := by rw [hx2]; ring
  have hF : ∀ i, M.constrained i = true → F i = 0 := by
    intro i hi
    have := g2 i hi
    rw [Pi.neg_apply] at this
    linarith
  have hF' : ∀ i, M.constrained i = false → F i = M.load 1 i - M.spec.assemble f0 i := by
    intro i hi
    have := g3 i hi
    rw [Pi.neg_apply] at this
    linarith
  have hz : ∀ i, M.constrained i = true → c i = 0 := by
    intro i hi
    rw [← (k2 c).1 i hi, hc, Pi.add_apply, Pi.neg_apply, f2 i hi, Pi.smul_apply, hF i hi, smul_zero, neg_zero, zero_add]
  refine ⟨f0, g1, ?_, fun i hi => by rw [hx1, Pi.add_apply, hz i hi, add_zero], ?_⟩
  · rw [hd1, hd2]
    refine (step_iff M.spec dom M.free _ s.x.1 c s.w s'.w hm ha (fun e => (hreg e).1) (fun e => (hreg e).2)).1 ?_
    refine ⟨Kc, fc, k1, f1, fun e => ?_, fun i hi => ?_⟩
    · have h1 : easCallback (M.law e) (M.gps e) (s.w e) .correctionUpdated (M.at s.x.1 e) Nd (M.at c e) Nd = some (s'.w e) :=
        hs.internal e
      rw [easCallback, if_pos rfl] at h1
      exact h1
    · have h1 := (k2 c).2 hz i hi
      rw [hc, Pi.add_apply, Pi.neg_apply, f3 i hi, Pi.smul_apply, smul_eq_mul, hF' i hi] at h1
      have h2 := assemble_add M fc (fun e => mul (Kc e) (M.at c e)) i
      rw [← h1] at h2
      refine h2.trans ?_
      show _ = M.load s'.x.2 i - dl * M.spec.assemble f0 i
      rw [hx2, hload (s.x.2 + dl), hload s.x.2]
      ring
  · obtain ⟨g, b, e1, e2, -, e3⟩ := hs.increments
    refine ⟨g, b, e1, e2, ?_⟩
    have e4 : s.args.f + ∑ i, g i * linSolve s.a (-s.r) i + dl * (∑ i, g i * linSolve s.a F i + b) = 0 := e3
    rw [hd2]
    have e5 : ∀ i, s'.x.1 i - s.x.1 i = linSolve s.a (-s.r) i + dl * linSolve s.a F i := by
      intro i
      rw [← Pi.sub_apply, hd1, hs.correction]
      rfl
    simp only [e5, mul_add, Finset.sum_add_distrib]
    have e6 : ∑ i, g i * (dl * linSolve s.a F i) = dl * ∑ i, g i * linSolve s.a F i := by
      rw [Finset.mul_sum]
      exact Finset.sum_congr rfl fun i _ => by ring
    rw [e6]
    linarith

omit [DecidableEq ε] in
theorem assemble_zero (M : Mesh ε n d q m Nd) (i : Fin Nd) : M.spec.assemble (fun _ => 0) i = 0 := by
  simp [EAS.Spec.Mesh.assemble]

omit [DecidableEq ε] in
/-- C92, linear laws. With strains that are enhanced additively, as the linear and the Green-Lagrange strain, and linear laws, every
iteration is a Newton step of the two field problem for the load at the new load factor, whatever internal variables the elements hold
at the start. -/
theorem path_eas_newton_partial (M : Mesh ε n d q m Nd) (dom : Set (Fin q → ℝ)) (Cm : ε → Matrix (Fin q) (Fin q) ℝ)
    (pts : ε → List (Point n d q × Matrix (Fin q) (Fin m) ℝ)) (hlaw : ∀ e, M.law e = linearLaw (Cm e)) (hC : ∀ e, (Cm e).IsSymm)
    (hgps : ∀ e, M.gps e = (pts e).map fun gp => additive gp.1 gp.2) (hzero : ∀ e, ∀ gp ∈ pts e, gp.1.strain 0 = 0)
    (hm : m ≠ 0) (ha : applicable n d m = true) (hload : ∀ l i, M.load l i = l * M.load 1 i) (subs : List ε)
    (linSolve : Matrix (Fin Nd) (Fin Nd) ℝ → (Fin Nd → ℝ) → Fin Nd → ℝ) (sqrt : ℝ → N) (gt : N → N → Bool) (sub)
    (alpha0 : ε → Fin m → ℝ) (x0 : (Fin Nd → ℝ) × ℝ) (args0 : SubsidiaryArgs ℝ (Fin Nd → ℝ)) (F : Fin Nd → ℝ) (k : Nat)
    (s s' : Spec.PathPoint ε (Fin m → ℝ) (Fin Nd → ℝ) (Matrix (Fin Nd) (Fin Nd) ℝ)) (c : Fin Nd → ℝ) (dl : ℝ)
    (h : Spec.PathIterate (M.path subs linSolve sqrt gt sub) alpha0 x0 args0 F k s)
    (hs : Spec.PathStep (M.path subs linSolve sqrt gt sub) F s s' c dl) (hreg : Spec.RegularAt M dom s.w s.x.1)
    (hD : ∀ e, IsUnit (calculateD (M.law e) (M.gps e) 0 (alpha0 e)).det) (hsolve : ∀ b, s.a *ᵥ linSolve s.a b = b) :
    M.spec.TwoFieldStep M.free (M.load s'.x.2) s.x.1 (s'.x.1 - s.x.1) s.w s'.w := by
  obtain ⟨f0, h1, h2, -, -⟩ := path_eas_step M dom hm ha hload subs linSolve sqrt gt sub alpha0 x0 args0 F k s s' c dl h hs hreg hsolve
  have hf : f0 = fun _ => 0 := by
    funext e
    have hd := hD e
    rw [hlaw, hgps] at hd
    have h3 := (eas_leftover (Cm e) (hC e) (pts e) 0 (hzero e) (alpha0 e) hm ha hd).1
    have h4 := h1 e
    rw [hlaw, hgps, h3] at h4
    exact (Option.some.inj h4).symm
  simp only [hf, assemble_zero, mul_zero, sub_zero] at h2
  exact h2

omit [DecidableEq ε] in
/-- The elements of a mesh that have subscribed once. -/
theorem path_subscribed (M : Mesh ε n d q m Nd) (subs : List ε) (hn : subs.Nodup) (ha : ∀ e, e ∈ subs)
    (linSolve) (sqrt : ℝ → N) (gt) (sub) : Spec.PathSubscribed (M.path subs linSolve sqrt gt sub) where
  nodup := hn
  all := ha
  only e w msg x c hm := by
    show easCallback (M.law e) (M.gps e) w msg (M.at x.1 e) Nd (M.at c e) Nd = some w
    rw [easCallback, if_neg hm]

/-- The hypotheses of `path_eas_newton_partial` hold: linear law, one free degree of freedom, load control as subsidiary function; from
every state there is a step. -/
example : let M := exampleMesh fun i => decide (i ≠ 0)
    let linSolve : Matrix (Fin 8) (Fin 8) ℝ → (Fin 8 → ℝ) → Fin 8 → ℝ := fun _ b => b
    let P := M.path (List.finRange 1) linSolve Real.sqrt (fun a b => decide (a > b)) fun _ a => (a.Dlambda - a.stepSize, some 0, some 1)
    Spec.PathSubscribed P ∧ ∀ (alpha0 : Fin 1 → Fin 4 → ℝ) (x0 : (Fin 8 → ℝ) × ℝ) (args0 : SubsidiaryArgs ℝ (Fin 8 → ℝ)),
      ∃ F s s' c dl, Spec.PathIterate P alpha0 x0 args0 F 0 s ∧ Spec.PathStep P F s s' c dl ∧
        Spec.RegularAt M Set.univ s.w s.x.1 ∧ (∀ e, IsUnit (calculateD (M.law e) (M.gps e) 0 (alpha0 e)).det) ∧
        (∀ b, s.a *ᵥ linSolve s.a b = b) ∧ dl = args0.stepSize - args0.Dlambda := by
  intro M linSolve P
  refine ⟨path_subscribed M _ (List.nodup_finRange 1) List.mem_finRange _ _ _ _, fun alpha0 x0 args0 => ?_⟩
  have hj : ∀ alpha x, M.jacobian alpha x = some 1 := fun alpha x =>
    example_jacobian (fun i => decide (i ≠ 0)) (fun i hi => by simpa using hi) alpha x
  obtain ⟨r0, hr0⟩ := example_residual (fun i => decide (i ≠ 0)) alpha0 (0, 1)
  obtain ⟨r, hr⟩ := example_residual (fun i => decide (i ≠ 0)) alpha0 x0
  let dl := args0.stepSize - args0.Dlambda
  let c : Fin 8 → ℝ := -r + dl • -r0
  let w' : Fin 1 → Fin 4 → ℝ := fun e => alpha0 e - (calculateD (linearLaw 1) (linearPoints examplePoints) (M.at x0.1 e) (alpha0 e))⁻¹ *ᵥ
      (calculateRtilde (linearLaw 1) (linearPoints examplePoints) (M.at x0.1 e) (alpha0 e) +
        EAS.Spec.mulLv (calculateL (linearLaw 1) (linearPoints examplePoints) (M.at x0.1 e) (alpha0 e)) (M.at c e))
  obtain ⟨r', hr'⟩ := example_residual (fun i => decide (i ≠ 0)) w' (x0.1 + c, x0.2 + dl)
  refine ⟨-r0, ⟨alpha0, x0, r, 1, ⟨args0.stepSize, args0.DD, args0.Dlambda, args0.Dlambda - args0.stepSize, some 0, some 1,
      args0.currentStep⟩⟩,
    ⟨w', (x0.1 + c, x0.2 + dl), r', 1, ⟨args0.stepSize, args0.DD + c, args0.Dlambda + dl, args0.Dlambda + dl - args0.stepSize, some 0,
      some 1, args0.currentStep⟩⟩, c, dl,
    .zero _ _ _ (by rw [neg_neg]; exact hr0) hr (hj _ _) rfl rfl rfl rfl rfl,
    ⟨⟨0, 1, rfl, rfl, ?_, ?_⟩, rfl, fun e => ?_, rfl, hr', hj _ _, rfl, rfl, rfl, rfl, rfl⟩, example_regular _ _ _, fun e =>
      (example_regular _ _ 0 e).2, fun b => Matrix.one_mulVec b, rfl⟩
  · show (∑ i : Fin 8, (0 : ℝ) * _) + 1 ≠ 0
    simp
  · show args0.Dlambda - args0.stepSize + (∑ i : Fin 8, (0 : ℝ) * _) + dl * ((∑ i : Fin 8, (0 : ℝ) * _) + 1) = 0
    simp [dl]
  · show easCallback (linearLaw 1) (linearPoints examplePoints) (alpha0 e) .correctionUpdated (M.at x0.1 e) 8 (M.at c e) 8 = some (w' e)
    rw [easCallback, if_pos rfl, updateState_eq _ _ _ _ (by decide) (by decide)]

/-! ### A law that is not linear -/

/-- A law with a stress that grows with the third power of the first strain. -/
noncomputable def cubicLaw : Law 3 where
  energy e := 1 / 2 * (e 0 ^ 2 + e 1 ^ 2 + e 2 ^ 2) + 1 / 4 * e 0 ^ 4
  stress e := ![e 0 + e 0 ^ 3, e 1, e 2]
  tangent e := Matrix.diagonal ![1 + 3 * e 0 ^ 2, 1, 1]

theorem cubicLaw_contract : LawContract cubicLaw Set.univ where
  stress e de t _ h := by
    rw [hasDerivAt_pi] at h
    have h1 := (((h 0).pow 2).add ((h 1).pow 2)).add ((h 2).pow 2)
    have h2 := (h1.const_mul (1 / 2 : ℝ)).add (((h 0).pow 4).const_mul (1 / 4 : ℝ))
    refine h2.congr_deriv ?_
    simp [cubicLaw, Fin.sum_univ_three]
    ring
  tangent e de t _ h := by
    rw [hasDerivAt_pi] at h ⊢
    intro k
    fin_cases k
    · refine ((h 0).add ((h 0).pow 3)).congr_deriv ?_
      simp [cubicLaw, Matrix.diagonal_apply]
      ring
    · refine (h 1).congr_deriv ?_
      simp [cubicLaw, Matrix.diagonal_apply]
    · refine (h 2).congr_deriv ?_
      simp [cubicLaw, Matrix.diagonal_apply]
  symm e _ k l := by
    have : ((cubicLaw.tangent e)ᵀ) = cubicLaw.tangent e := Matrix.diagonal_transpose _
    exact congrFun (congrFun this l) k

/-- Three integration points. -/
def cubicPoints : List (LinPoint 4 2 3 × Matrix (Fin 3) (Fin 4) ℝ) :=
  [(⟨1, 10, exampleBop⟩, !![1, 0, 0, 0; 0, 1, 0, 0; 0, 0, 1, 0]), (⟨1, 1, 0⟩, !![2, 0, 0, 0; 0, 0, 0, 0; 0, 0, 0, 0]),
    (⟨1, 1, 0⟩, !![0, 0, 0, 1; 0, 0, 0, 0; 0, 0, 0, 0])]

/-- One element with one free degree of freedom. -/
noncomputable def cubicMesh : Mesh (Fin 1) 4 2 3 4 8 where
  law _ := cubicLaw
  gps _ := linearPoints cubicPoints
  dofs _ I a := ⟨I * 2 + a, by omega⟩
  load lambda i := if i = 0 then lambda else 0
  constrained i := decide (i ≠ 0)

/-- Internal variables. -/
def cubicAlpha : Fin 4 → ℝ := ![-1, 0, 0, 0]

theorem cubic_regular (u : NodeVec 4 2) (alpha : Fin 4 → ℝ) :
    EAS.Spec.Regular cubicLaw Set.univ (linearPoints cubicPoints) u alpha where
  law := cubicLaw_contract
  points gp hgp := by
    obtain ⟨p, _, rfl⟩ := List.mem_map.1 hgp
    exact additive_contract _ _ u alpha (linPoint_contract p.1 u)
  strains _ _ := trivial

theorem cubic_strains (u : NodeVec 4 2) :
    (additive (n := 4) (d := 2) (LinPoint.toPoint ⟨1, 10, exampleBop⟩) !![1, 0, 0, 0; 0, 1, 0, 0; 0, 0, 1, 0]).strain u cubicAlpha =
        ![u 0 0 - 1, 0, 0] ∧
      (additive (n := 4) (d := 2) (LinPoint.toPoint ⟨1, 1, 0⟩) !![2, 0, 0, 0; 0, 0, 0, 0; 0, 0, 0, 0]).strain u cubicAlpha =
        ![-2, 0, 0] ∧
      (additive (n := 4) (d := 2) (LinPoint.toPoint ⟨1, 1, 0⟩) !![0, 0, 0, 1; 0, 0, 0, 0; 0, 0, 0, 0]).strain u cubicAlpha =
        ![0, 0, 0] := by
  refine ⟨?_, ?_, ?_⟩ <;> funext k <;> fin_cases k <;>
    simp [additive, LinPoint.toPoint, LinPoint.strain, exampleBop, cubicAlpha, dotProduct, Fin.sum_univ_succ]
  all_goals ring

/-- The first diagonal entry of `D` is 92 where the first strain at the first point is one or minus one. -/
theorem cubic_D (u : NodeVec 4 2) (hu : (u 0 0 - 1) ^ 2 = 1) :
    calculateD cubicLaw (linearPoints cubicPoints) u cubicAlpha = Matrix.diagonal ![92, 10, 10, 1] := by
  obtain ⟨s1, s2, s3⟩ := cubic_strains u
  rw [calculateD_sum]
  simp only [linearPoints, cubicPoints, List.map_cons, List.map_nil, List.sum_cons, List.sum_nil, pointD, s1, s2, s3]
  simp only [additive, LinPoint.toPoint, cubicLaw]
  ext i j
  fin_cases i <;> fin_cases j <;> simp [Matrix.mul_apply, Fin.sum_univ_succ, Matrix.diagonal_apply, hu]
  all_goals norm_num

theorem cubic_L (u : NodeVec 4 2) (hu : (u 0 0 - 1) ^ 2 = 1) (I : Fin 4) :
    calculateL cubicLaw (linearPoints cubicPoints) u cubicAlpha I = if I = 0 then !![40, 0; 0, 0; 0, 0; 0, 0] else 0 := by
  obtain ⟨s1, s2, s3⟩ := cubic_strains u
  rw [calculateL_sum]
  simp only [linearPoints, cubicPoints, List.map_cons, List.map_nil, List.sum_cons, List.sum_nil, pointL, Pi.add_apply, s1, s2, s3]
  simp only [additive, LinPoint.toPoint, cubicLaw, exampleBop]
  by_cases hI : I = 0
  · subst hI
    ext i j
    fin_cases i <;> fin_cases j <;> simp [Matrix.mul_apply, Fin.sum_univ_succ, Matrix.diagonal_apply, hu]
    all_goals norm_num
  · simp [hI]

theorem cubic_R (u : NodeVec 4 2) :
    calculateRtilde cubicLaw (linearPoints cubicPoints) u cubicAlpha =
      ![10 * ((u 0 0 - 1) + (u 0 0 - 1) ^ 3) - 20, 0, 0, 0] := by
  obtain ⟨s1, s2, s3⟩ := cubic_strains u
  rw [calculateRtilde_sum]
  simp only [linearPoints, cubicPoints, List.map_cons, List.map_nil, List.sum_cons, List.sum_nil, pointR, s1, s2, s3]
  simp only [additive, LinPoint.toPoint, cubicLaw]
  funext i
  fin_cases i <;> simp [Matrix.mulVec, dotProduct, Fin.sum_univ_succ]
  all_goals ring

theorem cubic_forces (u : NodeVec 4 2) (I : Fin 4) (a : Fin 2) :
    forces cubicLaw (linearPoints cubicPoints) u cubicAlpha I a =
      if I = 0 ∧ a = 0 then 10 * ((u 0 0 - 1) + (u 0 0 - 1) ^ 3) else 0 := by
  obtain ⟨s1, s2, s3⟩ := cubic_strains u
  rw [forces]
  simp only [linearPoints, cubicPoints, List.map_cons, List.map_nil, List.sum_cons, List.sum_nil, pointForce, Pi.add_apply, s1, s2, s3]
  simp only [additive, LinPoint.toPoint, cubicLaw, exampleBop]
  by_cases hI : I = 0
  · subst hI
    fin_cases a <;> simp [Matrix.mulVec, dotProduct, Fin.sum_univ_succ]
  · simp [hI]

theorem cubic_Dinv (u : NodeVec 4 2) (hu : (u 0 0 - 1) ^ 2 = 1) :
    IsUnit (calculateD cubicLaw (linearPoints cubicPoints) u cubicAlpha).det ∧
      (calculateD cubicLaw (linearPoints cubicPoints) u cubicAlpha)⁻¹ = Matrix.diagonal ![1 / 92, 1 / 10, 1 / 10, 1] := by
  rw [cubic_D u hu]
  have h : Matrix.diagonal (![92, 10, 10, 1] : Fin 4 → ℝ) * Matrix.diagonal ![1 / 92, 1 / 10, 1 / 10, 1] = 1 := by
    rw [Matrix.diagonal_mul_diagonal]
    ext i j
    fin_cases i <;> fin_cases j <;> simp
  exact ⟨Matrix.isUnit_det_of_right_inverse h, Matrix.inv_eq_right_inv h⟩

/-- The forces at the first degree of freedom. -/
theorem cubic_vector (u : NodeVec 4 2) (hu : (u 0 0 - 1) ^ 2 = 1) :
    ∃ fc : NodeVec 4 2, calculateVector cubicLaw (linearPoints cubicPoints) .forces u cubicAlpha 0 = some fc ∧
      fc 0 0 = 10 * ((u 0 0 - 1) + (u 0 0 - 1) ^ 3) - 40 / 92 * (10 * ((u 0 0 - 1) + (u 0 0 - 1) ^ 3) - 20) := by
  refine ⟨_, calculateVector_eq _ _ _ _ (by decide) (by decide) 0, ?_⟩
  rw [(cubic_Dinv u hu).2, cubic_R]
  simp only [zero_add, Pi.sub_apply, cubic_forces, mulLT_eq, cubic_L u hu]
  simp [Matrix.mulVec, dotProduct, Fin.sum_univ_succ, Matrix.diagonal_apply]
  ring

/-- The condensed matrix at the first degree of freedom. -/
theorem cubic_K (u : NodeVec 4 2) (hu : (u 0 0 - 1) ^ 2 = 1) :
    ∃ Kc : BlockMat 4 2, calculateMatrix cubicLaw (linearPoints cubicPoints) .stiffness u cubicAlpha 0 = some Kc ∧
      Kc 0 0 0 0 = 520 / 23 := by
  refine ⟨_, calculateMatrix_eq cubicLaw Set.univ _ u cubicAlpha (cubic_regular _ _) (by decide) (by decide) 0
    (fun I J a b => rfl), ?_⟩
  obtain ⟨s1, s2, s3⟩ := cubic_strains u
  rw [(cubic_Dinv u hu).2]
  simp only [zero_add, Pi.sub_apply, Matrix.sub_apply, cubic_L u hu]
  simp only [stiffness, linearPoints, cubicPoints, List.map_cons, List.map_nil,
    List.sum_cons, List.sum_nil, pointMatrix, s1, s2, s3, Pi.add_apply, Matrix.add_apply]
  simp [additive, LinPoint.toPoint, cubicLaw, exampleBop, Matrix.mul_apply, Fin.sum_univ_succ, Matrix.diagonal_apply, hu]
  norm_num

theorem cubic_dofs (I : Fin 4) (a : Fin 2) : cubicMesh.dofs 0 I a = 0 ↔ I = 0 ∧ a = 0 := by
  simp only [cubicMesh, Fin.ext_iff]
  show I.val * 2 + a.val = 0 ↔ I.val = 0 ∧ a.val = 0
  omega

theorem cubic_assemble (f : Fin 1 → NodeVec 4 2) : cubicMesh.spec.assemble f 0 = f 0 0 0 := by
  unfold EAS.Spec.Mesh.assemble
  rw [Fin.sum_univ_one]
  show (∑ I, ∑ a, if cubicMesh.dofs 0 I a = 0 then f 0 I a else 0) = _
  simp only [cubic_dofs]
  simp [Fin.sum_univ_succ]

theorem cubic_residual (alpha : Fin 1 → Fin 4 → ℝ) (x : (Fin 8 → ℝ) × ℝ) : ∃ r, cubicMesh.residual alpha x = some r := by
  unfold Mesh.residual
  simp only
  rw [if_pos]
  · exact ⟨_, rfl⟩
  · intro e
    show (calculateVector cubicLaw (linearPoints cubicPoints) .forces _ _ 0).isSome = true
    rw [calculateVector_eq _ _ _ _ (by decide) (by decide)]
    rfl

theorem cubic_raw (alpha : Fin 1 → Fin 4 → ℝ) (x : (Fin 8 → ℝ) × ℝ) : ∃ Kc a,
    calculateMatrix cubicLaw (linearPoints cubicPoints) .stiffness (cubicMesh.at x.1 0) (alpha 0) 0 = some Kc ∧
      cubicMesh.raw alpha x = some a ∧ a 0 0 = Kc 0 0 0 0 := by
  obtain ⟨Kc, h1⟩ : ∃ Kc, calculateMatrix cubicLaw (linearPoints cubicPoints) .stiffness (cubicMesh.at x.1 0) (alpha 0) 0 = some Kc :=
    ⟨_, calculateMatrix_eq cubicLaw Set.univ _ _ _ (cubic_regular _ _) (by decide) (by decide) 0 (fun I J a b => rfl)⟩
  have h1' : ∀ e, calculateMatrix (cubicMesh.law e) (cubicMesh.gps e) .stiffness (cubicMesh.at x.1 e) (alpha e) 0 = some Kc := by
    intro e
    obtain rfl : e = 0 := Subsingleton.elim _ _
    exact h1
  unfold Mesh.raw
  simp only [h1']
  rw [if_pos (show ∀ e : Fin 1, (some Kc).isSome = true from fun _ => rfl)]
  refine ⟨Kc, _, h1, rfl, ?_⟩
  rw [Matrix.of_apply, Fin.sum_univ_one]
  show (∑ I, ∑ a, ∑ J, ∑ b, if cubicMesh.dofs 0 I a = 0 ∧ cubicMesh.dofs 0 J b = 0 then Kc I J a b else 0) = _
  simp only [cubic_dofs]
  simp [Fin.sum_univ_succ]

theorem cubic_jacobian_some (alpha : Fin 1 → Fin 4 → ℝ) (x : (Fin 8 → ℝ) × ℝ) : ∃ a, cubicMesh.jacobian alpha x = some a := by
  obtain ⟨_, a, -, h, -⟩ := cubic_raw alpha x
  exact ⟨_, by rw [Mesh.jacobian, h, Option.map_some]⟩

theorem cubic_jacobian (x : (Fin 8 → ℝ) × ℝ) (hx : (x.1 0 - 1) ^ 2 = 1) :
    cubicMesh.jacobian (fun _ => cubicAlpha) x = some (Matrix.diagonal fun i => if i = 0 then 520 / 23 else 1) := by
  obtain ⟨Kc, a, h0, h1, h2⟩ := cubic_raw (fun _ => cubicAlpha) x
  obtain ⟨Kc', k0, k1⟩ := cubic_K (cubicMesh.at x.1 0) hx
  obtain rfl : Kc = Kc' := Option.some.inj (h0.symm.trans k0)
  unfold Mesh.jacobian
  rw [h1, Option.map_some]
  congr 1
  ext i j
  rw [Matrix.of_apply, Matrix.diagonal_apply]
  show (if (decide (i ≠ 0) || decide (j ≠ 0)) = true then _ else _) = _
  by_cases hi : i = 0
  · by_cases hj : j = 0
    · subst hi hj
      simp [h2, k1]
    · have : ¬ (0 : Fin 8) = j := fun h => hj h.symm
      subst hi
      simp [hj, this]
  · by_cases hij : i = j
    · subst hij
      simp [hi]
    · simp [hi, hij]

/-- The whole property: with elements that are free of forces where they are not displaced, a load proportional to the load factor, and
internal variables that belong to the displacements at the start, every iteration of path following is a Newton step of the two field
problem for the load at the new load factor. -/
def Spec.PathNewton : Prop :=
  ∀ (E n d q m Nd : Nat) (M : Mesh (Fin E) n d q m Nd) (dom : Set (Fin q → ℝ))
    (linSolve : Matrix (Fin Nd) (Fin Nd) ℝ → (Fin Nd → ℝ) → Fin Nd → ℝ) (sub) (alpha0 : Fin E → Fin m → ℝ)
    (x0 : (Fin Nd → ℝ) × ℝ) (args0 : SubsidiaryArgs ℝ (Fin Nd → ℝ)) (F : Fin Nd → ℝ) (k : Nat)
    (s s' : Spec.PathPoint (Fin E) (Fin m → ℝ) (Fin Nd → ℝ) (Matrix (Fin Nd) (Fin Nd) ℝ)) (c : Fin Nd → ℝ) (dl : ℝ),
    m ≠ 0 → applicable n d m = true → (∀ l i, M.load l i = l * M.load 1 i) →
    (∀ e, calculateVector (M.law e) (M.gps e) .forces 0 0 0 = some 0) →
    (∀ e, calculateRtilde (M.law e) (M.gps e) (M.at x0.1 e) (alpha0 e) = 0) →
    (∀ e, IsUnit (calculateD (M.law e) (M.gps e) 0 (alpha0 e)).det) →
    let P := M.path (List.finRange E) linSolve Real.sqrt (fun a b => decide (a > b)) sub
    Spec.PathIterate P alpha0 x0 args0 F k s → ¬ Spec.PathStops P ⟨1 / 10 ^ 8, 20⟩ k s → Spec.PathStep P F s s' c dl →
    Spec.RegularAt M dom s.w s.x.1 → (∀ b, s.a *ᵥ linSolve s.a b = b) →
    M.spec.TwoFieldStep M.free (M.load s'.x.2) s.x.1 (s'.x.1 - s.x.1) s.w s'.w

/-- C92. The whole property is false: the load vector is computed without displacements but with the internal variables the elements
hold, and with a law that is not linear these have forces. -/
theorem pathNewton_false : ¬ Spec.PathNewton := by
  intro h
  let linSolve : Matrix (Fin 8) (Fin 8) ℝ → (Fin 8 → ℝ) → Fin 8 → ℝ := fun _ b i => if i = 0 then 23 / 520 * b 0 else b i
  let sub : (Fin 8 → ℝ) × ℝ → SubsidiaryArgs ℝ (Fin 8 → ℝ) → ℝ × Option (Fin 8 → ℝ) × Option ℝ :=
    fun _ args => (args.DD 0 - args.stepSize, some (Pi.single 0 1), some 0)
  let alpha0 : Fin 1 → Fin 4 → ℝ := fun _ => cubicAlpha
  let x0 : (Fin 8 → ℝ) × ℝ := (fun i => if i = 0 then 2 else 0, 21)
  let args0 : SubsidiaryArgs ℝ (Fin 8 → ℝ) := ⟨1, 0, 0, 0, some 0, some 0, 1⟩
  let P := cubicMesh.path (List.finRange 1) linSolve Real.sqrt (fun a b => decide (a > b)) sub
  have hu0 : (cubicMesh.at x0.1 0 0 0 - 1) ^ 2 = 1 := by
    show ((2 : ℝ) - 1) ^ 2 = 1
    norm_num
  have hu1 : ((0 : NodeVec 4 2) 0 0 - 1) ^ 2 = 1 := by
    show ((0 : ℝ) - 1) ^ 2 = 1
    norm_num
  -- the load vector
  obtain ⟨r0, hr0⟩ := cubic_residual alpha0 (0, 1)
  obtain ⟨f0, g1, -, g3⟩ := residual_some cubicMesh alpha0 (0, 1) r0 hr0
  obtain ⟨f0', g1', g4⟩ := cubic_vector 0 hu1
  have hf0 : f0 0 = f0' := Option.some.inj ((g1 0).symm.trans g1')
  have hf00 : f0 0 0 0 = -60 / 23 := by
    rw [hf0, g4]
    show 10 * (((0 : ℝ) - 1) + (0 - 1) ^ 3) - 40 / 92 * (10 * ((0 - 1) + (0 - 1) ^ 3) - 20) = _
    norm_num
  have hr00 : r0 0 = -83 / 23 := by
    rw [g3 0 rfl, cubic_assemble, hf00]
    show (-60 / 23 : ℝ) - (if (0 : Fin 8) = 0 then 1 else 0) = _
    norm_num
  -- the start
  obtain ⟨r, hr⟩ := cubic_residual alpha0 x0
  obtain ⟨fc, f1, -, f3⟩ := residual_some cubicMesh alpha0 x0 r hr
  obtain ⟨fc', f1', f4⟩ := cubic_vector (cubicMesh.at x0.1 0) hu0
  have hfc : fc 0 = fc' := Option.some.inj ((f1 0).symm.trans f1')
  have hr1 : r 0 = -1 := by
    rw [f3 0 rfl, cubic_assemble, hfc, f4]
    show 10 * (((2 : ℝ) - 1) + (2 - 1) ^ 3) - 40 / 92 * (10 * ((2 - 1) + (2 - 1) ^ 3) - 20) - (if (0 : Fin 8) = 0 then 21 else 0) = _
    norm_num
  have hj := cubic_jacobian x0 (by show ((2 : ℝ) - 1) ^ 2 = 1; norm_num)
  let s : Spec.PathPoint (Fin 1) (Fin 4 → ℝ) (Fin 8 → ℝ) (Matrix (Fin 8) (Fin 8) ℝ) :=
    ⟨alpha0, x0, r, Matrix.diagonal fun i => if i = 0 then 520 / 23 else 1, ⟨1, 0, 0, -1, some (Pi.single 0 1), some 0, 1⟩⟩
  have h0 : Spec.PathIterate P alpha0 x0 args0 (-r0) 0 s :=
    .zero r _ _ (by rw [neg_neg]; exact hr0) hr hj rfl rfl rfl rfl (by
      show ((-1 : ℝ), some (Pi.single (0 : Fin 8) (1 : ℝ) : Fin 8 → ℝ), some (0 : ℝ)) = ((0 : Fin 8 → ℝ) 0 - 1, some (Pi.single 0 1), some 0)
      simp)
  have hns : ¬ Spec.PathStops P ⟨1 / 10 ^ 8, 20⟩ 0 s := by
    rintro (h1 | h1)
    · norm_num at h1
    · have h2 : ¬ Real.sqrt (∑ i, r i * r i) > 1 / 10 ^ 8 := by
        have : decide (Real.sqrt (∑ i, r i * r i) > 1 / 10 ^ 8) = false := h1
        simpa using this
      refine h2 (lt_of_lt_of_le (by norm_num : (1 / 10 ^ 8 : ℝ) < 1) (Real.one_le_sqrt.2 ?_))
      have := Finset.single_le_sum (f := fun i => r i * r i) (fun i _ => mul_self_nonneg (r i)) (Finset.mem_univ (0 : Fin 8))
      simp only [hr1] at this
      linarith
  -- the step
  let dl : ℝ := 497 / 83
  let c : Fin 8 → ℝ := linSolve s.a (-s.r) + dl • linSolve s.a (-r0)
  let w' : Fin 1 → Fin 4 → ℝ := fun e => alpha0 e - (calculateD cubicLaw (linearPoints cubicPoints) (cubicMesh.at x0.1 e) (alpha0 e))⁻¹ *ᵥ
      (calculateRtilde cubicLaw (linearPoints cubicPoints) (cubicMesh.at x0.1 e) (alpha0 e) +
        EAS.Spec.mulLv (calculateL cubicLaw (linearPoints cubicPoints) (cubicMesh.at x0.1 e) (alpha0 e)) (cubicMesh.at c e))
  obtain ⟨r', hr'⟩ := cubic_residual w' (x0.1 + c, 21 + dl)
  obtain ⟨a', ha'⟩ := cubic_jacobian_some w' (x0.1 + c, 21 + dl)
  let s' : Spec.PathPoint (Fin 1) (Fin 4 → ℝ) (Fin 8 → ℝ) (Matrix (Fin 8) (Fin 8) ℝ) :=
    ⟨w', (x0.1 + c, 21 + dl), r', a', ⟨1, 0 + c, 0 + dl, (0 + c) 0 - 1, some (Pi.single 0 1), some 0, 1⟩⟩
  have hs1 : ∀ b : Fin 8 → ℝ, ∑ i, (Pi.single (0 : Fin 8) (1 : ℝ) : Fin 8 → ℝ) i * b i = b 0 := by
    intro b
    rw [Finset.sum_eq_single 0]
    · simp
    · intro i _ hi
      simp [hi]
    · simp
  have hstep : Spec.PathStep P (-r0) s s' c dl := by
    refine ⟨⟨Pi.single 0 1, 0, rfl, rfl, ?_, ?_⟩, rfl, fun e => ?_, rfl, hr', ha', rfl, rfl, rfl, rfl, rfl⟩
    · show ∑ i, (Pi.single (0 : Fin 8) (1 : ℝ) : Fin 8 → ℝ) i * linSolve s.a (-r0) i + 0 ≠ 0
      rw [hs1]
      show (if (0 : Fin 8) = 0 then 23 / 520 * (-r0) 0 else (-r0) 0) + 0 ≠ 0
      rw [if_pos rfl, Pi.neg_apply, hr00]
      norm_num
    · show (-1 : ℝ) + ∑ i, (Pi.single (0 : Fin 8) (1 : ℝ) : Fin 8 → ℝ) i * linSolve s.a (-r) i +
        dl * (∑ i, (Pi.single (0 : Fin 8) (1 : ℝ) : Fin 8 → ℝ) i * linSolve s.a (-r0) i + 0) = 0
      rw [hs1, hs1]
      show (-1 : ℝ) + (if (0 : Fin 8) = 0 then 23 / 520 * (-r) 0 else (-r) 0) +
        497 / 83 * ((if (0 : Fin 8) = 0 then 23 / 520 * (-r0) 0 else (-r0) 0) + 0) = 0
      rw [if_pos rfl, if_pos rfl, Pi.neg_apply, Pi.neg_apply, hr00, hr1]
      norm_num
    · show easCallback cubicLaw (linearPoints cubicPoints) (alpha0 e) .correctionUpdated (cubicMesh.at x0.1 e) 8 (cubicMesh.at c e) 8 =
        some (w' e)
      rw [easCallback, if_pos rfl, updateState_eq _ _ _ _ (by decide) (by decide)]
  have hreg : Spec.RegularAt cubicMesh Set.univ s.w s.x.1 := by
    intro e
    obtain rfl : e = 0 := Subsingleton.elim _ _
    exact ⟨cubic_regular _ _, (cubic_Dinv _ hu0).1⟩
  have hsolve : ∀ b, s.a *ᵥ linSolve s.a b = b := by
    intro b
    funext i
    show (Matrix.diagonal (fun i : Fin 8 => if i = 0 then (520 / 23 : ℝ) else 1) *ᵥ linSolve s.a b) i = b i
    rw [Matrix.mulVec_diagonal]
    by_cases hi : i = 0
    · subst hi
      show (if (0 : Fin 8) = 0 then (520 / 23 : ℝ) else 1) * (if (0 : Fin 8) = 0 then 23 / 520 * b 0 else b 0) = b 0
      rw [if_pos rfl, if_pos rfl]
      ring
    · show (if i = 0 then (520 / 23 : ℝ) else 1) * (if i = 0 then 23 / 520 * b 0 else b i) = b i
      rw [if_neg hi, if_neg hi, one_mul]
  have hload : ∀ l i, cubicMesh.load l i = l * cubicMesh.load 1 i := by
    intro l i
    show (if i = 0 then l else 0) = l * (if i = 0 then 1 else 0)
    split <;> simp
  have hfree : ∀ e, calculateVector (cubicMesh.law e) (cubicMesh.gps e) .forces 0 0 0 = some 0 := by
    intro e
    show calculateVector cubicLaw (linearPoints cubicPoints) .forces 0 0 0 = some 0
    have hst : ∀ gp ∈ linearPoints cubicPoints, cubicLaw.stress (gp.strain 0 0) = 0 := by
      intro gp hgp
      obtain ⟨p, _, rfl⟩ := List.mem_map.1 hgp
      have : (additive p.1.toPoint p.2).strain 0 0 = 0 := by
        simp [additive, LinPoint.toPoint, LinPoint.strain]
      rw [this]
      funext k
      fin_cases k <;> simp [cubicLaw]
    have hf : forces cubicLaw (linearPoints cubicPoints) 0 0 = 0 := by
      refine List.sum_eq_zero fun y hy => ?_
      obtain ⟨gp, hgp, rfl⟩ := List.mem_map.1 hy
      funext I
      simp [pointForce, hst gp hgp]
    have hR : calculateRtilde cubicLaw (linearPoints cubicPoints) 0 0 = 0 := by
      rw [calculateRtilde_sum]
      refine List.sum_eq_zero fun y hy => ?_
      obtain ⟨gp, hgp, rfl⟩ := List.mem_map.1 hy
      simp [pointR, hst gp hgp]
    rw [calculateVector_eq _ _ _ _ (by decide) (by decide), hf, hR, Matrix.mulVec_zero]
    congr 1
    funext I a
    simp [EAS.Spec.mulLT]
  have hR0 : ∀ e, calculateRtilde (cubicMesh.law e) (cubicMesh.gps e) (cubicMesh.at x0.1 e) (alpha0 e) = 0 := by
    intro e
    obtain rfl : e = 0 := Subsingleton.elim _ _
    refine (cubic_R _).trans ?_
    have : cubicMesh.at x0.1 0 0 0 = 2 := rfl
    rw [this]
    funext i
    fin_cases i <;> norm_num
  have hnewton := h 1 4 2 3 4 8 cubicMesh Set.univ linSolve sub alpha0 x0 args0 (-r0) 0 s s' c dl (by decide) (by decide) hload hfree hR0
    (fun e => (cubic_Dinv 0 hu1).1) h0 hns hstep hreg hsolve
  obtain ⟨f, e1, hact, -, -⟩ := path_eas_step cubicMesh Set.univ (by decide) (by decide) hload (List.finRange 1) linSolve Real.sqrt
    (fun a b => decide (a > b)) sub alpha0 x0 args0 (-r0) 0 s s' c dl h0 hstep hreg hsolve
  have hf : f 0 = f0 0 := Option.some.inj ((e1 0).symm.trans (g1 0))
  obtain ⟨q1, q2, q3⟩ := hnewton
  obtain ⟨p1, p2, p3⟩ := hact
  have hqp : q1 = p1 := by
    funext e
    exact (q2 e).displacements.symm.trans (p2 e).displacements
  have h1 := q3 0 (show cubicMesh.constrained 0 = false from rfl)
  have h2 := p3 0 (show cubicMesh.constrained 0 = false from rfl)
  rw [hqp, h2] at h1
  simp only [cubic_assemble, hf, hf00] at h1
  have h3 : s'.x.2 - s.x.2 = 497 / 83 := by
    show (21 + 497 / 83 : ℝ) - 21 = _
    norm_num
  rw [h3] at h1
  linarith

end Ikarus.Listening
