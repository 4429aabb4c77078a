import Verif.Material.MuesliModel
import Verif.Material.ConversionProps
import Verif.Material.NeoHookeProps
import Verif.Material.HyperelasticDerivProps
import Mathlib.Analysis.SpecialFunctions.Sqrt

/-!
Property C91: materials of the library Muesli.
-/

namespace Ikarus

open Matrix

namespace Muesli

noncomputable section

namespace Spec

variable {Θ K D : Type}

/-- What the Muesli material with properties `θ` says about a deformation `d` of the undeformed, uncommitted state. -/
def answer (M : Law Θ K D) (θ : Θ) (d : D) : Query → Answer
  | .energy => .energy (M.energy θ (M.start θ) d)
  | .stress => .stress (Matrix.of fun i j => (M.stress θ (M.start θ) d).get i j)
  | .moduli => .moduli (M.tangent θ (M.start θ) d)

/-- A program as seen by its caller: names stand for properties, an evaluation is a function of properties and strain. -/
def run (value : Θ → Query → StrainTag → M3 → Option Answer) (s : Nat → Option Θ) : List (Op Θ) → Option (List Answer)
  | [] => some []
  | .make i mpt :: ops => run value (fun k => if k = i then some mpt else s k) ops
  | .copy i j :: ops => (s j).bind fun θ => run value (fun k => if k = i then some θ else s k) ops
  | .eval i q tag E :: ops => (s i).bind fun θ => (value θ q tag E).bind fun a => (run value s ops).map (a :: ·)

/-- The Muesli material does not depend on rotations of the deformed body. -/
def FrameIndifferent (M : Law Θ K M3) : Prop :=
  ∀ θ (F R : M3), 0 < F.det → Rᵀ * R = 1 → 0 < R.det → ∀ q, answer M θ (R * F) q = answer M θ F q

/-- Stress and tangent of the Muesli material are derivatives: `dW = P : dF` with `P = F S`, and `dS = 𝔸 : dE`. -/
structure Derivatives (M : Law Θ K M3) (θ : Θ) : Prop where
  stress : ∀ (Φ : ℝ → M3) (X : M3), 0 < (Φ 0).det → HasMatDeriv Φ X 0 →
    HasDerivAt (fun t => M.energy θ (M.start θ) (Φ t))
      (∑ i, ∑ j, (Φ 0 * Matrix.of fun i j => (M.stress θ (M.start θ) (Φ 0)).get i j) i j * X i j) 0
  tangent : ∀ (Φ : ℝ → M3) (X : M3), 0 < (Φ 0).det → HasMatDeriv Φ X 0 → ∀ i j,
    HasDerivAt (fun t => (M.stress θ (M.start θ) (Φ t)).get i j)
      (∑ k, ∑ l, M.tangent θ (M.start θ) (Φ 0) i j k l * ((1 / 2 : ℝ) • (Xᵀ * Φ 0 + (Φ 0)ᵀ * X)) k l) 0

/-- Deformations that turn the material inside out are rejected. -/
def InvertedRejected (Θ K : Type) : Prop :=
  ∀ (M : Law Θ K M3) (msqrt : M3 → M3) (eps : ℝ) (θ : Θ) (F : M3), Spec.PrincipalRoot msqrt → eps < 1 → F.det < 0 →
    evalFinite M msqrt eps (construct M θ) .energy .deformationGradient F = none

end Spec

variable {Θ K D : Type}

/-! ### Histories -/

/-- What an object remembers. -/
def Good (M : Law Θ K D) (o : Obj Θ K D) : Prop :=
  o.material = o.materialParameter ∧ o.committed = M.start o.materialParameter

theorem run_spec (M : Law Θ K D)
    (ev : Obj Θ K D → Query → StrainTag → M3 → Option (Obj Θ K D × Answer))
    (value : Θ → Query → StrainTag → M3 → Option Answer)
    (hev : ∀ o q tag E, Good M o → (ev o q tag E).map Prod.snd = value o.materialParameter q tag E ∧
      ∀ o' a, ev o q tag E = some (o', a) → Good M o' ∧ o'.materialParameter = o.materialParameter)
    (s : Nat → Option (Obj Θ K D)) (hs : ∀ i o, s i = some o → Good M o) (ops : List (Op Θ)) :
    run M ev s ops = Spec.run value (fun i => (s i).map Obj.materialParameter) ops := by
  induction ops generalizing s with
  | nil => rfl
  | cons op ops ih =>
    cases op with
    | make i mpt =>
      simp only [run, Spec.run]
      rw [ih]
      · congr 1
        funext k
        split <;> rfl
      · intro k o hk
        split at hk
        · obtain rfl := Option.some.inj hk; exact ⟨rfl, rfl⟩
        · exact hs k o hk
    | copy i j =>
      simp only [run, Spec.run]
      cases hj : s j with
      | none => rfl
      | some o =>
        simp only [Option.map_some, Option.bind_some, Option.bind_eq_bind]
        rw [ih]
        · congr 1
          funext k
          split <;> rfl
        · intro k o' hk
          split at hk
          · obtain rfl := Option.some.inj hk; exact ⟨rfl, rfl⟩
          · exact hs k o' hk
    | eval i q tag E =>
      simp only [run, Spec.run]
      cases hi : s i with
      | none => rfl
      | some o =>
        obtain ⟨h1, h2⟩ := hev o q tag E (hs i o hi)
        simp only [Option.map_some, Option.bind_some, Option.bind_eq_bind]
        rw [← h1]
        cases he : ev o q tag E with
        | none => rfl
        | some p =>
          obtain ⟨o', a⟩ := p
          obtain ⟨h3, h4⟩ := h2 o' a he
          simp only [Option.map_some, Option.bind_some]
          rw [ih]
          · have : (fun k => (if k = i then some o' else s k).map Obj.materialParameter) =
                fun k => (s k).map Obj.materialParameter := by
              funext k
              split
              case isTrue hk => rw [hk, hi]; simp [h4]
              case isFalse => rfl
            rw [this]
            cases Spec.run value (fun k => (s k).map Obj.materialParameter) ops <;> rfl
          · intro k o'' hk
            split at hk
            · obtain rfl := Option.some.inj hk; exact h3
            · exact hs k o'' hk

theorem toitensor_eq (C : M3) : toitensor C = C := by
  ext i j
  fin_cases i <;> fin_cases j <;> rfl

theorem ask_answer (M : Law Θ K D) (o : Obj Θ K D) (ho : Good M o) (d : D) (q : Query) :
    ask M { o with current := some d } q = some (Spec.answer M o.materialParameter d q) := by
  cases q
  · simp [ask, Spec.answer, ho.1, ho.2]
  · simp [ask, Spec.answer, ho.1, ho.2, toEigenMatrix]
  · simp only [ask, Spec.answer, ho.1, ho.2, Option.map_some]
    rfl

/-- The value of an evaluation with a finite strain. -/
def finiteValue (M : Law Θ K M3) (msqrt : M3 → M3) (θ : Θ) (q : Query) (tag : StrainTag) (E : M3) : Option Answer :=
  (transformStrain msqrt tag .rightCauchyGreenTensor E).bind fun C =>
    if 0 < C.det then some (Spec.answer M θ (msqrt C) q) else none

theorem evalFinite_value (M : Law Θ K M3) (msqrt : M3 → M3) {eps : ℝ} (he : eps < 1) (o : Obj Θ K M3) (q : Query)
    (tag : StrainTag) (E : M3) (ho : Good M o) :
    (evalFinite M msqrt eps o q tag E).map Prod.snd = finiteValue M msqrt o.materialParameter q tag E ∧
      ∀ o' a, evalFinite M msqrt eps o q tag E = some (o', a) →
        Good M o' ∧ o'.materialParameter = o.materialParameter := by
  unfold evalFinite finiteValue updateFinite
  cases hC : transformStrain msqrt tag .rightCauchyGreenTensor E with
  | none => simp
  | some C =>
    have hF : transformStrain msqrt .rightCauchyGreenTensor .deformationGradient C = some (msqrt C) := rfl
    by_cases hd : 0 < C.det
    · simp only [hF, checkPositive_some he hd, Option.bind_eq_bind, Option.bind_some, Option.pure_def, if_pos hd,
        ask_answer M o ho, toitensor_eq, Option.map_some, true_and]
      intro o' a h
      obtain ⟨rfl, -⟩ := Prod.mk.inj (Option.some.inj h)
      exact ⟨ho, rfl⟩
    · simp [checkPositive_none he hd, hd]

/-- C91, histories: the answers of all materials in a program, evaluated and copied in any order, are those of the Muesli
material with the properties they were made with, for the uncommitted state and the right stretch of the strain given; earlier
evaluations and copies have no influence. Aborts exactly if the determinant of the right Cauchy-Green tensor is not positive. -/
theorem muesli_finite_history (M : Law Θ K M3) (msqrt : M3 → M3) {eps : ℝ} (he : eps < 1) (ops : List (Op Θ)) :
    run M (evalFinite M msqrt eps) (fun _ => none) ops =
      Spec.run (fun θ q tag E => (transformStrain msqrt tag .rightCauchyGreenTensor E).bind fun C =>
        if 0 < C.det then some (Spec.answer M θ (msqrt C) q) else none) (fun _ => none) ops :=
  run_spec M _ (finiteValue M msqrt) (fun o q tag E ho => evalFinite_value M msqrt he o q tag E ho) _ (by simp) ops

/-- C91, small strains: the answers are those of the Muesli material for the symmetric tensor with the entries 00, 11, 22,
12, 20 and 01 of the strain; only linear strains can be given. -/
theorem muesli_small_history (M : Law Θ K ISTensor) (msqrt : M3 → M3) (ops : List (Op Θ)) :
    run M (evalSmall M msqrt) (fun _ => none) ops =
      Spec.run (fun θ q tag E => if tag = .linear then
        some (Spec.answer M θ ⟨E 0 0, E 1 1, E 2 2, E 1 2, E 2 0, E 0 1⟩ q) else none) (fun _ => none) ops := by
  refine run_spec M _ _ (fun o q tag E ho => ?_) _ (by simp) ops
  unfold evalSmall
  by_cases ht : tag = .linear
  · subst ht
    have e : transformStrain msqrt .linear .linear E = some E := by simp [transformStrain]
    simp only [e, Option.bind_eq_bind, Option.bind_some, Option.pure_def, ask_answer M o ho, Option.map_some, if_true]
    refine ⟨rfl, ?_⟩
    intro o' a h
    obtain ⟨rfl, -⟩ := Prod.mk.inj (Option.some.inj h)
    exact ⟨ho, rfl⟩
  · have e : transformStrain msqrt tag .linear E = none := by simp [transformStrain, ht]
    simp [e, ht]

/-- C91, symmetric tensors: a strain arrives in Muesli as it is exactly if it is symmetric. -/
theorem muesli_symmetric (E : M3) : toEigenMatrix (toistensor E) = E ↔ E.IsSymm := by
  constructor
  · intro h
    rw [← h]
    ext i j
    fin_cases i <;> fin_cases j <;> rfl
  · intro h
    ext i j
    fin_cases i <;> fin_cases j <;> first | rfl | exact h.apply _ _

/-! ### Rotations -/

/-- Deformations with the same right Cauchy-Green tensor differ by a rotation. -/
theorem same_stretch {F G : M3} (hF : 0 < F.det) (hG : 0 < G.det) (h : Fᵀ * F = Gᵀ * G) :
    ∃ R : M3, F = R * G ∧ Rᵀ * R = 1 ∧ 0 < R.det := by
  have hu : IsUnit G.det := isUnit_iff_ne_zero.2 hG.ne'
  refine ⟨F * G⁻¹, ?_, ?_, ?_⟩
  · rw [Matrix.mul_assoc, Matrix.nonsing_inv_mul _ hu, Matrix.mul_one]
  · rw [Matrix.transpose_mul, Matrix.mul_assoc, ← Matrix.mul_assoc Fᵀ, h, Matrix.mul_assoc Gᵀ, Matrix.mul_nonsing_inv _ hu,
      Matrix.mul_one, ← Matrix.transpose_mul, Matrix.mul_nonsing_inv _ hu, Matrix.transpose_one]
  · rw [Matrix.det_mul, Matrix.det_nonsing_inv, Ring.inverse_eq_inv']
    exact mul_pos hF (inv_pos.2 hG)

theorem root_det {msqrt : M3 → M3} (hr : Spec.PrincipalRoot msqrt) {F : M3} (hF : F.det ≠ 0) :
    0 < (msqrt (Fᵀ * F)).det ∧ (msqrt (Fᵀ * F))ᵀ * msqrt (Fᵀ * F) = Fᵀ * F := by
  obtain ⟨h1, h2⟩ := hr _ (posSemidef_transpose_mul F)
  have hs : (msqrt (Fᵀ * F))ᵀ = msqrt (Fᵀ * F) := by
    have := h1.1.eq
    rwa [conjTranspose_eq_transpose_of_trivial] at this
  refine ⟨lt_of_le_of_ne h1.det_nonneg fun h0 => ?_, by rw [hs, h2]⟩
  have := congrArg Matrix.det h2
  rw [Matrix.det_mul, ← h0, Matrix.det_mul, Matrix.det_transpose] at this
  exact hF (by simpa using this.symm)

theorem det_gram {F : M3} (hF : F.det ≠ 0) : 0 < (Fᵀ * F).det := by
  rw [Matrix.det_mul, Matrix.det_transpose]
  exact mul_self_pos.2 hF

/-- C91, strain measures: with a Muesli material that does not depend on rotations, the energy, stress and moduli for any strain
measure of a deformation gradient with positive determinant are those of the Muesli material for that deformation gradient. -/
theorem muesli_finite (M : Law Θ K M3) (hM : Spec.FrameIndifferent M) (msqrt : M3 → M3) (hr : Spec.PrincipalRoot msqrt)
    {eps : ℝ} (he : eps < 1) (θ : Θ) (F e : M3) (hF : 0 < F.det) (tag : StrainTag) (hf : Spec.strainOf F tag = some e)
    (q : Query) : (evalFinite M msqrt eps (construct M θ) q tag e).map Prod.snd = some (Spec.answer M θ F q) := by
  rw [(evalFinite_value M msqrt he (construct M θ) q tag e ⟨rfl, rfl⟩).1]
  unfold finiteValue
  rw [transformStrain_measure msqrt F e tag .rightCauchyGreenTensor hf (Or.inr rfl)]
  simp only [Spec.strainOf, Option.bind_some, if_pos (det_gram hF.ne')]
  obtain ⟨h1, h2⟩ := root_det hr hF.ne'
  obtain ⟨R, e1, e2, e3⟩ := same_stretch h1 hF h2
  rw [e1]
  exact congrArg some (hM θ F R hF e2 e3 q)

/-- C91, refuted: a deformation that turns the material inside out is not rejected, because only the determinant of the right
Cauchy-Green tensor is checked; it is evaluated for the stretch. -/
theorem inverted_not_rejected (M : Law Θ K M3) (θ : Θ) (msqrt : M3 → M3) (hr : Spec.PrincipalRoot msqrt) :
    ¬ Spec.InvertedRejected Θ K := by
  intro h
  have hd : (-1 : M3).det < 0 := by simp [Matrix.det_neg]; norm_num
  have h1 := h M msqrt 0 θ (-1) hr (by norm_num) hd
  have h2 := (evalFinite_value M msqrt (by norm_num : (0 : ℝ) < 1) (construct M θ) .energy .deformationGradient (-1) ⟨rfl, rfl⟩).1
  rw [h1] at h2
  unfold finiteValue at h2
  rw [transformStrain_measure msqrt (-1) (-1) .deformationGradient .rightCauchyGreenTensor rfl (Or.inr rfl)] at h2
  simp [Spec.strainOf] at h2

/-! ### Derivatives -/

/-- A path of deformations with the right Cauchy-Green tensor `C + t H`. -/
theorem exists_path {F H : M3} (hF : 0 < F.det) (hH : H.IsSymm) :
    ∃ (Φ : ℝ → M3) (X : M3), Φ 0 = F ∧ HasMatDeriv Φ X 0 ∧ Xᵀ * F + Fᵀ * X = H ∧
      ∀ᶠ t in nhds (0 : ℝ), 0 < (Φ t).det ∧ (Φ t)ᵀ * Φ t = Fᵀ * F + t • H := by
  have hu : IsUnit F.det := isUnit_iff_ne_zero.2 hF.ne'
  have hut : IsUnit (Fᵀ).det := by rwa [Matrix.det_transpose]
  set G : M3 := (F⁻¹)ᵀ * H * F⁻¹ with hG
  have hGs : G.IsSymm := by
    unfold Matrix.IsSymm
    rw [hG, Matrix.transpose_mul, Matrix.transpose_mul, Matrix.transpose_transpose, hH.eq, Matrix.mul_assoc]
  have hFG : Fᵀ * G * F = H := by
    rw [hG, ← Matrix.mul_assoc, ← Matrix.mul_assoc, ← Matrix.transpose_mul, Matrix.nonsing_inv_mul _ hu, Matrix.transpose_one,
      Matrix.one_mul, Matrix.mul_assoc, Matrix.nonsing_inv_mul _ hu, Matrix.mul_one]
  obtain ⟨mu, N, hN⟩ := exists_spectral hGs
  have hN' := hN.orth'
  let root : ℝ → Fin 3 → ℝ := fun t i => √(1 + t * mu i)
  let Kp : ℝ → M3 := fun t => N * diagonal (root t) * Nᵀ
  have hK0 : Kp 0 = 1 := by
    have : root 0 = fun _ => 1 := by funext i; simp [root]
    simp only [Kp, this]
    rw [show (diagonal fun _ : Fin 3 => (1 : ℝ)) = 1 from Matrix.diagonal_one, Matrix.mul_one, hN']
  have hKd : HasMatDeriv Kp ((1 / 2 : ℝ) • G) 0 := by
    have hr : HasMatDeriv (fun t => diagonal (root t)) (diagonal fun i => mu i / 2) 0 := by
      intro i j
      by_cases hij : i = j
      · subst hij
        simp only [Matrix.diagonal_apply_eq, root]
        have h1 : HasDerivAt (fun t : ℝ => 1 + t * mu i) (mu i) 0 := by
          simpa using ((hasDerivAt_id (0 : ℝ)).mul_const (mu i)).const_add 1
        have h2 := h1.sqrt (by simp)
        simpa using h2
      · simp only [Matrix.diagonal_apply_ne _ hij]
        exact hasDerivAt_const _ _
    have hc : ∀ A : M3, HasMatDeriv (fun _ => A) 0 (0 : ℝ) := fun A i j => by
      simpa using hasDerivAt_const (0 : ℝ) (A i j)
    have h3 := ((hc N).mul hr).mul (hc Nᵀ)
    have e : (0 * diagonal (root 0) + N * diagonal (fun i => mu i / 2)) * Nᵀ + N * diagonal (root 0) * 0 =
        (1 / 2 : ℝ) • G := by
      have hdiag : (diagonal fun i => mu i / 2) = (1 / 2 : ℝ) • diagonal mu := by
        rw [← Matrix.diagonal_smul]
        congr 1
        funext i
        simp
        ring
      rw [hdiag, hN.decomp]
      simp
    rw [← e]
    exact h3
  have hpos : ∀ᶠ t in nhds (0 : ℝ), ∀ i, 0 < 1 + t * mu i := by
    rw [Filter.eventually_all]
    intro i
    have hcont : Filter.Tendsto (fun t : ℝ => 1 + t * mu i) (nhds 0) (nhds 1) := by
      have : Continuous fun t : ℝ => 1 + t * mu i := by fun_prop
      simpa using this.tendsto 0
    exact hcont.eventually (eventually_gt_nhds one_pos)
  have hKs : ∀ t, (Kp t)ᵀ = Kp t := fun t => by
    simp only [Kp, Matrix.transpose_mul, Matrix.transpose_transpose, Matrix.diagonal_transpose, Matrix.mul_assoc]
  refine ⟨fun t => Kp t * F, (1 / 2 : ℝ) • (G * F), by simp [hK0], ?_, ?_, ?_⟩
  · have hc : HasMatDeriv (fun _ => F) 0 (0 : ℝ) := fun i j => by simpa using hasDerivAt_const (0 : ℝ) (F i j)
    have h4 := hKd.mul hc
    have e : (1 / 2 : ℝ) • G * F + Kp 0 * 0 = (1 / 2 : ℝ) • (G * F) := by simp
    rw [← e]
    exact h4
  · have e1 : ((1 / 2 : ℝ) • (G * F))ᵀ * F = (1 / 2 : ℝ) • H := by
      rw [Matrix.transpose_smul, Matrix.transpose_mul, hGs.eq, Matrix.smul_mul, hFG]
    have e2 : Fᵀ * ((1 / 2 : ℝ) • (G * F)) = (1 / 2 : ℝ) • H := by
      rw [Matrix.mul_smul, ← Matrix.mul_assoc, hFG]
    rw [e1, e2, ← add_smul]
    norm_num
  · filter_upwards [hpos] with t ht
    have hsq : Kp t * Kp t = 1 + t • G := by
      have hd : diagonal (root t) * diagonal (root t) = 1 + t • diagonal mu := by
        rw [Matrix.diagonal_mul_diagonal, ← Matrix.diagonal_one, ← Matrix.diagonal_smul, Matrix.diagonal_add]
        congr 1
        funext i
        simp [root, Real.mul_self_sqrt (ht i).le]
      calc Kp t * Kp t = N * (diagonal (root t) * (Nᵀ * N) * diagonal (root t)) * Nᵀ := by
            simp only [Kp, Matrix.mul_assoc]
        _ = N * (1 + t • diagonal mu) * Nᵀ := by rw [hN.orth, Matrix.mul_one, hd]
        _ = 1 + t • G := by
            rw [Matrix.mul_add, Matrix.add_mul, Matrix.mul_one, hN', Matrix.mul_smul, Matrix.smul_mul, ← hN.decomp]
    refine ⟨?_, ?_⟩
    · rw [Matrix.det_mul]
      refine mul_pos ?_ hF
      have hNd : N.det * N.det = 1 := by
        have := congrArg Matrix.det hN'
        rwa [Matrix.det_mul, Matrix.det_transpose, Matrix.det_one] at this
      simp only [Kp]
      rw [Matrix.det_mul, Matrix.det_mul, Matrix.det_transpose, mul_right_comm, hNd, one_mul, Matrix.det_diagonal]
      exact Finset.prod_pos fun i _ => Real.sqrt_pos.2 (ht i)
    · rw [Matrix.transpose_mul, hKs, Matrix.mul_assoc, ← Matrix.mul_assoc (Kp t), hsq, Matrix.add_mul, Matrix.one_mul,
        Matrix.mul_add, Matrix.smul_mul, Matrix.mul_smul, ← Matrix.mul_assoc Fᵀ G, hFG]

/-- Derivative of a function of the deformation that does not depend on rotations, as a function of the right Cauchy-Green
tensor. -/
theorem root_derivative {msqrt : M3 → M3} (hr : Spec.PrincipalRoot msqrt) {g : M3 → ℝ}
    (hg : ∀ F R : M3, 0 < F.det → Rᵀ * R = 1 → 0 < R.det → g (R * F) = g F) {F H : M3} (hF : 0 < F.det) (hH : H.IsSymm)
    {d : ℝ} (hd : ∀ (Φ : ℝ → M3) (X : M3), Φ 0 = F → HasMatDeriv Φ X 0 → Xᵀ * F + Fᵀ * X = H →
      HasDerivAt (fun t => g (Φ t)) d 0) :
    HasDerivAt (fun t : ℝ => g (msqrt (Fᵀ * F + t • H))) d 0 := by
  obtain ⟨Φ, X, h0, h1, h2, h3⟩ := exists_path hF hH
  refine (hd Φ X h0 h1 h2).congr_of_eventuallyEq ?_
  filter_upwards [h3] with t ht
  obtain ⟨h4, h5⟩ := root_det hr ht.1.ne'
  obtain ⟨R, e1, e2, e3⟩ := same_stretch h4 ht.1 h5
  rw [← ht.2, e1, hg _ _ ht.1 e2 e3]

theorem det_pos_near {F : M3} (hF : 0 < F.det) {H : M3} (hH : H.IsSymm) :
    ∀ᶠ t in nhds (0 : ℝ), 0 < (Fᵀ * F + t • H).det := by
  obtain ⟨Φ, X, -, -, -, h⟩ := exists_path hF hH
  filter_upwards [h] with t ht
  rw [← ht.2]
  exact det_gram ht.1.ne'

/-- The energy of an answer. -/
def energyOf : Option Answer → ℝ
  | some (.energy w) => w
  | _ => 0

/-- An entry of the stress of an answer. -/
def stressOf (i j : Fin 3) : Option Answer → ℝ
  | some (.stress S) => S i j
  | _ => 0

/-- C91, derivatives: if stress and tangent of the Muesli material are the derivatives of its energy, the stress is twice the
derivative of the energy with respect to the right Cauchy-Green tensor and the moduli are twice that of the stress, in every
symmetric direction, although Muesli only gets the stretch and not the deformation gradient. -/
theorem muesli_derivatives (M : Law Θ K M3) (hM : Spec.FrameIndifferent M) (θ : Θ) (hD : Spec.Derivatives M θ)
    (msqrt : M3 → M3) (hr : Spec.PrincipalRoot msqrt) {eps : ℝ} (he : eps < 1) (F H : M3) (hF : 0 < F.det) (hH : H.IsSymm) :
    ∃ (S : M3) (A : Tensor4 ℝ 3),
      (evalFinite M msqrt eps (construct M θ) .stress .rightCauchyGreenTensor (Fᵀ * F)).map Prod.snd = some (.stress S) ∧
      (evalFinite M msqrt eps (construct M θ) .moduli .rightCauchyGreenTensor (Fᵀ * F)).map Prod.snd = some (.moduli A) ∧
      HasDerivAt (fun t : ℝ => energyOf ((evalFinite M msqrt eps (construct M θ) .energy .rightCauchyGreenTensor
        (Fᵀ * F + t • H)).map Prod.snd)) (1 / 2 * ∑ i, ∑ j, S i j * H i j) 0 ∧
      ∀ i j, HasDerivAt (fun t : ℝ => stressOf i j ((evalFinite M msqrt eps (construct M θ) .stress .rightCauchyGreenTensor
        (Fᵀ * F + t • H)).map Prod.snd)) (1 / 2 * ∑ k, ∑ l, A i j k l * H k l) 0 := by
  have hval : ∀ (C : M3) q, 0 < C.det →
      (evalFinite M msqrt eps (construct M θ) q .rightCauchyGreenTensor C).map Prod.snd =
        some (Spec.answer M θ (msqrt C) q) := fun C q hC => by
    rw [(evalFinite_value M msqrt he (construct M θ) q .rightCauchyGreenTensor C ⟨rfl, rfl⟩).1]
    simp [finiteValue, transformStrain, hC, construct]
  have hfe : ∀ F R : M3, 0 < F.det → Rᵀ * R = 1 → 0 < R.det →
      M.energy θ (M.start θ) (R * F) = M.energy θ (M.start θ) F := fun F R h1 h2 h3 => by
    have := hM θ F R h1 h2 h3 .energy
    simpa [Spec.answer] using this
  have hfs : ∀ F R : M3, 0 < F.det → Rᵀ * R = 1 → 0 < R.det → ∀ i j,
      (M.stress θ (M.start θ) (R * F)).get i j = (M.stress θ (M.start θ) F).get i j := fun F R h1 h2 h3 i j => by
    have := hM θ F R h1 h2 h3 .stress
    simp only [Spec.answer, Answer.stress.injEq] at this
    exact congrFun (congrFun this i) j
  have hft : ∀ F R : M3, 0 < F.det → Rᵀ * R = 1 → 0 < R.det →
      M.tangent θ (M.start θ) (R * F) = M.tangent θ (M.start θ) F := fun F R h1 h2 h3 => by
    have := hM θ F R h1 h2 h3 .moduli
    simpa [Spec.answer] using this
  obtain ⟨hU, hUU⟩ := root_det hr hF.ne'
  obtain ⟨R, e1, e2, e3⟩ := same_stretch hU hF hUU
  set S : M3 := Matrix.of fun i j => (M.stress θ (M.start θ) F).get i j with hS
  have hSs : Sᵀ = S := by
    ext i j
    simp only [hS, Matrix.transpose_apply, Matrix.of_apply]
    fin_cases i <;> fin_cases j <;> rfl
  refine ⟨S, M.tangent θ (M.start θ) F, ?_, ?_, ?_, ?_⟩
  · rw [hval _ _ (det_gram hF.ne')]
    simp only [Spec.answer, Option.some.injEq, Answer.stress.injEq]
    ext i j
    simp only [Matrix.of_apply, hS]
    rw [e1, hfs F R hF e2 e3]
  · rw [hval _ _ (det_gram hF.ne')]
    simp only [Spec.answer, Option.some.injEq, Answer.moduli.injEq]
    rw [e1, hft F R hF e2 e3]
  · refine HasDerivAt.congr_of_eventuallyEq (root_derivative (g := M.energy θ (M.start θ)) hr hfe hF hH ?_)
      (by filter_upwards [det_pos_near hF hH] with t ht; rw [hval _ _ ht]; rfl)
    intro Φ X h0 h1 h2
    have h3 := hD.stress Φ X (by rw [h0]; exact hF) h1
    rw [h0] at h3
    refine h3.congr_deriv ?_
    have t1 : ∀ A B : M3, ∑ i, ∑ j, A i j * B i j = (Aᵀ * B).trace := fun A B => by
      simp only [Matrix.trace, Matrix.diag_apply, Matrix.mul_apply, Matrix.transpose_apply]
      rw [Finset.sum_comm]
    rw [t1, t1, ← hS, ← h2, hSs, Matrix.transpose_mul, hSs, Matrix.mul_add, Matrix.trace_add]
    have t2 : (S * (Xᵀ * F)).trace = (S * Fᵀ * X).trace := by
      rw [← Matrix.trace_transpose, Matrix.transpose_mul, Matrix.transpose_mul, Matrix.transpose_transpose, hSs,
        Matrix.trace_mul_comm, ← Matrix.mul_assoc]
    rw [t2, ← Matrix.mul_assoc S]
    ring
  · intro i j
    refine HasDerivAt.congr_of_eventuallyEq (root_derivative (g := fun F => (M.stress θ (M.start θ) F).get i j) hr
      (fun F R h1 h2 h3 => hfs F R h1 h2 h3 i j) hF hH ?_)
      (by filter_upwards [det_pos_near hF hH] with t ht; rw [hval _ _ ht]; rfl)
    intro Φ X h0 h1 h2
    have h3 := hD.tangent Φ X (by rw [h0]; exact hF) h1 i j
    rw [h0, h2] at h3
    refine h3.congr_deriv ?_
    simp only [Matrix.smul_apply, smul_eq_mul, Finset.mul_sum]
    exact Finset.sum_congr rfl fun k _ => Finset.sum_congr rfl fun l _ => by ring

/-! ### A material -/

/-- The material with energy `θ tr(C²) / 4`, stress `θ C` and moduli `θ (δik δjl + δil δjk)`; its state counts commits. -/
def sampleLaw : Law ℝ ℕ M3 where
  start := fun _ => 0
  energy := fun θ _ F => θ / 4 * (Fᵀ * F * (Fᵀ * F)).trace
  stress := fun θ _ F => toistensor (θ • (Fᵀ * F))
  tangent := fun θ _ _ i j k l => θ * ((if i = k ∧ j = l then 1 else 0) + if i = l ∧ j = k then 1 else 0)

theorem sample_stress (θ : ℝ) (n : ℕ) (F : M3) :
    (Matrix.of fun i j => (sampleLaw.stress θ n F).get i j) = θ • (Fᵀ * F) :=
  (muesli_symmetric _).2 (by simp [Matrix.IsSymm])

theorem sample_frame : Spec.FrameIndifferent sampleLaw := by
  intro θ F R _ hR _ q
  have e : (R * F)ᵀ * (R * F) = Fᵀ * F := by
    rw [Matrix.transpose_mul, Matrix.mul_assoc, ← Matrix.mul_assoc Rᵀ, hR, Matrix.one_mul]
  cases q <;> simp only [Spec.answer, sampleLaw, e]

theorem sample_derivatives (θ : ℝ) : Spec.Derivatives sampleLaw θ := by
  have hC : ∀ (Φ : ℝ → M3) (X : M3), HasMatDeriv Φ X 0 →
      HasMatDeriv (fun t => (Φ t)ᵀ * Φ t) (Xᵀ * Φ 0 + (Φ 0)ᵀ * X) 0 := fun Φ X h =>
    HasMatDeriv.mul (C := fun t => (Φ t)ᵀ) (fun i j => h j i) h
  constructor
  · intro Φ X _ h
    have h1 := (hC Φ X h).mul (hC Φ X h)
    have h2 : HasDerivAt (fun t => ((Φ t)ᵀ * Φ t * ((Φ t)ᵀ * Φ t)).trace) _ 0 :=
      HasDerivAt.fun_sum fun i (_ : i ∈ Finset.univ) => h1 i i
    refine (h2.const_mul (θ / 4)).congr_deriv ?_
    rw [sample_stress]
    simp only [Fin.sum_univ_three, Matrix.mul_apply, Matrix.add_apply, Matrix.transpose_apply, Matrix.smul_apply, smul_eq_mul]
    ring
  · intro Φ X _ h i j
    have h1 := (hC Φ X h i j).const_mul θ
    have e : (fun t => (sampleLaw.stress θ (sampleLaw.start θ) (Φ t)).get i j) = fun t => θ * ((Φ t)ᵀ * Φ t) i j := by
      funext t
      exact congrFun (congrFun (sample_stress θ 0 (Φ t)) i) j
    rw [e]
    refine h1.congr_deriv ?_
    simp only [Fin.sum_univ_three, Matrix.mul_apply, Matrix.add_apply, Matrix.transpose_apply, Matrix.smul_apply, smul_eq_mul,
      sampleLaw]
    fin_cases i <;> fin_cases j <;> simp <;> ring

/-- A history: a copy of an evaluated material and the material itself, evaluated again, answer alike. -/
example (msqrt : M3 → M3) (q : Query) (C D : M3) (hC : 0 < C.det) (hD : 0 < D.det) :
    run sampleLaw (evalFinite sampleLaw msqrt 0) (fun _ => none)
      [.make 0 2, .eval 0 q .rightCauchyGreenTensor C, .copy 1 0, .eval 0 q .rightCauchyGreenTensor D,
        .eval 1 q .rightCauchyGreenTensor C, .eval 0 q .rightCauchyGreenTensor C] =
      some [Spec.answer sampleLaw 2 (msqrt C) q, Spec.answer sampleLaw 2 (msqrt D) q, Spec.answer sampleLaw 2 (msqrt C) q,
        Spec.answer sampleLaw 2 (msqrt C) q] := by
  rw [muesli_finite_history _ _ (by norm_num)]
  simp [Spec.run, transformStrain, hC, hD]

/-- The derivatives at the deformation `diag(2, 1, 1)` with a shear in the direction. -/
example (msqrt : M3 → M3) (hr : Spec.PrincipalRoot msqrt) : ∃ (S : M3) (A : Tensor4 ℝ 3),
    (evalFinite sampleLaw msqrt 0 (construct sampleLaw 3) .stress .rightCauchyGreenTensor
      ((diagonal ![2, 1, 1] : M3)ᵀ * diagonal ![2, 1, 1])).map Prod.snd = some (.stress S) ∧
    (evalFinite sampleLaw msqrt 0 (construct sampleLaw 3) .moduli .rightCauchyGreenTensor
      ((diagonal ![2, 1, 1] : M3)ᵀ * diagonal ![2, 1, 1])).map Prod.snd = some (.moduli A) :=
  have h := muesli_derivatives sampleLaw sample_frame 3 (sample_derivatives 3) msqrt hr (by norm_num : (0 : ℝ) < 1)
    (diagonal ![2, 1, 1]) !![0, 1, 0; 1, 0, 0; 0, 0, 0] (by simp [Matrix.det_diagonal, Fin.prod_univ_three])
    (by ext i j; fin_cases i <;> fin_cases j <;> rfl)
  ⟨h.choose, h.choose_spec.choose, h.choose_spec.choose_spec.1, h.choose_spec.choose_spec.2.1⟩

/-- The Green-Lagrangian strain of a deformation gives the energy of the deformation. -/
example (msqrt : M3 → M3) (hr : Spec.PrincipalRoot msqrt) (F : M3) (hF : 0 < F.det) :
    (evalFinite sampleLaw msqrt 0 (construct sampleLaw 4) .energy .greenLagrangian
      ((1 / 2 : ℝ) • (Fᵀ * F - 1))).map Prod.snd = some (.energy (Fᵀ * F * (Fᵀ * F)).trace) := by
  rw [muesli_finite sampleLaw sample_frame msqrt hr (by norm_num) 4 F _ hF .greenLagrangian (by simp [Spec.strainOf])]
  simp [Spec.answer, sampleLaw]

/-- A strain that is not symmetric arrives changed. -/
example : toEigenMatrix (toistensor !![1, 2, 3; 0, 1, 0; 0, 0, 1]) ≠ !![1, 2, 3; 0, 1, 0; 0, 0, 1] := fun h => by
  have := congrFun (congrFun ((muesli_symmetric _).1 h) 1) 0
  simp at this

open scoped MatrixOrder in
example (M : Law Θ K M3) (θ : Θ) : ¬ Spec.InvertedRejected Θ K := inverted_not_rejected M θ _ principalRoot_sqrt

end

end Muesli

end Ikarus
