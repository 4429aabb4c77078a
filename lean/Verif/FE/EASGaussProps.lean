import Verif.FE.EASStabilityProps
import Verif.Utils.NumericProps
import Mathlib.Tactic.IntervalCases

/-!
The Gauss rules the elements use by default, and what they mean for the enhanced assumed strains: the two point rules are
sufficient for all variants but `E11`.
-/

namespace Ikarus.Element.EAS

open Matrix Ikarus.Element.Spec Ikarus.Utils

variable {d q m : Nat}

/-! ### Gauss rules -/

/-- The tensor product rule of a rule on the unit interval, in `d` dimensions. -/
noncomputable def Spec.power (b : List (QuadPoint 1)) : (d : Nat) → List (QuadPoint d)
  | 0 => [⟨Fin.elim0, 1⟩]
  | d + 1 => tensorProductQuadrature (Spec.power b d) b

/-- Positions with weights. -/
def Spec.pairs (rule : List (QuadPoint d)) : List ((Fin d → ℝ) × ℝ) := rule.map fun g => (g.position, g.weight)

/-- The Gauss rule with two points on the unit interval. -/
noncomputable def Spec.gauss2 : List (QuadPoint 1) :=
  [⟨fun _ => (1 - 1 / √3) / 2, 1 / 2⟩, ⟨fun _ => (1 + 1 / √3) / 2, 1 / 2⟩]

/-- The Gauss rule with three points on the unit interval. -/
noncomputable def Spec.gauss3 : List (QuadPoint 1) :=
  [⟨fun _ => (1 - √(3 / 5)) / 2, 5 / 18⟩, ⟨fun _ => 1 / 2, 4 / 9⟩, ⟨fun _ => (1 + √(3 / 5)) / 2, 5 / 18⟩]

theorem exact_pairs (rule : List (QuadPoint d)) (k : Nat) :
    Spec.Exact (Spec.pairs rule) k ↔ ∀ e : Fin d → ℕ, (∀ i, e i ≤ k) →
      Utils.Spec.quad rule (fun p => ∏ i, (2 * p i - 1) ^ e i) = ∏ i, Spec.mu (e i) := by
  simp only [Spec.Exact, Spec.pairs, Utils.Spec.quad, List.map_map, Function.comp_def, mul_comm]

/-- C54, C72. The tensor products of a rule that is exact to degree `k` on the interval are exact to degree `k` in every
coordinate. -/
theorem exact_power (b : List (QuadPoint 1)) (k : Nat)
    (h : ∀ e ≤ k, Utils.Spec.quad b (fun p => (2 * p 0 - 1) ^ e) = Spec.mu e) (d : Nat) :
    Spec.Exact (Spec.pairs (Spec.power b d)) k := by
  rw [exact_pairs]
  induction d with
  | zero => intro e _; simp [Spec.power, Utils.Spec.quad]
  | succ d ih =>
    intro e he
    have h1 := (tensorProduct_product (Spec.power b d) b (fun p => ∏ i, (2 * p i - 1) ^ e i.castSucc)
      (fun x => (2 * x - 1) ^ e (Fin.last d))).2.1
    rw [ih (fun i => e i.castSucc) (fun i => he _), h _ (he _)] at h1
    rw [Fin.prod_univ_castSucc, ← h1]
    simp only [Fin.prod_univ_castSucc]
    rfl

theorem gauss2_exact (e : ℕ) (he : e ≤ 3) : Utils.Spec.quad Spec.gauss2 (fun p => (2 * p 0 - 1) ^ e) = Spec.mu e := by
  have h3 : (√3 : ℝ) ^ 2 = 3 := Real.sq_sqrt (by norm_num)
  have h0 : (√3 : ℝ) ≠ 0 := by positivity
  have hs : (1 / √3 : ℝ) ^ 2 = 1 / 3 := by rw [div_pow, h3]; norm_num
  simp only [Utils.Spec.quad, Spec.gauss2, List.map_cons, List.map_nil, List.sum_cons, List.sum_nil, Spec.mu]
  generalize (1 / √3 : ℝ) = s at hs
  interval_cases e
  · norm_num
  · norm_num; ring
  · norm_num [Nat.even_iff]; linear_combination hs
  · norm_num [Nat.even_iff]; ring

theorem gauss3_exact (e : ℕ) (he : e ≤ 5) : Utils.Spec.quad Spec.gauss3 (fun p => (2 * p 0 - 1) ^ e) = Spec.mu e := by
  have hs : (√(3 / 5) : ℝ) ^ 2 = 3 / 5 := Real.sq_sqrt (by norm_num)
  simp only [Utils.Spec.quad, Spec.gauss3, List.map_cons, List.map_nil, List.sum_cons, List.sum_nil, Spec.mu]
  generalize √(3 / 5 : ℝ) = s at hs
  interval_cases e
  · norm_num
  · norm_num; ring
  · norm_num [Nat.even_iff]; linear_combination (5 / 9 : ℝ) * hs
  · norm_num [Nat.even_iff]; ring
  · norm_num [Nat.even_iff]; linear_combination (5 / 9 : ℝ) * (s ^ 2 + 3 / 5) * hs
  · norm_num [Nat.even_iff]; ring

theorem power_weight_pos (b : List (QuadPoint 1)) (h : ∀ g ∈ b, 0 < g.weight) (d : Nat) :
    ∀ g ∈ Spec.pairs (Spec.power b d), 0 < g.2 := by
  have : ∀ g ∈ Spec.power b d, 0 < g.weight := by
    induction d with
    | zero => simp [Spec.power]
    | succ d ih =>
      intro g hg
      rw [Spec.power, tensorProduct_eq, List.mem_flatMap] at hg
      obtain ⟨p, hp, hg⟩ := hg
      obtain ⟨o, ho, rfl⟩ := List.mem_map.1 hg
      exact mul_pos (ih p hp) (h o ho)
  intro g hg
  obtain ⟨x, hx, rfl⟩ := List.mem_map.1 hg
  exact this x hx

/-- The coordinates of the points of a product rule are those of the rule on the interval. -/
theorem power_position (b : List (QuadPoint 1)) (d : Nat) :
    ∀ g ∈ Spec.pairs (Spec.power b d), ∀ i, ∃ o ∈ b, g.1 i = o.position 0 := by
  have : ∀ g ∈ Spec.power b d, ∀ i, ∃ o ∈ b, g.position i = o.position 0 := by
    induction d with
    | zero => intro g _ i; exact i.elim0
    | succ d ih =>
      intro g hg i
      rw [Spec.power, tensorProduct_eq, List.mem_flatMap] at hg
      obtain ⟨p, hp, hg⟩ := hg
      obtain ⟨o, ho, rfl⟩ := List.mem_map.1 hg
      refine Fin.lastCases ?_ (fun j => ?_) i
      · exact ⟨o, ho, by simp⟩
      · obtain ⟨x, hx, h⟩ := ih p hp j
        exact ⟨x, hx, by simpa using h⟩
  intro g hg
  obtain ⟨x, hx, rfl⟩ := List.mem_map.1 hg
  exact this x hx

/-- C72. The rules with two points per direction are exact to degree three and those with three points to degree five, their
weights are positive. -/
theorem gauss_exact (d : Nat) :
    (Spec.Exact (Spec.pairs (Spec.power Spec.gauss2 d)) 3 ∧ ∀ g ∈ Spec.pairs (Spec.power Spec.gauss2 d), 0 < g.2) ∧
    Spec.Exact (Spec.pairs (Spec.power Spec.gauss3 d)) 5 ∧ ∀ g ∈ Spec.pairs (Spec.power Spec.gauss3 d), 0 < g.2 :=
  ⟨⟨exact_power _ 3 gauss2_exact d, power_weight_pos _ (by simp [Spec.gauss2]) d⟩,
    exact_power _ 5 gauss3_exact d, power_weight_pos _ (by
      intro g hg
      simp only [Spec.gauss3, List.mem_cons, List.not_mem_nil, or_false] at hg
      rcases hg with rfl | rfl | rfl <;> norm_num) d⟩

theorem exact_mono {rule : List ((Fin d → ℝ) × ℝ)} {k l : Nat} (h : Spec.Exact rule k) (hl : l ≤ k) : Spec.Exact rule l :=
  fun e he => h e fun i => (he i).trans hl

/-! ### The elements with the default rule -/

/-- Integration points of a linear element on the rule. -/
noncomputable def Spec.linearOn {n : Nat} (geo : Geometry d) (B : (Fin d → ℝ) → Fin n → Matrix (Fin q) (Fin d) ℝ)
    (M : (Fin d → ℝ) → Matrix (Fin q) (Fin m) ℝ) (g : (Fin d → ℝ) × ℝ) : EASPoint n d q m :=
  additive (LinPoint.toPoint ⟨geo.integrationElement g.1, g.2, B g.1⟩) (M g.1)

/-- The claim for an element of `n` nodes with `p` points per direction and modes `M`: the matrix `D` is invertible for every
geometry that is not degenerate on the unit cube and positive definite moduli, if the element accepts the number of parameters. -/
def Spec.Condensable (n : Nat) (b : List (QuadPoint 1)) (M : Geometry d → (Fin d → ℝ) → Matrix (Fin q) (Fin m) ℝ) : Prop :=
  applicable n d m = true → ∀ (geo : Geometry d) (B : (Fin d → ℝ) → Fin n → Matrix (Fin q) (Fin d) ℝ)
    (C : Matrix (Fin q) (Fin q) ℝ), (∀ p ∈ Set.Icc 0 1, IsUnit (geo.jacobianTransposed p)) → (∀ e, e ≠ 0 → 0 < e ⬝ᵥ C *ᵥ e) →
    ∀ u alpha, IsUnit (calculateD (linearLaw C) ((Spec.pairs (Spec.power b d)).map (Spec.linearOn geo B (M geo))) u alpha).det

theorem condensable (n : Nat) (b : List (QuadPoint 1)) (M : Geometry d → (Fin d → ℝ) → Matrix (Fin q) (Fin m) ℝ) (k : Nat)
    (hb : Spec.Exact (Spec.pairs (Spec.power b d)) k) (hw : ∀ g ∈ Spec.pairs (Spec.power b d), 0 < g.2)
    (hp : ∀ o ∈ b, o.position 0 ∈ Set.Icc (0 : ℝ) 1) (hM : ∀ geo, Spec.Stable geo (M geo) k) : Spec.Condensable n b M := by
  intro _ geo B C hgeo hC u alpha
  refine (hM geo n _ (Spec.linearOn geo B (M geo)) (linearLaw C) u alpha hb ⟨fun _ _ => rfl, fun _ _ => rfl⟩ hw ?_ (hgeo _ ?_)
    (fun _ _ => rfl) (fun _ _ _ => rfl) fun _ _ => hC).2
  · intro g hg
    refine abs_ne_zero.2 (isUnit_iff_ne_zero.1 ((Matrix.isUnit_iff_isUnit_det _).1 (hgeo g.1 ?_)))
    have h : ∀ i, g.1 i ∈ Set.Icc (0 : ℝ) 1 := fun i => by
      obtain ⟨o, ho, h⟩ := power_position b d g hg i
      rw [h]
      exact hp o ho
    exact ⟨fun i => (h i).1, fun i => (h i).2⟩
  · exact ⟨fun i => by simp [center], fun i => by simp only [center, Pi.one_apply]; norm_num⟩

theorem gauss2_unit : ∀ o ∈ Spec.gauss2, o.position 0 ∈ Set.Icc (0 : ℝ) 1 := by
  have h3 : (√3 : ℝ) ^ 2 = 3 := Real.sq_sqrt (by norm_num)
  have hs : (1 / √3 : ℝ) ^ 2 = 1 / 3 := by rw [div_pow, h3]; norm_num
  have h0 : (0 : ℝ) ≤ 1 / √3 := by positivity
  generalize hx : (1 / √3 : ℝ) = s at hs h0
  intro o ho
  simp only [Spec.gauss2, List.mem_cons, List.not_mem_nil, or_false, hx] at ho
  rcases ho with rfl | rfl <;> constructor <;> simp only <;> nlinarith

theorem gauss3_unit : ∀ o ∈ Spec.gauss3, o.position 0 ∈ Set.Icc (0 : ℝ) 1 := by
  have hs : (√(3 / 5) : ℝ) ^ 2 = 3 / 5 := Real.sq_sqrt (by norm_num)
  have h0 : (0 : ℝ) ≤ √(3 / 5) := by positivity
  generalize hx : √(3 / 5 : ℝ) = s at hs h0
  intro o ho
  simp only [Spec.gauss3, List.mem_cons, List.not_mem_nil, or_false, hx] at ho
  rcases ho with rfl | rfl | rfl <;> constructor <;> simp only <;> nlinarith

/-- C72. With the default rule of the four node element, of the nine node element and of the eight node brick the condensation
is defined for every variant but `E11`, which needs the rule of the nine node element. -/
theorem eas_default_rule_partial :
    (Spec.Condensable 4 Spec.gauss2 (ansatz2 e4) ∧ Spec.Condensable 4 Spec.gauss2 (ansatz2 e5) ∧
      Spec.Condensable 4 Spec.gauss2 (ansatz2 e7)) ∧
    (Spec.Condensable 9 Spec.gauss3 (ansatz2 e4) ∧ Spec.Condensable 9 Spec.gauss3 (ansatz2 e5) ∧
      Spec.Condensable 9 Spec.gauss3 (ansatz2 e7) ∧ Spec.Condensable 9 Spec.gauss3 (ansatz2 e11)) ∧
    Spec.Condensable 8 Spec.gauss2 (ansatz3 e9) ∧ Spec.Condensable 8 Spec.gauss2 (ansatz3 e21) := by
  obtain ⟨⟨h2, w2⟩, h3, w3⟩ := gauss_exact 2
  obtain ⟨⟨h2', w2'⟩, -⟩ := gauss_exact 3
  have s2 := eas_stable.1
  have s3 := eas_stable.2
  exact ⟨⟨condensable 4 _ _ 2 (exact_mono h2 (by decide)) w2 gauss2_unit fun geo => (s2 geo).1,
      condensable 4 _ _ 2 (exact_mono h2 (by decide)) w2 gauss2_unit fun geo => (s2 geo).2.1,
      condensable 4 _ _ 2 (exact_mono h2 (by decide)) w2 gauss2_unit fun geo => (s2 geo).2.2.1⟩,
    ⟨condensable 9 _ _ 2 (exact_mono h3 (by decide)) w3 gauss3_unit fun geo => (s2 geo).1,
      condensable 9 _ _ 2 (exact_mono h3 (by decide)) w3 gauss3_unit fun geo => (s2 geo).2.1,
      condensable 9 _ _ 2 (exact_mono h3 (by decide)) w3 gauss3_unit fun geo => (s2 geo).2.2.1,
      condensable 9 _ _ 4 (exact_mono h3 (by decide)) w3 gauss3_unit fun geo => (s2 geo).2.2.2⟩,
    condensable 8 _ _ 2 (exact_mono h2' (by decide)) w2' gauss2_unit fun geo => (s3 geo).1,
    condensable 8 _ _ 2 (exact_mono h2' (by decide)) w2' gauss2_unit fun geo => (s3 geo).2⟩

theorem t_gauss2 (x : ℝ) (h : ∃ o ∈ Spec.gauss2, x = o.position 0) : 1 - 3 * (t x * t x) = 0 := by
  have h3 : (√3 : ℝ) ^ 2 = 3 := Real.sq_sqrt (by norm_num)
  have hs : (1 / √3 : ℝ) ^ 2 = 1 / 3 := by rw [div_pow, h3]; norm_num
  obtain ⟨o, ho, rfl⟩ := h
  simp only [Spec.gauss2, List.mem_cons, List.not_mem_nil, or_false] at ho
  rcases ho with rfl | rfl <;> simp only [t] <;> linear_combination (-3 : ℝ) * hs

/-- All modes of `E11` vanish at the Gauss points of the four node element. -/
theorem e11_gauss2 : ∀ g ∈ Spec.pairs (Spec.power Spec.gauss2 2), assign e11 g.1 = 0 := by
  intro g hg
  have h0 := t_gauss2 _ (power_position Spec.gauss2 2 g hg 0)
  have h1 := t_gauss2 _ (power_position Spec.gauss2 2 g hg 1)
  have h : ∀ e ∈ e11, e.2.2 g.1 = 0 := by
    intro e he
    simp only [e11, List.mem_cons, List.not_mem_nil, or_false] at he
    generalize hx : t (g.1 0) = x at h0
    generalize hy : t (g.1 1) = y at h1
    rcases he with rfl | rfl | rfl | rfl | rfl | rfl | rfl | rfl | rfl | rfl | rfl <;> simp only [hx, hy]
    · exact h0
    · linear_combination y * h0
    · linear_combination y * y * h0
    · exact h1
    · linear_combination x * h1
    · linear_combination x * x * h1
    · exact h0
    · exact h1
    · linear_combination y * h0
    · linear_combination x * h1
    · linear_combination (1 - 3 * (y * y)) * h0
  ext i j
  rw [assign_apply e11 (by simp [e11]) g.1 i j, Matrix.zero_apply]
  refine List.sum_eq_zero fun x hx => ?_
  obtain ⟨e, he, rfl⟩ := List.mem_map.1 hx
  rw [h e he, ite_self]

/-- C72. `E11` with the four node element and its default rule: accepted, and `D` is the zero matrix for every geometry, law and
displacement, so that the claim fails. -/
theorem eas_e11_singular :
    applicable 4 2 11 = true ∧ createEASType .greenLagrange 2 11 = some 11 ∧
    (∀ (geo : Geometry 2) (law : Law 3) (B : (Fin 2 → ℝ) → Fin 4 → Matrix (Fin 3) (Fin 2) ℝ) (u : NodeVec 4 2)
      (alpha : Fin 11 → ℝ), calculateD law ((Spec.pairs (Spec.power Spec.gauss2 2)).map
        (Spec.linearOn geo B (ansatz2 e11 geo))) u alpha = 0) ∧
    ¬ Spec.Condensable 4 Spec.gauss2 (ansatz2 e11) := by
  have h0 : ∀ (geo : Geometry 2) (law : Law 3) (B : (Fin 2 → ℝ) → Fin 4 → Matrix (Fin 3) (Fin 2) ℝ) (u : NodeVec 4 2)
      (alpha : Fin 11 → ℝ), calculateD law ((Spec.pairs (Spec.power Spec.gauss2 2)).map
        (Spec.linearOn geo B (ansatz2 e11 geo))) u alpha = 0 := by
    intro geo law B u alpha
    rw [calculateD_sum, List.map_map]
    refine List.sum_eq_zero fun x hx => ?_
    obtain ⟨g, hg, rfl⟩ := List.mem_map.1 hx
    simp [pointD, Spec.linearOn, additive, ansatz2, e11_gauss2 g hg]
  refine ⟨by decide, by decide, h0, fun h => ?_⟩
  have h1 := h (by decide) ⟨fun _ => 1⟩ (fun _ _ => 0) 1 (fun _ _ => isUnit_one) (fun e he => ?_) 0 0
  · rw [h0] at h1
    simp at h1
  · rw [Matrix.one_mulVec]
    refine lt_of_le_of_ne (Finset.sum_nonneg fun i _ => mul_self_nonneg _) fun h => he ?_
    exact dotProduct_self_eq_zero.1 h.symm

/-! ### Examples -/

/-- A quadrilateral with the corners `(0, 0)`, `(2, 0)`, `(0, 1)`, `(1, 1)`. -/
def Spec.trapezoid : Geometry 2 := ⟨fun p => !![2 - p 1, 0; -p 0, 1]⟩

theorem trapezoid_unit : ∀ p ∈ Set.Icc 0 1, IsUnit (Spec.trapezoid.jacobianTransposed p) := by
  intro p hp
  rw [Matrix.isUnit_iff_isUnit_det, isUnit_iff_ne_zero]
  have : p 1 ≤ 1 := hp.2 1
  simp only [Spec.trapezoid, Matrix.det_fin_two_of]
  intro h
  linarith

/-- The element with `E5` on the trapezoid. -/
example (B : (Fin 2 → ℝ) → Fin 4 → Matrix (Fin 3) (Fin 2) ℝ) (u : NodeVec 4 2) (alpha : Fin 5 → ℝ) :
    IsUnit (calculateD (linearLaw !![2, 1, 0; 1, 2, 0; 0, 0, 1]) ((Spec.pairs (Spec.power Spec.gauss2 2)).map
      (Spec.linearOn Spec.trapezoid B (ansatz2 e5 Spec.trapezoid))) u alpha).det := by
  refine eas_default_rule_partial.1.2.1 (by decide) _ B _ trapezoid_unit (fun e he => ?_) u alpha
  have h : e ⬝ᵥ !![2, 1, 0; 1, 2, 0; 0, 0, 1] *ᵥ e = e 0 ^ 2 + e 1 ^ 2 + (e 0 + e 1) ^ 2 + e 2 ^ 2 := by
    simp [dotProduct, Matrix.mulVec, Fin.sum_univ_three]
    ring
  rw [h]
  have hne : e 0 ≠ 0 ∨ e 1 ≠ 0 ∨ e 2 ≠ 0 := by
    by_contra hc
    push Not at hc
    exact he (funext fun i => by fin_cases i <;> simp [hc])
  rcases hne with h | h | h <;> nlinarith [sq_nonneg (e 0), sq_nonneg (e 1), sq_nonneg (e 2), sq_nonneg (e 0 + e 1),
    pow_pos (abs_pos.2 h) 2, sq_abs (e 0), sq_abs (e 1), sq_abs (e 2)]

/-- The patch test on the trapezoid with two Gauss points per direction: with a constant stress at the points, the residual of
the internal variables vanishes. -/
example (law : Law 3) (B : (Fin 2 → ℝ) → Fin 4 → Matrix (Fin 3) (Fin 2) ℝ) (u : NodeVec 4 2) (alpha : Fin 7 → ℝ)
    (S : Fin 3 → ℝ) (h : ∀ g ∈ Spec.pairs (Spec.power Spec.gauss2 2),
      law.stress ((Spec.linearOn Spec.trapezoid B (ansatz2 e7 Spec.trapezoid) g).strain u alpha) = S) :
    calculateRtilde law ((Spec.pairs (Spec.power Spec.gauss2 2)).map
      (Spec.linearOn Spec.trapezoid B (ansatz2 e7 Spec.trapezoid))) u alpha = 0 := by
  refine (eas_patch.1 Spec.trapezoid).2.2.1 4 _ _ law u alpha S (exact_mono (gauss_exact 2).1.1 (by decide))
    ⟨fun _ _ => rfl, fun _ _ => rfl⟩ (fun g hg => ?_) (fun _ _ => rfl) h
  refine abs_ne_zero.2 (isUnit_iff_ne_zero.1 ((Matrix.isUnit_iff_isUnit_det _).1 (trapezoid_unit g.1 ?_)))
  have h : ∀ i, g.1 i ∈ Set.Icc (0 : ℝ) 1 := fun i => by
    obtain ⟨o, ho, h⟩ := power_position Spec.gauss2 2 g hg i
    rw [h]
    exact gauss2_unit o ho
  exact ⟨fun i => (h i).1, fun i => (h i).2⟩

/-- The mean values of the orthogonality theorems: the integral over the square itself. -/
example (r : Fin 3) (c : Fin 4) : (Spec.integral 2 1).val
    (fun p => Spec.trapezoid.integrationElement p * ansatz2 e4 Spec.trapezoid p r c) = 0 :=
  ((modes_orthogonal_plane Spec.trapezoid).1 (Spec.integral 2 1) (fun p hp =>
    abs_ne_zero.2 (isUnit_iff_ne_zero.1 ((Matrix.isUnit_iff_isUnit_det _).1 (trapezoid_unit p hp))))).1 r c

end Ikarus.Element.EAS
