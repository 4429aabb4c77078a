import Verif.Analysis.SmallSolidProps

/-!
C107: trusses under small loads.
-/

namespace Ikarus

open Ikarus.Element Ikarus.Element.Spec

variable {d : Nat}

/-! ### Specification -/

/-- The axis of a bar of length one. -/
noncomputable def Spec.barAxis (X1 X2 : Fin d → ℝ) : Fin d → ℝ := fun a => (X2 a - X1 a) / √(∑ a, (X2 a - X1 a) ^ 2)

/-- The elongation of a bar by small displacements of its ends. -/
noncomputable def Spec.elongation (X1 X2 : Fin d → ℝ) (u : NodeVec 2 d) : ℝ := ∑ a, Spec.barAxis X1 X2 a * (u 1 a - u 0 a)

/-- The spring stiffness of a bar. -/
noncomputable def Spec.barStiffness (E A : ℝ) (X1 X2 : Fin d → ℝ) : ℝ := E * A / √(∑ a, (X2 a - X1 a) ^ 2)

/-- The linear bar of the textbooks: a spring along the axis of the undeformed bar. -/
noncomputable def Spec.linearBar (E A : ℝ) (X1 X2 : Fin d → ℝ) : Skill 2 d where
  scalar u := some (1 / 2 * Spec.barStiffness E A X1 X2 * Spec.elongation X1 X2 u ^ 2)
  vector u f := some (f + fun I a => ![-1, 1] I * (Spec.barStiffness E A X1 X2 * Spec.elongation X1 X2 u * Spec.barAxis X1 X2 a))
  matrix _ K := some (K + fun I J => Matrix.of fun a b =>
    ![-1, 1] I * ![-1, 1] J * (Spec.barStiffness E A X1 X2 * (Spec.barAxis X1 X2 a * Spec.barAxis X1 X2 b)))

/-- A bar of a truss: its basis, stiffness, ends and the integration points of the volume load. -/
structure Spec.Bar (d : Nat) where
  children : List FETree
  index : List Nat
  E : ℝ
  A : ℝ
  X1 : Fin d → ℝ
  X2 : Fin d → ℝ
  volume : List (LoadPoint 2 d)

namespace Spec.Bar

variable (e : Spec.Bar d) (f : LoadFunction d)

/-- The element of the code. -/
noncomputable def nonlinear : ParamElem :=
  ⟨2, d, e.children, e.index, [fun _ => Skill.truss e.E e.A e.X1 e.X2, fun l => Skill.volumeLoad (some f) e.volume l]⟩

/-- The linear bar with the same load. -/
noncomputable def linear : ParamElem :=
  ⟨2, d, e.children, e.index, [fun _ => Spec.linearBar e.E e.A e.X1 e.X2, fun l => Skill.volumeLoad (some f) e.volume l]⟩

end Spec.Bar

/-- The truss is rigid: small displacements that keep the supports and do not lengthen any bar vanish. -/
def Spec.Rigid (flags : List Bool) (f : LoadFunction d) (es : List (Spec.Bar d)) : Prop :=
  ∀ v : List ℝ, v.length = flags.length → (∀ i : Nat, flags[i]? = some true → v[i]? = some 0) →
    (∀ e ∈ es, ∀ u, ((e.linear f).at 0).local? v = some u → Spec.elongation e.X1 e.X2 u = 0) → ∀ c ∈ v, c = 0

/-! ### The truss is smooth -/

theorem truss_is_point (E A : ℝ) (X1 X2 : Fin d → ℝ) : Skill.truss E A X1 X2 = Skill.nonLinearElastic (Truss.law E A) [Truss.point X1 X2] := by
  unfold Skill.truss Skill.nonLinearElastic
  congr 1
  · funext u
    rw [NonLinearElastic.calculateScalar_sum]
    simp [Truss.calculateScalar_eq]
  · funext u f
    rw [NonLinearElastic.calculateVector_sum, Truss.calculateVector_eq]
    simp
  · funext u K
    rw [NonLinearElastic.calculateMatrix_sum, Truss.calculateMatrix_eq]
    simp

theorem trussPoint_smooth (X1 X2 : Fin d → ℝ) (u0 : NodeVec 2 d) : Spec.SmoothPoint (Truss.point X1 X2) u0 where
  contract := Filter.Eventually.of_forall fun u => Truss.point_contract X1 X2 u
  strain := by
    refine (contDiff_pi.2 fun k => ?_).contDiffAt
    show ContDiff ℝ 1 fun u : NodeVec 2 d => 0.5 * ((∑ a, (X2 a + u 1 a - (X1 a + u 0 a)) * (X2 a + u 1 a - (X1 a + u 0 a))) -
      Truss.squaredNorm (X2 - X1)) / Truss.squaredNorm (X2 - X1)
    have h : ∀ a, ContDiff ℝ 1 fun u : NodeVec 2 d => X2 a + u 1 a - (X1 a + u 0 a) := fun a =>
      (contDiff_const.add (contDiff_apply_apply ℝ ℝ 1 a)).sub (contDiff_const.add (contDiff_apply_apply ℝ ℝ 0 a))
    exact (contDiff_const.mul ((ContDiff.sum fun a _ => (h a).mul (h a)).sub contDiff_const)).div_const _
  bop I k a := by
    have h : ContDiff ℝ 1 fun u : NodeVec 2 d => (X2 - X1) a + (u 1 a - u 0 a) :=
      contDiff_const.add ((contDiff_apply_apply ℝ ℝ 1 a).sub (contDiff_apply_apply ℝ ℝ 0 a))
    have h' : ContDiff ℝ 1 fun u : NodeVec 2 d => -(X2 - X1) a - (u 1 a - u 0 a) :=
      contDiff_const.sub ((contDiff_apply_apply ℝ ℝ 1 a).sub (contDiff_apply_apply ℝ ℝ 0 a))
    fin_cases I
    · exact (contDiff_const.mul h').contDiffAt
    · exact (contDiff_const.mul h).contDiffAt
  kg S I J a b := by
    show ContDiffAt ℝ 1 (fun r : NodeVec 2 d × (Fin 1 → ℝ) =>
      r.2 0 * ((Truss.squaredNorm (X2 - X1))⁻¹ • (if I = J then 1 else -1 : Matrix (Fin d) (Fin d) ℝ)) a b) (u0, S)
    exact (((contDiff_apply ℝ ℝ 0).comp contDiff_snd).mul contDiff_const).contDiffAt

/-- C107, elements. The truss is smooth at all displacements. -/
theorem truss_smooth (E A : ℝ) (X1 X2 : Fin d → ℝ) (l0 : ℝ) (u0 : NodeVec 2 d) :
    Spec.SmoothSkill (fun _ => Skill.truss E A X1 X2) l0 u0 := by
  rw [truss_is_point]
  refine nonLinearElastic_smooth (dom := Set.univ) (linearLaw_smooth _ ?_) _ l0 u0 (fun gp hgp => ?_) fun _ _ => trivial
  · ext i j; fin_cases i; fin_cases j; rfl
  · obtain rfl := List.mem_singleton.1 hgp
    exact trussPoint_smooth X1 X2 u0

/-! ### Linearisation -/

theorem squaredNorm_eq (X1 X2 : Fin d → ℝ) : Truss.squaredNorm (X2 - X1) = ∑ a, (X2 a - X1 a) ^ 2 := by
  unfold Truss.squaredNorm dotProduct
  exact Finset.sum_congr rfl fun a _ => by simp only [Pi.sub_apply]; ring

theorem truss_at_rest (X1 X2 : Fin d → ℝ) : (Truss.computeStrain X1 X2 0).Egl = 0 ∧
    ∀ I a, (Truss.computeStrain X1 X2 0).dEdu I a = ![-1, 1] I * ((X2 a - X1 a) / ∑ a, (X2 a - X1 a) ^ 2) := by
  constructor
  · rw [Truss.Egl_eq, Truss.axis_eq]
    simp
  · intro I a
    fin_cases I
    · show (Truss.computeStrain X1 X2 0).dEdu 0 a = _
      rw [Truss.dEdu_zero, Truss.axis_eq, squaredNorm_eq]
      simp [div_eq_inv_mul]
    · show (Truss.computeStrain X1 X2 0).dEdu 1 a = _
      rw [Truss.dEdu_one, Truss.axis_eq, squaredNorm_eq]
      simp [div_eq_inv_mul]

/-- C107, linearisation. The linear bar is the linearisation of the truss. -/
theorem truss_linearized (E A : ℝ) (X1 X2 : Fin d → ℝ) (h : X1 ≠ X2) :
    Spec.Linearized (fun _ => Skill.truss E A X1 X2) (fun _ => Spec.linearBar E A X1 X2) := by
  obtain ⟨h0, h1⟩ := truss_at_rest X1 X2
  have hpos : 0 < ∑ a, (X2 a - X1 a) ^ 2 := by
    obtain ⟨a, ha⟩ := Function.ne_iff.1 h
    exact Finset.sum_pos' (fun _ _ => sq_nonneg _) ⟨a, Finset.mem_univ a, by
      have : X2 a - X1 a ≠ 0 := sub_ne_zero.2 (Ne.symm ha)
      positivity⟩
  constructor
  · intro _ f
    show some _ = some (f + (E * A * (Truss.computeStrain X1 X2 0).Egl * (Truss.computeStrain X1 X2 0).L) • (Truss.computeStrain X1 X2 0).dEdu)
    rw [h0]
    congr 2
    funext I a
    simp [Spec.elongation]
  · intro K
    show some _ = some (K + (E * A * (Truss.computeStrain X1 X2 0).L) • fun I J => _)
    congr 2
    funext I J
    ext a b
    show _ = E * A * √(Truss.squaredNorm (X2 - X1)) * (Matrix.vecMulVec ((Truss.computeStrain X1 X2 0).dEdu I) ((Truss.computeStrain X1 X2 0).dEdu J) a b +
      (Truss.computeStrain X1 X2 0).Egl * (Truss.computeStrain X1 X2 0).ddEddu I J a b)
    rw [h0, zero_mul, add_zero, Matrix.vecMulVec_apply, h1, h1, squaredNorm_eq]
    simp only [Matrix.of_apply, Spec.barStiffness, Spec.barAxis]
    obtain ⟨L, hL⟩ : ∃ L, L = √(∑ a, (X2 a - X1 a) ^ 2) := ⟨_, rfl⟩
    have hL0 : 0 < L := by rw [hL]; exact Real.sqrt_pos.2 hpos
    have hLL : ∑ a, (X2 a - X1 a) ^ 2 = L * L := by rw [hL, Real.mul_self_sqrt hpos.le]
    rw [← hL, hLL]
    field_simp

/-- C107, linear bars. The linear bar is a linear skill. -/
theorem linearBar_linear {E A : ℝ} (hEA : 0 ≤ E * A) (X1 X2 : Fin d → ℝ) : Spec.LinearSkill fun _ => Spec.linearBar E A X1 X2 := by
  obtain ⟨k, hk⟩ : ∃ k, k = Spec.barStiffness E A X1 X2 := ⟨_, rfl⟩
  obtain ⟨t, ht⟩ : ∃ t, t = Spec.barAxis X1 X2 := ⟨_, rfl⟩
  have hk0 : 0 ≤ k := by rw [hk]; exact div_nonneg hEA (Real.sqrt_nonneg _)
  have hmul : ∀ (u : NodeVec 2 d) I a, Spec.mul (fun I J => Matrix.of fun a b => ![-1, 1] I * ![-1, 1] J * (k * (t a * t b))) u I a =
      ![-1, 1] I * (k * Spec.elongation X1 X2 u * t a) := by
    intro u I a
    simp only [Spec.mul, Fin.sum_univ_two, Matrix.of_apply, Spec.elongation, ← ht]
    rw [← Finset.sum_add_distrib, Finset.mul_sum, Finset.sum_mul, Finset.mul_sum]
    refine Finset.sum_congr rfl fun b _ => ?_
    simp
    ring
  have hwork : ∀ u v : NodeVec 2 d, Spec.work (Spec.mul (fun I J => Matrix.of fun a b => ![-1, 1] I * ![-1, 1] J * (k * (t a * t b))) u) v =
      k * Spec.elongation X1 X2 u * Spec.elongation X1 X2 v := by
    intro u v
    have hv : Spec.elongation X1 X2 v = ∑ a, t a * (v 1 a - v 0 a) := by rw [ht]; rfl
    simp only [Spec.work, hmul]
    rw [Fin.sum_univ_two, ← Finset.sum_add_distrib, hv, Finset.mul_sum]
    refine Finset.sum_congr rfl fun a _ => ?_
    simp
    ring
  refine ⟨fun _ => 0, fun _ => 0, fun I J => Matrix.of fun a b => ![-1, 1] I * ![-1, 1] J * (k * (t a * t b)), ?_, fun v => ?_, fun l u => ⟨?_, fun r => ?_, fun M => ?_⟩⟩
  · intro I J a b
    simp only [Matrix.of_apply]
    ring
  · rw [hwork, mul_assoc]
    exact mul_nonneg hk0 (mul_self_nonneg _)
  · show some (1 / 2 * Spec.barStiffness E A X1 X2 * Spec.elongation X1 X2 u ^ 2) = _
    rw [hwork, ← hk]
    congr 1
    simp [Spec.work]
    ring
  · show some (r + fun I a => ![-1, 1] I * (Spec.barStiffness E A X1 X2 * Spec.elongation X1 X2 u * Spec.barAxis X1 X2 a)) = _
    rw [← hk, ← ht, zero_add]
    congr 2
    funext I a
    exact (hmul u I a).symm
  · rw [hk, ht]
    rfl

/-! ### Trusses -/

theorem mem_two {α : Type*} {s x y : α} (h : s ∈ [x, y]) : s = x ∨ s = y := by simpa using h

theorem elongation_line (X1 X2 : Fin d → ℝ) (u v : NodeVec 2 d) (t : ℝ) :
    Spec.elongation X1 X2 (u + t • v) = Spec.elongation X1 X2 u + t * Spec.elongation X1 X2 v := by
  unfold Spec.elongation
  rw [Finset.mul_sum, ← Finset.sum_add_distrib]
  refine Finset.sum_congr rfl fun a _ => ?_
  simp only [Pi.add_apply, Pi.smul_apply, smul_eq_mul]
  ring

/-- C107, supports. The supports of a truss suffice if it is rigid and its bars have positive stiffness. -/
theorem rigid_supported {flags : List Bool} {f : LoadFunction d} (hf0 : ∀ x, f x 0 = 0) {es : List (Spec.Bar d)}
    (hfit : ∀ e ∈ es, Spec.ElemFits flags.length ((e.linear f).at 0)) (hEA : ∀ e ∈ es, 0 < e.E * e.A) (hX : ∀ e ∈ es, e.X1 ≠ e.X2)
    (hr : Spec.Rigid flags f es) : Spec.Supported flags (System.mk flags (es.map fun e => (e.linear f).at 0)).scalar? := by
  intro x v hx hv hvc hne
  have hloc : ∀ e : {e // e ∈ es}, ∃ g : List ℝ → NodeVec 2 d, (∀ x, x.length = flags.length → ((e.1.linear f).at 0).local? x = some (g x)) ∧
      ∀ x v t, x.length = v.length → g (Spec.line x v t) = g x + t • g v := by
    intro e
    obtain ⟨h1, h2, dofs, h3, h4⟩ := hfit e.1 e.2
    exact ⟨gathered 2 d dofs, fun x hx => (local_eq h1 h2 h3 h4 x hx).2.choose_spec.2.1, fun x v t h => gathered_line dofs x v t h⟩
  choose g hg hgl using hloc
  obtain ⟨k, hk⟩ : ∃ k : {e // e ∈ es} → ℝ, k = fun e => Spec.barStiffness e.1.E e.1.A e.1.X1 e.1.X2 := ⟨_, rfl⟩
  have hk0 : ∀ e, 0 < k e := by
    intro e
    rw [hk]
    refine div_pos (hEA e.1 e.2) (Real.sqrt_pos.2 ?_)
    obtain ⟨a, ha⟩ := Function.ne_iff.1 (hX e.1 e.2)
    exact Finset.sum_pos' (fun _ _ => sq_nonneg _) ⟨a, Finset.mem_univ a, by
      have : e.1.X2 a - e.1.X1 a ≠ 0 := sub_ne_zero.2 (Ne.symm ha)
      positivity⟩
  obtain ⟨el, hel⟩ : ∃ el : {e // e ∈ es} → List ℝ → ℝ, el = fun e x => Spec.elongation e.1.X1 e.1.X2 (g e x) := ⟨_, rfl⟩
  have hen : ∀ y : List ℝ, y.length = flags.length → (System.mk flags (es.map fun e => (e.linear f).at 0)).scalar? y =
      some ((es.attach.map fun e => 1 / 2 * k e * el e y ^ 2).sum) := by
    intro y hy
    unfold System.scalar?
    show (mapOpt (fun e : Elem => e.scalar? y) (es.map fun e => (e.linear f).at 0)).map _ = _
    have : es.map (fun e => (e.linear f).at 0) = es.attach.map fun e => (e.1.linear f).at 0 := by simp
    rw [this, mapOpt_map _ _ (fun e => 1 / 2 * k e * el e y ^ 2) es.attach fun e _ => ?_]
    · simp [Assembler.getScalar, Assembler.getScalarLoop_eq]
    · show (((e.1.linear f).at 0).local? y).bind (fun u => Mixin.calculateScalar u ((e.1.linear f).at 0).skills) = _
      refine (congrArg (fun o => Option.bind o fun u => Mixin.calculateScalar u ((e.1.linear f).at 0).skills) (hg e y hy)).trans ?_
      show Mixin.calculateScalar (g e y) [Spec.linearBar e.1.E e.1.A e.1.X1 e.1.X2, Skill.volumeLoad (some f) e.1.volume 0] = _
      simp only [Mixin.calculateScalar, (volumeLoad_vanishes hf0 e.1.volume (g e y) 0).1]
      simp [Spec.linearBar, hk, hel]
  have hlen : ∀ t, (Spec.line x v t).length = flags.length := fun t => by simp [Spec.line, hx, hv]
  refine ⟨_, _, _, hen _ (hlen 1), hen _ (hlen (-1)), hen _ hx, ?_⟩
  have hlin : ∀ e t, el e (Spec.line x v t) = el e x + t * el e v := by
    intro e t
    rw [hel]
    show Spec.elongation _ _ (g e (Spec.line x v t)) = _
    rw [hgl e x v t (hx.trans hv.symm), elongation_line]
  have hdiff : (es.attach.map fun e => 1 / 2 * k e * el e (Spec.line x v 1) ^ 2).sum + (es.attach.map fun e => 1 / 2 * k e * el e (Spec.line x v (-1)) ^ 2).sum =
      2 * (es.attach.map fun e => 1 / 2 * k e * el e x ^ 2).sum + (es.attach.map fun e => k e * el e v ^ 2).sum := by
    simp only [hlin]
    generalize es.attach = L
    induction L with
    | nil => simp
    | cons e L ih =>
      simp only [List.map_cons, List.sum_cons]
      linear_combination ih
  rw [hdiff]
  have hpos : 0 < (es.attach.map fun e => k e * el e v ^ 2).sum := by
    by_contra hle
    obtain ⟨c, hc, hc0⟩ := hne
    refine hc0 (hr v hv hvc (fun e he u hu => ?_) c hc)
    obtain rfl : u = g ⟨e, he⟩ v := Option.some.inj (hu.symm.trans (hg ⟨e, he⟩ v hv))
    have hnn : ∀ z ∈ es.attach.map fun e => k e * el e v ^ 2, 0 ≤ z := by
      intro z hz
      obtain ⟨e', -, rfl⟩ := List.mem_map.1 hz
      exact mul_nonneg (hk0 e').le (sq_nonneg _)
    have h1 := List.single_le_sum hnn _ (List.mem_map_of_mem (f := fun e => k e * el e v ^ 2) (List.mem_attach es ⟨e, he⟩))
    have h2 : k ⟨e, he⟩ * el ⟨e, he⟩ v ^ 2 = 0 := le_antisymm (h1.trans (not_lt.1 hle)) (mul_nonneg (hk0 _).le (sq_nonneg _))
    have h3 : el ⟨e, he⟩ v = 0 := by
      rcases mul_eq_zero.1 h2 with h | h
      · exact absurd h (hk0 _).ne'
      · exact pow_eq_zero_iff (two_ne_zero) |>.1 h
    rw [hel] at h3
    exact h3
  linarith

variable {a b : Analysis} {û : Nat → ℝ}

/-- C107. Trusses under small loads: let `a` be a structure of trusses, and `b` the structure of linear bars with the same ends,
supports and loads, which grow at a bounded rate from zero.  If the truss is rigid, there is a range of load factors in which
load control of `a` succeeds with any number of load steps, and shows the displacements of `b` up to an error of second order in
the load factor and multiples of the tolerances. -/
theorem small_trusses {f : LoadFunction d} (hf : Spec.SmoothLoad f 0) (hf0 : ∀ x, f x 0 = 0) (es : List (Spec.Bar d))
    (hEA : ∀ e ∈ es, 0 < e.E * e.A) (hX : ∀ e ∈ es, e.X1 ≠ e.X2)
    (hp : Spec.Proper a û) (hbd : a.bound = none ∨ ∀ i < a.dv.flags.length, û i = 0) (hlin : Spec.ExactSolver a.linSolve)
    (ha : a.elems = es.map fun e => e.nonlinear f) (hb : b.elems = es.map fun e => e.linear f)
    (hdv : b.dv.flags = a.dv.flags) (hr : Spec.Rigid a.dv.flags f es) :
    ∃ eta tol0 beta C M : ℝ, 0 < eta ∧ 0 < tol0 ∧ 0 ≤ beta ∧ 0 ≤ C ∧ 0 ≤ M ∧
      ∀ s : NRSettings ℝ, 0 < s.tol → s.tol ≤ tol0 → ∃ m : Nat, s.minIter ≤ m → (m : Int) < s.maxIter →
      ∀ n : Nat, 0 < n → ∀ l : ℝ, l ≠ 0 → |l| ≤ eta →
      ∃ (r : LCState ℝ (Option (List ℝ)) ℝ (Option (List ℝ))) (us : Nat → List ℝ),
        { a with settings := s }.loadControl? n 0 l ⟨0, some (Spec.rest a)⟩ = some r ∧ r.info.success = true ∧
        Spec.shown r = (List.range (n + 1)).map (fun k : Nat => ⟨k * (l / n), some (us k)⟩) ∧
        ∀ k ≤ n, ∃ info, r.info.solverInfos[k]? = some info ∧ info.success = true ∧ info.iterations ≤ m ∧
          ∀ tol, 0 ≤ tol → ∀ y, Spec.InEquilibrium b.dv.flags (b.system (k * (l / n))).scalar? û (k * (l / n)) tol y →
            Spec.distance (us k) y ≤ C * (k * (l / n)) ^ 2 + 2 * beta * s.tol + M * |l / n| + beta * tol ∧
            (k = 0 ∨ 0 < info.iterations ∨ (∀ i < a.dv.flags.length, û i = 0) →
              Spec.distance (us k) y ≤ C * (k * (l / n)) ^ 2 + 2 * beta * s.tol + beta * tol) := by
  have hfit : ∀ e ∈ es, ∀ l, Spec.ElemFits a.dv.flags.length ((e.nonlinear f).at l) := fun e he l =>
    (hp.elems _ (by rw [ha]; exact List.mem_map_of_mem he) l).1
  have hsm : Spec.SmoothElems a 0 (Spec.rest a) := by
    intro e' he'
    rw [ha] at he'
    obtain ⟨e, he, rfl⟩ := List.mem_map.1 he'
    refine ⟨hfit e he 0, fun u _ s hs => ?_⟩
    rcases mem_two hs with rfl | rfl
    · exact truss_smooth _ _ _ _ 0 u
    · exact volumeLoad_smooth f hf e.volume u
  have hbal := rest_balanced hsm fun e' he' s hs g => by
    rw [ha] at he'
    obtain ⟨e, he, rfl⟩ := List.mem_map.1 he'
    rcases mem_two hs with rfl | rfl
    · refine ((truss_linearized _ _ _ _ (hX e he)).1 0 g).symm.trans ?_
      show some (g + _) = some g
      congr 1
      funext I a
      simp [Spec.elongation]
      exact add_zero _
    · exact (volumeLoad_vanishes hf0 e.volume 0 g).2
  have hbl : Spec.LinearElems b.dv.flags.length b.elems := by
    intro e' he'
    rw [hb] at he'
    obtain ⟨e, he, rfl⟩ := List.mem_map.1 he'
    rw [hdv]
    refine ⟨hfit e he 0, fun s hs => ?_⟩
    rcases mem_two hs with rfl | rfl
    · exact linearBar_linear (hEA e he).le _ _
    · exact volumeLoad_linear (some f) e.volume
  have hsame : Spec.SameAtRest a b := by
    refine sameAtRest hdv (fun e he => (hp.elems e he 0).1) ?_
    rw [ha, hb, List.forall₂_map_left_iff, List.forall₂_map_right_iff]
    exact List.forall₂_same.2 fun e he => ⟨_, rfl, .cons (truss_linearized _ _ _ _ (hX e he)) (.cons (.refl _) .nil)⟩
  refine Analysis.small_loads hp hbd hlin hsm hbal hbl hsame ?_
  have h1 := rigid_supported hf0 (fun e he => hfit e he 0) hEA hX hr
  have h2 : b.system 0 = System.mk a.dv.flags (es.map fun e => (e.linear f).at 0) := by
    show System.mk b.dv.flags (b.elems.map fun e => e.at 0) = _
    rw [hb, hdv, List.map_map]
    rfl
  rw [h2, hdv]
  exact h1

/-! ### Two bars -/

/-- Bars from (-1, 0) and (1, 0) to (0, 1) with unit stiffness, loaded at the middle. -/
noncomputable def exampleBars : List (Spec.Bar 2) :=
  [⟨[.leaf [0, 1], .leaf [2, 3]], [0, 2, 1, 3], 1, 1, ![-1, 0], ![0, 1], [⟨![-1 / 2, 1 / 2], √2, 1, ![1 / 2, 1 / 2]⟩]⟩,
   ⟨[.leaf [0, 1], .leaf [2, 3]], [2, 4, 3, 5], 1, 1, ![0, 1], ![1, 0], [⟨![1 / 2, 1 / 2], √2, 1, ![1 / 2, 1 / 2]⟩]⟩]

/-- The lower ends are fixed. -/
def exampleBarFlags : List Bool := [true, true, false, false, true, true]

/-- The structure under its own weight. -/
noncomputable def exampleBarAnalysis (option : DBCOption) : Analysis where
  dv := ⟨exampleBarFlags, 0, [], fun _ => true⟩
  alive := fun _ => true
  elems := exampleBars.map fun e => e.nonlinear exampleWeight
  option := option
  bound := none
  linSolve := Spec.inverseSolve
  settings := { tol := 1 / 1000, minIter := 0, maxIter := 20 }
  withForce := true

theorem exampleBars_fits (e : Spec.Bar 2) (he : e ∈ exampleBars) (l : ℝ) :
    Spec.ElemFits 6 ((e.nonlinear exampleWeight).at l) := by
  rcases mem_two he with rfl | rfl
  · refine ⟨rfl, rfl, [0, 1, 2, 3], ?_, by simp⟩
    simp [Elem.dofs?, ParamElem.at, Spec.Bar.nonlinear, FETree.globalIndices, FETree.firstIsLeaf, FETree.powerNodeIndices,
      FETree.leafSize?, FETree.childIndex?, FETree.leafIndex?, mapOpt, List.range, List.range.loop]
  · refine ⟨rfl, rfl, [2, 3, 4, 5], ?_, by simp⟩
    simp [Elem.dofs?, ParamElem.at, Spec.Bar.nonlinear, FETree.globalIndices, FETree.firstIsLeaf, FETree.powerNodeIndices,
      FETree.leafSize?, FETree.childIndex?, FETree.leafIndex?, mapOpt, List.range, List.range.loop]

theorem exampleBars_proper (o : DBCOption) (ho : o ≠ .raw) : Spec.Proper (exampleBarAnalysis o) 0 := by
  have hel : ∀ e ∈ (exampleBarAnalysis o).elems, ∀ l, Spec.ElemFits (exampleBarAnalysis o).dv.flags.length (e.at l) ∧
      ∀ s ∈ e.skills, Spec.TotalSkill (s l) := by
    intro e' he' l
    obtain ⟨e, he, rfl⟩ := List.mem_map.1 he'
    refine ⟨exampleBars_fits e he l, fun s hs => ?_⟩
    rcases mem_two hs with rfl | rfl
    · exact (truss_skill _ _ _ _ 0).2
    · exact linear_total (volumeLoad_linear _ _) l
  refine ⟨ho, hel, ⟨fun l i _ => ?_, fun i _ => ?_, fun i hi hne => absurd rfl hne⟩, Or.inl rfl, fun _ _ => rfl,
    fun _ h => absurd h (by simp [exampleBarAnalysis]), fun l x hx A hA => ?_⟩
  · simp [Spec.prescribed, Spec.total, exampleBarAnalysis]
  · simp [Spec.total, exampleBarAnalysis]
  · obtain ⟨E, r, K, -, -, -, hK, -⟩ := total_system ((exampleBarAnalysis o).system l) (fun e he => by
      obtain ⟨e', he', rfl⟩ := List.mem_map.1 he
      refine ⟨(hel e' he' l).1, fun sk hsk => ?_⟩
      obtain ⟨s, hs, rfl⟩ := List.mem_map.1 hsk
      exact (hel e' he' l).2 s hs) hx
    exact inverseSolve_answers (exampleBarAnalysis o) l x ho K hK A hA

theorem exampleBars_rigid : Spec.Rigid exampleBarFlags exampleWeight exampleBars := by
  intro v hv hvc h c hc
  obtain ⟨v0, v1, v2, v3, v4, v5, rfl⟩ : ∃ v0 v1 v2 v3 v4 v5, v = [v0, v1, v2, v3, v4, v5] := by
    match v, hv with
    | [v0, v1, v2, v3, v4, v5], _ => exact ⟨_, _, _, _, _, _, rfl⟩
  have e0 : v0 = 0 := by simpa using hvc 0 rfl
  have e1 : v1 = 0 := by simpa using hvc 1 rfl
  have e4 : v4 = 0 := by simpa using hvc 4 rfl
  have e5 : v5 = 0 := by simpa using hvc 5 rfl
  subst e0 e1 e4 e5
  have hs : (√2 : ℝ) ≠ 0 := by positivity
  have h1 := h _ (List.mem_cons_self ..) (![![0, 0], ![v2, v3]] : NodeVec 2 2) (by
    have : FETree.localSolution 2 [0, 0, v2, v3, 0, 0] [0, 2, 1, 3] (.power [.leaf [0, 1], .leaf [2, 3]]) none =
      some [[0, 0], [v2, v3]] := rfl
    show (FETree.localSolution 2 [0, 0, v2, v3, 0, 0] [0, 2, 1, 3] (.power [.leaf [0, 1], .leaf [2, 3]]) none).map Elem.nodes = _
    rw [this, Option.map_some]
    congr 1
    funext I a
    fin_cases I <;> fin_cases a <;> rfl)
  have h2 := h _ (List.mem_cons_of_mem _ (List.mem_cons_self ..)) (![![v2, v3], ![0, 0]] : NodeVec 2 2) (by
    have : FETree.localSolution 2 [0, 0, v2, v3, 0, 0] [2, 4, 3, 5] (.power [.leaf [0, 1], .leaf [2, 3]]) none =
      some [[v2, v3], [0, 0]] := rfl
    show (FETree.localSolution 2 [0, 0, v2, v3, 0, 0] [2, 4, 3, 5] (.power [.leaf [0, 1], .leaf [2, 3]]) none).map Elem.nodes = _
    rw [this, Option.map_some]
    congr 1
    funext I a
    fin_cases I <;> fin_cases a <;> rfl)
  norm_num [Spec.elongation, Spec.barAxis, Fin.sum_univ_two] at h1 h2
  field_simp at h1 h2
  have e2 : v2 = 0 := by linarith
  have e3 : v3 = 0 := by linarith
  subst e2 e3
  simpa using hc

/-- Two bars under their own weight. -/
example (o : DBCOption) (ho : o ≠ .raw) := small_trusses (a := exampleBarAnalysis o)
  (b := { exampleBarAnalysis o with elems := exampleBars.map fun e => e.linear exampleWeight })
  exampleWeight_smooth (fun _ => by simp [exampleWeight]) exampleBars
  (fun e he => by rcases mem_two he with rfl | rfl <;> norm_num)
  (fun e he => by
    rcases mem_two he with rfl | rfl
    · intro h; simpa using congrFun h 0
    · intro h; simpa using congrFun h 0)
  (exampleBars_proper o ho) (Or.inl rfl) inverseSolve_exactSolver rfl rfl rfl exampleBars_rigid

end Ikarus
