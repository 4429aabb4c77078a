import Verif.Analysis.TurnLinearProps
import Verif.Analysis.SmallSolidProps
import Verif.Analysis.TrussPathProps

/-!
C114, load control of structures of any kind: the analysis of the turned structure makes the same iterations and shows the turned
displacements.
-/

namespace Ikarus

open Matrix Element Element.Spec Assembler

variable {k d : Nat} {Q : Matrix (Fin d) (Fin d) ℝ}

/-! ### Specification -/

/-- At turned displacements, residual and stiffness are turned. -/
def Spec.TurnedSystems {size : Nat} (L : Spec.Layout k d size) (Q : Matrix (Fin d) (Fin d) ℝ) (A B : System) : Prop :=
  ∀ x x', Spec.TurnedList L Q x x' → ∃ r r' K K', A.rawVector? x = some r ∧ B.rawVector? x' = some r' ∧
    A.rawMatrix? x = some K ∧ B.rawMatrix? x' = some K' ∧ Spec.TurnedList L Q r r' ∧ Spec.TurnedMatrix L Q K K'

/-- The stiffness matrix at this state is regular on the free dofs. -/
def Spec.RegularHere (a : Analysis) (x : Dom ℝ (Option (List ℝ))) : Prop :=
  ∀ u K, x.x = some u → u.length = a.dv.flags.length → (a.system x.lam).rawMatrix? u = some K → Spec.RegularStiffness a.dv.flags K

/-- All matrices that the solver factorizes in the `k`-th solve of load control are regular. -/
def Spec.RegularSolve (a : Analysis) (step : ℝ) (x0 : Dom ℝ (Option (List ℝ))) (k : Nat) : Prop :=
  ∀ j : Nat, (j : Int) < (Spec.loadInfo a.solver step none x0 k).iterations →
    Spec.RegularHere a (Spec.newtonIterates a.problem (Spec.loadBefore a.solver step none x0 k) (if k = 0 then 0 else step) j).1

/-- The two solves ended alike. -/
def Spec.SameInfo (i i' : SolverInfo ℝ) : Prop :=
  i'.success = i.success ∧ i'.iterations = i.iterations ∧ i'.residualNorm = i.residualNorm

/-- The states have the same load factor, and the displacements of the second are those of the first, turned. -/
def Spec.TurnedState {size : Nat} (L : Spec.Layout k d size) (Q : Matrix (Fin d) (Fin d) ℝ) (x x' : Dom ℝ (Option (List ℝ))) : Prop :=
  x'.lam = x.lam ∧ ∃ u u', x.x = some u ∧ x'.x = some u' ∧ Spec.TurnedList L Q u u'

/-! ### Lemmas -/

namespace Analysis

variable {a b : Analysis} {û û' : Nat → ℝ}

theorem solves_of_regular (hopt : a.option ≠ .raw) (hlin : Spec.ExactSolver a.linSolve) {l : ℝ} {u : List ℝ} {K : DMat ℝ}
    (hK : (a.system l).rawMatrix? u = some K) (hreg : Spec.RegularStiffness a.dv.flags K) (A : DMat ℝ)
    (hA : a.jacobian? ⟨l, some u⟩ = some A) : Spec.SolvesExactly a.linSolve A := by
  have h := inverseSolve_regular a hopt l u K hK (fun c hc hf i hi => ?_) A hA
  · refine hlin A ?_ fun b hb => ⟨_, (h b hb).1, (h b hb).2⟩
    exact (listOf_length _ _).symm.trans (h (List.replicate A.rows 0) List.length_replicate).1
  · have h1 := hreg (listOf a.dv.flags.length c) (listOf_length _ _) (fun j hj => ?_) (fun j hj => ?_) i hi
    · rwa [listOf_getD _ _ hi] at h1
    · have hlt : j < a.dv.flags.length := (List.getElem?_eq_some_iff.1 hj).1
      rw [getElem?_eq_getD (by rw [listOf_length]; exact hlt), listOf_getD _ _ hlt, hc j hlt ((not_free_iff hlt).2 hj)]
    · rw [times_eq K (listOf_length _ _)]
      refine Eq.trans ?_ (hf j hj)
      exact Finset.sum_congr rfl fun k hk => by rw [listOf_getD _ _ (Finset.mem_range.1 hk)]

theorem step_exact (hp : Spec.Proper a û) {l : ℝ} {u R : List ℝ} {K : DMat ℝ} (hu : u.length = a.dv.flags.length)
    (hK : (a.system l).rawMatrix? u = some K) (hls : ∀ A, a.jacobian? ⟨l, some u⟩ = some A → Spec.SolvesExactly a.linSolve A)
    (hR : R.length = a.dv.flags.length) :
    ∃ y D : List ℝ, Spec.newtonStep a.problem ⟨l, some u⟩ (some (view a.option a.dv.flags R)) = ⟨l, some y⟩ ∧
      y.length = a.dv.flags.length ∧ D.length = a.dv.flags.length ∧ Spec.Correction a.dv.flags K R D ∧
      ∀ i < a.dv.flags.length, y.getD i 0 = synced û l i (u.getD i 0 + D.getD i 0) := by
  obtain ⟨y, h1, h2, v, h3, h4, h5⟩ := a.correction_view hp.option hu hR hK hls
  have h1 : a.problem.update ⟨l, some u⟩ (a.problem.linSolve (a.problem.jacobian ⟨l, some u⟩)
      (some (view a.option a.dv.flags R))) = ⟨l, some y⟩ := h1
  have hc : Spec.Correction a.dv.flags K R (listOf a.dv.flags.length v) := by
    refine ⟨fun i hi hf => by rw [listOf_getD _ _ hi, h3 i hi hf], fun i hi => ?_⟩
    have e : ∑ j ∈ Finset.range a.dv.flags.length, K.val i j * (listOf a.dv.flags.length v).getD j 0 = -R.getD i 0 := by
      rw [← h5 i hi]
      exact Finset.sum_congr rfl fun j hj => by rw [listOf_getD _ _ (Finset.mem_range.1 hj)]
    rw [e, neg_add_cancel]
  unfold Spec.newtonStep
  by_cases hf : a.withForce = true
  · have hi : a.problem.idbc = some ⟨a.addForce, a.sync⟩ := by simp [problem, hf]
    obtain ⟨z, h6, h7, h8⟩ := proper_sync hp l h2
    refine ⟨z, _, ?_, h7, listOf_length _ _, hc, fun i hi => by rw [h8 i hi, h4 i hi, listOf_getD _ _ hi]⟩
    rw [hi]
    show a.sync (a.problem.update _ _) = _
    rw [h1, h6]
  · have hi : a.problem.idbc = none := by simp [problem, hf]
    refine ⟨y, _, ?_, h2, listOf_length _ _, hc, fun i hi => ?_⟩
    · rw [hi]; exact h1
    · rw [h4 i hi, listOf_getD _ _ hi]
      unfold synced
      rw [(hp.force.resolve_left hf) i hi, mul_zero, if_neg (by simp)]

end Analysis

variable {flags : List Bool} {L : Spec.Layout k d flags.length}

theorem correction_unique {K : DMat ℝ} (hreg : Spec.RegularStiffness flags K) {r D D' : List ℝ} (hl : D.length = flags.length)
    (hl' : D'.length = flags.length) (h : Spec.Correction flags K r D) (h' : Spec.Correction flags K r D') : D = D' := by
  have h0 := hreg (diff flags.length D D') (diff_length _ _ _) (fun i hi => ?_) fun i hi => ?_
  · refine List.ext_getElem? fun i => ?_
    by_cases hi : i < flags.length
    · have := h0 i hi
      rw [Analysis.diff_getD _ _ _ hi] at this
      rw [getElem?_eq_getD (hl ▸ hi), getElem?_eq_getD (hl' ▸ hi), sub_eq_zero.1 this]
    · rw [List.getElem?_eq_none (by omega), List.getElem?_eq_none (by omega)]
  · have hlt : i < flags.length := (List.getElem?_eq_some_iff.1 hi).1
    rw [getElem?_eq_getD (by rw [diff_length]; exact hlt), Analysis.diff_getD _ _ _ hlt, h.1 i hlt ((not_free_iff hlt).2 hi),
      h'.1 i hlt ((not_free_iff hlt).2 hi), sub_self]
  · rw [Analysis.times_eq K (diff_length _ _ _)]
    have e : ∑ j ∈ Finset.range flags.length, K.val i j * (diff flags.length D D').getD j 0 =
        ∑ j ∈ Finset.range flags.length, K.val i j * D.getD j 0 - ∑ j ∈ Finset.range flags.length, K.val i j * D'.getD j 0 := by
      rw [← Finset.sum_sub_distrib]
      exact Finset.sum_congr rfl fun j hj => by rw [Analysis.diff_getD _ _ _ (Finset.mem_range.1 hj), mul_sub]
    rw [e]
    linarith [h.2 i hi, h'.2 i hi]

theorem regular_turn (hQ : Qᵀ * Q = 1) (hf : Spec.Unmixed flags L Q) {K K' : DMat ℝ} (hK : Spec.TurnedMatrix L Q K K')
    (hreg : Spec.RegularStiffness flags K) : Spec.RegularStiffness flags K' := by
  intro v hv hs hz
  obtain ⟨D, hD⟩ := turned_from (L := L) hQ hv
  have hc' : Spec.Correction flags K' (List.replicate flags.length 0) v := by
    refine ⟨fun i hi hfr => ?_, fun i hi => ?_⟩
    · rw [List.getD_eq_getElem?_getD, hs i ((not_free_iff hi).1 hfr), Option.getD_some]
    · have := hz i hi
      rw [Analysis.times_eq K' hv] at this
      rw [this, List.getD_eq_getElem?_getD, List.getElem?_replicate]
      split <;> simp
  have hc := (correction_turn L hQ hf hK (turned_zero L) hD).1 hc'
  have h0 : Spec.Correction flags K (List.replicate flags.length 0) (List.replicate flags.length 0) := by
    have e : ∀ i, (List.replicate flags.length (0 : ℝ)).getD i 0 = 0 := fun i => by
      rw [List.getD_eq_getElem?_getD, List.getElem?_replicate]
      split <;> rfl
    exact ⟨fun i _ _ => e i, fun i _ => by simp only [e, mul_zero, Finset.sum_const_zero, add_zero]⟩
  obtain rfl := correction_unique hreg hD.length List.length_replicate hc h0
  intro i hi
  obtain ⟨p, c, rfl⟩ := L.all i hi
  rw [hD.value]
  refine Finset.sum_eq_zero fun b _ => ?_
  rw [List.getD_eq_getElem?_getD, List.getElem?_replicate]
  split <;> simp

theorem turned_sum {x x' y y' z z' : List ℝ} (hx : Spec.TurnedList L Q x x') (hy : Spec.TurnedList L Q y y')
    (hl : z.length = flags.length) (hl' : z'.length = flags.length) (s : ℝ)
    (h : ∀ i < flags.length, z.getD i 0 = x.getD i 0 + s * y.getD i 0)
    (h' : ∀ i < flags.length, z'.getD i 0 = x'.getD i 0 + s * y'.getD i 0) : Spec.TurnedList L Q z z' where
  length := hl
  length' := hl'
  value p a := by
    rw [h' _ (L.bound p a), hx.value, hy.value, Finset.mul_sum, ← Finset.sum_add_distrib]
    refine Finset.sum_congr rfl fun b _ => ?_
    rw [h _ (L.bound p b)]
    ring

/-- The supported dofs have the displacements prescribed for load factor `m`. -/
def Held (flags : List Bool) (û : Nat → ℝ) (m : ℝ) (x : List ℝ) : Prop :=
  ∀ i < flags.length, ¬ Spec.Free flags i → x.getD i 0 = m * û i

theorem held_turn (hf : Spec.Unmixed flags L Q) {û û' : Nat → ℝ} (hû : Spec.TurnedSupports L Q û û') {m : ℝ} {x x' : List ℝ}
    (hx : Spec.TurnedList L Q x x') (h : Held flags û m x) : Held flags û' m x' := by
  intro i hi hn
  have := onSupports_turn hf hû hx (l := m) (fun j hj => by
    have hlt : j < flags.length := (List.getElem?_eq_some_iff.1 hj).1
    rw [getElem?_eq_getD (by rw [hx.length]; exact hlt), h j hlt ((not_free_iff hlt).2 hj)]) i ((not_free_iff hi).1 hn)
  rw [List.getD_eq_getElem?_getD, this, Option.getD_some]

theorem supports_zero {û û' : Nat → ℝ} (hû : Spec.TurnedSupports L Q û û') (h : ∀ i < flags.length, û i = 0) :
    ∀ i < flags.length, û' i = 0 := by
  intro i hi
  obtain ⟨p, c, rfl⟩ := L.all i hi
  rw [hû]
  exact Finset.sum_eq_zero fun b _ => by rw [h _ (L.bound p b), mul_zero]

/-- What synchronising does to a state that is held at load factor `m`. -/
theorem synced_held {û : Nat → ℝ} {m l : ℝ} (hz : l ≠ 0 ∨ m = l ∨ ∀ i < flags.length, û i = 0) {x y : List ℝ}
    (hx : Held flags û m x) (hfree : ∀ i, Spec.Free flags i → û i = 0)
    (hy : ∀ i < flags.length, y.getD i 0 = Analysis.synced û l i (x.getD i 0)) :
    Held flags û l y ∧ ∀ i, Spec.Free flags i → y.getD i 0 = x.getD i 0 := by
  refine ⟨fun i hi hn => ?_, fun i hf => ?_⟩
  · rw [hy i hi, hx i hi hn]
    unfold Analysis.synced
    split
    · rfl
    · rename_i h0
      push Not at h0
      rw [h0]
      rcases hz with hz | hz | hz
      · rw [(mul_eq_zero.1 h0).resolve_left hz, mul_zero]
      · rw [hz, h0]
      · rw [hz i hi, mul_zero]
  · rw [hy i (free_lt hf)]
    unfold Analysis.synced
    rw [hfree i hf, mul_zero, if_neg (by simp)]

/-- States that are turned at the free dofs and held. -/
theorem turned_of_held (hf : Spec.Unmixed flags L Q) {û û' : Nat → ℝ} (hû : Spec.TurnedSupports L Q û û') {l : ℝ}
    {x x' y y' : List ℝ} (hx : Spec.TurnedList L Q x x') (hl : y.length = flags.length) (hl' : y'.length = flags.length)
    (hy : Held flags û l y) (hy' : Held flags û' l y') (he : ∀ i, Spec.Free flags i → y.getD i 0 = x.getD i 0)
    (he' : ∀ i, Spec.Free flags i → y'.getD i 0 = x'.getD i 0) : Spec.TurnedList L Q y y' where
  length := hl
  length' := hl'
  value p a := by
    by_cases hfr : Spec.Free flags (L.dof p a)
    · rw [he' _ hfr, hx.value]
      refine Finset.sum_congr rfl fun b _ => ?_
      by_cases hq : Q a b = 0
      · rw [hq, zero_mul, zero_mul]
      rw [he _ ((hf p a b hq).1 hfr)]
    · rw [hy' _ (L.bound p a) hfr, hû, Finset.mul_sum]
      refine Finset.sum_congr rfl fun b _ => ?_
      by_cases hq : Q a b = 0
      · rw [hq, zero_mul, zero_mul, mul_zero]
      rw [hy _ (L.bound p b) fun h => hfr ((hf p a b hq).2 h)]
      ring

/-! ### Newton's method -/

/-- What the two analyses have in common. -/
structure Spec.TurnedAnalyses (a b : Analysis) (û û' : Nat → ℝ) (L : Spec.Layout k d a.dv.flags.length) (Q : Matrix (Fin d) (Fin d) ℝ) :
    Prop where
  proper : Spec.Proper a û
  proper' : Spec.Proper b û'
  flags : b.dv.flags = a.dv.flags
  settings : b.settings = a.settings
  bound : a.bound = none ∨ ∀ i < a.dv.flags.length, û i = 0
  bound' : b.bound = none ∨ ∀ i < a.dv.flags.length, û i = 0
  solver : Spec.ExactSolver a.linSolve
  solver' : Spec.ExactSolver b.linSolve
  orth : Qᵀ * Q = 1
  unmixed : Spec.Unmixed a.dv.flags L Q
  supports : Spec.TurnedSupports L Q û û'
  systems : ∀ l, Spec.TurnedSystems L Q (a.system l) (b.system l)

namespace Analysis

variable {a b : Analysis} {û û' : Nat → ℝ} {L : Spec.Layout k d a.dv.flags.length}

theorem first_turn (h : Spec.TurnedAnalyses a b û û' L Q) (l s : ℝ) {x x' : List ℝ} (hx : Spec.TurnedList L Q x x') :
    ∃ R R' : List ℝ, Spec.firstResidual a.problem ⟨l, some x⟩ s = some (view a.option a.dv.flags R) ∧
      Spec.firstResidual b.problem ⟨l, some x'⟩ s = some (view b.option a.dv.flags R') ∧ Spec.TurnedList L Q R R' := by
  obtain ⟨R, r, K, h1, h2, h3, h4, h5, h6⟩ := first_newton h.proper h.bound l s hx.length
  obtain ⟨R', r', K', g1, g2, g3, g4, g5, g6⟩ := first_newton h.proper' (h.bound'.imp id fun hz => by
    rw [h.flags]
    exact supports_zero h.supports hz) l s (h.flags ▸ hx.length')
  rw [h.flags] at g1 g2 g4 g6
  obtain ⟨r1, r1', K1, K1', e1, e2, e3, e4, hr, hK⟩ := h.systems l x x' hx
  obtain rfl := Option.some.inj (h3.symm.trans e1)
  obtain rfl := Option.some.inj (g3.symm.trans e2)
  obtain rfl := Option.some.inj (h5.symm.trans e3)
  obtain rfl := Option.some.inj (g5.symm.trans e4)
  refine ⟨R, R', h1, g1, h2, g2, fun p c => ?_⟩
  have hsum : ∑ j ∈ Finset.range a.dv.flags.length, K'.val (L.dof p c) j * û' j =
      ∑ e, Q c e * ∑ j ∈ Finset.range a.dv.flags.length, K.val (L.dof p e) j * û j := by
    have e1 : ∀ e, ∑ j ∈ Finset.range a.dv.flags.length, K.val (L.dof p e) j * û j =
        (∑ q, (Matrix.of fun e f => K.val (L.dof p e) (L.dof q f)) *ᵥ fun f => û (L.dof q f)) e := fun e => by
      rw [layout_sum L, Finset.sum_apply]
      rfl
    have e2 : ∑ j ∈ Finset.range a.dv.flags.length, K'.val (L.dof p c) j * û' j =
        (∑ q, (Matrix.of fun e f => K'.val (L.dof p e) (L.dof q f)) *ᵥ fun f => û' (L.dof q f)) c := by
      rw [layout_sum L, Finset.sum_apply]
      rfl
    have e3 : ∀ q, ((Matrix.of fun e f => K'.val (L.dof p e) (L.dof q f)) *ᵥ fun f => û' (L.dof q f)) =
        Q *ᵥ ((Matrix.of fun e f => K.val (L.dof p e) (L.dof q f)) *ᵥ fun f => û (L.dof q f)) := fun q => by
      have h1 : (fun f => û' (L.dof q f)) = Q *ᵥ fun f => û (L.dof q f) := funext fun f => h.supports q f
      have h2 : (Matrix.of fun e f => K'.val (L.dof p e) (L.dof q f)) =
          Q * (Matrix.of fun e f => K.val (L.dof p e) (L.dof q f)) * Qᵀ := by
        ext e f
        rw [Matrix.of_apply, hK, Matrix.mul_apply, Finset.sum_comm]
        refine Finset.sum_congr rfl fun g _ => ?_
        rw [Matrix.mul_apply, Finset.sum_mul]
        rfl
      rw [h1, h2, Matrix.mulVec_mulVec, Matrix.mul_assoc, h.orth, Matrix.mul_one, Matrix.mulVec_mulVec]
    rw [e2, Finset.sum_congr rfl fun q _ => e3 q, ← Matrix.mulVec_sum]
    simp only [e1]
    rfl
  rw [g6 _ (L.bound p c), hr.value, hsum, Finset.mul_sum, ← Finset.sum_add_distrib]
  refine Finset.sum_congr rfl fun e _ => ?_
  rw [h6 _ (L.bound p e)]
  ring

theorem step_turn (h : Spec.TurnedAnalyses a b û û' L Q) {l m : ℝ} (hz : l ≠ 0 ∨ m = l ∨ ∀ i < a.dv.flags.length, û i = 0)
    {x x' R R' : List ℝ} (hx : Spec.TurnedList L Q x x') (hh : Held a.dv.flags û m x) (hR : Spec.TurnedList L Q R R')
    (hreg : Spec.RegularHere a ⟨l, some x⟩) :
    ∃ y y' : List ℝ, Spec.newtonStep a.problem ⟨l, some x⟩ (some (view a.option a.dv.flags R)) = ⟨l, some y⟩ ∧
      Spec.newtonStep b.problem ⟨l, some x'⟩ (some (view b.option a.dv.flags R')) = ⟨l, some y'⟩ ∧ Spec.TurnedList L Q y y' ∧
      Held a.dv.flags û l y := by
  obtain ⟨-, -, K, K', -, -, e3, e4, -, hK⟩ := h.systems l x x' hx
  have hreg := hreg x K rfl hx.length e3
  have hreg' := regular_turn h.orth h.unmixed hK hreg
  obtain ⟨y, D, h1, h2, h3, h4, h5⟩ := step_exact h.proper hx.length e3 (solves_of_regular h.proper.option h.solver e3 hreg) hR.length
  obtain ⟨y', D', g1, g2, g3, g4, g5⟩ := step_exact h.proper' (R := R') (h.flags ▸ hx.length') e4
    (solves_of_regular h.proper'.option h.solver' e4 (h.flags.symm ▸ hreg')) (h.flags ▸ hR.length')
  have hfree := fun i (hi : Spec.Free a.dv.flags i) => proper_free_zero h.proper hi
  have hfree' := fun i (hi : Spec.Free b.dv.flags i) => proper_free_zero h.proper' hi
  rw [h.flags] at g1 g2 g3 g4 g5 hfree'
  obtain ⟨D1, hD1⟩ := turned_exists L Q h3
  obtain rfl := correction_unique hreg' hD1.length' g3 ((correction_turn L h.orth h.unmixed hK hR hD1).2 h4) g4
  have hw : (listOf a.dv.flags.length fun i => x.getD i 0 + 1 * D.getD i 0).length = a.dv.flags.length := listOf_length _ _
  have hw' : (listOf a.dv.flags.length fun i => x'.getD i 0 + 1 * D1.getD i 0).length = a.dv.flags.length := listOf_length _ _
  have hv := fun i (hi : i < a.dv.flags.length) => listOf_getD _ (fun i => x.getD i 0 + 1 * D.getD i 0) hi
  have hv' := fun i (hi : i < a.dv.flags.length) => listOf_getD _ (fun i => x'.getD i 0 + 1 * D1.getD i 0) hi
  generalize listOf a.dv.flags.length (fun i => x.getD i 0 + 1 * D.getD i 0) = z at *
  generalize listOf a.dv.flags.length (fun i => x'.getD i 0 + 1 * D1.getD i 0) = z' at *
  have hzz := turned_sum hx hD1 hw hw' 1 hv hv'
  have hhz : Held a.dv.flags û m z := fun i hi hn => by rw [hv i hi, h4.1 i hi hn, mul_zero, add_zero, hh i hi hn]
  have hhz' := held_turn h.unmixed h.supports hzz hhz
  obtain ⟨k1, k2⟩ := synced_held (y := y) hz hhz hfree fun i hi => by rw [h5 i hi, hv i hi, one_mul]
  obtain ⟨k1', k2'⟩ := synced_held (y := y') (hz.imp id (Or.imp id (supports_zero h.supports))) hhz' hfree' fun i hi => by
    rw [g5 i hi, hv' i hi, one_mul]
  exact ⟨y, y', h1, g1, turned_of_held h.unmixed h.supports hzz h2 g2 k1 k1' k2 k2', k1⟩

theorem iterates_turn (h : Spec.TurnedAnalyses a b û û' L Q) {l m : ℝ} (hz : l ≠ 0 ∨ m = l ∨ ∀ i < a.dv.flags.length, û i = 0)
    (s : ℝ) {x x' : List ℝ} (hx : Spec.TurnedList L Q x x') (hh : Held a.dv.flags û m x) (n : Nat)
    (hreg : ∀ j < n, Spec.RegularHere a (Spec.newtonIterates a.problem ⟨l, some x⟩ s j).1) :
    ∃ y y' R R' : List ℝ, Spec.newtonIterates a.problem ⟨l, some x⟩ s n = (⟨l, some y⟩, some (view a.option a.dv.flags R)) ∧
      Spec.newtonIterates b.problem ⟨l, some x'⟩ s n = (⟨l, some y'⟩, some (view b.option a.dv.flags R')) ∧
      Spec.TurnedList L Q y y' ∧ Spec.TurnedList L Q R R' ∧ (n = 0 → y = x ∧ y' = x') ∧ (0 < n → Held a.dv.flags û l y) ∧
      Held a.dv.flags û (if n = 0 then m else l) y := by
  induction n with
  | zero =>
    obtain ⟨R, R', h1, h2, h3⟩ := first_turn h l s hx
    refine ⟨x, x', R, R', ?_, ?_, hx, h3, fun _ => ⟨rfl, rfl⟩, fun h0 => absurd h0 (lt_irrefl 0), hh⟩
    · rw [← h1]; rfl
    · rw [← h2]; rfl
  | succ n ih =>
    obtain ⟨y, y', R, R', h1, h2, h3, h4, -, -, h5⟩ := ih fun j hj => hreg j (by omega)
    have hz' : l ≠ 0 ∨ (if n = 0 then m else l) = l ∨ ∀ i < a.dv.flags.length, û i = 0 := by
      by_cases h0 : n = 0
      · rw [if_pos h0]; exact hz
      · rw [if_neg h0]; exact Or.inr (Or.inl rfl)
    have hr := hreg n (by omega)
    rw [h1] at hr
    obtain ⟨w, w', g1, g2, g3, g4⟩ := step_turn h hz' h3 h5 h4 hr
    obtain ⟨r, r', -, -, e1, e2, -, -, hrr, -⟩ := h.systems l w w' g3
    refine ⟨w, w', r, r', ?_, ?_, g3, hrr, fun h0 => by omega, fun _ => g4, by rw [if_neg (by omega)]; exact g4⟩
    · have e : Spec.newtonIterates a.problem ⟨l, some x⟩ s (n + 1) =
          (Spec.newtonStep a.problem (Spec.newtonIterates a.problem ⟨l, some x⟩ s n).1 (Spec.newtonIterates a.problem ⟨l, some x⟩ s n).2,
            a.residual? (Spec.newtonStep a.problem (Spec.newtonIterates a.problem ⟨l, some x⟩ s n).1
              (Spec.newtonIterates a.problem ⟨l, some x⟩ s n).2)) := rfl
      rw [e, h1, g1, residual_view a h.proper.option e1]
    · have e : Spec.newtonIterates b.problem ⟨l, some x'⟩ s (n + 1) =
          (Spec.newtonStep b.problem (Spec.newtonIterates b.problem ⟨l, some x'⟩ s n).1 (Spec.newtonIterates b.problem ⟨l, some x'⟩ s n).2,
            b.residual? (Spec.newtonStep b.problem (Spec.newtonIterates b.problem ⟨l, some x'⟩ s n).1
              (Spec.newtonIterates b.problem ⟨l, some x'⟩ s n).2)) := rfl
      rw [e, h2, g2, residual_view b h.proper'.option e2, h.flags]

theorem solve_turn (h : Spec.TurnedAnalyses a b û û' L Q) {l m : ℝ} (hz : l ≠ 0 ∨ m = l ∨ ∀ i < a.dv.flags.length, û i = 0)
    (s : ℝ) {x x' : List ℝ} (hx : Spec.TurnedList L Q x x') (hh : Held a.dv.flags û m x) (w w' : Option (List ℝ))
    (hreg : ∀ j : Nat, (j : Int) < (a.solver.solve w ⟨l, some x⟩ s).2.2.iterations →
      Spec.RegularHere a (Spec.newtonIterates a.problem ⟨l, some x⟩ s j).1) :
    ∃ y y' : List ℝ, (a.solver.solve w ⟨l, some x⟩ s).2.1 = ⟨l, some y⟩ ∧ (b.solver.solve w' ⟨l, some x'⟩ s).2.1 = ⟨l, some y'⟩ ∧
      Spec.TurnedList L Q y y' ∧ Spec.SameInfo (a.solver.solve w ⟨l, some x⟩ s).2.2 (b.solver.solve w' ⟨l, some x'⟩ s).2.2 ∧
      ((a.solver.solve w ⟨l, some x⟩ s).2.2.iterations ≠ 0 → Held a.dv.flags û l y) ∧
      ((a.solver.solve w ⟨l, some x⟩ s).2.2.iterations = 0 → y = x) := by
  obtain ⟨n, ⟨hstop, hfirst⟩, hn, hrun⟩ := newton_run a.problem a.settings ⟨l, some x⟩ s w
  obtain ⟨st, hs, hsx, hsi, hss, hsr, -⟩ := hrun (max 0 (max a.settings.maxIter a.settings.minIter)).toNat (by omega)
  obtain ⟨n', ⟨hstop', hfirst'⟩, hn', hrun'⟩ := newton_run b.problem b.settings ⟨l, some x'⟩ s w'
  obtain ⟨st', hs', hsx', hsi', hss', hsr', -⟩ := hrun' (max 0 (max b.settings.maxIter b.settings.minIter)).toNat (by omega)
  have e : a.solver.solve w ⟨l, some x⟩ s = (st.correction, st.x, st.info) := by
    show (match a.problem.solve a.settings _ ⟨l, some x⟩ s w with
      | some s => (s.correction, s.x, s.info)
      | none => (w, _, SolverInfo.default)) = _
    rw [hs]
  have e' : b.solver.solve w' ⟨l, some x'⟩ s = (st'.correction, st'.x, st'.info) := by
    show (match b.problem.solve b.settings _ ⟨l, some x'⟩ s w' with
      | some s => (s.correction, s.x, s.info)
      | none => (w', _, SolverInfo.default)) = _
    rw [hs']
  rw [e] at hreg ⊢
  rw [e']
  have hreg : ∀ j < n, Spec.RegularHere a (Spec.newtonIterates a.problem ⟨l, some x⟩ s j).1 := fun j hj => hreg j (by
    show (j : Int) < st.info.iterations
    omega)
  have hit := fun j (hj : j ≤ n) => iterates_turn h hz s hx hh j fun i hi => hreg i (by omega)
  have hst : ∀ j ≤ n, Spec.NewtonStops b.problem b.settings ⟨l, some x'⟩ s j ↔ Spec.NewtonStops a.problem a.settings ⟨l, some x⟩ s j := by
    intro j hj
    obtain ⟨y, y', R, R', h1, h2, -, h4, -⟩ := hit j hj
    unfold Spec.NewtonStops
    rw [h1, h2, h.settings]
    show _ ∧ (_ ∨ decide (norm (some (view b.option a.dv.flags R')) > _) = false) ↔
      _ ∧ (_ ∨ decide (norm (some (view a.option a.dv.flags R)) > _) = false)
    rw [norm_view _ _ _ h4.length, norm_view _ _ _ h4.length', free_residual_turn L h.orth h.unmixed h4]
  obtain rfl : n' = n := by
    rcases Nat.lt_trichotomy n' n with hlt | heq | hgt
    · exact absurd ((hst n' hlt.le).1 hstop') (hfirst n' hlt)
    · exact heq
    · exact absurd ((hst n le_rfl).2 hstop) (hfirst' n hgt)
  obtain ⟨y, y', R, R', h1, h2, h3, -, h5, h6, -⟩ := hit n' le_rfl
  rw [h1] at hsx
  rw [h2] at hsx'
  refine ⟨y, y', hsx, hsx', h3, ⟨?_, hsi'.trans hsi.symm, ?_⟩, fun h0 => h6 ?_, fun h0 => (h5 ?_).1⟩
  · rw [Bool.eq_iff_iff, hss, hss', h.settings]
  · obtain ⟨r, r', -, -, e1, e2, -, -, hr, -⟩ := h.systems l y y' h3
    rw [hsr, hsr', hsx, hsx']
    show some (norm (b.residual? ⟨l, some y'⟩)) = some (norm (a.residual? ⟨l, some y⟩))
    rw [residual_view a h.proper.option e1, residual_view b h.proper'.option e2, h.flags, norm_view _ _ _ hr.length,
      norm_view _ _ _ hr.length', free_residual_turn L h.orth h.unmixed hr]
  · have : st.info.iterations ≠ 0 := h0
    omega
  · have : st.info.iterations = 0 := h0
    omega

theorem loads_turn (h : Spec.TurnedAnalyses a b û û' L Q) (step l0 : ℝ) {x x' : List ℝ} (hx : Spec.TurnedList L Q x x')
    (hh : Held a.dv.flags û l0 x) {n : Nat}
    (hz : ∀ k : Nat, 0 < k → k ≤ n → l0 + k * step = 0 → ∀ i < a.dv.flags.length, û i = 0)
    (hreg : ∀ k ≤ n, (∀ i < k, (Spec.loadInfo a.solver step none ⟨l0, some x⟩ i).success = true) →
      Spec.RegularSolve a step ⟨l0, some x⟩ k) :
    ∀ k ≤ n, (∀ i < k, (Spec.loadInfo a.solver step none ⟨l0, some x⟩ i).success = true) →
      ∃ y y' : List ℝ, Spec.loadAfter a.solver step none ⟨l0, some x⟩ k = ⟨l0 + k * step, some y⟩ ∧
        Spec.loadAfter b.solver step none ⟨l0, some x'⟩ k = ⟨l0 + k * step, some y'⟩ ∧ Spec.TurnedList L Q y y' ∧
        Held a.dv.flags û (l0 + k * step) y ∧
        Spec.SameInfo (Spec.loadInfo a.solver step none ⟨l0, some x⟩ k) (Spec.loadInfo b.solver step none ⟨l0, some x'⟩ k) := by
  intro k
  induction k with
  | zero =>
    intro hk hs
    have hr := hreg 0 hk hs
    obtain ⟨y, y', h1, h2, h3, h4, h5, h6⟩ := solve_turn h (m := l0) (Or.inr (Or.inl rfl)) 0 hx hh none none hr
    rw [Nat.cast_zero, zero_mul, add_zero]
    refine ⟨y, y', h1, h2, h3, ?_, h4⟩
    by_cases h0 : (a.solver.solve none ⟨l0, some x⟩ 0).2.2.iterations = 0
    · rw [h6 h0]; exact hh
    · exact h5 h0
  | succ k ih =>
    intro hk hs
    obtain ⟨y, y', h1, h2, h3, h4, h5⟩ := ih (by omega) fun i hi => hs i (by omega)
    have hll : l0 + (k : ℝ) * step + step = l0 + ((k + 1 : Nat) : ℝ) * step := by push_cast; ring
    have hy1 : ({ (Spec.loadSolve a.solver step none ⟨l0, some x⟩ k).2.2.1 with
        lam := (Spec.loadSolve a.solver step none ⟨l0, some x⟩ k).2.2.1.lam + step } : Dom ℝ (Option (List ℝ))) =
          ⟨l0 + ((k + 1 : Nat) : ℝ) * step, some y⟩ := by
      have h1 : (Spec.loadSolve a.solver step none ⟨l0, some x⟩ k).2.2.1 = ⟨l0 + k * step, some y⟩ := h1
      rw [h1, ← hll]
    have hy2 : ({ (Spec.loadSolve b.solver step none ⟨l0, some x'⟩ k).2.2.1 with
        lam := (Spec.loadSolve b.solver step none ⟨l0, some x'⟩ k).2.2.1.lam + step } : Dom ℝ (Option (List ℝ))) =
          ⟨l0 + ((k + 1 : Nat) : ℝ) * step, some y'⟩ := by
      have h2 : (Spec.loadSolve b.solver step none ⟨l0, some x'⟩ k).2.2.1 = ⟨l0 + k * step, some y'⟩ := h2
      rw [h2, ← hll]
    have hzk : l0 + ((k + 1 : Nat) : ℝ) * step ≠ 0 ∨ l0 + (k : ℝ) * step = l0 + ((k + 1 : Nat) : ℝ) * step ∨
        ∀ i < a.dv.flags.length, û i = 0 := by
      by_cases h0 : l0 + ((k + 1 : Nat) : ℝ) * step = 0
      · exact Or.inr (Or.inr (hz (k + 1) (by omega) hk h0))
      · exact Or.inl h0
    have hr := hreg (k + 1) hk hs
    have hr : ∀ j : Nat, (j : Int) < (a.solver.solve (Spec.loadSolve a.solver step none ⟨l0, some x⟩ k).2.1
        ⟨l0 + ((k + 1 : Nat) : ℝ) * step, some y⟩ step).2.2.iterations →
        Spec.RegularHere a (Spec.newtonIterates a.problem ⟨l0 + ((k + 1 : Nat) : ℝ) * step, some y⟩ step j).1 := fun j hj => by
      rw [← hy1] at hj ⊢
      have := hr j hj
      rwa [if_neg (by omega)] at this
    generalize l0 + ((k + 1 : Nat) : ℝ) * step = l at *
    generalize l0 + (k : ℝ) * step = m at *
    obtain ⟨w, w', g1, g2, g3, g4, g5, g6⟩ := solve_turn h hzk step h3 h4 (Spec.loadSolve a.solver step none ⟨l0, some x⟩ k).2.1
      (Spec.loadSolve b.solver step none ⟨l0, some x'⟩ k).2.1 hr
    have hinf : Spec.loadInfo a.solver step none ⟨l0, some x⟩ (k + 1) =
        (a.solver.solve (Spec.loadSolve a.solver step none ⟨l0, some x⟩ k).2.1 ⟨l, some y⟩ step).2.2 := by rw [← hy1]; rfl
    have hinf' : Spec.loadInfo b.solver step none ⟨l0, some x'⟩ (k + 1) =
        (b.solver.solve (Spec.loadSolve b.solver step none ⟨l0, some x'⟩ k).2.1 ⟨l, some y'⟩ step).2.2 := by rw [← hy2]; rfl
    have haft : Spec.loadAfter a.solver step none ⟨l0, some x⟩ (k + 1) =
        if (a.solver.solve (Spec.loadSolve a.solver step none ⟨l0, some x⟩ k).2.1 ⟨l, some y⟩ step).2.2.iterations = 0 then
          a.sync (a.solver.solve (Spec.loadSolve a.solver step none ⟨l0, some x⟩ k).2.1 ⟨l, some y⟩ step).2.1 else
          (a.solver.solve (Spec.loadSolve a.solver step none ⟨l0, some x⟩ k).2.1 ⟨l, some y⟩ step).2.1 := by rw [← hy1]; rfl
    have haft' : Spec.loadAfter b.solver step none ⟨l0, some x'⟩ (k + 1) =
        if (b.solver.solve (Spec.loadSolve b.solver step none ⟨l0, some x'⟩ k).2.1 ⟨l, some y'⟩ step).2.2.iterations = 0 then
          b.sync (b.solver.solve (Spec.loadSolve b.solver step none ⟨l0, some x'⟩ k).2.1 ⟨l, some y'⟩ step).2.1 else
          (b.solver.solve (Spec.loadSolve b.solver step none ⟨l0, some x'⟩ k).2.1 ⟨l, some y'⟩ step).2.1 := by rw [← hy2]; rfl
    rw [haft, haft', hinf, hinf', g4.2.1, g1, g2]
    by_cases h0 : (a.solver.solve (Spec.loadSolve a.solver step none ⟨l0, some x⟩ k).2.1 ⟨l, some y⟩ step).2.2.iterations = 0
    · rw [if_pos h0, if_pos h0]
      obtain ⟨z, z1, z2, z3⟩ := proper_sync h.proper l g3.length
      obtain ⟨z', z1', z2', z3'⟩ := proper_sync h.proper' (x := w') l (h.flags ▸ g3.length')
      have hfree := fun i (hi : Spec.Free a.dv.flags i) => proper_free_zero h.proper hi
      have hfree' := fun i (hi : Spec.Free b.dv.flags i) => proper_free_zero h.proper' hi
      rw [h.flags] at z2' z3' hfree'
      have hw := g6 h0
      have hhw : Held a.dv.flags û m w := hw ▸ h4
      obtain ⟨k1, k2⟩ := synced_held hzk hhw hfree z3
      obtain ⟨k1', k2'⟩ := synced_held (hzk.imp id (Or.imp id (supports_zero h.supports)))
        (held_turn h.unmixed h.supports g3 hhw) hfree' z3'
      exact ⟨z, z', z1, z1', turned_of_held h.unmixed h.supports g3 z2 z2' k1 k1' k2 k2', k1, g4⟩
    · rw [if_neg h0, if_neg h0]
      exact ⟨w, w', rfl, rfl, g3, g5 h0, g4⟩

theorem solves_same (h : Spec.TurnedAnalyses a b û û' L Q) (step l0 : ℝ) {x x' : List ℝ} (hx : Spec.TurnedList L Q x x')
    (hh : Held a.dv.flags û l0 x) {n m m' : Nat}
    (hz : ∀ k : Nat, 0 < k → k ≤ n → l0 + k * step = 0 → ∀ i < a.dv.flags.length, û i = 0)
    (hreg : ∀ k ≤ n, (∀ i < k, (Spec.loadInfo a.solver step none ⟨l0, some x⟩ i).success = true) →
      Spec.RegularSolve a step ⟨l0, some x⟩ k)
    (hm : Spec.SolvesMade a.solver step none ⟨l0, some x⟩ n m) (hm' : Spec.SolvesMade b.solver step none ⟨l0, some x'⟩ n m') :
    m' = m ∧ ((∀ k < n + 1, (Spec.loadInfo b.solver step none ⟨l0, some x'⟩ k).success = true) ↔
      ∀ k < n + 1, (Spec.loadInfo a.solver step none ⟨l0, some x⟩ k).success = true) := by
  have hl := loads_turn h step l0 hx hh hz hreg
  obtain ⟨m1, m2, m3, m4⟩ := hm
  obtain ⟨m1', m2', m3', m4'⟩ := hm'
  constructor
  · rcases Nat.lt_trichotomy m' m with hlt | heq | hgt
    · exfalso
      obtain ⟨-, -, -, -, -, -, hsi⟩ := hl (m' - 1) (by omega) fun i hi => m3 i (by omega)
      have h1 := m4' (by omega)
      rw [hsi.1, m3 (m' - 1) (by omega)] at h1
      exact Bool.noConfusion h1
    · exact heq
    · exfalso
      obtain ⟨-, -, -, -, -, -, hsi⟩ := hl (m - 1) (by omega) fun i hi => m3 i (by omega)
      have h1 := m4 (by omega)
      rw [← hsi.1, m3' (m - 1) (by omega)] at h1
      exact Bool.noConfusion h1
  · constructor
    · intro hb k
      induction k using Nat.strong_induction_on with
      | _ k ih =>
        intro hk
        obtain ⟨-, -, -, -, -, -, hsi⟩ := hl k (by omega) fun i hi => ih i hi (by omega)
        rw [← hsi.1]
        exact hb k hk
    · intro ha k hk
      obtain ⟨-, -, -, -, -, -, hsi⟩ := hl k (by omega) fun i hi => ha i (by omega)
      rw [hsi.1]
      exact ha k hk

theorem shown_run (S : NLSolver ℝ (Option (List ℝ)) ℝ (Option (List ℝ))) (step : ℝ) (d0 : Dom ℝ (Option (List ℝ))) (m : Nat)
    (r : LCState ℝ (Option (List ℝ)) ℝ (Option (List ℝ))) (ls : Int)
    (h : r.trace = .notify .controlStarted d0 (-1) 0 :: (List.range m).flatMap (Spec.loadEvents S step none d0) ++
        (if r.info.success then [.notify .controlEnded r.dom ls step] else [])) :
    Spec.shown r = (List.range m).map (Spec.loadAfter S step none d0) := by
  unfold Spec.shown
  rw [h, List.cons_append, List.filterMap_cons_none rfl, List.filterMap_append, List.filterMap_flatMap]
  have hend : ((if r.info.success = true then [CEvent.notify .controlEnded r.dom ls step] else []).filterMap Spec.solutionOf) =
      ([] : List (Dom ℝ (Option (List ℝ)))) := by split <;> rfl
  rw [hend, List.append_nil]
  have hev : ∀ k, ((Spec.loadEvents S step none d0 k).filterMap Spec.solutionOf) = [Spec.loadAfter S step none d0 k] := by
    intro k
    cases k <;> rfl
  rw [List.flatMap_congr fun k _ => hev k, ← List.map_eq_flatMap]

end Analysis

/-! ### Load control -/

/-- C114, load control of structures of any kind. Two structures of which the second is the first one turned: the same numbers of
the dofs, at turned displacements residuals and stiffness are turned, the supports are turned, which mixes no free dofs with held ones; the linear
solvers solve all systems that have solutions; and the matrices that the first analysis factorizes are regular. Then load control
of the turned structure makes the same solves with the same numbers of iterations, ends alike with the same norms of the residuals,
and shows the turned displacements, whatever option each of the two uses. -/
theorem load_control_turn {a b : Analysis} {û û' : Nat → ℝ} {L : Spec.Layout k d a.dv.flags.length}
    (h : Spec.TurnedAnalyses a b û û' L Q) (n : Nat) (hn : 0 < n) (tbegin tend l0 : ℝ) {x0 x0' : List ℝ}
    (hx0 : Spec.TurnedList L Q x0 x0') (hc0 : Spec.OnSupports a.dv.flags û l0 x0)
    (hz : ∀ k : Nat, 0 < k → k ≤ n → l0 + k * ((tend - tbegin) / n) = 0 → ∀ i < a.dv.flags.length, û i = 0)
    (hreg : ∀ k ≤ n, (∀ i < k, (Spec.loadInfo a.solver ((tend - tbegin) / n) none ⟨l0, some x0⟩ i).success = true) →
      Spec.RegularSolve a ((tend - tbegin) / n) ⟨l0, some x0⟩ k) :
    ∃ ra rb : LCState ℝ (Option (List ℝ)) ℝ (Option (List ℝ)),
      a.loadControl? n tbegin tend ⟨l0, some x0⟩ = some ra ∧ b.loadControl? n tbegin tend ⟨l0, some x0'⟩ = some rb ∧
      rb.info.success = ra.info.success ∧ rb.info.totalIterations = ra.info.totalIterations ∧
      List.Forall₂ Spec.SameInfo ra.info.solverInfos rb.info.solverInfos ∧
      List.Forall₂ (Spec.TurnedState L Q) (Spec.shown ra) (Spec.shown rb) ∧ Spec.TurnedState L Q ra.dom rb.dom := by
  have hh : Held a.dv.flags û l0 x0 := fun i hi hf => by
    rw [List.getD_eq_getElem?_getD, hc0.2 i ((not_free_iff hi).1 hf), Option.getD_some]
  generalize hstep : (tend - tbegin) / (n : ℝ) = step at *
  have hmk : LoadControl.mk? (n : Int) tbegin tend = some ⟨n, step⟩ := by
    unfold LoadControl.mk?
    rw [if_neg (by omega)]
    simp [hstep]
  obtain ⟨m, ls, hm, h1, -, h3, h4, h5, h6⟩ := load_control_run n hn step a.solver none ⟨l0, some x0⟩
  obtain ⟨m', ls', hm', h1', -, h3', h4', h5', h6'⟩ := load_control_run n hn step b.solver none ⟨l0, some x0'⟩
  obtain ⟨rfl, hsucc⟩ := Analysis.solves_same h step l0 hx0 hh hz hreg hm hm'
  have hl := Analysis.loads_turn h step l0 hx0 hh hz hreg
  obtain ⟨m1, m2, m3, -⟩ := hm
  have hl := fun k (hk : k < m') => hl k (by omega) fun i hi => m3 i (by omega)
  have hdom : ∀ k < m', Spec.TurnedState L Q (Spec.loadAfter a.solver step none ⟨l0, some x0⟩ k)
      (Spec.loadAfter b.solver step none ⟨l0, some x0'⟩ k) := fun k hk => by
    obtain ⟨y, y', g1, g2, g3, -⟩ := hl k hk
    rw [g1, g2]
    exact ⟨rfl, y, y', rfl, rfl, g3⟩
  refine ⟨_, _, by unfold Analysis.loadControl?; rw [hmk, Option.map_some], by unfold Analysis.loadControl?; rw [hmk, Option.map_some],
    ?_, ?_, ?_, ?_, ?_⟩
  · rw [Bool.eq_iff_iff, h1, h1', hsucc]
  · rw [h4, h4']
    refine congrArg List.sum (List.map_congr_left fun k hk => ?_)
    obtain ⟨-, -, -, -, -, -, g⟩ := hl k (List.mem_range.1 hk)
    exact g.2.1
  · rw [h3, h3', List.forall₂_map_left_iff, List.forall₂_map_right_iff, List.forall₂_same]
    intro k hk
    obtain ⟨-, -, -, -, -, -, g⟩ := hl k (List.mem_range.1 hk)
    exact g
  · rw [Analysis.shown_run _ _ _ _ _ _ h6, Analysis.shown_run _ _ _ _ _ _ h6', List.forall₂_map_left_iff, List.forall₂_map_right_iff,
      List.forall₂_same]
    exact fun k hk => hdom k (List.mem_range.1 hk)
  · rw [h5, h5']
    exact hdom (m' - 1) (by omega)

/-! ### The same structure, analysed with another option -/

/-- Every dof for itself. -/
def Spec.Layout.single (size : Nat) : Spec.Layout size 1 size where
  dof p _ := p
  bound p _ := p.2
  inj h := ⟨Fin.ext h, Subsingleton.elim _ _⟩
  all i hi := ⟨⟨i, hi⟩, 0, rfl⟩

theorem single_turned {size : Nat} {x x' : List ℝ} (h : Spec.TurnedList (Spec.Layout.single size) 1 x x') : x' = x := by
  apply List.ext_getElem?
  intro i
  by_cases hi : i < size
  · have := h.value ⟨i, hi⟩ 0
    rw [Finset.sum_eq_single 0 (fun b _ hb => absurd (Subsingleton.elim b 0) hb) (fun h => absurd (Finset.mem_univ _) h),
      Matrix.one_apply_eq, one_mul] at this
    rw [getElem?_eq_getD (by rw [h.length']; exact hi), getElem?_eq_getD (by rw [h.length]; exact hi)]
    exact congrArg some this
  · rw [List.getElem?_eq_none (by rw [h.length']; omega), List.getElem?_eq_none (by rw [h.length]; omega)]

theorem turned_single {size : Nat} {x : List ℝ} (h : x.length = size) : Spec.TurnedList (Spec.Layout.single size) 1 x x :=
  ⟨h, h, fun p a => by
    obtain rfl := Subsingleton.elim a 0
    simp⟩

/-- C96, options. Load control of a nonlinear structure does not depend on the option, nor on the linear solver, if the
linear solvers solve all systems that have solutions and the matrices factorized are regular: the same solves are made with the
same numbers of iterations and the same norms of the residuals, and the same states are shown. -/
theorem nonlinear_same_result {a b : Analysis} {û : Nat → ℝ} (ha : Spec.Proper a û) (hb : Spec.Proper b û) (hdv : b.dv.flags = a.dv.flags)
    (hsys : ∀ l, b.system l = a.system l) (hset : b.settings = a.settings)
    (hba : a.bound = none ∨ ∀ i < a.dv.flags.length, û i = 0) (hbb : b.bound = none ∨ ∀ i < a.dv.flags.length, û i = 0)
    (hla : Spec.ExactSolver a.linSolve) (hlb : Spec.ExactSolver b.linSolve) (n : Nat) (hn : 0 < n) (tbegin tend l0 : ℝ) {x0 : List ℝ}
    (hc0 : Spec.OnSupports a.dv.flags û l0 x0)
    (hz : ∀ k : Nat, 0 < k → k ≤ n → l0 + k * ((tend - tbegin) / n) = 0 → ∀ i < a.dv.flags.length, û i = 0)
    (hreg : ∀ k ≤ n, (∀ i < k, (Spec.loadInfo a.solver ((tend - tbegin) / n) none ⟨l0, some x0⟩ i).success = true) →
      Spec.RegularSolve a ((tend - tbegin) / n) ⟨l0, some x0⟩ k) :
    ∃ ra rb : LCState ℝ (Option (List ℝ)) ℝ (Option (List ℝ)),
      a.loadControl? n tbegin tend ⟨l0, some x0⟩ = some ra ∧ b.loadControl? n tbegin tend ⟨l0, some x0⟩ = some rb ∧
      rb.info.success = ra.info.success ∧ rb.info.totalIterations = ra.info.totalIterations ∧
      List.Forall₂ Spec.SameInfo ra.info.solverInfos rb.info.solverInfos ∧ Spec.shown rb = Spec.shown ra ∧ rb.dom = ra.dom := by
  have hT : Spec.TurnedAnalyses a b û û (Spec.Layout.single a.dv.flags.length) 1 :=
    { proper := ha, proper' := hb, flags := hdv, settings := hset, bound := hba, bound' := hbb, solver := hla, solver' := hlb
      orth := by simp
      unmixed := fun p a b _ => Iff.rfl
      supports := fun p c => by
        obtain rfl := Subsingleton.elim c 0
        simp
      systems := fun l x x' hx => by
        obtain rfl := single_turned hx
        obtain ⟨-, r, K, -, hr, hrl, hK, -⟩ := total_system (a.system l) (fun e he => by
          obtain ⟨e', he', rfl⟩ := List.mem_map.1 he
          refine ⟨(ha.elems e' he' l).1, fun s hs => ?_⟩
          obtain ⟨s', hs', rfl⟩ := List.mem_map.1 hs
          exact (ha.elems e' he' l).2 s' hs') hx.length
        rw [hsys]
        exact ⟨r, r, K, K, hr, hr, hK, hK, turned_single hrl, fun p q c e => by
          obtain rfl := Subsingleton.elim c 0
          obtain rfl := Subsingleton.elim e 0
          simp⟩ }
  obtain ⟨ra, rb, h1, h2, h3, h4, h5, h6, h7⟩ := load_control_turn hT n hn tbegin tend l0 (turned_single hc0.1) hc0 hz hreg
  have heq : ∀ x x', Spec.TurnedState (Spec.Layout.single a.dv.flags.length) 1 x x' → x' = x := by
    rintro ⟨l, u⟩ ⟨l', u'⟩ ⟨hl, v, v', hv, hv', ht⟩
    obtain rfl := single_turned ht
    cases hl; cases hv; cases hv'
    rfl
  refine ⟨ra, rb, h1, h2, h3, h4, h5, ?_, heq _ _ h7⟩
  have : List.Forall₂ (fun x x' => x' = x) (Spec.shown ra) (Spec.shown rb) := h6.imp heq
  generalize Spec.shown ra = l1 at this
  generalize Spec.shown rb = l2 at this
  induction this with
  | nil => rfl
  | cons h _ ih => rw [h, ih]

/-! ### Solid structures -/

section Solids

variable {q : Nat} {T : Matrix (Fin q) (Fin q) ℝ} {flags : List Bool} {L : Spec.Layout k d flags.length} {pos : Fin k → Fin d → ℝ}
  {es : List (Spec.SolidElem d)} {f f' t t' : LoadFunction d}

/-- C114, solid structures. At turned displacements, the residual and the stiffness of solid structures with large strains and a
material without preferred direction are turned. -/
theorem solids_systems_turn {dim : EAS.Dimension d q} (hdim : EAS.Spec.IsVoigt dim) (hT : VoigtTurn dim.voigt Q T) (hQ : Qᵀ * Q = 1)
    {a : Fin d → ℝ} (hf : LoadTurns Q a Q f f') (ht : LoadTurns Q a Q t t') {law law' : Law q} (hes : ∀ e ∈ es, e.Placed L pos)
    (hlaw : ∀ s, TurnedLaw T law law' s ∧ (law.tangent s).IsSymm) (l : ℝ) {A B : System}
    (hA : A = ⟨flags, es.map fun e => (e.nonlinear dim f t law).at l⟩)
    (hB : B = ⟨flags, es.map fun e => ((e.turned Q a).nonlinear dim f' t' law').at l⟩) : Spec.TurnedSystems L Q A B := by
  intro x x' hx
  refine (solids_turn (x := x) (x' := x') (pos := pos) (L := L) hdim hT hQ hQ hf ht hes ⟨hx.length, hx.length', a, fun p => ?_⟩
    (fun e _ s _ => hlaw s) l hA hB).1
  rw [turned_node L hx p, Matrix.mulVec_add, add_assoc]

end Solids

/-! ### Structures that follow a regular path -/

namespace Analysis

theorem stable_regular {a : Analysis} {l rho beta C B : ℝ} {xs : List ℝ} (h : Spec.RegularAt a l xs rho beta C B) {u : List ℝ}
    (hu : Spec.Near a xs rho u) : Spec.RegularHere a ⟨l, some u⟩ := by
  intro u' K hu' _ hK v hv hv0 hz i hi
  obtain rfl := Option.some.inj hu'
  have h1 := h.stable u hu K hK v hv hv0
  have h2 : Spec.freeSize a.dv.flags (Spec.times K v) = 0 := by
    unfold Spec.freeSize
    rw [Finset.sum_eq_zero, Real.sqrt_zero]
    intro j hj
    rw [hz j (Finset.mem_filter.1 hj).2]
    norm_num
  rw [h2, mul_zero, size_eq _ _ hv] at h1
  have h3 := norm_le_zero_iff.1 h1
  have h4 := congrFun (congrArg WithLp.ofLp h3) ⟨i, hi⟩
  exact h4

/-- Along a regular path all matrices that load control factorizes are regular. -/
theorem follows_regular {a : Analysis} {û : Nat → ℝ} {X : ℝ → List ℝ} {lo hi rho beta C B M : ℝ} (hp : Spec.Proper a û)
    (hb : a.bound = none ∨ ∀ i < a.dv.flags.length, û i = 0) (h : Spec.RegularPath a û X lo hi rho beta C B M)
    {delta : ℝ} (hd : delta ≤ rho) (hc : beta * C * delta ≤ 1) {m : Nat} (hm : 0 < m) (hmin : a.settings.minIter ≤ m)
    (hmax : (m : Int) < a.settings.maxIter) (htol : B * (delta / 2 ^ (2 ^ m - 1)) ≤ a.settings.tol)
    (step l0 : ℝ) (hstep : 2 * beta * a.settings.tol + 2 * (M * |step|) ≤ delta) {x0 : List ℝ}
    (hx0 : Spec.OnSupports a.dv.flags û l0 x0) (hx0d : Spec.distance x0 (X l0) ≤ delta) (n : Nat)
    (hr : ∀ k : Nat, k ≤ n → lo ≤ l0 + k * step ∧ l0 + k * step ≤ hi)
    (hz : ∀ k : Nat, 0 < k → k ≤ n → l0 + k * step = 0 → ∀ i < a.dv.flags.length, û i = 0) :
    ∀ k ≤ n, Spec.RegularSolve a step ⟨l0, some x0⟩ k := by
  have key := solves_follow hp hb h hd hc hm hmin hmax htol step l0 hstep hx0 hx0d none n hr hz
  have hd0 : 0 ≤ delta := (distance_nonneg _ _).trans hx0d
  have hval : ∀ {l : ℝ} {u : List ℝ}, Spec.OnSupports a.dv.flags û l u → ∀ i < a.dv.flags.length,
      ¬ Spec.Free a.dv.flags i → u.getD i 0 = l * û i := by
    intro l u hu i hi hf
    rw [List.getD_eq_getElem?_getD, hu.2 i ((not_free_iff hi).1 hf), Option.getD_some]
  have hall : ∀ (l s : ℝ) (u : List ℝ), lo ≤ l → l ≤ hi → Spec.Near a (X l) delta u →
      (∀ i < a.dv.flags.length, ¬ Spec.Free a.dv.flags i → synced û l i (u.getD i 0) = (X l).getD i 0 ∧ u.getD i 0 + s * û i = (X l).getD i 0) →
      ∀ j, Spec.RegularHere a (Spec.newtonIterates a.problem ⟨l, some u⟩ s j).1 := by
    intro l s u h0 h1 hu hsup j
    have hreg := h.regular l h0 h1
    rcases j with _ | j
    · exact stable_regular hreg ⟨hu.1, hu.2.trans hd⟩
    · obtain ⟨y, R, e1, e2, -, -, -, e3⟩ := iterates_converge hp hb hreg h.nonneg.1 h.nonneg.2.1 hd0 hd hc s hu hsup j
      rw [e1]
      refine stable_regular hreg ⟨e2, e3.trans ((div_le_self hd0 ?_).trans hd)⟩
      exact one_le_pow₀ one_le_two
  intro k hk j _
  rcases k with _ | k
  · have hr0 := hr 0 (Nat.zero_le _)
    rw [Nat.cast_zero, zero_mul, add_zero] at hr0
    have hX := h.supports l0 hr0.1 hr0.2
    refine hall l0 0 x0 hr0.1 hr0.2 ⟨hx0.1, hx0d⟩ (fun i hi hf => ?_) j
    rw [hval hx0 i hi hf, hval hX i hi hf]
    refine ⟨?_, by ring⟩
    unfold synced; split <;> rfl
  · obtain ⟨u, i1, i2, -, -, i5, -⟩ := key k (by omega)
    have hrk := hr k (by omega)
    have hrs := hr (k + 1) hk
    have hzk := hz (k + 1) (by omega) hk
    have hbef : Spec.loadBefore a.solver step none ⟨l0, some x0⟩ (k + 1) = ⟨l0 + ((k + 1 : Nat) : ℝ) * step, some u⟩ := by
      have h1 : (Spec.loadSolve a.solver step none ⟨l0, some x0⟩ k).2.2.1 = ⟨l0 + k * step, some u⟩ := i1
      show ({ (Spec.loadSolve a.solver step none ⟨l0, some x0⟩ k).2.2.1 with
        lam := (Spec.loadSolve a.solver step none ⟨l0, some x0⟩ k).2.2.1.lam + step } : Dom ℝ (Option (List ℝ))) = _
      rw [h1]
      show (⟨l0 + k * step + step, some u⟩ : Dom ℝ (Option (List ℝ))) = _
      push_cast
      congr 1
      ring
    rw [hbef, if_neg (by omega)]
    generalize hl : l0 + ((k + 1 : Nat) : ℝ) * step = l at *
    have hll : l0 + (k : ℝ) * step + step = l := by rw [← hl]; push_cast; ring
    generalize hl' : l0 + (k : ℝ) * step = l' at *
    have hX := h.supports l hrs.1 hrs.2
    have hX' := h.supports l' hrk.1 hrk.2
    have hdu : Spec.distance u (X l) ≤ 2 * beta * a.settings.tol + 2 * (M * |step|) := by
      have h1 := distance_triangle a.dv.flags.length u (X l') (X l) i2.1 hX'.1 hX.1
      have h2 := h.speed l' l hrk.1 hrk.2 hrs.1 hrs.2
      have h3 : |l' - l| = |step| := by rw [← hll]; rw [show l' - (l' + step) = -step by ring, abs_neg]
      rw [h3] at h2
      linarith
    refine hall l step u hrs.1 hrs.2 ⟨i2.1, hdu.trans hstep⟩ (fun i hi hf => ?_) j
    rw [hval hX i hi hf]
    constructor
    · unfold synced
      split
      · rfl
      · rename_i h0
        push Not at h0
        rw [hval i2 i hi hf, h0]
        rcases mul_eq_zero.1 h0 with h1 | h1
        · rw [hzk h1 i hi, mul_zero]
        · rw [h1, mul_zero]
    · rw [hval i2 i hi hf, ← hll]; ring

end Analysis

/-- C114, along a regular path. If the structure follows a regular path of equilibrium (the assumptions of C100), load control
succeeds for it and for the turned structure, with the same numbers of iterations, and shows the turned displacements. -/
theorem path_load_control_turn {a b : Analysis} {û û' : Nat → ℝ} {L : Spec.Layout k d a.dv.flags.length}
    (hT : Spec.TurnedAnalyses a b û û' L Q) {X : ℝ → List ℝ} {lo hi rho beta C B M : ℝ}
    (h : Spec.RegularPath a û X lo hi rho beta C B M) {delta : ℝ} (hd : delta ≤ rho) (hc : beta * C * delta ≤ 1)
    {m : Nat} (hm : 0 < m) (hmin : a.settings.minIter ≤ m) (hmax : (m : Int) < a.settings.maxIter)
    (htol : B * (delta / 2 ^ (2 ^ m - 1)) ≤ a.settings.tol) (n : Nat) (hn : 0 < n) (tbegin tend l0 : ℝ)
    (hstep : 2 * beta * a.settings.tol + 2 * (M * |(tend - tbegin) / n|) ≤ delta) {x0 x0' : List ℝ} (hx : Spec.TurnedList L Q x0 x0')
    (hx0 : Spec.OnSupports a.dv.flags û l0 x0) (hx0d : Spec.distance x0 (X l0) ≤ delta)
    (hr : ∀ k : Nat, k ≤ n → lo ≤ l0 + k * ((tend - tbegin) / n) ∧ l0 + k * ((tend - tbegin) / n) ≤ hi)
    (hz : ∀ k : Nat, 0 < k → k ≤ n → l0 + k * ((tend - tbegin) / n) = 0 → ∀ i < a.dv.flags.length, û i = 0) :
    ∃ ra rb : LCState ℝ (Option (List ℝ)) ℝ (Option (List ℝ)),
      a.loadControl? n tbegin tend ⟨l0, some x0⟩ = some ra ∧ b.loadControl? n tbegin tend ⟨l0, some x0'⟩ = some rb ∧
      ra.info.success = true ∧ rb.info.success = true ∧ rb.info.totalIterations = ra.info.totalIterations ∧
      List.Forall₂ Spec.SameInfo ra.info.solverInfos rb.info.solverInfos ∧
      List.Forall₂ (Spec.TurnedState L Q) (Spec.shown ra) (Spec.shown rb) ∧ Spec.TurnedState L Q ra.dom rb.dom := by
  obtain ⟨r, -, g1, g2, -⟩ := load_control_follows hT.proper hT.bound h hd hc hm hmin hmax htol n hn tbegin tend l0 hstep hx0 hx0d hr hz
  obtain ⟨ra, rb, h1, h2, h3, h4⟩ := load_control_turn hT n hn tbegin tend l0 hx hx0 hz fun k hk _ =>
    Analysis.follows_regular hT.proper hT.bound h hd hc hm hmin hmax htol _ l0 hstep hx0 hx0d n hr hz k hk
  obtain rfl := Option.some.inj (g1.symm.trans h1)
  exact ⟨r, rb, h1, h2, g2, h3.trans g2, h4⟩

set_option maxHeartbeats 800000 in
/-- C114, small loads. Let the nonlinear structure `a` be unstressed and unloaded at load factor zero, its elements smooth there, its
stiffness there regular, and let `b` be the turned structure. Then there are a range of load factors and a tolerance such that for
every setting of the solver with a smaller tolerance and enough iterations, every load factor in the range and every number of load
steps, load control of both succeeds, with the same numbers of iterations, and that of `b` shows the turned displacements. -/
theorem small_loads_turn {a b : Analysis} {û û' : Nat → ℝ} {L : Spec.Layout k d a.dv.flags.length}
    (hT : Spec.TurnedAnalyses a b û û' L Q) (hel : Spec.SmoothElems a 0 (Spec.rest a))
    (hbal : ∃ r, (a.system 0).rawVector? (Spec.rest a) = some r ∧ ∀ i, Spec.Free a.dv.flags i → r.getD i 0 = 0)
    (hreg : ∀ K, (a.system 0).rawMatrix? (Spec.rest a) = some K → Spec.RegularStiffness a.dv.flags K) :
    ∃ eta tol0 : ℝ, 0 < eta ∧ 0 < tol0 ∧
      ∀ s : NRSettings ℝ, 0 < s.tol → s.tol ≤ tol0 → ∃ m : Nat, s.minIter ≤ m → (m : Int) < s.maxIter →
      ∀ n : Nat, 0 < n → ∀ l : ℝ, l ≠ 0 → |l| ≤ eta →
      ∃ ra rb : LCState ℝ (Option (List ℝ)) ℝ (Option (List ℝ)),
        { a with settings := s }.loadControl? n 0 l ⟨0, some (Spec.rest a)⟩ = some ra ∧
        { b with settings := s }.loadControl? n 0 l ⟨0, some (Spec.rest a)⟩ = some rb ∧
        ra.info.success = true ∧ rb.info.success = true ∧ rb.info.totalIterations = ra.info.totalIterations ∧
        List.Forall₂ Spec.SameInfo ra.info.solverInfos rb.info.solverInfos ∧
        List.Forall₂ (Spec.TurnedState L Q) (Spec.shown ra) (Spec.shown rb) ∧ Spec.TurnedState L Q ra.dom rb.dom := by
  have hrest : Spec.OnSupports a.dv.flags û 0 (Spec.rest a) := by
    refine ⟨Analysis.rest_length, fun i hi => ?_⟩
    have hlt : i < a.dv.flags.length := (List.getElem?_eq_some_iff.1 hi).1
    rw [getElem?_eq_getD (by rw [Analysis.rest_length]; exact hlt), Analysis.rest_getD, zero_mul]
  obtain ⟨eta, rho, beta, C, B, P, hR⟩ := Analysis.smooth_regular (û := û) hT.proper.option hT.solver hel hrest hbal hreg
  obtain ⟨X, eta', rho', M, he0, he1, hr0, hX0, hpath, hnear, -⟩ := Analysis.regular_path_through hR
  rw [zero_sub, zero_add] at hpath
  obtain ⟨hbeta, hC, hB, hM⟩ := hpath.nonneg
  obtain ⟨delta, hdelta⟩ : ∃ delta, delta = min rho' (1 / (beta * C + 1)) := ⟨_, rfl⟩
  have hd0 : 0 < delta := by rw [hdelta]; exact lt_min hr0 (by positivity)
  have hd1 : delta ≤ rho' := hdelta ▸ min_le_left _ _
  have hd2 : beta * C * delta ≤ 1 := by
    have : delta ≤ 1 / (beta * C + 1) := hdelta ▸ min_le_right _ _
    rw [le_div_iff₀ (by positivity)] at this
    nlinarith
  obtain ⟨eta2, heta2⟩ : ∃ eta2, eta2 = min eta' (delta / (4 * (M + 1))) := ⟨_, rfl⟩
  have h20 : 0 < eta2 := by rw [heta2]; exact lt_min he0 (by positivity)
  have h21 : eta2 ≤ eta' := heta2 ▸ min_le_left _ _
  have h22 : eta2 * (4 * (M + 1)) ≤ delta := by
    rw [← le_div_iff₀ (by positivity)]; exact heta2 ▸ min_le_right _ _
  refine ⟨eta2, delta / (4 * (beta + 1)), h20, by positivity, fun s ht0 ht1 => ?_⟩
  obtain ⟨m, hm0, hm⟩ : ∃ m : Nat, 0 < m ∧ B * (delta / 2 ^ (2 ^ m - 1)) ≤ s.tol := by
    obtain ⟨m, hm⟩ := pow_unbounded_of_one_lt (B * delta / s.tol) (one_lt_two (α := ℝ))
    refine ⟨m + 1, by omega, ?_⟩
    have h1 : m ≤ 2 ^ (m + 1) - 1 := by
      have := Nat.lt_two_pow_self (n := m + 1)
      omega
    have h2 : (2 : ℝ) ^ m ≤ 2 ^ (2 ^ (m + 1) - 1) := pow_le_pow_right₀ one_le_two h1
    rw [← mul_div_assoc, div_le_iff₀ (by positivity)]
    rw [div_lt_iff₀ ht0] at hm
    nlinarith
  refine ⟨m, fun hmin hmax n hn l hl0 hl => ?_⟩
  have hn0 : (0 : ℝ) < n := by exact_mod_cast hn
  have hstepl : |l / n| ≤ |l| := by
    rw [abs_div, abs_of_pos hn0]
    exact div_le_self (abs_nonneg l) (by exact_mod_cast hn)
  have hk : ∀ k : Nat, k ≤ n → |(k : ℝ) * (l / n)| ≤ |l| := by
    intro k hk
    rw [abs_mul, abs_div, abs_of_pos hn0, abs_of_nonneg (by positivity : (0 : ℝ) ≤ k), ← mul_div_assoc, div_le_iff₀ hn0, mul_comm]
    exact mul_le_mul_of_nonneg_left (by exact_mod_cast hk) (abs_nonneg l)
  have hstep : 2 * beta * s.tol + 2 * (M * |(l - 0) / n|) ≤ delta := by
    rw [sub_zero]
    have h1 : s.tol * (4 * (beta + 1)) ≤ delta := by rwa [← le_div_iff₀ (by positivity)]
    have h2 : M * |l / n| ≤ M * eta2 := mul_le_mul_of_nonneg_left (hstepl.trans hl) hM
    nlinarith
  have hx0d : Spec.distance (Spec.rest a) (X 0) ≤ delta := by
    rw [hX0]
    exact (Analysis.near_refl (a := a) Analysis.rest_length hd0.le).2
  have hT' : Spec.TurnedAnalyses { a with settings := s } { b with settings := s } û û' L Q :=
    { proper := Analysis.proper_settings hT.proper s, proper' := Analysis.proper_settings hT.proper' s, flags := hT.flags, settings := rfl
      bound := hT.bound, bound' := hT.bound', solver := hT.solver, solver' := hT.solver', orth := hT.orth, unmixed := hT.unmixed
      supports := hT.supports, systems := hT.systems }
  exact path_load_control_turn hT' (Analysis.path_settings hpath s) hd1 hd2 hm0 hmin hmax hm n hn 0 l 0 hstep (turned_zero L) hrest hx0d
    (fun k hk' => by
      have := abs_le.1 (((hk k hk').trans hl).trans h21)
      rw [sub_zero, zero_add]
      exact this) (fun k hk1 hk2 hz => by
      exfalso
      rw [sub_zero, zero_add] at hz
      rcases mul_eq_zero.1 hz with h | h
      · have : k = 0 := by exact_mod_cast h
        omega
      · rcases div_eq_zero_iff.1 h with h | h
        · exact hl0 h
        · exact hn0.ne' h)

/-! ### The mesh of three quadrilaterals -/

theorem linear_proper {a : Analysis} {û : Nat → ℝ} (h : Spec.ProperLinear a û) (hs : a.linSolve = Spec.inverseSolve) : Spec.Proper a û := by
  have hel : ∀ e ∈ a.elems, ∀ l, Spec.ElemFits a.dv.flags.length (e.at l) ∧ ∀ s ∈ e.skills, Spec.TotalSkill (s l) := fun e he l =>
    ⟨(h.elems e he).1, fun s hs => linear_total ((h.elems e he).2 s hs) l⟩
  refine ⟨h.option, hel, h.prescribed, h.force, h.alive, h.bound, fun l x hx A hA => ?_⟩
  obtain ⟨E, r, K, -, -, -, hK, -⟩ := total_system (a.system l) (fun e he => by
    obtain ⟨e', he', rfl⟩ := List.mem_map.1 he
    refine ⟨(hel e' he' l).1, fun sk hsk => ?_⟩
    obtain ⟨s, hs, rfl⟩ := List.mem_map.1 hsk
    exact (hel e' he' l).2 s hs) hx
  rw [hs]
  exact inverseSolve_answers a l x h.option K hK A hA

theorem exampleLoaded_turned (o o' : DBCOption) (ho : o ≠ .raw) (ho' : o' ≠ .raw) :
    Spec.TurnedAnalyses (exampleLoaded o) (exampleTurned o') exampleMeshSupport exampleTurnedSupport exampleLayout exampleTurn where
  proper := linear_proper (exampleLoaded_proper o ho) rfl
  proper' := linear_proper (exampleTurned_proper o' ho') rfl
  flags := rfl
  settings := rfl
  bound := Or.inl rfl
  bound' := Or.inl rfl
  solver := inverseSolve_exactSolver
  solver' := inverseSolve_exactSolver
  orth := exampleTurn_orth
  unmixed := exampleFlags_unmixed
  supports := exampleSupport_turn
  systems l x x' hx := by
    refine (linear_solids_turn (A := (exampleLoaded o).system l) (B := (exampleTurned o').system l) EAS.plane_isVoigt
      (plane_turn exampleTurn) exampleTurn_orth exampleWeight_turn exampleWeight_turn exampleMeshC_turn
      (by simpa using exampleMeshC_posDef.isHermitian) exampleSolids_placed hx l ?_ ?_).1
    · show System.mk _ (List.map _ (List.map _ _)) = _
      rw [List.map_map]
      rfl
    · show System.mk _ (List.map _ (List.map _ _)) = _
      rw [List.map_map]
      rfl

theorem exampleLoaded_regular (o : DBCOption) (x : Dom ℝ (Option (List ℝ))) : Spec.RegularHere (exampleLoaded o) x := by
  intro u K _ hu hK
  obtain ⟨K', e, g, hA⟩ := linear_system exampleMeshFlags _ exampleLoaded_elems.1
  have := hA.matrix x.lam u hu
  obtain rfl := Option.some.inj (this.symm.trans hK)
  exact Analysis.regular_of_supported hA (exampleLoaded_supported o 0)

/-- Four load steps of the mesh with the option Full and of the turned mesh with the option Reduced. -/
example : ∃ ra rb : LCState ℝ (Option (List ℝ)) ℝ (Option (List ℝ)),
    (exampleLoaded .full).loadControl? 4 0 1 ⟨0, some (List.replicate 14 0)⟩ = some ra ∧
    (exampleTurned .reduced).loadControl? 4 0 1 ⟨0, some (List.replicate 14 0)⟩ = some rb ∧
    rb.info.success = ra.info.success ∧ rb.info.totalIterations = ra.info.totalIterations ∧
    List.Forall₂ Spec.SameInfo ra.info.solverInfos rb.info.solverInfos ∧
    List.Forall₂ (Spec.TurnedState exampleLayout exampleTurn) (Spec.shown ra) (Spec.shown rb) ∧
    Spec.TurnedState exampleLayout exampleTurn ra.dom rb.dom := by
  have hT := exampleLoaded_turned .full .reduced (by decide) (by decide)
  refine load_control_turn hT 4 (by norm_num) 0 1 0 (turned_zero exampleLayout) ⟨rfl, fun i hi => ?_⟩ (fun k hk _ h0 => ?_)
    fun k hk _ j _ => exampleLoaded_regular .full _
  · have hi : i < 14 := (List.getElem?_eq_some_iff.1 hi).1
    rw [List.getElem?_replicate, if_pos hi, zero_mul]
  · have : (0 : ℝ) < k := by exact_mod_cast hk
    norm_num at h0
    omega

/-- The truss whose end is moved across its axis: 400 load steps with the default settings, Full and Reduced. -/
example : ∃ ra rb : LCState ℝ (Option (List ℝ)) ℝ (Option (List ℝ)),
    (trussAnalysis .full { tol := 1 / 10 ^ 8, maxIter := 20, minIter := 0 }).loadControl? 400 0 (1 / 2) ⟨0, some [0, 0, 0, 0]⟩ = some ra ∧
    (trussAnalysis .reduced { tol := 1 / 10 ^ 8, maxIter := 20, minIter := 0 }).loadControl? 400 0 (1 / 2) ⟨0, some [0, 0, 0, 0]⟩ = some rb ∧
    rb.info.success = ra.info.success ∧ rb.info.totalIterations = ra.info.totalIterations ∧
    List.Forall₂ Spec.SameInfo ra.info.solverInfos rb.info.solverInfos ∧ Spec.shown rb = Spec.shown ra ∧ rb.dom = ra.dom := by
  have hz : ∀ k : Nat, 0 < k → k ≤ 400 → (0 : ℝ) + k * ((1 / 2 - 0) / (400 : ℕ)) = 0 → ∀ i < 4, trussSupport i = 0 := by
    intro k hk _ h0
    have : (0 : ℝ) < k := by exact_mod_cast hk
    norm_num at h0
    omega
  refine nonlinear_same_result (trussAnalysis_proper .full (by decide) _) (trussAnalysis_proper .reduced (by decide) _) rfl
    (fun _ => rfl) rfl (Or.inl rfl) (Or.inl rfl) inverseSolve_exactSolver inverseSolve_exactSolver 400 (by norm_num) 0 (1 / 2) 0
    trussAnalysis_start hz fun k hk _ => ?_
  refine Analysis.follows_regular (trussAnalysis_proper .full (by decide) _) (Or.inl rfl) (truss_path .full (by decide) _) (delta := 1 / 72)
    (by norm_num) (by norm_num) (m := 5) (by norm_num) (by norm_num [trussAnalysis]) (by norm_num [trussAnalysis])
    (by norm_num [trussAnalysis]) _ 0 ?_ trussAnalysis_start (by simp [trussPath, Spec.distance]) 400 (fun k hk => ?_) hz k hk
  · norm_num [trussAnalysis, abs_of_nonneg]
  · have : (k : ℝ) ≤ 400 := by exact_mod_cast hk
    norm_num
    linarith

/-- The turned mesh, with large strains. -/
noncomputable def exampleTurnedSolid (o : DBCOption) : Analysis :=
  { exampleTurned o with
    elems := exampleSolids.map fun e => (e.turned exampleTurn ![5, 7]).nonlinear EAS.plane exampleTurnedWeight exampleTurnedWeight
      (linearLaw exampleMeshC) }

theorem exampleTurnedSolid_proper (o : DBCOption) (ho : o ≠ .raw) : Spec.Proper (exampleTurnedSolid o) exampleTurnedSupport := by
  have h := exampleTurned_proper o ho
  have hel : ∀ e ∈ (exampleTurnedSolid o).elems, ∀ l, Spec.ElemFits (exampleTurnedSolid o).dv.flags.length (e.at l) ∧
      ∀ s ∈ e.skills, Spec.TotalSkill (s l) := by
    intro e' he' l
    obtain ⟨e, he, rfl⟩ := List.mem_map.1 he'
    refine ⟨(exampleSolids_placed e he).1, fun s hs => ?_⟩
    rcases mem_three hs with rfl | rfl | rfl
    · exact ⟨fun _ => ⟨_, rfl⟩, fun _ _ => ⟨_, rfl⟩, fun _ _ => ⟨_, rfl⟩⟩
    · exact linear_total (volumeLoad_linear _ _) l
    · exact linear_total (traction_linear _ _) l
  refine ⟨ho, hel, h.prescribed, h.force, h.alive, h.bound, fun l x hx A hA => ?_⟩
  obtain ⟨E, r, K, -, -, -, hK, -⟩ := total_system ((exampleTurnedSolid o).system l) (fun e he => by
    obtain ⟨e', he', rfl⟩ := List.mem_map.1 he
    refine ⟨(hel e' he' l).1, fun sk hsk => ?_⟩
    obtain ⟨s, hs, rfl⟩ := List.mem_map.1 hsk
    exact (hel e' he' l).2 s hs) hx
  exact inverseSolve_answers (exampleTurnedSolid o) l x ho K hK A hA

theorem linearLaw_turned {q : Nat} {T C C' : Matrix (Fin q) (Fin q) ℝ} (h : Tᵀ * C' * T = C) (s : Fin q → ℝ) :
    TurnedLaw T (linearLaw C) (linearLaw C') s where
  energy := by
    show 0.5 * ((T *ᵥ s) ⬝ᵥ (C' *ᵥ (T *ᵥ s))) = 0.5 * (s ⬝ᵥ (C *ᵥ s))
    rw [← h, ← Matrix.mulVec_mulVec, ← Matrix.mulVec_mulVec, Matrix.dotProduct_mulVec s, Matrix.vecMul_transpose]
  stress := by
    show Tᵀ *ᵥ (C' *ᵥ (T *ᵥ s)) = C *ᵥ s
    rw [← h, Matrix.mulVec_mulVec, Matrix.mulVec_mulVec, Matrix.mul_assoc]
  tangent := h

theorem exampleSolid_turned (o o' : DBCOption) (ho : o ≠ .raw) (ho' : o' ≠ .raw) :
    Spec.TurnedAnalyses (exampleSolid o) (exampleTurnedSolid o') exampleMeshSupport exampleTurnedSupport exampleLayout exampleTurn where
  proper := exampleSolid_proper o ho
  proper' := exampleTurnedSolid_proper o' ho'
  flags := rfl
  settings := rfl
  bound := Or.inl rfl
  bound' := Or.inl rfl
  solver := inverseSolve_exactSolver
  solver' := inverseSolve_exactSolver
  orth := exampleTurn_orth
  unmixed := exampleFlags_unmixed
  supports := exampleSupport_turn
  systems l := by
    refine solids_systems_turn (A := (exampleSolid o).system l) (B := (exampleTurnedSolid o').system l) EAS.plane_isVoigt
      (plane_turn exampleTurn) exampleTurn_orth exampleWeight_turn exampleWeight_turn (law := linearLaw exampleMeshC)
      (law' := linearLaw exampleMeshC) exampleSolids_placed (fun s => ⟨linearLaw_turned exampleMeshC_turn s,
        show exampleMeshC.IsSymm by simpa using exampleMeshC_posDef.isHermitian⟩) l ?_ ?_
    · show System.mk _ (List.map _ (List.map _ _)) = _
      rw [List.map_map]
      rfl
    · show System.mk _ (List.map _ (List.map _ _)) = _
      rw [List.map_map]
      rfl

/-- Small loads and small displacements of the outer nodes of the mesh of large strains, and of the turned mesh. -/
example (o o' : DBCOption) (ho : o ≠ .raw) (ho' : o' ≠ .raw) :=
  have hr := solids_at_rest (a := exampleSolid o) (b := exampleLoaded o)
    EAS.plane_isVoigt (linearLaw_smooth exampleMeshC (by simpa using exampleMeshC_posDef.isHermitian)) (Set.mem_univ 0)
    (Matrix.mulVec_zero exampleMeshC) exampleMeshC_posDef.posSemidef exampleWeight_smooth (fun _ => by simp [exampleWeight])
    exampleWeight_smooth (fun _ => by simp [exampleWeight]) exampleSolids
    (fun e he p hp => by
      obtain ⟨q, hq, rfl⟩ := List.mem_map.1 he
      obtain ⟨g, hg, rfl⟩ := List.mem_map.1 hp
      exact mul_nonneg (abs_nonneg _) ((EAS.gauss_exact 2).1.2 g hg).le)
    (exampleSolid_proper o ho) rfl rfl rfl
    (by
      have := exampleMesh_supported 0
      rw [List.map_map] at this
      show Spec.Supported exampleMeshFlags (System.mk exampleMeshFlags (List.map _ (List.map _ _))).scalar?
      rw [List.map_map]
      exact this)
  small_loads_turn (exampleSolid_turned o o' ho ho') hr.1 hr.2.1 fun K hK => by
    obtain ⟨K', e, g, hA⟩ := linear_system exampleMeshFlags _ exampleLoaded_elems.1
    have h1 := hA.matrix 0 _ (Analysis.rest_length (a := exampleSolid o))
    have h2 := hr.2.2.2.1.stiffness
    rw [hK] at h2
    obtain rfl := Option.some.inj (h1.symm.trans h2)
    exact Analysis.regular_of_supported hA (exampleLoaded_supported o 0)

end Ikarus
