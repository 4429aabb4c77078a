import Verif.Analysis.PathLemmas
import Verif.Analysis.SymmetryProps
import Verif.Analysis.RenumberPathProps

/-!
Lemmas for C123: path following runs of two structures whose displacements, residuals and stiffness matrices correspond to each
other under a linear map that keeps scalar products.
-/

namespace Ikarus

open Matrix

/-! ### Specification -/

/-- A one-to-one linear correspondence between vectors with `n` entries that keeps scalar products. -/
structure Spec.Congruence (n : Nat) (R : List ℝ → List ℝ → Prop) : Prop where
  length : ∀ {x x'}, R x x' → x.length = n
  length' : ∀ {x x'}, R x x' → x'.length = n
  forth : ∀ x : List ℝ, x.length = n → ∃ x', R x x'
  back : ∀ x' : List ℝ, x'.length = n → ∃ x, R x x'
  add : ∀ {x x' y y'}, R x x' → R y y' → R (List.zipWith (· + ·) x y) (List.zipWith (· + ·) x' y')
  smul : ∀ {x x'} (s : ℝ), R x x' → R (x.map fun c => s * c) (x'.map fun c => s * c)
  dot : ∀ {x x' y y'}, R x x' → R y y' → (List.zipWith (· * ·) x' y').sum = (List.zipWith (· * ·) x y).sum

/-- Arguments of the path following functions with the same numbers and corresponding vectors. -/
structure Spec.SameArgs (R : List ℝ → List ℝ → Prop) (p p' : PathArgs) : Prop where
  stepSize : p'.stepSize = p.stepSize
  DD : R p.DD p'.DD
  Dlambda : p'.Dlambda = p.Dlambda
  f : p'.f = p.f
  dfdDD : R p.dfdDD p'.dfdDD
  dfdDlambda : p'.dfdDlambda = p.dfdDlambda
  finite : p'.finite = p.finite
  currentStep : p'.currentStep = p.currentStep

/-- What is shown of two solves: the same load factor, numbers and success, and corresponding displacements. -/
structure Spec.SameShown (R : List ℝ → List ℝ → Prop) (s s' : PathAnalysis.Shown) : Prop where
  lam : s'.lam = s.lam
  x : R s.x s'.x
  args : Spec.SameArgs R s.args s'.args
  strategy : s'.strategy = s.strategy
  iterations : s'.iterations = s.iterations
  success : s'.success = s.success

/-- Two runs with the same success which show the same, solve by solve. -/
structure Spec.SameRun (R : List ℝ → List ℝ → Prop) (r r' : PathAnalysis.Run) : Prop where
  shown : List.Forall₂ (Spec.SameShown R) r.shown r'.shown
  success : r'.success = r.success

/-- The matrix maps no other vector than zero to zero. -/
def Spec.RegularMatrix (A : DMat ℝ) : Prop :=
  ∀ v : List ℝ, v.length = A.cols → (∀ i < A.rows, ∑ j ∈ Finset.range A.cols, A.val i j * v.getD j 0 = 0) → ∀ j < A.cols, v.getD j 0 = 0

open Classical in
/-- A linear solver that gives up at singular matrices: its answer is empty, so that no run ends with it. -/
noncomputable def Spec.careful (ls : DMat ℝ → List ℝ → List ℝ) (A : DMat ℝ) (b : List ℝ) : List ℝ :=
  if Spec.RegularMatrix A then ls A b else []

/-- The analysis with linear solvers that give up at singular matrices. -/
noncomputable def Spec.carefulAnalysis (a : PathAnalysis) : PathAnalysis :=
  { a with linSolve := Spec.careful a.linSolve, spd := Spec.careful a.spd }

/-! ### Correspondences -/

section Congruence

variable {n : Nat} {R : List ℝ → List ℝ → Prop}

theorem sqNorm_zip (x : List ℝ) : sqNorm x = (List.zipWith (· * ·) x x).sum := by
  unfold sqNorm
  rw [List.zipWith_self]

theorem sqNorm_zero_iff (x : List ℝ) : sqNorm x = 0 ↔ ∀ i < x.length, x.getD i 0 = 0 := by
  rw [sqNorm_getD, Finset.sum_eq_zero_iff_of_nonneg fun i _ => mul_self_nonneg _]
  exact ⟨fun h i hi => mul_self_eq_zero.1 (h i (Finset.mem_range.2 hi)), fun h i hi => by rw [h i (Finset.mem_range.1 hi), mul_zero]⟩

theorem sqNorm_replicate (m : Nat) : sqNorm (List.replicate m 0) = 0 := by simp [sqNorm]

namespace Spec.Congruence

theorem sq (h : Spec.Congruence n R) {x x' : List ℝ} (hx : R x x') : sqNorm x' = sqNorm x := by
  rw [sqNorm_zip, sqNorm_zip, h.dot hx hx]

theorem difference_getD {x y : List ℝ} (hx : x.length = n) (hy : y.length = n) {i : Nat} (hi : i < n) :
    (List.zipWith (· + ·) x (y.map fun c => -1 * c)).getD i 0 = x.getD i 0 - y.getD i 0 := by
  rw [zipAdd_getD hx (by simp [hy]) hi, map_getD _ (by simp)]
  ring

theorem difference_zero {x y : List ℝ} (hx : x.length = n) (hy : y.length = n)
    (h : sqNorm (List.zipWith (· + ·) x (y.map fun c => -1 * c)) = 0) : x = y := by
  rw [sqNorm_zero_iff] at h
  have hl : (List.zipWith (· + ·) x (y.map fun c => -1 * c)).length = n := by simp [hx, hy]
  rw [hl] at h
  refine List.ext_getElem? fun i => ?_
  by_cases hi : i < n
  · have := h i hi
    rw [difference_getD hx hy hi] at this
    rw [getElem?_eq_getD (hx ▸ hi), getElem?_eq_getD (hy ▸ hi), sub_eq_zero.1 this]
  · rw [List.getElem?_eq_none (by omega), List.getElem?_eq_none (by omega)]

theorem difference_self {x : List ℝ} (hx : x.length = n) : sqNorm (List.zipWith (· + ·) x (x.map fun c => -1 * c)) = 0 := by
  rw [sqNorm_zero_iff]
  intro i hi
  rw [difference_getD hx hx (by simpa [hx] using hi), sub_self]

theorem unique (h : Spec.Congruence n R) {x x' y' : List ℝ} (h1 : R x x') (h2 : R x y') : x' = y' :=
  difference_zero (h.length' h1) (h.length' h2) (by rw [h.sq (h.add h1 (h.smul (-1) h2)), difference_self (h.length h1)])

theorem unique' (h : Spec.Congruence n R) {x y x' : List ℝ} (h1 : R x x') (h2 : R y x') : x = y :=
  difference_zero (h.length h1) (h.length h2) (by rw [← h.sq (h.add h1 (h.smul (-1) h2)), difference_self (h.length' h1)])

theorem const_zero (h : Spec.Congruence n R) {x x' : List ℝ} (hx : R x x') : R (x.map fun _ => 0) (x'.map fun _ => 0) := by
  have := h.smul 0 hx
  simpa only [zero_mul] using this

theorem zero (h : Spec.Congruence n R) : R (List.replicate n 0) (List.replicate n 0) := by
  obtain ⟨x', hx⟩ := h.forth (List.replicate n 0) (by simp)
  have := h.const_zero hx
  simpa [List.map_const', h.length' hx] using this

theorem neg (h : Spec.Congruence n R) {x x' : List ℝ} (hx : R x x') : R (x.map fun b => -b) (x'.map fun b => -b) := by
  have := h.smul (-1) hx
  simpa only [neg_one_mul] using this

theorem div (h : Spec.Congruence n R) {x x' : List ℝ} (hx : R x x') (s : ℝ) : R (x.map fun b => b / s) (x'.map fun b => b / s) := by
  have := h.smul s⁻¹ hx
  simpa only [inv_mul_eq_div] using this

theorem scale (h : Spec.Congruence n R) {x x' : List ℝ} (hx : R x x') (s t : ℝ) :
    R (x.map fun b => b * s / t) (x'.map fun b => b * s / t) := by
  have := h.smul (s / t) hx
  have e : ∀ b : ℝ, s / t * b = b * s / t := fun b => by ring
  simpa only [e] using this

end Spec.Congruence

/-- Matrices that map corresponding vectors to corresponding vectors. -/
structure Acts (n : Nat) (R : List ℝ → List ℝ → Prop) (A A' : DMat ℝ) : Prop where
  rows : A.rows = n
  cols : A.cols = n
  rows' : A'.rows = n
  cols' : A'.cols = n
  map : ∀ v v', R v v' → R (listOf n fun i => ∑ j ∈ Finset.range n, A.val i j * v.getD j 0)
    (listOf n fun i => ∑ j ∈ Finset.range n, A'.val i j * v'.getD j 0)

theorem zero_iff_sq {v : List ℝ} (hv : v.length = n) : sqNorm v = 0 ↔ ∀ i < n, v.getD i 0 = 0 := by
  rw [sqNorm_zero_iff, hv]

theorem Acts.regular (h : Spec.Congruence n R) {A A' : DMat ℝ} (hA : Acts n R A A') (hr : Spec.RegularMatrix A) :
    Spec.RegularMatrix A' := by
  intro v' hv' h0
  rw [hA.cols'] at hv' h0 ⊢
  rw [hA.rows'] at h0
  obtain ⟨v, hv⟩ := h.back v' hv'
  have h1 := hA.map v v' hv
  have h2 : sqNorm (listOf n fun i => ∑ j ∈ Finset.range n, A.val i j * v.getD j 0) = 0 := by
    rw [← h.sq h1, zero_iff_sq (listOf_length _ _)]
    intro i hi
    rw [listOf_getD _ _ hi, h0 i hi]
  rw [zero_iff_sq (listOf_length _ _)] at h2
  have h3 := hr v (by rw [hA.cols]; exact h.length hv) fun i hi => by
    rw [hA.rows] at hi
    rw [hA.cols, ← listOf_getD n (fun i => ∑ j ∈ Finset.range n, A.val i j * v.getD j 0) hi, h2 i hi]
  rw [hA.cols, ← zero_iff_sq (h.length hv), ← h.sq hv, zero_iff_sq hv'] at h3
  exact h3

/-- Square regular systems have solutions. -/
theorem regular_solvable {A : DMat ℝ} (hs : A.rows = A.cols) (hr : Spec.RegularMatrix A) (b : List ℝ) :
    ∃ c : List ℝ, c.length = A.cols ∧ ∀ i < A.rows, ∑ j ∈ Finset.range A.cols, A.val i j * c.getD j 0 = b.getD i 0 := by
  let M : Matrix (Fin A.cols) (Fin A.cols) ℝ := Matrix.of fun i j => A.val i j
  have hsum : ∀ (v : Fin A.cols → ℝ) (i : Fin A.cols),
      ∑ j ∈ Finset.range A.cols, A.val i j * (List.ofFn v).getD j 0 = (M *ᵥ v) i := by
    intro v i
    rw [Finset.sum_range]
    refine Finset.sum_congr rfl fun j _ => ?_
    congr 1
    rw [List.getD_eq_getElem?_getD, List.getElem?_ofFn]
    simp
  have hinj : Function.Injective M.mulVec := by
    refine (injective_iff_map_eq_zero (Matrix.mulVecLin M)).2 fun v hv => ?_
    have := hr (List.ofFn v) (by simp) fun i hi => by
      have := hsum v ⟨i, hs ▸ hi⟩
      rw [this]
      exact congrFun hv _
    funext j
    have := this j j.2
    rw [List.getD_eq_getElem?_getD, List.getElem?_ofFn] at this
    simpa using this
  have hsurj : Function.Surjective (Matrix.mulVecLin M) := LinearMap.injective_iff_surjective.1 hinj
  obtain ⟨v, hv⟩ := hsurj fun i => b.getD i 0
  refine ⟨List.ofFn v, by simp, fun i hi => ?_⟩
  have := hsum v ⟨i, hs ▸ hi⟩
  rw [this]
  exact congrFun hv _

theorem careful_regular {ls : DMat ℝ → List ℝ → List ℝ} {A : DMat ℝ} {b : List ℝ} (h : (Spec.careful ls A b).length = A.cols) :
    Spec.RegularMatrix A := by
  by_contra hr
  unfold Spec.careful at h
  rw [if_neg hr] at h
  exact hr fun v hv _ j hj => absurd hj (by rw [← h]; simp)

theorem careful_exact {ls : DMat ℝ → List ℝ → List ℝ} (he : Spec.ExactSolver ls) {A : DMat ℝ} (hs : A.rows = A.cols)
    (hr : Spec.RegularMatrix A) : Spec.SolvesExactly (Spec.careful ls) A := by
  intro b hb
  unfold Spec.careful
  rw [if_pos hr]
  exact he A hs (fun b _ => regular_solvable hs hr b) b hb

/-- Where the careful solver answers, the solver of the other structure gives the corresponding answer. -/
theorem Acts.solve (h : Spec.Congruence n R) {A A' : DMat ℝ} (hA : Acts n R A A') {ls ls' : DMat ℝ → List ℝ → List ℝ}
    (he : Spec.ExactSolver ls) (he' : Spec.ExactSolver ls') {b b' : List ℝ} (hb : R b b')
    (hl : (Spec.careful ls A b).length = n) : R (Spec.careful ls A b) (ls' A' b') := by
  have hr := careful_regular (hl.trans hA.cols.symm)
  obtain ⟨-, h2⟩ := careful_exact he (hA.rows.trans hA.cols.symm) hr b ((h.length hb).trans hA.rows.symm)
  generalize Spec.careful ls A b = c at *
  obtain ⟨c', hc⟩ := h.forth c hl
  have hr' := hA.regular h hr
  obtain ⟨g1, g2⟩ := he' A' (hA.rows'.trans hA.cols'.symm) (fun b _ => regular_solvable (hA.rows'.trans hA.cols'.symm) hr' b) b'
    ((h.length' hb).trans hA.rows'.symm)
  generalize ls' A' b' = w at *
  rw [hA.cols'] at g1 g2
  rw [hA.rows'] at g2
  rw [hA.rows, hA.cols] at h2
  have e1 : (listOf n fun i => ∑ j ∈ Finset.range n, A.val i j * c.getD j 0) = b := by
    refine List.ext_getElem? fun i => ?_
    by_cases hi : i < n
    · rw [getElem?_eq_getD (by rw [listOf_length]; exact hi), getElem?_eq_getD (h.length hb ▸ hi), listOf_getD _ _ hi, h2 i hi]
    · rw [List.getElem?_eq_none (by rw [listOf_length]; omega), List.getElem?_eq_none (by rw [h.length hb]; omega)]
  have e2 := hA.map c c' hc
  rw [e1] at e2
  have e3 := h.unique hb e2
  have hd : sqNorm (List.zipWith (· + ·) w (c'.map fun b => -1 * b)) = 0 := by
    have hlc := h.length' hc
    have hlen : (List.zipWith (· + ·) w (c'.map fun b => -1 * b)).length = n := by simp [g1, hlc]
    rw [zero_iff_sq hlen]
    have := hr' (List.zipWith (· + ·) w (c'.map fun b => -1 * b)) (by rw [hlen, hA.cols']) fun i hi => by
      rw [hA.rows'] at hi
      rw [hA.cols']
      have e4 : ∑ j ∈ Finset.range n, A'.val i j * (List.zipWith (· + ·) w (c'.map fun b => -1 * b)).getD j 0 =
          ∑ j ∈ Finset.range n, A'.val i j * w.getD j 0 - ∑ j ∈ Finset.range n, A'.val i j * c'.getD j 0 := by
        rw [← Finset.sum_sub_distrib]
        exact Finset.sum_congr rfl fun j hj => by
          rw [Spec.Congruence.difference_getD g1 hlc (Finset.mem_range.1 hj), mul_sub]
      rw [e4, g2 i hi, e3, listOf_getD _ _ hi, sub_self]
    rw [hA.cols'] at this
    exact this
  rw [Spec.Congruence.difference_zero g1 (h.length' hc) hd]
  exact hc

end Congruence

/-! ### Simulation -/

/-- Where the first computation ends with a result, the second ends with a corresponding one. -/
def Sim {α β : Type} (S : α → β → Prop) (e : Except PathFault α) (e' : Except PathFault β) : Prop :=
  ∀ r, e = .ok r → ∃ r', e' = .ok r' ∧ S r r'

section Sim

variable {α β γ δ : Type} {S : α → β → Prop} {T : γ → δ → Prop}

theorem Sim.ok {r : α} {r' : β} (h : S r r') : Sim S (.ok r) (.ok r') := fun _ e => by
  cases e
  exact ⟨r', rfl, h⟩

theorem Sim.bind {e : Except PathFault α} {e' : Except PathFault β} {f : α → Except PathFault γ} {f' : β → Except PathFault δ}
    (h : Sim S e e') (hf : ∀ r r', S r r' → Sim T (f r) (f' r')) : Sim T (e.bind f) (e'.bind f') := fun t ht => by
  obtain ⟨r, h1, h2⟩ := bind_ok.1 ht
  obtain ⟨r', h3, h4⟩ := h r h1
  obtain ⟨t', h5, h6⟩ := hf r r' h4 t h2
  exact ⟨t', bind_ok.2 ⟨r', h3, h5⟩, h6⟩

theorem Sim.map {e : Except PathFault α} {e' : Except PathFault β} {f : α → γ} {f' : β → δ}
    (h : Sim S e e') (hf : ∀ r r', S r r' → T (f r) (f' r')) : Sim T (e.map f) (e'.map f') := fun t ht => by
  obtain ⟨r, h1, h2⟩ := map_ok.1 ht
  obtain ⟨r', h3, h4⟩ := h r h1
  exact ⟨f' r', map_ok.2 ⟨r', h3, rfl⟩, h2 ▸ hf r r' h4⟩

theorem Sim.error {f : PathFault} {e' : Except PathFault β} : Sim S (.error f) e' := fun _ e => by cases e

theorem Sim.eq {e e' : Except PathFault α} (h : e' = e) : Sim (fun r r' => r' = r) e e' := fun r hr => ⟨r, h.trans hr, rfl⟩

theorem Sim.ite {c c' : Prop} [Decidable c] [Decidable c'] {e₁ e₂ : Except PathFault α} {e₁' e₂' : Except PathFault β} (hc : c' ↔ c)
    (h1 : c → Sim S e₁ e₁') (h2 : ¬ c → Sim S e₂ e₂') : Sim S (if c then e₁ else e₂) (if c' then e₁' else e₂') := by
  by_cases h : c
  · rw [if_pos h, if_pos (hc.2 h)]; exact h1 h
  · rw [if_neg h, if_neg fun h' => h (hc.1 h')]; exact h2 h

theorem Sim.evaluated {o : Option α} {o' : Option β} {r : α} {r' : β} (h : o = some r) (h' : o' = some r') (hs : S r r') :
    Sim S (Ikarus.evaluated o) (Ikarus.evaluated o') := by
  rw [h, h']
  exact Sim.ok hs

variable {n : Nat} {R : List ℝ → List ℝ → Prop}

theorem Sim.dotSized (h : Spec.Congruence n R) {u u' v v' : List ℝ} (hu : R u u') (hv : v.length = n → R v v') :
    Sim (fun c c' => c' = c ∧ R v v') (Ikarus.dotSized u v) (Ikarus.dotSized u' v') := fun c hc => by
  unfold Ikarus.dotSized at hc ⊢
  split at hc
  · rename_i hl
    have hv := hv (hl.symm.trans (h.length hu))
    cases hc
    refine ⟨_, by rw [if_pos ((h.length' hu).trans (h.length' hv).symm)], h.dot hu hv, hv⟩
  · cases hc

theorem Sim.addSized (h : Spec.Congruence n R) {u u' v v' : List ℝ} (hu : R u u') (hv : R v v') :
    Sim R (Ikarus.addSized u v) (Ikarus.addSized u' v') := by
  unfold Ikarus.addSized
  rw [if_pos ((h.length hu).trans (h.length hv).symm), if_pos ((h.length' hu).trans (h.length' hv).symm)]
  exact Sim.ok (h.add hu hv)

end Sim

/-! ### The run -/

/-- Two path following analyses without prescribed displacements, with option Full, whose systems correspond.  The linear solvers answer
alike where the first one gives a vector of the right size. -/
structure RunsAlong (n : Nat) (R : List ℝ → List ℝ → Prop) (M : DMat ℝ → DMat ℝ → Prop) (a b : PathAnalysis) : Prop where
  congr : Spec.Congruence n R
  settings : b.settings = a.settings
  steps : b.steps = a.steps
  stepSize : b.stepSize = a.stepSize
  full : a.option = .full
  full' : b.option = .full
  size : a.dv.flags.length = n
  size' : b.dv.flags.length = n
  force : a.withForce = false
  force' : b.withForce = false
  adapt : ∀ k p p', Spec.SameArgs R p p' → b.adapt k p' = a.adapt k p
  solver : ∀ A A' c c', M A A' → R c c' → (a.linSolve A c).length = n → R (a.linSolve A c) (b.linSolve A' c')
  spd : ∀ A A' c c', M A A' → R c c' → (a.spd A c).length = n → R (a.spd A c) (b.spd A' c')
  residual : ∀ l x x', R x x' → ∃ r r', a.residual? ⟨l, some x⟩ = some r ∧ b.residual? ⟨l, some x'⟩ = some r' ∧ R r r'
  jacobian : ∀ l x x', R x x' → ∃ A A', a.jacobian? ⟨l, some x⟩ = some A ∧ b.jacobian? ⟨l, some x'⟩ = some A' ∧ M A A'

namespace RunsAlong

open PathAnalysis

variable {n : Nat} {R : List ℝ → List ℝ → Prop} {M : DMat ℝ → DMat ℝ → Prop} {a b : PathAnalysis} {p : PathStrategy}

/-- The path following function is arc length or load control. -/
def _root_.Ikarus.Spec.ByArcOrLoad : PathStrategy → Prop
  | .arcLength _ _ => True
  | .loadControl _ => True
  | .displacementControl _ _ => False

theorem update_sim (h : RunsAlong n R M a b) (l : ℝ) {x x' D D' : List ℝ} (hx : R x x') (hD : R D D') :
    Sim R (evaluated (a.update ⟨l, some x⟩ (some D)).x) (evaluated (b.update ⟨l, some x'⟩ (some D')).x) := by
  have e1 : (a.update ⟨l, some x⟩ (some D)).x = some (List.zipWith (· + ·) x D) := by
    show updateFunctor? (Assembler.create a.dv.flags) a.option x D = _
    exact update_full_increment a.dv.flags x D a.option (by rw [h.full]; simp) ((h.congr.length hx).trans h.size.symm)
      ((h.congr.length hD).trans h.size.symm)
  have e2 : (b.update ⟨l, some x'⟩ (some D')).x = some (List.zipWith (· + ·) x' D') := by
    show updateFunctor? (Assembler.create b.dv.flags) b.option x' D' = _
    exact update_full_increment b.dv.flags x' D' b.option (by rw [h.full']; simp) ((h.congr.length' hx).trans h.size'.symm)
      ((h.congr.length' hD).trans h.size'.symm)
  exact Sim.evaluated e1 e2 (h.congr.add hx hD)

theorem residual_sim (h : RunsAlong n R M a b) (l : ℝ) {x x' : List ℝ} (hx : R x x') :
    Sim R (evaluated (a.residual? ⟨l, some x⟩)) (evaluated (b.residual? ⟨l, some x'⟩)) := by
  obtain ⟨r, r', h1, h2, h3⟩ := h.residual l x x' hx
  exact Sim.evaluated h1 h2 h3

theorem jacobian_sim (h : RunsAlong n R M a b) (l : ℝ) {x x' : List ℝ} (hx : R x x') :
    Sim M (evaluated (a.jacobian? ⟨l, some x⟩)) (evaluated (b.jacobian? ⟨l, some x'⟩)) := by
  obtain ⟨r, r', h1, h2, h3⟩ := h.jacobian l x x' hx
  exact Sim.evaluated h1 h2 h3

theorem origin (h : RunsAlong n R M a b) {x x' : List ℝ} (hx : R x x') : R (List.replicate x.length 0) (List.replicate x'.length 0) := by
  rw [h.congr.length hx, h.congr.length' hx]
  exact h.congr.zero

theorem loadColumn_sim (h : RunsAlong n R M a b) (l : ℝ) {x x' : List ℝ} (hx : R x x') :
    Sim R (a.loadColumn l x) (b.loadColumn l x') := by
  unfold loadColumn
  refine Sim.bind (h.residual_sim 1 (h.origin hx)) fun r r' hr => ?_
  have e : a.withForce = false := h.force
  simp only [e, h.force', Bool.false_eq_true, if_false]
  exact Sim.ok (h.congr.neg hr)

theorem synchronised_sim (h : RunsAlong n R M a b) (l : ℝ) {x x' : List ℝ} (hx : R x x') :
    Sim R (a.synchronised l x) (b.synchronised l x') := by
  unfold synchronised
  have e : a.withForce = false := h.force
  simp only [e, h.force', Bool.false_eq_true, if_false]
  exact Sim.ok hx

theorem subsidiary_sim (h : RunsAlong n R M a b) (hp : Spec.ByArcOrLoad p) (l : ℝ) {x x' : List ℝ} {q q' : PathArgs}
    (hq : Spec.SameArgs R q q') : Sim (Spec.SameArgs R) (a.subsidiary p l x q) (b.subsidiary p l x' q') := by
  have e : a.withForce = false := h.force
  cases p with
  | arcLength psi predicted =>
    simp only [subsidiary, PathAnalysis.idbcIncrement, e, h.force', Bool.false_eq_true, if_false, Except.bind, sqNorm_replicate, add_zero,
      h.congr.sq hq.DD, hq.Dlambda, hq.stepSize, List.map_replicate, zero_div, zero_add]
    refine Sim.ite Iff.rfl (fun _ => Sim.ok ?_) fun _ => Sim.ok ?_
    · exact ⟨rfl, hq.DD, rfl, rfl, h.congr.const_zero hq.dfdDD, rfl, rfl, hq.currentStep⟩
    · exact ⟨rfl, hq.DD, rfl, rfl, h.congr.div hq.DD _, rfl, rfl, hq.currentStep⟩
  | loadControl predicted =>
    simp only [subsidiary, e, h.force', Bool.false_eq_true, if_false, hq.Dlambda, hq.stepSize]
    exact Sim.ok ⟨rfl, hq.DD, rfl, rfl, h.congr.const_zero hq.dfdDD, rfl, rfl, hq.currentStep⟩
  | displacementControl c predicted => exact absurd hp id

/-- Corresponding states of the two solves. -/
structure Same (M : DMat ℝ → DMat ℝ → Prop) (R : List ℝ → List ℝ → Prop) (s s' : State) : Prop where
  lam : s'.lam = s.lam
  x : R s.x s'.x
  rx : R s.rx s'.rx
  Ax : M s.Ax s'.Ax
  args : Spec.SameArgs R s.args s'.args
  rNorm : s'.rNorm = s.rNorm
  iter : s'.iter = s.iter

theorem iteration_sim (h : RunsAlong n R M a b) (hp : Spec.ByArcOrLoad p) {s s' : State} (hs : Same M R s s') :
    Sim (Same M R) (a.iteration p s) (b.iteration p s') := by
  unfold iteration
  rw [hs.lam]
  refine Sim.bind (h.loadColumn_sim s.lam hs.x) fun load load' hload => ?_
  have hsol : ∀ {w w' : List ℝ}, R w w' → (a.linSolve s.Ax w).length = n →
      R (a.linSolve s.Ax w) (b.linSolve s'.Ax w') := fun hw hl =>
    h.solver _ _ _ _ hs.Ax hw hl
  refine Sim.bind (Sim.dotSized h.congr hs.args.dfdDD (hsol (h.congr.neg hs.rx))) fun cR cR' hR => ?_
  refine Sim.bind (Sim.dotSized h.congr hs.args.dfdDD (hsol hload)) fun cL cL' hL => ?_
  refine Sim.bind (Sim.eq (by rw [hR.1, hL.1, hs.args.finite, hs.args.f, hs.args.dfdDlambda])) fun dl dl' hdl => ?_
  rw [hdl]
  refine Sim.bind (Sim.addSized h.congr hR.2 (h.congr.smul dl hL.2)) fun D D' hD => ?_
  refine Sim.bind (h.update_sim s.lam hs.x hD) fun x x' hx => ?_
  refine Sim.bind (Sim.addSized h.congr hs.args.DD hD) fun DD DD' hDD => ?_
  refine Sim.bind (h.synchronised_sim _ hx) fun y y' hy => ?_
  refine Sim.bind (h.residual_sim _ hy) fun rx rx' hrx => ?_
  refine Sim.bind (h.jacobian_sim _ hy) fun A A' hA => ?_
  refine Sim.map (h.subsidiary_sim hp _ ⟨hs.args.stepSize, hDD, by rw [hs.args.Dlambda], hs.args.f, hs.args.dfdDD,
    hs.args.dfdDlambda, hs.args.finite, hs.args.currentStep⟩) fun q q' hq => ?_
  exact ⟨rfl, hy, hrx, hA, hq, by rw [h.congr.sq hrx, hq.f], by rw [hs.iter]⟩

theorem iterations_sim (h : RunsAlong n R M a b) (hp : Spec.ByArcOrLoad p) (m : Nat) {s s' : State} (hs : Same M R s s') :
    Sim (Same M R) (a.iterations p m s) (b.iterations p m s') := by
  induction m generalizing s s' with
  | zero => exact Sim.ok hs
  | succ m ih =>
    unfold iterations
    refine Sim.ite (by rw [hs.rNorm, h.settings]) (fun _ => ?_) fun _ => Sim.ok hs
    exact Sim.bind (h.iteration_sim hp hs) fun t t' ht => ih ht

theorem start_sim (h : RunsAlong n R M a b) (hp : Spec.ByArcOrLoad p) (l : ℝ) {x x' : List ℝ} {q q' : PathArgs} (hx : R x x')
    (hq : Spec.SameArgs R q q') : Sim (Same M R) (a.start p l x q) (b.start p l x' q') := by
  unfold start
  refine Sim.bind (h.residual_sim 1 (h.origin hx)) fun r0 r0' hr0 => ?_
  refine Sim.bind (h.residual_sim l hx) fun rx rx' hrx => ?_
  refine Sim.bind (h.jacobian_sim l hx) fun A A' hA => ?_
  rw [if_pos ((h.congr.length hq.dfdDD).trans (h.congr.length hr0).symm),
    if_pos ((h.congr.length' hq.dfdDD).trans (h.congr.length' hr0).symm)]
  refine Sim.map (h.subsidiary_sim hp l ⟨hq.stepSize, hq.DD, hq.Dlambda, hq.f, hq.dfdDD, hq.dfdDlambda, hq.finite, hq.currentStep⟩)
    fun t t' ht => ?_
  exact ⟨rfl, hx, hrx, hA, ht, by rw [h.congr.sq hrx], rfl⟩

theorem solve_sim (h : RunsAlong n R M a b) (hp : Spec.ByArcOrLoad p) (l : ℝ) {x x' : List ℝ} {q q' : PathArgs} (hx : R x x')
    (hq : Spec.SameArgs R q q') : Sim (Spec.SameShown R) (a.solve p l x q) (b.solve p l x' q') := by
  unfold solve
  refine Sim.bind (h.start_sim hp l hx hq) fun s s' hs => ?_
  rw [h.settings]
  exact Sim.map (h.iterations_sim hp _ hs) fun t t' ht => ⟨ht.lam, ht.x, ht.args, rfl, ht.iter, by rw [ht.iter]⟩

/-- Corresponding predictions. -/
structure SamePredicted (R : List ℝ → List ℝ → Prop) (q q' : Predicted) : Prop where
  lam : q'.lam = q.lam
  x : R q.x q'.x
  args : Spec.SameArgs R q.args q'.args
  strategy : q'.strategy = q.strategy
  kind : Spec.ByArcOrLoad q.strategy

theorem initial_sim (h : RunsAlong n R M a b) (hp : Spec.ByArcOrLoad p) (l : ℝ) {x x' : List ℝ} {q q' : PathArgs} (hx : R x x')
    (hq : Spec.SameArgs R q q') :
    Sim (SamePredicted R) (a.initialPrediction p l x q) (b.initialPrediction p l x' q') := by
  have e : a.withForce = false := h.force
  cases p with
  | arcLength psi predicted =>
    unfold initialPrediction
    refine Sim.bind (S := fun δ δ' => sqNorm δ = 0 ∧ sqNorm δ' = 0) ?_ fun δ δ' hδ => ?_
    · simp only [PathAnalysis.idbcIncrement, e, h.force', Bool.false_eq_true, if_false]
      exact Sim.ok ⟨sqNorm_replicate _, sqNorm_replicate _⟩
    refine Sim.bind (h.residual_sim 1 hx) fun r r' hr => ?_
    refine Sim.bind (h.jacobian_sim 1 hx) fun A A' hA => ?_
    refine Sim.bind (S := R) ?_ fun t t' ht => ?_
    · simp only [e, h.force', Bool.false_eq_true, if_false]
      exact Sim.ok hr
    have hz : ∀ (v : List ℝ) (s : ℝ), sqNorm v = 0 → sqNorm (v.map fun d => d * s) = 0 := fun v s hv => by
      rw [sqNorm_zero_iff] at hv ⊢
      intro i hi
      rw [map_getD _ (by simp), hv i (by simpa using hi), zero_mul]
    have hsol : (a.spd A (t.map fun b => -b)).length = n →
        R (a.spd A (t.map fun b => -b)) (b.spd A' (t'.map fun b => -b)) := fun hl =>
      h.spd _ _ _ _ hA (h.congr.neg ht) hl
    generalize a.spd A (t.map fun b => -b) = D at hsol ⊢
    generalize b.spd A' (t'.map fun b => -b) = D' at hsol ⊢
    by_cases hl : D.length = n
    · have hD := hsol hl
      simp only [hδ.1, hδ.2, add_zero, h.congr.sq hD, hz _ _ hδ.1, hz _ _ hδ.2, zero_add, hq.stepSize]
      refine Sim.ite Iff.rfl (fun _ => Sim.error) fun _ => ?_
      have hS := h.congr.scale hD q.stepSize √(sqNorm D + √(sqNorm D) * √(sqNorm D))
      refine Sim.bind (h.update_sim 1 hx hS) fun y y' hy => ?_
      refine Sim.bind (h.synchronised_sim _ hy) fun z z' hz => ?_
      refine Sim.ite Iff.rfl (fun _ => Sim.error) fun _ => Sim.ok ?_
      refine ⟨rfl, hz, ⟨rfl, hS, rfl, hq.f, hq.dfdDD, hq.dfdDlambda, hq.finite, hq.currentStep⟩, ?_, trivial⟩
      simp only [h.congr.sq hS]
    · intro w hw
      exfalso
      simp only at hw
      split at hw
      · cases hw
      · obtain ⟨y, hy, -⟩ := bind_ok.1 hw
        rw [evaluated_ok] at hy
        have hy : updateFunctor? (Assembler.create a.dv.flags) a.option x
            (D.map fun d => d * q.stepSize / √(sqNorm D + sqNorm δ + √(sqNorm D + sqNorm δ) * √(sqNorm D + sqNorm δ))) = some y := hy
        unfold updateFunctor? at hy
        rw [h.full, if_neg (by simp), if_neg (fun hc => hl (by
          have := hc.2
          rw [List.length_map] at this
          exact this.symm.trans h.size))] at hy
        unfold addVec? at hy
        rw [if_neg (by rw [List.length_map, h.congr.length hx]; exact fun e => hl e.symm)] at hy
        cases hy
  | loadControl predicted =>
    simp only [initialPrediction, e, h.force', Bool.false_eq_true, if_false, hq.stepSize]
    exact Sim.ok ⟨rfl, hx, ⟨rfl, hq.DD, rfl, hq.f, hq.dfdDD, hq.dfdDlambda, hq.finite, hq.currentStep⟩, rfl, trivial⟩
  | displacementControl c predicted => exact absurd hp id

theorem intermediate_sim (h : RunsAlong n R M a b) (hp : Spec.ByArcOrLoad p) (l : ℝ) {x x' : List ℝ} {q q' : PathArgs} (hx : R x x')
    (hq : Spec.SameArgs R q q') :
    Sim (SamePredicted R) (a.intermediatePrediction p l x q) (b.intermediatePrediction p l x' q') := by
  have e : a.withForce = false := h.force
  cases p with
  | arcLength psi predicted =>
    unfold intermediatePrediction
    refine Sim.ite Iff.rfl (fun _ => Sim.error) fun _ => ?_
    refine Sim.bind (h.update_sim l hx hq.DD) fun y y' hy => ?_
    rw [hq.Dlambda]
    exact Sim.map (h.synchronised_sim _ hy) fun z z' hz => ⟨rfl, hz, hq, rfl, trivial⟩
  | loadControl predicted =>
    simp only [intermediatePrediction, e, h.force', Bool.false_eq_true, if_false, hq.Dlambda]
    exact Sim.ite Iff.rfl (fun _ => Sim.error) fun _ => Sim.ok ⟨rfl, hx, hq, rfl, trivial⟩
  | displacementControl c predicted => exact absurd hp id

theorem solve_kind {p : PathStrategy} {l : ℝ} {x : List ℝ} {q : PathArgs} {s : Shown} (h : a.solve p l x q = .ok s) : s.strategy = p := by
  unfold solve at h
  obtain ⟨t, -, h⟩ := bind_ok.1 h
  obtain ⟨u, -, rfl⟩ := map_ok.1 h
  rfl

theorem solve_sim' (h : RunsAlong n R M a b) (hp : Spec.ByArcOrLoad p) (l : ℝ) {x x' : List ℝ} {q q' : PathArgs} (hx : R x x')
    (hq : Spec.SameArgs R q q') : Sim (fun s s' => Spec.SameShown R s s' ∧ Spec.ByArcOrLoad s.strategy)
      (a.solve p l x q) (b.solve p l x' q') := fun r hr => by
  obtain ⟨r', h1, h2⟩ := h.solve_sim hp l hx hq r hr
  exact ⟨r', h1, h2, by rw [solve_kind hr]; exact hp⟩

theorem loop_sim (h : RunsAlong n R M a b) (m ls : Nat) {s s' : Shown} (hs : Spec.SameShown R s s') (hp : Spec.ByArcOrLoad s.strategy) :
    Sim (Spec.SameRun R) (a.loop m ls s) (b.loop m ls s') := by
  induction m generalizing ls s s' with
  | zero => exact Sim.ok ⟨List.Forall₂.nil, rfl⟩
  | succ m ih =>
    unfold loop
    have hq : Spec.SameArgs R { s.args with currentStep := ls } { s'.args with currentStep := ls } :=
      ⟨hs.args.stepSize, hs.args.DD, hs.args.Dlambda, hs.args.f, hs.args.dfdDD, hs.args.dfdDlambda, hs.args.finite, rfl⟩
    refine Sim.bind (Sim.eq (e' := b.adapt s'.iterations _) (e := a.adapt s.iterations _)
      (by rw [hs.iterations]; exact h.adapt _ _ _ hq)) fun t t' ht => ?_
    rw [ht, hs.strategy, hs.lam]
    refine Sim.bind (h.intermediate_sim hp s.lam hs.x
      ⟨rfl, hq.DD, hq.Dlambda, hq.f, hq.dfdDD, hq.dfdDlambda, hq.finite, rfl⟩) fun u u' hu => ?_
    rw [hu.strategy, hu.lam]
    refine Sim.bind (h.solve_sim' hu.kind u.lam hu.x hu.args) fun v v' hv => ?_
    refine Sim.ite (by rw [hv.1.success]) (fun _ => Sim.ok ⟨List.Forall₂.cons hv.1 List.Forall₂.nil, rfl⟩) fun _ => ?_
    exact Sim.map (ih (ls + 1) hv.1 hv.2) fun w w' hw => ⟨List.Forall₂.cons hv.1 hw.shown, hw.success⟩

theorem run_sim (h : RunsAlong n R M a b) (hp : Spec.ByArcOrLoad p) (l : ℝ) {x x' : List ℝ} (hx : R x x') :
    Sim (Spec.SameRun R) (a.run p l x) (b.run p l x') := by
  unfold run
  refine Sim.ite (by rw [h.steps]) (fun _ => Sim.error) fun _ => ?_
  have hq : Spec.SameArgs R { PathArgs.setZero x.length with stepSize := a.stepSize }
      { PathArgs.setZero x'.length with stepSize := b.stepSize } :=
    ⟨h.stepSize, h.origin hx, rfl, rfl, h.origin hx, rfl, rfl, rfl⟩
  refine Sim.bind (h.solve_sim' hp l hx hq) fun s s' hs => ?_
  refine Sim.ite (by rw [hs.1.success]) (fun _ => Sim.ok ⟨List.Forall₂.cons hs.1 List.Forall₂.nil, rfl⟩) fun _ => ?_
  rw [hs.1.strategy, hs.1.lam]
  refine Sim.bind (h.initial_sim hs.2 s.lam hs.1.x hs.1.args) fun u u' hu => ?_
  rw [hu.strategy, hu.lam]
  refine Sim.bind (h.solve_sim' hu.kind u.lam hu.x hu.args) fun v v' hv => ?_
  refine Sim.ite (by rw [hv.1.success]) (fun _ => Sim.ok ⟨List.Forall₂.cons hs.1 (List.Forall₂.cons hv.1 List.Forall₂.nil), rfl⟩) fun _ => ?_
  rw [h.steps]
  exact Sim.map (h.loop_sim _ 1 hv.1 hv.2) fun w w' hw => ⟨List.Forall₂.cons hs.1 (List.Forall₂.cons hv.1 hw.shown), hw.success⟩

end RunsAlong

/-! ### Corresponding structures -/

/-- Residuals and stiffness matrices at corresponding displacements correspond, and so do the supports. -/
structure Corresponding (R : List ℝ → List ℝ → Prop) (a b : Analysis) : Prop where
  congr : Spec.Congruence a.dv.flags.length R
  size' : b.dv.flags.length = a.dv.flags.length
  masked : ∀ x x', R x x' → R (Spec.mask a.dv.flags x) (Spec.mask b.dv.flags x')
  systems : ∀ l x x', R x x' → ∃ r r' K K', (a.system l).rawVector? x = some r ∧ (b.system l).rawVector? x' = some r' ∧
    (a.system l).rawMatrix? x = some K ∧ (b.system l).rawMatrix? x' = some K' ∧ R r r' ∧
    ∀ v v', R v v' → R (listOf a.dv.flags.length fun i => ∑ j ∈ Finset.range a.dv.flags.length, K.val i j * v.getD j 0)
      (listOf a.dv.flags.length fun i => ∑ j ∈ Finset.range a.dv.flags.length, K'.val i j * v'.getD j 0)

/-- What the matrix with option Full does to a vector. -/
theorem full_acts (a : Analysis) (ho : a.option = .full) {l : ℝ} {x : List ℝ} {K : DMat ℝ} (hK : (a.system l).rawMatrix? x = some K) :
    ∃ A, a.jacobian? ⟨l, some x⟩ = some A ∧ A.rows = a.dv.flags.length ∧ A.cols = a.dv.flags.length ∧
      ∀ v : List ℝ, v.length = a.dv.flags.length →
        (listOf a.dv.flags.length fun i => ∑ j ∈ Finset.range a.dv.flags.length, A.val i j * v.getD j 0) =
        List.zipWith (· + ·) (Spec.mask a.dv.flags (listOf a.dv.flags.length fun i =>
            ∑ j ∈ Finset.range a.dv.flags.length, K.val i j * (Spec.mask a.dv.flags v).getD j 0))
          (List.zipWith (· + ·) v ((Spec.mask a.dv.flags v).map fun c => -1 * c)) := by
  unfold System.rawMatrix? at hK
  obtain ⟨fes, h1, h2⟩ := Option.bind_eq_some_iff.1 hK
  obtain ⟨A, hA, hr, hc, hv⟩ := fullMatrix_eq a.dv.flags fes K h2
  refine ⟨A, ?_, hr, hc, fun v hvl => ?_⟩
  · unfold Analysis.jacobian?
    rw [Option.bind_some, ho]
    show (a.system l).fullMatrix? x = _
    unfold System.fullMatrix?
    rw [h1, Option.bind_some]; exact hA
  have hml : ∀ w : List ℝ, w.length = a.dv.flags.length → (Spec.mask a.dv.flags w).length = a.dv.flags.length := fun w hw => by
    simp [Spec.mask, hw]
  refine List.ext_getElem? fun i => ?_
  by_cases hi : i < a.dv.flags.length
  · rw [getElem?_eq_getD (by rw [listOf_length]; exact hi), getElem?_eq_getD (by simp [hml, listOf_length, hvl]; exact hi), listOf_getD _ _ hi,
      zipAdd_getD (hml _ (listOf_length _ _)) (by simp [hml, hvl]) hi, Spec.Congruence.difference_getD hvl (hml v hvl) hi,
      mask_getD (listOf_length _ _), listOf_getD _ _ hi]
    congr 1
    by_cases hf : Spec.Free a.dv.flags i
    · rw [if_pos hf, mask_getD hvl, if_pos hf, sub_self, add_zero]
      refine Finset.sum_congr rfl fun j hj => ?_
      rw [hv i j hi (Finset.mem_range.1 hj), mask_getD hvl]
      by_cases hj' : Spec.Free a.dv.flags j
      · rw [if_pos ⟨hf, hj'⟩, if_pos hj']
      · rw [if_neg fun h => hj' h.2, if_neg hj', mul_zero, if_neg fun e : i = j => hj' (e ▸ hf), zero_mul]
    · rw [if_neg hf, mask_getD hvl, if_neg hf, sub_zero, zero_add, Finset.sum_eq_single i]
      · rw [hv i i hi hi, if_neg fun h => hf h.1, if_pos rfl, one_mul]
      · intro j hj hji
        rw [hv i j hi (Finset.mem_range.1 hj), if_neg fun h => hf h.1, if_neg fun e => hji e.symm, zero_mul]
      · intro hn
        exact absurd (Finset.mem_range.2 hi) hn
  · rw [List.getElem?_eq_none (by rw [listOf_length]; omega), List.getElem?_eq_none (by simp [hml, listOf_length, hvl]; omega)]

/-- What two users set up alike. -/
structure Spec.SameSetup (R : List ℝ → List ℝ → Prop) (a b : PathAnalysis) : Prop where
  settings : b.settings = a.settings
  steps : b.steps = a.steps
  stepSize : b.stepSize = a.stepSize
  full : a.option = .full
  full' : b.option = .full
  force : a.withForce = false
  force' : b.withForce = false
  adapt : ∀ k p p', Spec.SameArgs R p p' → b.adapt k p' = a.adapt k p
  solver : Spec.ExactSolver a.linSolve
  solver' : Spec.ExactSolver b.linSolve
  spd : Spec.ExactSolver a.spd
  spd' : Spec.ExactSolver b.spd

theorem corresponding_residual {R : List ℝ → List ℝ → Prop} {a b : PathAnalysis} (h : Corresponding R a.toAnalysis b.toAnalysis)
    (hs : Spec.SameSetup R a b) (l : ℝ) {x x' : List ℝ} (hx : R x x') :
    ∃ r r', a.residual? ⟨l, some x⟩ = some r ∧ b.residual? ⟨l, some x'⟩ = some r' ∧ R r r' := by
  obtain ⟨r, r', -, -, h1, h2, -, -, h3, -⟩ := h.systems l x x' hx
  refine ⟨_, _, a.residual_view (by rw [hs.full]; simp) h1, b.residual_view (by rw [hs.full']; simp) h2, ?_⟩
  unfold view
  rw [if_pos hs.full, if_pos hs.full']
  exact h.masked r r' h3

theorem corresponding_jacobian {R : List ℝ → List ℝ → Prop} {a b : PathAnalysis} (h : Corresponding R a.toAnalysis b.toAnalysis)
    (hs : Spec.SameSetup R a b) (l : ℝ) {x x' : List ℝ} (hx : R x x') :
    ∃ A A', a.jacobian? ⟨l, some x⟩ = some A ∧ b.jacobian? ⟨l, some x'⟩ = some A' ∧ Acts a.dv.flags.length R A A' := by
  obtain ⟨-, -, K, K', -, -, h1, h2, -, h3⟩ := h.systems l x x' hx
  obtain ⟨A, e1, e2, e3, e4⟩ := full_acts a.toAnalysis hs.full h1
  obtain ⟨A', g1, g2, g3, g4⟩ := full_acts b.toAnalysis hs.full' h2
  rw [h.size'] at g2 g3 g4
  refine ⟨A, A', e1, g1, e2, e3, g2, g3, fun v v' hv => ?_⟩
  rw [e4 v (h.congr.length hv), g4 v' (h.congr.length' hv)]
  exact h.congr.add (h.masked _ _ (h3 _ _ (h.masked _ _ hv))) (h.congr.add hv (h.congr.smul (-1) (h.masked _ _ hv)))

theorem corresponding_follows {R : List ℝ → List ℝ → Prop} {a b : PathAnalysis} (h : Corresponding R a.toAnalysis b.toAnalysis)
    (hs : Spec.SameSetup R a b) : RunsAlong a.dv.flags.length R (Acts a.dv.flags.length R) (Spec.carefulAnalysis a) b where
  congr := h.congr
  settings := hs.settings
  steps := hs.steps
  stepSize := hs.stepSize
  full := hs.full
  full' := hs.full'
  size := rfl
  size' := h.size'
  force := hs.force
  force' := hs.force'
  adapt := hs.adapt
  solver _ _ _ _ hA hc hl := hA.solve h.congr hs.solver hs.solver' hc hl
  spd _ _ _ _ hA hc hl := hA.solve h.congr hs.spd hs.spd' hc hl
  residual l _ _ hx := corresponding_residual h hs l hx
  jacobian l _ _ hx := corresponding_jacobian h hs l hx

theorem corresponding_run {R : List ℝ → List ℝ → Prop} {a b : PathAnalysis} (h : Corresponding R a.toAnalysis b.toAnalysis)
    (hs : Spec.SameSetup R a b) {p : PathStrategy} (hp : Spec.ByArcOrLoad p) (l : ℝ) {x x' : List ℝ} (hx : R x x')
    {r : PathAnalysis.Run} (hr : (Spec.carefulAnalysis a).run p l x = .ok r) :
    ∃ r', b.run p l x' = .ok r' ∧ Spec.SameRun R r r' := (corresponding_follows h hs).run_sim hp l hx r hr

end Ikarus
