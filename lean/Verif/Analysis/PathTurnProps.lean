import Verif.Analysis.PathTurnLemmas
import Verif.Analysis.PathExampleProps

/-!
C123: path following with arc length or load control, of structures that are turned, renumbered, symmetric, or solved with other
linear solvers.
-/

namespace Ikarus

open Matrix PathAnalysis Element Element.Spec

variable {k d : Nat} {Q : Matrix (Fin d) (Fin d) ℝ} {π : Equiv.Perm Nat}

/-! ### Specification -/

/-- Vectors with `n` entries that are the same. -/
def Spec.Equal (n : Nat) (x x' : List ℝ) : Prop := x.length = n ∧ x' = x

/-- The second vector has the entries of the first at the new numbers. -/
def Spec.Renumbered (π : Equiv.Perm Nat) (n : Nat) (x x' : List ℝ) : Prop := x.length = n ∧ x' = Spec.renumbered π x

/-! ### The correspondences -/

theorem equal_congruence (n : Nat) : Spec.Congruence n (Spec.Equal n) where
  length h := h.1
  length' h := by rw [h.2]; exact h.1
  forth x hx := ⟨x, hx, rfl⟩
  back x hx := ⟨x, hx, rfl⟩
  add h g := ⟨by simp [h.1, g.1], by rw [h.2, g.2]⟩
  smul s h := ⟨by simp [h.1], by rw [h.2]⟩
  dot h g := by rw [h.2, g.2]

theorem renumbered_congruence {n : Nat} (h : Spec.Renumbers π n) : Spec.Congruence n (Spec.Renumbered π n) where
  length g := g.1
  length' g := by rw [g.2, renumbered_length]; exact g.1
  forth x hx := ⟨_, hx, rfl⟩
  back x hx := ⟨Spec.renumbered π.symm x, by rw [renumbered_length, hx], (renumbered_symm' x (hx.symm ▸ h)).symm⟩
  add {x x' y y'} hx hy := by
    obtain ⟨hx, rfl⟩ := hx
    obtain ⟨hy, rfl⟩ := hy
    have hl : (List.zipWith (· + ·) x y).length = n := by simp [hx, hy]
    refine ⟨hl, renumbered_ext hl (by simp [renumbered_length, hx, hy]) h fun i hi => ?_⟩
    rw [zipAdd_getD (by rw [renumbered_length]; exact hx) (by rw [renumbered_length]; exact hy) ((h i).2 hi), zipAdd_getD hx hy hi,
      renumbered_getD x (hx.symm ▸ h), renumbered_getD y (hy.symm ▸ h)]
  smul {x x'} s hx := by
    obtain ⟨hx, rfl⟩ := hx
    have hl : (x.map fun c => s * c).length = n := by simp [hx]
    refine ⟨hl, renumbered_ext hl (by simp [renumbered_length, hx]) h fun i hi => ?_⟩
    rw [map_getD _ (by simp), map_getD _ (by simp), renumbered_getD x (hx.symm ▸ h)]
  dot {x x' y y'} hx hy := by
    obtain ⟨hx, rfl⟩ := hx
    obtain ⟨hy, rfl⟩ := hy
    rw [zipWith_sum_range _ _ _ n (by rw [renumbered_length]; exact hx) (by rw [renumbered_length]; exact hy),
      zipWith_sum_range _ _ _ n hx hy, sum_renumber h]
    exact Finset.sum_congr rfl fun i _ => by rw [renumbered_getD x (hx.symm ▸ h), renumbered_getD y (hy.symm ▸ h)]

theorem turned_congruence {size : Nat} (L : Spec.Layout k d size) (hQ : Qᵀ * Q = 1) : Spec.Congruence size (Spec.TurnedList L Q) where
  length h := h.length
  length' h := h.length'
  forth x hx := turned_exists L Q hx
  back x hx := turned_from hQ hx
  add hx hy := by
    refine ⟨by simp [hx.length, hy.length], by simp [hx.length', hy.length'], fun p a => ?_⟩
    rw [zipAdd_getD hx.length' hy.length' (L.bound p a), hx.value, hy.value, ← Finset.sum_add_distrib]
    refine Finset.sum_congr rfl fun b _ => ?_
    rw [zipAdd_getD hx.length hy.length (L.bound p b), mul_add]
  smul s hx := by
    refine ⟨by simp [hx.length], by simp [hx.length'], fun p a => ?_⟩
    rw [map_getD _ (by simp), hx.value, Finset.mul_sum]
    refine Finset.sum_congr rfl fun b _ => ?_
    rw [map_getD _ (by simp)]
    ring
  dot {x x' y y'} hx hy := by
    rw [zipWith_sum_range _ _ _ size hx.length' hy.length', zipWith_sum_range _ _ _ size hx.length hy.length, layout_sum L, layout_sum L]
    refine Finset.sum_congr rfl fun p _ => ?_
    have := orth_dot hQ (fun a => x.getD (L.dof p a) 0) (fun a => y.getD (L.dof p a) 0)
    have ex : (fun a => x'.getD (L.dof p a) 0) = Q *ᵥ fun a => x.getD (L.dof p a) 0 := funext fun a => hx.value p a
    have ey : (fun a => y'.getD (L.dof p a) 0) = Q *ᵥ fun a => y.getD (L.dof p a) 0 := funext fun a => hy.value p a
    rw [← ex, ← ey] at this
    exact this

theorem turned_mask {flags : List Bool} {L : Spec.Layout k d flags.length} (hf : Spec.Unmixed flags L Q) {x x' : List ℝ}
    (h : Spec.TurnedList L Q x x') : Spec.TurnedList L Q (Spec.mask flags x) (Spec.mask flags x') := by
  refine ⟨by simp [Spec.mask, h.length], by simp [Spec.mask, h.length'], fun p a => ?_⟩
  rw [mask_getD h.length']
  by_cases hp : Spec.Free flags (L.dof p a)
  · rw [if_pos hp, h.value]
    refine Finset.sum_congr rfl fun b _ => ?_
    by_cases hq : Q a b = 0
    · rw [hq, zero_mul, zero_mul]
    rw [mask_getD h.length, if_pos ((hf p a b hq).1 hp)]
  · rw [if_neg hp]
    symm
    refine Finset.sum_eq_zero fun b _ => ?_
    by_cases hq : Q a b = 0
    · rw [hq, zero_mul]
    rw [mask_getD h.length, if_neg fun hb => hp ((hf p a b hq).2 hb), mul_zero]

theorem turned_times {size : Nat} (L : Spec.Layout k d size) (hQ : Qᵀ * Q = 1) {K K' : DMat ℝ} (hK : Spec.TurnedMatrix L Q K K')
    {v v' : List ℝ} (hv : Spec.TurnedList L Q v v') :
    Spec.TurnedList L Q (listOf size fun i => ∑ j ∈ Finset.range size, K.val i j * v.getD j 0)
      (listOf size fun i => ∑ j ∈ Finset.range size, K'.val i j * v'.getD j 0) := by
  refine ⟨listOf_length _ _, listOf_length _ _, fun p a => ?_⟩
  have e1 : ∀ e, ∑ j ∈ Finset.range size, K.val (L.dof p e) j * v.getD j 0 =
      (∑ q, (Matrix.of fun e f => K.val (L.dof p e) (L.dof q f)) *ᵥ fun f => v.getD (L.dof q f) 0) e := fun e => by
    rw [layout_sum L, Finset.sum_apply]
    rfl
  have e2 : ∑ j ∈ Finset.range size, K'.val (L.dof p a) j * v'.getD j 0 =
      (∑ q, (Matrix.of fun e f => K'.val (L.dof p e) (L.dof q f)) *ᵥ fun f => v'.getD (L.dof q f) 0) a := by
    rw [layout_sum L, Finset.sum_apply]
    rfl
  have e3 : ∀ q, ((Matrix.of fun e f => K'.val (L.dof p e) (L.dof q f)) *ᵥ fun f => v'.getD (L.dof q f) 0) =
      Q *ᵥ ((Matrix.of fun e f => K.val (L.dof p e) (L.dof q f)) *ᵥ fun f => v.getD (L.dof q f) 0) := fun q => by
    have h2 : (Matrix.of fun e f => K'.val (L.dof p e) (L.dof q f)) =
        Q * (Matrix.of fun e f => K.val (L.dof p e) (L.dof q f)) * Qᵀ := by
      ext e f
      rw [Matrix.of_apply, hK, Matrix.mul_apply, Finset.sum_comm]
      refine Finset.sum_congr rfl fun g _ => ?_
      rw [Matrix.mul_apply, Finset.sum_mul]
      rfl
    have ev : (fun f => v'.getD (L.dof q f) 0) = Q *ᵥ fun f => v.getD (L.dof q f) 0 := funext fun f => hv.value q f
    rw [ev, h2, Matrix.mulVec_mulVec, Matrix.mul_assoc, hQ, Matrix.mul_one, Matrix.mulVec_mulVec]
  rw [listOf_getD _ _ (L.bound p a), e2, Finset.sum_congr rfl fun q _ => e3 q, ← Matrix.mulVec_sum]
  show ∑ e, Q a e * _ = _
  refine Finset.sum_congr rfl fun e _ => ?_
  rw [listOf_getD _ _ (L.bound p e), e1]

theorem renumbered_mask {fl fl' : List Bool} (hπ : Spec.Renumbers π fl.length) (hf : Spec.RenumberedFlags π fl fl') {x : List ℝ}
    (hx : x.length = fl.length) : Spec.mask fl' (Spec.renumbered π x) = Spec.renumbered π (Spec.mask fl x) := by
  have hl : (Spec.mask fl x).length = fl.length := by simp [Spec.mask, hx]
  have hl' : (Spec.renumbered π x).length = fl'.length := by rw [renumbered_length, hx, hf.1]
  refine renumbered_ext hl (by simp [Spec.mask, renumbered_length, hx, hf.1]) hπ fun i hi => ?_
  rw [mask_getD hl', mask_getD hx, renumbered_getD x (hx.symm ▸ hπ)]
  simp only [free_renumber hf]

theorem proper_total {a : Analysis} {û : Nat → ℝ} (hp : Spec.Proper a û) (l : ℝ) {x : List ℝ} (hx : x.length = a.dv.flags.length) :
    ∃ r K, (a.system l).rawVector? x = some r ∧ r.length = a.dv.flags.length ∧ (a.system l).rawMatrix? x = some K := by
  obtain ⟨-, r, K, -, h1, h2, h3, -, -⟩ := Analysis.proper_system hp l hx
  exact ⟨r, K, h1, h2, h3⟩

theorem turned_corresponding {a b : Analysis} {û û' : Nat → ℝ} {L : Spec.Layout k d a.dv.flags.length}
    (h : Spec.TurnedAnalyses a b û û' L Q) : Corresponding (Spec.TurnedList L Q) a b where
  congr := turned_congruence L h.orth
  size' := by rw [h.flags]
  masked x x' hx := by rw [h.flags]; exact turned_mask h.unmixed hx
  systems l x x' hx := by
    obtain ⟨r, r', K, K', h1, h2, h3, h4, h5, h6⟩ := h.systems l x x' hx
    exact ⟨r, r', K, K', h1, h2, h3, h4, h5, fun v v' hv => turned_times L h.orth h6 hv⟩

theorem renumbered_corresponding {a b : Analysis} {û û' : Nat → ℝ} (h : Spec.RenumberedAnalyses π a b û û') :
    Corresponding (Spec.Renumbered π a.dv.flags.length) a b where
  congr := renumbered_congruence h.renumbers
  size' := h.flags.1
  masked x x' hx := by
    obtain ⟨hx, rfl⟩ := hx
    exact ⟨by simp [Spec.mask, hx], renumbered_mask h.renumbers h.flags hx⟩
  systems l x x' hx := by
    obtain ⟨hx, rfl⟩ := hx
    obtain ⟨r, K, h1, h2, h3⟩ := proper_total h.proper l hx
    obtain ⟨-, s1, s2⟩ := assembled_renumbered (h.systems l) hx
    rw [h1] at s1
    rw [h3] at s2
    refine ⟨r, _, K, _, h1, s1, h3, s2, ⟨h2, rfl⟩, fun v v' hv => ?_⟩
    obtain ⟨hv, rfl⟩ := hv
    refine ⟨listOf_length _ _, renumbered_ext (listOf_length _ _) (listOf_length _ _) h.renumbers fun i hi => ?_⟩
    rw [listOf_getD _ _ ((h.renumbers i).2 hi), listOf_getD _ _ hi, times_renumber h.renumbers]
    exact Finset.sum_congr rfl fun j _ => by rw [renumbered_getD v (hv.symm ▸ h.renumbers)]

theorem equal_corresponding {a b : Analysis} {û : Nat → ℝ} (hp : Spec.Proper a û) (hf : b.dv.flags = a.dv.flags) (he : b.elems = a.elems) :
    Corresponding (Spec.Equal a.dv.flags.length) a b where
  congr := equal_congruence _
  size' := by rw [hf]
  masked x x' hx := by
    obtain ⟨hx, rfl⟩ := hx
    exact ⟨by simp [Spec.mask, hx], by rw [hf]⟩
  systems l x x' hx := by
    obtain ⟨hx, rfl⟩ := hx
    obtain ⟨r, K, h1, h2, h3⟩ := proper_total hp l hx
    have e : b.system l = a.system l := by
      unfold Analysis.system
      rw [hf, he]
    refine ⟨r, r, K, K, h1, by rw [e]; exact h1, h3, by rw [e]; exact h3, ⟨h2, rfl⟩, fun v v' hv => ?_⟩
    obtain ⟨hv, rfl⟩ := hv
    exact ⟨listOf_length _ _, rfl⟩

theorem sameArgs_eq {n : Nat} {p p' : PathArgs} (h : Spec.SameArgs (Spec.Equal n) p p') : p' = p := by
  obtain ⟨h1, h2, h3, h4, h5, h6, h7, h8⟩ := h
  cases p
  cases p'
  simp only at h1 h3 h4 h6 h7 h8
  obtain ⟨-, h2⟩ := h2
  obtain ⟨-, h5⟩ := h5
  simp only at h2 h5
  subst h1 h2 h3 h4 h5 h6 h7 h8
  rfl

theorem sameRun_eq {n : Nat} {r r' : Run} (h : Spec.SameRun (Spec.Equal n) r r') : r' = r := by
  obtain ⟨h1, h2⟩ := h
  cases r
  cases r'
  simp only at h1 h2
  subst h2
  congr 1
  induction h1 with
  | nil => rfl
  | @cons s s' _ _ hs _ ih =>
    rw [ih]
    congr 1
    obtain ⟨g1, g2, g3, g4, g5, g6⟩ := hs
    cases s
    cases s'
    simp only at g1 g4 g5 g6
    obtain ⟨-, g2⟩ := g2
    have g7 := sameArgs_eq g3
    clear g3
    simp only at g2 g7
    subst g1 g2 g7 g4 g5 g6
    rfl

/-! ### Path following -/

/-- C123, turning. Path following with arc length or load control, option Full, of a structure whose supports do not move, and of the
structure turned or reflected with its loads, and with a step size adaption that reads only numbers and lengths. If the run of the
structure meets no singular matrix, that is, ends without fault also with linear solvers that give up at singular matrices, then the run of the turned
structure ends without fault too: it makes the same solves with the same numbers of iterations and the same success and shows the
same load factors and the turned displacements. -/
theorem path_turned {a b : PathAnalysis} {û û' : Nat → ℝ} {L : Spec.Layout k d a.dv.flags.length}
    (h : Spec.TurnedAnalyses a.toAnalysis b.toAnalysis û û' L Q) (hs : Spec.SameSetup (Spec.TurnedList L Q) a b) {p : PathStrategy}
    (hp : Spec.ByArcOrLoad p) (l : ℝ) {x x' : List ℝ} (hx : Spec.TurnedList L Q x x') {r : Run}
    (hr : (Spec.carefulAnalysis a).run p l x = .ok r) :
    a.run p l x = .ok r ∧ ∃ r', b.run p l x' = .ok r' ∧ Spec.SameRun (Spec.TurnedList L Q) r r' := by
  refine ⟨?_, corresponding_run (turned_corresponding h) hs hp l hx hr⟩
  obtain ⟨r', h1, h2⟩ := corresponding_run (b := a) (equal_corresponding h.proper rfl rfl)
    ⟨rfl, rfl, rfl, hs.full, hs.full, hs.force, hs.force, fun k p p' e => by rw [sameArgs_eq e], hs.solver, hs.solver, hs.spd, hs.spd⟩ hp l
    ⟨hx.length, rfl⟩ hr
  rw [h1, sameRun_eq h2]

/-- C123, numbering. The same for the structure with another numbering of the dofs and another order of the elements: the same load
factors and the renumbered displacements are shown. -/
theorem path_renumbered {a b : PathAnalysis} {û û' : Nat → ℝ} (h : Spec.RenumberedAnalyses π a.toAnalysis b.toAnalysis û û')
    (hs : Spec.SameSetup (Spec.Renumbered π a.dv.flags.length) a b) {p : PathStrategy} (hp : Spec.ByArcOrLoad p) (l : ℝ) {x : List ℝ}
    (hx : x.length = a.dv.flags.length) {r : Run} (hr : (Spec.carefulAnalysis a).run p l x = .ok r) :
    a.run p l x = .ok r ∧ ∃ r', b.run p l (Spec.renumbered π x) = .ok r' ∧ Spec.SameRun (Spec.Renumbered π a.dv.flags.length) r r' := by
  refine ⟨?_, corresponding_run (renumbered_corresponding h) hs hp l ⟨hx, rfl⟩ hr⟩
  obtain ⟨r', h1, h2⟩ := corresponding_run (b := a) (equal_corresponding h.proper rfl rfl)
    ⟨rfl, rfl, rfl, hs.full, hs.full, hs.force, hs.force, fun k p p' e => by rw [sameArgs_eq e], hs.solver, hs.solver, hs.spd, hs.spd⟩ hp l
    ⟨hx, rfl⟩ hr
  rw [h1, sameRun_eq h2]

/-- C123, linear solvers. The run does not depend on the linear solvers, if these solve all systems that have solutions and the run
meets no singular matrix: all numbers that are shown are the same. -/
theorem path_solvers {a b : PathAnalysis} {û : Nat → ℝ} (h : Spec.Proper a.toAnalysis û) (hf : b.dv.flags = a.dv.flags)
    (he : b.elems = a.elems) (hs : Spec.SameSetup (Spec.Equal a.dv.flags.length) a b) {p : PathStrategy} (hp : Spec.ByArcOrLoad p)
    (l : ℝ) {x : List ℝ} (hx : x.length = a.dv.flags.length) {r : Run} (hr : (Spec.carefulAnalysis a).run p l x = .ok r) :
    a.run p l x = .ok r ∧ b.run p l x = .ok r := by
  constructor
  · obtain ⟨r', h1, h2⟩ := corresponding_run (b := a) (equal_corresponding h rfl rfl)
      ⟨rfl, rfl, rfl, hs.full, hs.full, hs.force, hs.force, fun k p p' e => by rw [sameArgs_eq e], hs.solver, hs.solver, hs.spd, hs.spd⟩ hp l
      ⟨hx, rfl⟩ hr
    rw [h1, sameRun_eq h2]
  · obtain ⟨r', h1, h2⟩ := corresponding_run (equal_corresponding h hf he) hs hp l ⟨hx, rfl⟩ hr
    rw [h1, sameRun_eq h2]

/-- C123, symmetry. A symmetric structure with symmetric loads, from a symmetric state: all displacements that path following with
arc length or load control shows are symmetric, also beyond points where other paths branch off, as long as no singular matrix is
met. -/
theorem path_symmetric {a : PathAnalysis} {û : Nat → ℝ} {L : Spec.Layout k d a.dv.flags.length} {σ : Equiv.Perm (Fin k)}
    (hp : Spec.Proper a.toAnalysis û) (hQ : Qᵀ * Q = 1) (hsup : Spec.SymmetricSupports a.dv.flags L Q σ û)
    (hsys : ∀ l, Spec.SymmetricSystem L Q σ (a.system l)) (hs : Spec.SameSetup (Spec.Image L Q σ) a a) {p : PathStrategy}
    (hp' : Spec.ByArcOrLoad p) (l : ℝ) {x : List ℝ} (hx : Spec.Image L Q σ x x) {r : Run}
    (hr : (Spec.carefulAnalysis a).run p l x = .ok r) :
    a.run p l x = .ok r ∧ ∀ s ∈ r.shown, Spec.Image L Q σ s.x s.x ∧ Spec.Image L Q σ s.args.DD s.args.DD := by
  have hz : ∀ i < a.dv.flags.length, û i = 0 := hp.force.resolve_left (by rw [hs.force]; simp)
  have hT := symmetric_turned hp (Or.inr hz) hs.solver hQ hsup hsys
  have e : (fun x y => Spec.Image L Q σ x y) = Spec.TurnedList (Spec.Layout.whole a.dv.flags.length) (symmetryMatrix L Q σ) := by
    funext x y
    exact propext (image_iff L σ x y)
  have e : Spec.Image L Q σ = Spec.TurnedList (Spec.Layout.whole a.dv.flags.length) (symmetryMatrix L Q σ) := e
  rw [e] at hs hx ⊢
  obtain ⟨h1, r', h2, h3⟩ := path_turned hT hs hp' l hx hr
  obtain rfl := Except.ok.inj (h1.symm.trans h2)
  exact ⟨h1, fun s hs => ⟨(forall₂_self h3.shown s hs).x, (forall₂_self h3.shown s hs).args.DD⟩⟩

/-! ### Regular matrices -/

theorem exact_regular {ls : DMat ℝ → List ℝ → List ℝ} {A : DMat ℝ} (hs : A.rows = A.cols) (h : Spec.SolvesExactly ls A) :
    Spec.RegularMatrix A := by
  let M : Matrix (Fin A.cols) (Fin A.cols) ℝ := Matrix.of fun i j => A.val i j
  have hsum : ∀ (v : List ℝ) (i : Fin A.cols), ∑ j ∈ Finset.range A.cols, A.val i j * v.getD j 0 = (M *ᵥ fun j => v.getD j 0) i := by
    intro v i
    rw [Finset.sum_range]
    rfl
  have hsurj : Function.Surjective (Matrix.mulVecLin M) := by
    intro y
    obtain ⟨-, h2⟩ := h (List.ofFn y) (by rw [List.length_ofFn, hs])
    refine ⟨fun j => (ls A (List.ofFn y)).getD j 0, funext fun i => ?_⟩
    have := h2 i (lt_of_lt_of_eq i.2 hs.symm)
    rw [hsum] at this
    refine this.trans ?_
    rw [List.getD_eq_getElem?_getD, List.getElem?_ofFn]
    simp
  have hinj : Function.Injective (Matrix.mulVecLin M) := LinearMap.injective_iff_surjective.2 hsurj
  intro v _ h0 j hj
  have : (fun j : Fin A.cols => v.getD j 0) = 0 := hinj (by
    rw [map_zero]
    funext i
    have := h0 i (lt_of_lt_of_eq i.2 hs.symm)
    rw [hsum] at this
    exact this)
  exact congrFun this ⟨j, hj⟩

theorem careful_solver {ls : DMat ℝ → List ℝ → List ℝ} (h : Spec.ExactSolver ls) : Spec.ExactSolver (Spec.careful ls) :=
  fun A hs hb => careful_exact h hs (exact_regular hs (h A hs hb))

/-- C123, no singular matrix. If the matrices at all states are regular, runs meet no singular matrix. -/
theorem path_regular {a : PathAnalysis} {û : Nat → ℝ} (h : Spec.Proper a.toAnalysis û) (ho : a.option = .full) (hf : a.withForce = false)
    (hreg : ∀ l (x : List ℝ), x.length = a.dv.flags.length → ∀ A, a.jacobian? ⟨l, some x⟩ = some A → Spec.RegularMatrix A)
    {p : PathStrategy} (hp : Spec.ByArcOrLoad p) (l : ℝ) {x : List ℝ} (hx : x.length = a.dv.flags.length) {r : Run}
    (hr : a.run p l x = .ok r) : (Spec.carefulAnalysis a).run p l x = .ok r := by
  have hF : RunsAlong a.dv.flags.length (Spec.Equal a.dv.flags.length) (fun A A' => A' = A ∧ Spec.RegularMatrix A) a (Spec.carefulAnalysis a) :=
    { congr := equal_congruence _, settings := rfl, steps := rfl, stepSize := rfl, full := ho, full' := ho, size := rfl, size' := rfl
      force := hf, force' := hf, adapt := fun k p p' e => by rw [sameArgs_eq e]; rfl
      solver := fun A A' c c' hA hc hl => by
        refine ⟨hl, ?_⟩
        rw [hA.1, hc.2]
        exact if_pos hA.2
      spd := fun A A' c c' hA hc hl => by
        refine ⟨hl, ?_⟩
        rw [hA.1, hc.2]
        exact if_pos hA.2
      residual := fun l x x' hx => by
        obtain ⟨hx, rfl⟩ := hx
        obtain ⟨r, h1, h2, -⟩ := residual_ok h l hx
        refine ⟨_, _, h1, h1, ?_, rfl⟩
        rw [view, if_pos ho]
        simp [Spec.mask, h2]
      jacobian := fun l x x' hx => by
        obtain ⟨hx, rfl⟩ := hx
        obtain ⟨A, h1, -⟩ := Analysis.jacobian_width h l hx
        exact ⟨A, A, h1, h1, rfl, hreg l x' hx A h1⟩ }
  obtain ⟨r', h1, h2⟩ := hF.run_sim hp l ⟨hx, rfl⟩ r hr
  rw [h1, sameRun_eq h2]

/-! ### Two bars whose ends are pulled apart -/

/-- Bars on a line for path following with steps of size one; `fl` tells which of the three dofs are held. -/
noncomputable def linePath (fl : List Bool) (es : List ParamElem) (steps : Nat) : PathAnalysis where
  dv := ⟨fl, 0, [], fun _ => true⟩
  alive := fun _ => true
  elems := es
  option := .full
  bound := none
  linSolve := Spec.inverseSolve
  settings := { tol := 1 / 1000, minIter := 1, maxIter := 20 }
  withForce := false
  spd := Spec.inverseSolve
  steps := steps
  stepSize := 1
  adapt := fun _ args => .ok args.stepSize

variable {fl : List Bool} {es : List ParamElem} {steps : Nat}

theorem linePath_proper (h : Spec.LinearElems fl.length es) : Spec.ProperPath (linePath fl es steps) fun _ => 0 := by
  have hans : ∀ l (x : List ℝ), x.length = (linePath fl es steps).dv.flags.length → ∀ A,
      (linePath fl es steps).jacobian? ⟨l, some x⟩ = some A → Spec.Answers Spec.inverseSolve .full fl A := by
    intro l x hx A hA
    obtain ⟨K, e, g, hS⟩ := linear_system fl es h
    exact inverseSolve_answers (linePath fl es steps).toAnalysis l x (by simp [linePath]) K (hS.matrix l x hx) A hA
  refine ⟨⟨by simp [linePath], fun e he l => ?_, ⟨fun l i _ => ?_, fun i _ => ?_, fun i _ h => absurd rfl h⟩, Or.inr fun _ _ => rfl,
    fun _ _ => rfl, fun _ h => absurd h (by simp [linePath]), hans⟩, hans⟩
  · exact ⟨(h e he).1, fun s hs => linear_total ((h e he).2 s hs) l⟩
  · simp [Spec.prescribed, Spec.total, linePath]
  · simp [Spec.total, linePath]

theorem linePath_setup (R : List ℝ → List ℝ → Prop) (fl fl' : List Bool) (es es' : List ParamElem) :
    Spec.SameSetup R (linePath fl es steps) (linePath fl' es' steps) :=
  ⟨rfl, rfl, rfl, rfl, rfl, rfl, rfl, fun _ _ _ e => congrArg Except.ok e.stepSize, inverseSolve_exactSolver, inverseSolve_exactSolver,
    inverseSolve_exactSolver, inverseSolve_exactSolver⟩

theorem linePath_settings (fl fl' : List Bool) (es es' : List ParamElem) :
    (linePath fl es steps).settings = (linePath fl' es' steps).settings := rfl

theorem linePath_flags (fl : List Bool) (es es' : List ParamElem) :
    (linePath fl es steps).toAnalysis.dv.flags = (linePath fl es' steps).toAnalysis.dv.flags := rfl

/-- The two bars, held in the middle. -/
noncomputable def pulled (steps : Nat) : PathAnalysis := linePath [false, false, true] [lineBar [0, 2] (-1), lineBar [1, 2] 1] steps

theorem pulled_energy (l a c m : ℝ) :
    ((pulled steps).system l).scalar? [a, c, m] = some (3 / 4 * ((m - a) ^ 2 + (m - c) ^ 2) + l * (a - c)) :=
  lineAnalysis_energy .full l a c m

theorem pulled_proper : Spec.ProperPath (pulled steps) fun _ => 0 := linePath_proper lineAnalysis_linear

theorem pulled_exact (l : ℝ) (x : List ℝ) (hx : x.length = 3) (A : DMat ℝ)
    (hA : (pulled steps).jacobian? ⟨l, some x⟩ = some A) : Spec.SolvesExactly Spec.inverseSolve A := by
  refine inverseSolve_solves (pulled steps).toAnalysis (by simp [pulled, linePath]) lineAnalysis_linear (fun l x v hx hv h0 hne => ?_) l x hx A hA
  obtain ⟨a, c, m, rfl⟩ := List.length_eq_three.1 hx
  obtain ⟨z, z', w, rfl⟩ := List.length_eq_three.1 hv
  obtain rfl : w = 0 := by simpa using h0 2 rfl
  have hw : z ≠ 0 ∨ z' ≠ 0 := by simpa using hne
  have hl : ∀ t : ℝ, Spec.line [a, c, m] [z, z', 0] t = [a + t * z, c + t * z', m] := by
    intro t
    simp [Spec.line]
  have e : ∀ l a c m, ((pulled steps).toAnalysis.system l).scalar? [a, c, m] = some (3 / 4 * ((m - a) ^ 2 + (m - c) ^ 2) + l * (a - c)) :=
    pulled_energy
  rw [hl, hl, e, e, e]
  refine ⟨_, _, _, rfl, rfl, rfl, ?_⟩
  have : 0 < z ^ 2 + z' ^ 2 := by
    rcases hw with hw | hw <;> positivity
  nlinarith

theorem pulled_linear : Spec.ProperLinear (pulled steps).toAnalysis fun _ => 0 :=
  have h := (pulled_proper (steps := steps)).proper
  ⟨by simp [pulled, linePath], lineAnalysis_linear, h.prescribed, h.force, h.alive, h.bound, fun l x hx A hA => pulled_exact l x hx A hA⟩

theorem pulled_residual (l : ℝ) : ((pulled steps).system l).rawVector? [0, 0, 0] = some [l, -l, 0] := by
  obtain ⟨K, e, g, hA⟩ := linear_system [false, false, true] [lineBar [0, 2] (-1), lineBar [1, 2] 1] lineAnalysis_linear
  have hA : AffineSystem (pulled steps).system 3 K e g := hA
  have hs : ∀ a c m : ℝ, 3 / 4 * ((m - a) ^ 2 + (m - c) ^ 2) + l * (a - c) = e l + (g l 0 * a + g l 1 * c + g l 2 * m) +
      1 / 2 * (a * K.val 0 0 * a + a * K.val 0 1 * c + a * K.val 0 2 * m + (c * K.val 1 0 * a + c * K.val 1 1 * c + c * K.val 1 2 * m) +
        (m * K.val 2 0 * a + m * K.val 2 1 * c + m * K.val 2 2 * m)) := by
    intro a c m
    have h1 := hA.scalar l [a, c, m] rfl
    rw [pulled_energy] at h1
    have h1 := Option.some.inj h1
    simpa [bil, Finset.sum_range_succ] using h1
  have g0 : g l 0 = l := by linarith [hs 1 0 0, hs (-1) 0 0]
  have g1 : g l 1 = -l := by linarith [hs 0 1 0, hs 0 (-1) 0]
  have g2 : g l 2 = 0 := by linarith [hs 0 0 1, hs 0 0 (-1)]
  obtain ⟨r, r1, r2, r3⟩ := hA.vector l [0, 0, 0] rfl
  rw [r1]
  obtain ⟨p, q, s, rfl⟩ := List.length_eq_three.1 r2
  have h0 := r3 0 (by norm_num)
  have h1 := r3 1 (by norm_num)
  have h2 := r3 2 (by norm_num)
  simp only [List.getD_cons_zero, List.getD_cons_succ, Finset.sum_range_succ, Finset.sum_range_zero, mul_zero, add_zero] at h0 h1 h2
  rw [h0, h1, h2, g0, g1, g2]

/-- Arc length of the two bars, with linear solvers that give up at singular matrices: all steps succeed, and with a step or more the
ends do move. -/
theorem pulled_run (hsteps : 0 < steps) (psi : ℝ) (b : Bool) : ∃ r,
    (Spec.carefulAnalysis (pulled steps)).run (.arcLength psi b) 0 [0, 0, 0] = .ok r ∧ r.success = true ∧ r.shown.length = steps + 1 ∧
      ∃ u : List ℝ, ∃ c : ℝ, c * Real.sqrt (2 * ∑ i ∈ Finset.range 3, u.getD i 0 ^ 2) = 1 ∧ ∀ (k : Nat) (s : Shown), r.shown[k]? = some s → s.lam = k * c := by
  have hprop : ∀ l f', ((pulled steps).system l).rawVector? [0, 0, 0] = some f' →
      ∀ i, Spec.Free [false, false, true] i → f'.getD i 0 = l * [(1 : ℝ), -1, 0].getD i 0 := by
    intro l f' hf' i hi
    rw [pulled_residual] at hf'
    obtain rfl := Option.some.inj hf'
    rcases i with _ | _ | _ | i
    · simp
    · simp
    · cases hi
    · cases hi
  obtain ⟨r, u, c, h1, h2, h3, h4, -, h5⟩ := path_linear_arc (a := pulled steps) pulled_proper pulled_linear rfl
    (fun l x hx A hA => pulled_exact l x hx A hA) (by norm_num [pulled, linePath]) (by norm_num [pulled, linePath]) hsteps one_ne_zero
    (fun k args => ⟨_, rfl⟩) (pulled_residual 1) hprop ⟨0, rfl, by norm_num⟩ psi b
  refine ⟨r, path_regular pulled_proper.proper rfl rfl (fun l x hx A hA => ?_) (p := .arcLength psi b) trivial 0 rfl h1, h2, h3, u, c, h4,
    fun k s hs => (h5 k s hs).1⟩
  obtain ⟨A', g1, g2⟩ := Analysis.jacobian_width (pulled_proper (steps := steps)).proper l hx
  have hA' : (pulled steps).toAnalysis.jacobian? ⟨l, some x⟩ = some A := hA
  obtain rfl := Option.some.inj (g1.symm.trans hA')
  exact exact_regular (g2.1.trans g2.2.symm) (pulled_exact l x hx _ hA)

/-- The bars, reflected. -/
noncomputable def pulledMirror (steps : Nat) : PathAnalysis :=
  linePath [false, false, true] [lineBar [0, 2] 1, lineBar [1, 2] (-1)] steps

theorem mirror_orth : (!![-1] : Matrix (Fin 1) (Fin 1) ℝ)ᵀ * !![-1] = 1 := by
  ext a b; fin_cases a; fin_cases b; simp [Matrix.mul_apply]

theorem pulled_twins (l : ℝ) : (pulled steps).toAnalysis.system l = ⟨[false, false, true], (lineTwins l).map Spec.Twin.first⟩ := rfl

theorem mirror_twins (l : ℝ) : (pulledMirror steps).toAnalysis.system l = ⟨[false, false, true], (lineTwins l).map Spec.Twin.second⟩ := rfl

theorem pulled_turned (l : ℝ) : Spec.TurnedSystems (Spec.Layout.single 3) !![-1] ((pulled steps).toAnalysis.system l)
    ((pulledMirror steps).toAnalysis.system l) := by
  intro x x' hx
  obtain ⟨ρ, K, g1, -, g3⟩ := proper_total (pulled_proper (steps := steps)).proper l hx.length
  rw [pulled_twins] at g1 g3
  rw [pulled_twins, mirror_twins]
  have hsk : ∀ t ∈ lineTwins l, ∀ u u', t.first.local? x = some u → t.second.local? x' = some u' →
      List.Forall₂ (Spec.TurnedSkill !![-1] u u') t.skills t.skills' := by
    intro t ht u u' hu hu'
    obtain ⟨v, hv, hv'⟩ := local_turn (flags := [true, true, false]) (Spec.Layout.single 3) (line_paired l).nodes hx ht
    obtain rfl := Option.some.inj (hu.symm.trans hv)
    obtain rfl := Option.some.inj (hu'.symm.trans hv')
    exact (line_paired l).skills t ht u
  obtain ⟨ρ', e1, e2⟩ := assembled_vector_turn (flags := [false, false, true]) (Spec.Layout.single 3) mirror_orth (line_paired l).nodes
    hx.length hx.length' hsk g1
  obtain ⟨K', e3, e4⟩ := assembled_matrix_turn (flags := [false, false, true]) (Spec.Layout.single 3) mirror_orth (line_paired l).nodes
    hx.length hx.length' hsk g3
  exact ⟨ρ, ρ', K, K', g1, e1, g3, e3, e2, e4⟩

/-- Turning: the bars, reflected. -/
example (hsteps : 0 < steps) (psi : ℝ) (b : Bool) : ∃ r r',
    (pulled steps).run (.arcLength psi b) 0 [0, 0, 0] = .ok r ∧ r.success = true ∧ r.shown.length = steps + 1 ∧
    (pulledMirror steps).run (.arcLength psi b) 0 [0, 0, 0] = .ok r' ∧
    Spec.SameRun (Spec.TurnedList (Spec.Layout.single 3) !![-1]) r r' := by
  obtain ⟨r, h1, h2, h3, -⟩ := pulled_run hsteps psi b
  have hlin : Spec.LinearElems 3 [lineBar [0, 2] 1, lineBar [1, 2] (-1)] := by
    intro e he
    have he : e = lineBar [0, 2] 1 ∨ e = lineBar [1, 2] (-1) := by simpa using he
    rcases he with rfl | rfl
    · exact lineBar_linear 0 2 (by norm_num) (by norm_num) _
    · exact lineBar_linear 1 2 (by norm_num) (by norm_num) _
  have hT : Spec.TurnedAnalyses (pulled steps).toAnalysis
      (pulledMirror steps).toAnalysis (fun _ => 0) (fun _ => 0)
      (Spec.Layout.single 3) !![-1] :=
    { proper := pulled_proper.proper, proper' := (linePath_proper (fl := [false, false, true]) hlin).proper, flags := linePath_flags _ _ _
      settings := linePath_settings _ _ _ _, bound := Or.inl rfl
      bound' := Or.inl rfl, solver := inverseSolve_exactSolver, solver' := inverseSolve_exactSolver, orth := mirror_orth
      unmixed := fun p a b _ => by rw [Subsingleton.elim a b]
      supports := fun p a => by simp
      systems := pulled_turned }
  obtain ⟨g1, r', g2, g3⟩ := path_turned hT
    (linePath_setup _ _ _ _ _) (p := .arcLength psi b) trivial 0
    (x := [0, 0, 0]) (x' := [0, 0, 0]) ⟨rfl, rfl, fun p a => by fin_cases p <;> simp [Spec.Layout.single]⟩ h1
  exact ⟨r, r', g1, h2, h3, g2, g3⟩

/-- Numbering: the middle gets the number zero, and the bars come in the other order. -/
example (hsteps : 0 < steps) (psi : ℝ) (b : Bool) : ∃ r r',
    (pulled steps).run (.arcLength psi b) 0 [0, 0, 0] = .ok r ∧ r.success = true ∧ r.shown.length = steps + 1 ∧
    (linePath [true, false, false] [lineBar [1, 0] 1, lineBar [2, 0] (-1)] steps).run (.arcLength psi b) 0 [0, 0, 0] = .ok r' ∧
    Spec.SameRun (Spec.Renumbered (Equiv.swap 0 2) 3) r r' := by
  obtain ⟨r, h1, h2, h3, -⟩ := pulled_run hsteps psi b
  have hlin : Spec.LinearElems 3 [lineBar [1, 0] 1, lineBar [2, 0] (-1)] := by
    intro e he
    have he : e = lineBar [1, 0] 1 ∨ e = lineBar [2, 0] (-1) := by simpa using he
    rcases he with rfl | rfl
    · exact lineBar_linear 1 0 (by norm_num) (by norm_num) _
    · exact lineBar_linear 2 0 (by norm_num) (by norm_num) _
  have hT : Spec.RenumberedAnalyses (Equiv.swap 0 2) (pulled steps).toAnalysis
      (linePath [true, false, false] [lineBar [1, 0] 1, lineBar [2, 0] (-1)] steps).toAnalysis (fun _ => 0) (fun _ => 0) :=
    { renumbers := fun i => by
        show Equiv.swap 0 2 i < 3 ↔ i < 3
        rw [Equiv.swap_apply_def]
        split_ifs <;> omega
      flags := ⟨rfl, fun i => by
        show ([true, false, false] : List Bool)[Equiv.swap 0 2 i]? = ([false, false, true] : List Bool)[i]?
        rw [Equiv.swap_apply_def]
        rcases i with _ | _ | _ | i <;> simp⟩
      elems := by
        show List.Perm [lineBar [1, 0] 1, lineBar [2, 0] (-1)]
          [Spec.renumberedParam (Equiv.swap 0 2) (lineBar [0, 2] (-1)), Spec.renumberedParam (Equiv.swap 0 2) (lineBar [1, 2] 1)]
        have e1 : Spec.renumberedParam (Equiv.swap 0 2) (lineBar [0, 2] (-1)) = lineBar [2, 0] (-1) := rfl
        have e2 : Spec.renumberedParam (Equiv.swap 0 2) (lineBar [1, 2] 1) = lineBar [1, 0] 1 := rfl
        rw [e1, e2]
        exact List.Perm.swap _ _ _
      prescribed := fun _ => rfl, proper := pulled_proper.proper, proper' := (linePath_proper (fl := [true, false, false]) hlin).proper, minIter := congrArg NRSettings.minIter (linePath_settings _ _ _ _)
      maxIter := congrArg NRSettings.maxIter (linePath_settings _ _ _ _), tol := congrArg NRSettings.tol (linePath_settings _ _ _ _)
      bound := Or.inl rfl, bound' := Or.inl rfl, solver := inverseSolve_exactSolver, solver' := inverseSolve_exactSolver }
  obtain ⟨g1, r', g2, g3⟩ := path_renumbered hT
    (linePath_setup _ _ _ _ _) (p := .arcLength psi b) trivial 0 (x := [0, 0, 0]) rfl h1
  have e : Spec.renumbered (Equiv.swap 0 2) [0, 0, 0] = [0, 0, 0] := by simp [Spec.renumbered, List.range, List.range.loop, Equiv.swap_apply_def]
  rw [e] at g2
  exact ⟨r, r', g1, h2, h3, g2, g3⟩

/-- Linear solvers: one that gives up at singular matrices. -/
example (hsteps : 0 < steps) (psi : ℝ) (b : Bool) : ∃ r, (pulled steps).run (.arcLength psi b) 0 [0, 0, 0] = .ok r ∧
    r.success = true ∧ { pulled steps with spd := Spec.careful Spec.inverseSolve }.run (.arcLength psi b) 0 [0, 0, 0] = .ok r := by
  obtain ⟨r, h1, h2, h3, -⟩ := pulled_run hsteps psi b
  obtain ⟨g1, g2⟩ := path_solvers (a := pulled steps) (b := { pulled steps with spd := Spec.careful Spec.inverseSolve }) pulled_proper.proper
    rfl rfl ⟨rfl, rfl, rfl, rfl, rfl, rfl, rfl, fun k p p' e => congrArg Except.ok e.stepSize, inverseSolve_exactSolver, inverseSolve_exactSolver,
      inverseSolve_exactSolver, careful_solver inverseSolve_exactSolver⟩ (p := .arcLength psi b) trivial 0 (x := [0, 0, 0]) rfl h1
  exact ⟨r, g1, h2, g2⟩

/-- Symmetry: the ends move apart, by the same distance. -/
example (hsteps : 0 < steps) (psi : ℝ) (b : Bool) : ∃ r,
    (pulled steps).run (.arcLength psi b) 0 [0, 0, 0] = .ok r ∧ r.success = true ∧ r.shown.length = steps + 1 ∧
    ∀ s ∈ r.shown, Spec.Image (Spec.Layout.single 3) !![-1] (Equiv.swap 0 1) s.x s.x := by
  obtain ⟨r, h1, h2, h3, -⟩ := pulled_run hsteps psi b
  have hQ : (!![-1] : Matrix (Fin 1) (Fin 1) ℝ)ᵀ * !![-1] = 1 := by
    ext a b; fin_cases a; fin_cases b; simp [Matrix.mul_apply]
  have hpair : ∀ l, Spec.Paired [false, false, true] (Spec.Layout.single 3) !![-1] (Equiv.swap 0 1) (Equiv.swap 0 1) (lineTwins l) := fun l =>
    ⟨(line_paired l).image, (line_paired l).renumbers, (line_paired l).nodes, (line_paired l).skills, (line_paired l).elems⟩
  obtain ⟨g1, g2⟩ := path_symmetric (a := pulled steps) (L := Spec.Layout.single 3) (Q := !![-1]) (σ := Equiv.swap 0 1) pulled_proper.proper hQ
    ⟨fun p a b _ => by
      obtain rfl := Subsingleton.elim a b
      have e : ∀ p a, ([false, false, true] : List Bool)[(Spec.Layout.single 3).dof (Equiv.swap 0 1 p) a]? =
        ([false, false, true] : List Bool)[(Spec.Layout.single 3).dof p a]? := by decide
      unfold Spec.Free
      show ([false, false, true] : List Bool)[(Spec.Layout.single 3).dof (Equiv.swap 0 1 p) a]? = _ ↔ _
      rw [e]
      rfl, fun p a => by simp⟩ (fun l => paired_symmetric hQ (hpair l))
    (linePath_setup _ _ _ _ _) (p := .arcLength psi b) trivial 0 (x := [0, 0, 0])
    ⟨rfl, rfl, fun p a => by fin_cases p <;> simp [Spec.Layout.single, Equiv.swap_apply_def]⟩ h1
  exact ⟨r, g1, h2, h3, fun s hs => (g2 s hs).1⟩

end Ikarus
