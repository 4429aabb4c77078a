import Verif.Analysis.RenumberPathProps
import Verif.Analysis.TurnPathProps

/-!
C120, structures that a reflection or a rotation maps to themselves deform symmetrically.
-/

namespace Ikarus

open Matrix Element Element.Spec Assembler

variable {k d size : Nat} {Q : Matrix (Fin d) (Fin d) ℝ}

/-! ### Specification -/

/-- The vector `y` is the image of `x` under the symmetry that takes node `p` to node `σ p` and turns directions by `Q`. -/
structure Spec.Image (L : Spec.Layout k d size) (Q : Matrix (Fin d) (Fin d) ℝ) (σ : Equiv.Perm (Fin k)) (x y : List ℝ) : Prop where
  length : x.length = size
  length' : y.length = size
  value : ∀ p a, y.getD (L.dof (σ p) a) 0 = ∑ b, Q a b * x.getD (L.dof p b) 0

/-- The matrix `K'` is the image of `K`. -/
def Spec.ImageMatrix (L : Spec.Layout k d size) (Q : Matrix (Fin d) (Fin d) ℝ) (σ : Equiv.Perm (Fin k)) (K K' : DMat ℝ) : Prop :=
  ∀ p q a b, K'.val (L.dof (σ p) a) (L.dof (σ q) b) = ∑ c, ∑ e, Q a c * K.val (L.dof p c) (L.dof q e) * Q b e

/-- Residual and stiffness at the image of a state are the images of residual and stiffness at the state. -/
def Spec.SymmetricSystem (L : Spec.Layout k d size) (Q : Matrix (Fin d) (Fin d) ℝ) (σ : Equiv.Perm (Fin k)) (A : System) : Prop :=
  ∀ x y, Spec.Image L Q σ x y → ∀ r K, A.rawVector? x = some r → A.rawMatrix? x = some K →
    ∃ r' K', A.rawVector? y = some r' ∧ A.rawMatrix? y = some K' ∧ Spec.Image L Q σ r r' ∧ Spec.ImageMatrix L Q σ K K'

/-- The supports of the image of a node are the images of the supports of the node, and they are moved alike. -/
structure Spec.SymmetricSupports (flags : List Bool) (L : Spec.Layout k d flags.length) (Q : Matrix (Fin d) (Fin d) ℝ)
    (σ : Equiv.Perm (Fin k)) (û : Nat → ℝ) : Prop where
  held : ∀ p a b, Q a b ≠ 0 → (Spec.Free flags (L.dof (σ p) a) ↔ Spec.Free flags (L.dof p b))
  moved : ∀ p a, û (L.dof (σ p) a) = ∑ b, Q a b * û (L.dof p b)

/-- The states have the same load factor and the displacements of the second are the image of those of the first. -/
def Spec.ImageState (L : Spec.Layout k d size) (Q : Matrix (Fin d) (Fin d) ℝ) (σ : Equiv.Perm (Fin k)) (x y : Dom ℝ (Option (List ℝ))) :
    Prop :=
  y.lam = x.lam ∧ ∃ u v, x.x = some u ∧ y.x = some v ∧ Spec.Image L Q σ u v

/-- The elements come in pairs: the image of the element `t.first`, that is the turned element `t.second` with the dofs of the images
of its nodes, is an element of the structure too, and these are all elements. -/
structure Spec.Paired (flags : List Bool) (L : Spec.Layout k d flags.length) (Q : Matrix (Fin d) (Fin d) ℝ) (σ : Equiv.Perm (Fin k))
    (π : Equiv.Perm Nat) (ts : List (Spec.Twin d)) : Prop where
  image : ∀ p a, π (L.dof p a) = L.dof (σ p) a
  renumbers : Spec.Renumbers π flags.length
  nodes : ∀ t ∈ ts, t.At L
  skills : ∀ t ∈ ts, ∀ u, List.Forall₂ (Spec.TurnedSkill Q u (turn Q u)) t.skills t.skills'
  elems : (ts.map Spec.Twin.first).Perm (ts.map fun t => Spec.renumberedElem π t.second)

/-! ### The symmetry as a turning of the space of all dofs -/

/-- All dofs as those of one node. -/
def Spec.Layout.whole (size : Nat) : Spec.Layout 1 size size where
  dof _ i := i
  bound _ i := i.2
  inj h := ⟨Subsingleton.elim _ _, Fin.ext h⟩
  all i hi := ⟨0, ⟨i, hi⟩, rfl⟩

/-- Node and direction of a dof. -/
noncomputable def Spec.Layout.where_ (L : Spec.Layout k d size) : Fin size ≃ Fin k × Fin d :=
  (Equiv.ofBijective (fun pa : Fin k × Fin d => (⟨L.dof pa.1 pa.2, L.bound _ _⟩ : Fin size))
    ⟨fun _ _ h => Prod.ext (L.inj (Fin.mk.inj h)).1 (L.inj (Fin.mk.inj h)).2, fun i => by
      obtain ⟨p, a, h⟩ := L.all i i.2
      exact ⟨(p, a), Fin.ext h⟩⟩).symm

theorem where_dof (L : Spec.Layout k d size) (p : Fin k) (a : Fin d) : L.where_ ⟨L.dof p a, L.bound p a⟩ = (p, a) :=
  Equiv.symm_apply_eq _ |>.2 rfl

theorem dof_where (L : Spec.Layout k d size) (pa : Fin k × Fin d) : ((L.where_.symm pa : Fin size) : Nat) = L.dof pa.1 pa.2 := rfl

theorem dof_where' (L : Spec.Layout k d size) (i : Fin size) : L.dof (L.where_ i).1 (L.where_ i).2 = i := by
  rw [← dof_where, Equiv.symm_apply_apply]

/-- The symmetry as a matrix. -/
noncomputable def symmetryMatrix (L : Spec.Layout k d size) (Q : Matrix (Fin d) (Fin d) ℝ) (σ : Equiv.Perm (Fin k)) :
    Matrix (Fin size) (Fin size) ℝ :=
  fun i j => if (L.where_ i).1 = σ (L.where_ j).1 then Q (L.where_ i).2 (L.where_ j).2 else 0

section
variable (L : Spec.Layout k d size) (σ : Equiv.Perm (Fin k))

theorem sum_dofs (f : Fin size → ℝ) : ∑ j, f j = ∑ p, ∑ b, f (L.where_.symm (p, b)) := by
  rw [← Equiv.sum_comp L.where_.symm f, Fintype.sum_prod_type]

theorem symmetry_sum (f : Nat → ℝ) (i : Fin size) :
    ∑ j, symmetryMatrix L Q σ i j * f j = ∑ b, Q (L.where_ i).2 b * f (L.dof (σ.symm (L.where_ i).1) b) := by
  rw [sum_dofs L]
  rw [Finset.sum_eq_single (σ.symm (L.where_ i).1)]
  · refine Finset.sum_congr rfl fun b _ => ?_
    simp only [symmetryMatrix, Equiv.apply_symm_apply, if_true, dof_where]
  · intro p _ hp
    refine Finset.sum_eq_zero fun b _ => ?_
    simp only [symmetryMatrix, Equiv.apply_symm_apply]
    rw [if_neg fun h => hp (by rw [h, Equiv.symm_apply_apply]), zero_mul]
  · intro h
    exact absurd (Finset.mem_univ _) h

theorem symmetry_sum' (f : Nat → ℝ) (p : Fin k) (a : Fin d) :
    ∑ j, symmetryMatrix L Q σ ⟨L.dof (σ p) a, L.bound _ _⟩ j * f j = ∑ b, Q a b * f (L.dof p b) := by
  rw [symmetry_sum, where_dof, Equiv.symm_apply_apply]

theorem image_iff (x y : List ℝ) : Spec.Image L Q σ x y ↔ Spec.TurnedList (Spec.Layout.whole size) (symmetryMatrix L Q σ) x y := by
  constructor
  · intro h
    refine ⟨h.length, h.length', fun _ i => ?_⟩
    show y.getD i 0 = ∑ j : Fin size, symmetryMatrix L Q σ i j * x.getD j 0
    rw [symmetry_sum L σ (x.getD · 0), ← h.value, Equiv.apply_symm_apply, dof_where']
  · intro h
    refine ⟨h.length, h.length', fun p a => ?_⟩
    exact (h.value 0 ⟨L.dof (σ p) a, L.bound _ _⟩).trans (symmetry_sum' L σ (x.getD · 0) p a)

theorem imageMatrix_turned {K K' : DMat ℝ} (h : Spec.ImageMatrix L Q σ K K') :
    Spec.TurnedMatrix (Spec.Layout.whole size) (symmetryMatrix L Q σ) K K' := by
  intro _ _ i j
  show K'.val i j = ∑ c : Fin size, ∑ e : Fin size, symmetryMatrix L Q σ i c * K.val c e * symmetryMatrix L Q σ j e
  have e1 : ∀ c : Fin size, ∑ e : Fin size, symmetryMatrix L Q σ i c * K.val c e * symmetryMatrix L Q σ j e =
      symmetryMatrix L Q σ i c * ∑ f, Q (L.where_ j).2 f * K.val c (L.dof (σ.symm (L.where_ j).1) f) := by
    intro c
    rw [← symmetry_sum L σ (fun m => K.val c m), Finset.mul_sum]
    exact Finset.sum_congr rfl fun e _ => by ring
  rw [Finset.sum_congr rfl fun c _ => e1 c,
    symmetry_sum L σ (fun m => ∑ f, Q (L.where_ j).2 f * K.val m (L.dof (σ.symm (L.where_ j).1) f)) i]
  have := h (σ.symm (L.where_ i).1) (σ.symm (L.where_ j).1) (L.where_ i).2 (L.where_ j).2
  rw [Equiv.apply_symm_apply, Equiv.apply_symm_apply, dof_where', dof_where'] at this
  rw [this]
  refine Finset.sum_congr rfl fun c _ => ?_
  rw [Finset.mul_sum]
  exact Finset.sum_congr rfl fun e _ => by ring

theorem symmetry_orth (hQ : Qᵀ * Q = 1) : (symmetryMatrix L Q σ)ᵀ * symmetryMatrix L Q σ = 1 := by
  ext i j
  rw [Matrix.mul_apply, sum_dofs L]
  simp only [Matrix.transpose_apply, symmetryMatrix, Equiv.apply_symm_apply]
  rw [Finset.sum_eq_single (σ (L.where_ i).1)]
  · by_cases hp : (L.where_ i).1 = (L.where_ j).1
    · have := congrFun (congrFun hQ (L.where_ i).2) (L.where_ j).2
      rw [Matrix.mul_apply] at this
      simp only [hp, if_true]
      refine this.trans ?_
      by_cases hij : i = j
      · rw [hij, Matrix.one_apply_eq, Matrix.one_apply_eq]
      · rw [Matrix.one_apply_ne hij, Matrix.one_apply_ne fun h => hij (L.where_.injective (Prod.ext hp h))]
    · rw [Matrix.one_apply_ne fun h => hp (by rw [h])]
      exact Finset.sum_eq_zero fun b _ => by rw [if_neg fun h => hp (σ.injective h), mul_zero]
  · intro p _ hp
    exact Finset.sum_eq_zero fun b _ => by rw [if_neg hp, zero_mul]
  · intro h
    exact absurd (Finset.mem_univ _) h

end

theorem symmetry_unmixed {flags : List Bool} {L : Spec.Layout k d flags.length} {σ : Equiv.Perm (Fin k)} {û : Nat → ℝ}
    (h : Spec.SymmetricSupports flags L Q σ û) : Spec.Unmixed flags (Spec.Layout.whole flags.length) (symmetryMatrix L Q σ) := by
  intro _ i j hij
  show Spec.Free flags i ↔ Spec.Free flags j
  unfold symmetryMatrix at hij
  split at hij
  · rename_i hp
    have := h.held (L.where_ j).1 _ _ hij
    rwa [← hp, dof_where', dof_where'] at this
  · exact absurd rfl hij

theorem symmetry_moved {flags : List Bool} {L : Spec.Layout k d flags.length} {σ : Equiv.Perm (Fin k)} {û : Nat → ℝ}
    (h : Spec.SymmetricSupports flags L Q σ û) : Spec.TurnedSupports (Spec.Layout.whole flags.length) (symmetryMatrix L Q σ) û û := by
  intro _ i
  show û i = ∑ j : Fin flags.length, symmetryMatrix L Q σ i j * û j
  rw [symmetry_sum L σ û, ← h.moved, Equiv.apply_symm_apply, dof_where']

/-! ### Load control -/

theorem forall₂_self {α : Type*} {R : α → α → Prop} {l : List α} (h : List.Forall₂ R l l) : ∀ s ∈ l, R s s := List.forall₂_same.1 h

section
variable {a : Analysis} {û : Nat → ℝ} {L : Spec.Layout k d a.dv.flags.length} {σ : Equiv.Perm (Fin k)}

/-- The structure is its own twin under the turning of the space of all dofs. -/
theorem symmetric_turned (hp : Spec.Proper a û) (hb : a.bound = none ∨ ∀ i < a.dv.flags.length, û i = 0)
    (hlin : Spec.ExactSolver a.linSolve) (hQ : Qᵀ * Q = 1) (hsup : Spec.SymmetricSupports a.dv.flags L Q σ û)
    (hsys : ∀ l, Spec.SymmetricSystem L Q σ (a.system l)) :
    Spec.TurnedAnalyses a a û û (Spec.Layout.whole a.dv.flags.length) (symmetryMatrix L Q σ) :=
  { proper := hp, proper' := hp, flags := rfl, settings := rfl, bound := hb, bound' := hb, solver := hlin, solver' := hlin
    orth := symmetry_orth L σ hQ, unmixed := symmetry_unmixed hsup, supports := symmetry_moved hsup
    systems := fun l x x' hx => by
      obtain ⟨-, r, K, -, hr, -, hK, -⟩ := total_system (a.system l) (fun e he => by
        obtain ⟨e', he', rfl⟩ := List.mem_map.1 he
        refine ⟨(hp.elems e' he' l).1, fun s hs => ?_⟩
        obtain ⟨s', hs', rfl⟩ := List.mem_map.1 hs
        exact (hp.elems e' he' l).2 s' hs') hx.length
      obtain ⟨r', K', h1, h2, h3, h4⟩ := hsys l x x' ((image_iff L σ x x').2 hx) r K hr hK
      exact ⟨r, r', K, K', hr, h1, hK, h2, (image_iff L σ r r').1 h3, imageMatrix_turned L σ h4⟩ }

/-- C120, images. A structure that a reflection or rotation `Q` maps to itself, node `p` to node `σ p`: residual and stiffness at images
are images, the supports and their movements are mapped to each other. The linear solver solves all systems that have solutions and the
factorized matrices are regular. Load control from the image of a state makes the same solves with the same numbers of iterations and the
same norms, ends alike, and shows the images of the displacements. -/
theorem image_load_control (hp : Spec.Proper a û) (hb : a.bound = none ∨ ∀ i < a.dv.flags.length, û i = 0)
    (hlin : Spec.ExactSolver a.linSolve) (hQ : Qᵀ * Q = 1) (hsup : Spec.SymmetricSupports a.dv.flags L Q σ û)
    (hsys : ∀ l, Spec.SymmetricSystem L Q σ (a.system l)) (n : Nat) (hn : 0 < n) (tbegin tend l0 : ℝ) {x0 y0 : List ℝ}
    (hx0 : Spec.Image L Q σ x0 y0) (hc0 : Spec.OnSupports a.dv.flags û l0 x0)
    (hz : ∀ k : Nat, 0 < k → k ≤ n → l0 + k * ((tend - tbegin) / n) = 0 → ∀ i < a.dv.flags.length, û i = 0)
    (hreg : ∀ k ≤ n, (∀ i < k, (Spec.loadInfo a.solver ((tend - tbegin) / n) none ⟨l0, some x0⟩ i).success = true) →
      Spec.RegularSolve a ((tend - tbegin) / n) ⟨l0, some x0⟩ k) :
    ∃ ra rb : LCState ℝ (Option (List ℝ)) ℝ (Option (List ℝ)),
      a.loadControl? n tbegin tend ⟨l0, some x0⟩ = some ra ∧ a.loadControl? n tbegin tend ⟨l0, some y0⟩ = some rb ∧
      rb.info.success = ra.info.success ∧ rb.info.totalIterations = ra.info.totalIterations ∧
      List.Forall₂ Spec.SameInfo ra.info.solverInfos rb.info.solverInfos ∧
      List.Forall₂ (Spec.ImageState L Q σ) (Spec.shown ra) (Spec.shown rb) ∧ Spec.ImageState L Q σ ra.dom rb.dom := by
  have hT := symmetric_turned hp hb hlin hQ hsup hsys
  have himp : ∀ s s', Spec.TurnedState (Spec.Layout.whole a.dv.flags.length) (symmetryMatrix L Q σ) s s' → Spec.ImageState L Q σ s s' := by
    rintro s s' ⟨h1, u, u', h2, h3, h4⟩
    exact ⟨h1, u, u', h2, h3, (image_iff L σ u u').2 h4⟩
  obtain ⟨ra, rb, h1, h2, h3, h4, h5, h6, h7⟩ :=
    load_control_turn hT n hn tbegin tend l0 ((image_iff L σ x0 y0).1 hx0) hc0 hz hreg
  exact ⟨ra, rb, h1, h2, h3, h4, h5, h6.imp himp, himp _ _ h7⟩

/-- C120, load control. A symmetric structure under symmetric supports, from a symmetric state: all displacements that load control shows
and the final displacement are symmetric, that is their own images, also beyond points where other states of equilibrium branch off,
as long as the factorized matrices are regular. -/
theorem symmetric_load_control (hp : Spec.Proper a û) (hb : a.bound = none ∨ ∀ i < a.dv.flags.length, û i = 0)
    (hlin : Spec.ExactSolver a.linSolve) (hQ : Qᵀ * Q = 1) (hsup : Spec.SymmetricSupports a.dv.flags L Q σ û)
    (hsys : ∀ l, Spec.SymmetricSystem L Q σ (a.system l)) (n : Nat) (hn : 0 < n) (tbegin tend l0 : ℝ) {x0 : List ℝ}
    (hx0 : Spec.Image L Q σ x0 x0) (hc0 : Spec.OnSupports a.dv.flags û l0 x0)
    (hz : ∀ k : Nat, 0 < k → k ≤ n → l0 + k * ((tend - tbegin) / n) = 0 → ∀ i < a.dv.flags.length, û i = 0)
    (hreg : ∀ k ≤ n, (∀ i < k, (Spec.loadInfo a.solver ((tend - tbegin) / n) none ⟨l0, some x0⟩ i).success = true) →
      Spec.RegularSolve a ((tend - tbegin) / n) ⟨l0, some x0⟩ k) :
    ∃ r : LCState ℝ (Option (List ℝ)) ℝ (Option (List ℝ)), a.loadControl? n tbegin tend ⟨l0, some x0⟩ = some r ∧
      ∀ s, s ∈ Spec.shown r ∨ s = r.dom → ∃ u, s.x = some u ∧ Spec.Image L Q σ u u := by
  obtain ⟨ra, rb, h1, h2, -, -, -, h6, h7⟩ := image_load_control hp hb hlin hQ hsup hsys n hn tbegin tend l0 hx0 hc0 hz hreg
  obtain rfl := Option.some.inj (h1.symm.trans h2)
  have hself : ∀ s, Spec.ImageState L Q σ s s → ∃ u, s.x = some u ∧ Spec.Image L Q σ u u := by
    rintro s ⟨-, u, v, hu, hv, hi⟩
    obtain rfl := Option.some.inj (hu.symm.trans hv)
    exact ⟨u, hu, hi⟩
  exact ⟨ra, h1, fun s hs => hself s (hs.elim (forall₂_self h6 s) fun h => h ▸ h7)⟩

/-- C120, regular matrices. It suffices that the stiffness is regular at symmetric states on the supports: then all matrices that load
control factorizes are regular. -/
theorem symmetric_regular (hp : Spec.Proper a û) (hb : a.bound = none ∨ ∀ i < a.dv.flags.length, û i = 0)
    (hlin : Spec.ExactSolver a.linSolve) (hQ : Qᵀ * Q = 1) (hsup : Spec.SymmetricSupports a.dv.flags L Q σ û)
    (hsys : ∀ l, Spec.SymmetricSystem L Q σ (a.system l)) (step l0 : ℝ) {x0 : List ℝ}
    (hx0 : Spec.Image L Q σ x0 x0) (hc0 : Spec.OnSupports a.dv.flags û l0 x0) {n : Nat}
    (hz : ∀ k : Nat, 0 < k → k ≤ n → l0 + k * step = 0 → ∀ i < a.dv.flags.length, û i = 0)
    (hreg : ∀ l m u, Spec.Image L Q σ u u → Spec.OnSupports a.dv.flags û m u → Spec.RegularHere a ⟨l, some u⟩) :
    ∀ k ≤ n, (∀ i < k, (Spec.loadInfo a.solver step none ⟨l0, some x0⟩ i).success = true) →
      Spec.RegularSolve a step ⟨l0, some x0⟩ k := by
  have hT := symmetric_turned hp hb hlin hQ hsup hsys
  have hit : ∀ (l m s : ℝ) (u : List ℝ), (l ≠ 0 ∨ m = l ∨ ∀ i < a.dv.flags.length, û i = 0) → Spec.Image L Q σ u u →
      Held a.dv.flags û m u → ∀ j, Spec.RegularHere a (Spec.newtonIterates a.problem ⟨l, some u⟩ s j).1 := by
    intro l m s u hl hu hm j
    induction j using Nat.strong_induction_on with
    | _ j ih =>
      obtain ⟨y, y', R, R', h1, h2, h3, -, -, -, h5⟩ := Analysis.iterates_turn hT hl s ((image_iff L σ u u).1 hu) hm j ih
      have e := congrArg Prod.fst (h1.symm.trans h2)
      obtain rfl : y = y' := Option.some.inj (congrArg Dom.x e)
      rw [h1]
      refine hreg _ (if j = 0 then m else l) y ((image_iff L σ y y).2 h3) ⟨h3.length, fun i hi => ?_⟩
      have hlt : i < a.dv.flags.length := (List.getElem?_eq_some_iff.1 hi).1
      rw [getElem?_eq_getD (by rw [h3.length]; exact hlt), h5 i hlt ((not_free_iff hlt).2 hi)]
  have hh : Held a.dv.flags û l0 x0 := fun i hi hf => by
    rw [List.getD_eq_getElem?_getD, hc0.2 i ((not_free_iff hi).1 hf), Option.getD_some]
  intro k
  induction k using Nat.strong_induction_on with
  | _ k ih =>
    intro hk hs j _
    rcases k with _ | k
    · exact hit l0 l0 0 x0 (Or.inr (Or.inl rfl)) hx0 hh j
    · obtain ⟨y, y', h1, h2, h3, h4, -⟩ := Analysis.loads_turn hT step l0 ((image_iff L σ x0 x0).1 hx0) hh (n := k)
        (fun i hi hik => hz i hi (by omega)) (fun i hi hsi => ih i (by omega) (by omega) hsi) k (le_refl k) (fun i hi => hs i (by omega))
      obtain rfl : y = y' := Option.some.inj (congrArg Dom.x (h1.symm.trans h2))
      have hll : l0 + (k : ℝ) * step + step = l0 + ((k + 1 : Nat) : ℝ) * step := by push_cast; ring
      have hy1 : Spec.loadBefore a.solver step none ⟨l0, some x0⟩ (k + 1) = ⟨l0 + ((k + 1 : Nat) : ℝ) * step, some y⟩ := by
        have h1 : (Spec.loadSolve a.solver step none ⟨l0, some x0⟩ k).2.2.1 = ⟨l0 + k * step, some y⟩ := h1
        show ({ (Spec.loadSolve a.solver step none ⟨l0, some x0⟩ k).2.2.1 with
          lam := (Spec.loadSolve a.solver step none ⟨l0, some x0⟩ k).2.2.1.lam + step } : Dom ℝ (Option (List ℝ))) = _
        rw [h1, ← hll]
      rw [hy1]
      refine hit _ (l0 + k * step) _ y ?_ ((image_iff L σ y y).2 h3) h4 j
      by_cases h0 : l0 + ((k + 1 : Nat) : ℝ) * step = 0
      · exact Or.inr (Or.inr (hz (k + 1) (by omega) hk h0))
      · exact Or.inl h0

/-- C120, linear structures. A linear structure whose energy is the same at the image of a state, with symmetric supports that suffice:
from any state, symmetric or not, load control shows symmetric displacements in all steps. -/
theorem symmetric_linear (ha : Spec.ProperLinear a û) (hs : Spec.Settings a.settings 1) (hm : 1 ≤ a.settings.minIter)
    (hsuf : ∀ l, Spec.Supported a.dv.flags (a.system l).scalar?) (hQ : Qᵀ * Q = 1) (hsup : Spec.SymmetricSupports a.dv.flags L Q σ û)
    (hE : ∀ l x y, Spec.Image L Q σ x y → (a.system l).scalar? y = (a.system l).scalar? x)
    (n : Nat) (hn : 0 < n) (tbegin tend l0 : ℝ) {x0 : List ℝ} (hx0 : x0.length = a.dv.flags.length)
    (hc0 : ∀ i : Nat, a.dv.flags[i]? = some true → x0[i]? = some (l0 * û i))
    (hz : ∀ k : Nat, 0 < k → k ≤ n → l0 + k * ((tend - tbegin) / n) = 0 → ∀ i < a.dv.flags.length, û i = 0) :
    ∃ (r : LCState ℝ (Option (List ℝ)) ℝ (Option (List ℝ))) (u : Nat → List ℝ),
      a.loadControl? n tbegin tend ⟨l0, some x0⟩ = some r ∧ r.info.success = true ∧
      Spec.shown r = (List.range (n + 1)).map (fun k : Nat => ⟨l0 + k * ((tend - tbegin) / n), some (u k)⟩) ∧
      ∀ k ≤ n, Spec.Image L Q σ (u k) (u k) := by
  obtain ⟨y0, hy0⟩ := turned_exists (Spec.Layout.whole a.dv.flags.length) (symmetryMatrix L Q σ) hx0
  have hsame : ∀ l, Spec.SameTurned (Spec.Layout.whole a.dv.flags.length) (symmetryMatrix L Q σ) (a.system l).scalar? (a.system l).scalar? :=
    fun l x y h => hE l x y ((image_iff L σ x y).2 h)
  obtain ⟨ra, ua, a1, a2, a3, -, a4, a5⟩ := linear_load_control ha hs n hn tbegin tend l0 hx0 hc0 hz
  have hsh : ∀ r : LCState ℝ (Option (List ℝ)) ℝ (Option (List ℝ)), Spec.shown r = r.trace.filterMap (fun ev => match ev with
      | .notify .solutionChanged x _ _ => some x
      | _ => none) := by
    intro r
    unfold Spec.shown
    congr 1
    funext ev
    cases ev <;> first | rfl | (rename_i msg _ _ _; cases msg <;> rfl)
  refine ⟨ra, ua, a1, a2, (hsh ra).trans a4, fun k hk => ?_⟩
  obtain ⟨ia, hia⟩ : ∃ i, ra.info.solverInfos[k]? = some i := ⟨_, List.getElem?_eq_getElem (by omega)⟩
  obtain ⟨-, a6, -, a7⟩ := (a5 k hk).2 ia hia
  have a8 := a7 (by omega)
  obtain ⟨w, hw⟩ := turned_exists (Spec.Layout.whole a.dv.flags.length) (symmetryMatrix L Q σ) a8.1
  have := equilibrium_unique _ _ _ _ (hsuf _) _ _ a8
    ((equilibrium_turn (symmetry_orth L σ hQ) (symmetry_unmixed hsup) (hsame _) (symmetry_moved hsup) hw).2 a8)
  rw [image_iff]
  rwa [← this] at hw

end

/-! ### Structures whose elements are mapped to each other -/

theorem rawVector_flags {fl fl' : List Bool} (h : fl'.length = fl.length) (es : List Elem) (x : List ℝ) :
    (System.mk fl' es).rawVector? x = (System.mk fl es).rawVector? x := by
  unfold System.rawVector? Assembler.getRawVector?
  show (mapOpt _ es).bind (fun fes => rawVectorOuter fes (List.replicate fl'.length 0)) = _
  rw [h]
  rfl

theorem rawMatrix_flags {fl fl' : List Bool} (h : fl'.length = fl.length) (es : List Elem) (x : List ℝ) :
    (System.mk fl' es).rawMatrix? x = (System.mk fl es).rawMatrix? x := by
  unfold System.rawMatrix? Assembler.getRawMatrix?
  show (mapOpt _ es).bind (fun fes => rawMatrixOuter fes (DMat.zero fl'.length fl'.length)) = _
  rw [h]
  rfl

section
variable {flags : List Bool} {L : Spec.Layout k d flags.length} {σ : Equiv.Perm (Fin k)} {π : Equiv.Perm Nat} {ts : List (Spec.Twin d)}

/-- The image is the turned vector, renumbered. -/
theorem image_renumbered (hπ : Spec.Renumbers π flags.length) (himg : ∀ p a, π (L.dof p a) = L.dof (σ p) a) {x z : List ℝ}
    (h : Spec.TurnedList L Q x z) (y : List ℝ) : Spec.Image L Q σ x y ↔ y = Spec.renumbered π z := by
  have hv : ∀ p a, (Spec.renumbered π z).getD (L.dof (σ p) a) 0 = ∑ b, Q a b * x.getD (L.dof p b) 0 := fun p a => by
    rw [← himg, renumbered_getD z (h.length'.symm ▸ hπ), h.value]
  have hl : (Spec.renumbered π z).length = flags.length := (renumbered_length z).trans h.length'
  constructor
  · intro hy
    refine List.ext_getElem? fun i => ?_
    by_cases hi : i < flags.length
    · obtain ⟨p, c, rfl⟩ := L.all i hi
      rw [getElem?_eq_getD (by rw [hy.length']; exact hi), getElem?_eq_getD (by rw [hl]; exact hi)]
      have h1 := hy.value (σ.symm p) c
      have h2 := hv (σ.symm p) c
      rw [Equiv.apply_symm_apply] at h1 h2
      rw [h1, h2]
    · rw [List.getElem?_eq_none (by rw [hy.length']; omega), List.getElem?_eq_none (by rw [hl]; omega)]
  · rintro rfl
    exact ⟨h.length, hl, hv⟩

/-- C120, elements. If the elements of a structure come in pairs of which one is the image of the other (or are their own images), then
residual and stiffness at the image of a state are the images of residual and stiffness at the state. -/
theorem paired_symmetric (hQ : Qᵀ * Q = 1) (h : Spec.Paired flags L Q σ π ts) :
    Spec.SymmetricSystem L Q σ ⟨flags, ts.map Spec.Twin.first⟩ := by
  intro x y hxy r K hr hK
  obtain ⟨z, hz⟩ := turned_exists L Q hxy.length
  obtain rfl := (image_renumbered h.renumbers h.image hz y).1 hxy
  have hsk : ∀ t ∈ ts, ∀ u u', t.first.local? x = some u → t.second.local? z = some u' →
      List.Forall₂ (Spec.TurnedSkill Q u u') t.skills t.skills' := by
    intro t ht u u' hu hu'
    obtain ⟨v, hv, hv'⟩ := local_turn L h.nodes hz ht
    obtain rfl := Option.some.inj (hu.symm.trans hv)
    obtain rfl := Option.some.inj (hu'.symm.trans hv')
    exact h.skills t ht u
  obtain ⟨r', hr', hrt⟩ := assembled_vector_turn L hQ h.nodes hz.length hz.length' hsk hr
  obtain ⟨K', hK', hKt⟩ := assembled_matrix_turn L hQ h.nodes hz.length hz.length' hsk hK
  have hS : Spec.SameStructure π ⟨List.replicate flags.length false, ts.map Spec.Twin.second⟩
      ⟨List.replicate flags.length false, ts.map Spec.Twin.first⟩ := by
    refine ⟨by rw [List.length_replicate]; exact h.renumbers, ⟨rfl, fun i => ?_⟩, ?_⟩
    · rw [List.getElem?_replicate, List.getElem?_replicate]
      exact if_congr (h.renumbers i) rfl rfl
    · show (ts.map Spec.Twin.first).Perm ((ts.map Spec.Twin.second).map (Spec.renumberedElem π))
      rw [List.map_map]
      exact h.elems
  have hl : (List.replicate flags.length false).length = flags.length := List.length_replicate
  obtain ⟨-, s1, s2⟩ := assembled_renumbered hS (x := z) (by rw [hl]; exact hz.length')
  rw [rawVector_flags hl, rawVector_flags hl, hr', Option.map_some] at s1
  rw [rawMatrix_flags hl, rawMatrix_flags hl, hK', Option.map_some] at s2
  refine ⟨_, _, s1, s2, (image_renumbered h.renumbers h.image hrt _).2 rfl, fun p q c e => ?_⟩
  show K'.val (π.symm (L.dof (σ p) c)) (π.symm (L.dof (σ q) e)) = _
  rw [← h.image, ← h.image, Equiv.symm_apply_apply, Equiv.symm_apply_apply]
  exact hKt p q c e

/-- C120, elements. If in addition the paired elements have the same energies, the structure has the same energy at the image of a state. -/
theorem paired_energy (h : Spec.Paired flags L Q σ π ts)
    (hE : ∀ t ∈ ts, ∀ u, List.Forall₂ (Spec.SameEnergy u (turn Q u)) t.skills t.skills') {x y : List ℝ} (hxy : Spec.Image L Q σ x y) :
    (System.mk flags (ts.map Spec.Twin.first)).scalar? y = (System.mk flags (ts.map Spec.Twin.first)).scalar? x := by
  obtain ⟨z, hz⟩ := turned_exists L Q hxy.length
  obtain rfl := (image_renumbered h.renumbers h.image hz y).1 hxy
  rw [← assembled_scalar_turn L h.nodes hz.length hz.length' (fun t ht u u' hu hu' => ?_)]
  · have hS : Spec.SameStructure π ⟨List.replicate flags.length false, ts.map Spec.Twin.second⟩
        ⟨List.replicate flags.length false, ts.map Spec.Twin.first⟩ := by
      refine ⟨by rw [List.length_replicate]; exact h.renumbers, ⟨rfl, fun i => ?_⟩, ?_⟩
      · rw [List.getElem?_replicate, List.getElem?_replicate]
        exact if_congr (h.renumbers i) rfl rfl
      · show (ts.map Spec.Twin.first).Perm ((ts.map Spec.Twin.second).map (Spec.renumberedElem π))
        rw [List.map_map]
        exact h.elems
    exact (assembled_renumbered hS (x := z) (by rw [List.length_replicate]; exact hz.length')).1
  · obtain ⟨v, hv, hv'⟩ := local_turn L h.nodes hz ht
    obtain rfl := Option.some.inj (hu.symm.trans hv)
    obtain rfl := Option.some.inj (hu'.symm.trans hv')
    exact hE t ht u

end

/-! ### A von Mises truss -/

/-- A bar from a support to the apex. -/
noncomputable def vonMisesBar (index : List Nat) (x : ℝ) : ParamElem where
  n := 2
  d := 2
  children := [.leaf [0, 1], .leaf [2, 3]]
  index := index
  skills := [fun _ => .truss 1 1 ![x, 0] ![0, 3]]

/-- Two bars from supports at (-4, 0) and (4, 0) to the apex at (0, 3). The supports are fixed; the apex is pushed down by the load factor
and can move sideways. -/
noncomputable def vonMisesTruss (option : DBCOption) (settings : NRSettings ℝ) : Analysis where
  dv := ⟨[true, true, true, true, false, true], 0,
    [⟨fun l i => if i = 5 then -l else 0, fun _ i => if i = 5 then -1 else 0, 0⟩], fun _ => true⟩
  alive := fun _ => true
  elems := [vonMisesBar [0, 4, 1, 5] (-4), vonMisesBar [2, 4, 3, 5] 4]
  option := option
  bound := none
  linSolve := Spec.inverseSolve
  settings := settings
  withForce := true

/-- The displacement of the apex at load factor one. -/
def vonMisesSupport (i : Nat) : ℝ := if i = 5 then -1 else 0

theorem vonMisesBar_fits (index : List Nat) (hi : index.length = 4) (h : ∀ i ∈ index, i < 6) (x l : ℝ) :
    Spec.ElemFits 6 ((vonMisesBar index x).at l) := by
  obtain ⟨a, b, c, e, rfl⟩ : ∃ a b c e, index = [a, b, c, e] := by
    match index, hi with
    | [a, b, c, e], _ => exact ⟨a, b, c, e, rfl⟩
  refine ⟨rfl, rfl, [a, c, b, e], ?_, ?_⟩
  · simp [Elem.dofs?, ParamElem.at, vonMisesBar, FETree.globalIndices, FETree.firstIsLeaf, FETree.powerNodeIndices,
      FETree.leafSize?, FETree.childIndex?, FETree.leafIndex?, mapOpt, List.range, List.range.loop]
  · simp only [List.mem_cons, List.not_mem_nil, or_false, forall_eq_or_imp, forall_eq] at h ⊢
    omega

theorem vonMises_contract (o : DBCOption) (st : NRSettings ℝ) (l : ℝ) (x : List ℝ) (hx : x.length = 6) :
    Spec.SystemContract ((vonMisesTruss o st).system l) x := by
  refine ⟨hx, fun e he => ?_⟩
  have he : e = (vonMisesBar [0, 4, 1, 5] (-4)).at l ∨ e = (vonMisesBar [2, 4, 3, 5] 4).at l := by
    simpa [Analysis.system, vonMisesTruss] using he
  rcases he with rfl | rfl
  · refine ⟨vonMisesBar_fits _ rfl (by simp) _ _, fun u _ sk hsk => ?_⟩
    obtain rfl := List.mem_singleton.1 hsk
    exact (truss_skill _ _ _ _ _).1
  · refine ⟨vonMisesBar_fits _ rfl (by simp) _ _, fun u _ sk hsk => ?_⟩
    obtain rfl := List.mem_singleton.1 hsk
    exact (truss_skill _ _ _ _ _).1

theorem vonMises_proper (o : DBCOption) (ho : o ≠ .raw) (st : NRSettings ℝ) : Spec.Proper (vonMisesTruss o st) vonMisesSupport where
  option := ho
  elems e he l := by
    have he : e = vonMisesBar [0, 4, 1, 5] (-4) ∨ e = vonMisesBar [2, 4, 3, 5] 4 := by simpa [vonMisesTruss] using he
    rcases he with rfl | rfl
    · refine ⟨vonMisesBar_fits _ rfl (by simp) _ _, fun s hs => ?_⟩
      obtain rfl := List.mem_singleton.1 hs
      exact (truss_skill _ _ _ _ 0).2
    · refine ⟨vonMisesBar_fits _ rfl (by simp) _ _, fun s hs => ?_⟩
      obtain rfl := List.mem_singleton.1 hs
      exact (truss_skill _ _ _ _ 0).2
  prescribed := by
    refine ⟨fun l i _ => ?_, fun i _ => ?_, fun i hi hne => ?_⟩
    · simp [Spec.prescribed, Spec.total, vonMisesTruss, vonMisesSupport]
    · simp [Spec.total, vonMisesTruss, vonMisesSupport]
    · have : i = 5 := by
        by_contra h
        exact hne (if_neg h)
      subst this
      rfl
  force := Or.inl rfl
  alive _ _ := rfl
  bound _ h := absurd h (by simp [vonMisesTruss])
  linSolve l x hx A hA := by
    obtain ⟨-, -, K, -, hK, -⟩ := assembled_consistent _ _ (vonMises_contract o st l x hx)
    exact inverseSolve_answers (vonMisesTruss o st) l x ho K hK A hA

/-- Two dofs for each of the three nodes. -/
def vonMisesLayout : Spec.Layout 3 2 6 where
  dof p a := 2 * p + a
  bound p a := by omega
  inj {p a p' a'} h := ⟨Fin.ext (by omega), Fin.ext (by omega)⟩
  all i hi := ⟨⟨i / 2, by omega⟩, ⟨i % 2, by omega⟩, by show 2 * (i / 2) + i % 2 = i; omega⟩

/-- The reflection that exchanges left and right. -/
def leftRight : Matrix (Fin 2) (Fin 2) ℝ := Matrix.diagonal ![-1, 1]

theorem leftRight_orth : leftRightᵀ * leftRight = 1 := by
  ext i j
  fin_cases i <;> fin_cases j <;> simp [leftRight, Matrix.mul_apply, Fin.sum_univ_two, Matrix.diagonal]

/-- The bars, and the reflected bars. -/
noncomputable def vonMisesTwins : List (Spec.Twin 2) :=
  [⟨2, [.leaf [0, 1], .leaf [2, 3]], [0, 4, 1, 5], [.truss 1 1 ![-4, 0] ![0, 3]], [.truss 1 1 ![4, 0] ![0, 3]]⟩,
    ⟨2, [.leaf [0, 1], .leaf [2, 3]], [2, 4, 3, 5], [.truss 1 1 ![4, 0] ![0, 3]], [.truss 1 1 ![-4, 0] ![0, 3]]⟩]

theorem vonMisesBar_turn (x : ℝ) (u : NodeVec 2 2) :
    Spec.TurnedSkill leftRight u (turn leftRight u) (.truss 1 1 ![x, 0] ![0, 3]) (.truss 1 1 ![-x, 0] ![0, 3]) := by
  have ht : Spec.Turned leftRight leftRight ![![x, 0], ![0, 3]] ![![-x, 0], ![0, 3]] u (turn leftRight u) := by
    have e : (![![-x, 0], ![0, 3]] : NodeVec 2 2) = affine 0 leftRight ![![x, 0], ![0, 3]] := by
      funext I c
      fin_cases I <;> fin_cases c <;> simp [affine, leftRight, Matrix.mulVec_diagonal]
    refine ⟨leftRight_orth, leftRight_orth, ⟨0, e⟩, ⟨0, ?_⟩⟩
    rw [e]
    funext I
    simp [affine, turn, Matrix.mulVec_add]
  exact (truss_turn 1 1 ht).1

/-- The dofs of the left support and of the right support are exchanged. -/
def leftRightDofs : Equiv.Perm Nat := Equiv.swap 0 2 * Equiv.swap 1 3

theorem vonMises_paired : Spec.Paired [true, true, true, true, false, true] vonMisesLayout leftRight (Equiv.swap 0 1) leftRightDofs
    vonMisesTwins where
  image p a := by
    fin_cases p <;> fin_cases a <;> decide
  renumbers i := by
    show Equiv.swap 0 2 (Equiv.swap 1 3 i) < 6 ↔ i < 6
    simp only [Equiv.swap_apply_def]
    split_ifs <;> omega
  nodes t ht := by
    simp only [vonMisesTwins, List.mem_cons, List.not_mem_nil, or_false] at ht
    rcases ht with rfl | rfl
    · refine ⟨vonMisesBar_fits [0, 4, 1, 5] rfl (by simp) (-4) 0, ![0, 2], fun dofs hd I a => ?_⟩
      obtain rfl : [0, 1, 4, 5] = dofs := by
        simpa [Spec.Twin.first, Elem.dofs?, FETree.globalIndices, FETree.firstIsLeaf, FETree.powerNodeIndices,
          FETree.leafSize?, FETree.childIndex?, FETree.leafIndex?, mapOpt, List.range, List.range.loop] using hd
      fin_cases I <;> fin_cases a <;> rfl
    · refine ⟨vonMisesBar_fits [2, 4, 3, 5] rfl (by simp) 4 0, ![1, 2], fun dofs hd I a => ?_⟩
      obtain rfl : [2, 3, 4, 5] = dofs := by
        simpa [Spec.Twin.first, Elem.dofs?, FETree.globalIndices, FETree.firstIsLeaf, FETree.powerNodeIndices,
          FETree.leafSize?, FETree.childIndex?, FETree.leafIndex?, mapOpt, List.range, List.range.loop] using hd
      fin_cases I <;> fin_cases a <;> rfl
  skills t ht u := by
    simp only [vonMisesTwins, List.mem_cons, List.not_mem_nil, or_false] at ht
    rcases ht with rfl | rfl
    · refine List.Forall₂.cons ?_ List.Forall₂.nil
      have := vonMisesBar_turn (-4) u
      rwa [neg_neg] at this
    · exact List.Forall₂.cons (vonMisesBar_turn 4 u) List.Forall₂.nil
  elems := List.Perm.swap _ _ _

theorem vonMises_symmetric (o : DBCOption) (st : NRSettings ℝ) (l : ℝ) :
    Spec.SymmetricSystem (size := (vonMisesTruss o st).dv.flags.length) vonMisesLayout leftRight (Equiv.swap 0 1) ((vonMisesTruss o st).system l) :=
  paired_symmetric leftRight_orth vonMises_paired

theorem vonMises_supports : Spec.SymmetricSupports [true, true, true, true, false, true] vonMisesLayout leftRight (Equiv.swap 0 1)
    vonMisesSupport where
  held p a b h := by
    have hab : a = b := by
      by_contra e
      exact h (Matrix.diagonal_apply_ne _ e)
    subst hab
    have e : ∀ p a, ([true, true, true, true, false, true] : List Bool)[vonMisesLayout.dof (Equiv.swap 0 1 p) a]? =
        ([true, true, true, true, false, true] : List Bool)[vonMisesLayout.dof p a]? := by decide
    unfold Spec.Free
    rw [e]
  moved p a := by
    fin_cases p <;> fin_cases a <;> simp [vonMisesSupport, vonMisesLayout, leftRight, Matrix.diagonal, Fin.sum_univ_two, Equiv.swap_apply_def]

theorem vonMisesBar_local (a b c e f g x l : ℝ) :
    Elem.local? ((vonMisesBar [0, 4, 1, 5] x).at l) [a, b, c, e, f, g] = some (![![a, b], ![f, g]] : NodeVec 2 2) ∧
    Elem.local? ((vonMisesBar [2, 4, 3, 5] x).at l) [a, b, c, e, f, g] = some (![![c, e], ![f, g]] : NodeVec 2 2) := by
  constructor
  · have : FETree.localSolution 2 [a, b, c, e, f, g] [0, 4, 1, 5] (.power [.leaf [0, 1], .leaf [2, 3]]) none = some [[a, b], [f, g]] := rfl
    unfold Elem.local?
    show (FETree.localSolution 2 [a, b, c, e, f, g] [0, 4, 1, 5] (.power [.leaf [0, 1], .leaf [2, 3]]) none).map Elem.nodes = _
    rw [this, Option.map_some]
    congr 1
    funext I c
    fin_cases I <;> fin_cases c <;> rfl
  · have : FETree.localSolution 2 [a, b, c, e, f, g] [2, 4, 3, 5] (.power [.leaf [0, 1], .leaf [2, 3]]) none = some [[c, e], [f, g]] := rfl
    unfold Elem.local?
    show (FETree.localSolution 2 [a, b, c, e, f, g] [2, 4, 3, 5] (.power [.leaf [0, 1], .leaf [2, 3]]) none).map Elem.nodes = _
    rw [this, Option.map_some]
    congr 1
    funext I c
    fin_cases I <;> fin_cases c <;> rfl

theorem vonMises_five : √(4 * 4 + 3 * 3 : ℝ) = 5 := by
  rw [show (4 * 4 + 3 * 3 : ℝ) = 5 ^ 2 by norm_num]
  exact Real.sqrt_sq (by norm_num)

theorem vonMises_energy (o : DBCOption) (st : NRSettings ℝ) (l f g : ℝ) :
    ((vonMisesTruss o st).system l).scalar? [0, 0, 0, 0, f, g] =
      some (1 / 1000 * (((4 + f) ^ 2 + (3 + g) ^ 2 - 25) ^ 2 + ((f - 4) ^ 2 + (3 + g) ^ 2 - 25) ^ 2)) := by
  show ((mapOpt (·.scalar? [0, 0, 0, 0, f, g]) [(vonMisesBar [0, 4, 1, 5] (-4)).at l, (vonMisesBar [2, 4, 3, 5] 4).at l]).map
    fun fes => Assembler.getScalar fes 0) = _
  have h1 : ((vonMisesBar [0, 4, 1, 5] (-4)).at l).scalar? [0, 0, 0, 0, f, g] =
      some (1 / 1000 * ((4 + f) ^ 2 + (3 + g) ^ 2 - 25) ^ 2) := by
    unfold Elem.scalar?
    rw [(vonMisesBar_local 0 0 0 0 f g (-4) l).1]
    show Mixin.calculateScalar (![![0, 0], ![f, g]] : NodeVec 2 2) [.truss 1 1 ![-4, 0] ![0, 3]] = _
    simp only [Mixin.calculateScalar, Skill.truss, Option.bind_some, Option.map_some]
    congr 1
    simp [Truss.calculateScalar, Truss.computeStrain, Truss.squaredNorm, dotProduct, Fin.sum_univ_two, vonMises_five]
    ring
  have h2 : ((vonMisesBar [2, 4, 3, 5] 4).at l).scalar? [0, 0, 0, 0, f, g] =
      some (1 / 1000 * ((f - 4) ^ 2 + (3 + g) ^ 2 - 25) ^ 2) := by
    unfold Elem.scalar?
    rw [(vonMisesBar_local 0 0 0 0 f g 4 l).2]
    show Mixin.calculateScalar (![![0, 0], ![f, g]] : NodeVec 2 2) [.truss 1 1 ![4, 0] ![0, 3]] = _
    simp only [Mixin.calculateScalar, Skill.truss, Option.bind_some, Option.map_some]
    congr 1
    simp [Truss.calculateScalar, Truss.computeStrain, Truss.squaredNorm, dotProduct, Fin.sum_univ_two, vonMises_five]
    ring
  simp [mapOpt, h1, h2, Assembler.getScalar, Assembler.getScalarLoop]
  ring

theorem vonMises_force (o : DBCOption) (st : NRSettings ℝ) (l f g : ℝ) :
    ∃ r : List ℝ, ((vonMisesTruss o st).system l).rawVector? [0, 0, 0, 0, f, g] = some r ∧
      r.getD 4 0 = 1 / 250 * (((4 + f) ^ 2 + (3 + g) ^ 2 - 25) * (4 + f) + ((f - 4) ^ 2 + (3 + g) ^ 2 - 25) * (f - 4)) := by
  obtain ⟨-, r, K, hr, -, hd⟩ := assembled_consistent _ _ (vonMises_contract o st l [0, 0, 0, 0, f, g] rfl)
  have hrl : r.length = 6 := by
    unfold System.rawVector? at hr
    obtain ⟨fes, -, h2⟩ := Option.bind_eq_some_iff.1 hr
    exact (rawVector_eq_sum _ _ _ h2).1
  refine ⟨r, hr, ?_⟩
  have h1 := (hd [0, 0, 0, 0, 1, 0] rfl).1
  have hline : ∀ t : ℝ, Spec.line [0, 0, 0, 0, f, g] [0, 0, 0, 0, 1, 0] t = [0, 0, 0, 0, f + t, g] := by
    intro t
    simp [Spec.line]
  have h2 : HasDerivAt (fun t : ℝ => 1 / 1000 * (((4 + (f + t)) ^ 2 + (3 + g) ^ 2 - 25) ^ 2 + ((f + t - 4) ^ 2 + (3 + g) ^ 2 - 25) ^ 2))
      (1 / 250 * (((4 + f) ^ 2 + (3 + g) ^ 2 - 25) * (4 + f) + ((f - 4) ^ 2 + (3 + g) ^ 2 - 25) * (f - 4))) 0 := by
    have h3 : HasDerivAt (fun t : ℝ => 4 + (f + t)) 1 0 := ((hasDerivAt_id (0 : ℝ)).const_add f).const_add 4
    have h4 : HasDerivAt (fun t : ℝ => f + t - 4) 1 0 := ((hasDerivAt_id (0 : ℝ)).const_add f).sub_const 4
    have h5 := ((((((h3.pow 2).add_const ((3 + g) ^ 2)).sub_const 25).pow 2).add
      ((((h4.pow 2).add_const ((3 + g) ^ 2)).sub_const 25).pow 2)).const_mul (1 / 1000 : ℝ))
    refine h5.congr_deriv ?_
    norm_num
    ring
  have h5 := h1.unique (h2.congr_of_eventuallyEq (Filter.Eventually.of_forall fun t => by
    show (((vonMisesTruss o st).system l).scalar? (Spec.line [0, 0, 0, 0, f, g] [0, 0, 0, 0, 1, 0] t)).getD 0 = _
    rw [hline, vonMises_energy, Option.getD_some]))
  rw [← h5, dotL_eq_sum r [0, 0, 0, 0, 1, 0] 6 hrl rfl]
  simp [Finset.sum_range_succ]

theorem vonMises_stiffness (o : DBCOption) (st : NRSettings ℝ) (l f g : ℝ) (K : DMat ℝ)
    (hK : ((vonMisesTruss o st).system l).rawMatrix? [0, 0, 0, 0, f, g] = some K) :
    K.val 4 4 = 1 / 250 * (2 * (4 + f) ^ 2 + ((4 + f) ^ 2 + (3 + g) ^ 2 - 25) + 2 * (f - 4) ^ 2 + ((f - 4) ^ 2 + (3 + g) ^ 2 - 25)) := by
  obtain ⟨-, r, K', -, hK', hd⟩ := assembled_consistent _ _ (vonMises_contract o st l [0, 0, 0, 0, f, g] rfl)
  obtain rfl : K = K' := Option.some.inj (hK.symm.trans hK')
  have hfl : ((vonMisesTruss o st).system l).flags.length = 6 := rfl
  have h1 := (hd [0, 0, 0, 0, 1, 0] rfl).2 4 (by rw [hfl]; norm_num)
  have hline : ∀ t : ℝ, Spec.line [0, 0, 0, 0, f, g] [0, 0, 0, 0, 1, 0] t = [0, 0, 0, 0, f + t, g] := by
    intro t
    simp [Spec.line]
  have h2 : HasDerivAt (fun t : ℝ => 1 / 250 * (((4 + (f + t)) ^ 2 + (3 + g) ^ 2 - 25) * (4 + (f + t)) +
      ((f + t - 4) ^ 2 + (3 + g) ^ 2 - 25) * (f + t - 4)))
      (1 / 250 * (2 * (4 + f) ^ 2 + ((4 + f) ^ 2 + (3 + g) ^ 2 - 25) + 2 * (f - 4) ^ 2 + ((f - 4) ^ 2 + (3 + g) ^ 2 - 25))) 0 := by
    have h3 : HasDerivAt (fun t : ℝ => 4 + (f + t)) 1 0 := ((hasDerivAt_id (0 : ℝ)).const_add f).const_add 4
    have h4 : HasDerivAt (fun t : ℝ => f + t - 4) 1 0 := ((hasDerivAt_id (0 : ℝ)).const_add f).sub_const 4
    have h5 := ((((((h3.pow 2).add_const ((3 + g) ^ 2)).sub_const 25).mul h3).add
      ((((h4.pow 2).add_const ((3 + g) ^ 2)).sub_const 25).mul h4)).const_mul (1 / 250 : ℝ))
    refine h5.congr_deriv ?_
    norm_num
    ring
  have h5 := h1.unique (h2.congr_of_eventuallyEq (Filter.Eventually.of_forall fun t => by
    show ((((vonMisesTruss o st).system l).rawVector? (Spec.line [0, 0, 0, 0, f, g] [0, 0, 0, 0, 1, 0] t)).getD []).getD 4 0 = _
    obtain ⟨r, hr, hv⟩ := vonMises_force o st l (f + t) g
    rw [hline, hr, Option.getD_some, hv]))
  rw [← h5, hfl]
  simp [Finset.sum_range_succ]

/-- On the supports the truss is stiff against sideways displacements, whatever the position of the apex. -/
theorem vonMises_stiff (o : DBCOption) (st : NRSettings ℝ) (l m : ℝ) (u : List ℝ)
    (hu : Spec.OnSupports [true, true, true, true, false, true] vonMisesSupport m u) : Spec.RegularHere (vonMisesTruss o st) ⟨l, some u⟩ := by
  intro u' K h _ hK
  obtain rfl := Option.some.inj h
  obtain ⟨f, g, rfl⟩ : ∃ f g, u = [0, 0, 0, 0, f, g] := by
    match u, hu.1 with
    | [a, b, c, e, f, g], _ =>
      have h0 := hu.2 0 rfl
      have h1 := hu.2 1 rfl
      have h2 := hu.2 2 rfl
      have h3 := hu.2 3 rfl
      simp [vonMisesSupport] at h0 h1 h2 h3
      exact ⟨f, g, by rw [h0, h1, h2, h3]⟩
  have hk := vonMises_stiffness o st l f g K hK
  intro v hv hs hz i hi
  have hv : v.length = 6 := hv
  match v, hv with
  | [a, b, c, e, w, g'], hv =>
    have h0 := hs 0 rfl
    have h1 := hs 1 rfl
    have h2 := hs 2 rfl
    have h3 := hs 3 rfl
    have h5 := hs 5 rfl
    have h4 := hz 4 rfl
    simp at h0 h1 h2 h3 h5
    subst h0 h1 h2 h3 h5
    rw [Analysis.times_eq (m := 6) _ hv] at h4
    simp [Finset.sum_range_succ] at h4
    have hne : K.val 4 4 ≠ 0 := by
      rw [hk]
      nlinarith [sq_nonneg (3 + g), sq_nonneg f]
    have : w = 0 := h4.resolve_left hne
    subst this
    have hi : i < 6 := hi
    interval_cases i <;> rfl

/-- The truss snaps through when its apex is pushed down: with any number of load steps, any final load, any settings and any option, all
displacements shown are symmetric: the apex never moves sideways. -/
example (o : DBCOption) (ho : o ≠ .raw) (st : NRSettings ℝ) (n : Nat) (hn : 0 < n) (tend : ℝ) (ht : 0 < tend) :
    ∃ r : LCState ℝ (Option (List ℝ)) ℝ (Option (List ℝ)),
      (vonMisesTruss o st).loadControl? n 0 tend ⟨0, some [0, 0, 0, 0, 0, 0]⟩ = some r ∧
      ∀ s, s ∈ Spec.shown r ∨ s = r.dom → ∃ u, s.x = some u ∧ u.getD 4 0 = 0 := by
  have hx0 : Spec.Image vonMisesLayout leftRight (Equiv.swap 0 1) [0, 0, 0, 0, 0, 0] [0, 0, 0, 0, 0, 0] := by
    refine ⟨rfl, rfl, fun p a => ?_⟩
    fin_cases p <;> fin_cases a <;> simp [vonMisesLayout, Equiv.swap_apply_def]
  have hc0 : Spec.OnSupports (vonMisesTruss o st).dv.flags vonMisesSupport 0 [0, 0, 0, 0, 0, 0] := by
    refine ⟨rfl, fun i hi => ?_⟩
    have hi : i < 6 := (List.getElem?_eq_some_iff.1 hi).1
    rw [zero_mul]
    interval_cases i <;> rfl
  have hz : ∀ k : Nat, 0 < k → k ≤ n → (0 : ℝ) + k * ((tend - 0) / n) = 0 → ∀ i < (vonMisesTruss o st).dv.flags.length, vonMisesSupport i = 0 := by
    intro k hk _ h0
    have h1 : (0 : ℝ) < k := by exact_mod_cast hk
    have h2 : (0 : ℝ) < n := by exact_mod_cast hn
    have h3 : 0 < (k : ℝ) * ((tend - 0) / n) := by
      rw [sub_zero]
      positivity
    linarith
  obtain ⟨r, h1, h2⟩ := symmetric_load_control (vonMises_proper o ho st) (Or.inl rfl) inverseSolve_exactSolver leftRight_orth vonMises_supports
    (vonMises_symmetric o st) n hn 0 tend 0 hx0 hc0 hz (symmetric_regular (vonMises_proper o ho st) (Or.inl rfl) inverseSolve_exactSolver
      leftRight_orth vonMises_supports (vonMises_symmetric o st) _ 0 hx0 hc0 hz fun l m u _ hu => vonMises_stiff o st l m u hu)
  refine ⟨r, h1, fun s hs => ?_⟩
  obtain ⟨u, hu, hi⟩ := h2 s hs
  refine ⟨u, hu, ?_⟩
  have := hi.value 2 0
  simp [vonMisesLayout, leftRight, Matrix.diagonal, Equiv.swap_apply_def] at this ⊢
  linarith

/-! #### From states that are not symmetric -/

theorem image_one {L : Spec.Layout k d size} {x y : List ℝ} (h : Spec.Image L 1 1 x y) : y = x := by
  refine List.ext_getElem? fun i => ?_
  by_cases hi : i < size
  · obtain ⟨p, c, rfl⟩ := L.all i hi
    rw [getElem?_eq_getD (by rw [h.length']; exact hi), getElem?_eq_getD (by rw [h.length]; exact hi)]
    have := h.value p c
    rw [Equiv.Perm.one_apply] at this
    rw [this]
    simp [Matrix.one_apply]
  · rw [List.getElem?_eq_none (by rw [h.length']; omega), List.getElem?_eq_none (by rw [h.length]; omega)]

theorem one_image (L : Spec.Layout k d size) {x : List ℝ} (h : x.length = size) : Spec.Image L 1 1 x x :=
  ⟨h, h, fun p a => by simp [Matrix.one_apply]⟩

theorem one_symmetric (L : Spec.Layout k d size) (A : System) (h : ∀ x r, A.rawVector? x = some r → x.length = size → r.length = size) :
    Spec.SymmetricSystem L 1 1 A := by
  intro x y hxy r K hr hK
  obtain rfl := image_one hxy
  exact ⟨r, K, hr, hK, one_image L (h _ _ hr hxy.length), fun p q a b => by simp [Matrix.one_apply]⟩

/-- From an apex that is displaced to the right and from one that is displaced to the left, the runs are images of each other. -/
example (o : DBCOption) (ho : o ≠ .raw) (st : NRSettings ℝ) (n : Nat) (hn : 0 < n) (tend w : ℝ) (ht : 0 < tend) :
    ∃ ra rb : LCState ℝ (Option (List ℝ)) ℝ (Option (List ℝ)),
      (vonMisesTruss o st).loadControl? n 0 tend ⟨0, some [0, 0, 0, 0, w, 0]⟩ = some ra ∧
      (vonMisesTruss o st).loadControl? n 0 tend ⟨0, some [0, 0, 0, 0, -w, 0]⟩ = some rb ∧
      rb.info.success = ra.info.success ∧ rb.info.totalIterations = ra.info.totalIterations ∧
      List.Forall₂ Spec.SameInfo ra.info.solverInfos rb.info.solverInfos ∧
      List.Forall₂ (Spec.ImageState vonMisesLayout leftRight (Equiv.swap 0 1)) (Spec.shown ra) (Spec.shown rb) ∧
      Spec.ImageState vonMisesLayout leftRight (Equiv.swap 0 1) ra.dom rb.dom := by
  have hx0 : Spec.Image vonMisesLayout leftRight (Equiv.swap 0 1) [0, 0, 0, 0, w, 0] [0, 0, 0, 0, -w, 0] := by
    refine ⟨rfl, rfl, fun p a => ?_⟩
    fin_cases p <;> fin_cases a <;> simp [vonMisesLayout, leftRight, Matrix.diagonal, Equiv.swap_apply_def]
  have hc0 : Spec.OnSupports (vonMisesTruss o st).dv.flags vonMisesSupport 0 [0, 0, 0, 0, w, 0] := by
    refine ⟨rfl, fun i hi => ?_⟩
    have hlt : i < 6 := (List.getElem?_eq_some_iff.1 hi).1
    rw [zero_mul]
    interval_cases i <;> first | rfl | exact absurd hi (by simp [vonMisesTruss])
  have hz : ∀ k : Nat, 0 < k → k ≤ n → (0 : ℝ) + k * ((tend - 0) / n) = 0 → ∀ i < (vonMisesTruss o st).dv.flags.length, vonMisesSupport i = 0 := by
    intro k hk _ h0
    have h1 : (0 : ℝ) < k := by exact_mod_cast hk
    have h2 : (0 : ℝ) < n := by exact_mod_cast hn
    have h3 : 0 < (k : ℝ) * ((tend - 0) / n) := by
      rw [sub_zero]
      positivity
    linarith
  have hone : Spec.SymmetricSupports (vonMisesTruss o st).dv.flags vonMisesLayout 1 1 vonMisesSupport :=
    ⟨fun p a b h => by
      obtain rfl : a = b := by
        by_contra e
        exact h (Matrix.one_apply_ne e)
      rfl, fun p a => by simp [Matrix.one_apply]⟩
  refine image_load_control (vonMises_proper o ho st) (Or.inl rfl) inverseSolve_exactSolver leftRight_orth vonMises_supports
    (vonMises_symmetric o st) n hn 0 tend 0 hx0 hc0 hz (symmetric_regular (L := vonMisesLayout) (Q := 1) (σ := 1) (vonMises_proper o ho st)
      (Or.inl rfl) inverseSolve_exactSolver (by simp) hone (fun l => one_symmetric _ _ fun x r hr _ => ?_) _ 0
      (one_image _ rfl) hc0 hz fun l m u _ hu => vonMises_stiff o st l m u hu)
  unfold System.rawVector? at hr
  obtain ⟨fes, -, h2⟩ := Option.bind_eq_some_iff.1 hr
  exact (rawVector_eq_sum _ _ _ h2).1

/-! ### Two linear bars on a line -/

/-- A bar from the end at `2 s` to the middle at zero, with a load that pulls it away from the middle. -/
noncomputable def lineBar (index : List Nat) (s : ℝ) : ParamElem where
  n := 2
  d := 1
  children := [.leaf [0, 1]]
  index := index
  skills := [fun _ => .linearElastic !![(3 : ℝ)] [⟨2, 1, ![!![s / 2], !![-s / 2]]⟩],
    fun l => .volumeLoad (some fun x l => ![l * x 0]) [⟨![s], 2, 1, ![1 / 2, 1 / 2]⟩] l]

/-- Two bars, whose outer ends are pulled apart. -/
noncomputable def lineAnalysis (option : DBCOption) : Analysis where
  dv := ⟨[true, true, false], 0, [⟨fun l i => if i = 0 then -l else if i = 1 then l else 0,
    fun _ i => if i = 0 then -1 else if i = 1 then 1 else 0, 0⟩], fun _ => true⟩
  alive := fun _ => true
  elems := [lineBar [0, 2] (-1), lineBar [1, 2] 1]
  option := option
  bound := none
  linSolve := Spec.inverseSolve
  settings := { tol := 1 / 1000, minIter := 1, maxIter := 20 }
  withForce := true

/-- The displacements of the ends at load factor one. -/
def lineSupport (i : Nat) : ℝ := if i = 0 then -1 else if i = 1 then 1 else 0

theorem lineBar_fits (a b : Nat) (ha : a < 3) (hb : b < 3) (s l : ℝ) : Spec.ElemFits 3 ((lineBar [a, b] s).at l) := by
  refine ⟨rfl, rfl, [a, b], ?_, by simp [ha, hb]⟩
  simp [Elem.dofs?, ParamElem.at, lineBar, FETree.globalIndices, FETree.firstIsLeaf, FETree.powerNodeIndices,
    FETree.leafSize?, FETree.childIndex?, FETree.leafIndex?, mapOpt, List.range, List.range.loop]

theorem lineBar_linear (a b : Nat) (ha : a < 3) (hb : b < 3) (s : ℝ) : Spec.ElemFits 3 ((lineBar [a, b] s).at 0) ∧
    ∀ sk ∈ (lineBar [a, b] s).skills, Spec.LinearSkill sk := by
  refine ⟨lineBar_fits a b ha hb s 0, fun (sk : ℝ → Skill 2 1) hs => ?_⟩
  · rcases List.mem_cons.1 hs with rfl | hs
    · refine linearElastic_linear _ ?_ ?_ _ ?_
      · ext a b; fin_cases a; fin_cases b; rfl
      · have : !![(3 : ℝ)] = Matrix.diagonal fun _ => 3 := by ext i j; fin_cases i; fin_cases j; rfl
        rw [this]
        exact Matrix.PosSemidef.diagonal fun _ => by norm_num
      · intro gp hgp
        obtain rfl := List.mem_singleton.1 hgp
        norm_num
    obtain rfl := List.mem_singleton.1 hs
    exact volumeLoad_linear _ _

theorem lineAnalysis_linear : Spec.LinearElems 3 [lineBar [0, 2] (-1), lineBar [1, 2] 1] := by
  intro e he
  have he : e = lineBar [0, 2] (-1) ∨ e = lineBar [1, 2] 1 := by simpa using he
  rcases he with rfl | rfl
  · exact lineBar_linear 0 2 (by norm_num) (by norm_num) _
  · exact lineBar_linear 1 2 (by norm_num) (by norm_num) _

theorem lineBar_energy (l s a b : ℝ) :
    Mixin.calculateScalar (fun I _ => ![a, b] I : NodeVec 2 1) [.linearElastic !![(3 : ℝ)] [⟨2, 1, ![!![s / 2], !![-s / 2]]⟩],
      .volumeLoad (some fun x l => ![l * x 0]) [⟨![s], 2, 1, ![1 / 2, 1 / 2]⟩] l] =
      some (3 / 4 * s ^ 2 * (b - a) ^ 2 - l * s * (a + b)) := by
  have h1 : LinearElastic.calculateScalar false !![(3 : ℝ)] [⟨2, 1, ![!![s / 2], !![-s / 2]]⟩]
      (fun I _ => ![a, b] I : NodeVec 2 1) = 3 / 4 * s ^ 2 * (b - a) ^ 2 := by
    simp [LinearElastic.calculateScalar, LinearElastic.internalEnergy, LinPoint.strain, dotProduct, Fin.sum_univ_two]
    ring
  have h2 : VolumeLoad.calculateScalar (some fun x l => ![l * x 0]) [⟨![s], 2, 1, ![1 / 2, 1 / 2]⟩] l
      (fun I _ => ![a, b] I : NodeVec 2 1) = -(l * s * (a + b)) := by
    simp [VolumeLoad.calculateScalar_sum, LoadPoint.displacement, dotProduct, Fin.sum_univ_two]
    ring
  simp only [Mixin.calculateScalar, Skill.linearElastic, Skill.volumeLoad, h1, h2, Option.bind_some, Option.map_some]
  congr 1
  ring

theorem lineAnalysis_energy (o : DBCOption) (l a c m : ℝ) :
    ((lineAnalysis o).system l).scalar? [a, c, m] = some (3 / 4 * ((m - a) ^ 2 + (m - c) ^ 2) + l * (a - c)) := by
  show ((mapOpt (·.scalar? [a, c, m]) [(lineBar [0, 2] (-1)).at l, (lineBar [1, 2] 1).at l]).map
    fun fes => Assembler.getScalar fes 0) = _
  have e1 : Elem.local? ((lineBar [0, 2] (-1)).at l) [a, c, m] = some (fun I _ => ![a, m] I : NodeVec 2 1) := by
    have : FETree.localSolution 1 [a, c, m] [0, 2] (.power [.leaf [0, 1]]) none = some [[a], [m]] := rfl
    unfold Elem.local?
    show (FETree.localSolution 1 [a, c, m] [0, 2] (.power [.leaf [0, 1]]) none).map Elem.nodes = _
    rw [this, Option.map_some]
    congr 1
    funext I c
    fin_cases I <;> fin_cases c <;> rfl
  have e2 : Elem.local? ((lineBar [1, 2] 1).at l) [a, c, m] = some (fun I _ => ![c, m] I : NodeVec 2 1) := by
    have : FETree.localSolution 1 [a, c, m] [1, 2] (.power [.leaf [0, 1]]) none = some [[c], [m]] := rfl
    unfold Elem.local?
    show (FETree.localSolution 1 [a, c, m] [1, 2] (.power [.leaf [0, 1]]) none).map Elem.nodes = _
    rw [this, Option.map_some]
    congr 1
    funext I c
    fin_cases I <;> fin_cases c <;> rfl
  have h1 : ((lineBar [0, 2] (-1)).at l).scalar? [a, c, m] = some (3 / 4 * (-1) ^ 2 * (m - a) ^ 2 - l * (-1) * (a + m)) := by
    unfold Elem.scalar?
    rw [e1]
    exact lineBar_energy l (-1) a m
  have h2 : ((lineBar [1, 2] 1).at l).scalar? [a, c, m] = some (3 / 4 * 1 ^ 2 * (m - c) ^ 2 - l * 1 * (c + m)) := by
    unfold Elem.scalar?
    rw [e2]
    exact lineBar_energy l 1 c m
  simp only [mapOpt, h1, h2, Assembler.getScalar, Assembler.getScalarLoop, Option.bind_some, Option.map_some]
  congr 1
  ring

theorem lineAnalysis_supported (o : DBCOption) (l : ℝ) :
    Spec.Supported (lineAnalysis o).dv.flags ((lineAnalysis o).system l).scalar? := by
  intro x v hx hv h0 hne
  obtain ⟨a, c, m, rfl⟩ := List.length_eq_three.1 hx
  obtain ⟨z, z', w, rfl⟩ := List.length_eq_three.1 hv
  obtain rfl : z = 0 := by simpa using h0 0 rfl
  obtain rfl : z' = 0 := by simpa using h0 1 rfl
  have hw : w ≠ 0 := by simpa using hne
  have hl : ∀ t : ℝ, Spec.line [a, c, m] [0, 0, w] t = [a, c, m + t * w] := by
    intro t
    simp [Spec.line]
  rw [hl, hl, lineAnalysis_energy, lineAnalysis_energy, lineAnalysis_energy]
  refine ⟨_, _, _, rfl, rfl, rfl, ?_⟩
  have : 0 < w ^ 2 := by positivity
  nlinarith

theorem lineAnalysis_proper (o : DBCOption) (ho : o ≠ .raw) : Spec.ProperLinear (lineAnalysis o) lineSupport where
  option := ho
  elems := lineAnalysis_linear
  prescribed := by
    refine ⟨fun l i _ => ?_, fun i _ => ?_, fun i hi hne => ?_⟩
    · simp only [Spec.prescribed, Spec.total, lineAnalysis, lineSupport, List.map_cons, List.map_nil, List.sum_cons, List.sum_nil, add_zero]
      split_ifs <;> ring
    · simp [Spec.total, lineAnalysis, lineSupport]
    · have hi : i < 3 := hi
      interval_cases i
      · rfl
      · rfl
      · exact absurd rfl hne
  force := Or.inl rfl
  alive _ _ := rfl
  bound _ h := absurd h (by simp [lineAnalysis])
  linSolve l x hx A hA := inverseSolve_solves (lineAnalysis o) ho lineAnalysis_linear (lineAnalysis_supported o) l x hx A hA

/-- The bars and the reflected bars. -/
noncomputable def lineTwins (l : ℝ) : List (Spec.Twin 1) :=
  [⟨2, [.leaf [0, 1]], [0, 2], ((lineBar [0, 2] (-1)).at l).skills, ((lineBar [0, 2] 1).at l).skills⟩,
    ⟨2, [.leaf [0, 1]], [1, 2], ((lineBar [1, 2] 1).at l).skills, ((lineBar [1, 2] (-1)).at l).skills⟩]

theorem lineBar_turn (i : List Nat) (s l : ℝ) (u : NodeVec 2 1) :
    List.Forall₂ (Spec.TurnedSkill !![-1] u (turn !![-1] u)) ((lineBar i s).at l).skills ((lineBar i (-s)).at l).skills ∧
    List.Forall₂ (Spec.SameEnergy u (turn !![-1] u)) ((lineBar i s).at l).skills ((lineBar i (-s)).at l).skills := by
  have hQ : (!![-1] : Matrix (Fin 1) (Fin 1) ℝ)ᵀ * !![-1] = 1 := by
    ext a b; fin_cases a; fin_cases b; simp [Matrix.mul_apply]
  have h1 := linearElastic_turn (Q := !![-1]) (T := 1) (C := !![(3 : ℝ)]) (C' := !![3]) (by simp)
    (by ext a b; fin_cases a; fin_cases b; rfl) (u := u) (u' := turn !![-1] u) (gps := [⟨2, 1, ![!![s / 2], !![-s / 2]]⟩])
    (gps' := [⟨2, 1, ![!![-s / 2], !![- -s / 2]]⟩])
    (List.Forall₂.cons ⟨rfl, rfl, by
      rw [Matrix.one_mulVec]
      funext a
      fin_cases a
      simp [LinPoint.strain, turn, Fin.sum_univ_two, Matrix.mulVec, dotProduct]
      try ring, fun I => by
      ext a b
      fin_cases I <;> fin_cases a <;> fin_cases b <;> simp [Matrix.mul_apply] <;> ring⟩ List.Forall₂.nil)
  have h2 := volumeLoad_turn (R := !![-1]) (a := 0) (Q := !![-1]) (t := fun x l => ![l * x 0]) (t' := fun x l => ![l * x 0])
    (fun x l => by
      funext a
      fin_cases a
      simp [Matrix.mulVec, dotProduct]) [⟨![s], 2, 1, ![1 / 2, 1 / 2]⟩] l u (turn !![-1] u)
  have e : [(⟨![s], 2, 1, ![1 / 2, 1 / 2]⟩ : LoadPoint 2 1)].map (turnedLoad !![-1] 0) = [⟨![-s], 2, 1, ![1 / 2, 1 / 2]⟩] := by
    rw [List.map_cons, List.map_nil]
    congr 1
    unfold turnedLoad
    congr 1
    funext a
    fin_cases a
    simp [Matrix.mulVec, dotProduct]
  rw [e] at h2
  exact ⟨.cons h1.1 (.cons h2.1 .nil), .cons h1.2 (.cons (h2.2 hQ) .nil)⟩

theorem line_paired (l : ℝ) : Spec.Paired [true, true, false] (Spec.Layout.single 3) !![-1] (Equiv.swap 0 1) (Equiv.swap 0 1)
    (lineTwins l) where
  image p a := by fin_cases p <;> fin_cases a <;> decide
  renumbers i := by
    show Equiv.swap 0 1 i < 3 ↔ i < 3
    rw [Equiv.swap_apply_def]
    split_ifs <;> omega
  nodes t ht := by
    simp only [lineTwins, List.mem_cons, List.not_mem_nil, or_false] at ht
    rcases ht with rfl | rfl
    · refine ⟨lineBar_fits 0 2 (by norm_num) (by norm_num) (-1) l, ![0, 2], fun dofs hd I a => ?_⟩
      obtain rfl : [0, 2] = dofs := by
        simpa [Spec.Twin.first, Elem.dofs?, FETree.globalIndices, FETree.firstIsLeaf, FETree.powerNodeIndices,
          FETree.leafSize?, FETree.childIndex?, FETree.leafIndex?, mapOpt, List.range, List.range.loop] using hd
      fin_cases I <;> fin_cases a <;> rfl
    · refine ⟨lineBar_fits 1 2 (by norm_num) (by norm_num) 1 l, ![1, 2], fun dofs hd I a => ?_⟩
      obtain rfl : [1, 2] = dofs := by
        simpa [Spec.Twin.first, Elem.dofs?, FETree.globalIndices, FETree.firstIsLeaf, FETree.powerNodeIndices,
          FETree.leafSize?, FETree.childIndex?, FETree.leafIndex?, mapOpt, List.range, List.range.loop] using hd
      fin_cases I <;> fin_cases a <;> rfl
  skills t ht u := by
    simp only [lineTwins, List.mem_cons, List.not_mem_nil, or_false] at ht
    rcases ht with rfl | rfl
    · have := (lineBar_turn [0, 2] (-1) l u).1
      rwa [neg_neg] at this
    · exact (lineBar_turn [1, 2] 1 l u).1
  elems := by
    have h1 : Spec.renumberedElem (Equiv.swap 0 1) ((lineBar [0, 2] 1).at l) = (lineBar [1, 2] 1).at l := rfl
    have h2 : Spec.renumberedElem (Equiv.swap 0 1) ((lineBar [1, 2] (-1)).at l) = (lineBar [0, 2] (-1)).at l := rfl
    show List.Perm [(lineBar [0, 2] (-1)).at l, (lineBar [1, 2] 1).at l]
      [Spec.renumberedElem (Equiv.swap 0 1) ((lineBar [0, 2] 1).at l), Spec.renumberedElem (Equiv.swap 0 1) ((lineBar [1, 2] (-1)).at l)]
    rw [h1, h2]
    exact List.Perm.swap _ _ _

/-- Four load steps, from a state in which the middle is displaced: the middle returns to its place at once, and stays there. -/
example (o : DBCOption) (ho : o ≠ .raw) : ∃ (r : LCState ℝ (Option (List ℝ)) ℝ (Option (List ℝ))) (u : Nat → List ℝ),
    (lineAnalysis o).loadControl? 4 0 1 ⟨0, some [0, 0, 7]⟩ = some r ∧ r.info.success = true ∧
    Spec.shown r = (List.range 5).map (fun k : Nat => ⟨0 + k * ((1 - 0) / (4 : Nat)), some (u k)⟩) ∧
    ∀ k ≤ 4, Spec.Image (Spec.Layout.single 3) !![-1] (Equiv.swap 0 1) (u k) (u k) := by
  refine symmetric_linear (a := lineAnalysis o) (L := Spec.Layout.single 3) (Q := !![-1]) (σ := Equiv.swap 0 1) (lineAnalysis_proper o ho)
    ⟨by norm_num [lineAnalysis], by norm_num [lineAnalysis], by norm_num [lineAnalysis]⟩ le_rfl (lineAnalysis_supported o)
    (by ext a b; fin_cases a; fin_cases b; simp [Matrix.mul_apply]) ⟨fun p a b _ => ?_, fun p a => ?_⟩
    (fun l x y h => paired_energy (line_paired l) (fun t ht u => ?_) h) 4 (by norm_num) 0 1 0 rfl (fun i hi => ?_) (fun k hk _ h0 => ?_)
  · obtain rfl := Subsingleton.elim a b
    have e : ∀ p a, ([true, true, false] : List Bool)[(Spec.Layout.single 3).dof (Equiv.swap 0 1 p) a]? =
        ([true, true, false] : List Bool)[(Spec.Layout.single 3).dof p a]? := by decide
    unfold Spec.Free
    show ([true, true, false] : List Bool)[(Spec.Layout.single 3).dof (Equiv.swap 0 1 p) a]? = _ ↔ _
    rw [e]
    rfl
  · fin_cases p <;> fin_cases a <;> simp [lineSupport, Spec.Layout.single, Equiv.swap_apply_def]
  · simp only [lineTwins, List.mem_cons, List.not_mem_nil, or_false] at ht
    rcases ht with rfl | rfl
    · have := (lineBar_turn [0, 2] (-1) l u).2
      rwa [neg_neg] at this
    · exact (lineBar_turn [1, 2] 1 l u).2
  · have hlt : i < 3 := (List.getElem?_eq_some_iff.1 hi).1
    rw [zero_mul]
    interval_cases i <;> first | rfl | exact absurd hi (by simp [lineAnalysis])
  · have : (0 : ℝ) < k := by exact_mod_cast hk
    norm_num at h0
    omega

end Ikarus
