import Verif.Analysis.NonlinearProps
import Mathlib.Analysis.InnerProductSpace.PiL2
import Mathlib.Analysis.Calculus.MeanValue
import Mathlib.Analysis.Calculus.Deriv.Shift

/-!
Lemmas on the convergence of the Newton solver for nonlinear structures near a regular state of equilibrium.
-/

namespace Ikarus

open Ikarus.Element Ikarus.Element.Spec

/-! ### Specification -/

/-- The length of the part of a vector that belongs to the free dofs. -/
noncomputable def Spec.freeSize (flags : List Bool) (f : Nat → ℝ) : ℝ :=
  Real.sqrt (∑ i ∈ (Finset.range flags.length).filter (fun i => Spec.Free flags i), f i ^ 2)

/-- The product of the stiffness matrix with a vector. -/
def Spec.times (K : DMat ℝ) (v : List ℝ) (i : Nat) : ℝ := ∑ j ∈ Finset.range v.length, K.val i j * v.getD j 0

/-- The state `u` has the length of the system and a distance of at most `rho` from `xs`. -/
def Spec.Near (a : Analysis) (xs : List ℝ) (rho : ℝ) (u : List ℝ) : Prop :=
  u.length = a.dv.flags.length ∧ Spec.distance u xs ≤ rho

/-- The state `xs` is a regular state of equilibrium at load factor `l`: the forces at the free dofs vanish; in a
neighbourhood of radius `rho` the elements fulfil their contract (forces and stiffness are derivatives), the linear solver
solves the systems it gets, the stiffness matrix has an inverse of norm at most `beta` and a norm of at most `B` as far as
the free dofs are concerned, and changes with the state at a rate of at most `L`. -/
structure Spec.RegularAt (a : Analysis) (l : ℝ) (xs : List ℝ) (rho beta L B : ℝ) : Prop where
  length : xs.length = a.dv.flags.length
  balance : ∃ r, (a.system l).rawVector? xs = some r ∧ ∀ i, Spec.Free a.dv.flags i → r.getD i 0 = 0
  contract : ∀ u, Spec.Near a xs rho u → Spec.SystemContract (a.system l) u
  solves : ∀ u, Spec.Near a xs rho u → ∀ A, a.jacobian? ⟨l, some u⟩ = some A → Spec.SolvesExactly a.linSolve A
  stable : ∀ u, Spec.Near a xs rho u → ∀ K, (a.system l).rawMatrix? u = some K → ∀ v : List ℝ,
    v.length = a.dv.flags.length → (∀ i : Nat, a.dv.flags[i]? = some true → v[i]? = some 0) →
    Spec.size v ≤ beta * Spec.freeSize a.dv.flags (Spec.times K v)
  bounded : ∀ u, Spec.Near a xs rho u → ∀ K, (a.system l).rawMatrix? u = some K → ∀ v : List ℝ,
    v.length = a.dv.flags.length → Spec.freeSize a.dv.flags (Spec.times K v) ≤ B * Spec.size v
  lipschitz : ∀ u u', Spec.Near a xs rho u → Spec.Near a xs rho u' → ∀ K K', (a.system l).rawMatrix? u = some K →
    (a.system l).rawMatrix? u' = some K' → ∀ v : List ℝ, v.length = a.dv.flags.length →
    Spec.freeSize a.dv.flags (fun i => Spec.times K v i - Spec.times K' v i) ≤ L * Spec.distance u u' * Spec.size v

/-! ### Vectors -/

/-- The entries below `m` as a vector of Euclidean space. -/
noncomputable def vec (m : Nat) (f : Nat → ℝ) : EuclideanSpace ℝ (Fin m) := WithLp.toLp 2 fun i => f i

/-- The entries at the free dofs, the others are zero. -/
noncomputable def freeVec (flags : List Bool) (f : Nat → ℝ) : EuclideanSpace ℝ (Fin flags.length) :=
  vec flags.length fun i => if Spec.Free flags i then f i else 0

theorem vec_norm (m : Nat) (f : Nat → ℝ) : ‖vec m f‖ = Real.sqrt (∑ i ∈ Finset.range m, f i ^ 2) := by
  rw [EuclideanSpace.norm_eq]
  congr 1
  rw [Finset.sum_range]
  exact Finset.sum_congr rfl fun i _ => by simp [vec]

theorem freeVec_norm (flags : List Bool) (f : Nat → ℝ) : ‖freeVec flags f‖ = Spec.freeSize flags f := by
  unfold freeVec Spec.freeSize
  rw [vec_norm, Finset.sum_filter]
  congr 1
  refine Finset.sum_congr rfl fun i _ => ?_
  split
  · rfl
  · simp

theorem freeVec_add (flags : List Bool) (f g : Nat → ℝ) :
    freeVec flags (fun i => f i + g i) = freeVec flags f + freeVec flags g := by
  ext i
  simp only [freeVec, vec, PiLp.add_apply]
  split <;> simp

theorem freeVec_sub (flags : List Bool) (f g : Nat → ℝ) :
    freeVec flags (fun i => f i - g i) = freeVec flags f - freeVec flags g := by
  ext i
  simp only [freeVec, vec, PiLp.sub_apply]
  split <;> simp

theorem freeVec_congr {flags : List Bool} {f g : Nat → ℝ} (h : ∀ i, Spec.Free flags i → f i = g i) :
    freeVec flags f = freeVec flags g := by
  ext i
  simp only [freeVec, vec]
  split
  · exact h _ ‹_›
  · rfl

theorem freeSize_sqrt (flags : List Bool) (f : Nat → ℝ) : Real.sqrt (freeSq flags f) = Spec.freeSize flags f := by
  unfold freeSq Spec.freeSize
  congr 1
  exact Finset.sum_congr rfl fun i _ => by ring

theorem freeSize_add (flags : List Bool) (f g : Nat → ℝ) :
    Spec.freeSize flags (fun i => f i + g i) ≤ Spec.freeSize flags f + Spec.freeSize flags g := by
  rw [← freeVec_norm, ← freeVec_norm, ← freeVec_norm, freeVec_add]
  exact norm_add_le _ _

theorem freeSize_congr {flags : List Bool} {f g : Nat → ℝ} (h : ∀ i, Spec.Free flags i → f i = g i) :
    Spec.freeSize flags f = Spec.freeSize flags g := by
  rw [← freeVec_norm, ← freeVec_norm, freeVec_congr h]

theorem freeSize_neg (flags : List Bool) (f : Nat → ℝ) : Spec.freeSize flags (fun i => -f i) = Spec.freeSize flags f := by
  unfold Spec.freeSize
  simp

theorem freeSize_nonneg (flags : List Bool) (f : Nat → ℝ) : 0 ≤ Spec.freeSize flags f := Real.sqrt_nonneg _

theorem size_eq (m : Nat) (v : List ℝ) (h : v.length = m) : Spec.size v = ‖vec m (v.getD · 0)‖ := by
  unfold Spec.size
  rw [vec_norm, list_sum_getD, List.length_map, h]
  congr 1
  refine Finset.sum_congr rfl fun i _ => ?_
  simp only [List.getD_eq_getElem?_getD, List.getElem?_map]
  cases v[i]? <;> simp [sq]

theorem distance_eq (m : Nat) (u v : List ℝ) (hu : u.length = m) (hv : v.length = m) :
    Spec.distance u v = ‖vec m (fun i => u.getD i 0 - v.getD i 0)‖ := by
  unfold Spec.distance
  rw [vec_norm, zipWith_sum_range _ u v m hu hv]
  congr 1
  exact Finset.sum_congr rfl fun i _ => by ring

theorem vec_sub (m : Nat) (f g : Nat → ℝ) : vec m (fun i => f i - g i) = vec m f - vec m g := by
  ext i; simp [vec]

theorem distance_triangle (m : Nat) (u v w : List ℝ) (hu : u.length = m) (hv : v.length = m) (hw : w.length = m) :
    Spec.distance u w ≤ Spec.distance u v + Spec.distance v w := by
  rw [distance_eq m u w hu hw, distance_eq m u v hu hv, distance_eq m v w hv hw, vec_sub, vec_sub, vec_sub]
  exact norm_sub_le_norm_sub_add_norm_sub _ _ _

theorem distance_nonneg (u v : List ℝ) : 0 ≤ Spec.distance u v := Real.sqrt_nonneg _

/-- The difference of two vectors. -/
def diff (m : Nat) (u v : List ℝ) : List ℝ := listOf m fun i => u.getD i 0 - v.getD i 0

theorem diff_length (m : Nat) (u v : List ℝ) : (diff m u v).length = m := listOf_length _ _

theorem size_diff (m : Nat) (u v : List ℝ) (hu : u.length = m) (hv : v.length = m) :
    Spec.size (diff m u v) = Spec.distance u v := by
  rw [size_eq m _ (diff_length m u v), distance_eq m u v hu hv]
  congr 1
  ext i
  simp only [vec, diff]
  rw [listOf_getD m _ i.2]

theorem vec_smul (m : Nat) (t : ℝ) (f : Nat → ℝ) : vec m (fun i => t * f i) = t • vec m f := by
  ext i; simp [vec]

/-! ### The remainder of the linearisation -/

theorem linear_remainder {W : Type*} [NormedAddCommGroup W] [NormedSpace ℝ W] (φ φ' : ℝ → W) (C : ℝ)
    (hd : ∀ t ∈ Set.Icc (0 : ℝ) 1, HasDerivAt φ (φ' t) t) (hb : ∀ t ∈ Set.Icc (0 : ℝ) 1, ‖φ' t - φ' 0‖ ≤ C * t) :
    ‖φ 1 - φ 0 - φ' 0‖ ≤ C / 2 := by
  have hd' : ∀ t ∈ Set.Icc (0 : ℝ) 1, HasDerivAt (fun t => φ t - φ 0 - t • φ' 0) (φ' t - φ' 0) t := by
    intro t ht
    have h1 : HasDerivAt (fun t : ℝ => t • φ' 0) ((1 : ℝ) • φ' 0) t := (hasDerivAt_id t).smul_const _
    rw [one_smul] at h1
    exact ((hd t ht).sub_const _).sub h1
  have := image_norm_le_of_norm_deriv_right_le_deriv_boundary (a := 0) (b := 1) (f := fun t => φ t - φ 0 - t • φ' 0)
    (f' := fun t => φ' t - φ' 0) (B := fun t => C / 2 * t ^ 2) (B' := fun t => C * t)
    (fun t ht => (hd' t ht).continuousAt.continuousWithinAt)
    (fun t ht => (hd' t ⟨ht.1, ht.2.le⟩).hasDerivWithinAt) (by simp)
    (fun t => by
      have h1 : HasDerivAt (fun t : ℝ => C / 2 * t ^ 2) (C / 2 * (2 * t ^ (2 - 1))) t := by
        simpa using (hasDerivAt_pow 2 t).const_mul (C / 2)
      have h2 : C / 2 * (2 * t ^ (2 - 1)) = C * t := by simp; ring
      rw [← h2]; exact h1)
    (fun t ht => hb t ⟨ht.1, ht.2.le⟩) (x := 1) ⟨zero_le_one, le_rfl⟩
  simpa using this

theorem hasDerivAt_vec (m : Nat) (f : ℝ → Nat → ℝ) (f' : Nat → ℝ) (t : ℝ)
    (h : ∀ i < m, HasDerivAt (fun s => f s i) (f' i) t) : HasDerivAt (fun s => vec m (f s)) (vec m f') t := by
  have h1 : HasDerivAt (fun s => fun i : Fin m => f s i) (fun i : Fin m => f' i) t := hasDerivAt_pi.2 fun i => h i i.2
  exact ((EuclideanSpace.equiv (Fin m) ℝ).symm.toContinuousLinearMap.hasFDerivAt).comp_hasDerivAt t h1

namespace Analysis

variable {a : Analysis} {û : Nat → ℝ} {l rho beta L B : ℝ} {xs : List ℝ}

theorem line_line (u v : List ℝ) (s t : ℝ) : Spec.line (Spec.line u v s) v t = Spec.line u v (s + t) := by
  unfold Spec.line
  apply List.ext_getElem?
  intro i
  simp only [List.getElem?_zipWith]
  cases u[i]? <;> cases v[i]? <;> simp
  ring

theorem line_getD (m : Nat) (u v : List ℝ) (t : ℝ) (hu : u.length = m) (hv : v.length = m) {i : Nat} (hi : i < m) :
    (Spec.line u v t).getD i 0 = u.getD i 0 + t * v.getD i 0 := by
  unfold Spec.line
  simp only [List.getD_eq_getElem?_getD, List.getElem?_zipWith]
  rw [List.getElem?_eq_getElem (hu ▸ hi), List.getElem?_eq_getElem (hv ▸ hi)]
  rfl

theorem vec_congr {m : Nat} {f g : Nat → ℝ} (h : ∀ i < m, f i = g i) : vec m f = vec m g := by
  ext i
  exact h i i.2

theorem times_eq (K : DMat ℝ) {v : List ℝ} {m : Nat} (h : v.length = m) (i : Nat) :
    Spec.times K v i = ∑ j ∈ Finset.range m, K.val i j * v.getD j 0 := by
  unfold Spec.times
  rw [h]

theorem diff_getD (m : Nat) (u v : List ℝ) {i : Nat} (hi : i < m) : (diff m u v).getD i 0 = u.getD i 0 - v.getD i 0 :=
  listOf_getD m _ hi

/-- The forces at the free dofs on the way from `u` to the state of equilibrium. -/
noncomputable def forcesOn (a : Analysis) (l : ℝ) (u v : List ℝ) (t : ℝ) : EuclideanSpace ℝ (Fin a.dv.flags.length) :=
  freeVec a.dv.flags fun i => (((a.system l).rawVector? (Spec.line u v t)).getD []).getD i 0

theorem on_the_way (h : Spec.RegularAt a l xs rho beta L B) {u : List ℝ} (hu : Spec.Near a xs rho u) :
    Spec.line u (diff a.dv.flags.length xs u) 0 = u ∧ Spec.line u (diff a.dv.flags.length xs u) 1 = xs ∧
    Spec.size (diff a.dv.flags.length xs u) = Spec.distance u xs ∧
    (∀ t, 0 ≤ t → Spec.distance (Spec.line u (diff a.dv.flags.length xs u) t) u = t * Spec.distance u xs) ∧
    ∃ Kt : ℝ → DMat ℝ, ∀ t ∈ Set.Icc (0 : ℝ) 1, Spec.Near a xs rho (Spec.line u (diff a.dv.flags.length xs u) t) ∧
      (a.system l).rawMatrix? (Spec.line u (diff a.dv.flags.length xs u) t) = some (Kt t) ∧
      HasDerivAt (forcesOn a l u (diff a.dv.flags.length xs u))
        (freeVec a.dv.flags (Spec.times (Kt t) (diff a.dv.flags.length xs u))) t := by
  obtain ⟨m, hm⟩ : ∃ m, a.dv.flags.length = m := ⟨_, rfl⟩
  rw [show diff a.dv.flags.length xs u = diff m xs u by rw [hm]]
  have hul : u.length = m := hm ▸ hu.1
  have hxl : xs.length = m := hm ▸ h.length
  generalize hv : diff m xs u = v
  have hvl : v.length = m := by rw [← hv, diff_length]
  have hvi : ∀ i < m, v.getD i 0 = xs.getD i 0 - u.getD i 0 := fun i hi => by rw [← hv]; exact listOf_getD m _ hi
  have hvs : Spec.size v = Spec.distance u xs := by
    rw [← hv, size_diff m xs u hxl hul, distance_eq m xs u hxl hul, distance_eq m u xs hul hxl, vec_sub, vec_sub, norm_sub_rev]
  have hll : ∀ t, (Spec.line u v t).length = m := fun t => by rw [line_length u v t (hul.trans hvl.symm), hul]
  have hdist : ∀ t, Spec.distance (Spec.line u v t) xs = |1 - t| * Spec.distance u xs := by
    intro t
    rw [distance_eq m _ xs (hll t) hxl, distance_eq m u xs hul hxl, ← Real.norm_eq_abs, ← norm_smul, ← vec_smul]
    congr 1
    refine vec_congr fun i hi => ?_
    rw [line_getD m u v t hul hvl hi, hvi i hi]; ring
  have hdist0 : ∀ t, 0 ≤ t → Spec.distance (Spec.line u v t) u = t * Spec.distance u xs := by
    intro t ht
    rw [distance_eq m _ u (hll t) hul, distance_eq m u xs hul hxl]
    have : vec m (fun i => (Spec.line u v t).getD i 0 - u.getD i 0) = (-t) • vec m (fun i => u.getD i 0 - xs.getD i 0) := by
      rw [← vec_smul]
      refine vec_congr fun i hi => ?_
      rw [line_getD m u v t hul hvl hi, hvi i hi]; ring
    rw [this, norm_smul, Real.norm_eq_abs, abs_neg, abs_of_nonneg ht]
  have hnear : ∀ t ∈ Set.Icc (0 : ℝ) 1, Spec.Near a xs rho (Spec.line u v t) := by
    intro t ht
    refine ⟨(hll t).trans hm.symm, ?_⟩
    rw [hdist, abs_of_nonneg (by linarith [ht.2])]
    nlinarith [ht.1, ht.2, hu.2, distance_nonneg u xs]
  have hcons : ∀ t, ∃ Kt, t ∈ Set.Icc (0 : ℝ) 1 → (a.system l).rawMatrix? (Spec.line u v t) = some Kt ∧
      ∀ i < m, HasDerivAt (fun s => (((a.system l).rawVector? (Spec.line u v s)).getD []).getD i 0) (Spec.times Kt v i) t := by
    intro t
    by_cases ht : t ∈ Set.Icc (0 : ℝ) 1
    · obtain ⟨-, _, Kt, -, hKt, hder⟩ := assembled_consistent (a.system l) _ (h.contract _ (hnear t ht))
      refine ⟨Kt, fun _ => ⟨hKt, fun i hi => ?_⟩⟩
      have h1 := (hder v (hvl.trans hm.symm)).2 i (show i < a.dv.flags.length from hm ▸ hi)
      simp only [line_line] at h1
      have h2 : (∑ j ∈ Finset.range (a.system l).flags.length, Kt.val i j * v.getD j 0) = Spec.times Kt v i :=
        (times_eq Kt (hvl.trans hm.symm) i).symm
      rw [h2] at h1
      have h3 := HasDerivAt.comp_sub_const t t (f := fun s => (((a.system l).rawVector? (Spec.line u v (t + s))).getD []).getD i 0)
        (by rw [sub_self]; exact h1)
      simpa using h3
    · exact ⟨DMat.zero 0 0, fun h => absurd h ht⟩
  choose Kt hKt using hcons
  have h0 : Spec.line u v 0 = u := by
    apply List.ext_getElem (by rw [hll, hul])
    intro i h1 h2
    simp [Spec.line]
  have h1 : Spec.line u v 1 = xs := by
    apply List.ext_getElem?
    intro i
    by_cases hi : i < m
    · rw [getElem?_eq_getD (by rw [hll]; exact hi), getElem?_eq_getD (hxl ▸ hi), line_getD m u v 1 hul hvl hi, hvi i hi]
      congr 1; ring
    · rw [List.getElem?_eq_none (by rw [hll]; omega), List.getElem?_eq_none (by omega)]
  refine ⟨h0, h1, hvs, hdist0, Kt, fun t ht => ⟨hnear t ht, (hKt t ht).1, ?_⟩⟩
  unfold forcesOn freeVec
  refine hasDerivAt_vec _ (fun s i => if Spec.Free a.dv.flags i then _ else 0) _ t fun i hi => ?_
  by_cases hf : Spec.Free a.dv.flags i
  · simp only [if_pos hf]
    exact (hKt t ht).2 i (hm ▸ hi)
  · simp only [if_neg hf]
    exact hasDerivAt_const _ _

/-- The forces at the state of equilibrium, extrapolated from the state `u`, differ from zero by a term of second order. -/
theorem extrapolated (h : Spec.RegularAt a l xs rho beta L B) {u r : List ℝ} {K : DMat ℝ}
    (hu : Spec.Near a xs rho u) (hr : (a.system l).rawVector? u = some r) (hK : (a.system l).rawMatrix? u = some K) :
    Spec.freeSize a.dv.flags (fun i => r.getD i 0 + Spec.times K (diff a.dv.flags.length xs u) i) ≤
      L / 2 * Spec.distance u xs ^ 2 := by
  obtain ⟨h0, h1, hvs, hd, Kt, hKt⟩ := on_the_way h hu
  have hvl := diff_length a.dv.flags.length xs u
  generalize diff a.dv.flags.length xs u = v at *
  have hK0 : Kt 0 = K := by
    have := (hKt 0 ⟨le_rfl, zero_le_one⟩).2.1
    rw [h0, hK] at this
    exact (Option.some.inj this).symm
  obtain ⟨rs, hrs, hrs0⟩ := h.balance
  have key := linear_remainder (forcesOn a l u v) (fun t => freeVec a.dv.flags (Spec.times (Kt t) v))
    (L * Spec.distance u xs ^ 2) (fun t ht => (hKt t ht).2.2) (fun t ht => ?_)
  · simp only [forcesOn, h0, h1, hr, hrs, Option.getD_some, hK0] at key
    rw [← freeVec_sub, ← freeVec_sub, freeVec_norm] at key
    rw [← freeSize_neg]
    refine le_of_eq_of_le (freeSize_congr fun i hi => ?_) (key.trans (le_of_eq (by ring)))
    rw [hrs0 i hi]; ring
  · have hz := hKt 0 ⟨le_rfl, zero_le_one⟩
    rw [← freeVec_sub, freeVec_norm]
    refine (h.lipschitz _ _ (hKt t ht).1 hz.1 _ _ (hKt t ht).2.1 hz.2.1 v hvl).trans (le_of_eq ?_)
    rw [h0, hd t ht.1, hvs]; ring

/-- The forces at a state are at most proportional to its distance from the state of equilibrium. -/
theorem forces_le (h : Spec.RegularAt a l xs rho beta L B) {u r : List ℝ} (hu : Spec.Near a xs rho u)
    (hr : (a.system l).rawVector? u = some r) :
    Spec.freeSize a.dv.flags (r.getD · 0) ≤ B * Spec.distance u xs := by
  obtain ⟨h0, h1, hvs, hd, Kt, hKt⟩ := on_the_way h hu
  have hvl := diff_length a.dv.flags.length xs u
  generalize diff a.dv.flags.length xs u = v at *
  obtain ⟨rs, hrs, hrs0⟩ := h.balance
  have key := norm_image_sub_le_of_norm_deriv_right_le_segment (f := forcesOn a l u v)
    (f' := fun t => freeVec a.dv.flags (Spec.times (Kt t) v)) (a := 0) (b := 1) (C := B * Spec.distance u xs)
    (fun t ht => (hKt t ht).2.2.continuousAt.continuousWithinAt)
    (fun t ht => (hKt t ⟨ht.1, ht.2.le⟩).2.2.hasDerivWithinAt) (fun t ht => ?_) 1 ⟨zero_le_one, le_rfl⟩
  · simp only [forcesOn, h0, h1, hr, hrs, Option.getD_some] at key
    rw [← freeVec_sub, freeVec_norm, sub_zero, mul_one] at key
    rw [← freeSize_neg]
    refine le_of_eq_of_le (freeSize_congr fun i hi => ?_) key
    rw [hrs0 i hi]; ring
  · rw [freeVec_norm, ← hvs]
    have hk := hKt t ⟨ht.1, ht.2.le⟩
    exact h.bounded _ hk.1 _ hk.2.1 v hvl

/-- A state `y` on the supports for which the forces extrapolated from `u` are at most `tau`: how far it is from
the state of equilibrium. -/
theorem error_bound (h : Spec.RegularAt a l xs rho beta L B) (hbeta : 0 ≤ beta) {u r y : List ℝ} {K : DMat ℝ} {tau : ℝ}
    (hu : Spec.Near a xs rho u) (hr : (a.system l).rawVector? u = some r) (hK : (a.system l).rawMatrix? u = some K)
    (hy : y.length = a.dv.flags.length) (hsup : ∀ i < a.dv.flags.length, ¬ Spec.Free a.dv.flags i → y.getD i 0 = xs.getD i 0)
    (htau : Spec.freeSize a.dv.flags (fun i => r.getD i 0 + ∑ j ∈ Finset.range a.dv.flags.length,
      K.val i j * (y.getD j 0 - u.getD j 0)) ≤ tau) :
    Spec.distance y xs ≤ beta * (tau + L / 2 * Spec.distance u xs ^ 2) := by
  have h1 := extrapolated h hu hr hK
  rw [← size_diff a.dv.flags.length y xs hy h.length]
  refine (h.stable u hu K hK _ (diff_length _ _ _) fun i hi => ?_).trans (mul_le_mul_of_nonneg_left ?_ hbeta)
  · have hlt : i < a.dv.flags.length := (List.getElem?_eq_some_iff.1 hi).1
    rw [getElem?_eq_getD (by rw [diff_length]; exact hlt), diff_getD _ _ _ hlt, hsup i hlt ((not_free_iff hlt).2 hi), sub_self]
  · refine le_trans (le_trans (le_of_eq (freeSize_congr fun i hi => ?_)) (freeSize_add _ _ _))
      (add_le_add htau ((freeSize_neg _ _).le.trans h1))
    rw [times_eq K (diff_length _ y xs), times_eq K (diff_length _ xs u)]
    have e1 : ∑ j ∈ Finset.range a.dv.flags.length, K.val i j * (diff a.dv.flags.length y xs).getD j 0 =
        ∑ j ∈ Finset.range a.dv.flags.length, K.val i j * (y.getD j 0 - u.getD j 0) -
        ∑ j ∈ Finset.range a.dv.flags.length, K.val i j * (diff a.dv.flags.length xs u).getD j 0 := by
      rw [← Finset.sum_sub_distrib]
      refine Finset.sum_congr rfl fun j hj => ?_
      rw [diff_getD _ _ _ (Finset.mem_range.1 hj), diff_getD _ _ _ (Finset.mem_range.1 hj)]; ring
    rw [e1]; ring

/-! ### The iterates -/

/-- One step of the solver at a state near the state of equilibrium. -/
theorem step_newton (hp : Spec.Proper a û) (h : Spec.RegularAt a l xs rho beta L B) {u R : List ℝ} {K : DMat ℝ}
    (hu : Spec.Near a xs rho u) (hK : (a.system l).rawMatrix? u = some K) (hR : R.length = a.dv.flags.length) :
    ∃ y : List ℝ, Spec.newtonStep a.problem ⟨l, some u⟩ (some (view a.option a.dv.flags R)) = ⟨l, some y⟩ ∧
      y.length = a.dv.flags.length ∧
      ∃ v : Nat → ℝ, (∀ i < a.dv.flags.length, ¬ Spec.Free a.dv.flags i → v i = 0) ∧
        (∀ i < a.dv.flags.length, y.getD i 0 = synced û l i (u.getD i 0 + v i)) ∧
        ∀ i, Spec.Free a.dv.flags i → ∑ j ∈ Finset.range a.dv.flags.length, K.val i j * v j = -R.getD i 0 := by
  obtain ⟨y, h1, h2, v, h3, h4, h5⟩ := a.correction_view hp.option hu.1 hR hK (h.solves u hu)
  have h1 : a.problem.update ⟨l, some u⟩ (a.problem.linSolve (a.problem.jacobian ⟨l, some u⟩)
      (some (view a.option a.dv.flags R))) = ⟨l, some y⟩ := h1
  unfold Spec.newtonStep
  by_cases hf : a.withForce = true
  · have hi : a.problem.idbc = some ⟨a.addForce, a.sync⟩ := by simp [problem, hf]
    obtain ⟨z, h6, h7, h8⟩ := proper_sync hp l h2
    refine ⟨z, ?_, h7, v, h3, fun i hi => by rw [h8 i hi, h4 i hi], h5⟩
    rw [hi]
    show a.sync (a.problem.update _ _) = _
    rw [h1, h6]
  · have hi : a.problem.idbc = none := by simp [problem, hf]
    refine ⟨y, ?_, h2, v, h3, fun i hi => ?_, h5⟩
    · rw [hi]; exact h1
    · rw [h4 i hi]
      unfold synced
      rw [(hp.force.resolve_left hf) i hi, mul_zero, if_neg (by simp)]

/-- The first right-hand side with the stiffness of the state itself. -/
theorem first_newton (hp : Spec.Proper a û) (hb : a.bound = none ∨ ∀ i < a.dv.flags.length, û i = 0) (l s : ℝ) {u : List ℝ}
    (hu : u.length = a.dv.flags.length) :
    ∃ (R r : List ℝ) (K : DMat ℝ), Spec.firstResidual a.problem ⟨l, some u⟩ s = some (view a.option a.dv.flags R) ∧
      R.length = a.dv.flags.length ∧ (a.system l).rawVector? u = some r ∧ r.length = a.dv.flags.length ∧
      (a.system l).rawMatrix? u = some K ∧
      ∀ i < a.dv.flags.length, R.getD i 0 = r.getD i 0 + s * ∑ j ∈ Finset.range a.dv.flags.length, K.val i j * û j := by
  obtain ⟨R, r, K, f1, f2, f3, f4, f5, f6⟩ := first_proper hp l s hu
  rcases hb with hb | hb
  · exact ⟨R, r, K, f1, f2, f3, f4, f5 hb, f6⟩
  · obtain ⟨-, -, K', -, -, -, hK', -⟩ := proper_system hp l hu
    refine ⟨R, r, K', f1, f2, f3, f4, hK', fun i hi => ?_⟩
    rw [f6 i hi]
    have h0 : ∀ M : DMat ℝ, ∑ j ∈ Finset.range a.dv.flags.length, M.val i j * û j = 0 := fun M =>
      Finset.sum_eq_zero fun j hj => by rw [hb j (Finset.mem_range.1 hj), mul_zero]
    rw [h0, h0]

/-- C100, iterates. Newton iterates of a structure that start in a neighbourhood of a regular state of equilibrium, and whose
supports are moved to those of the state, approach it with second order: after `k + 1` iterations the error is at most
`delta / 2 ^ (2 ^ (k + 1) - 1)`. -/
theorem iterates_converge (hp : Spec.Proper a û) (hb : a.bound = none ∨ ∀ i < a.dv.flags.length, û i = 0)
    (h : Spec.RegularAt a l xs rho beta L B) (hbeta : 0 ≤ beta) (hL : 0 ≤ L) {delta : ℝ} (hd0 : 0 ≤ delta) (hd : delta ≤ rho)
    (hc : beta * L * delta ≤ 1) (s : ℝ) {u : List ℝ} (hu : Spec.Near a xs delta u)
    (hsup : ∀ i < a.dv.flags.length, ¬ Spec.Free a.dv.flags i →
      synced û l i (u.getD i 0) = xs.getD i 0 ∧ u.getD i 0 + s * û i = xs.getD i 0) (k : Nat) :
    ∃ (y R : List ℝ), Spec.newtonIterates a.problem ⟨l, some u⟩ s (k + 1) =
        (⟨l, some y⟩, some (view a.option a.dv.flags R)) ∧ y.length = a.dv.flags.length ∧ R.length = a.dv.flags.length ∧
      (a.system l).rawVector? y = some R ∧
      (∀ i < a.dv.flags.length, ¬ Spec.Free a.dv.flags i → y.getD i 0 = xs.getD i 0) ∧
      Spec.distance y xs ≤ delta / 2 ^ (2 ^ (k + 1) - 1) := by
  have hsx : ∀ i < a.dv.flags.length, ¬ Spec.Free a.dv.flags i → synced û l i (xs.getD i 0) = xs.getD i 0 := by
    intro i hi hf
    rw [← (hsup i hi hf).1, synced_idem]
  have hfree : ∀ i v, Spec.Free a.dv.flags i → synced û l i v = v := by
    intro i v hf
    unfold synced
    rw [proper_free_zero hp hf, mul_zero, if_neg (by simp)]
  have hquad : ∀ (d e : ℝ), 0 ≤ d → d ≤ delta * e → 0 ≤ e → beta * (0 + L / 2 * d ^ 2) ≤ delta / 2 * e ^ 2 := by
    intro d e h0 h1 he
    have h2 : d ^ 2 ≤ (delta * e) ^ 2 := pow_le_pow_left₀ h0 h1 2
    have h3 : beta * (0 + L / 2 * d ^ 2) ≤ beta * L / 2 * (delta * e) ^ 2 := by
      have : 0 ≤ beta * L / 2 := by positivity
      nlinarith [mul_le_mul_of_nonneg_left h2 this]
    have h4 : beta * L / 2 * (delta * e) ^ 2 = beta * L * delta * (delta / 2 * e ^ 2) := by ring
    have h5 : 0 ≤ delta / 2 * e ^ 2 := by positivity
    rw [h4] at h3
    exact h3.trans (mul_le_of_le_one_left h5 hc)
  induction k with
  | zero =>
    have hun : Spec.Near a xs rho u := ⟨hu.1, hu.2.trans hd⟩
    obtain ⟨R0, r, K, f1, f2, f3, -, f5, f6⟩ := first_newton hp hb l s hu.1
    obtain ⟨y, s1, s2, v, s3, s4, s5⟩ := step_newton hp h hun f5 f2
    obtain ⟨-, R, -, -, r1, r2, -⟩ := proper_system hp l s2
    have hys : ∀ i < a.dv.flags.length, ¬ Spec.Free a.dv.flags i → y.getD i 0 = xs.getD i 0 := by
      intro i hi hf
      rw [s4 i hi, s3 i hi hf, add_zero, (hsup i hi hf).1]
    have hyu : ∀ i < a.dv.flags.length, y.getD i 0 - u.getD i 0 = v i + s * û i := by
      intro i hi
      by_cases hf : Spec.Free a.dv.flags i
      · rw [s4 i hi, hfree i _ hf, proper_free_zero hp hf]; ring
      · rw [hys i hi hf, ← (hsup i hi hf).2, s3 i hi hf]; ring
    refine ⟨y, R, ?_, s2, r2, r1, hys, ?_⟩
    · show (Spec.newtonStep a.problem ⟨l, some u⟩ (Spec.firstResidual a.problem ⟨l, some u⟩ s),
        a.residual? (Spec.newtonStep a.problem ⟨l, some u⟩ (Spec.firstResidual a.problem ⟨l, some u⟩ s))) = _
      rw [f1, s1, a.residual_view hp.option r1]
    · refine (error_bound h hbeta hun f3 f5 s2 hys (tau := 0) (le_of_eq ?_)).trans ?_
      · rw [← freeSize_sqrt, freeSq_zero, Real.sqrt_zero]
        intro i hf
        have e1 : ∑ j ∈ Finset.range a.dv.flags.length, K.val i j * (y.getD j 0 - u.getD j 0) =
            ∑ j ∈ Finset.range a.dv.flags.length, K.val i j * v j +
            s * ∑ j ∈ Finset.range a.dv.flags.length, K.val i j * û j := by
          rw [Finset.mul_sum, ← Finset.sum_add_distrib]
          refine Finset.sum_congr rfl fun j hj => ?_
          rw [hyu j (Finset.mem_range.1 hj)]; ring
        rw [e1, s5 i hf, f6 i (free_lt hf)]; ring
      · refine (hquad _ 1 (distance_nonneg _ _) (by rw [mul_one]; exact hu.2) zero_le_one).trans (le_of_eq ?_)
        norm_num
  | succ k ih =>
    obtain ⟨y0, R0, i1, i2, i3, i4, i5, i6⟩ := ih
    have hpow : (1 : ℝ) ≤ 2 ^ (2 ^ (k + 1) - 1) := one_le_pow₀ (by norm_num)
    have hy0 : Spec.Near a xs rho y0 := ⟨i2, i6.trans ((div_le_self hd0 hpow).trans hd)⟩
    obtain ⟨-, -, K, -, -, -, hK, -⟩ := proper_system hp l i2
    obtain ⟨y, s1, s2, v, s3, s4, s5⟩ := step_newton hp h hy0 hK i3
    obtain ⟨-, R, -, -, r1, r2, -⟩ := proper_system hp l s2
    have hys : ∀ i < a.dv.flags.length, ¬ Spec.Free a.dv.flags i → y.getD i 0 = xs.getD i 0 := by
      intro i hi hf
      rw [s4 i hi, s3 i hi hf, add_zero, i5 i hi hf, hsx i hi hf]
    have hyu : ∀ i < a.dv.flags.length, y.getD i 0 - y0.getD i 0 = v i := by
      intro i hi
      by_cases hf : Spec.Free a.dv.flags i
      · rw [s4 i hi, hfree i _ hf]; ring
      · rw [hys i hi hf, i5 i hi hf, s3 i hi hf]; ring
    refine ⟨y, R, ?_, s2, r2, r1, hys, ?_⟩
    · show (Spec.newtonStep a.problem (Spec.newtonIterates a.problem ⟨l, some u⟩ s (k + 1)).1
          (Spec.newtonIterates a.problem ⟨l, some u⟩ s (k + 1)).2,
        a.residual? (Spec.newtonStep a.problem (Spec.newtonIterates a.problem ⟨l, some u⟩ s (k + 1)).1
          (Spec.newtonIterates a.problem ⟨l, some u⟩ s (k + 1)).2)) = _
      rw [i1]
      show (Spec.newtonStep a.problem ⟨l, some y0⟩ (some (view a.option a.dv.flags R0)),
        a.residual? (Spec.newtonStep a.problem ⟨l, some y0⟩ (some (view a.option a.dv.flags R0)))) = _
      rw [s1, a.residual_view hp.option r1]
    · refine (error_bound h hbeta hy0 i4 hK s2 hys (tau := 0) (le_of_eq ?_)).trans ?_
      · rw [← freeSize_sqrt, freeSq_zero, Real.sqrt_zero]
        intro i hf
        rw [Finset.sum_congr rfl fun j hj => by rw [hyu j (Finset.mem_range.1 hj)], s5 i hf]; ring
      · refine (hquad _ (1 / 2 ^ (2 ^ (k + 1) - 1)) (distance_nonneg _ _) (by rw [mul_one_div]; exact i6)
          (by positivity)).trans (le_of_eq ?_)
        have e1 : 2 ^ (k + 1 + 1) - 1 = (2 ^ (k + 1) - 1) * 2 + 1 := by
          have : 1 ≤ 2 ^ (k + 1) := Nat.one_le_two_pow
          rw [pow_succ 2 (k + 1)]; omega
        generalize 2 ^ (k + 1) - 1 = q at e1
        rw [e1, pow_succ (2 : ℝ) (q * 2), pow_mul (2 : ℝ) q 2]
        field_simp

/-- C100, one solve. One call of the solver near a regular state of equilibrium succeeds after at most `m` iterations, where
`m` follows from the tolerance by the quadratic rate; the error of its result is at most `2 * beta * tol`. -/
theorem solve_converges (hp : Spec.Proper a û) (hb : a.bound = none ∨ ∀ i < a.dv.flags.length, û i = 0)
    (h : Spec.RegularAt a l xs rho beta L B) (hbeta : 0 ≤ beta) (hL : 0 ≤ L) (hB : 0 ≤ B) {delta : ℝ} (hd0 : 0 ≤ delta)
    (hd : delta ≤ rho) (hc : beta * L * delta ≤ 1) (s : ℝ) {u : List ℝ} (hu : Spec.Near a xs delta u)
    (hsup : ∀ i < a.dv.flags.length, ¬ Spec.Free a.dv.flags i →
      synced û l i (u.getD i 0) = xs.getD i 0 ∧ u.getD i 0 + s * û i = xs.getD i 0)
    {m : Nat} (hm : 0 < m) (hmin : a.settings.minIter ≤ m) (hmax : (m : Int) < a.settings.maxIter)
    (htol : B * (delta / 2 ^ (2 ^ m - 1)) ≤ a.settings.tol) (w : Option (List ℝ)) :
    ∃ (w' : Option (List ℝ)) (y : List ℝ) (info : SolverInfo ℝ) (k : Nat),
      a.solver.solve w ⟨l, some u⟩ s = (w', ⟨l, some y⟩, info) ∧ info.success = true ∧ info.iterations = k ∧ k ≤ m ∧
      y.length = a.dv.flags.length ∧
      (0 < k → (∀ i < a.dv.flags.length, ¬ Spec.Free a.dv.flags i → y.getD i 0 = xs.getD i 0) ∧
        Spec.distance y xs ≤ 2 * beta * a.settings.tol) ∧
      (k = 0 → y = u ∧ ∀ z : List ℝ, z.length = a.dv.flags.length →
        (∀ i < a.dv.flags.length, z.getD i 0 = u.getD i 0 + s * û i) →
        Spec.distance z xs ≤ beta * a.settings.tol + Spec.distance u xs / 2) := by
  obtain ⟨k, ⟨hstop, hfirst⟩, hk, hrun⟩ := newton_run a.problem a.settings ⟨l, some u⟩ s w
  obtain ⟨st, hs, hsx, hsi, hss, -⟩ := hrun (max 0 (max a.settings.maxIter a.settings.minIter)).toNat (by omega)
  have hstopm : Spec.NewtonStops a.problem a.settings ⟨l, some u⟩ s m := by
    refine ⟨hmin, Or.inr ?_⟩
    obtain ⟨m', rfl⟩ : ∃ m', m = m' + 1 := ⟨m - 1, by omega⟩
    obtain ⟨y, R, i1, i2, i3, i4, i5, i6⟩ := iterates_converge hp hb h hbeta hL hd0 hd hc s hu hsup m'
    have hpow : (1 : ℝ) ≤ 2 ^ (2 ^ (m' + 1) - 1) := one_le_pow₀ (by norm_num)
    have hyn : Spec.Near a xs rho y := ⟨i2, i6.trans ((div_le_self hd0 hpow).trans hd)⟩
    show decide (norm (Spec.newtonIterates a.problem ⟨l, some u⟩ s (m' + 1)).2 > a.settings.tol) = false
    rw [i1, norm_view _ _ _ i3, freeSize_sqrt, decide_eq_false_iff_not, not_lt]
    exact (forces_le h hyn i4).trans ((mul_le_mul_of_nonneg_left i6 hB).trans htol)
  have hkm : k ≤ m := by
    by_contra hne
    exact hfirst m (by omega) hstopm
  have hsucc : st.info.success = true := hss.2 (by omega)
  have hnorm : a.problem.rnorm (Spec.newtonIterates a.problem ⟨l, some u⟩ s k).2 ≤ a.settings.tol := by
    rcases hstop.2 with h1 | h1
    · omega
    · have h2 : decide (a.problem.rnorm (Spec.newtonIterates a.problem ⟨l, some u⟩ s k).2 > a.settings.tol) = false := h1
      simpa using h2
  have hsolve : a.solver.solve w ⟨l, some u⟩ s = (st.correction, st.x, st.info) := by
    show (match a.problem.solve a.settings _ ⟨l, some u⟩ s w with
      | some s => (s.correction, s.x, s.info)
      | none => (w, _, SolverInfo.default)) = _
    rw [hs]
  cases k with
  | zero =>
    refine ⟨st.correction, u, st.info, 0, by rw [hsolve, hsx]; rfl, hsucc, hsi, hkm, hu.1, fun h0 => absurd h0 (lt_irrefl 0),
      fun _ => ⟨rfl, fun z hz hzi => ?_⟩⟩
    obtain ⟨R0, r, K, f1, f2, f3, -, f5, f6⟩ := first_newton hp hb l s hu.1
    have h1 : norm (Spec.firstResidual a.problem ⟨l, some u⟩ s) ≤ a.settings.tol := hnorm
    rw [f1, norm_view _ _ _ f2, freeSize_sqrt] at h1
    refine (error_bound h hbeta ⟨hu.1, hu.2.trans hd⟩ f3 f5 hz
      (fun i hi hf => by rw [hzi i hi, (hsup i hi hf).2]) (tau := a.settings.tol)
      (le_of_eq_of_le (freeSize_congr fun i hf => ?_) h1)).trans ?_
    · rw [f6 i (free_lt hf), Finset.mul_sum]
      congr 1
      refine Finset.sum_congr rfl fun j hj => ?_
      rw [hzi j (Finset.mem_range.1 hj)]; ring
    · have h0 := distance_nonneg u xs
      have hbL : 0 ≤ beta * L := mul_nonneg hbeta hL
      have h2 : beta * L * Spec.distance u xs ≤ 1 := (mul_le_mul_of_nonneg_left hu.2 hbL).trans hc
      nlinarith [mul_le_mul_of_nonneg_right h2 h0]
  | succ k =>
    obtain ⟨y, R, i1, i2, i3, i4, i5, i6⟩ := iterates_converge hp hb h hbeta hL hd0 hd hc s hu hsup k
    refine ⟨st.correction, y, st.info, k + 1, by rw [hsolve, hsx, i1], hsucc, hsi, hkm, i2, fun _ => ⟨i5, ?_⟩,
      fun h0 => by omega⟩
    rw [i1] at hnorm
    have hnorm : norm (some (view a.option a.dv.flags R)) ≤ a.settings.tol := hnorm
    rw [norm_view _ _ _ i3, freeSize_sqrt] at hnorm
    have hpow : (1 : ℝ) ≤ 2 ^ (2 ^ (k + 1) - 1) := one_le_pow₀ (by norm_num)
    have hyd : Spec.distance y xs ≤ delta := i6.trans (div_le_self hd0 hpow)
    obtain ⟨-, -, K, -, -, -, hK, -⟩ := proper_system hp l i2
    have h1 := error_bound h hbeta ⟨i2, hyd.trans hd⟩ i4 hK i2 i5 (tau := a.settings.tol)
      (le_of_eq_of_le (freeSize_congr fun i hf => by simp) hnorm)
    have h0 := distance_nonneg y xs
    have hbL : 0 ≤ beta * L := mul_nonneg hbeta hL
    have h2 : beta * L * Spec.distance y xs ≤ 1 := (mul_le_mul_of_nonneg_left hyd hbL).trans hc
    nlinarith [mul_le_mul_of_nonneg_right h2 h0]

end Analysis

end Ikarus
