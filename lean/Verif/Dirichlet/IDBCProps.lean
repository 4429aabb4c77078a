import Verif.Dirichlet.IDBCModel
import Verif.Dirichlet.Props
import Verif.Assembler.VectorProps
import Mathlib.Algebra.Ring.Int.Defs

/-!
C59, C60, C61: forces due to inhomogeneous boundary conditions, the update functor of the solver
factory and the synchronisation of solution and load factor.
-/

namespace Ikarus
open Spec Assembler

variable {α : Type*}

/-- Specification: entry `r` of the product of a matrix and a vector. -/
def Spec.rowTimes [AddCommMonoid α] [Mul α] (K : DMat α) (x : Nat → α) (r : Nat) : α :=
  ((List.range K.cols).map fun j => K.val r j * x j).sum

theorem dotFrom_eq [AddCommMonoid α] [Mul α] (K : DMat α) (r i : Nat) (x : List α) (f : Nat → α)
    (h : ∀ j, j < x.length → x[j]? = some (f (i + j))) :
    dotFrom K r i x = ((List.range x.length).map fun j => K.val r (i + j) * f (i + j)).sum := by
  induction x generalizing i with
  | nil => rfl
  | cons a x ih =>
    have h0 := h 0 (by simp)
    simp only [List.getElem?_cons_zero, Option.some.injEq, Nat.add_zero] at h0
    have h1 := ih (i + 1) (by
      intro j hj
      have := h (j + 1) (by simpa using hj)
      rw [List.getElem?_cons_succ] at this
      rw [this]; congr 2; omega)
    simp only [dotFrom, h1, h0, List.length_cons]
    rw [List.range_succ_eq_map, List.map_cons, List.sum_cons, List.map_map, Nat.add_zero]
    congr 2
    apply List.map_congr_left
    intro j _
    simp only [Function.comp]
    have : i + 1 + j = i + (j + 1) := by omega
    rw [this]

theorem matVec?_eq [AddCommMonoid α] [Mul α] (K : DMat α) (x : List α) (f : Nat → α)
    (hl : K.cols = x.length) (h : ∀ j, j < x.length → x[j]? = some (f j)) :
    matVec? K x = some ((List.range K.rows).map (rowTimes K f)) := by
  unfold matVec?
  rw [if_pos hl]
  congr 1
  apply List.map_congr_left
  intro r _
  rw [dotFrom_eq K r 0 x f (by simpa using h)]
  simp [rowTimes, hl]

/-- C59. With the assembler and its Dirichlet object (flags `dv.flags`), the Raw matrix `K` and all
stored callables alive, the force is `F = K * u'` with `u'` the load derivative (at load factor one)
of the prescribed values: `F` masked for Full, and `F` restricted to the free dofs otherwise.  The
reduced vector is completely initialised. -/
theorem idbc_forces_eq [CommSemiring α] (dv : DirichletValues α) (K : DMat α) (alive : Nat → Bool)
    (hr : K.rows = dv.flags.length) (hc : K.cols = dv.flags.length)
    (halive : ∀ f ∈ dv.fns, alive f.derivSrc = true) (opt : DBCOption) :
    let u := total dv.inSub (dv.fns.map fun f => f.derivative 1)
    let F := (List.range dv.flags.length).map (rowTimes K u)
    obtainForcesDueToIDBC? (create dv.flags) K dv alive opt =
      some (if opt = .full then (mask dv.flags F).map some
            else (selectFree dv.flags F).map some) := by
  intro u F
  obtain ⟨h1, h2⟩ := DirichletValues.evaluateDerivative_superposes dv alive 1
  obtain ⟨x, hx⟩ := Option.isSome_iff_exists.1 (h1.2 halive)
  obtain ⟨h3, h4⟩ := h2 x hx
  have hF : matVec? K x = some F := by
    rw [matVec?_eq K x u (by omega) (fun j hj => h4 j (by omega)), hr]
  have hFl : F.length = dv.flags.length := by simp [F]
  unfold obtainForcesDueToIDBC?
  rw [hx, Option.bind_some, hF, Option.bind_some]
  split
  · rw [setZeroAtConstrainedDofs_eq dv F hFl]; rfl
  · rw [createReducedVector_eq dv.flags F hFl]

/-- C59. The Full and the Reduced form correspond: blowing up the Reduced force with
`createFullVector` gives the Full force, and reducing the Full force gives the Reduced one. -/
theorem idbc_forces_correspond [CommSemiring α] (dv : DirichletValues α) (K : DMat α)
    (alive : Nat → Bool) (hr : K.rows = dv.flags.length) (hc : K.cols = dv.flags.length)
    (halive : ∀ f ∈ dv.fns, alive f.derivSrc = true) :
    ∃ full red, obtainForcesDueToIDBC? (create dv.flags) K dv alive .full = some (full.map some) ∧
      obtainForcesDueToIDBC? (create dv.flags) K dv alive .reduced = some (red.map some) ∧
      (create dv.flags).createFullVector? red = some full ∧
      (create dv.flags).createReducedVector? full = some (red.map some) := by
  have hfull := idbc_forces_eq dv K alive hr hc halive .full
  have hred := idbc_forces_eq dv K alive hr hc halive .reduced
  simp only [if_true, reduceCtorEq, if_false] at hfull hred
  set F := (List.range dv.flags.length).map
    (rowTimes K (total dv.inSub (dv.fns.map fun f => f.derivative 1))) with hF
  have hFl : F.length = dv.flags.length := by simp [F]
  have hfr := full_reduced_full dv.flags F (selectFree dv.flags F) hFl
    (createReducedVector_eq dv.flags F hFl)
  refine ⟨_, _, hfull, hred, hfr, ?_⟩
  have hm : (mask dv.flags F).length = dv.flags.length := by simp [mask, hFl]
  rw [createReducedVector_eq dv.flags _ hm]
  congr 2
  have : ∀ (fl : List Bool) (v : List α), v.length = fl.length →
      selectFree fl (mask fl v) = selectFree fl v := by
    intro fl
    induction fl with
    | nil => intro v _; simp [mask, selectFree]
    | cons b fl ih =>
      intro v hv
      cases v with
      | nil => simp at hv
      | cons a v =>
        have := ih v (by simpa using hv)
        cases b <;> simp_all [mask, selectFree]
  exact this _ _ hFl

example := idbc_forces_correspond (⟨[true, false, false], 0, [⟨fun (l : ℤ) k => l * k, fun _ _ => 1, 5⟩], fun _ => true⟩ : DirichletValues ℤ)
  ⟨3, 3, fun r c => (r + 2 * c : ℤ)⟩ (fun p => p = 5) rfl rfl (by simp)

/-- C59, a Raw binding also yields the reduced force, so its size does not match the Raw residual
as soon as a dof is constrained. -/
theorem idbc_forces_raw_is_reduced [CommSemiring α] (dv : DirichletValues α) (K : DMat α)
    (alive : Nat → Bool) :
    obtainForcesDueToIDBC? (create dv.flags) K dv alive .raw =
      obtainForcesDueToIDBC? (create dv.flags) K dv alive .reduced := by
  simp [obtainForcesDueToIDBC?]

/-! ### Update functor -/

theorem initialised?_map_some (v : List α) : initialised? (v.map some) = some v := by
  induction v with
  | nil => rfl
  | cons a v ih => simp [initialised?, ih]

/-- C60. Reduced solves of full solution vectors: the increment of the free dofs is added to the
free dofs, the constrained dofs keep their values. -/
theorem update_reduced_increment [AddCommMonoid α] (flags : List Bool) (x b : List α)
    (hx : x.length = flags.length) (hb : b.length = flags.count false) :
    ∃ x', updateFunctor? (create flags) .reduced x b = some x' ∧ x'.length = x.length ∧
      (∀ i : Nat, flags[i]? = some true → x'[i]? = x[i]?) ∧
      selectFree flags x' = List.zipWith (· + ·) (selectFree flags x) b := by
  obtain ⟨v, e1, e2, e3, e4⟩ := reduced_full_roundtrip flags b
    (by rw [reducedSize_count, hb])
  refine ⟨List.zipWith (· + ·) x v, ?_, by simp [hx, e2], ?_, ?_⟩
  · unfold updateFunctor?
    rw [if_pos ⟨rfl, by rw [reducedSize_count, hb]⟩, e1, Option.bind_some]
    unfold addVec?
    rw [if_pos (by omega)]
  · intro i hi
    have := e3 i hi
    have hi' : i < flags.length := by
      by_contra hc
      rw [List.getElem?_eq_none (by omega)] at hi
      exact absurd hi (by simp)
    rw [List.getElem?_eq_getElem (by omega)] at this
    injection this with this
    rw [List.getElem?_eq_getElem (by simp; omega), List.getElem?_eq_getElem (by omega)]
    simp [this]
  · rw [createReducedVector_eq flags v e2] at e4
    injection e4 with e4
    have hsel : selectFree flags v = b := (List.map_injective_iff.2 (Option.some_injective α)) e4
    rw [← hsel]
    have key : ∀ (fl : List Bool) (a c : List α), a.length = fl.length → c.length = fl.length →
        selectFree fl (List.zipWith (· + ·) a c)
          = List.zipWith (· + ·) (selectFree fl a) (selectFree fl c) := by
      intro fl
      induction fl with
      | nil => intro a c _ _; simp [selectFree]
      | cons f fl ih =>
        intro a c ha hc
        cases a with
        | nil => simp at ha
        | cons a as =>
          cases c with
          | nil => simp at hc
          | cons c cs =>
            have := ih as cs (by simpa using ha) (by simpa using hc)
            cases f <;> simp_all [selectFree]
    exact key flags x v hx e2

example := update_reduced_increment [true, false, false] [(7 : ℤ), 1, 2] [10, 20] rfl rfl

/-- C60. A full increment of a reduced solution vector is reduced first. -/
theorem update_full_increment_of_reduced [AddCommMonoid α] (flags : List Bool) (x b : List α)
    (opt : DBCOption) (hx : x.length = flags.count false) (hb : b.length = flags.length)
    (hopt : opt = .reduced → flags.count true ≠ 0) :
    updateFunctor? (create flags) opt x b
      = some (List.zipWith (· + ·) x (selectFree flags b)) := by
  have hsum : flags.count true + flags.count false = flags.length := by
    clear hx hb hopt
    induction flags with
    | nil => rfl
    | cons b fl ih => cases b <;> simp [List.count_cons] <;> omega
  unfold updateFunctor?
  rw [if_neg, if_pos ⟨by rw [reducedSize_count, hx], by rw [size_create, hb]⟩,
    createReducedVector_eq flags b hb, Option.bind_some, initialised?_map_some, Option.bind_some]
  · unfold addVec?
    have hsl : (selectFree flags b).length = flags.count false := by
      have := reducedSize_count flags
      have key : ∀ (fl : List Bool) (v : List α), v.length = fl.length →
          (selectFree fl v).length = fl.count false := by
        intro fl
        induction fl with
        | nil => intro v _; simp [selectFree]
        | cons f fl ih =>
          intro v hv
          cases v with
          | nil => simp at hv
          | cons a v =>
            have := ih v (by simpa using hv)
            cases f <;> simp_all [selectFree]
      exact key flags b hb
    rw [if_pos (by rw [hx, hsl])]
  · rintro ⟨h1, h2⟩
    rw [reducedSize_count, hb] at h2
    injection h2 with h2
    exact hopt h1 (by omega)

example := update_full_increment_of_reduced [true, false, false] [(1 : ℤ), 2] [5, 10, 20] .reduced rfl rfl (by decide)

/-- C60. In the remaining case that solution and increment are full vectors (Raw or Full), the
increment is added as it is. -/
theorem update_full_increment [AddCommMonoid α] (flags : List Bool) (x b : List α)
    (opt : DBCOption) (hopt : opt ≠ .reduced) (hx : x.length = flags.length)
    (hb : b.length = flags.length) :
    updateFunctor? (create flags) opt x b = some (List.zipWith (· + ·) x b) := by
  unfold updateFunctor?
  rw [if_neg (fun h => hopt h.1)]
  split
  · rename_i h
    rw [reducedSize_count] at h
    have h1 : flags.count false = flags.length := by
      have := h.1
      injection this with this
      omega
    rw [createReducedVector_eq flags b hb, Option.bind_some, initialised?_map_some,
      Option.bind_some]
    have key : ∀ (fl : List Bool) (v : List α), fl.count false = fl.length →
        v.length = fl.length → selectFree fl v = v := by
      intro fl
      induction fl with
      | nil => intro v _ hv; simp at hv; simp [hv, selectFree]
      | cons f fl ih =>
        intro v hc hv
        cases v with
        | nil => simp at hv
        | cons a v =>
          have hle := List.count_le_length (a := false) (l := fl)
          cases f
          · have := ih v (by simpa using hc) (by simpa using hv)
            simp [selectFree, this]
          · simp [List.count_cons] at hc; omega
    rw [key flags b h1 hb]
    unfold addVec?
    rw [if_pos (by omega)]
  · unfold addVec?
    rw [if_pos (by omega)]

/-! ### Synchronisation -/

theorem syncLoop_eq [Zero α] [DecidableEq α] (vs : List α) (i : Nat) (x : List α)
    (h : i + vs.length ≤ x.length) :
    ∃ x', syncLoop vs i x = some x' ∧ x'.length = x.length ∧
      ∀ k : Nat, x'[k]? = if i ≤ k ∧ vs.getD (k - i) 0 ≠ 0 then some (vs.getD (k - i) 0)
        else x[k]? := by
  induction vs generalizing i x with
  | nil => exact ⟨x, rfl, rfl, fun k => by simp⟩
  | cons v vs ih =>
    simp only [List.length_cons] at h
    simp only [syncLoop]
    have hgt : ∀ k, i + 1 ≤ k → (v :: vs).getD (k - i) 0 = vs.getD (k - (i + 1)) 0 := by
      intro k hk
      have : k - i = (k - (i + 1)) + 1 := by omega
      rw [this]; rfl
    by_cases hv : v ≠ 0
    · rw [if_pos hv]
      unfold setAt?
      rw [if_pos (by omega), Option.bind_some]
      obtain ⟨x', e1, e2, e3⟩ := ih (i + 1) (x.set i v) (by simp; omega)
      refine ⟨x', e1, by rw [e2]; simp, fun k => ?_⟩
      rw [e3 k]
      rcases Nat.lt_trichotomy k i with hk | hk | hk
      · rw [if_neg (by omega), if_neg (by omega), List.getElem?_set_ne (by omega)]
      · subst hk
        rw [if_neg (by omega), Nat.sub_self]
        simp only [List.getD_cons_zero, le_refl, true_and]
        rw [if_pos hv, List.getElem?_set_self (by omega)]
      · rw [hgt k (by omega), List.getElem?_set_ne (by omega)]
        have : i ≤ k := by omega
        have h' : i + 1 ≤ k := hk
        simp only [this, h', true_and]
    · rw [if_neg hv]
      obtain ⟨x', e1, e2, e3⟩ := ih (i + 1) x (by omega)
      refine ⟨x', e1, e2, fun k => ?_⟩
      rw [e3 k]
      rcases Nat.lt_trichotomy k i with hk | hk | hk
      · rw [if_neg (by omega), if_neg (by omega)]
      · subst hk
        rw [if_neg (by omega), Nat.sub_self]
        simp only [List.getD_cons_zero, le_refl, true_and]
        rw [if_neg hv]
      · rw [hgt k (by omega)]
        have : i ≤ k := by omega
        have h' : i + 1 ≤ k := hk
        simp only [this, h', true_and]

/-- The prescribed value of dof `k` at load factor `l`. -/
def Spec.prescribed [AddCommMonoid α] (dv : DirichletValues α) (l : α) (k : Nat) : α :=
  total dv.inSub (dv.fns.map fun f => f.value l) k

/-- C61, partial. Synchronising a solution vector with its load factor keeps the load factor,
overwrites every dof with nonzero prescribed value by that value and keeps all others.
Missing: dofs whose prescribed value is zero at this load factor keep their old value. -/
theorem sync_sets_prescribed_partial [AddCommMonoid α] [DecidableEq α] (dv : DirichletValues α)
    (x : SolPar α) (hx : x.sol.length = dv.flags.length) :
    ∃ y, syncFunctor? dv x = some y ∧ y.par = x.par ∧ y.sol.length = x.sol.length ∧
      ∀ k, k < dv.flags.length →
        y.sol[k]? = if prescribed dv x.par k ≠ 0 then some (prescribed dv x.par k)
          else x.sol[k]? := by
  obtain ⟨h1, h2⟩ := DirichletValues.evaluate_superposes dv x.par
  obtain ⟨s, e1, e2, e3⟩ := syncLoop_eq (dv.evaluate x.par) 0 x.sol (by omega)
  refine ⟨⟨s, x.par⟩, by simp [syncFunctor?, e1], rfl, e2, fun k hk => ?_⟩
  have : (dv.evaluate x.par).getD k 0 = prescribed dv x.par k := by
    simp [List.getD, h2 k hk, prescribed]
  simp only [e3 k, Nat.zero_le, true_and, Nat.sub_zero, this]

/-- C61, partial. For a solution that is synchronised with its load factor, `idbcIncrement` is the
change of the prescribed values, at all dofs whose prescribed value is nonzero at the new load
factor or zero at both.  Missing: dofs whose value returns to zero. -/
theorem idbcIncrement_eq_partial [AddCommGroup α] [DecidableEq α] (dv : DirichletValues α)
    (x : SolPar α) (dl : α) (hx : x.sol.length = dv.flags.length) :
    ∃ d, idbcIncrement? dv x dl = some d ∧ d.length = dv.flags.length ∧
      ∀ k, k < dv.flags.length →
        (prescribed dv (x.par + dl) k ≠ 0 → x.sol[k]? = some (prescribed dv x.par k) →
          d[k]? = some (prescribed dv (x.par + dl) k - prescribed dv x.par k)) ∧
        (prescribed dv (x.par + dl) k = 0 → d[k]? = some 0) := by
  obtain ⟨y, e1, -, e3, e4⟩ := sync_sets_prescribed_partial dv ⟨x.sol, x.par + dl⟩ hx
  simp only at e3 e4
  refine ⟨List.zipWith (· - ·) y.sol x.sol, by simp [idbcIncrement?, e1], by simp [e3, hx],
    fun k hk => ?_⟩
  rw [List.getElem?_zipWith, e4 k hk]
  have hk' : k < x.sol.length := by omega
  constructor
  · intro hne hs
    rw [if_pos hne, hs]
  · intro h0
    rw [if_neg (by simpa using h0), List.getElem?_eq_getElem hk']
    simp

example := idbcIncrement_eq_partial (⟨[true, false, false], 0, [⟨fun (l : ℤ) k => l * k, fun _ _ => 1, 0⟩], fun _ => true⟩ : DirichletValues ℤ)
  ⟨[0, 2, 4], 2⟩ 1 rfl

/-- C61 in full: after synchronising, every dof whose value is prescribed at some load factor has
its prescribed value. -/
def Spec.SyncSetsAll : Prop :=
  ∀ (dv : DirichletValues ℤ) (x y : SolPar ℤ), x.sol.length = dv.flags.length →
    syncFunctor? dv x = some y → ∀ k, k < dv.flags.length → (∃ l, prescribed dv l k ≠ 0) →
      y.sol[k]? = some (prescribed dv x.par k)

/-- C61 is false of the code: with a prescribed displacement proportional to the load factor,
returning to load factor zero leaves the old displacement in place. -/
theorem sync_keeps_stale_value : ¬ Spec.SyncSetsAll := by
  intro h
  have := h ⟨[true], 0, [⟨fun l _ => l, fun _ _ => 1, 0⟩], fun _ => true⟩ ⟨[5], 0⟩ ⟨[5], 0⟩ rfl
    rfl 0 (by decide) ⟨1, by decide⟩
  exact absurd this (by decide)

/-! Concrete cases. -/

section Example

example : obtainForcesDueToIDBC? (create [true, false, false]) ⟨3, 3, fun r c => (r + 2 * c : ℤ)⟩
    ⟨[true, false, false], 0, [⟨fun l _ => l, fun _ k => 3 - k, 0⟩], fun _ => true⟩ (fun _ => true)
    .full = some [some 0, some 14, some 20] := by decide

example : obtainForcesDueToIDBC? (create [true, false, false]) ⟨3, 3, fun r c => (r + 2 * c : ℤ)⟩
    ⟨[true, false, false], 0, [⟨fun l _ => l, fun _ k => 3 - k, 0⟩], fun _ => true⟩ (fun _ => true)
    .reduced = some [some 14, some 20] := by decide

example : updateFunctor? (create [true, false, false]) .reduced [(7 : ℤ), 1, 2] [10, 20]
    = some [7, 11, 22] := by decide

example : updateFunctor? (create [true, false, false]) .full [(1 : ℤ), 2] [5, 10, 20]
    = some [11, 22] := by decide

example : (syncFunctor? ⟨[true, false, false], 0, [⟨fun (l : ℤ) k => l * k, fun _ _ => 1, 0⟩],
    fun k => k < 2⟩ ⟨[(7 : ℤ), 8, 9], 3⟩).map (·.sol) = some [7, 3, 9] := by decide

example : idbcIncrement? ⟨[true, false, false], 0, [⟨fun (l : ℤ) k => l * k, fun _ _ => 1, 0⟩],
    fun k => k < 2⟩ ⟨[(7 : ℤ), 3, 9], 3⟩ 2 = some [0, 2, 0] := by decide

end Example

end Ikarus
