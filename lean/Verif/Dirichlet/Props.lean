import Verif.Dirichlet.Model
import Verif.SpecList
import Verif.Assembler.Spec
import Mathlib.Data.List.Induction
import Mathlib.Algebra.BigOperators.Group.List.Basic

/-!
C11, C12, C13: Dirichlet flags and inhomogeneous boundary values.
-/

namespace Ikarus
open Spec

variable {α : Type*}

/-! ### Superposition -/

/-- Specification: the sum of the values of all functions at a dof of the interpolated basis. -/
def Spec.total [AddCommMonoid α] (inSub : Nat → Bool) (fs : List (Nat → α)) (k : Nat) : α :=
  if inSub k then (fs.map fun f => f k).sum else 0

namespace DirichletValues

theorem superpose_eq [AddCommMonoid α] (o : DirichletValues α) (n : Nat) (fs : List (Nat → α))
    (dummy x : List α) (hd : dummy.length = n) (hx : x.length = n)
    (h0 : ∀ i, o.inSub i = false → i < n → dummy[i]? = some 0) :
    (o.superpose fs dummy x).length = n ∧
      ∀ i : Nat, (o.superpose fs dummy x)[i]? = (x[i]?).map (· + total o.inSub fs i) := by
  induction fs generalizing dummy x with
  | nil =>
    refine ⟨hx, fun i => ?_⟩
    have : total o.inSub ([] : List (Nat → α)) i = 0 := by simp [total]
    rw [this]
    simp [superpose]
  | cons f fs ih =>
    have hl : (o.interpolate f dummy).length = n := by simp [interpolate, hd]
    have hz : (List.zipWith (· + ·) x (o.interpolate f dummy)).length = n := by
      simp [hl, hx]
    obtain ⟨h1, h2⟩ := ih (o.interpolate f dummy)
      (List.zipWith (· + ·) x (o.interpolate f dummy)) hl hz (by
        intro i hi hn
        simp [interpolate, hi, h0 i hi hn])
    refine ⟨h1, fun i => ?_⟩
    simp only [superpose]
    rw [h2 i]
    by_cases hn : i < n
    · rw [List.getElem?_eq_getElem (by omega : i < x.length),
        List.getElem?_eq_getElem (by omega : i < (List.zipWith (· + ·) x _).length)]
      simp only [List.getElem_zipWith, Option.map_some, Option.some.injEq]
      have hd' : (o.interpolate f dummy)[i]'(by omega) = if o.inSub i then f i else 0 := by
        simp only [interpolate, List.getElem_mapIdx]
        cases hs : o.inSub i with
        | true => simp
        | false =>
          have := h0 i hs hn
          rw [List.getElem?_eq_getElem (by omega)] at this
          simpa using this
      rw [hd']
      cases hs : o.inSub i <;> simp [total, hs, add_assoc]
    · rw [List.getElem?_eq_none (by omega), List.getElem?_eq_none (by omega)]
      rfl

/-- C13. For all stored functions and load factors, `evaluateInhomogeneousBoundaryCondition`
returns, for every dof of the interpolated basis, the sum of the values of all stored functions,
and zero for the other dofs. -/
theorem evaluate_superposes [AddCommMonoid α] (o : DirichletValues α) (lambda : α) :
    (o.evaluate lambda).length = o.flags.length ∧
      ∀ k, k < o.flags.length →
        (o.evaluate lambda)[k]? = some (total o.inSub (o.fns.map fun f => f.value lambda) k) := by
  obtain ⟨h1, h2⟩ := superpose_eq o o.flags.length (o.fns.map fun f => f.value lambda)
    (List.replicate o.flags.length 0) (List.replicate o.flags.length 0) (by simp) (by simp)
    (fun i _ hi => by simp [hi])
  refine ⟨h1, fun k hk => ?_⟩
  unfold evaluate
  rw [h2 k]
  simp [hk]

/-- C13. The order in which the functions were stored does not matter. -/
theorem evaluate_perm [AddCommMonoid α] (o o' : DirichletValues α) (lambda : α)
    (hp : o.fns.Perm o'.fns) (hfl : o.flags.length = o'.flags.length) (hs : o.inSub = o'.inSub) :
    o.evaluate lambda = o'.evaluate lambda := by
  obtain ⟨h1, h2⟩ := evaluate_superposes o lambda
  obtain ⟨h3, h4⟩ := evaluate_superposes o' lambda
  apply List.ext_getElem?
  intro i
  by_cases hi : i < o.flags.length
  · rw [h2 i hi, h4 i (by omega)]
    congr 1
    simp only [total, hs]
    split
    · exact ((hp.map _).map _).sum_eq
    · rfl
  · rw [List.getElem?_eq_none (by omega), List.getElem?_eq_none (by omega)]

example : (⟨[true, false, false], 0, [⟨fun l k => 2 * l * k, fun _ k => 2 * k, 7⟩, ⟨fun l _ => l, fun _ _ => 1, 8⟩], fun k => k < 2⟩ :
    DirichletValues ℤ).evaluate 3 = (⟨[true, false, false], 1, [⟨fun l _ => l, fun _ _ => 1, 8⟩, ⟨fun l k => 2 * l * k, fun _ k => 2 * k, 7⟩],
    fun k => k < 2⟩ : DirichletValues ℤ).evaluate 3 :=
  evaluate_perm _ _ 3 (List.Perm.swap ..) rfl rfl

/-- C13. The derivative with respect to the load factor is defined iff all callables given to
`storeInhomogeneousBoundaryCondition` still exist; it is then the sum of the derivatives. -/
theorem evaluateDerivative_superposes [AddCommMonoid α] (o : DirichletValues α)
    (alive : Nat → Bool) (lambda : α) :
    ((o.evaluateDerivative? alive lambda).isSome = true ↔
      ∀ f ∈ o.fns, alive f.derivSrc = true) ∧
    ∀ x, o.evaluateDerivative? alive lambda = some x →
      x.length = o.flags.length ∧ ∀ k, k < o.flags.length →
        x[k]? = some (total o.inSub (o.fns.map fun f => f.derivative lambda) k) := by
  obtain ⟨h1, h2⟩ := superpose_eq o o.flags.length (o.fns.map fun f => f.derivative lambda)
    (List.replicate o.flags.length 0) (List.replicate o.flags.length 0) (by simp) (by simp)
    (fun i _ hi => by simp [hi])
  unfold evaluateDerivative?
  split
  · rename_i hc
    refine ⟨by simpa using hc, ?_⟩
    intro x hx
    simp only [Option.some.injEq] at hx
    subst hx
    exact ⟨h1, fun k hk => by rw [h2 k]; simp [hk]⟩
  · rename_i hc
    refine ⟨by simpa using hc, by simp⟩

/-- C13, a callable passed as temporary is destroyed at the end of the call; the object then still
evaluates values but evaluating the derivative is undefined. -/
theorem derivative_of_temporary_undefined (o : DirichletValues ℤ) (f : StoredFn ℤ)
    (alive : Nat → Bool) (lambda : ℤ) (hf : f ∈ o.fns) (hdead : alive f.derivSrc = false) :
    o.evaluateDerivative? alive lambda = none := by
  unfold evaluateDerivative?
  rw [if_neg]
  intro h
  have := List.all_eq_true.1 h f hf
  rw [hdead] at this
  exact absurd this (by simp)

example : (⟨[true, false], 0, [⟨fun l k => 2 * l * k, fun _ k => 2 * k, 7⟩], fun _ => true⟩ : DirichletValues ℤ).evaluateDerivative?
    (fun p => p ≠ 7) 3 = none :=
  derivative_of_temporary_undefined _ _ _ 3 (List.mem_singleton.2 rfl) rfl

theorem flagLoop_eq [Zero α] [DecidableEq α] (x : List α) (n i : Nat) (fl : List Bool)
    (hx : i + n ≤ x.length) (hf : i + n ≤ fl.length) :
    ∃ fl', flagLoop x n i fl = some fl' ∧ fl'.length = fl.length ∧
      ∀ k : Nat, fl'[k]? = if i ≤ k ∧ k < i + n ∧ x.getD k 0 ≠ 0 then some true else fl[k]? := by
  induction n generalizing i fl with
  | zero =>
    refine ⟨fl, rfl, rfl, fun k => ?_⟩
    rw [if_neg]; omega
  | succ n ih =>
    simp only [flagLoop]
    rw [List.getElem?_eq_getElem (by omega : i < x.length), Option.bind_some]
    have hxi : x.getD i 0 = x[i]'(by omega) := by
      simp [List.getD, List.getElem?_eq_getElem (by omega : i < x.length)]
    by_cases hv : x[i]'(by omega) ≠ 0
    · rw [if_pos hv]
      unfold setAt?
      rw [if_pos (by omega), Option.bind_some]
      obtain ⟨fl', e1, e2, e3⟩ := ih (i + 1) (fl.set i true) (by omega) (by simp; omega)
      refine ⟨fl', e1, by rw [e2]; simp, fun k => ?_⟩
      rw [e3 k]
      by_cases hki : k = i
      · subst hki
        rw [if_neg (by omega), if_pos ⟨le_refl _, by omega, by rw [hxi]; exact hv⟩]
        rw [List.getElem?_set_self (by omega)]
      · rw [List.getElem?_set_ne (fun h => hki h.symm)]
        have : (i + 1 ≤ k ∧ k < i + 1 + n ∧ x.getD k 0 ≠ 0) ↔
            (i ≤ k ∧ k < i + (n + 1) ∧ x.getD k 0 ≠ 0) := by
          constructor
          · rintro ⟨a, b, c⟩; exact ⟨by omega, by omega, c⟩
          · rintro ⟨a, b, c⟩; exact ⟨by omega, by omega, c⟩
        by_cases hc : (i + 1 ≤ k ∧ k < i + 1 + n ∧ x.getD k 0 ≠ 0)
        · rw [if_pos hc, if_pos (this.1 hc)]
        · rw [if_neg hc, if_neg (fun h => hc (this.2 h))]
    · rw [if_neg hv]
      obtain ⟨fl', e1, e2, e3⟩ := ih (i + 1) fl (by omega) (by omega)
      refine ⟨fl', e1, e2, fun k => ?_⟩
      rw [e3 k]
      have : (i + 1 ≤ k ∧ k < i + 1 + n ∧ x.getD k 0 ≠ 0) ↔
          (i ≤ k ∧ k < i + (n + 1) ∧ x.getD k 0 ≠ 0) := by
        constructor
        · rintro ⟨a, b, c⟩; exact ⟨by omega, by omega, c⟩
        · rintro ⟨a, b, c⟩
          refine ⟨?_, by omega, c⟩
          rcases Nat.lt_or_ge i k with h | h
          · omega
          · have : k = i := by omega
            subst this
            rw [hxi] at c
            exact absurd c hv
      by_cases hc : (i + 1 ≤ k ∧ k < i + 1 + n ∧ x.getD k 0 ≠ 0)
      · rw [if_pos hc, if_pos (this.1 hc)]
      · rw [if_neg hc, if_neg (fun h => hc (this.2 h))]

theorem zeroLoop_eq [Zero α] (fl : List Bool) (x : List α) (i : Nat)
    (h : i + x.length ≤ fl.length) : zeroLoop fl i x = some (mask (fl.drop i) x) := by
  induction x generalizing i with
  | nil => simp [zeroLoop, mask]
  | cons a x ih =>
    simp only [List.length_cons] at h
    simp only [zeroLoop]
    rw [List.getElem?_eq_getElem (by omega), Option.bind_some, ih (i + 1) (by omega)]
    have hdrop : fl.drop i = fl[i]'(by omega) :: fl.drop (i + 1) := List.drop_eq_getElem_cons _
    simp only [mask, hdrop, List.zipWith_cons_cons, Option.map_some]

end DirichletValues

/-! ### Histories of one object -/

/-- The operation concerns the object at address 0 and neither copies nor destroys it. -/
def DVOp.OnFirst : DVOp α → Prop
  | .construct _ _ => False
  | .copy _ => False
  | .destroy _ => False
  | .setInt i _ _ => i = 0
  | .setMulti i _ _ => i = 0
  | .fix i _ => i = 0
  | .reset i => i = 0
  | .store i _ _ => i = 0

namespace Spec

/-- The functions stored in a history. -/
def storedFns : List (DVOp α) → List (StoredFn α)
  | [] => []
  | .store _ f _ :: h => f :: storedFns h
  | _ :: h => storedFns h

/-- The flag that operation number `j` of the history writes to dof `k`, if it writes one. -/
def writes [AddCommMonoid α] [DecidableEq α] (inSub : Nat → Bool) (h : List (DVOp α)) (k j : Nat) :
    Option Bool :=
  match h[j]? with
  | some (.setInt _ k' b) => if k' = k then some b else none
  | some (.setMulti _ k' b) => if k' = k then some b else none
  | some (.fix _ ws) => last (fun w => if w.1 = k then some w.2 else none) ws
  | some (.reset _) => some false
  | some (.store _ _ l) =>
    if total inSub ((storedFns (h.take (j + 1))).map fun f => f.value l) k ≠ 0 then some true
    else none
  | _ => none

/-- The flag of dof `k` after the history: the last one written, `false` if there is none. -/
def flagAfter [AddCommMonoid α] [DecidableEq α] (inSub : Nat → Bool) (h : List (DVOp α)) (k : Nat) :
    Bool :=
  (last (writes inSub h k) (List.range h.length)).getD false

theorem storedFns_append (h k : List (DVOp α)) :
    storedFns (h ++ k) = storedFns h ++ storedFns k := by
  induction h with
  | nil => rfl
  | cons op h ih => cases op <;> simp [storedFns, ih]

theorem writes_append [AddCommMonoid α] [DecidableEq α] (inSub : Nat → Bool) (h : List (DVOp α))
    (op : DVOp α) (k j : Nat) (hj : j < h.length) :
    writes inSub (h ++ [op]) k j = writes inSub h k j := by
  unfold writes
  rw [List.getElem?_append_left hj, List.take_append_of_le_length (by omega)]

theorem flagAfter_append [AddCommMonoid α] [DecidableEq α] (inSub : Nat → Bool) (h : List (DVOp α))
    (op : DVOp α) (k : Nat) :
    flagAfter inSub (h ++ [op]) k =
      (writes inSub (h ++ [op]) k h.length).getD (flagAfter inSub h k) := by
  unfold flagAfter
  rw [List.length_append, List.length_singleton, List.range_succ, last_append]
  rw [last_congr (g := writes inSub h k)
    (fun j hj => writes_append inSub h op k j (List.mem_range.1 hj))]
  cases writes inSub (h ++ [op]) k h.length <;> rfl

end Spec

/-- What is known about the heap with one object after a history. -/
structure DVHeap.After [AddCommMonoid α] [DecidableEq α] (n : Nat) (inSub : Nat → Bool)
    (h : List (DVOp α)) (o : DirichletValues α) : Prop where
  len : o.flags.length = n
  backend : o.backend = 0
  sub : o.inSub = inSub
  fns : o.fns = storedFns h
  flags : ∀ k, k < n → o.flags[k]? = some (flagAfter inSub h k)

/-- The indices used by an operation are dofs. -/
def DVOp.InRange (n : Nat) : DVOp α → Prop
  | .setInt _ k _ => k < n
  | .setMulti _ k _ => k < n
  | .fix _ ws => ∀ w ∈ ws, w.1 < n
  | _ => True

namespace DVHeap

theorem obj?_single (o : DirichletValues α) : obj? [some o] 0 = some o := rfl

theorem setSingleInt_single (o : DirichletValues α) (k : Nat) (b : Bool) :
    setSingleInt [some o] 0 k b =
      if k < o.flags.length then some [some { o with flags := o.flags.set k b }] else none := by
  unfold setSingleInt setAt?
  rw [obj?_single, Option.bind_some]
  split <;> rfl

theorem setSingleMulti_single (o : DirichletValues α) (hb : o.backend = 0) (k : Nat) (b : Bool) :
    setSingleMulti [some o] 0 k b =
      if k < o.flags.length then some [some { o with flags := o.flags.set k b }] else none := by
  unfold setSingleMulti
  rw [obj?_single, Option.bind_some]
  conv_lhs => rw [hb]
  exact setSingleInt_single o k b

theorem fixDOFs_single (o : DirichletValues α) (hb : o.backend = 0) (ws : List (Nat × Bool)) :
    ((∀ w ∈ ws, w.1 < o.flags.length) → ∃ fl, fixDOFs [some o] 0 ws =
        some [some { o with flags := fl }] ∧ fl.length = o.flags.length ∧
        ∀ k, k < o.flags.length → fl[k]? =
          ((last (fun w : Nat × Bool => if w.1 = k then some w.2 else none) ws).or o.flags[k]?)) ∧
    (¬ (∀ w ∈ ws, w.1 < o.flags.length) → fixDOFs [some o] 0 ws = none) := by
  have lastcons : ∀ (k : Nat) (w : Nat × Bool) (ws : List (Nat × Bool)),
      last (fun w : Nat × Bool => if w.1 = k then some w.2 else none) (w :: ws) =
        (last (fun w : Nat × Bool => if w.1 = k then some w.2 else none) ws).or
          (if w.1 = k then some w.2 else none) := by
    intro k w ws
    induction ws using List.reverseRecOn with
    | nil => simp [last]
    | append_singleton ws x ih =>
      rw [← List.cons_append, last_append, last_append, ih]
      cases hx : (if x.1 = k then some x.2 else none : Option Bool) <;> simp
  induction ws generalizing o with
  | nil => exact ⟨fun _ => ⟨o.flags, rfl, rfl, fun k _ => by simp [last_nil]⟩, fun h => by simp at h⟩
  | cons w ws ih =>
    simp only [fixDOFs]
    rw [setSingleMulti_single o hb]
    by_cases hw : w.1 < o.flags.length
    · rw [if_pos hw, Option.bind_some]
      obtain ⟨h1, h2⟩ := ih { o with flags := o.flags.set w.1 w.2 } hb
      simp only [List.length_set] at h1 h2
      constructor
      · intro hall
        obtain ⟨fl, e1, e2, e3⟩ := h1 (fun v hv => hall v (by simp [hv]))
        refine ⟨fl, e1, e2, fun k hk => ?_⟩
        rw [e3 k hk, lastcons]
        cases last (fun w : Nat × Bool => if w.1 = k then some w.2 else none) ws with
        | some b => simp
        | none =>
          simp only [Option.none_or]
          by_cases hkw : w.1 = k
          · subst hkw
            simp [hw]
          · rw [if_neg hkw, Option.none_or, List.getElem?_set_ne hkw]
      · intro hne
        apply h2
        intro hc
        apply hne
        intro v hv
        rcases List.mem_cons.1 hv with rfl | hv
        · exact hw
        · exact hc v hv
    · rw [if_neg hw]
      exact ⟨fun h => absurd (h w (by simp)) hw, fun _ => rfl⟩

theorem step_single [AddCommMonoid α] [DecidableEq α] (n : Nat) (inSub : Nat → Bool)
    (h : List (DVOp α)) (o : DirichletValues α) (ho : After n inSub h o) (op : DVOp α)
    (hop : op.OnFirst) :
    (op.InRange n → ∃ o', op.step [some o] = some [some o'] ∧ After n inSub (h ++ [op]) o') ∧
      (¬ op.InRange n → op.step [some o] = none) := by
  obtain ⟨h1, h2, h3, h4, h5⟩ := ho
  have hget : (h ++ [op])[h.length]? = some op := by simp
  cases op with
  | construct => exact absurd hop id
  | copy => exact absurd hop id
  | destroy => exact absurd hop id
  | setInt i k b =>
    obtain rfl : i = 0 := hop
    simp only [DVOp.step, setSingleInt_single, DVOp.InRange]
    refine ⟨fun hk => ?_, fun hk => by rw [if_neg (by omega)]⟩
    rw [if_pos (by omega)]
    refine ⟨_, rfl, by simp [h1], h2, h3, by simp [storedFns_append, storedFns, h4], ?_⟩
    intro k' hk'
    rw [flagAfter_append]
    unfold writes
    rw [hget]
    by_cases e : k = k'
    · subst e; simp [h1, hk]
    · simp only [List.getElem?_set_ne e, if_neg e, Option.getD_none, h5 k' hk']
  | setMulti i k b =>
    obtain rfl : i = 0 := hop
    simp only [DVOp.step, setSingleMulti_single o h2, DVOp.InRange]
    refine ⟨fun hk => ?_, fun hk => by rw [if_neg (by omega)]⟩
    rw [if_pos (by omega)]
    refine ⟨_, rfl, by simp [h1], h2, h3, by simp [storedFns_append, storedFns, h4], ?_⟩
    intro k' hk'
    rw [flagAfter_append]
    unfold writes
    rw [hget]
    by_cases e : k = k'
    · subst e; simp [h1, hk]
    · simp only [List.getElem?_set_ne e, if_neg e, Option.getD_none, h5 k' hk']
  | fix i ws =>
    obtain rfl : i = 0 := hop
    simp only [DVOp.step, DVOp.InRange]
    obtain ⟨f1, f2⟩ := fixDOFs_single o h2 ws
    rw [h1] at f1 f2
    refine ⟨fun hk => ?_, f2⟩
    obtain ⟨fl, e1, e2, e3⟩ := f1 hk
    refine ⟨_, e1, e2, h2, h3, by simp [storedFns_append, storedFns, h4], ?_⟩
    intro k' hk'
    rw [flagAfter_append]
    unfold writes
    rw [hget, e3 k' hk', h5 k' hk']
    simp only
    cases last (fun w : Nat × Bool => if w.1 = k' then some w.2 else none) ws <;> rfl
  | reset i =>
    obtain rfl : i = 0 := hop
    simp only [DVOp.step, DVOp.InRange, reset, obj?_single, Option.map_some]
    refine ⟨fun _ => ⟨_, rfl, by simp [h1], h2, h3, by simp [storedFns_append, storedFns, h4], ?_⟩,
      fun hc => absurd trivial hc⟩
    intro k' hk'
    rw [flagAfter_append]
    unfold writes
    rw [hget]
    simp [h1, hk']
  | store i f l =>
    obtain rfl : i = 0 := hop
    simp only [DVOp.step, DVOp.InRange, store, obj?_single, Option.bind_some]
    refine ⟨fun _ => ?_, fun hc => absurd trivial hc⟩
    obtain ⟨g1, g2⟩ := DirichletValues.evaluate_superposes { o with fns := o.fns ++ [f] } l
    simp only at g1 g2
    obtain ⟨fl', e1, e2, e3⟩ := DirichletValues.flagLoop_eq
      (({ o with fns := o.fns ++ [f] } : DirichletValues α).evaluate l) o.flags.length 0 o.flags
      (by omega) (by omega)
    rw [e1]
    refine ⟨_, rfl, by simp [e2, h1], h2, h3, by simp [storedFns_append, storedFns, h4], ?_⟩
    intro k' hk'
    rw [flagAfter_append]
    unfold writes
    rw [hget]
    simp only [e3 k']
    have hv := g2 k' (by omega)
    have hst : storedFns ((h ++ [DVOp.store 0 f l]).take (h.length + 1)) = o.fns ++ [f] := by
      rw [List.take_of_length_le (by simp), storedFns_append, h4]; rfl
    rw [hst]
    have hgetD : (({ o with fns := o.fns ++ [f] } : DirichletValues α).evaluate l).getD k' 0
        = total inSub ((o.fns ++ [f]).map fun f => f.value l) k' := by
      rw [List.getD, hv, Option.getD_some, h3]
    rw [hgetD]
    by_cases hne : total inSub ((o.fns ++ [f]).map fun f => f.value l) k' ≠ 0
    · rw [if_pos ⟨by omega, by omega, hne⟩, if_pos hne]; rfl
    · rw [if_neg (fun hc => hne hc.2.2), if_neg hne, Option.getD_none, h5 k' hk']

end DVHeap

/-- C11. For a new object with `n` dofs and every history of `setSingleDOF` (both overloads),
`fixDOFs`/`fixBoundaryDOFs` callbacks, `reset` and `storeInhomogeneousBoundaryCondition`: the history
runs without out-of-range access iff all indices are dofs, and then both `isConstrained` overloads
return the last flag written (`false` if none), and `fixedDOFsize` counts the constrained dofs. -/
theorem dirichlet_flags_history [AddCommMonoid α] [DecidableEq α] (n : Nat) (inSub : Nat → Bool)
    (h : List (DVOp α)) (hop : ∀ op ∈ h, op.OnFirst) :
    ((DVOp.run (DVHeap.construct [] n inSub) h).isSome = true ↔ ∀ op ∈ h, op.InRange n) ∧
    ∀ H, DVOp.run (DVHeap.construct [] n inSub) h = some H →
      (∀ k, k < n → H.isConstrainedInt 0 k = some (flagAfter inSub h k) ∧
        H.isConstrainedMulti 0 k = some (flagAfter inSub h k)) ∧
      H.fixedDOFsize 0 = some ((List.range n).countP (flagAfter inSub h)) := by
  have key : ∀ (h pre : List (DVOp α)) (o : DirichletValues α), DVHeap.After n inSub pre o →
      (∀ op ∈ h, op.OnFirst) →
      ((DVOp.run [some o] h).isSome = true ↔ ∀ op ∈ h, op.InRange n) ∧
      ∀ H, DVOp.run [some o] h = some H → ∃ o', H = [some o'] ∧
        DVHeap.After n inSub (pre ++ h) o' := by
    intro h
    induction h with
    | nil =>
      intro pre o ho _
      refine ⟨by simp [DVOp.run], fun H hH => ?_⟩
      simp only [DVOp.run, Option.some.injEq] at hH
      exact ⟨o, hH.symm, by simpa using ho⟩
    | cons op h ih =>
      intro pre o ho hof
      obtain ⟨s1, s2⟩ := DVHeap.step_single n inSub pre o ho op (hof op (by simp))
      by_cases hr : op.InRange n
      · obtain ⟨o', e1, e2⟩ := s1 hr
        obtain ⟨i1, i2⟩ := ih (pre ++ [op]) o' e2 (fun op h' => hof op (by simp [h']))
        simp only [DVOp.run, e1, Option.bind_some]
        refine ⟨by rw [i1]; simp [hr], fun H hH => ?_⟩
        obtain ⟨o'', e3, e4⟩ := i2 H hH
        exact ⟨o'', e3, by simpa using e4⟩
      · simp only [DVOp.run, s2 hr, Option.bind_none]
        refine ⟨?_, by simp⟩
        simp [hr]
  have h0 : DVHeap.After (α := α) n inSub [] ⟨List.replicate n false, 0, [], inSub⟩ := by
    refine ⟨by simp, rfl, rfl, rfl, fun k hk => ?_⟩
    simp [hk, flagAfter, last_nil]
  obtain ⟨k1, k2⟩ := key h [] _ h0 hop
  refine ⟨k1, fun H hH => ?_⟩
  obtain ⟨o', rfl, ho'⟩ := k2 H hH
  rw [List.nil_append] at ho'
  refine ⟨fun k hk => ?_, ?_⟩
  · simp only [DVHeap.isConstrainedInt, DVHeap.isConstrainedMulti, DVHeap.obj?_single,
      Option.bind_some, ho'.backend, ho'.flags k hk, and_self]
  · have : o'.flags = (List.range n).map (flagAfter inSub h) := by
      apply List.ext_getElem?
      intro k
      by_cases hk : k < n
      · rw [ho'.flags k hk]; simp [hk]
      · rw [List.getElem?_eq_none (by rw [ho'.len]; omega), List.getElem?_eq_none (by simp; omega)]
    simp only [DVHeap.fixedDOFsize, DVHeap.obj?_single, Option.map_some, this]
    rw [List.count, List.countP_map]
    congr 1
    apply List.countP_congr
    simp

/-- Fix, reset, fix again and store a function. -/
example := dirichlet_flags_history (α := ℤ) 3 (fun _ => true)
  [.setInt 0 1 true, .reset 0, .setInt 0 2 true, .store 0 ⟨fun l k => l * k, fun _ k => k, 7⟩ 1] (by
    intro op hop
    simp only [List.mem_cons, List.not_mem_nil, or_false] at hop
    rcases hop with rfl | rfl | rfl | rfl <;> exact rfl)

/-- C11. `setZeroAtConstrainedDofs` zeroes exactly the entries of the constrained dofs. -/
theorem setZeroAtConstrainedDofs_eq [Zero α] (o : DirichletValues α) (x : List α)
    (hx : x.length = o.flags.length) :
    o.setZeroAtConstrainedDofs? x = some (mask o.flags x) := by
  unfold DirichletValues.setZeroAtConstrainedDofs?
  rw [DirichletValues.zeroLoop_eq o.flags x 0 (by omega), List.drop_zero]

/-- C13. Storing a function only adds constraints, on exactly the dofs where the sum of all
functions stored so far is nonzero at the given load factor. -/
theorem store_adds_constraints [AddCommMonoid α] [DecidableEq α] (h : DVHeap α) (i : Nat)
    (o : DirichletValues α) (ho : h.obj? i = some o) (f : StoredFn α) (lambda : α) :
    ∃ h', h.store i f lambda = some h' ∧ ∀ k, k < o.flags.length →
      (h'.isConstrainedInt i k = some true ↔ o.flags[k]? = some true ∨
        total o.inSub ((o.fns ++ [f]).map fun f => f.value lambda) k ≠ 0) := by
  have hi : i < h.length := by
    by_contra hc
    unfold DVHeap.obj? at ho
    rw [List.getElem?_eq_none (by omega)] at ho
    exact absurd ho (by simp)
  obtain ⟨g1, g2⟩ := DirichletValues.evaluate_superposes { o with fns := o.fns ++ [f] } lambda
  simp only at g1 g2
  obtain ⟨fl', e1, e2, e3⟩ := DirichletValues.flagLoop_eq
    (({ o with fns := o.fns ++ [f] } : DirichletValues α).evaluate lambda) o.flags.length 0 o.flags
    (by omega) (by omega)
  refine ⟨h.set i (some ⟨fl', o.backend, o.fns ++ [f], o.inSub⟩), ?_, ?_⟩
  · simp only [DVHeap.store, ho, Option.bind_some, e1, Option.map_some]
  · intro k hk
    have hobj : DVHeap.obj? (h.set i (some ⟨fl', o.backend, o.fns ++ [f], o.inSub⟩)) i
        = some ⟨fl', o.backend, o.fns ++ [f], o.inSub⟩ := by
      unfold DVHeap.obj?
      rw [List.getElem?_set_self hi]; rfl
    simp only [DVHeap.isConstrainedInt, hobj, Option.bind_some, e3 k]
    have hgetD : (({ o with fns := o.fns ++ [f] } : DirichletValues α).evaluate lambda).getD k 0
        = total o.inSub ((o.fns ++ [f]).map fun f => f.value lambda) k := by
      rw [List.getD, g2 k hk, Option.getD_some]
    rw [hgetD]
    by_cases hne : total o.inSub ((o.fns ++ [f]).map fun f => f.value lambda) k ≠ 0
    · rw [if_pos ⟨by omega, by omega, hne⟩]; exact ⟨fun _ => Or.inr hne, fun _ => rfl⟩
    · rw [if_neg (fun hc => hne hc.2.2)]
      simp only [hne, or_false]

/-! ### Copies -/

/-- The property C12 in full: after a copy, operations on one of the two objects do not change what
the other one answers, and both `isConstrained` overloads of the copy agree. -/
def Spec.CopiesIndependent : Prop :=
  ∀ (H H1 H2 : DVHeap ℤ) (i : Nat) (ops : List (DVOp ℤ)), H.copy i = some H1 →
    (∀ op ∈ ops, match op with
      | .setInt j _ _ => j = H.length | .setMulti j _ _ => j = H.length | .fix j _ => j = H.length
      | .reset j => j = H.length | .store j _ _ => j = H.length | _ => False) →
    DVOp.run H1 ops = some H2 → (∀ k, H.isConstrainedInt i k = H.isConstrainedMulti i k) →
    (∀ k, H2.isConstrainedInt i k = H.isConstrainedInt i k) ∧
    (∀ k, H2.isConstrainedInt H.length k = H2.isConstrainedMulti H.length k)

/-- C12 is false of the code: setting a flag of the copy with a multi index sets it in the original
and not in the copy. -/
theorem copies_not_independent : ¬ Spec.CopiesIndependent := by
  intro h
  have := (h (DVHeap.construct [] 2 fun _ => true) _ _ 0 [.setMulti 1 0 true] rfl
    (by simp [DVHeap.construct]) rfl (by
      intro k
      rfl)).1 0
  exact absurd this (by decide)

/-- C12, also destroying the original makes every multi index access to the copy undefined. -/
theorem copy_outlives_original_undefined (n : Nat) (inSub : Nat → Bool) (k : Nat) :
    ∃ H, DVOp.run (DVHeap.construct ([] : DVHeap ℤ) n inSub) [.copy 0, .destroy 0] = some H ∧
      H.isConstrainedMulti 1 k = none ∧ (k < n → H.isConstrainedInt 1 k = some false) := by
  refine ⟨_, rfl, rfl, fun hk => ?_⟩
  show (List.replicate n false)[k]? = _
  simp [hk]

/-- The operation uses the own flags of object `j` only (integer access, `reset`,
`storeInhomogeneousBoundaryCondition`). -/
def DVOp.OwnFlagsOf (j : Nat) : DVOp α → Prop
  | .setInt i _ _ => i = j
  | .reset i => i = j
  | .store i _ _ => i = j
  | _ => False

/-- C12, partial: operations with integer access, `reset` and
`storeInhomogeneousBoundaryCondition` on one object never change another object.
Missing: the multi index overloads and the callbacks, for which it is false. -/
theorem copies_independent_partial [AddCommMonoid α] [DecidableEq α] (H H' : DVHeap α) (i j : Nat)
    (hij : i ≠ j) (ops : List (DVOp α)) (hops : ∀ op ∈ ops, op.OwnFlagsOf j)
    (hrun : DVOp.run H ops = some H') : H'.obj? i = H.obj? i := by
  induction ops generalizing H with
  | nil =>
    simp only [DVOp.run, Option.some.injEq] at hrun
    rw [hrun]
  | cons op ops ih =>
    obtain ⟨H1, h1, h2⟩ := Option.bind_eq_some_iff.1 hrun
    rw [ih H1 (fun op h => hops op (by simp [h])) h2]
    have hop := hops op (by simp)
    cases op with
    | setInt i' k b =>
      obtain rfl : i' = j := hop
      obtain ⟨o, -, h1⟩ := Option.bind_eq_some_iff.1 h1
      obtain ⟨fl, -, rfl⟩ := Option.map_eq_some_iff.1 h1
      unfold DVHeap.obj?
      rw [List.getElem?_set_ne hij.symm]
    | reset i' =>
      obtain rfl : i' = j := hop
      obtain ⟨o, -, rfl⟩ := Option.map_eq_some_iff.1 h1
      unfold DVHeap.obj?
      rw [List.getElem?_set_ne hij.symm]
    | store i' f l =>
      obtain rfl : i' = j := hop
      obtain ⟨o, -, h1⟩ := Option.bind_eq_some_iff.1 h1
      obtain ⟨fl, -, rfl⟩ := Option.map_eq_some_iff.1 h1
      unfold DVHeap.obj?
      rw [List.getElem?_set_ne hij.symm]
    | construct => exact absurd hop id
    | copy => exact absurd hop id
    | destroy => exact absurd hop id
    | setMulti => exact absurd hop id
    | fix => exact absurd hop id

/-! Concrete cases. -/

section Example

def exampleFn (c : ℤ) : StoredFn ℤ := ⟨fun l k => c * l * k, fun _ k => c * k, 7⟩

example : ∃ H, DVOp.run (DVHeap.construct [] 3 fun _ => true)
    [.setInt 0 0 true, .fix 0 [(1, true), (1, false)], .store 0 (exampleFn 2) 1, .reset 0,
     .setMulti 0 2 true] = some H ∧ H.isConstrainedInt 0 1 = some false ∧
    H.isConstrainedMulti 0 2 = some true ∧ H.fixedDOFsize 0 = some 1 := ⟨_, rfl, rfl, rfl, rfl⟩

/-- Two functions that cancel do not constrain the dofs. -/
example : ∃ H, DVOp.run (DVHeap.construct [] 3 fun _ => true)
    [.store 0 (exampleFn 2) 0, .store 0 (exampleFn (-2)) 1] = some H ∧
    H.fixedDOFsize 0 = some 0 := ⟨_, rfl, rfl⟩

example : (⟨[true, false, false], 0, [exampleFn 2, exampleFn 3], fun k => k < 2⟩ :
    DirichletValues ℤ).evaluate 2 = [0, 10, 0] := by decide

example : (⟨[true, false, false], 0, [exampleFn 2, exampleFn 3], fun k => k < 2⟩ :
    DirichletValues ℤ).evaluateDerivative? (fun _ => true) 2 = some [0, 5, 0] := by decide

example : (⟨[true, false, false], 0, [], fun _ => true⟩ : DirichletValues ℤ).setZeroAtConstrainedDofs?
    [3, 4, 5] = some [0, 4, 5] := by decide

example : ∃ H, DVOp.run (DVHeap.construct ([] : DVHeap ℤ) 2 fun _ => true)
    [.copy 0, .setInt 1 0 true, .reset 1, .setInt 1 1 true] = some H ∧
    H.isConstrainedInt 0 1 = some false ∧ H.isConstrainedInt 1 1 = some true := ⟨_, rfl, rfl, rfl⟩

end Example

end Ikarus
