import Verif.Assembler.Model
import Verif.Assembler.Spec

namespace Ikarus
open Spec
variable {α : Type*}

/-! ### Facts about `rank` and `selectFree` -/

theorem rank_cons_succ (b : Bool) (fl : List Bool) (i : Nat) :
    rank (b :: fl) (i + 1) = rank fl i + if b then 0 else 1 := by
  cases b <;> simp [rank]

theorem rank_add_constrainedBelow (fl : List Bool) {i : Nat} (h : i ≤ fl.length) :
    rank fl i + constrainedBelow fl i = i := by
  unfold rank constrainedBelow
  have := List.length_eq_countP_add_countP (l := fl.take i) (fun b => b == true)
  simp only [List.length_take, Nat.min_eq_left h] at this
  have h2 : List.countP (fun a => decide ¬(a == true) = true) (fl.take i)
      = (fl.take i).count false := by
    unfold List.count
    congr 1
    funext b; cases b <;> rfl
  rw [h2] at this
  unfold List.count at *
  omega

theorem rank_le_rank (fl : List Bool) {i j : Nat} (h : i ≤ j) : rank fl i ≤ rank fl j := by
  unfold rank
  exact List.Sublist.count_le _ ((List.take_prefix_take_left h).sublist)

theorem rank_succ_of_free {fl : List Bool} {i : Nat} (h : Free fl i) :
    rank fl (i + 1) = rank fl i + 1 := by
  unfold rank Free at *
  rw [List.take_add_one, h]
  simp [List.count_append]

theorem rank_lt_rank {fl : List Bool} {i j : Nat} (hi : Free fl i) (hij : i < j) :
    rank fl i < rank fl j := by
  have := rank_le_rank fl (show i + 1 ≤ j by omega)
  rw [rank_succ_of_free hi] at this
  omega

theorem rank_inj {fl : List Bool} {i j : Nat} (hi : Free fl i) (hj : Free fl j)
    (h : rank fl i = rank fl j) : i = j := by
  rcases Nat.lt_trichotomy i j with h1 | h1 | h1
  · have := rank_lt_rank hi h1; omega
  · exact h1
  · have := rank_lt_rank hj h1; omega

theorem free_lt {fl : List Bool} {i : Nat} (h : Free fl i) : i < fl.length := by
  unfold Free at h
  by_contra hc
  rw [List.getElem?_eq_none (by omega)] at h
  exact absurd h (by simp)

theorem rank_length (fl : List Bool) : rank fl fl.length = fl.count false := by
  simp [rank]

theorem rank_lt {fl : List Bool} {i : Nat} (h : Free fl i) : rank fl i < fl.count false := by
  rw [← rank_length]; exact rank_lt_rank h (free_lt h)

theorem rank_surj (fl : List Bool) {k : Nat} (hk : k < fl.count false) :
    ∃ i, Free fl i ∧ rank fl i = k := by
  induction fl generalizing k with
  | nil => simp at hk
  | cons b fl ih =>
    cases b with
    | true =>
      simp only [List.count_cons] at hk
      obtain ⟨i, h1, h2⟩ := ih (k := k) (by simpa using hk)
      exact ⟨i + 1, by simpa [Free] using h1, by rw [rank_cons_succ]; simpa using h2⟩
    | false =>
      cases k with
      | zero => exact ⟨0, rfl, rfl⟩
      | succ k =>
        simp only [List.count_cons] at hk
        obtain ⟨i, h1, h2⟩ := ih (k := k) (by simpa using hk)
        exact ⟨i + 1, by simpa [Free] using h1, by rw [rank_cons_succ]; simpa using h2⟩

theorem count_true_add_false (fl : List Bool) : fl.count true + fl.count false = fl.length := by
  induction fl with
  | nil => rfl
  | cons b fl ih => cases b <;> simp <;> omega

theorem selectFree_length {fl : List Bool} {v : List α} (h : v.length = fl.length) :
    (selectFree fl v).length = fl.count false := by
  induction fl generalizing v with
  | nil => cases v <;> simp [selectFree]
  | cons b fl ih =>
    cases v with
    | nil => simp at h
    | cons x v =>
      have := ih (v := v) (by simpa using h)
      cases b <;> simp [selectFree, this]

theorem selectFree_getElem? {fl : List Bool} {v : List α} (h : v.length = fl.length) {i : Nat}
    (hi : Free fl i) : (selectFree fl v)[rank fl i]? = v[i]? := by
  induction fl generalizing v i with
  | nil => simp [Free] at hi
  | cons b fl ih =>
    cases v with
    | nil => simp at h
    | cons x v =>
      have hl : v.length = fl.length := by simpa using h
      cases i with
      | zero =>
        have : b = false := by simpa [Free] using hi
        subst this
        simp [selectFree, rank]
      | succ i =>
        have hf : Free fl i := by simpa [Free] using hi
        rw [rank_cons_succ]
        cases b <;> simp [selectFree, ih hl hf]

theorem selectFree_set_constrained {fl : List Bool} {v : List α} {i : Nat} (y : α)
    (hi : fl[i]? = some true) : selectFree fl (v.set i y) = selectFree fl v := by
  induction fl generalizing v i with
  | nil => simp at hi
  | cons b fl ih =>
    cases v with
    | nil => simp
    | cons x v =>
      cases i with
      | zero =>
        have : b = true := by simpa using hi
        subst this
        simp [selectFree]
      | succ i =>
        have hf : fl[i]? = some true := by simpa using hi
        simp [selectFree, ih hf]

theorem selectFree_set_free {fl : List Bool} {v : List α} {i : Nat} (y : α)
    (h : v.length = fl.length) (hi : Free fl i) :
    selectFree fl (v.set i y) = (selectFree fl v).set (rank fl i) y := by
  induction fl generalizing v i with
  | nil => simp [Free] at hi
  | cons b fl ih =>
    cases v with
    | nil => simp at h
    | cons x v =>
      have hl : v.length = fl.length := by simpa using h
      cases i with
      | zero =>
        have : b = false := by simpa [Free] using hi
        subst this
        simp [selectFree, rank]
      | succ i =>
        have hf : Free fl i := by simpa [Free] using hi
        rw [rank_cons_succ]
        cases b <;> simp [selectFree, ih hl hf]

theorem selectFree_replicate (fl : List Bool) (x : α) :
    selectFree fl (List.replicate fl.length x) = List.replicate (fl.count false) x := by
  induction fl with
  | nil => rfl
  | cons b fl ih => cases b <;> simp [selectFree, List.replicate_succ, ih]

/-! ### Constructor -/

namespace Assembler

theorem constraintsBelowLoop_getElem? (fl : List Bool) (c i : Nat) (h : i < fl.length) :
    (constraintsBelowLoop fl c)[i]? = some (c + constrainedBelow fl i) := by
  induction fl generalizing c i with
  | nil => simp at h
  | cons b fl ih =>
    cases i with
    | zero => simp [constraintsBelowLoop, constrainedBelow]
    | succ i =>
      rw [constraintsBelowLoop, List.getElem?_cons_succ, ih _ _ (by simpa using h)]
      cases b <;> simp [constrainedBelow] <;> omega

theorem constraintsBelow?_create {fl : List Bool} {i : Nat} (h : i < fl.length) :
    (create fl).constraintsBelow? i = some (constrainedBelow fl i) := by
  unfold constraintsBelow? create
  rw [constraintsBelowLoop_getElem? fl 0 i h, Nat.zero_add]

theorem constraintsBelowLoop_length (fl : List Bool) (c : Nat) :
    (constraintsBelowLoop fl c).length = fl.length := by
  induction fl generalizing c with
  | nil => rfl
  | cons b fl ih => simp [constraintsBelowLoop, ih]

@[simp] theorem size_create (fl : List Bool) : (create fl).size = fl.length := rfl
@[simp] theorem flags_create (fl : List Bool) : (create fl).flags = fl := rfl

theorem reducedSize?_create (fl : List Bool) :
    (create fl).reducedSize? = some (fl.count false) := by
  have := count_true_add_false fl
  unfold reducedSize?
  rw [size_create, if_pos (by simp [create]; omega)]
  congr 1
  simp [create]; omega

theorem reducedIndex?_create {fl : List Bool} {i : Nat} (h : i < fl.length) :
    (create fl).reducedIndex? i = some (rank fl i) := by
  have := rank_add_constrainedBelow fl (Nat.le_of_lt h)
  unfold reducedIndex?
  rw [constraintsBelow?_create h]
  simp only
  rw [if_pos (by omega)]
  congr 1; omega

/-! ### createFullVector, createReducedVector -/

theorem createFullLoop_eq [Zero α] (fl : List Bool) (v pre : List α) (i rc : Nat)
    (hv : v.length = fl.length) (hi : i = rc + pre.length) :
    createFullLoop (pre ++ selectFree fl v) fl i rc = some (mask fl v) := by
  induction fl generalizing v pre i rc with
  | nil => simp [createFullLoop, mask]
  | cons b fl ih =>
    cases v with
    | nil => simp at hv
    | cons x v =>
      have hl : v.length = fl.length := by simpa using hv
      cases b with
      | true =>
        simp only [createFullLoop, selectFree, if_true]
        rw [ih v pre (i + 1) (rc + 1) hl (by omega)]
        simp [mask]
      | false =>
        simp only [createFullLoop, selectFree, Bool.false_eq_true, if_false]
        have := ih v (pre ++ [x]) (i + 1) rc hl (by simp; omega)
        rw [List.append_assoc] at this
        simp only [List.singleton_append] at this
        rw [this]
        have hg : getDiff? (pre ++ x :: selectFree fl v) i rc = some x := by
          unfold getDiff?
          rw [if_pos (by omega)]
          have : i - rc = pre.length := by omega
          rw [this]; simp
        rw [hg]
        simp [mask]

theorem selectFree_mask [Zero α] (fl : List Bool) (v : List α) :
    selectFree fl (mask fl v) = selectFree fl v := by
  induction fl generalizing v with
  | nil => simp [selectFree]
  | cons b fl ih =>
    cases v with
    | nil => simp [mask]
    | cons x v =>
      have := ih v
      unfold mask at this
      cases b <;> simp [mask, selectFree, this]

theorem selectFree_surj [Zero α] (fl : List Bool) (r : List α) (h : r.length = fl.count false) :
    ∃ v : List α, v.length = fl.length ∧ selectFree fl v = r := by
  induction fl generalizing r with
  | nil => exact ⟨[], rfl, by simpa [selectFree] using (List.length_eq_zero_iff.1 (by simpa using h)).symm⟩
  | cons b fl ih =>
    cases b with
    | true =>
      obtain ⟨v, h1, h2⟩ := ih r (by simpa using h)
      exact ⟨0 :: v, by simp [h1], by simp [selectFree, h2]⟩
    | false =>
      cases r with
      | nil => simp at h
      | cons x r =>
        obtain ⟨v, h1, h2⟩ := ih r (by simpa using h)
        exact ⟨x :: v, by simp [h1], by simp [selectFree, h2]⟩

theorem createReducedLoop_eq (a : Assembler) (v : List α) (pre : List Bool)
    (fl : List Bool) (ha : a.flags = pre ++ fl) (hv : v.length = fl.length)
    (i rc : Nat) (hi : i = pre.length) (hrc : rc = pre.count true)
    (done : List (Option α)) (hd : done.length = pre.count false)
    (m : Nat) (hm : m = fl.count false) :
    createReducedLoop a v i rc (done ++ List.replicate m none)
      = some (done ++ (selectFree fl v).map some) := by
  induction fl generalizing v pre i rc done m with
  | nil =>
    have : v = [] := List.length_eq_zero_iff.1 (by simpa using hv)
    subst this
    simp at hm
    simp [createReducedLoop, selectFree, hm]
  | cons b fl ih =>
    cases v with
    | nil => simp at hv
    | cons x v =>
      have hl : v.length = fl.length := by simpa using hv
      have hc : a.isConstrained? i = some b := by
        unfold isConstrained?
        rw [ha, hi]; simp
      have hcount := count_true_add_false pre
      simp only [createReducedLoop, hc, Option.bind_some]
      cases b with
      | true =>
        simp only [if_true, selectFree]
        exact ih v (pre ++ [true]) (by simp [ha]) hl (i + 1) (rc + 1) (by simp [hi])
          (by simp [hrc]) done (by simp [hd]) m (by simpa using hm)
      | false =>
        simp only [Bool.false_eq_true, if_false, selectFree]
        have hle : rc ≤ i := by omega
        rw [if_pos hle]
        obtain ⟨m', rfl⟩ : ∃ m', m = m' + 1 := ⟨fl.count false, by simpa using hm⟩
        have hidx : i - rc = done.length := by omega
        have hset : setAt? (done ++ List.replicate (m' + 1) none) (i - rc) (some x)
            = some ((done ++ [some x]) ++ List.replicate m' none) := by
          unfold setAt?
          rw [if_pos (by simp; omega), hidx]
          simp [List.replicate_succ]
        rw [hset, Option.bind_some]
        rw [ih v (pre ++ [false]) (by simp [ha]) hl (i + 1) rc (by simp [hi])
          (by simp [hrc]) (done ++ [some x]) (by simp [hd]) m' (by simpa using hm)]
        simp

/-! ### Vector assembly -/

theorem rawVectorInner_length [Add α] {loc : List α} {ds : List Nat} {i : Nat} {v w : List α}
    (h : rawVectorInner loc ds i v = some w) : w.length = v.length := by
  induction ds generalizing i v with
  | nil => simp only [rawVectorInner, Option.some.injEq] at h; rw [h]
  | cons d ds ih =>
    simp only [rawVectorInner] at h
    obtain ⟨x, -, h⟩ := Option.bind_eq_some_iff.1 h
    obtain ⟨u, hu, h⟩ := Option.bind_eq_some_iff.1 h
    rw [ih h, (addAt?_eq_some hu).2.1]

theorem rawVectorInner_eq_scatter [Add α] (loc : List α) (ds : List Nat) (i : Nat) (v : List α)
    (h : i + ds.length ≤ loc.length) :
    rawVectorInner loc ds i v = scatter v (ds.zip (loc.drop i)) := by
  induction ds generalizing i v with
  | nil => rfl
  | cons d ds ih =>
    have hi : i < loc.length := by simp at h; omega
    rw [List.drop_eq_getElem_cons hi]
    simp only [rawVectorInner, List.zip_cons_cons, scatter]
    rw [List.getElem?_eq_getElem hi, Option.bind_some]
    congr 1
    funext w
    exact ih (i + 1) w (by simp at h; omega)

theorem rawVectorInner_some [Add α] {loc : List α} {ds : List Nat} {i : Nat} {v w : List α}
    (h : rawVectorInner loc ds i v = some w) (hne : ds ≠ []) : i + ds.length ≤ loc.length := by
  induction ds generalizing i v with
  | nil => exact absurd rfl hne
  | cons d ds ih =>
    simp only [rawVectorInner] at h
    obtain ⟨x, hx, h⟩ := Option.bind_eq_some_iff.1 h
    obtain ⟨u, hu, h⟩ := Option.bind_eq_some_iff.1 h
    have hi : i < loc.length := (List.getElem?_eq_some_iff.1 hx).1
    by_cases hd : ds = []
    · subst hd; simp; omega
    · have := ih h hd
      simp; omega

/-- Simulation: reduced assembly follows raw assembly through `selectFree`. -/
theorem reducedVectorInner_sim [Add α] (fl : List Bool) (loc : List α) (ds : List Nat) (i : Nat)
    (v w : List α) (hv : v.length = fl.length) (h : rawVectorInner loc ds i v = some w) :
    reducedVectorInner (create fl) loc ds i (selectFree fl v) = some (selectFree fl w) := by
  induction ds generalizing i v with
  | nil => simp only [rawVectorInner, Option.some.injEq] at h; simp [reducedVectorInner, h]
  | cons d ds ih =>
    simp only [rawVectorInner] at h
    obtain ⟨x, hx, h⟩ := Option.bind_eq_some_iff.1 h
    obtain ⟨u, hu, h⟩ := Option.bind_eq_some_iff.1 h
    obtain ⟨hd, hl, -⟩ := addAt?_eq_some hu
    have hdf : d < fl.length := by omega
    have hc : (create fl).isConstrained? d = some fl[d] := by
      unfold isConstrained?; simp [hdf]
    have hvd : v[d]? = some v[d] := List.getElem?_eq_getElem hd
    have hu' : u = v.set d (v[d] + x) := by
      unfold addAt? at hu; rw [hvd] at hu; simpa using hu.symm
    have ih' := ih (i + 1) u (by omega) h
    simp only [reducedVectorInner, hc, Option.bind_some]
    cases hb : fl[d] with
    | true =>
      simp only [if_true]
      rw [← ih', hu', selectFree_set_constrained]
      rw [List.getElem?_eq_getElem hdf, hb]
    | false =>
      have hfree : Free fl d := by unfold Free; rw [List.getElem?_eq_getElem hdf, hb]
      simp only [Bool.false_eq_true, if_false]
      rw [reducedIndex?_create hdf, Option.bind_some, hx, Option.bind_some]
      have : addAt? (selectFree fl v) (rank fl d) x = some (selectFree fl u) := by
        unfold addAt?
        rw [selectFree_getElem? hv hfree, hvd, hu', selectFree_set_free _ hv hfree]
      rw [this, Option.bind_some, ih']

theorem rawVectorOuter_length [Add α] {fes : List (VecElem α)} {v w : List α}
    (h : rawVectorOuter fes v = some w) : w.length = v.length := by
  induction fes generalizing v with
  | nil => simp only [rawVectorOuter, Option.some.injEq] at h; rw [h]
  | cons e es ih =>
    simp only [rawVectorOuter] at h
    obtain ⟨u, hu, h⟩ := Option.bind_eq_some_iff.1 h
    rw [ih h, rawVectorInner_length hu]

theorem reducedVectorOuter_sim [Add α] (fl : List Bool) (fes : List (VecElem α))
    (v w : List α) (hv : v.length = fl.length) (h : rawVectorOuter fes v = some w) :
    reducedVectorOuter (create fl) fes (selectFree fl v) = some (selectFree fl w) := by
  induction fes generalizing v with
  | nil => simp only [rawVectorOuter, Option.some.injEq] at h; simp [reducedVectorOuter, h]
  | cons e es ih =>
    simp only [rawVectorOuter] at h
    obtain ⟨u, hu, h⟩ := Option.bind_eq_some_iff.1 h
    simp only [reducedVectorOuter]
    rw [reducedVectorInner_sim fl _ _ _ _ _ hv hu, Option.bind_some]
    exact ih u (by rw [rawVectorInner_length hu, hv]) h

theorem zeroLoop_eq [Zero α] (a : Assembler) (pre fl : List Bool) (ha : a.flags = pre ++ fl)
    (v done : List α) (hv : v.length = fl.length) (i : Nat) (hi : i = pre.length)
    (hd : done.length = i) :
    forConstrained a (fun v i => setAt? v i 0) fl.length i (done ++ v)
      = some (done ++ mask fl v) := by
  induction fl generalizing pre v done i with
  | nil =>
    have : v = [] := List.length_eq_zero_iff.1 (by simpa using hv)
    subst this
    simp [forConstrained, mask]
  | cons b fl ih =>
    cases v with
    | nil => simp at hv
    | cons x v =>
      have hl : v.length = fl.length := by simpa using hv
      have hc : a.isConstrained? i = some b := by
        unfold isConstrained?
        rw [ha, hi]; simp
      simp only [List.length_cons, forConstrained, hc, Option.bind_some]
      cases b with
      | true =>
        have hset : setAt? (done ++ x :: v) i 0 = some ((done ++ [0]) ++ v) := by
          unfold setAt?
          rw [if_pos (by simp; omega), ← hd]
          simp
        simp only [if_true]
        rw [hset, Option.bind_some,
          ih (pre ++ [true]) (by simp [ha]) v (done ++ [0]) hl (i + 1) (by simp [hi]) (by simp [hd])]
        simp [mask]
      | false =>
        simp only [Bool.false_eq_true, if_false]
        have := ih (pre ++ [false]) (by simp [ha]) v (done ++ [x]) hl (i + 1) (by simp [hi])
          (by simp [hd])
        rw [List.append_assoc] at this
        simp only [List.singleton_append] at this
        rw [this]
        simp [mask]

theorem getScalarLoop_eq [AddCommMonoid α] (xs : List α) (acc : α) :
    getScalarLoop xs acc = acc + xs.sum := by
  induction xs generalizing acc with
  | nil => simp [getScalarLoop]
  | cons x xs ih => simp [getScalarLoop, ih, add_assoc]

end Assembler
end Ikarus
