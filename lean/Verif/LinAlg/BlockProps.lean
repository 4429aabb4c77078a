import Verif.LinAlg.BlockModel
import Mathlib.Algebra.Group.Basic
import Mathlib.Tactic.Ring
import Mathlib.Algebra.Field.Rat

/-!
C64: increments of blocked vectors.
-/

namespace Ikarus

variable {P K : Type}

/-- Specification: block `i` is incremented by the entries `i n, ..., i n + n - 1`. -/
def Spec.Split (ops : ManifoldOps P K) (a : List P) (b : List K) (r : List P) : Prop :=
  r.length = a.length ∧ ∀ i p, a[i]? = some p →
    r[i]? = some (ops.addAssign p ((b.drop (i * ops.correctionSize)).take ops.correctionSize))

open Spec

theorem blockAddLoop_spec (ops : ManifoldOps P K) (b : List K) (i : Nat) (a : List P)
    (h : (i + a.length) * ops.correctionSize ≤ b.length) :
    ∃ r, blockAddLoop ops b i a = some r ∧ r.length = a.length ∧ ∀ j p, a[j]? = some p →
      r[j]? = some (ops.addAssign p
        ((b.drop ((i + j) * ops.correctionSize)).take ops.correctionSize)) := by
  induction a generalizing i with
  | nil => exact ⟨[], rfl, rfl, by simp⟩
  | cons p a ih =>
    rw [List.length_cons] at h
    obtain ⟨r, h1, h2, h3⟩ := ih (i + 1) (by
      rw [show i + 1 + a.length = i + (a.length + 1) by omega]; exact h)
    have hseg : segment b (i * ops.correctionSize) ops.correctionSize
        = some ((b.drop (i * ops.correctionSize)).take ops.correctionSize) := by
      unfold segment
      rw [if_pos]
      calc i * ops.correctionSize + ops.correctionSize = (i + 1) * ops.correctionSize := by ring
        _ ≤ (i + (a.length + 1)) * ops.correctionSize := Nat.mul_le_mul_right _ (by omega)
        _ ≤ b.length := h
    refine ⟨_, by simp only [blockAddLoop, hseg, h1]; rfl, by simp [h2], ?_⟩
    intro j q hq
    cases j with
    | zero =>
      simp only [List.getElem?_cons_zero, Option.some.injEq] at hq
      subst hq
      simp
    | succ j =>
      rw [List.getElem?_cons_succ] at hq ⊢
      rw [h3 j q hq, show i + 1 + j = i + (j + 1) by omega]

/-- C64. `operator+=` of a blocked vector succeeds iff the sizes agree, and increments each block by
its own segment. -/
theorem blockAdd_spec (ops : ManifoldOps P K) (a : List P) (b : List K) :
    ((blockAdd ops a b).isSome ↔ b.length = a.length * ops.correctionSize) ∧
    ∀ r, blockAdd ops a b = some r → Split ops a b r := by
  unfold blockAdd correctionSizeBV
  by_cases h : a.length * ops.correctionSize = b.length
  · obtain ⟨r, h1, h2, h3⟩ := blockAddLoop_spec ops b 0 a (by simp [h])
    rw [if_pos h, h1]
    refine ⟨by simp [h], fun r' hr => ?_⟩
    obtain rfl : r = r' := by simpa using hr
    exact ⟨h2, fun i p hp => by simpa using h3 i p hp⟩
  · rw [if_neg h]
    exact ⟨⟨fun h' => absurd h' (by simp), fun h' => absurd h'.symm h⟩, fun r hr => by simp at hr⟩

theorem segment_eq_some (b : List K) (s n : Nat) (h : s + n ≤ b.length) :
    segment b s n = some ((b.drop s).take n) := if_pos h

/-- C64. `operator+=` of a tuple of blocked vectors succeeds iff the increment is at least as long as
all corrections together; each component gets the slice behind those of the components before it. -/
theorem tupleAdd_spec (b : List K) (pos : Nat) (t : List (ManifoldOps P K × List P)) :
    ((tupleAdd b pos t).isSome ↔
      (t = [] ∨ pos + (t.map fun c => c.2.length * c.1.correctionSize).sum ≤ b.length)) ∧
    ∀ r, tupleAdd b pos t = some r → r.length = t.length ∧
      ∀ i c, t[i]? = some c → ∃ a', r[i]? = some a' ∧
        Split c.1 c.2 ((b.drop (pos + ((t.take i).map fun c =>
          c.2.length * c.1.correctionSize).sum)).take (c.2.length * c.1.correctionSize)) a' := by
  induction t generalizing pos with
  | nil =>
    refine ⟨by simp [tupleAdd], fun r hr => ?_⟩
    have : r = [] := by simpa [tupleAdd] using hr.symm
    subst this
    simp
  | cons c t ih =>
    obtain ⟨ops, a⟩ := c
    simp only [tupleAdd, correctionSizeBV]
    by_cases h : pos + a.length * ops.correctionSize ≤ b.length
    · rw [segment_eq_some b _ _ h]
      set s := (b.drop pos).take (a.length * ops.correctionSize) with hs
      have hsl : s.length = a.length * ops.correctionSize := by simp [hs]; omega
      obtain ⟨hb1, hb2⟩ := blockAdd_spec ops a s
      obtain ⟨a', ha'⟩ := Option.isSome_iff_exists.1 (hb1.2 hsl)
      obtain ⟨h1, h2⟩ := ih (pos + a.length * ops.correctionSize)
      simp only [Option.bind_eq_bind, Option.bind_some, ha']
      constructor
      · cases hr : tupleAdd b (pos + a.length * ops.correctionSize) t with
        | none =>
          rw [hr] at h1
          simp only [Option.isSome_none, Bool.false_eq_true, false_iff, not_or, not_le] at h1
          simp
          omega
        | some r =>
          rw [hr] at h1
          simp only [Option.isSome_some, true_iff] at h1
          simp
          rcases h1 with h1 | h1
          · subst h1; simpa using h
          · omega
      · intro r hr
        cases hr' : tupleAdd b (pos + a.length * ops.correctionSize) t with
        | none => rw [hr'] at hr; exact absurd hr (by simp)
        | some r' =>
          rw [hr'] at hr
          obtain rfl : a' :: r' = r := by simpa using hr
          obtain ⟨h3, h4⟩ := h2 r' hr'
          refine ⟨by simp [h3], ?_⟩
          intro i c hc
          cases i with
          | zero =>
            simp only [List.getElem?_cons_zero, Option.some.injEq] at hc
            subst hc
            exact ⟨a', rfl, by simpa using hb2 a' ha'⟩
          | succ i =>
            rw [List.getElem?_cons_succ] at hc
            obtain ⟨x, hx, hs⟩ := h4 i c hc
            refine ⟨x, by simpa using hx, ?_⟩
            simpa [add_assoc] using hs
    · have : segment b pos (a.length * ops.correctionSize) = none := if_neg h
      rw [this]
      refine ⟨?_, fun r hr => absurd hr (by simp)⟩
      simp
      omega

/-- C64. For plain vectors the flat view of the incremented vector is the sum of the flat view and
the increment. -/
theorem blockAdd_flat [Add K] (n : Nat) (a : List (List K)) (ha : ∀ p ∈ a, p.length = n)
    (b : List K) (r : List (List K)) (h : blockAdd (realTupleOps K n) a b = some r) :
    r.flatten = List.zipWith (· + ·) a.flatten b := by
  have key : ∀ (a : List (List K)) (i : Nat) (r : List (List K)), (∀ p ∈ a, p.length = n) →
      (i + a.length) * n ≤ b.length → blockAddLoop (realTupleOps K n) b i a = some r →
      r.flatten = List.zipWith (· + ·) a.flatten (b.drop (i * n)) := by
    intro a
    induction a with
    | nil =>
      intro i r _ _ h
      have : r = [] := by simpa [blockAddLoop] using h.symm
      subst this
      simp
    | cons p a ih =>
      intro i r hp hle h
      have hle' : (i + 1) * n ≤ b.length :=
        (Nat.mul_le_mul_right _ (by simp)).trans hle
      have hseg : segment b (i * n) n = some ((b.drop (i * n)).take n) :=
        segment_eq_some b _ _ (by rw [show i * n + n = (i + 1) * n by ring]; exact hle')
      simp only [blockAddLoop, realTupleOps, hseg] at h
      cases hr : blockAddLoop (realTupleOps K n) b (i + 1) a with
      | none => simp only [realTupleOps] at hr; rw [hr] at h; exact absurd h (by simp)
      | some r' =>
        have ih' := ih (i + 1) r' (fun p hp' => hp p (List.mem_cons_of_mem _ hp')) (by
          rw [List.length_cons] at hle
          rw [show i + 1 + a.length = i + (a.length + 1) by omega]; exact hle) hr
        simp only [realTupleOps] at hr
        rw [hr] at h
        obtain rfl : List.zipWith (· + ·) p ((b.drop (i * n)).take n) :: r' = r := by simpa using h
        rw [List.flatten_cons, List.flatten_cons, ih']
        have hsplit : b.drop (i * n) = (b.drop (i * n)).take n ++ b.drop ((i + 1) * n) := by
          conv_lhs => rw [← List.take_append_drop n (b.drop (i * n))]
          rw [List.drop_drop]
          congr 2
          ring
        conv_rhs => rw [hsplit]
        rw [List.zipWith_append]
        rw [hp p List.mem_cons_self, List.length_take, List.length_drop]
        have : (i + 1) * n = i * n + n := by ring
        omega
  unfold blockAdd correctionSizeBV at h
  by_cases hs : a.length * (realTupleOps K n).correctionSize = b.length
  · rw [if_pos hs] at h
    have := key a 0 r ha (by simpa [realTupleOps] using hs.le) h
    simpa using this
  · rw [if_neg hs] at h
    exact absurd h (by simp)

/-- C64. `-=` undoes `+=` for plain vectors. -/
theorem blockSub_blockAdd [AddGroup K] (n : Nat) (a r : List (List K))
    (ha : ∀ p ∈ a, p.length = n) (b : List K) (h : blockAdd (realTupleOps K n) a b = some r) :
    blockSub (realTupleOps K n) r b = some a := by
  obtain ⟨h1, h2⟩ := blockAdd_spec (realTupleOps K n) a b
  have hlen : b.length = a.length * n := h1.1 (by rw [h]; rfl)
  obtain ⟨hrl, hr⟩ := h2 r h
  unfold blockSub
  obtain ⟨g1, g2⟩ := blockAdd_spec (realTupleOps K n) r (b.map (- ·))
  have hg : (blockAdd (realTupleOps K n) r (b.map (- ·))).isSome = true := by
    apply g1.2
    rw [List.length_map, hrl, hlen]
    rfl
  obtain ⟨s, hs⟩ := Option.isSome_iff_exists.1 hg
  obtain ⟨hsl, hs2⟩ := g2 s hs
  rw [hs]
  congr 1
  apply List.ext_getElem?
  intro i
  rcases Nat.lt_or_ge i a.length with hi | hi
  · have ei : a[i]? = some a[i] := List.getElem?_eq_getElem hi
    have er := hr i _ ei
    have es := hs2 i _ er
    rw [es, ei]
    congr 1
    simp only [realTupleOps, ← List.map_drop, ← List.map_take]
    set c := (b.drop (i * n)).take n with hc
    have hcl : c.length = (a[i]).length := by
      rw [ha _ (List.getElem_mem hi)]
      simp only [hc, List.length_take, List.length_drop]
      have : (i + 1) * n ≤ a.length * n := Nat.mul_le_mul_right _ hi
      have e : (i + 1) * n = i * n + n := by ring
      omega
    have key : ∀ (p c : List K), c.length = p.length →
        List.zipWith (· + ·) (List.zipWith (· + ·) p c) (c.map (- ·)) = p := by
      intro p
      induction p with
      | nil => intro c; simp
      | cons x p ih =>
        intro c hc
        cases c with
        | nil => simp at hc
        | cons y c =>
          simp only [List.zipWith_cons_cons, List.map_cons, add_neg_cancel_right]
          rw [ih c (by simpa using hc)]
    exact key _ _ hcl
  · rw [List.getElem?_eq_none (by omega), List.getElem?_eq_none hi]

theorem flatten_getElem? (n : Nat) (a : List (List K)) (ha : ∀ p ∈ a, p.length = n) (i j : Nat)
    (hj : j < n) : a.flatten[i * n + j]? = a[i]?.bind fun p => p[j]? := by
  induction a generalizing i with
  | nil => simp
  | cons p a ih =>
    have hp := ha p List.mem_cons_self
    cases i with
    | zero =>
      rw [List.flatten_cons, Nat.zero_mul, Nat.zero_add, List.getElem?_append_left (by omega)]
      simp
    | succ i =>
      have : (i + 1) * n + j = i * n + j + n := by ring
      rw [List.flatten_cons, this, List.getElem?_append_right (by omega), hp, Nat.add_sub_cancel,
        ih (fun p hp => ha p (List.mem_cons_of_mem _ hp))]
      simp

/-- C64. The two matrix views show entry `j` of block `i` at `(i, j)` resp. `(j, i)`. -/
theorem matrix_views (n : Nat) (a : List (List K)) (ha : ∀ p ∈ a, p.length = n) (i j : Nat)
    (hi : i < a.length) (hj : j < n) :
    viewDynFixedEntry n a i j = a[i]?.bind (fun p => p[j]?) ∧
      viewFixedDynEntry n a j i = a[i]?.bind fun p => p[j]? := by
  unfold viewDynFixedEntry viewFixedDynEntry
  rw [if_pos ⟨hi, hj⟩, if_pos ⟨hj, hi⟩]
  exact ⟨flatten_getElem? n a ha i j hj, flatten_getElem? n a ha i j hj⟩

/-- The statement that surplus entries of an increment are rejected by both kinds of vectors. -/
def Spec.SurplusRejected : Prop :=
  ∀ (t : List (ManifoldOps (List ℚ) ℚ × List (List ℚ))) (b : List ℚ) r, tupleAdd b 0 t = some r →
    b.length = (t.map fun c => c.2.length * c.1.correctionSize).sum

/-- C64. A tuple of blocked vectors accepts an increment that is too long and drops the surplus (a
blocked vector does not, `blockAdd_spec`). -/
theorem tupleAdd_drops_surplus : ¬ SurplusRejected := by
  intro h
  have := h [(realTupleOps ℚ 1, [[1]])] [2, 3] [[[3]]] (by decide +kernel)
  simp [realTupleOps] at this

example : tupleAdd [1, 2, 3, 4, 5] 0 [(realTupleOps ℚ 2, [[1, 1], [2, 2]]), (realTupleOps ℚ 1, [[7]])]
    = some [[[2, 3], [5, 6]], [[12]]] := by decide +kernel

/-- Two points of the plane, updated and taken back. -/
example : ∃ r, blockAdd (realTupleOps ℚ 2) [[1, 2], [3, 4]] [10, 20, 30, 40] = some r ∧
    r.flatten = [11, 22, 33, 44] ∧ blockSub (realTupleOps ℚ 2) r [10, 20, 30, 40] = some [[1, 2], [3, 4]] := by
  have hr : blockAdd (realTupleOps ℚ 2) [[1, 2], [3, 4]] [10, 20, 30, 40] = some [[11, 22], [33, 44]] := by decide +kernel
  refine ⟨_, hr, ?_, blockSub_blockAdd 2 _ _ (by decide) _ hr⟩
  rw [blockAdd_flat 2 _ (by decide) _ _ hr]
  decide +kernel

example : viewDynFixedEntry 2 [[1, 2], [3, 4], [5, 6]] 2 0 = some 5 ∧ viewFixedDynEntry 2 [[1, 2], [3, 4], [5, 6]] 0 2 = some 5 :=
  matrix_views 2 [[1, 2], [3, 4], [5, 6]] (by decide) 2 0 (by decide) (by decide)

end Ikarus
