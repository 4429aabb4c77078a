import Verif.Utils.FlatBasisModel
import Mathlib.Data.List.Nodup
import Mathlib.Data.List.Lex
import Mathlib.Data.List.Range
import Mathlib.Data.List.Flatten
import Mathlib.Data.List.Count
import Mathlib.Algebra.BigOperators.Group.List.Basic
import Mathlib.Tactic.Ring
import Mathlib.Tactic.Common

/-!
Property C77: the flat basis numbers the dofs in the order of the nested container of the untouched basis.
-/

namespace Ikarus.FlatBasis

/-! ### Specification -/

/-- The position of a multi index among all: the number of those before it in lexicographic order.  This is the position
of an entry in a nested container that is traversed from front to back. -/
def Spec.position (all : List MultiIndex) (a : MultiIndex) : Nat := all.countP fun b => decide (b < a)

/-- The claim: each dof has one flat index, its position in the nested container. -/
def Spec.KeepsOrder (b : PreBasis) : Prop :=
  indices (makeBasis b).flat =
    (indices (makeBasis b).untouched).map fun a => [Spec.position (indices (makeBasis b).untouched) a]

mutual
/-- No basis below an interleaving without blocks has blocks. -/
def Spec.Supported : PreBasis → Prop
  | .leaf _ => True
  | .power .flatInterleaved sub _ => Spec.Supported sub ∧ ∀ a ∈ indices sub, a.length = 1
  | .power _ sub _ => Spec.Supported sub
  | .composite _ subs => Spec.SupportedList subs
def Spec.SupportedList : List PreBasis → Prop
  | [] => True
  | c :: cs => Spec.Supported c ∧ Spec.SupportedList cs
end

open Spec

/-! ### Lexicographic order -/

theorem append_lt_append {a b s t : MultiIndex} (h : a ≠ b) (h1 : ¬ a <+: b) (h2 : ¬ b <+: a) :
    a ++ s < b ++ t ↔ a < b := by
  induction a generalizing b with
  | nil => exact absurd (List.nil_prefix) h1
  | cons x a ih =>
    cases b with
    | nil => exact absurd (List.nil_prefix) h2
    | cons y b =>
      rw [List.cons_append, List.cons_append, List.cons_lt_cons_iff, List.cons_lt_cons_iff]
      by_cases hxy : x = y
      · subst hxy
        rw [ih (by simpa using h) (by simpa using h1) (by simpa using h2)]
      · simp [hxy]

theorem append_lt_append_left (a s t : MultiIndex) : a ++ s < a ++ t ↔ s < t := by
  induction a with
  | nil => rfl
  | cons x a ih => rw [List.cons_append, List.cons_append, List.cons_lt_cons_iff, ih]; simp

/-! ### All multi indices of a basis -/

/-- The multi indices are distinct, none is a prefix of another, the first entry is in the given range. -/
structure Good (L : List MultiIndex) (lo hi : Nat) : Prop where
  nodup : L.Nodup
  first : ∀ a ∈ L, ∃ i is, a = i :: is ∧ lo ≤ i ∧ i < hi
  free : ∀ a ∈ L, ∀ b ∈ L, a <+: b → a = b

theorem Good.nil (lo hi : Nat) : Good [] lo hi := ⟨List.nodup_nil, by simp, by simp⟩

theorem Good.append {A B : List MultiIndex} {lo mid hi : Nat} (hA : Good A lo mid) (hB : Good B mid hi) (h1 : lo ≤ mid)
    (h2 : mid ≤ hi) : Good (A ++ B) lo hi := by
  refine ⟨?_, ?_, ?_⟩
  · rw [List.nodup_append]
    refine ⟨hA.nodup, hB.nodup, fun a ha b hb hab => ?_⟩
    obtain ⟨i, is, rfl, -, hi1⟩ := hA.first a ha
    obtain ⟨j, js, rfl, hj, -⟩ := hB.first b hb
    have := (List.cons.inj hab).1
    omega
  · intro a ha
    rcases List.mem_append.1 ha with ha | ha
    · obtain ⟨i, is, rfl, h3, h4⟩ := hA.first a ha
      exact ⟨i, is, rfl, h3, by omega⟩
    · obtain ⟨i, is, rfl, h3, h4⟩ := hB.first a ha
      exact ⟨i, is, rfl, by omega, h4⟩
  · intro a ha b hb hab
    rcases List.mem_append.1 ha with ha | ha <;> rcases List.mem_append.1 hb with hb | hb
    · exact hA.free a ha b hb hab
    · obtain ⟨i, is, rfl, -, hi1⟩ := hA.first a ha
      obtain ⟨j, js, rfl, hj, -⟩ := hB.first b hb
      have := (List.cons_prefix_cons.1 hab).1
      omega
    · obtain ⟨i, is, rfl, hi1, -⟩ := hB.first a ha
      obtain ⟨j, js, rfl, -, hj⟩ := hA.first b hb
      have := (List.cons_prefix_cons.1 hab).1
      omega
    · exact hB.free a ha b hb hab

theorem Good.headAdd {A : List MultiIndex} {lo hi : Nat} (h : Good A lo hi) (k : Nat) :
    Good (A.map (headAdd k)) (lo + k) (hi + k) := by
  refine ⟨h.nodup.map_on ?_, ?_, ?_⟩
  · intro a ha b hb hab
    obtain ⟨i, is, rfl, -, -⟩ := h.first a ha
    obtain ⟨j, js, rfl, -, -⟩ := h.first b hb
    simp only [FlatBasis.headAdd, List.cons.injEq] at hab ⊢
    exact ⟨by omega, hab.2⟩
  · intro a ha
    obtain ⟨a', ha', rfl⟩ := List.mem_map.1 ha
    obtain ⟨i, is, rfl, h1, h2⟩ := h.first a' ha'
    exact ⟨i + k, is, rfl, by omega, by omega⟩
  · intro a ha b hb hab
    obtain ⟨a', ha', rfl⟩ := List.mem_map.1 ha
    obtain ⟨b', hb', rfl⟩ := List.mem_map.1 hb
    obtain ⟨i, is, rfl, -, -⟩ := h.first a' ha'
    obtain ⟨j, js, rfl, -, -⟩ := h.first b' hb'
    simp only [FlatBasis.headAdd, List.cons_prefix_cons] at hab
    rw [h.free _ ha' _ hb' (List.cons_prefix_cons.2 ⟨by omega, hab.2⟩)]

theorem Good.cons {A : List MultiIndex} {lo hi : Nat} (h : Good A lo hi) (k : Nat) :
    Good (A.map fun a => k :: a) k (k + 1) := by
  refine ⟨h.nodup.map_on (by simp), ?_, ?_⟩
  · intro a ha
    obtain ⟨a', ha', rfl⟩ := List.mem_map.1 ha
    exact ⟨k, a', rfl, le_refl _, by omega⟩
  · intro a ha b hb hab
    obtain ⟨a', ha', rfl⟩ := List.mem_map.1 ha
    obtain ⟨b', hb', rfl⟩ := List.mem_map.1 hb
    rw [h.free a' ha' b' hb' (List.cons_prefix_cons.1 hab).2]

/-- Both interleavings: `g c a` determines both arguments, and prefixes come from prefixes. -/
theorem good_interleaved {A : List MultiIndex} {lo hi C lo' hi' : Nat} (h : Good A lo hi)
    (g : Nat → MultiIndex → MultiIndex)
    (hfirst : ∀ c a, c < C → a ∈ A → ∃ i is, g c a = i :: is ∧ lo' ≤ i ∧ i < hi')
    (hpre : ∀ c c' a b, c < C → c' < C → a ∈ A → b ∈ A → g c a <+: g c' b → c = c' ∧ a = b) :
    Good ((List.range C).flatMap fun c => A.map (g c)) lo' hi' := by
  refine ⟨?_, ?_, ?_⟩
  · rw [List.nodup_flatMap]
    refine ⟨fun c hc => h.nodup.map_on fun a ha b hb hab =>
      (hpre c c a b (List.mem_range.1 hc) (List.mem_range.1 hc) ha hb (by rw [hab]; exact List.prefix_rfl)).2, ?_⟩
    have : (List.range C).Pairwise fun c c' => c ≠ c' ∧ c < C ∧ c' < C := by
      rw [List.pairwise_iff_getElem]
      intro i j hi hj hij
      simp only [List.length_range] at hi hj
      simp only [List.getElem_range]
      omega
    refine this.imp fun {c c'} hcc => ?_
    intro x hx hx'
    obtain ⟨a, ha, rfl⟩ := List.mem_map.1 hx
    obtain ⟨b, hb, hab⟩ := List.mem_map.1 hx'
    exact hcc.1 (hpre c' c b a hcc.2.2 hcc.2.1 hb ha (by rw [hab]; exact List.prefix_rfl)).1.symm
  · intro x hx
    obtain ⟨c, hc, hx⟩ := List.mem_flatMap.1 hx
    obtain ⟨a, ha, rfl⟩ := List.mem_map.1 hx
    exact hfirst c a (List.mem_range.1 hc) ha
  · intro x hx y hy hxy
    obtain ⟨c, hc, hx⟩ := List.mem_flatMap.1 hx
    obtain ⟨a, ha, rfl⟩ := List.mem_map.1 hx
    obtain ⟨c', hc', hy⟩ := List.mem_flatMap.1 hy
    obtain ⟨b, hb, rfl⟩ := List.mem_map.1 hy
    obtain ⟨rfl, rfl⟩ := hpre c c' a b (List.mem_range.1 hc) (List.mem_range.1 hc') ha hb hxy
    rfl

theorem interleave_inj {C c c' i j : Nat} (hc : c < C) (hc' : c' < C) (h : i * C + c = j * C + c') : c = c' ∧ i = j := by
  have h1 : (i * C + c) % C = c := by rw [Nat.mul_comm, Nat.mul_add_mod, Nat.mod_eq_of_lt hc]
  have h2 : (j * C + c') % C = c' := by rw [Nat.mul_comm, Nat.mul_add_mod, Nat.mod_eq_of_lt hc']
  have h3 : c = c' := by rw [← h1, ← h2, h]
  subst h3
  exact ⟨rfl, Nat.eq_of_mul_eq_mul_right (by omega) (Nat.add_right_cancel h)⟩

mutual
theorem good_indices : (b : PreBasis) → Good (indices b) 0 (size b)
  | .leaf n => by
    refine ⟨?_, ?_, ?_⟩
    · exact (List.nodup_range).map_on (by simp)
    · intro a ha
      simp only [indices, List.mem_map, List.mem_range] at ha
      obtain ⟨i, hi, rfl⟩ := ha
      exact ⟨i, [], rfl, by omega, by simpa [size] using hi⟩
    · intro a ha b hb hab
      simp only [indices, List.mem_map, List.mem_range] at ha hb
      obtain ⟨i, hi, rfl⟩ := ha
      obtain ⟨j, hj, rfl⟩ := hb
      simp only [List.cons_prefix_cons] at hab
      rw [hab.1]
  | .power .flatLexicographic sub C => by
    have hs := good_indices sub
    simp only [indices, size]
    induction C with
    | zero => simpa using Good.nil 0 0
    | succ C ih =>
      rw [List.range_succ, List.flatMap_append]
      have h2 := hs.headAdd (C * size sub)
      rw [Nat.zero_add] at h2
      have h3 : (C + 1) * size sub = size sub + C * size sub := by ring
      rw [h3]
      simpa using ih.append h2 (by omega) (by omega)
  | .power .flatInterleaved sub C => by
    have hs := good_indices sub
    simp only [indices, size]
    refine good_interleaved hs (fun c a => headAdd c (headMul C a)) ?_ ?_
    · intro c a hc ha
      obtain ⟨i, is, rfl, -, hi⟩ := hs.first a ha
      refine ⟨i * C + c, is, rfl, by omega, ?_⟩
      calc i * C + c < i * C + C := by omega
        _ = C * (i + 1) := by ring
        _ ≤ C * size sub := Nat.mul_le_mul_left _ hi
    · intro c c' a b hc hc' ha hb hab
      obtain ⟨i, is, rfl, -, hi⟩ := hs.first a ha
      obtain ⟨j, js, rfl, -, hj⟩ := hs.first b hb
      simp only [headMul, headAdd, List.cons_prefix_cons] at hab
      obtain ⟨h1, h2⟩ := interleave_inj hc hc' hab.1
      exact ⟨h1, hs.free _ ha _ hb (List.cons_prefix_cons.2 ⟨h2, hab.2⟩)⟩
  | .power .blockedLexicographic sub C => by
    have hs := good_indices sub
    simp only [indices, size]
    induction C with
    | zero => simpa using Good.nil 0 0
    | succ C ih =>
      rw [List.range_succ, List.flatMap_append]
      simpa using ih.append (hs.cons C) (by omega) (by omega)
  | .power .blockedInterleaved sub C => by
    have hs := good_indices sub
    simp only [indices, size]
    refine good_interleaved hs (fun c a => a ++ [c]) ?_ ?_
    · intro c a hc ha
      obtain ⟨i, is, rfl, h1, h2⟩ := hs.first a ha
      exact ⟨i, is ++ [c], rfl, h1, h2⟩
    · intro c c' a b hc hc' ha hb hab
      have hab' : a = b := by
        rcases List.prefix_or_prefix_of_prefix ((List.prefix_append a [c]).trans hab) (List.prefix_append b [c']) with h | h
        · exact hs.free a ha b hb h
        · exact (hs.free b hb a ha h).symm
      subst hab'
      have h3 := (List.prefix_append_right_inj a).1 hab
      simp only [List.cons_prefix_cons] at h3
      exact ⟨h3.1, rfl⟩
  | .composite .flat subs => by
    have := good_indicesFlat subs 0
    simpa [indices, size] using this
  | .composite .blocked subs => by
    have := good_indicesBlocked subs 0
    simpa [indices, size] using this
theorem good_indicesFlat : (cs : List PreBasis) → (off : Nat) → Good (indicesFlat cs off) off (off + sizeList cs)
  | [], off => by simpa [indicesFlat, sizeList] using Good.nil off off
  | c :: cs, off => by
    have h1 := (good_indices c).headAdd off
    have h2 := good_indicesFlat cs (off + size c)
    simp only [indicesFlat, sizeList]
    have h3 : off + (size c + sizeList cs) = off + size c + sizeList cs := by omega
    rw [h3]
    rw [Nat.zero_add, Nat.add_comm] at h1
    exact h1.append h2 (by omega) (by omega)
theorem good_indicesBlocked : (cs : List PreBasis) → (k : Nat) → Good (indicesBlocked cs k) k (k + cs.length)
  | [], k => by simpa [indicesBlocked] using Good.nil k k
  | c :: cs, k => by
    have h1 := (good_indices c).cons k
    have h2 := good_indicesBlocked cs (k + 1)
    simp only [indicesBlocked, List.length_cons]
    have h3 : k + (cs.length + 1) = k + 1 + cs.length := by omega
    rw [h3]
    exact h1.append h2 (by omega) (by omega)
end

/-! ### Positions -/

/-- `F` lists the positions of the multi indices `L`. -/
def IsPosition (L F : List MultiIndex) : Prop := F = L.map fun a => [position L a]

theorem cons_lt_of_first {i j : Nat} {is js : MultiIndex} (h : i < j) : i :: is < j :: js :=
  List.cons_lt_cons_iff.2 (Or.inl h)

theorem isPosition_append {A B F G : List MultiIndex} {lo mid hi : Nat} (hA : Good A lo mid) (hB : Good B mid hi)
    (hF : IsPosition A F) (hG : IsPosition B G) : IsPosition (A ++ B) (F ++ G.map (headAdd A.length)) := by
  have hlt : ∀ a ∈ A, ∀ b ∈ B, a < b := by
    intro a ha b hb
    obtain ⟨i, is, rfl, -, h1⟩ := hA.first a ha
    obtain ⟨j, js, rfl, h2, -⟩ := hB.first b hb
    exact cons_lt_of_first (by omega)
  unfold IsPosition at hF hG ⊢
  rw [List.map_append]
  congr 1
  · rw [hF]
    refine List.map_congr_left fun a ha => ?_
    have : B.countP (fun b => decide (b < a)) = 0 := by
      rw [List.countP_eq_zero]
      intro b hb
      simpa using le_of_lt (hlt a ha b hb)
    simp only [position, List.countP_append, this, Nat.add_zero]
  · rw [hG, List.map_map]
    refine List.map_congr_left fun b hb => ?_
    have : A.countP (fun a => decide (a < b)) = A.length := by
      rw [List.countP_eq_length]
      intro a ha
      simpa using hlt a ha b hb
    simp only [position, List.countP_append, this, Function.comp, headAdd]
    rw [Nat.add_comm]

theorem isPosition_map {L F : List MultiIndex} (f : MultiIndex → MultiIndex)
    (hf : ∀ a ∈ L, ∀ b ∈ L, f a < f b ↔ a < b) (hF : IsPosition L F) : IsPosition (L.map f) F := by
  unfold IsPosition at hF ⊢
  rw [hF, List.map_map]
  refine List.map_congr_left fun a ha => ?_
  simp only [position, Function.comp, List.countP_map]
  congr 1
  refine List.countP_congr fun b hb => ?_
  simp [hf b hb a ha]

theorem headAdd_lt {L : List MultiIndex} {lo hi : Nat} (h : Good L lo hi) (k : Nat) :
    ∀ a ∈ L, ∀ b ∈ L, headAdd k a < headAdd k b ↔ a < b := by
  intro a ha b hb
  obtain ⟨i, is, rfl, -, -⟩ := h.first a ha
  obtain ⟨j, js, rfl, -, -⟩ := h.first b hb
  simp [headAdd, List.cons_lt_cons_iff]

theorem sum_interleaved (r c : Nat) (C : Nat) :
    ((List.range C).map fun k => r + if k < c then 1 else 0).sum = r * C + min c C := by
  induction C with
  | zero => simp
  | succ C ih =>
    rw [List.range_succ, List.map_append, List.sum_append, ih]
    simp only [List.map_cons, List.map_nil, List.sum_cons, List.sum_nil, Nat.mul_succ]
    by_cases h : C < c
    · rw [if_pos h]; omega
    · rw [if_neg h]; omega

theorem isPosition_interleaved {A F : List MultiIndex} {lo hi C : Nat} (h : Good A lo hi) (hF : IsPosition A F)
    (g : Nat → MultiIndex → MultiIndex)
    (hg : ∀ c c' a b, c < C → c' < C → a ∈ A → b ∈ A → (g c a < g c' b ↔ a < b ∨ (a = b ∧ c < c'))) :
    IsPosition ((List.range C).flatMap fun c => A.map (g c))
      ((List.range C).flatMap fun c => F.map fun a => headAdd c (headMul C a)) := by
  unfold IsPosition at hF ⊢
  rw [hF, List.map_flatMap]
  refine List.flatMap_congr fun c hc => ?_
  rw [List.map_map, List.map_map]
  refine List.map_congr_left fun a ha => ?_
  have hc' := List.mem_range.1 hc
  simp only [Function.comp, headMul, headAdd, position, List.countP_flatMap]
  have key : ∀ k ∈ List.range C, (A.map (g k)).countP (fun b => decide (b < g c a)) =
      A.countP (fun b => decide (b < a)) + if k < c then 1 else 0 := by
    intro k hk
    rw [List.countP_map]
    have h1 : A.countP ((fun b => decide (b < g c a)) ∘ g k) =
        A.countP (fun b => decide (b < a) || (decide (b = a) && decide (k < c))) := by
      refine List.countP_congr fun b hb => ?_
      simp [hg k c b a (List.mem_range.1 hk) hc' hb ha]
    rw [h1]
    clear h1 hF
    have h2 : ∀ l : List MultiIndex, l.countP (fun b => decide (b < a) || (decide (b = a) && decide (k < c))) =
        l.countP (fun b => decide (b < a)) + if k < c then l.count a else 0 := by
      intro l
      induction l with
      | nil => simp
      | cons b l ih =>
        rw [List.countP_cons, List.countP_cons, ih, List.count_cons]
        by_cases hba : b = a
        · subst hba
          by_cases hk : k < c <;> simp [hk] <;> omega
        · by_cases hlt : b < a
          · simp [hba, hlt]
            by_cases hk : k < c <;> simp [hk] <;> omega
          · simp [hba, hlt]
    rw [h2, List.count_eq_one_of_mem h.nodup ha]
  have key2 : (List.map (List.countP (fun b => decide (b < g c a)) ∘ fun c => List.map (g c) A) (List.range C)).sum =
      ((List.range C).map fun k => A.countP (fun b => decide (b < a)) + if k < c then 1 else 0).sum := by
    congr 1
    exact List.map_congr_left key
  rw [key2, sum_interleaved]
  congr 2
  omega

/-! ### The flat basis -/

mutual
theorem size_flat : (b : PreBasis) → size (flatPreBasis b) = (indices b).length
  | .leaf n => by simp [flatPreBasis, size, indices]
  | .power .flatLexicographic sub C => by
    simp [flatPreBasis, flatIMS, size, indices, size_flat sub, List.length_flatMap]
  | .power .flatInterleaved sub C => by
    simp [flatPreBasis, flatIMS, size, indices, size_flat sub, List.length_flatMap]
  | .power .blockedLexicographic sub C => by
    simp [flatPreBasis, flatIMS, size, indices, size_flat sub, List.length_flatMap]
  | .power .blockedInterleaved sub C => by
    simp [flatPreBasis, flatIMS, size, indices, size_flat sub, List.length_flatMap]
  | .composite .flat subs => by simp [flatPreBasis, flatLexIMS, size, indices, (size_flatList subs 0).1]
  | .composite .blocked subs => by simp [flatPreBasis, flatLexIMS, size, indices, (size_flatList subs 0).2]
theorem size_flatList : (cs : List PreBasis) → (k : Nat) → sizeList (flatPreBasisList cs) = (indicesFlat cs k).length ∧
    sizeList (flatPreBasisList cs) = (indicesBlocked cs k).length
  | [], k => by simp [flatPreBasisList, sizeList, indicesFlat, indicesBlocked]
  | c :: cs, k => by
    constructor
    · simp [flatPreBasisList, sizeList, indicesFlat, size_flat c, (size_flatList cs (k + size c)).1]
    · simp [flatPreBasisList, sizeList, indicesBlocked, size_flat c, (size_flatList cs (k + 1)).2]
end

theorem headAdd_headAdd (a b : Nat) (x : MultiIndex) : headAdd a (headAdd b x) = headAdd (b + a) x := by
  cases x <;> simp [headAdd, Nat.add_assoc]

theorem headAdd_zero (L : List MultiIndex) : L.map (headAdd 0) = L := by
  have : headAdd 0 = id := by funext x; cases x <;> simp [headAdd]
  rw [this, List.map_id]

theorem isPosition_lex {A F : List MultiIndex} {S C : Nat} (h : Good A 0 S) (hF : IsPosition A F)
    (g : Nat → MultiIndex → MultiIndex) (T : Nat) (hgood : ∀ c, Good (A.map (g c)) (c * T) ((c + 1) * T))
    (hg : ∀ c, ∀ a ∈ A, ∀ b ∈ A, g c a < g c b ↔ a < b) :
    IsPosition ((List.range C).flatMap fun c => A.map (g c))
      ((List.range C).flatMap fun c => F.map (headAdd (c * A.length))) ∧
    Good ((List.range C).flatMap fun c => A.map (g c)) 0 (C * T) := by
  induction C with
  | zero => exact ⟨rfl, by simpa using Good.nil 0 0⟩
  | succ C ih =>
    rw [List.range_succ, List.flatMap_append, List.flatMap_append]
    simp only [List.flatMap_cons, List.flatMap_nil, List.append_nil]
    have hl : ((List.range C).flatMap fun c => A.map (g c)).length = C * A.length := by
      simp [List.length_flatMap]
    have h1 := isPosition_append ih.2 (hgood C) ih.1 (isPosition_map (g C) (hg C) hF)
    rw [hl] at h1
    exact ⟨h1, ih.2.append (hgood C) (Nat.zero_le _) (Nat.mul_le_mul_right _ (by omega))⟩

mutual
theorem position_flat : (b : PreBasis) → Supported b → IsPosition (indices b) (indices (flatPreBasis b))
  | .leaf n, _ => by
    unfold IsPosition
    simp only [flatPreBasis, indices, List.map_map]
    refine List.map_congr_left fun i hi => ?_
    simp only [Function.comp, position, List.countP_map]
    have h1 : (List.range n).countP ((fun b => decide (b < [i])) ∘ fun i => [i]) =
        (List.range n).countP (fun k => decide (k < i)) := by
      refine List.countP_congr fun k _ => ?_
      simp [List.cons_lt_cons_iff]
    rw [h1]
    have h2 : ∀ m, (List.range m).countP (fun k => decide (k < i)) = min i m := by
      intro m
      induction m with
      | zero => simp
      | succ m ih =>
        rw [List.range_succ, List.countP_append, ih, List.countP_singleton]
        by_cases hm : m < i <;> simp [hm] <;> omega
    rw [h2]
    have := List.mem_range.1 hi
    congr 1
    omega
  | .power .flatLexicographic sub C, h => by
    simp only [Supported] at h
    have hs := position_flat sub h
    have hg := good_indices sub
    simp only [flatPreBasis, flatIMS, indices]
    rw [size_flat]
    refine (isPosition_lex hg hs (fun c => headAdd (c * size sub)) (size sub) (fun c => ?_) fun c => headAdd_lt hg _).1
    have := hg.headAdd (c * size sub)
    rw [Nat.zero_add] at this
    rw [show (c + 1) * size sub = size sub + c * size sub by ring]
    exact this
  | .power .blockedLexicographic sub C, h => by
    simp only [Supported] at h
    have hs := position_flat sub h
    have hg := good_indices sub
    simp only [flatPreBasis, flatIMS, indices]
    rw [size_flat]
    refine (isPosition_lex hg hs (fun c a => c :: a) 1 (fun c => ?_) fun c a _ b _ => ?_).1
    · have := hg.cons c
      simpa using this
    · simp [List.cons_lt_cons_iff]
  | .power .flatInterleaved sub C, h => by
    simp only [Supported] at h
    obtain ⟨h, h1⟩ := h
    have hs := position_flat sub h
    have hg := good_indices sub
    simp only [flatPreBasis, flatIMS, indices]
    refine isPosition_interleaved hg hs (fun c a => headAdd c (headMul C a)) ?_
    intro c c' a b hc hc' ha hb
    have hl1 := h1 a ha
    have hl2 := h1 b hb
    obtain ⟨i, rfl⟩ := List.length_eq_one_iff.1 hl1
    obtain ⟨j, rfl⟩ := List.length_eq_one_iff.1 hl2
    simp only [headMul, headAdd, List.cons_lt_cons_iff, List.cons.injEq, and_true, lt_self_iff_false, and_false, or_false]
    constructor
    · intro hlt
      rcases lt_trichotomy i j with hij | hij | hij
      · exact Or.inl hij
      · subst hij; exact Or.inr ⟨rfl, by omega⟩
      · exfalso
        have : (j + 1) * C ≤ i * C := Nat.mul_le_mul_right _ hij
        rw [Nat.add_mul] at this
        omega
    · rintro (hij | ⟨rfl, hcc⟩)
      · have : (i + 1) * C ≤ j * C := Nat.mul_le_mul_right _ hij
        rw [Nat.add_mul] at this
        omega
      · omega
  | .power .blockedInterleaved sub C, h => by
    simp only [Supported] at h
    have hs := position_flat sub h
    have hg := good_indices sub
    simp only [flatPreBasis, flatIMS, indices]
    refine isPosition_interleaved hg hs (fun c a => a ++ [c]) ?_
    intro c c' a b hc hc' ha hb
    by_cases hab : a = b
    · subst hab
      rw [append_lt_append_left]
      simp [List.cons_lt_cons_iff]
    · rw [append_lt_append hab (fun h => hab (hg.free a ha b hb h)) fun h => hab (hg.free b hb a ha h).symm]
      simp [hab]
  | .composite .flat subs, h => by
    simp only [Supported] at h
    simpa [flatPreBasis, flatLexIMS, indices, headAdd_zero] using (position_flatList subs h 0 0).1
  | .composite .blocked subs, h => by
    simp only [Supported] at h
    simpa [flatPreBasis, flatLexIMS, indices, headAdd_zero] using (position_flatList subs h 0 0).2
theorem position_flatList : (cs : List PreBasis) → SupportedList cs → (off k : Nat) →
    IsPosition (indicesFlat cs off) (indicesFlat (flatPreBasisList cs) 0) ∧
    IsPosition (indicesBlocked cs k) (indicesFlat (flatPreBasisList cs) 0)
  | [], _, _, _ => ⟨rfl, rfl⟩
  | c :: cs, h, off, k => by
    simp only [SupportedList] at h
    have hc := position_flat c h.1
    have hg := good_indices c
    have hshift : ∀ ds m, indicesFlat ds m = (indicesFlat ds 0).map (headAdd m) := by
      intro ds
      induction ds with
      | nil => intro m; rfl
      | cons d ds ih =>
        intro m
        simp only [indicesFlat, List.map_append, List.map_map]
        rw [ih (m + size d), ih (0 + size d), List.map_map]
        congr 1
        · exact List.map_congr_left fun a _ => by simp [Function.comp, headAdd_headAdd]
        · exact List.map_congr_left fun a _ => by
            simp only [Function.comp, headAdd_headAdd]
            congr 1; omega
    have hlist : indicesFlat (flatPreBasisList (c :: cs)) 0 = indices (flatPreBasis c) ++
        (indicesFlat (flatPreBasisList cs) 0).map (headAdd (indices c).length) := by
      simp only [flatPreBasisList, indicesFlat, headAdd_zero]
      rw [hshift, size_flat, Nat.zero_add]
    rw [hlist]
    constructor
    · have h1 := hg.headAdd off
      rw [Nat.zero_add, Nat.add_comm] at h1
      have := isPosition_append h1 (good_indicesFlat cs (off + size c))
        (isPosition_map (headAdd off) (headAdd_lt hg off) hc) (position_flatList cs h.2 (off + size c) 0).1
      rw [List.length_map] at this
      exact this
    · have := isPosition_append (hg.cons k) (good_indicesBlocked cs (k + 1))
        (isPosition_map (fun a => k :: a) (fun a _ b _ => by simp [List.cons_lt_cons_iff]) hc)
        (position_flatList cs h.2 0 (k + 1)).2
      rw [List.length_map] at this
      exact this
end

mutual
theorem flat_one : (b : PreBasis) → (∀ a ∈ indices (flatPreBasis b), a.length = 1) ∧
    (indices (flatPreBasis b)).length = (indices b).length
  | .leaf n => by simp [flatPreBasis, indices]
  | .power ims sub C => by
    obtain ⟨h1, h2⟩ := flat_one sub
    have hadd : ∀ k a, a ∈ indices (flatPreBasis sub) → (headAdd k a).length = 1 := by
      intro k a ha
      obtain ⟨i, rfl⟩ := List.length_eq_one_iff.1 (h1 a ha)
      rfl
    have hmul : ∀ c k a, a ∈ indices (flatPreBasis sub) → (headAdd k (headMul c a)).length = 1 := by
      intro c k a ha
      obtain ⟨i, rfl⟩ := List.length_eq_one_iff.1 (h1 a ha)
      rfl
    constructor
    · cases ims <;> simp only [flatPreBasis, flatIMS, indices, List.mem_flatMap, List.mem_map]
      all_goals rintro _ ⟨c, -, a, ha, rfl⟩
      · exact hadd _ a ha
      · exact hmul _ _ a ha
      · exact hadd _ a ha
      · exact hmul _ _ a ha
    · cases ims <;> simp [flatPreBasis, flatIMS, indices, List.length_flatMap, h2]
  | .composite ims subs => by
    obtain ⟨h1, h2, h3⟩ := flat_oneList subs 0 0
    constructor
    · cases ims <;> simpa [flatPreBasis, flatLexIMS, indices] using h1
    · cases ims
      · simpa [flatPreBasis, flatLexIMS, indices] using h2
      · simpa [flatPreBasis, flatLexIMS, indices] using h3
theorem flat_oneList : (cs : List PreBasis) → (m k : Nat) →
    (∀ a ∈ indicesFlat (flatPreBasisList cs) m, a.length = 1) ∧
    (indicesFlat (flatPreBasisList cs) m).length = (indicesFlat cs k).length ∧
    (indicesFlat (flatPreBasisList cs) m).length = (indicesBlocked cs k).length
  | [], _, _ => by simp [flatPreBasisList, indicesFlat, indicesBlocked]
  | c :: cs, m, k => by
    obtain ⟨h1, h2⟩ := flat_one c
    simp only [flatPreBasisList, indicesFlat, indicesBlocked, List.length_append, List.length_map, List.mem_append,
      List.mem_map, h2]
    refine ⟨?_, ?_, ?_⟩
    · rintro _ (⟨a, ha, rfl⟩ | ha)
      · obtain ⟨i, rfl⟩ := List.length_eq_one_iff.1 (h1 a ha)
        rfl
      · exact (flat_oneList cs _ k).1 _ ha
    · rw [(flat_oneList cs (m + size (flatPreBasis c)) (k + size c)).2.1]
    · rw [(flat_oneList cs (m + size (flatPreBasis c)) (k + 1)).2.2]
end

/-! ### C77 -/

/-- C77, bijection. For every basis the flat basis has one index per dof, and the indices are a permutation of
`0, ..., n - 1` with `n` the number of dofs, which is the size of the flat basis. -/
theorem flat_bijection (b : PreBasis) :
    (indices (makeBasis b).flat).Perm ((List.range (indices b).length).map fun i => [i]) ∧
    (indices (makeBasis b).flat).length = (indices b).length ∧ size (makeBasis b).flat = (indices b).length := by
  obtain ⟨h1, h2⟩ := flat_one b
  have hg := good_indices (flatPreBasis b)
  refine ⟨?_, h2, size_flat b⟩
  show (indices (flatPreBasis b)).Perm _
  refine (List.subperm_of_subset hg.nodup ?_).perm_of_length_le (by simp [h2])
  intro a ha
  obtain ⟨i, is, rfl, -, hi⟩ := hg.first a ha
  have := h1 _ ha
  simp only [List.length_cons, Nat.add_eq_right, List.length_eq_zero_iff] at this
  subst this
  rw [size_flat] at hi
  exact List.mem_map.2 ⟨i, List.mem_range.2 hi, rfl⟩

/-- C77, what holds: if no basis with blocks is below an interleaving without blocks, the flat index of every dof is its
position in the nested container. -/
theorem flat_keeps_order_partial (b : PreBasis) (h : Supported b) : KeepsOrder b := position_flat b h

/-- C77, the full claim is false of the code: an interleaving without blocks over a basis with blocks. -/
theorem flat_keeps_order_false : ¬ ∀ b, KeepsOrder b := by
  intro h
  exact absurd (h (.power .flatInterleaved (.power .blockedInterleaved (.leaf 2) 2) 2)) (by unfold KeepsOrder; decide)

/-- C77, comparison of dofs: flat indices are ordered as the multi indices, so a flat vector and a nested container list
the dofs in the same order. -/
theorem flat_monotone (b : PreBasis) (h : Supported b) (k l i j : Nat) (x y : MultiIndex)
    (hx : (indices (makeBasis b).untouched)[k]? = some x) (hy : (indices (makeBasis b).untouched)[l]? = some y)
    (hi : (indices (makeBasis b).flat)[k]? = some [i]) (hj : (indices (makeBasis b).flat)[l]? = some [j]) :
    i < j ↔ x < y := by
  have hk := flat_keeps_order_partial b h
  unfold KeepsOrder at hk
  rw [hk, List.getElem?_map, hx] at hi
  rw [hk, List.getElem?_map, hy] at hj
  simp only [Option.map_some, Option.some.injEq, List.cons.injEq, and_true] at hi hj
  subst hi hj
  have mono : ∀ x y : MultiIndex, x ∈ indices (makeBasis b).untouched → x < y →
      position (indices (makeBasis b).untouched) x < position (indices (makeBasis b).untouched) y := by
    intro x y hx hxy
    unfold position
    have hsub : ∀ z, decide (z < x) = true → decide (z < y) = true := by
      intro z hz
      simp only [decide_eq_true_eq] at hz ⊢
      exact lt_trans hz hxy
    have hle := List.countP_mono_left (l := indices (makeBasis b).untouched) fun z _ => hsub z
    refine lt_of_le_of_ne hle fun heq => ?_
    obtain ⟨s, t, hst⟩ := List.append_of_mem hx
    rw [hst, List.countP_append, List.countP_append, List.countP_cons, List.countP_cons] at heq
    have a1 := List.countP_mono_left (l := s) fun z _ => hsub z
    have a2 := List.countP_mono_left (l := t) fun z _ => hsub z
    simp [hxy] at heq
    omega
  have hmx : x ∈ indices (makeBasis b).untouched := List.mem_of_getElem? hx
  have hmy : y ∈ indices (makeBasis b).untouched := List.mem_of_getElem? hy
  constructor
  · intro hlt
    by_contra hn
    rcases lt_or_eq_of_le (not_lt.1 hn) with h1 | h1
    · have := mono y x hmy h1; omega
    · subst h1; omega
  · exact mono x y hmx

mutual
/-- C77, idempotence. A flat basis is left as it is. -/
theorem flat_flat : (b : PreBasis) → flatPreBasis (flatPreBasis b) = flatPreBasis b
  | .leaf n => rfl
  | .power ims sub C => by
    cases ims <;> simp [flatPreBasis, flatIMS, flat_flat sub]
  | .composite ims subs => by
    cases ims <;> simp [flatPreBasis, flatLexIMS, flat_flatList subs]
theorem flat_flatList : (cs : List PreBasis) → flatPreBasisList (flatPreBasisList cs) = flatPreBasisList cs
  | [] => rfl
  | c :: cs => by simp [flatPreBasisList, flat_flat c, flat_flatList cs]
end

/-! ### Example: displacements with three components and a pressure -/

/-- Two nodes with three displacements each, interleaved by blocks, and two pressures. -/
def exampleBasis : PreBasis := .composite .blocked [.power .blockedInterleaved (.leaf 2) 3, .leaf 2]

example : Supported exampleBasis := by simp [exampleBasis, Supported, SupportedList]

example : indices exampleBasis =
    [[0, 0, 0], [0, 1, 0], [0, 0, 1], [0, 1, 1], [0, 0, 2], [0, 1, 2], [1, 0], [1, 1]] := by decide

example : indices (makeBasis exampleBasis).flat = [[0], [3], [1], [4], [2], [5], [6], [7]] := by decide

example : KeepsOrder exampleBasis := flat_keeps_order_partial exampleBasis (by simp [exampleBasis, Supported, SupportedList])

end Ikarus.FlatBasis
