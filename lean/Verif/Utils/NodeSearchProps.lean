import Verif.Utils.NodeSearchModel
import Verif.FE.GatherLemmas
import Mathlib.Tactic.FinCases
import Mathlib.Tactic.IntervalCases
import Mathlib.Tactic.Linarith
import Mathlib.Data.Fin.VecNotation

/-!
Property C82: a node of a Lagrange basis is found by its position.
-/

namespace Ikarus.NodeSearch

variable {d w : Nat}

/-! ### Specification -/

namespace Spec

/-- The position of node `n`. -/
def At (v : View d w) (n : Nat) (p : Fin w → ℝ) : Prop := ∃ x, v.nodes[n]? = some x ∧ p = v.global x

/-- `l` are the global indices of the degrees of freedom of a scalar or power basis at node `n`. -/
def Dofs (t : FETree) (index : List Nat) (n : Nat) (l : List Nat) : Prop :=
  match t with
  | .leaf loc => ∃ k g, loc[n]? = some k ∧ index[k]? = some g ∧ l = [g]
  | .power cs => l.length = cs.length ∧
      ∀ j, j < cs.length → ∃ loc k g, cs[j]? = some (.leaf loc) ∧ loc[n]? = some k ∧ index[k]? = some g ∧ l[j]? = some g
  | .composite _ => False

/-- The part of the basis that is searched: the first child of a composite basis has to be a power basis, see the static
assertions in traversal.hh:54-65. -/
def Searched (t node : FETree) : Prop :=
  (∃ loc, t = .leaf loc ∧ node = t) ∨ (∃ cs, t = .power cs ∧ node = t) ∨ ∃ cs rest, node = .power cs ∧ t = .composite (node :: rest)

/-- `l` are the indices of node `n`. -/
def DofsAt (v : View d w) (n : Nat) (l : List Nat) : Prop := ∃ node, Searched v.tree node ∧ Dofs node v.index n l

/-- Elements with Lagrange nodes: every node lies in its element and has indices; two nodes of an element differ by more than
the tolerance. -/
structure Mesh (tol : ℝ) (views : List (View d w)) : Prop where
  inside : ∀ v ∈ views, ∀ n p, At v n p → v.inside p = true
  dofs : ∀ v ∈ views, ∀ n, n < v.nodes.length → ∃ l, DofsAt v n l
  separated : ∀ v ∈ views, ∀ n n' p p', At v n p → At v n' p' → close tol p p' → n = n'

/-- Elements that meet do so in common nodes. -/
def Conforming (views : List (View d w)) : Prop :=
  ∀ v ∈ views, ∀ v' ∈ views, ∀ n p, At v n p → v'.inside p = true →
    ∃ n', At v' n' p ∧ ∀ l, DofsAt v n l → DofsAt v' n' l

/-- The full claim: every node of a mesh is found at its position. -/
def Found : Prop :=
  ∀ (d w : Nat) (views : List (View d w)), Mesh (1 / 10 ^ 8) views → ∀ v ∈ views, ∀ n p l, At v n p → DofsAt v n l →
    globalIndexFromGlobalPosition views p = .ok l

end Spec

/-! ### Lemmas -/

theorem writeCoordinate_map (i : Fin d) (nodes : List (Fin d → ℝ)) (g : (Fin d → ℝ) → Fin d → ℝ) :
    writeCoordinate i (interpolate nodes fun x => x i) (nodes.map g) = nodes.map fun x => Function.update (g x) i (x i) := by
  induction nodes with
  | nil => rfl
  | cons a as ih =>
    simp only [writeCoordinate, interpolate, List.map_cons, List.zipWith_cons_cons] at ih ⊢
    rw [ih]

theorem foldl_writeCoordinate (is : List (Fin d)) (nodes : List (Fin d → ℝ)) (g : (Fin d → ℝ) → Fin d → ℝ) :
    is.foldl (fun coords i => writeCoordinate i (interpolate nodes fun x => x i) coords) (nodes.map g) =
      nodes.map fun x j => if j ∈ is then x j else g x j := by
  induction is generalizing g with
  | nil => simp
  | cons i is ih =>
    rw [List.foldl_cons, writeCoordinate_map, ih]
    refine List.map_congr_left fun x _ => ?_
    funext j
    by_cases h : j = i
    · subst h; simp
    · simp [h]

/-- C82. The traversal visits the Lagrange nodes, in their order. -/
theorem nodeCoordinates_eq (nodes : List (Fin d → ℝ)) : nodeCoordinates nodes = nodes := by
  have h : List.replicate nodes.length (0 : Fin d → ℝ) = nodes.map fun _ => 0 := by simp
  rw [nodeCoordinates, h, foldl_writeCoordinate]
  simp

theorem loop_search {P : (Fin d → ℝ) → Prop} [DecidablePred P] {β : Type} (g : Nat → β) (cs : List (Fin d → ℝ)) (n : Nat) :
    loop (fun n c (s : Option β) => if P c then (true, some (g n)) else (false, s)) n cs none =
      (cs.findIdx? (fun c => decide (P c))).map fun k => g (n + k) := by
  induction cs generalizing n with
  | nil => rfl
  | cons c cs ih =>
    rw [loop, List.findIdx?_cons]
    by_cases h : P c
    · simp [h]
    · simp only [h, if_false, decide_false, Bool.false_eq_true, ih, Option.map_map]
      congr 1
      funext k
      simp only [Function.comp]
      congr 1
      omega

theorem indices_iff (v : View d w) (n : Nat) (l : List Nat) (hs : ∃ node, Spec.Searched v.tree node) :
    indices? v n = some l ↔ Spec.DofsAt v n l := by
  have hpow : ∀ (cs : List FETree) (t : FETree), v.tree = t → node? t = some (.power cs) → isScalar t = false →
      numChildren t = cs.length → (indices? v n = some l ↔ Spec.Dofs (.power cs) v.index n l) := by
    intro cs t ht h1 h2 h3
    rw [indices?, ht, h1, h2, h3]
    simp only [Option.bind_some, Bool.false_eq_true, if_false, mapOpt_range, Spec.Dofs]
    refine and_congr_right fun hl => forall₂_congr fun j hj => ?_
    constructor
    · intro h
      rw [List.getElem?_eq_getElem (hl ▸ hj), FETree.nodeIndex?] at h
      obtain ⟨c, hc, h⟩ := Option.bind_eq_some_iff.1 h
      obtain ⟨k, hk, hv⟩ := Option.bind_eq_some_iff.1 h
      cases c with
      | leaf loc => exact ⟨loc, k, _, hc, hk, hv, List.getElem?_eq_getElem _⟩
      | power _ => simp [FETree.leafIndex?] at hk
      | composite _ => simp [FETree.leafIndex?] at hk
    · rintro ⟨loc, k, g, hc, hk, hg, hlj⟩
      have hc' : (FETree.power cs).child? j = some (.leaf loc) := hc
      have hk' : (FETree.leaf loc).leafIndex? n = some k := hk
      rw [FETree.nodeIndex?, hc', Option.bind_some, hk', Option.bind_some, hg, hlj]
  obtain ⟨node, h | ⟨cs, h, h'⟩ | ⟨cs, rest, h, h'⟩⟩ := hs
  · obtain ⟨loc, h, -⟩ := h
    have : indices? v n = some l ↔ Spec.Dofs (.leaf loc) v.index n l := by
      rw [indices?, h]
      simp only [node?, isScalar, if_true, Option.bind_some, FETree.leafIndex?, Spec.Dofs, Option.map_eq_some_iff,
        Option.bind_eq_some_iff]
      constructor
      · rintro ⟨a, ⟨k, hk, ha⟩, rfl⟩; exact ⟨k, a, hk, ha, rfl⟩
      · rintro ⟨k, a, hk, ha, rfl⟩; exact ⟨a, ⟨k, hk, ha⟩, rfl⟩
    rw [this]
    constructor
    · exact fun hd => ⟨.leaf loc, .inl ⟨loc, h, h.symm⟩, hd⟩
    · rintro ⟨m, ⟨loc', h1, h2⟩ | ⟨cs, h1, h2⟩ | ⟨cs, rest, h1, h2⟩, hd⟩
      · rw [h2, h] at hd; exact hd
      · rw [h] at h1; cases h1
      · rw [h] at h2; cases h2
  · rw [hpow cs _ h rfl rfl rfl]
    constructor
    · exact fun hd => ⟨.power cs, .inr (.inl ⟨cs, h, h.symm⟩), hd⟩
    · rintro ⟨m, ⟨loc', h1, h2⟩ | ⟨cs', h1, h2⟩ | ⟨cs', rest, h1, h2⟩, hd⟩
      · rw [h] at h1; cases h1
      · rw [h2, h] at hd; exact hd
      · rw [h] at h2; cases h2
  · subst h
    rw [hpow cs _ h' rfl rfl rfl]
    constructor
    · exact fun hd => ⟨.power cs, .inr (.inr ⟨cs, rest, rfl, h'⟩), hd⟩
    · rintro ⟨m, ⟨loc', h1, h2⟩ | ⟨cs', h1, h2⟩ | ⟨cs', rest', h1, h2⟩, hd⟩
      · rw [h'] at h1; cases h1
      · rw [h'] at h1; cases h1
      · rw [h'] at h2
        injection h2 with h2
        rw [← (List.cons.inj h2).1] at hd
        exact hd

/-! ### The properties -/

/-- C82. The positions of the nodes are appended in their order, for every number of nodes. -/
theorem globalNodePositions_eq (v : View d w) (coords : List (Fin w → ℝ)) :
    globalNodePositions v coords = coords ++ v.nodes.map v.global := by
  rw [globalNodePositions, forEachNode, nodeCoordinates_eq]
  generalize 0 = n
  induction v.nodes generalizing n coords with
  | nil => simp [loop]
  | cons c cs ih => simp [loop, ih]

/-- C82, decision. What the search returns, for every list of elements and every position: the first element that contains the
position is taken, and of this element the first node within the tolerance. -/
theorem search_iff {views : List (View d w)} (hs : ∀ v ∈ views, ∃ node, Spec.Searched v.tree node) (pos : Fin w → ℝ) :
    (globalIndexFromGlobalPosition views pos = .error .gridError ↔ ∀ v ∈ views, v.inside pos = false) ∧
    ∀ pre v post, views = pre ++ v :: post → (∀ v' ∈ pre, v'.inside pos = false) → v.inside pos = true →
      (globalIndexFromGlobalPosition views pos = .error .invalidState ↔ ∀ n p, Spec.At v n p → ¬ close (1 / 10 ^ 8) p pos) ∧
      ∀ l, globalIndexFromGlobalPosition views pos = .ok l ↔
        ∃ n p, Spec.At v n p ∧ close (1 / 10 ^ 8) p pos ∧
          (∀ n' p', n' < n → Spec.At v n' p' → ¬ close (1 / 10 ^ 8) p' pos) ∧ Spec.DofsAt v n l := by
  classical
  have hval : ∀ v : View d w, views.find? (·.inside pos) = some v → globalIndexFromGlobalPosition views pos =
      match (v.nodes.findIdx? fun c => decide (close (1 / 10 ^ 8) (v.global c) pos)).map (indices? v) with
      | none => .error .invalidState
      | some none => .error .undefined
      | some (some l) => .ok l := by
    intro v hv
    have := loop_search (P := fun c => close (1 / 10 ^ 8) (v.global c) pos) (indices? v) v.nodes 0
    simp only [Nat.zero_add] at this
    simp only [globalIndexFromGlobalPosition, hv, forEachNode, nodeCoordinates_eq]
    rw [← this]
    congr!
  constructor
  · constructor
    · intro h
      cases hf : views.find? (·.inside pos) with
      | none => simpa using hf
      | some v =>
        exfalso
        rw [hval v hf] at h
        split at h <;> cases h
    · intro h
      have : views.find? (·.inside pos) = none := by simpa using h
      simp [globalIndexFromGlobalPosition, this]
  · intro pre v post hv hpre hin
    have hf : views.find? (·.inside pos) = some v := by
      rw [hv, List.find?_append]
      have : pre.find? (·.inside pos) = none := by simpa using hpre
      simp [this, hin]
    rw [hval v hf]
    have hd := fun n l => indices_iff v n l (hs v (by rw [hv]; simp))
    cases hi : v.nodes.findIdx? fun c => decide (close (1 / 10 ^ 8) (v.global c) pos) with
    | none =>
      have hn : ∀ n p, Spec.At v n p → ¬ close (1 / 10 ^ 8) p pos := by
        rintro n p ⟨x, hx, rfl⟩
        have := List.findIdx?_eq_none_iff.1 hi x (List.mem_of_getElem? hx)
        simpa using this
      refine ⟨⟨fun _ => hn, fun _ => rfl⟩, fun l => ⟨fun h => (by cases h), ?_⟩⟩
      rintro ⟨n, p, h1, h2, -⟩
      exact (hn n p h1 h2).elim
    | some n =>
      obtain ⟨hlt, hp, hfirst⟩ := List.findIdx?_eq_some_iff_getElem.1 hi
      have hat : Spec.At v n (v.global v.nodes[n]) := ⟨_, List.getElem?_eq_getElem hlt, rfl⟩
      have hcl : close (1 / 10 ^ 8) (v.global v.nodes[n]) pos := by simpa using hp
      have hfst : ∀ n' p', n' < n → Spec.At v n' p' → ¬ close (1 / 10 ^ 8) p' pos := by
        rintro n' p' hn' ⟨x, hx, rfl⟩
        have := hfirst n' hn'
        obtain ⟨h1, h2⟩ := List.getElem?_eq_some_iff.1 hx
        rw [← h2]
        simpa using this
      have key : ∀ l, (∃ n p, Spec.At v n p ∧ close (1 / 10 ^ 8) p pos ∧
          (∀ n' p', n' < n → Spec.At v n' p' → ¬ close (1 / 10 ^ 8) p' pos) ∧ Spec.DofsAt v n l) ↔ indices? v n = some l := by
        intro l
        constructor
        · rintro ⟨n', p', h1, h2, h3, h4⟩
          have : n' = n := by
            rcases Nat.lt_trichotomy n' n with h | h | h
            · exact (hfst n' p' h h1 h2).elim
            · exact h
            · exact (h3 n _ h hat hcl).elim
          subst this
          exact (hd _ _).2 h4
        · exact fun h => ⟨n, _, hat, hcl, hfst, (hd _ _).1 h⟩
      constructor
      · constructor
        · intro h
          simp only [Option.map_some] at h
          split at h <;> simp_all
        · exact fun h => (h n _ hat hcl).elim
      · intro l
        rw [key]
        simp only [Option.map_some]
        cases indices? v n <;> simp

/-- C82, part that holds. If elements meet in common nodes, every node is found at its position, whichever element the search
hits, with the indices of all components. -/
theorem search_found_partial {views : List (View d w)} (hm : Spec.Mesh (1 / 10 ^ 8) views) (hc : Spec.Conforming views)
    (hs : ∀ v ∈ views, ∃ node, Spec.Searched v.tree node) {v : View d w} (hv : v ∈ views) {n : Nat} {p : Fin w → ℝ}
    {l : List Nat} (hp : Spec.At v n p) (hl : Spec.DofsAt v n l) :
    globalIndexFromGlobalPosition views p = .ok l := by
  have hin := hm.inside v hv n p hp
  cases hf : views.find? (·.inside p) with
  | none =>
    have := List.find?_eq_none.1 hf v hv
    simp [hin] at this
  | some e =>
    obtain ⟨he, pre, post, hsplit, hpre⟩ := List.find?_eq_some_iff_append.1 hf
    have hmem : e ∈ views := by rw [hsplit]; simp
    obtain ⟨n', hat, hd⟩ := hc v hv e hmem n p hp he
    have h := (search_iff hs p).2 pre e post hsplit (by simpa using hpre) he
    refine (h.2 l).2 ⟨n', p, hat, fun i => by simp, ?_, hd l hl⟩
    intro n'' p'' hlt hat'' hcl
    have := hm.separated e hmem n'' n' p'' p hat'' hat hcl
    omega

/-- C82. What is returned belongs to a node within the tolerance of the position. -/
theorem search_sound {views : List (View d w)} (hs : ∀ v ∈ views, ∃ node, Spec.Searched v.tree node) {pos : Fin w → ℝ}
    {l : List Nat} (h : globalIndexFromGlobalPosition views pos = .ok l) :
    ∃ v ∈ views, v.inside pos = true ∧ ∃ n p, Spec.At v n p ∧ close (1 / 10 ^ 8) p pos ∧ Spec.DofsAt v n l := by
  cases hf : views.find? (·.inside pos) with
  | none => simp [globalIndexFromGlobalPosition, hf] at h
  | some e =>
    obtain ⟨he, pre, post, hsplit, hpre⟩ := List.find?_eq_some_iff_append.1 hf
    obtain ⟨n, p, h1, h2, -, h3⟩ := (((search_iff hs pos).2 pre e post hsplit (by simpa using hpre) he).2 l).1 h
    exact ⟨e, by rw [hsplit]; simp, he, n, p, h1, h2, h3⟩

/-! ### Squares with four nodes -/

/-- A square with corner `(a, b)` and side `s`, two degrees of freedom at each of the corners. -/
noncomputable def square (a b s : ℝ) (index : List Nat) : View 2 2 where
  global x := ![a + s * x 0, b + s * x 1]
  inside p := decide (a ≤ p 0 ∧ p 0 ≤ a + s ∧ b ≤ p 1 ∧ p 1 ≤ b + s)
  nodes := [![0, 0], ![1, 0], ![0, 1], ![1, 1]]
  tree := .power [.leaf [0, 1, 2, 3], .leaf [4, 5, 6, 7]]
  index := index

theorem square_at {a b s : ℝ} {index : List Nat} {n : Nat} {p : Fin 2 → ℝ} : Spec.At (square a b s index) n p ↔
    (n = 0 ∧ p = ![a, b]) ∨ (n = 1 ∧ p = ![a + s, b]) ∨ (n = 2 ∧ p = ![a, b + s]) ∨ (n = 3 ∧ p = ![a + s, b + s]) := by
  match n with
  | 0 => simp [Spec.At, square]
  | 1 => simp [Spec.At, square]
  | 2 => simp [Spec.At, square]
  | 3 => simp [Spec.At, square]
  | n + 4 => simp [Spec.At, square]

theorem square_searched (a b s : ℝ) (index : List Nat) : ∃ node, Spec.Searched (square a b s index).tree node :=
  ⟨_, .inr (.inl ⟨_, rfl, rfl⟩)⟩

theorem square_dofs {a b s : ℝ} {index : List Nat} {n : Nat} (h : index.length = 8) (hn : n < 4) :
    Spec.DofsAt (square a b s index) n [index[n], index[4 + n]] := by
  refine ⟨_, .inr (.inl ⟨_, rfl, rfl⟩), rfl, fun j hj => ?_⟩
  have hj' : j < 2 := hj
  interval_cases j
  · interval_cases n <;> exact ⟨_, _, _, rfl, rfl, List.getElem?_eq_getElem (by change _ < index.length; omega), rfl⟩
  · interval_cases n <;> exact ⟨_, _, _, rfl, rfl, List.getElem?_eq_getElem (by change _ < index.length; omega), rfl⟩

theorem squares_mesh {views : List (View 2 2)}
    (h : ∀ v ∈ views, ∃ a b s index, v = square a b s index ∧ 1 ≤ s ∧ index.length = 8) : Spec.Mesh (1 / 10 ^ 8) views where
  inside := by
    intro v hv n p hp
    obtain ⟨a, b, s, index, rfl, hs, -⟩ := h v hv
    rcases square_at.1 hp with ⟨-, rfl⟩ | ⟨-, rfl⟩ | ⟨-, rfl⟩ | ⟨-, rfl⟩ <;> simp [square] <;> linarith
  dofs := by
    intro v hv n hn
    obtain ⟨a, b, s, index, rfl, -, hl⟩ := h v hv
    exact ⟨_, square_dofs hl hn⟩
  separated := by
    intro v hv n n' p p' hp hp' hc
    obtain ⟨a, b, s, index, rfl, hs, -⟩ := h v hv
    have h0 := abs_le.1 (hc 0)
    have h1 := abs_le.1 (hc 1)
    rcases square_at.1 hp with ⟨rfl, rfl⟩ | ⟨rfl, rfl⟩ | ⟨rfl, rfl⟩ | ⟨rfl, rfl⟩ <;>
      rcases square_at.1 hp' with ⟨rfl, rfl⟩ | ⟨rfl, rfl⟩ | ⟨rfl, rfl⟩ | ⟨rfl, rfl⟩ <;>
      first
      | rfl
      | (exfalso
         norm_num at h0 h1
         first | linarith [h0.1] | linarith [h0.2] | linarith [h1.1])

/-- C82. The full claim is false: where a large and a small element meet, the search may hit the large one, which has no node at
the position, and an exception is thrown although the node exists. -/
theorem found_false : ¬ Spec.Found := by
  intro h
  let idx : List Nat := [0, 1, 2, 3, 4, 5, 6, 7]
  let idx' : List Nat := [1, 8, 9, 10, 5, 11, 12, 13]
  let views := [square 0 0 2 idx, square 2 0 1 idx']
  have hm : Spec.Mesh (1 / 10 ^ 8) views := squares_mesh (by
    intro v hv
    rcases List.mem_cons.1 hv with rfl | hv
    · exact ⟨_, _, _, _, rfl, by norm_num, rfl⟩
    · rw [List.mem_singleton.1 hv]; exact ⟨_, _, _, _, rfl, le_refl _, rfl⟩)
  have hs : ∀ v ∈ views, ∃ node, Spec.Searched v.tree node := by
    intro v hv
    rcases List.mem_cons.1 hv with rfl | hv
    · exact square_searched _ _ _ _
    · rw [List.mem_singleton.1 hv]; exact square_searched _ _ _ _
  have h1 := h 2 2 views hm (square 2 0 1 idx') (by simp [views]) 2 _ _ (square_at.2 (.inr (.inr (.inl ⟨rfl, rfl⟩))))
    (square_dofs rfl (by norm_num))
  have h2 := (((search_iff hs ![2, 0 + 1]).2 [] (square 0 0 2 idx) [square 2 0 1 idx'] rfl (by simp)
    (by simp [square])).1).2 (by
      intro n p hp hc
      have h0 := abs_le.1 (hc 0)
      have h1 := abs_le.1 (hc 1)
      rcases square_at.1 hp with ⟨rfl, rfl⟩ | ⟨rfl, rfl⟩ | ⟨rfl, rfl⟩ | ⟨rfl, rfl⟩ <;> revert h0 h1 <;> norm_num)
  rw [h2] at h1
  cases h1

/-- Two squares with a common side: the hypotheses of `search_found_partial` hold and a node of the second square is found,
although the search hits the first square. -/
example : globalIndexFromGlobalPosition [square 0 0 1 [0, 1, 2, 3, 4, 5, 6, 7], square 1 0 1 [1, 8, 3, 9, 5, 10, 7, 11]]
    ![1, 0 + 1] = .ok [3, 7] := by
  let views := [square 0 0 1 [0, 1, 2, 3, 4, 5, 6, 7], square 1 0 1 [1, 8, 3, 9, 5, 10, 7, 11]]
  have hall : ∀ v ∈ views, v = square 0 0 1 [0, 1, 2, 3, 4, 5, 6, 7] ∨ v = square 1 0 1 [1, 8, 3, 9, 5, 10, 7, 11] := by
    intro v hv
    simpa [views] using hv
  have hm : Spec.Mesh (1 / 10 ^ 8) views := squares_mesh (by
    intro v hv
    rcases hall v hv with rfl | rfl <;> exact ⟨_, _, _, _, rfl, le_refl _, rfl⟩)
  have hs : ∀ v ∈ views, ∃ node, Spec.Searched v.tree node := by
    intro v hv
    rcases hall v hv with rfl | rfl <;> exact square_searched _ _ _ _
  have huniq : ∀ (v : View 2 2) n l l', (∃ node, Spec.Searched v.tree node) → Spec.DofsAt v n l → Spec.DofsAt v n l' → l = l' := by
    intro v n l l' hn h h'
    have a := (indices_iff v n l hn).2 h
    rw [(indices_iff v n l' hn).2 h'] at a
    exact (Option.some.inj a).symm
  have hc : Spec.Conforming views := by
    intro v hv v' hv' n p hp hin
    rcases hall v hv with rfl | rfl <;> rcases hall v' hv' with rfl | rfl
    · exact ⟨n, hp, fun l hl => hl⟩
    · rcases square_at.1 hp with ⟨rfl, rfl⟩ | ⟨rfl, rfl⟩ | ⟨rfl, rfl⟩ | ⟨rfl, rfl⟩
      · exfalso; norm_num [square] at hin
      · refine ⟨0, square_at.2 (.inl ⟨rfl, by norm_num⟩), fun l hl => ?_⟩
        rw [huniq _ _ _ _ (hs _ hv) hl (square_dofs rfl (by norm_num))]
        exact square_dofs rfl (by norm_num)
      · exfalso; norm_num [square] at hin
      · refine ⟨2, square_at.2 (.inr (.inr (.inl ⟨rfl, by norm_num⟩))), fun l hl => ?_⟩
        rw [huniq _ _ _ _ (hs _ hv) hl (square_dofs rfl (by norm_num))]
        exact square_dofs rfl (by norm_num)
    · rcases square_at.1 hp with ⟨rfl, rfl⟩ | ⟨rfl, rfl⟩ | ⟨rfl, rfl⟩ | ⟨rfl, rfl⟩
      · refine ⟨1, square_at.2 (.inr (.inl ⟨rfl, by norm_num⟩)), fun l hl => ?_⟩
        rw [huniq _ _ _ _ (hs _ hv) hl (square_dofs rfl (by norm_num))]
        exact square_dofs rfl (by norm_num)
      · exfalso; norm_num [square] at hin
      · refine ⟨3, square_at.2 (.inr (.inr (.inr ⟨rfl, by norm_num⟩))), fun l hl => ?_⟩
        rw [huniq _ _ _ _ (hs _ hv) hl (square_dofs rfl (by norm_num))]
        exact square_dofs rfl (by norm_num)
      · exfalso; norm_num [square] at hin
    · exact ⟨n, hp, fun l hl => hl⟩
  exact search_found_partial hm hc hs (v := square 1 0 1 [1, 8, 3, 9, 5, 10, 7, 11]) (by simp [views])
    (square_at.2 (.inr (.inr (.inl ⟨rfl, rfl⟩)))) (square_dofs rfl (by norm_num))

end Ikarus.NodeSearch
