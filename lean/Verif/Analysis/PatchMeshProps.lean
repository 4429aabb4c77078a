import Verif.FE.PatchProps
import Verif.FE.EASGaussProps
import Verif.Analysis.UnloadingProps
import Verif.Analysis.NonlinearProps

/-!
C104, structures: a mesh of distorted quadrilaterals reproduces every homogeneous state exactly.
-/

namespace Ikarus

open Matrix Element Element.Spec

/-! ### Specification -/

/-- An element with the geometry it was given: the positions of its nodes and its integration points. -/
structure Spec.Tile (d : Nat) where
  n : Nat
  children : List FETree
  index : List Nat
  skills : List (Skill n d)
  X : NodeVec n d
  pts : List (Element.Spec.GradientPoint n d)

/-- The element itself. -/
def Spec.Tile.elem {d : Nat} (t : Spec.Tile d) : Elem := ⟨t.n, d, t.children, t.index, t.skills⟩

/-- The elements fill the domain without gaps: a displacement field that vanishes on the supports has no mean gradient. -/
def Spec.DivergenceFree {d : Nat} (flags : List Bool) (tiles : List (Spec.Tile d)) : Prop :=
  ∀ w : List ℝ, w.length = flags.length → (∀ i : Nat, flags[i]? = some true → w[i]? = some 0) →
    ∃ ws : (t : Spec.Tile d) → NodeVec t.n d, (∀ t ∈ tiles, t.elem.local? w = some (ws t)) ∧
      ∀ a j, (tiles.map fun t => ∑ I, ws t I a * integralGradient t.pts I j).sum = 0

/-- The element finds itself in the homogeneous state with the displacement gradient `G`, where its stress (first
Piola-Kirchhoff) is `T`. -/
def Spec.Homogeneous {d : Nat} (x : List ℝ) (c : Fin d → ℝ) (G T : Matrix (Fin d) (Fin d) ℝ) (t : Spec.Tile d) : Prop :=
  t.elem.local? x = some (affine c G t.X) ∧ Mixin.calculateVector (affine c G t.X) t.skills 0 = some (uniformForces t.pts T)

/-! ### Lemmas -/

theorem rawVector_of_vectors {β : Type*} {flags : List Bool} (l : List β) (el : β → Elem)
    (hfit : ∀ b ∈ l, Spec.ElemFits flags.length (el b)) {y : List ℝ}
    (hy : y.length = flags.length) (F : (b : β) → NodeVec (el b).n (el b).d)
    (hF : ∀ b ∈ l, ∀ u, (el b).local? y = some u → Mixin.calculateVector u (el b).skills 0 = some (F b)) :
    ∃ v, (System.mk flags (l.map el)).rawVector? y = some v ∧ v.length = flags.length ∧ ∀ w : List ℝ, w.length = flags.length →
      Spec.dotL v w = (l.map fun b => (((el b).local? w).map (work (F b))).getD 0).sum := by
  have hd : ∀ b ∈ l, (el b).dofs? = some ((el b).dofs?.getD []) ∧ (∀ i ∈ (el b).dofs?.getD [], i < flags.length) ∧
      ∀ x : List ℝ, x.length = flags.length → ((el b).dofs?.getD []).length = (el b).n * (el b).d ∧
        ∃ X, FETree.localSolution (el b).children.length x (el b).index (.power (el b).children) none = some X ∧
          (el b).local? x = some (gathered (el b).n (el b).d ((el b).dofs?.getD []) x) ∧
          X.flatten = Elem.flat (gathered (el b).n (el b).d ((el b).dofs?.getD []) x) := fun b hb => by
    obtain ⟨h1, h2, dofs, h3, h4⟩ := hfit b hb
    rw [h3]
    exact ⟨rfl, h4, fun x hx => local_eq h1 h2 h3 h4 x hx⟩
  have hv : mapOpt (·.vector? y) (l.map el) = some (l.map fun b => ⟨(el b).dofs?.getD [], Elem.flat (F b)⟩) :=
    mapOpt_map (fun e : Elem => e.vector? y) el (fun b => ⟨(el b).dofs?.getD [], Elem.flat (F b)⟩) l
      fun b hb => by
        obtain ⟨h1, -, h2⟩ := hd b hb
        obtain ⟨-, X, -, hl, -⟩ := h2 y hy
        unfold Elem.vector?
        rw [h1, Option.bind_some, hl, Option.bind_some, hF b hb _ hl, Option.map_some]
        rfl
  unfold System.rawVector?
  rw [hv, Option.bind_some]
  obtain ⟨v, hv⟩ := (rawVector_defined_iff (Assembler.create flags)
    (l.map fun b => ⟨(el b).dofs?.getD [], Elem.flat (F b)⟩)).2 (by
      intro e he
      obtain ⟨r, hr, rfl⟩ := List.mem_map.1 he
      exact ⟨by rw [flat_length, ((hd r hr).2.2 y hy).1], (hd r hr).2.1⟩)
  refine ⟨v, hv, (rawVector_eq_sum _ _ v hv).1, fun w hw => ?_⟩
  have := assembly_adjoint_vector (Assembler.create flags) w v
    (l.map fun b => ⟨(el b).index, (el b).children, Elem.flat (F b), .zero 0 0, (el b).dofs?.getD [],
      Elem.flat (gathered (el b).n (el b).d ((el b).dofs?.getD []) w)⟩) hw (by
      intro e he
      obtain ⟨r, hr, rfl⟩ := List.mem_map.1 he
      obtain ⟨h1, X, hX, -, hfl⟩ := (hd r hr).2.2 w hw
      exact ⟨(hd r hr).1, ⟨X, hX, hfl.symm⟩, by rw [flat_length, h1]⟩) (by rw [List.map_map]; exact hv)
  rw [this, List.map_map]
  congr 1
  refine List.map_congr_left fun b hb => ?_
  obtain ⟨-, X, -, hl, -⟩ := (hd b hb).2.2 w hw
  rw [hl, Option.map_some, Option.getD_some]
  exact dotL_flat _ _

/-- The vector that is one at position `i` only. -/
theorem unit_list (m i : Nat) (hi : i < m) : ∃ w : List ℝ, w.length = m ∧ (∀ k < m, w[k]? = some (if k = i then 1 else 0)) ∧
    ∀ r : List ℝ, r.length = m → Spec.dotL r w = r.getD i 0 := by
  refine ⟨(List.range m).map fun k => if k = i then 1 else 0, by simp, fun k hk => by simp [hk], fun r hr => ?_⟩
  rw [dotL_eq_sum _ _ m hr (by simp)]
  have : ∀ k ∈ Finset.range m, r.getD k 0 * ((List.range m).map fun k => if k = i then (1 : ℝ) else 0).getD k 0 =
      if k = i then r.getD k 0 else 0 := fun k hk => by
    have : k < m := Finset.mem_range.1 hk
    have h2 : ((List.range m).map fun k => if k = i then (1 : ℝ) else 0).getD k 0 = if k = i then 1 else 0 := by
      rw [List.getD_eq_getElem?_getD]
      simp [this]
    rw [h2]
    split <;> simp
  rw [Finset.sum_congr rfl this]
  simp [hi]

theorem work_uniformForces {n d : Nat} (pts : List (Element.Spec.GradientPoint n d)) (T : Matrix (Fin d) (Fin d) ℝ)
    (w : NodeVec n d) :
    work (uniformForces pts T) w = ∑ a, ∑ j, T a j * ∑ I, w I a * integralGradient pts I j := by
  unfold work uniformForces
  rw [Finset.sum_comm]
  refine Finset.sum_congr rfl fun a _ => ?_
  simp only [Matrix.mulVec, dotProduct, Finset.sum_mul, Finset.mul_sum]
  rw [Finset.sum_comm]
  exact Finset.sum_congr rfl fun j _ => Finset.sum_congr rfl fun I _ => by ring

theorem list_sum_finset_sum {β ι : Type*} (S : Finset ι) (l : List β) (f : β → ι → ℝ) :
    (l.map fun b => ∑ i ∈ S, f b i).sum = ∑ i ∈ S, (l.map fun b => f b i).sum := by
  induction l with
  | nil => simp
  | cons b l ih => simp only [List.map_cons, List.sum_cons, ih, Finset.sum_add_distrib]

theorem list_sum_mul_left' {β : Type*} (l : List β) (k : ℝ) (f : β → ℝ) : (l.map fun b => k * f b).sum = k * (l.map f).sum := by
  induction l with
  | nil => simp
  | cons b l ih => simp only [List.map_cons, List.sum_cons, ih, mul_add]

/-! ### Theorems -/

/-- C104, structures. If the elements fill the domain without gaps and all of them find themselves in the same homogeneous
state, the structure is in equilibrium: no forces remain at the free dofs. -/
theorem patch_equilibrium {d : Nat} (flags : List Bool) (tiles : List (Spec.Tile d))
    (hfit : ∀ t ∈ tiles, Spec.ElemFits flags.length t.elem) (hdiv : Spec.DivergenceFree flags tiles) {x : List ℝ}
    (hx : x.length = flags.length) (c : Fin d → ℝ) (G T : Matrix (Fin d) (Fin d) ℝ)
    (hh : ∀ t ∈ tiles, Spec.Homogeneous x c G T t) :
    ∃ r, (System.mk flags (tiles.map (·.elem))).rawVector? x = some r ∧ r.length = flags.length ∧
      ∀ i < flags.length, flags[i]? = some false → r.getD i 0 = 0 := by
  obtain ⟨r, h1, h2, h3⟩ := rawVector_of_vectors tiles (·.elem) hfit hx (fun t => uniformForces t.pts T) fun t ht u hu => by
    obtain ⟨g1, g2⟩ := hh t ht
    obtain rfl : affine c G t.X = u := Option.some.inj (g1.symm.trans hu)
    exact g2
  refine ⟨r, h1, h2, fun i hi hf => ?_⟩
  obtain ⟨w, w1, w2, w3⟩ := unit_list flags.length i hi
  rw [← w3 r h2, h3 w w1]
  obtain ⟨ws, k1, k2⟩ := hdiv w w1 fun k hk => by
    rw [w2 k (List.getElem?_eq_some_iff.1 hk).1, if_neg]
    rintro rfl
    rw [hf] at hk
    cases hk
  have : ∀ t ∈ tiles, ((t.elem.local? w).map (work (uniformForces t.pts T))).getD 0 =
      ∑ a, ∑ j, T a j * ∑ I, ws t I a * integralGradient t.pts I j := fun t ht => by
    rw [k1 t ht, Option.map_some, Option.getD_some]
    exact work_uniformForces _ _ _
  refine (congrArg List.sum (List.map_congr_left this)).trans ?_
  rw [list_sum_finset_sum]
  refine Finset.sum_eq_zero fun a _ => ?_
  rw [list_sum_finset_sum]
  refine Finset.sum_eq_zero fun j _ => ?_
  rw [list_sum_mul_left', k2, mul_zero]

/-! ### Meshes of quadrilaterals -/

/-- A mesh of quadrilaterals: the positions of the nodes, for each element the numbers of its corners, and the quadrature rule. -/
structure Spec.QuadMesh where
  nodes : Nat
  pos : Nat → Fin 2 → ℝ
  quads : List (Fin 4 → Nat)
  rule : List ((Fin 2 → ℝ) × ℝ)

namespace Spec.QuadMesh

variable (m : Spec.QuadMesh)

/-- The corners of an element. -/
def corners (q : Fin 4 → Nat) : NodeVec 4 2 := fun I => m.pos (q I)

/-- An element of the mesh with a power basis whose dofs are numbered node by node (`FlatInterleaved`). -/
noncomputable def tile (skills : (Fin 4 → Nat) → List (Skill 4 2)) (q : Fin 4 → Nat) : Spec.Tile 2 where
  n := 4
  children := [.leaf [0, 1, 2, 3], .leaf [4, 5, 6, 7]]
  index := [2 * q 0, 2 * q 1, 2 * q 2, 2 * q 3, 2 * q 0 + 1, 2 * q 1 + 1, 2 * q 2 + 1, 2 * q 3 + 1]
  skills := skills q
  X := m.corners q
  pts := m.rule.map (quadPoint (m.corners q))

/-- The corners exist, no element is turned over or degenerate, and the rule is exact for bilinear functions. -/
structure Valid : Prop where
  node : ∀ q ∈ m.quads, ∀ I, q I < m.nodes
  exact : EAS.Spec.Exact m.rule 1
  det : ∀ q ∈ m.quads, ∀ g ∈ m.rule, 0 < ((quadGeometry (m.corners q)).jacobianTransposed g.1).det

/-- The neighbours of node `p`, one for each element around it, in the direction `next`. -/
def around (next : Fin 4 → Fin 4) (p : Nat) : List Nat :=
  m.quads.flatMap fun q => ((List.finRange 4).filter fun I => q I = p).map fun I => q (next I)

/-- Node `p` is surrounded by elements: each edge at `p` belongs to an element on either side. -/
def Interior (p : Nat) : Prop := (m.around nextCorner p).Perm (m.around prevCorner p)

/-- The displacement field `c + G X` at the nodes. -/
noncomputable def field (c : Fin 2 → ℝ) (G : Matrix (Fin 2) (Fin 2) ℝ) : List ℝ :=
  (List.range (2 * m.nodes)).map fun i => (c + G *ᵥ m.pos (i / 2)) ⟨i % 2, Nat.mod_lt _ (by norm_num)⟩

/-- An integration point with the linear strains of the plane. -/
noncomputable def linPoint (p : Element.Spec.GradientPoint 4 2) : LinPoint 4 2 3 :=
  ⟨p.detJ, p.weight, fun I => EAS.plane.bop 1 (p.dN I)⟩

/-- The linear elastic skill of an element. -/
noncomputable def linear (C : Matrix (Fin 3) (Fin 3) ℝ) (q : Fin 4 → Nat) : List (Skill 4 2) :=
  [Skill.linearElastic C ((m.rule.map (quadPoint (m.corners q))).map linPoint)]

/-- The linear elastic element for an analysis. -/
noncomputable def param (C : Matrix (Fin 3) (Fin 3) ℝ) (q : Fin 4 → Nat) : ParamElem :=
  ⟨4, 2, (m.tile (m.linear C) q).children, (m.tile (m.linear C) q).index,
    [fun _ => Skill.linearElastic C ((m.rule.map (quadPoint (m.corners q))).map linPoint)]⟩

/-- The displacements of the corners of an element. -/
def cornerValues (v : List ℝ) (q : Fin 4 → Nat) : NodeVec 4 2 := fun I a => v.getD (2 * q I + a) 0

end Spec.QuadMesh

section QuadMesh

variable {m : Spec.QuadMesh} {skills : (Fin 4 → Nat) → List (Skill 4 2)} {q : Fin 4 → Nat}

theorem tile_dofs : (m.tile skills q).elem.dofs? =
    some [2 * q 0, 2 * q 0 + 1, 2 * q 1, 2 * q 1 + 1, 2 * q 2, 2 * q 2 + 1, 2 * q 3, 2 * q 3 + 1] := by
  simp [Elem.dofs?, Spec.Tile.elem, Spec.QuadMesh.tile, FETree.globalIndices, FETree.firstIsLeaf, FETree.powerNodeIndices,
    FETree.leafSize?, FETree.childIndex?, FETree.leafIndex?, mapOpt, List.range, List.range.loop]

theorem tile_fits (h : ∀ I, q I < m.nodes) : Spec.ElemFits (2 * m.nodes) (m.tile skills q).elem := by
  refine ⟨rfl, rfl, _, tile_dofs, ?_⟩
  have h0 := h 0
  have h1 := h 1
  have h2 := h 2
  have h3 := h 3
  simp only [List.mem_cons, List.not_mem_nil, or_false]
  rintro i (rfl | rfl | rfl | rfl | rfl | rfl | rfl | rfl) <;> omega

theorem tile_local (h : ∀ I, q I < m.nodes) {x : List ℝ} (hx : x.length = 2 * m.nodes) :
    (m.tile skills q).elem.local? x = some (fun I a => x.getD (2 * q I + a) 0 : NodeVec 4 2) := by
  obtain ⟨h1, h2, dofs, h3, h4⟩ := tile_fits (skills := skills) h
  obtain ⟨-, X, -, hl, -⟩ := local_eq h1 h2 h3 h4 x hx
  rw [hl]
  rw [tile_dofs] at h3
  obtain rfl := Option.some.inj h3
  congr 1
  funext I a
  fin_cases I <;> fin_cases a <;> rfl

theorem sum_by_first {β : Type*} (L : List β) (fst : β → Nat) (f : β → ℝ) (S : Finset Nat) (hS : ∀ b ∈ L, fst b ∈ S) :
    (L.map f).sum = ∑ p ∈ S, ((L.filter fun b => fst b = p).map f).sum := by
  induction L with
  | nil => simp
  | cons b L ih =>
    rw [List.map_cons, List.sum_cons, ih fun b' hb' => hS b' (List.mem_cons_of_mem _ hb')]
    have : ∀ p, (((b :: L).filter fun b => fst b = p).map f).sum =
        (if fst b = p then f b else 0) + ((L.filter fun b => fst b = p).map f).sum := fun p => by
      by_cases hp : fst b = p <;> simp [hp]
    simp only [this, Finset.sum_add_distrib]
    rw [Finset.sum_ite_eq, if_pos (hS b List.mem_cons_self)]

/-- C104, meshes. A mesh of quadrilaterals fills its domain without gaps if each node is either surrounded by elements or
held by supports. -/
theorem mesh_divergenceFree (hm : m.Valid) (flags : List Bool) (hl : flags.length = 2 * m.nodes)
    (hp : ∀ p < m.nodes, m.Interior p ∨ flags[2 * p]? = some true ∧ flags[2 * p + 1]? = some true) :
    Spec.DivergenceFree flags (m.quads.map (m.tile skills)) := by
  intro w hw h0
  refine ⟨fun t => (t.elem.local? w).getD 0, fun t ht => ?_, fun a j => ?_⟩
  · obtain ⟨q, hq, rfl⟩ := List.mem_map.1 ht
    show _ = some (((m.tile skills q).elem.local? w).getD 0)
    rw [tile_local (hm.node q hq) (hw.trans hl)]
    rfl
  obtain ⟨k, y, hky⟩ : ∃ (k : ℝ) (y : Nat → ℝ), ∀ q ∈ m.quads, ∀ I, integralGradient (m.rule.map (quadPoint (m.corners q))) I j =
      k * (y (q (nextCorner I)) - y (q (prevCorner I))) := by
    refine ⟨![1 / 2, -1 / 2] j, ![fun p => m.pos p 1, fun p => m.pos p 0] j, fun q hq I => ?_⟩
    rw [integralGradient_quad _ hm.exact (hm.det q hq)]
    fin_cases j
    · simp [Spec.QuadMesh.corners]
    · simp [Spec.QuadMesh.corners]; ring
  let L : List (Nat × Nat × Nat) := m.quads.flatMap fun q => (List.finRange 4).map fun I => (q I, q (nextCorner I), q (prevCorner I))
  let f : Nat × Nat × Nat → ℝ := fun b => w.getD (2 * b.1 + a) 0 * (k * (y b.2.1 - y b.2.2))
  have h1 : ((m.quads.map (m.tile skills)).map fun t => ∑ I, (t.elem.local? w).getD 0 I a * integralGradient t.pts I j).sum =
      (L.map f).sum := by
    rw [List.map_map, List.map_flatMap, List.flatMap_def, List.sum_flatten, List.map_map]
    congr 1
    refine List.map_congr_left fun q hq => ?_
    show ∑ I : Fin 4, ((m.tile skills q).elem.local? w).getD 0 I a * integralGradient (m.rule.map (quadPoint (m.corners q))) I j = _
    rw [tile_local (hm.node q hq) (hw.trans hl)]
    show ∑ I : Fin 4, w.getD (2 * q I + a) 0 * integralGradient (m.rule.map (quadPoint (m.corners q))) I j =
      (((List.finRange 4).map fun I => (q I, q (nextCorner I), q (prevCorner I))).map f).sum
    rw [List.map_map, ← List.sum_ofFn, List.ofFn_eq_map]
    congr 1
    exact List.map_congr_left fun I _ => by rw [hky q hq]; rfl
  refine h1.trans ?_
  rw [sum_by_first L (·.1) f (Finset.range m.nodes)]
  · refine Finset.sum_eq_zero fun p hpn => ?_
    have hpn := Finset.mem_range.1 hpn
    have hL : ∀ g : Nat × Nat × Nat → Nat, ∀ nx : Fin 4 → Fin 4, (∀ (q : Fin 4 → Nat) I,
        g (q I, q (nextCorner I), q (prevCorner I)) = q (nx I)) → (L.filter fun b => b.1 = p).map g = m.around nx p := by
      intro g nx hg
      simp only [L, Spec.QuadMesh.around, List.filter_flatMap, List.map_flatMap, List.filter_map, List.map_map]
      congr 1
      funext q
      refine List.map_congr_left fun I _ => hg q I
    rcases hp p hpn with hi | hs
    · have hi := (hi.map y).sum_eq
      rw [← hL (·.2.1) nextCorner fun _ _ => rfl, ← hL (·.2.2) prevCorner fun _ _ => rfl, List.map_map, List.map_map] at hi
      have h2 : ∀ M : List (Nat × Nat × Nat), (∀ b ∈ M, b.1 = p) → (M.map f).sum = w.getD (2 * p + a) 0 * (k *
          ((M.map (y ∘ fun b => b.2.1)).sum - (M.map (y ∘ fun b => b.2.2)).sum)) := by
        intro M hM
        induction M with
        | nil => simp
        | cons b M ih =>
          simp only [List.map_cons, List.sum_cons, ih fun b' hb' => hM b' (List.mem_cons_of_mem _ hb'), f,
            hM b List.mem_cons_self, Function.comp]
          ring
      rw [h2 _ fun b hb => of_decide_eq_true (List.mem_filter.1 hb).2, hi, sub_self, mul_zero, mul_zero]
    · refine List.sum_eq_zero fun v hv => ?_
      obtain ⟨b, hb, rfl⟩ := List.mem_map.1 hv
      have hb := of_decide_eq_true (List.mem_filter.1 hb).2
      have : w.getD (2 * b.1 + a) 0 = 0 := by
        rw [hb, List.getD_eq_getElem?_getD]
        fin_cases a
        · exact congrArg (Option.getD · 0) (h0 _ hs.1)
        · exact congrArg (Option.getD · 0) (h0 _ hs.2)
      show w.getD (2 * b.1 + a) 0 * _ = 0
      rw [this, zero_mul]
  · intro b hb
    obtain ⟨q, hq, hb⟩ := List.mem_flatMap.1 hb
    obtain ⟨I, -, rfl⟩ := List.mem_map.1 hb
    exact Finset.mem_range.2 (hm.node q hq I)

theorem field_length (c : Fin 2 → ℝ) (G : Matrix (Fin 2) (Fin 2) ℝ) : (m.field c G).length = 2 * m.nodes := by
  simp [Spec.QuadMesh.field]

theorem field_local (h : ∀ I, q I < m.nodes) (c : Fin 2 → ℝ) (G : Matrix (Fin 2) (Fin 2) ℝ) :
    (m.tile skills q).elem.local? (m.field c G) = some (affine c G (m.corners q)) := by
  rw [tile_local h (field_length c G)]
  congr 1
  funext I a
  have h1 : 2 * q I + a < 2 * m.nodes := by have := h I; omega
  have h2 : (2 * q I + (a : Nat)) / 2 = q I := by omega
  have h3 : (2 * q I + (a : Nat)) % 2 = a := by omega
  rw [List.getD_eq_getElem?_getD, Spec.QuadMesh.field, List.getElem?_map, List.getElem?_range h1]
  simp only [Option.map_some, Option.getD_some, h2, h3]
  rfl

/-- C104, meshes. If the forces of each element in the homogeneous state are those of the same stress `T`, the mesh is in
equilibrium in this state. -/
theorem mesh_patch (hm : m.Valid) (flags : List Bool) (hl : flags.length = 2 * m.nodes)
    (hp : ∀ p < m.nodes, m.Interior p ∨ flags[2 * p]? = some true ∧ flags[2 * p + 1]? = some true)
    (c : Fin 2 → ℝ) (G T : Matrix (Fin 2) (Fin 2) ℝ)
    (hT : ∀ q ∈ m.quads, Mixin.calculateVector (affine c G (m.corners q)) (skills q) 0 =
      some (uniformForces (m.rule.map (quadPoint (m.corners q))) T)) :
    ∃ r, (System.mk flags ((m.quads.map (m.tile skills)).map (·.elem))).rawVector? (m.field c G) = some r ∧
      r.length = flags.length ∧ ∀ i < flags.length, flags[i]? = some false → r.getD i 0 = 0 := by
  refine patch_equilibrium flags _ (fun t ht => ?_) (mesh_divergenceFree hm flags hl hp) ((field_length c G).trans hl.symm) c G T
    fun t ht => ?_
  · obtain ⟨q, hq, rfl⟩ := List.mem_map.1 ht
    rw [hl]
    exact tile_fits (hm.node q hq)
  · obtain ⟨q, hq, rfl⟩ := List.mem_map.1 ht
    exact ⟨field_local (hm.node q hq) c G, hT q hq⟩

theorem linPoint_solid (p : Element.Spec.GradientPoint 4 2) : LinearSolid EAS.plane p (Spec.QuadMesh.linPoint p) :=
  ⟨rfl, rfl, fun _ => rfl⟩

/-- C104, linear meshes. -/
theorem mesh_linear_patch (hm : m.Valid) (flags : List Bool) (hl : flags.length = 2 * m.nodes)
    (hp : ∀ p < m.nodes, m.Interior p ∨ flags[2 * p]? = some true ∧ flags[2 * p + 1]? = some true)
    (C : Matrix (Fin 3) (Fin 3) ℝ) (c : Fin 2 → ℝ) (G : Matrix (Fin 2) (Fin 2) ℝ) (l : ℝ) :
    ∃ r, (System.mk flags ((m.quads.map (m.param C)).map (·.at l))).rawVector? (m.field c G) = some r ∧
      r.length = flags.length ∧ ∀ i < flags.length, flags[i]? = some false → r.getD i 0 = 0 := by
  have := mesh_patch hm flags hl hp (skills := m.linear C) c G (stressMatrix EAS.plane (C *ᵥ linearStrain EAS.plane G))
    fun q hq => by
      have := linear_patch EAS.plane EAS.plane_isVoigt C (m.rule.map (quadPoint (m.corners q))) Spec.QuadMesh.linPoint
        (fun p _ => linPoint_solid p) (m.corners q) 0 (fun p hp => by
          obtain ⟨g, hg, rfl⟩ := List.mem_map.1 hp
          exact quadPoint_isoparametric _ _ (hm.det q hq g hg).ne') c G
      rw [zero_add] at this
      show (some (LinearElastic.calculateVector false C _ _ 0)).bind (fun f => some f) = _
      rw [Option.bind_some, this]
  rw [List.map_map] at this ⊢
  exact this

/-- C104, nonlinear meshes. With any material, the mesh is in equilibrium in the homogeneous state; if the material law is
differentiable there, this state is a stationary point of the energy. -/
theorem mesh_nonlinear_patch (hm : m.Valid) (flags : List Bool) (hl : flags.length = 2 * m.nodes)
    (hp : ∀ p < m.nodes, m.Interior p ∨ flags[2 * p]? = some true ∧ flags[2 * p + 1]? = some true)
    (law : Law 3) (gp : Element.Spec.GradientPoint 4 2 → Point 4 2 3) (hgp : ∀ p, Solid EAS.plane p (gp p))
    (c : Fin 2 → ℝ) (G : Matrix (Fin 2) (Fin 2) ℝ) {s : System}
    (hs : s = ⟨flags, (m.quads.map (m.tile fun q =>
      [Skill.nonLinearElastic law ((m.rule.map (quadPoint (m.corners q))).map gp)])).map (·.elem)⟩) :
    (∃ r, s.rawVector? (m.field c G) = some r ∧ r.length = flags.length ∧
      ∀ i < flags.length, flags[i]? = some false → r.getD i 0 = 0) ∧
    (Spec.SystemContract s (m.field c G) → Spec.Stationary flags s.scalar? 0 (m.field c G)) := by
  have key : ∃ r, s.rawVector? (m.field c G) = some r ∧ r.length = flags.length ∧
      ∀ i < flags.length, flags[i]? = some false → r.getD i 0 = 0 := by
    rw [hs]
    refine mesh_patch hm flags hl hp c G ((1 + G) * stressMatrix EAS.plane (law.stress (EAS.plane.greenLagrange G))) fun q hq => ?_
    have := nonlinear_patch EAS.plane EAS.plane_isVoigt law (m.rule.map (quadPoint (m.corners q))) gp
      (fun p _ => hgp p) (m.corners q) 0 (fun p hp => by
        obtain ⟨g, hg, rfl⟩ := List.mem_map.1 hp
        exact quadPoint_isoparametric _ _ (hm.det q hq g hg).ne') c G
    rw [zero_add] at this
    show (some (NonLinearElastic.calculateVector false law _ _ 0)).bind (fun f => some f) = _
    rw [Option.bind_some, this]
  refine ⟨key, fun hc => ?_⟩
  obtain ⟨r, h1, h2, h3⟩ := key
  have hf : s.flags = flags := by rw [hs]
  rw [← hf] at h2 h3 ⊢
  refine stationary_of_residual s 0 hc h1 h2 ?_
  rw [freeSq, Finset.sum_eq_zero, Real.sqrt_zero]
  intro i hi
  obtain ⟨hi, hfree⟩ := Finset.mem_filter.1 hi
  rw [h3 i (Finset.mem_range.1 hi) ?_, zero_mul]
  exact hfree

/-- The vector of an element with enhanced strains whose internal variables are `alpha`. -/
noncomputable def Spec.QuadMesh.enhanced {k : Nat} (law : Law 3) (gps : List (EAS.EASPoint 4 2 3 k)) (alpha : Fin k → ℝ) :
    Skill 4 2 where
  scalar _ := none
  vector u f := EAS.calculateVector law gps .forces u alpha f
  matrix _ _ := none

/-- C104, meshes with enhanced strains: `E4`, `E5`, `E7` on the Green-Lagrange strain and `H4` on the displacement gradient.
With internal variables zero all internal variables are in equilibrium and so is the mesh. -/
theorem mesh_enhanced_patch (hm : m.Valid) (flags : List Bool) (hl : flags.length = 2 * m.nodes)
    (hp : ∀ p < m.nodes, m.Interior p ∨ flags[2 * p]? = some true ∧ flags[2 * p + 1]? = some true)
    (law : Law 3) (gp : Element.Spec.GradientPoint 4 2 → Point 4 2 3) (hgp : ∀ p, Solid EAS.plane p (gp p))
    (c : Fin 2 → ℝ) (G : Matrix (Fin 2) (Fin 2) ℝ) :
    (∀ {k : Nat} (entries : List (Fin 3 × Fin k × ((Fin 2 → ℝ) → ℝ))),
      (∀ q ∈ m.quads, MeanFree (m.rule.map (quadPoint (m.corners q))) fun p =>
        (EAS.ansatz2 entries (quadGeometry (m.corners q)) p.pos)ᵀ) →
      (∀ q ∈ m.quads, EAS.calculateRtilde law ((m.rule.map (quadPoint (m.corners q))).map fun p =>
        EAS.additive (gp p) (EAS.ansatz2 entries (quadGeometry (m.corners q)) p.pos)) (affine c G (m.corners q)) 0 = 0) ∧
      ∃ r, (System.mk flags ((m.quads.map (m.tile fun q => [Spec.QuadMesh.enhanced law ((m.rule.map (quadPoint (m.corners q))).map
        fun p => EAS.additive (gp p) (EAS.ansatz2 entries (quadGeometry (m.corners q)) p.pos)) 0])).map
          (·.elem))).rawVector? (m.field c G) = some r ∧
        r.length = flags.length ∧ ∀ i < flags.length, flags[i]? = some false → r.getD i 0 = 0) ∧
    (∀ q ∈ m.quads, EAS.calculateRtilde law (gradientPoints EAS.plane (EAS.ansatzH EAS.h4 (quadGeometry (m.corners q)))
      (m.rule.map (quadPoint (m.corners q)))) (affine c G (m.corners q)) 0 = 0) ∧
    ∃ r, (System.mk flags ((m.quads.map (m.tile fun q => [Spec.QuadMesh.enhanced law (gradientPoints EAS.plane
      (EAS.ansatzH EAS.h4 (quadGeometry (m.corners q))) (m.rule.map (quadPoint (m.corners q)))) 0])).map
        (·.elem))).rawVector? (m.field c G) = some r ∧
      r.length = flags.length ∧ ∀ i < flags.length, flags[i]? = some false → r.getD i 0 = 0 := by
  have hX : ∀ q ∈ m.quads, ∀ p ∈ m.rule.map (quadPoint (m.corners q)), Isoparametric (m.corners q) p.dN := fun q hq p hp => by
    obtain ⟨g, hg, rfl⟩ := List.mem_map.1 hp
    exact quadPoint_isoparametric _ _ (hm.det q hq g hg).ne'
  refine ⟨fun {k} entries hM => ?_, ?_⟩
  · have h := fun q (hq : q ∈ m.quads) => additive_patch EAS.plane EAS.plane_isVoigt law (m.rule.map (quadPoint (m.corners q))) gp
      (fun p _ => hgp p) (fun p => EAS.ansatz2 entries (quadGeometry (m.corners q)) p.pos) (hM q hq) (m.corners q) 0 (hX q hq) rfl c G
    refine ⟨fun q hq => (h q hq).1, mesh_patch hm flags hl hp c G ((1 + G) * stressMatrix EAS.plane (law.stress
      (EAS.plane.greenLagrange G))) fun q hq => ?_⟩
    have h2 := (h q hq).2
    rw [zero_add] at h2
    exact congrArg (fun o => Option.bind o fun f => some f) h2
  · have h := fun q (hq : q ∈ m.quads) => displacementGradient_patch EAS.plane EAS.plane_isVoigt law
      (EAS.ansatzH EAS.h4 (quadGeometry (m.corners q))) (m.rule.map (quadPoint (m.corners q)))
      (quad_meanFree (m.corners q) hm.exact (hm.det q hq)).2.2.2.1 (m.corners q) 0 (hX q hq) rfl c G
    refine ⟨fun q hq => (h q hq).1, mesh_patch hm flags hl hp c G ((1 + G) * stressMatrix EAS.plane (law.stress
      (EAS.plane.greenLagrange G))) fun q hq => ?_⟩
    have h2 := (h q hq).2
    rw [zero_add] at h2
    exact congrArg (fun o => Option.bind o fun f => some f) h2

/-- C104, load control. If the supports impose the homogeneous displacements `c + G X` times the load factor, load control
shows exactly these displacements at all nodes after each step, provided that the supports suffice and that the solver makes at
least one iteration. -/
theorem mesh_load_control (hm : m.Valid) {a : Analysis} {û : Nat → ℝ} (hl : a.dv.flags.length = 2 * m.nodes)
    (hp : ∀ p < m.nodes, m.Interior p ∨ a.dv.flags[2 * p]? = some true ∧ a.dv.flags[2 * p + 1]? = some true)
    (C : Matrix (Fin 3) (Fin 3) ℝ) (hel : a.elems = m.quads.map (m.param C)) (c : Fin 2 → ℝ) (G : Matrix (Fin 2) (Fin 2) ℝ)
    (h : Spec.ProperLinear a û) (hû : ∀ i : Nat, a.dv.flags[i]? = some true → û i = (m.field c G).getD i 0)
    (hset : Spec.Settings a.settings 1) (hmin : 1 ≤ a.settings.minIter)
    (hsup : ∀ l, Spec.Supported a.dv.flags (a.system l).scalar?)
    (n : Nat) (hn : 0 < n) (tbegin tend l0 : ℝ) {x0 : List ℝ} (hx0 : x0.length = a.dv.flags.length)
    (hc0 : ∀ i : Nat, a.dv.flags[i]? = some true → x0[i]? = some (l0 * û i))
    (hz : ∀ k : Nat, 0 < k → k ≤ n → l0 + k * ((tend - tbegin) / n) = 0 → ∀ i < a.dv.flags.length, û i = 0) :
    ∃ r, a.loadControl? n tbegin tend ⟨l0, some x0⟩ = some r ∧ r.info.success = true ∧
      Spec.shown r = (List.range (n + 1)).map fun k : Nat => ⟨l0 + k * ((tend - tbegin) / n),
        some (m.field ((l0 + k * ((tend - tbegin) / n)) • c) ((l0 + k * ((tend - tbegin) / n)) • G))⟩ := by
  obtain ⟨r, us, h1, h2, h3, -, h5, h6⟩ := linear_load_control h hset n hn tbegin tend l0 hx0 hc0 hz
  have hsh : Spec.shown r = r.trace.filterMap (fun ev => match ev with
      | .notify .solutionChanged x _ _ => some x
      | _ => none) := by
    unfold Spec.shown
    congr 1
    funext ev
    cases ev <;> first | rfl | (rename_i msg _ _ _; cases msg <;> rfl)
  refine ⟨r, h1, h2, hsh.trans (h5.trans (List.map_congr_left fun k hk => ?_))⟩
  have hk : k ≤ n := by have := List.mem_range.1 hk; omega
  obtain ⟨-, h7⟩ := h6 k hk
  obtain ⟨info, hi⟩ : ∃ info, r.info.solverInfos[k]? = some info := ⟨_, List.getElem?_eq_getElem (by omega)⟩
  obtain ⟨-, h8, -, h9⟩ := h7 info hi
  have h10 := h9 (by omega)
  generalize l0 + k * ((tend - tbegin) / n) = l at h10 ⊢
  congr 2
  refine equilibrium_unique a.dv.flags _ û l (hsup l) _ _ h10 ?_
  obtain ⟨K, e, g, hA⟩ := linear_system a.dv.flags a.elems h.elems
  have hfl : (m.field (l • c) (l • G)).length = a.dv.flags.length := (field_length _ _).trans hl.symm
  refine equilibrium_of_residual hA û l l 0 hfl (fun i hi hf => ?_) ?_
  · rw [hû i ((not_free_iff hi).1 hf)]
    have : m.field (l • c) (l • G) = (m.field c G).map (l * ·) := by
      unfold Spec.QuadMesh.field
      rw [List.map_map]
      refine List.map_congr_left fun i _ => ?_
      simp only [Function.comp, Pi.add_apply, Pi.smul_apply, Matrix.smul_mulVec, smul_eq_mul]
      ring
    rw [this, List.getD_eq_getElem?_getD, List.getD_eq_getElem?_getD, List.getElem?_map]
    cases (m.field c G)[i]? <;> simp
  · obtain ⟨R, k1, k2, k3⟩ := mesh_linear_patch hm a.dv.flags hl hp C (l • c) (l • G) l
    obtain ⟨R', g1, -, g3⟩ := hA.vector l _ hfl
    have g1 : (System.mk a.dv.flags (a.elems.map (·.at l))).rawVector? (m.field (l • c) (l • G)) = some R' := g1
    rw [hel, k1] at g1
    obtain rfl := Option.some.inj g1
    rw [freeSq, Finset.sum_eq_zero, Real.sqrt_zero]
    intro i hi
    obtain ⟨hi, hfree⟩ := Finset.mem_filter.1 hi
    have hi := Finset.mem_range.1 hi
    have : Analysis.resAt K g a.dv.flags.length l (m.field (l • c) (l • G)) i = 0 := (g3 i hi).symm.trans (k3 i hi hfree)
    rw [this, zero_mul]

/-! ### Sufficient supports -/

theorem mesh_energy (hm : m.Valid) (flags : List Bool) (hl : flags.length = 2 * m.nodes) (C : Matrix (Fin 3) (Fin 3) ℝ) (l : ℝ)
    {x : List ℝ} (hx : x.length = flags.length) :
    (System.mk flags ((m.quads.map (m.param C)).map (·.at l))).scalar? x = some (m.quads.map fun q => (m.rule.map fun g =>
      LinearElastic.internalEnergy C (linearStrain EAS.plane (EAS.gradient (quadPoint (m.corners q) g).dN
        (Spec.QuadMesh.cornerValues x q))) * (quadPoint (m.corners q) g).detJ * g.2).sum).sum := by
  unfold System.scalar?
  rw [List.map_map, mapOpt_map (fun e : Elem => e.scalar? x) _ (fun q => (m.rule.map fun g =>
      LinearElastic.internalEnergy C (linearStrain EAS.plane (EAS.gradient (quadPoint (m.corners q) g).dN
        (Spec.QuadMesh.cornerValues x q))) * (quadPoint (m.corners q) g).detJ * g.2).sum) m.quads ?_, Option.map_some, scalar_eq_sum]
  intro q hq
  have hloc := tile_local (m := m) (skills := m.linear C) (hm.node q hq) (hx.trans hl)
  show ((m.tile (m.linear C) q).elem.local? x).bind (fun u => Mixin.calculateScalar u (m.linear C q)) = _
  rw [hloc]
  show (some (LinearElastic.calculateScalar false C ((m.rule.map (quadPoint (m.corners q))).map Spec.QuadMesh.linPoint)
    (Spec.QuadMesh.cornerValues x q))).bind (fun a => (some (0 : ℝ)).map fun b => a + b) = _
  rw [Option.bind_some, Option.map_some, add_zero, LinearElastic.calculateScalar_sum, List.map_map, List.map_map]
  congr 2
  refine List.map_congr_left fun g _ => ?_
  have : (Spec.QuadMesh.linPoint (quadPoint (m.corners q) g)).strain (Spec.QuadMesh.cornerValues x q) =
      linearStrain EAS.plane (EAS.gradient (quadPoint (m.corners q) g).dN (Spec.QuadMesh.cornerValues x q)) := by
    rw [LinPoint.strain]
    exact bop_sum EAS.plane_isVoigt 1 _ _
  show LinearElastic.internalEnergy C ((Spec.QuadMesh.linPoint (quadPoint (m.corners q) g)).strain _) * _ * _ = _
  rw [this]
  rfl

theorem list_sum_parallel {β : Type*} (L : List β) (f1 f2 f3 f4 : β → ℝ) (h : ∀ b ∈ L, f1 b + f2 b = 2 * f3 b + 2 * f4 b) :
    (L.map f1).sum + (L.map f2).sum = 2 * (L.map f3).sum + 2 * (L.map f4).sum := by
  induction L with
  | nil => simp
  | cons b L ih =>
    have h1 := h b List.mem_cons_self
    have h2 := ih fun b' hb' => h b' (List.mem_cons_of_mem _ hb')
    simp only [List.map_cons, List.sum_cons]
    linarith

theorem list_sum_pos' {β : Type*} (L : List β) (f : β → ℝ) (h : ∀ b ∈ L, 0 ≤ f b) (hp : ∃ b ∈ L, 0 < f b) : 0 < (L.map f).sum := by
  obtain ⟨b, hb, hp⟩ := hp
  obtain ⟨A, B, rfl⟩ := List.append_of_mem hb
  have hA : 0 ≤ (A.map f).sum := List.sum_nonneg fun v hv => by
    obtain ⟨b', hb', rfl⟩ := List.mem_map.1 hv
    exact h b' (by simp [hb'])
  have hB : 0 ≤ (B.map f).sum := List.sum_nonneg fun v hv => by
    obtain ⟨b', hb', rfl⟩ := List.mem_map.1 hv
    exact h b' (by simp [hb'])
  simp only [List.map_append, List.map_cons, List.sum_append, List.sum_cons]
  linarith

theorem internalEnergy_parallelogram (C : Matrix (Fin 3) (Fin 3) ℝ) (a b : Fin 3 → ℝ) :
    LinearElastic.internalEnergy C (a + (1 : ℝ) • b) + LinearElastic.internalEnergy C (a + (-1 : ℝ) • b) =
      2 * LinearElastic.internalEnergy C a + 2 * LinearElastic.internalEnergy C b := by
  simp only [LinearElastic.internalEnergy, Matrix.mulVec_add, Matrix.mulVec_smul, dotProduct_add, add_dotProduct,
    dotProduct_smul, smul_dotProduct, smul_eq_mul]
  ring

/-- The supports of a linear mesh suffice if every displacement that keeps them strains an element at an integration point. -/
theorem mesh_supported (hm : m.Valid) (hw : ∀ g ∈ m.rule, 0 < g.2) (flags : List Bool) (hl : flags.length = 2 * m.nodes)
    (C : Matrix (Fin 3) (Fin 3) ℝ) (hC : C.PosDef)
    (hv : ∀ v : List ℝ, v.length = flags.length → (∀ i : Nat, flags[i]? = some true → v[i]? = some 0) → (∃ c ∈ v, c ≠ 0) →
      ∃ q ∈ m.quads, ∃ g ∈ m.rule,
        linearStrain EAS.plane (EAS.gradient (quadPoint (m.corners q) g).dN (Spec.QuadMesh.cornerValues v q)) ≠ 0) (l : ℝ) :
    Spec.Supported flags (System.mk flags ((m.quads.map (m.param C)).map (·.at l))).scalar? := by
  intro x v hx hvl hv0 hvn
  have hline : ∀ t, (Spec.line x v t).length = flags.length := fun t => (line_length x v t (hx.trans hvl.symm)).trans hx
  refine ⟨_, _, _, mesh_energy hm flags hl C l (hline 1), mesh_energy hm flags hl C l (hline (-1)), mesh_energy hm flags hl C l hx, ?_⟩
  have hstr : ∀ q g t, linearStrain EAS.plane (EAS.gradient (quadPoint (m.corners q) g).dN
      (Spec.QuadMesh.cornerValues (Spec.line x v t) q)) =
      linearStrain EAS.plane (EAS.gradient (quadPoint (m.corners q) g).dN (Spec.QuadMesh.cornerValues x q)) + t •
        linearStrain EAS.plane (EAS.gradient (quadPoint (m.corners q) g).dN (Spec.QuadMesh.cornerValues v q)) := by
    intro q g t
    have h1 : Spec.QuadMesh.cornerValues (Spec.line x v t) q = Spec.QuadMesh.cornerValues x q + t • Spec.QuadMesh.cornerValues v q := by
      funext I a
      exact line_getD x v t (hx.trans hvl.symm) _
    have h2 : ∀ u : NodeVec 4 2, linearStrain EAS.plane (EAS.gradient (quadPoint (m.corners q) g).dN u) =
        ∑ I, EAS.plane.bop 1 ((quadPoint (m.corners q) g).dN I) *ᵥ u I := fun u => (bop_sum EAS.plane_isVoigt 1 _ _).symm
    rw [h2, h2, h2, h1, Finset.smul_sum, ← Finset.sum_add_distrib]
    exact Finset.sum_congr rfl fun I _ => by
      rw [Pi.add_apply, Pi.smul_apply, Matrix.mulVec_add, Matrix.mulVec_smul]
  have hpos : ∀ q ∈ m.quads, ∀ g ∈ m.rule, 0 < (quadPoint (m.corners q) g).detJ * g.2 := fun q hq g hg =>
    mul_pos (abs_pos.2 (hm.det q hq g hg).ne') (hw g hg)
  have hE : ∀ e : Fin 3 → ℝ, 0 ≤ LinearElastic.internalEnergy C e ∧ (e ≠ 0 → 0 < LinearElastic.internalEnergy C e) := by
    intro e
    have hp : e ≠ 0 → 0 < LinearElastic.internalEnergy C e := fun he => by
      have := hC.dotProduct_mulVec_pos he
      rw [star_trivial] at this
      unfold LinearElastic.internalEnergy
      linarith
    refine ⟨?_, hp⟩
    by_cases he : e = 0
    · rw [he]; simp [LinearElastic.internalEnergy]
    · exact (hp he).le
  have hpar := list_sum_parallel m.quads _ _ (fun q => (m.rule.map fun g => LinearElastic.internalEnergy C (linearStrain EAS.plane
    (EAS.gradient (quadPoint (m.corners q) g).dN (Spec.QuadMesh.cornerValues x q))) * (quadPoint (m.corners q) g).detJ * g.2).sum)
    (fun q => (m.rule.map fun g => LinearElastic.internalEnergy C (linearStrain EAS.plane
    (EAS.gradient (quadPoint (m.corners q) g).dN (Spec.QuadMesh.cornerValues v q))) * (quadPoint (m.corners q) g).detJ * g.2).sum)
    fun q _ => list_sum_parallel m.rule (fun g => LinearElastic.internalEnergy C (linearStrain EAS.plane
    (EAS.gradient (quadPoint (m.corners q) g).dN (Spec.QuadMesh.cornerValues (Spec.line x v 1) q))) *
      (quadPoint (m.corners q) g).detJ * g.2) (fun g => LinearElastic.internalEnergy C (linearStrain EAS.plane
    (EAS.gradient (quadPoint (m.corners q) g).dN (Spec.QuadMesh.cornerValues (Spec.line x v (-1)) q))) *
      (quadPoint (m.corners q) g).detJ * g.2) _ _ fun g _ => by
      rw [hstr, hstr, ← add_mul, ← add_mul, internalEnergy_parallelogram]
      ring
  have : 0 < (m.quads.map fun q => (m.rule.map fun g => LinearElastic.internalEnergy C (linearStrain EAS.plane
      (EAS.gradient (quadPoint (m.corners q) g).dN (Spec.QuadMesh.cornerValues v q))) * (quadPoint (m.corners q) g).detJ *
      g.2).sum).sum := by
    have hnn : ∀ q ∈ m.quads, ∀ g ∈ m.rule, 0 ≤ LinearElastic.internalEnergy C (linearStrain EAS.plane
        (EAS.gradient (quadPoint (m.corners q) g).dN (Spec.QuadMesh.cornerValues v q))) * (quadPoint (m.corners q) g).detJ *
        g.2 := fun q hq g hg => by
      rw [mul_assoc]
      exact mul_nonneg (hE _).1 (hpos q hq g hg).le
    refine list_sum_pos' _ _ (fun q hq => List.sum_nonneg fun y hy => ?_) ?_
    · obtain ⟨g, hg, rfl⟩ := List.mem_map.1 hy
      exact hnn q hq g hg
    · obtain ⟨q, hq, g, hg, hne⟩ := hv v hvl hv0 hvn
      refine ⟨q, hq, list_sum_pos' _ _ (hnn q hq) ⟨g, hg, ?_⟩⟩
      rw [mul_assoc]
      exact mul_pos ((hE _).2 hne) (hpos q hq g hg)
  linarith

end QuadMesh

/-! ### Three quadrilaterals around a node -/

theorem gauss2_inside {d : Nat} (g : (Fin d → ℝ) × ℝ) (hg : g ∈ EAS.Spec.pairs (EAS.Spec.power EAS.Spec.gauss2 d)) (i : Fin d) :
    0 < g.1 i ∧ g.1 i < 1 := by
  obtain ⟨o, ho, h⟩ := EAS.power_position _ _ g hg i
  have h3 : (1 : ℝ) / √3 < 1 := by
    rw [div_lt_one (by positivity)]
    have : √1 < √3 := Real.sqrt_lt_sqrt (by norm_num) (by norm_num)
    rwa [Real.sqrt_one] at this
  have h4 : (0 : ℝ) < 1 / √3 := by positivity
  rw [h]
  simp only [EAS.Spec.gauss2, List.mem_cons, List.not_mem_nil, or_false] at ho
  rcases ho with rfl | rfl <;> constructor <;> dsimp only <;> linarith

/-- A node at the origin, surrounded by three quadrilaterals of different shapes, with the Gauss rule. -/
noncomputable def exampleMesh : Spec.QuadMesh where
  nodes := 7
  pos p := [![0, 0], ![2, 0], ![3, 2], ![0, 2], ![-2, 1], ![-1, -2], ![2, -2]].getD p 0
  quads := [![0, 1, 3, 2], ![0, 3, 5, 4], ![0, 5, 1, 6]]
  rule := EAS.Spec.pairs (EAS.Spec.power EAS.Spec.gauss2 2)

theorem exampleMesh_valid : exampleMesh.Valid where
  node q hq I := by
    simp only [exampleMesh, List.mem_cons, List.not_mem_nil, or_false] at hq
    rcases hq with rfl | rfl | rfl <;> fin_cases I <;> decide
  exact := EAS.exact_mono (EAS.gauss_exact 2).1.1 (by norm_num)
  det q hq g hg := by
    obtain ⟨a1, a2⟩ := gauss2_inside g hg 0
    obtain ⟨b1, b2⟩ := gauss2_inside g hg 1
    simp only [exampleMesh, List.mem_cons, List.not_mem_nil, or_false] at hq
    rcases hq with rfl | rfl | rfl <;>
      simp [Matrix.det_fin_two, quadGeometry, Fin.sum_univ_four, Spec.bilinear, Spec.QuadMesh.corners, exampleMesh] <;>
      nlinarith [mul_pos a1 b1, mul_pos (sub_pos.2 a2) b1, mul_pos a1 (sub_pos.2 b2), mul_pos (sub_pos.2 a2) (sub_pos.2 b2)]

/-- Both dofs of the node inside are free, all others are prescribed. -/
def exampleMeshFlags : List Bool := [false, false] ++ List.replicate 12 true

theorem exampleMesh_nodes (p : Nat) (hp : p < 7) :
    exampleMesh.Interior p ∨ exampleMeshFlags[2 * p]? = some true ∧ exampleMeshFlags[2 * p + 1]? = some true := by
  interval_cases p
  · left
    show List.Perm [1, 3, 5] [3, 5, 1]
    decide
  all_goals right; exact ⟨rfl, rfl⟩

theorem linearStrain_plane (H : Matrix (Fin 2) (Fin 2) ℝ) : linearStrain EAS.plane H = ![H 0 0, H 1 1, H 0 1 + H 1 0] := by
  funext k
  fin_cases k <;> simp [linearStrain, EAS.Spec.along, EAS.plane, Fin.sum_univ_two, Pi.single_apply]; ring

/-- Symmetric positive definite, isotropic in the plane. -/
def exampleMeshC : Matrix (Fin 3) (Fin 3) ℝ := !![4, 2, 0; 2, 4, 0; 0, 0, 1]

theorem exampleMeshC_posDef : exampleMeshC.PosDef := by
  refine Matrix.PosDef.of_dotProduct_mulVec_pos ?_ fun x hx => ?_
  · ext i j
    fin_cases i <;> fin_cases j <;> simp [exampleMeshC]
  · have h : star x ⬝ᵥ (exampleMeshC *ᵥ x) = 2 * (x 0 ^ 2 + x 1 ^ 2 + (x 0 + x 1) ^ 2) + x 2 ^ 2 := by
      simp [exampleMeshC, Matrix.mulVec, dotProduct, Fin.sum_univ_three]
      ring
    rw [h]
    by_contra hn
    apply hx
    have h0 : x 0 = 0 := by nlinarith [sq_nonneg (x 0), sq_nonneg (x 1), sq_nonneg (x 2), sq_nonneg (x 0 + x 1)]
    have h1 : x 1 = 0 := by nlinarith [sq_nonneg (x 0), sq_nonneg (x 1), sq_nonneg (x 2), sq_nonneg (x 0 + x 1)]
    have h2 : x 2 = 0 := by nlinarith [sq_nonneg (x 0), sq_nonneg (x 1), sq_nonneg (x 2), sq_nonneg (x 0 + x 1)]
    funext i
    fin_cases i <;> assumption

theorem exampleMesh_rule : ∃ g, g ∈ exampleMesh.rule := by
  refine List.exists_mem_of_ne_nil _ fun h => ?_
  have := exact_bilinear exampleMesh_valid.exact 1 0 0 0
  rw [h] at this
  norm_num at this

theorem exampleMesh_supported (l : ℝ) : Spec.Supported exampleMeshFlags
    (System.mk exampleMeshFlags ((exampleMesh.quads.map (exampleMesh.param exampleMeshC)).map (·.at l))).scalar? := by
  refine mesh_supported exampleMesh_valid (EAS.gauss_exact 2).1.2 exampleMeshFlags rfl exampleMeshC exampleMeshC_posDef
    (fun v hv h0 hne => ?_) l
  obtain ⟨g, hg⟩ := exampleMesh_rule
  refine ⟨![0, 1, 3, 2], by simp [exampleMesh], g, hg, fun hs => ?_⟩
  have hz : ∀ i, 2 ≤ i → i < 14 → v.getD i 0 = 0 := fun i h1 h2 => by
    rw [List.getD_eq_getElem?_getD, h0 i ?_]
    · rfl
    · interval_cases i <;> rfl
  obtain ⟨dN, hdN⟩ : ∃ dN, dN = (quadPoint (exampleMesh.corners ![0, 1, 3, 2]) g).dN := ⟨_, rfl⟩
  have hgrad : EAS.gradient (quadPoint (exampleMesh.corners ![0, 1, 3, 2]) g).dN (Spec.QuadMesh.cornerValues v ![0, 1, 3, 2]) =
      Matrix.of fun i j : Fin 2 => v.getD i 0 * dN 0 j := by
    ext i j
    rw [← hdN]
    have h1 : ∀ k : Nat, k = 1 ∨ k = 2 ∨ k = 3 → v.getD (2 * k + i) 0 = 0 := fun k hk => hz _ (by omega) (by omega)
    simp only [EAS.gradient, Matrix.of_apply, Fin.sum_univ_four, Spec.QuadMesh.cornerValues]
    show v.getD (2 * 0 + i) 0 * _ + v.getD (2 * 1 + i) 0 * _ + v.getD (2 * 3 + i) 0 * _ + v.getD (2 * 2 + i) 0 * _ = _
    rw [h1 1 (by simp), h1 2 (by simp), h1 3 (by simp)]
    simp
  rw [hgrad, linearStrain_plane] at hs
  have e0 := congrFun hs 0
  have e1 := congrFun hs 1
  have e2 := congrFun hs 2
  simp only [Matrix.cons_val_zero, Matrix.cons_val_one, Matrix.of_apply, Pi.zero_apply] at e0 e1
  have e2 : v.getD 0 0 * dN 0 1 + v.getD 1 0 * dN 0 0 = 0 := e2
  have e0 : v.getD 0 0 * dN 0 0 = 0 := e0
  have e1 : v.getD 1 0 * dN 0 1 = 0 := e1
  have hd := exampleMesh_valid.det ![0, 1, 3, 2] (by simp [exampleMesh]) g hg
  have hN : dN 0 ≠ 0 := by
    intro hN
    have h1 : (quadGeometry (exampleMesh.corners ![0, 1, 3, 2])).jacobianTransposed g.1 *ᵥ dN 0 = Spec.bilinear g.1 0 := by
      rw [hdN]
      show (quadGeometry (exampleMesh.corners ![0, 1, 3, 2])).jacobianTransposed g.1 *ᵥ
        (((quadGeometry (exampleMesh.corners ![0, 1, 3, 2])).jacobianTransposed g.1)⁻¹ *ᵥ Spec.bilinear g.1 0) = _
      rw [Matrix.mulVec_mulVec, Matrix.mul_nonsing_inv _ (isUnit_iff_ne_zero.2 hd.ne'), Matrix.one_mulVec]
    rw [hN, Matrix.mulVec_zero] at h1
    have h2 := congrFun h1 0
    have h3 := (gauss2_inside g hg 1).2
    simp [Spec.bilinear] at h2
    linarith
  have hv01 : v.getD 0 0 = 0 ∧ v.getD 1 0 = 0 := by
    by_cases h00 : dN 0 0 = 0
    · have h01 : dN 0 1 ≠ 0 := fun h => hN (by funext j; fin_cases j <;> assumption)
      rw [h00, mul_zero, add_zero] at e2
      exact ⟨(mul_eq_zero.1 e2).resolve_right h01, (mul_eq_zero.1 e1).resolve_right h01⟩
    · have h1 := (mul_eq_zero.1 e0).resolve_right h00
      rw [h1, zero_mul, zero_add] at e2
      exact ⟨h1, (mul_eq_zero.1 e2).resolve_right h00⟩
  obtain ⟨c, hc, hcn⟩ := hne
  obtain ⟨i, hi, rfl⟩ := List.mem_iff_getElem.1 hc
  apply hcn
  have hi14 : i < 14 := by rw [hv] at hi; exact hi
  have : v.getD i 0 = v[i] := by rw [List.getD_eq_getElem?_getD, List.getElem?_eq_getElem hi]; rfl
  rw [← this]
  rcases Nat.lt_or_ge i 2 with h | h
  · interval_cases i
    · exact hv01.1
    · exact hv01.2
  · exact hz i h hi14

/-- Extension, shear and rotation in one. -/
def exampleGradient : Matrix (Fin 2) (Fin 2) ℝ := !![1, 2; -1, 3]

/-- The displacements of the outer nodes at load factor one. -/
noncomputable def exampleMeshSupport (i : Nat) : ℝ :=
  if 2 ≤ i then (exampleMesh.field ![1, 0] exampleGradient).getD i 0 else 0

/-- The outer nodes are displaced in proportion to the load factor. -/
noncomputable def exampleMeshAnalysis (option : DBCOption) : Analysis where
  dv := ⟨exampleMeshFlags, 0, [⟨fun l i => l * exampleMeshSupport i, fun _ i => exampleMeshSupport i, 0⟩], fun _ => true⟩
  alive := fun _ => true
  elems := exampleMesh.quads.map (exampleMesh.param exampleMeshC)
  option := option
  bound := none
  linSolve := Spec.inverseSolve
  settings := { tol := 1 / 1000, minIter := 1, maxIter := 20 }
  withForce := true

theorem exampleMesh_linear : Spec.LinearElems 14 (exampleMesh.quads.map (exampleMesh.param exampleMeshC)) := by
  intro e he
  obtain ⟨q, hq, rfl⟩ := List.mem_map.1 he
  refine ⟨tile_fits (skills := exampleMesh.linear exampleMeshC) (exampleMesh_valid.node q hq), fun (s : ℝ → Skill 4 2) hs => ?_⟩
  obtain rfl := List.mem_singleton.1 hs
  refine linearElastic_linear _ (by simpa using exampleMeshC_posDef.isHermitian) exampleMeshC_posDef.posSemidef _ ?_
  intro gp hgp
  obtain ⟨p, hp, rfl⟩ := List.mem_map.1 hgp
  obtain ⟨g, hg, rfl⟩ := List.mem_map.1 hp
  exact mul_nonneg (abs_nonneg _) ((EAS.gauss_exact 2).1.2 g hg).le

theorem exampleMesh_proper (o : DBCOption) (ho : o ≠ .raw) : Spec.ProperLinear (exampleMeshAnalysis o) exampleMeshSupport where
  option := ho
  elems := exampleMesh_linear
  prescribed := by
    refine ⟨fun l i _ => ?_, fun i _ => ?_, fun i hi hne => ?_⟩
    · simp [Spec.prescribed, Spec.total, exampleMeshAnalysis]
    · simp [Spec.total, exampleMeshAnalysis]
    · have h2 : 2 ≤ i := by
        by_contra h
        exact hne (if_neg h)
      have hi : i < 14 := hi
      show exampleMeshFlags[i]? = some true
      interval_cases i <;> rfl
  force := Or.inl rfl
  alive _ _ := rfl
  bound _ h := absurd h (by simp [exampleMeshAnalysis])
  linSolve l x hx A hA := inverseSolve_solves (exampleMeshAnalysis o) ho exampleMesh_linear exampleMesh_supported l x hx A hA

/-- Load control in four steps from the undeformed state shows the homogeneous states. -/
example (o : DBCOption) (ho : o ≠ .raw) : ∃ r, (exampleMeshAnalysis o).loadControl? 4 0 1 ⟨0, some (List.replicate 14 0)⟩ = some r ∧
    r.info.success = true ∧ Spec.shown r = (List.range 5).map fun k : Nat => ⟨0 + k * ((1 - 0) / (4 : Nat)),
      some (exampleMesh.field ((0 + k * ((1 - 0) / (4 : Nat)) : ℝ) • ![1, 0]) ((0 + k * ((1 - 0) / (4 : Nat)) : ℝ) • exampleGradient))⟩ := by
  refine mesh_load_control (a := exampleMeshAnalysis o) exampleMesh_valid rfl exampleMesh_nodes exampleMeshC rfl _ _ (exampleMesh_proper o ho) (fun i hi => ?_)
    ⟨by norm_num [exampleMeshAnalysis], by norm_num [exampleMeshAnalysis], by norm_num [exampleMeshAnalysis]⟩ le_rfl
    exampleMesh_supported 4 (by norm_num) 0 1 0 rfl (fun i hi => ?_) (fun k hk _ h0 => ?_)
  · refine if_pos ?_
    rcases i with _ | _ | i
    · cases hi
    · cases hi
    · omega
  · have hi : i < 14 := (List.getElem?_eq_some_iff.1 hi).1
    rw [List.getElem?_replicate, if_pos hi, zero_mul]
  · have : (0 : ℝ) < k := by exact_mod_cast hk
    norm_num at h0
    omega

/-- The mesh with St. Venant-Kirchhoff material under any homogeneous deformation. -/
example (law : Law 3) (gp : Element.Spec.GradientPoint 4 2 → Point 4 2 3) (hgp : ∀ p, Solid EAS.plane p (gp p)) (c : Fin 2 → ℝ)
    (G : Matrix (Fin 2) (Fin 2) ℝ) := mesh_nonlinear_patch exampleMesh_valid exampleMeshFlags rfl exampleMesh_nodes law gp hgp c G rfl

/-- The mesh with the seven modes `E7` on each element. -/
example (law : Law 3) (gp : Element.Spec.GradientPoint 4 2 → Point 4 2 3) (hgp : ∀ p, Solid EAS.plane p (gp p)) (c : Fin 2 → ℝ)
    (G : Matrix (Fin 2) (Fin 2) ℝ) := (mesh_enhanced_patch exampleMesh_valid exampleMeshFlags rfl exampleMesh_nodes law gp hgp c G).1
      EAS.e7 fun q hq => (quad_meanFree _ exampleMesh_valid.exact (exampleMesh_valid.det q hq)).2.2.1

end Ikarus
