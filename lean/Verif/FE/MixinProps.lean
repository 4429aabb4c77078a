import Verif.FE.MixinModel
import Verif.FE.GatherProps
import Verif.FE.LoadProps
import Verif.FE.MembraneProps

/-!
Property C76: the assembled vector is the gradient of the assembled scalar and the assembled matrix the derivative of the
assembled vector, also for the reduced versions.
-/

namespace Ikarus

open Ikarus.Element Ikarus.Element.Spec

variable {n d : Nat}

/-! ### Specification -/

/-- A skill keeps its contract at `u`: it always succeeds, it adds to the vector and the matrix it is given, what it adds
to the vector is the gradient of its scalar and what it adds to the matrix the derivative of what it adds to the vector. -/
def Spec.SkillContract (s : Skill n d) (u : NodeVec n d) : Prop :=
  ∃ (E : NodeVec n d → ℝ) (F : NodeVec n d → NodeVec n d) (K : NodeVec n d → BlockMat n d),
    (∀ w, s.scalar w = some (E w)) ∧ (∀ w f, s.vector w f = some (f + F w)) ∧
    (∀ w M, s.matrix w M = some (M + K w)) ∧ GradientAt E (F u) u ∧ TangentAt F (K u) u

/-- The element fits to the system: dimensions, and all dofs are dofs of the system. -/
def Spec.ElemFits (size : Nat) (e : Elem) : Prop :=
  e.children.length = e.d ∧ (FETree.power e.children).nodeSize? = some e.n ∧
    ∃ dofs, e.dofs? = some dofs ∧ ∀ i ∈ dofs, i < size

/-- `x + t v` -/
def Spec.line (x v : List ℝ) (t : ℝ) : List ℝ := List.zipWith (fun a b => a + t * b) x v

/-! ### The skills of the code -/

/-- The skill NonLinearElastic. -/
noncomputable def Skill.nonLinearElastic {q : Nat} (law : Law q) (gps : List (Point n d q)) : Skill n d where
  scalar u := some (NonLinearElastic.calculateScalar false law gps u)
  vector u f := some (NonLinearElastic.calculateVector false law gps u f)
  matrix u K := some (NonLinearElastic.calculateMatrix false law gps u K)

/-- The skill LinearElastic. -/
noncomputable def Skill.linearElastic {q : Nat} (C : Matrix (Fin q) (Fin q) ℝ) (gps : List (LinPoint n d q)) :
    Skill n d where
  scalar u := some (LinearElastic.calculateScalar false C gps u)
  vector u f := some (LinearElastic.calculateVector false C gps u f)
  matrix _ K := some (LinearElastic.calculateMatrix false C gps K)

/-- The skill VolumeLoad. -/
noncomputable def Skill.volumeLoad (load : Option (LoadFunction d)) (gps : List (LoadPoint n d)) (lambda : ℝ) :
    Skill n d where
  scalar u := some (VolumeLoad.calculateScalar load gps lambda u)
  vector _ f := some (VolumeLoad.calculateVector load gps lambda f)
  matrix _ K := some (VolumeLoad.calculateMatrix K)

/-- The skill NeumannBoundaryLoad (traction). -/
noncomputable def Skill.traction (boundary : Option (List (Traction.Intersection n d))) (load : Option (LoadFunction d))
    (lambda : ℝ) : Skill n d where
  scalar u := Traction.calculateScalar boundary load lambda u
  vector _ f := Traction.calculateVector boundary load lambda f
  matrix _ K := some K

/-- C76, skills. The nonlinear element keeps the contract of a skill wherever material and strain measure keep theirs. -/
theorem nonLinearElastic_skill {q : Nat} (law : Law q) (dom : Set (Fin q → ℝ)) (hl : LawContract law dom)
    (gps : List (Point n d q)) (u : NodeVec n d) (hp : ∀ gp ∈ gps, StrainContract gp u)
    (hu : ∀ gp ∈ gps, gp.strain u ∈ dom) : Spec.SkillContract (Skill.nonLinearElastic law gps) u :=
  ⟨_, fun u => NonLinearElastic.calculateVector false law gps u 0,
    fun u => NonLinearElastic.calculateMatrix false law gps u 0, fun _ => rfl,
    fun w f => congrArg some (NonLinearElastic.nonLinearElastic_adds law gps w f 0).2.1,
    fun w M => congrArg some (NonLinearElastic.nonLinearElastic_adds law gps w 0 M).1,
    NonLinearElastic.nonLinearElastic_gradient law dom hl gps u hp hu,
    (NonLinearElastic.nonLinearElastic_tangent law dom hl gps u hp hu).1⟩

/-- C76, skills. The linear element keeps the contract everywhere. -/
theorem linearElastic_skill {q : Nat} (C : Matrix (Fin q) (Fin q) ℝ) (hC : C.IsSymm) (gps : List (LinPoint n d q))
    (u : NodeVec n d) : Spec.SkillContract (Skill.linearElastic C gps) u := by
  refine ⟨_, fun u => LinearElastic.calculateVector false C gps u 0,
    fun _ => LinearElastic.calculateMatrix false C gps 0, fun _ => rfl,
    fun w f => congrArg some (LinearElastic.linearElastic_adds C gps w f 0).2.1,
    fun w M => congrArg some (LinearElastic.linearElastic_adds C gps w 0 M).1, ?_, ?_⟩
  · exact (LinearElastic.linearElastic_consistent C hC gps u).1
  · exact (LinearElastic.linearElastic_consistent C hC gps u).2

/-- C76, skills. The volume load keeps the contract everywhere. -/
theorem volumeLoad_skill (load : Option (LoadFunction d)) (gps : List (LoadPoint n d)) (lambda : ℝ) (u : NodeVec n d) :
    Spec.SkillContract (Skill.volumeLoad load gps lambda) u := by
  cases load with
  | none =>
    refine ⟨fun _ => 0, fun _ => 0, fun _ => 0, fun _ => rfl, fun w f => ?_, fun w M => ?_, fun v => ?_,
      tangent_const _ u⟩
    · rw [add_zero]; rfl
    · rw [add_zero]; rfl
    · rw [show Spec.work (0 : NodeVec n d) v = 0 by simp [work]]
      exact hasDerivAt_const _ _
  | some f =>
    refine ⟨_, fun _ => VolumeLoad.calculateVector (some f) gps lambda 0, fun _ => 0, fun _ => rfl,
      fun w force => congrArg some (volumeLoad_consistent f gps lambda u force 0).2.2.1, fun w M => ?_,
      (volumeLoad_consistent f gps lambda u 0 0).1, (volumeLoad_consistent f gps lambda u 0 0).2.1⟩
    rw [add_zero]; rfl

/-- C76, skills. The traction keeps the contract everywhere if both patch and load function are given. -/
theorem traction_skill (is : List (Traction.Intersection n d)) (t : LoadFunction d) (lambda : ℝ) (u : NodeVec n d) :
    Spec.SkillContract (Skill.traction (some is) (some t) lambda) u := by
  obtain ⟨E, F, hE, -, -, hGT, -⟩ := traction_consistent is t lambda 0
  refine ⟨E, fun _ => F, fun _ => 0, hE, fun w f => ?_, fun w M => ?_, (hGT u).1, (hGT u).2⟩
  · obtain ⟨E', F', hE', hF', -, hGT', -⟩ := traction_consistent is t lambda f
    have hEE : E' = E := by funext w; have := hE w; rw [hE' w] at this; exact Option.some.inj this
    subst hEE
    have : F' = F := by
      funext I a
      have h1 := (hGT u).1 (fun I' a' => if I' = I ∧ a' = a then 1 else 0)
      have h2 := (hGT' u).1 (fun I' a' => if I' = I ∧ a' = a then 1 else 0)
      have h3 := h2.unique h1
      simpa [work, ite_and, Finset.sum_ite_eq'] using h3
    rw [← this]
    exact hF'
  · rw [add_zero]; rfl

/-! ### The mixin -/

/-- All skills of an element together. -/
noncomputable def Mixin.together (ss : List (Skill n d)) : Skill n d where
  scalar u := Mixin.calculateScalar u ss
  vector u := Mixin.calculateVector u ss
  matrix u := Mixin.calculateMatrix u ss

/-- C76, mixin. An element whose skills keep their contract keeps it as a whole: scalar, vector and matrix are the sums
of those of the skills. -/
theorem mixin_contract (ss : List (Skill n d)) (u : NodeVec n d) (h : ∀ s ∈ ss, Spec.SkillContract s u) :
    Spec.SkillContract (Mixin.together ss) u := by
  induction ss with
  | nil =>
    refine ⟨fun _ => 0, fun _ => 0, fun _ => 0, fun _ => rfl, fun w f => ?_, fun w M => ?_, fun v => ?_,
      tangent_const _ u⟩
    · rw [add_zero]; rfl
    · rw [add_zero]; rfl
    · rw [show Spec.work (0 : NodeVec n d) v = 0 by simp [work]]
      exact hasDerivAt_const _ _
  | cons s ss ih =>
    obtain ⟨E, F, K, hE, hF, hK, hG, hT⟩ := h s (by simp)
    obtain ⟨E', F', K', hE', hF', hK', hG', hT'⟩ := ih fun s' hs' => h s' (by simp [hs'])
    refine ⟨fun w => E w + E' w, fun w => F w + F' w, fun w => K w + K' w, fun w => ?_, fun w f => ?_, fun w M => ?_,
      fun v => ?_, fun v => ?_⟩
    · have := hE' w
      simp only [Mixin.together] at this
      simp [Mixin.together, Mixin.calculateScalar, hE w, this]
    · have := hF' w (f + F w)
      simp only [Mixin.together] at this
      simp [Mixin.together, Mixin.calculateVector, hF w f, this, add_assoc]
    · have := hK' w (M + K w)
      simp only [Mixin.together] at this
      simp [Mixin.together, Mixin.calculateMatrix, hK w M, this, add_assoc]
    · refine ((hG v).add (hG' v)).congr_deriv ?_
      simp [work, add_mul, Finset.sum_add_distrib]
    · refine ((hT v).add (hT' v)).congr_deriv ?_
      funext I a
      simp [mul, add_mul, Finset.sum_add_distrib]

/-! ### One element -/

open FETree

theorem line_getD (x v : List ℝ) (t : ℝ) (h : x.length = v.length) (i : Nat) :
    (Spec.line x v t).getD i 0 = x.getD i 0 + t * v.getD i 0 := by
  unfold Spec.line
  simp only [List.getD_eq_getElem?_getD, List.getElem?_zipWith]
  by_cases hi : i < x.length
  · rw [List.getElem?_eq_getElem hi, List.getElem?_eq_getElem (h ▸ hi)]; rfl
  · rw [List.getElem?_eq_none (by omega), List.getElem?_eq_none (by omega)]; simp

theorem line_length (x v : List ℝ) (t : ℝ) (h : x.length = v.length) : (Spec.line x v t).length = x.length := by
  simp [Spec.line, h]

/-- The nodal values of a global vector. -/
def gathered (n d : Nat) (dofs : List Nat) (x : List ℝ) : NodeVec n d :=
  fun I a => x.getD (dofs.getD (I * d + a) 0) 0

theorem gathered_line (dofs : List Nat) (x v : List ℝ) (t : ℝ) (h : x.length = v.length) :
    gathered n d dofs (Spec.line x v t) = gathered n d dofs x + t • gathered n d dofs v := by
  funext I a
  exact line_getD x v t h _

theorem local_eq {size : Nat} {e : Elem} {dofs : List Nat} (h1 : e.children.length = e.d)
    (h2 : (FETree.power e.children).nodeSize? = some e.n) (h3 : e.dofs? = some dofs) (h4 : ∀ i ∈ dofs, i < size)
    (x : List ℝ) (hx : x.length = size) :
    dofs.length = e.n * e.d ∧
    ∃ X, localSolution e.children.length x e.index (.power e.children) none = some X ∧
      e.local? x = some (gathered e.n e.d dofs x) ∧ X.flatten = Elem.flat (gathered e.n e.d dofs x) := by
  obtain ⟨g1, g2⟩ := globalIndices_power h2 h3
  obtain ⟨l1, l2⟩ := localSolution_gathers x e.index e.children e.n dofs h2 h3
  obtain ⟨X, hX⟩ := l1.2 fun i hi => by rw [hx]; exact h4 i hi
  obtain ⟨m1, m2, m3, m4⟩ := l2 X hX
  rw [h1] at g1 g2
  refine ⟨g1, X, hX, ?_, ?_⟩
  · have : e.local? x = some (Elem.nodes X) := by
      unfold Elem.local?
      rw [← h1, hX]
      rfl
    rw [this]
    congr 1
    funext I a
    have hk : I * e.d + a < dofs.length := by
      rw [g1]
      calc (I : Nat) * e.d + a < I * e.d + e.d := by omega
        _ = (I + 1) * e.d := by ring
        _ ≤ e.n * e.d := Nat.mul_le_mul_right _ I.2
    have h5 := m4 I a _ I.2 (by rw [h1]; exact a.2) (by rw [h1]; exact List.getElem?_eq_getElem hk)
    unfold Elem.nodes gathered
    simp only [List.getD_eq_getElem?_getD]
    rw [List.getElem?_eq_getElem hk, Option.getD_some, ← h5]
    cases h6 : X[(I : Nat)]? with
    | none => simp
    | some row => simp
  · apply List.ext_getElem?
    intro k
    by_cases hk : k < dofs.length
    · rw [m3 k _ (List.getElem?_eq_getElem hk)]
      have hk' : k < e.n * e.d := g1 ▸ hk
      unfold Elem.flat
      rw [List.getElem?_ofFn, dif_pos hk']
      unfold gathered
      have h6 : ((⟨k, hk'⟩ : Fin (e.n * e.d)).divNat : Nat) * e.d + ((⟨k, hk'⟩ : Fin (e.n * e.d)).modNat : Nat) = k := by
        simp only [Fin.coe_divNat, Fin.coe_modNat]
        rw [mul_comm]; exact Nat.div_add_mod k e.d
      rw [h6]
      have h7 : dofs.getD k 0 = dofs[k] := by simp [List.getD_eq_getElem?_getD, List.getElem?_eq_getElem hk]
      rw [h7]
      have h8 : dofs[k] < x.length := by rw [hx]; exact h4 _ (List.getElem_mem hk)
      simp [List.getD_eq_getElem?_getD, List.getElem?_eq_getElem h8]
    · rw [List.getElem?_eq_none (by omega), List.getElem?_eq_none (by simp [Elem.flat]; omega)]

theorem flat_length (f : NodeVec n d) : (Elem.flat f).length = n * d := by simp [Elem.flat]

theorem sum_range_nodes (g : Nat → ℝ) : ∑ k ∈ Finset.range (n * d), g k = ∑ I : Fin n, ∑ a : Fin d, g (a + d * I) := by
  rw [Finset.sum_range, ← finProdFinEquiv.sum_comp, Fintype.sum_prod_type]
  rfl

theorem flat_getD (f : NodeVec n d) (I : Fin n) (a : Fin d) : (Elem.flat f).getD (a + d * I) 0 = f I a := by
  have h := (finProdFinEquiv (I, a)).2
  have hc : ((finProdFinEquiv (I, a) : Fin (n * d)) : Nat) = a + d * I := rfl
  unfold Elem.flat
  rw [List.getD_eq_getElem?_getD, List.getElem?_ofFn, dif_pos (by rw [← hc]; exact h)]
  have h2 := finProdFinEquiv.symm_apply_apply (I, a)
  have h3 : (⟨a + d * I, by rw [← hc]; exact h⟩ : Fin (n * d)) = finProdFinEquiv (I, a) := Fin.ext rfl
  rw [h3]
  have h4 : (finProdFinEquiv (I, a)).divNat = I := congrArg Prod.fst h2
  have h5 : (finProdFinEquiv (I, a)).modNat = a := congrArg Prod.snd h2
  rw [h4, h5]; rfl

theorem flatMat_val (K : BlockMat n d) (I J : Fin n) (a b : Fin d) :
    (Elem.flatMat K).val (a + d * I) (b + d * J) = K I J a b := by
  have key : ∀ (I : Fin n) (a : Fin d), ∃ h : (a : Nat) + d * I < n * d,
      (⟨a + d * I, h⟩ : Fin (n * d)).divNat = I ∧ (⟨a + d * I, h⟩ : Fin (n * d)).modNat = a := by
    intro I a
    have h := (finProdFinEquiv (I, a)).2
    have h2 := finProdFinEquiv.symm_apply_apply (I, a)
    exact ⟨h, congrArg Prod.fst h2, congrArg Prod.snd h2⟩
  obtain ⟨h1, h2, h3⟩ := key I a
  obtain ⟨h4, h5, h6⟩ := key J b
  unfold Elem.flatMat
  simp only [h1, h4, and_self, dif_pos, h2, h3, h5, h6]

theorem dotL_flat (f v : NodeVec n d) : Spec.dotL (Elem.flat f) (Elem.flat v) = work f v := by
  rw [dotL_eq_sum _ _ (n * d) (flat_length f) (flat_length v), sum_range_nodes]
  simp only [flat_getD]
  rfl

theorem bilinear_flat (K : BlockMat n d) (u v : NodeVec n d) :
    ∑ i ∈ Finset.range (n * d), ∑ j ∈ Finset.range (n * d),
      (Elem.flat u).getD i 0 * (Elem.flatMat K).val i j * (Elem.flat v).getD j 0 = work (mul K v) u := by
  rw [sum_range_nodes]
  unfold work
  refine Finset.sum_congr rfl fun I _ => Finset.sum_congr rfl fun a _ => ?_
  rw [sum_range_nodes]
  simp only [flat_getD, flatMat_val, mul, Finset.sum_mul]
  refine Finset.sum_congr rfl fun J _ => Finset.sum_congr rfl fun b _ => ?_
  ring

/-! ### The system -/

/-- An element of the system with what its skills add. -/
structure Resolved (size : Nat) (x : List ℝ) where
  e : Elem
  dofs : List Nat
  E : NodeVec e.n e.d → ℝ
  F : NodeVec e.n e.d → NodeVec e.n e.d
  K : NodeVec e.n e.d → BlockMat e.n e.d
  dim : e.children.length = e.d
  nodes : (FETree.power e.children).nodeSize? = some e.n
  hdofs : e.dofs? = some dofs
  bound : ∀ i ∈ dofs, i < size
  hE : ∀ w, Mixin.calculateScalar w e.skills = some (E w)
  hF : ∀ w f, Mixin.calculateVector w e.skills f = some (f + F w)
  hK : ∀ w M, Mixin.calculateMatrix w e.skills M = some (M + K w)
  grad : GradientAt E (F (gathered e.n e.d dofs x)) (gathered e.n e.d dofs x)
  tang : TangentAt F (K (gathered e.n e.d dofs x)) (gathered e.n e.d dofs x)

/-- The hypothesis of the theorems below: the elements fit and their skills keep their contracts at the displacements
which the element extracts from the global solution. -/
def Spec.SystemContract (s : System) (x : List ℝ) : Prop :=
  x.length = s.flags.length ∧ ∀ e ∈ s.elems, Spec.ElemFits s.flags.length e ∧
    ∀ u, e.local? x = some u → ∀ sk ∈ e.skills, Spec.SkillContract sk u

theorem resolve {s : System} {x : List ℝ} (h : Spec.SystemContract s x) :
    ∃ rs : List (Resolved s.flags.length x), s.elems = rs.map (·.e) := by
  obtain ⟨hx, h⟩ := h
  generalize s.elems = es at h
  induction es with
  | nil => exact ⟨[], rfl⟩
  | cons e es ih =>
    obtain ⟨rs, hrs⟩ := ih fun e' he' => h e' (by simp [he'])
    obtain ⟨⟨h1, h2, dofs, h3, h4⟩, h5⟩ := h e (by simp)
    obtain ⟨-, X, -, hl, -⟩ := local_eq h1 h2 h3 h4 x hx
    obtain ⟨E, F, K, hE, hF, hK, hG, hT⟩ := mixin_contract e.skills _ (h5 _ hl)
    exact ⟨⟨e, dofs, E, F, K, h1, h2, h3, h4, hE, hF, hK, hG, hT⟩ :: rs, by simp [hrs]⟩

theorem mapOpt_map {β γ δ : Type*} (f : γ → Option δ) (g : β → γ) (k : β → δ) (l : List β)
    (h : ∀ b ∈ l, f (g b) = some (k b)) : mapOpt f (l.map g) = some (l.map k) := by
  induction l with
  | nil => rfl
  | cons b l ih =>
    simp only [List.map_cons, mapOpt]
    rw [h b (by simp), Option.bind_some, ih fun b' hb' => h b' (by simp [hb'])]
    rfl

section resolved

variable {s : System} {x : List ℝ} {rs : List (Resolved s.flags.length x)}

theorem Resolved.local (r : Resolved s.flags.length x) {y : List ℝ} (hy : y.length = s.flags.length) :
    r.e.local? y = some (gathered r.e.n r.e.d r.dofs y) := by
  obtain ⟨-, X, -, hl, -⟩ := local_eq r.dim r.nodes r.hdofs r.bound y hy
  exact hl

theorem scalar_resolved (hrs : s.elems = rs.map (·.e)) {y : List ℝ} (hy : y.length = s.flags.length) :
    s.scalar? y = some (rs.map fun r => r.E (gathered r.e.n r.e.d r.dofs y)).sum := by
  unfold System.scalar?
  rw [hrs, mapOpt_map (fun e : Elem => e.scalar? y) (fun r : Resolved s.flags.length x => r.e)
    (fun r => r.E (gathered r.e.n r.e.d r.dofs y)) rs ?_, Option.map_some,
    scalar_eq_sum]
  intro r _
  unfold Elem.scalar?
  rw [r.local hy, Option.bind_some, r.hE]

theorem vectors_resolved (hrs : s.elems = rs.map (·.e)) {y : List ℝ} (hy : y.length = s.flags.length) :
    mapOpt (·.vector? y) s.elems =
      some (rs.map fun r => ⟨r.dofs, Elem.flat (r.F (gathered r.e.n r.e.d r.dofs y))⟩) := by
  rw [hrs]
  refine mapOpt_map _ _ _ _ fun r _ => ?_
  unfold Elem.vector?
  rw [r.hdofs, Option.bind_some, r.local hy, Option.bind_some, r.hF, zero_add, Option.map_some]

theorem matrices_resolved (hrs : s.elems = rs.map (·.e)) {y : List ℝ} (hy : y.length = s.flags.length) :
    mapOpt (·.matrix? y) s.elems =
      some (rs.map fun r => ⟨r.dofs, Elem.flatMat (r.K (gathered r.e.n r.e.d r.dofs y))⟩) := by
  rw [hrs]
  refine mapOpt_map _ _ _ _ fun r _ => ?_
  unfold Elem.matrix?
  rw [r.hdofs, Option.bind_some, r.local hy, Option.bind_some, r.hK, zero_add, Option.map_some]

theorem Resolved.dofs_length (r : Resolved s.flags.length x) (hx : x.length = s.flags.length) :
    r.dofs.length = r.e.n * r.e.d := (local_eq r.dim r.nodes r.hdofs r.bound x hx).1

theorem rawVector_resolved (hrs : s.elems = rs.map (·.e)) (hx : x.length = s.flags.length) {y : List ℝ}
    (hy : y.length = s.flags.length) :
    ∃ v, s.rawVector? y = some v ∧ v.length = s.flags.length ∧ ∀ w : List ℝ, w.length = s.flags.length →
      Spec.dotL v w =
        (rs.map fun r => work (r.F (gathered r.e.n r.e.d r.dofs y)) (gathered r.e.n r.e.d r.dofs w)).sum := by
  unfold System.rawVector?
  rw [vectors_resolved hrs hy, Option.bind_some]
  obtain ⟨v, hv⟩ := (rawVector_defined_iff (Assembler.create s.flags)
    (rs.map fun r => ⟨r.dofs, Elem.flat (r.F (gathered r.e.n r.e.d r.dofs y))⟩)).2 (by
      intro e he
      obtain ⟨r, -, rfl⟩ := List.mem_map.1 he
      exact ⟨by rw [flat_length, r.dofs_length hx], r.bound⟩)
  refine ⟨v, hv, (rawVector_eq_sum _ _ v hv).1, fun w hw => ?_⟩
  have := assembly_adjoint_vector (Assembler.create s.flags) w v
    (rs.map fun r => ⟨r.e.index, r.e.children, Elem.flat (r.F (gathered r.e.n r.e.d r.dofs y)), .zero 0 0, r.dofs,
      Elem.flat (gathered r.e.n r.e.d r.dofs w)⟩) hw (by
      intro e he
      obtain ⟨r, -, rfl⟩ := List.mem_map.1 he
      obtain ⟨h1, X, hX, -, hfl⟩ := local_eq r.dim r.nodes r.hdofs r.bound w hw
      exact ⟨r.hdofs, ⟨X, hX, hfl.symm⟩, by rw [flat_length, h1]⟩) (by rw [List.map_map]; exact hv)
  rw [this, List.map_map]
  congr 1
  exact List.map_congr_left fun r _ => dotL_flat _ _

theorem rawMatrix_resolved (hrs : s.elems = rs.map (·.e)) (hx : x.length = s.flags.length) {y : List ℝ}
    (hy : y.length = s.flags.length) :
    ∃ K, s.rawMatrix? y = some K ∧ K.rows = s.flags.length ∧ K.cols = s.flags.length ∧
      ∀ u v : List ℝ, u.length = s.flags.length → v.length = s.flags.length →
      ∑ r ∈ Finset.range s.flags.length, ∑ c ∈ Finset.range s.flags.length, u.getD r 0 * K.val r c * v.getD c 0 =
        (rs.map fun r => work (mul (r.K (gathered r.e.n r.e.d r.dofs y)) (gathered r.e.n r.e.d r.dofs v))
          (gathered r.e.n r.e.d r.dofs u)).sum := by
  unfold System.rawMatrix?
  rw [matrices_resolved hrs hy, Option.bind_some]
  obtain ⟨K, hK⟩ := (rawMatrix_defined_iff (Assembler.create s.flags)
    (rs.map fun r => ⟨r.dofs, Elem.flatMat (r.K (gathered r.e.n r.e.d r.dofs y))⟩)).2 (by
      intro e he
      obtain ⟨r, -, rfl⟩ := List.mem_map.1 he
      exact ⟨fun _ => ⟨(r.dofs_length hx).le, (r.dofs_length hx).le⟩, r.bound⟩)
  obtain ⟨k1, k2, -⟩ := rawMatrix_eq_sum _ _ K hK
  refine ⟨K, hK, k1, k2, fun u v hu hv => ?_⟩
  have := assembly_adjoint_matrix (Assembler.create s.flags) u v K
    (rs.map fun r => (⟨r.e.index, r.e.children, Elem.flat (gathered r.e.n r.e.d r.dofs v),
      Elem.flatMat (r.K (gathered r.e.n r.e.d r.dofs y)), r.dofs,
      Elem.flat (gathered r.e.n r.e.d r.dofs v)⟩, Elem.flat (gathered r.e.n r.e.d r.dofs u))) hu hv (by
      intro e he
      obtain ⟨r, -, rfl⟩ := List.mem_map.1 he
      obtain ⟨h1, X, hX, -, hfl⟩ := local_eq r.dim r.nodes r.hdofs r.bound v hv
      obtain ⟨h1', X', hX', -, hfl'⟩ := local_eq r.dim r.nodes r.hdofs r.bound u hu
      exact ⟨⟨r.hdofs, ⟨X, hX, hfl.symm⟩, by rw [flat_length, h1]⟩,
        ⟨r.hdofs, ⟨X', hX', hfl'.symm⟩, by rw [flat_length, h1]⟩⟩) (by rw [List.map_map]; exact hK)
  rw [show (Assembler.create s.flags).size = s.flags.length from rfl] at this
  rw [this, List.map_map]
  congr 1
  refine List.map_congr_left fun r _ => ?_
  show ∑ i ∈ Finset.range r.dofs.length, ∑ j ∈ Finset.range r.dofs.length, _ = _
  rw [r.dofs_length hx]
  exact bilinear_flat _ _ _

end resolved

theorem hasDerivAt_work {f : ℝ → NodeVec n d} {f' : NodeVec n d} {t : ℝ} (h : HasDerivAt f f' t) (w : NodeVec n d) :
    HasDerivAt (fun t => work (f t) w) (work f' w) t := by
  unfold work
  refine HasDerivAt.fun_sum fun I _ => HasDerivAt.fun_sum fun a _ => ?_
  exact ((hasDerivAt_pi.1 (hasDerivAt_pi.1 h I)) a).mul_const _

/-- C76. For every mesh, dof numbering and solution at which the elements keep their contracts: scalar, vector and matrix
are defined; the derivative of the assembled scalar along any direction is the assembled vector times the direction; and
the derivative of the assembled vector, tested with any vector, is that of the assembled matrix times the direction. -/
theorem assembled_consistent (s : System) (x : List ℝ) (h : Spec.SystemContract s x) :
    (∀ y : List ℝ, y.length = s.flags.length → (s.scalar? y).isSome ∧ (s.rawVector? y).isSome) ∧
    ∃ r K, s.rawVector? x = some r ∧ s.rawMatrix? x = some K ∧
      ∀ v : List ℝ, v.length = s.flags.length →
        HasDerivAt (fun t => (s.scalar? (Spec.line x v t)).getD 0) (Spec.dotL r v) 0 ∧
        ∀ i, i < s.flags.length → HasDerivAt (fun t => ((s.rawVector? (Spec.line x v t)).getD []).getD i 0)
          (∑ j ∈ Finset.range s.flags.length, K.val i j * v.getD j 0) 0 := by
  obtain ⟨rs, hrs⟩ := resolve h
  have hx := h.1
  refine ⟨fun y hy => ⟨by rw [scalar_resolved hrs hy]; rfl, ?_⟩, ?_⟩
  · obtain ⟨v, hv, -⟩ := rawVector_resolved hrs hx hy
    rw [hv]; rfl
  obtain ⟨r, hr, hrl, hr2⟩ := rawVector_resolved hrs hx hx
  obtain ⟨K, hK, -, -, hK2⟩ := rawMatrix_resolved hrs hx hx
  refine ⟨r, K, hr, hK, fun v hv => ⟨?_, fun i hi => ?_⟩⟩
  · rw [hr2 v hv]
    have hl : ∀ t, (s.scalar? (Spec.line x v t)).getD 0 = (rs.map fun r =>
        r.E (gathered r.e.n r.e.d r.dofs x + t • gathered r.e.n r.e.d r.dofs v)).sum := by
      intro t
      rw [scalar_resolved hrs (by rw [line_length x v t (hx.trans hv.symm), hx]), Option.getD_some]
      congr 1
      exact List.map_congr_left fun r _ => by rw [gathered_line _ x v t (hx.trans hv.symm)]
    simp only [hl]
    exact hasDerivAt_list_sum _ _ _ _ fun r _ => r.grad _
  · have hul : ((List.range s.flags.length).map fun k => if k = i then (1 : ℝ) else 0).length = s.flags.length := by
      simp
    have hug : ∀ k ∈ Finset.range s.flags.length,
        ((List.range s.flags.length).map fun k => if k = i then (1 : ℝ) else 0).getD k 0 = if k = i then 1 else 0 := by
      intro k hk
      simp [List.getD_eq_getElem?_getD, List.getElem?_range (Finset.mem_range.1 hk)]
    generalize hu : ((List.range s.flags.length).map fun k => if k = i then (1 : ℝ) else 0) = u at hul hug
    have hl : ∀ t, ((s.rawVector? (Spec.line x v t)).getD []).getD i 0 = (rs.map fun r =>
        work (r.F (gathered r.e.n r.e.d r.dofs x + t • gathered r.e.n r.e.d r.dofs v))
          (gathered r.e.n r.e.d r.dofs u)).sum := by
      intro t
      obtain ⟨r', hr', hrl', hr2'⟩ := rawVector_resolved hrs hx
        (y := Spec.line x v t) (by rw [line_length x v t (hx.trans hv.symm), hx])
      have := hr2' u hul
      rw [dotL_eq_sum _ _ s.flags.length hrl' hul] at this
      rw [hr', Option.getD_some]
      rw [Finset.sum_congr rfl fun k hk => by rw [hug k hk]] at this
      simp only [mul_ite, mul_one, mul_zero, Finset.sum_ite_eq', Finset.mem_range, hi, if_true] at this
      rw [this]
      congr 1
      exact List.map_congr_left fun r _ => by rw [gathered_line _ x v t (hx.trans hv.symm)]
    simp only [hl]
    have hd := hasDerivAt_list_sum rs (fun r t => work (r.F (gathered r.e.n r.e.d r.dofs x + t •
      gathered r.e.n r.e.d r.dofs v)) (gathered r.e.n r.e.d r.dofs u)) _ 0 fun r _ => hasDerivAt_work (r.tang _) _
    refine hd.congr_deriv ?_
    rw [← hK2 u v hul hv]
    rw [Finset.sum_congr rfl fun k hk => by rw [hug k hk]]
    simp [Finset.sum_ite_eq', hi, ite_mul]

/-- C76, reduced. With Dirichlet conditions: along the full vector of any reduced direction `w` the derivative of the
scalar is the reduced vector times `w`, and the derivative of the reduced vector is the reduced matrix times `w`. -/
theorem reduced_consistent (s : System) (x : List ℝ) (h : Spec.SystemContract s x) :
    ∃ r K m, s.reducedVector? x = some r ∧ s.reducedMatrix? x = some K ∧
      (Assembler.create s.flags).reducedSize? = some m ∧ r.length = m ∧ K.rows = m ∧ K.cols = m ∧
      ∀ w : List ℝ, w.length = m → ∃ v, (Assembler.create s.flags).createFullVector? w = some v ∧
        HasDerivAt (fun t => (s.scalar? (Spec.line x v t)).getD 0) (Spec.dotL r w) 0 ∧
        ∀ k, k < m → HasDerivAt (fun t => ((s.reducedVector? (Spec.line x v t)).getD []).getD k 0)
          (∑ l ∈ Finset.range m, K.val k l * w.getD l 0) 0 := by
  obtain ⟨hdef, R, A, hR, hA, hder⟩ := assembled_consistent s x h
  have hx := h.1
  have hred : ∀ y R, s.rawVector? y = some R →
      s.reducedVector? y = some (Spec.selectFree s.flags R) ∧ R.length = s.flags.length := by
    intro y R hy
    unfold System.rawVector? at hy
    unfold System.reducedVector?
    obtain ⟨fes, h1, h2⟩ := Option.bind_eq_some_iff.1 hy
    rw [h1, Option.bind_some, reducedVector_eq_select s.flags fes R h2]
    exact ⟨rfl, (rawVector_eq_sum _ _ R h2).1⟩
  obtain ⟨hr, hRl⟩ := hred x R hR
  have hmat : ∃ K, s.reducedMatrix? x = some K ∧ K.rows = s.flags.count false ∧ K.cols = s.flags.count false ∧
      ∀ i j, Spec.Free s.flags i → Spec.Free s.flags j → K.val (Spec.rank s.flags i) (Spec.rank s.flags j) = A.val i j := by
    unfold System.rawMatrix? at hA
    unfold System.reducedMatrix?
    obtain ⟨fes, h1, h2⟩ := Option.bind_eq_some_iff.1 hA
    obtain ⟨K, k1, k2, k3, k4⟩ := reducedMatrix_eq s.flags fes A h2
    rw [Assembler.reducedSize?_create] at k2 k3
    refine ⟨K, by rw [h1, Option.bind_some, k1], (Option.some.inj k2).symm, (Option.some.inj k3).symm,
      fun i j hi hj => ?_⟩
    obtain ⟨ki, kj, e1, e2, -, -, e3⟩ := k4 i j hi hj
    rw [Assembler.reducedIndex?_create (free_lt hi)] at e1
    rw [Assembler.reducedIndex?_create (free_lt hj)] at e2
    rw [Option.some.inj e1, Option.some.inj e2, e3]
  obtain ⟨K, hK, hK1, hK2, hK3⟩ := hmat
  refine ⟨_, K, s.flags.count false, hr, hK, Assembler.reducedSize?_create s.flags, selectFree_length hRl, hK1, hK2,
    fun w hw => ?_⟩
  obtain ⟨v, hv, hvl, hv0, hvr⟩ := reduced_full_roundtrip s.flags w (by rw [Assembler.reducedSize?_create, hw])
  have hsel : Spec.selectFree s.flags v = w := by
    rw [createReducedVector_eq s.flags v hvl] at hvr
    exact (List.map_injective_iff.2 (Option.some_injective ℝ)) (Option.some.inj hvr)
  have hget : ∀ (l : List ℝ), l.length = s.flags.length → ∀ i, Spec.Free s.flags i →
      (Spec.selectFree s.flags l).getD (Spec.rank s.flags i) 0 = l.getD i 0 := by
    intro l hl i hi
    simp only [List.getD]
    rw [selectFree_getElem? hl hi]
  have hzero : ∀ i, i < s.flags.length → ¬ Spec.Free s.flags i → v.getD i 0 = 0 := by
    intro i hi hf
    have : s.flags[i]? = some true := by
      unfold Spec.Free at hf
      rw [List.getElem?_eq_getElem hi] at hf ⊢
      cases hb : s.flags[i] <;> simp_all
    rw [List.getD_eq_getElem?_getD, hv0 i this, Option.getD_some]
  have hsum : ∀ f : Nat → ℝ, (∑ i ∈ (Finset.range s.flags.length).filter (fun i => Spec.Free s.flags i),
      f i * v.getD i 0) = ∑ i ∈ Finset.range s.flags.length, f i * v.getD i 0 := by
    intro f
    rw [Finset.sum_filter]
    refine Finset.sum_congr rfl fun i hi => ?_
    by_cases hf : Spec.Free s.flags i
    · rw [if_pos hf]
    · rw [if_neg hf, hzero i (Finset.mem_range.1 hi) hf, mul_zero]
  obtain ⟨hd1, hd2⟩ := hder v hvl
  refine ⟨v, hv, hd1.congr_deriv ?_, fun k hk => ?_⟩
  · rw [dotL_eq_sum R v _ hRl hvl, dotL_eq_sum _ w (s.flags.count false) (selectFree_length hRl) hw, sum_reduced,
      ← hsum]
    refine Finset.sum_congr rfl fun i hi => ?_
    have hf := (Finset.mem_filter.1 hi).2
    rw [hget R hRl i hf, ← hsel, hget v hvl i hf]
  · obtain ⟨i, hi, rfl⟩ := rank_surj s.flags hk
    have hfun : ∀ t, ((s.reducedVector? (Spec.line x v t)).getD []).getD (Spec.rank s.flags i) 0 =
        ((s.rawVector? (Spec.line x v t)).getD []).getD i 0 := by
      intro t
      obtain ⟨R', hR'⟩ := Option.isSome_iff_exists.1
        (hdef (Spec.line x v t) (by rw [line_length x v t (hx.trans hvl.symm), hx])).2
      obtain ⟨h1, h2⟩ := hred _ R' hR'
      rw [h1, hR', Option.getD_some, Option.getD_some, hget R' h2 i hi]
    simp only [hfun]
    refine (hd2 i (free_lt hi)).congr_deriv ?_
    rw [sum_reduced, ← hsum]
    refine Finset.sum_congr rfl fun j hj => ?_
    have hf := (Finset.mem_filter.1 hj).2
    rw [hK3 i j hi hf, ← hsel, hget v hvl j hf]

/-! ### Example: two bars, clamped at the left, with a volume load and a traction -/

/-- A bar with two nodes, stiffness 3, a volume load and a traction on its right end. -/
noncomputable def exampleBar (index : List Nat) : Elem where
  n := 2
  d := 1
  children := [.leaf [0, 1]]
  index := index
  skills := [.linearElastic !![(3 : ℝ)] [⟨2, 1, ![!![-1 / 2], !![1 / 2]]⟩],
    .volumeLoad (some fun _ l => ![l]) [⟨![0], 2, 1, ![1 / 2, 1 / 2]⟩] 5,
    .traction (some [⟨true, [⟨![1], 1, 1, ![0, 1]⟩]⟩]) (some fun x l => ![l * x 0]) 5]

noncomputable def exampleSystem : System where
  flags := [true, false, false]
  elems := [exampleBar [0, 1], exampleBar [1, 2]]

theorem exampleBar_skills (i : List Nat) (u : NodeVec (exampleBar i).n (exampleBar i).d) :
    ∀ sk ∈ (exampleBar i).skills, Spec.SkillContract sk u := by
  revert u
  intro (u : NodeVec 2 1) (sk : Skill 2 1) hsk
  rcases List.mem_cons.1 hsk with rfl | hsk
  · refine linearElastic_skill _ ?_ _ _
    ext a b; fin_cases a; fin_cases b; rfl
  rcases List.mem_cons.1 hsk with rfl | hsk
  · exact volumeLoad_skill _ _ _ _
  rcases List.mem_cons.1 hsk with rfl | hsk
  · exact traction_skill _ _ _ _
  · exact absurd hsk List.not_mem_nil

/-- The hypotheses hold at every solution. -/
theorem exampleSystem_contract (x0 x1 x2 : ℝ) : Spec.SystemContract exampleSystem [x0, x1, x2] := by
  refine ⟨rfl, ?_⟩
  have hf : ∀ a b, a < 3 → b < 3 → Spec.ElemFits 3 (exampleBar [a, b]) := by
    intro a b ha hb
    refine ⟨rfl, rfl, [a, b], ?_, by simp [ha, hb]⟩
    simp [Elem.dofs?, exampleBar, globalIndices, firstIsLeaf, powerNodeIndices, leafSize?, childIndex?, leafIndex?,
      mapOpt, List.range, List.range.loop]
  intro e he
  simp only [exampleSystem, List.mem_cons, List.not_mem_nil, or_false] at he
  rcases he with rfl | rfl
  · exact ⟨hf 0 1 (by norm_num) (by norm_num), fun u _ => exampleBar_skills _ u⟩
  · exact ⟨hf 1 2 (by norm_num) (by norm_num), fun u _ => exampleBar_skills _ u⟩

end Ikarus
