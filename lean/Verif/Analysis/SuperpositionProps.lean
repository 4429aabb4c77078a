import Verif.Analysis.SmallLoadProps
import Verif.Analysis.UnitsProps

/-!
C118: linear structures under several loads.
-/

namespace Ikarus

open Matrix Element Element.Spec

/-! ### Specification -/

/-- A skill with stiffness only: the energy is a quadratic form of the displacements and does not depend on the load factor. -/
def Spec.StiffSkill {n d : Nat} (s : ℝ → Skill n d) : Prop :=
  ∃ K : BlockMat n d, Symmetric K ∧ (∀ v, 0 ≤ work (mul K v) v) ∧ ∀ l u, (s l).scalar u = some (1 / 2 * work (mul K u) u) ∧
    (∀ r, (s l).vector u r = some (r + mul K u)) ∧ ∀ M, (s l).matrix u M = some (M + K)

/-- A skill with loads only: forces that do not depend on the displacements. -/
def Spec.LoadSkill {n d : Nat} (s : ℝ → Skill n d) : Prop :=
  ∃ f : ℝ → NodeVec n d, ∀ l u, (s l).scalar u = some (work (f l) u) ∧ (∀ r, (s l).vector u r = some (r + f l)) ∧
    ∀ M, (s l).matrix u M = some M

/-- An element with two sets of loads. -/
structure Spec.LoadCases where
  n : Nat
  d : Nat
  children : List FETree
  index : List Nat
  stiffness : List (ℝ → Skill n d)
  first : List (ℝ → Skill n d)
  second : List (ℝ → Skill n d)

namespace Spec.LoadCases

/-- The element without loads. -/
def bare (c : Spec.LoadCases) : ParamElem := ⟨c.n, c.d, c.children, c.index, c.stiffness⟩

/-- The element with the first loads. -/
def one (c : Spec.LoadCases) : ParamElem := ⟨c.n, c.d, c.children, c.index, c.stiffness ++ c.first⟩

/-- The element with the second loads. -/
def two (c : Spec.LoadCases) : ParamElem := ⟨c.n, c.d, c.children, c.index, c.stiffness ++ c.second⟩

/-- The element with all loads. -/
def both (c : Spec.LoadCases) : ParamElem := ⟨c.n, c.d, c.children, c.index, c.stiffness ++ (c.first ++ c.second)⟩

/-- The element fits, its skills are as they are called. -/
structure Proper (size : Nat) (c : Spec.LoadCases) : Prop where
  fits : Spec.ElemFits size (c.bare.at 0)
  stiff : ∀ s ∈ c.stiffness, Spec.StiffSkill s
  load : ∀ s ∈ c.first, Spec.LoadSkill s
  load' : ∀ s ∈ c.second, Spec.LoadSkill s

end Spec.LoadCases

/-- The sum of two vectors. -/
def Spec.sumList (u v : List ℝ) : List ℝ := List.zipWith (· + ·) u v

/-! ### The skills of the code -/

section
variable {n d : Nat}

/-- C118, elements. The linear elastic element has stiffness only, if the material matrix is symmetric and positive semidefinite and no
integration point has a negative weight. -/
theorem linearElastic_stiff {q : Nat} (C : Matrix (Fin q) (Fin q) ℝ) (hC : C.IsSymm) (hp : C.PosSemidef)
    (gps : List (LinPoint n d q)) (hw : ∀ gp ∈ gps, 0 ≤ gp.detJ * gp.weight) :
    Spec.StiffSkill fun _ => Skill.linearElastic C gps := by
  refine ⟨LinearElastic.calculateMatrix false C gps 0,
    LinearElastic.linearElastic_symmetric C hC gps, fun v => (LinearElastic.linearElastic_definite C gps v hw).1 hp,
    fun l u => ⟨?_, fun r => ?_, fun M => ?_⟩⟩
  · show some (LinearElastic.calculateScalar false C gps u) = _
    rw [LinearElastic.linearElastic_energy]
  · show some (LinearElastic.calculateVector false C gps u r) = _
    rw [(LinearElastic.linearElastic_adds C gps u r 0).2.1, LinearElastic.linearElastic_forces]
  · exact congrArg some (LinearElastic.linearElastic_adds C gps 0 0 M).1

/-- C118, elements. Volume loads are loads only, whatever they do with position and load factor. -/
theorem volumeLoad_load (load : Option (LoadFunction d)) (gps : List (LoadPoint n d)) :
    Spec.LoadSkill fun l => Skill.volumeLoad load gps l := by
  cases load with
  | none =>
    refine ⟨fun _ => 0, fun _ u => ⟨?_, fun r => ?_, fun _ => rfl⟩⟩
    · show some _ = _
      simp [work, VolumeLoad.calculateScalar]
    · rw [add_zero]; rfl
  | some f =>
    refine ⟨fun l => VolumeLoad.calculateVector (some f) gps l 0, fun l u => ⟨?_, fun r => ?_, fun _ => rfl⟩⟩
    · show some (VolumeLoad.calculateScalar (some f) gps l u) = some (work (VolumeLoad.calculateVector (some f) gps l 0) u)
      rw [VolumeLoad.calculateVector_sum, zero_add, work_list_sum, VolumeLoad.calculateScalar_sum]
      congr 2
      exact List.map_congr_left fun gp _ => by rw [VolumeLoad.work_pointForce]
    · exact congrArg some (volumeLoad_consistent f gps l u r 0).2.2.1

/-- C118, elements. Tractions are loads only. -/
theorem traction_load (is : List (Traction.Intersection n d)) (t : LoadFunction d) :
    Spec.LoadSkill fun l => Skill.traction (some is) (some t) l := by
  refine ⟨fun l => ((loadedPoints is).map (Traction.pForce t l)).sum, fun l u =>
    ⟨(Traction.calculateScalar_sum is t l u).trans ?_, fun r => Traction.calculateVector_sum is t l r, fun _ => rfl⟩⟩
  rw [work_list_sum]
  congr 2
  exact List.map_congr_left fun p _ => by rw [Traction.work_pForce]

theorem StiffSkill.linear {s : ℝ → Skill n d} (h : Spec.StiffSkill s) : Spec.LinearSkill s := by
  obtain ⟨K, h1, h2, h3⟩ := h
  refine ⟨fun _ => 0, fun _ => 0, K, h1, h2, fun l u => ⟨?_, fun r => ?_, (h3 l u).2.2⟩⟩
  · rw [(h3 l u).1]; simp [work]
  · rw [(h3 l u).2.1, zero_add]

theorem LoadSkill.linear {s : ℝ → Skill n d} (h : Spec.LoadSkill s) : Spec.LinearSkill s := by
  obtain ⟨f, h⟩ := h
  exact load_linear s (fun l u => work (f l) u) f (fun l u => (h l u).1) (fun _ _ => rfl) (fun l u => (h l u).2.1) fun l u => (h l u).2.2

/-! ### Lemmas -/

theorem calculateScalar_append (u : NodeVec n d) (ss ts : List (Skill n d)) {a b : ℝ} (ha : Mixin.calculateScalar u ss = some a)
    (hb : Mixin.calculateScalar u ts = some b) : Mixin.calculateScalar u (ss ++ ts) = some (a + b) := by
  induction ss generalizing a with
  | nil =>
    obtain rfl := Option.some.inj ha
    rw [List.nil_append, hb, zero_add]
  | cons s ss ih =>
    have ha : (s.scalar u).bind _ = _ := ha
    show (s.scalar u).bind _ = _
    cases hs : s.scalar u with
    | none => rw [hs] at ha; cases ha
    | some x =>
      rw [hs] at ha
      have ha : (Mixin.calculateScalar u ss).map _ = _ := ha
      show (Mixin.calculateScalar u (ss ++ ts)).map _ = _
      cases hc : Mixin.calculateScalar u ss with
      | none => rw [hc] at ha; cases ha
      | some y =>
        rw [hc] at ha
        obtain rfl := Option.some.inj ha
        rw [ih hc, Option.map_some, add_assoc]

theorem load_scalar (ss : List (ℝ → Skill n d)) (h : ∀ s ∈ ss, Spec.LoadSkill s) (l : ℝ) (u : NodeVec n d) :
    ∃ a, Mixin.calculateScalar u (ss.map (· l)) = some a := by
  induction ss with
  | nil => exact ⟨0, rfl⟩
  | cons s ss ih =>
    obtain ⟨a, ha⟩ := ih fun s hs => h s (List.mem_cons_of_mem _ hs)
    obtain ⟨f, hf⟩ := h s List.mem_cons_self
    refine ⟨work (f l) u + a, ?_⟩
    show ((s l).scalar u).bind _ = _
    rw [(hf l u).1, Option.bind_some]
    show (Mixin.calculateScalar u (ss.map (· l))).map _ = _
    rw [ha, Option.map_some]

theorem load_matrix (ss : List (ℝ → Skill n d)) (h : ∀ s ∈ ss, Spec.LoadSkill s) (l : ℝ) (u : NodeVec n d) (M : BlockMat n d) :
    Mixin.calculateMatrix u (ss.map (· l)) M = some M := by
  induction ss with
  | nil => rfl
  | cons s ss ih =>
    obtain ⟨f, hf⟩ := h s List.mem_cons_self
    show ((s l).matrix u M).bind _ = _
    rw [(hf l u).2.2, Option.bind_some]
    exact ih fun s hs => h s (List.mem_cons_of_mem _ hs)

theorem calculateMatrix_append (u : NodeVec n d) (ss ts : List (Skill n d)) (M : BlockMat n d)
    (ht : ∀ M, Mixin.calculateMatrix u ts M = some M) : Mixin.calculateMatrix u (ss ++ ts) M = Mixin.calculateMatrix u ss M := by
  induction ss generalizing M with
  | nil => exact ht M
  | cons s ss ih =>
    show (s.matrix u M).bind _ = (s.matrix u M).bind _
    cases s.matrix u M with
    | none => rfl
    | some N => exact ih N

/-- The energy of skills with stiffness only. -/
theorem stiff_scalar (ss : List (ℝ → Skill n d)) (h : ∀ s ∈ ss, Spec.StiffSkill s) (l t : ℝ) (u : NodeVec n d) :
    ∃ a, Mixin.calculateScalar u (ss.map (· l)) = some a ∧ Mixin.calculateScalar (t • u) (ss.map (· l)) = some (t ^ 2 * a) := by
  induction ss with
  | nil => exact ⟨0, rfl, by rw [mul_zero]; rfl⟩
  | cons s ss ih =>
    obtain ⟨a, ha, ha'⟩ := ih fun s hs => h s (List.mem_cons_of_mem _ hs)
    obtain ⟨K, -, -, hK⟩ := h s List.mem_cons_self
    refine ⟨1 / 2 * work (mul K u) u + a, ?_, ?_⟩
    · show ((s l).scalar u).bind _ = _
      rw [(hK l u).1, Option.bind_some]
      show (Mixin.calculateScalar u (ss.map (· l))).map _ = _
      rw [ha, Option.map_some]
    · show ((s l).scalar (t • u)).bind _ = _
      rw [(hK l _).1, Option.bind_some]
      show (Mixin.calculateScalar (t • u) (ss.map (· l))).map _ = _
      rw [ha', Option.map_some]
      congr 1
      have : work (mul K (t • u)) (t • u) = t ^ 2 * work (mul K u) u := by
        unfold work mul
        simp only [Finset.mul_sum, Finset.sum_mul, Pi.smul_apply, smul_eq_mul]
        exact Finset.sum_congr rfl fun _ _ => Finset.sum_congr rfl fun _ _ => Finset.sum_congr rfl fun _ _ =>
          Finset.sum_congr rfl fun _ _ => by ring
      rw [this]
      ring

end

/-! ### Assembled quantities -/

section
variable {size : Nat} {cs : List Spec.LoadCases}

theorem cases_linear (h : ∀ c ∈ cs, c.Proper size) : Spec.LinearElems size (cs.map (·.bare)) ∧ Spec.LinearElems size (cs.map (·.one)) ∧
    Spec.LinearElems size (cs.map (·.two)) ∧ Spec.LinearElems size (cs.map (·.both)) := by
  refine ⟨fun e he => ?_, fun e he => ?_, fun e he => ?_, fun e he => ?_⟩ <;> obtain ⟨c, hc, rfl⟩ := List.mem_map.1 he <;>
    refine ⟨(h c hc).fits, fun s hs => ?_⟩
  · exact StiffSkill.linear ((h c hc).stiff s hs)
  · rcases List.mem_append.1 hs with hs | hs
    · exact StiffSkill.linear ((h c hc).stiff s hs)
    · exact LoadSkill.linear ((h c hc).load s hs)
  · rcases List.mem_append.1 hs with hs | hs
    · exact StiffSkill.linear ((h c hc).stiff s hs)
    · exact LoadSkill.linear ((h c hc).load' s hs)
  · rcases List.mem_append.1 hs with hs | hs
    · exact StiffSkill.linear ((h c hc).stiff s hs)
    · rcases List.mem_append.1 hs with hs | hs
      · exact LoadSkill.linear ((h c hc).load s hs)
      · exact LoadSkill.linear ((h c hc).load' s hs)

theorem case_scalar {c : Spec.LoadCases} (h : c.Proper size) (l : ℝ) (x : List ℝ) :
    (c.bare.at l).scalar? x = none ∧ (c.one.at l).scalar? x = none ∧ (c.two.at l).scalar? x = none ∧ (c.both.at l).scalar? x = none ∨
    ∃ s a b, (c.bare.at l).scalar? x = some s ∧ (c.one.at l).scalar? x = some (s + a) ∧ (c.two.at l).scalar? x = some (s + b) ∧
      (c.both.at l).scalar? x = some (s + (a + b)) := by
  show ((c.bare.at l).local? x).bind _ = none ∧ ((c.bare.at l).local? x).bind _ = none ∧ ((c.bare.at l).local? x).bind _ = none ∧
    ((c.bare.at l).local? x).bind _ = none ∨ ∃ s a b, ((c.bare.at l).local? x).bind _ = some s ∧
    ((c.bare.at l).local? x).bind _ = some (s + a) ∧ ((c.bare.at l).local? x).bind _ = some (s + b) ∧
    ((c.bare.at l).local? x).bind _ = some (s + (a + b))
  cases (c.bare.at l).local? x with
  | none => exact Or.inl ⟨rfl, rfl, rfl, rfl⟩
  | some u =>
    right
    change NodeVec c.n c.d at u
    obtain ⟨s, hs, -⟩ := stiff_scalar c.stiffness h.stiff l 1 u
    obtain ⟨a, ha⟩ := load_scalar c.first h.load l u
    obtain ⟨b, hb⟩ := load_scalar c.second h.load' l u
    refine ⟨s, a, b, hs, ?_, ?_, ?_⟩
    · show Mixin.calculateScalar u ((c.stiffness ++ c.first).map (· l)) = _
      rw [List.map_append]
      exact calculateScalar_append u _ _ hs ha
    · show Mixin.calculateScalar u ((c.stiffness ++ c.second).map (· l)) = _
      rw [List.map_append]
      exact calculateScalar_append u _ _ hs hb
    · show Mixin.calculateScalar u ((c.stiffness ++ (c.first ++ c.second)).map (· l)) = _
      rw [List.map_append, List.map_append]
      exact calculateScalar_append u _ _ hs (calculateScalar_append u _ _ ha hb)

theorem scalar_sum (s : System) (x : List ℝ) {fes : List ℝ} (h : mapOpt (·.scalar? x) s.elems = some fes) :
    s.scalar? x = some fes.sum := by
  unfold System.scalar?
  rw [h, Option.map_some]
  unfold Assembler.getScalar
  rw [Assembler.getScalarLoop_eq, zero_add]

theorem mapOpt_map_at {α : Type} (p : α → ParamElem) (l : ℝ) (x : List ℝ) (cs : List α) :
    mapOpt (·.scalar? x) ((cs.map p).map (·.at l)) = mapOpt (fun c => ((p c).at l).scalar? x) cs := by
  induction cs with
  | nil => rfl
  | cons c cs ih =>
    show (((p c).at l).scalar? x).bind _ = (((p c).at l).scalar? x).bind _
    cases ((p c).at l).scalar? x with
    | none => rfl
    | some y => exact congrArg (Option.map (y :: ·)) ih

theorem cases_scalar (h : ∀ c ∈ cs, c.Proper size) (flags : List Bool) (l : ℝ) (x : List ℝ) :
    (System.mk flags ((cs.map (·.one)).map (·.at l))).scalar? x = none ∨
    ∃ s a b, (System.mk flags ((cs.map (·.bare)).map (·.at l))).scalar? x = some s ∧
      (System.mk flags ((cs.map (·.one)).map (·.at l))).scalar? x = some (s + a) ∧
      (System.mk flags ((cs.map (·.two)).map (·.at l))).scalar? x = some (s + b) ∧
      (System.mk flags ((cs.map (·.both)).map (·.at l))).scalar? x = some (s + (a + b)) := by
  have key : mapOpt (fun c : Spec.LoadCases => (c.one.at l).scalar? x) cs = none ∨
      ∃ S A B D : List ℝ, mapOpt (fun c : Spec.LoadCases => (c.bare.at l).scalar? x) cs = some S ∧
        mapOpt (fun c : Spec.LoadCases => (c.one.at l).scalar? x) cs = some A ∧
        mapOpt (fun c : Spec.LoadCases => (c.two.at l).scalar? x) cs = some B ∧
        mapOpt (fun c : Spec.LoadCases => (c.both.at l).scalar? x) cs = some D ∧ D.sum + S.sum = A.sum + B.sum := by
    induction cs with
    | nil => exact Or.inr ⟨[], [], [], [], rfl, rfl, rfl, rfl, rfl⟩
    | cons c cs ih =>
      rcases case_scalar (h c List.mem_cons_self) l x with hn | ⟨s, a, b, h1, h2, h3, h4⟩
      · left
        show ((c.one.at l).scalar? x).bind _ = _
        rw [hn.2.1]; rfl
      · rcases ih fun c hc => h c (List.mem_cons_of_mem _ hc) with hn | ⟨S, A, B, D, g1, g2, g3, g4, g5⟩
        · left
          show ((c.one.at l).scalar? x).bind _ = _
          rw [h2, Option.bind_some, hn]; rfl
        · refine Or.inr ⟨s :: S, (s + a) :: A, (s + b) :: B, (s + (a + b)) :: D, ?_, ?_, ?_, ?_, ?_⟩
          · show ((c.bare.at l).scalar? x).bind _ = _
            rw [h1, Option.bind_some, g1]; rfl
          · show ((c.one.at l).scalar? x).bind _ = _
            rw [h2, Option.bind_some, g2]; rfl
          · show ((c.two.at l).scalar? x).bind _ = _
            rw [h3, Option.bind_some, g3]; rfl
          · show ((c.both.at l).scalar? x).bind _ = _
            rw [h4, Option.bind_some, g4]; rfl
          · simp only [List.sum_cons]
            linarith
  simp only [← mapOpt_map_at] at key
  rcases key with hn | ⟨S, A, B, D, g1, g2, g3, g4, g5⟩
  · left
    show (mapOpt _ _).map _ = _
    rw [hn]; rfl
  · refine Or.inr ⟨S.sum, A.sum - S.sum, B.sum - S.sum, scalar_sum _ x g1, ?_, ?_, ?_⟩
    · rw [scalar_sum _ x g2]; congr 1; ring
    · rw [scalar_sum _ x g3]; congr 1; ring
    · rw [scalar_sum _ x g4]; congr 1; linarith

theorem cases_matrix (h : ∀ c ∈ cs, c.Proper size) (flags : List Bool) (l : ℝ) (x : List ℝ) :
    (System.mk flags ((cs.map (·.one)).map (·.at l))).rawMatrix? x = (System.mk flags ((cs.map (·.bare)).map (·.at l))).rawMatrix? x ∧
    (System.mk flags ((cs.map (·.two)).map (·.at l))).rawMatrix? x = (System.mk flags ((cs.map (·.bare)).map (·.at l))).rawMatrix? x ∧
    (System.mk flags ((cs.map (·.both)).map (·.at l))).rawMatrix? x = (System.mk flags ((cs.map (·.bare)).map (·.at l))).rawMatrix? x := by
  have key : ∀ (p : Spec.LoadCases → ParamElem), (∀ c ∈ cs, ((p c).at l).matrix? x = (c.bare.at l).matrix? x) →
      (System.mk flags ((cs.map p).map (·.at l))).rawMatrix? x = (System.mk flags ((cs.map (·.bare)).map (·.at l))).rawMatrix? x := by
    intro p hp
    show (mapOpt _ ((cs.map p).map (·.at l))).bind _ = (mapOpt _ ((cs.map (·.bare)).map (·.at l))).bind _
    congr 1
    clear h
    induction cs with
    | nil => rfl
    | cons c cs ih =>
      show (((p c).at l).matrix? x).bind _ = ((c.bare.at l).matrix? x).bind _
      rw [hp c List.mem_cons_self]
      cases (c.bare.at l).matrix? x with
      | none => rfl
      | some y => exact congrArg (Option.map (y :: ·)) (ih fun c hc => hp c (List.mem_cons_of_mem _ hc))
  have elem : ∀ c ∈ cs, ∀ ls : List (ℝ → Skill c.n c.d), (∀ s ∈ ls, Spec.LoadSkill s) →
      (Elem.mk c.n c.d c.children c.index ((c.stiffness ++ ls).map (· l))).matrix? x = (c.bare.at l).matrix? x := by
    intro c _ ls hls
    show (c.bare.at l).dofs?.bind _ = (c.bare.at l).dofs?.bind _
    cases (c.bare.at l).dofs? with
    | none => rfl
    | some dofs =>
      show ((c.bare.at l).local? x).bind _ = ((c.bare.at l).local? x).bind _
      cases (c.bare.at l).local? x with
      | none => rfl
      | some u =>
        change NodeVec c.n c.d at u
        show (Mixin.calculateMatrix u ((c.stiffness ++ ls).map (· l)) 0).map _ = (Mixin.calculateMatrix u (c.stiffness.map (· l)) 0).map _
        rw [List.map_append, calculateMatrix_append u _ _ _ (load_matrix ls hls l u)]
        rfl
  refine ⟨key _ fun c hc => elem c hc _ (h c hc).load, key _ fun c hc => elem c hc _ (h c hc).load', key _ fun c hc => elem c hc _ ?_⟩
  intro s hs
  rcases List.mem_append.1 hs with hs | hs
  · exact (h c hc).load s hs
  · exact (h c hc).load' s hs

/-- The energy without loads. -/
theorem bare_scalar (h : ∀ c ∈ cs, c.Proper size) (flags : List Bool) (l t : ℝ) (x : List ℝ) :
    (System.mk flags ((cs.map (·.bare)).map (·.at l))).scalar? (Spec.scaledList t x) =
      ((System.mk flags ((cs.map (·.bare)).map (·.at l))).scalar? x).map (t ^ 2 * ·) := by
  have key : mapOpt (fun c : Spec.LoadCases => (c.bare.at l).scalar? (Spec.scaledList t x)) cs =
      (mapOpt (fun c : Spec.LoadCases => (c.bare.at l).scalar? x) cs).map (List.map (t ^ 2 * ·)) := by
    refine mapOpt_scale _ _ _ _ fun c hc => ?_
    show ((c.bare.at l).local? _).bind _ = (((c.bare.at l).local? x).bind _).map _
    rw [local_scale]
    cases (c.bare.at l).local? x with
    | none => rfl
    | some u =>
      change NodeVec c.n c.d at u
      obtain ⟨a, h1, h2⟩ := stiff_scalar c.stiffness (h c hc).stiff l t u
      show Mixin.calculateScalar (t • u) (c.stiffness.map (· l)) = (Mixin.calculateScalar u (c.stiffness.map (· l))).map _
      rw [h1, h2]
      rfl
  simp only [← mapOpt_map_at] at key
  show (mapOpt _ _).map _ = ((mapOpt _ _).map _).map _
  rw [key, Option.map_map, Option.map_map]
  congr 1
  funext fes
  show Assembler.getScalarLoop (fes.map _) 0 = t ^ 2 * Assembler.getScalarLoop fes 0
  rw [← Assembler.getScalarLoop_scale, mul_zero]

theorem affine_congr {sys : ℝ → System} {m : Nat} {K : DMat ℝ} {e : ℝ → ℝ} {g g' : ℝ → Nat → ℝ} (h : AffineSystem sys m K e g)
    (hg : ∀ l, ∀ i < m, g' l i = g l i) : AffineSystem sys m K e g' where
  rows := h.rows
  cols := h.cols
  symm := h.symm
  psd := h.psd
  matrix := h.matrix
  vector l x hx := by
    obtain ⟨r, h1, h2, h3⟩ := h.vector l x hx
    exact ⟨r, h1, h2, fun i hi => by rw [h3 i hi, hg l i hi]⟩
  scalar l x hx := by
    rw [h.scalar l x hx, Finset.sum_congr rfl fun i hi => by rw [← hg l i (Finset.mem_range.1 hi)]]

theorem sum_unit (g : Nat → ℝ) {m i : Nat} (hi : i < m) :
    ∑ k ∈ Finset.range m, g k * (listOf m fun k => if k = i then (1 : ℝ) else 0).getD k 0 = g i := by
  rw [Finset.sum_congr rfl fun k hk => by rw [listOf_getD m _ (Finset.mem_range.1 hk)]]
  simp [hi]

theorem bil_scaled (K : DMat ℝ) (m : Nat) (t : ℝ) (x : List ℝ) :
    bil K m ((Spec.scaledList t x).getD · 0) ((Spec.scaledList t x).getD · 0) = t ^ 2 * bil K m (x.getD · 0) (x.getD · 0) := by
  unfold bil
  simp only [scaledList_getD, Finset.mul_sum]
  exact Finset.sum_congr rfl fun _ _ => Finset.sum_congr rfl fun _ _ => by ring

/-- The assembled systems of the load cases. -/
theorem cases_affine (flags : List Bool) (h : ∀ c ∈ cs, c.Proper flags.length) : ∃ K e1 e2 e3 g1 g2,
    AffineSystem (fun l => ⟨flags, (cs.map (·.bare)).map (·.at l)⟩) flags.length K (fun _ => 0) (fun _ _ => 0) ∧
    AffineSystem (fun l => ⟨flags, (cs.map (·.one)).map (·.at l)⟩) flags.length K e1 g1 ∧
    AffineSystem (fun l => ⟨flags, (cs.map (·.two)).map (·.at l)⟩) flags.length K e2 g2 ∧
    AffineSystem (fun l => ⟨flags, (cs.map (·.both)).map (·.at l)⟩) flags.length K e3 (fun l i => g1 l i + g2 l i) := by
  obtain ⟨l0, l1, l2, l3⟩ := cases_linear h
  obtain ⟨K, e0, g0, A0⟩ := linear_system flags _ l0
  obtain ⟨K1, e1, g1, A1⟩ := linear_system flags _ l1
  obtain ⟨K2, e2, g2, A2⟩ := linear_system flags _ l2
  obtain ⟨K3, e3, g3, A3⟩ := linear_system flags _ l3
  have hz : (List.replicate flags.length (0 : ℝ)).length = flags.length := List.length_replicate
  obtain ⟨m1, m2, m3⟩ := cases_matrix h flags 0 (List.replicate flags.length 0)
  have k0 := A0.matrix 0 _ hz
  have k1 := A1.matrix 0 _ hz
  have k2 := A2.matrix 0 _ hz
  have k3 := A3.matrix 0 _ hz
  beta_reduce at k0 k1 k2 k3
  rw [m1, k0] at k1
  rw [m2, k0] at k2
  rw [m3, k0] at k3
  obtain rfl := Option.some.inj k1
  obtain rfl := Option.some.inj k2
  obtain rfl := Option.some.inj k3
  have hzg : ∀ k, (List.replicate flags.length (0 : ℝ)).getD k 0 = 0 := fun k => by
    rw [List.getD_eq_getElem?_getD, List.getElem?_replicate]
    split <;> rfl
  have hul : ∀ i, (listOf flags.length fun k => if k = i then (1 : ℝ) else 0).length = flags.length := fun i => listOf_length _ _
  have hg0 : ∀ l, ∀ i < flags.length, g0 l i = 0 := by
    intro l i hi
    have h1 := bare_scalar h flags l (-1) (listOf flags.length fun k => if k = i then (1 : ℝ) else 0)
    have h2 := A0.scalar l _ (hul i)
    have h3 := A0.scalar l (Spec.scaledList (-1) (listOf flags.length fun k => if k = i then (1 : ℝ) else 0)) (by
      rw [Spec.scaledList, List.length_map]; exact hul i)
    beta_reduce at h2 h3
    rw [h2, h3, Option.map_some, Option.some.injEq, bil_scaled, sum_unit _ hi] at h1
    simp only [scaledList_getD] at h1
    rw [Finset.sum_congr rfl fun k _ => mul_left_comm (g0 l k) (-1) _, ← Finset.mul_sum, sum_unit _ hi] at h1
    linarith
  have he0 : ∀ l, e0 l = 0 := by
    intro l
    have h1 := bare_scalar h flags l 0 (List.replicate flags.length 0)
    rw [Assembler.scaled_zeros] at h1
    have h2 := A0.scalar l _ hz
    beta_reduce at h2
    rw [h2, Option.map_some, Option.some.injEq] at h1
    unfold bil at h1
    simp only [hzg, mul_zero, Finset.sum_const_zero, add_zero] at h1
    linarith
  have key : ∀ l, e3 l = e1 l + e2 l ∧ ∀ i < flags.length, g1 l i + g2 l i = g3 l i := by
    intro l
    have hx : ∀ x : List ℝ, x.length = flags.length →
        e3 l + ∑ i ∈ Finset.range flags.length, g3 l i * x.getD i 0 =
          e1 l + e2 l + (∑ i ∈ Finset.range flags.length, g1 l i * x.getD i 0 + ∑ i ∈ Finset.range flags.length, g2 l i * x.getD i 0) := by
      intro x hx
      have q0 := A0.scalar l x hx
      have q1 := A1.scalar l x hx
      have q2 := A2.scalar l x hx
      have q3 := A3.scalar l x hx
      beta_reduce at q0 q1 q2 q3
      rcases cases_scalar h flags l x with hn | ⟨s, a, b, r0, r1, r2, r3⟩
      · rw [hn] at q1; cases q1
      · have p0 := Option.some.inj (q0.symm.trans r0)
        have p1 := Option.some.inj (q1.symm.trans r1)
        have p2 := Option.some.inj (q2.symm.trans r2)
        have p3 := Option.some.inj (q3.symm.trans r3)
        rw [Finset.sum_eq_zero fun i hi => by rw [hg0 l i (Finset.mem_range.1 hi), zero_mul], he0] at p0
        linarith
    have hz' := hx _ hz
    simp only [hzg, mul_zero, Finset.sum_const_zero, add_zero] at hz'
    refine ⟨hz', fun i hi => ?_⟩
    have := hx _ (hul i)
    rw [sum_unit _ hi, sum_unit _ hi, sum_unit _ hi] at this
    linarith
  refine ⟨K, e1, e2, e3, g1, g2, ?_, A1, A2, affine_congr A3 fun l => (key l).2⟩
  obtain rfl : e0 = fun _ => 0 := funext he0
  exact affine_congr A0 fun l i hi => (hg0 l i hi).symm

end

/-! ### Equilibrium -/

section
variable {flags : List Bool} {cs : List Spec.LoadCases}

/-- The structure with the first loads, as the assembler sees it at load factor `l`. -/
abbrev Spec.LoadCases.firstSystem (flags : List Bool) (cs : List Spec.LoadCases) (l : ℝ) : System :=
  ⟨flags, (cs.map (·.one)).map (·.at l)⟩

/-- The structure with the second loads. -/
abbrev Spec.LoadCases.secondSystem (flags : List Bool) (cs : List Spec.LoadCases) (l : ℝ) : System :=
  ⟨flags, (cs.map (·.two)).map (·.at l)⟩

/-- The structure with all loads. -/
abbrev Spec.LoadCases.bothSystem (flags : List Bool) (cs : List Spec.LoadCases) (l : ℝ) : System :=
  ⟨flags, (cs.map (·.both)).map (·.at l)⟩

/-- The structure without loads. -/
abbrev Spec.LoadCases.bareSystem (flags : List Bool) (cs : List Spec.LoadCases) : System :=
  ⟨flags, (cs.map (·.bare)).map (·.at 0)⟩

theorem free_residual {sys : ℝ → System} {K : DMat ℝ} {e : ℝ → ℝ} {g : ℝ → Nat → ℝ} (hA : AffineSystem sys flags.length K e g)
    {û : Nat → ℝ} {l : ℝ} {y : List ℝ} (h : Spec.InEquilibrium flags (sys l).scalar? û l 0 y) {i : Nat} (hi : Spec.Free flags i) :
    Analysis.resAt K g flags.length l y i = 0 := by
  have h1 := Analysis.residual_of_equilibrium hA le_rfl h
  unfold Spec.freeSize at h1
  have h2 := Real.sqrt_eq_zero'.1 (le_antisymm h1 (Real.sqrt_nonneg _))
  have h3 : Analysis.resAt K g flags.length l y i ^ 2 ≤
      ∑ i ∈ (Finset.range flags.length).filter (fun i => Spec.Free flags i), Analysis.resAt K g flags.length l y i ^ 2 :=
    Finset.single_le_sum (f := fun i => Analysis.resAt K g flags.length l y i ^ 2) (fun j _ => sq_nonneg _)
      (Finset.mem_filter.2 ⟨Finset.mem_range.2 (free_lt hi), hi⟩)
  have h4 := sq_nonneg (Analysis.resAt K g flags.length l y i)
  exact pow_eq_zero_iff (two_ne_zero) |>.1 (by linarith)

theorem sumList_length {u v : List ℝ} {m : Nat} (hu : u.length = m) (hv : v.length = m) : (Spec.sumList u v).length = m := by
  unfold Spec.sumList
  rw [List.length_zipWith, hu, hv, min_self]

theorem sumList_getD {u v : List ℝ} (h : u.length = v.length) (i : Nat) : (Spec.sumList u v).getD i 0 = u.getD i 0 + v.getD i 0 := by
  have := line_getD u v 1 h i
  rw [one_mul] at this
  rw [← this]
  unfold Spec.line Spec.sumList
  simp only [one_mul]

/-- C118, superposition. The sum of a state in equilibrium under the first loads and supports and a state in equilibrium under the
second loads and supports is in equilibrium under all loads and the sum of the prescribed displacements. -/
theorem equilibrium_superposes (h : ∀ c ∈ cs, c.Proper flags.length) {û û' : Nat → ℝ} {l : ℝ} {u v : List ℝ}
    (hu : Spec.InEquilibrium flags (Spec.LoadCases.firstSystem flags cs l).scalar? û l 0 u)
    (hv : Spec.InEquilibrium flags (Spec.LoadCases.secondSystem flags cs l).scalar? û' l 0 v) :
    Spec.InEquilibrium flags (Spec.LoadCases.bothSystem flags cs l).scalar? (fun i => û i + û' i) l 0 (Spec.sumList u v) := by
  obtain ⟨K, e1, e2, e3, g1, g2, -, A1, A2, A3⟩ := cases_affine flags h
  have hl : u.length = v.length := hu.1.trans hv.1.symm
  refine equilibrium_of_residual A3 _ l l 0 (sumList_length hu.1 hv.1) (fun i hi hf => ?_) ?_
  · have h1 := hu.2.1 i ((not_free_iff hi).1 hf)
    have h2 := hv.2.1 i ((not_free_iff hi).1 hf)
    rw [sumList_getD hl, List.getD_eq_getElem?_getD, List.getD_eq_getElem?_getD, h1, h2]
    show l * û i + l * û' i = _
    ring
  · rw [Analysis.freeSq_zero fun i hi => ?_, Real.sqrt_zero]
    have r1 := free_residual A1 hu hi
    have r2 := free_residual A2 hv hi
    unfold Analysis.resAt at r1 r2 ⊢
    simp only [sumList_getD hl, mul_add, Finset.sum_add_distrib]
    linarith

theorem supported_iff_bil {sys : ℝ → System} {K : DMat ℝ} {e : ℝ → ℝ} {g : ℝ → Nat → ℝ} (hA : AffineSystem sys flags.length K e g) (l : ℝ) :
    Spec.Supported flags (sys l).scalar? ↔ ∀ v : List ℝ, v.length = flags.length → (∀ i : Nat, flags[i]? = some true → v[i]? = some 0) →
      (∃ c ∈ v, c ≠ 0) → 0 < bil K flags.length (v.getD · 0) (v.getD · 0) := by
  have key : ∀ x v : List ℝ, x.length = flags.length → v.length = flags.length →
      ∃ p q r, (sys l).scalar? (Spec.line x v 1) = some p ∧ (sys l).scalar? (Spec.line x v (-1)) = some q ∧
        (sys l).scalar? x = some r ∧ p + q = 2 * r + bil K flags.length (v.getD · 0) (v.getD · 0) := by
    intro x v hx hv
    have hline : ∀ t, (Spec.line x v t).length = flags.length := fun t => (line_length x v t (hx.trans hv.symm)).trans hx
    obtain ⟨E, p, g1, g2, g3⟩ := energy_difference hA l hx (hline 1)
    obtain ⟨E', q, g1', g2', g3'⟩ := energy_difference hA l hx (hline (-1))
    obtain rfl := Option.some.inj (g1.symm.trans g1')
    refine ⟨p, q, E, g2, g2', g1, ?_⟩
    have hd : ∀ t i, (Spec.line x v t).getD i 0 - x.getD i 0 = t * v.getD i 0 := fun t i => by
      rw [line_getD x v t (hx.trans hv.symm)]
      ring
    simp only [hd] at g3 g3'
    have hb : bil K flags.length (fun i => -1 * v.getD i 0) (fun i => -1 * v.getD i 0) = bil K flags.length (v.getD · 0) (v.getD · 0) := by
      unfold bil
      exact Finset.sum_congr rfl fun i _ => Finset.sum_congr rfl fun j _ => by ring
    have hs : ∑ i ∈ Finset.range flags.length, Analysis.resAt K g flags.length l x i * (-1 * v.getD i 0) =
        -∑ i ∈ Finset.range flags.length, Analysis.resAt K g flags.length l x i * v.getD i 0 := by
      rw [← Finset.sum_neg_distrib]
      exact Finset.sum_congr rfl fun i _ => by ring
    rw [hb, hs] at g3'
    simp only [one_mul] at g3
    rw [g3, g3']
    ring
  constructor
  · intro h v hv h0 hne
    obtain ⟨p, q, r, q1, q2, q3, q4⟩ := h v v hv hv h0 hne
    obtain ⟨p', q', r', k1, k2, k3, k4⟩ := key v v hv hv
    obtain rfl := Option.some.inj (q1.symm.trans k1)
    obtain rfl := Option.some.inj (q2.symm.trans k2)
    obtain rfl := Option.some.inj (q3.symm.trans k3)
    linarith
  · intro h x v hx hv h0 hne
    obtain ⟨p, q, r, k1, k2, k3, k4⟩ := key x v hx hv
    have := h v hv h0 hne
    exact ⟨p, q, r, k1, k2, k3, by linarith⟩

/-- C118, supports. Whether the supports suffice does not depend on the loads. -/
theorem supported_cases (h : ∀ c ∈ cs, c.Proper flags.length) (l : ℝ) :
    (Spec.Supported flags (Spec.LoadCases.firstSystem flags cs l).scalar? ↔ Spec.Supported flags (Spec.LoadCases.bareSystem flags cs).scalar?) ∧
    (Spec.Supported flags (Spec.LoadCases.secondSystem flags cs l).scalar? ↔ Spec.Supported flags (Spec.LoadCases.bareSystem flags cs).scalar?) ∧
    (Spec.Supported flags (Spec.LoadCases.bothSystem flags cs l).scalar? ↔ Spec.Supported flags (Spec.LoadCases.bareSystem flags cs).scalar?) := by
  obtain ⟨K, e1, e2, e3, g1, g2, A0, A1, A2, A3⟩ := cases_affine flags h
  have h0 := supported_iff_bil A0 0
  exact ⟨(supported_iff_bil A1 l).trans h0.symm, (supported_iff_bil A2 l).trans h0.symm, (supported_iff_bil A3 l).trans h0.symm⟩

/-- The forces at the supports are the only ones left in equilibrium. -/
def Spec.OnlySupports (flags : List Bool) (r : List ℝ) : Prop := ∀ i, Spec.Free flags i → r.getD i 0 = 0

theorem dotL_affine {K : DMat ℝ} {m : Nat} {g : Nat → ℝ} {f r x y : List ℝ} (hf : f.length = m) (hr : r.length = m)
    (hx : x.length = m) (hfg : ∀ i < m, f.getD i 0 = g i) (hrg : ∀ i < m, r.getD i 0 = g i + ∑ j ∈ Finset.range m, K.val i j * y.getD j 0) :
    Spec.dotL r x - Spec.dotL f x = bil K m (x.getD · 0) (y.getD · 0) := by
  rw [dotL_eq_sum r x m hr hx, dotL_eq_sum f x m hf hx, ← Finset.sum_sub_distrib]
  unfold bil
  refine Finset.sum_congr rfl fun i hi => ?_
  rw [hrg i (Finset.mem_range.1 hi), hfg i (Finset.mem_range.1 hi)]
  rw [add_mul, add_sub_cancel_left, Finset.sum_mul]
  exact Finset.sum_congr rfl fun j _ => by ring

theorem affine_zero {sys : ℝ → System} {K : DMat ℝ} {e : ℝ → ℝ} {g : ℝ → Nat → ℝ} {m : Nat} (hA : AffineSystem sys m K e g) (l : ℝ) :
    ∃ f, (sys l).rawVector? (List.replicate m 0) = some f ∧ f.length = m ∧ ∀ i < m, f.getD i 0 = g l i := by
  obtain ⟨f, h1, h2, h3⟩ := hA.vector l (List.replicate m 0) List.length_replicate
  refine ⟨f, h1, h2, fun i hi => ?_⟩
  rw [h3 i hi, Finset.sum_eq_zero fun j _ => ?_, add_zero]
  rw [List.getD_eq_getElem?_getD, List.getElem?_replicate]
  split <;> exact mul_zero _

/-- C118, reciprocity. For states in equilibrium under the first and under the second loads, at any two load factors: the assembled
forces `f` and `f'` at rest are the loads with opposite sign, the assembled forces `r` and `r'` in equilibrium are zero except at the
supports, and loads and supports of the first state do the same work on the displacements of the second state as those of the second
on the displacements of the first. -/
theorem reciprocity (h : ∀ c ∈ cs, c.Proper flags.length) {û û' : Nat → ℝ} {l l' : ℝ} {u v : List ℝ}
    (hu : Spec.InEquilibrium flags (Spec.LoadCases.firstSystem flags cs l).scalar? û l 0 u)
    (hv : Spec.InEquilibrium flags (Spec.LoadCases.secondSystem flags cs l').scalar? û' l' 0 v) :
    ∃ f r f' r', (Spec.LoadCases.firstSystem flags cs l).rawVector? (List.replicate flags.length 0) = some f ∧
      (Spec.LoadCases.firstSystem flags cs l).rawVector? u = some r ∧
      (Spec.LoadCases.secondSystem flags cs l').rawVector? (List.replicate flags.length 0) = some f' ∧
      (Spec.LoadCases.secondSystem flags cs l').rawVector? v = some r' ∧ Spec.OnlySupports flags r ∧ Spec.OnlySupports flags r' ∧
      Spec.dotL r v - Spec.dotL f v = Spec.dotL r' u - Spec.dotL f' u := by
  obtain ⟨K, e1, e2, e3, g1, g2, -, A1, A2, -⟩ := cases_affine flags h
  obtain ⟨f, f1, f2, f3⟩ := affine_zero A1 l
  obtain ⟨f', f1', f2', f3'⟩ := affine_zero A2 l'
  obtain ⟨r, r1, r2, r3⟩ := A1.vector l u hu.1
  obtain ⟨r', r1', r2', r3'⟩ := A2.vector l' v hv.1
  refine ⟨f, r, f', r', f1, r1, f1', r1', fun i hi => ?_, fun i hi => ?_, ?_⟩
  · rw [r3 i (free_lt hi)]; exact free_residual A1 hu hi
  · rw [r3' i (free_lt hi)]; exact free_residual A2 hv hi
  · rw [dotL_affine f2 r2 hv.1 f3 r3, dotL_affine f2' r2' hu.1 f3' r3', A1.symm]

theorem supports_no_work {u r : List ℝ} {l : ℝ} (hu : u.length = flags.length) (hr : r.length = flags.length)
    (hs : ∀ i : Nat, flags[i]? = some true → u[i]? = some (l * 0)) (h : Spec.OnlySupports flags r) : Spec.dotL r u = 0 := by
  rw [dotL_eq_sum r u _ hr hu]
  refine Finset.sum_eq_zero fun i hi => ?_
  by_cases hf : Spec.Free flags i
  · rw [h i hf, zero_mul]
  · rw [List.getD_eq_getElem?_getD (l := u), hs i ((not_free_iff (Finset.mem_range.1 hi)).1 hf)]
    simp

/-- C118, reciprocity with fixed supports: the first loads do the same work on the displacements of the second state as the second loads on
the displacements of the first. -/
theorem reciprocity_fixed (h : ∀ c ∈ cs, c.Proper flags.length) {l l' : ℝ} {u v : List ℝ}
    (hu : Spec.InEquilibrium flags (Spec.LoadCases.firstSystem flags cs l).scalar? (fun _ => 0) l 0 u)
    (hv : Spec.InEquilibrium flags (Spec.LoadCases.secondSystem flags cs l').scalar? (fun _ => 0) l' 0 v) :
    ∃ f f', (Spec.LoadCases.firstSystem flags cs l).rawVector? (List.replicate flags.length 0) = some f ∧
      (Spec.LoadCases.secondSystem flags cs l').rawVector? (List.replicate flags.length 0) = some f' ∧
      Spec.dotL f v = Spec.dotL f' u := by
  obtain ⟨f, r, f', r', h1, h2, h3, h4, h5, h6, h7⟩ := reciprocity h hu hv
  obtain ⟨K, e1, e2, e3, g1, g2, -, A1, A2, -⟩ := cases_affine flags h
  obtain ⟨q, q1, q2, -⟩ := A1.vector l u hu.1
  obtain ⟨q', q1', q2', -⟩ := A2.vector l' v hv.1
  obtain rfl := Option.some.inj (h2.symm.trans q1)
  obtain rfl := Option.some.inj (h4.symm.trans q1')
  rw [supports_no_work hv.1 q2 hv.2.1 h5, supports_no_work hu.1 q2' hu.2.1 h6] at h7
  exact ⟨f, f', h1, h3, by linarith⟩

/-- C118, energy. In equilibrium with fixed supports the energy stored in the elements is half of the work of the loads (`-f` are the
loads). -/
theorem stored_energy (h : ∀ c ∈ cs, c.Proper flags.length) {l : ℝ} {u : List ℝ}
    (hu : Spec.InEquilibrium flags (Spec.LoadCases.firstSystem flags cs l).scalar? (fun _ => 0) l 0 u) :
    ∃ f E, (Spec.LoadCases.firstSystem flags cs l).rawVector? (List.replicate flags.length 0) = some f ∧
      (Spec.LoadCases.bareSystem flags cs).scalar? u = some E ∧ E = -(1 / 2) * Spec.dotL f u := by
  obtain ⟨K, e1, e2, e3, g1, g2, A0, A1, -, -⟩ := cases_affine flags h
  obtain ⟨f, f1, f2, f3⟩ := affine_zero A1 l
  obtain ⟨r, r1, r2, r3⟩ := A1.vector l u hu.1
  have hr : Spec.OnlySupports flags r := fun i hi => by rw [r3 i (free_lt hi)]; exact free_residual A1 hu hi
  have hd := dotL_affine f2 r2 hu.1 f3 r3
  rw [supports_no_work hu.1 r2 hu.2.1 hr] at hd
  refine ⟨f, _, f1, A0.scalar 0 u hu.1, ?_⟩
  rw [← hd]
  simp

end

end Ikarus
