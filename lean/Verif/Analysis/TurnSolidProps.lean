import Verif.Analysis.TurnSystemProps
import Verif.Analysis.SmallSolidProps
import Verif.FE.TurnMaterialProps

/-!
C114, solids: the results of a solid structure that is turned with its loads are the turned results.
-/

namespace Ikarus

open Matrix Element Element.Spec Assembler

variable {k d q : Nat} {R Q : Matrix (Fin d) (Fin d) ℝ} {T : Matrix (Fin q) (Fin q) ℝ}

/-! ### Specification -/

/-- The element turned by `R` and moved by `a`. -/
def Spec.SolidElem.turned (R : Matrix (Fin d) (Fin d) ℝ) (a : Fin d → ℝ) (e : Spec.SolidElem d) : Spec.SolidElem d where
  n := e.n
  children := e.children
  index := e.index
  points := e.points.map (turnedPoint R)
  volume := e.volume.map (turnedLoad R a)
  boundary := e.boundary.map (turnedFace R a)

/-- The element at its place: its dofs and positions are those of the nodes of the structure. -/
def Spec.SolidElem.Placed {size : Nat} (L : Spec.Layout k d size) (pos : Fin k → Fin d → ℝ) (e : Spec.SolidElem d) : Prop :=
  Spec.ElemFits size ⟨e.n, d, e.children, e.index, []⟩ ∧ ∃ nodes : Fin e.n → Fin k,
    (∀ dofs, (⟨e.n, d, e.children, e.index, []⟩ : Elem).dofs? = some dofs →
      ∀ (I : Fin e.n) (a : Fin d), dofs.getD (I * d + a) 0 = L.dof (nodes I) a) ∧
    ∀ p ∈ e.points, Isoparametric (fun I => pos (nodes I)) p.dN

/-- The displacements `x'` of the structure turned by `R` and moved by `a`: they bring it into the shape the displacements `x`
bring the structure into, turned by `Q` and moved. -/
structure Spec.TurnedShape {size : Nat} (L : Spec.Layout k d size) (pos : Fin k → Fin d → ℝ) (R Q : Matrix (Fin d) (Fin d) ℝ)
    (a : Fin d → ℝ) (x x' : List ℝ) : Prop where
  length : x.length = size
  length' : x'.length = size
  shape : ∃ c : Fin d → ℝ, ∀ p, (a + R *ᵥ pos p) + (fun i => x'.getD (L.dof p i) 0) =
    c + Q *ᵥ (pos p + fun i => x.getD (L.dof p i) 0)

/-! ### Elements with large strains -/

/-- The strains at the points of the element in the state `x`. -/
def Spec.SolidElem.Strains (dim : EAS.Dimension d q) (x : List ℝ) (e : Spec.SolidElem d) (s : Fin q → ℝ) : Prop :=
  ∃ u, (⟨e.n, d, e.children, e.index, []⟩ : Elem).local? x = some u ∧ ∃ p ∈ e.points, s = (Spec.greenPoint dim p).strain u

variable {flags : List Bool} {L : Spec.Layout k d flags.length} {pos : Fin k → Fin d → ℝ} {x x' : List ℝ}
  {es : List (Spec.SolidElem d)} {f f' t t' : LoadFunction d}

theorem placed_local {e : Spec.SolidElem d} (h : e.Placed L pos) : ∃ nodes : Fin e.n → Fin k,
    (∀ x : List ℝ, x.length = flags.length → (⟨e.n, d, e.children, e.index, []⟩ : Elem).local? x =
      some fun I a => x.getD (L.dof (nodes I) a) 0) ∧ ∀ p ∈ e.points, Isoparametric (fun I => pos (nodes I)) p.dN := by
  obtain ⟨⟨h1, h2, dofs, h3, h4⟩, nodes, hn, hi⟩ := h
  refine ⟨nodes, fun x hx => ?_, hi⟩
  obtain ⟨-, X, -, hl, -⟩ := local_eq h1 h2 h3 h4 x hx
  rw [hl]
  exact congrArg some (funext fun I => funext fun a => congrArg (fun i => x.getD i 0) (hn dofs h3 I a))

/-- The element and the turned element, with large strains. -/
noncomputable def Spec.SolidElem.twin (dim : EAS.Dimension d q) (f f' t t' : LoadFunction d) (law law' : Law q)
    (R : Matrix (Fin d) (Fin d) ℝ) (a : Fin d → ℝ) (l : ℝ) (e : Spec.SolidElem d) : Spec.Twin d :=
  ⟨e.n, e.children, e.index, ((e.nonlinear dim f t law).at l).skills, (((e.turned R a).nonlinear dim f' t' law').at l).skills⟩

/-- The element and the turned element, with small strains. -/
noncomputable def Spec.SolidElem.linearTwin (dim : EAS.Dimension d q) (f f' t t' : LoadFunction d) (C C' : Matrix (Fin q) (Fin q) ℝ)
    (R : Matrix (Fin d) (Fin d) ℝ) (a : Fin d → ℝ) (l : ℝ) (e : Spec.SolidElem d) : Spec.Twin d :=
  ⟨e.n, e.children, e.index, ((e.linear dim f t C).at l).skills, (((e.turned R a).linear dim f' t' C').at l).skills⟩

theorem load_total {n : Nat} (f t : LoadFunction d) (gps : List (LoadPoint n d)) (is : List (Traction.Intersection n d)) (l : ℝ) :
    Spec.TotalSkill (Skill.volumeLoad (some f) gps l) ∧ Spec.TotalSkill (Skill.traction (some is) (some t) l) :=
  ⟨linear_total (volumeLoad_linear (some f) gps) l, linear_total (traction_linear is t) l⟩

theorem turned_gives (hQ : Qᵀ * Q = 1) {ts : List (Spec.Twin d)}
    (hat : ∀ t ∈ ts, t.At L) (htot : ∀ t ∈ ts, ∀ s ∈ t.skills, Spec.TotalSkill s) (hx : x.length = flags.length)
    (hx' : x'.length = flags.length)
    (hsk : ∀ t ∈ ts, ∀ u u', t.first.local? x = some u → t.second.local? x' = some u' →
      List.Forall₂ (Spec.TurnedSkill Q u u') t.skills t.skills') :
    ∃ r r' K K', (System.mk flags (ts.map Spec.Twin.first)).rawVector? x = some r ∧
      (System.mk flags (ts.map Spec.Twin.second)).rawVector? x' = some r' ∧
      (System.mk flags (ts.map Spec.Twin.first)).rawMatrix? x = some K ∧
      (System.mk flags (ts.map Spec.Twin.second)).rawMatrix? x' = some K' ∧
      Spec.TurnedList L Q r r' ∧ Spec.TurnedMatrix L Q K K' := by
  obtain ⟨-, r, K, -, hr, -, hK, -⟩ := total_system (System.mk flags (ts.map Spec.Twin.first)) (fun e he => by
    obtain ⟨t, ht, rfl⟩ := List.mem_map.1 he
    exact ⟨(hat t ht).1, htot t ht⟩) hx
  obtain ⟨r', h1, h2⟩ := assembled_vector_turn L hQ hat hx hx' hsk hr
  obtain ⟨K', h3, h4⟩ := assembled_matrix_turn L hQ hat hx hx' hsk hK
  exact ⟨r, r', K, K', hr, h1, hK, h3, h2, h4⟩

/-- C114, solid structures with large strains. The structure is turned by `R` and moved by `a`, its deformed shape is turned by
`Q` and moved, and its loads are turned by `Q`. Then the residual of the turned structure is the turned residual and its
stiffness the turned stiffness. The energies are the same if the displacements are turned. -/
theorem solids_turn {dim : EAS.Dimension d q} (hdim : EAS.Spec.IsVoigt dim) (hT : VoigtTurn dim.voigt R T) (hR : Rᵀ * R = 1)
    (hQ : Qᵀ * Q = 1) {a : Fin d → ℝ} (hf : LoadTurns R a Q f f') (ht : LoadTurns R a Q t t') {law law' : Law q}
    (hes : ∀ e ∈ es, e.Placed L pos) (hx : Spec.TurnedShape L pos R Q a x x')
    (hlaw : ∀ e ∈ es, ∀ s, e.Strains dim x s → TurnedLaw T law law' s ∧ (law.tangent s).IsSymm) (l : ℝ) {A B : System}
    (hA : A = ⟨flags, es.map fun e => (e.nonlinear dim f t law).at l⟩)
    (hB : B = ⟨flags, es.map fun e => ((e.turned R a).nonlinear dim f' t' law').at l⟩) :
    (∃ r r' K K', A.rawVector? x = some r ∧ B.rawVector? x' = some r' ∧ A.rawMatrix? x = some K ∧ B.rawMatrix? x' = some K' ∧
      Spec.TurnedList L Q r r' ∧ Spec.TurnedMatrix L Q K K') ∧
    (Spec.TurnedList L Q x x' → B.scalar? x' = A.scalar? x) := by
  have hA' : A = ⟨flags, (es.map (Spec.SolidElem.twin dim f f' t t' law law' R a l)).map Spec.Twin.first⟩ := by
    rw [hA, List.map_map]
    rfl
  have hB' : B = ⟨flags, (es.map (Spec.SolidElem.twin dim f f' t t' law law' R a l)).map Spec.Twin.second⟩ := by
    rw [hB, List.map_map]
    rfl
  have hat : ∀ w ∈ es.map (Spec.SolidElem.twin dim f f' t t' law law' R a l), w.At L := by
    intro w hw
    obtain ⟨e, he, rfl⟩ := List.mem_map.1 hw
    obtain ⟨h1, nodes, hn, -⟩ := hes e he
    exact ⟨h1, nodes, hn⟩
  have hmain : ∀ e ∈ es, ∀ u u', (⟨e.n, d, e.children, e.index, []⟩ : Elem).local? x = some u →
      (⟨e.n, d, e.children, e.index, []⟩ : Elem).local? x' = some u' →
      Spec.TurnedSkill Q u u' (Skill.nonLinearElastic law (e.points.map (Spec.greenPoint dim)))
        (Skill.nonLinearElastic law' ((e.points.map (turnedPoint R)).map (Spec.greenPoint dim))) ∧
      Spec.SameEnergy u u' (Skill.nonLinearElastic law (e.points.map (Spec.greenPoint dim)))
        (Skill.nonLinearElastic law' ((e.points.map (turnedPoint R)).map (Spec.greenPoint dim))) := by
    intro e he u u' hu hu'
    obtain ⟨nodes, hn, hi⟩ := placed_local (hes e he)
    obtain rfl := Option.some.inj ((hn x hx.length).symm.trans hu)
    obtain rfl := Option.some.inj ((hn x' hx.length').symm.trans hu')
    have hturned : Turned R Q (fun I => pos (nodes I)) (fun I => a + R *ᵥ pos (nodes I))
        (fun I b => x.getD (L.dof (nodes I) b) 0) (fun I b => x'.getD (L.dof (nodes I) b) 0) := by
      obtain ⟨c, hc⟩ := hx.shape
      exact ⟨hR, hQ, ⟨a, rfl⟩, c, funext fun I => hc (nodes I)⟩
    refine nonLinearElastic_turn (T := T) ?_ (fun gp hgp => ?_) fun gp hgp => ?_
    · rw [List.map_map]
      exact forall_map e.points _ _ fun p hp => green_turned hdim hT hturned (hi p hp)
    · obtain ⟨p, hp, rfl⟩ := List.mem_map.1 hgp
      exact (hlaw e he _ ⟨_, hu, p, hp, rfl⟩).1
    · obtain ⟨p, hp, rfl⟩ := List.mem_map.1 hgp
      exact ⟨(hlaw e he _ ⟨_, hu, p, hp, rfl⟩).2, fun S => greenPoint_symmetric hdim p _ S⟩
  rw [hA', hB']
  refine ⟨turned_gives hQ hat (fun w hw s hs => ?_) hx.length hx.length' fun w hw u u' hu hu' => ?_, fun hxx => ?_⟩
  · obtain ⟨e, he, rfl⟩ := List.mem_map.1 hw
    rcases mem_three hs with rfl | rfl | rfl
    · exact ⟨fun _ => ⟨_, rfl⟩, fun _ _ => ⟨_, rfl⟩, fun _ _ => ⟨_, rfl⟩⟩
    · exact (load_total f t e.volume e.boundary l).1
    · exact (load_total f t e.volume e.boundary l).2
  · obtain ⟨e, he, rfl⟩ := List.mem_map.1 hw
    exact .cons (hmain e he u u' hu hu').1 (.cons (volumeLoad_turn hf e.volume l u u').1
      (.cons (traction_turn ht e.boundary l u u').1 .nil))
  · refine assembled_scalar_turn L hat hx.length hx.length' fun w hw u u' hu hu' => ?_
    obtain ⟨u0, g1, g2⟩ := local_turn L hat hxx hw
    obtain rfl := Option.some.inj (g1.symm.trans hu)
    obtain rfl := Option.some.inj (g2.symm.trans hu')
    obtain ⟨e, he, rfl⟩ := List.mem_map.1 hw
    exact .cons (hmain e he _ _ hu hu').2 (.cons ((volumeLoad_turn hf e.volume l _ (turn Q u0)).2 hQ)
      (.cons ((traction_turn ht e.boundary l _ (turn Q u0)).2 hQ) .nil))

/-- C114, solid structures with small strains. If the structure and its displacements are turned by `Q`, energy, residual and
stiffness are turned. -/
theorem linear_solids_turn {dim : EAS.Dimension d q} (hdim : EAS.Spec.IsVoigt dim) (hT : VoigtTurn dim.voigt Q T)
    (hQ : Qᵀ * Q = 1) {a : Fin d → ℝ} (hf : LoadTurns Q a Q f f') (ht : LoadTurns Q a Q t t') {C C' : Matrix (Fin q) (Fin q) ℝ}
    (hC : Tᵀ * C' * T = C) (hCs : C.IsSymm) (hes : ∀ e ∈ es, e.Placed L pos) (hx : Spec.TurnedList L Q x x') (l : ℝ) {A B : System}
    (hA : A = ⟨flags, es.map fun e => (e.linear dim f t C).at l⟩)
    (hB : B = ⟨flags, es.map fun e => ((e.turned Q a).linear dim f' t' C').at l⟩) :
    (∃ r r' K K', A.rawVector? x = some r ∧ B.rawVector? x' = some r' ∧ A.rawMatrix? x = some K ∧ B.rawMatrix? x' = some K' ∧
      Spec.TurnedList L Q r r' ∧ Spec.TurnedMatrix L Q K K') ∧ B.scalar? x' = A.scalar? x := by
  have hA' : A = ⟨flags, (es.map (Spec.SolidElem.linearTwin dim f f' t t' C C' Q a l)).map Spec.Twin.first⟩ := by
    rw [hA, List.map_map]
    rfl
  have hB' : B = ⟨flags, (es.map (Spec.SolidElem.linearTwin dim f f' t t' C C' Q a l)).map Spec.Twin.second⟩ := by
    rw [hB, List.map_map]
    rfl
  have hat : ∀ w ∈ es.map (Spec.SolidElem.linearTwin dim f f' t t' C C' Q a l), w.At L := by
    intro w hw
    obtain ⟨e, he, rfl⟩ := List.mem_map.1 hw
    obtain ⟨h1, nodes, hn, -⟩ := hes e he
    exact ⟨h1, nodes, hn⟩
  have hmain : ∀ e ∈ es, ∀ u : NodeVec e.n d,
      Spec.TurnedSkill Q u (turn Q u) (Skill.linearElastic C (e.points.map (Spec.linearPoint dim)))
        (Skill.linearElastic C' ((e.points.map (turnedPoint Q)).map (Spec.linearPoint dim))) ∧
      Spec.SameEnergy u (turn Q u) (Skill.linearElastic C (e.points.map (Spec.linearPoint dim)))
        (Skill.linearElastic C' ((e.points.map (turnedPoint Q)).map (Spec.linearPoint dim))) := by
    intro e he u
    obtain ⟨nodes, -, hi⟩ := placed_local (hes e he)
    refine linearElastic_turn hC hCs ?_
    rw [List.map_map]
    refine forall_map e.points _ _ fun p hp => ?_
    have := linear_turned hdim hT hQ (u := u) 0 (hi p hp).unity (gp := Spec.linearPoint dim p)
      (gp' := Spec.linearPoint dim (turnedPoint Q p)) ⟨rfl, rfl, fun _ => rfl⟩ ⟨rfl, rfl, fun _ => rfl⟩
    rwa [show affine 0 Q u = turn Q u from funext fun I => zero_add _] at this
  have hloc : ∀ w ∈ es.map (Spec.SolidElem.linearTwin dim f f' t t' C C' Q a l), ∀ u u', w.first.local? x = some u →
      w.second.local? x' = some u' → u' = turn Q u := by
    intro w hw u u' hu hu'
    obtain ⟨u0, g1, g2⟩ := local_turn L hat hx hw
    obtain rfl := Option.some.inj (g1.symm.trans hu)
    exact (Option.some.inj (g2.symm.trans hu')).symm
  rw [hA', hB']
  refine ⟨turned_gives hQ hat (fun w hw s hs => ?_) hx.length hx.length' fun w hw u u' hu hu' => ?_,
    assembled_scalar_turn L hat hx.length hx.length' fun w hw u u' hu hu' => ?_⟩
  · obtain ⟨e, he, rfl⟩ := List.mem_map.1 hw
    rcases mem_three hs with rfl | rfl | rfl
    · exact ⟨fun _ => ⟨_, rfl⟩, fun _ _ => ⟨_, rfl⟩, fun _ _ => ⟨_, rfl⟩⟩
    · exact (load_total f t e.volume e.boundary l).1
    · exact (load_total f t e.volume e.boundary l).2
  · obtain rfl := hloc w hw u u' hu hu'
    obtain ⟨e, he, rfl⟩ := List.mem_map.1 hw
    exact .cons (hmain e he u).1 (.cons (volumeLoad_turn hf e.volume l u _).1 (.cons (traction_turn ht e.boundary l u _).1 .nil))
  · obtain rfl := hloc w hw u u' hu hu'
    obtain ⟨e, he, rfl⟩ := List.mem_map.1 hw
    exact .cons (hmain e he u).2 (.cons ((volumeLoad_turn hf e.volume l u (turn Q u)).2 hQ)
      (.cons ((traction_turn ht e.boundary l u (turn Q u)).2 hQ) .nil))

end Ikarus
