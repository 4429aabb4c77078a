import Verif.Analysis.SmoothSkillProps
import Verif.Analysis.PatchMeshProps
import Verif.Analysis.PathExampleProps
import Verif.Analysis.TrussSupportProps

/-!
C107: solids under small loads.
-/

namespace Ikarus

open Ikarus.Element Ikarus.Element.Spec

variable {d q : Nat}

/-! ### Specification -/

/-- An element of a solid: its basis, its integration points, those of the volume load and the loaded parts of its boundary. -/
structure Spec.SolidElem (d : Nat) where
  n : Nat
  children : List FETree
  index : List Nat
  points : List (GradientPoint n d)
  volume : List (LoadPoint n d)
  boundary : List (Traction.Intersection n d)

/-- An integration point with the linear strains. -/
noncomputable def Spec.linearPoint {n : Nat} (dim : EAS.Dimension d q) (p : GradientPoint n d) : LinPoint n d q :=
  ⟨p.detJ, p.weight, fun I => dim.bop 1 (p.dN I)⟩

namespace Spec.SolidElem

variable (dim : EAS.Dimension d q) (f t : LoadFunction d) (e : Spec.SolidElem d)

/-- The element with large strains, the volume load `f` and the traction `t`. -/
noncomputable def nonlinear (law : Law q) : ParamElem :=
  ⟨e.n, d, e.children, e.index, [fun _ => Skill.nonLinearElastic law (e.points.map (Spec.greenPoint dim)),
    fun l => Skill.volumeLoad (some f) e.volume l, fun l => Skill.traction (some e.boundary) (some t) l]⟩

/-- The element with small strains and the same loads. -/
noncomputable def linear (C : Matrix (Fin q) (Fin q) ℝ) : ParamElem :=
  ⟨e.n, d, e.children, e.index, [fun _ => Skill.linearElastic C (e.points.map (Spec.linearPoint dim)),
    fun l => Skill.volumeLoad (some f) e.volume l, fun l => Skill.traction (some e.boundary) (some t) l]⟩

/-- The element with small strains and without loads. -/
noncomputable def unloaded (C : Matrix (Fin q) (Fin q) ℝ) : Elem :=
  ⟨e.n, d, e.children, e.index, [Skill.linearElastic C (e.points.map (Spec.linearPoint dim))]⟩

end Spec.SolidElem

/-! ### Lemmas -/

theorem volumeLoad_vanishes {n : Nat} {f : LoadFunction d} {l : ℝ} (hf : ∀ x, f x l = 0) (gps : List (LoadPoint n d)) (u g : NodeVec n d) :
    (Skill.volumeLoad (some f) gps l).scalar u = some 0 ∧ (Skill.volumeLoad (some f) gps l).vector u g = some g := by
  constructor
  · show some (VolumeLoad.calculateScalar (some f) gps l u) = _
    rw [VolumeLoad.calculateScalar_sum]
    simp [hf]
  · show some (VolumeLoad.calculateVector (some f) gps l g) = _
    rw [VolumeLoad.calculateVector_sum]
    have : gps.map (VolumeLoad.pointForce f l) = gps.map fun _ => 0 :=
      List.map_congr_left fun p _ => by funext I; simp [VolumeLoad.pointForce, hf]
    rw [this]
    simp

theorem traction_vanishes {n : Nat} {t : LoadFunction d} {l : ℝ} (ht : ∀ x, t x l = 0) (is : List (Traction.Intersection n d))
    (u g : NodeVec n d) :
    (Skill.traction (some is) (some t) l).scalar u = some 0 ∧ (Skill.traction (some is) (some t) l).vector u g = some g := by
  constructor
  · show Traction.calculateScalar (some is) (some t) l u = _
    rw [Traction.calculateScalar_sum]
    simp [ht]
  · show Traction.calculateVector (some is) (some t) l g = _
    rw [Traction.calculateVector_sum]
    have : (loadedPoints is).map (Traction.pForce t l) = (loadedPoints is).map fun _ => 0 :=
      List.map_congr_left fun p _ => by funext I a; rw [Traction.pForce_apply]; simp [ht]
    rw [this]
    simp

theorem mem_three {α : Type*} {s x y z : α} (h : s ∈ [x, y, z]) : s = x ∨ s = y ∨ s = z := by simpa using h

theorem scalar_vanishes {n : Nat} (s s1 s2 : Skill n d) (u : NodeVec n d) (h1 : s1.scalar u = some 0) (h2 : s2.scalar u = some 0) :
    Mixin.calculateScalar u [s, s1, s2] = Mixin.calculateScalar u [s] := by
  simp [Mixin.calculateScalar, h1, h2]

theorem vector_unloaded {n : Nat} (ss : List (ℝ → Skill n d)) (h : ∀ s ∈ ss, ∀ g, (s 0).vector 0 g = some g) (g : NodeVec n d) :
    Mixin.calculateVector 0 (ss.map fun s => s 0) g = some g := by
  induction ss with
  | nil => rfl
  | cons s ss ih =>
    simp only [List.map_cons, Mixin.calculateVector]
    rw [h s (by simp), Option.bind_some]
    exact ih fun s' hs' => h s' (by simp [hs'])

/-- C107, balance. A structure whose elements need no forces at rest is balanced there. -/
theorem rest_balanced {a : Analysis} (hel : Spec.SmoothElems a 0 (Spec.rest a))
    (h : ∀ e ∈ a.elems, ∀ s ∈ e.skills, ∀ g, (s 0).vector 0 g = some g) :
    ∃ r, (a.system 0).rawVector? (Spec.rest a) = some r ∧ ∀ i, Spec.Free a.dv.flags i → r.getD i 0 = 0 := by
  obtain ⟨delta, hd, Lam, -, rs, hrs⟩ := smooth_elems a.elems a.dv.flags.length 0 (Spec.rest a) Analysis.rest_length hel
  obtain ⟨-, ⟨r, hr, hri⟩, -⟩ := Analysis.smooth_system hrs Analysis.rest_length (l := 0) (by rw [sub_zero, abs_zero]; exact hd.le)
    (Analysis.near_refl Analysis.rest_length hd.le)
  refine ⟨r, hr, fun i hi => ?_⟩
  rw [hri i (free_lt hi)]
  refine List.sum_eq_zero fun x hx => ?_
  obtain ⟨r', hr', rfl⟩ := List.mem_map.1 hx
  have h1 := r'.hF 0 0 0
  rw [vector_unloaded r'.e.skills (h r'.e (by rw [hrs]; exact List.mem_map_of_mem hr')), zero_add] at h1
  have h2 : gathered r'.e.n r'.e.d r'.dofs (Spec.rest a) = 0 := gathered_zero _ _
  rw [h2, ← Option.some.inj h1]
  simp [work]

/-- C107, linear solvers. Solving with the inverse matrix is an exact solver. -/
theorem inverseSolve_exactSolver : Spec.ExactSolver Spec.inverseSolve := by
  intro A hsq hsolve
  let M : Matrix (Fin A.rows) (Fin A.rows) ℝ := Matrix.of fun i j => A.val i j
  have hM : IsUnit M := by
    rw [← Matrix.mulVec_surjective_iff_isUnit]
    intro b
    obtain ⟨c, -, hc⟩ := hsolve (List.ofFn b) (by simp)
    refine ⟨fun j => c.getD j 0, funext fun i => ?_⟩
    have := hc i i.2
    rw [← hsq, Finset.sum_range] at this
    simpa [Matrix.mulVec, dotProduct, M, List.getD_eq_getElem?_getD] using this
  refine inverseSolve_exact A hsq.symm fun c hc i hi => ?_
  have h0 : M.mulVec (fun j => c j) = 0 := by
    funext k
    have := hc k k.2
    rw [Finset.sum_range] at this
    simpa [Matrix.mulVec, dotProduct, M] using this
  have h1 := Matrix.mulVec_injective_iff_isUnit.2 hM (h0.trans (Matrix.mulVec_zero M).symm)
  exact congrFun h1 ⟨i, hi⟩

/-! ### Solids -/

variable {a b : Analysis} {û : Nat → ℝ}

/-- A structure of solid elements that is unstressed and unloaded at rest, and its linear counterpart. -/
theorem solids_at_rest {dim : EAS.Dimension d q} (hdim : EAS.Spec.IsVoigt dim) {law : Law q} {dom : Set (Fin q → ℝ)}
    (hlaw : Spec.SmoothLaw law dom) (h0 : 0 ∈ dom) (hs0 : law.stress 0 = 0) (hps : (law.tangent 0).PosSemidef) {f t : LoadFunction d}
    (hf : Spec.SmoothLoad f 0) (hf0 : ∀ x, f x 0 = 0) (ht : Spec.SmoothLoad t 0) (ht0 : ∀ x, t x 0 = 0)
    (es : List (Spec.SolidElem d)) (hw : ∀ e ∈ es, ∀ p ∈ e.points, 0 ≤ p.detJ * p.weight)
    (hp : Spec.Proper a û)
    (ha : a.elems = es.map fun e => e.nonlinear dim f t law) (hb : b.elems = es.map fun e => e.linear dim f t (law.tangent 0))
    (hdv : b.dv.flags = a.dv.flags)
    (hsup : Spec.Supported a.dv.flags (System.mk a.dv.flags (es.map fun e => e.unloaded dim (law.tangent 0))).scalar?) :
    Spec.SmoothElems a 0 (Spec.rest a) ∧
      (∃ r, (a.system 0).rawVector? (Spec.rest a) = some r ∧ ∀ i, Spec.Free a.dv.flags i → r.getD i 0 = 0) ∧
      Spec.LinearElems b.dv.flags.length b.elems ∧ Spec.SameAtRest a b ∧ Spec.Supported b.dv.flags (b.system 0).scalar? := by
  have hfit : ∀ e ∈ es, ∀ l, Spec.ElemFits a.dv.flags.length ((e.nonlinear dim f t law).at l) := fun e he l =>
    (hp.elems _ (by rw [ha]; exact List.mem_map_of_mem he) l).1
  have hsym : (law.tangent 0).IsSymm := by simpa using hps.isHermitian
  have hgz : ∀ (e : Spec.SolidElem d) (p : GradientPoint e.n d), (Spec.greenPoint dim p).strain 0 = 0 := by
    intro e p
    funext k
    have : EAS.gradient p.dN (0 : NodeVec e.n d) = 0 := by ext i j; simp [EAS.gradient]
    show dim.greenLagrange (EAS.gradient p.dN 0) k = 0
    rw [this, hdim.greenLagrange, add_zero, sub_self, mul_zero]
  have hlin0 : ∀ (e : Spec.SolidElem d), Spec.Linearized
      (fun _ => Skill.nonLinearElastic law (e.points.map (Spec.greenPoint dim)))
      (fun _ => Skill.linearElastic (law.tangent 0) (e.points.map (Spec.linearPoint dim))) := fun e =>
    nonLinearElastic_linearized dim hdim hs0 rfl e.points _ fun p _ => ⟨rfl, rfl, fun _ => rfl⟩
  have hforce : ∀ (e : Spec.SolidElem d) (g : NodeVec e.n d),
      (Skill.linearElastic (law.tangent 0) (e.points.map (Spec.linearPoint dim))).vector 0 g = some g := by
    intro e g
    show some (LinearElastic.calculateVector false (law.tangent 0) _ 0 g) = _
    rw [LinearElastic.calculateVector_sum, List.map_map]
    have : e.points.map (LinearElastic.pointForce (law.tangent 0) 0 ∘ Spec.linearPoint dim) = e.points.map fun _ => 0 :=
      List.map_congr_left fun p _ => by
        funext I
        simp [LinearElastic.pointForce, LinearElastic.stress, LinPoint.strain]
    rw [this]
    simp
  have hsm : Spec.SmoothElems a 0 (Spec.rest a) := by
    intro e' he'
    rw [ha] at he'
    obtain ⟨e, he, rfl⟩ := List.mem_map.1 he'
    refine ⟨hfit e he 0, fun u hu s hs => ?_⟩
    obtain ⟨h1, h2, dofs, h3, h4⟩ := hfit e he 0
    obtain ⟨-, X, -, hl, -⟩ := local_eq h1 h2 h3 h4 (Spec.rest a) Analysis.rest_length
    obtain rfl : u = 0 := (Option.some.inj (hu.symm.trans hl)).trans (gathered_zero dofs _)
    have hs : s ∈ [fun _ => Skill.nonLinearElastic law (e.points.map (Spec.greenPoint dim)),
      fun l => Skill.volumeLoad (some f) e.volume l, fun l => Skill.traction (some e.boundary) (some t) l] := hs
    rcases mem_three hs with rfl | rfl | rfl
    · refine nonLinearElastic_smooth hlaw _ 0 0 (fun gp hgp => ?_) fun gp hgp => ?_
      · obtain ⟨p, -, rfl⟩ := List.mem_map.1 hgp
        exact greenPoint_smooth dim hdim p 0
      · obtain ⟨p, -, rfl⟩ := List.mem_map.1 hgp
        exact (hgz e p).symm ▸ h0
    · exact volumeLoad_smooth f hf e.volume 0
    · exact traction_smooth t ht e.boundary 0
  have hbal := rest_balanced hsm fun e' he' s hs g => by
    rw [ha] at he'
    obtain ⟨e, he, rfl⟩ := List.mem_map.1 he'
    have hs : s ∈ [fun _ => Skill.nonLinearElastic law (e.points.map (Spec.greenPoint dim)),
      fun l => Skill.volumeLoad (some f) e.volume l, fun l => Skill.traction (some e.boundary) (some t) l] := hs
    rcases mem_three hs with rfl | rfl | rfl
    · exact ((hlin0 e).1 0 g).symm.trans (hforce e g)
    · exact (volumeLoad_vanishes hf0 e.volume 0 g).2
    · exact (traction_vanishes ht0 e.boundary 0 g).2
  have hbl : Spec.LinearElems b.dv.flags.length b.elems := by
    intro e' he'
    rw [hb] at he'
    obtain ⟨e, he, rfl⟩ := List.mem_map.1 he'
    rw [hdv]
    refine ⟨hfit e he 0, fun s hs => ?_⟩
    have hs : s ∈ [fun _ => Skill.linearElastic (law.tangent 0) (e.points.map (Spec.linearPoint dim)),
      fun l => Skill.volumeLoad (some f) e.volume l, fun l => Skill.traction (some e.boundary) (some t) l] := hs
    rcases mem_three hs with rfl | rfl | rfl
    · refine linearElastic_linear _ hsym hps _ fun gp hgp => ?_
      obtain ⟨p, hp', rfl⟩ := List.mem_map.1 hgp
      exact hw e he p hp'
    · exact volumeLoad_linear (some f) e.volume
    · exact traction_linear e.boundary t
  have hsame : Spec.SameAtRest a b := by
    refine sameAtRest hdv (fun e he => (hp.elems e he 0).1) ?_
    rw [ha, hb, List.forall₂_map_left_iff, List.forall₂_map_right_iff]
    exact List.forall₂_same.2 fun e _ => ⟨_, rfl, .cons (hlin0 e) (.cons (.refl _) (.cons (.refl _) .nil))⟩
  refine ⟨hsm, hbal, hbl, hsame, ?_⟩
  have hsc : (b.system 0).scalar? = (System.mk a.dv.flags (es.map fun e => e.unloaded dim (law.tangent 0))).scalar? := by
    funext x
    show (mapOpt _ (b.elems.map (·.at 0))).map _ = (mapOpt _ (es.map _)).map _
    rw [hb, List.map_map]
    congr 1
    refine mapOpt_forall₂ (R := fun x y => ∃ e : Spec.SolidElem d, x = e.unloaded dim (law.tangent 0) ∧
      y = (e.linear dim f t (law.tangent 0)).at 0) ?_ ?_
    · rw [List.forall₂_map_left_iff, List.forall₂_map_right_iff]
      exact List.forall₂_same.2 fun e _ => ⟨e, rfl, rfl⟩
    · rintro _ - _ ⟨e, rfl, rfl⟩
      show ((e.unloaded dim (law.tangent 0)).local? x).bind _ = ((e.unloaded dim (law.tangent 0)).local? x).bind _
      congr 1
      funext u
      exact scalar_vanishes _ _ _ _ (volumeLoad_vanishes hf0 e.volume u 0).1 (traction_vanishes ht0 e.boundary u 0).1
  rw [hsc, hdv]
  exact hsup

/-- C107. Solids under small loads: let `a` be a structure of solid elements with large strains and a smooth material that is
unstressed without strain, and `b` the structure with small strains and the material matrix of that material without strain, both
with the same supports and the same loads, which grow at a bounded rate from zero.  If the supports suffice, there is a range
of load factors in which load control of `a` succeeds with any number of load steps, and shows the displacements of `b` up to
an error of second order in the load factor and multiples of the tolerances. -/
theorem small_solids {dim : EAS.Dimension d q} (hdim : EAS.Spec.IsVoigt dim) {law : Law q} {dom : Set (Fin q → ℝ)}
    (hlaw : Spec.SmoothLaw law dom) (h0 : 0 ∈ dom) (hs0 : law.stress 0 = 0) (hps : (law.tangent 0).PosSemidef) {f t : LoadFunction d}
    (hf : Spec.SmoothLoad f 0) (hf0 : ∀ x, f x 0 = 0) (ht : Spec.SmoothLoad t 0) (ht0 : ∀ x, t x 0 = 0)
    (es : List (Spec.SolidElem d)) (hw : ∀ e ∈ es, ∀ p ∈ e.points, 0 ≤ p.detJ * p.weight)
    (hp : Spec.Proper a û) (hbd : a.bound = none ∨ ∀ i < a.dv.flags.length, û i = 0) (hlin : Spec.ExactSolver a.linSolve)
    (ha : a.elems = es.map fun e => e.nonlinear dim f t law) (hb : b.elems = es.map fun e => e.linear dim f t (law.tangent 0))
    (hdv : b.dv.flags = a.dv.flags)
    (hsup : Spec.Supported a.dv.flags (System.mk a.dv.flags (es.map fun e => e.unloaded dim (law.tangent 0))).scalar?) :
    ∃ eta tol0 beta C M : ℝ, 0 < eta ∧ 0 < tol0 ∧ 0 ≤ beta ∧ 0 ≤ C ∧ 0 ≤ M ∧
      ∀ s : NRSettings ℝ, 0 < s.tol → s.tol ≤ tol0 → ∃ m : Nat, s.minIter ≤ m → (m : Int) < s.maxIter →
      ∀ n : Nat, 0 < n → ∀ l : ℝ, l ≠ 0 → |l| ≤ eta →
      ∃ (r : LCState ℝ (Option (List ℝ)) ℝ (Option (List ℝ))) (us : Nat → List ℝ),
        { a with settings := s }.loadControl? n 0 l ⟨0, some (Spec.rest a)⟩ = some r ∧ r.info.success = true ∧
        Spec.shown r = (List.range (n + 1)).map (fun k : Nat => ⟨k * (l / n), some (us k)⟩) ∧
        ∀ k ≤ n, ∃ info, r.info.solverInfos[k]? = some info ∧ info.success = true ∧ info.iterations ≤ m ∧
          ∀ tol, 0 ≤ tol → ∀ y, Spec.InEquilibrium b.dv.flags (b.system (k * (l / n))).scalar? û (k * (l / n)) tol y →
            Spec.distance (us k) y ≤ C * (k * (l / n)) ^ 2 + 2 * beta * s.tol + M * |l / n| + beta * tol ∧
            (k = 0 ∨ 0 < info.iterations ∨ (∀ i < a.dv.flags.length, û i = 0) →
              Spec.distance (us k) y ≤ C * (k * (l / n)) ^ 2 + 2 * beta * s.tol + beta * tol) := by
  obtain ⟨hsm, hbal, hbl, hsame, hsup'⟩ := solids_at_rest hdim hlaw h0 hs0 hps hf hf0 ht ht0 es hw hp ha hb hdv hsup
  exact Analysis.small_loads hp hbd hlin hsm hbal hbl hsame hsup'

/-! ### The mesh of three quadrilaterals -/

/-- The bilinear shape functions. -/
def bilinearShape (g : Fin 2 → ℝ) : Fin 4 → ℝ := ![(1 - g 0) * (1 - g 1), g 0 * (1 - g 1), (1 - g 0) * g 1, g 0 * g 1]

/-- The elements of the mesh, with the integration points of the volume load and without loaded boundary. -/
noncomputable def exampleSolids : List (Spec.SolidElem 2) := exampleMesh.quads.map fun q =>
  ⟨4, (exampleMesh.tile (exampleMesh.linear exampleMeshC) q).children, (exampleMesh.tile (exampleMesh.linear exampleMeshC) q).index,
    exampleMesh.rule.map (quadPoint (exampleMesh.corners q)),
    exampleMesh.rule.map fun g => ⟨∑ I, bilinearShape g.1 I • exampleMesh.corners q I,
      (quadPoint (exampleMesh.corners q) g).detJ, g.2, bilinearShape g.1⟩, []⟩

/-- The dead load, in proportion to the load factor. -/
def exampleWeight : LoadFunction 2 := fun _ l => ![0, -l]

/-- The structure of St. Venant-Kirchhoff material whose outer nodes are displaced. -/
noncomputable def exampleSolid (option : DBCOption) : Analysis :=
  { exampleMeshAnalysis option with
    elems := exampleSolids.map fun e => e.nonlinear EAS.plane exampleWeight exampleWeight (linearLaw exampleMeshC) }

theorem exampleWeight_smooth : Spec.SmoothLoad exampleWeight 0 := by
  refine ⟨1, one_pos, 1, zero_le_one, fun x l l' _ _ a => ?_⟩
  fin_cases a
  · simp [exampleWeight]
  · simp only [exampleWeight]
    rw [one_mul, abs_sub_comm l]
    simp
    rw [neg_add_eq_sub]

theorem exampleSolid_proper (o : DBCOption) (ho : o ≠ .raw) : Spec.Proper (exampleSolid o) exampleMeshSupport := by
  have h := exampleMesh_proper o ho
  have hel : ∀ e ∈ (exampleSolid o).elems, ∀ l, Spec.ElemFits (exampleSolid o).dv.flags.length (e.at l) ∧
      ∀ s ∈ e.skills, Spec.TotalSkill (s l) := by
    intro e' he' l
    obtain ⟨e, he, rfl⟩ := List.mem_map.1 he'
    obtain ⟨q, hq, rfl⟩ := List.mem_map.1 he
    refine ⟨tile_fits (skills := exampleMesh.linear exampleMeshC) (exampleMesh_valid.node q hq), fun s hs => ?_⟩
    rcases mem_three hs with rfl | rfl | rfl
    · exact ⟨fun _ => ⟨_, rfl⟩, fun _ _ => ⟨_, rfl⟩, fun _ _ => ⟨_, rfl⟩⟩
    · exact linear_total (volumeLoad_linear _ _) l
    · exact linear_total (traction_linear _ _) l
  refine ⟨ho, hel, h.prescribed, h.force, h.alive, h.bound, fun l x hx A hA => ?_⟩
  obtain ⟨E, r, K, -, -, -, hK, -⟩ := total_system ((exampleSolid o).system l) (fun e he => by
    obtain ⟨e', he', rfl⟩ := List.mem_map.1 he
    refine ⟨(hel e' he' l).1, fun sk hsk => ?_⟩
    obtain ⟨s, hs, rfl⟩ := List.mem_map.1 hsk
    exact (hel e' he' l).2 s hs) hx
  exact inverseSolve_answers (exampleSolid o) l x ho K hK A hA

/-- Small loads and small displacements of the outer nodes: the mesh of St. Venant-Kirchhoff material. -/
example (o : DBCOption) (ho : o ≠ .raw) := small_solids (a := exampleSolid o)
  (b := { exampleMeshAnalysis o with
    elems := exampleSolids.map fun e => e.linear EAS.plane exampleWeight exampleWeight exampleMeshC })
  EAS.plane_isVoigt (linearLaw_smooth exampleMeshC (by simpa using exampleMeshC_posDef.isHermitian)) (Set.mem_univ 0)
  (Matrix.mulVec_zero exampleMeshC) exampleMeshC_posDef.posSemidef exampleWeight_smooth (fun _ => by simp [exampleWeight]) exampleWeight_smooth
  (fun _ => by simp [exampleWeight]) exampleSolids
  (fun e he p hp => by
    obtain ⟨q, hq, rfl⟩ := List.mem_map.1 he
    obtain ⟨g, hg, rfl⟩ := List.mem_map.1 hp
    exact mul_nonneg (abs_nonneg _) ((EAS.gauss_exact 2).1.2 g hg).le)
  (exampleSolid_proper o ho) (Or.inl rfl) inverseSolve_exactSolver rfl rfl rfl
  (by
    have := exampleMesh_supported 0
    rw [List.map_map] at this
    show Spec.Supported exampleMeshFlags (System.mk exampleMeshFlags (List.map _ (List.map _ _))).scalar?
    rw [List.map_map]
    exact this)

end Ikarus
