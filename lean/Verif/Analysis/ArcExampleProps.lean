import Verif.Analysis.ArcProps
import Verif.Analysis.PathExampleProps
import Verif.Analysis.TrussPathProps

/-!
C105, continued: a shallow arch.  Arc length follows its equilibrium path, one step takes it past its limit point, and a step across
the limit point without a change of the load factor ends the run.
-/

namespace Ikarus

open Ikarus.Element Ikarus.Element.Spec PathAnalysis Arc

/-! ### The arch -/

/-- A bar from (0, 0) to (3/4, 1) with a load against the second axis. -/
noncomputable def archElem : ParamElem where
  n := 2
  d := 2
  children := [.leaf [0, 1], .leaf [2, 3]]
  index := [0, 2, 1, 3]
  skills := [fun _ => .truss (125 / 64) 1 ![0, 0] ![3 / 4, 1],
    fun l => .volumeLoad (some fun _ l => ![0, -l]) [⟨![0, 0], 1, 2, ![1 / 2, 1 / 2]⟩] l]

/-- One end is held, the other one, loaded, can move along the second axis. -/
noncomputable def arch (o : DBCOption) (steps : Nat) : PathAnalysis where
  dv := ⟨[true, true, true, false], 0, [], fun _ => true⟩
  alive := fun _ => true
  elems := [archElem]
  option := o
  bound := none
  linSolve := Spec.inverseSolve
  settings := { tol := 1 / 100000, minIter := 0, maxIter := 20 }
  withForce := false
  spd := Spec.inverseSolve
  steps := steps
  stepSize := 1 / 200
  adapt := fun _ args => .ok args.stepSize

variable {o : DBCOption} {n : Nat}

theorem archElem_fits (l : ℝ) : Spec.ElemFits 4 (archElem.at l) := by
  refine ⟨rfl, rfl, [0, 1, 2, 3], ?_, by simp⟩
  simp [Elem.dofs?, ParamElem.at, archElem, FETree.globalIndices, FETree.firstIsLeaf, FETree.powerNodeIndices,
    FETree.leafSize?, FETree.childIndex?, FETree.leafIndex?, mapOpt, List.range, List.range.loop]

theorem arch_contract (l : ℝ) (x : List ℝ) (hx : x.length = 4) : Spec.SystemContract ((arch o n).system l) x := by
  refine ⟨hx, fun e he => ?_⟩
  obtain rfl : e = archElem.at l := List.mem_singleton.1 he
  refine ⟨archElem_fits l, fun u _ sk hsk => ?_⟩
  have hsk : sk ∈ [Skill.truss (125 / 64) 1 ![0, 0] ![3 / 4, 1],
    Skill.volumeLoad (some fun _ l => ![0, -l]) [⟨![0, 0], 1, 2, ![1 / 2, 1 / 2]⟩] l] := hsk
  rcases List.mem_cons.1 hsk with rfl | hsk
  · exact (truss_skill _ _ _ _ _).1
  · obtain rfl := List.mem_singleton.1 hsk
    exact (volumeLoad_skill _ _ _ _)

theorem arch_proper (ho : o ≠ .raw) : Spec.ProperPath (arch o n) fun _ => 0 := by
  have hans : ∀ l (x : List ℝ), x.length = 4 → ∀ A,
      (arch o n).jacobian? ⟨l, some x⟩ = some A → Spec.Answers Spec.inverseSolve o [true, true, true, false] A := by
    intro l x hx A hA
    obtain ⟨-, -, K, -, hK, -⟩ := assembled_consistent _ _ (arch_contract (o := o) (n := n) l x hx)
    exact inverseSolve_answers (arch o n).toAnalysis l x ho K hK A hA
  refine ⟨⟨ho, fun e he l => ?_, ⟨fun l i _ => ?_, fun i _ => ?_, fun i _ h => absurd rfl h⟩, Or.inr fun _ _ => rfl,
    fun _ _ => rfl, fun _ h => absurd h (by simp [arch]), hans⟩, hans⟩
  · obtain rfl : e = archElem := List.mem_singleton.1 he
    refine ⟨archElem_fits l, fun s hs => ?_⟩
    rcases List.mem_cons.1 hs with rfl | hs
    · exact (truss_skill _ _ _ _ 0).2
    · obtain rfl := List.mem_singleton.1 hs
      exact ⟨fun _ => ⟨_, rfl⟩, fun _ _ => ⟨_, rfl⟩, fun _ _ => ⟨_, rfl⟩⟩
  · simp [Spec.prescribed, Spec.total, arch]
  · simp [Spec.total, arch]

theorem archElem_local (l a b c e : ℝ) :
    Elem.local? (archElem.at l) [a, b, c, e] = some (![![a, b], ![c, e]] : NodeVec 2 2) := exampleTruss_local l a b c e

theorem arch_energy (l a b c e : ℝ) : ((arch o n).system l).scalar? [a, b, c, e] =
    some (1 / 8 * ((3 / 4 + c - a) ^ 2 + (1 + e - b) ^ 2 - 25 / 16) ^ 2 + l * (b + e)) := by
  show ((mapOpt (·.scalar? [a, b, c, e]) [archElem.at l]).map fun fes => Assembler.getScalar fes 0) = _
  have : (archElem.at l).scalar? [a, b, c, e] =
      some (1 / 8 * ((3 / 4 + c - a) ^ 2 + (1 + e - b) ^ 2 - 25 / 16) ^ 2 + l * (b + e)) := by
    unfold Elem.scalar?
    rw [archElem_local]
    show Mixin.calculateScalar (![![a, b], ![c, e]] : NodeVec 2 2) [.truss (125 / 64) 1 ![0, 0] ![3 / 4, 1],
      .volumeLoad (some fun _ l => ![0, -l]) [⟨![0, 0], 1, 2, ![1 / 2, 1 / 2]⟩] l] = _
    have hr : Real.sqrt (25 / 16) = 5 / 4 := by
      rw [show (25 / 16 : ℝ) = (5 / 4) ^ 2 by norm_num, Real.sqrt_sq (by norm_num)]
    have h1 : Truss.calculateScalar (125 / 64) 1 ![0, 0] ![3 / 4, 1] (![![a, b], ![c, e]] : NodeVec 2 2) =
        1 / 8 * ((3 / 4 + c - a) ^ 2 + (1 + e - b) ^ 2 - 25 / 16) ^ 2 := by
      simp [Truss.calculateScalar, Truss.computeStrain, Truss.squaredNorm, dotProduct, Fin.sum_univ_two]
      norm_num [hr]
      ring
    have h2 : VolumeLoad.calculateScalar (some fun _ l => ![0, -l]) [⟨![0, 0], 1, 2, ![1 / 2, 1 / 2]⟩] l
        (![![a, b], ![c, e]] : NodeVec 2 2) = l * (b + e) := by
      simp [VolumeLoad.calculateScalar_sum, LoadPoint.displacement, dotProduct, Fin.sum_univ_two]
      ring
    simp only [Mixin.calculateScalar, Skill.truss, Skill.volumeLoad, h1, h2, Option.bind_some, Option.map_some]
    congr 1; ring
  simp [mapOpt, this, Assembler.getScalar, Assembler.getScalarLoop]

theorem arch_vector (l a b c e : ℝ) : ∃ r, ((arch o n).system l).rawVector? [a, b, c, e] = some r ∧ r.length = 4 ∧
    r.getD 3 0 = 1 / 2 * ((3 / 4 + c - a) ^ 2 + (1 + e - b) ^ 2 - 25 / 16) * (1 + e - b) + l := by
  obtain ⟨-, r, K', hr, -, hd⟩ := assembled_consistent _ _ (arch_contract (o := o) (n := n) l [a, b, c, e] rfl)
  obtain ⟨-, r', -, -, hr', hrl, -⟩ := Analysis.proper_system (arch_proper (o := .full) (n := n) (by simp)).proper l (x := [a, b, c, e]) rfl
  have hrr : ((arch .full n).system l).rawVector? [a, b, c, e] = ((arch o n).system l).rawVector? [a, b, c, e] := rfl
  obtain rfl : r' = r := Option.some.inj (hr'.symm.trans (hrr.trans hr))
  refine ⟨r', hr, hrl, ?_⟩
  have h1 := (hd [0, 0, 0, 1] rfl).1
  have hline : ∀ t : ℝ, Spec.line [a, b, c, e] [0, 0, 0, 1] t = [a, b, c, e + t] := by
    intro t
    simp [Spec.line]
  have h2 : HasDerivAt (fun t : ℝ => 1 / 8 * ((3 / 4 + c - a) ^ 2 + (1 + (e + t) - b) ^ 2 - 25 / 16) ^ 2 + l * (b + (e + t)))
      (1 / 2 * ((3 / 4 + c - a) ^ 2 + (1 + e - b) ^ 2 - 25 / 16) * (1 + e - b) + l) 0 := by
    have h0 : HasDerivAt (fun t : ℝ => e + t) 1 0 := (hasDerivAt_id (0 : ℝ)).const_add e
    have h3 : HasDerivAt (fun t : ℝ => 1 + (e + t) - b) 1 0 := (h0.const_add 1).sub_const b
    have h4 := (((((h3.pow 2).const_add ((3 / 4 + c - a) ^ 2)).sub_const (25 / 16)).pow 2).const_mul (1 / 8 : ℝ)).add
      ((h0.const_add b).const_mul l)
    refine h4.congr_deriv ?_
    norm_num
    ring
  have h5 := h1.unique (h2.congr_of_eventuallyEq (Filter.Eventually.of_forall fun t => by
    show (((arch o n).system l).scalar? (Spec.line [a, b, c, e] [0, 0, 0, 1] t)).getD 0 = _
    rw [hline, arch_energy, Option.getD_some]))
  rw [← h5, dotL_eq_sum r' [0, 0, 0, 1] 4 hrl rfl]
  simp [Finset.sum_range_succ]

theorem arch_force (l e : ℝ) : ∃ r, ((arch o n).system l).rawVector? [0, 0, 0, e] = some r ∧ r.length = 4 ∧
    r.getD 3 0 = 1 / 2 * (2 * e + e ^ 2) * (1 + e) + l := by
  obtain ⟨r, h1, h2, h3⟩ := arch_vector (o := o) (n := n) l 0 0 0 e
  refine ⟨r, h1, h2, ?_⟩
  rw [h3]
  ring

theorem arch_times (l e : ℝ) (K : DMat ℝ) (hK : ((arch o n).system l).rawMatrix? [0, 0, 0, e] = some K) (v : ℝ) :
    Spec.times K [0, 0, 0, v] 3 = 1 / 2 * (3 * (1 + e) ^ 2 - 1) * v := by
  obtain ⟨-, r, K', -, hK', hd⟩ := assembled_consistent _ _ (arch_contract (o := o) (n := n) l [0, 0, 0, e] rfl)
  obtain rfl : K = K' := Option.some.inj (hK.symm.trans hK')
  have hf : ∀ e : ℝ, ((((arch o n).system l).rawVector? [0, 0, 0, e]).getD []).getD 3 0 =
      1 / 2 * (2 * e + e ^ 2) * (1 + e) + l := by
    intro e
    obtain ⟨r, h1, -, h2⟩ := arch_force (o := o) (n := n) l e
    rw [h1, Option.getD_some, h2]
  have hfl : ((arch o n).system l).flags.length = 4 := rfl
  have h1 := (hd [0, 0, 0, v] rfl).2 3 (by rw [hfl]; norm_num)
  have hline : ∀ t : ℝ, Spec.line [0, 0, 0, e] [0, 0, 0, v] t = [0, 0, 0, e + t * v] := by
    intro t
    simp [Spec.line]
  have h2 : HasDerivAt (fun t : ℝ => 1 / 2 * (2 * (e + t * v) + (e + t * v) ^ 2) * (1 + (e + t * v)) + l)
      (1 / 2 * (3 * (1 + e) ^ 2 - 1) * v) 0 := by
    have h3 : HasDerivAt (fun t : ℝ => e + t * v) v 0 := by simpa using ((hasDerivAt_id (0 : ℝ)).mul_const v).const_add e
    have h4 := ((((h3.const_mul 2).add (h3.pow 2)).const_mul (1 / 2 : ℝ)).mul (h3.const_add 1)).add_const l
    refine h4.congr_deriv ?_
    norm_num
    ring
  have h5 := h1.unique (h2.congr_of_eventuallyEq (Filter.Eventually.of_forall fun t => by
    show ((((arch o n).system l).rawVector? (Spec.line [0, 0, 0, e] [0, 0, 0, v] t)).getD []).getD 3 0 = _
    rw [hline, hf]))
  rw [← h5, hfl]
  rfl

theorem arch_freeSize (f : Nat → ℝ) : Spec.freeSize [true, true, true, false] f = |f 3| := by
  rw [← freeSize_sqrt]
  have : (Finset.range ([true, true, true, false] : List Bool).length).filter
      (fun i => Spec.Free [true, true, true, false] i) = {3} := by decide
  unfold freeSq
  rw [this, Finset.sum_singleton, Real.sqrt_mul_self_eq_abs]

theorem arch_free {i : Nat} (hi : Spec.Free [true, true, true, false] i) : i = 3 := by
  have hlt : i < 4 := free_lt hi
  rcases i with _ | _ | _ | _ | i
  · cases hi
  · cases hi
  · cases hi
  · rfl
  · omega

theorem arch_still {x : List ℝ} : Spec.Still [true, true, true, false] x ↔ ∃ e, x = [0, 0, 0, e] := by
  constructor
  · rintro ⟨hx, h⟩
    obtain ⟨a, b, c, e, rfl⟩ := truss_four hx
    have h0 := h 0 (by decide) (by decide)
    have h1 := h 1 (by decide) (by decide)
    have h2 := h 2 (by decide) (by decide)
    simp at h0 h1 h2
    exact ⟨e, by rw [h0, h1, h2]⟩
  · rintro ⟨e, rfl⟩
    refine ⟨rfl, fun i hi hf => ?_⟩
    have hi : i < 4 := hi
    rcases i with _ | _ | _ | _ | i
    · rfl
    · rfl
    · rfl
    · exact absurd rfl hf
    · omega

theorem arch_size (e : ℝ) : Spec.size [0, 0, 0, e] = |e| := by
  simp [Spec.size, Real.sqrt_mul_self_eq_abs]

theorem arch_distance (e e' : ℝ) : Spec.distance [0, 0, 0, e] [0, 0, 0, e'] = |e - e'| := by
  rw [truss_distance]
  simp only [sub_zero]
  exact arch_size _

theorem arch_arc (l e l' e' : ℝ) : Spec.arcDistance 1 l [0, 0, 0, e] l' [0, 0, 0, e'] = Real.sqrt ((e' - e) ^ 2 + (l' - l) ^ 2) := by
  unfold Spec.arcDistance
  rw [arch_distance, sq_abs, one_pow, one_mul]

theorem arch_arc_ge (l e l' e' : ℝ) : |e' - e| ≤ Spec.arcDistance 1 l [0, 0, 0, e] l' [0, 0, 0, e'] := by
  rw [arch_arc]
  exact Real.abs_le_sqrt (by nlinarith [sq_nonneg (l' - l)])

theorem arch_proportional : Spec.ProportionalLoads (arch o n).toAnalysis := by
  intro l x r r0 f hx hr hr0 hf i hi
  obtain ⟨a, b, c, e, rfl⟩ := truss_four hx
  obtain rfl := arch_free hi
  obtain ⟨r', g1, -, g2⟩ := arch_vector (o := o) (n := n) l a b c e
  obtain rfl := Option.some.inj (g1.symm.trans hr)
  obtain ⟨r', g3, -, g4⟩ := arch_vector (o := o) (n := n) 0 a b c e
  obtain rfl := Option.some.inj (g3.symm.trans hr0)
  obtain ⟨r', g5, -, g6⟩ := arch_force (o := o) (n := n) 1 0
  obtain rfl := Option.some.inj (g5.symm.trans hf)
  rw [g2, g4, g6]
  ring

/-! ### Regularity -/

theorem arch_regular {S : ℝ → List ℝ → Prop} (hS : ∀ l x, S l x → ∃ e, x = [0, 0, 0, e] ∧ -(1 / 2) ≤ e ∧ e ≤ 1 / 3) :
    Spec.ArcRegular (arch o n).toAnalysis 1 1 4 S := by
  refine ⟨fun l u hu => ?_, fun l u l' u' hu hu' K K' hK hK' v hv => ?_, fun l u hu K f hK hf => ?_⟩
  · obtain ⟨e, rfl, -, -⟩ := hS l u hu
    exact arch_contract l _ rfl
  · obtain ⟨e, rfl, e1, e2⟩ := hS l u hu
    obtain ⟨e', rfl, e3, e4⟩ := hS l' u' hu'
    obtain ⟨w, rfl⟩ := arch_still.1 hv
    show Spec.freeSize [true, true, true, false] _ ≤ _
    rw [arch_freeSize, arch_times l e K hK, arch_times l' e' K' hK', arch_distance, arch_size, ← sub_mul, abs_mul]
    refine mul_le_mul_of_nonneg_right ?_ (abs_nonneg w)
    have : 1 / 2 * (3 * (1 + e) ^ 2 - 1) - 1 / 2 * (3 * (1 + e') ^ 2 - 1) = 3 / 2 * (2 + e + e') * (e - e') := by ring
    rw [this, abs_mul]
    refine mul_le_mul_of_nonneg_right ?_ (abs_nonneg _)
    rw [abs_le]
    constructor <;> linarith
  · obtain ⟨e, rfl, -, -⟩ := hS l u hu
    obtain ⟨f', g1, -, g2⟩ := arch_force (o := o) (n := n) 1 0
    obtain rfl := Option.some.inj (g1.symm.trans hf)
    generalize hk : 1 / 2 * (3 * (1 + e) ^ 2 - 1) = k
    have hT : ∀ v, Spec.times K [0, 0, 0, v] 3 = k * v := fun v => by rw [arch_times l e K hK, hk]
    have hn : 0 < Real.sqrt (1 + k ^ 2) := Real.sqrt_pos.2 (by positivity)
    have hnn : Real.sqrt (1 + k ^ 2) ^ 2 = 1 + k ^ 2 := Real.sq_sqrt (by positivity)
    refine ⟨[0, 0, 0, 1 / Real.sqrt (1 + k ^ 2)], -k / Real.sqrt (1 + k ^ 2), arch_still.2 ⟨_, rfl⟩, ?_, fun i hi => ?_,
      fun w wl hw hi => ?_⟩
    · rw [arch_size, sq_abs]
      field_simp
      rw [hnn]
    · obtain rfl := arch_free hi
      rw [hT, g2]
      field_simp
      ring
    · obtain ⟨w, rfl⟩ := arch_still.1 hw
      show _ ≤ 1 * Spec.freeSize [true, true, true, false] _
      rw [arch_freeSize, hT, g2, arch_size, sq_abs]
      have hi : (∑ i ∈ Finset.range 4, ([0, 0, 0, 1 / Real.sqrt (1 + k ^ 2)] : List ℝ).getD i 0 * ([0, 0, 0, w] : List ℝ).getD i 0) +
        1 ^ 2 * (-k / Real.sqrt (1 + k ^ 2)) * wl = 0 := hi
      simp only [Finset.sum_range_succ, Finset.sum_range_zero, List.getD_cons_zero, List.getD_cons_succ] at hi
      have hw : w = k * wl := by
        field_simp at hi
        linarith
      rw [hw, one_mul]
      refine Real.sqrt_le_iff.2 ⟨abs_nonneg _, ?_⟩
      rw [sq_abs]
      nlinarith [sq_nonneg (k * wl), sq_nonneg (k ^ 2 * wl)]

theorem arch_chain {k : Nat} {l : ℝ} {x : List ℝ} (h : Spec.Chain (arch o n) 1 k l x) :
    ∃ e, x = [0, 0, 0, e] ∧ |e| ≤ k * (501 / 100000) ∧ |1 / 2 * (2 * e + e ^ 2) * (1 + e) + l| ≤ 1 / 100000 := by
  induction h with
  | start => exact ⟨0, rfl, by simp, by norm_num⟩
  | @next k l l' x x' r hc hs hr hf ha ih =>
    obtain ⟨e, rfl, h1, h2⟩ := ih
    obtain ⟨e', rfl⟩ := arch_still.1 hs
    obtain ⟨r', g1, -, g2⟩ := arch_force (o := o) (n := n) l' e'
    obtain rfl := Option.some.inj (g1.symm.trans hr)
    have hf : Spec.freeSize [true, true, true, false] (r'.getD · 0) ≤ 1 / 100000 := hf
    rw [arch_freeSize, g2] at hf
    have ha : |Spec.arcDistance 1 l [0, 0, 0, e] l' [0, 0, 0, e'] - 1 / 200| ≤ 1 / 100000 := ha
    refine ⟨e', rfl, ?_, hf⟩
    have h3 := arch_arc_ge l e l' e'
    have h4 := (abs_le.1 ha).2
    have h5 : |e'| ≤ |e' - e| + |e| := by
      have := abs_add_le (e' - e) e
      rwa [sub_add_cancel] at this
    push_cast
    linarith

theorem arch_exact (ho : o ≠ .raw) (l e : ℝ) (he : 3 * (1 + e) ^ 2 ≠ 1) (A : DMat ℝ)
    (hA : (arch o n).jacobian? ⟨l, some [0, 0, 0, e]⟩ = some A) : Spec.SolvesExactly Spec.inverseSolve A := by
  obtain ⟨-, -, K, -, hK, -⟩ := assembled_consistent _ _ (arch_contract (o := o) (n := n) l [0, 0, 0, e] rfl)
  refine inverseSolve_regular (arch o n).toAnalysis ho l _ K hK (fun c hc hf => ?_) A hA
  have c0 : c 0 = 0 := hc 0 (show 0 < 4 by decide) (show ¬ Spec.Free [true, true, true, false] 0 by decide)
  have c1 : c 1 = 0 := hc 1 (show 1 < 4 by decide) (show ¬ Spec.Free [true, true, true, false] 1 by decide)
  have c2 : c 2 = 0 := hc 2 (show 2 < 4 by decide) (show ¬ Spec.Free [true, true, true, false] 2 by decide)
  have h2 := hf 3 (show Spec.Free [true, true, true, false] 3 by decide)
  have h4 : Spec.times K [0, 0, 0, c 3] 3 = 0 := by
    refine Eq.trans (Finset.sum_congr rfl fun j hj => ?_) h2
    have hj : j < 4 := Finset.mem_range.1 hj
    rcases j with _ | _ | _ | _ | j
    · rw [c0]; rfl
    · rw [c1]; rfl
    · rw [c2]; rfl
    · rfl
    · omega
  rw [arch_times l e K hK] at h4
  have c3 : c 3 = 0 := (mul_eq_zero.1 h4).resolve_left fun h0 => he (by linarith)
  intro i hi
  have hi : i < 4 := hi
  rcases i with _ | _ | _ | _ | i
  · exact c0
  · exact c1
  · exact c2
  · exact c3
  · omega

/-- The hypotheses of `arc_follows` are met: fifty steps of arc length on the arch, pressed down, Full or Reduced. -/
theorem arch_followed (ho : o ≠ .raw) (hn : 0 < n) (hn50 : n ≤ 50) (psi0 : ℝ) (b : Bool) :
    ∃ r, (arch o n).run (.arcLength psi0 b) 0 [0, 0, 0, 0] = .ok r ∧ r.success = true ∧ r.shown.length = n + 1 ∧
      (∀ s ∈ r.shown, ∃ e, s.x = [0, 0, 0, e] ∧ s.iterations ≤ 3 ∧ |1 / 2 * (2 * e + e ^ 2) * (1 + e) + s.lam| ≤ 1 / 100000) ∧
      ∀ s, r.shown[1]? = some s → 1 / 800 ≤ s.lam := by
  obtain ⟨f, f1, f2, f3⟩ := arch_force (o := o) (n := n) 1 0
  have hrange : ∀ (k : Nat) l x, k < (arch o n).steps → Spec.Chain (arch o n) 1 k l x →
      ∃ e, x = [0, 0, 0, e] ∧ |e| ≤ 1 / 4 ∧ |1 / 2 * (2 * e + e ^ 2) * (1 + e) + l| ≤ 1 / 100000 := by
    intro k l x hk hc
    obtain ⟨e, rfl, h1, h2⟩ := arch_chain hc
    have hk : k < n := hk
    have : (k : ℝ) ≤ 49 := by exact_mod_cast (by omega : k ≤ 49)
    exact ⟨e, rfl, by linarith, h2⟩
  obtain ⟨r, h1, h2, h3, h4, -, h5, -⟩ := arc_follows (a := arch o n) (psi := 1) (beta := 1) (L := 4) (m := 3) (arch_proper ho) rfl
    arch_proportional f1 (arch_contract 1 _ rfl) one_pos (fun K u hK hu hk => by
      obtain ⟨e, rfl⟩ := arch_still.1 hu
      have := hk 3 (show Spec.Free [true, true, true, false] 3 by decide)
      rw [arch_times 1 0 K hK, f3] at this
      rw [arch_size, show e = -1 by linarith]
      norm_num) (fun A hA => arch_exact ho 1 0 (by norm_num) A hA) le_rfl (by norm_num) (by norm_num [arch]) (by norm_num [arch])
    (by norm_num [arch]) (by norm_num [arch]) hn (fun _ _ => rfl) (by norm_num [arch]) (by norm_num [arch])
    (fun k l x hk hc => by
      obtain ⟨e, rfl, h1, -⟩ := hrange k l x hk hc
      refine arch_regular fun l' x' hx' => ?_
      obtain ⟨e', rfl⟩ := arch_still.1 hx'.1
      have h3 := (arch_arc_ge l e l' e').trans hx'.2
      have h3 : |e' - e| ≤ 2 * (1 / 200) := h3
      have g1 := abs_le.1 h1
      have g3 := abs_le.1 h3
      exact ⟨e', rfl, by linarith, by linarith⟩) psi0 b
    (fun p st k l x _ hu _ _ => by
      obtain ⟨e, rfl, h1, h2⟩ := hrange k l x hu.steps hu.chain
      obtain ⟨e', he'⟩ := arch_still.1 hu.still
      have hdl := hu.lam
      have ha : 12 * 1 ^ 2 * |Spec.arcDistance 1 l [0, 0, 0, e] st.lam st.x - 1 / 200| ≤ 1 / 200 := hu.arc
      have hj := hu.jacobian
      obtain ⟨r, hr, hr2⟩ := hu.residual
      rw [he'] at ha hr hj
      obtain ⟨r', g1, -, g2⟩ := arch_force (o := o) (n := n) st.lam e'
      obtain rfl := Option.some.inj (g1.symm.trans hr)
      have hr2 : 12 * 1 ^ 2 * Spec.freeSize [true, true, true, false] (r'.getD · 0) ≤ 1 / 200 := hr2
      rw [arch_freeSize, g2] at hr2
      have h3 := arch_arc_ge l e st.lam e'
      have h4 : |Spec.arcDistance 1 l [0, 0, 0, e] st.lam [0, 0, 0, e'] - 1 / 200| ≤ 1 / 2400 := by linarith
      have h4 := abs_le.1 h4
      have g1 := abs_le.1 h1
      have g3 := abs_le.1 (h3.trans (by linarith [h4.2] : _ ≤ (13 / 2400 : ℝ)))
      have k1 : 18 / 25 ≤ 1 + e' := by linarith
      have k2 : 3 / 4 ≤ 1 + e := by linarith
      refine ⟨fun h0 => ?_, arch_exact ho st.lam e' (by nlinarith) _ hj⟩
      rw [h0, add_zero] at hdl
      rw [hdl, arch_arc, sub_self, zero_pow two_ne_zero, add_zero, Real.sqrt_sq_eq_abs] at h4
      rw [hdl] at hr2
      have hq : (1 / 2 * (2 * e' + e' ^ 2) * (1 + e') + l) - (1 / 2 * (2 * e + e ^ 2) * (1 + e) + l) =
        (e' - e) * (1 / 2 * ((1 + e) ^ 2 + (1 + e) * (1 + e') + (1 + e') ^ 2 - 1)) := by ring
      have h6 : |(e' - e) * (1 / 2 * ((1 + e) ^ 2 + (1 + e) * (1 + e') + (1 + e') ^ 2 - 1))| ≤ 1 / 2400 + 1 / 100000 := by
        rw [← hq]
        refine (abs_sub _ _).trans ?_
        linarith
      rw [abs_mul] at h6
      have h7 : 1 / 5 ≤ 1 / 2 * ((1 + e) ^ 2 + (1 + e) * (1 + e') + (1 + e') ^ 2 - 1) := by nlinarith
      rw [abs_of_nonneg (by linarith : 0 ≤ 1 / 2 * ((1 + e) ^ 2 + (1 + e) * (1 + e') + (1 + e') ^ 2 - 1))] at h6
      nlinarith [abs_nonneg (e' - e), h4.1])
  refine ⟨r, h1, h2, h3, fun s hs => ?_, fun s hs => ?_⟩
  · obtain ⟨k1, k2, R, k3, k4⟩ := h4 s hs
    obtain ⟨e, he⟩ := arch_still.1 k1
    rw [he] at k3
    obtain ⟨r', g1, -, g2⟩ := arch_force (o := o) (n := n) s.lam e
    obtain rfl := Option.some.inj (g1.symm.trans k3)
    have k4 : Spec.freeSize [true, true, true, false] (r'.getD · 0) ≤ 1 / 100000 := k4
    rw [arch_freeSize, g2] at k4
    exact ⟨e, he, k2, k4⟩
  · have := h5 s hs
    norm_num [arch] at this
    linarith

/-! ### The limit point -/

theorem iteration_iter {a : PathAnalysis} {p : PathStrategy} {s s' : State} (h : a.iteration p s = .ok s') : s'.iter = s.iter + 1 := by
  unfold iteration at h
  obtain ⟨_, -, h⟩ := bind_ok.1 h
  obtain ⟨_, -, h⟩ := bind_ok.1 h
  obtain ⟨_, -, h⟩ := bind_ok.1 h
  obtain ⟨_, -, h⟩ := bind_ok.1 h
  obtain ⟨_, -, h⟩ := bind_ok.1 h
  obtain ⟨_, -, h⟩ := bind_ok.1 h
  obtain ⟨_, -, h⟩ := bind_ok.1 h
  obtain ⟨_, -, h⟩ := bind_ok.1 h
  obtain ⟨_, -, h⟩ := bind_ok.1 h
  obtain ⟨_, -, h⟩ := bind_ok.1 h
  obtain ⟨_, -, rfl⟩ := map_ok.1 h
  rfl

theorem reaches_start {a : PathAnalysis} {p : PathStrategy} {st0 st : State} (h : Spec.Reaches a p st0 st) : st = st0 ∨ st0.iter < st.iter := by
  induction h with
  | start => exact .inl rfl
  | iterate _ _ hit ih =>
    rw [iteration_iter hit]
    rcases ih with rfl | ih
    · exact .inr (Nat.lt_succ_self _)
    · exact .inr (by omega)

theorem arch_increment (e : ℝ) : IsIncrement (arch .full n).toAnalysis [0, 0, 0, e] [0, 0, 0, e] :=
  ⟨rfl, (arch_still.2 ⟨e, rfl⟩).2, rfl⟩

/-- The hypotheses of `arc_step` are met where the path has its limit point, with one iteration: before the step the stiffness of
the arch is positive, after it negative. -/
theorem arch_crosses : ∃ t e, (arch .full n).solve (.arcLength 1 true) (19247 / 100000) [0, 0, 0, -424 / 1000]
      { PathArgs.setZero 4 with stepSize := 1 / 200, DD := [0, 0, 0, -5 / 1000], Dlambda := 3 / 100000 } = .ok t ∧
    t.success = true ∧ t.x = [0, 0, 0, e] ∧ t.iterations ≤ 1 ∧ |1 / 2 * (2 * e + e ^ 2) * (1 + e) + t.lam| ≤ 1 / 100000 ∧
    1 / 2 * (3 * (1 + e) ^ 2 - 1) < 0 ∧ 0 < 1 / 2 * (3 * (1 + (-419 / 1000 : ℝ)) ^ 2 - 1) := by
  obtain ⟨f, f1, f2, f3⟩ := arch_force (o := .full) (n := n) 1 0
  obtain ⟨rp, p1, p2, p3⟩ := arch_force (o := .full) (n := n) (19244 / 100000) (-419 / 1000)
  obtain ⟨r, r1, r2, r3⟩ := arch_force (o := .full) (n := n) (19247 / 100000) (-424 / 1000)
  have hz : |Spec.arcDistance 1 (19244 / 100000) [0, 0, 0, -419 / 1000] (19247 / 100000) [0, 0, 0, -424 / 1000] - 1 / 200| ≤
      1 / 1000000 := by
    rw [arch_arc, abs_le]
    constructor
    · have : (4999 / 1000000 : ℝ) ≤ Real.sqrt ((-424 / 1000 - -419 / 1000) ^ 2 + (19247 / 100000 - 19244 / 100000) ^ 2) :=
        Real.le_sqrt_of_sq_le (by norm_num)
      linarith
    · have : Real.sqrt ((-424 / 1000 - -419 / 1000 : ℝ) ^ 2 + (19247 / 100000 - 19244 / 100000) ^ 2) ≤ 5001 / 1000000 :=
        Real.sqrt_le_iff.2 ⟨by norm_num, by norm_num⟩
      linarith
  have hr : Spec.freeSize [true, true, true, false] (r.getD · 0) ≤ 22 / 1000000 := by
    rw [arch_freeSize, r3]
    norm_num [abs_le]
  have hr0 : 0 ≤ Spec.freeSize [true, true, true, false] (r.getD · 0) := by rw [arch_freeSize]; exact abs_nonneg _
  have hpred : Spec.freeSize [true, true, true, false] (r.getD · 0) +
      |Spec.arcDistance 1 (19244 / 100000) [0, 0, 0, -419 / 1000] (19247 / 100000) [0, 0, 0, -424 / 1000] - 1 / 200| ≤
      23 / 1000000 := by linarith
  obtain ⟨t, R, t1, t2, t3, t4, t5, t6, -, t8⟩ := arc_step (a := arch .full n) (psi := 1) (beta := 1) (L := 4) (s := 1 / 200)
    (theta := 1 / 30) (m := 1)
    (lp := 19244 / 100000) (lam := 19247 / 100000) (xp := [0, 0, 0, -419 / 1000]) (x := [0, 0, 0, -424 / 1000]) (rp := rp) (r := r)
    (D := [0, 0, 0, -5 / 1000])
    (args := { PathArgs.setZero 4 with stepSize := 1 / 200, DD := [0, 0, 0, -5 / 1000], Dlambda := 3 / 100000 })
    (arch_proper (by simp)).proper rfl arch_proportional f1 one_ne_zero le_rfl (by norm_num) (by norm_num) (by norm_num [arch])
    (by norm_num) (by norm_num [arch]) (arch_still.2 ⟨_, rfl⟩) p1 (by
      show Spec.freeSize [true, true, true, false] (rp.getD · 0) ≤ 1 / 100000
      rw [arch_freeSize, p3]
      norm_num [abs_le]) (arch_regular fun l' x' hx' => by
        obtain ⟨e', rfl⟩ := arch_still.1 hx'.1
        have h3 := abs_le.1 ((arch_arc_ge _ _ l' e').trans hx'.2)
        exact ⟨e', rfl, by linarith, by linarith⟩) (arch_still.2 ⟨_, rfl⟩) rfl (by norm_num) (arch_increment _) (fun i hi => by
        have hi : i < 4 := hi
        rcases i with _ | _ | _ | _ | i
        · norm_num
        · norm_num
        · norm_num
        · norm_num
        · omega) r1 (by norm_num) (by
        refine (mul_le_mul_of_nonneg_left hpred (by norm_num)).trans ?_
        norm_num) (by norm_num [arch]) (by norm_num [arch]) (fun st0 st h0 hreach hlt hgt => by
        obtain ⟨b1, b2, b3, b4, -, -, -, b10, -⟩ := start_ok (arch_proper (by simp)).proper (by rfl) h0
        rcases reaches_start hreach with rfl | hh
        · refine ⟨by rw [b10]; norm_num, ?_⟩
          have hj := b1.jacobian
          rw [b2, b3] at hj
          exact arch_exact (by simp) _ _ (by norm_num) _ hj
        · omega)
  obtain ⟨e, he⟩ := arch_still.1 t4
  have t6 : Spec.freeSize [true, true, true, false] (R.getD · 0) ≤ 1 / 100000 := t6
  rw [he] at t5 t8
  obtain ⟨r', g1, -, g2⟩ := arch_force (o := .full) (n := n) t.lam e
  obtain rfl := Option.some.inj (g1.symm.trans t5)
  rw [arch_freeSize, g2] at t6
  have h9 := abs_le.1 ((arch_arc_ge _ _ t.lam e).trans (t8.trans (mul_le_mul_of_nonneg_left hpred (by norm_num))))
  refine ⟨t, e, t1, t2, he, t3, t6, ?_, by norm_num⟩
  have e1 : 1 + e ≤ 577 / 1000 := by linarith [h9.2]
  have e2 : 0 ≤ 1 + e := by linarith [h9.1]
  nlinarith

/-- C105, the exception. Steps do not always succeed, however regular the path: if two states in equilibrium on either side of a limit
point have the same load factor, the next solve ends with a value that is not finite. -/
theorem arc_step_not_succeeds : ¬ Spec.ArcStepSucceeds := by
  intro h
  obtain ⟨f, f1, f2, f3⟩ := arch_force (o := .full) (n := 1) 1 0
  obtain ⟨rq, q1, q2, q3⟩ := arch_force (o := .full) (n := 1) (19244 / 100000) (-4201 / 10000)
  obtain ⟨rp, p1, p2, p3⟩ := arch_force (o := .full) (n := 1) (19244 / 100000) (-4251 / 10000)
  obtain ⟨r, r1, r2, r3⟩ := arch_force (o := .full) (n := 1) (19244 / 100000) (-4301 / 10000)
  obtain ⟨t, t1, -⟩ := h (arch .full 1) (fun _ => 0) 1 4 (1 / 200) (19244 / 100000) (19244 / 100000) [0, 0, 0, -4201 / 10000]
    [0, 0, 0, -4251 / 10000] rq rp [0, 0, 0, -5 / 1000] [0, 0, 0, -4301 / 10000] f
    { PathArgs.setZero 4 with stepSize := 1 / 200, DD := [0, 0, 0, -5 / 1000], Dlambda := 0 }
    (arch_proper (by simp)).proper rfl arch_proportional f1 le_rfl (by norm_num) (by norm_num) (by norm_num [arch]) (by norm_num)
    (by norm_num [arch]) (by
      show (1 / 200 : ℝ) ≤ 6 * 1 ^ 2 * (1 / 100000) * 2 ^ 2 ^ 19
      have h3 : (2 : ℝ) ^ 2 ^ 3 ≤ 2 ^ 2 ^ 19 := pow_le_pow_right₀ (by norm_num) (Nat.pow_le_pow_right (by norm_num) (by norm_num))
      have h4 : (2 : ℝ) ^ 2 ^ 3 = 256 := by norm_num
      rw [h4] at h3
      generalize (2 : ℝ) ^ 2 ^ 19 = X at h3 ⊢
      linarith) rfl (arch_still.2 ⟨_, rfl⟩) (arch_still.2 ⟨_, rfl⟩) q1 (by
      show Spec.freeSize [true, true, true, false] (rq.getD · 0) ≤ 1 / 100000
      rw [arch_freeSize, q3]
      norm_num [abs_le]) p1 (by
      show Spec.freeSize [true, true, true, false] (rp.getD · 0) ≤ 1 / 100000
      rw [arch_freeSize, p3]
      norm_num [abs_le]) (by
      rw [arch_arc, sub_self, zero_pow two_ne_zero, add_zero, Real.sqrt_sq_eq_abs]
      norm_num [arch]) (arch_regular fun l' x' hx' => by
        obtain ⟨e', rfl⟩ := arch_still.1 hx'.1
        have h3 := abs_le.1 ((arch_arc_ge _ _ l' e').trans hx'.2)
        exact ⟨e', rfl, by linarith, by linarith⟩) rfl (by norm_num) (arch_increment _) (fun i hi => by
        have hi : i < 4 := hi
        rcases i with _ | _ | _ | _ | i
        · norm_num
        · norm_num
        · norm_num
        · norm_num
        · omega) (by norm_num) (fun A hA => arch_exact (by simp) _ _ (by norm_num) A hA)
  rw [arc_horizontal (arch_proper (by simp)).proper rfl (by norm_num [arch]) rfl (arch_increment _) (by rw [add_zero]; exact r1) (by
      show 1 / 100000 < Spec.freeSize [true, true, true, false] (r.getD · 0)
      rw [arch_freeSize, r3]
      norm_num [lt_abs]) rfl] at t1
  cases t1

end Ikarus
