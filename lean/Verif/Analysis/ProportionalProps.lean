import Verif.Analysis.SuperpositionRunProps
import Verif.Analysis.UnitsPathProps

/-!
C118: the displacements of a linear structure are proportional to the load factor if the loads are.
-/

namespace Ikarus

open Matrix Element Element.Spec

/-! ### Specification -/

/-- If load factor and displacements are multiplied by the same number, the energy is multiplied by its square. -/
def Spec.HomogeneousSkill {n d : Nat} (s : ℝ → Skill n d) : Prop :=
  ∀ (l t : ℝ) (u : NodeVec n d), (s (t * l)).scalar (t • u) = ((s l).scalar u).map (t ^ 2 * ·)

/-- A load that is proportional to the load factor. -/
def Spec.ProportionalLoad {d : Nat} (f : LoadFunction d) : Prop := ∀ x (t l : ℝ), f x (t * l) = t • f x l

/-! ### The skills of the code -/

section
variable {n d : Nat}

/-- C118, elements. The stiffness of linear elements is homogeneous. -/
theorem stiff_homogeneous {s : ℝ → Skill n d} (h : Spec.StiffSkill s) : Spec.HomogeneousSkill s := by
  obtain ⟨K, -, -, hK⟩ := h
  intro l t u
  rw [(hK _ _).1, (hK _ _).1, Option.map_some]
  congr 1
  have : work (mul K (t • u)) (t • u) = t ^ 2 * work (mul K u) u := by
    unfold work mul
    simp only [Finset.mul_sum, Finset.sum_mul, Pi.smul_apply, smul_eq_mul]
    exact Finset.sum_congr rfl fun _ _ => Finset.sum_congr rfl fun _ _ => Finset.sum_congr rfl fun _ _ =>
      Finset.sum_congr rfl fun _ _ => by ring
  rw [this]
  ring

theorem displacement_smul (p : LoadPoint n d) (t : ℝ) (u : NodeVec n d) : p.displacement (t • u) = t • p.displacement u := by
  unfold LoadPoint.displacement
  rw [Finset.smul_sum]
  exact Finset.sum_congr rfl fun I _ => by rw [Pi.smul_apply, smul_comm]

/-- C118, elements. Volume loads proportional to the load factor are homogeneous. -/
theorem volumeLoad_homogeneous {f : LoadFunction d} (hf : Spec.ProportionalLoad f) (gps : List (LoadPoint n d)) :
    Spec.HomogeneousSkill fun l => Skill.volumeLoad (some f) gps l := by
  intro l t u
  show some (VolumeLoad.calculateScalar (some f) gps (t * l) (t • u)) = some (t ^ 2 * VolumeLoad.calculateScalar (some f) gps l u)
  congr 1
  rw [VolumeLoad.calculateScalar_sum, VolumeLoad.calculateScalar_sum, ← List.sum_map_mul_left]
  congr 1
  refine List.map_congr_left fun p _ => ?_
  rw [hf, displacement_smul]
  simp only [dotProduct_smul, smul_dotProduct, smul_eq_mul]
  ring

/-- C118, elements. Tractions proportional to the load factor are homogeneous. -/
theorem traction_homogeneous {f : LoadFunction d} (hf : Spec.ProportionalLoad f) (is : List (Traction.Intersection n d)) :
    Spec.HomogeneousSkill fun l => Skill.traction (some is) (some f) l := by
  intro l t u
  refine (Traction.calculateScalar_sum is f (t * l) (t • u)).trans ?_
  refine Eq.trans ?_ (congrArg (Option.map (t ^ 2 * ·)) (Traction.calculateScalar_sum is f l u).symm)
  rw [Option.map_some, ← List.sum_map_mul_left]
  congr 2
  refine List.map_congr_left fun p _ => ?_
  rw [hf, displacement_smul]
  simp only [dotProduct_smul, smul_dotProduct, smul_eq_mul]
  ring

/-! ### Assembled quantities -/

theorem homogeneous_scalar (ss : List (ℝ → Skill n d)) (h : ∀ s ∈ ss, Spec.HomogeneousSkill s) (l t : ℝ) (u : NodeVec n d) :
    Mixin.calculateScalar (t • u) (ss.map (· (t * l))) = (Mixin.calculateScalar u (ss.map (· l))).map (t ^ 2 * ·) := by
  induction ss with
  | nil =>
    show some 0 = some (t ^ 2 * 0)
    rw [mul_zero]
  | cons s ss ih =>
    have ih := ih fun s hs => h s (List.mem_cons_of_mem _ hs)
    show ((s (t * l)).scalar (t • u)).bind (fun x => (Mixin.calculateScalar (t • u) (ss.map (· (t * l)))).map (x + ·)) =
      (((s l).scalar u).bind fun x => (Mixin.calculateScalar u (ss.map (· l))).map (x + ·)).map _
    rw [h s List.mem_cons_self l t u, ih]
    cases (s l).scalar u with
    | none => rfl
    | some x =>
      cases Mixin.calculateScalar u (ss.map (· l)) with
      | none => rfl
      | some y => exact congrArg some (mul_add _ x y).symm

end

theorem system_homogeneous (flags : List Bool) (es : List ParamElem) (h : ∀ e ∈ es, ∀ s ∈ e.skills, Spec.HomogeneousSkill s) (l t : ℝ)
    (x : List ℝ) : (System.mk flags (es.map (·.at (t * l)))).scalar? (Spec.scaledList t x) =
      ((System.mk flags (es.map (·.at l))).scalar? x).map (t ^ 2 * ·) := by
  have key : mapOpt (fun e : ParamElem => (e.at (t * l)).scalar? (Spec.scaledList t x)) es =
      (mapOpt (fun e : ParamElem => (e.at l).scalar? x) es).map (List.map (t ^ 2 * ·)) := by
    refine mapOpt_scale _ _ _ _ fun e he => ?_
    show ((e.at l).local? _).bind _ = (((e.at l).local? x).bind _).map _
    rw [local_scale]
    cases (e.at l).local? x with
    | none => rfl
    | some u => exact homogeneous_scalar e.skills (h e he) l t u
  have q := fun l x => mapOpt_map_at (fun e : ParamElem => e) l x es
  simp only [List.map_id'] at q
  rw [← q, ← q] at key
  show (mapOpt _ _).map _ = ((mapOpt _ _).map _).map _
  rw [key, Option.map_map, Option.map_map]
  congr 1
  funext fes
  show Assembler.getScalarLoop (fes.map _) 0 = t ^ 2 * Assembler.getScalarLoop fes 0
  rw [← Assembler.getScalarLoop_scale, mul_zero]

/-- The loads are proportional to the load factor. -/
theorem homogeneous_loads {sys : ℝ → System} {m : Nat} {K : DMat ℝ} {e : ℝ → ℝ} {g : ℝ → Nat → ℝ} (hA : AffineSystem sys m K e g)
    (h : ∀ l t x, (sys (t * l)).scalar? (Spec.scaledList t x) = ((sys l).scalar? x).map (t ^ 2 * ·)) (l : ℝ) {i : Nat} (hi : i < m) :
    g l i = l * g 1 i := by
  have key : ∀ l t : ℝ, t ≠ 0 → g (t * l) i = t * g l i := by
    intro l t ht
    have q : ∀ x : List ℝ, x.length = m → e (t * l) + t * ∑ k ∈ Finset.range m, g (t * l) k * x.getD k 0 =
        t ^ 2 * (e l + ∑ k ∈ Finset.range m, g l k * x.getD k 0) := by
      intro x hx
      have := h l t x
      rw [hA.scalar l x hx, hA.scalar _ _ ((scaledList_length t x).trans hx), Option.map_some, bil_scaled] at this
      have := Option.some.inj this
      have e1 : ∑ k ∈ Finset.range m, g (t * l) k * (Spec.scaledList t x).getD k 0 = t * ∑ k ∈ Finset.range m, g (t * l) k * x.getD k 0 := by
        rw [Finset.mul_sum]
        exact Finset.sum_congr rfl fun k _ => by rw [scaledList_getD]; ring
      rw [e1] at this
      linarith
    have q0 := q (listOf m fun _ => 0) (listOf_length _ _)
    have q1 := q (listOf m fun k => if k = i then (1 : ℝ) else 0) (listOf_length _ _)
    rw [sum_unit _ hi, sum_unit _ hi] at q1
    have z : ∀ g : Nat → ℝ, ∑ k ∈ Finset.range m, g k * (listOf m fun _ => (0 : ℝ)).getD k 0 = 0 := fun g =>
      Finset.sum_eq_zero fun k hk => by rw [listOf_getD m _ (Finset.mem_range.1 hk), mul_zero]
    rw [z, z] at q0
    have : t * g (t * l) i = t * (t * g l i) := by linarith
    exact mul_left_cancel₀ ht this
  by_cases hl : l = 0
  · have := key 0 2 two_ne_zero
    rw [mul_zero] at this
    rw [hl]
    linarith
  · have := key 1 l hl
    rwa [mul_one] at this

/-! ### Properties -/

section
variable {a : Analysis} {û : Nat → ℝ}

/-- C118, proportionality. If the loads are proportional to the load factor, a state in equilibrium at load factor 1 multiplied by the
load factor is in equilibrium at that load factor. -/
theorem equilibrium_proportional (flags : List Bool) {es : List ParamElem} (he : Spec.LinearElems flags.length es)
    (h : ∀ e ∈ es, ∀ s ∈ e.skills, Spec.HomogeneousSkill s) {u : List ℝ}
    (hu : Spec.InEquilibrium flags (System.mk flags (es.map (·.at 1))).scalar? û 1 0 u) (l : ℝ) :
    Spec.InEquilibrium flags (System.mk flags (es.map (·.at l))).scalar? û l 0 (Spec.scaledList l u) := by
  obtain ⟨K, e, g, hA⟩ := linear_system flags es he
  have hg := fun l i (hi : i < flags.length) => homogeneous_loads hA (fun l t x => system_homogeneous flags es h l t x) l hi
  refine equilibrium_of_residual hA û l l 0 ((scaledList_length _ _).trans hu.1) (fun i hi hf => ?_) ?_
  · have h1 := hu.2.1 i ((not_free_iff hi).1 hf)
    rw [scaledList_getD, List.getD_eq_getElem?_getD, h1]
    show l * (1 * û i) = _
    ring
  · rw [Analysis.freeSq_zero fun i hi => ?_, Real.sqrt_zero]
    have r := free_residual (sys := fun l => ⟨flags, es.map (·.at l)⟩) hA hu hi
    unfold Analysis.resAt at r ⊢
    rw [hg l i (free_lt hi)]
    have : ∑ j ∈ Finset.range flags.length, K.val i j * (Spec.scaledList l u).getD j 0 =
        l * ∑ j ∈ Finset.range flags.length, K.val i j * u.getD j 0 := by
      rw [Finset.mul_sum]
      exact Finset.sum_congr rfl fun j _ => by rw [scaledList_getD]; ring
    rw [this, ← mul_add, r, mul_zero]

/-- C118, proportionality. Load control of a linear structure with enough supports whose loads are proportional to the load factor: there is
one vector of displacements, and at every load step the displacements are this vector multiplied by the load factor, whatever the number of
steps, their range and the displacements the run starts with. -/
theorem linear_load_control_proportional (ha : Spec.ProperLinear a û) (hel : ∀ e ∈ a.elems, ∀ s ∈ e.skills, Spec.HomogeneousSkill s)
    (hset : Spec.Settings a.settings 1) (hmin : 1 ≤ a.settings.minIter) (hsup : Spec.Supported a.dv.flags (a.system 0).scalar?) :
    ∃ w : List ℝ, Spec.InEquilibrium a.dv.flags (a.system 1).scalar? û 1 0 w ∧
      ∀ (n : Nat) (tbegin tend l0 : ℝ) (x : List ℝ), 0 < n → x.length = a.dv.flags.length →
        (∀ i : Nat, a.dv.flags[i]? = some true → x[i]? = some (l0 * û i)) →
        (∀ k : Nat, 0 < k → k ≤ n → l0 + k * ((tend - tbegin) / n) = 0 → ∀ i < a.dv.flags.length, û i = 0) →
        ∃ r : LCState ℝ (Option (List ℝ)) ℝ (Option (List ℝ)), a.loadControl? n tbegin tend ⟨l0, some x⟩ = some r ∧
          r.info.success = true ∧ Spec.shown r = (List.range (n + 1)).map fun k : Nat =>
            ⟨l0 + k * ((tend - tbegin) / n), some (Spec.scaledList (l0 + k * ((tend - tbegin) / n)) w)⟩ := by
  obtain ⟨K, e, g, hA⟩ := linear_system a.dv.flags a.elems ha.elems
  have hs : ∀ l, Spec.Supported a.dv.flags (a.system l).scalar? := fun l => (supported_iff_bil hA l).2 ((supported_iff_bil hA 0).1 hsup)
  obtain ⟨-, us, -, -, -, -, q⟩ := linear_run_exact ha hset hmin 1 one_pos 0 1 0 (x0 := List.replicate a.dv.flags.length 0)
    List.length_replicate
    (fun i hi => by
      have hi : i < a.dv.flags.length := (List.getElem?_eq_some_iff.1 hi).1
      rw [List.getElem?_replicate, if_pos hi, zero_mul])
    (fun k h1 h2 h3 => by
      obtain rfl : k = 1 := by omega
      norm_num at h3)
  have w := q 1 le_rfl
  norm_num at w
  refine ⟨us 1, w, fun n tbegin tend l0 x hn hx hxs hz => ?_⟩
  obtain ⟨r, vs, h1, h2, -, h3, h4⟩ := linear_run_exact ha hset hmin n hn tbegin tend l0 hx hxs hz
  refine ⟨r, h1, h2, h3.trans (List.map_congr_left fun k hk => ?_)⟩
  have hk : k ≤ n := by have := List.mem_range.1 hk; omega
  rw [equilibrium_unique _ _ _ _ (hs _) _ _ (h4 k hk) (equilibrium_proportional a.dv.flags ha.elems hel w _)]

end

/-! ### Example -/

theorem exampleWeight_proportional : Spec.ProportionalLoad exampleWeight := fun x t l => by
  funext i
  fin_cases i <;> simp [exampleWeight]

theorem exampleCases_homogeneous : ∀ e ∈ exampleCases.map (·.one), ∀ s ∈ e.skills, Spec.HomogeneousSkill s := by
  intro e he s hs
  obtain ⟨c, hc, rfl⟩ := List.mem_map.1 he
  obtain ⟨q, hq, rfl⟩ := List.mem_map.1 hc
  rcases List.mem_append.1 hs with hs | hs
  · exact stiff_homogeneous (exampleCase_stiff exampleMeshC_posDef hq s hs)
  · obtain rfl := List.mem_singleton.1 hs
    exact volumeLoad_homogeneous exampleWeight_proportional _

/-- The mesh under its weight with moved supports. -/
example := linear_load_control_proportional (a := exampleCaseRun .full [1] (exampleCases.map Spec.LoadCases.one)) (û := exampleMeshSupport)
  (exampleCaseRun_proper .full (by decide) [1] _ (cases_linear exampleCases_proper).2.1
    (fun l => (supported_cases exampleCases_proper l).1.2 exampleCases_supported) fun i => by simp)
  exampleCases_homogeneous
  ⟨by norm_num [exampleCaseRun, exampleMeshAnalysis], by norm_num [exampleCaseRun, exampleMeshAnalysis], by norm_num [exampleCaseRun, exampleMeshAnalysis]⟩
  le_rfl ((supported_cases exampleCases_proper 0).1.2 exampleCases_supported)

/-- A traction on one side. -/
example := traction_homogeneous exampleWeight_proportional (n := 2) [⟨true, [⟨![0, 1], 2, 1 / 2, ![1 / 2, 1 / 2]⟩]⟩, ⟨false, []⟩]

/-- A load that does not depend on the load factor is not proportional to it, and its energy is not homogeneous. -/
example : ¬ Spec.HomogeneousSkill (n := 1) (d := 1) fun l => Skill.volumeLoad (some fun _ _ => ![1]) [⟨![0], 1, 1, ![1]⟩] l := by
  intro h
  have h : some (VolumeLoad.calculateScalar _ _ _ _) = (some (VolumeLoad.calculateScalar _ _ _ _)).map _ := h 1 2 fun _ _ => 1
  rw [Option.map_some, VolumeLoad.calculateScalar_sum, VolumeLoad.calculateScalar_sum] at h
  have := Option.some.inj h
  norm_num [LoadPoint.displacement] at this

end Ikarus
