import Verif.FE.ElementProps

/-!
The loads: the vector is the gradient of the potential, and the missing cases of the traction.
-/

namespace Ikarus.Element

open Matrix Spec

variable {n d : Nat}

/-! ### Volume load -/

theorem list_sum_neg {α : Type*} (l : List α) (g : α → ℝ) : -(l.map g).sum = (l.map fun x => -g x).sum := by
  induction l with
  | nil => simp
  | cons x l ih => simp only [List.map_cons, List.sum_cons, ← ih]; ring

namespace VolumeLoad

noncomputable def pointForce (f : LoadFunction d) (lambda : ℝ) (gp : LoadPoint n d) : NodeVec n d :=
  fun i => -((gp.detJ * gp.weight) • ((gp.N i • (1 : Matrix (Fin d) (Fin d) ℝ)) *ᵥ f gp.x lambda))

theorem pointForce_apply (f : LoadFunction d) (lambda : ℝ) (gp : LoadPoint n d) (i : Fin n) (a : Fin d) :
    pointForce f lambda gp i a = -(gp.detJ * gp.weight * (gp.N i * f gp.x lambda a)) := by
  simp [pointForce, Matrix.smul_mulVec]

theorem calculateVector_sum (f : LoadFunction d) (gps : List (LoadPoint n d)) (lambda : ℝ) (force : NodeVec n d) :
    calculateVector (some f) gps lambda force = force + (gps.map (pointForce f lambda)).sum := by
  unfold calculateVector
  rw [← foldl_add_sum]
  exact foldl_congr' (fun F gp => foldl_addSegment (pointForce f lambda gp) F) _ _

theorem calculateScalar_sum (f : LoadFunction d) (gps : List (LoadPoint n d)) (lambda : ℝ) (u : NodeVec n d) :
    calculateScalar (some f) gps lambda u =
      (gps.map fun gp => -((gp.displacement u ⬝ᵥ f gp.x lambda) * gp.detJ * gp.weight)).sum := by
  unfold calculateScalar
  rw [← zero_add ((gps.map _).sum), ← foldl_add_sum]
  exact foldl_congr' (fun e gp => sub_eq_add_neg _ _) _ _

theorem work_pointForce (f : LoadFunction d) (lambda : ℝ) (gp : LoadPoint n d) (v : NodeVec n d) :
    work (pointForce f lambda gp) v = -((gp.displacement v ⬝ᵥ f gp.x lambda) * gp.detJ * gp.weight) := by
  simp only [work, pointForce_apply, LoadPoint.displacement, dotProduct, Finset.sum_apply, Pi.smul_apply, smul_eq_mul,
    Finset.sum_mul]
  rw [Finset.sum_comm, ← Finset.sum_neg_distrib]
  refine Finset.sum_congr rfl fun a _ => ?_
  rw [← Finset.sum_neg_distrib]
  refine Finset.sum_congr rfl fun I _ => ?_
  ring

end VolumeLoad

theorem displacement_line (gp : LoadPoint n d) (u v : NodeVec n d) (t : ℝ) :
    gp.displacement (u + t • v) = gp.displacement u + t • gp.displacement v := by
  simp only [LoadPoint.displacement, Pi.add_apply, Pi.smul_apply, smul_add, Finset.sum_add_distrib, Finset.smul_sum]
  congr 1
  exact Finset.sum_congr rfl fun I _ => smul_comm _ _ _

/-- The zero matrix is the derivative of forces that do not depend on the displacement. -/
theorem tangent_const (f : NodeVec n d) (u : NodeVec n d) : TangentAt (fun _ => f) 0 u := by
  intro v
  have : mul (0 : BlockMat n d) v = 0 := by funext I a; simp [mul]
  rw [this]
  exact hasDerivAt_const _ _

/-- C69. The forces of the volume load are the gradient of its potential, the matrix left unchanged is the derivative of
the forces, and without a load function nothing is added. -/
theorem volumeLoad_consistent (f : LoadFunction d) (gps : List (LoadPoint n d)) (lambda : ℝ) (u : NodeVec n d)
    (force : NodeVec n d) (K : BlockMat n d) :
    GradientAt (VolumeLoad.calculateScalar (some f) gps lambda) (VolumeLoad.calculateVector (some f) gps lambda 0) u ∧
    TangentAt (fun _ => VolumeLoad.calculateVector (some f) gps lambda 0) (VolumeLoad.calculateMatrix 0) u ∧
    VolumeLoad.calculateVector (some f) gps lambda force = force + VolumeLoad.calculateVector (some f) gps lambda 0 ∧
    VolumeLoad.calculateMatrix K = K ∧
    VolumeLoad.calculateScalar none gps lambda u = 0 ∧ VolumeLoad.calculateVector none gps lambda force = force := by
  refine ⟨fun v => ?_, tangent_const _ u, ?_, rfl, rfl, rfl⟩
  · simp only [VolumeLoad.calculateScalar_sum]
    rw [VolumeLoad.calculateVector_sum, zero_add, work_list_sum]
    refine hasDerivAt_list_sum _ _ _ _ fun gp _ => ?_
    refine hasDerivAt_quadratic (a := -((gp.displacement u ⬝ᵥ f gp.x lambda) * gp.detJ * gp.weight)) (c := 0) fun t => ?_
    rw [VolumeLoad.work_pointForce, displacement_line, add_dotProduct, smul_dotProduct, smul_eq_mul]
    ring
  · rw [VolumeLoad.calculateVector_sum, VolumeLoad.calculateVector_sum f gps lambda 0, zero_add]

/-- C69, resultant. With shape functions that sum to one, the forces of the volume load sum to the negative integral of
the load. -/
theorem volumeLoad_resultant (f : LoadFunction d) (gps : List (LoadPoint n d)) (lambda : ℝ)
    (hN : ∀ gp ∈ gps, ∑ I, gp.N I = 1) (a : Fin d) :
    ∑ I, VolumeLoad.calculateVector (some f) gps lambda 0 I a =
      -(gps.map fun gp => f gp.x lambda a * (gp.detJ * gp.weight)).sum := by
  rw [VolumeLoad.calculateVector_sum, zero_add]
  simp only [list_sum_apply]
  rw [list_sum_finset, list_sum_neg]
  congr 1
  refine List.map_congr_left fun gp hgp => ?_
  simp only [VolumeLoad.pointForce_apply, Finset.sum_neg_distrib, ← Finset.mul_sum, ← Finset.sum_mul,
    hN gp hgp]
  ring

/-! ### Traction -/

/-- The loaded points: those of the intersections in the patch. -/
def Spec.loadedPoints (is : List (Traction.Intersection n d)) : List (LoadPoint n d) :=
  (is.filter (·.contained)).flatMap (·.points)

namespace Traction

noncomputable def pForce (t : LoadFunction d) (lambda : ℝ) (p : LoadPoint n d) : NodeVec n d :=
  fun i => -((p.weight * p.detJ) • ((p.N i • (1 : Matrix (Fin d) (Fin d) ℝ)) *ᵥ t p.x lambda))

theorem pForce_apply (t : LoadFunction d) (lambda : ℝ) (p : LoadPoint n d) (i : Fin n) (a : Fin d) :
    pForce t lambda p i a = -(p.weight * p.detJ * (p.N i * t p.x lambda a)) := by
  simp [pForce, Matrix.smul_mulVec]

theorem foldlM_some {α β : Type} (f : β → α → β) (l : List α) :
    ∀ b, l.foldlM (fun b a => (some (f b a) : Option β)) b = some (l.foldl f b) := by
  induction l with
  | nil => intro b; rfl
  | cons a l ih => intro b; rw [List.foldlM_cons]; exact ih (f b a)

theorem foldlM_congr {α β : Type} {f g : β → α → Option β} (h : ∀ b a, f b a = g b a) (l : List α) (b : β) :
    l.foldlM f b = l.foldlM g b := by
  have : f = g := by funext b a; exact h b a
  rw [this]

theorem foldl_intersections {β : Type} [AddCommMonoid β] (g : LoadPoint n d → β) (is : List (Intersection n d)) :
    ∀ b : β, is.foldl (fun b i => if i.contained then i.points.foldl (fun b p => b + g p) b else b) b =
      b + ((loadedPoints is).map g).sum := by
  induction is with
  | nil => intro b; simp [loadedPoints]
  | cons i is ih =>
    intro b
    rw [List.foldl_cons, ih]
    unfold loadedPoints
    by_cases h : i.contained
    · rw [if_pos h, List.filter_cons_of_pos h, List.flatMap_cons, List.map_append, List.sum_append, foldl_add_sum,
        add_assoc]
    · rw [if_neg h, List.filter_cons_of_neg h]

theorem calculateScalar_sum (is : List (Intersection n d)) (t : LoadFunction d) (lambda : ℝ) (u : NodeVec n d) :
    calculateScalar (some is) (some t) lambda u =
      some ((loadedPoints is).map fun p => -((t p.x lambda ⬝ᵥ p.displacement u) * p.weight * p.detJ)).sum := by
  unfold calculateScalar
  rw [if_neg (by simp)]
  have h : ∀ (e : ℝ) (i : Intersection n d),
      (if i.contained then i.points.foldlM (pointEnergy (some t) lambda u) e else some e) =
      some (if i.contained then i.points.foldl
        (fun e p => e + -((t p.x lambda ⬝ᵥ p.displacement u) * p.weight * p.detJ)) e else e) := by
    intro e i
    by_cases hc : i.contained
    · rw [if_pos hc, if_pos hc, ← foldlM_some]
      exact foldlM_congr (fun b p => by simp [pointEnergy, sub_eq_add_neg]) _ _
    · rw [if_neg hc, if_neg hc]
  show is.foldlM _ (0 : ℝ) = _
  rw [foldlM_congr h, foldlM_some, foldl_intersections, zero_add]

theorem calculateVector_sum (is : List (Intersection n d)) (t : LoadFunction d) (lambda : ℝ) (force : NodeVec n d) :
    calculateVector (some is) (some t) lambda force =
      some (force + ((loadedPoints is).map (pForce t lambda)).sum) := by
  unfold calculateVector
  rw [if_neg (by simp)]
  have hp : ∀ (F : NodeVec n d) (p : LoadPoint n d),
      (List.finRange n).foldlM (pointForce (some t) lambda p) F = some (F + pForce t lambda p) := by
    intro F p
    have := foldlM_some (fun (F : NodeVec n d) i => addSegment F i (pForce t lambda p i)) (List.finRange n) F
    rw [foldl_addSegment] at this
    exact this
  have h : ∀ (F : NodeVec n d) (i : Intersection n d),
      (if i.contained then
          i.points.foldlM (fun F p => (List.finRange n).foldlM (pointForce (some t) lambda p) F) F
        else some F) =
      some (if i.contained then i.points.foldl (fun F p => F + pForce t lambda p) F else F) := by
    intro F i
    by_cases hc : i.contained
    · rw [if_pos hc, if_pos hc, ← foldlM_some]
      exact foldlM_congr hp _ _
    · rw [if_neg hc, if_neg hc]
  show is.foldlM _ force = _
  rw [foldlM_congr h, foldlM_some, foldl_intersections]

theorem work_pForce (t : LoadFunction d) (lambda : ℝ) (p : LoadPoint n d) (v : NodeVec n d) :
    work (pForce t lambda p) v = -((t p.x lambda ⬝ᵥ p.displacement v) * p.weight * p.detJ) := by
  simp only [work, pForce_apply, LoadPoint.displacement, dotProduct, Finset.sum_apply, Pi.smul_apply, smul_eq_mul,
    Finset.sum_mul, Finset.mul_sum]
  rw [Finset.sum_comm, ← Finset.sum_neg_distrib]
  refine Finset.sum_congr rfl fun a _ => ?_
  rw [← Finset.sum_neg_distrib]
  refine Finset.sum_congr rfl fun I _ => ?_
  ring

end Traction

/-- C69, traction. With a patch and a load function the element integrates over exactly the intersections the patch
contains: the potential is minus the work of the traction on the loaded points, the forces added are its gradient and do
not depend on the displacement. -/
theorem traction_consistent (is : List (Traction.Intersection n d)) (t : LoadFunction d) (lambda : ℝ)
    (force : NodeVec n d) :
    ∃ (E : NodeVec n d → ℝ) (F : NodeVec n d),
      (∀ u, Traction.calculateScalar (some is) (some t) lambda u = some (E u)) ∧
      Traction.calculateVector (some is) (some t) lambda force = some (force + F) ∧
      (∀ u, E u = -((loadedPoints is).map fun p =>
        (∑ a, t p.x lambda a * ∑ I, p.N I * u I a) * (p.weight * p.detJ)).sum) ∧
      (∀ u, GradientAt E F u ∧ TangentAt (fun _ => F) 0 u) ∧
      ((∀ p ∈ loadedPoints is, ∑ I, p.N I = 1) → ∀ a, ∑ I, F I a =
        -((loadedPoints is).map fun p => t p.x lambda a * (p.weight * p.detJ)).sum) := by
  refine ⟨_, _, fun u => Traction.calculateScalar_sum is t lambda u, Traction.calculateVector_sum is t lambda force,
    fun u => ?_, fun u => ⟨fun v => ?_, tangent_const _ u⟩, fun hN a => ?_⟩
  · rw [list_sum_neg]
    congr 1
    refine List.map_congr_left fun p _ => ?_
    simp only [dotProduct, LoadPoint.displacement, Finset.sum_apply, Pi.smul_apply, smul_eq_mul]
    ring
  · rw [work_list_sum]
    refine hasDerivAt_list_sum _ _ _ _ fun p _ => ?_
    refine hasDerivAt_quadratic (a := -((t p.x lambda ⬝ᵥ p.displacement u) * p.weight * p.detJ)) (c := 0) fun s => ?_
    rw [Traction.work_pForce, displacement_line, dotProduct_add, dotProduct_smul, smul_eq_mul]
    ring
  · simp only [list_sum_apply]
    rw [list_sum_finset, list_sum_neg]
    congr 1
    refine List.map_congr_left fun p hp => ?_
    simp only [Traction.pForce_apply, Finset.sum_neg_distrib, ← Finset.mul_sum, ← Finset.sum_mul, hN p hp]
    ring

/-- The full claim about incomplete tractions: an element whose patch or load function is missing adds nothing. -/
def Spec.IncompleteTractionAddsNothing : Prop :=
  ∀ (n d : Nat) (boundary : Option (List (Traction.Intersection n d))) (load : Option (LoadFunction d)) (lambda : ℝ)
    (u force : NodeVec n d), boundary = none ∨ load = none →
    Traction.calculateScalar boundary load lambda u = some 0 ∧
    Traction.calculateVector boundary load lambda force = some force

/-- C69, the claim about incomplete tractions is false of the code: the guard asks for both to be missing, so a null
patch with a load function is dereferenced. -/
theorem incompleteTraction_false : ¬ Spec.IncompleteTractionAddsNothing := by
  intro h
  have := (h 1 1 none (some fun x _ => x) 0 0 0 (Or.inl rfl)).1
  simp [Traction.calculateScalar] at this

/-- C69, what holds: nothing is added when both are missing; a missing patch alone is a null dereference; a missing load
function alone adds nothing exactly as long as no integration point of the element is loaded, and fails otherwise. -/
theorem incompleteTraction_partial (is : List (Traction.Intersection n d)) (t : LoadFunction d) (lambda : ℝ)
    (u force : NodeVec n d) :
    (Traction.calculateScalar none none lambda u = some 0 ∧
      Traction.calculateVector (n := n) (d := d) none none lambda force = some force) ∧
    (Traction.calculateScalar none (some t) lambda u = none ∧
      Traction.calculateVector (n := n) none (some t) lambda force = none) ∧
    (Traction.calculateScalar (some is) none lambda u = if loadedPoints is = [] then some 0 else none) := by
  refine ⟨⟨rfl, rfl⟩, ⟨rfl, rfl⟩, ?_⟩
  have h : ∀ e : ℝ, is.foldlM (fun energy (i : Traction.Intersection n d) =>
      if i.contained then i.points.foldlM (Traction.pointEnergy none lambda u) energy else some energy) e =
      if loadedPoints is = [] then some e else none := by
    induction is with
    | nil => intro e; simp [loadedPoints]
    | cons i is ih =>
      intro e
      rw [List.foldlM_cons]
      by_cases hc : i.contained
      · have hl : loadedPoints (i :: is) = i.points ++ loadedPoints is := by
          unfold loadedPoints
          rw [List.filter_cons_of_pos hc, List.flatMap_cons]
        rw [if_pos hc, hl]
        cases hpt : i.points with
        | nil => simpa using ih e
        | cons p ps => rw [List.foldlM_cons]; simp [Traction.pointEnergy]
      · have hl : loadedPoints (i :: is) = loadedPoints is := by
          unfold loadedPoints
          rw [List.filter_cons_of_neg hc]
        rw [if_neg hc, hl]
        simpa using ih e
  have := h 0
  simpa [Traction.calculateScalar] using this

/-- A loaded element: two nodes, one contained intersection with one point and one that is not contained. -/
example : Traction.calculateScalar (n := 2) (d := 1)
    (some [⟨true, [⟨fun _ => 1, 2, 3, fun _ => 1 / 2⟩]⟩, ⟨false, [⟨fun _ => 5, 1, 1, fun _ => 1⟩]⟩])
    (some fun x l => l • x) 7 (fun _ _ => 4) = some (-168) := by
  rw [Traction.calculateScalar_sum]
  simp [loadedPoints, LoadPoint.displacement, dotProduct]
  norm_num

end Ikarus.Element
