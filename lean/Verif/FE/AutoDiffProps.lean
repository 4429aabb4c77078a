import Verif.FE.AutoDiffModel
import Verif.FE.MixinProps

/-!
Property C80: an element wrapped in AutoDiffFE gives the vector and the matrix of the element itself.
-/

namespace Ikarus.AutoDiff

open Ikarus.Element Ikarus.Element.Spec

variable {n d : Nat}

/-! ### The derivatives -/

theorem work_unit (f : NodeVec n d) (I : Fin n) (a : Fin d) : Spec.work f (unit I a) = f I a := by
  simp [Spec.work, unit, ite_and, Finset.sum_ite_eq']

theorem mul_unit (K : BlockMat n d) (I J : Fin n) (a b : Fin d) : Spec.mul K (unit J b) I a = K I J a b := by
  simp [Spec.mul, unit, ite_and, Finset.sum_ite_eq']

theorem gradient_eq {E : NodeVec n d → ℝ} {F u : NodeVec n d} (h : GradientAt E F u) : gradient E u = F := by
  funext I a
  have := (h (unit I a)).deriv
  rw [work_unit] at this
  exact this

theorem jacobian_eq {F : NodeVec n d → NodeVec n d} {K : BlockMat n d} {u : NodeVec n d} (h : TangentAt F K u) :
    jacobian F u = K := by
  funext I J
  ext a b
  have := hasDerivAt_pi.1 (hasDerivAt_pi.1 (h (unit J b)) I) a
  rw [mul_unit] at this
  exact this.deriv

theorem second_eq {E : NodeVec n d → ℝ} {F : NodeVec n d → NodeVec n d} {K : BlockMat n d} {u : NodeVec n d}
    (hE : ∀ w, GradientAt E (F w) w) (hK : TangentAt F K u) (I J : Fin n) (a b : Fin d) :
    second E u I J a b = K J I b a := by
  unfold second
  have h1 : ∀ s : ℝ, deriv (fun t : ℝ => E (u + s • unit I a + t • unit J b)) 0 = F (u + s • unit I a) J b := by
    intro s
    have := (hE (u + s • unit I a) (unit J b)).deriv
    rw [work_unit] at this
    exact this
  simp only [h1]
  have := hasDerivAt_pi.1 (hasDerivAt_pi.1 (hK (unit I a)) J) b
  rw [mul_unit] at this
  exact this.deriv

/-- C80, Hessian. If the force is the gradient of the energy everywhere and `K` the derivative of the force at `u`, then the
Hessian `autodiff` computes is made of the entries of `K` in and below the diagonal; it is `K` exactly if `K` is symmetric. -/
theorem hessian_eq {E : NodeVec n d → ℝ} {F : NodeVec n d → NodeVec n d} {K : BlockMat n d} {u : NodeVec n d}
    (hE : ∀ w, GradientAt E (F w) w) (hK : TangentAt F K u) :
    (∀ I J a b, hessian E u I J a b = if (I : Nat) * d + a ≤ J * d + b then K J I b a else K I J a b) ∧
    (hessian E u = K ↔ Spec.Symmetric K) := by
  have h1 : ∀ I J a b, hessian E u I J a b = if (I : Nat) * d + a ≤ J * d + b then K J I b a else K I J a b := by
    intro I J a b
    simp only [hessian, Matrix.of_apply, second_eq hE hK]
  refine ⟨h1, fun h I J a b => ?_, fun h => ?_⟩
  · rcases Nat.le_total ((I : Nat) * d + a) (J * d + b) with hle | hle
    · have := h1 I J a b
      rw [h, if_pos hle] at this
      exact this
    · have := h1 J I b a
      rw [h, if_pos hle] at this
      exact this.symm
  · funext I J
    ext a b
    rw [h1]
    split
    · exact (h I J a b).symm
    · rfl

/-! ### Which branch is taken -/

/-- C80, branches. The scalar cannot be asked for exactly if the element has none; otherwise it is that of the element without
increment. -/
theorem autoDiff_scalar_compiles (e : Impl n d) :
    (calculateScalar e = .staticAssert ↔ e.scalar = none) ∧
    ∀ E, calculateScalar e = .ok E ↔ ∃ f, e.scalar = some f ∧ f 0 = some E := by
  rcases e with ⟨_ | s, v, m⟩
  · simp [calculateScalar]
  · simp only [calculateScalar, Option.some.injEq, exists_eq_left', reduceCtorEq, iff_false]
    cases s 0 <;> simp [Outcome.ofOption]

/-- C80, branches. The vector cannot be asked for exactly if there is no scalar and no vector that may be used. -/
theorem autoDiff_vector_compiles (force : Bool) (e : Impl n d) (g : NodeVec n d) :
    calculateVector force e g = .staticAssert ↔ e.scalar = none ∧ (e.vector = none ∨ force = true) := by
  rcases e with ⟨_ | s, _ | v, m⟩ <;> cases force <;> simp only [calculateVector, Outcome.ofOption] <;>
    first | (split <;> simp) | simp

/-- C80, branches. The matrix cannot be asked for exactly if there is neither scalar nor vector, nor a matrix that may be
used. -/
theorem autoDiff_matrix_compiles (force : Bool) (e : Impl n d) (h : BlockMat n d) :
    calculateMatrix force e h = .staticAssert ↔
      e.scalar = none ∧ e.vector = none ∧ (e.matrix = none ∨ force = true) := by
  rcases e with ⟨_ | s, _ | v, _ | m⟩ <;> cases force <;> simp only [calculateMatrix, Outcome.ofOption] <;>
    first | (split <;> simp) | simp

/-! ### The element -/

theorem nodes_flat (e : Elem) {size : Nat} {dofs : List Nat} (h1 : e.children.length = e.d)
    (h2 : (FETree.power e.children).nodeSize? = some e.n) (h3 : e.dofs? = some dofs) (h4 : ∀ i ∈ dofs, i < size)
    (x : List ℝ) (hx : x.length = size) (dx : NodeVec e.n e.d) :
    localAt e x dx = some (gathered e.n e.d dofs x + dx) := by
  have g1 : dofs.length = e.n * e.d := (local_eq h1 h2 h3 h4 x hx).1
  obtain ⟨X, hX, -, -, -, hX2⟩ := localSolution_increment x (Elem.flat dx) e.index e.children e.n dofs h2 h3
    (by rw [flat_length, g1]) (fun i hi => by rw [hx]; exact h4 i hi)
  rw [h1] at hX hX2
  unfold localAt
  rw [hX, Option.map_some]
  congr 1
  funext I a
  have hk : I * e.d + a < e.n * e.d := by
    calc (I : Nat) * e.d + a < I * e.d + e.d := by omega
      _ = (I + 1) * e.d := by ring
      _ ≤ e.n * e.d := Nat.mul_le_mul_right _ I.2
  have hk' : I * e.d + a < dofs.length := by rw [g1]; exact hk
  have hkf : I * e.d + a < (Elem.flat dx).length := by rw [flat_length]; exact hk
  have hb : dofs[I * e.d + a] < x.length := by rw [hx]; exact h4 _ (List.getElem_mem hk')
  have := hX2 I a _ _ _ I.2 a.2 (List.getElem?_eq_getElem hk') (List.getElem?_eq_getElem hkf) (List.getElem?_eq_getElem hb)
  have hfl : (Elem.flat dx)[I * e.d + a] = dx I a := by
    have := flat_getD dx I a
    rw [List.getD_eq_getElem?_getD, show (a : Nat) + e.d * I = I * e.d + a by ring, List.getElem?_eq_getElem hkf,
      Option.getD_some] at this
    exact this
  have hga : gathered e.n e.d dofs x I a = x[dofs[I * e.d + a]] := by
    unfold gathered
    simp [List.getD_eq_getElem?_getD, List.getElem?_eq_getElem hk', List.getElem?_eq_getElem hb]
  change Elem.nodes X I a = gathered e.n e.d dofs x I a + dx I a
  rw [hga, ← hfl, add_comm]
  unfold Elem.nodes
  simp only [List.getD_eq_getElem?_getD]
  cases h6 : X[(I : Nat)]? with
  | none => rw [h6] at this; simp at this
  | some row =>
    rw [h6, Option.bind_some] at this
    rw [Option.getD_some, this, Option.getD_some]

theorem gradient_shift (f : NodeVec n d → ℝ) (u : NodeVec n d) : gradient (fun dx => f (u + dx)) 0 = gradient f u := by
  funext I a
  simp [gradient]

theorem jacobian_shift (f : NodeVec n d → NodeVec n d) (u : NodeVec n d) :
    jacobian (fun dx => f (u + dx)) 0 = jacobian f u := by
  funext I J
  simp [jacobian]

theorem hessian_shift (f : NodeVec n d → ℝ) (u : NodeVec n d) : hessian (fun dx => f (u + dx)) 0 = hessian f u := by
  funext I J
  simp [hessian, second, add_assoc]

/-- The element has the dofs and the dimensions it should have and all its skills keep their contract at the nodal
displacements. -/
def Spec.Good (size : Nat) (x : List ℝ) (e : Elem) : Prop :=
  x.length = size ∧ Ikarus.Spec.ElemFits size e ∧ ∀ u, e.local? x = some u → ∀ sk ∈ e.skills, Ikarus.Spec.SkillContract sk u

theorem good_resolve {size : Nat} {x : List ℝ} {e : Elem} (h : Spec.Good size x e) :
    ∃ dofs E F, ∃ K : NodeVec e.n e.d → BlockMat e.n e.d, e.dofs? = some dofs ∧ e.local? x = some (gathered e.n e.d dofs x) ∧
      (∀ dx, localAt e x dx = some (gathered e.n e.d dofs x + dx)) ∧
      (∀ w, Mixin.calculateScalar w e.skills = some (E w)) ∧
      (∀ w f, Mixin.calculateVector w e.skills f = some (f + F w)) ∧
      (∀ w M, Mixin.calculateMatrix w e.skills M = some (M + K w)) ∧
      GradientAt E (F (gathered e.n e.d dofs x)) (gathered e.n e.d dofs x) ∧
      TangentAt F (K (gathered e.n e.d dofs x)) (gathered e.n e.d dofs x) := by
  obtain ⟨hx, ⟨h1, h2, dofs, h3, h4⟩, h5⟩ := h
  obtain ⟨-, X, -, hl, -⟩ := local_eq h1 h2 h3 h4 x hx
  obtain ⟨E, F, K, hE, hF, hK, hG, hT⟩ := mixin_contract e.skills _ (h5 _ hl)
  exact ⟨dofs, E, F, K, h3, hl, nodes_flat e h1 h2 h3 h4 x hx, hE, hF, hK, hG, hT⟩

/-- C80, vector. An element whose skills keep their contract gives the assembler the same vector when it is wrapped, whether its
own vector is used or the gradient of its scalar. -/
theorem autoDiff_vector {size : Nat} {x : List ℝ} {e : Elem} (h : Spec.Good size x e) (force hasVector hasMatrix : Bool) :
    vector? force hasVector hasMatrix x e = e.vector? x := by
  obtain ⟨dofs, E, F, K, hd, hl, hla, hE, hF, hK, hG, hT⟩ := good_resolve h
  have hdir : e.vector? x = some ⟨dofs, Elem.flat (F (gathered e.n e.d dofs x))⟩ := by
    unfold Elem.vector?
    rw [hd, Option.bind_some, hl, Option.bind_some, hF, zero_add, Option.map_some]
  have hgrad : gradient (fun dx => ((localAt e x dx).bind fun u => Mixin.calculateScalar u e.skills).getD 0) 0 =
      F (gathered e.n e.d dofs x) := by
    simp only [hla, Option.bind_some, hE, Option.getD_some]
    rw [gradient_shift, gradient_eq hG]
  have hv : calculateVector force (implOf hasVector hasMatrix x e) 0 = .ok (F (gathered e.n e.d dofs x)) := by
    cases hasVector <;> cases force <;> simp only [calculateVector, implOf, if_true, Bool.false_eq_true, if_false]
    case true.false =>
      rw [hla, Option.bind_some, hF, zero_add, add_zero]
      rfl
    all_goals
      rw [hgrad, hla, Option.bind_some, hE]
      rfl
  unfold vector?
  rw [hdir, hd, Option.bind_some, hv]

/-- C80, matrix. If the element has a matrix that may be used, or a vector, the wrapped element gives the assembler the same
matrix. -/
theorem autoDiff_matrix {size : Nat} {x : List ℝ} {e : Elem} (h : Spec.Good size x e) (force hasVector hasMatrix : Bool)
    (hb : hasVector = true ∨ (hasMatrix = true ∧ force = false)) :
    matrix? force hasVector hasMatrix x e = e.matrix? x := by
  obtain ⟨dofs, E, F, K, hd, hl, hla, hE, hF, hK, hG, hT⟩ := good_resolve h
  have hdir : e.matrix? x = some ⟨dofs, Elem.flatMat (K (gathered e.n e.d dofs x))⟩ := by
    unfold Elem.matrix?
    rw [hd, Option.bind_some, hl, Option.bind_some, hK, zero_add, Option.map_some]
  have hjac : jacobian (fun dx => ((localAt e x dx).bind fun u => Mixin.calculateVector u e.skills 0).getD 0) 0 =
      K (gathered e.n e.d dofs x) := by
    simp only [hla, Option.bind_some, hF, Option.getD_some, zero_add]
    rw [jacobian_shift, jacobian_eq hT]
  have hv : calculateMatrix force (implOf hasVector hasMatrix x e) 0 = .ok (K (gathered e.n e.d dofs x)) := by
    cases hasVector <;> cases force <;> cases hasMatrix <;>
      simp only [calculateMatrix, implOf, if_true, Bool.false_eq_true, if_false]
    case false.false.false => simp at hb
    case false.true.false => simp at hb
    case false.true.true => simp at hb
    case false.false.true =>
      rw [hl, Option.bind_some, hK, zero_add]
      rfl
    case true.false.true =>
      rw [hl, Option.bind_some, hK, zero_add]
      rfl
    all_goals
      rw [hjac, hla, Option.bind_some, hF]
      rfl
  unfold matrix?
  rw [hdir, hd, Option.bind_some, hv]

/-- C80, matrix from the scalar. If only the scalar can be used, the wrapped element gives the same matrix wherever the skills keep
their contract everywhere and the matrix of the element is symmetric. -/
theorem autoDiff_matrix_scalar {size : Nat} {x : List ℝ} {e : Elem} (h : Spec.Good size x e)
    (hall : ∀ u, ∀ sk ∈ e.skills, Ikarus.Spec.SkillContract sk u)
    (hsym : ∀ u K, Mixin.calculateMatrix u e.skills 0 = some K → Spec.Symmetric K) (force hasVector hasMatrix : Bool) :
    matrix? force hasVector hasMatrix x e = e.matrix? x := by
  by_cases hb : hasVector = true ∨ (hasMatrix = true ∧ force = false)
  · exact autoDiff_matrix h force hasVector hasMatrix hb
  obtain ⟨dofs, E, F, K, hd, hl, hla, hE, hF, hK, hG, hT⟩ := good_resolve h
  have hdir : e.matrix? x = some ⟨dofs, Elem.flatMat (K (gathered e.n e.d dofs x))⟩ := by
    unfold Elem.matrix?
    rw [hd, Option.bind_some, hl, Option.bind_some, hK, zero_add, Option.map_some]
  have hgr : ∀ w, GradientAt E (F w) w := by
    intro w
    obtain ⟨E', F', K', hE', hF', -, hG', -⟩ := mixin_contract e.skills w (hall w)
    have h1 : E' = E := by
      funext v
      have := hE' v
      simp only [Mixin.together] at this
      rw [hE v] at this
      exact (Option.some.inj this).symm
    have h2 : F' w = F w := by
      have := hF' w 0
      simp only [Mixin.together] at this
      rw [hF w 0] at this
      have := Option.some.inj this
      rw [zero_add, zero_add] at this
      exact this.symm
    rw [h1, h2] at hG'
    exact hG'
  have hs : Spec.Symmetric (K (gathered e.n e.d dofs x)) := hsym (gathered e.n e.d dofs x) _ (by rw [hK, zero_add])
  have hhes : hessian (fun dx => ((localAt e x dx).bind fun u => Mixin.calculateScalar u e.skills).getD 0) 0 =
      K (gathered e.n e.d dofs x) := by
    simp only [hla, Option.bind_some, hE, Option.getD_some]
    rw [hessian_shift, (hessian_eq hgr hT).2.2 hs]
  have hv : calculateMatrix force (implOf hasVector hasMatrix x e) 0 = .ok (K (gathered e.n e.d dofs x)) := by
    cases hasVector <;> cases force <;> cases hasMatrix <;>
      simp only [calculateMatrix, implOf, if_true, Bool.false_eq_true, if_false]
    case true.false.false => simp at hb
    case true.true.false => simp at hb
    case true.true.true => simp at hb
    case true.false.true => simp at hb
    case false.false.true => simp at hb
    all_goals
      rw [hhes, hla, Option.bind_some, hE]
      rfl
  unfold matrix?
  rw [hdir, hd, Option.bind_some, hv]

theorem mapOpt_congr {β γ : Type*} {f g : β → Option γ} {l : List β} (h : ∀ b ∈ l, f b = g b) : mapOpt f l = mapOpt g l := by
  induction l with
  | nil => rfl
  | cons b l ih => simp only [mapOpt, h b (by simp), ih fun b' hb' => h b' (by simp [hb'])]

/-- C80, assembly. In a system whose elements keep their contract every element may be wrapped, each with its own choice of the
template parameter: the assembler gets the same vectors and matrices, so that all assembled vectors and matrices are the
same. -/
theorem autoDiff_assembly (s : System) (x : List ℝ) (hx : x.length = s.flags.length)
    (h : ∀ e ∈ s.elems, Ikarus.Spec.ElemFits s.flags.length e ∧ (∀ u, ∀ sk ∈ e.skills, Ikarus.Spec.SkillContract sk u) ∧
      ∀ u K, Mixin.calculateMatrix u e.skills 0 = some K → Spec.Symmetric K)
    (force hasVector hasMatrix : Elem → Bool) :
    ((mapOpt (fun e => vector? (force e) (hasVector e) (hasMatrix e) x e) s.elems).bind
      (Assembler.create s.flags).getRawVector? = s.rawVector? x) ∧
    ((mapOpt (fun e => vector? (force e) (hasVector e) (hasMatrix e) x e) s.elems).bind
      (Assembler.create s.flags).getReducedVector? = s.reducedVector? x) ∧
    ((mapOpt (fun e => matrix? (force e) (hasVector e) (hasMatrix e) x e) s.elems).bind
      (Assembler.create s.flags).getRawMatrix? = s.rawMatrix? x) ∧
    ((mapOpt (fun e => matrix? (force e) (hasVector e) (hasMatrix e) x e) s.elems).bind
      (Assembler.create s.flags).getReducedMatrix? = s.reducedMatrix? x) := by
  have hv : mapOpt (fun e => vector? (force e) (hasVector e) (hasMatrix e) x e) s.elems =
      mapOpt (fun e : Elem => e.vector? x) s.elems := by
    refine mapOpt_congr fun e he => ?_
    obtain ⟨h1, h2, h3⟩ := h e he
    exact autoDiff_vector ⟨hx, h1, fun u _ => h2 u⟩ _ _ _
  have hm : mapOpt (fun e => matrix? (force e) (hasVector e) (hasMatrix e) x e) s.elems =
      mapOpt (fun e : Elem => e.matrix? x) s.elems := by
    refine mapOpt_congr fun e he => ?_
    obtain ⟨h1, h2, h3⟩ := h e he
    exact autoDiff_matrix_scalar ⟨hx, h1, fun u _ => h2 u⟩ h2 h3 _ _ _
  rw [hv, hm]
  exact ⟨rfl, rfl, rfl, rfl⟩

/-! ### A vector that is not zero -/

namespace Spec

/-- The full claim for a vector passed by the user: the wrapped element adds its vector to it, as the element does. -/
def VectorAdded : Prop :=
  ∀ (n d : Nat) (force : Bool) (E : NodeVec n d → ℝ) (F : NodeVec n d → NodeVec n d) (hasVector : Bool),
    (∀ w, GradientAt E (F w) w) → ∀ g,
      calculateVector force ⟨some fun dx => some (E dx), if hasVector then some fun dx f => some (f + F dx) else none, none⟩ g =
        .ok (g + F 0)

end Spec

/-- C80, part that holds. The wrapped element adds its vector if it uses the vector of the element; otherwise what was in the
vector is lost. -/
theorem autoDiff_buffer_partial (force : Bool) (E : NodeVec n d → ℝ) (F : NodeVec n d → NodeVec n d) (hasVector : Bool)
    (m : Option (BlockMat n d → Option (BlockMat n d))) (hE : GradientAt E (F 0) 0) (g : NodeVec n d) :
    calculateVector force ⟨some fun dx => some (E dx), if hasVector then some fun dx f => some (f + F dx) else none, m⟩ g =
      .ok (if hasVector = true ∧ force = false then g + F 0 else F 0) := by
  cases hasVector <;> cases force <;>
    simp [calculateVector, Outcome.ofOption, gradient_eq hE]

/-- C80, part that holds. The same for the matrix: it is added to what the user passes if the element has a matrix and its use
is not switched off; if it is made by differentiating the vector, what was in it is lost. -/
theorem autoDiff_matrix_buffer_partial (force : Bool) (s : Option (NodeVec n d → Option ℝ)) (F : NodeVec n d → NodeVec n d)
    (K : BlockMat n d) (hasMatrix : Bool) (hF : TangentAt F K 0) (h : BlockMat n d) :
    calculateMatrix force ⟨s, some fun dx f => some (f + F dx), if hasMatrix then some fun k => some (k + K) else none⟩ h =
      .ok (if hasMatrix = true ∧ force = false then h + K else K) := by
  have e : (fun dx => ((some ((0 : NodeVec n d) + F dx)).getD 0)) = F := by
    funext dx
    rw [Option.getD_some, zero_add]
  cases hasMatrix <;> cases force <;>
    simp [calculateMatrix, Outcome.ofOption, jacobian_eq hF]

/-- C80. The full claim is false: with the forced derivative the content of the vector is lost. -/
theorem vectorAdded_false : ¬ Spec.VectorAdded := by
  intro h
  have hz : ∀ w : NodeVec 1 1, GradientAt (fun _ => 0) (0 : NodeVec 1 1) w := fun w v => by
    rw [show Element.Spec.work (0 : NodeVec 1 1) v = 0 by simp [Element.Spec.work]]
    exact hasDerivAt_const _ _
  have h1 := h 1 1 true (fun _ => 0) (fun _ => 0) true hz (fun _ _ => 1)
  rw [autoDiff_buffer_partial true (fun _ => 0) (fun _ => 0) true none (hz 0) (fun _ _ => 1)] at h1
  simp only [Bool.true_eq_false, and_false, if_false, add_zero] at h1
  have h2 := congrFun (congrFun (Outcome.ok.inj h1) 0) 0
  simp at h2

/-! ### Example -/

theorem exampleBar_symmetric (i : List Nat) (u : NodeVec (exampleBar i).n (exampleBar i).d)
    (K : BlockMat (exampleBar i).n (exampleBar i).d) (h : Mixin.calculateMatrix u (exampleBar i).skills 0 = some K) :
    Spec.Symmetric K := by
  revert u K
  intro (u : NodeVec 2 1) (K : BlockMat 2 1) h
  have h1 : LinearElastic.calculateMatrix false !![(3 : ℝ)] [(⟨2, 1, ![!![-1 / 2], !![1 / 2]]⟩ : LinPoint 2 1 1)] 0 = K :=
    Option.some.inj h
  rw [← h1]
  refine LinearElastic.linearElastic_symmetric _ ?_ _
  ext a b; fin_cases a; fin_cases b; rfl

/-- The hypotheses of the theorem on assembly hold for the two bars of C76. -/
example (x0 x1 x2 : ℝ) (force hasVector hasMatrix : Elem → Bool) :
    (mapOpt (fun e => matrix? (force e) (hasVector e) (hasMatrix e) [x0, x1, x2] e) exampleSystem.elems).bind
      (Assembler.create exampleSystem.flags).getReducedMatrix? = exampleSystem.reducedMatrix? [x0, x1, x2] := by
  refine (autoDiff_assembly exampleSystem [x0, x1, x2] rfl (fun e he => ⟨((exampleSystem_contract x0 x1 x2).2 e he).1, ?_⟩)
    force hasVector hasMatrix).2.2.2
  simp only [exampleSystem, List.mem_cons, List.not_mem_nil, or_false] at he
  rcases he with rfl | rfl
  · exact ⟨exampleBar_skills _, exampleBar_symmetric _⟩
  · exact ⟨exampleBar_skills _, exampleBar_symmetric _⟩

end Ikarus.AutoDiff
