import Verif.Analysis.LinearProps

/-!
Lemmas on analyses whose elements may be nonlinear: all skills are total, the iterates of the Newton solver keep the
prescribed displacements, and the norm it tests is that of the residual at the free dofs.
-/

namespace Ikarus

open Ikarus.Element Ikarus.Element.Spec

variable {n d : Nat}

/-! ### Specification -/

/-- The skill never fails. -/
def Spec.TotalSkill (s : Skill n d) : Prop :=
  (∀ u, ∃ E, s.scalar u = some E) ∧ (∀ u f, ∃ f', s.vector u f = some f') ∧ ∀ u K, ∃ K', s.matrix u K = some K'

/-- The linear solver answers with a vector of the right size which, for the option Full, does not move a constrained dof
whose entry in the right-hand side is zero.  It need not solve the system exactly. -/
def Spec.Answers (linSolve : DMat ℝ → List ℝ → List ℝ) (opt : DBCOption) (flags : List Bool) (A : DMat ℝ) : Prop :=
  ∀ b : List ℝ, b.length = A.rows → (linSolve A b).length = A.cols ∧
    (opt = .full → ∀ i : Nat, flags[i]? = some true → b.getD i 0 = 0 → (linSolve A b).getD i 0 = 0)

/-- The analysis is set up properly: Full or Reduced, elements that fit and do not fail, prescribed displacements
proportional to the load factor which the solver knows of, callables that live, the bound requirement has a solution
vector of the right size, and the linear solver answers. -/
structure Spec.Proper (a : Analysis) (û : Nat → ℝ) : Prop where
  option : a.option ≠ .raw
  elems : ∀ e ∈ a.elems, ∀ l, Spec.ElemFits a.dv.flags.length (e.at l) ∧ ∀ s ∈ e.skills, Spec.TotalSkill (s l)
  prescribed : Spec.PrescribedLinearly a.dv û
  force : a.withForce = true ∨ ∀ i < a.dv.flags.length, û i = 0
  alive : ∀ f ∈ a.dv.fns, a.alive f.derivSrc = true
  bound : ∀ d, a.bound = some d → ∃ u, d.x = some u ∧ u.length = a.dv.flags.length
  linSolve : ∀ l (x : List ℝ), x.length = a.dv.flags.length → ∀ A, a.jacobian? ⟨l, some x⟩ = some A →
    Spec.Answers a.linSolve a.option a.dv.flags A

/-! ### Total systems -/

theorem mixin_total (ss : List (Skill n d)) (h : ∀ s ∈ ss, Spec.TotalSkill s) : Spec.TotalSkill (Mixin.together ss) := by
  induction ss with
  | nil => exact ⟨fun _ => ⟨_, rfl⟩, fun _ _ => ⟨_, rfl⟩, fun _ _ => ⟨_, rfl⟩⟩
  | cons s ss ih =>
    obtain ⟨a1, a2, a3⟩ := h s (by simp)
    obtain ⟨b1, b2, b3⟩ := ih fun t ht => h t (by simp [ht])
    refine ⟨fun u => ?_, fun u f => ?_, fun u K => ?_⟩
    · obtain ⟨E, hE⟩ := a1 u
      obtain ⟨E', hE'⟩ := b1 u
      refine ⟨E + E', ?_⟩
      show (s.scalar u).bind (fun a => (Mixin.calculateScalar u ss).map fun b => a + b) = _
      rw [hE, Option.bind_some]
      show ((Mixin.together ss).scalar u).map _ = _
      rw [hE', Option.map_some]
    · obtain ⟨f1, h1⟩ := a2 u f
      obtain ⟨f2, h2⟩ := b2 u f1
      refine ⟨f2, ?_⟩
      show (s.vector u f).bind (Mixin.calculateVector u ss) = _
      rw [h1, Option.bind_some]
      exact h2
    · obtain ⟨f1, h1⟩ := a3 u K
      obtain ⟨f2, h2⟩ := b3 u f1
      refine ⟨f2, ?_⟩
      show (s.matrix u K).bind (Mixin.calculateMatrix u ss) = _
      rw [h1, Option.bind_some]
      exact h2

theorem mapOpt_total {β γ : Type*} (f : β → Option γ) (p : γ → Prop) (l : List β) (h : ∀ b ∈ l, ∃ c, f b = some c ∧ p c) :
    ∃ cs, mapOpt f l = some cs ∧ ∀ c ∈ cs, p c := by
  induction l with
  | nil => exact ⟨[], rfl, by simp⟩
  | cons b l ih =>
    obtain ⟨c, h1, h2⟩ := h b (by simp)
    obtain ⟨cs, h3, h4⟩ := ih fun b' hb' => h b' (by simp [hb'])
    refine ⟨c :: cs, ?_, ?_⟩
    · simp only [mapOpt]
      rw [h1, Option.bind_some, h3]; rfl
    · intro c' hc'
      rcases List.mem_cons.1 hc' with rfl | hc'
      · exact h2
      · exact h4 c' hc'

theorem total_system (s : System)
    (h : ∀ e ∈ s.elems, Spec.ElemFits s.flags.length e ∧ ∀ sk ∈ e.skills, Spec.TotalSkill sk) {x : List ℝ}
    (hx : x.length = s.flags.length) :
    ∃ E r K, s.scalar? x = some E ∧ s.rawVector? x = some r ∧ r.length = s.flags.length ∧
      s.rawMatrix? x = some K ∧ K.rows = s.flags.length ∧ K.cols = s.flags.length := by
  have hloc : ∀ e ∈ s.elems, ∃ dofs u, e.dofs? = some dofs ∧ (∀ i ∈ dofs, i < s.flags.length) ∧
      dofs.length = e.n * e.d ∧ e.local? x = some u := by
    intro e he
    obtain ⟨⟨h1, h2, dofs, h3, h4⟩, -⟩ := h e he
    obtain ⟨g1, X, -, hl, -⟩ := local_eq h1 h2 h3 h4 x hx
    exact ⟨dofs, _, h3, h4, g1, hl⟩
  obtain ⟨Es, hEs, -⟩ := mapOpt_total (fun e : Elem => e.scalar? x) (fun _ => True) s.elems fun e he => by
    obtain ⟨dofs, u, h1, h2, h3, h4⟩ := hloc e he
    obtain ⟨E, hE⟩ := (mixin_total e.skills (h e he).2).1 u
    refine ⟨E, ?_, trivial⟩
    unfold Elem.scalar?
    rw [h4, Option.bind_some]
    exact hE
  obtain ⟨vs, hvs, hvok⟩ := mapOpt_total (fun e : Elem => e.vector? x)
    (fun v => v.dofs.length ≤ v.vec.length ∧ ∀ i ∈ v.dofs, i < s.flags.length) s.elems fun e he => by
      obtain ⟨dofs, u, h1, h2, h3, h4⟩ := hloc e he
      obtain ⟨f, hf⟩ := (mixin_total e.skills (h e he).2).2.1 u 0
      refine ⟨⟨dofs, Elem.flat f⟩, ?_, by rw [flat_length, h3], h2⟩
      show e.dofs?.bind (fun dofs => (e.local? x).bind fun u =>
        ((Mixin.together e.skills).vector u 0).map fun f => (⟨dofs, Elem.flat f⟩ : VecElem ℝ)) = _
      rw [h1, Option.bind_some, h4, Option.bind_some, hf, Option.map_some]
  obtain ⟨ms, hms, hmok⟩ := mapOpt_total (fun e : Elem => e.matrix? x)
    (fun v => (v.dofs ≠ [] → v.dofs.length ≤ v.mat.rows ∧ v.dofs.length ≤ v.mat.cols) ∧ ∀ i ∈ v.dofs, i < s.flags.length)
    s.elems fun e he => by
      obtain ⟨dofs, u, h1, h2, h3, h4⟩ := hloc e he
      obtain ⟨f, hf⟩ := (mixin_total e.skills (h e he).2).2.2 u 0
      refine ⟨⟨dofs, Elem.flatMat f⟩, ?_, fun _ => ⟨h3.le, h3.le⟩, h2⟩
      show e.dofs?.bind (fun dofs => (e.local? x).bind fun u =>
        ((Mixin.together e.skills).matrix u 0).map fun f => (⟨dofs, Elem.flatMat f⟩ : MatElem ℝ)) = _
      rw [h1, Option.bind_some, h4, Option.bind_some, hf, Option.map_some]
  obtain ⟨r, hr⟩ := (rawVector_defined_iff (Assembler.create s.flags) vs).2 fun e he => by
    rw [Assembler.size_create]; exact hvok e he
  obtain ⟨K, hK⟩ := (rawMatrix_defined_iff (Assembler.create s.flags) ms).2 fun e he => by
    rw [Assembler.size_create]; exact hmok e he
  obtain ⟨k1, k2, -⟩ := rawMatrix_eq_sum _ _ _ hK
  have r1 := (rawVector_eq_sum _ _ _ hr).1
  rw [Assembler.size_create] at k1 k2 r1
  refine ⟨Assembler.getScalar Es 0, r, K, ?_, ?_, r1, ?_, k1, k2⟩
  · unfold System.scalar?
    rw [hEs, Option.map_some]
  · unfold System.rawVector?
    rw [hvs, Option.bind_some, hr]
  · unfold System.rawMatrix?
    rw [hms, Option.bind_some, hK]

namespace Analysis

variable {a : Analysis} {û : Nat → ℝ}

theorem proper_system (h : Spec.Proper a û) (l : ℝ) {x : List ℝ} (hx : x.length = a.dv.flags.length) :
    ∃ E r K, (a.system l).scalar? x = some E ∧ (a.system l).rawVector? x = some r ∧ r.length = a.dv.flags.length ∧
      (a.system l).rawMatrix? x = some K ∧ K.rows = a.dv.flags.length ∧ K.cols = a.dv.flags.length := by
  refine total_system (a.system l) (fun e he => ?_) hx
  obtain ⟨pe, hpe, rfl⟩ := List.mem_map.1 he
  refine ⟨(h.elems pe hpe l).1, fun sk hsk => ?_⟩
  obtain ⟨s, hs, rfl⟩ := List.mem_map.1 hsk
  exact (h.elems pe hpe l).2 s hs

theorem proper_free_zero (h : Spec.Proper a û) {i : Nat} (hf : Spec.Free a.dv.flags i) : û i = 0 := by
  by_contra hne
  have h1 := h.prescribed.flagged i (free_lt hf) hne
  unfold Spec.Free at hf
  rw [hf] at h1
  cases h1

theorem proper_sync (h : Spec.Proper a û) (l : ℝ) {x : List ℝ} (hx : x.length = a.dv.flags.length) :
    ∃ x' : List ℝ, a.sync ⟨l, some x⟩ = ⟨l, some x'⟩ ∧ x'.length = a.dv.flags.length ∧
      ∀ i < a.dv.flags.length, x'.getD i 0 = synced û l i (x.getD i 0) := by
  obtain ⟨y, h1, h2, h3, h4⟩ := sync_sets_prescribed_partial a.dv ⟨x, l⟩ hx
  refine ⟨y.sol, ?_, h3.trans hx, fun i hi => ?_⟩
  · unfold sync
    simp only [Option.bind_some, h1, Option.map_some]
  · have := h4 i hi
    rw [List.getD_eq_getElem?_getD, this]
    unfold synced
    rw [h.prescribed.value l i hi]
    split
    · rfl
    · rw [List.getD_eq_getElem?_getD]

/-- The correction of one iteration, added to the solution, leaves the constrained dofs. -/
theorem correction_keeps (h : Spec.Proper a û) {l : ℝ} {x R : List ℝ}
    (hx : x.length = a.dv.flags.length) (hR : R.length = a.dv.flags.length) :
    ∃ x' : List ℝ, a.update ⟨l, some x⟩ (a.problem.linSolve (a.jacobian? ⟨l, some x⟩) (some (view a.option a.dv.flags R))) =
        ⟨l, some x'⟩ ∧ x'.length = a.dv.flags.length ∧
      ∀ i < a.dv.flags.length, ¬ Spec.Free a.dv.flags i → x'.getD i 0 = x.getD i 0 := by
  obtain ⟨-, -, K, -, -, -, hK, -, -⟩ := proper_system h l hx
  have hls := h.linSolve l x hx
  unfold System.rawMatrix? at hK
  obtain ⟨fes, h1, h2⟩ := Option.bind_eq_some_iff.1 hK
  have hneg : ∀ (w : List ℝ) i, (w.map fun b => -b).getD i 0 = -w.getD i 0 := by
    intro w i
    simp only [List.getD_eq_getElem?_getD, List.getElem?_map]
    cases w[i]? <;> simp
  have hgd : ∀ (u w : List ℝ), u.length = a.dv.flags.length → w.length = a.dv.flags.length → ∀ i < a.dv.flags.length,
      (List.zipWith (· + ·) u w).getD i 0 = u.getD i 0 + w.getD i 0 := by
    intro u w hu hw i hi
    simp only [List.getD_eq_getElem?_getD, List.getElem?_zipWith]
    rw [List.getElem?_eq_getElem (hu ▸ hi), List.getElem?_eq_getElem (hw ▸ hi)]; rfl
  cases ho : a.option with
  | raw => exact absurd ho h.option
  | full =>
    obtain ⟨A, hA, hAr, hAc, hAv⟩ := fullMatrix_eq a.dv.flags fes K h2
    have hJ : a.jacobian? ⟨l, some x⟩ = some A := by
      unfold jacobian?
      rw [Option.bind_some, ho]
      show (a.system l).fullMatrix? x = _
      unfold System.fullMatrix?
      rw [h1, Option.bind_some]; exact hA
    obtain ⟨hcl, hc⟩ := hls A hJ ((view .full a.dv.flags R).map fun b => -b)
      (by rw [List.length_map, view_length hR, if_pos rfl, hAr])
    rw [hJ]
    show ∃ x', a.update _ (some (a.linSolve A ((view .full a.dv.flags R).map fun b => -b))) = _ ∧ _
    generalize a.linSolve A ((view .full a.dv.flags R).map fun b => -b) = c at hcl hc
    rw [hAc] at hcl
    refine ⟨List.zipWith (· + ·) x c, ?_, by simp [hx, hcl], fun j hj hjf => ?_⟩
    · unfold update
      simp only [Option.bind_some, ho]
      rw [update_full_increment a.dv.flags x c .full (by simp) hx hcl]
    · have h0 : (view .full a.dv.flags R).getD j 0 = 0 := by
        unfold view
        rw [if_pos rfl, mask_getD hR, if_neg hjf]
      rw [hgd x c hx hcl j hj, hc ho j ((not_free_iff hj).1 hjf) (by rw [hneg, h0, neg_zero]), add_zero]
  | reduced =>
    obtain ⟨A, hA, hAr, hAc, hAv⟩ := reducedMatrix_eq a.dv.flags fes K h2
    rw [Assembler.reducedSize?_create] at hAr hAc
    have hAr := (Option.some.inj hAr).symm
    have hAc := (Option.some.inj hAc).symm
    have hJ : a.jacobian? ⟨l, some x⟩ = some A := by
      unfold jacobian?
      rw [Option.bind_some, ho]
      show (a.system l).reducedMatrix? x = _
      unfold System.reducedMatrix?
      rw [h1, Option.bind_some]; exact hA
    obtain ⟨hcl, -⟩ := hls A hJ ((view .reduced a.dv.flags R).map fun b => -b)
      (by rw [List.length_map, view_length hR, if_neg (by simp), hAr])
    rw [hJ]
    show ∃ x', a.update _ (some (a.linSolve A ((view .reduced a.dv.flags R).map fun b => -b))) = _ ∧ _
    generalize a.linSolve A ((view .reduced a.dv.flags R).map fun b => -b) = c at hcl
    rw [hAc] at hcl
    obtain ⟨w, hw, hwl, hw0, -⟩ := reduced_full_roundtrip a.dv.flags c (by rw [Assembler.reducedSize?_create, hcl])
    refine ⟨List.zipWith (· + ·) x w, ?_, by simp [hx, hwl], fun i hi hf => ?_⟩
    · unfold update
      simp only [Option.bind_some, ho]
      congr 1
      unfold updateFunctor?
      rw [if_pos ⟨rfl, by rw [Assembler.reducedSize?_create, hcl]⟩, hw, Option.bind_some]
      unfold addVec?
      rw [if_pos (by rw [hx, hwl])]
    · rw [hgd x w hx hwl i hi, List.getD_eq_getElem?_getD (l := w), hw0 i ((not_free_iff hi).1 hf), Option.getD_some, add_zero]

theorem step_keeps (h : Spec.Proper a û) (l : ℝ) {x R : List ℝ}
    (hx : x.length = a.dv.flags.length) (hR : R.length = a.dv.flags.length) :
    ∃ x' : List ℝ, Spec.newtonStep a.problem ⟨l, some x⟩ (some (view a.option a.dv.flags R)) = ⟨l, some x'⟩ ∧
      x'.length = a.dv.flags.length ∧
      ∀ i < a.dv.flags.length, ¬ Spec.Free a.dv.flags i → x'.getD i 0 = synced û l i (x.getD i 0) := by
  obtain ⟨y, h1, h2, h3⟩ := correction_keeps (l := l) h hx hR
  have h1 : a.problem.update ⟨l, some x⟩ (a.problem.linSolve (a.problem.jacobian ⟨l, some x⟩)
      (some (view a.option a.dv.flags R))) = ⟨l, some y⟩ := h1
  unfold Spec.newtonStep
  by_cases hf : a.withForce = true
  · have hi : a.problem.idbc = some ⟨a.addForce, a.sync⟩ := by simp [problem, hf]
    obtain ⟨z, h6, h7, h8⟩ := proper_sync h l h2
    refine ⟨z, ?_, h7, fun i hi hfr => by rw [h8 i hi, h3 i hi hfr]⟩
    rw [hi]
    show a.sync (a.problem.update _ _) = _
    rw [h1, h6]
  · have hi : a.problem.idbc = none := by simp [problem, hf]
    refine ⟨y, ?_, h2, fun i hi hfr => ?_⟩
    · rw [hi]; exact h1
    · rw [h3 i hi hfr]
      unfold synced
      rw [(h.force.resolve_left hf) i hi, mul_zero, if_neg (by simp)]

theorem first_proper (h : Spec.Proper a û) (l s : ℝ) {x : List ℝ} (hx : x.length = a.dv.flags.length) :
    ∃ (R r : List ℝ) (K : DMat ℝ), Spec.firstResidual a.problem ⟨l, some x⟩ s = some (view a.option a.dv.flags R) ∧
      R.length = a.dv.flags.length ∧ (a.system l).rawVector? x = some r ∧ r.length = a.dv.flags.length ∧
      (a.bound = none → (a.system l).rawMatrix? x = some K) ∧
      ∀ i < a.dv.flags.length, R.getD i 0 = r.getD i 0 + s * ∑ j ∈ Finset.range a.dv.flags.length, K.val i j * û j := by
  obtain ⟨-, r, K, -, h1, h2, hK, hKr, hKc⟩ := proper_system h l hx
  have h1' := a.residual_view h.option h1
  unfold Spec.firstResidual
  by_cases hf : a.withForce = true
  · have hi : a.problem.idbc = some ⟨a.addForce, a.sync⟩ := by simp [problem, hf]
    rw [hi]
    show ∃ R' r' K', a.addForce ⟨l, some x⟩ s (a.residual? ⟨l, some x⟩) = _ ∧ _
    have hb : ∃ u : List ℝ, (a.bound.getD ⟨l, some x⟩).x = some u ∧ u.length = a.dv.flags.length := by
      cases hbd : a.bound with
      | none => exact ⟨x, rfl, hx⟩
      | some d => exact h.bound d hbd
    obtain ⟨u, hu, hul⟩ := hb
    obtain ⟨-, -, M, -, -, -, hM, hMr, hMc⟩ := proper_system h (a.bound.getD ⟨l, some x⟩).lam hul
    have hforce := idbc_forces_eq a.dv M a.alive hMr hMc h.alive a.option
    simp only at hforce
    generalize hF : (List.range a.dv.flags.length).map
      (Spec.rowTimes M (Spec.total a.dv.inSub (a.dv.fns.map fun f => f.derivative 1))) = F at hforce
    have hFl : F.length = a.dv.flags.length := by rw [← hF]; simp
    have hforce' : obtainForcesDueToIDBC? (Assembler.create a.dv.flags) M a.dv a.alive a.option =
        some ((view a.option a.dv.flags F).map some) := by
      rw [hforce]
      unfold view
      split <;> rfl
    have hFi : ∀ i < a.dv.flags.length, F.getD i 0 = ∑ j ∈ Finset.range a.dv.flags.length, M.val i j * û j := by
      intro i hi
      rw [← hF]
      simp only [List.getD_eq_getElem?_getD, List.getElem?_map, List.getElem?_range hi, Option.map_some, Option.getD_some]
      unfold Spec.rowTimes
      rw [hMc, ← List.sum_toFinset _ List.nodup_range, List.toFinset_range]
      exact Finset.sum_congr rfl fun j hj => by rw [h.prescribed.deriv j (Finset.mem_range.1 hj)]
    refine ⟨List.zipWith (· + ·) r (F.map fun f => f * s), r, M, ?_, by simp [h2, hFl], h1, h2, fun hb => ?_, fun i hi => ?_⟩
    · unfold addForce
      rw [h1', Option.bind_some, hu, Option.bind_some, hM, Option.bind_some, hforce', Option.bind_some,
        initialised?_map_some, Option.bind_some, view_smul, view_add _ _ _ _ h2 (by simp [hFl])]
    · rw [hb] at hM hu
      obtain rfl : x = u := Option.some.inj hu
      exact hM
    · have : (List.zipWith (· + ·) r (F.map fun f => f * s)).getD i 0 = r.getD i 0 + F.getD i 0 * s := by
        simp only [List.getD_eq_getElem?_getD, List.getElem?_zipWith, List.getElem?_map]
        rw [List.getElem?_eq_getElem (h2 ▸ hi), List.getElem?_eq_getElem (hFl ▸ hi)]; rfl
      rw [this, hFi i hi]; ring
  · have hi : a.problem.idbc = none := by simp [problem, hf]
    rw [hi]
    refine ⟨r, r, K, h1', h2, h1, h2, fun _ => hK, fun i hi => ?_⟩
    have h0 : ∑ j ∈ Finset.range a.dv.flags.length, K.val i j * û j = 0 :=
      Finset.sum_eq_zero fun j hj => by rw [(h.force.resolve_left hf) j (Finset.mem_range.1 hj), mul_zero]
    rw [h0, mul_zero, add_zero]

theorem iterates_proper (h : Spec.Proper a û) (l s : ℝ) {x : List ℝ} (hx : x.length = a.dv.flags.length) (k : Nat) :
    ∃ (y R : List ℝ), Spec.newtonIterates a.problem ⟨l, some x⟩ s (k + 1) =
        (⟨l, some y⟩, some (view a.option a.dv.flags R)) ∧ y.length = a.dv.flags.length ∧ R.length = a.dv.flags.length ∧
      (a.system l).rawVector? y = some R ∧
      ∀ i < a.dv.flags.length, ¬ Spec.Free a.dv.flags i → y.getD i 0 = synced û l i (x.getD i 0) := by
  induction k with
  | zero =>
    obtain ⟨R0, -, -, f1, f2, -⟩ := first_proper h l s hx
    obtain ⟨y, s1, s2, s3⟩ := step_keeps h l hx f2
    obtain ⟨-, R, -, -, r1, r2, -⟩ := proper_system h l s2
    refine ⟨y, R, ?_, s2, r2, r1, s3⟩
    show (Spec.newtonStep a.problem ⟨l, some x⟩ (Spec.firstResidual a.problem ⟨l, some x⟩ s),
      a.residual? (Spec.newtonStep a.problem ⟨l, some x⟩ (Spec.firstResidual a.problem ⟨l, some x⟩ s))) = _
    rw [f1, s1, a.residual_view h.option r1]
  | succ k ih =>
    obtain ⟨y0, R0, i1, i2, i3, i4, i5⟩ := ih
    obtain ⟨y, s1, s2, s3⟩ := step_keeps h l i2 i3
    obtain ⟨-, R, -, -, r1, r2, -⟩ := proper_system h l s2
    refine ⟨y, R, ?_, s2, r2, r1, fun i hi hf => ?_⟩
    · show (Spec.newtonStep a.problem (Spec.newtonIterates a.problem ⟨l, some x⟩ s (k + 1)).1
          (Spec.newtonIterates a.problem ⟨l, some x⟩ s (k + 1)).2,
        a.residual? (Spec.newtonStep a.problem (Spec.newtonIterates a.problem ⟨l, some x⟩ s (k + 1)).1
          (Spec.newtonIterates a.problem ⟨l, some x⟩ s (k + 1)).2)) = _
      rw [i1]
      show (Spec.newtonStep a.problem ⟨l, some y0⟩ (some (view a.option a.dv.flags R0)),
        a.residual? (Spec.newtonStep a.problem ⟨l, some y0⟩ (some (view a.option a.dv.flags R0)))) = _
      rw [s1, a.residual_view h.option r1]
    · rw [s3 i hi hf, i5 i hi hf, synced_idem]

/-- One call of the solver. -/
theorem solve_proper (h : Spec.Proper a û) (hmin : 0 ≤ a.settings.minIter) (hmax : a.settings.minIter ≤ a.settings.maxIter)
    (l s : ℝ) {x : List ℝ} (hx : x.length = a.dv.flags.length) (w : Option (List ℝ)) :
    ∃ (w' : Option (List ℝ)) (y r : List ℝ) (info : SolverInfo ℝ) (k : Nat),
      a.solver.solve w ⟨l, some x⟩ s = (w', ⟨l, some y⟩, info) ∧ info.iterations = k ∧
      y.length = a.dv.flags.length ∧ (a.system l).rawVector? y = some r ∧ r.length = a.dv.flags.length ∧
      (k = 0 → y = x ∧ ∃ K : DMat ℝ, (a.bound = none → (a.system l).rawMatrix? x = some K) ∧
        (info.success = true → Real.sqrt (freeSq a.dv.flags fun i => r.getD i 0 +
          s * ∑ j ∈ Finset.range a.dv.flags.length, K.val i j * û j) ≤ a.settings.tol)) ∧
      (0 < k → (∀ i < a.dv.flags.length, ¬ Spec.Free a.dv.flags i → y.getD i 0 = synced û l i (x.getD i 0)) ∧
        (info.success = true → Real.sqrt (freeSq a.dv.flags (r.getD · 0)) ≤ a.settings.tol)) := by
  obtain ⟨k, ⟨hstop, -⟩, hk, hrun⟩ := newton_run a.problem a.settings ⟨l, some x⟩ s w
  obtain ⟨st, hs, hsx, hsi, hss, -⟩ := hrun (max 0 (max a.settings.maxIter a.settings.minIter)).toNat (by omega)
  have hnorm : st.info.success = true → a.problem.rnorm (Spec.newtonIterates a.problem ⟨l, some x⟩ s k).2 ≤ a.settings.tol := by
    intro h0
    have hne := hss.1 h0
    rcases hstop.2 with h1 | h1
    · omega
    · have h2 : decide (a.problem.rnorm (Spec.newtonIterates a.problem ⟨l, some x⟩ s k).2 > a.settings.tol) = false := h1
      simpa using h2
  have hsolve : a.solver.solve w ⟨l, some x⟩ s = (st.correction, st.x, st.info) := by
    show (match a.problem.solve a.settings _ ⟨l, some x⟩ s w with
      | some s => (s.correction, s.x, s.info)
      | none => (w, _, SolverInfo.default)) = _
    rw [hs]
  cases k with
  | zero =>
    obtain ⟨R, r, K, f1, f2, f3, f4, f5, f6⟩ := first_proper h l s hx
    refine ⟨st.correction, x, r, st.info, 0, ?_, hsi, hx, f3, f4, fun _ => ⟨rfl, K, f5, fun h0 => ?_⟩,
      fun h0 => absurd h0 (lt_irrefl 0)⟩
    · rw [hsolve, hsx]; rfl
    · have h1 : norm (Spec.firstResidual a.problem ⟨l, some x⟩ s) ≤ a.settings.tol := hnorm h0
      rw [f1, norm_view _ _ _ f2] at h1
      rw [freeSq_congr f6] at h1
      exact h1
  | succ k =>
    obtain ⟨y, R, h1, h2, h3, h4, h5⟩ := iterates_proper h l s hx k
    refine ⟨st.correction, y, R, st.info, k + 1, ?_, hsi, h2, h4, h3, fun h0 => by omega, fun _ => ⟨h5, fun h0 => ?_⟩⟩
    · rw [hsolve, hsx, h1]
    · have h7 := hnorm h0
      rw [h1] at h7
      have h7 : norm (some (view a.option a.dv.flags R)) ≤ a.settings.tol := h7
      rw [norm_view _ _ _ h3] at h7
      exact h7

end Analysis

end Ikarus
