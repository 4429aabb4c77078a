import Verif.TrustRegion.StepProps

/-!
Runs of the trust region method whose iterates meet an invariant; the truncated conjugate gradient method stays in a subspace
that matrix and preconditioner keep.
-/

namespace Ikarus

noncomputable section

variable {X V S : Type} [NormedAddCommGroup V] [InnerProductSpace ℝ V]

/-! ### Runs whose iterates meet an invariant -/

open Classical in
/-- The problem with an update that does nothing outside of `I`. -/
def TRProblem.restrict (P : TRProblem X V S) (I : X → Prop) : TRProblem X V S :=
  { P with update := fun x e => if I x then P.update x e else x }

omit [InnerProductSpace ℝ V] in
theorem restrict_undone {P : TRProblem X V S} {I : X → Prop} (h : ∀ x e, I x → I (P.update x e) ∧ P.update (P.update x e) (-e) = x)
    (x : X) (e : V) : (P.restrict I).update ((P.restrict I).update x e) (-e) = x := by
  by_cases hx : I x
  · have h1 : (P.restrict I).update x e = P.update x e := if_pos hx
    have h2 : (P.restrict I).update (P.update x e) (-e) = P.update (P.update x e) (-e) := if_pos (h x e hx).1
    rw [h1, h2, (h x e hx).2]
  · have h1 : ∀ e, (P.restrict I).update x e = x := fun e => if_neg hx
    rw [h1, h1]

theorem trBody_restrict {P : TRProblem X V S} {I : X → Prop}
    (h : ∀ x e, I x → I (P.update x e) ∧ P.update (P.update x e) (-e) = x) (set : TRSettings) (cmpTol : ℝ)
    {s : TRState X V S} (hs : I s.x) :
    trBody (P.restrict I) set cmpTol s = trBody P set cmpTol s ∧ I (trBody P set cmpTol s).x := by
  have hu : ∀ e, (P.restrict I).update s.x e = P.update s.x e := fun e => if_pos hs
  have hu' : ∀ e e', (P.restrict I).update (P.update s.x e) e' = P.update (P.update s.x e) e' := fun e e' => if_pos (h _ _ hs).1
  have hc : trCorrection (P.restrict I) set s = trCorrection P set s := rfl
  refine ⟨?_, ?_⟩
  · unfold trBody trApply
    simp only [hc, hu, hu']
    rfl
  · obtain ⟨-, -, -, -, -, f6, -⟩ := trBody_facts P set cmpTol s
    rw [f6]
    split
    · exact (h _ _ hs).1
    · rw [(h _ _ hs).2]; exact hs

theorem trLoop_restrict {P : TRProblem X V S} {I : X → Prop}
    (h : ∀ x e, I x → I (P.update x e) ∧ P.update (P.update x e) (-e) = x) (set : TRSettings) (cmpTol : ℝ)
    (fuel : Nat) {s : TRState X V S} (hs : I s.x) :
    trLoop (P.restrict I) set cmpTol fuel s = trLoop P set cmpTol fuel s := by
  induction fuel generalizing s with
  | zero => rfl
  | succ n ih =>
    obtain ⟨h1, h2⟩ := trBody_restrict h set cmpTol hs
    unfold trLoop
    rw [h1, ih h2]

theorem trSolve_restrict {P : TRProblem X V S} {I : X → Prop}
    (h : ∀ x e, I x → I (P.update x e) ∧ P.update (P.update x e) (-e) = x) (set : TRSettings) (cmpTol : ℝ)
    (fuel : Nat) (w : S) (st : TCGStopReason) {x : X} (hx : I x) (eta : V) :
    trSolve (P.restrict I) set cmpTol fuel w st x eta = trSolve P set cmpTol fuel w st x eta := by
  unfold trSolve
  have : trStart (P.restrict I) set w st x eta = trStart P set w st x eta := rfl
  rw [this, trLoop_restrict h set cmpTol fuel hx]

/-! ### Conjugate gradients in a subspace -/

theorem tcgLoop_mem (W : Submodule ℝ V) {mat precond : V → V} (hm : ∀ v ∈ W, mat v ∈ W) (hp : ∀ v ∈ W, precond v ∈ W)
    (rhsNorm threshold : ℝ) (info : TCGInfo) (n : Nat) {s : TCGLoop V} (hx : s.x ∈ W) (hr : s.residual ∈ W) (hpp : s.p ∈ W) :
    (tcgLoop mat precond rhsNorm threshold info n s).x ∈ W := by
  induction n generalizing s with
  | zero => exact hx
  | succ n ih =>
    unfold tcgLoop tcgBody
    simp only
    split
    · rename_i h
      split at h
      · injection h with h; subst h
        exact W.add_mem hx (W.smul_mem _ hpp)
      · split at h
        · injection h with h; subst h
          exact W.add_mem hx (W.smul_mem _ hpp)
        · split at h
          · injection h with h; subst h
            exact W.add_mem hx (W.smul_mem _ hpp)
          · cases h
    · rename_i h
      split at h
      · cases h
      · split at h
        · cases h
        · split at h
          · cases h
          · injection h with h; subst h
            have hr' := W.sub_mem hr (W.smul_mem (s.absNew / Inner.inner ℝ s.p (mat s.p)) (hm _ hpp))
            exact ih (W.add_mem hx (W.smul_mem _ hpp)) hr' (W.add_mem (hp _ hr') (W.smul_mem _ hpp))

theorem tcg_mem (W : Submodule ℝ V) {mat precond : V → V} (hm : ∀ v ∈ W, mat v ∈ W) (hp : ∀ v ∈ W, precond v ∈ W)
    {rhs x : V} (hb : rhs ∈ W) (hx : x ∈ W) (maxIters : Nat) (tol tiny : ℝ) (info : TCGInfo) :
    (tcg mat precond rhs x maxIters tol tiny info).1 ∈ W := by
  unfold tcg
  simp only
  have hr : rhs - mat x ∈ W := W.sub_mem hb (hm _ hx)
  split
  · exact W.zero_mem
  · split
    · exact hx
    · exact tcgLoop_mem W hm hp _ _ _ _ hx hr (hp _ hr)

end

end Ikarus
