import Verif.Analysis.TrustProps
import Verif.Analysis.PathExampleProps

/-!
Two springs, and the first iteration of the trust region method, for the examples of C99.
-/

namespace Ikarus

noncomputable section

open Element Analysis

/-! ### Two springs -/

/-- Two springs between the dofs and the ground, with loads that grow with the load factor. -/
def springElem (k0 k1 f0 f1 : ℝ) : ParamElem where
  n := 2
  d := 1
  children := [.leaf [0, 1]]
  index := [0, 1]
  skills := [fun _ => .linearElastic !![(1 : ℝ)] [⟨k0, 1, ![!![1], !![0]]⟩, ⟨k1, 1, ![!![0], !![1]]⟩],
    fun l => .volumeLoad (some fun _ l => ![l]) [⟨![0], 1, 1, ![f0, f1]⟩] l]

/-- `c0` and `c1` tell which of the dofs are constrained, `fns` are the functions of the prescribed displacements. -/
def springs (o : DBCOption) (c0 c1 : Bool) (fns : List (StoredFn ℝ)) (k0 k1 f0 f1 : ℝ) : Analysis where
  dv := ⟨[c0, c1], 0, fns, fun _ => true⟩
  alive := fun _ => true
  elems := [springElem k0 k1 f0 f1]
  option := o
  bound := none
  linSolve := Spec.inverseSolve
  settings := { tol := 1 / 1000, minIter := 1, maxIter := 20 }
  withForce := false

theorem springs_linear {k0 k1 f0 f1 : ℝ} (h0 : 0 ≤ k0) (h1 : 0 ≤ k1) : Spec.LinearElems 2 [springElem k0 k1 f0 f1] := by
  intro e he
  obtain rfl := List.mem_singleton.1 he
  refine ⟨⟨rfl, rfl, [0, 1], ?_, by simp⟩, fun (s : ℝ → Skill 2 1) hs => ?_⟩
  · simp [Elem.dofs?, ParamElem.at, springElem, FETree.globalIndices, FETree.firstIsLeaf, FETree.powerNodeIndices,
      FETree.leafSize?, FETree.childIndex?, FETree.leafIndex?, mapOpt, List.range, List.range.loop]
  · rcases List.mem_cons.1 hs with rfl | hs
    · refine linearElastic_linear _ ?_ ?_ _ ?_
      · ext a b; fin_cases a; fin_cases b; rfl
      · have : !![(1 : ℝ)] = Matrix.diagonal fun _ => 1 := by ext i j; fin_cases i; fin_cases j; rfl
        rw [this]
        exact Matrix.PosSemidef.diagonal fun _ => by norm_num
      · intro gp hgp
        rcases List.mem_cons.1 hgp with rfl | hgp
        · simpa using h0
        · obtain rfl := List.mem_singleton.1 hgp
          simpa using h1
    rcases List.mem_cons.1 hs with rfl | hs
    · exact volumeLoad_linear _ _
    · exact absurd hs List.not_mem_nil

section
variable {o : DBCOption} {c0 c1 : Bool} {fns : List (StoredFn ℝ)} {k0 k1 f0 f1 : ℝ}

theorem springs_proper (ho : o ≠ .raw) (h0 : 0 ≤ k0) (h1 : 0 ≤ k1) :
    Spec.TrustProper (springs o c0 c1 fns k0 k1 f0 f1) := by
  refine ⟨ho, fun e he l => ?_⟩
  have h := springs_linear (f0 := f0) (f1 := f1) h0 h1 e he
  exact ⟨h.1, fun s hs => linear_total (h.2 s hs) l⟩

theorem springElem_local (l a b : ℝ) :
    Elem.local? ((springElem k0 k1 f0 f1).at l) [a, b] = some (fun I _ => ![a, b] I : NodeVec 2 1) := by
  have : FETree.localSolution 1 [a, b] [0, 1] (.power [.leaf [0, 1]]) none = some [[a], [b]] := rfl
  unfold Elem.local?
  show (FETree.localSolution 1 [a, b] [0, 1] (.power [.leaf [0, 1]]) none).map Elem.nodes = _
  rw [this, Option.map_some]
  congr 1
  funext I c
  fin_cases I <;> fin_cases c <;> rfl

theorem springs_energy (l a b : ℝ) : ((springs o c0 c1 fns k0 k1 f0 f1).system l).scalar? [a, b] =
    some (1 / 2 * (k0 * a ^ 2 + k1 * b ^ 2) - l * (f0 * a + f1 * b)) := by
  show ((mapOpt (·.scalar? [a, b]) [(springElem k0 k1 f0 f1).at l]).map fun fes => Assembler.getScalar fes 0) = _
  have : ((springElem k0 k1 f0 f1).at l).scalar? [a, b] =
      some (1 / 2 * (k0 * a ^ 2 + k1 * b ^ 2) - l * (f0 * a + f1 * b)) := by
    unfold Elem.scalar?
    rw [springElem_local]
    show Mixin.calculateScalar (fun I _ => ![a, b] I : NodeVec 2 1)
      [.linearElastic !![(1 : ℝ)] [⟨k0, 1, ![!![1], !![0]]⟩, ⟨k1, 1, ![!![0], !![1]]⟩],
      .volumeLoad (some fun _ l => ![l]) [⟨![0], 1, 1, ![f0, f1]⟩] l] = _
    have h1 : LinearElastic.calculateScalar false !![(1 : ℝ)] [⟨k0, 1, ![!![1], !![0]]⟩, ⟨k1, 1, ![!![0], !![1]]⟩]
        (fun I _ => ![a, b] I : NodeVec 2 1) = 1 / 2 * (k0 * a ^ 2 + k1 * b ^ 2) := by
      simp [LinearElastic.calculateScalar, LinearElastic.internalEnergy, LinPoint.strain, dotProduct, Fin.sum_univ_two]
      ring
    have h2 : VolumeLoad.calculateScalar (some fun _ l => ![l]) [⟨![0], 1, 1, ![f0, f1]⟩] l
        (fun I _ => ![a, b] I : NodeVec 2 1) = -(l * (f0 * a + f1 * b)) := by
      simp [VolumeLoad.calculateScalar_sum, LoadPoint.displacement, dotProduct, Fin.sum_univ_two]
      ring
    simp only [Mixin.calculateScalar, Skill.linearElastic, Skill.volumeLoad, h1, h2, Option.bind_some, Option.map_some]
    congr 1; ring
  simp [mapOpt, this, Assembler.getScalar, Assembler.getScalarLoop]

theorem springs_raw (h0 : 0 ≤ k0) (h1 : 0 ≤ k1) (l a b : ℝ) :
    ((springs o c0 c1 fns k0 k1 f0 f1).system l).rawVector? [a, b] = some [k0 * a - l * f0, k1 * b - l * f1] ∧
    ∃ K : DMat ℝ, ((springs o c0 c1 fns k0 k1 f0 f1).system l).rawMatrix? [a, b] = some K ∧
      K.val 0 0 = k0 ∧ K.val 0 1 = 0 ∧ K.val 1 0 = 0 ∧ K.val 1 1 = k1 := by
  obtain ⟨K, e, g, hA⟩ := linear_system [c0, c1] [springElem k0 k1 f0 f1] (springs_linear h0 h1)
  have hA : AffineSystem (springs o c0 c1 fns k0 k1 f0 f1).system 2 K e g := hA
  have hs : ∀ a b : ℝ, 1 / 2 * (k0 * a ^ 2 + k1 * b ^ 2) - l * (f0 * a + f1 * b) = e l + (g l 0 * a + g l 1 * b) +
      1 / 2 * (a * K.val 0 0 * a + a * K.val 0 1 * b + (b * K.val 1 0 * a + b * K.val 1 1 * b)) := by
    intro a b
    have h1 := hA.scalar l [a, b] rfl
    rw [springs_energy] at h1
    have h1 := Option.some.inj h1
    simpa [bil, Finset.sum_range_succ] using h1
  have hsym : K.val 0 1 = K.val 1 0 := by
    have := hA.symm (fun i => if i = 0 then 1 else 0) (fun i => if i = 1 then 1 else 0)
    simpa [bil, Finset.sum_range_succ] using this
  have h00 := hs 0 0
  have h10 := hs 1 0
  have h20 := hs (-1) 0
  have h01 := hs 0 1
  have h02 := hs 0 (-1)
  have h11 := hs 1 1
  have e0 : e l = 0 := by linarith
  have g0 : g l 0 = -(l * f0) := by linarith
  have g1 : g l 1 = -(l * f1) := by linarith
  have k00 : K.val 0 0 = k0 := by linarith
  have k11 : K.val 1 1 = k1 := by linarith
  have k01 : K.val 0 1 = 0 := by linarith
  have k10 : K.val 1 0 = 0 := by linarith
  refine ⟨?_, K, hA.matrix l [a, b] rfl, k00, k01, k10, k11⟩
  obtain ⟨r, r1, r2, r3⟩ := hA.vector l [a, b] rfl
  rw [r1]
  obtain ⟨p, q, rfl⟩ := List.length_eq_two.1 r2
  have hp := r3 0 (by norm_num)
  have hq := r3 1 (by norm_num)
  simp only [List.getD_cons_zero, List.getD_cons_succ, Finset.sum_range_succ, Finset.sum_range_zero, zero_add] at hp hq
  rw [hp, hq, g0, g1, k00, k01, k10, k11]
  congr 2
  · ring
  · congr 1; ring

end

/-! ### Vectors with two entries -/

theorem two_norm_sq (p q : ℝ) : ‖(!₂[p, q] : TRVec 2)‖ ^ 2 = p ^ 2 + q ^ 2 := by
  rw [EuclideanSpace.norm_sq_eq]
  simp [Fin.sum_univ_two]

theorem two_norm (p q : ℝ) : ‖(!₂[p, q] : TRVec 2)‖ = Real.sqrt (p ^ 2 + q ^ 2) := by
  rw [← two_norm_sq, Real.sqrt_sq (norm_nonneg _)]

theorem two_inner (p q r s : ℝ) : Inner.inner ℝ (!₂[p, q] : TRVec 2) !₂[r, s] = p * r + q * s := by
  rw [PiLp.inner_apply]
  simp [Fin.sum_univ_two, mul_comm]

theorem two_add (p q r s : ℝ) : (!₂[p, q] : TRVec 2) + !₂[r, s] = !₂[p + r, q + s] := by
  ext i; fin_cases i <;> rfl

theorem two_sub (p q r s : ℝ) : (!₂[p, q] : TRVec 2) - !₂[r, s] = !₂[p - r, q - s] := by
  ext i; fin_cases i <;> rfl

theorem two_smul' (t p q : ℝ) : t • (!₂[p, q] : TRVec 2) = !₂[t * p, t * q] := by
  ext i; fin_cases i <;> rfl

theorem two_neg (p q : ℝ) : -(!₂[p, q] : TRVec 2) = !₂[-p, -q] := by
  ext i; fin_cases i <;> rfl

theorem two_zero : (0 : TRVec 2) = !₂[0, 0] := by
  ext i; fin_cases i <;> rfl

/-- The product with a diagonal matrix. -/
def scaleTwo (s t : ℝ) (v : TRVec 2) : TRVec 2 := !₂[s * v 0, t * v 1]

theorem scaleTwo_apply (s t p q : ℝ) : scaleTwo s t !₂[p, q] = !₂[s * p, t * q] := rfl

theorem scaleTwo_transposed (s t : ℝ) : TRVec.transposed (scaleTwo s t) = scaleTwo s t := by
  funext v
  ext i
  fin_cases i <;> simp [TRVec.transposed, TRVec.entry, scaleTwo, Fin.sum_univ_two]

section
variable {c0 c1 : Bool} {fns : List (StoredFn ℝ)} {k0 k1 f0 f1 : ℝ}

/-- The gradient, Hessian, update and energy of the springs with Full. -/
theorem springs_problem (h0 : 0 ≤ k0) (h1 : 0 ≤ k1) (c : TrustConfig 2) (l a b : ℝ) :
    let P : TRProblem (Dom ℝ (Option (List ℝ))) (TRVec 2) (TCGInfo × Nat) :=
      (springs .full c0 c1 fns k0 k1 f0 f1).trProblem c
    P.grad ⟨l, some [a, b]⟩ = !₂[if c0 then 0 else k0 * a - l * f0, if c1 then 0 else k1 * b - l * f1] ∧
    P.hess ⟨l, some [a, b]⟩ = scaleTwo (if c0 then 1 else k0) (if c1 then 1 else k1) ∧
    P.energy ⟨l, some [a, b]⟩ = some (1 / 2 * (k0 * a ^ 2 + k1 * b ^ 2) - l * (f0 * a + f1 * b)) ∧
    ∀ p q : ℝ, P.update ⟨l, some [a, b]⟩ !₂[p, q] = ⟨l, some [a + p, b + q]⟩ := by
  intro P
  obtain ⟨r1, K, r2, k00, k01, k10, k11⟩ := springs_raw (o := .full) (c0 := c0) (c1 := c1) (fns := fns) (f0 := f0) (f1 := f1)
    h0 h1 l a b
  have hp := springs_proper (o := .full) (c0 := c0) (c1 := c1) (fns := fns) (f0 := f0) (f1 := f1) (by simp) h0 h1
  refine ⟨?_, ?_, springs_energy (o := .full) (c0 := c0) (c1 := c1) (fns := fns) l a b, fun p q => ?_⟩
  · refine (trust_grad hp c r1 rfl).1.trans ?_
    show TRVec.ofList 2 (view .full [c0, c1] _) = _
    ext i
    rw [TRVec.ofList_apply]
    cases c0 <;> cases c1 <;> fin_cases i <;> simp [view, Spec.mask]
  · unfold System.rawMatrix? at r2
    obtain ⟨fes, e1, e2⟩ := Option.bind_eq_some_iff.1 r2
    obtain ⟨A, hA, -, -, hAv⟩ := fullMatrix_eq [c0, c1] fes K e2
    have hJ : (springs .full c0 c1 fns k0 k1 f0 f1).jacobian? ⟨l, some [a, b]⟩ = some A := by
      show ((springs .full c0 c1 fns k0 k1 f0 f1).system l).fullMatrix? [a, b] = _
      unfold System.fullMatrix?
      rw [e1, Option.bind_some]; exact hA
    show TRVec.mul (((springs .full c0 c1 fns k0 k1 f0 f1).jacobian? ⟨l, some [a, b]⟩).getD _) = _
    rw [hJ, Option.getD_some]
    funext v
    have a00 := hAv 0 0 (by simp) (by simp)
    have a01 := hAv 0 1 (by simp) (by simp)
    have a10 := hAv 1 0 (by simp) (by simp)
    have a11 := hAv 1 1 (by simp) (by simp)
    rw [k00] at a00
    rw [k01] at a01
    rw [k10] at a10
    rw [k11] at a11
    have hz : (if Spec.Free [c0, c1] 0 ∧ Spec.Free [c0, c1] 1 then (0 : ℝ) else 0) = 0 := by split <;> rfl
    ext i
    rw [TRVec.mul_apply, Fin.sum_univ_two]
    fin_cases i <;> simp only [scaleTwo, Fin.isValue, Fin.zero_eta, Fin.mk_one, Fin.val_zero, Fin.val_one]
    · rw [a00, a01]
      cases c0 <;> cases c1 <;> simp [Spec.Free]
    · rw [a10, a11]
      cases c0 <;> cases c1 <;> simp [Spec.Free]
  · obtain ⟨v, u1, u2, u3⟩ := trust_update hp c l (u := [a, b]) rfl (!₂[p, q] : TRVec 2)
    refine u1.trans ?_
    obtain ⟨x, y, rfl⟩ := List.length_eq_two.1 u2
    have hx := u3 0 (by simp [springs])
    have hy := u3 1 (by simp [springs])
    have e0 : (TRVec.toList (m := 2) !₂[p, q]).getD 0 0 = p := TRVec.toList_getD (!₂[p, q] : TRVec 2) 0
    have e1 : (TRVec.toList (m := 2) !₂[p, q]).getD 1 0 = q := TRVec.toList_getD (!₂[p, q] : TRVec 2) 1
    have hx : x = a + p := by
      refine hx.trans ?_
      show a + (TRVec.toList (m := 2) !₂[p, q]).getD 0 0 = _
      rw [e0]
    have hy : y = b + q := by
      refine hy.trans ?_
      show b + (TRVec.toList (m := 2) !₂[p, q]).getD 1 0 = _
      rw [e1]
    rw [hx, hy]

end

/-! ### One iteration -/

/-- The first iteration of the conjugate gradients, if it ends by the residual. -/
theorem tcg_first {V : Type} [NormedAddCommGroup V] [InnerProductSpace ℝ V] (mat precond : V → V) (rhs x : V) (n : Nat)
    (tol tiny : ℝ) (info : TCGInfo) (hr : tiny < ‖rhs‖)
    (ht : max (tol * tol * ‖rhs‖ * ‖rhs‖) tiny ≤ ‖rhs - mat x‖ * ‖rhs - mat x‖)
    (p : V) (hp : p = precond (rhs - mat x)) (alpha : ℝ)
    (ha : alpha = Inner.inner ℝ (rhs - mat x) p / Inner.inner ℝ p (mat p)) (hc : 0 < Inner.inner ℝ p (mat p))
    (hD : ‖x‖ ^ 2 + alpha * alpha * Inner.inner ℝ (rhs - mat x) p < info.Delta * info.Delta) (hm : info.mininner ≤ 1)
    (he : ‖rhs - mat x - alpha • mat p‖ ≤ ‖rhs‖ * min ‖rhs‖ info.kappa) :
    (tcg mat precond rhs x (n + 2) tol tiny info).1 = x + alpha • p := by
  unfold tcg
  simp only
  rw [if_neg (not_le.2 hr), if_neg (not_lt.2 ht)]
  show (tcgLoop mat precond _ _ info (n + 1) _).x = _
  unfold tcgLoop tcgBody tcgStart
  simp only [← hp]
  rw [← ha, if_neg, if_pos]
  · refine ⟨by push_cast; exact_mod_cast hm, he⟩
  · rintro (h | h)
    · exact absurd h (not_le.2 hc)
    · simp only [mul_zero, add_zero] at h
      exact absurd h (not_le.2 hD)

section
variable {X V S : Type} [NormedAddCommGroup V] [InnerProductSpace ℝ V]

/-- A run that ends after the first iteration. -/
theorem tr_first_ends (P : TRProblem X V S) (set : TRSettings) (cmpTol : ℝ) (fuel : Nat) (w : S) (st : TCGStopReason) (x : X)
    (eta : V) (hmax : 0 < set.maxIter) (htime : set.maxtime = none)
    (h : ‖P.grad (trBody P set cmpTol (trStart P set w st x eta)).x‖ < set.grad_tol ∨
      ‖(trCorrection P set (trStart P set w st x eta)).2.1‖ < set.corr_tol) :
    ∃ s, trSolve P set cmpTol (fuel + 1) w st x eta = some s ∧ s.x = (trBody P set cmpTol (trStart P set w st x eta)).x ∧
      s.info.success = true ∧ s.info.iterations = 1 ∧
      s.inner = (trBody P set cmpTol (trStart P set w st x eta)).inner := by
  obtain ⟨-, -, -, f4, f5, -, -, -, -, f10, -⟩ := trBody_facts P set cmpTol (trStart P set w st x eta)
  rw [← f10, ← f5] at h
  have h0 : stoppingCriterion set (trStart P set w st x eta) = none := by
    unfold stoppingCriterion timeReached
    rw [htime]
    simp only [trStart, ne_eq, not_true_eq_false, and_false, if_false, Bool.false_eq_true]
    exact if_neg (by simpa using hmax)
  have h1 : ∃ r, stoppingCriterion set (trBody P set cmpTol (trStart P set w st x eta)) = some r ∧
      (r = .correctionNormTolReached ∨ r = .gradientNormTolReached) := by
    have h4 : (trBody P set cmpTol (trStart P set w st x eta)).outerIter ≠ 0 := by
      have : (trBody P set cmpTol (trStart P set w st x eta)).outerIter = 0 + 1 := f4
      omega
    unfold stoppingCriterion
    by_cases hg : (trBody P set cmpTol (trStart P set w st x eta)).gradNorm < set.grad_tol
    · exact ⟨_, if_pos ⟨hg, h4⟩, Or.inr rfl⟩
    · rw [if_neg (fun hh => hg hh.1), if_pos ⟨h.resolve_left hg, h4⟩]
      exact ⟨_, rfl, Or.inl rfl⟩
  obtain ⟨r, h2, h3⟩ := h1
  have hl : trLoop P set cmpTol (fuel + 1) (trStart P set w st x eta) =
      some { trBody P set cmpTol (trStart P set w st x eta) with stop := r } := by
    unfold trLoop
    rw [h0]
    simp only
    cases fuel <;> unfold trLoop <;> rw [h2]
  have f4 : (trBody P set cmpTol (trStart P set w st x eta)).outerIter = 1 := f4
  unfold trSolve
  rw [hl, Option.map_some]
  refine ⟨_, rfl, ?_⟩
  unfold trFinish
  rcases h3 with rfl | rfl <;> simp [f4]

end

end

end Ikarus
