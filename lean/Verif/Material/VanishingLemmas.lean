import Verif.Material.VanishingModel
import Verif.Solver.NewtonProps
import Verif.LinAlg.Props
import Mathlib.Tactic.FinCases
import Mathlib.Tactic.Linarith

/-!
Lemmas for the vanishing stress and vanishing strain materials.
-/

namespace Ikarus

open Matrix Spec

/-- The component `(a, b)` or `(b, a)` is among the fixed pairs. -/
def Spec.IsFixed {k : Nat} (fixed : Fin k → Fin 3 × Fin 3) (a b : Fin 3) : Prop :=
  ∃ i, fixed i = (a, b) ∨ fixed i = (b, a)

theorem setComp_self (E : M3) (i j : Fin 3) (x : ℝ) : setComp E i j x i j = x := by simp [setComp]

theorem setComp_ne (E : M3) {i j a b : Fin 3} (x : ℝ) (h : ¬ (a = i ∧ b = j)) : setComp E i j x a b = E a b := by
  simp only [setComp, Matrix.of_apply]
  exact if_neg h

theorem setComp2_ne (E : M3) {p : Fin 3 × Fin 3} {a b : Fin 3} (x y : ℝ) (h1 : p ≠ (a, b)) (h2 : p ≠ (b, a)) :
    setComp (setComp E p.2 p.1 x) p.1 p.2 y a b = E a b := by
  rw [setComp_ne _ _ (fun h => h1 (by ext <;> simp [h])), setComp_ne _ _ (fun h => h2 (by ext <;> simp [h]))]

theorem setComp2_eq (E : M3) {p : Fin 3 × Fin 3} {a b : Fin 3} (x : ℝ) (h : p = (a, b) ∨ p = (b, a)) :
    setComp (setComp E p.2 p.1 x) p.1 p.2 x a b = x := by
  rcases h with rfl | rfl
  · exact setComp_self _ _ _ _
  · by_cases h : a = b
    · subst h; exact setComp_self _ _ _ _
    · rw [setComp_ne _ _ (by rintro ⟨rfl, -⟩; exact h rfl)]
      exact setComp_self _ _ _ _

theorem voigt3_diag_inj : ∀ a d : Fin 3, voigt3 d d = voigt3 a a → d = a := by decide

theorem unvoigt3_diag : ∀ d : Fin 3, unvoigt3 (voigt3 d d) = (d, d) := by decide

theorem unvoigt3_diag_iff : ∀ a b : Fin 3, (unvoigt3 (voigt3 a b)).1 = (unvoigt3 (voigt3 a b)).2 → a = b := by
  decide

theorem voigt3_diag_lt : ∀ (x : Fin 6) (d : Fin 3), 3 ≤ x.val → ¬ voigt3 d d = x := by decide

namespace VanishingStress

variable {k : Nat} (law : UnderlyingLaw) (fixed : Fin k → Fin 3 × Fin 3)

open Classical in
/-- The start value of a fixed diagonal strain. -/
noncomputable def startValue (x : ℝ) : ℝ :=
  if (law.strainTag = .deformationGradient ∨ law.strainTag = .rightCauchyGreenTensor) ∧ x = 0 then 1 else x

theorem startValue_idem (x : ℝ) : startValue law (startValue law x) = startValue law x := by
  unfold startValue
  split_ifs <;> rfl

theorem initialValue_diag (a : Fin 3) (E : M3) : initialValue law (a, a) E = startValue law (E a a) := by
  unfold initialValue startValue
  simp only [ne_eq, not_true_eq_false, if_false, and_true]
  split_ifs <;> first | rfl | (exfalso; simp_all)

theorem initialValue_off {p : Fin 3 × Fin 3} (h : p.1 ≠ p.2) (E : M3) : initialValue law p E = 0 := by
  unfold initialValue
  rw [if_pos h]

theorem init_fold (l : List (Fin 3 × Fin 3)) (E : M3) :
    (∀ a b, (∀ p ∈ l, p ≠ (a, b) ∧ p ≠ (b, a)) →
      l.foldl (fun E p => let v := initialValue law p E
        setComp (setComp E p.2 p.1 v) p.1 p.2 v) E a b = E a b) ∧
    (∀ a b, a ≠ b → (E a b = 0 ∨ ∃ p ∈ l, p = (a, b) ∨ p = (b, a)) →
      l.foldl (fun E p => let v := initialValue law p E
        setComp (setComp E p.2 p.1 v) p.1 p.2 v) E a b = 0) ∧
    (∀ a, (E a a = startValue law (E a a) ∨ (a, a) ∈ l) →
      l.foldl (fun E p => let v := initialValue law p E
        setComp (setComp E p.2 p.1 v) p.1 p.2 v) E a a = startValue law (E a a)) := by
  induction l generalizing E with
  | nil =>
    refine ⟨fun _ _ _ => rfl, fun a b _ h => ?_, fun a h => ?_⟩
    · rcases h with h | ⟨p, hp, -⟩
      · exact h
      · cases hp
    · rcases h with h | h
      · exact h
      · cases h
  | cons q l ih =>
    obtain ⟨h1, h2, h3⟩ := ih (setComp (setComp E q.2 q.1 (initialValue law q E)) q.1 q.2 (initialValue law q E))
    refine ⟨fun a b h => ?_, fun a b hab h => ?_, fun a h => ?_⟩
    · rw [List.foldl_cons]
      refine (h1 a b fun p hp => h p (List.mem_cons_of_mem _ hp)).trans ?_
      have := h q List.mem_cons_self
      exact setComp2_ne _ _ _ this.1 this.2
    · rw [List.foldl_cons]
      refine h2 a b hab ?_
      by_cases hq : q = (a, b) ∨ q = (b, a)
      · left
        rw [setComp2_eq _ _ hq, initialValue_off]
        rcases hq with rfl | rfl
        · exact hab
        · exact Ne.symm hab
      · push Not at hq
        rcases h with h | ⟨p, hp, hpe⟩
        · left; rw [setComp2_ne _ _ _ hq.1 hq.2, h]
        · rcases List.mem_cons.1 hp with rfl | hp
          · exact absurd hpe (by push Not; exact hq)
          · exact Or.inr ⟨p, hp, hpe⟩
    · rw [List.foldl_cons]
      by_cases hq : q = (a, a)
      · subst hq
        have hs : setComp (setComp E a a (initialValue law (a, a) E)) a a (initialValue law (a, a) E) a a
            = startValue law (E a a) := by rw [setComp_self, initialValue_diag]
        refine (h3 a (Or.inl ?_)).trans ?_
        · change _ = startValue law (setComp (setComp E a a _) a a _ a a)
          rw [hs, startValue_idem]
        · change startValue law (setComp (setComp E a a _) a a _ a a) = _
          rw [hs, startValue_idem]
      · have hn : setComp (setComp E q.2 q.1 (initialValue law q E)) q.1 q.2 (initialValue law q E) a a = E a a :=
          setComp2_ne _ _ _ hq hq
        refine (h3 a ?_).trans (by rw [hn])
        rw [hn]
        rcases h with h | h
        · exact Or.inl h
        · rcases List.mem_cons.1 h with rfl | h
          · exact absurd rfl hq
          · exact Or.inr h

theorem init_free (E : M3) {a b : Fin 3} (h : ¬ IsFixed fixed a b) : initUnknownStrains law fixed E a b = E a b := by
  refine (init_fold law (List.ofFn fixed) E).1 a b fun p hp => ?_
  obtain ⟨i, rfl⟩ := List.mem_ofFn.1 hp
  exact ⟨fun hh => h ⟨i, Or.inl hh⟩, fun hh => h ⟨i, Or.inr hh⟩⟩

theorem init_shear (E : M3) {a b : Fin 3} (hab : a ≠ b) (h : IsFixed fixed a b) :
    initUnknownStrains law fixed E a b = 0 := by
  refine (init_fold law (List.ofFn fixed) E).2.1 a b hab (Or.inr ?_)
  obtain ⟨i, hi⟩ := h
  exact ⟨fixed i, List.mem_ofFn.2 ⟨i, rfl⟩, hi⟩

theorem init_diag (E : M3) {a : Fin 3} (h : IsFixed fixed a a) :
    initUnknownStrains law fixed E a a = startValue law (E a a) := by
  refine (init_fold law (List.ofFn fixed) E).2.2 a (Or.inr ?_)
  obtain ⟨i, hi⟩ := h
  exact List.mem_ofFn.2 ⟨i, by simpa using hi⟩

/-! ### The fixed diagonal components -/

theorem mem_fixedDiagonal (x : Fin 6) :
    x ∈ fixedDiagonal fixed ↔ ∃ a, x = voigt3 a a ∧ IsFixed fixed a a := by
  unfold fixedDiagonal
  rw [List.mem_filter, List.mem_ofFn, createFixed_mem]
  constructor
  · rintro ⟨⟨j, rfl⟩, h⟩
    have : (fixed j).1 = (fixed j).2 := unvoigt3_diag_iff _ _ (by simpa using h)
    exact ⟨(fixed j).1, by rw [← this], j, Or.inl (by ext <;> simp [this])⟩
  · rintro ⟨a, rfl, i, hi⟩
    have hi : fixed i = (a, a) := by simpa using hi
    refine ⟨⟨i, by rw [hi]⟩, ?_⟩
    rw [unvoigt3_diag]
    simp

theorem get_fixedDiagonal (r : Fin (numDiagonal fixed)) :
    ∃ a, (fixedDiagonal fixed).get r = voigt3 a a ∧ IsFixed fixed a a :=
  (mem_fixedDiagonal fixed _).1 (List.get_mem _ _)

theorem fixedDiagonal_get {a : Fin 3} (h : IsFixed fixed a a) :
    ∃ r, (fixedDiagonal fixed).get r = voigt3 a a :=
  List.get_of_mem ((mem_fixedDiagonal fixed _).2 ⟨a, rfl, h⟩)

theorem countDiagonal_fold (l : List (Fin 3 × Fin 3)) (n : Nat) :
    l.foldl (fun count v => if v.2 = v.1 then count + 1 else count) n
      = n + (l.filter fun v => v.2 = v.1).length := by
  induction l generalizing n with
  | nil => rfl
  | cons v l ih =>
    rw [List.foldl_cons, ih]
    by_cases h : v.2 = v.1
    · rw [if_pos h, List.filter_cons_of_pos (by simpa using h)]; simp; omega
    · rw [if_neg h, List.filter_cons_of_neg (by simpa using h)]

/-- The array `fixedDiagonalVoigtIndices` has exactly the declared size. -/
theorem fixedDiagonal_length : (fixedDiagonal fixed).length = countDiagonalIndices fixed := by
  unfold countDiagonalIndices fixedDiagonal
  rw [countDiagonal_fold, Nat.zero_add]
  have hp := (createFixed_perm fixed).filter (fun i : Fin 6 => decide ((unvoigt3 i).1 = (unvoigt3 i).2))
  rw [hp.length_eq]
  have : (List.ofFn fun i => voigt3 (fixed i).1 (fixed i).2) = (List.ofFn fixed).map fun p => voigt3 p.1 p.2 := by
    rw [List.map_ofFn]; rfl
  rw [this, List.filter_map, List.length_map]
  congr 2
  funext p
  obtain ⟨a, b⟩ := p
  revert a b
  decide

/-! ### The update -/

theorem update_fold (l : List (Fin (numDiagonal fixed))) (E : M3) (c : Fin (numDiagonal fixed) → ℝ) (a b : Fin 3) :
    l.foldl (fun E r =>
      let p := unvoigt3 ((fixedDiagonal fixed).get r)
      setComp E p.1 p.2 (E p.1 p.2 + c r)) E a b
    = E a b + (l.map fun r => if (fixedDiagonal fixed).get r = voigt3 a b ∧ a = b then c r else 0).sum := by
  induction l generalizing E with
  | nil => simp
  | cons r l ih =>
    rw [List.foldl_cons, ih, List.map_cons, List.sum_cons, ← add_assoc]
    congr 1
    obtain ⟨d, hd, -⟩ := get_fixedDiagonal fixed r
    rw [hd]
    have hu := unvoigt3_diag d
    simp only [hu]
    by_cases h : a = d ∧ b = d
    · obtain ⟨rfl, rfl⟩ := h
      rw [setComp_self, if_pos ⟨rfl, rfl⟩]
    · rw [setComp_ne _ _ h, if_neg, add_zero]
      rintro ⟨h1, rfl⟩
      apply h
      have : d = a := voigt3_diag_inj a d h1
      exact ⟨this.symm, this.symm⟩

theorem update_entry (E : M3) (c : Fin (numDiagonal fixed) → ℝ) (a b : Fin 3) :
    updateStrain fixed E c a b
    = E a b + ∑ r, if (fixedDiagonal fixed).get r = voigt3 a b ∧ a = b then c r else 0 := by
  unfold updateStrain
  refine (update_fold fixed _ E c a b).trans ?_
  rw [Fin.sum_univ_def]

theorem update_free (E : M3) (c : Fin (numDiagonal fixed) → ℝ) {a b : Fin 3} (h : a ≠ b ∨ ¬ IsFixed fixed a b) :
    updateStrain fixed E c a b = E a b := by
  rw [update_entry, Finset.sum_eq_zero, add_zero]
  intro r _
  refine if_neg ?_
  rintro ⟨h1, rfl⟩
  obtain ⟨d, hd, hf⟩ := get_fixedDiagonal fixed r
  have : d = a := voigt3_diag_inj a d (by rw [← h1, hd])
  subst this
  rcases h with h | h
  · exact h rfl
  · exact h hf

theorem toVoigt_update (E : M3) (c : Fin (numDiagonal fixed) → ℝ) (x : Fin 6) :
    toVoigt3 (updateStrain fixed E c) true x
      = toVoigt3 E true x + ∑ r, if (fixedDiagonal fixed).get r = x then c r else 0 := by
  have hd : ∀ a : Fin 3, updateStrain fixed E c a a
      = E a a + ∑ r, if (fixedDiagonal fixed).get r = voigt3 a a then c r else 0 := by
    intro a; rw [update_entry]; simp
  have ho : ∀ x : Fin 6, 3 ≤ x.val → ∑ r, (if (fixedDiagonal fixed).get r = x then c r else 0) = 0 := by
    intro x hx
    refine Finset.sum_eq_zero fun r _ => if_neg ?_
    obtain ⟨d, hd, -⟩ := get_fixedDiagonal fixed r
    rw [hd]
    exact voigt3_diag_lt x d hx
  have h12 := update_free fixed E c (a := 1) (b := 2) (Or.inl (by decide))
  have h02 := update_free fixed E c (a := 0) (b := 2) (Or.inl (by decide))
  have h01 := update_free fixed E c (a := 0) (b := 1) (Or.inl (by decide))
  fin_cases x
  · exact hd 0
  · exact hd 1
  · exact hd 2
  · have := ho 3 (by decide)
    change updateStrain fixed E c 1 2 * _ = E 1 2 * _ + ∑ r, (if (fixedDiagonal fixed).get r = 3 then c r else 0)
    rw [this, h12, add_zero]
  · have := ho 4 (by decide)
    change updateStrain fixed E c 0 2 * _ = E 0 2 * _ + ∑ r, (if (fixedDiagonal fixed).get r = 4 then c r else 0)
    rw [this, h02, add_zero]
  · have := ho 5 (by decide)
    change updateStrain fixed E c 0 1 * _ = E 0 1 * _ + ∑ r, (if (fixedDiagonal fixed).get r = 5 then c r else 0)
    rw [this, h01, add_zero]

theorem mulVec_update (C : Matrix (Fin 6) (Fin 6) ℝ) (E : M3) (c : Fin (numDiagonal fixed) → ℝ) (i : Fin 6) :
    (C *ᵥ toVoigt3 (updateStrain fixed E c) true) i
      = (C *ᵥ toVoigt3 E true) i + ∑ r, C i ((fixedDiagonal fixed).get r) * c r := by
  simp only [Matrix.mulVec, dotProduct]
  simp_rw [toVoigt_update fixed E c, mul_add, Finset.sum_add_distrib]
  congr 1
  simp_rw [Finset.mul_sum]
  rw [Finset.sum_comm]
  refine Finset.sum_congr rfl fun r _ => ?_
  simp

theorem euclid_zero {d : Nat} : euclid (0 : Fin d → ℝ) = 0 := by simp [euclid]

theorem abs_le_euclid {d : Nat} (v : Fin d → ℝ) (r : Fin d) : |v r| ≤ euclid v := by
  unfold euclid
  refine Real.abs_le_sqrt ?_
  rw [pow_two]
  exact Finset.single_le_sum (f := fun r => v r * v r) (fun i _ => mul_self_nonneg _) (Finset.mem_univ r)

/-! ### The Newton iteration -/

variable (nfGt : Bool)

theorem run (tol : ℝ) (Eraw : StrainArg) :
    ∃ n : Nat, FirstStop (problem law fixed nfGt) ⟨some tol, 100, 0⟩
        (some (initUnknownStrains law fixed Eraw.maybeFromVoigt)) () n ∧ n ≤ 100 ∧
      reduceStress law fixed nfGt tol Eraw
        = if n = 100 then none
          else some (newtonIterates (problem law fixed nfGt)
            (some (initUnknownStrains law fixed Eraw.maybeFromVoigt)) () n).1 := by
  obtain ⟨n, hn, hb, hrun⟩ := newton_run (problem law fixed nfGt) ⟨some tol, 100, 0⟩
    (some (initUnknownStrains law fixed Eraw.maybeFromVoigt)) () (some 0)
  have hb' : n ≤ 100 := by simp at hb; omega
  obtain ⟨s, hs, hx, -, hsuc, -⟩ := hrun 100 hb'
  refine ⟨n, hn, hb', ?_⟩
  unfold reduceStress
  simp only [hs]
  by_cases h : n = 100
  · have hf : s.info.success = false := by
      cases hh : s.info.success
      · rfl
      · exact absurd (show (n : Int) = 100 by exact_mod_cast h) (hsuc.1 hh)
    rw [if_pos h, hf]; rfl
  · have hf : s.info.success = true := hsuc.2 (show ¬ (n : Int) = 100 by exact_mod_cast h)
    rw [if_neg h, hf, hx]; rfl

theorem iterates_residual (x : Option M3) (n : Nat) :
    (newtonIterates (problem law fixed nfGt) x () n).2
      = (newtonIterates (problem law fixed nfGt) x () n).1.bind (residual law fixed) := by
  cases n with
  | zero => simp [newtonIterates, firstResidual, problem]
  | succ n => simp only [newtonIterates]; rfl

theorem iterates_keep (E0 : M3) (n : Nat) (E : M3)
    (h : (newtonIterates (problem law fixed nfGt) (some E0) () n).1 = some E) (a b : Fin 3)
    (hab : a ≠ b ∨ ¬ IsFixed fixed a b) : E a b = E0 a b := by
  induction n generalizing E with
  | zero =>
    simp only [newtonIterates] at h
    cases h; rfl
  | succ n ih =>
    simp only [newtonIterates, newtonStep, problem] at h
    obtain ⟨E1, h1, h2⟩ := Option.bind_eq_some_iff.1 h
    obtain ⟨c, -, rfl⟩ := Option.map_eq_some_iff.1 h2
    rw [update_free fixed E1 c hab]
    exact ih E1 h1

end VanishingStress

end Ikarus
