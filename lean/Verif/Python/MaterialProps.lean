import Verif.Python.MaterialModel
import Verif.Material.LameProps
import Verif.Material.ConversionProps
import Mathlib.Tactic.NormNum

/-!
C86: materials are constructed in Python with the constants and options they are given.
C87: strains are converted and materials evaluated in Python for the measure that is named.
-/

namespace Ikarus

namespace Python

open Matrix

noncomputable section

/-! ### C86: constants -/

/-- Specification: the names of the constants in Python. -/
def Spec.constant (E nu lambda mu K : ℝ) : String → Option ℝ
  | "E" => some E
  | "nu" => some nu
  | "Lambda" => some lambda
  | "mu" => some mu
  | "K" => some K
  | _ => none

/-- Specification: the pairs of constants a material can be constructed from. -/
def Spec.supported : List (String × String) :=
  [("E", "nu"), ("E", "mu"), ("E", "K"), ("E", "Lambda"), ("K", "Lambda"), ("Lambda", "mu")]

/-- Specification: the names are a supported pair, in either order. -/
def Spec.Supported (a b : String) : Prop := (a, b) ∈ Spec.supported ∨ (b, a) ∈ Spec.supported

theorem contains_pair (a b n : String) (x y : Value) :
    Kwargs.contains [(a, x), (b, y)] n = (a == n || b == n) := by
  simp [Kwargs.contains]

theorem double_first (a b : String) (x y : Value) :
    Kwargs.double [(a, x), (b, y)] a = Kwargs.double [(a, x)] a := by
  simp [Kwargs.double, Kwargs.get, List.lookup]

theorem double_second (a b : String) (x y : Value) (h : a ≠ b) :
    Kwargs.double [(a, x), (b, y)] b = Kwargs.double [(b, y)] b := by
  have : (b == a) = false := by simpa using h.symm
  simp [Kwargs.double, Kwargs.get, List.lookup, this]

theorem double_number (a : String) (x : ℝ) : Kwargs.double [(a, .number x)] a = some x := by
  simp [Kwargs.double, Kwargs.get, List.lookup]

/-- The search finds the entry of a supported pair, and it is the only entry whose names are both given. -/
theorem search_pair (eps : ℝ) (kw : Kwargs) (a b : String) (hab : a ≠ b)
    (hkw : ∀ n, kw.contains n = (a == n || b == n)) :
    (∀ e ∈ conversionMap, (e.1 = (a, b) ∨ e.1 = (b, a)) →
      extractMaterialParameters eps kw = if kw.length ≠ 2 then .raised else callConverter eps kw e) ∧
    (¬ Spec.Supported a b → extractMaterialParameters eps kw = .raised) := by
  constructor
  · intro e he h
    unfold extractMaterialParameters
    by_cases hl : kw.length ≠ 2
    · rw [if_pos hl, if_pos hl]
    rw [if_neg hl, if_neg hl]
    simp only [conversionMap, List.mem_cons, List.not_mem_nil, or_false] at he
    rcases he with rfl | rfl | rfl | rfl | rfl | rfl <;>
      rcases h with h | h <;> obtain ⟨rfl, rfl⟩ := Prod.mk.inj h <;>
      simp [conversionMap, searchMap, hkw]
  · intro h
    unfold extractMaterialParameters
    by_cases hl : kw.length ≠ 2
    · rw [if_pos hl]
    rw [if_neg hl]
    have key : ∀ p ∈ Spec.supported, (kw.contains p.1 && kw.contains p.2) = false := by
      intro p hp
      rw [hkw, hkw]
      by_contra hc
      rw [Bool.not_eq_false, Bool.and_eq_true, Bool.or_eq_true, Bool.or_eq_true, beq_iff_eq, beq_iff_eq,
        beq_iff_eq, beq_iff_eq] at hc
      have hne : p.1 ≠ p.2 := by
        clear hc
        revert p hp
        decide
      obtain ⟨h1 | h1, h2 | h2⟩ := hc
      · exact hne (h1 ▸ h2)
      · exact h (Or.inl (by rw [h1, h2]; exact hp))
      · exact h (Or.inr (by rw [h1, h2]; exact hp))
      · exact hne (h1 ▸ h2)
    have k1 := key ("E", "nu") (by decide)
    have k2 := key ("E", "mu") (by decide)
    have k3 := key ("E", "K") (by decide)
    have k4 := key ("E", "Lambda") (by decide)
    have k5 := key ("K", "Lambda") (by decide)
    have k6 := key ("Lambda", "mu") (by decide)
    simp only at k1 k2 k3 k4 k5 k6
    simp [conversionMap, searchMap, k1, k2, k3, k4, k5, k6]

/-- C86. A material of Python that is constructed from two constants of an isotropic material, in any order,
has the Lamé constants of that material, if the pair is one of the six supported ones; and an exception is
thrown for every other pair. (`eps` is the tolerance of `Dune::FloatCmp`.) -/
theorem py_parameters {E nu lambda mu K M : ℝ} (h : Spec.Isotropic E nu lambda mu K M) (eps : ℝ)
    (he : ¬ floatCmpEq eps nu (1 / 2)) (a b : String) (hab : a ≠ b) (x y : ℝ)
    (hx : Spec.constant E nu lambda mu K a = some x) (hy : Spec.constant E nu lambda mu K b = some y) :
    (Spec.Supported a b → extractMaterialParameters eps [(a, .number x), (b, .number y)]
      = .ok ⟨some lambda, some mu⟩) ∧
    (¬ Spec.Supported a b → extractMaterialParameters eps [(a, .number x), (b, .number y)] = .raised) := by
  have hs := search_pair eps [(a, .number x), (b, .number y)] a b hab
    (fun n => contains_pair a b n _ _)
  refine ⟨fun hsup => ?_, hs.2⟩
  have hconv : ∀ p, Spec.Describes E nu lambda mu K p → convert eps p = ⟨some lambda, some mu⟩ := by
    intro p hp
    obtain ⟨-, -, h3, -, -, h6⟩ := lame_conversions h p hp
    unfold convert
    rw [h3, (h6 eps).1 he]
  have hin : ∃ e ∈ conversionMap, (e.1 = (a, b) ∨ e.1 = (b, a)) := by
    rcases hsup with hm | hm <;>
      simp only [Spec.supported, List.mem_cons, List.not_mem_nil, or_false] at hm <;>
      rcases hm with hm | hm | hm | hm | hm | hm <;> obtain ⟨rfl, rfl⟩ := Prod.mk.inj hm <;>
      simp [conversionMap]
  obtain ⟨e, hmem, hpair⟩ := hin
  rw [hs.1 e hmem hpair, if_neg (by simp)]
  have da := (double_first a b (.number x) (.number y)).trans (double_number a x)
  have db := (double_second a b (.number x) (.number y) hab).trans (double_number b y)
  simp only [conversionMap, List.mem_cons, List.not_mem_nil, or_false] at hmem
  rcases hmem with rfl | rfl | rfl | rfl | rfl | rfl <;>
    rcases hpair with hp | hp <;> obtain ⟨rfl, rfl⟩ := Prod.mk.inj hp <;>
    simp only [Spec.constant, Option.some.injEq] at hx hy <;> subst hx <;> subst hy <;>
    unfold callConverter <;> rw [da, db] <;> simp only [] <;> rw [hconv _ (by constructor)]

/-- Specification: the number that Python reads an object as. -/
def Spec.asNumber : Value → Option ℝ
  | .number x => some x
  | .flag true => some 1
  | .flag false => some 0
  | .numbers _ => none

theorem double_value (a : String) (v : Value) : Kwargs.double [(a, v)] a = Spec.asNumber v := by
  cases v with
  | flag b => cases b <;> simp [Kwargs.double, Kwargs.get, List.lookup, Spec.asNumber]
  | _ => simp [Kwargs.double, Kwargs.get, List.lookup, Spec.asNumber]

/-- C86. `True` and `False` are taken for one and zero, whatever the pair of names, and lists raise an exception. -/
theorem py_parameters_objects (eps : ℝ) (a b : String) (hab : a ≠ b) (v w : Value) :
    (∀ x y, Spec.asNumber v = some x → Spec.asNumber w = some y →
      extractMaterialParameters eps [(a, v), (b, w)] = extractMaterialParameters eps [(a, .number x), (b, .number y)]) ∧
    (Spec.asNumber v = none ∨ Spec.asNumber w = none → extractMaterialParameters eps [(a, v), (b, w)] = .raised) := by
  have hs := fun v w => search_pair eps [(a, v), (b, w)] a b hab (fun n => contains_pair a b n v w)
  have da := fun v w => (double_first a b v w).trans (double_value a v)
  have db := fun v w => (double_second a b v w hab).trans (double_value b w)
  by_cases hsup : Spec.Supported a b
  · have hin : ∃ e ∈ conversionMap, (e.1 = (a, b) ∨ e.1 = (b, a)) := by
      rcases hsup with hm | hm <;>
        simp only [Spec.supported, List.mem_cons, List.not_mem_nil, or_false] at hm <;>
        rcases hm with hm | hm | hm | hm | hm | hm <;> obtain ⟨rfl, rfl⟩ := Prod.mk.inj hm <;>
        simp [conversionMap]
    obtain ⟨e, hmem, hpair⟩ := hin
    refine ⟨fun x y hx hy => ?_, fun hn => ?_⟩
    · rw [(hs v w).1 e hmem hpair, (hs (.number x) (.number y)).1 e hmem hpair, if_neg (by simp), if_neg (by simp)]
      unfold callConverter
      rcases hpair with hp | hp <;> rw [hp] <;>
        simp only [da, db, hx, hy, show ∀ z, Spec.asNumber (.number z) = some z from fun _ => rfl]
    · rw [(hs v w).1 e hmem hpair, if_neg (by simp)]
      unfold callConverter
      rcases hpair with hp | hp <;> rw [hp] <;> simp only [da, db] <;> rcases hn with hn | hn <;> rw [hn] <;> simp
  · exact ⟨fun x y _ _ => by rw [(hs v w).2 hsup, (hs _ _).2 hsup], fun _ => (hs v w).2 hsup⟩

example : extractMaterialParameters (1 / 10 ^ 15) [("E", .number 4), ("nu", .flag false)] = .ok ⟨some 0, some 2⟩ := by
  rw [(py_parameters_objects _ "E" "nu" (by decide) (.number 4) (.flag false)).1 4 0 rfl rfl]
  exact (py_parameters (E := 4) (nu := 0) (lambda := 0) (mu := 2) (K := 4 / 3) (M := 4)
    (by constructor <;> norm_num) _ (by unfold floatCmpEq; norm_num [abs_of_pos, abs_of_neg])
    "E" "nu" (by decide) _ _ rfl rfl).1 (Or.inl (by decide))

/-- C86. A number of parameters other than two is rejected. -/
theorem py_parameters_count (eps : ℝ) (kw : Kwargs) (h : kw.length ≠ 2) :
    extractMaterialParameters eps kw = .raised := by
  unfold extractMaterialParameters
  rw [if_pos h]

/-- The same constants reach the isotropic materials of muesli. -/
theorem py_muesli_parameters {E nu lambda mu K M : ℝ} (h : Spec.Isotropic E nu lambda mu K M) (eps : ℝ)
    (he : ¬ floatCmpEq eps nu (1 / 2)) (a b : String) (hab : a ≠ b) (x y : ℝ)
    (hx : Spec.constant E nu lambda mu K a = some x) (hy : Spec.constant E nu lambda mu K b = some y)
    (hs : Spec.Supported a b) :
    pyMuesliIsotropic eps [(a, .number x), (b, .number y)] = .ok [("lambda", some lambda), ("mu", some mu)] := by
  unfold pyMuesliIsotropic
  rw [(py_parameters h eps he a b hab x y hx hy).1 hs]

example : extractMaterialParameters (1 / 10 ^ 15) [("K", .number (10 / 3)), ("E", .number 5)]
    = .ok ⟨some 2, some 2⟩ :=
  (py_parameters (E := 5) (nu := 1 / 4) (lambda := 2) (mu := 2) (K := 10 / 3) (M := 6)
    (by constructor <;> norm_num) _ (by unfold floatCmpEq; norm_num [abs_of_pos, abs_of_neg])
    "K" "E" (by decide) _ _ rfl rfl).1 (Or.inr (by decide))

/-- Specification: the pairs the error message names as valid are accepted. -/
def Spec.MessageTruthful : Prop :=
  ∀ (E nu lambda mu K M eps : ℝ), Spec.Isotropic E nu lambda mu K M → ¬ floatCmpEq eps nu (1 / 2) →
    ∀ a b, (a, b) ∈ advertised → ∀ x y, Spec.constant E nu lambda mu K a = some x →
      Spec.constant E nu lambda mu K b = some y →
      extractMaterialParameters eps [(a, .number x), (b, .number y)] ≠ .raised

/-- C86. The message names the pair `(Lambda, nu)` as valid, and is itself the answer to that pair. (The pair
`(Lambda, mu)`, which is accepted, is not named.) -/
theorem message_not_truthful : ¬ Spec.MessageTruthful := by
  intro h
  have hiso : Spec.Isotropic 5 (1 / 4) 2 2 (10 / 3) 6 := by constructor <;> norm_num
  have heps : ¬ floatCmpEq (1 / 10 ^ 15) (1 / 4) (1 / 2) := by
    unfold floatCmpEq; norm_num [abs_of_pos, abs_of_neg]
  refine h 5 (1 / 4) 2 2 (10 / 3) 6 (1 / 10 ^ 15) hiso heps "Lambda" "nu" (by decide) 2 (1 / 4) rfl rfl ?_
  exact (py_parameters hiso _ heps "Lambda" "nu" (by decide) 2 (1 / 4) rfl rfl).2
    (by unfold Spec.Supported; decide)

/-! ### C86: options -/

/-- Specification: the tolerance given to `asPlaneStress` (the default is `1e-12`) bounds the stress that is to
vanish. -/
def Spec.ToleranceKept : Prop :=
  ∀ (law : UnderlyingLaw) (tol : Option ℝ) (nfGt : Bool) (E : StrainArg) (Esol : M3) (S : Fin 6 → ℝ),
    (asPlaneStress law tol).strain nfGt E = some (some Esol) → law.stress Esol = some S →
      |S (voigt3 2 2)| ≤ tol.getD pyTol

/-- C86. The stresses in the fixed normal directions of a material reduced in Python are bounded by `1e-8`,
for whatever tolerance was given. In particular a tolerance of at least `1e-8` is kept. Missing: smaller
tolerances, among them the default, see `tolerance_not_kept`. -/
theorem py_tolerance_partial (law : UnderlyingLaw) (tol : Option ℝ) (nfGt : Bool) (E : StrainArg) (Esol : M3)
    (S : Fin 6 → ℝ) (hS : law.stress Esol = some S) :
    ((asPlaneStress law tol).strain nfGt E = some (some Esol) →
      |S (voigt3 2 2)| ≤ 1 / 10 ^ 8 ∧ ∀ i j, i ≠ 2 → j ≠ 2 → Esol i j = E.maybeFromVoigt i j) ∧
    ((asShellMaterial law tol).strain nfGt E = some (some Esol) →
      |S (voigt3 2 2)| ≤ 1 / 10 ^ 8 ∧ ∀ i j, ¬ (i = 2 ∧ j = 2) → Esol i j = E.maybeFromVoigt i j) ∧
    ((asBeamMaterial law tol).strain nfGt E = some (some Esol) →
      |S (voigt3 1 1)| ≤ 1 / 10 ^ 8 ∧ |S (voigt3 2 2)| ≤ 1 / 10 ^ 8 ∧
        ∀ i j, ¬ (i = 1 ∧ j = 1) → ¬ (i = 2 ∧ j = 2) → Esol i j = E.maybeFromVoigt i j) := by
  refine ⟨fun h => ?_, fun h => ?_, fun h => ?_⟩
  · obtain ⟨hr, -⟩ := VanishingStress.vanishingStress_reduced_partial law VanishingStress.planeStressPairs nfGt _ E Esol h
    refine ⟨hr.stress S hS 2 (by unfold Spec.IsFixed; decide), fun i j hi hj => hr.free i j ?_⟩
    unfold Spec.IsFixed
    revert i j
    decide
  · obtain ⟨hr, -⟩ := VanishingStress.vanishingStress_reduced_partial law VanishingStress.shellPairs nfGt _ E Esol h
    refine ⟨hr.stress S hS 2 (by unfold Spec.IsFixed; decide), fun i j hij => hr.free i j ?_⟩
    unfold Spec.IsFixed
    revert i j
    decide
  · obtain ⟨hr, -⟩ := VanishingStress.vanishingStress_reduced_partial law VanishingStress.beamPairs nfGt _ E Esol h
    refine ⟨hr.stress S hS 1 (by unfold Spec.IsFixed; decide),
      hr.stress S hS 2 (by unfold Spec.IsFixed; decide), fun i j h1 h2 => hr.free i j ?_⟩
    unfold Spec.IsFixed
    revert i j
    decide

/-- C86. The full statement about the tolerance is false: for the St. Venant-Kirchhoff material and a strain
of `5e-9`, the stress `5e-9` in the direction that is to be free of stress remains, although the tolerance
defaults to `1e-12`. -/
theorem tolerance_not_kept : ¬ Spec.ToleranceKept := by
  intro h
  set x : ℝ := 5 / 10 ^ 9 with hx
  set E : M3 := Matrix.of fun i j => if i = 0 ∧ j = 0 then x else 0 with hE
  set law := VanishingStress.svkLaw ⟨1, 1⟩ with hlaw
  have htrace : E.trace = x := by
    simp [Matrix.trace, Fin.sum_univ_three, hE]
  have hS : law.stress E = some (SVK.stressMatrixToVoigt ⟨1, 1⟩ E) := rfl
  have hS2 : SVK.stressMatrixToVoigt (⟨1, 1⟩ : SVK ℝ) E (voigt3 2 2) = x := by
    have : voigt3 2 2 = 2 := by decide
    rw [this]
    have h22 : E 2 2 = 0 := by simp [hE]
    show E.trace * 1 + 2 * 1 * E 2 2 = x
    rw [htrace, h22]
    ring
  have hinit : VanishingStress.initUnknownStrains law VanishingStress.planeStressPairs E = E := by
    ext a b
    by_cases hf : Spec.IsFixed VanishingStress.planeStressPairs a b
    · by_cases hab : a = b
      · subst hab
        rw [VanishingStress.init_diag _ _ _ hf, VanishingStress.startValue_greenLagrangian rfl]
      · rw [VanishingStress.init_shear _ _ _ hab hf]
        rcases (VanishingStress.isFixed_plane a b).1 hf with rfl | rfl <;> simp [hE]
    · rw [VanishingStress.init_free _ _ _ hf]
  have hstrain : (asPlaneStress law none).strain true (.matrix E) = some (some E) := by
    unfold Reduced.strain
    show VanishingStress.reduceStress law VanishingStress.planeStressPairs true cppTol (.matrix E) = _
    obtain ⟨n, hn, hb, hr⟩ := VanishingStress.run law VanishingStress.planeStressPairs true cppTol (.matrix E)
    have hi : VanishingStress.initUnknownStrains law VanishingStress.planeStressPairs
        (StrainArg.matrix E).maybeFromVoigt = E := hinit
    rw [hi] at hn hr
    have h0 : Spec.NewtonStops (VanishingStress.problem law VanishingStress.planeStressPairs true)
        ⟨some cppTol, 100, 0⟩ (some E) () 0 := by
      refine ⟨by simp, Or.inr ?_⟩
      rw [VanishingStress.iterates_residual]
      have hres : ((Spec.newtonIterates (VanishingStress.problem law VanishingStress.planeStressPairs true)
          (some E) () 0).1).bind (VanishingStress.residual law VanishingStress.planeStressPairs)
          = some fun _ => x := by
        change VanishingStress.residual law VanishingStress.planeStressPairs E = _
        unfold VanishingStress.residual
        rw [hS, Option.map_some]
        congr 1
        funext r
        obtain ⟨a, ha, hf⟩ := VanishingStress.get_fixedDiagonal VanishingStress.planeStressPairs r
        rw [ha]
        have ha2 : a = 2 := by
          rcases (VanishingStress.isFixed_plane a a).1 hf with h | h <;> exact h
        rw [ha2, hS2]
      rw [hres]
      change decide (VanishingStress.euclid (fun _ : Fin (VanishingStress.numDiagonal
        VanishingStress.planeStressPairs) => x) > cppTol) = false
      have hnum : VanishingStress.numDiagonal VanishingStress.planeStressPairs = 1 := by decide
      have heu : VanishingStress.euclid (fun _ : Fin (VanishingStress.numDiagonal
          VanishingStress.planeStressPairs) => x) = x := by
        unfold VanishingStress.euclid
        rw [Finset.sum_const, Finset.card_univ, Fintype.card_fin, hnum, one_smul]
        exact Real.sqrt_mul_self (by rw [hx]; positivity)
      rw [heu, hx]
      unfold cppTol
      norm_num
    have hn0 : n = 0 := by
      by_contra hne
      exact hn.2 0 (by omega) h0
    rw [hr, hn0, if_neg (by omega)]
    rfl
  have := h law none true (.matrix E) E _ hstrain hS
  rw [hS2, hx] at this
  unfold pyTol at this
  norm_num [abs_of_pos] at this

/-- Specification: the material is marked compressible in muesli exactly if this was asked for. -/
def Spec.CompressibleIf (r : Result Properties) (b : Bool) : Prop :=
  ∃ p, r = .ok p ∧ (("compressible" ∈ p.map Prod.fst) ↔ b = true)

/-- Specification: the option `compressible` of the Arruda-Boyce material is used. -/
def Spec.CompressibleUsed : Prop :=
  ∀ (c1 lm k : ℝ) (b : Bool), Spec.CompressibleIf (pyArrudaBoyce
    [("C1", .number c1), ("lambda_m", .number lm), ("K", .number k), ("compressible", .flag b)]) b

/-- C86. The Arruda-Boyce, Yeoh and Mooney-Rivlin materials get the constants given; the option
`incompressible` of the last is used, the first two are compressible for each value of the option
`compressible`. -/
theorem py_muesli_options (c1 lm k a0 a1 a2 : ℝ) (b : Bool) :
    pyArrudaBoyce [("C1", .number c1), ("lambda_m", .number lm), ("K", .number k), ("compressible", .flag b)]
      = .ok [("c1", c1), ("lambdam", lm), ("bulk", k), ("compressible", 0)] ∧
    pyArrudaBoyce [("C1", .number c1), ("lambda_m", .number lm), ("K", .number k)]
      = .ok [("c1", c1), ("lambdam", lm), ("bulk", k), ("compressible", 0)] ∧
    pyYeoh [("C", .numbers [a0, a1, a2]), ("K", .number k), ("compressible", .flag b)]
      = .ok [("c1", a0), ("c2", a1), ("c3", a2), ("bulk", k), ("compressible", 0)] ∧
    pyYeoh [("C", .numbers [a0, a1, a2]), ("K", .number k)]
      = .ok [("c1", a0), ("c2", a1), ("c3", a2), ("bulk", k), ("compressible", 0)] ∧
    pyMooneyRivlin [("alpha", .numbers [a0, a1, a2]), ("incompressible", .flag b)]
      = .ok ([("alpha0", a0), ("alpha1", a1), ("alpha2", a2)] ++ if b then [("incompressible", 0)] else []) ∧
    pyMooneyRivlin [("alpha", .numbers [a0, a1, a2])]
      = .ok [("alpha0", a0), ("alpha1", a1), ("alpha2", a2)] := by
  refine ⟨?_, ?_, ?_, ?_, ?_, ?_⟩ <;>
    simp [pyArrudaBoyce, pyYeoh, pyMooneyRivlin, optionalFlag, Kwargs.contains, Kwargs.double, Kwargs.bool,
      Kwargs.array3, Kwargs.get, List.lookup, makeMuesliArrudaBoyce, makeMuesliYeoh, makeMooneyRivlin, addTag]
  cases b <;> simp

/-- C86. The option `compressible` is not used. -/
theorem compressible_not_used : ¬ Spec.CompressibleUsed := by
  intro h
  obtain ⟨p, hp, hiff⟩ := h 1 1 1 false
  rw [(py_muesli_options 1 1 1 0 0 0 false).1] at hp
  obtain rfl := Result.ok.inj hp
  exact absurd (hiff.1 (by decide)) (by decide)

/-! ### C87: evaluation of materials -/

/-- C87. In Python a material whose measure is the Green-Lagrange strain or the right Cauchy-Green tensor is
evaluated at the state the strain vector describes, whichever of the two measures is named, and throws for
the other measures; a material with linear strains accepts these only. -/
theorem py_evaluate {β : Type} (msqrt : M3 → M3) (impl : M3 → β) :
    (∀ (strainTag tag : StrainTag) (F e e' : M3),
      (strainTag = .greenLagrangian ∨ strainTag = .rightCauchyGreenTensor) →
      (tag = .greenLagrangian ∨ tag = .rightCauchyGreenTensor) →
      Spec.strainOf F tag = some e → Spec.strainOf F strainTag = some e' →
      evaluate strainTag (call msqrt strainTag impl) tag (toVoigt3 e true) = .ok (some (impl e'))) ∧
    (∀ (strainTag tag : StrainTag) (v : Fin 6 → ℝ), strainTag ≠ .linear → tag ≠ .greenLagrangian →
      tag ≠ .rightCauchyGreenTensor → evaluate strainTag (call msqrt strainTag impl) tag v = .raised) ∧
    (∀ e : M3, e.IsSymm → evaluate .linear (call msqrt .linear impl) .linear (toVoigt3 e true)
      = .ok (some (impl e))) ∧
    (∀ (tag : StrainTag) (v : Fin 6 → ℝ), tag ≠ .linear →
      evaluate .linear (call msqrt .linear impl) tag v = .raised) := by
  have hsymm : ∀ F : M3, (Fᵀ * F).IsSymm := fun F => by
    unfold Matrix.IsSymm; rw [Matrix.transpose_mul, Matrix.transpose_transpose]
  refine ⟨fun strainTag tag F e e' hs ht he he' => ?_, fun strainTag tag v h1 h2 h3 => ?_, fun e he => ?_,
    fun tag v h => ?_⟩
  · have hsym : e.IsSymm := by
      rcases ht with rfl | rfl
      · simp only [Spec.strainOf, Option.some.injEq] at he
        subst he
        exact ((hsymm F).sub Matrix.isSymm_one).smul _
      · simp only [Spec.strainOf, Option.some.injEq] at he
        subst he
        exact hsymm F
    have hcall : call msqrt strainTag impl tag (toVoigt3 e true) = some (impl e') := by
      unfold call
      rw [(fromVoigt_toVoigt (by norm_num : (2 : ℝ) ≠ 0) true).2.2 e hsym,
        transformStrain_measure msqrt F e tag strainTag he hs, he']
      rfl
    rcases ht with rfl | rfl <;> rcases hs with rfl | rfl <;> simp [evaluate, hcall]
  · cases tag <;> simp_all [evaluate]
  · unfold evaluate call
    rw [(fromVoigt_toVoigt (by norm_num : (2 : ℝ) ≠ 0) true).2.2 e he]
    simp [transformStrain]
  · cases tag <;> simp_all [evaluate]

/-- The St. Venant-Kirchhoff stress of a state is the same for both measures. -/
example (msqrt : M3 → M3) (m : SVK ℝ) (F : M3) :
    evaluate .greenLagrangian (call msqrt .greenLagrangian m.stressMatrixToVoigt) .rightCauchyGreenTensor
        (toVoigt3 (Fᵀ * F) true)
      = .ok (some (m.stressMatrixToVoigt ((2 : ℝ)⁻¹ • (Fᵀ * F - 1)))) :=
  (py_evaluate msqrt m.stressMatrixToVoigt).1 _ _ F _ _ (Or.inl rfl) (Or.inr rfl) rfl rfl

/-! ### C87: conversion of strains -/

/-- Specification: what `E` holds: the components of the measure. -/
def Spec.Holds (E : Strain) (e : M3) : Prop :=
  E = .matrix e ∨ (e.IsSymm ∧ E = .voigt (toVoigt3 e true))

/-- Specification: the result of a conversion. If the measures are the same, the argument is returned as it
is, otherwise the components of the other measure in a matrix. -/
def Spec.Converted (msqrt : M3 → M3) (F : M3) (frm tgt : StrainTag) (E : Strain) (r : Result Strain) : Prop :=
  (frm = tgt → r = .ok E) ∧
  (frm ≠ tgt → tgt = .greenLagrangian ∨ tgt = .rightCauchyGreenTensor →
    ∃ e', Spec.strainOf F tgt = some e' ∧ r = .ok (.matrix e')) ∧
  (tgt = .deformationGradient → frm = .displacementGradient → r = .ok (.matrix F)) ∧
  (Spec.PrincipalRoot msqrt → tgt = .deformationGradient →
    frm = .greenLagrangian ∨ frm = .rightCauchyGreenTensor →
      ∃ U : M3, r = .ok (.matrix U) ∧ U.PosSemidef ∧ Uᵀ * U = Fᵀ * F)

theorem switch_eq (msqrt : M3 → M3) (frm tgt : StrainTag) (E : Strain) (e : M3) (h1 : frm ≠ .linear)
    (h2 : frm ≠ tgt) (h3 : tgt ≠ .linear) (h4 : tgt ≠ .displacementGradient) :
    ∃ e', transformStrain msqrt frm tgt e = some e' ∧
      transformStrainSwitch msqrt frm tgt E e = .ok (.matrix e') := by
  cases frm <;> cases tgt <;>
    simp_all [transformStrainSwitch, callTransformStrain, transformStrain, createGreenLagrangianStrains,
      createDeformationGradient, createRightCauchyGreen]

theorem lambda_holds (msqrt : M3 → M3) (frm tgt : StrainTag) (E : Strain) (e : M3) (h : Spec.Holds E e) :
    transformStrainLambda msqrt frm tgt E = transformStrainSwitch msqrt frm tgt E e := by
  rcases h with rfl | ⟨hs, rfl⟩
  · rfl
  · unfold transformStrainLambda
    simp only
    rw [(fromVoigt_toVoigt (by norm_num : (2 : ℝ) ≠ 0) true).2.2 e hs]

theorem converted (msqrt : M3 → M3) (F e : M3) (frm tgt : StrainTag) (E : Strain)
    (he : Spec.strainOf F frm = some e) (h : Spec.Holds E e) :
    Spec.Converted msqrt F frm tgt E (transformStrainLambda msqrt frm tgt E) := by
  have hl : frm ≠ .linear := by rintro rfl; simp [Spec.strainOf] at he
  rw [lambda_holds msqrt frm tgt E e h]
  refine ⟨fun hft => ?_, fun hft ht => ?_, fun ht hf => ?_, fun hr ht hf => ?_⟩
  · unfold transformStrainSwitch
    rw [if_neg hl, if_pos hft]
  · obtain ⟨e', h1, h2⟩ := switch_eq msqrt frm tgt E e hl hft (by rcases ht with rfl | rfl <;> simp)
      (by rcases ht with rfl | rfl <;> simp)
    exact ⟨e', by rw [← transformStrain_measure msqrt F e frm tgt he ht]; exact h1, h2⟩
  · obtain ⟨e', h1, h2⟩ := switch_eq msqrt frm tgt E e hl (by rw [hf, ht]; simp) (by rw [ht]; simp)
      (by rw [ht]; simp)
    subst ht hf
    simp only [Spec.strainOf, Option.some.injEq] at he
    subst he
    simp [transformStrain, createDeformationGradient] at h1
    rw [h2, ← h1]
  · obtain ⟨e', h1, h2⟩ := switch_eq msqrt frm tgt E e hl (by rcases hf with rfl | rfl <;> simp [ht])
      (by rw [ht]; simp) (by rw [ht]; simp)
    obtain ⟨U, hU, hpos, hmul⟩ := (transformStrain_deformationGradient msqrt hr F e frm he).2 hf
    rw [ht, hU] at h1
    obtain rfl := Option.some.inj h1
    exact ⟨U, h2, hpos, hmul⟩

/-- C87. `transformStrain(a, b, E)` converts a strain, given as matrix or in Voigt notation, from the measure
`a` to the measure `b`. Missing: the same for arguments given by keyword, see
`keywords_not_converted`, and targets for which no conversion exists, see `py_transformStrain_undefined`. -/
theorem py_transformStrain_partial (msqrt : M3 → M3) (F e : M3) (frm tgt : StrainTag) (E : Strain)
    (he : Spec.strainOf F frm = some e) (h : Spec.Holds E e) :
    Spec.Converted msqrt F frm tgt E
        (pyTransformStrain msqrt [.tag frm, .tag tgt, .strain E] []) ∧
      Spec.Converted msqrt F frm tgt E
        (pyTransformStrain msqrt [.tag frm, .tag tgt] [("strain", .strain E)]) := by
  have h1 : pyTransformStrain msqrt [.tag frm, .tag tgt, .strain E] [] = transformStrainLambda msqrt frm tgt E := by
    simp [pyTransformStrain, bindArgs]
  have h2 : pyTransformStrain msqrt [.tag frm, .tag tgt] [("strain", .strain E)]
      = transformStrainLambda msqrt frm tgt E := by
    simp [pyTransformStrain, bindArgs, List.lookup]
  rw [h1, h2]
  exact ⟨converted msqrt F e frm tgt E he h, converted msqrt F e frm tgt E he h⟩

/-- C87. Given by keyword, the two measures are exchanged: `transformStrain(from=a, to=b, strain=E)` takes `E`
for a strain of the measure `b` and converts it to the measure `a`. The order of the keywords plays no
role. -/
theorem py_transformStrain_keywords (msqrt : M3 → M3) (a b : StrainTag) (E : Strain) :
    pyTransformStrain msqrt [] [("from", .tag a), ("to", .tag b), ("strain", .strain E)]
      = transformStrainLambda msqrt b a E ∧
    pyTransformStrain msqrt [] [("to", .tag b), ("from", .tag a), ("strain", .strain E)]
      = transformStrainLambda msqrt b a E := by
  constructor <;> simp [pyTransformStrain, bindArgs, List.lookup]

/-- Specification: `transformStrain(from=a, to=b, strain=E)` converts from the measure `a` to the measure
`b`. -/
def Spec.KeywordsConvert : Prop :=
  ∀ (msqrt : M3 → M3) (F e : M3) (frm tgt : StrainTag) (E : Strain),
    Spec.strainOf F frm = some e → Spec.Holds E e → Spec.Converted msqrt F frm tgt E
      (pyTransformStrain msqrt [] [("from", .tag frm), ("to", .tag tgt), ("strain", .strain E)])

/-- C87. For the unit deformation gradient the right Cauchy-Green tensor is converted to three times the unit
matrix instead of to the Green-Lagrange strain zero. -/
theorem keywords_not_converted : ¬ Spec.KeywordsConvert := by
  intro h
  have hC : Spec.strainOf (1 : M3) .rightCauchyGreenTensor = some 1 := by simp [Spec.strainOf]
  obtain ⟨-, h2, -⟩ := h id 1 1 .rightCauchyGreenTensor .greenLagrangian (.matrix 1) hC (Or.inl rfl)
  obtain ⟨e', h3, h4⟩ := h2 (by simp) (Or.inl rfl)
  rw [(py_transformStrain_keywords id _ _ _).1] at h4
  simp only [Spec.strainOf, Option.some.injEq] at h3
  subst h3
  simp only [transformStrainLambda, transformStrainSwitch, callTransformStrain, transformStrain,
    createRightCauchyGreen, reduceCtorEq, if_false, or_self] at h4
  have h5 := Strain.matrix.inj (Result.ok.inj h4)
  have h6 := congrFun (congrFun h5 0) 0
  simp at h6
  norm_num at h6

/-- C87. Converting to the linear strain or to the displacement gradient is not rejected: the behaviour is
undefined. For all other targets it is defined. -/
theorem py_transformStrain_undefined (msqrt : M3 → M3) (F e : M3) (frm tgt : StrainTag) (E : Strain)
    (he : Spec.strainOf F frm = some e) (h : Spec.Holds E e) :
    pyTransformStrain msqrt [.tag frm, .tag tgt, .strain E] [] = .undefined ↔
      frm ≠ tgt ∧ (tgt = .linear ∨ tgt = .displacementGradient) := by
  have hl : frm ≠ .linear := by rintro rfl; simp [Spec.strainOf] at he
  have h1 : pyTransformStrain msqrt [.tag frm, .tag tgt, .strain E] [] = transformStrainSwitch msqrt frm tgt E e := by
    rw [← lambda_holds msqrt frm tgt E e h]
    simp [pyTransformStrain, bindArgs]
  rw [h1]
  cases frm <;> cases tgt <;>
    simp_all [transformStrainSwitch, callTransformStrain, transformStrain, createGreenLagrangianStrains,
      createDeformationGradient, createRightCauchyGreen]

/-- Twice the unit matrix as deformation gradient; its right Cauchy-Green tensor is converted to the
Green-Lagrange strain `3/2`. -/
example : pyTransformStrain id [.tag .rightCauchyGreenTensor, .tag .greenLagrangian,
      .strain (.matrix ((4 : ℝ) • (1 : M3)))] [] = .ok (.matrix ((3 / 2 : ℝ) • (1 : M3))) := by
  have he : Spec.strainOf ((2 : ℝ) • (1 : M3)) .rightCauchyGreenTensor = some ((4 : ℝ) • 1) := by
    simp [Spec.strainOf, smul_smul]
    norm_num
  obtain ⟨e', h1, h2⟩ := (py_transformStrain_partial id _ _ _ .greenLagrangian _ he (Or.inl rfl)).1.2.1
    (by simp) (Or.inl rfl)
  rw [h2]
  simp only [Spec.strainOf, Option.some.injEq] at h1
  rw [← h1]
  congr 2
  ext i j
  by_cases hij : i = j
  · subst hij; simp; norm_num
  · simp [hij]

end

end Python

end Ikarus
