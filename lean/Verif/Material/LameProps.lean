import Verif.Material.LameModel
import Mathlib.Tactic.FieldSimp
import Mathlib.Tactic.Linarith
import Mathlib.Tactic.Positivity
import Mathlib.Tactic.LinearCombination

/-!
C36: conversions of the material parameters.
-/

namespace Ikarus

noncomputable section

/-- Specification: the constants of an isotropic material with Young's modulus `E` and Poisson's ratio
`nu`. -/
structure Spec.Isotropic (E nu lambda mu K M : ℝ) : Prop where
  young_pos : 0 < E
  nu_lower : -1 < nu
  nu_upper : nu < 1 / 2
  /-- Hooke's law in shear, volume and uniaxial strain. -/
  shear : 2 * mu * (1 + nu) = E
  bulk : 3 * K * (1 - 2 * nu) = E
  lame : lambda = K - 2 / 3 * mu
  pwave : M = lambda + 2 * mu

/-- Specification: `p` describes the material. -/
inductive Spec.Describes (E nu lambda mu K : ℝ) : MatPair → Prop
  | youngPoisson : Spec.Describes E nu lambda mu K (.youngPoisson E nu)
  | youngShear : Spec.Describes E nu lambda mu K (.youngShear E mu)
  | youngBulk : Spec.Describes E nu lambda mu K (.youngBulk E K)
  | youngLambda : Spec.Describes E nu lambda mu K (.youngLambda E lambda)
  | bulkLambda : Spec.Describes E nu lambda mu K (.bulkLambda K lambda)
  | lambdaShear : Spec.Describes E nu lambda mu K (.lambdaShear lambda mu)

open Spec

theorem Spec.Isotropic.forms {E nu lambda mu K M : ℝ} (h : Isotropic E nu lambda mu K M) :
    mu = E / (2 * (1 + nu)) ∧ K = E / (3 * (1 - 2 * nu)) ∧
      lambda = E * nu / ((1 + nu) * (1 - 2 * nu)) ∧
      calcR E lambda = E * (1 + 2 * nu ^ 2) / ((1 + nu) * (1 - 2 * nu)) := by
  obtain ⟨hE, h1, h2, hs, hb, hl, -⟩ := h
  have p1 : 0 < 1 + nu := by linarith
  have p2 : 0 < 1 - 2 * nu := by linarith
  have n2 : 1 - 2 * nu ≠ 0 := p2.ne'
  have n2' : (1 : ℝ) - nu * 2 ≠ 0 := by linarith
  have e1 : mu = E / (2 * (1 + nu)) := by
    rw [← hs]
    field_simp
  have e2 : K = E / (3 * (1 - 2 * nu)) := by
    rw [← hb]
    field_simp
  have e3 : lambda = E * nu / ((1 + nu) * (1 - 2 * nu)) := by
    rw [hl, e1, e2]
    field_simp
    ring
  refine ⟨e1, e2, e3, ?_⟩
  have hn : 0 ≤ E * (1 + 2 * nu ^ 2) / ((1 + nu) * (1 - 2 * nu)) := by positivity
  unfold calcR
  rw [← Real.sqrt_sq hn, e3]
  congr 1
  field_simp
  ring

/-- C36. Each pair of constants of an isotropic material gives every other constant. (For Poisson's
ratios that compare equal to one half the first Lamé parameter is reported as infinite.) -/
theorem lame_conversions {E nu lambda mu K M : ℝ} (h : Isotropic E nu lambda mu K M)
    (p : MatPair) (hp : Describes E nu lambda mu K p) :
    p.toYoungsModulus = some E ∧ p.toPoissonsRatio = some nu ∧ p.toShearModulus = some mu ∧
      p.toBulkModulus = some K ∧ p.toPWaveModulus = some M ∧
      ∀ eps, (¬ floatCmpEq eps nu (1 / 2) → p.toLamesFirstParameter eps = some lambda) ∧
        ((∀ a b, p ≠ .youngPoisson a b) → p.toLamesFirstParameter eps = some lambda) := by
  obtain ⟨e1, e2, e3, e4⟩ := h.forms
  obtain ⟨hE, h1, h2, hs, hb, hl, hM⟩ := h
  have p1 : 0 < 1 + nu := by linarith
  have p2 : 0 < 1 - 2 * nu := by linarith
  have n1 : (1 + nu) ≠ 0 := p1.ne'
  have n2 : (1 - 2 * nu) ≠ 0 := p2.ne'
  have n2' : (1 : ℝ) - nu * 2 ≠ 0 := by linarith
  have n3 : E ≠ 0 := hE.ne'
  have eM : M = E * (1 - nu) / ((1 + nu) * (1 - 2 * nu)) := by
    rw [hM, e3, e1]; field_simp; ring
  have d1 : 3 * mu - E = E * (1 - 2 * nu) / (2 * (1 + nu)) := by rw [e1]; field_simp; ring
  have d2 : 9 * K - E = 2 * E * (1 + nu) / (1 - 2 * nu) := by rw [e2]; field_simp; ring
  have d3 : 3 * K - lambda = E / ((1 + nu) * (1 - 2 * nu)) := by rw [e2, e3]; field_simp; ring
  have d4 : lambda + mu = E / (2 * (1 + nu) * (1 - 2 * nu)) := by rw [e1, e3]; field_simp; ring
  have d5 : E + lambda + calcR E lambda = 2 * E / ((1 + nu) * (1 - 2 * nu)) := by
    rw [e4, e3]; field_simp; ring
  cases hp with
  | youngPoisson =>
    refine ⟨rfl, rfl, ?_, ?_, ?_, fun eps => ⟨fun hc => ?_, fun hc => absurd rfl (hc E nu)⟩⟩
    · simp only [MatPair.toShearModulus]; rw [e1]
    · simp only [MatPair.toBulkModulus]; rw [e2]
    · simp only [MatPair.toPWaveModulus]; rw [eM]
    · simp only [MatPair.toLamesFirstParameter]; rw [if_neg hc, e3]
  | youngShear =>
    have hL : mu * (E - 2 * mu) / (3 * mu - E) = lambda := by
      rw [d1, e1, e3]; field_simp; ring
    refine ⟨rfl, ?_, rfl, ?_, ?_, fun eps => ⟨fun _ => ?_, fun _ => ?_⟩⟩
    · simp only [MatPair.toPoissonsRatio, Option.some.injEq]; rw [e1]; field_simp; ring
    · simp only [MatPair.toBulkModulus, Option.some.injEq]; rw [d1, e1, e2]; field_simp
    · simp only [MatPair.toPWaveModulus, Option.some.injEq]; rw [d1, e1, eM]; field_simp; ring
    · simp only [MatPair.toLamesFirstParameter, hL]
    · simp only [MatPair.toLamesFirstParameter, hL]
  | youngBulk =>
    have hL : 3 * K * (3 * K - E) / (9 * K - E) = lambda := by
      rw [d2, e2, e3]; field_simp; ring
    refine ⟨rfl, ?_, ?_, rfl, ?_, fun eps => ⟨fun _ => ?_, fun _ => ?_⟩⟩
    · simp only [MatPair.toPoissonsRatio, Option.some.injEq]; rw [e2]; field_simp; ring
    · simp only [MatPair.toShearModulus, Option.some.injEq]; rw [d2, e1, e2]; field_simp
    · simp only [MatPair.toPWaveModulus, Option.some.injEq]; rw [d2, e2, eM]; field_simp; ring
    · simp only [MatPair.toLamesFirstParameter, hL]
    · simp only [MatPair.toLamesFirstParameter, hL]
  | youngLambda =>
    refine ⟨rfl, ?_, ?_, ?_, ?_, fun eps => ⟨fun _ => rfl, fun _ => rfl⟩⟩
    · simp only [MatPair.toPoissonsRatio, Option.some.injEq]; rw [d5, e3]; field_simp
    · simp only [MatPair.toShearModulus, Option.some.injEq]; rw [e4, e3, e1]; field_simp; ring
    · simp only [MatPair.toBulkModulus, Option.some.injEq]; rw [e4, e3, e2]; field_simp; ring
    · simp only [MatPair.toPWaveModulus, Option.some.injEq]; rw [e4, e3, eM]; field_simp; ring
  | bulkLambda =>
    refine ⟨?_, ?_, ?_, rfl, ?_, fun eps => ⟨fun _ => rfl, fun _ => rfl⟩⟩
    · simp only [MatPair.toYoungsModulus, Option.some.injEq]; rw [d3, e2, e3]; field_simp; ring
    · simp only [MatPair.toPoissonsRatio, Option.some.injEq]; rw [d3, e3]; field_simp
    · simp only [MatPair.toShearModulus, Option.some.injEq]; rw [e1, e2, e3]; field_simp; ring
    · simp only [MatPair.toPWaveModulus, Option.some.injEq]; rw [e2, e3, eM]; field_simp; ring
  | lambdaShear =>
    refine ⟨?_, ?_, rfl, ?_, ?_, fun eps => ⟨fun _ => rfl, fun _ => rfl⟩⟩
    · simp only [MatPair.toYoungsModulus, Option.some.injEq]; rw [d4, e1, e3]; field_simp; ring
    · simp only [MatPair.toPoissonsRatio, Option.some.injEq]
      rw [show 2 * (lambda + mu) = E / ((1 + nu) * (1 - 2 * nu)) by rw [d4]; field_simp, e3]
      field_simp
    · simp only [MatPair.toBulkModulus, Option.some.injEq]; rw [hl]; ring
    · simp only [MatPair.toPWaveModulus, Option.some.injEq]; rw [hM]

/-- C36. The two conversion functions of pairs are inverse to each other. -/
theorem lame_round_trip {E nu lambda mu K M : ℝ} (h : Isotropic E nu lambda mu K M) (eps : ℝ)
    (he : ¬ floatCmpEq eps nu (1 / 2)) :
    toLamesFirstParameterAndShearModulus eps E nu = some (.lambdaShear lambda mu) ∧
      toYoungsModulusAndPoissonsRatio lambda mu = some (.youngPoisson E nu) := by
  obtain ⟨-, -, h3, -, -, h6⟩ := lame_conversions h _ .youngPoisson
  obtain ⟨g1, g2, -⟩ := lame_conversions h _ .lambdaShear
  unfold toLamesFirstParameterAndShearModulus toYoungsModulusAndPoissonsRatio
  rw [(h6 eps).1 he, h3, g1, g2]
  exact ⟨rfl, rfl⟩

example : toYoungsModulusAndPoissonsRatio (2 : ℝ) 2 = some (.youngPoisson 5 (1 / 4)) :=
  (lame_round_trip (E := 5) (nu := 1 / 4) (lambda := 2) (mu := 2) (K := 10 / 3) (M := 6) (by
    constructor <;> norm_num) (1 / 10 ^ 15) (by
    unfold floatCmpEq
    rw [abs_of_neg (by norm_num), abs_of_pos (by norm_num), abs_of_pos (by norm_num), max_eq_right (by norm_num)]
    norm_num)).2

/-- C36. Every admissible pair of Young's modulus and Poisson's ratio describes a material. -/
theorem isotropic_exists (E nu : ℝ) (hE : 0 < E) (h1 : -1 < nu) (h2 : nu < 1 / 2) :
    ∃ lambda mu K M, Isotropic E nu lambda mu K M := by
  have p1 : 0 < 1 + nu := by linarith
  have p2 : 0 < 1 - 2 * nu := by linarith
  exact ⟨E / (3 * (1 - 2 * nu)) - 2 / 3 * (E / (2 * (1 + nu))), E / (2 * (1 + nu)),
    E / (3 * (1 - 2 * nu)), _, ⟨hE, h1, h2, by field_simp, by field_simp, rfl, rfl⟩⟩

example : Isotropic 5 (1 / 4) 2 2 (10 / 3) 6 := by
  constructor <;> norm_num

example : ¬ floatCmpEq (1 / 10 ^ 15) (1 / 4) (1 / 2) := by
  unfold floatCmpEq
  norm_num [abs_of_pos, abs_of_neg]

end

end Ikarus
