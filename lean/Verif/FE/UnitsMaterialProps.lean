import Verif.FE.UnitsProps
import Verif.FE.HyperelasticLawModel
import Verif.FE.MaterialLawProps

/-!
C117, materials: a material whose parameters are measured in another unit of stress has the same energies, stresses and moduli in the
other unit.  `k` is the number of new units of stress in the old one.
-/

namespace Ikarus.Element

open Matrix AutoDiffMat VanishingStress Element.Spec

variable {k : ℝ}

/-! ### Specification -/

/-- The deviatoric function `f'` is `f` in another unit of stress. -/
structure Spec.ScaledDev (k : ℝ) (f f' : DevFun) : Prop where
  energy : ∀ l, f'.storedEnergy l = (f.storedEnergy l).map (k * ·)
  first : ∀ l, f'.firstDerivative l = (f.firstDerivative l).map (k • ·)
  second : ∀ l, f'.secondDerivative l = (f.secondDerivative l).map (k • ·)

/-- The material `m'` is the material `m` in another unit of stress: it answers if `m` does, and its energies, stresses and moduli
are multiplied by `k`. -/
structure Spec.ScaledMat (k : ℝ) (m m' : Mat) : Prop where
  tag : m'.strainTag = m.strainTag
  factor : m'.derivativeFactor = m.derivativeFactor
  energy : ∀ e, m'.energy e = (m.energy e).map (k * ·)
  stress : ∀ e, m'.stress e = (m.stress e).map (k • ·)
  moduli : ∀ e, m'.moduli e = (m.moduli e).map (k • ·)

/-- The same for what the reduced materials use. -/
structure Spec.ScaledUnderlying (k : ℝ) (m m' : UnderlyingLaw) : Prop where
  tag : m'.strainTag = m.strainTag
  factor : m'.derivativeFactor = m.derivativeFactor
  energy : ∀ e, m'.energy e = (m.energy e).map (k * ·)
  stress : ∀ e, m'.stress e = (m.stress e).map (k • ·)
  moduli : ∀ e, m'.moduli e = (m.moduli e).map (k • ·)

/-- A pair of parameters in another unit of stress; Poisson's ratio has none. -/
def Spec.scaledPair (k : ℝ) : MatPair → MatPair
  | .youngPoisson E nu => .youngPoisson (k * E) nu
  | .youngShear E mu => .youngShear (k * E) (k * mu)
  | .youngBulk E K => .youngBulk (k * E) (k * K)
  | .youngLambda E lambda => .youngLambda (k * E) (k * lambda)
  | .bulkLambda K lambda => .bulkLambda (k * K) (k * lambda)
  | .lambdaShear lambda mu => .lambdaShear (k * lambda) (k * mu)

/-! ### Parameters -/

theorem calcR_units (hk : 0 < k) (E l : ℝ) : calcR (k * E) (k * l) = k * calcR E l := by
  unfold calcR
  rw [show k * E * (k * E) + 9 * (k * l) * (k * l) + 2 * (k * E) * (k * l) = k ^ 2 * (E * E + 9 * l * l + 2 * E * l) by ring,
    Real.sqrt_mul (sq_nonneg k), Real.sqrt_sq hk.le]

theorem ratio_units (hk : k ≠ 0) {x y x' y' : ℝ} (hx : x' = k * (k * x)) (hy : y' = k * y) : x' / y' = k * (x / y) := by
  rw [hx, hy, mul_div_mul_left _ _ hk, mul_div_assoc]

theorem number_units (hk : k ≠ 0) {x y x' y' : ℝ} (hx : x' = k * x) (hy : y' = k * y) : x' / y' = x / y := by
  rw [hx, hy, mul_div_mul_left _ _ hk]

/-- C117, parameters. The moduli computed from each of the supported pairs are those of the pair in the other unit of stress, and
Poisson's ratio is the same. -/
theorem pair_units (hk : 0 < k) (eps : ℝ) (p : MatPair) :
    (scaledPair k p).toLamesFirstParameter eps = (p.toLamesFirstParameter eps).map (k * ·) ∧
    (scaledPair k p).toBulkModulus = p.toBulkModulus.map (k * ·) ∧
    (scaledPair k p).toShearModulus = p.toShearModulus.map (k * ·) ∧
    (scaledPair k p).toPWaveModulus = p.toPWaveModulus.map (k * ·) ∧
    (scaledPair k p).toPoissonsRatio = p.toPoissonsRatio ∧
    (scaledPair k p).toYoungsModulus = p.toYoungsModulus.map (k * ·) := by
  have h0 := hk.ne'
  cases p with
  | youngPoisson E nu =>
    refine ⟨?_, congrArg some (by ring), congrArg some (by ring), congrArg some (by ring), rfl, rfl⟩
    unfold scaledPair MatPair.toLamesFirstParameter
    dsimp only
    by_cases h : floatCmpEq eps nu (1 / 2)
    · rw [if_pos h, if_pos h]
      rfl
    · rw [if_neg h, if_neg h]
      exact congrArg some (by ring)
  | youngShear E mu =>
    exact ⟨congrArg some (ratio_units h0 (by ring) (by ring)), congrArg some (ratio_units h0 (by ring) (by ring)), rfl,
      congrArg some (ratio_units h0 (by ring) (by ring)), congrArg (fun x => some (x - 1)) (number_units h0 rfl (by ring)), rfl⟩
  | youngBulk E K =>
    exact ⟨congrArg some (ratio_units h0 (by ring) (by ring)), rfl, congrArg some (ratio_units h0 (by ring) (by ring)),
      congrArg some (ratio_units h0 (by ring) (by ring)), congrArg some (number_units h0 (by ring) (by ring)), rfl⟩
  | youngLambda E l =>
    have hR := calcR_units hk E l
    refine ⟨rfl, congrArg some ?_, congrArg some ?_, congrArg some ?_, congrArg some ?_, rfl⟩
    · rw [hR]; ring
    · rw [hR]; ring
    · rw [hR]; ring
    · rw [hR]
      exact number_units h0 (by ring) (by ring)
  | bulkLambda K l =>
    exact ⟨rfl, rfl, congrArg some (by ring), congrArg some (by ring), congrArg some (number_units h0 (by ring) (by ring)),
      congrArg some (ratio_units h0 (by ring) (by ring))⟩
  | lambdaShear l mu =>
    exact ⟨rfl, congrArg some (by ring), rfl, congrArg some (by ring), congrArg some (number_units h0 (by ring) (by ring)),
      congrArg some (ratio_units h0 (by ring) (by ring))⟩

/-- A material in newtons per square millimetre and in newtons per square metre. -/
example : (scaledPair 1000000 (.youngPoisson 250 (1 / 4))).toShearModulus = some 100000000 := by
  rw [(pair_units (by norm_num) 0 (.youngPoisson 250 (1 / 4))).2.2.1]
  norm_num [MatPair.toShearModulus]

/-! ### Materials -/

/-- C117, materials. St. Venant-Kirchhoff with Lamé constants in the other unit. -/
theorem svk_units (k : ℝ) (p : SVK ℝ) : ScaledMat k (svk p) (svk ⟨k * p.lambda, k * p.mu⟩) where
  tag := rfl
  factor := rfl
  energy e := by
    refine congrArg some ?_
    show k * p.lambda / 2 * e.trace * e.trace + k * p.mu * _ = k * (p.lambda / 2 * e.trace * e.trace + p.mu * _)
    ring
  stress e := by
    refine congrArg some ?_
    show (k * p.lambda * e.trace) • (1 : Matrix (Fin 3) (Fin 3) ℝ) + (2 * (k * p.mu)) • e =
      k • ((p.lambda * e.trace) • (1 : Matrix (Fin 3) (Fin 3) ℝ) + (2 * p.mu) • e)
    rw [smul_add, smul_smul, smul_smul]
    congr 2 <;> ring
  moduli _ := by
    refine congrArg some ?_
    funext i j r s
    show k * p.lambda * _ + 2 * (k * p.mu) * _ = k * (p.lambda * _ + 2 * p.mu * _)
    ring

/-- C117, materials. Neo-Hooke with Lamé constants in the other unit. -/
theorem neoHooke_units (k : ℝ) (p : NeoHooke) (eps : ℝ) :
    ScaledMat k (neoHooke p eps) (neoHooke ⟨k * p.lambda, k * p.mu⟩ eps) where
  tag := rfl
  factor := rfl
  energy C := by
    show NeoHooke.storedEnergy _ _ _ = (NeoHooke.storedEnergy _ _ _).map _
    unfold NeoHooke.storedEnergy
    dsimp only
    cases checkPositiveOrAbort eps C.det with
    | none => rfl
    | some _ =>
      refine congrArg some ?_
      beta_reduce
      ring
  stress C := by
    show NeoHooke.stresses _ _ _ = (NeoHooke.stresses _ _ _).map _
    unfold NeoHooke.stresses
    dsimp only
    cases checkPositiveOrAbort eps C.det with
    | none => rfl
    | some _ =>
      refine congrArg some ?_
      beta_reduce
      rw [smul_add, smul_smul, smul_smul, mul_assoc]
  moduli C := by
    show NeoHooke.tangentModuli _ _ _ = (NeoHooke.tangentModuli _ _ _).map _
    unfold NeoHooke.tangentModuli
    dsimp only
    cases checkPositiveOrAbort eps C.det with
    | none => rfl
    | some _ =>
      cases symTwoSlots (fourthOrderIKJL C⁻¹ C⁻¹) 2 3 with
      | none => rfl
      | some s =>
        refine congrArg some ?_
        funext i j r t
        show k * p.lambda * _ + 2 * (k * p.mu - k * p.lambda * _) * _ = k * (p.lambda * _ + 2 * (p.mu - p.lambda * _) * _)
        ring

/-! ### Deviatoric functions -/

/-- C117, materials. No deviatoric function. -/
theorem noDev_scale (k : ℝ) : ScaledDev k noDev noDev where
  energy _ := by simp [noDev]
  first _ := by simp [noDev]
  second _ := by simp [noDev]

/-- C117, materials. Blatz-Ko with the shear modulus in the other unit. -/
theorem blatzKo_scale (k mu : ℝ) : ScaledDev k (blatzKo mu) (blatzKo (k * mu)) where
  energy l := by
    refine congrArg some ?_
    show k * mu / 2 * _ = k * (mu / 2 * _)
    ring
  first l := by
    refine congrArg some ?_
    funext i
    show k * mu * _ = k * (mu * _)
    ring
  second l := by
    refine congrArg some ?_
    funext i j
    show _ * (k * mu) = k * (_ * mu)
    ring

section

variable {n : Nat}

/-- The Ogden parameters with the shear moduli in the other unit. -/
def Spec.scaledOgden (k : ℝ) (o : Ogden n) : Ogden n := ⟨fun i => k * o.mu i, o.alpha⟩

theorem scaledOgden_first (k : ℝ) (o : Ogden n) (l : Fin 3 → ℝ) :
    (scaledOgden k o).firstDerivativeDev l = k • o.firstDerivativeDev l := by
  funext a
  have h : ∀ b, ∑ j, k * o.mu j * deviatoricStretches l b ^ (o.alpha j - 1) =
      k * ∑ j, o.mu j * deviatoricStretches l b ^ (o.alpha j - 1) := fun b => by
    rw [Finset.mul_sum]
    exact Finset.sum_congr rfl fun j _ => by ring
  show (deviatoricStretches l a * (∑ j, k * o.mu j * deviatoricStretches l a ^ (o.alpha j - 1)) -
      1 / 3 * ∑ b, deviatoricStretches l b * ∑ j, k * o.mu j * deviatoricStretches l b ^ (o.alpha j - 1)) / l a =
    k * ((deviatoricStretches l a * (∑ j, o.mu j * deviatoricStretches l a ^ (o.alpha j - 1)) -
      1 / 3 * ∑ b, deviatoricStretches l b * ∑ j, o.mu j * deviatoricStretches l b ^ (o.alpha j - 1)) / l a)
  have h' : ∑ b, deviatoricStretches l b * ∑ j, k * o.mu j * deviatoricStretches l b ^ (o.alpha j - 1) =
      k * ∑ b, deviatoricStretches l b * ∑ j, o.mu j * deviatoricStretches l b ^ (o.alpha j - 1) := by
    rw [Finset.mul_sum]
    exact Finset.sum_congr rfl fun b _ => by rw [h b, mul_left_comm]
  rw [h', h a]
  ring

/-- C117, materials. Ogden with deviatoric stretches, shear moduli in the other unit. -/
theorem ogdenDev_scale (k : ℝ) (o : Ogden n) : ScaledDev k o.dev (scaledOgden k o).dev where
  energy l := by
    refine congrArg some ?_
    show ∑ i, k * o.mu i / o.alpha i * (∑ a, deviatoricStretches l a ^ o.alpha i - 3) =
      k * ∑ i, o.mu i / o.alpha i * (∑ a, deviatoricStretches l a ^ o.alpha i - 3)
    rw [Finset.mul_sum]
    exact Finset.sum_congr rfl fun i _ => by ring
  first l := congrArg some (scaledOgden_first k o l)
  second l := by
    show Ogden.secondDerivativeDev _ _ = (Ogden.secondDerivativeDev _ _).map _
    unfold Ogden.secondDerivativeDev
    by_cases hn : n ≤ 3
    · simp only [if_pos hn]
      refine congrArg some ?_
      funext a b
      show _ = k * _
      by_cases hab : a = b
      · simp only [if_pos hab, scaledOgden_first, Pi.smul_apply, smul_eq_mul]
        simp only [scaledOgden]
        rw [mul_sub, ← mul_assoc k (∑ p, _), Finset.mul_sum]
        congr 1
        · congr 1
          exact Finset.sum_congr rfl fun p _ => by ring
        · ring
      · simp only [if_neg hab]
        simp only [scaledOgden]
        rw [← mul_assoc k (∑ p, _), Finset.mul_sum]
        congr 1
        exact Finset.sum_congr rfl fun p _ => by ring
    · simp only [if_neg hn]
      rfl

/-- C117, materials. Ogden with total stretches, shear moduli in the other unit. -/
theorem ogdenTotal_scale (k : ℝ) (o : Ogden n) : ScaledDev k o.total (scaledOgden k o).total where
  energy l := by
    refine congrArg some ?_
    show ∑ i, (k * o.mu i / o.alpha i * (∑ a, l a ^ o.alpha i - 3) - k * o.mu i * Real.log (l 0 * l 1 * l 2)) =
      k * ∑ i, (o.mu i / o.alpha i * (∑ a, l a ^ o.alpha i - 3) - o.mu i * Real.log (l 0 * l 1 * l 2))
    rw [Finset.mul_sum]
    exact Finset.sum_congr rfl fun i _ => by ring
  first l := by
    refine congrArg some ?_
    funext a
    show ∑ j, (k * o.mu j * (l a ^ o.alpha j - 1)) / l a = k * ∑ j, (o.mu j * (l a ^ o.alpha j - 1)) / l a
    rw [Finset.mul_sum]
    exact Finset.sum_congr rfl fun i _ => by ring
  second l := by
    refine congrArg some ?_
    funext a b
    show Ogden.secondDerivativeTotal _ _ _ _ = k * Ogden.secondDerivativeTotal _ _ _ _
    unfold Ogden.secondDerivativeTotal
    by_cases hab : a = b
    · simp only [if_pos hab, scaledOgden]
      rw [Finset.mul_sum]
      exact Finset.sum_congr rfl fun i _ => by ring
    · simp only [if_neg hab, mul_zero]

/-- The invariant based parameters in the other unit. -/
def Spec.scaledInvariant (k : ℝ) (v : InvariantBased n) : InvariantBased n := ⟨v.pex, v.qex, fun i => k * v.mat i⟩

theorem optSum_scale {A : Type} [AddCommGroup A] [Module ℝ A] (f f' : Fin n → Option A) (h : ∀ p, f' p = (f p).map (k • ·)) :
    InvariantBased.optSum f' = (InvariantBased.optSum f).map (k • ·) := by
  unfold InvariantBased.optSum
  have hs : (∀ p, (f' p).isSome) ↔ ∀ p, (f p).isSome := forall_congr' fun p => by rw [h p, Option.isSome_map]
  by_cases hf : ∀ p, (f p).isSome
  · rw [if_pos hf, if_pos (hs.mpr hf)]
    refine congrArg some ?_
    beta_reduce
    rw [Finset.smul_sum]
    refine Finset.sum_congr rfl fun p _ => ?_
    obtain ⟨y, hy⟩ := Option.isSome_iff_exists.mp (hf p)
    rw [h p, hy]
    rfl
  · rw [if_neg hf, if_neg fun g => hf (hs.mp g)]
    rfl

/-- C117, materials. Invariant based functions (also Mooney-Rivlin and Yeoh), parameters in the other unit. -/
theorem invariantBased_scale (k : ℝ) (v : InvariantBased n) (eps : ℝ) :
    ScaledDev k (v.dev eps) ((scaledInvariant k v).dev eps) where
  energy l := by
    refine congrArg some ?_
    show ∑ i, k * v.mat i * _ * _ = k * ∑ i, v.mat i * _ * _
    rw [Finset.mul_sum]
    exact Finset.sum_congr rfl fun i _ => by simp only [mul_assoc]; rfl
  first l := by
    refine optSum_scale _ _ fun p => ?_
    unfold InvariantBased.firstTerm
    simp only [scaledInvariant]
    cases InvariantBased.powerAndMultiply eps (DeviatoricInvariants.W1 l - 3) (v.pex p - 1) (v.pex p) with
    | none => rfl
    | some x =>
      cases InvariantBased.powerAndMultiply eps (DeviatoricInvariants.W2 l - 3) (v.qex p - 1) (v.qex p) with
      | none => rfl
      | some y =>
        refine congrArg some ?_
        funext i
        show k * v.mat p * _ = k * (v.mat p * _)
        ring
  second l := by
    refine optSum_scale _ _ fun p => ?_
    unfold InvariantBased.secondTerm
    simp only [scaledInvariant]
    cases InvariantBased.powerAndMultiply eps (DeviatoricInvariants.W1 l - 3) (v.pex p - 1) (v.pex p) with
    | none => rfl
    | some x =>
      cases InvariantBased.powerAndMultiply eps (DeviatoricInvariants.W2 l - 3) (v.qex p - 1) (v.qex p) with
      | none => rfl
      | some y =>
        cases InvariantBased.powerAndMultiply eps (DeviatoricInvariants.W1 l - 3) (v.pex p - 2) (v.pex p * (v.pex p - 1)) with
        | none => rfl
        | some x' =>
          cases InvariantBased.powerAndMultiply eps (DeviatoricInvariants.W2 l - 3) (v.qex p - 2) (v.qex p * (v.qex p - 1)) with
          | none => rfl
          | some y' =>
            refine congrArg some ?_
            funext i j
            show _ = k * _
            by_cases hij : i = j
            · simp only [if_pos hij]
              ring
            · simp only [if_neg hij]
              ring

end

/-- C117, materials. Arruda-Boyce with the shear modulus in the other unit. -/
theorem arrudaBoyce_scale (k : ℝ) (b : ArrudaBoyce) : ScaledDev k b.dev (ArrudaBoyce.dev ⟨k * b.mu, b.lambdaM⟩) where
  energy l := by
    refine congrArg some ?_
    show _ * (k * b.mu) = k * (_ * b.mu)
    rw [mul_left_comm]
    rfl
  first l := by
    refine congrArg some ?_
    funext i
    show ∑ j : Fin 5, k * b.mu * _ * _ * _ * _ * _ = k * ∑ j : Fin 5, b.mu * _ * _ * _ * _ * _
    rw [Finset.mul_sum]
    exact Finset.sum_congr rfl fun i _ => by simp only [mul_assoc]; rfl
  second l := by
    refine congrArg some ?_
    funext i j
    show ∑ p : Fin 5, _ = k * ∑ p : Fin 5, _
    rw [Finset.mul_sum]
    refine Finset.sum_congr rfl fun p _ => ?_
    have hb : ArrudaBoyce.beta ⟨k * b.mu, b.lambdaM⟩ = b.beta := rfl
    rw [hb]
    by_cases hij : i = j
    · simp only [if_pos hij]
      ring
    · simp only [if_neg hij]
      ring

/-- C117, materials. Gent with the shear modulus in the other unit. -/
theorem gent_scale (k : ℝ) (g : Gent) (eps : ℝ) : ScaledDev k (g.dev eps) (Gent.dev ⟨k * g.mu, g.Jm⟩ eps) where
  energy l := by
    show ((Gent.checkJm ⟨k * g.mu, g.Jm⟩ eps (DeviatoricInvariants.W1 l)).bind _) = ((g.checkJm eps (DeviatoricInvariants.W1 l)).bind _).map _
    have hc : Gent.checkJm ⟨k * g.mu, g.Jm⟩ eps (DeviatoricInvariants.W1 l) = g.checkJm eps (DeviatoricInvariants.W1 l) := rfl
    rw [hc]
    cases g.checkJm eps (DeviatoricInvariants.W1 l) with
    | none => rfl
    | some _ =>
      refine congrArg some ?_
      beta_reduce
      ring
  first l := by
    show ((Gent.checkJm ⟨k * g.mu, g.Jm⟩ eps (DeviatoricInvariants.W1 l)).bind _) = ((g.checkJm eps (DeviatoricInvariants.W1 l)).bind _).map _
    have hc : Gent.checkJm ⟨k * g.mu, g.Jm⟩ eps (DeviatoricInvariants.W1 l) = g.checkJm eps (DeviatoricInvariants.W1 l) := rfl
    rw [hc]
    cases g.checkJm eps (DeviatoricInvariants.W1 l) with
    | none => rfl
    | some _ =>
      refine congrArg some ?_
      funext i
      show (k * g.mu * _ * _) / _ = k * ((g.mu * _ * _) / _)
      ring
  second l := by
    show ((Gent.checkJm ⟨k * g.mu, g.Jm⟩ eps (DeviatoricInvariants.W1 l)).bind _) = ((g.checkJm eps (DeviatoricInvariants.W1 l)).bind _).map _
    have hc : Gent.checkJm ⟨k * g.mu, g.Jm⟩ eps (DeviatoricInvariants.W1 l) = g.checkJm eps (DeviatoricInvariants.W1 l) := rfl
    rw [hc]
    cases g.checkJm eps (DeviatoricInvariants.W1 l) with
    | none => rfl
    | some _ =>
      refine congrArg some ?_
      funext i j
      show _ - _ = k * (_ - _)
      by_cases hij : i = j
      · simp only [if_pos hij]
        ring
      · simp only [if_neg hij]
        ring

/-! ### Hyperelastic materials -/

theorem devStresses_scale {f f' : DevFun} (h : ScaledDev k f f') (l : Fin 3 → ℝ) : f'.stresses l = (f.stresses l).map (k • ·) := by
  unfold DevFun.stresses
  rw [h.first]
  cases f.firstDerivative l with
  | none => rfl
  | some x =>
    refine congrArg some ?_
    funext i
    show k * x i / l i = k * (x i / l i)
    ring

theorem devModuli_scale {f f' : DevFun} (h : ScaledDev k f f') (eps : ℝ) (l : Fin 3 → ℝ) :
    f'.tangentModuli eps l = (f.tangentModuli eps l).map (k • ·) := by
  unfold DevFun.tangentModuli
  rw [devStresses_scale h, h.second]
  cases f.stresses l with
  | none => rfl
  | some S =>
    cases f.secondDerivative l with
    | none => rfl
    | some D =>
      refine congrArg some ?_
      funext i j r s
      simp only [Pi.smul_apply, Matrix.smul_apply, smul_eq_mul]
      by_cases h1 : i = j ∧ r = s
      · rw [if_pos h1, if_pos h1]
        ring
      · rw [if_neg h1, if_neg h1]
        by_cases h2 : i = r ∧ j = s
        · rw [if_pos h2, if_pos h2]
          by_cases h3 : floatCmpEq eps (l i) (l j)
          · rw [if_pos h3, if_pos h3]
            ring
          · rw [if_neg h3, if_neg h3]
            ring
        · rw [if_neg h2, if_neg h2, mul_zero]

/-- C117, materials. A hyperelastic material of a deviatoric and a volumetric function whose parameters are in the other unit. -/
theorem hyperelastic_scaledLaw (h : Hyperelastic) {dev' : DevFun} (hd : ScaledDev k h.dev dev') (solver : EigenSolver) (eps epsEq : ℝ) :
    ScaledMat k (hyperelasticMat h solver eps epsEq) (hyperelasticMat ⟨dev', ⟨k * h.vol.matPar, h.vol.vf⟩⟩ solver eps epsEq) where
  tag := rfl
  factor := rfl
  energy C := by
    show Hyperelastic.storedEnergy _ _ _ _ = (Hyperelastic.storedEnergy _ _ _ _).map _
    unfold Hyperelastic.storedEnergy
    cases principalStretches solver C with
    | none => rfl
    | some lN =>
      show ((Hyperelastic.detF eps lN.1).bind _) = ((Hyperelastic.detF eps lN.1).bind _).map _
      cases Hyperelastic.detF eps lN.1 with
      | none => rfl
      | some J =>
        show ((dev'.storedEnergy lN.1).bind _) = ((h.dev.storedEnergy lN.1).bind _).map _
        rw [hd.energy]
        cases h.dev.storedEnergy lN.1 with
        | none => rfl
        | some W =>
          refine congrArg some ?_
          show k * W + k * h.vol.matPar * _ = k * (W + h.vol.matPar * _)
          ring
  stress C := by
    show Hyperelastic.stresses _ _ _ _ = (Hyperelastic.stresses _ _ _ _).map _
    unfold Hyperelastic.stresses
    cases principalStretches solver C with
    | none => rfl
    | some lN =>
      show ((Hyperelastic.detF eps lN.1).bind _) = ((Hyperelastic.detF eps lN.1).bind _).map _
      cases Hyperelastic.detF eps lN.1 with
      | none => rfl
      | some J =>
        show ((dev'.stresses lN.1).bind _) = ((h.dev.stresses lN.1).bind _).map _
        rw [devStresses_scale hd]
        cases h.dev.stresses lN.1 with
        | none => rfl
        | some S =>
          refine congrArg some ?_
          show lN.2 * diagonal (k • S) * lN.2ᵀ + (J * (k * h.vol.matPar * _)) • C⁻¹ =
            k • (lN.2 * diagonal S * lN.2ᵀ + (J * (h.vol.matPar * _)) • C⁻¹)
          rw [Matrix.diagonal_smul, Matrix.mul_smul, Matrix.smul_mul, smul_add, smul_smul]
          congr 2
          ring
  moduli C := by
    show Hyperelastic.tangentModuli _ _ _ _ _ = (Hyperelastic.tangentModuli _ _ _ _ _).map _
    unfold Hyperelastic.tangentModuli
    cases principalStretches solver C with
    | none => rfl
    | some lN =>
      show ((Hyperelastic.detF eps lN.1).bind _) = ((Hyperelastic.detF eps lN.1).bind _).map _
      cases Hyperelastic.detF eps lN.1 with
      | none => rfl
      | some J =>
        show ((dev'.tangentModuli epsEq lN.1).bind _) = ((h.dev.tangentModuli epsEq lN.1).bind _).map _
        rw [devModuli_scale hd]
        cases h.dev.tangentModuli epsEq lN.1 with
        | none => rfl
        | some L =>
          unfold Hyperelastic.transformVolumetricTangentModuli
          dsimp only
          cases symTwoSlots (fourthOrderIKJL C⁻¹ C⁻¹) 2 3 with
          | none => rfl
          | some s =>
            refine congrArg some ?_
            funext i j r t
            show Hyperelastic.transformDeviatoricTangentModuli (k • L) lN.2 i j r t +
                J * ((k * h.vol.matPar * _ + J * (k * h.vol.matPar * _)) * _ - 2 * (k * h.vol.matPar * _) * _) =
              k * (Hyperelastic.transformDeviatoricTangentModuli L lN.2 i j r t +
                J * ((h.vol.matPar * _ + J * (h.vol.matPar * _)) * _ - 2 * (h.vol.matPar * _) * _))
            rw [mul_add]
            congr 1
            · unfold Hyperelastic.transformDeviatoricTangentModuli
              rw [Finset.mul_sum]
              refine Finset.sum_congr rfl fun x _ => ?_
              rw [Finset.mul_sum]
              refine Finset.sum_congr rfl fun y _ => ?_
              simp only [Pi.smul_apply, smul_eq_mul]
              split <;> ring
            · ring

/-! ### The materials of elements -/

theorem Spec.ScaledMat.underlying {m m' : Mat} (h : ScaledMat k m m') : ScaledUnderlying k (Element.underlying m) (Element.underlying m') where
  tag := h.tag
  factor := h.factor
  energy := h.energy
  stress e := by
    show (m'.stress e).map _ = ((m.stress e).map _).map _
    rw [h.stress]
    cases m.stress e with
    | none => rfl
    | some S =>
      refine congrArg some ?_
      funext i
      fin_cases i <;> simp [toVoigt3, strainFactor]
  moduli e := by
    show (m'.moduli e).map _ = ((m.moduli e).map _).map _
    rw [h.moduli]
    cases m.moduli e with
    | none => rfl
    | some L => rfl

theorem getD_map_smul {A : Type*} [AddCommGroup A] [Module ℝ A] (o : Option A) : (o.map (k • ·)).getD 0 = k • o.getD 0 := by
  cases o with
  | none => exact (smul_zero k).symm
  | some _ => rfl

/-- C117, materials. The material of an element in space. -/
theorem spaceLaw_scale (msqrt : M3 → M3) {m m' : Mat} (h : ScaledMat k m m') : ScaledLaw k (spaceLaw msqrt m) (spaceLaw msqrt m') where
  energy x := by
    show ((transformStrain msqrt .greenLagrangian m'.strainTag _).bind m'.energy).getD 0 = k • (Option.bind _ m.energy).getD 0
    rw [h.tag, ← getD_map_smul, Option.map_bind]
    congr 2
    funext e
    exact h.energy e
  stress x := by
    show ((transformStrain msqrt .greenLagrangian m'.strainTag _).bind _).getD 0 = k • (Option.bind _ _).getD 0
    rw [h.tag, ← getD_map_smul, Option.map_bind]
    congr 2
    funext e
    exact h.underlying.stress e
  tangent x := by
    show ((transformStrain msqrt .greenLagrangian m'.strainTag _).bind _).getD 0 = k • (Option.bind _ _).getD 0
    rw [h.tag, ← getD_map_smul, Option.map_bind]
    congr 2
    funext e
    exact h.underlying.moduli e

theorem removeCol_scale {n r : Nat} (v : Fin n → ℝ) (idx : Fin r → Fin n) : removeCol (k • v) idx = (removeCol v idx).map (k • ·) := by
  unfold removeCol
  cases remainingIndices idx <;> rfl

theorem reduceMatrix_scale {n r : Nat} (E : Matrix (Fin n) (Fin n) ℝ) (idx : Fin r → Fin n) :
    reduceMatrix (k • E) idx = (reduceMatrix E idx).map (k • ·) := by
  unfold reduceMatrix
  cases remainingIndices idx <;> rfl

theorem inv_scale {n : Nat} (hk : k ≠ 0) (A : Matrix (Fin n) (Fin n) ℝ) : (k • A)⁻¹ = k⁻¹ • A⁻¹ := by
  by_cases hA : IsUnit A.det
  · refine Matrix.inv_eq_left_inv ?_
    rw [Matrix.smul_mul, Matrix.mul_smul, smul_smul, inv_mul_cancel₀ hk, one_smul, Matrix.nonsing_inv_mul _ hA]
  · have h0 : A.det = 0 := not_not.mp fun h => hA (isUnit_iff_ne_zero.mpr h)
    have h1 : ¬ IsUnit (k • A).det := by
      rw [Matrix.det_smul, h0, mul_zero]
      exact not_isUnit_zero
    rw [Matrix.nonsing_inv_apply_not_isUnit _ hA, Matrix.nonsing_inv_apply_not_isUnit _ h1, smul_zero]

theorem staticCondensation_scale {n r : Nat} (hk : k ≠ 0) (E : Matrix (Fin n) (Fin n) ℝ) (idx : Fin r → Fin n) :
    staticCondensation (k • E) idx = (staticCondensation E idx).map (k • ·) := by
  unfold staticCondensation
  cases remainingIndices idx with
  | none => rfl
  | some rem =>
    refine congrArg some ?_
    show k • E.submatrix rem rem - (k • E.submatrix idx rem)ᵀ * (k • E.submatrix idx idx)⁻¹ * (k • E.submatrix idx rem) =
      k • (E.submatrix rem rem - (E.submatrix idx rem)ᵀ * (E.submatrix idx idx)⁻¹ * E.submatrix idx rem)
    rw [inv_scale hk, Matrix.transpose_smul, Matrix.smul_mul, Matrix.smul_mul, Matrix.mul_smul, Matrix.mul_smul, Matrix.smul_mul, smul_sub,
      smul_smul k k⁻¹, mul_inv_cancel₀ hk, one_smul]

section reduced

variable {r : Nat} (fixed : Fin r → Fin 3 × Fin 3) {m m' : UnderlyingLaw}

theorem reduceStrain_scale (h : ScaledUnderlying k m m') (msqrt : M3 → M3) (E : StrainArg) :
    VanishingStrain.reduceStrain m' fixed msqrt E = VanishingStrain.reduceStrain m fixed msqrt E := by
  unfold VanishingStrain.reduceStrain
  rw [h.tag]

/-- C117, materials. The material of a plane element in plane strain. -/
theorem planeStrainLaw_scale (msqrt : M3 → M3) {m m' : Mat} (h : ScaledMat k m m') :
    ScaledLaw k (planeStrainLaw msqrt m) (planeStrainLaw msqrt m') where
  energy x := by
    show ((planeArgument msqrt m' x).bind _).getD (0 : ℝ) = k • ((planeArgument msqrt m x).bind _).getD (0 : ℝ)
    have hp : planeArgument msqrt m' x = planeArgument msqrt m x := by unfold planeArgument; rw [h.tag]
    rw [hp, ← getD_map_smul, Option.map_bind]
    congr 2
    funext E
    show (VanishingStrain.reduceStrain _ _ _ _).bind _ = ((VanishingStrain.reduceStrain _ _ _ _).bind _).map _
    rw [reduceStrain_scale _ h.underlying, Option.map_bind]
    congr 1
    funext e
    exact h.energy e
  stress x := by
    show ((planeArgument msqrt m' x).bind _).getD 0 = k • ((planeArgument msqrt m x).bind _).getD 0
    have hp : planeArgument msqrt m' x = planeArgument msqrt m x := by unfold planeArgument; rw [h.tag]
    rw [hp, ← getD_map_smul, Option.map_bind]
    congr 2
    funext E
    show (VanishingStrain.reduceStrain _ _ _ _).bind _ = ((VanishingStrain.reduceStrain _ _ _ _).bind _).map _
    rw [reduceStrain_scale _ h.underlying, Option.map_bind]
    congr 1
    funext e
    show ((Element.underlying m').stress e).bind _ = (((Element.underlying m).stress e).bind _).map _
    rw [h.underlying.stress]
    cases (Element.underlying m).stress e with
    | none => rfl
    | some S => exact removeCol_scale S _
  tangent x := by
    show ((planeArgument msqrt m' x).bind _).getD 0 = k • ((planeArgument msqrt m x).bind _).getD 0
    have hp : planeArgument msqrt m' x = planeArgument msqrt m x := by unfold planeArgument; rw [h.tag]
    rw [hp, ← getD_map_smul, Option.map_bind]
    congr 2
    funext E
    show (VanishingStrain.reduceStrain _ _ _ _).bind _ = ((VanishingStrain.reduceStrain _ _ _ _).bind _).map _
    rw [reduceStrain_scale _ h.underlying, Option.map_bind]
    congr 1
    funext e
    show ((Element.underlying m').moduli e).bind _ = (((Element.underlying m).moduli e).bind _).map _
    rw [h.underlying.moduli]
    cases (Element.underlying m).moduli e with
    | none => rfl
    | some S => exact reduceMatrix_scale S _

/-- A rubber with an Ogden and a volumetric function in plane strain, and twice the modulus. -/
example (msqrt : M3 → M3) (solver : EigenSolver) : ScaledLaw 2
    (planeStrainLaw msqrt (hyperelasticMat ⟨Ogden.dev ⟨![1, 3], ![2, -2]⟩, ⟨5, .f3⟩⟩ solver 0 0))
    (planeStrainLaw msqrt (hyperelasticMat ⟨(scaledOgden 2 ⟨![1, 3], ![2, -2]⟩).dev, ⟨2 * 5, .f3⟩⟩ solver 0 0)) :=
  planeStrainLaw_scale msqrt (hyperelastic_scaledLaw ⟨Ogden.dev ⟨![1, 3], ![2, -2]⟩, ⟨5, .f3⟩⟩ (ogdenDev_scale 2 _) solver 0 0)

/-! ### Plane stress -/

theorem euclid_scale {n : Nat} (hk : 0 < k) (v : Fin n → ℝ) : euclid (k • v) = k * euclid v := by
  unfold euclid
  have : ∑ r, (k • v) r * (k • v) r = k ^ 2 * ∑ r, v r * v r := by
    rw [Finset.mul_sum]
    exact Finset.sum_congr rfl fun r _ => by show (k * v r) * (k * v r) = _; ring
  rw [this, Real.sqrt_mul (sq_nonneg k), Real.sqrt_sq hk.le]

open Classical in
theorem linearSolve_scale {n : Nat} (hk : k ≠ 0) (A : Option (Matrix (Fin n) (Fin n) ℝ)) (v : Option (Fin n → ℝ)) :
    linearSolve (A.map (k • ·)) (v.map (k • ·)) = linearSolve A v := by
  cases A with
  | none => rfl
  | some A =>
    cases v with
    | none => rfl
    | some v =>
      show (if (k • A).det = 0 then none else some (-((k • A)⁻¹ *ᵥ (k • v)))) = if A.det = 0 then none else some (-(A⁻¹ *ᵥ v))
      have hd : (k • A).det = 0 ↔ A.det = 0 := by
        rw [Matrix.det_smul, mul_eq_zero]
        exact or_iff_right (pow_ne_zero _ hk)
      by_cases h0 : A.det = 0
      · rw [if_pos h0, if_pos (hd.mpr h0)]
      · rw [if_neg h0, if_neg fun g => h0 (hd.mp g), inv_scale hk, Matrix.smul_mulVec, Matrix.mulVec_smul, smul_smul,
          inv_mul_cancel₀ hk, one_smul]

/-- The states of the loop of the reduction for the two materials. -/
structure SameReduction (k : ℝ) {n : Nat}
    (s s' : NRLoop (Option M3) (Option (Fin n → ℝ)) (Option (Matrix (Fin n) (Fin n) ℝ)) (Option (Fin n → ℝ)) (Option ℝ)) : Prop where
  x : s'.x = s.x
  rx : s'.rx = s.rx.map (k • ·)
  Ax : s'.Ax = s.Ax.map (k • ·)
  rNorm : s'.rNorm = s.rNorm.map (k * ·)
  iter : s'.iter = s.iter
  success : s'.info.success = s.info.success

theorem residual_scale (h : ScaledUnderlying k m m') (x : Option M3) :
    x.bind (VanishingStress.residual m' fixed) = (x.bind (VanishingStress.residual m fixed)).map (k • ·) := by
  cases x with
  | none => rfl
  | some E =>
    show (m'.stress E).map _ = ((m.stress E).map _).map _
    rw [h.stress]
    cases m.stress E <;> rfl

theorem jacobian_scale (h : ScaledUnderlying k m m') (x : Option M3) :
    x.bind (VanishingStress.jacobian m' fixed) = (x.bind (VanishingStress.jacobian m fixed)).map (k • ·) := by
  cases x with
  | none => rfl
  | some E =>
    show (m'.moduli E).map _ = ((m.moduli E).map _).map _
    rw [h.moduli, h.factor]
    cases m.moduli E with
    | none => rfl
    | some C =>
      refine congrArg some ?_
      ext i j
      exact mul_div_assoc _ _ _

theorem norm_scale {n : Nat} (hk : 0 < k) (v : Option (Fin n → ℝ)) : (v.map (k • ·)).map euclid = (v.map euclid).map (k * ·) := by
  cases v with
  | none => rfl
  | some v => exact congrArg some (euclid_scale hk v)

theorem same_start (hk : 0 < k) (h : ScaledUnderlying k m m') (nfGt : Bool) (E : Option M3) (c) :
    SameReduction k ((problem m fixed nfGt).start E () c) ((problem m' fixed nfGt).start E () c) where
  x := rfl
  rx := residual_scale fixed h E
  Ax := jacobian_scale fixed h E
  rNorm := (congrArg _ (residual_scale fixed h E)).trans (norm_scale hk _)
  iter := rfl
  success := rfl

theorem same_body (hk : 0 < k) (h : ScaledUnderlying k m m') (nfGt : Bool) {s s'} (hs : SameReduction k s s') :
    SameReduction k ((problem m fixed nfGt).body s) ((problem m' fixed nfGt).body s') := by
  have hx : ((problem m' fixed nfGt).body s').x = ((problem m fixed nfGt).body s).x := by
    show s'.x.bind (fun E => (linearSolve s'.Ax s'.rx).map (updateStrain fixed E)) =
      s.x.bind fun E => (linearSolve s.Ax s.rx).map (updateStrain fixed E)
    rw [hs.x, hs.rx, hs.Ax, linearSolve_scale hk.ne']
  have hr : ((problem m' fixed nfGt).body s').rx = ((problem m fixed nfGt).body s).rx.map (k • ·) :=
    (congrArg (fun x => x.bind (VanishingStress.residual m' fixed)) hx).trans (residual_scale fixed h _)
  refine ⟨hx, hr, ?_, ?_, ?_, hs.success⟩
  · exact (congrArg (fun x => x.bind (VanishingStress.jacobian m' fixed)) hx).trans (jacobian_scale fixed h _)
  · exact (congrArg (fun v => v.map euclid) hr).trans (norm_scale hk _)
  · exact congrArg (· + 1) hs.iter

theorem same_cond (hk : 0 < k) (nfGt : Bool) (tol : ℝ) {s s'} (hs : SameReduction k s s') :
    (problem m' fixed nfGt).cond ⟨some (k * tol), 100, 0⟩ s' = (problem m fixed nfGt).cond ⟨some tol, 100, 0⟩ s := by
  have hg : (problem m' fixed nfGt).gt s'.rNorm (some (k * tol)) = (problem m fixed nfGt).gt s.rNorm (some tol) := by
    rw [hs.rNorm]
    cases s.rNorm with
    | none => rfl
    | some x =>
      show decide (k * x > k * tol) = decide (x > tol)
      exact decide_eq_decide.mpr (mul_lt_mul_iff_right₀ hk)
  unfold NRProblem.cond
  rw [hg, hs.iter]

theorem same_loop (hk : 0 < k) (h : ScaledUnderlying k m m') (nfGt : Bool) (tol : ℝ) (fuel : Nat) {s s'} (hs : SameReduction k s s') :
    Option.Rel (SameReduction k) ((problem m fixed nfGt).loop ⟨some tol, 100, 0⟩ fuel s)
      ((problem m' fixed nfGt).loop ⟨some (k * tol), 100, 0⟩ fuel s') := by
  induction fuel generalizing s s' with
  | zero =>
    unfold NRProblem.loop
    rw [same_cond fixed (m := m) hk nfGt tol hs]
    split
    · exact .none
    · exact .some hs
  | succ fuel ih =>
    unfold NRProblem.loop
    rw [same_cond fixed (m := m) hk nfGt tol hs]
    split
    · exact ih (same_body fixed hk h nfGt hs)
    · exact .some hs

theorem initUnknownStrains_scale (h : ScaledUnderlying k m m') (E : M3) :
    initUnknownStrains m' fixed E = initUnknownStrains m fixed E := by
  unfold initUnknownStrains initialValue
  rw [h.tag]

/-- C117, materials. The reduction of a material with vanishing stresses finds the same strain if its tolerance is in the other unit
of stress, too. -/
theorem reduceStress_scale (hk : 0 < k) (h : ScaledUnderlying k m m') (nfGt : Bool) (tol : ℝ) (E : StrainArg) :
    reduceStress m' fixed nfGt (k * tol) E = reduceStress m fixed nfGt tol E := by
  unfold reduceStress
  dsimp only
  rw [initUnknownStrains_scale fixed h]
  unfold NRProblem.solve
  have hl := same_loop fixed hk h nfGt tol 100 (same_start fixed hk h nfGt (some (initUnknownStrains m fixed E.maybeFromVoigt)) (some 0))
  revert hl
  generalize (problem m fixed nfGt).loop _ _ _ = o
  generalize (problem m' fixed nfGt).loop _ _ _ = o'
  rintro (_ | hs)
  · rename_i s s' hs
    have hf : ∀ (t : NRLoop (Option M3) (Option (Fin (numDiagonal fixed) → ℝ)) (Option (Matrix (Fin (numDiagonal fixed))
        (Fin (numDiagonal fixed)) ℝ)) (Option (Fin (numDiagonal fixed) → ℝ)) (Option ℝ)) (tol : Option ℝ),
        (NRProblem.finish ⟨tol, 100, 0⟩ t).x = t.x ∧
        (NRProblem.finish ⟨tol, 100, 0⟩ t).info.success = (if (t.iter : Int) = 100 then false else t.info.success) := by
      intro t tol
      unfold NRProblem.finish
      dsimp only
      by_cases hi : (t.iter : Int) = 100
      · simp [hi]
      · simp only [if_neg hi]
        cases hq : t.info.success <;> simp [NRLoop.notify]
    show (if (NRProblem.finish _ s').info.success then some (NRProblem.finish _ s').x else none) =
      if (NRProblem.finish _ s).info.success then some (NRProblem.finish _ s).x else none
    rw [(hf s' _).1, (hf s' _).2, (hf s _).1, (hf s _).2, hs.x, hs.iter, hs.success]
  · rfl

end reduced

/-- C117, materials. The material of a plane element in plane stress, if the tolerance of the reduction is in the other unit, too. -/
theorem planeStressLaw_scale_partial (hk : 0 < k) (msqrt : M3 → M3) {m m' : Mat} (h : ScaledMat k m m') (nfGt : Bool) (tol : ℝ) :
    ScaledLaw k (planeStressLaw msqrt m nfGt tol) (planeStressLaw msqrt m' nfGt (k * tol)) where
  energy x := by
    show ((planeArgument msqrt m' x).bind _).getD (0 : ℝ) = k • ((planeArgument msqrt m x).bind _).getD (0 : ℝ)
    have hp : planeArgument msqrt m' x = planeArgument msqrt m x := by unfold planeArgument; rw [h.tag]
    rw [hp, ← getD_map_smul, Option.map_bind]
    congr 2
    funext E
    show ((reduceStress _ _ _ _ _).map _).join = (((reduceStress _ _ _ _ _).map _).join).map _
    rw [reduceStress_scale _ hk h.underlying]
    rcases reduceStress (underlying m) planeStressPairs nfGt tol (.matrix E) with _ | _ | e
    · rfl
    · rfl
    · exact h.energy e
  stress x := by
    show ((planeArgument msqrt m' x).bind _).getD 0 = k • ((planeArgument msqrt m x).bind _).getD 0
    have hp : planeArgument msqrt m' x = planeArgument msqrt m x := by unfold planeArgument; rw [h.tag]
    rw [hp, ← getD_map_smul, Option.map_bind]
    congr 2
    funext E
    show ((reduceStress _ _ _ _ _).map _).join = (((reduceStress _ _ _ _ _).map _).join).map _
    rw [reduceStress_scale _ hk h.underlying]
    rcases reduceStress (underlying m) planeStressPairs nfGt tol (.matrix E) with _ | _ | e
    · rfl
    · rfl
    · show ((underlying m').stress e).bind _ = (((underlying m).stress e).bind _).map _
      rw [h.underlying.stress]
      cases (underlying m).stress e with
      | none => rfl
      | some S => exact removeCol_scale S _
  tangent x := by
    show ((planeArgument msqrt m' x).bind _).getD 0 = k • ((planeArgument msqrt m x).bind _).getD 0
    have hp : planeArgument msqrt m' x = planeArgument msqrt m x := by unfold planeArgument; rw [h.tag]
    rw [hp, ← getD_map_smul, Option.map_bind]
    congr 2
    funext E
    show ((reduceStress _ _ _ _ _).map _).join = (((reduceStress _ _ _ _ _).map _).join).map _
    rw [reduceStress_scale _ hk h.underlying]
    rcases reduceStress (underlying m) planeStressPairs nfGt tol (.matrix E) with _ | _ | e
    · rfl
    · rfl
    · show ((underlying m').moduli e).bind _ = (((underlying m).moduli e).bind _).map _
      rw [h.underlying.moduli]
      cases (underlying m).moduli e with
      | none => rfl
      | some S => exact staticCondensation_scale hk.ne' S _

/-- The full claim: the material of a plane element in plane stress does not depend on the unit of stress; the tolerance is the one
of `planeStress(mat)`, which knows nothing of units (vanishingstress.hh:254, python/finiteelements/material.hh). -/
def Spec.PlaneStressUnits : Prop :=
  ∀ (k : ℝ), 0 < k → ∀ (msqrt : M3 → M3) (m m' : Mat), ScaledMat k m m' → ∀ (nfGt : Bool) (tol : ℝ), 0 < tol →
    ScaledLaw k (planeStressLaw msqrt m nfGt tol) (planeStressLaw msqrt m' nfGt tol)

/-- C117, materials: with the same tolerance the claim is false, for St. Venant-Kirchhoff material with `lambda ≠ 0` and every
tolerance: there is a strain and a unit of stress for which the stress is another one. -/
theorem planeStress_units_false : ¬ PlaneStressUnits ∧
    ∀ (msqrt : M3 → M3) (p : SVK ℝ), 0 < p.mu → 0 < p.lambda → ∀ (nfGt : Bool) (tol : ℝ), 0 < tol → ∀ k : ℝ, 1 < k → ∃ a : ℝ,
      (planeStressLaw msqrt (svk ⟨k * p.lambda, k * p.mu⟩) nfGt tol).stress ![a, 0, 0] ≠
        k • (planeStressLaw msqrt (svk p) nfGt tol).stress ![a, 0, 0] := by
  have key : ∀ (msqrt : M3 → M3) (p : SVK ℝ), 0 < p.mu → 0 < p.lambda → ∀ (nfGt : Bool) (tol : ℝ), 0 < tol → ∀ k : ℝ, 1 < k → ∃ a : ℝ,
      (planeStressLaw msqrt (svk ⟨k * p.lambda, k * p.mu⟩) nfGt tol).stress ![a, 0, 0] ≠
        k • (planeStressLaw msqrt (svk p) nfGt tol).stress ![a, 0, 0] := by
    intro msqrt p hmu hl nfGt tol htol k hk
    refine ⟨tol / p.lambda, fun h => ?_⟩
    have h0 := congrFun h 0
    have ha : p.lambda * (tol / p.lambda) = tol := by field_simp
    have hk0 : 0 < k := by linarith
    rw [Pi.smul_apply, planeStress_uniaxial msqrt p hmu.ne' (by positivity) nfGt htol.le,
      planeStress_uniaxial msqrt ⟨k * p.lambda, k * p.mu⟩ (by positivity) (by positivity) nfGt htol.le, ha, abs_of_pos htol,
      if_pos le_rfl, if_neg (by
        show ¬ |k * p.lambda * (tol / p.lambda)| ≤ tol
        rw [mul_assoc, ha, abs_of_pos (by positivity)]
        nlinarith), smul_eq_mul] at h0
    have ht : 0 < tol / p.lambda := by positivity
    have h1 : 2 * (k * p.lambda) * (k * p.mu) / (k * p.lambda + 2 * (k * p.mu)) + 2 * (k * p.mu) = k * (p.lambda + 2 * p.mu) := by
      refine mul_right_cancel₀ ht.ne' (h0.trans ?_)
      ring
    have h2 : 2 * (k * p.lambda) * (k * p.mu) / (k * p.lambda + 2 * (k * p.mu)) = k * p.lambda := by linarith
    rw [div_eq_iff (by positivity)] at h2
    have h3 : k * k * p.lambda * p.lambda = 0 := by nlinarith
    have : 0 < k * k * p.lambda * p.lambda := by positivity
    linarith
  refine ⟨fun h => ?_, key⟩
  obtain ⟨a, ha⟩ := key id ⟨1, 1⟩ one_pos one_pos false 1 one_pos 2 (by norm_num)
  exact ha ((h 2 (by norm_num) id _ _ (svk_units 2 ⟨1, 1⟩) false 1 one_pos).stress _)

end Ikarus.Element
