import Verif.Material.DeviatoricProps
import Mathlib.Analysis.SpecialFunctions.Exp
import Mathlib.Analysis.SpecialFunctions.Trigonometric.DerivHyp

/-!
C116: the Arruda-Boyce material (deviatoric/arrudaboyce.hh) against the eight chain model.  In that model a chain with the
relative stretch `x` pulls with `L⁻¹(x)`, where `L` is the Langevin function.
-/

namespace Ikarus

open Filter Asymptotics Topology DeviatoricInvariants

/-! ### Specification -/

/-- The Langevin function. -/
noncomputable def Spec.langevin (y : ℝ) : ℝ := Real.cosh y / Real.sinh y - 1 / y

/-- `f` inverts the Langevin function for small arguments, with an error of order `n`. -/
def Spec.InvertsLangevin (f : ℝ → ℝ) (n : ℕ) : Prop := (fun x => Spec.langevin (f x) - x) =O[𝓝[≠] 0] fun x => x ^ n

/-- The material pulls with the chain force `f`: the stretch of the chains relative to the largest one is `x = √(I / 3) / λm`. -/
def Spec.ChainMaterial (mu lambdaM : ℝ) (f : ℝ → ℝ) (dev : DevFun) : Prop :=
  ∀ l : Fin 3 → ℝ, (∀ a, 0 < l a) → dev.firstDerivative l = some fun k =>
    let x := √(W1 l / 3) / lambdaM
    mu / 6 * (f x / x) * dW1 l k

/-! ### The polynomial -/

/-- The quotient of the chain force and the stretch. -/
noncomputable def chainQuotient (t : ℝ) : ℝ := 3 + 9 / 5 * t + 297 / 175 * t ^ 2 + 1539 / 875 * t ^ 3 + 126117 / 67375 * t ^ 4

/-- The chain force of the material. -/
noncomputable def chainForce (x : ℝ) : ℝ := x * chainQuotient (x ^ 2)

/-- What is left of the series after five terms, divided by the common power. -/
noncomputable def chainRest (t : ℝ) : ℝ :=
    (-143290053/215600000 + t * (-536691987/1078000000 + t * (-4701151143/7546000000 + t * (-12614604231753/14526050000000
    + t * (-6348170942451/5187875000000 + t * (-2153943169449741/1271029375000000 + t *
    (-2239548865646859/1271029375000000 + t * (-838588440998780001/489346309375000000 + t *
    (-7195376903102912151/4893463093750000000 + t * (-14782782473494226901/15570109843750000000 + t *
    (-196886618378865999/3114021968750000000 + t * (67091651735596717777389/65939415188281250000000 + t *
    (237112046619773204090187/103030336231689453125000 + t * (762903310980550525792659/206060672463378906250000 + t *
    (1335552208334874028534941/262259037680664062500000 + t * (35047568168650018768727110689/5553335122888061523437500000
    + t * (796158837250547863469912967519/111066702457761230468750000000 + t *
    (29515175946517440466995015114783/3887334586021643066406250000000 + t *
    (147080958141446517965297903500581/19436672930108215332031250000000 + t *
    (1088323666447729705806470186139543/152716715879421691894531250000000 + t *
    (11884519611946330206728043121744581/1870779769522915725708007812500000 + t *
    (7176508956639094957796942646629589/1336271263944939804077148437500000 + t *
    (704869798722353996297264798950092447/163693229833255125999450683593750000 + t *
    (2102030307919038086680811106484808163/643080545773502280712127685546875000 + t *
    (843341735570644799188937377442538801399/360125105633161277198791503906250000000 + t *
    (2840255967003261322908516630296839572609/1800625528165806385993957519531250000000 + t *
    (439106958451993344580339550549027401553163/441153254400622564568519592285156250000000 + t *
    (2838634226654591588568092446424622182959923/4852685798406848210253715515136718750000000 + t *
    (770919136053218472718313727919025651539209/2426342899203424105126857757568359375000000 + t *
    (2684226658915833882572768283980074278510813/16984400294423968735888004302978515625000000 + t *
    (1208917027110068930626171195838675677756443/16984400294423968735888004302978515625000000 + t *
    (37265988370543528018902086001096491701516749/1307798822670645592663376331329345703125000000 + t *
    (25823775364223557694058257667614715321312453/2615597645341291185326752662658691406250000000 + t *
    (4699473949564319087228281458169098512221851/1664471228853548936117024421691894531250000000 + t *
    (10944228753047410183222408122255879814772811/18309183517389038297287268638610839843750000000 + t *
    (99650082856694840089340873955277221471352437/1409807130838955948891119685173034667968750000000 + t *
    0))))))))))))))))))))))))))))))))))))

set_option maxHeartbeats 1000000 in
theorem chain_remainder (t : ℝ) :
    (∑ k ∈ Finset.range 5, 2 * ((k : ℝ) + 1) / ((2 * k + 3).factorial : ℝ) * t ^ k * chainQuotient t ^ (2 * k + 1)) -
      ∑ k ∈ Finset.range 5, 1 / ((2 * k + 1).factorial : ℝ) * t ^ k * chainQuotient t ^ (2 * k) = t ^ 5 * chainRest t := by
  simp only [Finset.sum_range_succ, Finset.sum_range_zero, chainQuotient, chainRest, Nat.factorial]
  push_cast
  ring

theorem chainQuotient_ge {t : ℝ} (ht : 0 ≤ t) : 3 ≤ chainQuotient t := by
  unfold chainQuotient
  have : 0 ≤ 9 / 5 * t + 297 / 175 * t ^ 2 + 1539 / 875 * t ^ 3 + 126117 / 67375 * t ^ 4 := by positivity
  linarith

/-! ### Series of the hyperbolic functions -/

theorem exp_series (n : ℕ) (s : ℝ) :
    (fun y : ℝ => Real.exp (s * y) - ∑ i ∈ Finset.range n, (s * y) ^ i / i.factorial) =O[𝓝 0] fun y => y ^ n := by
  have h := (Real.exp_sub_sum_range_isBigO_pow n).comp_tendsto (k := fun y : ℝ => s * y) (l' := 𝓝 0)
    (by simpa using (continuous_const_mul s).tendsto (0 : ℝ))
  refine h.trans ?_
  simp only [Function.comp_def, mul_pow]
  exact isBigO_const_mul_self _ _ _

theorem sinh_series (m : ℕ) :
    (fun y : ℝ => Real.sinh y - ∑ k ∈ Finset.range m, y ^ (2 * k + 1) / (2 * k + 1).factorial) =O[𝓝 0] fun y => y ^ (2 * m + 1) := by
  have h := ((exp_series (2 * m + 1) 1).sub (exp_series (2 * m + 1) (-1))).const_mul_left (1 / 2 : ℝ)
  refine h.congr_left fun y => ?_
  have e : ∀ m : ℕ, (∑ i ∈ Finset.range (2 * m + 1), (1 * y) ^ i / (i.factorial : ℝ)) -
      ∑ i ∈ Finset.range (2 * m + 1), (-1 * y) ^ i / (i.factorial : ℝ) =
      2 * ∑ k ∈ Finset.range m, y ^ (2 * k + 1) / ((2 * k + 1).factorial : ℝ) := fun m => by
    induction m with
    | zero => simp
    | succ m ih =>
      rw [show 2 * (m + 1) + 1 = 2 * m + 1 + 1 + 1 by ring, Finset.sum_range_succ, Finset.sum_range_succ,
        Finset.sum_range_succ (fun i => (-1 * y) ^ i / (i.factorial : ℝ)), Finset.sum_range_succ (fun i => (-1 * y) ^ i / (i.factorial : ℝ)),
        Finset.sum_range_succ _ m, mul_add, ← ih, mul_pow (-1) y, mul_pow (-1) y, Odd.neg_one_pow ⟨m, rfl⟩,
        Even.neg_one_pow (n := 2 * m + 1 + 1) ⟨m + 1, by ring⟩]
      ring
  have e := e m
  rw [Real.sinh_eq]
  simp only [one_mul, neg_one_mul] at e ⊢
  linarith

theorem cosh_series (m : ℕ) :
    (fun y : ℝ => Real.cosh y - ∑ k ∈ Finset.range m, y ^ (2 * k) / (2 * k).factorial) =O[𝓝 0] fun y => y ^ (2 * m) := by
  have h := ((exp_series (2 * m) 1).add (exp_series (2 * m) (-1))).const_mul_left (1 / 2 : ℝ)
  refine h.congr_left fun y => ?_
  have e : ∀ m : ℕ, (∑ i ∈ Finset.range (2 * m), (1 * y) ^ i / (i.factorial : ℝ)) +
      ∑ i ∈ Finset.range (2 * m), (-1 * y) ^ i / (i.factorial : ℝ) =
      2 * ∑ k ∈ Finset.range m, y ^ (2 * k) / ((2 * k).factorial : ℝ) := fun m => by
    induction m with
    | zero => simp
    | succ m ih =>
      rw [show 2 * (m + 1) = 2 * m + 1 + 1 by ring, Finset.sum_range_succ, Finset.sum_range_succ,
        Finset.sum_range_succ (fun i => (-1 * y) ^ i / (i.factorial : ℝ)), Finset.sum_range_succ (fun i => (-1 * y) ^ i / (i.factorial : ℝ)),
        Finset.sum_range_succ _ m, mul_add, ← ih, mul_pow (-1) y, mul_pow (-1) y, Odd.neg_one_pow (n := 2 * m + 1) ⟨m, rfl⟩,
        Even.neg_one_pow (n := 2 * m) ⟨m, by ring⟩]
      ring
  have e := e m
  rw [Real.cosh_eq]
  simp only [one_mul, neg_one_mul] at e ⊢
  linarith

/-! ### Properties -/

theorem chainForce_tendsto : Tendsto chainForce (𝓝 0) (𝓝 0) := by
  have : Continuous chainForce := by unfold chainForce chainQuotient; fun_prop
  simpa [chainForce] using this.tendsto 0

theorem chainForce_isBigO (n : ℕ) : (fun x => chainForce x ^ n) =O[𝓝 0] fun x => x ^ n := by
  refine IsBigO.pow ?_ n
  have hc : Continuous fun x : ℝ => chainQuotient (x ^ 2) := by unfold chainQuotient; fun_prop
  have h : (fun x : ℝ => chainQuotient (x ^ 2)) =O[𝓝 0] fun _ => (1 : ℝ) := hc.continuousAt.norm.isBoundedUnder_le.isBigO_one ℝ
  exact ((isBigO_refl (fun x : ℝ => x) (𝓝 0)).mul h).congr_right fun x => mul_one x

theorem chain_numerator :
    (fun x => chainForce x * Real.cosh (chainForce x) - Real.sinh (chainForce x) - x * chainForce x * Real.sinh (chainForce x))
      =O[𝓝 0] fun x => x ^ 13 := by
  have hid := isBigO_refl (fun x : ℝ => x) (𝓝 0)
  have h1 : (fun x => chainForce x) =O[𝓝 0] fun x : ℝ => x := by simpa using chainForce_isBigO 1
  have c := ((cosh_series 6).comp_tendsto chainForce_tendsto).trans (chainForce_isBigO 12)
  have s6 := ((sinh_series 6).comp_tendsto chainForce_tendsto).trans (chainForce_isBigO 13)
  have s5 := ((sinh_series 5).comp_tendsto chainForce_tendsto).trans (chainForce_isBigO 11)
  have hR : (fun x : ℝ => x ^ 13 * (chainQuotient (x ^ 2) ^ 2 * chainRest (x ^ 2))) =O[𝓝 0] fun x => x ^ 13 := by
    have hc : Continuous fun x : ℝ => chainQuotient (x ^ 2) ^ 2 * chainRest (x ^ 2) := by unfold chainQuotient chainRest; fun_prop
    have h : (fun x : ℝ => chainQuotient (x ^ 2) ^ 2 * chainRest (x ^ 2)) =O[𝓝 0] fun _ => (1 : ℝ) :=
      hc.continuousAt.norm.isBoundedUnder_le.isBigO_one ℝ
    simpa using (isBigO_refl (fun x : ℝ => x ^ 13) (𝓝 0)).mul h
  have a1 : (fun x => chainForce x * _) =O[𝓝 0] fun x : ℝ => x ^ 13 := (h1.mul c).congr_right fun x => by ring
  have a3 : (fun x => x * chainForce x * _) =O[𝓝 0] fun x : ℝ => x ^ 13 := ((hid.mul h1).mul s5).congr_right fun x => by ring
  refine (((a1.sub s6).sub a3).add hR).congr_left fun x => ?_
  have hr := chain_remainder (x ^ 2)
  simp only [Function.comp_def]
  have key : chainForce x * (∑ k ∈ Finset.range 6, chainForce x ^ (2 * k) / ((2 * k).factorial : ℝ)) -
      (∑ k ∈ Finset.range 6, chainForce x ^ (2 * k + 1) / ((2 * k + 1).factorial : ℝ)) -
      x * chainForce x * (∑ k ∈ Finset.range 5, chainForce x ^ (2 * k + 1) / ((2 * k + 1).factorial : ℝ)) =
      x ^ 13 * (chainQuotient (x ^ 2) ^ 2 * chainRest (x ^ 2)) := by
    rw [show x ^ 13 * (chainQuotient (x ^ 2) ^ 2 * chainRest (x ^ 2)) =
      x ^ 3 * chainQuotient (x ^ 2) ^ 2 * ((x ^ 2) ^ 5 * chainRest (x ^ 2)) by ring, ← hr]
    unfold chainForce
    generalize chainQuotient (x ^ 2) = A
    simp only [Finset.sum_range_succ, Finset.sum_range_zero, Nat.factorial]
    push_cast
    ring
  rw [← key]
  ring

/-- The force of the chains inverts the Langevin function up to an error of order eleven in the relative stretch. -/
theorem chainForce_inverts : Spec.InvertsLangevin chainForce 11 := by
  obtain ⟨c, hc⟩ := chain_numerator.bound
  refine IsBigO.of_bound (c / 9) ?_
  filter_upwards [hc.filter_mono nhdsWithin_le_nhds, self_mem_nhdsWithin] with x hx hx0
  have hx0 : x ≠ 0 := hx0
  have hA := chainQuotient_ge (sq_nonneg x)
  have hy0 : chainForce x ≠ 0 := mul_ne_zero hx0 (by linarith)
  have hyx : 9 * x ^ 2 ≤ chainForce x ^ 2 := by
    unfold chainForce
    rw [mul_pow]
    nlinarith [sq_nonneg x, mul_nonneg (sq_nonneg x) (show 0 ≤ chainQuotient (x ^ 2) ^ 2 - 9 by nlinarith)]
  set y := chainForce x with hy
  have hys : y ^ 2 ≤ y * Real.sinh y := by
    rcases le_total 0 y with h | h
    · have := Real.self_le_sinh_iff.2 h
      nlinarith
    · have := Real.sinh_le_self_iff.2 h
      nlinarith
  have hx2 : 0 < x ^ 2 := by positivity
  have hpos : 0 < y * Real.sinh y := by linarith
  have hs0 : Real.sinh y ≠ 0 := fun h => by rw [h, mul_zero] at hpos; exact lt_irrefl _ hpos
  have e : Spec.langevin y - x = (y * Real.cosh y - Real.sinh y - x * y * Real.sinh y) / (y * Real.sinh y) := by
    unfold Spec.langevin
    field_simp
  rw [e, norm_div, Real.norm_of_nonneg hpos.le, div_le_iff₀ hpos]
  refine hx.trans ?_
  have hn : ‖x ^ 13‖ = x ^ 2 * ‖x ^ 11‖ := by
    rw [show x ^ 13 = x ^ 2 * x ^ 11 by ring, norm_mul, Real.norm_of_nonneg hx2.le]
  have hcn : 0 ≤ c * ‖x ^ 13‖ := (norm_nonneg _).trans hx
  rw [hn] at hcn ⊢
  have hc0 : 0 ≤ c * ‖x ^ 11‖ := by
    by_contra h
    have := mul_neg_of_pos_of_neg hx2 (not_le.1 h)
    nlinarith
  nlinarith

/-- The derivatives of the Arruda-Boyce energy are those of the eight chain model with this chain force. -/
theorem arrudaBoyce_chainForce (b : ArrudaBoyce) (hm : b.lambdaM ≠ 0) : Spec.ChainMaterial b.mu b.lambdaM chainForce b.dev := by
  intro l hl
  have hW : 0 < W1 l := by
    have p0 := hl 0; have p1 := hl 1; have p2 := hl 2
    have := inv2_pos hl
    unfold W1
    rw [inv0]
    positivity
  refine congrArg some (funext fun k => ?_)
  have hx : √(W1 l / 3) / b.lambdaM ≠ 0 := div_ne_zero (Real.sqrt_ne_zero'.2 (by positivity)) hm
  have hx2 : (√(W1 l / 3) / b.lambdaM) ^ 2 = W1 l / 3 * b.beta := by
    rw [div_pow, Real.sq_sqrt (by positivity), ArrudaBoyce.beta]
    ring
  show _ = b.mu / 6 * (chainForce _ / _) * dW1 l k
  rw [chainForce, mul_div_cancel_left₀ _ hx, hx2]
  simp only [chainQuotient, Fin.sum_univ_five, ArrudaBoyce.alphas]
  simp
  ring

/-- C116. There is a chain force, the same for all parameters, that inverts the Langevin function up to an error of order eleven
in the relative stretch, and the first derivatives of every Arruda-Boyce material are those of the eight chain model with it. -/
theorem arrudaBoyce_eight_chain : ∃ f, Spec.InvertsLangevin f 11 ∧
    ∀ b : ArrudaBoyce, b.lambdaM ≠ 0 → Spec.ChainMaterial b.mu b.lambdaM f b.dev :=
  ⟨chainForce, chainForce_inverts, arrudaBoyce_chainForce⟩

/-- Elastomer with a locking stretch of three: the force at half of the locking stretch. -/
example : chainForce (1 / 2) = 1.5 + 0.225 + 297 / 5600 + 1539 / 112000 + 126117 / 34496000 := by
  norm_num [chainForce, chainQuotient]

example := arrudaBoyce_chainForce ⟨2, 3⟩ (by norm_num) ![1, 2, 1 / 2] fun a => by fin_cases a <;> simp

/-- A force that does not depend on the stretch inverts nothing. -/
example : ¬ Spec.InvertsLangevin (fun _ => 1) 11 := by
  intro h
  have h0 := h.trans_tendsto (show Tendsto (fun x : ℝ => x ^ 11) (𝓝[≠] 0) (𝓝 0) from
    tendsto_nhdsWithin_of_tendsto_nhds (by simpa using (continuous_pow 11).tendsto (0 : ℝ)))
  have h1 : Tendsto (fun x : ℝ => Spec.langevin 1 - x) (𝓝[≠] 0) (𝓝 (Spec.langevin 1 - 0)) :=
    tendsto_nhdsWithin_of_tendsto_nhds ((continuous_const.sub continuous_id).tendsto 0)
  have := tendsto_nhds_unique h0 h1
  unfold Spec.langevin at this
  have hs : 0 < Real.sinh 1 := Real.sinh_pos_iff.2 one_pos
  have hcs := Real.cosh_sub_sinh 1
  have he := Real.exp_pos (-1)
  have : Real.cosh 1 = Real.sinh 1 := by
    field_simp at this
    linarith
  linarith

end Ikarus
