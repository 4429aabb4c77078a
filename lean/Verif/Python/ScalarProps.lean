import Verif.Python.ScalarModel
import Mathlib.Tactic.Linarith
import Mathlib.Tactic.Ring
import Mathlib.Tactic.FieldSimp
import Mathlib.Tactic.NormNum

/-!
C121: numbers that Python and C++ share.
-/

namespace Ikarus.PyScalar

/-! ### Specification -/

/-- The number behind a value. -/
def Spec.number (s : State) : Val → ℝ
  | .num x => x
  | .wrapper _ i => s.cells i

/-- The number an expression stands for, with numbers for the names. -/
def Spec.meaning (env : String → ℝ) : Expr → ℝ
  | .name x => env x
  | .lit c => c
  | .add a b => meaning env a + meaning env b
  | .sub a b => meaning env a - meaning env b
  | .neg a => -meaning env a
  | .mul a b => meaning env a * meaning env b
  | .new _ a => meaning env a

/-- The number behind a name; zero for a name without value. -/
def Spec.named (s : State) (x : String) : ℝ := ((s.vars x).map (Spec.number s)).getD 0

/-- The operators as functions of numbers. -/
noncomputable def Spec.combine : InPlace → ℝ → ℝ → ℝ
  | .add, a, b => a + b
  | .sub, a, b => a - b
  | .mul, a, b => a * b
  | .div, a, b => a / b

/-- All wrappers refer to numbers in memory. -/
def Spec.Sound (s : State) : Prop := ∀ x k i, s.vars x = some (.wrapper k i) → i < s.next

/-- Names of an expression. -/
def Spec.mentions (y : String) : Expr → Prop
  | .name x => x = y
  | .lit _ => False
  | .add a b | .sub a b | .mul a b => mentions y a ∨ mentions y b
  | .neg a | .new _ a => mentions y a

/-- Names of a statement. -/
def Spec.uses (y : String) : Stmt → Prop
  | .assign x e | .inPlace x _ e => x = y ∨ Spec.mentions y e

/-! ### Lemmas -/

theorem Result.bind_ok {α β : Type} {r : Result α} {f : α → Result β} {b : β} : r.bind f = .ok b ↔ ∃ a, r = .ok a ∧ f a = .ok b := by
  cases r <;> simp [Result.bind]

/-- What evaluation keeps. -/
structure Keeps (s s' : State) : Prop where
  vars : s'.vars = s.vars
  next : s.next ≤ s'.next
  cells : ∀ i < s.next, s'.cells i = s.cells i

theorem Keeps.refl (s : State) : Keeps s s := ⟨rfl, le_rfl, fun _ _ => rfl⟩

theorem Keeps.trans {s t u : State} (h : Keeps s t) (k : Keeps t u) : Keeps s u :=
  ⟨k.vars.trans h.vars, h.next.trans k.next, fun i hi => (k.cells i (hi.trans_le h.next)).trans (h.cells i hi)⟩

/-- A value that refers to memory in use. -/
def Fits (s : State) : Val → Prop
  | .num _ => True
  | .wrapper _ i => i < s.next

theorem Keeps.fits {s t : State} (h : Keeps s t) {v : Val} (hv : Fits s v) : Fits t v := by
  cases v with
  | num => trivial
  | wrapper k i => exact lt_of_lt_of_le hv h.next

theorem Keeps.number {s t : State} (h : Keeps s t) {v : Val} (hv : Fits s v) : Spec.number t v = Spec.number s v := by
  cases v with
  | num => rfl
  | wrapper k i => exact h.cells i hv

theorem Keeps.sound {s t : State} (h : Keeps s t) (hs : Spec.Sound s) : Spec.Sound t := fun x k i hx =>
  (hs x k i (by rw [← h.vars]; exact hx)).trans_le h.next

theorem Keeps.named {s t : State} (h : Keeps s t) (hs : Spec.Sound s) : Spec.named t = Spec.named s := by
  funext x
  unfold Spec.named
  rw [h.vars]
  cases hx : s.vars x with
  | none => rfl
  | some v =>
    refine h.number ?_
    cases v with
    | num => trivial
    | wrapper k i => exact hs x k i hx

theorem addVal_ok {f : ℝ → ℝ → ℝ} {s : State} {v w r : Val} (h : addVal f s v w = .ok r) :
    r = .num (f (Spec.number s v) (Spec.number s w)) := by
  cases v <;> cases w <;> simp only [addVal] at h
  · cases h; rfl
  · cases h
  · cases h
  · split at h
    · cases h; rfl
    · cases h

theorem mulVal_ok {s : State} {v w r : Val} (h : mulVal s v w = .ok r) : r = .num (Spec.number s v * Spec.number s w) := by
  cases v <;> cases w <;> simp only [mulVal] at h <;> cases h <;> rfl

theorem negVal_eq (s : State) (v : Val) : negVal s v = .num (-Spec.number s v) := by
  cases v <;> rfl

theorem construct_ok {s s' : State} {k : Kind} {v w : Val} (hv : Fits s v) (h : construct s k v = .ok (s', w)) :
    Keeps s s' ∧ Fits s' w ∧ Spec.number s' w = Spec.number s v := by
  have key : ∀ x : ℝ, Keeps s { s with cells := Function.update s.cells s.next x, next := s.next + 1 } := fun x =>
    ⟨rfl, Nat.le_succ _, fun i hi => Function.update_of_ne hi.ne _ _⟩
  cases k with
  | own => cases v with
    | num x =>
      simp only [construct] at h
      cases h
      exact ⟨key x, Nat.lt_succ_self _, Function.update_self ..⟩
    | wrapper k i => cases k with
      | own =>
        simp only [construct] at h
        cases h
        exact ⟨key _, Nat.lt_succ_self _, Function.update_self ..⟩
      | ref => simp only [construct] at h; cases h
  | ref => cases v with
    | num x => simp only [construct] at h; cases h
    | wrapper k i => cases k with
      | own => simp only [construct] at h; cases h
      | ref =>
        simp only [construct] at h
        cases h
        exact ⟨.refl s, hv, rfl⟩

theorem eval_ok (e : Expr) : ∀ {s s' : State} {v : Val}, Spec.Sound s → eval e s = .ok (s', v) →
    Keeps s s' ∧ Fits s' v ∧ Spec.number s' v = Spec.meaning (Spec.named s) e := by
  have two : ∀ (a b : Expr) (op : State → Val → Val → Result Val) (f : ℝ → ℝ → ℝ)
      (_ : ∀ {s v w r}, op s v w = .ok r → r = .num (f (Spec.number s v) (Spec.number s w)))
      (_ : ∀ {s s' : State} {v : Val}, Spec.Sound s → eval a s = .ok (s', v) →
        Keeps s s' ∧ Fits s' v ∧ Spec.number s' v = Spec.meaning (Spec.named s) a)
      (_ : ∀ {s s' : State} {v : Val}, Spec.Sound s → eval b s = .ok (s', v) →
        Keeps s s' ∧ Fits s' v ∧ Spec.number s' v = Spec.meaning (Spec.named s) b)
      {s s' : State} {v : Val}, Spec.Sound s →
      ((eval a s).bind fun p => (eval b p.1).bind fun q => (op q.1 p.2 q.2).bind fun v => .ok (q.1, v)) = .ok (s', v) →
      Keeps s s' ∧ Fits s' v ∧ Spec.number s' v = f (Spec.meaning (Spec.named s) a) (Spec.meaning (Spec.named s) b) := by
    intro a b op f hop iha ihb s s' v hs h
    obtain ⟨⟨s1, v1⟩, h1, h⟩ := Result.bind_ok.1 h
    obtain ⟨⟨s2, v2⟩, h2, h⟩ := Result.bind_ok.1 h
    obtain ⟨r, h3, h⟩ := Result.bind_ok.1 h
    cases h
    obtain ⟨k1, f1, n1⟩ := iha hs h1
    obtain ⟨k2, f2, n2⟩ := ihb (k1.sound hs) h2
    rw [hop h3]
    refine ⟨k1.trans k2, trivial, ?_⟩
    show f _ _ = _
    rw [k2.number f1, n1, n2, k1.named hs]
  induction e with
  | name x =>
    intro s s' v hs h
    simp only [eval] at h
    split at h
    · rename_i hw
      cases h
      refine ⟨.refl _, ?_, by simp only [Spec.meaning, Spec.named, hw]; rfl⟩
      cases v with
      | num => trivial
      | wrapper k i => exact hs x k i hw
    · cases h
  | lit c =>
    intro s s' v _ h
    cases h
    exact ⟨.refl _, trivial, rfl⟩
  | add a b iha ihb => exact fun hs h => two a b _ _ addVal_ok iha ihb hs h
  | sub a b iha ihb => exact fun hs h => two a b _ _ addVal_ok iha ihb hs h
  | mul a b iha ihb => exact fun hs h => two a b _ _ mulVal_ok iha ihb hs h
  | neg a iha =>
    intro s s' v hs h
    obtain ⟨⟨s1, v1⟩, h1, h⟩ := Result.bind_ok.1 h
    cases h
    obtain ⟨k1, f1, n1⟩ := iha hs h1
    simp only [negVal_eq]
    exact ⟨k1, trivial, congrArg Neg.neg n1⟩
  | new k a iha =>
    intro s s' v hs h
    obtain ⟨⟨s1, v1⟩, h1, h⟩ := Result.bind_ok.1 h
    obtain ⟨k1, f1, n1⟩ := iha hs h1
    obtain ⟨k2, f2, n2⟩ := construct_ok f1 h
    exact ⟨k1.trans k2, f2, n2.trans n1⟩

/-! ### Expressions -/

/-- C121, expressions. An expression that is evaluated stands for the number it denotes, changes no number that existed before and
rebinds no name. -/
theorem py_expression {s s' : State} {e : Expr} {v : Val} (hs : Spec.Sound s) (h : eval e s = .ok (s', v)) :
    Spec.number s' v = Spec.meaning (Spec.named s) e ∧ s'.vars = s.vars ∧ (∀ i < s.next, s'.cells i = s.cells i) ∧
    Spec.named s' = Spec.named s :=
  let ⟨k, _, n⟩ := eval_ok e hs h
  ⟨n, k.vars, k.cells, k.named hs⟩

/-- Two numbers shared with Python, one of them under two names. -/
noncomputable def twoScalars : State :=
  ⟨fun i => if i = 0 then 3 else 5, Function.update (Function.update (Function.update (fun _ => none) "lam" (some (.wrapper .own 0)))
    "mu" (some (.wrapper .own 1))) "alias" (some (.wrapper .own 0)), 2⟩

theorem twoScalars_sound : Spec.Sound twoScalars := by
  intro x k i h
  simp only [twoScalars, Function.update_apply] at h
  split_ifs at h
  all_goals
    cases h
    decide

/-- `2 * (lam + mu)` is sixteen, with a new `Scalar` made of it. -/
example : ∃ s' v, eval (.new .own (.mul (.lit 2) (.add (.name "lam") (.name "mu")))) twoScalars = .ok (s', v) ∧
    Spec.number s' v = 16 ∧ Spec.named s' "lam" = 3 := by
  have e : eval (.new .own (.mul (.lit 2) (.add (.name "lam") (.name "mu")))) twoScalars =
      .ok ({ twoScalars with cells := Function.update twoScalars.cells 2 (2 * (3 + 5)), next := 3 }, .wrapper .own 2) := by
    simp [eval, twoScalars, Result.bind, addVal, mulVal, construct, Function.update_apply]
  have h := py_expression twoScalars_sound e
  refine ⟨_, _, e, ?_, ?_⟩
  · rw [h.1]
    simp [Spec.meaning, Spec.named, twoScalars, Spec.number, Function.update_apply]
    norm_num
  · rw [h.2.2.2]
    simp [Spec.named, twoScalars, Spec.number, Function.update_apply]

/-! ### In-place operations -/

/-- C121, in-place operations. On a wrapper they change the number it refers to, to the sum, difference, product or quotient, for all
names of it, and no other number that existed before; no name is rebound. -/
theorem py_inPlace {s s' : State} {x : String} {o : InPlace} {e : Expr} {k : Kind} {i : Nat} (hs : Spec.Sound s)
    (hx : s.vars x = some (.wrapper k i)) (h : exec s (.inPlace x o e) = .ok s') :
    s'.cells i = Spec.combine o (s.cells i) (Spec.meaning (Spec.named s) e) ∧ s'.vars = s.vars ∧
    ∀ j < s.next, j ≠ i → s'.cells j = s.cells j := by
  simp only [exec, hx] at h
  obtain ⟨⟨s1, v⟩, h1, h⟩ := Result.bind_ok.1 h
  obtain ⟨k1, f1, n1⟩ := eval_ok e hs h1
  have hi : i < s.next := hs x k i hx
  have hc := k1.cells i hi
  have key : ∀ y, y = Spec.combine o (s.cells i) (Spec.meaning (Spec.named s) e) → s' = s1.write i y →
      s'.cells i = Spec.combine o (s.cells i) (Spec.meaning (Spec.named s) e) ∧ s'.vars = s.vars ∧
      ∀ j < s.next, j ≠ i → s'.cells j = s.cells j := by
    rintro y hy rfl
    refine ⟨(Function.update_self ..).trans hy, k1.vars, fun j hj hne => ?_⟩
    exact (Function.update_of_ne hne ..).trans (k1.cells j hj)
  cases o <;> cases v <;> simp only [inPlaceVal] at h
  · cases h
  · split at h
    · cases h
      exact key _ (by rw [← n1, ← hc]; rfl) rfl
    · cases h
  · cases h
  · split at h
    · cases h
      exact key _ (by rw [← n1, ← hc]; rfl) rfl
    · cases h
  · cases h
    exact key _ (by rw [← n1, ← hc]; rfl) rfl
  · cases h
  · split at h
    · cases h
    · cases h
      exact key _ (by rw [← n1, ← hc]; rfl) rfl
  · cases h

/-- `lam += mu` is seen under the other name of the number. -/
example : ∃ s', exec twoScalars (.inPlace "lam" .add (.name "mu")) = .ok s' ∧ Spec.named s' "alias" = 8 ∧ Spec.named s' "mu" = 5 := by
  have e : exec twoScalars (.inPlace "lam" .add (.name "mu")) = .ok (twoScalars.write 0 (3 + 5)) := by
    simp [exec, eval, twoScalars, Result.bind, inPlaceVal, Function.update_apply]
  have h := py_inPlace (k := .own) (i := 0) twoScalars_sound (by simp [twoScalars, Function.update_apply]) e
  refine ⟨_, e, ?_, ?_⟩
  · have : Spec.named (twoScalars.write 0 (3 + 5)) "alias" = (twoScalars.write 0 (3 + 5)).cells 0 := by
      simp [Spec.named, twoScalars, State.write, Spec.number, Function.update_apply]
    rw [this, h.1]
    simp [Spec.combine, Spec.meaning, Spec.named, twoScalars, Spec.number, Function.update_apply]
    norm_num
  · have : Spec.named (twoScalars.write 0 (3 + 5)) "mu" = (twoScalars.write 0 (3 + 5)).cells 1 := by
      simp [Spec.named, twoScalars, State.write, Spec.number, Function.update_apply]
    rw [this, h.2.2 1 (by decide) (by decide)]
    simp [twoScalars]

/-- In full: the in-place operations take numbers as well as wrappers. -/
def Spec.NumbersWelcome : Prop := ∀ (s : State) (x : String) (o : InPlace) (e : Expr) (k : Kind) (i : Nat) (s1 : State) (v : Val),
  Spec.Sound s → s.vars x = some (.wrapper k i) → eval e s = .ok (s1, v) → (o = .div → Spec.number s1 v ≠ 0) →
  ∃ s', exec s (.inPlace x o e) = .ok s'

/-- C121, which in-place operations are accepted: sums and differences with wrappers of the same class and no others, products and
quotients with numbers and no others; all the rest raises a TypeError. -/
theorem py_accepted {s s1 : State} {x : String} {o : InPlace} {e : Expr} {k : Kind} {i : Nat} {v : Val}
    (hx : s.vars x = some (.wrapper k i)) (h : eval e s = .ok (s1, v)) (h0 : o = .div → Spec.number s1 v ≠ 0) :
    ((o = .add ∨ o = .sub) → ((∃ j, v = .wrapper k j) → ∃ s', exec s (.inPlace x o e) = .ok s') ∧
      (¬(∃ j, v = .wrapper k j) → exec s (.inPlace x o e) = .typeError)) ∧
    ((o = .mul ∨ o = .div) → ((∃ y, v = .num y) → ∃ s', exec s (.inPlace x o e) = .ok s') ∧
      (¬(∃ y, v = .num y) → exec s (.inPlace x o e) = .typeError)) := by
  have e' : exec s (.inPlace x o e) = inPlaceVal s1 x o (.wrapper k i) v := by
    simp only [exec, hx, h, Result.bind]
  rw [e']
  cases o <;> cases v with
  | num y => simp_all [inPlaceVal, Spec.number]
  | wrapper k' j => by_cases hk : k = k' <;> simp_all [inPlaceVal, eq_comm]

/-- C121, numbers are not welcome: `lam += 1.0` raises a TypeError. -/
theorem py_numbers_false : ¬Spec.NumbersWelcome := by
  intro h
  have hx : twoScalars.vars "lam" = some (.wrapper .own 0) := by simp [twoScalars, Function.update_apply]
  obtain ⟨s', hs'⟩ := h twoScalars "lam" .add (.lit 1) .own 0 _ _ twoScalars_sound hx rfl (by simp)
  have := ((py_accepted (o := .add) hx (rfl : eval (.lit 1) twoScalars = .ok (twoScalars, .num 1)) (by simp)).1 (Or.inl rfl)).2
    (by simp)
  rw [this] at hs'
  cases hs'

/-- `lam *= 2` and `lam += mu` are accepted. -/
example : (∃ s', exec twoScalars (.inPlace "lam" .mul (.lit 2)) = .ok s') ∧
    ∃ s', exec twoScalars (.inPlace "lam" .add (.name "mu")) = .ok s' := by
  have hx : twoScalars.vars "lam" = some (.wrapper .own 0) := by simp [twoScalars, Function.update_apply]
  have hm : eval (.name "mu") twoScalars = .ok (twoScalars, .wrapper .own 1) := by simp [eval, twoScalars, Function.update_apply]
  exact ⟨((py_accepted (o := .mul) (e := .lit 2) hx rfl (by simp)).2 (Or.inl rfl)).1 ⟨2, rfl⟩,
    ((py_accepted (o := .add) hx hm (by simp)).1 (Or.inl rfl)).1 ⟨1, rfl⟩⟩

/-! ### Copies -/

/-- The number at `c` is that of the name `y`, and no other name refers to it. -/
structure Alone (y : String) (c : Nat) (r : ℝ) (s : State) : Prop where
  sound : Spec.Sound s
  self : s.vars y = some (.wrapper .own c)
  value : s.cells c = r
  others : ∀ x k, x ≠ y → s.vars x ≠ some (.wrapper k c)

theorem Keeps.alone {y : String} {c : Nat} {r : ℝ} {s t : State} (h : Keeps s t) (hs : Alone y c r s) : Alone y c r t where
  sound := h.sound hs.sound
  self := by rw [h.vars]; exact hs.self
  value := (h.cells c (hs.sound y _ c hs.self)).trans hs.value
  others x k hx := by rw [h.vars]; exact hs.others x k hx

/-- An expression without `y` does not give the wrapper of `y`. -/
theorem eval_alone {y : String} {c : Nat} {r : ℝ} (e : Expr) : ∀ {s s' : State} {v : Val}, Alone y c r s → ¬Spec.mentions y e →
    eval e s = .ok (s', v) → ∀ k, v ≠ .wrapper k c := by
  have two : ∀ (a b : Expr) (op : State → Val → Val → Result Val) (f : ℝ → ℝ → ℝ)
      (_ : ∀ {s v w r}, op s v w = .ok r → r = .num (f (Spec.number s v) (Spec.number s w)))
      {s s' : State} {v : Val},
      ((eval a s).bind fun p => (eval b p.1).bind fun q => (op q.1 p.2 q.2).bind fun v => .ok (q.1, v)) = .ok (s', v) →
      ∀ k, v ≠ .wrapper k c := by
    intro a b op f hop s s' v h k
    obtain ⟨⟨s1, v1⟩, h1, h⟩ := Result.bind_ok.1 h
    obtain ⟨⟨s2, v2⟩, h2, h⟩ := Result.bind_ok.1 h
    obtain ⟨w, h3, h⟩ := Result.bind_ok.1 h
    cases h
    rw [hop h3]
    exact Val.noConfusion
  induction e with
  | name x =>
    intro s s' v hs hm h k
    simp only [eval] at h
    split at h
    · rename_i hw
      cases h
      rintro rfl
      exact hs.others x k hm hw
    · cases h
  | lit c =>
    intro s s' v _ _ h k
    cases h
    exact Val.noConfusion
  | add a b => exact fun _ _ h => two a b _ _ addVal_ok h
  | sub a b => exact fun _ _ h => two a b _ _ addVal_ok h
  | mul a b => exact fun _ _ h => two a b _ _ mulVal_ok h
  | neg a =>
    intro s s' v _ _ h k
    obtain ⟨⟨s1, v1⟩, h1, h⟩ := Result.bind_ok.1 h
    cases h
    rw [negVal_eq]
    exact Val.noConfusion
  | new k' a iha =>
    intro s s' v hs hm h k
    obtain ⟨⟨s1, v1⟩, h1, h⟩ := Result.bind_ok.1 h
    have ha := iha hs hm h1
    have hk := (eval_ok a hs.sound h1).1
    have hc : c < s1.next := (hs.sound y _ c hs.self).trans_le hk.next
    cases k' with
    | own => cases v1 with
      | num x =>
        simp only [construct] at h
        cases h
        simp only [ne_eq, Val.wrapper.injEq, not_and]
        exact fun _ => hc.ne'
      | wrapper q i => cases q with
        | own =>
          simp only [construct] at h
          cases h
          simp only [ne_eq, Val.wrapper.injEq, not_and]
          exact fun _ => hc.ne'
        | ref => simp only [construct] at h; cases h
    | ref => cases v1 with
      | num x => simp only [construct] at h; cases h
      | wrapper q i => cases q with
        | own => simp only [construct] at h; cases h
        | ref =>
          simp only [construct] at h
          cases h
          exact ha k

theorem bindName_alone {y x : String} {c : Nat} {r : ℝ} {s : State} {v : Val} (hs : Alone y c r s) (hx : x ≠ y) (hf : Fits s v)
    (hv : ∀ k, v ≠ .wrapper k c) : Alone y c r (s.bindName x v) where
  sound z k i hz := by
    simp only [State.bindName, Function.update_apply] at hz
    split at hz
    · cases hz
      exact hf
    · exact hs.sound z k i hz
  self := (Function.update_of_ne hx.symm ..).trans hs.self
  value := hs.value
  others z k hz := by
    simp only [State.bindName, Function.update_apply]
    split
    · exact fun h => hv k (Option.some.inj h)
    · exact hs.others z k hz

theorem write_alone {y : String} {c i : Nat} {r a : ℝ} {s : State} (hs : Alone y c r s) (hi : i ≠ c) : Alone y c r (s.write i a) where
  sound := hs.sound
  self := hs.self
  value := (Function.update_of_ne hi.symm ..).trans hs.value
  others := hs.others

theorem exec_alone {y : String} {c : Nat} {r : ℝ} {s s' : State} {p : Stmt} (hs : Alone y c r s) (hp : ¬Spec.uses y p)
    (h : exec s p = .ok s') : Alone y c r s' := by
  cases p with
  | assign x e =>
    simp only [Spec.uses, not_or] at hp
    obtain ⟨⟨s1, v⟩, h1, h⟩ := Result.bind_ok.1 h
    cases h
    obtain ⟨k1, f1, _⟩ := eval_ok e hs.sound h1
    exact bindName_alone (k1.alone hs) hp.1 f1 (eval_alone e hs hp.2 h1)
  | inPlace x o e =>
    simp only [Spec.uses, not_or] at hp
    simp only [exec] at h
    split at h
    · rename_i w hw
      obtain ⟨⟨s1, v⟩, h1, h⟩ := Result.bind_ok.1 h
      obtain ⟨k1, f1, _⟩ := eval_ok e hs.sound h1
      have hs1 := k1.alone hs
      have hn : ∀ a : ℝ, Alone y c r (s1.bindName x (.num a)) := fun a =>
        bindName_alone hs1 hp.1 trivial fun _ => Val.noConfusion
      cases w with
      | num a =>
        cases o <;> cases v <;> simp only [inPlaceVal, addVal, mulVal, Result.bind] at h
        all_goals first
          | (cases h; done)
          | (cases h; exact hn _)
          | (split at h
             · cases h
             · cases h
               exact hn _)
      | wrapper k i =>
        have hi : i ≠ c := by
          rintro rfl
          exact hs.others x k hp.1 hw
        cases o <;> cases v <;> simp only [inPlaceVal] at h
        all_goals first
          | (cases h; done)
          | (cases h; exact write_alone hs1 hi)
          | (split at h
             · cases h
               exact write_alone hs1 hi
             · cases h)
          | (split at h
             · cases h
             · cases h
               exact write_alone hs1 hi)
    · cases h

theorem run_alone {y : String} {c : Nat} {r : ℝ} : ∀ (ps : List Stmt) {s s' : State}, Alone y c r s → (∀ p ∈ ps, ¬Spec.uses y p) →
    run ps s = .ok s' → Alone y c r s'
  | [], _, _, hs, _, h => by cases h; exact hs
  | p :: ps, _, _, hs, hp, h => by
    obtain ⟨s1, h1, h⟩ := Result.bind_ok.1 h
    exact run_alone ps (exec_alone hs (hp p (by simp)) h1) (fun q hq => hp q (by simp [hq])) h

/-- C121, copies. `y = Scalar(e)` for a number or another `Scalar`: `y` has the number of `e`, and keeps it in every program that
does not use `y`, whatever is done to the numbers that `e` was made of. -/
theorem py_copy_independent {y : String} {e : Expr} {ps : List Stmt} {s s' : State} (hs : Spec.Sound s)
    (hp : ∀ p ∈ ps, ¬Spec.uses y p) (h : run (.assign y (.new .own e) :: ps) s = .ok s') :
    Spec.named s' y = Spec.meaning (Spec.named s) e := by
  obtain ⟨s2, h2, h⟩ := Result.bind_ok.1 h
  obtain ⟨⟨s1, v⟩, h1, h2⟩ := Result.bind_ok.1 h2
  cases h2
  obtain ⟨k1, f1, n1⟩ := eval_ok _ hs h1
  obtain ⟨⟨s0, w⟩, h0, hc⟩ := Result.bind_ok.1 h1
  obtain ⟨k0, f0, n0⟩ := eval_ok e hs h0
  have hv : v = .wrapper .own s0.next ∧ s1.vars = s0.vars ∧ s1.next = s0.next + 1 := by
    cases w with
    | num x =>
      simp only [construct] at hc
      cases hc
      exact ⟨rfl, rfl, rfl⟩
    | wrapper q i => cases q with
      | own =>
        simp only [construct] at hc
        cases hc
        exact ⟨rfl, rfl, rfl⟩
      | ref => simp only [construct] at hc; cases hc
  obtain ⟨rfl, hvars, hnext⟩ := hv
  have ha : Alone y s0.next (Spec.meaning (Spec.named s) e) (s1.bindName y (.wrapper .own s0.next)) := by
    refine ⟨fun z k i hz => ?_, Function.update_self .., n1, fun z k hz => ?_⟩
    · simp only [State.bindName, Function.update_apply] at hz ⊢
      split at hz
      · cases hz
        exact f1
      · exact k1.sound hs z k i hz
    · simp only [State.bindName, Function.update_apply, hz, if_false, hvars]
      exact fun hh => absurd (k0.sound hs z k _ hh) (lt_irrefl _)
  have hf := run_alone ps ha hp h
  unfold Spec.named
  rw [hf.self]
  exact hf.value

/-- `save = Scalar(lam)`, then `lam += mu`, `alias *= 10`: `save` is still three, `lam` is eighty. -/
example : ∃ s', run [.assign "save" (.new .own (.name "lam")), .inPlace "lam" .add (.name "mu"), .inPlace "alias" .mul (.lit 10)]
    twoScalars = .ok s' ∧ Spec.named s' "save" = 3 ∧ Spec.named s' "lam" = 80 := by
  have e : ∃ s', run [.assign "save" (.new .own (.name "lam")), .inPlace "lam" .add (.name "mu"), .inPlace "alias" .mul (.lit 10)]
      twoScalars = .ok s' ∧ s'.vars "lam" = some (.wrapper .own 0) ∧ s'.cells 0 = (3 + 5) * 10 := by
    simp [run, exec, eval, twoScalars, Result.bind, inPlaceVal, construct, State.bindName, State.write]
  obtain ⟨s', h, hl, hc⟩ := e
  refine ⟨s', h, ?_, ?_⟩
  · rw [py_copy_independent twoScalars_sound (by simp [Spec.uses, Spec.mentions]) h]
    simp [Spec.meaning, Spec.named, twoScalars, Spec.number]
  · simp only [Spec.named, hl, Option.map_some, Option.getD_some, Spec.number, hc]
    norm_num

/-! ### Scalar callbacks -/

/-- In full: a callback can give the energy any value. -/
def Spec.CallbackSets : Prop := ∀ energy wanted : ℝ, ∃ body, callback (fun _ => none) body energy = .ok wanted

/-- The values of a callback: only the energy is referred to. -/
def Inside (s : State) : Val → Prop
  | .num _ => True
  | .wrapper .ref i => i = 0
  | .wrapper .own i => 0 < i ∧ i < s.next

/-- While a callback runs. -/
structure During (energy : ℝ) (s : State) : Prop where
  next : 0 < s.next
  vars : ∀ x v, s.vars x = some v → Inside s v
  multiple : ∃ c, s.cells 0 = c * energy

theorem During.sound {energy : ℝ} {s : State} (h : During energy s) : Spec.Sound s := by
  intro x k i hx
  have := h.vars x _ hx
  cases k with
  | own => exact this.2
  | ref =>
    obtain rfl : i = 0 := this
    exact h.next

theorem Keeps.inside {s t : State} (h : Keeps s t) {v : Val} (hv : Inside s v) : Inside t v := by
  cases v with
  | num => trivial
  | wrapper k i => cases k with
    | own => exact ⟨hv.1, hv.2.trans_le h.next⟩
    | ref => exact hv

theorem Keeps.during {energy : ℝ} {s t : State} (h : Keeps s t) (hs : During energy s) : During energy t where
  next := hs.next.trans_le h.next
  vars x v hx := h.inside (hs.vars x v (by rw [← h.vars]; exact hx))
  multiple := by
    rw [h.cells 0 hs.next]
    exact hs.multiple

theorem eval_inside {energy : ℝ} (e : Expr) : ∀ {s s' : State} {v : Val}, During energy s → eval e s = .ok (s', v) → Inside s' v := by
  have two : ∀ (a b : Expr) (op : State → Val → Val → Result Val) (f : ℝ → ℝ → ℝ)
      (_ : ∀ {s v w r}, op s v w = .ok r → r = .num (f (Spec.number s v) (Spec.number s w)))
      {s s' : State} {v : Val},
      ((eval a s).bind fun p => (eval b p.1).bind fun q => (op q.1 p.2 q.2).bind fun v => .ok (q.1, v)) = .ok (s', v) →
      Inside s' v := by
    intro a b op f hop s s' v h
    obtain ⟨⟨s1, v1⟩, h1, h⟩ := Result.bind_ok.1 h
    obtain ⟨⟨s2, v2⟩, h2, h⟩ := Result.bind_ok.1 h
    obtain ⟨w, h3, h⟩ := Result.bind_ok.1 h
    cases h
    rw [hop h3]
    trivial
  induction e with
  | name x =>
    intro s s' v hs h
    simp only [eval] at h
    split at h
    · rename_i hw
      cases h
      exact hs.vars x _ hw
    · cases h
  | lit c =>
    intro s s' v _ h
    cases h
    trivial
  | add a b => exact fun _ h => two a b _ _ addVal_ok h
  | sub a b => exact fun _ h => two a b _ _ addVal_ok h
  | mul a b => exact fun _ h => two a b _ _ mulVal_ok h
  | neg a =>
    intro s s' v _ h
    obtain ⟨⟨s1, v1⟩, h1, h⟩ := Result.bind_ok.1 h
    cases h
    rw [negVal_eq]
    trivial
  | new k' a iha =>
    intro s s' v hs h
    obtain ⟨⟨s1, v1⟩, h1, h⟩ := Result.bind_ok.1 h
    have ha := iha hs h1
    have hk := (eval_ok a hs.sound h1).1
    have hn : 0 < s1.next := hs.next.trans_le hk.next
    cases k' with
    | own => cases v1 with
      | num x =>
        simp only [construct] at h
        cases h
        exact ⟨hn, Nat.lt_succ_self _⟩
      | wrapper q i => cases q with
        | own =>
          simp only [construct] at h
          cases h
          exact ⟨hn, Nat.lt_succ_self _⟩
        | ref => simp only [construct] at h; cases h
    | ref => cases v1 with
      | num x => simp only [construct] at h; cases h
      | wrapper q i => cases q with
        | own => simp only [construct] at h; cases h
        | ref =>
          simp only [construct] at h
          cases h
          exact ha

theorem bindName_during {energy : ℝ} {s : State} {x : String} {v : Val} (hs : During energy s) (hv : Inside s v) :
    During energy (s.bindName x v) where
  next := hs.next
  vars z w hz := by
    simp only [State.bindName, Function.update_apply] at hz
    split at hz
    · cases hz
      exact hv
    · exact hs.vars z w hz
  multiple := hs.multiple

theorem write_during {energy : ℝ} {s : State} {i : Nat} {a : ℝ} (hs : During energy s) (ha : i = 0 → ∃ c, a = c * energy) :
    During energy (s.write i a) where
  next := hs.next
  vars := hs.vars
  multiple := by
    simp only [State.write, Function.update_apply]
    split
    · rename_i h
      exact ha h.symm
    · exact hs.multiple

theorem exec_during {energy : ℝ} {s s' : State} {p : Stmt} (hs : During energy s) (h : exec s p = .ok s') : During energy s' := by
  cases p with
  | assign x e =>
    obtain ⟨⟨s1, v⟩, h1, h⟩ := Result.bind_ok.1 h
    cases h
    exact bindName_during ((eval_ok e hs.sound h1).1.during hs) (eval_inside e hs h1)
  | inPlace x o e =>
    simp only [exec] at h
    split at h
    · rename_i w hw
      obtain ⟨⟨s1, v⟩, h1, h⟩ := Result.bind_ok.1 h
      have k1 := (eval_ok e hs.sound h1).1
      have hs1 := k1.during hs
      have hv := eval_inside e hs h1
      have hw := k1.inside (hs.vars x w hw)
      have hn : ∀ a : ℝ, During energy (s1.bindName x (.num a)) := fun a => bindName_during hs1 trivial
      cases w with
      | num a =>
        cases o <;> cases v <;> simp only [inPlaceVal, addVal, mulVal, Result.bind] at h
        all_goals first
          | (cases h; done)
          | (cases h; exact hn _)
          | (split at h
             · cases h
             · cases h
               exact hn _)
      | wrapper k i =>
        obtain ⟨c, hc⟩ := hs1.multiple
        cases k with
        | own =>
          have hi : i ≠ 0 := hw.1.ne'
          cases o <;> cases v <;> simp only [inPlaceVal] at h
          all_goals first
            | (cases h; done)
            | (cases h; exact write_during hs1 fun h => absurd h hi)
            | (split at h
               · cases h
                 exact write_during hs1 fun h => absurd h hi
               · cases h)
            | (split at h
               · cases h
               · cases h
                 exact write_during hs1 fun h => absurd h hi)
        | ref =>
          obtain rfl : i = 0 := hw
          cases o <;> cases v <;> simp only [inPlaceVal] at h
          · cases h
          · split at h
            · rename_i hk
              subst hk
              obtain rfl : _ = 0 := hv
              cases h
              exact write_during hs1 fun _ => ⟨c + c, by rw [hc]; ring⟩
            · cases h
          · cases h
          · split at h
            · rename_i hk
              subst hk
              obtain rfl : _ = 0 := hv
              cases h
              exact write_during hs1 fun _ => ⟨0, by ring⟩
            · cases h
          · cases h
            exact write_during hs1 fun _ => ⟨_, by rw [hc]; exact mul_right_comm _ _ _⟩
          · cases h
          · split at h
            · cases h
            · cases h
              exact write_during hs1 fun _ => ⟨c / _, by rw [hc, div_mul_eq_mul_div]⟩
          · cases h
    · cases h

theorem run_during {energy : ℝ} : ∀ (ps : List Stmt) {s s' : State}, During energy s → run ps s = .ok s' → During energy s'
  | [], _, _, hs, h => by cases h; exact hs
  | p :: ps, _, _, hs, h => by
    obtain ⟨s1, h1, h⟩ := Result.bind_ok.1 h
    exact run_during ps (exec_during hs h1) h

/-- C121, callbacks only scale. Whatever a scalar callback does that ends regularly, the energy becomes a multiple of what it was. -/
theorem py_callback_multiple {consts : String → Option ℝ} {body : List Stmt} {energy r : ℝ}
    (h : callback consts body energy = .ok r) : ∃ c, r = c * energy := by
  obtain ⟨s, h1, h⟩ := Result.bind_ok.1 h
  cases h
  refine (run_during (energy := energy) body ⟨Nat.one_pos, fun x v hx => ?_, 1, (one_mul _).symm⟩ h1).multiple
  simp only [Function.update_apply] at hx
  split at hx
  · cases hx
    rfl
  · cases hc : consts x with
    | none => rw [hc] at hx; cases hx
    | some y =>
      rw [hc] at hx
      cases hx
      trivial

/-- C121, callbacks scale. `scalar *= c` multiplies the energy, for any number. -/
theorem py_callback_scales (consts : String → Option ℝ) (c energy : ℝ) :
    callback consts [.inPlace "scalar" .mul (.lit c)] energy = .ok (energy * c) := by
  simp [callback, run, exec, eval, Result.bind, inPlaceVal, State.write]

/-- Half of the energy, and the sum of the energy with itself: `scalar += scalar`, `scalar *= 0.25`. -/
example : ∃ r, callback (fun _ => none) [.inPlace "scalar" .add (.name "scalar"), .inPlace "scalar" .mul (.lit (1 / 4))] 6 = .ok r ∧
    r = 3 ∧ ∃ c, r = c * 6 := by
  have h : callback (fun _ => none) [.inPlace "scalar" .add (.name "scalar"), .inPlace "scalar" .mul (.lit (1 / 4))] 6 = .ok ((6 + 6) * (1 / 4)) := by
    simp [callback, run, exec, eval, Result.bind, inPlaceVal, State.write]
  exact ⟨_, h, by norm_num, py_callback_multiple h⟩

/-- C121, what a callback can set: every value if the energy is not zero. Missing: an energy of zero. -/
theorem py_callback_sets_partial {energy : ℝ} (h : energy ≠ 0) (wanted : ℝ) :
    ∃ body, callback (fun _ => none) body energy = .ok wanted :=
  ⟨_, by rw [py_callback_scales (fun _ => none) (wanted / energy) energy, mul_div_cancel₀ _ h]⟩

/-- C121, what a callback cannot set: no callback adds to the energy of a structure at rest, which is zero. -/
theorem py_callback_sets_false : ¬Spec.CallbackSets := by
  intro h
  obtain ⟨body, hb⟩ := h 0 1
  obtain ⟨c, hc⟩ := py_callback_multiple hb
  simp at hc

end Ikarus.PyScalar
