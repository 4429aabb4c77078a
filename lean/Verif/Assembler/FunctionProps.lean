import Verif.Assembler.FunctionModel
import Verif.FE.MixinProps

/-!
Property C83: the functions made from an assembler.
-/

namespace Ikarus.DiffFun

variable {R S V M α β γ : Type}

/-! ### Specification -/

namespace Spec

/-- What the `k`-th derivative computes: energy, residual, stiffness; without a scalar affordance the residual comes first. -/
def kindOf : Bool → Nat → Option Kind
  | true, 0 => some .scalar
  | true, 1 => some .vector
  | true, 2 => some .matrix
  | false, 0 => some .vector
  | false, 1 => some .matrix
  | _, _ => none

/-- The value of the function at `x`: the quantity the assembler assembles for this requirement, the affordances and the option
of the function. -/
def valueOf (a : Asm R S V M α β γ) (f : Fun S V M) (x : R) : Kind → Value α β γ
  | .scalar => .scalar (a.scalarImpl x f.affordances.scalarAffordance)
  | .vector => .vector (match f.option with
    | .raw => a.vectorImpl.raw x f.affordances.vectorAffordance
    | .reduced => a.vectorImpl.reduced x f.affordances.vectorAffordance
    | .full => a.vectorImpl.full x f.affordances.vectorAffordance)
  | .matrix => .matrix (match f.option with
    | .raw => a.matrixImpl.raw x f.affordances.matrixAffordance
    | .reduced => a.matrixImpl.reduced x f.affordances.matrixAffordance
    | .full => a.matrixImpl.full x f.affordances.matrixAffordance)

/-- The two assemblers compute the same and are bound to the same. -/
def Same (a a' : Asm R S V M α β γ) : Prop :=
  a.bind = a'.bind ∧ a.scalarImpl = a'.scalarImpl ∧ a.vectorImpl = a'.vectorImpl ∧ a.matrixImpl = a'.matrixImpl

/-- The member that a call of `f` writes. -/
def target (f : Fun S V M) : Kind → Ref
  | .scalar => ⟨f.ptr, .scalar, .full⟩
  | .vector => ⟨f.ptr, .vector, f.option⟩
  | .matrix => ⟨f.ptr, .matrix, f.option⟩

/-- The claim that a result keeps its value while functions are called elsewhere. -/
def Kept : Prop :=
  ∀ (h h' h'' : Heap ℝ Unit Unit Unit ℝ ℝ ℝ) (f : Fun Unit Unit Unit) (k : Nat) (x y : ℝ) (r r' : Ref),
    call h f k x = some (r, h') → call h' f k y = some (r', h'') → read h'' r = read h' r

/-- The claim that the overload with an option returns the function of every assembler that is bound to affordances. -/
def Op2 : Prop :=
  ∀ (h : Heap ℝ Unit Unit Unit ℝ ℝ ℝ) (p : Nat) (rvalue hasScalar : Bool) (a : Asm ℝ Unit Unit Unit ℝ ℝ ℝ)
    (aff : AffordanceColl Unit Unit Unit) (d : DBCOption), h.get p = some a → a.bind.affordances = some aff →
    ∃ f h', op2 h (.shared p rvalue) hasScalar d = .done (f, h')

end Spec

/-! ### Lemmas -/

theorem kinds_eq (f : Fun S V M) (k : Nat) : f.kinds[k]? = Spec.kindOf f.hasScalar k := by
  unfold Fun.kinds
  cases f.hasScalar <;> match k with
  | 0 => rfl
  | 1 => rfl
  | 2 => rfl
  | k + 3 => rfl

theorem get_set (h : Heap R S V M α β γ) (p q : Nat) (a : Asm R S V M α β γ) :
    (h.set p a).get q = if q = p then some a else h.get q := rfl

/-! ### Calls -/

/-- C83. A call of the `k`-th derivative gives a reference to the quantity assembled at `x`, whatever was computed before; it
changes no other member and no other assembler. Beyond the last derivative, counted by `nDerivatives`, there is no function. -/
theorem call_spec {h : Heap R S V M α β γ} {f : Fun S V M} {a : Asm R S V M α β γ} (ha : h.get f.ptr = some a) (k : Nat) (x : R) :
    (call h f k x = none ↔ Spec.kindOf f.hasScalar k = none) ∧ (call h f k x = none ↔ f.nDerivatives < k) ∧
    ∀ kind, Spec.kindOf f.hasScalar k = some kind → ∃ h', call h f k x = some (Spec.target f kind, h') ∧
      read h' (Spec.target f kind) = some (Spec.valueOf a f x kind) ∧
      (∀ r, r.ptr ≠ f.ptr ∨ r.kind ≠ kind ∨ (kind ≠ .scalar ∧ r.option ≠ f.option) → read h' r = read h r) ∧
      (∀ q, q ≠ f.ptr → h'.get q = h.get q) ∧ ∃ a', h'.get f.ptr = some a' ∧ Spec.Same a a' := by
  have hnone : call h f k x = none ↔ Spec.kindOf f.hasScalar k = none := by
    rw [call, kinds_eq, ha]
    cases Spec.kindOf f.hasScalar k <;> simp
  refine ⟨hnone, ?_, ?_⟩
  · rw [hnone, ← kinds_eq, List.getElem?_eq_none_iff]
    unfold Fun.nDerivatives Fun.kinds
    cases f.hasScalar <;> simp <;> omega
  · intro kind hk
    rw [call, kinds_eq, ha, hk]
    cases kind with
    | scalar =>
      refine ⟨_, rfl, by simp [read, get_set, Spec.target, Spec.valueOf], fun r hr => ?_,
        fun q hq => by simp [get_set, hq], _, if_pos rfl, rfl, rfl, rfl, rfl⟩
      by_cases hp : r.ptr = f.ptr
      · have : r.kind ≠ .scalar := by simpa [hp] using hr
        simp only [read, get_set, hp, if_true, ha]
        cases hkd : r.kind <;> simp_all
      · simp [read, get_set, hp]
    | vector =>
      refine ⟨_, rfl, ?_, fun r hr => ?_, fun q hq => by simp [get_set, hq], _, if_pos rfl,
        rfl, rfl, rfl, rfl⟩
      · cases ho : f.option <;> simp [read, get_set, Spec.target, Spec.valueOf, ho, BindState.dispatch]
      · by_cases hp : r.ptr = f.ptr
        · have h2 : r.kind ≠ .vector ∨ r.option ≠ f.option := by simpa [hp] using hr
          simp only [read, get_set, hp, if_true, ha]
          cases hkd : r.kind <;> simp_all
        · simp [read, get_set, hp]
    | matrix =>
      refine ⟨_, rfl, ?_, fun r hr => ?_, fun q hq => by simp [get_set, hq], _, if_pos rfl,
        rfl, rfl, rfl, rfl⟩
      · cases ho : f.option <;> simp [read, get_set, Spec.target, Spec.valueOf, ho, BindState.dispatch]
      · by_cases hp : r.ptr = f.ptr
        · have h2 : r.kind ≠ .matrix ∨ r.option ≠ f.option := by simpa [hp] using hr
          simp only [read, get_set, hp, if_true, ha]
          cases hkd : r.kind <;> simp_all
        · simp [read, get_set, hp]

theorem Spec.Same.trans {a b c : Asm R S V M α β γ} (h1 : Same a b) (h2 : Same b c) : Same a c :=
  ⟨h1.1.trans h2.1, h1.2.1.trans h2.2.1, h1.2.2.1.trans h2.2.2.1, h1.2.2.2.trans h2.2.2.2⟩

theorem valueOf_same {a a' : Asm R S V M α β γ} (h : Spec.Same a a') (f : Fun S V M) (x : R) (kind : Kind) :
    Spec.valueOf a f x kind = Spec.valueOf a' f x kind := by
  obtain ⟨-, h1, h2, h3⟩ := h
  cases kind <;> simp [Spec.valueOf, h1, h2, h3]

theorem call_same {h h' : Heap R S V M α β γ} {f : Fun S V M} {k : Nat} {x : R} {r : Ref} (hc : call h f k x = some (r, h'))
    (q : Nat) : ∀ a, h.get q = some a → ∃ a', h'.get q = some a' ∧ Spec.Same a a' := by
  intro a ha
  cases hp : h.get f.ptr with
  | none => simp [call, hp] at hc
  | some b =>
    obtain ⟨h1, -, h2⟩ := call_spec hp k x
    cases hk : Spec.kindOf f.hasScalar k with
    | none => rw [h1.2 hk] at hc; cases hc
    | some kind =>
      obtain ⟨h3, e, -, -, e2, a', e3, e4⟩ := h2 kind hk
      rw [e] at hc
      obtain ⟨-, rfl⟩ := Prod.mk.inj (Option.some.inj hc)
      by_cases hq : q = f.ptr
      · subst hq
        rw [hp] at ha
        obtain rfl := Option.some.inj ha
        exact ⟨a', e3, e4⟩
      · exact ⟨a, by rw [e2 q hq, ha], rfl, rfl, rfl, rfl⟩

/-- C83, histories. After any history of calls of any functions, a result holds the value of the last call that wrote it: the
reference returned by a call reads this value as long as no function with the same assembler, kind and option is called. -/
theorem read_last (h h1 h2 : Heap R S V M α β γ) (pre post : List (Fun S V M × Nat × R)) (f : Fun S V M) (k : Nat) (x : R)
    (kind : Kind) (a : Asm R S V M α β γ) (ha : h.get f.ptr = some a) (hk : Spec.kindOf f.hasScalar k = some kind)
    (hpre : run h pre = some h1) (hrun : run h (pre ++ (f, k, x) :: post) = some h2)
    (hpost : ∀ c ∈ post, ∀ kind', Spec.kindOf c.1.hasScalar c.2.1 = some kind' → Spec.target c.1 kind' ≠ Spec.target f kind) :
    read h2 (Spec.target f kind) = some (Spec.valueOf a f x kind) := by
  have happ : ∀ (l m : List (Fun S V M × Nat × R)) (g : Heap R S V M α β γ), run g (l ++ m) = (run g l).bind fun g' => run g' m := by
    intro l m
    induction l with
    | nil => intro g; rfl
    | cons c l ih =>
      intro g
      obtain ⟨f', k', x'⟩ := c
      simp only [List.cons_append, run]
      cases call g f' k' x' with
      | none => rfl
      | some p => simp [ih]
  have hsame : ∀ (l : List (Fun S V M × Nat × R)) (g g' : Heap R S V M α β γ), run g l = some g' →
      ∀ a, g.get f.ptr = some a → ∃ a', g'.get f.ptr = some a' ∧ Spec.Same a a' := by
    intro l
    induction l with
    | nil => intro g g' hg a ha; obtain rfl := Option.some.inj hg; exact ⟨a, ha, rfl, rfl, rfl, rfl⟩
    | cons c l ih =>
      intro g g' hg a ha
      obtain ⟨f', k', x'⟩ := c
      obtain ⟨⟨r, g''⟩, hc, hr⟩ := Option.bind_eq_some_iff.1 hg
      obtain ⟨a', ha', hs⟩ := call_same hc f.ptr a ha
      obtain ⟨a'', ha'', hs'⟩ := ih g'' g' hr a' ha'
      exact ⟨a'', ha'', hs.trans hs'⟩
  have hkeep : ∀ (l : List (Fun S V M × Nat × R)) (g g' : Heap R S V M α β γ), run g l = some g' →
      (∀ c ∈ l, ∀ kind', Spec.kindOf c.1.hasScalar c.2.1 = some kind' → Spec.target c.1 kind' ≠ Spec.target f kind) →
      read g' (Spec.target f kind) = read g (Spec.target f kind) := by
    intro l
    induction l with
    | nil => intro g g' hg _; obtain rfl := Option.some.inj hg; rfl
    | cons c l ih =>
      intro g g' hg hl
      obtain ⟨f', k', x'⟩ := c
      obtain ⟨⟨r, g''⟩, hc, hr⟩ := Option.bind_eq_some_iff.1 hg
      rw [ih g'' g' hr fun c hc => hl c (by simp [hc])]
      cases hp : g.get f'.ptr with
      | none => simp [call, hp] at hc
      | some b =>
        obtain ⟨e1, -, e2⟩ := call_spec hp k' x'
        cases hk' : Spec.kindOf f'.hasScalar k' with
        | none => rw [e1.2 hk'] at hc; cases hc
        | some kind' =>
          obtain ⟨g3, e3, -, e4, -⟩ := e2 kind' hk'
          rw [e3] at hc
          obtain ⟨-, rfl⟩ := Prod.mk.inj (Option.some.inj hc)
          have hne := hl (f', k', x') (by simp) kind' hk'
          refine e4 _ ?_
          by_contra hcon
          simp only [not_or, not_not, not_and] at hcon
          obtain ⟨c1, c2, c3⟩ := hcon
          apply hne
          cases kind <;> cases kind' <;> simp_all [Spec.target]
  rw [happ, hpre, Option.bind_some] at hrun
  obtain ⟨⟨r, g⟩, hc, hr⟩ := Option.bind_eq_some_iff.1 hrun
  obtain ⟨b, hb, hs⟩ := hsame pre h h1 hpre a ha
  obtain ⟨g3, e3, e5, -⟩ := (call_spec hb k x).2.2 kind hk
  have hc' : call h1 f k x = some (r, g) := hc
  rw [e3] at hc'
  obtain ⟨-, rfl⟩ := Prod.mk.inj (Option.some.inj hc')
  have hr' : run g3 post = some h2 := hr
  rw [hkeep post g3 h2 hr' hpost, e5, valueOf_same hs]

/-- C83. A result is overwritten by the next call of the same function: both references refer to the value at `y`. So the claim
that a result keeps its value is false. -/
theorem kept_false : ¬ Spec.Kept ∧
    ∀ (h : Heap R S V M α β γ) (f : Fun S V M) (a : Asm R S V M α β γ) (k : Nat) (kind : Kind) (x y : R),
      h.get f.ptr = some a → Spec.kindOf f.hasScalar k = some kind →
      ∃ r h' h'', call h f k x = some (r, h') ∧ call h' f k y = some (r, h'') ∧ read h'' r = some (Spec.valueOf a f y kind) := by
  have hgen : ∀ {R S V M α β γ : Type} (h : Heap R S V M α β γ) (f : Fun S V M) (a : Asm R S V M α β γ) (k : Nat) (kind : Kind)
      (x y : R), h.get f.ptr = some a → Spec.kindOf f.hasScalar k = some kind →
      ∃ r h' h'', call h f k x = some (r, h') ∧ call h' f k y = some (r, h'') ∧ read h' r = some (Spec.valueOf a f x kind) ∧
        read h'' r = some (Spec.valueOf a f y kind) := by
    intro R S V M α β γ h f a k kind x y ha hk
    obtain ⟨h', e1, e2, -, -, a', e3, e4⟩ := (call_spec ha k x).2.2 kind hk
    obtain ⟨h'', e5, e6, -⟩ := (call_spec e3 k y).2.2 kind hk
    exact ⟨_, h', h'', e1, e5, e2, by rw [e6, valueOf_same e4]⟩
  constructor
  · intro hK
    let a : Asm ℝ Unit Unit Unit ℝ ℝ ℝ :=
      ⟨BindState.init, fun x _ => x, ⟨fun x _ => x, fun x _ => x, fun x _ => x⟩, ⟨fun x _ => x, fun x _ => x, fun x _ => x⟩, 0,
        fun _ => 0, fun _ => 0⟩
    obtain ⟨r, h', h'', c1, c2, r1, r2⟩ := hgen (⟨fun _ => some a, 1⟩ : Heap ℝ Unit Unit Unit ℝ ℝ ℝ)
      (⟨0, ⟨(), (), ()⟩, .full, true⟩ : Fun Unit Unit Unit) a 0 .scalar 1 2 rfl rfl
    have := hK _ h' h'' _ 0 1 2 r r c1 c2
    rw [r1, r2] at this
    simp [Spec.valueOf, a] at this
  · intro h f a k kind x y ha hk
    obtain ⟨r, h', h'', c1, c2, -, r2⟩ := hgen h f a k kind x y ha hk
    exact ⟨r, h', h'', c1, c2, r2⟩

/-! ### The factory -/

/-- C83, factory. A pointer is shared with the function; an object is copied, so that the function and the user work on
assemblers that compute the same and do not disturb each other. Without an option, Full is taken. -/
theorem op3_spec (h : Heap R S V M α β γ) (aff : AffordanceColl S V M) (hasScalar : Bool) (opt : Option DBCOption) :
    (∀ p rvalue, op3 h (.raw p) aff hasScalar opt = .done (⟨p, aff, opt.getD .full, hasScalar⟩, h) ∧
      op3 h (.shared p rvalue) aff hasScalar opt = .done (⟨p, aff, opt.getD .full, hasScalar⟩, h)) ∧
    ∀ p a, h.get p = some a → p < h.next → ∃ f h', op3 h (.object p) aff hasScalar opt = .done (f, h') ∧
      f.ptr ≠ p ∧ h'.get f.ptr = some a ∧ (∀ q, q ≠ f.ptr → h'.get q = h.get q) ∧
      f.affordances = aff ∧ f.option = opt.getD .full ∧ f.hasScalar = hasScalar := by
  refine ⟨fun p rv => ⟨rfl, rfl⟩, fun p a ha hp => ?_⟩
  refine ⟨⟨h.next, aff, opt.getD .full, hasScalar⟩, _, by simp only [op3, toSharedPointer, ha, Option.map_some]; rfl,
    by simp; omega, by simp [get_set], fun q hq => ?_, rfl, rfl, rfl⟩
  have : q ≠ h.next := hq
  simp [get_set, this]

/-- C83, overload without arguments. The function for the bound affordances and option is returned exactly if both are bound;
otherwise an exception is thrown. -/
theorem op1_iff (h : Heap R S V M α β γ) (hasScalar : Bool) (p : Nat) (a : Asm R S V M α β γ) (ha : h.get p = some a)
    (hp : p < h.next) (as : Passed) (has : as = .raw p ∨ (∃ rv, as = .shared p rv) ∨ as = .object p) :
    (∀ aff d, a.bind.affordances = some aff → a.bind.dBCOption = some d →
      ∃ f h', op1 h as hasScalar = .done (f, h') ∧ h'.get f.ptr = some a ∧ f.affordances = aff ∧ f.option = d ∧
        f.hasScalar = hasScalar ∧ ((∃ q, as = .object q) → f.ptr ≠ p) ∧ ((¬ ∃ q, as = .object q) → f.ptr = p)) ∧
    ((a.bind.affordances = none ∨ a.bind.dBCOption = none) → op1 h as hasScalar = .throws) := by
  have hget : ∃ p' h', toSharedPointer h as = some (p', h') ∧ h'.get p' = some a ∧ ((∃ q, as = .object q) → p' ≠ p) ∧
      ((¬ ∃ q, as = .object q) → p' = p) := by
    rcases has with rfl | ⟨rv, rfl⟩ | rfl
    · exact ⟨p, h, rfl, ha, by simp, by simp⟩
    · exact ⟨p, h, rfl, ha, by simp, by simp⟩
    · exact ⟨h.next, _, by simp only [toSharedPointer, ha, Option.map_some]; rfl, by simp [get_set], fun _ => by omega, by simp⟩
  obtain ⟨p', h', e, e2, e3, e4⟩ := hget
  constructor
  · intro aff d h1 h2
    refine ⟨⟨p', aff, d, hasScalar⟩, h', ?_, e2, rfl, rfl, rfl, e3, e4⟩
    simp only [op1, e, e2, h1, h2]
    rfl
  · intro hn
    simp only [op1, e, e2]
    rcases hn with hn | hn
    · simp [hn]
    · cases a.bind.affordances <;> simp [hn]

/-- C83, overload with an option. For pointers and lvalue shared pointers it decides as documented. For an rvalue shared pointer,
which the overload accepts, the behaviour is undefined, because the pointer is used after it was moved from; so the claim for all
ways of passing is false. -/
theorem op2_iff (h : Heap R S V M α β γ) (hasScalar : Bool) (d : DBCOption) (p : Nat) (a : Asm R S V M α β γ)
    (ha : h.get p = some a) :
    (∀ as, as = .raw p ∨ as = .shared p false →
      (∀ aff, a.bind.affordances = some aff → op2 h as hasScalar d = .done (⟨p, aff, d, hasScalar⟩, h)) ∧
      (a.bind.affordances = none → op2 h as hasScalar d = .throws)) ∧
    op2 h (.shared p true) hasScalar d = .undefined ∧ op2 h (.object p) hasScalar d = .doesNotCompile ∧ ¬ Spec.Op2 := by
  refine ⟨?_, rfl, rfl, fun hO => ?_⟩
  · rintro as (rfl | rfl)
    · exact ⟨fun aff h1 => by simp [op2, ha, h1, op3, toSharedPointer], fun h1 => by simp [op2, ha, h1]⟩
    · exact ⟨fun aff h1 => by simp [op2, ha, h1, op3, toSharedPointer], fun h1 => by simp [op2, ha, h1]⟩
  · let b : Asm ℝ Unit Unit Unit ℝ ℝ ℝ :=
      ⟨⟨none, some ⟨(), (), ()⟩, none⟩, fun x _ => x, ⟨fun x _ => x, fun x _ => x, fun x _ => x⟩,
        ⟨fun x _ => x, fun x _ => x, fun x _ => x⟩, 0, fun _ => 0, fun _ => 0⟩
    obtain ⟨f, h', hf⟩ := hO ⟨fun _ => some b, 1⟩ 0 true true b ⟨(), (), ()⟩ .full rfl rfl
    cases hf

/-- Two assemblers, of which only the first is bound to affordances. -/
def exampleHeap : Heap ℝ Unit Unit Unit ℝ ℝ ℝ :=
  ⟨fun p => if p = 0 then some ⟨⟨some 0, some ⟨(), (), ()⟩, some .full⟩, fun x _ => x ^ 2, ⟨fun x _ => 2 * x, fun x _ => 3 * x, fun x _ => 4 * x⟩,
    ⟨fun _ _ => 2, fun _ _ => 3, fun _ _ => 4⟩, 0, fun _ => 0, fun _ => 0⟩
    else if p = 1 then some ⟨⟨some 0, none, none⟩, fun x _ => x ^ 2, ⟨fun x _ => 2 * x, fun x _ => 3 * x, fun x _ => 4 * x⟩,
      ⟨fun _ _ => 2, fun _ _ => 3, fun _ _ => 4⟩, 0, fun _ => 0, fun _ => 0⟩
    else none, 2⟩

/-- The function of the first assembler is the energy; that of the second throws; after a call at 3 and another at 5 the
residual is that at 5, and not changed by the energy. -/
example : (∃ f h', op1 exampleHeap (.object 0) true = .done (f, h') ∧ f.ptr ≠ 0) ∧ op1 exampleHeap (.raw 1) true = .throws ∧
    op2 exampleHeap (.raw 0) true .raw = .done (⟨0, ⟨(), (), ()⟩, .raw, true⟩, exampleHeap) ∧
    op2 exampleHeap (.shared 1 false) true .raw = .throws ∧
    ∃ h2, run exampleHeap ([(⟨0, ⟨(), (), ()⟩, .raw, true⟩, 1, 3)] ++ (⟨0, ⟨(), (), ()⟩, .raw, true⟩, 1, 5) :: [(⟨0, ⟨(), (), ()⟩, .raw, true⟩, 0, 7)]) = some h2 ∧
      read h2 ⟨0, .vector, .raw⟩ = some (.vector (2 * 5)) := by
  have h0 := op1_iff exampleHeap true 0 _ rfl (by decide) (.object 0) (Or.inr (Or.inr rfl))
  obtain ⟨f, h', h1, -, -, -, -, h2, -⟩ := h0.1 _ _ rfl rfl
  refine ⟨⟨f, h', h1, h2 ⟨0, rfl⟩⟩, (op1_iff exampleHeap true 1 _ rfl (by decide) (.raw 1) (Or.inl rfl)).2 (Or.inl rfl),
    ((op2_iff exampleHeap true .raw 0 _ rfl).1 _ (Or.inl rfl)).1 _ rfl, ((op2_iff exampleHeap true .raw 1 _ rfl).1 _ (Or.inr rfl)).2 rfl, ?_⟩
  refine ⟨_, rfl, read_last exampleHeap _ _ [(⟨0, ⟨(), (), ()⟩, .raw, true⟩, 1, 3)] [(⟨0, ⟨(), (), ()⟩, .raw, true⟩, 0, 7)] ⟨0, ⟨(), (), ()⟩, .raw, true⟩ 1 5 .vector _ rfl rfl rfl rfl fun c hc kind' hk => ?_⟩
  obtain rfl := List.mem_singleton.1 hc
  obtain rfl : kind' = .scalar := (Option.some.inj hk).symm
  intro h
  cases h

end Ikarus.DiffFun

/-! ### The functions are derivatives of each other -/

namespace Ikarus

theorem mask_getD {flags : List Bool} {v : List ℝ} (h : v.length = flags.length) (i : Nat) :
    (Spec.mask flags v).getD i 0 = if Spec.Free flags i then v.getD i 0 else 0 := by
  simp only [Spec.mask, Spec.Free, List.getD_eq_getElem?_getD, List.getElem?_zipWith]
  by_cases hi : i < flags.length
  · rw [List.getElem?_eq_getElem hi, List.getElem?_eq_getElem (h ▸ hi)]
    cases flags[i] <;> simp
  · rw [List.getElem?_eq_none (by omega), List.getElem?_eq_none (by omega)]; simp

/-- C83, Full. Along directions that vanish at the constrained dofs the vector with zeroed entries and the matrix with unit rows
are derivatives of the scalar and of the vector. -/
theorem full_consistent (s : System) (x : List ℝ) (h : Spec.SystemContract s x) :
    ∃ r K, s.fullVector? x = some r ∧ s.fullMatrix? x = some K ∧
      ∀ v : List ℝ, v.length = s.flags.length → (∀ i, i < s.flags.length → ¬ Spec.Free s.flags i → v.getD i 0 = 0) →
        HasDerivAt (fun t => (s.scalar? (Spec.line x v t)).getD 0) (Spec.dotL r v) 0 ∧
        ∀ i, i < s.flags.length → HasDerivAt (fun t => ((s.fullVector? (Spec.line x v t)).getD []).getD i 0)
          (∑ j ∈ Finset.range s.flags.length, K.val i j * v.getD j 0) 0 := by
  obtain ⟨hdef, R, A, hR, hA, hder⟩ := assembled_consistent s x h
  have hx := h.1
  have hfull : ∀ y R, s.rawVector? y = some R →
      s.fullVector? y = some (Spec.mask s.flags R) ∧ R.length = s.flags.length := by
    intro y R hy
    unfold System.rawVector? at hy
    unfold System.fullVector?
    obtain ⟨fes, h1, h2⟩ := Option.bind_eq_some_iff.1 hy
    rw [h1, Option.bind_some, fullVector_eq_mask s.flags fes R h2]
    exact ⟨rfl, (rawVector_eq_sum _ _ R h2).1⟩
  obtain ⟨hr, hRl⟩ := hfull x R hR
  obtain ⟨K, hK, hKv⟩ : ∃ K, s.fullMatrix? x = some K ∧ ∀ r c, r < s.flags.length → c < s.flags.length →
      K.val r c = if Spec.Free s.flags r ∧ Spec.Free s.flags c then A.val r c else if r = c then 1 else 0 := by
    unfold System.rawMatrix? at hA
    unfold System.fullMatrix?
    obtain ⟨fes, h1, h2⟩ := Option.bind_eq_some_iff.1 hA
    obtain ⟨K, k1, -, -, k2⟩ := fullMatrix_eq s.flags fes A h2
    exact ⟨K, by rw [h1, Option.bind_some, k1], k2⟩
  refine ⟨_, K, hr, hK, fun v hv hv0 => ?_⟩
  obtain ⟨hd1, hd2⟩ := hder v hv
  refine ⟨hd1.congr_deriv ?_, fun i hi => ?_⟩
  · have hml : (Spec.mask s.flags R).length = s.flags.length := by simp [Spec.mask, hRl]
    rw [dotL_eq_sum R v _ hRl hv, dotL_eq_sum _ v _ hml hv]
    refine Finset.sum_congr rfl fun i hi => ?_
    rw [mask_getD hRl]
    by_cases hf : Spec.Free s.flags i
    · rw [if_pos hf]
    · rw [if_neg hf, hv0 i (Finset.mem_range.1 hi) hf, mul_zero, mul_zero]
  · have hfun : ∀ t, ((s.fullVector? (Spec.line x v t)).getD []).getD i 0 =
        if Spec.Free s.flags i then ((s.rawVector? (Spec.line x v t)).getD []).getD i 0 else 0 := by
      intro t
      obtain ⟨R', hR'⟩ := Option.isSome_iff_exists.1
        (hdef (Spec.line x v t) (by rw [line_length x v t (hx.trans hv.symm), hx])).2
      obtain ⟨h1, h2⟩ := hfull _ R' hR'
      rw [h1, hR', Option.getD_some, Option.getD_some, mask_getD h2]
    simp only [hfun]
    by_cases hf : Spec.Free s.flags i
    · simp only [hf, if_true]
      refine (hd2 i hi).congr_deriv (Finset.sum_congr rfl fun j hj => ?_)
      rw [hKv i j hi (Finset.mem_range.1 hj)]
      by_cases hj' : Spec.Free s.flags j
      · rw [if_pos ⟨hf, hj'⟩]
      · rw [hv0 j (Finset.mem_range.1 hj) hj', mul_zero, mul_zero]
    · simp only [hf, if_false]
      refine (hasDerivAt_const _ _).congr_deriv (Eq.symm (Finset.sum_eq_zero fun j hj => ?_))
      rw [hKv i j hi (Finset.mem_range.1 hj), if_neg fun hh => hf hh.1]
      by_cases hij : i = j
      · rw [← hij, hv0 i hi hf, mul_zero]
      · rw [if_neg hij, zero_mul]

namespace DiffFun

/-- The directions along which the functions for an option are differentiated: all for Raw, those that vanish at the constrained
dofs for Full and Reduced. -/
def Spec.Admissible (s : System) (d : DBCOption) (v : List ℝ) : Prop :=
  v.length = s.flags.length ∧ (d ≠ .raw → ∀ i, i < s.flags.length → ¬ Ikarus.Spec.Free s.flags i → v.getD i 0 = 0)

/-- The direction as the function for an option sees it. -/
def Spec.seen (s : System) (d : DBCOption) (v : List ℝ) : List ℝ :=
  match d with
  | .reduced => Ikarus.Spec.selectFree s.flags v
  | _ => v

/-- The value of the `k`-th derivative of a function at `x`. -/
def Spec.eval {S V M : Type} (h : Heap (List ℝ) S V M (Option ℝ) (Option (List ℝ)) (Option (DMat ℝ))) (f : Fun S V M) (k : Nat)
    (x : List ℝ) : Option (Value (Option ℝ) (Option (List ℝ)) (Option (DMat ℝ))) :=
  (call h f k x).bind fun p => read p.2 p.1

def Spec.num {α β γ : Type} : Option (Value (Option α) β γ) → Option α
  | some (.scalar a) => a
  | _ => none

def Spec.vec {α β γ : Type} : Option (Value α (Option β) γ) → Option β
  | some (.vector b) => b
  | _ => none

def Spec.mat {α β γ : Type} : Option (Value α β (Option γ)) → Option γ
  | some (.matrix c) => c
  | _ => none

theorem eval_eq {S V M : Type} {h : Heap (List ℝ) S V M (Option ℝ) (Option (List ℝ)) (Option (DMat ℝ))} {f : Fun S V M}
    {a : Asm (List ℝ) S V M (Option ℝ) (Option (List ℝ)) (Option (DMat ℝ))} (ha : h.get f.ptr = some a) {k : Nat} {kind : Kind}
    (hk : Spec.kindOf f.hasScalar k = some kind) (x : List ℝ) : Spec.eval h f k x = some (Spec.valueOf a f x kind) := by
  obtain ⟨h', e1, e2, -⟩ := (call_spec ha k x).2.2 kind hk
  rw [Spec.eval, e1, Option.bind_some, e2]

/-- C83, derivatives. For every mesh and every option the function made from an assembler, its derivative and its second
derivative are derivatives of each other along the admissible directions, at every solution where the elements keep their
contracts and whatever the state of the assembler is. -/
theorem function_derivatives {S V M : Type} (s : System) (x : List ℝ) (hs : Ikarus.Spec.SystemContract s x)
    (h : Heap (List ℝ) S V M (Option ℝ) (Option (List ℝ)) (Option (DMat ℝ))) (f : Fun S V M) (b : BindState Nat S V M)
    (a : Asm (List ℝ) S V M (Option ℝ) (Option (List ℝ)) (Option (DMat ℝ))) (ha : h.get f.ptr = some a)
    (has : Spec.Same (s.asm b) a) (hf : f.hasScalar = true) :
    ∃ r K, Spec.vec (Spec.eval h f 1 x) = some r ∧ Spec.mat (Spec.eval h f 2 x) = some K ∧
      ∀ v, Spec.Admissible s f.option v →
        HasDerivAt (fun t => (Spec.num (Spec.eval h f 0 (Ikarus.Spec.line x v t))).getD 0)
          (Ikarus.Spec.dotL r (Spec.seen s f.option v)) 0 ∧
        ∀ i, i < r.length → HasDerivAt (fun t => ((Spec.vec (Spec.eval h f 1 (Ikarus.Spec.line x v t))).getD []).getD i 0)
          (∑ j ∈ Finset.range r.length, K.val i j * (Spec.seen s f.option v).getD j 0) 0 := by
  have e0 : ∀ y, Spec.num (Spec.eval h f 0 y) = s.scalar? y := by
    intro y
    rw [eval_eq ha (kind := .scalar) (by rw [hf]; rfl), ← valueOf_same has]
    rfl
  have e1 : ∀ y, Spec.vec (Spec.eval h f 1 y) = match f.option with
      | .raw => s.rawVector? y | .reduced => s.reducedVector? y | .full => s.fullVector? y := by
    intro y
    rw [eval_eq ha (kind := .vector) (by rw [hf]; rfl), ← valueOf_same has]
    cases ho : f.option <;> simp [Spec.valueOf, ho, Spec.vec, System.asm]
  have e2 : ∀ y, Spec.mat (Spec.eval h f 2 y) = match f.option with
      | .raw => s.rawMatrix? y | .reduced => s.reducedMatrix? y | .full => s.fullMatrix? y := by
    intro y
    rw [eval_eq ha (kind := .matrix) (by rw [hf]; rfl), ← valueOf_same has]
    cases ho : f.option <;> simp [Spec.valueOf, ho, Spec.mat, System.asm]
  simp only [e0, e1, e2]
  have hx := hs.1
  cases ho : f.option with
  | raw =>
    obtain ⟨-, r, K, hr, hK, hd⟩ := assembled_consistent s x hs
    have hl : r.length = s.flags.length := by
      unfold System.rawVector? at hr
      obtain ⟨fes, h1, h2⟩ := Option.bind_eq_some_iff.1 hr
      exact (rawVector_eq_sum _ _ r h2).1
    refine ⟨r, K, hr, hK, fun v hv => ?_⟩
    rw [hl]
    exact hd v hv.1
  | full =>
    obtain ⟨r, K, hr, hK, hd⟩ := full_consistent s x hs
    have hl : r.length = s.flags.length := by
      obtain ⟨-, R, A, hR, -⟩ := assembled_consistent s x hs
      unfold System.rawVector? at hR
      unfold System.fullVector? at hr
      obtain ⟨fes, h1, h2⟩ := Option.bind_eq_some_iff.1 hR
      rw [h1, Option.bind_some, fullVector_eq_mask s.flags fes R h2] at hr
      obtain rfl := Option.some.inj hr
      have : R.length = s.flags.length := (rawVector_eq_sum _ _ R h2).1
      simp [Ikarus.Spec.mask, this]
    refine ⟨r, K, hr, hK, fun v hv => ?_⟩
    rw [hl]
    exact hd v hv.1 (hv.2 (by simp))
  | reduced =>
    obtain ⟨r, K, m, hr, hK, hm, hrl, -, -, hd⟩ := reduced_consistent s x hs
    refine ⟨r, K, hr, hK, fun v hv => ?_⟩
    rw [hrl]
    rw [Assembler.reducedSize?_create] at hm
    have hw : (Ikarus.Spec.selectFree s.flags v).length = m := by
      rw [selectFree_length hv.1]; exact Option.some.inj hm
    obtain ⟨v', hv', hd'⟩ := hd _ hw
    have hvv : v' = v := by
      obtain ⟨v'', e, hl', h0, hred⟩ := reduced_full_roundtrip s.flags (Ikarus.Spec.selectFree s.flags v)
        (by rw [Assembler.reducedSize?_create, hw]; exact hm)
      rw [e] at hv'
      obtain rfl := Option.some.inj hv'
      rw [createReducedVector_eq s.flags v'' hl'] at hred
      have hsel : Ikarus.Spec.selectFree s.flags v'' = Ikarus.Spec.selectFree s.flags v :=
        (List.map_injective_iff.2 (Option.some_injective ℝ)) (Option.some.inj hred)
      have hg : ∀ i, i < s.flags.length → v''.getD i 0 = v.getD i 0 := by
        intro i hi
        by_cases hfr : Ikarus.Spec.Free s.flags i
        · have h1 := selectFree_getElem? hl' hfr
          have h2 := selectFree_getElem? hv.1 hfr
          rw [hsel, h2] at h1
          rw [List.getD_eq_getElem?_getD, List.getD_eq_getElem?_getD, h1]
        · rw [hv.2 (by simp) i hi hfr]
          have : s.flags[i]? = some true := by
            unfold Ikarus.Spec.Free at hfr
            rw [List.getElem?_eq_getElem hi] at hfr ⊢
            cases hb : s.flags[i] <;> simp_all
          rw [List.getD_eq_getElem?_getD, h0 i this, Option.getD_some]
      apply List.ext_getElem (by rw [hl', hv.1])
      intro i h1 h2
      have := hg i (by omega)
      simpa [List.getD_eq_getElem?_getD, List.getElem?_eq_getElem h1, List.getElem?_eq_getElem h2] using this
    rw [hvv] at hd'
    exact hd'

/-- The two bars of `exampleSystem`: the hypotheses hold at every solution, with a direction that is not zero. -/
example (x0 x1 x2 : ℝ) (d : DBCOption) : Ikarus.Spec.SystemContract exampleSystem [x0, x1, x2] ∧
    Spec.Same (exampleSystem.asm (BindState.init : BindState Nat Unit Unit Unit)) (exampleSystem.asm BindState.init) ∧
    Spec.Admissible exampleSystem d [0, 1, 2] := by
  refine ⟨exampleSystem_contract x0 x1 x2, ⟨rfl, rfl, rfl, rfl⟩, rfl, fun _ i hi hf => ?_⟩
  have hi' : i < 3 := hi
  match i, hi' with
  | 0, _ => rfl
  | 1, _ => exact absurd rfl hf
  | 2, _ => exact absurd rfl hf

end DiffFun

end Ikarus
