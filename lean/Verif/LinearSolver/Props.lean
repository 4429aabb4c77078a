import Verif.LinearSolver.Model
import Mathlib.Tactic.Common

/-!
C57: with which matrix the linear solver solves.  The specification is an abstract machine that remembers for each solver only
its tag and the matrix it was given last.
-/

namespace Ikarus.LinearSolver

variable {M P : Type}

namespace Spec

/-- The tags of the iterative solvers. -/
def iterative : Tag → Bool
  | .si_ConjugateGradient | .si_LeastSquaresConjugateGradient | .si_BiCGSTAB => true
  | _ => false

/-- The tags of the dense solvers. -/
def isDense : Tag → Bool
  | .d_PartialPivLU | .d_FullPivLU | .d_HouseholderQR | .d_ColPivHouseholderQR | .d_FullPivHouseholderQR
  | .d_CompleteOrthogonalDecomposition | .d_LLT | .d_LDLT => true
  | _ => false

/-- A dense solver is for dense matrices, the others are for sparse ones. -/
def supports (tag : Tag) : Storage → Bool
  | .dense => isDense tag
  | .sparse => !isDense tag

/-- What is known of a solver: its tag, and the matrix it was given last, with its address. -/
structure Entry (M : Type) where
  tag : Tag
  given : Option (Nat × M)

/-- What is known of a program. -/
structure Known (M : Type) where
  obj : Nat → Option (Entry M)
  store : Nat → Option (Storage × M)

/-- The two points in which a solver may be as a user expects or not: a copy knows the matrix of the original; `factorize`
takes a matrix of the other storage. -/
structure Policy where
  copyKeeps : Bool
  factorizeTakesAll : Bool

/-- What a user expects. -/
def expected : Policy := ⟨true, true⟩

/-- What the code does. -/
def actual : Policy := ⟨false, false⟩

/-- A matrix is passed to solver `x`. -/
def pass (s : Known M) (x a : Nat) (takes : Tag → Storage → Bool) : Known M :=
  match s.obj x, s.store a with
  | some e, some A =>
    if takes e.tag A.1 then { s with obj := Function.update s.obj x (some ⟨e.tag, some (a, A.2)⟩) } else s
  | _, _ => s

/-- The effect of an operation.  `compute` of a matrix of the wrong storage throws.  After a pattern is analysed a direct sparse
solver has no matrix until it is factorised, an iterative one uses the analysed matrix. -/
def step (p : Policy) (s : Known M) : Op M → Known M
  | .construct x tag => if tag = .sd_SuperLU then s else { s with obj := Function.update s.obj x (some ⟨tag, none⟩) }
  | .copyConstruct x y | .copyAssign x y =>
    match s.obj y with
    | none => s
    | some e => { s with obj := Function.update s.obj x (some ⟨e.tag, if p.copyKeeps then e.given else none⟩) }
  | .moveAssign x y =>
    match s.obj y with
    | none => s
    | some e => if x = y then s else
        { s with obj := Function.update (Function.update s.obj x (some e)) y (some ⟨e.tag, none⟩) }
  | .swap x y => { s with obj := Function.update (Function.update s.obj x (s.obj y)) y (s.obj x) }
  | .analyzePattern x a =>
    match s.obj x, s.store a with
    | some e, some (.sparse, m) =>
      if isDense e.tag then s else
        { s with obj := Function.update s.obj x (some ⟨e.tag, if iterative e.tag then e.given.map fun _ => (a, m) else none⟩) }
    | _, _ => s
  | .factorize x a => pass s x a fun t st => p.factorizeTakesAll || supports t st
  | .compute x a => pass s x a supports
  | .write a st m => { s with store := Function.update s.store a (some (st, m)) }
  | .destroy a => { s with store := Function.update s.store a none }

/-- Nothing is known before the program. -/
def start : Known M := ⟨fun _ => none, fun _ => none⟩

/-- The effect of a program. -/
def after (p : Policy) (s : Known M) (ops : List (Op M)) : Known M := ops.foldl (step p) s

/-- The full claim: after each program whose behaviour is defined, a solver that was given a matrix solves with it, as it was
when it was given. -/
def SolvesWithLast (M P : Type) [DecidableEq P] (pat : M → P) : Prop :=
  ∀ ops mem, run pat empty ops = some mem → ∀ x e a m,
    (after expected start ops).obj x = some e → e.given = some (a, m) → solve mem x = .ok m

/-- An operation that keeps to what the code supports: no solver is copied, and a matrix passed to `factorize` has the storage
of the solver. -/
def Keeps (s : Known M) : Op M → Prop
  | .copyConstruct _ _ | .copyAssign _ _ => False
  | .factorize x a => ∀ e A, s.obj x = some e → s.store a = some A → supports e.tag A.1 = true
  | _ => True

/-- A program of which each operation does. -/
def KeepsAll : Known M → List (Op M) → Prop
  | _, [] => True
  | s, op :: ops => Keeps s op ∧ KeepsAll (step expected s op) ops

end Spec

/-- The storages agree with the tags. -/
theorem construct_spec (tag : Tag) :
    (construct tag = none ↔ tag = .sd_SuperLU) ∧ (construct tag = some none ↔ tag = .none) ∧
      ∀ k, construct tag = some (some k) →
        (∀ st, Spec.supports tag st = true ↔ k.storage = st) ∧ (Spec.iterative tag = true ↔ k = .iterative) ∧
          (Spec.isDense tag = true ↔ k = .dense) := by
  cases tag <;> refine ⟨by decide, by decide, ?_⟩ <;> rintro (_ | _ | _) hk <;> first | (exact absurd hk (by decide)) |
    exact ⟨by rintro (_ | _) <;> decide, by decide, by decide⟩

/-- What a solver holds is the matrix it was given last. -/
def HeldIs (k : Kind) : Option (Held M) → Option (Nat × M) → Prop
  | none, none => True
  | some (.copy m), some g => k ≠ .iterative ∧ g.2 = m
  | some (.ref a), some g => k = .iterative ∧ g.1 = a
  | _, _ => False

/-- An object agrees with what is known of it. -/
def ObjIs : Option (Obj M P) → Option (Spec.Entry M) → Prop
  | none, none => True
  | some o, some e => o.tag = e.tag ∧
      match o.impl with
      | none => e.given = none ∧ o.tag ≠ .sd_SuperLU
      | some i => construct o.tag = some (some i.kind) ∧ HeldIs i.kind i.held e.given
  | _, _ => False

/-- Memory agrees with what is known. -/
def Agrees (mem : Mem M P) (s : Spec.Known M) : Prop :=
  mem.store = s.store ∧ ∀ x, ObjIs (mem.obj x) (s.obj x)

theorem agrees_update {mem : Mem M P} {s : Spec.Known M} (h : Agrees mem s) (x : Nat) {o : Option (Obj M P)}
    {e : Option (Spec.Entry M)} (ho : ObjIs o e) :
    Agrees { mem with obj := Function.update mem.obj x o } { s with obj := Function.update s.obj x e } := by
  refine ⟨h.1, fun y => ?_⟩
  by_cases hy : y = x
  · subst hy; simpa using ho
  · simpa [hy] using h.2 y

theorem fresh_objIs {tag : Tag} {o : Obj M P} (h : fresh tag = some o) :
    ObjIs (some o) (some ⟨tag, none⟩) ∧ tag ≠ .sd_SuperLU := by
  unfold fresh at h
  cases hc : construct tag with
  | none => simp [hc] at h
  | some k =>
    have hne : tag ≠ .sd_SuperLU := fun ht => by simp [(construct_spec tag).1.2 ht] at hc
    refine ⟨?_, hne⟩
    cases k with
    | none =>
      simp only [hc, Option.some.injEq] at h
      subst h
      exact ⟨rfl, rfl, hne⟩
    | some k =>
      simp only [hc, Option.some.injEq] at h
      subst h
      exact ⟨rfl, hc, trivial⟩

theorem fresh_none {tag : Tag} (h : (fresh tag : Option (Obj M P)) = none) : tag = .sd_SuperLU := by
  unfold fresh at h
  cases hc : construct tag with
  | none => exact (construct_spec tag).1.1 hc
  | some k => cases k <;> simp [hc] at h

/-- An object that agrees was not constructed with the tag that is refused. -/
theorem objIs_tag {o : Obj M P} {e : Spec.Entry M} (h : ObjIs (some o) (some e)) : o.tag ≠ .sd_SuperLU := by
  obtain ⟨_, h⟩ := h
  cases hi : o.impl with
  | none => rw [hi] at h; exact h.2
  | some i =>
    rw [hi] at h
    intro ht
    simp [(construct_spec o.tag).1.2 ht] at h

theorem step_agrees [DecidableEq P] (pat : M → P) {mem mem' : Mem M P} {s : Spec.Known M} (h : Agrees mem s) (op : Op M)
    (hs : step pat mem op = .ok mem' ∨ step pat mem op = .threw mem') : Agrees mem' (Spec.step Spec.actual s op) := by
  have hcopy : ∀ x y, (step pat mem (.copyConstruct x y) = .ok mem' ∨ step pat mem (.copyConstruct x y) = .threw mem') →
      Agrees mem' (Spec.step Spec.actual s (.copyConstruct x y)) := by
    intro x y hs
    have hy := h.2 y
    simp only [step, Spec.step, Spec.actual] at hs ⊢
    cases ho : mem.obj y with
    | none => simp [ho] at hs
    | some o =>
      cases he : s.obj y with
      | none => rw [ho, he] at hy; exact hy.elim
      | some e =>
        rw [ho, he] at hy
        cases hf : (fresh o.tag : Option (Obj M P)) with
        | none => exact absurd (fresh_none hf) (objIs_tag hy)
        | some o' =>
          simp [ho, hf] at hs
          subst hs
          have := (fresh_objIs hf).1
          rw [hy.1] at this
          exact agrees_update h x (by simpa using this)
  cases op with
  | construct x tag =>
    simp only [step, Spec.step] at hs ⊢
    cases hf : (fresh tag : Option (Obj M P)) with
    | none =>
      simp [hf] at hs
      subst hs
      rw [if_pos (fresh_none hf)]
      exact h
    | some o =>
      simp [hf] at hs
      subst hs
      rw [if_neg (fresh_objIs hf).2]
      exact agrees_update h x (fresh_objIs hf).1
  | copyConstruct x y => exact hcopy x y hs
  | copyAssign x y => exact hcopy x y hs
  | moveAssign x y =>
    have hy := h.2 y
    simp only [step, Spec.step] at hs ⊢
    cases ho : mem.obj y with
    | none => simp [ho] at hs
    | some o =>
      cases he : s.obj y with
      | none => rw [ho, he] at hy; exact hy.elim
      | some e =>
        rw [ho, he] at hy
        by_cases hxy : x = y
        · simp [ho, hxy] at hs
          subst hs
          simpa [hxy] using h
        · simp [ho, hxy] at hs
          subst hs
          simp only [hxy, if_false]
          have h1 := agrees_update h x hy
          exact agrees_update h1 y (o := some ⟨none, o.tag⟩) (e := some ⟨e.tag, none⟩) ⟨hy.1, rfl, (objIs_tag hy : o.tag ≠ _)⟩
  | swap x y =>
    have hx := h.2 x
    have hy := h.2 y
    simp only [step, Spec.step] at hs ⊢
    cases ho : mem.obj x with
    | none => simp [ho] at hs
    | some o =>
      cases ho' : mem.obj y with
      | none => simp [ho, ho'] at hs
      | some o' =>
        simp [ho, ho'] at hs
        subst hs
        rw [ho] at hx
        rw [ho'] at hy
        exact agrees_update (agrees_update h x hy) y hx
  | analyzePattern x a =>
    have hx := h.2 x
    have hst := congrFun h.1 a
    simp only [step, onImpl, Spec.step] at hs ⊢
    rcases ho : mem.obj x with _ | ⟨_ | i, tag⟩
    · simp [ho] at hs
    · simp [ho] at hs
    rcases hA : mem.store a with _ | ⟨st, m⟩
    · simp [ho, hA] at hs
    rcases he : s.obj x with _ | e
    · rw [ho, he] at hx; exact hx.elim
    rw [ho, he] at hx
    simp [ho, hA] at hs
    subst hs
    obtain ⟨ht, hk, hh⟩ := hx
    simp only at ht hk hh
    subst ht
    obtain ⟨-, hiter, hdense⟩ := (construct_spec e.tag).2.2 _ hk
    rw [← hst, hA]
    have hself : Agrees mem s → ∀ i' : Impl M P, ObjIs (some ⟨some i', e.tag⟩) (some e) →
        Agrees { mem with obj := Function.update mem.obj x (some ⟨some i', e.tag⟩) } s := by
      intro h i' hi'
      have := agrees_update h x hi'
      rwa [← he, Function.update_eq_self] at this
    cases st with
    | dense =>
      refine hself h _ ⟨rfl, ?_⟩
      cases hkk : i.kind <;> simp_all [Impl.analyzePattern]
    | sparse =>
      simp only
      cases hkk : i.kind with
      | dense =>
        rw [if_pos (hdense.2 hkk)]
        refine hself h _ ⟨rfl, ?_⟩
        simp_all [Impl.analyzePattern]
      | directSparse =>
        rw [if_neg (fun hd => by simp [hkk] at hdense; simp [hdense] at hd)]
        refine agrees_update h x ⟨rfl, ?_⟩
        have : Spec.iterative e.tag = false := by simpa [hkk] using hiter
        simp [Impl.analyzePattern, hkk, this, hk, HeldIs]
      | iterative =>
        rw [if_neg (fun hd => by simp [hkk] at hdense; simp [hdense] at hd)]
        refine agrees_update h x ⟨rfl, ?_⟩
        have : Spec.iterative e.tag = true := hiter.2 hkk
        simp only [Impl.analyzePattern, hkk, this, if_true]
        refine ⟨by rw [hk, hkk], ?_⟩
        cases hheld : i.held <;> cases hg : e.given <;> simp_all [HeldIs]
  | factorize x a =>
    have hx := h.2 x
    have hst := congrFun h.1 a
    simp only [step, onImpl, Spec.step, Spec.pass, Spec.actual, Bool.false_or] at hs ⊢
    rcases ho : mem.obj x with _ | ⟨_ | i, tag⟩
    · simp [ho] at hs
    · simp [ho] at hs
    rcases hA : mem.store a with _ | ⟨st, m⟩
    · simp [ho, hA] at hs
    rcases he : s.obj x with _ | e
    · rw [ho, he] at hx; exact hx.elim
    rw [ho, he] at hx
    simp only [ho, hA] at hs
    obtain ⟨ht, hk, hh⟩ := hx
    simp only at ht hk hh
    subst ht
    obtain ⟨hsup, hiter, hdense⟩ := (construct_spec e.tag).2.2 _ hk
    have hself : ObjIs (some ⟨some i, e.tag⟩) (some e) → Agrees mem s →
        Agrees { mem with obj := Function.update mem.obj x (some ⟨some i, e.tag⟩) } s := by
      intro hi' h
      have := agrees_update h x hi'
      rwa [← he, Function.update_eq_self] at this
    rw [← hst, hA]
    simp only
    by_cases hS : Spec.supports e.tag st = true
    · rw [if_pos hS]
      have hks := (hsup st).1 hS
      have key : ∀ i', i.factorize pat a (st, m) = .ok i' →
          i'.kind = i.kind ∧ HeldIs i.kind i'.held (some (a, m)) := by
        intro i' hi'
        unfold Impl.factorize at hi'
        cases hkk : i.kind <;> simp only [hkk, Kind.storage] at hks <;> subst hks <;> simp only [hkk] at hi'
        · split at hi' <;> simp at hi'
          subst hi'; exact ⟨rfl, rfl, rfl⟩
        · split at hi' <;> simp at hi'
          subst hi'; exact ⟨rfl, by decide, rfl⟩
        · simp at hi'
          subst hi'; exact ⟨rfl, by decide, rfl⟩
      cases hf : i.factorize pat a (st, m) with
      | undefined => simp [hf] at hs
      | threw i' =>
        exfalso
        unfold Impl.factorize at hf
        cases hkk : i.kind <;> cases st <;> simp only [hkk] at hf <;> try split at hf
        all_goals cases hf
      | ok i' =>
        simp [hf] at hs
        subst hs
        obtain ⟨h1, h2⟩ := key i' hf
        exact agrees_update h x ⟨rfl, by rw [hk, h1], by rw [h1]; exact h2⟩
    · rw [if_neg hS]
      have hks : i.kind.storage ≠ st := fun hc => hS ((hsup st).2 hc)
      have hf : i.factorize pat a (st, m) = .ok i := by
        unfold Impl.factorize
        cases hkk : i.kind <;> cases st <;> simp_all [Kind.storage]
      simp [hf] at hs
      subst hs
      exact hself ⟨rfl, hk, hh⟩ h
  | compute x a =>
    have hx := h.2 x
    have hst := congrFun h.1 a
    simp only [step, onImpl, Spec.step, Spec.pass] at hs ⊢
    rcases ho : mem.obj x with _ | ⟨_ | i, tag⟩
    · simp [ho] at hs
    · simp [ho] at hs
    rcases hA : mem.store a with _ | ⟨st, m⟩
    · simp [ho, hA] at hs
    rcases he : s.obj x with _ | e
    · rw [ho, he] at hx; exact hx.elim
    rw [ho, he] at hx
    simp only [ho, hA] at hs
    obtain ⟨ht, hk, hh⟩ := hx
    simp only at ht hk hh
    subst ht
    obtain ⟨hsup, hiter, hdense⟩ := (construct_spec e.tag).2.2 _ hk
    rw [← hst, hA]
    simp only
    by_cases hS : Spec.supports e.tag st = true
    · rw [if_pos hS]
      have hks := (hsup st).1 hS
      have key : ∃ i', i.compute pat a (st, m) = .ok i' ∧ i'.kind = i.kind ∧ HeldIs i.kind i'.held (some (a, m)) := by
        unfold Impl.compute
        cases hkk : i.kind <;> simp only [hkk, Kind.storage] at hks <;> subst hks
        · exact ⟨_, rfl, rfl, rfl, rfl⟩
        · exact ⟨_, rfl, rfl, by decide, rfl⟩
        · exact ⟨_, rfl, rfl, by decide, rfl⟩
      obtain ⟨i', hf, h1, h2⟩ := key
      simp [hf] at hs
      subst hs
      exact agrees_update h x ⟨rfl, by rw [hk, h1], by rw [h1]; exact h2⟩
    · rw [if_neg hS]
      have hks : i.kind.storage ≠ st := fun hc => hS ((hsup st).2 hc)
      have hf : i.compute pat a (st, m) = .threw i := by
        unfold Impl.compute
        cases hkk : i.kind <;> cases st <;> simp_all [Kind.storage]
      simp [hf] at hs
      subst hs
      have := agrees_update h x (o := some ⟨some i, e.tag⟩) (e := some e) ⟨rfl, hk, hh⟩
      rwa [← he, Function.update_eq_self] at this
  | write a st m =>
    simp [step] at hs
    subst hs
    exact ⟨by simp [Spec.step, h.1], h.2⟩
  | destroy a =>
    simp [step] at hs
    subst hs
    exact ⟨by simp [Spec.step, h.1], h.2⟩

theorem run_agrees [DecidableEq P] (pat : M → P) (ops : List (Op M)) :
    ∀ {mem mem' : Mem M P} {s : Spec.Known M}, Agrees mem s → run pat mem ops = some mem' →
      Agrees mem' (Spec.after Spec.actual s ops) := by
  induction ops with
  | nil =>
    intro mem mem' s h hr
    simp [run] at hr
    subst hr
    exact h
  | cons op ops ih =>
    intro mem mem' s h hr
    simp only [run] at hr
    cases hs : step pat mem op with
    | ok m => rw [hs] at hr; exact ih (step_agrees pat h op (.inl hs)) hr
    | threw m => rw [hs] at hr; exact ih (step_agrees pat h op (.inr hs)) hr
    | undefined => simp [hs] at hr

/-- C57. With which matrix a solver solves, after each program whose behaviour is defined: a direct solver solves with the matrix
it was given last, as it was then, where being given means `compute` or a `factorize` with the storage of the solver; an
iterative solver solves with what is now at the address of the matrix it was given last.  Without such a matrix, in particular
after being copied from another solver, the behaviour is undefined. -/
theorem solve_exact [DecidableEq P] (pat : M → P) (ops : List (Op M)) {mem : Mem M P} (h : run pat empty ops = some mem)
    (x : Nat) :
    solve mem x =
      match (Spec.after Spec.actual Spec.start ops).obj x with
      | some ⟨tag, some (a, m)⟩ =>
        if Spec.iterative tag = true then
          (match (Spec.after Spec.actual Spec.start ops).store a with
            | some A => .ok A.2
            | none => .undefined)
        else .ok m
      | _ => .undefined := by
  have hA : Agrees mem (Spec.after Spec.actual Spec.start ops) := by
    refine run_agrees pat ops ?_ h
    exact ⟨rfl, fun _ => trivial⟩
  generalize Spec.after Spec.actual Spec.start ops = s at hA
  have hx := hA.2 x
  rw [← hA.1]
  unfold solve
  rcases ho : mem.obj x with _ | ⟨_ | i, tag⟩
  · rcases he : s.obj x with _ | e
    · simp
    · rw [ho, he] at hx; exact hx.elim
  · rcases he : s.obj x with _ | ⟨t, g⟩
    · simp
    · rw [ho, he] at hx
      obtain ⟨-, hg, -⟩ := hx
      simp only at hg
      simp [hg]
  · rcases he : s.obj x with _ | ⟨t, g⟩
    · rw [ho, he] at hx; exact hx.elim
    · rw [ho, he] at hx
      obtain ⟨ht, hk, hh⟩ := hx
      simp only at ht hk hh
      subst ht
      obtain ⟨-, hiter, -⟩ := (construct_spec tag).2.2 _ hk
      simp only [Impl.solve]
      rcases hheld : i.held with _ | (m | a) <;> rcases g with _ | ⟨a', m'⟩ <;> simp only [hheld, HeldIs] at hh
      · rfl
      · have : ¬ Spec.iterative tag = true := fun hc => hh.1 (hiter.1 hc)
        simp [this, hh.2]
      · have : Spec.iterative tag = true := hiter.2 hh.1
        simp only [this, if_true, hh.2]
        cases mem.store a <;> rfl

theorem after_keeps (ops : List (Op M)) : ∀ s : Spec.Known M, Spec.KeepsAll s ops →
    Spec.after Spec.actual s ops = Spec.after Spec.expected s ops := by
  induction ops with
  | nil => intro s _; rfl
  | cons op ops ih =>
    intro s h
    have h1 : Spec.step Spec.actual s op = Spec.step Spec.expected s op := by
      cases op with
      | copyConstruct x y => exact h.1.elim
      | copyAssign x y => exact h.1.elim
      | factorize x a =>
        have hk := h.1
        simp only [Spec.step, Spec.pass, Spec.actual, Spec.expected, Bool.false_or, Bool.true_or, if_true]
        cases he : s.obj x with
        | none => rfl
        | some e =>
          cases hA : s.store a with
          | none => rfl
          | some A => simp [hk e A he hA]
      | _ => rfl
    simp only [Spec.after, List.foldl_cons] at ih ⊢
    rw [h1]
    exact ih _ h.2

/-- C57, in part: in a program that copies no solver and passes to `factorize` only matrices with the storage of the solver, a
direct solver solves with the matrix it was given last, as it was then, and an iterative solver does if the matrix is still
unchanged where it was. -/
theorem solve_last_partial [DecidableEq P] (pat : M → P) (ops : List (Op M)) {mem : Mem M P}
    (h : run pat empty ops = some mem) (hk : Spec.KeepsAll Spec.start ops) (x : Nat) (e : Spec.Entry M) (a : Nat) (m : M)
    (he : (Spec.after Spec.expected Spec.start ops).obj x = some e) (hg : e.given = some (a, m))
    (hi : Spec.iterative e.tag = true → ∃ st, mem.store a = some (st, m)) : solve mem x = .ok m := by
  have hA : Agrees mem (Spec.after Spec.actual Spec.start ops) := by
    refine run_agrees pat ops ?_ h
    exact ⟨rfl, fun _ => trivial⟩
  rw [solve_exact pat ops h x]
  rw [← hA.1]
  rw [after_keeps ops _ hk, he]
  obtain ⟨t, g⟩ := e
  simp only at hg hi ⊢
  subst hg
  simp only
  split
  · next ht =>
    obtain ⟨st, hst⟩ := hi ht
    simp [hst]
  · rfl

/-- Two matrices with the same pattern are solved with one after the other, then the solver is moved. -/
example : ∃ mem, run (M := Nat) (P := Unit) (fun _ => ()) empty [.construct 0 .sd_SparseLU, .write 7 .sparse 1, .analyzePattern 0 7,
    .factorize 0 7, .write 7 .sparse 2, .factorize 0 7, .write 7 .sparse 3, .moveAssign 1 0] = some mem ∧ solve mem 1 = .ok 2 := by
  refine ⟨_, rfl, rfl⟩

/-- C57. The full claim is false: `factorize` ignores a matrix of the other storage, and the old one is solved with.  (Copies and
iterative solvers break it too: `copy_loses`, `iterative_follows`.) -/
theorem solve_last_false : ¬ Spec.SolvesWithLast Nat Unit (fun _ => ()) := by
  intro h
  have := h [.construct 0 .sd_SparseLU, .write 7 .sparse 1, .write 8 .dense 2, .compute 0 7, .factorize 0 8] _ rfl
    0 _ 8 2 rfl rfl
  simp [solve, Impl.solve, Function.update] at this

/-- C57. A copy of a solver that was given a matrix cannot be solved with, for each matrix and each solver. -/
theorem copy_loses [DecidableEq P] (pat : M → P) (mem : Mem M P) (x y : Nat) :
    (∀ mem', step pat mem (.copyConstruct x y) = .ok mem' → solve mem' x = .undefined) ∧
      (∀ mem', step pat mem (.copyAssign x y) = .ok mem' → solve mem' x = .undefined) := by
  have key : ∀ mem', step pat mem (.copyConstruct x y) = .ok mem' → solve mem' x = .undefined := by
    intro mem' hs
    simp only [step] at hs
    cases ho : mem.obj y with
    | none => simp [ho] at hs
    | some o =>
      cases hf : (fresh o.tag : Option (Obj M P)) with
      | none => simp [ho, hf] at hs
      | some o' =>
        simp [ho, hf] at hs
        subst hs
        simp only [solve, Function.update_self]
        unfold fresh at hf
        rcases hc : construct o.tag with _ | _ | k
        · simp [hc] at hf
        · simp only [hc, Option.some.injEq] at hf
          subst hf; rfl
        · simp only [hc, Option.some.injEq] at hf
          subst hf; rfl
  exact ⟨key, key⟩

/-- The copy of a solver that has a matrix. -/
example : ∃ mem mem', run (M := Nat) (P := Unit) (fun _ => ()) empty [.construct 0 .d_LLT, .write 7 .dense 1, .compute 0 7] = some mem ∧
    solve mem 0 = .ok 1 ∧ step (fun _ => ()) mem (.copyConstruct 1 0) = .ok mem' ∧ solve mem' 1 = .undefined :=
  ⟨_, _, rfl, rfl, rfl, rfl⟩

/-- C57. An iterative solver follows the matrix: if it is overwritten after `compute`, the new one is solved with. -/
theorem iterative_follows [DecidableEq P] (pat : M → P) (tag : Tag) (ht : Spec.iterative tag = true) (A B : M) :
    ∃ mem : Mem M P, run pat empty [.construct 0 tag, .write 1 .sparse A, .compute 0 1, .write 1 .sparse B] = some mem ∧
      solve mem 0 = .ok B := by
  cases tag <;> first | exact absurd ht (by decide) | exact ⟨_, rfl, rfl⟩

/-- Newton's method writes each tangent to one place, factorises it and solves. -/
def newtonOps (x a : Nat) (st : Storage) : List M → List (Op M)
  | [] => []
  | m :: ms => .write a st m :: .factorize x a :: newtonOps x a st ms

theorem newton_run [DecidableEq P] (pat : M → P) (x a : Nat) (st : Storage) (k : Kind) (hk : k.storage = st) (tag : Tag) (p : P)
    (ms : List M) : ∀ (mem : Mem M P) (_ : ∀ m ∈ ms, pat m = p) (i : Impl M P),
      mem.obj x = some ⟨some i, tag⟩ → i.kind = k → (k ≠ .dense → i.analyzed = some p) →
      (∀ m0, mem.store a = some (st, m0) → (ms ≠ [] ∨ solve mem x = .ok m0) →
        ∃ mem', run pat mem (newtonOps x a st ms) = some mem' ∧ solve mem' x = .ok ((ms.getLast?).getD m0)) := by
  induction ms with
  | nil =>
    intro mem _ i hi hik hia m0 hm0 hs
    exact ⟨mem, rfl, by simpa using hs⟩
  | cons m ms ih =>
    intro mem hp i hi hik hia m0 hm0 _
    have hpm : pat m = p := hp m (by simp)
    have key : ∃ i' : Impl M P, i.factorize pat a (st, m) = .ok i' ∧ i'.kind = k ∧ (k ≠ .dense → i'.analyzed = some p) ∧
        i'.solve (Function.update mem.store a (some (st, m))) = .ok m := by
      unfold Impl.factorize
      cases k <;> subst hk <;> simp only [hik, Kind.storage]
      · have := hia (by decide)
        rw [if_pos (by rw [this, hpm])]
        exact ⟨_, rfl, rfl, fun _ => this, by simp [Impl.solve]⟩
      · have := hia (by decide)
        rw [if_pos (by rw [this, hpm])]
        exact ⟨_, rfl, rfl, fun _ => this, by simp [Impl.solve]⟩
      · exact ⟨_, rfl, rfl, fun hc => absurd rfl hc, by simp [Impl.solve]⟩
    obtain ⟨i', hf, hk', ha', hsol⟩ := key
    let mem1 : Mem M P := { mem with store := Function.update mem.store a (some (st, m)) }
    let mem2 : Mem M P := { mem1 with obj := Function.update mem.obj x (some ⟨some i', tag⟩) }
    have h2 : run pat mem (newtonOps x a st (m :: ms)) = run pat mem2 (newtonOps x a st ms) := by
      simp [newtonOps, run, step, onImpl, hi, hf, mem1, mem2]
    obtain ⟨mem', hr, hs⟩ := ih mem2 (fun m' hm' => hp m' (by simp [hm'])) i' (by simp [mem2]) hk' ha' m
      (by simp [mem2, mem1]) (.inr (by simp [solve, mem2, mem1, hsol]))
    refine ⟨mem', by rw [h2, hr], ?_⟩
    rw [hs]
    cases ms with
    | nil => rfl
    | cons m' ms => simp [List.getLast?_cons]

/-- C57. As Newton's method uses it, analysing the pattern of the first tangent and factorising each one, the solver solves with
the last tangent, if all have the pattern of the first and the storage of the solver. -/
theorem newton_solves [DecidableEq P] (pat : M → P) (tag : Tag) (k : Kind) (hk : construct tag = some (some k)) (m0 : M)
    (ms : List M) (hne : ms ≠ []) (hp : ∀ m ∈ ms, pat m = pat m0) :
    ∃ mem : Mem M P, run pat empty ([.construct 0 tag, .write 1 k.storage m0, .analyzePattern 0 1] ++ newtonOps 0 1 k.storage ms)
      = some mem ∧ solve mem 0 = .ok (ms.getLast hne) := by
  have hf : (fresh tag : Option (Obj M P)) = some ⟨some ⟨k, none, none⟩, tag⟩ := by simp [fresh, hk]
  have hstep : ∀ ops : List (Op M), run pat (empty : Mem M P) ([.construct 0 tag, .write 1 k.storage m0, .analyzePattern 0 1] ++ ops) =
      run pat (⟨Function.update (fun _ => none) 0
        (some ⟨some ((⟨k, none, none⟩ : Impl M P).analyzePattern pat 1 (k.storage, m0)), tag⟩),
        Function.update (fun _ => none) 1 (some (k.storage, m0))⟩ : Mem M P) ops := by
    intro ops
    simp [run, step, hf, onImpl, empty]
  rw [hstep]
  obtain ⟨mem', hr, hs⟩ := newton_run pat 0 1 k.storage k rfl tag (pat m0) ms
    (⟨Function.update (fun _ => none) 0
        (some ⟨some ((⟨k, none, none⟩ : Impl M P).analyzePattern pat 1 (k.storage, m0)), tag⟩),
        Function.update (fun _ => none) 1 (some (k.storage, m0))⟩ : Mem M P) hp
    ((⟨k, none, none⟩ : Impl M P).analyzePattern pat 1 (k.storage, m0)) (by simp) (by cases k <;> rfl)
    (by cases k <;> simp [Impl.analyzePattern, Kind.storage]) m0 (by simp) (.inl hne)
  refine ⟨mem', hr, ?_⟩
  rw [hs, List.getLast?_eq_some_getLast hne]
  rfl

/-- Three tangents. -/
example : ∃ mem : Mem Nat Unit, run (fun _ => ()) empty ([.construct 0 .d_LDLT, .write 1 .dense 5, .analyzePattern 0 1] ++
    newtonOps 0 1 .dense [6, 7, 8]) = some mem ∧ solve mem 0 = .ok 8 :=
  newton_solves (fun _ => ()) .d_LDLT .dense rfl 5 [6, 7, 8] (by simp) (by simp)

/-- C57. If the tangents do not have the storage of the solver, no exception reports it: nothing is ever factorised, and the
first `solve` is undefined. -/
theorem newton_other_storage [DecidableEq P] (pat : M → P) (tag : Tag) (k : Kind) (hk : construct tag = some (some k))
    (st : Storage) (hst : k.storage ≠ st) (m0 : M) :
    ∃ mem : Mem M P, run pat empty [.construct 0 tag, .write 1 st m0, .analyzePattern 0 1, .factorize 0 1] = some mem ∧
      solve mem 0 = .undefined := by
  have hf : (fresh tag : Option (Obj M P)) = some ⟨some ⟨k, none, none⟩, tag⟩ := by simp [fresh, hk]
  cases k <;> cases st <;> simp only [Kind.storage, ne_eq, not_true_eq_false, reduceCtorEq, not_false_eq_true] at hst <;>
    simp [run, step, hf, onImpl, empty, Impl.analyzePattern, Impl.factorize, solve, Impl.solve]

/-- A sparse solver and a dense tangent. -/
example : ∃ mem : Mem Nat Unit, run (fun _ => ()) empty [.construct 0 .sd_SimplicialLDLT, .write 1 .dense 5, .analyzePattern 0 1,
    .factorize 0 1] = some mem ∧ solve mem 0 = .undefined :=
  newton_other_storage (fun _ => ()) .sd_SimplicialLDLT .directSparse rfl .dense (by decide) 5

/-- A dense decomposition solves with the matrix it was given, although the storage has changed since. -/
example : ∃ mem, run (M := Nat) (P := Unit) (fun _ => ()) empty
    [.construct 0 .d_LLT, .write 7 .dense 1, .compute 0 7, .write 7 .dense 2] = some mem ∧ solve mem 0 = .ok 1 :=
  ⟨_, rfl, solve_exact (fun _ => ()) [.construct 0 .d_LLT, .write 7 .dense 1, .compute 0 7, .write 7 .dense 2] rfl 0⟩

end Ikarus.LinearSolver
