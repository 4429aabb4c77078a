import Verif.Assembler.ManipulatorModel
import Verif.Assembler.SparseProps

/-!
C10: assembler manipulators.
-/

namespace Ikarus

variable {α R AS AV AM : Type}

namespace Spec

/-- Scalar callbacks bound in a history, in order. -/
def scalarCallbacks : List (ManipOp α R AS AV AM) → List (R → AS → α → α)
  | [] => []
  | .bindScalar f :: h => f :: scalarCallbacks h
  | _ :: h => scalarCallbacks h

/-- Vector callbacks bound in a history, in order. -/
def vectorCallbacks :
    List (ManipOp α R AS AV AM) → List (R → AV → DBCOption → List α → List α)
  | [] => []
  | .bindVector f :: h => f :: vectorCallbacks h
  | _ :: h => vectorCallbacks h

/-- Matrix callbacks bound in a history, in order. -/
def matrixCallbacks :
    List (ManipOp α R AS AV AM) → List (R → AM → DBCOption → DMat α → DMat α)
  | [] => []
  | .bindMatrix f :: h => f :: matrixCallbacks h
  | _ :: h => matrixCallbacks h

/-- Apply functions one after the other, the first one first. -/
def applyAll {β : Type} : List (β → β) → β → β
  | [], x => x
  | f :: fs, x => applyAll fs (f x)

/-- The vector an assembler that was never used before returns. -/
def freshVector? [Zero α] [Add α] (flags : List Bool) (fes : List (VecElem α)) :
    DBCOption → Option (List α)
  | .raw => (Assembler.create flags).getRawVector? fes
  | .reduced => (Assembler.create flags).getReducedVector? fes
  | .full => (Assembler.create flags).getVector? fes

/-- What the operation `op` after the history `h` has to return. -/
def manipulatedResult [AddMonoid α] [One α] (flags : List Bool) (E : Elements α R AS AV AM)
    (h : List (ManipOp α R AS AV AM)) : ManipOp α R AS AV AM → Option (ManipOut α)
  | .scalar r a =>
    some (.scalar (applyAll ((scalarCallbacks h).map fun f => f r a) (E.scalars r a).sum))
  | .vector r a d => (freshVector? flags (E.vectors r a) d).map fun v =>
      .vector (applyAll ((vectorCallbacks h).map fun f => f r a d) v)
  | .matrix r a d => ((Assembler.create flags).matrix? (E.matrices r a) d).map fun A =>
      .matrix (applyAll ((matrixCallbacks h).map fun f => f r a d) A)
  | _ => some .unit

theorem applyAll_map {β γ : Type} (g : γ → β → β) (fs : List γ) (x : β) :
    applyAll (fs.map g) x = fs.foldl (fun x f => g f x) x := by
  induction fs generalizing x with
  | nil => rfl
  | cons f fs ih => simpa [applyAll] using ih (g f x)

theorem scalarCallbacks_append (h k : List (ManipOp α R AS AV AM)) :
    scalarCallbacks (h ++ k) = scalarCallbacks h ++ scalarCallbacks k := by
  induction h with
  | nil => rfl
  | cons op h ih => cases op <;> simp [scalarCallbacks, ih]

theorem vectorCallbacks_append (h k : List (ManipOp α R AS AV AM)) :
    vectorCallbacks (h ++ k) = vectorCallbacks h ++ vectorCallbacks k := by
  induction h with
  | nil => rfl
  | cons op h ih => cases op <;> simp [vectorCallbacks, ih]

theorem matrixCallbacks_append (h k : List (ManipOp α R AS AV AM)) :
    matrixCallbacks (h ++ k) = matrixCallbacks h ++ matrixCallbacks k := by
  induction h with
  | nil => rfl
  | cons op h ih => cases op <;> simp [matrixCallbacks, ih]

end Spec

open Spec

/-- State of a manipulator after a history, as far as it matters. -/
structure Manip.After (flags : List Bool) (h : List (ManipOp α R AS AV AM))
    (m : Manip α R AS AV AM) : Prop where
  asm : m.asm = Assembler.create flags
  sfs : m.sfs = scalarCallbacks h
  vfs : m.vfs = vectorCallbacks h
  mfs : m.mfs = matrixCallbacks h

theorem getScalarLoop_eq_sum [AddMonoid α] (l : List α) (x : α) :
    Assembler.getScalarLoop l x = x + l.sum := by
  induction l generalizing x with
  | nil => simp [Assembler.getScalarLoop]
  | cons a l ih => simp [Assembler.getScalarLoop, ih, add_assoc]

theorem ManipOp.step_after [AddMonoid α] [One α] (flags : List Bool) (E : Elements α R AS AV AM)
    (h : List (ManipOp α R AS AV AM)) (m : Manip α R AS AV AM) (hm : m.After flags h)
    (op : ManipOp α R AS AV AM) :
    (op.step E m).map Prod.snd = manipulatedResult flags E h op ∧
      ∀ p, op.step E m = some p → p.1.After flags (h ++ [op]) := by
  obtain ⟨h1, h2, h3, h4⟩ := hm
  cases op with
  | bindScalar f =>
    refine ⟨rfl, ?_⟩
    rintro p hp
    simp only [ManipOp.step, Option.some.injEq] at hp
    subst hp
    constructor <;> simp [scalarCallbacks_append, vectorCallbacks_append, matrixCallbacks_append,
      scalarCallbacks, vectorCallbacks, matrixCallbacks, h1, h2, h3, h4]
  | bindVector f =>
    refine ⟨rfl, ?_⟩
    rintro p hp
    simp only [ManipOp.step, Option.some.injEq] at hp
    subst hp
    constructor <;> simp [scalarCallbacks_append, vectorCallbacks_append, matrixCallbacks_append,
      scalarCallbacks, vectorCallbacks, matrixCallbacks, h1, h2, h3, h4]
  | bindMatrix f =>
    refine ⟨rfl, ?_⟩
    rintro p hp
    simp only [ManipOp.step, Option.some.injEq] at hp
    subst hp
    constructor <;> simp [scalarCallbacks_append, vectorCallbacks_append, matrixCallbacks_append,
      scalarCallbacks, vectorCallbacks, matrixCallbacks, h1, h2, h3, h4]
  | scalar r a =>
    constructor
    · simp [ManipOp.step, Manip.getScalar, manipulatedResult, applyAll_map, h2,
        Assembler.getScalar, getScalarLoop_eq_sum]
    · rintro p hp
      simp only [ManipOp.step, Option.some.injEq] at hp
      subst hp
      constructor <;> simp [Manip.getScalar, scalarCallbacks_append, vectorCallbacks_append,
        matrixCallbacks_append, scalarCallbacks, vectorCallbacks, matrixCallbacks, h1, h2, h3, h4]
  | vector r a d =>
    constructor
    · cases d
      · simp only [ManipOp.step, Manip.getRawVector, manipulatedResult, freshVector?,
          Option.map_map, h1, h3, applyAll_map]
        rfl
      · simp only [ManipOp.step, Manip.getReducedVector, manipulatedResult, freshVector?,
          Option.map_map, h1, h3, applyAll_map]
        rfl
      · simp only [ManipOp.step, Manip.getVector, manipulatedResult, freshVector?,
          Option.map_map, h1, h3, applyAll_map]
        rfl
    · rintro p hp
      cases d <;>
      · simp only [ManipOp.step, Manip.getRawVector, Manip.getReducedVector, Manip.getVector,
          Option.map_map, Option.map_eq_some_iff] at hp
        obtain ⟨v, -, rfl⟩ := hp
        constructor <;> simp [scalarCallbacks_append, vectorCallbacks_append,
          matrixCallbacks_append, scalarCallbacks, vectorCallbacks, matrixCallbacks, h1, h2, h3, h4]
  | matrix r a d =>
    constructor
    · cases d
      · simp only [ManipOp.step, Manip.getRawMatrix, manipulatedResult, Assembler.matrix?,
          Option.map_map, h1, h4, applyAll_map]
        rfl
      · simp only [ManipOp.step, Manip.getReducedMatrix, manipulatedResult, Assembler.matrix?,
          Option.map_map, h1, h4, applyAll_map]
        rfl
      · simp only [ManipOp.step, Manip.getMatrix, manipulatedResult, Assembler.matrix?,
          Option.map_map, h1, h4, applyAll_map]
        rfl
    · rintro p hp
      cases d <;>
      · simp only [ManipOp.step, Manip.getRawMatrix, Manip.getReducedMatrix, Manip.getMatrix,
          Option.map_map, Option.map_eq_some_iff] at hp
        obtain ⟨v, -, rfl⟩ := hp
        constructor <;> simp [scalarCallbacks_append, vectorCallbacks_append,
          matrixCallbacks_append, scalarCallbacks, vectorCallbacks, matrixCallbacks, h1, h2, h3, h4]

/-- C10. In every history of binding callbacks and requesting scalars, vectors and matrices, the
`k`-th operation returns the result of an unused assembler, changed by all callbacks of its kind
bound before, each once and in bind order.  Results of earlier requests do not leak into it. -/
theorem manipulator_history [AddMonoid α] [One α] (flags : List Bool) (E : Elements α R AS AV AM)
    (h : List (ManipOp α R AS AV AM)) (outs : List (ManipOut α))
    (hrun : ManipOp.run E (Manip.create flags) h = some outs) :
    outs.length = h.length ∧
      ∀ k op, h[k]? = some op → outs[k]? = manipulatedResult flags E (h.take k) op := by
  have key : ∀ (h pre : List (ManipOp α R AS AV AM)) (m : Manip α R AS AV AM)
      (outs : List (ManipOut α)), m.After flags pre → ManipOp.run E m h = some outs →
      outs.length = h.length ∧
        ∀ k op, h[k]? = some op → outs[k]? = manipulatedResult flags E (pre ++ h.take k) op := by
    intro h
    induction h with
    | nil =>
      rintro pre m outs - hr
      simp only [ManipOp.run, Option.some.injEq] at hr
      subst hr
      simp
    | cons op h ih =>
      intro pre m outs hm hr
      obtain ⟨p, hp, hr⟩ := Option.bind_eq_some_iff.1 hr
      obtain ⟨rest, hrest, rfl⟩ := Option.map_eq_some_iff.1 hr
      obtain ⟨e1, e2⟩ := ManipOp.step_after flags E pre m hm op
      obtain ⟨e3, e4⟩ := ih (pre ++ [op]) p.1 rest (e2 p hp) hrest
      refine ⟨by simp [e3], fun k op' hk => ?_⟩
      cases k with
      | zero =>
        simp only [List.getElem?_cons_zero, Option.some.injEq] at hk
        subst hk
        rw [List.take_zero, List.append_nil, ← e1, hp]
        rfl
      | succ k =>
        simp only [List.getElem?_cons_succ] at hk
        have := e4 k op' hk
        simpa using this
  have h0 : (Manip.create flags : Manip α R AS AV AM).After flags [] := by
    constructor <;> rfl
  simpa using key h [] _ outs h0 hrun

/-- The unmanipulated assembler answers this operation. -/
def Spec.answered [Zero α] [One α] [Add α] (flags : List Bool) (E : Elements α R AS AV AM) :
    ManipOp α R AS AV AM → Prop
  | .vector r a d => (freshVector? flags (E.vectors r a) d).isSome = true
  | .matrix r a d => ((Assembler.create flags).matrix? (E.matrices r a) d).isSome = true
  | _ => True

/-- C10. A history is answered iff the unmanipulated assembler answers each of its requests. -/
theorem manipulator_answers_iff [AddMonoid α] [One α] (flags : List Bool)
    (E : Elements α R AS AV AM) (h : List (ManipOp α R AS AV AM)) :
    (ManipOp.run E (Manip.create flags) h).isSome = true ↔
      ∀ op ∈ h, answered flags E op := by
  have key : ∀ (h pre : List (ManipOp α R AS AV AM)) (m : Manip α R AS AV AM),
      m.After flags pre → ((ManipOp.run E m h).isSome = true ↔
      ∀ op ∈ h, answered flags E op) := by
    intro h
    induction h with
    | nil => intro pre m _; simp [ManipOp.run]
    | cons op h ih =>
      intro pre m hm
      obtain ⟨e1, e2⟩ := ManipOp.step_after flags E pre m hm op
      have hop : (op.step E m).isSome = true ↔ answered flags E op := by
        rw [← Option.isSome_map (f := Prod.snd), e1]
        cases op <;> simp [manipulatedResult, answered]
      rw [List.forall_mem_cons, ← hop]
      cases hp : op.step E m with
      | none => simp [ManipOp.run, hp]
      | some p =>
        rw [← ih (pre ++ [op]) p.1 (e2 p hp)]
        simp [ManipOp.run, hp]
  exact key h [] _ (by constructor <;> rfl)

/-! ### Sparse assembler -/

namespace SparseState
open SpMat

/-- `A` is in the member for the option `d`, which is marked as preprocessed. -/
def InSlot (s : SparseState α) (A : SpMat α) : DBCOption → Prop
  | .raw => s.preRaw = true ∧ s.spRaw = A
  | .reduced => s.preReduced = true ∧ s.spReduced = A
  | .full => s.preFull = true ∧ s.spFull = A

/-- A callback that changes stored values only. -/
def KeepsPattern (f : DBCOption → SpMat α → SpMat α) : Prop :=
  ∀ d A, (f d A).rows = A.rows ∧ (f d A).cols = A.cols ∧ (f d A).keys = A.keys ∧
    (f d A).vals.length = A.vals.length ∧ (f d A).compressed = A.compressed

theorem foldl_keepsPattern (fs : List (DBCOption → SpMat α → SpMat α))
    (h : ∀ f ∈ fs, KeepsPattern f) (d : DBCOption) (A : SpMat α) :
    let B := fs.foldl (fun A f => f d A) A
    B.rows = A.rows ∧ B.cols = A.cols ∧ B.keys = A.keys ∧ B.vals.length = A.vals.length ∧
      B.compressed = A.compressed := by
  induction fs generalizing A with
  | nil => simp
  | cons f fs ih =>
    obtain ⟨a1, a2, a3, a4, a5⟩ := h f (by simp) d A
    obtain ⟨b1, b2, b3, b4, b5⟩ := ih (fun f hf => h f (by simp [hf])) (f d A)
    exact ⟨b1.trans a1, b2.trans a2, b3.trans a3, b4.trans a4, b5.trans a5⟩

theorem good_of_same {n : Nat} {keys : List (Nat × Nat)} {A B : SpMat α} (h : Good n keys A)
    (e : B.rows = A.rows ∧ B.cols = A.cols ∧ B.keys = A.keys ∧ B.vals.length = A.vals.length ∧
      B.compressed = A.compressed) : Good n keys B := by
  obtain ⟨e1, e2, e3, e4, e5⟩ := e
  exact ⟨by rw [e1, h.rows], by rw [e2, h.cols], by rw [e3, h.keys_eq], by rw [e4, h.len],
    by rw [e5, h.comp]⟩

/-- A request leaves the returned matrix in the member of its kind. -/
theorem matrix_slot [Zero α] [One α] [Add α] [Mul α] {s s' : SparseState α}
    {fes : List (MatElem α)} {d : DBCOption} {A : SpMat α} (h : s.matrix fes d = some (s', A)) :
    s'.InSlot A d := by
  cases d with
  | raw =>
    simp only [matrix, getRaw] at h
    obtain ⟨p, -, h⟩ := Option.bind_eq_some_iff.1 h
    obtain ⟨B, -, h⟩ := Option.map_eq_some_iff.1 h
    simp only [Prod.mk.injEq] at h
    obtain ⟨rfl, rfl⟩ := h
    exact ⟨rfl, rfl⟩
  | reduced =>
    simp only [matrix, getReduced] at h
    obtain ⟨p, -, h⟩ := Option.bind_eq_some_iff.1 h
    obtain ⟨B, -, h⟩ := Option.map_eq_some_iff.1 h
    simp only [Prod.mk.injEq] at h
    obtain ⟨rfl, rfl⟩ := h
    exact ⟨rfl, rfl⟩
  | full =>
    simp only [matrix, getFull] at h
    obtain ⟨p, -, h⟩ := Option.bind_eq_some_iff.1 h
    obtain ⟨B, -, h⟩ := Option.bind_eq_some_iff.1 h
    obtain ⟨B1, -, h⟩ := Option.bind_eq_some_iff.1 h
    obtain ⟨B2, -, h⟩ := Option.bind_eq_some_iff.1 h
    obtain ⟨B3, -, h⟩ := Option.map_eq_some_iff.1 h
    simp only [Prod.mk.injEq] at h
    obtain ⟨rfl, rfl⟩ := h
    exact ⟨rfl, rfl⟩

theorem inv_put {fl : List Bool} {conn : List (List Nat)} {s : SparseState α} (h : Inv fl conn s)
    {d : DBCOption} {A B : SpMat α}
    (hs : s.InSlot A d)
    (e : B.rows = A.rows ∧ B.cols = A.cols ∧ B.keys = A.keys ∧ B.vals.length = A.vals.length ∧
      B.compressed = A.compressed) : Inv fl conn (s.put B d) := by
  cases d with
  | raw =>
    obtain ⟨h1, rfl⟩ := hs
    exact ⟨h.base, fun _ => good_of_same (h.raw h1) e, h.full, h.red, h.lin, h.linNil, h.linRed,
      h.linRedNil⟩
  | reduced =>
    obtain ⟨h1, rfl⟩ := hs
    exact ⟨h.base, h.raw, h.full, fun _ => good_of_same (h.red h1) e, h.lin, h.linNil, h.linRed,
      h.linRedNil⟩
  | full =>
    obtain ⟨h1, rfl⟩ := hs
    exact ⟨h.base, h.raw, fun _ => good_of_same (h.full h1) e, h.red, h.lin, h.linNil, h.linRed,
      h.linRedNil⟩

end SparseState

/-- C10, sparse assembler.  For every history of matrix requests to a manipulated sparse assembler
whose callbacks change stored values only, each request returns the callbacks applied, each once and
in order, to a matrix with the entries the dense assembler computes for that request: nothing
accumulates, although the callbacks write into the cached matrices. -/
theorem sparse_manipulator_history_partial [Semiring α] (flags : List Bool)
    (conn : List (List Nat)) (hd : ∀ ds ∈ conn, ∀ d ∈ ds, d < flags.length)
    (htouch : ∀ i : Nat, flags[i]? = some true → ∃ ds ∈ conn, i ∈ ds)
    (fs : List (DBCOption → SpMat α → SpMat α)) (hfs : ∀ f ∈ fs, SparseState.KeepsPattern f)
    (reqs : List (DBCOption × List (MatElem α)))
    (hreq : ∀ q ∈ reqs, q.2.map (·.dofs) = conn ∧
      ∀ e ∈ q.2, e.mat.rows = e.dofs.length ∧ e.mat.cols = e.dofs.length) :
    ∃ outs, (SparseState.create flags).runManipulated fs reqs = some outs ∧
      List.Forall₂ (fun q A => ∃ B D, (Assembler.create flags).matrix? q.2 q.1 = some D ∧
        Spec.SameMatrix B D ∧ A = applyAll (fs.map fun f => f q.1) B) reqs outs := by
  have key : ∀ (reqs : List (DBCOption × List (MatElem α))) (s : SparseState α),
      SparseState.Inv flags conn s →
      (∀ q ∈ reqs, q.2.map (·.dofs) = conn ∧
        ∀ e ∈ q.2, e.mat.rows = e.dofs.length ∧ e.mat.cols = e.dofs.length) →
      ∃ outs, s.runManipulated fs reqs = some outs ∧
        List.Forall₂ (fun q A => ∃ B D, (Assembler.create flags).matrix? q.2 q.1 = some D ∧
          Spec.SameMatrix B D ∧ A = applyAll (fs.map fun f => f q.1) B) reqs outs := by
    intro reqs
    induction reqs with
    | nil => intro s _ _; exact ⟨[], rfl, List.Forall₂.nil⟩
    | cons q qs ih =>
      intro s hinv hq
      obtain ⟨h1, h2⟩ := hq q (by simp)
      obtain ⟨s', A, D, e1, e2, e3, e4⟩ :=
        SparseState.matrix_step hinv q.2 h1 hd htouch h2 q.1
      have hinv' := SparseState.inv_put e2 (SparseState.matrix_slot e1)
        (SparseState.foldl_keepsPattern fs hfs q.1 A)
      obtain ⟨outs, e5, e6⟩ := ih _ hinv' (fun q hq' => hq q (by simp [hq']))
      refine ⟨fs.foldl (fun A f => f q.1 A) A :: outs, ?_,
        List.Forall₂.cons ⟨A, D, e3, e4, by rw [applyAll_map]⟩ e6⟩
      simp [SparseState.runManipulated, e1, e5]
  exact key reqs _ (SparseState.inv_create flags conn) hreq

/-- C10, the condition on sparse callbacks is necessary: a callback that sets a matrix entry that
is not in the pattern (here a diagonal entry of a dof without element) breaks the next request. -/
theorem sparse_manipulator_inserting_callback_breaks :
    ∃ (flags : List Bool) (fes : List (MatElem ℤ)) (f : DBCOption → SpMat ℤ → SpMat ℤ),
      Spec.MatOK flags.length fes ∧
      ((SparseState.create flags).runManipulated [f] [(.raw, fes)]).isSome = true ∧
      (SparseState.create flags).runManipulated [f] [(.raw, fes), (.raw, fes)] = none ∧
      ((SparseState.create flags).run [(.raw, fes), (.raw, fes)]).isSome = true := by
  refine ⟨[false, false], [⟨[0], ⟨1, 1, fun _ _ => 4⟩⟩], fun _ A => A.setDiagOne 1, ?_, ?_, ?_, ?_⟩
  · intro e he
    simp only [List.mem_cons, List.not_mem_nil, or_false] at he
    subst he
    decide
  · decide
  · rfl
  · decide

/-! Concrete histories. -/

section Example

def exampleElements : Elements ℤ Unit Unit Unit Unit :=
  ⟨fun _ _ => [1, 2, 3], fun _ _ => [⟨[0, 1], [1, 2]⟩, ⟨[1, 2], [3, 4]⟩], fun _ _ => exampleMat⟩

example : (ManipOp.run exampleElements (Manip.create [false, false, true])
    [.bindVector (fun _ _ _ v => v.map (2 * ·)), .vector () () .reduced,
     .bindVector (fun _ _ _ v => v.map (· + 1)), .vector () () .reduced, .vector () () .full,
     .bindScalar (fun _ _ x => x * x), .scalar () ()]).map
       (fun l => l.map fun o => match o with | .vector v => v | .scalar x => [x] | _ => []) =
    some [[], [2, 10], [], [3, 11], [3, 11, 1], [], [36]] := by decide

example : SparseState.KeepsPattern (fun _ (A : SpMat ℤ) => { A with vals := A.vals.map (2 * ·) }) :=
  fun _ A => ⟨rfl, rfl, rfl, by simp, rfl⟩

example : ((SparseState.create (α := ℤ) [false, false, true]).runManipulated
    [fun _ (A : SpMat ℤ) => { A with vals := A.vals.map (2 * ·) }, fun _ A => { A with vals := A.vals.map (· + 1) }]
    [(.raw, exampleMat), (.raw, exampleMat), (.full, exampleMat)]).map
      (fun l => l.map fun A => (A.coeff 1 1, A.coeff 2 2)) = some [(11, 7), (11, 7), (11, 3)] := by
  decide

end Example

end Ikarus
