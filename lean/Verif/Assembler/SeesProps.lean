import Mathlib.Data.List.Induction
import Verif.Assembler.SeesModel

/-!
Property C90: what an assembler sees of changes that are made after it was set up.
-/

namespace Ikarus

namespace Sees

variable {V P F E : Type}

namespace Spec

/-! A program backwards: the last statement is the head of the list. `s` is the state in the beginning. -/

/-- The solution vector `v` of the caller. -/
def vecAt (s : State V P F E) (v : Nat) : List (Op V P F E) → V
  | [] => s.vec v
  | .setVec v' x :: past => if v' = v then x else vecAt s v past
  | _ :: past => vecAt s v past

/-- The load factor `p` of the caller. -/
def parAt (s : State V P F E) (p : Nat) : List (Op V P F E) → P
  | [] => s.par p
  | .setPar p' x :: past => if p' = p then x else parAt s p past
  | _ :: past => parAt s p past

/-- The Dirichlet values `d` of the caller. -/
def flagsAt (s : State V P F E) (d : Nat) : List (Op V P F E) → F
  | [] => s.flags d
  | .setFlags d' x :: past => if d' = d then x else flagsAt s d past
  | _ :: past => flagsAt s d past

/-- The elements `e` of the caller. -/
def elemsAt (s : State V P F E) (e : Nat) : List (Op V P F E) → E
  | [] => s.elems e
  | .setElems e' x :: past => if e' = e then x else elemsAt s e past
  | _ :: past => elemsAt s e past

/-- The solution of a requirement: the vector of the caller at the time of the last insertion, changed by what was
written since then through the requirement. -/
def solOf (s : State V P F E) (r : Nat) : List (Op V P F E) → Option V
  | [] => none
  | .insertSol r' v :: past => if r' = r then some (vecAt s v past) else solOf s r past
  | .writeSol r' f :: past => if r' = r then (solOf s r past).map f else solOf s r past
  | _ :: past => solOf s r past

/-- The load factor of a requirement, likewise. -/
def parOf (s : State V P F E) (r : Nat) : List (Op V P F E) → Option P
  | [] => none
  | .insertPar r' p :: past => if r' = r then some (parAt s p past) else parOf s r past
  | .writePar r' f :: past => if r' = r then (parOf s r past).map f else parOf s r past
  | _ :: past => parOf s r past

/-- The flags of an assembler: those of the Dirichlet values when it was constructed. -/
def flagsOf (s : State V P F E) (a : Nat) : List (Op V P F E) → Option F
  | [] => none
  | .construct a' _ d :: past => if a' = a then some (flagsAt s d past) else flagsOf s a past
  | .constructOwn a' _ d :: past => if a' = a then some (flagsAt s d past) else flagsOf s a past
  | _ :: past => flagsOf s a past

/-- The elements of an assembler at the time `now`: those of the container now if the assembler refers to it, those at
its construction if it owns them. -/
def elemsOf (s : State V P F E) (a : Nat) (now : List (Op V P F E)) : List (Op V P F E) → Option E
  | [] => none
  | .construct a' e _ :: past => if a' = a then some (elemsAt s e now) else elemsOf s a now past
  | .constructOwn a' e _ :: past => if a' = a then some (elemsAt s e past) else elemsOf s a now past
  | _ :: past => elemsOf s a now past

/-- The requirement that an assembler is bound to: that of the last binding since its construction. -/
def reqOf (a : Nat) : List (Op V P F E) → Option Nat
  | [] => none
  | .construct a' _ _ :: past => if a' = a then none else reqOf a past
  | .constructOwn a' _ _ :: past => if a' = a then none else reqOf a past
  | .bind a' r :: past => if a' = a ∧ built a past then some r else reqOf a past
  | _ :: past => reqOf a past
where
  /-- The assembler has been constructed. -/
  built (a : Nat) : List (Op V P F E) → Bool
    | [] => false
    | .construct a' _ _ :: past => a' = a || built a past
    | .constructOwn a' _ _ :: past => a' = a || built a past
    | _ :: past => built a past

/-- The documentation (docs/website/01_framework/feRequirements.md, insertGlobalSolution: "This stores a reference to the
vector"): later changes of the vector of the caller are seen. -/
def StoresReference (V P F E : Type) : Prop :=
  ∀ (s : State V P F E) (ops : List (Op V P F E)) (a r v : Nat) (x : V) (res : E × F × V × P),
    assemble (run s (ops ++ [.insertSol r v, .bind a r, .setVec v x])) a = some res → res.2.2.1 = x

end Spec

/-- What the state is after a program, told backwards. -/
structure Agrees (s0 s : State V P F E) (past : List (Op V P F E)) : Prop where
  vec : ∀ v, s.vec v = Spec.vecAt s0 v past
  par : ∀ p, s.par p = Spec.parAt s0 p past
  flags : ∀ d, s.flags d = Spec.flagsAt s0 d past
  elems : ∀ e, s.elems e = Spec.elemsAt s0 e past
  sol : ∀ r, s.reqSol r = Spec.solOf s0 r past
  reqPar : ∀ r, s.reqPar r = Spec.parOf s0 r past
  built : ∀ a, (s.asm a).isSome = Spec.reqOf.built a past
  req : ∀ a, (match s.asm a with | none => none | some A => A.req) = Spec.reqOf a past
  asmFlags : ∀ a, (s.asm a).map Asm.flags = Spec.flagsOf s0 a past
  asmElems : ∀ a now, (match s.asm a with
    | none => none
    | some A => some (match A.elems with | .inl e => Spec.elemsAt s0 e now | .inr x => x)) = Spec.elemsOf s0 a now past

theorem run_snoc (s : State V P F E) (ops : List (Op V P F E)) (op : Op V P F E) :
    run s (ops ++ [op]) = step (run s ops) op := by simp [run]

theorem agrees_step {s0 s : State V P F E} {past : List (Op V P F E)} (h : Agrees s0 s past) (op : Op V P F E) :
    Agrees s0 (step s op) (op :: past) := by
  cases op with
  | setVec v x =>
    refine ⟨fun w => ?_, h.par, h.flags, h.elems, h.sol, h.reqPar, h.built, h.req, h.asmFlags, h.asmElems⟩
    by_cases e : v = w
    · subst e; simp [step, Spec.vecAt]
    · simp [step, Spec.vecAt, e, Function.update_of_ne (Ne.symm e), h.vec]
  | setPar v x =>
    refine ⟨h.vec, fun w => ?_, h.flags, h.elems, h.sol, h.reqPar, h.built, h.req, h.asmFlags, h.asmElems⟩
    by_cases e : v = w
    · subst e; simp [step, Spec.parAt]
    · simp [step, Spec.parAt, e, Function.update_of_ne (Ne.symm e), h.par]
  | setFlags v x =>
    refine ⟨h.vec, h.par, fun w => ?_, h.elems, h.sol, h.reqPar, h.built, h.req, h.asmFlags, h.asmElems⟩
    by_cases e : v = w
    · subst e; simp [step, Spec.flagsAt]
    · simp [step, Spec.flagsAt, e, Function.update_of_ne (Ne.symm e), h.flags]
  | setElems v x =>
    refine ⟨h.vec, h.par, h.flags, fun w => ?_, h.sol, h.reqPar, h.built, h.req, h.asmFlags, h.asmElems⟩
    by_cases e : v = w
    · subst e; simp [step, Spec.elemsAt]
    · simp [step, Spec.elemsAt, e, Function.update_of_ne (Ne.symm e), h.elems]
  | insertSol r v =>
    refine ⟨h.vec, h.par, h.flags, h.elems, fun w => ?_, h.reqPar, h.built, h.req, h.asmFlags, h.asmElems⟩
    by_cases e : r = w
    · subst e; simp [step, Spec.solOf, h.vec]
    · simp [step, Spec.solOf, e, Function.update_of_ne (Ne.symm e), h.sol]
  | insertPar r p =>
    refine ⟨h.vec, h.par, h.flags, h.elems, h.sol, fun w => ?_, h.built, h.req, h.asmFlags, h.asmElems⟩
    by_cases e : r = w
    · subst e; simp [step, Spec.parOf, h.par]
    · simp [step, Spec.parOf, e, Function.update_of_ne (Ne.symm e), h.reqPar]
  | writeSol r f =>
    refine ⟨h.vec, h.par, h.flags, h.elems, fun w => ?_, h.reqPar, h.built, h.req, h.asmFlags, h.asmElems⟩
    by_cases e : r = w
    · subst e; simp [step, Spec.solOf, h.sol]
    · simp [step, Spec.solOf, e, Function.update_of_ne (Ne.symm e), h.sol]
  | writePar r f =>
    refine ⟨h.vec, h.par, h.flags, h.elems, h.sol, fun w => ?_, h.built, h.req, h.asmFlags, h.asmElems⟩
    by_cases e : r = w
    · subst e; simp [step, Spec.parOf, h.reqPar]
    · simp [step, Spec.parOf, e, Function.update_of_ne (Ne.symm e), h.reqPar]
  | construct a e d =>
    refine ⟨h.vec, h.par, h.flags, h.elems, h.sol, h.reqPar, fun w => ?_, fun w => ?_, fun w => ?_, fun w now => ?_⟩ <;>
      by_cases ew : a = w
    · subst ew; simp [step, Spec.reqOf.built]
    · simp [step, Spec.reqOf.built, ew, Function.update_of_ne (Ne.symm ew), h.built]
    · subst ew; simp [step, Spec.reqOf]
    · simp [step, Spec.reqOf, ew, Function.update_of_ne (Ne.symm ew), ← h.req]
    · subst ew; simp [step, Spec.flagsOf, h.flags]
    · simp [step, Spec.flagsOf, ew, Function.update_of_ne (Ne.symm ew), h.asmFlags]
    · subst ew; simp [step, Spec.elemsOf]
    · simp [step, Spec.elemsOf, ew, Function.update_of_ne (Ne.symm ew), ← h.asmElems]
  | constructOwn a e d =>
    refine ⟨h.vec, h.par, h.flags, h.elems, h.sol, h.reqPar, fun w => ?_, fun w => ?_, fun w => ?_, fun w now => ?_⟩ <;>
      by_cases ew : a = w
    · subst ew; simp [step, Spec.reqOf.built]
    · simp [step, Spec.reqOf.built, ew, Function.update_of_ne (Ne.symm ew), h.built]
    · subst ew; simp [step, Spec.reqOf]
    · simp [step, Spec.reqOf, ew, Function.update_of_ne (Ne.symm ew), ← h.req]
    · subst ew; simp [step, Spec.flagsOf, h.flags]
    · simp [step, Spec.flagsOf, ew, Function.update_of_ne (Ne.symm ew), h.asmFlags]
    · subst ew; simp [step, Spec.elemsOf, h.elems]
    · simp [step, Spec.elemsOf, ew, Function.update_of_ne (Ne.symm ew), ← h.asmElems]
  | bind a r =>
    have hb := h.built a
    cases ha : s.asm a with
    | none =>
      have e : step s (.bind a r) = s := by simp [step, ha]
      rw [e]
      rw [ha] at hb
      refine ⟨h.vec, h.par, h.flags, h.elems, h.sol, h.reqPar, h.built, fun w => ?_, h.asmFlags, h.asmElems⟩
      rw [h.req]
      by_cases ew : a = w
      · subst ew; simp [Spec.reqOf, ← hb]
      · simp [Spec.reqOf, ew]
    | some A =>
      have e : step s (.bind a r) = { s with asm := Function.update s.asm a (some { A with req := some r }) } := by
        simp [step, ha]
      rw [e]
      rw [ha] at hb
      refine ⟨h.vec, h.par, h.flags, h.elems, h.sol, h.reqPar, fun w => ?_, fun w => ?_, fun w => ?_, fun w now => ?_⟩ <;>
        by_cases ew : a = w
      · subst ew; simp [Spec.reqOf.built, ← hb]
      · simp [Spec.reqOf.built, Function.update_of_ne (Ne.symm ew), h.built]
      · subst ew; simp [Spec.reqOf, ← hb]
      · simp [Spec.reqOf, ew, Function.update_of_ne (Ne.symm ew), ← h.req]
      · subst ew
        have := h.asmFlags a
        rw [ha] at this
        simpa [Spec.flagsOf] using this
      · simp [Spec.flagsOf, Function.update_of_ne (Ne.symm ew), h.asmFlags]
      · subst ew
        have := h.asmElems a now
        rw [ha] at this
        simpa [Spec.elemsOf] using this
      · simp [Spec.elemsOf, Function.update_of_ne (Ne.symm ew), ← h.asmElems]

/-- The caller starts with no assemblers and empty requirements. -/
def Start (s : State V P F E) : Prop := (∀ r, s.reqSol r = none) ∧ (∀ r, s.reqPar r = none) ∧ ∀ a, s.asm a = none

theorem agrees_run {s : State V P F E} (h : Start s) (ops : List (Op V P F E)) : Agrees s (run s ops) ops.reverse := by
  induction ops using List.reverseRecOn with
  | nil =>
    exact ⟨fun _ => rfl, fun _ => rfl, fun _ => rfl, fun _ => rfl, h.1, h.2.1, fun a => by simp [run, h.2.2, Spec.reqOf.built],
      fun a => by simp [run, h.2.2, Spec.reqOf], fun a => by simp [run, h.2.2, Spec.flagsOf],
      fun a now => by simp [run, h.2.2, Spec.elemsOf]⟩
  | append_singleton ops op ih =>
    rw [run_snoc, List.reverse_append]
    exact agrees_step ih op

/-- C90. After every program a request to a bound assembler is answered for: the elements as they are now if they were
passed as an lvalue and as they were at the construction of the assembler if not; the flags of the Dirichlet values at its
construction; and the solution and load factor that were last inserted into the requirement it was last bound to, with the
values they had at their insertion, changed only by what was written through the requirement. -/
theorem assembler_sees {s : State V P F E} (h : Start s) (ops : List (Op V P F E)) (a : Nat) :
    assemble (run s ops) a =
      match Spec.elemsOf s a ops.reverse ops.reverse, Spec.flagsOf s a ops.reverse, Spec.reqOf a ops.reverse with
      | some e, some f, some r => match Spec.solOf s r ops.reverse, Spec.parOf s r ops.reverse with
        | some v, some p => some (e, f, v, p)
        | _, _ => none
      | _, _, _ => none := by
  have ag := agrees_run h ops
  have h1 := ag.req a
  have h2 := ag.asmFlags a
  have h3 := ag.asmElems a ops.reverse
  unfold assemble
  cases hA : (run s ops).asm a with
  | none =>
    rw [hA] at h1 h2 h3
    simp only at h1 h3
    rw [← h3]
  | some A =>
    rw [hA] at h1 h2 h3
    simp only [Option.map_some] at h1 h2 h3
    rw [← h1, ← h2, ← h3]
    simp only
    cases hr : A.req with
    | none => rfl
    | some r =>
      simp only
      rw [ag.sol, ag.reqPar]
      cases Spec.solOf s r ops.reverse with
      | none => rfl
      | some v =>
        cases Spec.parOf s r ops.reverse with
        | none => rfl
        | some p =>
          cases A.elems with
          | inl e => simp only [ag.elems]
          | inr x => rfl

/-- C90, the objects of the caller: after an assembler was set up, changes of a solution vector, of a load factor or of
Dirichlet values of the caller are not seen. -/
theorem assembler_ignores (s : State V P F E) (ops : List (Op V P F E)) (a k : Nat) (x : V) (y : P) (f : F) :
    assemble (run s (ops ++ [.setVec k x])) a = assemble (run s ops) a ∧
    assemble (run s (ops ++ [.setPar k y])) a = assemble (run s ops) a ∧
    assemble (run s (ops ++ [.setFlags k f])) a = assemble (run s ops) a := by
  refine ⟨?_, ?_, ?_⟩ <;> rw [run_snoc] <;> rfl

/-- A caller with solution 1, load factor 2, flags 3 and elements 4. -/
def start : State Nat Nat Nat Nat := ⟨fun _ => 1, fun _ => 2, fun _ => 3, fun _ => 4, fun _ => none, fun _ => none, fun _ => none⟩

/-- C90, refuted as documented: a requirement does not store a reference to the vector that is inserted. -/
theorem solution_not_referenced : ¬ Spec.StoresReference Nat Nat Nat Nat := fun h =>
  absurd (h start [.construct 0 0 0, .insertPar 0 0] 0 0 0 7 (4, 3, 1, 2) rfl) (by decide)

-- the elements of the caller are seen as they are now, a second insertion is seen, the flags are those of the construction
example : Start start ∧ assemble (run start [.construct 0 0 0, .insertSol 0 0, .insertPar 0 0, .bind 0 0, .setElems 0 5,
    .setFlags 0 6, .setVec 0 7, .insertSol 0 0, .setVec 0 8, .writePar 0 (· + 40)]) 0 = some (5, 3, 7, 42) :=
  ⟨⟨fun _ => rfl, fun _ => rfl, fun _ => rfl⟩, rfl⟩

-- an assembler made in Python has its own elements
example : assemble (run start [.constructOwn 0 0 0, .insertSol 0 0, .insertPar 0 0, .bind 0 0, .setElems 0 5]) 0 =
    some (4, 3, 1, 2) := rfl

-- a requirement that is only partly filled, and one that is inserted into later
example : assemble (run start [.construct 0 0 0, .insertSol 0 0, .bind 0 0]) 0 = none ∧
    assemble (run start [.construct 0 0 0, .bind 0 0, .insertSol 0 0, .insertPar 0 0]) 0 = some (4, 3, 1, 2) := ⟨rfl, rfl⟩

end Sees

end Ikarus
