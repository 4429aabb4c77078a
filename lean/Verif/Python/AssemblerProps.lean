import Verif.Python.AssemblerModel
import Verif.Assembler.BindingProps

/-!
C122: assemblers in Python.
-/

namespace Ikarus.PyAssembler

open DiffFun (Asm Value)
open Ikarus.Spec (last bindsReq bindsAff bindsOpt changes)

variable {R S V M α β γ : Type}

/-! ### Specification -/

/-- The calls that Python accepts: all arguments, or only bound ones. -/
inductive Spec.Accepts : Method → List (Arg S V M) → Prop
  | bindAll (p : Nat) (a : AffordanceColl S V M) (d : DBCOption) : Accepts .bind [.req p, .coll a, .dbc d]
  | bindReq (p : Nat) : Accepts .bind [.req p]
  | bindColl (a : AffordanceColl S V M) : Accepts .bind [.coll a]
  | bindOption (d : DBCOption) : Accepts .bind [.dbc d]
  | matrix (p : Nat) (a : M) (d : DBCOption) : Accepts .matrix [.req p, .matrixAffordance a, .dbc d]
  | matrixOption (d : DBCOption) : Accepts .matrix [.dbc d]
  | matrixBound : Accepts .matrix []
  | vector (p : Nat) (a : V) (d : DBCOption) : Accepts .vector [.req p, .vectorAffordance a, .dbc d]
  | vectorOption (d : DBCOption) : Accepts .vector [.dbc d]
  | vectorBound : Accepts .vector []
  | scalar (p : Nat) (a : S) : Accepts .scalar [.req p, .scalarAffordance a]
  | scalarBound : Accepts .scalar []

/-- The calls that C++ accepts: in addition those that leave out the option, which is `Full` then
(ikarus/assembler/interface.hh:150-151, 353-354 and 428-429). -/
inductive Spec.CppAccepts : Method → List (Arg S V M) → Prop
  | written {m : Method} {args : List (Arg S V M)} (h : Spec.Accepts m args) : CppAccepts m args
  | bind (p : Nat) (a : AffordanceColl S V M) : CppAccepts .bind [.req p, .coll a]
  | matrix (p : Nat) (a : M) : CppAccepts .matrix [.req p, .matrixAffordance a]
  | vector (p : Nat) (a : V) : CppAccepts .vector [.req p, .vectorAffordance a]

/-- In full: Python accepts the calls of C++. -/
def Spec.AcceptsAll : Prop := ∀ (S V M : Type) (m : Method) (args : List (Arg S V M)), Spec.CppAccepts m args →
  ∀ (R α β γ : Type) (w : World R S V M α β γ), call w m args ≠ .typeError

/-- What a step of a Python program is for the assembler in C++. -/
def Spec.asBind : Op R S V M → Option (BindOp Nat R S V M)
  | .call .bind [.req p, .coll a, .dbc d] => some (.bindAll p a (some d))
  | .call .bind [.req p] => some (.bindRequirement p)
  | .call .bind [.coll a] => some (.bindAffordances a)
  | .call .bind [.dbc d] => some (.bindOption d)
  | .change p x => some (.change p x)
  | _ => none

/-- The contents of a requirement after a history. -/
def Spec.content (mem : Nat → R) (h : List (BindOp Nat R S V M)) (p : Nat) : R := (last (changes p) h).getD (mem p)

/-- The function of the assembler for an option. -/
def Spec.pick {A T : Type} (f : BindState.Impls R A T) (r : R) (a : A) : DBCOption → T
  | .raw => f.raw r a
  | .reduced => f.reduced r a
  | .full => f.full r a

/-- The result a call returns after a history of bindings and changes, if it returns one: what the assembler computes for the
requirement with its present contents, the affordance and the option, as they are given or were bound last. -/
def Spec.result (asm : Asm R S V M α β γ) (mem : Nat → R) (h : List (BindOp Nat R S V M)) : Op R S V M → Option (Value α β γ)
  | .call .matrix [.req p, .matrixAffordance a, .dbc d] => some (.matrix (Spec.pick asm.matrixImpl (Spec.content mem h p) a d))
  | .call .matrix [.dbc d] => (last bindsReq h).bind fun p => (last bindsAff h).map fun a =>
      .matrix (Spec.pick asm.matrixImpl (Spec.content mem h p) a.matrixAffordance d)
  | .call .matrix [] => (last bindsOpt h).bind fun d => (last bindsReq h).bind fun p => (last bindsAff h).map fun a =>
      .matrix (Spec.pick asm.matrixImpl (Spec.content mem h p) a.matrixAffordance d)
  | .call .vector [.req p, .vectorAffordance a, .dbc d] => some (.vector (Spec.pick asm.vectorImpl (Spec.content mem h p) a d))
  | .call .vector [.dbc d] => (last bindsReq h).bind fun p => (last bindsAff h).map fun a =>
      .vector (Spec.pick asm.vectorImpl (Spec.content mem h p) a.vectorAffordance d)
  | .call .vector [] => (last bindsOpt h).bind fun d => (last bindsReq h).bind fun p => (last bindsAff h).map fun a =>
      .vector (Spec.pick asm.vectorImpl (Spec.content mem h p) a.vectorAffordance d)
  | .call .scalar [.req p, .scalarAffordance a] => some (.scalar (asm.scalarImpl (Spec.content mem h p) a))
  | .call .scalar [] => (last bindsReq h).bind fun p => (last bindsAff h).map fun a =>
      .scalar (asm.scalarImpl (Spec.content mem h p) a.scalarAffordance)
  | _ => none

/-- The results of a program in their order, after the program `pre`. -/
def Spec.results (asm : Asm R S V M α β γ) (mem : Nat → R) (pre : List (Op R S V M)) : List (Op R S V M) → List (Value α β γ)
  | [] => []
  | op :: ops => (Spec.result asm mem (pre.filterMap Spec.asBind) op).toList ++ results asm mem (pre ++ [op]) ops

/-! ### Overloads -/

/-- C122, overloads. A call raises a TypeError exactly if it is not among the accepted ones. -/
theorem py_overloads (w : World R S V M α β γ) (m : Method) (args : List (Arg S V M)) :
    call w m args = .typeError ↔ ¬Spec.Accepts m args := by
  have ofE : ∀ e : Except Exc (World R S V M α β γ), Outcome.ofExcept e ≠ .typeError := by
    intro e
    cases e <;> simp [Outcome.ofExcept]
  have ok : ∀ {P : Prop} {o : Outcome (World R S V M α β γ)}, P → o ≠ .typeError → (o = .typeError ↔ ¬P) := fun hp ho =>
    ⟨fun h => absurd h ho, fun h => absurd hp h⟩
  cases m with
  | bind =>
    simp only [call, callBind]
    split
    · exact ok (.bindAll ..) (by simp)
    · exact ok (.bindReq ..) (by simp)
    · exact ok (.bindColl ..) (by simp)
    · exact ok (.bindOption ..) (by simp)
    · rename_i h1 h2 h3 h4
      refine ⟨fun _ h => ?_, fun _ => rfl⟩
      cases h with
      | bindAll p a d => exact h1 p a d rfl
      | bindReq p => exact h2 p rfl
      | bindColl a => exact h3 a rfl
      | bindOption d => exact h4 d rfl
  | matrix =>
    simp only [call, callMatrix]
    split
    · exact ok (.matrix ..) (by simp)
    · exact ok .matrixBound (ofE _)
    · exact ok (.matrixOption ..) (ofE _)
    · rename_i h1 h2 h3
      refine ⟨fun _ h => ?_, fun _ => rfl⟩
      cases h with
      | matrix p a d => exact h1 p a d rfl
      | matrixBound => exact h2 rfl
      | matrixOption d => exact h3 d rfl
  | vector =>
    simp only [call, callVector]
    split
    · exact ok (.vector ..) (by simp)
    · exact ok .vectorBound (ofE _)
    · exact ok (.vectorOption ..) (ofE _)
    · rename_i h1 h2 h3
      refine ⟨fun _ h => ?_, fun _ => rfl⟩
      cases h with
      | vector p a d => exact h1 p a d rfl
      | vectorBound => exact h2 rfl
      | vectorOption d => exact h3 d rfl
  | scalar =>
    simp only [call, callScalar]
    split
    · exact ok (.scalar ..) (by simp)
    · exact ok .scalarBound (ofE _)
    · rename_i h1 h2
      refine ⟨fun _ h => ?_, fun _ => rfl⟩
      cases h with
      | scalar p a => exact h1 p a rfl
      | scalarBound => exact h2 rfl

/-- C122, left out options. The calls of C++ that leave out the option raise a TypeError in Python, and no other calls of C++ do. -/
theorem py_left_out (w : World R S V M α β γ) {m : Method} {args : List (Arg S V M)} (h : Spec.CppAccepts m args) :
    call w m args = .typeError ↔ m ≠ .scalar ∧ ∃ p x, args = [.req p, x] := by
  rw [py_overloads]
  cases h with
  | written h =>
    refine ⟨fun hn => absurd h hn, ?_⟩
    rintro ⟨hm, p, x, rfl⟩
    cases h
    exact absurd rfl hm
  | bind p a => exact ⟨fun _ => ⟨(by simp), p, _, rfl⟩, fun _ hh => nomatch hh⟩
  | matrix p a => exact ⟨fun _ => ⟨(by simp), p, _, rfl⟩, fun _ hh => nomatch hh⟩
  | vector p a => exact ⟨fun _ => ⟨(by simp), p, _, rfl⟩, fun _ hh => nomatch hh⟩

/-- `bind(req, affordances)` is accepted by C++, `bind(req)` by both. -/
example (w : World Nat Unit Unit Unit Nat Nat Nat) : call w .bind [.req 1, .coll ⟨(), (), ()⟩] = .typeError ∧
    call w .bind [.req 1] ≠ .typeError :=
  ⟨(py_left_out w (.bind 1 _)).2 ⟨by simp, 1, _, rfl⟩, fun h => by
    obtain ⟨_, p, x, hx⟩ := (py_left_out w (.written (.bindReq 1))).1 h
    simp at hx⟩

/-- A small assembler: a requirement is a number, the results are numbers with the option. -/
def smallWorld : World Nat Unit Unit Unit Nat (Nat × Nat) (Nat × Nat) where
  asm := ⟨.init, fun r _ => r, ⟨fun r _ => (r, 0), fun r _ => (r, 1), fun r _ => (r, 2)⟩,
    ⟨fun r _ => (r * r, 0), fun r _ => (r * r, 1), fun r _ => (r * r, 2)⟩, 0, fun _ => (0, 0), fun _ => (0, 0)⟩
  reqs := fun p => 10 * p
  held := []

/-- C122, not all calls of C++ are accepted: `bind(req, affordances)` is not. -/
theorem py_accepts_false : ¬Spec.AcceptsAll := fun h =>
  h Unit Unit Unit .bind [.req 1, .coll ⟨(), (), ()⟩] (.bind _ _) _ _ _ _ smallWorld rfl

/-! ### Histories -/

theorem dispatch_pick {A T : Type} (f : BindState.Impls R A T) (r : R) (a : A) (d : DBCOption) :
    BindState.dispatch f r a d = Spec.pick f r a d := by
  cases d <;> rfl

/-- What is kept along a program. -/
structure Follows (w0 : World R S V M α β γ) (pre : List (Op R S V M)) (w : World R S V M α β γ) : Prop where
  bind : (w.asm.bind, w.reqs) = BindOp.run w0.reqs (pre.filterMap Spec.asBind)
  scalarImpl : w.asm.scalarImpl = w0.asm.scalarImpl
  vectorImpl : w.asm.vectorImpl = w0.asm.vectorImpl
  matrixImpl : w.asm.matrixImpl = w0.asm.matrixImpl

theorem rejected_asBind {m : Method} {args : List (Arg S V M)} (h : ¬Spec.Accepts m args) :
    Spec.asBind (R := R) (.call m args) = none := by
  unfold Spec.asBind
  split <;> rename_i heq <;> first | rfl | (cases heq; done) | (cases heq; exact (h (by constructor)).elim)

theorem rejected_result {m : Method} {args : List (Arg S V M)} (h : ¬Spec.Accepts m args) (asm : Asm R S V M α β γ) (mem : Nat → R)
    (hs : List (BindOp Nat R S V M)) : Spec.result asm mem hs (.call m args) = none := by
  unfold Spec.result
  split <;> rename_i heq <;> first | rfl | (cases heq; done) | (cases heq; exact (h (by constructor)).elim)

theorem step_follows {w0 w : World R S V M α β γ} {pre : List (Op R S V M)} (h : Follows w0 pre w) (op : Op R S V M) :
    Follows w0 (pre ++ [op]) (step w op) ∧
    (step w op).held = w.held ++ (Spec.result w0.asm w0.reqs (pre.filterMap Spec.asBind) op).toList := by
  obtain ⟨hb, hs, hv, hm⟩ := h
  have hacc := binding_accessors (S := S) (V := V) (M := M) w0.reqs (pre.filterMap Spec.asBind)
  rw [← hb] at hacc
  obtain ⟨h1, h2, h3⟩ := hacc
  have hcont : ∀ p, w.reqs p = Spec.content w0.reqs (pre.filterMap Spec.asBind) p := by
    intro p
    have := (binding_state_after_history (S := S) (V := V) (M := M) w0.reqs (pre.filterMap Spec.asBind)).2.2.2 p
    rw [← hb] at this
    exact this
  have hr : w.asm.bind.requirement w.reqs = Ikarus.Spec.orThrow ((last bindsReq (pre.filterMap Spec.asBind)).map fun p =>
      Spec.content w0.reqs (pre.filterMap Spec.asBind) p) := h1
  have same : ∀ w' : World R S V M α β γ, w'.asm.bind = w.asm.bind → w'.reqs = w.reqs → w'.asm.scalarImpl = w.asm.scalarImpl →
      w'.asm.vectorImpl = w.asm.vectorImpl → w'.asm.matrixImpl = w.asm.matrixImpl → Spec.asBind op = none →
      Follows w0 (pre ++ [op]) w' := by
    intro w' e1 e2 e3 e4 e5 e6
    refine ⟨?_, e3.trans hs, e4.trans hv, e5.trans hm⟩
    rw [e1, e2, hb, List.filterMap_append]
    simp [e6]
  have upd : ∀ (w' : World R S V M α β γ) (b : BindOp Nat R S V M), (w'.asm.bind, w'.reqs) = b.step (w.asm.bind, w.reqs) →
      w'.asm.scalarImpl = w.asm.scalarImpl → w'.asm.vectorImpl = w.asm.vectorImpl → w'.asm.matrixImpl = w.asm.matrixImpl →
      Spec.asBind op = some b → Follows w0 (pre ++ [op]) w' := by
    intro w' b e1 e3 e4 e5 e6
    refine ⟨?_, e3.trans hs, e4.trans hv, e5.trans hm⟩
    rw [e1, hb, List.filterMap_append]
    simp only [List.filterMap_cons, List.filterMap_nil, e6]
    rw [BindOp.run_append]
  cases op with
  | change p x => exact ⟨upd _ (.change p x) rfl rfl rfl rfl rfl, (List.append_nil _).symm⟩
  | call m args =>
    by_cases ha : Spec.Accepts m args
    · cases ha with
      | bindAll p a d => exact ⟨upd _ (.bindAll p a (some d)) rfl rfl rfl rfl rfl, (List.append_nil _).symm⟩
      | bindReq p => exact ⟨upd _ (.bindRequirement p) rfl rfl rfl rfl rfl, (List.append_nil _).symm⟩
      | bindColl a => exact ⟨upd _ (.bindAffordances a) rfl rfl rfl rfl rfl, (List.append_nil _).symm⟩
      | bindOption d => exact ⟨upd _ (.bindOption d) rfl rfl rfl rfl rfl, (List.append_nil _).symm⟩
      | matrix p a d =>
        refine ⟨same _ rfl rfl rfl rfl rfl rfl, ?_⟩
        simp only [step, call, callMatrix, assembleMatrix, Spec.result, Option.toList_some, hm, hcont, dispatch_pick]
      | vector p a d =>
        refine ⟨same _ rfl rfl rfl rfl rfl rfl, ?_⟩
        simp only [step, call, callVector, assembleVector, Spec.result, Option.toList_some, hv, hcont, dispatch_pick]
      | scalar p a =>
        refine ⟨same _ rfl rfl rfl rfl rfl rfl, ?_⟩
        simp only [step, call, callScalar, assembleScalar, Spec.result, Option.toList_some, hs, hcont]
      | matrixOption d =>
        simp only [step, call, callMatrix, hr, h2, Spec.result]
        cases last bindsReq (pre.filterMap Spec.asBind) <;> cases last bindsAff (pre.filterMap Spec.asBind) <;>
          first
          | exact ⟨same _ rfl rfl rfl rfl rfl rfl, (List.append_nil _).symm⟩
          | (refine ⟨same _ rfl rfl rfl rfl rfl rfl, ?_⟩
             simp only [Option.bind_some, Option.map_some]
             rw [← dispatch_pick, ← hm]
             rfl)
      | vectorOption d =>
        simp only [step, call, callVector, hr, h2, Spec.result]
        cases last bindsReq (pre.filterMap Spec.asBind) <;> cases last bindsAff (pre.filterMap Spec.asBind) <;>
          first
          | exact ⟨same _ rfl rfl rfl rfl rfl rfl, (List.append_nil _).symm⟩
          | (refine ⟨same _ rfl rfl rfl rfl rfl rfl, ?_⟩
             simp only [Option.bind_some, Option.map_some]
             rw [← dispatch_pick, ← hv]
             rfl)
      | scalarBound =>
        simp only [step, call, callScalar, hr, h2, Spec.result]
        cases last bindsReq (pre.filterMap Spec.asBind) <;> cases last bindsAff (pre.filterMap Spec.asBind) <;>
          first
          | exact ⟨same _ rfl rfl rfl rfl rfl rfl, (List.append_nil _).symm⟩
          | (refine ⟨same _ rfl rfl rfl rfl rfl rfl, ?_⟩
             rw [← hs]
             rfl)
      | matrixBound =>
        simp only [step, call, callMatrix, hr, h2, h3, Spec.result]
        cases last bindsOpt (pre.filterMap Spec.asBind) <;> cases last bindsReq (pre.filterMap Spec.asBind) <;>
          cases last bindsAff (pre.filterMap Spec.asBind) <;>
          first
          | exact ⟨same _ rfl rfl rfl rfl rfl rfl, (List.append_nil _).symm⟩
          | (refine ⟨same _ rfl rfl rfl rfl rfl rfl, ?_⟩
             simp only [Option.bind_some, Option.map_some]
             rw [← dispatch_pick, ← hm]
             rfl)
      | vectorBound =>
        simp only [step, call, callVector, hr, h2, h3, Spec.result]
        cases last bindsOpt (pre.filterMap Spec.asBind) <;> cases last bindsReq (pre.filterMap Spec.asBind) <;>
          cases last bindsAff (pre.filterMap Spec.asBind) <;>
          first
          | exact ⟨same _ rfl rfl rfl rfl rfl rfl, (List.append_nil _).symm⟩
          | (refine ⟨same _ rfl rfl rfl rfl rfl rfl, ?_⟩
             simp only [Option.bind_some, Option.map_some]
             rw [← dispatch_pick, ← hv]
             rfl)
    · have hw : step w (.call m args) = w := by simp only [step, (py_overloads w m args).2 ha]
      rw [hw, rejected_result ha]
      exact ⟨same _ rfl rfl rfl rfl rfl (rejected_asBind ha), (List.append_nil _).symm⟩

theorem run_follows {w0 : World R S V M α β γ} : ∀ (ops pre : List (Op R S V M)) {w : World R S V M α β γ}, Follows w0 pre w →
    Follows w0 (pre ++ ops) (run w ops) ∧ (run w ops).held = w.held ++ Spec.results w0.asm w0.reqs pre ops
  | [], pre, w, h => ⟨by rwa [List.append_nil], (List.append_nil _).symm⟩
  | op :: ops, pre, w, h => by
    obtain ⟨h1, h2⟩ := step_follows h op
    obtain ⟨h3, h4⟩ := run_follows ops (pre ++ [op]) h1
    refine ⟨by rw [List.append_assoc] at h3; exact h3, ?_⟩
    show (run (step w op) ops).held = _
    rw [h4, h2, List.append_assoc]
    rfl

/-- C122, histories. After every program on a new assembler, the bound values are those of the same calls in C++, and Python holds, one
after the other, what each request assembled at its time: the requirement with the contents it had then, the affordance and the option
given or bound last. No later call changes a result that Python holds, in contrast to C++ (`DiffFun.kept_false`). -/
theorem py_history (w : World R S V M α β γ) (hw : w.asm.bind = .init) (ops : List (Op R S V M)) :
    ((run w ops).asm.bind, (run w ops).reqs) = BindOp.run w.reqs (ops.filterMap Spec.asBind) ∧
    (run w ops).held = w.held ++ Spec.results w.asm w.reqs [] ops := by
  have h0 : Follows w [] w := ⟨by rw [hw]; rfl, rfl, rfl, rfl⟩
  obtain ⟨h1, h2⟩ := run_follows ops [] h0
  exact ⟨h1.bind, h2⟩

/-- C122, results are kept: what Python holds after a program, it holds after every continuation. -/
theorem py_results_kept (w : World R S V M α β γ) (hw : w.asm.bind = .init) (ops more : List (Op R S V M)) :
    (run w ops).held <+: (run w (ops ++ more)).held := by
  have h0 : Follows w [] w := ⟨by rw [hw]; rfl, rfl, rfl, rfl⟩
  obtain ⟨h1, _⟩ := run_follows ops [] h0
  have e : run w (ops ++ more) = run (run w ops) more := List.foldl_append ..
  rw [e, (run_follows more _ h1).2]
  exact List.prefix_append ..

/-- Bind, assemble, change the requirement, assemble again with the option given, try the call without option, and ask for the energy. -/
example : (run smallWorld [.call .vector [], .call .bind [.req 3, .coll ⟨(), (), ()⟩, .dbc .reduced], .call .vector [], .change 3 7,
    .call .matrix [.dbc .full], .call .bind [.req 4, .coll ⟨(), (), ()⟩], .call .scalar []]).held =
    [.vector (30, 1), .matrix (49, 2), .scalar 7] := by
  rw [(py_history smallWorld rfl _).2]
  rfl

end Ikarus.PyAssembler
