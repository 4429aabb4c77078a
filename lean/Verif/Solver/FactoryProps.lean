import Verif.Solver.FactoryModel

/-!
C95: which objects a solver made by the factory works on.
-/

namespace Ikarus.Factory

/-! ### Specification: what the history of a program says about its objects -/

/-- The last operation that made, assigned or destroyed the shared pointer at address `v` decides what it holds; the
operations are given in reverse order. -/
def Spec.holds : List Op → Nat → Option (Option Nat)
  | [], _ => none
  | .assembler v' a :: h, v => if v = v' then some (some a) else holds h v
  | .copyVar v1 v2 :: h, v => if v = v2 then holds h v1 else holds h v
  | .moveVar v1 v2 :: h, v => if v = v2 then holds h v1 else if v = v1 then some none else holds h v
  | .destroyVar v' :: h, v => if v = v' then none else holds h v
  | _ :: h, v => holds h v

/-- The settings of the factory at address `f`. -/
def Spec.settings : List Op → Nat → Option Settings
  | [], _ => none
  | .factory f' u :: h, f => if f = f' then some ⟨u, none⟩ else settings h f
  | .copyFactory f1 f2 :: h, f => if f = f2 then settings h f1 else settings h f
  | .withForce f1 v f2 :: h, f =>
    if f = f2 then (match settings h f1 with
      | some c => some ⟨c.upd, some v⟩
      | none => none)
    else settings h f
  | .destroyFactory f' :: h, f => if f = f' then none else settings h f
  | _ :: h, f => settings h f

/-- The operation that made the solver at address `k`, if it still exists: factory, variable and the history before it. -/
def Spec.made : List Op → Nat → Option (Nat × Nat × List Op)
  | [], _ => none
  | .create f v k' :: h, k => if k = k' then some (f, v, h) else made h k
  | .destroySolver k' :: h, k => if k = k' then none else made h k
  | _ :: h, k => made h k

/-- What a user relies on: a solver works with the assembler it was made with and with the settings its factory had. -/
def Spec.intended (h : List Op) (k : Nat) : Option Used :=
  (Spec.made h k).bind fun m => (Spec.holds m.2.2 m.2.1).join.bind fun a => (Spec.settings m.2.2 m.1).map fun c =>
    ⟨a, a, c.force.map fun _ => a, c.upd⟩

/-- The state described by a history. -/
structure Describes (h : List Op) (s : State) : Prop where
  vars : ∀ v, s.vars v = Spec.holds h v
  facts : ∀ f, s.facts f = Spec.settings h f
  solvers : ∀ k, s.solvers k = (Spec.made h k).bind fun m =>
    (Spec.holds m.2.2 m.2.1).join.bind fun a => (Spec.settings m.2.2 m.1).map fun c => ⟨a, m.2.1, m.1, c.force⟩

theorem step_describes {h : List Op} {s s' : State} (hd : Describes h s) (op : Op) (hs : s.step op = some s') :
    Describes (op :: h) s' := by
  obtain ⟨hv, hf, hk⟩ := hd
  cases op with
  | assembler v a =>
    cases hs
    exact ⟨fun v' => by simp only [put, Spec.holds, hv], hf, hk⟩
  | copyVar v v' =>
    obtain ⟨p, hp, rfl⟩ := Option.map_eq_some_iff.1 hs
    refine ⟨fun w => ?_, hf, hk⟩
    simp only [put, Spec.holds, hv] at *
    split <;> simp_all
  | moveVar v v' =>
    obtain ⟨p, hp, rfl⟩ := Option.map_eq_some_iff.1 hs
    refine ⟨fun w => ?_, hf, hk⟩
    simp only [put, Spec.holds, hv] at *
    split <;> simp_all
  | destroyVar v =>
    obtain ⟨p, hp, rfl⟩ := Option.map_eq_some_iff.1 hs
    exact ⟨fun v' => by simp only [put, Spec.holds, hv], hf, hk⟩
  | factory f u =>
    cases hs
    exact ⟨hv, fun v' => by simp only [put, Spec.settings, hf], hk⟩
  | copyFactory f f' =>
    obtain ⟨p, hp, rfl⟩ := Option.map_eq_some_iff.1 hs
    refine ⟨hv, fun w => ?_, hk⟩
    simp only [put, Spec.settings, hf] at *
    split <;> simp_all
  | withForce f v f' =>
    obtain ⟨p, hp, rfl⟩ := Option.map_eq_some_iff.1 hs
    refine ⟨hv, fun w => ?_, hk⟩
    simp only [put, Spec.settings, hf] at *
    split <;> simp_all
  | destroyFactory f =>
    obtain ⟨p, hp, rfl⟩ := Option.map_eq_some_iff.1 hs
    exact ⟨hv, fun v' => by simp only [put, Spec.settings, hf], hk⟩
  | create f v k =>
    obtain ⟨c, hc, h1⟩ := Option.bind_eq_some_iff.1 hs
    obtain ⟨a, ha, rfl⟩ := Option.map_eq_some_iff.1 h1
    refine ⟨hv, hf, fun k' => ?_⟩
    have ha' : (Spec.holds h v).join = some a := by rw [← hv]; exact ha
    have hc' : Spec.settings h f = some c := by rw [← hf]; exact hc
    simp only [put, Spec.made]
    split
    · simp [ha', hc']
    · exact hk k'
  | destroySolver k =>
    obtain ⟨p, hp, rfl⟩ := Option.map_eq_some_iff.1 hs
    refine ⟨hv, hf, fun k' => ?_⟩
    simp only [put, Spec.made]
    split
    · rfl
    · exact hk k'
  | iterate k =>
    obtain ⟨p, hp, rfl⟩ := Option.map_eq_some_iff.1 hs
    exact ⟨hv, hf, hk⟩
  | sync k =>
    obtain ⟨p, hp, rfl⟩ := Option.map_eq_some_iff.1 hs
    exact ⟨hv, hf, hk⟩

theorem run_describes : ∀ (ops h : List Op) (s s' : State), Describes h s → s.run ops = some s' →
    Describes (ops.reverse ++ h) s'
  | [], _, _, _, hd, hr => by cases hr; exact hd
  | op :: ops, h, s, s', hd, hr => by
    obtain ⟨t, ht, hr⟩ := Option.bind_eq_some_iff.1 hr
    have := run_describes ops (op :: h) t s' (step_describes hd op ht) hr
    simpa using this

theorem init_describes : Describes [] State.init := ⟨fun _ => rfl, fun _ => rfl, fun _ => rfl⟩

/-- C95, characterisation. For every program: an iteration of the solver at `k` computes residuals with the assembler that
the shared pointer held when the solver was made, updates with the assembler which that variable holds now, computes forces
of Dirichlet values with what the variable of `withIDBCForceFunction` holds now, and updates with the function of the
factory that is now at the address of the factory; it is undefined iff one of these does not exist. -/
theorem iterate_history (ops : List Op) (s : State) (hr : State.init.run ops = some s) (k : Nat) (r : Used) :
    s.iterate? k = some r ↔ ∃ f v h a c, Spec.made ops.reverse k = some (f, v, h) ∧ Spec.holds h v = some (some a) ∧
      Spec.settings h f = some c ∧ r.residual = a ∧ Spec.holds ops.reverse v = some (some r.update) ∧
      (∃ c', Spec.settings ops.reverse f = some c' ∧ r.upd = c'.upd) ∧
      (match c.force with
        | none => r.force = none
        | some w => ∃ b, Spec.holds ops.reverse w = some (some b) ∧ r.force = some b) := by
  have hd := run_describes ops [] _ s init_describes hr
  rw [List.append_nil] at hd
  obtain ⟨hv, hf, hk⟩ := hd
  unfold State.iterate?
  simp only [State.deref, hv, hf, hk]
  constructor
  · intro h
    obtain ⟨S, h1, h⟩ := Option.bind_eq_some_iff.1 h
    obtain ⟨u, h2, h⟩ := Option.bind_eq_some_iff.1 h
    obtain ⟨c', h3, h⟩ := Option.bind_eq_some_iff.1 h
    obtain ⟨g, h4, rfl⟩ := Option.map_eq_some_iff.1 h
    obtain ⟨⟨f, v, h'⟩, h5, h1⟩ := Option.bind_eq_some_iff.1 h1
    obtain ⟨a, h6, h1⟩ := Option.bind_eq_some_iff.1 h1
    obtain ⟨c, h7, rfl⟩ := Option.map_eq_some_iff.1 h1
    refine ⟨f, v, h', a, c, h5, Option.join_eq_some_iff.1 h6, h7, rfl, Option.join_eq_some_iff.1 h2, ⟨c', h3, rfl⟩, ?_⟩
    cases hc : c.force with
    | none => simp only [hc, State.forceOf, Option.some.injEq] at h4; exact h4.symm
    | some w =>
      simp only [hc, State.forceOf, State.deref, hv] at h4
      obtain ⟨b, h8, h9⟩ := Option.map_eq_some_iff.1 h4
      exact ⟨b, Option.join_eq_some_iff.1 h8, h9.symm⟩
  · rintro ⟨f, v, h, a, c, h5, h6, h7, h8, h2, ⟨c', h3, h9⟩, h4⟩
    obtain ⟨r1, r2, r3, r4⟩ := r
    dsimp only at h8 h2 h9 h4
    subst h8 h9
    simp only [h5, h6, h7, Option.bind_some, Option.join_some, Option.map_some, h2, h3]
    cases hc : c.force with
    | none => simp only [hc] at h4; subst h4; rfl
    | some w =>
      simp only [hc] at h4
      obtain ⟨b, h10, rfl⟩ := h4
      simp only [State.forceOf, State.deref, hv, h10, Option.join_some, Option.map_some]

/-- C95, characterisation. Synchronising needs only the variable. -/
theorem sync_history (ops : List Op) (s : State) (hr : State.init.run ops = some s) (k b : Nat) :
    s.sync? k = some b ↔ ∃ f v h a c, Spec.made ops.reverse k = some (f, v, h) ∧ Spec.holds h v = some (some a) ∧
      Spec.settings h f = some c ∧ Spec.holds ops.reverse v = some (some b) := by
  have hd := run_describes ops [] _ s init_describes hr
  rw [List.append_nil] at hd
  obtain ⟨hv, hf, hk⟩ := hd
  unfold State.sync?
  simp only [State.deref, hv, hk]
  constructor
  · intro h
    obtain ⟨S, h1, h⟩ := Option.bind_eq_some_iff.1 h
    obtain ⟨⟨f, v, h'⟩, h5, h1⟩ := Option.bind_eq_some_iff.1 h1
    obtain ⟨a, h6, h1⟩ := Option.bind_eq_some_iff.1 h1
    obtain ⟨c, h7, rfl⟩ := Option.map_eq_some_iff.1 h1
    exact ⟨f, v, h', a, c, h5, Option.join_eq_some_iff.1 h6, h7, Option.join_eq_some_iff.1 h⟩
  · rintro ⟨f, v, h, a, c, h5, h6, h7, h8⟩
    simp [h5, h6, h7, h8]

/-! ### The objects are kept -/

/-- The operation makes, assigns or destroys the shared pointer at `v`. -/
def Spec.touchesVar (v : Nat) : Op → Bool
  | .assembler v' _ => v = v'
  | .copyVar _ v' => v = v'
  | .moveVar v1 v2 => v = v1 || v = v2
  | .destroyVar v' => v = v'
  | _ => false

/-- The operation makes, assigns or destroys the factory at `f`. -/
def Spec.touchesFactory (f : Nat) : Op → Bool
  | .factory f' _ => f = f'
  | .copyFactory _ f' => f = f'
  | .withForce _ _ f' => f = f'
  | .destroyFactory f' => f = f'
  | _ => false

/-- The operation makes, assigns or destroys the solver at `k`. -/
def Spec.touchesSolver (k : Nat) : Op → Bool
  | .create _ _ k' => k = k'
  | .destroySolver k' => k = k'
  | _ => false

theorem holds_untouched {v : Nat} : ∀ {l : List Op}, (∀ op ∈ l, Spec.touchesVar v op = false) → ∀ h,
    Spec.holds (l ++ h) v = Spec.holds h v
  | [], _, _ => rfl
  | op :: l, hl, h => by
    have ih := holds_untouched (v := v) (fun o ho => hl o (List.mem_cons_of_mem _ ho)) h
    have h0 := hl op List.mem_cons_self
    cases op <;> simp_all [Spec.holds, Spec.touchesVar]

theorem settings_untouched {f : Nat} : ∀ {l : List Op}, (∀ op ∈ l, Spec.touchesFactory f op = false) → ∀ h,
    Spec.settings (l ++ h) f = Spec.settings h f
  | [], _, _ => rfl
  | op :: l, hl, h => by
    have ih := settings_untouched (f := f) (fun o ho => hl o (List.mem_cons_of_mem _ ho)) h
    have h0 := hl op List.mem_cons_self
    cases op <;> simp_all [Spec.settings, Spec.touchesFactory]

theorem made_untouched {k : Nat} : ∀ {l : List Op}, (∀ op ∈ l, Spec.touchesSolver k op = false) → ∀ h,
    Spec.made (l ++ h) k = Spec.made h k
  | [], _, _ => rfl
  | op :: l, hl, h => by
    have ih := made_untouched (k := k) (fun o ho => hl o (List.mem_cons_of_mem _ ho)) h
    have h0 := hl op List.mem_cons_self
    cases op <;> simp_all [Spec.made, Spec.touchesSolver]

/-- C95, partial. If after `s = f.create(v)` neither the variable nor the factory nor the solver is assigned, moved from or
destroyed, and the variable given to `withIDBCForceFunction` was `v`, all iterations of the solver are defined and work on the
assembler and the settings of the creation.  Missing: the claim without keeping variable and factory is false. -/
theorem factory_kept_partial (before after : List Op) (f v k : Nat) (s : State)
    (hr : State.init.run (before ++ .create f v k :: after) = some s)
    (hv : ∀ op ∈ after, Spec.touchesVar v op = false) (hf : ∀ op ∈ after, Spec.touchesFactory f op = false)
    (hk : ∀ op ∈ after, Spec.touchesSolver k op = false)
    (hw : ∀ c w, Spec.settings before.reverse f = some c → c.force = some w → w = v) :
    ∃ r, Spec.intended (before ++ .create f v k :: after).reverse k = some r ∧ s.iterate? k = some r ∧
      s.sync? k = some r.update := by
  -- the creation itself was defined
  have hsplit : ∀ (l l' : List Op) (t u : State), t.run (l ++ l') = some u → ∃ w, t.run l = some w ∧ w.run l' = some u := by
    intro l
    induction l with
    | nil => exact fun l' t u h => ⟨t, rfl, h⟩
    | cons op l ih =>
      intro l' t u h
      obtain ⟨t', h1, h2⟩ := Option.bind_eq_some_iff.1 h
      obtain ⟨w, h3, h4⟩ := ih l' t' u h2
      exact ⟨w, by simp only [State.run, h1, Option.bind_some, h3], h4⟩
  obtain ⟨t, h1, h2⟩ := hsplit before _ _ s hr
  obtain ⟨t', h3, -⟩ := Option.bind_eq_some_iff.1 h2
  have hd := run_describes before [] _ t init_describes h1
  rw [List.append_nil] at hd
  obtain ⟨c, hc, h4⟩ := Option.bind_eq_some_iff.1 h3
  obtain ⟨a, ha, -⟩ := Option.map_eq_some_iff.1 h4
  rw [hd.facts] at hc
  have ha : Spec.holds before.reverse v = some (some a) := by
    rw [← hd.vars]; exact Option.join_eq_some_iff.1 ha
  have hrev : (before ++ .create f v k :: after).reverse = after.reverse ++ (.create f v k :: before.reverse) := by simp
  have hm : Spec.made (before ++ .create f v k :: after).reverse k = some (f, v, before.reverse) := by
    rw [hrev, made_untouched (fun op ho => hk op (List.mem_reverse.1 ho))]
    simp [Spec.made]
  have hvn : Spec.holds (before ++ .create f v k :: after).reverse v = some (some a) := by
    rw [hrev, holds_untouched (fun op ho => hv op (List.mem_reverse.1 ho))]
    exact ha
  have hfn : Spec.settings (before ++ .create f v k :: after).reverse f = some c := by
    rw [hrev, settings_untouched (fun op ho => hf op (List.mem_reverse.1 ho))]
    exact hc
  refine ⟨⟨a, a, c.force.map fun _ => a, c.upd⟩, ?_, ?_, ?_⟩
  · simp only [Spec.intended, hm, ha, hc, Option.bind_some, Option.join_some, Option.map_some]
  · refine (iterate_history _ s hr k _).2 ⟨f, v, before.reverse, a, c, hm, ha, hc, rfl, hvn, ⟨c, hfn, rfl⟩, ?_⟩
    cases hcf : c.force with
    | none => rfl
    | some w =>
      obtain rfl := hw c w hc hcf
      exact ⟨a, hvn, rfl⟩
  · exact (sync_history _ s hr k a).2 ⟨f, v, before.reverse, a, c, hm, ha, hc, hvn⟩

/-- Two solvers from one factory, other objects come and go. -/
example : ∃ s, State.init.run ([.assembler 0 7, .factory 0 3, .withForce 0 0 1] ++ .create 1 0 0 ::
      [.assembler 5 8, .create 1 5 1, .iterate 0, .destroySolver 1, .destroyFactory 0, .destroyVar 5, .sync 0, .iterate 0]) = some s ∧
    s.iterate? 0 = some ⟨7, 7, some 7, 3⟩ := ⟨_, rfl, rfl⟩

/-! ### The objects are not kept -/

/-- What one expects: a solver that exists works as intended, whatever has happened to the factory and to the variables. -/
def Spec.FactoryIndependent : Prop :=
  ∀ (ops : List Op) (s : State) (k : Nat), State.init.run ops = some s → (Spec.made ops.reverse k).isSome →
    s.iterate? k = Spec.intended ops.reverse k

/-- C95, refuted. A solver made by a temporary factory, `NonlinearSolverFactory(settings).create(assembler)`, or by a factory
that is local to the function which returns the solver (tests/src/testtruss.cpp:267-282) has no defined iteration. -/
theorem temporaryFactory_undefined : ¬ Spec.FactoryIndependent := by
  intro h
  have := h [.assembler 0 7, .factory 0 3, .create 0 0 0, .destroyFactory 0] _ 0 rfl rfl
  exact absurd this (by decide)

/-- The same for every program: once the factory is destroyed and no other one is at its address, no iteration of a solver
made by it is defined, although synchronising is. -/
def Spec.destroyed (f : Nat) (after : List Op) : Prop := ∀ op ∈ after, Spec.touchesFactory f op = false

/-- C95, refuted, in general. After the factory is destroyed no iteration of its solvers is defined. -/
theorem destroyedFactory_undefined (before middle after : List Op) (f v k : Nat) (s : State)
    (hr : State.init.run (before ++ .create f v k :: (middle ++ .destroyFactory f :: after)) = some s)
    (hf : Spec.destroyed f after) (hk : ∀ op ∈ middle ++ .destroyFactory f :: after, Spec.touchesSolver k op = false) :
    s.iterate? k = none := by
  cases hi : s.iterate? k with
  | none => rfl
  | some r =>
    obtain ⟨f', v', h, a, c, h1, -, -, -, -, ⟨c', h2, -⟩, -⟩ := (iterate_history _ s hr k r).1 hi
    have hrev : (before ++ .create f v k :: (middle ++ .destroyFactory f :: after)).reverse =
        (middle ++ .destroyFactory f :: after).reverse ++ (.create f v k :: before.reverse) := by simp
    rw [hrev, made_untouched (fun op ho => hk op (List.mem_reverse.1 ho))] at h1
    simp only [Spec.made, if_pos, Option.some.injEq, Prod.mk.injEq] at h1
    obtain ⟨rfl, -, -⟩ := h1
    have hrev2 : (before ++ .create f v k :: (middle ++ .destroyFactory f :: after)).reverse =
        after.reverse ++ (.destroyFactory f :: (middle.reverse ++ (.create f v k :: before.reverse))) := by simp
    rw [hrev2, settings_untouched (fun op ho => hf op (List.mem_reverse.1 ho))] at h2
    simp [Spec.settings] at h2

/-- C95, refuted. If the variable is assigned another assembler after the solver was made, residuals are computed with the old
one, updates and forces with the new one. -/
theorem reassigned_mixes : ∃ s, State.init.run [.assembler 0 7, .factory 0 3, .withForce 0 0 1, .create 1 0 0,
      .assembler 0 8] = some s ∧ s.iterate? 0 = some ⟨7, 8, some 8, 3⟩ := ⟨_, rfl, rfl⟩

/-- C95, refuted, in general. Whatever the program: if the variable holds another assembler than at the creation of the
solver, iterations use two assemblers. -/
theorem reassigned_differ (ops : List Op) (s : State) (hr : State.init.run ops = some s) (k f v : Nat) (h : List Op)
    (hm : Spec.made ops.reverse k = some (f, v, h)) (hv : Spec.holds ops.reverse v ≠ Spec.holds h v) (r : Used)
    (hi : s.iterate? k = some r) : r.residual ≠ r.update := by
  obtain ⟨f', v', h', a, c, h1, h2, -, h3, h4, -, -⟩ := (iterate_history _ s hr k r).1 hi
  rw [hm] at h1
  simp only [Option.some.injEq, Prod.mk.injEq] at h1
  obtain ⟨rfl, rfl, rfl⟩ := h1
  intro he
  apply hv
  rw [h4, h2, ← he, h3]

end Ikarus.Factory
