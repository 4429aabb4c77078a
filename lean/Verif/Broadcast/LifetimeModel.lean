/-!
Model of the lifetimes of listeners and broadcasters: ikarus/utils/listener/listener.hh, the classes derived from it
(controllogger.hh, nonlinearsolverlogger.hh, controlvtkwriter.hh, genericlistener.hh, and the finite elements,
ikarus/finiteelements/mixin.hh:312-318), ikarus/utils/broadcaster/broadcaster.hh and
ikarus/controlroutines/controlroutinefactory.hh:38-48.

Objects have addresses.  A callback captures the address of the listener that subscribes (`this`).  A token is a
`std::shared_ptr` with its number of owners.  What the callbacks do is not modelled (see C14), only which object is called.
`Listener::unSubscribe(token)` (listener.hh:71-77) needs a token that is kept, it is modelled in `Broadcast/Model.lean` only.
-/

namespace Ikarus.Lifetime

/-- Assign one value of a function. -/
def set {α : Type} (f : Nat → α) (k : Nat) (v : α) : Nat → α := fun i => if i = k then v else f i

/-- The objects of a program. -/
structure State where
  /-- The listeners that are alive, with their tokens (listener.hh:82). -/
  objs : Nat → Option (List Nat)
  /-- The broadcasters that are alive, with their weak pointers (broadcaster.hh:71). -/
  bcs : Nat → Option (List Nat)
  /-- The address that a callback captured. -/
  target : Nat → Nat
  /-- The number of shared pointers to a callback. -/
  owners : Nat → Nat
  /-- The number of the next token. -/
  next : Nat

/-- The program starts. -/
def State.init : State := ⟨fun _ => none, fun _ => none, fun _ => 0, fun _ => 0, 0⟩

/-- Copy a list of shared pointers. -/
def State.acquire (s : State) (ts : List Nat) : State := { s with owners := fun t => s.owners t + ts.count t }

/-- Destroy a list of shared pointers. -/
def State.release (s : State) (ts : List Nat) : State := { s with owners := fun t => s.owners t - ts.count t }

/-- What a program does.  `a`, `b` are addresses of listeners, `c`, `c'` of broadcasters. -/
inductive Op
  /-- A listener is constructed. -/
  | construct (a : Nat)
  /-- `b` is constructed as a copy of `a`, or assigned (implicit members of `Listener`). -/
  | copy (a b : Nat)
  /-- `b` is constructed from, or assigned, `std::move` of `a`. -/
  | move (a b : Nat)
  | destroy (a : Nat)
  /-- `a.subscribeTo(c)` of the loggers and the writer (e.g. nonlinearsolverlogger.hh:26-29); the token that
  `Listener::subscribe` returns is not kept. -/
  | subscribeTo (a c : Nat)
  /-- `subscribeTo` of a finite element (mixin.hh:312-318), which returns a copy of the element that is not kept. -/
  | feSubscribeTo (a c : Nat)
  /-- `a.subscribe(c, callback)` (listener.hh:40-46) where the returned token is kept. -/
  | subscribeKeep (a c : Nat)
  /-- A token that was kept is destroyed. -/
  | dropToken (t : Nat)
  | unSubscribeAll (a : Nat)
  | unSubscribeLast (a : Nat)
  | bcConstruct (c : Nat)
  | bcCopy (c c' : Nat)
  | bcMove (c c' : Nat)
  | bcDestroy (c : Nat)
  | notify (c : Nat)
  deriving DecidableEq

namespace State

/-- `Listener::subscribe` (listener.hh:40-46) with `Broadcaster::registerListener` (broadcaster.hh:43-47), without the token that is
returned. -/
def subscribe (s : State) (a c : Nat) : Option State :=
  match s.objs a, s.bcs c with
  | some ts, some w => some { s with
      objs := set s.objs a (some (ts ++ [s.next]))
      bcs := set s.bcs c (some (w ++ [s.next]))
      target := set s.target s.next a
      owners := set s.owners s.next 1
      next := s.next + 1 }
  | _, _ => none

/-- The loop of `Broadcaster::notify` (broadcaster.hh:63-67): the addresses that are called; calling a callback whose listener
is destroyed is undefined. -/
def notifyLoop (s : State) : List Nat → Option (List Nat)
  | [] => some []
  | t :: w =>
    if s.owners t ≠ 0 then
      match s.objs (s.target t) with
      | none => none
      | some _ => (notifyLoop s w).map fun l => s.target t :: l
    else notifyLoop s w

/-- One step: the new state and the addresses of the listeners that are called; `none` if the behaviour is undefined. -/
def step (s : State) : Op → Option (State × List Nat)
  | .construct a => if (s.objs a).isNone then some ({ s with objs := set s.objs a (some []) }, []) else none
  | .copy a b =>
    match s.objs a with
    | none => none
    | some ts =>
      let s' := s.acquire ts
      let s' := match s.objs b with
        | none => s'
        | some old => s'.release old
      some ({ s' with objs := set s.objs b (some ts) }, [])
  | .move a b =>
    if a = b then none else
    match s.objs a with
    | none => none
    | some ts =>
      let s' := match s.objs b with
        | none => s
        | some old => s.release old
      some ({ s' with objs := set (set s.objs b (some ts)) a (some []) }, [])
  | .destroy a =>
    match s.objs a with
    | none => none
    | some ts => some ({ s.release ts with objs := set s.objs a none }, [])
  | .subscribeTo a c => (s.subscribe a c).map fun s => (s, [])
  | .feSubscribeTo a c =>
    (s.subscribe a c).bind fun s =>
      match s.objs a with
      | none => none
      | some ts => some ((s.acquire ts).release ts, [])
  | .subscribeKeep a c => (s.subscribe a c).map fun s' => (s'.acquire [s.next], [])
  | .dropToken t => if s.owners t = 0 then none else some (s.release [t], [])
  | .unSubscribeAll a =>
    match s.objs a with
    | none => none
    | some ts => some ({ s.release ts with objs := set s.objs a (some []) }, [])
  | .unSubscribeLast a =>
    match s.objs a with
    | none => none
    | some ts => some ({ s.release (ts.drop (ts.length - 1)) with objs := set s.objs a (some ts.dropLast) }, [])
  | .bcConstruct c => if (s.bcs c).isNone then some ({ s with bcs := set s.bcs c (some []) }, []) else none
  | .bcCopy c c' =>
    match s.bcs c with
    | none => none
    | some w => some ({ s with bcs := set s.bcs c' (some w) }, [])
  | .bcMove c c' =>
    if c = c' then none else
    match s.bcs c with
    | none => none
    | some w => some ({ s with bcs := set (set s.bcs c' (some w)) c (some []) }, [])
  | .bcDestroy c => if (s.bcs c).isNone then none else some ({ s with bcs := set s.bcs c none }, [])
  | .notify c =>
    match s.bcs c with
    | none => none
    | some w =>
      let w := w.filter fun t => s.owners t ≠ 0
      (s.notifyLoop w).map fun l => ({ s with bcs := set s.bcs c (some w) }, l)

/-- A program, with the calls of every step. -/
def run (s : State) : List Op → Option (State × List (List Nat))
  | [] => some (s, [])
  | op :: ops => (s.step op).bind fun p => (run p.1 ops).map fun q => (q.1, p.2 :: q.2)

end State

/-- `ControlRoutineFactory::create` (controlroutinefactory.hh:38-48): the elements at the addresses `fes` subscribe to the solver
`c`.  The second subscription, to the control routine, is made by no element of the code: the two skills that subscribe
(enhancedassumedstrains.hh:350-359, assumedstress.hh:343-352) do so for the messages of the solver only. -/
def createControlRoutine (fes : List Nat) (c : Nat) : List Op := fes.map fun a => .feSubscribeTo a c

end Ikarus.Lifetime
