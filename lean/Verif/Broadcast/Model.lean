import Mathlib.Data.List.Basic

/-!
Model of `Broadcaster` (ikarus/utils/broadcaster/broadcaster.hh) and `Listener`
(ikarus/utils/listener/listener.hh).

A token is a `std::shared_ptr` to a callback; it is identified with the number of its registration.
The state records which copies of tokens exist: those held by user code and those in the token lists
of `Listener` objects.  A callback is alive as long as one copy exists (`std::weak_ptr::lock`).

Simplifications: one broadcaster; a call of a callback is recorded by its number; what a callback
does to tokens is a list of operations given per callback; the message and the state passed on to
the callbacks are not recorded; nested notifications are not modelled.
-/

namespace Ikarus

/-- Broadcaster, listeners and tokens of the program. -/
structure BState where
  /-- Tokens held by user code, one entry per copy. -/
  user : List Nat
  /-- Token lists of the `Listener` objects (ikarus/utils/listener/listener.hh:82). -/
  listenerTokens : List (List Nat)
  /-- ikarus/utils/broadcaster/broadcaster.hh:71, the weak pointers. -/
  weak : List Nat
  /-- Number of registrations so far; the next token gets this number. -/
  next : Nat

namespace BState

/-- No listeners, nothing registered; `n` listener objects exist. -/
def init (n : Nat) : BState := ⟨[], List.replicate n [], [], 0⟩

/-- `weak_ptr::lock` succeeds / `not expired()`: some copy of the token exists. -/
def locked (s : BState) (id : Nat) : Bool :=
  decide (id ∈ s.user) || s.listenerTokens.any fun l => decide (id ∈ l)

/-- ikarus/utils/broadcaster/broadcaster.hh:43-47: the returned token is held by the caller. -/
def registerListener (s : BState) : BState :=
  { s with user := s.user ++ [s.next], weak := s.weak ++ [s.next], next := s.next + 1 }

/-- User code copies a token it holds. -/
def copyToken (s : BState) (id : Nat) : Option BState :=
  if id ∈ s.user then some { s with user := s.user ++ [id] } else none

/-- User code destroys or resets one copy of a token it holds. -/
def dropToken (s : BState) (id : Nat) : Option BState :=
  if id ∈ s.user then some { s with user := s.user.erase id } else none

/-- ikarus/utils/broadcaster/broadcaster.hh:52-56 called as `unregisterListener(token)`: the by-value
parameter is a copy, only this copy is reset. -/
def unregisterListener (s : BState) (id : Nat) : Option BState :=
  (s.copyToken id).bind fun s => s.dropToken id

/-- ikarus/utils/broadcaster/broadcaster.hh:52-56 called as
`unregisterListener(std::move(token))`: the token itself is moved into the parameter and reset. -/
def unregisterListenerMove (s : BState) (id : Nat) : Option BState := s.dropToken id

/-- ikarus/utils/listener/listener.hh:40-46: the listener keeps a copy, the caller gets one. -/
def subscribe (s : BState) (l : Nat) : Option BState :=
  (s.listenerTokens[l]?).map fun ts =>
    let s' := s.registerListener
    { s' with listenerTokens := s.listenerTokens.set l (ts ++ [s.next]) }

/-- ikarus/utils/listener/listener.hh:51-58. -/
def unSubscribeAll (s : BState) (l : Nat) : Option BState :=
  (s.listenerTokens[l]?).map fun _ => { s with listenerTokens := s.listenerTokens.set l [] }

/-- ikarus/utils/listener/listener.hh:63-68. -/
def unSubscribeLast (s : BState) (l : Nat) : Option BState :=
  (s.listenerTokens[l]?).map fun ts =>
    { s with listenerTokens := s.listenerTokens.set l ts.dropLast }

/-- ikarus/utils/listener/listener.hh:73-79: the first equal token is removed; nothing happens if
there is none. -/
def unSubscribe (s : BState) (l id : Nat) : Option BState :=
  (s.listenerTokens[l]?).map fun ts =>
    { s with listenerTokens := s.listenerTokens.set l (ts.erase id) }

/-- ikarus/utils/broadcaster/broadcaster.hh:73-77. -/
def trim (s : BState) : BState := { s with weak := s.weak.filter s.locked }

end BState

/-- What user code can do to tokens, inside and outside of callbacks. -/
inductive BOp
  | register
  | copy (id : Nat)
  | drop (id : Nat)
  | unregister (id : Nat)
  | unregisterMove (id : Nat)
  | subscribe (l : Nat)
  | unSubscribeAll (l : Nat)
  | unSubscribeLast (l : Nat)
  | unSubscribe (l id : Nat)
  deriving DecidableEq

/-- One operation; `none` if the program does not have the token or listener it names. -/
def BOp.step (s : BState) : BOp → Option BState
  | .register => some s.registerListener
  | .copy id => s.copyToken id
  | .drop id => s.dropToken id
  | .unregister id => s.unregisterListener id
  | .unregisterMove id => s.unregisterListenerMove id
  | .subscribe l => s.subscribe l
  | .unSubscribeAll l => s.unSubscribeAll l
  | .unSubscribeLast l => s.unSubscribeLast l
  | .unSubscribe l id => s.unSubscribe l id

/-- Several operations. -/
def BOp.steps : BState → List BOp → Option BState
  | s, [] => some s
  | s, op :: ops => (op.step s).bind fun s => BOp.steps s ops

/-- A new weak pointer is appended to the vector by this operation. -/
def BOp.pushes : BOp → Bool
  | .register => true
  | .subscribe _ => true
  | _ => false

namespace BState

/-- ikarus/utils/broadcaster/broadcaster.hh:63-67, the loop over the vector of weak pointers, with
the calls made.  `eff id` are the operations the callback `id` executes.  Registering appends to the
vector that is being iterated, which invalidates the iterators: undefined behaviour, `none`. -/
def notifyLoop (eff : Nat → List BOp) : List Nat → BState → Option (BState × List Nat)
  | [], s => some (s, [])
  | id :: ids, s =>
    if s.locked id then
      if (eff id).any BOp.pushes then none
      else (BOp.steps s (eff id)).bind fun s =>
        (notifyLoop eff ids s).map fun p => (p.1, id :: p.2)
    else notifyLoop eff ids s

/-- ikarus/utils/broadcaster/broadcaster.hh:61-68. -/
def notify (s : BState) (eff : Nat → List BOp) : Option (BState × List Nat) :=
  let s := s.trim
  notifyLoop eff s.weak s

end BState

/-- An event of a program: an operation or a notification. -/
inductive BEvent
  | op (o : BOp)
  | notify (eff : Nat → List BOp)

/-- One event, with the calls it makes. -/
def BEvent.step (s : BState) : BEvent → Option (BState × List Nat)
  | .op o => (o.step s).map fun s => (s, [])
  | .notify eff => s.notify eff

/-- A history of events with the calls of each event. -/
def BEvent.run : BState → List BEvent → Option (BState × List (List Nat))
  | s, [] => some (s, [])
  | s, e :: es => (e.step s).bind fun p => (BEvent.run p.1 es).map fun q => (q.1, p.2 :: q.2)

end Ikarus
