import Verif.Model.Dict
/-! # Model of `observer.py`

Objects are compared by identity (no class of ezodf defines `__eq__`).  A `WeakSet` is the list of its
live members without repetition; the order of iteration is not relied on by any theorem.  Attributes of
listeners do not change, and handlers do not use the observer themselves.  The message is handed through
to the handlers and not modelled. -/
namespace Verif.Observer
open Verif

/-- What the observer sees of a listener: its handlers (with the outcome of a call) and the outcome of
`get_xmlroot()` (an AttributeError if there is no such method). -/
structure Obj where
  handler : Str → Option (Except Exc Unit)
  root : Except Exc (Option Nat)

/-- The value of `root`: an lxml element is false if it has no children. -/
structure Root where
  id : Nat
  truth : Bool
  deriving DecidableEq

/-- `Observer`, observer.py:48-49, and the handler calls so far (event, listener) -/
structure S where
  listeners : Dict Str (List Nat)
  calls : List (Str × Nat)
  deriving DecidableEq

/-- `subscribe`, observer.py:51-60 -/
def subscribe (obj : Nat → Obj) (event : Str) (o : Nat) : Py S Unit := fun s =>
  if ((obj o).handler event).isNone then (s, .error .AttributeError)
  else
    let set := (s.listeners.get event).getD []
    ({ s with listeners := s.listeners.set event (if o ∈ set then set else set ++ [o]) }, .ok ())

/-- `unsubscribe`, observer.py:62-66 -/
def unsubscribe (event : Str) (o : Nat) : Py S Unit := fun s =>
  match s.listeners.get event with
  | none => (s, .error .KeyError)
  | some set =>
    if o ∈ set then ({ s with listeners := s.listeners.set event (set.filter (· ≠ o)) }, .ok ())
    else (s, .error .KeyError)

/-- The last reference to an object goes away: weak sets forget it. -/
def destroy (o : Nat) (s : S) : S :=
  { s with listeners := s.listeners.map fun p => (p.1, p.2.filter (· ≠ o)) }

/-- `get_event_handler` and the call, observer.py:77-82 -/
def call (obj : Nat → Obj) (event : Str) (o : Nat) : Py S Unit := fun s =>
  match (obj o).handler event with
  | none => (s, .error .AttributeError)
  | some r => ({ s with calls := s.calls ++ [(event, o)] }, r)

/-- `send_to_root`, observer.py:84-92 -/
def sendToRoot (obj : Nat → Obj) (event : Str) (root : Root) (o : Nat) : Py S Unit := fun s =>
  match (obj o).root with
  | .error .AttributeError => (s, .ok ())
  | .error e => (s, .error e)
  | .ok r => if r = some root.id then call obj event o s else (s, .ok ())

/-- The loop of observer.py:102-103 -/
def each (send : Nat → Py S Unit) : List Nat → Py S Unit
  | [] => pure ()
  | o :: r => do
    send o
    each send r

/-- `broadcast`, observer.py:68-103 -/
def broadcast (obj : Nat → Obj) (event : Str) (root : Option Root) : Py S Unit := fun s =>
  match s.listeners.get event with
  | none => (s, .ok ())
  | some set => match root with
    | some r => if r.truth then each (sendToRoot obj event r) set s else each (call obj event) set s
    | none => each (call obj event) set s

/-- `_count_listeners`, observer.py:109-114 -/
def countListeners (event : Str) (s : S) : Nat :=
  match s.listeners.get event with
  | none => 0
  | some set => set.length

/-- `_has_listener`, observer.py:105-107 -/
def hasListener (event : Str) (s : S) : Bool := decide (0 < countListeners event s)

def new : S := { listeners := [], calls := [] }

end Verif.Observer
