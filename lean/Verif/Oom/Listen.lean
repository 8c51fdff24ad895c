import Verif.Oom.Lists
/-!
# Event listeners when memory may run out

`dom_event_listener_create`, `dom_event_listener_unref`, `_dom_event_target_add_event_listener`, `_dom_event_target_remove_event_listener` and `_dom_event_target_internal_finalise`, request by request, for one
target, with the references to listeners and types.

Simplified: the entries are a list that begins with the entry `eti->listeners` points to (Verif/Events/Ring.lean has the pointers); handlers and their data are not modelled.
-/
namespace Dom.Oom.Listen

open Dom.Oom
open Dom.Oom.Chars (Str)
open Dom.Oom.Lists (equal)

/-- `struct listener_entry`, src/events/event_target.h:24-31, with its address; `listener` is the address of the listener. -/
structure Entry where
  block : Nat
  type : Option Str
  listener : Nat
  capture : Bool

/-- `dom_event_listener_create`, src/events/event_listener.c:22-36. -/
def create : M (Except Exc Nat) := do
  let a ← malloc
  match a with
  | none => pure (.error .noMem)
  | some a => pure (.ok a)

/-- `_dom_event_target_add_event_listener`, src/events/event_target.c:72-97. -/
def add (type : Option Str) (listener : Nat) (capture : Bool) (es : List Entry) : M (Option Exc × List Entry) := do
  let b ← malloc
  match b with
  | none => pure (some .noMem, es)
  | some b => do
    refOpt (type.map (·.addr))
    ref listener
    pure (none, es ++ [{ block := b, type := type, listener := listener, capture := capture }])

/-- The test of the loop, src/events/event_target.c:121-127. -/
def fits (type : Option Str) (listener : Nat) (capture : Bool) (e : Entry) : Bool :=
  match type with
  | none => e.listener == listener
  | some _ => equal e.type type && e.listener == listener && e.capture == capture

/-- The release of an entry, src/events/event_target.c:21-27 and :136-139. -/
def drop (e : Entry) : M Unit := do
  unref e.listener
  unrefOpt (e.type.map (·.addr))
  unref e.block

/-- The loop of `_dom_event_target_remove_event_listener`, src/events/event_target.c:119-144; `seen` are the entries in front.  The entry behind the one that is removed becomes the first. -/
def removeLoop (type : Option Str) (listener : Nat) (capture : Bool) : List Entry → List Entry → M (List Entry)
  | seen, [] => pure seen
  | seen, e :: es =>
    if fits type listener capture e then do
      drop e
      pure (es ++ seen)
    else removeLoop type listener capture (seen ++ [e]) es

/-- `_dom_event_target_remove_event_listener`, src/events/event_target.c:111-148. -/
def remove (type : Option Str) (listener : Nat) (capture : Bool) (es : List Entry) : M (List Entry) := removeLoop type listener capture [] es

/-- `_dom_event_target_internal_finalise`, src/events/event_target.c:52-58, with `event_target_destroy_listeners`, :28-39. -/
def finalise : List Entry → M Unit
  | [] => pure ()
  | e :: es => do
    drop e
    finalise es

end Dom.Oom.Listen
