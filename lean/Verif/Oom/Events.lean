import Verif.Oom.Chars
import Verif.Events.Objects
/-!
# Events when memory may run out

`_dom_document_event_create_event`, the functions that create the events, `dom_event_unref`, and `_dom_dispatch_generic_event` with the methods of controls that call it,
request by request.

Simplified: an event is its block and the strings that its creation makes (the strings and nodes that the functions `..._init` reference are in Verif/Events/Objects.lean; these functions make
no request); listeners leave the memory as they found it, as in Verif/Oom/Chars.lean.
-/
namespace Dom.Oom.Events

open Dom.Oom
open Dom.Oom.Chars (Str dispatchEvent)
open Dom.Events.Obj (Kind kinds typeNames)

/-- An event: its block, its kind (the functions behind its `vtable`) and the strings of its derived type. -/
structure Event where
  block : Nat
  kind : Kind
  own : List Nat

/-- `dom_string_intern`, src/core/string.c:175-200: a reference to the interned string; if the string was not interned before, libwapcaplet may need memory for it.  The bytes live and die with the string, as in `createString`. -/
def internString (interned : Bool) : M (Option Nat) :=
  if interned then do
    let t ← fresh
    pure (some t)
  else malloc

/-- `_dom_event_create`, src/events/event.c:26-35, and its like, which make one request: custom_event.c:21-30, ui_event.c:19-28, text_event.c:20-29, mouse_event.c:23-32,
mouse_multi_wheel_event.c:24-34, mouse_wheel_event.c:23-34, mutation_event.c:19-28, mutation_name_event.c:22-32.  The functions `..._initialise` cannot fail. -/
def createPlain (k : Kind) : M (Except Exc Event) := do
  let b ← malloc
  match b with
  | none => pure (.error .noMem)
  | some b => pure (.ok { block := b, kind := k, own := [] })

/-- `_dom_keyboard_event_initialise`, src/events/keyboard_event.c:43-57: `key` and `code` are references to one empty string. -/
def initKeyboard (b : Nat) : M (Except Exc Event) := do
  let s ← createString
  match s with
  | .error e => pure (.error e)
  | .ok s => do
    ref s
    pure (.ok { block := b, kind := .keyboard, own := [s, s] })

/-- `_dom_keyboard_event_create`, src/events/keyboard_event.c:23-32: if the initialisation fails the block is not freed. -/
def createKeyboard : M (Except Exc Event) := do
  let b ← malloc
  match b with
  | none => pure (.error .noMem)
  | some b => initKeyboard b

/-- The switch of `_dom_document_event_create_event`, src/events/document_event.c:120-157. -/
def createKind (k : Kind) : M (Except Exc Event) := if k = .keyboard then createKeyboard else createPlain k

/-- The characters of a name. -/
def chars (s : String) : List Nat := s.toList.map Char.toNat

/-- The loop of `_dom_document_event_create_event`, src/events/document_event.c:111-117.  Simplified: interned strings are compared by their characters (Verif/Events/PropsObjects.lean has the
pointers). -/
def search (type : List Nat) : List (String × Kind) → Kind
  | [] => .event
  | (n, k) :: rest => if chars n = type then k else search type rest

/-- `_dom_document_event_create_event`, src/events/document_event.c:96-160. -/
def createEvent (type : Str) (interned : Bool) : M (Except Exc Event) := do
  let t ← internString interned
  match t with
  | none => pure (.error .noMem)
  | some t => do
    unref t
    createKind (search type.data (typeNames.zip kinds))

/-- `_dom_event_unref`, src/events/event.c:114-121, of the last reference, with `_dom_keyboard_event_finalise`, keyboard_event.c:60-68: the strings of an event that was not initialised
by `..._init`. -/
def destroyEvent (e : Event) : M Unit := do
  unrefAll e.own
  unref e.block

/-- The part of `_dom_node_dispatch_event` before the targets are collected, src/core/node.c:2478-2487; `owned` tells whether the node has a document. -/
def dispatch (type : Option Nat) (owned : Bool) (hear : List Nat) : M (Option Exc) :=
  if type = none then pure (some .unspecifiedEventType)
  else if owned = false then pure none
  else dispatchEvent hear

/-- `_dom_dispatch_generic_event`, src/events/dispatch.c:259-287, with `_dom_event_create` and `_dom_event_init`, src/events/event.c:256-273, which references the type; `hear` are the nodes above
the target that listen. -/
def generic (target : Option Nat) (type : Option Nat) (owned : Bool) (hear : List Nat) : M (Option Exc) :=
  match target with
  | none => pure none
  | some _ => do
    let e ← createPlain .event
    match e with
    | .error e => pure (some e)
    | .ok e => do
      refOpt type
      let r ← dispatch type owned hear
      unrefOpt type
      destroyEvent e
      pure r

/-- A click on an input element, src/html/html_input_element.c:583-604: the exception and `checked` afterwards. -/
def click (ele type : Nat) (hear : List Nat) (checked : Bool) : M (Option Exc × Bool) := do
  let r ← generic (some ele) (some type) true hear
  pure (match r with
    | some e => (some e, checked)
    | none => (none, true))

end Dom.Oom.Events
