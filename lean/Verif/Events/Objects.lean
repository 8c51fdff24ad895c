import Verif.Html.Create
/-!
# Event objects: src/events/document_event.c, event.c, text_event.c, keyboard_event.c, mutation_event.c, mutation_name_event.c

The strings of an event are in the memory of strings.  Of nodes only the reference counts are represented; what `dom_node_unref` does when a count reaches zero is
part of the tree.  Not represented: targets, phase and flags of a dispatch (see `Verif/Events/Model.lean`), and the fields that are plain values stored
and returned, `detail`, `view`, positions, buttons, location, `attr_change`, and the modifiers (see `Verif/Events/Modifiers.lean`).
-/
namespace Dom.Events.Obj

open Dom.Intern
open Dom.Str (Bytes)
open Dom.Html.Create (refOpt unrefOpt)

/-- `dom_event_type`, src/events/document_event.h:20-33. -/
inductive Kind
  | event
  | custom
  | ui
  | text
  | keyboard
  | mouse
  | multiWheel
  | wheel
  | mutation
  | mutationName
  deriving DecidableEq, Repr

/-- The numbers of the kinds, src/events/document_event.h:21-30. -/
def kinds : List Kind := [.event, .custom, .ui, .text, .keyboard, .mouse, .multiWheel, .wheel, .mutation, .mutationName]

/-- `__event_types`, src/events/document_event.c:30-41. -/
def typeNames : List String :=
  ["Event", "CustomEvent", "UIEvent", "TextEvent", "KeyboardEvent", "MouseEvent", "MouseMultiWheelEvent", "MouseWheelEvent", "MutationEvent", "MutationNameEvent"]

/-- The loop of `_dom_document_event_internal_initialise`, src/events/document_event.c:59-64. -/
def internAll (s : Mem) : List String → Out (Mem × List Addr)
  | [] => .ok (s, [])
  | n :: ns => do
    let (s, l) ← lwcIntern s n.toUTF8.toList
    let (s, ls) ← internAll s ns
    .ok (s, l :: ls)

/-- The loop of `_dom_document_event_internal_finalise`, src/events/document_event.c:77-80. -/
def unrefAll (s : Mem) : List Addr → Out Mem
  | [] => .ok s
  | l :: ls => do
    let s ← lwcUnref s l
    unrefAll s ls

/-- The loop of `_dom_document_event_create_event`, src/events/document_event.c:111-117: `et` starts with 0. -/
def findType (t : Addr) : Nat → List Addr → Nat
  | _, [] => 0
  | i, l :: ls => if l = t then i else findType t (i + 1) ls

/-- The memory of strings and the reference counts of the nodes. -/
structure St where
  mem : Mem
  nodes : Nat → Nat

/-- The fields of an event.  `none` for `bubble`, `cancelable`, `time`, an entry of `own` or `related` stands for memory that was not written yet.
`own` are the strings of the derived type: text events have `data`; keyboard events `key` and `code`; mutation events `prev_value`, `new_value` and
`attr_name`; mutation name events `prev_namespace`, `prev_nodename` and those of mutation events. -/
structure Ev where
  kind : Kind
  refcnt : Nat
  type : Option Addr
  ns : Option Addr
  bubble : Option Bool
  cancelable : Option Bool
  time : Option Nat
  isInit : Bool
  trusted : Bool
  own : List (Option (Option Addr))
  related : Option (Option Nat)
  freed : Bool

/-- `calloc` in src/events/ui_event.c:21 and keyboard_event.c:25, `malloc` for the other kinds, for example src/events/event.c:28: the fields
that `_dom_event_initialise`, src/events/event.c:46-68, does not write. -/
def blank {α : Type} (k : Kind) (zero : α) : Option α := if k = .ui ∨ k = .keyboard then some zero else none

/-- The fields of `_dom_event_initialise`, src/events/event.c:46-68, with the strings of the derived type given. -/
def base (k : Kind) (own : List (Option (Option Addr))) (related : Option (Option Nat)) : Ev :=
  { kind := k, refcnt := 1, type := none, ns := none, bubble := blank k false, cancelable := blank k false, time := blank k 0, isInit := false,
    trusted := true, own := own, related := related, freed := false }

/-- `_dom_..._event_create` with `..._initialise`: src/events/event.c:26-68, custom_event.c:21-45, ui_event.c:19-42, text_event.c:20-44, keyboard_event.c:23-57,
mouse_event.c:23-48, mouse_multi_wheel_event.c:24-50, mouse_wheel_event.c:23-49, mutation_event.c:19-47, mutation_name_event.c:22-50. -/
def create (s : Mem) (k : Kind) : Out (Mem × Ev) :=
  match k with
  | .text => .ok (s, base k [some none] (some none))
  | .keyboard => do
    let (s, e) ← strCreate s []
    let s ← strRef s e
    .ok (s, base k [some (some e), some (some e)] (some none))
  | .mutation => .ok (s, base k [some none, some none, some none] (some none))
  | .mutationName => .ok (s, base k [some none, some none, none, none, none] none)
  | _ => .ok (s, base k [] (some none))

/-- The switch of `_dom_document_event_create_event`, src/events/document_event.c:120-157. -/
def createKind (s : Mem) (et : Nat) : Out (Mem × Ev) :=
  match kinds[et]? with
  | some k => create s k
  | none => .fault .badCall

/-- `_dom_document_event_create_event`, src/events/document_event.c:96-160; `names` are `dei->event_types`. -/
def createEvent (s : Mem) (names : List Addr) (type : Addr) : Out (Mem × Ev) := do
  let (s, t) ← strIntern s type
  let et := findType t 0 names
  let s ← lwcUnref s t
  createKind s et

/-- What is given to a function `..._init` or `..._init_ns`: for the latter `ns` is the namespace; `own` are the strings for the derived type in the order of the
parameters, `node` the related node, `clock` the time in milliseconds. -/
structure Args where
  type : Option Addr
  ns : Option (Option Addr)
  bubble : Bool
  cancelable : Bool
  own : List (Option Addr)
  node : Option Nat
  clock : Nat
  deriving DecidableEq, Repr

/-- The parameter number `i` among the strings for the derived type. -/
def Args.str (a : Args) (i : Nat) : Option Addr := a.own.getD i none

/-- `evt->x = x; dom_string_ref(x);` for several fields, src/events/text_event.c:93-94, mutation_event.c:176-183, mutation_name_event.c:119-123. -/
def refAll (s : Mem) : List (Option Addr) → Out Mem
  | [] => .ok s
  | x :: xs => do
    let s ← refOpt s x
    refAll s xs

/-- One field of `_dom_keyboard_event_init_helper`, src/events/keyboard_event.c:263-270. -/
def keyField (s : Mem) (old : Option (Option Addr)) (new : Option Addr) : Out (Mem × Option (Option Addr)) :=
  match new with
  | none => .ok (s, old)
  | some _ => do
    let s ← unrefOpt s old.join
    let s ← refOpt s new
    .ok (s, some new)

/-- `dom_node_ref`, include/dom/core/node.h:178-184. -/
def refNode (nodes : Nat → Nat) : Option Nat → Nat → Nat
  | none => nodes
  | some n => upd nodes n (nodes n + 1)

/-- `dom_node_unref`, include/dom/core/node.h:195-202, as far as the count goes. -/
def unrefNode (nodes : Nat → Nat) : Option Nat → Out (Nat → Nat)
  | none => .ok nodes
  | some n => if nodes n = 0 then .fault .useAfterFree else .ok (upd nodes n (nodes n - 1))

/-- `_dom_mutation_event_init`, src/events/mutation_event.c:173-183, and `..._init_ns`, 211-221, without the call for the base type: `strs` are `prev_value`, `new_value`
and `attr_name`, `front` the fields of the derived type, which were written before. -/
def mutationPart (st : St) (e : Ev) (node : Option Nat) (front strs : List (Option Addr)) : Out (St × Ev) := do
  let nodes := refNode st.nodes node
  let s ← refAll st.mem strs
  .ok (⟨s, nodes⟩, { e with own := (front ++ strs).map some, related := some node })

/-- What the functions `..._init` and `..._init_ns` of the derived types do before that of the base type: src/events/text_event.c:93-94, 117-118;
keyboard_event.c:251-289; mutation_event.c:173-183, 211-221; mutation_name_event.c:119-127, 148-156. -/
def initOwn (st : St) (e : Ev) (a : Args) : Out (St × Ev) :=
  match e.kind with
  | .text => do
    let s ← refOpt st.mem (a.str 0)
    .ok (⟨s, st.nodes⟩, { e with own := [some (a.str 0)] })
  | .keyboard => do
    let (s, k) ← keyField st.mem (e.own.getD 0 none) (a.str 0)
    let (s, c) ← keyField s (e.own.getD 1 none) (a.str 1)
    .ok (⟨s, st.nodes⟩, { e with own := [k, c] })
  | .mutation => mutationPart st e a.node [] [a.str 0, a.str 1, a.str 2]
  | .mutationName => do
    let s ← refAll st.mem [a.str 0, a.str 1]
    mutationPart ⟨s, st.nodes⟩ e a.node [a.str 0, a.str 1] [none, none, none]
  | _ => .ok (st, e)

/-- `_dom_event_init`, src/events/event.c:256-272, or `_dom_event_init_ns`, 347-359. -/
def initBase (s : Mem) (e : Ev) (a : Args) : Out (Mem × Ev) := do
  let s ← refOpt s a.type
  match a.ns with
  | none => .ok (s, { e with type := a.type, bubble := some a.bubble, cancelable := some a.cancelable, isInit := true, time := some (a.clock - a.clock % 2) })
  | some n => do
    let s ← refOpt s n
    .ok (s, { e with type := a.type, ns := n, bubble := some a.bubble, cancelable := some a.cancelable, isInit := true })

/-- The functions `..._init` and `..._init_ns` of all types, see `initOwn` and `initBase`; custom events and wheel events only have the latter. -/
def init (st : St) (e : Ev) (a : Args) : Out (St × Ev) := do
  let (st, e) ← initOwn st e a
  let (s, e) ← initBase st.mem e a
  .ok (⟨s, st.nodes⟩, e)

/-- `dom_string_unref` of several fields. -/
def unrefFields (s : Mem) : List (Option (Option Addr)) → Out Mem
  | [] => .ok s
  | none :: _ => .fault .uninit
  | some x :: xs => do
    let s ← unrefOpt s x
    unrefFields s xs

/-- What the functions `..._finalise` of the derived types do before that of the base type: src/events/text_event.c:49, keyboard_event.c:62-65,
mutation_event.c:52-55, mutation_name_event.c:55-56; the last one does not call `_dom_mutation_event_finalise`. -/
def finaliseOwn (st : St) (e : Ev) : Out St :=
  match e.kind with
  | .mutation => do
    let nodes ← unrefNode st.nodes e.related.join
    let s ← unrefFields st.mem e.own
    .ok ⟨s, nodes⟩
  | .mutationName => do
    let s ← unrefFields st.mem (e.own.take 2)
    .ok ⟨s, st.nodes⟩
  | _ => do
    let s ← unrefFields st.mem e.own
    .ok ⟨s, st.nodes⟩

/-- `dom_event_destroy` through the vtable: the finalisation of the derived type, `_dom_event_finalise`, src/events/event.c:71-88, and `free`. -/
def destroy (st : St) (e : Ev) : Out (St × Ev) := do
  let st ← finaliseOwn st e
  let s ← unrefOpt st.mem e.type
  let s ← unrefOpt s e.ns
  .ok (⟨s, st.nodes⟩, { e with type := none, ns := none, freed := true })

/-- The calls on an event. -/
inductive Op
  | ref
  | unref
  | init (a : Args)
  | getType
  | getNamespace
  | getBubbles
  | getCancelable
  | getTime
  | isInitialised
  | getTrusted
  | setTrusted (b : Bool)
  /-- `data` of a text event, `key` and `code` of a keyboard event, `prev_value`, `new_value` and `attr_name` of a mutation event; `prev_namespace`, `prev_nodename` and those of
  mutation events of a mutation name event. -/
  | getString (i : Nat)
  | getRelated
  deriving DecidableEq, Repr

/-- What a call returns. -/
inductive Ans
  | none
  | str (v : Option Addr)
  | bool (b : Bool)
  | num (n : Nat)
  | node (n : Option Nat)
  deriving DecidableEq, Repr

/-- Reading a field: undefined if it was not written. -/
def rd {α : Type} : Option α → Out α
  | some x => .ok x
  | none => .fault .uninit

/-- A getter that returns a string with a reference: `_dom_event_get_type`, src/events/event.c:131-136; `_dom_event_get_namespace`, 281-287; text_event.c:69-76;
keyboard_event.c:86-108; mutation_event.c:97-136; mutation_name_event.c:77-100. -/
def getStr (st : St) (e : Ev) (v : Option Addr) : Out (St × Ev × Ans) := do
  let s ← refOpt st.mem v
  .ok (⟨s, st.nodes⟩, e, .str v)

/-- `_dom_event_unref`, src/events/event.c:114-121. -/
def unrefEv (st : St) (e : Ev) : Out (St × Ev) :=
  let n := if e.refcnt > 0 then e.refcnt - 1 else e.refcnt
  if n = 0 then destroy st { e with refcnt := n } else .ok (st, { e with refcnt := n })

/-- One call on an event that exists.  `_dom_event_ref`, src/events/event.c:104-107; the getters 190-220 and 375-415; `_dom_mutation_event_get_related_node`,
mutation_event.c:81-88. -/
def perform1 (st : St) (e : Ev) : Op → Out (St × Ev × Ans)
  | .ref => .ok (st, { e with refcnt := u32 (e.refcnt + 1) }, .none)
  | .unref => do
    let (st, e) ← unrefEv st e
    .ok (st, e, .none)
  | .init a => do
    let (st, e) ← Obj.init st e a
    .ok (st, e, .none)
  | .getType => getStr st e e.type
  | .getNamespace => getStr st e e.ns
  | .getBubbles => do
    let b ← rd e.bubble
    .ok (st, e, .bool b)
  | .getCancelable => do
    let b ← rd e.cancelable
    .ok (st, e, .bool b)
  | .getTime => do
    let n ← rd e.time
    .ok (st, e, .num n)
  | .isInitialised => .ok (st, e, .bool e.isInit)
  | .getTrusted => .ok (st, e, .bool e.trusted)
  | .setTrusted b => .ok (st, { e with trusted := b }, .none)
  | .getString i => do
    let v ← rd (e.own.getD i none)
    getStr st e v
  | .getRelated => do
    let n ← rd e.related
    .ok (⟨st.mem, refNode st.nodes n⟩, e, .node n)

/-- One call: the event must exist. -/
def Ev.run (st : St) (e : Ev) (o : Op) : Out (St × Ev × Ans) := if e.freed then .fault .useAfterFree else perform1 st e o

end Dom.Events.Obj
