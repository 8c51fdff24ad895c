import Verif.Events.Model
/-!
# The listeners of an event target in memory: src/utils/list.h, src/events/event_target.c, src/events/event_listener.c

In `Verif.Events.Model` the listeners of a target are a list.  Here they are what the C code has: entries linked in a circle by `next` and `prev`, with a pointer to one of them in
the target, and listener objects with reference counts.  Simplified: the references to the type strings are not counted, counts of references do not overflow, and `malloc` does not fail.
-/
namespace Dom.Events.Ring

open Dom.Str (DStr)
open Dom.Tree (NodeId)

/-- `struct listener_entry`, src/events/event_target.h:24-31, with `struct list_entry`, src/utils/list.h:18-21. -/
structure Cell where
  prev : Nat
  next : Nat
  type : DStr
  listener : Nat
  capture : Bool
  deriving DecidableEq, Repr

/-- The memory: the entries, the next address for one, the references to the listener objects (`none`: freed or not created) and the next address for one, and `eti.listeners` of
every target, src/events/event_target.h:36-39. -/
structure Heap where
  cells : Nat → Option Cell
  fresh : Nat
  objs : Nat → Option Nat
  freshObj : Nat
  heads : NodeId → Option Nat

/-- Reading an entry. -/
def cell (h : Heap) (a : Nat) : Out Cell :=
  match h.cells a with
  | none => .fault .useAfterFree
  | some c => .ok c

/-- Writing an entry. -/
def setCell (h : Heap) (a : Nat) (c : Option Cell) : Heap := { h with cells := fun b => if b = a then c else h.cells b }

/-- Writing a field of an entry. -/
def edit (h : Heap) (a : Nat) (f : Cell → Cell) : Out Heap := do
  let c ← cell h a
  .ok (setCell h a (some (f c)))

/-- Writing `eti.listeners`. -/
def setHead (h : Heap) (et : NodeId) (p : Option Nat) : Heap := { h with heads := fun n => if n = et then p else h.heads n }

/-- `list_append`, src/utils/list.h:40-46. -/
def listAppend (h : Heap) (head new : Nat) : Out Heap := do
  let h ← edit h new fun c => { c with next := head }
  let hd ← cell h head
  let h ← edit h new fun c => { c with prev := hd.prev }
  let hd ← cell h head
  let h ← edit h hd.prev fun c => { c with next := new }
  edit h head fun c => { c with prev := new }

/-- `list_del`, src/utils/list.h:53-60. -/
def listDel (h : Heap) (ent : Nat) : Out Heap := do
  let e ← cell h ent
  let h ← edit h e.prev fun c => { c with next := e.next }
  let e ← cell h ent
  let h ← edit h e.next fun c => { c with prev := e.prev }
  let h ← edit h ent fun c => { c with prev := ent }
  edit h ent fun c => { c with next := ent }

/-- The loop of `list_has`, src/utils/list.h:67-80; entries are not NULL inside a list.  `fuel` bounds the number of steps. -/
def hasLoop (h : Heap) (head ent : Nat) : Nat → Nat → Out Bool
  | 0, _ => .fault .diverge
  | fuel + 1, cur =>
    if cur = ent then .ok true
    else do
      let c ← cell h cur
      if c.next = head then .ok false else hasLoop h head ent fuel c.next

/-- `list_has`, src/utils/list.h:67-80. -/
def listHas (h : Heap) (head : Option Nat) (ent : Nat) : Out Bool :=
  match head with
  | none => .ok false
  | some p => hasLoop h p ent (h.fresh + 1) p

/-- `dom_event_listener_create`, src/events/event_listener.c:22-36. -/
def createObj (h : Heap) : Heap × Nat :=
  ({ h with objs := fun o => if o = h.freshObj then some 1 else h.objs o, freshObj := h.freshObj + 1 }, h.freshObj)

/-- `dom_event_listener_ref`, src/events/event_listener.c:48-51. -/
def refObj (h : Heap) (o : Nat) : Out Heap :=
  match h.objs o with
  | none => .fault .useAfterFree
  | some r => .ok { h with objs := fun p => if p = o then some (r + 1) else h.objs p }

/-- `dom_event_listener_unref`, src/events/event_listener.c:58-65. -/
def unrefObj (h : Heap) (o : Nat) : Out Heap :=
  match h.objs o with
  | none => .fault .useAfterFree
  | some r => .ok { h with objs := fun p => if p = o then (if r - 1 = 0 then none else some (r - 1)) else h.objs p }

/-- `_dom_event_target_add_event_listener`, src/events/event_target.c:72-97. -/
def add (h : Heap) (et : NodeId) (type : DStr) (listener : Nat) (capture : Bool) : Out Heap := do
  let le := h.fresh
  let h := { setCell h le (some { prev := le, next := le, type, listener, capture }) with fresh := h.fresh + 1 }
  let h ← refObj h listener
  match h.heads et with
  | none => .ok (setHead h et (some le))
  | some p => listAppend h p le

/-- The test in src/events/event_target.c:121-128. -/
def matchesCell (type : Option DStr) (listener : Nat) (capture : Bool) (c : Cell) : Bool :=
  match type with
  | none => c.listener == listener
  | some t => Str.isEqual (some c.type) (some t) && c.listener == listener && c.capture == capture

/-- Taking the entry `le` out and freeing it, src/events/event_target.c:130-142. -/
def unlink (h : Heap) (et : NodeId) (le : Nat) (c : Cell) : Out Heap := do
  let h := setHead h et (if c.next = le then none else some c.next)
  let h ← listDel h le
  let h ← unrefObj h c.listener
  .ok (setCell h le none)

/-- The loop in src/events/event_target.c:119-145.  `fuel` bounds the number of steps. -/
def removeLoop (m : Cell → Bool) (et : NodeId) : Nat → Heap → Nat → Out Heap
  | 0, _, _ => .fault .diverge
  | fuel + 1, h, le => do
    let c ← cell h le
    if m c then unlink h et le c
    else if h.heads et = some c.next ∨ h.heads et = none then .ok h
    else removeLoop m et fuel h c.next

/-- `_dom_event_target_remove_event_listener`, src/events/event_target.c:111-148. -/
def remove (h : Heap) (et : NodeId) (type : Option DStr) (listener : Nat) (capture : Bool) : Out Heap :=
  match h.heads et with
  | none => .ok h
  | some p => removeLoop (matchesCell type listener capture) et (h.fresh + 1) h p

/-- `event_target_destroy_listener`, src/events/event_target.c:22-28. -/
def destroyOne (h : Heap) (a : Nat) : Out Heap := do
  let h ← listDel h a
  let c ← cell h a
  let h ← unrefObj h c.listener
  .ok (setCell h a none)

/-- The loop of `event_target_destroy_listeners`, src/events/event_target.c:29-40.  `fuel` bounds the number of steps. -/
def destroyLoop : Nat → Heap → Nat → Out Heap
  | 0, _, _ => .fault .diverge
  | fuel + 1, h, a => do
    let c ← cell h a
    if a = c.next then destroyOne h a
    else do
      let h ← destroyOne h a
      destroyLoop fuel h c.next

/-- `_dom_event_target_internal_finalise`, src/events/event_target.c:52-58. -/
def finalise (h : Heap) (et : NodeId) : Out Heap :=
  match h.heads et with
  | none => .ok h
  | some p => do
    let h ← destroyLoop (h.fresh + 1) h p
    .ok (setHead h et none)

/-- What one call of the iteration gives: the memory, `*next` and `*listener`. -/
abbrev Step := Heap × Option Nat × Option Nat

/-- The entry after `cur`, src/events/event_target.c:311-324. -/
def iterAt (h : Heap) (type : Option DStr) (capture : Bool) (cur : Nat) : Out Step := do
  let c ← cell h cur
  let le ← cell h c.next
  if type.isNone || (Str.isEqual (some le.type) type && capture == le.capture) then do
    let h ← refObj h le.listener
    .ok (h, some c.next, some le.listener)
  else .ok (h, some c.next, none)

/-- `_dom_event_target_iter_event_listener`, src/events/event_target.c:284-325. -/
def iter (h : Heap) (et : NodeId) (type : Option DStr) (capture : Bool) (cur : Option Nat) : Out Step :=
  match cur with
  | none =>
    match h.heads et with
    | none => .ok (h, none, none)
    | some p => iterAt h type capture p
  | some a => if h.heads et = some a then .ok (h, none, none) else iterAt h type capture a

end Dom.Events.Ring
