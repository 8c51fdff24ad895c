import Verif.Tree.Heap

/-!
# Event targets and dispatch: src/events/event_target.c, src/core/node.c:2456-2649

What a listener does is a parameter: a function from the listener object and the current state to the list of calls it
makes.  The calls a listener can make here are those of the interface `Event` and the registration functions; changes of
the node tree by a listener and dispatch of other events are not modelled (the propagation path is fixed before the first
listener runs).  Default actions (`dei->actions`) are assumed not to be installed.
-/
namespace Dom.Events

open Dom.Str (DStr)
open Dom.Tree (NodeId Node World)

/-- `struct listener_entry`, src/events/event_target.h:24-31; `id` is its address, `listener` the address of the listener
object. -/
structure Entry where
  id : Nat
  type : DStr
  listener : Nat
  capture : Bool
  deriving DecidableEq, Repr

/-- `dom_event_flow_phase`, include/dom/events/event.h:20-24. -/
inductive Phase
  | capturing | atTarget | bubbling
  deriving DecidableEq, Repr

/-- The fields of `struct dom_event` (src/events/event.h:28-55) that dispatch reads or writes. -/
structure Evt where
  type : Option DStr
  bubble : Bool
  cancelable : Bool := true
  target : Option NodeId := none
  current : Option NodeId := none
  phase : Option Phase := none
  stop : Bool := false
  stopNow : Bool := false
  preventDefault : Bool := false
  inDispatch : Bool := false
  deriving DecidableEq, Repr

/-- What a listener can do while it runs. -/
inductive Cmd
  | stopPropagation
  | stopImmediatePropagation
  | preventDefault
  | addListener (node : NodeId) (type : DStr) (listener : Nat) (capture : Bool)
  | removeListener (node : NodeId) (type : Option DStr) (listener : Nat) (capture : Bool)
  | dispatchAgain
  deriving DecidableEq, Repr

/-- One invocation of a listener, with what it did. -/
structure Call where
  node : NodeId
  phase : Phase
  listener : Nat
  cmds : List Cmd
  deriving DecidableEq, Repr

/-- The state during a dispatch: the event, the listeners of every node (`eti.listeners`, the circular list given from
its head; `[]` is NULL), the next address for an entry, and the invocations so far (a device of the model). -/
structure St where
  evt : Evt
  lists : NodeId → List Entry
  fresh : Nat
  log : List Call := []

/-- `_dom_event_target_add_event_listener`, src/events/event_target.c:72-97: `list_append` (src/utils/list.h:41-47) puts
the entry before the head, that is at the end. -/
def addListener (st : St) (et : NodeId) (type : DStr) (listener : Nat) (capture : Bool) : St :=
  { st with
    lists := fun n => if n = et then st.lists et ++ [{ id := st.fresh, type, listener, capture }] else st.lists n
    fresh := st.fresh + 1 }

/-- The test in src/events/event_target.c:121-128. -/
def matchesEntry (type : Option DStr) (listener : Nat) (capture : Bool) (le : Entry) : Bool :=
  match type with
  | none => le.listener == listener
  | some t => Str.isEqual (some le.type) (some t) && le.listener == listener && le.capture == capture

/-- The loop in src/events/event_target.c:119-145, `done` being the entries passed already: when the entry is found, the
list starts at its successor. -/
def removeLoop (m : Entry → Bool) (done : List Entry) : List Entry → Option (List Entry)
  | [] => none
  | le :: rest => if m le then some (rest ++ done) else removeLoop m (done ++ [le]) rest

/-- `_dom_event_target_remove_event_listener`, src/events/event_target.c:111-148. -/
def removeListener (st : St) (et : NodeId) (type : Option DStr) (listener : Nat) (capture : Bool) : St :=
  match removeLoop (matchesEntry type listener capture) [] (st.lists et) with
  | none => st
  | some l => { st with lists := fun n => if n = et then l else st.lists n }

/-- One call made by a listener: `_dom_event_stop_propagation`, `_dom_event_stop_immediate_propagation`,
`_dom_event_prevent_default` (src/events/event.c:228-245, 309-314), the registration functions, and a second dispatch of
the event, which src/core/node.c:2471-2472 refuses because `in_dispatch` is set. -/
def exec (st : St) : Cmd → St
  | .stopPropagation => { st with evt := { st.evt with stop := true } }
  | .stopImmediatePropagation => { st with evt := { st.evt with stopNow := true } }
  | .preventDefault => { st with evt := { st.evt with preventDefault := true } }
  | .addListener n t l c => addListener st n t l c
  | .removeListener n t l c => removeListener st n t l c
  | .dispatchAgain => st

/-- Behaviour of all listener objects. -/
abbrev Handler := Nat → St → List Cmd

/-- `le->listener->handler(evt, le->listener->pw)`, src/events/event_target.c:237-238. -/
def invoke (h : Handler) (st : St) (et : NodeId) (phase : Phase) (listener : Nat) : St :=
  let cmds := h listener st
  let st' := cmds.foldl exec st
  { st' with log := st'.log ++ [{ node := et, phase, listener, cmds }] }

/-- The test in src/events/event_target.c:231-236. -/
def runsIn (evt : Evt) (phase : Phase) (le : Entry) : Bool :=
  (le.capture && phase == .capturing) ||
  (le.capture == false && evt.bubble && phase == .bubbling) ||
  (evt.target == evt.current && phase == .atTarget)

/-- `le->list.next` in the circular list `l`. -/
def nextOf (l : List Entry) (le : Nat) : Option Nat :=
  match l.dropWhile (fun e => e.id != le) with
  | [] => none
  | [_] => l.head?.map Entry.id
  | _ :: e :: _ => some e.id

/-- The loop in src/events/event_target.c:227-256.  `le` is the address of the current entry.  `fuel` bounds the number of
steps; a listener that keeps adding listeners makes the C loop endless. -/
def fireLoop (h : Handler) (et : NodeId) (phase : Phase) : Nat → St → Nat → Out St
  | 0, _, _ => .fault .diverge
  | fuel + 1, st, le =>
    match (st.lists et).find? (fun e => e.id == le) with
    | none => .fault .useAfterFree
    | some e =>
      if Str.isEqual (some e.type) st.evt.type && runsIn st.evt phase e then
        let st' := invoke h st et phase e.listener
        if st'.evt.stopNow then .ok st'
        else if (st'.lists et).any (fun e => e.id == le) = false then .ok st'
        else
          match nextOf (st'.lists et) le with
          | none => .fault .useAfterFree
          | some nx => if (st'.lists et).head?.map Entry.id = some nx then .ok st' else fireLoop h et phase fuel st' nx
      else
        match nextOf (st.lists et) le with
        | none => .fault .useAfterFree
        | some nx => if (st.lists et).head?.map Entry.id = some nx then .ok st else fireLoop h et phase fuel st nx

/-- `_dom_event_target_dispatch`, src/events/event_target.c:216-263, without `success`, which is computed from
`prevent_default` at the end of the whole dispatch. -/
def targetDispatch (h : Handler) (fuel : Nat) (et : NodeId) (phase : Phase) (st : St) : Out St :=
  match st.lists et with
  | [] => .ok st
  | e :: _ => fireLoop h et phase fuel { st with evt := { st.evt with current := some et } } e.id

/-- The step from a node to the next one of the path, src/core/node.c:2546-2551: a fragment without parent passes on to
its host. -/
def upOf (n : Node) : Option NodeId :=
  if n.type = .fragment ∧ n.parent = none then n.host else n.parent

/-- The loop in src/core/node.c:2503-2552: the nodes of the path that listen for the type of the event. -/
def collectTargets (w : World) (st : St) : Nat → Option NodeId → Out (List NodeId)
  | _, none => .ok []
  | 0, some _ => .fault .diverge
  | fuel + 1, some t =>
    match w.nodes t with
    | none => .fault .useAfterFree
    | some n => do
      let ts ← collectTargets w st fuel (upOf n)
      .ok (if (st.lists t).any (fun le => Str.isEqual (some le.type) st.evt.type) then t :: ts else ts)

/-- The loops of the capture and bubbling phases, src/core/node.c:2567-2583 and 2600-2614: stop after a target at which
the propagation was stopped.  The boolean tells that it was stopped. -/
def phaseLoop (h : Handler) (fuel : Nat) (phase : Phase) : List NodeId → St → Out (St × Bool)
  | [], st => .ok (st, false)
  | t :: ts, st => do
    let st' ← targetDispatch h fuel t phase st
    if st'.evt.stopNow || st'.evt.stop then .ok (st', true) else phaseLoop h fuel phase ts st'

/-- Setting `evt->phase`. -/
def setPhase (st : St) (p : Phase) : St := { st with evt := { st.evt with phase := some p } }

/-- The three phases, src/core/node.c:2554-2614. -/
def phases (h : Handler) (fuel : Nat) (et : NodeId) (targets : List NodeId) (st : St) : Out St := do
  let st := setPhase { st with evt := { st.evt with target := some et } } .capturing
  let r ← phaseLoop h fuel .capturing targets.reverse st
  if r.2 then .ok r.1
  else do
    let st := setPhase { r.1 with evt := { r.1.evt with current := some et } } .atTarget
    let st ← targetDispatch h fuel et .atTarget st
    if st.evt.stopNow || st.evt.stop then .ok st
    else do
      let r ← phaseLoop h fuel .bubbling targets (setPhase st .bubbling)
      .ok r.1

/-- What `dom_event_target_dispatch_event` returns: the exception code (`none` is DOM_NO_ERR) and the value written to
`*success` (`none` if it is not written). -/
structure Result where
  st : St
  err : Option Exc
  success : Option Bool

/-- `_dom_node_dispatch_event`, src/core/node.c:2456-2649. -/
def dispatch (h : Handler) (fuel : Nat) (w : World) (et : NodeId) (st : St) : Out Result :=
  if st.evt.inDispatch then .ok { st, err := some .dispatchRequest, success := none }
  else
    let st := { st with evt := { st.evt with inDispatch := true } }
    if st.evt.type = none then .ok { st, err := some .unspecifiedEventType, success := none }
    else
      match w.nodes et with
      | none => .fault .useAfterFree
      | some n =>
        if n.owner = none then .ok { st, err := none, success := none }
        else do
          let targets ← collectTargets w st (w.fresh + 1) n.parent
          let st ← phases h fuel et targets st
          .ok { st, err := none, success := some (!st.evt.preventDefault) }

end Dom.Events
