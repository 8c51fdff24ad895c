import Verif.Events.PropsReg
import Verif.Tree.PropsLife

/-!
# Dispatch with listeners that do anything: src/core/node.c:2456-2640, src/events/event_target.c:216-263, src/events/event.c

The model of `Verif.Events.Model` once more, with the memory of the nodes: while a dispatch runs, listeners may register and unregister listeners, call the
event, and use the tree as any client (create, move, remove, clone, take and give up references).  Dispatch takes references to the targets of the
capture and bubbling phases and gives them up at the end.  The callbacks for default actions are included.
-/
namespace Dom.Events.Live

open Dom.Str (DStr)
open Dom.Tree (NodeId Node World Act Ledger)

/-- `dom_default_action_phase`, include/dom/events/document_event.h:67-72. -/
inductive Stage
  | started | prevented | finish | finished
  deriving DecidableEq, Repr

/-- What runs: a listener object, called for a node in a phase, or the callback for a default action. -/
inductive Who
  | listener (node : NodeId) (phase : Phase) (l : Nat)
  | action (stage : Stage)
  deriving DecidableEq, Repr

/-- What it can do. -/
inductive Cmd
  /-- Call the event, or register and unregister listeners. -/
  | event (c : Events.Cmd)
  /-- Use the tree. -/
  | act (a : Act)
  /-- `dom_event_get_target`. -/
  | getTarget
  /-- `dom_event_get_current_target`. -/
  | getCurrent

/-- One invocation, with the event as it was and what was done. -/
structure Ran where
  who : Who
  seen : Evt
  cmds : List Cmd

/-- The state: the nodes; the references the client has, those that the dispatch and its caller have; the event and the listeners; the invocations so far
(a device of the model). -/
structure S where
  w : World
  own : Ledger
  held : Ledger
  ev : St
  log : List Ran := []

/-- `dom_node_ref` for the client. -/
def take (s : S) (x : NodeId) : Out S :=
  match (Act.ref x).run s.w with
  | .ok w' r => .ok { s with w := w', own := (Act.ref x).book s.own r }
  | .exc w' _ => .ok { s with w := w' }
  | .fault f => .fault f

/-- One thing done by a listener.  `_dom_event_get_target` and `_dom_event_get_current_target`, src/events/event.c:145-165: `dom_node_ref` accepts NULL.
Registering is `_dom_event_target_add_event_listener` with the `eti` in the node (src/core/node.c:2366-2384), which must be in memory. -/
def exec (s : S) : Cmd → Out S
  | .event (.addListener n t l c) =>
    match s.w.nodes n with
    | none => .fault .useAfterFree
    | some _ => .ok { s with ev := Events.exec s.ev (.addListener n t l c) }
  | .event (.removeListener n t l c) =>
    match s.w.nodes n with
    | none => .fault .useAfterFree
    | some _ => .ok { s with ev := Events.exec s.ev (.removeListener n t l c) }
  | .event c => .ok { s with ev := Events.exec s.ev c }
  | .act a =>
    match a.run s.w with
    | .ok w' r => .ok { s with w := w', own := a.book s.own r }
    | .exc w' _ => .ok { s with w := w' }
    | .fault f => .fault f
  | .getTarget =>
    match s.ev.evt.target with
    | none => .ok s
    | some x => take s x
  | .getCurrent =>
    match s.ev.evt.current with
    | none => .ok s
    | some x => take s x

/-- The commands one after the other. -/
def execAll : List Cmd → S → Out S
  | [], s => .ok s
  | c :: cs, s => do
    let s ← exec s c
    execAll cs s

/-- What listeners and callbacks do, in any state.  (As it may depend on the whole state, and the state determines what each command gives, nothing is lost
by fixing the commands when it starts.) -/
abbrev Handler := Who → S → List Cmd

/-- `le->listener->handler(evt, le->listener->pw)`, src/events/event_target.c:237-238, and `cb(evt, pw)`, src/core/node.c:2564, 2624, 2645. -/
def invoke (h : Handler) (who : Who) (s : S) : Out S := do
  let s' ← execAll (h who s) s
  .ok { s' with log := s'.log ++ [{ who, seen := s.ev.evt, cmds := h who s }] }

/-- The loop in src/events/event_target.c:227-256, see `Events.fireLoop`; `eti` is part of the node. -/
def fireLoop (h : Handler) (et : NodeId) (phase : Phase) : Nat → S → Nat → Out S
  | 0, _, _ => .fault .diverge
  | fuel + 1, s, le =>
    match s.w.nodes et with
    | none => .fault .useAfterFree
    | some _ =>
      match (s.ev.lists et).find? (fun e => e.id == le) with
      | none => .fault .useAfterFree
      | some e =>
        if Str.isEqual (some e.type) s.ev.evt.type && runsIn s.ev.evt phase e then do
          let s' ← invoke h (.listener et phase e.listener) s
          if s'.ev.evt.stopNow then .ok s'
          else
            match s'.w.nodes et with
            | none => .fault .useAfterFree
            | some _ =>
              if (s'.ev.lists et).any (fun e => e.id == le) = false then .ok s'
              else
                match nextOf (s'.ev.lists et) le with
                | none => .fault .useAfterFree
                | some nx => if (s'.ev.lists et).head?.map Entry.id = some nx then .ok s' else fireLoop h et phase fuel s' nx
        else
          match nextOf (s.ev.lists et) le with
          | none => .fault .useAfterFree
          | some nx => if (s.ev.lists et).head?.map Entry.id = some nx then .ok s else fireLoop h et phase fuel s nx

/-- Writing a field of the event. -/
def withEvt (s : S) (f : Evt → Evt) : S := { s with ev := { s.ev with evt := f s.ev.evt } }

/-- `_dom_event_target_dispatch`, src/events/event_target.c:216-263. -/
def targetDispatch (h : Handler) (fuel : Nat) (et : NodeId) (phase : Phase) (s : S) : Out S :=
  match s.w.nodes et with
  | none => .fault .useAfterFree
  | some _ =>
    match s.ev.lists et with
    | [] => .ok s
    | e :: _ => fireLoop h et phase fuel (withEvt s fun v => { v with current := some et }) e.id

/-- The loops of the capture and bubbling phases, src/core/node.c:2567-2583 and 2600-2614. -/
def phaseLoop (h : Handler) (fuel : Nat) (phase : Phase) : List NodeId → S → Out (S × Bool)
  | [], s => .ok (s, false)
  | t :: ts, s => do
    let s' ← targetDispatch h fuel t phase s
    if s'.ev.evt.stopNow || s'.ev.evt.stop then .ok (s', true) else phaseLoop h fuel phase ts s'

/-- A callback for the default action, src/core/node.c:2558-2566: `dei` is part of the document `d`, `acts` tells whether there are any. -/
def action (h : Handler) (acts : Bool) (d : NodeId) (stage : Stage) (s : S) : Out S :=
  match s.w.nodes d with
  | none => .fault .useAfterFree
  | some _ => if acts then invoke h (.action stage) s else .ok s

/-- src/core/node.c:2554-2627: the callback for the start, the three phases, the callback for the end.  `goto cleanup` is the end of this function. -/
def body (h : Handler) (acts : Bool) (fuel : Nat) (et d : NodeId) (targets : List NodeId) (s : S) : Out S := do
  let s ← action h acts d .started (withEvt s fun v => { v with target := some et, phase := some .capturing })
  let r ← phaseLoop h fuel .capturing targets.reverse s
  if r.2 then .ok r.1
  else do
    let s ← targetDispatch h fuel et .atTarget (withEvt r.1 fun v => { v with phase := some .atTarget, current := some et })
    if s.ev.evt.stopNow || s.ev.evt.stop then .ok s
    else do
      let r ← phaseLoop h fuel .bubbling targets (withEvt s fun v => { v with phase := some .bubbling })
      if r.2 then .ok r.1
      else action h acts d (if r.1.ev.evt.preventDefault then .prevented else .finish) r.1

/-- The loop in src/core/node.c:2503-2552: the nodes of the path that listen for the type of the event, each with a reference. -/
def collect : Nat → Option NodeId → S → Out (List NodeId × S)
  | _, none, s => .ok ([], s)
  | 0, some _, _ => .fault .diverge
  | fuel + 1, some t, s =>
    match s.w.nodes t with
    | none => .fault .useAfterFree
    | some n =>
      if (s.ev.lists t).any (fun le => Str.isEqual (some le.type) s.ev.evt.type) then
        match (Act.ref t).run s.w with
        | .ok w' r => do
          let q ← collect fuel (upOf n) { s with w := w', held := (Act.ref t).book s.held r }
          .ok (t :: q.1, q.2)
        | .exc _ _ => .fault .badCall
        | .fault f => .fault f
      else collect fuel (upOf n) s

/-- src/core/node.c:2633-2635: `dom_node_unref` for the targets, the last one first. -/
def release : List NodeId → S → Out S
  | [], s => .ok s
  | t :: ts, s =>
    match (Act.unref t).run s.w with
    | .ok w' r => release ts { s with w := w', held := (Act.unref t).book s.held r }
    | .exc _ _ => .fault .badCall
    | .fault f => .fault f

/-- What `dom_event_target_dispatch_event` returns: the exception code (`none` is DOM_NO_ERR) and the value written to `*success` (`none` if it is not
written). -/
structure Result where
  s : S
  err : Option Exc
  success : Option Bool

/-- `_dom_node_dispatch_event`, src/core/node.c:2456-2649. -/
def dispatch (h : Handler) (acts : Bool) (fuel : Nat) (et : NodeId) (s : S) : Out Result :=
  if s.ev.evt.inDispatch then .ok { s, err := some .dispatchRequest, success := none }
  else
    let s := withEvt s fun v => { v with inDispatch := true }
    if s.ev.evt.type = none then .ok { s, err := some .unspecifiedEventType, success := none }
    else
      match s.w.nodes et with
      | none => .fault .useAfterFree
      | some n =>
        match n.owner with
        | none => .ok { s, err := none, success := none }
        | some d => do
          let q ← collect (s.w.fresh + 1) n.parent s
          let s ← body h acts fuel et d q.1 q.2
          let ok := !s.ev.evt.preventDefault
          let s ← release q.1.reverse s
          let s ← action h acts d .finished s
          .ok { s, err := none, success := some ok }

end Dom.Events.Live
