import Verif.Tree.Model
/-!
# src/core/node.c: the tree-changing functions when memory may run out

The functions of Verif/Tree/Model.lean that raise mutation events.  The only requests for memory in these functions are
those of the events (`_dom_mutation_event_create`, src/events/mutation_event.c:19-28); here each of them may be refused.
Simplified besides what is said in Verif/Tree/Model.lean: nobody listens, so an event asks for one block only (the
array of targets, src/core/node.c:2408-2437, is in Verif/Oom/Chars.lean).
-/
namespace Dom.Tree

/-- Not part of the code: the memory together with the answers `room` to all requests for blocks to come; `time` counts
the requests made. -/
structure Tight where
  w : World
  room : Nat → Bool
  time : Nat

/-- Not part of the code: how a call ends, see `Res`. -/
inductive TRes (α : Type)
  | ok (s : Tight) (a : α)
  | exc (s : Tight) (e : Exc)
  | fault (f : Fault)

/-- A modelled C function that may be refused memory. -/
abbrev L (α : Type) := Tight → TRes α

/-- Sequencing, see `M.bind`. -/
def L.bind {α β : Type} (x : L α) (f : α → L β) : L β := fun s =>
  match x s with
  | .ok s' a => f a s'
  | .exc s' e => .exc s' e
  | .fault g => .fault g

instance : Monad L where
  pure a := fun s => .ok s a
  bind := L.bind

/-- A part of a function that makes no request. -/
def lift {α : Type} (x : M α) : L α := fun s =>
  match x s.w with
  | .ok w a => .ok { s with w := w } a
  | .exc w e => .exc { s with w := w } e
  | .fault f => .fault f

/-- A call whose error is not looked at. -/
def ignore (x : L Unit) : L Unit := fun s =>
  match x s with
  | .exc s' _ => .ok s' ()
  | r => r

/-- `fire` in a memory that may run out: the event itself is the first thing that is asked for, src/events/dispatch.c:37-39,
:86-88 and :226-228. -/
def fireT (doc : Option NodeId) (ev : Ev) : L Unit := fun s =>
  if s.room s.time then lift (fire doc ev) { s with time := s.time + 1 }
  else .exc { s with time := s.time + 1 } .noMem

/-- src/core/node.c:2665-2686, see `walkLoop`. -/
def walkLoopT (doc : Option NodeId) (node : NodeId) (kind : EvKind) : Nat → WalkState → L Unit
  | _, .down none => pure ()
  | 0, _ => lift (M.crash .diverge)
  | fuel + 1, .down (some t) => do
      fireT doc { kind := kind, target := t }
      let tn ← lift (getNode t)
      if tn.first.isSome then walkLoopT doc node kind fuel (.down tn.first)
      else if tn.next.isSome then walkLoopT doc node kind fuel (.down tn.next)
      else walkLoopT doc node kind fuel (.up t tn.parent)
  | fuel + 1, .up t p => do
      if p = some node then
        let tn ← lift (getNode t)
        walkLoopT doc node kind fuel (.down tn.next)
      else
        let p ← lift (deref p)
        let pn ← lift (getNode p)
        if pn.last = some t then walkLoopT doc node kind fuel (.up p pn.parent)
        else
          let tn ← lift (getNode t)
          walkLoopT doc node kind fuel (.down tn.next)

/-- `_dom_node_dispatch_node_change_event`, src/core/node.c:2651-2689. -/
def dispatchNodeChangeT (doc : Option NodeId) (node : NodeId) (related : Option NodeId) (c : Change) : L Unit := do
  fireT doc { kind := c.atNode, target := node, related := related }
  let n ← lift (getNode node)
  let b ← lift bound
  walkLoopT doc node c.below (2 * b) (.down n.first)

/-- `_dom_dispatch_subtree_modified_event`, src/events/dispatch.c:216-245. -/
def fireSubtreeModifiedT (doc : Option NodeId) (target : NodeId) : L Unit :=
  fireT doc { kind := .subtreeModified, target := target, related := some target }

/-- Loop of `_dom_node_attach_range`, src/core/node.c:2134-2147. -/
def attachLoopT (doc : Option NodeId) (parent last : NodeId) : Nat → Option NodeId → L Unit
  | fuel, cur => do
      let l ← lift (getNode last)
      if cur = l.next then pure ()
      else
        match fuel with
        | 0 => lift (M.crash .diverge)
        | fuel + 1 => do
            let n ← lift (deref cur)
            lift (modNode n fun x => { x with parent := some parent })
            dispatchNodeChangeT doc n (some parent) .addition
            let x ← lift (getNode n)
            attachLoopT doc parent last fuel x.next

/-- The links that `_dom_node_attach_range` makes before it raises events, src/core/node.c:2117-2132. -/
def attachLinks (first last parent : NodeId) (previous next : Option NodeId) : M (Option NodeId × Nat) := do
  modNode first fun n => { n with prev := previous }
  modNode last fun n => { n with next := next }
  linkFwd previous (some parent) (some first)
  linkBack next (some parent) (some last)
  let p ← getNode parent
  let d ← deref p.owner
  let _ ← getNode d
  let b ← bound
  pure (p.owner, b)

/-- `_dom_node_attach_range`, src/core/node.c:2107-2156.  An event that is refused ends it, and what is linked stays
linked. -/
def attachRangeT (first last parent : NodeId) (previous next : Option NodeId) : L Unit := do
  let p ← lift (attachLinks first last parent previous next)
  attachLoopT p.1 parent last p.2 (some first)
  fireSubtreeModifiedT p.1 parent

/-- The links that `_dom_node_detach` changes before it raises events, src/core/node.c:2090 and :2174-2182. -/
def detachLinks (node : NodeId) : M Node := do
  markPending node
  let n ← getNode node
  linkFwd n.prev n.parent n.next
  linkBack n.next n.parent n.prev
  pure n

/-- `n->parent = NULL;` and the node at which `DOMSubtreeModified` is raised, src/core/node.c:2190-2194. -/
def detachParent (node : NodeId) (parent : Option NodeId) : M (NodeId × Option NodeId) := do
  modNode node fun x => { x with parent := none }
  let par ← deref parent
  let pn ← getNode par
  pure (par, pn.owner)

/-- `_dom_node_detach`, src/core/node.c:2086-2093, with `_dom_node_detach_range`, src/core/node.c:2166-2201: the errors of
the events are not looked at (:2187-2194), and `_dom_node_detach` has no result. -/
def detachT (node : NodeId) : L Unit := do
  let n ← lift (detachLinks node)
  ignore (dispatchNodeChangeT n.owner node n.parent .removal)
  let par ← lift (detachParent node n.parent)
  ignore (fireSubtreeModifiedT par.2 par.1)
  lift (do
    modNode node fun x => { x with prev := none }
    modNode node fun x => { x with next := none })

/-- src/core/node.c:792-797 and 946-951, see `takeOut`. -/
def takeOutT (new : NodeId) : L Unit := do
  let n ← lift (getNode new)
  match n.parent with
  | none => pure ()
  | some q => do
      let ro ← lift (readonly q)
      lift (throwIf ro .noModificationAllowed)
      detachT new

/-- Insert the children of a DocumentFragment, src/core/node.c:806-825.  If an event is refused, the fragment keeps its pointers
to the children. -/
def insertFragmentT (node new : NodeId) (refChild : Option NodeId) : L Unit := do
  let f ← lift (getNode new)
  let b ← lift bound
  let ok ← lift (allPermitted node b f.first)
  lift (throwIf (!ok) .hierarchyRequest)
  match f.first with
  | none => pure ()
  | some fst => do
      let pt ← lift (insertPoint node refChild)
      let lst ← lift (deref f.last)
      attachRangeT fst lst node pt refChild
      lift (do
        modNode new fun x => { x with first := none }
        modNode new fun x => { x with last := none })

/-- The end of `_dom_node_insert_before`, src/core/node.c:839-853. -/
def insertEnd (node new : NodeId) (nw nd : Node) : M NodeId := do
  (if nd.type = .document ∧ nw.type = .doctype then
     modNode new fun x => { x with owner := some node }
   else pure ())
  ref new
  pure new

/-- The part of `_dom_node_insert_before` after the early exits, src/core/node.c:790-853. -/
def insertDoT (node new : NodeId) (refChild : Option NodeId) (nw nd : Node) : L NodeId := do
  takeOutT new
  lift (removePending new)
  (if nw.type = .fragment then insertFragmentT node new refChild
   else do
     let pt ← lift (insertPoint node refChild)
     attachRangeT new new node pt refChild)
  lift (insertEnd node new nw nd)

/-- The early exits of `_dom_node_insert_before`, src/core/node.c:756-780; the two nodes. -/
def insertChecks (node new : NodeId) (refChild : Option NodeId) : M (Node × Node) := do
  let nw ← getNode new
  let nd ← getNode node
  throwIf (wrongDocument nw nd) .wrongDocument
  let ro ← readonly node
  throwIf ro .noModificationAllowed
  let nf ← notChildOf node refChild
  throwIf nf .notFound
  let anc ← isSelfOrAncestor new node
  throwIf anc .hierarchyRequest
  let np ← notPermitted node new nw
  throwIf np .hierarchyRequest
  pure (nw, nd)

/-- `_dom_node_insert_before`, src/core/node.c:746-854. -/
def insertBeforeT (node new : NodeId) (refChild : Option NodeId) : L NodeId := do
  let p ← lift (insertChecks node new refChild)
  if refChild = some new then lift (do
    ref new
    pure new)
  else insertDoT node new refChild p.1 p.2

/-- `_dom_node_append_child`, src/core/node.c:1060-1066. -/
def appendChildT (node new : NodeId) : L NodeId := insertBeforeT node new none

/-- The part of `_dom_node_replace_child` after the early exits, src/core/node.c:944-966. -/
def replaceDoT (new old : NodeId) : L NodeId := do
  takeOutT new
  lift (do
    removePending new
    replaceNode old new
    ref old
    markPending old
    pure old)

/-- The early exits of `_dom_node_replace_child`, src/core/node.c:896-934. -/
def replaceChecks (node new old : NodeId) : M Unit := do
  let nd ← getNode node
  let nw ← getNode new
  throwIf (nd.type = .document && (nw.type = .doctype || nw.type = .element)) .notSupported
  throwIf (nw.owner ≠ nd.owner) .wrongDocument
  let ro ← readonly node
  throwIf ro .noModificationAllowed
  let nf ← notChildOf node (some old)
  throwIf nf .notFound
  let anc ← isSelfOrAncestor new node
  throwIf anc .hierarchyRequest
  let ok ← replacePermitted node new nw
  throwIf (!ok) .hierarchyRequest

/-- `_dom_node_replace_child`, src/core/node.c:889-967. -/
def replaceChildT (node new old : NodeId) : L NodeId := do
  lift (replaceChecks node new old)
  if new = old then lift (do
    ref old
    pure old)
  else replaceDoT new old

/-- The early exits of `_dom_node_remove_child`, src/core/node.c:995-1006; the owner. -/
def removeChecks (node old : NodeId) : M (Option NodeId) := do
  let nd ← getNode node
  let o ← getNode old
  throwIf (nd.type = .document && (o.type = .doctype || o.type = .element)) .notSupported
  throwIf (o.parent ≠ some node) .notFound
  let ro ← readonly node
  throwIf ro .noModificationAllowed
  pure nd.owner

/-- `_dom_node_remove_child`, src/core/node.c:987-1032, with the simplification of `removeChild`.  If the last event is refused, `*result`
has been set and the reference taken (:1021-1023). -/
def removeChildT (node old : NodeId) : L NodeId := do
  let d ← lift (removeChecks node old)
  dispatchNodeChangeT d old (some node) .removal
  detachT old
  lift (ref old)
  fireSubtreeModifiedT d node
  pure old

end Dom.Tree
