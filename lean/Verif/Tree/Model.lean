import Verif.Tree.Heap
/-!
# src/core/node.c: the tree-changing functions

Simplifications that hold for this whole file:
* Firing a mutation event appends it to the log of the world.  What listeners do is not modelled: a listener
  is assumed not to change the tree and not to make the dispatch fail.
* `script_added_callback` (node.c:2131-2146) is taken to be NULL.
* Reference counts of strings are not modelled.
-/
namespace Dom.Tree

/-- `dom_node_ref`, include/dom/core/node.h:178-184, for a non-NULL node. -/
def ref (i : NodeId) : M Unit := modNode i fun n => { n with refcnt := u32 (n.refcnt + 1) }

/-- `dom_document *doc` dereferenced to fetch an event type (e.g. src/events/dispatch.c:42), then the event is
dispatched at `ev.target`.  For a target without owner document `_dom_node_dispatch_event` returns at once
(src/core/node.c:2481-2486), so nothing is logged. -/
def fire (doc : Option NodeId) (ev : Ev) : M Unit := do
  let d ← deref doc
  let _ ← getNode d
  let t ← getNode ev.target
  if t.owner.isSome then
    fun w => .ok { w with log := w.log ++ [ev] } ()
  else
    pure ()

/-- Loop of `_dom_node_dispatch_node_change_event`, src/core/node.c:2665-2686, as a state machine: `down t` is
the head of the outer loop with `target = t`, `up t p` the head of the inner loop with `target = t` and
`parent = p`. -/
inductive WalkState
  | down (target : Option NodeId)
  | up (target : NodeId) (parent : Option NodeId)

/-- src/core/node.c:2665-2686. -/
def walkLoop (doc : Option NodeId) (node : NodeId) (kind : EvKind) : Nat → WalkState → M Unit
  | _, .down none => pure ()
  | 0, _ => M.crash .diverge
  | fuel + 1, .down (some t) => do
      fire doc { kind := kind, target := t }
      let tn ← getNode t
      if tn.first.isSome then walkLoop doc node kind fuel (.down tn.first)
      else if tn.next.isSome then walkLoop doc node kind fuel (.down tn.next)
      else walkLoop doc node kind fuel (.up t tn.parent)
  | fuel + 1, .up t p => do
      if p = some node then
        let tn ← getNode t
        walkLoop doc node kind fuel (.down tn.next)
      else
        let p ← deref p
        let pn ← getNode p
        if pn.last = some t then walkLoop doc node kind fuel (.up p pn.parent)
        else
          let tn ← getNode t
          walkLoop doc node kind fuel (.down tn.next)

/-- `dom_mutation_type` as far as node changes go (ADDITION or REMOVAL). -/
inductive Change
  | addition | removal
  deriving DecidableEq, Repr

/-- Event type at the changed node, src/events/dispatch.c:41-45. -/
def Change.atNode : Change → EvKind
  | .addition => .nodeInserted
  | .removal => .nodeRemoved

/-- Event type at the nodes below, src/events/dispatch.c:90-94. -/
def Change.below : Change → EvKind
  | .addition => .insertedIntoDocument
  | .removal => .removedFromDocument

/-- `_dom_node_dispatch_node_change_event`, src/core/node.c:2651-2689. -/
def dispatchNodeChange (doc : Option NodeId) (node : NodeId) (related : Option NodeId) (c : Change) :
    M Unit := do
  fire doc { kind := c.atNode, target := node, related := related }
  let n ← getNode node
  let b ← bound
  walkLoop doc node c.below (2 * b) (.down n.first)

/-- `_dom_dispatch_subtree_modified_event`, src/events/dispatch.c:216-245. -/
def fireSubtreeModified (doc : Option NodeId) (target : NodeId) : M Unit :=
  fire doc { kind := .subtreeModified, target := target, related := some target }

/-- Does one of the nodes on the parent chain starting at `cur` satisfy `p`?  Shape of the loops
src/core/node.c:772-775, 914-917 and 2055-2059. -/
def anyAncestor (p : NodeId → Node → Bool) : Nat → Option NodeId → M Bool
  | _, none => pure false
  | 0, some _ => M.crash .diverge
  | fuel + 1, some i => do
      let n ← getNode i
      if p i n then pure true else anyAncestor p fuel n.parent

/-- Does one of the nodes on the sibling chain starting at `cur` satisfy `p`?  Shape of the loops
src/core/node.c:2011-2015, 2022-2026. -/
def anySibling (p : NodeId → Node → Bool) : Nat → Option NodeId → M Bool
  | _, none => pure false
  | 0, some _ => M.crash .diverge
  | fuel + 1, some i => do
      let n ← getNode i
      if p i n then pure true else anySibling p fuel n.next

/-- Node types accepted under a parent of type `parent`, the `switch` of `_dom_node_permitted_child`,
src/core/node.c:1973-2005. -/
def permittedType (parent child : NodeType) : Bool :=
  match parent with
  | .element | .entityRef | .entity | .fragment =>
      child = .element || child = .text || child = .comment || child = .pi || child = .cdata ||
      child = .entityRef
  | .attribute => child = .text || child = .entityRef
  | .text | .cdata | .pi | .comment | .doctype | .notation_ => false
  | .document => child = .element || child = .pi || child = .comment || child = .doctype

/-- `_dom_node_permitted_child`, src/core/node.c:1966-2033. -/
def permittedChild (parent child : NodeId) : M Bool := do
  let p ← getNode parent
  let c ← getNode child
  let valid := permittedType p.type c.type
  if p.type = .document then
    let b ← bound
    let twoRoots ←
      if c.type = .element then anySibling (fun _ n => n.type = .element) b p.first else pure false
    let twoTypes ←
      if c.type = .doctype then anySibling (fun _ n => n.type = .doctype) b p.first else pure false
    pure (valid && !twoRoots && !twoTypes)
  else
    pure valid

/-- `_dom_node_readonly`, src/core/node.c:2040-2063; for an attribute `_dom_attr_readonly`,
src/core/attr.c:837-840. -/
def readonly (node : NodeId) : M Bool := do
  let n ← getNode node
  if n.type = .doctype || n.type = .notation_ then pure true
  else if n.type = .attribute then pure n.attrRO
  else
    let b ← bound
    anyAncestor (fun _ n => n.type = .entity || n.type = .entityRef) b (some node)

/-- `_dom_node_mark_pending`, src/core/node.c:2328-2342. -/
def markPending (node : NodeId) : M Unit := do
  let n ← getNode node
  match n.owner with
  | none => pure ()
  | some d =>
      cassert n.pendingIn.isNone
      let _ ← getNode d
      modNode node fun n => { n with pendingIn := some d }

/-- `_dom_node_remove_pending`, src/core/node.c:2350-2360. -/
def removePending (node : NodeId) : M Unit := do
  let n ← getNode node
  match n.owner with
  | none => pure ()
  | some _ =>
      cassert n.pendingIn.isSome
      modNode node fun n => { n with pendingIn := none }

/-- Loop of `_dom_node_attach_range`, src/core/node.c:2134-2147. -/
def attachLoop (doc : Option NodeId) (parent last : NodeId) : Nat → Option NodeId → M Unit
  | fuel, cur => do
      let l ← getNode last
      if cur = l.next then pure ()
      else
        match fuel with
        | 0 => M.crash .diverge
        | fuel + 1 => do
            let n ← deref cur
            modNode n fun x => { x with parent := some parent }
            dispatchNodeChange doc n (some parent) .addition
            let x ← getNode n
            attachLoop doc parent last fuel x.next

/-- `if (p != NULL) p->next = v; else parent->first_child = v;`, src/core/node.c:2120-2123, 2174-2177 and
2247-2250. -/
def linkFwd (p parent v : Option NodeId) : M Unit :=
  match p with
  | some p => modNode p fun n => { n with next := v }
  | none => do
      let q ← deref parent
      modNode q fun n => { n with first := v }

/-- `if (p != NULL) p->previous = v; else parent->last_child = v;`, src/core/node.c:2125-2128, 2179-2182 and
2252-2255. -/
def linkBack (p parent v : Option NodeId) : M Unit :=
  match p with
  | some p => modNode p fun n => { n with prev := v }
  | none => do
      let q ← deref parent
      modNode q fun n => { n with last := v }

/-- `_dom_node_attach_range`, src/core/node.c:2107-2156. -/
def attachRange (first last parent : NodeId) (previous next : Option NodeId) : M Unit := do
  modNode first fun n => { n with prev := previous }
  modNode last fun n => { n with next := next }
  linkFwd previous (some parent) (some first)
  linkBack next (some parent) (some last)
  let p ← getNode parent
  let d ← deref p.owner
  let _ ← getNode d
  let b ← bound
  attachLoop p.owner parent last b (some first)
  fireSubtreeModified p.owner parent

/-- `_dom_node_attach`, src/core/node.c:2074-2079. -/
def attach (node parent : NodeId) (previous next : Option NodeId) : M Unit :=
  attachRange node node parent previous next

/-- `_dom_node_detach`, src/core/node.c:2086-2093, with `_dom_node_detach_range`, src/core/node.c:2166-2201,
for the one-node range that every caller uses (the loop 2185-2191 runs once). -/
def detach (node : NodeId) : M Unit := do
  markPending node
  let n ← getNode node
  linkFwd n.prev n.parent n.next
  linkBack n.next n.parent n.prev
  dispatchNodeChange n.owner node n.parent .removal
  modNode node fun x => { x with parent := none }
  let par ← deref n.parent
  let pn ← getNode par
  fireSubtreeModified pn.owner par
  modNode node fun x => { x with prev := none }
  modNode node fun x => { x with next := none }

/-- Ensure every node on the sibling chain from `cur` is permitted below `parent`: the loops
src/core/node.c:808-810 and 925-930. -/
def allPermitted (parent : NodeId) : Nat → Option NodeId → M Bool
  | _, none => pure true
  | 0, some _ => M.crash .diverge
  | fuel + 1, some c => do
      let ok ← permittedChild parent c
      if ok then
        let n ← getNode c
        allPermitted parent fuel n.next
      else pure false

/-- `new_child` is `node` or one of its ancestors, src/core/node.c:772-775 and 914-917. -/
def isSelfOrAncestor (new node : NodeId) : M Bool := do
  let b ← bound
  anyAncestor (fun i _ => i = new) b (some node)

/-- If `new_child` has a parent, take it out of there unless that parent is read-only: src/core/node.c:792-797
and 946-951. -/
def takeOut (new : NodeId) : M Unit := do
  let n ← getNode new
  match n.parent with
  | none => pure ()
  | some q => do
      let ro ← readonly q
      throwIf ro .noModificationAllowed
      detach new

/-- The position `previous` handed to `_dom_node_attach`, src/core/node.c:816-817 and 829-830. -/
def insertPoint (node : NodeId) (refChild : Option NodeId) : M (Option NodeId) :=
  match refChild with
  | none => do let n ← getNode node; pure n.last
  | some r => do let n ← getNode r; pure n.prev

/-- `ref_child != NULL && ref_child->parent != node`, src/core/node.c:768. -/
def notChildOf (node : NodeId) (refChild : Option NodeId) : M Bool :=
  match refChild with
  | none => pure false
  | some r => do let n ← getNode r; pure (decide (n.parent ≠ some node))

/-- The test of owner documents, src/core/node.c:756-760. -/
def wrongDocument (nw nd : Node) : Bool :=
  (nw.type = .doctype && nw.owner.isSome && nw.owner ≠ nd.owner) ||
  (nw.type ≠ .doctype && nw.owner ≠ nd.owner)

/-- `new_child->type != DOM_DOCUMENT_FRAGMENT_NODE && !_dom_node_permitted_child(node, new_child)`,
src/core/node.c:778-779. -/
def notPermitted (node new : NodeId) (nw : Node) : M Bool :=
  if nw.type = .fragment then pure false
  else do let p ← permittedChild node new; pure (!p)

/-- Insert the children of a DocumentFragment, src/core/node.c:806-825. -/
def insertFragment (node new : NodeId) (refChild : Option NodeId) : M Unit := do
  let f ← getNode new
  let b ← bound
  let ok ← allPermitted node b f.first
  throwIf (!ok) .hierarchyRequest
  match f.first with
  | none => pure ()
  | some fst => do
      let pt ← insertPoint node refChild
      let lst ← deref f.last
      attachRange fst lst node pt refChild
      modNode new fun x => { x with first := none }
      modNode new fun x => { x with last := none }

/-- The part of `_dom_node_insert_before` after the early exits, src/core/node.c:790-853. -/
def insertDo (node new : NodeId) (refChild : Option NodeId) (nw nd : Node) : M NodeId := do
  takeOut new
  removePending new
  (if nw.type = .fragment then insertFragment node new refChild
   else do
     let pt ← insertPoint node refChild
     attach new node pt refChild)
  (if nd.type = .document ∧ nw.type = .doctype then
     modNode new fun x => { x with owner := some node }
   else pure ())
  ref new
  pure new

/-- `_dom_node_insert_before`, src/core/node.c:746-854. -/
def insertBefore (node new : NodeId) (refChild : Option NodeId) : M NodeId := do
  let nw ← getNode new
  let nd ← getNode node
  throwIf (wrongDocument nw nd) .wrongDocument
  let ro ← readonly node
  throwIf ro .noModificationAllowed
  let nf ← notChildOf node refChild
  throwIf nf .notFound
  let anc ← isSelfOrAncestor new node
  throwIf anc .hierarchyRequest
  let np ← notPermitted node new nw
  throwIf np .hierarchyRequest
  if refChild = some new then do
    ref new
    pure new
  else insertDo node new refChild nw nd

/-- `_dom_node_append_child`, src/core/node.c:1060-1066. -/
def appendChild (node new : NodeId) : M NodeId := insertBefore node new none

/-- Loop of `_dom_node_replace`, src/core/node.c:2257-2259. -/
def replaceLoop (par : Option NodeId) (last : NodeId) : Nat → Option NodeId → M Unit
  | fuel, cur => do
      match cur with
      | none => pure ()
      | some n => do
          let l ← getNode last
          if cur = l.next then pure ()
          else
            match fuel with
            | 0 => M.crash .diverge
            | fuel + 1 => do
                modNode n fun x => { x with parent := par }
                let x ← getNode n
                replaceLoop par last fuel x.next

/-- The range `first`..`last` that replaces the old node, src/core/node.c:2221-2229. -/
def replacementRange (replacement : NodeId) : M (Option NodeId × Option NodeId) := do
  let r ← getNode replacement
  if r.type = .fragment then do
    modNode replacement fun x => { x with first := none, last := none }
    pure (r.first, r.last)
  else pure (some replacement, some replacement)

/-- `_dom_node_replace` when there is nothing to put in the place of the old node, src/core/node.c:2231-2241. -/
def replaceByNothing (old : NodeId) : M Unit := do
  let o ← getNode old
  (if o.prev.isNone then do
     let p ← deref o.parent
     modNode p fun x => { x with first := o.next }
   else pure ())
  (if o.next.isNone then do
     let p ← deref o.parent
     modNode p fun x => { x with last := o.prev }
   else pure ())
  modNode old fun x => { x with prev := none, next := none, parent := none }

/-- `_dom_node_replace` when there is a range to put in the place of the old node,
src/core/node.c:2243-2261. -/
def replaceByRange (old fst lst : NodeId) : M Unit := do
  let o ← getNode old
  modNode fst fun x => { x with prev := o.prev }
  modNode lst fun x => { x with next := o.next }
  linkFwd o.prev o.parent (some fst)
  linkBack o.next o.parent (some lst)
  let b ← bound
  replaceLoop o.parent lst b (some fst)
  modNode old fun x => { x with prev := none, next := none, parent := none }

/-- `_dom_node_replace`, src/core/node.c:2215-2262. -/
def replaceNode (old replacement : NodeId) : M Unit := do
  let r ← replacementRange replacement
  match r.1 with
  | none => replaceByNothing old
  | some fst => do
      let lst ← deref r.2
      replaceByRange old fst lst

/-- The child checks of `_dom_node_replace_child`, src/core/node.c:920-934. -/
def replacePermitted (node new : NodeId) (nw : Node) : M Bool :=
  if nw.type = .fragment then do
    let b ← bound
    allPermitted node b nw.first
  else permittedChild node new

/-- The part of `_dom_node_replace_child` after the early exits, src/core/node.c:944-966. -/
def replaceDo (new old : NodeId) : M NodeId := do
  takeOut new
  removePending new
  replaceNode old new
  ref old
  markPending old
  pure old

/-- `_dom_node_replace_child`, src/core/node.c:889-967. -/
def replaceChild (node new old : NodeId) : M NodeId := do
  let nd ← getNode node
  let nw ← getNode new
  throwIf (nd.type = .document && (nw.type = .doctype || nw.type = .element)) .notSupported
  throwIf (nw.owner ≠ nd.owner) .wrongDocument
  let ro ← readonly node
  throwIf ro .noModificationAllowed
  let nf ← notChildOf node (some old)
  throwIf nf .notFound
  let anc ← isSelfOrAncestor new node
  throwIf anc .hierarchyRequest
  let ok ← replacePermitted node new nw
  throwIf (!ok) .hierarchyRequest
  if new = old then do
    ref old
    pure old
  else replaceDo new old

/-- Loop-free core of `_dom_node_remove_child`, src/core/node.c:987-1032.  `dom_node_try_destroy(old_child)` at
1022 finds a reference count of at least one (1021), and the node is in the pending list already (detach), so
it does nothing; it is left out here and its branches appear in `tryDestroy` (Verif/Tree/Life.lean). -/
def removeChild (node old : NodeId) : M NodeId := do
  let nd ← getNode node
  let o ← getNode old
  throwIf (nd.type = .document && (o.type = .doctype || o.type = .element)) .notSupported
  throwIf (o.parent ≠ some node) .notFound
  let ro ← readonly node
  throwIf ro .noModificationAllowed
  dispatchNodeChange nd.owner old (some node) .removal
  detach old
  ref old
  fireSubtreeModified nd.owner node
  pure old

/-- `_dom_node_has_child_nodes`, src/core/node.c:1075-1080. -/
def hasChildNodes (node : NodeId) : M Bool := do
  let n ← getNode node
  pure n.first.isSome

/-- `_dom_node_get_parent_node`, src/core/node.c:517-533. -/
def getParentNode (node : NodeId) : M (Option NodeId) := do
  let n ← getNode node
  if n.type = .attribute then pure none
  else match n.parent with
    | none => pure none
    | some p => do ref p; pure (some p)

/-- `_dom_node_get_first_child`, src/core/node.c:570-580. -/
def getFirstChild (node : NodeId) : M (Option NodeId) := do
  let n ← getNode node
  match n.first with
  | none => pure none
  | some p => do ref p; pure (some p)

/-- `_dom_node_get_last_child`, src/core/node.c:593-603. -/
def getLastChild (node : NodeId) : M (Option NodeId) := do
  let n ← getNode node
  match n.last with
  | none => pure none
  | some p => do ref p; pure (some p)

/-- `_dom_node_get_previous_sibling`, src/core/node.c:616-632. -/
def getPreviousSibling (node : NodeId) : M (Option NodeId) := do
  let n ← getNode node
  if n.type = .attribute then pure none
  else match n.prev with
    | none => pure none
    | some p => do ref p; pure (some p)

/-- `_dom_node_get_next_sibling`, src/core/node.c:645-661. -/
def getNextSibling (node : NodeId) : M (Option NodeId) := do
  let n ← getNode node
  if n.type = .attribute then pure none
  else match n.next with
    | none => pure none
    | some p => do ref p; pure (some p)

/-- `_dom_node_contains`, src/core/node.c:305-328. -/
def contains (node other : NodeId) : M Bool := do
  let a ← getNode node
  let b ← getNode other
  if a.owner ≠ b.owner then pure false
  else
    let bd ← bound
    anyAncestor (fun i _ => i = node) bd (some other)

/-- `_dom_node_initialise`, src/core/node.c:148-214, after the type-specific `malloc`, for a node other than a
Document. -/
def initNode (n : Node) : M NodeId := do
  let i ← alloc n
  markPending i
  pure i

/-- `_dom_document_create` (src/core/document.c:81-112) and `_dom_document_initialise` (115-314) as far as the
node part goes: a Document owns itself (node.c:153 with `doc` = the node) and is not put on a pending list. -/
def createDocument : M NodeId := fun w =>
  .ok { w with
        nodes := fun j => if j = w.fresh then some { type := .document, owner := some w.fresh } else w.nodes j
        fresh := w.fresh + 1 } w.fresh

/-- `_dom_document_create_*`, src/core/document.c:467-664, as far as the tree is concerned: a fresh node of the
given type, name and value, owned by `doc`. -/
def createNode (doc : NodeId) (t : NodeType) (name value : Option Str.DStr) : M NodeId :=
  initNode { type := t, name := name, value := value, owner := some doc }

/-- `dom_document_type_create`, src/core/document_type.c: a DocumentType without owner document. -/
def createDoctype (name : Option Str.DStr) : M NodeId :=
  initNode { type := .doctype, name := name }

end Dom.Tree
