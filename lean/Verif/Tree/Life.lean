import Verif.Tree.Model
import Verif.Names.Model
/-!
# Reference counts and destruction: src/core/node.c, src/core/document.c, src/core/element.c, src/core/doc_fragment.c

`kill` stands for the virtual `dom_node_destroy` of the nodes below; `destroy` ties the knot.  Simplifications that hold for this whole file:
* user data handlers and event listeners are not called (user data is modelled in Verif/User, listeners in Verif/Events);
* strings are not released;
* documents are plain documents: the tables of strings of HTML documents (src/html/html_document.c:202-238) are not represented here;
* the attribute list is its entries in order (the ring is modelled in Verif/Attr).
-/
namespace Dom.Tree

/-- `_dom_node_try_destroy`, src/core/node.c:2304-2320. -/
def tryDestroy (kill : NodeId → M Unit) (x : NodeId) : M Unit := do
  let n ← getNode x
  if n.parent.isNone then
    (if n.refcnt = 0 then kill x
     else if n.pendingIn.isNone then do
       let d ← deref n.owner
       let _ ← getNode d
       modNode x fun n => { n with pendingIn := some d }
     else pure ())
  else pure ()

/-- `dom_node_unref`, include/dom/core/node.h:195-202, for a non-NULL node. -/
def unrefWith (kill : NodeId → M Unit) (x : NodeId) : M Unit := do
  let n ← getNode x
  modNode x fun n => { n with refcnt := sub32 n.refcnt 1 }
  if sub32 n.refcnt 1 = 0 then tryDestroy kill x else pure ()

/-- The loop over the children in `_dom_node_finalise`, src/core/node.c:253-260. -/
def killLoop (kill : NodeId → M Unit) : Nat → Option NodeId → M Unit
  | _, none => pure ()
  | 0, some _ => M.crash .diverge
  | fuel + 1, some p => do
      let n ← getNode p
      modNode p fun x => { x with parent := none }
      tryDestroy kill p
      killLoop kill fuel n.next

/-- `_dom_document_try_destroy`, src/core/document.c:1568-1574.  It calls `_dom_document_destroy`, which for the plain documents of this model is
the virtual destroy function. -/
def docTryDestroy (kill : NodeId → M Unit) (d : NodeId) : M Unit := do
  let n ← getNode d
  if n.refcnt ≠ 0 ∨ n.parent.isSome then pure () else kill d

/-- `_dom_node_finalise`, src/core/node.c:224-298. -/
def finalise (kill : NodeId → M Unit) (x : NodeId) : M Unit := do
  let n ← getNode x
  let b ← bound
  killLoop kill b n.first
  modNode x fun n => { n with name := none, value := none, ns := none, pfx := none, parent := none, first := none, last := none, prev := none, next := none }
  let n ← getNode x
  match n.pendingIn with
  | none => pure ()
  | some _ => do
      modNode x fun n => { n with pendingIn := none }
      match n.owner with
      | none => pure ()
      | some d => if n.type ≠ .document then docTryDestroy kill d else pure ()

/-- One round of `_dom_element_attr_list_destroy`, src/core/element.c:363-380: `_dom_element_attr_list_node_destroy`, src/core/element.c:276-304.
`_dom_element_destroy_classes` writes to the element only. -/
def attrKill (kill : NodeId → M Unit) (e : AttrEntry) : M Unit := do
  let a ← getNode e.node
  let d ← deref a.owner
  let _ ← getNode d
  (if e.ns.isNone ∧ e.name.data = (Names.lit "class").data then do
     let p ← deref a.parent
     let _ ← getNode p
     pure ()
   else pure ())
  modNode e.node fun n => { n with parent := none }
  tryDestroy kill e.node

/-- `_dom_element_attr_list_destroy`, src/core/element.c:363-380. -/
def attrKillLoop (kill : NodeId → M Unit) : List AttrEntry → M Unit
  | [] => pure ()
  | e :: l => do
      attrKill kill e
      attrKillLoop kill l

/-- `doc->pending_nodes.next != &doc->pending_nodes`, src/core/document.c:333. -/
def docPending (w : World) (d : NodeId) : Bool := (List.range w.fresh).any fun j => (w.nodes j).any fun n => n.pendingIn = some d

/-- `_dom_document_destroy`, src/core/document.c:1288-1295, with `_dom_document_finalise`, src/core/document.c:318-364. -/
def docDestroy (kill : NodeId → M Unit) (d : NodeId) : M Unit := do
  finalise kill d
  let pend ← (fun w => .ok w (docPending w d) : M Bool)
  if pend then pure () else freeNode d

/-- The destroy functions: `_dom_document_destroy`; `_dom_element_destroy` and `_dom_element_finalise`, src/core/element.c:616-648;
`_dom_document_fragment_destroy`, src/core/doc_fragment.c:79-89; all others finalise the node and free it (src/core/text.c:111-118, attr.c:177-182,
cdatasection.c:76-83, comment.c:78-85, document_type.c:99-108, pi.c:83-90, entity_ref.c). -/
def destroyBody (kill : NodeId → M Unit) (x : NodeId) : M Unit := do
  let n ← getNode x
  match n.type with
  | .document => docDestroy kill x
  | .element => do
      attrKillLoop kill n.attrs
      modNode x fun n => { n with attrs := [] }
      finalise kill x
      freeNode x
  | .fragment => do
      finalise kill x
      let n ← getNode x
      (match n.host with
       | none => pure ()
       | some h => unrefWith kill h)
      freeNode x
  | _ => do
      finalise kill x
      freeNode x

/-- The virtual `dom_node_destroy`.  The bound on the nesting is a device of the model. -/
def destroy : Nat → NodeId → M Unit
  | 0, _ => M.crash .diverge
  | fuel + 1, x => destroyBody (destroy fuel) x

/-- `dom_node_unref`, include/dom/core/node.h:195-202, for a non-NULL node. -/
def unref (x : NodeId) : M Unit := do
  let b ← bound
  unrefWith (destroy (b + 1)) x

/-- `_dom_element_set_attr_node`, src/core/element.c:1890-2030, for an attribute whose name the element does not have yet: the checks, then the
entry at the end of the list.  Simplified: the events are left out. -/
def putAttr (e a : NodeId) (name : Str.DStr) (ns : Option Str.DStr) : M Unit := do
  let en ← getNode e
  let an ← getNode a
  throwIf (decide (en.owner ≠ an.owner)) .wrongDocument
  let ro ← readonly e
  throwIf ro .noModificationAllowed
  throwIf (an.parent.isSome && decide (an.parent ≠ some e)) .inuseAttribute
  modNode a fun n => { n with parent := some e }
  removePending a
  modNode e fun n => { n with attrs := n.attrs ++ [{ name := name, ns := ns, node := a }] }

/-- The six functions that return a neighbour of a node. -/
inductive Dir
  | parent | first | last | prev | next | owner

/-- What they return: src/core/node.c:517-533 (parent), 570-580 (first child), 593-603 (last child), 616-632 (previous sibling), 645-661 (next sibling),
695-713 (owner document). -/
def Dir.target (k : Dir) (n : Node) : Option NodeId :=
  match k with
  | .parent => if n.type = .attribute then none else n.parent
  | .first => n.first
  | .last => n.last
  | .prev => if n.type = .attribute then none else n.prev
  | .next => if n.type = .attribute then none else n.next
  | .owner => if n.type = .document then none else n.owner

/-- The same functions: the node that is returned is referenced. -/
def visit (k : Dir) (x : NodeId) : M (Option NodeId) := do
  let n ← getNode x
  match k.target n with
  | none => pure none
  | some y => do
      ref y
      pure (some y)

end Dom.Tree
