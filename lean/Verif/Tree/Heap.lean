import Verif.Str.Model
/-!
# The heap of DOM nodes

A node is named by a number (its address).  A world maps live addresses to node records; an address that
is not mapped has been released or was never allocated, and touching it is the fault `useAfterFree`.
-/
namespace Dom.Tree

open Dom.Str (DStr)

/-- Address of a `dom_node_internal` (src/core/node.h:54). -/
abbrev NodeId := Nat

/-- `dom_node_type`, include/dom/core/node.h:56-72. -/
inductive NodeType
  | element | attribute | text | cdata | entityRef | entity | pi | comment | document | doctype
  | fragment | notation_
  deriving DecidableEq, Repr

/-- One entry of an element's attribute list, `struct dom_attr_list`, src/core/element.c:45-53.  The circular
list is represented by the order of its entries. -/
structure AttrEntry where
  name : DStr
  ns : Option DStr
  node : NodeId
  deriving DecidableEq, Repr

/-- The fields of `struct dom_node_internal` (src/core/node.h:54-81) that the tree code reads or writes.

* `pendingIn = some d` says that the node's `pending_list` is linked into `pending_nodes` of document `d`;
  `none` says it is linked to itself only.  The order within the pending list is not represented: no code
  depends on it.
* `attrRO` is `read_only` of `struct dom_attr` (src/core/attr.c:43), `host` the field of
  `struct dom_document_fragment` (src/core/doc_fragment.h), `attrs` the list `attributes` of
  `struct dom_element` (src/core/element.h).
* Not represented: `user_data`, `eti` (event listeners; modelled apart), `embedder_data`. -/
structure Node where
  type : NodeType
  name : Option DStr := none
  value : Option DStr := none
  ns : Option DStr := none
  pfx : Option DStr := none
  parent : Option NodeId := none
  first : Option NodeId := none
  last : Option NodeId := none
  prev : Option NodeId := none
  next : Option NodeId := none
  owner : Option NodeId := none
  refcnt : Nat := 1
  pendingIn : Option NodeId := none
  attrRO : Bool := false
  host : Option NodeId := none
  attrs : List AttrEntry := []
  deriving DecidableEq, Repr

/-- The event types that the tree code fires by itself (src/events/dispatch.c:26-245). -/
inductive EvKind
  | nodeInserted | nodeRemoved | insertedIntoDocument | removedFromDocument
  | attrModified | characterDataModified | subtreeModified
  deriving DecidableEq, Repr

/-- One mutation event handed to `dom_event_target_dispatch_event`. -/
structure Ev where
  kind : EvKind
  target : NodeId
  related : Option NodeId := none
  prevValue : Option DStr := none
  newValue : Option DStr := none
  deriving DecidableEq, Repr

/-- The whole memory: the live nodes, the next address an allocation returns (a device of the model: it
bounds every live address), and the mutation events fired so far, oldest first. -/
structure World where
  nodes : NodeId → Option Node
  fresh : Nat
  log : List Ev

/-- Result of running a modelled C function: it returns normally, it returns a `dom_exception` (the memory
may have been changed before), or it runs into undefined behaviour. -/
inductive Res (α : Type)
  | ok (w : World) (a : α)
  | exc (w : World) (e : Exc)
  | fault (f : Fault)

/-- A modelled C function. -/
abbrev M (α : Type) := World → Res α

namespace M

/-- Sequencing; a `dom_exception` makes the callers modelled here return too. -/
def bind {α β : Type} (m : M α) (f : α → M β) : M β := fun w =>
  match m w with
  | .ok w' a => f a w'
  | .exc w' e => .exc w' e
  | .fault g => .fault g

instance : Monad M where
  pure a := fun w => .ok w a
  bind := bind

/-- `return DOM_..._ERR;` -/
def throw {α : Type} (e : Exc) : M α := fun w => .exc w e

/-- Undefined behaviour. -/
def crash {α : Type} (f : Fault) : M α := fun _ => .fault f

end M

/-- Read access to a node. -/
def getNode (i : NodeId) : M Node := fun w =>
  match w.nodes i with
  | some n => .ok w n
  | none => .fault .useAfterFree

/-- Write access to a node. -/
def modNode (i : NodeId) (f : Node → Node) : M Unit := fun w =>
  match w.nodes i with
  | some n => .ok { w with nodes := fun j => if j = i then some (f n) else w.nodes j } ()
  | none => .fault .useAfterFree

/-- Use of a pointer that must not be NULL. -/
def deref (p : Option NodeId) : M NodeId :=
  match p with
  | some i => pure i
  | none => M.crash .nullDeref

/-- `assert(b)`. -/
def cassert (b : Bool) : M Unit := if b then pure () else M.crash .assertFail

/-- `if (b) return DOM_..._ERR;` -/
def throwIf (b : Bool) (e : Exc) : M Unit := if b then M.throw e else pure ()

/-- Iteration bound used for the loops of the C code that follow pointers.  Every live address is below
`fresh`, so a loop over distinct nodes ends before the bound; reaching it is the fault `diverge`. -/
def bound : M Nat := fun w => .ok w (w.fresh + 1)

/-- `malloc` of a node followed by filling it; allocation failure is not modelled. -/
def alloc (n : Node) : M NodeId := fun w =>
  .ok { w with nodes := fun j => if j = w.fresh then some n else w.nodes j, fresh := w.fresh + 1 } w.fresh

/-- `free`. -/
def freeNode (i : NodeId) : M Unit := fun w =>
  match w.nodes i with
  | some _ => .ok { w with nodes := fun j => if j = i then none else w.nodes j } ()
  | none => .fault .useAfterFree

end Dom.Tree
