import Verif.Trav.Model
/-!
# The active node lists of documents, src/core/document.c:1310-1411, src/core/nodelist.c:18-190, 405-444

A document keeps its node lists in a doubly linked list of cells; a list asked for again is shared.  Documents and root nodes occur by address
only; the references the lists hold on them are counted in `refs`.  Strings are values, their reference counts are not represented.
-/
namespace Dom.Cache

open Dom.Str (DStr)
open Dom.Tree (NodeId)
open Dom.Trav (Kind isStar eqBy)

abbrev Addr := Nat

/-- `nodelist_type`, src/core/nodelist.h. -/
inductive LType
  | children | byName | byNs | byNameCaseless | byNsCaseless
  deriving DecidableEq, Repr

/-- `struct dom_nodelist`, src/core/nodelist.c:26-49.  Of the union only the member of the type is used: `name` for the lists by name, `ns` and
`lname` for those by namespace.  `any_name`, `any_namespace` and `any_localname` are computed from the strings once (:90-117), which never
change; they are `Trav.isStar` of the string. -/
structure NList where
  owner : NodeId
  root : NodeId
  type : LType
  name : Option DStr
  ns : Option DStr
  lname : Option DStr
  refcnt : Nat
  deriving DecidableEq, Repr

/-- `struct dom_doc_nl`, src/core/document.c:37-42. -/
structure Cell where
  list : Addr
  prev : Option Addr
  next : Option Addr
  deriving DecidableEq, Repr

/-- Memory: the lists, the cells, `doc->nodelists` of each document, the references the lists hold on each node, and the number of addresses handed
out by `malloc`. -/
structure Mem where
  lists : Addr → Option NList
  cells : Addr → Option Cell
  heads : NodeId → Option Addr
  refs : NodeId → Int
  fresh : Nat

/-- Before the first list is asked for: `doc->nodelists = NULL`, src/core/document.c:143. -/
def Mem.empty : Mem := { lists := fun _ => none, cells := fun _ => none, heads := fun _ => none, refs := fun _ => 0, fresh := 0 }

/-- Replace the value at one address. -/
def upd {β : Type} (f : Nat → β) (a : Nat) (b : β) : Nat → β := fun x => if x = a then b else f x

/-- Reading a list. -/
def rdList (s : Mem) (a : Addr) : Out NList :=
  match s.lists a with
  | some l => .ok l
  | none => .fault .useAfterFree

/-- Reading a cell. -/
def rdCell (s : Mem) (a : Addr) : Out Cell :=
  match s.cells a with
  | some c => .ok c
  | none => .fault .useAfterFree

/-- `dom_node_ref` and `dom_node_unref` of a list on a node: the number of references changes by `k`.  What happens to a node without references
is part of `Verif.Tree.Life`, not of this module. -/
def Mem.addRef (s : Mem) (x : NodeId) (k : Int) : Mem := { s with refs := upd s.refs x (s.refs x + k) }

/-- `_dom_nodelist_match`, src/core/nodelist.c:416-444. -/
def listMatch (l : NList) (t : LType) (root : NodeId) (tag ns lname : Option DStr) : Bool :=
  if l.root ≠ root then false
  else if l.type ≠ t then false
  else match l.type with
    | .children => true
    | .byName => Str.isEqual l.name tag
    | .byNs => Str.isEqual l.ns ns && Str.isEqual l.lname lname
    | .byNameCaseless => Str.caselessIsEqual l.name tag
    | .byNsCaseless => Str.caselessIsEqual l.ns ns && Str.caselessIsEqual l.lname lname

/-- The first loop of `_dom_document_get_nodelist`, src/core/document.c:1336-1340; the first number bounds the rounds. -/
def findLoop (s : Mem) (t : LType) (root : NodeId) (tag ns lname : Option DStr) : Nat → Option Addr → Out (Option Addr)
  | 0, _ => .fault .diverge
  | _ + 1, none => .ok none
  | k + 1, some c => do
    let cell ← rdCell s c
    let l ← rdList s cell.list
    if listMatch l t root tag ns lname then .ok (some c) else findLoop s t root tag ns lname k cell.next

/-- `dom_nodelist_ref`, src/core/nodelist.c:138-142. -/
def listRef (s : Mem) (a : Addr) : Out Mem := do
  let l ← rdList s a
  .ok { s with lists := upd s.lists a (some { l with refcnt := u32 (l.refcnt + 1) }) }

/-- `_dom_nodelist_create`, src/core/nodelist.c:68-131: the new list has the next address. -/
def listCreate (s : Mem) (doc : NodeId) (t : LType) (root : NodeId) (tag ns lname : Option DStr) : Out Mem :=
  if (t = .byName ∨ t = .byNameCaseless) ∧ tag = none then .fault .assertFail
  else .ok ({ s with
    lists := upd s.lists s.fresh (some { owner := doc, root := root, type := t, name := tag, ns := ns, lname := lname, refcnt := 1 }),
    fresh := s.fresh + 1 }.addRef doc 1 |>.addRef root 1)

/-- `doc->nodelists->prev = l`, src/core/document.c:1364-1365. -/
def setPrev (s : Mem) (a : Option Addr) (p : Option Addr) : Out Mem :=
  match a with
  | none => .ok s
  | some c => do
    let cell ← rdCell s c
    .ok { s with cells := upd s.cells c (some { cell with prev := p }) }

/-- `_dom_document_get_nodelist`, src/core/document.c:1328-1377.  `malloc` succeeds (DESIGN.md); the cell gets the next address, the list the one
after. -/
def getNodelist (s : Mem) (doc : NodeId) (t : LType) (root : NodeId) (tag ns lname : Option DStr) : Out (Mem × Addr) := do
  let r ← findLoop s t root tag ns lname (s.fresh + 1) (s.heads doc)
  match r with
  | some c => do
    let cell ← rdCell s c
    let s ← listRef s cell.list
    .ok (s, cell.list)
  | none => do
    let c := s.fresh
    let s := { s with fresh := s.fresh + 1 }
    let list := s.fresh
    let s ← listCreate s doc t root tag ns lname
    let next := s.heads doc
    let s ← setPrev { s with cells := upd s.cells c (some { list := list, prev := none, next := next }) } next (some c)
    .ok ({ s with heads := upd s.heads doc (some c) }, list)

/-- The loop of `_dom_document_remove_nodelist`, src/core/document.c:1391-1394. -/
def removeLoop (s : Mem) (list : Addr) : Nat → Option Addr → Out (Option Addr)
  | 0, _ => .fault .diverge
  | _ + 1, none => .ok none
  | k + 1, some c => do
    let cell ← rdCell s c
    if cell.list = list then .ok (some c) else removeLoop s list k cell.next

/-- `l->prev->next = l->next` or `doc->nodelists = l->next`, src/core/document.c:1402-1405. -/
def setNext (s : Mem) (doc : NodeId) (a : Option Addr) (n : Option Addr) : Out Mem :=
  match a with
  | none => .ok { s with heads := upd s.heads doc n }
  | some c => do
    let cell ← rdCell s c
    .ok { s with cells := upd s.cells c (some { cell with next := n }) }

/-- `_dom_document_remove_nodelist`, src/core/document.c:1386-1411. -/
def removeNodelist (s : Mem) (doc : NodeId) (list : Addr) : Out Mem := do
  let r ← removeLoop s list (s.fresh + 1) (s.heads doc)
  match r with
  | none => .ok s
  | some c => do
    let cell ← rdCell s c
    let s ← setNext s doc cell.prev cell.next
    let s ← setPrev s cell.next cell.prev
    .ok { s with cells := upd s.cells c none }

/-- The release of the strings of the list, src/core/nodelist.c:159-174: the assertion. -/
def nameGone (l : NList) : Bool := (l.type = .byName || l.type = .byNameCaseless) && l.name.isNone

/-- `dom_nodelist_unref`, src/core/nodelist.c:152-190 (for a list that is not NULL). -/
def listUnref (s : Mem) (a : Addr) : Out Mem := do
  let l ← rdList s a
  let rc := sub32 l.refcnt 1
  let s := { s with lists := upd s.lists a (some { l with refcnt := rc }) }
  if rc = 0 then
    if nameGone l then .fault .assertFail
    else do
      let s := s.addRef l.root (-1)
      let s ← removeNodelist s l.owner a
      let s := { s with lists := upd s.lists a none }
      .ok (s.addRef l.owner (-1))
  else .ok s

/-- What the list selects, in the terms of the traversal model (src/core/nodelist.c:205-403). -/
def kindOf (t : LType) (tag ns lname : Option DStr) : Kind :=
  match t with
  | .children => .children
  | .byName => .byName (tag.getD ⟨[], false⟩) false
  | .byNameCaseless => .byName (tag.getD ⟨[], false⟩) true
  | .byNs => .byNs ns lname false
  | .byNsCaseless => .byNs ns lname true

end Dom.Cache
