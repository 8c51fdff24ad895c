import Verif.Str.Model
import Verif.Names.Model
/-!
# Attributes: src/core/element.c (attribute list, class cache), src/core/attr.c, src/html/html_element.c:179-273

The attributes of an element form a circular doubly linked list of cells (`struct dom_attr_list`), each pointing to an
attribute node.  The memory here has the cells, the attribute nodes and the part of an element that concerns its
attributes.  Freed memory is `none`; touching it is the fault `useAfterFree`.

Simplifications, besides those of DESIGN.md:
* the children of an attribute node are given by their content (`kids`); releasing the old ones is not represented;
* the document's list of pending nodes is not represented;
* reference counts are natural numbers (no node has 2^32 references);
* listeners of the events raised do not change anything and do not fail; the events are recorded in `log`.
-/
namespace Dom.Attr
set_option linter.unusedSimpArgs false

open Dom.Str (DStr Bytes)

/-- Address of a cell, an attribute node, an element, a document. -/
abbrev Addr := Nat

/-- `struct dom_attr_list`, src/core/element.c:53-60. -/
structure Cell where
  prev : Addr
  next : Addr
  attr : Addr
  name : DStr
  ns : Option DStr
  deriving DecidableEq, Repr

/-- A child of an attribute node: a Text node with its data, or an EntityReference. -/
inductive Kid
  | text (v : Option DStr)
  | entityRef
  deriving DecidableEq, Repr

/-- `dom_attr_type`, include/dom/core/attr.h. -/
inductive AType
  | unset | string | integer | short | bool
  deriving DecidableEq, Repr

/-- `struct dom_attr`, src/core/attr.c:31-51, with the fields of the node that matter.  `raw` are the bits of the union
`value`. -/
structure ANode where
  name : DStr
  ns : Option DStr := none
  pfx : Option DStr := none
  owner : Addr
  parent : Option Addr := none
  kids : List Kid := []
  type : AType := .unset
  raw : Nat := 0
  specified : Bool := true
  isId : Bool := false
  readOnly : Bool := false
  refcnt : Nat := 1
  deriving DecidableEq, Repr

/-- `struct dom_element`, src/core/element.h, as far as attributes are concerned.  `ro` is what `_dom_node_readonly` says
about it; `html` says that it is an HTML element, `tag` is then its type (0 for an unknown name) and `ns` its
namespace. -/
structure Elem where
  owner : Addr
  ro : Bool := false
  html : Bool := false
  tag : Nat := 0
  ns : Option DStr := none
  attributes : Option Addr := none
  classes : List Bytes := []
  idName : Option DStr := none
  idNs : Option DStr := none
  deriving DecidableEq, Repr

/-- `dom_mutation_type`. -/
inductive Change
  | modification | addition | removal
  deriving DecidableEq, Repr

/-- The events raised: DOMAttrModified at an element, DOMNodeInserted/Removed at an attribute node (with the events for
its children), DOMSubtreeModified at an element or an attribute. -/
inductive Ev
  | attrModified (target : Addr) (prev new : Option DStr) (related : Addr) (name : Option DStr) (change : Change)
  | nodeChange (attr : Addr) (related : Addr) (change : Change)
  | subtree (target : Addr)
  deriving DecidableEq, Repr

/-- The memory.  `fresh` is the next address an allocation returns; `junk` is what new memory contains; `quirks` is
`doc->quirks != DOM_DOCUMENT_QUIRKS_MODE_NONE`; `idName` is `_dom_document_get_id_name`. -/
structure Mem where
  cells : Addr → Option Cell
  attrs : Addr → Option ANode
  elems : Addr → Option Elem
  fresh : Nat
  log : List Ev
  junk : Nat
  quirks : Addr → Bool
  idName : Addr → Option DStr

/-- Result of a modelled function. -/
inductive Res (α : Type)
  | ok (s : Mem) (a : α)
  | exc (s : Mem) (e : Exc)
  | fault (f : Fault)

/-- A modelled function. -/
abbrev M (α : Type) := Mem → Res α

namespace M

/-- Sequencing; an exception is passed on. -/
def bind {α β : Type} (m : M α) (f : α → M β) : M β := fun s =>
  match m s with
  | .ok s' a => f a s'
  | .exc s' e => .exc s' e
  | .fault g => .fault g

instance : Monad M where
  pure a := fun s => .ok s a
  bind := bind

/-- `return DOM_..._ERR;` -/
def throw {α : Type} (e : Exc) : M α := fun s => .exc s e

/-- Undefined behaviour. -/
def crash {α : Type} (f : Fault) : M α := fun _ => .fault f

/-- `err = f(...); if (err != DOM_NO_ERR) { ... }`: the result as a value. -/
def attempt {α : Type} (m : M α) : M (Except Exc α) := fun s =>
  match m s with
  | .ok s' a => .ok s' (.ok a)
  | .exc s' e => .ok s' (.error e)
  | .fault g => .fault g

end M

/-! ## Memory access -/

/-- Read a cell. -/
def getCell (c : Addr) : M Cell := fun s =>
  match s.cells c with
  | some x => .ok s x
  | none => .fault .useAfterFree

/-- Write a cell. -/
def modCell (c : Addr) (f : Cell → Cell) : M Unit := fun s =>
  match s.cells c with
  | some x => .ok { s with cells := fun j => if j = c then some (f x) else s.cells j } ()
  | none => .fault .useAfterFree

/-- Read an attribute node. -/
def getANode (a : Addr) : M ANode := fun s =>
  match s.attrs a with
  | some x => .ok s x
  | none => .fault .useAfterFree

/-- Write an attribute node. -/
def modANode (a : Addr) (f : ANode → ANode) : M Unit := fun s =>
  match s.attrs a with
  | some x => .ok { s with attrs := fun j => if j = a then some (f x) else s.attrs j } ()
  | none => .fault .useAfterFree

/-- Read an element. -/
def getElem (e : Addr) : M Elem := fun s =>
  match s.elems e with
  | some x => .ok s x
  | none => .fault .useAfterFree

/-- Write an element. -/
def modElem (e : Addr) (f : Elem → Elem) : M Unit := fun s =>
  match s.elems e with
  | some x => .ok { s with elems := fun j => if j = e then some (f x) else s.elems j } ()
  | none => .fault .useAfterFree

/-- Use of a pointer that must not be NULL. -/
def deref (p : Option Addr) : M Addr :=
  match p with
  | some i => pure i
  | none => M.crash .nullDeref

/-- `if (b) return DOM_..._ERR;` -/
def throwIf (b : Bool) (e : Exc) : M Unit := if b then M.throw e else pure ()

/-- Raise an event. -/
def fire (ev : Ev) : M Unit := fun s => .ok { s with log := s.log ++ [ev] } ()

/-- Bound for the loops over cells; reaching it is the fault `diverge` (a device of the model). -/
def bound : M Nat := fun s => .ok s (s.fresh + 1)

/-! ## The class cache -/

/-- The name of the class attribute, `doc->class_string`, src/core/document.c:167-168. -/
def classStr : DStr := Str.createInterned [99, 108, 97, 115, 115]

/-- The text up to the first NUL: what code that takes a `const char *` sees. -/
def cstr : Bytes → Bytes
  | [] => []
  | b :: r => if b = 0 then [] else b :: cstr r

/-- The loop that unpacks the classes, src/core/element.c:123-137: runs of bytes other than ' '.  `cur` is the run being
read (in reverse). -/
def classLoop : Bytes → Bytes → List Bytes
  | cur, [] => if cur = [] then [] else [cur.reverse]
  | cur, b :: r => if b = 32 then (if cur = [] then classLoop [] r else cur.reverse :: classLoop [] r) else classLoop (b :: cur) r

/-- `_dom_element_create_classes`, src/core/element.c:92-148 (allocation succeeds). -/
def createClasses (e : Addr) (value : Bytes) : M Unit := modElem e fun x => { x with classes := classLoop [] (cstr value) }

/-- `_dom_element_destroy_classes`, src/core/element.c:68-81. -/
def destroyClasses (e : Addr) : M Unit := modElem e fun x => { x with classes := [] }

/-- `lwc_string_caseless_isequal`: equal up to ASCII case. -/
def lwcCaselessEqual (a b : Bytes) : Bool := a.map Str.dolower == b.map Str.dolower

/-- `_dom_element_has_class`, src/core/element.c:1192-1229. -/
def hasClass (e : Addr) (name : Bytes) : M Bool := do
  let el ← getElem e
  if el.classes = [] then pure false
  else fun s => .ok s (if s.quirks el.owner then el.classes.any (lwcCaselessEqual name) else el.classes.any (· == name))

/-! ## Attribute nodes, src/core/attr.c -/

/-- `_dom_attr_create`, src/core/attr.c:89-152: the type is unset, the union is not initialised. -/
def attrCreate (doc : Addr) (name : DStr) (ns pfx : Option DStr) (specified : Bool) : M Addr := fun s =>
  .ok { s with
        attrs := fun j => if j = s.fresh then
          some { name := name, ns := ns, pfx := pfx, owner := doc, raw := s.junk, specified := specified } else s.attrs j
        fresh := s.fresh + 1 } s.fresh

/-- The loop over the children in `_dom_attr_get_value`, src/core/attr.c:479-520;
`_dom_entity_reference_get_textual_representation` (src/core/entity_ref.c:103-110) is not supported. -/
def kidsValue : List Kid → DStr → Out DStr
  | [], v => .ok v
  | .text none :: r, v => kidsValue r v
  | .text (some t) :: r, v => do
    let u ← Str.concat (some v) (some t)
    kidsValue r u
  | .entityRef :: _, _ => .exc .notSupported

/-- Run a computation on strings. -/
def liftOut {α : Type} (x : Out α) : M α := fun s =>
  match x with
  | .ok a => .ok s a
  | .exc e => .exc s e
  | .fault f => .fault f

/-- `_dom_attr_get_value`, src/core/attr.c:441-524. -/
def getValue (a : Addr) : M DStr := do
  let n ← getANode a
  match n.kids with
  | [.text (some v)] => pure v
  | kids => do
    (if n.type = .unset ∧ kids ≠ [] then modANode a fun n => { n with type := .string } else pure ())
    let n ← getANode a
    if n.type ≠ .string then pure Str.emptyString else liftOut (kidsValue kids Str.emptyString)

/-- `_dom_attr_set_value`, src/core/attr.c:534-596.  `_dom_node_readonly` of an attribute is its own flag;
`dom_element_parse_attribute` (src/core/element.h:205-212) follows the parent pointer and gives the value back. -/
def setValue (a : Addr) (v : Option DStr) : M Unit := do
  let n ← getANode a
  throwIf n.readOnly .noModificationAllowed
  (if n.type = .unset then modANode a fun n => { n with type := .string } else pure ())
  let n ← getANode a
  throwIf (n.type ≠ .string) .attrWrongType
  let p ← deref n.parent
  let _ ← getElem p
  modANode a fun n => { n with kids := [.text v], specified := true }

/-- DOMAttrModified and DOMSubtreeModified after a typed write, src/core/attr.c:243-257, 305-319, 367-381.  There is no
event at the element without one (src/events/dispatch.c:135-136). -/
def typedEvents (a : Addr) : M Unit := do
  let n ← getANode a
  (match n.parent with
   | some e => fire (.attrModified e none none a none .modification)
   | none => pure ())
  fire (.subtree a)

/-- The first lines of the typed setters: an unset type becomes `t`, another one is refused; src/core/attr.c:234-239. -/
def claimType (a : Addr) (t : AType) : M Unit := do
  let n ← getANode a
  (if n.type = .unset then modANode a fun n => { n with type := t } else pure ())
  let n ← getANode a
  throwIf (n.type ≠ t) .attrWrongType

/-- `dom_attr_get_integer`, src/core/attr.c:207-215. -/
def getInteger (a : Addr) : M Nat := do
  let n ← getANode a
  throwIf (n.type ≠ .integer) .attrWrongType
  pure (n.raw % 4294967296)

/-- `dom_attr_set_integer`, src/core/attr.c:225-258. -/
def setInteger (a : Addr) (v : Nat) : M Unit := do
  claimType a .integer
  let n ← getANode a
  if n.raw % 4294967296 = v then pure () else do
    modANode a fun n => { n with raw := v }
    typedEvents a

/-- `dom_attr_get_short`, src/core/attr.c:269-277. -/
def getShort (a : Addr) : M Nat := do
  let n ← getANode a
  throwIf (n.type ≠ .short) .attrWrongType
  pure (n.raw % 65536)

/-- `dom_attr_set_short`, src/core/attr.c:287-320. -/
def setShort (a : Addr) (v : Nat) : M Unit := do
  claimType a .short
  let n ← getANode a
  if n.raw % 65536 = v then pure () else do
    modANode a fun n => { n with raw := v }
    typedEvents a

/-- Reading `value.bvalue`: a byte that is neither 0 nor 1 is no `bool`. -/
def readBool (raw : Nat) : M Bool :=
  if raw % 256 = 0 then pure false else if raw % 256 = 1 then pure true else M.crash .uninit

/-- `dom_attr_get_bool`, src/core/attr.c:331-339. -/
def getBool (a : Addr) : M Bool := do
  let n ← getANode a
  throwIf (n.type ≠ .bool) .attrWrongType
  readBool n.raw

/-- `dom_attr_set_bool`, src/core/attr.c:349-382. -/
def setBool (a : Addr) (v : Bool) : M Unit := do
  claimType a .bool
  let n ← getANode a
  let old ← readBool n.raw
  if old = v then pure () else do
    modANode a fun n => { n with raw := if v then 1 else 0 }
    typedEvents a

/-- `dom_attr_mark_readonly`, src/core/attr.c:389-392. -/
def markReadonly (a : Addr) : M Unit := modANode a fun n => { n with readOnly := true }

/-- `dom_node_ref`, include/dom/core/node.h:178-184. -/
def refAttr (a : Addr) : M Unit := modANode a fun n => { n with refcnt := n.refcnt + 1 }

/-- `_dom_node_try_destroy`, src/core/node.c:2304-2320: without parent and references the node is freed. -/
def tryDestroy (a : Addr) : M Unit := do
  let n ← getANode a
  if n.parent = none ∧ n.refcnt = 0 then fun s => .ok { s with attrs := fun j => if j = a then none else s.attrs j } ()
  else pure ()

/-- `dom_node_unref`, include/dom/core/node.h:195-202.  (At 0 the count would wrap around.) -/
def unrefAttr (a : Addr) : M Unit := do
  modANode a fun n => { n with refcnt := if n.refcnt = 0 then 4294967295 else n.refcnt - 1 }
  let n ← getANode a
  if n.refcnt = 0 then tryDestroy a else pure ()

/-! ## The list of cells, src/core/element.c:150-356, src/utils/list.h -/

/-- The test in `_dom_element_attr_list_find_by_name`, src/core/element.c:207-210. -/
def matches_ (name : DStr) (ns : Option DStr) (c : Cell) : Bool :=
  (match ns with
   | none => true
   | some n => c.ns.isSome && Str.isEqual (some n) c.ns) && Str.isEqual (some name) (some c.name)

/-- The loop of `_dom_element_attr_list_find_by_name`, src/core/element.c:206-219. -/
def findLoop (head : Addr) (name : DStr) (ns : Option DStr) : Nat → Addr → M (Option Addr)
  | 0, _ => M.crash .diverge
  | k + 1, c => do
    let x ← getCell c
    if matches_ name ns x then pure (some c)
    else if x.next = head then pure none
    else findLoop head name ns k x.next

/-- `_dom_element_attr_list_find_by_name`, src/core/element.c:198-221 (for a name that is not NULL). -/
def findByName (list : Option Addr) (name : DStr) (ns : Option DStr) : M (Option Addr) :=
  match list with
  | none => pure none
  | some h => do
    let bd ← bound
    findLoop h name ns bd h

/-- The loop of `_dom_element_attr_list_length`, src/core/element.c:237-241. -/
def lengthLoop (head : Addr) : Nat → Addr → Nat → M Nat
  | 0, _, _ => M.crash .diverge
  | k + 1, c, count => do
    let x ← getCell c
    if x.next = head then pure (u32 (count + 1)) else lengthLoop head k x.next (u32 (count + 1))

/-- `_dom_element_attr_list_length`, src/core/element.c:229-244. -/
def attrLength (list : Option Addr) : M Nat :=
  match list with
  | none => pure 0
  | some h => do
    let bd ← bound
    lengthLoop h bd h 0

/-- The loop of `_dom_element_attr_list_get_by_index`, src/core/element.c:261-266; the index is an `unsigned int` that is
counted down first. -/
def indexLoop (head : Addr) : Nat → Addr → Nat → M (Option Addr)
  | 0, _, _ => M.crash .diverge
  | k + 1, c, index =>
    if sub32 index 1 = 0 then pure (some c)
    else do
      let x ← getCell c
      if x.next = head then pure none else indexLoop head k x.next (sub32 index 1)

/-- `_dom_element_attr_list_get_by_index`, src/core/element.c:253-269. -/
def getByIndex (list : Option Addr) (index : Nat) : M (Option Addr) :=
  match list with
  | none => pure none
  | some h => do
    let bd ← bound
    indexLoop h bd h index

/-- `list_append`, src/utils/list.h:40-46. -/
def listAppend (head new : Addr) : M Unit := do
  modCell new fun c => { c with next := head }
  let h ← getCell head
  modCell new fun c => { c with prev := h.prev }
  modCell h.prev fun c => { c with next := new }
  modCell head fun c => { c with prev := new }

/-- `list_del`, src/utils/list.h:53-60 (`_dom_element_attr_list_node_unlink`, src/core/element.c:168-174). -/
def unlink (c : Addr) : M Unit := do
  let x ← getCell c
  modCell x.prev fun p => { p with next := x.next }
  let y ← getCell c
  modCell y.next fun n => { n with prev := y.prev }
  modCell c fun z => { z with prev := c, next := c }

/-- Whether a cell is the one of the class attribute, src/core/element.c:289-290, 336-337. -/
def isClass (ns : Option DStr) (name : DStr) : Bool := ns.isNone && Str.isEqual (some name) (some classStr)

/-- `_dom_element_attr_list_node_destroy`, src/core/element.c:276-304. -/
def nodeDestroy (c : Addr) : M Unit := do
  let x ← getCell c
  let n ← getANode x.attr
  (if isClass x.ns x.name then do
    let p ← deref n.parent
    destroyClasses p
   else pure ())
  modANode x.attr fun n => { n with parent := none }
  tryDestroy x.attr
  fun s => .ok { s with cells := fun j => if j = c then none else s.cells j } ()

/-- `malloc` and `list_init` of a cell, src/core/element.c:324-332. -/
def newCell (attr : Addr) (name : DStr) (ns : Option DStr) : M Addr := fun s =>
  .ok { s with
        cells := fun j => if j = s.fresh then some { prev := s.fresh, next := s.fresh, attr := attr, name := name, ns := ns } else s.cells j
        fresh := s.fresh + 1 } s.fresh

/-- `_dom_element_attr_list_node_create`, src/core/element.c:314-356. -/
def nodeCreate (attr ele : Addr) (name : DStr) (ns : Option DStr) : M (Option Addr) := do
  let c ← newCell attr name ns
  if isClass ns name then do
    let r ← M.attempt (getValue attr)
    match r with
    | .error _ => do
      nodeDestroy c
      pure none
    | .ok v => do
      createClasses ele v.data
      pure (some c)
  else pure (some c)

/-- `dom_attr_get_value` before an event: the error "not supported" is ignored, src/core/element.c:1672-1677. -/
def oldValue (a : Addr) : M (Option DStr) := do
  let r ← M.attempt (getValue a)
  match r with
  | .ok v => pure (some v)
  | .error .notSupported => pure none
  | .error e => M.throw e

/-! ## The attribute functions of Element, src/core/element.c:1605-2160 -/

/-- `_dom_element_get_attr`, src/core/element.c:1614-1632. -/
def getAttr (e : Addr) (ns : Option DStr) (name : DStr) : M (Option DStr) := do
  let el ← getElem e
  let m ← findByName el.attributes name ns
  match m with
  | none => pure none
  | some c => do
    let x ← getCell c
    let v ← getValue x.attr
    pure (some v)

/-- `_dom_element_has_attr`, src/core/element.c:2149-2165. -/
def hasAttr (e : Addr) (ns : Option DStr) (name : DStr) : M Bool := do
  let el ← getElem e
  let m ← findByName el.attributes name ns
  pure m.isSome

/-- Link a new cell into the list of the element, src/core/element.c:1741-1746, 2024-2028. -/
def linkCell (e c : Addr) : M Unit := do
  let el ← getElem e
  match el.attributes with
  | none => modElem e fun x => { x with attributes := some c }
  | some h => listAppend h c

/-- The branch of `_dom_element_set_attr` for an existing attribute, src/core/element.c:1660-1693. -/
def setExisting (e c : Addr) (name : DStr) (value : Option DStr) : M Unit := do
  let x ← getCell c
  let old ← oldValue x.attr
  fire (.attrModified e old value x.attr (some name) .modification)
  setValue x.attr value
  fire (.subtree e)

/-- The branch of `_dom_element_set_attr` for a new attribute, src/core/element.c:1694-1757. -/
def setNew (e : Addr) (el : Elem) (ns : Option DStr) (name : DStr) (value : Option DStr) : M Unit := do
  let a ← attrCreate el.owner name ns none true
  modANode a fun n => { n with parent := some e }
  let r ← M.attempt (setValue a value)
  match r with
  | .error er => do
    modANode a fun n => { n with parent := none }
    unrefAttr a
    M.throw er
  | .ok _ => do
    fire (.attrModified e none value a (some name) .addition)
    fire (.nodeChange a e .addition)
    let m ← nodeCreate a e name ns
    match m with
    | none => do
      modANode a fun n => { n with parent := none }
      unrefAttr a
      M.throw .noMem
    | some c => do
      linkCell e c
      unrefAttr a
      fire (.subtree e)

/-- `_dom_element_set_attr`, src/core/element.c:1642-1760. -/
def setAttr (e : Addr) (ns : Option DStr) (name : DStr) (value : Option DStr) : M Unit := do
  throwIf (!Names.validateAttributeName (some name)) .invalidCharacter
  let el ← getElem e
  throwIf el.ro .noModificationAllowed
  let m ← findByName el.attributes name ns
  match m with
  | some c => setExisting e c name value
  | none => setNew e el ns name value

/-- Take a cell out of the list of the element and release it, with the head of the list moved on if need be;
src/core/element.c:1800-1811, 2092-2102. -/
def dropCell (e c : Addr) : M Unit := do
  let el ← getElem e
  (if el.attributes = some c then do
    let x ← getCell c
    modElem e fun y => { y with attributes := some x.next }
   else pure ())
  let el ← getElem e
  (if el.attributes = some c then modElem e fun y => { y with attributes := none } else pure ())
  unlink c
  nodeDestroy c

/-- `_dom_element_remove_attr`, src/core/element.c:1770-1839. -/
def removeAttr (e : Addr) (ns : Option DStr) (name : DStr) : M Unit := do
  let el ← getElem e
  throwIf el.ro .noModificationAllowed
  let m ← findByName el.attributes name ns
  match m with
  | none => pure ()
  | some c => do
    let x ← getCell c
    fire (.nodeChange x.attr e .removal)
    refAttr x.attr
    dropCell e c
    let old ← oldValue x.attr
    fire (.attrModified e old none x.attr (some name) .removal)
    unrefAttr x.attr
    fire (.subtree e)

/-- `_dom_element_get_attr_node`, src/core/element.c:1853-1872. -/
def getAttrNode (e : Addr) (ns : Option DStr) (name : DStr) : M (Option Addr) := do
  let el ← getElem e
  let m ← findByName el.attributes name ns
  match m with
  | none => pure none
  | some c => do
    let x ← getCell c
    refAttr x.attr
    pure (some x.attr)

/-- The attribute found by `_dom_element_set_attr_node` is taken out, src/core/element.c:1930-1980.  The head of the
list is not moved on. -/
def replaceOld (e c : Addr) (name : DStr) : M (Option Addr) := do
  let x ← getCell c
  fire (.nodeChange x.attr e .removal)
  refAttr x.attr
  unlink c
  nodeDestroy c
  let old ← oldValue x.attr
  fire (.attrModified e old none x.attr (some name) .removal)
  fire (.subtree e)
  pure (some x.attr)

/-- The end of `_dom_element_set_attr_node`, src/core/element.c:1983-2031. -/
def installNode (e attr : Addr) (name : DStr) (ns : Option DStr) : M Unit := do
  let m ← nodeCreate attr e name ns
  match m with
  | none => M.throw .noMem
  | some c => do
    modANode attr fun n => { n with parent := some e }
    let r ← M.attempt (oldValue attr)
    match r with
    | .error er => do
      nodeDestroy c
      M.throw er
    | .ok v => do
      fire (.attrModified e none v attr (some name) .addition)
      fire (.nodeChange attr e .addition)
      fire (.subtree e)
      linkCell e c

/-- `_dom_element_set_attr_node`, src/core/element.c:1890-2032. -/
def setAttrNode (e : Addr) (ns : Option DStr) (attr : Addr) : M (Option Addr) := do
  let el ← getElem e
  let a ← getANode attr
  throwIf (el.owner ≠ a.owner) .wrongDocument
  throwIf el.ro .noModificationAllowed
  throwIf (a.parent ≠ none ∧ a.parent ≠ some e) .inuseAttribute
  let m ← findByName el.attributes a.name ns
  let res ← (match m with
    | none => pure none
    | some c => replaceOld e c a.name)
  installNode e attr a.name ns
  pure res

/-- `_dom_node_get_node_name` of an attribute, src/core/node.c:363-415. -/
def nodeName (a : ANode) : Out DStr :=
  match a.pfx with
  | none => .ok a.name
  | some p => do
    let t ← Str.concat (some p) (some (Str.create [58]))
    Str.concat (some t) (some a.name)

/-- `_dom_element_remove_attr_node`, src/core/element.c:2049-2138. -/
def removeAttrNode (e : Addr) (ns : Option DStr) (attr : Addr) : M Addr := do
  let el ← getElem e
  throwIf el.ro .noModificationAllowed
  let a ← getANode attr
  let name ← liftOut (nodeName a)
  let m ← findByName el.attributes name ns
  match m with
  | none => M.throw .notFound
  | some c => do
    let x ← getCell c
    throwIf (x.attr ≠ attr) .notFound
    fire (.nodeChange attr e .removal)
    refAttr attr
    dropCell e c
    let old ← oldValue attr
    fire (.attrModified e old none attr (some name) .removal)
    fire (.subtree e)
    pure attr

/-! ## The public functions -/

/-- `dom_namespaces[DOM_NAMESPACE_SVG]`, src/utils/namespace.c:24-33. -/
def svgNs : DStr := Names.lit "http://www.w3.org/2000/svg"

/-- `_dom_html_element_should_normalize_attribute_name`, src/html/html_element.c:655-665; only HTML elements ask. -/
def folds (el : Elem) : Bool := el.html && (el.tag ≠ 0 || !Str.isEqual el.ns (some svgNs))

/-- The name looked up: HTML elements fold it, src/html/html_element.c:183-193 (and the same lines in the other
functions). -/
def foldName (e : Addr) (name : DStr) : M DStr := do
  let el ← getElem e
  if folds el then liftOut (Str.toLower name true) else pure name

/-- `dom_element_get_attribute`, src/core/element.c:675-680, src/html/html_element.c:179-201. -/
def getAttribute (e : Addr) (name : DStr) : M (Option DStr) := do
  let n ← foldName e name
  getAttr e none n

/-- `dom_element_set_attribute`, src/core/element.c:691-696, src/html/html_element.c:203-225. -/
def setAttribute (e : Addr) (name : DStr) (value : Option DStr) : M Unit := do
  let n ← foldName e name
  setAttr e none n value

/-- `dom_element_remove_attribute`, src/core/element.c:706-710, src/html/html_element.c:227-249. -/
def removeAttribute (e : Addr) (name : DStr) : M Unit := do
  let n ← foldName e name
  removeAttr e none n

/-- `dom_element_has_attribute`, src/core/element.c:1042-1046, src/html/html_element.c:251-273. -/
def hasAttribute (e : Addr) (name : DStr) : M Bool := do
  let n ← foldName e name
  hasAttr e none n

/-- `_dom_element_set_attribute_ns`, src/core/element.c:865-897. -/
def setAttributeNS (e : Addr) (ns : Option DStr) (qname : DStr) (value : Option DStr) : M Unit := do
  throwIf (!Names.validateName (some qname)) .invalidCharacter
  (match Names.validateQName (some qname) ns with
   | .ok _ => pure ()
   | .exc _ => M.throw .namespace
   | .fault f => M.crash f)
  let pl ← liftOut (Names.splitQName qname)
  throwIf (ns.isNone && pl.1.isSome) .namespace
  setAttr e ns pl.2 value

/-- `_dom_element_set_attribute_node`, src/core/element.c:744-749. -/
def setAttributeNode (e attr : Addr) : M (Option Addr) := setAttrNode e none attr

/-- `_dom_element_set_attribute_node_ns`, src/core/element.c:958-974. -/
def setAttributeNodeNS (e attr : Addr) : M (Option Addr) := do
  let a ← getANode attr
  setAttrNode e a.ns attr

/-- `_dom_element_remove_attribute_node`, src/core/element.c:768-773. -/
def removeAttributeNode (e attr : Addr) : M Addr := removeAttrNode e none attr

/-- `attributes_get_length`, src/core/element.c:2270-2277. -/
def mapLength (e : Addr) : M Nat := do
  let el ← getElem e
  attrLength el.attributes

/-- `attributes_item`, src/core/element.c:2325-2342. -/
def mapItem (e : Addr) (index : Nat) : M (Option Addr) := do
  let el ← getElem e
  let m ← getByIndex el.attributes (u32 (index + 1))
  match m with
  | none => pure none
  | some c => do
    let x ← getCell c
    refAttr x.attr
    pure (some x.attr)

/-- `attributes_get_named_item`, src/core/element.c:2281-2287, and with a namespace 2346-2354. -/
def mapGet (e : Addr) (ns : Option DStr) (name : DStr) : M (Option Addr) := getAttrNode e ns name

/-- `attributes_remove_named_item`, src/core/element.c:2306-2321, and with a namespace 2374-2390. -/
def mapRemove (e : Addr) (ns : Option DStr) (name : DStr) : M Addr := do
  let r ← getAttrNode e ns name
  match r with
  | none => M.throw .notFound
  | some a => do
    removeAttr e ns name
    pure a

/-- `_dom_element_set_id_attr`, src/core/element.c:2176-2205. -/
def setIdAttr (e : Addr) (ns : Option DStr) (name : DStr) (isId : Bool) : M Unit := do
  let el ← getElem e
  let m ← findByName el.attributes name ns
  match m with
  | none => M.throw .notFound
  | some c => do
    (if isId then do
      (match el.idName with
       | none => pure ()
       | some idn => do
         let o ← findByName el.attributes idn el.idNs
         match o with
         | none => pure ()
         | some oc => do
           let ox ← getCell oc
           modANode ox.attr fun n => { n with isId := false })
      modElem e fun x => { x with idName := some name, idNs := ns }
     else pure ())
    let x ← getCell c
    modANode x.attr fun n => { n with isId := isId }

/-- `_dom_element_get_id`, src/core/element.c:2214-2262. -/
def getId (e : Addr) : M (Option DStr) := do
  let el ← getElem e
  match el.idNs, el.idName with
  | some ns, some n => getAttr e (some ns) n
  | _, some n => getAttr e none n
  | _, none => fun s =>
    match s.idName el.owner with
    | none => .ok s none
    | some n => getAttr e none n s

end Dom.Attr
