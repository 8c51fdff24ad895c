import Verif.Oom.Make

/-!
# Attributes, the class cache and copies of elements when memory may run out

Simplified throughout: no mutation events are dispatched, attributes have no prefix, and a text node below an
attribute has no references but those of its parent.
-/
namespace Dom.Oom

/-- A text node below an attribute: its block, its name `"#text"` and its value. -/
structure Txt where
  block : Nat
  name : Nat
  value : Nat

/-- An attribute node: its block, its `refcnt`, its name, its namespace (if any) and the text node below it
(if any), src/core/attr.c:31-48. -/
structure Attr where
  block : Nat
  refcnt : Nat
  name : Nat
  ns : Option Nat
  text : Option Txt

/-- The class cache of an element, `n_classes` and `classes`, src/core/element.h:40-41: not written yet,
`NULL`, or an array of interned strings. -/
inductive Classes
  | junk
  | null
  | at (block : Nat) (names : List Nat)

/-- A `dom_attr_list` node, src/core/element.c:53-60: its block, its attribute, its name and namespace, and
whether it is the one of the attribute `class` (no namespace, and the name equal to `doc->class_string`). -/
structure ListNode where
  block : Nat
  attr : Attr
  name : Nat
  ns : Option Nat
  cls : Bool

/-- `dom_string_ref` of a string that may be `NULL`. -/
def refOpt : Option Nat → M Unit
  | none => pure ()
  | some a => ref a

/-- `dom_string_unref` of a string that may be `NULL`. -/
def unrefOpt : Option Nat → M Unit
  | none => pure ()
  | some a => unref a

/-- `_dom_element_destroy_classes`, src/core/element.c:68-81. -/
def destroyClasses : Classes → M Unit
  | .junk => crash .uninit
  | .null => pure ()
  | .at b names => do
    unrefAll names
    unref b

/-- `lwc_string_unref` of what a slot holds. -/
def unrefSlot : Cell → M Unit
  | .junk => crash .uninit
  | .null => crash .nullDeref
  | .ptr a => unref a

/-- The loop that interns the class names and its `error:` label, src/core/element.c:120-134 and :141-147.
`names` are the slots written so far, `left` is what a failing `lwc_intern_string` leaves in its slot:
`n_classes` has already been incremented when it fails, so that slot is given back like the others. -/
def internClasses (left : Cell) (block : Nat) : Nat → List Nat → M (Option (List Nat))
  | 0, names => pure (some names)
  | n + 1, names => do
    let s ← malloc
    match s with
    | none =>
      unrefSlot left
      unrefAll names.reverse
      unref block
      pure none
    | some s => internClasses left block n (names ++ [s])

/-- `_dom_element_create_classes`, src/core/element.c:92-148, for a value with `n` class names.  The old cache
is destroyed first; `none` is `DOM_NO_MEM_ERR`, after which the cache is empty. -/
def createClasses (left : Cell) (n : Nat) (old : Classes) : M (Option Classes) := do
  destroyClasses old
  if n = 0 then pure (some .null)
  else
    let b ← malloc
    match b with
    | none => pure none
    | some b =>
      let r ← internClasses left b n []
      match r with
      | none => pure none
      | some names => pure (some (.at b names))

/-- `_dom_text_destroy` through `_dom_node_finalise`, src/core/node.c:224-298. -/
def releaseText (t : Txt) : M Unit := do
  unref t.value
  unref t.name
  unref t.block

/-- The text below an attribute, if there is one, is destroyed. -/
def releaseTextOpt : Option Txt → M Unit
  | none => pure ()
  | some t => releaseText t

/-- `_dom_attr_destroy`, src/core/attr.c:177-182, through `_dom_node_finalise`, src/core/node.c:224-298. -/
def releaseAttr (a : Attr) : M Unit := do
  unrefOpt a.ns
  releaseTextOpt a.text
  unref a.name
  unref a.block

/-- `dom_node_try_destroy` of an attribute without a parent, src/core/node.c:2304-2320. -/
def tryDestroy (a : Attr) : M Unit :=
  if a.refcnt = 0 then releaseAttr a else pure ()

/-- `_dom_element_attr_list_node_destroy`, src/core/element.c:276-304.  `parent` is the class cache of the
attribute's parent, `none` if it has no parent. -/
def nodeDestroy (n : ListNode) (parent : Option Classes) : M Unit := do
  (if n.cls then
    match parent with
    | none => crash .nullDeref
    | some c => destroyClasses c
  else pure ())
  unref n.name
  unrefOpt n.ns
  tryDestroy n.attr
  unref n.block

/-- `_dom_element_attr_list_node_create`, src/core/element.c:314-356, for an attribute whose value is a
single text node with `n` class names in it, so that `_dom_attr_get_value` takes a reference to the value
(src/core/attr.c:449-456).  `parent` tells whether the attribute already has the element as its parent.
`none` is `NULL`. -/
def nodeCreate (left : Cell) (a : Attr) (value : Nat) (cls : Bool) (n : Nat) (ns : Option Nat)
    (parent : Bool) (old : Classes) : M (Option ListNode × Classes) := do
  let b ← malloc
  match b with
  | none => pure (none, old)
  | some b =>
    let node : ListNode := { block := b, attr := a, name := a.name, ns := ns, cls := cls }
    (if cls then do
      ref value
      let c ← createClasses left n old
      match c with
      | none =>
        nodeDestroy node (if parent then some .null else none)
        unref value
        pure (none, .null)
      | some c =>
        unref value
        pure (some node, c)
    else pure (some node, old))

/-- `_dom_document_create_text_node`, src/core/document.c:516-531, and `_dom_text_create`,
src/core/text.c:75-101. -/
def createText (value : Nat) : M (Except Exc Txt) := do
  let name ← createString
  match name with
  | .error e => pure (.error e)
  | .ok name =>
    let b ← malloc
    match b with
    | none =>
      unref name
      pure (.error .noMem)
    | some b =>
      ref name
      ref value
      unref name
      pure (.ok { block := b, name := name, value := value })

/-- `_dom_attr_create`, src/core/attr.c:89-115, and `_dom_attr_initialise`, :129-152. -/
def createAttr (name : Nat) (ns : Option Nat) : M (Except Exc Attr) := do
  let b ← malloc
  match b with
  | none => pure (.error .noMem)
  | some b =>
    ref name
    refOpt ns
    pure (.ok { block := b, refcnt := 1, name := name, ns := ns, text := none })

/-- `_dom_attr_set_value`, src/core/attr.c:534-596, of an attribute without children:
the parsed value is the value itself (src/core/element.c:1506-1517). -/
def setValue (a : Attr) (value : Nat) : M (Except Exc Attr) := do
  ref a.name
  ref value
  unref a.name
  let t ← createText value
  unref value
  match t with
  | .error e => pure (.error e)
  | .ok t => pure (.ok { a with text := some t })

/-- `dom_node_unref` of an attribute that has no parent and that nobody else holds. -/
def dropAttr (a : Attr) : M Unit := tryDestroy { a with refcnt := a.refcnt - 1 }

/-- `_dom_element_set_attr`, src/core/element.c:1642-1760, the part for an attribute the element does not
have yet (:1688-1759).  `classes` is the class cache of the element. -/
def setAttr (left : Cell) (name : Nat) (ns : Option Nat) (value : Nat) (cls : Bool) (n : Nat)
    (classes : Classes) : M (Except Exc ListNode × Classes) := do
  let a ← createAttr name ns
  match a with
  | .error e => pure (.error e, classes)
  | .ok a =>
    let v ← setValue a value
    match v with
    | .error e =>
      dropAttr a
      pure (.error e, classes)
    | .ok a =>
      let r ← nodeCreate left a value cls n ns true classes
      match r.1 with
      | none =>
        dropAttr a
        pure (.error .noMem, r.2)
      | some node =>
        ref name
        refOpt ns
        pure (.ok { node with attr := { a with refcnt := 0 } }, r.2)

/-- `_dom_element_set_attr_node`, src/core/element.c:1890-2032, for an attribute `a` that has no parent, with
the text `value`, on an element without an attribute of its name, as far as memory is concerned. -/
def setAttrNode (left : Cell) (a : Attr) (value : Nat) (cls : Bool) (n : Nat) (classes : Classes) :
    M (Except Exc ListNode × Classes) := do
  ref a.name
  let r ← nodeCreate left a value cls n a.ns false classes
  match r.1 with
  | none =>
    unref a.name
    pure (.error .noMem, r.2)
  | some node =>
    ref a.name
    refOpt a.ns
    ref value
    unref value
    unref a.name
    pure (.ok node, r.2)

/-! ## Copies -/

/-- `_dom_text_copy`, src/core/text.c:303-321: the copy shares the name and the value. -/
def cloneText (t : Txt) : M (Except Exc Txt) := do
  let b ← malloc
  match b with
  | none => pure (.error .noMem)
  | some b =>
    ref t.name
    ref t.value
    pure (.ok { block := b, name := t.name, value := t.value })

/-- `_dom_attr_clone_node`, src/core/attr.c:669-689, through `_dom_node_clone_node`, src/core/node.c:1125-1174,
and `_dom_attr_copy`, src/core/attr.c:773-806: the attribute and the text below it. -/
def cloneAttr (a : Attr) : M (Except Exc Attr) := do
  let b ← malloc
  match b with
  | none => pure (.error .noMem)
  | some b =>
    ref a.name
    refOpt a.ns
    let c : Attr := { block := b, refcnt := 1, name := a.name, ns := a.ns, text := none }
    match a.text with
    | none => pure (.ok c)
    | some t =>
      let t' ← cloneText t
      match t' with
      | .error e =>
        dropAttr c
        pure (.error e)
      | .ok t' => pure (.ok { c with text := some t' })

/-- `_dom_element_attr_list_node_clone`, src/core/element.c:389-427: the copy of the attribute belongs to the
new element and has no other references. -/
def nodeClone (n : ListNode) : M (Option ListNode) := do
  let b ← malloc
  match b with
  | none => pure none
  | some b =>
    let c ← cloneAttr n.attr
    match c with
    | .error _ =>
      unref b
      pure none
    | .ok c =>
      ref n.name
      refOpt n.ns
      pure (some { block := b, attr := { c with refcnt := 0 }, name := n.name, ns := n.ns, cls := n.cls })

/-- `_dom_element_attr_list_destroy`, src/core/element.c:363-380, of attributes whose parent has the class
cache `c`. -/
def listDestroy (c : Classes) : List ListNode → M Unit
  | [] => pure ()
  | n :: ns => do
    nodeDestroy n (some c)
    listDestroy c ns

/-- The loop of `_dom_element_attr_list_clone`, src/core/element.c:436-465; `made` are the copies made so far
and `c` is the class cache of the element they are made for. -/
def listClone (c : Classes) : List ListNode → List ListNode → M (Option (List ListNode))
  | [], made => pure (some made)
  | n :: ns, made => do
    let x ← nodeClone n
    match x with
    | none =>
      listDestroy c made
      pure none
    | some x => listClone c ns (made ++ [x])

/-- A run of `lwc_string_ref` calls. -/
def refAll : List Nat → M Unit
  | [] => pure ()
  | a :: as => do
    ref a
    refAll as

/-- An element as far as it is copied, src/core/element.h:29-42: its block, its name, its attributes and its
class cache.  Simplified: it has no namespace and no prefix. -/
structure Elem where
  block : Nat
  name : Nat
  attrs : List ListNode
  classes : Classes

/-- The copying of the class cache, src/core/element.c:1567-1580. -/
def copyClasses : Classes → M (Except Exc Classes)
  | .junk => crash .uninit
  | .null => pure (.ok .null)
  | .at _ names =>
    if names = [] then pure (.ok .null)
    else do
      let b ← malloc
      match b with
      | none => pure (.error .noMem)
      | some b =>
        refAll names
        pure (.ok (.at b names))

/-- `_dom_element_copy`, src/core/element.c:1533-1552, and `_dom_element_copy_internal`, :1554-1597.  A
failure to copy the attributes is not noticed: the list is then `NULL`.  The class cache of the new element
is unwritten while its attributes are copied. -/
def copyElem (e : Elem) : M (Except Exc Elem) := do
  let b ← malloc
  match b with
  | none => pure (.error .noMem)
  | some b =>
    let attrs ← listClone .junk e.attrs []
    let c ← copyClasses e.classes
    match c with
    | .error x =>
      unref b
      pure (.error x)
    | .ok c =>
      ref e.name
      pure (.ok { block := b, name := e.name, attrs := attrs.getD [], classes := c })

/-- `_dom_element_finalise` and `_dom_element_destroy`, src/core/element.c:616-648, of an element without children: its attributes, its
class cache, its name and its block. The cache is empty once the attribute `class` is gone. -/
def destroyAttrs : Classes → List ListNode → M Classes
  | c, [] => pure c
  | c, n :: ns => do
    nodeDestroy n (some c)
    destroyAttrs (if n.cls then .null else c) ns

/-- See `destroyAttrs`. -/
def destroyElem (e : Elem) : M Unit := do
  let c ← destroyAttrs e.classes e.attrs
  destroyClasses c
  unref e.name
  unref e.block

end Dom.Oom
