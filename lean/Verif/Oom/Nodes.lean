import Verif.Oom.Doctype
/-!
# The functions that create nodes, when memory may run out

The functions `dom_document_create_...` of src/core/document.c:467-838, and those of src/html/html_document.c:555-1010 that take their place in HTML documents, request by
request.

Simplified: which names are valid is decided by `Rules` (Verif/Names/Model.lean has the real ones); strings are lists of characters and have no malformed UTF-8; the strings of
src/utils/namespace.c exist already.  The place of the new node in memory (type, owner, pending list) is in Verif/Tree/Model.lean.
-/
namespace Dom.Oom.Nodes
open Dom.Oom
open Dom.Oom.Chars (Str)
open Dom.Oom.Doctype (make splitQname at_)

/-- What names are valid: `_dom_validate_name`, src/utils/validate.c:131-173; `_dom_validate_ncname`, :223-268; the tests of src/utils/namespace.c:158-171 for a name without a prefix and
its namespace, and :207-228 for a prefix and its namespace; and whether a namespace is `dom_namespaces[DOM_NAMESPACE_SVG]`. -/
structure Rules where
  name : List Nat → Bool
  ncname : List Nat → Bool
  plain : List Nat → List Nat → Bool
  pre : List Nat → List Nat → Bool
  svg : List Nat → Bool

/-- A new node: its block, and the strings `name`, `value`, `namespace` and `prefix` of `struct dom_node_internal`, src/core/node.h:54-80. -/
structure Made where
  block : Nat
  name : Str
  value : Option Str
  ns : Option Str
  pre : Option Str

/-- A node is allocated and initialised: `_dom_node_initialise`, src/core/node.c:148-214, which cannot fail, called by `_dom_element_create` (src/core/element.c:547-609),
`_dom_attr_create` (src/core/attr.c:89-152), `_dom_text_create` (src/core/text.c:75-101), `_dom_comment_create` (src/core/comment.c:42-69), `_dom_cdata_section_create`
(src/core/cdatasection.c:40-67), `_dom_processing_instruction_create` (src/core/pi.c:47-74), `_dom_entity_reference_create` (src/core/entity_ref.c:48-74), `_dom_document_fragment_create`
(src/core/doc_fragment.c:47-73), and by `_dom_html_element_create` (src/html/html_element.c:43-82) and the other functions for HTML elements, for instance
src/html/html_div_element.c:34-50. -/
def nodeCreate (name : Str) (value ns pre : Option Str) : M (Except Exc Made) := do
  let b ← malloc
  match b with
  | none => pure (.error .noMem)
  | some b => do
      ref name.addr
      refOpt (at_ value)
      refOpt (at_ ns)
      refOpt (at_ pre)
      pure (.ok { block := b, name := name, value := value, ns := ns, pre := pre })

/-- A node whose name is a constant: `_dom_document_create_document_fragment`, `_text_node`, `_comment` and `_cdata_section`, src/core/document.c:487-590. -/
def fixedName (text : List Nat) (value : Option Str) : M (Except Exc Made) := do
  let n ← make text
  match n with
  | .error e => pure (.error e)
  | .ok n => do
      let r ← nodeCreate n value none none
      unref n.addr
      pure r

/-- The parts of a name are given back, src/core/document.c:764-771 and :829-836, src/html/html_document.c:928-932 and :1000-1007. -/
def tidy (l : Str) (p : Option Str) : M Unit := do
  unref l.addr
  unrefOpt (at_ p)

/-- A node from a qualified name, src/core/document.c:754-773 and :819-838; `_dom_html_document_create_attribute_ns`, src/html/html_document.c:984-1010. -/
def fromParts (q : Str) (ns : Option Str) : M (Except Exc Made) := do
  let s ← splitQname q
  match s with
  | .error e => pure (.error e)
  | .ok (p, l) => do
      let r ← nodeCreate l none ns p
      tidy l p
      pure r

/-- The tests for a prefix, src/utils/namespace.c:198-230. -/
def checkParts (R : Rules) (p l : Str) (n : Str) : M (Option Exc) :=
  if R.ncname p.data = false ∨ R.ncname l.data = false then do
    unref p.addr
    unref l.addr
    pure (some .namespace)
  else do
    unref l.addr
    unref p.addr
    pure (if R.pre p.data n.data then none else some .namespace)

/-- src/utils/namespace.c:192-230. -/
def checkLocal (R : Rules) (p : Str) (l : List Nat) (n : Str) : M (Option Exc) := do
  let l ← make l
  match l with
  | .error e => do
      unref p.addr
      pure (some e)
  | .ok l => checkParts R p l n

/-- src/utils/namespace.c:187-230. -/
def checkPrefix (R : Rules) (q : List Nat) (c : Nat) (n : Str) : M (Option Exc) := do
  let p ← make (q.take c)
  match p with
  | .error e => pure (some e)
  | .ok p => checkLocal R p (q.drop (c + 1)) n

/-- `_dom_namespace_validate_qname`, src/utils/namespace.c:129-234, for a name that is not NULL. -/
def validateQname (R : Rules) (q : Str) (ns : Option Str) : M (Option Exc) :=
  if R.name q.data = false then pure (some .namespace)
  else match q.data.idxOf? 58, ns with
    | none, none => pure none
    | none, some n => pure (if R.plain q.data n.data then none else some .namespace)
    | some 0, none => pure none
    | some 0, some _ => pure (some .namespace)
    | some (_ + 1), none => pure (some .namespace)
    | some (c + 1), some n => checkPrefix R q.data (c + 1) n

/-- The error that was found, or the node. -/
def orMake (e : Option Exc) (x : M (Except Exc Made)) : M (Except Exc Made) :=
  match e with
  | some e => pure (.error e)
  | none => x

/-- `_dom_document_create_element_ns`, src/core/document.c:738-773, and `_dom_document_create_attribute_ns`, :803-838. -/
def checkedNs (R : Rules) (q : Str) (ns : Option Str) : M (Except Exc Made) :=
  if R.name q.data = false then pure (.error .invalidCharacter)
  else do
    let e ← validateQname R q ns
    orMake e (fromParts q ns)

/-- `_dom_document_create_element` (src/core/document.c:467-474), `_processing_instruction` (:607-616), `_attribute` (:633-640) and `_entity_reference` (:656-664). -/
def checked (R : Rules) (q : Str) (value : Option Str) : M (Except Exc Made) :=
  if R.name q.data = false then pure (.error .invalidCharacter) else nodeCreate q value none none

/-- The lower case letters of ASCII become upper case, src/core/string.c:949-955. -/
def upperCase (d : List Nat) : List Nat := d.map fun c => if 97 ≤ c ∧ c ≤ 122 then c - 32 else c

/-- `dom_string_toupper`, src/core/string.c:932-966, for a string that is not interned; an interned one is made with as many requests (src/core/string.c:139-166), one of them in libwapcaplet. -/
def toUpper (s : Str) : M (Except Exc Str) := do
  let copy ← malloc
  match copy with
  | none => pure (.error .noMem)
  | some copy => do
      let u ← make (upperCase s.data)
      unref copy
      pure u

/-- The node is created and the string for its name given back, src/html/html_document.c:578-896. -/
def htmlNode (name : Str) (ns pre : Option Str) : M (Except Exc Made) := do
  let r ← nodeCreate name none ns pre
  unref name.addr
  pure r

/-- Is it the namespace of SVG, src/html/html_document.c:569. -/
def isSvg (R : Rules) : Option Str → Bool
  | none => false
  | some n => R.svg n.data

/-- `_dom_html_document_create_element_internal`, src/html/html_document.c:555-897. -/
def htmlElement (R : Rules) (q : Str) (ns pre : Option Str) : M (Except Exc Made) :=
  if q.data = [] then pure (.error .invalidCharacter)
  else if isSvg R ns then do
    unref q.addr
    htmlNode q ns pre
  else do
    let u ← toUpper q
    match u with
    | .error e => pure (.error e)
    | .ok u => htmlNode u ns pre

/-- `_dom_html_document_create_element_ns`, src/html/html_document.c:909-935. -/
def htmlElementNs (R : Rules) (q : Str) (ns : Option Str) : M (Except Exc Made) := do
  let s ← splitQname q
  match s with
  | .error e => pure (.error e)
  | .ok (p, l) => do
      let r ← htmlElement R l ns p
      tidy l p
      pure r

/-- A node without children and attributes is destroyed: `_dom_node_finalise`, src/core/node.c:224-298, and `free`, for instance src/core/text.c:111-118. -/
def destroyNode (n : Made) : M Unit := do
  unrefOpt (at_ n.pre)
  unrefOpt (at_ n.ns)
  unrefOpt (at_ n.value)
  unref n.name.addr
  unref n.block

/-- The calls, with their arguments. -/
inductive Call
  | element (q : Str)
  | attribute (q : Str)
  | entityReference (q : Str)
  | instruction (q : Str) (data : Option Str)
  | fragment
  | text (data : Option Str)
  | comment (data : Option Str)
  | cdata (data : Option Str)
  | elementNs (ns : Option Str) (q : Str)
  | attributeNs (ns : Option Str) (q : Str)
  | htmlElement (q : Str)
  | htmlElementNs (ns : Option Str) (q : Str)
  | htmlAttribute (q : Str)
  | htmlAttributeNs (ns : Option Str) (q : Str)

/-- One call: the functions of src/core/document.c named above, and `_dom_html_document_create_element` (src/html/html_document.c:899-907), `_attribute` (:951-955) and the others.  The
constants are `#document-fragment`, `#text`, `#comment` and `#cdata-section`. -/
def Call.run (R : Rules) : Call → M (Except Exc Made)
  | .element q => checked R q none
  | .attribute q => checked R q none
  | .entityReference q => checked R q none
  | .instruction q data => checked R q data
  | .fragment => fixedName [35, 100, 111, 99, 117, 109, 101, 110, 116, 45, 102, 114, 97, 103, 109, 101, 110, 116] none
  | .text data => fixedName [35, 116, 101, 120, 116] data
  | .comment data => fixedName [35, 99, 111, 109, 109, 101, 110, 116] data
  | .cdata data => fixedName [35, 99, 100, 97, 116, 97, 45, 115, 101, 99, 116, 105, 111, 110] data
  | .elementNs ns q => checkedNs R q ns
  | .attributeNs ns q => checkedNs R q ns
  | .htmlElement q => Nodes.htmlElement R q none none
  | .htmlElementNs ns q => Nodes.htmlElementNs R q ns
  | .htmlAttribute q => nodeCreate q none none none
  | .htmlAttributeNs ns q => fromParts q ns

end Dom.Oom.Nodes
