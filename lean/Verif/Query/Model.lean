import Verif.Tree.PropsImport
import Verif.Names.Model
/-!
# Reading and comparing nodes: names, prefixes, values, equality, named ancestors

The functions of src/core/node.c and src/core/element.c that look at a node without moving it, and the two that
change its value or its prefix.
-/
namespace Dom.Query

open Dom.Tree
open Dom.Str (DStr Bytes)

/-! ## Names -/

/-- The string ":" of src/core/node.c:383-387. -/
def colonStr : DStr := Str.create [58]

/-- `_dom_node_get_node_name`, src/core/node.c:363-415. -/
def getNodeName (w : World) (x : NodeId) : Out DStr := do
  let n ← rdNode w x
  if !(n.type = .doctype || n.type = .document || n.owner.isSome) then .fault .assertFail
  else
    match n.name with
    | none => .fault .assertFail
    | some name =>
      match n.pfx with
      | some p => do
        let temp ← Str.concat (some p) (some colonStr)
        Str.concat (some temp) (some name)
      | none => .ok name

/-- `_dom_node_get_local_name`, src/core/node.c:1368-1389. -/
def getLocalName (w : World) (x : NodeId) : Out (Option DStr) := do
  let n ← rdNode w x
  if n.owner.isNone then .fault .assertFail
  else if n.type ≠ .element && n.type ≠ .attribute then .ok none
  else .ok n.name

/-- `_dom_document_create_element_ns` and `_dom_document_create_attribute_ns`, src/core/document.c:738-838 (`t` says which): the checks, the
splitting of the name, and the new node.  HTML elements differ only in the case of their names. -/
def createNodeNS (doc : NodeId) (t : NodeType) (ns qname : Option DStr) : M NodeId := fun w =>
  match Names.createNamedNS ns qname with
  | .ok (p, l) => initNode { type := t, name := some l, ns := ns, pfx := p, owner := some doc } w
  | .exc e => .exc w e
  | .fault f => .fault f

/-- The assignment of `node->prefix`, src/core/node.c:1337-1352: the empty string counts as NULL.  `dom_string_length` of a string that is not UTF-8 is
0, so such a prefix is dropped too. -/
def newPrefix (p : Option DStr) : Option DStr :=
  match p with
  | none => none
  | some s => if Names.lengthZero s then none else some s

/-- `_dom_node_set_prefix`, src/core/node.c:1319-1355. -/
def setPrefix (x : NodeId) (p : Option DStr) : M Unit := do
  let n ← getNode x
  if n.type ≠ .element && n.type ≠ .attribute || n.ns.isNone then pure ()
  else
    let ro ← readonly x
    throwIf ro .noModificationAllowed
    modNode x fun n => { n with pfx := newPrefix p }

/-! ## Values -/

/-- `_dom_node_set_node_value`, src/core/node.c:454-490.  `attrSet` is `dom_attr_set_value`, which an attribute is handed to (modelled as
`Attr.setValue`). -/
def setNodeValue (attrSet : NodeId → Option DStr → M Unit) (x : NodeId) (v : Option DStr) : M Unit := do
  let n ← getNode x
  if n.type = .document || n.type = .fragment || n.type = .doctype || n.type = .element || n.type = .entity || n.type = .entityRef ||
      n.type = .notation_ then pure ()
  else
    let ro ← readonly x
    throwIf ro .noModificationAllowed
    if n.type = .attribute then attrSet x v
    else modNode x fun n => { n with value := v }

/-- `_dom_node_get_node_value`, src/core/node.c:432-441; for an attribute the value is computed from its children (`Attr.getValue`), which is not
part of this function. -/
def getNodeValue (w : World) (x : NodeId) : Out (Option DStr) := do
  let n ← rdNode w x
  .ok n.value

/-! ## Attributes -/

/-- `dom_node_has_attributes`: `_dom_element_has_attributes` (src/core/element.c:1345-1351) for an Element, `_dom_node_has_attributes`
(src/core/node.c:1398-1404) for everything else. -/
def hasAttributes (w : World) (x : NodeId) : Out Bool := do
  let n ← rdNode w x
  if n.type = .element then .ok true else .ok false

/-! ## Equality -/

/-- `dom_node_get_attributes`: a map whose private data is the element (src/core/element.c:1325-1343), NULL for everything else
(src/core/node.c:675-682). -/
def getAttributes (x : NodeId) (n : Node) : Option NodeId := if n.type = .element then some x else none

/-- `_dom_namednodemap_equal`, src/core/namednodemap.c:312-318, with `attributes_equal`, src/core/element.c:2405-2412: maps made by
`_dom_element_get_attributes` all have the same operations, so the comparison is that of the elements. -/
def mapsEqual (m1 m2 : Option NodeId) : Out Bool :=
  match m1, m2 with
  | some a, some b => .ok (a = b)
  | _, _ => .fault .nullDeref

/-- `_dom_nodelist_equal`, src/core/nodelist.c:453-457, for two lists of child nodes: `_dom_nodelist_match` (:416-444) compares the roots. -/
def listsEqual (root1 root2 : NodeId) : Bool := root1 = root2

/-- `_dom_node_is_equal`, src/core/node.c:1654-1745. -/
def isEqualNode (w : World) (x y : NodeId) : Out Bool := do
  let a ← rdNode w x
  let b ← rdNode w y
  if a.type ≠ b.type then .ok false
  else if a.owner.isNone || b.owner.isNone then .fault .assertFail
  else if Str.isEqual a.name b.name = false then .ok false
  else if Str.isEqual a.pfx b.pfx = false then .ok false
  else if Str.isEqual a.ns b.ns = false then .ok false
  else if Str.isEqual a.value b.value = false then .ok false
  else do
    let same ← mapsEqual (getAttributes x a) (getAttributes y b)
    if same = false then .ok false
    else .ok (listsEqual x y)

/-! ## Ancestors by name -/

/-- The comparison `dom_string_caseless_lwc_isequal(node->name, name)`, after the assertion that there is a name. -/
def nameIs (n : Node) (name : Bytes) : Out Bool :=
  match n.name with
  | none => .fault .assertFail
  | some s => .ok (Str.caselessLwcIsEqual (some s) (some name))

/-- Loop of `dom_element_named_ancestor_node`, src/core/element.c:1248-1258. -/
def ancestorLoop (w : World) (name : Bytes) : Nat → Option NodeId → Out (Option NodeId)
  | 0, _ => .fault .diverge
  | _ + 1, none => .ok none
  | k + 1, some i => do
    let n ← rdNode w i
    if n.type ≠ .element then ancestorLoop w name k n.parent
    else do
      let b ← nameIs n name
      if b then .ok (some i) else ancestorLoop w name k n.parent

/-- `dom_element_named_ancestor_node`, src/core/element.c:1241-1261 (the caller gets a reference, which is not represented here). -/
def namedAncestor (w : World) (x : NodeId) (name : Bytes) : Out (Option NodeId) := do
  let n ← rdNode w x
  ancestorLoop w name (w.fresh + 1) n.parent

/-- Loop of `dom_element_named_parent_node`, src/core/element.c:1280-1290. -/
def namedParentLoop (w : World) (name : Bytes) : Nat → Option NodeId → Out (Option NodeId)
  | 0, _ => .fault .diverge
  | _ + 1, none => .ok none
  | k + 1, some i => do
    let n ← rdNode w i
    if n.type ≠ .element then namedParentLoop w name k n.parent
    else do
      let b ← nameIs n name
      .ok (if b then some i else none)

/-- `dom_element_named_parent_node`, src/core/element.c:1273-1293. -/
def namedParent (w : World) (x : NodeId) (name : Bytes) : Out (Option NodeId) := do
  let n ← rdNode w x
  namedParentLoop w name (w.fresh + 1) n.parent

/-- Loop of `dom_element_parent_node`, src/core/element.c:1312-1318. -/
def parentLoop (w : World) : Nat → Option NodeId → Out (Option NodeId)
  | 0, _ => .fault .diverge
  | _ + 1, none => .ok none
  | k + 1, some i => do
    let n ← rdNode w i
    if n.type ≠ .element then parentLoop w k n.parent
    else .ok (some i)

/-- `dom_element_parent_node`, src/core/element.c:1305-1321. -/
def parentElement (w : World) (x : NodeId) : Out (Option NodeId) := do
  let n ← rdNode w x
  parentLoop w (w.fresh + 1) n.parent

end Dom.Query
