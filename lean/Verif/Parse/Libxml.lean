import Verif.Parse.Xml
/-!
# The XML parser binding for libxml2: bindings/xml/libxml_xmlparser.c

libxml2 is represented by the sequence of events it reports to the handlers and by the part of its own tree that the handlers look at: the nodes that are open and their
children (`Frame`).  The handlers first let libxml2 extend its tree (`xmlSAX2StartElementNs` and so on), then copy what is new into the document.  Not modelled: the text of
the messages given to `parser->msg`, failures of `malloc`, the user data that points from a node of the document to the node of libxml2 (nothing reads it but
bindings/xml/libxml_xmlparser.c:374-375, for the document), and the handlers that only hand the event on to libxml2 and concern the DTD (bindings/xml/libxml_xmlparser.c:1281-1376,
1399-1404, 1413-1419).
-/
namespace Dom.Libxml

open Dom.Tree
open Dom.Str (Bytes DStr)
open Dom.Xml (orElse attachLeaf newDoctype)

/-- The name of an element or an attribute in libxml2's tree, as bindings/xml/libxml_xmlparser.c:669-751 and 759-843 read it: `ns->prefix` and `ns->href`, and `name`. -/
structure XName where
  ns : Option (Option Bytes × Bytes)
  name : Bytes
  deriving DecidableEq, Repr

/-- What stands in the DTD, as bindings/xml/libxml_xmlparser.c:1094-1100 meets it: the children of an entity reference are, in libxml2, the declaration of the entity and the
nodes that follow it in the DTD.  `decl` is a declaration of any kind: `xml_parser_add_node` does nothing for it (bindings/xml/libxml_xmlparser.c:642-648 and 1138-1148). -/
inductive DtdItem
  | decl
  | comment (s : Bytes)
  deriving DecidableEq, Repr

/-- A child of an attribute, bindings/xml/libxml_xmlparser.c:845-853: a text or an entity reference. -/
inductive Piece
  | text (s : Bytes)
  | ref (name : Bytes) (kids : List DtdItem)
  deriving DecidableEq, Repr

/-- An attribute in libxml2's tree, bindings/xml/libxml_xmlparser.c:754-853. -/
structure XAttr where
  id : XName
  value : List Piece
  deriving DecidableEq, Repr

/-- A child of a node in libxml2's tree, bindings/xml/libxml_xmlparser.c:628-650.  Of an element only its place among the other children is used here; `other` is a node of
any other kind. -/
inductive XItem
  | elem
  | text (s : Bytes)
  | cdata (s : Bytes)
  | ref (name : Bytes) (kids : List DtdItem)
  | comment (s : Bytes)
  | dtd (name : Bytes) (publicId systemId : Option Bytes)
  | other
  deriving DecidableEq, Repr

/-- An open node of libxml2's tree: `_private`, the node of the document it is linked to, and its children, the last one first. -/
structure Frame where
  priv : Option NodeId
  kids : List XItem
  deriving DecidableEq, Repr

/-- The calls of the handlers, bindings/xml/libxml_xmlparser.c:106-139.  Comments inside of the DTD, which libxml2 puts there, are not among them.  `bad`: after libxml2's own function, the last error of libxml2 is one of level `XML_ERR_ERROR` or more. -/
inductive Event
  | startDoc (bad : Bool)
  | endDoc (bad : Bool)
  | start (name : XName) (atts : List XAttr) (bad : Bool)
  | finish (bad : Bool)
  | chars (s : Bytes)
  | cdata (s : Bytes)
  | comment (s : Bytes)
  | ref (name : Bytes) (kids : List DtdItem)
  | dtd (name : Bytes) (publicId systemId : Option Bytes)
  | pi (target data : Bytes)
  deriving DecidableEq, Repr

/-- A piece of an attribute's value as it is stored. -/
inductive Val
  | text (s : Bytes)
  | ref (name : Bytes)
  deriving DecidableEq, Repr

/-- An attribute as it is stored. -/
structure Stored where
  ns : Option Bytes
  pfx : Option Bytes
  name : Bytes
  value : List Val
  deriving DecidableEq, Repr

/-- `struct dom_xml_parser`, bindings/xml/libxml_xmlparser.c:90-101, the memory, and libxml2's tree: the frame of the document and those of the open elements, the innermost
one first.  `err`: `parser->err` is not `DOM_NO_ERR`.  Simplified: the attributes of the elements are kept beside the tree, `atts`, and so are the public and the system identifier
of a DocumentType, `ids`. -/
structure St where
  doc : NodeId
  w : World
  atts : NodeId → List Stored
  ids : NodeId → Option (Bytes × Bytes)
  err : Bool
  root : Frame
  inner : List Frame

/-- `parser->xml_ctx->node`, or the document if that is NULL, bindings/xml/libxml_xmlparser.c:432 and 454-457. -/
def St.top (st : St) : Frame :=
  match st.inner with
  | [] => st.root
  | f :: _ => f

/-- The same with another innermost frame. -/
def St.setTop (st : St) (f : Frame) : St :=
  match st.inner with
  | [] => { st with root := f }
  | _ :: fs => { st with inner := f :: fs }

/-- Whether a child is an element, bindings/xml/libxml_xmlparser.c:388, 470 and 543. -/
def XItem.isElem : XItem → Bool
  | .elem => true
  | _ => false

/-- The children after the last element, or all, in order: bindings/xml/libxml_xmlparser.c:386-398, 467-480 and 541-553. -/
def pending (kids : List XItem) : List XItem := (kids.takeWhile fun x => !x.isElem).reverse

/-- libxml2 adds characters to its tree (`xmlSAX2Characters` called in bindings/xml/libxml_xmlparser.c:1385-1390): to the last child if it is a text. -/
def putText (s : Bytes) : List XItem → List XItem
  | .text t :: l => .text (t ++ s) :: l
  | l => .text s :: l

/-- libxml2 adds characters of a CDATA section (`xmlSAX2CDataBlock` called in bindings/xml/libxml_xmlparser.c:1406-1411). -/
def putCdata (s : Bytes) : List XItem → List XItem
  | .cdata t :: l => .cdata (t ++ s) :: l
  | l => .cdata s :: l

/-- "prefix:localname", or "localname" if there is no prefix, bindings/xml/libxml_xmlparser.c:716-722 and 808-814. -/
def qname (p : Option Bytes) (name : Bytes) : Bytes :=
  match p with
  | none => name
  | some p => p ++ 58 :: name

/-- The new element, bindings/xml/libxml_xmlparser.c:668-751, with `_dom_document_create_element`, src/core/document.c:467-474. -/
def createElem (doc : NodeId) (n : XName) : M NodeId :=
  match n.ns with
  | none => do
    liftOut (Names.createNamed (some (Str.create n.name)))
    createNode doc .element (some (Str.create n.name)) none
  | some (p, u) => Query.createNodeNS doc .element (some (Str.create u)) (some (Str.create (qname p n.name)))

/-- The new attribute, bindings/xml/libxml_xmlparser.c:758-843, with `_dom_document_create_attribute`, src/core/document.c:633-640, and
`_dom_document_create_attribute_ns`, src/core/document.c:803-838: namespace, prefix and local name. -/
def attrName (n : XName) : Out (Option Bytes × Option Bytes × Bytes) :=
  match n.ns with
  | none => do
    Names.createNamed (some (Str.create n.name))
    .ok (none, none, n.name)
  | some (p, u) => do
    let (q, l) ← Names.createNamedNS (some (Str.create u)) (some (Str.create (qname p n.name)))
    .ok (some u, q.map (·.data), l.data)

/-- Whether it is a comment. -/
def DtdItem.isComment : DtdItem → Bool
  | .comment _ => true
  | .decl => false

/-- A piece of the value, bindings/xml/libxml_xmlparser.c:845-853.  A comment among the nodes after the declaration of the entity cannot be put into the entity reference, which is read-only
(`refKids`).  Simplified: the nodes in an attribute are not in the memory, so the entity reference that is then lost (bindings/xml/libxml_xmlparser.c:1098-1099) is not either. -/
def mirrorPiece : Piece → Out Val
  | .text s => .ok (.text s)
  | .ref name kids => do
    Names.createNamed (some (Str.create name))
    if kids.any (·.isComment) then .exc .noModificationAllowed else .ok (.ref name)

/-- All pieces of the value, bindings/xml/libxml_xmlparser.c:845-853. -/
def mirrorValue : List Piece → Out (List Val)
  | [] => .ok []
  | p :: ps => do
    let v ← mirrorPiece p
    let vs ← mirrorValue ps
    .ok (v :: vs)

/-- Whether it is an entity reference. -/
def Val.isRef : Val → Bool
  | .ref _ => true
  | .text _ => false

/-- "class". -/
def classBytes : Bytes := [99, 108, 97, 115, 115]

/-- `_dom_element_attr_list_find_by_name`, src/core/element.c:198-221: whether `b` is found under the name and the namespace of `a`. -/
def fits (a b : Stored) : Bool := decide ((a.ns = none ∨ b.ns = a.ns) ∧ b.name = a.name)

/-- `_dom_element_set_attr_node`, src/core/element.c:1890-2032, for an attribute that is new.  `_dom_element_attr_list_node_create`, src/core/element.c:314-355, reads the value of an
attribute "class"; a value with an entity reference cannot be read (src/core/entity_ref.c:103-110), and then `_dom_element_attr_list_node_destroy`, src/core/element.c:276-304, is called before
the attribute has an element.  An attribute found at the head of the list is freed while `element->attributes` still points to it (src/core/element.c:1941-1942 and 2025-2029); one found
elsewhere is taken out of the list. -/
def setNode (l : List Stored) (a : Stored) : Out (List Stored) :=
  if a.ns = none ∧ a.name = classBytes ∧ a.value.any (·.isRef) = true then .fault .nullDeref
  else
    match l with
    | [] => .ok [a]
    | b :: l => if fits a b then .fault .useAfterFree else .ok (b :: l.eraseP (fits a) ++ [a])

/-- The loop over the attributes, bindings/xml/libxml_xmlparser.c:753-892, up to the first one that is refused. -/
def attLoop : List Stored → List XAttr → Out (List Stored)
  | l, [] => .ok l
  | l, a :: as => do
    let (u, p, n) ← attrName a.id
    let v ← mirrorValue a.value
    let l ← setNode l ⟨u, p, n, v⟩
    attLoop l as

/-- Appending the new node, giving up the reference of the insertion, linking the nodes and giving up the reference of the creation: bindings/xml/libxml_xmlparser.c:894-916, 964-987,
1028-1051, 1102-1125, 1186-1209 and 1251-1274.  The new node in a list, or `none` if it was refused. -/
def attach (parent : Option NodeId) (c : NodeId) : M (Option (List NodeId)) :=
  match parent with
  | none => M.crash .nullDeref
  | some p => do
    let b ← attachLeaf p c
    pure (if b then some [c] else none)

/-- What follows the creation of the element, bindings/xml/libxml_xmlparser.c:753-926. -/
def fill (parent : Option NodeId) (e : NodeId) (l : Out (List Stored)) : M (Option (List NodeId)) :=
  match l with
  | .ok _ => attach parent e
  | .exc _ => do
    unref e
    pure none
  | .fault f => M.crash f

/-- `xml_parser_add_element_node`, bindings/xml/libxml_xmlparser.c:661-926. -/
def addElem (doc : NodeId) (parent : Option NodeId) (n : XName) (l : Out (List Stored)) : M (Option (List NodeId)) :=
  orElse (createElem doc n) (pure none) fun e => fill parent e l

/-- Putting the nodes after the declaration of the entity into the entity reference, bindings/xml/libxml_xmlparser.c:1094-1100. -/
def refKids (doc e : NodeId) : List DtdItem → M Bool
  | [] => pure true
  | .decl :: ks => refKids doc e ks
  | .comment s :: ks => do
    let c ← createNode doc .comment none (some (Str.create s))
    let b ← attachLeaf e c
    (if b then refKids doc e ks else pure false)

/-- The rest of `xml_parser_add_entity_reference`, bindings/xml/libxml_xmlparser.c:1094-1128: on failure of the loop the entity reference is not given up. -/
def putRef (doc : NodeId) (parent : Option NodeId) (e : NodeId) (kids : List DtdItem) : M (Option (List NodeId)) := do
  let b ← refKids doc e kids
  (if b then attach parent e else pure none)

/-- `xml_parser_add_entity_reference`, bindings/xml/libxml_xmlparser.c:1064-1128, with `_dom_document_create_entity_reference`, src/core/document.c:656-664. -/
def addRef (doc : NodeId) (parent : Option NodeId) (name : Bytes) (kids : List DtdItem) : M (Option (List NodeId)) :=
  orElse (do
      liftOut (Names.createNamed (some (Str.create name)))
      createNode doc .entityRef (some (Str.create name)) none)
    (pure none) fun e => putRef doc parent e kids

/-- A new Text, CDATASection or Comment: `xml_parser_add_text_node`, `xml_parser_add_cdata_section` and `xml_parser_add_comment`, bindings/xml/libxml_xmlparser.c:936-990, 1000-1054 and
1158-1212. -/
def addChars (doc : NodeId) (parent : Option NodeId) (t : NodeType) (s : Bytes) : M (Option (List NodeId)) := do
  let c ← createNode doc t none (some (Str.create s))
  attach parent c

/-- `xml_parser_add_node`, bindings/xml/libxml_xmlparser.c:601-651, for a node that is not an element: the new node in a list, the empty list if there is none, or `none` after an error. -/
def addItem (doc : NodeId) (parent : Option NodeId) : XItem → M (Option (List NodeId))
  | .elem => pure (some [])
  | .text s => addChars doc parent .text s
  | .cdata s => addChars doc parent .cdata s
  | .ref name kids => addRef doc parent name kids
  | .comment s => addChars doc parent .comment s
  | .dtd name _ _ => orElse (newDoctype name) (pure none) fun c => attach parent c
  | .other => pure (some [])

/-- Running a function on the tree. -/
def onTree {α β : Type} (w : World) (m : M α) (f : World → α → β) : Out β :=
  match m w with
  | .ok w a => .ok (f w a)
  | .exc _ e => .exc e
  | .fault g => .fault g

/-- The identifiers of a DocumentType, `xml_parser_add_document_type`, bindings/xml/libxml_xmlparser.c:1230-1244. -/
def XItem.ids : XItem → Option (Bytes × Bytes)
  | .dtd _ p s => some (p.getD [], s.getD [])
  | _ => none

/-- After `addItem`. -/
def added (st : St) (x : XItem) (w : World) : Option (List NodeId) → St
  | none => { st with w := w, err := true }
  | some l => { st with w := w, ids := fun j => if j ∈ l then x.ids else st.ids j }

/-- Copying nodes up to the first one that is refused, bindings/xml/libxml_xmlparser.c:400-406, 482-489 and 555-561. -/
def mirror (st : St) (parent : Option NodeId) : List XItem → Out St
  | [] => .ok st
  | x :: xs => do
    let st ← onTree st.w (addItem st.doc parent x) (added st x)
    if st.err then .ok st else mirror st parent xs

/-- After `addElem`: the innermost node is linked with the new element. -/
def entered (st : St) (l : Out (List Stored)) (w : World) : Option (List NodeId) → St
  | none => { st with w := w, err := true }
  | some es => { (st.setTop { st.top with priv := es.head? }) with
      w := w, atts := fun j => if j ∈ es then (match l with | .ok x => x | _ => []) else st.atts j }

/-- Copying the new element, bindings/xml/libxml_xmlparser.c:492-495. -/
def enter (st : St) (parent : Option NodeId) (n : XName) (atts : List XAttr) : Out St :=
  if st.err then .ok st
  else onTree st.w (addElem st.doc parent n (attLoop [] atts)) (entered st (attLoop [] atts))

/-- libxml2 opens an element in its tree (`xmlSAX2StartElementNs` called in bindings/xml/libxml_xmlparser.c:439-441). -/
def push (st : St) : St :=
  { (st.setTop { st.top with kids := .elem :: st.top.kids }) with inner := ⟨none, []⟩ :: (st.setTop { st.top with kids := .elem :: st.top.kids }).inner }

/-- `xml_parser_start_element_ns`, bindings/xml/libxml_xmlparser.c:425-496. -/
def startElem (st : St) (n : XName) (atts : List XAttr) (bad : Bool) : Out St :=
  if bad then .ok (push st)
  else do
    let st' ← mirror (push st) st.top.priv (pending st.top.kids)
    enter st' st.top.priv n atts

/-- `xml_parser_end_element_ns`, bindings/xml/libxml_xmlparser.c:506-562.  libxml2 leaves the element (`xmlSAX2EndElementNs`). -/
def endElem (st : St) (bad : Bool) : Out St :=
  match st.inner with
  | [] => if bad then .ok st else .fault .nullDeref
  | f :: fs =>
    if bad = true ∨ f.priv = none then .ok { st with inner := fs }
    else mirror { st with inner := fs } f.priv (pending f.kids)

/-- `xml_parser_end_document`, bindings/xml/libxml_xmlparser.c:346-407.  The user data of the document is libxml2's document if they were linked. -/
def endDoc (st : St) (bad : Bool) : Out St :=
  if bad = true ∨ st.root.priv = none then .ok st
  else mirror st st.root.priv (pending st.root.kids)

/-- Adding a child to the innermost element; libxml2 has no element outside of the root element and then adds nothing. -/
def toElem (st : St) (g : List XItem → List XItem) : St :=
  match st.inner with
  | [] => st
  | f :: fs => { st with inner := { f with kids := g f.kids } :: fs }

/-- One event.  The handlers of the first four do nothing after an error (bindings/xml/libxml_xmlparser.c:321-322, 353-354, 435-436 and 514-515); the others hand the event on to
libxml2 (bindings/xml/libxml_xmlparser.c:1281-1287, 1378-1397 and 1406-1411).  `startDoc`: bindings/xml/libxml_xmlparser.c:316-339.
There is no handler for processing instructions (bindings/xml/libxml_xmlparser.c:126), so libxml2 does nothing with them either. -/
def step (st : St) : Event → Out St
  | .startDoc bad => .ok (if st.err || bad then st else { st with root := { st.root with priv := some st.doc } })
  | .endDoc bad => if st.err then .ok st else endDoc st bad
  | .start n atts bad => if st.err then .ok st else startElem st n atts bad
  | .finish bad => if st.err then .ok st else endElem st bad
  | .chars s => .ok (toElem st (putText s))
  | .cdata s => .ok (toElem st (putCdata s))
  | .ref name kids => .ok (toElem st (.ref name kids :: ·))
  | .comment s => .ok (st.setTop { st.top with kids := .comment s :: st.top.kids })
  | .dtd name p s => .ok { st with root := { st.root with kids := .dtd name p s :: st.root.kids } }
  | .pi _ _ => .ok st

/-- The events that libxml2 reports for the data given, bindings/xml/libxml_xmlparser.c:266-309. -/
def steps (st : St) : List Event → Out St
  | [] => .ok st
  | e :: es => do
    let st ← step st e
    steps st es

/-- `dom_xml_parser_create`, bindings/xml/libxml_xmlparser.c:169-239: the document has a reference for the caller and one for `parser->doc`. -/
def create (w : World) : Out St :=
  onTree w (do
    let d ← createDocument
    ref d
    pure d) fun w d => { doc := d, w := w, atts := fun _ => [], ids := fun _ => none, err := false, root := ⟨none, []⟩, inner := [] }

/-- `dom_xml_parser_destroy`, bindings/xml/libxml_xmlparser.c:246-256. -/
def destroy (st : St) : Out World :=
  onTree st.w (unref st.doc) fun w _ => w

end Dom.Libxml
