import Verif.Tree.Normalize
import Verif.Query.Model
/-!
# The XML parser binding for expat: bindings/xml/expat_xmlparser.c

expat is represented by the sequence of events it reports to the handlers.  Not modelled: the text of the messages given to `parser->msg` (they are counted), failures of
`malloc`, and external entities (bindings/xml/expat_xmlparser.c:303-362), which are parsed by another expat parser with the same handlers and so are more events.
-/
namespace Dom.Xml

open Dom.Tree
open Dom.Str (Bytes DStr)

/-- One attribute in `atts`, bindings/xml/expat_xmlparser.c:93-152: `*atts` and the value after it. -/
structure Att where
  name : Bytes
  value : Bytes
  deriving DecidableEq, Repr

/-- The calls of the handlers, bindings/xml/expat_xmlparser.c:527-551.  `other` is the default handler, which is called for everything without a handler of its own,
among it processing instructions. -/
inductive Event
  | start (name : Bytes) (atts : List Att)
  | finish
  | startCdata
  | endCdata
  | chars (s : Bytes)
  | comment (s : Bytes)
  | doctype (name : Bytes) (systemId publicId : Option Bytes)
  | other (s : Bytes)
  deriving DecidableEq, Repr

/-- An attribute as it is stored: namespace, local name and value. -/
abbrev Stored := Option Bytes × Bytes × Bytes

/-- `struct dom_xml_parser`, bindings/xml/expat_xmlparser.c:25-32, and the memory.  Simplified: the attributes of the elements are kept beside the tree, `atts`, in the
order in which they were set (setting attributes is modelled in Verif/Attr), and so are the public and the system identifier of a DocumentType, `ids`, which
the tree does not have. -/
structure St where
  doc : NodeId
  current : NodeId
  isCdata : Bool
  w : World
  atts : NodeId → List Stored
  ids : NodeId → Option (Bytes × Bytes)
  msgs : Nat

/-- `strchr(name, '\n')`, bindings/xml/expat_xmlparser.c:46 and 95: what stands before and after the first line feed. -/
def splitSep (s : Bytes) : Option Bytes × Bytes :=
  if (10 : UInt8) ∈ s then (some (s.takeWhile (· ≠ 10)), (s.dropWhile (· ≠ 10)).tail) else (none, s)

/-- A call, and what is done when it returned an exception and when it did not. -/
def orElse {α β : Type} (m : M α) (bad : M β) (good : α → M β) : M β := fun w =>
  match m w with
  | .ok w' a => good a w'
  | .exc w' _ => bad w'
  | .fault f => .fault f

/-- The new element, bindings/xml/expat_xmlparser.c:50-91, with `_dom_document_create_element`, src/core/document.c:467-474. -/
def createElem (doc : NodeId) (name : Bytes) : M NodeId :=
  match splitSep name with
  | (none, n) => do
    liftOut (Names.createNamed (some (Str.createInterned n)))
    createNode doc .element (some (Str.createInterned n)) none
  | (some u, n) => Query.createNodeNS doc .element (some (Str.createInterned u)) (some (Str.createInterned n))

/-- The checks of `dom_element_set_attribute` and `dom_element_set_attribute_ns` (src/core/element.c:865-897, 1649-1650) for an element that is not read-only, and what
is stored. -/
def attOne (a : Att) : Out Stored :=
  match splitSep a.name with
  | (none, n) => if Names.validateAttributeName (some (Str.createInterned n)) = false then .exc .invalidCharacter else .ok (none, n, a.value)
  | (some u, n) => do
    let (_, l) ← Names.createNamedNS (some (Str.createInterned u)) (some (Str.createInterned n))
    if Names.validateAttributeName (some l) = false then .exc .invalidCharacter else .ok (some u, l.data, a.value)

/-- `_dom_element_set_attr`, src/core/element.c:1656-1735, with `_dom_element_attr_list_find_by_name`, src/core/element.c:198-221: the first attribute with this name and this
namespace, or with this name in any namespace if none is given, gets the value; if there is none the attribute is put at the end. -/
def putAtt : List Stored → Stored → List Stored
  | [], a => [a]
  | b :: l, a => if (a.1 = none ∨ b.1 = a.1) ∧ b.2.1 = a.2.1 then (b.1, b.2.1, a.2.2) :: l else b :: putAtt l a

/-- The loop over the attributes, bindings/xml/expat_xmlparser.c:93-152, up to the first one that is refused. -/
def attLoop : List Stored → List Att → Out (List Stored)
  | l, [] => .ok l
  | l, a :: as => do
    let s ← attOne a
    attLoop (putAtt l s) as

/-- Inserting the new element and making it the current one, bindings/xml/expat_xmlparser.c:154-166. -/
def enter (cur e : NodeId) : M (Option NodeId) :=
  orElse (appendChild cur e)
    (do unref e
        pure none)
    fun r => do
      unref r
      unref cur
      pure (some e)

/-- What follows the creation of the element, bindings/xml/expat_xmlparser.c:92-166. -/
def fill (cur e : NodeId) (l : Out (List Stored)) : M (Option NodeId) :=
  match l with
  | .ok _ => enter cur e
  | .exc _ => do
    unref e
    pure none
  | .fault f => M.crash f

/-- `expat_xmlparser_start_element_handler`, bindings/xml/expat_xmlparser.c:36-167: the new current node, or `none` after a message. -/
def startTree (doc cur : NodeId) (name : Bytes) (l : Out (List Stored)) : M (Option NodeId) :=
  orElse (createElem doc name) (pure none) fun e => fill cur e l

/-- `expat_xmlparser_end_element_handler`, bindings/xml/expat_xmlparser.c:169-200. -/
def endTree (doc cur : NodeId) : M (Option NodeId) := do
  let p ← visit .parent cur
  match p with
  | none => pure none
  | some q =>
    if q = doc then do
      unref q
      pure none
    else do
      unref cur
      pure (some q)

/-- Appending a new node that is not entered, bindings/xml/expat_xmlparser.c:286-300, 396-411 and 439-454: `false` after a message. -/
def attachLeaf (parent c : NodeId) : M Bool :=
  orElse (appendChild parent c)
    (do unref c
        pure false)
    fun r => do
      unref r
      unref c
      pure true

/-- `dom_node_get_node_type(lastchild, &ntype)`, bindings/xml/expat_xmlparser.c:238-253: whether the last child is a Text. -/
def isText : Option NodeId → M Bool
  | none => pure false
  | some l => do
    let n ← getNode l
    pure (decide (n.type = .text))

/-- `if (lastchild != NULL) dom_node_unref(lastchild)`, bindings/xml/expat_xmlparser.c:267-268. -/
def unrefMaybe : Option NodeId → M Unit
  | none => pure ()
  | some l => unref l

/-- Adding to the text that is there, bindings/xml/expat_xmlparser.c:253-265. -/
def addText (last : Option NodeId) (data : DStr) : M Bool :=
  match last with
  | none => M.crash .nullDeref
  | some l => orElse (appendData l (some data))
      (do unref l
          pure false)
      fun _ => do
        unref l
        pure true

/-- A new Text or CDATASection, bindings/xml/expat_xmlparser.c:267-300. -/
def newChars (doc cur : NodeId) (isCdata : Bool) (last : Option NodeId) (data : DStr) : M Bool := do
  unrefMaybe last
  let c ← createNode doc (if isCdata then .cdata else .text) none (some data)
  attachLeaf cur c

/-- `expat_xmlparser_cdata_handler`, bindings/xml/expat_xmlparser.c:218-301. -/
def charsTree (doc cur : NodeId) (isCdata : Bool) (data : DStr) : M Bool := do
  let last ← visit .last cur
  let t ← isText last
  (if t && !isCdata then addText last data else newChars doc cur isCdata last data)

/-- `expat_xmlparser_comment_handler`, bindings/xml/expat_xmlparser.c:364-413. -/
def commentTree (doc cur : NodeId) (data : DStr) : M Bool := do
  let c ← createNode doc .comment none (some data)
  attachLeaf cur c

/-- The new DocumentType, `dom_implementation_create_document_type`, src/core/implementation.c:60-121; the parts of the name are not used. -/
def newDoctype (name : Bytes) : M NodeId := do
  let _ ← liftOut (Names.splitQName (Str.create name))
  createDoctype (some (Str.create name))

/-- `expat_xmlparser_start_doctype_decl_handler`, bindings/xml/expat_xmlparser.c:415-455: the DocumentType if it is in the document. -/
def doctypeTree (doc : NodeId) (name : Bytes) : M (Option NodeId) :=
  orElse (newDoctype name) (pure none) fun c => do
    let b ← attachLeaf doc c
    pure (if b then some c else none)

/-- The parameters `public_id` and `system_id` of `dom_implementation_create_document_type`, src/core/implementation.c:60-62, as they are given in
bindings/xml/expat_xmlparser.c:428-431: the system identifier first. -/
def doctypeIds (systemId publicId : Option Bytes) : Bytes × Bytes := (systemId.getD [], publicId.getD [])

/-- Running a function on the tree. -/
def onTree {α : Type} (st : St) (m : M α) (f : World → α → St) : Out St :=
  match m st.w with
  | .ok w a => .ok (f w a)
  | .exc _ e => .exc e
  | .fault g => .fault g

/-- After `startTree`. -/
def started (st : St) (l : Out (List Stored)) (w : World) : Option NodeId → St
  | none => { st with w := w, msgs := st.msgs + 1 }
  | some e => { st with w := w, current := e, atts := fun j => if j = e then (match l with | .ok x => x | _ => []) else st.atts j }

/-- After `endTree`. -/
def finished (st : St) (w : World) : Option NodeId → St
  | none => { st with w := w, msgs := st.msgs + 1 }
  | some p => { st with w := w, current := p }

/-- After `charsTree` and `commentTree`. -/
def added (st : St) (w : World) (b : Bool) : St := { st with w := w, msgs := if b then st.msgs else st.msgs + 1 }

/-- After `doctypeTree`. -/
def declared (st : St) (ids : Bytes × Bytes) (w : World) : Option NodeId → St
  | none => { st with w := w, msgs := st.msgs + 1 }
  | some c => { st with w := w, ids := fun j => if j = c then some ids else st.ids j }

/-- One event, bindings/xml/expat_xmlparser.c:36-465. -/
def step (st : St) : Event → Out St
  | .start name atts => onTree st (startTree st.doc st.current name (attLoop [] atts)) (started st (attLoop [] atts))
  | .finish => onTree st (endTree st.doc st.current) (finished st)
  | .startCdata => .ok { st with isCdata := true }
  | .endCdata => .ok { st with isCdata := false }
  | .chars s => onTree st (charsTree st.doc st.current st.isCdata (Str.create s)) (added st)
  | .comment s => onTree st (commentTree st.doc st.current (Str.create s)) (added st)
  | .doctype name sys pub => onTree st (doctypeTree st.doc name) (declared st (doctypeIds sys pub))
  | .other _ => .ok st

/-- The events that expat reports for the data given, bindings/xml/expat_xmlparser.c:583-620. -/
def steps (st : St) : List Event → Out St
  | [] => .ok st
  | e :: es => do
    let st ← step st e
    steps st es

/-- `dom_xml_parser_create`, bindings/xml/expat_xmlparser.c:478-558: the document has a reference for the caller, one for `parser->doc` and one for `parser->current`. -/
def create (w : World) : Out St :=
  match (do
    let d ← createDocument
    ref d
    ref d
    pure d : M NodeId) w with
  | .ok w d => .ok { doc := d, current := d, isCdata := false, w := w, atts := fun _ => [], ids := fun _ => none, msgs := 0 }
  | .exc _ e => .exc e
  | .fault g => .fault g

/-- `dom_xml_parser_destroy`, bindings/xml/expat_xmlparser.c:565-573. -/
def destroy (st : St) : Out World :=
  match (do
    unref st.current
    unref st.doc : M Unit) st.w with
  | .ok w _ => .ok w
  | .exc _ e => .exc e
  | .fault g => .fault g

end Dom.Xml
