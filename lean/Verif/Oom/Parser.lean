import Verif.Oom.Make

/-!
# Creating parsers when memory may run out

The strings of the namespace component, which the first document makes, and the creation and destruction of
the parsers of the three bindings.
-/
namespace Dom.Oom

/-! ## The namespace component -/

/-- The static variables of src/utils/namespace.c:19-36: `xml`, `xmlns` and `dom_namespaces[1]` to
`dom_namespaces[6]`; all are `NULL` when the program starts. -/
structure Names where
  xml : Cell := .null
  xmlns : Cell := .null
  spaces : List Cell := List.replicate 6 .null

/-- The loop of `_dom_namespace_initialise`, src/utils/namespace.c:62-75: one string for each entry; what an
entry pointed to before is overwritten. -/
def fillSpaces : List Cell → M (Option Exc × List Cell)
  | [] => pure (none, [])
  | c :: cs => do
    let s ← createString
    match s with
    | .error e => pure (some e, c :: cs)
    | .ok s =>
      let o ← fillSpaces cs
      pure (o.1, .ptr s :: o.2)

/-- `_dom_namespace_initialise`, src/utils/namespace.c:43-78. -/
def initNames (n : Names) : M (Option Exc × Names) := do
  let xml ← createString
  match xml with
  | .error e => pure (some e, n)
  | .ok xml =>
    let xmlns ← createString
    match xmlns with
    | .error e =>
      unref xml
      pure (some e, { n with xml := .null })
    | .ok xmlns =>
      let o ← fillSpaces n.spaces
      match o.1 with
      | some e =>
        unref xmlns
        unref xml
        pure (some e, { xml := .null, xmlns := .null, spaces := o.2 })
      | none => pure (none, { xml := .ptr xml, xmlns := .ptr xmlns, spaces := o.2 })

/-- `_dom_namespace_validate_qname(NULL, NULL)`, src/utils/namespace.c:131-147: makes the strings if `xml` is
`NULL`, and has nothing else to do. -/
def useNames (n : Names) : M (Option Exc × Names) :=
  if n.xml = .null then initNames n else pure (none, n)

/-- A run of `dom_string_unref` calls on the pointers that are not `NULL`. -/
def unrefCells : List Cell → M Unit
  | [] => pure ()
  | c :: cs => do
    unrefCell c
    unrefCells cs

/-- `dom_namespace_finalise`, src/utils/namespace.c:85-107. -/
def finaliseNames (n : Names) : M Names := do
  unrefCell n.xmlns
  unrefCell n.xml
  unrefCells n.spaces
  pure {}

/-! ## Documents -/

/-- `dom_implementation_create_document` for XML without namespace, name and doctype,
src/core/implementation.c:153-217: a failure of the namespace component is reported as
`DOM_NAMESPACE_ERR`. -/
def newXml (n : Names) : M (Except Exc Doc × Names) := do
  let o ← useNames n
  match o.1 with
  | some _ => pure (.error .namespace, o.2)
  | none =>
    let d ← createDocument
    pure (d, o.2)

/-- `dom_implementation_create_document` for HTML without namespace, name and doctype,
src/core/implementation.c:153-217. -/
def newHtml (n : Names) : M (Except Exc HtmlDoc × Names) := do
  let o ← useNames n
  match o.1 with
  | some _ => pure (.error .namespace, o.2)
  | none =>
    let d ← createHtml
    pure (d, o.2)

/-- `dom_node_unref` of a document without nodes that has `count` references, include/dom/core/node.h:195-202
and src/core/node.c:2304-2322: the last reference destroys it.  Gives the number of references left. -/
def releaseDoc (d : Doc) : Nat → M Nat
  | 0 => crash .useAfterFree
  | 1 => do
    destroyDocument d
    pure 0
  | count + 2 => pure (count + 1)

/-- `dom_node_unref` of an HTML document without nodes that has `count` references,
include/dom/core/node.h:195-202 and src/core/node.c:2304-2322. -/
def releaseHtml (d : HtmlDoc) : Nat → M Nat
  | 0 => crash .useAfterFree
  | 1 => do
    destroyHtml d
    pure 0
  | count + 2 => pure (count + 1)

/-! ## The HTML parser -/

/-- The errors of `dom_hubbub_error`, bindings/hubbub/errors.h, that a creation can return. -/
inductive ParserErr
  | noMem | hubbub | dom
  deriving DecidableEq, Repr

/-- A `struct dom_hubbub_parser`, bindings/hubbub/parser.c:37-55: its block, the Hubbub parser and the
document, with the number of references to the document.  Simplified: the Hubbub parser is one block. -/
structure HtmlParser where
  binding : Nat
  hubbub : Nat
  doc : HtmlDoc
  count : Nat

/-- `_dom_document_set_id_name`, src/core/document.c:1582-1587. -/
def setIdName (d : Doc) (name : Nat) : M Doc := do
  (if d.field .idName ≠ .null then unrefCell (d.field .idName) else pure ())
  ref name
  pure (d.set .idName name)

/-- `_set_document_encoding`, bindings/hubbub/parser.c:57-62: a new string is written over `doc->encoding`; if
it cannot be made, nothing happens. -/
def setEncoding (d : Doc) (charset : Bool) : M Doc := do
  if charset then
    let s ← createString
    match s with
    | .error _ => pure d
    | .ok s => pure (d.set .encoding s)
  else pure d

/-- `dom_hubbub_parser_create`, bindings/hubbub/parser.c:766-883; `charset` says whether `params->enc` is
given.  The binding keeps the reference that comes with the document, the Hubbub parser gets a second one
(which `hubbub_parser_destroy` gives up), and the client a third. -/
def createParser (charset : Bool) (n : Names) : M (Except ParserErr HtmlParser × Names) := do
  let binding ← malloc
  match binding with
  | none => pure (.error .noMem, n)
  | some binding =>
    let hubbub ← malloc
    match hubbub with
    | none =>
      unref binding
      pure (.error .hubbub, n)
    | some hubbub =>
      let o ← newHtml n
      match o.1 with
      | .error _ =>
        unref hubbub
        unref binding
        pure (.error .dom, o.2)
      | .ok d =>
        let idname ← createString
        match idname with
        | .error _ =>
          let _ ← releaseHtml d 2
          unref hubbub
          unref binding
          pure (.error .dom, o.2)
        | .ok idname =>
          let b ← setIdName d.base idname
          unref idname
          let b ← setEncoding b charset
          pure (.ok { binding := binding, hubbub := hubbub, doc := { d with base := b }, count := 3 }, o.2)

/-- `dom_hubbub_parser_destroy`, bindings/hubbub/parser.c:1015-1026: Hubbub gives up its reference to the
document, then the binding gives up its own.  Gives the number of references left. -/
def destroyParser (p : HtmlParser) : M Nat := do
  let c ← releaseHtml p.doc p.count
  unref p.hubbub
  let c ← releaseHtml p.doc c
  unref p.binding
  pure c

/-- A fragment parser, bindings/hubbub/parser.c:37-55: the binding, the Hubbub parser, the document, the
fragment with its name and the number of references to it. -/
structure FragParser where
  binding : Nat
  hubbub : Nat
  doc : Nat
  fragment : Nat
  name : Nat
  count : Nat

/-- `dom_hubbub_fragment_parser_create`, bindings/hubbub/parser.c:895-996, with
`_dom_document_create_document_fragment`, src/core/document.c:487-502, and `_dom_document_fragment_create`,
src/core/doc_fragment.c:47-73.  The document belongs to the client, who holds it throughout, so that its
reference counts alone matter here. -/
def createFragParser (doc : Nat) : M (Except ParserErr FragParser) := do
  let binding ← malloc
  match binding with
  | none => pure (.error .noMem)
  | some binding =>
    ref doc
    let hubbub ← malloc
    match hubbub with
    | none =>
      unref doc
      unref binding
      pure (.error .hubbub)
    | some hubbub =>
      let name ← createString
      match name with
      | .error _ =>
        unref hubbub
        unref doc
        unref binding
        pure (.error .dom)
      | .ok name =>
        let frag ← malloc
        match frag with
        | none =>
          unref name
          unref hubbub
          unref doc
          unref binding
          pure (.error .dom)
        | some frag =>
          ref name
          unref name
          pure (.ok { binding := binding, hubbub := hubbub, doc := doc, fragment := frag, name := name,
                      count := 2 })

/-- `dom_node_unref` of the fragment, which is empty: the last reference destroys it,
src/core/doc_fragment.c:82-92, with its name, src/core/node.c:275-278. -/
def releaseFrag (p : FragParser) : Nat → M Nat
  | 0 => crash .useAfterFree
  | 1 => do
    unref p.name
    unref p.fragment
    pure 0
  | count + 2 => pure (count + 1)

/-- `dom_hubbub_parser_destroy`, bindings/hubbub/parser.c:1015-1026, of a fragment parser: Hubbub gives up the
fragment, the binding gives up the document. -/
def destroyFragParser (p : FragParser) : M Nat := do
  let c ← releaseFrag p p.count
  unref p.hubbub
  unref p.doc
  unref p.binding
  pure c

/-! ## The XML parsers -/

/-- A `struct dom_xml_parser` of the libxml binding, bindings/xml/libxml_xmlparser.c:90-101: its block, the
libxml context, the key for user data and the document, with the number of references to it.  Simplified: the libxml context is one block. -/
structure XmlParser where
  block : Nat
  ctx : Nat
  key : Nat
  doc : Doc
  count : Nat

/-- `dom_xml_parser_create` of the libxml binding, bindings/xml/libxml_xmlparser.c:169-239.  When the document
cannot be made, the parser is freed, and then `parser->msg` is read, :222-228.  Simplified:
`xmlCtxtUseOptions` does not fail. -/
def createLibxml (n : Names) : M (Option XmlParser × Names) := do
  let parser ← malloc
  match parser with
  | none => pure (none, n)
  | some parser =>
    let ctx ← malloc
    match ctx with
    | none =>
      unref parser
      pure (none, n)
    | some ctx =>
      let key ← createString
      match key with
      | .error _ =>
        unref ctx
        unref parser
        pure (none, n)
      | .ok key =>
        let o ← newXml n
        match o.1 with
        | .error _ =>
          unref ctx
          unref key
          unref parser
          crash .useAfterFree
        | .ok d =>
          pure (some { block := parser, ctx := ctx, key := key, doc := d, count := 2 }, o.2)

/-- `dom_xml_parser_destroy` of the libxml binding, bindings/xml/libxml_xmlparser.c:246-256. -/
def destroyLibxml (p : XmlParser) : M Nat := do
  unref p.key
  let c ← releaseDoc p.doc p.count
  unref p.ctx
  unref p.block
  pure c

/-- A `struct dom_xml_parser` of the expat binding, bindings/xml/expat_xmlparser.c:25-32: its block, the expat
parser, the document and the current node, which is the document, with the number of references to it.
Simplified: the expat parser is one
block. -/
structure ExpatParser where
  block : Nat
  expat : Nat
  doc : Doc
  count : Nat

/-- `dom_xml_parser_create` of the expat binding, bindings/xml/expat_xmlparser.c:478-558. -/
def createExpat (n : Names) : M (Option ExpatParser × Names) := do
  let parser ← malloc
  match parser with
  | none => pure (none, n)
  | some parser =>
    let expat ← malloc
    match expat with
    | none =>
      unref parser
      pure (none, n)
    | some expat =>
      let o ← newXml n
      match o.1 with
      | .error _ =>
        unref expat
        unref parser
        pure (none, o.2)
      | .ok d =>
        pure (some { block := parser, expat := expat, doc := d, count := 3 }, o.2)

/-- `dom_xml_parser_destroy` of the expat binding, bindings/xml/expat_xmlparser.c:565-573. -/
def destroyExpat (p : ExpatParser) : M Nat := do
  unref p.expat
  let c ← releaseDoc p.doc p.count
  let c ← releaseDoc p.doc c
  unref p.block
  pure c

end Dom.Oom
