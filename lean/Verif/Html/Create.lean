import Verif.Intern.Props
import Verif.Names.Model
/-!
# How an HTML document creates elements, and the strings it keeps, src/html/html_document.c:120-248, 258-548, 552-935, 1069-1122

The strings are those of `Verif.Intern.Model`: objects with a reference count.  What is modelled is which references are taken and given back and which
name, namespace, prefix and type the element gets.  The node itself, its place in the tree and its attributes are modelled in `Verif.Tree` and
`Verif.Attr`; here it is the record of what `_dom_element_initialise` stores in it.  Allocation does not fail.
-/
namespace Dom.Html.Create

open Dom.Intern
open Dom.Str (Bytes DStr)

/-- The bytes of a name of the code. -/
def label (t : String) : Bytes := t.toUTF8.toList

/-- The element names of include/dom/html/html_elements.h:11-145, without the first, `_UNKNOWN`.  `DOM_HTML_ELEMENT_TYPE_X` is represented by its name
`X`, and `doc->elements[DOM_HTML_ELEMENT_TYPE_X]` holds the bytes of `X` (src/html/html_document.c:163-173). -/
def tags : List String := [
  "A", "ABBR", "ACRONYM", "ADDRESS", "APPLET", "AREA", "ARTICLE", "ASIDE", "AUDIO", "B", "BASE", "BASEFONT", "BDI", "BDO", "BGSOUND", "BIG",
  "BLOCKQUOTE", "BODY", "BR", "BUTTON", "CANVAS", "CAPTION", "CENTER", "CITE", "CODE", "COL", "COLGROUP", "DATA", "DATALIST", "DD", "DEL", "DETAILS",
  "DFN", "DIALOG", "DIR", "DIV", "DL", "DT", "EM", "EMBED", "FIELDSET", "FIGCAPTION", "FIGURE", "FONT", "FOOTER", "FORM", "FRAME", "FRAMESET", "H1",
  "H2", "H3", "H4", "H5", "H6", "HEAD", "HEADER", "HGROUP", "HR", "HTML", "I", "IFRAME", "IMG", "INPUT", "INS", "ISINDEX", "KBD", "KEYGEN", "LABEL",
  "LEGEND", "LI", "LINK", "MAIN", "MAP", "MARK", "MARQUEE", "MENU", "MENUITEM", "META", "METER", "NAV", "NOBR", "NOFRAMES", "NOSCRIPT", "OBJECT",
  "OL", "OPTGROUP", "OPTION", "OUTPUT", "P", "PARAM", "PICTURE", "PRE", "PROGRESS", "Q", "RP", "RT", "RUBY", "S", "SAMP", "SCRIPT", "SECTION",
  "SELECT", "SLOT", "SMALL", "SOURCE", "SPACER", "SPAN", "STRIKE", "STRONG", "STYLE", "SUB", "SUMMARY", "SUP", "TABLE", "TBODY", "TD", "TEMPLATE",
  "TEXTAREA", "TFOOT", "TH", "THEAD", "TIME", "TITLE", "TR", "TRACK", "TT", "U", "UL", "VAR", "VIDEO", "WBR"]

/-- The names the cases of the switch on the length compare with, in order, `_dom_html_document_get_element_type`, src/html/html_document.c:273-545. -/
def casesOf : Nat → List String
  | 1 => ["P", "A", "B", "I", "S", "U", "Q"]
  | 2 => ["EM", "LI", "H1", "H2", "H3", "H4", "H5", "H6", "HR", "DD", "DT", "DL", "UL", "OL", "TD", "TH", "TR", "BR", "RP", "RT", "TT"]
  | 3 => ["DIV", "IMG", "PRE", "DEL", "INS", "COL", "MAP", "DIR", "SUB", "SUP", "DFN", "KBD", "NAV", "VAR", "BDI", "BDO", "WBR", "BIG"]
  | 4 => [
    "META", "CODE", "SPAN", "FORM", "LINK", "MENU", "FONT", "ABBR", "CITE", "DATA", "HTML", "BODY", "HEAD", "AREA", "MAIN", "MARK", "RUBY", "SAMP",
    "BASE", "TIME", "NOBR", "SLOT"]
  | 5 => [
    "INPUT", "TABLE", "STYLE", "THEAD", "TBODY", "TFOOT", "LABEL", "PARAM", "TITLE", "FRAME", "AUDIO", "ASIDE", "EMBED", "METER", "SMALL", "TRACK",
    "VIDEO"]
  | 6 => [
    "BUTTON", "OPTION", "SCRIPT", "IFRAME", "LEGEND", "SELECT", "OBJECT", "APPLET", "CANVAS", "DIALOG", "CENTER", "FIGURE", "FOOTER", "HEADER",
    "HGROUP", "KEYGEN", "OUTPUT", "SOURCE", "STRONG", "SPACER", "STRIKE"]
  | 7 => ["CAPTION", "ISINDEX", "ADDRESS", "ARTICLE", "DETAILS", "PICTURE", "SECTION", "SUMMARY", "ACRONYM", "BGSOUND", "MARQUEE"]
  | 8 => ["TEXTAREA", "OPTGROUP", "BASEFONT", "FIELDSET", "COLGROUP", "FRAMESET", "DATALIST", "MENUITEM", "NOSCRIPT", "PROGRESS", "TEMPLATE", "NOFRAMES"]
  | 10 => ["BLOCKQUOTE", "FIGCAPTION"]
  | _ => []

/-- `DOM_HTML_ELEMENT_TYPE__UNKNOWN`. -/
def unknown : String := "_UNKNOWN"

/-- `namespaces[DOM_NAMESPACE_SVG]`, src/utils/namespace.c:28. -/
def svgName : Bytes := label "http://www.w3.org/2000/svg"

/-- The fields of `struct dom_html_document` (src/html/html_document.h:19-36) with strings of the document, and `dom_namespaces[DOM_NAMESPACE_SVG]`,
which is `NULL` before `_dom_namespace_initialise` and after `dom_namespace_finalise` (src/utils/namespace.c:34-107).  `elements` and `memoised` are
`NULL` after `_dom_html_document_finalise`; otherwise they are the arrays, as pairs of index and string. -/
structure HtmlDoc where
  svg : Option Addr
  elements : Option (List (String × Addr))
  memoised : Option (List (String × Addr))
  title : Option Addr
  deriving DecidableEq

/-- What `_dom_element_initialise` stores in an element: `type`, `name`, `namespace`, `prefix`. -/
structure Elem where
  type : String
  name : Addr
  ns : Option Addr
  pfx : Option Addr
  deriving DecidableEq

/-- `array[index]` of one of the two arrays. -/
def entry (array : Option (List (String × Addr))) (index : String) : Out Addr :=
  match array with
  | none => .fault .nullDeref
  | some l =>
    match l.lookup index with
    | none => .fault .overrun
    | some a => .ok a

/-- The comparisons of one case, `RETURN_IF_MATCH`, src/html/html_document.c:258-259. -/
def matchLoop (s : Mem) (array : Option (List (String × Addr))) (name : Addr) : List String → Out String
  | [] => .ok unknown
  | t :: ts => do
    let e ← entry array t
    let b ← strIsEqual s (some name) (some e)
    if b then .ok t else matchLoop s array name ts

/-- `_dom_html_document_get_element_type`, src/html/html_document.c:267-547. -/
def elementType (s : Mem) (h : HtmlDoc) (name : Addr) : Out String := do
  let b ← strBytes s name
  matchLoop s h.elements name (casesOf b.length)

/-- `dom_string_ref` of a pointer that may be `NULL`, include/dom/core/string.h:25-30. -/
def refOpt (s : Mem) : Option Addr → Out Mem
  | none => .ok s
  | some a => strRef s a

/-- `dom_string_unref` of a pointer that may be `NULL`, include/dom/core/string.h:36-45. -/
def unrefOpt (s : Mem) : Option Addr → Out Mem
  | none => .ok s
  | some a => strUnref s a

/-- The references an element takes on its strings, `_dom_html_element_initialise` (src/html/html_element.c:68-84), `_dom_element_initialise`
(src/core/element.c:582-611) and `_dom_node_initialise` (src/core/node.c:148-213): the name, the namespace and the prefix.  Every specialised
`_dom_html_..._element_create` of the switch (src/html/html_document.c:584-880) calls `_dom_html_element_initialise` with the same arguments. -/
def elemInit (s : Mem) (type : String) (name : Addr) (ns pfx : Option Addr) : Out (Mem × Elem) := do
  let s ← strRef s name
  let s ← refOpt s ns
  let s ← refOpt s pfx
  .ok (s, ⟨type, name, ns, pfx⟩)

/-- The references an element gives back when it is destroyed, `_dom_node_finalise`, src/core/node.c:241-249, 274-277. -/
def elemFinalise (s : Mem) (e : Elem) : Out Mem := do
  let s ← unrefOpt s e.pfx
  let s ← unrefOpt s e.ns
  strUnref s e.name

/-- The name the element gets: the upper case of the tag name, or, in the SVG namespace, the tag name itself after giving back a reference on it,
src/html/html_document.c:569-576. -/
def takeName (s : Mem) (tag : Addr) (svg : Bool) : Out (Mem × Addr) :=
  if svg = false then strUpper s tag
  else do
    let s ← strUnref s tag
    .ok (s, tag)

/-- `_dom_html_document_create_element_internal`, src/html/html_document.c:553-897: the memory, and the exception or the element. -/
def createInternal (s : Mem) (h : HtmlDoc) (tag : Addr) (ns pfx : Option Addr) : Out (Mem × Except Exc Elem) := do
  let b ← strBytes s tag
  let n ← Str.length (some ⟨b, false⟩)
  if n = 0 then .ok (s, .error .invalidCharacter)
  else do
    let svg ← strIsEqual s ns h.svg
    let (s, name) ← takeName s tag svg
    let type ← elementType s h name
    let (s, e) ← elemInit s type name ns pfx
    let s ← strUnref s name
    .ok (s, .ok e)

/-- `_dom_html_document_create_element`, src/html/html_document.c:899-907. -/
def createElement (s : Mem) (h : HtmlDoc) (tag : Addr) : Out (Mem × Except Exc Elem) := createInternal s h tag none none

/-- `dom_string_substr` as a string of its own, src/core/string.c:602-647; the exception is a result so that the memory is known. -/
def strSubstr (s : Mem) (b : Bytes) (i j : Nat) : Out (Mem × Except Exc Addr) :=
  match Str.substr (some ⟨b, false⟩) i j with
  | .ok d => do
    let (s, a) ← strCreate s d.data
    .ok (s, .ok a)
  | .exc e => .ok (s, .error e)
  | .fault f => .fault f

/-- The second half of the split: the local name, and giving the prefix back when there is none, src/utils/namespace.c:273-281. -/
def splitLocal (s : Mem) (b : Bytes) (colon : Nat) (p : Addr) : Out (Mem × Except Exc (Option Addr × Addr)) := do
  let n ← Str.length (some ⟨b, false⟩)
  let (s, r) ← strSubstr s b (u32 (colon + 1)) n
  (match r with
   | .error e => do
     let s ← strUnref s p
     .ok (s, .error e)
   | .ok l => .ok (s, .ok (some p, l)))

/-- `_dom_namespace_split_qname`, src/utils/namespace.c:249-285: the prefix and the local name, each with a reference for the caller. -/
def split (s : Mem) (q : Addr) : Out (Mem × Except Exc (Option Addr × Addr)) := do
  let b ← strBytes s q
  let colon ← Str.index (some ⟨b, false⟩) 58
  if colon = u32max then do
    let s ← strRef s q
    .ok (s, .ok (none, q))
  else do
    let (s, r) ← strSubstr s b 0 colon
    (match r with
     | .error e => .ok (s, .error e)
     | .ok p => splitLocal s b colon p)

/-- `_dom_html_document_create_element_ns`, src/html/html_document.c:909-935. -/
def createElementNS (s : Mem) (h : HtmlDoc) (ns : Option Addr) (q : Addr) : Out (Mem × Except Exc Elem) := do
  let (s, r) ← split s q
  (match r with
   | .error e => .ok (s, .error e)
   | .ok (pfx, l) => do
     let (s, r) ← createInternal s h l ns pfx
     let s ← strUnref s l
     let s ← unrefOpt s pfx
     .ok (s, r))

/-- `_dom_html_element_should_normalize_attribute_name`, src/html/html_element.c:655-666, with `_dom_node_get_namespace`, src/core/node.c:1257-1269
(which takes a reference for the caller). -/
def shouldNormalise (s : Mem) (h : HtmlDoc) (e : Elem) : Out (Mem × Bool) :=
  if e.type = unknown then do
    let s ← refOpt s e.ns
    let b ← strIsEqual s e.ns h.svg
    .ok (s, b == false)
  else .ok (s, true)

/-- Filling one of the arrays, src/html/html_document.c:152-173. -/
def makeAll (s : Mem) : List String → Out (Mem × List (String × Addr))
  | [] => .ok (s, [])
  | t :: ts => do
    let (s, a) ← strCreateInterned s (label t)
    let (s, l) ← makeAll s ts
    .ok (s, (t, a) :: l)

/-- The strings of a new document, `_dom_html_document_initialise`, src/html/html_document.c:121-199.  `attrs` are the names of
src/html/html_document_strings.h; `svg` is the namespace string that `_dom_namespace_validate_qname` has made before
(src/core/implementation.c:129, src/utils/namespace.c:134-138). -/
def initialise (s : Mem) (svg : Option Addr) (attrs : List String) : Out (Mem × HtmlDoc) := do
  let (s, m) ← makeAll s attrs
  let (s, l) ← makeAll s (unknown :: tags)
  .ok (s, ⟨svg, some l, some m, none⟩)

/-- Giving back one of the arrays, src/html/html_document.c:216-238. -/
def dropAll (s : Mem) : List (String × Addr) → Out Mem
  | [] => .ok s
  | x :: l => do
    let s ← strUnref s x.2
    dropAll s l

/-- `dropAll` unless the array is gone already. -/
def dropArray (s : Mem) : Option (List (String × Addr)) → Out Mem
  | none => .ok s
  | some l => dropAll s l

/-- The strings part of `_dom_html_document_finalise`, src/html/html_document.c:202-238; what follows is `_dom_document_finalise`, which may refuse
to release the document because nodes of it are still referenced.  `cookie`, `url`, `domain` and `referrer` are never set and are left out.  The
pointer to the title stays in the document; `_dom_document_try_destroy` (src/core/document.c:1568-1574) goes on with `_dom_document_destroy`, so
this function is run once. -/
def finalise (s : Mem) (h : HtmlDoc) : Out (Mem × HtmlDoc) := do
  let s ← unrefOpt s h.title
  let s ← dropArray s h.memoised
  let s ← dropArray s h.elements
  .ok (s, { h with elements := none, memoised := none })

/-- `_dom_html_document_set_title`, src/html/html_document.c:1113-1122. -/
def setTitle (s : Mem) (h : HtmlDoc) (t : Option Addr) : Out (Mem × HtmlDoc) := do
  let s ← unrefOpt s h.title
  let s ← refOpt s t
  .ok (s, { h with title := t })

/-- `_dom_html_document_get_title` of a document whose title was set, src/html/html_document.c:1072-1076; `none` is the search for a `TITLE`
element that follows when it was not set. -/
def getTitle (s : Mem) (h : HtmlDoc) : Out (Mem × Option Addr) := do
  let s ← refOpt s h.title
  .ok (s, h.title)

end Dom.Html.Create
