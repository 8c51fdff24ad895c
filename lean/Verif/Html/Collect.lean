import Verif.Query.ById
import Verif.Html.Table
import Verif.Tree.Content
/-!
# Collections whose members are chosen by their attributes; title and body: src/html/html_document.c, src/html/html_collection.c

`Verif.Trav` has the loops of the collections with a test that is a function of the node.  Here the tests are those of the code: they read names from
the tree and values from the attributes (the attribute model, where the address of an element is its node).  The references a collection takes on its
document and its root, and those on the nodes it returns, are not represented.
-/
namespace Dom.Html.Collect

open Dom.Attr (M liftOut getAttr getAttribute hasAttribute getId)
open Dom.Tree (World NodeId)
open Dom.Str (DStr)
open Dom.Trav (rd colNext docElement)
open Dom.Html.Table (isTag)

/-! ## The loops -/

/-- `n->type == DOM_ELEMENT_NODE && col->ic(n, col->ctx) == true`, src/html/html_collection.c:123-124 (and 167-168, 220-221). -/
def accepts (ic : NodeId → M Bool) (x : NodeId) (n : Tree.Node) : M Bool := if n.type == .element then ic x else pure false

/-- The loop of `dom_html_collection_get_length`, src/html/html_collection.c:122-147. -/
def lenLoop (ic : NodeId → M Bool) (w : World) (root : NodeId) : Nat → Option NodeId → Nat → M Nat
  | _, none, len => pure len
  | 0, some _, _ => Attr.M.crash .diverge
  | f + 1, some cur, len => do
    let n ← liftOut (rd w cur)
    let b ← accepts ic cur n
    let nx ← liftOut (colNext w root cur n)
    lenLoop ic w root f nx (if b then u32 (len + 1) else len)

/-- `dom_html_collection_get_length`, src/html/html_collection.c:116-150. -/
def length (ic : NodeId → M Bool) (w : World) (root : NodeId) : M Nat := lenLoop ic w root (w.fresh + 1) (some root) 0

/-- The loop of `dom_html_collection_item`, src/html/html_collection.c:166-197. -/
def itemLoop (ic : NodeId → M Bool) (w : World) (root : NodeId) (index : Nat) : Nat → Option NodeId → Nat → M (Option NodeId)
  | _, none, _ => pure none
  | 0, some _, _ => Attr.M.crash .diverge
  | f + 1, some cur, len => do
    let n ← liftOut (rd w cur)
    let b ← accepts ic cur n
    let len := if b then u32 (len + 1) else len
    if len = u32 (index + 1) then pure (some cur)
    else do
      let nx ← liftOut (colNext w root cur n)
      itemLoop ic w root index f nx len

/-- `dom_html_collection_item`, src/html/html_collection.c:160-202. -/
def item (ic : NodeId → M Bool) (w : World) (root : NodeId) (index : Nat) : M (Option NodeId) := itemLoop ic w root index (w.fresh + 1) (some root) 0

/-- `id != NULL && dom_string_isequal(name, id)`, src/html/html_collection.c:231-232 (and 248-249). -/
def same (name : Option DStr) (v : Option DStr) : Bool := v.isSome && Str.isEqual name v

/-- `doc->memoised[hds_name]`, src/html/html_document_strings.h. -/
def nameName : DStr := Names.lit "name"

/-- The name attribute is `name`, src/html/html_collection.c:242-256; exceptions are returned. -/
def hasName (name : Option DStr) (x : NodeId) : M Bool := do
  let v ← getAttr x none nameName
  pure (same name v)

/-- The test for the id and the name, src/html/html_collection.c:225-256; exceptions are returned. -/
def named (name : Option DStr) (x : NodeId) : M Bool := do
  let id ← getId x
  if same name id then pure true else hasName name x

/-- The loop of `dom_html_collection_named_item`, src/html/html_collection.c:219-279, and that of `dom_html_options_collection_named_item`,
src/html/html_options_collection.c:160-204, which differ in the test `nm`. -/
def findLoop (ic nm : NodeId → M Bool) (w : World) (root : NodeId) : Nat → Option NodeId → M (Option NodeId)
  | _, none => pure none
  | 0, some _ => Attr.M.crash .diverge
  | f + 1, some cur => do
    let n ← liftOut (rd w cur)
    let b ← accepts ic cur n
    let m ← (if b then nm cur else pure false)
    if m then pure (some cur)
    else do
      let nx ← liftOut (colNext w root cur n)
      findLoop ic nm w root f nx

/-- `dom_html_collection_named_item`, src/html/html_collection.c:212-285. -/
def namedItem (ic : NodeId → M Bool) (w : World) (root : NodeId) (name : Option DStr) : M (Option NodeId) :=
  findLoop ic (named name) w root (w.fresh + 1) (some root)

/-- The test of `dom_html_options_collection_named_item`, src/html/html_options_collection.c:163-181. -/
def hasNameFolded (name : Option DStr) (x : NodeId) : M Bool := do
  let v ← getAttribute x nameName
  pure (same name v)

/-- `dom_html_options_collection_named_item`, src/html/html_options_collection.c:142-212: an exception of the first search starts the second one. -/
def optionsNamedItem (ic : NodeId → M Bool) (w : World) (root : NodeId) (name : Option DStr) : M (Option NodeId) := fun s =>
  match namedItem ic w root name s with
  | .ok s' (some x) => .ok s' (some x)
  | .ok s' none => findLoop ic (hasNameFolded name) w root (w.fresh + 1) (some root) s'
  | .exc s' _ => findLoop ic (hasNameFolded name) w root (w.fresh + 1) (some root) s'
  | .fault f => .fault f

/-! ## The collections of a document -/

/-- The collections of `_dom_html_document_get_images` (src/html/html_document.c:1257-1270), `..._get_applets` (1308-1321), `..._get_links`
(1353-1366), `..._get_forms` (1379-1402), `..._get_anchors` (1431-1444). -/
inductive Which where
  | images
  | applets
  | links
  | forms
  | anchors
  deriving DecidableEq, Repr

/-- `doc->elements[DOM_HTML_ELEMENT_TYPE_IMG]`, include/dom/html/html_elements.h. -/
def imgName : DStr := Names.lit "IMG"
/-- See `imgName`. -/
def objectName : DStr := Names.lit "OBJECT"
/-- See `imgName`. -/
def appletName : DStr := Names.lit "APPLET"
/-- See `imgName`. -/
def aName : DStr := Names.lit "A"
/-- See `imgName`. -/
def areaName : DStr := Names.lit "AREA"
/-- See `imgName`. -/
def formName : DStr := Names.lit "FORM"
/-- `doc->memoised[hds_href]`, src/html/html_document_strings.h. -/
def hrefName : DStr := Names.lit "href"

/-- `dom_element_has_attribute` in `links_callback` (src/html/html_document.c:1339-1348) and `anchors_callback` (1417-1426): `return err` is `true` for every
exception. -/
def holdsAttr (name : DStr) (x : NodeId) : M Bool := fun s =>
  match hasAttribute x name s with
  | .ok s' b => .ok s' b
  | .exc s' _ => .ok s' true
  | .fault f => .fault f

/-- The inner collection of `applets_callback`, src/html/html_document.c:1294-1303: `len` stays 0 on an exception. -/
def hasApplet (w : World) (x : NodeId) : M Bool := fun s =>
  match Trav.colLength (isTag appletName w) w x with
  | .ok len => .ok s (decide (len ≠ 0))
  | .exc _ => .ok s false
  | .fault f => .fault f

/-- The callbacks: `images_callback` (src/html/html_document.c:1246-1255), `applets_callback` (1289-1306), `links_callback` (1330-1351),
`__dom_html_document_node_is_form` (1368-1377), `anchors_callback` (1411-1429).  The loops ask them for elements only. -/
def callback (w : World) : Which → NodeId → M Bool
  | .images, x => pure (isTag imgName w x)
  | .forms, x => pure (isTag formName w x)
  | .links, x => if isTag aName w x || isTag areaName w x then holdsAttr hrefName x else pure false
  | .anchors, x => if isTag aName w x then holdsAttr nameName x else pure false
  | .applets, x => if isTag objectName w x then hasApplet w x else pure false

/-- The root of the new collection: the document element, with the assertion of `_dom_html_collection_initialise`,
src/html/html_collection.c:63. -/
def root (w : World) (doc : NodeId) : Out NodeId := do
  let r ← docElement w doc
  match r with
  | none => .fault .assertFail
  | some r => .ok r

/-- `dom_html_document_get_images` and the others followed by `dom_html_collection_get_length`. -/
def countOf (k : Which) (w : World) (doc : NodeId) : M Nat := do
  let r ← liftOut (root w doc)
  length (callback w k) w r

/-- The same followed by `dom_html_collection_item`. -/
def itemOf (k : Which) (w : World) (doc : NodeId) (index : Nat) : M (Option NodeId) := do
  let r ← liftOut (root w doc)
  item (callback w k) w r index

/-- The same followed by `dom_html_collection_named_item`. -/
def namedOf (k : Which) (w : World) (doc : NodeId) (name : Option DStr) : M (Option NodeId) := do
  let r ← liftOut (root w doc)
  namedItem (callback w k) w r name

/-! ## Title and body -/

/-- See `imgName`. -/
def titleName : DStr := Names.lit "TITLE"
/-- See `imgName`. -/
def bodyName : DStr := Names.lit "BODY"
/-- See `imgName`. -/
def framesetName : DStr := Names.lit "FRAMESET"

/-- The text content of the first node of a list, src/html/html_document.c:1100-1107. -/
def contentAt (w : World) : Option NodeId → Out (Option DStr)
  | none => .fault .nullDeref
  | some x => Tree.getTextContent w x

/-- `_dom_html_document_get_title`, src/html/html_document.c:1069-1111; `title` is the one that was set.  (For its references see
`Verif/Html/Create.lean`.) -/
def getTitle (title : Option DStr) (w : World) (doc : NodeId) : Out (Option DStr) :=
  match title with
  | some t => .ok (some t)
  | none => do
    let len ← Trav.listLength (.byName titleName true) w doc
    if len = 0 then .ok none
    else do
      let x ← Trav.listItem (.byName titleName true) w doc 0
      contentAt w x

/-- What `_dom_html_document_get_body` does to `*body`: nothing, or it stores a pointer, for which the caller gets a reference or not. -/
inductive Stored where
  | untouched
  | pointer (x : Option NodeId) (counted : Bool)
  deriving DecidableEq, Repr

/-- `_dom_html_document_get_body`, src/html/html_document.c:1148-1202; `body` is the one that was set. -/
def getBody (body : Option NodeId) (w : World) (doc : NodeId) : Out Stored :=
  match body with
  | some b => .ok (.pointer (some b) false)
  | none => do
    let len ← Trav.listLength (.byName bodyName true) w doc
    if len ≠ 0 then do
      let x ← Trav.listItem (.byName bodyName true) w doc 0
      .ok (.pointer x true)
    else do
      let len ← Trav.listLength (.byName framesetName true) w doc
      if len = 0 then .ok .untouched
      else do
        let x ← Trav.listItem (.byName framesetName true) w doc 0
        .ok (.pointer x true)

end Dom.Html.Collect
