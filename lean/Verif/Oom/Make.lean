import Verif.Oom.Mem

/-!
# Creating a document when memory may run out

`_dom_document_create`, `_dom_html_document_create`, their initialisers and finalisers, request by request.
-/
namespace Dom.Oom

/-- The strings that `struct dom_document` holds apart from its name, src/core/document.h:43-81. -/
inductive Field
  | uri | encoding | idName | classString | scriptString | empty
  | nodeInserted | nodeRemoved | insertedIntoDocument | removedFromDocument
  | attrModified | characterDataModified | subtreeModified
  deriving DecidableEq, Repr

/-- A `struct dom_document` as far as it holds memory: its block, the name in its node part, its strings
and the interned names of the event types (`dei.event_types`, src/events/document_event.h:38-44).  After
`malloc` every cell is unwritten. -/
structure Doc where
  block : Nat
  name : Cell := .junk
  field : Field → Cell := fun _ => .junk
  events : List Nat := []

/-- `doc->f = s`. -/
def Doc.set (d : Doc) (f : Field) (s : Nat) : Doc :=
  { d with field := fun g => if g = f then .ptr s else d.field g }

/-- A run of `dom_string_unref(doc->f)` calls. -/
def unrefFields (d : Doc) : List Field → M Unit
  | [] => pure ()
  | f :: fs => do
    unrefCell (d.field f)
    unrefFields d fs

/-- src/core/document.c:158-310, row by row: the string that is created, and the strings that are given back
if that fails. -/
def rows : List (Field × List Field) := [
  (.idName, [.uri, .encoding]),
  (.classString, [.uri, .encoding, .idName]),
  (.scriptString, [.uri, .encoding, .idName, .classString]),
  (.empty, [.uri, .encoding, .idName, .classString, .scriptString]),
  (.nodeInserted, [.empty, .uri, .encoding, .idName, .classString, .scriptString]),
  (.nodeRemoved, [.nodeInserted, .empty, .uri, .encoding, .idName, .classString, .scriptString]),
  (.insertedIntoDocument,
    [.nodeRemoved, .nodeInserted, .empty, .uri, .encoding, .idName, .classString, .scriptString]),
  (.removedFromDocument,
    [.insertedIntoDocument, .nodeRemoved, .nodeInserted, .empty, .uri, .encoding, .idName, .classString,
      .scriptString]),
  (.attrModified,
    [.removedFromDocument, .insertedIntoDocument, .nodeRemoved, .nodeInserted, .empty, .uri, .encoding,
      .idName, .classString, .scriptString]),
  (.characterDataModified,
    [.attrModified, .removedFromDocument, .insertedIntoDocument, .nodeRemoved, .nodeInserted, .empty, .uri,
      .encoding, .idName, .classString, .scriptString]),
  (.subtreeModified,
    [.characterDataModified, .attrModified, .removedFromDocument, .insertedIntoDocument, .nodeRemoved,
      .nodeInserted, .empty, .uri, .encoding, .idName, .classString, .scriptString])]

/-- The part of `_dom_document_initialise` described by `rows`, src/core/document.c:158-310: each string is
created in turn; on failure the listed strings are given back and the error returned. -/
def makeFields : List (Field × List Field) → Doc → M (Except Exc Doc)
  | [], d => pure (.ok d)
  | (f, back) :: rest, d => do
    let s ← createString
    match s with
    | .error e =>
      unrefFields d back
      pure (.error e)
    | .ok s => makeFields rest (d.set f s)

/-- `_dom_document_event_internal_initialise`, src/events/document_event.c:51-70: interns the name of each of
the event types left (`n` of them); on failure it returns at once. -/
def makeEvents : Nat → Doc → M (Except Exc Doc)
  | 0, d => pure (.ok d)
  | n + 1, d => do
    let s ← malloc
    match s with
    | none => pure (.error .noMem)
    | some s => makeEvents n { d with events := d.events ++ [s] }

/-- `DOM_EVENT_COUNT`, src/events/document_event.h:20-33. -/
def eventCount : Nat := 10

/-- `_dom_document_initialise`, src/core/document.c:115-314.  `_dom_node_initialise`, src/core/node.c:148-214,
takes its own reference to the name and cannot fail. -/
def initDocument (d : Doc) : M (Except Exc Doc) := do
  let name ← createString
  match name with
  | .error e => pure (.error e)
  | .ok name =>
    let uri ← createString
    match uri with
    | .error e =>
      unref name
      pure (.error e)
    | .ok uri =>
      let encoding ← createString
      match encoding with
      | .error e =>
        unref name
        unref uri
        pure (.error e)
      | .ok encoding =>
        ref name
        unref name
        let r ← makeFields rows { (d.set .uri uri).set .encoding encoding with name := .ptr name }
        match r with
        | .error e => pure (.error e)
        | .ok d => makeEvents eventCount d

/-- `_dom_document_create`, src/core/document.c:81-112. -/
def createDocument : M (Except Exc Doc) := do
  let b ← malloc
  match b with
  | none => pure (.error .noMem)
  | some b =>
    let r ← initDocument { block := b }
    match r with
    | .error e =>
      unref b
      pure (.error e)
    | .ok d => pure (.ok d)

/-- A run of `lwc_string_unref` calls. -/
def unrefAll : List Nat → M Unit
  | [] => pure ()
  | a :: as => do
    unref a
    unrefAll as

/-- The order in which `_dom_document_finalise` gives back the strings, src/core/document.c:345-359. -/
def finaliseOrder : List Field :=
  [.idName, .uri, .encoding, .classString, .scriptString, .empty, .nodeInserted, .nodeRemoved,
    .insertedIntoDocument, .removedFromDocument, .attrModified, .characterDataModified, .subtreeModified]

/-- `_dom_document_finalise`, src/core/document.c:318-364, of a document without nodes: the name goes with the
node part (src/core/node.c:275-278), then the strings and the event types
(src/events/document_event.c:73-83). -/
def finaliseDocument (d : Doc) : M Unit := do
  unrefCell d.name
  unrefFields d finaliseOrder
  unrefAll d.events

/-- `_dom_document_destroy`, src/core/document.c:1288-1295: finalise, then `free`. -/
def destroyDocument (d : Doc) : M Unit := do
  finaliseDocument d
  unref d.block

/-! ## The HTML document -/

/-- An array of strings as `calloc` gives it, filled from the front: the block and the strings written so
far (the rest is `NULL`). -/
structure Table where
  block : Nat
  strings : List Nat := []

/-- The `struct dom_html_document`, src/html/html_document.h:19-36, as far as it holds memory after its
creation: the base part and the pointers to its two arrays of strings.  `junk` is a pointer not yet
written. -/
inductive Arr
  | junk
  | null
  | at (t : Table)

/-- Fills an array: `n` calls of `dom_string_create_interned`, src/html/html_document.c:155-174. The first
failure ends it. -/
def fill : Nat → Table → M (Option Exc × Table)
  | 0, t => pure (none, t)
  | n + 1, t => do
    let s ← createString
    match s with
    | .error e => pure (some e, t)
    | .ok s => fill n { t with strings := t.strings ++ [s] }

/-- The clearing of one array, src/html/html_document.c:178-186 and :187-196, and again :217-225 and :227-235:
its strings are given back and the array freed, unless the pointer is `NULL`. -/
def clearArr : Arr → M Unit
  | .junk => crash .uninit
  | .null => pure ()
  | .at t => do
    unrefAll t.strings
    unref t.block

/-- The cleaning up after `out:` when there is an error, src/html/html_document.c:176-197. -/
def cleanArrs (memoised elements : Arr) : M Unit := do
  clearArr memoised
  clearArr elements

/-- The HTML document: its base, its array of attribute names and its array of element names. -/
structure HtmlDoc where
  base : Doc
  memoised : Table
  elements : Table

/-- `hds_COUNT`: the number of strings in src/html/html_document_strings.h:30-147. -/
def hdsCount : Nat := 95

/-- `DOM_HTML_ELEMENT_TYPE__COUNT`: the number of names in include/dom/html/html_elements.h:12-143. -/
def elementCount : Nat := 132

/-- `_dom_html_document_initialise`, src/html/html_document.c:121-199. -/
def initHtml (b : Nat) : M (Except Exc HtmlDoc) := do
  let r ← initDocument { block := b }
  match r with
  | .error e => pure (.error e)
  | .ok d =>
    let memo ← malloc
    match memo with
    | none =>
      cleanArrs .null .junk
      pure (.error .noMem)
    | some memo =>
      let els ← malloc
      match els with
      | none =>
        cleanArrs (.at { block := memo }) .null
        pure (.error .noMem)
      | some els =>
        let f ← fill hdsCount { block := memo }
        match f.1 with
        | some e =>
          cleanArrs (.at f.2) (.at { block := els })
          pure (.error e)
        | none =>
          let g ← fill elementCount { block := els }
          match g.1 with
          | some e =>
            cleanArrs (.at f.2) (.at g.2)
            pure (.error e)
          | none => pure (.ok { base := d, memoised := f.2, elements := g.2 })

/-- `_dom_html_document_create`, src/html/html_document.c:95-118. -/
def createHtml : M (Except Exc HtmlDoc) := do
  let b ← malloc
  match b with
  | none => pure (.error .noMem)
  | some b =>
    let r ← initHtml b
    match r with
    | .error e =>
      unref b
      pure (.error e)
    | .ok d => pure (.ok d)

/-- `_dom_html_document_destroy` and `_dom_html_document_finalise`, src/html/html_document.c:202-247, of a
document without nodes whose title, referrer, domain, url and cookie were never set. -/
def destroyHtml (d : HtmlDoc) : M Unit := do
  clearArr (.at d.memoised)
  clearArr (.at d.elements)
  finaliseDocument d.base
  unref d.base.block

end Dom.Oom
