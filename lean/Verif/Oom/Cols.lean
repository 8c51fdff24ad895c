import Verif.Oom.Doctype
/-!
# HTML collections when memory may run out

`_dom_html_collection_create`, the collections of HTML documents, `dom_html_collection_get_length`, `dom_html_collection_ref` and `dom_html_collection_unref`, request by request, for one document.

Simplified: the nodes below a root are a list in document order (Verif/Trav/Model.lean has the walk); the tests that make no request are Booleans (Verif/Html/Collect.lean has them); the counts and the length do
not wrap around; being in the tree counts as a reference to a node.
-/
namespace Dom.Oom.Cols

open Dom.Oom

/-- The tree as collections see it: the elements at and below a root in document order, the tests of the callbacks for OBJECT and APPLET elements, src/html/html_document.c:1272-1281 and :1292-1294, and the test
of a callback that makes no request. -/
structure Page where
  below : Nat → List Nat
  isObject : Nat → Bool
  isApplet : Nat → Bool
  plain : Nat → Bool

/-- `struct dom_html_collection`, src/html/html_collection.h:21-35: `applets` tells that the callback is `applets_callback`. -/
structure Col where
  block : Nat
  root : Nat
  applets : Bool
  refcnt : Nat

/-- `_dom_html_collection_create` and `_dom_html_collection_initialise`, src/html/html_collection.c:33-76, for a root that is not `NULL`.  `_dom_html_options_collection_create`,
src/html/html_options_collection.c:33-63, does the same. -/
def colCreate (doc root : Nat) (applets : Bool) : M (Except Exc Col) := do
  let b ← malloc
  match b with
  | none => pure (.error .noMem)
  | some b => do
    ref doc
    ref root
    pure (.ok { block := b, root := root, applets := applets, refcnt := 1 })

/-- The collections of a document, src/html/html_document.c:1257-1270, 1308-1321, 1353-1366, 1379-1402 and 1431-1444, with `_dom_document_get_document_element`, src/core/document.c:433-450.  Without a document
element the assertion of src/html/html_collection.c:63 fails, if the request for the collection is granted. -/
def docCol (doc : Nat) (root : Option Nat) (applets : Bool) : M (Except Exc Col) :=
  match root with
  | none => do
    let b ← malloc
    match b with
    | none => pure (.error .noMem)
    | some _ => crash .assertFail
  | some root => do
    ref root
    let c ← colCreate doc root applets
    unref root
    pure c

/-- `_dom_html_collection_destroy` and `_dom_html_collection_finalise`, src/html/html_collection.c:83-103. -/
def colDestroy (doc : Nat) (c : Col) : M Unit := do
  unref doc
  unref c.root
  unref c.block

/-- `applets_callback`, src/html/html_document.c:1289-1306: a collection for each OBJECT. -/
def appletsTest (p : Page) (doc x : Nat) : M Bool :=
  if p.isObject x then do
    let c ← colCreate doc x false
    match c with
    | .error _ => pure false
    | .ok c => do
      colDestroy doc c
      pure ((p.below x).countP p.isApplet != 0)
  else pure false

/-- The callback of a collection, `col->ic`, src/html/html_collection.c:124. -/
def test (p : Page) (doc : Nat) (applets : Bool) (x : Nat) : M Bool := if applets then appletsTest p doc x else pure (p.plain x)

/-- The loop of `dom_html_collection_get_length`, src/html/html_collection.c:122-148. -/
def countLoop (p : Page) (doc : Nat) (applets : Bool) : List Nat → Nat → M Nat
  | [], n => pure n
  | x :: xs, n => do
    let b ← test p doc applets x
    countLoop p doc applets xs (if b then n + 1 else n)

/-- `dom_html_collection_get_length`, src/html/html_collection.c:116-150, which has no way to fail. -/
def colLength (p : Page) (doc : Nat) (c : Col) : M Nat := countLoop p doc c.applets (p.below c.root) 0

/-- The loop of `dom_html_collection_item`, src/html/html_collection.c:166-197; `index + 1` does not wrap around (`C35_last_index_violated`). -/
def itemLoop (p : Page) (doc : Nat) (applets : Bool) (index : Nat) : List Nat → Nat → M (Option Nat)
  | [], _ => pure none
  | x :: xs, n => do
    let b ← test p doc applets x
    if (if b then n + 1 else n) = index + 1 then do
      ref x
      pure (some x)
    else itemLoop p doc applets index xs (if b then n + 1 else n)

/-- `dom_html_collection_item`, src/html/html_collection.c:160-202, which has no way to fail. -/
def colItem (p : Page) (doc : Nat) (c : Col) (index : Nat) : M (Option Nat) := itemLoop p doc c.applets index (p.below c.root) 0

/-- The count of the collection at `b` changes, src/html/html_collection.c:297 and :311. -/
def setCount (b : Nat) (f : Nat → Nat) (cs : List Col) : List Col := cs.map fun c => if c.block = b then { c with refcnt := f c.refcnt } else c

/-- `dom_html_collection_ref`, src/html/html_collection.c:292-298; a collection that is not there cannot be used. -/
def refCol (b : Nat) (cs : List Col) : M (List Col) :=
  match cs.find? (fun c => c.block = b) with
  | none => crash .useAfterFree
  | some _ => pure (setCount b (· + 1) cs)

/-- The collection at `b`, and the others.  The code has no list of collections: this is who exists. -/
def takeOut (b : Nat) : List Col → Option (Col × List Col)
  | [] => none
  | c :: cs => if c.block = b then some (c, cs) else (takeOut b cs).map fun x => (x.1, c :: x.2)

/-- `dom_html_collection_unref`, src/html/html_collection.c:305-315. -/
def unrefCol (doc b : Nat) (cs : List Col) : M (List Col) :=
  match takeOut b cs with
  | none => crash .useAfterFree
  | some (c, rest) =>
    if c.refcnt - 1 = 0 then do
      colDestroy doc c
      pure rest
    else pure (setCount b (· - 1) cs)

end Dom.Oom.Cols
