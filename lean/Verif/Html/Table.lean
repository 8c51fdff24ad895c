import Verif.Html.Reflect
import Verif.Trav.Model
import Verif.Tree.Create
/-!
# Table rows, src/html/html_table_element.c, src/html/html_tablesection_element.c

The functions work on the tree.  Each collection is created, used and released inside a function and leaves nothing behind.  References are not
released here: the code drops its own reference to a row at the end (which destroys a deleted row that nobody else refers to).
-/
namespace Dom.Html.Table

open Dom.Str (DStr)
open Dom.Tree (World NodeId Node M getNode deref throwIf bound initNode appendChild insertBefore removeChild)

/-- `doc->elements[DOM_HTML_ELEMENT_TYPE_TR]` and the like, include/dom/html/html_elements.h. -/
def trName : DStr := Names.lit "TR"
/-- See `trName`. -/
def theadName : DStr := Names.lit "THEAD"
/-- See `trName`. -/
def tbodyName : DStr := Names.lit "TBODY"
/-- See `trName`. -/
def tfootName : DStr := Names.lit "TFOOT"
/-- See `trName`. -/
def captionName : DStr := Names.lit "CAPTION"

/-- The test of the name in `table_rows_callback` (src/html/html_table_element.c:385-394), `table_t_bodies_callback` (418-427) and
`table_section_callback` (src/html/html_tablesection_element.c:196-205). -/
def isTag (tag : DStr) (w : World) (x : NodeId) : Bool :=
  match w.nodes x with
  | some n => Str.caselessIsEqual n.name (some tag)
  | none => false

/-- A function that only reads the tree. -/
def reading {α : Type} (f : World → Out α) : M α := fun w =>
  match f w with
  | .ok a => .ok w a
  | .exc e => .exc w e
  | .fault g => .fault g

/-- The length of the collection of the elements `tag` below `x`: `dom_html_table_element_get_rows` (src/html/html_table_element.c:401-408),
`dom_html_table_element_get_t_bodies` (436-443), `dom_html_table_section_element_get_rows` (src/html/html_tablesection_element.c:214-221), each with
`dom_html_collection_get_length`. -/
def count (tag : DStr) (x : NodeId) : M Nat := reading fun w => Trav.colLength (isTag tag w) w x

/-- The same with `dom_html_collection_item`. -/
def item (tag : DStr) (x : NodeId) (i : Nat) : M (Option NodeId) := reading fun w => Trav.colItem (isTag tag w) w x i

/-- The loop of `dom_html_table_element_get_t_head`, src/html/html_table_element.c:270-277. -/
def childLoop (tag : DStr) : Nat → Option NodeId → M (Option NodeId)
  | _, none => pure none
  | 0, some _ => M.crash .diverge
  | f + 1, some c => do
    let n ← getNode c
    if n.type == .element && Str.caselessIsEqual (some tag) n.name then pure (some c) else childLoop tag f n.next

/-- `dom_html_table_element_get_caption` (src/html/html_table_element.c:205-226), `dom_html_table_element_get_t_head` (264-285) and
`dom_html_table_element_get_t_foot` (322-343): the first child element of the name. -/
def childOf (tag : DStr) (t : NodeId) : M (Option NodeId) := do
  let n ← getNode t
  let bd ← bound
  childLoop tag bd n.first

/-- `_dom_html_table_row_element_create` and `_dom_html_table_section_element_create` with the parameters given by the callers: an element of the
document of `x`, with the namespace and prefix of `x`. -/
def newElement (tag : DStr) (x : NodeId) : M NodeId := do
  let n ← getNode x
  initNode { type := .element, name := some tag, ns := n.ns, pfx := n.pfx, owner := n.owner }

/-- `dom_html_table_section_element_insert_row`, src/html/html_tablesection_element.c:230-288.  The code creates the row first and drops it
again when the index is bad. -/
def sectionInsertRow (s : NodeId) (index : Int) : M NodeId := do
  let len ← count trName s
  throwIf (index < -1 || index > toInt32 len) .indexSize
  let row ← newElement trName s
  (if index == -1 || index == toInt32 len then appendChild s row
   else do
    let node ← item trName s (toUInt32 index)
    insertBefore s row node)

/-- `dom_html_table_section_element_delete_row`, src/html/html_tablesection_element.c:297-339. -/
def sectionDeleteRow (s : NodeId) (index : Int) : M NodeId := do
  let len ← count trName s
  throwIf (index < -1 || index ≥ toInt32 len || (index == -1 && len == 0)) .indexSize
  let node ← item trName s (if index == -1 then sub32 len 1 else toUInt32 index)
  let node ← deref node
  removeChild s node

/-- `dom_html_table_element_create_t_body`, src/html/html_table_element.c:678-729. -/
def createTBody (t : NodeId) : M NodeId := do
  let len ← count tbodyName t
  (if len == 0 then do
    let b ← newElement tbodyName t
    appendChild t b
   else do
    let b ← item tbodyName t 0
    deref b)

/-- The loop over the bodies, src/html/html_table_element.c:836-867 and 969-993: the first one at whose end `hit` says yes, and the number of rows
before it. -/
def bodyLoop (hit : Nat → Bool) : Nat → Option NodeId → Nat → M (Option NodeId × Nat)
  | _, none, win => pure (none, win)
  | 0, some _, _ => M.crash .diverge
  | f + 1, some c, win => do
    let n ← getNode c
    (if n.type == .element && Str.caselessIsEqual (some tbodyName) n.name then do
      let len ← count trName c
      (if hit (u32 (win + len)) then pure (some c, win) else bodyLoop hit f n.next (u32 (win + len)))
     else bodyLoop hit f n.next win)

/-- What follows the loop over the bodies: the foot, src/html/html_table_element.c:868-897 and 994-1016; `t_foot` is used without looking. -/
def footOf (hit : Nat → Bool) (t : NodeId) : Option NodeId × Nat → M (Option (NodeId × Nat))
  | (some b, win) => pure (some (b, win))
  | (none, win) => do
    let foot ← childOf tfootName t
    let foot ← deref foot
    let len ← count trName foot
    (if hit (u32 (win + len)) then pure (some (foot, win)) else pure none)

/-- The search for the section, src/html/html_table_element.c:802-897 and 937-1016; `t_head` is used without looking. -/
def locate (hit : Nat → Bool) (t : NodeId) : M (Option (NodeId × Nat)) := do
  let head ← childOf theadName t
  let head ← deref head
  let len ← count trName head
  (if hit len then pure (some (head, 0))
   else do
    let n ← getNode t
    let bd ← bound
    let r ← bodyLoop hit bd n.first len
    footOf hit t r)

/-- The insertion into the section found, src/html/html_table_element.c:822, 856 and 888; no section, 897. -/
def insertInto (index : Nat) : Option (NodeId × Nat) → M NodeId
  | some (s, win) => sectionInsertRow s (toInt32 (sub32 index win))
  | none => M.throw .indexSize

/-- `dom_html_table_element_insert_row`, src/html/html_table_element.c:737-901. -/
def insertRow (t : NodeId) (index : Int) : M NodeId := do
  let len ← count trName t
  throwIf (index > toInt32 len || index < -1) .indexSize
  (if len == 0 then do
    let row ← newElement trName t
    let body ← createTBody t
    appendChild body row
   else do
    let i := if index == -1 then len else toUInt32 index
    let r ← locate (fun e => e > i || e == len) t
    insertInto i r)

/-- The deletion from the section found, src/html/html_table_element.c:959, 987 and 1011; no section, 1016. -/
def deleteFrom (index : Nat) : Option (NodeId × Nat) → M NodeId
  | some (s, win) => sectionDeleteRow s (toInt32 (sub32 index win))
  | none => M.throw .indexSize

/-- `dom_html_table_element_delete_row`, src/html/html_table_element.c:909-1019; the row is returned here for reference. -/
def deleteRow (t : NodeId) (index : Int) : M NodeId := do
  let len ← count trName t
  throwIf (index ≥ toInt32 len || index < -1 || len == 0) .indexSize
  let i := if index == -1 then sub32 len 1 else toUInt32 index
  let r ← locate (fun e => e > i) t
  deleteFrom i r

/-! ## Sections -/

/-- `dom_html_table_element_delete_t_head` (src/html/html_table_element.c:650-669), `dom_html_table_element_delete_t_foot` (573-593). -/
def deleteChild (tag : DStr) (t : NodeId) : M Unit := do
  let old ← childOf tag t
  match old with
  | none => pure ()
  | some o => do
    let _ ← removeChild t o
    pure ()

/-- `dom_html_table_element_set_t_head`, src/html/html_table_element.c:291-315: the name asked for is CAPTION. -/
def setTHead (t : NodeId) : Option NodeId → M NodeId
  | none => M.throw .hierarchyRequest
  | some h => do
    let n ← getNode h
    throwIf (!Str.caselessIsEqual (some captionName) n.name) .hierarchyRequest
    deleteChild theadName t
    appendChild t h

/-- `dom_html_table_element_set_t_foot`, src/html/html_table_element.c:349-375. -/
def setTFoot (t : NodeId) : Option NodeId → M NodeId
  | none => M.throw .hierarchyRequest
  | some h => do
    let n ← getNode h
    throwIf (!Str.caselessIsEqual (some tfootName) n.name) .hierarchyRequest
    deleteChild tfootName t
    appendChild t h

/-- `dom_html_table_element_create_t_head` (src/html/html_table_element.c:601-640), `dom_html_table_element_create_t_foot` (525-564). -/
def createSection (tag : DStr) (t : NodeId) : M NodeId := do
  let old ← childOf tag t
  match old with
  | some o => pure o
  | none => do
    let h ← newElement tag t
    appendChild t h

end Dom.Html.Table
