import Verif.Html.Row
import Verif.Html.Select
import Verif.Tree.Life
/-!
# Tables and selections with the references they take: src/html/html_table_element.c, html_tablesection_element.c, html_tablerow_element.c, html_select_element.c

The functions of Verif/Html/Table.lean and Verif/Html/Row.lean again, with every reference that the code takes and gives up, in the order in which it does so.  The
collections are memory of their own that is allocated and freed inside of each function; what they do to the tree is the two references they take.  Memory does not run out.
-/
namespace Dom.Html.Refs

open Dom.Str (DStr)
open Dom.Tree (World NodeId Node M getNode deref throwIf bound appendChild insertBefore removeChild ref unref)
open Dom.Html.Table (trName tdName theadName tbodyName tfootName captionName count item childOf newElement)

/-- `dom_exception exp = m; fin; return exp;`. -/
def closing {α : Type} (m : M α) (fin : M Unit) : M α := fun w =>
  match m w with
  | .ok w' a => (do fin; pure a : M α) w'
  | .exc w' e => (do fin; M.throw e : M α) w'
  | .fault f => .fault f

/-- `if (exp != DOM_NO_ERR) { fin; return exp; }`. -/
def onRefusal {α : Type} (m : M α) (fin : M Unit) : M α := fun w =>
  match m w with
  | .ok w' a => .ok w' a
  | .exc w' e => (do fin; M.throw e : M α) w'
  | .fault f => .fault f

/-- `dom_node_unref` of a pointer that may be NULL, include/dom/core/node.h:195-202. -/
def unrefOpt : Option NodeId → M Unit
  | none => pure ()
  | some y => unref y

/-- `_dom_html_collection_create` with the document of `x` and the root `x`, src/html/html_collection.c:33-76. -/
def openCol (x : NodeId) : M NodeId := do
  let n ← getNode x
  let d ← deref n.owner
  ref d
  ref x
  pure d

/-- `dom_html_collection_unref` of the only reference, src/html/html_collection.c:83-103 and 305-315. -/
def closeCol (x d : NodeId) : M Unit := do
  unref d
  unref x

/-- A collection is created, counted and released: src/html/html_table_element.c:748-753, 807-814, 842-849, 873-880, and the same in `delete_row`, 919-924, 945-952, 974-982, 998-1004. -/
def lengthOf (tag : DStr) (x : NodeId) : M Nat := do
  let d ← openCol x
  let len ← count tag x
  closeCol x d
  pure len

/-- `dom_html_collection_item`, src/html/html_collection.c:160-202: the node returned is referenced. -/
def itemRef (tag : DStr) (x : NodeId) (i : Nat) : M (Option NodeId) := do
  let r ← item tag x i
  match r with
  | none => pure none
  | some y => do
    ref y
    pure (some y)

/-- The last two cases of `dom_html_table_section_element_insert_row`, src/html/html_tablesection_element.c:272-287. -/
def sectionPut (s new d : NodeId) (len : Nat) (index : Int) : M NodeId :=
  if index == -1 || index == toInt32 len then do
    closeCol s d
    closing (appendChild s new) (unref new)
  else do
    let node ← itemRef trName s (toUInt32 index)
    closeCol s d
    closing (insertBefore s new node) (do unrefOpt node; unref new)

/-- `dom_html_table_section_element_insert_row`, src/html/html_tablesection_element.c:230-288. -/
def sectionInsertRow (s : NodeId) (index : Int) : M NodeId := do
  let new ← newElement trName s
  let d ← openCol s
  let len ← count trName s
  (if index < -1 || index > toInt32 len then do
    closeCol s d
    unref new
    M.throw .indexSize
   else sectionPut s new d len index)

/-- The last two cases of `dom_html_table_row_element_insert_cell`, src/html/html_tablerow_element.c:394-408. -/
def rowPut (s new d : NodeId) (len : Nat) (index : Int) : M NodeId :=
  if index == -1 || index == toInt32 len then do
    closeCol s d
    closing (appendChild s new) (unref new)
  else do
    let node ← itemRef tdName s (toUInt32 index)
    closeCol s d
    closing (insertBefore s new node) (do unref new; unrefOpt node)

/-- `dom_html_table_row_element_insert_cell`, src/html/html_tablerow_element.c:353-411. -/
def insertCell (s : NodeId) (index : Int) : M NodeId := do
  let new ← newElement tdName s
  let d ← openCol s
  let len ← count tdName s
  (if index < -1 || index > toInt32 len then do
    unref new
    closeCol s d
    M.throw .indexSize
   else rowPut s new d len index)

/-- `dom_node_remove_child` of a node, the result being released at once: src/html/html_tablesection_element.c:331-333 and the like. -/
def takeOut (s y : NodeId) : M Unit := do
  let o ← removeChild s y
  unref o

/-- The end of the functions that delete, src/html/html_tablesection_element.c:322-338, src/html/html_tablerow_element.c:445-461. -/
def removeItem (tag : DStr) (s d : NodeId) (i : Nat) : M Unit := do
  let node ← itemRef tag s i
  let y ← deref node
  closing (takeOut s y) (do unref y; closeCol s d)

/-- `dom_html_table_section_element_delete_row`, src/html/html_tablesection_element.c:297-339. -/
def sectionDeleteRow (s : NodeId) (index : Int) : M Unit := do
  let d ← openCol s
  let len ← count trName s
  (if index < -1 || index ≥ toInt32 len || (index == -1 && len == 0) then do
    closeCol s d
    M.throw .indexSize
   else removeItem trName s d (if index == -1 then sub32 len 1 else toUInt32 index))

/-- `dom_html_table_row_element_delete_cell`, src/html/html_tablerow_element.c:420-462. -/
def deleteCell (s : NodeId) (index : Int) : M Unit := do
  let d ← openCol s
  let len ← count tdName s
  (if index < -1 || index ≥ toInt32 len || len == 0 then do
    closeCol s d
    M.throw .indexSize
   else removeItem tdName s d (if index == -1 then sub32 len 1 else toUInt32 index))

/-- `dom_html_table_element_get_caption` (src/html/html_table_element.c:205-225), `dom_html_table_element_get_t_head` (264-283), `dom_html_table_element_get_t_foot`
(322-342): the node returned is referenced. -/
def getChild (tag : DStr) (t : NodeId) : M (Option NodeId) := do
  let r ← childOf tag t
  match r with
  | none => pure none
  | some y => do
    ref y
    pure (some y)

/-- `dom_html_table_element_delete_caption` (src/html/html_table_element.c:497-516), `dom_html_table_element_delete_t_foot` (573-592),
`dom_html_table_element_delete_t_head` (650-669). -/
def deleteChild (tag : DStr) (t : NodeId) : M Unit := do
  let old ← getChild tag t
  match old with
  | none => pure ()
  | some y => closing (takeOut t y) (unref y)

/-- `dom_html_table_element_set_caption` (src/html/html_table_element.c:233-257), `dom_html_table_element_set_t_head` (291-315, where the name asked for is CAPTION) and
`dom_html_table_element_set_t_foot` (349-374): `asked` is the name of the new child, `tag` the one of the old child.  The node that `dom_node_append_child` returns is not
released. -/
def setChild (asked tag : DStr) (t : NodeId) : Option NodeId → M Unit
  | none => M.throw .hierarchyRequest
  | some h => do
    let n ← getNode h
    throwIf (!Str.caselessIsEqual (some asked) n.name) .hierarchyRequest
    deleteChild tag t
    let _ ← appendChild t h
    pure ()

/-- `dom_html_table_element_create_caption` (src/html/html_table_element.c:452-489) and `dom_html_table_element_create_t_foot` (525-565): the new node is released whether it
could be inserted or not. -/
def createChild (tag : DStr) (t : NodeId) : M NodeId := do
  let old ← getChild tag t
  match old with
  | some o => pure o
  | none => do
    let h ← newElement tag t
    closing (appendChild t h) (unref h)

/-- `dom_html_table_element_create_t_head`, src/html/html_table_element.c:601-642: the new node is released only if it could be inserted. -/
def createTHead (t : NodeId) : M NodeId := do
  let old ← getChild theadName t
  match old with
  | some o => pure o
  | none => do
    let h ← newElement theadName t
    let r ← appendChild t h
    unref h
    pure r

/-- The two cases of `dom_html_table_element_create_t_body`, src/html/html_table_element.c:696-725. -/
def bodyFor (t : NodeId) (len : Nat) : M NodeId :=
  if len == 0 then do
    let b ← newElement tbodyName t
    let r ← appendChild t b
    unref b
    pure r
  else do
    let b ← itemRef tbodyName t 0
    deref b

/-- `dom_html_table_element_create_t_body`, src/html/html_table_element.c:678-728. -/
def createTBody (t : NodeId) : M NodeId := do
  let d ← openCol t
  let len ← count tbodyName t
  closing (bodyFor t len) (closeCol t d)

/-- The first row, src/html/html_table_element.c:760-790. -/
def firstRow (t : NodeId) : M NodeId := do
  let row ← newElement trName t
  let body ← onRefusal (createTBody t) (unref row)
  closing (appendChild body row) (do unref body; unref row)

/-- The loop over the bodies, src/html/html_table_element.c:836-867 and 969-993: the first one at whose end `hit` says yes, and the number of rows before it. -/
def bodyLoop (hit : Nat → Bool) : Nat → Option NodeId → Nat → M (Option NodeId × Nat)
  | _, none, win => pure (none, win)
  | 0, some _, _ => M.crash .diverge
  | f + 1, some c, win => do
    let n ← getNode c
    (if n.type == .element && Str.caselessIsEqual (some tbodyName) n.name then do
      let len ← lengthOf trName c
      (if hit (u32 (win + len)) then pure (some c, win) else bodyLoop hit f n.next (u32 (win + len)))
     else bodyLoop hit f n.next win)

/-- After the loop: the body that was found is used, or else the foot.  `tidy` says whether the reference to the foot is given up when it is not the right section either:
it is in `insert_row` (src/html/html_table_element.c:896) and it is not in `delete_row` (1016). -/
def inBodyOrFoot {α : Type} (tidy : Bool) (hit : Nat → Bool) (act : NodeId → Nat → M α) (t : NodeId) : Option NodeId × Nat → M α
  | (some b, win) => act b win
  | (none, win) => do
    let foot ← getChild tfootName t
    let foot ← deref foot
    let len ← lengthOf trName foot
    (if hit (u32 (win + len)) then closing (act foot win) (unref foot)
     else do
      (if tidy then unref foot else pure ())
      M.throw .indexSize)

/-- The section in which the row is, src/html/html_table_element.c:802-897 and 937-1016. -/
def inSection {α : Type} (tidy : Bool) (hit : Nat → Bool) (act : NodeId → Nat → M α) (t : NodeId) : M α := do
  let head ← getChild theadName t
  let head ← deref head
  let len ← lengthOf trName head
  (if hit len then closing (act head 0) (unref head)
   else do
    unref head
    let n ← getNode t
    let bd ← bound
    let r ← bodyLoop hit bd n.first len
    inBodyOrFoot tidy hit act t r)

/-- `dom_html_table_element_insert_row`, src/html/html_table_element.c:737-901. -/
def insertRow (t : NodeId) (index : Int) : M NodeId := do
  let len ← lengthOf trName t
  throwIf (index > toInt32 len || index < -1) .indexSize
  (if len == 0 then firstRow t
   else do
    let i := if index == -1 then len else toUInt32 index
    inSection true (fun e => e > i || e == len) (fun s win => sectionInsertRow s (toInt32 (sub32 i win))) t)

/-- `dom_html_table_element_delete_row`, src/html/html_table_element.c:909-1019. -/
def deleteRow (t : NodeId) (index : Int) : M Unit := do
  let len ← lengthOf trName t
  throwIf (index ≥ toInt32 len || index < -1 || len == 0) .indexSize
  let i := if index == -1 then sub32 len 1 else toUInt32 index
  inSection false (fun e => e > i) (fun s win => sectionDeleteRow s (toInt32 (sub32 i win))) t

/-! ## Selections -/

/-- `dom__html_select_element_add`, src/html/html_select_element.c:637-648. -/
def selectAdd (sel ele : NodeId) (before : Option NodeId) : M Unit := do
  let inserted ← insertBefore sel ele before
  unref inserted

/-- `dom_html_options_collection_item`, src/html/html_options_collection.c:128-132, with the test `is_option`, src/html/html_select_element.c:732-742. -/
def optionRef (sel : NodeId) (i : Nat) : M (Option NodeId) := do
  let r ← Table.reading fun w => optItem w sel i
  match r with
  | none => pure none
  | some y => do
    ref y
    pure (some y)

/-- `dom_html_select_element_get_length`, src/html/html_select_element.c:423-438. -/
def selectLength (sel : NodeId) : M Nat := do
  let d ← openCol sel
  let len ← Table.reading fun w => optLength w sel
  closeCol sel d
  pure len

/-- The rest of `dom_html_select_element_remove`, src/html/html_select_element.c:665-684. -/
def removeOption (sel : NodeId) (i : Nat) : M Unit := do
  let d ← openCol sel
  let o ← optionRef sel i
  let y ← deref o
  let n ← getNode y
  let p ← deref n.parent
  closing (takeOut p y) (do unref y; closeCol sel d)

/-- `dom_html_select_element_remove`, src/html/html_select_element.c:650-685. -/
def selectRemove (sel : NodeId) (index : Int) : M Unit := do
  let len ← selectLength sel
  (if index < 0 || index ≥ toInt32 len then pure () else removeOption sel (toUInt32 index))

end Dom.Html.Refs
