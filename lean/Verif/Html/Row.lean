import Verif.Html.Table
/-!
# Rows and their cells, src/html/html_tablerow_element.c

As in `Verif/Html/Table.lean` the functions work on the tree, and the references the code takes and drops are not represented.
-/
namespace Dom.Html.Table

open Dom.Str (DStr)
open Dom.Tree (World NodeId Node M getNode deref throwIf bound initNode appendChild insertBefore removeChild)

/-- `doc->elements[DOM_HTML_ELEMENT_TYPE_TD]`, include/dom/html/html_elements.h. -/
def tdName : DStr := Names.lit "TD"
/-- See `tdName`. -/
def tableName : DStr := Names.lit "TABLE"

/-- The loop over the siblings before the row, src/html/html_tablerow_element.c:215-222 and 300-307; it ends only at the row. -/
def countBefore (row : NodeId) : Nat → Option NodeId → Nat → M Nat
  | _, none, _ => M.crash .nullDeref
  | 0, some _, _ => M.crash .diverge
  | f + 1, some c, k =>
    if c = row then pure k
    else do
      let n ← getNode c
      (if n.type == .element && Str.caselessIsEqual n.name (some trName) then countBefore row f n.next (u32 (k + 1)) else countBefore row f n.next k)

/-- `dom_html_table_row_element_get_section_row_index`, src/html/html_tablerow_element.c:294-310.  The counter is an `int32_t`; its overflow (2^31 rows in
front) is not represented. -/
def sectionRowIndex (row : NodeId) : M Int := do
  let n ← getNode row
  let p ← deref n.parent
  let pn ← getNode p
  let bd ← bound
  let k ← countBefore row bd pn.first 0
  pure (toInt32 k)

/-- The loop over the bodies before the section, src/html/html_tablerow_element.c:259-276. -/
def bodiesBefore (sec : NodeId) : Nat → Option NodeId → Nat → M Nat
  | _, none, k => pure k
  | 0, some _, _ => M.crash .diverge
  | f + 1, some c, k =>
    if c = sec then pure k
    else do
      let n ← getNode c
      (if Str.caselessIsEqual n.name (some tbodyName) then do
        let len ← count trName c
        bodiesBefore sec f n.next (u32 (k + len))
       else bodiesBefore sec f n.next k)

/-- The rows of the head, src/html/html_tablerow_element.c:239-257. -/
def headRows (t : NodeId) : M Nat := do
  let head ← childOf theadName t
  match head with
  | none => pure 0
  | some h => count trName h

/-- `dom_html_table_row_element_get_row_index`, src/html/html_tablerow_element.c:203-285. -/
def rowIndex (row : NodeId) : M Int := do
  let n ← getNode row
  let p ← deref n.parent
  let pn ← getNode p
  let bd ← bound
  let k ← countBefore row bd pn.first 0
  let t ← deref pn.parent
  let tn ← getNode t
  (if Str.caselessIsEqual tn.name (some tableName) && Str.caselessIsEqual pn.name (some theadName) then pure (toInt32 k)
   else if Str.caselessIsEqual tn.name (some tableName) && (Str.caselessIsEqual pn.name (some tbodyName) || Str.caselessIsEqual pn.name (some tfootName)) then do
    let len ← headRows t
    let r ← bodiesBefore p bd tn.first (u32 (k + len))
    pure (toInt32 r)
   else M.throw .hierarchyRequest)

/-- `dom_html_table_row_element_insert_cell`, src/html/html_tablerow_element.c:353-411; the collection of cells is that of 319-344.  The code creates the cell first
and drops it again when the index is bad. -/
def insertCell (s : NodeId) (index : Int) : M NodeId := do
  let len ← count tdName s
  throwIf (index < -1 || index > toInt32 len) .indexSize
  let cell ← newElement tdName s
  (if index == -1 || index == toInt32 len then appendChild s cell
   else do
    let node ← item tdName s (toUInt32 index)
    insertBefore s cell node)

/-- `dom_html_table_row_element_delete_cell`, src/html/html_tablerow_element.c:420-462; the cell is returned here for reference. -/
def deleteCell (s : NodeId) (index : Int) : M NodeId := do
  let len ← count tdName s
  throwIf (index < -1 || index ≥ toInt32 len || len == 0) .indexSize
  let node ← item tdName s (if index == -1 then sub32 len 1 else toUInt32 index)
  let node ← deref node
  removeChild s node

end Dom.Html.Table
