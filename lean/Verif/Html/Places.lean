import Verif.Html.Forms
import Verif.Html.Row
/-!
# Where a node stands: src/html/html_option_element.c, html_tablecell_element.c, and the `form` of elements that have no such member

The name of the elements is that of the document (`doc->elements[...]`); that the document is read is not represented.
-/
namespace Dom.Html.Places

open Dom.Str (DStr)
open Dom.Tree (World NodeId Node M)
open Dom.Trav (rd)
open Dom.Html.Table (trName tdName)
open Dom.Html.Forms (selectName Fields)
open Dom.Html.Collect (formName)

/-- `doc->elements[DOM_HTML_ELEMENT_TYPE_OPTION]`, include/dom/html/html_elements.h. -/
def optionName : DStr := Names.lit "OPTION"
/-- See `optionName`. -/
def thName : DStr := Names.lit "TH"
/-- See `optionName`. -/
def fieldsetName : DStr := Names.lit "FIELDSET"

/-! ## The index of an option -/

/-- The loop of `dom_html_option_element_get_index`, src/html/html_option_element.c:262-269; when it ends without the option, `*index` is not written. -/
def indexLoop (w : World) (o : NodeId) : Nat → Option NodeId → Nat → Out Nat
  | _, none, _ => .fault .uninit
  | 0, some _, _ => .fault .diverge
  | f + 1, some c, k =>
    if c = o then .ok k
    else do
      let n ← rd w c
      indexLoop w o f n.next (if Str.caselessIsEqual n.name (some optionName) then k + 1 else k)

/-- `dom_html_option_element_get_index`, src/html/html_option_element.c:255-272.  The counter is an `int32_t`; its overflow (2^31 options in front) is not
represented. -/
def optionIndex (w : World) (o : NodeId) : Out Nat := do
  let n ← rd w o
  match n.parent with
  | none => .fault .nullDeref
  | some p => do
    let pn ← rd w p
    indexLoop w o (w.fresh + 1) pn.first 0

/-! ## The index of a cell -/

/-- The search for the row, src/html/html_tablecell_element.c:214-221: any node of that name. -/
def rowAbove (w : World) : Nat → Option NodeId → Out (Option NodeId)
  | _, none => .ok none
  | 0, some _ => .fault .diverge
  | f + 1, some c => do
    let n ← rd w c
    if Str.caselessIsEqual (some trName) n.name then .ok (some c) else rowAbove w f n.parent

/-- The climb, src/html/html_tablecell_element.c:241-252: `parent->last_child` is read before `n` is compared with the root. -/
def cellClimb (w : World) (root : NodeId) : Nat → NodeId → Option NodeId → Out (Option NodeId)
  | 0, _, _ => .fault .diverge
  | f + 1, node, parent =>
    match parent with
    | none => .fault .nullDeref
    | some p => do
      let pn ← rd w p
      if pn.last = some node ∧ node ≠ root then cellClimb w root f p pn.parent
      else if node = root then .ok none
      else do
        let n ← rd w node
        .ok n.next

/-- The next node, src/html/html_tablecell_element.c:235-253. -/
def cellNext (w : World) (root cur : NodeId) (n : Node) : Out (Option NodeId) :=
  if n.first.isSome then .ok n.first
  else if n.next.isSome then .ok n.next
  else cellClimb w root (w.fresh + 1) cur n.parent

/-- The test, src/html/html_tablecell_element.c:226-233. -/
def isCell (n : Node) : Bool := n.type == .element && (Str.caselessIsEqual (some tdName) n.name || Str.caselessIsEqual (some thName) n.name)

/-- The loop, src/html/html_tablecell_element.c:223-254. -/
def cellLoop (w : World) (root cell : NodeId) : Nat → Option NodeId → Nat → Out Nat
  | _, none, k => .ok k
  | 0, some _, _ => .fault .diverge
  | f + 1, some cur, k =>
    if cur = cell then .ok k
    else do
      let n ← rd w cur
      let nx ← cellNext w root cur n
      cellLoop w root cell f nx (if isCell n then k + 1 else k)

/-- `dom_html_table_cell_element_get_cell_index`, src/html/html_tablecell_element.c:207-257; of a cell without parent, `n->owner` is read from NULL.  The counter is an
`int32_t`; its overflow is not represented. -/
def cellIndex (w : World) (cell : NodeId) : Out Nat := do
  let n ← rd w cell
  match n.parent with
  | none => .fault .nullDeref
  | some p => do
    let root ← rowAbove w (w.fresh + 1) (some p)
    match root with
    | none => .ok 0
    | some r => cellLoop w r cell (w.fresh + 1) (some r) 0

/-! ## The form of elements -/

/-- The search up the ancestors, src/html/html_label_element.c:160-167, html_fieldset_element.c:163-170, html_object_element.c:267-274, html_legend_element.c:104-111,
html_option_element.c:104-111. -/
def upTo (tag : DStr) (w : World) : Nat → Option NodeId → Out (Option NodeId)
  | _, none => .ok none
  | 0, some _ => .fault .diverge
  | f + 1, some c => do
    let n ← rd w c
    if n.type == .element && Str.caselessIsEqual n.name (some tag) then .ok (some c) else upTo tag w f n.parent

/-- The nearest ancestor with the name. -/
def ancestor (tag : DStr) (x : NodeId) : M (Option NodeId) := Table.reading fun w => do
  let n ← rd w x
  upTo tag w (w.fresh + 1) n.parent

/-- `dom_html_label_element_get_form` (src/html/html_label_element.c:152-177), `dom_html_field_set_element_get_form` (html_fieldset_element.c:155-180),
`dom_html_object_element_get_form` (html_object_element.c:260-284). -/
def formAbove (x : NodeId) : M (Option NodeId) := do
  let r ← ancestor formName x
  match r with
  | none => pure none
  | some f => do
    Tree.ref f
    pure (some f)

/-- `dom_html_legend_element_get_form`, src/html/html_legend_element.c:96-121. -/
def legendForm (x : NodeId) : M (Option NodeId) := do
  let r ← ancestor fieldsetName x
  match r with
  | none => pure none
  | some s => formAbove s

/-- `dom_html_option_element_get_form`, src/html/html_option_element.c:95-121. -/
def optionForm (fs : Fields) (x : NodeId) : M (Option NodeId) := do
  let r ← ancestor selectName x
  match r with
  | none => pure none
  | some s => Forms.getForm fs s

/-- `dom_html_object_element_get_content_document`, src/html/html_object_element.c:286-291: the document of the element, without a reference. -/
def contentDocument (x : NodeId) : M (Option NodeId) := do
  let n ← Tree.getNode x
  pure n.owner

end Dom.Html.Places
