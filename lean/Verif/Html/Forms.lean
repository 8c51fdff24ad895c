import Verif.Html.Collect
/-!
# Forms and their controls: src/html/html_form_element.c, the `form` pointers of the controls, `form_associate` of bindings/hubbub/parser.c
-/
namespace Dom.Html.Forms

open Dom.Attr (M liftOut)
open Dom.Tree (World NodeId)
open Dom.Str (DStr)
open Dom.Trav (rd)
open Dom.Html.Table (isTag)

/-- The member `form` of the objects: `none` for an object that has no such member (src/html/html_input_element.h:18, html_text_area_element.h:18,
html_select_element.h:21, html_button_element.h:18), the pointer otherwise.  The pointer is not counted. -/
abbrev Fields := NodeId → Option (Option NodeId)

/-- `((dom_html_input_element *)node)->form`: of an object without the member, memory after its end is read. -/
def field (fs : Fields) (x : NodeId) : Out (Option NodeId) :=
  match fs x with
  | none => .fault .overrun
  | some p => .ok p

/-- `doc->elements[DOM_HTML_ELEMENT_TYPE_INPUT]`, include/dom/html/html_elements.h. -/
def inputName : DStr := Names.lit "INPUT"
/-- See `inputName`. -/
def textAreaName : DStr := Names.lit "TEXTAREA"
/-- See `inputName`. -/
def selectName : DStr := Names.lit "SELECT"
/-- See `inputName`. -/
def buttonName : DStr := Names.lit "BUTTON"

/-- One of the four names, in the order of the tests (src/html/html_form_element.c:311-324; in another order in bindings/hubbub/parser.c:534-569). -/
def hasControlName (w : World) (x : NodeId) : Bool :=
  isTag inputName w x || isTag textAreaName w x || isTag selectName w x || isTag buttonName w x

/-- `_dom_is_form_control`, src/html/html_form_element.c:300-327. -/
def isFormControl (fs : Fields) (w : World) (form x : NodeId) : Out Bool :=
  if hasControlName w x then do
    let p ← field fs x
    .ok (decide (p = some form))
  else .ok false

/-- `dom_node_get_owner(ele)` and the assertion, src/html/html_form_element.c:173-175 (and 193-196). -/
def docOf (w : World) (form : NodeId) : Out NodeId := do
  let n ← rd w form
  match n.owner with
  | none => .fault .assertFail
  | some d => .ok d

/-- The test of the collection. -/
def test (fs : Fields) (w : World) (form : NodeId) : NodeId → M Bool := fun x => liftOut (isFormControl fs w form x)

/-- `dom_html_form_element_get_length`, src/html/html_form_element.c:189-210; and `dom_html_form_element_get_elements` (169-180) followed by
`dom_html_collection_get_length`. -/
def count (fs : Fields) (w : World) (form : NodeId) : M Nat := do
  let d ← liftOut (docOf w form)
  Collect.length (test fs w form) w d

/-- `dom_html_form_element_get_elements` followed by `dom_html_collection_item`. -/
def item (fs : Fields) (w : World) (form : NodeId) (index : Nat) : M (Option NodeId) := do
  let d ← liftOut (docOf w form)
  Collect.item (test fs w form) w d index

/-- The same followed by `dom_html_collection_named_item`. -/
def namedItem (fs : Fields) (w : World) (form : NodeId) (name : Option DStr) : M (Option NodeId) := do
  let d ← liftOut (docOf w form)
  Collect.namedItem (test fs w form) w d name

/-- `form_associate`, bindings/hubbub/parser.c:525-573, with `_dom_html_input_element_set_form` (src/html/html_input_element.c:509-515) and its like: of
an object without the member, memory after its end is written. -/
def associate (fs : Fields) (w : World) (form x : NodeId) : Out Fields := do
  let _ ← rd w x
  if hasControlName w x then do
    let _ ← field fs x
    .ok fun y => if y = x then some (some form) else fs y
  else .ok fs

/-- `dom_html_input_element_get_form`, src/html/html_input_element.c:498-507, and those of TEXTAREA (html_text_area_element.c:445-454), SELECT
(html_select_element.c:465-474) and BUTTON (html_button_element.c:243-252). -/
def getForm (fs : Fields) (x : NodeId) : Tree.M (Option NodeId) :=
  match fs x with
  | none => Tree.M.crash .overrun
  | some none => pure none
  | some (some f) => do
    Tree.ref f
    pure (some f)

/-- The pointer of a copy of a control: `new->form = old->form`, src/html/html_input_element.c:392, html_text_area_element.c:338,
html_select_element.c:150, html_button_element.c:179. -/
def copied (fs : Fields) (old new : NodeId) : Fields := fun y => if y = new then fs old else fs y

end Dom.Html.Forms
