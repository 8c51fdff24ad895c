import Verif.Html.Reflect
import Verif.Trav.Model
import Verif.Tree.Content
/-!
# Options and select elements, src/html/html_option_element.c, src/html/html_select_element.c

The tree (`World`) is only read; attributes live in the memory of the attribute model, where the address of an element is its node.  The
collection is created, used and released inside each function; its references on the document and the select element are not
represented.
-/
namespace Dom.Html

open Dom.Attr
open Dom.Str (DStr Bytes)
open Dom.Tree (World NodeId Node rdNode contentLoop getTextContent)

/-- The name "selected", src/html/html_option_element.c:349, 363. -/
def selectedName : DStr := Names.lit "selected"

/-- `doc->memoised[hds_value]`. -/
def valueName : DStr := Names.lit "value"

/-- `doc->elements[DOM_HTML_ELEMENT_TYPE_OPTION]`, include/dom/html/html_elements.h:99. -/
def optionName : DStr := Names.lit "OPTION"

/-- `is_option`, src/html/html_select_element.c:732-742. -/
def isOption (w : World) (x : NodeId) : Bool :=
  match w.nodes x with
  | some n => Str.isEqual n.name (some optionName)
  | none => false

/-- `dom_html_options_collection_get_length` of the collection of the select element, src/html/html_options_collection.c:98-102,
src/html/html_select_element.c:160-171. -/
def optLength (w : World) (sel : NodeId) : Out Nat := Trav.colLength (isOption w) w sel

/-- `dom_html_options_collection_item`, src/html/html_options_collection.c:129-133. -/
def optItem (w : World) (sel : NodeId) (index : Nat) : Out (Option NodeId) := Trav.colItem (isOption w) w sel index

/-- A pointer that is dereferenced. -/
def needed {α : Type} : Option α → M α
  | some x => pure x
  | none => M.crash .nullDeref

/-- The option of the index: `dom_html_option_element_get_selected` and its like dereference the result of the collection without looking. -/
def optionAt (w : World) (sel : NodeId) (index : Nat) : M NodeId := do
  let o ← liftOut (optItem w sel index)
  needed o

/-! ## Options -/

/-- `dom_html_option_element_get_selected`, src/html/html_option_element.c:345-350. -/
def getSelected (o : NodeId) : M Bool := getBoolProp o selectedName

/-- `dom_html_option_element_set_selected`, src/html/html_option_element.c:359-364. -/
def setSelected (o : NodeId) (b : Bool) : M Unit := setBoolProp o selectedName b

/-- `dom_namespaces[DOM_NAMESPACE_HTML]`, src/utils/namespace.c:24-33. -/
def htmlNs : DStr := Names.lit "http://www.w3.org/1999/xhtml"

/-- Script elements of HTML and SVG are skipped, src/html/html_option_element.c:171-191. -/
def isScript (n : Node) : Bool :=
  Str.caselessIsEqual n.name (some (Names.lit "script")) && (Str.caselessIsEqual n.ns (some htmlNs) || Str.caselessIsEqual n.ns (some svgNs))

/-- Both flags of `DOM_WHITESPACE_STRIP_COLLAPSE`. -/
def stripCollapse : Str.WsOp := { leading := true, trailing := true, collapse := true }

/-- Strip and collapse what was collected, src/html/html_option_element.c:209-214. -/
def tidied : Option DStr → Option DStr
  | none => none
  | some s => some (Str.whitespaceOp s stripCollapse)

/-- `dom_html_option_element_get_text_node`, src/html/html_option_element.c:147-217.  The loop is that of `dom_node_get_text_content`: the same
nodes are skipped and the texts are joined in the same way (in addition script elements add nothing). -/
def optText (w : World) : Nat → NodeId → Out (Option DStr)
  | 0, _ => .fault .diverge
  | k + 1, x => do
    let n ← rdNode w x
    let str ← (if n.owner.isNone then .fault .assertFail else
      contentLoop w (fun c => do
        let cn ← rdNode w c
        if cn.type = .element then (if isScript cn then .ok none else optText w k c) else getTextContent w c) (w.fresh + 1) n.first none)
    .ok (tidied str)

/-- `dom_html_option_element_get_text`, src/html/html_option_element.c:226-231. -/
def getOptionText (w : World) (o : NodeId) : Out (Option DStr) := optText w (w.fresh + 1) o

/-- `dom_html_option_element_get_value`, src/html/html_option_element.c:373-393. -/
def getOptionValue (w : World) (o : NodeId) : M (Option DStr) := do
  let has ← hasAttribute o valueName
  if has then getAttribute o valueName else liftOut (getOptionText w o)

/-! ## Select elements -/

/-- Conversion of the `uint32_t` counter to `int32_t`, src/html/html_select_element.c:245. -/
def asIndex (idx : Nat) : Int := toInt32 idx

/-- The loop of `dom_html_select_element_get_selected_index`, src/html/html_select_element.c:226-251; the first argument bounds the rounds. -/
def indexLoop (w : World) (sel : NodeId) : Nat → Nat → M Int
  | 0, _ => pure (-1)
  | f + 1, idx => do
    let o ← optionAt w sel idx
    let b ← getSelected o
    if b then pure (asIndex idx) else indexLoop w sel f (idx + 1)

/-- `dom_html_select_element_get_selected_index`, src/html/html_select_element.c:205-257: there are `len` rounds. -/
def getSelectedIndex (w : World) (sel : NodeId) : M Int := do
  let len ← liftOut (optLength w sel)
  indexLoop w sel len 0

/-- `dom_html_select_element_set_selected_index`, src/html/html_select_element.c:266-294; the index becomes a `uint32_t`. -/
def setSelectedIndex (w : World) (sel : NodeId) (index : Int) : M Unit := do
  let o ← optionAt w sel (toUInt32 index)
  setSelected o true

/-- The loop of `dom_html_select_element_get_value`, src/html/html_select_element.c:322-350. -/
def valueLoop (w : World) (sel : NodeId) : Nat → Nat → M (Option DStr)
  | 0, _ => pure none
  | f + 1, idx => do
    let o ← optionAt w sel idx
    let b ← getSelected o
    if b then getOptionValue w o else valueLoop w sel f (idx + 1)

/-- `dom_html_select_element_get_value`, src/html/html_select_element.c:303-356. -/
def getSelectValue (w : World) (sel : NodeId) : M (Option DStr) := do
  let len ← liftOut (optLength w sel)
  valueLoop w sel len 0

/-- The loop of `dom_html_select_element_set_value`, src/html/html_select_element.c:382-407. -/
def setValueLoop (w : World) (sel : NodeId) (v : Option DStr) : Nat → Nat → M Unit
  | 0, _ => pure ()
  | f + 1, idx => do
    let o ← optionAt w sel idx
    let b ← getSelected o
    if b then setAttribute o valueName v else setValueLoop w sel v f (idx + 1)

/-- `dom_html_select_element_set_value`, src/html/html_select_element.c:363-414, with `dom_html_option_element_set_value`,
src/html/html_option_element.c:402-411. -/
def setSelectValue (w : World) (sel : NodeId) (v : Option DStr) : M Unit := do
  let len ← liftOut (optLength w sel)
  setValueLoop w sel v len 0

end Dom.Html
