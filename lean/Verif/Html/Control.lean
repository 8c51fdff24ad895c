import Verif.Html.Create
/-!
# The state of INPUT and TEXTAREA elements, src/html/html_input_element.c, src/html/html_text_area_element.c

An element with its own strings, in the memory of strings.  The strings held by the attributes, and what listeners of the events do, are not represented.
-/
namespace Dom.Html.Control

open Dom.Intern
open Dom.Str (Bytes)
open Dom.Html.Create (refOpt unrefOpt)

/-! ## INPUT -/

/-- The fields of `struct dom_html_input_element` without `base` and `form`, src/html/html_input_element.h:15-28. -/
structure Input where
  defaultChecked : Bool
  defaultCheckedSet : Bool
  defaultValue : Option Addr
  defaultValueSet : Bool
  checked : Bool
  checkedSet : Bool
  value : Option Addr
  valueSet : Bool
  deriving DecidableEq, Repr

/-- `_dom_html_input_element_initialise`, src/html/html_input_element.c:59-74. -/
def Input.init : Input :=
  { defaultChecked := false, defaultCheckedSet := false, defaultValue := none, defaultValueSet := false, checked := false, checkedSet := false, value := none,
    valueSet := false }

/-- `_dom_html_input_element_finalise`, src/html/html_input_element.c:81-93. -/
def Input.finalise (s : Mem) (i : Input) : Out (Mem × Input) := do
  let s ← unrefOpt s i.defaultValue
  let s ← unrefOpt s i.value
  .ok (s, { i with defaultValue := none, value := none })

/-- The calls on the element. -/
inductive Op
  | setValue (v : Option Addr)
  | getValue
  | setDefaultValue (v : Option Addr)
  | getDefaultValue
  | setChecked (b : Bool)
  | getChecked
  | setDefaultChecked (b : Bool)
  | getDefaultChecked
  /-- The value of an attribute is set (`dom_attr_set_value`, src/core/attr.c:534-596, which `dom_element_set_attribute` calls). -/
  | setAttribute (name : Bytes) (v : Option Addr)
  | click
  deriving DecidableEq, Repr

/-- What a call returns: nothing, a string, a boolean. -/
inductive Ans
  | none
  | str (v : Option Addr)
  | bool (b : Bool)
  deriving DecidableEq, Repr

/-- `dom_html_input_element_set_value`, src/html/html_input_element.c:229-242. -/
def Input.setValue (s : Mem) (i : Input) (v : Option Addr) : Out (Mem × Input) := do
  let s ← unrefOpt s i.value
  let s ← refOpt s v
  .ok (s, { i with value := v, valueSet := true })

/-- `dom_html_input_element_get_default_value`, src/html/html_input_element.c:251-260. -/
def Input.getDefaultValue (s : Mem) (i : Input) : Out (Mem × Option Addr) := do
  let s ← refOpt s i.defaultValue
  .ok (s, i.defaultValue)

/-- `dom_html_input_element_get_value`, src/html/html_input_element.c:209-220. -/
def Input.getValue (s : Mem) (i : Input) : Out (Mem × Option Addr) :=
  if i.valueSet then do
    let s ← refOpt s i.value
    .ok (s, i.value)
  else i.getDefaultValue s

/-- `dom_html_input_element_set_default_value`, src/html/html_input_element.c:269-282. -/
def Input.setDefaultValue (s : Mem) (i : Input) (v : Option Addr) : Out (Mem × Input) := do
  let s ← unrefOpt s i.defaultValue
  let s ← refOpt s v
  .ok (s, { i with defaultValue := v, defaultValueSet := true })

/-- `dom_html_input_element_get_checked`, src/html/html_input_element.c:172-181, with `..._get_default_checked`, 291-297. -/
def Input.getChecked (i : Input) : Bool := if i.checkedSet then i.checked else i.defaultChecked

/-- `dom_html_input_element_set_checked`, src/html/html_input_element.c:190-200.  `dom_html_element_set_bool_property` adds an attribute without value or
removes it (src/html/html_element.c:410-457) and does not come to `..._parse_attribute`. -/
def Input.setChecked (i : Input) (b : Bool) : Input := { i with checkedSet := true, checked := b }

/-- `dom_html_input_element_set_default_checked`, src/html/html_input_element.c:306-313. -/
def Input.setDefaultChecked (i : Input) (b : Bool) : Input := { i with defaultChecked := b, defaultCheckedSet := true }

/-- `dom_string_caseless_isequal(name, html->memoised[...])`. -/
def isNamed (name : Bytes) (t : String) : Bool := Str.caselessIsEqual (some ⟨name, false⟩) (some (Names.lit t))

/-- The first test of `_dom_html_input_element_parse_attribute`, src/html/html_input_element.c:330-335. -/
def Input.parseChecked (i : Input) (name : Bytes) : Input :=
  if isNamed name "checked" then (if i.defaultCheckedSet = false then { i with defaultChecked := true, defaultCheckedSet := true } else i) else i

/-- The second test, src/html/html_input_element.c:337-343. -/
def Input.parseValue (s : Mem) (i : Input) (name : Bytes) (v : Option Addr) : Out (Mem × Input) :=
  if isNamed name "value" && i.defaultValueSet == false then do
    let s ← refOpt s v
    .ok (s, { i with defaultValue := v, defaultValueSet := true })
  else .ok (s, i)

/-- `_dom_html_input_element_parse_attribute`, src/html/html_input_element.c:320-349, and its caller, src/core/attr.c:560-568, which gives up the parsed string
again. -/
def Input.setAttribute (s : Mem) (i : Input) (name : Bytes) (v : Option Addr) : Out (Mem × Input) := do
  let (s, i) ← (i.parseChecked name).parseValue s name v
  let s ← refOpt s v
  let s ← unrefOpt s v
  .ok (s, i)

/-- `dom_html_input_element_click` when the dispatch of the event succeeds, src/html/html_input_element.c:583-604. -/
def Input.click (i : Input) : Input := { i with checked := true, checkedSet := true }

/-- One call. -/
def Input.run (s : Mem) (i : Input) : Op → Out (Mem × Input × Ans)
  | .setValue v => do
    let (s, i) ← i.setValue s v
    .ok (s, i, .none)
  | .getValue => do
    let (s, v) ← i.getValue s
    .ok (s, i, .str v)
  | .setDefaultValue v => do
    let (s, i) ← i.setDefaultValue s v
    .ok (s, i, .none)
  | .getDefaultValue => do
    let (s, v) ← i.getDefaultValue s
    .ok (s, i, .str v)
  | .setChecked b => .ok (s, i.setChecked b, .none)
  | .getChecked => .ok (s, i, .bool i.getChecked)
  | .setDefaultChecked b => .ok (s, i.setDefaultChecked b, .none)
  | .getDefaultChecked => .ok (s, i, .bool i.defaultChecked)
  | .setAttribute name v => do
    let (s, i) ← i.setAttribute s name v
    .ok (s, i, .none)
  | .click => .ok (s, i.click, .none)

/-- `_dom_html_input_element_copy_internal`, src/html/html_input_element.c:379-406, the strings and flags. -/
def Input.copy (s : Mem) (i : Input) : Out (Mem × Input) := do
  let s ← refOpt s i.defaultValue
  let s ← refOpt s i.value
  .ok (s, i)

/-! ## TEXTAREA -/

/-- The fields of `struct dom_html_text_area_element` without `base` and `form`, src/html/html_text_area_element.h:15-24, and the text content of the
element (`none` is the `NULL` that `dom_node_get_text_content` gives for an element without text). -/
structure Area where
  defaultValue : Option Addr
  defaultValueSet : Bool
  value : Option Addr
  valueSet : Bool
  content : Option Bytes
  deriving DecidableEq, Repr

/-- `_dom_html_text_area_element_initialise`, src/html/html_text_area_element.c:59-70. -/
def Area.init : Area := { defaultValue := none, defaultValueSet := false, value := none, valueSet := false, content := none }

/-- `_dom_html_text_area_element_finalise`, src/html/html_text_area_element.c:77-92. -/
def Area.finalise (s : Mem) (i : Area) : Out (Mem × Area) := do
  let s ← unrefOpt s i.defaultValue
  let s ← unrefOpt s i.value
  .ok (s, { i with defaultValue := none, defaultValueSet := i.defaultValueSet && i.defaultValue.isNone, value := none,
                   valueSet := i.valueSet && i.value.isNone })

/-- `dom_node_get_text_content`: a string with these bytes, with a reference for the caller.  (Here it is always a new one.) -/
def textContent (s : Mem) : Option Bytes → Out (Mem × Option Addr)
  | none => .ok (s, none)
  | some b => do
    let (s, a) ← strCreate s b
    .ok (s, some a)

/-- The default value is fetched when it is needed for the first time, src/html/html_text_area_element.c:176-182 and 259-265. -/
def Area.fetchDefault (s : Mem) (i : Area) : Out (Mem × Area) :=
  if i.defaultValueSet = false then do
    let (s, v) ← textContent s i.content
    .ok (s, { i with defaultValue := v, defaultValueSet := true })
  else .ok (s, i)

/-- `dom_html_text_area_element_get_default_value`, src/html/html_text_area_element.c:171-190. -/
def Area.getDefaultValue (s : Mem) (i : Area) : Out (Mem × Area × Option Addr) := do
  let (s, i) ← i.fetchDefault s
  let s ← refOpt s i.defaultValue
  .ok (s, i, i.defaultValue)

/-- `dom_html_text_area_element_set_default_value`, src/html/html_text_area_element.c:199-212. -/
def Area.setDefaultValue (s : Mem) (i : Area) (v : Option Addr) : Out (Mem × Area) := do
  let s ← unrefOpt s i.defaultValue
  let s ← refOpt s v
  .ok (s, { i with defaultValue := v, defaultValueSet := true })

/-- The value is fetched every time until it was set, and the default value counts as set from then on, src/html/html_text_area_element.c:226-237. -/
def Area.fetchValue (s : Mem) (i : Area) : Out (Mem × Area) :=
  if i.valueSet = false then do
    let (s, v) ← textContent s i.content
    .ok (s, { i with value := v, defaultValueSet := true })
  else .ok (s, i)

/-- `dom_html_text_area_element_get_value`, src/html/html_text_area_element.c:221-245. -/
def Area.getValue (s : Mem) (i : Area) : Out (Mem × Area × Option Addr) := do
  let (s, i) ← i.fetchValue s
  let s ← refOpt s i.value
  .ok (s, i, i.value)

/-- The bytes of a string that may be `NULL`. -/
def bytesOf (s : Mem) : Option Addr → Out (Option Bytes)
  | none => .ok none
  | some a => do
    let b ← strBytes s a
    .ok (some b)

/-- `dom_html_text_area_element_set_value`, src/html/html_text_area_element.c:254-277.  `dom_node_set_text_content` is taken to succeed. -/
def Area.setValue (s : Mem) (i : Area) (v : Option Addr) : Out (Mem × Area) := do
  let (s, i) ← i.fetchDefault s
  let s ← unrefOpt s i.value
  let s ← refOpt s v
  let b ← bytesOf s v
  .ok (s, { i with value := v, valueSet := true, content := b })

/-- The calls on the element; `setContent` is any change of its text. -/
inductive AreaOp
  | setValue (v : Option Addr)
  | getValue
  | setDefaultValue (v : Option Addr)
  | getDefaultValue
  | setContent (b : Option Bytes)
  deriving DecidableEq, Repr

/-- One call. -/
def Area.run (s : Mem) (i : Area) : AreaOp → Out (Mem × Area × Ans)
  | .setValue v => do
    let (s, i) ← i.setValue s v
    .ok (s, i, .none)
  | .getValue => do
    let (s, i, v) ← i.getValue s
    .ok (s, i, .str v)
  | .setDefaultValue v => do
    let (s, i) ← i.setDefaultValue s v
    .ok (s, i, .none)
  | .getDefaultValue => do
    let (s, i, v) ← i.getDefaultValue s
    .ok (s, i, .str v)
  | .setContent b => .ok (s, { i with content := b }, .none)

end Dom.Html.Control
