import Verif.Basic
/-!
# The fields that HTML elements have besides `base`: creation and copy

Six of the specialised classes have fields of their own: BUTTON, INPUT, OPTION, SCRIPT, SELECT and TEXTAREA.  A block from `malloc` has no
defined contents; here a field that was not written since is `none`.

Simplified: pointers, booleans, enumerations and integers are numbers, NULL and `false` are 0.  The references to the strings are in
Verif/Html/Control.lean, the base class in Verif/Oom/Attr.lean; `malloc` does not fail, and no element is destroyed.
-/
namespace Dom.Html.Parts

/-- The specialised classes with fields of their own; `other` stands for the rest. -/
inductive Kind
  | other | button | input | option | script | select | textArea
  deriving DecidableEq, Repr

/-- The fields, src/html/html_button_element.h:15-20, html_input_element.h:15-28, html_option_element.h:15-20,
html_script_element.h:16-21, html_select_element.h:16-23, html_text_area_element.h:15-24. -/
inductive Field
  | form | defaultChecked | defaultCheckedSet | defaultValue | defaultValueSet | checked | checkedSet | value | valueSet
  | defaultSelected | defaultSelectedSet | flags | processed | selected
  deriving DecidableEq, Repr

/-- The fields of each structure, in the files named at `Field`. -/
def own : Kind → List Field
  | .other => []
  | .button => [.form]
  | .input => [.form, .defaultChecked, .defaultCheckedSet, .defaultValue, .defaultValueSet, .checked, .checkedSet, .value, .valueSet]
  | .option => [.defaultSelected, .defaultSelectedSet]
  | .script => [.flags, .processed]
  | .select => [.selected, .form]
  | .textArea => [.form, .defaultValue, .defaultValueSet, .value, .valueSet]

/-- The contents of the fields; `none`: nothing was written since the block was allocated. -/
abbrev Vals := Field → Option Nat

/-- `field = v;` -/
def Vals.put (x : Vals) (f : Field) (v : Option Nat) : Vals := fun g => if g = f then v else x g

/-- A new block, src/html/html_script_element.c:40 and :121 for instance. -/
def blank : Vals := fun _ => none

/-- `DOM_HTML_SCRIPT_ELEMENT_FLAG_PARSER_INSERTED`, include/dom/html/html_script_element.h:21. -/
def parserInserted : Nat := 2

/-- `DOM_HTML_SCRIPT_ELEMENT_FLAG_NON_BLOCKING`, include/dom/html/html_script_element.h:22. -/
def nonBlocking : Nat := 4

/-- The assignments of the functions `_dom_html_..._element_initialise`: src/html/html_button_element.c:63, html_input_element.c:63-71,
html_option_element.c:65-66, html_script_element.c:63-64, html_select_element.c:65 (`selected` is not assigned),
html_text_area_element.c:63-67. -/
def initialise (k : Kind) (x : Vals) : Vals :=
  match k with
  | .other => x
  | .button => x.put .form (some 0)
  | .input => ((((((((x.put .form (some 0)).put .defaultChecked (some 0)).put .defaultCheckedSet (some 0)).put .defaultValue (some 0)).put
      .defaultValueSet (some 0)).put .checked (some 0)).put .checkedSet (some 0)).put .value (some 0)).put .valueSet (some 0)
  | .option => (x.put .defaultSelected (some 0)).put .defaultSelectedSet (some 0)
  | .script => (x.put .flags (some nonBlocking)).put .processed (some 0)
  | .select => x.put .form (some 0)
  | .textArea => ((((x.put .form (some 0)).put .defaultValue (some 0)).put .defaultValueSet (some 0)).put .value (some 0)).put .valueSet (some 0)

/-- The assignments of the functions `_dom_html_..._element_copy_internal` from the old element to the new one: src/html/html_button_element.c:179,
html_input_element.c:392-403, html_option_element.c:480-481, html_select_element.c:150-152, html_text_area_element.c:338-343.  For SCRIPT
there are none (html_script_element.c:138-150). -/
def copyInternal (k : Kind) (old new : Vals) : Vals :=
  match k with
  | .other => new
  | .button => new.put .form (old .form)
  | .input => ((((((((new.put .form (old .form)).put .defaultChecked (old .defaultChecked)).put .defaultCheckedSet (old .defaultCheckedSet)).put
      .defaultValue (old .defaultValue)).put .defaultValueSet (old .defaultValueSet)).put .checked (old .checked)).put
      .checkedSet (old .checkedSet)).put .value (old .value)).put .valueSet (old .valueSet)
  | .option => (new.put .defaultSelected (old .defaultSelected)).put .defaultSelectedSet (old .defaultSelectedSet)
  | .script => new
  | .select => (new.put .form (old .form)).put .selected (old .selected)
  | .textArea => ((((new.put .form (old .form)).put .defaultValue (old .defaultValue)).put .defaultValueSet (old .defaultValueSet)).put
      .value (old .value)).put .valueSet (old .valueSet)

/-- The functions `_dom_html_..._element_copy`, src/html/html_button_element.c:145-164, html_input_element.c:358-377,
html_option_element.c:448-467, html_script_element.c:115-136 (with `new_node->processed = false;`, :131), html_select_element.c:116-135,
html_text_area_element.c:304-323. -/
def copy (k : Kind) (old : Vals) : Vals :=
  let new := copyInternal k old blank
  if k = .script then new.put .processed (some 0) else new

/-- An element. -/
structure Elem where
  kind : Kind
  vals : Vals

/-- A function returns the value of a field, for instance `dom_html_script_element_get_flags`, src/html/html_script_element.c:289-299, or
`dom_html_button_element_get_form`, src/html/html_button_element.c:243-252. -/
def Elem.get (e : Elem) (f : Field) : Out Nat :=
  if f ∈ own e.kind then
    match e.vals f with
    | some v => .ok v
    | none => .fault .uninit
  else .fault .badCall

/-- A function writes a field, for instance `dom_html_script_element_set_flags`, src/html/html_script_element.c:308-317. -/
def Elem.set (e : Elem) (f : Field) (v : Nat) : Out Elem :=
  if f ∈ own e.kind then .ok { e with vals := e.vals.put f (some v) } else .fault .badCall

/-- The HTML parser marks the scripts it creates, bindings/hubbub/parser.c:248-271. -/
def marked (e : Elem) : Out Elem :=
  if e.kind = .script then do
    let v ← e.get .flags
    e.set .flags (v ||| parserInserted)
  else .ok e

/-- The calls. -/
inductive Call
  /-- An element is created, by a client or by the HTML parser. -/
  | create (k : Kind) (byParser : Bool)
  | copy (i : Nat)
  | set (i : Nat) (f : Field) (v : Nat)
  | get (i : Nat) (f : Field)
  deriving Repr

/-- One call; elements are named in the order in which they come into being.  No function reads or writes the field `selected` of SELECT
but the copy (html_select_element.c:152). -/
def Call.run (s : List Elem) : Call → Out (List Elem × Option Nat)
  | .create k p => do
    let e : Elem := ⟨k, initialise k blank⟩
    let e ← (if p then marked e else .ok e)
    .ok (s ++ [e], none)
  | .copy i =>
    match s[i]? with
    | some e => .ok (s ++ [⟨e.kind, Parts.copy e.kind e.vals⟩], none)
    | none => .fault .useAfterFree
  | .set i f v =>
    match s[i]? with
    | some e => do
      let e ← (if f = .selected then Out.fault .badCall else e.set f v)
      .ok (s.set i e, none)
    | none => .fault .useAfterFree
  | .get i f =>
    match s[i]? with
    | some e => do
      let v ← (if f = .selected then Out.fault .badCall else e.get f)
      .ok (s, some v)
    | none => .fault .useAfterFree

end Dom.Html.Parts
