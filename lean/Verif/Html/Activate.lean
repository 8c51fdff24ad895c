import Verif.Events.Props
import Verif.Names.Model
/-!
# The methods of controls that raise an event: blur, focus, select, click, submit, reset

src/html/html_anchor_element.c:221-253, html_text_area_element.c:470-522, html_form_element.c:259-295, html_select_element.c:693-725 and html_input_element.c:523-604, on top of
the model of dispatch (Verif/Events/Model.lean).  Simplified: memory does not run out (the requests are in Verif/Oom), the strings `doc->memoised` are there, there are no
default actions, and listeners do what Verif/Events/Model.lean allows.
-/
namespace Dom.Html.Activate

open Dom.Events
open Dom.Str (DStr)
open Dom.Tree (NodeId Node World)

/-- The elements with such methods. -/
inductive Control
  | anchor | textArea | form | select | input
  deriving DecidableEq, Repr

/-- The methods. -/
inductive Method
  | blur | focus | select | click | submit | reset
  deriving DecidableEq, Repr

/-- What a method passes to `_dom_dispatch_generic_event`: the string, whether the event bubbles, whether it can be cancelled; `none`: there is no such function.
src/html/html_anchor_element.c:229-232, 249-252; html_text_area_element.c:478-481, 498-501, 518-521; html_form_element.c:269-272, 291-294; html_select_element.c:701-704,
721-724; html_input_element.c:531-534, 551-554, 571-574, 593-596; the strings are those of src/html/html_document_strings.h:142-147. -/
def event : Control → Method → Option (String × Bool × Bool)
  | .anchor, .blur => some ("blur", false, false)
  | .anchor, .focus => some ("focus", false, false)
  | .textArea, .blur => some ("blur", false, false)
  | .textArea, .focus => some ("focus", false, false)
  | .textArea, .select => some ("select", true, false)
  | .form, .submit => some ("submit", true, true)
  | .form, .reset => some ("reset", true, true)
  | .select, .blur => some ("blur", true, true)
  | .select, .focus => some ("focus", true, true)
  | .input, .blur => some ("blur", true, true)
  | .input, .focus => some ("focus", false, false)
  | .input, .select => some ("select", true, false)
  | .input, .click => some ("click", true, true)
  | _, _ => none

/-- What the methods work on: the listeners of the nodes and the invocations so far, and `checked` of the input elements, src/html/html_input_element.h:15-28. -/
structure Page where
  lists : NodeId → List Entry
  fresh : Nat
  log : List Call
  checked : NodeId → Bool

/-- `_dom_dispatch_generic_event`, src/events/dispatch.c:259-287: a new event (`_dom_event_initialise`, src/events/event.c:46-68) is initialised and dispatched; `et` may be
`NULL`. -/
def genericEvent (h : Handler) (fuel : Nat) (w : World) (p : Page) (et : Option NodeId) (type : DStr) (bubble cancelable : Bool) : Out (Page × Option Exc) :=
  match et with
  | none => .ok (p, none)
  | some et => do
    let r ← dispatch h fuel w et { evt := { type := some type, bubble := bubble, cancelable := cancelable }, lists := p.lists, fresh := p.fresh, log := p.log }
    .ok ({ p with lists := r.st.lists, fresh := r.st.fresh, log := r.st.log }, r.err)

/-- The end of `dom_html_input_element_click`, src/html/html_input_element.c:597-603; the other methods return the result of the dispatch. -/
def finish (c : Control) (m : Method) (et : NodeId) (p : Page) (err : Option Exc) : Page × Option Exc :=
  if c = .input ∧ m = .click ∧ err = none then ({ p with checked := fun i => if i = et then true else p.checked i }, none) else (p, err)

/-- A method of a control: `assert(doc != NULL)`, for example src/html/html_input_element.c:525-528, and the event.  A method that the element does not have cannot be called. -/
def activate (h : Handler) (fuel : Nat) (w : World) (p : Page) (c : Control) (m : Method) (et : NodeId) : Out (Page × Option Exc) :=
  match event c m with
  | none => .fault .badCall
  | some (type, bubble, cancelable) =>
    match w.nodes et with
    | none => .fault .useAfterFree
    | some n =>
      if n.owner = none then .fault .assertFail
      else do
        let (p, err) ← genericEvent h fuel w p (some et) (Names.lit type) bubble cancelable
        .ok (finish c m et p err)

end Dom.Html.Activate
