import Verif.Html.Forms
import Verif.Html.PropsCollect
import Verif.Query.Reach
import Verif.Tree.LifeViolations
/-!
# Claim C71: forms and their controls
-/
set_option linter.unusedSimpArgs false
set_option linter.unusedVariables false
attribute [-simp] String.length_utf8EncodeChar
namespace Dom.Html.Forms

open Dom.Attr (M Mem liftOut)
open Dom.Tree (World NodeId Node WF Children DocOrder Below)
open Dom.Str (DStr Bytes contents asciiLower)
open Dom.Trav (rd member)
open Dom.Html.Table (isTag tagged mem_order)
open Dom.Html.Collect (Covers Readable Runs calledBy isTag_tagged C35_by_attributes_partial)
open Dom.Query (Kept)

variable {w : World} {ch : Children} {order : NodeId → List NodeId} {s s' : Mem} {fs fs' : Fields} {x y doc form f g : NodeId} {fn dn xn : Node}

/-! ## Specification -/

/-- An INPUT, TEXTAREA, SELECT or BUTTON element, the case of the name aside. -/
def isControl (w : World) (x : NodeId) : Bool := tagged w "input" x || tagged w "textarea" x || tagged w "select" x || tagged w "button" x

/-- Every control is an object with a form. -/
def Typed (w : World) (fs : Fields) : Prop := ∀ x, isControl w x = true → fs x ≠ none

/-- The controls below `doc`, in document order, whose form is `form`. -/
def controlsOf (w : World) (fs : Fields) (order : NodeId → List NodeId) (doc form : NodeId) : List NodeId :=
  (order doc).filter fun x => isControl w x && decide (fs x = some (some form))

/-- The elements of the form contain `y`, as a program sees it. -/
def Lists (fs : Fields) (w : World) (s : Mem) (form y : NodeId) : Prop := ∃ index s', index < 2 ^ 32 - 1 ∧ item fs w form index s = .ok s' (some y)

/-- A document with elements the attributes of which can be read. -/
structure Page (w : World) (ch : Children) (order : NodeId → List NodeId) (s : Mem) (doc : NodeId) (dn : Node) : Prop where
  tree : WF w ch
  ord : DocOrder ch order
  node : w.nodes doc = some dn
  type : dn.type = .document
  reach : Attr.Reach s
  covers : Covers w s
  readable : Readable w s
  few : (order doc).length < 2 ^ 32 - 1

/-! ## Lemmas -/

theorem control_name (hx : w.nodes x = some xn) (ht : xn.type = .element) : hasControlName w x = isControl w x := by
  unfold hasControlName isControl
  rw [isTag_tagged (name := "input") (by decide +kernel) hx ht, isTag_tagged (name := "textarea") (by decide +kernel) hx ht,
    isTag_tagged (name := "select") (by decide +kernel) hx ht, isTag_tagged (name := "button") (by decide +kernel) hx ht]

theorem control_element (h : isControl w x = true) : ∃ n, w.nodes x = some n ∧ n.type = .element := by
  cases hx : w.nodes x with
  | none => simp [isControl, tagged, hx] at h
  | some n =>
    refine ⟨n, rfl, ?_⟩
    by_contra hne
    simp [isControl, tagged, hx, hne] at h

theorem test_run (hT : Typed w fs) (hx : w.nodes x = some xn) (ht : xn.type = .element) :
    isFormControl fs w form x = .ok (isControl w x && decide (fs x = some (some form))) := by
  unfold isFormControl
  rw [control_name hx ht]
  cases hc : isControl w x with
  | false => rfl
  | true =>
    rw [if_pos rfl]
    cases hf : fs x with
    | none => exact absurd hf (hT x hc)
    | some p => simp [field, hf, Out.bind_ok]

theorem member_control (p : NodeId → Bool) : member w (fun x => isControl w x && p x) = fun x => isControl w x && p x := by
  funext x
  cases hc : isControl w x with
  | false => unfold member; simp [hc]
  | true =>
    obtain ⟨n, h1, h2⟩ := control_element hc
    simp [member, h1, h2, hc]

/-- A document has no siblings. -/
theorem Page.alone (hP : Page w ch order s doc dn) : dn.next = none := by
  refine (hP.tree.linked.orphan doc dn hP.node (Or.inl ?_)).2
  cases hp : dn.parent with
  | none => rfl
  | some p =>
    have hc := hP.tree.linked.up doc dn p hP.node (by rw [hP.type]; decide) hp
    cases hpn : w.nodes p with
    | none => rw [hP.tree.linked.dead p hpn] at hc; cases hc
    | some pn =>
      have := hP.tree.types p pn doc dn hpn hc hP.node
      rw [hP.type] at this
      exact absurd rfl this.child.2.1

theorem docOf_run (hf : w.nodes form = some fn) (ho : fn.owner = some doc) : docOf w form = .ok doc := by
  simp [docOf, rd, hf, ho, Out.bind_ok]

/-! ## The theorems -/

/-- C71: the elements of a form are the INPUT, TEXTAREA, SELECT and BUTTON elements of its document whose form it is, in document order: so are their number,
the item at an index, and the first with a given id or name.  Asking changes nothing.

Missing: that the form of a control is the FORM element around it (see `C71_descendants_partial` and the deviations below). -/
theorem C71_elements_partial (hP : Page w ch order s doc dn) (hT : Typed w fs) (hf : w.nodes form = some fn) (ho : fn.owner = some doc) :
    (∃ s', Kept s s' ∧ count fs w form s = .ok s' (controlsOf w fs order doc form).length) ∧
    (∀ index, index < 2 ^ 32 - 1 → ∃ s', Kept s s' ∧ item fs w form index s = .ok s' (controlsOf w fs order doc form)[index]?) ∧
    (∀ name, ∃ s', Kept s s' ∧ namedItem fs w form name s =
      .ok s' ((controlsOf w fs order doc form).find? fun x => calledBy s (contents name) x)) := by
  have h := C35_by_attributes_partial hP.tree hP.ord hP.node (Or.inr hP.alone) hP.reach hP.covers hP.readable (test fs w form)
    (fun x => isControl w x && decide (fs x = some (some form))) (fun ls x n hx ht => Runs.out (test_run hT hx ht))
  rw [member_control] at h
  have hd := docOf_run hf ho
  have hlen : (controlsOf w fs order doc form).length < 2 ^ 32 := by
    have h1 := List.length_filter_le (fun x => isControl w x && decide (fs x = some (some form))) (order doc)
    have h2 := hP.few
    unfold controlsOf; omega
  refine ⟨?_, fun index hi => ?_, fun name => ?_⟩
  · obtain ⟨s', k, e⟩ := h.1
    refine ⟨s', k, ?_⟩
    unfold count
    rw [Attr.bind_ok (Attr.liftOut_ok hd), e]
    rw [show ((order doc).filter fun x => isControl w x && decide (fs x = some (some form))) = controlsOf w fs order doc form from rfl, Nat.mod_eq_of_lt hlen]
  · obtain ⟨s', k, e⟩ := h.2.1 index hi
    exact ⟨s', k, by unfold item; rw [Attr.bind_ok (Attr.liftOut_ok hd)]; exact e⟩
  · obtain ⟨s', k, e⟩ := h.2.2 name
    refine ⟨s', k, ?_⟩
    unfold namedItem
    rw [Attr.bind_ok (Attr.liftOut_ok hd), e]
    unfold controlsOf
    rw [List.find?_filter]
    simp only [Bool.decide_and, Bool.decide_eq_true]

theorem lists_iff (hP : Page w ch order s doc dn) (hT : Typed w fs) (hf : w.nodes form = some fn) (ho : fn.owner = some doc) :
    Lists fs w s form y ↔ y ∈ order doc ∧ isControl w y = true ∧ fs y = some (some form) := by
  obtain ⟨_, h, _⟩ := C71_elements_partial hP hT hf ho
  have hm : y ∈ controlsOf w fs order doc form ↔ y ∈ order doc ∧ isControl w y = true ∧ fs y = some (some form) := by
    simp [controlsOf, List.mem_filter]
  rw [← hm]
  constructor
  · rintro ⟨index, s', hi, e⟩
    obtain ⟨s1, _, e1⟩ := h index hi
    rw [e1] at e
    injection e with _ e
    exact List.mem_of_getElem? e
  · intro hy
    obtain ⟨i, hlt, hi⟩ := List.mem_iff_getElem.1 hy
    have h1 := List.length_filter_le (fun x => isControl w x && decide (fs x = some (some form))) (order doc)
    have h2 := hP.few
    have hi' : i < 2 ^ 32 - 1 := by unfold controlsOf at hlt; omega
    obtain ⟨s1, _, e1⟩ := h i hi'
    exact ⟨i, s1, hi', by rw [e1, List.getElem?_eq_getElem hlt, hi]⟩

/-- C71: when the parser associates a control of the document with a form, it becomes an element of that form and of no other, and nothing else changes. -/
theorem C71_associate (hP : Page w ch order s doc dn) (hT : Typed w fs) (hx : x ∈ order doc) (hc : isControl w x = true) :
    ∃ fs', associate fs w f x = .ok fs' ∧ Typed w fs' ∧ ∀ g gn, w.nodes g = some gn → gn.owner = some doc → ∀ y,
      (Lists fs' w s g y ↔ (y = x ∧ g = f) ∨ (y ≠ x ∧ Lists fs w s g y)) := by
  obtain ⟨n, h1, h2⟩ := control_element hc
  cases hp : fs x with
  | none => exact absurd hp (hT x hc)
  | some p =>
    have hT' : Typed w (fun y => if y = x then some (some f) else fs y) := by
      intro y hy
      dsimp only
      split_ifs
      · simp
      · exact hT y hy
    refine ⟨fun y => if y = x then some (some f) else fs y, ?_, hT', fun g gn hg ho y => ?_⟩
    · simp [associate, rd, h1, control_name h1 h2, hc, field, hp, Out.bind_ok]
    · rw [lists_iff hP hT' hg ho, lists_iff hP hT hg ho]
      by_cases hy : y = x
      · subst hy
        simp [hx, hc, eq_comm]
      · simp [hy]

/-- C71: associating anything else does nothing. -/
theorem C71_associate_other (hx : w.nodes x = some xn) (ht : xn.type = .element) (hc : isControl w x = false) : associate fs w f x = .ok fs := by
  simp [associate, rd, hx, control_name hx ht, hc, Out.bind_ok]

/-- C71: a control of the document is an element of the form it gives as its form, and of no other.  The caller gets a reference to the form.

Missing: a form that was released (`C71_get_form_violated`). -/
theorem C71_get_form_partial (hP : Page w ch order s doc dn) (hT : Typed w fs) (hx : x ∈ order doc) (hc : isControl w x = true)
    (hlive : ∀ f, fs x = some (some f) → ∃ fn, w.nodes f = some fn ∧ fn.owner = some doc ∧ fn.refcnt + 1 < 2 ^ 32) :
    (∃ f w', getForm fs x w = .ok w' (some f) ∧ Tree.Grants w w' (some f) ∧ ∀ g gn, w.nodes g = some gn → gn.owner = some doc → (Lists fs w s g x ↔ g = f)) ∨
    (getForm fs x w = .ok w none ∧ ∀ g gn, w.nodes g = some gn → gn.owner = some doc → ¬ Lists fs w s g x) := by
  cases hp : fs x with
  | none => exact absurd hp (hT x hc)
  | some p =>
    cases p with
    | none =>
      refine Or.inr ⟨by simp only [getForm, hp]; rfl, fun g gn hg ho hl => ?_⟩
      have := ((lists_iff hP hT hg ho).1 hl).2.2
      rw [hp] at this
      simp at this
    | some f =>
      obtain ⟨fn, h1, h2, h3⟩ := hlive f hp
      refine Or.inl ⟨f, w.mp (fun j n => { n with refcnt := if j = f then u32 (n.refcnt + 1) else n.refcnt }) [], ?_, Tree.grants_ref h1 h3, fun g gn hg ho => ?_⟩
      · simp only [getForm, hp]
        rw [Tree.bind_ok (Tree.ref_run h1)]
        rfl
      · rw [lists_iff hP hT hg ho, hp]
        simp [hx, hc, eq_comm]

theorem order_part (hd : DocOrder ch order) {r : NodeId} (h : Below ch r f) : ∃ a b, order r = a ++ (order f ++ b) := by
  induction h using Relation.ReflTransGen.head_induction_on with
  | refl => exact ⟨[], [], by simp⟩
  | @head r c hc _ ih =>
    obtain ⟨a, b, e⟩ := ih
    obtain ⟨l1, l2, hl⟩ := List.append_of_mem hc
    refine ⟨r :: (l1.flatMap order ++ a), b ++ l2.flatMap order, ?_⟩
    rw [hd r, hl, List.flatMap_append, List.flatMap_cons, e]
    simp

/-- C71: when the parser associated exactly the controls inside a FORM element of the document with it, its elements are the controls inside it, in document
order. -/
theorem C71_descendants_partial (hP : Page w ch order s doc dn) (hT : Typed w fs) (hf : w.nodes form = some fn) (ho : fn.owner = some doc)
    (hin : form ∈ order doc) (hag : ∀ x ∈ order doc, isControl w x = true → (fs x = some (some form) ↔ Below ch form x)) :
    (∃ s', Kept s s' ∧ count fs w form s = .ok s' ((order form).filter (isControl w)).length) ∧
    (∀ index, index < 2 ^ 32 - 1 → ∃ s', Kept s s' ∧ item fs w form index s = .ok s' ((order form).filter (isControl w))[index]?) := by
  have key : controlsOf w fs order doc form = (order form).filter (isControl w) := by
    have hnd : (order doc).Nodup := by
      rw [Trav.docOrder_eq hP.ord (hP.tree.toCore.ht hP.node)]
      exact Tree.preorder_nodup hP.tree.linked hP.tree.wf _ _
    obtain ⟨a, b, e⟩ := order_part hP.ord ((mem_order hP.tree hP.ord).1 hin)
    have step : controlsOf w fs order doc form = (order doc).filter fun x => isControl w x && decide (x ∈ order form) := by
      unfold controlsOf
      refine List.filter_congr fun x hx => ?_
      cases hc : isControl w x with
      | false => rfl
      | true =>
        have := hag x hx hc
        rw [← mem_order hP.tree hP.ord] at this
        simp [this]
    rw [step, e]
    rw [e, List.nodup_append] at hnd
    obtain ⟨_, n2, n3⟩ := hnd
    rw [List.nodup_append] at n2
    obtain ⟨_, _, n4⟩ := n2
    rw [List.filter_append, List.filter_append]
    have ha : a.filter (fun x => isControl w x && decide (x ∈ order form)) = [] := by
      refine List.filter_eq_nil_iff.2 fun x hx hp => ?_
      have : x ∈ order form := by simpa using (Bool.and_eq_true_iff.1 hp).2
      exact n3 x hx x (List.mem_append_left _ this) rfl
    have hb : b.filter (fun x => isControl w x && decide (x ∈ order form)) = [] := by
      refine List.filter_eq_nil_iff.2 fun x hx hp => ?_
      have : x ∈ order form := by simpa using (Bool.and_eq_true_iff.1 hp).2
      exact n4 x this x hx rfl
    rw [ha, hb, List.nil_append, List.append_nil]
    refine List.filter_congr fun x hx => ?_
    simp [hx]
  obtain ⟨h1, h2, _⟩ := C71_elements_partial hP hT hf ho
  rw [key] at h1 h2
  exact ⟨h1, h2⟩

/-! ## Where the code deviates -/

/-- C71 is violated by a control that was created and put inside a form: its pointer is `NULL`, it is not an element of the form and gives no form.  (Nothing
but `form_associate` sets the pointer.) -/
theorem C71_created_violated (hP : Page w ch order s doc dn) (hT : Typed w fs) (hf : w.nodes form = some fn) (ho : fn.owner = some doc)
    (hin : Below ch form x) (hnew : fs x = some none) : ¬ Lists fs w s form x ∧ getForm fs x w = .ok w none := by
  refine ⟨fun h => ?_, by simp only [getForm, hnew]; rfl⟩
  have := ((lists_iff hP hT hf ho).1 h).2.2
  rw [hnew] at this
  simp at this

/-- C71 is violated by a control that was associated with a form and moved out of it: it is still an element of the form. -/
theorem C71_moved_violated (hP : Page w ch order s doc dn) (hT : Typed w fs) (hf : w.nodes form = some fn) (ho : fn.owner = some doc)
    (hx : x ∈ order doc) (hc : isControl w x = true) (hout : ¬ Below ch form x) (hold : fs x = some (some form)) : Lists fs w s form x :=
  (lists_iff hP hT hf ho).2 ⟨hx, hc, hold⟩

/-- C71 is violated by an element with the name of a control whose object is not that of a control, as the SVG element `input`: asking a form for its
elements reads, and associating it writes, after the end of the object. -/
theorem C71_svg_violated (hc : isControl w x = true) (hno : fs x = none) :
    isFormControl fs w form x = .fault .overrun ∧ associate fs w form x = .fault .overrun := by
  obtain ⟨n, h1, h2⟩ := control_element hc
  simp [isFormControl, associate, rd, h1, control_name h1 h2, hc, field, hno, Out.bind_ok, Out.bind_fault]

/-- C71 is violated by a copy of a control: `dom_node_clone_node` copies the pointer, so that a copy put anywhere in the document is an element of the form of
the original. -/
theorem C71_copied_violated (hP : Page w ch order s doc dn) (hT : Typed w fs) (hf : w.nodes form = some fn) (ho : fn.owner = some doc) {y : NodeId}
    (hold : fs x = some (some form)) (hy : y ∈ order doc) (hc : isControl w y = true) (hout : ¬ Below ch form y) : Lists (copied fs x y) w s form y := by
  refine (lists_iff hP (fun z hz => ?_) hf ho).2 ⟨hy, hc, by simp [copied, hold]⟩
  unfold copied
  split
  · rw [hold]; simp
  · exact hT z hz

/-- The steps before the association: a document (0), an element (1) with a form (2) and a control (3) in it. -/
def releaseActs1 : List Tree.Act := [.call .createDocument, .call (.createNode 0 .element (some (Names.lit "HTML")) none),
  .call (.createNode 0 .element (some (Names.lit "FORM")) none), .call (.createNode 0 .element (some (Names.lit "INPUT")) none), .call (.appendChild 0 1),
  .call (.appendChild 1 2), .call (.appendChild 2 3)]

/-- The steps after it: the control is moved out of the form, the form is taken out of the document, and the references to it are given up. -/
def releaseActs2 : List Tree.Act := [.call (.appendChild 1 3), .call (.removeChild 1 2), .unref 2, .unref 2, .unref 2]

/-- C71 is violated by a form that was released: the controls keep its address.  A client makes a document with a form (2) and a control (3) in it; the parser
associates them, both alive; the client moves the control out of the form, takes the form out of the document and releases it.  Each step obeys the rules of
C46.  Asking the control, which the client still owns, for its form uses the released memory. -/
theorem C71_get_form_violated : ∃ led0 w0 led w fs fs', Tree.Client Tree.Careful led0 w0 ∧ 0 < led0 2 ∧ 0 < led0 3 ∧ fs 3 = some none ∧
    associate fs w0 2 3 = .ok fs' ∧ Tree.runActs Tree.carefulB releaseActs2 led0 w0 = some (led, w) ∧ Tree.Client Tree.Careful led w ∧ Tree.Live w 3 ∧
    0 < led 3 ∧ getForm fs' 3 w = .fault .useAfterFree := by
  obtain ⟨led0, w0, h0, hc⟩ := Tree.exists_careful releaseActs1
    (fun led w => decide (0 < led 2) && decide (0 < led 3) && isControl w 3 && (Tree.runActs Tree.carefulB releaseActs2 led w).any fun (p : Tree.Ledger × World) =>
      (p.2.nodes 2).isNone && Tree.liveB p.2 3 && decide (0 < p.1 3)) (by decide +kernel)
  simp only [Bool.and_eq_true, decide_eq_true_eq] at hc
  obtain ⟨⟨⟨h1, h2⟩, h3⟩, h4⟩ := hc
  cases hr : Tree.runActs Tree.carefulB releaseActs2 led0 w0 with
  | none => rw [hr] at h4; simp at h4
  | some p =>
    obtain ⟨led, w⟩ := p
    rw [hr] at h4
    simp only [Option.any_some, Bool.and_eq_true, decide_eq_true_eq, Option.isNone_iff_eq_none] at h4
    obtain ⟨⟨h5, h6⟩, h7⟩ := h4
    obtain ⟨n, e1, e2⟩ := control_element h3
    refine ⟨led0, w0, led, w, fun x => if x = 3 then some none else none, fun x => if x = 3 then some (some 2) else if x = 3 then some none else none, h0, h1, h2,
      rfl, ?_, hr, ?_, Tree.live_of_liveB h6, h7, ?_⟩
    · simp [associate, rd, e1, control_name e1 e2, h3, field, Out.bind_ok]
    · exact Tree.client_runActs (fun _ _ _ hc h => by
        obtain ⟨ch, S, _⟩ := hc.sound
        exact Tree.careful_of_carefulB S.wf.toCore h) releaseActs2 led0 led w0 w h0 hr
    · show (Tree.ref 2 >>= fun _ => pure (some 2)) w = _
      have hr : Tree.ref 2 w = .fault .useAfterFree := by unfold Tree.ref Tree.modNode; rw [h5]
      rw [Tree.bind_fault hr]

/-! ## The objects of created elements -/

/-- The pointers after a call: those of old objects are unchanged; the object of a new element with the name of a control has the member, which is `NULL`
(src/html/html_document.c creates an object of the type that belongs to the name, C68; src/html/html_input_element.c:63, html_text_area_element.c:63,
html_select_element.c:65, html_button_element.c:63). -/
def Grown (w : World) (fs : Fields) (w' : World) (fs' : Fields) : Prop :=
  (∀ x n, w.nodes x = some n → fs' x = fs x) ∧ ∀ x, w.nodes x = none → isControl w' x = true → fs' x = some none

/-- Histories of calls and associations. -/
inductive Made : World → Fields → Prop
  | start : Made World.empty (fun _ => none)
  | call {w w' : World} {fs fs' : Fields} (c : Tree.Call) : Made w fs → c.Ok w → (c.run w).world = some w' → Grown w fs w' fs' → Made w' fs'
  | associate {w : World} {fs fs' : Fields} (form x : NodeId) : Made w fs → Tree.IsType w x .element → associate fs w form x = .ok fs' → Made w fs'

theorem Made.reach (h : Made w fs) : Tree.Reach (fun w c => c.Ok w) w := by
  induction h with
  | start => exact .start
  | call c _ hok hr _ ih => exact .call c ih hok hr
  | associate _ _ _ _ _ ih => exact ih

/-- C71: after every history of calls that create elements and change the tree, and associations, the objects of all elements with the names of controls have
the member `form`; no association of an element fails. -/
theorem C71_typed (h : Made w fs) : Typed w fs ∧ ∀ form x, Tree.IsType w x .element → ∃ fs', associate fs w form x = .ok fs' := by
  have key : Typed w fs := by
    induction h with
    | start => intro x hx; obtain ⟨n, hn, _⟩ := control_element hx; simp [World.empty] at hn
    | @call w w' fs fs' c h hok hr hg ih =>
      obtain ⟨ch, hW⟩ := h.reach.wf fun _ _ h => h
      intro x hx
      obtain ⟨n', hn', ht'⟩ := control_element hx
      cases hw : w.nodes x with
      | none => rw [hg.2 x hw hx]; simp
      | some n =>
        rw [hg.1 x n hw]
        refine ih x ?_
        have same : ∀ m, w.nodes x = some m → n'.data = m.data → isControl w x = true := by
          intro m hm e
          rw [← hx]
          have e1 : n'.type = m.type := by have := congrArg Tree.Node.type e; exact this
          have e2 := Query.data_name e
          simp only [isControl, tagged, hm, hn', Option.any_some, e1, e2]
        rcases Query.call_data hW hok hr hn' with ⟨m, hm, e⟩ | ⟨_, he⟩
        · exact same m hm e
        · obtain ⟨d, v, rfl⟩ := he ht'
          obtain ⟨⟨dn, hd, _⟩, _⟩ := hok
          simp only [Tree.Call.run, Tree.createNode_run hW.toCore hd, Tree.Res.world, Option.some.injEq] at hr
          subst hr
          rcases Tree.add_some hn' with ⟨rfl, _⟩ | ⟨_, hq⟩
          · have := Tree.fresh_dead hW.toCore
            rw [this] at hw; cases hw
          · exact same n' hq rfl
    | @associate w fs fs' form x h hx hr ih =>
      intro y hy
      have h1 := ih y hy
      obtain ⟨n, hn, ht⟩ := hx
      unfold associate at hr
      rw [show rd w x = .ok n by simp [rd, hn], Out.bind_ok, control_name hn ht] at hr
      by_cases hc : isControl w x = true
      · rw [if_pos hc] at hr
        cases hf : fs x with
        | none => exact absurd hf (ih x hc)
        | some p =>
          rw [show field fs x = .ok p by simp [field, hf], Out.bind_ok] at hr
          cases hr
          dsimp only
          split
          · simp
          · exact h1
      · rw [if_neg hc] at hr
        cases hr
        exact h1
  refine ⟨key, fun form x ⟨n, hn, ht⟩ => ?_⟩
  unfold associate
  rw [show rd w x = .ok n by simp [rd, hn], Out.bind_ok, control_name hn ht]
  by_cases hc : isControl w x = true
  · rw [if_pos hc]
    cases hf : fs x with
    | none => exact absurd hf (key x hc)
    | some p => exact ⟨_, by rw [show field fs x = .ok p by simp [field, hf], Out.bind_ok]⟩
  · rw [if_neg hc]
    exact ⟨fs, rfl⟩

/-! ## A concrete page -/

/-- `<html><form><input name="i"><button></button></form><select></select></html>`: document 0, html 1, form 2, input 3, button 4, select 5. -/
def formCalls : List Tree.Call := [.createDocument, .createNode 0 .element (some (Names.lit "HTML")) none, .createNode 0 .element (some (Names.lit "FORM")) none,
  .createNode 0 .element (some (Names.lit "INPUT")) none, .createNode 0 .element (some (Names.lit "BUTTON")) none,
  .createNode 0 .element (some (Names.lit "SELECT")) none, .appendChild 0 1, .appendChild 1 2, .appendChild 2 3, .appendChild 2 4, .appendChild 1 5]

/-- Its attributes. -/
def formOps : List Attr.Op := [.newElem 1 { owner := 0 }, .newElem 2 { owner := 0 }, .newElem 3 { owner := 0 }, .newElem 4 { owner := 0 },
  .newElem 5 { owner := 0 }, .set 3 none (Names.lit "name") (some (Names.lit "i"))]

/-- The input and the select were associated with the form; the button was not. -/
def formFields : Fields := fun x => if x = 3 ∨ x = 5 then some (some 2) else if x = 4 then some none else none

/-- What is checked of the tree. -/
def formTree (w : World) : Bool :=
  decide (w.fresh = 6) && Tree.at_ w 0 (fun n => decide (n.type = .document)) && Tree.at_ w 2 (fun n => decide (n.owner = some 0 ∧ n.refcnt = 2)) &&
  decide (Tree.kidsOf w 0 = [1]) && decide (Tree.kidsOf w 1 = [2, 5]) && decide (Tree.kidsOf w 2 = [3, 4]) && decide (Tree.kidsOf w 3 = []) &&
  decide (Tree.kidsOf w 4 = []) && (List.range 6).all (fun x => decide (isControl w x = decide (3 ≤ x)))

/-- What is checked of the attributes and the answers. -/
def formAttrs (w : World) (s : Mem) : Bool :=
  (List.range 6).all (fun x => (w.nodes x).any (fun n => decide (n.type ≠ .element)) || Collect.legibleB s x) &&
  (count formFields w 2 s).gives 2 && (item formFields w 2 1 s).gives (some 5) && (namedItem formFields w 2 (some (Names.lit "i")) s).gives (some 3)

/-- The hypotheses of the theorems above are met: the elements of the form are the input and the select. -/
example : ∃ w s ch order dn fn, Page w ch order s 0 dn ∧ Typed w formFields ∧ w.nodes 2 = some fn ∧ fn.owner = some 0 ∧ fn.refcnt + 1 < 2 ^ 32 ∧
    2 ∈ order 0 ∧ 3 ∈ order 0 ∧ 5 ∈ order 0 ∧ isControl w 3 = true ∧ isControl w 5 = true ∧ Below ch 2 4 ∧ ¬ Below ch 2 5 ∧
    (∃ s', count formFields w 2 s = .ok s' 2) ∧ (∃ s', item formFields w 2 1 s = .ok s' (some 5)) ∧
    (∃ s', namedItem formFields w 2 (some (Names.lit "i")) s = .ok s' (some 3)) ∧
    (∀ x ∈ order 0, isControl w x = true → ((fun x => if x = 3 ∨ x = 4 then some (some 2) else some none) x = some (some 2) ↔ Below ch 2 x)) := by
  obtain ⟨w, h1, h2⟩ := Tree.exists_ok formCalls (fun w => formTree w && (Attr.runFair formOps Query.idStart).any fun s => formAttrs w s) (by decide +kernel)
  rw [Bool.and_eq_true] at h2
  obtain ⟨hT, h2⟩ := h2
  obtain ⟨s, h3, h4⟩ := Query.exists_ids formOps _ h2
  unfold formTree at hT
  unfold formAttrs at h4
  simp only [Bool.and_eq_true, decide_eq_true_eq, List.all_eq_true, List.mem_range, Bool.or_eq_true] at hT h4
  obtain ⟨⟨⟨⟨⟨⟨⟨⟨hf, a0⟩, a2⟩, k0⟩, k1⟩, k2⟩, k3⟩, k4⟩, hc⟩ := hT
  obtain ⟨⟨⟨hl, g1⟩, g2⟩, g3⟩ := h4
  obtain ⟨ch, hW⟩ := h1.wf fun _ _ h => h
  obtain ⟨dn, e0, t0⟩ := Tree.at_elim a0
  obtain ⟨fn, e2, t2⟩ := Tree.at_elim a2
  simp only [decide_eq_true_eq] at t0 t2
  have hd := Tree.docOrder_preorder hW.toCore
  rw [← Tree.kids_eq hW.toCore] at k0 k1 k2 k3 k4
  have lt : ∀ x n, w.nodes x = some n → x < 6 := fun x n hx => hf ▸ hW.bnd x n hx
  have leg : ∀ x n, w.nodes x = some n → n.type = .element → Collect.legibleB s x = true := by
    intro x n hx ht
    rcases hl x (lt x n hx) with h | h
    · rw [hx] at h; simp [ht] at h
    · exact h
  have mem : ∀ {x}, x ∈ Tree.preorder ch (w.fresh + 1) 0 ↔ Below ch 0 x := mem_order hW hd
  have b1 : Below ch 0 1 := .single (by rw [k0]; simp)
  have b2 : Below ch 0 2 := b1.tail (by rw [k1]; simp)
  have b5 : Below ch 0 5 := b1.tail (by rw [k1]; simp)
  have b23 : Below ch 2 3 := .single (by rw [k2]; simp)
  have b24 : Below ch 2 4 := .single (by rw [k2]; simp)
  have inv : ∀ {x}, Below ch 2 x → x = 2 ∨ x = 3 ∨ x = 4 := by
    intro x hx
    induction hx with
    | refl => exact Or.inl rfl
    | tail _ hb ih =>
      rcases ih with rfl | rfl | rfl
      · rw [k2] at hb; simp at hb; exact Or.inr hb
      · rw [k3] at hb; simp at hb
      · rw [k4] at hb; simp at hb
  have ctl : ∀ x, isControl w x = true → 3 ≤ x ∧ x < 6 := by
    intro x hx
    obtain ⟨n, hn, _⟩ := control_element hx
    have h6 := lt x n hn
    have := hc x h6
    rw [hx] at this
    exact ⟨by simpa using this.symm, h6⟩
  have cases6 : ∀ x : Nat, 3 ≤ x → x < 6 → x = 3 ∨ x = 4 ∨ x = 5 := fun x h1 h2 => by omega
  refine ⟨w, s, ch, _, dn, fn, ⟨hW, hd, e0, t0, h3, fun x n hx ht => (Collect.legible_of (leg x n hx ht)).1, fun x n hx ht => (Collect.legible_of (leg x n hx ht)).2, ?_⟩,
    fun x hx => ?_, e2, t2.1, by rw [t2.2]; decide, mem.2 b2, mem.2 (b2.trans b23), mem.2 b5, ?_, ?_, b24, fun h => ?_, Attr.Res.of_gives g1, Attr.Res.of_gives g2,
    Attr.Res.of_gives g3, fun x _ hx => ?_⟩
  · have := Trav.order_length_le hW.toCore hd e0; omega
  · rcases cases6 x (ctl x hx).1 (ctl x hx).2 with rfl | rfl | rfl <;> simp [formFields]
  · rw [hc 3 (by omega)]; rfl
  · rw [hc 5 (by omega)]; rfl
  · rcases inv h with h | h | h <;> cases h
  · rcases cases6 x (ctl x hx).1 (ctl x hx).2 with rfl | rfl | rfl
    · simp [b23]
    · simp [b24]
    · simp only [show ((5 : NodeId) = 3 ∨ (5 : NodeId) = 4) = False by simp, if_false]
      constructor
      · intro h; simp at h
      · intro h; rcases inv h with h | h | h <;> cases h

end Dom.Html.Forms
