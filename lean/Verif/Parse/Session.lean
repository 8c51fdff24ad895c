import Verif.Parse.Props
import Verif.Tree.PropsEdit
import Verif.Tree.Identity
import Verif.Html.Create
/-!
# The HTML parser binding as a whole: bindings/hubbub/parser.c

Hubbub is not part of libdom; it is a client of the callbacks.  What the binding gives it is modelled here: the callbacks that create nodes, the attributes, and the life
of a parser (`dom_hubbub_parser_create`, `dom_hubbub_fragment_parser_create`, `dom_hubbub_parser_destroy`).  A history is any sequence in which Hubbub passes only nodes
it holds, interleaved with what the client itself does (between two chunks, or from within the script callback), for any number of parsers at a time.

Simplified: strings are values (their references are those of Verif/Html/Create.lean and Verif/Intern), elements are plain elements (their specialised parts are in
Verif/Html), and the public and system identifiers of a DocumentType are not represented.  Left out: `form_associate` (it stores a pointer that is not counted; see Verif/Html/Forms.lean),
`set_quirks_mode` and `change_encoding` (they change fields of the document that no other function of the model reads) and `complete_script` (it is the client
that runs).
-/
set_option linter.unusedSimpArgs false
set_option linter.unusedVariables false
namespace Dom.Hubbub
open Dom.Tree Dom.Parse
open Dom.Str (DStr Bytes)

/-! ## The model -/

/-- An attribute of a token, `hubbub_attribute`: the namespace, `none` for `HUBBUB_NS_NULL`, the name and the value. -/
structure Given where
  ns : Option DStr
  name : Bytes
  value : Bytes

/-- A start tag, `hubbub_tag`. -/
structure Tag where
  ns : Option DStr
  name : Bytes
  attrs : List Given

/-- A callback that creates a node or reports a failure, bindings/hubbub/parser.c:84-101 and the labels `clean1` and `fail`, 274-283 and 311-319. -/
def made (m : M NodeId) : M (Hub × Option NodeId) := reported do
  let r ← m
  pure (some r)

/-- The name of Comment nodes, src/core/document.c:551. -/
def commentName : DStr := Str.create [35, 99, 111, 109, 109, 101, 110, 116]

/-- `create_comment`, bindings/hubbub/parser.c:73-104. -/
def createComment (doc : NodeId) (data : Bytes) : M (Hub × Option NodeId) := made (createNode doc .comment (some commentName) (some (Str.create data)))

/-- `create_text`, bindings/hubbub/parser.c:286-321. -/
def createText (doc : NodeId) (data : Bytes) : M (Hub × Option NodeId) := made (createNode doc .text (some textName) (some (Str.create data)))

/-- `parser_strndup`, bindings/hubbub/parser.c:106-121: the copy ends at the first NUL. -/
def cut (b : Bytes) : Bytes := b.takeWhile (· ≠ 0)

/-- `dom_implementation_create_document_type`, src/core/implementation.c:60-121; the parts of the name are not used. -/
def newDoctype (name : Bytes) : M NodeId := do
  let _ ← liftOut (Names.splitQName (Str.create name))
  createDoctype (some (Str.create name))

/-- `create_doctype`, bindings/hubbub/parser.c:123-191. -/
def makeDoctype (name : Bytes) : M (Hub × Option NodeId) := made (newDoctype (cut name))

/-- `dom_namespaces[DOM_NAMESPACE_SVG]`, src/utils/namespace.c:28. -/
def svg : DStr := Str.create Html.Create.svgName

/-- The name of the element, src/html/html_document.c:569-576. -/
def elemName (ns : Option DStr) (l : DStr) : DStr := if Str.isEqual ns (some svg) then l else Str.createInterned (l.data.map Str.asciiUpper)

/-- `_dom_html_document_create_element_internal`, src/html/html_document.c:553-897. -/
def newElement (doc : NodeId) (ns pfx : Option DStr) (l : DStr) : M NodeId := do
  let n ← liftOut (Str.length (some l))
  throwIf (decide (n = 0)) .invalidCharacter
  initNode { type := .element, name := some (elemName ns l), ns := ns, pfx := pfx, owner := some doc }

/-- The two branches, bindings/hubbub/parser.c:211-227, with `_dom_html_document_create_element` and `_dom_html_document_create_element_ns`,
src/html/html_document.c:899-935. -/
def makeElement (doc : NodeId) (ns : Option DStr) (name : Bytes) : M NodeId :=
  match ns with
  | none => newElement doc none none (Str.createInterned name)
  | some u => do
      let pl ← liftOut (Names.splitQName (Str.createInterned name))
      newElement doc (some u) pl.1 pl.2

/-- `_dom_html_element_should_normalize_attribute_name`, src/html/html_element.c:655-666; the type of an element with a name that is not in html_elements.h is 0. -/
def folds (n : Node) : Bool :=
  match n.name with
  | none => true
  | some l => Html.Create.tags.any (fun t => decide (Html.Create.label t = l.data)) || !Str.isEqual n.ns (some svg)

/-- `_dom_element_set_attribute_ns`, src/core/element.c:865-897. -/
def setAttributeNS (e : NodeId) (ns : DStr) (qname value : DStr) : M Unit := do
  throwIf (!Names.validateName (some qname)) .invalidCharacter
  (match Names.validateQName (some qname) (some ns) with
   | .ok _ => pure ()
   | .exc _ => M.throw .namespace
   | .fault f => M.crash f)
  let pl ← liftOut (Names.splitQName qname)
  setAttr e pl.2 (some ns) (some value)

/-- One attribute, bindings/hubbub/parser.c:602-625; `_dom_html_element_set_attribute` (src/html/html_element.c:203-223) puts the name into lower case. -/
def addOne (e : NodeId) (g : Given) : M Unit :=
  match g.ns with
  | none => do
      let en ← getNode e
      setAttr e (if folds en then Str.createInterned (g.name.map Str.asciiLower) else Str.createInterned g.name) none (some (Str.create g.value))
  | some u => setAttributeNS e u (Str.createInterned g.name) (Str.create g.value)

/-- An exception is reported and the loop goes on, bindings/hubbub/parser.c:608-612 and 620-624. -/
def ignored (m : M Unit) : M Unit := fun w =>
  match m w with
  | .ok w' a => .ok w' a
  | .exc w' _ => .ok w' ()
  | .fault f => .fault f

/-- `add_attributes`, bindings/hubbub/parser.c:575-632; creating the strings fails only when memory runs out. -/
def addAttributes (e : NodeId) : List Given → M Unit
  | [] => pure ()
  | g :: gs => do
      ignored (addOne e g)
      addAttributes e gs

/-- `create_element`, bindings/hubbub/parser.c:193-284.  Simplified: the flags of SCRIPT elements are not represented. -/
def createElement (doc : NodeId) (tag : Tag) : M (Hub × Option NodeId) := made do
  let e ← makeElement doc tag.ns tag.name
  addAttributes e tag.attrs
  pure e

/-- The callbacks. -/
inductive Cb
  | createComment (data : Bytes)
  | createDoctype (name : Bytes)
  | createElement (tag : Tag)
  | createText (data : Bytes)
  | ref (x : NodeId)
  | unref (x : NodeId)
  | appendChild (p c : NodeId)
  | insertBefore (p c : NodeId) (r : Option NodeId)
  | removeChild (p c : NodeId)
  | clone (x : NodeId) (deep : Bool)
  | reparent (x q : NodeId)
  | getParent (x : NodeId) (elementOnly : Bool)
  | hasChildren (x : NodeId)
  | addAttributes (x : NodeId) (gs : List Given)

/-- Running a callback of a parser for the document `doc`: what is returned, and the node on which Hubbub gets a reference.  The last two lines of the table
are bindings/hubbub/parser.c:511-523 and 575-632; `ref_node`, `unref_node`, `insert_before`, `remove_child` and `clone_node` are 323-343 and 371-424. -/
def Cb.run (doc : NodeId) : Cb → M (Hub × Option NodeId)
  | .createComment data => Hubbub.createComment doc data
  | .createDoctype name => makeDoctype name
  | .createElement tag => Hubbub.createElement doc tag
  | .createText data => Hubbub.createText doc data
  | .ref x => do
      Tree.ref x
      pure (.done, some x)
  | .unref x => do
      Tree.unref x
      pure (.done, none)
  | .appendChild p c => Parse.appendChild p c
  | .insertBefore p c r => made (Tree.insertBefore p c r)
  | .removeChild p c => made (Tree.removeChild p c)
  | .clone x deep => made (cloneNode x deep)
  | .reparent x q => do
      let h ← reparentChildren x q
      pure (h, none)
  | .getParent x b => Parse.getParent x b
  | .hasChildren x => do
      let _ ← getNode x
      pure (.done, none)
  | .addAttributes x gs => do
      Hubbub.addAttributes x gs
      pure (.done, none)

/-- `dom_hubbub_parser_create`, bindings/hubbub/parser.c:765-883: the references are those of the binding, of Hubbub and of the client. -/
def createParser : M NodeId := do
  let d ← createDocument
  Tree.ref d
  Tree.ref d
  pure d

/-- `dom_hubbub_fragment_parser_create`, bindings/hubbub/parser.c:894-996: the binding has a reference to the document, Hubbub and the client have one to the fragment. -/
def createFragmentParser (doc : NodeId) : M NodeId := do
  Tree.ref doc
  let f ← createNode doc .fragment none none
  Tree.ref f
  pure f

/-- `dom_hubbub_parser_destroy`, bindings/hubbub/parser.c:1015-1026, after Hubbub gave up its nodes. -/
def destroyParser (doc : NodeId) : M Unit := Tree.unref doc

/-! ## Histories -/

/-- The nodes Hubbub passes. -/
def Cb.args : Cb → List NodeId
  | .createComment _ | .createDoctype _ | .createElement _ | .createText _ => []
  | .ref x | .unref x | .clone x _ | .getParent x _ | .hasChildren x | .addAttributes x _ => [x]
  | .appendChild p c | .removeChild p c => [p, c]
  | .insertBefore p c r => p :: c :: r.toList
  | .reparent x q => [x, q]

/-- The C types of the arguments. -/
def Cb.Typed (w : World) : Cb → Prop
  | .addAttributes x _ => IsType w x .element
  | _ => True

/-- The text of `c` would go into the text `l` at the end of `p`. -/
def Merges (w : World) (p c l : NodeId) : Prop :=
  ∃ pn cn ln, w.nodes p = some pn ∧ w.nodes c = some cn ∧ w.nodes l = some ln ∧ cn.type = .text ∧ pn.last = some l ∧ ln.type = .text

/-- The children of `x` can be moved below `q`. -/
def Clear (w : World) (x q : NodeId) : Prop :=
  x ≠ q ∧ (∃ xn, w.nodes x = some xn ∧ xn.type ≠ .document) ∧ (∃ qn, w.nodes q = some qn ∧ qn.type ≠ .document) ∧
  (w.nodes x).map Node.owner = (w.nodes q).map Node.owner ∧ ¬ ReadOnly w x ∧ ¬ ReadOnly w q ∧
  ∀ c m, w.nodes c = some m → m.parent = some x → m.type ≠ .attribute →
    ¬ AncSelf w q c ∧ (∀ qn, w.nodes q = some qn → MayContain qn.type m.type) ∧ m.refcnt + 2 < 4294967296

/-- The cases where the code is at fault are left out, and no count overflows:
* those of `Act.Fine` for the functions of the DOM that are called;
* appending a text that has a parent to a text (`C64_append_attached_violated`), and texts whose data are NULL;
* moving the children where they must not go (`C64_reparent_fail_violated`, `C64_reparent_self_violated`);
* asking a node without parent for its parent element (`C64_get_parent_violated`). -/
def Cb.Fine (w : World) : Cb → Prop
  | .createComment _ | .createDoctype _ | .createText _ | .createElement _ | .hasChildren _ | .addAttributes _ _ => True
  | .ref x => (Act.ref x).Fine w
  | .unref x => (Act.unref x).Fine w
  | .appendChild p c => (∀ l, Merges w p c l → (∀ cn, w.nodes c = some cn → cn.parent = none ∧ cn.value ≠ none) ∧ ∀ ln, w.nodes l = some ln → ln.value ≠ none) ∧
      ((∀ l, ¬ Merges w p c l) → (Act.call (.appendChild p c)).Fine w)
  | .insertBefore p c r => (Act.call (.insertBefore p c r)).Fine w
  | .removeChild p c => (Act.call (.removeChild p c)).Fine w
  | .clone x deep => (Act.clone x deep).Fine w
  | .reparent x q => Clear w x q
  | .getParent x b => (Act.get .parent x).Fine w ∧ (b = true → ∀ n, w.nodes x = some n → n.type ≠ .attribute ∧ n.parent ≠ none)

/-- What Hubbub holds after the callback. -/
def Cb.book (led : Ledger) : Cb → Option NodeId → Ledger
  | .unref x, _ => fun j => if j = x then led j - 1 else led j
  | _, r => fun j => led j + if r = some j then 1 else 0

/-- A parser: the document of the binding, and what Hubbub holds. -/
structure Parser where
  doc : NodeId
  hub : Ledger

/-- The references of a parser: those of Hubbub, and that of the binding to the document. -/
def Parser.refs (p : Parser) (j : NodeId) : Nat := p.hub j + if p.doc = j then 1 else 0

/-- The memory, what the client holds, and the parsers. -/
structure St where
  w : World
  client : Ledger
  parsers : List Parser

/-- All references. -/
def St.total (s : St) (j : NodeId) : Nat := s.client j + (s.parsers.map fun p => p.refs j).sum

def one (x : NodeId) : Ledger := fun j => if x = j then 1 else 0
def plus (a b : Ledger) : Ledger := fun j => a j + b j

/-- Hubbub passes only nodes it holds, and avoids the cases where the code is at fault. -/
def Allowed (p : Parser) (w : World) (cb : Cb) : Prop := (∀ x ∈ cb.args, 0 < p.hub x) ∧ cb.Typed w ∧ cb.Fine w

/-- The histories. -/
inductive Story : St → Prop
  | start : Story ⟨World.empty, fun _ => 0, []⟩
  | op {s : St} {w' : World} {r : Option NodeId} (a : Op) : Story s → Heedful s.client s.w a → a.run s.w = .ok w' r → Story ⟨w', a.book s.client r, s.parsers⟩
  | refused {s : St} {w' : World} {e : Exc} (a : Op) : Story s → Heedful s.client s.w a → a.run s.w = .exc w' e → Story ⟨w', s.client, s.parsers⟩
  | create {s : St} {w' : World} {d : NodeId} : Story s → createParser s.w = .ok w' d → Story ⟨w', plus s.client (one d), ⟨d, one d⟩ :: s.parsers⟩
  | createFragment {s : St} {w' : World} {f : NodeId} (d : NodeId) : Story s → 0 < s.client d → IsType s.w d .document → Room s.w d →
      createFragmentParser d s.w = .ok w' f → Story ⟨w', plus s.client (one f), ⟨d, one f⟩ :: s.parsers⟩
  | callback {w w' : World} {client : Ledger} {l r : List Parser} {p : Parser} {h : Hub} {x : Option NodeId} (cb : Cb) : Story ⟨w, client, l ++ p :: r⟩ →
      Allowed p w cb → cb.run p.doc w = .ok w' (h, x) → Story ⟨w', client, l ++ ⟨p.doc, cb.book p.hub x⟩ :: r⟩
  | destroy {w w' : World} {client : Ledger} {l r : List Parser} {p : Parser} : Story ⟨w, client, l ++ p :: r⟩ → (∀ j, p.hub j = 0) → (Act.unref p.doc).Fine w →
      destroyParser p.doc w = .ok w' () → Story ⟨w', client, l ++ r⟩

variable {w w' : World} {ch ch' : Children} {x q c p e d j : NodeId} {n xn qn cn en dn : Node}

/-! ## Every callback keeps the invariant -/

/-- The callback returned; the memory is sound; Hubbub has one more reference to the node that was returned. -/
def Steps (w : World) (r : Res (Hub × Option NodeId)) : Prop :=
  ∃ w' ch' h x, r = .ok w' (h, x) ∧ Sound w' ch' ∧ ∀ j, count w' j = count w j + if x = some j then 1 else 0

theorem held_live (h : 0 < count w x) : ∃ n, w.nodes x = some n ∧ 0 < n.refcnt := by
  unfold count at h
  cases hx : w.nodes x with
  | none => rw [hx] at h; exact absurd h (Nat.lt_irrefl _)
  | some n => rw [hx] at h; exact ⟨n, rfl, h⟩

theorem steps_op (S : Sound w ch) {a : Op} (h : Heedful (count w) w a) (hb : ∀ r, a.book (count w) r = fun j => count w j + if r = some j then 1 else 0) :
    Steps w (reported a.run w) := by
  obtain ⟨w', ch', S', ⟨r, h1, h2⟩ | ⟨e, h1, h2⟩⟩ := S.op (fun _ => rfl) h
  · exact ⟨w', ch', .done, r, by unfold reported; rw [h1], S', fun j => by rw [h2, hb]⟩
  · exact ⟨w', ch', .failed, none, by unfold reported; rw [h1], S', fun j => by rw [h2]; simp⟩

/-! ### Names -/

/-- It returned, or refused. -/
def Calm {α : Type} (x : Out α) : Prop := ∀ f, x ≠ .fault f

theorem calm_ok {α : Type} (a : α) : Calm (.ok a : Out α) := fun _ h => nomatch h
theorem calm_exc {α : Type} (e : Exc) : Calm (.exc e : Out α) := fun _ h => nomatch h
theorem calm_bind {α β : Type} {x : Out α} {f : α → Out β} (h : Calm x) (hf : ∀ a, Calm (f a)) : Calm (x >>= f) := by
  cases x with
  | ok a => exact hf a
  | exc e => exact calm_exc e
  | fault g => exact absurd rfl (h g)

theorem calm_substr (q : Option DStr) (i k : Nat) : Calm (Str.substr q i k) := by
  unfold Str.substr
  dsimp only
  split
  · exact calm_exc _
  · split
    · exact calm_exc _
    · exact calm_ok _

theorem calm_split (q : DStr) : Calm (Names.splitQName q) := by
  unfold Names.splitQName
  refine calm_bind (calm_ok _) fun colon => ?_
  split
  · exact calm_ok _
  · refine calm_bind (calm_substr _ _ _) fun _ => calm_bind (calm_ok _) fun _ => calm_bind (calm_substr _ _ _) fun _ => calm_ok _

theorem calm_validate (q : DStr) (ns : Option DStr) : Calm (Names.validateQName (some q) ns) := by
  unfold Names.validateQName
  dsimp only
  split
  · exact calm_exc _
  · refine calm_bind (calm_ok _) fun len => calm_bind (calm_ok _) fun colon => ?_
    split
    · cases ns with
      | none => exact calm_ok _
      | some n => dsimp only; split_ifs <;> first | exact calm_ok _ | exact calm_exc _
    · split
      · split <;> first | exact calm_ok _ | exact calm_exc _
      · cases ns with
        | none => exact calm_exc _
        | some n =>
          dsimp only
          refine calm_bind (calm_substr _ _ _) fun _ => calm_bind (calm_substr _ _ _) fun _ => ?_
          split_ifs <;> first | exact calm_ok _ | exact calm_exc _

/-! ### Creating nodes -/

/-- The record of a new element. -/
def elemNode (doc : NodeId) (ns pfx : Option DStr) (l : DStr) : Node :=
  { type := .element, name := some (elemName ns l), ns := ns, pfx := pfx, owner := some doc, pendingIn := some doc }

theorem elem_sound (S : Sound w ch) (hd : w.nodes d = some dn) (hdt : dn.type = .document) (ns pfx : Option DStr) (l : DStr) : Sound (w.add (elemNode d ns pfx l)) ch :=
  S.add (WF_add S.wf rfl (.inr (.inl ⟨by simp [elemNode], d, dn, rfl, hd, hdt⟩)) (by simp [elemNode])) rfl rfl rfl rfl (fun h => nomatch h)

theorem newElement_run (S : Sound w ch) (hd : w.nodes d = some dn) (ns pfx : Option DStr) (l : DStr) :
    newElement d ns pfx l w = if Str.length (some l) = .ok 0 then .exc w .invalidCharacter else .ok (w.add (elemNode d ns pfx l)) w.fresh := by
  unfold newElement
  obtain ⟨k, hk⟩ : ∃ k, Str.length (some l) = .ok k := ⟨_, rfl⟩
  rw [liftOut_ok hk, hk]
  by_cases h0 : k = 0
  · subst h0
    rw [if_pos rfl]
    simp only [decide_true]
    rw [throwIf_true]
  · rw [if_neg (fun h => h0 (by injection h))]
    simp only [h0, decide_false]
    rw [throwIf_false]
    exact initNode_run S.wf.toCore rfl hd rfl

/-- The split name. -/
def parts (ns : Option DStr) (name : Bytes) : Out (Option DStr × DStr) :=
  match ns with
  | none => .ok (none, Str.createInterned name)
  | some _ => Names.splitQName (Str.createInterned name)

theorem makeElement_parts (ns : Option DStr) (name : Bytes) : makeElement d ns name w = (liftOut (parts ns name) >>= fun pl => newElement d ns pl.1 pl.2) w := by
  cases ns <;> rfl

theorem makeElement_run (S : Sound w ch) (hd : w.nodes d = some dn) (ns : Option DStr) (name : Bytes) :
    (∃ e, makeElement d ns name w = .exc w e) ∨
    ∃ pfx l, parts ns name = .ok (pfx, l) ∧ Str.length (some l) ≠ .ok 0 ∧ makeElement d ns name w = .ok (w.add (elemNode d ns pfx l)) w.fresh := by
  rw [makeElement_parts]
  have hc : Calm (parts ns name) := by cases ns; exacts [calm_ok _, calm_split _]
  cases hp : parts ns name with
  | fault f => exact absurd hp (hc f)
  | exc e => exact .inl ⟨e, by rw [liftOut_exc rfl]⟩
  | ok pl =>
    rw [liftOut_ok rfl, newElement_run S hd]
    by_cases h0 : Str.length (some pl.2) = .ok 0
    · exact .inl ⟨_, by rw [if_pos h0]⟩
    · exact .inr ⟨pl.1, pl.2, rfl, h0, by rw [if_neg h0]⟩

/-! ### Attributes -/

/-- The function returned, or refused; the counts are as before, and only the attributes of `e` are others. -/
def Keeps (w : World) (e : NodeId) (en : Node) (r : Res Unit) : Prop :=
  ∃ w' ch' as, Sound w' ch' ∧ (∀ j, count w' j = count w j) ∧ (r = .ok w' () ∨ ∃ x, r = .exc w' x) ∧ w'.nodes e = some { en with attrs := as }

theorem keeps_refused (S : Sound w ch) (he : w.nodes e = some en) {r : Res Unit} {y : Exc} (hr : r = .exc w y) : Keeps w e en r :=
  ⟨w, ch, en.attrs, S, fun _ => rfl, .inr ⟨y, hr⟩, he⟩

theorem keeps_setAttr (S : Sound w ch) (he : w.nodes e = some en) (ht : en.type = .element) (name : DStr) (ns v : Option DStr) : Keeps w e en (setAttr e name ns v w) := by
  cases hv : Names.validateAttributeName (some name) with
  | false =>
    refine keeps_refused S he (y := .invalidCharacter) ?_
    unfold setAttr
    rw [hv]
    simp only [Bool.not_false]
    rw [throwIf_true]
  | true =>
    by_cases hro : ReadOnly w e
    · refine keeps_refused S he (y := .noModificationAllowed) ?_
      unfold setAttr
      rw [hv]
      simp only [Bool.not_true]
      rw [throwIf_false, yes_ro S.wf.toCore he hro]
    · rw [setAttr_start S.wf.toCore he hv hro]
      cases hf : en.attrs.find? (sameAttr name ns) with
      | some y =>
        obtain ⟨an, ha, hat, hp⟩ := entry_node S he ht (List.mem_of_find?_eq_some hf)
        cases hr : an.attrRO with
        | true => exact keeps_refused S he (C79_value_readonly ha hat hr v)
        | false =>
          obtain ⟨w', ch', h1, V⟩ := C79_value S ha hat hr hp v
          refine ⟨w', ch', en.attrs, V.sound, V.counts, .inl h1, V.others e en he ?_ ?_⟩
          · intro h
            rw [← h, he] at ha; cases ha
            rw [ht] at hat; cases hat
          · intro h
            obtain ⟨m, hm, _, hmp⟩ := S.wf.linked.alive_child h
            exact transGen_irrefl S.wf.wf e (.head ⟨m, hm, hmp⟩ (.single ⟨an, ha, hp⟩))
      | none =>
        obtain ⟨w', ch', h1, V⟩ := addAttr_run S he ht name ns v
        obtain ⟨a, t, an, tn, _, _, _, _, _, _, _, _, _, _, _, _, _, h2, _⟩ := V.new
        exact ⟨w', ch', _, V.sound, V.counts, .inl h1, h2 en he⟩

theorem keeps_addOne (S : Sound w ch) (he : w.nodes e = some en) (ht : en.type = .element) (g : Given) : Keeps w e en (addOne e g w) := by
  unfold addOne
  cases g.ns with
  | none =>
    show Keeps w e en ((getNode e >>= _) w)
    rw [get_bind he]
    exact keeps_setAttr S he ht _ _ _
  | some u =>
    show Keeps w e en (setAttributeNS e u _ _ w)
    unfold setAttributeNS
    cases hv : Names.validateName (some (Str.createInterned g.name)) with
    | false =>
      simp only [Bool.not_false]
      rw [throwIf_true]
      exact keeps_refused S he rfl
    | true =>
      simp only [Bool.not_true]
      rw [throwIf_false]
      cases hq : Names.validateQName (some (Str.createInterned g.name)) (some u) with
      | fault f => exact absurd hq (calm_validate _ _ f)
      | exc x => exact keeps_refused S he (y := .namespace) rfl
      | ok a =>
        show Keeps w e en ((liftOut _ >>= _) w)
        cases hs : Names.splitQName (Str.createInterned g.name) with
        | fault f => exact absurd hs (calm_split _ f)
        | exc x => exact keeps_refused S he (liftOut_exc rfl _ _)
        | ok pl =>
          rw [liftOut_ok rfl]
          exact keeps_setAttr S he ht _ _ _

theorem addAttributes_run : ∀ (gs : List Given) {w : World} {ch : Children} {en : Node}, Sound w ch → w.nodes e = some en → en.type = .element →
    ∃ w' ch' as, Sound w' ch' ∧ (∀ j, count w' j = count w j) ∧ addAttributes e gs w = .ok w' () ∧ w'.nodes e = some { en with attrs := as }
  | [], w, ch, en, S, he, ht => ⟨w, ch, en.attrs, S, fun _ => rfl, rfl, he⟩
  | g :: gs, w, ch, en, S, he, ht => by
    obtain ⟨w1, ch1, as1, S1, c1, h1, e1⟩ := keeps_addOne S he ht g
    obtain ⟨w2, ch2, as2, S2, c2, h2, e2⟩ := addAttributes_run gs S1 e1 ht
    refine ⟨w2, ch2, as2, S2, fun j => by rw [c2, c1], ?_, e2⟩
    have hi : ignored (addOne e g) w = .ok w1 () := by
      unfold ignored
      rcases h1 with h1 | ⟨y, h1⟩ <;> rw [h1]
    unfold addAttributes
    rw [bind_ok hi, h2]

/-! ### The callbacks -/

theorem made_ok {m : M NodeId} (h : m w = .ok w' x) : made m w = .ok w' (.done, some x) := by
  unfold made reported
  rw [bind_ok h]; rfl

theorem made_exc {m : M NodeId} {y : Exc} (h : m w = .exc w' y) : made m w = .ok w' (.failed, none) := by
  unfold made reported
  rw [bind_exc h]

theorem steps_same (S : Sound w ch) {r : Res (Hub × Option NodeId)} {h : Hub} (hr : r = .ok w (h, none)) : Steps w r :=
  ⟨w, ch, h, none, hr, S, fun j => by simp⟩

theorem steps_element (S : Sound w ch) (hd : w.nodes d = some dn) (hdt : dn.type = .document) (tag : Tag) : Steps w (createElement d tag w) := by
  unfold createElement
  rcases makeElement_run S hd tag.ns tag.name with ⟨y, h⟩ | ⟨pfx, l, _, _, h⟩
  · exact steps_same S (made_exc (bind_exc h _))
  · obtain ⟨w', ch', as, S', hc, h', he⟩ := addAttributes_run (e := w.fresh) tag.attrs (elem_sound S hd hdt tag.ns pfx l) (add_new _) rfl
    refine ⟨w', ch', .done, some w.fresh, made_ok ?_, S', fun j => ?_⟩
    · rw [bind_ok h, bind_ok h']; rfl
    · rw [hc j, grants_add S.wf.toCore rfl j]

theorem steps_doctype (S : Sound w ch) (name : Bytes) : Steps w (makeDoctype name w) := by
  unfold makeDoctype
  cases hs : Names.splitQName (Str.create (cut name)) with
  | fault f => exact absurd hs (calm_split _ f)
  | exc y => exact steps_same S (made_exc (y := y) (by unfold newDoctype; rw [hs]; rfl))
  | ok pl =>
    refine ⟨_, ch, .done, some w.fresh, made_ok ?_, S.add (WF_createDoctype S.wf (some (Str.create (cut name)))) rfl rfl rfl rfl (fun h => nomatch h), grants_add S.wf.toCore rfl⟩
    unfold newDoctype
    rw [hs, liftOut_ok rfl, createDoctype_run]

theorem steps_append (S : Sound w ch) (hp : w.nodes p = some n) (hc : w.nodes c = some cn) (ha : 0 < count w p ∧ 0 < count w c)
    (hf : (Cb.appendChild p c).Fine w) : Steps w (Parse.appendChild p c w) := by
  by_cases hm : ∃ l, Merges w p c l
  · obtain ⟨l, hl⟩ := hm
    obtain ⟨h1, h2⟩ := hf.1 l hl
    obtain ⟨pn, cn', ln, e1, e2, hln, hct, hlast, hlt⟩ := hl
    rw [hp] at e1; cases e1
    rw [hc] at e2; cases e2
    obtain ⟨hcp, hcv⟩ := h1 cn hc
    obtain ⟨v, hv⟩ : ∃ v, cn.value = some v := by
      cases h : cn.value with
      | none => exact absurd h hcv
      | some v => exact ⟨v, rfl⟩
    have ho : ln.owner ≠ none := data_owner S hln (by rw [hlt]; simp)
    have hmt : mergeText l c w = appendData l (some v) w := by
      unfold mergeText
      rw [get_bind hln, hlt]
      show (getNode c >>= _) w = _
      rw [get_bind hc, hct]
      show (wholeText c >>= _) w = _
      rw [bind_ok (C12_orphan S.wf hc hcp), hv]
    have ht : mergeTarget n cn w = .ok w (some l) := by
      unfold mergeTarget
      rw [if_pos hct, hlast]
      dsimp only
      rw [get_bind hln, if_pos hlt]
      rfl
    have hrun : Parse.appendChild p c w = reported (mergeText l c >>= fun _ => pure none) w := by
      unfold Parse.appendChild
      rw [get_bind hc, get_bind hp, bind_ok ht]
      rfl
    rw [hrun]
    obtain ⟨w', ch', S', hcount, h | ⟨y, h⟩⟩ := quiet_append S hln ho (v := v) (h2 ln hln)
    · refine ⟨w', ch', .done, none, ?_, S', fun j => by rw [hcount]; simp⟩
      unfold reported
      rw [bind_ok (hmt.trans h)]; rfl
    · refine ⟨w', ch', .failed, none, ?_, S', fun j => by rw [hcount]; simp⟩
      unfold reported
      rw [bind_exc (hmt.trans h)]
  · have hm' : ∀ l, ¬ Merges w p c l := fun l h => hm ⟨l, h⟩
    rw [appendChild_plain hp hc (by rintro ⟨h1, l, ln, h2, h3, h4⟩; exact hm' l ⟨n, cn, ln, hp, hc, h3, h1, h2, h4⟩) S.wf]
    refine steps_op S (a := .act (.call (.appendChild p c))) ⟨?_, trivial, hf.2 hm'⟩ (fun _ => rfl)
    intro y hy
    have : y = p ∨ y = c := by simpa [Op.args, Act.args] using hy
    rcases this with rfl | rfl
    exacts [ha.1, ha.2]

theorem steps_reparent (S : Sound w ch) (hf : Clear w x q) : Steps w ((Cb.reparent x q).run d w) := by
  obtain ⟨hne, hx, hq, hown, hrx, hrq, hk⟩ := hf
  have hkid : ∀ c ∈ ch x, ∃ m, w.nodes c = some m ∧ m.parent = some x ∧ m.type ≠ .attribute := by
    intro c hc
    obtain ⟨m, hm, h1, h2⟩ := S.wf.linked.alive_child hc
    exact ⟨m, hm, h2, h1⟩
  have hm : Movable w x q (ch x) := by
    refine ⟨hx, hq, hown, ⟨hrx, hrq⟩, ?_, ?_⟩
    · intro c hc
      obtain ⟨m, h1, h2, h3⟩ := hkid c hc
      exact (hk c m h1 h2 h3).1
    · intro c hc cn qn hcn hqn
      obtain ⟨m, h1, h2, h3⟩ := hkid c hc
      rw [hcn] at h1; cases h1
      exact (hk c cn hcn h2 h3).2.1 qn hqn
  obtain ⟨w', ch', h1, A⟩ := reparentLoop_run hne (ch x) w ch (w.fresh + 1) S.wf hm rfl (by
    intro c hc m hcm
    obtain ⟨m', h1, h2, h3⟩ := hkid c hc
    rw [hcm] at h1; cases h1
    exact (hk c m hcm h2 h3).2.2) (Nat.le_succ_of_le (child_length_le S.wf.toCore x))
  have hrun : (Cb.reparent x q).run d w = .ok w' (.done, none) := by
    show (reparentChildren x q >>= _) w = _
    have : reparentChildren x q w = .ok w' .done := by
      unfold reparentChildren
      rw [bound_bind]; exact h1
    rw [bind_ok this]; rfl
  have back : ∀ {j n'}, w'.nodes j = some n' → ∃ n, w.nodes j = some n ∧ n'.data = n.data ∧ n'.owner = n.owner ∧ n'.refcnt = n.refcnt ∧
      n'.parent = if j ∈ ch x then some q else n.parent := by
    intro j n' hj
    have e1 := A.data j
    have e2 := A.owner j
    have e3 := A.refs j
    have e4 := A.parents j
    rw [hj] at e1 e2 e3 e4
    cases h : w.nodes j with
    | none => rw [h] at e1; cases e1
    | some n =>
      rw [h] at e1 e2 e3 e4
      exact ⟨n, rfl, by simpa using e1, by simpa using e2, by simpa using e3, by simpa using e4⟩
  refine ⟨w', ch', .done, none, hrun, ?_, ?_⟩
  · refine S.step' A.wf ?_ ?_ ?_ ?_ ?_ ?_ ?_
    · refine S.attrs.congr ?_ ?_
      · intro j
        have e1 := A.data j
        cases h : w.nodes j <;> cases h' : w'.nodes j <;> rw [h, h'] at e1 <;> first | rfl | cases e1 | skip
        rename_i m m'
        have e : m'.data = m.data := by simpa using e1
        have t1 := congrArg Node.type e
        have t2 := congrArg Node.attrs e
        have t1 : m'.type = m.type := t1
        have t2 : m'.attrs = m.attrs := t2
        simp [t1, t2]
      · intro j m hj hmt
        obtain ⟨m', hm', hp'⟩ := live_of (A.parents j) hj
        refine ⟨m', hm', ?_⟩
        rw [hp', if_neg]
        intro hc
        obtain ⟨m2, h1, _, h3⟩ := hkid j hc
        rw [hj] at h1; cases h1
        exact h3 hmt
    · intro j
      have e1 := A.data j
      cases h : w.nodes j <;> cases h' : w'.nodes j <;> rw [h, h'] at e1 <;> first | rfl | cases e1 | skip
      rename_i m m'
      have e : m'.data = m.data := by simpa using e1
      have t1 := congrArg Node.type e
      have t2 := congrArg Node.host e
      have t1 : m'.type = m.type := t1
      have t2 : m'.host = m.host := t2
      simp [t1, t2]
    · intro j m m' hj hj'
      obtain ⟨n0, h0, _, h2, _⟩ := back hj'
      rw [hj] at h0; cases h0
      exact .inr h2
    · intro j m' hj' hp' ht'
      obtain ⟨n0, h0, e1, _, e3, e4⟩ := back hj'
      rw [hp'] at e4
      split at e4
      · cases e4
      · rw [e3]
        exact S.held j n0 h0 e4.symm (by rw [← Node.data_type e1]; exact ht')
    · intro j m m' hj hj' hmt hr'
      obtain ⟨n0, h0, e1, _, e3, e4⟩ := back hj'
      rw [hj] at h0; cases h0
      rw [e3] at hr'
      refine ⟨hr', ?_⟩
      have hfirst := (S.docs j m hj hmt hr').1
      obtain ⟨xn, hxn, hxt⟩ := hx
      obtain ⟨qn, hqn, hqt⟩ := hq
      have hjx : j ≠ x := by rintro rfl; rw [hj] at hxn; cases hxn; exact hxt hmt
      have hjq : j ≠ q := by rintro rfl; rw [hj] at hqn; cases hqn; exact hqt hmt
      obtain ⟨k1, hk1, f1, _⟩ := (S.wf.linked.loc j m hj).ends
      rw [hj] at hk1; cases hk1
      obtain ⟨k2, hk2, f2, _⟩ := (A.wf.linked.loc j m' hj').ends
      rw [hj'] at hk2; cases hk2
      rw [f2, A.others j hjx hjq, ← f1, hfirst]
    · intro j m m' hj hj' hmt hpn
      obtain ⟨m2, h2, h3⟩ := A.pend j m hj hmt
      rw [hj'] at h2; cases h2
      rw [h3] at hpn
      exact .inl hpn
    · intro c m' p hc hp'
      obtain ⟨n0, h0, e1, _, e3, e4⟩ := back hc
      rw [hp'] at e4
      split at e4
      · cases e4
        obtain ⟨qn, hqn, _⟩ := hq
        exact .inr ⟨qn, hqn, not_entity hqn hrq⟩
      · exact .inl ⟨n0, h0, e4.symm⟩
  · intro j
    have e3 := A.refs j
    unfold count
    cases h : w.nodes j <;> cases h' : w'.nodes j <;> rw [h, h'] at e3 <;> simp_all

theorem steps_getParent (S : Sound w ch) (hx : w.nodes x = some n) {b : Bool} (hf : (Cb.getParent x b).Fine w) : Steps w (Parse.getParent x b w) := by
  cases b with
  | false =>
    obtain ⟨w', h1, S', h2⟩ := S.visit .parent hx (hf.1 n hx)
    refine ⟨w', ch, .done, _, ?_, S', h2⟩
    unfold Parse.getParent
    rw [bind_ok h1]; rfl
  | true =>
    obtain ⟨hna, hpn⟩ := hf.2 rfl n hx
    obtain ⟨p, hp⟩ : ∃ p, n.parent = some p := by
      cases h : n.parent with
      | none => exact absurd h hpn
      | some p => exact ⟨p, rfl⟩
    have htarget : Dir.target .parent n = some p := by
      show (if n.type = .attribute then none else n.parent) = _
      rw [if_neg hna, hp]
    obtain ⟨pn, hpl⟩ : ∃ pn, w.nodes p = some pn := by
      have := S.wf.linked.up x n p hx hna hp
      cases h : w.nodes p with
      | none => rw [S.wf.linked.dead p h] at this; cases this
      | some pn => exact ⟨pn, rfl⟩
    have hov := hf.1 n hx p htarget pn hpl
    have h := C64_get_parent_partial S hx hna hp hpl hov true
    by_cases ht : pn.type = .element
    · rw [if_neg (by simp [ht])] at h
      refine ⟨_, ch, .done, some p, h, ?_, ?_⟩
      · have := S.ref hpl hov
        rw [ref_upd hpl, u32_small hov] at this
        exact this
      · have := grants_ref hpl hov
        rw [ref_upd hpl, u32_small hov] at this
        exact this
    · rw [if_pos ⟨rfl, ht⟩] at h
      exact steps_same S h

/-- Every allowed callback returns, keeps the invariant, and the counts change as what Hubbub holds does. -/
theorem Sound.callback (S : Sound w ch) (hd : IsType w d .document) (hdc : 0 < count w d) {cb : Cb} (ha : ∀ x ∈ cb.args, 0 < count w x) (ht : cb.Typed w) (hf : cb.Fine w) :
    ∃ w' ch' h x, cb.run d w = .ok w' (h, x) ∧ Sound w' ch' ∧ ∀ j, count w' j = cb.book (count w) x j := by
  obtain ⟨dn, hdn, hdt⟩ := hd
  cases cb with
  | createComment data =>
    exact steps_op S (a := .act (.call (.createNode d .comment (some commentName) (some (Str.create data))))) ⟨by simpa [Op.args, Act.args] using hdc,
      ⟨⟨dn, hdn, hdt⟩, by simp⟩, ⟨⟨dn, hdn, hdt⟩, by simp⟩, trivial⟩ (fun _ => rfl)
  | createText data =>
    exact steps_op S (a := .act (.call (.createNode d .text (some textName) (some (Str.create data))))) ⟨by simpa [Op.args, Act.args] using hdc,
      ⟨⟨dn, hdn, hdt⟩, by simp⟩, ⟨⟨dn, hdn, hdt⟩, by simp⟩, trivial⟩ (fun _ => rfl)
  | createDoctype name => exact steps_doctype S name
  | createElement tag => exact steps_element S hdn hdt tag
  | ref x =>
    obtain ⟨n, hx, _⟩ := held_live (ha x (by simp [Cb.args]))
    refine ⟨_, ch, .done, some x, ?_, S.ref hx (hf n hx), grants_ref hx (hf n hx)⟩
    show (Tree.ref x >>= _) w = _
    rw [bind_ok (ref_run hx)]; rfl
  | unref x =>
    obtain ⟨n, hx, hr⟩ := held_live (ha x (by simp [Cb.args]))
    obtain ⟨w', ch', h1, S'⟩ := S.unref hx hr (hf n hx)
    refine ⟨w', ch', .done, none, ?_, S', S.unref_count hx hr h1⟩
    show (Tree.unref x >>= _) w = _
    rw [bind_ok h1]; rfl
  | appendChild p c =>
    have hp := ha p (by simp [Cb.args])
    have hc := ha c (by simp [Cb.args])
    obtain ⟨n, h1, _⟩ := held_live hp
    obtain ⟨cn, h2, _⟩ := held_live hc
    exact steps_append S h1 h2 ⟨hp, hc⟩ hf
  | insertBefore p c r => exact steps_op S (a := .act (.call (.insertBefore p c r))) ⟨ha, trivial, hf⟩ (fun _ => rfl)
  | removeChild p c => exact steps_op S (a := .act (.call (.removeChild p c))) ⟨ha, trivial, hf⟩ (fun _ => rfl)
  | clone x deep => exact steps_op S (a := .act (.clone x deep)) ⟨ha, trivial, hf⟩ (fun _ => rfl)
  | reparent x q => exact steps_reparent S hf
  | getParent x b =>
    obtain ⟨n, hx, _⟩ := held_live (ha x (by simp [Cb.args]))
    exact steps_getParent S hx hf
  | hasChildren x =>
    obtain ⟨n, hx, _⟩ := held_live (ha x (by simp [Cb.args]))
    refine steps_same S (h := .done) ?_
    show (getNode x >>= _) w = _
    rw [get_bind hx]; rfl
  | addAttributes x gs =>
    obtain ⟨n, hx, hxt⟩ := ht
    obtain ⟨w', ch', as, S', hc, h1, _⟩ := addAttributes_run gs S hx hxt
    refine ⟨w', ch', .done, none, ?_, S', fun j => by rw [hc j]; simp [Cb.book]⟩
    show (Hubbub.addAttributes x gs >>= _) w = _
    rw [bind_ok h1]; rfl

/-! ### The life of a parser -/

theorem createParser_run (S : Sound w ch) : ∃ w' ch' d, createParser w = .ok w' d ∧ Sound w' ch' ∧ w.nodes d = none ∧ IsType w' d .document ∧
    ∀ j, count w' j = count w j + if d = j then 3 else 0 := by
  have S1 := S.add (WF_createDocument S.wf) rfl rfl rfl rfl (fun h => nomatch h)
  have g1 := grants_add S.wf.toCore (n := { type := .document, owner := some w.fresh }) rfl
  have n1 : (w.add { type := .document, owner := some w.fresh }).nodes w.fresh = some { type := .document, owner := some w.fresh } := add_new _
  have S2 := S1.ref n1 (show 1 + 1 < 4294967296 by decide)
  have g2 := grants_ref n1 (show 1 + 1 < 4294967296 by decide)
  obtain ⟨m, n2, hm, hmt⟩ : ∃ m, ((w.add { type := .document, owner := some w.fresh }).mp
      (fun j n => { n with refcnt := if j = w.fresh then u32 (n.refcnt + 1) else n.refcnt }) []).nodes w.fresh = some m ∧ m.refcnt = 2 ∧ m.type = .document := by
    rw [mp_nodes, n1]
    exact ⟨_, rfl, by simp [u32], rfl⟩
  have S3 := S2.ref n2 (by rw [hm]; decide)
  have g3 := grants_ref n2 (by rw [hm]; decide)
  refine ⟨_, ch, w.fresh, ?_, S3, fresh_dead S.wf.toCore, ?_, fun j => ?_⟩
  · unfold createParser
    rw [bind_ok createDocument_run, bind_ok (ref_run n1), bind_ok (ref_run n2)]; rfl
  · exact ⟨{ m with refcnt := if w.fresh = w.fresh then u32 (m.refcnt + 1) else m.refcnt }, by rw [mp_nodes, n2]; rfl, hmt⟩
  · rw [g3 j, g2 j, g1 j]
    by_cases h : w.fresh = j <;> simp [h]

theorem createFragmentParser_run (S : Sound w ch) (hd : w.nodes d = some dn) (hdt : dn.type = .document) (hov : dn.refcnt + 1 < 4294967296) :
    ∃ w' ch' f, createFragmentParser d w = .ok w' f ∧ Sound w' ch' ∧ w.nodes f = none ∧ IsType w' f .fragment ∧
      ∀ j, count w' j = count w j + (if d = j then 1 else 0) + if f = j then 2 else 0 := by
  have S1 := S.ref hd hov
  have g1 := grants_ref hd hov
  obtain ⟨m, n1, hmt⟩ : ∃ m, (w.mp (fun j n => { n with refcnt := if j = d then u32 (n.refcnt + 1) else n.refcnt }) []).nodes d = some m ∧ m.type = .document :=
    ⟨{ dn with refcnt := if d = d then u32 (dn.refcnt + 1) else dn.refcnt }, by rw [mp_nodes, hd]; rfl, hdt⟩
  generalize hv : w.mp (fun j n => { n with refcnt := if j = d then u32 (n.refcnt + 1) else n.refcnt }) [] = v at S1 g1 n1
  have hfresh : v.fresh = w.fresh := by rw [← hv]; rfl
  have S2 := S1.add (WF_createNode S1.wf n1 hmt (t := .fragment) (by simp) none none) rfl rfl rfl rfl (fun _ h => nomatch h)
  have g2 := grants_add S1.wf.toCore (n := newNode (some d) .fragment none none) rfl
  have n2 : (v.add (newNode (some d) .fragment none none)).nodes v.fresh = some (newNode (some d) .fragment none none) := add_new _
  have S3 := S2.ref n2 (show 1 + 1 < 4294967296 by decide)
  have g3 := grants_ref n2 (show 1 + 1 < 4294967296 by decide)
  refine ⟨_, ch, v.fresh, ?_, S3, ?_, ?_, fun j => ?_⟩
  · unfold createFragmentParser
    rw [bind_ok (ref_run hd), hv, bind_ok (createNode_run S1.wf.toCore n1 .fragment none none), bind_ok (ref_run n2)]; rfl
  · rw [hfresh]; exact fresh_dead S.wf.toCore
  · exact ⟨_, by rw [mp_nodes, n2]; rfl, rfl⟩
  · rw [g3 j, g2 j, g1 j]
    by_cases h : v.fresh = j <;> by_cases h' : d = j <;> simp [h, h']

theorem book_plus {led rest : Ledger} {a : Op} (h : ∀ x ∈ a.args, 0 < led x) (r : Option NodeId) (j : NodeId) :
    a.book (fun i => led i + rest i) r j = a.book led r j + rest j := by
  have key : ∀ k : Nat, led j + rest j + k = led j + k + rest j := fun k => by omega
  cases a with
  | act a =>
    cases a with
    | unref x =>
      have := h x (by simp [Op.args, Act.args])
      show (if j = x then led j + rest j - 1 else led j + rest j) = (if j = x then led j - 1 else led j) + rest j
      by_cases hj : j = x
      · subst hj; rw [if_pos rfl, if_pos rfl]; omega
      · rw [if_neg hj, if_neg hj]
    | _ => exact key _
  | _ => exact key _

theorem cb_book_plus {led rest : Ledger} {cb : Cb} (h : ∀ x ∈ cb.args, 0 < led x) (r : Option NodeId) (j : NodeId) :
    cb.book (fun i => led i + rest i) r j = cb.book led r j + rest j := by
  have key : ∀ k : Nat, led j + rest j + k = led j + k + rest j := fun k => by omega
  cases cb with
  | unref x =>
    have := h x (by simp [Cb.args])
    show (if j = x then led j + rest j - 1 else led j + rest j) = (if j = x then led j - 1 else led j) + rest j
    by_cases hj : j = x
    · subst hj; rw [if_pos rfl, if_pos rfl]; omega
    · rw [if_neg hj, if_neg hj]
  | _ => exact key _

theorem total_mid (client : Ledger) (l r : List Parser) (p : Parser) (j : NodeId) : (St.mk w client (l ++ p :: r)).total j = p.hub j + ((if p.doc = j then 1 else 0) + (St.mk w client (l ++ r)).total j) := by
  unfold St.total
  simp only [List.map_append, List.map_cons, List.sum_append, List.sum_cons, Parser.refs]
  omega

/-- Heedful with respect to the client is heedful with respect to everybody. -/
theorem Heedful.all {led : Ledger} {a : Op} (h : Heedful led w a) (hle : ∀ j, led j ≤ count w j) : Heedful (count w) w a :=
  ⟨fun x hx => Nat.lt_of_lt_of_le (h.1 x hx) (hle x), h.2⟩

theorem op_step (S : Sound w ch) {client : Ledger} {ps : List Parser} (hl : ∀ j, count w j = (St.mk w client ps).total j) {a : Op} (h : Heedful client w a) :
    ∃ w' ch', Sound w' ch' ∧ ((∃ r, a.run w = .ok w' r ∧ ∀ j, count w' j = (St.mk w' (a.book client r) ps).total j) ∨
      ∃ e, a.run w = .exc w' e ∧ ∀ j, count w' j = (St.mk w' client ps).total j) := by
  have hle : ∀ j, client j ≤ count w j := fun j => by rw [hl j]; exact Nat.le_add_right _ _
  obtain ⟨w', ch', S', ⟨r, h1, h2⟩ | ⟨e, h1, h2⟩⟩ := S.op (fun _ => rfl) (Heedful.all h hle)
  · refine ⟨w', ch', S', .inl ⟨r, h1, fun j => ?_⟩⟩
    have e : count w = fun i => client i + (ps.map fun p => p.refs i).sum := funext hl
    rw [h2 j, e, book_plus h.1]
    rfl
  · exact ⟨w', ch', S', .inr ⟨e, h1, fun j => by rw [h2 j]; exact hl j⟩⟩

theorem callback_step (S : Sound w ch) {client : Ledger} {l r : List Parser} {p : Parser} (hl : ∀ j, count w j = (St.mk w client (l ++ p :: r)).total j) {cb : Cb}
    (hd : IsType w p.doc .document) (h : Allowed p w cb) : ∃ w' ch' hu x, cb.run p.doc w = .ok w' (hu, x) ∧ Sound w' ch' ∧
      ∀ j, count w' j = (St.mk w' client (l ++ ⟨p.doc, cb.book p.hub x⟩ :: r)).total j := by
  obtain ⟨ha, ht, hf⟩ := h
  have e : count w = fun i => p.hub i + ((if p.doc = i then 1 else 0) + (St.mk w client (l ++ r)).total i) := funext fun j => by rw [hl j, total_mid]
  obtain ⟨w', ch', hu, x, h1, h2, h3⟩ := Sound.callback S hd (by rw [e]; simp only [if_true]; omega)
    (cb := cb) (fun y hy => by have := ha y hy; rw [e]; dsimp only; omega) ht hf
  refine ⟨w', ch', hu, x, h1, h2, fun j => ?_⟩
  rw [h3 j, e, cb_book_plus ha, total_mid]
  rfl

theorem destroy_step (S : Sound w ch) {client : Ledger} {l r : List Parser} {p : Parser} (hl : ∀ j, count w j = (St.mk w client (l ++ p :: r)).total j)
    (hz : ∀ j, p.hub j = 0) (hf : (Act.unref p.doc).Fine w) :
    ∃ w' ch', destroyParser p.doc w = .ok w' () ∧ Sound w' ch' ∧ ∀ j, count w' j = (St.mk w' client (l ++ r)).total j := by
  have e : ∀ j, count w j = (if p.doc = j then 1 else 0) + (St.mk w client (l ++ r)).total j := fun j => by rw [hl j, total_mid, hz j, Nat.zero_add]
  have hpos : 0 < count w p.doc := by rw [e, if_pos rfl]; omega
  obtain ⟨n, hx, hr⟩ := held_live hpos
  obtain ⟨w', ch', h1, S'⟩ := S.unref hx hr (hf n hx)
  refine ⟨w', ch', h1, S', fun j => ?_⟩
  rw [S.unref_count hx hr h1 j]
  show _ = (St.mk w client (l ++ r)).total j
  by_cases hj : j = p.doc
  · have := e j
    rw [if_pos hj.symm] at this
    rw [if_pos hj]; omega
  · have := e j
    rw [if_neg (fun h => hj h.symm)] at this
    rw [if_neg hj]; omega

theorem create_step (S : Sound w ch) {client : Ledger} {ps : List Parser} (hl : ∀ j, count w j = (St.mk w client ps).total j) :
    ∃ w' ch' d, createParser w = .ok w' d ∧ Sound w' ch' ∧ ∀ j, count w' j = (St.mk w' (plus client (one d)) (⟨d, one d⟩ :: ps)).total j := by
  obtain ⟨w', ch', d, h1, h2, _, _, h3⟩ := createParser_run S
  refine ⟨w', ch', d, h1, h2, fun j => ?_⟩
  rw [h3 j, hl j]
  simp only [St.total, plus, one, List.map_cons, List.sum_cons, Parser.refs]
  by_cases h : d = j <;> simp only [h, if_true, if_false] <;> omega

theorem fragment_step (S : Sound w ch) {client : Ledger} {ps : List Parser} (hl : ∀ j, count w j = (St.mk w client ps).total j) (hd : IsType w d .document) (hr : Room w d) :
    ∃ w' ch' f, createFragmentParser d w = .ok w' f ∧ Sound w' ch' ∧ ∀ j, count w' j = (St.mk w' (plus client (one f)) (⟨d, one f⟩ :: ps)).total j := by
  obtain ⟨dn, hdn, hdt⟩ := hd
  obtain ⟨w', ch', f, h1, h2, _, _, h3⟩ := createFragmentParser_run S hdn hdt (hr dn hdn)
  refine ⟨w', ch', f, h1, h2, fun j => ?_⟩
  rw [h3 j, hl j]
  simp only [St.total, plus, one, List.map_cons, List.sum_cons, Parser.refs]
  by_cases h : f = j <;> by_cases h' : d = j <;> simp only [h, h', if_true, if_false] <;> omega

/-! ### The document of a parser stays a document -/

theorem climb_const (o : Order) (q : Option NodeId) : ∀ k x p, Constant (climb o q k x p)
  | 0, _, _ => by unfold climb; const
  | k + 1, x, p => by
    have ih := climb_const o q k
    unfold climb; const; all_goals exact ih _ _

theorem walkNext_const (o : Order) (q : Option NodeId) (x : NodeId) : Constant (walkNext o q x) := by
  unfold walkNext; const; all_goals exact climb_const _ _ _ _ _

theorem collect_const (o : Order) (r d : Option DStr) : Constant (collect o r d) := by unfold collect; const

theorem adjLoop_const (o : Order) (q : Option NodeId) : ∀ k x r, Constant (adjLoop o q k x r)
  | 0, none, _ => by unfold adjLoop; const
  | 0, some _, _ => by unfold adjLoop; const
  | k + 1, none, _ => by unfold adjLoop; const
  | k + 1, some x, r => by
    have ih := adjLoop_const o q k
    unfold adjLoop; const
    all_goals first | exact ih _ _ | exact collect_const _ _ _ | exact walkNext_const _ _ _

theorem walkInOrder_const (o : Order) (x : Option NodeId) (r : Option DStr) : Constant (walkInOrder o x r) := by
  unfold walkInOrder; const; all_goals exact adjLoop_const _ _ _ _ _

theorem wholeText_const (x : NodeId) : Constant (wholeText x) := by
  unfold wholeText refuseEntity; const
  all_goals first | exact walkInOrder_const _ _ _ | exact collect_const _ _ _

theorem mergeText_const (x y : NodeId) : Constant (mergeText x y) := by
  unfold mergeText; const; all_goals exact wholeText_const _

theorem reported_const {α : Type} {m : M (Option α)} (h : Constant m) : Constant (reported m) := by
  have e : reported m = handled m (fun a => pure (.done, a)) (fun _ => pure (.failed, none)) := by
    funext w; unfold reported handled; cases m w <;> rfl
  rw [e]; exact handle_const h (fun a => .ret _) (fun e => .ret _)

theorem made_const {m : M NodeId} (h : Constant m) : Constant (made m) := reported_const (h.bind fun _ => .ret _)

theorem orDrop_const (x : NodeId) {m : M Hub} (h : Constant m) : Constant (orDrop x m) := by
  have e : orDrop x m = handled m (fun a => pure a) (fun _ => Tree.unref x >>= fun _ => pure .failed) := by
    funext w; unfold orDrop handled; cases m w <;> rfl
  rw [e]; exact handle_const h (fun a => .ret _) (fun e => (unref_const x).bind fun _ => .ret _)

theorem ignored_const {m : M Unit} (h : Constant m) : Constant (ignored m) := by
  have e : ignored m = handled m (fun a => pure a) (fun _ => pure ()) := by
    funext w; unfold ignored handled; cases m w <;> rfl
  rw [e]; exact handle_const h (fun a => .ret _) (fun e => .ret _)

theorem mergeTarget_const (pn cn : Node) : Constant (mergeTarget pn cn) := by unfold mergeTarget; const

theorem appendBy_const (t : Option NodeId) (p c : NodeId) : Constant (appendBy t p c) := by
  unfold appendBy
  cases t with
  | none => exact (appendChild_const p c).bind fun _ => .ret _
  | some l => exact (mergeText_const l c).bind fun _ => .ret _

theorem reparentOne_const (x q c : NodeId) : Constant (reparentOne x q c) := by
  unfold reparentOne
  refine orDrop_const c ?_
  const

theorem reparentLoop_const (x q : NodeId) : ∀ f, Constant (reparentLoop f x q)
  | 0 => by
    unfold reparentLoop
    refine (visit_const .first x).bind fun c => ?_
    cases c with
    | none => exact .ret _
    | some c => exact .crash _
  | f + 1 => by
    unfold reparentLoop
    refine (visit_const .first x).bind fun c => ?_
    cases c with
    | none => exact .ret _
    | some c =>
      refine (reparentOne_const x q c).bind fun r => ?_
      cases r with
      | done => exact reparentLoop_const x q f
      | failed => exact .ret _

theorem newElement_const (doc : NodeId) (ns pfx : Option DStr) (l : DStr) : Constant (newElement doc ns pfx l) := by unfold newElement; const

theorem makeElement_const (doc : NodeId) (ns : Option DStr) (name : Bytes) : Constant (makeElement doc ns name) := by
  unfold makeElement
  cases ns with
  | none => exact newElement_const _ _ _ _
  | some u => exact (Constant.liftOut _).bind fun _ => newElement_const _ _ _ _

theorem addOne_const (e : NodeId) (g : Given) : Constant (addOne e g) := by
  unfold addOne
  cases g.ns with
  | none => exact (Constant.get e).bind fun n => setAttr_const _ _ _ _
  | some u => show Constant (setAttributeNS _ _ _ _); unfold setAttributeNS; const; all_goals exact setAttr_const _ _ _ _

theorem addAttributes_const (e : NodeId) : ∀ gs, Constant (addAttributes e gs)
  | [] => .ret _
  | g :: gs => (ignored_const (addOne_const e g)).bind fun _ => addAttributes_const e gs

theorem cb_const (doc : NodeId) (cb : Cb) : Constant (cb.run doc) := by
  cases cb with
  | createComment data => exact made_const (createNode_const _ _ _ _)
  | createDoctype name => exact made_const ((Constant.liftOut _).bind fun _ => createDoctype_const _)
  | createElement tag => exact made_const ((makeElement_const _ _ _).bind fun e => (addAttributes_const e _).bind fun _ => .ret _)
  | createText data => exact made_const (createNode_const _ _ _ _)
  | ref x => exact (ref_const x).bind fun _ => .ret _
  | unref x => exact (unref_const x).bind fun _ => .ret _
  | appendChild p c => exact (Constant.get c).bind fun cn => (Constant.get p).bind fun pn => (mergeTarget_const pn cn).bind fun t => reported_const (appendBy_const t p c)
  | insertBefore p c r => exact made_const (insertBefore_const p c r)
  | removeChild p c => exact made_const (removeChild_const p c)
  | clone x deep => exact made_const (cloneNode_const x deep)
  | reparent x q => exact (Constant.bound.bind fun b => reparentLoop_const x q b).bind fun _ => .ret _
  | getParent x b =>
    refine (visit_const .parent x).bind fun p => ?_
    refine .ite ?_ (.ret _)
    cases p with
    | none => exact .crash _
    | some p => exact (Constant.get p).bind fun n => .ite (.ret _) ((unref_const p).bind fun _ => .ret _)
  | hasChildren x => exact (Constant.get x).bind fun _ => .ret _
  | addAttributes x gs => exact (addAttributes_const x gs).bind fun _ => .ret _

theorem createParser_const : Constant createParser := Constant.document.bind fun d => (ref_const d).bind fun _ => (ref_const d).bind fun _ => .ret _
theorem createFragmentParser_const (d : NodeId) : Constant (createFragmentParser d) :=
  (ref_const d).bind fun _ => (createNode_const _ _ _ _).bind fun f => (ref_const f).bind fun _ => .ret _

/-- A node that is held before and after has the type that it had. -/
theorem keeps_type (S : Sound w ch) (h : SameNodes w w') {t : NodeType} (hx : IsType w x t) (hc : 0 < count w' x) : IsType w' x t := by
  obtain ⟨n, hn, ht⟩ := hx
  obtain ⟨n', hn', _⟩ := held_live hc
  obtain ⟨m, hm, e, _⟩ := h.2 x n' hn' (S.wf.bnd x n hn)
  rw [hn] at hm; cases hm
  exact ⟨n', hn', e.trans ht⟩

/-- The documents of the parsers. -/
def Docs (s : St) : Prop := ∀ p ∈ s.parsers, IsType s.w p.doc .document

theorem total_doc {s : St} {p : Parser} (h : p ∈ s.parsers) : 0 < s.total p.doc := by
  obtain ⟨l, r, e⟩ := List.append_of_mem h
  obtain ⟨w, client, ps⟩ := s
  dsimp only at e
  subst e
  rw [total_mid, if_pos rfl]; omega

/-- What is done keeps the documents of the parsers, of which none is new. -/
theorem docs_step {s s' : St} (S : Sound s.w ch) (hs : Docs s) (h : SameNodes s.w s'.w) (hp : ∀ p ∈ s'.parsers, ∃ q ∈ s.parsers, p.doc = q.doc)
    (hl : ∀ j, count s'.w j = s'.total j) : Docs s' := by
  intro p hm
  obtain ⟨q, hq, e⟩ := hp p hm
  refine keeps_type S h (e ▸ hs q hq) ?_
  rw [hl]; exact total_doc hm

theorem Story.all {s : St} (h : Story s) : ∃ ch, Sound s.w ch ∧ (∀ j, count s.w j = s.total j) ∧ Docs s := by
  induction h with
  | start => exact ⟨_, .empty, fun j => rfl, fun p hp => nomatch hp⟩
  | op a _ hc hr ih =>
    obtain ⟨ch, S, hl, hd⟩ := ih
    obtain ⟨w', ch', S', ⟨r, h1, h2⟩ | ⟨e, h1, _⟩⟩ := op_step S hl hc
    · rw [hr] at h1; cases h1
      exact ⟨ch', S', h2, docs_step S hd ((op_const a _ S.wf.bnd).1 _ _ hr).2 (fun p hp => ⟨p, hp, rfl⟩) h2⟩
    · rw [hr] at h1; cases h1
  | refused a _ hc hr ih =>
    obtain ⟨ch, S, hl, hd⟩ := ih
    obtain ⟨w', ch', S', ⟨r, h1, _⟩ | ⟨e, h1, h2⟩⟩ := op_step S hl hc
    · rw [hr] at h1; cases h1
    · rw [hr] at h1; cases h1
      exact ⟨ch', S', h2, docs_step S hd ((op_const a _ S.wf.bnd).2 _ _ hr).2 (fun p hp => ⟨p, hp, rfl⟩) h2⟩
  | @create s w' d _ hr ih =>
    obtain ⟨ch, S, hl, hd⟩ := ih
    obtain ⟨w1, ch', d1, h1, h2, h3⟩ := create_step S hl
    rw [hr] at h1; cases h1
    refine ⟨ch', h2, h3, fun p hp => ?_⟩
    rcases List.mem_cons.1 hp with rfl | hp'
    · obtain ⟨w1, _, d1, g1, _, _, g2, _⟩ := createParser_run S
      rw [hr] at g1; cases g1
      exact g2
    · exact keeps_type S (createParser_const _ S.wf.bnd |>.1 _ _ hr).2 (hd p hp') (by rw [h3]; exact total_doc hp)
  | @createFragment s w' f d _ _ hdt hroom hr ih =>
    obtain ⟨ch, S, hl, hd⟩ := ih
    obtain ⟨w1, ch', f1, h1, h2, h3⟩ := fragment_step S hl hdt hroom
    rw [hr] at h1; cases h1
    refine ⟨ch', h2, h3, fun p hp => ?_⟩
    have hsame := (createFragmentParser_const d _ S.wf.bnd |>.1 _ _ hr).2
    rcases List.mem_cons.1 hp with rfl | hp'
    · exact keeps_type S hsame hdt (by rw [h3]; exact total_doc hp)
    · exact keeps_type S hsame (hd p hp') (by rw [h3]; exact total_doc hp)
  | @callback w w' client l r p hu x cb _ ha hr ih =>
    obtain ⟨ch, S, hl, hd⟩ := ih
    obtain ⟨w', ch', hu, x, h1, h2, h3⟩ := callback_step S hl (hd p (by simp)) ha
    rw [hr] at h1; cases h1
    refine ⟨ch', h2, h3, docs_step S hd (cb_const p.doc cb _ S.wf.bnd |>.1 _ _ hr).2 (fun q hq => ?_) h3⟩
    simp only [List.mem_append, List.mem_cons] at hq
    rcases hq with hq | rfl | hq
    · exact ⟨q, by simp [hq], rfl⟩
    · exact ⟨p, by simp, rfl⟩
    · exact ⟨q, by simp [hq], rfl⟩
  | @destroy w w' client l r p _ hz hf hr ih =>
    obtain ⟨ch, S, hl, hd⟩ := ih
    obtain ⟨w', ch', h1, h2, h3⟩ := destroy_step S hl hz hf
    rw [hr] at h1; cases h1
    refine ⟨ch', h2, h3, docs_step S hd (unref_const p.doc _ S.wf.bnd |>.1 _ _ hr).2 (fun q hq => ?_) h3⟩
    simp only [List.mem_append] at hq
    exact ⟨q, by simp only [List.mem_append, List.mem_cons]; exact hq.imp id Or.inr, rfl⟩

theorem Story.sound {s : St} (h : Story s) : ∃ ch, Sound s.w ch ∧ ∀ j, count s.w j = s.total j := by
  obtain ⟨ch, S, hl, _⟩ := h.all
  exact ⟨ch, S, hl⟩

/-! ## The properties -/

/-- **C80**: a node that is referenced by the client, by Hubbub or by a binding is in memory, and its reference count is the number of these references. -/
theorem C80_live_partial {s : St} (h : Story s) (hj : 0 < s.total j) : ∃ n, s.w.nodes j = some n ∧ n.refcnt = s.total j := by
  obtain ⟨ch, S, hl⟩ := h.sound
  rw [← hl j] at hj ⊢
  obtain ⟨n, hn, _⟩ := held_live hj
  exact ⟨n, hn, (count_eq hn).symm⟩

/-- **C80**: the document of a parser is in memory and is a document, whatever has been done. -/
theorem C80_document {s : St} (h : Story s) {p : Parser} (hp : p ∈ s.parsers) : ∃ n, s.w.nodes p.doc = some n ∧ n.type = .document := by
  obtain ⟨_, _, _, hd⟩ := h.all
  exact hd p hp

/-- **C80**: the callbacks return to Hubbub; there is no fault.  Missing: the cases that `Cb.Fine` leaves out, among them the faults `C64_get_parent_violated` and
`C64_reparent_self_violated`; the specialised parts of the elements, and `form_associate`. -/
theorem C80_callback_partial {w : World} {client : Ledger} {l r : List Parser} {p : Parser} (h : Story ⟨w, client, l ++ p :: r⟩) {cb : Cb} (ha : Allowed p w cb) :
    ∃ w' hu x, cb.run p.doc w = .ok w' (hu, x) ∧ (∀ y, x = some y → ∃ n, w'.nodes y = some n) ∧ Story ⟨w', client, l ++ ⟨p.doc, cb.book p.hub x⟩ :: r⟩ := by
  obtain ⟨ch, S, hl, hd⟩ := h.all
  obtain ⟨w', ch', hu, x, h1, S', h2⟩ := callback_step S hl (hd p (by simp)) ha
  have st := Story.callback cb h ha h1
  refine ⟨w', hu, x, h1, fun y hy => ?_, st⟩
  subst hy
  by_cases hcb : ∃ z, cb = .unref z
  · obtain ⟨z, rfl⟩ := hcb
    exact absurd h1 (by
      show (Tree.unref z >>= fun _ => pure (Hub.done, none)) w ≠ _
      intro h3
      cases h4 : Tree.unref z w with
      | ok v a => rw [bind_ok h4] at h3; cases h3
      | exc v e => rw [bind_exc h4] at h3; cases h3
      | fault f => rw [bind_fault h4] at h3; cases h3)
  · have hb : 0 < cb.book p.hub (some y) y := by
      cases cb with
      | unref z => exact absurd ⟨z, rfl⟩ hcb
      | _ => exact Nat.lt_of_lt_of_le Nat.zero_lt_one (by show 1 ≤ p.hub y + (if some y = some y then 1 else 0); rw [if_pos rfl]; omega)
    have ht := total_mid (w := w') client l r ⟨p.doc, cb.book p.hub (some y)⟩ y
    obtain ⟨n, hn, _⟩ := C80_live_partial st (j := y) (by rw [ht]; dsimp only; omega)
    exact ⟨n, hn⟩

/-- **C80**: what the client does meanwhile returns too. -/
theorem C80_client_partial {s : St} (h : Story s) {a : Op} (ha : Heedful s.client s.w a) (f : Fault) : a.run s.w ≠ .fault f := by
  obtain ⟨ch, S, hl⟩ := h.sound
  obtain ⟨w', ch', _, ⟨r, h1, _⟩ | ⟨e, h1, _⟩⟩ := op_step (client := s.client) (ps := s.parsers) S hl ha <;> rw [h1] <;> exact fun h => nomatch h

/-- **C80**: parsers can be created and destroyed at any time. -/
theorem C80_parser_partial {s : St} (h : Story s) :
    (∃ w' d, createParser s.w = .ok w' d ∧ s.w.nodes d = none ∧ ∃ n, w'.nodes d = some n ∧ n.type = .document ∧ n.refcnt = 3) ∧
    (∀ d n, s.w.nodes d = some n → n.type = .document → n.refcnt + 1 < 2 ^ 32 → ∃ w' f, createFragmentParser d s.w = .ok w' f ∧ s.w.nodes f = none ∧
      ∃ m, w'.nodes f = some m ∧ m.type = .fragment ∧ m.refcnt = 2) ∧
    ∀ l p r, s.parsers = l ++ p :: r → (∀ j, p.hub j = 0) → (Act.unref p.doc).Fine s.w → ∃ w', destroyParser p.doc s.w = .ok w' () := by
  obtain ⟨ch, S, hl⟩ := h.sound
  have h0 : ∀ {d}, s.w.nodes d = none → count s.w d = 0 := fun h => by unfold count; rw [h]
  refine ⟨?_, ?_, ?_⟩
  · obtain ⟨w', ch', d, h1, h2, h3, ⟨n, hn, ht⟩, h4⟩ := createParser_run S
    refine ⟨w', d, h1, h3, n, hn, ht, ?_⟩
    have := h4 d
    rw [count_eq hn, h0 h3, if_pos rfl] at this
    exact this
  · intro d n hd hdt hov
    obtain ⟨w', ch', f, h1, h2, h3, ⟨m, hm, ht⟩, h4⟩ := createFragmentParser_run S hd hdt hov
    refine ⟨w', f, h1, h3, m, hm, ht, ?_⟩
    have := h4 f
    rw [count_eq hm, h0 h3, if_pos rfl, if_neg (fun e => by rw [e, h3] at hd; cases hd)] at this
    exact this
  · intro l p r hp hz hf
    obtain ⟨w', _, h1, _⟩ := destroy_step (client := s.client) (l := l) (r := r) (p := p) S (by rw [← hp]; exact hl) hz hf
    exact ⟨w', h1⟩

theorem needed (S : Sound w ch) (hj : w.nodes j = some n) :
    (∃ r, AncSelf w j r ∧ 0 < count w r) ∨ (n.type = .document ∧ ∃ r rn, w.nodes r = some rn ∧ rn.owner = some j ∧ 0 < count w r) := by
  have hC := S.wf.toCore
  obtain ⟨r, rn, h1, h2, h3⟩ := exists_root hC hj
  by_cases ht : rn.type = .document
  · cases hz : rn.refcnt with
    | succ k => exact .inl ⟨r, h1, by rw [count_eq h2]; omega⟩
    | zero =>
      obtain ⟨hf, i, m, h4, h5, h6⟩ := S.docs r rn h2 ht hz
      obtain ⟨q, qn, _, g1, g2, g3, g4⟩ := root_of hC h2 ht hf h4 h5 h6
      have hq := S.held q qn g1 g2 g4
      have hjr : j = r := by
        rcases Relation.ReflTransGen.cases_tail h1 with rfl | ⟨c, _, cn, hc, hp⟩
        · rfl
        · exact absurd hp (no_children hC h2 ht hf hc)
      subst hjr
      rw [hj] at h2; cases h2
      exact .inr ⟨ht, q, qn, g1, g3, by rw [count_eq g1]; exact hq⟩
  · exact .inl ⟨r, h1, by rw [count_eq h2]; exact S.held r rn h2 h3 ht⟩

/-- **C80**: what is in memory is needed. -/
theorem C80_needed_partial {s : St} (h : Story s) (hj : s.w.nodes j = some n) :
    (∃ r, AncSelf s.w j r ∧ 0 < s.total r) ∨ (n.type = .document ∧ ∃ r rn, s.w.nodes r = some rn ∧ rn.owner = some j ∧ 0 < s.total r) := by
  obtain ⟨ch, S, hl⟩ := h.sound
  have := needed S hj
  simpa only [hl] using this

/-- **C80**: when all parsers are destroyed and the client has given up its references, nothing is in memory. -/
theorem C80_no_leak_partial {s : St} (h : Story s) (hp : s.parsers = []) (hz : ∀ j, s.client j = 0) : ∀ j, s.w.nodes j = none := by
  have h0 : ∀ j, s.total j = 0 := fun j => by unfold St.total; rw [hp, hz j]; rfl
  intro j
  cases hj : s.w.nodes j with
  | none => rfl
  | some n =>
    rcases C80_needed_partial h hj with ⟨r, _, h2⟩ | ⟨_, r, _, _, _, h2⟩
    · have := h0 r; omega
    · have := h0 r; omega

end Dom.Hubbub
