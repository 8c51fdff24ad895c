import Verif.Attr.Violations
/-!
# C55: events raised by attribute calls
-/
namespace Dom.Attr
set_option linter.unusedSimpArgs false

open Dom.Str (DStr Bytes contents)

section
variable {s s' : Mem} {ls ls' : Addr → List Addr} {e a c h : Addr} {el el1 : Elem} {n m : ANode} {x : Cell} {ns : Option DStr} {name : DStr}
  {pre suf : List Addr} {en : Entry} {b : Bytes}

/-- The DOMAttrModified events among some events. -/
def modified (l : List Ev) : List (Addr × Option Bytes × Option Bytes × Change) :=
  l.filterMap fun ev => match ev with
    | .attrModified t p v _ _ ch => some (t, p.map DStr.data, v.map DStr.data, ch)
    | _ => none

/-- The targets of the DOMSubtreeModified events among some events. -/
def subtrees (l : List Ev) : List Addr :=
  l.filterMap fun ev => match ev with
    | .subtree t => some t
    | _ => none

/-- **C55**, setting.  A successful setAttribute raises one DOMAttrModified event at the element, with the old value and MODIFICATION if the
attribute was there, without an old value and with ADDITION otherwise, and one DOMSubtreeModified event. -/
theorem C55_set (hI : Inv s ls) (he : s.elems e = some el) (hro : el.ro = false) (ns : Option DStr) (name : DStr) (v : Option DStr)
    (hname : Names.validateAttributeName (some name) = true)
    (hw : ∀ en n, lookup (entriesOf s e) ns name = some en → s.attrs en.attr = some n → Writable n) :
    ∃ s' l, setAttr e ns name v s = .ok s' () ∧ s'.log = s.log ++ l ∧ subtrees l = [e] ∧
      modified l = [match reading s (entriesOf s e) ns name with
        | none => (e, none, v.map DStr.data, .addition)
        | some old => (e, old, v.map DStr.data, .modification)] := by
  rw [entriesOf_eq hI] at *
  cases hl : lookup (view s (ls e)) ns name with
  | none =>
    obtain ⟨s', c, h1, _, _, _, h2, _⟩ := setAttr_new hI he hro v hname hl
    refine ⟨s', _, h1, h2, rfl, ?_⟩
    simp [reading, hl, modified]
  | some en =>
    obtain ⟨hmem, _⟩ := lookup_mem hl
    obtain ⟨_, _, n, _, _, _, hn, _⟩ := view_mem hI hmem
    obtain ⟨w1, w2⟩ := hw en n hl hn
    obtain ⟨old, h0, h1⟩ := setAttr_existing hI he hro v hname hl hn w1 w2
    refine ⟨_, _, h1, rfl, rfl, ?_⟩
    simp [reading, hl, modified, hn, ← h0]

/-- **C55**, removing.  Removing an attribute raises one DOMAttrModified event with the old value and REMOVAL, and one
DOMSubtreeModified event; there is no event when there is no such attribute. -/
theorem C55_remove (hI : Inv s ls) (he : s.elems e = some el) (hro : el.ro = false) (ns : Option DStr) (name : DStr) :
    ∃ s' l, removeAttr e ns name s = .ok s' () ∧ s'.log = s.log ++ l ∧
      (match reading s (entriesOf s e) ns name with
       | none => l = []
       | some old => subtrees l = [e] ∧ modified l = [(e, old, none, .removal)]) := by
  rw [entriesOf_eq hI]
  cases hl : lookup (view s (ls e)) ns name with
  | none => exact ⟨s, [], removeAttr_none hI he hro hl, by simp, by simp [reading, hl]⟩
  | some en =>
    obtain ⟨s', n, pre, suf, h1, hn, _, _, _, _, _, _, _, ⟨old, h0, h2⟩, _⟩ := removeAttr_some hI he hro hl
    refine ⟨s', _, h1, h2, ?_⟩
    simp [reading, hl, modified, subtrees, hn, ← h0]

/-- **C55**, refusal (partial).  A call that is refused because of the name or because the element is read-only raises no event.  Missing: refusal because the
attribute is read-only or has a numeric type, where DOMAttrModified is raised (`C55_refused_violated`). -/
theorem C55_refused_partial (he : s.elems e = some el) (ns : Option DStr) (name : DStr) (v : Option DStr) :
    (Names.validateAttributeName (some name) = false → setAttr e ns name v s = .exc s .invalidCharacter) ∧
    (Names.validateAttributeName (some name) = true → el.ro = true → setAttr e ns name v s = .exc s .noModificationAllowed) ∧
    (el.ro = true → removeAttr e ns name s = .exc s .noModificationAllowed) := by
  refine ⟨fun h => ?_, fun h hr => ?_, fun hr => ?_⟩
  · unfold setAttr; rw [h]; rfl
  · unfold setAttr
    rw [h]
    simp only [Bool.not_true]
    rw [throwIf_false, getElem_bind he, hr]
    rfl
  · unfold removeAttr; rw [getElem_bind he, hr]; rfl

end
end Dom.Attr
