import Verif.Tree.Create
import Verif.Str.Props
/-!
# src/core/characterdata.c and `splitText` of src/core/text.c

The data of a node is its `value`.  As in Verif/Tree/Model.lean, listeners of the raised events are assumed not to
change the tree and not to fail, and reference counts of strings are not modelled.
-/
namespace Dom.Tree
set_option linter.unusedSimpArgs false

open Dom.Str (DStr)

/-- A function of string.c called from here. -/
def liftOut {α : Type} (x : Out α) : M α := fun w =>
  match x with
  | .ok a => .ok w a
  | .exc e => .exc w e
  | .fault f => .fault f

/-- `(int32_t) x < 0` for a `uint32_t` `x`, e.g. src/core/characterdata.c:201. -/
def neg32 (x : Nat) : Bool := 2147483648 ≤ x

/-- `_dom_dispatch_subtree_modified_event` with a target that may be NULL, src/events/dispatch.c:216-220. -/
def fireSubtreeAt (doc target : Option NodeId) : M Unit :=
  match target with
  | none => pure ()
  | some t => fireSubtreeModified doc t

/-- `dom_characterdata_get_data`, src/core/characterdata.c:99-110. -/
def getData (c : NodeId) : M (Option DStr) := do
  let n ← getNode c
  pure n.value

/-- The end of every changing function: raise DOMCharacterDataModified, store the new data, raise DOMSubtreeModified at
the parent; src/core/characterdata.c:136-151, 244-262, 309-324, 377-392, 443-458. -/
def storeData (c : NodeId) (v : Option DStr) : M Unit := do
  let n ← getNode c
  fire n.owner { kind := .characterDataModified, target := c, related := some c, prevValue := n.value, newValue := v }
  modNode c fun n => { n with value := v }
  fireSubtreeAt n.owner n.parent

/-- `_dom_characterdata_set_data`, src/core/characterdata.c:124-152. -/
def setData (c : NodeId) (d : Option DStr) : M Unit := do
  let ro ← readonly c
  throwIf ro .noModificationAllowed
  storeData c d

/-- `_dom_characterdata_get_length`, src/core/characterdata.c:161-173 (and the same lines in the functions below). -/
def dataLength (v : Option DStr) : Out Nat :=
  match v with
  | some s => Str.length (some s)
  | none => .ok 0

/-- `(offset + count) >= len ? len : offset + count` in `uint32_t`, src/core/characterdata.c:215, 368, 435. -/
def clampEnd (offset count len : Nat) : Nat :=
  if u32 (offset + count) ≥ len then len else u32 (offset + count)

/-- `_dom_characterdata_substring_data`, src/core/characterdata.c:194-218. -/
def substringData (c : NodeId) (offset count : Nat) : M DStr := do
  let n ← getNode c
  throwIf (neg32 offset || neg32 count) .indexSize
  let len ← liftOut (dataLength n.value)
  throwIf (decide (offset > len)) .indexSize
  liftOut (Str.substr n.value offset (clampEnd offset count len))

/-- `_dom_characterdata_append_data`, src/core/characterdata.c:228-263. -/
def appendData (c : NodeId) (d : Option DStr) : M Unit := do
  let ro ← readonly c
  throwIf ro .noModificationAllowed
  let n ← getNode c
  let temp ← liftOut (Str.concat n.value d)
  storeData c (some temp)

/-- `_dom_characterdata_insert_data`, src/core/characterdata.c:277-325. -/
def insertData (c : NodeId) (offset : Nat) (d : Option DStr) : M Unit := do
  let ro ← readonly c
  throwIf ro .noModificationAllowed
  throwIf (neg32 offset) .indexSize
  let n ← getNode c
  let len ← liftOut (dataLength n.value)
  throwIf (decide (offset > len)) .indexSize
  let temp ← liftOut (Str.insert n.value d offset)
  storeData c (some temp)

/-- `_dom_characterdata_replace_data`, src/core/characterdata.c:408-459. -/
def replaceData (c : NodeId) (offset count : Nat) (d : Option DStr) : M Unit := do
  let ro ← readonly c
  throwIf ro .noModificationAllowed
  throwIf (neg32 offset || neg32 count) .indexSize
  let n ← getNode c
  let len ← liftOut (dataLength n.value)
  throwIf (decide (offset > len)) .indexSize
  let temp ← liftOut (Str.replace n.value d offset (clampEnd offset count len))
  storeData c (some temp)

/-- `_dom_characterdata_delete_data`, src/core/characterdata.c:339-393: as `replace_data` with the empty string that
the owner document keeps (`_memo_empty`, :370). -/
def deleteData (c : NodeId) (offset count : Nat) : M Unit := do
  let ro ← readonly c
  throwIf ro .noModificationAllowed
  throwIf (neg32 offset || neg32 count) .indexSize
  let n ← getNode c
  let len ← liftOut (dataLength n.value)
  throwIf (decide (offset > len)) .indexSize
  let d ← deref n.owner
  let _ ← getNode d
  let temp ← liftOut (Str.replace n.value (some Str.emptyString) offset (clampEnd offset count len))
  storeData c (some temp)

/-- `_dom_text_split_text`, src/core/text.c:180-230.  The new node is created with `_dom_text_create`
(src/core/text.c:77-101), also for a CDATASection; the vtable is not modelled.  The error branch 221-224 releases the new node;
it is not reached when 216's checks passed before, and is not modelled. -/
def splitText (t : NodeId) (offset : Nat) : M NodeId := do
  let ro ← readonly t
  throwIf ro .noModificationAllowed
  let n ← getNode t
  let len ← liftOut (dataLength n.value)
  throwIf (decide (offset ≥ len)) .indexSize
  let value ← substringData t offset (sub32 len offset)
  let res ← initNode { type := .text, name := n.name, value := some value, owner := n.owner }
  deleteData t offset (sub32 len offset)
  pure res

variable {w : World} {ch : Children} {c : NodeId} {n : Node}

theorem liftOut_ok {α β : Type} {x : Out α} {a : α} (h : x = .ok a) (f : α → M β) (w : World) :
    (liftOut x >>= f) w = f a w := by subst h; rfl
theorem liftOut_exc {α β : Type} {x : Out α} {e : Exc} (h : x = .exc e) (f : α → M β) (w : World) :
    (liftOut x >>= f) w = .exc w e := by subst h; rfl
theorem liftOut_fault {α β : Type} {x : Out α} {e : Fault} (h : x = .fault e) (f : α → M β) (w : World) :
    (liftOut x >>= f) w = .fault e := by subst h; rfl

/-- The events of a data change. -/
def dataEvents (c : NodeId) (n : Node) (v : Option DStr) : List Ev :=
  { kind := .characterDataModified, target := c, related := some c, prevValue := n.value, newValue := v } ::
  (match n.parent with
   | none => []
   | some p => [{ kind := .subtreeModified, target := p, related := some p }])

/-- Node `c` with new data. -/
def withValue (c : NodeId) (v : Option DStr) (j : NodeId) (n : Node) : Node :=
  if j = c then { n with value := v } else n

theorem upd_eq_mp (hc : w.nodes c = some n) (v : Option DStr) (l : List Ev) :
    (w.addLog l).upd c { n with value := v } = w.mp (withValue c v) l := by
  unfold World.mp World.upd World.addLog withValue
  simp only [World.mk.injEq, and_true]
  funext j
  by_cases h : j = c
  · subst h; simp [hc]
  · simp only [h, if_false]; cases w.nodes j <;> rfl

theorem storeData_run (hW : Core w ch) (hc : w.nodes c = some n) (ho : n.owner ≠ none) (v : Option DStr) :
    storeData c v w = .ok (w.mp (withValue c v) (dataEvents c n v)) () := by
  obtain ⟨d, dn, hown, hd, _⟩ := hW.doc_alive hc (.inr (.inr ho))
  unfold storeData
  rw [get_bind hc, hown, fire_bind hd (by simpa using hc), hown]
  simp only [Option.isSome_some, if_true]
  rw [mod_bind (n := n) (by simpa using hc), upd_eq_mp hc]
  unfold fireSubtreeAt dataEvents
  cases hp : n.parent with
  | none => rfl
  | some p =>
    obtain ⟨pn, hpn⟩ := hW.linked.alive_parent hc hp
    have hpo := hW.ownSame c n p pn hc hp hpn
    simp only [fireSubtreeModified]
    have h1 : (w.mp (withValue c v) [{ kind := .characterDataModified, target := c, related := some c, prevValue := n.value, newValue := v }]).nodes d = some (withValue c v d dn) := mp_some hd _ _
    have h2 : (w.mp (withValue c v) [{ kind := .characterDataModified, target := c, related := some c, prevValue := n.value, newValue := v }]).nodes p = some (withValue c v p pn) := mp_some hpn _ _
    have h3 : (withValue c v p pn).owner = pn.owner := by unfold withValue; split <;> rfl
    rw [fire_run h1 h2, h3, ← hpo, hown]
    simp

end Dom.Tree
