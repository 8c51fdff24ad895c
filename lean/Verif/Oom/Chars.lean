import Verif.Oom.Attr

/-!
# Character data when memory may run out

The functions of src/core/characterdata.c and src/core/text.c that change or collect text, with the mutation
events they raise.  Simplified throughout: every text node has a value, listeners leave the memory as they
found it and do not fail, the nodes the event passes on its way up are not freed by its references, and the place of a node in its
tree counts as a reference to it.
-/
namespace Dom.Oom.Chars

open Dom.Oom

/-- A `dom_string`: its address and its characters. -/
structure Str where
  addr : Nat
  data : List Nat

/-- A text node, src/core/text.h and src/core/node.h: its block, its name and its value. -/
structure Text where
  block : Nat
  name : Nat
  value : Str

/-- Where a text node stands: whether it or an ancestor makes it read-only (`_dom_node_readonly`,
src/core/node.c:2040-2063), its parent, the ancestors with a listener for `DOMCharacterDataModified`, the
ancestors of the parent with a listener for `DOMSubtreeModified`, and the strings `_memo_domcharacterdatamodified`,
`_memo_domsubtreemodified` and `_memo_empty` of the document. -/
structure Place where
  readonly : Bool
  parent : Option Nat
  hearChars : List Nat
  hearTree : List Nat
  typeChars : Nat
  typeTree : Nat
  empty : Str

/-- The variables `targets`, `ntargets_allocated` and what the array holds, src/core/node.c:2463-2464. -/
structure Targets where
  array : Option Nat
  size : Nat
  taken : List Nat

/-- `_dom_event_targets_expand`, src/core/node.c:2408-2437.  Simplified: `realloc` does not move the array, and
the doubled size does not wrap around. -/
def expand (t : Targets) : M (Option Targets) :=
  match t.array with
  | none => do
    let a ← malloc
    match a with
    | none => pure none
    | some a => pure (some { t with array := some a, size := 64 })
  | some _ => do
    let ok ← ask
    if ok then pure (some { t with size := t.size * 2 }) else pure none

/-- The test before the array is written, src/core/node.c:2524-2531. -/
def ready (t : Targets) : M (Option Targets) :=
  if t.taken.length = t.size then expand t else pure (some t)

/-- The loop that collects the ancestors that listen, src/core/node.c:2498-2550; `true` at its end, `false`
if the array could not grow. -/
def collect : List Nat → Targets → M (Bool × Targets)
  | [], t => pure (true, t)
  | x :: xs, t => do
    let u ← ready t
    match u with
    | none => pure (false, t)
    | some u =>
      if u.taken.length < u.size then
        ref x
        collect xs { u with taken := u.taken ++ [x] }
      else crash .overrun

/-- What is left of `_dom_node_dispatch_event`, src/core/node.c:2456-2649, when the listeners are left out: the
array is filled and emptied. -/
def dispatchEvent (hear : List Nat) : M (Option Exc) := do
  let (ok, t) ← collect hear { array := none, size := 0, taken := [] }
  unrefAll t.taken.reverse
  unrefOpt t.array
  pure (if ok then none else some .noMem)

/-- One mutation event: `_dom_mutation_event_create`, src/events/mutation_event.c:19-28, `_dom_mutation_event_init`,
:167-188, the dispatch, and `_dom_mutation_event_finalise`, :50-63, as called by
`__dom_dispatch_characterdata_modified_event`, src/events/dispatch.c:176-206, and
`__dom_dispatch_subtree_modified_event`, :216-245. -/
def raise (type : Nat) (related prev new : Option Nat) (hear : List Nat) : M (Option Exc) := do
  let e ← malloc
  match e with
  | none => pure (some .noMem)
  | some e =>
    ref type
    refOpt related
    refOpt prev
    refOpt new
    ref type
    unref type
    let r ← dispatchEvent hear
    unrefOpt related
    unrefOpt prev
    unrefOpt new
    unref type
    unref e
    pure r

/-- `_dom_dispatch_characterdata_modified_event`, src/events/dispatch.c:176-206. -/
def raiseChars (p : Place) (t : Text) (new : Str) : M (Option Exc) :=
  raise p.typeChars (some t.block) (some t.value.addr) (some new.addr) p.hearChars

/-- `_dom_dispatch_subtree_modified_event` at the parent, src/events/dispatch.c:216-245; without a parent
nothing is raised. -/
def raiseTree (p : Place) : M (Option Exc) :=
  match p.parent with
  | none => pure none
  | some q => raise p.typeTree (some q) none none p.hearTree

/-- `dom_string_concat`, src/core/string.c:546-588, `dom_string_insert`, :663-741, `dom_string_replace`, :756-844,
and `dom_string_substr`, :602-647, of characters that are there: one request for the string and one for its bytes. -/
def newString (data : List Nat) : M (Option Str) := do
  let s ← createString
  match s with
  | .ok a => pure (some { addr := a, data := data })
  | .error _ => pure none

/-- What a changing function returns: its error, if any, and the node afterwards. -/
abbrev Ret := Option Exc × Text

/-- The end of the changing functions, src/core/characterdata.c:255-262, :317-324, :385-392, :451-458,
when the new value is a new string. -/
def store (p : Place) (t : Text) (new : Str) : M Ret := do
  unref t.value.addr
  let r ← raiseTree p
  pure (r, { t with value := new })

/-- `_dom_characterdata_set_data`, src/core/characterdata.c:124-152. -/
def setData (p : Place) (t : Text) (d : Str) : M Ret :=
  if p.readonly then pure (some .noModificationAllowed, t)
  else do
    let r ← raiseChars p t d
    match r with
    | some e => pure (some e, t)
    | none =>
      unref t.value.addr
      ref d.addr
      let r ← raiseTree p
      pure (r, { t with value := d })

/-- `_dom_characterdata_append_data`, src/core/characterdata.c:228-263. -/
def appendData (p : Place) (t : Text) (d : Str) : M Ret :=
  if p.readonly then pure (some .noModificationAllowed, t)
  else do
    let s ← newString (t.value.data ++ d.data)
    match s with
    | none => pure (some .noMem, t)
    | some temp =>
      let r ← raiseChars p t temp
      match r with
      | some e =>
        unref temp.addr
        pure (some e, t)
      | none => store p t temp

/-- The end of `insert_data`, `delete_data` and `replace_data`, src/core/characterdata.c:305-324, :373-392 and
:439-458: unlike `append_data` they keep the new string when the event is refused. -/
def storeNew (p : Place) (t : Text) (data : List Nat) : M Ret := do
  let s ← newString data
  match s with
  | none => pure (some .noMem, t)
  | some temp =>
    let r ← raiseChars p t temp
    match r with
    | some e => pure (some e, t)
    | none => store p t temp

/-- `(int32_t) x < 0`, src/core/characterdata.c:291, :354 and :423. -/
def neg (x : Nat) : Bool := decide (2147483648 ≤ x)

/-- `_dom_characterdata_insert_data`, src/core/characterdata.c:277-325. -/
def insertData (p : Place) (t : Text) (offset : Nat) (d : Str) : M Ret :=
  if p.readonly then pure (some .noModificationAllowed, t)
  else if neg offset then pure (some .indexSize, t)
  else if offset > t.value.data.length then pure (some .indexSize, t)
  else storeNew p t (t.value.data.take offset ++ d.data ++ t.value.data.drop offset)

/-- `_dom_characterdata_replace_data`, src/core/characterdata.c:408-459; also `_dom_characterdata_delete_data`,
:339-393, which is the same with the empty string. -/
def replaceData (p : Place) (t : Text) (offset count : Nat) (d : Str) : M Ret :=
  if p.readonly then pure (some .noModificationAllowed, t)
  else if neg offset || neg count then pure (some .indexSize, t)
  else if offset > t.value.data.length then pure (some .indexSize, t)
  else
    let stop := if offset + count ≥ t.value.data.length then t.value.data.length else offset + count
    storeNew p t (t.value.data.take offset ++ d.data ++ t.value.data.drop stop)

/-- `_dom_characterdata_delete_data`, src/core/characterdata.c:339-393. -/
def deleteData (p : Place) (t : Text) (offset count : Nat) : M Ret := replaceData p t offset count p.empty

/-- `_dom_text_create`, src/core/text.c:75-101, with `_dom_node_initialise`, src/core/node.c:148-214. -/
def createText (name : Nat) (value : Str) : M (Option Text) := do
  let b ← malloc
  match b with
  | none => pure none
  | some b =>
    ref name
    ref value.addr
    pure (some { block := b, name := name, value := value })

/-- The last reference to a text node without a parent is given back: `_dom_text_destroy`, src/core/text.c:111-118,
through `_dom_node_finalise`, src/core/node.c:224-298. -/
def destroyText (t : Text) : M Unit := do
  unref t.value.addr
  unref t.name
  unref t.block

/-- The rest of `splitText` once the new node is there, src/core/text.c:217-229. -/
def splitRest (p : Place) (t res : Text) (offset : Nat) : M (Except Exc Text × Text) := do
  let (e, t') ← deleteData p t offset (t.value.data.length - offset)
  match e with
  | some e =>
    destroyText res
    pure (.error e, t')
  | none => pure (.ok res, t')

/-- `_dom_text_split_text`, src/core/text.c:180-230, for a text short enough that its length is not negative
as an `int32_t`. -/
def splitText (p : Place) (t : Text) (offset : Nat) : M (Except Exc Text × Text) :=
  if p.readonly then pure (.error .noModificationAllowed, t)
  else if t.value.data.length ≤ offset then pure (.error .indexSize, t)
  else do
    let s ← newString (t.value.data.drop offset)
    match s with
    | none => pure (.error .noMem, t)
    | some value =>
      let res ← createText t.name value
      match res with
      | none =>
        unref value.addr
        pure (.error .noMem, t)
      | some res =>
        unref value.addr
        splitRest p t res offset

/-- A sibling of a text node: a text node with its value, an element, comment or processing instruction (which
ends the text), or a CDATA section (which is passed over).  Entity references are left out. -/
inductive Sibling
  | text (value : Str)
  | wall
  | passed

/-- The text node at which `walk_logic_adjacent_text_in_order` stops, src/core/text.c:366-376 and :436-456: the
first one before a boundary. -/
def nearest : List Sibling → Option Str
  | [] => none
  | .text v :: _ => some v
  | .wall :: _ => none
  | .passed :: rest => nearest rest

/-- The left walk of `walk_logic_adjacent_text`, src/core/text.c:382-413 with `*ret` still `NULL` and :486-494:
a reference to the value of the nearest text. -/
def lookLeft (left : List Sibling) : M (Option Str) :=
  match nearest left with
  | none => pure none
  | some v => do
    ref v.addr
    ref v.addr
    unref v.addr
    pure (some v)

/-- The text itself, src/core/text.c:496-516.  On an error `*ret` has been given back. -/
def lookSelf (t : Text) (sofar : Option Str) : M (Option Str) := do
  ref t.value.addr
  match sofar with
  | none => pure (some t.value)
  | some v =>
    let s ← newString (v.data ++ t.value.data)
    unref t.value.addr
    unref v.addr
    pure s

/-- The right walk, src/core/text.c:382-413 and :526-534.  If the strings cannot be put together, the reference to
the value of the text on the right is kept. -/
def lookRight (right : List Sibling) (sofar : Str) : M (Option Str) :=
  match nearest right with
  | none => pure (some sofar)
  | some v => do
    ref v.addr
    let s ← newString (sofar.data ++ v.data)
    match s with
    | none =>
      unref sofar.addr
      pure none
    | some s =>
      unref sofar.addr
      unref v.addr
      pure (some s)

/-- `_dom_text_get_whole_text`, src/core/text.c:254-258 and :470-537 with `COLLECT`; `none` is `DOM_NO_MEM_ERR`. -/
def wholeText (left : List Sibling) (t : Text) (right : List Sibling) : M (Option Str) := do
  let a ← lookLeft left
  let b ← lookSelf t a
  match b with
  | none => pure none
  | some b => lookRight right b

/-- `_dom_merge_adjacent_text`, src/core/node.c:2271-2291: the text collected from `n`, whose left neighbour is `t`
itself, is appended to `t`. -/
def mergeText (p : Place) (t n : Text) (right : List Sibling) : M Ret := do
  let s ← wholeText [.text t.value] n right
  match s with
  | none => pure (some .noMem, t)
  | some s =>
    let (e, t') ← appendData p t s
    match e with
    | some e => pure (some e, t')
    | none =>
      unref s.addr
      pure (none, t')

end Dom.Oom.Chars
