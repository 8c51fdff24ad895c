import Verif.Oom.Attr

/-!
# Token lists, src/core/tokenlist.c, when memory runs out

The token lists of `Verif.Tokens` again, with the references the list holds and with requests for memory
that may be refused.  Simplified: words are numbers, and a string is its list of words (what the bytes of a
value are split into is part of `Verif.Tokens`; here two values are equal if their words are).  The element
is not read-only and the name of the attribute is valid.
-/
namespace Dom.Oom.Tok

open Dom.Oom

/-- A `dom_string` and the words in it. -/
structure Str where
  addr : Nat
  words : List Nat
  deriving DecidableEq, Repr

/-- One element of `entries`, src/core/tokenlist.c:36: a string that is one word. -/
structure Entry where
  addr : Nat
  word : Nat
  deriving DecidableEq, Repr

/-- `struct dom_tokenlist`, src/core/tokenlist.c:28-39.  `block` is the structure itself, `reg` the
`listener_entry` (src/events/event_target.h:24-31) that keeps its listener at the element, `typ` the string
`_memo_domattrmodified` and `empty` the string `_memo_empty` of the document; `array` is the block
`entries` points to and `entries` its first `len` elements.  `value` is the value of the attribute, which
belongs to the element: the value of the only text child of the attribute. -/
structure TL where
  block : Nat
  listener : Nat
  reg : Nat
  ele : Nat
  name : Nat
  typ : Nat
  empty : Nat
  array : Option Nat := none
  alloc : Nat := 0
  entries : List Entry := []
  last : Option Str := none
  value : Option Str
  dirty : Bool := true
  deriving DecidableEq, Repr

/-- What a call returns: the error code (`none`: `DOM_NO_ERR`) and the list after it. -/
abbrev Ret := Option Exc × TL

/-- The fail path of `dom_tokenlist_create`, src/core/tokenlist.c:317-323. -/
def createFail (block ele name : Nat) (listener : Option Nat) : M (Except Exc TL) := do
  unrefOpt listener
  unref ele
  unref name
  unref block
  pure (.error .noMem)

/-- `dom_tokenlist_create`, src/core/tokenlist.c:283-324, with `dom_event_listener_create`
(src/events/event_listener.c:22-36) and `_dom_event_target_add_event_listener`
(src/events/event_target.c:72-97). -/
def create (ele name typ empty : Nat) (value : Option Str) : M (Except Exc TL) := do
  let block ← malloc
  match block with
  | none => pure (.error .noMem)
  | some block =>
    ref ele
    ref name
    let listener ← malloc
    match listener with
    | none => createFail block ele name none
    | some listener =>
      let reg ← malloc
      match reg with
      | none => createFail block ele name (some listener)
      | some reg =>
        ref typ
        ref listener
        pure (.ok { block, listener, reg, ele, name, typ, empty, value })

/-- `_dom_tokenlist_handle_attrmodified`, src/core/tokenlist.c:43-91, for an event about the attribute of the
list whose new value is `v`. -/
def heard (w : TL) (v : Str) : TL :=
  if w.last.map (·.words) = some v.words then w else { w with dirty := true }

/-- The change of the value in `_dom_attr_set_value`, src/core/attr.c:566-590: the text that held the old
value is destroyed, the new one holds `v`. -/
def replaceValue (w : TL) (v : Str) : M TL := do
  ref v.addr
  unrefOpt (w.value.map (·.addr))
  pure { w with value := some v }

/-- `_dom_element_set_attr`, src/core/element.c:1642-1760.  Simplified: the requests for memory form three
groups, of which each counts as one request here.  The first are those made before the listeners hear of the
change (for a new attribute also the attribute itself, which is undone), :1664-1677 and :1695-1720; the
second those made after it and before the value is in place, :1679-1681 and :1722-1738; the third those of
the event sent afterwards, :1683-1687 and :1752-1756. -/
def setAttribute (w : TL) (v : Str) : M Ret := do
  let one ← ask
  if one then
    let two ← ask
    if two then
      let w ← replaceValue (heard w v) v
      let three ← ask
      pure (if three then (none, w) else (some .noMem, w))
    else pure (some .noMem, heard w v)
  else pure (some .noMem, w)

/-- `realloc` of the array, src/core/tokenlist.c:97-102 and :165-172.  Simplified: the block stays where it
is. -/
def resize (w : TL) (n : Nat) : M (Bool × TL) := do
  let ok ← ask
  if ok then
    match w.array with
    | some _ => pure (true, { w with alloc := n })
    | none => do
      let a ← fresh
      pure (true, { w with array := some a, alloc := n })
  else pure (false, w)

/-- `_dom_tokenlist_make_room`, src/core/tokenlist.c:93-106. -/
def makeRoom (w : TL) : M (Bool × TL) :=
  if w.entries.length = w.alloc then resize w (w.alloc + 4) else pure (true, w)

/-- `list->entries[list->len] = temp; list->len++`, src/core/tokenlist.c:204-205 and :508. -/
def put (w : TL) (e : Entry) : M TL :=
  if w.entries.length < w.alloc then pure { w with entries := w.entries ++ [e] } else crash .overrun

/-- The second loop of `_dom_tokenlist_reparse`, src/core/tokenlist.c:175-213. -/
def intern : List Nat → TL → M Ret
  | [], w => pure (none, w)
  | x :: xs, w => do
    let s ← createString
    match s with
    | .error e => pure (some e, w)
    | .ok a =>
      if w.entries.any (·.word == x) then
        unref a
        intern xs w
      else
        let w ← put w ⟨a, x⟩
        intern xs w

/-- The end of `_dom_tokenlist_reparse`, src/core/tokenlist.c:189-192 and :215-218. -/
def reparsed (v : Str) (p : Ret) : M Ret := do
  unref v.addr
  match p with
  | (some e, w) => pure (some e, w)
  | (none, w) => pure (none, { w with dirty := false })

/-- `_dom_tokenlist_reparse`, src/core/tokenlist.c:163-218, once the words are counted: the array is enlarged
if it is too small, then filled. -/
def fill (v : Str) (w : TL) : M Ret := do
  let g ← (if w.alloc < v.words.length then resize w v.words.length else pure (true, w))
  if g.1 then
    let p ← intern v.words g.2
    reparsed v p
  else
    unref v.addr
    pure (some .noMem, g.2)

/-- `_dom_tokenlist_reparse`, src/core/tokenlist.c:108-219.  `dom_element_get_attribute` gives a reference
to the value of the text (src/core/attr.c:449-456) and makes no request. -/
def reparse (w : TL) : M Ret :=
  if w.dirty then do
    unrefAll (w.entries.reverse.map (·.addr))
    let w := { w with entries := [] }
    match w.value with
    | none => pure (none, { w with dirty := false })
    | some v => do
      ref v.addr
      if v.words = [] then
        unref v.addr
        pure (none, { w with dirty := false })
      else fill v w
  else pure (none, w)

/-- `_dom_tokenlist_reify`, src/core/tokenlist.c:221-266. -/
def reify (w : TL) : M Ret :=
  match w.entries with
  | [] => do
    unrefOpt (w.last.map (·.addr))
    ref w.empty
    setAttribute { w with last := some ⟨w.empty, []⟩ } ⟨w.empty, []⟩
  | _ :: _ => do
    let buffer ← malloc
    match buffer with
    | none => pure (some .noMem, w)
    | some b =>
      let s ← createString
      unref b
      match s with
      | .error e => pure (some e, w)
      | .ok s => do
        unrefOpt (w.last.map (·.addr))
        setAttribute { w with last := some ⟨s, w.entries.map (·.word)⟩ } ⟨s, w.entries.map (·.word)⟩

/-- `dom_tokenlist_get_length`, src/core/tokenlist.c:381-393: the code, the length (`none`: not written) and
the list. -/
def getLength (w : TL) : M (Option Nat × Ret) := do
  let p ← reparse w
  match p with
  | (some e, w) => pure (none, some e, w)
  | (none, w) => pure (some w.entries.length, none, w)

/-- A reference to the entry found, or `NULL`, src/core/tokenlist.c:413-418. -/
def refEntry (e : Option Entry) : M Unit := refOpt (e.map (·.addr))

/-- `_dom_tokenlist_item`, src/core/tokenlist.c:404-420. -/
def item (w : TL) (i : Nat) : M (Option Entry × Ret) := do
  let p ← reparse w
  match p with
  | (some e, w) => pure (none, some e, w)
  | (none, w) => do
    refEntry w.entries[i]?
    pure (w.entries[i]?, none, w)

/-- `dom_tokenlist_contains`, src/core/tokenlist.c:460-481. -/
def contains (w : TL) (x : Nat) : M (Option Bool × Ret) := do
  let p ← reparse w
  match p with
  | (some e, w) => pure (none, some e, w)
  | (none, w) => pure (some (w.entries.any (·.word == x)), none, w)

/-- The part of `dom_tokenlist_add` for a word that is not there, src/core/tokenlist.c:504-512. -/
def append (w : TL) (s : Entry) : M Ret := do
  let g ← makeRoom w
  if g.1 then
    ref s.addr
    let w ← put g.2 s
    reify w
  else pure (some .noMem, g.2)

/-- `dom_tokenlist_add`, src/core/tokenlist.c:490-513. -/
def add (w : TL) (s : Entry) : M Ret := do
  let p ← contains w s.word
  match p with
  | (_, some e, w) => pure (some e, w)
  | (some true, none, w) => pure (none, w)
  | (_, none, w) => append w s

/-- The reference of the entry that is taken out, src/core/tokenlist.c:535. -/
def dropEntry (w : TL) (x : Nat) : M Unit := unrefOpt ((w.entries.find? (·.word == x)).map (·.addr))

/-- `dom_tokenlist_remove`, src/core/tokenlist.c:522-547.  If `_dom_tokenlist_reparse` fails the function
returns `false`, that is 0, which is `DOM_NO_ERR`, :530-531. -/
def remove (w : TL) (x : Nat) : M Ret := do
  let p ← reparse w
  match p with
  | (some _, w) => pure (none, w)
  | (none, w) => do
    dropEntry w x
    reify { w with entries := w.entries.eraseP (·.word == x) }

/-- The entries and the array in `dom_tokenlist_unref`, src/core/tokenlist.c:351-355. -/
def freeArray (w : TL) : M Unit :=
  if 0 < w.alloc then do
    unrefAll (w.entries.reverse.map (·.addr))
    unrefOpt w.array
  else pure ()

/-- `dom_tokenlist_unref` of the last reference, src/core/tokenlist.c:344-372, with
`_dom_event_target_remove_event_listener` (src/events/event_target.c:111-148), which finds the entry of the
listener at the element. -/
def release (w : TL) : M Unit := do
  freeArray w
  unref w.listener
  unref w.typ
  unref w.reg
  unref w.listener
  unrefOpt (w.last.map (·.addr))
  unref w.name
  unref w.ele
  unref w.block

/-! ## Clients -/

/-- What a client of one token list does.  `set` is `dom_element_set_attribute` or
`dom_tokenlist_set_value` (src/core/tokenlist.c:444-449) with one of its strings; `make` creates a string and
`drop` gives one back. -/
inductive Op
  | make (words : List Nat)
  | drop (s : Str)
  | length
  | item (i : Nat)
  | contains (x : Nat)
  | add (s : Str)
  | remove (x : Nat)
  | set (s : Str)
  deriving Repr

/-- Not part of the code: the list and the strings the client holds a reference to. -/
structure W where
  tl : TL
  mine : List Str

/-- What the client learns from a call. -/
inductive Ans
  | done
  | num (n : Nat)
  | word (x : Option Nat)
  | bool (b : Bool)
  | err (e : Exc)
  deriving DecidableEq, Repr

/-- The answer of a call that only returns a code. -/
def code : Option Exc → Ans
  | none => .done
  | some e => .err e

/-- One call.  A string the client does not hold is not passed on and not given back; `add` is called with a
string that is one word. -/
def step (w : W) : Op → M (Ans × W)
  | .make ws => do
    let s ← createString
    match s with
    | .error e => pure (.err e, w)
    | .ok a => pure (.done, { w with mine := ⟨a, ws⟩ :: w.mine })
  | .drop s =>
    if s ∈ w.mine then do
      unref s.addr
      pure (.done, { w with mine := w.mine.erase s })
    else pure (.done, w)
  | .length => do
    let p ← getLength w.tl
    match p with
    | (some n, _, tl) => pure (.num n, { w with tl })
    | (none, e, tl) => pure (code e, { w with tl })
  | .item i => do
    let p ← item w.tl i
    match p with
    | (_, some e, tl) => pure (.err e, { w with tl })
    | (some x, none, tl) => pure (.word (some x.word), { w with tl, mine := ⟨x.addr, [x.word]⟩ :: w.mine })
    | (none, none, tl) => pure (.word none, { w with tl })
  | .contains x => do
    let p ← contains w.tl x
    match p with
    | (some b, _, tl) => pure (.bool b, { w with tl })
    | (none, e, tl) => pure (code e, { w with tl })
  | .add s =>
    if s ∈ w.mine then
      match s.words with
      | [x] => do
        let p ← add w.tl ⟨s.addr, x⟩
        pure (code p.1, { w with tl := p.2 })
      | _ => pure (.done, w)
    else pure (.done, w)
  | .remove x => do
    let p ← remove w.tl x
    pure (code p.1, { w with tl := p.2 })
  | .set s =>
    if s ∈ w.mine then do
      let p ← setAttribute w.tl s
      pure (code p.1, { w with tl := p.2 })
    else pure (.done, w)

/-- A sequence of calls and their answers. -/
def run : List Op → W → M (List Ans × W)
  | [], w => pure ([], w)
  | o :: os, w => do
    let p ← step w o
    let q ← run os p.2
    pure (p.1 :: q.1, q.2)

end Dom.Oom.Tok
