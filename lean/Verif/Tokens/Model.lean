import Verif.Attr.Model
/-!
# Model of the token lists, src/core/tokenlist.c

The element is represented by the value of the one attribute the list is about.  `dom_element_set_attribute` and
`dom_element_remove_attribute` are the functions modelled in `Verif/Attr/Model.lean`; what is used of them here - the new value is
read back, DOMAttrModified is raised once with the new value (NULL on removal, nothing when there is no attribute) - is proved there
(`C36_set`, `C36_remove_partial`, `C55_set`, `C55_remove`).  The attribute accepts strings and the element is not
read-only.  The listener of the list hears every such event (it was registered at the element by `dom_tokenlist_create`).
Reference counts of strings are not modelled.
-/
namespace Dom.Tokens

open Dom.Str (DStr Bytes)

/-- `struct dom_tokenlist`, src/core/tokenlist.c:28-39, and the value of the attribute.  `entries` are the first `len` elements of the
array. -/
structure TList where
  val : Option DStr := none
  lastSet : Option DStr := none
  needsParse : Bool := true
  entries : List DStr := []
  alloc : Nat := 0
  deriving DecidableEq, Repr

/-- A modelled function. -/
abbrev T (α : Type) := TList → Out (α × TList)

/-- `dom_tokenlist_create`, src/core/tokenlist.c:283-323, on an element whose attribute has this value. -/
def create (val : Option DStr) : TList := { val := val }

/-- `_dom_tokenlist_handle_attrmodified`, src/core/tokenlist.c:43-91, for an event about the list's element and
attribute. -/
def handle (new : Option DStr) (t : TList) : TList :=
  if t.lastSet.isSome && Str.isEqual t.lastSet new then t else { t with needsParse := true }

/-- `dom_element_set_attribute` with the list's attribute; a NULL value reads back as the empty string
(src/core/attr.c:441-524). -/
def setAttribute (v : Option DStr) (t : TList) : TList := { handle v t with val := some (v.getD Str.emptyString) }

/-- `dom_element_remove_attribute` with the list's attribute. -/
def removeAttribute (t : TList) : TList :=
  match t.val with
  | none => t
  | some _ => { handle none t with val := none }

/-- `_dom_tokenlist_make_room`, src/core/tokenlist.c:93-106 (`realloc` succeeds and the capacity stays below 2^32). -/
def makeRoom (t : TList) : TList := if t.entries.length = t.alloc then { t with alloc := t.alloc + 4 } else t

/-- The runs of bytes other than ' ' among the first `remaining` bytes, in the loops of src/core/tokenlist.c:140-154 (counted) and
176-212; the same runs as in `Attr.classLoop`.  `*pos` may be read one byte behind the string, which is the terminating NUL. -/
def runs (data : Bytes) (remaining : Nat) : List Bytes := Attr.classLoop [] (data.take remaining)

/-- One entry of the second loop, src/core/tokenlist.c:186-206. -/
def addEntry (alloc : Nat) (entries : List DStr) (run : Bytes) : Out (List DStr) :=
  if entries.any fun x => Str.isEqual (some (Str.createInterned run)) (some x) then .ok entries
  else if entries.length < alloc then .ok (entries ++ [Str.createInterned run]) else .fault .overrun

/-- The second loop, src/core/tokenlist.c:176-212. -/
def addEntries (alloc : Nat) : List Bytes → List DStr → Out (List DStr)
  | [], entries => .ok entries
  | r :: rs, entries => do
    let e ← addEntry alloc entries r
    addEntries alloc rs e

/-- `_dom_tokenlist_reparse`, src/core/tokenlist.c:108-219.  `dom_string_length` counts characters. -/
def reparse : T Unit := fun t =>
  if t.needsParse = false then .ok ((), t)
  else
    match t.val with
    | none => .ok ((), { t with entries := [], needsParse := false })
    | some v => do
      let remaining ← Str.length (some v)
      let rs := runs v.data remaining
      if rs.length = 0 then .ok ((), { t with entries := [], needsParse := false })
      else do
        let alloc := if t.alloc < rs.length then rs.length else t.alloc
        let es ← addEntries alloc rs []
        .ok ((), { t with entries := es, alloc := alloc, needsParse := false })

/-- The sum of the lengths, src/core/tokenlist.c:239-240. -/
def countChars : List DStr → Out Nat
  | [] => .ok 0
  | e :: es => do
    let n ← Str.length (some e)
    let m ← countChars es
    .ok (n + m)

/-- What is written to the buffer, src/core/tokenlist.c:246-251. -/
def joined : List DStr → Out Bytes
  | [] => .ok []
  | e :: es => do
    let n ← Str.length (some e)
    let r ← joined es
    .ok (e.data.take n ++ 32 :: r)

/-- `_dom_tokenlist_reify`, src/core/tokenlist.c:221-266.  The size of the buffer is computed with 32 bits. -/
def reify : T Unit := fun t =>
  if t.entries.length = 0 then
    .ok ((), setAttribute (some Str.emptyString) { t with lastSet := some Str.emptyString })
  else do
    let n ← countChars t.entries
    if 4294967296 ≤ n + t.entries.length then .fault .overrun
    else do
      let b ← joined t.entries
      let out := Str.createInterned (b.take (n + t.entries.length - 1))
      .ok ((), setAttribute (some out) { t with lastSet := some out })

/-- `dom_tokenlist_get_length`, src/core/tokenlist.c:381-393. -/
def getLength : T Nat := fun t => do
  let (_, t) ← reparse t
  .ok (t.entries.length, t)

/-- `_dom_tokenlist_item`, src/core/tokenlist.c:404-420. -/
def item (i : Nat) : T (Option DStr) := fun t => do
  let (_, t) ← reparse t
  .ok (if t.entries.length ≤ i then none else t.entries[i]?, t)

/-- `dom_tokenlist_get_value`, src/core/tokenlist.c:429-434. -/
def getValue : T (Option DStr) := fun t => .ok (t.val, t)

/-- `dom_tokenlist_contains`, src/core/tokenlist.c:460-481. -/
def contains (value : Option DStr) : T Bool := fun t => do
  let (_, t) ← reparse t
  .ok (t.entries.any fun x => Str.isEqual value (some x), t)

/-- `dom_tokenlist_add`, src/core/tokenlist.c:490-513. -/
def add (value : DStr) : T Unit := fun t => do
  let (present, t) ← contains (some value) t
  if present then .ok ((), t)
  else
    let t := makeRoom t
    if t.entries.length < t.alloc then reify { t with entries := t.entries ++ [value] } else .fault .overrun

/-- `dom_tokenlist_remove`, src/core/tokenlist.c:522-547. -/
def remove (value : Option DStr) : T Unit := fun t => do
  let (_, t) ← reparse t
  reify { t with entries := t.entries.eraseP fun x => Str.isEqual value (some x) }

end Dom.Tokens
