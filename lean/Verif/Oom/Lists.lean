import Verif.Oom.Doctype
import Verif.Cache.Model
/-!
# Node lists when memory may run out

`_dom_document_get_nodelist`, `_dom_nodelist_create`, `dom_nodelist_ref`, `dom_nodelist_unref` and `_dom_document_remove_nodelist`, request by request, for one document.

Simplified: strings are lists of characters; the links between the cells of `doc->nodelists` are an order (Verif/Cache/Model.lean has the pointers); the counts do not wrap around; giving back the last
reference to a node or document does nothing else (Verif/Tree/Life.lean).
-/
namespace Dom.Oom.Lists

open Dom.Oom
open Dom.Oom.Chars (Str)
open Dom.Cache (LType)

/-- `struct dom_doc_nl`, src/core/document.c:37-42, with its `struct dom_nodelist`, src/core/nodelist.c:26-49: the addresses of both, and the fields. -/
structure NList where
  cell : Nat
  block : Nat
  type : LType
  root : Nat
  name : Option Str
  ns : Option Str
  lname : Option Str
  refcnt : Nat

/-- What is asked for: the arguments of `_dom_document_get_nodelist`, src/core/document.c:1328-1331. -/
structure Query where
  type : LType
  root : Nat
  name : Option Str
  ns : Option Str
  lname : Option Str

/-- The characters of a string that may be `NULL`, which counts as empty, src/core/string.c:215-219. -/
def text (s : Option Str) : List Nat := match s with
  | none => []
  | some s => s.data

/-- Letters of ASCII in lower case, `dolower`, src/core/string.c:242-247. -/
def lower (c : Nat) : Nat := if 65 ≤ c ∧ c ≤ 90 then c + 32 else c

/-- `dom_string_isequal`, src/core/string.c:209-237. -/
def equal (s t : Option Str) : Bool := text s == text t

/-- `dom_string_caseless_isequal`, src/core/string.c:256-299. -/
def equalCaseless (s t : Option Str) : Bool := (text s).map lower == (text t).map lower

/-- `_dom_nodelist_match`, src/core/nodelist.c:416-444. -/
def listMatch (q : Query) (l : NList) : Bool :=
  if l.root ≠ q.root then false
  else if l.type ≠ q.type then false
  else match l.type with
    | .children => true
    | .byName => equal l.name q.name
    | .byNs => equal l.ns q.ns && equal l.lname q.lname
    | .byNameCaseless => equalCaseless l.name q.name
    | .byNsCaseless => equalCaseless l.ns q.ns && equalCaseless l.lname q.lname

/-- The strings of the union that a type uses, src/core/nodelist.c:86-124 and :159-174. -/
def strings (t : LType) (name ns lname : Option Str) : List Nat :=
  match t with
  | .children => []
  | .byName => (name.map (·.addr)).toList
  | .byNameCaseless => (name.map (·.addr)).toList
  | .byNs => (ns.map (·.addr)).toList ++ (lname.map (·.addr)).toList
  | .byNsCaseless => (ns.map (·.addr)).toList ++ (lname.map (·.addr)).toList

/-- A type that needs a name, src/core/nodelist.c:87-88. -/
def byName (t : LType) : Bool := match t with
  | .byName => true
  | .byNameCaseless => true
  | _ => false

/-- `_dom_nodelist_create`, src/core/nodelist.c:68-131. -/
def listCreate (doc : Nat) (q : Query) (cell : Nat) : M (Except Exc NList) := do
  let b ← malloc
  match b with
  | none => pure (.error .noMem)
  | some b => do
    ref doc
    ref q.root
    if byName q.type && q.name.isNone then crash .assertFail
    else do
      refAll (strings q.type q.name q.ns q.lname)
      pure (.ok { cell := cell, block := b, type := q.type, root := q.root, name := q.name, ns := q.ns, lname := q.lname, refcnt := 1 })

/-- The count of the list at `b` changes, src/core/nodelist.c:141 and :157. -/
def setCount (b : Nat) (f : Nat → Nat) (ls : List NList) : List NList := ls.map fun l => if l.block = b then { l with refcnt := f l.refcnt } else l

/-- src/core/document.c:1349-1366: a new list in a new cell. -/
def newList (doc : Nat) (q : Query) (ls : List NList) : M (Except Exc Nat × List NList) := do
  let c ← malloc
  match c with
  | none => pure (.error .noMem, ls)
  | some c => do
    let l ← listCreate doc q c
    match l with
    | .error e => do
      unref c
      pure (.error e, ls)
    | .ok l => pure (.ok l.block, l :: ls)

/-- `_dom_document_get_nodelist`, src/core/document.c:1328-1378: the list and the lists of the document afterwards. -/
def getList (doc : Nat) (q : Query) (ls : List NList) : M (Except Exc Nat × List NList) :=
  match ls.find? (listMatch q) with
  | some l => pure (.ok l.block, setCount l.block (· + 1) ls)
  | none => newList doc q ls

/-- `dom_nodelist_ref`, src/core/nodelist.c:138-142; a list that is not there cannot be used. -/
def refList (b : Nat) (ls : List NList) : M (List NList) :=
  match ls.find? (fun l => l.block = b) with
  | none => crash .useAfterFree
  | some _ => pure (setCount b (· + 1) ls)

/-- The list at `b`, and the others: the search of `_dom_document_remove_nodelist`, src/core/document.c:1391-1408. -/
def takeOut (b : Nat) : List NList → Option (NList × List NList)
  | [] => none
  | l :: ls => if l.block = b then some (l, ls) else (takeOut b ls).map fun x => (x.1, l :: x.2)

/-- What the last reference to a list gives back: src/core/nodelist.c:158-188 and src/core/document.c:1411. -/
def releaseList (doc : Nat) (l : NList) : M Unit := do
  unrefAll (strings l.type l.name l.ns l.lname)
  unref l.root
  unref l.cell
  unref l.block
  unref doc

/-- `dom_nodelist_unref`, src/core/nodelist.c:152-190. -/
def unrefList (doc : Nat) (b : Nat) (ls : List NList) : M (List NList) :=
  match takeOut b ls with
  | none => crash .useAfterFree
  | some (l, rest) =>
    if l.refcnt - 1 = 0 then do
      releaseList doc l
      pure rest
    else pure (setCount b (· - 1) ls)

end Dom.Oom.Lists
