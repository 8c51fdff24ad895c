import Verif.Oom.Chars
/-!
# Document types when memory may run out

`dom_implementation_create_document_type`, what it calls, and the functions of src/core/document_type.c, request by request.

Simplified: strings have no malformed UTF-8, so `dom_string_substr` fails only if memory is refused; the prefixes `xml` and `xmlns` of src/utils/namespace.c are there
(Verif/Oom/PropsNames.lean has their creation); a document type has no children, user data, namespace or value.
-/
namespace Dom.Oom.Doctype
open Dom.Oom
open Dom.Oom.Chars (Str newString)

/-- `struct dom_document_type`, src/core/document_type.c:23-28: its block, the strings `name` and `prefix` of its node part, and its identifiers. -/
structure Doctype where
  block : Nat
  name : Str
  pre : Option Str
  pub : Option Str
  sys : Option Str

/-- The address of a string that may be `NULL`. -/
def at_ (s : Option Str) : Option Nat := s.map (·.addr)

/-- `dom_string_create`, src/core/string.c:91-126, or `dom_string_substr`, :602-647, with the error as a result. -/
def make (data : List Nat) : M (Except Exc Str) := do
  let s ← newString data
  match s with
  | some s => pure (.ok s)
  | none => pure (.error .noMem)

/-- A string is made unless there is nothing to make it of, src/core/implementation.c:85-94 and :96-106. -/
def makeOpt : Option (List Nat) → M (Except Exc (Option Str))
  | none => pure (.ok none)
  | some d => do
      let s ← make d
      match s with
      | .ok s => pure (.ok (some s))
      | .error e => pure (.error e)

/-- The second half of a name with a colon, src/utils/namespace.c:275-281. -/
def splitRest (p : Str) (rest : List Nat) : M (Except Exc (Option Str × Str)) := do
  let l ← make rest
  match l with
  | .error e => do
      unref p.addr
      pure (.error e)
  | .ok l => pure (.ok (some p, l))

/-- `_dom_namespace_split_qname`, src/utils/namespace.c:249-285. -/
def splitQname (q : Str) : M (Except Exc (Option Str × Str)) :=
  match q.data.idxOf? 58 with
  | none => do
      ref q.addr
      pure (.ok (none, q))
  | some c => do
      let p ← make (q.data.take c)
      match p with
      | .error e => pure (.error e)
      | .ok p => splitRest p (q.data.drop (c + 1))

/-- `_dom_document_type_initialise`, src/core/document_type.c:111-148, with `_dom_node_initialise`, src/core/node.c:148-214, which references the name and
the prefix and cannot fail. -/
def initialise (b : Nat) (q : Str) (pub sys : Option Str) : M (Except Exc Doctype) := do
  let s ← splitQname q
  match s with
  | .error e => pure (.error e)
  | .ok (p, l) => do
      ref l.addr
      refOpt (at_ p)
      refOpt (at_ pub)
      refOpt (at_ sys)
      unrefOpt (at_ p)
      unref l.addr
      pure (.ok { block := b, name := l, pre := p, pub := pub, sys := sys })

/-- `_dom_document_type_create`, src/core/document_type.c:64-90. -/
def create (q : Str) (pub sys : Option Str) : M (Except Exc Doctype) := do
  let b ← malloc
  match b with
  | none => pure (.error .noMem)
  | some b => do
      let d ← initialise b q pub sys
      match d with
      | .error e => do
          unref b
          pure (.error e)
      | .ok d => pure (.ok d)

/-- The strings that `dom_implementation_create_document_type` made are given back, src/core/implementation.c:114-118, and on errors :89-91 and
:100-103.  Simplified: on errors the local name is given back before the prefix. -/
def giveBack (sys pub pre : Option Str) (l q : Str) : M Unit := do
  unrefOpt (at_ sys)
  unrefOpt (at_ pub)
  unrefOpt (at_ pre)
  unref l.addr
  unref q.addr

/-- src/core/implementation.c:108-120. -/
def finish (q : Str) (pre : Option Str) (l : Str) (pub sys : Option Str) : M (Except Exc Doctype) := do
  let d ← create q pub sys
  giveBack sys pub pre l q
  pure d

/-- src/core/implementation.c:96-120. -/
def withSystem (q : Str) (pre : Option Str) (l : Str) (pub : Option Str) (sys : Option (List Nat)) : M (Except Exc Doctype) := do
  let s ← makeOpt sys
  match s with
  | .error e => do
      giveBack none pub pre l q
      pure (.error e)
  | .ok s => finish q pre l pub s

/-- src/core/implementation.c:85-120. -/
def withPublic (q : Str) (pre : Option Str) (l : Str) (pub sys : Option (List Nat)) : M (Except Exc Doctype) := do
  let p ← makeOpt pub
  match p with
  | .error e => do
      giveBack none none pre l q
      pure (.error e)
  | .ok p => withSystem q pre l p sys

/-- src/core/implementation.c:79-120. -/
def withName (q : Str) (pub sys : Option (List Nat)) : M (Except Exc Doctype) := do
  let s ← splitQname q
  match s with
  | .error e => do
      unref q.addr
      pure (.error e)
  | .ok (p, l) => withPublic q p l pub sys

/-- `dom_implementation_create_document_type`, src/core/implementation.c:60-121. -/
def createDocumentType (qname pub sys : Option (List Nat)) : M (Except Exc Doctype) :=
  match qname with
  | none => pure (.error .invalidCharacter)
  | some q => do
      let q ← make q
      match q with
      | .error e => pure (.error e)
      | .ok q => withName q pub sys

/-- `_dom_document_type_destroy`, src/core/document_type.c:99-108, with `_dom_document_type_finalise`, :151-161, and `_dom_node_finalise`, src/core/node.c:224-298. -/
def destroy (d : Doctype) : M Unit := do
  unrefOpt (at_ d.pub)
  unrefOpt (at_ d.sys)
  unrefOpt (at_ d.pre)
  unref d.name.addr
  unref d.block

/-- The last part of a name, src/core/node.c:398-413. -/
def nameRest (temp : Str) (d : Doctype) : M (Except Exc Str) := do
  let n ← make (temp.data ++ d.name.data)
  unref temp.addr
  pure n

/-- `_dom_document_type_get_name`, src/core/document_type.c:182-186: `_dom_node_get_node_name`, src/core/node.c:363-414. -/
def getName (d : Doctype) : M (Except Exc Str) :=
  match d.pre with
  | none => do
      ref d.name.addr
      pure (.ok d.name)
  | some p => do
      let colon ← make [58]
      match colon with
      | .error e => pure (.error e)
      | .ok colon => do
          let temp ← make (p.data ++ colon.data)
          unref colon.addr
          match temp with
          | .error e => pure (.error e)
          | .ok temp => nameRest temp d

/-- `_dom_document_type_get_public_id`, src/core/document_type.c:247-257. -/
def getPublic (d : Doctype) : M (Option Str) := do
  refOpt (at_ d.pub)
  pure d.pub

/-- `_dom_document_type_get_system_id`, src/core/document_type.c:270-280. -/
def getSystem (d : Doctype) : M (Option Str) := do
  refOpt (at_ d.sys)
  pure d.sys

end Dom.Oom.Doctype
