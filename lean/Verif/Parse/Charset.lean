import Verif.Str.Model
/-!
# bindings/hubbub/parser.c: the encoding of the input, the quirks mode, and errors

Hubbub is not part of libdom: what `hubbub_parser_read_charset` answers is an argument of the call.  Documents and parsers
are numbered in the order of their creation and are not destroyed here (see Verif/Parse/Session.lean for that); `malloc` does not
fail (see Verif/Oom/Parser.lean).  Simplified: a string object is its bytes and its reference count, and is never reused.
-/
namespace Dom.Parse.Charset
open Dom.Str (Bytes)

/-- A `const char *`: the address and the characters. -/
structure CStr where
  addr : Nat
  text : Bytes
  deriving DecidableEq, Repr

/-- `dom_hubbub_encoding_source`, bindings/hubbub/parser.h:28-32. -/
inductive Source
  | header | detected | meta_
  deriving DecidableEq, Repr

/-- `dom_document_quirks_mode`, include/dom/core/document.h:41-45, and `hubbub_quirks_mode`. -/
inductive Quirks
  | none | limited | full
  deriving DecidableEq, Repr

/-- The fields `encoding` and `quirks` of a document, src/core/document.h:59 and :63. -/
structure Doc where
  encoding : Option Nat
  quirks : Quirks
  deriving DecidableEq, Repr

/-- The fields `doc`, `encoding` and `encoding_source` of a parser, bindings/hubbub/parser.c:37-55. -/
structure Parser where
  doc : Nat
  encoding : Option CStr
  source : Source
  deriving DecidableEq, Repr

/-- The string objects with their reference counts, the documents and the parsers. -/
structure St where
  strs : List (Bytes × Nat)
  docs : List Doc
  parsers : List Parser
  deriving DecidableEq, Repr

/-- A new string object, `dom_string_create_interned`. -/
def St.newStr (s : St) (b : Bytes) : St × Nat := ({ s with strs := s.strs ++ [(b, 1)] }, s.strs.length)

/-- `dom_string_ref`, include/dom/core/string.h:25-30. -/
def St.ref (s : St) : Option Nat → Out St
  | none => .ok s
  | some a =>
    match s.strs[a]? with
    | some (b, n + 1) => .ok { s with strs := s.strs.set a (b, n + 2) }
    | _ => .fault .useAfterFree

/-- `dom_string_unref`, include/dom/core/string.h:36-41. -/
def St.unref (s : St) : Option Nat → Out St
  | none => .ok s
  | some a =>
    match s.strs[a]? with
    | some (b, n + 1) => .ok { s with strs := s.strs.set a (b, n) }
    | _ => .fault .useAfterFree

/-- A document that is there. -/
def St.doc (s : St) (d : Nat) : Out Doc :=
  match s.docs[d]? with
  | some x => .ok x
  | none => .fault .useAfterFree

/-- A parser that is there. -/
def St.parser (s : St) (p : Nat) : Out Parser :=
  match s.parsers[p]? with
  | some x => .ok x
  | none => .fault .useAfterFree

/-- `UTF-8`, src/core/document.c:134-135. -/
def utf8 : Bytes := [85, 84, 70, 45, 56]

/-- `Windows-1252`, bindings/hubbub/parser.c:1086. -/
def windows1252 : CStr := ⟨0, [87, 105, 110, 100, 111, 119, 115, 45, 49, 50, 53, 50]⟩

/-- A new document, src/core/document.c:134-135 and :165. -/
def St.newDoc (s : St) : St :=
  let r := s.newStr utf8
  { r.1 with docs := r.1.docs ++ [⟨some r.2, .none⟩] }

/-- `_set_document_encoding`, bindings/hubbub/parser.c:57-62. -/
def St.setDocumentEncoding (s : St) (d : Nat) (charset : Option CStr) : Out St :=
  match charset with
  | none => .ok s
  | some c => do
    let r := s.newStr c.text
    let x ← r.1.doc d
    .ok { r.1 with docs := r.1.docs.set d { x with encoding := some r.2 } }

/-- The fields that depend on `params->enc`, bindings/hubbub/parser.c:793-799 and :926-932. -/
def fresh (d : Nat) (enc : Option CStr) : Parser := ⟨d, enc, if enc.isSome then .header else .detected⟩

/-- `dom_hubbub_parser_create`, bindings/hubbub/parser.c:766-883. -/
def St.create (s : St) (enc : Option CStr) : Out St := do
  let d := s.docs.length
  let s := s.newDoc
  let s := { s with parsers := s.parsers ++ [fresh d enc] }
  s.setDocumentEncoding d enc

/-- `dom_hubbub_fragment_parser_create`, bindings/hubbub/parser.c:895-996. -/
def St.createFragment (s : St) (d : Nat) (enc : Option CStr) : Out St := do
  let _ ← s.doc d
  .ok { s with parsers := s.parsers ++ [fresh d enc] }

/-- What `change_encoding` tells Hubbub. -/
inductive Reply
  | ok | encodingChange
  deriving DecidableEq, Repr

/-- `change_encoding`, bindings/hubbub/parser.c:656-693; `name` and `confident` are what `hubbub_parser_read_charset` gives. -/
def St.changeEncoding (s : St) (p : Nat) (charset name : CStr) (confident : Bool) : Out (St × Reply) := do
  let x ← s.parser p
  if x.encoding.isSome then .ok (s, .ok)
  else if confident then do
    let s := { s with parsers := s.parsers.set p { x with encoding := some charset, source := .detected } }
    let s ← s.setDocumentEncoding x.doc (some charset)
    .ok (s, .ok)
  else do
    let s := { s with parsers := s.parsers.set p { x with encoding := some charset, source := .meta_ } }
    let s ← s.setDocumentEncoding x.doc (some charset)
    .ok (s, if charset.addr = name.addr then .ok else .encodingChange)

/-- `_dom_document_set_quirks_mode`, src/core/document.c:1599-1604. -/
def St.setQuirks (s : St) (d : Nat) (q : Quirks) : Out St := do
  let x ← s.doc d
  .ok { s with docs := s.docs.set d { x with quirks := q } }

/-- `set_quirks_mode`, bindings/hubbub/parser.c:634-654. -/
def St.parserQuirks (s : St) (p : Nat) (q : Quirks) : Out St := do
  let x ← s.parser p
  s.setQuirks x.doc q

/-- `dom_hubbub_parser_get_encoding`, bindings/hubbub/parser.c:1080-1087. -/
def St.getEncoding (s : St) (p : Nat) : Out (CStr × Source) := do
  let x ← s.parser p
  .ok (match x.encoding with
    | some e => e
    | none => windows1252, x.source)

/-- `_dom_document_get_input_encoding`, src/core/document.c:906-912. -/
def St.inputEncoding (s : St) (d : Nat) : Out (St × Option Nat) := do
  let x ← s.doc d
  let s ← s.ref x.encoding
  .ok (s, x.encoding)

/-- `_dom_document_set_input_encoding`, src/core/document.c:921-928. -/
def St.setInputEncoding (s : St) (d : Nat) (e : Option Nat) : Out St := do
  let x ← s.doc d
  let s ← s.unref x.encoding
  let s ← s.ref e
  .ok { s with docs := s.docs.set d { x with encoding := e } }

/-- The calls: of the client, and those that Hubbub makes for a parser. -/
inductive Call
  | newDoc
  | create (enc : Option CStr)
  | createFragment (d : Nat) (enc : Option CStr)
  | changeEncoding (p : Nat) (charset name : CStr) (confident : Bool)
  | parserQuirks (p : Nat) (q : Quirks)
  | setQuirks (d : Nat) (q : Quirks)
  | inputEncoding (d : Nat)
  | setInputEncoding (d : Nat) (e : Option Nat)
  /-- the client makes a string, or gives up a reference -/
  | newStr (b : Bytes)
  | unref (a : Nat)
  deriving Repr

/-- What a call returns. -/
inductive Ans
  | none
  | reply (r : Reply)
  | str (a : Option Nat)
  deriving DecidableEq, Repr

/-- One call. -/
def Call.run (s : St) : Call → Out (St × Ans)
  | .newDoc => .ok (s.newDoc, .none)
  | .create e => do
    let s ← s.create e
    .ok (s, .none)
  | .createFragment d e => do
    let s ← s.createFragment d e
    .ok (s, .none)
  | .changeEncoding p c n b => do
    let r ← s.changeEncoding p c n b
    .ok (r.1, .reply r.2)
  | .parserQuirks p q => do
    let s ← s.parserQuirks p q
    .ok (s, .none)
  | .setQuirks d q => do
    let s ← s.setQuirks d q
    .ok (s, .none)
  | .inputEncoding d => do
    let r ← s.inputEncoding d
    .ok (r.1, .str r.2)
  | .setInputEncoding d e => do
    let s ← s.setInputEncoding d e
    .ok (s, .none)
  | .newStr b =>
    let r := s.newStr b
    .ok (r.1, .str (some r.2))
  | .unref a => do
    let s ← s.unref (some a)
    .ok (s, .none)

/-! ## Errors -/

/-- `DOM_HUBBUB_HUBBUB_ERR`, bindings/hubbub/errors.h:20. -/
def hubbubErr : Nat := 65536

/-- The errors that a function of Hubbub returned become those of the binding, bindings/hubbub/parser.c:1042-1046, :1061-1070 and
:1103-1107: `DOM_HUBBUB_HUBBUB_ERR | err`. -/
def fromHubbub (err : Nat) : Nat := if err = 0 then 0 else hubbubErr ||| err

/-- `complete_script`, bindings/hubbub/parser.c:695-711: what the script callback of the client returned, as an error of Hubbub.  `unknown` is
`HUBBUB_UNKNOWN`; the numbers are `int`s that are not negative and below 2^17. -/
def completeScript (unknown err : Nat) : Nat :=
  if err = 0 then 0
  else if err &&& hubbubErr ≠ 0 then err &&& (131071 - hubbubErr)
  else unknown

end Dom.Parse.Charset
