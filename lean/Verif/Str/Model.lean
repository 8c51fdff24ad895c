import Verif.Basic
/-!
# Model of src/core/string.c

A DOM string is a byte list together with the flag telling whether the bytes live in libwapcaplet
(`DOM_STRING_INTERNED`) or in the string itself (`DOM_STRING_CDATA`), src/core/string.c:21-46.
Reference counts of strings are not modelled: strings are immutable values, `dom_string_ref`
returns the same value (src/core/string.c has no operation that changes the content of a string).
-/
namespace Dom.Str

abbrev Bytes := List UInt8

/-- `dom_string_internal`, src/core/string.c:34-46.  `interned` is the `type` field. -/
structure DStr where
  data : Bytes
  interned : Bool := false
  deriving DecidableEq, Repr

/-- `empty_string`, src/core/string.c:51-55. -/
def emptyString : DStr := { data := [], interned := false }

/-- `dom_string_create`, src/core/string.c:91-123 (`malloc` succeeds). -/
def create (b : Bytes) : DStr := { data := b, interned := false }

/-- `dom_string_create_interned`, src/core/string.c:139-166 (`lwc_intern_string` succeeds). -/
def createInterned (b : Bytes) : DStr := { data := b, interned := true }

/-- `dom_string_intern`, src/core/string.c:175-200: the content is kept, the representation changes. -/
def intern (s : DStr) : DStr := { s with interned := true }

/-! ## libparserutils UTF-8 primitives (not in /repo, modelled from their documented contract) -/

/-- Lead byte classification of `parserutils_charset_utf8_*`: number of bytes of the sequence
announced by a lead byte, `none` for a continuation byte or 0xFE/0xFF
(tests `(c & 0x80) == 0`, `(c & 0xE0) == 0xC0`, ... written as ranges). -/
def leadLen (b : UInt8) : Option Nat :=
  let n := b.toNat
  if n < 0x80 then some 1
  else if n < 0xC0 then none
  else if n < 0xE0 then some 2
  else if n < 0xF0 then some 3
  else if n < 0xF8 then some 4
  else if n < 0xFC then some 5
  else if n < 0xFE then some 6
  else none

/-- `(b & 0xC0) == 0x80`. -/
def isCont (b : UInt8) : Bool := 0x80 ≤ b.toNat && b.toNat < 0xC0

/-- Payload bits of the lead byte. -/
def leadBits (b : UInt8) : Nat :=
  let n := b.toNat
  if n < 0x80 then n
  else if n < 0xE0 then n - 0xC0
  else if n < 0xF0 then n - 0xE0
  else if n < 0xF8 then n - 0xF0
  else if n < 0xFC then n - 0xF8
  else n - 0xFC

/-- Accumulate `k` continuation bytes: `c <<= 6; c |= t & 0x3F`. -/
def contBits : Nat → Nat → Bytes → Option Nat
  | 0, acc, _ => some acc
  | _ + 1, _, [] => none
  | k + 1, acc, b :: bs => if isCont b then contBits k (acc * 64 + (b.toNat - 0x80)) bs else none

/-- Smallest code point that needs `k` bytes. -/
def minOfLen : Nat → Nat
  | 2 => 0x80
  | 3 => 0x800
  | 4 => 0x10000
  | 5 => 0x200000
  | 6 => 0x4000000
  | _ => 0

/-- `parserutils_charset_utf8_to_ucs4(s, len, &c, &clen)`: `none` is any error code
(`PARSERUTILS_NEEDDATA`, `PARSERUTILS_INVALID`).  `s` is the rest of the buffer, `len` the length
argument, which need not be the length of the rest of the buffer. Overlong sequences, surrogates and
U+FFFE/U+FFFF are rejected. -/
def toUcs4 (s : Bytes) (len : Nat) : Option (Nat × Nat) :=
  match s with
  | [] => none
  | b :: rest =>
    match leadLen b with
    | none => none
    | some k =>
      if len < k then none
      else
        match contBits (k - 1) (leadBits b) rest with
        | none => none
        | some c =>
          if c < minOfLen k || (0xD800 ≤ c && c ≤ 0xDFFF) || c == 0xFFFE || c == 0xFFFF then none
          else some (c, k)

/-- `parserutils_charset_utf8_length`: steps from lead byte to lead byte. `fuel` bounds the loop; the byte
length is enough since each step advances. -/
def utf8LengthAux : Nat → Bytes → Nat → Option Nat
  | _, [], l => some l
  | 0, _ :: _, _ => none
  | fuel + 1, b :: bs, l =>
    match leadLen b with
    | none => none
    | some k => utf8LengthAux fuel (bs.drop (k - 1)) (l + 1)

/-- see `utf8LengthAux` -/
def utf8Length (s : Bytes) : Option Nat := utf8LengthAux s.length s 0

/-- `parserutils_charset_utf8_next(s, len, off, &next)`: `none` is `PARSERUTILS_BADPARM` (`off >= len`);
otherwise skip the byte at `off` and the continuation bytes after it. -/
def utf8Next (s : Bytes) (len off : Nat) : Option Nat :=
  if len ≤ off then none
  else
    let t := (s.take len).drop off
    match t with
    | [] => none
    | b :: rest =>
      if isCont b then some (off + (t.takeWhile isCont).length)
      else some (off + 1 + (rest.takeWhile isCont).length)

/-- `parserutils_charset_utf8_prev(s, off, &prev)`: step back over continuation bytes,
`while (off != 0 && (s[--off] & 0xC0) == 0x80);`. -/
def utf8Prev (s : Bytes) : Nat → Nat
  | 0 => 0
  | off + 1 =>
    match s[off]? with
    | none => off
    | some b => if isCont b then utf8Prev s off else off

/-! ## string.c -/

/-- `dom_string_isequal`, src/core/string.c:209-237.  Two interned strings are compared by
`lwc_string_isequal`, whose contract is equality of contents. -/
def isEqual (s1 s2 : Option DStr) : Bool :=
  let is1 := s1.getD emptyString
  let is2 := s2.getD emptyString
  if is1.interned && is2.interned then is1.data == is2.data
  else if is1.data.length != is2.data.length then false
  else is1.data == is2.data

/-- `dolower`, src/core/string.c:242-247. -/
def dolower (c : UInt8) : UInt8 :=
  if 0x41 ≤ c.toNat ∧ c.toNat ≤ 0x5A then c + 0x20 else c

/-- The comparison loop of `dom_string_caseless_isequal`, src/core/string.c:289-296. -/
def caselessLoop : Bytes → Bytes → Bool
  | a :: as, b :: bs => if dolower a != dolower b then false else caselessLoop as bs
  | _, _ => true

/-- `dom_string_caseless_isequal`, src/core/string.c:256-299.  For interned strings libwapcaplet compares the
interned lower-cased forms. -/
def caselessIsEqual (s1 s2 : Option DStr) : Bool :=
  let is1 := s1.getD emptyString
  let is2 := s2.getD emptyString
  if is1.interned && is2.interned then is1.data.map dolower == is2.data.map dolower
  else if is1.data.length != is2.data.length then false
  else caselessLoop is1.data is2.data

/-- `dom_string_lwc_isequal`, src/core/string.c:311-334; the `lwc_string` is represented by its bytes. -/
def lwcIsEqual (s1 : Option DStr) (s2 : Option Bytes) : Bool :=
  match s1, s2 with
  | some is1, some w =>
    if is1.interned then is1.data == w
    else if is1.data.length != w.length then false
    else is1.data == w
  | _, _ => false

/-- `dom_string_caseless_lwc_isequal`, src/core/string.c:346-383. -/
def caselessLwcIsEqual (s1 : Option DStr) (s2 : Option Bytes) : Bool :=
  match s1, s2 with
  | some is1, some w =>
    if is1.interned then is1.data.map dolower == w.map dolower
    else if is1.data.length != w.length then false
    else caselessLoop is1.data w
  | _, _ => false

/-- Loop of `dom_string_index`, src/core/string.c:405-418.  The rest of the string is `s` (so `slen` is its
length); `fuel` bounds the number of iterations. -/
def indexLoop (chr : Nat) : Nat → Bytes → Nat → Nat
  | _, [], _ => u32max
  | 0, _ :: _, _ => u32max
  | fuel + 1, b :: bs, index =>
    match toUcs4 (b :: bs) (b :: bs).length with
    | none => u32max
    | some (c, clen) =>
      if c = chr then index
      else indexLoop chr fuel ((b :: bs).drop clen) (u32 (index + 1))

/-- `dom_string_index`, src/core/string.c:393-421 (`NULL` is dereferenced by `dom_string_data`). -/
def index (str : Option DStr) (chr : Nat) : Out Nat :=
  match str with
  | none => .fault .nullDeref
  | some s => .ok (indexLoop chr s.data.length s.data 0)

/-- `dom_string_length`, src/core/string.c:471-486: 0 for a malformed string. The `size_t` count is returned as
`uint32_t`. -/
def length (str : Option DStr) : Out Nat :=
  match str with
  | none => .fault .nullDeref
  | some s => .ok (match utf8Length s.data with | none => 0 | some n => u32 n)

/-- Loop of `dom_string_rindex`, src/core/string.c:442-460. `clen` is the value left by the previous iteration and
is (mis)used in the length argument at :447. -/
def rindexLoop (s : Bytes) (chr : Nat) : Nat → Nat → Nat → Nat → Nat
  | _, 0, _, _ => u32max
  | 0, _ + 1, _, _ => u32max
  | fuel + 1, slen + 1, clen, index =>
    let coff := utf8Prev s (slen + 1)
    match toUcs4 (s.drop coff) (sub64 (slen + 1) clen) with
    | none => u32max
    | some (c, clen') =>
      if c = chr then index
      else rindexLoop s chr fuel (sub64 (slen + 1) clen') clen' (sub32 index 1)

/-- `dom_string_rindex`, src/core/string.c:430-463. -/
def rindex (str : Option DStr) (chr : Nat) : Out Nat := do
  match str with
  | none => .fault .nullDeref
  | some s =>
    let len ← length str
    .ok (rindexLoop s.data chr s.data.length s.data.length 0 len)

/-- The loop of `dom_string_at`, src/core/string.c:508-520: returns `i` and the rest of the string.
`parserutils_charset_utf8_char_byte_length` reads a table indexed by the lead byte: a byte that leads no sequence
counts as one byte. -/
def atLoop (index1 : Nat) : Nat → Bytes → Nat → Nat × Bytes
  | _, [], i => (i, [])
  | 0, s@(_ :: _), i => (i, s)
  | fuel + 1, b :: bs, i =>
    let clen := (leadLen b).getD 1
    let i := u32 (i + 1)
    if i = index1 then (i, b :: bs) else atLoop index1 fuel ((b :: bs).drop clen) i

/-- `dom_string_at`, src/core/string.c:495-533. -/
def «at» (str : Option DStr) (index : Nat) : Out Nat :=
  match str with
  | none => .fault .nullDeref
  | some s =>
    let (i, rest) := atLoop (u32 (index + 1)) s.data.length s.data 0
    if i = u32 (index + 1) then
      match toUcs4 rest rest.length with
      | none => .exc .badCode
      | some (c, _) => .ok c
    else .exc .domstringSize

/-- `dom_string_concat`, src/core/string.c:546-588 (both arguments asserted non-NULL). -/
def concat (s1 s2 : Option DStr) : Out DStr :=
  match s1, s2 with
  | some a, some b => .ok (create (a.data ++ b.data))
  | _, _ => .fault .assertFail

/-- The offset loops `while (i > 0) { err = utf8_next(s, slen, b, &b); ...; i--; }`,
src/core/string.c:623-630, 636-643, 692-701, 781-789, 795-803. -/
def skip (s : Bytes) (slen : Nat) : Nat → Nat → Option Nat
  | 0, b => some b
  | i + 1, b =>
    match utf8Next s slen b with
    | none => none
    | some b' => skip s slen i b'

/-- `dom_string_substr`, src/core/string.c:602-647.  `slen` is a `size_t` handed to the `uint32_t` parameter of
`parserutils_charset_utf8_next`. -/
def substr (str : Option DStr) (i1 i2 : Nat) : Out DStr :=
  let s := (str.getD emptyString).data
  let slen := u32 s.length
  let n2 := sub32 i2 i1
  match skip s slen i1 0 with
  | none => .exc .noMem
  | some b1 =>
    match skip s slen n2 b1 with
    | none => .exc .noMem
    | some b2 => .ok (create ((s.drop b1).take (b2 - b1)))

/-- `dom_string_insert`, src/core/string.c:663-741.  Byte lengths are stored in `uint32_t` (:669); if
`tlen + slen + 1` wraps, the buffer of :711 is smaller than what is copied into it. -/
def insert (target source : Option DStr) (offset : Nat) : Out DStr := do
  let t := (target.getD emptyString).data
  let tlen := u32 t.length
  match source with
  | none => .fault .nullDeref
  | some src =>
    let slen := u32 src.data.length
    let clen ← length (some (target.getD emptyString))
    if offset > clen then .exc .indexSize
    else
      match (if offset = clen then some tlen else skip t tlen offset 0) with
      | none => .exc .noMem
      | some ins =>
        if tlen + slen + 1 ≥ 2 ^ 32 then .fault .overrun
        else .ok (create (t.take ins ++ src.data.take slen ++ (t.drop ins).take (tlen - ins)))

/-- `dom_string_replace`, src/core/string.c:756-844. -/
def replace (target source : Option DStr) (i1 i2 : Nat) : Out DStr :=
  let t := (target.getD emptyString).data
  let tlen := u32 t.length
  match source with
  | none => .fault .nullDeref
  | some src =>
    let slen := u32 src.data.length
    let n2 := sub32 i2 i1
    match skip t tlen i1 0 with
    | none => .exc .noMem
    | some b1 =>
      match skip t tlen n2 b1 with
      | none => .exc .noMem
      | some b2 =>
        if tlen + slen - (b2 - b1) + 1 ≥ 2 ^ 32 then .fault .overrun
        else .ok (create (t.take b1 ++ src.data.take slen ++ (t.drop b2).take (tlen - b2)))

/-- `dom_string_hash`, src/core/string.c:852-867. -/
def hash (s : DStr) : BitVec 32 :=
  s.data.foldl (fun h b => (h * 0x01000193#32) ^^^ (b.toBitVec.setWidth 32)) 0x811c9dc5#32

/-- Byte step of the loop in `dom_string_toupper`, src/core/string.c:949-955. -/
def doupper (c : UInt8) : UInt8 :=
  if 0x61 ≤ c.toNat ∧ c.toNat ≤ 0x7A then c - 0x20 else c

/-- `dom_string_toupper`, src/core/string.c:932-966. -/
def toUpper (source : DStr) (asciiOnly : Bool) : Out DStr :=
  if asciiOnly = false then .exc .notSupported
  else .ok { data := source.data.map doupper, interned := source.interned }

/-- `dom_string_tolower`, src/core/string.c:978-1034; `lwc_string_tolower` lower-cases ASCII letters. -/
def toLower (source : DStr) (asciiOnly : Bool) : Out DStr :=
  if asciiOnly = false then .exc .notSupported
  else if source.interned = false then .ok (create (source.data.map dolower))
  else
    let l := source.data.map dolower
    if source.data == l then .ok source else .ok (createInterned l)

/-- The white-space bytes tested at src/core/string.c:1063-1065 (and three more times below). -/
def isWs (b : UInt8) : Bool :=
  b == 0x20 || b == 0x09 || b == 0x0A || b == 0x0D || b == 0x0C

/-- `enum dom_whitespace_op`, include/dom/core/string.h: the flags tested by `op & ...`. -/
structure WsOp where
  leading : Bool
  trailing : Bool
  collapse : Bool
  deriving DecidableEq, Repr

/-- Main copy loop of `dom_string_whitespace_op`, src/core/string.c:1072-1091. -/
def wsCopy (collapse : Bool) : Bytes → Bytes
  | [] => []
  | b :: bs =>
    if collapse && isWs b then 0x20 :: wsCopy collapse (bs.dropWhile isWs)
    else b :: wsCopy collapse bs
termination_by l => l.length
decreasing_by
  · simp only [List.length_cons]
    have := (List.dropWhile_suffix (l := bs) isWs).length_le
    omega
  · simp

/-- `dom_string_whitespace_op`, src/core/string.c:1037-1118.  With an empty input the code allocates a zero-sized
buffer and goes on (the early assignment at :1048-1050 does not return); the result is the empty string. -/
def whitespaceOp (s : DStr) (op : WsOp) : DStr :=
  let src := if op.leading then s.data.dropWhile isWs else s.data
  let temp := wsCopy op.collapse src
  let temp := if op.trailing then (temp.reverse.dropWhile isWs).reverse else temp
  { data := temp, interned := s.interned }

end Dom.Str
