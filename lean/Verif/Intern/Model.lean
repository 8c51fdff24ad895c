import Verif.Str.Model
/-!
# How strings are stored, src/core/string.c:20-237, 308-333, 540-590, 890-1118, include/dom/core/string.h:18-48

`Verif.Str.Model` treats a string as its bytes.  Here it is an object with a reference count whose bytes are in a buffer of its own or in a string of
libwapcaplet.  libwapcaplet is not part of /repo: `lwcIntern`, `lwcRef`, `lwcUnref`, `lwcLower` and the comparison of two of its strings by address
follow its documented contract.
-/
namespace Dom.Intern

open Dom.Str (Bytes WsOp)

abbrev Addr := Nat

/-- The union and the type tag of `dom_string_internal`, src/core/string.c:24-46. -/
inductive Body
  | cdata (ptr : Addr) (len : Nat)
  | interned (l : Addr)
  deriving DecidableEq, Repr

/-- `dom_string_internal`, src/core/string.c:34-46; `refcnt` is in include/dom/core/string.h:19-21. -/
structure SObj where
  refcnt : Nat
  body : Body
  deriving DecidableEq, Repr

/-- `lwc_string` of libwapcaplet: bytes and a reference count (not part of /repo; the count is not bounded here). -/
structure LObj where
  bytes : Bytes
  refcnt : Nat
  deriving DecidableEq, Repr

/-- Memory: string objects, byte buffers, libwapcaplet's strings, and the number of addresses handed out by `malloc`. -/
structure Mem where
  strs : Addr → Option SObj
  bufs : Addr → Option Bytes
  lwcs : Addr → Option LObj
  fresh : Nat

/-- No string exists (not part of the code). -/
def Mem.empty : Mem := { strs := fun _ => none, bufs := fun _ => none, lwcs := fun _ => none, fresh := 0 }

/-- Replace the value at one address (not part of the code). -/
def upd {β : Type} (f : Nat → β) (a : Nat) (b : β) : Nat → β := fun x => if x = a then b else f x

/-- Reading a string object. -/
def rdStr (s : Mem) (a : Addr) : Out SObj :=
  match s.strs a with
  | some o => .ok o
  | none => .fault .useAfterFree

/-- Reading a libwapcaplet string. -/
def rdLwc (s : Mem) (l : Addr) : Out LObj :=
  match s.lwcs l with
  | some x => .ok x
  | none => .fault .useAfterFree

/-- Reading `n` bytes of a buffer. -/
def rdBuf (s : Mem) (p : Addr) (n : Nat) : Out Bytes :=
  match s.bufs p with
  | some b => if n ≤ b.length then .ok (b.take n) else .fault .overrun
  | none => .fault .useAfterFree

/-- `free` of a buffer. -/
def freeBuf (s : Mem) (p : Addr) : Out Mem :=
  match s.bufs p with
  | some _ => .ok { s with bufs := upd s.bufs p none }
  | none => .fault .useAfterFree

/-! ## libwapcaplet -/

/-- The live libwapcaplet string with these bytes. -/
def lwcFind (s : Mem) (b : Bytes) : Option Addr :=
  (List.range s.fresh).find? fun l => (s.lwcs l).map LObj.bytes == some b

/-- `lwc_string_ref`. -/
def lwcRef (s : Mem) (l : Addr) : Out Mem := do
  let x ← rdLwc s l
  .ok { s with lwcs := upd s.lwcs l (some { x with refcnt := x.refcnt + 1 }) }

/-- `lwc_string_unref`: the last reference destroys the string. -/
def lwcUnref (s : Mem) (l : Addr) : Out Mem := do
  let x ← rdLwc s l
  .ok { s with lwcs := upd s.lwcs l (if x.refcnt - 1 = 0 then none else some { x with refcnt := x.refcnt - 1 }) }

/-- `lwc_intern_string`: the live string with these bytes, referenced once more, or a new one. -/
def lwcIntern (s : Mem) (b : Bytes) : Out (Mem × Addr) :=
  match lwcFind s b with
  | some l => do
    let s ← lwcRef s l
    .ok (s, l)
  | none => .ok ({ s with lwcs := upd s.lwcs s.fresh (some { bytes := b, refcnt := 1 }), fresh := s.fresh + 1 }, s.fresh)

/-- `lwc_string_tolower`: the interned lower-case form, referenced for the caller. -/
def lwcLower (s : Mem) (l : Addr) : Out (Mem × Addr) := do
  let x ← rdLwc s l
  lwcIntern s (x.bytes.map Str.dolower)

/-! ## string.c -/

/-- `dom_string_ref`, include/dom/core/string.h:25-30, for a string that is not `NULL`. -/
def strRef (s : Mem) (a : Addr) : Out Mem := do
  let o ← rdStr s a
  .ok { s with strs := upd s.strs a (some { o with refcnt := u32 (o.refcnt + 1) }) }

/-- The release of the bytes in `dom_string_destroy`, src/core/string.c:62-71. -/
def dropBody (s : Mem) : Body → Out Mem
  | .interned l => lwcUnref s l
  | .cdata p _ => freeBuf s p

/-- `dom_string_destroy`, src/core/string.c:57-75. -/
def strDestroy (s : Mem) (a : Addr) : Out Mem := do
  let o ← rdStr s a
  if o.refcnt ≠ 0 then .fault .assertFail
  else do
    let s ← dropBody s o.body
    .ok { s with strs := upd s.strs a none }

/-- `dom_string_unref`, include/dom/core/string.h:36-41, for a string that is not `NULL`. -/
def strUnref (s : Mem) (a : Addr) : Out Mem := do
  let o ← rdStr s a
  let s := { s with strs := upd s.strs a (some { o with refcnt := sub32 o.refcnt 1 }) }
  if sub32 o.refcnt 1 = 0 then strDestroy s a else .ok s

/-- `dom_string_create`, src/core/string.c:91-123: the buffer is terminated by a zero byte.  The argument is the bytes the caller passes, none for
`NULL`. -/
def strCreate (s : Mem) (b : Bytes) : Out (Mem × Addr) :=
  .ok ({ s with
    strs := upd s.strs s.fresh (some { refcnt := 1, body := .cdata (s.fresh + 1) b.length })
    bufs := upd s.bufs (s.fresh + 1) (some (b ++ [0]))
    fresh := s.fresh + 2 }, s.fresh)

/-- `dom_string_create_interned`, src/core/string.c:139-167. -/
def strCreateInterned (s : Mem) (b : Bytes) : Out (Mem × Addr) := do
  let (s, l) ← lwcIntern s b
  .ok ({ s with strs := upd s.strs s.fresh (some { refcnt := 1, body := .interned l }), fresh := s.fresh + 1 }, s.fresh)

/-- The part of `dom_string_intern` for a string that is not interned yet, src/core/string.c:181-195. -/
def internBody (s : Mem) (a : Addr) (o : SObj) : Out (Mem × Addr) :=
  match o.body with
  | .interned l => .ok (s, l)
  | .cdata p n => do
    let b ← rdBuf s p n
    let (s, l) ← lwcIntern s b
    let s ← freeBuf s p
    .ok ({ s with strs := upd s.strs a (some { o with body := .interned l }) }, l)

/-- `dom_string_intern`, src/core/string.c:176-200. -/
def strIntern (s : Mem) (a : Addr) : Out (Mem × Addr) := do
  let o ← rdStr s a
  let (s, l) ← internBody s a o
  let s ← lwcRef s l
  .ok (s, l)

/-- `dom_string_byte_length` and that many bytes from `dom_string_data`, src/core/string.c:898-920. -/
def strBytes (s : Mem) (a : Addr) : Out Bytes := do
  let o ← rdStr s a
  match o.body with
  | .cdata p n => rdBuf s p n
  | .interned l => do
    let x ← rdLwc s l
    .ok x.bytes

/-- The bytes of an argument of `dom_string_isequal`: `NULL` is replaced by `empty_string`, src/core/string.c:49-55, 213-217. -/
def argBytes (s : Mem) : Option Addr → Out Bytes
  | none => .ok []
  | some a => strBytes s a

/-- The libwapcaplet string of an argument, when it is an interned string. -/
def argLwc (s : Mem) : Option Addr → Out (Option Addr)
  | none => .ok none
  | some a => do
    let o ← rdStr s a
    match o.body with
    | .cdata _ _ => .ok none
    | .interned l => .ok (some l)

/-- `dom_string_isequal`, src/core/string.c:209-237: two interned strings are compared by address (`lwc_string_isequal`). -/
def strIsEqual (s : Mem) (a b : Option Addr) : Out Bool := do
  let l ← argLwc s a
  let m ← argLwc s b
  match l, m with
  | some l, some m => .ok (l == m)
  | _, _ => do
    let x ← argBytes s a
    let y ← argBytes s b
    .ok (if x.length ≠ y.length then false else x == y)

/-- `dom_string_lwc_isequal`, src/core/string.c:308-333, for arguments that are not `NULL`. -/
def strLwcIsEqual (s : Mem) (a : Addr) (m : Addr) : Out Bool := do
  let l ← argLwc s (some a)
  match l with
  | some l => .ok (l == m)
  | none => do
    let x ← strBytes s a
    let y ← rdLwc s m
    .ok (if x.length ≠ y.bytes.length then false else x == y.bytes)

/-- `dom_string_concat`, src/core/string.c:546-588. -/
def strConcat (s : Mem) (a b : Addr) : Out (Mem × Addr) := do
  let x ← strBytes s a
  let y ← strBytes s b
  strCreate s (x ++ y)

/-- The choice between `dom_string_create` and `dom_string_create_interned` by the type of the source, src/core/string.c:958-962, 1109-1113. -/
def createLike (s : Mem) (o : SObj) (b : Bytes) : Out (Mem × Addr) :=
  match o.body with
  | .cdata _ _ => strCreate s b
  | .interned _ => strCreateInterned s b

/-- `dom_string_toupper` with `ascii_only`, src/core/string.c:932-967.  The scratch copy is not represented. -/
def strUpper (s : Mem) (a : Addr) : Out (Mem × Addr) := do
  let o ← rdStr s a
  let x ← strBytes s a
  createLike s o (x.map Str.doupper)

/-- The result of `dom_string_tolower` for an interned string, src/core/string.c:1019-1029. -/
def lowerResult (s : Mem) (a l m : Addr) : Out (Mem × Addr) :=
  if l = m then do
    let s ← strRef s a
    .ok (s, a)
  else do
    let y ← rdLwc s m
    strCreateInterned s y.bytes

/-- `dom_string_tolower` with `ascii_only`, src/core/string.c:978-1034. -/
def strLower (s : Mem) (a : Addr) : Out (Mem × Addr) := do
  let o ← rdStr s a
  match o.body with
  | .cdata _ _ => do
    let x ← strBytes s a
    strCreate s (x.map Str.dolower)
  | .interned l => do
    let (s, m) ← lwcLower s l
    let (s, r) ← lowerResult s a l m
    let s ← lwcUnref s m
    .ok (s, r)

/-- The early assignment of `dom_string_whitespace_op`, src/core/string.c:1048-1050: it does not return. -/
def emptyRef (s : Mem) (a : Addr) (x : Bytes) : Out Mem :=
  if x.length = 0 then strRef s a else .ok s

/-- `dom_string_whitespace_op`, src/core/string.c:1037-1118.  The loops over the scratch buffer are `Str.whitespaceOp`. -/
def strWhitespace (s : Mem) (a : Addr) (op : WsOp) : Out (Mem × Addr) := do
  let o ← rdStr s a
  let x ← strBytes s a
  let s ← emptyRef s a x
  createLike s o (Str.whitespaceOp { data := x, interned := false } op).data

end Dom.Intern
