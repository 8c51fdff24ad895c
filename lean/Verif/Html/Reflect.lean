import Verif.Attr.PropsTyped
/-!
# Reflected properties of HTML elements, src/html/html_element.c:359-650

`long` has 64 bits and conversions to 32-bit types are modulo 2^32 (true of the compilers the library is built with on 64-bit Unix
systems).  Integers are `Int`; `snprintf`, `strtol` and `strtoul` are modelled as the C standard describes them.
-/
namespace Dom.Html

open Dom.Attr
open Dom.Str (DStr Bytes)

/-- `dom_node_unref` of a pointer that may be NULL, include/dom/core/node.h:195-202. -/
def unrefOpt : Option Addr → M Unit
  | none => pure ()
  | some a => unrefAttr a

/-- `goto cleanup`: what follows is done after a failure too, and the failure is then returned. -/
def cleanup {α : Type} (m : M α) (after : M Unit) : M α := do
  let r ← M.attempt m
  after
  match r with
  | .ok x => pure x
  | .error e => M.throw e

/-- `dom_html_element_get_bool_property`, src/html/html_element.c:371-398. -/
def getBoolProp (e : Addr) (name : DStr) : M Bool := do
  let a ← getAttrNode e none name
  unrefOpt a
  pure a.isSome

/-- The removal, src/html/html_element.c:423-431. -/
def boolOff (e a : Addr) : M Unit := do
  let r ← removeAttributeNode e a
  unrefAttr r

/-- The installation of a new attribute, src/html/html_element.c:440-445. -/
def boolOn (e a : Addr) : M Unit := do
  let r ← setAttributeNode e a
  unrefOpt r

/-- `dom_html_element_set_bool_property`, src/html/html_element.c:410-455. -/
def setBoolProp (e : Addr) (name : DStr) (has : Bool) : M Unit := do
  let a ← getAttrNode e none name
  match a, has with
  | some a, false => cleanup (boolOff e a) (unrefAttr a)
  | none, true => do
    let el ← getElem e
    let a ← attrCreate el.owner name none none true
    cleanup (boolOn e a) (unrefAttr a)
  | a, _ => unrefOpt a

/-! ## Numbers in C -/

/-- `isspace` in the C locale. -/
def isSpace (b : UInt8) : Bool := b = 32 || (9 ≤ b && b ≤ 13)

/-- The value of a digit. -/
def digitOf (b : UInt8) : Option Nat :=
  if 48 ≤ b && b ≤ 57 then some (b.toNat - 48)
  else if 97 ≤ b && b ≤ 122 then some (b.toNat - 87)
  else if 65 ≤ b && b ≤ 90 then some (b.toNat - 55)
  else none

/-- The number the digits at the front are, in the base. -/
def digits (base : Nat) : Bytes → Nat → Nat
  | [], acc => acc
  | b :: r, acc =>
    match digitOf b with
    | some d => if d < base then digits base r (acc * base + d) else acc
    | none => acc

/-- The first byte is a hexadecimal digit. -/
def startsHex : Bytes → Bool
  | b :: _ => (match digitOf b with | some d => decide (d < 16) | none => false)
  | [] => false

/-- The magnitude with base 0: `0x` is hexadecimal, `0` octal, other digits decimal. -/
def magnitude : Bytes → Nat
  | 48 :: x :: r => if (x = 120 || x = 88) && startsHex r then digits 16 r 0 else digits 8 (x :: r) 0
  | s => digits 10 s 0

/-- White space, sign and magnitude: the subject of `strtol` and `strtoul` with base 0 (ISO C 7.22.1.4). -/
def scan (s : Bytes) : Bool × Nat :=
  match s.dropWhile isSpace with
  | 45 :: r => (true, magnitude r)
  | 43 :: r => (false, magnitude r)
  | r => (false, magnitude r)

/-- `strtol(s, NULL, 0)`, with saturation. -/
def strtol (s : Bytes) : Int :=
  let (neg, n) := scan s
  if neg then (if n ≤ 9223372036854775808 then -(n : Int) else -9223372036854775808)
  else (if n ≤ 9223372036854775807 then (n : Int) else 9223372036854775807)

/-- `strtoul(s, NULL, 0)`, with saturation; a minus sign negates modulo 2^64. -/
def strtoul (s : Bytes) : Nat :=
  let (neg, n) := scan s
  if 18446744073709551615 < n then 18446744073709551615
  else if neg && n ≠ 0 then 18446744073709551616 - n else n

/-- Conversion to `int32_t`. -/
def toInt32 (x : Int) : Int :=
  let m := x % 4294967296
  if m < 2147483648 then m else m - 4294967296

/-- Conversion to `uint32_t`. -/
def toUInt32 (x : Int) : Nat := (x % 4294967296).toNat

/-- The decimal digits of a number, at most as many as the first argument. -/
def decimalAux : Nat → Nat → Bytes → Bytes
  | 0, _, acc => acc
  | k + 1, n, acc => if n < 10 then UInt8.ofNat (48 + n) :: acc else decimalAux k (n / 10) (UInt8.ofNat (48 + n % 10) :: acc)

/-- `snprintf(buffer, 32, "%" PRIu32, n)`: a `uint32_t` has at most ten digits. -/
def decimal (n : Nat) : Bytes := decimalAux 10 n []

/-! ## Integer properties -/

/-- The text content of an attribute node, src/core/node.c:1468-1494: that of its children in order (text has its data, an entity
reference without children none); NULL when there is none. -/
def kidsText : List Kid → Option DStr → Out (Option DStr)
  | [], str => .ok str
  | .text none :: r, str => kidsText r str
  | .text (some t) :: r, none => kidsText r (some t)
  | .text (some t) :: r, some s => do
    let u ← Str.concat (some s) (some t)
    kidsText r (some u)
  | .entityRef :: r, str => kidsText r str

/-- `dom_string_data(s2)` and `_strndup`, src/html/html_element.c:456-470, 503-506: `dom_string_data` does not accept NULL, the copy ends at
a NUL. -/
def textOf : Option DStr → M Bytes
  | none => M.crash .nullDeref
  | some s => pure (cstr s.data)

/-- The text of the attribute of this name, `none` if there is no such attribute; src/html/html_element.c:485-524, 574-613. -/
def propText (e : Addr) (name : DStr) : M (Option Bytes) := do
  let a ← getAttrNode e none name
  match a with
  | none => pure none
  | some a => do
    let n ← getANode a
    let s ← liftOut (kidsText n.kids none)
    let t ← textOf s
    unrefAttr a
    pure (some t)

/-- `dom_html_element_get_int32_t_property`, src/html/html_element.c:485-524. -/
def getInt32Prop (e : Addr) (name : DStr) : M Int := do
  let t ← propText e name
  match t with
  | none => pure (-1)
  | some t => pure (toInt32 (strtol t))

/-- `dom_html_element_set_int32_t_property`, src/html/html_element.c:536-563; the parameter is `uint32_t`. -/
def setUInt32Prop (e : Addr) (name : DStr) (v : Nat) : M Unit := setAttribute e name (some (Str.create (decimal v)))

/-- The same as the callers use it, for instance src/html/html_anchor_element.c:207-212: an `int32_t` is passed. -/
def setInt32Prop (e : Addr) (name : DStr) (v : Int) : M Unit := setUInt32Prop e name (toUInt32 v)

/-- `dom_html_element_get_dom_ulong_property`, src/html/html_element.c:574-613; `dom_ulong` is `uint32_t`
(include/dom/inttypes.h:31). -/
def getUlongProp (e : Addr) (name : DStr) : M Nat := do
  let t ← propText e name
  match t with
  | none => pure 4294967295
  | some t => pure (strtoul t % 4294967296)

/-- `dom_html_element_set_dom_ulong_property`, src/html/html_element.c:625-652. -/
def setUlongProp (e : Addr) (name : DStr) (v : Nat) : M Unit := setUInt32Prop e name v

/-- `dom_html_canvas_element_get_width`, src/html/html_canvas_element.c:152-173 (the height likewise, with 150, 184-205). -/
def getCanvasProp (default : Nat) (e : Addr) (name : DStr) : M Nat := do
  let v ← getUlongProp e name
  pure (if v = 4294967295 then default else v)

/-- The names the callers pass; all in src/html. -/
def propNames : List String := ["async", "checked", "cols", "colspan", "compact", "declare", "defer", "disabled", "height", "hspace", "ismap", "maxlength",
  "multiple", "nohref", "noresize", "noshade", "nowrap", "readonly", "rows", "rowspan", "selected", "size", "span", "start", "tabindex", "value", "vspace", "width"]

end Dom.Html
