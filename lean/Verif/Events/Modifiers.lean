import Verif.Str.Spec
import Verif.Names.Model
/-!
# The modifier keys of keyboard, mouse and wheel events: src/events/keyboard_event.c, mouse_event.c, mouse_wheel_event.c, mouse_multi_wheel_event.c

`uint32_t modifier_state` is a natural number.
-/
namespace Dom.Events.Mods

open Dom.Str (Bytes)

/-- `DOM_MOD_CTRL`, src/events/ui_event.h:19. -/
def modCtrl : Nat := 1
/-- `DOM_MOD_META`, src/events/ui_event.h:20. -/
def modMeta : Nat := 2
/-- `DOM_MOD_SHIFT`, src/events/ui_event.h:21. -/
def modShift : Nat := 4
/-- `DOM_MOD_ALT`, src/events/ui_event.h:22. -/
def modAlt : Nat := 8
/-- `DOM_MOD_ALT_GRAPH`, src/events/ui_event.h:23. -/
def modAltGraph : Nat := 16
/-- `DOM_MOD_CAPS_LOCK`, src/events/ui_event.h:24. -/
def modCapsLock : Nat := 32
/-- `DOM_MOD_NUM_LOCK`, src/events/ui_event.h:25. -/
def modNumLock : Nat := 64
/-- `DOM_MOD_SCROLL`, src/events/ui_event.h:26. -/
def modScroll : Nat := 128

/-- `*data` of a string with its terminator: after the last byte there is a zero. -/
def at0 (data : Bytes) : UInt8 := data.headD 0

/-- `strncmp(a, b, len) == 0` for strings given by the bytes in front of their terminators, which may contain zeros: the comparison ends at the first
difference, after `len` bytes, or at a zero in both. -/
def strncmpEq : Bytes → Bytes → Nat → Bool
  | _, _, 0 => true
  | a, b, n + 1 => if at0 a ≠ at0 b then false else if at0 a = 0 then true else strncmpEq a.tail b.tail n

/-- `len == SLEN(name) && strncmp(m, name, len) == 0`. -/
def isWord (m : Bytes) (len : Nat) (name : String) : Bool := len == (Names.lit name).data.length && strncmpEq m (Names.lit name).data len

/-- The tests of `_dom_parse_modifier_list`, src/events/keyboard_event.c:410-442, and of the two functions `..._get_modifier_state`, src/events/keyboard_event.c:211-231
and mouse_event.c:236-256: the bit that belongs to the word. -/
def bitOf (m : Bytes) (len : Nat) : Option Nat :=
  if isWord m len "AltGraph" then some modAltGraph
  else if isWord m len "Alt" then some modAlt
  else if isWord m len "CapsLock" then some modCapsLock
  else if isWord m len "Control" then some modCtrl
  else if isWord m len "Meta" then some modMeta
  else if isWord m len "NumLock" then some modNumLock
  else if isWord m len "Scroll" then some modScroll
  else if isWord m len "Shift" then some modShift
  else none

/-- `*modifier_state = *modifier_state | ...` when a word was recognised. -/
def addWord (m : Bytes) (len st : Nat) : Nat :=
  match bitOf m len with
  | none => st
  | some b => st ||| b

/-- `while (*data == ' ') data++`, src/events/keyboard_event.c:444-446. -/
def skipSpaces : Bytes → Bytes
  | [] => []
  | c :: cs => if c = 32 then skipSpaces cs else c :: cs

/-- `data++; len++` at the end of the loop, src/events/keyboard_event.c:455-456: `data` stands on a byte of the string. -/
def advance (data : Bytes) : Out Bytes :=
  match data with
  | [] => .fault .overrun
  | _ :: cs => .ok cs

/-- The loop of `_dom_parse_modifier_list`, src/events/keyboard_event.c:406-457; `m` and `data` are what follows in the string. -/
def parseLoop : Nat → Bytes → Nat → Bytes → Nat → Out Nat
  | 0, _, _, _, _ => .fault .diverge
  | f + 1, m, len, data, st =>
    if at0 data = 32 ∨ at0 data = 0 then
      let st' := addWord m len st
      let data' := skipSpaces data
      if at0 data' = 0 then .ok st'
      else do
        let d ← advance data'
        parseLoop f data' 1 d st'
    else do
      let d ← advance data
      parseLoop f m (len + 1) d st

/-- `_dom_parse_modifier_list`, src/events/keyboard_event.c:391-460. -/
def parse (list : Option Bytes) : Out Nat :=
  match list with
  | none => .ok 0
  | some b => parseLoop (b.length + 1) b 0 b 0

/-- `((evt->modifier_state & DOM_MOD_...) != 0)`. -/
def isSet (st bit : Nat) : Bool := (st &&& bit) != 0

/-- `_dom_keyboard_event_get_ctrl_key`, src/events/keyboard_event.c:131-137, and `_dom_mouse_event_get_ctrl_key`, src/events/mouse_event.c:126-132. -/
def getCtrlKey (st : Nat) : Bool := isSet st modCtrl
/-- `..._get_shift_key`, src/events/keyboard_event.c:146-152, mouse_event.c:141-147. -/
def getShiftKey (st : Nat) : Bool := isSet st modShift
/-- `..._get_alt_key`, src/events/keyboard_event.c:161-167, mouse_event.c:156-162. -/
def getAltKey (st : Nat) : Bool := isSet st modAlt
/-- `..._get_meta_key`, src/events/keyboard_event.c:176-182, mouse_event.c:171-177. -/
def getMetaKey (st : Nat) : Bool := isSet st modMeta

/-- `_dom_keyboard_event_get_modifier_state`, src/events/keyboard_event.c:197-234, and `_dom_mouse_event_get_modifier_state`, src/events/mouse_event.c:222-259: what is
written to `*state`; `none` when nothing is written. -/
def getModifierState (st : Nat) (m : Option Bytes) : Option Bool :=
  match m with
  | none => some false
  | some b =>
    match bitOf b b.length with
    | none => none
    | some bit => some (isSet st bit)

/-- The modifier keys given to an initialisation, `ctrl`, `shift`, `alt` and `meta` (here `metaKey`). -/
structure Keys where
  ctrl : Bool
  shift : Bool
  alt : Bool
  metaKey : Bool
  deriving DecidableEq, Repr

/-- `_dom_mouse_event_init`, src/events/mouse_event.c:293-305, and `_dom_mouse_event_init_ns`, 347-359. -/
def mouseInit (_st : Nat) (k : Keys) : Nat :=
  let st := 0
  let st := if k.ctrl then st ||| modCtrl else st
  let st := if k.alt then st ||| modAlt else st
  let st := if k.shift then st ||| modShift else st
  if k.metaKey then st ||| modMeta else st

/-- `_dom_keyboard_event_init_helper`, src/events/keyboard_event.c:274-285, called by `_dom_keyboard_event_init` and `_dom_keyboard_event_init_ns`. -/
def keyboardInit (st : Nat) (k : Keys) : Nat :=
  let st := if k.ctrl then st ||| modCtrl else st
  let st := if k.shift then st ||| modShift else st
  let st := if k.alt then st ||| modAlt else st
  if k.metaKey then st ||| modMeta else st

/-- A new keyboard event: `calloc`, src/events/keyboard_event.c:25; a new mouse or wheel event, src/events/mouse_event.c:45. -/
def created : Nat := 0

/-- `_dom_mouse_wheel_event_init_ns`, src/events/mouse_wheel_event.c:95-115, and `_dom_mouse_multi_wheel_event_init_ns`, src/events/mouse_multi_wheel_event.c:129-152: the
list is parsed into the state of the event, which is then initialised as a mouse event without modifiers. -/
def wheelInit (_st : Nat) (list : Option Bytes) : Out Nat := do
  let st ← parse list
  .ok (mouseInit st ⟨false, false, false, false⟩)

end Dom.Events.Mods
