import Verif.Oom.Lists
/-!
# User data when memory may run out

`_dom_node_set_user_data`, `_dom_node_get_user_data` and the release of the user data of a node, request by request, with the references to the keys.

Simplified: the entries of `node->user_data` are a list (Verif/User/Model.lean has the pointers); data and handlers are numbers, `none` is `NULL`; a handler does not call back into the node.
-/
namespace Dom.Oom.Keys

open Dom.Oom
open Dom.Oom.Chars (Str)
open Dom.Oom.Lists (equal)

/-- `struct dom_user_data`, src/core/node.h:26-34, with its address. -/
structure Entry where
  block : Nat
  key : Option Str
  data : Option Nat
  handler : Option Nat

/-- The search, src/core/node.c:1794-1797 and :1861-1864. -/
def seek (key : Option Str) (es : List Entry) : Option Entry := es.find? fun e => equal e.key key

/-- The entry that was found leaves the list, src/core/node.c:1803-1808. -/
def unlink (key : Option Str) : List Entry → List Entry
  | [] => []
  | e :: es => if equal e.key key then es else e :: unlink key es

/-- The entry that was found is changed, src/core/node.c:1836-1840. -/
def change (key : Option Str) (data handler : Option Nat) : List Entry → List Entry
  | [] => []
  | e :: es => if equal e.key key then { e with data := data, handler := handler } :: es else e :: change key data handler es

/-- `_dom_node_set_user_data`, src/core/node.c:1786-1845: the exception or what `*result` is set to, and the entries afterwards. -/
def setData (key : Option Str) (data handler : Option Nat) (es : List Entry) : M (Except Exc (Option Nat) × List Entry) :=
  match seek key es with
  | some e =>
    if data = none then do
      unrefOpt (e.key.map (·.addr))
      unref e.block
      pure (.ok e.data, unlink key es)
    else pure (.ok e.data, change key data handler es)
  | none => do
    let b ← malloc
    match b with
    | none => pure (.error .noMem, es)
    | some b => do
      refOpt (key.map (·.addr))
      pure (.ok none, { block := b, key := key, data := data, handler := handler } :: es)

/-- `_dom_node_get_user_data`, src/core/node.c:1855-1873. -/
def getData (key : Option Str) (es : List Entry) : Option Nat :=
  match seek key es with
  | some e => e.data
  | none => none

/-- The release of the user data in `_dom_node_finalise`, src/core/node.c:230-241: the calls of handlers, each with key and data. -/
def release : List Entry → M (List (Nat × Option Str × Option Nat))
  | [] => pure []
  | e :: es => do
    unrefOpt (e.key.map (·.addr))
    unref e.block
    let calls ← release es
    pure (match e.handler with
      | some h => (h, e.key, e.data) :: calls
      | none => calls)

end Dom.Oom.Keys
