import Verif.Tree.Normalize
/-!
# The tree callbacks of the HTML parser binding: bindings/hubbub/parser.c

Not modelled: the messages given to `dom_parser->msg`; the callbacks that create nodes (their failure paths are allocation failures), `form_associate`,
`set_quirks_mode`, `change_encoding` and `complete_script`.  `insert_before`, `remove_child`, `clone_node` and `has_children`
(bindings/hubbub/parser.c:371-424, 511-523) hand over to the DOM functions of the same name and are those functions of the model.
-/
namespace Dom.Parse
open Dom.Tree

/-- The values of `hubbub_error` the callbacks return: `HUBBUB_OK` and `HUBBUB_UNKNOWN`. -/
inductive Hub where
  | done
  | failed
  deriving DecidableEq, Repr

/-- `if (err != DOM_NO_ERR) ... return HUBBUB_UNKNOWN; return HUBBUB_OK`, bindings/hubbub/parser.c:361-368: an exception is reported and becomes the
return value; nothing is then stored in `*result` (`none`). -/
def reported {α : Type} (m : M (Option α)) : M (Hub × Option α) := fun w =>
  match m w with
  | .ok w' a => .ok w' (.done, a)
  | .exc w' _ => .ok w' (.failed, none)
  | .fault f => .fault f

/-- The condition of `append_child`, bindings/hubbub/parser.c:353: the text at the end of the parent that takes up the text of the child. -/
def mergeTarget (pn cn : Node) : M (Option NodeId) :=
  if cn.type = .text then
    match pn.last with
    | none => pure none
    | some l => do
        let ln ← getNode l
        pure (if ln.type = .text then some l else none)
  else pure none

/-- The two branches, bindings/hubbub/parser.c:354-360; the first one stores NULL. -/
def appendBy (target : Option NodeId) (parent child : NodeId) : M (Option NodeId) :=
  match target with
  | some l => do
      mergeText l child
      pure none
  | none => do
      let r ← Tree.appendChild parent child
      pure (some r)

/-- `append_child`, bindings/hubbub/parser.c:345-369. -/
def appendChild (parent child : NodeId) : M (Hub × Option NodeId) := do
  let cn ← getNode child
  let pn ← getNode parent
  let target ← mergeTarget pn cn
  reported (appendBy target parent child)

/-- `goto fail`, bindings/hubbub/parser.c:449, 458 and 465-467. -/
def orDrop (child : NodeId) (m : M Hub) : M Hub := fun w =>
  match m w with
  | .ok w' a => .ok w' a
  | .exc w' _ => (unref child >>= fun _ => pure .failed) w'
  | .fault f => .fault f

/-- The body of the loop of `reparent_children` for a child, bindings/hubbub/parser.c:444-461. -/
def reparentOne (node newParent child : NodeId) : M Hub :=
  orDrop child do
    let r ← Tree.removeChild node child
    unref r
    let r ← Tree.appendChild newParent child
    unref r
    unref child
    pure .done

/-- The loop of `reparent_children`, bindings/hubbub/parser.c:433-463. -/
def reparentLoop : Nat → NodeId → NodeId → M Hub
  | fuel, node, newParent => do
      let c ← visit .first node
      match c with
      | none => pure .done
      | some child =>
          match fuel with
          | 0 => M.crash .diverge
          | fuel + 1 => do
              let r ← reparentOne node newParent child
              match r with
              | .done => reparentLoop fuel node newParent
              | .failed => pure .failed

/-- `reparent_children`, bindings/hubbub/parser.c:426-468. -/
def reparentChildren (node newParent : NodeId) : M Hub := do
  let b ← bound
  reparentLoop b node newParent

/-- The part of `get_parent` for `element_only`, bindings/hubbub/parser.c:490-503; `dom_node_get_node_type` follows the pointer it is given. -/
def elementParent (parent : Option NodeId) : M (Hub × Option NodeId) :=
  match parent with
  | none => M.crash .nullDeref
  | some p => do
      let pn ← getNode p
      if pn.type = .element then pure (.done, some p)
      else do
        unref p
        pure (.done, none)

/-- `get_parent`, bindings/hubbub/parser.c:470-509. -/
def getParent (node : NodeId) (elementOnly : Bool) : M (Hub × Option NodeId) := do
  let p ← visit .parent node
  if elementOnly then elementParent p else pure (.done, p)

end Dom.Parse
