import Verif.Oom.Chars

/-!
# Deep copies when memory may run out

`dom_node_clone_node` with `deep`, and the insertion of the copied children with the mutation events it raises.
Simplified throughout: the source consists of elements without attributes and classes, of texts and of comments (the
copy of attributes is in Verif/Oom/Attr.lean), there are no user data handlers and no callback for added scripts.
A copy has no listeners, so its events ask for one block each.
-/
namespace Dom.Oom.Deep

open Dom.Oom
open Dom.Oom.Chars (raise)

/-- The strings a node holds, src/core/node.h:54-81. -/
structure Names where
  name : Nat
  ns : Option Nat
  pre : Option Nat
  value : Option Nat

/-- The children of a node that is copied, from one child on: the strings of the child, its own children, and the
siblings after it. -/
inductive Source
  | nil
  | node (s : Names) (kids rest : Source)

/-- Nodes that have been made, from one child on.  `held` is the field `refcnt` of the node: a child of a tree has 0 if
nobody but the tree has it. -/
inductive Copy
  | nil
  | node (block : Nat) (s : Names) (held : Nat) (kids rest : Copy)

/-- A child is put after the others, src/core/node.c:2117-2128 with `next == NULL`. -/
def Copy.append : Copy → Nat → Names → Nat → Copy → Copy
  | .nil, b, s, h, k => .node b s h k .nil
  | .node b' s' h' k' rest, b, s, h, k => .node b' s' h' k' (rest.append b s h k)

/-- The strings `_memo_domnodeinserted`, `_memo_domnodeinsertedintodocument` and `_memo_domsubtreemodified` of the
document. -/
structure Types where
  inserted : Nat
  intoDoc : Nat
  subtree : Nat

/-- `_dom_element_copy`, src/core/element.c:1533-1552 with :1554-1597, `_dom_text_copy`, src/core/text.c:303-334, and
`_dom_comment_copy`, src/core/comment.c:98-117, through `_dom_node_copy_internal`, src/core/node.c:1900-1952. -/
def copyNode (s : Names) : M (Option Nat) := do
  let b ← malloc
  match b with
  | none => pure none
  | some b =>
    ref s.name
    refOpt s.ns
    refOpt s.pre
    refOpt s.value
    pure (some b)

/-- `_dom_node_try_destroy`, src/core/node.c:2304-2320, for each of the nodes once their parent is gone, with
`_dom_node_finalise`, :224-298: a node that somebody has is only put on the list of pending nodes of the document. -/
def destroy : Copy → M Unit
  | .nil => pure ()
  | .node b s h kids rest => do
    (if h = 0 then do
        unrefOpt s.pre
        unrefOpt s.ns
        destroy kids
        unrefOpt s.value
        unref s.name
        unref b
      else pure ())
    destroy rest

/-- The events at the descendants of a node that is inserted, src/core/node.c:2664-2686. -/
def walk (T : Types) : Copy → M (Option Exc)
  | .nil => pure none
  | .node _ _ _ kids rest => do
    let e ← raise T.intoDoc none none none []
    match e with
    | some e => pure (some e)
    | none =>
      let e ← walk T kids
      match e with
      | some e => pure (some e)
      | none => walk T rest

/-- `_dom_node_attach_range`, src/core/node.c:2107-2156, for one node, after it has been linked: the events
`DOMNodeInserted` at the node, `DOMNodeInsertedIntoDocument` at its descendants, and `DOMSubtreeModified` at the
parent. -/
def announce (T : Types) (parent : Nat) (kids : Copy) : M (Option Exc) := do
  let e ← raise T.inserted (some parent) none none []
  match e with
  | some e => pure (some e)
  | none =>
    let e ← walk T kids
    match e with
    | some e => pure (some e)
    | none => raise T.subtree (some parent) none none []

/-- The last reference to a copy is given back and an error is returned, src/core/node.c:1143-1146 and :1149-1152. -/
def giveUp {α : Type} (parent : Nat) (ps : Names) (kids : Copy) (e : Exc) : M (Except Exc α) := do
  destroy (.node parent ps 0 kids .nil)
  pure (.error e)

/-- The loop of `_dom_node_clone_node`, src/core/node.c:1139-1160, over the children that are left, with the children
copied so far.  A child that was appended has been given back twice (:1156-1157); one that could not be announced is
linked and still has the reference of its copy. -/
def cloneKids (T : Types) (parent : Nat) (ps : Names) : Source → Copy → M (Except Exc Copy)
  | .nil, done => pure (.ok done)
  | .node s kids rest, done => do
    let b ← copyNode s
    match b with
    | none => giveUp parent ps done .noMem
    | some b =>
      let k ← cloneKids T b s kids .nil
      match k with
      | .error e => giveUp parent ps done e
      | .ok k =>
        let e ← announce T parent k
        match e with
        | some e => giveUp parent ps (done.append b s 1 k) e
        | none => cloneKids T parent ps rest (done.append b s 0 k)

/-- `_dom_node_clone_node`, src/core/node.c:1125-1174; the copy of the node and its children. -/
def cloneNode (T : Types) (deep : Bool) (s : Names) (kids : Source) : M (Except Exc (Nat × Copy)) := do
  let b ← copyNode s
  match b with
  | none => pure (.error .noMem)
  | some b =>
    if deep then do
      let k ← cloneKids T b s kids .nil
      match k with
      | .error e => pure (.error e)
      | .ok k => pure (.ok (b, k))
    else pure (.ok (b, .nil))

end Dom.Oom.Deep
