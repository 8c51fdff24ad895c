import Verif.Basic

/-!
# The life of an HTML document and its nodes

A node that the client holds keeps its document in memory after the client gave up the document.  This model
follows the counts, the pending list, the two arrays of strings and the title of one HTML document through any
sequence of calls.
-/
namespace Dom.Html.DocLife

/-- A node that the document owns, src/core/node.h:54-81: the references the client has to it, whether it is an
element or a comment, and whether it is in the tree.
Simplified: nodes in the tree are comments that are children of the document (an element child of a document
cannot be removed, src/core/node.c:994-998); elements stay outside the tree; what a node holds itself is left out
(see `Verif/Tree/Life.lean`), and so are the events sent on a change. -/
structure Node where
  refs : Nat
  elem : Bool
  attached : Bool
  deriving DecidableEq, Repr

/-- One `struct dom_html_document`, src/html/html_document.h:19-36: `count` is its `refcnt`, `nodes` are the
nodes it owns, of which those not attached are its `pending_nodes`; `tables` says whether `memoised` and
`elements` point to their arrays; `block` says whether the document is allocated, with the strings of its base
part; `title` is its title.  `strs` counts the references to each string, and `mine` those of the client
(`mine` is not part of the code). -/
structure S where
  count : Nat
  nodes : List Node
  tables : Bool
  block : Bool
  title : Option Nat
  strs : Nat → Nat
  mine : Nat → Nat

/-- A document just created, src/html/html_document.c:95-118, with one reference, which the client has. -/
def new : S :=
  { count := 1, nodes := [], tables := true, block := true, title := none, strs := fun _ => 0, mine := fun _ => 0 }

/-- One reference more in a table of counts. -/
def more (f : Nat → Nat) (s : Nat) : Nat → Nat := fun t => if t = s then f t + 1 else f t

/-- One reference less in a table of counts. -/
def less (f : Nat → Nat) (s : Nat) : Nat → Nat := fun t => if t = s then f t - 1 else f t

/-- `dom_string_unref`, include/dom/core/string.h:36-41. -/
def unrefStr (w : S) (s : Nat) : Out S :=
  if w.strs s = 0 then .fault .useAfterFree else .ok { w with strs := less w.strs s }

/-- `dom_string_ref`, include/dom/core/string.h:25-30. -/
def refStr (w : S) (s : Nat) : Out S :=
  if w.strs s = 0 then .fault .useAfterFree else .ok { w with strs := more w.strs s }

/-- The title is given up, src/html/html_document.c:1116-1117 in `_dom_html_document_set_title` and :214-215 in
`_dom_html_document_finalise`; `doc->title` keeps its value. -/
def dropTitle (w : S) : Out S :=
  match w.title with
  | none => .ok w
  | some t => unrefStr w t

/-- The end of `_dom_document_finalise` and `_dom_document_destroy`, src/core/document.c:318-364 and :1288-1295:
the children lose their parent; those nobody holds are destroyed, the others put on the pending list
(src/core/node.c:248-256 and :2304-2322).  If the pending list is empty then, the document is freed. -/
def destroyCore (w : S) : S :=
  let left := (w.nodes.filter fun n => !(n.attached && n.refs == 0)).map fun n => { n with attached := false }
  { w with nodes := left, block := !left.isEmpty }

/-- `_dom_html_document_finalise` and `_dom_html_document_destroy`, src/html/html_document.c:202-247: the title is
given up, but `doc->title` keeps its value; the arrays are freed and their pointers set to `NULL`. -/
def destroyHtml (w : S) : Out S :=
  (dropTitle w).bind fun w => .ok (destroyCore { w with tables := false })

/-- `dom_node_unref` of the document, include/dom/core/node.h:195-202. -/
def unrefDoc (w : S) : Out S :=
  if w.count = 1 then destroyHtml { w with count := 0 } else .ok { w with count := w.count - 1 }

/-- The end of `_dom_node_finalise` of a pending node, src/core/node.c:286-297: the node leaves the pending list,
and `_dom_document_try_destroy`, src/core/document.c:1568-1574, destroys the document if nobody holds it; it
calls `_dom_document_destroy` itself, not the function of the class. -/
def dropNode (w : S) (i : Nat) : S :=
  let w := { w with nodes := w.nodes.eraseIdx i }
  if w.count = 0 then destroyCore w else w

/-- `dom_node_unref` of a node, include/dom/core/node.h:195-202 and src/core/node.c:2304-2322. -/
def unrefNode (w : S) (i : Nat) (n : Node) : S :=
  if n.refs = 1 ∧ n.attached = false then dropNode w i
  else { w with nodes := w.nodes.set i { n with refs := n.refs - 1 } }

/-- The calls of the client. -/
inductive Op
  | refDoc                 -- dom_node_ref(doc)
  | unrefDoc               -- dom_node_unref(doc)
  | create                 -- dom_document_create_element(doc, "P"), the node comes with a reference
  | comment                -- dom_document_create_comment(doc, "x"), the same
  | refNode (i : Nat)      -- dom_node_ref(node)
  | unrefNode (i : Nat)    -- dom_node_unref(node)
  | attach (i : Nat)       -- dom_node_append_child(doc, node)
  | detach (i : Nat)       -- dom_node_remove_child(doc, node)
  | child (i : Nat)        -- dom_node_get_first_child and the like: a node of the tree with a reference
  | owner (i : Nat)        -- dom_node_get_owner_document(node): the document with a reference
  | read (i : Nat)         -- dom_html_element_get_title(node) and the like
  | newString (s : Nat)    -- dom_string_create
  | dropString (s : Nat)   -- dom_string_unref by the client
  | setTitle (s : Nat)     -- dom_html_document_set_title(doc, s)
  | getTitle               -- dom_html_document_get_title(doc)
  deriving DecidableEq, Repr

/-- **Specification.**  What a client may do: it uses only what it holds. -/
def may (w : S) : Op → Bool
  | .refDoc | .unrefDoc | .create | .comment | .getTitle => w.count ≠ 0
  | .refNode i | .unrefNode i | .owner i =>
    match w.nodes[i]? with
    | some n => n.refs ≠ 0
    | none => false
  | .read i =>
    match w.nodes[i]? with
    | some n => n.refs ≠ 0 && n.elem
    | none => false
  | .attach i =>
    match w.nodes[i]? with
    | some n => w.count ≠ 0 && n.refs ≠ 0 && !n.elem && !n.attached
    | none => false
  | .detach i | .child i =>
    match w.nodes[i]? with
    | some n => w.count ≠ 0 && n.attached
    | none => false
  | .newString s => w.strs s = 0
  | .dropString s => w.mine s ≠ 0
  | .setTitle s => w.count ≠ 0 && w.mine s ≠ 0

/-- One call.  `create` reads `html->elements` (src/html/html_document.c:258-271, :578), `getTitle` without a
title too (:1080-1082; simplified: the title found in the tree, which is a string of a node, is not followed);
`read` reads `memoised` (src/html/html_element.c:142-157).  `setTitle` is src/html/html_document.c:1113-1122,
`owner` src/core/node.c:695-714.  A call on a node that does not exist does nothing here: `may` excludes it. -/
def step (w : S) : Op → Out S
  | .refDoc => .ok { w with count := w.count + 1 }
  | .unrefDoc => unrefDoc w
  | .create =>
    if w.tables then .ok { w with nodes := w.nodes ++ [{ refs := 1, elem := true, attached := false }] }
    else .fault .nullDeref
  | .comment => .ok { w with nodes := w.nodes ++ [{ refs := 1, elem := false, attached := false }] }
  | .refNode i | .child i =>
    match w.nodes[i]? with
    | some n => .ok { w with nodes := w.nodes.set i { n with refs := n.refs + 1 } }
    | none => .ok w
  | .unrefNode i =>
    match w.nodes[i]? with
    | some n => .ok (unrefNode w i n)
    | none => .ok w
  | .attach i =>
    match w.nodes[i]? with
    | some n => .ok { w with nodes := w.nodes.set i { n with attached := true } }
    | none => .ok w
  | .detach i =>
    match w.nodes[i]? with
    | some n =>
      -- the call returns the node with a reference (src/core/node.c:1016-1023)
      .ok { w with nodes := w.nodes.set i { n with refs := n.refs + 1, attached := false } }
    | none => .ok w
  | .owner _ => .ok { w with count := w.count + 1 }
  | .read _ => if w.tables then .ok w else .fault .nullDeref
  | .newString s => .ok { w with strs := more w.strs s, mine := more w.mine s }
  | .dropString s => (unrefStr w s).bind fun w => .ok { w with mine := less w.mine s }
  | .setTitle s =>
    (dropTitle w).bind fun w =>
    (refStr w s).bind fun w => .ok { w with title := some s }
  | .getTitle =>
    match w.title with
    | some t => (refStr w t).bind fun w => .ok { w with mine := more w.mine t }
    | none => if w.tables then .ok w else .fault .nullDeref

/-- A history: each call in turn. -/
def run (w : S) : List Op → Out S
  | [] => .ok w
  | o :: os => (step w o).bind fun w => run w os

end Dom.Html.DocLife
