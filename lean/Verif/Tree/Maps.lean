import Verif.Tree.Identity
/-!
# The model for C97: the attributes of an element as a named node map

`dom_node_get_attributes` and the functions of src/core/namednodemap.c for the implementation in src/core/element.c.  The functions of namednodemap.c
that pass a call on to the implementation (src/core/namednodemap.c:119-306) are the implementations here.

Simplified: `malloc` does not fail; names are not NULL; the virtual calls go to the implementations of element.c, the only ones that a client gets a map
with.
-/
namespace Dom.Tree
open Dom.Str (DStr)

/-- `struct dom_namednodemap`, src/core/namednodemap.c:26-35: `priv` and the count.  The document (`owner`) is read by no function. -/
structure AttrMap where
  node : NodeId
  refcnt : Nat

/-- The memory: nodes and maps; the maps that were freed are `none`. -/
structure Stock where
  w : World
  maps : List (Option AttrMap)

/-- What a function answers. -/
inductive Answer
  | nothing
  | node (r : Option NodeId)
  | map (r : Option Nat)
  | number (n : Nat)

/-- How a function ends. -/
inductive MapRes
  | ok (s : Stock) (a : Answer)
  | exc (s : Stock) (e : Exc)
  | fault (f : Fault)

/-- A function of the tree is called. -/
def onTree {α : Type} (s : Stock) (m : M α) (k : World → α → MapRes) : MapRes :=
  match m s.w with
  | .ok w' a => k w' a
  | .exc w' e => .exc { s with w := w' } e
  | .fault f => .fault f

/-- Access to a map. -/
def withMap (s : Stock) (k : Nat) (f : AttrMap → MapRes) : MapRes :=
  match s.maps[k]? with
  | some (some m) => f m
  | _ => .fault .useAfterFree

/-- The tree part of `_dom_element_get_attributes`, src/core/element.c:1326-1342, and of `_dom_node_get_attributes`, src/core/node.c:675-682, for other
nodes; the result says whether there is a map. -/
def openMap (x : NodeId) : M Bool := do
  let n ← getNode x
  if n.type = .element then do
    cassert n.owner.isSome
    ref x
    pure true
  else pure false

/-- `dom_node_get_attributes`; with `_dom_namednodemap_create`, src/core/namednodemap.c:57-77. -/
def getAttributes (x : NodeId) (s : Stock) : MapRes :=
  onTree s (openMap x) fun w' b =>
    if b then .ok { w := w', maps := s.maps ++ [some { node := x, refcnt := 1 }] } (.map (some s.maps.length))
    else .ok { s with w := w' } (.map none)

/-- `dom_namednodemap_ref`, src/core/namednodemap.c:84-88. -/
def mapRef (k : Nat) (s : Stock) : MapRes :=
  withMap s k fun m => .ok { s with maps := s.maps.set k (some { m with refcnt := u32 (m.refcnt + 1) }) } .nothing

/-- `dom_namednodemap_unref`, src/core/namednodemap.c:98-110, with `attributes_destroy`, src/core/element.c:2396-2401. -/
def mapUnref (k : Nat) (s : Stock) : MapRes :=
  withMap s k fun m =>
    if sub32 m.refcnt 1 = 0 then onTree s (unref m.node) fun w' _ => .ok { w := w', maps := s.maps.set k none } .nothing
    else .ok { s with maps := s.maps.set k (some { m with refcnt := sub32 m.refcnt 1 }) } .nothing

/-- `attributes_get_length`, src/core/element.c:2270-2277, with `_dom_element_attr_list_length`, src/core/element.c:229-244. -/
def mapLength (k : Nat) (s : Stock) : MapRes :=
  withMap s k fun m => onTree s (getNode m.node) fun w' n => .ok { s with w := w' } (.number (u32 n.attrs.length))

/-- `_dom_element_attr_list_get_by_index`, src/core/element.c:253-269. -/
def getByIndex : List AttrEntry → Nat → Option AttrEntry
  | [], _ => none
  | e :: l, i => if sub32 i 1 = 0 then some e else getByIndex l (sub32 i 1)

/-- The node that is found is referenced, src/core/element.c:2335-2340 and 1862-1868. -/
def found (y : Option AttrEntry) : M (Option NodeId) :=
  match y with
  | none => pure none
  | some y => do
      ref y.node
      pure (some y.node)

/-- The tree part of `attributes_item`, src/core/element.c:2326-2343. -/
def itemNode (e : NodeId) (i : Nat) : M (Option NodeId) := do
  let n ← getNode e
  found (getByIndex n.attrs (u32 (i + 1)))

/-- `_dom_element_get_attr_node`, src/core/element.c:1853-1871. -/
def getAttrNode (e : NodeId) (name : DStr) (ns : Option DStr) : M (Option NodeId) := do
  let n ← getNode e
  found (n.attrs.find? (sameAttr name ns))

/-- `attributes_remove_named_item` and `attributes_remove_named_item_ns`, src/core/element.c:2306-2322 and 2375-2392. -/
def takeNamed (e : NodeId) (name : DStr) (ns : Option DStr) : M (Option NodeId) := do
  let r ← getAttrNode e name ns
  throwIf r.isNone .notFound
  removeAttr e name ns
  pure r

/-- The attribute that was found is taken out of the list and stays referenced, src/core/element.c:1939-1942. -/
def pullAttr (e : NodeId) (y : AttrEntry) : M Unit := do
  ref y.node
  modNode e fun n => { n with attrs := n.attrs.filter (fun z => decide (z.node ≠ y.node)) }
  let b ← bound
  attrKill (destroy (b + 1)) y

/-- The end of `_dom_element_set_attr_node`, src/core/element.c:1983-2029: the new entry is at the end of the list. -/
def linkAttr (e a : NodeId) (name : DStr) (ns : Option DStr) : M Unit := do
  modNode a fun n => { n with parent := some e }
  removePending a
  modNode e fun n => { n with attrs := n.attrs ++ [{ name := name, ns := ns, node := a }] }

/-- `_dom_element_set_attr_node` after the attribute was looked up, src/core/element.c:1926-2031.  The pointer `element->attributes` to the first entry is not moved on
when that entry is freed, and `_dom_element_attr_list_insert` reads through it (:2025-2029). -/
def swapIn (attrs : List AttrEntry) (y : Option AttrEntry) (e a : NodeId) (name : DStr) (ns : Option DStr) : M (Option NodeId) :=
  match y with
  | none => do
      linkAttr e a name ns
      pure none
  | some y =>
      if attrs.head?.map (·.node) = some y.node then M.crash .useAfterFree
      else do
        pullAttr e y
        linkAttr e a name ns
        pure (some y.node)

/-- `attributes_set_named_item` and `attributes_set_named_item_ns`, src/core/element.c:2291-2302 and 2359-2371, with `_dom_element_set_attribute_node` (756-760),
`_dom_element_set_attribute_node_ns` (966-982) and `_dom_element_set_attr_node` (1890-2032).  Simplified: the names of attribute nodes are not part of this model,
so `name` is the local name of `a`, and `ns` its namespace or, for the function without namespaces, nothing; the events are left out. -/
def setNamed (e a : NodeId) (name : DStr) (ns : Option DStr) : M (Option NodeId) := do
  let an ← getNode a
  throwIf (decide (an.type ≠ .attribute)) .hierarchyRequest
  let en ← getNode e
  throwIf (decide (en.owner ≠ an.owner)) .wrongDocument
  let ro ← readonly e
  throwIf ro .noModificationAllowed
  throwIf (an.parent.isSome && decide (an.parent ≠ some e)) .inuseAttribute
  swapIn en.attrs (en.attrs.find? (sameAttr name ns)) e a name ns

/-- A function of the map that answers a node. -/
def ask (k : Nat) (s : Stock) (m : NodeId → M (Option NodeId)) : MapRes :=
  withMap s k fun a => onTree s (m a.node) fun w' r => .ok { s with w := w' } (.node r)

/-- What a client can do. -/
inductive MapOp
  | tree (a : Op)
  | attributes (x : NodeId)
  | ref (k : Nat)
  | unref (k : Nat)
  | length (k : Nat)
  | item (k i : Nat)
  | named (k : Nat) (name : DStr) (ns : Option DStr)
  | remove (k : Nat) (name : DStr) (ns : Option DStr)
  | set (k : Nat) (a : NodeId) (name : DStr) (ns : Option DStr)

/-- Do it. -/
def MapOp.run : MapOp → Stock → MapRes
  | .tree a, s => onTree s a.run fun w' r => .ok { s with w := w' } (.node r)
  | .attributes x, s => getAttributes x s
  | .ref k, s => mapRef k s
  | .unref k, s => mapUnref k s
  | .length k, s => mapLength k s
  | .item k i, s => ask k s (fun e => itemNode e i)
  | .named k name ns, s => ask k s (fun e => getAttrNode e name ns)
  | .remove k name ns, s => ask k s (fun e => takeNamed e name ns)
  | .set k a name ns, s => ask k s (fun e => setNamed e a name ns)

end Dom.Tree
