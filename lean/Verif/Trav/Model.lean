import Verif.Tree.Heap

/-!
# Traversals: node lists, HTML collections, search by id, tree walker

All of these only read the tree; they are functions of the world.  Loops that follow pointers carry a bound (`fuel`),
reaching it is the fault `diverge`.  Reference counting of the nodes returned is not represented here.
-/
namespace Dom.Trav

open Dom.Str (DStr isEqual caselessIsEqual)
open Dom.Tree (NodeId Node World NodeType)

/-- Reading a node. -/
def rd (w : World) (i : NodeId) : Out Node :=
  match w.nodes i with
  | some n => .ok n
  | none => .fault .useAfterFree

/-! ## Node lists -/

/-- What a node list selects: `nodelist_type` and `data` of `struct dom_nodelist`, src/core/nodelist.c:21-49 and
nodelist.h. -/
inductive Kind
  | children
  | byName (name : DStr) (caseless : Bool)
  | byNs (ns lname : Option DStr) (caseless : Bool)

/-- The tests for "*", nodelist.c:90-117: `any_name`, `any_localname`, `any_namespace`. -/
def isStar : Option DStr → Bool
  | none => false
  | some s => s.data.length == 1 && s.data.head? == some 0x2A

/-- The two comparison functions. -/
def eqBy (caseless : Bool) : Option DStr → Option DStr → Bool := if caseless then caselessIsEqual else isEqual

/-- The test inside `dom_nodelist_get_length`, src/core/nodelist.c:207-254. -/
def lenMatch (k : Kind) (n : Node) : Bool :=
  match k with
  | .children => true
  | .byName name cl => (isStar (some name) || (n.name.isSome && eqBy cl n.name (some name))) && n.type == .element
  | .byNs ns lname cl =>
    (isStar ns || eqBy cl n.ns ns) && (isStar lname || (n.name.isSome && eqBy cl n.name lname)) && n.type == .element

/-- The test inside `_dom_nodelist_item`, src/core/nodelist.c:313-362; it differs from `lenMatch` in the namespace test. -/
def itemMatch (k : Kind) (n : Node) : Bool :=
  match k with
  | .children => true
  | .byName name cl => (isStar (some name) || (n.name.isSome && eqBy cl n.name (some name))) && n.type == .element
  | .byNs ns lname cl =>
    (isStar ns || (n.ns.isSome && eqBy cl n.ns ns)) && (isStar lname || (n.name.isSome && eqBy cl n.name lname)) &&
      n.type == .element

/-- "Find first unvisited relation", src/core/nodelist.c:269-277 (and 384-392): `while (parent != root && cur ==
parent->last_child) { cur = parent; parent = parent->parent; } cur = cur->next`. -/
def nlClimb (w : World) (root : NodeId) : Nat → NodeId → Option NodeId → Out (Option NodeId)
  | 0, _, _ => .fault .diverge
  | f + 1, cur, parent =>
    if parent = some root then do
      let n ← rd w cur
      .ok n.next
    else
      match parent with
      | none => .fault .nullDeref
      | some p => do
        let pn ← rd w p
        if pn.last = some cur then nlClimb w root f p pn.parent
        else do
          let n ← rd w cur
          .ok n.next

/-- "Now, find next node", src/core/nodelist.c:256-279 (and 369-394). -/
def nlNext (k : Kind) (w : World) (root cur : NodeId) (n : Node) : Out (Option NodeId) :=
  match k with
  | .children => .ok n.next
  | _ =>
    if n.first.isSome then .ok n.first
    else if n.next.isSome then .ok n.next
    else nlClimb w root (w.fresh + 1) cur n.parent

/-- The loop of `dom_nodelist_get_length`, src/core/nodelist.c:205-280. -/
def lenLoop (k : Kind) (w : World) (root : NodeId) : Nat → Option NodeId → Nat → Out Nat
  | _, none, len => .ok len
  | 0, some _, _ => .fault .diverge
  | f + 1, some cur, len => do
    let n ← rd w cur
    let nx ← nlNext k w root cur n
    lenLoop k w root f nx (if lenMatch k n then u32 (len + 1) else len)

/-- `dom_nodelist_get_length`, src/core/nodelist.c:199-286. -/
def listLength (k : Kind) (w : World) (root : NodeId) : Out Nat := do
  let r ← rd w root
  lenLoop k w root (w.fresh + 1) r.first 0

/-- The loop of `_dom_nodelist_item`, src/core/nodelist.c:311-395. -/
def itemLoop (k : Kind) (w : World) (root : NodeId) (index : Nat) : Nat → Option NodeId → Nat → Out (Option NodeId)
  | _, none, _ => .ok none
  | 0, some _, _ => .fault .diverge
  | f + 1, some cur, count => do
    let n ← rd w cur
    let count := if itemMatch k n then u32 (count + 1) else count
    if u32 (index + 1) = count then .ok (some cur)
    else do
      let nx ← nlNext k w root cur n
      itemLoop k w root index f nx count

/-- `_dom_nodelist_item`, src/core/nodelist.c:305-403. -/
def listItem (k : Kind) (w : World) (root : NodeId) (index : Nat) : Out (Option NodeId) := do
  let r ← rd w root
  itemLoop k w root index (w.fresh + 1) r.first 0

/-! ## HTML collections -/

/-- The climb of the collection functions, src/html/html_collection.c:134-147 (and 183-196, 265-278): `while (node != root
&& node == parent->last_child) { node = parent; parent = parent->parent; }` then NULL at the root, the next sibling
elsewhere. -/
def colClimb (w : World) (root : NodeId) : Nat → NodeId → Option NodeId → Out (Option NodeId)
  | 0, _, _ => .fault .diverge
  | f + 1, node, parent =>
    if node = root then .ok none
    else
      match parent with
      | none => .fault .nullDeref
      | some p => do
        let pn ← rd w p
        if pn.last = some node then colClimb w root f p pn.parent
        else do
          let n ← rd w node
          .ok n.next

/-- "Depth first iterating", src/html/html_collection.c:128-148. -/
def colNext (w : World) (root cur : NodeId) (n : Node) : Out (Option NodeId) :=
  if n.first.isSome then .ok n.first
  else if n.next.isSome then .ok n.next
  else colClimb w root (w.fresh + 1) cur n.parent

/-- The loop of `dom_html_collection_get_length`, src/html/html_collection.c:122-147.  `ic` is the selection callback; it
is taken to be a function of the node that does not change anything. -/
def colLenLoop (ic : NodeId → Bool) (w : World) (root : NodeId) : Nat → Option NodeId → Nat → Out Nat
  | _, none, len => .ok len
  | 0, some _, _ => .fault .diverge
  | f + 1, some cur, len => do
    let n ← rd w cur
    let nx ← colNext w root cur n
    colLenLoop ic w root f nx (if n.type == .element && ic cur then u32 (len + 1) else len)

/-- `dom_html_collection_get_length`, src/html/html_collection.c:116-150. -/
def colLength (ic : NodeId → Bool) (w : World) (root : NodeId) : Out Nat :=
  colLenLoop ic w root (w.fresh + 1) (some root) 0

/-- The loop of `dom_html_collection_item`, src/html/html_collection.c:166-197. -/
def colItemLoop (ic : NodeId → Bool) (w : World) (root : NodeId) (index : Nat) :
    Nat → Option NodeId → Nat → Out (Option NodeId)
  | _, none, _ => .ok none
  | 0, some _, _ => .fault .diverge
  | f + 1, some cur, len => do
    let n ← rd w cur
    let len := if n.type == .element && ic cur then u32 (len + 1) else len
    if len = u32 (index + 1) then .ok (some cur)
    else do
      let nx ← colNext w root cur n
      colItemLoop ic w root index f nx len

/-- `dom_html_collection_item`, src/html/html_collection.c:160-202. -/
def colItem (ic : NodeId → Bool) (w : World) (root : NodeId) (index : Nat) : Out (Option NodeId) :=
  colItemLoop ic w root index (w.fresh + 1) (some root) 0

/-- The loop of `dom_html_collection_named_item`, src/html/html_collection.c:219-279.  `named` stands for the test of the
id and the name attribute (225-256). -/
def colFindLoop (ic named : NodeId → Bool) (w : World) (root : NodeId) : Nat → Option NodeId → Out (Option NodeId)
  | _, none => .ok none
  | 0, some _ => .fault .diverge
  | f + 1, some cur => do
    let n ← rd w cur
    if n.type == .element && ic cur && named cur then .ok (some cur)
    else do
      let nx ← colNext w root cur n
      colFindLoop ic named w root f nx

/-- `dom_html_collection_named_item`, src/html/html_collection.c:212-285. -/
def colNamed (ic named : NodeId → Bool) (w : World) (root : NodeId) : Out (Option NodeId) :=
  colFindLoop ic named w root (w.fresh + 1) (some root)

/-! ## Search by id -/

/-- The inner loop of `_dom_find_element_by_id`, src/core/document.c:1448-1462. -/
def findUp (w : World) (root : NodeId) : Nat → Option NodeId → Out (Option NodeId)
  | _, none => .ok none
  | 0, some _ => .fault .diverge
  | f + 1, some node => do
    let n ← rd w node
    if n.next.isSome then .ok n.next
    else if n.parent ≠ some root then findUp w root f n.parent
    else .ok none

/-- The loop of `_dom_find_element_by_id`, src/core/document.c:1429-1464; `test` stands for the comparison of the id of
the element (1431-1442). -/
def findLoop (test : NodeId → Bool) (w : World) (root : NodeId) : Nat → Option NodeId → Out (Option NodeId)
  | _, none => .ok none
  | 0, some _ => .fault .diverge
  | f + 1, some node => do
    let n ← rd w node
    if n.type == .element && test node then .ok (some node)
    else do
      let nx ← (if n.first.isSome then .ok n.first else findUp w root (w.fresh + 2) (some node))
      findLoop test w root f nx

/-- `_dom_find_element_by_id`, src/core/document.c:1422-1467. -/
def findById (test : NodeId → Bool) (w : World) (root : Option NodeId) : Out (Option NodeId) :=
  match root with
  | none => .ok none
  | some r => findLoop test w r (w.fresh + 1) (some r)

/-- The loop of `_dom_document_get_document_element`, src/core/document.c:433-452: the first Element child. -/
def docElementLoop (w : World) : Nat → Option NodeId → Out (Option NodeId)
  | _, none => .ok none
  | 0, some _ => .fault .diverge
  | f + 1, some c => do
    let n ← rd w c
    if n.type == .element then .ok (some c) else docElementLoop w f n.next

/-- `_dom_document_get_document_element`, src/core/document.c:433-452. -/
def docElement (w : World) (doc : NodeId) : Out (Option NodeId) := do
  let n ← rd w doc
  docElementLoop w (w.fresh + 1) n.first

/-- `_dom_document_get_element_by_id`, src/core/document.c:874-893. -/
def getElementById (test : NodeId → Bool) (w : World) (doc : NodeId) : Out (Option NodeId) := do
  let root ← docElement w doc
  findById test w root

/-! ## The tree walker -/

/-- `enum dom_walk_stage`, include/dom/walk.h:15-18. -/
inductive Stage
  | enter | leave
  deriving DecidableEq, Repr

/-- `enum dom_walk_cmd`, include/dom/walk.h:26-30. -/
inductive Cmd
  | continue_ | abort | skip
  deriving DecidableEq, Repr

/-- `dom_walk_cb`: the client's function and its private data `σ`.  The callback does not change the tree. -/
abbrev Callback (σ : Type) := Stage → NodeId → σ → Cmd × σ

/-- `dom_walk__cb`, src/utils/walk.c:26-47: the command is left as it is when the stage is not enabled. -/
def callCb {σ : Type} (mask : Stage → Bool) (cb : Callback σ) (st : Stage) (node : NodeId) (r : Cmd × σ) : Cmd × σ :=
  if mask st then cb st node r.2 else r

/-- How the inner loop of `libdom_treewalk` ends. -/
inductive Up
  | stopped | atRoot | next (n : NodeId)

/-- "No children; siblings & ancestor's siblings", src/utils/walk.c:79-107. -/
def upLoop {σ : Type} (mask : Stage → Bool) (cb : Callback σ) (w : World) (root : NodeId) :
    Nat → Option NodeId → Cmd × σ → Out (Up × (Cmd × σ))
  | 0, _, _ => .fault .diverge
  | f + 1, node, r =>
    if node = some root then .ok (.atRoot, r)
    else
      match node with
      | none => .fault .nullDeref
      | some x =>
        let r := callCb mask cb .leave x r
        if r.1 = .abort then .ok (.stopped, r)
        else do
          let n ← rd w x
          match n.next with
          | some y => .ok (.next y, r)
          | none => upLoop mask cb w root f n.parent r

/-- The first half of the outer loop, src/utils/walk.c:63-115: the node to enter next. -/
def nextNode {σ : Type} (mask : Stage → Bool) (cb : Callback σ) (w : World) (root node : NodeId) (r : Cmd × σ) :
    Out (Up × (Cmd × σ)) := do
  let n ← rd w node
  match (if r.1 ≠ .skip then n.first else none) with
  | some c => .ok (.next c, r)
  | none => upLoop mask cb w root (w.fresh + 1) (some node) r

/-- The outer loop of `libdom_treewalk`, src/utils/walk.c:61-125. -/
def walkMain {σ : Type} (mask : Stage → Bool) (cb : Callback σ) (w : World) (root : NodeId) :
    Nat → NodeId → Cmd × σ → Out σ
  | 0, _, _ => .fault .diverge
  | f + 1, node, r =>
    if r.1 = .abort then .ok r.2
    else do
      let (u, r) ← nextNode mask cb w root node r
      match u with
      | .stopped => .ok r.2
      | .atRoot => .ok r.2
      | .next x =>
        if x = root then .fault .assertFail
        else walkMain mask cb w root f x (callCb mask cb .enter x r)

/-- `libdom_treewalk`, src/utils/walk.c:50-130.  The result is the client's private data. -/
def treewalk {σ : Type} (mask : Stage → Bool) (cb : Callback σ) (w : World) (root : NodeId) (s : σ) : Out σ :=
  walkMain mask cb w root (w.fresh + 1) root (.continue_, s)

end Dom.Trav
