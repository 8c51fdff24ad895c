import Verif.Str.PropsEq
/-!
# User data of a node, src/core/node.c:1775-1872

The doubly linked list `node->user_data` is modelled cell by cell.  Reference counts of the keys are not modelled.  Data and handlers
are opaque pointers; `none` is NULL.  A handler is not supposed to call back into the node.
-/
namespace Dom.User

open Dom.Str (DStr Bytes contents)

/-- `struct dom_user_data`, src/core/node.h:26-34. -/
structure Cell where
  key : Option DStr
  data : Option Nat
  handler : Option Nat
  next : Option Nat
  prev : Option Nat
  deriving DecidableEq, Repr

/-- The field `user_data` of a node (src/core/node.h:74) and the memory its cells are in.  `fresh` is the next address
`malloc` returns; addresses are not reused. -/
structure Node where
  cells : Nat → Option Cell
  head : Option Nat
  fresh : Nat

/-- A node after `_dom_node_initialise`, src/core/node.c:203. -/
def Node.blank : Node := { cells := fun _ => none, head := none, fresh := 0 }

/-- Reading a cell. -/
def Node.read (n : Node) (a : Nat) : Out Cell :=
  match n.cells a with
  | some c => .ok c
  | none => .fault .useAfterFree

/-- Writing a cell. -/
def Node.put (n : Node) (a : Nat) (c : Option Cell) : Node := { n with cells := fun x => if x = a then c else n.cells x }

/-- Writing fields of a cell that must be there. -/
def Node.update (n : Node) (a : Nat) (f : Cell → Cell) : Out Node := do
  let c ← n.read a
  .ok (n.put a (some (f c)))

/-- The search loop, src/core/node.c:1794-1797, 1861-1864. -/
def find (n : Node) (key : Option DStr) : Nat → Option Nat → Out (Option Nat)
  | _, none => .ok none
  | 0, some _ => .fault .diverge
  | k + 1, some a => do
    let c ← n.read a
    if Str.isEqual c.key key then .ok (some a) else find n key k c.next

/-- src/core/node.c:1803-1804. -/
def unlinkNext (n : Node) (c : Cell) : Out Node :=
  match c.next with
  | some b => n.update b fun x => { x with prev := c.prev }
  | none => .ok n

/-- src/core/node.c:1805-1808. -/
def unlinkPrev (n : Node) (c : Cell) : Out Node :=
  match c.prev with
  | some p => n.update p fun x => { x with next := c.next }
  | none => .ok { n with head := c.next }

/-- src/core/node.c:1800-1815: the cell is taken out and freed, its data returned.  The fields of the cell are read once; the writes go to other cells. -/
def unlink (n : Node) (a : Nat) : Out (Option Nat × Node) := do
  let c ← n.read a
  let n ← unlinkNext n c
  let n ← unlinkPrev n c
  .ok (c.data, n.put a none)

/-- src/core/node.c:1818-1834: a new cell in front. -/
def push (n : Node) (key : Option DStr) : Out (Nat × Node) := do
  let a := n.fresh
  let m := { n.put a (some { key := key, data := none, handler := none, next := n.head, prev := none }) with fresh := a + 1 }
  let m ← (match n.head with
    | some h => m.update h fun x => { x with prev := some a }
    | none => .ok m)
  .ok (a, { m with head := some a })

/-- src/core/node.c:1837-1844. -/
def assign (n : Node) (a : Nat) (data handler : Option Nat) : Out (Option Nat × Node) := do
  let c ← n.read a
  .ok (c.data, n.put a (some { c with data := data, handler := handler }))

/-- `_dom_node_set_user_data`, src/core/node.c:1786-1845; the result is what `*result` receives. -/
def setUserData (key : Option DStr) (data handler : Option Nat) (n : Node) : Out (Option Nat × Node) := do
  let ud ← find n key n.fresh n.head
  match ud, data with
  | some a, none => unlink n a
  | some a, some d => assign n a (some d) handler
  | none, d => do
    let (a, n) ← push n key
    assign n a d handler

/-- `_dom_node_get_user_data`, src/core/node.c:1855-1872. -/
def getUserData (key : Option DStr) (n : Node) : Out (Option Nat) := do
  let ud ← find n key n.fresh n.head
  match ud with
  | some a => do
    let c ← n.read a
    .ok c.data
  | none => .ok none

/-- A handler called with DOM_NODE_DELETED. -/
structure Notice where
  handler : Nat
  key : Option DStr
  data : Option Nat
  deriving DecidableEq, Repr

/-- The call of the handler, src/core/node.c:234-236. -/
def notify (c : Cell) (log : List Notice) : List Notice :=
  match c.handler with
  | some h => log ++ [⟨h, c.key, c.data⟩]
  | none => log

/-- The loop of src/core/node.c:231-240. -/
def releaseLoop : Nat → Option Nat → Node → List Notice → Out (List Notice × Node)
  | _, none, n, log => .ok (log, n)
  | 0, some _, _, _ => .fault .diverge
  | k + 1, some a, n, log => do
    let c ← n.read a
    releaseLoop k c.next (n.put a none) (notify c log)

/-- The part of `_dom_node_finalise` about user data, src/core/node.c:231-241. -/
def release (n : Node) : Out (List Notice × Node) := do
  let (log, n) ← releaseLoop n.fresh n.head n []
  .ok (log, { n with head := none })

/-- The handlers called when a node is cloned, src/core/node.c:1165-1171; likewise src/core/document.c:1543-1551 for import. -/
def cloned (n : Node) : Nat → Option Nat → List Notice → Out (List Notice)
  | _, none, log => .ok log
  | 0, some _, _ => .fault .diverge
  | k + 1, some a, log => do
    let c ← n.read a
    cloned n k c.next (notify c log)

end Dom.User
