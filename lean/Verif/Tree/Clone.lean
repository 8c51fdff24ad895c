import Verif.Tree.Life
/-!
# Cloning nodes: src/core/node.c, src/core/element.c and the copy functions of the node types

`clone` stands for the virtual `dom_node_clone_node` of the nodes below; `cloneWith` ties the knot.  Simplifications that hold for this whole file:
* user data handlers (node.c:1163-1170) are not called (user data is modelled in Verif/User);
* elements are plain elements: the copy functions of HTML elements (src/html) are not represented;
* the class list of an element and the fields `specified`, `is_id`, `type` and `value` of attributes are not part of the node records used here.
-/
namespace Dom.Tree

/-- A call whose exception the caller looks at. -/
def attempt {α : Type} (m : M α) : M (Except Exc α) := fun w =>
  match m w with
  | .ok w' a => .ok w' (.ok a)
  | .exc w' e => .ok w' (.error e)
  | .fault f => .fault f

/-- `if (err != DOM_NO_ERR) { dom_node_unref(n); return err; }` after the call `m`, src/core/node.c:1144-1147 and 1150-1153. -/
def orUnref {α : Type} (n : NodeId) (m : M α) : M α := fun w =>
  match m w with
  | .ok w' a => .ok w' a
  | .exc w' e => (unref n >>= fun _ => M.throw e) w'
  | .fault f => .fault f

/-- `_dom_node_copy_internal`, src/core/node.c:1901-1952, into new memory: `_dom_text_copy`, src/core/text.c:303-322; `_dom_comment_copy`,
src/core/comment.c:98-117; `_dom_cdata_section_copy`, src/core/cdatasection.c:96-115; `_dom_er_copy`, src/core/entity_ref.c:123-142; `_dom_df_copy`,
src/core/doc_fragment.c:117-138 (the host is NULL); `_dom_attr_copy`, src/core/attr.c:773-803 (not read-only). -/
def copyInternal (n : Node) : M NodeId := do
  cassert n.owner.isSome
  initNode { type := n.type, name := n.name, value := n.value, ns := n.ns, pfx := n.pfx, owner := n.owner }

/-- `_dom_element_attr_list_node_clone`, src/core/element.c:389-424, for one entry after the other: `_dom_element_attr_list_clone`,
src/core/element.c:433-465.  The result says whether all of them could be cloned. -/
def cloneAttrs (clone : Bool → NodeId → M NodeId) (new : NodeId) : List AttrEntry → M Bool
  | [] => pure true
  | e :: l => do
      let a ← attempt (clone true e.node)
      match a with
      | .error _ => pure false
      | .ok a => do
          modNode a fun n => { n with parent := some new }
          removePending a
          unref a
          modNode new fun n => { n with attrs := n.attrs ++ [{ name := e.name, ns := e.ns, node := a }] }
          cloneAttrs clone new l

/-- `_dom_element_attr_list_destroy(new_list); return NULL;`, src/core/element.c:447-451. -/
def dropAttrs (new : NodeId) : M Unit := do
  let n ← getNode new
  let b ← bound
  attrKillLoop (destroy (b + 1)) n.attrs
  modNode new fun n => { n with attrs := [] }

/-- `_dom_element_copy`, src/core/element.c:1533-1554, with `_dom_element_copy_internal`, src/core/element.c:1556-1600.  Simplified: in the code the fields
of the node are filled in after the attributes have been cloned; nothing reads them in between. -/
def copyElement (clone : Bool → NodeId → M NodeId) (n : Node) : M NodeId := do
  let r ← copyInternal n
  let ok ← cloneAttrs clone r n.attrs
  (if ok then pure () else dropAttrs r)
  pure r

/-- `_dom_pi_copy`, src/core/pi.c:104-122: the result is not the new node but the address of the caller's variable (line 119).  Such an address never is
the one of a node; here it is one that has been released. -/
def copyPI (n : Node) : M NodeId := do
  let _ ← copyInternal n
  let s ← alloc { type := .pi }
  freeNode s
  pure s

/-- The virtual `dom_node_copy`.  `_dom_document_copy`, src/core/document.c:1298-1305, and `_dom_dt_copy`, src/core/document_type.c:336-342, refuse.
Entity and Notation nodes are created by no function of the library. -/
def copyNode (clone : Bool → NodeId → M NodeId) (n : Node) : M NodeId :=
  match n.type with
  | .document => M.throw .notSupported
  | .doctype => M.throw .notSupported
  | .entity => M.throw .notSupported
  | .notation_ => M.throw .notSupported
  | .pi => copyPI n
  | .element => copyElement clone n
  | _ => copyInternal n

/-- The loop over the children, src/core/node.c:1141-1160. -/
def cloneKids (clone : Bool → NodeId → M NodeId) (new : NodeId) : Nat → Option NodeId → M Unit
  | _, none => pure ()
  | 0, some _ => M.crash .diverge
  | fuel + 1, some c => do
      let r ← orUnref new (clone true c)
      let r ← orUnref new (appendChild new r)
      unref r
      unref r
      let cn ← getNode c
      cloneKids clone new fuel cn.next

/-- `_dom_node_clone_node`, src/core/node.c:1125-1174. -/
def cloneBody (clone : Bool → NodeId → M NodeId) (deep : Bool) (x : NodeId) : M NodeId := do
  let n ← getNode x
  cassert n.owner.isSome
  let r ← copyNode clone n
  let b ← bound
  (if deep then cloneKids clone r b n.first else pure ())
  pure r

/-- The virtual `dom_node_clone_node`.  The bound on the nesting is a device of the model. -/
def cloneWith : Nat → Bool → NodeId → M NodeId
  | 0, _, _ => M.crash .diverge
  | fuel + 1, deep, x => cloneBody (cloneWith fuel) deep x

/-- `dom_node_clone_node`, include/dom/core/node.h:392-398. -/
def cloneNode (x : NodeId) (deep : Bool) : M NodeId := do
  let b ← bound
  cloneWith b deep x

end Dom.Tree
