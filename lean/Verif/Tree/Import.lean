import Verif.Tree.Clone
/-!
# `importNode` and `adoptNode`: src/core/document.c

The simplifications of Verif/Tree/Clone.lean hold here too: user data handlers are not called, elements are plain elements, and `specified` of attributes
(document.c:1500-1502) is not part of the node records.
-/
namespace Dom.Tree

/-- What follows a failed `dom_node_append_child` in the loop, src/core/document.c:1534-1538. -/
def orUnrefBoth {α : Type} (ret r : NodeId) (m : M α) : M α := fun w =>
  match m w with
  | .ok w' a => .ok w' a
  | .exc w' e => (unref ret >>= fun _ => unref r >>= fun _ => M.throw e) w'
  | .fault f => .fault f

/-- The loop over the children, src/core/document.c:1523-1543; `imp` is `dom_document_import_node` for the same document with `deep == true`. -/
def importKids (imp : NodeId → M NodeId) (ret : NodeId) : Nat → Option NodeId → M Unit
  | _, none => pure ()
  | 0, some _ => M.crash .diverge
  | fuel + 1, some c => do
      let r ← orUnref ret (imp c)
      let r ← orUnrefBoth ret r (appendChild ret r)
      unref r
      let cn ← getNode c
      importKids imp ret fuel cn.next

/-- The check at the start of `dom_document_dup_node`, src/core/document.c:1488-1489. -/
def refuseReadonly (adopt : Bool) (x : NodeId) : M Unit :=
  if adopt then do
    let ro ← readonly x
    throwIf ro .noModificationAllowed
  else pure ()

/-- Whether the children are copied, src/core/document.c:1499-1506. -/
def importDeep (t : NodeType) (deep : Bool) : Bool := if t = .attribute then true else if t = .entityRef then false else deep

/-- `dom_document_dup_node`, src/core/document.c:1478-1560.  The argument `doc` is passed on to the calls for the children and not used otherwise, so it is
no argument here.  The user data handlers (1546-1555) are left out. -/
def dupBody (imp : NodeId → M NodeId) (adopt deep : Bool) (x : NodeId) : M NodeId := do
  let n ← getNode x
  refuseReadonly adopt x
  throwIf (decide (n.type = .document ∨ n.type = .doctype)) .notSupported
  let r ← copyNode (fun deep a => cloneNode a deep) n
  throwIf (adopt && decide (n.type = .entity ∨ n.type = .notation_)) .notSupported
  let b ← bound
  (if importDeep n.type deep then importKids imp r b n.first else pure ())
  pure r

/-- `dom_document_dup_node` with the bound on the nesting, a device of the model. -/
def dupWith : Nat → Bool → Bool → NodeId → M NodeId
  | 0, _, _, _ => M.crash .diverge
  | fuel + 1, adopt, deep, x => dupBody (dupWith fuel false true) adopt deep x

/-- `_dom_document_import_node`, src/core/document.c:701-708. -/
def importNode (_d x : NodeId) (deep : Bool) : M NodeId := do
  let b ← bound
  dupWith b false deep x

/-- The end of `_dom_document_adopt_node`: remove the node from its parent, src/core/document.c:1160-1170. -/
def adoptRemove (r x : NodeId) : M Unit := do
  let n ← getNode x
  match n.parent with
  | none => pure ()
  | some p => do
      let tmp ← orUnref r (removeChild p x)
      unref tmp

/-- `_dom_document_adopt_node`, src/core/document.c:1125-1173.  The result `none` stands for `*result == NULL` with `DOM_NO_ERR`. -/
def adoptNode (_d x : NodeId) : M (Option NodeId) := do
  let n ← getNode x
  throwIf (decide (n.type = .document ∨ n.type = .doctype)) .notSupported
  if n.type = .entity ∨ n.type = .notation_ ∨ n.type = .pi ∨ n.type = .text ∨ n.type = .cdata ∨ n.type = .comment then pure none
  else do
    throwIf (decide (n.type = .entityRef)) .notSupported
    let b ← bound
    let r ← dupWith b true true x
    adoptRemove r x
    pure (some r)

end Dom.Tree
