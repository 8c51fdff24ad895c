import Verif.Tree.WholeText
import Verif.Tree.Life
/-!
# `normalize`: src/core/node.c:1185-1218

`rec` stands for the virtual `dom_node_normalize` of the nodes below, which is the same function for all node types; `normalizeWith` ties the knot.
-/
namespace Dom.Tree

/-- `_dom_merge_adjacent_text`, src/core/node.c:2271-2291. -/
def mergeText (p n : NodeId) : M Unit := do
  let pn ← getNode p
  cassert (decide (pn.type = .text))
  let nn ← getNode n
  cassert (decide (nn.type = .text))
  let str ← wholeText n
  appendData p str

/-- The loop of `_dom_node_normalize`, src/core/node.c:1196-1215. -/
def normalizeLoop (rec : NodeId → M Unit) : Nat → NodeId → Option NodeId → M Unit
  | _, _, none => pure ()
  | 0, _, some _ => M.crash .diverge
  | fuel + 1, p, some n => do
      let nn ← getNode n
      let pn ← getNode p
      if nn.type = .text ∧ pn.type = .text then do
        mergeText p n
        detach n
        unref n
        let pn ← getNode p
        normalizeLoop rec fuel p pn.next
      else do
        (if nn.type ≠ .text then rec n else pure ())
        let nn ← getNode n
        normalizeLoop rec fuel n nn.next

/-- `_dom_node_normalize`, src/core/node.c:1185-1218. -/
def normalizeBody (rec : NodeId → M Unit) (x : NodeId) : M Unit := do
  let n ← getNode x
  match n.first with
  | none => pure ()
  | some p => do
      let pn ← getNode p
      let b ← bound
      normalizeLoop rec b p pn.next

/-- The virtual `dom_node_normalize`.  The bound on the nesting is a device of the model. -/
def normalizeWith : Nat → NodeId → M Unit
  | 0, _ => M.crash .diverge
  | fuel + 1, x => normalizeBody (normalizeWith fuel) x

/-- `dom_node_normalize`, include/dom/core/node.h. -/
def normalize (x : NodeId) : M Unit := do
  let b ← bound
  normalizeWith (b + 1) x

end Dom.Tree
