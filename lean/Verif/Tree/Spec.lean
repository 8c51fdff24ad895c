import Verif.Tree.Heap
import Mathlib.Logic.Relation
/-!
# Specification vocabulary for the node tree

Nothing here uses the functions of the model; only the memory (`World`) is mentioned.
-/
namespace Dom.Tree

/-- A reading of the tree: for every node its children, in order. -/
abbrev Children := NodeId → List NodeId

/-- The links around the children of `p` say exactly what `ch p` says: `first_child` and `last_child` are the
ends of the list; every child is a live non-attribute node whose parent is `p` and whose sibling pointers are
its neighbours in the list; no node occurs twice. -/
structure LocAt (w : World) (ch : Children) (p : NodeId) : Prop where
  ends : ∃ n, w.nodes p = some n ∧ n.first = (ch p).head? ∧ n.last = (ch p).getLast?
  kids : ∀ a c b, ch p = a ++ c :: b →
    ∃ n, w.nodes c = some n ∧ n.type ≠ .attribute ∧ n.parent = some p ∧
      n.prev = a.getLast? ∧ n.next = b.head?
  nodup : (ch p).Nodup

/-- All the links of the memory agree with one tree: every live node's child list is `ch`; a node that is not
an attribute and has a parent is in the child list of that parent; the parent of an attribute is a live
element; nodes outside any child list have no siblings. -/
structure Linked (w : World) (ch : Children) : Prop where
  loc : ∀ p n, w.nodes p = some n → LocAt w ch p
  dead : ∀ p, w.nodes p = none → ch p = []
  up : ∀ c n p, w.nodes c = some n → n.type ≠ .attribute → n.parent = some p → c ∈ ch p
  attrUp : ∀ c n p, w.nodes c = some n → n.type = .attribute → n.parent = some p →
    ∃ e, w.nodes p = some e ∧ e.type = .element
  orphan : ∀ c n, w.nodes c = some n → (n.parent = none ∨ n.type = .attribute) →
    n.prev = none ∧ n.next = none

/-- `p` is the parent stored in node `c`. -/
def ParentOf (w : World) (c p : NodeId) : Prop := ∃ n, w.nodes c = some n ∧ n.parent = some p

/-- `j` is `i` or one of its ancestors. -/
def AncSelf (w : World) (i j : NodeId) : Prop := Relation.ReflTransGen (ParentOf w) i j

/-- No node is its own ancestor. -/
def Acyclic (w : World) : Prop := ∀ i, ¬ Relation.TransGen (ParentOf w) i i

/-- `d` is `n` or a descendant of `n`, following child lists. -/
def Below (ch : Children) (n d : NodeId) : Prop := Relation.ReflTransGen (fun p c => c ∈ ch p) n d

/-- Document order of the subtree of `x`, for trees of height at most `k`. -/
def preorder (ch : Children) : Nat → NodeId → List NodeId
  | 0, _ => []
  | k + 1, x => x :: (ch x).flatMap (preorder ch k)

/-- A node that refuses modification: DocumentType and Notation nodes, attributes marked so, and the nodes in
an Entity or EntityReference subtree (an attribute's own flag decides for the attribute). -/
def ReadOnly (w : World) (i : NodeId) : Prop :=
  ∃ n, w.nodes i = some n ∧
    (n.type = .doctype ∨ n.type = .notation_ ∨
     (n.type = .attribute ∧ n.attrRO = true) ∨
     (n.type ≠ .attribute ∧ ∃ j m, AncSelf w i j ∧ w.nodes j = some m ∧
        (m.type = .entity ∨ m.type = .entityRef)))

/-- DOM3 Core 1.1.1: which node types may appear below which. -/
inductive MayContain : NodeType → NodeType → Prop
  | content {p c} (hp : p ∈ [.element, .entityRef, .entity, .fragment])
      (hc : c ∈ [.element, .text, .comment, .pi, .cdata, .entityRef]) : MayContain p c
  | attr {c} (hc : c ∈ [.text, .entityRef]) : MayContain .attribute c
  | doc {c} (hc : c ∈ [.element, .pi, .comment, .doctype]) : MayContain .document c

/-- `c` may be put below `p`: by its type, and a Document takes one Element and one DocumentType only. -/
def Permitted (w : World) (ch : Children) (p c : NodeId) : Prop :=
  ∃ pn cn, w.nodes p = some pn ∧ w.nodes c = some cn ∧ MayContain pn.type cn.type ∧
    (pn.type = .document → (cn.type = .element ∨ cn.type = .doctype) →
      ∀ x ∈ ch p, ∀ xn, w.nodes x = some xn → xn.type ≠ cn.type)

/-- The invariant of the memory kept by the tree functions, without the part about pending lists. -/
structure Core (w : World) (ch : Children) : Prop where
  linked : Linked w ch
  bnd : ∀ i n, w.nodes i = some n → i < w.fresh
  /-- going from node to parent ends; in particular no node is its own ancestor -/
  wf : WellFounded (fun p c => ParentOf w c p)
  /-- everything but an unattached DocumentType belongs to a live Document, Documents to themselves -/
  owner : ∀ i n, w.nodes i = some n →
    (∃ d dn, n.owner = some d ∧ w.nodes d = some dn ∧ dn.type = .document) ∨
    (n.type = .doctype ∧ n.owner = none ∧ n.parent = none)
  ownDoc : ∀ i n, w.nodes i = some n → n.type = .document → n.owner = some i
  /-- parent and child belong to the same Document -/
  ownSame : ∀ i n p pn, w.nodes i = some n → n.parent = some p → w.nodes p = some pn → n.owner = pn.owner
  types : ∀ p pn c cn, w.nodes p = some pn → c ∈ ch p → w.nodes c = some cn → MayContain pn.type cn.type

/-- The invariant of the memory kept by the tree functions. -/
structure WF (w : World) (ch : Children) : Prop extends Core w ch where
  /-- on the pending list of the owner exactly when without parent; a Document never, a DocumentFragment
  possibly not (insertion takes it off and nothing puts it back) -/
  pending : ∀ i n, w.nodes i = some n →
    n.pendingIn = (if n.parent.isSome ∨ n.type = .document then none else n.owner) ∨
    (n.type = .fragment ∧ n.pendingIn = none)

end Dom.Tree
