import Verif.Tree.Insert
/-!
# Specification of `insertBefore`
-/
namespace Dom.Tree

/-- `x` is a live node of the given type. -/
def IsType (w : World) (x : NodeId) (t : NodeType) : Prop := ∃ n, w.nodes x = some n ∧ n.type = t

/-- The nodes that an insertion of `new` puts in place: its children if it is a DocumentFragment, else itself. -/
def moved (ch : Children) (new : NodeId) (n : Node) : List NodeId :=
  if n.type = .fragment then ch new else [new]

/-- What a successful `insertBefore p new ref` does to the tree: the moved nodes stand before `ref` (at the end if
there is none) among the other children of `p`; they have left the place where they were; the child lists are
otherwise as before; every other datum of every node is as before, except that `new` has one reference more and that
a DocumentType put into a Document then belongs to it. -/
structure Inserted (w : World) (ch : Children) (p new : NodeId) (nn pn : Node) (r : Option NodeId)
    (w' : World) (ch' : Children) : Prop where
  wf : WF w' ch'
  here : ∃ a b, (ch p).filter (· ≠ new) = a ++ b ∧ b.head? = r ∧ ch' p = a ++ moved ch new nn ++ b
  elsewhere : ∀ q, q ≠ p → ch' q = if q = new ∧ nn.type = .fragment then [] else (ch q).filter (· ≠ new)
  data : ∀ j, (w'.nodes j).map Node.data = (w.nodes j).map Node.data
  refs : ∀ j, (w'.nodes j).map Node.refcnt =
    (w.nodes j).map fun n => if j = new then u32 (n.refcnt + 1) else n.refcnt
  owner : ∀ j, (w'.nodes j).map Node.owner =
    (w.nodes j).map fun n => if j = new ∧ pn.type = .document ∧ nn.type = .doctype then some p else n.owner
  fresh : w'.fresh = w.fresh
  log : w'.log = w.log ++ (removalEvents w ch new nn.parent ++
    (if moved ch new nn = [] then [] else insertEvents w (removeCh ch new) p (moved ch new nn)))
  attrs : ∀ j n, w.nodes j = some n → n.type = .attribute → ∃ n', w'.nodes j = some n' ∧ n'.parent = n.parent
  pend : ∀ j n, w.nodes j = some n → n.type = .fragment → j ≠ new → ∃ n', w'.nodes j = some n' ∧ n'.pendingIn = n.pendingIn

open Classical in
/-- Whether, and with which exception, `insertBefore p new r` is refused: the first cause in this order. -/
noncomputable def insertRefusal (w : World) (ch : Children) (p new : NodeId) (nn pn : Node) (r : Option NodeId) :
    Option Exc :=
  if ¬ (nn.owner = pn.owner ∨ (nn.type = .doctype ∧ nn.owner = none)) then some .wrongDocument
  else if ReadOnly w p then some .noModificationAllowed
  else if ∃ c, r = some c ∧ c ∉ ch p then some .notFound
  else if AncSelf w p new then some .hierarchyRequest
  else if nn.type ≠ .fragment ∧ ¬ Permitted w ch p new then some .hierarchyRequest
  else if r ≠ some new ∧ ∃ q, nn.parent = some q ∧ ReadOnly w q then some .noModificationAllowed
  else none

/-- What a successful `replaceChild p new old` does to the tree: the moved nodes stand where `old` was among the other
children of `p`, they have left the place where they were, `old` has no parent, and everything else is as before,
except that `old` has one reference more.  (`log`: no event is raised for the replacement itself.) -/
structure Replaced (w : World) (ch : Children) (p new old : NodeId) (nn : Node)
    (w' : World) (ch' : Children) : Prop where
  wf : WF w' ch'
  here : ∃ a b, (ch p).filter (· ≠ new) = a ++ old :: b ∧ ch' p = a ++ moved ch new nn ++ b
  elsewhere : ∀ q, q ≠ p → ch' q = if q = new ∧ nn.type = .fragment then [] else (ch q).filter (· ≠ new)
  gone : ∀ q, old ∉ ch' q
  data : ∀ j, (w'.nodes j).map Node.data = (w.nodes j).map Node.data
  refs : ∀ j, (w'.nodes j).map Node.refcnt =
    (w.nodes j).map fun n => if j = old then u32 (n.refcnt + 1) else n.refcnt
  owner : ∀ j, (w'.nodes j).map Node.owner = (w.nodes j).map Node.owner
  fresh : w'.fresh = w.fresh
  log : w'.log = w.log ++ removalEvents w ch new nn.parent
  attrs : ∀ j n, w.nodes j = some n → n.type = .attribute → ∃ n', w'.nodes j = some n' ∧ n'.parent = n.parent
  pend : ∀ j n, w.nodes j = some n → n.type = .fragment → j ≠ new → ∃ n', w'.nodes j = some n' ∧ n'.pendingIn = n.pendingIn

open Classical in
/-- Whether, and with which exception, `replaceChild p new old` is refused: the first cause in this order. -/
noncomputable def replaceRefusal (w : World) (ch : Children) (p new old : NodeId) (nn pn : Node) : Option Exc :=
  if pn.type = .document ∧ (nn.type = .doctype ∨ nn.type = .element) then some .notSupported
  else if nn.owner ≠ pn.owner then some .wrongDocument
  else if ReadOnly w p then some .noModificationAllowed
  else if old ∉ ch p then some .notFound
  else if AncSelf w p new then some .hierarchyRequest
  else if ¬ ∀ c ∈ moved ch new nn, Permitted w ch p c then some .hierarchyRequest
  else if new ≠ old ∧ ∃ q, nn.parent = some q ∧ ReadOnly w q then some .noModificationAllowed
  else none

/-- What a successful `removeChild p old` does to the tree: `old` leaves the child list of `p` and has no parent;
everything else is as before, except that `old` has one reference more. -/
structure Removed (w : World) (ch : Children) (p old : NodeId) (w' : World) (ch' : Children) : Prop where
  wf : WF w' ch'
  lists : ∀ q, ch' q = (ch q).filter (· ≠ old)
  data : ∀ j, (w'.nodes j).map Node.data = (w.nodes j).map Node.data
  refs : ∀ j, (w'.nodes j).map Node.refcnt =
    (w.nodes j).map fun n => if j = old then u32 (n.refcnt + 1) else n.refcnt
  owner : ∀ j, (w'.nodes j).map Node.owner = (w.nodes j).map Node.owner
  fresh : w'.fresh = w.fresh
  log : w'.log = w.log ++ (changeEvents ch w.fresh true old (some p) .removal ++
    removalEvents w ch old (some p) ++ [{ kind := .subtreeModified, target := p, related := some p }])
  parents : ∀ j, (w'.nodes j).map Node.parent = (w.nodes j).map fun n => if j = old then none else n.parent
  pend : ∀ j n, w.nodes j = some n → n.type = .fragment → ∃ n', w'.nodes j = some n' ∧ n'.pendingIn = n.pendingIn

open Classical in
/-- Whether, and with which exception, `removeChild p old` is refused: the first cause in this order. -/
noncomputable def removeRefusal (w : World) (ch : Children) (p old : NodeId) (pn on : Node) : Option Exc :=
  if pn.type = .document ∧ (on.type = .doctype ∨ on.type = .element) then some .notSupported
  else if old ∉ ch p then some .notFound
  else if ReadOnly w p then some .noModificationAllowed
  else none

end Dom.Tree
