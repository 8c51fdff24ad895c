import Verif.Tree.Violations
/-!
# Mutation events of the tree-changing functions (C50)
-/
namespace Dom.Tree
set_option linter.unusedSimpArgs false

variable {w : World} {ch : Children} {p new old : NodeId} {pn nn on : Node} {r : Option NodeId}

/-- `order x` lists the subtree of `x` in document order: the node, then the subtrees of its children.  (As the tree is
finite, this equation determines `order` on it.) -/
def DocOrder (ch : Children) (order : NodeId → List NodeId) : Prop := ∀ x, order x = x :: (ch x).flatMap order

/-- DOMNodeInserted at `c` related to `p`, unless `c` has no owner document (a DocumentType on its first insertion);
then DOMNodeInsertedIntoDocument at every node below `c`, in document order. -/
def insertedEvs (order : NodeId → List NodeId) (p c : NodeId) (owned : Bool) : List Ev :=
  (if owned then [{ kind := .nodeInserted, target := c, related := some p }] else []) ++
  (order c).tail.map fun d => { kind := .insertedIntoDocument, target := d }

/-- DOMNodeRemoved at `c` related to `p`, then DOMNodeRemovedFromDocument at every node below `c`, in document order. -/
def removedEvs (order : NodeId → List NodeId) (p c : NodeId) : List Ev :=
  { kind := .nodeRemoved, target := c, related := some p } ::
  (order c).tail.map fun d => { kind := .removedFromDocument, target := d }

/-- DOMSubtreeModified at `p`. -/
def subtreeEv (p : NodeId) : Ev := { kind := .subtreeModified, target := p, related := some p }

/-- The events for taking a node out of its parent. -/
def takenOutEvs (order : NodeId → List NodeId) (par : Option NodeId) (c : NodeId) : List Ev :=
  match par with
  | none => []
  | some q => removedEvs order q c ++ [subtreeEv q]

theorem ht_any (hW : Core w ch) (x : NodeId) : Ht ch (w.fresh + 1) x := by
  cases hx : w.nodes x with
  | none =>
    intro c hc
    rw [hW.linked.dead x hx] at hc; simp at hc
  | some n => exact (hW.ht hx).mono (Nat.le_succ _)

theorem docOrder_preorder (hW : Core w ch) : DocOrder ch (preorder ch (w.fresh + 1)) := by
  intro x
  have h := preorder_stable (ht_any hW x) (Nat.le_succ (w.fresh + 1))
  conv_lhs => rw [← h]
  rfl

theorem changeEvents_removal (hW : Core w ch) {n : Node} (hx : w.nodes old = some n) (q : NodeId) :
    changeEvents ch w.fresh true old (some q) .removal = removedEvs (preorder ch (w.fresh + 1)) q old := by
  simp [changeEvents, removedEvs, preorder_stable (hW.ht hx) (Nat.le_succ _), Change.atNode, Change.below, evsAt, List.drop_one]

theorem removalEvents_eq (hW : Core w ch) {n : Node} (hx : w.nodes old = some n) (par : Option NodeId) :
    removalEvents w ch old par = takenOutEvs (preorder ch (w.fresh + 1)) par old := by
  cases par with
  | none => rfl
  | some q => simp [removalEvents, takenOutEvs, changeEvents_removal hW hx, subtreeEv]

theorem preorder_congr {ch ch' : Children} : ∀ (k : Nat) (x : NodeId), (∀ d, Below ch x d → ch' d = ch d) →
    preorder ch' k x = preorder ch k x := by
  intro k
  induction k with
  | zero => intro x _; rfl
  | succ k ih =>
    intro x h
    simp only [preorder, h x .refl]
    congr 1
    refine List.flatMap_congr fun c hc => ih c fun d hd => h d (.head hc hd)

/-- Taking `new` out of its place does not change the subtrees of the nodes to insert. -/
theorem preorder_moved (hW : Core w ch) (hx : w.nodes new = some nn) {c : NodeId} (hc : c ∈ moved ch new nn) (k : Nat) :
    preorder (removeCh ch new) k c = preorder ch k c := by
  refine preorder_congr k c fun d hd => ?_
  by_cases hf : nn.type = .fragment
  · rw [removeCh_eq hW.linked hx (fragment_parent hW hx hf)]
  · simp only [moved, hf, if_false, List.mem_singleton] at hc
    subst hc
    refine removeCh_of_not_mem fun hm => ?_
    obtain ⟨n, hn, _, hp⟩ := hW.linked.alive_child hm
    have h1 : AncSelf w d c := by
      clear hm hn hp
      induction hd with
      | refl => exact .refl
      | @tail y z _ h2 ih =>
        obtain ⟨m, hm, _, hp⟩ := hW.linked.alive_child h2
        exact Relation.ReflTransGen.head ⟨m, hm, hp⟩ ih
    have : WellFounded (fun p c => Relation.TransGen (ParentOf w) c p) := by
      refine Subrelation.wf ?_ hW.wf.transGen
      intro a b h
      exact Relation.transGen_swap.1 h
    exact wf_irrefl this c (Relation.TransGen.head' ⟨n, hn, hp⟩ h1)

/-- C50, insertion.  A successful `insertBefore p new r` (with `r` not `new`) raises exactly: if `new` had a parent,
the removal events for it; then for every inserted node DOMNodeInserted related to `p` and
DOMNodeInsertedIntoDocument for each node below it, in document order; then one DOMSubtreeModified at `p` (nothing for
an empty fragment). -/
theorem C50_insert_events (hW : WF w ch) (hp : w.nodes p = some pn) (hx : w.nodes new = some nn)
    (hr : ∀ c, r = some c → NotAttrOf w p c) (hne : r ≠ some new) {w' : World} {res : NodeId}
    (h : insertBefore p new r w = .ok w' res) :
    ∃ order, DocOrder ch order ∧
      w'.log = w.log ++ takenOutEvs order nn.parent new ++
        (if nn.type = .fragment then
          (if ch new = [] then [] else (ch new).flatMap (fun c => insertedEvs order p c true) ++ [subtreeEv p])
         else insertedEvs order p new nn.owner.isSome ++ [subtreeEv p]) := by
  rcases insertBefore_total hW hp hx hr with ⟨e, h1⟩ | ⟨h0, h1⟩ | ⟨w1, ch1, h1, h2, _⟩ | ⟨hf, h1⟩ | ⟨_, _, h1⟩
  · rw [h1] at h; cases h
  · exact absurd h0 hne
  · rw [h1] at h; cases h
    refine ⟨_, docOrder_preorder hW.toCore, ?_⟩
    rw [h2.log, removalEvents_eq hW.toCore hx, List.append_assoc]
    congr 2
    have key : ∀ c ∈ moved ch new nn, ∀ b, hasOwner w c = b →
        changeEvents (removeCh ch new) w.fresh (hasOwner w c) c (some p) .addition =
          insertedEvs (preorder ch (w.fresh + 1)) p c b := by
      rintro c hc b rfl
      have hlive : ∃ n, w.nodes c = some n := by
        by_cases hf : nn.type = .fragment
        · simp only [moved, hf, if_true] at hc
          obtain ⟨n, hn, _⟩ := hW.linked.alive_child hc; exact ⟨n, hn⟩
        · simp only [moved, hf, if_false, List.mem_singleton] at hc
          exact ⟨nn, hc ▸ hx⟩
      obtain ⟨n, hn⟩ := hlive
      simp only [changeEvents, insertedEvs, Change.atNode, Change.below, evsAt, preorder_moved hW.toCore hx hc,
        preorder_stable (hW.ht hn) (Nat.le_succ _), List.drop_one]
    by_cases hf : nn.type = .fragment
    · simp only [hf, if_true, moved]
      by_cases he : ch new = []
      · simp [he]
      · simp only [he, if_false, insertEvents, subtreeEv]
        congr 1
        refine List.flatMap_congr fun c hc => key c (by simpa [moved, hf] using hc) true ?_
        obtain ⟨n, hn, hna, hpar⟩ := hW.linked.alive_child hc
        rcases hW.owner c n hn with ⟨d, dn, ho, _⟩ | ⟨_, _, h3⟩
        · simp [hasOwner, hn, ho]
        · rw [hpar] at h3; cases h3
    · simp only [hf, if_false, moved, List.cons_ne_nil, insertEvents, subtreeEv]
      congr 1
      simp only [List.flatMap_cons, List.flatMap_nil, List.append_nil]
      exact key new (by simp [moved, hf]) _ (by simp [hasOwner, hx])
  · rw [h1] at h; cases h
  · rw [h1] at h; cases h

/-- C50, removal as the code does it.  A successful `removeChild p old` raises the removal events for `old` twice and
DOMSubtreeModified at `p` twice.  (The claim asks for once; see `C50_remove_twice_violated`.) -/
theorem C50_remove_events_partial (hW : WF w ch) (hp : w.nodes p = some pn) (ho : NotAttrOf w p old) {w' : World}
    {res : NodeId} (h : removeChild p old w = .ok w' res) :
    ∃ order, DocOrder ch order ∧
      w'.log = w.log ++ removedEvs order p old ++ removedEvs order p old ++ [subtreeEv p, subtreeEv p] := by
  obtain ⟨on, ho, hna⟩ := ho
  cases he : removeRefusal w ch p old pn on with
  | some e => rw [removeChild_refused hW hp ho hna he] at h; cases h
  | none =>
    obtain ⟨w1, ch1, h1, h2⟩ := removeChild_ok hW hp ho hna he
    rw [h1] at h; cases h
    refine ⟨_, docOrder_preorder hW.toCore, ?_⟩
    rw [h2.log, removalEvents_eq hW.toCore ho, changeEvents_removal hW.toCore ho]
    simp [takenOutEvs, subtreeEv]

/-- C50, replacement as the code does it.  A successful `replaceChild p new old` raises only the events for taking
`new` out of its previous parent: nothing tells that `old` is removed and `new` inserted.  (See
`C50_replace_silent_violated`.) -/
theorem C50_replace_events_partial (hW : WF w ch) (hp : w.nodes p = some pn) (hx : w.nodes new = some nn)
    (ho : w.nodes old = some on) (hna : on.type = .attribute → on.parent ≠ some p) (hne : new ≠ old)
    (hempty : nn.type = .fragment → nn.first = none → on.prev = none ∧ on.next = none) {w' : World} {res : NodeId}
    (h : replaceChild p new old w = .ok w' res) :
    ∃ order, DocOrder ch order ∧ w'.log = w.log ++ takenOutEvs order nn.parent new := by
  rcases replaceChild_total hW hp hx ho hna hempty with ⟨e, h1⟩ | ⟨h0, h1⟩ | ⟨w1, ch1, h1, h2, _⟩ | ⟨_, _, h1⟩
  · rw [h1] at h; cases h
  · exact absurd h0 hne
  · rw [h1] at h; cases h
    exact ⟨_, docOrder_preorder hW.toCore, by rw [h2.log, removalEvents_eq hW.toCore hx]⟩
  · rw [h1] at h; cases h

/-- C50, failure.  A call that raises an exception raises no event. -/
theorem C50_failed_silent (hW : WF w ch) {c : Call} (hok : c.Ok w) {w' : World} {e : Exc} (h : c.run w = .exc w' e) :
    w'.log = w.log :=
  (C23_failed_links_partial hW hok h).2.2.1

/-- C50 is false of the code: one `removeChild` raises two DOMNodeRemoved events at the removed node
(src/core/node.c:1009 and, through `_dom_node_detach`, 2186). -/
theorem C50_remove_twice_violated : ∃ w, Reach (fun w c => c.Ok w) w ∧ ∃ w', ((Call.removeChild 1 2).run w).world = some w' ∧
    Call.Ok w (.removeChild 1 2) ∧
    (w'.log.drop w.log.length).count { kind := .nodeRemoved, target := 2, related := some 1 } = 2 := by
  obtain ⟨w, hr, h⟩ := exists_ok
    [.createDocument, .createNode 0 .element none none, .createNode 0 .text none none, .appendChild 1 2]
    (fun w => (Call.removeChild 1 2).okB w && (((Call.removeChild 1 2).run w).world).any (fun w' =>
      (w'.log.drop w.log.length).count { kind := .nodeRemoved, target := 2, related := some 1 } = 2))
    (by decide +kernel)
  simp only [Bool.and_eq_true] at h
  cases hc : ((Call.removeChild 1 2).run w).world with
  | none => rw [hc] at h; simp at h
  | some w' => rw [hc] at h; exact ⟨w, hr, w', hc, ok_of_okB h.1, by simpa using h.2⟩

/-- C50 is false of the code: replacing a text by a fresh text raises no event at all (`_dom_node_replace`,
src/core/node.c:2215-2262). -/
theorem C50_replace_silent_violated : ∃ w, Reach (fun w c => c.Ok w) w ∧
    ∃ w', (Call.replaceChild 1 3 2).run w = .ok w' 2 ∧ Call.Ok w (.replaceChild 1 3 2) ∧ w'.log = w.log := by
  obtain ⟨w, hr, h⟩ := exists_ok
    [.createDocument, .createNode 0 .element none none, .createNode 0 .text none none, .createNode 0 .text none none,
     .appendChild 1 2]
    (fun w => (Call.replaceChild 1 3 2).okB w && (match (Call.replaceChild 1 3 2).run w with
      | .ok w' r => w'.log = w.log && r = 2
      | _ => false))
    (by decide +kernel)
  simp only [Bool.and_eq_true] at h
  cases hc : (Call.replaceChild 1 3 2).run w with
  | ok w' r =>
    rw [hc] at h
    simp only [Bool.and_eq_true, decide_eq_true_eq] at h
    exact ⟨w, hr, w', by rw [hc, h.2.2], ok_of_okB h.1, h.2.1⟩
  | exc w' e => rw [hc] at h; simp at h
  | fault f => rw [hc] at h; simp at h

end Dom.Tree
