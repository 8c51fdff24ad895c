import Verif.Tree.Calls
/-!
# Properties of the tree-changing functions

`Reach P w`: the memory `w` is reached from the empty one by calls that satisfy `P` (Verif/Tree/Calls.lean).
`Call.Ok`: the arguments are live nodes, and the call is none of the two kinds that corrupt the child lists (those are
shown as violations in Verif/Tree/Violations.lean).
`WF w ch`: the invariant (Verif/Tree/Spec.lean), with `ch` the child lists.
-/
namespace Dom.Tree
set_option linter.unusedSimpArgs false

variable {w : World} {ch : Children}

theorem wf_irrefl {α : Type} {r : α → α → Prop} (h : WellFounded r) (a : α) : ¬ r a a :=
  h.induction (C := fun x => ¬ r x x) a fun x ih hx => ih x hx hx

/-- Following `nextSibling` from `o` visits exactly `l` and then ends. -/
inductive Fwd (w : World) : Option NodeId → List NodeId → Prop
  | done : Fwd w none []
  | step {c : NodeId} {n : Node} {l : List NodeId} : w.nodes c = some n → Fwd w n.next l → Fwd w (some c) (c :: l)

/-- Following `previousSibling` from `o` visits exactly `l` and then ends. -/
inductive Bwd (w : World) : Option NodeId → List NodeId → Prop
  | done : Bwd w none []
  | step {c : NodeId} {n : Node} {l : List NodeId} : w.nodes c = some n → Bwd w n.prev l → Bwd w (some c) (c :: l)

theorem LocAt.fwd {p : NodeId} (h : LocAt w ch p) : ∀ (l pre : List NodeId), ch p = pre ++ l → Fwd w l.head? l := by
  intro l
  induction l with
  | nil => intro _ _; exact .done
  | cons c l ih =>
    intro pre hl
    obtain ⟨n, hn, _, _, _, hnext⟩ := h.kids pre c l hl
    exact .step hn (hnext ▸ ih (pre ++ [c]) (by simp [hl]))

theorem LocAt.bwd {p : NodeId} (h : LocAt w ch p) : ∀ (l post : List NodeId), ch p = l.reverse ++ post →
    Bwd w l.head? l := by
  intro l
  induction l with
  | nil => intro _ _; exact .done
  | cons c l ih =>
    intro post hl
    obtain ⟨n, hn, _, _, hprev, _⟩ := h.kids l.reverse c post (by simpa using hl)
    rw [List.getLast?_reverse] at hprev
    exact .step hn (hprev ▸ ih (c :: post) (by simpa using hl))

/-- C19.  In every reachable state, and for every node `p`: the enumeration by `firstChild` and `nextSibling` ends and
has no duplicates, the one by `lastChild` and `previousSibling` is its reverse, and the enumerated nodes are exactly
the (non-attribute) nodes whose parent is `p`.  A node without parent has no siblings. -/
theorem C19_links_agree (hr : Reach (fun w c => c.Ok w) w) :
    (∀ p pn, w.nodes p = some pn → ∃ l, Fwd w pn.first l ∧ Bwd w pn.last l.reverse ∧ l.Nodup ∧
      ∀ c, c ∈ l ↔ ∃ n, w.nodes c = some n ∧ n.type ≠ .attribute ∧ n.parent = some p) ∧
    (∀ c n, w.nodes c = some n → n.parent = none → n.prev = none ∧ n.next = none) := by
  obtain ⟨ch, hW⟩ := hr.wf (fun _ _ h => h)
  refine ⟨fun p pn hp => ⟨ch p, ?_, ?_, (hW.linked.loc p pn hp).nodup, fun c => ⟨fun h => ?_, ?_⟩⟩, fun c n hc h =>
    hW.linked.orphan c n hc (.inl h)⟩
  · obtain ⟨n, hn, h1, _⟩ := (hW.linked.loc p pn hp).ends
    rw [hp] at hn; cases hn
    rw [h1]
    exact (hW.linked.loc p pn hp).fwd (ch p) [] rfl
  · obtain ⟨n, hn, _, h1⟩ := (hW.linked.loc p pn hp).ends
    rw [hp] at hn; cases hn
    rw [h1, ← List.head?_reverse]
    exact (hW.linked.loc p pn hp).bwd _ [] (by simp)
  · obtain ⟨n, hn, h1, h2⟩ := hW.linked.alive_child h
    exact ⟨n, hn, h1, h2⟩
  · rintro ⟨n, hn, h1, h2⟩
    exact hW.linked.up c n p hn h1 h2

/-- C24, first part.  In every reachable state no node is its own ancestor. -/
theorem C24_acyclic (hr : Reach (fun w c => c.Ok w) w) : Acyclic w := by
  obtain ⟨ch, hW⟩ := hr.wf (fun _ _ h => h)
  intro i hi
  have : WellFounded (fun p c => Relation.TransGen (ParentOf w) c p) := by
    have := hW.wf.transGen
    refine Subrelation.wf ?_ this
    intro a b h
    exact Relation.transGen_swap.1 h
  exact wf_irrefl this i hi

/-- C24, second part.  Inserting a node below itself or below one of its descendants is refused, with
HIERARCHY_REQUEST_ERR unless the target is read-only, the reference node is not its child, or the documents differ;
nothing changes. -/
theorem C24_insert_cycle_refused (hW : WF w ch) {p new : NodeId} {pn nn : Node} {r : Option NodeId}
    (hp : w.nodes p = some pn) (hx : w.nodes new = some nn) (hr : ∀ c, r = some c → NotAttrOf w p c)
    (hcyc : AncSelf w p new) :
    ∃ e, insertBefore p new r w = .exc w e ∧
      (nn.owner = pn.owner → ¬ ReadOnly w p → (∀ c, r = some c → c ∈ ch p) → e = .hierarchyRequest) := by
  have key : ∃ e, insertRefusal w ch p new nn pn r = some e ∧
      (nn.owner = pn.owner → ¬ ReadOnly w p → (∀ c, r = some c → c ∈ ch p) → e = .hierarchyRequest) := by
    unfold insertRefusal
    split
    · exact ⟨_, rfl, fun h => absurd (Or.inl h) ‹_›⟩
    split
    · exact ⟨_, rfl, fun _ h => absurd ‹_› h⟩
    split
    · obtain ⟨c, h1, h2⟩ := ‹∃ c, r = some c ∧ c ∉ ch p›
      exact ⟨_, rfl, fun _ _ h => absurd (h c h1) h2⟩
    · exact ⟨_, rfl, fun _ _ _ => rfl⟩
  obtain ⟨e, he, h⟩ := key
  exact ⟨e, insertBefore_refused hW hp hx hr he, h⟩

/-- C24, third part.  The same for `replaceChild`. -/
theorem C24_replace_cycle_refused (hW : WF w ch) {p new old : NodeId} {pn nn : Node}
    (hp : w.nodes p = some pn) (hx : w.nodes new = some nn) (ho : NotAttrOf w p old) (hcyc : AncSelf w p new) :
    ∃ e, replaceChild p new old w = .exc w e ∧
      (nn.owner = pn.owner → ¬ ReadOnly w p → old ∈ ch p →
        ¬ (pn.type = .document ∧ (nn.type = .doctype ∨ nn.type = .element)) → e = .hierarchyRequest) := by
  obtain ⟨on, ho, hna⟩ := ho
  have key : ∃ e, replaceRefusal w ch p new old nn pn = some e ∧
      (nn.owner = pn.owner → ¬ ReadOnly w p → old ∈ ch p →
        ¬ (pn.type = .document ∧ (nn.type = .doctype ∨ nn.type = .element)) → e = .hierarchyRequest) := by
    unfold replaceRefusal
    split
    · exact ⟨_, rfl, fun _ _ _ h => absurd ‹_› h⟩
    split
    · exact ⟨_, rfl, fun h => absurd h ‹_›⟩
    split
    · exact ⟨_, rfl, fun _ h => absurd ‹_› h⟩
    split
    · exact ⟨_, rfl, fun _ _ h => absurd h ‹_›⟩
    · exact ⟨_, rfl, fun _ _ _ _ => rfl⟩
  obtain ⟨e, he, h⟩ := key
  exact ⟨e, replaceChild_refused hW hp hx ho hna he, h⟩

/-- C25, first part.  In every reachable state each child has a type that the DOM allows below its parent's type. -/
theorem C25_child_types (hr : Reach (fun w c => c.Ok w) w) {c p : NodeId} {cn pn : Node} (hc : w.nodes c = some cn)
    (hp : w.nodes p = some pn) (hna : cn.type ≠ .attribute) (hpar : cn.parent = some p) :
    MayContain pn.type cn.type := by
  obtain ⟨ch, hW⟩ := hr.wf (fun _ _ h => h)
  exact hW.types p pn c cn hp (hW.linked.up c cn p hc hna hpar) hc

/-- C25, second part.  In every state reached without giving a Document a fragment with two Element children, a
Document has at most one Element child and at most one DocumentType child.  (Without that condition the claim is
false, see `C25_two_roots_violated`.) -/
theorem C25_one_root_partial (hr : Reach (fun w c => c.Ok w ∧ c.Ok1 w) w) {p x y : NodeId} {pn xn yn : Node}
    (hp : w.nodes p = some pn) (hdoc : pn.type = .document) (hx : w.nodes x = some xn) (hy : w.nodes y = some yn)
    (hxp : xn.parent = some p) (hyp : yn.parent = some p) (ht : xn.type = .element ∨ xn.type = .doctype)
    (he : xn.type = yn.type) : x = y := by
  obtain ⟨ch, hW, h1⟩ := hr.one
  have hna : xn.type ≠ .attribute := by rcases ht with h | h <;> simp [h]
  exact h1 p pn hp hdoc x (hW.linked.up x xn p hx hna hxp) y (hW.linked.up y yn p hy (he ▸ hna) hyp) xn yn hx hy ht he

/-- C26, first part.  In every reachable state a node and its parent have the same owner document, a Document is its
own, and the owner is a live Document for every node except a DocumentType that was never inserted. -/
theorem C26_one_owner (hr : Reach (fun w c => c.Ok w) w) :
    (∀ i n p pn, w.nodes i = some n → n.parent = some p → w.nodes p = some pn → n.owner = pn.owner) ∧
    (∀ i n, w.nodes i = some n → n.type = .document → n.owner = some i) ∧
    (∀ i n, w.nodes i = some n → (∃ d dn, n.owner = some d ∧ w.nodes d = some dn ∧ dn.type = .document) ∨
      (n.type = .doctype ∧ n.owner = none ∧ n.parent = none)) := by
  obtain ⟨ch, hW⟩ := hr.wf (fun _ _ h => h)
  exact ⟨hW.ownSame, hW.ownDoc, hW.owner⟩

/-- C26, second part.  Inserting or replacing with a node of another document is refused with WRONG_DOCUMENT_ERR and
changes nothing (for `replaceChild` a Document target refuses Elements and DocumentTypes before). -/
theorem C26_wrong_document (hW : WF w ch) {p new : NodeId} {pn nn : Node}
    (hp : w.nodes p = some pn) (hx : w.nodes new = some nn) (hdoc : nn.owner ≠ pn.owner)
    (hdt : nn.type ≠ .doctype ∨ nn.owner ≠ none) :
    (∀ r, (∀ c, r = some c → NotAttrOf w p c) → insertBefore p new r w = .exc w .wrongDocument) ∧
    (∀ old, NotAttrOf w p old → ∃ e, replaceChild p new old w = .exc w e ∧
      (¬ (pn.type = .document ∧ (nn.type = .doctype ∨ nn.type = .element)) → e = .wrongDocument)) := by
  constructor
  · intro r hr
    refine insertBefore_refused hW hp hx hr ?_
    unfold insertRefusal
    rw [if_pos]
    rintro (h | ⟨h1, h2⟩)
    · exact hdoc h
    · rcases hdt with h | h
      · exact h h1
      · exact h h2
  · rintro old ⟨on, ho, hna⟩
    by_cases h : pn.type = .document ∧ (nn.type = .doctype ∨ nn.type = .element)
    · exact ⟨_, replaceChild_refused hW hp hx ho hna (by unfold replaceRefusal; rw [if_pos h]), fun h' => absurd h h'⟩
    · exact ⟨_, replaceChild_refused hW hp hx ho hna
        (by unfold replaceRefusal; rw [if_neg h, if_pos hdoc]), fun _ => rfl⟩

/-- C29, first part.  `contains a b` changes nothing and answers whether `a` is `b` or one of its ancestors. -/
theorem C29_contains (hW : WF w ch) {a b : NodeId} {an bn : Node} (ha : w.nodes a = some an) (hb : w.nodes b = some bn) :
    ∃ r, contains a b w = .ok w r ∧ (r = true ↔ AncSelf w b a) := by
  have hown : ∀ {i j : NodeId}, AncSelf w i j → ∀ {m n : Node}, w.nodes i = some m → w.nodes j = some n → m.owner = n.owner := by
    intro i j h
    induction h with
    | refl => intro m n hm hn; rw [hm] at hn; cases hn; rfl
    | tail h1 h2 ih =>
      intro m n hm hn
      obtain ⟨k, hk, hkp⟩ := h2
      rw [ih hm hk]
      exact hW.ownSame _ k _ n hk hkp hn
  unfold contains
  rw [get_bind ha, get_bind hb]
  by_cases h : an.owner = bn.owner
  · obtain ⟨r, h1, h2⟩ := isSelfOrAncestor_run hW.toCore a hb
    refine ⟨r, ?_, h2⟩
    simp only [h, ne_eq, not_true_eq_false, decide_false, if_false]
    unfold isSelfOrAncestor at h1
    exact h1
  · refine ⟨false, by simp [h]; rfl, ?_⟩
    simp only [Bool.false_eq_true, false_iff]
    intro h'
    exact h (hown h' hb ha).symm

/-- C29, second part.  For nodes outside attributes, "`a` is `b` or an ancestor" is "`b` is in the subtree of `a`". -/
theorem C29_contains_subtree (hW : WF w ch) {a b : NodeId}
    (hno : ∀ j m, AncSelf w b j → w.nodes j = some m → m.type ≠ .attribute) : AncSelf w b a ↔ Below ch a b := by
  constructor
  · intro h
    induction h with
    | refl => exact .refl
    | @tail x y h1 h2 ih =>
      obtain ⟨n, hn, hp⟩ := h2
      refine Relation.ReflTransGen.head ?_ ih
      exact hW.linked.up x n y hn (hno x n h1 hn) hp
  · intro h
    clear hno
    induction h with
    | refl => exact .refl
    | @tail x y h1 h2 ih =>
      obtain ⟨n, hn, _, hp⟩ := hW.linked.alive_child h2
      exact Relation.ReflTransGen.head ⟨n, hn, hp⟩ ih

/-- C29, third part.  The relation is a partial order. -/
theorem C29_partial_order (hW : WF w ch) :
    (∀ a, AncSelf w a a) ∧ (∀ a b c, AncSelf w a b → AncSelf w b c → AncSelf w a c) ∧
    (∀ a b, AncSelf w a b → AncSelf w b a → a = b) := by
  refine ⟨fun _ => .refl, fun _ _ _ => .trans, fun a b h1 h2 => ?_⟩
  rcases Relation.reflTransGen_iff_eq_or_transGen.1 h1 with h | h
  · exact h.symm
  · exfalso
    have : WellFounded (fun p c => Relation.TransGen (ParentOf w) c p) := by
      refine Subrelation.wf ?_ hW.wf.transGen
      intro a b h
      exact Relation.transGen_swap.1 h
    exact wf_irrefl this a (h.trans_left h2)

end Dom.Tree
