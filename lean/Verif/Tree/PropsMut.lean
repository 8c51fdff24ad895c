import Verif.Tree.Props
/-!
# Properties of single tree-changing calls

`WF w ch` holds in every reachable state (`Reach.wf`), and `ch` is determined by `w` (`WF.unique`).
-/
namespace Dom.Tree
set_option linter.unusedSimpArgs false

variable {w : World} {ch : Children} {p new old : NodeId} {pn nn on : Node} {r : Option NodeId}

/-- C20, effect.  When `insertBefore p new r` succeeds, with `r` not `new` itself: it returns `new`; the node (or the
children of the fragment, in order) stands directly before `r`, at the end for null, among the other children of `p`;
it is gone from where it was and a fragment is empty; no other child list changes; no datum of any node changes, and
no owner except that of a DocumentType without one; only `new` gets a reference. -/
theorem C20_insert_effect (hW : WF w ch) (hp : w.nodes p = some pn) (hx : w.nodes new = some nn)
    (hr : ∀ c, r = some c → NotAttrOf w p c) (hne : r ≠ some new) {w' : World} {res : NodeId}
    (h : insertBefore p new r w = .ok w' res) :
    res = new ∧ ∃ ch', WF w' ch' ∧
      (∃ a b, (ch p).filter (· ≠ new) = a ++ b ∧ b.head? = r ∧
        ch' p = a ++ (if nn.type = .fragment then ch new else [new]) ++ b) ∧
      (∀ q, q ≠ p → ch' q = if q = new ∧ nn.type = .fragment then [] else (ch q).filter (· ≠ new)) ∧
      (∀ j, (w'.nodes j).map Node.data = (w.nodes j).map Node.data) ∧
      (∀ j, (w'.nodes j).map Node.owner = (w.nodes j).map fun n =>
        if j = new ∧ pn.type = .document ∧ nn.type = .doctype then some p else n.owner) ∧
      (∀ j, (w'.nodes j).map Node.refcnt = (w.nodes j).map fun n => if j = new then u32 (n.refcnt + 1) else n.refcnt) := by
  rcases insertBefore_total hW hp hx hr with ⟨e, h1⟩ | ⟨h0, h1⟩ | ⟨w1, ch1, h1, h2, _⟩ | ⟨hf, h1⟩ | ⟨_, _, h1⟩
  · rw [h1] at h; cases h
  · exact absurd h0 hne
  · rw [h1] at h; cases h
    exact ⟨rfl, ch1, h2.wf, h2.here, h2.elsewhere, h2.data, h2.owner, h2.refs⟩
  · rw [h1] at h; cases h
  · rw [h1] at h; cases h

/-- C20, the case of inserting a child before itself: it succeeds and changes nothing but the reference count. -/
theorem C20_insert_self (hW : WF w ch) (hp : w.nodes p = some pn) (hx : w.nodes new = some nn)
    (hna : nn.type = .attribute → nn.parent ≠ some p) {w' : World} {res : NodeId}
    (h : insertBefore p new (some new) w = .ok w' res) :
    res = new ∧ WF w' ch ∧ (∀ j, (w'.nodes j).map (fun n => { n with refcnt := 0 }) =
      (w.nodes j).map fun n => { n with refcnt := 0 }) ∧ w'.log = w.log := by
  cases he : insertRefusal w ch p new nn pn (some new) with
  | some e =>
    rw [insertBefore_refused hW hp hx (by rintro c ⟨⟩; exact ⟨nn, hx, hna⟩) he] at h
    cases h
  | none =>
    rw [insertBefore_nop hW hp hx hna he] at h
    cases h
    refine ⟨rfl, WF_ref hW new, fun j => ?_, by simp [World.mp]⟩
    rw [mp_nodes]; cases w.nodes j <;> simp

/-- C20, `appendChild`: the same with the nodes at the end. -/
theorem C20_append_effect (hW : WF w ch) (hp : w.nodes p = some pn) (hx : w.nodes new = some nn)
    {w' : World} {res : NodeId} (h : appendChild p new w = .ok w' res) :
    res = new ∧ ∃ ch', WF w' ch' ∧
      ch' p = (ch p).filter (· ≠ new) ++ (if nn.type = .fragment then ch new else [new]) ∧
      (∀ q, q ≠ p → ch' q = if q = new ∧ nn.type = .fragment then [] else (ch q).filter (· ≠ new)) ∧
      (∀ j, (w'.nodes j).map Node.data = (w.nodes j).map Node.data) := by
  obtain ⟨h1, ch', h2, ⟨a, b, h3, h4, h5⟩, h6, h7, _⟩ := C20_insert_effect hW hp hx (r := none) (by simp) (by simp) h
  have hb : b = [] := by simpa using h4
  subst hb
  refine ⟨h1, ch', h2, ?_, h6, h7⟩
  rw [h5, h3]; simp

/-- C20, decision.  `insertBefore p new r` (for `r` not `new`) returns normally exactly when: the documents agree (or
`new` is a DocumentType without owner), `p` is not read-only, `r` is null or a child of `p`, `new` is not `p` or an
ancestor of it, every inserted node is permitted below `p`, and the node's present parent is not read-only — given
that a fragment has not been inserted before. -/
theorem C20_insert_decision (hW : WF w ch) (hp : w.nodes p = some pn) (hx : w.nodes new = some nn)
    (hr : ∀ c, r = some c → NotAttrOf w p c) (hne : r ≠ some new) (hpend : nn.type = .fragment → nn.pendingIn ≠ none) :
    (∃ w' res, insertBefore p new r w = .ok w' res) ↔
      (nn.owner = pn.owner ∨ (nn.type = .doctype ∧ nn.owner = none)) ∧ ¬ ReadOnly w p ∧
      (∀ c, r = some c → c ∈ ch p) ∧ ¬ AncSelf w p new ∧
      (∀ c ∈ (if nn.type = .fragment then ch new else [new]), Permitted w ch p c) ∧
      (∀ q, nn.parent = some q → ¬ ReadOnly w q) := by
  have hiff : insertRefusal w ch p new nn pn r = none ↔
      (nn.owner = pn.owner ∨ (nn.type = .doctype ∧ nn.owner = none)) ∧ ¬ ReadOnly w p ∧
      (∀ c, r = some c → c ∈ ch p) ∧ ¬ AncSelf w p new ∧ (nn.type ≠ .fragment → Permitted w ch p new) ∧
      (∀ q, nn.parent = some q → ¬ ReadOnly w q) := by
    unfold insertRefusal
    split_ifs with h1 h2 h3 h4 h5 h6
    · simp [h2]
    · simp only [reduceCtorEq, false_iff]
      rintro ⟨_, _, h, _⟩
      obtain ⟨c, hc, hc'⟩ := h3
      exact hc' (h c hc)
    · simp [h4]
    · simp only [reduceCtorEq, false_iff]
      rintro ⟨_, _, _, _, h, _⟩
      exact h5.2 (h h5.1)
    · simp only [reduceCtorEq, false_iff]
      rintro ⟨_, _, _, _, _, h⟩
      obtain ⟨_, q, hq, hro⟩ := h6
      exact h q hq hro
    · simp only [true_iff]
      refine ⟨h1, h2, ?_, h4, ?_, ?_⟩
      · intro c hc; by_contra hc'; exact h3 ⟨c, hc, hc'⟩
      · intro hf; by_contra hc'; exact h5 ⟨hf, hc'⟩
      · intro q hq hro; exact h6 ⟨hne, q, hq, hro⟩
    · simp only [reduceCtorEq, false_iff]; exact fun h => h1 h.1
  cases he : insertRefusal w ch p new nn pn r with
  | some e =>
    rw [insertBefore_refused hW hp hx hr he]
    have h' : ¬ insertRefusal w ch p new nn pn r = none := by rw [he]; simp
    constructor
    · rintro ⟨_, _, h⟩; cases h
    · rintro ⟨c1, c2, c3, c4, c5, c6⟩
      exact absurd (hiff.2 ⟨c1, c2, c3, c4, fun hf => c5 new (by simp [hf]), c6⟩) h'
  | none =>
    obtain ⟨c1, c2, c3, c4, c5, c6⟩ := hiff.1 he
    by_cases hf : nn.type = .fragment
    · simp only [hf, if_true]
      by_cases hperm : ∀ c ∈ ch new, Permitted w ch p c
      · obtain ⟨w', ch', h, _⟩ := insertBefore_fragment hW hp hx hr hf (hpend hf) hperm he
        exact ⟨fun _ => ⟨by simpa [hf] using c1, c2, c3, c4, hperm, c6⟩, fun _ => ⟨_, _, h⟩⟩
      · rw [insertBefore_fragment_bad hW hp hx hr hf (hpend hf) hperm he]
        constructor
        · rintro ⟨_, _, h⟩; cases h
        · rintro ⟨_, _, _, _, h, _⟩; exact absurd h hperm
    · obtain ⟨w', ch', h, _⟩ := insertBefore_node hW hp hx hr hf hne he
      simp only [hf, if_false, List.mem_singleton, forall_eq]
      exact ⟨fun _ => ⟨c1, c2, c3, c4, c5 hf, c6⟩, fun _ => ⟨_, _, h⟩⟩

/-- C21, effect.  When `removeChild p old` succeeds: it returns `old`; exactly `old` leaves the child list of `p`;
`old` then has no parent and no siblings and keeps its children; all other child lists and all data are as before, and
only `old` gets a reference. -/
theorem C21_remove_effect (hW : WF w ch) (hp : w.nodes p = some pn) (ho : NotAttrOf w p old) {w' : World} {res : NodeId}
    (h : removeChild p old w = .ok w' res) :
    res = old ∧ old ∈ ch p ∧ ∃ ch', WF w' ch' ∧ ch' p = (ch p).filter (· ≠ old) ∧ (∀ q, q ≠ p → ch' q = ch q) ∧
      (∃ o, w'.nodes old = some o ∧ o.parent = none ∧ o.prev = none ∧ o.next = none) ∧
      (∀ j, (w'.nodes j).map Node.data = (w.nodes j).map Node.data) ∧
      (∀ j, (w'.nodes j).map Node.owner = (w.nodes j).map Node.owner) ∧
      (∀ j, (w'.nodes j).map Node.refcnt = (w.nodes j).map fun n => if j = old then u32 (n.refcnt + 1) else n.refcnt) := by
  obtain ⟨on, ho, hna⟩ := ho
  cases he : removeRefusal w ch p old pn on with
  | some e => rw [removeChild_refused hW hp ho hna he] at h; cases h
  | none =>
    obtain ⟨w1, ch1, h1, h2⟩ := removeChild_ok hW hp ho hna he
    rw [h1] at h; cases h
    have hmem : old ∈ ch p := by
      unfold removeRefusal at he
      split_ifs at he with c1 c2 c3
      exact c2
    have hpar : on.parent = some p := (child_iff hW.linked ho hna).2 hmem
    have hother : ∀ q, q ≠ p → old ∉ ch q := by
      intro q hq hm
      obtain ⟨n, hn, _, hn'⟩ := hW.linked.alive_child hm
      rw [ho] at hn; cases hn
      rw [hpar] at hn'; exact hq (Option.some.inj hn').symm
    have hlists : ∀ q, q ≠ p → ch1 q = ch q := by
      intro q hq
      rw [h2.lists q]
      exact removeCh_of_not_mem (hother q hq)
    refine ⟨rfl, hmem, ch1, h2.wf, h2.lists p, hlists, ?_, h2.data, h2.owner, h2.refs⟩
    have := h2.data old
    rw [ho] at this
    cases ho' : w'.nodes old with
    | none => rw [ho'] at this; simp at this
    | some o =>
      rw [ho'] at this
      simp only [Option.map_some, Option.some.injEq] at this
      have hty := Node.data_type this
      have hna' : on.type ≠ .attribute := by
        obtain ⟨n, hn, hn', _⟩ := hW.linked.alive_child hmem
        rw [ho] at hn; cases hn; exact hn'
      have hop : o.parent = none := by
        cases hop : o.parent with
        | none => rfl
        | some q =>
          have := h2.wf.linked.up old o q ho' (by rw [hty]; exact hna') hop
          rw [h2.lists q] at this
          simp at this
      exact ⟨o, rfl, hop, h2.wf.linked.orphan old o ho' (.inl hop)⟩

/-- C21, decision.  `removeChild p old` returns normally exactly when `old` is a child of `p`, `p` is not read-only,
and not both `p` is a Document and `old` an Element or DocumentType (the code declines those as unsupported). -/
theorem C21_remove_decision (hW : WF w ch) (hp : w.nodes p = some pn) (ho : w.nodes old = some on)
    (hna : on.type = .attribute → on.parent ≠ some p) :
    (∃ w' res, removeChild p old w = .ok w' res) ↔
      old ∈ ch p ∧ ¬ ReadOnly w p ∧ ¬ (pn.type = .document ∧ (on.type = .doctype ∨ on.type = .element)) := by
  cases he : removeRefusal w ch p old pn on with
  | some e =>
    rw [removeChild_refused hW hp ho hna he]
    constructor
    · rintro ⟨_, _, h⟩; cases h
    · rintro ⟨c1, c2, c3⟩
      unfold removeRefusal at he
      rw [if_neg c3, if_neg (not_not.2 c1), if_neg c2] at he
      cases he
  | none =>
    obtain ⟨w1, ch1, h1, h2⟩ := removeChild_ok hW hp ho hna he
    unfold removeRefusal at he
    split_ifs at he with c1 c2 c3
    exact ⟨fun _ => ⟨c2, c3, c1⟩, fun _ => ⟨_, _, h1⟩⟩

/-- C22, effect.  When `replaceChild p new old` succeeds, with `new` not `old` itself: it returns `old`; `new` (or the
children of the fragment, in order) stands in the place of `old` among the other children of `p`, it is gone from
where it was and a fragment is empty; `old` has no parent; nothing else changes.

Not covered: an empty fragment replacing a node that has siblings; there the claim is false, see
`C22_empty_fragment_violated`. -/
theorem C22_replace_effect_partial (hW : WF w ch) (hp : w.nodes p = some pn) (hx : w.nodes new = some nn)
    (ho : w.nodes old = some on) (hna : on.type = .attribute → on.parent ≠ some p) (hne : new ≠ old)
    (hempty : nn.type = .fragment → nn.first = none → on.prev = none ∧ on.next = none) {w' : World} {res : NodeId}
    (h : replaceChild p new old w = .ok w' res) :
    res = old ∧ ∃ ch', WF w' ch' ∧
      (∃ a b, (ch p).filter (· ≠ new) = a ++ old :: b ∧
        ch' p = a ++ (if nn.type = .fragment then ch new else [new]) ++ b) ∧
      (∀ q, q ≠ p → ch' q = if q = new ∧ nn.type = .fragment then [] else (ch q).filter (· ≠ new)) ∧
      (∃ o, w'.nodes old = some o ∧ o.parent = none ∧ o.prev = none ∧ o.next = none) ∧
      (∀ j, (w'.nodes j).map Node.data = (w.nodes j).map Node.data) ∧
      (∀ j, (w'.nodes j).map Node.owner = (w.nodes j).map Node.owner) ∧
      (∀ j, (w'.nodes j).map Node.refcnt = (w.nodes j).map fun n => if j = old then u32 (n.refcnt + 1) else n.refcnt) := by
  rcases replaceChild_total hW hp hx ho hna hempty with ⟨e, h1⟩ | ⟨h0, h1⟩ | ⟨w1, ch1, h1, h2, _⟩ | ⟨_, _, h1⟩
  · rw [h1] at h; cases h
  · exact absurd h0 hne
  · rw [h1] at h; cases h
    refine ⟨rfl, ch1, h2.wf, h2.here, h2.elsewhere, ?_, h2.data, h2.owner, h2.refs⟩
    have := h2.data old
    rw [ho] at this
    cases ho' : w'.nodes old with
    | none => rw [ho'] at this; simp at this
    | some o =>
      rw [ho'] at this
      simp only [Option.map_some, Option.some.injEq] at this
      have hty := Node.data_type this
      have hna' : on.type ≠ .attribute := by
        obtain ⟨a, b, h4, _⟩ := h2.here
        have hmem : old ∈ ch p := by
          have : old ∈ (ch p).filter (· ≠ new) := by rw [h4]; simp
          exact (List.mem_filter.1 this).1
        obtain ⟨n, hn, hn', _⟩ := hW.linked.alive_child hmem
        rw [ho] at hn; cases hn; exact hn'
      have hop : o.parent = none := by
        cases hop : o.parent with
        | none => rfl
        | some q => exact absurd (h2.wf.linked.up old o q ho' (by rw [hty]; exact hna') hop) (h2.gone q)
      exact ⟨o, rfl, hop, h2.wf.linked.orphan old o ho' (.inl hop)⟩
  · rw [h1] at h; cases h

/-- C22, the case of replacing a child by itself: it succeeds and changes nothing but the reference count. -/
theorem C22_replace_self (hW : WF w ch) (hp : w.nodes p = some pn) (ho : w.nodes old = some on)
    (hna : on.type = .attribute → on.parent ≠ some p) {w' : World} {res : NodeId}
    (h : replaceChild p old old w = .ok w' res) :
    res = old ∧ WF w' ch ∧ (∀ j, (w'.nodes j).map (fun n => { n with refcnt := 0 }) =
      (w.nodes j).map fun n => { n with refcnt := 0 }) ∧ w'.log = w.log := by
  cases he : replaceRefusal w ch p old old on pn with
  | some e =>
    rw [replaceChild_refused hW hp ho ho hna he] at h
    cases h
  | none =>
    rw [replaceChild_nop hW hp ho hna he] at h
    cases h
    refine ⟨rfl, WF_ref hW old, fun j => ?_, by simp [World.mp]⟩
    rw [mp_nodes]; cases w.nodes j <;> simp

/-- C22, decision.  `replaceChild p new old` (for `new` not `old`) returns normally exactly when none of these holds:
`p` is a Document and `new` an Element or DocumentType; the documents differ; `p` is read-only; `old` is not a child of
`p`; `new` is `p` or an ancestor; one of the nodes to insert is not permitted below `p`; the present parent of `new`
is read-only — given that a fragment has not been inserted before. -/
theorem C22_replace_decision (hW : WF w ch) (hp : w.nodes p = some pn) (hx : w.nodes new = some nn)
    (ho : w.nodes old = some on) (hna : on.type = .attribute → on.parent ≠ some p) (hne : new ≠ old)
    (hempty : nn.type = .fragment → nn.first = none → on.prev = none ∧ on.next = none)
    (hpend : nn.type = .fragment → nn.pendingIn ≠ none) :
    (∃ w' res, replaceChild p new old w = .ok w' res) ↔
      ¬ (pn.type = .document ∧ (nn.type = .doctype ∨ nn.type = .element)) ∧ nn.owner = pn.owner ∧ ¬ ReadOnly w p ∧
      old ∈ ch p ∧ ¬ AncSelf w p new ∧
      (∀ c ∈ (if nn.type = .fragment then ch new else [new]), Permitted w ch p c) ∧
      (∀ q, nn.parent = some q → ¬ ReadOnly w q) := by
  cases he : replaceRefusal w ch p new old nn pn with
  | some e =>
    rw [replaceChild_refused hW hp hx ho hna he]
    constructor
    · rintro ⟨_, _, h⟩; cases h
    · rintro ⟨c1, c2, c3, c4, c5, c6, c7⟩
      exfalso
      unfold replaceRefusal at he
      rw [if_neg c1, if_neg (not_not.2 c2), if_neg c3, if_neg (not_not.2 c4), if_neg c5,
        if_neg (not_not.2 (show ∀ c ∈ moved ch new nn, Permitted w ch p c from c6)),
        if_neg] at he
      · cases he
      · rintro ⟨_, q, hq, hro⟩; exact c7 q hq hro
  | none =>
    rcases replaceChild_total hW hp hx ho hna hempty with ⟨e, h1⟩ | ⟨h0, h1⟩ | ⟨w1, ch1, h1, h2, _⟩ | ⟨hf, hp', h1⟩
    · rcases replaceChild_checks hW hp hx ho hna with ⟨e', he', h⟩ | ⟨h, c0, c1, c2, c3, c4, c5, href⟩
      · rw [he] at he'; simp at he'
      exfalso
      by_cases hf : nn.type = .fragment
      · by_cases hch : ch new = []
        · obtain ⟨n', hn', hfirst, _⟩ := (hW.linked.loc new nn hx).ends
          rw [hx] at hn'; cases hn'
          rw [hch] at hfirst
          obtain ⟨hp1, hn1⟩ := hempty hf hfirst
          obtain ⟨a, b, hab⟩ := List.append_of_mem c3
          obtain ⟨o', ho', _, _, h1', h2'⟩ := (hW.linked.loc p pn hp).kids a old b hab
          rw [ho] at ho'; cases ho'
          rw [hp1] at h1'; rw [hn1] at h2'
          have ha : a = [] := by simpa using h1'.symm
          have hb : b = [] := by simpa using h2'.symm
          obtain ⟨w', ch', h3, _⟩ := replaceChild_empty hW hp hx ho hna hf hch (by rw [hab, ha, hb]; rfl) (hpend hf) he
          rw [h3] at h1; cases h1
        · obtain ⟨w', ch', h3, _⟩ := replaceChild_ok hW hp hx ho hna hne (by simpa [moved, hf] using hch) hpend he
          rw [h3] at h1; cases h1
      · obtain ⟨w', ch', h3, _⟩ := replaceChild_ok hW hp hx ho hna hne (by simp [moved, hf]) hpend he
        rw [h3] at h1; cases h1
    · exact absurd h0 hne
    · refine ⟨fun _ => ?_, fun _ => ⟨_, _, h1⟩⟩
      rcases replaceChild_checks hW hp hx ho hna with ⟨e', he', h⟩ | ⟨h, c0, c1, c2, c3, c4, c5, href⟩
      · rw [he] at he'; simp at he'
      exact ⟨c0, c1, c2, c3, c4, c5, replace_roCond hne href he⟩
    · exact absurd hp' (hpend hf)

/-- The call raises an exception only in one of two ways: nothing at all has changed, or a fragment is off its
document's pending list and nothing else has changed. -/
theorem failed_cases (hW : WF w ch) {c : Call} (hok : c.Ok w) {w' : World} {e : Exc} (h : c.run w = .exc w' e) :
    w' = w ∨ ∃ x xn, w.nodes x = some xn ∧ xn.type = .fragment ∧ w' = w.mp (unpend x) [] := by
  have hins : ∀ {p new : NodeId} {r : Option NodeId}, Live w p → Live w new → (∀ c, r = some c → NotAttrOf w p c) →
      insertBefore p new r w = .exc w' e →
      w' = w ∨ ∃ x xn, w.nodes x = some xn ∧ xn.type = .fragment ∧ w' = w.mp (unpend x) [] := by
    rintro p new r ⟨pn, hp⟩ ⟨nn, hx⟩ hr h
    rcases insertBefore_total hW hp hx hr with ⟨e, h1⟩ | ⟨_, h1⟩ | ⟨w1, ch1, h1, h2, _⟩ | ⟨hf, h1⟩ | ⟨_, _, h1⟩
    · rw [h1] at h; cases h; exact .inl rfl
    · rw [h1] at h; cases h
    · rw [h1] at h; cases h
    · rw [h1] at h; cases h; exact .inr ⟨new, nn, hx, hf, rfl⟩
    · rw [h1] at h; cases h
  cases c with
  | createDocument => simp only [Call.run, createDocument_run] at h; cases h
  | createNode d t n v =>
    obtain ⟨⟨dn, hd, hdt⟩, ht⟩ := hok
    simp only [Call.run, createNode_run hW.toCore hd] at h; cases h
  | createDoctype n => simp only [Call.run, createDoctype_run] at h; cases h
  | insertBefore p new r => exact hins hok.1 hok.2.1 hok.2.2 h
  | appendChild p new => exact hins hok.1 hok.2 (by simp) h
  | replaceChild p new old =>
    obtain ⟨⟨pn, hp⟩, ⟨nn, hx⟩, ⟨on, ho, hna⟩, hempty⟩ := hok
    rcases replaceChild_total hW hp hx ho hna (fun h1 h2 => hempty nn on hx ho h1 h2) with
      ⟨e, h1⟩ | ⟨_, h1⟩ | ⟨w1, ch1, h1, h2, _⟩ | ⟨_, _, h1⟩
    · simp only [Call.run, h1] at h; cases h; exact .inl rfl
    · simp only [Call.run, h1] at h; cases h
    · simp only [Call.run, h1] at h; cases h
    · simp only [Call.run, h1] at h; cases h
  | removeChild p old =>
    obtain ⟨⟨pn, hp⟩, ⟨on, ho, hna⟩⟩ := hok
    cases he : removeRefusal w ch p old pn on with
    | some e => simp only [Call.run, removeChild_refused hW hp ho hna he] at h; cases h; exact .inl rfl
    | none =>
      obtain ⟨w1, ch1, h1, h2⟩ := removeChild_ok hW hp ho hna he
      simp only [Call.run, h1] at h; cases h

/-- C23.  A call that raises an exception leaves every node's parent, children, siblings, owner, data and reference
count, the set of live nodes and the event log as they were, and the pending mark of every node except that of a
fragment.  (The full claim, `w' = w`, is false for fragments: see `C23_pending_violated`.) -/
theorem C23_failed_links_partial (hW : WF w ch) {c : Call} (hok : c.Ok w) {w' : World} {e : Exc}
    (h : c.run w = .exc w' e) :
    WF w' ch ∧ w'.fresh = w.fresh ∧ w'.log = w.log ∧
    (∀ j, (w'.nodes j).map (fun n => { n with pendingIn := none }) =
      (w.nodes j).map fun n => { n with pendingIn := none }) ∧
    (∀ j n, w.nodes j = some n → n.type ≠ .fragment → w'.nodes j = some n) := by
  rcases failed_cases hW hok h with rfl | ⟨x, xn, hx, hf, rfl⟩
  · exact ⟨hW, rfl, rfl, fun _ => rfl, fun j n hn _ => hn⟩
  · refine ⟨WF_unpend hW hx hf, rfl, by simp [World.mp], fun j => ?_, fun j n hn ht => ?_⟩
    · rw [mp_nodes]; cases w.nodes j <;> simp [unpend]
    · rw [mp_nodes, hn]
      have : j ≠ x := by rintro rfl; rw [hx] at hn; cases hn; exact ht hf
      simp [unpend, this]

/-- C23, exact part.  A failed `removeChild` or `replaceChild`, or a failed insertion of anything but a fragment,
leaves the memory exactly as it was. -/
theorem C23_failed_unchanged (hW : WF w ch) {c : Call} (hok : c.Ok w) {w' : World} {e : Exc}
    (h : c.run w = .exc w' e)
    (hnf : ∀ p new r, c = .insertBefore p new r ∨ c = .appendChild p new → ¬ IsType w new .fragment) : w' = w := by
  have hins : ∀ {p new : NodeId} {r : Option NodeId}, Live w p → Live w new → (∀ c, r = some c → NotAttrOf w p c) →
      ¬ IsType w new .fragment → insertBefore p new r w = .exc w' e → w' = w := by
    rintro p new r ⟨pn, hp⟩ ⟨nn, hx⟩ hr hn h
    rcases insertBefore_total hW hp hx hr with ⟨e, h1⟩ | ⟨_, h1⟩ | ⟨w1, ch1, h1, h2, _⟩ | ⟨hf, h1⟩ | ⟨_, _, h1⟩
    · rw [h1] at h; cases h; rfl
    · rw [h1] at h; cases h
    · rw [h1] at h; cases h
    · exact absurd ⟨nn, hx, hf⟩ hn
    · rw [h1] at h; cases h
  cases c with
  | createDocument => simp only [Call.run, createDocument_run] at h; cases h
  | createNode d t n v =>
    obtain ⟨⟨dn, hd, hdt⟩, ht⟩ := hok
    simp only [Call.run, createNode_run hW.toCore hd] at h; cases h
  | createDoctype n => simp only [Call.run, createDoctype_run] at h; cases h
  | insertBefore p new r => exact hins hok.1 hok.2.1 hok.2.2 (hnf p new r (.inl rfl)) h
  | appendChild p new => exact hins hok.1 hok.2 (by simp) (hnf p new none (.inr rfl)) h
  | replaceChild p new old =>
    obtain ⟨⟨pn, hp⟩, ⟨nn, hx⟩, ⟨on, ho, hna⟩, hempty⟩ := hok
    rcases replaceChild_total hW hp hx ho hna (fun h1 h2 => hempty nn on hx ho h1 h2) with
      ⟨e, h1⟩ | ⟨_, h1⟩ | ⟨w1, ch1, h1, h2, _⟩ | ⟨_, _, h1⟩
    · simp only [Call.run, h1] at h; cases h; rfl
    · simp only [Call.run, h1] at h; cases h
    · simp only [Call.run, h1] at h; cases h
    · simp only [Call.run, h1] at h; cases h
  | removeChild p old =>
    obtain ⟨⟨pn, hp⟩, ⟨on, ho, hna⟩⟩ := hok
    cases he : removeRefusal w ch p old pn on with
    | some e => simp only [Call.run, removeChild_refused hW hp ho hna he] at h; cases h; rfl
    | none =>
      obtain ⟨w1, ch1, h1, h2⟩ := removeChild_ok hW hp ho hna he
      simp only [Call.run, h1] at h; cases h

/-- C46 for these calls.  The only way in which one of them touches dead memory, trips an assertion or does not end,
is the assertion at src/core/node.c:2356 for a fragment that has been inserted before. -/
theorem C46_tree_calls_no_fault_partial (hW : WF w ch) {c : Call} (hok : c.Ok w) {f : Fault} (h : c.run w = .fault f) :
    f = .assertFail ∧ ∃ p new nn, ((∃ r, c = .insertBefore p new r) ∨ c = .appendChild p new ∨
        ∃ old, c = .replaceChild p new old) ∧
      w.nodes new = some nn ∧ nn.type = .fragment ∧ nn.pendingIn = none := by
  cases c with
  | createDocument => simp only [Call.run, createDocument_run] at h; cases h
  | createNode d t n v =>
    obtain ⟨⟨dn, hd, hdt⟩, ht⟩ := hok
    simp only [Call.run, createNode_run hW.toCore hd] at h; cases h
  | createDoctype n => simp only [Call.run, createDoctype_run] at h; cases h
  | insertBefore p new r =>
    obtain ⟨⟨pn, hp⟩, ⟨nn, hx⟩, hr⟩ := hok
    simp only [Call.run] at h
    rcases insertBefore_total hW hp hx hr with ⟨e, h1⟩ | ⟨_, h1⟩ | ⟨w1, ch1, h1, h2, _⟩ | ⟨hf, h1⟩ | ⟨hf, hp', h1⟩ <;>
      rw [h1] at h <;> cases h
    exact ⟨rfl, p, new, nn, .inl ⟨r, rfl⟩, hx, hf, hp'⟩
  | appendChild p new =>
    obtain ⟨⟨pn, hp⟩, ⟨nn, hx⟩⟩ := hok
    simp only [Call.run, appendChild] at h
    rcases insertBefore_total hW hp hx (r := none) (by simp) with ⟨e, h1⟩ | ⟨_, h1⟩ | ⟨w1, ch1, h1, h2, _⟩ |
      ⟨hf, h1⟩ | ⟨hf, hp', h1⟩ <;> rw [h1] at h <;> cases h
    exact ⟨rfl, p, new, nn, .inr (.inl rfl), hx, hf, hp'⟩
  | replaceChild p new old =>
    obtain ⟨⟨pn, hp⟩, ⟨nn, hx⟩, ⟨on, ho, hna⟩, hempty⟩ := hok
    rcases replaceChild_total hW hp hx ho hna (fun h1 h2 => hempty nn on hx ho h1 h2) with
      ⟨e, h1⟩ | ⟨_, h1⟩ | ⟨w1, ch1, h1, h2, _⟩ | ⟨hf, hp', h1⟩ <;> simp only [Call.run, h1] at h <;> cases h
    exact ⟨rfl, p, new, nn, .inr (.inr ⟨old, rfl⟩), hx, hf, hp'⟩
  | removeChild p old =>
    obtain ⟨⟨pn, hp⟩, ⟨on, ho, hna⟩⟩ := hok
    cases he : removeRefusal w ch p old pn on with
    | some e => simp only [Call.run, removeChild_refused hW hp ho hna he] at h; cases h
    | none =>
      obtain ⟨w1, ch1, h1, h2⟩ := removeChild_ok hW hp ho hna he
      simp only [Call.run, h1] at h; cases h

end Dom.Tree
