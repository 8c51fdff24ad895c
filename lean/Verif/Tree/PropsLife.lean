import Verif.Tree.CloneLoop
import Verif.Tree.Violations
/-!
# C46, C47: histories of a client that counts its references

A client creates nodes, changes the tree, puts attributes on elements, clones nodes, asks for neighbours of nodes, and takes and gives up references.  A ledger records
how many references the client has to each node: one for every node that a function returned to it, one for every explicit `dom_node_ref`, less the ones
given up.  What is proved for all such histories: the reference counts are the ledger; every node in the ledger is in memory; nothing faults; and what is
in memory is needed for a node in the ledger.
-/
set_option linter.unusedSimpArgs false
set_option linter.unusedVariables false
namespace Dom.Tree
variable {w w' : World} {ch ch' : Children} {x d j : NodeId} {n dn : Node}

/-- What the client does. -/
inductive Act
  | call (c : Call)
  | putAttr (e a : NodeId) (name : Str.DStr) (ns : Option Str.DStr)
  | get (k : Dir) (x : NodeId)
  | ref (x : NodeId)
  | unref (x : NodeId)
  | clone (x : NodeId) (deep : Bool)

/-- Do it; the result is the node to which the client gets a reference. -/
def Act.run : Act → M (Option NodeId)
  | .call c => do
      let r ← c.run
      pure (some r)
  | .putAttr e a name ns => do
      Tree.putAttr e a name ns
      pure none
  | .get k x => visit k x
  | .ref x => do
      Tree.ref x
      pure (some x)
  | .unref x => do
      Tree.unref x
      pure none
  | .clone x deep => do
      let r ← cloneNode x deep
      pure (some r)

/-- The nodes the client passes. -/
def Act.args : Act → List NodeId
  | .call .createDocument => []
  | .call (.createNode d _ _ _) => [d]
  | .call (.createDoctype _) => []
  | .call (.insertBefore p new r) => p :: new :: r.toList
  | .call (.appendChild p new) => [p, new]
  | .call (.replaceChild p new old) => [p, new, old]
  | .call (.removeChild p old) => [p, old]
  | .putAttr e a _ _ => [e, a]
  | .get _ x => [x]
  | .ref x => [x]
  | .unref x => [x]
  | .clone x _ => [x]

/-- The C types of the arguments; `putAttr` is the case of a name that the element does not have. -/
def Act.Typed (w : World) : Act → Prop
  | .call (.createNode d t _ _) => IsType w d .document ∧ t ≠ .document
  | .putAttr e a _ _ => IsType w e .element ∧ IsType w a .attribute ∧ ∀ n, w.nodes a = some n → n.parent ≠ some e
  | _ => True

/-- The number of references the client has to each node. -/
abbrev Ledger := NodeId → Nat

/-- The ledger after the client did `a` and was returned `r`. -/
def Act.book (led : Ledger) : Act → Option NodeId → Ledger
  | .unref x, _ => fun j => if j = x then led j - 1 else led j
  | _, r => fun j => led j + if r = some j then 1 else 0

/-- The client passes only nodes it has references to. -/
def Proper (led : Ledger) (w : World) (a : Act) : Prop := (∀ x ∈ a.args, 0 < led x) ∧ a.Typed w

/-- None of the nodes to be cloned is a ProcessingInstruction or of a type that cannot be cloned; or the node itself is refused as a Document or as a
DocumentType that belongs to a document. -/
def Copyable (w : World) (x : NodeId) (deep : Bool) : Prop :=
  (∀ j m, (j = x ∨ deep = true ∧ AncSelf w j x) → w.nodes j = some m → m.type ∉ [.document, .doctype, .entity, .notation_, .pi]) ∨
  ∃ n, w.nodes x = some n ∧ (n.type = .document ∨ n.type = .doctype ∧ n.owner ≠ none)

/-- The cases where the code is at fault are left out, and no count overflows:
* those of `Call.Ok` and `Call.Kept`;
* giving up the last reference to a node without parent, below which a node with siblings is referenced whose parent goes: the sibling links stay;
* giving up the last reference to a document one of whose DocumentFragments is off the pending list;
* cloning a ProcessingInstruction or a DocumentType without document. -/
def Act.Fine (w : World) : Act → Prop
  | .call c => c.Ok w ∧ c.Kept w
  | .putAttr _ _ _ _ => True
  | .get k x => ∀ n, w.nodes x = some n → ∀ y, k.target n = some y → Room w y
  | .ref x => Room w x
  | .unref x => ∀ n, w.nodes x = some n → n.refcnt = 1 → n.parent = none → Clean w x ∧ (n.type = .document → NoLoose w x)
  | .clone x deep => Copyable w x deep

def Careful (led : Ledger) (w : World) (a : Act) : Prop := Proper led w a ∧ a.Fine w

/-- The histories of a client all of whose steps satisfy `P`. -/
inductive Client (P : Ledger → World → Act → Prop) : Ledger → World → Prop
  | start : Client P (fun _ => 0) World.empty
  | done {led : Ledger} {w w' : World} {r : Option NodeId} (a : Act) : Client P led w → P led w a → a.run w = .ok w' r → Client P (a.book led r) w'
  | refused {led : Ledger} {w w' : World} {e : Exc} (a : Act) : Client P led w → P led w a → a.run w = .exc w' e → Client P led w'

theorem Sound.empty : Sound World.empty (fun _ => []) := by
  refine ⟨WF_empty, ?_, ?_, ?_, ?_, ?_, ?_⟩ <;> intro i
  · refine ⟨by simp [attrNodes, World.empty], ?_, ?_⟩
    · intro a ha; simp [attrNodes, World.empty] at ha
    · intro a an ha; simp [World.empty] at ha
  all_goals
    intro n
    intros
    simp_all [World.empty]

theorem below_anc (hL : Linked w ch) (h : Below ch x j) : AncSelf w j x := by
  induction h with
  | refl => exact .refl
  | tail _ hq ih =>
    obtain ⟨m, hm, _, hp⟩ := hL.alive_child hq
    exact .head ⟨m, hm, hp⟩ ih

theorem Built.grants {as : List AttrEntry} {ks : List NodeId} {rn : Node} (S : Sound w ch) (B : Built w ch n as ks 0 w' ch' rn) :
    Grants w w' (some w.fresh) := by
  intro j
  rcases Nat.lt_trichotomy j w.fresh with h | h | h
  · have : w.fresh ≠ j := Nat.ne_of_gt h
    simp [count, B.ext.nodes j h, this]
  · subst h
    simp [count, fresh_dead S.wf.toCore, B.here, B.refcnt]
  · have hne : w.fresh ≠ j := Nat.ne_of_lt h
    have hdead : w.nodes j = none := by
      cases hj : w.nodes j with
      | none => rfl
      | some m => exact absurd (S.wf.bnd j m hj) (Nat.lt_asymm h)
    cases hj : w'.nodes j with
    | none => simp [count, hdead, hj, hne]
    | some m =>
      have := B.rest j m h hj
      simp [count, hdead, hj, hne]
      omega

/-- Cloning a Document or DocumentType is refused. -/
theorem clone_refused (hx : w.nodes x = some n) (ho : n.owner ≠ none) (ht : n.type = .document ∨ n.type = .doctype) (deep : Bool) :
    cloneNode x deep w = .exc w .notSupported := by
  unfold cloneNode
  rw [bound_bind]
  show cloneBody _ deep x w = _
  unfold cloneBody
  rw [get_bind hx]
  have : n.owner.isSome = true := by
    cases h : n.owner with
    | none => exact absurd h ho
    | some d => rfl
  rw [this, cassert_bind]
  have : copyNode (cloneWith w.fresh) n w = .exc w .notSupported := by
    unfold copyNode
    rcases ht with ht | ht <;> rw [ht] <;> rfl
  rw [bind_exc this]

/-- Every step of a careful client returns, keeps the invariant, and the counts change as the ledger does. -/
theorem Sound.act (S : Sound w ch) {led : Ledger} (hl : ∀ j, count w j = led j) {a : Act} (h : Careful led w a) :
    ∃ w' ch', Sound w' ch' ∧ ((∃ r, a.run w = .ok w' r ∧ ∀ j, count w' j = a.book led r j) ∨ ∃ e, a.run w = .exc w' e ∧ ∀ j, count w' j = led j) := by
  obtain ⟨⟨hargs, hty⟩, hf⟩ := h
  have hlive : ∀ x ∈ a.args, ∃ n, w.nodes x = some n ∧ 0 < n.refcnt := by
    intro x hx
    have h1 := hargs x hx
    rw [← hl x] at h1
    unfold count at h1
    cases h2 : w.nodes x with
    | none => rw [h2] at h1; exact absurd h1 (by simp)
    | some n => rw [h2] at h1; exact ⟨n, rfl, h1⟩
  cases a with
  | call c =>
    obtain ⟨w', ch', S', h | h⟩ := S.call hf.1 hf.2
    · obtain ⟨r, h1, h2⟩ := h
      refine ⟨w', ch', S', .inl ⟨some r, ?_, fun j => ?_⟩⟩
      · show (c.run >>= _) w = _
        rw [bind_ok h1]; rfl
      · rw [h2 j, hl j]; rfl
    · obtain ⟨e, h1, h2⟩ := h
      refine ⟨w', ch', S', .inr ⟨e, ?_, fun j => ?_⟩⟩
      · show (c.run >>= _) w = _
        rw [bind_exc h1]
      · rw [h2 j, hl j]; simp
  | putAttr e a name ns =>
    obtain ⟨⟨en, he, het⟩, ⟨an, ha, hat⟩, hne⟩ := hty
    rcases S.putAttr he het ha hat (hne an ha) name ns with ⟨x, h1⟩ | ⟨h1, S'⟩
    · refine ⟨w, ch, S, .inr ⟨x, ?_, hl⟩⟩
      show (Tree.putAttr e a name ns >>= _) w = _
      rw [bind_exc h1]
    · refine ⟨_, ch, S', .inl ⟨none, ?_, fun j => ?_⟩⟩
      · show (Tree.putAttr e a name ns >>= _) w = _
        rw [bind_ok h1]; rfl
      · rw [grants_putAttr he ha name ns j, hl j]; rfl
  | get k x =>
    obtain ⟨n, hx, _⟩ := hlive x (by simp [Act.args])
    obtain ⟨w', h1, S', h2⟩ := S.visit k hx (hf n hx)
    exact ⟨w', ch, S', .inl ⟨_, h1, fun j => by rw [h2 j, hl j]; rfl⟩⟩
  | ref x =>
    obtain ⟨n, hx, _⟩ := hlive x (by simp [Act.args])
    refine ⟨_, ch, S.ref hx (hf n hx), .inl ⟨some x, ?_, fun j => ?_⟩⟩
    · show (Tree.ref x >>= _) w = _
      rw [bind_ok (ref_run hx)]; rfl
    · rw [grants_ref hx (hf n hx) j, hl j]; rfl
  | unref x =>
    obtain ⟨n, hx, hr⟩ := hlive x (by simp [Act.args])
    obtain ⟨w', ch', h1, S'⟩ := S.unref hx hr (hf n hx)
    refine ⟨w', ch', S', .inl ⟨none, ?_, fun j => ?_⟩⟩
    · show (Tree.unref x >>= _) w = _
      rw [bind_ok h1]; rfl
    · rw [S.unref_count hx hr h1 j, hl j]; rfl
  | clone x deep =>
    obtain ⟨n, hx, _⟩ := hlive x (by simp [Act.args])
    rcases hf with hf | ⟨n', hx', ht⟩
    · obtain ⟨v, cv, rn, h1, B⟩ := cloneNode_run S hx (deep := deep) (fun j m hj hm => hf j m (hj.imp_right fun h => ⟨h.1, below_anc S.wf.linked h.2⟩) hm)
      refine ⟨v, cv, B.sound, .inl ⟨some w.fresh, ?_, fun j => ?_⟩⟩
      · show (cloneNode x deep >>= _) w = _
        rw [bind_ok h1]; rfl
      · rw [B.grants S j, hl j]; rfl
    · rw [hx] at hx'; cases hx'
      have ho : n.owner ≠ none := by
        rcases ht with ht | ht
        · rw [S.wf.ownDoc x n hx ht]; simp
        · exact ht.2
      refine ⟨w, ch, S, .inr ⟨.notSupported, ?_, hl⟩⟩
      show (cloneNode x deep >>= _) w = _
      rw [bind_exc (clone_refused hx ho (ht.imp_right fun h => h.1) deep)]

theorem Client.sound {led : Ledger} (h : Client Careful led w) : ∃ ch, Sound w ch ∧ ∀ j, count w j = led j := by
  induction h with
  | start => exact ⟨_, .empty, fun j => rfl⟩
  | done a _ hc hr ih =>
    obtain ⟨ch, S, hl⟩ := ih
    obtain ⟨w', ch', S', ⟨r, h1, h2⟩ | ⟨e, h1, _⟩⟩ := S.act hl hc
    · rw [hr] at h1; cases h1; exact ⟨ch', S', h2⟩
    · rw [hr] at h1; cases h1
  | refused a _ hc hr ih =>
    obtain ⟨ch, S, hl⟩ := ih
    obtain ⟨w', ch', S', ⟨r, h1, h2⟩ | ⟨e, h1, h2⟩⟩ := S.act hl hc
    · rw [hr] at h1; cases h1
    · rw [hr] at h1; cases h1; exact ⟨ch', S', h2⟩

/-! ## C46 -/

/-- A node to which the client has a reference is in memory, and its reference count is the number of references of the client. -/
theorem C46_referenced_nodes_live_partial {led : Ledger} (h : Client Careful led w) (hj : 0 < led j) : ∃ n, w.nodes j = some n ∧ n.refcnt = led j := by
  obtain ⟨ch, S, hl⟩ := h.sound
  have h1 := hl j
  unfold count at h1
  cases h2 : w.nodes j with
  | none => rw [h2] at h1; dsimp only at h1; omega
  | some n => rw [h2] at h1; exact ⟨n, rfl, h1⟩

/-- A client that passes only nodes it has references to causes no fault: no dangling or null pointer is followed, no assertion fails, no loop runs forever.
Missing: the cases that `Act.Fine` leaves out, in which the code does fault (`C46_stale_sibling_violated`, `C46_fragment_document_freed_violated`,
`C48_fragment_reuse_violated`, ...), and the functions outside of `Act`. -/
theorem C46_client_no_fault_partial {led : Ledger} (h : Client Careful led w) {a : Act} (ha : Careful led w a) (f : Fault) : a.run w ≠ .fault f := by
  obtain ⟨ch, S, hl⟩ := h.sound
  obtain ⟨w', ch', _, ⟨r, h1, _⟩ | ⟨e, h1, _⟩⟩ := S.act hl ha <;> rw [h1] <;> exact fun h => nomatch h

/-- C19 along such histories: the links agree also after nodes have been destroyed. -/
theorem C19_links_agree_after_release_partial {led : Ledger} (h : Client Careful led w) : ∃ ch, Linked w ch := by
  obtain ⟨ch, S, _⟩ := h.sound
  exact ⟨ch, S.wf.linked⟩

/-! ## C47 -/

/-- What is in memory is needed: it is below, or an attribute below, a node to which the client has a reference; or it is a document to one of
whose nodes the client has a reference. -/
theorem C47_memory_needed_partial {led : Ledger} (h : Client Careful led w) (hj : w.nodes j = some n) :
    (∃ r, AncSelf w j r ∧ 0 < led r) ∨ (n.type = .document ∧ ∃ r rn, w.nodes r = some rn ∧ rn.owner = some j ∧ 0 < led r) := by
  obtain ⟨ch, S, hl⟩ := h.sound
  have hC := S.wf.toCore
  obtain ⟨r, rn, h1, h2, h3⟩ := exists_root hC hj
  by_cases ht : rn.type = .document
  · cases hz : rn.refcnt with
    | succ k => exact .inl ⟨r, h1, by rw [← hl r, count_eq h2]; omega⟩
    | zero =>
      obtain ⟨hf, i, m, h4, h5, h6⟩ := S.docs r rn h2 ht hz
      obtain ⟨q, qn, _, g1, g2, g3, g4⟩ := root_of hC h2 ht hf h4 h5 h6
      have hq := S.held q qn g1 g2 g4
      have hjr : j = r := by
        rcases Relation.ReflTransGen.cases_tail h1 with rfl | ⟨c, _, cn, hc, hp⟩
        · rfl
        · exact absurd hp (no_children hC h2 ht hf hc)
      subst hjr
      rw [hj] at h2; cases h2
      exact .inr ⟨ht, q, qn, g1, g3, by rw [← hl q, count_eq g1]; exact hq⟩
  · exact .inl ⟨r, h1, by rw [← hl r, count_eq h2]; exact S.held r rn h2 h3 ht⟩

/-- When the client has given up all its references to a document and to the nodes of that document, no node of that document and not the document
itself is in memory. -/
theorem C47_document_released_partial {led : Ledger} (h : Client Careful led w)
    (hz : ∀ j n, w.nodes j = some n → n.owner = some d → led j = 0) : ∀ j n, w.nodes j = some n → n.owner ≠ some d := by
  intro j n hj ho
  obtain ⟨ch, S, hl⟩ := h.sound
  rcases C47_memory_needed_partial h hj with ⟨r, h1, h2⟩ | ⟨ht, r, rn, h1, h2, h3⟩
  · obtain ⟨rn, h3⟩ := AncSelf.alive S.wf.linked hj h1
    have h4 := anc_owner S.wf.toCore h1 n rn hj h3
    have := hz r rn h3 (by rw [← h4]; exact ho)
    omega
  · have h4 := S.wf.ownDoc j n hj ht
    rw [ho] at h4; cases h4
    have := hz r rn h1 h2
    omega

/-- When the client has given up all its references nothing is in memory: nothing leaks. -/
theorem C47_nothing_leaks_partial {led : Ledger} (h : Client Careful led w) (hz : ∀ j, led j = 0) : ∀ j, w.nodes j = none := by
  intro j
  cases hj : w.nodes j with
  | none => rfl
  | some n =>
    rcases C47_memory_needed_partial h hj with ⟨r, _, h2⟩ | ⟨_, r, _, _, _, h2⟩
    · have := hz r; omega
    · have := hz r; omega

/-- Giving up the last reference to a node `x` without parent (not a document) destroys exactly `x` and, downwards, the children and attributes that are
not referenced; those that are referenced are cut off and put on the pending list of the document; the document goes too if it is not referenced and
no other node of it is left; nothing else changes. -/
theorem C47_release {led : Ledger} (h : Client Careful led w) (hx : w.nodes x = some n) (hl : led x = 1) (hp : n.parent = none) (ht : n.type ≠ .document)
    (ho : n.owner = some d) (hd : w.nodes d = some dn) : ∃ w', (Act.unref x).run w = .ok w' none ∧
      (∀ j, Dies w x j → w'.nodes j = none) ∧
      (∀ j m, Orphaned w x j → w.nodes j = some m → w'.nodes j = some { m with parent := none, pendingIn := some d }) ∧
      (w'.nodes d = none ↔ n.pendingIn ≠ none ∧ dn.refcnt = 0 ∧ ¬ Needed w x d) ∧
      (dn.refcnt ≠ 0 → w'.nodes d = some dn) ∧
      (∀ j, ¬ Dies w x j → ¬ Orphaned w x j → j ≠ d → w'.nodes j = w.nodes j) := by
  obtain ⟨ch, S, hled⟩ := h.sound
  have hC := S.wf.toCore
  have hr : n.refcnt = 1 := by rw [← count_eq hx, hled x, hl]
  have hdt : dn.type = .document := by
    obtain ⟨d', dn', o1, o2, o3⟩ | ⟨_, o1, _⟩ := hC.owner x n hx
    · rw [ho] at o1; cases o1; rw [hd] at o2; cases o2; exact o3
    · rw [ho] at o1; cases o1
  obtain ⟨w', h1, h2⟩ := unref_root S.wf S.attrs hx hr hp ht (fun _ => S.noHost x n hx) ho hd (fun hz => (S.docs d dn hd hdt hz).1)
  have hdx : ¬ Dies w x d := fun hD => by
    have := dies_parentless hD hd (doc_parent hC hd hdt)
    subst this
    rw [hx] at hd; cases hd; exact ht hdt
  have hdo : ¬ Orphaned w x d := by
    rintro ⟨q, m, _, k1, k2, _⟩
    rw [hd] at k1; cases k1
    rw [doc_parent hC hd hdt] at k2; cases k2
  refine ⟨w', ?_, fun j hj => h2.dead j (.inl hj), ?_, ?_, ?_, ?_⟩
  · show (Tree.unref x >>= _) w = _
    rw [bind_ok h1]; rfl
  · intro j m hj hm
    have hmo : m.owner = some d := by
      rw [orphaned_owner hC hx hj hm]; exact ho
    rw [h2.cut j m hj ?_ hm, hmo]
    rintro (h | ⟨rfl, _⟩)
    · exact not_dies_orphaned hx hp hj h
    · exact hdo hj
  · constructor
    · intro hn
      by_contra hc
      by_cases hE : n.pendingIn ≠ none ∧ dn.refcnt = 0 ∧ Needed w x d
      · rw [h2.husk d dn ⟨rfl, hE⟩ (fun h => h.elim hdx fun h => h.2.2.2 hE.2.2) hd] at hn
        cases hn
      · rw [h2.same d (fun h => h.elim hdx fun h => hc h.2) hdo (fun h => hE h.2), hd] at hn
        cases hn
    · intro hc
      exact h2.dead d (.inr ⟨rfl, hc⟩)
  · intro hz
    rw [h2.same d (fun h => h.elim hdx fun h => hz h.2.2.1) hdo (fun h => hz h.2.2.1), hd]
  · intro j k1 k2 k3
    exact h2.same j (fun h => h.elim k1 fun h => k3 h.1) k2 (fun h => k3 h.1)

/-- Giving up the last reference to a document destroys every node below it that is not referenced and whose ancestors are not referenced, cuts off the
referenced ones, and frees the document unless a node of it is left. -/
theorem C47_release_document {led : Ledger} (h : Client Careful led w) (hx : w.nodes x = some n) (hl : led x = 1) (ht : n.type = .document) :
    ∃ w', (Act.unref x).run w = .ok w' none ∧
      (∀ j, Dies w x j → j ≠ x → w'.nodes j = none) ∧
      (∀ j m, Orphaned w x j → w.nodes j = some m → w'.nodes j = some { m with parent := none, pendingIn := some x }) ∧
      (w'.nodes x = none ↔ ¬ Needed w x x) ∧
      (∀ j, ¬ Dies w x j → ¬ Orphaned w x j → w'.nodes j = w.nodes j) := by
  obtain ⟨ch, S, hled⟩ := h.sound
  have hC := S.wf.toCore
  have hr : n.refcnt = 1 := by rw [← count_eq hx, hled x, hl]
  have hp := doc_parent hC hx ht
  obtain ⟨w', h1, h2⟩ := unref_document S.wf S.attrs hx hr ht
  refine ⟨w', ?_, fun j hj hjx => h2.dead j ⟨hj, fun h => absurd h hjx⟩, ?_, ?_, ?_⟩
  · show (Tree.unref x >>= _) w = _
    rw [bind_ok h1]; rfl
  · intro j m hj hm
    have hmo : m.owner = some x := by
      rw [orphaned_owner hC hx hj hm]; exact hC.ownDoc x n hx ht
    rw [h2.cut j m hj (fun h => not_dies_orphaned hx hp hj h.1) hm, hmo]
  · constructor
    · intro hn hN
      rw [h2.husk x n ⟨rfl, hN⟩ (fun h => h.2 rfl hN) hx] at hn
      cases hn
    · intro hN
      exact h2.dead x ⟨.self, fun _ => hN⟩
  · intro j k1 k2
    exact h2.same j (fun h => k1 h.1) k2 (by rintro ⟨rfl, _⟩; exact k1 .self)

end Dom.Tree
