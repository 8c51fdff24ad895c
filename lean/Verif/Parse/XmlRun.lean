import Verif.Parse.Xml
import Verif.Parse.Props
import Verif.Query.Reach
import Verif.Names.Props
/-!
# The steps of the XML parser binding
-/
set_option linter.unusedSimpArgs false
namespace Dom.Xml
open Dom.Tree
open Dom.Parse (WF_refs upd_map upd_refs live_of u32_room)
open Dom.Str (Bytes DStr)

variable {w w' w0 : World} {ch ch' ch0 : Children} {doc cur i x j : NodeId} {n cn dn : Node} {st st' : St}

/-- `i` is a new node with the content of `n`, the last child of `cur`, and has `r` references; everything else is as before. -/
structure Grown (w : World) (ch : Children) (cur i : NodeId) (n : Node) (doc : NodeId) (r : Nat) (w' : World) (ch' : Children) : Prop where
  sound : Sound w' ch'
  lists : ∀ p, ch' p = ch p ++ (if p = cur then [i] else [])
  new : ∃ m, w'.nodes i = some m ∧ m.data = n.data ∧ m.owner = some doc ∧ m.parent = some cur ∧ m.refcnt = r
  data : ∀ j, j ≠ i → (w'.nodes j).map Node.data = (w.nodes j).map Node.data
  owner : ∀ j, j ≠ i → (w'.nodes j).map Node.owner = (w.nodes j).map Node.owner
  refs : ∀ j, j ≠ i → (w'.nodes j).map Node.refcnt = (w.nodes j).map Node.refcnt
  parents : ∀ j, j ≠ i → (w'.nodes j).map Node.parent = (w.nodes j).map Node.parent
  fresh : w'.fresh = w.fresh + 1

theorem add_ne (n : Node) (h : j ≠ w.fresh) : (w.add n).nodes j = w.nodes j := by simp [World.add, h]

/-- No node is a child of a new one. -/
theorem not_anc_new (hW : Core w ch) (hn : n.parent = none) (hc : cur ≠ w.fresh) : ¬ AncSelf (w.add n) cur w.fresh := by
  intro h
  rcases Relation.ReflTransGen.cases_tail h with h | ⟨z, _, m, hm, hz⟩
  · exact hc h.symm
  · rcases add_some hm with ⟨rfl, rfl⟩ | ⟨_, h'⟩
    · rw [hn] at hz; cases hz
    · obtain ⟨k, hk⟩ := hW.linked.alive_parent h' hz
      rw [fresh_dead hW] at hk; cases hk

/-- Appending a new node succeeds exactly when the types allow it. -/
theorem append_new (S : Sound w ch) (Sn : Sound (w.add n) ch) (hd : w.nodes doc = some dn) (hdt : dn.type = .document) (hdr : 0 < dn.refcnt)
    (hc : w.nodes cur = some cn) (hco : cn.owner = some doc) (hcd : cn.type = .document → cur = doc) (hcr : cn.type = .document → 0 < cn.refcnt)
    (hce : cn.type ≠ .entityRef ∧ cn.type ≠ .entity) (hro : ¬ ReadOnly (w.add n) cur)
    (hr : n.refcnt = 1) (hp : n.parent = none) (hnf : n.type ≠ .fragment)
    (hno : n.owner = some doc ∨ (n.type = .doctype ∧ n.owner = none ∧ cur = doc)) :
    (Permitted (w.add n) ch cur w.fresh ∧ ∃ w' ch', appendChild cur w.fresh (w.add n) = .ok w' w.fresh ∧ Grown w ch cur w.fresh n doc 2 w' ch') ∨
    (¬ Permitted (w.add n) ch cur w.fresh ∧ ∃ e, appendChild cur w.fresh (w.add n) = .exc (w.add n) e) := by
  have hC := S.wf.toCore
  have hcf : cur ≠ w.fresh := fun h => by rw [h, fresh_dead hC] at hc; cases hc
  have hc1 := add_old (n := n) hC hc
  have hd1 := add_old (n := n) hC hd
  have hdec := C20_insert_decision Sn.wf hc1 (add_new n) (r := none) (by simp) (by simp) (fun h => absurd h hnf)
  have hpe : (∃ w' res, insertBefore cur w.fresh none (w.add n) = .ok w' res) ↔ Permitted (w.add n) ch cur w.fresh := by
    rw [hdec, if_neg hnf]
    constructor
    · rintro ⟨_, _, _, _, h, _⟩; exact h _ (by simp)
    · intro h
      refine ⟨?_, hro, by simp, not_anc_new hC hp hcf, by simpa using h, by rw [hp]; simp⟩
      rcases hno with h | ⟨h1, h2, _⟩
      · exact .inl (by rw [h, hco])
      · exact .inr ⟨h1, h2⟩
  rcases insertBefore_total Sn.wf hc1 (add_new n) (r := none) (by simp) with ⟨e, h⟩ | ⟨h, _⟩ | ⟨v, cv, h, I, _⟩ | ⟨h, _⟩ | ⟨h, _⟩
  · right
    refine ⟨fun hP => ?_, e, h⟩
    obtain ⟨w', res, h'⟩ := hpe.2 hP
    rw [h] at h'; cases h'
  · cases h
  · left
    refine ⟨hpe.1 ⟨v, _, h⟩, v, cv, h, ?_⟩
    have hin : ∀ q, w.fresh ∉ ch q := by
      intro q hq
      obtain ⟨m, hm, _⟩ := hC.linked.alive_child hq
      rw [fresh_dead hC] at hm; cases hm
    have hfil : ∀ q, (ch q).filter (· ≠ w.fresh) = ch q := by
      intro q
      rw [List.filter_eq_self]
      intro a ha
      have : a ≠ w.fresh := fun e => hin q (e ▸ ha)
      simp [this]
    have L : ∀ p, cv p = ch p ++ (if p = cur then [w.fresh] else []) := by
      intro p
      by_cases hpc : p = cur
      · subst hpc
        obtain ⟨a, b, h1, h2, h3⟩ := I.here
        have hb : b = [] := by simpa using h2
        subst hb
        rw [hfil] at h1
        rw [h3, if_pos rfl, h1]
        unfold moved
        simp [hnf]
      · rw [I.elsewhere p hpc, if_neg (fun h => hnf h.2), hfil, if_neg hpc]
        simp
    have SI : Sound v cv := by
      refine Sn.inserted I hc1 (add_new n) ?_ (by rw [hr]; decide) hcr ?_ hce
      · intro h1 h2
        rcases hno with h3 | ⟨_, h3, _⟩
        · exact .inr (by rw [h3, hcd h2])
        · exact .inl h3
      · intro m _ _ hm hft
        rw [add_new] at hm; cases hm
        exact absurd hft hnf
    obtain ⟨m, hm, hma, hmp⟩ := SI.wf.linked.alive_child (show w.fresh ∈ cv cur by rw [L]; simp)
    have e1 := I.data w.fresh
    have e2 := I.refs w.fresh
    have e3 := I.owner w.fresh
    rw [hm, add_new] at e1 e2 e3
    simp only [Option.map_some, Option.some.injEq, if_true, true_and] at e1 e2 e3
    refine ⟨SI, L, ⟨m, hm, e1, ?_, hmp, by rw [e2, hr]; rfl⟩, ?_, ?_, ?_, ?_, I.fresh⟩
    · rw [e3]
      rcases hno with h3 | ⟨h3, h4, h5⟩
      · split_ifs with hx
        · rw [hcd hx.1]
        · exact h3
      · subst h5
        rw [hd] at hc; cases hc
        rw [if_pos ⟨hdt, h3⟩]
    · intro j hj; rw [I.data, add_ne n hj]
    · intro j hj; rw [I.owner, add_ne n hj]
      congr 1; funext a; simp [hj]
    · intro j hj; rw [I.refs, add_ne n hj]
      congr 1; funext a; simp [hj]
    · intro j hj
      rw [← add_ne n hj]
      cases hw : (w.add n).nodes j with
      | none =>
        have h := I.data j
        rw [hw] at h
        cases h3 : v.nodes j with
        | none => rfl
        | some k => rw [h3] at h; cases h
      | some k =>
        obtain ⟨k3, hk3, d3⟩ := live_of (f := Node.data) (g := Node.data) (I.data j) hw
        rw [hk3]
        simp only [Option.map_some, Option.some.injEq]
        by_cases ha : k.type = .attribute
        · obtain ⟨k', hk', e⟩ := I.attrs j k hw ha
          rw [hk3] at hk'; cases hk'; exact e
        · have h3a : k3.type ≠ .attribute := by rw [Node.data_type d3]; exact ha
          apply Option.ext
          intro p
          show k3.parent = some p ↔ k.parent = some p
          rw [child_iff SI.wf.linked hk3 (fun h => absurd h h3a), child_iff Sn.wf.linked hw (fun h => absurd h ha), L p]
          have : j ∉ (if p = cur then [w.fresh] else []) := by split <;> simp [hj]
          simp [this]
  · exact absurd h hnf
  · exact absurd h hnf

/-- The memory after a new node was released. -/
def bump (w : World) : World := { w with fresh := w.fresh + 1 }

theorem WF_bump (hW : WF w ch) : WF (bump w) ch :=
  { toCore := ⟨⟨fun p n h => ⟨(hW.linked.loc p n h).ends, (hW.linked.loc p n h).kids, (hW.linked.loc p n h).nodup⟩, hW.linked.dead, hW.linked.up, hW.linked.attrUp, hW.linked.orphan⟩,
      fun i n h => Nat.lt_succ_of_lt (hW.bnd i n h), hW.wf, hW.owner, hW.ownDoc, hW.ownSame, hW.types⟩, pending := hW.pending }

theorem Sound_bump (S : Sound w ch) : Sound (bump w) ch :=
  ⟨WF_bump S.wf, S.attrs, S.noHost, S.held, S.docs, S.frags, S.ents⟩

/-- The only reference to a new node is given up. -/
theorem unref_new (S : Sound w ch) (Sn : Sound (w.add n) ch) (hd : w.nodes doc = some dn) (hdr : 0 < dn.refcnt) (hr : n.refcnt = 1) (hp : n.parent = none)
    (hnd : n.type ≠ .document) (hno : n.owner = some doc ∨ (n.type = .doctype ∧ n.owner = none)) : unref w.fresh (w.add n) = .ok (bump w) () := by
  have hC := S.wf.toCore
  have hnone : ∀ c m, (w.add n).nodes c = some m → m.parent ≠ some w.fresh := by
    intro c m hm h
    rcases add_some hm with ⟨rfl, rfl⟩ | ⟨_, h'⟩
    · rw [hp] at h; cases h
    · obtain ⟨k, hk⟩ := hC.linked.alive_parent h' h
      rw [fresh_dead hC] at hk; cases hk
  have hdies : ∀ j, Dies (w.add n) w.fresh j → j = w.fresh := by
    intro j h
    induction h with
    | self => rfl
    | down _ hc hpar _ ih => subst ih; exact absurd hpar (hnone _ _ hc)
  have horph : ∀ j, ¬ Orphaned (w.add n) w.fresh j := by
    rintro j ⟨p, m, h1, h2, h3, _⟩
    rw [hdies p h1] at h3
    exact hnone _ _ h2 h3
  have fin : ∀ (v : World) (D E : NodeId → Prop), Reaped (w.add n) v D (Orphaned (w.add n) w.fresh) E → (∀ j, D j ↔ j = w.fresh) → (∀ j, ¬ E j) → v = bump w := by
    intro v D E R hD hE
    have h1 : v.nodes = w.nodes := by
      funext j
      by_cases hj : j = w.fresh
      · rw [R.dead j ((hD j).2 hj), hj, fresh_dead hC]
      · rw [R.same j (fun h => hj ((hD j).1 h)) (horph j) (hE j), add_ne n hj]
    have h2 := R.fresh
    have h3 := R.log
    cases v
    simp only [World.add] at h1 h2 h3
    unfold bump
    rw [h1, h2, h3]
  rcases hno with ho | ⟨ht, ho⟩
  · obtain ⟨v, h1, R⟩ := unref_root Sn.wf Sn.attrs (add_new n) hr hp hnd (fun _ => Sn.noHost _ _ (add_new n)) ho (add_old hC hd) (fun h => by omega)
    rw [h1, fin v _ _ R ?_ ?_]
    · intro j
      constructor
      · rintro (h | ⟨_, _, h, _⟩)
        · exact hdies j h
        · omega
      · rintro rfl; exact .inl .self
    · rintro j ⟨_, _, h, _⟩; omega
  · obtain ⟨v, h1, R⟩ := unref_doctype Sn.wf Sn.attrs (add_new n) hr hp ht ho
    rw [h1, fin v _ _ R ?_ ?_]
    · intro j
      exact ⟨hdies j, by rintro rfl; exact .self⟩
    · intro j h; exact h

/-- Giving up one of the references to the new node. -/
theorem Grown.unref {r : Nat} (G : Grown w ch cur i n doc (r + 1) w' ch') : ∃ v, Tree.unref i w' = .ok v () ∧ Grown w ch cur i n doc r v ch' := by
  obtain ⟨m, hm, e1, e2, e3, e4⟩ := G.new
  refine ⟨_, unref_keep hm (by omega) (.inr (by rw [e3]; simp)), ?_⟩
  rw [e4]
  refine ⟨G.sound.setRef hm (fun h => by rw [e3] at h; cases h) (fun h => ?_), G.lists, ⟨_, upd_same _ _ _, e1, e2, e3, rfl⟩, ?_, ?_, ?_, ?_, G.fresh⟩
  · rw [doc_parent G.sound.wf.toCore hm h] at e3; cases e3
  all_goals (intro j hj; rw [upd_ne _ _ hj])
  · exact G.data j hj
  · exact G.owner j hj
  · exact G.refs j hj
  · exact G.parents j hj

/-! ## The invariant -/

/-- A node of the new document: its type, and the strings it has. -/
def Shaped (n : Node) : Prop :=
  (n.type = .element ∧ n.name ≠ none) ∨ ((n.type = .text ∨ n.type = .cdata ∨ n.type = .comment) ∧ n.value ≠ none) ∨ (n.type = .doctype ∧ n.name ≠ none) ∨
  (n.type = .entityRef ∧ n.name ≠ none)

/-- The memory while the document `doc` is built: `doc` and what was created later is one tree of elements, texts, comments and so on; what was there before, `w0`, is as it
was. -/
structure Base (w0 : World) (ch0 : Children) (doc : NodeId) (w : World) (ch : Children) : Prop where
  sound : Sound w ch
  docIs : doc = w0.fresh
  docNode : ∃ dn, w.nodes doc = some dn ∧ dn.type = .document
  nodes : ∀ j n, w.nodes j = some n → doc < j → Shaped n ∧ n.owner = some doc ∧ ∃ p, n.parent = some p ∧ doc ≤ p
  data : ∀ j, j < doc → (w.nodes j).map Node.data = (w0.nodes j).map Node.data
  owner : ∀ j, j < doc → (w.nodes j).map Node.owner = (w0.nodes j).map Node.owner
  parent : ∀ j, j < doc → (w.nodes j).map Node.parent = (w0.nodes j).map Node.parent
  refs : ∀ j, j < doc → (w.nodes j).map Node.refcnt = (w0.nodes j).map Node.refcnt
  lists : ∀ j, j < doc → ch j = ch0 j
  before : ∀ j n p, w0.nodes j = some n → n.parent = some p → p < doc

/-- The references: two to the document, one to the current node, none to the other nodes of the document. -/
def Refs (doc cur : NodeId) (w : World) : Prop :=
  ∀ j n, w.nodes j = some n → doc ≤ j → n.refcnt = (if j = doc then 2 else 0) + (if j = cur then 1 else 0)

/-- The current node is the document or one of its elements. -/
def Here (doc cur : NodeId) (w : World) : Prop := doc ≤ cur ∧ ∃ cn, w.nodes cur = some cn ∧ (cur = doc ∨ cn.type = .element)

structure Inv (w0 : World) (ch0 : Children) (st : St) (ch : Children) : Prop where
  base : Base w0 ch0 st.doc st.w ch
  refs : Refs st.doc st.current st.w
  here : Here st.doc st.current st.w

theorem Base.ahead (B : Base w0 ch0 doc w ch) : doc < w.fresh := by
  obtain ⟨dn, h, _⟩ := B.docNode
  exact B.sound.wf.bnd _ _ h

theorem Base.kind (B : Base w0 ch0 doc w ch) (hj : w.nodes j = some n) (h : doc ≤ j) : (j = doc ∧ n.type = .document) ∨ (doc < j ∧ Shaped n) := by
  rcases Nat.lt_or_eq_of_le h with h | h
  · exact .inr ⟨h, (B.nodes j n hj h).1⟩
  · subst h
    obtain ⟨dn, h1, h2⟩ := B.docNode
    rw [hj] at h1; cases h1; exact .inl ⟨rfl, h2⟩

theorem Base.own (B : Base w0 ch0 doc w ch) (hj : w.nodes j = some n) (h : doc ≤ j) : n.owner = some doc := by
  rcases Nat.lt_or_eq_of_le h with h | h
  · exact (B.nodes j n hj h).2.1
  · subst h
    obtain ⟨dn, h1, h2⟩ := B.docNode
    rw [hj] at h1; cases h1; exact B.sound.wf.ownDoc _ _ hj h2

theorem shaped_type (h : Shaped n) : n.type ≠ .document ∧ n.type ≠ .entity ∧ n.type ≠ .notation_ ∧ n.type ≠ .fragment ∧ n.type ≠ .attribute := by
  rcases h with ⟨h, _⟩ | ⟨h | h | h, _⟩ | ⟨h, _⟩ | ⟨h, _⟩ <;> rw [h] <;> decide

/-- The parent of a node of the document is one. -/
theorem Base.up (B : Base w0 ch0 doc w ch) (h : AncSelf w x j) (hx : doc ≤ x) : doc ≤ j := by
  induction h with
  | refl => exact hx
  | @tail a b _ hs ih =>
    obtain ⟨m, hm, hp⟩ := hs
    rcases Nat.lt_or_eq_of_le ih with h | h
    · obtain ⟨_, _, p, h1, h2⟩ := B.nodes a m hm h
      rw [hp] at h1; cases h1; exact h2
    · subst h
      obtain ⟨dn, h1, h2⟩ := B.docNode
      rw [hm] at h1; cases h1
      rw [doc_parent B.sound.wf.toCore hm h2] at hp; cases hp

theorem Base.open (B : Base w0 ch0 doc w ch) (hj : w.nodes j = some n) (h : doc ≤ j) (ht : n.type ≠ .doctype ∧ n.type ≠ .entityRef) : ¬ ReadOnly w j := by
  rintro ⟨m, hm, hc⟩
  rw [hj] at hm; cases hm
  rcases hc with h1 | h1 | ⟨h1, _⟩ | ⟨_, k, m, h2, h3, h4⟩
  · exact ht.1 h1
  · rcases B.kind hj h with ⟨_, h2⟩ | ⟨_, h2⟩
    · rw [h1] at h2; cases h2
    · exact (shaped_type h2).2.2.1 h1
  · rcases B.kind hj h with ⟨_, h2⟩ | ⟨_, h2⟩
    · rw [h1] at h2; cases h2
    · exact (shaped_type h2).2.2.2.2 h1
  · rcases Relation.ReflTransGen.cases_tail h2 with h6 | ⟨z, _, mz, hz, hp⟩
    · subst h6
      rw [hj] at h3; cases h3
      rcases h4 with h4 | h4
      · rcases B.kind hj h with ⟨_, h5⟩ | ⟨_, h5⟩
        · rw [h4] at h5; cases h5
        · exact (shaped_type h5).2.1 h4
      · exact ht.2 h4
    · have := B.sound.ents z mz k m hz hp h3
      exact h4.elim this.2 this.1

/-- A new node does not change which of the old ones are read-only. -/
theorem ro_add (hW : Core w ch) (hj : w.nodes j = some cn) (h : ¬ ReadOnly w j) : ¬ ReadOnly (w.add n) j := by
  rintro ⟨m, hm, hc⟩
  rw [add_old hW hj] at hm; cases hm
  apply h
  refine ⟨cn, hj, ?_⟩
  rcases hc with h1 | h1 | h1 | ⟨h1, k, m, h2, h3, h4⟩
  · exact .inl h1
  · exact .inr (.inl h1)
  · exact .inr (.inr (.inl h1))
  · have key : ∀ k, AncSelf (w.add n) j k → AncSelf w j k ∧ ∃ m, w.nodes k = some m := by
      intro k hk
      induction hk with
      | refl => exact ⟨.refl, cn, hj⟩
      | @tail a b _ hs ih =>
        obtain ⟨h5, m5, h6⟩ := ih
        obtain ⟨m', hm', hp⟩ := hs
        rw [add_old hW h6] at hm'; cases hm'
        exact ⟨h5.tail ⟨m5, h6, hp⟩, hW.linked.alive_parent h6 hp⟩
    obtain ⟨h5, m5, h6⟩ := key k h2
    rw [add_old hW h6] at h3
    have e : m5 = m := by simpa using h3
    exact .inr (.inr (.inr ⟨h1, k, m5, h5, h6, by rw [e]; exact h4⟩))

/-- Appending a new node to a node of the document. -/
theorem Base.append (B : Base w0 ch0 doc w ch) (Sn : Sound (w.add n) ch) (hc : w.nodes cur = some cn) (hcd : doc ≤ cur) (hcr : cn.type = .document → 0 < cn.refcnt)
    (hdr : ∀ dn, w.nodes doc = some dn → 0 < dn.refcnt) (hct : cn.type ≠ .doctype ∧ cn.type ≠ .entityRef)
    (hr : n.refcnt = 1) (hp : n.parent = none) (hs : Shaped n) (hno : n.owner = some doc ∨ (n.type = .doctype ∧ n.owner = none ∧ cur = doc)) :
    (Permitted (w.add n) ch cur w.fresh ∧ ∃ w' ch', appendChild cur w.fresh (w.add n) = .ok w' w.fresh ∧ Grown w ch cur w.fresh n doc 2 w' ch') ∨
    (¬ Permitted (w.add n) ch cur w.fresh ∧ ∃ e, appendChild cur w.fresh (w.add n) = .exc (w.add n) e ∧ unref w.fresh (w.add n) = .ok (bump w) ()) := by
  obtain ⟨dn, hd, hdt⟩ := B.docNode
  have hk : cn.type = .document → cur = doc := by
    intro h
    rcases B.kind hc hcd with ⟨h1, _⟩ | ⟨_, h1⟩
    · exact h1
    · exact absurd h (shaped_type h1).1
  have hce : cn.type ≠ .entityRef ∧ cn.type ≠ .entity := by
    rcases B.kind hc hcd with ⟨_, h1⟩ | ⟨_, h1⟩
    · rw [h1]; decide
    · exact ⟨hct.2, (shaped_type h1).2.1⟩
  rcases append_new B.sound Sn hd hdt (hdr dn hd) hc (B.own hc hcd) hk hcr hce (ro_add B.sound.wf.toCore hc (B.open hc hcd hct)) hr hp (shaped_type hs).2.2.2.1 hno with h | ⟨h1, e, h2⟩
  · exact .inl h
  · exact .inr ⟨h1, e, h2, unref_new B.sound Sn hd (hdr dn hd) hr hp (shaped_type hs).1 (hno.imp id fun h => ⟨h.1, h.2.1⟩)⟩

theorem data_shaped {m : Node} (h : m.data = n.data) (hs : Shaped n) : Shaped m := by
  have e1 : m.type = n.type := Node.data_type h
  have e2 : m.name = n.name := Query.data_name h
  have e3 : m.value = n.value := by have := congrArg Node.value h; exact this
  unfold Shaped; rw [e1, e2, e3]; exact hs

/-- What is known of the memory is known of it after a new node was appended. -/
theorem Base.grown {r : Nat} (B : Base w0 ch0 doc w ch) (G : Grown w ch cur w.fresh n doc r w' ch') (hs : Shaped n) (hcd : doc ≤ cur) : Base w0 ch0 doc w' ch' := by
  have ha := B.ahead
  obtain ⟨dn, hd, hdt⟩ := B.docNode
  have hne : ∀ j, j < doc → j ≠ w.fresh := fun j h e => by
    have : (j : Nat) < w.fresh := Nat.lt_trans h ha
    exact absurd e (Nat.ne_of_lt this)
  refine ⟨G.sound, B.docIs, ?_, ?_, ?_, ?_, ?_, ?_, ?_, B.before⟩
  · obtain ⟨m, h1, h2⟩ := live_of (f := Node.data) (g := Node.data) (G.data doc (Nat.ne_of_lt ha)) hd
    exact ⟨m, h1, by rw [Node.data_type h2]; exact hdt⟩
  · intro j m hm hj
    by_cases e : j = w.fresh
    · subst e
      obtain ⟨m', h1, h2, h3, h4, _⟩ := G.new
      rw [hm] at h1; cases h1
      exact ⟨data_shaped h2 hs, h3, cur, h4, hcd⟩
    · obtain ⟨k, hk, e1⟩ := live_of (f := Node.data) (g := Node.data) (G.data j e).symm hm
      obtain ⟨k', hk', e2⟩ := live_of (f := Node.owner) (g := Node.owner) (G.owner j e).symm hm
      rw [hk] at hk'; cases hk'
      obtain ⟨k', hk', e3⟩ := live_of (f := Node.parent) (g := Node.parent) (G.parents j e).symm hm
      rw [hk] at hk'; cases hk'
      obtain ⟨h1, h2, h3⟩ := B.nodes j k hk hj
      exact ⟨data_shaped e1.symm h1, by rw [← e2]; exact h2, by rw [← e3]; exact h3⟩
  · intro j hj; rw [G.data j (hne j hj)]; exact B.data j hj
  · intro j hj; rw [G.owner j (hne j hj)]; exact B.owner j hj
  · intro j hj; rw [G.parents j (hne j hj)]; exact B.parent j hj
  · intro j hj; rw [G.refs j (hne j hj)]; exact B.refs j hj
  · intro j hj
    rw [G.lists, if_neg (fun e => by subst e; exact absurd hcd (Nat.not_le.2 hj)), List.append_nil]
    exact B.lists j hj

/-- The same after the reference count of a node of the document changed. -/
theorem Base.setRef {r : Nat} (B : Base w0 ch0 doc w ch) (hx : w.nodes x = some n) (hd : doc ≤ x) (hr : x = doc → 0 < r) : Base w0 ch0 doc (w.upd x { n with refcnt := r }) ch := by
  have hne : ∀ j, j < doc → j ≠ x := fun j h e => by subst e; exact absurd hd (Nat.not_le.2 h)
  have S : Sound (w.upd x { n with refcnt := r }) ch := by
    refine B.sound.setRef hx ?_ ?_
    · intro h1 h2
      rcases Nat.lt_or_eq_of_le hd with h | h
      · obtain ⟨_, _, p, h3, _⟩ := B.nodes x n hx h
        rw [h1] at h3; cases h3
      · exact hr h.symm
    · intro h1 h2
      rcases B.kind hx hd with ⟨h3, _⟩ | ⟨_, h3⟩
      · have := hr h3; omega
      · exact absurd h1 (shaped_type h3).1
  refine ⟨S, B.docIs, ?_, ?_, ?_, ?_, ?_, ?_, B.lists, B.before⟩
  · obtain ⟨dn, h1, h2⟩ := B.docNode
    by_cases e : doc = x
    · subst e; rw [hx] at h1; cases h1
      exact ⟨_, upd_same _ _ _, h2⟩
    · exact ⟨dn, by rw [upd_ne _ _ e]; exact h1, h2⟩
  · intro j m hm hj
    by_cases e : j = x
    · subst e
      rw [upd_same] at hm; cases hm
      exact B.nodes j n hx hj
    · rw [upd_ne _ _ e] at hm
      exact B.nodes j m hm hj
  all_goals (intro j hj; rw [upd_ne _ _ (hne j hj)])
  · exact B.data j hj
  · exact B.owner j hj
  · exact B.parent j hj
  · exact B.refs j hj

theorem Base.bump (B : Base w0 ch0 doc w ch) : Base w0 ch0 doc (bump w) ch :=
  ⟨Sound_bump B.sound, B.docIs, B.docNode, B.nodes, B.data, B.owner, B.parent, B.refs, B.lists, B.before⟩

/-! ## The handlers -/

theorem orElse_ok {α β : Type} {m : M α} {bad : M β} {good : α → M β} {a : α} (h : m w = .ok w' a) : orElse m bad good w = good a w' := by
  unfold orElse; rw [h]

theorem orElse_exc {α β : Type} {m : M α} {bad : M β} {good : α → M β} {e : Exc} (h : m w = .exc w' e) : orElse m bad good w = bad w' := by
  unfold orElse; rw [h]

/-- The count of a node of the document that is not the current one is as it was after the current one was appended to. -/
theorem Refs.grown {r : Nat} (R : Refs doc x w) (G : Grown w ch cur w.fresh n doc r w' ch') :
    ∀ j m, w'.nodes j = some m → doc ≤ j → m.refcnt = if j = w.fresh then r else (if j = doc then 2 else 0) + (if j = x then 1 else 0) := by
  intro j m hm hj
  by_cases e : j = w.fresh
  · subst e
    obtain ⟨k, h1, _, _, _, h2⟩ := G.new
    rw [hm] at h1; cases h1
    rw [if_pos rfl]; exact h2
  · rw [if_neg e]
    obtain ⟨k, hk, e1⟩ := live_of (f := Node.refcnt) (g := Node.refcnt) (G.refs j e).symm hm
    rw [← e1]; exact R j k hk hj

theorem Here.grown {r : Nat} (H : Here doc cur w) (hW : Core w ch) (G : Grown w ch x w.fresh n doc r w' ch') : Here doc cur w' := by
  obtain ⟨h1, cn, h2, h3⟩ := H
  have hne : cur ≠ w.fresh := fun e => by rw [e, fresh_dead hW] at h2; cases h2
  obtain ⟨m, h4, h5⟩ := live_of (f := Node.data) (g := Node.data) (G.data cur hne) h2
  exact ⟨h1, m, h4, by rw [Node.data_type h5]; exact h3⟩

/-- The node is there and its reference is given back. -/
theorem attachLeaf_run (B : Base w0 ch0 doc w ch) (R : Refs doc cur w) (H : Here doc cur w) (hpar : x = cur ∨ x = doc) (Sn : Sound (w.add n) ch)
    (hr : n.refcnt = 1) (hp : n.parent = none) (hs : Shaped n) (hno : n.owner = some doc ∨ (n.type = .doctype ∧ n.owner = none ∧ x = doc)) :
    (Permitted (w.add n) ch x w.fresh ∧ ∃ w' ch', attachLeaf x w.fresh (w.add n) = .ok w' true ∧ Grown w ch x w.fresh n doc 0 w' ch' ∧
      Base w0 ch0 doc w' ch' ∧ Refs doc cur w' ∧ Here doc cur w') ∨
    (¬ Permitted (w.add n) ch x w.fresh ∧ attachLeaf x w.fresh (w.add n) = .ok (bump w) false ∧
      Base w0 ch0 doc (bump w) ch ∧ Refs doc cur (bump w) ∧ Here doc cur (bump w)) := by
  obtain ⟨hc1, cn, hc2, hc3⟩ := H
  obtain ⟨dn, hd, hdt⟩ := B.docNode
  have hx : doc ≤ x ∧ ∃ xn, w.nodes x = some xn ∧ 0 < xn.refcnt ∧ xn.type ≠ .doctype ∧ xn.type ≠ .entityRef := by
    rcases hpar with rfl | rfl
    · refine ⟨hc1, cn, hc2, by rw [R x cn hc2 hc1]; simp, ?_⟩
      rcases hc3 with h | h
      · subst h; rw [hd] at hc2; cases hc2; rw [hdt]; decide
      · rw [h]; decide
    · exact ⟨Nat.le_refl _, dn, hd, by rw [R x dn hd (Nat.le_refl _), if_pos rfl]; omega, by rw [hdt]; decide⟩
  obtain ⟨hx1, xn, hx2, hx3, hx4⟩ := hx
  have hdr : ∀ dn, w.nodes doc = some dn → 0 < dn.refcnt := by
    intro m hm; rw [R doc m hm (Nat.le_refl _), if_pos rfl]; omega
  rcases B.append Sn hx2 hx1 (fun _ => hx3) hdr hx4 hr hp hs hno with ⟨h1, v, cv, h2, G⟩ | ⟨h1, e, h2, h3⟩
  · left
    obtain ⟨v1, h3, G1⟩ := Grown.unref (r := 1) G
    obtain ⟨v2, h4, G2⟩ := Grown.unref (r := 0) G1
    have hcf : cur ≠ w.fresh := fun e => by rw [e, fresh_dead B.sound.wf.toCore] at hc2; cases hc2
    refine ⟨h1, v2, cv, ?_, G2, B.grown G2 hs hx1, ?_, Here.grown ⟨hc1, cn, hc2, hc3⟩ B.sound.wf.toCore G2⟩
    · unfold attachLeaf
      rw [orElse_ok h2, bind_ok h3, bind_ok h4]; rfl
    · intro j m hm hj
      rw [R.grown G2 j m hm hj]
      by_cases e : j = w.fresh
      · rw [if_pos e, if_neg (fun h => Nat.ne_of_lt B.ahead (h.symm.trans e)), if_neg (fun h => hcf (h.symm.trans e))]
      · rw [if_neg e]
  · right
    refine ⟨h1, ?_, B.bump, R, hc1, cn, hc2, hc3⟩
    unfold attachLeaf
    rw [orElse_exc h2, bind_ok h3]; rfl

/-- Entering a new element. -/
theorem enter_run (B : Base w0 ch0 doc w ch) (R : Refs doc cur w) (H : Here doc cur w) (Sn : Sound (w.add n) ch)
    (hr : n.refcnt = 1) (hp : n.parent = none) (hs : Shaped n) (ht : n.type = .element) (hno : n.owner = some doc) :
    (Permitted (w.add n) ch cur w.fresh ∧ ∃ w' v ch', enter cur w.fresh (w.add n) = .ok w' (some w.fresh) ∧ Grown w ch cur w.fresh n doc 1 v ch' ∧
      (∀ j, (w'.nodes j).map Node.data = (v.nodes j).map Node.data) ∧ w'.fresh = v.fresh ∧
      Base w0 ch0 doc w' ch' ∧ Refs doc w.fresh w' ∧ Here doc w.fresh w') ∨
    (¬ Permitted (w.add n) ch cur w.fresh ∧ enter cur w.fresh (w.add n) = .ok (bump w) none ∧
      Base w0 ch0 doc (bump w) ch ∧ Refs doc cur (bump w) ∧ Here doc cur (bump w)) := by
  obtain ⟨hc1, cn, hc2, hc3⟩ := H
  obtain ⟨dn, hd, hdt⟩ := B.docNode
  have hcr := R cur cn hc2 hc1
  rw [if_pos rfl] at hcr
  have hct : cn.type ≠ .doctype ∧ cn.type ≠ .entityRef := by
    rcases hc3 with h | h
    · subst h; rw [hd] at hc2; cases hc2; rw [hdt]; decide
    · rw [h]; decide
  have hdr : ∀ dn, w.nodes doc = some dn → 0 < dn.refcnt := by
    intro m hm; rw [R doc m hm (Nat.le_refl _), if_pos rfl]; omega
  have hcf : cur ≠ w.fresh := fun e => by rw [e, fresh_dead B.sound.wf.toCore] at hc2; cases hc2
  rcases B.append Sn hc2 hc1 (fun _ => by omega) hdr hct hr hp hs (.inl hno) with ⟨h1, v, cv, h2, G⟩ | ⟨h1, e, h2, h3⟩
  · left
    obtain ⟨v1, h3, G1⟩ := Grown.unref (r := 1) G
    obtain ⟨c1, hc4, ec⟩ := live_of (f := Node.refcnt) (g := Node.refcnt) (G1.refs cur hcf) hc2
    have B1 := B.grown G1 hs hc1
    have hkeep : c1.refcnt ≠ 1 ∨ c1.parent ≠ none := by
      by_cases e : cur = doc
      · left; rw [ec, hcr, if_pos e]; decide
      · right
        obtain ⟨_, _, p, h5, _⟩ := B1.nodes cur c1 hc4 (Nat.lt_of_le_of_ne hc1 (Ne.symm e))
        rw [h5]; simp
    have h4 := unref_keep hc4 (by rw [ec]; omega) hkeep
    refine ⟨h1, v1.upd cur { c1 with refcnt := c1.refcnt - 1 }, v1, cv, ?_, G1, ?_, rfl, ?_, ?_, ?_⟩
    · unfold enter
      rw [orElse_ok h2, bind_ok h3, bind_ok h4]; rfl
    · intro j; exact upd_map _ hc4 _ (fun _ _ => rfl) j
    · refine B1.setRef hc4 hc1 ?_
      intro e; rw [ec, hcr, if_pos e]; decide
    · intro j m hm hj
      by_cases e : j = cur
      · subst e
        rw [upd_same] at hm; cases hm
        show c1.refcnt - 1 = _
        rw [ec, hcr, if_neg hcf]; omega
      · rw [upd_ne _ _ e] at hm
        rw [R.grown G1 j m hm hj, if_neg e]
        by_cases e' : j = w.fresh
        · rw [if_pos e', if_pos e', if_neg (fun h => Nat.ne_of_lt B.ahead (h.symm.trans e'))]
        · rw [if_neg e', if_neg e']
    · obtain ⟨m, hm, e1, _⟩ := G1.new
      refine ⟨Nat.le_of_lt B.ahead, m, ?_, .inr (by rw [Node.data_type e1]; exact ht)⟩
      rw [upd_ne _ _ (Ne.symm hcf)]; exact hm
  · right
    refine ⟨h1, ?_, B.bump, R, hc1, cn, hc2, hc3⟩
    unfold enter
    rw [orElse_exc h2, bind_ok h3]; rfl

/-- Leaving the current element. -/
theorem endTree_run (B : Base w0 ch0 doc w ch) (R : Refs doc cur w) (H : Here doc cur w) :
    ∃ w' r, endTree doc cur w = .ok w' r ∧ (∀ j, (w'.nodes j).map Node.data = (w.nodes j).map Node.data) ∧ w'.fresh = w.fresh ∧ Base w0 ch0 doc w' ch ∧
      ((r = none ∧ (cur = doc ∨ cur ∈ ch doc) ∧ Refs doc cur w' ∧ Here doc cur w') ∨
       ∃ p, r = some p ∧ p ≠ doc ∧ cur ∈ ch p ∧ Refs doc p w' ∧ Here doc p w') := by
  obtain ⟨hc1, cn, hc2, hc3⟩ := H
  obtain ⟨dn, hd, hdt⟩ := B.docNode
  have hC := B.sound.wf.toCore
  by_cases e : cur = doc
  · subst e
    refine ⟨w, none, ?_, fun _ => rfl, rfl, B, .inl ⟨rfl, .inl rfl, R, hc1, dn, hd, .inl rfl⟩⟩
    have hv : visit .parent cur w = .ok w none := by
      unfold visit
      have : Dir.target .parent dn = none := by
        show (if dn.type = .attribute then none else dn.parent) = none
        rw [doc_parent hC hd hdt]; simp
      rw [get_bind hd, this]; rfl
    unfold endTree
    rw [bind_ok hv]; rfl
  · have hlt : doc < cur := Nat.lt_of_le_of_ne hc1 (Ne.symm e)
    obtain ⟨hsh, _, p, hpar, hdp⟩ := B.nodes cur cn hc2 hlt
    have hmem : cur ∈ ch p := hC.linked.up cur cn p hc2 (shaped_type hsh).2.2.2.2 hpar
    obtain ⟨pn, hp⟩ := hC.linked.alive_parent hc2 hpar
    have hpc : p ≠ cur := by
      rintro rfl
      exact transGen_irrefl hC.wf p (.single ⟨cn, hc2, hpar⟩)
    have hpr := R p pn hp hdp
    rw [if_neg hpc] at hpr
    have hcr := R cur cn hc2 hc1
    rw [if_pos rfl, if_neg e] at hcr
    have hv : visit .parent cur w = .ok (w.upd p { pn with refcnt := pn.refcnt + 1 }) (some p) := by
      unfold visit
      have : Dir.target .parent cn = some p := by
        show (if cn.type = .attribute then none else cn.parent) = some p
        rw [if_neg (shaped_type hsh).2.2.2.2, hpar]
      rw [get_bind hc2, this]
      dsimp only
      rw [bind_ok (ref_run hp), ref_upd hp, u32_room (by rw [hpr]; split <;> decide)]
      rfl
    by_cases ep : p = doc
    · have hu : unref p (w.upd p { pn with refcnt := pn.refcnt + 1 }) = .ok w () := by
        rw [unref_keep (n := { pn with refcnt := pn.refcnt + 1 }) (upd_same _ _ _) (Nat.succ_pos _) (.inl (by show pn.refcnt + 1 ≠ 1; rw [hpr, if_pos ep]; decide)), upd_upd]
        have : w.upd p pn = w := by
          unfold World.upd
          cases w
          simp only [World.mk.injEq, and_true]
          funext j
          split
          · next h => subst h; exact hp.symm
          · rfl
        simpa using this
      refine ⟨w, none, ?_, fun _ => rfl, rfl, B, .inl ⟨rfl, .inr (ep ▸ hmem), R, hc1, cn, hc2, hc3⟩⟩
      unfold endTree
      rw [bind_ok hv]
      dsimp only
      rw [if_pos ep, bind_ok hu]; rfl
    · have B1 := B.setRef (r := pn.refcnt + 1) hp hdp (fun h => absurd h ep)
      have hc4 : (w.upd p { pn with refcnt := pn.refcnt + 1 }).nodes cur = some cn := by rw [upd_ne _ _ (Ne.symm hpc)]; exact hc2
      have h4 := unref_keep hc4 (by omega) (.inr (by rw [hpar]; simp))
      refine ⟨(w.upd p { pn with refcnt := pn.refcnt + 1 }).upd cur { cn with refcnt := cn.refcnt - 1 }, some p, ?_, ?_, rfl, B1.setRef (r := cn.refcnt - 1) hc4 hc1 (fun h => absurd h e), .inr ⟨p, rfl, ep, hmem, ?_, hdp, ?_⟩⟩
      · unfold endTree
        rw [bind_ok hv]
        dsimp only
        rw [if_neg ep, bind_ok h4]; rfl
      · intro j
        rw [upd_map _ hc4 _ (fun _ _ => rfl) j, upd_map _ hp _ (fun _ _ => rfl) j]
      · intro j m hm hj
        by_cases e1 : j = cur
        · subst e1
          rw [upd_same] at hm; cases hm
          show cn.refcnt - 1 = _
          rw [hcr, if_neg e, if_neg (Ne.symm hpc)]
        · rw [upd_ne _ _ e1] at hm
          by_cases e2 : j = p
          · subst e2
            rw [upd_same] at hm; cases hm
            show pn.refcnt + 1 = _
            rw [hpr, if_pos rfl]
          · rw [upd_ne _ _ e2] at hm
            rw [R j m hm hj, if_neg e1, if_neg e2]
      · refine ⟨{ pn with refcnt := pn.refcnt + 1 }, by rw [upd_ne _ _ hpc, upd_same], .inr ?_⟩
        show pn.type = .element
        have := B.sound.wf.types p pn cur cn hp hmem hc2
        rcases B.kind hp hdp with ⟨h, _⟩ | ⟨_, h⟩
        · exact absurd h ep
        · rcases h with ⟨h, _⟩ | ⟨h | h | h, _⟩ | ⟨h, _⟩ | ⟨h, _⟩
          · exact h
          on_goal 5 => exact absurd h (B.sound.ents cur cn p pn hc2 hpar hp).1
          all_goals (rw [h] at this; cases this; simp_all)

theorem upd_self (hx : w.nodes x = some n) : w.upd x n = w := by
  unfold World.upd
  cases w
  simp only [World.mk.injEq, and_true]
  funext j
  split
  · next h => subst h; exact hx.symm
  · rfl

/-- Whether a new node may be put below `x`. -/
theorem permitted_iff (hW : Core w ch) (hx : w.nodes x = some cn) : Permitted (w.add n) ch x w.fresh ↔ MayContain cn.type n.type ∧
    (cn.type = .document → (n.type = .element ∨ n.type = .doctype) → ∀ c ∈ ch x, ∀ m, w.nodes c = some m → m.type ≠ n.type) := by
  constructor
  · rintro ⟨a, b, h1, h2, h3, h4⟩
    rw [add_old hW hx] at h1; cases h1
    rw [add_new] at h2; cases h2
    exact ⟨h3, fun h5 h6 c hc m hm => h4 h5 h6 c hc m (add_old hW hm)⟩
  · rintro ⟨h3, h4⟩
    refine ⟨cn, n, add_old hW hx, add_new n, h3, ?_⟩
    intro h5 h6 c hc m hm
    rcases add_some hm with ⟨rfl, rfl⟩ | ⟨_, h⟩
    · obtain ⟨k, hk, _⟩ := hW.linked.alive_child hc
      rw [fresh_dead hW] at hk; cases hk
    · exact h4 h5 h6 c hc m h

/-- Asking for the last child, and giving the reference back. -/
theorem last_some (B : Base w0 ch0 doc w ch) (R : Refs doc cur w) (hc : w.nodes cur = some cn) (hcd : doc ≤ cur) {l : NodeId} (hl : (ch cur).getLast? = some l) :
    ∃ ln, w.nodes l = some ln ∧ doc < l ∧ l ≠ cur ∧ ln.refcnt = 0 ∧ ln.parent = some cur ∧ visit .last cur w = .ok (w.upd l { ln with refcnt := 1 }) (some l) ∧
      unref l (w.upd l { ln with refcnt := 1 }) = .ok w () := by
  have hC := B.sound.wf.toCore
  obtain ⟨ln, h1, _, h2⟩ := hC.linked.alive_child (List.mem_of_getLast? hl)
  have hne : l ≠ cur := by
    rintro rfl
    exact transGen_irrefl hC.wf l (.single ⟨ln, h1, h2⟩)
  have hle : doc < l := by
    rcases Nat.lt_or_ge doc l with h | h
    · exact h
    · exfalso
      have hlt : l < doc ∨ l = doc := Nat.lt_or_eq_of_le h
      rcases hlt with hlt | rfl
      · have e := B.parent l hlt
        rw [h1] at e
        cases h0 : w0.nodes l with
        | none => rw [h0] at e; cases e
        | some m0 =>
          rw [h0] at e
          have e' : m0.parent = some cur := by
            have : ln.parent = m0.parent := by simpa using e
            rw [← this]; exact h2
          have hb : cur < doc := B.before l m0 cur h0 e'
          exact absurd hcd (Nat.not_le.2 hb)
      · obtain ⟨dn, h3, h4⟩ := B.docNode
        rw [h1] at h3; cases h3
        rw [doc_parent hC h1 h4] at h2; cases h2
  have hr : ln.refcnt = 0 := by
    rw [R l ln h1 (Nat.le_of_lt hle), if_neg (Ne.symm (Nat.ne_of_lt hle)), if_neg hne]
  refine ⟨ln, h1, hle, hne, hr, h2, ?_, ?_⟩
  · unfold visit
    have : Dir.target .last cn = some l := by
      obtain ⟨m, h3, _, h4⟩ := (hC.linked.loc cur cn hc).ends
      rw [hc] at h3; cases h3
      rw [← hl]; exact h4
    rw [get_bind hc, this]
    dsimp only
    rw [bind_ok (ref_run h1), ref_upd h1, hr]
    rfl
  · rw [unref_keep (n := { ln with refcnt := 1 }) (upd_same _ _ _) (by show 0 < 1; decide) (.inr (by show ln.parent ≠ none; rw [h2]; simp)), upd_upd]
    have : ({ ln with refcnt := 1 - 1 } : Node) = ln := by cases ln; simp only at hr; subst hr; rfl
    show Res.ok (w.upd l { ln with refcnt := 1 - 1 }) () = _
    rw [this, upd_self h1]

theorem last_none (B : Base w0 ch0 doc w ch) (hc : w.nodes cur = some cn) (hl : (ch cur).getLast? = none) : visit .last cur w = .ok w none := by
  unfold visit
  have : Dir.target .last cn = none := by
    obtain ⟨m, h3, _, h4⟩ := (B.sound.wf.linked.loc cur cn hc).ends
    rw [hc] at h3; cases h3
    rw [← hl]; exact h4
  rw [get_bind hc, this]; rfl

/-- The data of a text is changed. -/
theorem Sound_value (S : Sound w ch) (hx : w.nodes x = some n) (v : Option DStr) (l : List Ev) : Sound (w.mp (withValue x v) l) ch := by
  have hf : ∀ j m, (w.mp (withValue x v) l).nodes j = some m → ∃ k, w.nodes j = some k ∧ m.type = k.type ∧ m.host = k.host ∧ m.owner = k.owner ∧ m.parent = k.parent ∧
      m.refcnt = k.refcnt ∧ m.first = k.first ∧ m.pendingIn = k.pendingIn ∧ m.attrs = k.attrs := by
    intro j m hm
    obtain ⟨k, hk, rfl⟩ := mp_some_iff.1 hm
    refine ⟨k, hk, ?_⟩
    unfold withValue; split <;> simp
  have same : ∀ j k m, w.nodes j = some k → (w.mp (withValue x v) l).nodes j = some m → m.type = k.type ∧ m.host = k.host ∧ m.owner = k.owner ∧ m.parent = k.parent ∧
      m.refcnt = k.refcnt ∧ m.first = k.first ∧ m.pendingIn = k.pendingIn ∧ m.attrs = k.attrs := by
    intro j k m hk hm
    obtain ⟨k', hk', h⟩ := hf j m hm
    rw [hk] at hk'; cases hk'; exact h
  have hmap : ∀ {α : Type} (f : Node → α), (∀ k, f (withValue x v x k) = f k) → ∀ j, ((w.mp (withValue x v) l).nodes j).map f = (w.nodes j).map f := by
    intro α f hfx j
    rw [mp_nodes]
    cases w.nodes j with
    | none => rfl
    | some k =>
      by_cases e : j = x
      · subst e; simp [hfx]
      · simp [withValue, e]
  refine S.step' (WF_withValue S.wf v l) (S.attrs.congr (hmap _ fun k => by simp [withValue]) ?_) (hmap _ fun k => by simp [withValue]) ?_ ?_ ?_ ?_ ?_
  · intro j k hk _
    exact ⟨_, mp_some hk _ _, (same j k _ hk (mp_some hk _ _)).2.2.2.1⟩
  · intro j k m hk hm; exact .inr (same j k m hk hm).2.2.1
  · intro j m hm h1 h2
    obtain ⟨k, hk, e1, _, _, e2, e3, _⟩ := hf j m hm
    rw [e3]; exact S.held j k hk (by rw [← e2]; exact h1) (by rw [← e1]; exact h2)
  · intro j k m hk hm ht hr
    obtain ⟨_, _, _, _, e3, e4, _⟩ := same j k m hk hm
    rw [e3] at hr
    exact ⟨hr, by rw [e4]; exact (S.docs j k hk ht hr).1⟩
  · intro j k m hk hm _ hp
    left; rw [← (same j k m hk hm).2.2.2.2.2.2.1]; exact hp
  · intro c m p hm hp
    obtain ⟨k, hk, _, _, _, e2, _⟩ := hf c m hm
    exact .inl ⟨k, hk, by rw [← e2]; exact hp⟩

end Dom.Xml
