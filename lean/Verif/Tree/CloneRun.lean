import Verif.Tree.Clone
import Verif.Tree.LifeCalls
/-!
# What cloning does
-/
set_option linter.unusedSimpArgs false
set_option linter.unusedVariables false
namespace Dom.Tree
open Dom.Str (DStr)
variable {w v v1 v2 w' : World} {ch cv c1 c2 ch' : Children} {x y c j p r k new : NodeId} {n m rn cn pn nn kn : Node}

/-! ## Specification vocabulary -/

/-- What a subtree says, without the addresses of its nodes. -/
inductive Shape
  | cut
  | node (type : NodeType) (name value ns pfx : Option DStr) (attrs : List (DStr × Option DStr × Shape)) (kids : List Shape)

/-- The subtree of `x` down to depth `k`: type, name, value, namespace and prefix of every node, its attributes in order with their names and
namespaces, and its children in order. -/
def shape (w : World) (ch : Children) : Nat → NodeId → Shape
  | 0, _ => .cut
  | k + 1, x =>
      match w.nodes x with
      | none => .cut
      | some n => .node n.type n.name n.value n.ns n.pfx
          (if n.type = .element then n.attrs.map fun e => (e.name, e.ns, shape w ch k e.node) else []) ((ch x).map (shape w ch k))

/-- The same without the children of the topmost node. -/
def Shape.bare : Shape → Shape
  | .cut => .cut
  | .node t a b c d as _ => .node t a b c d as []

/-- What was in memory is there unchanged, with the same children. -/
structure Ext (w : World) (ch : Children) (w' : World) (ch' : Children) : Prop where
  fresh : w.fresh ≤ w'.fresh
  nodes : ∀ j, j < w.fresh → w'.nodes j = w.nodes j
  kids : ∀ j, j < w.fresh → ch' j = ch j

/-! ## Facts -/

theorem Ext.refl : Ext w ch w ch := ⟨Nat.le_refl _, fun _ _ => rfl, fun _ _ => rfl⟩

theorem Ext.trans (h : Ext w ch v cv) (h' : Ext v cv w' ch') : Ext w ch w' ch' :=
  ⟨Nat.le_trans h.fresh h'.fresh, fun j hj => (h'.nodes j (Nat.lt_of_lt_of_le hj h.fresh)).trans (h.nodes j hj),
    fun j hj => (h'.kids j (Nat.lt_of_lt_of_le hj h.fresh)).trans (h.kids j hj)⟩

/-- The part of a record that `shape` shows. -/
def lab (n : Node) : NodeType × Option DStr × Option DStr × Option DStr × Option DStr × List AttrEntry := (n.type, n.name, n.value, n.ns, n.pfx, n.attrs)

theorem shape_congr {P : NodeId → Prop} (hP : ∀ j, P j → ∀ c ∈ owned w ch j, P c) (hl : ∀ j, P j → (w'.nodes j).map lab = (w.nodes j).map lab)
    (hc : ∀ j, P j → ch' j = ch j) : ∀ k j, P j → shape w' ch' k j = shape w ch k j := by
  intro k
  induction k with
  | zero => intro j _; rfl
  | succ k ih =>
    intro j hj
    have h1 := hl j hj
    have h2 := hP j hj
    simp only [shape]
    rw [hc j hj]
    cases h : w.nodes j with
    | none =>
      rw [h] at h1
      cases h' : w'.nodes j with
      | none => rfl
      | some m => rw [h'] at h1; cases h1
    | some n =>
      rw [h] at h1
      cases h' : w'.nodes j with
      | none => rw [h'] at h1; cases h1
      | some m =>
        rw [h'] at h1
        simp only [Option.map_some, Option.some.injEq, lab, Prod.mk.injEq] at h1
        obtain ⟨e1, e2, e3, e4, e5, e6⟩ := h1
        dsimp only
        rw [e1, e2, e3, e4, e5, e6]
        congr 1
        · split_ifs with ht
          · refine List.map_congr_left fun e he => ?_
            rw [ih e.node (h2 e.node ?_)]
            simp only [owned, attrNodes, h, if_pos ht, List.mem_append, List.mem_map]
            exact .inl ⟨e, he, rfl⟩
          · rfl
        · refine List.map_congr_left fun c hcm => ih c (h2 c ?_)
          simp [owned, hcm]

theorem owned_old (hC : Core w ch) (hA : AttrOK w) (h : c ∈ owned w ch j) : c < w.fresh := by
  obtain ⟨cn, h1, _⟩ := owned_parent hC hA h
  exact hC.bnd c cn h1

theorem Ext.shape (S : Sound w ch) (h : Ext w ch v cv) (k) (hj : j < w.fresh) : shape v cv k j = shape w ch k j :=
  shape_congr (P := fun j => j < w.fresh) (fun j _ c hc => owned_old S.wf.toCore S.attrs hc) (fun j hj => by rw [h.nodes j hj]) h.kids k j hj

theorem Ext.owned (h : Ext w ch v cv) (hj : j < w.fresh) : owned v cv j = owned w ch j := by
  simp only [Tree.owned, attrNodes, h.nodes j hj, h.kids j hj]

theorem Ext.tall (S : Sound w ch) (h : Ext w ch v cv) : ∀ k j, j < w.fresh → (Tall v cv k j ↔ Tall w ch k j) := by
  intro k
  induction k with
  | zero => intro j _; exact Iff.rfl
  | succ k ih =>
    intro j hj
    simp only [Tall]
    rw [h.owned hj]
    exact ⟨fun g c hc => (ih c (owned_old S.wf.toCore S.attrs hc)).1 (g c hc), fun g c hc => (ih c (owned_old S.wf.toCore S.attrs hc)).2 (g c hc)⟩

/-- What a new node owns is new. -/
theorem Ext.newer (S : Sound w ch) (S' : Sound v cv) (h : Ext w ch v cv) (hj : w.fresh ≤ j) (hc : c ∈ Tree.owned v cv j) : w.fresh ≤ c := by
  refine Nat.le_of_not_lt fun hlt => ?_
  obtain ⟨cn, h1, h2⟩ := owned_parent S'.wf.toCore S'.attrs hc
  rw [h.nodes c hlt] at h1
  obtain ⟨pn, h3⟩ := S.wf.linked.alive_parent h1 h2
  exact Nat.not_lt.2 hj (S.wf.bnd j pn h3)

/-- Appending a node that has no parent: the lists. -/
theorem Inserted.lists (hW : WF w ch) (h : Inserted w ch p new nn pn none w' ch') (hx : w.nodes new = some nn) (hnp : nn.parent = none)
    (hnf : nn.type ≠ .fragment) : ch' p = ch p ++ [new] ∧ ∀ q, q ≠ p → ch' q = ch q := by
  have hn : ∀ q, (ch q).filter (· ≠ new) = ch q := by
    intro q
    refine List.filter_eq_self.2 fun c hc => ?_
    have : c ≠ new := by
      rintro rfl
      have := hW.linked.parent_of_mem hc hx
      rw [hnp] at this; cases this
    simpa using this
  constructor
  · obtain ⟨a, b, h1, h2, h3⟩ := h.here
    cases b with
    | cons _ _ => cases h2
    | nil =>
      rw [hn] at h1
      rw [h3, h1]
      simp [moved, hnf]
  · intro q hq
    rw [h.elsewhere q hq, if_neg (fun hh => hnf hh.2), hn]

/-- Appending a node that has no parent leaves all but the two nodes and the children of the new parent alone. -/
theorem Inserted.other (hW : WF w ch) (h : Inserted w ch p new nn pn none w' ch') (hx : w.nodes new = some nn) (hnp : nn.parent = none)
    (hnf : nn.type ≠ .fragment) (hj : j ≠ p) (hj2 : j ≠ new) (hj3 : j ∉ ch p) : w'.nodes j = w.nodes j := by
  obtain ⟨l1, l2⟩ := h.lists hW hx hnp hnf
  have hd := h.data j
  have hr := h.refs j
  have ho := h.owner j
  cases hm : w.nodes j with
  | none =>
    rw [hm] at hd
    cases hm' : w'.nodes j with
    | none => rfl
    | some m' => rw [hm'] at hd; cases hd
  | some m =>
    rw [hm] at hd hr ho
    cases hm' : w'.nodes j with
    | none => rw [hm'] at hd; cases hd
    | some m' =>
      rw [hm'] at hd hr ho
      simp only [Option.map_some, Option.some.injEq] at hd hr ho
      rw [if_neg hj2] at hr
      rw [if_neg (fun hh => hj2 hh.1)] at ho
      have hty := Node.data_type hd
      -- first and last child
      obtain ⟨q1, k1, k2, k3⟩ := (hW.linked.loc j m hm).ends
      rw [hm] at k1; cases k1
      obtain ⟨q1, k1, k4, k5⟩ := (h.wf.linked.loc j m' hm').ends
      rw [hm'] at k1; cases k1
      rw [l2 j hj] at k4 k5
      -- parent and siblings
      have hlinks : m'.parent = m.parent ∧ m'.prev = m.prev ∧ m'.next = m.next := by
        by_cases ht : m.type = .attribute
        · obtain ⟨m2, g1, g2⟩ := h.attrs j m hm ht
          rw [hm'] at g1; cases g1
          obtain ⟨o1, o2⟩ := hW.linked.orphan j m hm (.inr ht)
          obtain ⟨o3, o4⟩ := h.wf.linked.orphan j m' hm' (.inr (hty.trans ht))
          exact ⟨g2, o3.trans o1.symm, o4.trans o2.symm⟩
        · cases hp : m.parent with
          | none =>
            have hp' : m'.parent = none := by
              cases hq : m'.parent with
              | none => rfl
              | some q =>
                have hmem := h.wf.linked.up j m' q hm' (fun hh => ht (hty.symm.trans hh)) hq
                by_cases hqp : q = p
                · subst hqp
                  rw [l1] at hmem
                  simp only [List.mem_append, List.mem_singleton] at hmem
                  rcases hmem with hmem | hmem
                  · exact absurd hmem hj3
                  · exact absurd hmem hj2
                · rw [l2 q hqp] at hmem
                  have := hW.linked.parent_of_mem hmem hm
                  rw [hp] at this; cases this
            obtain ⟨o1, o2⟩ := hW.linked.orphan j m hm (.inl hp)
            obtain ⟨o3, o4⟩ := h.wf.linked.orphan j m' hm' (.inl hp')
            exact ⟨hp', o3.trans o1.symm, o4.trans o2.symm⟩
          | some q =>
            have hmem := hW.linked.up j m q hm ht hp
            have hqp : q ≠ p := by rintro rfl; exact hj3 hmem
            obtain ⟨a, b, hab⟩ := List.append_of_mem hmem
            obtain ⟨qn, hqn⟩ := hW.linked.alive_parent hm hp
            have hmem' : j ∈ ch' q := by rw [l2 q hqp]; exact hmem
            obtain ⟨m1, g1, _, g2, g3, g4⟩ := (hW.linked.loc q qn hqn).kids a j b hab
            rw [hm] at g1; cases g1
            have hpar' := h.wf.linked.parent_of_mem hmem' hm'
            obtain ⟨qn', hqn'⟩ := h.wf.linked.alive_parent hm' hpar'
            obtain ⟨m2, e1, _, e2, e3, e4⟩ := (h.wf.linked.loc q qn' hqn').kids a j b (by rw [l2 q hqp]; exact hab)
            rw [hm'] at e1; cases e1
            exact ⟨e2, e3.trans g3.symm, e4.trans g4.symm⟩
      obtain ⟨e1, e2, e3⟩ := hlinks
      have hpend : m'.pendingIn = m.pendingIn := by
        by_cases hf : m.type = .fragment
        · obtain ⟨m2, g1, g2⟩ := h.pend j m hm hf hj2
          rw [hm'] at g1; cases g1; exact g2
        · rcases hW.pending j m hm with g | ⟨g, _⟩
          · rcases h.wf.pending j m' hm' with g' | ⟨g', _⟩
            · rw [g, g', e1, hty, ho]
            · exact absurd (hty.symm.trans g') hf
          · exact absurd g hf
      congr 1
      cases m; cases m'
      simp only [Node.data, Node.mk.injEq] at hd k2 k3 k4 k5 e1 e2 e3 hpend hr ho ⊢
      obtain ⟨a1, a2, a3, a4, a5, _, _, _, _, _, _, _, _, a6, a7, a8⟩ := hd
      exact ⟨a1, a2, a3, a4, a5, e1, k4.trans k2.symm, k5.trans k3.symm, e2, e3, ho, hr, hpend, a6, a7, a8⟩

/-! ## A copy under construction -/

/-- The attributes `l` of an element of `w`, as `shape` shows them. -/
def attrShapes (w : World) (ch : Children) (k : Nat) (l : List AttrEntry) : List (DStr × Option DStr × Shape) :=
  l.map fun e => (e.name, e.ns, shape w ch k e.node)

/-- In `v` there is, besides what was in `w`, a copy `w.fresh` of the record `n` with copies of the attributes `as` and of the subtrees `ks`.  Nobody has
references to the new nodes but one to the copy itself and `lk` to each of its children. -/
structure Built (w : World) (ch : Children) (n : Node) (as : List AttrEntry) (ks : List NodeId) (lk : Nat) (v : World) (cv : Children) (rn : Node) : Prop where
  sound : Sound v cv
  ext : Ext w ch v cv
  here : v.nodes w.fresh = some rn
  type : rn.type = n.type
  name : rn.name = n.name
  value : rn.value = n.value
  ns : rn.ns = n.ns
  pfx : rn.pfx = n.pfx
  owner : rn.owner = n.owner
  parent : rn.parent = none
  refcnt : rn.refcnt = 1
  attrRO : rn.attrRO = false
  plain : rn.type ≠ .element → rn.attrs = []
  attrs : ∀ k, attrShapes v cv k rn.attrs = attrShapes w ch k as
  kids : ∀ k, (cv w.fresh).map (shape v cv k) = ks.map (shape w ch k)
  kidRefs : ∀ c ∈ cv w.fresh, ∀ cn, v.nodes c = some cn → cn.refcnt = lk
  rest : ∀ j m, w.fresh < j → v.nodes j = some m → m.refcnt ≤ lk
  log : w.log <+: v.log

/-- The copy has got one more attribute or child, which is itself a finished copy. -/
theorem Built.grow {lk lk' : Nat} {as as1 : List AttrEntry} {ks ks1 : List NodeId} {n1 rn2 kn : Node} (S : Sound w ch)
    (B : Built w ch n as ks lk v cv rn) (K : Built v cv n1 as1 ks1 lk' v1 c1 kn) (hlk : lk' ≤ lk)
    (S2 : Sound v2 c2) (hfr : v2.fresh = v1.fresh) (hlog : v1.log <+: v2.log)
    (hold : ∀ j, j < w.fresh → v2.nodes j = v1.nodes j) (hlab : ∀ j, j ≠ w.fresh → (v2.nodes j).map lab = (v1.nodes j).map lab)
    (hrf : ∀ j, j ≠ v.fresh → (v2.nodes j).map Node.refcnt = (v1.nodes j).map Node.refcnt)
    (hk : ∀ m, v2.nodes v.fresh = some m → m.refcnt ≤ lk)
    (hch : ∀ j, j ≠ w.fresh → c2 j = c1 j) (hr2 : v2.nodes w.fresh = some rn2) (hrd : { rn2 with attrs := [] }.data = { rn with attrs := [] }.data)
    (hro : rn2.owner = rn.owner) (hrp : rn2.parent = none) :
    Ext w ch v2 c2 ∧ (∀ k j, w.fresh < j → j < v1.fresh → shape v2 c2 k j = shape v1 c1 k j) ∧
    (∀ k j, w.fresh < j → j < v.fresh → shape v2 c2 k j = shape v cv k j) ∧ w.fresh < v.fresh ∧
    ∀ as' ks', (rn.type ≠ .element → rn2.attrs = []) → (∀ k, attrShapes v2 c2 k rn2.attrs = attrShapes w ch k as') → (∀ k, (c2 w.fresh).map (shape v2 c2 k) = ks'.map (shape w ch k)) →
      (∀ c ∈ c2 w.fresh, ∀ cn, v2.nodes c = some cn → cn.refcnt = lk) → Built w ch n as' ks' lk v2 c2 rn2 := by
  have hwv : w.fresh < v.fresh := B.sound.wf.bnd _ _ B.here
  have e01 : Ext w ch v1 c1 := B.ext.trans K.ext
  have e02 : Ext w ch v2 c2 := by
    refine ⟨by rw [hfr]; exact e01.fresh, fun j hj => (hold j hj).trans (e01.nodes j hj), fun j hj => (hch j (Nat.ne_of_lt hj)).trans (e01.kids j hj)⟩
  have hr1 : v1.nodes w.fresh = some rn := by rw [K.ext.nodes _ hwv]; exact B.here
  have hsh : ∀ k j, w.fresh < j → j < v1.fresh → shape v2 c2 k j = shape v1 c1 k j := by
    intro k j h1 _
    refine shape_congr (P := fun j => w.fresh < j) ?_ (fun j hj => hlab j (Nat.ne_of_gt hj)) (fun j hj => hch j (Nat.ne_of_gt hj)) k j h1
    intro j hj c hc
    have h2 := e01.newer S K.sound (Nat.le_of_lt hj) hc
    refine Nat.lt_of_le_of_ne h2 fun he => ?_
    obtain ⟨cn, h3, h4⟩ := owned_parent K.sound.wf.toCore K.sound.attrs hc
    rw [← he, hr1] at h3; cases h3
    rw [B.parent] at h4; cases h4
  have hsh0 : ∀ k j, w.fresh < j → j < v.fresh → shape v2 c2 k j = shape v cv k j := fun k j h1 h2 =>
    (hsh k j h1 (Nat.lt_of_lt_of_le h2 K.ext.fresh)).trans (K.ext.shape B.sound k h2)
  refine ⟨e02, hsh, hsh0, hwv, fun as' ks' hpl ha hks hkr => ?_⟩
  have hd : rn2.type = rn.type ∧ rn2.name = rn.name ∧ rn2.value = rn.value ∧ rn2.ns = rn.ns ∧ rn2.pfx = rn.pfx ∧ rn2.attrRO = rn.attrRO := by
    simp only [Node.data, Node.mk.injEq] at hrd
    exact ⟨hrd.1, hrd.2.1, hrd.2.2.1, hrd.2.2.2.1, hrd.2.2.2.2.1, by tauto⟩
  obtain ⟨d1, d2, d3, d4, d5, d6⟩ := hd
  refine ⟨S2, e02, hr2, d1.trans B.type, d2.trans B.name, d3.trans B.value, d4.trans B.ns, d5.trans B.pfx, hro.trans B.owner, hrp, ?_, d6.trans B.attrRO,
    fun h => hpl (by rw [← d1]; exact h), ha, hks, hkr, ?_, B.log.trans (K.log.trans hlog)⟩
  · have := hrf w.fresh (Nat.ne_of_lt hwv)
    rw [hr2, hr1] at this
    simp only [Option.map_some, Option.some.injEq] at this
    rw [this, B.refcnt]
  · intro j m hj hm
    by_cases hjk : j = v.fresh
    · subst hjk; exact hk m hm
    · have := hrf j hjk
      rw [hm] at this
      cases h1 : v1.nodes j with
      | none => rw [h1] at this; cases this
      | some m1 =>
        rw [h1] at this
        simp only [Option.map_some, Option.some.injEq] at this
        rw [this]
        by_cases hjv : j < v.fresh
        · rw [K.ext.nodes j hjv] at h1
          exact B.rest j m1 hj h1
        · exact Nat.le_trans (K.rest j m1 (by omega) h1) hlk

/-- `_dom_node_copy_internal`. -/
theorem copyInternal_run (S : Sound w ch) (hx : w.nodes x = some n) (ho : n.owner ≠ none) (ht : n.type ≠ .document) (lk : Nat) :
    ∃ v rn, copyInternal n w = .ok v w.fresh ∧ Built w ch n [] [] lk v ch rn ∧ v.fresh = w.fresh + 1 ∧ rn.attrs = [] := by
  have hC := S.wf.toCore
  obtain ⟨d, dn, o1, o2, o3⟩ | ⟨_, o1, _⟩ := hC.owner x n hx
  swap
  · exact absurd o1 ho
  have hrun := initNode_run (n := { type := n.type, name := n.name, value := n.value, ns := n.ns, pfx := n.pfx, owner := n.owner }) hC o1 o2 rfl
  have hW' := WF_add S.wf (n := { type := n.type, name := n.name, value := n.value, ns := n.ns, pfx := n.pfx, owner := n.owner, pendingIn := some d }) rfl
    (.inr (.inl ⟨ht, d, dn, o1, o2, o3⟩)) (by simp [ht, o1])
  have S' := S.add hW' rfl rfl rfl rfl (fun _ => by simp)
  have hdead : ch w.fresh = [] := S.wf.linked.dead _ (fresh_dead hC)
  refine ⟨_, _, ?_, ⟨S', ?_, add_new _, rfl, rfl, rfl, rfl, rfl, rfl, rfl, rfl, rfl, fun _ => rfl, ?_, ?_, ?_, ?_, ?_⟩, rfl, rfl⟩
  · unfold copyInternal
    have : n.owner.isSome = true := by rw [o1]; rfl
    rw [this, cassert_bind, hrun]
  · refine ⟨Nat.le_succ _, fun j hj => ?_, fun _ _ => rfl⟩
    simp [World.add, Nat.ne_of_lt hj]
  · intro k; rfl
  · intro k; rw [hdead]; rfl
  · intro c hc; rw [hdead] at hc; cases hc
  · intro j m hj hm
    rcases add_some hm with ⟨rfl, _⟩ | ⟨_, h⟩
    · exact absurd hj (Nat.lt_irrefl _)
    · exact absurd (hC.bnd j m h) (Nat.not_lt.2 (Nat.le_of_lt hj))
  · exact List.prefix_refl _

end Dom.Tree
