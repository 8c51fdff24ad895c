import Verif.Tree.CloneRun
import Mathlib.Data.List.Perm.Subperm
/-!
# The loops of cloning
-/
set_option linter.unusedSimpArgs false
set_option linter.unusedVariables false
namespace Dom.Tree
open Dom.Str (DStr)
variable {w v v1 v2 w' : World} {ch cv c1 c2 ch' : Children} {x y c j p r k a new : NodeId} {n m rn cn pn nn kn an : Node} {lk lk' : Nat}

theorem upd_upd (w : World) (i : NodeId) (a b : Node) : (w.upd i a).upd i b = w.upd i b := by
  simp only [World.upd, World.mk.injEq, and_true]
  funext j
  by_cases h : j = i <;> simp [h]

theorem upd_swap (w : World) {i j : NodeId} (a b : Node) (h : i ≠ j) : (w.upd i a).upd j b = (w.upd j b).upd i a := by
  simp only [World.upd, World.mk.injEq, and_true]
  funext q
  by_cases h1 : q = i
  · have h2 : q ≠ j := fun h2 => h (h1.symm.trans h2)
    rw [if_neg h2, if_pos h1, if_pos h1]
  · by_cases h2 : q = j <;> simp [h1, h2]
    intro h3
    exact absurd h3.symm h

theorem removePending_upd (hx : w.nodes x = some n) (ho : n.owner ≠ none) (hp : n.pendingIn ≠ none) :
    removePending x w = .ok (w.upd x { n with pendingIn := none }) () := by
  unfold removePending
  rw [get_bind hx]
  cases h : n.owner with
  | none => exact absurd h ho
  | some d =>
    cases h2 : n.pendingIn with
    | none => exact absurd h2 hp
    | some e =>
      show (cassert true >>= _) _ = _
      rw [cassert_bind, modNode_run hx, h]

theorem anc_top (hr : w.nodes r = some rn) (hp : rn.parent = none) (h : AncSelf w r j) : j = r := by
  cases Relation.ReflTransGen.cases_head h with
  | inl h => exact h.symm
  | inr h =>
    obtain ⟨q, ⟨m, hm, h1⟩, _⟩ := h
    rw [hr] at hm; cases hm
    rw [hp] at h1; cases h1

theorem Built.owned_new {as : List AttrEntry} {ks : List NodeId} (S : Sound w ch) (B : Built w ch n as ks lk v cv rn) (h : c ∈ owned v cv w.fresh) :
    w.fresh < c ∧ c < v.fresh := by
  refine ⟨Nat.lt_of_le_of_ne (B.ext.newer S B.sound (Nat.le_refl _) h) fun he => ?_, owned_old B.sound.wf.toCore B.sound.attrs h⟩
  obtain ⟨cn, h3, h4⟩ := owned_parent B.sound.wf.toCore B.sound.attrs h
  rw [← he, B.here] at h3; cases h3
  rw [B.parent] at h4; cases h4

/-- A finished copy has the shape of the original. -/
theorem Built.shape (hx : w.nodes x = some n) {ks : List NodeId} (B : Built w ch n (if n.type = .element then n.attrs else []) ks lk v cv rn) (hks : ks = ch x) :
    ∀ k, shape v cv k w.fresh = Tree.shape w ch k x := by
  intro k
  cases k with
  | zero => rfl
  | succ k =>
    simp only [Tree.shape, hx, B.here]
    rw [B.type, B.name, B.value, B.ns, B.pfx, B.kids k, hks]
    congr 1
    have := B.attrs k
    unfold attrShapes at this
    by_cases ht : n.type = .element
    · rw [if_pos ht, if_pos ht]
      rw [if_pos ht] at this
      exact this
    · rw [if_neg ht, if_neg ht]

/-- One attribute. -/
theorem Built.addAttr {as : List AttrEntry} {ks ks1 : List NodeId} (S : Sound w ch) (B : Built w ch n as ks lk v cv rn)
    (K : Built v cv an [] ks1 lk' v1 c1 kn) (hlk : lk' ≤ lk) (hx : w.nodes x = some n) (ht : n.type = .element) (e : AttrEntry) (he : e ∈ n.attrs)
    (hav : v.nodes e.node = some an) (hks : ks1 = cv e.node) :
    ∃ v2 rn2, (do
      modNode v.fresh fun n => { n with parent := some w.fresh }
      removePending v.fresh
      unref v.fresh
      modNode w.fresh fun n => { n with attrs := n.attrs ++ [{ name := e.name, ns := e.ns, node := v.fresh }] } : M Unit) v1 = .ok v2 () ∧
      Built w ch n (as ++ [e]) ks lk v2 c1 rn2 := by
  have hwv : w.fresh < v.fresh := B.sound.wf.bnd _ _ B.here
  have hmem : e.node ∈ attrNodes w x := by
    simp only [attrNodes, hx, if_pos ht, List.mem_map]; exact ⟨e, he, rfl⟩
  obtain ⟨an', ha1, ha2, ha3⟩ := (S.attrs x).2.1 _ hmem
  have halt : e.node < w.fresh := S.wf.bnd _ _ ha1
  have hane : an' = an := by rw [B.ext.nodes _ halt, ha1] at hav; cases hav; rfl
  subst hane
  have hkt : kn.type = .attribute := K.type.trans ha2
  have hr1 : v1.nodes w.fresh = some rn := by rw [K.ext.nodes _ hwv]; exact B.here
  have hk1 := K.here
  have hne : w.fresh ≠ v.fresh := Nat.ne_of_lt hwv
  have hown : rn.owner = kn.owner := by rw [B.owner, K.owner]; exact (S.wf.ownSame _ _ _ _ ha1 ha3 hx).symm
  have hkown : kn.owner ≠ none := by
    rcases K.sound.wf.owner _ _ hk1 with ⟨d, dn, o, _⟩ | ⟨o, _⟩
    · rw [o]; simp
    · rw [hkt] at o; cases o
  have hkpend : kn.pendingIn ≠ none := by
    rcases K.sound.wf.pending _ _ hk1 with o | ⟨o, _⟩
    · rw [o, K.parent, hkt]; simpa using hkown
    · rw [hkt] at o; cases o
  let kn2 : Node := { kn with parent := some w.fresh, pendingIn := none, refcnt := 0 }
  let rn2 : Node := { rn with attrs := rn.attrs ++ [{ name := e.name, ns := e.ns, node := v.fresh }] }
  have S2 : Sound ((withAttr v1 w.fresh v.fresh rn kn e.name e.ns).upd v.fresh kn2) c1 := by
    have S1 := K.sound.withAttr (e := w.fresh) (a := v.fresh) hr1 (B.type.trans ht) hk1 hkt K.parent hown
      (fun h => hne (anc_top hr1 B.parent h).symm) e.name e.ns
    refine S1.setRef (n := { kn with parent := some w.fresh, pendingIn := none }) (r := 0) ?_ ?_ ?_
    · simp [withAttr, World.upd, Ne.symm hne]
    · intro h; cases h
    · intro h; rw [show ({ kn with parent := some w.fresh, pendingIn := none } : Node).type = kn.type from rfl, hkt] at h; cases h
  have hw2 : (withAttr v1 w.fresh v.fresh rn kn e.name e.ns).upd v.fresh kn2 = (v1.upd v.fresh kn2).upd w.fresh rn2 := by
    unfold withAttr
    rw [upd_swap _ _ _ hne, upd_upd]
  refine ⟨(v1.upd v.fresh kn2).upd w.fresh rn2, rn2, ?_, ?_⟩
  · rw [mod_bind hk1]
    rw [bind_ok (removePending_upd (n := { kn with parent := some w.fresh }) (by simp) hkown hkpend), upd_upd]
    rw [bind_ok (unref_keep (n := { kn with parent := some w.fresh, pendingIn := none }) (by simp) (by show 0 < kn.refcnt; rw [K.refcnt]; simp) (.inr (by simp))), upd_upd]
    rw [modNode_run (n := rn) (by rw [upd_ne _ _ hne]; exact hr1)]
    have : kn.refcnt - 1 = 0 := by rw [K.refcnt]
    simp only [kn2, rn2, this]
  · rw [hw2] at S2
    have hnk : ((v1.upd v.fresh kn2).upd w.fresh rn2).nodes v.fresh = some kn2 := by rw [upd_ne _ _ hne.symm]; simp
    have hno : ∀ j, j ≠ w.fresh → j ≠ v.fresh → ((v1.upd v.fresh kn2).upd w.fresh rn2).nodes j = v1.nodes j := by
      intro j h1 h2; rw [upd_ne _ _ h1, upd_ne _ _ h2]
    obtain ⟨g1, g2, g3, _, g4⟩ := Built.grow (rn2 := rn2) (c2 := c1) S B K hlk S2 rfl (List.prefix_refl _) (fun j hj => hno j (Nat.ne_of_lt hj) (Nat.ne_of_lt (Nat.lt_trans hj hwv)))
      (fun j hj => by
        by_cases h2 : j = v.fresh
        · subst h2; rw [hnk, hk1]; rfl
        · rw [hno j hj h2])
      (fun j hj => by
        by_cases h2 : j = w.fresh
        · subst h2; rw [hr1]; simp [rn2]
        · rw [hno j h2 hj])
      (fun m hm => by rw [hnk] at hm; cases hm; exact Nat.zero_le _)
      (fun _ _ => rfl) (by simp) rfl rfl B.parent
    have hc1 : c1 w.fresh = cv w.fresh := K.ext.kids _ hwv
    refine g4 _ _ (fun h => absurd (B.type.trans ht) h) ?_ ?_ ?_
    · intro k
      have h1 : attrShapes ((v1.upd v.fresh kn2).upd w.fresh rn2) c1 k rn2.attrs =
          attrShapes v cv k rn.attrs ++ [(e.name, e.ns, Tree.shape w ch k e.node)] := by
        simp only [attrShapes, rn2, List.map_append, List.map_cons, List.map_nil]
        congr 1
        · refine List.map_congr_left fun e' he' => ?_
          have hm : e'.node ∈ owned v cv w.fresh := by
            simp only [owned, attrNodes, B.here, if_pos (B.type.trans ht), List.mem_append, List.mem_map]
            exact .inl ⟨e', he', rfl⟩
          have := B.owned_new S hm
          rw [g3 k _ this.1 this.2]
        · congr 3
          rw [g2 k _ hwv (K.sound.wf.bnd _ _ hk1)]
          have hs := Built.shape (x := e.node) hav (lk := lk') (v := v1) (cv := c1) (rn := kn) (ks := ks1) (by
            rw [if_neg (by rw [ha2]; simp)]; exact K) hks k
          rw [hs]
          exact B.ext.shape S k halt
      rw [h1, B.attrs k]
      simp [attrShapes]
    · intro k
      rw [hc1, ← B.kids k]
      refine List.map_congr_left fun c hc => ?_
      have := B.owned_new S (c := c) (by simp [owned, hc])
      exact g3 k c this.1 this.2
    · intro c hc cn hcn
      rw [hc1] at hc
      have := B.owned_new S (c := c) (by simp [owned, hc])
      rw [hno c (Nat.ne_of_gt this.1) (Nat.ne_of_lt this.2), K.ext.nodes c this.2] at hcn
      exact B.kidRefs c hc cn hcn

/-- The loop over the attributes. -/
theorem cloneAttrs_run (S : Sound w ch) {clone : Bool → NodeId → M NodeId} (hx : w.nodes x = some n) (ht : n.type = .element)
    (hcl : ∀ v cv a an, Sound v cv → a ∈ attrNodes w x → v.nodes a = some an → Ext w ch v cv →
      ∃ v1 c1 kn, clone true a v = .ok v1 v.fresh ∧ Built v cv an [] (cv a) 0 v1 c1 kn) :
    ∀ (l : List AttrEntry) (done : List AttrEntry) (v : World) (cv : Children) (rn : Node), n.attrs = done ++ l → Built w ch n done [] lk v cv rn →
      ∃ v' cv' rn', cloneAttrs clone w.fresh l v = .ok v' true ∧ Built w ch n n.attrs [] lk v' cv' rn' := by
  intro l
  induction l with
  | nil =>
    intro done v cv rn h B
    rw [List.append_nil] at h
    rw [h]
    exact ⟨v, cv, rn, rfl, B⟩
  | cons e l ih =>
    intro done v cv rn h B
    have he : e ∈ n.attrs := by rw [h]; simp
    have hmem : e.node ∈ attrNodes w x := by
      simp only [attrNodes, hx, if_pos ht, List.mem_map]; exact ⟨e, he, rfl⟩
    obtain ⟨an, ha1, _⟩ := (S.attrs x).2.1 _ hmem
    have hav : v.nodes e.node = some an := by rw [B.ext.nodes _ (S.wf.bnd _ _ ha1)]; exact ha1
    obtain ⟨v1, c1, kn, h1, K⟩ := hcl v cv e.node an B.sound hmem hav B.ext
    obtain ⟨v2, rn2, h2, B2⟩ := B.addAttr S K (Nat.zero_le _) hx ht e he hav rfl
    obtain ⟨v', cv', rn', h3, B3⟩ := ih (done ++ [e]) v2 c1 rn2 (by rw [h]; simp) B2
    refine ⟨v', cv', rn', ?_, B3⟩
    unfold cloneAttrs
    have ha : attempt (clone true e.node) v = .ok v1 (.ok v.fresh) := by unfold attempt; rw [h1]
    rw [bind_ok ha]
    dsimp only
    rw [← h3]
    have hb : ∀ (f : M Unit) (g : Unit → M Bool), f v1 = .ok v2 () → (f >>= g) v1 = g () v2 := fun f g hf => bind_ok hf g
    have := hb _ (fun _ => cloneAttrs clone w.fresh l) h2
    rw [← this]
    simp only [bind, M.bind]
    cases h4 : modNode v.fresh (fun n => { n with parent := some w.fresh }) v1 with
    | ok w1 _ =>
      cases h5 : removePending v.fresh w1 with
      | ok w2 _ =>
        cases h6 : unref v.fresh w2 <;> simp [h4, h5, h6]
      | exc _ _ => simp [h4, h5]
      | fault _ => simp [h4, h5]
    | exc _ _ => simp [h4]
    | fault _ => simp [h4]

/-- A copy that may have children takes the copy of a child of the original. -/
theorem Built.accepts {as as1 : List AttrEntry} {ks ks1 : List NodeId} (S : Sound w ch) (B : Built w ch n as ks lk v cv rn)
    (K : Built v cv cn as1 ks1 lk' v1 c1 kn) (hx : w.nodes x = some n) (hc : c ∈ ch x) (hcn : w.nodes c = some cn) (hdoc : n.type ≠ .document) :
    insertRefusal v1 c1 w.fresh v.fresh kn rn none = none := by
  have hwv : w.fresh < v.fresh := B.sound.wf.bnd _ _ B.here
  have hr1 : v1.nodes w.fresh = some rn := by rw [K.ext.nodes _ hwv]; exact B.here
  obtain ⟨cn', hc1, hc2, hc3⟩ := S.wf.linked.alive_child hc
  rw [hcn] at hc1; cases hc1
  have hmay := S.wf.types x n c cn hx hc hcn
  have hown : kn.owner = rn.owner := by rw [B.owner, K.owner]; exact S.wf.ownSame _ _ _ _ hcn hc3 hx
  obtain ⟨he1, he2⟩ := S.ents c cn x n hcn hc3 hx
  have hro : ¬ ReadOnly v1 w.fresh := by
    rintro ⟨m, hm, h⟩
    rw [hr1] at hm; cases hm
    rw [B.type] at h
    rcases h with h | h | ⟨_, h⟩ | ⟨_, j, m, h1, h2, h3⟩
    · exact hmay.parent h
    · rw [h] at hmay
      cases hmay with
      | content hp _ => simp at hp
    · rw [B.attrRO] at h; cases h
    · rw [anc_top hr1 B.parent h1, hr1] at h2
      cases h2
      rw [B.type] at h3
      rcases h3 with h3 | h3
      · exact he2 h3
      · exact he1 h3
  unfold insertRefusal
  rw [if_neg (not_not.2 (.inl hown)), if_neg hro, if_neg (by rintro ⟨q, hq, _⟩; cases hq),
    if_neg (fun h => (Nat.ne_of_lt hwv) (anc_top hr1 B.parent h).symm), if_neg, if_neg]
  · rintro ⟨_, q, hq, _⟩
    rw [K.parent] at hq; cases hq
  · rintro ⟨_, h⟩
    refine h ⟨rn, kn, hr1, K.here, by rw [B.type, K.type]; exact hmay, fun hd => ?_⟩
    rw [B.type] at hd
    exact absurd hd hdoc

/-- One child: it is appended, and then all but `lk` of its two references are given up. -/
theorem Built.addKid {as as1 : List AttrEntry} {ks ks1 : List NodeId} (S : Sound w ch) (B : Built w ch n as ks lk v cv rn)
    (K : Built v cv cn as1 ks1 lk' v1 c1 kn) (hlk : lk' ≤ lk) (hx : w.nodes x = some n) (hc : c ∈ ch x) (hcn : w.nodes c = some cn) (hdoc : n.type ≠ .document)
    (has : as1 = if cn.type = .element then cn.attrs else []) (hks : ks1 = cv c) :
    ∃ v2 c2 kn2 rn2, appendChild w.fresh v.fresh v1 = .ok v2 v.fresh ∧ v2.nodes v.fresh = some kn2 ∧ kn2.refcnt = 2 ∧ kn2.parent = some w.fresh ∧
      Built w ch n as (ks ++ [c]) lk (v2.upd v.fresh { kn2 with refcnt := lk }) c2 rn2 := by
  have hwv : w.fresh < v.fresh := B.sound.wf.bnd _ _ B.here
  have hne : w.fresh ≠ v.fresh := Nat.ne_of_lt hwv
  have hr1 : v1.nodes w.fresh = some rn := by rw [K.ext.nodes _ hwv]; exact B.here
  have hacc := B.accepts S K hx hc hcn hdoc
  have hmay := S.wf.types x n c cn hx hc hcn
  have hclt : c < w.fresh := S.wf.bnd _ _ hcn
  obtain ⟨cn', hc1, hc2, hc3⟩ := S.wf.linked.alive_child hc
  rw [hcn] at hc1; cases hc1
  obtain ⟨e1, e2⟩ := S.ents c cn x n hcn hc3 hx
  have hnf : kn.type ≠ .fragment := by rw [K.type]; exact hmay.child.2.2.1
  have hna : kn.type ≠ .attribute := by rw [K.type]; exact hmay.child.1
  have hnd : kn.type ≠ .document := by rw [K.type]; exact hmay.child.2.1
  obtain ⟨v2, c2, hrun, I⟩ := insertBefore_node K.sound.wf hr1 K.here (r := none) (fun c h => by cases h) hnf (by simp) hacc
  have hoth : ∀ j, j ≠ w.fresh → j ≠ v.fresh → j ∉ c1 w.fresh → v2.nodes j = v1.nodes j :=
    fun j h1 h2 h3 => I.other K.sound.wf K.here K.parent hnf h1 h2 h3
  obtain ⟨l1, l2⟩ := I.lists K.sound.wf K.here K.parent hnf
  have S2 : Sound v2 c2 := by
    refine K.sound.inserted I hr1 K.here ?_ (by rw [K.refcnt]; omega) (fun _ => by rw [B.refcnt]; omega) ?_ ?_
    · intro _ h; rw [B.type] at h; exact absurd h hdoc
    · intro fn d dn h1 h2; rw [K.here] at h1; cases h1; exact absurd h2 hnf
    · rw [B.type]; exact ⟨e1, e2⟩
  -- the child
  obtain ⟨kn2, hk2⟩ : ∃ kn2, v2.nodes v.fresh = some kn2 := by
    have := I.data v.fresh
    rw [K.here] at this
    cases h : v2.nodes v.fresh with
    | none => rw [h] at this; cases this
    | some m => exact ⟨m, rfl⟩
  have hkd : kn2.data = kn.data := by have := I.data v.fresh; rw [hk2, K.here] at this; simpa using this
  have hkr : kn2.refcnt = 2 := by
    have := I.refs v.fresh
    rw [hk2, K.here] at this
    simp only [Option.map_some, Option.some.injEq, if_true] at this
    rw [this, K.refcnt]
    rfl
  have hkp : kn2.parent = some w.fresh := I.wf.linked.parent_of_mem (p := w.fresh) (by rw [l1]; simp) hk2
  have hkt : kn2.type = kn.type := Node.data_type hkd
  -- the parent
  obtain ⟨rn2, hr2⟩ : ∃ rn2, v2.nodes w.fresh = some rn2 := by
    have := I.data w.fresh
    rw [hr1] at this
    cases h : v2.nodes w.fresh with
    | none => rw [h] at this; cases this
    | some m => exact ⟨m, rfl⟩
  have hrd : rn2.data = rn.data := by have := I.data w.fresh; rw [hr2, hr1] at this; simpa using this
  have hro : rn2.owner = rn.owner := by
    have := I.owner w.fresh
    rw [hr2, hr1] at this
    simpa [hne] using this
  have hra : rn2.attrs = rn.attrs := by have := congrArg Node.attrs hrd; exact this
  have hrp : rn2.parent = none := by
    cases hq : rn2.parent with
    | none => rfl
    | some q =>
      by_cases hat : rn.type = .attribute
      · obtain ⟨m, g1, g2⟩ := I.attrs _ _ hr1 hat
        rw [hr2] at g1; cases g1
        rw [g2, B.parent] at hq; cases hq
      · have hmem := I.wf.linked.up _ _ _ hr2 (by rw [Node.data_type hrd]; exact hat) hq
        have hmem' : w.fresh ∈ c1 q := by
          by_cases hqr : q = w.fresh
          · subst hqr
            rw [l1] at hmem
            simp only [List.mem_append, List.mem_singleton] at hmem
            rcases hmem with h | h
            · exact h
            · exact absurd h hne
          · rw [l2 q hqr] at hmem; exact hmem
        have := K.sound.wf.linked.parent_of_mem hmem' hr1
        rw [B.parent] at this; cases this
  let kn3 : Node := { kn2 with refcnt := lk }
  have S3 : Sound (v2.upd v.fresh kn3) c2 := S2.setRef hk2 (fun h => by rw [hkp] at h; cases h) (fun h => absurd (hkt.symm.trans h) hnd)
  have hnk : (v2.upd v.fresh kn3).nodes v.fresh = some kn3 := by simp
  have hno : ∀ j, j ≠ v.fresh → (v2.upd v.fresh kn3).nodes j = v2.nodes j := fun j h => upd_ne _ _ h
  have hc1r : c1 w.fresh = cv w.fresh := K.ext.kids _ hwv
  have hlab2 : ∀ j, (v2.nodes j).map lab = (v1.nodes j).map lab := by
    intro j
    have h := I.data j
    have := congrArg (Option.map lab) h
    simp only [Option.map_map, Function.comp_def, lab, Node.data] at this
    exact this
  obtain ⟨g1, g2, g3, _, g4⟩ := Built.grow (rn2 := rn2) (c2 := c2) S B K hlk S3 I.fresh (by rw [upd_log, I.log]; exact List.prefix_append _ _)
    (fun j hj => by
      rw [hno j (Nat.ne_of_lt (Nat.lt_trans hj hwv))]
      refine hoth j (Nat.ne_of_lt hj) (Nat.ne_of_lt (Nat.lt_trans hj hwv)) fun hm => ?_
      rw [hc1r] at hm
      have := B.owned_new S (c := j) (by simp [owned, hm])
      exact Nat.lt_asymm this.1 hj)
    (fun j hj => by
      by_cases h2 : j = v.fresh
      · subst h2; rw [hnk, ← hlab2 v.fresh, hk2]; rfl
      · rw [hno j h2, hlab2 j])
    (fun j hj => by
      rw [hno j hj, I.refs j]
      simp only [hj, if_false])
    (fun m hm => by rw [hnk] at hm; cases hm; exact Nat.le_refl _)
    (fun j hj => l2 j hj) (by rw [hno _ hne]; exact hr2) (by have := congrArg (fun n : Node => ({ n with attrs := [] } : Node)) hrd; exact this) hro hrp
  refine ⟨v2, c2, kn2, rn2, hrun, hk2, hkr, hkp, g4 _ _ (fun h => by rw [hra]; exact B.plain h) ?_ ?_ ?_⟩
  · intro k
    rw [hra, ← B.attrs k]
    by_cases ht : rn.type = .element
    · refine List.map_congr_left fun e he => ?_
      have hm : e.node ∈ owned v cv w.fresh := by
        simp only [owned, attrNodes, B.here, if_pos ht, List.mem_append, List.mem_map]
        exact .inl ⟨e, he, rfl⟩
      have := B.owned_new S hm
      rw [g3 k _ this.1 this.2]
    · rw [B.plain ht]; rfl
  · intro k
    rw [l1, hc1r, List.map_append, List.map_append, ← B.kids k]
    congr 1
    · refine List.map_congr_left fun c hc => ?_
      have := B.owned_new S (c := c) (by simp [owned, hc])
      exact g3 k c this.1 this.2
    · simp only [List.map_cons, List.map_nil]
      congr 1
      rw [g2 k _ hwv (K.sound.wf.bnd _ _ K.here)]
      have hcv : v.nodes c = some cn := by rw [B.ext.nodes _ hclt]; exact hcn
      rw [Built.shape (x := c) hcv (by rw [← has]; exact K) hks k]
      exact B.ext.shape S k hclt
  · intro c' hc' cn' hcn'
    rw [l1, hc1r] at hc'
    simp only [List.mem_append, List.mem_singleton] at hc'
    rcases hc' with h | h
    · have := B.owned_new S (c := c') (by simp [owned, h])
      have hcv := Nat.ne_of_lt this.2
      rw [hno c' hcv] at hcn'
      have hr := I.refs c'
      rw [hcn'] at hr
      simp only [hcv, if_false] at hr
      rw [K.ext.nodes c' this.2] at hr
      cases h1 : v.nodes c' with
      | none => rw [h1] at hr; cases hr
      | some m =>
        rw [h1] at hr
        simp only [Option.map_some, Option.some.injEq] at hr
        rw [hr]
        exact B.kidRefs c' h m h1
    · subst h; rw [hnk] at hcn'; cases hcn'; rfl

/-- Giving up both references to a child. -/
theorem unref_twice (hk : v.nodes k = some kn) (hr : kn.refcnt = 2) (hp : kn.parent = some p) {β : Type} (f : M β) :
    (do unref k; unref k; f : M β) v = f (v.upd k { kn with refcnt := 0 }) := by
  rw [bind_ok (unref_keep hk (by omega) (.inr (by rw [hp]; simp)))]
  rw [bind_ok (unref_keep (n := { kn with refcnt := kn.refcnt - 1 }) (by simp) (by show 0 < kn.refcnt - 1; omega) (.inr (by show kn.parent ≠ none; rw [hp]; simp))), upd_upd]
  have : kn.refcnt - 1 - 1 = 0 := by omega
  simp only [this]

/-- The loop over the children. -/
theorem cloneKids_run {as : List AttrEntry} (S : Sound w ch) {clone : Bool → NodeId → M NodeId} (hx : w.nodes x = some n) (hdoc : n.type ≠ .document)
    (hcl : ∀ v cv c cn, Sound v cv → c ∈ ch x → v.nodes c = some cn → Ext w ch v cv →
      ∃ v1 c1 kn, clone true c v = .ok v1 v.fresh ∧ Built v cv cn (if cn.type = .element then cn.attrs else []) (cv c) 0 v1 c1 kn) :
    ∀ (l done : List NodeId) (fuel : Nat) (v : World) (cv : Children) (rn : Node), ch x = done ++ l → l.length ≤ fuel → Built w ch n as done 0 v cv rn →
      ∃ v' cv' rn', cloneKids clone w.fresh fuel l.head? v = .ok v' () ∧ Built w ch n as (ch x) 0 v' cv' rn' := by
  intro l
  induction l with
  | nil =>
    intro done fuel v cv rn h _ B
    rw [List.append_nil] at h
    rw [h]
    exact ⟨v, cv, rn, by simp [cloneKids]; rfl, B⟩
  | cons c l ih =>
    intro done fuel v cv rn h hf B
    obtain ⟨fuel, rfl⟩ : ∃ f, fuel = f + 1 := ⟨fuel - 1, by simp at hf; omega⟩
    have hc : c ∈ ch x := by rw [h]; simp
    obtain ⟨cn, hcn, _, _, _, hnext⟩ := (S.wf.linked.loc x n hx).kids done c l h
    have hclt : c < w.fresh := S.wf.bnd _ _ hcn
    have hcv : v.nodes c = some cn := by rw [B.ext.nodes _ hclt]; exact hcn
    obtain ⟨v1, c1, kn, h1, K⟩ := hcl v cv c cn B.sound hc hcv B.ext
    obtain ⟨v2, c2, kn2, rn2, h2, h3, h4, h5, B2⟩ := B.addKid S K (Nat.le_refl _) hx hc hcn hdoc rfl rfl
    obtain ⟨v', cv', rn', h6, B3⟩ := ih (done ++ [c]) fuel _ c2 rn2 (by rw [h]; simp) (by simp at hf; omega) B2
    refine ⟨v', cv', rn', ?_, B3⟩
    show cloneKids clone w.fresh (fuel + 1) (some c) v = _
    unfold cloneKids
    have ho1 : orUnref w.fresh (clone true c) v = .ok v1 v.fresh := by unfold orUnref; rw [h1]
    have ho2 : orUnref w.fresh (appendChild w.fresh v.fresh) v1 = .ok v2 v.fresh := by unfold orUnref; rw [h2]
    rw [bind_ok ho1, bind_ok ho2, unref_twice h3 h4 h5]
    rw [get_bind (n := cn) (by rw [B2.ext.nodes _ hclt]; exact hcn), hnext]
    exact h6

/-- Cloning is possible: neither the node nor (if its children are cloned too) a node below is of one of these types. -/
def Copies (w : World) (ch : Children) (x : NodeId) (deep : Bool) : Prop :=
  ∀ j m, (j = x ∨ deep = true ∧ Below ch x j) → w.nodes j = some m → m.type ∉ [.document, .doctype, .entity, .notation_, .pi]

theorem Ext.below (S : Sound w ch) (h : Ext w ch v cv) (hc : c < w.fresh) (hb : Below cv c j) : Below ch c j ∧ j < w.fresh := by
  induction hb with
  | refl => exact ⟨.refl, hc⟩
  | tail _ hq ih =>
    obtain ⟨h1, h2⟩ := ih
    rw [h.kids _ h2] at hq
    obtain ⟨m, hm, _⟩ := S.wf.linked.alive_child hq
    exact ⟨h1.tail hq, S.wf.bnd _ _ hm⟩

theorem Copies.ext (S : Sound w ch) (h : Ext w ch v cv) (hc : c < w.fresh) {deep : Bool} (hk : Copies w ch c deep) : Copies v cv c deep := by
  intro j m hj hm
  rcases hj with rfl | ⟨hd, hj⟩
  · rw [h.nodes _ hc] at hm
    exact hk j m (.inl rfl) hm
  · obtain ⟨h1, h2⟩ := h.below S hc hj
    rw [h.nodes _ h2] at hm
    exact hk j m (.inr ⟨hd, h1⟩) hm

theorem Copies.kid (hc : c ∈ ch x) (h : Copies w ch x true) : Copies w ch c true := by
  intro j m hj hm
  refine h j m (.inr ⟨rfl, ?_⟩) hm
  rcases hj with rfl | ⟨_, hj⟩
  · exact Relation.ReflTransGen.single hc
  · exact Relation.ReflTransGen.head hc hj

/-- An attribute can always be cloned. -/
theorem Copies.attr (S : Sound w ch) (ha : w.nodes a = some an) (hat : an.type = .attribute) (deep : Bool) : Copies w ch a deep := by
  have key : ∀ j, Below ch a j → j = a ∨ ∃ m, w.nodes j = some m ∧ (m.type = .text ∨ m.type = .entityRef) := by
    intro j hj
    induction hj with
    | refl => exact .inl rfl
    | @tail q j _ hq ih =>
      right
      obtain ⟨m, hm, _, hp⟩ := S.wf.linked.alive_child hq
      obtain ⟨qn, hqn⟩ := S.wf.linked.alive_parent hm hp
      have hty := S.wf.types q qn j m hqn hq hm
      refine ⟨m, hm, ?_⟩
      rcases ih with rfl | ⟨qm, h1, h2⟩
      · rw [ha] at hqn; cases hqn
        rw [hat] at hty
        generalize m.type = t at hty
        cases hty with
        | content hp _ => simp at hp
        | attr hc => simpa using hc
      · rw [hqn] at h1; cases h1
        rcases h2 with h2 | h2
        · rw [h2] at hty
          generalize m.type = t at hty
          cases hty with
          | content hp _ => simp at hp
        · exact absurd h2 (S.ents j m q qn hm hp hqn).1
  intro j m hj hm
  have : j = a ∨ ∃ m, w.nodes j = some m ∧ (m.type = .text ∨ m.type = .entityRef) := by
    rcases hj with h | ⟨_, h⟩
    · exact .inl h
    · exact key j h
  rcases this with rfl | ⟨m', h1, h2⟩
  · rw [ha] at hm; cases hm; rw [hat]; simp
  · rw [hm] at h1; cases h1
    rcases h2 with h2 | h2 <;> rw [h2] <;> simp

theorem kids_length (hC : Core w ch) (x : NodeId) : (ch x).length ≤ w.fresh := by
  cases hx : w.nodes x with
  | none => rw [hC.linked.dead x hx]; simp
  | some n =>
    have hnd := (hC.linked.loc x n hx).nodup
    have hsub : (ch x) ⊆ List.range w.fresh := by
      intro c hc
      obtain ⟨m, hm, _⟩ := hC.linked.alive_child hc
      exact List.mem_range.2 (hC.bnd c m hm)
    have := (List.subperm_of_subset hnd hsub).length_le
    simpa using this

/-- Cloning succeeds and makes a copy. -/
theorem cloneWith_run : ∀ (k : Nat) (w : World) (ch : Children) (x : NodeId) (n : Node) (deep : Bool), Sound w ch → w.nodes x = some n → Tall w ch k x →
    Copies w ch x deep → ∃ v cv rn, cloneWith k deep x w = .ok v w.fresh ∧
      Built w ch n (if n.type = .element then n.attrs else []) (if deep then ch x else []) 0 v cv rn := by
  intro k
  induction k with
  | zero => intro w ch x n deep _ _ h; exact h.elim
  | succ k ih =>
    intro w ch x n deep S hx htall hcop
    have hty := hcop x n (.inl rfl) hx
    simp only [List.mem_cons, List.mem_nil_iff, or_false, not_or] at hty
    obtain ⟨t1, t2, t3, t4, t5⟩ := hty
    have hxlt : x < w.fresh := S.wf.bnd _ _ hx
    have hown : n.owner ≠ none := by
      rcases S.wf.owner x n hx with ⟨d, _, o, _⟩ | ⟨o, _⟩
      · rw [o]; simp
      · exact absurd o t2
    -- the copy of the node
    have hcopy : ∃ v cv rn, copyNode (cloneWith k) n w = .ok v w.fresh ∧ Built w ch n (if n.type = .element then n.attrs else []) [] 0 v cv rn := by
      obtain ⟨v, rn, h1, B, _, _⟩ := copyInternal_run S hx hown t1 0
      by_cases hte : n.type = .element
      · have hB : Built w ch n [] [] 0 v ch rn := B
        obtain ⟨v', cv', rn', h2, B'⟩ := cloneAttrs_run S (clone := cloneWith k) hx hte (fun v cv a an Sv ha hav hext => by
          obtain ⟨an', ha1, ha2, _⟩ := (S.attrs x).2.1 a ha
          have halt : a < w.fresh := S.wf.bnd _ _ ha1
          have : an' = an := by rw [hext.nodes _ halt, ha1] at hav; cases hav; rfl
          subst this
          have ht := htall a (by simp [owned, ha])
          obtain ⟨v1, c1, kn, h3, K⟩ := ih v cv a an' true Sv hav ((hext.tall S k a halt).2 ht) (Copies.attr Sv hav ha2 true)
          rw [if_neg (by rw [ha2]; simp), if_pos rfl] at K
          exact ⟨v1, c1, kn, h3, K⟩) n.attrs [] v ch rn rfl B
        refine ⟨v', cv', rn', ?_, by rw [if_pos hte]; exact B'⟩
        unfold copyNode
        simp only [hte]
        unfold copyElement
        rw [bind_ok h1, bind_ok h2]
        rfl
      · refine ⟨v, ch, rn, ?_, by rw [if_neg hte]; exact B⟩
        unfold copyNode
        cases htt : n.type <;> simp_all
    obtain ⟨v, cv, rn, h1, B⟩ := hcopy
    have hrun : ∀ f : NodeId → M NodeId, (copyNode (cloneWith k) n >>= f) w = f w.fresh v := fun f => bind_ok h1 f
    show ∃ v cv rn, cloneBody (cloneWith k) deep x w = _ ∧ _
    have hos : n.owner.isSome = true := by
      cases h : n.owner with
      | none => exact absurd h hown
      | some d => rfl
    have hstart : cloneBody (cloneWith k) deep x w = ((if deep then cloneKids (cloneWith k) w.fresh (v.fresh + 1) n.first else pure ()) >>= fun _ => pure w.fresh) v := by
      unfold cloneBody
      rw [get_bind hx, hos, cassert_bind, hrun, bound_bind]
    rw [hstart]
    cases deep with
    | false => exact ⟨v, cv, rn, rfl, B⟩
    | true =>
      obtain ⟨q, k1, k2, _⟩ := (S.wf.linked.loc x n hx).ends
      rw [hx] at k1; cases k1
      obtain ⟨v', cv', rn', h2, B'⟩ := cloneKids_run (as := if n.type = .element then n.attrs else []) S (clone := cloneWith k) hx t1
        (fun v cv c cn Sv hc hcv hext => by
          obtain ⟨cn', hc1, _⟩ := S.wf.linked.alive_child hc
          have hclt : c < w.fresh := S.wf.bnd _ _ hc1
          have ht := htall c (by simp [owned, hc])
          obtain ⟨v1, c1, kn, h3, K⟩ := ih v cv c cn true Sv hcv ((hext.tall S k c hclt).2 ht) ((hcop.kid hc).ext S hext hclt)
          exact ⟨v1, c1, kn, h3, K⟩) (ch x) [] (v.fresh + 1) v cv rn rfl
        (by have := kids_length S.wf.toCore x; have := B.ext.fresh; omega) B
      refine ⟨v', cv', rn', ?_, B'⟩
      simp only [if_true]
      rw [k2, bind_ok h2]
      rfl

/-- `cloneNode` succeeds and makes a copy. -/
theorem cloneNode_run (S : Sound w ch) (hx : w.nodes x = some n) {deep : Bool} (h : Copies w ch x deep) : ∃ v cv rn, cloneNode x deep w = .ok v w.fresh ∧
    Built w ch n (if n.type = .element then n.attrs else []) (if deep then ch x else []) 0 v cv rn := by
  unfold cloneNode
  rw [bound_bind]
  exact cloneWith_run _ w ch x n deep S hx (tall_live S.wf.toCore S.attrs hx (Nat.le_succ _)) h

end Dom.Tree
