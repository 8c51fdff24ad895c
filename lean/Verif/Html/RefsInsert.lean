import Verif.Html.RefsRun
/-!
# Inserting rows and cells, with references
-/
set_option linter.unusedSimpArgs false
set_option linter.unusedVariables false
namespace Dom.Html.Refs
open Dom.Str (DStr)
open Dom.Tree (World NodeId Node M Children Sound WF Core Room DocKept Clean count Grants getNode deref throwIf bound appendChild insertBefore removeChild ref unref AncSelf ReadOnly bind_ok bind_exc get_bind)
open Dom.Html.Table (trName tdName newElement)

variable {w w' v v' : World} {ch ch' : Children} {x y s d j new : NodeId} {n dn sn nn : Node}

/-- Elements can be changed: nothing is below an EntityReference or an Entity. -/
theorem writable (S : Sound w ch) (hx : w.nodes x = some n) (ht : n.type = .element) : ¬ ReadOnly w x := by
  rintro ⟨m, hm, h⟩
  rw [hx] at hm; cases hm
  rcases h with h | h | ⟨h, _⟩ | ⟨_, j, m, ha, hj, hjt⟩
  · rw [ht] at h; cases h
  · rw [ht] at h; cases h
  · rw [ht] at h; cases h
  · rcases Relation.ReflTransGen.cases_tail ha with h | ⟨z, _, zn, hz, hp⟩
    · rw [h, hx] at hj; cases hj
      rcases hjt with h | h <;> (rw [ht] at h; cases h)
    · obtain ⟨h1, h2⟩ := S.ents z zn j m hz hp hj
      rcases hjt with h | h
      · exact h2 h
      · exact h1 h

theorem new_step (S : Sound w ch) (hx : w.nodes s = some n) (ht : n.type = .element) (hk : DocKept w s) (tag : DStr) :
    ∃ d dn, n.owner = some d ∧ w.nodes d = some dn ∧ dn.type = .document ∧ newElement tag s w = .ok (w.add (Tree.elementNode (some tag) n.ns n.pfx d)) w.fresh ∧
      NewElem w ch (Tree.elementNode (some tag) n.ns n.pfx d) d := by
  obtain ⟨d, dn, ho, hd, hdt⟩ := docOf S hx ht
  obtain ⟨d', hd', e1, e2⟩ := Table.newElement_run S.wf hx ht tag
  rw [ho] at hd'; cases hd'
  exact ⟨d, dn, ho, hd, hdt, e1, S.add e2 rfl rfl rfl rfl (fun h => nomatch h), rfl, rfl, rfl, rfl, rfl, dn, hd, hk n d dn hx ho hd⟩

theorem Closed.add (S : Sound w ch) (h : Closed w ch x) (e : Node) : Closed (w.add e) ch x := by
  obtain ⟨n, h1, h2, h3⟩ := h
  exact ⟨n, Tree.add_old S.wf.toCore h1, h2, h3⟩

/-- A new node is not below an old one. -/
theorem tagList_add (S : Sound w ch) (hx : w.nodes s = some n) (e : Node) (tag : DStr) : tagList (w.add e) ch tag s = tagList w ch tag s := by
  have hd := Tree.docOrder_preorder S.wf.toCore
  unfold tagList members
  have h1 : Tree.preorder ch ((w.add e).fresh + 1) s = Tree.preorder ch (w.fresh + 1) s := Tree.preorder_stable (Tree.ht_any S.wf.toCore s) (Nat.le_succ _)
  rw [h1]
  refine List.filter_congr fun y hy => ?_
  have hb := (Table.mem_order S.wf hd).1 hy
  have hy' : ∃ m, w.nodes y = some m := by
    rcases Relation.ReflTransGen.cases_tail hb with h | ⟨z, _, hz⟩
    · rw [h]; exact ⟨n, hx⟩
    · obtain ⟨m, hm, _⟩ := S.wf.linked.alive_child hz
      exact ⟨m, hm⟩
  obtain ⟨m, hm⟩ := hy'
  unfold Trav.member Table.isTag
  rw [Tree.add_old S.wf.toCore hm, hm]

/-- The node before which the new one is put: the one with the index, if there is one. -/
def target (l : List NodeId) (index : Int) : Option NodeId := if index = -1 then none else l[index.toNat]?

/-- What inserting an element `tag` into `s` at an index does: a bad index is refused, and so is one whose element is not a child of `s`; otherwise the element is put before the
one with the index.  A refusal leaves everything in memory as it is. -/
def Inserts (w : World) (ch : Children) (tag : DStr) (s : NodeId) (index : Int) (res : Tree.Res NodeId) : Prop :=
  (index < -1 ∨ (tagList w ch tag s).length < index → res = .exc (bump w) .indexSize) ∧
  (-1 ≤ index → index ≤ (tagList w ch tag s).length → (∃ c, target (tagList w ch tag s) index = some c ∧ c ∉ ch s) → res = .exc (bump w) .notFound) ∧
  (-1 ≤ index → index ≤ (tagList w ch tag s).length → (∀ c, target (tagList w ch tag s) index = some c → c ∈ ch s) →
    ∃ n d w' ch', w.nodes s = some n ∧ n.owner = some d ∧ res = .ok w' w.fresh ∧
      Placed w ch s w.fresh (Tree.elementNode (some tag) n.ns n.pfx d) (target (tagList w ch tag s) index) w' ch')

/-- Both functions, with the order in which each of them gives up its references. -/
theorem put_run {r : Option NodeId} {e : Node} {fin : M Unit} (S : Sound w ch) (N : NewElem w ch e d) (hs : w.nodes s = some sn) (hst : sn.type = .element) (hso : sn.owner = some d) (Sv : Sound v ch)
    (A : Alike (w.add e) v) (hr : ∀ c, r = some c → ∃ m, w.nodes c = some m ∧ m.type = .element) (hc : ∀ j, count v j = count w j + one w.fresh j + oneOpt r j) (hF : Fin r w.fresh fin) :
    ((∃ c, r = some c ∧ c ∉ ch s) → closing (insertBefore s w.fresh r) fin v = .exc (bump w) .notFound) ∧
    ((∀ c, r = some c → c ∈ ch s) → ∃ w' ch', closing (insertBefore s w.fresh r) fin v = .ok w' w.fresh ∧ Placed w ch s w.fresh e r w' ch') := by
  have hC := S.wf.toCore
  have hdead := Tree.fresh_dead hC
  have K : Kept w v := (kept_add hC e).trans A.kept
  obtain ⟨sv, hsv, hsd, hsvo, _⟩ := K s sn hs
  obtain ⟨nv, hnv, hnb⟩ := A.get (Tree.add_new e)
  have nb := bare_eq hnb
  have hsvt : sv.type = .element := by rw [Tree.Node.data_type hsd]; exact hst
  have hown : nv.owner = sv.owner := by rw [nb.2.1, N.owner, hsvo, hso]
  have hnvt : nv.type = .element := nb.2.2.2.2.2.2.2.trans N.type
  have hro := writable Sv hsv hsvt
  have key := put_finish S N hs hst Sv A hr hc hF
  constructor
  · intro hbad
    have he : Tree.insertRefusal v ch s w.fresh nv sv r = some .notFound := by
      unfold Tree.insertRefusal
      rw [if_neg (not_not.2 (.inl hown)), if_neg hro, if_pos hbad]
    have hx := Tree.insertBefore_refused Sv.wf hsv hnv (fun c hc' => by
      obtain ⟨m, hm, ht⟩ := hr c hc'
      obtain ⟨m', hm', hd', _⟩ := K c m hm
      exact ⟨m', hm', fun h => by rw [Tree.Node.data_type hd', ht] at h; cases h⟩) he
    rcases key with ⟨x, h1, h2⟩ | ⟨w', ch', h1, h2⟩
    · rw [hx] at h2; cases h2; exact h1
    · obtain ⟨c, hc1, hc2⟩ := hbad
      obtain ⟨a, b, h3, h4, _⟩ := h2.here
      rw [hc1] at h4
      exact absurd (by rw [h3]; exact List.mem_append_right _ (List.mem_of_head? h4)) hc2
  · intro hgood
    rcases key with ⟨x, h1, h2⟩ | h
    · exfalso
      have hnab : ¬ AncSelf v s w.fresh := by
        intro h
        rcases Relation.ReflTransGen.cases_tail h with h | ⟨z, _, m, hm, hz⟩
        · rw [h, hs] at hdead; cases hdead
        · obtain ⟨m', hm', hb⟩ := A.symm.get hm
          rw [← (bare_eq hb).2.2.1] at hz
          rcases Tree.add_some hm' with ⟨rfl, rfl⟩ | ⟨_, h'⟩
          · rw [N.parent] at hz; cases hz
          · obtain ⟨k, hk⟩ := hC.linked.alive_parent h' hz
            rw [hdead] at hk; cases hk
      obtain ⟨u, chu, h3, _⟩ := Tree.join_run (r := r) Sv.wf hsv hnv hro (nb.2.2.1.trans N.parent) (by rw [hnvt]; simp) (by rw [hnvt]; simp) hown hnab
        ⟨sv, nv, hsv, hnv, by rw [hsvt, hnvt]; exact .content (by simp) (by simp), fun h => by rw [hsvt] at h; cases h⟩ hgood
      rw [h3] at h2; cases h2
    · exact h

/-- The state in which the index is looked at: the new element and the collection are there. -/
structure Begun (w : World) (ch : Children) (tag : DStr) (s d : NodeId) (n dn : Node) (w1 : World) : Prop where
  node : w.nodes s = some n
  type : n.type = .element
  owner : n.owner = some d
  doc : w.nodes d = some dn
  ne : d ≠ s
  elem : NewElem w ch (Tree.elementNode (some tag) n.ns n.pfx d) d
  create : newElement tag s w = .ok (w.add (Tree.elementNode (some tag) n.ns n.pfx d)) w.fresh
  col : openCol s (w.add (Tree.elementNode (some tag) n.ns n.pfx d)) = .ok w1 d
  len : Table.count tag s w1 = .ok w1 (tagList w ch tag s).length
  small : (tagList w ch tag s).length < 2147483648
  item : ∀ i, i < 4294967295 → Table.item tag s i w1 = .ok w1 (tagList w ch tag s)[i]?
  live : ∀ y ∈ tagList w ch tag s, ∃ m, w.nodes y = some m ∧ m.type = .element
  sound : Sound w1 ch
  alike : Alike (w.add (Tree.elementNode (some tag) n.ns n.pfx d)) w1
  counts : ∀ j, count w1 j = count w j + one w.fresh j + one d j + one s j

theorem begin_run (S : Sound w ch) (hx : Closed w ch s) (hk : DocKept w s) (hr : Roomy w) (hf : w.fresh < 2147483640) (tag : DStr) :
    ∃ n d dn w1, Begun w ch tag s d n dn w1 := by
  obtain ⟨n, h1, h2, h3⟩ := hx
  have hcl : Closed w ch s := ⟨n, h1, h2, h3⟩
  obtain ⟨d, dn, ho, hd, hdt, e1, N⟩ := new_step S h1 h2 hk tag
  have hC := S.wf.toCore
  have hca := count_add hC (e := Tree.elementNode (some tag) n.ns n.pfx d) N.refcnt
  obtain ⟨d', dn', w1, ho', hd', _, hne, e2, S1, A1, c1⟩ := open_step N.sound (Tree.add_old hC h1) h2
    (fun j => by have := hca j; have := one_le w.fresh j; have : count w j < 4294967280 := hr j; omega)
  rw [ho] at ho'; cases ho'
  have hfa : (w.add (Tree.elementNode (some tag) n.ns n.pfx d)).fresh = w.fresh + 1 := rfl
  have hf1 : w1.fresh < 2147483648 := by rw [A1.fresh, hfa]; omega
  have hcl1 : Closed w1 ch s := (hcl.add S _).alike A1
  have ht : tagList w1 ch tag s = tagList w ch tag s := by rw [A1.tagList, tagList_add S h1]
  refine ⟨n, d, dn, w1, h1, h2, ho, hd, hne, N, e1, e2, ?_, ?_, fun i hi => ?_, fun y hy => ?_, S1, A1, fun j => ?_⟩
  · rw [count_total S1 hcl1 tag hf1, ht]
  · exact (col_total S hcl _ (by omega)).2.2.1
  · rw [item_total S1 hcl1 tag hf1 hi, ht]
  · obtain ⟨m, h, h', _⟩ := tag_mem S hcl (by omega) hy
    exact ⟨m, h, h'⟩
  · rw [c1, hca]

/-- The collection is released. -/
theorem Begun.close {tag : DStr} (B : Begun w ch tag s d n dn w') (S : Sound w ch) (hk : DocKept w s) (Sv : Sound v ch)
    (A : Alike (w.add (Tree.elementNode (some tag) n.ns n.pfx d)) v) (hc : ∀ j, count w j + one d j + one s j ≤ count v j) :
    ∃ v', closeCol s d v = .ok v' () ∧ Sound v' ch ∧ Alike (w.add (Tree.elementNode (some tag) n.ns n.pfx d)) v' ∧ ∀ j, count v' j + one d j + one s j = count v j := by
  obtain ⟨v', h1, h2, h3, h4⟩ := close_step S Sv B.node B.type B.owner B.doc hk ((kept_add S.wf.toCore _).trans A.kept) B.ne hc
  exact ⟨v', h1, h2, A.trans h3, h4⟩

theorem Begun.fresh_ne {tag : DStr} (B : Begun w ch tag s d n dn w') (S : Sound w ch) : w.fresh ≠ s ∧ w.fresh ≠ d := by
  have h := Tree.fresh_dead S.wf.toCore
  constructor
  · intro e; rw [e, B.node] at h; cases h
  · intro e; rw [e, B.doc] at h; cases h

theorem Begun.none {tag : DStr} (S : Sound w ch) : count w w.fresh = 0 := by
  unfold count; rw [Tree.fresh_dead S.wf.toCore]

/-- The index is refused, the collection being released first. -/
theorem Begun.bad_col {tag : DStr} (B : Begun w ch tag s d n dn w') (S : Sound w ch) (hk : DocKept w s) :
    ∃ v, closeCol s d w' = .ok v () ∧ unref w.fresh v = .ok (bump w) () := by
  obtain ⟨hfs, hfd⟩ := B.fresh_ne S
  have hz := Begun.none (tag := tag) S
  obtain ⟨v, e1, S1, A1, c1⟩ := B.close S hk B.sound B.alike (fun j => by have := B.counts j; omega)
  obtain ⟨v', ch', e2, S2, A2, c2⟩ := fail_drop S B.elem S1 A1
    (by have h1 := c1 w.fresh; have h2 := B.counts w.fresh; rw [one_ne hfs, one_ne hfd] at h1 h2; rw [one_self] at h2; omega)
    (fun j hj => by have h1 := c1 j; have h2 := B.counts j; omega)
  refine ⟨v, e1, ?_⟩
  rw [e2, A2.eq (fun j => by have h1 := c1 j; have h2 := B.counts j; have h3 := c2 j; show count v' j = count w j; omega)]

/-- The index is refused, the new element being released first. -/
theorem Begun.bad_new {tag : DStr} (B : Begun w ch tag s d n dn w') (S : Sound w ch) (hk : DocKept w s) :
    ∃ v, unref w.fresh w' = .ok v () ∧ closeCol s d v = .ok (bump w) () := by
  obtain ⟨hfs, hfd⟩ := B.fresh_ne S
  have hz := Begun.none (tag := tag) S
  obtain ⟨v, ch', e1, S1, A1, c1⟩ := fail_drop S B.elem B.sound B.alike
    (by have h2 := B.counts w.fresh; rw [one_ne hfs, one_ne hfd, one_self] at h2; omega)
    (fun j hj => by have h2 := B.counts j; omega)
  have K : Kept w v := Kept.trans (w' := bump w) (fun j n h => ⟨n, h, rfl, rfl, rfl⟩) A1.kept
  obtain ⟨v', e2, S2, A2, c2⟩ := close_step S S1 B.node B.type B.owner B.doc hk K B.ne (fun j => by have h1 := c1 j; have h2 := B.counts j; omega)
  refine ⟨v, e1, ?_⟩
  rw [e2, (A1.trans A2).eq (fun j => by have h1 := c1 j; have h2 := B.counts j; have h3 := c2 j; show count v' j = count w j; omega)]

/-- The end with a node or without one. -/
theorem Begun.put {tag : DStr} (B : Begun w ch tag s d n dn w') (S : Sound w ch) (hk : DocKept w s) {r : Option NodeId} {fin : M Unit} (Sv : Sound v ch)
    (A : Alike (w.add (Tree.elementNode (some tag) n.ns n.pfx d)) v) (hc : ∀ j, count v j = count w' j + oneOpt r j)
    (hr : ∀ c, r = some c → ∃ m, w.nodes c = some m ∧ m.type = .element) (hF : Fin r w.fresh fin) :
    ∃ u, closeCol s d v = .ok u () ∧ ((∃ c, r = some c ∧ c ∉ ch s) → closing (insertBefore s w.fresh r) fin u = .exc (bump w) .notFound) ∧
      ((∀ c, r = some c → c ∈ ch s) → ∃ w' ch', closing (insertBefore s w.fresh r) fin u = .ok w' w.fresh ∧ Placed w ch s w.fresh (Tree.elementNode (some tag) n.ns n.pfx d) r w' ch') := by
  obtain ⟨u, e1, S1, A1, c1⟩ := B.close S hk Sv A (fun j => by have := hc j; have := B.counts j; omega)
  exact ⟨u, e1, put_run S B.elem B.node B.type B.owner S1 A1 hr (fun j => by have h1 := c1 j; have h2 := B.counts j; have h3 := hc j; omega) hF⟩

theorem Begun.fetch {tag : DStr} (B : Begun w ch tag s d n dn w') (S : Sound w ch) (hr : Roomy w) {i : Nat} (hi : i < (tagList w ch tag s).length) :
    ∃ v, itemRef tag s i w' = .ok v (tagList w ch tag s)[i]? ∧ Sound v ch ∧ Alike (w.add (Tree.elementNode (some tag) n.ns n.pfx d)) v ∧
      ∀ j, count v j = count w' j + oneOpt (tagList w ch tag s)[i]? j := by
  have hl := List.getElem?_eq_getElem hi
  obtain ⟨m, hm, hmt⟩ := B.live _ (List.getElem_mem hi)
  obtain ⟨m1, hm1, _⟩ := B.alike.get (Tree.add_old S.wf.toCore hm)
  obtain ⟨v, e1, S1, A1, c1⟩ := ref_step B.sound hm1 (by
    rw [get_count hm1, B.counts]
    have h1 : count w (tagList w ch tag s)[i] < 4294967280 := hr _
    have h2 := one_le w.fresh (tagList w ch tag s)[i]
    have h3 := one_le d (tagList w ch tag s)[i]
    have h4 := one_le s (tagList w ch tag s)[i]
    omega)
  refine ⟨v, ?_, S1, B.alike.trans A1, fun j => by rw [hl]; exact c1 j⟩
  unfold itemRef
  rw [bind_ok (B.item i (by have := B.small; omega)), hl]
  show (ref _ >>= _) w' = _
  rw [bind_ok e1]; rfl

theorem sectionPut_run (B : Begun w ch trName s d n dn w') (S : Sound w ch) (hk : DocKept w s) (hr : Roomy w) {index : Int} (h1 : -1 ≤ index) (h2 : index ≤ (tagList w ch trName s).length) :
    ((∃ c, target (tagList w ch trName s) index = some c ∧ c ∉ ch s) → sectionPut s w.fresh d (tagList w ch trName s).length index w' = .exc (bump w) .notFound) ∧
    ((∀ c, target (tagList w ch trName s) index = some c → c ∈ ch s) → ∃ w'' ch'', sectionPut s w.fresh d (tagList w ch trName s).length index w' = .ok w'' w.fresh ∧
      Placed w ch s w.fresh (Tree.elementNode (some trName) n.ns n.pfx d) (target (tagList w ch trName s) index) w'' ch'') := by
  have h32 := Table.toInt32_small B.small
  unfold sectionPut
  rw [h32]
  by_cases hc : index = -1 ∨ index = (tagList w ch trName s).length
  · have ht : target (tagList w ch trName s) index = none := by
      unfold target
      rcases hc with h | h
      · rw [if_pos h]
      · rw [if_neg (by omega), h]; exact List.getElem?_eq_none (by simp)
    rw [if_pos (by simp only [Bool.or_eq_true, beq_iff_eq]; exact hc), ht]
    obtain ⟨u, e1, e2⟩ := B.put S hk (r := none) B.sound B.alike (fun j => rfl) (fun c h => nomatch h) .node
    rw [bind_ok e1]
    exact e2
  · have hlt : index.toNat < (tagList w ch trName s).length := by omega
    have ht : target (tagList w ch trName s) index = (tagList w ch trName s)[index.toNat]? := by
      unfold target; rw [if_neg (by omega)]
    have hu : toUInt32 index = index.toNat := by
      have := Table.toUInt32_small (n := index.toNat) (by have := B.small; omega)
      rwa [Int.toNat_of_nonneg (by omega)] at this
    rw [if_neg (by simp only [Bool.or_eq_true, beq_iff_eq]; exact hc), ht, hu]
    obtain ⟨v, e0, S0, A0, c0⟩ := B.fetch S hr hlt
    obtain ⟨u, e1, e2⟩ := B.put S hk S0 A0 c0 (fun c h => B.live c (List.mem_of_getElem? h)) .node
    rw [bind_ok e0, bind_ok e1]
    exact e2

theorem sectionInsertRow_run (S : Sound w ch) (hx : Closed w ch s) (hk : DocKept w s) (hr : Roomy w) (hf : w.fresh < 2147483640) (index : Int) :
    Inserts w ch trName s index (sectionInsertRow s index w) := by
  obtain ⟨n, d, dn, w1, B⟩ := begin_run S hx hk hr hf trName
  have h32 := Table.toInt32_small B.small
  unfold sectionInsertRow
  rw [bind_ok B.create, bind_ok B.col, bind_ok B.len, h32]
  refine ⟨fun hb => ?_, fun h1 h2 h3 => ?_, fun h1 h2 h3 => ?_⟩
  · obtain ⟨v, e1, e2⟩ := B.bad_col S hk
    rw [if_pos (by simp only [Bool.or_eq_true, decide_eq_true_eq]; omega), bind_ok e1, bind_ok e2]
    rfl
  · rw [if_neg (by simp only [Bool.or_eq_true, decide_eq_true_eq]; omega)]
    exact (sectionPut_run B S hk hr h1 h2).1 h3
  · rw [if_neg (by simp only [Bool.or_eq_true, decide_eq_true_eq]; omega)]
    obtain ⟨w'', ch'', e, P⟩ := (sectionPut_run B S hk hr h1 h2).2 h3
    exact ⟨n, d, w'', ch'', B.node, B.owner, e, P⟩

theorem rowPut_run (B : Begun w ch tdName s d n dn w') (S : Sound w ch) (hk : DocKept w s) (hr : Roomy w) {index : Int} (h1 : -1 ≤ index) (h2 : index ≤ (tagList w ch tdName s).length) :
    ((∃ c, target (tagList w ch tdName s) index = some c ∧ c ∉ ch s) → rowPut s w.fresh d (tagList w ch tdName s).length index w' = .exc (bump w) .notFound) ∧
    ((∀ c, target (tagList w ch tdName s) index = some c → c ∈ ch s) → ∃ w'' ch'', rowPut s w.fresh d (tagList w ch tdName s).length index w' = .ok w'' w.fresh ∧
      Placed w ch s w.fresh (Tree.elementNode (some tdName) n.ns n.pfx d) (target (tagList w ch tdName s) index) w'' ch'') := by
  have h32 := Table.toInt32_small B.small
  unfold rowPut
  rw [h32]
  by_cases hc : index = -1 ∨ index = (tagList w ch tdName s).length
  · have ht : target (tagList w ch tdName s) index = none := by
      unfold target
      rcases hc with h | h
      · rw [if_pos h]
      · rw [if_neg (by omega), h]; exact List.getElem?_eq_none (by simp)
    rw [if_pos (by simp only [Bool.or_eq_true, beq_iff_eq]; exact hc), ht]
    obtain ⟨u, e1, e2⟩ := B.put S hk (r := none) B.sound B.alike (fun j => rfl) (fun c h => nomatch h) .node
    rw [bind_ok e1]
    exact e2
  · have hlt : index.toNat < (tagList w ch tdName s).length := by omega
    have ht : target (tagList w ch tdName s) index = (tagList w ch tdName s)[index.toNat]? := by
      unfold target; rw [if_neg (by omega)]
    have hu : toUInt32 index = index.toNat := by
      have := Table.toUInt32_small (n := index.toNat) (by have := B.small; omega)
      rwa [Int.toNat_of_nonneg (by omega)] at this
    rw [if_neg (by simp only [Bool.or_eq_true, beq_iff_eq]; exact hc), ht, hu]
    obtain ⟨v, e0, S0, A0, c0⟩ := B.fetch S hr hlt
    obtain ⟨u, e1, e2⟩ := B.put S hk S0 A0 c0 (fun c h => B.live c (List.mem_of_getElem? h)) .new
    rw [bind_ok e0, bind_ok e1]
    exact e2

theorem insertCell_run (S : Sound w ch) (hx : Closed w ch s) (hk : DocKept w s) (hr : Roomy w) (hf : w.fresh < 2147483640) (index : Int) :
    Inserts w ch tdName s index (insertCell s index w) := by
  obtain ⟨n, d, dn, w1, B⟩ := begin_run S hx hk hr hf tdName
  have h32 := Table.toInt32_small B.small
  unfold insertCell
  rw [bind_ok B.create, bind_ok B.col, bind_ok B.len, h32]
  refine ⟨fun hb => ?_, fun h1 h2 h3 => ?_, fun h1 h2 h3 => ?_⟩
  · obtain ⟨v, e1, e2⟩ := B.bad_new S hk
    rw [if_pos (by simp only [Bool.or_eq_true, decide_eq_true_eq]; omega), bind_ok e1, bind_ok e2]
    rfl
  · rw [if_neg (by simp only [Bool.or_eq_true, decide_eq_true_eq]; omega)]
    exact (rowPut_run B S hk hr h1 h2).1 h3
  · rw [if_neg (by simp only [Bool.or_eq_true, decide_eq_true_eq]; omega)]
    obtain ⟨w'', ch'', e, P⟩ := (rowPut_run B S hk hr h1 h2).2 h3
    exact ⟨n, d, w'', ch'', B.node, B.owner, e, P⟩

end Dom.Html.Refs
