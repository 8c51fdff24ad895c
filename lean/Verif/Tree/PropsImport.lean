import Verif.Tree.ImportRun
import Verif.Tree.PropsNormalize
/-!
# C27: importNode and adoptNode
-/
set_option linter.unusedSimpArgs false
set_option linter.unusedVariables false
namespace Dom.Tree
variable {w w' v : World} {ch ch' cv : Children} {x d j p : NodeId} {n dn pn : Node} {led : Ledger} {deep : Bool}

/-- The ancestors of an old node are the old ones. -/
theorem Ext.up (hC : Core w ch) (h : Ext w ch v cv) (hp : p < w.fresh) (ha : AncSelf v p j) : AncSelf w p j ∧ j < w.fresh := by
  induction ha with
  | refl => exact ⟨.refl, hp⟩
  | @tail q j _ hq ih =>
    obtain ⟨m, hm, e⟩ := hq
    rw [h.nodes q ih.2] at hm
    obtain ⟨jn, hj⟩ := hC.linked.alive_parent hm e
    exact ⟨.tail ih.1 ⟨m, hm, e⟩, hC.bnd j jn hj⟩

theorem Ext.readOnly (hC : Core w ch) (h : Ext w ch v cv) (hp : p < w.fresh) (hr : ReadOnly v p) : ReadOnly w p := by
  obtain ⟨m, hm, hr⟩ := hr
  rw [h.nodes p hp] at hm
  refine ⟨m, hm, ?_⟩
  rcases hr with hr | hr | hr | ⟨ha, j, k, h1, h2, h3⟩
  · exact .inl hr
  · exact .inr (.inl hr)
  · exact .inr (.inr (.inl hr))
  · obtain ⟨h4, h5⟩ := h.up hC hp h1
    exact .inr (.inr (.inr ⟨ha, j, k, h4, by rw [← h.nodes j h5]; exact h2, h3⟩))

/-- A finished copy can be appended to an old node that takes nodes of its type. -/
theorem Built.insertable {as : List AttrEntry} {ks : List NodeId} {lk : Nat} {rn : Node} (S : Sound w ch) (B : Built w ch n as ks lk v cv rn)
    (hp : w.nodes p = some pn) (ho : pn.owner = n.owner) (hro : ¬ ReadOnly w p) (hdoc : pn.type ≠ .document) (hf : n.type ≠ .fragment)
    (hmay : MayContain pn.type n.type) : ∃ u, appendChild p w.fresh v = .ok u w.fresh := by
  have hplt := S.wf.bnd p pn hp
  have hpv : v.nodes p = some pn := by rw [B.ext.nodes p hplt]; exact hp
  have hacc : insertRefusal v cv p w.fresh rn pn none = none := by
    unfold insertRefusal
    rw [if_neg (not_not.2 (.inl (by rw [B.owner, ho]))), if_neg fun h => hro (B.ext.readOnly S.wf.toCore hplt h), if_neg (by rintro ⟨q, hq, _⟩; cases hq),
      if_neg, if_neg, if_neg]
    · rintro ⟨_, q, hq, _⟩
      rw [B.parent] at hq; cases hq
    · rintro ⟨_, h⟩
      exact h ⟨pn, rn, hpv, B.here, by rw [B.type]; exact hmay, fun h => absurd h hdoc⟩
    · intro h
      exact Nat.lt_irrefl _ (B.ext.up S.wf.toCore hplt h).2
  obtain ⟨u, cu, h1, _⟩ := insertBefore_node B.sound.wf hpv B.here (r := none) (fun c h => by cases h) (by rw [B.type]; exact hf) (by simp) hacc
  exact ⟨u, h1⟩

/-- C27.  Importing a node of the same document succeeds; the node returned is new, without parent, and it and everything below it (its attributes included)
belongs to the document; it has the shape of the original (without children unless they are asked for); it can be inserted; the nodes that were there
before, their children included, have not changed.
Missing: nodes of other documents, for which it is false (`C27_import_owner_violated`); ProcessingInstructions (`C28_pi_clone_violated`). -/
theorem C27_import_partial (h : Client Careful led w) (hx : w.nodes x = some n) (hL : Linked w ch) (hd : n.owner = some d)
    (hok : ∀ j m, (j = x ∨ importDeep n.type deep = true ∧ Below ch x j) → w.nodes j = some m → m.type ∉ [.document, .doctype, .entity, .notation_, .pi]) :
    ∃ w' ch' r m, importNode d x deep w = .ok w' r ∧ Linked w' ch' ∧ w.nodes r = none ∧ w'.nodes r = some m ∧ m.parent = none ∧
      (∀ j k, AncSelf w' j r → w'.nodes j = some k → w.nodes j = none ∧ k.owner = some d) ∧
      (importDeep n.type deep = true → ∀ k, shape w' ch' k r = shape w ch k x) ∧
      (importDeep n.type deep = false → ch' r = []) ∧
      (∀ p pn, w.nodes p = some pn → pn.owner = some d → ¬ ReadOnly w p → pn.type ≠ .document → n.type ≠ .fragment → MayContain pn.type n.type →
        ∃ u, appendChild p r w' = .ok u r) ∧
      (∀ j k, w.nodes j = some k → w'.nodes j = some k ∧ ch' j = ch j) := by
  obtain ⟨ch0, S, hl⟩ := h.sound
  have := hL.unique S.wf.linked
  subst this
  obtain ⟨v, cv, rn, h1, B⟩ := importNode_run S hx (deep := deep) d hok
  refine ⟨v, cv, w.fresh, rn, h1, B.sound.wf.linked, fresh_dead S.wf.toCore, B.here, B.parent, ?_, ?_, ?_, ?_, ?_⟩
  · intro j k hj hk
    refine ⟨dead_of_fresh S.wf.toCore (B.ext.anc S.wf.toCore (Nat.le_refl _) hj), ?_⟩
    rw [anc_owner B.sound.wf.toCore hj k rn hk B.here, B.owner, hd]
  · intro hdeep
    rw [hdeep] at B
    exact Built.shape hx B rfl
  · intro hdeep
    rw [hdeep] at B
    exact List.map_eq_nil_iff.1 (B.kids 0)
  · intro p pn hp ho hro hdoc hf hmay
    exact B.insertable S hp (by rw [ho, hd]) hro hdoc hf hmay
  · intro j k hj
    have hlt := S.wf.bnd j k hj
    exact ⟨by rw [B.ext.nodes j hlt]; exact hj, B.ext.kids j hlt⟩

/-- C27 is false of the code for nodes of other documents, the case importing is made for: `dom_document_dup_node` (src/core/document.c:1478-1560) does not
use the document.  The node returned belongs to the document of the original, and no node of the importing document takes it. -/
theorem C27_import_owner_violated (h : Client Careful led w) (hx : w.nodes x = some n) (hL : Linked w ch) (hd : n.owner ≠ some d)
    (hok : ∀ j m, (j = x ∨ importDeep n.type deep = true ∧ Below ch x j) → w.nodes j = some m → m.type ∉ [.document, .doctype, .entity, .notation_, .pi]) :
    ∃ w' r m, importNode d x deep w = .ok w' r ∧ w'.nodes r = some m ∧ m.owner ≠ some d ∧
      ∀ p pn, w.nodes p = some pn → pn.owner = some d → appendChild p r w' = .exc w' .wrongDocument := by
  obtain ⟨ch0, S, hl⟩ := h.sound
  have := hL.unique S.wf.linked
  subst this
  obtain ⟨v, cv, rn, h1, B⟩ := importNode_run S hx (deep := deep) d hok
  have hne : rn.owner ≠ some d := by rw [B.owner]; exact hd
  refine ⟨v, w.fresh, rn, h1, B.here, hne, fun p pn hp ho => ?_⟩
  have hpv : v.nodes p = some pn := by rw [B.ext.nodes p (S.wf.bnd p pn hp)]; exact hp
  refine insertBefore_refused B.sound.wf hpv B.here (r := none) (fun c h => by cases h) ?_
  unfold insertRefusal
  rw [if_pos]
  rintro (h | ⟨h, _⟩)
  · exact hne (by rw [h, ho])
  · rw [B.type] at h
    have := hok x n (.inl rfl) hx
    rw [h] at this
    simp at this

/-- C27.  Documents and DocumentTypes are refused. -/
theorem C27_import_refused (hx : w.nodes x = some n) (ht : n.type = .document ∨ n.type = .doctype) :
    importNode d x deep w = .exc w .notSupported ∧ adoptNode d x w = .exc w .notSupported := by
  have e1 : decide (n.type = .document ∨ n.type = .doctype) = true := by simpa using ht
  constructor
  · unfold importNode
    rw [bound_bind]
    show dupBody _ false deep x w = _
    unfold dupBody
    have hr : refuseReadonly false x w = .ok w () := rfl
    rw [get_bind hx, bind_ok hr, e1, throwIf_true]
  · unfold adoptNode
    rw [get_bind hx, e1, throwIf_true]

/-- C27.  Adopting an element or DocumentFragment of the same document succeeds when it may be taken out: the result is a new node of the document, without
parent and with the shape of the original; the original is out of its parent; all other child lists are unchanged.
Missing: nodes of other documents (false as for importing); the children of a Document, which `removeChild` refuses; attributes
(`C27_adopt_attribute_violated`); the other types, for which the result is NULL (`C27_adopt_text_violated`). -/
theorem C27_adopt_partial (h : Client Careful led w) (hx : w.nodes x = some n) (hlx : 0 < led x) (hL : Linked w ch) (hd : n.owner = some d)
    (ht : n.type = .element ∨ n.type = .fragment) (hro : ¬ ReadOnly w x)
    (hpar : ∀ p pn, n.parent = some p → w.nodes p = some pn → pn.type ≠ .document) (hroom : n.refcnt + 1 < 4294967296)
    (hok : ∀ j m, Below ch x j → w.nodes j = some m → m.type ∉ [.document, .doctype, .entity, .notation_, .pi]) :
    ∃ w' ch' r m xn, adoptNode d x w = .ok w' (some r) ∧ Linked w' ch' ∧ w.nodes r = none ∧ w'.nodes r = some m ∧ m.parent = none ∧ m.owner = some d ∧
      (∀ k, shape w' ch' k r = shape w ch k x) ∧ w'.nodes x = some xn ∧ xn.parent = none ∧ xn.refcnt = n.refcnt ∧
      (∀ q k, w.nodes q = some k → ch' q = (ch q).filter (· ≠ x)) := by
  obtain ⟨ch0, S, hl⟩ := h.sound
  obtain rfl : ch = ch0 := (hL.unique S.wf.linked).symm
  have hC := S.wf.toCore
  have hxlt := S.wf.bnd x n hx
  have hrc : 0 < n.refcnt := by rw [← count_eq hx, hl x]; exact hlx
  have hdeep : importDeep n.type true = true := by
    unfold importDeep
    rcases ht with ht | ht <;> rw [ht] <;> rfl
  obtain ⟨v, cv, rn, h1, B⟩ := dupWith_run (w.fresh + 1) w ch x n true true S hx (tall_live hC S.attrs hx (Nat.le_succ _))
    (fun j m hj hm => hok j m (by rcases hj with rfl | hj; exacts [.refl, hj.2]) hm) (fun _ => hro)
  rw [hdeep, if_pos rfl] at B
  have hxv : v.nodes x = some n := by rw [B.ext.nodes x hxlt]; exact hx
  have hstart : adoptNode d x w = (do adoptRemove w.fresh x; pure (some w.fresh)) v := by
    unfold adoptNode
    have e1 : decide (n.type = .document ∨ n.type = .doctype) = false := by rcases ht with ht | ht <;> simp [ht]
    have e2 : ¬ (n.type = .entity ∨ n.type = .notation_ ∨ n.type = .pi ∨ n.type = .text ∨ n.type = .cdata ∨ n.type = .comment) := by
      rcases ht with ht | ht <;> simp [ht]
    have e3 : decide (n.type = .entityRef) = false := by rcases ht with ht | ht <;> simp [ht]
    rw [get_bind hx, e1, throwIf_false, if_neg e2, e3, throwIf_false, bound_bind, bind_ok h1]
  rw [hstart]
  have hgone : ∀ q k, w.nodes q = some k → n.parent = none → ch q = (ch q).filter (· ≠ x) := by
    intro q k hq hp
    symm
    rw [List.filter_eq_self]
    intro c hc
    simp only [decide_not, Bool.not_eq_eq_eq_not, Bool.not_true, decide_eq_false_iff_not]
    rintro rfl
    obtain ⟨m, hm, _, e⟩ := hC.linked.alive_child hc
    rw [hx] at hm; cases hm
    rw [hp] at e; cases e
  cases hp : n.parent with
  | none =>
    have hrm : adoptRemove w.fresh x v = .ok v () := by
      unfold adoptRemove
      rw [get_bind hxv, hp]
      rfl
    rw [bind_ok hrm]
    exact ⟨v, cv, w.fresh, rn, n, rfl, B.sound.wf.linked, fresh_dead hC, B.here, B.parent, by rw [B.owner, hd], Built.shape hx B rfl, hxv, hp, rfl,
      fun q k hq => by rw [B.ext.kids q (S.wf.bnd q k hq)]; exact hgone q k hq hp⟩
  | some p =>
    obtain ⟨pn, hpn⟩ := hC.linked.alive_parent hx hp
    have hplt := S.wf.bnd p pn hpn
    have hpv : v.nodes p = some pn := by rw [B.ext.nodes p hplt]; exact hpn
    have hna : n.type ≠ .attribute := by rcases ht with ht | ht <;> simp [ht]
    have hxp : x ∈ ch p := hC.linked.up x n p hx hna hp
    have hmay := hC.types p pn x n hpn hxp hx
    have hrop : ¬ ReadOnly v p := by
      intro hr
      obtain ⟨m, hm, hr⟩ := B.ext.readOnly hC hplt hr
      rw [hpn] at hm; cases hm
      rcases hr with hr | hr | ⟨hr, _⟩ | ⟨_, j, k, g1, g2, g3⟩
      · exact hmay.parent hr
      · rw [hr] at hmay
        cases hmay with
        | content hp _ => simp at hp
      · rw [hr] at hmay
        rcases ht with ht | ht <;> rw [ht] at hmay <;> cases hmay <;> simp_all
      · exact hro ⟨n, hx, .inr (.inr (.inr ⟨hna, j, k, .head ⟨n, hx, hp⟩ g1, g2, g3⟩))⟩
    have href : removeRefusal v cv p x pn n = none := by
      unfold removeRefusal
      rw [if_neg fun h => hpar p pn hp hpn h.1, if_neg (not_not.2 (by rw [B.ext.kids p hplt]; exact hxp)), if_neg hrop]
    obtain ⟨u, cu, h2, R⟩ := removeChild_ok B.sound.wf hpv hxv (fun h => absurd h hna) href
    obtain ⟨xu, hxu, hxr, hxpar⟩ : ∃ m, u.nodes x = some m ∧ m.refcnt = n.refcnt + 1 ∧ m.parent = none := by
      have e1 := R.refs x
      have e2 := R.parents x
      rw [hxv] at e1 e2
      cases hu : u.nodes x with
      | none => rw [hu] at e1; cases e1
      | some m =>
        rw [hu] at e1 e2
        simp only [Option.map_some, Option.some.injEq, if_true] at e1 e2
        refine ⟨m, rfl, ?_, e2⟩
        rw [e1]; unfold u32; rw [Nat.mod_eq_of_lt hroom, ite_self]
    have hun := unref_keep hxu (by omega) (.inl (by omega))
    have hrm : adoptRemove w.fresh x v = .ok (u.upd x { xu with refcnt := xu.refcnt - 1 }) () := by
      unfold adoptRemove
      rw [get_bind hxv, hp]
      have ho : orUnref w.fresh (removeChild p x) v = .ok u x := by unfold orUnref; rw [h2]
      show (orUnref w.fresh (removeChild p x) >>= _) v = _
      rw [bind_ok ho, hun]
    rw [bind_ok hrm]
    have hne : w.fresh ≠ x := Nat.ne_of_gt hxlt
    obtain ⟨ru, hru⟩ : ∃ m, u.nodes w.fresh = some m := by
      have e := R.data w.fresh
      rw [B.here] at e
      cases hu : u.nodes w.fresh with
      | none => rw [hu] at e; cases e
      | some m => exact ⟨m, rfl⟩
    have hWF : WF (u.upd x { xu with refcnt := xu.refcnt - 1 }) cu := by
      rw [upd_as_mp hxu fun m => { m with refcnt := m.refcnt - 1 }]
      refine R.wf.mp_same [] ?_ ?_ ?_ ?_ <;> intro j m <;> by_cases h : j = x <;> simp [h, Node.links]
    have hcu : ∀ j, w.fresh ≤ j → cu j = cv j := by
      intro j hj
      rw [R.lists j, List.filter_eq_self]
      intro c hc
      simp only [decide_not, Bool.not_eq_eq_eq_not, Bool.not_true, decide_eq_false_iff_not]
      rintro rfl
      obtain ⟨m, hm, _, e⟩ := B.sound.wf.linked.alive_child hc
      rw [hxv] at hm; cases hm
      rw [hp] at e; cases e
      exact Nat.not_lt.2 hj hplt
    refine ⟨_, cu, w.fresh, ru, { xu with refcnt := xu.refcnt - 1 }, rfl, hWF.linked, fresh_dead hC, by rw [upd_ne _ _ hne]; exact hru, ?_, ?_, ?_, by simp,
      hxpar, by show xu.refcnt - 1 = n.refcnt; omega, ?_⟩
    · have e := R.parents w.fresh
      rw [B.here, hru] at e
      simp only [Option.map_some, Option.some.injEq, if_neg hne] at e
      rw [e, B.parent]
    · have e := R.owner w.fresh
      rw [B.here, hru] at e
      simp only [Option.map_some, Option.some.injEq] at e
      rw [e, B.owner, hd]
    · intro k
      rw [← Built.shape hx B rfl k]
      refine shape_congr (P := fun j => w.fresh ≤ j) ?_ ?_ ?_ k w.fresh (Nat.le_refl _)
      · intro j hj c hc
        obtain ⟨cn, hcn, e⟩ := owned_parent B.sound.wf.toCore B.sound.attrs hc
        refine Nat.le_of_not_lt fun hlt => ?_
        rw [B.ext.nodes c hlt] at hcn
        obtain ⟨jn, hjn⟩ := hC.linked.alive_parent hcn e
        exact Nat.not_lt.2 hj (S.wf.bnd j jn hjn)
      · intro j hj
        have hjx : j ≠ x := by rintro rfl; exact Nat.not_lt.2 hj hxlt
        rw [upd_ne _ _ hjx]
        have e := R.data j
        cases hu : u.nodes j with
        | none => rw [hu] at e; cases hv : v.nodes j with
          | none => rfl
          | some m => rw [hv] at e; cases e
        | some m =>
          rw [hu] at e
          cases hv : v.nodes j with
          | none => rw [hv] at e; cases e
          | some m' =>
            rw [hv] at e
            simp only [Option.map_some, Option.some.injEq] at e
            have := congrArg lab e
            exact congrArg some this
      · exact fun j hj => hcu j hj
    · intro q k hq
      rw [R.lists q, B.ext.kids q (S.wf.bnd q k hq)]

/-- C27 is false of the code: adopting a Text, CDATASection, Comment or ProcessingInstruction returns success and no node, and does nothing
(src/core/document.c:1140-1148). -/
theorem C27_adopt_text_violated (hx : w.nodes x = some n) (ht : n.type = .text ∨ n.type = .cdata ∨ n.type = .comment ∨ n.type = .pi) :
    adoptNode d x w = .ok w none := by
  unfold adoptNode
  have e1 : decide (n.type = .document ∨ n.type = .doctype) = false := by rcases ht with ht | ht | ht | ht <;> simp [ht]
  rw [get_bind hx, e1, throwIf_false, if_pos (by rcases ht with ht | ht | ht | ht <;> simp [ht])]
  rfl

/-- The hypotheses of `C27_adopt_text_violated` are met. -/
example : ∃ led w, Client Careful led w ∧ 0 < led 5 ∧ IsType w 5 .text := by
  obtain ⟨led, w, h, hc⟩ := exists_careful cloneActs (fun led w => decide (0 < led 5) && typeB w 5 .text) (by decide +kernel)
  simp only [Bool.and_eq_true, decide_eq_true_eq] at hc
  exact ⟨led, w, h, hc.1, isType_of_typeB hc.2⟩

/-- The hypotheses of `C27_import_partial` are met by an element with an attribute and a subtree; the import has five nodes and can be inserted into the
element itself. -/
example : ∃ led w, Client Careful led w ∧ 0 < led 1 ∧ (∃ n, w.nodes 1 = some n ∧ n.owner = some 0 ∧ n.first = some 4) ∧
    (∀ j m, w.nodes j = some m → j ≠ 0 → m.type ∉ [.document, .doctype, .entity, .notation_, .pi]) ∧
    ∃ w', importNode 0 1 true w = .ok w' 6 ∧ w'.fresh = 11 ∧ ∃ u, appendChild 1 6 w' = .ok u 6 := by
  obtain ⟨led, w, h, hc⟩ := exists_careful cloneActs (fun led w => decide (0 < led 1) && (at_ w 1 fun n => n.owner = some 0 && n.first = some 4) &&
    ((List.range 6).all fun j => j = 0 || (w.nodes j).all fun m => m.type ∉ [.document, .doctype, .entity, .notation_, .pi]) && decide (w.fresh = 6) &&
    (importNode 0 1 true w).okB fun w' r => decide (r = 6) && decide (w'.fresh = 11) && (appendChild 1 6 w').okB fun _ r => decide (r = 6))
    (by decide +kernel)
  simp only [Bool.and_eq_true, decide_eq_true_eq] at hc
  obtain ⟨w', r, h1, h2⟩ := okB_elim hc.2
  simp only [Bool.and_eq_true, decide_eq_true_eq] at h2
  obtain ⟨u, r', h3, h4⟩ := okB_elim h2.2
  simp only [decide_eq_true_eq] at h4
  obtain ⟨n, n1, n2⟩ := at_elim hc.1.1.1.2
  simp only [Bool.and_eq_true, decide_eq_true_eq] at n2
  rw [h4] at h3
  obtain ⟨⟨rfl, h5⟩, _⟩ := h2
  obtain ⟨ch, S, _⟩ := h.sound
  refine ⟨led, w, h, hc.1.1.1.1, ⟨n, n1, n2⟩, ?_, w', h1, h5, u, h3⟩
  intro j m hm hj
  have := List.all_eq_true.1 hc.1.1.2 j (List.mem_range.2 (by have := S.wf.bnd j m hm; rw [hc.1.2] at this; exact this))
  rw [hm] at this
  simpa [hj] using this

/-- The hypotheses of `C27_adopt_partial` are met: the second element is adopted out of the first. -/
example : ∃ led w, Client Careful led w ∧ 0 < led 4 ∧ (∃ n, w.nodes 4 = some n ∧ n.owner = some 0 ∧ n.type = .element ∧ n.parent = some 1 ∧ n.refcnt < 9) ∧
    (∃ n, w.nodes 1 = some n ∧ n.type = .element ∧ n.first = some 4) ∧
    ∃ w', adoptNode 0 4 w = .ok w' (some 6) ∧ ∃ n, w'.nodes 1 = some n ∧ n.first = none := by
  obtain ⟨led, w, h, hc⟩ := exists_careful cloneActs (fun led w => decide (0 < led 4) &&
    (at_ w 4 fun n => n.owner = some 0 && n.type = .element && n.parent = some 1 && decide (n.refcnt < 9)) &&
    (at_ w 1 fun n => n.type = .element && n.first = some 4) &&
    (adoptNode 0 4 w).okB fun w' r => decide (r = some 6) && at_ w' 1 fun n => n.first = none) (by decide +kernel)
  simp only [Bool.and_eq_true, decide_eq_true_eq] at hc
  obtain ⟨w', r, h1, h2⟩ := okB_elim hc.2
  simp only [Bool.and_eq_true, decide_eq_true_eq] at h2
  obtain ⟨n, n1, n2⟩ := at_elim hc.1.1.2
  obtain ⟨m, m1, m2⟩ := at_elim hc.1.2
  obtain ⟨k, k1, k2⟩ := at_elim h2.2
  simp only [Bool.and_eq_true, decide_eq_true_eq] at n2 m2 k2
  obtain ⟨rfl, _⟩ := h2
  exact ⟨led, w, h, hc.1.1.1, ⟨n, n1, n2.1.1.1, n2.1.1.2, n2.1.2, n2.2⟩, ⟨m, m1, m2⟩, w', h1, k, k1, k2⟩

/-- The hypotheses of `C27_import_owner_violated` are met by two documents. -/
example : ∃ led w, Client Careful led w ∧ 0 < led 2 ∧ (∃ n, w.nodes 2 = some n ∧ n.owner = some 1 ∧ n.type = .element ∧ n.first = none) ∧
    (∃ p, w.nodes 3 = some p ∧ p.owner = some 0) ∧
    ∃ w' r, importNode 0 2 true w = .ok w' r ∧ (appendChild 3 r w').outcome = .exc .wrongDocument := by
  obtain ⟨led, w, h, hc⟩ := exists_careful [.call .createDocument, .call .createDocument, .call (.createNode 1 .element none none),
    .call (.createNode 0 .element none none)]
    (fun led w => decide (0 < led 2) && (at_ w 2 fun n => n.owner = some 1 && n.type = .element && n.first = none) &&
    (at_ w 3 fun n => n.owner = some 0) && (importNode 0 2 true w).okB fun w' r => decide ((appendChild 3 r w').outcome = .exc .wrongDocument))
    (by decide +kernel)
  simp only [Bool.and_eq_true, decide_eq_true_eq] at hc
  obtain ⟨w', r, h1, h2⟩ := okB_elim hc.2
  obtain ⟨n, n1, n2⟩ := at_elim hc.1.1.2
  obtain ⟨m, m1, m2⟩ := at_elim hc.1.2
  simp only [Bool.and_eq_true, decide_eq_true_eq] at n2 m2 h2
  exact ⟨led, w, h, hc.1.1.1, ⟨n, n1, n2.1.1, n2.1.2, n2.2⟩, ⟨m, m1, m2⟩, w', r, h1, h2⟩

/-- The hypotheses of `C27_import_refused` are met. -/
example : ∃ led w, Client Careful led w ∧ IsType w 0 .document := by
  obtain ⟨led, w, h, hc⟩ := exists_careful [.call .createDocument] (fun led w => typeB w 0 .document) (by decide +kernel)
  exact ⟨led, w, h, isType_of_typeB hc⟩

/-- C27 is false of the code: adopting an attribute that is in an element calls `dom_node_remove_child` on the element (src/core/document.c:1160-1170).
The parent of the attribute is the element, so this succeeds, and the element loses all its children: its first child is gone, while the old one still
names the element as its parent. -/
theorem C27_adopt_attribute_violated : ∃ led w, Client Careful led w ∧ 0 < led 2 ∧ IsType w 2 .attribute ∧
    (∃ n, w.nodes 1 = some n ∧ n.first = some 4) ∧
    ∃ w' r, adoptNode 0 2 w = .ok w' (some r) ∧ (∃ n, w'.nodes 1 = some n ∧ n.first = none) ∧ ∃ m, w'.nodes 4 = some m ∧ m.parent = some 1 := by
  obtain ⟨led, w, h, hc⟩ := exists_careful cloneActs (fun led w => decide (0 < led 2) && typeB w 2 .attribute && (at_ w 1 fun n => n.first = some 4) &&
    (adoptNode 0 2 w).okB fun w' r => r.isSome && (at_ w' 1 fun n => n.first = none) && at_ w' 4 fun n => n.parent = some 1) (by decide +kernel)
  simp only [Bool.and_eq_true, decide_eq_true_eq] at hc
  obtain ⟨w', r, h1, h2⟩ := okB_elim hc.2
  simp only [Bool.and_eq_true] at h2
  obtain ⟨n, n1, n2⟩ := at_elim hc.1.2
  obtain ⟨m, m1, m2⟩ := at_elim h2.1.2
  obtain ⟨k, k1, k2⟩ := at_elim h2.2
  simp only [Bool.and_eq_true, decide_eq_true_eq] at n2 m2 k2
  obtain ⟨r, rfl⟩ := Option.isSome_iff_exists.1 h2.1.1
  exact ⟨led, w, h, hc.1.1.1, isType_of_typeB hc.1.1.2, ⟨n, n1, n2⟩, w', r, h1, ⟨m, m1, m2⟩, k, k1, k2⟩

/-- C47 is false of the code: a deep import keeps one of the two references to each child it appends (src/core/document.c:1523-1543 gives up only one).
When the client drops its reference to the import, the child stays allocated although nobody holds a reference to it. -/
theorem C47_import_violated : ∃ led w, Client Careful led w ∧ 0 < led 4 ∧ w.nodes 7 = none ∧
    ∃ w', importNode 0 4 true w = .ok w' 6 ∧ ∃ w'', unref 6 w' = .ok w'' () ∧ w''.nodes 6 = none ∧
      ∃ n, w''.nodes 7 = some n ∧ n.parent = none ∧ n.refcnt = 1 := by
  obtain ⟨led, w, h, hc⟩ := exists_careful cloneActs (fun led w => decide (0 < led 4) && (w.nodes 7).isNone &&
    (importNode 0 4 true w).okB fun w' r => decide (r = 6) && (unref 6 w').okB fun w'' _ => (w''.nodes 6).isNone &&
      at_ w'' 7 fun n => n.parent = none && n.refcnt = 1) (by decide +kernel)
  simp only [Bool.and_eq_true, decide_eq_true_eq, Option.isNone_iff_eq_none] at hc
  obtain ⟨w', r, h1, h2⟩ := okB_elim hc.2
  simp only [Bool.and_eq_true, decide_eq_true_eq] at h2
  obtain ⟨rfl, h2⟩ := h2
  obtain ⟨w'', _, h3, h4⟩ := okB_elim h2
  simp only [Bool.and_eq_true, Option.isNone_iff_eq_none] at h4
  obtain ⟨n, n1, n2⟩ := at_elim h4.2
  simp only [Bool.and_eq_true, decide_eq_true_eq] at n2
  exact ⟨led, w, h, hc.1.1, hc.1.2, w', h1, w'', h3, h4.1, n, n1, n2⟩

end Dom.Tree
