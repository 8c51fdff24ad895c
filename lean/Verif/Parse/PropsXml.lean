import Verif.Parse.XmlEffects
import Verif.Tree.PropsLife
/-!
# C75: the XML parser binding for expat
-/
set_option linter.unusedSimpArgs false
namespace Dom.Xml
open Dom.Tree
open Dom.Names
open Dom.Str (Bytes DStr Holds utf8)

variable {w w' w0 : World} {ch ch' ch0 : Children} {doc cur i x j : NodeId} {n cn dn : Node} {st st' st1 st2 : St} {ch1 ch2 : Children}

/-! ## Every sequence of events -/

/-- What expat promises: lengths below 4 GiB, and a Name as the name of a document type. -/
def Event.Ok : Event → Prop
  | .start name atts => Short name ∧ ∀ a ∈ atts, Short a.name
  | .doctype name _ _ => ∃ cs, Holds (Str.create name) cs ∧ IsName cs
  | _ => True

theorem step_safe (I : Inv w0 ch0 st ch) {e : Event} (h : e.Ok) : ∃ st' ch', step st e = .ok st' ∧ Inv w0 ch0 st' ch' := by
  cases e with
  | start name atts =>
    rcases start_effect I h.1 h.2 with ⟨_, _, _, _, _, _, _, st', ch', h1, h2, _⟩ | ⟨_, st', h1, h2, _⟩
    · exact ⟨st', ch', h1, h2⟩
    · exact ⟨st', ch, h1, h2⟩
  | finish =>
    obtain ⟨st', h1, h2, _⟩ := end_effect I
    exact ⟨st', ch, h1, h2⟩
  | startCdata => exact ⟨_, ch, rfl, I.base, I.refs, I.here⟩
  | endCdata => exact ⟨_, ch, rfl, I.base, I.refs, I.here⟩
  | chars s =>
    obtain ⟨st', ch', h1, h2, _⟩ := chars_effect I s
    exact ⟨st', ch', h1, h2⟩
  | comment s =>
    obtain ⟨st', ch', h1, h2, _⟩ := comment_effect I s
    exact ⟨st', ch', h1, h2⟩
  | doctype name sys pub =>
    obtain ⟨st', ch', h1, h2, _⟩ := doctype_effect I h sys pub
    exact ⟨st', ch', h1, h2⟩
  | other s => exact ⟨st, ch, rfl, I⟩

theorem steps_safe {es : List Event} (h : ∀ e ∈ es, e.Ok) : ∀ {st ch}, Inv w0 ch0 st ch → ∃ st' ch', steps st es = .ok st' ∧ Inv w0 ch0 st' ch' := by
  induction es with
  | nil => intro st ch I; exact ⟨st, ch, rfl, I⟩
  | cons e es ih =>
    intro st ch I
    obtain ⟨st1, ch1, h1, h2⟩ := step_safe I (h e (by simp))
    obtain ⟨st2, ch2, h3, h4⟩ := ih (fun a ha => h a (by simp [ha])) h2
    exact ⟨st2, ch2, by unfold steps; rw [h1]; exact h3, h4⟩

/-- The new document. -/
theorem create_run (S : Sound w0 ch0) : ∃ st, create w0 = .ok st ∧ Inv w0 ch0 st ch0 ∧ st.doc = w0.fresh ∧ st.current = st.doc ∧ st.isCdata = false ∧ st.msgs = 0 := by
  have hC := S.wf.toCore
  have hnd := createDocument_run (w := w0)
  have S1 : Sound (w0.add { type := .document, owner := some w0.fresh }) ch0 :=
    S.add (WF_createDocument S.wf) rfl rfl rfl rfl (fun h => by cases h)
  have r1 : ref w0.fresh (w0.add { type := .document, owner := some w0.fresh }) =
      .ok ((w0.add { type := .document, owner := some w0.fresh }).upd w0.fresh { type := .document, owner := some w0.fresh, refcnt := 2 }) () := by
    rw [ref_run (add_new _), ref_upd (add_new _)]; rfl
  have r2 : ref w0.fresh ((w0.add { type := .document, owner := some w0.fresh }).upd w0.fresh { type := .document, owner := some w0.fresh, refcnt := 2 }) =
      .ok ((w0.add { type := .document, owner := some w0.fresh }).upd w0.fresh { type := .document, owner := some w0.fresh, refcnt := 3 }) () := by
    rw [ref_run (upd_same _ _ _), ref_upd (upd_same _ _ _), upd_upd]; rfl
  have S2 : Sound ((w0.add { type := .document, owner := some w0.fresh }).upd w0.fresh { type := .document, owner := some w0.fresh, refcnt := 3 }) ch0 :=
    S1.setRef (n := { type := .document, owner := some w0.fresh }) (add_new _) (fun _ _ => by decide) (fun _ h => by cases h)
  have old : ∀ j, j < w0.fresh → ((w0.add { type := .document, owner := some w0.fresh }).upd w0.fresh { type := .document, owner := some w0.fresh, refcnt := 3 }).nodes j = w0.nodes j := by
    intro j hj
    rw [upd_ne _ _ (Nat.ne_of_lt hj), add_ne _ (Nat.ne_of_lt hj)]
  have none_above : ∀ j m, ((w0.add { type := .document, owner := some w0.fresh }).upd w0.fresh { type := .document, owner := some w0.fresh, refcnt := 3 }).nodes j = some m → ¬ w0.fresh < j := by
    intro j m hm hj
    rw [upd_ne _ _ (Nat.ne_of_gt hj), add_ne _ (Nat.ne_of_gt hj)] at hm
    exact absurd (hC.bnd _ _ hm) (Nat.not_lt.2 (Nat.le_of_lt hj))
  refine ⟨_, by unfold create; rw [bind_ok hnd, bind_ok r1, bind_ok r2]; rfl, ⟨⟨S2, rfl, ?_, ?_, ?_, ?_, ?_, ?_, fun _ _ => rfl, ?_⟩, ?_, ?_⟩, rfl, rfl, rfl, rfl⟩
  · exact ⟨_, upd_same _ _ _, rfl⟩
  · intro j m hm hj; exact absurd hj (none_above j m hm)
  · intro j hj; exact congrArg _ (old j hj)
  · intro j hj; exact congrArg _ (old j hj)
  · intro j hj; exact congrArg _ (old j hj)
  · intro j hj; exact congrArg _ (old j hj)
  · intro j m p hm hp
    obtain ⟨k, hk⟩ := hC.linked.alive_parent hm hp
    exact hC.bnd _ _ hk
  · intro j m hm hj
    have e : j = w0.fresh := Nat.le_antisymm (Nat.not_lt.1 (none_above j m hm)) hj
    subst e
    have hm' := hm
    dsimp only at hm'
    rw [upd_same] at hm'; cases hm'
    simp
  · exact ⟨Nat.le_refl _, _, upd_same _ _ _, .inl rfl⟩

/-- The memory is what it was, `w0`, and a document `doc`: every other new node lies in the tree below it, belongs to it, is an element, a text, a CDATA section, a comment,
a document type or an entity reference, and has no references; the document has one. -/
structure Handed (w0 : World) (ch0 : Children) (doc : NodeId) (w : World) (ch : Children) : Prop where
  wf : WF w ch
  node : ∃ dn, w.nodes doc = some dn ∧ dn.type = .document ∧ dn.refcnt = 1
  nodes : ∀ j m, w.nodes j = some m → doc < j → m.owner = some doc ∧ m.refcnt = 0 ∧ AncSelf w j doc ∧
    m.type ∈ [NodeType.element, .text, .cdata, .comment, .doctype, .entityRef]
  data : ∀ j, j < doc → (w.nodes j).map Node.data = (w0.nodes j).map Node.data
  refs : ∀ j, j < doc → (w.nodes j).map Node.refcnt = (w0.nodes j).map Node.refcnt
  lists : ∀ j, j < doc → ch j = ch0 j

theorem Base.root (B : Base w0 ch0 doc w ch) (hj : w.nodes j = some n) (h : doc ≤ j) : AncSelf w j doc := by
  have key : ∀ j, doc ≤ j → ∀ m, w.nodes j = some m → AncSelf w j doc := by
    intro j
    induction j using B.sound.wf.wf.induction with
    | _ j ih =>
      intro hd m hm
      rcases Nat.lt_or_eq_of_le hd with h1 | h1
      · obtain ⟨_, _, p, h2, h3⟩ := B.nodes j m hm h1
        obtain ⟨pn, hp⟩ := B.sound.wf.linked.alive_parent hm h2
        exact (ih p ⟨m, hm, h2⟩ h3 pn hp).head ⟨m, hm, h2⟩
      · subst h1; exact .refl
  exact key j h n hj

/-- The parser gives up its references. -/
theorem destroy_run (I : Inv w0 ch0 st ch) : ∃ w', destroy st = .ok w' ∧ Base w0 ch0 st.doc w' ch ∧ Handed w0 ch0 st.doc w' ch := by
  obtain ⟨hc1, cn, hc2, hc3⟩ := I.here
  obtain ⟨dn, hd, hdt⟩ := I.base.docNode
  have hcr := I.refs _ cn hc2 hc1
  rw [if_pos rfl] at hcr
  have hdr := I.refs _ dn hd (Nat.le_refl _)
  rw [if_pos rfl] at hdr
  have hk : cn.refcnt ≠ 1 ∨ cn.parent ≠ none := by
    by_cases e : st.current = st.doc
    · left; rw [hcr, if_pos e]; decide
    · right
      obtain ⟨_, _, p, h5, _⟩ := I.base.nodes _ cn hc2 (Nat.lt_of_le_of_ne hc1 (Ne.symm e))
      rw [h5]; simp
  have u1 := unref_keep hc2 (by omega) hk
  have B1 : Base w0 ch0 st.doc (st.w.upd st.current { cn with refcnt := cn.refcnt - 1 }) ch := I.base.setRef hc2 hc1 (fun e => by rw [hcr, if_pos e]; decide)
  have hd1 : ∃ d1, (st.w.upd st.current { cn with refcnt := cn.refcnt - 1 }).nodes st.doc = some d1 ∧ d1.refcnt = 2 ∧ d1.type = .document := by
    by_cases e : st.doc = st.current
    · refine ⟨_, by rw [e, upd_same], by show cn.refcnt - 1 = 2; rw [hcr, if_pos e.symm], ?_⟩
      show cn.type = .document
      rw [← e, hd] at hc2
      have e' : dn = cn := by simpa using hc2
      rw [← e', hdt]
    · exact ⟨dn, by rw [upd_ne _ _ e]; exact hd, by rw [hdr, if_neg e], hdt⟩
  obtain ⟨d1, hd1, hd1r, hd1t⟩ := hd1
  have u2 := unref_keep hd1 (by omega) (.inl (by rw [hd1r]; decide))
  have B2 := B1.setRef (r := d1.refcnt - 1) hd1 (Nat.le_refl _) (fun _ => by rw [hd1r]; decide)
  refine ⟨_, by unfold destroy; rw [bind_ok u1, u2], B2, B2.sound.wf, ⟨_, upd_same _ _ _, hd1t, by show d1.refcnt - 1 = 1; rw [hd1r]⟩, ?_, B2.data, B2.refs, B2.lists⟩
  intro j m hm hj
  obtain ⟨g1, g2, g3⟩ := B2.nodes j m hm hj
  refine ⟨g2, ?_, B2.root hm (Nat.le_of_lt hj), ?_⟩
  · rw [upd_ne _ _ (Nat.ne_of_gt hj)] at hm
    by_cases e : j = st.current
    · rw [e, upd_same] at hm
      have e' : ({ cn with refcnt := cn.refcnt - 1 } : Node) = m := by simpa using hm
      rw [← e']
      show cn.refcnt - 1 = 0
      rw [hcr, if_neg (fun h => Nat.ne_of_gt hj (e.trans h))]
    · rw [upd_ne _ _ e] at hm
      rw [I.refs j m hm (Nat.le_of_lt hj), if_neg (Nat.ne_of_gt hj), if_neg e]
  · rcases g1 with ⟨h, _⟩ | ⟨h | h | h, _⟩ | ⟨h, _⟩ | ⟨h, _⟩ <;> rw [h] <;> simp

/-- When the caller gives up the last reference to the document, nothing of it is left and everything else is as it was. -/
theorem released (S : Sound w0 ch0) {w1 : World} (B : Base w0 ch0 doc w1 ch) (Hd : Handed w0 ch0 doc w1 ch) :
    ∃ w2, unref doc w1 = .ok w2 () ∧ (∀ j, doc ≤ j → w2.nodes j = none) ∧ ∀ j, j < doc → w2.nodes j = w1.nodes j := by
  have hdoc : doc = w0.fresh := B.docIs
  obtain ⟨dn, hd, hdt, hdr⟩ := Hd.node
  have dies : ∀ j, doc ≤ j → ∀ m, w1.nodes j = some m → Dies w1 doc j := by
    intro j
    induction j using B.sound.wf.wf.induction with
    | _ j ih =>
      intro hj m hm
      rcases Nat.lt_or_eq_of_le hj with g | g
      · obtain ⟨_, _, p, g2, g3⟩ := B.nodes j m hm g
        obtain ⟨pn, hp⟩ := B.sound.wf.linked.alive_parent hm g2
        exact .down (ih p ⟨m, hm, g2⟩ g3 pn hp) hm g2 (Hd.nodes j m hm g).2.1
      · subst g; exact .self
  have below : ∀ j, Dies w1 doc j → doc ≤ j := by
    intro j hj
    induction hj with
    | self => exact Nat.le_refl _
    | @down p c m _ hm hp _ ih =>
      rcases Nat.lt_or_ge c doc with g | g
      · exfalso
        have e := B.parent c g
        rw [hm] at e
        cases h0 : w0.nodes c with
        | none => rw [h0] at e; cases e
        | some m0 =>
          rw [h0] at e
          have e' : m.parent = m0.parent := by simpa using e
          have := B.before c m0 p h0 (by rw [← e']; exact hp)
          exact absurd ih (Nat.not_le.2 this)
      · exact g
  have noorph : ∀ j, ¬ Orphaned w1 doc j := by
    rintro j ⟨p, m, g1, g2, g3, g4⟩
    rcases Nat.lt_or_ge doc j with g | g
    · exact g4 (Hd.nodes j m g2 g).2.1
    · rcases Nat.lt_or_eq_of_le g with g | g
      · have e := B.parent j g
        rw [g2] at e
        cases h0 : w0.nodes j with
        | none => rw [h0] at e; cases e
        | some m0 =>
          rw [h0] at e
          have e' : m.parent = m0.parent := by simpa using e
          have := B.before j m0 p h0 (by rw [← e']; exact g3)
          exact absurd (below p g1) (Nat.not_le.2 this)
      · rw [g, hd] at g2
        have e : dn = m := by simpa using g2
        rw [← e, doc_parent B.sound.wf.toCore hd hdt] at g3; cases g3
  have noneed : ¬ Needed w1 doc doc := by
    rintro (⟨i, m, g1, g2, g3⟩ | ⟨i, g⟩)
    · rcases Nat.lt_or_ge i doc with g | g
      · have ho : m.owner = some doc := by
          rcases B.sound.wf.pending i m g1 with e | ⟨_, e⟩
          · rw [e] at g2
            split at g2
            · cases g2
            · exact g2
          · rw [e] at g2; cases g2
        have e := B.owner i g
        rw [g1] at e
        cases h0 : w0.nodes i with
        | none => rw [h0] at e; cases e
        | some m0 =>
          rw [h0] at e
          have e' : m.owner = m0.owner := by simpa using e
          rcases S.wf.owner i m0 h0 with ⟨d, dm, e1, e2, _⟩ | ⟨_, e1, _⟩
          · rw [← e', ho] at e1
            have e3 : doc = d := by simpa using e1
            have := S.wf.bnd d dm e2
            rw [← e3, hdoc] at this
            exact absurd this (Nat.lt_irrefl _)
          · rw [← e', ho] at e1; cases e1
      · exact g3 (dies i g m g1)
    · exact noorph i g
  obtain ⟨w2, h5, Rp⟩ := unref_document B.sound.wf B.sound.attrs hd hdr hdt
  refine ⟨w2, h5, ?_, ?_⟩
  · intro j hj
    cases hm : w1.nodes j with
    | none => rw [Rp.same j (fun g => by obtain ⟨g, _⟩ := g; cases g with | self => rw [hd] at hm; cases hm | down _ g _ _ => rw [g] at hm; cases hm) (noorph j) (fun g => noneed g.2)]; exact hm
    | some m => exact Rp.dead j ⟨dies j hj m hm, fun _ => noneed⟩
  · intro j hj
    exact Rp.same j (fun g => absurd (below j g.1) (Nat.not_le.2 hj)) (noorph j) (fun g => noneed g.2)

/-- C75.  Whatever sequence of events expat reports (also one that no document has), no handler crashes and none fails; afterwards all new nodes are in the tree of the new
document, with the right counts; destroying the parser leaves exactly the caller's reference; what was in memory before is as it was; and when the caller gives up its
reference, nothing of the document is left. -/
theorem C75_safe (S : Sound w0 ch0) (es : List Event) (h : ∀ e ∈ es, e.Ok) :
    ∃ st0 st ch w1 w2, create w0 = .ok st0 ∧ steps st0 es = .ok st ∧ st.doc = w0.fresh ∧ destroy st = .ok w1 ∧ Handed w0 ch0 w0.fresh w1 ch ∧
      unref w0.fresh w1 = .ok w2 () ∧ (∀ j, w0.fresh ≤ j → w2.nodes j = none) ∧ ∀ j, j < w0.fresh → w2.nodes j = w1.nodes j := by
  obtain ⟨st0, h1, I0, h2, _⟩ := create_run S
  obtain ⟨st, ch, h3, I⟩ := steps_safe h I0
  obtain ⟨w1, h4, B, Hd⟩ := destroy_run I
  have hdoc : st.doc = w0.fresh := I.base.docIs
  obtain ⟨w2, h5, h6, h7⟩ := released S B Hd
  rw [← hdoc]
  exact ⟨st0, st, ch, w1, w2, h1, h3, rfl, h4, Hd, h5, h6, h7⟩

/-! ## The documents -/

/-- An attribute of a start tag. -/
structure XAtt where
  ns : Option Bytes
  name : Bytes
  value : Bytes

/-- The content of an element.  `first` and `more` are the pieces in which expat reports a run of text. -/
inductive Content
  | nil
  | text (first : Bytes) (more : List Bytes) (rest : Content)
  | cdata (s : Bytes) (rest : Content)
  | comment (s : Bytes) (rest : Content)
  | elem (ns : Option Bytes) (name : Bytes) (atts : List XAtt) (kids rest : Content)

/-- An ordered forest of nodes. -/
inductive Forest
  | nil
  | cons (L : Label) (kids rest : Forest)

/-- How expat reports a name in a namespace: with a line feed between them. -/
def qualified (ns : Option Bytes) (name : Bytes) : Bytes :=
  match ns with
  | none => name
  | some u => u ++ 10 :: name

def XAtt.reported (a : XAtt) : Att := ⟨qualified a.ns a.name, a.value⟩
def XAtt.stored (a : XAtt) : Stored := (a.ns, a.name, a.value)

/-- What expat reports for the content of an element. -/
def Content.events : Content → List Event
  | .nil => []
  | .text f more r => .chars f :: more.map .chars ++ r.events
  | .cdata s r => .startCdata :: .chars s :: .endCdata :: r.events
  | .comment s r => .comment s :: r.events
  | .elem ns name atts kids r => .start (qualified ns name) (atts.map (·.reported)) :: kids.events ++ .finish :: r.events

/-- The nodes that the content should become. -/
def Content.forest : Content → Forest
  | .nil => .nil
  | .text f more r => .cons (.text (f ++ more.flatten)) .nil r.forest
  | .cdata s r => .cons (.cdata s) .nil r.forest
  | .comment s r => .cons (.comment s) .nil r.forest
  | .elem ns name atts kids r => .cons (.elem ns none name (atts.map (·.stored))) kids.forest r.forest

/-- The nodes in the list, with what lies below them, are the forest. -/
def Shows (lo : NodeId) (lab : NodeId → Option Label) (ch : Children) : List NodeId → Forest → Prop
  | [], .nil => True
  | j :: js, .cons L kids rest => lo ≤ j ∧ lab j = some L ∧ Shows lo lab ch (ch j) kids ∧ Shows lo lab ch js rest
  | _, _ => False

/-- A Name without ':' and line feed; with a namespace, which has no line feed either, the rule for "xmlns". -/
def GoodName (ns : Option Bytes) (name : Bytes) (cs : List Char) : Prop :=
  name = utf8 cs ∧ IsName cs ∧ ':' ∉ cs ∧ 10 ∉ name ∧ Short (qualified ns name) ∧
  ∀ u, ns = some u → 10 ∉ u ∧ ∃ us, u = utf8 us ∧ (cs = xmlnsChars ↔ us = xmlnsNsChars)

/-- The attributes have such names, made of characters that are allowed in attribute names, and different ones; an attribute without namespace does not stand behind one
of the same name in a namespace. -/
def GoodAtts (atts : List XAtt) : Prop :=
  (∀ a ∈ atts, ∃ cs, GoodName a.ns a.name cs ∧ ∀ c ∈ cs, IsAttrChar c.toNat) ∧ atts.Pairwise fun a b => ¬ ((b.ns = none ∨ a.ns = b.ns) ∧ a.name = b.name)

def Content.startsText : Content → Prop
  | .text _ _ _ => True
  | _ => False

/-- The names are good and all pieces of a run of text are together. -/
def Content.Good : Content → Prop
  | .nil => True
  | .text _ _ r => ¬ r.startsText ∧ r.Good
  | .cdata _ r => r.Good
  | .comment _ r => r.Good
  | .elem ns name atts kids r => (∃ cs, GoodName ns name cs) ∧ GoodAtts atts ∧ kids.Good ∧ r.Good

theorem takeWhile_sep {u : Bytes} (h : 10 ∉ u) (n : Bytes) : (u ++ 10 :: n).takeWhile (· ≠ 10) = u ∧ (u ++ 10 :: n).dropWhile (· ≠ 10) = 10 :: n := by
  induction u with
  | nil => simp
  | cons b u ih =>
    have hb : b ≠ 10 := fun e => h (by simp [e])
    have := ih (fun e => h (by simp [e]))
    simp only [List.cons_append]
    rw [List.takeWhile_cons_of_pos (by simpa using hb), List.dropWhile_cons_of_pos (by simpa using hb), this.1, this.2]
    exact ⟨rfl, rfl⟩

theorem splitSep_qualified {ns : Option Bytes} {name : Bytes} (h1 : 10 ∉ name) (h2 : ∀ u, ns = some u → 10 ∉ u) : splitSep (qualified ns name) = (ns, name) := by
  cases ns with
  | none => unfold splitSep qualified; rw [if_neg h1]
  | some u =>
    have := takeWhile_sep (h2 u rfl) name
    unfold splitSep qualified
    dsimp only
    rw [if_pos (by simp), this.1, this.2]; rfl

theorem GoodName.short {ns : Option Bytes} {name : Bytes} {cs : List Char} (h : GoodName ns name cs) : Short name ∧ ∀ u, ns = some u → Short u := by
  obtain ⟨_, _, _, _, h, _⟩ := h
  cases ns with
  | none => exact ⟨h, by simp⟩
  | some u =>
    unfold Short qualified at *
    simp only [List.length_append, List.length_cons] at h
    refine ⟨by omega, ?_⟩
    rintro v hv
    cases hv
    omega

/-- A good name is accepted and not split. -/
theorem GoodName.ns {u name : Bytes} {cs : List Char} (h : GoodName (some u) name cs) :
    createNamedNS (some (Str.createInterned u)) (some (Str.createInterned name)) = .ok (none, Str.createInterned name) := by
  have hs := h.short
  obtain ⟨h1, h2, h3, _, _, h6⟩ := h
  obtain ⟨_, us, hu, hx⟩ := h6 u rfl
  have hq : Holds (Str.createInterned name) cs := ⟨h1, by rw [← h1]; exact hs.1⟩
  have hn : Holds (Str.createInterned u) us := ⟨hu, by rw [← hu]; exact hs.2 u rfl⟩
  obtain ⟨⟨p, l⟩, hr⟩ := (C16_rules_iff _ _ cs us hq hn).2 ⟨h2, .inl ⟨h3, hx⟩, by
    rintro ps ls rfl _
    exact absurd (by simp) h3⟩
  obtain ⟨_, g1, g2⟩ := C16_rules_partial _ _ cs us hq hn hr
  cases p with
  | none => rw [hr, (g1 rfl).1]
  | some p =>
    obtain ⟨ps, ls, _, _, e, _⟩ := g2 p rfl
    exact absurd (by rw [e]; simp) h3

theorem elemOut_good {ns : Option Bytes} {name : Bytes} {cs : List Char} (h : GoodName ns name cs) (l : List Stored) :
    ∃ n, elemOut doc (qualified ns name) = .ok n ∧ labelOf n l none = some (.elem ns none name l) := by
  have hs := splitSep_qualified h.2.2.2.1 (fun u hu => (h.2.2.2.2.2 u hu).1)
  unfold elemOut
  rw [hs]
  cases ns with
  | none =>
    have : createNamed (some (Str.createInterned name)) = .ok () := ((C14_create (Str.createInterned name) h.short.1).2.1).2 ⟨cs, h.1, h.2.1⟩
    dsimp only
    rw [this]
    exact ⟨_, rfl, rfl⟩
  | some u =>
    dsimp only
    rw [h.ns]
    exact ⟨_, rfl, rfl⟩

theorem attOne_good {a : XAtt} {cs : List Char} (h : GoodName a.ns a.name cs) (hc : ∀ c ∈ cs, IsAttrChar c.toNat) : attOne a.reported = .ok a.stored := by
  have hs := splitSep_qualified h.2.2.2.1 (fun u hu => (h.2.2.2.2.2 u hu).1)
  have hv : validateAttributeName (some (Str.createInterned a.name)) = true := by
    rw [C15_accept_iff _ cs ⟨h.1, by rw [← h.1]; exact h.short.1⟩]
    refine ⟨?_, fun c hm => .inl (hc c hm)⟩
    rintro rfl
    exact h.2.1
  unfold attOne XAtt.reported
  dsimp only
  rw [hs]
  obtain ⟨ns, name, value⟩ := a
  cases ns with
  | none =>
    dsimp only at hv ⊢
    rw [hv]; rfl
  | some u =>
    dsimp only at hv h ⊢
    rw [h.ns]
    simp only [Out.bind_ok]
    rw [hv]; rfl

theorem putAtt_new {a : Stored} : ∀ {l : List Stored}, (∀ b ∈ l, ¬ ((a.1 = none ∨ b.1 = a.1) ∧ b.2.1 = a.2.1)) → putAtt l a = l ++ [a]
  | [], _ => rfl
  | b :: l, h => by
    unfold putAtt
    rw [if_neg (h b (by simp)), putAtt_new fun c hc => h c (by simp [hc])]
    rfl

theorem attLoop_good {atts : List XAtt} (h : GoodAtts atts) : ∀ l, (∀ b ∈ l, ∀ a ∈ atts, ¬ ((a.ns = none ∨ b.1 = a.ns) ∧ b.2.1 = a.name)) →
    attLoop l (atts.map (·.reported)) = .ok (l ++ atts.map (·.stored)) := by
  obtain ⟨h1, h2⟩ := h
  induction atts with
  | nil => intro l _; simp [attLoop]
  | cons a as ih =>
    intro l hl
    rw [List.pairwise_cons] at h2
    obtain ⟨cs, g1, g2⟩ := h1 a (by simp)
    simp only [List.map_cons]
    unfold attLoop
    rw [attOne_good g1 g2]
    simp only [Out.bind_ok]
    have hp : putAtt l a.stored = l ++ [a.stored] := putAtt_new fun b hb => hl b hb a (by simp)
    rw [hp, ih (fun b hb => h1 b (by simp [hb])) h2.2]
    · simp
    · intro b hb c hc
      rcases List.mem_append.1 hb with hb | hb
      · exact hl b hb c (by simp [hc])
      · have e : b = a.stored := by simpa using hb
        rw [e]; exact h2.1 c hc

/-! ## Running the content -/

/-- A part of the document was reported: the nodes `new`, showing `F`, are at the end of the current node, and everything else is as before. -/
structure Ran (w0 : World) (ch0 : Children) (st : St) (ch : Children) (new : List NodeId) (F : Forest) (st' : St) (ch' : Children) : Prop where
  inv : Inv w0 ch0 st' ch'
  current : st'.current = st.current
  isCdata : st'.isCdata = st.isCdata
  doc : st'.doc = st.doc
  msgs : st'.msgs = st.msgs
  fresh : st.w.fresh ≤ st'.w.fresh
  here : ch' st.current = ch st.current ++ new
  lists : ∀ j, j < st.w.fresh → j ≠ st.current → ch' j = ch j
  labels : ∀ j, j < st.w.fresh → label st' j = label st j
  shows_ : Shows st.w.fresh (label st') ch' new F

theorem Shows.frame {lo : NodeId} {lab lab' : NodeId → Option Label} (h : ∀ j, lo ≤ j → lab j ≠ none → lab' j = lab j ∧ ch' j = ch j) :
    ∀ {F : Forest} {js : List NodeId}, Shows lo lab ch js F → Shows lo lab' ch' js F := by
  intro F
  induction F with
  | nil => intro js; cases js <;> simp [Shows]
  | cons L k r ihk ihr =>
    intro js
    cases js with
    | nil => simp [Shows]
    | cons j js =>
      rintro ⟨h1, h2, h3, h4⟩
      obtain ⟨g1, g2⟩ := h j h1 (by rw [h2]; simp)
      exact ⟨h1, by rw [g1]; exact h2, by rw [g2]; exact ihk h3, ihr h4⟩

theorem Shows.lower {lo lo' : NodeId} {lab : NodeId → Option Label} (h : lo' ≤ lo) :
    ∀ {F : Forest} {js : List NodeId}, Shows lo lab ch js F → Shows lo' lab ch js F := by
  intro F
  induction F with
  | nil => intro js; cases js <;> simp [Shows]
  | cons L k r ihk ihr =>
    intro js
    cases js with
    | nil => simp [Shows]
    | cons j js =>
      rintro ⟨h1, h2, h3, h4⟩
      exact ⟨Nat.le_trans h h1, h2, ihk h3, ihr h4⟩

/-- One forest behind the other. -/
def Forest.append : Forest → Forest → Forest
  | .nil, G => G
  | .cons L k r, G => .cons L k (r.append G)

theorem Shows.append {lo : NodeId} {lab : NodeId → Option Label} {G : Forest} {ks : List NodeId} (hG : Shows lo lab ch ks G) :
    ∀ {F : Forest} {js : List NodeId}, Shows lo lab ch js F → Shows lo lab ch (js ++ ks) (F.append G) := by
  intro F
  induction F with
  | nil => intro js; cases js <;> simp [Shows, Forest.append, hG]
  | cons L k r ihk ihr =>
    intro js
    cases js with
    | nil => simp [Shows]
    | cons j js =>
      rintro ⟨h1, h2, h3, h4⟩
      exact ⟨h1, h2, h3, ihr h4⟩

theorem Inv.below (I : Inv w0 ch0 st ch) (h : label st j ≠ none) : j < st.w.fresh := by
  rcases Nat.lt_or_ge j st.w.fresh with h' | h'
  · exact h'
  · exact absurd (fresh_label I h') h

theorem Inv.curLt (I : Inv w0 ch0 st ch) : st.current < st.w.fresh := by
  obtain ⟨_, cn, h, _⟩ := I.here
  exact I.base.sound.wf.bnd _ _ h

theorem Ran.append {a b : List NodeId} {F G : Forest} (I : Inv w0 ch0 st ch) (A : Ran w0 ch0 st ch a F st1 ch1) (B : Ran w0 ch0 st1 ch1 b G st2 ch2) :
    Ran w0 ch0 st ch (a ++ b) (F.append G) st2 ch2 := by
  have hcur := I.curLt
  refine ⟨B.inv, B.current.trans A.current, B.isCdata.trans A.isCdata, B.doc.trans A.doc, B.msgs.trans A.msgs, Nat.le_trans A.fresh B.fresh, ?_, ?_, ?_, ?_⟩
  · have := B.here
    rw [A.current] at this
    rw [this, A.here, List.append_assoc]
  · intro j h1 h2
    rw [B.lists j (Nat.lt_of_lt_of_le h1 A.fresh) (by rw [A.current]; exact h2), A.lists j h1 h2]
  · intro j h1
    rw [B.labels j (Nat.lt_of_lt_of_le h1 A.fresh), A.labels j h1]
  · refine Shows.append (B.shows_.lower A.fresh) (A.shows_.frame ?_)
    intro j h1 h2
    have h3 := A.inv.below h2
    refine ⟨B.labels j h3, B.lists j h3 ?_⟩
    rw [A.current]
    exact fun e => absurd (e ▸ h1 : st.w.fresh ≤ st.current) (Nat.not_le.2 hcur)

theorem Ran.nil (I : Inv w0 ch0 st ch) : Ran w0 ch0 st ch [] .nil st ch :=
  ⟨I, rfl, rfl, rfl, rfl, Nat.le_refl _, by simp, fun _ _ _ => rfl, fun _ _ => rfl, trivial⟩

theorem fresh_list (I : Inv w0 ch0 st ch) : ch st.w.fresh = [] :=
  I.base.sound.wf.linked.dead _ (fresh_dead I.base.sound.wf.toCore)

/-- One node without children. -/
theorem Grew.ran {L : Label} (I : Inv w0 ch0 st ch) (I' : Inv w0 ch0 st' ch') (hc : st'.current = st.current) (G : Grew st ch st.current L st' ch') :
    Ran w0 ch0 st ch [st.w.fresh] (.cons L .nil .nil) st' ch' := by
  have hcur := I.curLt
  refine ⟨I', hc, G.isCdata, G.doc, G.msgs, by rw [G.fresh]; exact Nat.le_succ _, by rw [G.lists, if_pos rfl], ?_, ?_, ?_⟩
  · intro j _ h; rw [G.lists, if_neg h, List.append_nil]
  · intro j h; exact G.old j (Nat.ne_of_lt h)
  · refine ⟨Nat.le_refl _, G.new, ?_, trivial⟩
    rw [G.lists, if_neg (Nat.ne_of_gt hcur), fresh_list I]; trivial

theorem one_parent {p q c : NodeId} (I : Inv w0 ch0 st ch) (h1 : c ∈ ch p) (h2 : c ∈ ch q) : p = q := by
  obtain ⟨a, ha, _, e1⟩ := I.base.sound.wf.linked.alive_child h1
  obtain ⟨b, hb, _, e2⟩ := I.base.sound.wf.linked.alive_child h2
  rw [ha] at hb
  have e : a = b := by simpa using hb
  rw [e, e2] at e1
  simpa using e1.symm

theorem steps_append (a b : List Event) : ∀ st, steps st (a ++ b) = (steps st a >>= fun st => steps st b) := by
  induction a with
  | nil => intro st; rfl
  | cons e a ih =>
    intro st
    show (step st e >>= fun st => steps st (a ++ b)) = ((step st e >>= fun st => steps st a) >>= fun st => steps st b)
    cases step st e with
    | ok s => exact ih s
    | exc x => rfl
    | fault f => rfl

theorem steps_then {a b : List Event} (h1 : steps st a = .ok st1) (h2 : steps st1 b = .ok st2) : steps st (a ++ b) = .ok st2 := by
  rw [steps_append, h1]; exact h2

theorem steps_one {e : Event} (h : step st e = .ok st1) : steps st [e] = .ok st1 := by
  unfold steps; rw [h]; rfl

/-- The pieces of a run of text. -/
theorem more_run {l : NodeId} : ∀ (more : List Bytes) {st : St} {ch : Children} {t : Bytes}, Inv w0 ch0 st ch → st.isCdata = false → (ch st.current).getLast? = some l →
    label st l = some (.text t) → ∃ st', steps st (more.map .chars) = .ok st' ∧ Inv w0 ch0 st' ch ∧ st'.current = st.current ∧ st'.isCdata = false ∧ st'.doc = st.doc ∧
      st'.msgs = st.msgs ∧ st'.w.fresh = st.w.fresh ∧ label st' l = some (.text (t ++ more.flatten)) ∧ ∀ j, j ≠ l → label st' j = label st j := by
  intro more
  induction more with
  | nil => intro st ch t I h1 h2 h3; exact ⟨st, rfl, I, rfl, h1, rfl, rfl, rfl, by simpa using h3, fun _ _ => rfl⟩
  | cons s more ih =>
    intro st ch t I h1 h2 h3
    obtain ⟨st1, ch1, g1, g2, g3, g4, g5⟩ := chars_effect I s
    rcases g5 with ⟨l', t', _, k2, k3, rfl, k5, k6, k7, k8, k9⟩ | ⟨g5, _⟩
    · rw [h2] at k2
      have e : l = l' := by simpa using k2
      subst e
      rw [h3] at k3
      have e : t = t' := by simpa using k3
      subst e
      obtain ⟨st2, m1, m2, m3, m4, m5, m6, m7, m8, m9⟩ := ih g2 (g4.trans h1) (by rw [g3]; exact h2) k5
      refine ⟨st2, ?_, m2, m3.trans g3, m4, m5.trans k8, m6.trans k9, m7.trans k7, by rw [m8]; simp, ?_⟩
      · show (step st (.chars s) >>= _) = _
        rw [g1]; exact m1
      · intro j hj; rw [m9 j hj, k6 j hj]
    · exact absurd h3 (g5 l t h1 h2)

/-- The text at the end of the current node, if there is one, is complete. -/
def Ready (st : St) (ch : Children) (c : Content) : Prop :=
  c.startsText → ∀ l t, (ch st.current).getLast? = some l → label st l ≠ some (.text t)

theorem notText_ready {c : Content} (h : ¬ c.startsText) : Ready st ch c := fun h' => absurd h' h

theorem Shows.single {lo : NodeId} {lab : NodeId → Option Label} {L : Label} {k : Forest} {new : List NodeId} (h : Shows lo lab ch new (.cons L k .nil)) : ∃ j, new = [j] ∧ lab j = some L := by
  cases new with
  | nil => simp [Shows] at h
  | cons j js =>
    obtain ⟨_, h2, _, h4⟩ := h
    cases js with
    | nil => exact ⟨j, rfl, h2⟩
    | cons a b => simp [Shows] at h4

/-- After one node that is no text, text may follow. -/
theorem Ran.ready {new : List NodeId} {L : Label} {k : Forest} (R : Ran w0 ch0 st ch new (.cons L k .nil) st' ch') (hL : ∀ t, L ≠ .text t) (c : Content) : Ready st' ch' c := by
  intro _ l t hl
  obtain ⟨j, rfl, h2⟩ := R.shows_.single
  rw [R.current, R.here, List.getLast?_concat] at hl
  have e : j = l := by simpa using hl
  rw [← e, h2]
  intro h
  exact hL t (by simpa using h)

/-- Joining a node and what follows it. -/
theorem Ran.cons {new : List NodeId} {L : Label} {k : Forest} {a : List Event} {c : Content} (I : Inv w0 ch0 st ch) (h1 : steps st a = .ok st1)
    (R : Ran w0 ch0 st ch new (.cons L k .nil) st1 ch1) (h2 : ∃ st2 ch2 new2, steps st1 c.events = .ok st2 ∧ Ran w0 ch0 st1 ch1 new2 c.forest st2 ch2) :
    ∃ st2 ch2 new2, steps st (a ++ c.events) = .ok st2 ∧ Ran w0 ch0 st ch new2 (.cons L k c.forest) st2 ch2 := by
  obtain ⟨st2, ch2, new2, g1, g2⟩ := h2
  exact ⟨st2, ch2, _, steps_then h1 g1, R.append I g2⟩

/-- An element and what is in it, up to its end tag. -/
theorem open_run {ns : Option Bytes} {name : Bytes} {cs : List Char} {atts : List XAtt} {kids : Content} (I : Inv w0 ch0 st ch) (hb : st.isCdata = false)
    (hn : GoodName ns name cs) (ha : GoodAtts atts) (ht : Takes st ch st.current .element)
    (ih : ∀ {st : St} {ch : Children}, Inv w0 ch0 st ch → st.current ≠ st.doc → st.isCdata = false → Ready st ch kids →
      ∃ st' ch' new, steps st kids.events = .ok st' ∧ Ran w0 ch0 st ch new kids.forest st' ch') :
    ∃ st1 ch1, steps st (.start (qualified ns name) (atts.map (·.reported)) :: kids.events) = .ok st1 ∧ Inv w0 ch0 st1 ch1 ∧ st1.current = st.w.fresh ∧ st1.isCdata = false ∧
      st1.doc = st.doc ∧ st1.msgs = st.msgs ∧ st.w.fresh < st1.w.fresh ∧ ch1 st.current = ch st.current ++ [st.w.fresh] ∧
      (∀ j, j < st.w.fresh → j ≠ st.current → ch1 j = ch j) ∧ (∀ j, j < st.w.fresh → label st1 j = label st j) ∧
      Shows st.w.fresh (label st1) ch1 [st.w.fresh] (.cons (.elem ns none name (atts.map (·.stored))) kids.forest .nil) := by
  have hcur := I.curLt
  have hal : attLoop [] (atts.map (·.reported)) = .ok (atts.map (·.stored)) := by
    rw [attLoop_good ha []]
    · simp
    · simp
  obtain ⟨n, hn1, hn2⟩ := elemOut_good (doc := st.doc) hn (atts.map (·.stored))
  have hsh : ∀ a ∈ atts.map (·.reported), Short a.name := by
    intro a h
    obtain ⟨b, hb, rfl⟩ := List.mem_map.1 h
    obtain ⟨cs, g, _⟩ := ha.1 b hb
    exact g.2.2.2.2.1
  rcases start_effect I hn.2.2.2.2.1 hsh with ⟨n', l, L, e1, e2, e3, _, st1, ch1, h1, I1, G, h2⟩ | ⟨h, _⟩
  · rw [hn1] at e1
    have e : n = n' := by simpa using e1
    subst e
    rw [hal] at e2
    have e : atts.map (·.stored) = l := by simpa using e2
    subst e
    rw [hn2] at e3
    have e : Label.elem ns none name (atts.map (·.stored)) = L := by simpa using e3
    subst e
    have hl0 : ch1 st.w.fresh = [] := by rw [G.lists, if_neg (Nat.ne_of_gt hcur), fresh_list I]; rfl
    have hdoc : st1.current ≠ st1.doc := by
      rw [h2, G.doc]; exact Nat.ne_of_gt I.base.ahead
    have hrdy : Ready st1 ch1 kids := by
      intro _ l t hl
      rw [h2, hl0] at hl; cases hl
    obtain ⟨st2, ch2, new, g1, R⟩ := ih I1 hdoc (G.isCdata.trans hb) hrdy
    have hf : st.w.fresh < st1.w.fresh := by rw [G.fresh]; exact Nat.lt_succ_self _
    have hc1 : st.current < st1.w.fresh := Nat.lt_trans hcur hf
    refine ⟨st2, ch2, ?_, R.inv, R.current.trans h2, R.isCdata.trans (G.isCdata.trans hb), R.doc.trans G.doc, R.msgs.trans G.msgs, Nat.lt_of_lt_of_le hf R.fresh, ?_, ?_, ?_, ?_⟩
    · show (step st _ >>= _) = _
      rw [h1]; exact g1
    · rw [R.lists _ hc1 (by rw [h2]; exact Nat.ne_of_lt hcur), G.lists, if_pos rfl]
    · intro j g3 g4
      rw [R.lists j (Nat.lt_trans g3 hf) (by rw [h2]; exact Nat.ne_of_lt g3), G.lists, if_neg g4, List.append_nil]
    · intro j g3
      rw [R.labels j (Nat.lt_trans g3 hf), G.old j (Nat.ne_of_lt g3)]
    · refine ⟨Nat.le_refl _, by rw [R.labels _ hf]; exact G.new, ?_, trivial⟩
      have := R.here
      rw [h2, hl0] at this
      rw [this]
      exact R.shows_.lower (Nat.le_of_lt hf)
  · exact absurd ht (h n _ hn1 hal)

theorem takes_elem (I : Inv w0 ch0 st ch) (h : st.current ≠ st.doc) : Takes st ch st.current .element := by
  obtain ⟨_, cn, hc2, hc3⟩ := I.here
  have ht : cn.type = .element := hc3.resolve_left h
  refine ⟨cn, hc2, by rw [ht]; exact .content (by simp) (by simp), ?_⟩
  intro e; rw [ht] at e; cases e

/-- The content of an element. -/
theorem content_run : ∀ (c : Content), c.Good → ∀ {st : St} {ch : Children}, Inv w0 ch0 st ch → st.current ≠ st.doc → st.isCdata = false → Ready st ch c →
    ∃ st' ch' new, steps st c.events = .ok st' ∧ Ran w0 ch0 st ch new c.forest st' ch' := by
  intro c
  induction c with
  | nil => intro _ st ch I _ _ _; exact ⟨st, ch, [], rfl, Ran.nil I⟩
  | text f more r ih =>
    intro hg st ch I hd hb hr
    obtain ⟨st1, ch1, g1, g2, g3, g4, g5⟩ := chars_effect I f
    rcases g5 with ⟨l, t, _, k2, k3, _⟩ | ⟨_, ⟨_, G⟩ | ⟨e, _⟩⟩
    · exact absurd k3 (hr trivial l t k2)
    · rw [hb] at G
      have hlast : (ch1 st1.current).getLast? = some st.w.fresh := by rw [g3, G.lists, if_pos rfl, List.getLast?_concat]
      obtain ⟨st2, m1, m2, m3, m4, m5, m6, m7, m8, m9⟩ := more_run more g2 (g4.trans hb) hlast G.new
      have G2 : Grew st ch st.current (.text (f ++ more.flatten)) st2 ch1 :=
        ⟨G.lists, m8, fun j hj => (m9 j hj).trans (G.old j hj), m7.trans G.fresh, m5.trans G.doc, m4.trans hb.symm, m6.trans G.msgs⟩
      have R := G2.ran I m2 (m3.trans g3)
      have hst : steps st (.chars f :: more.map .chars) = .ok st2 := by
        show (step st _ >>= _) = _
        rw [g1]; exact m1
      exact R.cons I hst (ih hg.2 m2 (by rw [R.current, R.doc]; exact hd) m4 (notText_ready hg.1))
    · exact absurd e hd
  | cdata s r ih =>
    intro hg st ch I hd hb hr
    have I1 : Inv w0 ch0 { st with isCdata := true } ch := ⟨I.base, I.refs, I.here⟩
    obtain ⟨st1, ch1, g1, g2, g3, g4, g5⟩ := chars_effect I1 s
    rcases g5 with ⟨l, t, k1, _⟩ | ⟨_, ⟨_, G⟩ | ⟨e, _⟩⟩
    · cases k1
    · have G2 : Grew st ch st.current (.cdata s) { st1 with isCdata := false } ch1 :=
        ⟨G.lists, G.new, G.old, G.fresh, G.doc, hb.symm, G.msgs⟩
      have I2 : Inv w0 ch0 { st1 with isCdata := false } ch1 := ⟨g2.base, g2.refs, g2.here⟩
      have R := G2.ran I I2 g3
      have hst : steps st [.startCdata, .chars s, .endCdata] = .ok { st1 with isCdata := false } := by
        show (step { st with isCdata := true } (.chars s) >>= _) = _
        rw [g1]; rfl
      exact R.cons I hst (ih hg I2 (by rw [R.current, R.doc]; exact hd) rfl (R.ready (by simp) r))
    · exact absurd e hd
  | comment s r ih =>
    intro hg st ch I hd hb hr
    obtain ⟨st1, ch1, g1, g2, g3, G⟩ := comment_effect I s
    have R := G.ran I g2 g3
    exact R.cons I (steps_one g1) (ih hg g2 (by rw [R.current, R.doc]; exact hd) (R.isCdata.trans hb) (R.ready (by simp) r))
  | elem ns name atts kids r ihk ih =>
    intro hg st ch I hd hb hr
    obtain ⟨⟨cs, hn⟩, ha, hk, hrest⟩ := hg
    obtain ⟨st1, ch1, h1, I1, h2, h3, h4, h5, h6, h7, h8, h9, h10⟩ := open_run (kids := kids) I hb hn ha (takes_elem I hd) (ihk hk)
    obtain ⟨st2, k1, I2, k2, k3, k4⟩ := end_effect I1
    have hmem : st1.current ∈ ch1 st.current := by rw [h7, h2]; simp
    have hS : Same st1 st2 0 ∧ st2.current = st.current := by
      rcases k4 with ⟨_, _, e⟩ | ⟨S, _, e⟩
      · exfalso
        rcases e with e | e
        · rw [h2, h4] at e; exact absurd e (Nat.ne_of_gt I.base.ahead)
        · have := one_parent I1 e hmem
          rw [h4] at this; exact hd this.symm
      · exact ⟨S, one_parent I1 e hmem⟩
    obtain ⟨S, hcur⟩ := hS
    have R : Ran w0 ch0 st ch [st.w.fresh] (.cons (.elem ns none name (atts.map (·.stored))) kids.forest .nil) st2 ch1 := by
      refine ⟨I2, hcur, k2.trans (h3.trans hb.symm), S.doc.trans h4, S.msgs.trans h5, by rw [k3]; exact Nat.le_of_lt h6, h7, h8, fun j hj => (S.old j).trans (h9 j hj), ?_⟩
      have : label st2 = label st1 := funext S.old
      rw [this]; exact h10
    have hst : steps st (.start (qualified ns name) (atts.map (·.reported)) :: kids.events ++ [.finish]) = .ok st2 := steps_then h1 (steps_one k1)
    have := R.cons (c := r) I hst (ih hrest I2 (by rw [R.current, R.doc]; exact hd) (R.isCdata.trans hb) (R.ready (by simp) r))
    simpa [Content.events, Content.forest] using this

/-! ## Whole documents -/

/-- A document: comments, perhaps a document type declaration with name, public and system identifier, comments, and the root element. -/
structure Doc where
  before : List Bytes
  dtd : Option (Bytes × Option Bytes × Option Bytes)
  between : List Bytes
  ns : Option Bytes
  name : Bytes
  atts : List XAtt
  kids : Content

def dtdEvents : Option (Bytes × Option Bytes × Option Bytes) → List Event
  | none => []
  | some (name, pub, sys) => [.doctype name sys pub]

/-- What expat reports for the document. -/
def Doc.events (d : Doc) : List Event :=
  d.before.map .comment ++ dtdEvents d.dtd ++ d.between.map .comment ++ (.start (qualified d.ns d.name) (d.atts.map (·.reported)) :: d.kids.events ++ [.finish])

def comments : List Bytes → Forest
  | [] => .nil
  | s :: l => .cons (.comment s) .nil (comments l)

/-- The DocumentType with its public and its system identifier; a missing one reads as the empty string. -/
def dtdForest : Option (Bytes × Option Bytes × Option Bytes) → Forest
  | none => .nil
  | some (name, pub, sys) => .cons (.doctype name (some (pub.getD [], sys.getD []))) .nil .nil

/-- The children that the document should have. -/
def Doc.forest (d : Doc) : Forest :=
  ((comments d.before).append ((dtdForest d.dtd).append (comments d.between))).append (.cons (.elem d.ns none d.name (d.atts.map (·.stored))) d.kids.forest .nil)

/-- The document with the two identifiers exchanged. -/
def Doc.swapped (d : Doc) : Doc := { d with dtd := d.dtd.map fun t => (t.1, t.2.2, t.2.1) }

/-- The names are good. -/
def Doc.Good (d : Doc) : Prop :=
  (∀ t, d.dtd = some t → ∃ cs, Holds (Str.create t.1) cs ∧ IsName cs) ∧ (∃ cs, GoodName d.ns d.name cs) ∧ GoodAtts d.atts ∧ d.kids.Good

def Forest.tops : Forest → List Label
  | .nil => []
  | .cons L _ r => L :: r.tops

theorem tops_append (F G : Forest) : (F.append G).tops = F.tops ++ G.tops := by
  induction F with
  | nil => rfl
  | cons L k r _ ih => simp [Forest.append, Forest.tops, ih]

theorem tops_comments (l : List Bytes) : (comments l).tops = l.map .comment := by
  induction l with
  | nil => rfl
  | cons s l ih => simp [comments, Forest.tops, ih]

theorem Shows.tops {lo : NodeId} {lab : NodeId → Option Label} : ∀ {F : Forest} {js : List NodeId}, Shows lo lab ch js F → js.map lab = F.tops.map some := by
  intro F
  induction F with
  | nil => intro js; cases js <;> simp [Shows, Forest.tops]
  | cons L k r _ ih =>
    intro js
    cases js with
    | nil => simp [Shows]
    | cons j js =>
      rintro ⟨_, h2, _, h4⟩
      simp [Forest.tops, h2, ih h4]

theorem comments_run : ∀ (l : List Bytes) {st : St} {ch : Children}, Inv w0 ch0 st ch → ∃ st' ch' new, steps st (l.map .comment) = .ok st' ∧ Ran w0 ch0 st ch new (comments l) st' ch' := by
  intro l
  induction l with
  | nil => intro st ch I; exact ⟨st, ch, [], rfl, Ran.nil I⟩
  | cons s l ih =>
    intro st ch I
    obtain ⟨st1, ch1, g1, g2, g3, G⟩ := comment_effect I s
    have R := G.ran I g2 g3
    obtain ⟨st2, ch2, new, h1, h2⟩ := ih g2
    refine ⟨st2, ch2, _, ?_, R.append I h2⟩
    show (step st _ >>= _) = _
    rw [g1]; exact h1

/-- A node of these types can be read as such. -/
theorem label_type {m : Node} (h : st.w.nodes j = some m) : (m.type = .element → ∃ a b c d, label st j = some (.elem a b c d)) ∧ (m.type = .doctype → ∃ a b, label st j = some (.doctype a b)) := by
  unfold label
  rw [h]
  constructor <;> intro ht <;> (show ∃ _, _) <;> (simp only [Option.bind_some]) <;> unfold labelOf <;> rw [ht]
  · exact ⟨_, _, _, _, rfl⟩
  · exact ⟨_, _, rfl⟩

/-- The part before the root element. -/
theorem prolog_run (I : Inv w0 ch0 st ch) (hcur : st.current = st.doc) (hch : ch st.doc = []) {d : Doc} (hd : d.Good) :
    ∃ st' ch' new, steps st (d.before.map .comment ++ dtdEvents d.dtd ++ d.between.map .comment) = .ok st' ∧
      Ran w0 ch0 st ch new ((comments d.before).append ((dtdForest d.swapped.dtd).append (comments d.between))) st' ch' := by
  obtain ⟨st1, ch1, new1, h1, R1⟩ := comments_run d.before I
  have hmid : ∃ st2 ch2 new2, steps st1 (dtdEvents d.dtd) = .ok st2 ∧ Ran w0 ch0 st1 ch1 new2 (dtdForest d.swapped.dtd) st2 ch2 := by
    cases hdt : d.dtd with
    | none => exact ⟨st1, ch1, [], rfl, by unfold Doc.swapped; rw [hdt]; exact Ran.nil R1.inv⟩
    | some t =>
      obtain ⟨name, pub, sys⟩ := t
      obtain ⟨st2, ch2, g1, g2, g3, g4, g5⟩ := doctype_effect R1.inv (hd.1 _ hdt) sys pub
      have hT : Takes st1 ch1 st1.doc .doctype := by
        obtain ⟨dn, e1, e2⟩ := R1.inv.base.docNode
        refine ⟨dn, e1, by rw [e2]; exact .doc (by simp), ?_⟩
        intro _ _ c hc m hm ht
        have h3 := R1.here
        rw [hcur, hch, List.nil_append] at h3
        rw [R1.doc, h3] at hc
        obtain ⟨a, b, e3⟩ := (label_type hm).2 ht
        have : some (Label.doctype a b) ∈ new1.map (label st1) := List.mem_map.2 ⟨c, hc, e3⟩
        rw [R1.shows_.tops, tops_comments] at this
        simp at this
      rcases g5 with ⟨_, G⟩ | ⟨g5, _⟩
      · have hc1 : st1.current = st1.doc := by rw [R1.current, R1.doc, hcur]
        rw [← hc1] at G
        refine ⟨st2, ch2, [st1.w.fresh], steps_one g1, ?_⟩
        unfold Doc.swapped; rw [hdt]
        exact G.ran R1.inv g2 g3
      · exact absurd hT g5
  obtain ⟨st2, ch2, new2, h2, R2⟩ := hmid
  obtain ⟨st3, ch3, new3, h3, R3⟩ := comments_run d.between R2.inv
  exact ⟨st3, ch3, _, steps_then (steps_then h1 h2) h3, R1.append I (R2.append R1.inv R3)⟩

/-- What is built for a document. -/
theorem doc_run (S : Sound w0 ch0) {d : Doc} (hd : d.Good) : ∃ st0 st ch root, create w0 = .ok st0 ∧ steps st0 d.events = .ok st ∧ Inv w0 ch0 st ch ∧ st.doc = w0.fresh ∧
    Shows 0 (label st) ch (ch w0.fresh) d.swapped.forest ∧ (ch w0.fresh).getLast? = some root ∧ st.msgs = 1 ∧ st.current = root ∧ st.isCdata = false := by
  obtain ⟨st0, h1, I0, h2, h3, h4, h5⟩ := create_run S
  have hch : ch0 st0.doc = [] := by
    rw [h2]; exact S.wf.linked.dead _ (fresh_dead S.wf.toCore)
  obtain ⟨st1, ch1, new, g1, R⟩ := prolog_run I0 h3 hch hd
  obtain ⟨hd1, ⟨cs, hn⟩, ha, hk⟩ := hd
  have hc1 : st1.current = st1.doc := by rw [R.current, R.doc, h3]
  have hl1 : ch1 st1.doc = new := by
    have := R.here
    rw [h3, hch, List.nil_append] at this
    rw [R.doc]; exact this
  have hT : Takes st1 ch1 st1.current .element := by
    obtain ⟨dn, e1, e2⟩ := R.inv.base.docNode
    rw [hc1]
    refine ⟨dn, e1, by rw [e2]; exact .doc (by simp), ?_⟩
    intro _ _ c hc m hm ht
    rw [hl1] at hc
    obtain ⟨a, b, c', d', e3⟩ := (label_type hm).1 ht
    have : some (Label.elem a b c' d') ∈ new.map (label st1) := List.mem_map.2 ⟨c, hc, e3⟩
    rw [R.shows_.tops, tops_append, tops_append, tops_comments, tops_comments] at this
    cases hdt : d.swapped.dtd with
    | none => rw [hdt] at this; simp [dtdForest, Forest.tops] at this
    | some t => rw [hdt] at this; simp [dtdForest, Forest.tops] at this
  obtain ⟨st2, ch2, k1, I2, k2, k3, k4, k5, k6, k7, k8, k9, k10⟩ := open_run (kids := d.kids) R.inv (R.isCdata.trans h4) hn ha hT (content_run d.kids hk)
  obtain ⟨st3, m1, I3, m2, m3, m4⟩ := end_effect I2
  have hmem : st2.current ∈ ch2 st2.doc := by rw [k4, ← hc1, k7, k2]; simp
  have hS : Same st2 st3 1 ∧ st3.current = st2.current := by
    rcases m4 with ⟨S, e, _⟩ | ⟨_, e1, e2⟩
    · exact ⟨S, e⟩
    · exact absurd (one_parent I2 e2 hmem) e1
  obtain ⟨S3, hcur3⟩ := hS
  have hdoc3 : st3.doc = w0.fresh := I3.base.docIs
  have hdoc1 : st1.doc = w0.fresh := R.inv.base.docIs
  have hlist : ch2 w0.fresh = new ++ [st1.w.fresh] := by
    rw [← hdoc1, ← hc1, k7, hc1, hl1]
  refine ⟨st0, st3, ch2, st1.w.fresh, h1, ?_, I3, hdoc3, ?_, ?_, ?_, hcur3.trans k2, m2.trans k3⟩
  · exact steps_then g1 (steps_then k1 (steps_one m1))
  · have e : label st3 = label st2 := funext S3.old
    rw [hlist, e]
    refine Shows.append (k10.lower (Nat.zero_le _)) (Shows.lower (lo := st0.w.fresh) (Nat.zero_le _) (R.shows_.frame ?_))
    intro j g3 g4
    have g5 := R.inv.below g4
    refine ⟨k9 j g5, k8 j g5 ?_⟩
    rw [hc1, R.doc]
    exact Nat.ne_of_gt (Nat.lt_of_lt_of_le I0.base.ahead g3)
  · rw [hlist, List.getLast?_concat]
  · rw [S3.msgs, k5, R.msgs, h5]

/-- C75.  For every document whose names are accepted, the nodes of the new document are those of the document, in order, with their names, namespaces, attributes and data.
Partial: the public and the system identifier must be the same (`C75_identifiers_violated`), a CDATA section is one piece (`C75_cdata_violated`), there are no processing
instructions (`C75_pi_violated`), nothing follows the root element (`C75_root_end_violated`), an attribute without namespace does not follow one of the same name in a
namespace (`C75_attribute_violated`), and the prefixes of names are not reported. -/
theorem C75_tree_partial (S : Sound w0 ch0) {d : Doc} (hd : d.Good) (hid : ∀ t, d.dtd = some t → t.2.1.getD [] = t.2.2.getD []) :
    ∃ st0 st ch, create w0 = .ok st0 ∧ steps st0 d.events = .ok st ∧ st.doc = w0.fresh ∧ WF st.w ch ∧ Shows 0 (label st) ch (ch w0.fresh) d.forest := by
  obtain ⟨st0, st, ch, root, h1, h2, I, h3, h4, _⟩ := doc_run S hd
  refine ⟨st0, st, ch, h1, h2, h3, I.base.sound.wf, ?_⟩
  have e : d.swapped.forest = d.forest := by
    unfold Doc.forest Doc.swapped
    cases hdt : d.dtd with
    | none => rfl
    | some t =>
      obtain ⟨name, pub, sys⟩ := t
      have : pub.getD [] = sys.getD [] := hid _ hdt
      simp [dtdForest, this]
  rw [← e]; exact h4

/-- C75 is false of the code: for every document, the end tag of the root element is reported as a problem, and the root element stays the current node, so that a comment
after it is put into it (bindings/xml/expat_xmlparser.c:183-191). -/
theorem C75_root_end_violated (S : Sound w0 ch0) {d : Doc} (hd : d.Good) (s : Bytes) :
    ∃ st0 st ch root, create w0 = .ok st0 ∧ steps st0 d.events = .ok st ∧ WF st.w ch ∧ st.msgs = 1 ∧ (ch w0.fresh).getLast? = some root ∧
      ∃ st' ch' i, steps st0 (d.events ++ [.comment s]) = .ok st' ∧ WF st'.w ch' ∧ ch' w0.fresh = ch w0.fresh ∧ ch' root = ch root ++ [i] ∧ label st' i = some (.comment s) := by
  obtain ⟨st0, st, ch, root, h1, h2, I, h3, _, h5, h6, h7, _⟩ := doc_run S hd
  obtain ⟨st1, ch1, g1, g2, g3, G⟩ := comment_effect I s
  refine ⟨st0, st, ch, root, h1, h2, I.base.sound.wf, h6, h5, st1, ch1, st.w.fresh, steps_then h2 (steps_one g1), g2.base.sound.wf, ?_, ?_, G.new⟩
  · rw [G.lists, if_neg, List.append_nil]
    intro e
    have := List.mem_of_getLast? h5
    rw [← h7] at this
    obtain ⟨m, e1, _, e2⟩ := I.base.sound.wf.linked.alive_child this
    obtain ⟨dn, e3, e4⟩ := I.base.docNode
    rw [h3] at e3
    rw [← e, e3] at e1
    have e5 : dn = m := by simpa using e1
    rw [← e5, doc_parent I.base.sound.wf.toCore e3 e4] at e2; cases e2
  · rw [G.lists, h7, if_pos rfl]

/-- C75 is false of the code: the public and the system identifier of a document type are exchanged (bindings/xml/expat_xmlparser.c:428-431). -/
theorem C75_identifiers_violated (S : Sound w0 ch0) {d : Doc} (hd : d.Good) {name : Bytes} {pub sys : Option Bytes} (h : d.dtd = some (name, pub, sys)) :
    ∃ st0 st ch c, create w0 = .ok st0 ∧ steps st0 d.events = .ok st ∧ WF st.w ch ∧ c ∈ ch w0.fresh ∧ label st c = some (.doctype name (some (sys.getD [], pub.getD []))) := by
  obtain ⟨st0, st, ch, root, h1, h2, I, h3, h4, _⟩ := doc_run S hd
  have : some (Label.doctype name (some (sys.getD [], pub.getD []))) ∈ (ch w0.fresh).map (label st) := by
    rw [h4.tops]
    refine List.mem_map.2 ⟨_, ?_, rfl⟩
    unfold Doc.forest Doc.swapped
    rw [h]
    rw [tops_append, tops_append, tops_append]
    simp [dtdForest, Forest.tops]
  obtain ⟨c, e1, e2⟩ := List.mem_map.1 this
  exact ⟨st0, st, ch, c, h1, h2, I.base.sound.wf, e1, e2⟩

/-- C75 is false of the code: an attribute without namespace that follows one of the same local name in a namespace (`<e p:a="1" a="2"/>`) is lost, and the one in the
namespace gets its value, since looking up a name without namespace finds it in every namespace (src/core/element.c:198-221). -/
theorem C75_attribute_violated (S : Sound w0 ch0) {ns : Option Bytes} {name : Bytes} {cs : List Char} (hn : GoodName ns name cs) {u a : Bytes} {as : List Char}
    (ha : GoodName (some u) a as) (hc : ∀ c ∈ as, IsAttrChar c.toNat) (v1 v2 : Bytes) :
    ∃ st0 st ch e, create w0 = .ok st0 ∧ steps st0 [.start (qualified ns name) [⟨qualified (some u) a, v1⟩, ⟨a, v2⟩]] = .ok st ∧ WF st.w ch ∧ ch w0.fresh = [e] ∧
      label st e = some (.elem ns none name [(some u, a, v2)]) ∧ st.msgs = 0 := by
  obtain ⟨st0, h1, I0, h2, h3, h4, h5⟩ := create_run S
  have hch : ch0 st0.doc = [] := by
    rw [h2]; exact S.wf.linked.dead _ (fresh_dead S.wf.toCore)
  have hT : Takes st0 ch0 st0.current .element := by
    obtain ⟨dn, e1, e2⟩ := I0.base.docNode
    rw [h3]
    refine ⟨dn, e1, by rw [e2]; exact .doc (by simp), ?_⟩
    intro _ _ c hc; rw [hch] at hc; cases hc
  have ha0 : GoodName none a as := ⟨ha.1, ha.2.1, ha.2.2.1, ha.2.2.2.1, ha.short.1, by simp⟩
  have o1 := attOne_good (a := ⟨some u, a, v1⟩) ha hc
  have o2 := attOne_good (a := ⟨none, a, v2⟩) ha0 hc
  have hal : attLoop [] [⟨qualified (some u) a, v1⟩, ⟨a, v2⟩] = .ok [(some u, a, v2)] := by
    show (attOne (XAtt.reported ⟨some u, a, v1⟩) >>= _) = _
    rw [o1]
    show (attOne (XAtt.reported ⟨none, a, v2⟩) >>= _) = _
    rw [o2]
    show Out.ok (putAtt [(some u, a, v1)] (none, a, v2)) = _
    unfold putAtt
    rw [if_pos ⟨.inl rfl, rfl⟩]
  obtain ⟨n, hn1, hn2⟩ := elemOut_good (doc := st0.doc) hn [(some u, a, v2)]
  have hsh : ∀ b ∈ [(⟨qualified (some u) a, v1⟩ : Att), ⟨a, v2⟩], Short b.name := by
    intro b hb
    simp only [List.mem_cons, List.not_mem_nil, or_false] at hb
    rcases hb with rfl | rfl
    · exact ha.2.2.2.2.1
    · exact ha.short.1
  rcases start_effect I0 hn.2.2.2.2.1 hsh with ⟨n', l, L, e1, e2, e3, _, st1, ch1, k1, I1, G, k2⟩ | ⟨h, _⟩
  · rw [hn1] at e1
    have e : n = n' := by simpa using e1
    subst e
    rw [hal] at e2
    have e : [(some u, a, v2)] = l := by simpa using e2
    subst e
    rw [hn2] at e3
    have e : Label.elem ns none name [(some u, a, v2)] = L := by simpa using e3
    subst e
    refine ⟨st0, st1, ch1, st0.w.fresh, h1, steps_one k1, I1.base.sound.wf, ?_, G.new, G.msgs.trans h5⟩
    rw [G.lists, ← h2, hch, h3, if_pos rfl]; rfl
  · exact absurd hT (h n _ hn1 hal)

/-- The root element of every document that has no declaration and no comments before it. -/
theorem root_run (S : Sound w0 ch0) {ns : Option Bytes} {name : Bytes} {cs : List Char} (hn : GoodName ns name cs) :
    ∃ st0 st ch, create w0 = .ok st0 ∧ steps st0 [.start (qualified ns name) []] = .ok st ∧ Inv w0 ch0 st ch ∧ st.doc = w0.fresh ∧ ch w0.fresh = [st.current] ∧ ch st.current = [] ∧
      st.isCdata = false ∧ st.current ≠ st.doc ∧ st.msgs = 0 := by
  obtain ⟨st0, h1, I0, h2, h3, h4, h5⟩ := create_run S
  have hch : ch0 st0.doc = [] := by
    rw [h2]; exact S.wf.linked.dead _ (fresh_dead S.wf.toCore)
  have hT : Takes st0 ch0 st0.current .element := by
    obtain ⟨dn, e1, e2⟩ := I0.base.docNode
    rw [h3]
    refine ⟨dn, e1, by rw [e2]; exact .doc (by simp), ?_⟩
    intro _ _ c hc; rw [hch] at hc; cases hc
  obtain ⟨st1, ch1, k1, I1, k2, k3, k4, k5, k6, k7, k8, k9, k10⟩ := open_run (kids := .nil) (atts := []) I0 h4 hn ⟨by simp, by simp⟩ hT (content_run .nil trivial)
  have hdoc : st1.doc = w0.fresh := I1.base.docIs
  refine ⟨st0, st1, ch1, h1, k1, I1, hdoc, ?_, ?_, k3, ?_, k5.trans h5⟩
  · rw [← h2, ← h3, k7, h3, hch, k2]; rfl
  · rw [k2]
    obtain ⟨_, _, e, _⟩ := k10
    cases hx : ch1 st0.w.fresh with
    | nil => rfl
    | cons a b => rw [hx] at e; simp [Shows, Content.forest] at e
  · rw [k2, k4]; exact Nat.ne_of_gt I0.base.ahead

/-- C75 is false of the code: a CDATA section that expat reports in two pieces, as it does at a line end, becomes two nodes, and an empty one becomes none
(bindings/xml/expat_xmlparser.c:253-281). -/
theorem C75_cdata_violated (S : Sound w0 ch0) {ns : Option Bytes} {name : Bytes} {cs : List Char} (hn : GoodName ns name cs) (s1 s2 : Bytes) :
    (∃ st0 st ch a b, create w0 = .ok st0 ∧ steps st0 [.start (qualified ns name) [], .startCdata, .chars s1, .chars s2, .endCdata] = .ok st ∧ WF st.w ch ∧
      ch st.current = [a, b] ∧ label st a = some (.cdata s1) ∧ label st b = some (.cdata s2)) ∧
    (∃ st0 st ch, create w0 = .ok st0 ∧ steps st0 [.start (qualified ns name) [], .startCdata, .endCdata] = .ok st ∧ WF st.w ch ∧ ch st.current = []) := by
  obtain ⟨st0, st, ch, h1, h2, I, h3, h4, h5, h6, h7, _⟩ := root_run S hn
  have I1 : Inv w0 ch0 { st with isCdata := true } ch := ⟨I.base, I.refs, I.here⟩
  constructor
  · obtain ⟨st1, ch1, g1, g2, g3, g4, g5⟩ := chars_effect I1 s1
    rcases g5 with ⟨l, t, k1, _⟩ | ⟨_, ⟨_, G⟩ | ⟨e, _⟩⟩
    · cases k1
    · obtain ⟨st2, ch2, m1, m2, m3, m4, m5⟩ := chars_effect g2 s2
      have hb : st1.isCdata = true := g4
      rcases m5 with ⟨l, t, k1, _⟩ | ⟨_, ⟨_, G'⟩ | ⟨e, _⟩⟩
      · rw [hb] at k1; cases k1
      · refine ⟨st0, { st2 with isCdata := false }, ch2, st.w.fresh, st1.w.fresh, h1, ?_, m2.base.sound.wf, ?_, ?_, ?_⟩
        · have : steps st [.startCdata, .chars s1, .chars s2, .endCdata] = .ok { st2 with isCdata := false } := by
            show (step { st with isCdata := true } (.chars s1) >>= _) = _
            rw [g1]
            show (step st1 (.chars s2) >>= _) = _
            rw [m1]; rfl
          exact steps_then h2 this
        · have e : st2.current = st.current := m3.trans g3
          show ch2 st2.current = _
          rw [e, G'.lists, if_pos g3.symm, G.lists, if_pos rfl, h5]; rfl
        · have h := G.new
          show label st2 st.w.fresh = _
          rw [G'.old _ (by rw [G.fresh]; exact Nat.ne_of_lt (Nat.lt_succ_self _))]
          exact h
        · have h := G'.new
          rw [hb] at h
          exact h
      · exfalso
        apply h7
        have e2 : st1.doc = st.doc := G.doc
        rw [g3, e2] at e; exact e
    · exact absurd e h7
  · exact ⟨st0, { st with isCdata := false }, ch, h1, steps_then h2 rfl, I.base.sound.wf, h5⟩

/-- C75 is false of the code: a processing instruction leaves no trace, and the texts around it become one (bindings/xml/expat_xmlparser.c:457-465). -/
theorem C75_pi_violated (S : Sound w0 ch0) {ns : Option Bytes} {name : Bytes} {cs : List Char} (hn : GoodName ns name cs) (s1 pi s2 : Bytes) :
    (∃ st0 st ch a, create w0 = .ok st0 ∧ steps st0 [.start (qualified ns name) [], .chars s1, .other pi, .chars s2] = .ok st ∧ WF st.w ch ∧
      ch st.current = [a] ∧ label st a = some (.text (s1 ++ s2))) ∧
    ∀ (st : St) (a b : List Event), steps st (a ++ .other pi :: b) = steps st (a ++ b) := by
  constructor
  · obtain ⟨st0, st, ch, h1, h2, I, h3, h4, h5, h6, h7, _⟩ := root_run S hn
    obtain ⟨st', ch', new, g1, R⟩ := content_run (.text s1 [s2] .nil) ⟨by simp [Content.startsText], trivial⟩ I h7 h6 (by intro _ l t hl; rw [h5] at hl; cases hl)
    obtain ⟨j, e1, e2⟩ := Shows.single R.shows_
    refine ⟨st0, st', ch', j, h1, steps_then h2 g1, R.inv.base.sound.wf, ?_, by rw [e2]; simp⟩
    rw [R.current, R.here, h5, e1]; rfl
  · intro st a b
    rw [steps_append, steps_append]
    rfl

/-- C75 is false of the code: an element in a namespace with the local name "xmlns" (`<p:xmlns/>`) is refused, and its end tag closes the element around it
(bindings/xml/expat_xmlparser.c:72-91, 183-199). -/
theorem C75_refused_violated (S : Sound w0 ch0) {ns : Option Bytes} {name : Bytes} {cs : List Char} (hn : GoodName ns name cs) :
    ∃ st0 st ch root b, create w0 = .ok st0 ∧
      steps st0 [.start (qualified ns name) [], .start (qualified ns name) [], .start (qualified (some [117]) (utf8 xmlnsChars)) [], .finish] = .ok st ∧
      WF st.w ch ∧ ch w0.fresh = [root] ∧ ch root = [b] ∧ ch b = [] ∧ st.current = root ∧ st.msgs = 1 := by
  obtain ⟨st0, st, ch, h1, h2, I, h3, h4, h5, h6, h7, h8⟩ := root_run S hn
  obtain ⟨st1, ch1, k1, I1, k2, k3, k4, k5, k6, k7, k8, k9, k10⟩ := open_run (kids := .nil) (atts := []) I h6 hn ⟨by simp, by simp⟩ (takes_elem I h7) (content_run .nil trivial)
  have hbad : ∀ doc, ∃ e, elemOut doc (qualified (some [117]) (utf8 xmlnsChars)) = .exc e := by
    intro doc
    have h : createNamedNS (some (Str.createInterned [117])) (some (Str.createInterned (utf8 xmlnsChars))) = .exc .namespace := by decide +kernel
    have hs : splitSep (qualified (some [117]) (utf8 xmlnsChars)) = (some [117], utf8 xmlnsChars) := by decide +kernel
    unfold elemOut
    rw [hs]
    dsimp only
    rw [h]; exact ⟨_, rfl⟩
  rcases start_effect (atts := []) I1 (name := qualified (some [117]) (utf8 xmlnsChars)) (by unfold Short; decide +kernel) (by simp) with ⟨_, _, _, e1, _⟩ | ⟨_, st2, g1, I2, S2, g2, g3⟩
  · obtain ⟨x, e⟩ := hbad st1.doc
    rw [e] at e1; cases e1
  · obtain ⟨st3, m1, I3, m2, m3, m4⟩ := end_effect I2
    have hmem : st2.current ∈ ch1 st.current := by rw [k7, g2, k2]; simp
    have hS : Same st2 st3 0 ∧ st3.current = st.current := by
      rcases m4 with ⟨_, _, e⟩ | ⟨Sx, _, e⟩
      · exfalso
        rcases e with e | e
        · rw [g2, k2, S2.doc, k4] at e; exact absurd e (Nat.ne_of_gt I.base.ahead)
        · have := one_parent I2 e hmem
          rw [S2.doc, k4] at this; exact h7 this.symm
      · exact ⟨Sx, one_parent I2 e hmem⟩
    have hroot : st.current < st.w.fresh := I.curLt
    refine ⟨st0, st3, ch1, st.current, st.w.fresh, h1, ?_, I3.base.sound.wf, ?_, ?_, ?_, hS.2, by rw [hS.1.msgs, S2.msgs, k5, h8]⟩
    · have : steps st [.start (qualified ns name) [], .start (qualified (some [117]) (utf8 xmlnsChars)) [], .finish] = .ok st3 := by
        have e : steps st1 [.start (qualified (some [117]) (utf8 xmlnsChars)) [], .finish] = .ok st3 := by
          show (step st1 _ >>= _) = _
          rw [g1]; exact steps_one m1
        exact steps_then k1 e
      exact steps_then h2 this
    · rw [← h3, k8 _ I.base.ahead (Ne.symm h7), h3, h4]
    · rw [k7, h5]; rfl
    · obtain ⟨_, _, e, _⟩ := k10
      cases hx : ch1 st.w.fresh with
      | nil => rfl
      | cons a b => rw [hx] at e; simp [Shows, Content.forest] at e

/-! ## Cases -/

/-- `<!--c--><!DOCTYPE a><a x="1" xmlns:n="u" n:y="2">s<b/>tt<![CDATA[q]]><!--d--><n:e>z</n:e></a>`. -/
def sample : Doc :=
  { before := [[99]], dtd := some ([97], none, none), between := [], ns := none, name := [97],
    atts := [⟨none, [120], [49]⟩, ⟨some [117], [121], [50]⟩],
    kids := .text [115] [] (.elem none [98] [] .nil (.text [116] [[116]] (.cdata [113] (.comment [100] (.elem (some [117]) [101] [] (.text [122] [] .nil) .nil))))) }

theorem goodLetter (ns : Option Bytes) (b : UInt8) (c : Char) (h1 : [b] = utf8 [c]) (h2 : NameStart c.toNat) (h3 : c ≠ ':') (h4 : b ≠ 10) (h5 : ns = none ∨ ns = some [117]) :
    GoodName ns [b] [c] := by
  refine ⟨h1, ⟨h2, by simp⟩, by simpa using Ne.symm h3, by simpa using Ne.symm h4, ?_, ?_⟩
  · rcases h5 with rfl | rfl <;> (unfold Short; show List.length _ < _; simp [qualified])
  · intro u hu
    rcases h5 with rfl | rfl
    · cases hu
    · cases hu
      exact ⟨by decide, ['u'], by decide +kernel, by
        constructor
        · intro h; cases h
        · intro h; exact absurd (congrArg List.length h) (by decide +kernel)⟩

theorem sample_good : sample.Good := by
  have hx : IsAttrChar ('x'.toNat) := by unfold IsAttrChar; decide
  have hy : IsAttrChar ('y'.toNat) := by unfold IsAttrChar; decide
  refine ⟨?_, ⟨['a'], goodLetter _ _ _ (by decide +kernel) (by decide +kernel) (by decide) (by decide) (.inl rfl)⟩, ⟨?_, ?_⟩, ?_⟩
  · intro t ht
    cases ht
    exact ⟨['a'], ⟨by decide +kernel, by decide +kernel⟩, by decide +kernel, by simp⟩
  · intro a ha
    rcases List.mem_cons.1 ha with rfl | ha
    · exact ⟨['x'], goodLetter _ _ _ (by decide +kernel) (by decide +kernel) (by decide) (by decide) (.inl rfl), by simpa using hx⟩
    · have e : a = ⟨some [117], [121], [50]⟩ := by simpa using ha
      subst e
      exact ⟨['y'], goodLetter _ _ _ (by decide +kernel) (by decide +kernel) (by decide) (by decide) (.inr rfl), by simpa using hy⟩
  · simp [sample]
  · refine ⟨by simp [Content.startsText], ⟨['b'], goodLetter _ _ _ (by decide +kernel) (by decide +kernel) (by decide) (by decide) (.inl rfl)⟩, ⟨by simp, by simp⟩, trivial,
      by simp [Content.startsText], ⟨['e'], goodLetter _ _ _ (by decide +kernel) (by decide +kernel) (by decide) (by decide) (.inr rfl)⟩, ⟨by simp, by simp⟩,
      ⟨by simp [Content.startsText], trivial⟩, trivial⟩

/-- The events of the sample, and that a run over them exists from the empty memory. -/
example : ∃ st0 st ch, create World.empty = .ok st0 ∧ steps st0 sample.events = .ok st ∧ st.doc = 0 ∧ WF st.w ch ∧ Shows 0 (label st) ch (ch 0) sample.forest :=
  C75_tree_partial Sound.empty sample_good (by intro t ht; cases ht; rfl)

example : ∀ e ∈ sample.events, e.Ok := by
  intro e he
  have hs : ∀ b : Bytes, b.length < 10 → Short b := fun b h => by unfold Short; omega
  simp only [sample, Doc.events, dtdEvents, Content.events, List.map_cons, List.map_nil, List.cons_append, List.nil_append, List.mem_cons, List.not_mem_nil, or_false] at he
  rcases he with rfl | rfl | rfl | rfl | rfl | rfl | rfl | rfl | rfl | rfl | rfl | rfl | rfl | rfl | rfl | rfl
  all_goals first
    | trivial
    | exact ⟨['a'], ⟨by decide +kernel, by decide +kernel⟩, by decide +kernel, by simp⟩
    | exact ⟨hs _ (by decide), by simp [XAtt.reported, qualified, Short]⟩

/-- `<a u:y="1" y="2"/>`: the attribute `u:y` with the value 2 is left. -/
example : ∃ st0 st ch e, create World.empty = .ok st0 ∧ steps st0 [.start [97] [⟨[117, 10, 121], [49]⟩, ⟨[121], [50]⟩]] = .ok st ∧ WF st.w ch ∧ ch 0 = [e] ∧
    label st e = some (.elem none none [97] [(some [117], [121], [50])]) ∧ st.msgs = 0 :=
  C75_attribute_violated Sound.empty (ns := none) (name := [97]) (goodLetter _ _ 'a' (by decide +kernel) (by decide +kernel) (by decide) (by decide) (.inl rfl))
    (u := [117]) (a := [121]) (goodLetter _ _ 'y' (by decide +kernel) (by decide +kernel) (by decide) (by decide) (.inr rfl))
    (by simpa using (show IsAttrChar ('y'.toNat) by unfold IsAttrChar; decide)) [49] [50]

end Dom.Xml
