import Verif.Parse.LibxmlNames
/-!
# What the functions of the libxml2 binding do to the memory
-/
set_option linter.unusedSimpArgs false
namespace Dom.Libxml
open Dom.Tree
open Dom.Names
open Dom.Str (Bytes DStr Holds utf8)
open Dom.Parse (live_of)
open Dom.Xml (Short createNamedNS_total orElse attachLeaf newDoctype Base Grown Shaped bump add_ne shaped_type orElse_ok orElse_exc)

variable {w w' w0 : World} {ch ch' ch0 : Children} {doc p i x j : NodeId} {n cn dn pn : Node} {st st' : St}

/-- The counts: two for the document, none for all other new nodes. -/
def Refs (doc : NodeId) (w : World) : Prop := ∀ j n, w.nodes j = some n → doc ≤ j → n.refcnt = if j = doc then 2 else 0

/-- A node of the document that can take children: the document or an element. -/
def Place (doc p : NodeId) (w : World) : Prop := doc ≤ p ∧ ∃ pn, w.nodes p = some pn ∧ (p = doc ∨ pn.type = .element)

theorem Place.grown {r : Nat} (H : Place doc p w) (hW : Core w ch) (G : Grown w ch x w.fresh n doc r w' ch') : Place doc p w' :=
  Xml.Here.grown H hW G

theorem Refs.bump (R : Refs doc w) : Refs doc (bump w) := R

/-- The node is there and its references are given back, or it is gone. -/
theorem attach_run (B : Base w0 ch0 doc w ch) (R : Refs doc w) (H : Place doc p w) (Sn : Sound (w.add n) ch)
    (hr : n.refcnt = 1) (hp : n.parent = none) (hs : Shaped n) (hno : n.owner = some doc ∨ (n.type = .doctype ∧ n.owner = none ∧ p = doc)) :
    (Permitted (w.add n) ch p w.fresh ∧ ∃ w' ch', attach (some p) w.fresh (w.add n) = .ok w' (some [w.fresh]) ∧ Grown w ch p w.fresh n doc 0 w' ch' ∧
      Base w0 ch0 doc w' ch' ∧ Refs doc w') ∨
    (¬ Permitted (w.add n) ch p w.fresh ∧ attach (some p) w.fresh (w.add n) = .ok (bump w) none) := by
  obtain ⟨hx1, xn, hx2, hx3⟩ := H
  obtain ⟨dn, hd, hdt⟩ := B.docNode
  have hdr : ∀ dn, w.nodes doc = some dn → 0 < dn.refcnt := by
    intro m hm; rw [R doc m hm (Nat.le_refl _), if_pos rfl]; omega
  have hxr : xn.type = .document → 0 < xn.refcnt := by
    intro h
    rcases hx3 with rfl | h'
    · exact hdr xn hx2
    · rw [h'] at h; cases h
  have hx4 : xn.type ≠ .doctype ∧ xn.type ≠ .entityRef := by
    rcases hx3 with rfl | h'
    · rw [hd] at hx2; cases hx2; rw [hdt]; decide
    · rw [h']; decide
  rcases B.append Sn hx2 hx1 hxr hdr hx4 hr hp hs hno with ⟨h1, v, cv, h2, G⟩ | ⟨h1, e, h2, h3⟩
  · left
    obtain ⟨v1, h3, G1⟩ := Grown.unref (r := 1) G
    obtain ⟨v2, h4, G2⟩ := Grown.unref (r := 0) G1
    refine ⟨h1, v2, cv, ?_, G2, B.grown G2 hs hx1, ?_⟩
    · have : attachLeaf p w.fresh (w.add n) = .ok v2 true := by
        unfold attachLeaf
        rw [orElse_ok h2, bind_ok h3, bind_ok h4]; rfl
      unfold attach
      dsimp only
      rw [bind_ok this]; rfl
    · intro j m hm hj
      by_cases e : j = w.fresh
      · subst e
        obtain ⟨k, h5, _, _, _, h6⟩ := G2.new
        rw [hm] at h5
        have e' : m = k := by simpa using h5
        rw [e', h6, if_neg (Nat.ne_of_gt B.ahead)]
      · obtain ⟨k, hk, e1⟩ := live_of (f := Node.refcnt) (g := Node.refcnt) (G2.refs j e).symm hm
        rw [← e1]; exact R j k hk hj
  · right
    refine ⟨h1, ?_⟩
    have : attachLeaf p w.fresh (w.add n) = .ok (bump w) false := by
      unfold attachLeaf
      rw [orElse_exc h2, bind_ok h3]; rfl
    unfold attach
    dsimp only
    rw [bind_ok this]; rfl

/-- The record of the node that is created for a child. -/
def XItem.node (doc : NodeId) : XItem → Option Node
  | .elem => none
  | .text s => some (newNode (some doc) .text none (some (Str.create s)))
  | .cdata s => some (newNode (some doc) .cdata none (some (Str.create s)))
  | .comment s => some (newNode (some doc) .comment none (some (Str.create s)))
  | .ref name _ => some (newNode (some doc) .entityRef (some (Str.create name)) none)
  | .dtd name _ _ => some (newNode none .doctype (some (Str.create name)) none)
  | .other => none

/-- A child that libxml2 can report: entity references are declared where no comment follows in the DTD, the name of the document type is a Name. -/
def XItem.Fine : XItem → Prop
  | .ref _ kids => ∀ k ∈ kids, k = .decl
  | .dtd name _ _ => ∃ cs, Holds (Str.create name) cs ∧ IsName cs
  | _ => True

/-- It is no document type. -/
def XItem.NoDtd : XItem → Prop
  | .dtd _ _ _ => False
  | _ => True

/-- The name is accepted. -/
def XItem.Accepted : XItem → Prop
  | .ref name _ => createNamed (some (Str.create name)) = .ok ()
  | _ => True

theorem refKids_run {e : NodeId} : ∀ {ks : List DtdItem}, (∀ k ∈ ks, k = .decl) → refKids doc e ks w = .ok w true := by
  intro ks
  induction ks with
  | nil => intro _; rfl
  | cons k ks ih =>
    intro h
    have := h k (by simp)
    subst this
    exact ih (fun k hk => h k (by simp [hk]))

/-- A child is copied: nothing happens, or a new node is there, or it was refused and nothing changed that can be seen. -/
theorem item_run (B : Base w0 ch0 doc w ch) (R : Refs doc w) (H : Place doc p w) {x : XItem} (hx : x.Fine) (hd : p = doc ∨ x.NoDtd) :
    (x.node doc = none ∧ addItem doc (some p) x w = .ok w (some [])) ∨
    (∃ n w' ch', x.node doc = some n ∧ Permitted (w.add n) ch p w.fresh ∧ x.Accepted ∧ addItem doc (some p) x w = .ok w' (some [w.fresh]) ∧
      Grown w ch p w.fresh n doc 0 w' ch' ∧ Base w0 ch0 doc w' ch' ∧ Refs doc w') ∨
    (∃ n w', x.node doc = some n ∧ (¬ Permitted (w.add n) ch p w.fresh ∨ ¬ x.Accepted) ∧ addItem doc (some p) x w = .ok w' none ∧ (w' = w ∨ w' = bump w)) := by
  obtain ⟨dn, hdn, hdt⟩ := B.docNode
  have chars : ∀ (t : NodeType) (s : Bytes), t = .text ∨ t = .cdata ∨ t = .comment → x.node doc = some (newNode (some doc) t none (some (Str.create s))) → x.Accepted →
      addItem doc (some p) x = addChars doc (some p) t s → 
      (∃ n w' ch', x.node doc = some n ∧ Permitted (w.add n) ch p w.fresh ∧ x.Accepted ∧ addItem doc (some p) x w = .ok w' (some [w.fresh]) ∧
        Grown w ch p w.fresh n doc 0 w' ch' ∧ Base w0 ch0 doc w' ch' ∧ Refs doc w') ∨
      (∃ n w', x.node doc = some n ∧ (¬ Permitted (w.add n) ch p w.fresh ∨ ¬ x.Accepted) ∧ addItem doc (some p) x w = .ok w' none ∧ (w' = w ∨ w' = bump w)) := by
    intro t s ht h1 h2 h3
    have ht1 : t ≠ .document ∧ t ≠ .fragment := by rcases ht with rfl | rfl | rfl <;> decide
    have hat := attach_run B R H (B.sound.add (WF_createNode B.sound.wf hdn hdt ht1.1 none (some (Str.create s))) rfl rfl rfl rfl (fun h => absurd h ht1.2)) rfl rfl
      (.inr (.inl ⟨ht, by simp [newNode]⟩)) (.inl rfl)
    have hrun : addItem doc (some p) x w = attach (some p) w.fresh (w.add (newNode (some doc) t none (some (Str.create s)))) := by
      rw [h3]
      unfold addChars
      rw [bind_ok (createNode_run B.sound.wf.toCore hdn _ _ _)]
    rw [hrun]
    rcases hat with ⟨g1, w', ch', g2, g3, g4, g5⟩ | ⟨g1, g2⟩
    · exact .inl ⟨_, w', ch', h1, g1, h2, g2, g3, g4, g5⟩
    · exact .inr ⟨_, bump w, h1, .inl g1, g2, .inr rfl⟩
  cases x with
  | elem => exact .inl ⟨rfl, rfl⟩
  | other => exact .inl ⟨rfl, rfl⟩
  | text s => exact .inr (chars .text s (by simp) rfl trivial rfl)
  | cdata s => exact .inr (chars .cdata s (by simp) rfl trivial rfl)
  | comment s => exact .inr (chars .comment s (by simp) rfl trivial rfl)
  | ref name kids =>
    right
    have hN : XItem.node doc (.ref name kids) = some (newNode (some doc) .entityRef (some (Str.create name)) none) := rfl
    rcases createNamed_run (Str.create name) with hv | hv
    · have hcr : (do
          liftOut (Names.createNamed (some (Str.create name)))
          createNode doc .entityRef (some (Str.create name)) none : M NodeId) w = .ok (w.add (newNode (some doc) .entityRef (some (Str.create name)) none)) w.fresh := by
        have : (liftOut (createNamed (some (Str.create name))) : M Unit) w = .ok w () := by rw [hv]; rfl
        rw [bind_ok this, createNode_run B.sound.wf.toCore hdn]
      have hrun : addItem doc (some p) (.ref name kids) w = attach (some p) w.fresh (w.add (newNode (some doc) .entityRef (some (Str.create name)) none)) := by
        show addRef doc (some p) name kids w = _
        unfold addRef
        rw [orElse_ok hcr]
        unfold putRef
        rw [bind_ok (refKids_run hx)]
        rfl
      have hat := attach_run B R H (B.sound.add (WF_createNode B.sound.wf hdn hdt (by decide) (some (Str.create name)) none) rfl rfl rfl rfl (fun h => by cases h)) rfl rfl
        (.inr (.inr (.inr ⟨rfl, by simp [newNode]⟩))) (.inl rfl)
      rw [hrun]
      rcases hat with ⟨g1, w', ch', g2, g3, g4, g5⟩ | ⟨g1, g2⟩
      · exact .inl ⟨_, w', ch', hN, g1, hv, g2, g3, g4, g5⟩
      · exact .inr ⟨_, bump w, hN, .inl g1, g2, .inr rfl⟩
    · right
      refine ⟨_, w, hN, .inr (fun h => ?_), ?_, .inl rfl⟩
      · have h' : createNamed (some (Str.create name)) = .ok () := h
        rw [hv] at h'; cases h'
      · show addRef doc (some p) name kids w = _
        unfold addRef
        have : (liftOut (createNamed (some (Str.create name))) : M Unit) w = .exc w .invalidCharacter := by rw [hv]; rfl
        rw [orElse_exc (bind_exc this _)]; rfl
  | dtd name pub sys =>
    right
    rcases hd with rfl | hd
    · have hsp : ∃ r, splitQName (Str.create name) = .ok r := by
        obtain ⟨cs, h1, h2⟩ := hx
        rcases C16_split_lossless _ cs h1 h2 with ⟨_, h⟩ | ⟨q, l, _, _, h, _⟩
        · exact ⟨_, h⟩
        · exact ⟨_, h⟩
      obtain ⟨r, hsp⟩ := hsp
      have hnd : newDoctype name w = .ok (w.add (newNode none .doctype (some (Str.create name)) none)) w.fresh := by
        unfold newDoctype
        have : (liftOut (splitQName (Str.create name)) : M _) w = .ok w r := by rw [hsp]; rfl
        rw [bind_ok this]
        exact createDoctype_run _
      have hat := attach_run B R H (B.sound.add (WF_createDoctype B.sound.wf (some (Str.create name))) rfl rfl rfl rfl (fun h => by cases h)) rfl rfl
        (.inr (.inr (.inl ⟨rfl, by simp [newNode]⟩))) (.inr ⟨rfl, rfl, rfl⟩)
      have hrun : addItem p (some p) (.dtd name pub sys) w = attach (some p) w.fresh (w.add (newNode none .doctype (some (Str.create name)) none)) := by
        show orElse (newDoctype name) (pure none) (fun c => attach (some p) c) w = _
        rw [orElse_ok hnd]
      rw [hrun]
      rcases hat with ⟨g1, w', ch', g2, g3, g4, g5⟩ | ⟨g1, g2⟩
      · exact .inl ⟨_, w', ch', rfl, g1, trivial, g2, g3, g4, g5⟩
      · exact .inr ⟨_, bump w, rfl, .inl g1, g2, .inr rfl⟩
    · exact hd.elim

/-- The record of the element that is created. -/
def elemOut (doc : NodeId) (n : XName) : Out Node :=
  match n.ns with
  | none => do
    createNamed (some (Str.create n.name))
    .ok (newNode (some doc) .element (some (Str.create n.name)) none)
  | some (p, u) => do
    let r ← createNamedNS (some (Str.create u)) (some (Str.create (qname p n.name)))
    .ok (Query.nsNode doc .element (some (Str.create u)) r.1 r.2)

theorem createElem_run (S : Sound w ch) (hd : w.nodes doc = some dn) (hdt : dn.type = .document) {id : XName} (hl : id.Ok) :
    (∃ n, elemOut doc id = .ok n ∧ createElem doc id w = .ok (w.add n) w.fresh ∧ Sound (w.add n) ch ∧ n.refcnt = 1 ∧ n.parent = none ∧ n.type = .element ∧ n.name ≠ none ∧
      n.owner = some doc) ∨
    (∃ e, elemOut doc id = .exc e ∧ createElem doc id w = .exc w e) := by
  obtain ⟨ns, m⟩ := id
  unfold createElem elemOut
  cases ns with
  | none =>
    dsimp only
    rcases createNamed_run (Str.create m) with hv | hv
    · left
      rw [hv]
      refine ⟨_, rfl, ?_, S.add (WF_createNode S.wf hd hdt (by decide) _ _) rfl rfl rfl rfl (fun h => by cases h), rfl, rfl, rfl, by simp [newNode], rfl⟩
      have : (liftOut (createNamed (some (Str.create m))) : M Unit) w = .ok w () := by rw [hv]; rfl
      rw [← hv, bind_ok this, createNode_run S.wf.toCore hd]
    · right
      rw [hv]
      refine ⟨_, rfl, ?_⟩
      have : (liftOut (createNamed (some (Str.create m))) : M Unit) w = .exc w .invalidCharacter := by rw [hv]; rfl
      rw [← hv]
      exact bind_exc this _
  | some pu =>
    obtain ⟨p, u⟩ := pu
    dsimp only
    rcases createNamedNS_total (some (Str.create u)) (Str.create (qname p m)) hl.1 with ⟨r, h⟩ | ⟨e, h⟩
    · left
      rw [h]
      exact ⟨_, rfl, Query.createNodeNS_run S.wf.toCore hd h, S.add (Query.WF_nsNode S.wf hd hdt (by decide) _ _ _) rfl rfl rfl rfl (fun h => by cases h), rfl, rfl, rfl, by simp [Query.nsNode], rfl⟩
    · right
      rw [h]
      exact ⟨e, rfl, by unfold Query.createNodeNS; rw [h]⟩

/-- An element is copied: a new one is there, or it was refused and nothing changed that can be seen. -/
theorem elem_run (B : Base w0 ch0 doc w ch) (R : Refs doc w) (H : Place doc p w) {id : XName} (hl : id.Ok) {l : Out (List Stored)} (hf : (∃ s, l = .ok s) ∨ ∃ e, l = .exc e) :
    (∃ n w' ch', elemOut doc id = .ok n ∧ n.type = .element ∧ Permitted (w.add n) ch p w.fresh ∧ (∃ s, l = .ok s) ∧ addElem doc (some p) id l w = .ok w' (some [w.fresh]) ∧
      Grown w ch p w.fresh n doc 0 w' ch' ∧ Base w0 ch0 doc w' ch' ∧ Refs doc w') ∨
    (∃ w', ((∃ n, elemOut doc id = .ok n ∧ n.type = .element ∧ ¬ Permitted (w.add n) ch p w.fresh) ∨ (∃ e, elemOut doc id = .exc e) ∨ ∃ e, l = .exc e) ∧
      addElem doc (some p) id l w = .ok w' none ∧ (w' = w ∨ w' = bump w)) := by
  obtain ⟨dn, hd, hdt⟩ := B.docNode
  unfold addElem
  rcases createElem_run B.sound hd hdt hl with ⟨n, h1, h2, h3, h4, h5, h6, h7, h8⟩ | ⟨e, h1, h2⟩
  · rw [orElse_ok h2]
    rcases hf with ⟨s, rfl⟩ | ⟨e, rfl⟩
    · show (∃ n w' ch', _) ∨ _
      rcases attach_run B R H h3 h4 h5 (.inl ⟨h6, h7⟩) (.inl h8) with ⟨g1, w', ch', g2, g3, g4, g5⟩ | ⟨g1, g2⟩
      · exact .inl ⟨n, w', ch', h1, h6, g1, ⟨s, rfl⟩, g2, g3, g4, g5⟩
      · exact .inr ⟨bump w, .inl ⟨n, h1, h6, g1⟩, g2, .inr rfl⟩
    · right
      refine ⟨bump w, .inr (.inr ⟨e, rfl⟩), ?_, .inr rfl⟩
      have hdr : 0 < dn.refcnt := by rw [R doc dn hd (Nat.le_refl _), if_pos rfl]; omega
      have := Xml.unref_new B.sound h3 hd hdr h4 h5 (by rw [h6]; decide) (.inl h8)
      unfold fill
      dsimp only
      rw [bind_ok this]; rfl
  · right
    rw [orElse_exc h2]
    exact ⟨w, .inr (.inl ⟨e, h1⟩), rfl, .inl rfl⟩

end Dom.Libxml
