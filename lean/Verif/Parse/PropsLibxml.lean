import Verif.Parse.LibxmlTree
/-!
# C81: the XML parser binding for libxml2
-/
set_option linter.unusedSimpArgs false
namespace Dom.Libxml
open Dom.Tree
open Dom.Names
open Dom.Str (Bytes DStr Holds utf8)
open Dom.Xml (Short Base Grown Shaped bump orElse_ok)

variable {w w' w0 : World} {ch ch' ch0 ch1 ch2 : Children} {doc p i j : NodeId} {n cn dn pn : Node} {st st' st1 st2 : St}

/-! ## Whole documents -/

/-- A document: comments, a document type declaration with its public and its system identifier, comments, the root element, comments. -/
structure Doc where
  before : List Bytes
  dtd : Option (Bytes × Option Bytes × Option Bytes)
  between : List Bytes
  name : XName
  atts : List XAttr
  kids : Content
  after : List Bytes

def dtdEvents : Option (Bytes × Option Bytes × Option Bytes) → List Event
  | none => []
  | some (name, pub, sys) => [.dtd name pub sys]

/-- What libxml2 reports for the document. -/
def Doc.events (d : Doc) : List Event :=
  .startDoc false :: (d.before.map .comment ++ (dtdEvents d.dtd ++ (d.between.map .comment ++ ((.start d.name d.atts false :: d.kids.events ++ [.finish false]) ++
    (d.after.map .comment ++ [.endDoc false])))))

def comments : List Bytes → Forest
  | [] => .nil
  | s :: l => .cons (.comment s) .nil (comments l)

/-- The DocumentType with its public and its system identifier; a missing one reads as the empty string. -/
def dtdForest : Option (Bytes × Option Bytes × Option Bytes) → Forest
  | none => .nil
  | some (name, pub, sys) => .cons (.doctype name (some (pub.getD [], sys.getD []))) .nil .nil

/-- The children that the document should have. -/
def Doc.forest (d : Doc) : Forest :=
  (comments d.before).append ((dtdForest d.dtd).append ((comments d.between).append
    (.cons (.elem d.name.href d.name.pfx d.name.name (d.atts.map (·.stored))) d.kids.forest (comments d.after))))

/-- The names are good. -/
def Doc.Good (d : Doc) : Prop := (∀ t, d.dtd = some t → LegalName t.1) ∧ d.name.Legal ∧ GoodAtts d.atts ∧ d.kids.Good

def Forest.tops : Forest → List Label
  | .nil => []
  | .cons L _ r => L :: r.tops

theorem tops_append (F G : Forest) : (F.append G).tops = F.tops ++ G.tops := by
  induction F with
  | nil => rfl
  | cons L k r _ ih => simp [Forest.append, Forest.tops, ih]

theorem tops_comments (l : List Bytes) : (comments l).tops = l.map .comment := by
  induction l with
  | nil => rfl
  | cons s l ih => simp [comments, Forest.tops, ih]

theorem Shows.tops {lo : NodeId} {lab : NodeId → Option Label} : ∀ {F : Forest} {js : List NodeId}, Shows lo lab ch js F → js.map lab = F.tops.map some := by
  intro F
  induction F with
  | nil => intro js; cases js <;> simp [Shows, Forest.tops]
  | cons L k r _ ih =>
    intro js
    cases js with
    | nil => simp [Shows]
    | cons j js =>
      rintro ⟨_, h2, _, h4⟩
      simp [Forest.tops, h2, ih h4]

theorem items_comments (l : List Bytes) : items (l.map .comment) = comments l := by
  induction l with
  | nil => rfl
  | cons s l ih => rw [List.map_cons, items_cons]; show Forest.cons _ _ (items _) = _; rw [ih]; rfl

/-- A node of these types can be read as such. -/
theorem label_type {m : Node} (h : st.w.nodes j = some m) : (m.type = .element → ∃ a b c d, label st j = some (.elem a b c d)) ∧ (m.type = .doctype → ∃ a b, label st j = some (.doctype a b)) := by
  unfold label
  rw [h]
  constructor <;> intro ht <;> (show ∃ _, _) <;> (simp only [Option.bind_some]) <;> unfold labelOf <;> rw [ht]
  · exact ⟨_, _, _, _, rfl⟩
  · exact ⟨_, _, rfl⟩

theorem doc_permits (I : Inv w0 ch0 st ch) (ht : n.type = .element ∨ n.type = .doctype) (h : ∀ c ∈ ch st.doc, ∀ m, st.w.nodes c = some m → m.type ≠ n.type) :
    Permitted (st.w.add n) ch st.doc st.w.fresh := by
  obtain ⟨dn, h1, h2⟩ := I.base.docNode
  rw [Xml.permitted_iff I.base.sound.wf.toCore h1, h2]
  refine ⟨.doc ?_, fun _ _ => h⟩
  rcases ht with e | e <;> rw [e] <;> simp

/-- Comments outside of the root element wait in libxml2's tree. -/
theorem comments_wait : ∀ (l : List Bytes) {st : St}, st.inner = [] →
    steps st (l.map .comment) = .ok { st with root := { st.root with kids := (l.map .comment).reverse ++ st.root.kids } } := by
  intro l
  induction l with
  | nil => intro st _; rfl
  | cons s l ih =>
    intro st h
    have h1 : step st (.comment s) = .ok { st with root := { st.root with kids := .comment s :: st.root.kids } } := by
      show Out.ok (st.setTop { st.top with kids := .comment s :: st.top.kids }) = _
      unfold St.setTop St.top; rw [h]
    rw [List.map_cons]
    refine steps_cons h1 ?_
    rw [ih (st := { st with root := { st.root with kids := .comment s :: st.root.kids } }) h]
    simp [List.append_assoc]

def dtdItem : Option (Bytes × Option Bytes × Option Bytes) → List XItem
  | none => []
  | some (name, pub, sys) => [.dtd name pub sys]

theorem dtd_waits (t : Option (Bytes × Option Bytes × Option Bytes)) : steps st (dtdEvents t) = .ok { st with root := { st.root with kids := (dtdItem t).reverse ++ st.root.kids } } := by
  cases t with
  | none => rfl
  | some t => rfl

theorem items_dtd (t : Option (Bytes × Option Bytes × Option Bytes)) : items (dtdItem t) = dtdForest t := by
  cases t with
  | none => rfl
  | some t => rfl

theorem pending_all {kids : List XItem} (h : ∀ x ∈ kids, x.isElem = false) : pending kids = kids.reverse := by
  unfold pending
  rw [List.takeWhile_eq_self_iff.2 (fun x hx => by rw [h x hx]; rfl)]

theorem pending_upto {a b : List XItem} (h : ∀ x ∈ a, x.isElem = false) : pending (a ++ .elem :: b) = a.reverse := by
  unfold pending
  rw [List.takeWhile_append_of_pos (fun x hx => by rw [h x hx]; rfl), List.takeWhile_cons_of_neg (by decide), List.append_nil]

/-- The children of the document before the root element. -/
def Doc.prolog (d : Doc) : List XItem := d.before.map .comment ++ (dtdItem d.dtd ++ d.between.map .comment)

theorem Doc.prolog_plain (d : Doc) : ∀ x ∈ d.prolog, x.isElem = false := by
  intro x hx
  unfold Doc.prolog at hx
  simp only [List.mem_append, List.mem_map] at hx
  rcases hx with ⟨s, _, rfl⟩ | hx | ⟨s, _, rfl⟩
  · rfl
  · cases h : d.dtd with
    | none => rw [h] at hx; cases hx
    | some t => rw [h] at hx; have e : x = .dtd t.1 t.2.1 t.2.2 := by simpa [dtdItem] using hx
                rw [e]; rfl
  · rfl

theorem comment_simple (l : List Bytes) : ∀ x ∈ (l.map .comment : List XItem), Simple doc p x := by
  intro x hx
  obtain ⟨s, _, rfl⟩ := List.mem_map.1 hx
  exact ⟨trivial, trivial, .inr ⟨s, rfl⟩⟩

/-- The children of the document before the root element are copied. -/
theorem prolog_run (I : Inv w0 ch0 st ch) (he : st.err = false) (hch : ch st.doc = []) {d : Doc} (hd : d.Good) :
    ∃ st' ch' new, mirror st (some st.doc) d.prolog = .ok st' ∧ st'.err = false ∧ st'.root = st.root ∧ st'.inner = st.inner ∧
      Ran w0 ch0 st ch st.doc new ((comments d.before).append ((dtdForest d.dtd).append (comments d.between))) st' ch' := by
  have H := place_doc I
  obtain ⟨st1, ch1, new1, a1, a2, a3, a4, R1⟩ := mirror_shows (xs := d.before.map .comment) I H he (comment_simple _)
  rw [items_comments] at R1
  have H1 : Place st1.doc st.doc st1.w := by rw [R1.doc]; exact R1.places _ H
  have hmid : ∃ st2 ch2 new2, mirror st1 (some st.doc) (dtdItem d.dtd) = .ok st2 ∧ st2.err = false ∧ st2.root = st1.root ∧ st2.inner = st1.inner ∧
      Ran w0 ch0 st1 ch1 st.doc new2 (dtdForest d.dtd) st2 ch2 := by
    cases hdt : d.dtd with
    | none => exact ⟨st1, ch1, [], rfl, a2, rfl, rfl, Ran.nil R1.inv⟩
    | some t =>
      obtain ⟨name, pub, sys⟩ := t
      have hl : LegalName name := hd.1 _ hdt
      obtain ⟨st2, ch2, new2, b1, b2, b3, b4, R2⟩ := add_shows R1.inv H1 (x := .dtd name pub sys) hl (.inl R1.doc.symm) a2 trivial (by
        intro n hn
        cases hn
        rw [← R1.doc]
        refine doc_permits R1.inv (.inr rfl) ?_
        intro c hc m hm ht
        have h3 := R1.here
        rw [hch, List.nil_append] at h3
        rw [R1.doc, h3] at hc
        obtain ⟨a, b, e3⟩ := (label_type hm).2 ht
        have : some (Label.doctype a b) ∈ new1.map (label st1) := List.mem_map.2 ⟨c, hc, e3⟩
        rw [R1.shows_.tops, tops_comments] at this
        simp at this)
      refine ⟨st2, ch2, new2, ?_, b2, b3, b4, ?_⟩
      · show (onTree st1.w (addItem st1.doc (some st.doc) (.dtd name pub sys)) (added st1 (.dtd name pub sys)) >>= _) = _
        rw [b1]
        simp only [Out.bind_ok]
        rw [if_neg (by rw [b2]; decide)]
        rfl
      · exact R2
  obtain ⟨st2, ch2, new2, b1, b2, b3, b4, R2⟩ := hmid
  have H2 : Place st2.doc st.doc st2.w := by rw [R2.doc]; exact R2.places _ H1
  obtain ⟨st3, ch3, new3, c1, c2, c3, c4, R3⟩ := mirror_shows (xs := d.between.map .comment) R2.inv H2 b2 (comment_simple _)
  rw [items_comments] at R3
  refine ⟨st3, ch3, new1 ++ (new2 ++ new3), ?_, c2, by rw [c3, b3, a3], by rw [c4, b4, a4], Ran.append (I.placeLt H) R1 (Ran.append (R1.inv.placeLt H1) R2 R3)⟩
  unfold Doc.prolog
  rw [mirror_append a2 a1, mirror_append b2 b1]
  exact c1

/-- What is built for a document. -/
theorem doc_run (S : Sound w0 ch0) {d : Doc} (hd : d.Good) : ∃ st0 st ch, create w0 = .ok st0 ∧ steps st0 d.events = .ok st ∧ Inv w0 ch0 st ch ∧ st.doc = w0.fresh ∧ st.err = false ∧
    Shows 0 (label st) ch (ch w0.fresh) d.forest := by
  obtain ⟨st0, h1, I0, h2, he, hr, hi⟩ := create_run S
  obtain ⟨dc, w, a, i, e, r, fs⟩ := st0
  dsimp only at h2 he hr hi
  cases he; cases hr; cases hi
  have hch : ch0 dc = [] := by
    rw [h2]; exact S.wf.linked.dead _ (fresh_dead S.wf.toCore)
  -- the events before the root element
  have e1 : step ⟨dc, w, a, i, false, ⟨none, []⟩, []⟩ (.startDoc false) = .ok ⟨dc, w, a, i, false, ⟨some dc, []⟩, []⟩ := rfl
  have e2 := comments_wait d.before (st := ⟨dc, w, a, i, false, ⟨some dc, []⟩, []⟩) rfl
  have e3 := dtd_waits d.dtd (st := ⟨dc, w, a, i, false, ⟨some dc, (d.before.map .comment).reverse ++ []⟩, []⟩)
  have e4 := comments_wait d.between (st := ⟨dc, w, a, i, false, ⟨some dc, (dtdItem d.dtd).reverse ++ ((d.before.map .comment).reverse ++ [])⟩, []⟩) rfl
  have ek : (d.between.map XItem.comment).reverse ++ ((dtdItem d.dtd).reverse ++ ((d.before.map .comment).reverse ++ [])) = d.prolog.reverse := by
    unfold Doc.prolog; simp [List.append_assoc]
  dsimp only at e2 e3 e4
  rw [ek] at e4
  -- the root element
  have hpend : pending d.prolog.reverse = d.prolog := by
    rw [pending_all (fun x hx => d.prolog_plain x (List.mem_reverse.1 hx)), List.reverse_reverse]
  have I1 : Inv w0 ch0 ⟨dc, w, a, i, false, ⟨some dc, .elem :: d.prolog.reverse⟩, [⟨none, []⟩]⟩ ch0 := ⟨I0.base, I0.refs⟩
  obtain ⟨st2, ch2, new2, f1, f2, f3, f4, R2⟩ := prolog_run I1 rfl hch hd
  dsimp only at f1 f3 f4
  have H1 := place_doc I1
  have H2 : Place st2.doc dc st2.w := by rw [R2.doc]; exact R2.places _ H1
  have hl2 : ch2 st2.doc = new2 := by
    have h3 := R2.here
    rw [R2.doc]
    dsimp only at h3 ⊢
    rw [h3, hch]; rfl
  obtain ⟨st3, ch3, g1, g2, g3, g4, R3⟩ := element_run (content_run d.kids hd.2.2.2) hd.2.1 hd.2.2.1 (fs := []) R2.inv f2 f4 H2 (by
    intro n hn
    have e5 : dc = st2.doc := by rw [R2.doc]
    rw [e5]
    refine doc_permits R2.inv (.inl hn) ?_
    intro c hc m hm ht
    rw [hl2] at hc
    rw [hn] at ht
    obtain ⟨x1, x2, x3, x4, e3⟩ := (label_type hm).1 ht
    have : some (Label.elem x1 x2 x3 x4) ∈ new2.map (label st2) := List.mem_map.2 ⟨c, hc, e3⟩
    rw [R2.shows_.tops, tops_append, tops_append, tops_comments, tops_comments] at this
    cases hdt : d.dtd with
    | none => rw [hdt] at this; simp [dtdForest, Forest.tops] at this
    | some t => rw [hdt] at this; simp [dtdForest, Forest.tops] at this)
  have e5 : steps ⟨dc, w, a, i, false, ⟨some dc, d.prolog.reverse⟩, []⟩ (.start d.name d.atts false :: d.kids.events ++ [.finish false]) = .ok st3 := by
    show (step ⟨dc, w, a, i, false, ⟨some dc, d.prolog.reverse⟩, []⟩ (.start d.name d.atts false) >>= fun st => steps st (d.kids.events ++ [.finish false])) = _
    have : step ⟨dc, w, a, i, false, ⟨some dc, d.prolog.reverse⟩, []⟩ (.start d.name d.atts false) = enter st2 (some dc) d.name d.atts := by
      show (mirror ⟨dc, w, a, i, false, ⟨some dc, .elem :: d.prolog.reverse⟩, [⟨none, []⟩]⟩ (some dc) (pending d.prolog.reverse) >>= fun st' => enter st' (some dc) d.name d.atts) = _
      rw [hpend, f1]; rfl
    rw [this]; exact g1
  -- what follows
  have e6 := comments_wait d.after g4
  have hroot : st3.root = ⟨some dc, .elem :: d.prolog.reverse⟩ := g3.trans f3
  have R13 := Ran.append (I1.placeLt H1) R2 R3
  have H3 : Place st3.doc dc st3.w := by rw [R13.doc]; exact R13.places _ H1
  have I3 : Inv w0 ch0 { st3 with root := { st3.root with kids := (d.after.map .comment).reverse ++ st3.root.kids } } ch3 := ⟨R3.inv.base, R3.inv.refs⟩
  obtain ⟨st4, ch4, new4, m1, m2, m3, m4, R4⟩ := mirror_shows (p := dc) (xs := d.after.map .comment) I3 H3 g2 (comment_simple _)
  rw [items_comments] at R4
  have e7 : step { st3 with root := { st3.root with kids := (d.after.map .comment).reverse ++ st3.root.kids } } (.endDoc false) = .ok st4 := by
    show (if st3.err = true then _ else endDoc { st3 with root := { st3.root with kids := (d.after.map .comment).reverse ++ st3.root.kids } } false) = _
    rw [if_neg (by rw [g2]; decide)]
    unfold endDoc
    dsimp only
    rw [hroot] at m1 ⊢
    rw [if_neg (by simp)]
    dsimp only at m1 ⊢
    rw [pending_upto (by
      intro x hx
      rw [List.mem_reverse] at hx
      obtain ⟨s, _, rfl⟩ := List.mem_map.1 hx
      rfl), List.reverse_reverse]
    exact m1
  have R := Ran.append (I1.placeLt H1) R13 (R4.left (st := st3) rfl rfl rfl rfl)
  refine ⟨⟨dc, w, a, i, false, ⟨none, []⟩, []⟩, st4, ch4, h1, ?_, R.inv, ?_, m2, ?_⟩
  · unfold Doc.events
    exact steps_cons e1 (steps_then e2 (steps_then e3 (steps_then e4 (steps_then e5 (steps_then e6 (steps_one e7))))))
  · rw [R.doc]; exact h2
  · have := R.here
    dsimp only at this
    rw [hch, List.nil_append] at this
    rw [← h2, this]
    have hs := R.shows_.lower (Nat.zero_le _)
    have ef : ((((comments d.before).append ((dtdForest d.dtd).append (comments d.between))).append
        (.cons (.elem d.name.href d.name.pfx d.name.name (d.atts.map (·.stored))) d.kids.forest .nil)).append (comments d.after)) = d.forest := by
      unfold Doc.forest
      simp only [Forest.append_assoc]
      rfl
    rw [ef] at hs
    exact hs

/-- C81.  For every document whose names are accepted, whatever way libxml2 cuts its text into pieces, no call fails and the nodes of the new document are those of the document, in order, with
their names, namespaces, prefixes, attributes, identifiers and data.
Partial: there are no processing instructions (`C81_pi_violated`), no attribute takes the place of another one (`C81_attribute_violated`), an attribute "class" has no entity reference
(`C81_class_violated`), no comment follows the declaration of an entity that is referred to (`C81_entity_violated`), and declarations of namespaces do not become attributes. -/
theorem C81_tree_partial (S : Sound w0 ch0) {d : Doc} (hd : d.Good) :
    ∃ st0 st ch, create w0 = .ok st0 ∧ steps st0 d.events = .ok st ∧ st.doc = w0.fresh ∧ st.err = false ∧ WF st.w ch ∧ Shows 0 (label st) ch (ch w0.fresh) d.forest := by
  obtain ⟨st0, st, ch, h1, h2, I, h3, h4, h5⟩ := doc_run S hd
  exact ⟨st0, st, ch, h1, h2, h3, h4, I.base.sound.wf, h5⟩

/-! ## What the code does wrong -/

/-- The start of a document and of its root element. -/
theorem root_run (S : Sound w0 ch0) {id : XName} {atts : List XAttr} (hn : id.Legal) (ha : GoodAtts atts) :
    ∃ st0 st ch e, create w0 = .ok st0 ∧ steps st0 [.startDoc false, .start id atts false] = .ok st ∧ At w0 ch0 st ch e [] [] ∧ st.doc = w0.fresh ∧ ch w0.fresh = [e] ∧ ch e = [] := by
  obtain ⟨st0, h1, I0, h2, he, hr, hi⟩ := create_run S
  obtain ⟨dc, w, a, i, e, r, fs⟩ := st0
  dsimp only at h2 he hr hi
  cases he; cases hr; cases hi
  have hch : ch0 dc = [] := by
    rw [h2]; exact S.wf.linked.dead _ (fresh_dead S.wf.toCore)
  have I1 : Inv w0 ch0 ⟨dc, w, a, i, false, ⟨some dc, [.elem]⟩, [⟨none, []⟩]⟩ ch0 := ⟨I0.base, I0.refs⟩
  have H1 := place_doc I1
  obtain ⟨st1, ch1, k1, k2, A, R⟩ := enter_run hn ha (fs := []) I1 rfl rfl H1 (fun n hn => doc_permits I1 (.inl hn) (by rw [hch]; intro c hc; cases hc))
  refine ⟨⟨dc, w, a, i, false, ⟨none, []⟩, []⟩, st1, ch1, w.fresh, h1, ?_, A, by rw [R.doc]; exact h2, ?_, ?_⟩
  · refine steps_cons (st1 := ⟨dc, w, a, i, false, ⟨some dc, []⟩, []⟩) rfl (steps_one ?_)
    exact k1
  · have := R.here
    dsimp only at this
    rw [← h2, this, hch]; rfl
  · obtain ⟨_, _, s3, _⟩ := R.shows_
    cases h : ch1 w.fresh with
    | nil => rfl
    | cons a l => rw [h] at s3; exact s3.elim

/-- An element whose attributes cause a crash. -/
theorem crash_run (S : Sound w0 ch0) {id : XName} (hn : id.Legal) {atts : List XAttr} {f : Fault} (ha : attLoop [] atts = .fault f) :
    ∃ st0, create w0 = .ok st0 ∧ steps st0 [.startDoc false, .start id atts false] = .fault f := by
  obtain ⟨st0, h1, I0, h2, he, hr, hi⟩ := create_run S
  obtain ⟨dc, w, a, i, e, r, fs⟩ := st0
  dsimp only at h2 he hr hi
  cases he; cases hr; cases hi
  refine ⟨_, h1, ?_⟩
  obtain ⟨dn, hd, hdt⟩ := I0.base.docNode
  have hs : step ⟨dc, w, a, i, false, ⟨some dc, []⟩, []⟩ (.start id atts false) = .fault f := by
    show onTree w (addElem dc (some dc) id (attLoop [] atts)) _ = _
    rw [ha]
    rcases createElem_run I0.base.sound hd hdt hn.ok with ⟨n, g1, g2, _⟩ | ⟨e, g1, _⟩
    · unfold onTree addElem
      rw [orElse_ok g2]
      rfl
    · obtain ⟨n', g3, _⟩ := elemOut_legal (doc := dc) hn [] none
      rw [g3] at g1; cases g1
  show (step ⟨dc, w, a, i, false, ⟨some dc, []⟩, []⟩ (.start id atts false) >>= _) = _
  rw [hs]; rfl

/-- C81 is false of the code: for every element that has an attribute in a namespace and then one of the same local name without namespace (`<e p:a="1" a="2"/>`), the second one takes the place
of the first, which is freed while the list of attributes still begins with it (src/core/element.c:1941-1942 and 2025-2029). -/
theorem C81_attribute_violated (S : Sound w0 ch0) {id : XName} (hn : id.Legal) {p : Option Bytes} {u a : Bytes} (h1 : XName.Legal ⟨some (p, u), a⟩) (h2 : XName.Legal ⟨none, a⟩) (s1 s2 : Bytes) :
    ∃ st0, create w0 = .ok st0 ∧ steps st0 [.startDoc false, .start id [⟨⟨some (p, u), a⟩, [.text s1]⟩, ⟨⟨none, a⟩, [.text s2]⟩] false] = .fault .useAfterFree := by
  refine crash_run S hn ?_
  unfold attLoop
  rw [attrName_legal h1]
  show (setNode [] ⟨some u, p, a, [.text s1]⟩ >>= fun l => attLoop l [⟨⟨none, a⟩, [.text s2]⟩]) = _
  have e1 : setNode [] ⟨some u, p, a, [.text s1]⟩ = .ok [⟨some u, p, a, [.text s1]⟩] := by
    unfold setNode
    rw [if_neg (by simp)]
  rw [e1]
  show attLoop [⟨some u, p, a, [.text s1]⟩] [⟨⟨none, a⟩, [.text s2]⟩] = _
  unfold attLoop
  rw [attrName_legal h2]
  show (setNode [⟨some u, p, a, [.text s1]⟩] ⟨none, none, a, [.text s2]⟩ >>= fun l => attLoop l []) = _
  have e2 : setNode [⟨some u, p, a, [.text s1]⟩] ⟨none, none, a, [.text s2]⟩ = .fault .useAfterFree := by
    unfold setNode
    rw [if_neg (by simp [Val.isRef])]
    dsimp only
    rw [if_pos (by unfold fits; simp)]
  rw [e2]; rfl

/-- C81 is false of the code: for every element with an attribute "class" that has an entity reference (`<e class="&x;"/>`), its value cannot be read and the clean-up uses the element
of an attribute that has none yet (src/core/element.c:276-304 and 314-355). -/
theorem C81_class_violated (S : Sound w0 ch0) {id : XName} (hn : id.Legal) {x : Bytes} (hx : LegalName x) {kids : List DtdItem} (hk : ∀ k ∈ kids, k = .decl) :
    ∃ st0, create w0 = .ok st0 ∧ steps st0 [.startDoc false, .start id [⟨⟨none, classBytes⟩, [.ref x kids]⟩] false] = .fault .nullDeref := by
  refine crash_run S hn ?_
  have hc : XName.Legal ⟨none, classBytes⟩ :=
    ⟨by unfold Short classBytes; decide, ['c', 'l', 'a', 's', 's'], by decide +kernel, ⟨by decide +kernel, by decide +kernel⟩⟩
  unfold attLoop
  rw [attrName_legal hc]
  simp only [Out.bind_ok]
  rw [mirrorValue_legal (v := [.ref x kids]) (by
    intro p hp
    have e : p = .ref x kids := by simpa using hp
    rw [e]; exact ⟨hk, hx⟩)]
  rfl

/-- C81 is false of the code: after an element that libxml2 reports as an error and that is not copied, an element inside of it for which the last error is only a warning
(`<r><p:e><q xmlns="rel"/></p:e></r>`) is put into a node that does not exist (bindings/xml/libxml_xmlparser.c:442-445 and 454-495). -/
theorem C81_link_violated (S : Sound w0 ch0) {id q : XName} (hn : id.Legal) (hq : q.Legal) (e : XName) (ats : List XAttr) :
    ∃ st0, create w0 = .ok st0 ∧ steps st0 [.startDoc false, .start id [] false, .start e ats true, .start q [] false] = .fault .nullDeref := by
  obtain ⟨st0, st, ch, r, h1, h2, A, _⟩ := root_run S hn (atts := []) ⟨⟨by simp, by simp, by simp, by simp⟩, by simp⟩
  refine ⟨st0, h1, ?_⟩
  rw [show [Event.startDoc false, .start id [] false, .start e ats true, .start q [] false] = [.startDoc false, .start id [] false] ++ [.start e ats true, .start q [] false] from rfl,
    steps_append, h2]
  show (step st (.start e ats true) >>= fun st => steps st [.start q [] false]) = _
  have s1 : step st (.start e ats true) = .ok { st with inner := [⟨none, []⟩, ⟨some r, [.elem]⟩] } := by
    show (if st.err = true then Out.ok st else startElem st e ats true) = _
    rw [if_neg (by rw [A.err]; decide)]
    unfold startElem push St.setTop St.top
    rw [if_pos rfl, A.inner]
  rw [s1]
  have s2 : step { st with inner := [⟨none, []⟩, ⟨some r, [.elem]⟩] } (.start q [] false) = .fault .nullDeref := by
    show (if st.err = true then _ else startElem { st with inner := [⟨none, []⟩, ⟨some r, [.elem]⟩] } q [] false) = _
    rw [if_neg (by rw [A.err]; decide)]
    show enter { st with inner := [⟨none, []⟩, ⟨none, [.elem]⟩, ⟨some r, [.elem]⟩] } none q [] = _
    unfold enter
    rw [if_neg (by show ¬ st.err = true; rw [A.err]; decide)]
    obtain ⟨dn, hd, hdt⟩ := A.inv.base.docNode
    rcases createElem_run A.inv.base.sound hd hdt hq.ok with ⟨n, g1, g2, _⟩ | ⟨e, g1, _⟩
    · unfold onTree addElem
      rw [orElse_ok g2]
      rfl
    · obtain ⟨n', g3, _⟩ := elemOut_legal (doc := st.doc) hq [] none
      rw [g3] at g1; cases g1
  show (step { st with inner := [⟨none, []⟩, ⟨some r, [.elem]⟩] } (.start q [] false) >>= _) = _
  rw [s2]; rfl

/-- C81 is false of the code: processing instructions are lost, wherever they are, and a text before one and a text behind it become one
(bindings/xml/libxml_xmlparser.c:126). -/
theorem C81_pi_violated (S : Sound w0 ch0) {id : XName} (hn : id.Legal) (s1 s2 target data : Bytes) :
    (∃ st0 st ch e t, create w0 = .ok st0 ∧ steps st0 [.startDoc false, .start id [] false, .chars s1, .pi target data, .chars s2, .finish false, .endDoc false] = .ok st ∧ WF st.w ch ∧
      ch w0.fresh = [e] ∧ ch e = [t] ∧ label st t = some (.text (s1 ++ s2))) ∧
    ∀ (st : St) (a b : List Event), steps st (a ++ .pi target data :: b) = steps st (a ++ b) := by
  have hpi : ∀ (st : St) (a b : List Event), steps st (a ++ .pi target data :: b) = steps st (a ++ b) := by
    intro st a b
    rw [steps_append, steps_append]; rfl
  refine ⟨?_, hpi⟩
  obtain ⟨st0, st, ch, h1, h2, I, h3, h4, h5⟩ := doc_run S (d := { before := [], dtd := none, between := [], name := id, atts := [], kids := .text s1 [s2] .nil, after := [] })
    ⟨(by intro t ht; cases ht), hn, ⟨⟨by simp, by simp, by simp, by simp⟩, by simp⟩, fun h => h, trivial⟩
  have h5' : Shows 0 (label st) ch (ch w0.fresh) (.cons (.elem id.href id.pfx id.name []) (.cons (.text (s1 ++ (s2 ++ []))) .nil .nil) .nil) := h5
  cases hc : ch w0.fresh with
  | nil => rw [hc] at h5'; exact h5'.elim
  | cons e l =>
    rw [hc] at h5'
    obtain ⟨_, _, g1, g2⟩ := h5'
    cases l with
    | cons _ _ => exact g2.elim
    | nil =>
      cases hk : ch e with
      | nil => rw [hk] at g1; exact g1.elim
      | cons t l =>
        rw [hk] at g1
        obtain ⟨_, k1, _, k2⟩ := g1
        cases l with
        | cons _ _ => exact k2.elim
        | nil => exact ⟨st0, st, ch, e, t, h1, by rw [← h2]; exact hpi st0 [.startDoc false, .start id [] false, .chars s1] [.chars s2, .finish false, .endDoc false], I.base.sound.wf, hc, hk, by rw [k1, List.append_nil]⟩

/-- What is left after the parser is destroyed and the caller gives up its reference. -/
def leftOver (st : St) : Out World :=
  match destroy st with
  | .ok w => onTree w (unref st.doc) fun w _ => w
  | .exc e => .exc e
  | .fault f => .fault f

/-- Whether the run ends with a result that passes the test. -/
def passes {α : Type} (x : Out α) (f : α → Bool) : Bool :=
  match x with
  | .ok a => f a
  | _ => false

theorem passes_elim {α : Type} {x : Out α} {f : α → Bool} (h : passes x f = true) : ∃ a, x = .ok a ∧ f a = true := by
  cases x with
  | ok a => exact ⟨a, rfl, h⟩
  | exc _ => cases h
  | fault _ => cases h

/-- `<!DOCTYPE r [<!ENTITY x "y"><!--c-->]><r>a&x;b</r>` -/
def entityDoc : List Event :=
  [.startDoc false, .dtd [114] none none, .start ⟨none, [114]⟩ [] false, .chars [97], .ref [120] [.decl, .comment [99]], .chars [98], .finish false, .endDoc false]

/-- C81 is false of the code: a comment that follows the declaration of an entity in the DTD is put into every reference to the entity; an entity reference is read-only, so this fails, what follows
is lost, and the new entity reference is neither in the tree nor given up: it and the document are never freed (bindings/xml/libxml_xmlparser.c:1094-1100). -/
theorem C81_entity_violated : ∃ st0, create World.empty = .ok st0 ∧ ∃ st, steps st0 entityDoc = .ok st ∧ (st.err = true ∧
    (List.range st.w.fresh).filterMap (label st) = [.doctype [114] (some ([], [])), .elem none none [114] [], .text [97], .ref [120]]) ∧
    ∃ w, leftOver st = .ok w ∧ (w.nodes 0).map (·.type) = some .document ∧ (w.nodes 4).map (fun n => (n.type, n.refcnt, n.parent)) = some (.entityRef, 1, none) := by
  have h : passes (create World.empty) (fun st0 => passes (steps st0 entityDoc) fun st => decide (st.err = true ∧
      (List.range st.w.fresh).filterMap (label st) = [.doctype [114] (some ([], [])), .elem none none [114] [], .text [97], .ref [120]]) &&
      passes (leftOver st) fun w => decide ((w.nodes 0).map (·.type) = some .document ∧ (w.nodes 4).map (fun n => (n.type, n.refcnt, n.parent)) = some (.entityRef, 1, none))) = true := by
    decide +kernel
  obtain ⟨st0, h1, h⟩ := passes_elim h
  obtain ⟨st, h2, h⟩ := passes_elim h
  rw [Bool.and_eq_true] at h
  obtain ⟨w, h3, h4⟩ := passes_elim h.2
  exact ⟨st0, h1, st, h2, of_decide_eq_true h.1, w, h3, of_decide_eq_true h4⟩

/-- Whether the run ends with this fault. -/
def faults {α : Type} (x : Out α) (f : Fault) : Bool :=
  match x with
  | .fault g => decide (g = f)
  | _ => false

theorem faults_elim {α : Type} {x : Out α} {f : Fault} (h : faults x f = true) : x = .fault f := by
  cases x with
  | ok a => cases h
  | exc _ => cases h
  | fault g => rw [of_decide_eq_true h]

/-- The caller, which has the document from the start, takes the element that is being parsed out of the tree and gives it up. -/
def takeOut (st : St) (p e : NodeId) : Out World :=
  onTree st.w (do
    let c ← removeChild p e
    unref c) fun w _ => w

/-- C81 is false of the code: a caller that has parsed a first chunk, `<r><e>`, removes the open element `e` from the document and gives it up; the next chunk, `x</e>`, is put into the freed
element (bindings/xml/libxml_xmlparser.c:541-561 uses `_private`, for which no reference is kept, bindings/xml/libxml_xmlparser.c:588 and 916). -/
theorem C81_client_violated : ∃ st0, create World.empty = .ok st0 ∧ ∃ st, steps st0 [.startDoc false, .start ⟨none, [114]⟩ [] false, .start ⟨none, [101]⟩ [] false] = .ok st ∧
    ∃ w, takeOut st 1 2 = .ok w ∧ steps { st with w := w } [.chars [120], .finish false] = .fault .useAfterFree := by
  have h : passes (create World.empty) (fun st0 => passes (steps st0 [.startDoc false, .start ⟨none, [114]⟩ [] false, .start ⟨none, [101]⟩ [] false]) fun st =>
      passes (takeOut st 1 2) fun w => faults (steps { st with w := w } [.chars [120], .finish false]) .useAfterFree) = true := by
    decide +kernel
  obtain ⟨st0, h1, h⟩ := passes_elim h
  obtain ⟨st, h2, h⟩ := passes_elim h
  obtain ⟨w, h3, h⟩ := passes_elim h
  exact ⟨st0, h1, st, h2, w, h3, faults_elim h⟩

/-! ## A document -/

/-- `<!--c--><!DOCTYPE a PUBLIC "p" "s"><a x="1&e;2" u:y="3">s<b/>tt<![CDATA[q]]>&e;<!--d--><u:e>z</u:e></a><!--f-->` with the prefix `u` for the namespace "u". -/
def sample : Doc :=
  { before := [[99]], dtd := some ([97], some [112], some [115]), between := [], name := ⟨none, [97]⟩,
    atts := [⟨⟨none, [120]⟩, [.text [49], .ref [101] [.decl], .text [50]]⟩, ⟨⟨some (some [117], [117]), [121]⟩, [.text [51]]⟩],
    kids := .text [115] [] (.elem ⟨none, [98]⟩ [] .nil (.text [116] [[116]] (.cdata [113] [] (.ref [101] [.decl] (.comment [100] (.elem ⟨some (some [117], [117]), [101]⟩ [] (.text [122] [] .nil) .nil)))))),
    after := [[102]] }

theorem letter_legal (b : UInt8) (c : Char) (h1 : [b] = utf8 [c]) (h2 : NameStart c.toNat) : XName.Legal ⟨none, [b]⟩ ∧ LegalName [b] :=
  ⟨⟨by unfold Short; show 1 < _; decide, [c], h1, ⟨h2, by simp⟩⟩, [c], ⟨h1, by rw [← h1]; show 1 < _; decide⟩, ⟨h2, by simp⟩⟩

theorem split_letter {c d : Char} {ps ls : List Char} (h : [c, ':', d] = ps ++ [':'] ++ ls) (hc : c ≠ ':') (hp : ':' ∉ ps) : ps = [c] ∧ ls = [d] := by
  cases ps with
  | nil =>
    simp only [List.nil_append, List.cons_append, List.cons.injEq] at h
    exact absurd h.1 hc
  | cons a ps =>
    simp only [List.cons_append, List.append_assoc, List.nil_append, List.cons.injEq] at h
    cases ps with
    | nil =>
      simp only [List.nil_append, List.cons.injEq] at h
      exact ⟨by rw [h.1], h.2.2.symm⟩
    | cons a' ps =>
      simp only [List.cons_append, List.cons.injEq] at h
      exact absurd (by rw [← h.2.1]; simp) hp

theorem small_starts (c : Char) (h : 0x61 ≤ c.toNat ∧ c.toNat ≤ 0x7A) : StartsOk [c] := by
  intro d hd
  have e : c = d := by simpa using hd
  rw [← e]
  exact .inl ⟨(0x61, 0x7A), by decide +kernel, h.1, h.2⟩

theorem letter_legal_ns (b : UInt8) (c : Char) (h1 : [b] = utf8 [c]) (h2 : NameStart c.toNat) (h3 : c ≠ ':') (h4 : b ≠ 58) (h5 : StartsOk [c]) : XName.Legal ⟨some (some [117], [117]), [b]⟩ := by
  have hu : ([117] : Bytes) = utf8 ['u'] := by decide +kernel
  have hxn : ['u'] ≠ xmlnsNsChars := fun h => absurd (congrArg List.length h) (by decide +kernel)
  refine ⟨⟨by unfold Short qname; show 3 < _; decide, by simpa using h4.symm, by intro q hq; cases hq; decide⟩, by unfold Short; show 1 < _; decide, ['u', ':', c], ['u'], ?_, hu, ?_, ?_, ?_⟩
  · show [117] ++ 58 :: [b] = _
    rw [h1, Str.utf8_cons, Str.utf8_cons, ← Str.utf8_cons (cs := [])]
    rfl
  · refine ⟨by decide +kernel, ?_⟩
    intro x hx
    simp only [List.mem_cons, List.not_mem_nil, or_false] at hx
    rcases hx with rfl | rfl
    · decide +kernel
    · exact .inl h2
  · refine .inr ⟨['u'], [c], rfl, ⟨⟨by decide +kernel, by simp⟩, by decide⟩, ⟨⟨h2, by simp⟩, by simpa using h3.symm⟩, fun h => (by cases h), fun h => (by cases h), fun h => absurd h hxn⟩
  · intro ps ls h hp
    obtain ⟨rfl, rfl⟩ := split_letter h (by decide) hp
    exact ⟨small_starts _ (by decide), h5⟩

theorem sample_good : sample.Good := by
  have la := letter_legal 97 'a' (by decide +kernel) (by decide +kernel)
  have lb := letter_legal 98 'b' (by decide +kernel) (by decide +kernel)
  have le := letter_legal 101 'e' (by decide +kernel) (by decide +kernel)
  have lx := letter_legal 120 'x' (by decide +kernel) (by decide +kernel)
  have ue := letter_legal_ns 101 'e' (by decide +kernel) (by decide +kernel) (by decide) (by decide) (small_starts _ (by decide))
  have uy := letter_legal_ns 121 'y' (by decide +kernel) (by decide +kernel) (by decide) (by decide) (small_starts _ (by decide))
  have no : GoodAtts [] := ⟨⟨by simp, by simp, by simp, by simp⟩, by simp⟩
  refine ⟨?_, la.1, ⟨⟨?_, ?_, ?_, ?_⟩, ?_⟩, ?_⟩
  · intro t ht; cases ht; exact la.2
  · intro a ha
    simp only [sample, List.mem_cons, List.not_mem_nil, or_false] at ha
    rcases ha with rfl | rfl
    · exact lx.1.ok
    · exact uy.ok
  · simp [sample, Clash, XName.href]
  · intro a ha p hp
    simp only [sample, List.mem_cons, List.not_mem_nil, or_false] at ha
    rcases ha with rfl | rfl
    · simp only [List.mem_cons, List.not_mem_nil, or_false] at hp
      rcases hp with rfl | rfl | rfl
      · trivial
      · intro k hk; simpa using hk
      · trivial
    · simp only [List.mem_cons, List.not_mem_nil, or_false] at hp
      rw [hp]; trivial
  · intro a ha h1 h2
    simp only [sample, List.mem_cons, List.not_mem_nil, or_false] at ha
    rcases ha with rfl | rfl
    · exact absurd h2 (by decide)
    · cases h1
  · intro a ha
    simp only [sample, List.mem_cons, List.not_mem_nil, or_false] at ha
    rcases ha with rfl | rfl
    · refine ⟨lx.1, ?_⟩
      intro p hp
      simp only [List.mem_cons, List.not_mem_nil, or_false] at hp
      rcases hp with rfl | rfl | rfl
      · trivial
      · exact le.2
      · trivial
    · refine ⟨uy, ?_⟩
      intro p hp
      simp only [List.mem_cons, List.not_mem_nil, or_false] at hp
      rw [hp]; trivial
  · refine ⟨fun h => h, lb.1, no, trivial, fun h => h, fun h => h, le.2, ?_, ue, no, ⟨fun h => h, trivial⟩, trivial⟩
    intro k hk; simpa using hk

example : ∃ st0 st ch, create World.empty = .ok st0 ∧ steps st0 sample.events = .ok st ∧ st.doc = 0 ∧ st.err = false ∧ WF st.w ch ∧ Shows 0 (label st) ch (ch 0) sample.forest :=
  C81_tree_partial Sound.empty sample_good

/-- Events with errors: `<a><p:b>` with a prefix that is not declared, then `t</p:b>`, and a name that the document refuses. -/
example : Fair 0 false [.start ⟨none, [97]⟩ [] false, .comment [99], .start ⟨none, [112, 58, 98]⟩ [] true, .chars [116], .finish true, .finish true, .endDoc true] := by
  have la := letter_legal 97 'a' (by decide +kernel) (by decide +kernel)
  simp only [Fair]
  refine ⟨by simp, fun _ => ⟨la.1.ok, ⟨by simp, by simp, by simp, by simp⟩⟩, by simp⟩

example : Fair 0 false [.start ⟨none, [97]⟩ [] false, .chars [116], .start ⟨none, [49]⟩ [] false, .chars [116], .finish false, .finish false, .endDoc false] := by
  have la := letter_legal 97 'a' (by decide +kernel) (by decide +kernel)
  simp only [Fair]
  exact ⟨by simp, fun _ => ⟨la.1.ok, ⟨by simp, by simp, by simp, by simp⟩⟩, by simp, fun _ => ⟨by show Short _; unfold Short; decide, ⟨by simp, by simp, by simp, by simp⟩⟩, by simp⟩

/-- `<a u:y="1" y="2"/>` -/
example : ∃ st0, create World.empty = .ok st0 ∧
    steps st0 [.startDoc false, .start ⟨none, [97]⟩ [⟨⟨some (some [117], [117]), [121]⟩, [.text [49]]⟩, ⟨⟨none, [121]⟩, [.text [50]]⟩] false] = .fault .useAfterFree :=
  C81_attribute_violated Sound.empty (letter_legal 97 'a' (by decide +kernel) (by decide +kernel)).1
    (letter_legal_ns 121 'y' (by decide +kernel) (by decide +kernel) (by decide) (by decide) (small_starts _ (by decide))) (letter_legal 121 'y' (by decide +kernel) (by decide +kernel)).1 _ _

/-- `<a class="&e;"/>` -/
example : ∃ st0, create World.empty = .ok st0 ∧ steps st0 [.startDoc false, .start ⟨none, [97]⟩ [⟨⟨none, classBytes⟩, [.ref [101] [.decl]]⟩] false] = .fault .nullDeref :=
  C81_class_violated Sound.empty (letter_legal 97 'a' (by decide +kernel) (by decide +kernel)).1 (letter_legal 101 'e' (by decide +kernel) (by decide +kernel)).2 (by simp)

/-- `<a><p:e><b xmlns="rel"/></p:e></a>` -/
example : ∃ st0, create World.empty = .ok st0 ∧
    steps st0 [.startDoc false, .start ⟨none, [97]⟩ [] false, .start ⟨none, [112, 58, 101]⟩ [] true, .start ⟨some (none, [117]), [98]⟩ [] false] = .fault .nullDeref := by
  refine C81_link_violated Sound.empty (letter_legal 97 'a' (by decide +kernel) (by decide +kernel)).1 ?_ _ _
  refine ⟨⟨by unfold Short qname; show 1 < _; decide, by decide, by simp⟩, by unfold Short; show 1 < _; decide, ['b'], ['u'], by decide +kernel, by decide +kernel, ⟨by decide +kernel, by simp⟩, .inl ⟨by decide, ?_⟩, ?_⟩
  · exact ⟨fun h => (by cases h), fun h => absurd (congrArg List.length h) (by decide +kernel)⟩
  · rintro ps ls h hp
    have : ':' ∈ ['b'] := by rw [h]; simp
    exact absurd this (by decide)

end Dom.Libxml
