import Verif.Parse.LibxmlSafe
/-!
# C81: the tree that the libxml2 binding builds
-/
set_option linter.unusedSimpArgs false
namespace Dom.Libxml
open Dom.Tree
open Dom.Names
open Dom.Str (Bytes DStr Holds utf8)
open Dom.Xml (Short Base Grown Shaped bump)

variable {w w' w0 : World} {ch ch' ch0 ch1 ch2 : Children} {doc p i j : NodeId} {n cn dn pn : Node} {st st' st1 st2 : St}

/-! ## Names and attributes that are accepted -/

/-- The name of an element or an attribute follows the rules of XML and of namespaces, with the first letters of the fourth edition of XML 1.0 (see C14 and C16). -/
def XName.Legal (n : XName) : Prop :=
  match n.ns with
  | none => Short n.name ∧ ∃ cs, n.name = utf8 cs ∧ IsName cs
  | some (p, u) => (Short (qname p n.name) ∧ 58 ∉ n.name ∧ ∀ q, p = some q → 58 ∉ q) ∧ Short u ∧ ∃ cs us, qname p n.name = utf8 cs ∧ u = utf8 us ∧ IsName cs ∧ QNameRules cs us ∧
      ∀ ps ls, cs = ps ++ [':'] ++ ls → ':' ∉ ps → StartsOk ps ∧ StartsOk ls

/-- It is a Name. -/
def LegalName (name : Bytes) : Prop := ∃ cs, Holds (Str.create name) cs ∧ IsName cs

def Piece.Legal : Piece → Prop
  | .text _ => True
  | .ref name _ => LegalName name

theorem XName.Legal.ok {n : XName} (h : n.Legal) : n.Ok := by
  obtain ⟨ns, name⟩ := n
  cases ns with
  | none => exact h.1
  | some pu => exact h.1

theorem LegalName.created {name : Bytes} (h : LegalName name) : createNamed (some (Str.create name)) = .ok () := by
  obtain ⟨cs, h1, h2⟩ := h
  have hs : Short name := by have := h1.small; rw [← h1.data] at this; exact this
  exact ((C14_create (Str.create name) hs).2.1).2 ⟨cs, h1.data, h2⟩

theorem XName.Legal.createdNS {p : Option Bytes} {u name : Bytes} (h : XName.Legal ⟨some (p, u), name⟩) :
    ∃ r, createNamedNS (some (Str.create u)) (some (Str.create (qname p name))) = .ok r ∧ r.1.map (·.data) = p ∧ r.2.data = name := by
  obtain ⟨⟨h1, h2, h3⟩, h4, cs, us, e1, e2, h5, h6, h7⟩ := h
  have hq : Holds (Str.create (qname p name)) cs := ⟨e1, by rw [← e1]; exact h1⟩
  have hn : Holds (Str.create u) us := ⟨e2, by rw [← e2]; exact h4⟩
  obtain ⟨r, hr⟩ := (C16_rules_iff _ _ cs us hq hn).2 ⟨h5, h6, h7⟩
  exact ⟨r, hr, split_back h1 h2 h3 hr⟩

theorem elemOut_legal {id : XName} (h : id.Legal) (l : List Stored) (d : Option (Bytes × Bytes)) :
    ∃ n, elemOut doc id = .ok n ∧ labelOf n l d = some (.elem id.href id.pfx id.name l) := by
  obtain ⟨ns, name⟩ := id
  cases ns with
  | none =>
    obtain ⟨h1, cs, h2, h3⟩ := h
    have : createNamed (some (Str.create name)) = .ok () := LegalName.created ⟨cs, ⟨h2, by rw [← h2]; exact h1⟩, h3⟩
    unfold elemOut
    dsimp only
    rw [this]
    exact ⟨_, rfl, rfl⟩
  | some pu =>
    obtain ⟨p, u⟩ := pu
    obtain ⟨r, h1, h2, h3⟩ := XName.Legal.createdNS h
    unfold elemOut
    dsimp only
    rw [h1]
    refine ⟨_, rfl, ?_⟩
    show some (Label.elem (some u) (r.1.map (·.data)) r.2.data l) = _
    rw [h2, h3]; rfl

theorem attrName_legal {id : XName} (h : id.Legal) : attrName id = .ok (id.href, id.pfx, id.name) := by
  rcases attrName_run h.ok with h' | ⟨e, h'⟩
  · exact h'
  · exfalso
    obtain ⟨ns, name⟩ := id
    cases ns with
    | none =>
      obtain ⟨h1, cs, h2, h3⟩ := h
      have : createNamed (some (Str.create name)) = .ok () := LegalName.created ⟨cs, ⟨h2, by rw [← h2]; exact h1⟩, h3⟩
      unfold attrName at h'
      dsimp only at h'
      rw [this] at h'
      cases h'
    | some pu =>
      obtain ⟨p, u⟩ := pu
      obtain ⟨r, h1, h2, h3⟩ := XName.Legal.createdNS h
      unfold attrName at h'
      dsimp only at h'
      rw [h1] at h'
      cases h'

theorem mirrorValue_legal : ∀ {v : List Piece}, (∀ p ∈ v, p.Plain ∧ p.Legal) → mirrorValue v = .ok (v.map (·.val)) := by
  intro v
  induction v with
  | nil => intro _; rfl
  | cons p v ih =>
    intro h
    have hp : mirrorPiece p = .ok p.val := by
      cases p with
      | text s => rfl
      | ref name kids =>
        unfold mirrorPiece
        dsimp only
        rw [LegalName.created (h (.ref name kids) (by simp)).2]
        have := plain_kids (h (.ref name kids) (by simp)).1
        simp only [Out.bind_ok, this, Bool.false_eq_true, if_false]
        rfl
    unfold mirrorValue
    rw [hp]
    simp only [Out.bind_ok, ih (fun q hq => h q (by simp [hq]))]
    rfl

theorem attLoop_legal : ∀ {atts : List XAttr}, (∀ a ∈ atts, a.id.Legal ∧ ∀ p ∈ a.value, p.Plain ∧ p.Legal) → ∀ {l : List Stored} {e : Exc}, attLoop l atts ≠ .exc e := by
  intro atts
  induction atts with
  | nil => intro _ l e h; cases h
  | cons a as ih =>
    intro H l e h
    obtain ⟨h1, h2⟩ := H a (by simp)
    unfold attLoop at h
    rw [attrName_legal h1] at h
    simp only [Out.bind_ok, mirrorValue_legal h2] at h
    unfold setNode at h
    split_ifs at h
    · cases h
    · cases l with
      | nil => exact ih (fun b hb => H b (by simp [hb])) h
      | cons b l =>
        dsimp only at h
        split_ifs at h
        · cases h
        · exact ih (fun b hb => H b (by simp [hb])) h

/-- The attributes are accepted: their names are legal, none takes the place of another one, and "class" has a value without entity references. -/
def GoodAtts (atts : List XAttr) : Prop := Harmless atts ∧ ∀ a ∈ atts, a.id.Legal ∧ ∀ p ∈ a.value, p.Legal

theorem attLoop_good {atts : List XAttr} (h : GoodAtts atts) : attLoop [] atts = .ok (atts.map (·.stored)) := by
  rcases attLoop_run h.1 (l := []) (fun b hb => by cases hb) with h' | ⟨e, h'⟩
  · rw [h']; rfl
  · exact absurd h' (attLoop_legal fun a ha => ⟨(h.2 a ha).1, fun p hp => ⟨h.1.plain a ha p hp, (h.2 a ha).2 p hp⟩⟩)

/-! ## Documents -/

/-- The content of an element.  Text and CDATA sections are given to the handlers in one or more pieces; `kids` of a reference are the declarations that follow that of the entity in the DTD. -/
inductive Content
  | nil
  | elem (name : XName) (atts : List XAttr) (kids rest : Content)
  | text (s : Bytes) (more : List Bytes) (rest : Content)
  | cdata (s : Bytes) (more : List Bytes) (rest : Content)
  | comment (s : Bytes) (rest : Content)
  | ref (name : Bytes) (kids : List DtdItem) (rest : Content)

/-- What libxml2 reports. -/
def Content.events : Content → List Event
  | .nil => []
  | .elem n atts kids r => (.start n atts false :: kids.events ++ [.finish false]) ++ r.events
  | .text s more r => (s :: more).map .chars ++ r.events
  | .cdata s more r => (s :: more).map .cdata ++ r.events
  | .comment s r => .comment s :: r.events
  | .ref name kids r => .ref name kids :: r.events

/-- The nodes that should be there. -/
def Content.forest : Content → Forest
  | .nil => .nil
  | .elem n atts kids r => .cons (.elem n.href n.pfx n.name (atts.map (·.stored))) kids.forest r.forest
  | .text s more r => .cons (.text (s ++ more.flatten)) .nil r.forest
  | .cdata s more r => .cons (.cdata (s ++ more.flatten)) .nil r.forest
  | .comment s r => .cons (.comment s) .nil r.forest
  | .ref name _ r => .cons (.ref name) .nil r.forest

def Content.startsText : Content → Prop
  | .text _ _ _ => True
  | _ => False

def Content.startsCdata : Content → Prop
  | .cdata _ _ _ => True
  | _ => False

/-- The names are legal, all pieces of a run of text are together, and no CDATA section follows another one. -/
def Content.Good : Content → Prop
  | .nil => True
  | .elem n atts kids r => n.Legal ∧ GoodAtts atts ∧ kids.Good ∧ r.Good
  | .text _ _ r => ¬ r.startsText ∧ r.Good
  | .cdata _ _ r => ¬ r.startsCdata ∧ r.Good
  | .comment _ r => r.Good
  | .ref name kids r => LegalName name ∧ (∀ k ∈ kids, k = .decl) ∧ r.Good

/-! ## The run -/

theorem steps_append (a b : List Event) : ∀ st, steps st (a ++ b) = (steps st a >>= fun st => steps st b) := by
  induction a with
  | nil => intro st; rfl
  | cons e a ih =>
    intro st
    rw [List.cons_append, steps, steps]
    cases step st e with
    | ok s => exact ih s
    | exc _ => rfl
    | fault _ => rfl

theorem steps_then {a b : List Event} (h1 : steps st a = .ok st1) (h2 : steps st1 b = .ok st2) : steps st (a ++ b) = .ok st2 := by
  rw [steps_append, h1]; exact h2

theorem steps_one {e : Event} (h : step st e = .ok st1) : steps st [e] = .ok st1 := by
  unfold steps; rw [h]; rfl

theorem steps_cons {e : Event} {es : List Event} (h1 : step st e = .ok st1) (h2 : steps st1 es = .ok st2) : steps st (e :: es) = .ok st2 := by
  unfold steps; rw [h1]; exact h2

/-- libxml2 is inside of the element that is linked with `p`, whose children so far are `kids`; those after the last element are still to be copied. -/
structure At (w0 : World) (ch0 : Children) (st : St) (ch : Children) (p : NodeId) (kids : List XItem) (fs : List Frame) : Prop where
  inv : Inv w0 ch0 st ch
  err : st.err = false
  inner : st.inner = ⟨some p, kids⟩ :: fs
  elem : p ≠ st.doc
  place : Place st.doc p st.w
  simple : ∀ x ∈ pending kids, Simple st.doc p x

/-- The content does not go on with the text or the CDATA section that is the last child. -/
def Ready (kids : List XItem) (c : Content) : Prop :=
  (c.startsText → ∀ s l, kids ≠ .text s :: l) ∧ (c.startsCdata → ∀ s l, kids ≠ .cdata s :: l)

theorem pending_cons {x : XItem} (h : x.isElem = false) (kids : List XItem) : pending (x :: kids) = pending kids ++ [x] := by
  unfold pending
  rw [List.takeWhile_cons_of_pos (by rw [h]; rfl), List.reverse_cons]

theorem pending_elem (kids : List XItem) : pending (.elem :: kids) = [] := rfl

/-- One more child that is not an element. -/
theorem At.more {kids : List XItem} {fs : List Frame} (A : At w0 ch0 st ch p kids fs) {x : XItem} (hx : x.isElem = false) (hs : Simple st.doc p x) :
    At w0 ch0 { st with inner := ⟨some p, x :: kids⟩ :: fs } ch p (x :: kids) fs := by
  obtain ⟨⟨B, R⟩, h1, h2, h3, h4, h5⟩ := A
  refine ⟨⟨B, R⟩, h1, rfl, h3, h4, ?_⟩
  intro y hy
  rw [pending_cons hx, List.mem_append] at hy
  rcases hy with hy | hy
  · exact h5 y hy
  · have e : y = x := by simpa using hy
    rw [e]; exact hs

theorem texts_run {fs : List Frame} {kids : List XItem} : ∀ (more : List Bytes) {st : St} {s : Bytes}, st.inner = ⟨some p, .text s :: kids⟩ :: fs →
    steps st (more.map .chars) = .ok { st with inner := ⟨some p, .text (s ++ more.flatten) :: kids⟩ :: fs } := by
  intro more
  induction more with
  | nil => intro st s h; rw [List.flatten_nil, List.append_nil, ← h]; rfl
  | cons a more ih =>
    intro st s h
    have h1 : step st (.chars a) = .ok { st with inner := ⟨some p, .text (s ++ a) :: kids⟩ :: fs } := by
      show Out.ok (toElem st (putText a)) = _
      unfold toElem; rw [h]; rfl
    rw [List.map_cons]
    refine steps_cons h1 ?_
    rw [ih rfl]
    simp [List.flatten_cons, List.append_assoc]

theorem cdatas_run {fs : List Frame} {kids : List XItem} : ∀ (more : List Bytes) {st : St} {s : Bytes}, st.inner = ⟨some p, .cdata s :: kids⟩ :: fs →
    steps st (more.map .cdata) = .ok { st with inner := ⟨some p, .cdata (s ++ more.flatten) :: kids⟩ :: fs } := by
  intro more
  induction more with
  | nil => intro st s h; rw [List.flatten_nil, List.append_nil, ← h]; rfl
  | cons a more ih =>
    intro st s h
    have h1 : step st (.cdata a) = .ok { st with inner := ⟨some p, .cdata (s ++ a) :: kids⟩ :: fs } := by
      show Out.ok (toElem st (putCdata a)) = _
      unfold toElem; rw [h]; rfl
    rw [List.map_cons]
    refine steps_cons h1 ?_
    rw [ih rfl]
    simp [List.flatten_cons, List.append_assoc]

/-- What is put below a new node belongs to it. -/
theorem Ran.nest {e : NodeId} {new : List NodeId} {L : Label} {G : Forest} (hp : p < st.w.fresh) (hpe : p ≠ e) (A : Ran w0 ch0 st ch p [e] (.cons L .nil .nil) st1 ch1)
    (B : Ran w0 ch0 st1 ch1 e new G st2 ch2) : Ran w0 ch0 st ch p [e] (.cons L G .nil) st2 ch2 := by
  obtain ⟨s1, s2, s3, _⟩ := A.shows_
  have he : e < st1.w.fresh := A.inv.lt (by rw [s2]; simp)
  have hnil : ch1 e = [] := by
    cases h : ch1 e with
    | nil => rfl
    | cons a l => rw [h] at s3; exact s3.elim
  refine ⟨B.inv, B.doc.trans A.doc, Nat.le_trans A.fresh B.fresh, ?_, ?_, ?_, ?_, ?_⟩
  · rw [B.lists p (Nat.lt_of_lt_of_le hp A.fresh) hpe, A.here]
  · intro j h1 h2
    rw [B.lists j (Nat.lt_of_lt_of_le h1 A.fresh) (Nat.ne_of_lt (Nat.lt_of_lt_of_le h1 s1)), A.lists j h1 h2]
  · intro j h1
    rw [B.labels j (Nat.lt_of_lt_of_le h1 A.fresh), A.labels j h1]
  · intro j hj
    have := B.places j (by rw [A.doc]; exact A.places j hj)
    rw [A.doc] at this; exact this
  · refine ⟨s1, by rw [B.labels e he]; exact s2, ?_, trivial⟩
    rw [B.here, hnil, List.nil_append]
    exact B.shows_.lower A.fresh

/-- What the content of an element becomes. -/
def Runs (w0 : World) (ch0 : Children) (c : Content) : Prop :=
  ∀ {st : St} {ch : Children} {p : NodeId} {kids : List XItem} {fs : List Frame}, At w0 ch0 st ch p kids fs → Ready kids c →
    ∃ st' ch' new F kids', steps st c.events = .ok st' ∧ At w0 ch0 st' ch' p kids' fs ∧ st'.root = st.root ∧ Ran w0 ch0 st ch p new F st' ch' ∧
      F.append (items (pending kids')) = (items (pending kids)).append c.forest

/-- A new element, after the children before it were copied. -/
theorem enter_run {id : XName} {atts : List XAttr} (hn : id.Legal) (ha : GoodAtts atts) {fs : List Frame}
    (I : Inv w0 ch0 st ch) (he : st.err = false) (hi : st.inner = ⟨none, []⟩ :: fs) (H : Place st.doc p st.w) (hp : ∀ n, n.type = .element → Permitted (st.w.add n) ch p st.w.fresh) :
    ∃ st1 ch1, enter st (some p) id atts = .ok st1 ∧ st1.root = st.root ∧ At w0 ch0 st1 ch1 st.w.fresh [] fs ∧
      Ran w0 ch0 st ch p [st.w.fresh] (.cons (.elem id.href id.pfx id.name (atts.map (·.stored))) .nil .nil) st1 ch1 := by
  obtain ⟨n', hn1, hn2⟩ := elemOut_legal (doc := st.doc) hn (atts.map (·.stored)) (st.ids st.w.fresh)
  have hal := attLoop_good ha
  rcases elem_run I.base I.refs H hn.ok (l := attLoop [] atts) (.inl ⟨_, hal⟩) with ⟨n, w1, ch1, e1, hnt, _, _, h, G, B, R⟩ | ⟨w1, h, _⟩
  · rw [hn1] at e1
    have e : n' = n := by simpa using e1
    subst e
    have hent : ∃ st1, enter st (some p) id atts = .ok st1 ∧ st1.err = false ∧ st1.root = st.root ∧ st1.inner = ⟨some st.w.fresh, []⟩ :: fs ∧ st1.doc = st.doc ∧ st1.w = w1 ∧
        st1.ids = st.ids ∧ ∀ j, st1.atts j = if j = st.w.fresh then atts.map (·.stored) else st.atts j := by
      unfold enter
      rw [if_neg (by rw [he]; decide), onTree_ok h, hal]
      refine ⟨_, rfl, ?_⟩
      unfold entered St.setTop St.top
      rw [hi]
      refine ⟨he, rfl, rfl, rfl, rfl, rfl, ?_⟩
      intro j
      show (if j ∈ [st.w.fresh] then _ else _) = _
      by_cases hj : j = st.w.fresh
      · rw [if_pos (by simpa using hj), if_pos hj]
      · rw [if_neg (by simpa using hj), if_neg hj]
    obtain ⟨st1, k1, k2, k3, k4, k5, k6, k7, k8⟩ := hent
    have I1 : Inv w0 ch0 st1 ch1 := ⟨by rw [k5, k6]; exact B, by rw [k5, k6]; exact R⟩
    have R1 : Ran w0 ch0 st ch p [st.w.fresh] (.cons (.elem id.href id.pfx id.name (atts.map (·.stored))) .nil .nil) st1 ch1 := by
      refine Grown.ran (n := n') I I1 H k5 (by rw [k6]; exact G) (fun j hj => by rw [k8, if_neg hj]) (fun j _ => by rw [k7]) ?_
      rw [k8, if_pos rfl, k7]; exact hn2
    have P1 : Place st1.doc st.w.fresh st1.w := by
      obtain ⟨m, g1, g2, _⟩ := G.new
      rw [k5, k6]
      exact ⟨Nat.le_of_lt I.base.ahead, m, g1, .inr (by rw [Node.data_type g2]; exact hnt)⟩
    exact ⟨st1, ch1, k1, k3, ⟨I1, k2, k4, by rw [k5]; exact Nat.ne_of_gt I.base.ahead, P1, fun x hx => by cases hx⟩, R1⟩
  · exfalso
    rcases h with ⟨n, e1, e2, e3⟩ | ⟨e, e1⟩ | ⟨e, e1⟩
    · exact e3 (hp n e2)
    · rw [hn1] at e1; cases e1
    · rw [hal] at e1; cases e1

/-- A whole element, after the children before it were copied. -/
theorem element_run {kids : Content} (ih : Runs w0 ch0 kids) {id : XName} {atts : List XAttr} (hn : id.Legal) (ha : GoodAtts atts) {fs : List Frame}
    (I : Inv w0 ch0 st ch) (he : st.err = false) (hi : st.inner = ⟨none, []⟩ :: fs) (H : Place st.doc p st.w) (hp : ∀ n, n.type = .element → Permitted (st.w.add n) ch p st.w.fresh) :
    ∃ st' ch', (enter st (some p) id atts >>= fun st => steps st (kids.events ++ [.finish false])) = .ok st' ∧ st'.err = false ∧ st'.root = st.root ∧ st'.inner = fs ∧
      Ran w0 ch0 st ch p [st.w.fresh] (.cons (.elem id.href id.pfx id.name (atts.map (·.stored))) kids.forest .nil) st' ch' := by
  obtain ⟨st1, ch1, k1, k3, A1, R1⟩ := enter_run hn ha I he hi H hp
  obtain ⟨st2, ch2, new2, F2, kids2, m1, A2, m2, R2, m3⟩ := ih A1 ⟨fun _ _ _ h => (by cases h), fun _ _ _ h => by cases h⟩
  have I2 : Inv w0 ch0 { st2 with inner := fs } ch2 := ⟨A2.inv.base, A2.inv.refs⟩
  obtain ⟨st3, ch3, new3, q1, q2, q3, q4, R3⟩ := mirror_shows (p := st.w.fresh) (xs := pending kids2) I2 A2.place A2.err A2.simple
  have hfin : step st2 (.finish false) = .ok st3 := by
    show (if st2.err = true then Out.ok st2 else endElem st2 false) = _
    rw [if_neg (by rw [A2.err]; decide)]
    unfold endElem
    rw [A2.inner]
    dsimp only
    rw [if_neg (by simp)]
    exact q1
  have R23 : Ran w0 ch0 st1 ch1 st.w.fresh (new2 ++ new3) kids.forest st3 ch3 := by
    have := Ran.append (A1.inv.placeLt A1.place) R2 (R3.left (st := st2) rfl rfl rfl rfl)
    rw [m3] at this
    exact this
  have hpl := I.placeLt H
  refine ⟨st3, ch3, ?_, q2, ?_, q4, Ran.nest hpl (Nat.ne_of_lt hpl) R1 R23⟩
  · rw [k1]
    exact steps_then m1 (steps_one hfin)
  · rw [q3, ← k3, ← m2]

theorem elem_permitted (I : Inv w0 ch0 st ch) (hpd : p ≠ st.doc) (H : Place st.doc p st.w) (hn : n.type = .element) : Permitted (st.w.add n) ch p st.w.fresh := by
  obtain ⟨_, pn, h2, h3⟩ := H
  have ht : pn.type = .element := h3.resolve_left hpd
  rw [Xml.permitted_iff I.base.sound.wf.toCore h2, ht, hn]
  exact ⟨.content (by decide) (by decide), fun h => by cases h⟩

theorem items_more {x : XItem} {L : Label} (hx : x.isElem = false) (hL : x.label = some L) (kids : List XItem) (G : Forest) :
    (items (pending (x :: kids))).append G = (items (pending kids)).append (.cons L .nil G) := by
  rw [pending_cons hx, items_append, items_cons, hL, Forest.append_assoc]
  rfl

/-- The content of an element is copied with the children that were still to be copied. -/
theorem content_run : ∀ (c : Content), c.Good → Runs w0 ch0 c := by
  intro c
  induction c with
  | nil =>
    intro _ st ch p kids fs A _
    exact ⟨st, ch, [], .nil, kids, rfl, A, rfl, Ran.nil A.inv, by rw [Content.forest, Forest.append_nil]; rfl⟩
  | text s more r ih =>
    intro hg st ch p kids fs A hr
    have h1 : step st (.chars s) = .ok { st with inner := ⟨some p, .text s :: kids⟩ :: fs } := by
      show Out.ok (toElem st (putText s)) = _
      unfold toElem; rw [A.inner]
      have : putText s kids = .text s :: kids := by
        unfold putText
        split
        · exact absurd rfl (hr.1 trivial _ _)
        · rfl
      dsimp only
      rw [this]
    have h2 := texts_run (fs := fs) (p := p) (kids := kids) more (st := { st with inner := ⟨some p, .text s :: kids⟩ :: fs }) rfl
    have A1 := A.more (x := .text (s ++ more.flatten)) rfl ⟨trivial, trivial, .inl ⟨A.elem, trivial⟩⟩
    obtain ⟨st', ch', new, F, kids', g1, g2, g3, g4, g5⟩ := ih hg.2 A1 ⟨fun h => absurd h hg.1, fun _ _ _ h => by cases h⟩
    refine ⟨st', ch', new, F, kids', steps_then (steps_cons h1 h2) g1, g2, g3, g4.left rfl rfl rfl rfl, ?_⟩
    rw [g5, items_more rfl rfl]; rfl
  | cdata s more r ih =>
    intro hg st ch p kids fs A hr
    have h1 : step st (.cdata s) = .ok { st with inner := ⟨some p, .cdata s :: kids⟩ :: fs } := by
      show Out.ok (toElem st (putCdata s)) = _
      unfold toElem; rw [A.inner]
      have : putCdata s kids = .cdata s :: kids := by
        unfold putCdata
        split
        · exact absurd rfl (hr.2 trivial _ _)
        · rfl
      dsimp only
      rw [this]
    have h2 := cdatas_run (fs := fs) (p := p) (kids := kids) more (st := { st with inner := ⟨some p, .cdata s :: kids⟩ :: fs }) rfl
    have A1 := A.more (x := .cdata (s ++ more.flatten)) rfl ⟨trivial, trivial, .inl ⟨A.elem, trivial⟩⟩
    obtain ⟨st', ch', new, F, kids', g1, g2, g3, g4, g5⟩ := ih hg.2 A1 ⟨fun _ _ _ h => (by cases h), fun h => absurd h hg.1⟩
    refine ⟨st', ch', new, F, kids', steps_then (steps_cons h1 h2) g1, g2, g3, g4.left rfl rfl rfl rfl, ?_⟩
    rw [g5, items_more rfl rfl]; rfl
  | comment s r ih =>
    intro hg st ch p kids fs A hr
    have h1 : step st (.comment s) = .ok { st with inner := ⟨some p, .comment s :: kids⟩ :: fs } := by
      show Out.ok (st.setTop { st.top with kids := .comment s :: st.top.kids }) = _
      unfold St.setTop St.top; rw [A.inner]
    have A1 := A.more (x := .comment s) rfl ⟨trivial, trivial, .inl ⟨A.elem, trivial⟩⟩
    obtain ⟨st', ch', new, F, kids', g1, g2, g3, g4, g5⟩ := ih hg A1 ⟨fun _ _ _ h => (by cases h), fun _ _ _ h => by cases h⟩
    refine ⟨st', ch', new, F, kids', steps_cons h1 g1, g2, g3, g4.left rfl rfl rfl rfl, ?_⟩
    rw [g5, items_more rfl rfl]; rfl
  | ref name ks r ih =>
    intro hg st ch p kids fs A hr
    have h1 : step st (.ref name ks) = .ok { st with inner := ⟨some p, .ref name ks :: kids⟩ :: fs } := by
      show Out.ok (toElem st (.ref name ks :: ·)) = _
      unfold toElem; rw [A.inner]
    have A1 := A.more (x := .ref name ks) rfl ⟨hg.2.1, hg.1.created, .inl ⟨A.elem, trivial⟩⟩
    obtain ⟨st', ch', new, F, kids', g1, g2, g3, g4, g5⟩ := ih hg.2.2 A1 ⟨fun _ _ _ h => (by cases h), fun _ _ _ h => by cases h⟩
    refine ⟨st', ch', new, F, kids', steps_cons h1 g1, g2, g3, g4.left rfl rfl rfl rfl, ?_⟩
    rw [g5, items_more rfl rfl]; rfl
  | elem id atts ks r ihk ihr =>
    rintro ⟨hn, ha, hk, hgr⟩ st ch p kids fs A hr
    have hpush : push st = { st with inner := ⟨none, []⟩ :: ⟨some p, .elem :: kids⟩ :: fs } := by
      unfold push St.setTop St.top; rw [A.inner]
    have htop : st.top = ⟨some p, kids⟩ := by unfold St.top; rw [A.inner]
    have Ip : Inv w0 ch0 { st with inner := ⟨none, []⟩ :: ⟨some p, .elem :: kids⟩ :: fs } ch := ⟨A.inv.base, A.inv.refs⟩
    obtain ⟨st1, ch1, new1, g1, g2, g3, g4, R1⟩ := mirror_shows (p := p) (xs := pending kids) Ip A.place A.err A.simple
    have P1 : Place st1.doc p st1.w := by rw [R1.doc]; exact R1.places p A.place
    have D1 : p ≠ st1.doc := by rw [R1.doc]; exact A.elem
    obtain ⟨st2, ch2, h1, h2, h3, h4, R2⟩ := element_run (ihk hk) hn ha (fs := ⟨some p, .elem :: kids⟩ :: fs) R1.inv g2 g4 P1 (fun n hn => elem_permitted R1.inv D1 P1 hn)
    have hev : steps st (.start id atts false :: ks.events ++ [.finish false]) = .ok st2 := by
      show (step st (.start id atts false) >>= fun st => steps st (ks.events ++ [.finish false])) = _
      have : step st (.start id atts false) = enter st1 (some p) id atts := by
        show (if st.err = true then Out.ok st else startElem st id atts false) = _
        rw [if_neg (by rw [A.err]; decide)]
        unfold startElem
        rw [if_neg (by decide), hpush, htop]
        dsimp only
        rw [g1]; rfl
      rw [this]; exact h1
    have R12 := Ran.append (A.inv.placeLt A.place) (R1.left (st := st) rfl rfl rfl rfl) R2
    have A2 : At w0 ch0 st2 ch2 p (.elem :: kids) fs := ⟨R2.inv, h2, h4, by rw [R12.doc]; exact A.elem, by rw [R12.doc]; exact R12.places p A.place, fun x hx => by rw [pending_elem] at hx; cases hx⟩
    obtain ⟨st3, ch3, new3, F, kids', q1, q2, q3, q4, q5⟩ := ihr hgr A2 ⟨fun _ _ _ h => (by cases h), fun _ _ _ h => by cases h⟩
    refine ⟨st3, ch3, _, _, kids', steps_then hev q1, q2, by rw [q3, h3, g3], Ran.append (A.inv.placeLt A.place) R12 q4, ?_⟩
    rw [Forest.append_assoc, q5, Forest.append_assoc]
    rfl

end Dom.Libxml
