import Verif.Parse.LibxmlRun
/-!
# What the libxml2 binding does to the document
-/
set_option linter.unusedSimpArgs false
namespace Dom.Libxml
open Dom.Tree
open Dom.Names
open Dom.Str (Bytes DStr Holds utf8)
open Dom.Parse (live_of)
open Dom.Xml (Short Base Grown Shaped bump bytes)

variable {w w' w0 : World} {ch ch' ch0 ch1 ch2 : Children} {doc p i j : NodeId} {n cn dn pn : Node} {st st' st1 st2 : St}

/-- What can be read from a node of the document.  `ids`: the public and the system identifier. -/
inductive Label
  | elem (ns pfx : Option Bytes) (name : Bytes) (atts : List Stored)
  | text (s : Bytes)
  | cdata (s : Bytes)
  | comment (s : Bytes)
  | ref (name : Bytes)
  | doctype (name : Bytes) (ids : Option (Bytes × Bytes))
  deriving DecidableEq, Repr

def labelOf (n : Node) (a : List Stored) (d : Option (Bytes × Bytes)) : Option Label :=
  match n.type with
  | .element => some (.elem (n.ns.map (·.data)) (n.pfx.map (·.data)) (bytes n.name) a)
  | .text => some (.text (bytes n.value))
  | .cdata => some (.cdata (bytes n.value))
  | .comment => some (.comment (bytes n.value))
  | .entityRef => some (.ref (bytes n.name))
  | .doctype => some (.doctype (bytes n.name) d)
  | _ => none

/-- What can be read from node `j`. -/
def label (st : St) (j : NodeId) : Option Label := (st.w.nodes j).bind fun n => labelOf n (st.atts j) (st.ids j)

theorem labelOf_data {m : Node} {a : List Stored} {d : Option (Bytes × Bytes)} (h : m.data = n.data) : labelOf m a d = labelOf n a d := by
  have e1 : m.type = n.type := Node.data_type h
  have e2 : m.name = n.name := Query.data_name h
  have e3 : m.value = n.value := by have := congrArg Node.value h; exact this
  have e4 : m.ns = n.ns := by have := congrArg Node.ns h; exact this
  have e5 : m.pfx = n.pfx := by have := congrArg Node.pfx h; exact this
  unfold labelOf; rw [e1, e2, e3, e4, e5]

theorem label_data (h : (st'.w.nodes j).map Node.data = (st.w.nodes j).map Node.data) (ha : st'.atts j = st.atts j) (hi : st'.ids j = st.ids j) :
    label st' j = label st j := by
  unfold label
  rw [ha, hi]
  cases h1 : st.w.nodes j with
  | none =>
    rw [h1] at h
    cases h2 : st'.w.nodes j with
    | none => rfl
    | some m => rw [h2] at h; cases h
  | some n =>
    rw [h1] at h
    cases h2 : st'.w.nodes j with
    | none => rw [h2] at h; cases h
    | some m =>
      rw [h2] at h
      simp only [Option.map_some, Option.some.injEq] at h
      exact labelOf_data h

/-- A forest of labelled trees. -/
inductive Forest
  | nil
  | cons (l : Label) (kids rest : Forest)
  deriving DecidableEq, Repr

/-- One forest behind the other. -/
def Forest.append : Forest → Forest → Forest
  | .nil, G => G
  | .cons L k r, G => .cons L k (r.append G)

theorem Forest.append_nil (F : Forest) : F.append .nil = F := by
  induction F with
  | nil => rfl
  | cons L k r _ ih => unfold Forest.append; rw [ih]

theorem Forest.append_assoc (F G H : Forest) : (F.append G).append H = F.append (G.append H) := by
  induction F with
  | nil => rfl
  | cons L k r _ ih => unfold Forest.append; rw [← ih]; rfl

/-- The nodes in the list, with what lies below them, are the forest. -/
def Shows (lo : NodeId) (lab : NodeId → Option Label) (ch : Children) : List NodeId → Forest → Prop
  | [], .nil => True
  | j :: js, .cons L kids rest => lo ≤ j ∧ lab j = some L ∧ Shows lo lab ch (ch j) kids ∧ Shows lo lab ch js rest
  | _, _ => False

theorem Shows.frame {lo : NodeId} {lab lab' : NodeId → Option Label} (h : ∀ j, lo ≤ j → lab j ≠ none → lab' j = lab j ∧ ch' j = ch j) :
    ∀ {F : Forest} {js : List NodeId}, Shows lo lab ch js F → Shows lo lab' ch' js F := by
  intro F
  induction F with
  | nil => intro js; cases js <;> simp [Shows]
  | cons L k r ihk ihr =>
    intro js
    cases js with
    | nil => simp [Shows]
    | cons j js =>
      rintro ⟨h1, h2, h3, h4⟩
      obtain ⟨g1, g2⟩ := h j h1 (by rw [h2]; simp)
      exact ⟨h1, by rw [g1]; exact h2, by rw [g2]; exact ihk h3, ihr h4⟩

theorem Shows.lower {lo lo' : NodeId} {lab : NodeId → Option Label} (h : lo' ≤ lo) :
    ∀ {F : Forest} {js : List NodeId}, Shows lo lab ch js F → Shows lo' lab ch js F := by
  intro F
  induction F with
  | nil => intro js; cases js <;> simp [Shows]
  | cons L k r ihk ihr =>
    intro js
    cases js with
    | nil => simp [Shows]
    | cons j js =>
      rintro ⟨h1, h2, h3, h4⟩
      exact ⟨Nat.le_trans h h1, h2, ihk h3, ihr h4⟩

theorem Shows.append {lo : NodeId} {lab : NodeId → Option Label} {G : Forest} {ks : List NodeId} (hG : Shows lo lab ch ks G) :
    ∀ {F : Forest} {js : List NodeId}, Shows lo lab ch js F → Shows lo lab ch (js ++ ks) (F.append G) := by
  intro F
  induction F with
  | nil => intro js; cases js <;> simp [Shows, Forest.append, hG]
  | cons L k r ihk ihr =>
    intro js
    cases js with
    | nil => simp [Shows]
    | cons j js =>
      rintro ⟨h1, h2, h3, h4⟩
      exact ⟨h1, h2, h3, ihr h4⟩

structure Inv (w0 : World) (ch0 : Children) (st : St) (ch : Children) : Prop where
  base : Base w0 ch0 st.doc st.w ch
  refs : Refs st.doc st.w

theorem Inv.bump (I : Inv w0 ch0 st ch) (hd : st'.doc = st.doc) (hw : st'.w = st.w ∨ st'.w = bump st.w) : Inv w0 ch0 st' ch := by
  rcases hw with h | h
  · exact ⟨by rw [hd, h]; exact I.base, by rw [hd, h]; exact I.refs⟩
  · exact ⟨by rw [hd, h]; exact I.base.bump, by rw [hd, h]; exact I.refs.bump⟩

theorem fresh_label (I : Inv w0 ch0 st ch) (h : st.w.fresh ≤ j) : label st j = none := by
  unfold label
  cases h1 : st.w.nodes j with
  | none => rfl
  | some n => exact absurd (I.base.sound.wf.bnd _ _ h1) (Nat.not_lt.2 h)

theorem Inv.lt (I : Inv w0 ch0 st ch) (h : label st j ≠ none) : j < st.w.fresh := by
  rcases Nat.lt_or_ge j st.w.fresh with h' | h'
  · exact h'
  · exact absurd (fresh_label I h') h

theorem Inv.placeLt (I : Inv w0 ch0 st ch) (H : Place st.doc p st.w) : p < st.w.fresh := by
  obtain ⟨_, cn, h, _⟩ := H
  exact I.base.sound.wf.bnd _ _ h

/-- The nodes `new`, showing `F`, were put at the end of `p`, and everything else is as before. -/
structure Ran (w0 : World) (ch0 : Children) (st : St) (ch : Children) (p : NodeId) (new : List NodeId) (F : Forest) (st' : St) (ch' : Children) : Prop where
  inv : Inv w0 ch0 st' ch'
  doc : st'.doc = st.doc
  fresh : st.w.fresh ≤ st'.w.fresh
  here : ch' p = ch p ++ new
  lists : ∀ j, j < st.w.fresh → j ≠ p → ch' j = ch j
  labels : ∀ j, j < st.w.fresh → label st' j = label st j
  places : ∀ j, Place st.doc j st.w → Place st.doc j st'.w
  shows_ : Shows st.w.fresh (label st') ch' new F

theorem Ran.append {a b : List NodeId} {F G : Forest} (hp : p < st.w.fresh) (A : Ran w0 ch0 st ch p a F st1 ch1) (B : Ran w0 ch0 st1 ch1 p b G st2 ch2) :
    Ran w0 ch0 st ch p (a ++ b) (F.append G) st2 ch2 := by
  refine ⟨B.inv, B.doc.trans A.doc, Nat.le_trans A.fresh B.fresh, ?_, ?_, ?_, ?_, ?_⟩
  · rw [B.here, A.here, List.append_assoc]
  · intro j h1 h2
    rw [B.lists j (Nat.lt_of_lt_of_le h1 A.fresh) h2, A.lists j h1 h2]
  · intro j h1
    rw [B.labels j (Nat.lt_of_lt_of_le h1 A.fresh), A.labels j h1]
  · intro j hj
    have := B.places j (by rw [A.doc]; exact A.places j hj)
    rw [A.doc] at this; exact this
  · refine Shows.append (B.shows_.lower A.fresh) (A.shows_.frame ?_)
    intro j h1 h2
    have h3 := A.inv.lt h2
    exact ⟨B.labels j h3, B.lists j h3 (fun e => absurd (e ▸ h1 : st.w.fresh ≤ p) (Nat.not_le.2 hp))⟩

theorem Ran.nil (I : Inv w0 ch0 st ch) : Ran w0 ch0 st ch p [] .nil st ch :=
  ⟨I, rfl, Nat.le_refl _, by simp, fun _ _ _ => rfl, fun _ _ => rfl, fun _ h => h, trivial⟩

/-- Only what belongs to the document counts. -/
theorem Ran.left {new : List NodeId} {F : Forest} (R : Ran w0 ch0 st1 ch p new F st' ch') (h1 : st1.w = st.w) (h2 : st1.doc = st.doc) (h3 : st1.atts = st.atts) (h4 : st1.ids = st.ids) :
    Ran w0 ch0 st ch p new F st' ch' := by
  obtain ⟨d, w, a, i, e, r, f⟩ := st
  obtain ⟨d1, w1, a1, i1, e1, r1, f1⟩ := st1
  cases h1; cases h2; cases h3; cases h4
  exact ⟨R.inv, R.doc, R.fresh, R.here, R.lists, R.labels, R.places, R.shows_⟩

theorem Ran.right {new : List NodeId} {F : Forest} (R : Ran w0 ch0 st ch p new F st1 ch') (h1 : st1.w = st'.w) (h2 : st1.doc = st'.doc) (h3 : st1.atts = st'.atts) (h4 : st1.ids = st'.ids) :
    Ran w0 ch0 st ch p new F st' ch' := by
  obtain ⟨d, w, a, i, e, r, f⟩ := st'
  obtain ⟨d1, w1, a1, i1, e1, r1, f1⟩ := st1
  cases h1; cases h2; cases h3; cases h4
  exact ⟨⟨R.inv.base, R.inv.refs⟩, R.doc, R.fresh, R.here, R.lists, R.labels, R.places, R.shows_⟩

theorem Inv.same (I : Inv w0 ch0 st ch) (h1 : st'.w = st.w) (h2 : st'.doc = st.doc) : Inv w0 ch0 st' ch := I.bump h2 (.inl h1)

theorem fresh_list (I : Inv w0 ch0 st ch) : ch st.w.fresh = [] :=
  I.base.sound.wf.linked.dead _ (fresh_dead I.base.sound.wf.toCore)

/-- One new node without children. -/
theorem Grown.ran {L : Label} (I : Inv w0 ch0 st ch) (I' : Inv w0 ch0 st' ch') (H : Place st.doc p st.w) (hd : st'.doc = st.doc)
    (G : Grown st.w ch p st.w.fresh n st.doc 0 st'.w ch') (ha : ∀ j, j ≠ st.w.fresh → st'.atts j = st.atts j) (hi : ∀ j, j ≠ st.w.fresh → st'.ids j = st.ids j)
    (hL : labelOf n (st'.atts st.w.fresh) (st'.ids st.w.fresh) = some L) :
    Ran w0 ch0 st ch p [st.w.fresh] (.cons L .nil .nil) st' ch' := by
  have hp := I.placeLt H
  refine ⟨I', hd, by rw [G.fresh]; exact Nat.le_succ _, by rw [G.lists, if_pos rfl], ?_, ?_, ?_, ?_⟩
  · intro j _ h; rw [G.lists, if_neg h, List.append_nil]
  · intro j h
    have h' : j ≠ st.w.fresh := Nat.ne_of_lt h
    exact label_data (G.data j h') (ha j h') (hi j h')
  · intro j hj; exact hj.grown I.base.sound.wf.toCore G
  · refine ⟨Nat.le_refl _, ?_, ?_, trivial⟩
    · obtain ⟨m, h1, h2, _⟩ := G.new
      unfold label
      rw [h1]
      show labelOf m _ _ = _
      rw [labelOf_data h2]; exact hL
    · rw [G.lists, if_neg (Nat.ne_of_gt hp), fresh_list I]; trivial

theorem onTree_ok {α β : Type} {m : M α} {f : World → α → β} {a : α} (h : m w = .ok w' a) : onTree w m f = .ok (f w' a) := by
  unfold onTree; rw [h]

/-- What is shown for a child of a node of libxml2's tree. -/
def XItem.label : XItem → Option Label
  | .elem => none
  | .text s => some (.text s)
  | .cdata s => some (.cdata s)
  | .ref name _ => some (.ref name)
  | .comment s => some (.comment s)
  | .dtd name p s => some (.doctype name (some (p.getD [], s.getD [])))
  | .other => none

/-- What is shown for children. -/
def items : List XItem → Forest
  | [] => .nil
  | x :: xs => match x.label with
    | none => items xs
    | some L => .cons L .nil (items xs)

theorem items_cons (x : XItem) (xs : List XItem) : items (x :: xs) = match x.label with
    | none => items xs
    | some L => .cons L .nil (items xs) := by rw [items]

theorem items_append (a b : List XItem) : items (a ++ b) = (items a).append (items b) := by
  induction a with
  | nil => rfl
  | cons x a ih =>
    rw [List.cons_append, items_cons, items_cons]
    cases x.label with
    | none => exact ih
    | some L => dsimp only; rw [ih]; rfl

/-- After one child was copied, whatever happened, the memory is in order. -/
theorem add_safe (I : Inv w0 ch0 st ch) (H : Place st.doc p st.w) {x : XItem} (hx : x.Fine) (hd : p = st.doc ∨ x.NoDtd) :
    ∃ st' ch', onTree st.w (addItem st.doc (some p) x) (added st x) = .ok st' ∧ Inv w0 ch0 st' ch' ∧ st'.doc = st.doc ∧ st'.root = st.root ∧ st'.inner = st.inner ∧
      ∀ j, Place st.doc j st.w → Place st.doc j st'.w := by
  rcases item_run I.base I.refs H hx hd with ⟨_, h⟩ | ⟨n, w', ch', _, _, _, h, G, B, R⟩ | ⟨n, w', _, _, h, hw⟩
  · rw [onTree_ok h]
    exact ⟨_, ch, rfl, ⟨I.base, I.refs⟩, rfl, rfl, rfl, fun _ h => h⟩
  · rw [onTree_ok h]
    exact ⟨_, ch', rfl, ⟨B, R⟩, rfl, rfl, rfl, fun j hj => hj.grown I.base.sound.wf.toCore G⟩
  · rw [onTree_ok h]
    refine ⟨_, ch, rfl, I.bump rfl hw, rfl, rfl, rfl, ?_⟩
    intro j hj
    show Place st.doc j w'
    rcases hw with rfl | rfl
    · exact hj
    · exact hj

theorem mirror_safe : ∀ {xs : List XItem} {st : St} {ch : Children}, Inv w0 ch0 st ch → Place st.doc p st.w → (∀ x ∈ xs, x.Fine ∧ (p = st.doc ∨ x.NoDtd)) →
    ∃ st' ch', mirror st (some p) xs = .ok st' ∧ Inv w0 ch0 st' ch' ∧ st'.doc = st.doc ∧ st'.root = st.root ∧ st'.inner = st.inner ∧
      ∀ j, Place st.doc j st.w → Place st.doc j st'.w := by
  intro xs
  induction xs with
  | nil => intro st ch I _ _; exact ⟨st, ch, rfl, I, rfl, rfl, rfl, fun _ h => h⟩
  | cons x xs ih =>
    intro st ch I H hx
    obtain ⟨st1, ch1, h1, I1, h2, h3, h4, h5⟩ := add_safe I H (hx x (by simp)).1 (hx x (by simp)).2
    unfold mirror
    rw [h1]
    simp only [Out.bind_ok]
    by_cases he : st1.err = true
    · rw [if_pos he]
      exact ⟨st1, ch1, rfl, I1, h2, h3, h4, h5⟩
    · rw [if_neg he]
      obtain ⟨st2, ch2, g1, I2, g2, g3, g4, g5⟩ := ih I1 (by rw [h2]; exact h5 p H) (fun y hy => by rw [h2]; exact hx y (by simp [hy]))
      refine ⟨st2, ch2, g1, I2, g2.trans h2, g3.trans h3, g4.trans h4, ?_⟩
      intro j hj
      have := g5 j (by rw [h2]; exact h5 j hj)
      rw [h2] at this; exact this

theorem item_label {x : XItem} (hn : x.node doc = some n) (a : List Stored) : ∃ L, x.label = some L ∧ labelOf n a x.ids = some L := by
  cases x <;> cases hn <;> exact ⟨_, rfl, rfl⟩

/-- A child that is accepted and permitted is shown. -/
theorem add_shows (I : Inv w0 ch0 st ch) (H : Place st.doc p st.w) {x : XItem} (hx : x.Fine) (hd : p = st.doc ∨ x.NoDtd) (he : st.err = false) (ha : x.Accepted)
    (hp : ∀ n, x.node st.doc = some n → Permitted (st.w.add n) ch p st.w.fresh) :
    ∃ st' ch' new, onTree st.w (addItem st.doc (some p) x) (added st x) = .ok st' ∧ st'.err = false ∧ st'.root = st.root ∧ st'.inner = st.inner ∧ Ran w0 ch0 st ch p new (items [x]) st' ch' := by
  rcases item_run I.base I.refs H hx hd with ⟨hn, h⟩ | ⟨n, w', ch', hn, _, _, h, G, B, R⟩ | ⟨n, w', hn, hne, h, hw⟩
  · rw [onTree_ok h]
    have : x.label = none := by cases x <;> first | rfl | cases hn
    refine ⟨_, ch, [], rfl, he, rfl, rfl, ?_⟩
    unfold items
    rw [this]
    refine (Ran.nil I).right rfl rfl rfl ?_
    unfold added
    simp
  · rw [onTree_ok h]
    refine ⟨_, ch', [st.w.fresh], rfl, he, rfl, rfl, ?_⟩
    obtain ⟨L, h1, h2⟩ := item_label hn (st.atts st.w.fresh)
    have e : items [x] = .cons L .nil .nil := by unfold items; rw [h1]; rfl
    rw [e]
    refine Grown.ran (n := n) I ⟨B, R⟩ H rfl G (fun _ _ => rfl) ?_ ?_
    · intro j hj
      show (if j ∈ [st.w.fresh] then x.ids else st.ids j) = st.ids j
      rw [if_neg (by simpa using hj)]
    · show labelOf n (st.atts st.w.fresh) (if st.w.fresh ∈ [st.w.fresh] then x.ids else st.ids st.w.fresh) = some L
      rw [if_pos (by simp)]; exact h2
  · rcases hne with h1 | h1
    · exact absurd (hp n hn) h1
    · exact absurd ha h1

/-- What an element takes, and a comment anywhere. -/
def Simple (doc p : NodeId) (x : XItem) : Prop := x.Fine ∧ x.Accepted ∧ ((p ≠ doc ∧ x.NoDtd) ∨ ∃ s, x = .comment s)

theorem simple_permitted (I : Inv w0 ch0 st ch) (H : Place st.doc p st.w) {x : XItem} (hx : Simple st.doc p x) (hn : x.node st.doc = some n) :
    Permitted (st.w.add n) ch p st.w.fresh := by
  obtain ⟨h1, pn, h2, h3⟩ := H
  rw [Xml.permitted_iff I.base.sound.wf.toCore h2]
  obtain ⟨dn, hd, hdt⟩ := I.base.docNode
  obtain ⟨_, _, ⟨g1, g2⟩ | ⟨s, rfl⟩⟩ := hx
  · have ht : pn.type = .element := by
      rcases h3 with h | h
      · exact absurd h g1
      · exact h
    rw [ht]
    refine ⟨?_, fun h => by cases h⟩
    cases x <;> cases hn <;> first | exact False.elim g2 | exact .content (by decide) (by simp [newNode])
  · cases hn
    rcases h3 with rfl | h
    · rw [hd] at h2
      have e : dn = pn := by simpa using h2
      rw [← e, hdt]
      exact ⟨.doc (by simp [newNode]), fun _ h => by rcases h with h | h <;> cases h⟩
    · rw [h]
      exact ⟨.content (by decide) (by simp [newNode]), fun h => by cases h⟩

theorem mirror_shows : ∀ {xs : List XItem} {st : St} {ch : Children}, Inv w0 ch0 st ch → Place st.doc p st.w → st.err = false → (∀ x ∈ xs, Simple st.doc p x) →
    ∃ st' ch' new, mirror st (some p) xs = .ok st' ∧ st'.err = false ∧ st'.root = st.root ∧ st'.inner = st.inner ∧ Ran w0 ch0 st ch p new (items xs) st' ch' := by
  intro xs
  induction xs with
  | nil => intro st ch I _ he _; exact ⟨st, ch, [], rfl, he, rfl, rfl, Ran.nil I⟩
  | cons x xs ih =>
    intro st ch I H he hx
    have hs := hx x (by simp)
    have hd : p = st.doc ∨ x.NoDtd := by
      rcases hs.2.2 with h | ⟨s, rfl⟩
      · exact .inr h.2
      · exact .inr trivial
    obtain ⟨st1, ch1, new1, h1, h2, h3, h4, R1⟩ := add_shows I H hs.1 hd he hs.2.1 (fun n hn => simple_permitted I H hs hn)
    obtain ⟨st2, ch2, new2, g1, g2, g3, g4, R2⟩ := ih R1.inv (by rw [R1.doc]; exact R1.places p H) h2 (fun y hy => by rw [R1.doc]; exact hx y (by simp [hy]))
    refine ⟨st2, ch2, new1 ++ new2, ?_, g2, g3.trans h3, g4.trans h4, ?_⟩
    · unfold mirror
      rw [h1]
      simp only [Out.bind_ok]
      rw [if_neg (by rw [h2]; simp)]
      exact g1
    · rw [show x :: xs = [x] ++ xs from rfl, items_append]
      exact Ran.append (I.placeLt H) R1 R2

theorem mirror_append {a b : List XItem} (he : st1.err = false) : ∀ {st : St}, mirror st (some p) a = .ok st1 → mirror st (some p) (a ++ b) = mirror st1 (some p) b := by
  induction a with
  | nil =>
    intro st h
    have e : st = st1 := by unfold mirror at h; simpa using h
    rw [e]; rfl
  | cons x a ih =>
    intro st h
    rw [List.cons_append]
    rw [mirror] at h ⊢
    cases hx : onTree st.w (addItem st.doc (some p) x) (added st x) with
    | ok s =>
      rw [hx] at h
      simp only [Out.bind_ok] at h ⊢
      by_cases h1 : s.err = true
      · rw [if_pos h1] at h
        have e : s = st1 := by simpa using h
        rw [e, he] at h1; cases h1
      · rw [if_neg h1] at h ⊢
        exact ih h
    | exc e => rw [hx] at h; cases h
    | fault f => rw [hx] at h; cases h

end Dom.Libxml
