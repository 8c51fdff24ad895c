import Verif.Parse.XmlNames
/-!
# What the events do to the document
-/
set_option linter.unusedSimpArgs false
namespace Dom.Xml
open Dom.Tree
open Dom.Names
open Dom.Str (Bytes DStr Holds utf8)

variable {w w' w0 : World} {ch ch' ch0 : Children} {doc cur i x j : NodeId} {n cn dn : Node} {st st' : St}

/-- What can be read from a node of the document.  `ids`: the public and the system identifier. -/
inductive Label
  | elem (ns pfx : Option Bytes) (name : Bytes) (atts : List Stored)
  | text (s : Bytes)
  | cdata (s : Bytes)
  | comment (s : Bytes)
  | doctype (name : Bytes) (ids : Option (Bytes × Bytes))
  deriving DecidableEq, Repr

/-- The bytes of a string that may be NULL. -/
def bytes (s : Option DStr) : Bytes :=
  match s with
  | none => []
  | some s => s.data

def labelOf (n : Node) (a : List Stored) (d : Option (Bytes × Bytes)) : Option Label :=
  match n.type with
  | .element => some (.elem (n.ns.map (·.data)) (n.pfx.map (·.data)) (bytes n.name) a)
  | .text => some (.text (bytes n.value))
  | .cdata => some (.cdata (bytes n.value))
  | .comment => some (.comment (bytes n.value))
  | .doctype => some (.doctype (bytes n.name) d)
  | _ => none

/-- What can be read from node `j`. -/
def label (st : St) (j : NodeId) : Option Label := (st.w.nodes j).bind fun n => labelOf n (st.atts j) (st.ids j)

theorem labelOf_data {m : Node} {a : List Stored} {d : Option (Bytes × Bytes)} (h : m.data = n.data) : labelOf m a d = labelOf n a d := by
  have e1 : m.type = n.type := Node.data_type h
  have e2 : m.name = n.name := Query.data_name h
  have e3 : m.value = n.value := by have := congrArg Node.value h; exact this
  have e4 : m.ns = n.ns := by have := congrArg Node.ns h; exact this
  have e5 : m.pfx = n.pfx := by have := congrArg Node.pfx h; exact this
  unfold labelOf; rw [e1, e2, e3, e4, e5]

theorem label_data {st st' : St} {j : NodeId} (h : (st'.w.nodes j).map Node.data = (st.w.nodes j).map Node.data) (ha : st'.atts j = st.atts j) (hi : st'.ids j = st.ids j) :
    label st' j = label st j := by
  unfold label
  rw [ha, hi]
  cases h1 : st.w.nodes j with
  | none =>
    rw [h1] at h
    cases h2 : st'.w.nodes j with
    | none => rfl
    | some m => rw [h2] at h; cases h
  | some n =>
    rw [h1] at h
    cases h2 : st'.w.nodes j with
    | none => rw [h2] at h; cases h
    | some m =>
      rw [h2] at h
      simp only [Option.map_some, Option.some.injEq] at h
      exact labelOf_data h

/-- A node labelled `L` was put at the end of `x`. -/
structure Grew (st : St) (ch : Children) (x : NodeId) (L : Label) (st' : St) (ch' : Children) : Prop where
  lists : ∀ p, ch' p = ch p ++ (if p = x then [st.w.fresh] else [])
  new : label st' st.w.fresh = some L
  old : ∀ j, j ≠ st.w.fresh → label st' j = label st j
  fresh : st'.w.fresh = st.w.fresh + 1
  doc : st'.doc = st.doc
  isCdata : st'.isCdata = st.isCdata
  msgs : st'.msgs = st.msgs

/-- Nothing changed that can be read; `k` messages more. -/
structure Same (st st' : St) (k : Nat) : Prop where
  old : ∀ j, label st' j = label st j
  fresh : st.w.fresh ≤ st'.w.fresh
  doc : st'.doc = st.doc
  msgs : st'.msgs = st.msgs + k

/-- Whether `x` takes a node of type `t`: elements take all that the parser creates but doctypes, documents comments, one element and one doctype. -/
def Takes (st : St) (ch : Children) (x : NodeId) (t : NodeType) : Prop :=
  ∃ xn, st.w.nodes x = some xn ∧ MayContain xn.type t ∧
    (xn.type = .document → (t = .element ∨ t = .doctype) → ∀ c ∈ ch x, ∀ m, st.w.nodes c = some m → m.type ≠ t)

theorem takes_iff (I : Inv w0 ch0 st ch) (hx : st.w.nodes x = some cn) : Permitted (st.w.add n) ch x st.w.fresh ↔ Takes st ch x n.type := by
  rw [permitted_iff I.base.sound.wf.toCore hx]
  constructor
  · intro h; exact ⟨cn, hx, h⟩
  · rintro ⟨m, h1, h2⟩
    rw [hx] at h1
    have e : cn = m := by simpa using h1
    rw [e]; exact h2

theorem onTree_ok {α : Type} {m : M α} {f : World → α → St} {a : α} (h : m st.w = .ok w' a) : onTree st m f = .ok (f w' a) := by
  unfold onTree; rw [h]

theorem label_add {L : Label} {a : List Stored} {d : Option (Bytes × Bytes)} (h : ∃ m, st'.w.nodes i = some m ∧ m.data = n.data) (ha : st'.atts i = a) (hd : st'.ids i = d)
    (hL : labelOf n a d = some L) : label st' i = some L := by
  obtain ⟨m, h1, h2⟩ := h
  unfold label
  rw [h1, ha, hd]
  show labelOf m a d = _
  rw [labelOf_data h2]; exact hL

theorem fresh_label (I : Inv w0 ch0 st ch) (h : st.w.fresh ≤ j) : label st j = none := by
  have : st.w.nodes j = none := by
    cases hn : st.w.nodes j with
    | none => rfl
    | some m => exact absurd (I.base.sound.wf.bnd _ _ hn) (Nat.not_lt.2 h)
  unfold label; rw [this]; rfl

/-- A start tag. -/
theorem start_effect (I : Inv w0 ch0 st ch) {name : Bytes} {atts : List Att} (hl : Short name) (ha : ∀ a ∈ atts, Short a.name) :
    (∃ n l L, elemOut st.doc name = .ok n ∧ attLoop [] atts = .ok l ∧ labelOf n l none = some L ∧ Takes st ch st.current .element ∧
      ∃ st' ch', step st (.start name atts) = .ok st' ∧ Inv w0 ch0 st' ch' ∧ Grew st ch st.current L st' ch' ∧ st'.current = st.w.fresh) ∨
    ((∀ n l, elemOut st.doc name = .ok n → attLoop [] atts = .ok l → ¬ Takes st ch st.current .element) ∧
      ∃ st', step st (.start name atts) = .ok st' ∧ Inv w0 ch0 st' ch ∧ Same st st' 1 ∧ st'.current = st.current ∧ st'.isCdata = st.isCdata) := by
  obtain ⟨hc1, cn, hc2, hc3⟩ := I.here
  rcases startTree_run I.base I.refs I.here hl (attLoop_total ha []) with ⟨n, l, h1, h2, h3, h4, w', v, ch', h5, G, h6, h7, h8, h9, h10⟩ | ⟨h1, w', h2, h3, h4, h5, h6⟩
  · left
    have hT := (takes_iff I hc2).1 h4
    rw [h3] at hT
    have hL : ∃ L, labelOf n l none = some L := by unfold labelOf; rw [h3]; exact ⟨_, rfl⟩
    obtain ⟨L, hL⟩ := hL
    refine ⟨n, l, L, h1, h2, hL, hT, _, ch', onTree_ok h5, ⟨h8, h9, h10⟩, ?_, rfl⟩
    refine ⟨G.lists, ?_, ?_, by show w'.fresh = _; rw [h7]; exact G.fresh, rfl, rfl, rfl⟩
    · obtain ⟨m, g1, g2, _⟩ := G.new
      obtain ⟨m', g3, g4⟩ := Dom.Parse.live_of (f := Node.data) (g := Node.data) (h6 st.w.fresh) g1
      refine label_add (n := n) (a := l) (d := st.ids st.w.fresh) ⟨m', g3, g4.trans g2⟩ ?_ rfl (by rw [← hL]; unfold labelOf; rw [h3])
      show (if st.w.fresh = st.w.fresh then (match attLoop [] atts with | .ok x => x | _ => []) else _) = l
      rw [if_pos rfl, h2]
    · intro j hj
      refine label_data ?_ ?_ rfl
      · show (w'.nodes j).map Node.data = _
        rw [h6 j]; exact G.data j hj
      · show (if j = st.w.fresh then _ else st.atts j) = _
        rw [if_neg hj]
  · right
    refine ⟨?_, _, onTree_ok h2, ⟨h4, h5, h6⟩, ⟨?_, ?_, rfl, rfl⟩, rfl, rfl⟩
    · intro n l g1 g2 g3
      apply h1 n l g1 g2
      rw [takes_iff I hc2]
      obtain ⟨dn, hd, hdt⟩ := I.base.docNode
      rcases createElem_run I.base.sound hd hdt hl with ⟨n', e1, _, _, _, _, e2, _⟩ | ⟨_, e1, _⟩
      · rw [g1] at e1; cases e1; rw [e2]; exact g3
      · rw [g1] at e1; cases e1
    · intro j
      refine label_data ?_ rfl rfl
      show (w'.nodes j).map Node.data = _
      rcases h3 with rfl | rfl <;> rfl
    · show st.w.fresh ≤ w'.fresh
      rcases h3 with rfl | rfl
      · exact Nat.le_refl _
      · exact Nat.le_succ _

/-- An end tag. -/
theorem end_effect (I : Inv w0 ch0 st ch) : ∃ st', step st .finish = .ok st' ∧ Inv w0 ch0 st' ch ∧ st'.isCdata = st.isCdata ∧ st'.w.fresh = st.w.fresh ∧
    ((Same st st' 1 ∧ st'.current = st.current ∧ (st.current = st.doc ∨ st.current ∈ ch st.doc)) ∨
     (Same st st' 0 ∧ st'.current ≠ st.doc ∧ st.current ∈ ch st'.current)) := by
  obtain ⟨w', r, h1, h2, h3, h4, h5⟩ := endTree_run I.base I.refs I.here
  rcases h5 with ⟨rfl, h5, h6, h7⟩ | ⟨p, rfl, h5, h6, h7, h8⟩
  · exact ⟨_, onTree_ok h1, ⟨h4, h6, h7⟩, rfl, h3, .inl ⟨⟨fun j => label_data (h2 j) rfl rfl, Nat.le_of_eq h3.symm, rfl, rfl⟩, rfl, h5⟩⟩
  · exact ⟨_, onTree_ok h1, ⟨h4, h7, h8⟩, rfl, h3, .inr ⟨⟨fun j => label_data (h2 j) rfl rfl, Nat.le_of_eq h3.symm, rfl, rfl⟩, h5, h6⟩⟩

/-- A comment. -/
theorem comment_effect (I : Inv w0 ch0 st ch) (s : Bytes) : ∃ st' ch', step st (.comment s) = .ok st' ∧ Inv w0 ch0 st' ch' ∧ st'.current = st.current ∧
    Grew st ch st.current (.comment s) st' ch' := by
  obtain ⟨hc1, cn, hc2, hc3⟩ := I.here
  obtain ⟨dn, hd, hdt⟩ := I.base.docNode
  rcases commentTree_run I.base I.refs I.here (Str.create s) with ⟨_, w', ch', h2, G, h3, h4, h5⟩ | ⟨h1, _⟩
  · refine ⟨_, ch', onTree_ok h2, ⟨h3, h4, h5⟩, rfl, G.lists, ?_, ?_, G.fresh, rfl, rfl, rfl⟩
    · obtain ⟨m, g1, g2, _⟩ := G.new
      exact label_add ⟨m, g1, g2⟩ rfl rfl rfl
    · intro j hj; exact label_data (G.data j hj) rfl rfl
  · exfalso
    apply h1
    rw [takes_iff I hc2]
    refine ⟨cn, hc2, ?_, ?_⟩
    · show MayContain cn.type .comment
      rcases hc3 with h | h
      · rw [h] at hc2; rw [hd] at hc2
        have e : dn = cn := by simpa using hc2
        rw [← e, hdt]; exact .doc (by simp)
      · rw [h]; exact .content (by simp) (by simp)
    · rintro _ (h | h) <;> cases h

/-- Characters outside of the root element are dropped. -/
theorem chars_effect (I : Inv w0 ch0 st ch) (s : Bytes) : ∃ st' ch', step st (.chars s) = .ok st' ∧ Inv w0 ch0 st' ch' ∧ st'.current = st.current ∧ st'.isCdata = st.isCdata ∧
    ((∃ l t, st.isCdata = false ∧ (ch st.current).getLast? = some l ∧ label st l = some (.text t) ∧ ch' = ch ∧ label st' l = some (.text (t ++ s)) ∧ (∀ j, j ≠ l → label st' j = label st j) ∧
        st'.w.fresh = st.w.fresh ∧ st'.doc = st.doc ∧ st'.msgs = st.msgs) ∨
     ((∀ l t, st.isCdata = false → (ch st.current).getLast? = some l → label st l ≠ some (.text t)) ∧
       ((st.current ≠ st.doc ∧ Grew st ch st.current (if st.isCdata then .cdata s else .text s) st' ch') ∨
        (st.current = st.doc ∧ ch' = ch ∧ Same st st' 1)))) := by
  obtain ⟨hc1, cn, hc2, hc3⟩ := I.here
  obtain ⟨dn, hd, hdt⟩ := I.base.docNode
  have hlab : ∀ {l ln t}, st.w.nodes l = some ln → label st l = some (.text t) → ln.type = .text := by
    intro l ln t h1 h2
    unfold label at h2
    rw [h1] at h2
    have h2 : labelOf ln (st.atts l) (st.ids l) = some (.text t) := h2
    unfold labelOf at h2
    split at h2 <;> first | assumption | (simp at h2)
  rcases charsTree_run I.base I.refs I.here st.isCdata (Str.create s) with ⟨l, ln, v, w', h1, h2, h3, h4, h5, h6, E, h7, h8, h9⟩ | ⟨h1, h2⟩
  · refine ⟨_, ch, onTree_ok h6, ⟨h7, h8, h9⟩, rfl, rfl, .inl ⟨l, v.data, h1, h2, ?_, rfl, ?_, ?_, E.fresh, rfl, rfl⟩⟩
    · unfold label; rw [h3]
      show labelOf ln _ _ = _
      unfold labelOf; rw [h4, h5]; rfl
    · unfold label
      show (w'.nodes l).bind _ = _
      rw [E.here]
      show labelOf { ln with value := some (Str.create (v.data ++ s)) } _ _ = _
      unfold labelOf
      show (match ln.type with | _ => _) = _
      rw [h4]; rfl
    · intro j hj
      refine label_data ?_ rfl rfl
      show (w'.nodes j).map Node.data = _
      rw [E.others j hj]
  · have h1' : ∀ l t, st.isCdata = false → (ch st.current).getLast? = some l → label st l ≠ some (.text t) := by
      intro l t hb hl hlb
      obtain ⟨ln, hln, _⟩ := I.base.sound.wf.linked.alive_child (List.mem_of_getLast? hl)
      exact h1 l ln hb hl hln (hlab hln hlb)
    rcases h2 with ⟨h2, w', ch', h3, G, h4, h5, h6⟩ | ⟨h2, h3, h4, h5, h6⟩
    · refine ⟨_, ch', onTree_ok h3, ⟨h4, h5, h6⟩, rfl, rfl, .inr ⟨h1', .inl ⟨?_, G.lists, ?_, ?_, G.fresh, rfl, rfl, rfl⟩⟩⟩
      · intro e
        rw [takes_iff I hc2] at h2
        obtain ⟨xn, g1, g2, _⟩ := h2
        rw [e, hd] at g1
        have e' : dn = xn := by simpa using g1
        rw [← e', hdt] at g2
        have : (newNode (some st.doc) (charsType st.isCdata) none (some (Str.create s))).type = charsType st.isCdata := rfl
        rw [this] at g2
        unfold charsType at g2
        split at g2 <;> cases g2 <;> simp_all
      · obtain ⟨m, g1, g2, _⟩ := G.new
        refine label_add ⟨m, g1, g2⟩ rfl rfl ?_
        unfold labelOf newNode charsType
        cases st.isCdata <;> rfl
      · intro j hj; exact label_data (G.data j hj) rfl rfl
    · refine ⟨_, ch, onTree_ok h3, ⟨h4, h5, h6⟩, rfl, rfl, .inr ⟨h1', .inr ⟨?_, rfl, fun j => label_data rfl rfl rfl, Nat.le_succ _, rfl, rfl⟩⟩⟩
      rcases hc3 with h | h
      · exact h
      · exfalso
        apply h2
        rw [takes_iff I hc2]
        refine ⟨cn, hc2, ?_, ?_⟩
        · rw [h]
          refine .content (by simp) ?_
          show charsType st.isCdata ∈ _
          unfold charsType; cases st.isCdata <;> simp
        · intro g; rw [h] at g; cases g

/-- A document type declaration. -/
theorem doctype_effect (I : Inv w0 ch0 st ch) {name : Bytes} (hn : ∃ cs, Holds (Str.create name) cs ∧ IsName cs) (sys pub : Option Bytes) :
    ∃ st' ch', step st (.doctype name sys pub) = .ok st' ∧ Inv w0 ch0 st' ch' ∧ st'.current = st.current ∧ st'.isCdata = st.isCdata ∧
    ((Takes st ch st.doc .doctype ∧ Grew st ch st.doc (.doctype name (some (sys.getD [], pub.getD []))) st' ch') ∨
     (¬ Takes st ch st.doc .doctype ∧ ch' = ch ∧ Same st st' 1)) := by
  obtain ⟨dn, hd, hdt⟩ := I.base.docNode
  rcases doctypeTree_run I.base I.refs I.here hn with ⟨h1, w', ch', h2, G, h3, h4, h5⟩ | ⟨h1, h2, h3, h4, h5⟩
  · refine ⟨_, ch', onTree_ok h2, ⟨h3, h4, h5⟩, rfl, rfl, .inl ⟨(takes_iff I hd).1 h1, G.lists, ?_, ?_, G.fresh, rfl, rfl, rfl⟩⟩
    · obtain ⟨m, g1, g2, _⟩ := G.new
      refine label_add (d := some (sys.getD [], pub.getD [])) ⟨m, g1, g2⟩ rfl ?_ rfl
      show (if st.w.fresh = st.w.fresh then _ else _) = _
      rw [if_pos rfl]; rfl
    · intro j hj
      refine label_data (G.data j hj) rfl ?_
      show (if j = st.w.fresh then _ else st.ids j) = _
      rw [if_neg hj]
  · exact ⟨_, ch, onTree_ok h2, ⟨h3, h4, h5⟩, rfl, rfl, .inr ⟨fun h => h1 ((takes_iff I hd).2 h), rfl, fun j => label_data rfl rfl rfl, Nat.le_succ _, rfl, rfl⟩⟩

end Dom.Xml
