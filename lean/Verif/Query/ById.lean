import Verif.Query.Lookup
import Verif.Trav.Props
/-!
# C33, C63: the search for an id with the id read from the attributes; declaring ID attributes

`Verif.Trav` has the walk of getElementById with the comparison of the id as a parameter.  Here the comparison is the code's: the id of an element
is read from its attributes (the attribute model, where the address of an element is its node).
-/
set_option linter.unusedSimpArgs false
set_option linter.unusedVariables false
attribute [-simp] String.length_utf8EncodeChar
namespace Dom.Query

open Dom.Attr (M Mem ANode Elem liftOut getAttr getId setIdAttr Inv view reading entriesOf Op Res lookup settle valueOf)
open Dom.Tree hiding M Res
open Dom.Str (DStr Bytes contents)
open Dom.Trav (member docElement findUp rd)

/-! ## Model -/

/-- The comparison inside `_dom_find_element_by_id`, src/core/document.c:1431-1442; the exception of `_dom_element_get_id` is ignored and the id then
NULL. -/
def idMatches (id : Option DStr) (x : NodeId) : M Bool := fun s =>
  match getId x s with
  | .ok s' (some r) => .ok s' (Str.isEqual (some r) id)
  | .ok s' none => .ok s' false
  | .exc s' _ => .ok s' false
  | .fault f => .fault f

/-- The loop of `_dom_find_element_by_id`, src/core/document.c:1429-1464. -/
def searchLoop (id : Option DStr) (w : World) (root : NodeId) : Nat → Option NodeId → M (Option NodeId)
  | _, none => pure none
  | 0, some _ => Attr.M.crash .diverge
  | f + 1, some node => do
    let n ← liftOut (rd w node)
    let m ← (if n.type == .element then idMatches id node else pure false)
    if m then pure (some node)
    else do
      let nx ← liftOut (if n.first.isSome then .ok n.first else findUp w root (w.fresh + 2) (some node))
      searchLoop id w root f nx

/-- `_dom_find_element_by_id`, src/core/document.c:1422-1467. -/
def search (id : Option DStr) (w : World) (root : Option NodeId) : M (Option NodeId) :=
  match root with
  | none => pure none
  | some r => searchLoop id w r (w.fresh + 1) (some r)

/-- `_dom_document_get_element_by_id`, src/core/document.c:874-893. -/
def getElementById (id : Option DStr) (w : World) (doc : NodeId) : M (Option NodeId) := do
  let root ← liftOut (docElement w doc)
  search id w root

/-! ## Specification -/

/-- The name of the attribute that holds the id of an element: the one declared for the element, else that of the document. -/
def idKey (s : Mem) (el : Elem) : Option (Option DStr × DStr) :=
  match el.idName with
  | some n => some (el.idNs, n)
  | none => (s.idName el.owner).map fun n => (none, n)

/-- The id of an element: the value of that attribute.  There is none without such an attribute, or if its value cannot be read. -/
def idOf (s : Mem) (x : NodeId) : Option Bytes := do
  let el ← s.elems x
  let k ← idKey s el
  let r ← reading s (entriesOf s x) k.1 k.2
  r

/-- Nothing about attributes that can be read has changed. -/
structure Kept (s s' : Mem) : Prop where
  elems : s'.elems = s.elems
  names : s'.idName = s.idName
  lists : ∀ e, entriesOf s' e = entriesOf s e
  values : ∀ e ns name, reading s' (entriesOf s' e) ns name = reading s (entriesOf s e) ns name

variable {w : World} {ch : Children} {s s' : Mem} {ls : Attr.Addr → List Attr.Addr} {x a : NodeId} {n : ANode} {el : Elem} {order : NodeId → List NodeId}

theorem Kept.refl (s : Mem) : Kept s s := ⟨rfl, rfl, fun _ => rfl, fun _ _ _ => rfl⟩

theorem Kept.trans {s1 s2 s3 : Mem} (h : Kept s1 s2) (h' : Kept s2 s3) : Kept s1 s3 :=
  ⟨h'.elems.trans h.elems, h'.names.trans h.names, fun e => (h'.lists e).trans (h.lists e), fun e ns name => (h'.values e ns name).trans (h.values e ns name)⟩

theorem Kept.same (h : Kept s s') (x : NodeId) : idOf s' x = idOf s x := by
  unfold idOf idKey
  rw [h.elems, h.names]
  simp only [h.values]

/-- Changing an attribute node without changing its value. -/
theorem reading_setA (hI : Inv s ls) (ha : s.attrs a = some n) {n' : ANode} (hp : n'.parent = n.parent) (hv : valueOf n' = valueOf n) :
    Kept s (s.setA a n') ∧ Inv (s.setA a n') ls := by
  have hI' := hI.setA ha hp
  have hl : ∀ e, entriesOf (s.setA a n') e = entriesOf s e := by
    intro e; rw [Attr.entriesOf_eq hI', Attr.entriesOf_eq hI]; rfl
  refine ⟨⟨rfl, rfl, hl, fun e ns name => ?_⟩, hI'⟩
  unfold reading
  rw [hl]
  congr 1
  funext k
  by_cases hk : k.attr = a
  · simp [hk, ha, hv]
  · simp [hk]

/-- Reading an attribute. -/
theorem getAttr_run (hI : Inv s ls) (he : s.elems x = some el) (ns : Option DStr) (name : DStr) : ∃ s', Kept s s' ∧ Inv s' ls ∧
    (match reading s (entriesOf s x) ns name with
     | none => getAttr x ns name s = .ok s' none
     | some (some b) => ∃ v : DStr, getAttr x ns name s = .ok s' (some v) ∧ v.data = b
     | some none => getAttr x ns name s = .exc s' .notSupported) := by
  rw [Attr.entriesOf_eq hI]
  cases hl : lookup (view s (ls x)) ns name with
  | none =>
    refine ⟨s, Kept.refl s, hI, ?_⟩
    unfold reading; rw [hl]
    exact Attr.getAttr_none hI he hl
  | some en =>
    obtain ⟨n, h1, h2, h3⟩ := Attr.getAttr_some hI he hl
    obtain ⟨h4, h5⟩ := reading_setA hI h1 (n' := settle n) Attr.settle_fields.1 Attr.valueOf_settle
    refine ⟨_, h4, h5, ?_⟩
    unfold reading
    rw [hl]
    simp only [Option.map_some, h1, Option.bind_some]
    cases hv : valueOf n with
    | none => rw [hv] at h3; exact h3
    | some b => rw [hv] at h3; exact h3

/-- What `_dom_element_get_id` gives. -/
theorem getId_run (hI : Inv s ls) (he : s.elems x = some el) : ∃ s', Kept s s' ∧ Inv s' ls ∧
    (match idOf s x with
     | some b => ∃ v : DStr, getId x s = .ok s' (some v) ∧ v.data = b
     | none => getId x s = .ok s' none ∨ getId x s = .exc s' .notSupported) := by
  have fin : ∀ ns name, idKey s el = some (ns, name) → getId x s = getAttr x ns name s → ∃ s', Kept s s' ∧ Inv s' ls ∧
      (match idOf s x with
       | some b => ∃ v : DStr, getId x s = .ok s' (some v) ∧ v.data = b
       | none => getId x s = .ok s' none ∨ getId x s = .exc s' .notSupported) := by
    intro ns name hk hg
    obtain ⟨s', h1, h2, h3⟩ := getAttr_run hI he ns name
    refine ⟨s', h1, h2, ?_⟩
    have hid : idOf s x = (reading s (entriesOf s x) ns name).bind fun r => r := by
      unfold idOf
      simp only [Option.bind_eq_bind, he, Option.bind_some, hk]
    rw [hid, hg]
    cases hr : reading s (entriesOf s x) ns name with
    | none => rw [hr] at h3; exact Or.inl h3
    | some o =>
      rw [hr] at h3
      cases o with
      | none => exact Or.inr h3
      | some b => exact h3
  have hgo : getId x s = (match el.idNs, el.idName with
    | some ns, some n => getAttr x (some ns) n
    | _, some n => getAttr x none n
    | _, none => fun s =>
      match s.idName el.owner with
      | none => .ok s none
      | some n => getAttr x none n s : M (Option DStr)) s := by
    unfold getId
    rw [Attr.getElem_bind he]
    rfl
  cases hn : el.idName with
  | some n =>
    refine fin el.idNs n (by unfold idKey; rw [hn]) ?_
    rw [hgo, hn]
    cases el.idNs <;> rfl
  | none =>
    rw [hn] at hgo
    cases hd : s.idName el.owner with
    | some n =>
      refine fin none n (by unfold idKey; rw [hn, hd]; rfl) ?_
      rw [hgo]
      cases el.idNs <;> simp only [hd]
    | none =>
      refine ⟨s, Kept.refl s, hI, ?_⟩
      have hid : idOf s x = none := by
        unfold idOf idKey
        simp only [Option.bind_eq_bind, he, Option.bind_some, hn, hd, Option.map_none, Option.bind_none]
      rw [hid]
      left
      rw [hgo]
      cases el.idNs <;> simp only [hd]

/-- The comparison of the id. -/
def idTest (s : Mem) (id : Option DStr) (x : NodeId) : Bool := decide (idOf s x = some (contents id))

theorem idMatches_run (hI : Inv s ls) (he : s.elems x = some el) (id : Option DStr) :
    ∃ s', Kept s s' ∧ Inv s' ls ∧ idMatches id x s = .ok s' (idTest s id x) := by
  obtain ⟨s', h1, h2, h3⟩ := getId_run hI he
  refine ⟨s', h1, h2, ?_⟩
  unfold idMatches idTest
  cases hid : idOf s x with
  | none =>
    rw [hid] at h3
    rcases h3 with h3 | h3 <;> rw [h3] <;> simp
  | some b =>
    rw [hid] at h3
    obtain ⟨v, h3, h4⟩ := h3
    rw [h3]
    have : Str.isEqual (some v) id = decide (some b = some (contents id)) := by
      refine Bool.eq_iff_iff.2 ?_
      rw [Str.C06_isEqual_iff, decide_eq_true_eq, ← h4]
      exact ⟨fun h => congrArg some h, fun h => Option.some.inj h⟩
    rw [← this]

/-- The walk with the ids read from the attributes is the walk with the ids known beforehand. -/
theorem searchLoop_run {s0 : Mem} {root : NodeId} (hcov : ∀ x n, w.nodes x = some n → n.type = .element → s0.elems x ≠ none) (id : Option DStr) :
    ∀ f o s, Kept s0 s → Inv s ls →
      match Trav.findLoop (idTest s0 id) w root f o with
      | .ok r => ∃ s', Kept s0 s' ∧ Inv s' ls ∧ searchLoop id w root f o s = .ok s' r
      | .exc _ => True
      | .fault e => searchLoop id w root f o s = .fault e := by
  intro f
  induction f with
  | zero =>
    intro o s hk hI
    cases o with
    | none => exact ⟨s, hk, hI, rfl⟩
    | some x => rfl
  | succ f ih =>
    intro o s hk hI
    cases o with
    | none => exact ⟨s, hk, hI, rfl⟩
    | some x =>
      unfold Trav.findLoop searchLoop
      cases hx : w.nodes x with
      | none =>
        have h1 : rd w x = .fault .useAfterFree := by unfold rd; rw [hx]
        rw [h1]
        rfl
      | some n =>
        have h1 : rd w x = .ok n := by unfold rd; rw [hx]
        rw [h1, Out.bind_ok, Attr.bind_ok (Attr.liftOut_ok rfl)]
        have key : ∃ s1, Kept s0 s1 ∧ Inv s1 ls ∧ (if (n.type == .element) = true then idMatches id x else pure false : M Bool) s =
            .ok s1 (n.type == .element && idTest s0 id x) := by
          by_cases ht : n.type = .element
          · have hb : (n.type == NodeType.element) = true := by rw [ht]; rfl
            cases he : s.elems x with
            | none => exact absurd (hk.elems ▸ he) (hcov x n hx ht)
            | some el =>
              obtain ⟨s1, g1, g2, g3⟩ := idMatches_run hI he id
              refine ⟨s1, hk.trans g1, g2, ?_⟩
              rw [if_pos hb, hb, g3]
              unfold idTest
              rw [hk.same]
              rfl
          · have hb : (n.type == NodeType.element) = false := by
              cases h : n.type <;> first | rfl | exact absurd h ht
            refine ⟨s, hk, hI, ?_⟩
            rw [hb]; rfl
        obtain ⟨s1, k1, i1, e1⟩ := key
        rw [Attr.bind_ok e1]
        cases hm : (n.type == NodeType.element && idTest s0 id x) with
        | true =>
          simp only [if_true]
          exact ⟨s1, k1, i1, rfl⟩
        | false =>
          simp only [Bool.false_eq_true, if_false]
          cases hnx : (if n.first.isSome = true then Out.ok n.first else findUp w root (w.fresh + 2) (some x)) with
          | ok nx =>
            rw [Out.bind_ok, Attr.bind_ok (Attr.liftOut_ok rfl)]
            exact ih nx s1 k1 i1
          | exc e => trivial
          | fault e => rfl

/-! ## C33 -/

/-- C33 with the ids the attributes hold.  In a Document with at most one Element child the call gives the first element, in document order, whose id
(the value of the attribute declared as ID for the element, else of the document's id attribute) has exactly these bytes, and null exactly when there is none.
No attribute reads differently afterwards.

Missing from the full claim: a Document with two Element children (`Trav.C33_two_roots_violated`). -/
theorem C33_by_id_partial (hW : WF w ch) (hd : DocOrder ch order) {doc : NodeId} {dn : Node} (hdoc : w.nodes doc = some dn) (hty : dn.type = .document)
    (hone : ((ch doc).filter (member w fun _ => true)).length ≤ 1) (hs : Attr.Reach s)
    (hcov : ∀ x n, w.nodes x = some n → n.type = .element → s.elems x ≠ none) (id : Option DStr) :
    ∃ s', Kept s s' ∧ getElementById id w doc s = .ok s' (match (ch doc).find? (member w fun _ => true) with
      | none => none
      | some r => (order r).find? (member w fun x => decide (idOf s x = some (contents id)))) := by
  obtain ⟨ls, hg⟩ := hs.good
  suffices key : ∀ res, Trav.getElementById (idTest s id) w doc = .ok res → ∃ s', Kept s s' ∧ getElementById id w doc s = .ok s' res from
    key _ (Trav.C33_search_partial hW hd hdoc hty hone (idTest s id))
  intro res h
  unfold Trav.getElementById at h
  unfold getElementById
  cases hde : docElement w doc with
  | exc e => rw [hde] at h; cases h
  | fault e => rw [hde] at h; cases h
  | ok root =>
    rw [hde, Out.bind_ok] at h
    rw [Attr.bind_ok (Attr.liftOut_ok rfl)]
    cases root with
    | none =>
      simp only [Trav.findById] at h
      cases h
      exact ⟨s, Kept.refl s, rfl⟩
    | some r =>
      simp only [Trav.findById] at h
      have := searchLoop_run (root := r) hcov id (w.fresh + 1) (some r) s (Kept.refl s) hg.inv
      rw [h] at this
      obtain ⟨s', h1, _, h3⟩ := this
      exact ⟨s', h1, h3⟩

/-! ## C63: declaring ID attributes -/

/-- The attribute node an access by name finds. -/
def found (s : Mem) (e : NodeId) (ns : Option DStr) (name : DStr) : Option Attr.Addr := (lookup (entriesOf s e) ns name).map (·.attr)

/-- The attribute node is marked as an ID. -/
def marked (s : Mem) (a : Attr.Addr) : Bool := (s.attrs a).any (·.isId)

theorem find_run (hI : Inv s ls) (he : s.elems x = some el) (ns : Option DStr) (name : DStr) :
    (found s x ns name = none ∧ Attr.findByName el.attributes name ns s = .ok s none) ∨
    ∃ c y n, found s x ns name = some y.attr ∧ Attr.findByName el.attributes name ns s = .ok s (some c) ∧ s.cells c = some y ∧ s.attrs y.attr = some n := by
  unfold found
  rw [Attr.entriesOf_eq hI, Attr.findByName_run hI he]
  rcases Attr.find_cases hI x ns name with ⟨h1, h2⟩ | ⟨c, y, n, pre, suf, h1, h2, _, h3, h4, _⟩
  · left; rw [h1, h2]; exact ⟨rfl, rfl⟩
  · right; exact ⟨c, y, n, by rw [h2]; rfl, by rw [h1], h3, h4⟩

/-- C63: declaring an attribute the element does not have is refused with NOT_FOUND, and nothing changes. -/
theorem C63_not_found (hs : Attr.Reach s) (he : s.elems x = some el) {ns : Option DStr} {name : DStr} (hf : found s x ns name = none) (b : Bool) :
    setIdAttr x ns name b s = .exc s .notFound := by
  obtain ⟨ls, hg⟩ := hs.good
  rcases find_run hg.inv he ns name with ⟨_, h⟩ | ⟨c, y, n, h, _⟩
  · unfold setIdAttr
    rw [Attr.getElem_bind he, Attr.bind_ok h]
    rfl
  · rw [hf] at h; cases h

/-- Marking or unmarking an attribute node changes no value. -/
theorem Kept.mark (hI : Inv s ls) (ha : s.attrs a = some n) (b : Bool) : Kept s (s.setA a { n with isId := b }) ∧ Inv (s.setA a { n with isId := b }) ls :=
  reading_setA hI ha rfl rfl

/-- Changing which attribute of an element is its ID changes no value. -/
theorem setE_keeps (hI : Inv s ls) (he : s.elems x = some el) {el' : Elem} (h : el'.attributes = el.attributes) :
    Inv (s.setE x el') ls ∧ (∀ e, entriesOf (s.setE x el') e = entriesOf s e) ∧
    ∀ e ns name, reading (s.setE x el') (entriesOf (s.setE x el') e) ns name = reading s (entriesOf s e) ns name := by
  have hI' : Inv (s.setE x el') ls := by
    refine hI.keep rfl (fun j => ?_) (fun a n e h1 h2 => ⟨n, h1, h2⟩) (Nat.le_refl _) (fun a n h => hI.bndA h)
    show (if j = x then some el' else s.elems j).map Elem.attributes = _
    by_cases hj : j = x
    · subst hj; rw [if_pos rfl, he]; simp only [Option.map_some, h]
    · rw [if_neg hj]
  have hl : ∀ e, entriesOf (s.setE x el') e = entriesOf s e := by
    intro e; rw [Attr.entriesOf_eq hI', Attr.entriesOf_eq hI]; rfl
  refine ⟨hI', hl, fun e ns name => ?_⟩
  rw [hl]; rfl

theorem marked_setA (s : Mem) (a b : Attr.Addr) (n : ANode) : marked (s.setA a n) b = if b = a then n.isId else marked s b := by
  unfold marked
  show ((if b = a then some n else s.attrs b).any fun n => n.isId) = _
  split <;> rfl

/-- C63: declaring an attribute of the element as ID makes its value the id of the element and marks its node; the attribute that was declared before
loses its mark.  No other mark, no value and no id of another element changes. -/
theorem C63_declare (hs : Attr.Reach s) (he : s.elems x = some el) {ns : Option DStr} {name : DStr} {a : Attr.Addr} (hf : found s x ns name = some a) :
    ∃ s', setIdAttr x ns name true s = .ok s' () ∧ idOf s' x = (reading s (entriesOf s x) ns name).bind (fun r => r) ∧ (∀ y, y ≠ x → idOf s' y = idOf s y) ∧
      (∀ e ns name, reading s' (entriesOf s' e) ns name = reading s (entriesOf s e) ns name) ∧ marked s' a = true ∧
      ∀ b, b ≠ a → marked s' b = if el.idName.bind (found s x el.idNs) = some b then false else marked s b := by
  obtain ⟨ls, hg⟩ := hs.good
  rcases find_run hg.inv he ns name with ⟨h, _⟩ | ⟨c, y, n, h1, h2, h3, h4⟩
  · rw [hf] at h; cases h
  rw [hf] at h1; injection h1 with h1; subst h1
  -- the old one
  have old : ∃ s1, (match el.idName with
       | none => pure ()
       | some idn => do
         let o ← Attr.findByName el.attributes idn el.idNs
         match o with
         | none => pure ()
         | some oc => do
           let ox ← Attr.getCell oc
           Attr.modANode ox.attr fun n => { n with isId := false } : M Unit) s = .ok s1 () ∧ Kept s s1 ∧ Inv s1 ls ∧ s1.cells = s.cells ∧
      (∀ b, marked s1 b = if el.idName.bind (found s x el.idNs) = some b then false else marked s b) ∧ ∃ n1, s1.attrs y.attr = some n1 := by
    cases hn : el.idName with
    | none => exact ⟨s, rfl, Kept.refl s, hg.inv, rfl, fun b => by simp, n, h4⟩
    | some idn =>
      dsimp only
      rcases find_run hg.inv he el.idNs idn with ⟨g, g'⟩ | ⟨oc, oy, m, g1, g2, g3, g4⟩
      · rw [Attr.bind_ok g']
        exact ⟨s, rfl, Kept.refl s, hg.inv, rfl, fun b => by simp [g], n, h4⟩
      · rw [Attr.bind_ok g2]
        dsimp only
        rw [Attr.getCell_bind g3, Attr.modANode_run g4]
        obtain ⟨k1, k2⟩ := Kept.mark hg.inv g4 false
        refine ⟨_, rfl, k1, k2, rfl, fun b => ?_, ?_⟩
        · rw [marked_setA, Option.bind_some, g1]
          by_cases hb : b = oy.attr
          · simp [hb]
          · simp [hb, Ne.symm hb]
        · by_cases hb : y.attr = oy.attr
          · exact ⟨{ m with isId := false }, by simp [hb]⟩
          · exact ⟨n, by simp [hb, h4]⟩
  obtain ⟨s1, e1, k1, i1, c1, m1, n1, a1⟩ := old
  have he1 : s1.elems x = some el := by rw [k1.elems]; exact he
  obtain ⟨i2, l2, r2⟩ := setE_keeps i1 he1 (el' := { el with idName := some name, idNs := ns }) rfl
  obtain ⟨k3, i3⟩ := Kept.mark i2 (a := y.attr) (n := n1) a1 true
  refine ⟨(s1.setE x { el with idName := some name, idNs := ns }).setA y.attr { n1 with isId := true }, ?_, ?_, ?_, ?_, ?_, ?_⟩
  · unfold setIdAttr
    rw [Attr.getElem_bind he, Attr.bind_ok h2]
    simp only [if_true]
    refine (Attr.bind_ok (s' := s1.setE x { el with idName := some name, idNs := ns }) (r := ()) ?_ _).trans ?_
    · exact (Attr.bind_ok e1 _).trans (Attr.modElem_run he1 _)
    rw [Attr.getCell_bind (x := y) (by show s1.cells c = some y; rw [c1]; exact h3)]
    exact Attr.modANode_run (show (s1.setE x _).attrs y.attr = some n1 from a1) _
  · rw [k3.same]
    unfold idOf idKey
    have : (s1.setE x { el with idName := some name, idNs := ns }).elems x = some { el with idName := some name, idNs := ns } := by simp
    simp only [this, Option.bind_eq_bind, Option.bind_some]
    rw [r2, k1.values]
  · intro z hz
    rw [k3.same]
    have hz' : (s1.setE x { el with idName := some name, idNs := ns }).elems z = s1.elems z := by simp [hz]
    have : idOf (s1.setE x { el with idName := some name, idNs := ns }) z = idOf s1 z := by
      unfold idOf idKey
      rw [hz']
      simp only [r2]
      rfl
    rw [this, k1.same]
  · intro e ns' name'
    rw [k3.values, r2, k1.values]
  · rw [marked_setA]; simp
  · intro b hb
    rw [marked_setA, if_neg hb]
    exact m1 b

/-- What "undeclaring" does: the mark of the node goes, but the id of every element stays as it was. -/
theorem undeclare_run (hs : Attr.Reach s) (he : s.elems x = some el) {ns : Option DStr} {name : DStr} {a : Attr.Addr} (hf : found s x ns name = some a) :
    ∃ s', setIdAttr x ns name false s = .ok s' () ∧ Kept s s' ∧ (∀ y, idOf s' y = idOf s y) ∧ marked s' a = false ∧ ∀ b, b ≠ a → marked s' b = marked s b := by
  obtain ⟨ls, hg⟩ := hs.good
  rcases find_run hg.inv he ns name with ⟨h, _⟩ | ⟨c, y, n, h1, h2, h3, h4⟩
  · rw [hf] at h; cases h
  rw [hf] at h1; injection h1 with h1; subst h1
  obtain ⟨k1, k2⟩ := Kept.mark hg.inv h4 false
  refine ⟨s.setA y.attr { n with isId := false }, ?_, k1, k1.same, ?_, fun b hb => ?_⟩
  · unfold setIdAttr
    rw [Attr.getElem_bind he, Attr.bind_ok h2]
    simp only [Bool.false_eq_true, if_false]
    rw [Attr.pure_bind', Attr.getCell_bind h3]
    exact Attr.modANode_run h4 _
  · rw [marked_setA]; simp
  · rw [marked_setA, if_neg hb]

/-! ## Concrete cases -/

/-- The attribute memory of documents whose id attribute is "id", src/core/document.c:158-159. -/
def idStart : Mem := { Attr.empty with idName := fun _ => some (Names.lit "id") }

theorem exists_ids (ops : List Op) (check : Mem → Bool) (h : (Attr.runFair ops idStart).any check = true) : ∃ s, Attr.Reach s ∧ check s = true := by
  cases hr : Attr.runFair ops idStart with
  | none => rw [hr] at h; cases h
  | some s => rw [hr] at h; exact ⟨s, Attr.reach_runFair ops idStart s (.start Attr.empty_blank) hr, h⟩

/-- `<a><b id="x"/><c id="y" key="k"/></a>`: document 0, elements 1, 2 and 3. -/
def idCalls : List Call := [.createDocument, .createNode 0 .element (some (Names.lit "a")) none, .createNode 0 .element (some (Names.lit "b")) none,
  .createNode 0 .element (some (Names.lit "c")) none, .appendChild 0 1, .appendChild 1 2, .appendChild 1 3]

/-- Its attributes. -/
def idOps : List Op := [.newElem 1 { owner := 0 }, .newElem 2 { owner := 0 }, .newElem 3 { owner := 0 },
  .set 2 none (Names.lit "id") (some (Names.lit "x")), .set 3 none (Names.lit "id") (some (Names.lit "y")), .set 3 none (Names.lit "key") (some (Names.lit "k"))]

/-- Run two calls. -/
def andThen {α β : Type} (r : Res α) (f : Mem → Res β) : Res β :=
  match r with
  | .ok s _ => f s
  | .exc s e => .exc s e
  | .fault e => .fault e

theorem of_andThen {α β : Type} [DecidableEq β] {r : Res α} {f : Mem → Res β} {b : β} (h : (andThen r f).gives b = true) :
    ∃ s a, r = .ok s a ∧ (f s).gives b = true := by
  cases r with
  | ok s a => exact ⟨s, a, rfl, h⟩
  | exc s e => cases h
  | fault e => cases h

/-- The search at work: by the id attribute of the document, and after `key` has been declared as ID at element 3 by that. -/
example : ∃ w s, Reach (fun w c => c.Ok w) w ∧ Attr.Reach s ∧ (∃ s', getElementById (some (Names.lit "y")) w 0 s = .ok s' (some 3)) ∧
    (∃ s', getElementById (some (Names.lit "k")) w 0 s = .ok s' none) ∧
    ∃ s1, setIdAttr 3 none (Names.lit "key") true s = .ok s1 () ∧ ∃ s', getElementById (some (Names.lit "k")) w 0 s1 = .ok s' (some 3) := by
  obtain ⟨w, h1, h2⟩ := exists_ok idCalls (fun w => (Attr.runFair idOps idStart).any fun s => (getElementById (some (Names.lit "y")) w 0 s).gives (some 3) &&
    (getElementById (some (Names.lit "k")) w 0 s).gives none &&
    (andThen (setIdAttr 3 none (Names.lit "key") true s) fun s1 => getElementById (some (Names.lit "k")) w 0 s1).gives (some 3)) (by decide +kernel)
  obtain ⟨s, h3, h4⟩ := exists_ids idOps _ h2
  simp only [Bool.and_eq_true] at h4
  obtain ⟨⟨g1, g2⟩, g3⟩ := h4
  obtain ⟨s1, a, g4, g5⟩ := of_andThen g3
  cases a
  exact ⟨w, s, h1, h3, Attr.Res.of_gives g1, Attr.Res.of_gives g2, s1, g4, Attr.Res.of_gives g5⟩

/-- C63 is false of the code for undeclaring: after `key` has been declared as ID of element 3 and undeclared again, its value is still the id of the
element, and the id attribute of the document is not (src/core/element.c:2188-2202). -/
theorem C63_undeclare_violated : ∃ w s s1 s2, Reach (fun w c => c.Ok w) w ∧ Attr.Reach s ∧ setIdAttr 3 none (Names.lit "key") true s = .ok s1 () ∧
    setIdAttr 3 none (Names.lit "key") false s1 = .ok s2 () ∧ (∃ s', getElementById (some (Names.lit "k")) w 0 s2 = .ok s' (some 3)) ∧
    ∃ s', getElementById (some (Names.lit "y")) w 0 s2 = .ok s' none := by
  obtain ⟨w, h1, h2⟩ := exists_ok idCalls (fun w => (Attr.runFair idOps idStart).any fun s =>
    (andThen (setIdAttr 3 none (Names.lit "key") true s) fun s1 => andThen (setIdAttr 3 none (Names.lit "key") false s1) fun s2 =>
      andThen (getElementById (some (Names.lit "k")) w 0 s2) fun _ => getElementById (some (Names.lit "y")) w 0 s2).gives none &&
    (andThen (setIdAttr 3 none (Names.lit "key") true s) fun s1 => andThen (setIdAttr 3 none (Names.lit "key") false s1) fun s2 =>
      getElementById (some (Names.lit "k")) w 0 s2).gives (some 3)) (by decide +kernel)
  obtain ⟨s, h3, h4⟩ := exists_ids idOps _ h2
  simp only [Bool.and_eq_true] at h4
  obtain ⟨g1, g2⟩ := h4
  obtain ⟨s1, a, e1, g2⟩ := of_andThen g2
  obtain ⟨s2, a2, e2, g2⟩ := of_andThen g2
  obtain ⟨s1', a', e1', g1⟩ := of_andThen g1
  rw [e1] at e1'; cases e1'
  obtain ⟨s2', a2', e2', g1⟩ := of_andThen g1
  rw [e2] at e2'; cases e2'
  obtain ⟨_, _, _, g1⟩ := of_andThen g1
  cases a; cases a2
  exact ⟨w, s, s1, s2, h1, h3, e1, e2, Attr.Res.of_gives g2, Attr.Res.of_gives g1⟩

end Dom.Query
