import Verif.Html.Collect
import Verif.Html.PropsTable
import Verif.Tree.LifeViolations
/-!
# C35, C69: collections chosen by attributes, the collections of a document, its title and its body
-/
set_option linter.unusedSimpArgs false
set_option linter.unusedVariables false
attribute [-simp] String.length_utf8EncodeChar
namespace Dom.Html.Collect

open Dom.Attr (M Mem Elem liftOut getAttr getAttribute hasAttribute getId Inv entriesOf reading)
open Dom.Tree (World NodeId Node WF Children DocOrder)
open Dom.Str (DStr Bytes contents asciiLower)
open Dom.Trav (rd colNext docElement member colLenLoop colItemLoop colFindLoop colLength colItem colNamed C35_collection_partial)
open Dom.Html.Table (isTag tagged member_tag)
open Dom.Query (Kept idOf idKey)

variable {w : World} {ch : Children} {order : NodeId → List NodeId} {s s' s0 : Mem} {ls : Attr.Addr → List Attr.Addr} {x r doc : NodeId} {el : Elem}

/-! ## Specification -/

/-- The element has an attribute with this name and no namespace. -/
def hasAttrNamed (s : Mem) (name : String) (x : NodeId) : Bool := (reading s (entriesOf s x) none (Names.lit name)).isSome

/-- The value of the name attribute, as far as it can be read. -/
def nameOf (s : Mem) (x : NodeId) : Option Bytes := (reading s (entriesOf s x) none (Names.lit "name")).bind fun r => r

/-- The id or the name of the element consists of these bytes. -/
def calledBy (s : Mem) (b : Bytes) (x : NodeId) : Bool := decide (idOf s x = some b) || decide (nameOf s x = some b)

/-- The values of all attributes of the element can be read. -/
def Legible (s : Mem) (x : NodeId) : Prop := ∀ ns name, reading s (entriesOf s x) ns name ≠ some none

/-- The values of all attributes of all elements can be read. -/
def Readable (w : World) (s : Mem) : Prop := ∀ x n, w.nodes x = some n → n.type = .element → Legible s x

/-- What DOM says about the members of the collections of a document, but for the APPLET elements in `applets`. -/
def belongs (w : World) (s : Mem) (order : NodeId → List NodeId) : Which → NodeId → Bool
  | .images, x => tagged w "img" x
  | .forms, x => tagged w "form" x
  | .links, x => (tagged w "a" x || tagged w "area" x) && hasAttrNamed s "href" x
  | .anchors, x => tagged w "a" x && hasAttrNamed s "name" x
  | .applets, x => tagged w "object" x && (order x).any (tagged w "applet")

/-! ## Computations that change nothing one can read -/

/-- From every memory that reads as `s0`, `m` gives `a` and a memory that reads as `s0`. -/
def Runs (s0 : Mem) (ls : Attr.Addr → List Attr.Addr) {α : Type} (m : M α) (a : α) : Prop :=
  ∀ s, Kept s0 s → Inv s ls → ∃ s', Kept s0 s' ∧ Inv s' ls ∧ m s = .ok s' a

theorem Runs.pure {α : Type} (a : α) : Runs s0 ls (Pure.pure a : M α) a := fun s h hI => ⟨s, h, hI, rfl⟩

theorem Runs.out {α : Type} {o : Out α} {a : α} (h : o = .ok a) : Runs s0 ls (liftOut o) a := fun s hk hI => ⟨s, hk, hI, Attr.liftOut_ok h⟩

theorem Runs.bind {α β : Type} {m : M α} {k : α → M β} {a : α} {b : β} (h : Runs s0 ls m a) (h' : Runs s0 ls (k a) b) : Runs s0 ls (m >>= k) b := by
  intro s hk hI
  obtain ⟨s1, k1, i1, e1⟩ := h s hk hI
  obtain ⟨s2, k2, i2, e2⟩ := h' s1 k1 i1
  exact ⟨s2, k2, i2, by rw [Attr.bind_ok e1, e2]⟩

/-- The elements of the tree have attributes in the memory. -/
def Covers (w : World) (s : Mem) : Prop := ∀ x n, w.nodes x = some n → n.type = .element → s.elems x ≠ none

/-! ## The loops are those of `Verif.Trav` -/

section Loops
variable {ic nm : NodeId → M Bool} {p q : NodeId → Bool}

theorem accepts_run {n : Node} (hic : ∀ x n, w.nodes x = some n → n.type = .element → Runs s0 ls (ic x) (p x)) (hx : w.nodes x = some n) :
    Runs s0 ls (accepts ic x n) (n.type == .element && p x) := by
  unfold accepts
  by_cases ht : n.type = .element
  · have hb : (n.type == Tree.NodeType.element) = true := by rw [ht]; rfl
    rw [hb, if_pos rfl, Bool.true_and]
    exact hic x n hx ht
  · have hb : (n.type == Tree.NodeType.element) = false := by
      cases h : n.type <;> first | rfl | exact absurd h ht
    rw [hb]
    exact Runs.pure false

theorem rd_some {n : Node} (h : rd w x = .ok n) : w.nodes x = some n := by
  unfold rd at h
  cases hx : w.nodes x with
  | none => rw [hx] at h; cases h
  | some m => rw [hx] at h; cases h; rfl

theorem bind_split {α β : Type} {o : Out α} {k : α → Out β} {b : β} (h : (o >>= k) = .ok b) : ∃ a, o = .ok a ∧ k a = .ok b := by
  cases o with
  | ok a => exact ⟨a, rfl, h⟩
  | exc e => cases h
  | fault f => cases h

theorem lenLoop_run (hic : ∀ x n, w.nodes x = some n → n.type = .element → Runs s0 ls (ic x) (p x)) :
    ∀ f o len res, colLenLoop p w r f o len = .ok res → Runs s0 ls (lenLoop ic w r f o len) res := by
  intro f
  induction f with
  | zero =>
    intro o len res h
    cases o with
    | none => cases h; exact Runs.pure len
    | some x => cases h
  | succ f ih =>
    intro o len res h
    cases o with
    | none => cases h; exact Runs.pure len
    | some x =>
      unfold colLenLoop at h
      obtain ⟨n, h1, h⟩ := bind_split h
      obtain ⟨nx, h2, h⟩ := bind_split h
      unfold lenLoop
      exact (Runs.out h1).bind ((accepts_run hic (rd_some h1)).bind ((Runs.out h2).bind (ih _ _ _ h)))

theorem itemLoop_run (hic : ∀ x n, w.nodes x = some n → n.type = .element → Runs s0 ls (ic x) (p x)) (index : Nat) :
    ∀ f o len res, colItemLoop p w r index f o len = .ok res → Runs s0 ls (itemLoop ic w r index f o len) res := by
  intro f
  induction f with
  | zero =>
    intro o len res h
    cases o with
    | none => cases h; exact Runs.pure none
    | some x => cases h
  | succ f ih =>
    intro o len res h
    cases o with
    | none => cases h; exact Runs.pure none
    | some x =>
      unfold colItemLoop at h
      obtain ⟨n, h1, h⟩ := bind_split h
      unfold itemLoop
      refine (Runs.out h1).bind ((accepts_run hic (rd_some h1)).bind ?_)
      dsimp only at h ⊢
      split_ifs at h ⊢
      · cases h; exact Runs.pure _
      · obtain ⟨nx, h2, h⟩ := bind_split h
        exact (Runs.out h2).bind (ih _ _ _ h)
      · cases h; exact Runs.pure _
      · obtain ⟨nx, h2, h⟩ := bind_split h
        exact (Runs.out h2).bind (ih _ _ _ h)

theorem findLoop_run (hic : ∀ x n, w.nodes x = some n → n.type = .element → Runs s0 ls (ic x) (p x))
    (hnm : ∀ x n, w.nodes x = some n → n.type = .element → Runs s0 ls (nm x) (q x)) :
    ∀ f o res, colFindLoop p q w r f o = .ok res → Runs s0 ls (findLoop ic nm w r f o) res := by
  intro f
  induction f with
  | zero =>
    intro o res h
    cases o with
    | none => cases h; exact Runs.pure none
    | some x => cases h
  | succ f ih =>
    intro o res h
    cases o with
    | none => cases h; exact Runs.pure none
    | some x =>
      unfold colFindLoop at h
      obtain ⟨n, h1, h⟩ := bind_split h
      have hx := rd_some h1
      unfold findLoop
      refine (Runs.out h1).bind ((accepts_run hic hx).bind ?_)
      have hm : Runs s0 ls (if (n.type == .element && p x) = true then nm x else Pure.pure false : M Bool) (n.type == .element && p x && q x) := by
        cases hb : (n.type == Tree.NodeType.element && p x) with
        | false => simpa using Runs.pure (s0 := s0) (ls := ls) false
        | true =>
          have ht : n.type = .element := by
            cases h : n.type <;> rw [h] at hb <;> first | rfl | simp at hb
          simpa using hnm x n hx ht
      refine hm.bind ?_
      split_ifs at h ⊢
      · cases h; exact Runs.pure _
      · obtain ⟨nx, h2, h⟩ := bind_split h
        exact (Runs.out h2).bind (ih _ _ h)

end Loops

/-! ## Reading the attributes -/

theorem runs_getAttr (hc : s0.elems x ≠ none) (hr : Legible s0 x) (ns : Option DStr) (name : DStr) :
    ∃ v : Option DStr, v.map DStr.data = ((reading s0 (entriesOf s0 x) ns name).bind fun r => r) ∧
      ∀ s, Kept s0 s → Inv s ls → ∃ v' s', Kept s0 s' ∧ Inv s' ls ∧ getAttr x ns name s = .ok s' v' ∧ v'.map DStr.data = v.map DStr.data := by
  refine ⟨((reading s0 (entriesOf s0 x) ns name).bind fun r => r).map fun b => ⟨b, false⟩, ?_, fun s hk hI => ?_⟩
  · cases ((reading s0 (entriesOf s0 x) ns name).bind fun r => r) <;> rfl
  · cases he : s.elems x with
    | none => exact absurd (hk.elems ▸ he) hc
    | some el =>
      obtain ⟨s', k', i', h⟩ := Query.getAttr_run hI he ns name
      rw [hk.values] at h
      cases hv : reading s0 (entriesOf s0 x) ns name with
      | none => rw [hv] at h; exact ⟨none, s', hk.trans k', i', h, rfl⟩
      | some o =>
        cases o with
        | none => exact absurd hv (hr ns name)
        | some b =>
          rw [hv] at h
          obtain ⟨v, h1, h2⟩ := h
          exact ⟨some v, s', hk.trans k', i', h1, by simp [h2]⟩

theorem same_eq {name v : Option DStr} {o : Option Bytes} (h : v.map DStr.data = o) : same name v = decide (o = some (contents name)) := by
  subst h
  cases v with
  | none => simp [same]
  | some v =>
    refine Bool.eq_iff_iff.2 ?_
    simp only [same, Option.isSome_some, Bool.true_and, decide_eq_true_eq, Option.map_some, Option.some.injEq]
    rw [Str.C06_isEqual_iff]
    exact eq_comm

theorem runs_hasName (hc : s0.elems x ≠ none) (hr : Legible s0 x) (name : Option DStr) :
    Runs s0 ls (hasName name x) (decide (nameOf s0 x = some (contents name))) := by
  intro s hk hI
  obtain ⟨v, hv, h⟩ := runs_getAttr (ls := ls) hc hr none nameName
  obtain ⟨v', s', k', i', e, h'⟩ := h s hk hI
  refine ⟨s', k', i', ?_⟩
  unfold hasName
  rw [Attr.bind_ok e]
  show Attr.Res.ok s' _ = _
  rw [same_eq (h'.trans hv)]
  rfl

/-- `_dom_element_get_id` reads one attribute, or none at all. -/
theorem getId_eq (he : s.elems x = some el) : (∃ k, idKey s el = some k ∧ getId x s = getAttr x k.1 k.2 s) ∨ (idKey s el = none ∧ getId x s = .ok s none) := by
  have hgo : getId x s = (match el.idNs, el.idName with
    | some ns, some n => getAttr x (some ns) n
    | _, some n => getAttr x none n
    | _, none => fun s =>
      match s.idName el.owner with
      | none => .ok s none
      | some n => getAttr x none n s : M (Option DStr)) s := by
    unfold getId
    rw [Attr.getElem_bind he]
    rfl
  cases hn : el.idName with
  | some n =>
    refine .inl ⟨(el.idNs, n), by unfold idKey; rw [hn], ?_⟩
    rw [hgo, hn]
    cases el.idNs <;> rfl
  | none =>
    rw [hn] at hgo
    cases hd : s.idName el.owner with
    | some n =>
      refine .inl ⟨(none, n), by unfold idKey; rw [hn, hd]; rfl, ?_⟩
      rw [hgo]
      cases el.idNs <;> simp only [hd]
    | none =>
      refine .inr ⟨by unfold idKey; rw [hn, hd]; rfl, ?_⟩
      rw [hgo]
      cases el.idNs <;> simp only [hd]

theorem runs_named (hc : s0.elems x ≠ none) (hr : Legible s0 x) (name : Option DStr) : Runs s0 ls (named name x) (calledBy s0 (contents name) x) := by
  intro s hk hI
  cases he : s.elems x with
  | none => exact absurd (hk.elems ▸ he) hc
  | some el =>
    have hid : ∃ v' s', Kept s0 s' ∧ Inv s' ls ∧ getId x s = .ok s' v' ∧ v'.map DStr.data = idOf s0 x := by
      rw [← hk.same]
      have hval : ∀ k, idKey s el = k → idOf s x = k.bind fun k => (reading s (entriesOf s x) k.1 k.2).bind fun r => r := by
        intro k hkk
        unfold idOf
        simp only [Option.bind_eq_bind, he, Option.bind_some, hkk]
      rcases getId_eq he with ⟨k, h1, h2⟩ | ⟨h1, h2⟩
      · obtain ⟨v, hv, h⟩ := runs_getAttr (ls := ls) hc hr k.1 k.2
        obtain ⟨v', s', k', i', e, h'⟩ := h s hk hI
        refine ⟨v', s', k', i', h2.trans e, ?_⟩
        rw [hval _ h1, h', hv]
        simp only [Option.bind_some, hk.values]
      · exact ⟨none, s, hk, hI, h2, by rw [hval _ h1]; rfl⟩
    obtain ⟨v, s1, k1, i1, e1, hv⟩ := hid
    have := same_eq (name := name) hv
    unfold named
    rw [Attr.bind_ok e1]
    rw [this]
    unfold calledBy
    by_cases hb : idOf s0 x = some (contents name)
    · simp only [hb, decide_true, if_true, Bool.true_or]
      exact ⟨s1, k1, i1, rfl⟩
    · simp only [hb, decide_false, Bool.false_or, Bool.false_eq_true, if_false]
      exact runs_hasName hc hr name s1 k1 i1

/-! ## C35 -/

/-- C35 for collections whose test reads attributes, with the names read from the attributes.  If the test of the collection tells, for every element,
whether `p` holds, and every value can be read, then length and item count the elements with `p` in document order and namedItem gives the first of them
whose id or name attribute is the name, and null exactly when there is none.  Nothing reads differently afterwards.

Missing: a root without children that has a next sibling (`Trav.C35_empty_root_violated`), the index 2^32 - 1 (`Trav.C35_last_index_violated`), values
that cannot be read. -/
theorem C35_by_attributes_partial (hW : WF w ch) (hd : DocOrder ch order) {rn : Node} (hr : w.nodes r = some rn) (hroot : ch r ≠ [] ∨ rn.next = none)
    (hs : Attr.Reach s) (hc : Covers w s) (hread : Readable w s) (ic : NodeId → M Bool) (p : NodeId → Bool)
    (hic : ∀ ls x n, w.nodes x = some n → n.type = .element → Runs s ls (ic x) (p x)) :
    (∃ s', Kept s s' ∧ length ic w r s = .ok s' (((order r).filter (member w p)).length % 2 ^ 32)) ∧
    (∀ index, index < 2 ^ 32 - 1 → ∃ s', Kept s s' ∧ item ic w r index s = .ok s' ((order r).filter (member w p))[index]?) ∧
    (∀ name, ∃ s', Kept s s' ∧ namedItem ic w r name s = .ok s' ((order r).find? fun x => member w p x && calledBy s (contents name) x)) := by
  obtain ⟨ls, hg⟩ := hs.good
  refine ⟨?_, fun index hi => ?_, fun name => ?_⟩
  · obtain ⟨s', h1, _, h3⟩ := lenLoop_run (hic ls) _ _ _ _ (C35_collection_partial hW hd hr hroot p p).1 s (Kept.refl s) hg.inv
    exact ⟨s', h1, h3⟩
  · obtain ⟨s', h1, _, h3⟩ := itemLoop_run (hic ls) index _ _ _ _ ((C35_collection_partial hW hd hr hroot p p).2.1 index hi) s (Kept.refl s) hg.inv
    exact ⟨s', h1, h3⟩
  · obtain ⟨s', h1, _, h3⟩ := findLoop_run (hic ls) (fun x n hx ht => runs_named (hc x n hx ht) (hread x n hx ht) name) _ _ _
      (C35_collection_partial hW hd hr hroot p (calledBy s (contents name))).2.2 s (Kept.refl s) hg.inv
    exact ⟨s', h1, h3⟩

theorem fold_const (he : s.elems x = some el) {name : DStr} (hn : name.data.map asciiLower = name.data) :
    ∃ low, Attr.foldName x name s = .ok s low ∧ low.data = name.data := by
  cases hf : Attr.folds el with
  | true =>
    obtain ⟨low, h1, _, h3⟩ := Attr.foldName_html he hf name
    exact ⟨low, h1, h3.trans hn⟩
  | false => exact ⟨name, Attr.foldName_other he hf name, rfl⟩

theorem runs_folded (hc : s0.elems x ≠ none) (hr : Legible s0 x) (name : Option DStr) :
    Runs s0 ls (hasNameFolded name x) (decide (nameOf s0 x = some (contents name))) := by
  intro s hk hI
  cases he : s.elems x with
  | none => exact absurd (hk.elems ▸ he) hc
  | some el =>
    obtain ⟨low, h1, h2⟩ := fold_const he (name := nameName) (by decide +kernel)
    obtain ⟨v, hv, h⟩ := runs_getAttr (ls := ls) hc hr none low
    obtain ⟨v', s', k', i', e, h'⟩ := h s hk hI
    refine ⟨s', k', i', ?_⟩
    unfold hasNameFolded getAttribute
    rw [Attr.bind_ok ((Attr.bind_ok h1 _).trans e)]
    show Attr.Res.ok s' _ = _
    rw [same_eq (h'.trans hv), Attr.reading_data _ h2]
    rfl

/-- C35 for the options of a select: its namedItem is the same function.  (The second search of the code can find nothing the first one has not found.) -/
theorem C35_options_named_partial (hW : WF w ch) (hd : DocOrder ch order) {rn : Node} (hr : w.nodes r = some rn) (hroot : ch r ≠ [] ∨ rn.next = none)
    (hs : Attr.Reach s) (hc : Covers w s) (hread : Readable w s) (ic : NodeId → M Bool) (p : NodeId → Bool)
    (hic : ∀ ls x n, w.nodes x = some n → n.type = .element → Runs s ls (ic x) (p x)) (name : Option DStr) :
    ∃ s', Kept s s' ∧ optionsNamedItem ic w r name s = .ok s' ((order r).find? fun x => member w p x && calledBy s (contents name) x) := by
  obtain ⟨ls, hg⟩ := hs.good
  obtain ⟨s1, h1, h2, h3⟩ := findLoop_run (hic ls) (fun x n hx ht => runs_named (hc x n hx ht) (hread x n hx ht) name) _ _ _
    (C35_collection_partial hW hd hr hroot p (calledBy s (contents name))).2.2 s (Kept.refl s) hg.inv
  have h3 : namedItem ic w r name s = _ := h3
  unfold optionsNamedItem
  rw [h3]
  cases hf : (order r).find? (fun x => member w p x && calledBy s (contents name) x) with
  | some y => exact ⟨s1, h1, rfl⟩
  | none =>
    dsimp only
    have hn : (order r).find? (fun x => member w p x && decide (nameOf s x = some (contents name))) = none := by
      rw [List.find?_eq_none] at hf ⊢
      intro y hy h
      refine hf y hy ?_
      simp only [Bool.and_eq_true] at h ⊢
      exact ⟨h.1, by unfold calledBy; rw [h.2, Bool.or_true]⟩
    obtain ⟨s2, k2, _, e2⟩ := findLoop_run (hic ls) (fun x n hx ht => runs_folded (hc x n hx ht) (hread x n hx ht) name) _ _ _
      (C35_collection_partial hW hd hr hroot p fun x => decide (nameOf s x = some (contents name))).2.2 s1 h1 h2
    rw [hn] at e2
    exact ⟨s2, k2, e2⟩

/-! ## C69: the collections of a document -/

theorem runs_holdsAttr (hc : s0.elems x ≠ none) {name : DStr} (hn : name.data.map asciiLower = name.data) :
    Runs s0 ls (holdsAttr name x) (reading s0 (entriesOf s0 x) none name).isSome := by
  intro s hk hI
  cases he : s.elems x with
  | none => exact absurd (hk.elems ▸ he) hc
  | some el =>
    obtain ⟨low, h1, h2⟩ := fold_const he hn
    refine ⟨s, hk, hI, ?_⟩
    have h3 : hasAttribute x name s = .ok s (reading s0 (entriesOf s0 x) none name).isSome := by
      unfold hasAttribute
      rw [Attr.bind_ok h1, (Attr.C36_read hI he none low).1, Attr.reading_data _ h2, ← Attr.entriesOf_eq hI, hk.values]
    unfold holdsAttr
    rw [h3]

/-- An OBJECT has children, or is the last child of its parent (`C69_applets_crash_violated`). -/
def ObjectsOk (w : World) (ch : Children) : Prop := ∀ x n, w.nodes x = some n → tagged w "object" x = true → ch x ≠ [] ∨ n.next = none

theorem isTag_tagged {tag : DStr} {name : String} {n : Node} (h : tag.data.map asciiLower = name.toUTF8.toList) (hx : w.nodes x = some n) (ht : n.type = .element) :
    isTag tag w x = tagged w name x := by
  rw [← member_tag h]
  unfold member
  rw [hx]
  simp [ht]

theorem runs_hasApplet (hW : WF w ch) (hd : DocOrder ch order) {n : Node} (hx : w.nodes x = some n) (hroot : ch x ≠ [] ∨ n.next = none)
    (hlen : (order x).length < 2 ^ 32) : Runs s0 ls (hasApplet w x) ((order x).any (tagged w "applet")) := by
  intro s hk hI
  refine ⟨s, hk, hI, ?_⟩
  unfold hasApplet
  rw [(C35_collection_partial hW hd hx hroot (isTag appletName w) (fun _ => true)).1, member_tag (name := "applet") (by decide +kernel)]
  have h1 := List.length_filter_le (tagged w "applet") (order x)
  rw [Nat.mod_eq_of_lt (by omega)]
  dsimp only
  congr 1
  refine Bool.eq_iff_iff.2 ?_
  rw [decide_eq_true_eq, List.any_eq_true, Ne, List.length_eq_zero_iff, List.filter_eq_nil_iff]
  push Not
  rfl

theorem callback_run (hW : WF w ch) (hd : DocOrder ch order) (hc : Covers w s0) (k : Which) (hobj : k = .applets → ObjectsOk w ch)
    (hlen : ∀ x, w.nodes x ≠ none → (order x).length < 2 ^ 32) {n : Node} (hx : w.nodes x = some n) (ht : n.type = .element) :
    Runs s0 ls (callback w k x) (belongs w s0 order k x) := by
  cases k with
  | images => unfold callback belongs; dsimp only; rw [isTag_tagged (name := "img") (by decide +kernel) hx ht]; exact Runs.pure _
  | forms => unfold callback belongs; dsimp only; rw [isTag_tagged (name := "form") (by decide +kernel) hx ht]; exact Runs.pure _
  | links =>
    unfold callback belongs
    dsimp only
    rw [isTag_tagged (name := "a") (by decide +kernel) hx ht, isTag_tagged (name := "area") (by decide +kernel) hx ht]
    cases (tagged w "a" x || tagged w "area" x) with
    | false => exact Runs.pure false
    | true => exact runs_holdsAttr (hc x n hx ht) (name := hrefName) (by decide +kernel)
  | anchors =>
    unfold callback belongs
    dsimp only
    rw [isTag_tagged (name := "a") (by decide +kernel) hx ht]
    cases tagged w "a" x with
    | false => exact Runs.pure false
    | true => exact runs_holdsAttr (hc x n hx ht) (name := nameName) (by decide +kernel)
  | applets =>
    unfold callback belongs
    dsimp only
    rw [isTag_tagged (name := "object") (by decide +kernel) hx ht]
    cases hb : tagged w "object" x with
    | false => exact Runs.pure false
    | true => exact runs_hasApplet hW hd hx (hobj rfl x n hx hb) (hlen x (by rw [hx]; simp))

theorem member_belongs (k : Which) : member w (belongs w s order k) = belongs w s order k := by
  funext x
  unfold member
  cases hx : w.nodes x with
  | none => cases k <;> simp [belongs, tagged, hx]
  | some n =>
    cases ht : decide (n.type = .element) <;> cases k <;> simp [belongs, tagged, hx, ht]

/-- C69: images, links, anchors, forms and applets of a document hold exactly the elements `belongs` says, in document order.  Asking changes nothing.

Missing: a document without document element (`C69_no_root_violated`); a document element without children in front of a comment or processing
instruction; APPLET elements (`C69_applet_violated`); an OBJECT without children in front of another node (`C69_applets_crash_violated`). -/
theorem C69_collections_partial (hW : WF w ch) (hd : DocOrder ch order) {dn rn : Node} (hdoc : w.nodes doc = some dn)
    (hroot : (ch doc).find? (member w fun _ => true) = some r) (hr : w.nodes r = some rn) (hends : ch r ≠ [] ∨ rn.next = none)
    (hs : Attr.Reach s) (hc : Covers w s) (hread : Readable w s) (hlen : ∀ x, w.nodes x ≠ none → (order x).length < 2 ^ 32) (k : Which) (hobj : k = .applets → ObjectsOk w ch) :
    (∃ s', Kept s s' ∧ countOf k w doc s = .ok s' ((order r).filter (belongs w s order k)).length) ∧
    (∀ index, index < 2 ^ 32 - 1 → ∃ s', Kept s s' ∧ itemOf k w doc index s = .ok s' ((order r).filter (belongs w s order k))[index]?) ∧
    (∀ name, ∃ s', Kept s s' ∧ namedOf k w doc name s = .ok s' ((order r).find? fun x => belongs w s order k x && calledBy s (contents name) x)) := by
  have h := C35_by_attributes_partial hW hd hr hends hs hc hread (callback w k) (belongs w s order k)
    (fun ls x n hx ht => callback_run hW hd hc k hobj hlen hx ht)
  rw [member_belongs] at h
  have hro : root w doc = .ok r := by
    unfold root
    rw [Trav.docElement_run hW.toCore hdoc hd, hroot]
    rfl
  have h1 := List.length_filter_le (belongs w s order k) (order r)
  have h2 := hlen r (by rw [hr]; simp)
  rw [Nat.mod_eq_of_lt (by omega)] at h
  refine ⟨?_, fun index hi => ?_, fun name => ?_⟩
  · obtain ⟨s', k', e⟩ := h.1
    exact ⟨s', k', by unfold countOf; rw [Attr.bind_ok (Attr.liftOut_ok hro)]; exact e⟩
  · obtain ⟨s', k', e⟩ := h.2.1 index hi
    exact ⟨s', k', by unfold itemOf; rw [Attr.bind_ok (Attr.liftOut_ok hro)]; exact e⟩
  · obtain ⟨s', k', e⟩ := h.2.2 name
    exact ⟨s', k', by unfold namedOf; rw [Attr.bind_ok (Attr.liftOut_ok hro)]; exact e⟩

/-- C69 is violated without a document element: the assertion of the collection fails. -/
theorem C69_no_root_violated (hW : WF w ch) (hd : DocOrder ch order) {dn : Node} (hdoc : w.nodes doc = some dn)
    (hroot : (ch doc).find? (member w fun _ => true) = none) (k : Which) (s : Mem) : countOf k w doc s = .fault .assertFail := by
  have hro : root w doc = .fault .assertFail := by
    unfold root
    rw [Trav.docElement_run hW.toCore hdoc hd, hroot]
    rfl
  unfold countOf
  rw [hro]
  rfl

/-- C69 is violated by APPLET elements: DOM counts them among the applets of the document, the code never does. -/
theorem C69_applet_violated (h : tagged w "applet" x = true) (s : Mem) : callback w .applets x s = .ok s false := by
  unfold callback
  have : isTag objectName w x = false := by
    unfold tagged at h
    unfold isTag
    cases hx : w.nodes x with
    | none => rfl
    | some n =>
      rw [hx] at h
      simp only [Option.any_some, Bool.and_eq_true, decide_eq_true_eq] at h
      dsimp only
      cases hb : Str.caselessIsEqual n.name (some objectName) with
      | false => rfl
      | true =>
        rw [Table.caseless_eq, decide_eq_true_eq] at hb
        exact absurd (h.2.symm.trans hb) (by decide +kernel)
  dsimp only
  rw [this]
  rfl

/-! ## C69: title and body -/

theorem selects_tagged {tag : DStr} {name : String} (hn : tag.data.map asciiLower = name.toUTF8.toList) (h0 : name.toUTF8.toList ≠ []) (h1 : tag.data ≠ [0x2A]) :
    Trav.selects w (.byName tag true) = tagged w name := by
  funext x
  unfold Trav.selects tagged
  cases w.nodes x with
  | none => rfl
  | some n =>
    have hw : Trav.wild (some tag) = false := by simp [Trav.wild, h1]
    simp only [hw, Bool.false_or, Option.any_some]
    congr 1
    cases hm : n.name with
    | none => exact (decide_eq_false (fun h => h0 h.symm)).symm
    | some m => simp [contents, Trav.sameName, hn]

theorem first_of {tag : DStr} {name : String} (hW : WF w ch) (hd : DocOrder ch order) {dn : Node} (hdoc : w.nodes doc = some dn)
    (hn : tag.data.map asciiLower = name.toUTF8.toList) (h0 : name.toUTF8.toList ≠ []) (h1 : tag.data ≠ [0x2A]) (hlen : (order doc).length < 2 ^ 32) :
    (∀ y, (order doc).tail.find? (tagged w name) = some y →
      (∃ len, Trav.listLength (.byName tag true) w doc = .ok len ∧ len ≠ 0) ∧ Trav.listItem (.byName tag true) w doc 0 = .ok (some y)) ∧
    ((order doc).tail.find? (tagged w name) = none → Trav.listLength (.byName tag true) w doc = .ok 0) := by
  have e1 := Trav.C32_length hW hd hdoc (.byName tag true)
  have e2 := Trav.C32_item_partial hW hd hdoc (.byName tag true) trivial 0 (by decide)
  rw [selects_tagged hn h0 h1] at e1 e2
  have hsc : Trav.scope ch order doc (.byName tag true) = (order doc).tail := rfl
  rw [hsc] at e1 e2
  have hl := List.length_filter_le (tagged w name) (order doc).tail
  have hl2 : (order doc).tail.length ≤ (order doc).length := by simp
  rw [Nat.mod_eq_of_lt (by omega)] at e1
  have hh : ((order doc).tail.filter (tagged w name))[0]? = (order doc).tail.find? (tagged w name) := by
    rw [← List.head?_eq_getElem?, List.head?_filter]
  refine ⟨fun y hy => ⟨⟨_, e1, ?_⟩, ?_⟩, fun hnone => ?_⟩
  · intro h
    rw [List.length_eq_zero_iff] at h
    rw [h] at hh
    rw [hy] at hh
    cases hh
  · rw [e2, hh, hy]
  · rw [e1]
    have : (order doc).tail.filter (tagged w name) = [] := by
      rw [List.filter_eq_nil_iff]
      rw [List.find?_eq_none] at hnone
      exact hnone
    rw [this]
    rfl

/-- C69: the title that was set is the title; without one it is the text of the first TITLE element below the document in document order (the data of
the texts in it, in document order), and null exactly when there is no such element, or no text in it. -/
theorem C69_title (hW : WF w ch) (hd : DocOrder ch order) {dn : Node} (hdoc : w.nodes doc = some dn) (hlen : (order doc).length < 2 ^ 32) :
    (∀ t, getTitle (some t) w doc = .ok (some t)) ∧
    (match (order doc).tail.find? (tagged w "title") with
     | none => getTitle none w doc = .ok none
     | some y => ∃ t, getTitle none w doc = .ok t ∧ Tree.bytesOf t = ((order y).filter (Tree.holdsText w)).flatMap (Tree.dataBytes w) ∧
        ((order y).filter (Tree.holdsText w) = [] → t = none)) := by
  refine ⟨fun _ => rfl, ?_⟩
  have hf := first_of (tag := titleName) (name := "title") hW hd hdoc (by decide +kernel) (by decide +kernel) (by decide +kernel) hlen
  cases hy : (order doc).tail.find? (tagged w "title") with
  | none =>
    dsimp only
    unfold getTitle
    dsimp only
    rw [hf.2 hy]
    rfl
  | some y =>
    obtain ⟨⟨len, e1, hne⟩, e2⟩ := hf.1 y hy
    have ht := List.find?_some hy
    unfold tagged at ht
    obtain ⟨n, hn, ht⟩ := (Option.any_eq_true _ _).1 ht
    simp only [Bool.and_eq_true, decide_eq_true_eq] at ht
    obtain ⟨t, h1, h2⟩ := Tree.C30_read hW hd hn (by rw [ht.1]; simp) (by rw [ht.1]; simp) (by rw [ht.1]; simp)
    refine ⟨t, ?_, h2⟩
    unfold getTitle
    dsimp only
    rw [e1, Out.bind_ok, if_neg hne, e2]
    exact h1

/-- C69: the body is the one that was set, else the first BODY element below the document in document order, else the first FRAMESET element.

Missing: nothing is stored when there is neither (`C69_no_body_violated`), and the caller gets no reference on a body that was set
(`C69_body_released_violated`). -/
theorem C69_body_partial (hW : WF w ch) (hd : DocOrder ch order) {dn : Node} (hdoc : w.nodes doc = some dn) (hlen : (order doc).length < 2 ^ 32) :
    (∀ b, getBody (some b) w doc = .ok (.pointer (some b) false)) ∧
    (∀ y, (order doc).tail.find? (tagged w "body") = some y → getBody none w doc = .ok (.pointer (some y) true)) ∧
    (∀ y, (order doc).tail.find? (tagged w "body") = none → (order doc).tail.find? (tagged w "frameset") = some y →
      getBody none w doc = .ok (.pointer (some y) true)) := by
  have hb := first_of (tag := bodyName) (name := "body") hW hd hdoc (by decide +kernel) (by decide +kernel) (by decide +kernel) hlen
  have hf := first_of (tag := framesetName) (name := "frameset") hW hd hdoc (by decide +kernel) (by decide +kernel) (by decide +kernel) hlen
  refine ⟨fun _ => rfl, fun y hy => ?_, fun y h0 hy => ?_⟩
  · obtain ⟨⟨len, e1, hne⟩, e2⟩ := hb.1 y hy
    unfold getBody
    dsimp only
    rw [e1, Out.bind_ok, if_pos hne, e2]
    rfl
  · obtain ⟨⟨len, e1, hne⟩, e2⟩ := hf.1 y hy
    unfold getBody
    dsimp only
    rw [hb.2 h0, Out.bind_ok, if_neg (by simp), e1, Out.bind_ok, if_neg hne, e2]
    rfl

/-- C69 is violated without a BODY and a FRAMESET: the call succeeds and leaves the result untouched, where DOM returns null. -/
theorem C69_no_body_violated (hW : WF w ch) (hd : DocOrder ch order) {dn : Node} (hdoc : w.nodes doc = some dn) (hlen : (order doc).length < 2 ^ 32)
    (h1 : (order doc).tail.find? (tagged w "body") = none) (h2 : (order doc).tail.find? (tagged w "frameset") = none) :
    getBody none w doc = .ok .untouched := by
  have hb := first_of (tag := bodyName) (name := "body") hW hd hdoc (by decide +kernel) (by decide +kernel) (by decide +kernel) hlen
  have hf := first_of (tag := framesetName) (name := "frameset") hW hd hdoc (by decide +kernel) (by decide +kernel) (by decide +kernel) hlen
  unfold getBody
  dsimp only
  rw [hb.2 h1, Out.bind_ok, if_neg (by simp), hf.2 h2]
  rfl

/-! ## Concrete cases -/

/-- `<html><title>T</title><img id="i"><a href="h"></a><a name="n"></a><object><applet/></object><form name="i"></form></html>`: document 0, html 1, title 2
with the text 3, img 4, a 5 and 6, object 7 with the applet 8, form 9. -/
def pageCalls : List Tree.Call := [.createDocument, .createNode 0 .element (some (Names.lit "HTML")) none, .createNode 0 .element (some (Names.lit "TITLE")) none,
  .createNode 0 .text none (some (Names.lit "T")), .createNode 0 .element (some (Names.lit "IMG")) none, .createNode 0 .element (some (Names.lit "A")) none,
  .createNode 0 .element (some (Names.lit "A")) none, .createNode 0 .element (some (Names.lit "OBJECT")) none,
  .createNode 0 .element (some (Names.lit "APPLET")) none, .createNode 0 .element (some (Names.lit "FORM")) none,
  .appendChild 0 1, .appendChild 1 2, .appendChild 2 3, .appendChild 1 4, .appendChild 1 5, .appendChild 1 6, .appendChild 1 7, .appendChild 7 8, .appendChild 1 9]

/-- Its attributes. -/
def pageOps : List Attr.Op := [.newElem 1 { owner := 0 }, .newElem 2 { owner := 0 }, .newElem 4 { owner := 0 }, .newElem 5 { owner := 0 },
  .newElem 6 { owner := 0 }, .newElem 7 { owner := 0 }, .newElem 8 { owner := 0 }, .newElem 9 { owner := 0 },
  .set 4 none (Names.lit "id") (some (Names.lit "i")), .set 5 none (Names.lit "href") (some (Names.lit "h")), .set 6 none (Names.lit "name") (some (Names.lit "n")),
  .set 9 none (Names.lit "name") (some (Names.lit "i"))]

/-- The element is covered and its values can be read. -/
def legibleB (s : Mem) (x : NodeId) : Bool := (s.elems x).isSome && (entriesOf s x).all fun en => ((s.attrs en.attr).bind Attr.valueOf).isSome

theorem legible_of (h : legibleB s x = true) : s.elems x ≠ none ∧ Legible s x := by
  unfold legibleB at h
  simp only [Bool.and_eq_true, List.all_eq_true] at h
  refine ⟨fun h0 => by rw [h0] at h; simp at h, fun ns name hr => ?_⟩
  unfold reading at hr
  cases hl : Attr.lookup (entriesOf s x) ns name with
  | none => rw [hl] at hr; cases hr
  | some en =>
    rw [hl] at hr
    simp only [Option.map_some, Option.some.injEq] at hr
    have := h.2 en (List.mem_of_find?_eq_some hl)
    rw [hr] at this
    cases this

/-- The title has these bytes. -/
def titleIs (w : World) (t : Bytes) : Bool :=
  match getTitle none w 0 with
  | .ok r => decide (Tree.bytesOf r = t)
  | _ => false

/-- What the calls give on the page. -/
def pageAnswers (w : World) (s : Mem) : Bool :=
  (countOf .images w 0 s).gives 1 && (itemOf .links w 0 0 s).gives (some 5) && (itemOf .anchors w 0 0 s).gives (some 6) &&
  (itemOf .applets w 0 0 s).gives (some 7) && (namedOf .forms w 0 (some (Names.lit "i")) s).gives (some 9)

/-- The tree of the page. -/
def pageTree (w : World) : Bool :=
  decide (w.fresh = 10) && decide (Tree.kidsOf w 0 = [1]) && decide (Tree.kidsOf w 1 = [2, 4, 5, 6, 7, 9]) && decide (Tree.kidsOf w 7 = [8]) &&
  (List.range 10).all (fun x => !tagged w "object" x || decide (x = 7)) && Tree.at_ w 1 (fun n => decide (n.type = .element)) && Tree.at_ w 0 (fun _ => true) &&
  decide (getBody none w 0 = .ok .untouched) && titleIs w [84]

/-- The attributes of the page. -/
def pageAttrs (w : World) (s : Mem) : Bool :=
  (List.range 10).all (fun x => (w.nodes x).any (fun n => decide (n.type ≠ .element)) || legibleB s x)

/-- The hypotheses of `C69_collections_partial`, `C69_title` and `C69_body_partial` are met, and what the calls give. -/
example : ∃ w s ch order dn rn, WF w ch ∧ DocOrder ch order ∧ w.nodes 0 = some dn ∧ (ch 0).find? (member w fun _ => true) = some 1 ∧
    w.nodes 1 = some rn ∧ ch 1 ≠ [] ∧ Attr.Reach s ∧ Covers w s ∧ Readable w s ∧ (∀ x, w.nodes x ≠ none → (order x).length < 2 ^ 32) ∧ ObjectsOk w ch ∧
    (∃ s', countOf .images w 0 s = .ok s' 1) ∧ (∃ s', itemOf .links w 0 0 s = .ok s' (some 5)) ∧ (∃ s', itemOf .anchors w 0 0 s = .ok s' (some 6)) ∧
    (∃ s', itemOf .applets w 0 0 s = .ok s' (some 7)) ∧ (∃ s', namedOf .forms w 0 (some (Names.lit "i")) s = .ok s' (some 9)) ∧
    (∃ t, getTitle none w 0 = .ok t ∧ Tree.bytesOf t = [84]) ∧ getBody none w 0 = .ok .untouched := by
  obtain ⟨w, h1, h2⟩ := Tree.exists_ok pageCalls (fun w => pageTree w && (Attr.runFair pageOps Query.idStart).any fun s => pageAttrs w s && pageAnswers w s)
    (by decide +kernel)
  rw [Bool.and_eq_true] at h2
  obtain ⟨hT, h2⟩ := h2
  obtain ⟨s, h3, h4⟩ := Query.exists_ids pageOps _ h2
  unfold pageTree at hT
  unfold pageAttrs pageAnswers at h4
  simp only [Bool.and_eq_true, decide_eq_true_eq, List.all_eq_true, List.mem_range, Bool.or_eq_true, Bool.not_eq_true'] at hT h4
  obtain ⟨⟨⟨⟨⟨⟨⟨⟨hf, k0⟩, k1⟩, k7⟩, ho⟩, a1⟩, a0⟩, hb⟩, ht⟩ := hT
  obtain ⟨hl, ⟨⟨⟨g1, g2⟩, g3⟩, g4⟩, g5⟩ := h4
  obtain ⟨ch, hW⟩ := h1.wf fun _ _ h => h
  obtain ⟨rn, e1, t1⟩ := Tree.at_elim a1
  obtain ⟨dn, e0, _⟩ := Tree.at_elim a0
  have hd := Tree.docOrder_preorder hW.toCore
  have kid : ∀ x n, w.nodes x = some n → Tree.kidsOf w x = ch x := fun x n hx => by rw [Tree.kids_eq hW.toCore]
  have lt : ∀ x n, w.nodes x = some n → x < 10 := fun x n hx => hf ▸ hW.bnd x n hx
  rw [kid 0 dn e0] at k0
  rw [kid 1 rn e1] at k1
  have leg : ∀ x n, w.nodes x = some n → n.type = .element → legibleB s x = true := by
    intro x n hx ht
    rcases hl x (lt x n hx) with h | h
    · rw [hx] at h; simp [ht] at h
    · exact h
  simp only [decide_eq_true_eq] at t1
  refine ⟨w, s, ch, _, dn, rn, hW, hd, e0, ?_, e1, by rw [k1]; simp, h3, fun x n hx ht => (legible_of (leg x n hx ht)).1,
    fun x n hx ht => (legible_of (leg x n hx ht)).2, fun x hx => ?_, fun x n hx ht => ?_, Attr.Res.of_gives g1, Attr.Res.of_gives g2, Attr.Res.of_gives g3,
    Attr.Res.of_gives g4, Attr.Res.of_gives g5, ?_, hb⟩
  · rw [k0]; simp [member, e1, t1]
  · cases hn : w.nodes x with
    | none => exact absurd hn hx
    | some n => have := Trav.order_length_le hW.toCore hd hn; omega
  · rcases ho x (lt x n hx) with h | h
    · rw [ht] at h; cases h
    · subst h
      left
      rw [← kid 7 n hx, k7]; simp
  · unfold titleIs at ht
    cases hg : getTitle none w 0 with
    | ok t => rw [hg] at ht; exact ⟨t, rfl, by simpa using ht⟩
    | exc e => rw [hg] at ht; cases ht
    | fault e => rw [hg] at ht; cases ht

/-- C69 is violated by an OBJECT without children in front of another node: counting its applets runs out of the element, and the program crashes. -/
theorem C69_applets_crash_violated : ∃ w s, Tree.Reach (fun w c => c.Ok w) w ∧ Attr.Reach s ∧ countOf .applets w 0 s = .fault .nullDeref := by
  obtain ⟨w, h1, h2⟩ := Tree.exists_ok [.createDocument, .createNode 0 .element (some (Names.lit "HTML")) none,
    .createNode 0 .element (some (Names.lit "OBJECT")) none, .createNode 0 .element (some (Names.lit "P")) none, .appendChild 0 1, .appendChild 1 2, .appendChild 1 3]
    (fun w => (countOf .applets w 0 Attr.empty).faults .nullDeref) (by decide +kernel)
  exact ⟨w, _, h1, .start Attr.empty_blank, Attr.Res.of_faults h2⟩

/-- C69 is violated by a body that was set: the document takes no reference on it.  A client creates a document (0) and an element (1), makes it the body
and releases it; the element is gone, and the document still gives its address, without a reference. -/
theorem C69_body_released_violated : ∃ led w b, Tree.Client Tree.Careful led w ∧ w.nodes b = none ∧ Tree.Live w 0 ∧ 0 < led 0 ∧
    getBody (some b) w 0 = .ok (.pointer (some b) false) := by
  obtain ⟨led, w, h, hc⟩ := Tree.exists_careful [.call .createDocument, .call (.createNode 0 .element (some (Names.lit "BODY")) none), .unref 1]
    (fun led w => (w.nodes 1).isNone && Tree.liveB w 0 && decide (0 < led 0)) (by decide +kernel)
  simp only [Bool.and_eq_true, decide_eq_true_eq, Option.isNone_iff_eq_none] at hc
  exact ⟨led, w, 1, h, hc.1.1, Tree.live_of_liveB hc.1.2, hc.2, rfl⟩

end Dom.Html.Collect
