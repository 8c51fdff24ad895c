import Verif.Html.Table
import Verif.Trav.Props
import Verif.Tree.Concrete
/-!
# C53: table rows
-/
namespace Dom.Html.Table
set_option linter.unusedSimpArgs false
attribute [-simp] String.length_utf8EncodeChar

open Dom.Str (DStr contents asciiLower)
open Dom.Tree (World NodeId Node NodeType Children WF DocOrder Below ReadOnly M getNode deref throwIf bound initNode appendChild insertBefore
  removeChild)
open Dom.Trav (member)

/-! ## Specification -/

/-- `x` is an element of that name, in upper or lower case. -/
def tagged (w : World) (tag : String) (x : NodeId) : Bool :=
  (w.nodes x).any fun n => n.type = .element && (contents n.name).map asciiLower = tag.toUTF8.toList

/-- The rows of a section: its children called TR. -/
def rowsOf (w : World) (ch : Children) (s : NodeId) : List NodeId := (ch s).filter (tagged w "tr")

/-- The element can be changed, all rows below it are its children, and it has children or no next sibling (`C53_empty_section_violated`). -/
structure Section (w : World) (ch : Children) (s : NodeId) : Prop where
  tree : WF w ch
  elem : ∃ n, w.nodes s = some n ∧ n.type = .element ∧ (ch s ≠ [] ∨ n.next = none)
  writable : ¬ ReadOnly w s
  direct : ∀ x, Below ch s x → tagged w "tr" x = true → x ∈ ch s

/-- The children THEAD, TBODY and TFOOT of an element. -/
def sections (w : World) (ch : Children) (t : NodeId) : List NodeId :=
  (ch t).filter fun x => tagged w "thead" x || tagged w "tbody" x || tagged w "tfoot" x

/-- A table with a head, bodies and perhaps a foot, in this order, all rows in these, and no section empty before another node. -/
structure Shape (w : World) (ch : Children) (t hd : NodeId) (bodies : List NodeId) (ft : Option NodeId) : Prop where
  tree : WF w ch
  order : sections w ch t = hd :: (bodies ++ ft.toList)
  head : tagged w "thead" hd = true
  body : ∀ b ∈ bodies, tagged w "tbody" b = true
  foot : ∀ f, ft = some f → tagged w "tfoot" f = true
  inside : ∀ x, Below ch t x → tagged w "tr" x = true → ∃ s ∈ sections w ch t, Below ch s x
  direct : ∀ s ∈ sections w ch t, ∀ x, Below ch s x → tagged w "tr" x = true → x ∈ ch s
  writable : ∀ s ∈ sections w ch t, ¬ ReadOnly w s
  filled : ∀ s ∈ sections w ch t, ch s ≠ [] ∨ (ch t).getLast? = some s

/-- The rows of a table: head rows, then body rows, then foot rows. -/
def tableRows (w : World) (ch : Children) (t : NodeId) : List NodeId :=
  ((ch t).filter (tagged w "thead")).flatMap (rowsOf w ch) ++ ((ch t).filter (tagged w "tbody")).flatMap (rowsOf w ch) ++
    ((ch t).filter (tagged w "tfoot")).flatMap (rowsOf w ch)

/-- The place that an index means: -1 is the end. -/
def place (i : Int) (n : Nat) : Nat := if i = -1 then n else i.toNat

/-! ## Names -/

section
variable {w w' : World} {ch ch' : Children} {order : NodeId → List NodeId} {t s hd x row : NodeId} {bodies : List NodeId} {ft : Option NodeId}

theorem caseless_eq (a b : Option DStr) : Str.caselessIsEqual a b = decide ((contents a).map asciiLower = (contents b).map asciiLower) := by
  rw [Bool.eq_iff_iff, Str.C06_caseless_iff, decide_eq_true_iff]

theorem tr_data : trName.data.map asciiLower = "tr".toUTF8.toList := by decide +kernel
theorem thead_data : theadName.data.map asciiLower = "thead".toUTF8.toList := by decide +kernel
theorem tbody_data : tbodyName.data.map asciiLower = "tbody".toUTF8.toList := by decide +kernel
theorem tfoot_data : tfootName.data.map asciiLower = "tfoot".toUTF8.toList := by decide +kernel

theorem member_tag {tag : DStr} {name : String} (h : tag.data.map asciiLower = name.toUTF8.toList) (w : World) :
    member w (isTag tag w) = tagged w name := by
  funext x
  unfold member isTag tagged
  cases w.nodes x with
  | none => rfl
  | some n =>
    simp only [Option.any_some]
    rw [caseless_eq]
    congr 1
    exact decide_eq_decide.2 (by rw [show (contents (some tag)).map asciiLower = name.toUTF8.toList from h])

theorem tagged_node {tag : DStr} {name : String} (h : tag.data.map asciiLower = name.toUTF8.toList) {n : Node} (hx : w.nodes x = some n) :
    (n.type == .element && Str.caselessIsEqual (some tag) n.name) = tagged w name x := by
  unfold tagged
  rw [hx, Option.any_some, caseless_eq]
  rw [show (contents (some tag)).map asciiLower = name.toUTF8.toList from h]
  congr 1
  exact decide_eq_decide.2 eq_comm

theorem tagged_unique {a b : String} (ha : tagged w a x = true) (hb : tagged w b x = true) : a.toUTF8.toList = b.toUTF8.toList := by
  unfold tagged at ha hb
  cases hx : w.nodes x with
  | none => rw [hx] at ha; simp at ha
  | some n =>
    rw [hx] at ha hb
    simp only [Option.any_some, Bool.and_eq_true, decide_eq_true_eq] at ha hb
    exact ha.2.symm.trans hb.2

theorem tagged_elem {a : String} (ha : tagged w a x = true) : ∃ n, w.nodes x = some n ∧ n.type = .element := by
  unfold tagged at ha
  cases hx : w.nodes x with
  | none => rw [hx] at ha; simp at ha
  | some n =>
    rw [hx] at ha
    simp only [Option.any_some, Bool.and_eq_true, decide_eq_true_eq] at ha
    exact ⟨n, rfl, ha.1⟩

theorem tagged_data (h : (w'.nodes x).map Node.data = (w.nodes x).map Node.data) (a : String) : tagged w' a x = tagged w a x := by
  unfold tagged
  cases hx : w.nodes x with
  | none => rw [hx] at h; cases hx' : w'.nodes x with
    | none => rfl
    | some _ => rw [hx'] at h; simp at h
  | some n =>
    rw [hx] at h
    cases hx' : w'.nodes x with
    | none => rw [hx'] at h; simp at h
    | some n' =>
      rw [hx'] at h
      simp only [Option.map_some, Option.some.injEq] at h
      have h1 : n'.type = n.type := Tree.Node.data_type h
      have h2 : n'.name = n.name := by have := congrArg Node.name h; exact this
      simp only [Option.any_some, h1, h2]

/-! ## Document order -/

theorem mem_order (hW : WF w ch) (hd : DocOrder ch order) : x ∈ order s ↔ Below ch s x := by
  rw [Trav.docOrder_eq hd (Tree.ht_any hW.toCore s)]
  exact ⟨Tree.mem_preorder_below, fun h => Tree.below_mem_preorder h (Tree.ht_any hW.toCore s)⟩

/-- Below a child there is no child but itself. -/
theorem child_below (hW : WF w ch) {c : NodeId} (hc : c ∈ ch s) (hx : x ∈ ch s) (h : Below ch c x) : x = c :=
  (Tree.below_disjoint hW.linked hW.wf hc hx h .refl).symm

theorem filter_order_child (hW : WF w ch) (hd : DocOrder ch order) (p : NodeId → Bool) (hdir : ∀ x, Below ch s x → p x = true → x ∈ ch s)
    {c : NodeId} (hc : c ∈ ch s) : (order c).filter p = [c].filter p := by
  rw [hd c]
  have : ((ch c).flatMap order).filter p = [] := by
    rw [List.filter_eq_nil_iff]
    intro x hx hp
    obtain ⟨y, hy, hxy⟩ := List.mem_flatMap.1 hx
    have hyx : Below ch y x := (mem_order hW hd).1 hxy
    have hcx : Below ch c x := .head hy hyx
    have hxs := hdir x (.head hc hcx) hp
    have := child_below hW hc hxs hcx
    subst this
    exact Tree.not_below_child hW.linked hW.wf hy hyx
  rw [List.filter_cons, this]
  by_cases h : p c = true <;> simp [h]

theorem flatMap_single (p : NodeId → Bool) (l : List NodeId) : l.flatMap (fun c => [c].filter p) = l.filter p := by
  induction l with
  | nil => rfl
  | cons a l ih => rw [List.flatMap_cons, ih]; by_cases h : p a = true <;> simp [h]

theorem filter_order (hW : WF w ch) (hd : DocOrder ch order) (p : NodeId → Bool) (hdir : ∀ x, Below ch s x → p x = true → x ∈ ch s) :
    (order s).filter p = (ch s).filter p := by
  rw [hd s]
  have hs : p s = false := by
    cases h : p s with
    | false => rfl
    | true => exact absurd .refl (Tree.not_below_child hW.linked hW.wf (hdir s .refl h))
  rw [List.filter_cons, hs, if_neg (by simp), List.filter_flatMap, ← flatMap_single]
  exact List.flatMap_congr fun c hc => filter_order_child hW hd p hdir hc

/-! ## Sections -/

theorem Section.alive (hS : Section w ch s) : ∃ n, w.nodes s = some n := by obtain ⟨n, h, _⟩ := hS.elem; exact ⟨n, h⟩

theorem Section.rows (hS : Section w ch s) (hd : DocOrder ch order) : (order s).filter (tagged w "tr") = rowsOf w ch s :=
  filter_order hS.tree hd _ hS.direct

theorem reading_ok {α : Type} {f : World → Out α} {a : α} (h : f w = .ok a) : reading f w = .ok w a := by unfold reading; rw [h]

theorem Section.count (hS : Section w ch s) (hf : (rowsOf w ch s).length < 4294967296) : count trName s w = .ok w (rowsOf w ch s).length := by
  obtain ⟨n, h1, _, h2⟩ := hS.elem
  have hd := Tree.docOrder_preorder hS.tree.toCore
  unfold Table.count
  apply reading_ok
  show Trav.colLength (isTag trName w) w s = _
  rw [(Trav.C35_collection_partial hS.tree hd h1 h2 (isTag trName w) (fun _ => false)).1, member_tag tr_data, hS.rows hd]
  exact congrArg Out.ok (Nat.mod_eq_of_lt (Nat.lt_of_lt_of_le hf (by omega)))

theorem Section.item (hS : Section w ch s) {i : Nat} (hi : i < 4294967295) : item trName s i w = .ok w (rowsOf w ch s)[i]? := by
  obtain ⟨n, h1, _, h2⟩ := hS.elem
  have hd := Tree.docOrder_preorder hS.tree.toCore
  unfold Table.item
  apply reading_ok
  show Trav.colItem (isTag trName w) w s i = _
  rw [(Trav.C35_collection_partial hS.tree hd h1 h2 (isTag trName w) (fun _ => false)).2.1 i (by omega), member_tag tr_data, hS.rows hd]

theorem toInt32_small {n : Nat} (h : n < 2147483648) : toInt32 (n : Int) = n := by
  unfold toInt32
  simp only
  rw [Int.emod_eq_of_lt (by omega) (by omega), if_pos (by omega)]

theorem toUInt32_small {n : Nat} (h : n < 4294967296) : toUInt32 (n : Int) = n := by
  unfold toUInt32
  rw [Int.emod_eq_of_lt (by omega) (by omega)]
  rfl

/-- Row insertion into `s`: the new row is `row`, at the place `i` of the rows of `s`. -/
structure Grown (w : World) (ch : Children) (s : NodeId) (i : Nat) (row : NodeId) (w' : World) (ch' : Children) : Prop where
  wf : WF w' ch'
  new : w.nodes row = none ∧ tagged w' "tr" row = true ∧ ch' row = []
  here : ∃ a b, ch s = a ++ b ∧ ch' s = a ++ row :: b ∧ (a.filter (tagged w "tr")).length = i
  elsewhere : ∀ q, q ≠ s → ch' q = ch q
  data : ∀ j m, w.nodes j = some m → ∃ m', w'.nodes j = some m' ∧ m'.data = m.data

theorem newElement_run (hW : WF w ch) {n : Node} (hx : w.nodes x = some n) (ht : n.type = .element) (tag : DStr) :
    ∃ d, n.owner = some d ∧ newElement tag x w = .ok (w.add (Tree.elementNode (some tag) n.ns n.pfx d)) w.fresh ∧
      WF (w.add (Tree.elementNode (some tag) n.ns n.pfx d)) ch := by
  rcases hW.owner x n hx with ⟨d, dn, h1, h2, h3⟩ | ⟨h, _⟩
  · obtain ⟨e1, e2⟩ := Tree.initElement_run hW h2 h3 (some tag) n.ns n.pfx
    refine ⟨d, h1, ?_, e2⟩
    unfold newElement
    rw [Tree.get_bind hx, h1, e1]
  · rw [ht] at h; cases h

/-- The position of the `i`-th row among the children. -/
theorem split_at_row {l : List NodeId} {p : NodeId → Bool} {i : Nat} {o : NodeId} (hn : l.Nodup) (h : (l.filter p)[i]? = some o) {a b : List NodeId}
    (hl : l = a ++ b) (hb : b.head? = some o) : (a.filter p).length = i := by
  cases b with
  | nil => simp at hb
  | cons c b =>
    simp only [List.head?_cons, Option.some.injEq] at hb
    subst hb
    have hp : p c = true := (List.mem_filter.1 (List.mem_of_getElem? h)).2
    have hl' : l.filter p = a.filter p ++ c :: b.filter p := by rw [hl, List.filter_append, List.filter_cons_of_pos hp]
    have h2 : (l.filter p)[(a.filter p).length]? = some c := by rw [hl']; simp
    have hnd : (l.filter p).Nodup := hn.filter _
    have l1 := (List.getElem?_eq_some_iff.1 h).1
    have l2 := (List.getElem?_eq_some_iff.1 h2).1
    have e1 := (List.getElem?_eq_some_iff.1 h).2
    have e2 := (List.getElem?_eq_some_iff.1 h2).2
    exact ((List.Nodup.getElem_inj_iff hnd).1 (e2.trans e1.symm))

theorem add_permitted (hW : WF w ch) {n e : Node} (hx : w.nodes x = some n) (ht : n.type = .element) (he : e.type = .element) :
    Tree.Permitted (w.add e) ch x w.fresh :=
  ⟨n, e, Tree.add_old hW.toCore hx, Tree.add_new e, by rw [ht, he]; exact .content (by simp) (by simp), fun h => by rw [ht] at h; cases h⟩

theorem add_not_above (hW : WF w ch) {n e : Node} (hW' : WF (w.add e) ch) (hx : w.nodes x = some n) (hpar : e.parent = none) :
    ¬ Tree.AncSelf (w.add e) x w.fresh := by
  intro h
  have hpar2 : ∀ c q, Tree.ParentOf (w.add e) c q → Tree.ParentOf w c q := by
    rintro c q ⟨m, hm, hmq⟩
    rcases Tree.add_some hm with ⟨rfl, rfl⟩ | ⟨_, h'⟩
    · rw [hpar] at hmq; cases hmq
    · exact ⟨m, h', hmq⟩
  obtain ⟨m, hm⟩ := Tree.AncSelf.alive hW.linked hx (Tree.AncSelf.mono hpar2 h)
  rw [Tree.fresh_dead hW.toCore] at hm; cases hm

/-- A new row put before `r`. -/
theorem grow (hS : Section w ch s) {r : Option NodeId} {i : Nat} (hr : ∀ c, r = some c → (rowsOf w ch s)[i]? = some c)
    (hnone : r = none → i = (rowsOf w ch s).length) :
    ∃ w' ch', (do let row ← newElement trName s; insertBefore s row r : M NodeId) w = .ok w' w.fresh ∧ Grown w ch s i w.fresh w' ch' := by
  obtain ⟨n, h1, ht, _⟩ := hS.elem
  have hW := hS.tree
  obtain ⟨d, hd, e1, e2⟩ := newElement_run hW h1 ht trName
  have hdead := Tree.fresh_dead hW.toCore
  obtain ⟨w', ch', f1, f2⟩ := Tree.join_run (r := r) e2 (Tree.add_old hW.toCore h1) (Tree.add_new _) (Tree.add_readOnly hW e2 h1 ht hS.writable) rfl
    (by simp [Tree.elementNode]) (by simp [Tree.elementNode]) (by rw [hd]; rfl) (add_not_above hW e2 h1 rfl) (add_permitted hW h1 ht rfl)
    (fun c hc => (List.mem_filter.1 (List.mem_of_getElem? (hr c hc))).1)
  refine ⟨w', ch', by rw [Tree.bind_ok e1, f1], f2.wf, ⟨hdead, ?_, ?_⟩, ?_, f2.elsewhere, ?_⟩
  · rw [tagged_data (f2.data w.fresh)]
    unfold tagged
    rw [Tree.add_new, Option.any_some]
    rw [show contents (Tree.elementNode (some trName) n.ns n.pfx d).name = trName.data from rfl, tr_data]
    simp [Tree.elementNode]
  · have : w.fresh ≠ s := by rintro h; rw [← h, hdead] at h1; cases h1
    rw [f2.elsewhere _ this]
    exact hW.linked.dead _ hdead
  · obtain ⟨a, b, g1, g2, g3⟩ := f2.here
    refine ⟨a, b, g1, g3, ?_⟩
    cases r with
    | some c =>
      exact split_at_row (hW.linked.loc s n h1).nodup (hr c rfl) g1 g2
    | none =>
      have hb : b = [] := by simpa using g2
      subst hb
      rw [hnone rfl]; unfold rowsOf; rw [g1]; simp
  · intro j m hm
    have h3 := f2.data j
    rw [Tree.add_old hW.toCore hm] at h3
    cases h4 : w'.nodes j with
    | none => rw [h4] at h3; simp at h3
    | some m' => rw [h4] at h3; exact ⟨m', rfl, by simpa using h3⟩

theorem Grown.tagged {i : Nat} (h : Grown w ch s i row w' ch') {tag : String} (hW : ∃ m, w.nodes x = some m) : tagged w' tag x = tagged w tag x := by
  obtain ⟨m, hm⟩ := hW
  obtain ⟨m', h1, h2⟩ := h.data x m hm
  exact tagged_data (by rw [h1, hm]; simp [h2]) tag

theorem rowsOf_same (hL : Tree.Linked w ch) (hc : ch' s = ch s) (ht : ∀ x, (∃ m, w.nodes x = some m) → Table.tagged w' "tr" x = Table.tagged w "tr" x) :
    rowsOf w' ch' s = rowsOf w ch s := by
  unfold rowsOf
  rw [hc]
  refine List.filter_congr fun x hx => ht x ?_
  obtain ⟨m, hm, _⟩ := hL.alive_child hx
  exact ⟨m, hm⟩

theorem Grown.rows {i : Nat} (h : Grown w ch s i row w' ch') (hW : WF w ch) :
    ∃ a b, rowsOf w ch s = a ++ b ∧ a.length = i ∧ rowsOf w' ch' s = a ++ row :: b := by
  obtain ⟨a, b, h1, h2, h3⟩ := h.here
  have hal : ∀ x ∈ a ++ b, Table.tagged w' "tr" x = Table.tagged w "tr" x := by
    intro x hx
    obtain ⟨m, hm, _⟩ := hW.linked.alive_child (p := s) (c := x) (by rw [h1]; exact hx)
    exact h.tagged ⟨m, hm⟩
  refine ⟨a.filter (Table.tagged w "tr"), b.filter (Table.tagged w "tr"), ?_, h3, ?_⟩
  · unfold rowsOf; rw [h1, List.filter_append]
  · unfold rowsOf
    rw [h2, List.filter_append, List.filter_cons_of_pos h.new.2.1, List.filter_congr fun x hx => hal x (List.mem_append_left _ hx),
      List.filter_congr fun x hx => hal x (List.mem_append_right _ hx)]

theorem Grown.below {i : Nat} (h : Grown w ch s i row w' ch') {r : NodeId} (hd : Below ch' r x) : x = row ∨ Below ch r x := by
  induction hd with
  | refl => exact .inr .refl
  | @tail b c _ hc ih =>
    rcases ih with rfl | ih
    · rw [h.new.2.2] at hc; cases hc
    · by_cases hb : b = s
      · obtain ⟨u, v, h1, h2, _⟩ := h.here
        rw [hb, h2] at hc
        rcases List.mem_append.1 hc with hc | hc
        · exact .inr (.tail ih (by rw [hb, h1]; exact List.mem_append_left _ hc))
        · rcases List.mem_cons.1 hc with rfl | hc
          · exact .inl rfl
          · exact .inr (.tail ih (by rw [hb, h1]; exact List.mem_append_right _ hc))
      · rw [h.elsewhere b hb] at hc
        exact .inr (.tail ih hc)

/-- Nothing else becomes read-only. -/
theorem Grown.writable {i : Nat} (h : Grown w ch s i row w' ch') (hW : WF w ch) {n : Node} (hx : w.nodes x = some n) (ht : n.type = .element)
    (hro : ¬ ReadOnly w x) : ¬ ReadOnly w' x := by
  obtain ⟨n', h1, h2⟩ := h.data x n hx
  rw [Tree.readOnly_elem h.wf.toCore h1 (by rw [Tree.Node.data_type h2]; exact ht)]
  rw [Tree.readOnly_elem hW.toCore hx ht] at hro
  rintro ⟨j, hj, hje⟩
  rcases h.below hj with rfl | hj'
  · rw [h.new.1] at hx; cases hx
  · have hal : ∃ m, w.nodes j = some m := by
      rcases Relation.ReflTransGen.cases_head hj' with rfl | ⟨z, hz, _⟩
      · exact ⟨n, hx⟩
      · cases hm : w.nodes j with
        | none => rw [hW.linked.dead j hm] at hz; cases hz
        | some m => exact ⟨m, rfl⟩
    obtain ⟨m, hm⟩ := hal
    obtain ⟨m', g1, g2⟩ := h.data j m hm
    exact hro ⟨j, hj', (Tree.isEntity_data (by rw [g1, hm]; simp [g2])).1 hje⟩

theorem Grown.section {i : Nat} (h : Grown w ch s i row w' ch') (hS : Section w ch s) : Section w' ch' s := by
  obtain ⟨n, h1, ht, _⟩ := hS.elem
  obtain ⟨n', h2, h3⟩ := h.data s n h1
  obtain ⟨a, b, g1, g2, _⟩ := h.here
  refine ⟨h.wf, ⟨n', h2, by rw [Tree.Node.data_type h3]; exact ht, .inl (by rw [g2]; simp)⟩, h.writable hS.tree h1 ht hS.writable, ?_⟩
  intro x hx hxt
  rcases h.below hx with rfl | hx'
  · rw [g2]; simp
  · obtain ⟨m, hm⟩ := hx'.alive hS.tree.linked h1
    rw [h.tagged ⟨m, hm⟩] at hxt
    have := hS.direct x hx' hxt
    rw [g1] at this; rw [g2]
    rcases List.mem_append.1 this with h | h
    · exact List.mem_append_left _ h
    · exact List.mem_append_right _ (List.mem_cons_of_mem _ h)

theorem throwIf_pos {b : Bool} (h : b = true) (e : Exc) {α : Type} (k : Unit → M α) : (throwIf b e >>= k) w = .exc w e := by
  subst h; rfl

theorem throwIf_neg {b : Bool} (h : b = false) (e : Exc) {α : Type} (k : Unit → M α) : (throwIf b e >>= k) w = k () w := by
  subst h; rfl

theorem sectionInsert_run (hS : Section w ch s) (hf : (rowsOf w ch s).length < 2147483648) {i : Int} (h0 : -1 ≤ i) (h1 : i ≤ (rowsOf w ch s).length) :
    ∃ w' ch', sectionInsertRow s i w = .ok w' w.fresh ∧ Grown w ch s (place i (rowsOf w ch s).length) w.fresh w' ch' := by
  have hcount := hS.count (Nat.lt_of_lt_of_le hf (by omega))
  have hlen := toInt32_small hf
  generalize hL : (rowsOf w ch s).length = len at *
  by_cases hend : i = -1 ∨ i = len
  · obtain ⟨w', ch', e1, e2⟩ := grow hS (r := none) (i := len) (by simp) (fun _ => hL.symm)
    refine ⟨w', ch', ?_, ?_⟩
    · unfold sectionInsertRow
      rw [Tree.bind_ok hcount, throwIf_neg (by rw [hlen]; simp; omega)]
      obtain ⟨n, hn, ht, _⟩ := hS.elem
      obtain ⟨d, hd, f1, f2⟩ := newElement_run hS.tree hn ht trName
      rw [Tree.bind_ok f1] at e1 ⊢
      rw [if_pos (by rw [hlen]; simp; omega)]
      exact e1
    · have : place i len = len := by unfold place; split <;> omega
      rw [this]; exact e2
  · have hi : i = (i.toNat : Int) := by omega
    have hlt : i.toNat < (rowsOf w ch s).length := by omega
    obtain ⟨w', ch', e1, e2⟩ := grow hS (r := some (rowsOf w ch s)[i.toNat]) (i := i.toNat)
      (by rintro c ⟨⟩; exact List.getElem?_eq_getElem hlt) (by simp)
    refine ⟨w', ch', ?_, ?_⟩
    · unfold sectionInsertRow
      rw [Tree.bind_ok hcount, throwIf_neg (by rw [hlen]; simp; omega)]
      obtain ⟨n, hn, ht, _⟩ := hS.elem
      obtain ⟨d, hd, f1, f2⟩ := newElement_run hS.tree hn ht trName
      rw [Tree.bind_ok f1] at e1 ⊢
      rw [if_neg (by rw [hlen]; simp; omega)]
      have hS' : item trName s (toUInt32 i) (w.add (Tree.elementNode (some trName) n.ns n.pfx d)) =
          .ok (w.add (Tree.elementNode (some trName) n.ns n.pfx d)) (some (rowsOf w ch s)[i.toNat]) := by
        have hal : ∀ x, (∃ m, w.nodes x = some m) →
            Table.tagged (w.add (Tree.elementNode (some trName) n.ns n.pfx d)) "tr" x = Table.tagged w "tr" x := by
          rintro x ⟨m, hm⟩
          exact tagged_data (by rw [hm, Tree.add_old hS.tree.toCore hm]) _
        have hSec : Section (w.add (Tree.elementNode (some trName) n.ns n.pfx d)) ch s := by
          obtain ⟨n2, hn2, ht2, hnx⟩ := hS.elem
          refine ⟨f2, ⟨n2, Tree.add_old hS.tree.toCore hn2, ht2, hnx⟩, Tree.add_readOnly hS.tree f2 hn ht hS.writable, ?_⟩
          intro x hx hxt
          obtain ⟨m, hm⟩ := hx.alive hS.tree.linked hn
          rw [hal x ⟨m, hm⟩] at hxt
          exact hS.direct x hx hxt
        have hu : toUInt32 i = i.toNat := by
          conv_lhs => rw [hi]
          exact toUInt32_small (by omega)
        rw [hu, hSec.item (by omega)]
        rw [rowsOf_same (w' := w.add (Tree.elementNode (some trName) n.ns n.pfx d)) (ch' := ch) hS.tree.linked rfl hal]
        rw [List.getElem?_eq_getElem hlt]
      rw [Tree.bind_ok hS']
      exact e1
    · have : place i len = i.toNat := by unfold place; rw [if_neg (by omega)]
      rw [this]; exact e2

/-- **C53**, insertion into a section.  For -1 ≤ i ≤ length the new row gets the index i (is the last for -1) and nothing else changes; other
indices raise INDEX_SIZE_ERR and nothing happens.  Partial: see `Section`. -/
theorem C53_section_insert_partial (hS : Section w ch s) (hf : (rowsOf w ch s).length < 2147483648) (i : Int) :
    (-1 ≤ i ∧ i ≤ (rowsOf w ch s).length → ∃ w' ch' row a b, sectionInsertRow s i w = .ok w' row ∧ w.nodes row = none ∧ Section w' ch' s ∧
      rowsOf w ch s = a ++ b ∧ a.length = place i (rowsOf w ch s).length ∧ rowsOf w' ch' s = a ++ row :: b ∧ (∀ q, q ≠ s → ch' q = ch q) ∧
      ∀ j m, w.nodes j = some m → ∃ m', w'.nodes j = some m' ∧ m'.data = m.data) ∧
    (¬ (-1 ≤ i ∧ i ≤ (rowsOf w ch s).length) → sectionInsertRow s i w = .exc w .indexSize) := by
  constructor
  · rintro ⟨h0, h1⟩
    obtain ⟨w', ch', e1, e2⟩ := sectionInsert_run hS hf h0 h1
    obtain ⟨a, b, g1, g2, g3⟩ := e2.rows hS.tree
    exact ⟨w', ch', _, a, b, e1, e2.new.1, e2.section hS, g1, g2, g3, e2.elsewhere, e2.data⟩
  · intro h
    unfold sectionInsertRow
    rw [Tree.bind_ok (hS.count (Nat.lt_of_lt_of_le hf (by omega))), throwIf_pos (by rw [toInt32_small hf]; simp; omega)]

/-- Row deletion from `s`. -/
structure Shrunk (w : World) (ch : Children) (s : NodeId) (i : Nat) (row : NodeId) (w' : World) (ch' : Children) : Prop where
  wf : WF w' ch'
  gone : ∃ n, w'.nodes row = some n ∧ n.parent = none
  here : ∃ a b, rowsOf w ch s = a ++ row :: b ∧ a.length = i ∧ rowsOf w' ch' s = a ++ b
  exact : ch' s = (ch s).filter (· ≠ row)
  elsewhere : ∀ q, q ≠ s → ch' q = ch q
  data : ∀ j, (w'.nodes j).map Node.data = (w.nodes j).map Node.data

theorem del_ok {i : Int} {n : Nat} (h0 : -1 ≤ i) (h1 : i < n) (h2 : n ≠ 0) :
    (decide (i < -1) || decide (i ≥ (n : Int)) || (i == -1 && n == 0)) = false := by simp; omega

theorem del_bad {i : Int} {n : Nat} (h : ¬ (-1 ≤ i ∧ i < n ∧ n ≠ 0)) :
    (decide (i < -1) || decide (i ≥ (n : Int)) || (i == -1 && n == 0)) = true := by simp; omega

theorem sectionDelete_run (hS : Section w ch s) (hf : (rowsOf w ch s).length < 2147483648) {i : Int} (h0 : -1 ≤ i) (h1 : i < (rowsOf w ch s).length)
    (h2 : (rowsOf w ch s).length ≠ 0) :
    ∃ w' ch' row, sectionDeleteRow s i w = .ok w' row ∧ Shrunk w ch s (place i ((rowsOf w ch s).length - 1)) row w' ch' := by
  have hcount := hS.count (Nat.lt_of_lt_of_le hf (by omega))
  have hlen := toInt32_small hf
  obtain ⟨n, hn, ht, _⟩ := hS.elem
  have hk : place i ((rowsOf w ch s).length - 1) < (rowsOf w ch s).length := by unfold place; split <;> omega
  have hidx : (if i == -1 then sub32 (rowsOf w ch s).length 1 else toUInt32 i) = place i ((rowsOf w ch s).length - 1) := by
    unfold place
    by_cases h : i = -1
    · rw [if_pos h, if_pos (by simp [h])]
      unfold sub32; rw [if_pos (by omega)]
    · rw [if_neg h, if_neg (by simp [h])]
      conv_lhs => rw [show i = (i.toNat : Int) by omega]
      exact toUInt32_small (by omega)
  have hitem := hS.item (i := place i ((rowsOf w ch s).length - 1)) (by omega)
  rw [List.getElem?_eq_getElem hk] at hitem
  generalize hk' : place i ((rowsOf w ch s).length - 1) = k at *
  have hmem : (rowsOf w ch s)[k] ∈ rowsOf w ch s := List.getElem_mem hk
  have hge : (rowsOf w ch s)[k]? = some (rowsOf w ch s)[k] := List.getElem?_eq_getElem hk
  generalize (rowsOf w ch s)[k] = o at hitem hmem hge
  have hoc : o ∈ ch s := (List.mem_filter.1 hmem).1
  have hot : Table.tagged w "tr" o = true := (List.mem_filter.1 hmem).2
  obtain ⟨on, hon, hona, _⟩ := hS.tree.linked.alive_child hoc
  obtain ⟨w', res, e⟩ := (Tree.C21_remove_decision hS.tree hn hon (fun h => absurd h hona)).2 ⟨hoc, hS.writable, fun h => by rw [ht] at h; cases h.1⟩
  obtain ⟨rfl, _, ch', g1, g2, g3, ⟨o', go, gp, _⟩, g4, _⟩ := Tree.C21_remove_effect hS.tree hn ⟨on, hon, fun h => absurd h hona⟩ e
  refine ⟨w', ch', res, ?_, g1, ⟨o', go, gp⟩, ?_, g2, g3, g4⟩
  · unfold sectionDeleteRow
    rw [Tree.bind_ok hcount, throwIf_neg (by rw [hlen]; exact del_ok h0 h1 h2), hidx, Tree.bind_ok hitem]
    exact e
  · obtain ⟨a, b, hab⟩ := List.append_of_mem hoc
    have hnd := (hS.tree.linked.loc s n hn).nodup
    have hr : rowsOf w ch s = a.filter (Table.tagged w "tr") ++ res :: b.filter (Table.tagged w "tr") := by
      unfold rowsOf; rw [hab, List.filter_append, List.filter_cons_of_pos hot]
    refine ⟨_, _, hr, split_at_row hnd hge hab rfl, ?_⟩
    unfold rowsOf
    rw [g2, hab]
    rw [hab] at hnd
    have hnd' := List.nodup_append.1 hnd
    have ha : ∀ y ∈ a, y ≠ res := fun y hy h => by subst h; exact hnd'.2.2 y hy y (by simp) rfl
    have hb : ∀ y ∈ b, y ≠ res := fun y hy h => by subst h; exact (List.nodup_cons.1 hnd'.2.1).1 hy
    rw [List.filter_append, List.filter_cons_of_neg (by simp), List.filter_eq_self (l := a) |>.2 (fun y hy => by simpa using ha y hy),
      List.filter_eq_self (l := b) |>.2 (fun y hy => by simpa using hb y hy), List.filter_append]
    rw [List.filter_congr fun x _ => tagged_data (g4 x) "tr", List.filter_congr (l := b) fun x _ => tagged_data (g4 x) "tr"]

/-- **C53**, deletion from a section: exactly the row of the index goes (the last for -1); other indices raise INDEX_SIZE_ERR.
Partial: see `Section`. -/
theorem C53_section_delete_partial (hS : Section w ch s) (hf : (rowsOf w ch s).length < 2147483648) (i : Int) :
    (-1 ≤ i ∧ i < (rowsOf w ch s).length ∧ rowsOf w ch s ≠ [] → ∃ w' ch' row a b, sectionDeleteRow s i w = .ok w' row ∧ WF w' ch' ∧
      rowsOf w ch s = a ++ row :: b ∧ a.length = place i ((rowsOf w ch s).length - 1) ∧ rowsOf w' ch' s = a ++ b ∧
      ch' s = (ch s).filter (· ≠ row) ∧ (∀ q, q ≠ s → ch' q = ch q) ∧ ∀ j, (w'.nodes j).map Node.data = (w.nodes j).map Node.data) ∧
    (¬ (-1 ≤ i ∧ i < (rowsOf w ch s).length ∧ rowsOf w ch s ≠ []) → sectionDeleteRow s i w = .exc w .indexSize) := by
  constructor
  · rintro ⟨h0, h1, h2⟩
    obtain ⟨w', ch', row, e1, e2⟩ := sectionDelete_run hS hf h0 h1 (by simpa using h2)
    obtain ⟨a, b, g1, g2, g3⟩ := e2.here
    exact ⟨w', ch', row, a, b, e1, e2.wf, g1, g2, g3, e2.exact, e2.elsewhere, e2.data⟩
  · intro h
    have h' : ¬ (-1 ≤ i ∧ i < (rowsOf w ch s).length ∧ (rowsOf w ch s).length ≠ 0) := by
      intro h3; exact h ⟨h3.1, h3.2.1, by simpa using h3.2.2⟩
    unfold sectionDeleteRow
    rw [Tree.bind_ok (hS.count (Nat.lt_of_lt_of_le hf (by omega))), throwIf_pos (by rw [toInt32_small hf]; exact del_bad h')]

/-! ## Tables -/

/-- The rows of the sections, in their order. -/
def secRows (w : World) (ch : Children) (t : NodeId) : List NodeId := (sections w ch t).flatMap (rowsOf w ch)

theorem sections_mem (hs : s ∈ sections w ch t) : s ∈ ch t := (List.mem_filter.1 hs).1

theorem sections_elem (hs : s ∈ sections w ch t) : ∃ n, w.nodes s = some n ∧ n.type = .element := by
  have := (List.mem_filter.1 hs).2
  simp only [Bool.or_eq_true] at this
  rcases this with (h | h) | h <;> exact tagged_elem h

theorem Shape.alive (hT : Shape w ch t hd bodies ft) : ∃ n, w.nodes t = some n := by
  have : hd ∈ ch t := sections_mem (s := hd) (w := w) (by rw [hT.order]; simp)
  cases h : w.nodes t with
  | none => rw [hT.tree.linked.dead t h] at this; cases this
  | some n => exact ⟨n, rfl⟩

theorem Shape.nonempty (hT : Shape w ch t hd bodies ft) : ch t ≠ [] := by
  have : hd ∈ ch t := sections_mem (s := hd) (w := w) (by rw [hT.order]; simp)
  intro h; rw [h] at this; cases this

theorem Shape.section (hT : Shape w ch t hd bodies ft) (hs : s ∈ sections w ch t) : Section w ch s := by
  obtain ⟨n, hn, ht⟩ := sections_elem hs
  obtain ⟨tn, htn⟩ := hT.alive
  refine ⟨hT.tree, ⟨n, hn, ht, ?_⟩, hT.writable s hs, hT.direct s hs⟩
  rcases hT.filled s hs with h | h
  · exact .inl h
  · right
    obtain ⟨a, ha⟩ := List.getLast?_eq_some_iff.1 h
    obtain ⟨m, hm, _, _, _, hnext⟩ := (hT.tree.linked.loc t tn htn).kids a s [] ha
    rw [hn] at hm; cases hm
    exact hnext

theorem flatMap_filter (p : NodeId → Bool) (f g : NodeId → List NodeId) (l : List NodeId) (h : ∀ c ∈ l, g c = if p c then f c else []) :
    l.flatMap g = (l.filter p).flatMap f := by
  induction l with
  | nil => rfl
  | cons a l ih =>
    rw [List.flatMap_cons, ih (fun c hc => h c (List.mem_cons_of_mem _ hc)), h a (by simp)]
    by_cases hp : p a = true <;> simp [hp]

/-- All rows below the table, in document order. -/
theorem Shape.rows (hT : Shape w ch t hd bodies ft) (hd' : DocOrder ch order) : (order t).filter (tagged w "tr") = secRows w ch t := by
  have hW := hT.tree
  rw [hd' t]
  have hs : tagged w "tr" t = false := by
    cases h : tagged w "tr" t with
    | false => rfl
    | true =>
      obtain ⟨s, hs, hb⟩ := hT.inside t .refl h
      exact absurd hb (Tree.not_below_child hW.linked hW.wf (sections_mem hs))
  rw [List.filter_cons, hs, if_neg (by simp), List.filter_flatMap]
  unfold secRows sections
  refine flatMap_filter _ _ _ _ fun c hc => ?_
  split
  · exact (hT.section (List.mem_filter.2 ⟨hc, by assumption⟩)).rows hd'
  · rw [List.filter_eq_nil_iff]
    intro x hx hxt
    have hcx := (mem_order hW hd').1 hx
    obtain ⟨s, hs, hb⟩ := hT.inside x (.head hc hcx) hxt
    have := Tree.below_disjoint hW.linked hW.wf hc (sections_mem hs) hcx hb
    subst this
    exact absurd (List.mem_filter.1 hs).2 (by assumption)

theorem rows_run (hT : Shape w ch t hd bodies ft) (hf : (secRows w ch t).length < 2147483648) :
    count trName t w = .ok w (secRows w ch t).length ∧ ∀ i, i < 4294967295 → item trName t i w = .ok w (secRows w ch t)[i]? := by
  obtain ⟨n, h1⟩ := hT.alive
  have hd := Tree.docOrder_preorder hT.tree.toCore
  have hc := Trav.C35_collection_partial hT.tree hd h1 (.inl hT.nonempty) (isTag trName w) (fun _ => false)
  rw [member_tag tr_data, hT.rows hd] at hc
  constructor
  · apply reading_ok
    show Trav.colLength (isTag trName w) w t = _
    rw [hc.1]
    exact congrArg Out.ok (Nat.mod_eq_of_lt (Nat.lt_of_lt_of_le hf (by omega)))
  · intro i hi
    apply reading_ok
    exact hc.2.1 i (by omega)

theorem childLoop_run (hW : WF w ch) {n : Node} (hx : w.nodes t = some n) {tag : DStr} {name : String} (hn : tag.data.map asciiLower = name.toUTF8.toList) :
    ∀ (b a : List NodeId) (f : Nat), ch t = a ++ b → b.length ≤ f → childLoop tag f b.head? w = .ok w (b.find? (tagged w name)) := by
  intro b
  induction b with
  | nil => intro a f _ _; cases f <;> rfl
  | cons c b ih =>
    intro a f hab hf
    cases f with
    | zero => simp at hf
    | succ f =>
      obtain ⟨m, hm, _, _, _, hnext⟩ := (hW.linked.loc t n hx).kids a c b hab
      simp only [List.head?_cons, childLoop]
      rw [Tree.get_bind hm, tagged_node hn hm]
      by_cases ht : tagged w name c = true
      · rw [if_pos ht, List.find?_cons_of_pos (by exact ht)]; rfl
      · rw [if_neg ht, List.find?_cons_of_neg (by exact ht), hnext]
        exact ih (a ++ [c]) f (by simp [hab]) (by simpa using hf)

theorem childOf_run (hW : WF w ch) {n : Node} (hx : w.nodes t = some n) {tag : DStr} {name : String} (hn : tag.data.map asciiLower = name.toUTF8.toList) :
    childOf tag t w = .ok w ((ch t).find? (tagged w name)) := by
  unfold childOf
  obtain ⟨n', hn', hfirst, _⟩ := (hW.linked.loc t n hx).ends
  rw [hx] at hn'; cases hn'
  rw [Tree.get_bind hx, hfirst]
  show childLoop tag (w.fresh + 1) (ch t).head? w = _
  exact childLoop_run hW hx hn (ch t) [] _ rfl (Nat.le_succ_of_le (Tree.child_length_le hW.toCore t))

theorem find_filter (p q : NodeId → Bool) (h : ∀ x, q x = true → p x = true) (l : List NodeId) : l.find? q = (l.filter p).find? q := by
  induction l with
  | nil => rfl
  | cons a l ih =>
    by_cases hq : q a = true
    · rw [List.filter_cons_of_pos (h a hq), List.find?_cons_of_pos (by exact hq), List.find?_cons_of_pos (by exact hq)]
    · rw [List.find?_cons_of_neg (by exact hq), ih]
      by_cases hp : p a = true
      · rw [List.filter_cons_of_pos hp, List.find?_cons_of_neg (by exact hq)]
      · rw [List.filter_cons_of_neg hp]

theorem Shape.headOf (hT : Shape w ch t hd bodies ft) : (ch t).find? (tagged w "thead") = some hd := by
  rw [find_filter (fun x => tagged w "thead" x || tagged w "tbody" x || tagged w "tfoot" x) _ (by simp_all)]
  show (sections w ch t).find? _ = _
  rw [hT.order, List.find?_cons_of_pos (by exact hT.head)]

theorem ne_tags : "thead".toUTF8.toList ≠ "tfoot".toUTF8.toList ∧ "tbody".toUTF8.toList ≠ "tfoot".toUTF8.toList ∧
    "thead".toUTF8.toList ≠ "tbody".toUTF8.toList ∧ "tr".toUTF8.toList ≠ "thead".toUTF8.toList ∧ "tr".toUTF8.toList ≠ "tbody".toUTF8.toList ∧
    "tr".toUTF8.toList ≠ "tfoot".toUTF8.toList := by decide +kernel

theorem Shape.footOf (hT : Shape w ch t hd bodies ft) : (ch t).find? (tagged w "tfoot") = ft := by
  rw [find_filter (fun x => tagged w "thead" x || tagged w "tbody" x || tagged w "tfoot" x) _ (by simp_all)]
  show (sections w ch t).find? _ = _
  rw [hT.order, List.find?_cons_of_neg (by intro h; exact ne_tags.1 (tagged_unique hT.head h)), List.find?_append]
  have : bodies.find? (tagged w "tfoot") = none := List.find?_eq_none.2 fun x hx h => ne_tags.2.1 (tagged_unique (hT.body x hx) h)
  rw [this]
  cases hft : ft with
  | none => rfl
  | some f => simp [hT.foot f hft]

theorem Shape.bodiesOf (hT : Shape w ch t hd bodies ft) : (ch t).filter (tagged w "tbody") = bodies := by
  have h1 : (ch t).filter (tagged w "tbody") = (sections w ch t).filter (tagged w "tbody") := by
    unfold sections
    rw [List.filter_filter]
    exact List.filter_congr fun x _ => by cases h : tagged w "tbody" x <;> simp
  rw [h1, hT.order, List.filter_cons_of_neg (by intro h; exact ne_tags.2.2.1 (tagged_unique hT.head h)), List.filter_append,
    List.filter_eq_self.2 (fun x hx => hT.body x hx)]
  cases hft : ft with
  | none => simp
  | some f =>
    rw [Option.toList_some, List.filter_cons_of_neg (by intro h; exact ne_tags.2.1 (tagged_unique h (hT.foot f hft)))]; simp

/-- The number of rows in some sections. -/
def total (w : World) (ch : Children) (l : List NodeId) : Nat := (l.flatMap (rowsOf w ch)).length

@[simp] theorem total_nil : total w ch [] = 0 := rfl
@[simp] theorem total_cons (c : NodeId) (l : List NodeId) : total w ch (c :: l) = (rowsOf w ch c).length + total w ch l := by
  unfold total; rw [List.flatMap_cons, List.length_append]
@[simp] theorem total_append (l m : List NodeId) : total w ch (l ++ m) = total w ch l + total w ch m := by
  unfold total; rw [List.flatMap_append, List.length_append]

/-- `s` is the first section at whose end `hit` says yes. -/
def First (w : World) (ch : Children) (hit : Nat → Bool) (win : Nat) (pre : List NodeId) (s : NodeId) : Prop :=
  (∀ a c b, pre = a ++ c :: b → hit (win + total w ch (a ++ [c])) = false) ∧ hit (win + total w ch (pre ++ [s])) = true

theorem First.tail {hit : Nat → Bool} {win : Nat} {c : NodeId} {pre : List NodeId} (h : First w ch hit win (c :: pre) s) :
    hit (win + (rowsOf w ch c).length) = false ∧ First w ch hit (win + (rowsOf w ch c).length) pre s := by
  refine ⟨by simpa using h.1 [] c pre rfl, ?_, ?_⟩
  · intro a d b hab
    have := h.1 (c :: a) d b (by rw [hab]; rfl)
    rw [List.cons_append, total_cons, ← Nat.add_assoc] at this
    exact this
  · have := h.2
    rw [List.cons_append, total_cons, ← Nat.add_assoc] at this
    exact this

/-- If the end of all is a hit there is a first one. -/
theorem exists_first (hit : Nat → Bool) : ∀ (l : List NodeId) (win : Nat), l ≠ [] → hit (win + total w ch l) = true →
    ∃ pre s post, l = pre ++ s :: post ∧ First w ch hit win pre s := by
  intro l
  induction l with
  | nil => intro _ h; exact absurd rfl h
  | cons c l ih =>
    intro win _ hl
    by_cases hc : hit (win + (rowsOf w ch c).length) = true
    · exact ⟨[], c, l, rfl, by intro a d b h; simp at h, by simpa using hc⟩
    · have hln : l ≠ [] := by
        rintro rfl
        simp only [total_cons, total_nil, Nat.add_zero] at hl
        exact hc hl
      obtain ⟨pre, s, post, h1, h2⟩ := ih (win + (rowsOf w ch c).length) hln (by rw [total_cons, ← Nat.add_assoc] at hl; exact hl)
      refine ⟨c :: pre, s, post, by rw [h1]; rfl, ?_, ?_⟩
      · intro a d b hab
        cases a with
        | nil =>
          simp only [List.nil_append, List.cons.injEq] at hab
          obtain ⟨rfl, _⟩ := hab
          simpa using hc
        | cons e a =>
          simp only [List.cons_append, List.cons.injEq] at hab
          obtain ⟨rfl, hab⟩ := hab
          have := h2.1 a d b hab
          rw [List.cons_append, total_cons, ← Nat.add_assoc]
          exact this
      · have := h2.2
        rw [List.cons_append, total_cons, ← Nat.add_assoc]
        exact this

theorem bodyLoop_run (hT : Shape w ch t hd bodies ft) (hit : Nat → Bool) {n : Node}
    (hx : w.nodes t = some n) : ∀ (b a : List NodeId) (f win : Nat), ch t = a ++ b → b.length ≤ f →
    win + total w ch (b.filter (tagged w "tbody")) < 2147483648 →
    (∀ pre s post, b.filter (tagged w "tbody") = pre ++ s :: post → First w ch hit win pre s →
      bodyLoop hit f b.head? win w = .ok w (some s, win + total w ch pre)) ∧
    ((∀ pre s post, b.filter (tagged w "tbody") = pre ++ s :: post → hit (win + total w ch (pre ++ [s])) = false) →
      bodyLoop hit f b.head? win w = .ok w (none, win + total w ch (b.filter (tagged w "tbody")))) := by
  intro b
  induction b with
  | nil =>
    intro a f win _ _ _
    constructor
    · intro pre s post h; simp at h
    · intro _; cases f <;> rfl
  | cons c b ih =>
    intro a f win hab hf' hwin
    cases f with
    | zero => simp at hf'
    | succ f =>
      obtain ⟨m, hm, _, _, _, hnext⟩ := (hT.tree.linked.loc t n hx).kids a c b hab
      simp only [List.head?_cons, bodyLoop]
      rw [Tree.get_bind hm, tagged_node tbody_data hm]
      by_cases ht : tagged w "tbody" c = true
      · have hsec : c ∈ sections w ch t := List.mem_filter.2 ⟨by rw [hab]; simp, by simp [ht]⟩
        rw [List.filter_cons_of_pos ht] at hwin ⊢
        rw [total_cons] at hwin
        rw [if_pos ht, Tree.bind_ok ((hT.section hsec).count (by omega)), u32_small (by omega), hnext]
        have ih' := ih (a ++ [c]) f (win + (rowsOf w ch c).length) (by simp [hab]) (by simpa using hf') (by omega)
        constructor
        · intro pre s post hp hfst
          cases pre with
          | nil =>
            simp only [List.nil_append, List.cons.injEq] at hp
            obtain ⟨rfl, _⟩ := hp
            rw [if_pos (by simpa using hfst.2)]; rfl
          | cons e pre =>
            simp only [List.cons_append, List.cons.injEq] at hp
            obtain ⟨rfl, hp⟩ := hp
            rw [if_neg (by rw [hfst.tail.1]; simp), ih'.1 pre s post hp hfst.tail.2, total_cons, ← Nat.add_assoc]
        · intro hno
          have h0 := hno [] c _ rfl
          rw [if_neg (by simpa using h0), ih'.2 ?_, total_cons, ← Nat.add_assoc]
          intro pre s post hp
          have := hno (c :: pre) s post (by rw [hp]; rfl)
          rw [List.cons_append, total_cons, ← Nat.add_assoc] at this
          exact this
      · rw [List.filter_cons_of_neg ht] at hwin ⊢
        rw [if_neg ht, hnext]
        exact ih (a ++ [c]) f win (by simp [hab]) (by simpa using hf') hwin

theorem locate_run (hT : Shape w ch t hd bodies ft) (hf : (secRows w ch t).length < 2147483648) (hit : Nat → Bool) {pre post : List NodeId}
    (hsp : sections w ch t = pre ++ s :: post) (hfst : First w ch hit 0 pre s) : locate hit t w = .ok w (some (s, total w ch pre)) := by
  obtain ⟨n, hx⟩ := hT.alive
  have hhd : hd ∈ sections w ch t := by rw [hT.order]; simp
  have htot : total w ch (sections w ch t) < 2147483648 := hf
  rw [hT.order] at htot
  simp only [total_cons, total_append] at htot
  unfold locate
  rw [Tree.bind_ok (childOf_run hT.tree hx thead_data), hT.headOf]
  show (count trName hd >>= _) w = _
  rw [Tree.bind_ok ((hT.section hhd).count (by omega))]
  rw [hT.order] at hsp
  cases pre with
  | nil =>
    simp only [List.nil_append, List.cons.injEq] at hsp
    obtain ⟨rfl, _⟩ := hsp
    rw [if_pos (by simpa using hfst.2)]; rfl
  | cons e pre =>
    simp only [List.cons_append, List.cons.injEq] at hsp
    obtain ⟨rfl, hsp⟩ := hsp
    obtain ⟨h1, h2⟩ := hfst.tail
    rw [Nat.zero_add] at h1 h2
    rw [if_neg (by rw [h1]; simp), Tree.get_bind hx]
    obtain ⟨n', hn', hfirst, _⟩ := (hT.tree.linked.loc t n hx).ends
    rw [hx] at hn'; cases hn'
    rw [hfirst]
    show (bodyLoop hit (w.fresh + 1) (ch t).head? (rowsOf w ch hd).length >>= footOf hit t) w = _
    have hB := bodyLoop_run hT hit hx (ch t) [] (w.fresh + 1) (rowsOf w ch hd).length rfl
      (Nat.le_succ_of_le (Tree.child_length_le hT.tree.toCore t)) (by rw [hT.bodiesOf]; omega)
    rw [hT.bodiesOf] at hB
    rcases List.append_eq_append_iff.1 hsp with ⟨u, hu1, hu2⟩ | ⟨u, hu1, hu2⟩
    · -- the foot
      cases hft : ft with
      | none => rw [hft] at hu2; simp at hu2
      | some f =>
        rw [hft] at hu2
        cases u with
        | cons c u => simp at hu2
        | nil =>
          simp only [Option.toList_some, List.nil_append, List.cons.injEq] at hu2
          obtain ⟨rfl, _⟩ := hu2
          rw [List.append_nil] at hu1
          subst hu1
          rw [Tree.bind_ok (hB.2 (fun a c b hab => h2.1 a c b hab))]
          have hfs : f ∈ sections w ch t := by rw [hT.order, hft]; simp
          rw [hft] at htot
          simp only [Option.toList_some, total_cons, total_nil] at htot
          show (childOf tfootName t >>= _) w = _
          rw [Tree.bind_ok (childOf_run hT.tree hx tfoot_data), hT.footOf, hft]
          show (count trName f >>= _) w = _
          rw [Tree.bind_ok ((hT.section hfs).count (by omega)), u32_small (by omega)]
          have h3 := h2.2
          rw [total_append, total_cons, total_nil, Nat.add_zero, ← Nat.add_assoc] at h3
          rw [if_pos h3, total_cons]
          rfl
    · cases u with
      | nil =>
        simp only [List.append_nil] at hu1
        subst hu1
        cases hft : ft with
        | none => rw [hft] at hu2; simp at hu2
        | some f =>
          rw [hft] at hu2
          simp only [Option.toList_some, List.nil_append, List.cons.injEq] at hu2
          obtain ⟨rfl, _⟩ := hu2
          rw [Tree.bind_ok (hB.2 (fun a c b hab => h2.1 a c b hab))]
          have hfs : s ∈ sections w ch t := by rw [hT.order, hft]; simp
          rw [hft] at htot
          simp only [Option.toList_some, total_cons, total_nil] at htot
          show (childOf tfootName t >>= _) w = _
          rw [Tree.bind_ok (childOf_run hT.tree hx tfoot_data), hT.footOf, hft]
          show (count trName s >>= _) w = _
          rw [Tree.bind_ok ((hT.section hfs).count (by omega)), u32_small (by omega)]
          have h3 := h2.2
          rw [total_append, total_cons, total_nil, Nat.add_zero, ← Nat.add_assoc] at h3
          rw [if_pos h3, total_cons]
          rfl
      | cons c u =>
        simp only [List.cons_append, List.cons.injEq] at hu2
        obtain ⟨rfl, _⟩ := hu2
        rw [Tree.bind_ok (hB.1 pre s u hu1 h2), total_cons]
        rfl

theorem sections_same (hL : Tree.Linked w ch) (hc : ch' t = ch t) (ht : ∀ tag x, (∃ m, w.nodes x = some m) → tagged w' tag x = tagged w tag x) :
    sections w' ch' t = sections w ch t := by
  unfold sections
  rw [hc]
  refine List.filter_congr fun x hx => ?_
  obtain ⟨m, hm, _⟩ := hL.alive_child hx
  rw [ht _ x ⟨m, hm⟩, ht _ x ⟨m, hm⟩, ht _ x ⟨m, hm⟩]

theorem Grown.keeps {i : Nat} (h : Grown w ch s i row w' ch') {r : NodeId} (hd : Below ch r x) : Below ch' r x := by
  refine Relation.ReflTransGen.mono (fun b c hc => ?_) _ _ hd
  by_cases hb : b = s
  · obtain ⟨u, v, h1, h3, _⟩ := h.here
    rw [hb, h3]; rw [hb, h1] at hc
    rcases List.mem_append.1 hc with hc | hc
    · exact List.mem_append_left _ hc
    · exact List.mem_append_right _ (List.mem_cons_of_mem _ hc)
  · rw [h.elsewhere b hb]; exact hc

theorem Shape.ne (hT : Shape w ch t hd bodies ft) (hs : s ∈ sections w ch t) : t ≠ s := by
  rintro rfl
  exact Tree.not_below_child hT.tree.linked hT.tree.wf (sections_mem hs) .refl

/-- The table keeps its shape. -/
theorem Grown.shape {i : Nat} (h : Grown w ch s i row w' ch') (hT : Shape w ch t hd bodies ft) (hs : s ∈ sections w ch t) :
    Shape w' ch' t hd bodies ft := by
  have hW := hT.tree
  have htag : ∀ tag x, (∃ m, w.nodes x = some m) → Table.tagged w' tag x = Table.tagged w tag x := fun tag x hx => h.tagged hx
  have hct : ch' t = ch t := h.elsewhere t (hT.ne hs)
  have hsec := sections_same (w' := w') (ch' := ch') hW.linked hct htag
  have hal : ∀ c ∈ sections w ch t, ∃ m, w.nodes c = some m := fun c hc => by obtain ⟨m, hm, _⟩ := sections_elem hc; exact ⟨m, hm⟩
  obtain ⟨tn, htn⟩ := hT.alive
  have hrow : row ∈ ch' s := by obtain ⟨a, b, _, h2, _⟩ := h.here; rw [h2]; simp
  refine ⟨h.wf, by rw [hsec]; exact hT.order, ?_, ?_, ?_, ?_, ?_, ?_, ?_⟩
  · rw [htag _ _ (hal hd (by rw [hT.order]; simp))]; exact hT.head
  · intro b hb
    rw [htag _ _ (hal b (by rw [hT.order]; simp [hb]))]; exact hT.body b hb
  · intro f hf
    rw [htag _ _ (hal f (by rw [hT.order, hf]; simp))]; exact hT.foot f hf
  · intro x hx hxt
    rw [hsec]
    rcases h.below hx with rfl | hx'
    · exact ⟨s, hs, .single hrow⟩
    · rw [htag _ _ (hx'.alive hW.linked htn)] at hxt
      obtain ⟨s', hs', hb⟩ := hT.inside x hx' hxt
      exact ⟨s', hs', h.keeps hb⟩
  · intro s' hs' x hx hxt
    rw [hsec] at hs'
    obtain ⟨m, hm⟩ := hal s' hs'
    rcases h.below hx with rfl | hx'
    · rcases Relation.ReflTransGen.cases_tail hx with rfl | ⟨q, hq, hqx⟩
      · rw [h.new.1] at hm; cases hm
      · have := h.wf.linked.mem_unique hqx hrow
        subst this
        rcases h.below hq with rfl | hq'
        · rw [h.new.2.2] at hqx; cases hqx
        · have := child_below hW (sections_mem hs') (sections_mem hs) hq'
          subst this
          exact hqx
    · rw [htag _ _ (hx'.alive hW.linked hm)] at hxt
      have := hT.direct s' hs' x hx' hxt
      by_cases hss : s' = s
      · subst hss
        obtain ⟨a, b, h1, h2, _⟩ := h.here
        rw [h1] at this; rw [h2]
        rcases List.mem_append.1 this with h | h
        · exact List.mem_append_left _ h
        · exact List.mem_append_right _ (List.mem_cons_of_mem _ h)
      · rw [h.elsewhere s' hss]; exact this
  · intro s' hs'
    rw [hsec] at hs'
    obtain ⟨m, hm, hmt⟩ := sections_elem hs'
    exact h.writable hW hm hmt (hT.writable s' hs')
  · intro s' hs'
    rw [hsec] at hs'
    by_cases hss : s' = s
    · subst hss
      obtain ⟨a, b, _, h2, _⟩ := h.here
      left; rw [h2]; simp
    · rw [h.elsewhere s' hss, hct]; exact hT.filled s' hs'

theorem Shape.nodup (hT : Shape w ch t hd bodies ft) : (sections w ch t).Nodup := by
  obtain ⟨tn, htn⟩ := hT.alive
  exact (hT.tree.linked.loc t tn htn).nodup.filter _

/-- The rows of the table when only those of one section change. -/
theorem secRows_split (hT : Shape w ch t hd bodies ft) {pre post : List NodeId} (hsp : sections w ch t = pre ++ s :: post)
    (hsec : sections w' ch' t = sections w ch t) (hoth : ∀ c ∈ sections w ch t, c ≠ s → rowsOf w' ch' c = rowsOf w ch c) :
    secRows w ch t = pre.flatMap (rowsOf w ch) ++ (rowsOf w ch s ++ post.flatMap (rowsOf w ch)) ∧
    secRows w' ch' t = pre.flatMap (rowsOf w ch) ++ (rowsOf w' ch' s ++ post.flatMap (rowsOf w ch)) := by
  have hnd := hT.nodup
  rw [hsp] at hnd
  have hnd' := List.nodup_append.1 hnd
  have hpre : ∀ c ∈ pre, rowsOf w' ch' c = rowsOf w ch c := fun c hc => hoth c (by rw [hsp]; simp [hc]) (by
    rintro rfl; exact hnd'.2.2 c hc c (by simp) rfl)
  have hpost : ∀ c ∈ post, rowsOf w' ch' c = rowsOf w ch c := fun c hc => hoth c (by rw [hsp]; simp [hc]) (by
    rintro rfl; exact (List.nodup_cons.1 hnd'.2.1).1 hc)
  constructor
  · unfold secRows; rw [hsp]; simp
  · unfold secRows
    rw [hsec, hsp, List.flatMap_append, List.flatMap_cons, List.flatMap_congr hpre, List.flatMap_congr hpost]

theorem ins_ok {i : Int} {n : Nat} (h0 : -1 ≤ i) (h1 : i ≤ n) : (decide (i > (n : Int)) || decide (i < -1)) = false := by simp; omega
theorem ins_bad {i : Int} {n : Nat} (h : ¬ (-1 ≤ i ∧ i ≤ n)) : (decide (i > (n : Int)) || decide (i < -1)) = true := by simp; omega
theorem tdel_ok {i : Int} {n : Nat} (h0 : -1 ≤ i) (h1 : i < n) (h2 : n ≠ 0) :
    (decide (i ≥ (n : Int)) || decide (i < -1) || n == 0) = false := by simp; omega
theorem tdel_bad {i : Int} {n : Nat} (h : ¬ (-1 ≤ i ∧ i < n ∧ n ≠ 0)) :
    (decide (i ≥ (n : Int)) || decide (i < -1) || n == 0) = true := by simp; omega

/-- What the search finds: the section in which the place lies. -/
theorem First.bounds {hit : Nat → Bool} {k : Nat} (hhit : ∀ e, hit e = false → e ≤ k) {pre : List NodeId} (h : First w ch hit 0 pre s) :
    total w ch pre ≤ k := by
  rcases List.eq_nil_or_concat pre with rfl | ⟨a, c, rfl⟩
  · simp
  · rw [List.concat_eq_append] at h ⊢
    have := h.1 a c [] rfl
    rw [Nat.zero_add] at this
    exact hhit _ this

theorem sub32_small {a b : Nat} (h : b ≤ a) : sub32 a b = a - b := by unfold sub32; rw [if_pos h]

theorem insert_run (hT : Shape w ch t hd bodies ft) (hf : (secRows w ch t).length < 2147483648) (i : Int) :
    (-1 ≤ i ∧ i ≤ (secRows w ch t).length ∧ secRows w ch t ≠ [] → ∃ w' ch' row a b, insertRow t i w = .ok w' row ∧ w.nodes row = none ∧
      Shape w' ch' t hd bodies ft ∧ secRows w ch t = a ++ b ∧ a.length = place i (secRows w ch t).length ∧ secRows w' ch' t = a ++ row :: b ∧
      ∀ j m, w.nodes j = some m → ∃ m', w'.nodes j = some m' ∧ m'.data = m.data) ∧
    (¬ (-1 ≤ i ∧ i ≤ (secRows w ch t).length) → insertRow t i w = .exc w .indexSize) := by
  have hcount := (rows_run hT hf).1
  have hlen := toInt32_small hf
  constructor
  · rintro ⟨h0, h1, h2⟩
    have htot : total w ch (sections w ch t) = (secRows w ch t).length := rfl
    have hk : (if i == -1 then (secRows w ch t).length else toUInt32 i) = place i (secRows w ch t).length := by
      unfold place
      by_cases h : i = -1
      · rw [if_pos h, if_pos (by simp [h])]
      · rw [if_neg h, if_neg (by simp [h])]
        conv_lhs => rw [show i = (i.toNat : Int) by omega]
        exact toUInt32_small (by omega)
    have hkle : place i (secRows w ch t).length ≤ (secRows w ch t).length := by unfold place; split <;> omega
    generalize hk' : place i (secRows w ch t).length = k at *
    obtain ⟨pre, s, post, hsp, hfst⟩ := exists_first (w := w) (ch := ch) (fun e => decide (e > k) || e == (secRows w ch t).length) (sections w ch t) 0
      (by rw [hT.order]; simp) (by rw [Nat.zero_add, htot]; simp)
    have hlo : total w ch pre ≤ k := hfst.bounds (fun e he => by simp at he; omega)
    have hs : s ∈ sections w ch t := by rw [hsp]; simp
    have hsum : total w ch pre + (rowsOf w ch s).length + total w ch post = (secRows w ch t).length := by
      rw [← htot, hsp]; simp; omega
    have hhi : k - total w ch pre ≤ (rowsOf w ch s).length := by
      have := hfst.2
      rw [Nat.zero_add, total_append, total_cons, total_nil] at this
      simp only [Bool.or_eq_true, decide_eq_true_eq, beq_iff_eq] at this
      omega
    obtain ⟨w', ch', e1, e2⟩ := sectionInsert_run (i := ((k - total w ch pre : Nat) : Int)) (hT.section hs) (by omega) (by omega) (by omega)
    have hpl : place ((k - total w ch pre : Nat) : Int) (rowsOf w ch s).length = k - total w ch pre := by unfold place; rw [if_neg (by omega)]; omega
    rw [hpl] at e2
    obtain ⟨a, b, g1, g2, g3⟩ := e2.rows hT.tree
    have htag : ∀ tag x, (∃ m, w.nodes x = some m) → tagged w' tag x = tagged w tag x := fun tag x hx => e2.tagged hx
    obtain ⟨r1, r2⟩ := secRows_split (w' := w') (ch' := ch') hT hsp (sections_same hT.tree.linked (e2.elsewhere t (hT.ne hs)) htag)
      (fun c _ hcs => rowsOf_same hT.tree.linked (e2.elsewhere c hcs) (htag "tr"))
    refine ⟨w', ch', w.fresh, pre.flatMap (rowsOf w ch) ++ a, b ++ post.flatMap (rowsOf w ch), ?_, e2.new.1, e2.shape hT hs, ?_, ?_, ?_, e2.data⟩
    · unfold insertRow
      rw [Tree.bind_ok hcount, throwIf_neg (by rw [hlen]; exact ins_ok h0 h1), if_neg (by simpa using h2)]
      simp only [hk]
      rw [Tree.bind_ok (locate_run hT hf _ hsp hfst)]
      show sectionInsertRow s (toInt32 (sub32 k (total w ch pre))) w = _
      rw [sub32_small hlo, toInt32_small (by omega), e1]
    · rw [r1, g1]; simp
    · rw [List.length_append, g2]
      show total w ch pre + _ = k
      omega
    · rw [r2, g3]; simp
  · intro h
    unfold insertRow
    rw [Tree.bind_ok hcount, throwIf_pos (by rw [hlen]; exact ins_bad h)]

theorem delete_run (hT : Shape w ch t hd bodies ft) (hf : (secRows w ch t).length < 2147483648) (i : Int) :
    (-1 ≤ i ∧ i < (secRows w ch t).length ∧ secRows w ch t ≠ [] → ∃ w' ch' row a b, deleteRow t i w = .ok w' row ∧ WF w' ch' ∧ ch' t = ch t ∧
      secRows w ch t = a ++ row :: b ∧ a.length = place i ((secRows w ch t).length - 1) ∧ secRows w' ch' t = a ++ b ∧
      (∃ n, w'.nodes row = some n ∧ n.parent = none) ∧ ∀ j, (w'.nodes j).map Node.data = (w.nodes j).map Node.data) ∧
    (¬ (-1 ≤ i ∧ i < (secRows w ch t).length ∧ secRows w ch t ≠ []) → deleteRow t i w = .exc w .indexSize) := by
  have hcount := (rows_run hT hf).1
  have hlen := toInt32_small hf
  constructor
  · rintro ⟨h0, h1, h2⟩
    have hne : (secRows w ch t).length ≠ 0 := by simpa using h2
    have htot : total w ch (sections w ch t) = (secRows w ch t).length := rfl
    have hk : (if i == -1 then sub32 (secRows w ch t).length 1 else toUInt32 i) = place i ((secRows w ch t).length - 1) := by
      unfold place
      by_cases h : i = -1
      · rw [if_pos h, if_pos (by simp [h]), sub32_small (by omega)]
      · rw [if_neg h, if_neg (by simp [h])]
        conv_lhs => rw [show i = (i.toNat : Int) by omega]
        exact toUInt32_small (by omega)
    have hkle : place i ((secRows w ch t).length - 1) < (secRows w ch t).length := by unfold place; split <;> omega
    generalize hk' : place i ((secRows w ch t).length - 1) = k at *
    obtain ⟨pre, s, post, hsp, hfst⟩ := exists_first (w := w) (ch := ch) (fun e => decide (e > k)) (sections w ch t) 0
      (by rw [hT.order]; simp) (by rw [Nat.zero_add, htot]; simpa using hkle)
    have hlo : total w ch pre ≤ k := hfst.bounds (fun e he => by simpa using he)
    have hs : s ∈ sections w ch t := by rw [hsp]; simp
    have hsum : total w ch pre + (rowsOf w ch s).length + total w ch post = (secRows w ch t).length := by
      rw [← htot, hsp]; simp; omega
    have hhi : k - total w ch pre < (rowsOf w ch s).length := by
      have := hfst.2
      rw [Nat.zero_add, total_append, total_cons, total_nil] at this
      simp only [decide_eq_true_eq] at this
      omega
    obtain ⟨w', ch', row, e1, e2⟩ := sectionDelete_run (i := ((k - total w ch pre : Nat) : Int)) (hT.section hs) (by omega) (by omega) (by omega) (by omega)
    have hpl : place ((k - total w ch pre : Nat) : Int) ((rowsOf w ch s).length - 1) = k - total w ch pre := by unfold place; rw [if_neg (by omega)]; omega
    rw [hpl] at e2
    obtain ⟨a, b, g1, g2, g3⟩ := e2.here
    have htag : ∀ tag x, (∃ m, w.nodes x = some m) → tagged w' tag x = tagged w tag x := fun tag x _ => tagged_data (e2.data x) tag
    obtain ⟨r1, r2⟩ := secRows_split (w' := w') (ch' := ch') hT hsp (sections_same hT.tree.linked (e2.elsewhere t (hT.ne hs)) htag)
      (fun c _ hcs => rowsOf_same hT.tree.linked (e2.elsewhere c hcs) (htag "tr"))
    refine ⟨w', ch', row, pre.flatMap (rowsOf w ch) ++ a, b ++ post.flatMap (rowsOf w ch), ?_, e2.wf, e2.elsewhere t (hT.ne hs), ?_, ?_, ?_, e2.gone, e2.data⟩
    · unfold deleteRow
      rw [Tree.bind_ok hcount, throwIf_neg (by rw [hlen]; exact tdel_ok h0 h1 hne)]
      simp only [hk]
      rw [Tree.bind_ok (locate_run hT hf _ hsp hfst)]
      show sectionDeleteRow s (toInt32 (sub32 k (total w ch pre))) w = _
      rw [sub32_small hlo, toInt32_small (by omega), e1]
    · rw [r1, g1]; simp
    · rw [List.length_append, g2]
      show total w ch pre + _ = k
      omega
    · rw [r2, g3]; simp
  · intro h
    have h' : ¬ (-1 ≤ i ∧ i < (secRows w ch t).length ∧ (secRows w ch t).length ≠ 0) := by
      intro h3; exact h ⟨h3.1, h3.2.1, by simpa using h3.2.2⟩
    unfold deleteRow
    rw [Tree.bind_ok hcount, throwIf_pos (by rw [hlen]; exact tdel_bad h')]

theorem spec_eq {bodies : List NodeId} {ft : Option NodeId} (ho : sections w ch t = hd :: (bodies ++ ft.toList)) (hh : tagged w "thead" hd = true)
    (hb : ∀ b ∈ bodies, tagged w "tbody" b = true) (hf : ∀ f, ft = some f → tagged w "tfoot" f = true) : tableRows w ch t = secRows w ch t := by
  have hsub : ∀ tag, (∀ x, tagged w tag x = true → (tagged w "thead" x || tagged w "tbody" x || tagged w "tfoot" x) = true) →
      (ch t).filter (tagged w tag) = (sections w ch t).filter (tagged w tag) := by
    intro tag h
    unfold sections
    rw [List.filter_filter]
    exact List.filter_congr fun x _ => by
      cases hx : tagged w tag x with
      | false => simp
      | true => rw [h x hx]; rfl
  have no : ∀ {a b : String} {x : NodeId}, a.toUTF8.toList ≠ b.toUTF8.toList → tagged w a x = true → ¬ tagged w b x = true :=
    fun h h1 h2 => h (tagged_unique h1 h2)
  have e1 : (ch t).filter (tagged w "thead") = [hd] := by
    rw [hsub _ (fun x h => by simp [h]), ho, List.filter_cons_of_pos hh, List.filter_append,
      List.filter_eq_nil_iff.2 (fun x hx => no (Ne.symm ne_tags.2.2.1) (hb x hx)), List.filter_eq_nil_iff.2 (fun x hx => by
        cases ft with
        | none => cases hx
        | some f => simp at hx; subst hx; exact no (Ne.symm ne_tags.1) (hf x rfl))]
    rfl
  have e2 : (ch t).filter (tagged w "tbody") = bodies := by
    rw [hsub _ (fun x h => by simp [h]), ho, List.filter_cons_of_neg (no ne_tags.2.2.1 hh), List.filter_append,
      List.filter_eq_self.2 (fun x hx => hb x hx), List.filter_eq_nil_iff.2 (fun x hx => by
        cases ft with
        | none => cases hx
        | some f => simp at hx; subst hx; exact no (Ne.symm ne_tags.2.1) (hf x rfl)), List.append_nil]
  have e3 : (ch t).filter (tagged w "tfoot") = ft.toList := by
    rw [hsub _ (fun x h => by simp [h]), ho, List.filter_cons_of_neg (no ne_tags.1 hh), List.filter_append,
      List.filter_eq_nil_iff.2 (fun x hx => no ne_tags.2.1 (hb x hx)), List.nil_append, List.filter_eq_self.2 (fun x hx => by
        cases ft with
        | none => cases hx
        | some f => simp at hx; subst hx; exact hf x rfl)]
  unfold tableRows secRows
  rw [e1, e2, e3, ho]
  simp

theorem Shape.spec (hT : Shape w ch t hd bodies ft) : tableRows w ch t = secRows w ch t := spec_eq hT.order hT.head hT.body hT.foot

/-- **C53**, reading: the collection `rows` of the table is head rows, then body rows, then foot rows.  Partial: see `Shape`. -/
theorem C53_rows_partial (hT : Shape w ch t hd bodies ft) (hf : (tableRows w ch t).length < 2147483648) :
    count trName t w = .ok w (tableRows w ch t).length ∧ ∀ i, i < 4294967295 → item trName t i w = .ok w (tableRows w ch t)[i]? := by
  rw [hT.spec] at hf ⊢
  exact rows_run hT hf

/-- **C53**, insertion into a table that has rows.  For -1 ≤ i ≤ length the new row gets the index i among all rows of the table (is the last for
-1), and the table keeps its shape; other indices raise INDEX_SIZE_ERR and nothing happens.  Partial: see `Shape`. -/
theorem C53_insert_partial (hT : Shape w ch t hd bodies ft) (hf : (tableRows w ch t).length < 2147483648) (i : Int) :
    (-1 ≤ i ∧ i ≤ (tableRows w ch t).length ∧ tableRows w ch t ≠ [] → ∃ w' ch' row a b, insertRow t i w = .ok w' row ∧ w.nodes row = none ∧
      Shape w' ch' t hd bodies ft ∧ tableRows w ch t = a ++ b ∧ a.length = place i (tableRows w ch t).length ∧ tableRows w' ch' t = a ++ row :: b ∧
      ∀ j m, w.nodes j = some m → ∃ m', w'.nodes j = some m' ∧ m'.data = m.data) ∧
    (¬ (-1 ≤ i ∧ i ≤ (tableRows w ch t).length) → insertRow t i w = .exc w .indexSize) := by
  rw [hT.spec] at hf ⊢
  refine ⟨fun h => ?_, (insert_run hT hf i).2⟩
  obtain ⟨w', ch', row, a, b, h1, h2, h3, h4, h5, h6, h7⟩ := (insert_run hT hf i).1 h
  exact ⟨w', ch', row, a, b, h1, h2, h3, h4, h5, by rw [h3.spec]; exact h6, h7⟩

/-- **C53**, deletion from a table: exactly the row of the index goes (the last for -1); other indices raise INDEX_SIZE_ERR and nothing happens.
Partial: see `Shape`. -/
theorem C53_delete_partial (hT : Shape w ch t hd bodies ft) (hf : (tableRows w ch t).length < 2147483648) (i : Int) :
    (-1 ≤ i ∧ i < (tableRows w ch t).length ∧ tableRows w ch t ≠ [] → ∃ w' ch' row a b, deleteRow t i w = .ok w' row ∧ WF w' ch' ∧
      tableRows w ch t = a ++ row :: b ∧ a.length = place i ((tableRows w ch t).length - 1) ∧ tableRows w' ch' t = a ++ b ∧
      (∃ n, w'.nodes row = some n ∧ n.parent = none) ∧ ∀ j, (w'.nodes j).map Node.data = (w.nodes j).map Node.data) ∧
    (¬ (-1 ≤ i ∧ i < (tableRows w ch t).length ∧ tableRows w ch t ≠ []) → deleteRow t i w = .exc w .indexSize) := by
  rw [hT.spec] at hf ⊢
  refine ⟨fun h => ?_, (delete_run hT hf i).2⟩
  obtain ⟨w', ch', row, a, b, h1, h2, h3, h4, h5, h6, h7, h8⟩ := (delete_run hT hf i).1 h
  have htag : ∀ tag x, tagged w' tag x = tagged w tag x := fun tag x => tagged_data (h8 x) tag
  refine ⟨w', ch', row, a, b, h1, h2, h4, h5, ?_, h7, h8⟩
  rw [← h6]
  refine spec_eq (hd := hd) (bodies := bodies) (ft := ft) ?_ (by rw [htag]; exact hT.head) (fun x hx => by rw [htag]; exact hT.body x hx)
    (fun f hf' => by rw [htag]; exact hT.foot f hf')
  rw [sections_same (w' := w') (ch' := ch') hT.tree.linked h3 (fun tag x _ => htag tag x)]
  exact hT.order

/-- Counting in an element that has children or no next sibling. -/
theorem count_run (hW : WF w ch) (hd : DocOrder ch order) {n : Node} (hx : w.nodes x = some n) (hroot : ch x ≠ [] ∨ n.next = none) {tag : DStr} {name : String}
    (hn : tag.data.map asciiLower = name.toUTF8.toList) (hb : ((order x).filter (tagged w name)).length < 4294967296) :
    count tag x w = .ok w ((order x).filter (tagged w name)).length := by
  apply reading_ok
  show Trav.colLength (isTag tag w) w x = _
  rw [(Trav.C35_collection_partial hW hd hx hroot (isTag tag w) (fun _ => false)).1, member_tag hn]
  exact congrArg Out.ok (Nat.mod_eq_of_lt (Nat.lt_of_lt_of_le hb (by omega)))

theorem item_run (hW : WF w ch) (hd : DocOrder ch order) {n : Node} (hx : w.nodes x = some n) (hroot : ch x ≠ [] ∨ n.next = none) {tag : DStr} {name : String}
    (hn : tag.data.map asciiLower = name.toUTF8.toList) {i : Nat} (hi : i < 4294967295) :
    item tag x i w = .ok w ((order x).filter (tagged w name))[i]? := by
  apply reading_ok
  show Trav.colItem (isTag tag w) w x i = _
  rw [(Trav.C35_collection_partial hW hd hx hroot (isTag tag w) (fun _ => false)).2.1 i (by omega), member_tag hn]

end

/-! ## Examples -/

open Dom.Tree (Call Reach exists_ok World.empty)

/-- A table with a head, two bodies and a foot: nodes 2 (THEAD), 4 and 6 (TBODY), 9 (TFOOT); rows 3, 5, 7, 8, 10. -/
def sample : List Call :=
  [.createDocument, .createNode 0 .element (some (Names.lit "TABLE")) none, .createNode 0 .element (some (Names.lit "THEAD")) none,
    .createNode 0 .element (some (Names.lit "TR")) none, .createNode 0 .element (some (Names.lit "TBODY")) none,
    .createNode 0 .element (some (Names.lit "tr")) none, .createNode 0 .element (some (Names.lit "tbody")) none,
    .createNode 0 .element (some (Names.lit "TR")) none, .createNode 0 .element (some (Names.lit "TR")) none,
    .createNode 0 .element (some (Names.lit "TFOOT")) none, .createNode 0 .element (some (Names.lit "TR")) none,
    .appendChild 0 1, .appendChild 1 2, .appendChild 2 3, .appendChild 1 4, .appendChild 4 5, .appendChild 1 6, .appendChild 6 7, .appendChild 6 8,
    .appendChild 1 9, .appendChild 9 10]

/-- The rows of an element, in document order, as the collection gives them. -/
def rowList (x : NodeId) : Nat → Nat → World → Out (List NodeId)
  | 0, _, _ => .ok []
  | k + 1, i, w => do
    let o ← Trav.colItem (isTag trName w) w x i
    match o with
    | none => .ok []
    | some y => do
      let l ← rowList x k (i + 1) w
      .ok (y :: l)

/-- Runs a call and looks at the rows afterwards. -/
def rowsAfter {α : Type} (m : M α) (x : NodeId) (w : World) : Out (List NodeId) :=
  match m w with
  | .ok w' _ => rowList x 20 0 w'
  | .exc _ e => .exc e
  | .fault f => .fault f

/-- The sample table at work. -/
theorem sample_runs : ∃ w, Reach (fun w c => c.Ok w) w ∧ rowList 1 20 0 w = .ok [3, 5, 7, 8, 10] ∧
    rowsAfter (insertRow 1 3) 1 w = .ok [3, 5, 7, 11, 8, 10] ∧ rowsAfter (insertRow 1 1) 1 w = .ok [3, 11, 5, 7, 8, 10] ∧
    rowsAfter (insertRow 1 (-1)) 1 w = .ok [3, 5, 7, 8, 10, 11] ∧ rowsAfter (insertRow 1 6) 1 w = .exc .indexSize ∧
    rowsAfter (deleteRow 1 2) 1 w = .ok [3, 5, 8, 10] ∧ rowsAfter (deleteRow 1 (-1)) 1 w = .ok [3, 5, 7, 8] := by
  obtain ⟨w, h1, h2⟩ := exists_ok sample (fun w => decide (rowList 1 20 0 w = .ok [3, 5, 7, 8, 10]) &&
    decide (rowsAfter (insertRow 1 3) 1 w = .ok [3, 5, 7, 11, 8, 10]) && decide (rowsAfter (insertRow 1 1) 1 w = .ok [3, 11, 5, 7, 8, 10]) &&
    decide (rowsAfter (insertRow 1 (-1)) 1 w = .ok [3, 5, 7, 8, 10, 11]) && decide (rowsAfter (insertRow 1 6) 1 w = .exc .indexSize) &&
    decide (rowsAfter (deleteRow 1 2) 1 w = .ok [3, 5, 8, 10]) && decide (rowsAfter (deleteRow 1 (-1)) 1 w = .ok [3, 5, 7, 8])) (by decide +kernel)
  simp only [Bool.and_eq_true, decide_eq_true_eq] at h2
  exact ⟨w, h1, h2.1.1.1.1.1.1, h2.1.1.1.1.1.2, h2.1.1.1.1.2, h2.1.1.1.2, h2.1.1.2, h2.1.2, h2.2⟩

/-- The shape, as a test of the memory. -/
def shapeB (w : World) (t hd : NodeId) (bodies : List NodeId) (ft : Option NodeId) : Bool :=
  let ch := Tree.kidsOf w
  let secs := sections w ch t
  Tree.noEntities w && decide (secs = hd :: (bodies ++ ft.toList)) && tagged w "thead" hd && bodies.all (tagged w "tbody") && ft.toList.all (tagged w "tfoot") &&
  (Tree.preorder ch (w.fresh + 1) t).all (fun x => !tagged w "tr" x || secs.any fun s => (Tree.preorder ch (w.fresh + 1) s).contains x) &&
  secs.all (fun s => (Tree.preorder ch (w.fresh + 1) s).all fun x => !tagged w "tr" x || (ch s).contains x) &&
  secs.all (fun s => !(ch s).isEmpty || (ch t).getLast? == some s)

theorem shape_of {w : World} {ch : Children} (hW : WF w ch) {t hd : NodeId} {bodies : List NodeId} {ft : Option NodeId}
    (h : shapeB w t hd bodies ft = true) : Shape w ch t hd bodies ft := by
  have hk := Tree.kids_eq hW.toCore
  unfold shapeB at h
  simp only [← hk, Bool.and_eq_true, decide_eq_true_eq, List.all_eq_true, Bool.or_eq_true, Bool.not_eq_true', List.any_eq_true,
    List.contains_iff_mem] at h
  obtain ⟨⟨⟨⟨⟨⟨⟨h1, h2⟩, h3⟩, h4⟩, h5⟩, h6⟩, h7⟩, h8⟩ := h
  have hbi : ∀ {x d : NodeId}, Below ch x d ↔ d ∈ Tree.preorder ch (w.fresh + 1) x := by
    intro x d
    have := Tree.below_iff hW.toCore (x := x) (d := d)
    rw [← hk] at this
    exact this
  refine ⟨hW, h2, h3, h4, fun f hf => h5 f (by simp [hf]), ?_, ?_, ?_, ?_⟩
  · intro x hx hxt
    rcases h6 x (hbi.1 hx) with h | ⟨s, hs, hm⟩
    · rw [hxt] at h; cases h
    · exact ⟨s, hs, hbi.2 hm⟩
  · intro s hs x hx hxt
    rcases h7 s hs x (hbi.1 hx) with h | h
    · rw [hxt] at h; cases h
    · exact h
  · intro s hs
    obtain ⟨n, hn, ht⟩ := sections_elem hs
    exact Tree.writable_of hW h1 hn ht
  · intro s hs
    rcases h8 s hs with h | h
    · left; intro h0; rw [h0] at h; simp at h
    · right; simpa using h

/-- The sample table meets the hypotheses of the theorems above. -/
theorem sample_meets : ∃ w ch, Reach (fun w c => c.Ok w) w ∧ Shape w ch 1 2 [4, 6] (some 9) ∧ tableRows w ch 1 = [3, 5, 7, 8, 10] := by
  obtain ⟨w, h1, h2⟩ := exists_ok sample (fun w => shapeB w 1 2 [4, 6] (some 9) && decide (tableRows w (Tree.kidsOf w) 1 = [3, 5, 7, 8, 10])) (by decide +kernel)
  simp only [Bool.and_eq_true, decide_eq_true_eq] at h2
  obtain ⟨ch, hW⟩ := h1.wf (fun _ _ h => h)
  refine ⟨w, ch, h1, shape_of hW h2.1, ?_⟩
  rw [Tree.kids_eq hW.toCore]; exact h2.2

/-! ## Where the code deviates -/

/-- **C53** is violated: the rows come in document order: with the foot before the body, as HTML 4 asks for, the foot row comes before the body row. -/
theorem C53_order_violated : ∃ w ch, Reach (fun w c => c.Ok w) w ∧ WF w ch ∧ tableRows w ch 1 = [5, 3] ∧
    rowList 1 20 0 w = .ok [3, 5] := by
  obtain ⟨w, h1, h2⟩ := exists_ok [.createDocument, .createNode 0 .element (some (Names.lit "TABLE")) none, .createNode 0 .element (some (Names.lit "TFOOT")) none,
      .createNode 0 .element (some (Names.lit "TR")) none, .createNode 0 .element (some (Names.lit "TBODY")) none, .createNode 0 .element (some (Names.lit "TR")) none,
      .appendChild 0 1, .appendChild 1 2, .appendChild 2 3, .appendChild 1 4, .appendChild 4 5] (fun w => decide (tableRows w (Tree.kidsOf w) 1 = [5, 3]) &&
    decide (rowList 1 20 0 w = .ok [3, 5])) (by decide +kernel)
  simp only [Bool.and_eq_true, decide_eq_true_eq] at h2
  obtain ⟨ch, hW⟩ := h1.wf (fun _ _ h => h)
  exact ⟨w, ch, h1, hW, by rw [Tree.kids_eq hW.toCore]; exact h2.1, h2.2⟩

/-- A table with one body and one row and no head. -/
def headless : List Call :=
  [.createDocument, .createNode 0 .element (some (Names.lit "TABLE")) none, .createNode 0 .element (some (Names.lit "TBODY")) none,
    .createNode 0 .element (some (Names.lit "TR")) none, .appendChild 0 1, .appendChild 1 2, .appendChild 2 3]

/-- **C53** is violated, and memory safety with it: in a table with a row but without a THEAD, inserting and deleting rows dereference NULL. -/
theorem C53_no_head_violated : ∃ w, Reach (fun w c => c.Ok w) w ∧ rowList 1 20 0 w = .ok [3] ∧ rowsAfter (insertRow 1 0) 1 w = .fault .nullDeref ∧
    rowsAfter (deleteRow 1 0) 1 w = .fault .nullDeref := by
  obtain ⟨w, h1, h2⟩ := exists_ok headless (fun w => decide (rowList 1 20 0 w = .ok [3]) && decide (rowsAfter (insertRow 1 0) 1 w = .fault .nullDeref) &&
    decide (rowsAfter (deleteRow 1 0) 1 w = .fault .nullDeref)) (by decide +kernel)
  simp only [Bool.and_eq_true, decide_eq_true_eq] at h2
  exact ⟨w, h1, h2.1.1, h2.1.2, h2.2⟩

/-- **C53** is violated, and memory safety with it: into a new table two rows cannot be inserted; the second call dereferences NULL. -/
theorem C53_two_rows_violated : ∃ w, Reach (fun w c => c.Ok w) w ∧ rowsAfter (insertRow 1 (-1)) 1 w = .ok [2] ∧
    rowsAfter (do let _ ← insertRow 1 (-1); insertRow 1 (-1)) 1 w = .fault .nullDeref := by
  obtain ⟨w, h1, h2⟩ := exists_ok [.createDocument, .createNode 0 .element (some (Names.lit "TABLE")) none, .appendChild 0 1]
    (fun w => decide (rowsAfter (insertRow 1 (-1)) 1 w = .ok [2]) && decide (rowsAfter (do let _ ← insertRow 1 (-1); insertRow 1 (-1)) 1 w = .fault .nullDeref))
    (by decide +kernel)
  simp only [Bool.and_eq_true, decide_eq_true_eq] at h2
  exact ⟨w, h1, h2.1, h2.2⟩

/-- **C53** is violated: the rows of a table in a cell count as rows of the outer table, and inserting before one of them fails. -/
theorem C53_nested_violated : ∃ w, Reach (fun w c => c.Ok w) w ∧ rowList 1 20 0 w = .ok [3, 6] ∧ tableRows w (Tree.kidsOf w) 1 = [3] ∧
    rowsAfter (insertRow 1 1) 1 w = .exc .notFound ∧ rowsAfter (deleteRow 1 1) 1 w = .exc .notFound := by
  obtain ⟨w, h1, h2⟩ := exists_ok [.createDocument, .createNode 0 .element (some (Names.lit "TABLE")) none, .createNode 0 .element (some (Names.lit "THEAD")) none,
      .createNode 0 .element (some (Names.lit "TR")) none, .createNode 0 .element (some (Names.lit "TD")) none, .createNode 0 .element (some (Names.lit "TABLE")) none,
      .createNode 0 .element (some (Names.lit "TR")) none,
      .appendChild 0 1, .appendChild 1 2, .appendChild 2 3, .appendChild 3 4, .appendChild 4 5, .appendChild 5 6] (fun w =>
    decide (rowList 1 20 0 w = .ok [3, 6]) && decide (tableRows w (Tree.kidsOf w) 1 = [3]) &&
    decide (rowsAfter (insertRow 1 1) 1 w = .exc .notFound) && decide (rowsAfter (deleteRow 1 1) 1 w = .exc .notFound)) (by decide +kernel)
  simp only [Bool.and_eq_true, decide_eq_true_eq] at h2
  exact ⟨w, h1, h2.1.1.1, h2.1.1.2, h2.1.2, h2.2⟩

/-- **C53** is violated, and memory safety with it: an empty THEAD before a body. -/
theorem C53_empty_section_violated : ∃ w, Reach (fun w c => c.Ok w) w ∧ rowList 1 20 0 w = .ok [4] ∧ rowsAfter (insertRow 1 0) 1 w = .fault .nullDeref ∧
    rowsAfter (sectionInsertRow 2 0) 1 w = .fault .nullDeref := by
  obtain ⟨w, h1, h2⟩ := exists_ok [.createDocument, .createNode 0 .element (some (Names.lit "TABLE")) none, .createNode 0 .element (some (Names.lit "THEAD")) none,
      .createNode 0 .element (some (Names.lit "TBODY")) none, .createNode 0 .element (some (Names.lit "TR")) none,
      .appendChild 0 1, .appendChild 1 2, .appendChild 1 3, .appendChild 3 4] (fun w =>
    decide (rowList 1 20 0 w = .ok [4]) && decide (rowsAfter (insertRow 1 0) 1 w = .fault .nullDeref) &&
    decide (rowsAfter (sectionInsertRow 2 0) 1 w = .fault .nullDeref)) (by decide +kernel)
  simp only [Bool.and_eq_true, decide_eq_true_eq] at h2
  exact ⟨w, h1, h2.1.1, h2.1.2, h2.2⟩

/-- A table of its own: a THEAD (3), a CAPTION (4) and a body with a row. -/
def headCalls : List Call :=
  headless ++ [.createNode 0 .element (some (Names.lit "THEAD")) none, .createNode 0 .element (some (Names.lit "CAPTION")) none]

/-- Setting the head of a table refuses a THEAD and takes a CAPTION instead; creating a head puts it after the body, so that its rows come last. -/
theorem C53_head_violated : ∃ w, Reach (fun w c => c.Ok w) w ∧ tagged w "thead" 4 = true ∧ tagged w "caption" 5 = true ∧
    rowsAfter (setTHead 1 (some 4)) 1 w = .exc .hierarchyRequest ∧ rowsAfter (setTHead 1 (some 5)) 1 w = .ok [3] ∧
    rowsAfter (do let h ← createSection theadName 1; sectionInsertRow h 0) 1 w = .ok [3, 7] := by
  obtain ⟨w, h1, h2⟩ := exists_ok headCalls (fun w => tagged w "thead" 4 && tagged w "caption" 5 &&
    decide (rowsAfter (setTHead 1 (some 4)) 1 w = .exc .hierarchyRequest) && decide (rowsAfter (setTHead 1 (some 5)) 1 w = .ok [3]) &&
    decide (rowsAfter (do let h ← createSection theadName 1; sectionInsertRow h 0) 1 w = .ok [3, 7])) (by decide +kernel)
  simp only [Bool.and_eq_true, decide_eq_true_eq] at h2
  exact ⟨w, h1, h2.1.1.1.1, h2.1.1.1.2, h2.1.1.2, h2.1.2, h2.2⟩

end Dom.Html.Table
