import Verif.Html.PropsRow
import Verif.Tree.LifeInv
/-!
# C53: the sections of a table, and the first row of a table
-/
namespace Dom.Html.Table
set_option linter.unusedSimpArgs false
attribute [-simp] String.length_utf8EncodeChar

open Dom.Str (DStr contents asciiLower)
open Dom.Tree (World NodeId Node NodeType Children WF DocOrder Below ReadOnly M getNode deref throwIf bound initNode appendChild insertBefore
  removeChild Call Reach exists_ok Joined AncSelf isEntity)

section
variable {w w' : World} {ch ch' : Children} {t x p j : NodeId}

/-! ## Putting a new element into another -/

theorem anc_below (hW : Tree.Core w ch) (h : AncSelf w x j) : ∀ {n : Node}, w.nodes x = some n → n.type ≠ .attribute → n.type ≠ .text →
    Below ch j x ∨ ∃ i, Below ch i x ∧ isEntity w i := by
  induction h using Relation.ReflTransGen.head_induction_on with
  | refl => intros; exact .inl .refl
  | @head x z hxz _ ih =>
    intro n hx ha ht
    obtain ⟨m, hm, hmz⟩ := hxz
    rw [hx] at hm; cases hm
    have hmem : x ∈ ch z := hW.linked.up x n z hx ha hmz
    obtain ⟨zn, hz⟩ := hW.linked.alive_parent hx hmz
    have hmay := hW.types z zn x n hz hmem hx
    by_cases hza : zn.type = .attribute
    · refine .inr ⟨x, .refl, n, hx, .inr ?_⟩
      rw [hza] at hmay
      cases hmay with
      | content hp _ => simp at hp
      | attr hc =>
        simp only [List.mem_cons, List.not_mem_nil, or_false] at hc
        rcases hc with h | h
        · exact absurd h ht
        · exact h
    · have hzt : zn.type ≠ .text := by
        intro h
        rw [h] at hmay
        cases hmay with
        | content hp _ => simp at hp
      rcases ih hz hza hzt with h | ⟨i, hi, hi'⟩
      · exact .inl (.tail h hmem)
      · exact .inr ⟨i, .tail hi hmem, hi'⟩

/-- An element without children and parent can be put at the end of another of the same document. -/
theorem put_run (hW : WF w ch) {pn xn : Node} (hp : w.nodes p = some pn) (hpt : pn.type = .element) (hro : ¬ ReadOnly w p) (hx : w.nodes x = some xn)
    (hxt : xn.type = .element) (hpar : xn.parent = none) (hown : xn.owner = pn.owner) (hch : ch x = []) (hne : x ≠ p) :
    ∃ w' ch', appendChild p x w = .ok w' x ∧ Joined w ch p x none w' ch' := by
  refine Tree.join_run hW hp hx hro hpar (by simp [hxt]) (by simp [hxt]) hown ?_
    ⟨pn, xn, hp, hx, by rw [hpt, hxt]; exact .content (by simp) (by simp), fun h => by rw [hpt] at h; cases h⟩ (fun c hc => by cases hc)
  intro ha
  rcases anc_below hW.toCore ha hp (by simp [hpt]) (by simp [hpt]) with h | h
  · rcases Relation.ReflTransGen.cases_head h with rfl | ⟨z, hz, _⟩
    · exact hne rfl
    · rw [hch] at hz; cases hz
  · exact hro ((Tree.readOnly_elem hW.toCore hp hpt).2 h)

/-- A new element `new` of the name is the last child of `p`. -/
structure Appended (w : World) (ch : Children) (p : NodeId) (name : String) (new : NodeId) (w' : World) (ch' : Children) : Prop where
  wf : WF w' ch'
  made : w.nodes new = none ∧ tagged w' name new = true ∧ ch' new = []
  here : ch' p = ch p ++ [new]
  elsewhere : ∀ q, q ≠ p → ch' q = ch q
  data : ∀ j m, w.nodes j = some m → ∃ m', w'.nodes j = some m' ∧ m'.data = m.data

theorem append_new (hW : WF w ch) {n : Node} (hx : w.nodes t = some n) (ht : n.type = .element) (hro : ¬ ReadOnly w t) {tag : DStr} {name : String}
    (hn : tag.data.map asciiLower = name.toUTF8.toList) :
    ∃ w' ch', (do let h ← newElement tag t; appendChild t h : M NodeId) w = .ok w' w.fresh ∧ Appended w ch t name w.fresh w' ch' ∧ w'.fresh = w.fresh + 1 ∧
      (∀ j, j ≠ w.fresh → (w'.nodes j).map Node.owner = (w.nodes j).map Node.owner) ∧ (w'.nodes w.fresh).map Node.owner = some n.owner := by
  obtain ⟨d, hd, e1, e2⟩ := newElement_run hW hx ht tag
  have hdead := Tree.fresh_dead hW.toCore
  have hne : w.fresh ≠ t := by rintro h; rw [← h, hdead] at hx; cases hx
  obtain ⟨w', ch', f1, f2⟩ := put_run e2 (Tree.add_old hW.toCore hx) ht (Tree.add_readOnly hW e2 hx ht hro) (Tree.add_new _) rfl rfl (by rw [hd]; rfl)
    (hW.linked.dead _ hdead) hne
  refine ⟨w', ch', by rw [Tree.bind_ok e1, f1], ⟨f2.wf, ⟨hdead, ?_, ?_⟩, ?_, f2.elsewhere, ?_⟩, f2.fresh, ?_, ?_⟩
  · rw [tagged_data (f2.data w.fresh)]
    unfold tagged
    rw [Tree.add_new, Option.any_some]
    rw [show contents (Tree.elementNode (some tag) n.ns n.pfx d).name = tag.data from rfl, hn]
    simp [Tree.elementNode]
  · rw [f2.elsewhere _ hne]
    exact hW.linked.dead _ hdead
  · obtain ⟨a, b, g1, g2, g3⟩ := f2.here
    have hb : b = [] := by simpa using g2
    subst hb
    rw [g3, g1]; simp
  · intro j m hm
    have h3 := f2.data j
    rw [Tree.add_old hW.toCore hm] at h3
    cases h4 : w'.nodes j with
    | none => rw [h4] at h3; simp at h3
    | some m' => rw [h4] at h3; exact ⟨m', rfl, by simpa using h3⟩
  · intro j hj
    rw [f2.owner j]
    show ((if j = w.fresh then some _ else w.nodes j).map Node.owner) = _
    rw [if_neg hj]
  · rw [f2.owner, Tree.add_new, hd]; rfl

/-! ## The sections -/

/-- **C53**, create: an existing section is returned and nothing changes; otherwise a new one is put at the end. -/
theorem C53_create_section (hW : WF w ch) {n : Node} (hx : w.nodes t = some n) (ht : n.type = .element) (hro : ¬ ReadOnly w t) {tag : DStr} {name : String}
    (hn : tag.data.map asciiLower = name.toUTF8.toList) :
    (∀ o, (ch t).find? (tagged w name) = some o → createSection tag t w = .ok w o) ∧
    ((∀ c ∈ ch t, tagged w name c = false) → ∃ w' ch' new, createSection tag t w = .ok w' new ∧ Appended w ch t name new w' ch') := by
  have hc := childOf_run hW hx hn
  constructor
  · intro o ho
    unfold createSection
    rw [Tree.bind_ok hc, ho]; rfl
  · intro hno
    have : (ch t).find? (tagged w name) = none := List.find?_eq_none.2 fun c hc => by rw [hno c hc]; simp
    obtain ⟨w', ch', e, hA, _⟩ := append_new hW hx ht hro hn
    refine ⟨w', ch', w.fresh, ?_, hA⟩
    unfold createSection
    rw [Tree.bind_ok hc, this]
    exact e

/-- **C53**, delete: the first section of the name goes, and nothing else changes; without one nothing happens. -/
theorem C53_delete_section (hW : WF w ch) {n : Node} (hx : w.nodes t = some n) (ht : n.type = .element) (hro : ¬ ReadOnly w t) {tag : DStr} {name : String}
    (hn : tag.data.map asciiLower = name.toUTF8.toList) :
    ((∀ c ∈ ch t, tagged w name c = false) → deleteChild tag t w = .ok w ()) ∧
    (∀ a o b, ch t = a ++ o :: b → (∀ c ∈ a, tagged w name c = false) → tagged w name o = true →
      ∃ w' ch', deleteChild tag t w = .ok w' () ∧ WF w' ch' ∧ ch' t = a ++ b ∧ (∀ q, q ≠ t → ch' q = ch q) ∧
        (∀ j, (w'.nodes j).map Node.data = (w.nodes j).map Node.data) ∧ ∀ j, (w'.nodes j).map Node.owner = (w.nodes j).map Node.owner) := by
  have hc := childOf_run hW hx hn
  constructor
  · intro hno
    have : (ch t).find? (tagged w name) = none := List.find?_eq_none.2 fun c hc => by rw [hno c hc]; simp
    unfold deleteChild
    rw [Tree.bind_ok hc, this]; rfl
  · intro a o b hab ha ho
    have hf : (ch t).find? (tagged w name) = some o := by
      rw [hab, List.find?_append, List.find?_eq_none.2 (fun c hc => by rw [ha c hc]; simp), List.find?_cons_of_pos ho]; rfl
    have hoc : o ∈ ch t := by rw [hab]; simp
    obtain ⟨on, hon, hona, hop⟩ := hW.linked.alive_child hoc
    have href : Tree.removeRefusal w ch t o n on = none := by
      unfold Tree.removeRefusal
      rw [if_neg (by simp [ht]), if_neg (by simpa using hoc), if_neg hro]
    obtain ⟨w', ch', e, hR⟩ := Tree.removeChild_ok hW hx hon (fun h => absurd h hona) href
    have hnd := (hW.linked.loc t n hx).nodup
    refine ⟨w', ch', ?_, hR.wf, ?_, ?_, hR.data, hR.owner⟩
    · unfold deleteChild
      rw [Tree.bind_ok hc, hf]
      show (removeChild t o >>= _) w = _
      rw [Tree.bind_ok e]; rfl
    · rw [hR.lists, hab]
      rw [hab] at hnd
      have hnd' := List.nodup_append.1 hnd
      rw [List.filter_append, List.filter_cons_of_neg (by simp), List.filter_eq_self (l := a) |>.2 (fun y hy => by
          simpa using fun h => hnd'.2.2 y hy o (by simp) h),
        List.filter_eq_self (l := b) |>.2 (fun y hy => by simpa using fun h : y = o => (List.nodup_cons.1 hnd'.2.1).1 (h ▸ hy))]
    · intro q hq
      rw [hR.lists, List.filter_eq_self.2]
      intro y hy
      simp only [ne_eq, decide_not, Bool.not_eq_true', decide_eq_false_iff_not]
      rintro rfl
      obtain ⟨m, hm, _, hp⟩ := hW.linked.alive_child hy
      rw [hon] at hm; cases hm
      rw [hop] at hp; cases hp; exact hq rfl

theorem Appended.tagged {name tag : String} {new : NodeId} (h : Appended w ch p name new w' ch') (hW : ∃ m, w.nodes x = some m) : tagged w' tag x = tagged w tag x := by
  obtain ⟨m, hm⟩ := hW
  obtain ⟨m', h1, h2⟩ := h.data x m hm
  exact tagged_data (by rw [h1, hm]; simp [h2]) tag

theorem Appended.below {name : String} {new i : NodeId} (h : Appended w ch p name new w' ch') (hd : Below ch' i x) : x = new ∨ Below ch i x := by
  induction hd with
  | refl => exact .inr .refl
  | @tail b c _ hc ih =>
    rcases ih with rfl | ih
    · rw [h.made.2.2] at hc; cases hc
    · by_cases hb : b = p
      · rw [hb, h.here] at hc
        rcases List.mem_append.1 hc with hc | hc
        · exact .inr (.tail ih (by rw [hb]; exact hc))
        · exact .inl (by simpa using hc)
      · rw [h.elsewhere b hb] at hc
        exact .inr (.tail ih hc)

/-- The new element is no more read-only than its parent. -/
theorem Appended.writable {name : String} {new : NodeId} (h : Appended w ch p name new w' ch') (hW : WF w ch) {n : Node} (hx : w.nodes p = some n) (ht : n.type = .element)
    (hro : ¬ ReadOnly w p) : ¬ ReadOnly w' new := by
  obtain ⟨m, hm, hmt⟩ := tagged_elem h.made.2.1
  rw [Tree.readOnly_elem h.wf.toCore hm hmt]
  rw [Tree.readOnly_elem hW.toCore hx ht] at hro
  rintro ⟨j, hj, hje⟩
  have hc : new ∈ ch' p := by rw [h.here]; simp
  rcases Relation.ReflTransGen.cases_tail hj with rfl | ⟨c, hjc, hc'⟩
  · obtain ⟨k, hk, hkt⟩ := hje
    rw [hm] at hk; cases hk
    rw [hmt] at hkt
    simp at hkt
  · have hcp : c = p := by
      obtain ⟨m1, g1, _, g2⟩ := h.wf.linked.alive_child hc
      obtain ⟨m2, g3, _, g4⟩ := h.wf.linked.alive_child hc'
      rw [g1] at g3; cases g3
      rw [g2] at g4; cases g4; rfl
    subst hcp
    rcases h.below hjc with rfl | hj'
    · rw [h.made.1] at hx; cases hx
    · have hal : ∃ m, w.nodes j = some m := by
        rcases Relation.ReflTransGen.cases_head hj' with rfl | ⟨z, hz, _⟩
        · exact ⟨n, hx⟩
        · cases hm : w.nodes j with
          | none => rw [hW.linked.dead j hm] at hz; cases hz
          | some m => exact ⟨m, rfl⟩
      obtain ⟨m, hm⟩ := hal
      obtain ⟨m', g1, g2⟩ := h.data j m hm
      exact hro ⟨j, hj', (Tree.isEntity_data (by rw [g1, hm]; simp [g2])).1 hje⟩

/-! ## The first row of a table -/

/-- A table without rows, and without a sibling after it when it is empty. -/
structure Rowless (w : World) (ch : Children) (t : NodeId) : Prop where
  tree : WF w ch
  elem : ∃ n, w.nodes t = some n ∧ n.type = .element ∧ (ch t ≠ [] ∨ n.next = none)
  writable : ¬ ReadOnly w t
  rows : ∀ x, Below ch t x → tagged w "tr" x = false

theorem none_below (hW : WF w ch) {name : String} (h : ∀ x, Below ch t x → tagged w name x = false) {order : NodeId → List NodeId}
    (hd : DocOrder ch order) : (order t).filter (tagged w name) = [] := by
  refine List.filter_eq_nil_iff.2 fun x hx => ?_
  rw [h x ((mem_order hW hd).1 hx)]; simp

theorem Rowless.count (hR : Rowless w ch t) : count trName t w = .ok w 0 := by
  obtain ⟨n, h1, _, h2⟩ := hR.elem
  have hd := Tree.docOrder_preorder hR.tree.toCore
  have h0 := none_below hR.tree hR.rows hd
  have := count_run hR.tree hd h1 h2 tr_data (by rw [h0]; simp)
  rw [h0] at this
  exact this

/-- **C53**, a table without rows: any index but 0 and -1 raises INDEX_SIZE_ERR. -/
theorem C53_first_row_index (hR : Rowless w ch t) {i : Int} (hi : i ≠ 0 ∧ i ≠ -1) : insertRow t i w = .exc w .indexSize := by
  unfold insertRow
  rw [Tree.bind_ok hR.count]
  have : (decide (i > toInt32 ((0 : Nat) : Int)) || decide (i < -1)) = true := by
    rw [toInt32_small (by omega)]
    simp only [Bool.or_eq_true, decide_eq_true_eq]
    omega
  rw [this]; rfl

/-- **C53**, the first row of a table without bodies: it comes with a new body at the end of the table. -/
theorem C53_first_row (hR : Rowless w ch t) (hb : ∀ x, Below ch t x → tagged w "tbody" x = false) {i : Int} (hi : i = 0 ∨ i = -1) :
    ∃ w' ch' body row, insertRow t i w = .ok w' row ∧ WF w' ch' ∧ w.nodes body = none ∧ w.nodes row = none ∧ tagged w' "tbody" body = true ∧ tagged w' "tr" row = true ∧
      ch' t = ch t ++ [body] ∧ ch' body = [row] ∧ ch' row = [] ∧ (∀ q, q ≠ t → q ≠ body → ch' q = ch q) ∧
      ∀ j m, w.nodes j = some m → ∃ m', w'.nodes j = some m' ∧ m'.data = m.data := by
  obtain ⟨n, h1, ht, hroot⟩ := hR.elem
  have hW := hR.tree
  have hdead := Tree.fresh_dead hW.toCore
  obtain ⟨d, hd, e1, e2⟩ := newElement_run hW h1 ht trName
  have hold := Tree.add_old (n := Tree.elementNode (some trName) n.ns n.pfx d) hW.toCore h1
  have hdo := Tree.docOrder_preorder e2.toCore
  have hb1 : ∀ x, Below ch t x → tagged (w.add (Tree.elementNode (some trName) n.ns n.pfx d)) "tbody" x = false := by
    intro x hx
    obtain ⟨m, hm⟩ := hx.alive hW.linked h1
    rw [← hb x hx]
    exact tagged_data (by rw [Tree.add_old hW.toCore hm, hm]) "tbody"
  have h0 := none_below e2 hb1 hdo
  have hcount := count_run e2 hdo hold hroot tbody_data (by rw [h0]; simp)
  rw [h0] at hcount
  have hro := Tree.add_readOnly hW e2 h1 ht hR.writable
  obtain ⟨w2, ch2, e3, hA, _, ho1, ho2⟩ := append_new e2 hold ht hro tbody_data
  generalize hw1 : w.add (Tree.elementNode (some trName) n.ns n.pfx d) = w1 at *
  obtain ⟨bn, hbn, hbt⟩ := tagged_elem hA.made.2.1
  have hne : w.fresh ≠ t := by rintro h; rw [← h, hdead] at h1; cases h1
  have hrow1 : w1.nodes w.fresh = some (Tree.elementNode (some trName) n.ns n.pfx d) := by rw [← hw1]; exact Tree.add_new _
  have hneb : w.fresh ≠ w1.fresh := by intro h; rw [h, hA.made.1] at hrow1; cases hrow1
  obtain ⟨rn, hrn, hrd⟩ := hA.data _ _ hrow1
  have hrt : rn.type = .element := by rw [Tree.Node.data_type hrd]; rfl
  have hmem : ∀ q, w.fresh ∉ ch q := by
    intro q hq
    obtain ⟨m, hm, _⟩ := hW.linked.alive_child hq
    rw [hdead] at hm; cases hm
  have hmem2 : ∀ q, w.fresh ∉ ch2 q := by
    intro q hq
    by_cases hqt : q = t
    · rw [hqt, hA.here] at hq
      rcases List.mem_append.1 hq with h | h
      · exact hmem _ h
      · exact hneb (by simpa using h)
    · rw [hA.elsewhere q hqt] at hq; exact hmem _ hq
  have hrp : rn.parent = none := by
    cases hp : rn.parent with
    | none => rfl
    | some q => exact absurd (hA.wf.linked.up _ rn q hrn (by simp [hrt]) hp) (hmem2 q)
  have hrc : ch2 w.fresh = [] := by rw [hA.elsewhere _ hne]; exact hW.linked.dead _ hdead
  have hown : rn.owner = bn.owner := by
    have g1 := ho1 w.fresh hneb
    rw [hrn, hrow1] at g1
    rw [hbn] at ho2
    simp only [Option.map_some, Option.some.injEq] at g1 ho2
    rw [g1, ho2, hd]; rfl
  have hdata : ∀ j m, w.nodes j = some m → ∃ m', w2.nodes j = some m' ∧ m'.data = m.data := by
    intro j m hm
    exact hA.data j m (by rw [← hw1]; exact Tree.add_old hW.toCore hm)
  obtain ⟨w3, ch3, e4, hJ⟩ := put_run hA.wf hbn hbt (hA.writable e2 hold ht hro) hrn hrt hrp hown hrc hneb
  have hbw : w.nodes w1.fresh = none := by
    cases h : w.nodes w1.fresh with
    | none => rfl
    | some m =>
      have := Tree.add_old (n := Tree.elementNode (some trName) n.ns n.pfx d) hW.toCore h
      rw [hw1, hA.made.1] at this; cases this
  have hnt : t ≠ w1.fresh := by intro h; rw [← h, h1] at hbw; cases hbw
  refine ⟨w3, ch3, w1.fresh, w.fresh, ?_, hJ.wf, hbw, hdead, ?_, ?_, ?_, ?_, ?_, ?_, ?_⟩
  · unfold insertRow
    rw [Tree.bind_ok hR.count]
    have : (decide (i > toInt32 ((0 : Nat) : Int)) || decide (i < -1)) = false := by
      rw [toInt32_small (by omega)]
      simp only [Bool.or_eq_false_iff, decide_eq_false_iff_not]
      omega
    rw [this]
    show (newElement trName t >>= fun row => createTBody t >>= fun body => appendChild body row) w = _
    rw [Tree.bind_ok e1]
    have hcb : createTBody t w1 = .ok w2 w1.fresh := by
      unfold createTBody
      rw [Tree.bind_ok hcount]
      exact e3
    rw [Tree.bind_ok hcb, e4]
  · rw [tagged_data (hJ.data w1.fresh)]; exact hA.made.2.1
  · rw [tagged_data (hJ.data w.fresh), hA.tagged ⟨_, hrow1⟩]
    unfold tagged
    rw [hrow1, Option.any_some]
    rw [show contents (Tree.elementNode (some trName) n.ns n.pfx d).name = trName.data from rfl, tr_data]
    simp [Tree.elementNode]
  · rw [hJ.elsewhere _ hnt, hA.here]
  · obtain ⟨a, b, g1, g2, g3⟩ := hJ.here
    rw [hA.made.2.2] at g1
    obtain ⟨rfl, rfl⟩ : a = [] ∧ b = [] := by simpa using g1.symm
    exact g3
  · rw [hJ.elsewhere _ hneb, hrc]
  · intro q hq hqb
    rw [hJ.elsewhere _ hqb, hA.elsewhere _ hq]
  · intro j m hm
    obtain ⟨m', g1, g2⟩ := hdata j m hm
    have h3 := hJ.data j
    rw [g1] at h3
    cases h4 : w3.nodes j with
    | none => rw [h4] at h3; simp at h3
    | some m3 =>
      rw [h4] at h3
      refine ⟨m3, rfl, ?_⟩
      have : m3.data = m'.data := by simpa using h3
      rw [this, g2]

/-- **C53**, the first row of a table with bodies: it is put at the end of the first of them. -/
theorem C53_first_row_body (hR : Rowless w ch t) {order : NodeId → List NodeId} (hdo : DocOrder ch order) {b : NodeId} {rest : List NodeId}
    (hb : (order t).filter (tagged w "tbody") = b :: rest) (hbw : ¬ ReadOnly w b) (hlen : rest.length < 4294967295) {i : Int} (hi : i = 0 ∨ i = -1) :
    ∃ w' ch' row, insertRow t i w = .ok w' row ∧ Appended w ch b "tr" row w' ch' := by
  obtain ⟨n, h1, ht, hroot⟩ := hR.elem
  have hW := hR.tree
  have hdead := Tree.fresh_dead hW.toCore
  obtain ⟨d, hd, e1, e2⟩ := newElement_run hW h1 ht trName
  have hold := Tree.add_old (n := Tree.elementNode (some trName) n.ns n.pfx d) hW.toCore h1
  have hfil : (order t).filter (tagged (w.add (Tree.elementNode (some trName) n.ns n.pfx d)) "tbody") = b :: rest := by
    rw [← hb]
    refine List.filter_congr fun x hx => ?_
    obtain ⟨m, hm⟩ := ((mem_order hW hdo).1 hx).alive hW.linked h1
    exact tagged_data (by rw [Tree.add_old hW.toCore hm, hm]) "tbody"
  have hcount := count_run e2 hdo hold hroot tbody_data (by rw [hfil]; simp; omega)
  have hitem := item_run e2 hdo hold hroot tbody_data (i := 0) (by omega)
  rw [hfil] at hcount hitem
  have hbm : b ∈ (order t).filter (tagged w "tbody") := by rw [hb]; simp
  obtain ⟨hbo, hbt⟩ := List.mem_filter.1 hbm
  have hbb := (mem_order hW hdo).1 hbo
  obtain ⟨bn, hbn, hbty⟩ := tagged_elem hbt
  have hownb : bn.owner = some d := by
    rw [← hd]
    exact Tree.anc_owner hW.toCore (hbb.anc hW.linked) bn n hbn h1
  have hne : w.fresh ≠ b := by rintro h; rw [← h, hdead] at hbn; cases hbn
  obtain ⟨w3, ch3, e4, hJ⟩ := put_run e2 (Tree.add_old hW.toCore hbn) hbty (Tree.add_readOnly hW e2 hbn hbty hbw) (Tree.add_new _) rfl rfl
    (show some d = bn.owner from hownb.symm) (hW.linked.dead _ hdead) hne
  refine ⟨w3, ch3, w.fresh, ?_, hJ.wf, ⟨hdead, ?_, ?_⟩, ?_, hJ.elsewhere, ?_⟩
  · unfold insertRow
    rw [Tree.bind_ok hR.count]
    have : (decide (i > toInt32 ((0 : Nat) : Int)) || decide (i < -1)) = false := by
      rw [toInt32_small (by omega)]
      simp only [Bool.or_eq_false_iff, decide_eq_false_iff_not]
      omega
    rw [this]
    show (newElement trName t >>= fun row => createTBody t >>= fun body => appendChild body row) w = _
    rw [Tree.bind_ok e1]
    have hcb : createTBody t (w.add (Tree.elementNode (some trName) n.ns n.pfx d)) = .ok (w.add (Tree.elementNode (some trName) n.ns n.pfx d)) b := by
      unfold createTBody
      rw [Tree.bind_ok hcount]
      show (item tbodyName t 0 >>= _) _ = _
      rw [Tree.bind_ok hitem]; rfl
    rw [Tree.bind_ok hcb, e4]
  · rw [tagged_data (hJ.data w.fresh)]
    unfold tagged
    rw [Tree.add_new, Option.any_some]
    rw [show contents (Tree.elementNode (some trName) n.ns n.pfx d).name = trName.data from rfl, tr_data]
    simp [Tree.elementNode]
  · rw [hJ.elsewhere _ hne]; exact hW.linked.dead _ hdead
  · obtain ⟨a, c, g1, g2, g3⟩ := hJ.here
    have hc : c = [] := by simpa using g2
    subst hc
    rw [g3, g1]; simp
  · intro j m hm
    have h3 := hJ.data j
    rw [Tree.add_old hW.toCore hm] at h3
    cases h4 : w3.nodes j with
    | none => rw [h4] at h3; simp at h3
    | some m' => rw [h4] at h3; exact ⟨m', rfl, by simpa using h3⟩

/-- **C53**, setting the foot: nothing but a TFOOT is taken. -/
theorem C53_set_foot_refused (t : NodeId) : setTFoot t none w = .exc w .hierarchyRequest ∧
    ∀ h m, w.nodes h = some m → (contents m.name).map asciiLower ≠ "tfoot".toUTF8.toList → setTFoot t (some h) w = .exc w .hierarchyRequest := by
  refine ⟨rfl, fun h m hm hn => ?_⟩
  show (getNode h >>= _) w = _
  rw [Tree.get_bind hm]
  have : Str.caselessIsEqual (some tfootName) m.name = false := by
    rw [caseless_eq, show (contents (some tfootName)).map asciiLower = _ from tfoot_data]
    exact decide_eq_false fun h => hn h.symm
  rw [this]; rfl

/-- **C53**, setting the foot: the old foot goes and the new one is put at the end. -/
theorem C53_set_foot (hW : WF w ch) {n : Node} (hx : w.nodes t = some n) (ht : n.type = .element) (hro : ¬ ReadOnly w t) {h : NodeId} {m : Node}
    (hm : w.nodes h = some m) (hh : tagged w "tfoot" h = true) (hpar : m.parent = none) (hown : m.owner = n.owner) (habove : ¬ Below ch h t) {a b : List NodeId}
    {old : Option NodeId} (hold : ch t = a ++ old.toList ++ b) (hfirst : ∀ c ∈ a, tagged w "tfoot" c = false) (ho : ∀ o, old = some o → tagged w "tfoot" o = true)
    (hnone : old = none → ∀ c ∈ b, tagged w "tfoot" c = false) :
    ∃ w' ch', setTFoot t (some h) w = .ok w' h ∧ WF w' ch' ∧ ch' t = a ++ b ++ [h] ∧ (∀ q, q ≠ t → ch' q = ch q) ∧
      ∀ j, (w'.nodes j).map Node.data = (w.nodes j).map Node.data := by
  obtain ⟨m', hm', hmt⟩ := tagged_elem hh
  rw [hm] at hm'; cases hm'
  obtain ⟨w1, ch1, e1, hW1, hkids, helse, hdata, hnode⟩ : ∃ w1 ch1, deleteChild tfootName t w = .ok w1 () ∧ WF w1 ch1 ∧ ch1 t = a ++ b ∧ (∀ q, q ≠ t → ch1 q = ch q) ∧
      (∀ j, (w1.nodes j).map Node.data = (w.nodes j).map Node.data) ∧ ∀ j, (w1.nodes j).map Node.owner = (w.nodes j).map Node.owner := by
    cases old with
    | none =>
      refine ⟨w, ch, (C53_delete_section hW hx ht hro tfoot_data).1 ?_, hW, by simpa using hold, fun _ _ => rfl, fun _ => rfl, fun _ => rfl⟩
      intro c hc
      rw [hold] at hc
      simp only [Option.toList_none, List.append_nil, List.mem_append] at hc
      rcases hc with hc | hc
      · exact hfirst c hc
      · exact hnone rfl c hc
    | some o =>
      obtain ⟨w1, ch1, g⟩ := (C53_delete_section hW hx ht hro tfoot_data).2 a o b (by simpa using hold) hfirst (ho o rfl)
      exact ⟨w1, ch1, g⟩
  have node : ∀ {j : NodeId} {k : Node}, w.nodes j = some k → ∃ k', w1.nodes j = some k' ∧ k'.data = k.data ∧ k'.owner = k.owner := by
    intro j k hk
    have h3 := hdata j
    have h5 := hnode j
    rw [hk] at h3 h5
    cases h4 : w1.nodes j with
    | none => rw [h4] at h3; simp at h3
    | some k' => rw [h4] at h3 h5; exact ⟨k', rfl, by simpa using h3, by simpa using h5⟩
  obtain ⟨n1, hn1, hnd, hno⟩ := node hx
  obtain ⟨m1, hm1, hmd, hmo⟩ := node hm
  have hn1t : n1.type = .element := by rw [Tree.Node.data_type hnd]; exact ht
  have hm1t : m1.type = .element := by rw [Tree.Node.data_type hmd]; exact hmt
  have hsub : ∀ c q, c ∈ ch1 q → c ∈ ch q := by
    intro c q hc
    by_cases hq : q = t
    · rw [hq, hkids] at hc
      rw [hq, hold]
      rcases List.mem_append.1 hc with h | h
      · simp [h]
      · simp [h]
    · rwa [helse q hq] at hc
  have hbel : ∀ {i x : NodeId}, Below ch1 i x → Below ch i x := fun hb => Relation.ReflTransGen.mono (fun c q hc => hsub q c hc) _ _ hb
  have hro1 : ¬ ReadOnly w1 t := by
    rw [Tree.readOnly_elem hW1.toCore hn1 hn1t]
    rw [Tree.readOnly_elem hW.toCore hx ht] at hro
    rintro ⟨i, hi, hie⟩
    exact hro ⟨i, hbel hi, (Tree.isEntity_data (hdata i)).1 hie⟩
  have hm1p : m1.parent = none := by
    cases hp : m1.parent with
    | none => rfl
    | some q =>
      obtain ⟨k, hk, _, hkp⟩ := hW.linked.alive_child (hsub _ _ (hW1.linked.up h m1 q hm1 (by simp [hm1t]) hp))
      rw [hm] at hk; cases hk
      rw [hpar] at hkp; cases hkp
  obtain ⟨w2, ch2, e2, hJ⟩ := Tree.join_run (r := none) hW1 hn1 hm1 hro1 hm1p (by simp [hm1t]) (by simp [hm1t]) (by rw [hno, hmo, hown])
    (fun ha => by
      rcases anc_below hW1.toCore ha hn1 (by simp [hn1t]) (by simp [hn1t]) with h | h
      · exact habove (hbel h)
      · exact hro1 ((Tree.readOnly_elem hW1.toCore hn1 hn1t).2 h))
    ⟨n1, m1, hn1, hm1, by rw [hn1t, hm1t]; exact .content (by simp) (by simp), fun h => by rw [hn1t] at h; cases h⟩ (fun c hc => by cases hc)
  refine ⟨w2, ch2, ?_, hJ.wf, ?_, fun q hq => by rw [hJ.elsewhere q hq, helse q hq], fun j => by rw [hJ.data, hdata]⟩
  · show (getNode h >>= _) w = _
    rw [Tree.get_bind hm]
    have : Str.caselessIsEqual (some tfootName) m.name = true := by
      rw [← tagged_node tfoot_data hm, Bool.and_eq_true] at hh
      exact hh.2
    rw [this]
    show (deleteChild tfootName t >>= fun _ => appendChild t h) w = _
    rw [Tree.bind_ok e1]
    exact e2
  · obtain ⟨u, v, g1, g2, g3⟩ := hJ.here
    have hv : v = [] := by simpa using g2
    subst hv
    rw [g3, ← hkids, g1]; simp

end

/-! ## Concrete cases -/

/-- A table (1) with a caption (2) and no rows, a TFOOT of its own (3), and a table (4) with an empty body (5). -/
def bare : List Call :=
  [.createDocument, elem "TABLE", elem "CAPTION", elem "TFOOT", elem "TABLE", elem "TBODY", .appendChild 1 2, .appendChild 4 5]

/-- The tables meet the hypotheses of the theorems above: no rows, no body or one, nothing read-only, a foot without parent. -/
theorem bare_meets : ∃ w ch, Reach (fun w c => c.Ok w) w ∧ Rowless w ch 1 ∧ (∀ x, Below ch 1 x → tagged w "tbody" x = false) ∧
    kidsAfter (insertRow 1 0) 1 w = .ok [2, 7] ∧ kidsAfter (insertRow 1 (-1)) 7 w = .ok [6] ∧ kidsAfter (insertRow 1 1) 1 w = .exc .indexSize ∧
    Rowless w ch 4 ∧ (Tree.preorder (Tree.kidsOf w) (w.fresh + 1) 4).filter (tagged w "tbody") = [5] ∧ ¬ ReadOnly w 5 ∧
    kidsAfter (insertRow 4 0) 4 w = .ok [5] ∧ kidsAfter (insertRow 4 0) 5 w = .ok [6] ∧
    kidsAfter (setTFoot 1 (some 3)) 1 w = .ok [2, 3] ∧ kidsAfter (createSection tfootName 1) 1 w = .ok [2, 6] ∧
    kidsAfter (do let _ ← setTFoot 1 (some 3); createSection tfootName 1) 1 w = .ok [2, 3] ∧
    kidsAfter (do let _ ← createSection tfootName 1; setTFoot 1 (some 3)) 1 w = .ok [2, 3] ∧
    kidsAfter (do let _ ← setTFoot 1 (some 3); deleteChild tfootName 1) 1 w = .ok [2] := by
  obtain ⟨w, h1, h2⟩ := exists_ok bare (fun w => Tree.noEntities w &&
    (w.nodes 1).any (fun n => n.type == .element) && decide (Tree.kidsOf w 1 = [2]) && (w.nodes 4).any (fun n => n.type == .element) && decide (Tree.kidsOf w 4 = [5]) &&
    (w.nodes 5).any (fun n => n.type == .element) &&
    (Tree.preorder (Tree.kidsOf w) (w.fresh + 1) 1).all (fun x => !tagged w "tr" x && !tagged w "tbody" x) &&
    (Tree.preorder (Tree.kidsOf w) (w.fresh + 1) 4).all (fun x => !tagged w "tr" x) &&
    decide ((Tree.preorder (Tree.kidsOf w) (w.fresh + 1) 4).filter (tagged w "tbody") = [5]) &&
    (decide (kidsAfter (insertRow 1 0) 1 w = .ok [2, 7]) && decide (kidsAfter (insertRow 1 (-1)) 7 w = .ok [6]) && decide (kidsAfter (insertRow 1 1) 1 w = .exc .indexSize) &&
    decide (kidsAfter (insertRow 4 0) 4 w = .ok [5]) && decide (kidsAfter (insertRow 4 0) 5 w = .ok [6]) &&
    decide (kidsAfter (setTFoot 1 (some 3)) 1 w = .ok [2, 3]) && decide (kidsAfter (createSection tfootName 1) 1 w = .ok [2, 6]) &&
    decide (kidsAfter (do let _ ← setTFoot 1 (some 3); createSection tfootName 1) 1 w = .ok [2, 3]) &&
    decide (kidsAfter (do let _ ← createSection tfootName 1; setTFoot 1 (some 3)) 1 w = .ok [2, 3]) &&
    decide (kidsAfter (do let _ ← setTFoot 1 (some 3); deleteChild tfootName 1) 1 w = .ok [2]))) (by decide +kernel)
  simp only [Bool.and_eq_true, decide_eq_true_eq] at h2
  obtain ⟨⟨⟨⟨⟨⟨⟨⟨⟨a1, a2⟩, a3⟩, a4⟩, a5⟩, a6⟩, a7⟩, a8⟩, a9⟩, ⟨⟨⟨⟨⟨⟨⟨⟨⟨b1, b2⟩, b3⟩, b4⟩, b5⟩, b6⟩, b7⟩, b8⟩, b9⟩, b10⟩⟩ := h2
  obtain ⟨ch, hW⟩ := h1.wf (fun _ _ h => h)
  have hk := Tree.kids_eq hW.toCore
  have elemOf : ∀ {x : NodeId}, (w.nodes x).any (fun n => n.type == .element) = true → ∃ n, w.nodes x = some n ∧ n.type = .element := by
    intro x h
    obtain ⟨n, hn, ht⟩ := (Option.any_eq_true _ _).1 h
    exact ⟨n, hn, by simpa using ht⟩
  obtain ⟨n1, hn1, ht1⟩ := elemOf a2
  obtain ⟨n4, hn4, ht4⟩ := elemOf a4
  obtain ⟨n5, hn5, ht5⟩ := elemOf a6
  rw [List.all_eq_true] at a7 a8
  refine ⟨w, ch, h1, ⟨hW, ⟨n1, hn1, ht1, .inl (by rw [hk, a3]; simp)⟩, Tree.writable_of hW a1 hn1 ht1, ?_⟩, ?_, b1, b2, b3,
    ⟨hW, ⟨n4, hn4, ht4, .inl (by rw [hk, a5]; simp)⟩, Tree.writable_of hW a1 hn4 ht4, ?_⟩, a9, Tree.writable_of hW a1 hn5 ht5, b4, b5, b6, b7, b8, b9, b10⟩
  · intro x hx
    have := a7 x (Tree.below_iff hW.toCore |>.1 hx)
    rw [Bool.and_eq_true] at this
    simpa using this.1
  · intro x hx
    have := a7 x (Tree.below_iff hW.toCore |>.1 hx)
    rw [Bool.and_eq_true] at this
    simpa using this.2
  · intro x hx
    have := a8 x (Tree.below_iff hW.toCore |>.1 hx)
    simpa using this

end Dom.Html.Table
