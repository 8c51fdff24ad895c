import Verif.Html.Row
import Verif.Html.PropsTable
/-!
# C67: rows and their cells
-/
namespace Dom.Html.Table
set_option linter.unusedSimpArgs false
attribute [-simp] String.length_utf8EncodeChar

open Dom.Str (DStr contents asciiLower)
open Dom.Tree (World NodeId Node NodeType Children WF DocOrder Below ReadOnly M getNode deref throwIf bound initNode appendChild insertBefore
  removeChild Call Reach exists_ok)
open Dom.Trav (member)

/-! ## Specification -/

/-- The cells of a row: its children called TD. -/
def cellsOf (w : World) (ch : Children) (s : NodeId) : List NodeId := (ch s).filter (tagged w "td")

/-- The element can be changed, all cells below it are its children, and it has children or no next sibling. -/
structure CellRow (w : World) (ch : Children) (s : NodeId) : Prop where
  tree : WF w ch
  elem : ∃ n, w.nodes s = some n ∧ n.type = .element ∧ (ch s ≠ [] ∨ n.next = none)
  writable : ¬ ReadOnly w s
  direct : ∀ x, Below ch s x → tagged w "td" x = true → x ∈ ch s

section
variable {w w' : World} {ch ch' : Children} {order : NodeId → List NodeId} {t s hd x row cell : NodeId} {bodies : List NodeId} {ft : Option NodeId}

theorem td_data : tdName.data.map asciiLower = "td".toUTF8.toList := by decide +kernel
theorem table_data : tableName.data.map asciiLower = "table".toUTF8.toList := by decide +kernel

/-! ## Cells -/

theorem CellRow.alive (hS : CellRow w ch s) : ∃ n, w.nodes s = some n := by obtain ⟨n, h, _⟩ := hS.elem; exact ⟨n, h⟩

theorem CellRow.cells (hS : CellRow w ch s) (hd : DocOrder ch order) : (order s).filter (tagged w "td") = cellsOf w ch s :=
  filter_order hS.tree hd _ hS.direct

theorem CellRow.count (hS : CellRow w ch s) (hf : (cellsOf w ch s).length < 4294967296) : count tdName s w = .ok w (cellsOf w ch s).length := by
  obtain ⟨n, h1, _, h2⟩ := hS.elem
  have hd := Tree.docOrder_preorder hS.tree.toCore
  unfold Table.count
  apply reading_ok
  show Trav.colLength (isTag tdName w) w s = _
  rw [(Trav.C35_collection_partial hS.tree hd h1 h2 (isTag tdName w) (fun _ => false)).1, member_tag td_data, hS.cells hd]
  exact congrArg Out.ok (Nat.mod_eq_of_lt (Nat.lt_of_lt_of_le hf (by omega)))

theorem CellRow.item (hS : CellRow w ch s) {i : Nat} (hi : i < 4294967295) : item tdName s i w = .ok w (cellsOf w ch s)[i]? := by
  obtain ⟨n, h1, _, h2⟩ := hS.elem
  have hd := Tree.docOrder_preorder hS.tree.toCore
  unfold Table.item
  apply reading_ok
  show Trav.colItem (isTag tdName w) w s i = _
  rw [(Trav.C35_collection_partial hS.tree hd h1 h2 (isTag tdName w) (fun _ => false)).2.1 i (by omega), member_tag td_data, hS.cells hd]

/-- Cell insertion into `s`: the new cell is `cell`, at the place `i` of the cells of `s`. -/
structure Widened (w : World) (ch : Children) (s : NodeId) (i : Nat) (cell : NodeId) (w' : World) (ch' : Children) : Prop where
  wf : WF w' ch'
  new : w.nodes cell = none ∧ tagged w' "td" cell = true ∧ ch' cell = []
  here : ∃ a b, ch s = a ++ b ∧ ch' s = a ++ cell :: b ∧ (a.filter (tagged w "td")).length = i
  elsewhere : ∀ q, q ≠ s → ch' q = ch q
  data : ∀ j m, w.nodes j = some m → ∃ m', w'.nodes j = some m' ∧ m'.data = m.data

/-- A new cell put before `r`. -/
theorem widen (hS : CellRow w ch s) {r : Option NodeId} {i : Nat} (hr : ∀ c, r = some c → (cellsOf w ch s)[i]? = some c)
    (hnone : r = none → i = (cellsOf w ch s).length) :
    ∃ w' ch', (do let cell ← newElement tdName s; insertBefore s cell r : M NodeId) w = .ok w' w.fresh ∧ Widened w ch s i w.fresh w' ch' := by
  obtain ⟨n, h1, ht, _⟩ := hS.elem
  have hW := hS.tree
  obtain ⟨d, hd, e1, e2⟩ := newElement_run hW h1 ht tdName
  have hdead := Tree.fresh_dead hW.toCore
  obtain ⟨w', ch', f1, f2⟩ := Tree.join_run (r := r) e2 (Tree.add_old hW.toCore h1) (Tree.add_new _) (Tree.add_readOnly hW e2 h1 ht hS.writable) rfl
    (by simp [Tree.elementNode]) (by simp [Tree.elementNode]) (by rw [hd]; rfl) (add_not_above hW e2 h1 rfl) (add_permitted hW h1 ht rfl)
    (fun c hc => (List.mem_filter.1 (List.mem_of_getElem? (hr c hc))).1)
  refine ⟨w', ch', by rw [Tree.bind_ok e1, f1], f2.wf, ⟨hdead, ?_, ?_⟩, ?_, f2.elsewhere, ?_⟩
  · rw [tagged_data (f2.data w.fresh)]
    unfold tagged
    rw [Tree.add_new, Option.any_some]
    rw [show contents (Tree.elementNode (some tdName) n.ns n.pfx d).name = tdName.data from rfl, td_data]
    simp [Tree.elementNode]
  · have : w.fresh ≠ s := by rintro h; rw [← h, hdead] at h1; cases h1
    rw [f2.elsewhere _ this]
    exact hW.linked.dead _ hdead
  · obtain ⟨a, b, g1, g2, g3⟩ := f2.here
    refine ⟨a, b, g1, g3, ?_⟩
    cases r with
    | some c =>
      exact split_at_row (hW.linked.loc s n h1).nodup (hr c rfl) g1 g2
    | none =>
      have hb : b = [] := by simpa using g2
      subst hb
      rw [hnone rfl]; unfold cellsOf; rw [g1]; simp
  · intro j m hm
    have h3 := f2.data j
    rw [Tree.add_old hW.toCore hm] at h3
    cases h4 : w'.nodes j with
    | none => rw [h4] at h3; simp at h3
    | some m' => rw [h4] at h3; exact ⟨m', rfl, by simpa using h3⟩

theorem Widened.tagged {i : Nat} (h : Widened w ch s i cell w' ch') {tag : String} (hW : ∃ m, w.nodes x = some m) : tagged w' tag x = tagged w tag x := by
  obtain ⟨m, hm⟩ := hW
  obtain ⟨m', h1, h2⟩ := h.data x m hm
  exact tagged_data (by rw [h1, hm]; simp [h2]) tag

theorem cellsOf_same (hL : Tree.Linked w ch) (hc : ch' s = ch s) (ht : ∀ x, (∃ m, w.nodes x = some m) → Table.tagged w' "td" x = Table.tagged w "td" x) :
    cellsOf w' ch' s = cellsOf w ch s := by
  unfold cellsOf
  rw [hc]
  refine List.filter_congr fun x hx => ht x ?_
  obtain ⟨m, hm, _⟩ := hL.alive_child hx
  exact ⟨m, hm⟩

theorem Widened.cells {i : Nat} (h : Widened w ch s i cell w' ch') (hW : WF w ch) :
    ∃ a b, cellsOf w ch s = a ++ b ∧ a.length = i ∧ cellsOf w' ch' s = a ++ cell :: b := by
  obtain ⟨a, b, h1, h2, h3⟩ := h.here
  have hal : ∀ x ∈ a ++ b, Table.tagged w' "td" x = Table.tagged w "td" x := by
    intro x hx
    obtain ⟨m, hm, _⟩ := hW.linked.alive_child (p := s) (c := x) (by rw [h1]; exact hx)
    exact h.tagged ⟨m, hm⟩
  refine ⟨a.filter (Table.tagged w "td"), b.filter (Table.tagged w "td"), ?_, h3, ?_⟩
  · unfold cellsOf; rw [h1, List.filter_append]
  · unfold cellsOf
    rw [h2, List.filter_append, List.filter_cons_of_pos h.new.2.1, List.filter_congr fun x hx => hal x (List.mem_append_left _ hx),
      List.filter_congr fun x hx => hal x (List.mem_append_right _ hx)]

theorem Widened.below {i : Nat} (h : Widened w ch s i cell w' ch') {r : NodeId} (hd : Below ch' r x) : x = cell ∨ Below ch r x := by
  induction hd with
  | refl => exact .inr .refl
  | @tail b c _ hc ih =>
    rcases ih with rfl | ih
    · rw [h.new.2.2] at hc; cases hc
    · by_cases hb : b = s
      · obtain ⟨u, v, h1, h2, _⟩ := h.here
        rw [hb, h2] at hc
        rcases List.mem_append.1 hc with hc | hc
        · exact .inr (.tail ih (by rw [hb, h1]; exact List.mem_append_left _ hc))
        · rcases List.mem_cons.1 hc with rfl | hc
          · exact .inl rfl
          · exact .inr (.tail ih (by rw [hb, h1]; exact List.mem_append_right _ hc))
      · rw [h.elsewhere b hb] at hc
        exact .inr (.tail ih hc)

/-- Nothing else becomes read-only. -/
theorem Widened.writable {i : Nat} (h : Widened w ch s i cell w' ch') (hW : WF w ch) {n : Node} (hx : w.nodes x = some n) (ht : n.type = .element)
    (hro : ¬ ReadOnly w x) : ¬ ReadOnly w' x := by
  obtain ⟨n', h1, h2⟩ := h.data x n hx
  rw [Tree.readOnly_elem h.wf.toCore h1 (by rw [Tree.Node.data_type h2]; exact ht)]
  rw [Tree.readOnly_elem hW.toCore hx ht] at hro
  rintro ⟨j, hj, hje⟩
  rcases h.below hj with rfl | hj'
  · rw [h.new.1] at hx; cases hx
  · have hal : ∃ m, w.nodes j = some m := by
      rcases Relation.ReflTransGen.cases_head hj' with rfl | ⟨z, hz, _⟩
      · exact ⟨n, hx⟩
      · cases hm : w.nodes j with
        | none => rw [hW.linked.dead j hm] at hz; cases hz
        | some m => exact ⟨m, rfl⟩
    obtain ⟨m, hm⟩ := hal
    obtain ⟨m', g1, g2⟩ := h.data j m hm
    exact hro ⟨j, hj', (Tree.isEntity_data (by rw [g1, hm]; simp [g2])).1 hje⟩

theorem Widened.cellRow {i : Nat} (h : Widened w ch s i cell w' ch') (hS : CellRow w ch s) : CellRow w' ch' s := by
  obtain ⟨n, h1, ht, _⟩ := hS.elem
  obtain ⟨n', h2, h3⟩ := h.data s n h1
  obtain ⟨a, b, g1, g2, _⟩ := h.here
  refine ⟨h.wf, ⟨n', h2, by rw [Tree.Node.data_type h3]; exact ht, .inl (by rw [g2]; simp)⟩, h.writable hS.tree h1 ht hS.writable, ?_⟩
  intro x hx hxt
  rcases h.below hx with rfl | hx'
  · rw [g2]; simp
  · obtain ⟨m, hm⟩ := hx'.alive hS.tree.linked h1
    rw [h.tagged ⟨m, hm⟩] at hxt
    have := hS.direct x hx' hxt
    rw [g1] at this; rw [g2]
    rcases List.mem_append.1 this with h | h
    · exact List.mem_append_left _ h
    · exact List.mem_append_right _ (List.mem_cons_of_mem _ h)

theorem cellInsert_run (hS : CellRow w ch s) (hf : (cellsOf w ch s).length < 2147483648) {i : Int} (h0 : -1 ≤ i) (h1 : i ≤ (cellsOf w ch s).length) :
    ∃ w' ch', insertCell s i w = .ok w' w.fresh ∧ Widened w ch s (place i (cellsOf w ch s).length) w.fresh w' ch' := by
  have hcount := hS.count (Nat.lt_of_lt_of_le hf (by omega))
  have hlen := toInt32_small hf
  generalize hL : (cellsOf w ch s).length = len at *
  by_cases hend : i = -1 ∨ i = len
  · obtain ⟨w', ch', e1, e2⟩ := widen hS (r := none) (i := len) (by simp) (fun _ => hL.symm)
    refine ⟨w', ch', ?_, ?_⟩
    · unfold insertCell
      rw [Tree.bind_ok hcount, throwIf_neg (by rw [hlen]; simp; omega)]
      obtain ⟨n, hn, ht, _⟩ := hS.elem
      obtain ⟨d, hd, f1, f2⟩ := newElement_run hS.tree hn ht tdName
      rw [Tree.bind_ok f1] at e1 ⊢
      rw [if_pos (by rw [hlen]; simp; omega)]
      exact e1
    · have : place i len = len := by unfold place; split <;> omega
      rw [this]; exact e2
  · have hi : i = (i.toNat : Int) := by omega
    have hlt : i.toNat < (cellsOf w ch s).length := by omega
    obtain ⟨w', ch', e1, e2⟩ := widen hS (r := some (cellsOf w ch s)[i.toNat]) (i := i.toNat)
      (by rintro c ⟨⟩; exact List.getElem?_eq_getElem hlt) (by simp)
    refine ⟨w', ch', ?_, ?_⟩
    · unfold insertCell
      rw [Tree.bind_ok hcount, throwIf_neg (by rw [hlen]; simp; omega)]
      obtain ⟨n, hn, ht, _⟩ := hS.elem
      obtain ⟨d, hd, f1, f2⟩ := newElement_run hS.tree hn ht tdName
      rw [Tree.bind_ok f1] at e1 ⊢
      rw [if_neg (by rw [hlen]; simp; omega)]
      have hS' : item tdName s (toUInt32 i) (w.add (Tree.elementNode (some tdName) n.ns n.pfx d)) =
          .ok (w.add (Tree.elementNode (some tdName) n.ns n.pfx d)) (some (cellsOf w ch s)[i.toNat]) := by
        have hal : ∀ x, (∃ m, w.nodes x = some m) →
            Table.tagged (w.add (Tree.elementNode (some tdName) n.ns n.pfx d)) "td" x = Table.tagged w "td" x := by
          rintro x ⟨m, hm⟩
          exact tagged_data (by rw [hm, Tree.add_old hS.tree.toCore hm]) _
        have hSec : CellRow (w.add (Tree.elementNode (some tdName) n.ns n.pfx d)) ch s := by
          obtain ⟨n2, hn2, ht2, hnx⟩ := hS.elem
          refine ⟨f2, ⟨n2, Tree.add_old hS.tree.toCore hn2, ht2, hnx⟩, Tree.add_readOnly hS.tree f2 hn ht hS.writable, ?_⟩
          intro x hx hxt
          obtain ⟨m, hm⟩ := hx.alive hS.tree.linked hn
          rw [hal x ⟨m, hm⟩] at hxt
          exact hS.direct x hx hxt
        have hu : toUInt32 i = i.toNat := by
          conv_lhs => rw [hi]
          exact toUInt32_small (by omega)
        rw [hu, hSec.item (by omega)]
        rw [cellsOf_same (w' := w.add (Tree.elementNode (some tdName) n.ns n.pfx d)) (ch' := ch) hS.tree.linked rfl hal]
        rw [List.getElem?_eq_getElem hlt]
      rw [Tree.bind_ok hS']
      exact e1
    · have : place i len = i.toNat := by unfold place; rw [if_neg (by omega)]
      rw [this]; exact e2

/-- **C67**, insertion into a row.  For -1 ≤ i ≤ length the new cell gets the index i (is the last for -1) and nothing else changes; other
indices raise INDEX_SIZE_ERR and nothing happens.  Partial: see `CellRow`. -/
theorem C67_cell_insert_partial (hS : CellRow w ch s) (hf : (cellsOf w ch s).length < 2147483648) (i : Int) :
    (-1 ≤ i ∧ i ≤ (cellsOf w ch s).length → ∃ w' ch' cell a b, insertCell s i w = .ok w' cell ∧ w.nodes cell = none ∧ CellRow w' ch' s ∧
      cellsOf w ch s = a ++ b ∧ a.length = place i (cellsOf w ch s).length ∧ cellsOf w' ch' s = a ++ cell :: b ∧ (∀ q, q ≠ s → ch' q = ch q) ∧
      ∀ j m, w.nodes j = some m → ∃ m', w'.nodes j = some m' ∧ m'.data = m.data) ∧
    (¬ (-1 ≤ i ∧ i ≤ (cellsOf w ch s).length) → insertCell s i w = .exc w .indexSize) := by
  constructor
  · rintro ⟨h0, h1⟩
    obtain ⟨w', ch', e1, e2⟩ := cellInsert_run hS hf h0 h1
    obtain ⟨a, b, g1, g2, g3⟩ := e2.cells hS.tree
    exact ⟨w', ch', _, a, b, e1, e2.new.1, e2.cellRow hS, g1, g2, g3, e2.elsewhere, e2.data⟩
  · intro h
    unfold insertCell
    rw [Tree.bind_ok (hS.count (Nat.lt_of_lt_of_le hf (by omega))), throwIf_pos (by rw [toInt32_small hf]; simp; omega)]

/-- Cell deletion from `s`. -/
structure Narrowed (w : World) (ch : Children) (s : NodeId) (i : Nat) (cell : NodeId) (w' : World) (ch' : Children) : Prop where
  wf : WF w' ch'
  gone : ∃ n, w'.nodes cell = some n ∧ n.parent = none
  here : ∃ a b, cellsOf w ch s = a ++ cell :: b ∧ a.length = i ∧ cellsOf w' ch' s = a ++ b
  exact : ch' s = (ch s).filter (· ≠ cell)
  elsewhere : ∀ q, q ≠ s → ch' q = ch q
  data : ∀ j, (w'.nodes j).map Node.data = (w.nodes j).map Node.data

theorem cellDelete_run (hS : CellRow w ch s) (hf : (cellsOf w ch s).length < 2147483648) {i : Int} (h0 : -1 ≤ i) (h1 : i < (cellsOf w ch s).length)
    (h2 : (cellsOf w ch s).length ≠ 0) :
    ∃ w' ch' cell, deleteCell s i w = .ok w' cell ∧ Narrowed w ch s (place i ((cellsOf w ch s).length - 1)) cell w' ch' := by
  have hcount := hS.count (Nat.lt_of_lt_of_le hf (by omega))
  have hlen := toInt32_small hf
  obtain ⟨n, hn, ht, _⟩ := hS.elem
  have hk : place i ((cellsOf w ch s).length - 1) < (cellsOf w ch s).length := by unfold place; split <;> omega
  have hidx : (if i == -1 then sub32 (cellsOf w ch s).length 1 else toUInt32 i) = place i ((cellsOf w ch s).length - 1) := by
    unfold place
    by_cases h : i = -1
    · rw [if_pos h, if_pos (by simp [h])]
      unfold sub32; rw [if_pos (by omega)]
    · rw [if_neg h, if_neg (by simp [h])]
      conv_lhs => rw [show i = (i.toNat : Int) by omega]
      exact toUInt32_small (by omega)
  have hitem := hS.item (i := place i ((cellsOf w ch s).length - 1)) (by omega)
  rw [List.getElem?_eq_getElem hk] at hitem
  generalize hk' : place i ((cellsOf w ch s).length - 1) = k at *
  have hmem : (cellsOf w ch s)[k] ∈ cellsOf w ch s := List.getElem_mem hk
  have hge : (cellsOf w ch s)[k]? = some (cellsOf w ch s)[k] := List.getElem?_eq_getElem hk
  generalize (cellsOf w ch s)[k] = o at hitem hmem hge
  have hoc : o ∈ ch s := (List.mem_filter.1 hmem).1
  have hot : Table.tagged w "td" o = true := (List.mem_filter.1 hmem).2
  obtain ⟨on, hon, hona, _⟩ := hS.tree.linked.alive_child hoc
  obtain ⟨w', res, e⟩ := (Tree.C21_remove_decision hS.tree hn hon (fun h => absurd h hona)).2 ⟨hoc, hS.writable, fun h => by rw [ht] at h; cases h.1⟩
  obtain ⟨rfl, _, ch', g1, g2, g3, ⟨o', go, gp, _⟩, g4, _⟩ := Tree.C21_remove_effect hS.tree hn ⟨on, hon, fun h => absurd h hona⟩ e
  refine ⟨w', ch', res, ?_, g1, ⟨o', go, gp⟩, ?_, g2, g3, g4⟩
  · unfold deleteCell
    rw [Tree.bind_ok hcount, throwIf_neg (by rw [hlen]; rw [Bool.or_comm (decide (i < -1))]; exact tdel_ok h0 h1 h2), hidx, Tree.bind_ok hitem]
    exact e
  · obtain ⟨a, b, hab⟩ := List.append_of_mem hoc
    have hnd := (hS.tree.linked.loc s n hn).nodup
    have hr : cellsOf w ch s = a.filter (Table.tagged w "td") ++ res :: b.filter (Table.tagged w "td") := by
      unfold cellsOf; rw [hab, List.filter_append, List.filter_cons_of_pos hot]
    refine ⟨_, _, hr, split_at_row hnd hge hab rfl, ?_⟩
    unfold cellsOf
    rw [g2, hab]
    rw [hab] at hnd
    have hnd' := List.nodup_append.1 hnd
    have ha : ∀ y ∈ a, y ≠ res := fun y hy h => by subst h; exact hnd'.2.2 y hy y (by simp) rfl
    have hb : ∀ y ∈ b, y ≠ res := fun y hy h => by subst h; exact (List.nodup_cons.1 hnd'.2.1).1 hy
    rw [List.filter_append, List.filter_cons_of_neg (by simp), List.filter_eq_self (l := a) |>.2 (fun y hy => by simpa using ha y hy),
      List.filter_eq_self (l := b) |>.2 (fun y hy => by simpa using hb y hy), List.filter_append]
    rw [List.filter_congr fun x _ => tagged_data (g4 x) "td", List.filter_congr (l := b) fun x _ => tagged_data (g4 x) "td"]

/-- **C67**, deletion from a row: exactly the cell of the index goes (the last for -1); other indices raise INDEX_SIZE_ERR.
Partial: see `CellRow`. -/
theorem C67_cell_delete_partial (hS : CellRow w ch s) (hf : (cellsOf w ch s).length < 2147483648) (i : Int) :
    (-1 ≤ i ∧ i < (cellsOf w ch s).length ∧ cellsOf w ch s ≠ [] → ∃ w' ch' cell a b, deleteCell s i w = .ok w' cell ∧ WF w' ch' ∧
      cellsOf w ch s = a ++ cell :: b ∧ a.length = place i ((cellsOf w ch s).length - 1) ∧ cellsOf w' ch' s = a ++ b ∧
      ch' s = (ch s).filter (· ≠ cell) ∧ (∀ q, q ≠ s → ch' q = ch q) ∧ ∀ j, (w'.nodes j).map Node.data = (w.nodes j).map Node.data) ∧
    (¬ (-1 ≤ i ∧ i < (cellsOf w ch s).length ∧ cellsOf w ch s ≠ []) → deleteCell s i w = .exc w .indexSize) := by
  constructor
  · rintro ⟨h0, h1, h2⟩
    obtain ⟨w', ch', cell, e1, e2⟩ := cellDelete_run hS hf h0 h1 (by simpa using h2)
    obtain ⟨a, b, g1, g2, g3⟩ := e2.here
    exact ⟨w', ch', cell, a, b, e1, e2.wf, g1, g2, g3, e2.exact, e2.elsewhere, e2.data⟩
  · intro h
    have h' : ¬ (-1 ≤ i ∧ i < (cellsOf w ch s).length ∧ (cellsOf w ch s).length ≠ 0) := by
      intro h3; exact h ⟨h3.1, h3.2.1, by simpa using h3.2.2⟩
    unfold deleteCell
    rw [Tree.bind_ok (hS.count (Nat.lt_of_lt_of_le hf (by omega))), throwIf_pos (by rw [toInt32_small hf]; rw [Bool.or_comm (decide (i < -1))]; exact tdel_bad h')]


/-! ## Indices of rows -/

theorem name_tag {tag : DStr} {name : String} (h : tag.data.map asciiLower = name.toUTF8.toList) {n : Node} (hx : w.nodes x = some n) (ht : n.type = .element) :
    Str.caselessIsEqual n.name (some tag) = tagged w name x := by
  unfold tagged
  rw [hx, Option.any_some, caseless_eq, ht]
  rw [show (contents (some tag)).map asciiLower = name.toUTF8.toList from h]
  simp

theorem type_name_tag {tag : DStr} {name : String} (h : tag.data.map asciiLower = name.toUTF8.toList) {n : Node} (hx : w.nodes x = some n) :
    (n.type == .element && Str.caselessIsEqual n.name (some tag)) = tagged w name x := by
  unfold tagged
  rw [hx, Option.any_some, caseless_eq]
  rw [show (contents (some tag)).map asciiLower = name.toUTF8.toList from h]
  rfl

theorem countBefore_run (hW : WF w ch) {p : NodeId} {n : Node} (hx : w.nodes p = some n) {c : List NodeId} : ∀ (b a : List NodeId) (f k : Nat),
    ch p = a ++ (b ++ row :: c) → row ∉ b → b.length < f → k + (b.filter (tagged w "tr")).length < 4294967296 →
    countBefore row f (b ++ row :: c).head? k w = .ok w (k + (b.filter (tagged w "tr")).length) := by
  intro b
  induction b with
  | nil =>
    intro a f k _ _ hf _
    cases f with
    | zero => simp at hf
    | succ f =>
      simp only [List.nil_append, List.head?_cons, countBefore]
      rw [if_pos trivial]; rfl
  | cons d b ih =>
    intro a f k hab hnot hf hk
    cases f with
    | zero => simp at hf
    | succ f =>
      obtain ⟨m, hm, _, _, _, hnext⟩ := (hW.linked.loc p n hx).kids a d (b ++ row :: c) (by rw [hab]; simp)
      have hd : ¬ d = row := fun h => hnot (by rw [h]; exact List.mem_cons_self)
      simp only [List.cons_append, List.head?_cons, countBefore]
      rw [if_neg hd, Tree.get_bind hm, type_name_tag tr_data hm, hnext]
      have hlt : b.length < f := by simp at hf; omega
      by_cases ht : tagged w "tr" d = true
      · rw [List.filter_cons_of_pos ht, List.length_cons] at hk ⊢
        rw [if_pos ht, u32_small (by omega), ih (a ++ [d]) f (k + 1) (by simp [hab]) (fun h => hnot (List.mem_cons_of_mem _ h)) hlt (by omega)]
        congr 1; omega
      · rw [List.filter_cons_of_neg ht] at hk ⊢
        rw [if_neg ht]
        exact ih (a ++ [d]) f k (by simp [hab]) (fun h => hnot (List.mem_cons_of_mem _ h)) hlt hk

/-- The loop over the siblings in front, for a child of `p`. -/
theorem before_run (hW : WF w ch) {p : NodeId} {pn : Node} (hp : w.nodes p = some pn) {a b : List NodeId} (h : rowsOf w ch p = a ++ row :: b)
    (hf : a.length < 4294967296) : countBefore row (w.fresh + 1) pn.first 0 w = .ok w a.length := by
  have hmem : row ∈ rowsOf w ch p := by rw [h]; simp
  obtain ⟨hc, ht⟩ := List.mem_filter.1 hmem
  obtain ⟨u, v, huv⟩ := List.append_of_mem hc
  have hnd := (hW.linked.loc p pn hp).nodup
  obtain ⟨n', hn', hfirst, _⟩ := (hW.linked.loc p pn hp).ends
  rw [hp] at hn'; cases hn'
  have hnot : row ∉ u := by
    rw [huv] at hnd
    exact fun hu => (List.nodup_append.1 hnd).2.2 row hu row (by simp) rfl
  have hu : (u.filter (tagged w "tr")).length = a.length := by
    refine split_at_row (o := row) hnd ?_ huv rfl
    show (rowsOf w ch p)[a.length]? = some row
    rw [h]; simp
  have hlen := Tree.child_length_le hW.toCore p
  have := countBefore_run (row := row) hW hp (c := v) u [] (w.fresh + 1) 0 (by simpa using huv) hnot
    (by rw [huv] at hlen; simp at hlen; omega) (by omega)
  rw [hfirst, huv, this, hu]
  simp

/-- **C67**, sectionRowIndex: the number of rows in front of it in its parent. -/
theorem C67_section_index (hW : WF w ch) {p : NodeId} {pn : Node} (hp : w.nodes p = some pn) {a b : List NodeId} (h : rowsOf w ch p = a ++ row :: b)
    (hf : a.length < 2147483648) : sectionRowIndex row w = .ok w a.length := by
  have hmem : row ∈ rowsOf w ch p := by rw [h]; simp
  obtain ⟨hc, ht⟩ := List.mem_filter.1 hmem
  obtain ⟨u, v, huv⟩ := List.append_of_mem hc
  obtain ⟨m, hm, _, hpar, _⟩ := (hW.linked.loc p pn hp).kids u row v huv
  unfold sectionRowIndex
  rw [Tree.get_bind hm, hpar]
  show (getNode p >>= _) w = _
  rw [Tree.get_bind hp]
  show (countBefore row (w.fresh + 1) pn.first 0 >>= fun k => pure (toInt32 k)) w = _
  rw [Tree.bind_ok (before_run hW hp h (by omega))]
  show Tree.Res.ok w (toInt32 a.length) = _
  rw [toInt32_small hf]

theorem bodiesBefore_run (hT : Shape w ch t hd bodies ft) {n : Node} (hx : w.nodes t = some n)
    (htb : ∀ c ∈ ch t, ∀ m, w.nodes c = some m → (contents m.name).map asciiLower = "tbody".toUTF8.toList → m.type = .element) {c : List NodeId} :
    ∀ (b a : List NodeId) (f k : Nat), ch t = a ++ (b ++ s :: c) → s ∉ b → b.length < f → k + total w ch (b.filter (tagged w "tbody")) < 2147483648 →
    bodiesBefore s f (b ++ s :: c).head? k w = .ok w (k + total w ch (b.filter (tagged w "tbody"))) := by
  intro b
  induction b with
  | nil =>
    intro a f k _ _ hf _
    cases f with
    | zero => simp at hf
    | succ f =>
      simp only [List.nil_append, List.head?_cons, bodiesBefore]
      rw [if_pos trivial]; rfl
  | cons d b ih =>
    intro a f k hab hnot hf hk
    cases f with
    | zero => simp at hf
    | succ f =>
      obtain ⟨m, hm, _, _, _, hnext⟩ := (hT.tree.linked.loc t n hx).kids a d (b ++ s :: c) (by rw [hab]; simp)
      have hd : ¬ d = s := fun h => hnot (by rw [h]; exact List.mem_cons_self)
      have hdm : d ∈ ch t := by rw [hab]; simp
      have hname : Str.caselessIsEqual m.name (some tbodyName) = tagged w "tbody" d := by
        by_cases hty : m.type = .element
        · exact name_tag tbody_data hm hty
        · have h1 : Str.caselessIsEqual m.name (some tbodyName) = false := by
            rw [caseless_eq, show (contents (some tbodyName)).map asciiLower = _ from tbody_data]
            exact decide_eq_false fun h => hty (htb d hdm m hm h)
          rw [h1]
          unfold tagged
          rw [hm, Option.any_some, decide_eq_false hty]; rfl
      simp only [List.cons_append, List.head?_cons, bodiesBefore]
      rw [if_neg hd, Tree.get_bind hm, hname, hnext]
      have hlt : b.length < f := by simp at hf; omega
      by_cases ht : tagged w "tbody" d = true
      · have hsec : d ∈ sections w ch t := List.mem_filter.2 ⟨hdm, by simp [ht]⟩
        rw [List.filter_cons_of_pos ht, total_cons] at hk ⊢
        rw [if_pos ht, Tree.bind_ok ((hT.section hsec).count (by omega)), u32_small (by omega),
          ih (a ++ [d]) f _ (by simp [hab]) (fun h => hnot (List.mem_cons_of_mem _ h)) hlt (by omega)]
        congr 1; omega
      · rw [List.filter_cons_of_neg ht] at hk ⊢
        rw [if_neg ht]
        exact ih (a ++ [d]) f k (by simp [hab]) (fun h => hnot (List.mem_cons_of_mem _ h)) hlt hk

theorem append_inj_nodup {s : NodeId} {a b c d : List NodeId} (h : a ++ s :: b = c ++ s :: d) (hn : (a ++ s :: b).Nodup) : a = c ∧ b = d := by
  have h1 : s ∉ a := fun hs => (List.nodup_append.1 hn).2.2 s hs s (by simp) rfl
  rw [h] at hn
  have h2 : s ∉ c := fun hs => (List.nodup_append.1 hn).2.2 s hs s (by simp) rfl
  induction a generalizing c with
  | nil =>
    cases c with
    | nil => simpa using h
    | cons e c => simp only [List.nil_append, List.cons_append, List.cons.injEq] at h; exact absurd (by rw [h.1]; simp) h2
  | cons e a ih =>
    cases c with
    | nil => simp only [List.nil_append, List.cons_append, List.cons.injEq] at h; exact absurd (by rw [h.1]; simp) h1
    | cons f c =>
      simp only [List.cons_append, List.cons.injEq] at h hn
      obtain ⟨rfl, h⟩ := h
      obtain ⟨e1, e2⟩ := ih h (List.nodup_cons.1 hn).2 (fun hs => h1 (List.mem_cons_of_mem _ hs)) (fun hs => h2 (List.mem_cons_of_mem _ hs))
      exact ⟨by rw [e1], e2⟩

/-- The sections before a body or the foot: the head and bodies. -/
theorem Shape.before (hT : Shape w ch t hd bodies ft) {pre post : List NodeId} (hsp : sections w ch t = pre ++ s :: post)
    (hs : tagged w "thead" s = false) : ∃ pre', pre = hd :: pre' ∧ ∀ x ∈ pre', tagged w "tbody" x = true := by
  have hnd := hT.nodup
  have ho := hT.order
  rw [hsp] at hnd ho
  cases pre with
  | nil =>
    simp only [List.nil_append, List.cons.injEq] at ho
    rw [ho.1, hT.head] at hs; cases hs
  | cons e pre' =>
    simp only [List.cons_append, List.cons.injEq] at ho hnd
    obtain ⟨rfl, ho⟩ := ho
    refine ⟨pre', rfl, fun x hx => ?_⟩
    have hxm : x ∈ bodies ++ ft.toList := by rw [← ho]; simp [hx]
    rcases List.mem_append.1 hxm with h | h
    · exact hT.body x h
    · exfalso
      cases ft with
      | none => simp at h
      | some f =>
        simp only [Option.toList_some, List.mem_singleton] at h
        subst h
        have hl := congrArg List.getLast? ho
        simp only [Option.toList_some, List.getLast?_append, List.getLast?_cons, List.getLast?_nil, Option.some_or] at hl
        have hx2 : x ∈ s :: post := by
          have h3 : (s :: post).getLast? = some x := by rw [List.getLast?_cons]; simpa using hl
          exact List.mem_of_getLast? h3
        have := (List.nodup_cons.1 hnd).2
        exact (List.nodup_append.1 this).2.2 x hx x hx2 rfl

/-- **C67**, rowIndex: the index among the rows of the table.  Partial: see `Shape`; no other node may be called TBODY (`C67_index_violated`). -/
theorem C67_row_index_partial (hT : Shape w ch t hd bodies ft) (htt : tagged w "table" t = true)
    (htb : ∀ c ∈ ch t, ∀ m, w.nodes c = some m → (contents m.name).map asciiLower = "tbody".toUTF8.toList → m.type = .element)
    (hf : (tableRows w ch t).length < 2147483648) {i : Nat} (hi : (tableRows w ch t)[i]? = some row) : rowIndex row w = .ok w i := by
  rw [hT.spec] at hf hi
  have hsecnd : (secRows w ch t).Nodup := by
    have hd' := Tree.docOrder_preorder hT.tree.toCore
    rw [← hT.rows hd']
    exact (Tree.preorder_nodup hT.tree.linked hT.tree.wf _ _).filter _
  obtain ⟨s, hs, hr⟩ := List.mem_flatMap.1 (show row ∈ (sections w ch t).flatMap (rowsOf w ch) from List.mem_of_getElem? hi)
  obtain ⟨pre, post, hsp⟩ := List.append_of_mem hs
  obtain ⟨a, b, hab⟩ := List.append_of_mem hr
  have hsplit : secRows w ch t = (pre.flatMap (rowsOf w ch) ++ a) ++ row :: (b ++ post.flatMap (rowsOf w ch)) := by
    unfold secRows; rw [hsp]; simp [hab]
  have hidx : i = total w ch pre + a.length := by
    have h2 : (secRows w ch t)[(pre.flatMap (rowsOf w ch) ++ a).length]? = some row := by rw [hsplit]; simp
    have l1 := (List.getElem?_eq_some_iff.1 hi).1
    have l2 := (List.getElem?_eq_some_iff.1 h2).1
    have := (List.Nodup.getElem_inj_iff hsecnd).1 ((List.getElem?_eq_some_iff.1 hi).2.trans (List.getElem?_eq_some_iff.1 h2).2.symm)
    rw [this, List.length_append]; rfl
  have hbound : total w ch pre + a.length < 2147483648 := by
    have := congrArg List.length hsplit
    rw [List.length_append, List.length_append] at this
    have h3 : (pre.flatMap (rowsOf w ch)).length = total w ch pre := rfl
    omega
  obtain ⟨tn, htn⟩ := hT.alive
  obtain ⟨tn', htn', htty⟩ := tagged_elem htt
  rw [htn] at htn'; cases htn'
  have hsc := sections_mem hs
  obtain ⟨a', b', hab'⟩ := List.append_of_mem hsc
  obtain ⟨sn, hsn, _, hspar, _⟩ := (hT.tree.linked.loc t tn htn).kids a' s b' hab'
  obtain ⟨sn', hsn', hsty⟩ := sections_elem hs
  rw [hsn] at hsn'; cases hsn'
  obtain ⟨hrc, hrt⟩ := List.mem_filter.1 hr
  obtain ⟨u, v, huv⟩ := List.append_of_mem hrc
  obtain ⟨rn, hrn, _, hrpar, _⟩ := (hT.tree.linked.loc s sn hsn).kids u row v huv
  have hk := before_run hT.tree hsn hab (by omega)
  have e1 := name_tag table_data htn htty
  rw [htt] at e1
  have e2 := name_tag thead_data hsn hsty
  have e3 := name_tag tbody_data hsn hsty
  have e4 := name_tag tfoot_data hsn hsty
  have hstart : rowIndex row w = ((if Str.caselessIsEqual tn.name (some tableName) && Str.caselessIsEqual sn.name (some theadName) then pure (toInt32 a.length)
   else if Str.caselessIsEqual tn.name (some tableName) && (Str.caselessIsEqual sn.name (some tbodyName) || Str.caselessIsEqual sn.name (some tfootName)) then do
    let len ← headRows t
    let r ← bodiesBefore s (w.fresh + 1) tn.first (u32 (a.length + len))
    pure (toInt32 r)
   else M.throw .hierarchyRequest) : M Int) w := by
    unfold rowIndex
    rw [Tree.get_bind hrn, hrpar]
    show (getNode s >>= _) w = _
    rw [Tree.get_bind hsn]
    show (countBefore row (w.fresh + 1) sn.first 0 >>= _) w = _
    rw [Tree.bind_ok hk, hspar]
    show (getNode t >>= _) w = _
    rw [Tree.get_bind htn]
  rw [hstart, e1, e2, e3, e4]
  cases hth : tagged w "thead" s with
  | true =>
    have hpre : pre = [] := by
      have ho := hT.order
      have hnd := hT.nodup
      rw [hsp] at ho hnd
      cases pre with
      | nil => rfl
      | cons e pre' =>
        exfalso
        simp only [List.cons_append, List.cons.injEq] at ho
        have hm : s ∈ bodies ++ ft.toList := by rw [← ho.2]; simp
        rcases List.mem_append.1 hm with h | h
        · exact ne_tags.2.2.1 (tagged_unique hth (hT.body s h))
        · cases ft with
          | none => simp at h
          | some f =>
            simp only [Option.toList_some, List.mem_singleton] at h
            subst h
            exact ne_tags.1 (tagged_unique hth (hT.foot s rfl))
    rw [if_pos (by rfl), hidx, hpre, total_nil, Nat.zero_add]
    show Tree.Res.ok w (toInt32 a.length) = _
    rw [toInt32_small (by omega)]
  | false =>
    obtain ⟨pre', rfl, hbod⟩ := hT.before hsp hth
    have hcond : (tagged w "tbody" s || tagged w "tfoot" s) = true := by
      have := (List.mem_filter.1 hs).2
      rw [hth] at this
      simpa using this
    have hhd : hd ∈ sections w ch t := by rw [hT.order]; simp
    have hhead : headRows t w = .ok w (rowsOf w ch hd).length := by
      unfold headRows
      rw [Tree.bind_ok (childOf_run hT.tree htn thead_data), hT.headOf]
      exact (hT.section hhd).count (by rw [total_cons] at hbound; omega)
    rw [if_neg (by simp), hcond, if_pos (by rfl), Tree.bind_ok hhead, u32_small (by rw [total_cons] at hbound; omega)]
    have hnd := (hT.tree.linked.loc t tn htn).nodup
    have hfil : a'.filter (tagged w "tbody") = pre' := by
      have h1 : sections w ch t = a'.filter (fun x => tagged w "thead" x || tagged w "tbody" x || tagged w "tfoot" x) ++
          s :: b'.filter (fun x => tagged w "thead" x || tagged w "tbody" x || tagged w "tfoot" x) := by
        unfold sections
        rw [hab', List.filter_append, List.filter_cons_of_pos (by exact (List.mem_filter.1 hs).2)]
      have hsnd := hT.nodup
      rw [hsp] at hsnd
      have h2 := (append_inj_nodup (hsp.symm.trans h1) hsnd).1
      have h3 : a'.filter (tagged w "tbody") = (a'.filter (fun x => tagged w "thead" x || tagged w "tbody" x || tagged w "tfoot" x)).filter (tagged w "tbody") := by
        rw [List.filter_filter]
        refine List.filter_congr fun x _ => ?_
        cases tagged w "tbody" x <;> simp
      rw [h3, ← h2, List.filter_cons_of_neg, List.filter_eq_self.2 hbod]
      intro hb
      exact ne_tags.2.2.1 (tagged_unique hT.head hb)
    have hnot : s ∉ a' := by
      rw [hab'] at hnd
      exact fun hu => (List.nodup_append.1 hnd).2.2 s hu s (by simp) rfl
    have hlen := Tree.child_length_le hT.tree.toCore t
    obtain ⟨n', hn', hfirst, _⟩ := (hT.tree.linked.loc t tn htn).ends
    rw [htn] at hn'; cases hn'
    rw [total_cons] at hbound hidx
    have hrun := bodiesBefore_run (s := s) hT htn htb (c := b') a' [] (w.fresh + 1) (a.length + (rowsOf w ch hd).length) (by simpa using hab') hnot
      (by rw [hab'] at hlen; simp at hlen; omega) (by rw [hfil]; omega)
    rw [hfirst, hab', Tree.bind_ok hrun, hfil]
    show Tree.Res.ok w (toInt32 _) = _
    rw [toInt32_small (by omega), hidx]
    congr 2; omega

end

/-! ## Concrete cases -/

/-- A call of a function, with the memory dropped. -/
def answer {α : Type} (m : M α) (w : World) : Out α :=
  match m w with
  | .ok _ a => .ok a
  | .exc _ e => .exc e
  | .fault f => .fault f

/-- An element of the document. -/
def elem (tag : String) : Call := .createNode 0 .element (some (Names.lit tag)) none

/-- A row (1) with a text node (2) between two cells (3, 4) and a TH (5) at the end, in no table. -/
def cellSample : List Call :=
  [.createDocument, elem "TR", .createNode 0 .text (some (Names.lit "#text")) (some (Names.lit "x")), elem "TD", elem "td", elem "TH", .appendChild 0 1, .appendChild 1 3,
    .appendChild 1 2, .appendChild 1 4, .appendChild 1 5]

/-- The cells after a call. -/
def cellsAfter {α : Type} (m : M α) (x : NodeId) (w : World) : Out (List NodeId) :=
  match m w with
  | .ok w' _ => .ok (cellsOf w' (Tree.kidsOf w') x)
  | .exc _ e => .exc e
  | .fault f => .fault f

/-- The children after a call. -/
def kidsAfter {α : Type} (m : M α) (x : NodeId) (w : World) : Out (List NodeId) :=
  match m w with
  | .ok w' _ => .ok (Tree.kidsOf w' x)
  | .exc _ e => .exc e
  | .fault f => .fault f

/-- The row meets the hypotheses of the theorems about cells. -/
theorem cell_meets : ∃ w ch, Reach (fun w c => c.Ok w) w ∧ CellRow w ch 1 ∧ cellsOf w ch 1 = [3, 4] ∧ cellsAfter (insertCell 1 1) 1 w = .ok [3, 6, 4] ∧
    cellsAfter (insertCell 1 (-1)) 1 w = .ok [3, 4, 6] ∧ cellsAfter (insertCell 1 3) 1 w = .exc .indexSize ∧ cellsAfter (deleteCell 1 (-1)) 1 w = .ok [3] ∧
    cellsAfter (deleteCell 1 0) 1 w = .ok [4] ∧ cellsAfter (deleteCell 1 2) 1 w = .exc .indexSize := by
  obtain ⟨w, h1, h2⟩ := exists_ok cellSample (fun w => decide (cellsOf w (Tree.kidsOf w) 1 = [3, 4]) && decide (cellsAfter (insertCell 1 1) 1 w = .ok [3, 6, 4]) &&
    decide (cellsAfter (insertCell 1 (-1)) 1 w = .ok [3, 4, 6]) && decide (cellsAfter (insertCell 1 3) 1 w = .exc .indexSize) &&
    decide (cellsAfter (deleteCell 1 (-1)) 1 w = .ok [3]) && decide (cellsAfter (deleteCell 1 0) 1 w = .ok [4]) &&
    decide (cellsAfter (deleteCell 1 2) 1 w = .exc .indexSize) && Tree.noEntities w &&
    (w.nodes 1).any (fun n => n.type == .element) && decide (Tree.kidsOf w 1 = [3, 2, 4, 5]) &&
    (Tree.preorder (Tree.kidsOf w) (w.fresh + 1) 1).all (fun x => !tagged w "td" x || (Tree.kidsOf w 1).contains x)) (by decide +kernel)
  simp only [Bool.and_eq_true, decide_eq_true_eq] at h2
  obtain ⟨⟨⟨⟨⟨⟨⟨⟨⟨⟨a1, a2⟩, a3⟩, a4⟩, a5⟩, a6⟩, a7⟩, a8⟩, a9⟩, a10⟩, a11⟩ := h2
  obtain ⟨ch, hW⟩ := h1.wf (fun _ _ h => h)
  have hk := Tree.kids_eq hW.toCore
  obtain ⟨n, hn, ht⟩ := (Option.any_eq_true _ _).1 a9
  have ht : n.type = .element := by simpa using ht
  refine ⟨w, ch, h1, ⟨hW, ⟨n, hn, ht, .inl ?_⟩, Tree.writable_of hW a8 hn ht, ?_⟩, by rw [hk]; exact a1, a2, a3, a4, a5, a6, a7⟩
  · rw [hk, a10]; simp
  · intro x hx hxt
    rw [List.all_eq_true] at a11
    have := a11 x (Tree.below_iff hW.toCore |>.1 hx)
    rw [hxt] at this
    rw [hk]
    simpa using this

/-- The sample table meets the hypotheses of the theorems about the index of a row. -/
theorem index_meets : ∃ w ch, Reach (fun w c => c.Ok w) w ∧ Shape w ch 1 2 [4, 6] (some 9) ∧ tagged w "table" 1 = true ∧
    (∀ c ∈ ch 1, ∀ m, w.nodes c = some m → (contents m.name).map asciiLower = "tbody".toUTF8.toList → m.type = .element) ∧
    tableRows w ch 1 = [3, 5, 7, 8, 10] ∧ answer (rowIndex 8) w = .ok 3 ∧ answer (rowIndex 10) w = .ok 4 ∧ answer (rowIndex 3) w = .ok 0 ∧
    answer (sectionRowIndex 8) w = .ok 1 := by
  obtain ⟨w, h1, h2⟩ := exists_ok sample (fun w => shapeB w 1 2 [4, 6] (some 9) && decide (tableRows w (Tree.kidsOf w) 1 = [3, 5, 7, 8, 10]) && tagged w "table" 1 &&
    (Tree.kidsOf w 1).all (fun c => (w.nodes c).all fun m => m.type == .element) &&
    decide (answer (rowIndex 8) w = .ok 3) && decide (answer (rowIndex 10) w = .ok 4) && decide (answer (rowIndex 3) w = .ok 0) &&
    decide (answer (sectionRowIndex 8) w = .ok 1)) (by decide +kernel)
  simp only [Bool.and_eq_true, decide_eq_true_eq] at h2
  obtain ⟨⟨⟨⟨⟨⟨⟨a1, a2⟩, a3⟩, a4⟩, a5⟩, a6⟩, a7⟩, a8⟩ := h2
  obtain ⟨ch, hW⟩ := h1.wf (fun _ _ h => h)
  have hk := Tree.kids_eq hW.toCore
  refine ⟨w, ch, h1, shape_of hW a1, a3, ?_, by rw [hk]; exact a2, a5, a6, a7, a8⟩
  intro c hc m hm _
  rw [hk] at hc
  have := List.all_eq_true.1 a4 c hc
  rw [hm] at this
  simpa using this

/-! ## Where the code deviates -/

/-- **C67** is violated, and memory safety with it: a row without a parent, or whose parent has none, dereferences NULL. -/
theorem C67_detached_violated : ∃ w, Reach (fun w c => c.Ok w) w ∧ answer (rowIndex 1) w = .fault .nullDeref ∧ answer (sectionRowIndex 1) w = .fault .nullDeref ∧
    answer (rowIndex 3) w = .fault .nullDeref := by
  obtain ⟨w, h1, h2⟩ := exists_ok [.createDocument, elem "TR", elem "TBODY", elem "TR", .appendChild 2 3] (fun w =>
    decide (answer (rowIndex 1) w = .fault .nullDeref) && decide (answer (sectionRowIndex 1) w = .fault .nullDeref) &&
    decide (answer (rowIndex 3) w = .fault .nullDeref)) (by decide +kernel)
  simp only [Bool.and_eq_true, decide_eq_true_eq] at h2
  exact ⟨w, h1, h2.1.1, h2.1.2, h2.2⟩

/-- **C67** is violated: a row directly in the table is one of its rows, but has no index and is not counted in the index of a later row. -/
theorem C67_direct_violated : ∃ w, Reach (fun w c => c.Ok w) w ∧ rowList 1 20 0 w = .ok [2, 4] ∧ answer (rowIndex 2) w = .exc .hierarchyRequest ∧
    answer (rowIndex 4) w = .ok 0 := by
  obtain ⟨w, h1, h2⟩ := exists_ok [.createDocument, elem "TABLE", elem "TR", elem "TBODY", elem "TR", .appendChild 0 1, .appendChild 1 2, .appendChild 1 3,
      .appendChild 3 4] (fun w => decide (rowList 1 20 0 w = .ok [2, 4]) && decide (answer (rowIndex 2) w = .exc .hierarchyRequest) &&
    decide (answer (rowIndex 4) w = .ok 0)) (by decide +kernel)
  simp only [Bool.and_eq_true, decide_eq_true_eq] at h2
  exact ⟨w, h1, h2.1.1, h2.1.2, h2.2⟩

/-- **C67** is violated: with the foot before the body, as HTML 4 asks for, two rows have the same index. -/
theorem C67_foot_violated : ∃ w, Reach (fun w c => c.Ok w) w ∧ tableRows w (Tree.kidsOf w) 1 = [5, 3] ∧ answer (rowIndex 3) w = .ok 0 ∧
    answer (rowIndex 5) w = .ok 0 := by
  obtain ⟨w, h1, h2⟩ := exists_ok [.createDocument, elem "TABLE", elem "TFOOT", elem "TR", elem "TBODY", elem "TR", .appendChild 0 1, .appendChild 1 2,
      .appendChild 2 3, .appendChild 1 4, .appendChild 4 5] (fun w => decide (tableRows w (Tree.kidsOf w) 1 = [5, 3]) && decide (answer (rowIndex 3) w = .ok 0) &&
    decide (answer (rowIndex 5) w = .ok 0)) (by decide +kernel)
  simp only [Bool.and_eq_true, decide_eq_true_eq] at h2
  exact ⟨w, h1, h2.1.1, h2.1.2, h2.2⟩

/-- **C67** is violated, and memory safety with it: a processing instruction called tbody is taken for a body. -/
theorem C67_index_violated : ∃ w, Reach (fun w c => c.Ok w) w ∧ tableRows w (Tree.kidsOf w) 1 = [4] ∧ answer (rowIndex 4) w = .fault .nullDeref := by
  obtain ⟨w, h1, h2⟩ := exists_ok [.createDocument, elem "TABLE", .createNode 0 .pi (some (Names.lit "tbody")) none, elem "TBODY", elem "TR",
      .appendChild 0 1, .appendChild 1 2, .appendChild 1 3, .appendChild 3 4] (fun w => decide (tableRows w (Tree.kidsOf w) 1 = [4]) &&
    decide (answer (rowIndex 4) w = .fault .nullDeref)) (by decide +kernel)
  simp only [Bool.and_eq_true, decide_eq_true_eq] at h2
  exact ⟨w, h1, h2.1, h2.2⟩

/-- **C67** is violated: a heading cell is no cell, so a cell inserted at index 1 comes last and not second. -/
theorem C67_heading_violated : ∃ w, Reach (fun w c => c.Ok w) w ∧ Tree.kidsOf w 1 = [2, 3, 4] ∧ tagged w "td" 2 = true ∧ tagged w "th" 3 = true ∧ tagged w "th" 4 = true ∧
    kidsAfter (insertCell 1 1) 1 w = .ok [2, 3, 4, 5] := by
  obtain ⟨w, h1, h2⟩ := exists_ok [.createDocument, elem "TR", elem "TD", elem "TH", elem "TH", .appendChild 1 2, .appendChild 1 3, .appendChild 1 4] (fun w =>
    decide (Tree.kidsOf w 1 = [2, 3, 4]) && tagged w "td" 2 && tagged w "th" 3 && tagged w "th" 4 &&
    decide (kidsAfter (insertCell 1 1) 1 w = .ok [2, 3, 4, 5])) (by decide +kernel)
  simp only [Bool.and_eq_true, decide_eq_true_eq] at h2
  obtain ⟨⟨⟨⟨a1, a2⟩, a3⟩, a4⟩, a5⟩ := h2
  exact ⟨w, h1, a1, a2, a3, a4, a5⟩

/-- **C67** is violated: the cells of a table in a cell count as cells of the row, and inserting before one of them fails. -/
theorem C67_nested_violated : ∃ w, Reach (fun w c => c.Ok w) w ∧ cellsOf w (Tree.kidsOf w) 1 = [2] ∧ cellsAfter (insertCell 1 1) 1 w = .exc .notFound ∧
    cellsAfter (deleteCell 1 1) 1 w = .exc .notFound := by
  obtain ⟨w, h1, h2⟩ := exists_ok [.createDocument, elem "TR", elem "TD", elem "TABLE", elem "TR", elem "TD", .appendChild 0 1, .appendChild 1 2,
      .appendChild 2 3, .appendChild 3 4, .appendChild 4 5] (fun w => decide (cellsOf w (Tree.kidsOf w) 1 = [2]) &&
    decide (cellsAfter (insertCell 1 1) 1 w = .exc .notFound) && decide (cellsAfter (deleteCell 1 1) 1 w = .exc .notFound)) (by decide +kernel)
  simp only [Bool.and_eq_true, decide_eq_true_eq] at h2
  exact ⟨w, h1, h2.1.1, h2.1.2, h2.2⟩

/-- **C67** is violated, and memory safety with it: an empty row in front of another. -/
theorem C67_empty_violated : ∃ w, Reach (fun w c => c.Ok w) w ∧ cellsOf w (Tree.kidsOf w) 2 = [] ∧ answer (insertCell 2 0) w = .fault .nullDeref ∧
    answer (deleteCell 2 0) w = .fault .nullDeref := by
  obtain ⟨w, h1, h2⟩ := exists_ok [.createDocument, elem "TBODY", elem "TR", elem "TR", elem "TD", .appendChild 0 1, .appendChild 1 2,
      .appendChild 1 3, .appendChild 3 4] (fun w => decide (cellsOf w (Tree.kidsOf w) 2 = []) && decide (answer (insertCell 2 0) w = .fault .nullDeref) &&
    decide (answer (deleteCell 2 0) w = .fault .nullDeref)) (by decide +kernel)
  simp only [Bool.and_eq_true, decide_eq_true_eq] at h2
  exact ⟨w, h1, h2.1.1, h2.1.2, h2.2⟩

end Dom.Html.Table
