import Verif.Html.Places
import Verif.Html.PropsRow
import Verif.Html.PropsRefs
import Verif.Query.Props
/-!
# C83: the place of an option or a cell, and the form of an element
-/
set_option linter.unusedSimpArgs false
set_option linter.unusedVariables false
namespace Dom.Html.Places
open Dom.Str (DStr asciiLower contents)
open Dom.Tree (World NodeId Node M Children Sound WF Core count DocOrder Below ParentOf Chain Reach Call bind_ok get_bind)
open Dom.Trav (rd rd_ok colNext colClimb ColAt col_step col_start)
open Dom.Html.Table (tagged trName tdName caseless_eq)
open Dom.Html.Forms (Fields selectName)
open Dom.Html.Collect (formName)
open Dom.Query (Above IsNearest nearest_find above_chain)

variable {w w' : World} {ch : Children} {order : NodeId → List NodeId} {x o p cell row s f : NodeId} {n pn : Node} {fs : Fields}

/-! ## Specification -/

/-- The name of a node of any type is `name`, letter case aside. -/
def namedB (w : World) (name : String) (x : NodeId) : Bool := (w.nodes x).any fun n => decide ((contents n.name).map asciiLower = name.toUTF8.toList)

/-- `r` is the nearest proper ancestor of `x` that is an element of that name; `none` when there is none. -/
def Nearest (w : World) (name : String) (x : NodeId) : Option NodeId → Prop := IsNearest w (fun a => tagged w name a = true) x

/-- A cell: TD or TH. -/
def cellB (w : World) (x : NodeId) : Bool := tagged w "td" x || tagged w "th" x

/-! ## Searching upwards -/

theorem option_data : optionName.data.map asciiLower = "option".toUTF8.toList := by decide +kernel
theorem th_data : thName.data.map asciiLower = "th".toUTF8.toList := by decide +kernel
theorem fieldset_data : fieldsetName.data.map asciiLower = "fieldset".toUTF8.toList := by decide +kernel
theorem form_data : formName.data.map asciiLower = "form".toUTF8.toList := by decide +kernel
theorem select_data : selectName.data.map asciiLower = "select".toUTF8.toList := by decide +kernel

theorem named_eq {tag : DStr} {name : String} (h : tag.data.map asciiLower = name.toUTF8.toList) (hx : w.nodes x = some n) :
    Str.caselessIsEqual n.name (some tag) = namedB w name x ∧ Str.caselessIsEqual (some tag) n.name = namedB w name x := by
  have e : (contents (some tag)).map asciiLower = name.toUTF8.toList := h
  unfold namedB
  rw [hx, Option.any_some, caseless_eq, caseless_eq, e]
  exact ⟨rfl, decide_eq_decide.2 ⟨Eq.symm, Eq.symm⟩⟩

theorem upTo_run {tag : DStr} {name : String} (h : tag.data.map asciiLower = name.toUTF8.toList) {q : Option NodeId} {l : List NodeId} (hc : Chain w q l) :
    ∀ k, l.length < k → upTo tag w k q = .ok (l.find? (tagged w name)) := by
  induction hc with
  | nil => intro k hk; cases k with
    | zero => cases hk
    | succ k => rfl
  | @cons i n l hn hc ih =>
    intro k hk
    cases k with
    | zero => simp at hk
    | succ k =>
      have hrec := ih k (by simpa using hk)
      unfold upTo
      rw [rd_ok hn, Out.bind_ok, Table.type_name_tag h hn]
      cases ht : tagged w name i with
      | true => rw [if_pos rfl, List.find?_cons_of_pos ht]
      | false => rw [if_neg (by simp), List.find?_cons_of_neg (by rw [ht]; simp), hrec]

theorem rowAbove_run {q : Option NodeId} {l : List NodeId} (hc : Chain w q l) :
    ∀ k, l.length < k → rowAbove w k q = .ok (l.find? (namedB w "tr")) := by
  induction hc with
  | nil => intro k hk; cases k with
    | zero => cases hk
    | succ k => rfl
  | @cons i n l hn hc ih =>
    intro k hk
    cases k with
    | zero => simp at hk
    | succ k =>
      have hrec := ih k (by simpa using hk)
      unfold rowAbove
      rw [rd_ok hn, Out.bind_ok, (named_eq Table.tr_data hn).2]
      cases ht : namedB w "tr" i with
      | true => rw [if_pos rfl, List.find?_cons_of_pos ht]
      | false => rw [if_neg (by simp), List.find?_cons_of_neg (by rw [ht]; simp), hrec]

theorem ancestor_run {tag : DStr} {name : String} (h : tag.data.map asciiLower = name.toUTF8.toList) (hC : Core w ch) (hx : w.nodes x = some n) :
    ∃ r, ancestor tag x w = .ok w r ∧ Nearest w name x r := by
  obtain ⟨l, hc, hl, hm⟩ := above_chain hC hx
  refine ⟨l.find? (tagged w name), ?_, nearest_find hc hm (fun _ => Iff.rfl)⟩
  unfold ancestor Table.reading
  dsimp only
  rw [rd_ok hx, Out.bind_ok, upTo_run h hc _ (Nat.lt_succ_of_le hl)]

/-- The nearest ancestor is determined. -/
theorem IsNearest_unique (hC : Core w ch) {P : NodeId → Prop} {r r' : Option NodeId} (h : IsNearest w P x r) (h' : IsNearest w P x r') : r = r' := by
  cases r with
  | none => cases r' with
    | none => rfl
    | some a => exact absurd h'.2.1 (h a h'.1)
  | some a => cases r' with
    | none => exact absurd h.2.1 (h' a h.1)
    | some b => exact congrArg some (Tree.AncSelf.antisymm hC.wf (h.2.2 b h'.1 h'.2.1) (h'.2.2 a h.1 h.2.1))

theorem Above.alive (hC : Core w ch) (h : Above w x p) : ∃ m, w.nodes p = some m := by
  obtain ⟨b, _, m, hm, e⟩ := Relation.TransGen.tail'_iff.1 h
  exact hC.linked.alive_parent hm e

theorem loop_irrefl (hC : Core w ch) (h : Above w x x) : False := Tree.transGen_irrefl hC.wf x h

/-! ## Options -/

theorem indexLoop_run (hC : Core w ch) (hp : w.nodes p = some pn) {c : List NodeId} : ∀ (b a : List NodeId) (f k : Nat),
    ch p = a ++ (b ++ o :: c) → o ∉ b → b.length < f → indexLoop w o f (b ++ o :: c).head? k = .ok (k + (b.filter (namedB w "option")).length) := by
  intro b
  induction b with
  | nil =>
    intro a f k _ _ hf
    cases f with
    | zero => simp at hf
    | succ f =>
      simp only [List.nil_append, List.head?_cons, indexLoop]
      rw [if_pos trivial]; rfl
  | cons d b ih =>
    intro a f k hab hnot hf
    cases f with
    | zero => simp at hf
    | succ f =>
      obtain ⟨m, hm, _, _, _, hnext⟩ := (hC.linked.loc p pn hp).kids a d (b ++ o :: c) (by rw [hab]; simp)
      have hd : ¬ d = o := fun h => hnot (by rw [h]; exact List.mem_cons_self)
      simp only [List.cons_append, List.head?_cons, indexLoop]
      rw [if_neg hd, rd_ok hm, Out.bind_ok, (named_eq option_data hm).1, hnext,
        ih (a ++ [d]) f _ (by simp [hab]) (fun h => hnot (List.mem_cons_of_mem _ h)) (by simp at hf; omega)]
      cases ht : namedB w "option" d with
      | true => rw [List.filter_cons_of_pos ht, List.length_cons, if_pos rfl]; congr 1; omega
      | false => rw [List.filter_cons_of_neg (by rw [ht]; simp), if_neg (by simp)]

theorem optionIndex_run (hC : Core w ch) {a b : List NodeId} (h : ch p = a ++ o :: b) : optionIndex w o = .ok (a.filter (namedB w "option")).length := by
  have hloc : ∃ pn, w.nodes p = some pn := by
    cases hpn : w.nodes p with
    | none => rw [hC.linked.dead p hpn] at h; simp at h
    | some pn => exact ⟨pn, rfl⟩
  obtain ⟨pn, hp⟩ := hloc
  obtain ⟨m, hm, _, hpar, _⟩ := (hC.linked.loc p pn hp).kids a o b h
  have hnd := (hC.linked.loc p pn hp).nodup
  have hlen := Tree.child_length_le hC p
  rw [h] at hnd hlen
  simp at hlen
  unfold optionIndex
  rw [rd_ok hm, Out.bind_ok, hpar]
  dsimp only
  rw [rd_ok hp, Out.bind_ok, Trav.first_eq hC hp, h,
    indexLoop_run hC hp a [] (w.fresh + 1) 0 (by simpa using h) (fun hu => (List.nodup_append.1 hnd).2.2 o hu o (by simp) rfl) (by omega), Nat.zero_add]

theorem tagged_named {name : String} (h : tagged w name x = true) : namedB w name x = true := by
  unfold tagged at h
  unfold namedB
  cases hx : w.nodes x with
  | none => rw [hx] at h; simp at h
  | some n => rw [hx] at h; simp at h ⊢; exact h.2

/-- **C83**: the index of an option is its place among the options of its parent.  Missing: siblings that are no elements but have that name (`C83_instruction_violated`);
the place in the selection, for options in a group (`C83_group_violated`); options without parent (`C83_option_violated`). -/
theorem C83_option_index_partial (hC : Core w ch) {a b : List NodeId} (h : (ch p).filter (tagged w "option") = a ++ o :: b)
    (helem : ∀ y ∈ ch p, namedB w "option" y = true → tagged w "option" y = true) : optionIndex w o = .ok a.length := by
  have ho : o ∈ ch p := (List.mem_filter.1 (by rw [h]; simp : o ∈ (ch p).filter (tagged w "option"))).1
  obtain ⟨u, v, huv⟩ := List.append_of_mem ho
  rw [optionIndex_run hC huv]
  have hnd : (ch p).Nodup := by
    cases hpn : w.nodes p with
    | none => rw [hC.linked.dead p hpn]; simp
    | some pn => exact (hC.linked.loc p pn hpn).nodup
  have e : u.filter (namedB w "option") = u.filter (tagged w "option") := by
    refine List.filter_congr fun y hy => ?_
    cases ht : tagged w "option" y with
    | true => exact tagged_named ht
    | false =>
      cases hn : namedB w "option" y with
      | false => rfl
      | true => rw [helem y (by rw [huv]; simp [hy]) hn] at ht; cases ht
  rw [e, Table.split_at_row (o := o) (i := a.length) hnd (by rw [h]; simp) huv rfl]

/-- **C83** as the code has it: the siblings in front that have the name, of whatever type. -/
theorem C83_option_index_code (hC : Core w ch) {a b : List NodeId} (h : ch p = a ++ o :: b) : optionIndex w o = .ok (a.filter (namedB w "option")).length := optionIndex_run hC h

/-! ## Cells -/

theorem cellClimb_eq : ∀ (k : Nat) (x : NodeId) (q : Option NodeId) (y : NodeId), colClimb w row k x q = .ok (some y) → cellClimb w row k x q = .ok (some y) := by
  intro k
  induction k with
  | zero => intro x q y h; unfold colClimb at h; cases h
  | succ k ih =>
    intro x q y h
    unfold colClimb at h
    unfold cellClimb
    by_cases hx : x = row
    · rw [if_pos hx] at h; cases h
    · rw [if_neg hx] at h
      cases q with
      | none => cases h
      | some p =>
        dsimp only at h ⊢
        cases hp : w.nodes p with
        | none => unfold rd at h; rw [hp] at h; cases h
        | some pn =>
          rw [rd_ok hp, Out.bind_ok] at h ⊢
          by_cases hl : pn.last = some x
          · rw [if_pos hl] at h
            rw [if_pos ⟨hl, hx⟩]
            exact ih p pn.parent y h
          · rw [if_neg hl] at h
            rw [if_neg (fun h => hl h.1), if_neg hx]
            exact h

theorem cellNext_eq {y : NodeId} (h : colNext w row x n = .ok (some y)) : cellNext w row x n = .ok (some y) := by
  unfold colNext at h
  unfold cellNext
  by_cases h1 : n.first.isSome = true
  · rw [if_pos h1] at h ⊢; exact h
  · rw [if_neg h1] at h ⊢
    by_cases h2 : n.next.isSome = true
    · rw [if_pos h2] at h ⊢; exact h
    · rw [if_neg h2] at h ⊢
      exact cellClimb_eq _ _ _ _ h

theorem isCell_eq (hx : w.nodes x = some n) : isCell n = cellB w x := by
  unfold isCell cellB
  rw [← Table.type_name_tag Table.td_data hx, ← Table.type_name_tag th_data hx]
  rw [caseless_eq, caseless_eq, caseless_eq, caseless_eq]
  have e1 : decide (List.map asciiLower (contents (some tdName)) = List.map asciiLower (contents n.name)) = decide (List.map asciiLower (contents n.name) = List.map asciiLower (contents (some tdName))) :=
    decide_eq_decide.2 ⟨Eq.symm, Eq.symm⟩
  have e2 : decide (List.map asciiLower (contents (some thName)) = List.map asciiLower (contents n.name)) = decide (List.map asciiLower (contents n.name) = List.map asciiLower (contents (some thName))) :=
    decide_eq_decide.2 ⟨Eq.symm, Eq.symm⟩
  rw [e1, e2]
  cases (n.type == .element) <;> simp

theorem cellLoop_run (hC : Core w ch) (hd : DocOrder ch order) {rn : Node} (hr : w.nodes row = some rn) (hroot : ch row ≠ []) {b : List NodeId} (a : List NodeId) :
    ∀ r k f, ColAt ch order row r (a ++ cell :: b) → a.length < f → cell ∉ a → cellLoop w row cell f r k = .ok (k + (a.filter (cellB w)).length) := by
  induction a with
  | nil =>
    intro r k f h hf _
    rcases col_step hC hd hr (.inl hroot) h with ⟨_, h⟩ | ⟨x, rem', n, r', rfl, h1, hn, h2, h3⟩
    · cases h
    · simp only [List.nil_append, List.cons.injEq] at h1
      obtain ⟨h1, h1'⟩ := h1; subst h1 h1'
      cases f with
      | zero => simp at hf
      | succ f => unfold cellLoop; rw [if_pos rfl]; rfl
  | cons y a ih =>
    intro r k f h hf hnot
    rcases col_step hC hd hr (.inl hroot) h with ⟨_, h⟩ | ⟨x, rem', n, r', rfl, h1, hn, h2, h3⟩
    · cases h
    · simp only [List.cons_append, List.cons.injEq] at h1
      obtain ⟨h1, h1'⟩ := h1; subst h1 h1'
      cases f with
      | zero => simp at hf
      | succ f =>
        cases r' with
        | none => unfold ColAt at h3; simp at h3
        | some z =>
          have hy : ¬ y = cell := fun e => hnot (by rw [e]; exact List.mem_cons_self)
          unfold cellLoop
          rw [if_neg hy, rd_ok hn, Out.bind_ok, cellNext_eq h2, Out.bind_ok, isCell_eq hn,
            ih (some z) _ f h3 (by simpa using hf) (fun h => hnot (List.mem_cons_of_mem _ h))]
          cases ht : cellB w y with
          | true => rw [List.filter_cons_of_pos ht, List.length_cons, if_pos rfl]; congr 1; omega
          | false => rw [List.filter_cons_of_neg (by rw [ht]; simp), if_neg (by simp)]

/-- **C83** as the code has it: the index of a cell is the number of TD and TH elements before it, in document order, in the nearest ancestor called TR; 0 without one. -/
theorem C83_cell_index_code (hC : Core w ch) (hd : DocOrder ch order) (hx : w.nodes cell = some n) (hp : n.parent ≠ none) :
    (IsNearest w (fun a => namedB w "tr" a = true) cell none → cellIndex w cell = .ok 0) ∧
    ∀ row a b, IsNearest w (fun a => namedB w "tr" a = true) cell (some row) → order row = a ++ cell :: b → cellIndex w cell = .ok (a.filter (cellB w)).length := by
  obtain ⟨l, hc, hl, hm⟩ := above_chain hC hx
  have hnear := nearest_find (f := namedB w "tr") hc hm (fun _ => Iff.rfl)
  obtain ⟨p, hp⟩ := Option.ne_none_iff_exists'.1 hp
  have hrun := rowAbove_run hc (w.fresh + 1) (Nat.lt_succ_of_le hl)
  unfold cellIndex
  rw [rd_ok hx, Out.bind_ok, hp]
  dsimp only
  rw [← hp, hrun, Out.bind_ok]
  refine ⟨fun h => ?_, fun row a b h hab => ?_⟩
  · rw [IsNearest_unique hC hnear h]
  · rw [IsNearest_unique hC hnear h]
    dsimp only
    obtain ⟨rn, hr⟩ := Above.alive hC h.1
    have hle := Trav.order_length_le hC hd hr
    have hnd : (order row).Nodup := by
      rw [Trav.docOrder_eq hd (hC.ht hr)]
      exact Tree.preorder_nodup hC.linked hC.wf _ _
    have hne : cell ≠ row := by
      rintro rfl
      exact loop_irrefl hC h.1
    have hroot : ch row ≠ [] := by
      intro e
      rw [hd row, e] at hab
      cases a with
      | nil => simp at hab; exact hne hab.1.symm
      | cons z a => simp at hab
    rw [hab] at hnd hle
    simp at hle
    have hstart := col_start ch order row
    rw [hab] at hstart
    rw [cellLoop_run hC hd hr hroot a (some row) 0 (w.fresh + 1) hstart (by omega) (fun hu => (List.nodup_append.1 hnd).2.2 cell hu cell (by simp) rfl), Nat.zero_add]

theorem nearest_parent {P : NodeId → Prop} (hx : w.nodes x = some n) (hp : n.parent = some p) (h : P p) : IsNearest w P x (some p) := by
  refine ⟨.single ⟨n, hx, hp⟩, h, fun a ha _ => ?_⟩
  obtain ⟨b, ⟨k, hk, e⟩, h2⟩ := Relation.TransGen.head'_iff.1 ha
  rw [hx] at hk; cases hk; rw [hp] at e; cases e; exact h2

/-- **C83**: the index of a cell is its place among the TD and TH children of its row.  Missing: rows with cells deeper down (`C83_nested_violated`), cells without parent
(`C83_cell_violated`). -/
theorem C83_cell_index_partial (hW : WF w ch) (hrow : tagged w "tr" row = true) (hdir : ∀ y, Below ch row y → cellB w y = true → y ∈ ch row) {a b : List NodeId}
    (h : (ch row).filter (cellB w) = a ++ cell :: b) : cellIndex w cell = .ok a.length := by
  have hC := hW.toCore
  have hd := Tree.docOrder_preorder hC
  have hmem := List.mem_filter.1 (by rw [h]; simp : cell ∈ (ch row).filter (cellB w))
  obtain ⟨n, hx, _, hp⟩ := hC.linked.alive_child hmem.1
  have horder := Table.filter_order hW hd (cellB w) hdir
  rw [h] at horder
  have hin : cell ∈ Tree.preorder ch (w.fresh + 1) row := (List.mem_filter.1 (by rw [horder]; simp : cell ∈ (Tree.preorder ch (w.fresh + 1) row).filter (cellB w))).1
  obtain ⟨u, v, huv⟩ := List.append_of_mem hin
  have hnd := Tree.preorder_nodup hC.linked hC.wf (w.fresh + 1) row
  rw [(C83_cell_index_code hC hd hx (by rw [hp]; simp)).2 row u v (nearest_parent hx hp (tagged_named hrow)) huv,
    Table.split_at_row (o := cell) (i := a.length) hnd (by rw [horder]; simp) huv rfl]

/-! ## Forms -/

/-- The function returned `r` with a reference for the caller, and changed nothing else. -/
def Gives (w : World) (ch : Children) (r : Option NodeId) (m : M (Option NodeId)) : Prop :=
  ∃ w', m w = .ok w' r ∧ Sound w' ch ∧ Refs.Alike w w' ∧ ∀ j, count w' j = count w j + if r = some j then 1 else 0

theorem gives_ref (S : Sound w ch) (hx : w.nodes x = some n) (hr : Refs.Roomy w) : Gives w ch (some x) (do Tree.ref x; pure (some x)) := by
  have h1 := hr x
  rw [Tree.count_eq hx] at h1
  obtain ⟨w', e, S', A, c⟩ := Refs.ref_step S hx (by omega)
  refine ⟨w', by rw [bind_ok e]; rfl, S', A, fun j => ?_⟩
  rw [c]
  by_cases h : j = x
  · subst h; rw [Refs.one_self, if_pos rfl]
  · rw [Refs.one_ne h, if_neg (fun h' => h (by simpa using h'.symm))]

theorem gives_none (S : Sound w ch) : Gives w ch none (pure none) := ⟨w, rfl, S, .refl w, fun j => by simp⟩

/-- **C83**: the form of a LABEL, FIELDSET or OBJECT is the nearest FORM element around it, and the caller gets a reference to it. -/
theorem C83_form (S : Sound w ch) (hx : w.nodes x = some n) (hr : Refs.Roomy w) : ∃ r, Nearest w "form" x r ∧ Gives w ch r (formAbove x) := by
  obtain ⟨r, h1, h2⟩ := ancestor_run form_data S.wf.toCore hx
  refine ⟨r, h2, ?_⟩
  have e : formAbove x w = (match r with | none => pure none | some f => do Tree.ref f; pure (some f) : M (Option NodeId)) w := by
    unfold formAbove
    rw [bind_ok h1]
    cases r <;> rfl
  unfold Gives
  rw [e]
  cases r with
  | none => exact gives_none S
  | some f =>
    obtain ⟨m, hm⟩ := Above.alive S.wf.toCore h2.1
    exact gives_ref S hm hr

/-- **C83**: the form of a LEGEND in a FIELDSET is that of the nearest FIELDSET.  Missing: a LEGEND in no FIELDSET (`C83_legend_violated`). -/
theorem C83_legend_partial (S : Sound w ch) (hx : w.nodes x = some n) (hr : Refs.Roomy w) (hs : Nearest w "fieldset" x (some s)) :
    ∃ r, Nearest w "form" s r ∧ Gives w ch r (legendForm x) := by
  obtain ⟨q, h1, h2⟩ := ancestor_run fieldset_data S.wf.toCore hx
  have e : q = some s := IsNearest_unique S.wf.toCore h2 hs
  subst e
  obtain ⟨m, hm⟩ := Above.alive S.wf.toCore hs.1
  obtain ⟨r, h3, h4⟩ := C83_form S hm hr
  refine ⟨r, h3, ?_⟩
  unfold Gives legendForm
  rw [bind_ok h1]
  exact h4

/-- **C83** is violated: a LEGEND in no FIELDSET has no form, whatever is around it. -/
theorem C83_legend_violated (S : Sound w ch) (hx : w.nodes x = some n) (hs : Nearest w "fieldset" x none) : legendForm x w = .ok w none := by
  obtain ⟨q, h1, h2⟩ := ancestor_run fieldset_data S.wf.toCore hx
  have e : q = none := IsNearest_unique S.wf.toCore h2 hs
  subst e
  unfold legendForm
  rw [bind_ok h1]; rfl

/-- **C83**: the form of an OPTION is the form of the nearest SELECT around it.  Missing: an element called SELECT that is not a selection, or whose form is no longer in memory
(C71). -/
theorem C83_option_form_partial (S : Sound w ch) (hx : w.nodes x = some n) (hr : Refs.Roomy w) : ∃ q, Nearest w "select" x q ∧
    (q = none → Gives w ch none (optionForm fs x)) ∧
    ∀ s r, q = some s → fs s = some r → (∀ f, r = some f → ∃ m, w.nodes f = some m) → Gives w ch r (optionForm fs x) := by
  obtain ⟨q, h1, h2⟩ := ancestor_run select_data S.wf.toCore hx
  refine ⟨q, h2, ?_, ?_⟩
  · rintro rfl
    unfold Gives optionForm
    rw [bind_ok h1]
    exact gives_none S
  · rintro s r rfl hf hm
    unfold Gives optionForm
    rw [bind_ok h1]
    dsimp only
    unfold Forms.getForm
    rw [hf]
    cases r with
    | none => exact gives_none S
    | some f =>
      obtain ⟨m, hm⟩ := hm f rfl
      exact gives_ref S hm hr

/-- **C83** is violated: `dom_html_object_element_get_content_document` gives the document in which the OBJECT is, and no reference to it. -/
theorem C83_content_violated (S : Sound w ch) (hx : w.nodes x = some n) : contentDocument x w = .ok w n.owner := by
  unfold contentDocument
  rw [get_bind hx]; rfl

/-! ## Concrete cases -/

open Dom.Tree (Client Careful Act at_ at_elim exists_careful kidsOf)
open Dom.Html.Refs (elem endsWell endsWell_elim)

/-- A form (1) with a fieldset (2) that has a legend (3), a label (4) and a selection (5) with two options (6, 7); a row (8) with a heading (9) and a cell (10). -/
def runActs83 : List Act :=
  [.call .createDocument, elem "FORM", elem "fieldset", elem "LEGEND", elem "LABEL", elem "SELECT", elem "OPTION", elem "option", elem "TR", elem "TH", elem "td",
    .call (.appendChild 0 1), .call (.appendChild 1 2), .call (.appendChild 2 3), .call (.appendChild 2 4), .call (.appendChild 2 5), .call (.appendChild 5 6), .call (.appendChild 5 7),
    .call (.appendChild 2 8), .call (.appendChild 8 9), .call (.appendChild 8 10)]

/-- The answer of a search in a memory. -/
def gets (m : M (Option NodeId)) (w : World) (r : Option NodeId) : Bool :=
  match m w with
  | .ok _ r' => decide (r' = r)
  | _ => false

/-- The hypotheses are met by a memory that a client can make. -/
theorem sample83 : ∃ led w, Client Careful led w ∧ (kidsOf w 5).filter (tagged w "option") = [6, 7] ∧ optionIndex w 7 = .ok 1 ∧ tagged w "tr" 8 = true ∧
    (kidsOf w 8).filter (cellB w) = [9, 10] ∧ cellIndex w 10 = .ok 1 ∧ gets (formAbove 4) w (some 1) = true ∧ gets (legendForm 3) w (some 1) = true ∧
    gets (optionForm (fun x => if x = 5 then some (some 1) else none) 6) w (some 1) = true := by
  obtain ⟨led, w, hc, h⟩ := exists_careful runActs83 (fun _ w => decide ((kidsOf w 5).filter (tagged w "option") = [6, 7]) && decide (optionIndex w 7 = .ok 1) && tagged w "tr" 8 &&
    decide ((kidsOf w 8).filter (cellB w) = [9, 10]) && decide (cellIndex w 10 = .ok 1) && gets (formAbove 4) w (some 1) && gets (legendForm 3) w (some 1) &&
    gets (optionForm (fun x => if x = 5 then some (some 1) else none) 6) w (some 1)) (by decide +kernel)
  simp only [Bool.and_eq_true, decide_eq_true_eq] at h
  obtain ⟨⟨⟨⟨⟨⟨⟨h1, h2⟩, h3⟩, h4⟩, h5⟩, h6⟩, h7⟩, h8⟩ := h
  exact ⟨led, w, hc, h1, h2, h3, h4, h5, h6, h7, h8⟩

/-- **C83** is violated, and memory safety with it: the index of an option without parent dereferences NULL. -/
theorem C83_option_violated (hx : w.nodes o = some n) (hp : n.parent = none) : optionIndex w o = .fault .nullDeref := by
  unfold optionIndex
  rw [rd_ok hx, Out.bind_ok, hp]

/-- **C83** is violated, and memory safety with it: the index of a cell without parent dereferences NULL. -/
theorem C83_cell_violated (hx : w.nodes cell = some n) (hp : n.parent = none) : cellIndex w cell = .fault .nullDeref := by
  unfold cellIndex
  rw [rd_ok hx, Out.bind_ok, hp]

/-- **C83** is violated: an option in a group has the index in the group: the second option of the selection has the index 0, like the first. -/
theorem C83_group_violated : ∃ led w, Client Careful led w ∧ Refs.options w (kidsOf w) 1 = [2, 4] ∧ optionIndex w 2 = .ok 0 ∧ optionIndex w 4 = .ok 0 := by
  obtain ⟨led, w, hc, h⟩ := exists_careful [.call .createDocument, elem "SELECT", elem "OPTION", elem "OPTGROUP", elem "OPTION", .call (.appendChild 1 2), .call (.appendChild 1 3),
      .call (.appendChild 3 4)] (fun _ w => decide (Refs.options w (kidsOf w) 1 = [2, 4]) && decide (optionIndex w 2 = .ok 0) && decide (optionIndex w 4 = .ok 0)) (by decide +kernel)
  simp only [Bool.and_eq_true, decide_eq_true_eq] at h
  exact ⟨led, w, hc, h.1.1, h.1.2, h.2⟩

/-- **C83** is violated: a processing instruction called option is counted; the only option has the index 1. -/
theorem C83_instruction_violated : ∃ led w, Client Careful led w ∧ Refs.options w (kidsOf w) 1 = [3] ∧ optionIndex w 3 = .ok 1 := by
  obtain ⟨led, w, hc, h⟩ := exists_careful [.call .createDocument, elem "SELECT", .call (.createNode 0 .pi (some (Names.lit "option")) none), elem "OPTION", .call (.appendChild 1 2),
      .call (.appendChild 1 3)] (fun _ w => decide (Refs.options w (kidsOf w) 1 = [3]) && decide (optionIndex w 3 = .ok 1)) (by decide +kernel)
  simp only [Bool.and_eq_true, decide_eq_true_eq] at h
  exact ⟨led, w, hc, h.1, h.2⟩

/-- **C83** is violated: the cells of a table in a cell are counted; the second cell of the row has the index 2. -/
theorem C83_nested_violated : ∃ led w, Client Careful led w ∧ (kidsOf w 1).filter (cellB w) = [2, 6] ∧ cellIndex w 6 = .ok 2 := by
  obtain ⟨led, w, hc, h⟩ := exists_careful [.call .createDocument, elem "TR", elem "TD", elem "TABLE", elem "TR", elem "TD", elem "TD", .call (.appendChild 1 2), .call (.appendChild 2 3),
      .call (.appendChild 3 4), .call (.appendChild 4 5), .call (.appendChild 1 6)] (fun _ w => decide ((kidsOf w 1).filter (cellB w) = [2, 6]) && decide (cellIndex w 6 = .ok 2)) (by decide +kernel)
  simp only [Bool.and_eq_true, decide_eq_true_eq] at h
  exact ⟨led, w, hc, h.1, h.2⟩

/-- **C83** is violated: a legend in a form has no form. -/
theorem C83_legend_case_violated : ∃ led w, Client Careful led w ∧ kidsOf w 1 = [2] ∧ tagged w "form" 1 = true ∧ tagged w "legend" 2 = true ∧ gets (legendForm 2) w none = true := by
  obtain ⟨led, w, hc, h⟩ := exists_careful [.call .createDocument, elem "FORM", elem "LEGEND", .call (.appendChild 1 2)]
    (fun _ w => decide (kidsOf w 1 = [2]) && tagged w "form" 1 && tagged w "legend" 2 && gets (legendForm 2) w none) (by decide +kernel)
  simp only [Bool.and_eq_true, decide_eq_true_eq] at h
  exact ⟨led, w, hc, h.1.1.1, h.1.1.2, h.1.2, h.2⟩

/-- **C83** is violated, and memory safety with it: a client that gives up the reference to the document that it was given, and its object, has lost the document to which it still has
its first reference. -/
theorem C83_content_case_violated : ∃ led w, Client Careful led w ∧ led 0 = 1 ∧ led 1 = 1 ∧
    ∃ w', (do let r ← contentDocument 1; let d ← Tree.deref r; Tree.unref d; Tree.unref 1 : M Unit) w = .ok w' () ∧ w'.nodes 0 = none := by
  obtain ⟨led, w, hc, h⟩ := exists_careful [.call .createDocument, elem "OBJECT"] (fun led w => decide (led 0 = 1) && decide (led 1 = 1) &&
    endsWell (do let r ← contentDocument 1; let d ← Tree.deref r; Tree.unref d; Tree.unref 1) w (fun w' => (w'.nodes 0).isNone)) (by decide +kernel)
  simp only [Bool.and_eq_true, decide_eq_true_eq] at h
  obtain ⟨w', e, h3⟩ := endsWell_elim h.2
  exact ⟨led, w, hc, h.1.1, h.1.2, w', e, by simpa using h3⟩

end Dom.Html.Places
