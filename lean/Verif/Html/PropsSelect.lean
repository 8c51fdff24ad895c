import Verif.Html.Select
import Verif.Html.PropsReflect
import Verif.Trav.Props
/-!
# C54: selectedIndex and value of select elements; C56: the text of an option
-/
namespace Dom.Html
set_option linter.unusedSimpArgs false

open Dom.Attr
open Dom.Str (DStr Bytes contents)
open Dom.Tree (World NodeId Node NodeType Children WF DocOrder rdNode contentLoop getTextContent bytesOf holdsText dataBytes)
open Dom.Trav (member)

/-! ## Specification -/

/-- The options of the select element: the elements called OPTION of its subtree, in document order. -/
def options (w : World) (order : NodeId → List NodeId) (sel : NodeId) : List NodeId :=
  (order sel).filter fun x => (w.nodes x).any fun n => n.type = .element && contents n.name = "OPTION".toUTF8.toList

/-- The option has the attribute `selected`. -/
def marked (s : Mem) (ls : Addr → List Addr) (o : NodeId) : Bool := (view s (ls o)).any fun en => en.name.data = "selected".toUTF8.toList

/-- The index of the first selected option, or -1. -/
def firstMarked (s : Mem) (ls : Addr → List Addr) (l : List NodeId) : Int :=
  match l.findIdx? (marked s ls) with
  | some i => i
  | none => -1

/-- A well-formed tree with a select element that has children or no next sibling (`C54_empty_violated`), well-formed attribute lists, and an
element for every option; there are fewer than 2^31 options. -/
structure Page (w : World) (ch : Children) (order : NodeId → List NodeId) (s : Mem) (ls : Addr → List Addr) (sel : NodeId) : Prop where
  tree : WF w ch
  ord : DocOrder ch order
  root : ∃ rn, w.nodes sel = some rn ∧ (ch sel ≠ [] ∨ rn.next = none)
  attrs : Inv s ls
  elems : ∀ o ∈ options w order sel, ∃ el, s.elems o = some el
  few : (options w order sel).length < 2147483648

section
variable {w : World} {ch : Children} {order : NodeId → List NodeId} {s s' : Mem} {ls : Addr → List Addr} {sel o : NodeId} {el : Elem}

theorem selected_data : selectedName.data = "selected".toUTF8.toList := by decide +kernel
theorem option_data : optionName.data = "OPTION".toUTF8.toList := by decide +kernel

theorem member_eq : member w (isOption w) = fun x => (w.nodes x).any fun n => n.type = .element && contents n.name = "OPTION".toUTF8.toList := by
  funext x
  unfold member isOption
  cases w.nodes x with
  | none => rfl
  | some n =>
    simp only [Option.any_some]
    congr 1
    rw [Bool.eq_iff_iff, Str.C06_isEqual_iff, ← option_data]
    exact decide_eq_true_iff.symm

theorem marked_eq (s : Mem) (ls : Addr → List Addr) (o : NodeId) : (lookup (view s (ls o)) none selectedName).isSome = marked s ls o := by
  unfold marked lookup
  rw [Bool.eq_iff_iff, List.find?_isSome, List.any_eq_true]
  simp only [decide_eq_true_eq]
  constructor
  · rintro ⟨en, h1, _, h2⟩; exact ⟨en, h1, by rw [← selected_data]; exact h2.symm⟩
  · rintro ⟨en, h1, h2⟩; exact ⟨en, h1, by simp, by rw [h2, selected_data]⟩

theorem Page.length (hP : Page w ch order s ls sel) : optLength w sel = .ok (options w order sel).length := by
  obtain ⟨rn, h1, h2⟩ := hP.root
  unfold optLength
  rw [(Trav.C35_collection_partial hP.tree hP.ord h1 h2 (isOption w) (fun _ => false)).1, member_eq]
  exact congrArg Out.ok (Nat.mod_eq_of_lt (Nat.lt_trans hP.few (by omega)))

theorem Page.item (hP : Page w ch order s ls sel) {i : Nat} (hi : i < 4294967295) : optItem w sel i = .ok (options w order sel)[i]? := by
  obtain ⟨rn, h1, h2⟩ := hP.root
  unfold optItem
  rw [(Trav.C35_collection_partial hP.tree hP.ord h1 h2 (isOption w) (fun _ => false)).2.1 i (by omega), member_eq]
  rfl

theorem Page.at (hP : Page w ch order s ls sel) {i : Nat} (hi : (options w order sel)[i]? = some o) (s' : Mem) : optionAt w sel i s' = .ok s' o := by
  have hlt : i < (options w order sel).length := (List.getElem?_eq_some_iff.1 hi).1
  have := hP.few
  unfold optionAt
  rw [bind_ok (liftOut_ok (hP.item (by omega))), hi]
  rfl

theorem getSelected_run (hP : Page w ch order s ls sel) (ho : o ∈ options w order sel) : getSelected o s = .ok s (marked s ls o) := by
  obtain ⟨el, he⟩ := hP.elems o ho
  unfold getSelected
  rw [getBool_run hP.attrs he, marked_eq]

theorem indexLoop_run (hP : Page w ch order s ls sel) : ∀ (b a : List NodeId), options w order sel = a ++ b →
    indexLoop w sel b.length a.length s = .ok s (match b.findIdx? (marked s ls) with | some i => ((a.length + i : Nat) : Int) | none => -1) := by
  intro b
  induction b with
  | nil => intro a _; rfl
  | cons o b ih =>
    intro a hab
    have hat : (options w order sel)[a.length]? = some o := by rw [hab]; simp
    have hmem : o ∈ options w order sel := by rw [hab]; simp
    show (optionAt w sel a.length >>= _) s = _
    rw [bind_ok (hP.at hat s), bind_ok (getSelected_run hP hmem)]
    rw [List.findIdx?_cons]
    cases hm : marked s ls o with
    | true =>
      simp only [if_true]
      have := hP.few
      have hlt : a.length < (options w order sel).length := by rw [hab]; simp
      have : asIndex a.length = (a.length : Int) := by
        unfold asIndex toInt32
        simp only
        rw [Int.emod_eq_of_lt (by omega) (by omega), if_pos (by omega)]
      rw [this]
      rfl
    | false =>
      simp only [Bool.false_eq_true, if_false]
      have h := ih (a ++ [o]) (by simp [hab])
      rw [List.length_append, List.length_singleton] at h
      rw [h]
      cases b.findIdx? (marked s ls) with
      | none => rfl
      | some i =>
        simp only [Option.map_some]
        congr 2
        omega

/-- **C54**, reading: selectedIndex is the index of the first selected option, or -1.  Partial: see `Page`. -/
theorem C54_index_partial (hP : Page w ch order s ls sel) : getSelectedIndex w sel s = .ok s (firstMarked s ls (options w order sel)) := by
  unfold getSelectedIndex
  rw [bind_ok (liftOut_ok hP.length)]
  have := indexLoop_run hP (options w order sel) [] rfl
  rw [List.length_nil] at this
  rw [this]
  unfold firstMarked
  cases (options w order sel).findIdx? (marked s ls) <;> simp

theorem valueLoop_run (hP : Page w ch order s ls sel) : ∀ (b a : List NodeId), options w order sel = a ++ b →
    valueLoop w sel b.length a.length s = (match b.find? (marked s ls) with | some o => getOptionValue w o s | none => .ok s none) := by
  intro b
  induction b with
  | nil => intro a _; rfl
  | cons o b ih =>
    intro a hab
    have hat : (options w order sel)[a.length]? = some o := by rw [hab]; simp
    have hmem : o ∈ options w order sel := by rw [hab]; simp
    show (optionAt w sel a.length >>= _) s = _
    rw [bind_ok (hP.at hat s), bind_ok (getSelected_run hP hmem)]
    cases hm : marked s ls o with
    | true => rw [List.find?_cons_of_pos hm, if_pos rfl]
    | false =>
      rw [List.find?_cons_of_neg (by rw [hm]; simp)]
      have h := ih (a ++ [o]) (by simp [hab])
      rw [List.length_append, List.length_singleton] at h
      exact h

/-- **C54**, value: the value of the first selected option, NULL when there is none.  Partial: see `Page`. -/
theorem C54_value_partial (hP : Page w ch order s ls sel) : getSelectValue w sel s =
    (match (options w order sel).find? (marked s ls) with | some o => getOptionValue w o s | none => .ok s none) := by
  unfold getSelectValue
  rw [bind_ok (liftOut_ok hP.length)]
  exact valueLoop_run hP (options w order sel) [] rfl

/-- **C54**, the value of an option: that of its attribute `value`, otherwise its text. -/
theorem C54_option_value (hI : Inv s ls) (he : s.elems o = some el) :
    (match reading s (view s (ls o)) none valueName with
     | some (some b) => ∃ s' v, getOptionValue w o s = .ok s' (some v) ∧ v.data = b
     | some none => ∃ s', getOptionValue w o s = .exc s' .notSupported
     | none => getOptionValue w o s = liftOut (getOptionText w o) s) := by
  obtain ⟨low, h1, h2⟩ := fold_lower (name := valueName) he (by decide +kernel)
  obtain ⟨g1, s', _, _, g2⟩ := C36_read hI he none low
  have hr : reading s (view s (ls o)) none low = reading s (view s (ls o)) none valueName := by
    unfold reading
    rw [lookup_data _ h2]
  rw [hr] at g1 g2
  have hh : hasAttribute o valueName s = .ok s (reading s (view s (ls o)) none valueName).isSome := by
    unfold hasAttribute
    rw [bind_ok h1, g1]
  have hv : getOptionValue w o s = (if (reading s (view s (ls o)) none valueName).isSome then getAttribute o valueName else liftOut (getOptionText w o)) s := by
    unfold getOptionValue
    rw [bind_ok hh]
  have hgt : getAttribute o valueName s = getAttr o none low s := by
    unfold getAttribute
    rw [bind_ok h1]
  rw [hv]
  cases hc : reading s (view s (ls o)) none valueName with
  | none => rfl
  | some r =>
    rw [hc] at g2
    simp only [Option.isSome_some, if_true]
    rw [hgt]
    cases r with
    | none => exact ⟨s', g2⟩
    | some b => obtain ⟨v, g3, g4⟩ := g2; exact ⟨s', v, g3, g4⟩

theorem setAttr_elems {e : Addr} {name : DStr} {v : Option DStr} (hI : Inv s ls) (he : s.elems e = some el) (hro : el.ro = false)
    (hname : Names.validateAttributeName (some name) = true)
    (hw : ∀ en n, lookup (view s (ls e)) none name = some en → s.attrs en.attr = some n → Writable n)
    (h : setAttr e none name v s = .ok s' ()) : ∀ x, s.elems x ≠ none → s'.elems x ≠ none := by
  cases hl : lookup (view s (ls e)) none name with
  | some en =>
    obtain ⟨hmem, hfit⟩ := lookup_mem hl
    obtain ⟨c, x, n, h1, h2, h3, h4, h5⟩ := view_mem hI hmem
    obtain ⟨hr, ht⟩ := hw en n hl h4
    obtain ⟨old, _, hrun⟩ := setAttr_existing hI he hro v hname hl h4 hr ht
    rw [hrun] at h
    cases h
    exact fun x hx => hx
  | none =>
    obtain ⟨s1, c, hrun, _, hA, _⟩ := setAttr_new hI he hro v hname hl
    rw [hrun] at h
    cases h
    intro x hx
    rw [hA.elem]
    by_cases hxe : x = e
    · simp [hxe]
    · simp [hxe]; exact hx

theorem setValueLoop_run (hP : Page w ch order s ls sel) (v : Option DStr) : ∀ (b a : List NodeId), options w order sel = a ++ b →
    setValueLoop w sel v b.length a.length s = (match b.find? (marked s ls) with | some o => setAttribute o valueName v s | none => .ok s ()) := by
  intro b
  induction b with
  | nil => intro a _; rfl
  | cons o b ih =>
    intro a hab
    have hat : (options w order sel)[a.length]? = some o := by rw [hab]; simp
    have hmem : o ∈ options w order sel := by rw [hab]; simp
    show (optionAt w sel a.length >>= _) s = _
    rw [bind_ok (hP.at hat s), bind_ok (getSelected_run hP hmem)]
    cases hm : marked s ls o with
    | true => rw [List.find?_cons_of_pos hm, if_pos rfl]
    | false =>
      rw [List.find?_cons_of_neg (by rw [hm]; simp)]
      have h := ih (a ++ [o]) (by simp [hab])
      rw [List.length_append, List.length_singleton] at h
      exact h

/-- **C54**, setting the value (src/html/html_select_element.c:363-414): without a selected option nothing happens; otherwise the first selected option gets the
value, every option stays selected or not as it was, and the value is the one read back.  Partial: the option that has the value should become the selected one
(`C54_set_value_violated`); the option and its attribute must not be read-only; see `Page`. -/
theorem C54_set_value_partial (hP : Page w ch order s ls sel) (v : Option DStr) :
    (match (options w order sel).find? (marked s ls) with
     | none => setSelectValue w sel v s = .ok s ()
     | some o => ∀ el, s.elems o = some el → el.ro = false →
        (∀ en n, lookup (view s (ls o)) none valueName = some en → s.attrs en.attr = some n → Writable n) →
        ∃ s' ls', setSelectValue w sel v s = .ok s' () ∧ Page w ch order s' ls' sel ∧ (∀ x, marked s' ls' x = marked s ls x) ∧
          ∃ s'' r, getSelectValue w sel s' = .ok s'' (some r) ∧ r.data = contents v) := by
  have hrun : setSelectValue w sel v s =
      (match (options w order sel).find? (marked s ls) with | some o => setAttribute o valueName v s | none => .ok s ()) := by
    unfold setSelectValue
    rw [bind_ok (liftOut_ok hP.length)]
    exact setValueLoop_run hP v (options w order sel) [] rfl
  cases hf : (options w order sel).find? (marked s ls) with
  | none => rw [hf] at hrun; exact hrun
  | some o =>
    rw [hf] at hrun
    intro el he hro hw
    obtain ⟨low, h1, h2⟩ := fold_lower (name := valueName) he (by decide +kernel)
    have hlow : ∀ l : List Entry, lookup l none low = lookup l none valueName := fun l => lookup_data l h2
    have hname : Names.validateAttributeName (some low) = true := by
      have h3 : Names.validateAttributeName (some low) = Names.validateAttributeName (some valueName) := by
        unfold Names.validateAttributeName Names.lengthZero Str.length
        simp only [h2]
      rw [h3]; decide +kernel
    have hset : setAttribute o valueName v s = setAttr o none low v s := by
      unfold setAttribute
      rw [bind_ok h1]
    obtain ⟨s', ls', en', g1, g2, g3, g4, g5, g6⟩ := C36_set hP.attrs he hro none low v hname (by
      intro en n hl; rw [hlow] at hl; exact hw en n hl)
    have helems : ∀ x, s.elems x ≠ none → s'.elems x ≠ none := setAttr_elems hP.attrs he hro hname (by
      intro en n hl; rw [hlow] at hl; exact hw en n hl) g1
    have hen : en'.name.data = valueName.data := by
      cases hl : lookup (view s (ls o)) none low with
      | some en =>
        rw [hl] at g6
        rw [g6.1, ← h2]
        exact ((lookup_mem hl).2).2.symm
      | none =>
        rw [hl] at g6
        rw [g6.1, h2]
    have hmark : ∀ x, marked s' ls' x = marked s ls x := by
      intro x
      have := g4 x none selectedName (by
        rintro ⟨_, _, h⟩
        rw [hen] at h
        exact absurd h (by decide +kernel))
      rw [← marked_eq, ← marked_eq]
      have h3 := congrArg Option.isSome this
      unfold reading at h3
      rw [Option.isSome_map, Option.isSome_map] at h3
      exact h3
    have hP' : Page w ch order s' ls' sel := ⟨hP.tree, hP.ord, hP.root, g2, fun x hx => by
      obtain ⟨ex, hex⟩ := hP.elems x hx
      exact Option.ne_none_iff_exists'.1 (helems x (by rw [hex]; simp)), hP.few⟩
    refine ⟨s', ls', hrun.trans (hset.trans g1), hP', hmark, ?_⟩
    rw [C54_value_partial hP']
    have hm : marked s' ls' = marked s ls := funext hmark
    rw [hm, hf]
    obtain ⟨el', he'⟩ := Option.ne_none_iff_exists'.1 (helems o (by rw [he]; simp))
    have := C54_option_value (w := w) g2 he'
    have hr : reading s' (view s' (ls' o)) none valueName = some (some (contents v)) := by
      rw [← g3]; unfold reading; rw [hlow]
    rw [hr] at this
    obtain ⟨s'', r, k1, k2⟩ := this
    exact ⟨s'', r, k1, k2⟩

theorem any_append_marked {l : List Entry} {k : Entry} (hk : k.name = selectedName) :
    (l ++ [k]).any (fun en => decide (en.name.data = "selected".toUTF8.toList)) = true := by
  rw [List.any_append]
  have : decide (k.name.data = "selected".toUTF8.toList) = true := by rw [hk, ← selected_data]; simp
  simp only [List.any_cons, List.any_nil, Bool.or_false, this, Bool.or_true]

theorem Page.nodup (hP : Page w ch order s ls sel) : (options w order sel).Nodup := by
  obtain ⟨rn, h1, _⟩ := hP.root
  unfold options
  rw [Trav.docOrder_eq hP.ord (hP.tree.toCore.ht h1)]
  exact (Tree.preorder_nodup hP.tree.linked hP.tree.wf _ _).filter _

/-- **C54**, setting: after setting selectedIndex to an index in range option `i` is selected and the others are as before; it is the one reported
provided no option before it was selected.  Partial: the other options stay selected (`C54_keeps_violated`); the option must not be
read-only; see `Page`. -/
theorem C54_set_partial (hP : Page w ch order s ls sel) {i : Nat} (hi : (options w order sel)[i]? = some o) (he : s.elems o = some el) (hro : el.ro = false) :
    ∃ s' ls', setSelectedIndex w sel i s = .ok s' () ∧ Page w ch order s' ls' sel ∧ marked s' ls' o = true ∧
      (∀ x, x ≠ o → marked s' ls' x = marked s ls x) ∧
      ((∀ x ∈ (options w order sel).take i, marked s ls x = false) → getSelectedIndex w sel s' = .ok s' i) := by
  have hlt : i < (options w order sel).length := (List.getElem?_eq_some_iff.1 hi).1
  have hfew := hP.few
  have hu : toUInt32 (i : Int) = i := by
    unfold toUInt32
    rw [Int.emod_eq_of_lt (by omega) (by omega)]
    omega
  have key : ∃ s' ls', setBoolProp o selectedName true s = .ok s' () ∧ Inv s' ls' ∧ (∀ x, s.elems x ≠ none → s'.elems x ≠ none) ∧
      marked s' ls' o = true ∧ (∀ x, x ≠ o → marked s' ls' x = marked s ls x) := by
    cases hm : marked s ls o with
    | true =>
      exact ⟨s, ls, bool_same hP.attrs he (by rw [marked_eq, hm]), hP.attrs, fun _ h => h, hm, fun _ _ => rfl⟩
    | false =>
      have hl : lookup (view s (ls o)) none selectedName = none := by
        have := marked_eq s ls o
        rw [hm] at this
        simpa using this
      obtain ⟨s', c, h1, h2, h3, h4⟩ := boolOn_run hP.attrs he hro hl
      refine ⟨s', _, h1, h2, ?_, ?_, ?_⟩
      · intro x hx
        rw [h3]
        by_cases hxo : x = o
        · simp [hxo]
        · simp only [hxo, if_false]; exact hx
      · unfold marked
        rw [h4, if_pos rfl]
        exact any_append_marked rfl
      · intro x hx
        unfold marked
        rw [h4, if_neg hx]
  obtain ⟨s', ls', k1, k2, k3, k4, k5⟩ := key
  have hP' : Page w ch order s' ls' sel := ⟨hP.tree, hP.ord, hP.root, k2, fun x hx => by
    obtain ⟨ex, hex⟩ := hP.elems x hx
    exact Option.ne_none_iff_exists'.1 (k3 x (by rw [hex]; simp)), hP.few⟩
  refine ⟨s', ls', ?_, hP', k4, k5, fun hb => ?_⟩
  · unfold setSelectedIndex
    rw [hu, bind_ok (hP.at hi s)]
    exact k1
  · rw [C54_index_partial hP']
    have hf : (options w order sel).findIdx? (marked s' ls') = some i := by
      rw [List.findIdx?_eq_some_iff_getElem]
      refine ⟨hlt, ?_, ?_⟩
      · have : (options w order sel)[i] = o := (List.getElem?_eq_some_iff.1 hi).2
        rw [this]; exact k4
      · intro j hj
        have hjl : j < (options w order sel).length := by omega
        have q1 := hb (options w order sel)[j] (List.mem_take_iff_getElem.2 ⟨j, by omega, rfl⟩)
        have q2 : (options w order sel)[j] ≠ o := by
          rw [← (List.getElem?_eq_some_iff.1 hi).2]
          intro h
          have := (List.Nodup.getElem_inj_iff hP.nodup).1 h
          omega
        rw [k5 _ q2, q1]; simp
    unfold firstMarked
    rw [hf]

/-! ## The text of an option -/

/-- **C56**: the text of an option is the data of its Text and CDATASection descendants, joined, stripped and collapsed; NULL when there are none.
Partial: for options without element children (`C56_nested_violated`). -/
theorem C56_text_partial (hW : WF w ch) (hd : DocOrder ch order) {n : Node} (ho : w.nodes o = some n) (ht : n.type = .element)
    (hflat : ∀ c ∈ ch o, ∀ cn, w.nodes c = some cn → cn.type ≠ .element) :
    ∃ r, getOptionText w o = .ok r ∧
      bytesOf r = (Str.whitespaceOp { data := ((order o).filter (holdsText w)).flatMap (dataBytes w) } stripCollapse).data ∧
      ((order o).filter (holdsText w) = [] → r = none) := by
  have hown : n.owner.isNone = false := by
    rcases hW.owner o n ho with ⟨d, dn, h, _⟩ | ⟨h, _⟩
    · simp [h]
    · rw [ht] at h; cases h
  obtain ⟨r, e1, e2, e3⟩ := Tree.contentLoop_run hW.linked ho (order := order) (rec := fun c => do
        let cn ← rdNode w c
        if cn.type = .element then (if isScript cn then .ok none else optText w w.fresh c) else getTextContent w c)
    (fun c hc cn hcn g1 g2 => by
      have hmay := hW.types o n c cn ho hc hcn
      obtain ⟨r, q1, q2, q3⟩ := Tree.C30_read hW hd hcn (fun h => by rw [h] at hmay; exact Tree.may_document hmay)
        (fun h => by rw [h] at hmay; have := Tree.may_doctype hmay; rw [ht] at this; cases this) g1
      refine ⟨r, ?_, q2, q3⟩
      simp only [rdNode, hcn, Out.bind_ok]
      rw [if_neg (hflat c hc cn hcn)]
      exact q1)
    (fun c hc cn hcn g => by
      have hl := Tree.leaf_children hW.toCore hcn (by rcases g with g | g <;> simp [g])
      have hct : holdsText w c = false := by rcases g with g | g <;> simp [holdsText, hcn, g]
      rw [hd c, hl]; simp [hct])
    (ch o) [] none (w.fresh + 1) rfl (Nat.le_succ_of_le (Tree.child_length_le hW.toCore o))
  have hfirst : n.first = (ch o).head? := by
    obtain ⟨n', hn', h, _⟩ := (hW.linked.loc o n ho).ends
    rw [ho] at hn'; cases hn'; exact h
  have hself : holdsText w o = false := by simp [holdsText, ho, ht]
  have hsame : (order o).filter (holdsText w) = ((ch o).flatMap order).filter (holdsText w) := by
    rw [hd o]; simp [hself]
  rw [hsame]
  refine ⟨tidied r, ?_, ?_, fun h => by rw [e3 rfl h]; rfl⟩
  · unfold getOptionText
    show (rdNode w o >>= _) = _
    rw [show rdNode w o = .ok n by simp [rdNode, ho], Out.bind_ok, if_neg (by rw [hown]; simp), hfirst, e1]
    rfl
  · have e4 : bytesOf r = (((ch o).flatMap order).filter (holdsText w)).flatMap (dataBytes w) := by simpa [bytesOf] using e2
    rw [← e4]
    cases r with
    | none => simp [bytesOf, tidied, Str.whitespaceOp, Str.wsCopy, stripCollapse]
    | some t => rfl
/-- A script element of HTML or SVG: names compare without regard to case. -/
def Script (n : Node) : Prop :=
  (Str.contents n.name).map Str.asciiLower = (Names.lit "script").data ∧
    ((Str.contents n.ns).map Str.asciiLower = (Names.lit "http://www.w3.org/1999/xhtml").data ∨
     (Str.contents n.ns).map Str.asciiLower = (Names.lit "http://www.w3.org/2000/svg").data)

theorem isScript_iff (n : Node) : isScript n = true ↔ Script n := by
  unfold isScript Script
  rw [Bool.and_eq_true, Bool.or_eq_true, Str.C06_caseless_iff, Str.C06_caseless_iff, Str.C06_caseless_iff]
  rw [show (Str.contents (some (Names.lit "script"))).map Str.asciiLower = (Names.lit "script").data by decide +kernel,
    show (Str.contents (some htmlNs)).map Str.asciiLower = (Names.lit "http://www.w3.org/1999/xhtml").data by decide +kernel,
    show (Str.contents (some svgNs)).map Str.asciiLower = (Names.lit "http://www.w3.org/2000/svg").data by decide +kernel]

/-- The text shown for an element: the texts shown for its element children that are not scripts and the text content of the other
children, joined, and then stripped and collapsed (`Str.whitespaceOp`, described by `C08_whitespace_op`). -/
inductive Shown (w : World) (ch : Children) (order : NodeId → List NodeId) : NodeId → Bytes → Prop
  | mk (o : NodeId) (g : NodeId → Bytes)
      (inner : ∀ c ∈ ch o, ∀ cn, w.nodes c = some cn → cn.type = .element → ¬ Script cn → Shown w ch order c (g c))
      (script : ∀ c ∈ ch o, ∀ cn, w.nodes c = some cn → cn.type = .element → Script cn → g c = [])
      (other : ∀ c ∈ ch o, ∀ cn, w.nodes c = some cn → cn.type ≠ .element → g c = ((order c).filter (holdsText w)).flatMap (dataBytes w)) :
      Shown w ch order o (Str.whitespaceOp { data := (ch o).flatMap g } stripCollapse).data

/-- There is only one such text. -/
theorem Shown.unique (hW : WF w ch) {b b' : Bytes} (h : Shown w ch order o b) (h' : Shown w ch order o b') : b = b' := by
  induction h generalizing b' with
  | mk o g inner script other ih =>
    cases h' with
    | mk _ g' inner' script' other' =>
      have : (ch o).flatMap g = (ch o).flatMap g' := by
        refine List.flatMap_congr fun c hc => ?_
        obtain ⟨cn, hcn, _⟩ := hW.linked.alive_child hc
        by_cases he : cn.type = .element
        · by_cases hs : Script cn
          · rw [script c hc cn hcn he hs, script' c hc cn hcn he hs]
          · exact ih c hc cn hcn he hs (inner' c hc cn hcn he hs)
        · rw [other c hc cn hcn he, other' c hc cn hcn he]
      rw [this]

/-- The loop over the children when each gives the bytes `g`, and nothing where `z` holds. -/
theorem contentLoop_pieces {n : Node} {p : NodeId} (hL : Tree.Linked w ch) (hp : w.nodes p = some n) {g : NodeId → Bytes} {z : NodeId → Prop} {rec : NodeId → Out (Option DStr)}
    (hrec : ∀ c ∈ ch p, ∀ cn, w.nodes c = some cn → cn.type ≠ .comment → cn.type ≠ .pi → ∃ r, rec c = .ok r ∧ bytesOf r = g c ∧ (z c → r = none))
    (hskip : ∀ c ∈ ch p, ∀ cn, w.nodes c = some cn → (cn.type = .comment ∨ cn.type = .pi) → g c = []) :
    ∀ (b a : List NodeId) (str : Option DStr) (f : Nat), ch p = a ++ b → b.length ≤ f →
    ∃ r, contentLoop w rec f b.head? str = .ok r ∧ bytesOf r = bytesOf str ++ b.flatMap g ∧ (str = none → (∀ c ∈ b, z c) → r = none) := by
  intro b
  induction b with
  | nil => intro a str f _ _; exact ⟨str, by cases f <;> rfl, by simp, fun h _ => h⟩
  | cons c b ih =>
    intro a str f hab hf
    cases f with
    | zero => simp at hf
    | succ f =>
      obtain ⟨cn, hcn, _, _, _, hnext⟩ := (hL.loc p n hp).kids a c b hab
      have hc : c ∈ ch p := by simp [hab]
      have hf' : b.length ≤ f := by simpa using hf
      simp only [List.head?_cons, contentLoop, rdNode, hcn, Out.bind_ok, hnext]
      by_cases hs : cn.type = .comment ∨ cn.type = .pi
      · rw [if_pos hs]
        obtain ⟨r, h1, h2, h3⟩ := ih (a ++ [c]) str f (by simp [hab]) hf'
        refine ⟨r, h1, ?_, ?_⟩
        · rw [h2]; simp [hskip c hc cn hcn hs]
        · intro h h'; exact h3 h fun d hd => h' d (List.mem_cons_of_mem _ hd)
      · rw [if_neg hs]
        obtain ⟨rc, e1, e2, e3⟩ := hrec c hc cn hcn (fun h => hs (.inl h)) (fun h => hs (.inr h))
        obtain ⟨s', g1, g2, g3⟩ := Tree.contentAdd_ok str rc
        obtain ⟨r, h1, h2, h3⟩ := ih (a ++ [c]) s' f (by simp [hab]) hf'
        refine ⟨r, ?_, ?_, ?_⟩
        · rw [e1, Out.bind_ok, g1, Out.bind_ok, h1]
        · rw [h2, g2, e2]; simp
        · intro h h'
          exact h3 (g3 h (e3 (h' c List.mem_cons_self))) fun d hd => h' d (List.mem_cons_of_mem _ hd)

/-- The bytes of a result. -/
def resBytes (r : Out (Option DStr)) : Bytes :=
  match r with
  | .ok r => bytesOf r
  | _ => []

theorem optText_run (hW : WF w ch) (hd : DocOrder ch order) : ∀ (k : Nat) (o : NodeId) (n : Node), Tree.Ht ch k o → w.nodes o = some n →
    n.type = .element → ∃ r, optText w k o = .ok r ∧ Shown w ch order o (bytesOf r) ∧ ((order o).filter (holdsText w) = [] → r = none) := by
  intro k
  induction k with
  | zero => intro o n h; exact h.elim
  | succ k ih =>
    intro o n hh ho ht
    have hown : n.owner.isNone = false := by
      rcases hW.owner o n ho with ⟨d, dn, h, _⟩ | ⟨h, _⟩
      · simp [h]
      · rw [ht] at h; cases h
    have hleaf : ∀ c cn, w.nodes c = some cn → (cn.type = .comment ∨ cn.type = .pi) → (order c).filter (holdsText w) = [] := by
      intro c cn hcn g
      have hl := Tree.leaf_children hW.toCore hcn (by rcases g with g | g <;> simp [g])
      have hct : holdsText w c = false := by rcases g with g | g <;> simp [holdsText, hcn, g]
      rw [hd c, hl]; simp [hct]
    let rec' : NodeId → Out (Option DStr) := fun c => do
        let cn ← rdNode w c
        if cn.type = .element then (if isScript cn then .ok none else optText w k c) else getTextContent w c
    have hother : ∀ c ∈ ch o, ∀ cn, w.nodes c = some cn → cn.type ≠ .element → cn.type ≠ .comment → ∃ r, rec' c = .ok r ∧
        bytesOf r = ((order c).filter (holdsText w)).flatMap (dataBytes w) ∧ ((order c).filter (holdsText w) = [] → r = none) := by
      intro c hc cn hcn he hcm
      have hmay := hW.types o n c cn ho hc hcn
      obtain ⟨r, q1, q2, q3⟩ := Tree.C30_read hW hd hcn (fun h => by rw [h] at hmay; exact Tree.may_document hmay)
        (fun h => by rw [h] at hmay; have := Tree.may_doctype hmay; rw [ht] at this; cases this) hcm
      refine ⟨r, ?_, q2, q3⟩
      simp only [rec', rdNode, hcn, Out.bind_ok]
      rw [if_neg he]
      exact q1
    have hinner : ∀ c ∈ ch o, ∀ cn, w.nodes c = some cn → cn.type = .element → ¬ Script cn → ∃ r, rec' c = .ok r ∧
        Shown w ch order c (bytesOf r) ∧ ((order c).filter (holdsText w) = [] → r = none) := by
      intro c hc cn hcn he hs
      obtain ⟨r, q1, q2, q3⟩ := ih c cn (hh c hc) hcn he
      refine ⟨r, ?_, q2, q3⟩
      simp only [rec', rdNode, hcn, Out.bind_ok]
      rw [if_pos he, if_neg (fun e => hs ((isScript_iff cn).1 e))]
      exact q1
    have hscript : ∀ c ∈ ch o, ∀ cn, w.nodes c = some cn → cn.type = .element → Script cn → rec' c = .ok none := by
      intro c hc cn hcn he hs
      simp only [rec', rdNode, hcn, Out.bind_ok]
      rw [if_pos he, if_pos ((isScript_iff cn).2 hs)]
    let g : NodeId → Bytes := fun c => match w.nodes c with
      | some cn => if cn.type = .comment then [] else resBytes (rec' c)
      | none => []
    have hg : ∀ c cn, w.nodes c = some cn → cn.type ≠ .comment → g c = resBytes (rec' c) := by
      intro c cn hcn h
      simp only [g, hcn, if_neg h]
    have hne : ∀ {t : NodeType}, t = .element → t ≠ .comment := by rintro t rfl; simp
    have hgo : ∀ c ∈ ch o, ∀ cn, w.nodes c = some cn → cn.type ≠ .element → g c = ((order c).filter (holdsText w)).flatMap (dataBytes w) := by
      intro c hc cn hcn he
      by_cases hcm : cn.type = .comment
      · rw [hleaf c cn hcn (Or.inl hcm)]
        simp only [g, hcn, if_pos hcm, List.flatMap_nil]
      · obtain ⟨r, q1, q2, _⟩ := hother c hc cn hcn he hcm
        rw [hg c cn hcn hcm, q1]; exact q2
    obtain ⟨r, e1, e2, e3⟩ := contentLoop_pieces hW.linked ho (g := g) (z := fun c => (order c).filter (holdsText w) = []) (rec := rec')
      (fun c hc cn hcn g1 g2 => by
        rw [hg c cn hcn g1]
        by_cases he : cn.type = .element
        · by_cases hs : Script cn
          · exact ⟨none, hscript c hc cn hcn he hs, by rw [hscript c hc cn hcn he hs]; rfl, fun _ => rfl⟩
          · obtain ⟨r, q1, _, q3⟩ := hinner c hc cn hcn he hs
            exact ⟨r, q1, by rw [q1]; rfl, q3⟩
        · obtain ⟨r, q1, q2, q3⟩ := hother c hc cn hcn he g1
          exact ⟨r, q1, by rw [q1]; rfl, q3⟩)
      (fun c hc cn hcn h => by
        rw [hgo c hc cn hcn (by rcases h with h | h <;> rw [h] <;> simp), hleaf c cn hcn h]; rfl)
      (ch o) [] none (w.fresh + 1) rfl (Nat.le_succ_of_le (Tree.child_length_le hW.toCore o))
    have hfirst : n.first = (ch o).head? := by
      obtain ⟨n', hn', h, _⟩ := (hW.linked.loc o n ho).ends
      rw [ho] at hn'; cases hn'; exact h
    refine ⟨tidied r, ?_, ?_, fun h => ?_⟩
    · show (rdNode w o >>= _) = _
      rw [show rdNode w o = .ok n by simp [rdNode, ho], Out.bind_ok, if_neg (by rw [hown]; simp), hfirst, e1]
      rfl
    · have e4 : bytesOf (tidied r) = (Str.whitespaceOp { data := (ch o).flatMap g } stripCollapse).data := by
        have e5 : bytesOf r = (ch o).flatMap g := by simpa [bytesOf] using e2
        rw [← e5]
        cases r with
        | none => simp [bytesOf, tidied, Str.whitespaceOp, Str.wsCopy, stripCollapse]
        | some t => rfl
      rw [e4]
      refine .mk o g (fun c hc cn hcn he hs => ?_) (fun c hc cn hcn he hs => ?_) hgo
      · obtain ⟨r, q1, q2, _⟩ := hinner c hc cn hcn he hs
        rw [hg c cn hcn (hne he), q1]; exact q2
      · rw [hg c cn hcn (hne he), hscript c hc cn hcn he hs]; rfl
    · rw [hd o] at h
      rw [e3 rfl (fun c hc => ?_)]
      · rfl
      · rw [List.filter_eq_nil_iff] at h ⊢
        exact fun x hx => h x (List.mem_cons_of_mem _ (List.mem_flatMap.2 ⟨c, hc, hx⟩))

/-- **C56** for options with any content: the text is that of `Shown`, which strips each nested element on its own; scripts add nothing, whatever the case
of their name.  Partial: `C56_nested_violated` shows that this is not the text of the claim. -/
theorem C56_shown_partial (hW : WF w ch) (hd : DocOrder ch order) {n : Node} (ho : w.nodes o = some n) (ht : n.type = .element) :
    ∃ r, getOptionText w o = .ok r ∧ Shown w ch order o (bytesOf r) ∧ (∀ b, Shown w ch order o b → b = bytesOf r) ∧
      ((order o).filter (holdsText w) = [] → r = none) := by
  obtain ⟨r, h1, h2, h3⟩ := optText_run hW hd (w.fresh + 1) o n ((hW.ht ho).mono (Nat.le_succ _)) ho ht
  exact ⟨r, h1, h2, fun b hb => hb.unique hW h2, h3⟩

end

/-! ## Samples and disagreements -/

open Dom.Tree (Call Reach exists_ok)

/-- Document 0 with a SELECT 1 that has the options 2 and 4 (with the text 5) and an OPTGROUP 3 with the option 6. -/
def pageCalls : List Call := [.createDocument, .createNode 0 .element (some (Names.lit "SELECT")) none, .createNode 0 .element (some optionName) none,
  .createNode 0 .element (some (Names.lit "OPTGROUP")) none, .createNode 0 .element (some optionName) none, .createNode 0 .text none (some (Names.lit " a  b ")),
  .createNode 0 .element (some optionName) none, .appendChild 0 1, .appendChild 1 2, .appendChild 1 3, .appendChild 1 4, .appendChild 4 5, .appendChild 3 6]

/-- Elements for them; option 4 is selected. -/
def pageOps : List Op := [.newElem 1 { owner := 0 }, .newElem 2 { owner := 0 }, .newElem 3 { owner := 0 }, .newElem 4 { owner := 0 }, .newElem 6 { owner := 0 },
  .set 4 none selectedName (some (Names.lit "x"))]

/-- The tree and the attributes of a page that the checks accept. -/
theorem exists_page (calls : List Call) (ops : List Op) (check : World → Mem → Bool)
    (h : (Tree.runAll (fun w c => c.okB w) calls World.empty).any (fun w => (runOps ops empty).any (check w)) = true) :
    ∃ w s, Reach (fun w c => c.Ok w) w ∧ After s ∧ check w s = true := by
  obtain ⟨w, h1, h2⟩ := exists_ok calls _ h
  obtain ⟨s, h3, h4⟩ := exists_after ops (check w) h2
  exact ⟨w, s, h1, h3, h4⟩

/-- The page at work: three options, the second in document order in the group; the last one is selected, and setting the index to 1 makes
the one in the group the first one selected. -/
theorem page_example : ∃ w s, Reach (fun w c => c.Ok w) w ∧ After s ∧ optLength w 1 = .ok 3 ∧ (∃ s', getSelectedIndex w 1 s = .ok s' 2) ∧
    ∃ s', (do setSelectedIndex w 1 1; getSelectedIndex w 1 : M Int) s = .ok s' 1 := by
  obtain ⟨w, s, h1, h2, h3⟩ := exists_page pageCalls pageOps (fun w s => decide (optLength w 1 = .ok 3) && (getSelectedIndex w 1 s).gives 2 &&
    ((do setSelectedIndex w 1 1; getSelectedIndex w 1 : M Int) s).gives 1) (by decide +kernel)
  simp only [Bool.and_eq_true, decide_eq_true_eq] at h3
  exact ⟨w, s, h1, h2, h3.1.1, Res.of_gives h3.1.2, Res.of_gives h3.2⟩

/-- The sample page meets the hypotheses of the theorems above. -/
theorem page_meets : ∃ w ch s ls, Reach (fun w c => c.Ok w) w ∧ Attr.Reach s ∧ Page w ch (Tree.preorder ch (w.fresh + 1)) s ls 1 := by
  obtain ⟨s, h3, h4⟩ := Attr.exists_reach pageOps (fun s => (s.elems 2).isSome && (s.elems 4).isSome && (s.elems 6).isSome) (by decide +kernel)
  obtain ⟨w, h1, h2⟩ := exists_ok pageCalls (fun w => decide (w.fresh = 7 ∧ (w.nodes 1).any (fun n => n.first.isSome) = true ∧
    ∀ o : Nat, o < 7 → isOption w o = true → o = 2 ∨ o = 4 ∨ o = 6)) (by decide +kernel)
  have h2 := of_decide_eq_true h2
  obtain ⟨ch, hW⟩ := h1.wf (fun _ _ h => h)
  obtain ⟨ls, hg⟩ := h3.good
  have hd := Tree.docOrder_preorder hW.toCore
  simp only [Bool.and_eq_true, Option.isSome_iff_exists] at h4
  cases hn : w.nodes 1 with
  | none => rw [hn] at h2; simp at h2
  | some rn =>
    have hfirst : ch 1 ≠ [] := by
      obtain ⟨n', hn', h, _⟩ := (hW.linked.loc 1 rn hn).ends
      have h5 := h2.2.1
      rw [hn'] at h5
      intro h0
      rw [h0] at h
      simp [h] at h5
    refine ⟨w, ch, s, ls, h1, h3, hW, hd, ⟨rn, hn, .inl hfirst⟩, hg.inv, ?_, ?_⟩
    · intro o ho
      have hm : member w (isOption w) o = true := by rw [member_eq]; exact (List.mem_filter.1 ho).2
      unfold member at hm
      cases hon : w.nodes o with
      | none => rw [hon] at hm; simp at hm
      | some n =>
        rw [hon] at hm
        simp only [Option.any_some, Bool.and_eq_true] at hm
        rcases h2.2.2 o (by rw [← h2.1]; exact hW.bnd o n hon) hm.2 with rfl | rfl | rfl
        · exact h4.1.1
        · exact h4.1.2
        · exact h4.2
    · have h5 := Trav.order_length_le hW.toCore hd hn
      have h6 := List.length_filter_le (fun x => (w.nodes x).any fun n => n.type = .element && contents n.name = "OPTION".toUTF8.toList) (Tree.preorder ch (w.fresh + 1) 1)
      have h7 := h2.1
      unfold options
      omega

/-- **C54** is violated: setting selectedIndex does not take the selection from an earlier option, which is still the one reported. -/
theorem C54_keeps_violated : ∃ w s, Reach (fun w c => c.Ok w) w ∧ After s ∧ ∃ s',
    (do setSelectedIndex w 1 0; setSelectedIndex w 1 1; getSelectedIndex w 1 : M Int) s = .ok s' 0 := by
  obtain ⟨w, s, h1, h2, h3⟩ := exists_page pageCalls pageOps (fun w s =>
    ((do setSelectedIndex w 1 0; setSelectedIndex w 1 1; getSelectedIndex w 1 : M Int) s).gives 0) (by decide +kernel)
  exact ⟨w, s, h1, h2, Res.of_gives h3⟩

/-- **C54** is violated: the option that has the value is not selected when it is set; instead the selected option is given the value. -/
theorem C54_set_value_violated : ∃ w s s', Reach (fun w c => c.Ok w) w ∧ After s ∧
    (do setAttribute 2 valueName (some (str "a")); setAttribute 6 valueName (some (str "b")); setSelectedIndex w 1 0; setSelectValue w 1 (some (str "b"))
        let i ← getSelectedIndex w 1
        let v ← getAttribute 2 valueName
        pure (i, v) : M (Int × Option DStr)) s = .ok s' (0, some (str "b")) := by
  obtain ⟨w, s, h1, h2, h3⟩ := exists_page pageCalls pageOps (fun w s =>
    ((do setAttribute 2 valueName (some (str "a")); setAttribute 6 valueName (some (str "b")); setSelectedIndex w 1 0; setSelectValue w 1 (some (str "b"))
         let i ← getSelectedIndex w 1
         let v ← getAttribute 2 valueName
         pure (i, v) : M (Int × Option DStr)) s).gives (0, some (str "b"))) (by decide +kernel)
  obtain ⟨s', h4⟩ := Res.of_gives h3
  exact ⟨w, s, s', h1, h2, h4⟩

/-- **C54** is violated: setting selectedIndex to the number of options dereferences NULL. -/
theorem C54_range_violated : ∃ w s, Reach (fun w c => c.Ok w) w ∧ After s ∧ optLength w 1 = .ok 3 ∧ setSelectedIndex w 1 3 s = .fault .nullDeref := by
  obtain ⟨w, s, h1, h2, h3⟩ := exists_page pageCalls pageOps (fun w s => decide (optLength w 1 = .ok 3) && (setSelectedIndex w 1 3 s).faults .nullDeref)
    (by decide +kernel)
  simp only [Bool.and_eq_true, decide_eq_true_eq] at h3
  exact ⟨w, s, h1, h2, h3.1, Res.of_faults h3.2⟩

/-- **C54** is violated: setting selectedIndex to -1 gives the select element itself the attribute `selected`, and the selection stays. -/
theorem C54_minus_violated : ∃ w s, Reach (fun w c => c.Ok w) w ∧ After s ∧
    (∃ s', getBoolProp 1 selectedName s = .ok s' false) ∧
    (∃ s', (do setSelectedIndex w 1 (-1); getBoolProp 1 selectedName : M Bool) s = .ok s' true) ∧
    ∃ s', (do setSelectedIndex w 1 (-1); getSelectedIndex w 1 : M Int) s = .ok s' 2 := by
  obtain ⟨w, s, h1, h2, h3⟩ := exists_page pageCalls pageOps (fun w s => (getBoolProp 1 selectedName s).gives false &&
    ((do setSelectedIndex w 1 (-1); getBoolProp 1 selectedName : M Bool) s).gives true &&
    ((do setSelectedIndex w 1 (-1); getSelectedIndex w 1 : M Int) s).gives 2) (by decide +kernel)
  simp only [Bool.and_eq_true] at h3
  exact ⟨w, s, h1, h2, Res.of_gives h3.1.1, Res.of_gives h3.1.2, Res.of_gives h3.2⟩

/-- **C54** is violated, and memory safety with it: the selectedIndex of an empty select element that is followed by an element. -/
theorem C54_empty_violated : ∃ w s, Reach (fun w c => c.Ok w) w ∧ After s ∧ getSelectedIndex w 2 s = .fault .nullDeref := by
  obtain ⟨w, s, h1, h2, h3⟩ := exists_page [.createDocument, .createNode 0 .element (some (Names.lit "FORM")) none,
      .createNode 0 .element (some (Names.lit "SELECT")) none, .createNode 0 .element (some (Names.lit "P")) none, .appendChild 0 1, .appendChild 1 2, .appendChild 1 3]
    [.newElem 1 { owner := 0 }, .newElem 2 { owner := 0 }, .newElem 3 { owner := 0 }] (fun w s => (getSelectedIndex w 2 s).faults .nullDeref) (by decide +kernel)
  exact ⟨w, s, h1, h2, Res.of_faults h3⟩

/-- The text of an option as bytes. -/
def textBytes (w : World) (o : NodeId) : Out Bytes := do
  let r ← getOptionText w o
  .ok (bytesOf r)

/-- **C56** is violated: white space at the ends of a nested element is dropped, which joins words: `a <b> b </b>` reads as `ab`. -/
theorem C56_nested_violated : ∃ w, Reach (fun w c => c.Ok w) w ∧ textBytes w 1 = .ok (Names.lit "ab").data := by
  obtain ⟨w, h1, h2⟩ := exists_ok [.createDocument, .createNode 0 .element (some optionName) none, .createNode 0 .text none (some (Names.lit "a")),
      .createNode 0 .element (some (Names.lit "B")) none, .createNode 0 .text none (some (Names.lit " b")), .appendChild 0 1, .appendChild 1 2, .appendChild 1 3,
      .appendChild 3 4] (fun w => decide (textBytes w 1 = .ok (Names.lit "ab").data)) (by decide +kernel)
  exact ⟨w, h1, of_decide_eq_true h2⟩

/-- The text of option 4 of the sample page. -/
theorem text_example : ∃ w, Reach (fun w c => c.Ok w) w ∧ textBytes w 4 = .ok (Names.lit "a b").data := by
  obtain ⟨w, h1, h2⟩ := exists_ok pageCalls (fun w => decide (textBytes w 4 = .ok (Names.lit "a b").data)) (by decide +kernel)
  exact ⟨w, h1, of_decide_eq_true h2⟩

end Dom.Html
