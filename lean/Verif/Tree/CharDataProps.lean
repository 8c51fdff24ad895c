import Verif.Tree.CharData
/-!
# Properties of character data (C09, C10, C11)
-/
namespace Dom.Tree
set_option linter.unusedSimpArgs false

open Dom.Str (DStr Holds HoldsOpt utf8)

variable {w : World} {ch : Children} {c : NodeId} {n : Node} {cs ss : List Char} {d : DStr}

/-- The data of node `c` (with record `n`) is now `v`, no other node has changed, and exactly these events were
raised: DOMCharacterDataModified at `c` with the old and the new value, and DOMSubtreeModified at the parent, if any. -/
structure DataBecomes (w : World) (c : NodeId) (n : Node) (v : Option DStr) (w' : World) : Prop where
  here : w'.nodes c = some { n with value := v }
  others : ∀ j, j ≠ c → w'.nodes j = w.nodes j
  fresh : w'.fresh = w.fresh
  log : w'.log = w.log ++
    { kind := .characterDataModified, target := c, related := some c, prevValue := n.value, newValue := v } ::
    (match n.parent with
     | none => []
     | some p => [{ kind := .subtreeModified, target := p, related := some p }])

theorem storeData_becomes (hW : Core w ch) (hc : w.nodes c = some n) (ho : n.owner ≠ none) (v : Option DStr) :
    ∃ w', storeData c v w = .ok w' () ∧ DataBecomes w c n v w' ∧ w' = w.mp (withValue c v) (dataEvents c n v) := by
  refine ⟨_, storeData_run hW hc ho v, ⟨?_, ?_, rfl, rfl⟩, rfl⟩
  · rw [mp_some hc]; simp [withValue]
  · intro j hj
    rw [mp_nodes]; cases w.nodes j <;> simp [withValue, hj]

theorem WF_withValue (hW : WF w ch) (v : Option DStr) (l : List Ev) : WF (w.mp (withValue c v) l) ch := by
  refine hW.mp_same l ?_ ?_ ?_ ?_ <;> intro j n <;> unfold withValue <;> split <;> rfl

theorem not_ro (hW : Core w ch) (hc : w.nodes c = some n) (h : ¬ ReadOnly w c) {β : Type} (f : M β) :
    (do let ro ← readonly c; throwIf ro .noModificationAllowed; f) w = f w := by
  obtain ⟨b, hb, hb'⟩ := readonly_run hW hc
  have : b = false := by cases b <;> simp_all
  rw [bind_ok hb, this]
  rfl

theorem yes_ro (hW : Core w ch) (hc : w.nodes c = some n) (h : ReadOnly w c) {β : Type} (f : M β) :
    (do let ro ← readonly c; throwIf ro .noModificationAllowed; f) w = .exc w .noModificationAllowed := by
  obtain ⟨b, hb, hb'⟩ := readonly_run hW hc
  rw [bind_ok hb, hb'.2 h]
  rfl

theorem dataLength_holds (h : HoldsOpt n.value cs) : dataLength n.value = .ok cs.length := by
  unfold dataLength
  cases hv : n.value with
  | none => rw [hv] at h; simp only [HoldsOpt] at h; subst h; rfl
  | some s => rw [hv] at h; exact Str.length_holds h

theorem neg32_iff {x : Nat} : neg32 x = true ↔ 2 ^ 31 ≤ x := by simp [neg32]

theorem clampEnd_eq {o k len : Nat} (h1 : o < 2 ^ 31) (h2 : k < 2 ^ 31) : clampEnd o k len = min (o + k) len := by
  unfold clampEnd
  rw [u32_small (by omega)]
  split <;> omega

theorem drop_min (l : List Char) (m : Nat) : l.drop (min m l.length) = l.drop m := by
  rcases Nat.le_total m l.length with h | h
  · rw [Nat.min_eq_left h]
  · rw [Nat.min_eq_right h, List.drop_eq_nil_of_le (Nat.le_refl _), List.drop_eq_nil_of_le h]

theorem take_min_sub (l : List Char) (o k : Nat) :
    (l.drop o).take (min (o + k) l.length - o) = (l.drop o).take k := by
  rcases Nat.le_total (o + k) l.length with h | h
  · rw [Nat.min_eq_left h, Nat.add_sub_cancel_left]
  · rw [Nat.min_eq_right h, ← List.length_drop, List.take_length, List.take_of_length_le]
    simp; omega

/-- C09, `appendData` and `setData`. -/
theorem C09_append (hW : WF w ch) (hc : w.nodes c = some n) (ho : n.owner ≠ none) (hro : ¬ ReadOnly w c) {s : DStr}
    (hv : n.value = some s) (hs : Holds s cs) (hd : Holds d ss) (hfit : (utf8 (cs ++ ss)).length < 2 ^ 32) :
    (∃ w' v, appendData c (some d) w = .ok w' () ∧ DataBecomes w c n (some v) w' ∧ Holds v (cs ++ ss)) ∧
    (∃ w', setData c (some d) w = .ok w' () ∧ DataBecomes w c n (some d) w') := by
  constructor
  · unfold appendData
    rw [not_ro hW.toCore hc hro, get_bind hc]
    have hcat : Str.concat n.value (some d) = .ok (Str.create (s.data ++ d.data)) := by rw [hv]; rfl
    rw [liftOut_ok hcat]
    obtain ⟨w', h1, h2, _⟩ := storeData_becomes hW.toCore hc ho (some (Str.create (s.data ++ d.data)))
    refine ⟨w', _, h1, h2, ⟨?_, hfit⟩⟩
    simp [Str.create, hs.data, hd.data, utf8]
  · unfold setData
    rw [not_ro hW.toCore hc hro]
    obtain ⟨w', h1, h2, _⟩ := storeData_becomes hW.toCore hc ho (some d)
    exact ⟨w', h1, h2⟩

/-- C09, `insertData`: INDEX_SIZE_ERR without any change exactly when the offset is negative or beyond the data,
otherwise the string is inserted at the offset. -/
theorem C09_insert (hW : WF w ch) (hc : w.nodes c = some n) (ho : n.owner ≠ none) (hro : ¬ ReadOnly w c)
    (hs : HoldsOpt n.value cs) (hd : Holds d ss) (hfit : (utf8 cs).length + (utf8 ss).length + 1 < 2 ^ 32) (o : Nat) :
    ((2 ^ 31 ≤ o ∨ cs.length < o) → insertData c o (some d) w = .exc w .indexSize) ∧
    (¬ (2 ^ 31 ≤ o ∨ cs.length < o) → ∃ w' v, insertData c o (some d) w = .ok w' () ∧ DataBecomes w c n (some v) w' ∧
      Holds v (cs.take o ++ ss ++ cs.drop o)) := by
  unfold insertData
  rw [not_ro hW.toCore hc hro]
  by_cases h1 : 2 ^ 31 ≤ o
  · rw [neg32_iff.2 h1]
    exact ⟨fun _ => rfl, fun h => absurd (.inl h1) h⟩
  · have e1 : neg32 o = false := by rw [← Bool.not_eq_true, neg32_iff]; exact h1
    rw [e1, throwIf_false, get_bind hc, liftOut_ok (dataLength_holds hs)]
    by_cases h2 : cs.length < o
    · rw [show (decide (o > cs.length)) = true by simpa using h2]
      exact ⟨fun _ => rfl, fun h => absurd (.inr h2) h⟩
    · rw [show (decide (o > cs.length)) = false by simpa using h2, throwIf_false]
      refine ⟨fun h => absurd h (by omega), fun _ => ?_⟩
      obtain ⟨v, hv, hh⟩ := Str.C02_insert_ok n.value d cs ss o hs hd hfit (by omega)
      rw [liftOut_ok hv]
      obtain ⟨w', h3, h4, _⟩ := storeData_becomes hW.toCore hc ho (some v)
      exact ⟨w', v, h3, h4, hh⟩

/-- C09, `replaceData`: INDEX_SIZE_ERR without any change exactly when offset or count is negative or the offset
beyond the data; otherwise the range, clamped to the end of the data, is replaced. -/
theorem C09_replace (hW : WF w ch) (hc : w.nodes c = some n) (ho : n.owner ≠ none) (hro : ¬ ReadOnly w c)
    (hs : HoldsOpt n.value cs) (hd : Holds d ss) (hfit : (utf8 cs).length + (utf8 ss).length + 1 < 2 ^ 32) (o k : Nat) :
    ((2 ^ 31 ≤ o ∨ 2 ^ 31 ≤ k ∨ cs.length < o) → replaceData c o k (some d) w = .exc w .indexSize) ∧
    (¬ (2 ^ 31 ≤ o ∨ 2 ^ 31 ≤ k ∨ cs.length < o) → ∃ w' v, replaceData c o k (some d) w = .ok w' () ∧
      DataBecomes w c n (some v) w' ∧ Holds v (cs.take o ++ ss ++ cs.drop (o + k))) := by
  unfold replaceData
  rw [not_ro hW.toCore hc hro]
  by_cases h1 : 2 ^ 31 ≤ o ∨ 2 ^ 31 ≤ k
  · rw [show (neg32 o || neg32 k) = true by rw [Bool.or_eq_true, neg32_iff, neg32_iff]; exact h1]
    exact ⟨fun _ => rfl, fun h => absurd (h1.elim .inl fun h => .inr (.inl h)) h⟩
  · rw [show (neg32 o || neg32 k) = false by
      rw [← Bool.not_eq_true, Bool.or_eq_true, neg32_iff, neg32_iff]; exact h1]
    rw [throwIf_false, get_bind hc, liftOut_ok (dataLength_holds hs)]
    by_cases h2 : cs.length < o
    · rw [show (decide (o > cs.length)) = true by simpa using h2]
      exact ⟨fun _ => rfl, fun h => absurd (.inr (.inr h2)) h⟩
    · rw [show (decide (o > cs.length)) = false by simpa using h2, throwIf_false]
      refine ⟨fun h => absurd h (by omega), fun _ => ?_⟩
      rw [clampEnd_eq (by omega) (by omega)]
      obtain ⟨v, hv, hh⟩ := Str.C03_replace_ok n.value d cs ss o (min (o + k) cs.length) hs hd hfit
        (by omega) (Nat.min_le_right _ _)
      rw [liftOut_ok hv]
      rw [drop_min] at hh
      obtain ⟨w', h3, h4, _⟩ := storeData_becomes hW.toCore hc ho (some v)
      exact ⟨w', v, h3, h4, hh⟩

theorem empty_holds : Holds Str.emptyString [] := ⟨rfl, by decide⟩

/-- C09, `deleteData`: as `replaceData` with nothing. -/
theorem C09_delete (hW : WF w ch) (hc : w.nodes c = some n) (ho : n.owner ≠ none) (hro : ¬ ReadOnly w c)
    (hs : HoldsOpt n.value cs) (hfit : (utf8 cs).length + 1 < 2 ^ 32) (o k : Nat) :
    ((2 ^ 31 ≤ o ∨ 2 ^ 31 ≤ k ∨ cs.length < o) → deleteData c o k w = .exc w .indexSize) ∧
    (¬ (2 ^ 31 ≤ o ∨ 2 ^ 31 ≤ k ∨ cs.length < o) → ∃ w' v, deleteData c o k w = .ok w' () ∧
      DataBecomes w c n (some v) w' ∧ Holds v (cs.take o ++ cs.drop (o + k))) := by
  unfold deleteData
  rw [not_ro hW.toCore hc hro]
  by_cases h1 : 2 ^ 31 ≤ o ∨ 2 ^ 31 ≤ k
  · rw [show (neg32 o || neg32 k) = true by rw [Bool.or_eq_true, neg32_iff, neg32_iff]; exact h1]
    exact ⟨fun _ => rfl, fun h => absurd (h1.elim .inl fun h => .inr (.inl h)) h⟩
  · rw [show (neg32 o || neg32 k) = false by
      rw [← Bool.not_eq_true, Bool.or_eq_true, neg32_iff, neg32_iff]; exact h1]
    rw [throwIf_false, get_bind hc, liftOut_ok (dataLength_holds hs)]
    by_cases h2 : cs.length < o
    · rw [show (decide (o > cs.length)) = true by simpa using h2]
      exact ⟨fun _ => rfl, fun h => absurd (.inr (.inr h2)) h⟩
    · rw [show (decide (o > cs.length)) = false by simpa using h2, throwIf_false]
      refine ⟨fun h => absurd h (by omega), fun _ => ?_⟩
      rw [clampEnd_eq (by omega) (by omega)]
      obtain ⟨dd, dn, hown, hdd, _⟩ := hW.toCore.doc_alive hc (.inr (.inr ho))
      obtain ⟨v, hv, hh⟩ := Str.C03_replace_ok n.value Str.emptyString cs [] o (min (o + k) cs.length) hs empty_holds
        (by simpa [utf8] using hfit) (by omega) (Nat.min_le_right _ _)
      rw [hown, deref_bind, get_bind hdd, liftOut_ok hv]
      rw [drop_min, List.append_nil] at hh
      obtain ⟨w', h3, h4, _⟩ := storeData_becomes hW.toCore hc ho (some v)
      exact ⟨w', v, h3, h4, hh⟩

/-- C09, `substringData` and the length: nothing changes; the result is the range, clamped to the end of the data. -/
theorem C09_substring (hc : w.nodes c = some n) (hs : HoldsOpt n.value cs) (o k : Nat) :
    dataLength n.value = .ok cs.length ∧
    ((2 ^ 31 ≤ o ∨ 2 ^ 31 ≤ k ∨ cs.length < o) → substringData c o k w = .exc w .indexSize) ∧
    (¬ (2 ^ 31 ≤ o ∨ 2 ^ 31 ≤ k ∨ cs.length < o) → ∃ v, substringData c o k w = .ok w v ∧
      Holds v ((cs.drop o).take k)) := by
  refine ⟨dataLength_holds hs, ?_⟩
  unfold substringData
  rw [get_bind hc]
  by_cases h1 : 2 ^ 31 ≤ o ∨ 2 ^ 31 ≤ k
  · rw [show (neg32 o || neg32 k) = true by rw [Bool.or_eq_true, neg32_iff, neg32_iff]; exact h1]
    exact ⟨fun _ => rfl, fun h => absurd (h1.elim .inl fun h => .inr (.inl h)) h⟩
  · rw [show (neg32 o || neg32 k) = false by
      rw [← Bool.not_eq_true, Bool.or_eq_true, neg32_iff, neg32_iff]; exact h1]
    rw [throwIf_false, liftOut_ok (dataLength_holds hs)]
    by_cases h2 : cs.length < o
    · rw [show (decide (o > cs.length)) = true by simpa using h2]
      exact ⟨fun _ => rfl, fun h => absurd (.inr (.inr h2)) h⟩
    · rw [show (decide (o > cs.length)) = false by simpa using h2, throwIf_false]
      refine ⟨fun h => absurd h (by omega), fun _ => ?_⟩
      rw [clampEnd_eq (by omega) (by omega)]
      obtain ⟨v, hv, hh⟩ := Str.C01_substr_ok n.value cs o (min (o + k) cs.length) hs (by omega) (Nat.min_le_right _ _)
      rw [take_min_sub] at hh
      exact ⟨v, by rw [hv]; rfl, hh⟩

/-- C10.  Every changing call on a read-only node is refused and changes nothing, whatever the arguments. -/
theorem C10_readonly (hW : WF w ch) (hc : w.nodes c = some n) (hro : ReadOnly w c) (o k : Nat) (x : Option DStr) :
    setData c x w = .exc w .noModificationAllowed ∧ appendData c x w = .exc w .noModificationAllowed ∧
    insertData c o x w = .exc w .noModificationAllowed ∧ replaceData c o k x w = .exc w .noModificationAllowed ∧
    deleteData c o k w = .exc w .noModificationAllowed ∧ splitText c o w = .exc w .noModificationAllowed := by
  refine ⟨?_, ?_, ?_, ?_, ?_, ?_⟩
  · unfold setData; exact yes_ro hW.toCore hc hro _
  · unfold appendData; exact yes_ro hW.toCore hc hro _
  · unfold insertData; exact yes_ro hW.toCore hc hro _
  · unfold replaceData; exact yes_ro hW.toCore hc hro _
  · unfold deleteData; exact yes_ro hW.toCore hc hro _
  · unfold splitText; exact yes_ro hW.toCore hc hro _

theorem readonly_add (hW : WF w ch) {m : Node} (hm : m.parent = none) (hc : w.nodes c = some n) :
    ReadOnly (w.add m) c → ReadOnly w c := by
  rintro ⟨k, hk, h⟩
  rw [add_old hW.toCore hc] at hk; cases hk
  refine ⟨n, hc, ?_⟩
  rcases h with h | h | h | ⟨h1, j, q, hj, hq, ht⟩
  · exact .inl h
  · exact .inr (.inl h)
  · exact .inr (.inr (.inl h))
  · refine .inr (.inr (.inr ⟨h1, ?_⟩))
    have hj' : AncSelf w c j ∧ ∃ y, w.nodes j = some y := by
      clear hq ht
      induction hj with
      | refl => exact ⟨.refl, n, hc⟩
      | @tail a b _ h2 ih =>
        obtain ⟨y, hy, hyp⟩ := h2
        obtain ⟨ih1, z, hz⟩ := ih
        rw [add_old hW.toCore hz] at hy; cases hy
        obtain ⟨y', hy'⟩ := hW.linked.alive_parent hz hyp
        exact ⟨ih1.tail ⟨_, hz, hyp⟩, y', hy'⟩
    obtain ⟨h3, y, hy⟩ := hj'
    rw [add_old hW.toCore hy] at hq; cases hq
    exact ⟨j, _, h3, hy, ht⟩

/-- C11.  `splitText o` with `o` below the length leaves the first `o` characters in the node, puts the others into a
new Text node of the same document, changes no other node, and keeps the tree.

Missing from the full claim, and false of the code: the split at the end of the data (`C11_split_end_violated`), the
new node becoming the next sibling (`C11_not_inserted_violated`). -/
theorem C11_split_partial (hW : WF w ch) {t : NodeId} (ht : w.nodes t = some n) (ho : n.owner ≠ none)
    (hro : ¬ ReadOnly w t) (hs : HoldsOpt n.value cs) (hsmall : cs.length < 2 ^ 31)
    (hfit : (utf8 cs).length + 1 < 2 ^ 32) {o : Nat} (hlt : o < cs.length) :
    ∃ w' v1 v2 m, splitText t o w = .ok w' w.fresh ∧ WF w' ch ∧
      w'.nodes t = some { n with value := some v1 } ∧ Holds v1 (cs.take o) ∧
      w'.nodes w.fresh = some m ∧ m.type = .text ∧ m.owner = n.owner ∧ m.parent = none ∧ m.refcnt = 1 ∧ m.host = none ∧ m.attrs = [] ∧
      m.value = some v2 ∧ Holds v2 (cs.drop o) ∧ cs.take o ++ cs.drop o = cs ∧
      (∀ j, j ≠ t → j ≠ w.fresh → w'.nodes j = w.nodes j) := by
  unfold splitText
  rw [not_ro hW.toCore ht hro, get_bind ht, liftOut_ok (dataLength_holds hs)]
  rw [show (decide (o ≥ cs.length)) = false by simpa using hlt, throwIf_false]
  rw [sub32_le (Nat.le_of_lt hlt)]
  obtain ⟨_, _, hsub⟩ := C09_substring ht hs o (cs.length - o)
  obtain ⟨v2, hv2, hh2⟩ := hsub (by omega)
  rw [bind_ok hv2]
  obtain ⟨dd, dn, hown, hdd, hddt⟩ := hW.toCore.doc_alive ht (.inr (.inr ho))
  have hinit : initNode { type := .text, name := n.name, value := some v2, owner := n.owner } w =
      .ok (w.add { type := .text, name := n.name, value := some v2, owner := n.owner, pendingIn := n.owner }) w.fresh := by
    rw [hown]
    exact createNode_run hW.toCore hdd .text n.name (some v2)
  rw [bind_ok hinit]
  have hW1 : WF (w.add { type := .text, name := n.name, value := some v2, owner := n.owner, pendingIn := n.owner }) ch :=
    WF_add hW rfl (.inr (.inl ⟨by simp, dd, dn, hown, hdd, hddt⟩)) (by simp)
  have ht1 := add_old hW.toCore (n := { type := .text, name := n.name, value := some v2, owner := n.owner, pendingIn := n.owner }) ht
  obtain ⟨_, hdel⟩ := C09_delete hW1 ht1 ho (fun h => hro (readonly_add hW rfl ht h)) hs hfit o (cs.length - o)
  obtain ⟨w', v1, h1, h2, h3⟩ := hdel (by omega)
  have hne : w.fresh ≠ t := by
    intro e; have := hW.bnd t n ht; rw [e] at this; exact absurd this (Nat.lt_irrefl _)
  rw [bind_ok h1]
  have hold : ∀ j, j ≠ t → j ≠ w.fresh → w'.nodes j = w.nodes j := by
    intro j hj hj'
    rw [h2.others j hj]
    simp [World.add, hj']
  refine ⟨w', v1, v2, { type := .text, name := n.name, value := some v2, owner := n.owner, pendingIn := n.owner }, rfl, ?_, h2.here, ?_, ?_, ?_⟩
  · -- the invariant
    unfold deleteData at h1
    obtain ⟨w'', h4, h5, h6⟩ := storeData_becomes hW1.toCore ht1 ho (some v1)
    have : w' = w'' := by
      have e : w'.nodes = w''.nodes := by
        funext j
        by_cases hj : j = t
        · subst hj; rw [h2.here, h5.here]
        · rw [h2.others j hj, h5.others j hj]
      have e2 : w'.fresh = w''.fresh := by rw [h2.fresh, h5.fresh]
      have e3 : w'.log = w''.log := by rw [h2.log, h5.log]
      cases w'; cases w''; simp_all
    rw [this, h6]
    exact WF_withValue hW1 _ _
  · rw [show o + (cs.length - o) = cs.length by omega, List.drop_length, List.append_nil] at h3
    exact h3
  · rw [h2.others _ hne, add_new]
  · refine ⟨rfl, rfl, rfl, rfl, rfl, rfl, rfl, ?_, List.take_append_drop o cs, hold⟩
    rw [List.take_of_length_le (by simp)] at hh2
    exact hh2

/-- C11, bad offset.  An offset beyond the data is INDEX_SIZE_ERR and changes nothing. -/
theorem C11_split_index (hW : WF w ch) {t : NodeId} (ht : w.nodes t = some n) (hro : ¬ ReadOnly w t)
    (hs : HoldsOpt n.value cs) {o : Nat} (hge : cs.length < o) : splitText t o w = .exc w .indexSize := by
  unfold splitText
  rw [not_ro hW.toCore ht hro, get_bind ht, liftOut_ok (dataLength_holds hs)]
  rw [show (decide (o ≥ cs.length)) = true by simp; omega]
  rfl

/-- C11 is false of the code at the end of the data: every split there is refused, where the DOM asks for an empty
new node (src/core/text.c:199-201). -/
theorem C11_split_end_violated (hW : WF w ch) {t : NodeId} (ht : w.nodes t = some n) (hro : ¬ ReadOnly w t)
    (hs : HoldsOpt n.value cs) : splitText t cs.length w = .exc w .indexSize := by
  unfold splitText
  rw [not_ro hW.toCore ht hro, get_bind ht, liftOut_ok (dataLength_holds hs)]
  rw [show (decide (cs.length ≥ cs.length)) = true by simp]
  rfl

end Dom.Tree
