import Verif.Tokens.Model
import Verif.Attr.PropsTyped
/-!
# C49: token lists
-/
namespace Dom.Tokens
set_option linter.unusedSimpArgs false

open Dom.Str (DStr Bytes contents)

/-! ## Specification -/

/-- White space: space, tab, line feed, form feed, carriage return. -/
def isWhite (b : UInt8) : Bool := decide (Str.IsSpace b)

/-- The words of a text. -/
noncomputable def words (v : Bytes) : List Bytes := (v.splitOnP isWhite).filter (· ≠ [])

/-- Only the first occurrences. -/
def firsts : List Bytes → List Bytes
  | [] => []
  | x :: xs => x :: (firsts xs).filter (· ≠ x)

/-- The tokens of an attribute value, in the order of their first occurrence. -/
noncomputable def tokens (v : Option DStr) : List Bytes := firsts (words (contents v))

/-- A byte the code treats as it should: ASCII, and no white space other than a space. -/
def plain (b : UInt8) : Prop := b.toNat < 128 ∧ b ≠ 9 ∧ b ≠ 10 ∧ b ≠ 12 ∧ b ≠ 13

/-- A value the code treats as it should (see `plain`), and of a size the 32-bit counters can hold. -/
def Plain (v : Option DStr) : Prop := (∀ b ∈ contents v, plain b) ∧ (contents v).length < 4294967295

/-- A word that can be a token. -/
def Word (w : DStr) : Prop := w.data ≠ [] ∧ ∀ b ∈ w.data, plain b ∧ b ≠ 32

/-- A call: of the list, or of the element directly. -/
inductive Call
  | length | item (i : Nat) | contains (w : DStr) | value
  | add (w : DStr) | remove (w : DStr)
  | set (v : Option DStr) | removeAttr

/-- What the call does. -/
def Call.run : Call → TList → Out TList
  | .length, t => do let (_, t) ← getLength t; .ok t
  | .item i, t => do let (_, t) ← Tokens.item i t; .ok t
  | .contains w, t => do let (_, t) ← Tokens.contains (some w) t; .ok t
  | .value, t => do let (_, t) ← getValue t; .ok t
  | .add w, t => do let (_, t) ← Tokens.add w t; .ok t
  | .remove w, t => do let (_, t) ← Tokens.remove (some w) t; .ok t
  | .set v, t => .ok (setAttribute v t)
  | .removeAttr, t => .ok (removeAttribute t)

/-- The new value of a direct write is not the one the list itself wrote last, unless the list is to be parsed anyway. -/
def Fresh (t : TList) (v : Option DStr) : Prop := t.needsParse = true ∨ t.lastSet = none ∨ contents t.lastSet ≠ contents v

/-- The limits of the theorems. -/
def Call.Fair (t : TList) : Call → Prop
  | .add w => Word w ∧ (contents t.val).length + w.data.length < 4294967290
  | .set v => Plain v ∧ Fresh t v
  | .removeAttr => Fresh t none
  | _ => True

/-- The lists that fair calls lead to. -/
inductive Reach : TList → Prop
  | start (v : Option DStr) : Plain v → Reach (create v)
  | step {t t'} (c : Call) : Reach t → c.Fair t → c.run t = .ok t' → Reach t'

/-! ## Words -/

theorem classLoop_split (v : Bytes) : ∀ cur, Attr.classLoop cur v = (v.splitOnPPrepend Attr.isSpace cur).filter (· ≠ []) := by
  induction v with
  | nil => intro cur; by_cases h : cur = [] <;> simp [Attr.classLoop, List.splitOnPPrepend, h]
  | cons b r ih =>
    intro cur
    unfold Attr.classLoop List.splitOnPPrepend
    by_cases hb : b = 32
    · subst hb
      have : Attr.isSpace 32 = true := rfl
      by_cases h : cur = [] <;> simp [this, h, ih]
    · have : Attr.isSpace b = false := by simp [Attr.isSpace, hb]
      simp [hb, this, ih]

theorem split_congr {p q : UInt8 → Bool} (v : Bytes) (h : ∀ b ∈ v, p b = q b) : ∀ cur, v.splitOnPPrepend p cur = v.splitOnPPrepend q cur := by
  induction v with
  | nil => intro cur; rfl
  | cons b r ih =>
    intro cur
    unfold List.splitOnPPrepend
    rw [h b (by simp), ih (fun x hx => h x (by simp [hx])), ih (fun x hx => h x (by simp [hx]))]

theorem plain_space {b : UInt8} (h : plain b) : isWhite b = Attr.isSpace b := by
  obtain ⟨_, h1, h2, h3, h4⟩ := h
  simp [isWhite, Attr.isSpace, Str.IsSpace, h1, h2, h3, h4]
  rfl

theorem words_eq {v : Bytes} (h : ∀ b ∈ v, plain b) : words v = Attr.classLoop [] v := by
  rw [classLoop_split]
  unfold words List.splitOnP
  rw [split_congr v fun b hb => plain_space (h b hb)]

theorem aux_ascii : ∀ (v : Bytes) (k l : Nat), v.length ≤ k → (∀ b ∈ v, b.toNat < 128) → Str.utf8LengthAux k v l = some (l + v.length) := by
  intro v
  induction v with
  | nil => intro k l _ _; cases k <;> rfl
  | cons b r ih =>
    intro k l hk h
    obtain ⟨k, rfl⟩ : ∃ k', k = k' + 1 := ⟨k - 1, by simp at hk; omega⟩
    have hb : Str.leadLen b = some 1 := by
      unfold Str.leadLen
      simp only
      rw [if_pos (h b (by simp))]
    unfold Str.utf8LengthAux
    rw [hb]
    simp only [Nat.sub_self, List.drop_zero]
    rw [ih k (l + 1) (by simpa using hk) fun x hx => h x (by simp [hx])]
    simp; omega

theorem length_ascii {v : DStr} (h : ∀ b ∈ v.data, b.toNat < 128) (hs : v.data.length < 4294967296) : Str.length (some v) = .ok v.data.length := by
  unfold Str.length Str.utf8Length
  simp only
  rw [aux_ascii _ _ _ (Nat.le_refl _) h]
  simp only [Nat.zero_add]
  rw [u32_small hs]

/-! ## Runs and first occurrences -/

theorem run_props {v : Bytes} : ∀ {cur w : Bytes}, (∀ b ∈ cur, b ≠ 32) → w ∈ Attr.classLoop cur v → w ≠ [] ∧ (∀ b ∈ w, b ≠ 32 ∧ (b ∈ v ∨ b ∈ cur)) := by
  induction v with
  | nil =>
    intro cur w hc hw
    by_cases h : cur = []
    · simp [Attr.classLoop, h] at hw
    · simp [Attr.classLoop, h] at hw
      subst hw
      refine ⟨by simpa using h, fun b hb => ?_⟩
      simp at hb
      exact ⟨hc b hb, Or.inr hb⟩
  | cons b r ih =>
    intro cur w hc hw
    unfold Attr.classLoop at hw
    by_cases hb : b = 32
    · rw [if_pos hb] at hw
      by_cases h : cur = []
      · rw [if_pos h] at hw
        obtain ⟨h1, h2⟩ := ih (by simp) hw
        refine ⟨h1, fun x hx => ⟨(h2 x hx).1, ?_⟩⟩
        have := (h2 x hx).2
        simp at this
        simp [this]
      · rw [if_neg h] at hw
        rcases List.mem_cons.1 hw with rfl | hw
        · refine ⟨by simpa using h, fun x hx => ?_⟩
          simp at hx
          exact ⟨hc x hx, Or.inr hx⟩
        · obtain ⟨h1, h2⟩ := ih (by simp) hw
          refine ⟨h1, fun x hx => ⟨(h2 x hx).1, ?_⟩⟩
          have := (h2 x hx).2
          simp at this
          simp [this]
    · rw [if_neg hb] at hw
      obtain ⟨h1, h2⟩ := ih (by
        intro x hx
        rcases List.mem_cons.1 hx with rfl | hx
        · exact hb
        · exact hc x hx) hw
      refine ⟨h1, fun x hx => ⟨(h2 x hx).1, ?_⟩⟩
      have := (h2 x hx).2
      simp at this
      simp
      tauto

/-- Room needed for the words with a separator each. -/
def room (l : List Bytes) : Nat := (l.map fun w => w.length + 1).sum

theorem run_room {v : Bytes} : ∀ {cur : Bytes}, room (Attr.classLoop cur v) ≤ cur.length + v.length + 1 := by
  induction v with
  | nil => intro cur; by_cases h : cur = [] <;> simp [Attr.classLoop, h, room]
  | cons b r ih =>
    intro cur
    unfold Attr.classLoop
    by_cases hb : b = 32
    · rw [if_pos hb]
      have := ih (cur := [])
      by_cases h : cur = []
      · rw [if_pos h, h]; simp at this ⊢; omega
      · rw [if_neg h]
        simp [room] at this ⊢; omega
    · rw [if_neg hb]
      have := ih (cur := b :: cur)
      simp at this ⊢; omega

theorem firsts_mem {l : List Bytes} {x : Bytes} : x ∈ firsts l ↔ x ∈ l := by
  induction l with
  | nil => simp [firsts]
  | cons y l ih =>
    simp only [firsts, List.mem_cons, List.mem_filter, ih, decide_eq_true_eq]
    by_cases h : x = y <;> simp [h]

theorem firsts_nodup (l : List Bytes) : (firsts l).Nodup := by
  induction l with
  | nil => simp [firsts]
  | cons y l ih =>
    simp only [firsts, List.nodup_cons]
    exact ⟨by simp, ih.filter _⟩

theorem firsts_sub (l : List Bytes) : (firsts l).Sublist l := by
  induction l with
  | nil => simp [firsts]
  | cons y l ih =>
    unfold firsts
    exact List.Sublist.cons_cons _ ((List.filter_sublist).trans ih)

theorem firsts_id {l : List Bytes} (h : l.Nodup) : firsts l = l := by
  induction l with
  | nil => rfl
  | cons y l ih =>
    rw [List.nodup_cons] at h
    unfold firsts
    rw [ih h.2, List.filter_eq_self.2]
    intro x hx
    simp
    rintro rfl
    exact h.1 hx

theorem room_sub {l l' : List Bytes} (h : l.Sublist l') : room l ≤ room l' := by
  induction h with
  | slnil => exact Nat.le_refl _
  | cons a _ ih => simp only [room, List.map_cons, List.sum_cons] at ih ⊢; omega
  | cons_cons a _ ih => simp only [room, List.map_cons, List.sum_cons] at ih ⊢; omega

theorem isEqual_data (a b : DStr) : Str.isEqual (some a) (some b) = decide (a.data = b.data) := by
  rw [Bool.eq_iff_iff, Str.C06_isEqual_iff]
  simp [contents]

theorem any_data (es : List DStr) (r : DStr) : (es.any fun x => Str.isEqual (some r) (some x)) = decide (r.data ∈ es.map DStr.data) := by
  rw [Bool.eq_iff_iff]
  simp only [List.any_eq_true, isEqual_data, decide_eq_true_eq, List.mem_map]
  constructor
  · rintro ⟨x, h1, h2⟩; exact ⟨x, h1, h2.symm⟩
  · rintro ⟨x, h1, h2⟩; exact ⟨x, h1, h2.symm⟩

theorem addEntries_run (alloc : Nat) : ∀ (rs : List Bytes) (es : List DStr), es.length + rs.length ≤ alloc →
    ∃ es', addEntries alloc rs es = .ok es' ∧ es'.length ≤ es.length + rs.length ∧
      es'.map DStr.data = es.map DStr.data ++ (firsts rs).filter (fun r => decide (r ∉ es.map DStr.data)) := by
  intro rs
  induction rs with
  | nil => intro es _; exact ⟨es, rfl, by simp, by simp [firsts]⟩
  | cons r rs ih =>
    intro es hle
    unfold addEntries addEntry
    rw [any_data]
    have hd : (Str.createInterned r).data = r := rfl
    rw [hd]
    by_cases hr : r ∈ es.map DStr.data
    · simp only [hr, decide_true, if_true, Out.bind_ok]
      obtain ⟨es', h1, h2, h3⟩ := ih es (by simp at hle; omega)
      refine ⟨es', h1, by simp; omega, ?_⟩
      rw [h3]
      congr 1
      rw [show firsts (r :: rs) = r :: (firsts rs).filter (· ≠ r) from rfl]
      rw [List.filter_cons_of_neg (by simpa using hr), List.filter_filter]
      apply List.filter_congr
      intro x _
      by_cases hx : x = r
      · subst hx; simp only [hr, not_true_eq_false, decide_false, Bool.false_and, Bool.and_false]
      · simp [hx]
    · simp only [hr, decide_false, Bool.false_eq_true, if_false]
      rw [if_pos (by simp at hle; omega)]
      simp only [Out.bind_ok]
      obtain ⟨es', h1, h2, h3⟩ := ih (es ++ [Str.createInterned r]) (by simp at hle ⊢; omega)
      refine ⟨es', h1, by simp at h2 ⊢; omega, ?_⟩
      rw [h3]
      rw [show firsts (r :: rs) = r :: (firsts rs).filter (· ≠ r) from rfl]
      rw [List.filter_cons_of_pos (by simpa using hr), List.filter_filter]
      simp only [List.map_append, List.map_cons, List.map_nil, hd, List.append_assoc, List.cons_append, List.nil_append]
      congr 2
      apply List.filter_congr
      intro x _
      simp only [List.mem_append, List.mem_singleton]
      by_cases hx : x = r <;> by_cases hx' : x ∈ List.map DStr.data es <;> simp [hx, hx']

theorem addEntries_nil {alloc : Nat} {rs : List Bytes} (h : rs.length ≤ alloc) :
    ∃ es, addEntries alloc rs [] = .ok es ∧ es.length ≤ rs.length ∧ es.map DStr.data = firsts rs := by
  obtain ⟨es, h1, h2, h3⟩ := addEntries_run alloc rs [] (by simpa using h)
  exact ⟨es, h1, by simpa using h2, by simpa using h3⟩

/-! ## Writing and reading back -/

/-- Words with a space between. -/
def join : List Bytes → Bytes
  | [] => []
  | [w] => w
  | w :: ws => w ++ 32 :: join ws

theorem run_append {w : Bytes} (hw : ∀ b ∈ w, b ≠ 32) (r : Bytes) : ∀ cur, Attr.classLoop cur (w ++ r) = Attr.classLoop (w.reverse ++ cur) r := by
  induction w with
  | nil => intro cur; rfl
  | cons b w ih =>
    intro cur
    rw [List.cons_append]
    conv => lhs; unfold Attr.classLoop
    rw [if_neg (hw b (by simp)), ih (fun x hx => hw x (by simp [hx]))]
    simp

theorem run_join {l : List Bytes} (h : ∀ w ∈ l, w ≠ [] ∧ ∀ b ∈ w, b ≠ 32) : Attr.classLoop [] (join l) = l := by
  induction l with
  | nil => rfl
  | cons w l ih =>
    have hw := h w (by simp)
    have ih := ih fun x hx => h x (by simp [hx])
    cases l with
    | nil =>
      have := run_append hw.2 [] []
      rw [List.append_nil] at this
      rw [show join [w] = w from rfl, this]
      simp [Attr.classLoop, hw.1]
    | cons w' l =>
      rw [show join (w :: w' :: l) = w ++ 32 :: join (w' :: l) from rfl, run_append hw.2]
      unfold Attr.classLoop
      rw [if_pos rfl, if_neg (by simpa using hw.1), ih]
      simp

theorem join_mem {l : List Bytes} {b : UInt8} (h : b ∈ join l) : b = 32 ∨ ∃ w ∈ l, b ∈ w := by
  induction l with
  | nil => cases h
  | cons w l ih =>
    cases l with
    | nil => exact Or.inr ⟨w, by simp, h⟩
    | cons w' l =>
      rw [show join (w :: w' :: l) = w ++ 32 :: join (w' :: l) from rfl] at h
      simp only [List.mem_append, List.mem_cons] at h
      rcases h with h | h | h
      · exact Or.inr ⟨w, by simp, h⟩
      · exact Or.inl h
      · rcases ih h with h | ⟨x, h1, h2⟩
        · exact Or.inl h
        · exact Or.inr ⟨x, by simp [List.mem_cons.1 h1], h2⟩

theorem join_length {l : List Bytes} (h : l ≠ []) : (join l).length + 1 = room l := by
  induction l with
  | nil => exact absurd rfl h
  | cons w l ih =>
    cases l with
    | nil => simp [join, room]
    | cons w' l =>
      have := ih (by simp)
      rw [show join (w :: w' :: l) = w ++ 32 :: join (w' :: l) from rfl]
      simp [room] at this ⊢
      omega

theorem countChars_run {es : List DStr} (h : ∀ e ∈ es, (∀ b ∈ e.data, b.toNat < 128) ∧ e.data.length < 4294967296) :
    countChars es = .ok (es.map fun e => e.data.length).sum := by
  induction es with
  | nil => rfl
  | cons e es ih =>
    unfold countChars
    rw [length_ascii (h e (by simp)).1 (h e (by simp)).2, ih fun x hx => h x (by simp [hx])]
    simp

theorem joined_run {es : List DStr} (h : ∀ e ∈ es, (∀ b ∈ e.data, b.toNat < 128) ∧ e.data.length < 4294967296) (hn : es ≠ []) :
    joined es = .ok (join (es.map DStr.data) ++ [32]) := by
  induction es with
  | nil => exact absurd rfl hn
  | cons e es ih =>
    unfold joined
    rw [length_ascii (h e (by simp)).1 (h e (by simp)).2]
    cases es with
    | nil => simp [joined, join]
    | cons e' es =>
      rw [ih (fun x hx => h x (by simp [hx])) (by simp)]
      simp only [Out.bind_ok, List.take_length, List.map_cons]
      rw [show join (e.data :: e'.data :: es.map DStr.data) = e.data ++ 32 :: join (e'.data :: es.map DStr.data) from rfl]
      simp

/-- The value the list writes for these words. -/
def Wrote (l : List Bytes) (v : Option DStr) : Prop := ∃ s, v = some s ∧ s.data = join l

theorem reify_run {t : TList} (h : ∀ w ∈ t.entries.map DStr.data, ∀ b ∈ w, b.toNat < 128)
    (hr : room (t.entries.map DStr.data) < 4294967296) :
    ∃ v, Wrote (t.entries.map DStr.data) v ∧ reify t = .ok ((), { t with val := v, lastSet := v }) := by
  by_cases he : t.entries = []
  · refine ⟨some Str.emptyString, ⟨_, rfl, by rw [he]; rfl⟩, ?_⟩
    unfold reify
    rw [if_pos (by rw [he]; rfl)]
    simp [setAttribute, handle, (Str.C06_isEqual_iff _ _).2]
  · have hsm : ∀ e ∈ t.entries, (∀ b ∈ e.data, b.toNat < 128) ∧ e.data.length < 4294967296 := by
      intro e hm
      refine ⟨h e.data (List.mem_map_of_mem hm), ?_⟩
      have : room [e.data] ≤ room (t.entries.map DStr.data) := room_sub (by
        rw [List.singleton_sublist]; exact List.mem_map_of_mem hm)
      simp only [room, List.map_cons, List.map_nil, List.sum_cons, List.sum_nil] at this hr
      omega
    have hroom : (t.entries.map fun e => e.data.length).sum + t.entries.length = room (t.entries.map DStr.data) := by
      clear hsm hr h he
      induction t.entries with
      | nil => rfl
      | cons e es ih => simp [room] at ih ⊢; omega
    have hj := join_length (l := t.entries.map DStr.data) (by simpa using he)
    unfold reify
    rw [if_neg (by simpa using he), countChars_run hsm]
    simp only [Out.bind_ok]
    rw [if_neg (by omega), joined_run hsm he]
    simp only [Out.bind_ok]
    have ht : List.take ((t.entries.map fun e => e.data.length).sum + t.entries.length - 1) (join (t.entries.map DStr.data) ++ [32]) = join (t.entries.map DStr.data) := by
      rw [hroom, ← hj]
      simp
    rw [ht]
    refine ⟨some (Str.createInterned (join (t.entries.map DStr.data))), ⟨_, rfl, rfl⟩, ?_⟩
    simp [setAttribute, handle, (Str.C06_isEqual_iff _ _).2]

/-! ## The invariant -/

/-- What holds of every list in reach. -/
structure Inv (t : TList) : Prop where
  plain : Plain t.val
  parsed : t.needsParse = false → t.entries.map DStr.data = tokens t.val
  room : t.entries.length ≤ t.alloc

theorem tokens_eq {v : Option DStr} (h : Plain v) : tokens v = firsts (Attr.classLoop [] (contents v)) := by
  unfold tokens
  rw [words_eq h.1]

theorem tokens_props {v : Option DStr} (h : Plain v) {w : Bytes} (hw : w ∈ tokens v) : w ≠ [] ∧ ∀ b ∈ w, Tokens.plain b ∧ b ≠ 32 := by
  rw [tokens_eq h, firsts_mem] at hw
  obtain ⟨h1, h2⟩ := run_props (by simp) hw
  refine ⟨h1, fun b hb => ⟨h.1 b ?_, (h2 b hb).1⟩⟩
  have := (h2 b hb).2
  simpa using this

theorem tokens_room {v : Option DStr} (h : Plain v) : Tokens.room (tokens v) ≤ (contents v).length + 1 := by
  rw [tokens_eq h]
  have h1 := room_sub (firsts_sub (Attr.classLoop [] (contents v)))
  have h2 := run_room (v := contents v) (cur := [])
  simp at h2
  omega

theorem tokens_nodup (v : Option DStr) : (tokens v).Nodup := firsts_nodup _

/-- Writing words and reading them again. -/
theorem tokens_wrote {l : List Bytes} {v : Option DStr} (hv : Wrote l v) (h : ∀ w ∈ l, w ≠ [] ∧ ∀ b ∈ w, Tokens.plain b ∧ b ≠ 32)
    (hn : l.Nodup) (hr : Tokens.room l < 4294967296) : Plain v ∧ tokens v = l := by
  obtain ⟨s, rfl, hs⟩ := hv
  have hc : contents (some s) = join l := hs
  have hp : Plain (some s) := by
    constructor
    · intro b hb
      rw [hc] at hb
      rcases join_mem hb with rfl | ⟨w, h1, h2⟩
      · simp [Tokens.plain]
      · exact ((h w h1).2 b h2).1
    · rw [hc]
      by_cases hl : l = []
      · subst hl; simp [join]
      · have := join_length hl; omega
  refine ⟨hp, ?_⟩
  rw [tokens_eq hp, hc, run_join fun w hw => ⟨(h w hw).1, fun b hb => ((h w hw).2 b hb).2⟩, firsts_id hn]

theorem reparse_run {t : TList} (h : Inv t) : ∃ t', reparse t = .ok ((), t') ∧ Inv t' ∧ t'.val = t.val ∧ t'.needsParse = false ∧ t'.lastSet = t.lastSet := by
  unfold reparse
  by_cases hn : t.needsParse = false
  · rw [if_pos hn]; exact ⟨t, rfl, h, rfl, hn, rfl⟩
  · rw [if_neg hn]
    cases hv : t.val with
    | none =>
      refine ⟨_, rfl, ⟨hv ▸ h.plain, fun _ => ?_, Nat.zero_le _⟩, rfl, rfl, rfl⟩
      simp [tokens, contents, words, firsts, List.splitOnP, List.splitOnPPrepend]
    | some v =>
      have hp : Plain (some v) := hv ▸ h.plain
      have hl := length_ascii (v := v) (fun b hb => (hp.1 b hb).1) (Nat.lt_succ_of_lt hp.2)
      have htk : tokens (some v) = firsts (runs v.data v.data.length) := by
        rw [tokens_eq hp]
        unfold runs
        rw [List.take_length]
        rfl
      simp only [hl, Out.bind_ok]
      by_cases hz : (runs v.data v.data.length).length = 0
      · rw [if_pos hz]
        refine ⟨_, rfl, ⟨hp, fun _ => ?_, Nat.zero_le _⟩, rfl, rfl, rfl⟩
        simp only
        rw [htk, List.length_eq_zero_iff.1 hz]
        rfl
      · rw [if_neg hz]
        obtain ⟨es, h1, h2, h3⟩ := addEntries_nil (rs := runs v.data v.data.length)
          (alloc := if t.alloc < (runs v.data v.data.length).length then (runs v.data v.data.length).length else t.alloc) (by split <;> omega)
        rw [h1]
        simp only [Out.bind_ok]
        refine ⟨_, rfl, ⟨hp, fun _ => ?_, ?_⟩, rfl, rfl, rfl⟩
        · simp only
          rw [htk]
          exact h3
        · simp only
          split <;> omega

theorem length_run {t : TList} (h : Inv t) : ∃ t', getLength t = .ok ((tokens t.val).length, t') ∧ Inv t' ∧ t'.val = t.val := by
  obtain ⟨t', h1, h2, h3, h4, _⟩ := reparse_run h
  refine ⟨t', ?_, h2, h3⟩
  unfold getLength
  rw [h1, ← h3, ← h2.parsed h4]
  simp

theorem item_run {t : TList} (h : Inv t) (i : Nat) :
    ∃ r t', item i t = .ok (r, t') ∧ r.map DStr.data = (tokens t.val)[i]? ∧ Inv t' ∧ t'.val = t.val := by
  obtain ⟨t', h1, h2, h3, h4, _⟩ := reparse_run h
  refine ⟨_, t', by unfold item; rw [h1]; rfl, ?_, h2, h3⟩
  rw [← h3, ← h2.parsed h4]
  by_cases hi : t'.entries.length ≤ i <;> simp [hi]

theorem contains_run {t : TList} (h : Inv t) (w : DStr) :
    ∃ t', contains (some w) t = .ok (decide (w.data ∈ tokens t.val), t') ∧ Inv t' ∧ t'.val = t.val ∧ t'.needsParse = false := by
  obtain ⟨t', h1, h2, h3, h4, _⟩ := reparse_run h
  refine ⟨t', ?_, h2, h3, h4⟩
  unfold contains
  rw [h1, ← h3, ← h2.parsed h4]
  simp only [Out.bind_ok]
  rw [any_data]

/-- Writing the entries. -/
theorem write_run {t : TList} (hl : t.entries.length ≤ t.alloc)
    (h : ∀ w ∈ t.entries.map DStr.data, w ≠ [] ∧ ∀ b ∈ w, plain b ∧ b ≠ 32) (hd : (t.entries.map DStr.data).Nodup)
    (hr : room (t.entries.map DStr.data) < 4294967296) :
    ∃ t', reify t = .ok ((), t') ∧ Inv t' ∧ tokens t'.val = t.entries.map DStr.data := by
  obtain ⟨v, h1, h2⟩ := reify_run (fun w hw b hb => ((h w hw).2 b hb).1.1) hr
  obtain ⟨h3, h4⟩ := tokens_wrote h1 h hd hr
  exact ⟨_, h2, ⟨h3, fun _ => h4.symm, hl⟩, h4⟩

theorem add_run {t : TList} (h : Inv t) {w : DStr} (hw : Word w) (hs : (contents t.val).length + w.data.length < 4294967290) :
    ∃ t', add w t = .ok ((), t') ∧ Inv t' ∧
      tokens t'.val = (if w.data ∈ tokens t.val then tokens t.val else tokens t.val ++ [w.data]) := by
  obtain ⟨t', h1, h2, h3, h4⟩ := contains_run h w
  unfold add
  rw [h1]
  simp only [Out.bind_ok, decide_eq_true_eq]
  by_cases hm : w.data ∈ tokens t.val
  · rw [if_pos hm, if_pos hm]
    exact ⟨t', rfl, h2, by rw [h3]⟩
  · rw [if_neg hm, if_neg hm]
    have hmk : (makeRoom t').entries = t'.entries ∧ (makeRoom t').needsParse = false ∧ t'.entries.length < (makeRoom t').alloc := by
      have := h2.room
      unfold makeRoom
      split
      · exact ⟨rfl, h4, by simp only; omega⟩
      · exact ⟨rfl, h4, by omega⟩
    obtain ⟨m1, m2, m3⟩ := hmk
    rw [m1, if_pos m3]
    have hp := h2.parsed h4
    rw [h3] at hp
    have hpl := h.plain
    obtain ⟨t'', e1, e2, e3⟩ := write_run (t := { makeRoom t' with entries := t'.entries ++ [w] }) (by simp; omega)
      (by
        intro x hx
        simp only [List.map_append, hp, List.mem_append] at hx
        rcases hx with hx | hx
        · exact tokens_props hpl hx
        · simp at hx; subst hx; exact hw)
      (by
        simp only [List.map_append, hp, List.map_cons, List.map_nil]
        rw [List.nodup_append]
        refine ⟨tokens_nodup _, by simp, ?_⟩
        intro a ha b hb hab
        simp at hb
        subst hb
        subst hab
        exact hm ha)
      (by
        have := tokens_room hpl
        simp only [List.map_append, hp, List.map_cons, List.map_nil]
        simp [room] at this ⊢
        omega)
    refine ⟨t'', e1, e2, ?_⟩
    rw [e3]
    simp [hp]

theorem remove_run {t : TList} (h : Inv t) (w : DStr) :
    ∃ t', remove (some w) t = .ok ((), t') ∧ Inv t' ∧ tokens t'.val = (tokens t.val).filter (· ≠ w.data) := by
  obtain ⟨t', h1, h2, h3, h4, _⟩ := reparse_run h
  unfold remove
  rw [h1]
  simp only [Out.bind_ok]
  have hp := h2.parsed h4
  rw [h3] at hp
  have hpl := h.plain
  have he : (t'.entries.eraseP fun x => Str.isEqual (some w) (some x)).map DStr.data = (tokens t.val).filter (· ≠ w.data) := by
    have hnd := tokens_nodup t.val
    rw [← hp] at hnd ⊢
    clear hp h1 h2
    generalize t'.entries = es at hnd ⊢
    induction es with
    | nil => rfl
    | cons e es ih =>
      simp only [List.map_cons, List.nodup_cons] at hnd
      rw [List.eraseP_cons, isEqual_data]
      by_cases hwe : w.data = e.data
      · rw [decide_eq_true hwe]
        simp only [List.map_cons, cond_true]
        rw [List.filter_cons_of_neg (by simp [hwe]), List.filter_eq_self.2]
        intro x hx
        rw [decide_eq_true_eq]
        rintro rfl
        rw [hwe] at hx
        exact hnd.1 hx
      · rw [decide_eq_false hwe]
        simp only [List.map_cons, cond_false]
        rw [List.filter_cons_of_pos (by simpa using Ne.symm hwe), ih hnd.2]
  obtain ⟨t'', e1, e2, e3⟩ := write_run (t := { t' with entries := t'.entries.eraseP fun x => Str.isEqual (some w) (some x) })
    (Nat.le_trans List.length_eraseP_le h2.room)
    (by
      intro x hx
      simp only [he] at hx
      exact tokens_props hpl (List.mem_of_mem_filter hx))
    (by simp only [he]; exact (tokens_nodup _).filter _)
    (by
      simp only [he]
      have h1 := tokens_room hpl
      have h2 := room_sub (List.filter_sublist (p := fun x => decide (x ≠ w.data)) (l := tokens t.val))
      have h3 := hpl.2
      omega)
  exact ⟨t'', e1, e2, by rw [e3]; exact he⟩

theorem handle_run {t : TList} {v : Option DStr} (hf : Fresh t v) : (handle v t).needsParse = true ∧ (handle v t).entries = t.entries ∧ (handle v t).alloc = t.alloc := by
  unfold handle
  split
  · rename_i hc
    simp only [Bool.and_eq_true, Str.C06_isEqual_iff] at hc
    refine ⟨?_, rfl, rfl⟩
    rcases hf with hf | hf | hf
    · exact hf
    · rw [hf] at hc; simp at hc
    · exact absurd hc.2 hf
  · exact ⟨rfl, rfl, rfl⟩

theorem contents_getD (v : Option DStr) : contents (some (v.getD Str.emptyString)) = contents v := by
  cases v <;> rfl

theorem fair_run {t : TList} (h : Inv t) {c : Call} (hc : c.Fair t) : ∃ t', c.run t = .ok t' ∧ Inv t' := by
  cases c with
  | length => obtain ⟨t', h1, h2, _⟩ := length_run h; exact ⟨t', by simp [Call.run, h1], h2⟩
  | item i => obtain ⟨r, t', h1, _, h2, _⟩ := item_run h i; exact ⟨t', by simp [Call.run, h1], h2⟩
  | contains w => obtain ⟨t', h1, h2, _⟩ := contains_run h w; exact ⟨t', by simp [Call.run, h1], h2⟩
  | value => exact ⟨t, rfl, h⟩
  | add w => obtain ⟨t', h1, h2, _⟩ := add_run h hc.1 hc.2; exact ⟨t', by simp [Call.run, h1], h2⟩
  | remove w => obtain ⟨t', h1, h2, _⟩ := remove_run h w; exact ⟨t', by simp [Call.run, h1], h2⟩
  | set v =>
    obtain ⟨h1, h2, h3⟩ := handle_run hc.2
    refine ⟨_, rfl, ?_, ?_, ?_⟩
    · have := hc.1
      unfold Plain at this ⊢
      simpa only [setAttribute, contents_getD] using this
    · intro hn
      have : (handle v t).needsParse = false := hn
      rw [h1] at this
      cases this
    · show (handle v t).entries.length ≤ (handle v t).alloc
      rw [h2, h3]; exact h.room
  | removeAttr =>
    show ∃ t', Out.ok (removeAttribute t) = .ok t' ∧ Inv t'
    unfold removeAttribute
    cases hv : t.val with
    | none => exact ⟨t, rfl, h⟩
    | some v =>
      obtain ⟨h1, h2, h3⟩ := handle_run hc
      refine ⟨_, rfl, ⟨by simp [contents], by simp [contents]⟩, ?_, ?_⟩
      · intro hn
        have : (handle none t).needsParse = false := hn
        rw [h1] at this
        cases this
      · show (handle none t).entries.length ≤ (handle none t).alloc
        rw [h2, h3]; exact h.room

theorem Reach.inv {t : TList} (h : Reach t) : Inv t := by
  induction h with
  | start v hv => exact ⟨hv, fun h => by simp [create] at h, Nat.le_refl _⟩
  | step c _ hc hr ih =>
    obtain ⟨t', h1, h2⟩ := fair_run ih hc
    rw [h1] at hr
    injection hr with hr
    exact hr ▸ h2

/-! ## C49 -/

/-- C49: after any interleaving of list operations and direct changes of the attribute, what the list says is what the current value of the attribute says:
its length, its items in order, membership, and the value itself.  Reading changes nothing.
Partial: values and tokens are ASCII and the only white space in them is the space (`C49_white_violated`, `C49_utf8_violated`), added words are
words (`C49_word_violated`), a direct write is not of the text the list itself wrote last (`C49_stale_violated`), and the value
stays below 2^32 bytes. -/
theorem C49_reads_partial {t : TList} (h : Reach t) :
    (∃ t', getLength t = .ok ((tokens t.val).length, t') ∧ t'.val = t.val) ∧
    (∀ i, ∃ r t', item i t = .ok (r, t') ∧ r.map DStr.data = (tokens t.val)[i]? ∧ t'.val = t.val) ∧
    (∀ w, ∃ t', contains (some w) t = .ok (decide (w.data ∈ tokens t.val), t') ∧ t'.val = t.val) ∧
    getValue t = .ok (t.val, t) := by
  refine ⟨?_, fun i => ?_, fun w => ?_, rfl⟩
  · obtain ⟨t', h1, _, h2⟩ := length_run h.inv; exact ⟨t', h1, h2⟩
  · obtain ⟨r, t', h1, h2, _, h3⟩ := item_run h.inv i; exact ⟨r, t', h1, h2, h3⟩
  · obtain ⟨t', h1, _, h2, _⟩ := contains_run h.inv w; exact ⟨t', h1, h2⟩

/-- C49: adding a word makes it the last token unless it is one already; then the list contains it; every other word is a token exactly if it was one.
Partial as above. -/
theorem C49_add_partial {t : TList} (h : Reach t) {w : DStr} (hw : Word w) (hs : (contents t.val).length + w.data.length < 4294967290) :
    ∃ t', add w t = .ok ((), t') ∧
      tokens t'.val = (if w.data ∈ tokens t.val then tokens t.val else tokens t.val ++ [w.data]) ∧
      (∃ t'', contains (some w) t' = .ok (true, t'')) ∧
      ∀ x : DStr, x.data ≠ w.data → ∃ t'', contains (some x) t' = .ok (decide (x.data ∈ tokens t.val), t'') := by
  obtain ⟨t', h1, h2, h3⟩ := add_run h.inv hw hs
  have hm : w.data ∈ tokens t'.val := by rw [h3]; split <;> simp_all
  refine ⟨t', h1, h3, ?_, fun x hx => ?_⟩
  · obtain ⟨t'', h4, _⟩ := contains_run h2 w
    rw [decide_eq_true hm] at h4
    exact ⟨t'', h4⟩
  · obtain ⟨t'', h4, _⟩ := contains_run h2 x
    refine ⟨t'', ?_⟩
    rw [h4, h3]
    split <;> simp [hx]

/-- C49: removing a word takes it out and keeps the other tokens in their order; then the list does not contain it.  Partial as above. -/
theorem C49_remove_partial {t : TList} (h : Reach t) (w : DStr) :
    ∃ t', remove (some w) t = .ok ((), t') ∧ tokens t'.val = (tokens t.val).filter (· ≠ w.data) ∧
      (∃ t'', contains (some w) t' = .ok (false, t'')) ∧
      ∀ x : DStr, x.data ≠ w.data → ∃ t'', contains (some x) t' = .ok (decide (x.data ∈ tokens t.val), t'') := by
  obtain ⟨t', h1, h2, h3⟩ := remove_run h.inv w
  refine ⟨t', h1, h3, ?_, fun x hx => ?_⟩
  · obtain ⟨t'', h4, _⟩ := contains_run h2 w
    rw [h3] at h4
    simp at h4
    exact ⟨t'', h4⟩
  · obtain ⟨t'', h4, _⟩ := contains_run h2 x
    refine ⟨t'', ?_⟩
    rw [h4, h3]
    simp [hx]

/-- C49, C46: no fair call reads or writes outside the array or the buffer, or fails. -/
theorem C49_total_partial {t : TList} (h : Reach t) {c : Call} (hc : c.Fair t) : ∃ t', c.run t = .ok t' :=
  let ⟨t', h1, _⟩ := fair_run h.inv hc
  ⟨t', h1⟩

/-! ## A case, and where the code deviates -/

/-- A string. -/
def str (s : String) : DStr := Str.createInterned (s.toList.map fun c => UInt8.ofNat c.toNat)

/-- The calls one after the other. -/
def runAll : List Call → TList → Out TList
  | [], t => .ok t
  | c :: cs, t => do let t ← c.run t; runAll cs t

/-- `Call.Fair`, as a program. -/
def fairB (t : TList) : Call → Bool
  | .add w => decide (w.data ≠ []) && w.data.all (fun b => decide (b.toNat < 128 ∧ b ≠ 9 ∧ b ≠ 10 ∧ b ≠ 12 ∧ b ≠ 13 ∧ b ≠ 32)) &&
      decide ((contents t.val).length + w.data.length < 4294967290)
  | .set v => (contents v).all (fun b => decide (b.toNat < 128 ∧ b ≠ 9 ∧ b ≠ 10 ∧ b ≠ 12 ∧ b ≠ 13)) && decide ((contents v).length < 4294967295) &&
      (t.needsParse || t.lastSet.isNone || decide (contents t.lastSet ≠ contents v))
  | .removeAttr => t.needsParse || t.lastSet.isNone || decide (contents t.lastSet ≠ contents none)
  | _ => true

theorem fairB_fair {t : TList} {c : Call} (h : fairB t c = true) : c.Fair t := by
  cases c <;> simp only [fairB, Call.Fair, Word, Plain, Fresh, plain, Bool.and_eq_true, Bool.or_eq_true, decide_eq_true_eq, List.all_eq_true,
    Option.isNone_iff_eq_none] at h ⊢
  · refine ⟨⟨h.1.1, fun b hb => ?_⟩, h.2⟩
    have := h.1.2 b hb
    tauto
  · refine ⟨h.1, ?_⟩
    have := h.2
    tauto
  · tauto

/-- Fair calls only. -/
def runFair : List Call → TList → Option TList
  | [], t => some t
  | c :: cs, t => if fairB t c then (match c.run t with | .ok t' => runFair cs t' | _ => none) else none

theorem runFair_reach {cs : List Call} : ∀ {t t' : TList}, Reach t → runFair cs t = some t' → Reach t' := by
  induction cs with
  | nil => intro t t' h hr; injection hr with hr; exact hr ▸ h
  | cons c cs ih =>
    intro t t' h hr
    unfold runFair at hr
    split at hr
    · rename_i hf
      cases hc : c.run t with
      | ok t1 => rw [hc] at hr; exact ih (.step c h (fairB_fair hf) hc) hr
      | exc e => rw [hc] at hr; cases hr
      | fault f => rw [hc] at hr; cases hr
    · cases hr

/-- A list in reach: `class=" b  a b"`, then `add("c")`, the attribute set to `x c`, `remove("c")`, `add("a")`. -/
theorem sample_reach : ∃ t, Reach t ∧ contents t.val = (str "x a").data ∧ Word (str "y") := by
  have h : (runFair [.add (str "c"), .length, .set (some (str "x c")), .remove (str "c"), .add (str "a")] (create (some (str " b  a b")))).map
      (fun t => contents t.val) = some (str "x a").data := by decide +kernel
  obtain ⟨t, h1, h2⟩ := Option.map_eq_some_iff.1 h
  refine ⟨t, runFair_reach (.start _ ?_) h1, h2, ?_⟩
  · unfold Plain plain; decide +kernel
  · unfold Word plain; decide +kernel

/-- C49 fails: the list does not notice a direct write of the text it wrote last itself.  `add("a")`, the attribute set to `b`, `length`, the attribute set to `a`: the list
still says `b` although the value is `a`. -/
theorem C49_stale_violated : ∃ t t' t'', runAll [.add (str "a"), .set (some (str "b")), .length, .set (some (str "a"))] (create none) = .ok t ∧
    tokens t.val = [(str "a").data] ∧
    contains (some (str "b")) t = .ok (true, t') ∧ contains (some (str "a")) t = .ok (false, t'') := by
  refine ⟨⟨some (str "a"), some (str "a"), false, [str "b"], 4⟩, ⟨some (str "a"), some (str "a"), false, [str "b"], 4⟩, ⟨some (str "a"), some (str "a"), false, [str "b"], 4⟩, ?_, ?_, ?_, ?_⟩ <;> decide +kernel

/-- C49 fails: nor the removal of the attribute when the list itself has written the empty text last. -/
theorem C49_removed_violated : ∃ t t', runAll [.remove (str "a"), .set (some (str "b")), .length, .removeAttr] (create none) = .ok t ∧
    t.val = none ∧ contains (some (str "b")) t = .ok (true, t') := by
  refine ⟨⟨none, some Str.emptyString, false, [str "b"], 1⟩, ⟨none, some Str.emptyString, false, [str "b"], 1⟩, ?_, ?_, ?_⟩ <;> decide +kernel

/-- C49 fails: white space other than a space does not separate tokens. -/
theorem C49_white_violated : ∃ t', tokens (some (str "a\tb")) = [(str "a").data, (str "b").data] ∧
    contains (some (str "a")) (create (some (str "a\tb"))) = .ok (false, t') := by
  refine ⟨⟨some (str "a\tb"), none, false, [str "a\tb"], 1⟩, ?_, ?_⟩ <;> decide +kernel

/-- The text `é x`, in UTF-8. -/
def eAcuteX : DStr := Str.createInterned [0xC3, 0xA9, 32, 120]

/-- C49 fails: the length of the value is taken in characters and used as a number of bytes, so that the end of a value with non-ASCII
characters is cut off. -/
theorem C49_utf8_violated : ∃ t', tokens (some eAcuteX) = [[0xC3, 0xA9], [120]] ∧
    contains (some (str "x")) (create (some eAcuteX)) = .ok (false, t') := by
  refine ⟨⟨some eAcuteX, none, false, [Str.createInterned [0xC3, 0xA9]], 1⟩, ?_, ?_⟩ <;> decide +kernel

/-- The text `éé`, in UTF-8. -/
def eAcutes : DStr := Str.createInterned [0xC3, 0xA9, 0xC3, 0xA9]

/-- C49 fails: for the same reason adding `éé` and then `a` writes `é a` to the attribute, which has a token fewer. -/
theorem C49_utf8_written_violated : ∃ t, runAll [.add eAcutes, .add (str "a")] (create none) = .ok t ∧
    contents t.val = [0xC3, 0xA9, 32, 97] := by
  refine ⟨⟨some (Str.createInterned [0xC3, 0xA9, 32, 97]), some (Str.createInterned [0xC3, 0xA9, 32, 97]), false, [eAcutes, str "a"], 4⟩, ?_, ?_⟩ <;> decide +kernel

/-- C49 fails: what is added is not checked to be a word: after `add("a b")` the list has one entry and the value two tokens. -/
theorem C49_word_violated : ∃ t t', runAll [.add (str "a b")] (create none) = .ok t ∧ tokens t.val = [(str "a").data, (str "b").data] ∧
    getLength t = .ok (1, t') := by
  refine ⟨⟨some (str "a b"), some (str "a b"), false, [str "a b"], 4⟩, ⟨some (str "a b"), some (str "a b"), false, [str "a b"], 4⟩, ?_, ?_, ?_⟩ <;> decide +kernel

end Dom.Tokens
