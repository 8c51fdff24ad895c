import Verif.Events.Modifiers
/-!
# Claim C73: the modifier keys of events
-/
set_option linter.unusedSimpArgs false
attribute [-simp] String.length_utf8EncodeChar
namespace Dom.Events.Mods

open Dom.Str (Bytes)

/-! ## Specification -/

/-- The modifier keys of DOM Level 3 Events. -/
inductive Modifier where
  | altGraph | alt | capsLock | control | metaKey | numLock | scroll | shift
  deriving DecidableEq, Repr

/-- Their names. -/
def Modifier.name : Modifier → String
  | .altGraph => "AltGraph"
  | .alt => "Alt"
  | .capsLock => "CapsLock"
  | .control => "Control"
  | .metaKey => "Meta"
  | .numLock => "NumLock"
  | .scroll => "Scroll"
  | .shift => "Shift"

/-- The bytes of the name. -/
def Modifier.bytes (k : Modifier) : Bytes := k.name.toUTF8.toList

/-- The words of a list: what is between the spaces, up to the first zero byte, if there is one. -/
def words (b : Bytes) : List Bytes := (b.takeWhile (· ≠ 0)).splitOn 32

/-- What the event says about a modifier key when it is asked for it by name. -/
def Says (st : Nat) (k : Modifier) (b : Bool) : Prop := getModifierState st (some k.bytes) = some b

/-- The keys of an initialisation, as modifiers. -/
def Keys.has (ks : Keys) : Modifier → Bool
  | .control => ks.ctrl
  | .shift => ks.shift
  | .alt => ks.alt
  | .metaKey => ks.metaKey
  | _ => false

/-! ## Lemmas -/

/-- All modifiers, in the order of the tests. -/
def all : List Modifier := [.altGraph, .alt, .capsLock, .control, .metaKey, .numLock, .scroll, .shift]

/-- The position of the bit. -/
def Modifier.pos : Modifier → Nat
  | .control => 0
  | .metaKey => 1
  | .shift => 2
  | .alt => 3
  | .altGraph => 4
  | .capsLock => 5
  | .numLock => 6
  | .scroll => 7

theorem isSet_testBit (st i : Nat) : isSet st (2 ^ i) = st.testBit i := by
  unfold isSet
  cases h : st.testBit i with
  | true =>
    have : (st &&& 2 ^ i).testBit i = true := by simp [Nat.testBit_and, h, Nat.testBit_two_pow_self]
    have hne : st &&& 2 ^ i ≠ 0 := fun e => by rw [e] at this; simp at this
    simpa using hne
  | false =>
    have : st &&& 2 ^ i = 0 := by
      apply Nat.eq_of_testBit_eq
      intro j
      rw [Nat.testBit_and, Nat.testBit_two_pow, Nat.zero_testBit]
      by_cases hj : i = j
      · subst hj; simp [h]
      · simp [hj]
    simp [this]

theorem strncmpEq_take : ∀ (b a : Bytes), (∀ x ∈ b, x ≠ 0) → strncmpEq a b b.length = decide (a.take b.length = b) := by
  intro b
  induction b with
  | nil => intro a _; simp [strncmpEq]
  | cons x xs ih =>
    intro a h
    have hx : x ≠ 0 := h x (by simp)
    cases a with
    | nil =>
      simp only [List.length_cons, strncmpEq, at0, List.headD_nil, List.headD_cons, List.take_nil]
      rw [if_pos (Ne.symm hx)]
      simp
    | cons y ys =>
      have e : strncmpEq (y :: ys) (x :: xs) (x :: xs).length = if y ≠ x then false else if y = 0 then true else strncmpEq ys xs xs.length := rfl
      rw [e]
      by_cases hy : y = x
      · subst hy
        rw [if_neg (not_not_intro rfl), if_neg hx, ih ys fun z hz => h z (by simp [hz])]
        simp
      · rw [if_pos hy]
        simp [hy]

theorem name_nonzero (k : Modifier) : ∀ x ∈ k.bytes, x ≠ 0 := by cases k <;> decide +kernel

theorem isWord_eq (k : Modifier) (m : Bytes) (len : Nat) (h : len ≤ m.length) : isWord m len k.name = decide (m.take len = k.bytes) := by
  unfold isWord
  have e : (Names.lit k.name).data = k.bytes := by cases k <;> decide +kernel
  rw [e]
  by_cases hl : len = k.bytes.length
  · subst hl
    rw [strncmpEq_take _ _ (name_nonzero k)]
    simp
  · have : m.take len ≠ k.bytes := fun e => hl (by rw [← e, List.length_take]; omega)
    simp [hl, this]

theorem bitOf_eq (m : Bytes) (len : Nat) (h : len ≤ m.length) : bitOf m len = (all.find? fun k => decide (m.take len = k.bytes)).map fun k => 2 ^ k.pos := by
  unfold bitOf
  rw [show isWord m len "AltGraph" = _ from isWord_eq .altGraph m len h, show isWord m len "Alt" = _ from isWord_eq .alt m len h,
    show isWord m len "CapsLock" = _ from isWord_eq .capsLock m len h, show isWord m len "Control" = _ from isWord_eq .control m len h,
    show isWord m len "Meta" = _ from isWord_eq .metaKey m len h, show isWord m len "NumLock" = _ from isWord_eq .numLock m len h,
    show isWord m len "Scroll" = _ from isWord_eq .scroll m len h, show isWord m len "Shift" = _ from isWord_eq .shift m len h]
  simp only [all, List.find?]
  repeat' split
  all_goals simp_all [Modifier.pos, modAltGraph, modAlt, modCapsLock, modCtrl, modMeta, modNumLock, modScroll, modShift]

theorem bytes_inj {k l : Modifier} (h : k.bytes = l.bytes) : k = l := by
  revert h; cases k <;> cases l <;> decide +kernel

theorem find_bytes (k : Modifier) : (all.find? fun l => decide (k.bytes = l.bytes)) = some k := by cases k <;> decide +kernel

theorem find_some {b : Bytes} {k : Modifier} (h : (all.find? fun l => decide (b = l.bytes)) = some k) : b = k.bytes := by
  simpa using List.find?_some h

theorem find_none {b : Bytes} (h : (all.find? fun l => decide (b = l.bytes)) = none) (k : Modifier) : b ≠ k.bytes := by
  intro e
  subst e
  rw [find_bytes] at h
  cases h

theorem says_iff {st : Nat} {k : Modifier} {b : Bool} : Says st k b ↔ st.testBit k.pos = b := by
  unfold Says getModifierState
  dsimp only
  rw [bitOf_eq _ _ (Nat.le_refl _), List.take_length, find_bytes]
  simp only [Option.map_some, Option.some.injEq, isSet_testBit]

/-- The bit of a word. -/
def addTok (st : Nat) (w : Bytes) : Nat :=
  match all.find? fun k => decide (w = k.bytes) with
  | none => st
  | some k => st ||| 2 ^ k.pos

theorem addWord_eq (m : Bytes) (len st : Nat) (h : len ≤ m.length) : addWord m len st = addTok st (m.take len) := by
  unfold addWord addTok
  rw [bitOf_eq m len h]
  cases all.find? fun k => decide (m.take len = k.bytes) <;> rfl

theorem addTok_testBit (st : Nat) (w : Bytes) (k : Modifier) : (addTok st w).testBit k.pos = (st.testBit k.pos || decide (w = k.bytes)) := by
  unfold addTok
  cases h : all.find? fun k => decide (w = k.bytes) with
  | none =>
    have := find_none h k
    simp [this]
  | some l =>
    have e := find_some h
    subst e
    simp only [Nat.testBit_or, Nat.testBit_two_pow]
    congr 1
    have hp : (l.pos = k.pos) = (l.bytes = k.bytes) := by
      cases l <;> cases k <;> decide +kernel
    simp only [hp]

theorem fold_testBit (ws : List Bytes) (st : Nat) (k : Modifier) :
    (ws.foldl addTok st).testBit k.pos = (st.testBit k.pos || decide (k.bytes ∈ ws)) := by
  induction ws generalizing st with
  | nil => simp
  | cons w ws ih =>
    rw [List.foldl_cons, ih, addTok_testBit]
    simp only [List.mem_cons, Bool.or_assoc]
    congr 1
    rw [Bool.decide_or]
    congr 1
    exact decide_eq_decide.2 eq_comm

theorem addTok_nil (st : Nat) : addTok st [] = st := by
  unfold addTok
  rw [show (all.find? fun k => decide (([] : Bytes) = k.bytes)) = none by decide +kernel]

theorem words_nil (st : Nat) : [([] : Bytes)].foldl addTok st = st := by rw [List.foldl_cons, addTok_nil]; rfl

theorem words_skip : ∀ (b : Bytes) (st : Nat), (words b).foldl addTok st = (words (skipSpaces b)).foldl addTok st := by
  intro b
  induction b with
  | nil => intro st; rfl
  | cons c cs ih =>
    intro st
    unfold skipSpaces
    by_cases hc : c = 32
    · subst hc
      rw [if_pos rfl, ← ih]
      unfold words
      rw [List.takeWhile_cons_of_pos (by decide)]
      have := List.splitOn_append_cons_self_of_not_mem (xs := []) (a := (32 : UInt8)) (by simp) (cs.takeWhile (· ≠ 0))
      rw [List.nil_append] at this
      rw [this, List.foldl_cons, addTok_nil]
    · rw [if_neg hc]

theorem skip_head {b cs : Bytes} {c : UInt8} (h : skipSpaces b = c :: cs) : c ≠ 32 := by
  induction b with
  | nil => cases h
  | cons x xs ih =>
    unfold skipSpaces at h
    split at h
    · exact ih h
    · cases h; assumption

theorem skip_length (b : Bytes) : (skipSpaces b).length ≤ b.length := by
  induction b with
  | nil => exact Nat.le_refl _
  | cons x xs ih =>
    unfold skipSpaces
    split
    · simp only [List.length_cons]; omega
    · exact Nat.le_refl _

/-- The bytes of a word that is read. -/
def Plain (tok : Bytes) : Prop := ∀ c ∈ tok, c ≠ 32 ∧ c ≠ 0

theorem words_plain {tok : Bytes} (h : Plain tok) (d : Bytes) : words (tok ++ d) = (tok ++ d.takeWhile (· ≠ 0)).splitOn 32 := by
  unfold words
  rw [List.takeWhile_append_of_pos (by intro a ha; simpa using (h a ha).2)]

theorem plain_notmem {tok : Bytes} (h : Plain tok) : (32 : UInt8) ∉ tok := fun hm => (h 32 hm).1 rfl

theorem parseLoop_run : ∀ (f : Nat) (tok data : Bytes) (st : Nat), Plain tok → data.length < f →
    parseLoop f (tok ++ data) tok.length data st = .ok ((words (tok ++ data)).foldl addTok st) := by
  intro f
  induction f with
  | zero => intro tok data st _ h; omega
  | succ f ih =>
    intro tok data st hp hf
    unfold parseLoop
    have hw : addWord (tok ++ data) tok.length st = addTok st tok := by rw [addWord_eq _ _ _ (by simp), List.take_left]
    have key : at0 data = 32 ∨ at0 data = 0 → (words (tok ++ data)).foldl addTok st = (words (skipSpaces data)).foldl addTok (addTok st tok) := by
      intro h
      rw [words_plain hp]
      cases data with
      | nil =>
        rw [List.takeWhile_nil, List.append_nil, List.splitOn_eq_singleton (plain_notmem hp)]
        exact (words_nil _).symm
      | cons c cs =>
        rcases h with h | h
        · have hc : c = 32 := h
          subst hc
          rw [List.takeWhile_cons_of_pos (by decide), List.splitOn_append_cons_self_of_not_mem (plain_notmem hp), List.foldl_cons]
          show (words cs).foldl addTok _ = _
          rw [words_skip]
          rfl
        · have hc : c = 0 := h
          subst hc
          rw [List.takeWhile_cons_of_neg (by decide), List.append_nil, List.splitOn_eq_singleton (plain_notmem hp)]
          show addTok st tok = _
          have e : skipSpaces (0 :: cs) = 0 :: cs := rfl
          rw [e]
          unfold words
          rw [List.takeWhile_cons_of_neg (by decide), List.splitOn_nil]
          exact (words_nil _).symm
    by_cases hs : at0 data = 32 ∨ at0 data = 0
    · rw [if_pos hs, key hs]
      dsimp only
      rw [hw]
      by_cases h0 : at0 (skipSpaces data) = 0
      · rw [if_pos h0]
        have e : words (skipSpaces data) = [[]] := by
          unfold words
          cases hd : skipSpaces data with
          | nil => rfl
          | cons c cs =>
            rw [hd] at h0
            have : c = 0 := h0
            subst this
            rw [List.takeWhile_cons_of_neg (by decide), List.splitOn_nil]
        rw [e, words_nil]
      · rw [if_neg h0]
        cases hd : skipSpaces data with
        | nil => rw [hd] at h0; exact absurd rfl h0
        | cons c cs =>
          have h1 := skip_head hd
          have h2 : c ≠ 0 := by rw [hd] at h0; exact h0
          have hl := skip_length data
          rw [hd, List.length_cons] at hl
          simp only [advance, Out.bind_ok]
          exact ih [c] cs _ (by intro x hx; simp only [List.mem_singleton] at hx; subst hx; exact ⟨h1, h2⟩) (by omega)
    · rw [if_neg hs]
      cases data with
      | nil => exact absurd (Or.inr rfl) hs
      | cons c cs =>
        simp only [advance, Out.bind_ok]
        have h1 : c ≠ 32 := fun e => hs (Or.inl e)
        have h2 : c ≠ 0 := fun e => hs (Or.inr e)
        have := ih (tok ++ [c]) cs st (by
          intro x hx
          rcases List.mem_append.1 hx with hx | hx
          · exact hp x hx
          · simp only [List.mem_singleton] at hx; subst hx; exact ⟨h1, h2⟩) (by simp only [List.length_cons] at hf; omega)
        simpa using this

theorem or_testBit {st : Nat} {c : Bool} {i j : Nat} : (if c = true then st ||| 2 ^ i else st).testBit j = (st.testBit j || (c && decide (i = j))) := by
  cases c <;> simp [Nat.testBit_or, Nat.testBit_two_pow]

theorem keyboard_testBit (st : Nat) (ks : Keys) (k : Modifier) : (keyboardInit st ks).testBit k.pos = (st.testBit k.pos || ks.has k) := by
  unfold keyboardInit
  dsimp only
  rw [show modCtrl = 2 ^ 0 from rfl, show modShift = 2 ^ 2 from rfl, show modAlt = 2 ^ 3 from rfl, show modMeta = 2 ^ 1 from rfl]
  simp only [or_testBit]
  cases k <;> simp [Modifier.pos, Keys.has]

theorem mouse_testBit (st : Nat) (ks : Keys) (k : Modifier) : (mouseInit st ks).testBit k.pos = ks.has k := by
  unfold mouseInit
  dsimp only
  rw [show modCtrl = 2 ^ 0 from rfl, show modShift = 2 ^ 2 from rfl, show modAlt = 2 ^ 3 from rfl, show modMeta = 2 ^ 1 from rfl]
  simp only [or_testBit]
  cases k <;> simp [Modifier.pos, Keys.has]

/-! ## C73 -/

/-- C73: parsing a list of modifiers never reads outside of it, ends, and gives the state in which exactly the modifiers named in the list are down: those whose
names are among its words, whatever other words it contains.  No list is the empty list. -/
theorem C73_parse (b : Bytes) : (∃ st, parse (some b) = .ok st ∧ ∀ k, Says st k (decide (k.bytes ∈ words b))) ∧ ∃ st, parse none = .ok st ∧ ∀ k, Says st k false := by
  refine ⟨⟨_, parseLoop_run (b.length + 1) [] b 0 (by intro x hx; cases hx) (by omega), fun k => ?_⟩, 0, rfl, fun k => ?_⟩
  · rw [says_iff, fold_testBit]
    simp
  · rw [says_iff]
    simp

/-- C73: a mouse event has the modifier keys of its last initialisation; the four questions for a key agree with the answer by name. -/
theorem C73_mouse (st : Nat) (ks : Keys) : (∀ k, Says (mouseInit st ks) k (ks.has k)) ∧ getCtrlKey (mouseInit st ks) = ks.ctrl ∧
    getShiftKey (mouseInit st ks) = ks.shift ∧ getAltKey (mouseInit st ks) = ks.alt ∧ getMetaKey (mouseInit st ks) = ks.metaKey := by
  refine ⟨fun k => says_iff.2 (mouse_testBit st ks k), ?_, ?_, ?_, ?_⟩
  · exact (isSet_testBit _ 0).trans (mouse_testBit st ks .control)
  · exact (isSet_testBit _ 2).trans (mouse_testBit st ks .shift)
  · exact (isSet_testBit _ 3).trans (mouse_testBit st ks .alt)
  · exact (isSet_testBit _ 1).trans (mouse_testBit st ks .metaKey)

/-- C73 for keyboard events, as far as it holds: the event has the modifier keys of all its initialisations together; with one initialisation they are those of
that one.  Missing: a later initialisation does not release a key (`C73_keyboard_violated`). -/
theorem C73_keyboard_partial (inits : List Keys) : ∀ k, Says (inits.foldl keyboardInit created) k (inits.any fun ks => ks.has k) := by
  suffices h : ∀ (inits : List Keys) (st : Nat) (k : Modifier),
      (inits.foldl keyboardInit st).testBit k.pos = (st.testBit k.pos || inits.any fun ks => ks.has k) by
    intro k
    rw [says_iff, h]
    simp [created]
  intro inits
  induction inits with
  | nil => intro st k; simp
  | cons ks inits ih => intro st k; rw [List.foldl_cons, ih, keyboard_testBit, List.any_cons, Bool.or_assoc]

/-- The four questions for a key agree with the answers by name, in every state. -/
theorem C73_keys (st : Nat) : Says st .control (getCtrlKey st) ∧ Says st .shift (getShiftKey st) ∧ Says st .alt (getAltKey st) ∧ Says st .metaKey (getMetaKey st) :=
  ⟨says_iff.2 (isSet_testBit st 0).symm, says_iff.2 (isSet_testBit st 2).symm, says_iff.2 (isSet_testBit st 3).symm, says_iff.2 (isSet_testBit st 1).symm⟩

/-- The hypotheses of the theorems above, which have none, cover lists like this one: two modifiers with several spaces and an unknown word. -/
example : words "  Alt Hyper  Shift".toUTF8.toList = ["".toUTF8.toList, [], Modifier.alt.bytes, "Hyper".toUTF8.toList, [], Modifier.shift.bytes] := by decide +kernel

/-! ## Where the code deviates -/

/-- C73 is violated by wheel events: whatever modifiers the list names, after the initialisation none is down. -/
theorem C73_wheel_violated (st : Nat) (list : Option Bytes) : ∃ st', wheelInit st list = .ok st' ∧ ∀ k, Says st' k false := by
  have : ∃ p, parse list = .ok p := by
    cases list with
    | none => exact ⟨0, rfl⟩
    | some b => obtain ⟨⟨p, h, _⟩, _⟩ := C73_parse b; exact ⟨p, h⟩
  obtain ⟨p, hp⟩ := this
  refine ⟨mouseInit p ⟨false, false, false, false⟩, ?_, fun k => ?_⟩
  · unfold wheelInit; rw [hp, Out.bind_ok]
  · have := (C73_mouse p ⟨false, false, false, false⟩).1 k
    cases k <;> exact this

/-- A list that names a modifier, as the theorem above needs to be a violation. -/
example : Modifier.control.bytes ∈ words "Alt Control".toUTF8.toList := by decide +kernel

/-- C73 is violated by a keyboard event that is initialised again: a key that was down stays down. -/
theorem C73_keyboard_violated (k : Modifier) (a b : Keys) (ha : a.has k = true) (hb : b.has k = false) : Says (keyboardInit (keyboardInit created a) b) k true := by
  have := C73_keyboard_partial [a, b] k
  simpa [ha, hb] using this

/-- Such initialisations. -/
example : (Keys.mk true false false false).has .control = true ∧ (Keys.mk false true false false).has .control = false := by decide

/-- C73 is violated by a name that is not that of a modifier: nothing is written to the variable of the caller, and no exception is returned. -/
theorem C73_unknown_violated (st : Nat) (b : Bytes) (h : ∀ k : Modifier, b ≠ k.bytes) : getModifierState st (some b) = none := by
  unfold getModifierState
  dsimp only
  rw [bitOf_eq _ _ (Nat.le_refl _), List.take_length]
  cases hf : all.find? fun k => decide (b = k.bytes) with
  | none => rfl
  | some k => exact absurd (find_some hf) (h k)

/-- Such a name. -/
example : ∀ k : Modifier, "Hyper".toUTF8.toList ≠ k.bytes := by intro k; cases k <;> decide +kernel

end Dom.Events.Mods
