import Verif.Names.Lemmas
import Verif.Str.PropsEq
/-!
# Properties of name validation (C13, C14, C15, C16)
-/
namespace Dom.Names
set_option linter.unusedSimpArgs false
attribute [-simp] String.length_utf8EncodeChar

open Dom.Str (DStr Bytes Holds utf8 toUcs4 Decodable)

/-! ## Specification -/

/-- XML 1.0 (fifth edition), production [4] NameStartChar. -/
def nameStartRanges : List (Nat × Nat) :=
  [(0x3A, 0x3A), (0x41, 0x5A), (0x5F, 0x5F), (0x61, 0x7A), (0xC0, 0xD6), (0xD8, 0xF6), (0xF8, 0x2FF), (0x370, 0x37D),
   (0x37F, 0x1FFF), (0x200C, 0x200D), (0x2070, 0x218F), (0x2C00, 0x2FEF), (0x3001, 0xD7FF), (0xF900, 0xFDCF),
   (0xFDF0, 0xFFFD), (0x10000, 0xEFFFF)]

/-- The further characters of production [4a] NameChar. -/
def nameFurtherRanges : List (Nat × Nat) :=
  [(0x2D, 0x2D), (0x2E, 0x2E), (0x30, 0x39), (0xB7, 0xB7), (0x300, 0x36F), (0x203F, 0x2040)]

def NameStart (c : Nat) : Prop := InTable c nameStartRanges
def NameRest (c : Nat) : Prop := InTable c nameStartRanges ∨ InTable c nameFurtherRanges

instance (c : Nat) : Decidable (NameStart c) := by unfold NameStart; infer_instance
instance (c : Nat) : Decidable (NameRest c) := by unfold NameRest; infer_instance

/-- Production [5] Name. -/
def IsName : List Char → Prop
  | [] => False
  | c :: cs => NameStart c.toNat ∧ ∀ d ∈ cs, NameRest d.toNat

/-- Namespaces in XML, production [4] NCName: a Name without ':'. -/
def IsNCName (cs : List Char) : Prop := IsName cs ∧ ':' ∉ cs

/-- HTML, 13.1.2.3: characters of an attribute name are all but controls, space, `"`, `'`, `>`, `/`, `=` and
noncharacters. -/
def IsAttrChar (c : Nat) : Prop :=
  ¬ (c < 0x20 ∨ (0x7F ≤ c ∧ c ≤ 0x9F)) ∧ c ≠ 0x20 ∧ c ≠ 0x22 ∧ c ≠ 0x27 ∧ c ≠ 0x3E ∧ c ≠ 0x2F ∧ c ≠ 0x3D ∧
  ¬ ((0xFDD0 ≤ c ∧ c ≤ 0xFDEF) ∨ c % 0x10000 = 0xFFFE ∨ c % 0x10000 = 0xFFFF)

/-! ## C13 -/

/-- C13.  In any non-empty table of disjoint increasing ranges, the search ends inside the table and answers whether
some range contains the code point. -/
theorem C13_in_group {r : List (Nat × Nat)} (hs : Sorted r) (hne : r ≠ []) (ch : Nat) :
    ∃ b, inGroup ch r = .ok b ∧ (b = true ↔ ∃ p ∈ r, p.1 ≤ ch ∧ ch ≤ p.2) := inGroup_spec hs hne ch

/-- C13 for the six tables of the code. -/
theorem C13_tables (ch : Nat) : ∀ r ∈ [baseCharRange, charRange, combiningCharRange, digitCharRange, extenderRange,
    ideographicRange], ∃ b, inGroup ch r = .ok b ∧ (b = true ↔ ∃ p ∈ r, p.1 ≤ ch ∧ ch ≤ p.2) := by
  intro r hr
  simp only [List.mem_cons, List.not_mem_nil, or_false] at hr
  rcases hr with rfl | rfl | rfl | rfl | rfl | rfl
  · exact inGroup_spec sorted_base (by decide +kernel) ch
  · exact inGroup_spec sorted_char (by decide +kernel) ch
  · exact inGroup_spec sorted_combining (by decide +kernel) ch
  · exact inGroup_spec sorted_digit (by decide +kernel) ch
  · exact inGroup_spec sorted_extender (by decide +kernel) ch
  · exact inGroup_spec sorted_ideographic (by decide +kernel) ch

example : inGroup 0x9fa5 ideographicRange = .ok true ∧ inGroup 0x3006 ideographicRange = .ok false ∧
    inGroup 0x1f5c baseCharRange = .ok false ∧ inGroup 0xac01 baseCharRange = .ok true := by decide +kernel

/-- The sortedness asked by `C13_in_group` is needed: in an unsorted table the search misses a range. -/
example : inGroup 5 [(1, 2), (7, 8), (5, 6), (9, 9)] = .ok false := by decide +kernel

/-! ## C14 -/

theorem isFirstChar_iff (c : Nat) : isFirstChar c = true ↔ NameStart c := by
  have hl : isLetter c = true → NameStart c := by
    rw [isLetter_iff]
    rintro (h | h)
    · exact inTable_mono (by decide +kernel) h
    · exact inTable_mono (by decide +kernel) h
  constructor
  · intro h
    by_cases hc : isLetter c = true
    · exact hl hc
    · unfold isFirstChar at h
      rw [Bool.not_eq_true] at hc
      rw [hc] at h
      simp only [Bool.or_eq_true, Bool.and_eq_true, decide_eq_true_eq, beq_iff_eq, Bool.false_eq_true, false_or] at h
      simp only [NameStart, InTable, nameStartRanges, List.mem_cons, List.not_mem_nil, or_false, exists_eq_or_imp,
        exists_eq_left]
      omega
  · intro h
    simp only [NameStart, InTable, nameStartRanges, List.mem_cons, List.not_mem_nil, or_false, exists_eq_or_imp,
        exists_eq_left] at h
    unfold isFirstChar
    simp only [Bool.or_eq_true, Bool.and_eq_true, decide_eq_true_eq, beq_iff_eq]
    omega

theorem isNameChar_iff (c : Nat) : isNameChar c = true ↔ NameRest c := by
  have hall : ∀ r, Sorted r → r ≠ [] → (∀ x ∈ r, ∃ y ∈ nameStartRanges ++ nameFurtherRanges, y.1 ≤ x.1 ∧ x.2 ≤ y.2) →
      truth (inGroup c r) = true → NameRest c := by
    intro r h1 h2 h3 h
    rw [truth_inGroup h1 h2] at h
    obtain ⟨p, hp, h4⟩ := inTable_mono h3 h
    rcases List.mem_append.1 hp with hp | hp
    · exact .inl ⟨p, hp, h4⟩
    · exact .inr ⟨p, hp, h4⟩
  have hl : isLetter c = true → NameRest c := by
    unfold isLetter
    rw [Bool.or_eq_true]
    rintro (h | h)
    · exact hall _ sorted_base (by decide +kernel) (by decide +kernel) h
    · exact hall _ sorted_ideographic (by decide +kernel) (by decide +kernel) h
  constructor
  · intro h
    unfold isNameChar at h
    by_cases h1 : isLetter c = true
    · exact hl h1
    by_cases h2 : truth (inGroup c digitCharRange) = true
    · exact hall _ sorted_digit (by decide +kernel) (by decide +kernel) h2
    by_cases h3 : truth (inGroup c combiningCharRange) = true
    · exact hall _ sorted_combining (by decide +kernel) (by decide +kernel) h3
    by_cases h4 : truth (inGroup c extenderRange) = true
    · -- the extenders of the table that lie outside nameStartRanges ++ nameFurtherRanges: none
      exact hall _ sorted_extender (by decide +kernel) (by decide +kernel) h4
    rw [Bool.not_eq_true] at h1 h2 h3 h4
    rw [h1, h2, h3, h4] at h
    simp only [Bool.or_eq_true, Bool.and_eq_true, decide_eq_true_eq, beq_iff_eq, Bool.false_eq_true, or_false] at h
    simp only [NameRest, InTable, nameStartRanges, nameFurtherRanges, List.mem_cons, List.not_mem_nil, or_false,
      exists_eq_or_imp, exists_eq_left]
    omega
  · intro h
    simp only [NameRest, InTable, nameStartRanges, nameFurtherRanges, List.mem_cons, List.not_mem_nil, or_false,
      exists_eq_or_imp, exists_eq_left] at h
    unfold isNameChar
    simp only [Bool.or_eq_true, Bool.and_eq_true, decide_eq_true_eq, beq_iff_eq]
    omega

theorem NameRest.le {c : Nat} (h : NameRest c) : c ≤ 0x10FFFF ∧ c ≠ 0xFFFE ∧ c ≠ 0xFFFF := by
  simp only [NameRest, InTable, nameStartRanges, nameFurtherRanges, List.mem_cons, List.not_mem_nil, or_false,
      exists_eq_or_imp, exists_eq_left] at h
  omega

theorem NameStart.rest {c : Nat} (h : NameStart c) : NameRest c := .inl h

theorem IsName.rest {cs : List Char} (h : IsName cs) : ∀ c ∈ cs, NameRest c.toNat := by
  cases cs with
  | nil => exact h.elim
  | cons c cs =>
    intro d hd
    rcases List.mem_cons.1 hd with rfl | hd
    · exact h.1.rest
    · exact h.2 d hd

theorem IsName.decodable {cs : List Char} (h : IsName cs) : Decodable cs :=
  fun c hc => (h.rest c hc).le.2

theorem lengthZero_holds {s : DStr} {cs : List Char} (h : Holds s cs) : lengthZero s = true ↔ cs = [] := by
  unfold lengthZero
  rw [Str.length_holds h]
  simp

/-- The common shape of the validations, on arbitrary bytes. -/
theorem validFrom_iff (first rest : Nat → Bool) (h1 : ∀ c, first c = true → c ≤ 0x10FFFF ∧ c ≠ 0xFFFE ∧ c ≠ 0xFFFF)
    (h2 : ∀ c, rest c = true → c ≤ 0x10FFFF ∧ c ≠ 0xFFFE ∧ c ≠ 0xFFFF) (s : DStr) (hlen : s.data.length < 2 ^ 32) :
    ((if lengthZero s then false else validFrom first rest s.data) = true) ↔
      ∃ c cs, s.data = utf8 (c :: cs) ∧ first c.toNat = true ∧ ∀ d ∈ cs, rest d.toNat = true := by
  have hbad : rest 0xFFFE = false ∧ rest 0xFFFF = false := by
    constructor
    · cases h : rest 0xFFFE with
      | false => rfl
      | true => exact absurd rfl (h2 _ h).2.1
    · cases h : rest 0xFFFF with
      | false => rfl
      | true => exact absurd rfl (h2 _ h).2.2
  constructor
  · intro h
    split at h
    · cases h
    · unfold validFrom at h
      split at h
      · cases h
      · rename_i c k heq
        split at h
        · rename_i hc
          obtain ⟨ch, e1, e2⟩ := toUcs4_char heq (h1 c hc).1
          obtain ⟨cs, e3⟩ := validLoop_utf8 rest (fun c hc => (h2 c hc).1) _ _ h
          rw [e3] at h e2
          refine ⟨ch, cs, by rw [e2]; simp [utf8], by rw [e1]; exact hc, ?_⟩
          refine (validLoop_enc rest cs hbad s.data.length ?_).1 h
          rw [e2]; simp
        · cases h
  · rintro ⟨c, cs, e, hc, hcs⟩
    have hh : Holds s (c :: cs) := ⟨e, by rw [← e]; exact hlen⟩
    have hz : lengthZero s = false := by
      rw [← Bool.not_eq_true, lengthZero_holds hh]; simp
    rw [hz, if_neg (by simp)]
    have hd := h1 _ hc
    have hlen' : (utf8 (c :: cs)).length = (String.utf8EncodeChar c).length + (utf8 cs).length := by simp [utf8]
    have h3 := Str.toUcs4_enc c (utf8 cs) (utf8 (c :: cs)).length (by omega) hd.2.1 hd.2.2
    have h4 : utf8 (c :: cs) = String.utf8EncodeChar c ++ utf8 cs := by simp [utf8]
    rw [← h4, ← e] at h3
    unfold validFrom
    rw [h3]
    simp only [hc, if_true]
    rw [e, h4, List.drop_left]
    exact (validLoop_enc rest cs hbad _ (by rw [← h4]; omega)).2 hcs

/-- C14.  `_dom_validate_name` accepts exactly the XML Names, among all byte strings (of less than 4 GiB). -/
theorem C14_name_iff (s : DStr) (hlen : s.data.length < 2 ^ 32) :
    validateName (some s) = true ↔ ∃ cs, s.data = utf8 cs ∧ IsName cs := by
  have := validFrom_iff isFirstChar isNameChar (fun c h => (isFirstChar_iff c |>.1 h).rest.le)
    (fun c h => (isNameChar_iff c |>.1 h).le) s hlen
  unfold validateName
  rw [this]
  constructor
  · rintro ⟨c, cs, e, h1, h2⟩
    exact ⟨c :: cs, e, (isFirstChar_iff _).1 h1, fun d hd => (isNameChar_iff _).1 (h2 d hd)⟩
  · rintro ⟨cs, e, h⟩
    cases cs with
    | nil => exact h.elim
    | cons c cs => exact ⟨c, cs, e, (isFirstChar_iff _).2 h.1, fun d hd => (isNameChar_iff _).2 (h.2 d hd)⟩

/-- C14.  createElement, createAttribute (and createProcessingInstruction, createEntityReference) raise
INVALID_CHARACTER_ERR exactly for the strings that are no Names; NULL is refused. -/
theorem C14_create (s : DStr) (hlen : s.data.length < 2 ^ 32) :
    (createNamed (some s) = .exc .invalidCharacter ↔ ¬ ∃ cs, s.data = utf8 cs ∧ IsName cs) ∧
    (createNamed (some s) = .ok () ↔ ∃ cs, s.data = utf8 cs ∧ IsName cs) ∧
    createNamed none = .exc .invalidCharacter := by
  rw [← C14_name_iff s hlen]
  unfold createNamed
  cases validateName (some s) <;> simp [validateName]

/-- What the code takes as first character of an NCName. -/
def CodeNCStart (c : Nat) : Prop := InTable c baseCharRange ∨ InTable c ideographicRange ∨ c = 95

theorem CodeNCStart.start {c : Nat} (h : CodeNCStart c) : NameStart c ∧ c ≠ 58 := by
  have hn : ∀ r, (∀ x ∈ r, ¬ (x.1 ≤ 58 ∧ 58 ≤ x.2)) → InTable c r → c ≠ 58 := by
    rintro r hr ⟨p, hp, h1, h2⟩ rfl
    exact hr p hp ⟨h1, h2⟩
  rcases h with h | h | h
  · exact ⟨inTable_mono (by decide +kernel) h, hn _ (by decide +kernel) h⟩
  · exact ⟨inTable_mono (by decide +kernel) h, hn _ (by decide +kernel) h⟩
  · subst h; exact ⟨by decide +kernel, by decide⟩

theorem toNat_ne_colon (d : Char) : d.toNat ≠ 58 ↔ d ≠ ':' := by
  constructor
  · rintro h rfl; exact h rfl
  · intro h e
    exact h (Char.toNat_inj.1 e)

/-- C14, NCNames.  `_dom_validate_ncname` accepts exactly the NCNames whose first character is '_' or in the letter
tables of XML 1.0 (fourth edition).

Missing from the full claim: NCNames with any other first character, which are refused
(`C14_ncname_violated`). -/
theorem C14_ncname_partial (s : DStr) (hlen : s.data.length < 2 ^ 32) :
    validateNCName (some s) = true ↔
      ∃ c cs, s.data = utf8 (c :: cs) ∧ IsNCName (c :: cs) ∧ CodeNCStart c.toNat := by
  have hfst : ∀ c, (isLetter c || c == 95) = true ↔ CodeNCStart c := by
    intro c; simp only [Bool.or_eq_true, isLetter_iff, beq_iff_eq, CodeNCStart, or_assoc]
  have hrst : ∀ c, (isNameChar c && c != 58) = true ↔ NameRest c ∧ c ≠ 58 := by
    intro c; simp only [Bool.and_eq_true, isNameChar_iff, bne_iff_ne]
  have := validFrom_iff (fun ch => isLetter ch || ch == 95) (fun ch => isNameChar ch && ch != 58)
    (fun c h => ((hfst c).1 h).start.1.rest.le) (fun c h => ((hrst c).1 h).1.le) s hlen
  unfold validateNCName
  rw [this]
  constructor
  · rintro ⟨c, cs, e, h1, h2⟩
    have h1' := (hfst _).1 h1
    refine ⟨c, cs, e, ⟨⟨h1'.start.1, fun d hd => ((hrst _).1 (h2 d hd)).1⟩, ?_⟩, h1'⟩
    simp only [List.mem_cons, not_or]
    refine ⟨fun h => (toNat_ne_colon c).1 h1'.start.2 h.symm, fun h => ?_⟩
    exact ((hrst _).1 (h2 _ h)).2 rfl
  · rintro ⟨c, cs, e, ⟨h1, h2⟩, h3⟩
    refine ⟨c, cs, e, (hfst _).2 h3, fun d hd => (hrst _).2 ⟨h1.2 d hd, ?_⟩⟩
    rw [toNat_ne_colon]
    rintro rfl
    exact h2 (by simp [hd])

/-- C14.  Every accepted NCName is an NCName, and is accepted as a Name. -/
theorem C14_ncname_is_name (s : DStr) (hlen : s.data.length < 2 ^ 32) (h : validateNCName (some s) = true) :
    (∃ cs, s.data = utf8 cs ∧ IsNCName cs) ∧ validateName (some s) = true := by
  obtain ⟨c, cs, e, h1, _⟩ := (C14_ncname_partial s hlen).1 h
  exact ⟨⟨_, e, h1⟩, (C14_name_iff s hlen).2 ⟨_, e, h1.1⟩⟩

/-- C14 is false of the code for NCNames: the one-letter name "Ș" (U+0218) is an NCName and refused, as the first
character is looked up in the letter tables of the fourth edition (src/utils/validate.c:245). -/
theorem C14_ncname_violated : ∃ s cs, Holds s cs ∧ IsNCName cs ∧ validateNCName (some s) = false := by
  refine ⟨Str.create (utf8 [Char.ofNat 0x218]), [Char.ofNat 0x218], ⟨rfl, by decide +kernel⟩, ⟨?_, by decide +kernel⟩, ?_⟩
  · exact ⟨by decide +kernel, by simp⟩
  · decide +kernel

/-! ## C15 -/

theorem isAttributeNameChar_iff (c : Nat) : isAttributeNameChar c = true ↔ IsAttrChar c ∨ c < 0x20 := by
  unfold isAttributeNameChar IsAttrChar
  simp only [Bool.or_eq_true, Bool.and_eq_true, decide_eq_true_eq, beq_iff_eq]
  split_ifs <;> simp <;> omega

/-- What the relaxed check accepts, for every character string. -/
theorem C15_accept_iff (s : DStr) (cs : List Char) (h : Holds s cs) :
    validateAttributeName (some s) = true ↔ cs ≠ [] ∧ ∀ c ∈ cs, IsAttrChar c.toNat ∨ c.toNat < 0x20 := by
  unfold validateAttributeName
  have hbad : isAttributeNameChar 0xFFFE = false ∧ isAttributeNameChar 0xFFFF = false := by decide +kernel
  have key := validLoop_enc isAttributeNameChar cs hbad s.data.length (by rw [h.data]; exact Nat.le_refl _)
  simp only [isAttributeNameChar_iff] at key
  rw [← h.data] at key
  dsimp only
  by_cases hcs : cs = []
  · rw [if_pos ((lengthZero_holds h).2 hcs)]; simp [hcs]
  · rw [if_neg (by rw [lengthZero_holds h]; exact hcs)]
    simp only [ne_eq, hcs, not_false_eq_true, true_and]
    rw [← key]
    cases htu : toUcs4 s.data s.data.length with
    | some _ => rfl
    | none =>
      simp only [Bool.false_eq_true, false_iff]
      intro hv
      cases hd : s.data with
      | nil =>
        rw [h.data] at hd
        have := Str.length_le_utf8 cs
        rw [hd] at this
        exact hcs (by simpa using this)
      | cons b bs =>
        rw [hd] at hv htu
        simp only [List.length_cons, validLoop] at hv htu
        rw [htu] at hv
        cases hv

/-- C15, for strings without characters below U+0020.

Missing from the full claim: those characters, which the code accepts (`C15_controls_violated`). -/
theorem C15_attribute_name_partial (s : DStr) (cs : List Char) (h : Holds s cs) (hc : ∀ c ∈ cs, ¬ c.toNat < 0x20) :
    validateAttributeName (some s) = true ↔ cs ≠ [] ∧ ∀ c ∈ cs, IsAttrChar c.toNat := by
  rw [C15_accept_iff s cs h]
  refine and_congr_right fun _ => forall₂_congr fun c hm => ?_
  simp [hc c hm]

example : validateAttributeName (some (lit "data-x:1é@[")) = true ∧ validateAttributeName (some (lit "a b")) = false ∧
    validateAttributeName (some (lit "a=")) = false ∧ validateAttributeName (some (lit "")) = false := by decide +kernel

/-- C15 is false of the code: every control character below U+0020 is accepted (src/utils/validate.c:92-120), for
example in "a\nb". -/
theorem C15_controls_violated : ∃ s cs, Holds s cs ∧ validateAttributeName (some s) = true ∧
    ¬ ∀ c ∈ cs, IsAttrChar c.toNat := by
  refine ⟨lit "a\nb", ['a', '\n', 'b'], ⟨by decide +kernel, by decide +kernel⟩, by decide +kernel, ?_⟩
  intro h
  have := (h '\n' (by simp)).1
  exact this (.inl (by decide))

/-! ## C16 -/

/-- The four strings of the namespace rules. -/
def xmlChars : List Char := ['x', 'm', 'l']
def xmlnsChars : List Char := ['x', 'm', 'l', 'n', 's']
def xmlNsChars : List Char := "http://www.w3.org/XML/1998/namespace".toList
def xmlnsNsChars : List Char := "http://www.w3.org/2000/xmlns/".toList

theorem enc_inj {c d : Char} {x y : Bytes} (h : String.utf8EncodeChar c ++ x = String.utf8EncodeChar d ++ y) :
    c = d ∧ x = y := by
  obtain ⟨b, r, hb, _, _, hl, hc, _⟩ := Str.enc_shape c
  obtain ⟨b', r', hb', _, _, hl', hc', _⟩ := Str.enc_shape d
  have e : b = b' := by rw [hb, hb'] at h; simpa using (List.cons.inj h).1
  subst e
  rw [hl] at hl'
  have hr : r.length = r'.length := by simpa using hl'
  rw [hb, hb'] at h
  have h2 := (List.cons.inj h).2
  have h3 := List.append_inj h2 hr
  have h4 := hc []
  have h5 := hc' []
  rw [h3.1] at h4
  rw [h4] at h5
  simp only [Option.some.injEq] at h5
  exact ⟨Char.toNat_inj.1 h5, h3.2⟩

theorem utf8_inj : ∀ {x y : List Char}, utf8 x = utf8 y → x = y := by
  intro x
  induction x with
  | nil =>
    intro y h
    cases y with
    | nil => rfl
    | cons d y =>
      have := Str.enc_length_pos d
      have hl := congrArg List.length h
      simp [utf8] at hl
      omega
  | cons c x ih =>
    intro y h
    cases y with
    | nil =>
      have := Str.enc_length_pos c
      have hl := congrArg List.length h
      simp [utf8] at hl
    | cons d y =>
      have h' : String.utf8EncodeChar c ++ utf8 x = String.utf8EncodeChar d ++ utf8 y := by simpa [utf8] using h
      obtain ⟨h1, h2⟩ := enc_inj h'
      rw [h1, ih h2]

theorem isEqual_lit {s : DStr} {cs : List Char} (h : Holds s cs) (l : List Char) (t : DStr) (ht : t.data = utf8 l) :
    Str.isEqual (some s) (some t) = true ↔ cs = l := by
  rw [Str.C06_isEqual_iff]
  simp only [Str.contents, Option.map_some, Option.getD_some, h.data, ht]
  exact ⟨utf8_inj, fun h => by rw [h]⟩

theorem isEqual_lit_false {s : DStr} {cs : List Char} (h : Holds s cs) (l : List Char) (t : DStr) (ht : t.data = utf8 l) :
    Str.isEqual (some s) (some t) = false ↔ cs ≠ l := by
  rw [← Bool.not_eq_true, isEqual_lit h l t ht]

theorem colon_split {cs : List Char} {i : Nat} {c : Char} (hi : cs[i]? = some c) (hc : c.toNat = 58)
    (hbefore : ∀ j, j < i → ∀ d, cs[j]? = some d → d.toNat ≠ 58) :
    ∃ ps ls, cs = ps ++ ':' :: ls ∧ ps.length = i ∧ ':' ∉ ps := by
  obtain ⟨hlt, rfl⟩ := List.getElem?_eq_some_iff.1 hi
  have hcc : cs[i] = ':' := by
    by_contra h
    exact (toNat_ne_colon _).2 h hc
  refine ⟨cs.take i, cs.drop (i + 1), ?_, by simp; omega, ?_⟩
  · rw [← hcc, ← List.drop_eq_getElem_cons hlt, List.take_append_drop]
  · intro hm
    obtain ⟨j, hj, e⟩ := List.getElem_of_mem hm
    simp only [List.getElem_take] at e
    simp only [List.length_take] at hj
    exact (toNat_ne_colon _).1 (hbefore j (by omega) cs[j] (List.getElem?_eq_getElem (by omega))) e

/-- The two shapes of a qualified name, as the code tells them apart. -/
theorem index_cases {q : DStr} {cs : List Char} (h : Holds q cs) (hd : Decodable cs) :
    (Str.index (some q) 58 = .ok u32max ∧ ':' ∉ cs) ∨
    (∃ ps ls, Str.index (some q) 58 = .ok ps.length ∧ cs = ps ++ ':' :: ls ∧ ':' ∉ ps ∧ ps.length ≠ u32max) := by
  rcases Str.C04_index q cs 58 h hd with ⟨i, h1, c, h2, h3, h4⟩ | ⟨h1, h2⟩
  · obtain ⟨ps, ls, e, hlen, hno⟩ := colon_split h2 h3 h4
    refine .inr ⟨ps, ls, by rw [hlen]; exact h1, e, hno, ?_⟩
    have h5 := h.small
    have h6 := Str.length_le_utf8 cs
    rw [e] at h6
    simp only [List.length_append, List.length_cons] at h6
    rw [← e] at h6
    simp only [u32max]
    omega
  · refine .inl ⟨h1, fun hm => h2 _ hm rfl⟩

theorem split_parts {q : DStr} {ps ls : List Char} (h : Holds q (ps ++ ':' :: ls)) :
    ∃ p l, Str.substr (some q) 0 ps.length = .ok p ∧ Holds p ps ∧
      Str.substr (some q) (u32 (ps.length + 1)) (ps ++ ':' :: ls).length = .ok l ∧ Holds l ls := by
  have h5 := h.small
  have h6 := Str.length_le_utf8 (ps ++ ':' :: ls)
  simp only [List.length_append, List.length_cons] at h6
  obtain ⟨p, hp1, hp2⟩ := Str.C01_substr_ok (some q) _ 0 ps.length h (by omega) (by simp)
  obtain ⟨l, hl1, hl2⟩ := Str.C01_substr_ok (some q) _ (u32 (ps.length + 1)) (ps ++ ':' :: ls).length h
    (by rw [u32_small (by omega)]; simp) (Nat.le_refl _)
  refine ⟨p, l, hp1, by simpa using hp2, hl1, ?_⟩
  rw [u32_small (by omega)] at hl2
  have e : (ps ++ ':' :: ls).drop (ps.length + 1) = ls := by
    rw [show ps ++ ':' :: ls = (ps ++ [':']) ++ ls by simp, List.drop_left' (by simp)]
  rw [e, List.take_of_length_le (by simp; omega)] at hl2
  exact hl2

/-- C16.  Splitting any qualified name that passed the character check is lossless: without ':' there is no prefix and
the local name is the whole name; otherwise prefix ++ ":" ++ local name is the qualified name, and the prefix has no
':'. -/
theorem C16_split_lossless (q : DStr) (cs : List Char) (h : Holds q cs) (hn : IsName cs) :
    (':' ∉ cs ∧ splitQName q = .ok (none, q)) ∨
    (∃ p l ps ls, splitQName q = .ok (some p, l) ∧ Holds p ps ∧ Holds l ls ∧ cs = ps ++ [':'] ++ ls ∧ ':' ∉ ps) := by
  unfold splitQName
  rcases index_cases h hn.decodable with ⟨h1, h2⟩ | ⟨ps, ls, h1, rfl, h3, h4⟩
  · refine .inl ⟨h2, ?_⟩
    rw [h1]; rfl
  · obtain ⟨p, l, e1, hp, e2, hl⟩ := split_parts h
    refine .inr ⟨p, l, ps, ls, ?_, hp, hl, by simp, h3⟩
    rw [h1]
    simp only [Out.bind_ok, h4, if_false, e1, Str.length_holds h, e2]

/-- The rules for a qualified name with characters `cs` and a namespace with characters `ns`, in the words of DOM3 Core
(createElementNS): the shape, the xml rule, the xmlns rule both ways. -/
def QNameRules (cs ns : List Char) : Prop :=
  (':' ∉ cs ∧ (cs = xmlnsChars ↔ ns = xmlnsNsChars)) ∨
  (∃ ps ls, cs = ps ++ [':'] ++ ls ∧ IsNCName ps ∧ IsNCName ls ∧ (ps = xmlChars → ns = xmlNsChars) ∧
    (ps = xmlnsChars ↔ ns = xmlnsNsChars))

/-- The code's narrower idea of an NCName (see `C14_ncname_partial`). -/
def StartsOk (cs : List Char) : Prop := ∀ c, cs.head? = some c → CodeNCStart c.toNat

theorem ncname_holds {s : DStr} {cs : List Char} (h : Holds s cs) :
    validateNCName (some s) = true ↔ IsNCName cs ∧ StartsOk cs := by
  rw [C14_ncname_partial s (by rw [h.data]; exact h.small)]
  constructor
  · rintro ⟨c, ds, e, h1, h2⟩
    rw [h.data] at e
    have := utf8_inj e
    subst this
    refine ⟨h1, fun d hd => ?_⟩
    simp at hd; subst hd; exact h2
  · rintro ⟨h1, h2⟩
    cases cs with
    | nil => exact h1.1.elim
    | cons c cs => exact ⟨c, cs, h.data, h1, h2 c rfl⟩

theorem qname_checks (b1 b2 b3 b4 b5 b6 : Bool) :
    (if b1 = false ∨ b2 = false then Out.exc Exc.namespace
      else if b3 = true ∧ b4 = false then Out.exc .namespace
      else if b5 = true ∧ b6 = false then Out.exc .namespace
      else if b6 = true ∧ b5 = false then Out.exc .namespace else Out.ok ()) = Out.ok () ↔
    b1 = true ∧ b2 = true ∧ (b3 = true → b4 = true) ∧ (b5 = true ↔ b6 = true) := by
  cases b1 <;> cases b2 <;> cases b3 <;> cases b4 <;> cases b5 <;> cases b6 <;> simp

/-- C16, decision.  With a namespace, creation succeeds exactly when the name is a Name and obeys the rules, except that
the parts around a ':' must start with a letter of the fourth edition of XML 1.0 or '_'. -/
theorem C16_rules_iff (q n : DStr) (cs ns : List Char) (hq : Holds q cs) (hns : Holds n ns) :
    (∃ r, createNamedNS (some n) (some q) = .ok r) ↔
      IsName cs ∧ QNameRules cs ns ∧ ∀ ps ls, cs = ps ++ [':'] ++ ls → ':' ∉ ps → StartsOk ps ∧ StartsOk ls := by
  have hname : validateName (some q) = true ↔ IsName cs := by
    rw [C14_name_iff q (by rw [hq.data]; exact hq.small)]
    constructor
    · rintro ⟨ds, e, h⟩
      rw [hq.data] at e
      rw [utf8_inj e]; exact h
    · intro h; exact ⟨cs, hq.data, h⟩
  by_cases hN : IsName cs
  swap
  · have : validateName (some q) = false := by rw [← Bool.not_eq_true, hname]; exact hN
    simp only [createNamedNS, this, if_true, hN, false_and, iff_false, not_exists]
    intro r h; cases h
  have hv : validateName (some q) = true := hname.2 hN
  have hsplit := C16_split_lossless q cs hq hN
  have hsok : ∃ r, splitQName q = .ok r := by
    rcases hsplit with ⟨_, h⟩ | ⟨p, l, _, _, h, _⟩ <;> exact ⟨_, h⟩
  obtain ⟨r, hr⟩ := hsok
  have hred : (∃ r, createNamedNS (some n) (some q) = .ok r) ↔ validateQName (some q) (some n) = .ok () := by
    unfold createNamedNS
    simp only [hv, Bool.true_eq_false, if_false]
    cases hvq : validateQName (some q) (some n) with
    | ok a => simp only [Out.bind_ok, hr]; simp
    | exc e => constructor
               · rintro ⟨r, h⟩; cases h
               · intro h; cases h
    | fault f => constructor
                 · rintro ⟨r, h⟩; cases h
                 · intro h; cases h
  rw [hred]
  simp only [hN, true_and]
  have e1 := isEqual_lit hns xmlnsNsChars xmlnsNs rfl
  have e1' := isEqual_lit_false hns xmlnsNsChars xmlnsNs rfl
  have e2 := isEqual_lit hns xmlNsChars xmlNs rfl
  have e2' := isEqual_lit_false hns xmlNsChars xmlNs rfl
  have e3 := isEqual_lit hq xmlnsChars xmlnsStr rfl
  have e3' := isEqual_lit_false hq xmlnsChars xmlnsStr rfl
  unfold validateQName
  simp only [hv, Bool.true_eq_false, if_false, Str.length_holds hq, Out.bind_ok]
  rcases index_cases hq hN.decodable with ⟨h1, h2⟩ | ⟨ps, ls, h1, rfl, h3, h4⟩
  · rw [h1]
    simp only [Out.bind_ok, if_true, e1, e1', e3, e3']
    have hno : ∀ ps ls : List Char, ¬ cs = ps ++ [':'] ++ ls := by
      rintro ps ls rfl; exact h2 (by simp)
    have : QNameRules cs ns ↔ (cs = xmlnsChars ↔ ns = xmlnsNsChars) := by
      unfold QNameRules
      constructor
      · rintro (⟨_, h⟩ | ⟨ps, ls, h, _⟩)
        · exact h
        · exact absurd h (hno ps ls)
      · intro h; exact .inl ⟨h2, h⟩
    rw [this]
    have : (∀ ps ls : List Char, cs = ps ++ [':'] ++ ls → ':' ∉ ps → StartsOk ps ∧ StartsOk ls) ↔ True := by
      simp only [iff_true]; intro ps ls h; exact absurd h (hno ps ls)
    rw [this, and_true]
    by_cases ha : ns = xmlnsNsChars <;> by_cases hb : cs = xmlnsChars <;> simp [ha, hb]
  · rw [h1]
    simp only [Out.bind_ok, h4, if_false]
    have huniq : ∀ ps' ls', ps ++ ':' :: ls = ps' ++ [':'] ++ ls' → ':' ∉ ps' → ps' = ps ∧ ls' = ls := by
      intro ps' ls' e hno
      have e' : ps ++ ':' :: ls = ps' ++ ':' :: ls' := by simpa using e
      have := List.append_eq_append_iff.1 e'
      rcases this with ⟨a, ha, hb⟩ | ⟨a, ha, hb⟩
      · cases a with
        | nil => simp at ha hb; exact ⟨ha, hb.symm⟩
        | cons x a =>
          simp only [List.cons_append, List.cons.injEq] at hb
          exact absurd (by rw [ha, ← hb.1]; simp) hno
      · cases a with
        | nil => simp at ha hb; exact ⟨ha.symm, hb⟩
        | cons x a =>
          simp only [List.cons_append, List.cons.injEq] at hb
          exact absurd (by rw [ha, ← hb.1]; simp) h3
    have hrules : QNameRules (ps ++ ':' :: ls) ns ↔ IsNCName ps ∧ IsNCName ls ∧ (ps = xmlChars → ns = xmlNsChars) ∧
        (ps = xmlnsChars ↔ ns = xmlnsNsChars) := by
      unfold QNameRules
      constructor
      · rintro (⟨h, _⟩ | ⟨ps', ls', h, r1, r2, r3, r4⟩)
        · exact absurd (by simp) h
        · obtain ⟨rfl, rfl⟩ := huniq ps' ls' h r1.2
          exact ⟨r1, r2, r3, r4⟩
      · rintro ⟨r1, r2, r3, r4⟩
        exact .inr ⟨ps, ls, by simp, r1, r2, r3, r4⟩
    have hstart : (∀ ps' ls', ps ++ ':' :: ls = ps' ++ [':'] ++ ls' → ':' ∉ ps' → StartsOk ps' ∧ StartsOk ls') ↔
        StartsOk ps ∧ StartsOk ls := by
      constructor
      · intro h; exact h ps ls (by simp) h3
      · intro h ps' ls' e hno
        obtain ⟨rfl, rfl⟩ := huniq ps' ls' e hno
        exact h
    rw [hrules, hstart]
    by_cases hp0 : ps = []
    · subst hp0
      simp [IsNCName, IsName]
    · rw [if_neg (by simpa using hp0)]
      obtain ⟨p, l, s1, hp, s2, hl⟩ := split_parts hq
      simp only [s1, s2, Out.bind_ok]
      have f1 := isEqual_lit hp xmlChars xmlStr rfl
      have f3 := isEqual_lit hp xmlnsChars xmlnsStr rfl
      have n1 := ncname_holds hp
      have n2 := ncname_holds hl
      have key : (IsNCName ps ∧ IsNCName ls ∧ (ps = xmlChars → ns = xmlNsChars) ∧ (ps = xmlnsChars ↔ ns = xmlnsNsChars)) ∧
          StartsOk ps ∧ StartsOk ls ↔
          validateNCName (some p) = true ∧ validateNCName (some l) = true ∧
          (Str.isEqual (some p) (some xmlStr) = true → Str.isEqual (some n) (some xmlNs) = true) ∧
          (Str.isEqual (some p) (some xmlnsStr) = true ↔ Str.isEqual (some n) (some xmlnsNs) = true) := by
        rw [n1, n2, f1, f3, e1, e2]
        exact ⟨fun ⟨⟨a, b, c, d⟩, e, f⟩ => ⟨⟨a, e⟩, ⟨b, f⟩, c, d⟩, fun ⟨⟨a, e⟩, ⟨b, f⟩, c, d⟩ => ⟨⟨a, b, c, d⟩, e, f⟩⟩
      rw [key]
      exact qname_checks _ _ _ _ _ _

/-- C16.  With a namespace: what is accepted obeys the rules, and neither part is empty.

Missing from the full claim: names without a namespace, where it is false (`C16_empty_prefix_violated`,
`C16_xmlns_violated`); for them only `C16_split_lossless` and `C16_no_namespace` hold. -/
theorem C16_rules_partial (q n : DStr) (cs ns : List Char) (hq : Holds q cs) (hns : Holds n ns) {p : Option DStr} {l : DStr}
    (h : createNamedNS (some n) (some q) = .ok (p, l)) :
    QNameRules cs ns ∧ (p = none → l = q ∧ ':' ∉ cs) ∧
    (∀ p', p = some p' → ∃ ps ls, Holds p' ps ∧ Holds l ls ∧ cs = ps ++ [':'] ++ ls ∧ IsNCName ps ∧ IsNCName ls ∧
      ps ≠ [] ∧ ls ≠ []) := by
  obtain ⟨hN, hR, _⟩ := (C16_rules_iff q n cs ns hq hns).1 ⟨_, h⟩
  refine ⟨hR, ?_⟩
  have hv : validateName (some q) = true :=
    (C14_name_iff q (by rw [hq.data]; exact hq.small)).2 ⟨cs, hq.data, hN⟩
  have hsp : splitQName q = .ok (p, l) := by
    unfold createNamedNS at h
    simp only [hv, Bool.true_eq_false, if_false] at h
    cases hvq : validateQName (some q) (some n) with
    | ok a => rw [hvq] at h; exact h
    | exc e => rw [hvq] at h; cases h
    | fault f => rw [hvq] at h; cases h
  rcases C16_split_lossless q cs hq hN with ⟨h1, h2⟩ | ⟨p', l', ps, ls, h2, h3, h4, h5, h6⟩
  · rw [hsp] at h2; injection h2 with h2; injection h2 with ha hb; subst ha; subst hb
    exact ⟨fun _ => ⟨rfl, h1⟩, fun _ h => by cases h⟩
  · rw [hsp] at h2; injection h2 with h2; injection h2 with ha hb; subst ha; subst hb
    refine ⟨(fun h => nomatch h), ?_⟩
    intro p'' hpp
    injection hpp with hpp; subst hpp
    rcases hR with ⟨h7, _⟩ | ⟨ps', ls', e, r1, r2, _⟩
    · exact absurd (by rw [h5]; simp) h7
    · have : ps' = ps ∧ ls' = ls := by
        rw [h5] at e
        have e' : ps ++ ':' :: ls = ps' ++ ':' :: ls' := by simpa using e
        rcases List.append_eq_append_iff.1 e' with ⟨a, ha, hb⟩ | ⟨a, ha, hb⟩
        · cases a with
          | nil => simp at ha hb; exact ⟨ha, hb.symm⟩
          | cons x a =>
            simp only [List.cons_append, List.cons.injEq] at hb
            exact absurd (by rw [ha, ← hb.1]; simp) r1.2
        · cases a with
          | nil => simp at ha hb; exact ⟨ha.symm, hb⟩
          | cons x a =>
            simp only [List.cons_append, List.cons.injEq] at hb
            exact absurd (by rw [ha, ← hb.1]; simp) h6
      obtain ⟨rfl, rfl⟩ := this
      refine ⟨ps', ls', h3, h4, h5, r1, r2, ?_, ?_⟩
      · rintro rfl; exact r1.1.elim
      · rintro rfl; exact r2.1.elim

/-- C16, no namespace: a name with a ':' after the first character is refused with NAMESPACE_ERR. -/
theorem C16_no_namespace (q : DStr) (ps ls : List Char) (hq : Holds q (ps ++ [':'] ++ ls)) (hN : IsName (ps ++ [':'] ++ ls))
    (hp : ps ≠ []) (hno : ':' ∉ ps) : createNamedNS none (some q) = .exc .namespace := by
  have hv : validateName (some q) = true :=
    (C14_name_iff q (by rw [hq.data]; exact hq.small)).2 ⟨_, hq.data, hN⟩
  unfold createNamedNS validateQName
  simp only [hv, Bool.true_eq_false, if_false, Str.length_holds hq, Out.bind_ok]
  rcases index_cases hq hN.decodable with ⟨h1, h2⟩ | ⟨ps', ls', h1, e, h3, h4⟩
  · exact absurd (by simp) h2
  · rw [h1]
    simp only [Out.bind_ok, h4, if_false]
    have : ps' ≠ [] := by
      rintro rfl
      cases ps with
      | nil => exact hp rfl
      | cons x ps =>
        simp only [List.cons_append, List.nil_append, List.cons.injEq] at e
        exact hno (by simp [e.1])
    rw [if_neg (by simpa using this)]
    rfl

/-- The hypotheses of `C16_rules_partial` are met: "svg:a" in the SVG namespace is accepted and split. -/
example : createNamedNS (some (lit "http://www.w3.org/2000/svg")) (some (lit "svg:a")) = .ok (some (lit "svg"), lit "a") ∧
    createNamedNS (some (lit "http://www.w3.org/2000/svg")) (some (lit "xml:a")) = .exc .namespace ∧
    createNamedNS (some xmlNs) (some (lit "xml:a")) = .ok (some (lit "xml"), lit "a") ∧
    createNamedNS (some xmlnsNs) (some (lit "a")) = .exc .namespace ∧
    createNamedNS none (some (lit "a:b")) = .exc .namespace ∧ createNamedNS none (some (lit "a b")) = .exc .invalidCharacter := by
  decide +kernel

/-- C16 is false of the code: ":a" without a namespace is accepted and gets an empty prefix
(src/utils/namespace.c:170-173). -/
theorem C16_empty_prefix_violated : createNamedNS none (some (lit ":a")) = .ok (some (lit ""), lit "a") := by
  decide +kernel

/-- C16 is false of the code: "xmlns" without a namespace is accepted (src/utils/namespace.c:164-169). -/
theorem C16_xmlns_violated : createNamedNS none (some (lit "xmlns")) = .ok (none, lit "xmlns") := by
  decide +kernel

/-- C14 for createElementNS and createAttributeNS. -/
theorem C14_create_ns (ns : Option DStr) (s : DStr) (cs : List Char) (h : Holds s cs) :
    createNamedNS ns (some s) = .exc .invalidCharacter ↔ ¬ IsName cs := by
  have hname : validateName (some s) = true ↔ IsName cs := by
    rw [C14_name_iff s (by rw [h.data]; exact h.small)]
    constructor
    · rintro ⟨ds, e, h'⟩
      rw [h.data] at e
      rw [utf8_inj e]; exact h'
    · intro h'; exact ⟨cs, h.data, h'⟩
  by_cases hN : IsName cs
  swap
  · have : validateName (some s) = false := by rw [← Bool.not_eq_true, hname]; exact hN
    simp [createNamedNS, this, hN]
  simp only [hN, not_true, iff_false]
  have hv := hname.2 hN
  have hs : ∃ r, splitQName s = .ok r := by
    rcases C16_split_lossless s cs h hN with ⟨_, h⟩ | ⟨p, l, _, _, h, _⟩ <;> exact ⟨_, h⟩
  obtain ⟨r, hr⟩ := hs
  have hq : validateQName (some s) ns ≠ .exc .invalidCharacter := by
    unfold validateQName
    simp only [hv, Bool.true_eq_false, if_false, Str.length_holds h, Out.bind_ok]
    rcases index_cases h hN.decodable with ⟨h1, h2⟩ | ⟨ps, ls, h1, rfl, h3, h4⟩
    · rw [h1]
      simp only [Out.bind_ok, if_true]
      cases ns with
      | none => simp
      | some n => simp only; split_ifs <;> simp
    · rw [h1]
      obtain ⟨p, l, s1, hp, s2, hl⟩ := split_parts h
      simp only [Out.bind_ok, h4, if_false]
      cases ns with
      | none => split_ifs <;> simp_all
      | some n => simp only [s1, s2, Out.bind_ok]; split_ifs <;> simp_all
  unfold createNamedNS
  simp only [hv, Bool.true_eq_false, if_false]
  cases hvq : validateQName (some s) ns with
  | ok a => simp only [Out.bind_ok, hr]; simp
  | exc e =>
    intro h'
    apply hq
    rw [hvq]
    exact congrArg _ (by injection h')
  | fault f => intro h'; cases h'

end Dom.Names
