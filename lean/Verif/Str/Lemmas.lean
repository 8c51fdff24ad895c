import Verif.Str.Spec
namespace Dom.Str

set_option linter.unusedSimpArgs false
attribute [-simp] String.length_utf8EncodeChar

@[simp] theorem utf8_nil : utf8 [] = [] := rfl
@[simp] theorem utf8_cons (c cs) : utf8 (c :: cs) = String.utf8EncodeChar c ++ utf8 cs := rfl
@[simp] theorem utf8_append (a b) : utf8 (a ++ b) = utf8 a ++ utf8 b := by simp [utf8]

theorem char_lt (c : Char) : c.toNat < 0x110000 := by
  have := c.valid
  simp only [UInt32.isValidChar, Nat.isValidChar, Char.toNat] at *
  omega

theorem char_not_surrogate (c : Char) : c.toNat < 0xD800 ∨ 0xDFFF < c.toNat := by
  have := c.valid
  simp only [UInt32.isValidChar, Nat.isValidChar, Char.toNat] at *
  omega

theorem enc_eq (c : Char) : String.utf8EncodeChar c =
   let v := c.toNat
   if v ≤ 127 then [UInt8.ofNat v]
  else
    if v ≤ 2047 then [UInt8.ofNat (v / 64 % 32 + 192), UInt8.ofNat (v % 64 + 128)]
    else
      if v ≤ 65535 then [UInt8.ofNat (v / 4096 % 16 + 224), UInt8.ofNat (v / 64 % 64 + 128), UInt8.ofNat (v % 64 + 128)]
      else
        [UInt8.ofNat (v / 262144 % 8 + 240), UInt8.ofNat (v / 4096 % 64 + 128), UInt8.ofNat (v / 64 % 64 + 128),
          UInt8.ofNat (v % 64 + 128)] := rfl

theorem ofNat_toNat {n : Nat} (h : n < 256) : (UInt8.ofNat n).toNat = n := by
  simp [UInt8.toNat_ofNat']; omega

/-- Everything needed about the encoding of one character. -/
theorem enc_shape (c : Char) : ∃ b rest, String.utf8EncodeChar c = b :: rest ∧ isCont b = false ∧
    (∀ x ∈ rest, isCont x = true) ∧ leadLen b = some (rest.length + 1) ∧
    (∀ tail, contBits rest.length (leadBits b) (rest ++ tail) = some c.toNat) ∧
    minOfLen (rest.length + 1) ≤ c.toNat := by
  have hlt := char_lt c
  rw [enc_eq]
  generalize c.toNat = v at *
  by_cases h1 : v ≤ 127
  · refine ⟨UInt8.ofNat v, [], by simp [h1], ?_, by simp, ?_, ?_, ?_⟩
    · simp [isCont, ofNat_toNat (show v < 256 by omega)]; omega
    · simp only [leadLen, ofNat_toNat (show v < 256 by omega)]; simp; omega
    · intro tail
      simp only [List.length_nil, contBits, leadBits, ofNat_toNat (show v < 256 by omega)]
      simp; omega
    · simp [minOfLen]
  by_cases h2 : v ≤ 2047
  · have e1 := ofNat_toNat (show v / 64 % 32 + 192 < 256 by omega)
    have e2 := ofNat_toNat (show v % 64 + 128 < 256 by omega)
    refine ⟨UInt8.ofNat (v / 64 % 32 + 192), [UInt8.ofNat (v % 64 + 128)], by simp [h1, h2], ?_, ?_, ?_, ?_, ?_⟩
    · simp only [isCont, e1]; simp
    · simp only [List.mem_singleton, forall_eq, isCont, e2]; simp; omega
    · simp only [leadLen, e1]
      repeat' split
      all_goals first | omega | simp
    · intro tail
      have l1 : leadBits (UInt8.ofNat (v / 64 % 32 + 192)) = v / 64 % 32 := by
        simp only [leadBits, e1]; repeat' split
        all_goals omega
      have c2 : isCont (UInt8.ofNat (v % 64 + 128)) = true := by simp only [isCont, e2]; simp; omega
      simp only [List.length_cons, List.length_nil, List.cons_append, List.nil_append, contBits, l1, c2, e2,
        if_true, Option.some.injEq]
      omega
    · simp [minOfLen]; omega
  by_cases h3 : v ≤ 65535
  · have e1 := ofNat_toNat (show v / 4096 % 16 + 224 < 256 by omega)
    have e2 := ofNat_toNat (show v / 64 % 64 + 128 < 256 by omega)
    have e3 := ofNat_toNat (show v % 64 + 128 < 256 by omega)
    have c2 : isCont (UInt8.ofNat (v / 64 % 64 + 128)) = true := by simp only [isCont, e2]; simp; omega
    have c3 : isCont (UInt8.ofNat (v % 64 + 128)) = true := by simp only [isCont, e3]; simp; omega
    refine ⟨UInt8.ofNat (v / 4096 % 16 + 224), [UInt8.ofNat (v / 64 % 64 + 128), UInt8.ofNat (v % 64 + 128)],
      by simp [h1, h2, h3], ?_, ?_, ?_, ?_, ?_⟩
    · simp only [isCont, e1]; simp
    · simp only [List.mem_cons, List.not_mem_nil, or_false, forall_eq_or_imp, forall_eq]; exact ⟨c2, c3⟩
    · simp only [leadLen, e1]
      repeat' split
      all_goals first | omega | simp
    · intro tail
      have l1 : leadBits (UInt8.ofNat (v / 4096 % 16 + 224)) = v / 4096 % 16 := by
        simp only [leadBits, e1]; repeat' split
        all_goals omega
      simp only [List.length_cons, List.length_nil, List.cons_append, List.nil_append, contBits, l1, c2, e2,
        c3, e3, if_true, Option.some.injEq]
      omega
    · simp [minOfLen]; omega
  · have e1 := ofNat_toNat (show v / 262144 % 8 + 240 < 256 by omega)
    have e2 := ofNat_toNat (show v / 4096 % 64 + 128 < 256 by omega)
    have e3 := ofNat_toNat (show v / 64 % 64 + 128 < 256 by omega)
    have e4 := ofNat_toNat (show v % 64 + 128 < 256 by omega)
    have c2 : isCont (UInt8.ofNat (v / 4096 % 64 + 128)) = true := by simp only [isCont, e2]; simp; omega
    have c3 : isCont (UInt8.ofNat (v / 64 % 64 + 128)) = true := by simp only [isCont, e3]; simp; omega
    have c4 : isCont (UInt8.ofNat (v % 64 + 128)) = true := by simp only [isCont, e4]; simp; omega
    refine ⟨UInt8.ofNat (v / 262144 % 8 + 240), [UInt8.ofNat (v / 4096 % 64 + 128), UInt8.ofNat (v / 64 % 64 + 128),
      UInt8.ofNat (v % 64 + 128)], by simp [h1, h2, h3], ?_, ?_, ?_, ?_, ?_⟩
    · simp only [isCont, e1]; simp
    · simp only [List.mem_cons, List.not_mem_nil, or_false, forall_eq_or_imp, forall_eq]; exact ⟨c2, c3, c4⟩
    · simp only [leadLen, e1]
      repeat' split
      all_goals first | omega | simp
    · intro tail
      have l1 : leadBits (UInt8.ofNat (v / 262144 % 8 + 240)) = v / 262144 % 8 := by
        simp only [leadBits, e1]; repeat' split
        all_goals omega
      simp only [List.length_cons, List.length_nil, List.cons_append, List.nil_append, contBits, l1, c2, e2,
        c3, e3, c4, e4, if_true, Option.some.injEq]
      omega
    · simp [minOfLen]; omega

theorem enc_length_pos (c : Char) : 0 < (String.utf8EncodeChar c).length := by
  obtain ⟨b, rest, h, _⟩ := enc_shape c
  simp [h]

theorem length_le_utf8 (cs : List Char) : cs.length ≤ (utf8 cs).length := by
  induction cs with
  | nil => simp
  | cons c cs ih => have := enc_length_pos c; simp; omega

/-- The first byte of the rest of a valid string is never a continuation byte. -/
theorem takeWhile_cont_utf8 (cs : List Char) : (utf8 cs).takeWhile isCont = [] := by
  cases cs with
  | nil => rfl
  | cons c cs =>
    obtain ⟨b, rest, h, hb, _⟩ := enc_shape c
    simp [h, hb]

theorem takeWhile_cont_append (rest : Bytes) (cs : List Char) (h : ∀ x ∈ rest, isCont x = true) :
    (rest ++ utf8 cs).takeWhile isCont = rest := by
  induction rest with
  | nil => simpa using takeWhile_cont_utf8 cs
  | cons x xs ih =>
    simp only [List.cons_append, List.takeWhile_cons, h x (by simp), if_true]
    rw [ih (fun y hy => h y (by simp [hy]))]

/-- One `utf8_next` step moves over exactly one character. -/
theorem utf8Next_enc (pre : List Char) (c : Char) (post : List Char) :
    utf8Next (utf8 (pre ++ c :: post)) (utf8 (pre ++ c :: post)).length (utf8 pre).length
      = some (utf8 (pre ++ [c])).length := by
  obtain ⟨b, rest, h, hb, hr, _⟩ := enc_shape c
  have hp := enc_length_pos c
  unfold utf8Next
  rw [if_neg (by simp; omega)]
  simp only [List.take_length]
  have : (utf8 (pre ++ c :: post)).drop (utf8 pre).length = b :: (rest ++ utf8 post) := by
    simp [h]
  rw [this]
  simp only [hb]
  rw [takeWhile_cont_append rest post hr]
  simp [h]; omega

theorem utf8Next_end (s : Bytes) : utf8Next s s.length s.length = none := by
  simp [utf8Next]

/-- Character offsets and byte offsets. -/
theorem skip_utf8 (pre post : List Char) (i : Nat) :
    skip (utf8 (pre ++ post)) (utf8 (pre ++ post)).length i (utf8 pre).length =
      if i ≤ post.length then some (utf8 (pre ++ post.take i)).length else none := by
  induction i generalizing pre post with
  | zero => simp [skip]
  | succ i ih =>
    cases post with
    | nil => simp [skip, utf8Next]
    | cons c post =>
      simp only [skip, utf8Next_enc]
      have := ih (pre ++ [c]) post
      simp only [List.append_assoc, List.singleton_append] at this
      rw [this]
      simp only [List.length_cons, Nat.add_le_add_iff_right, List.take_succ_cons]

theorem toUcs4_enc (c : Char) (tail : Bytes) (n : Nat) (hn : (String.utf8EncodeChar c).length ≤ n)
    (h1 : c.toNat ≠ 0xFFFE) (h2 : c.toNat ≠ 0xFFFF) :
    toUcs4 (String.utf8EncodeChar c ++ tail) n = some (c.toNat, (String.utf8EncodeChar c).length) := by
  obtain ⟨b, rest, h, hb, hr, hl, hc, hm⟩ := enc_shape c
  have hs := char_not_surrogate c
  rw [h] at hn ⊢
  simp only [List.cons_append, toUcs4, hl]
  rw [if_neg (by simp at hn; omega)]
  simp only [Nat.add_sub_cancel, hc tail]
  rw [if_neg]
  · simp
  · simp [h1, h2]; omega

theorem toUcs4_short (c : Char) (tail : Bytes) (n : Nat) (hn : n < (String.utf8EncodeChar c).length) :
    toUcs4 (String.utf8EncodeChar c ++ tail) n = none := by
  obtain ⟨b, rest, h, hb, hr, hl, hc, hm⟩ := enc_shape c
  rw [h] at hn ⊢
  simp only [List.cons_append, toUcs4, hl]
  rw [if_pos (by simpa using hn)]

theorem utf8LengthAux_enc (cs : List Char) (fuel l : Nat) (hf : cs.length ≤ fuel) :
    utf8LengthAux fuel (utf8 cs) l = some (l + cs.length) := by
  induction cs generalizing fuel l with
  | nil => cases fuel <;> simp [utf8LengthAux]
  | cons c cs ih =>
    obtain ⟨b, rest, h, hb, hr, hl, _⟩ := enc_shape c
    cases fuel with
    | zero => simp at hf
    | succ fuel =>
      simp only [utf8_cons, h, List.cons_append, utf8LengthAux, hl, Nat.add_sub_cancel]
      rw [List.drop_left, ih]
      · simp; omega
      · simpa using hf

theorem utf8Length_enc (cs : List Char) : utf8Length (utf8 cs) = some cs.length := by
  unfold utf8Length
  rw [utf8LengthAux_enc _ _ _ (length_le_utf8 cs)]
  simp

theorem length_holds {s : DStr} {cs : List Char} (h : Holds s cs) : length (some s) = .ok cs.length := by
  have h1 := length_le_utf8 cs
  have h2 := h.small
  simp only [length, h.data, utf8Length_enc]
  rw [u32_small (by omega)]

end Dom.Str
