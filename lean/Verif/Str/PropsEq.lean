import Verif.Str.Props
/-!
# Properties C06–C07: comparison, hashing, concatenation, case conversion
-/
namespace Dom.Str

set_option linter.unusedSimpArgs false
attribute [-simp] String.length_utf8EncodeChar

/-! ## C06 equality, hashing and concatenation -/

/-- The bytes of a nullable string. -/
def contents (s : Option DStr) : List UInt8 := (s.map DStr.data).getD []

theorem data_getD (s : Option DStr) : (s.getD emptyString).data = contents s := by cases s <;> rfl

/-- C06: `dom_string_isequal` is equality of contents, `NULL` counting as empty, whatever the representation. -/
theorem C06_isEqual_iff (s1 s2 : Option DStr) : isEqual s1 s2 = true ↔ contents s1 = contents s2 := by
  unfold isEqual
  simp only [data_getD]
  split
  · simp
  · split
    · rename_i h
      simp only [bne_iff_ne, ne_eq] at h
      constructor
      · intro h'; cases h'
      · intro h'; exact absurd (by rw [h']) h
    · simp

/-- C06: reflexive, symmetric, transitive. -/
theorem C06_isEqual_equivalence : Equivalence (fun s1 s2 => isEqual s1 s2 = true) := by
  refine ⟨fun _ => ?_, fun h => ?_, fun h1 h2 => ?_⟩ <;> simp_all [C06_isEqual_iff]

theorem dolower_eq (b : UInt8) : dolower b = asciiLower b := by
  simp only [dolower, asciiLower, UInt8.le_iff_toNat_le]
  rfl

theorem caselessLoop_iff (a b : Bytes) (h : a.length = b.length) :
    caselessLoop a b = true ↔ a.map asciiLower = b.map asciiLower := by
  induction a generalizing b with
  | nil => cases b <;> simp_all [caselessLoop]
  | cons x xs ih =>
    cases b with
    | nil => simp at h
    | cons y ys =>
      simp only [List.length_cons, Nat.add_right_cancel_iff] at h
      simp only [caselessLoop, dolower_eq, List.map_cons, List.cons.injEq]
      by_cases he : asciiLower x = asciiLower y
      · simp [he, ih ys h]
      · simp [he]

theorem map_dolower (l : Bytes) : l.map dolower = l.map asciiLower :=
  List.map_congr_left fun b _ => dolower_eq b

/-- C06: caseless comparison is equality after ASCII lower-casing. -/
theorem C06_caseless_iff (s1 s2 : Option DStr) :
    caselessIsEqual s1 s2 = true ↔ (contents s1).map asciiLower = (contents s2).map asciiLower := by
  unfold caselessIsEqual
  simp only [data_getD]
  split
  · simp [map_dolower]
  · split
    · rename_i h
      simp only [bne_iff_ne, ne_eq] at h
      constructor
      · intro h'; cases h'
      · intro h'
        have := congrArg List.length h'
        simp at this
        exact absurd this h
    · rename_i h
      simp at h
      exact caselessLoop_iff _ _ h

theorem C06_caseless_equivalence : Equivalence (fun s1 s2 => caselessIsEqual s1 s2 = true) := by
  refine ⟨fun _ => ?_, fun h => ?_, fun h1 h2 => ?_⟩ <;> simp_all [C06_caseless_iff]

theorem C06_isEqual_caseless (s1 s2 : Option DStr) (h : isEqual s1 s2 = true) :
    caselessIsEqual s1 s2 = true := by
  rw [C06_isEqual_iff] at h; rw [C06_caseless_iff, h]

/-- C06: the comparisons against libwapcaplet strings agree, and reject `NULL`. -/
theorem C06_lwc_iff (s1 : Option DStr) (w : Option Bytes) :
    (lwcIsEqual s1 w = true ↔ ∃ s b, s1 = some s ∧ w = some b ∧ s.data = b) ∧
    (caselessLwcIsEqual s1 w = true ↔ ∃ s b, s1 = some s ∧ w = some b ∧
      s.data.map asciiLower = b.map asciiLower) := by
  constructor
  · cases s1 <;> cases w <;> simp [lwcIsEqual]
    intro _ h; rw [h]
  · cases s1 <;> cases w <;> simp [caselessLwcIsEqual]
    rename_i s b
    split
    · simp [map_dolower]
    · by_cases hl : s.data.length = b.length
      · simp [hl, caselessLoop_iff _ _ hl]
      · simp only [hl, not_false_eq_true, true_and]
        constructor
        · intro h; simp_all
        · intro h
          have := congrArg List.length h
          simp at this
          exact absurd this hl

/-- C06: equal strings hash alike. -/
theorem C06_hash (s1 s2 : DStr) (h : isEqual (some s1) (some s2) = true) : hash s1 = hash s2 := by
  rw [C06_isEqual_iff] at h
  simp only [contents, Option.map_some, Option.getD_some] at h
  simp only [hash, h]

/-- C06: concatenation of two strings holds the characters of both. -/
theorem C06_concat (a b : DStr) (as bs : List Char) (ha : Holds a as) (hb : Holds b bs)
    (hfit : (utf8 as).length + (utf8 bs).length < 2 ^ 32) :
    ∃ r, concat (some a) (some b) = .ok r ∧ Holds r (as ++ bs) :=
  ⟨_, rfl, by simp [create, ha.data, hb.data], by simpa using hfit⟩

theorem C06_concat_assoc (a b c : DStr) :
    (concat (some a) (some b) >>= fun x => concat (some x) (some c)) =
    (concat (some b) (some c) >>= fun y => concat (some a) (some y)) := by
  simp [concat, create]

theorem C06_concat_unit (a : DStr) : ∃ r r', concat (some a) (some emptyString) = .ok r ∧
    concat (some emptyString) (some a) = .ok r' ∧ isEqual (some r) (some a) = true ∧
    isEqual (some r') (some a) = true := by
  refine ⟨_, _, rfl, rfl, ?_, ?_⟩ <;> simp [C06_isEqual_iff, contents, create, emptyString]

/-- `NULL` arguments trip the assertions. -/
theorem C06_concat_null (a : Option DStr) :
    concat none a = .fault .assertFail ∧ concat a none = .fault .assertFail := by
  cases a <;> simp [concat]

example : isEqual none (some ⟨[], true⟩) = true ∧ isEqual (some ⟨utf8 sample, true⟩) (some ⟨utf8 sample, false⟩) = true
    ∧ caselessIsEqual (some ⟨[0x41, 0x62], false⟩) (some ⟨[0x61, 0x42], true⟩) = true := by decide +kernel

/-! ## C07 case conversion -/

theorem doupper_eq (b : UInt8) : doupper b = asciiUpper b := by
  simp only [doupper, asciiUpper, UInt8.le_iff_toNat_le]
  rfl

/-- C07: `dom_string_tolower` maps every byte by ASCII lower-casing (whatever the representation). -/
theorem C07_toLower (s : DStr) : ∃ r, toLower s true = .ok r ∧ r.data = s.data.map asciiLower ∧
    r.interned = s.interned := by
  unfold toLower
  cases hs : s.interned
  · exact ⟨_, rfl, by simp [create, map_dolower], rfl⟩
  · simp only [Bool.true_eq_false, if_false]
    split
    · rename_i h
      refine ⟨_, rfl, ?_, hs⟩
      rw [beq_iff_eq] at h
      rw [← map_dolower, ← h]
    · exact ⟨_, rfl, by simp [createInterned, map_dolower], rfl⟩

theorem C07_toUpper (s : DStr) : ∃ r, toUpper s true = .ok r ∧ r.data = s.data.map asciiUpper ∧
    r.interned = s.interned := by
  refine ⟨_, rfl, ?_, rfl⟩
  exact List.map_congr_left fun b _ => doupper_eq b

theorem C07_unicode_unsupported (s : DStr) :
    toLower s false = .exc .notSupported ∧ toUpper s false = .exc .notSupported := ⟨rfl, rfl⟩

theorem asciiLower_noop {b : UInt8} (h : ¬ (65 ≤ b ∧ b ≤ 90)) : asciiLower b = b := by simp [asciiLower, h]
theorem asciiUpper_noop {b : UInt8} (h : ¬ (97 ≤ b ∧ b ≤ 122)) : asciiUpper b = b := by simp [asciiUpper, h]

theorem asciiLower_idem : ∀ b : UInt8, asciiLower (asciiLower b) = asciiLower b := by
  intro b
  have : ∀ i : Fin 256, asciiLower (asciiLower (UInt8.ofNat i)) = asciiLower (UInt8.ofNat i) := by decide +kernel
  have h := this ⟨b.toNat, b.toNat_lt⟩
  simpa using h

theorem asciiUpper_idem : ∀ b : UInt8, asciiUpper (asciiUpper b) = asciiUpper b := by
  intro b
  have : ∀ i : Fin 256, asciiUpper (asciiUpper (UInt8.ofNat i)) = asciiUpper (UInt8.ofNat i) := by decide +kernel
  have h := this ⟨b.toNat, b.toNat_lt⟩
  simpa using h

theorem asciiLower_upper : ∀ b : UInt8, asciiLower (asciiUpper b) = asciiLower b := by
  intro b
  have : ∀ i : Fin 256, asciiLower (asciiUpper (UInt8.ofNat i)) = asciiLower (UInt8.ofNat i) := by decide +kernel
  have h := this ⟨b.toNat, b.toNat_lt⟩
  simpa using h

/-- C07: both conversions are idempotent and stay caseless-equal to their argument. -/
theorem C07_idempotent (s r : DStr) (h : toLower s true = .ok r ∨ toUpper s true = .ok r) :
    (toLower s true = .ok r → toLower r true = .ok r) ∧ (toUpper s true = .ok r → toUpper r true = .ok r) ∧
    caselessIsEqual (some r) (some s) = true := by
  have dext : ∀ a b : DStr, a.data = b.data → a.interned = b.interned → a = b := by
    intro a b; cases a; cases b; simp_all
  have L : toLower s true = .ok r → r.data = s.data.map asciiLower := by
    intro h; obtain ⟨r', h1, h2, _⟩ := C07_toLower s
    rw [h] at h1; injection h1 with h1; rw [h1, h2]
  have U : toUpper s true = .ok r → r.data = s.data.map asciiUpper := by
    intro h; obtain ⟨r', h1, h2, _⟩ := C07_toUpper s
    rw [h] at h1; injection h1 with h1; rw [h1, h2]
  refine ⟨fun h => ?_, fun h => ?_, ?_⟩
  · obtain ⟨r', h1, h2, h3⟩ := C07_toLower r
    rw [h1]; congr 1
    refine dext _ _ ?_ h3
    rw [h2, L h, List.map_map]; congr 1; funext b; exact asciiLower_idem b
  · obtain ⟨r', h1, h2, h3⟩ := C07_toUpper r
    rw [h1]; congr 1
    refine dext _ _ ?_ h3
    rw [h2, U h, List.map_map]; congr 1; funext b; exact asciiUpper_idem b
  · rw [C06_caseless_iff]
    simp only [contents, Option.map_some, Option.getD_some]
    rcases h with h | h
    · rw [L h, List.map_map]; congr 1; funext b; exact asciiLower_idem b
    · rw [U h, List.map_map]; congr 1; funext b; exact asciiLower_upper b

/-- C07: multi-byte sequences are untouched — on a UTF-8 string lower-casing acts on each character, changing only
the letters `A`–`Z`. -/
theorem C07_toLower_chars (s : DStr) (cs : List Char) (h : s.data = utf8 cs) : ∃ r, toLower s true = .ok r ∧
    r.data = utf8 (cs.map fun c => if 'A' ≤ c ∧ c ≤ 'Z' then Char.ofNat (c.toNat + 32) else c) := by
  obtain ⟨r, h1, h2, _⟩ := C07_toLower s
  refine ⟨r, h1, ?_⟩
  rw [h2, h]
  clear h h2 h1
  induction cs with
  | nil => rfl
  | cons c cs ih =>
    simp only [utf8_cons, List.map_append, List.map_cons, ih]
    congr 1
    by_cases hu : 'A' ≤ c ∧ c ≤ 'Z'
    · rw [if_pos hu]
      have hA : 65 ≤ c.toNat := hu.1
      have hZ : c.toNat ≤ 90 := hu.2
      have hcv : c = Char.ofNat c.toNat := by simp
      generalize c.toNat = v at *
      subst hcv
      have : ∀ i : Fin 26, (String.utf8EncodeChar (Char.ofNat (65 + i))).map asciiLower =
        String.utf8EncodeChar (Char.ofNat (65 + i + 32)) := by decide +kernel
      have := this ⟨v - 65, by omega⟩
      simp only at this
      rw [show 65 + (v - 65) = v by omega] at this
      exact this
    · rw [if_neg hu]
      have hn : ∀ x ∈ String.utf8EncodeChar c, asciiLower x = x := by
        intro x hx
        apply asciiLower_noop
        intro hx'
        rw [enc_eq] at hx
        have hlt := char_lt c
        have hnot : ¬ (65 ≤ c.toNat ∧ c.toNat ≤ 90) := hu
        simp only [UInt8.le_iff_toNat_le] at hx'
        have a1 : (65 : UInt8).toNat = 65 := rfl
        have a2 : (90 : UInt8).toNat = 90 := rfl
        rw [a1, a2] at hx'
        generalize c.toNat = v at *
        by_cases h1 : v ≤ 127
        · simp only [h1, if_true, List.mem_singleton] at hx
          rw [hx, ofNat_toNat (by omega)] at hx'
          omega
        · have : 128 ≤ x.toNat := by
            simp only [h1, if_false] at hx
            repeat' split at hx
            all_goals
              simp only [List.mem_cons, List.not_mem_nil, or_false] at hx
              first
                | (rcases hx with hx | hx | hx | hx <;> (rw [hx, ofNat_toNat (by omega)]; omega))
                | (rcases hx with hx | hx | hx <;> (rw [hx, ofNat_toNat (by omega)]; omega))
                | (rcases hx with hx | hx <;> (rw [hx, ofNat_toNat (by omega)]; omega))
          omega
      exact (List.map_congr_left hn).trans (by simp)

example : toLower ⟨utf8 ['A', 'É', 'z'], true⟩ true = .ok ⟨utf8 ['a', 'É', 'z'], true⟩ := by decide +kernel

end Dom.Str
