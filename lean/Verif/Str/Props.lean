import Verif.Str.Lemmas
/-!
# Properties C01–C04: DOM strings
-/
namespace Dom.Str

set_option linter.unusedSimpArgs false
attribute [-simp] String.length_utf8EncodeChar

/-- A concrete string used to show that hypotheses are satisfiable: characters of 1, 2, 3 and 4 bytes. -/
def sample : List Char := ['a', 'é', '€', '𝄞', 'z']

theorem sample_holds (b : Bool) : Holds ⟨utf8 sample, b⟩ sample := ⟨rfl, by decide +kernel⟩

theorem getD_holds {s : Option DStr} {cs : List Char} (h : HoldsOpt s cs) :
    Holds (s.getD emptyString) cs := by
  cases s with
  | none => simp only [HoldsOpt] at h; subst h; exact ⟨rfl, by decide +kernel⟩
  | some s => exact h

/-- `skip` from the start of a string that begins with the characters `a`. -/
theorem skip_start (a b : List Char) :
    skip (utf8 (a ++ b)) (utf8 (a ++ b)).length a.length 0 = some (utf8 a).length := by
  have := skip_utf8 [] (a ++ b) a.length
  simpa using this

/-- `skip` from the byte offset of `a` over the characters `m`. -/
theorem skip_mid (a m z : List Char) :
    skip (utf8 (a ++ (m ++ z))) (utf8 (a ++ (m ++ z))).length m.length (utf8 a).length
      = some (utf8 (a ++ m)).length := by
  have := skip_utf8 a (m ++ z) m.length
  simpa using this

/-- Splitting a list of characters at two ordered positions. -/
theorem split2 (cs : List Char) (i1 i2 : Nat) (h12 : i1 ≤ i2) (h2 : i2 ≤ cs.length) :
    ∃ a m z, cs = a ++ (m ++ z) ∧ a.length = i1 ∧ m.length = i2 - i1 ∧ cs.take i1 = a ∧
      (cs.drop i1).take (i2 - i1) = m ∧ cs.drop i2 = z ∧ i2 = a.length + m.length := by
  refine ⟨cs.take i1, (cs.drop i1).take (i2 - i1), cs.drop i2, ?_, ?_, ?_, rfl, rfl, rfl, ?_⟩
  · have : cs.drop i2 = (cs.drop i1).drop (i2 - i1) := by rw [List.drop_drop]; congr 1; omega
    rw [this, List.take_append_drop, List.take_append_drop]
  · simp; omega
  · simp; omega
  · simp; omega

/-! ## C01 substring -/

/-- C01, success: the characters with index in `[i1, i2)`, for every string and every in-range pair. -/
theorem C01_substr_ok (s : Option DStr) (cs : List Char) (i1 i2 : Nat) (h : HoldsOpt s cs)
    (h12 : i1 ≤ i2) (h2 : i2 ≤ cs.length) :
    ∃ r, substr s i1 i2 = .ok r ∧ Holds r ((cs.drop i1).take (i2 - i1)) := by
  have H := getD_holds h
  have hs := H.small
  obtain ⟨a, m, z, hcs, ha, hm, _, e2, _, _⟩ := split2 cs i1 i2 h12 h2
  rw [e2]
  have k1 := skip_start a (m ++ z)
  have k2 := skip_mid a m z
  rw [← hcs, ha] at k1
  rw [← hcs, hm] at k2
  have e : substr s i1 i2 = .ok (create (((utf8 cs).drop (utf8 a).length).take
      ((utf8 (a ++ m)).length - (utf8 a).length))) := by
    unfold substr
    simp only [H.data, u32_small hs, sub32_le h12, k1, k2]
  refine ⟨_, e, ?_, ?_⟩
  · rw [hcs]; simp [create]
  · rw [hcs] at hs; simp at hs; omega

/-- C01, failure: any out-of-range pair (including `i2 < i1`, whose difference wraps) is reported. -/
theorem C01_substr_fail (s : Option DStr) (cs : List Char) (i1 i2 : Nat) (h : HoldsOpt s cs)
    (hi1 : i1 < 2 ^ 32) (hi2 : i2 < 2 ^ 32) (hbad : ¬ (i1 ≤ i2 ∧ i2 ≤ cs.length)) :
    substr s i1 i2 = .exc .noMem := by
  have H := getD_holds h
  have hb := length_le_utf8 cs
  have hs := H.small
  have k1 := skip_utf8 [] cs i1
  simp only [List.nil_append, utf8_nil, List.length_nil] at k1
  unfold substr
  simp only [H.data, u32_small hs, k1]
  by_cases hc : i1 ≤ cs.length
  · simp only [if_pos hc]
    have k2 := skip_utf8 (cs.take i1) (cs.drop i1) (sub32 i2 i1)
    have e1 : cs = cs.take i1 ++ cs.drop i1 := (List.take_append_drop i1 cs).symm
    rw [← e1, if_neg] at k2
    · simp only [k2]
    · simp only [List.length_drop]
      by_cases h12 : i1 ≤ i2
      · rw [sub32_le h12]; omega
      · rw [sub32_gt (by omega)]; omega
  · simp only [if_neg hc]

example : HoldsOpt (some ⟨utf8 sample, true⟩) sample ∧ 1 ≤ 3 ∧ 3 ≤ sample.length ∧
    (sample.drop 1).take 2 = ['é', '€'] := ⟨sample_holds true, by decide, by decide, rfl⟩

/-! ## C02 insertion -/

/-- C02: the source is spliced in before the character with index `offset`. The second hypothesis is the
precondition the code relies on: the combined byte length (plus terminator) fits in 32 bits. -/
theorem C02_insert_ok (t : Option DStr) (src : DStr) (cs ss : List Char) (offset : Nat)
    (ht : HoldsOpt t cs) (hs : Holds src ss) (hfit : (utf8 cs).length + (utf8 ss).length + 1 < 2 ^ 32)
    (ho : offset ≤ cs.length) :
    ∃ r, insert t (some src) offset = .ok r ∧ Holds r (cs.take offset ++ ss ++ cs.drop offset) := by
  have H := getD_holds ht
  have hsm := H.small
  obtain ⟨a, z, hcs, ha, e1, e2⟩ : ∃ a z, cs = a ++ z ∧ a.length = offset ∧ cs.take offset = a ∧
      cs.drop offset = z := ⟨cs.take offset, cs.drop offset, by simp, by simp; omega, rfl, rfl⟩
  rw [e1, e2]
  have k1 := skip_start a z
  rw [← hcs, ha] at k1
  have hins : (if offset = cs.length then some (utf8 cs).length
      else skip (utf8 cs) (utf8 cs).length offset 0) = some (utf8 a).length := by
    by_cases hend : offset = cs.length
    · rw [if_pos hend]
      have : z = [] := by rw [← e2, hend]; simp
      rw [hcs, this]; simp
    · rw [if_neg hend, k1]
  have e : insert t (some src) offset = .ok (create ((utf8 cs).take (utf8 a).length ++
      (utf8 ss).take (utf8 ss).length ++
      ((utf8 cs).drop (utf8 a).length).take ((utf8 cs).length - (utf8 a).length))) := by
    unfold insert
    simp only [length_holds H, Out.bind_ok, H.data, hs.data, u32_small hsm, u32_small hs.small]
    rw [if_neg (by omega), hins]
    simp only
    rw [if_neg (by omega)]
  refine ⟨_, e, ?_, ?_⟩
  · rw [hcs]; simp [create]
  · rw [hcs] at hfit; simp at hfit ⊢; omega

/-- C02: an offset beyond the end is refused with `DOM_INDEX_SIZE_ERR`. -/
theorem C02_insert_index (t : Option DStr) (src : DStr) (cs : List Char) (offset : Nat)
    (ht : HoldsOpt t cs) (ho : cs.length < offset) : insert t (some src) offset = .exc .indexSize := by
  have H := getD_holds ht
  unfold insert
  simp only [length_holds H, Out.bind_ok]
  rw [if_pos ho]

/-- The size precondition of `C02_insert_ok` is needed: without it the model reaches a buffer overrun. -/
theorem C02_insert_overrun (t : Option DStr) (src : DStr) (cs ss : List Char)
    (ht : HoldsOpt t cs) (hs : Holds src ss) (hbig : 2 ^ 32 ≤ (utf8 cs).length + (utf8 ss).length + 1) :
    insert t (some src) cs.length = .fault .overrun := by
  have H := getD_holds ht
  unfold insert
  simp only [length_holds H, Out.bind_ok, H.data, hs.data, u32_small H.small, u32_small hs.small]
  rw [if_neg (by omega), if_pos trivial]
  simp only
  rw [if_pos (by omega)]

example : HoldsOpt none [] ∧ Holds ⟨utf8 sample, false⟩ sample ∧
    (utf8 sample).length + (utf8 sample).length + 1 < 2 ^ 32 ∧ 2 ≤ sample.length ∧
    sample.take 2 ++ ['x'] ++ sample.drop 2 = ['a', 'é', 'x', '€', '𝄞', 'z'] :=
  ⟨rfl, sample_holds false, by decide +kernel, by decide, rfl⟩

/-! ## C03 replacement -/

/-- C03: characters `[i1, i2)` are replaced by the source. -/
theorem C03_replace_ok (t : Option DStr) (src : DStr) (cs ss : List Char) (i1 i2 : Nat)
    (ht : HoldsOpt t cs) (hs : Holds src ss) (hfit : (utf8 cs).length + (utf8 ss).length + 1 < 2 ^ 32)
    (h12 : i1 ≤ i2) (h2 : i2 ≤ cs.length) :
    ∃ r, replace t (some src) i1 i2 = .ok r ∧ Holds r (cs.take i1 ++ ss ++ cs.drop i2) := by
  have H := getD_holds ht
  have hsm := H.small
  obtain ⟨a, m, z, hcs, ha, hm, e1, _, e3, _⟩ := split2 cs i1 i2 h12 h2
  rw [e1, e3]
  have k1 := skip_start a (m ++ z)
  have k2 := skip_mid a m z
  rw [← hcs, ha] at k1
  rw [← hcs, hm] at k2
  have e : replace t (some src) i1 i2 = .ok (create ((utf8 cs).take (utf8 a).length ++
      (utf8 ss).take (utf8 ss).length ++
      ((utf8 cs).drop (utf8 (a ++ m)).length).take ((utf8 cs).length - (utf8 (a ++ m)).length))) := by
    unfold replace
    simp only [H.data, hs.data, u32_small hsm, u32_small hs.small, sub32_le h12, k1, k2]
    rw [if_neg (by omega)]
  refine ⟨_, e, ?_, ?_⟩
  · rw [hcs]
    have d : (utf8 (a ++ (m ++ z))).drop (utf8 (a ++ m)).length = utf8 z := by
      rw [← List.append_assoc]; simp [-List.append_assoc]
    have l : (utf8 (a ++ (m ++ z))).length - (utf8 (a ++ m)).length = (utf8 z).length := by
      simp; omega
    rw [d, l]
    simp [create]
  · rw [hcs] at hfit; simp at hfit ⊢; omega

/-- C03: an out-of-range pair produces no string. -/
theorem C03_replace_fail (t : Option DStr) (src : DStr) (cs : List Char) (i1 i2 : Nat)
    (ht : HoldsOpt t cs) (hi1 : i1 < 2 ^ 32) (hi2 : i2 < 2 ^ 32)
    (hbad : ¬ (i1 ≤ i2 ∧ i2 ≤ cs.length)) :
    replace t (some src) i1 i2 = .exc .noMem := by
  have H := getD_holds ht
  have hb := length_le_utf8 cs
  have hs := H.small
  have k1 := skip_utf8 [] cs i1
  simp only [List.nil_append, utf8_nil, List.length_nil] at k1
  unfold replace
  simp only [H.data, u32_small hs, k1]
  by_cases hc : i1 ≤ cs.length
  · simp only [if_pos hc]
    have k2 := skip_utf8 (cs.take i1) (cs.drop i1) (sub32 i2 i1)
    have e1 : cs = cs.take i1 ++ cs.drop i1 := (List.take_append_drop i1 cs).symm
    rw [← e1, if_neg] at k2
    · simp only [k2]
    · simp only [List.length_drop]
      by_cases h12 : i1 ≤ i2
      · rw [sub32_le h12]; omega
      · rw [sub32_gt (by omega)]; omega
  · simp only [if_neg hc]

/-- C03: replacing an empty range is insertion; both calls yield strings with the same characters. -/
theorem C03_replace_empty_range (t : Option DStr) (src : DStr) (cs ss : List Char) (i : Nat)
    (ht : HoldsOpt t cs) (hs : Holds src ss) (hfit : (utf8 cs).length + (utf8 ss).length + 1 < 2 ^ 32)
    (hi : i ≤ cs.length) : replace t (some src) i i = insert t (some src) i := by
  obtain ⟨r1, h1, H1⟩ := C03_replace_ok t src cs ss i i ht hs hfit (Nat.le_refl _) hi
  obtain ⟨r2, h2, H2⟩ := C02_insert_ok t src cs ss i ht hs hfit hi
  have n1 : r1.interned = false := by
    unfold replace at h1
    simp only at h1
    repeat' split at h1
    all_goals first | (injection h1 with h1; rw [← h1]; rfl) | cases h1
  have n2 : r2.interned = false := by
    unfold insert at h2
    simp only [length_holds (getD_holds ht), Out.bind_ok] at h2
    repeat' split at h2
    all_goals first | (injection h2 with h2; rw [← h2]; rfl) | cases h2
  have : r1 = r2 := by
    cases r1; cases r2
    simp only [DStr.mk.injEq]
    exact ⟨H1.data.trans H2.data.symm, by simp_all⟩
  rw [h1, h2, this]

example : Holds ⟨utf8 sample, false⟩ sample ∧ 1 ≤ 4 ∧ 4 ≤ sample.length ∧
    sample.take 1 ++ ['x', 'y'] ++ sample.drop 4 = ['a', 'x', 'y', 'z'] :=
  ⟨sample_holds false, by decide, by decide, rfl⟩

/-! ## C04 forward search and indexing -/

theorem indexLoop_spec (chr : Nat) (cs : List Char) (hd : Decodable cs) (fuel k : Nat)
    (hf : cs.length ≤ fuel) (hk : k + cs.length < 2 ^ 32) :
    indexLoop chr fuel (utf8 cs) k =
      match cs.findIdx? (fun c => c.toNat == chr) with
      | some i => k + i
      | none => u32max := by
  induction cs generalizing fuel k with
  | nil => cases fuel <;> simp [indexLoop]
  | cons c cs ih =>
    obtain ⟨b, rest, h, hb, hr, hl, _⟩ := enc_shape c
    cases fuel with
    | zero => simp at hf
    | succ fuel =>
      have hc := hd c (by simp)
      have hu := toUcs4_enc c (utf8 cs) (utf8 (c :: cs)).length (by simp) hc.1 hc.2
      have hdr : (utf8 (c :: cs)).drop (String.utf8EncodeChar c).length = utf8 cs := by simp
      rw [← utf8_cons] at hu
      revert hu hdr
      generalize hg : utf8 (c :: cs) = bs
      intro hu hdr
      have hne : ∃ b0 t, bs = b0 :: t := ⟨b, rest ++ utf8 cs, by rw [← hg]; simp [h]⟩
      obtain ⟨b0, t, rfl⟩ := hne
      simp only [indexLoop, hu, hdr]
      simp only [List.length_cons] at hf hk
      by_cases he : c.toNat = chr
      · rw [if_pos he, List.findIdx?_cons]; simp [he]
      · rw [if_neg he, u32_small (by omega), ih (fun x hx => hd x (by simp [hx])) _ _ (by omega) (by omega),
          List.findIdx?_cons]
        simp only [beq_iff_eq, he, if_false]
        cases hf : cs.findIdx? (fun c => c.toNat == chr) with
        | none => rfl
        | some i => exact Nat.add_right_comm k 1 i

/-- C04: the least position holding `chr`, or `(uint32_t)-1`. -/
theorem C04_index (s : DStr) (cs : List Char) (chr : Nat) (h : Holds s cs) (hd : Decodable cs) :
    (∃ i, index (some s) chr = .ok i ∧ ∃ c, cs[i]? = some c ∧ c.toNat = chr ∧
        ∀ j, j < i → ∀ d, cs[j]? = some d → d.toNat ≠ chr) ∨
    (index (some s) chr = .ok u32max ∧ ∀ c ∈ cs, c.toNat ≠ chr) := by
  have hb := length_le_utf8 cs
  have hs := h.small
  have key := indexLoop_spec chr cs hd (utf8 cs).length 0 hb (by omega)
  simp only [index, h.data, key, Nat.zero_add]
  cases hf : cs.findIdx? (fun c => c.toNat == chr) with
  | none =>
    right
    refine ⟨rfl, fun c hc => ?_⟩
    have := List.findIdx?_eq_none_iff.mp hf c hc
    simpa using this
  | some i =>
    left
    refine ⟨i, rfl, ?_⟩
    have := List.findIdx?_eq_some_iff_getElem.mp hf
    obtain ⟨hi, hp, hlt⟩ := this
    refine ⟨cs[i], by simp [hi], by simpa using hp, fun j hj d hd' => ?_⟩
    have h2 := hlt j hj
    have : cs[j]? = some cs[j] := by simp
    rw [this] at hd'
    injection hd' with e
    rw [← e]; simpa using h2

/-- C04: a position below 2^32-1 is returned only if found, so the two cases above do not overlap. -/
theorem C04_index_found_iff (s : DStr) (cs : List Char) (chr : Nat) (h : Holds s cs) (hd : Decodable cs) :
    index (some s) chr = .ok u32max ↔ ∀ c ∈ cs, c.toNat ≠ chr := by
  have hb := length_le_utf8 cs
  have hs := h.small
  rcases C04_index s cs chr h hd with ⟨i, hi, c, hc, he, _⟩ | ⟨h1, h2⟩
  · constructor
    · intro h'
      rw [h'] at hi
      injection hi with hi
      have hlt := (List.getElem?_eq_some_iff.mp hc).1
      unfold u32max at hi
      omega
    · intro hall
      exact absurd he (hall c (List.mem_of_getElem? hc))
  · exact ⟨fun _ => h2, fun _ => h1⟩

theorem atLoop_spec (n : Nat) (cs : List Char) (fuel i : Nat) (hf : cs.length ≤ fuel)
    (hk : i + cs.length < 2 ^ 32) (hn : i < n) :
    atLoop n fuel (utf8 cs) i =
      if n - 1 - i < cs.length then (n, utf8 (cs.drop (n - 1 - i))) else (i + cs.length, []) := by
  induction cs generalizing fuel i with
  | nil => cases fuel <;> simp [atLoop]
  | cons c cs ih =>
    obtain ⟨b, rest, h, hb, hr, hl, _⟩ := enc_shape c
    cases fuel with
    | zero => simp at hf
    | succ fuel =>
      have hdr : (utf8 (c :: cs)).drop (rest.length + 1) = utf8 cs := by
        simp [h]
      have hg : utf8 (c :: cs) = b :: (rest ++ utf8 cs) := by simp [h]
      rw [hg] at hdr ⊢
      simp only [List.length_cons] at hf hk
      simp only [atLoop, hl, Option.getD_some, hdr]
      rw [u32_small (by omega)]
      by_cases he : i + 1 = n
      · subst he
        rw [if_pos rfl, if_pos (by simp)]
        simp [h]
      · rw [if_neg he, ih _ _ (by omega) (by omega) (by omega)]
        by_cases hlt : n - 1 - i < cs.length + 1
        · rw [if_pos (by omega), if_pos (by simpa using hlt)]
          have : n - 1 - i = (n - 1 - (i + 1)) + 1 := by omega
          rw [this, List.drop_succ_cons]
        · rw [if_neg (by omega), if_neg (by simpa using hlt)]
          simp; omega

/-- C04: `dom_string_at` returns the character at a position inside the string. -/
theorem C04_at_ok (s : DStr) (cs : List Char) (i : Nat) (c : Char) (h : Holds s cs) (hd : Decodable cs)
    (hi : cs[i]? = some c) : «at» (some s) i = .ok c.toNat := by
  have hb := length_le_utf8 cs
  have hs := h.small
  have hlt := (List.getElem?_eq_some_iff.mp hi).1
  have key := atLoop_spec (i + 1) cs (utf8 cs).length 0 hb (by omega) (by omega)
  simp only [Nat.add_sub_cancel, Nat.sub_zero, if_pos hlt] at key
  simp only [«at», h.data, u32_small (show i + 1 < 2 ^ 32 by omega), key, if_true]
  have e : cs.drop i = c :: cs.drop (i + 1) := by
    rw [List.drop_eq_getElem_cons hlt]
    congr 1
    have := (List.getElem?_eq_some_iff.mp hi).2
    exact this
  have hc := hd c (List.mem_of_getElem? hi)
  rw [e, utf8_cons, toUcs4_enc c _ _ (by simp) hc.1 hc.2]

/-- C04: a position at or after the end is refused (all indices but the largest 32-bit value). -/
theorem C04_at_fail_partial (s : DStr) (cs : List Char) (i : Nat) (h : Holds s cs)
    (hi : cs.length ≤ i) (hmax : i < u32max) : «at» (some s) i = .exc .domstringSize := by
  have hb := length_le_utf8 cs
  have hs := h.small
  unfold u32max at hmax
  have key := atLoop_spec (i + 1) cs (utf8 cs).length 0 hb (by omega) (by omega)
  simp only [Nat.add_sub_cancel, Nat.sub_zero, if_neg (show ¬ i < cs.length by omega)] at key
  simp only [«at», h.data, u32_small (show i + 1 < 2 ^ 32 by omega), key]
  rw [if_neg (by omega)]

/-- C04 fails at the one index left out above: on the empty string, index 2^32-1 wraps to "position 0 reached"
and the call returns a value that is not a `dom_exception`. -/
theorem C04_at_wrap_violated : «at» (some emptyString) u32max = .exc .badCode := by decide +kernel

example : Holds ⟨utf8 sample, false⟩ sample ∧ Decodable sample ∧
    index (some ⟨utf8 sample, false⟩) 0x1D11E = .ok 3 ∧ «at» (some ⟨utf8 sample, false⟩) 3 = .ok 0x1D11E ∧
    index (some ⟨utf8 sample, false⟩) 0x41 = .ok u32max :=
  ⟨sample_holds false, by unfold Decodable; decide +kernel, by decide +kernel, by decide +kernel, by decide +kernel⟩

end Dom.Str
