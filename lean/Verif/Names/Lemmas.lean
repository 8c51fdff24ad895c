import Verif.Names.Model
import Verif.Str.PropsRindex
/-!
# Lemmas: table search and decoding
-/
namespace Dom.Names
set_option linter.unusedSimpArgs false
attribute [-simp] String.length_utf8EncodeChar

open Dom.Str (DStr Bytes Holds utf8 toUcs4 contBits leadLen leadBits isCont minOfLen)

/-! ## Table search -/

/-- A table of disjoint ranges in increasing order. -/
def Sorted (r : List (Nat × Nat)) : Prop := (∀ x ∈ r, x.1 ≤ x.2) ∧ r.Pairwise (fun a b => a.2 < b.1)

/-- Some range of the table contains the code point. -/
def InTable (ch : Nat) (r : List (Nat × Nat)) : Prop := ∃ p ∈ r, p.1 ≤ ch ∧ ch ≤ p.2

instance (r : List (Nat × Nat)) : Decidable (Sorted r) := by unfold Sorted; infer_instance
instance (ch : Nat) (r : List (Nat × Nat)) : Decidable (InTable ch r) := by unfold InTable; infer_instance

theorem sorted_lt {r : List (Nat × Nat)} (h : Sorted r) {i j : Nat} {a b : Nat × Nat} (hij : i < j)
    (ha : r[i]? = some a) (hb : r[j]? = some b) : a.2 < b.1 := by
  obtain ⟨hi, rfl⟩ := List.getElem?_eq_some_iff.1 ha
  obtain ⟨hj, rfl⟩ := List.getElem?_eq_some_iff.1 hb
  exact List.pairwise_iff_getElem.1 h.2 i j hi hj hij

theorem binarySearch_spec {r : List (Nat × Nat)} (hs : Sorted r) (ch : Nat) :
    ∀ (fuel : Nat) (left right : Int), 0 ≤ left → right < r.length → left ≤ right + 1 → right - left + 1 < fuel →
      (∀ (i : Nat) (p : Nat × Nat), r[i]? = some p → (i : Int) < left → p.2 < ch) →
      (∀ (i : Nat) (p : Nat × Nat), r[i]? = some p → right < i → ch < p.1) →
      ∃ b, binarySearch ch r fuel left right = .ok b ∧ (b = true ↔ InTable ch r) := by
  intro fuel
  induction fuel with
  | zero =>
    intro left right h0 h1 hlr h2 hl hr
    exfalso; simp at h2; omega
  | succ fuel ih =>
    intro left right h0 h1 hlr h2 hl hr
    unfold binarySearch
    by_cases hgt : left > right
    · rw [if_pos hgt]
      refine ⟨false, rfl, by simp, ?_⟩
      rintro ⟨p, hp, h3, h4⟩
      obtain ⟨i, hi⟩ := List.getElem?_of_mem hp
      rcases Int.lt_or_le (i : Int) left with h | h
      · have := hl i p hi h; omega
      · have := hr i p hi (by omega); omega
    · rw [if_neg hgt]
      have hmid : (left + right).tdiv 2 = (left + right) / 2 := Int.tdiv_eq_ediv_of_nonneg (by omega)
      simp only [hmid]
      have hm0 : 0 ≤ (left + right) / 2 := by omega
      have hm1 : left ≤ (left + right) / 2 := by omega
      have hm2 : (left + right) / 2 ≤ right := by omega
      generalize (left + right) / 2 = mid at hm0 hm1 hm2
      rw [if_neg (by omega)]
      have hlt : mid.toNat < r.length := by omega
      rw [List.getElem?_eq_getElem hlt]
      have hget : r[mid.toNat]? = some r[mid.toNat] := List.getElem?_eq_getElem hlt
      generalize r[mid.toNat] = p at hget
      obtain ⟨s, e⟩ := p
      dsimp only
      have hse : s ≤ e := hs.1 (s, e) (List.mem_of_getElem? hget)
      by_cases h3 : ch ≥ s ∧ ch ≤ e
      · rw [if_pos h3]
        exact ⟨true, rfl, fun _ => ⟨(s, e), List.mem_of_getElem? hget, h3.1, h3.2⟩, fun _ => rfl⟩
      · rw [if_neg h3]
        by_cases h4 : ch < s
        · rw [if_pos h4]
          refine ih left (mid - 1) h0 (by omega) (by omega) (by omega) hl ?_
          intro i p hi hlt'
          rcases Nat.lt_or_ge mid.toNat i with h | h
          · have := sorted_lt hs h hget hi; simp only at this; omega
          · have : i = mid.toNat := by omega
            subst this
            rw [hget] at hi; cases hi; exact h4
        · rw [if_neg h4, if_pos (by omega)]
          refine ih (mid + 1) right (by omega) h1 (by omega) (by omega) ?_ hr
          intro i p hi hlt'
          rcases Nat.lt_or_ge i mid.toNat with h | h
          · have := sorted_lt hs h hi hget; simp only at this
            omega
          · have : i = mid.toNat := by omega
            subst this
            rw [hget] at hi; cases hi
            simp only; omega

theorem inGroup_spec {r : List (Nat × Nat)} (hs : Sorted r) (hne : r ≠ []) (ch : Nat) :
    ∃ b, inGroup ch r = .ok b ∧ (b = true ↔ InTable ch r) := by
  unfold inGroup
  cases r with
  | nil => exact absurd rfl hne
  | cons p r =>
    obtain ⟨s, e⟩ := p
    have hl := List.getLast?_eq_some_getLast (l := (s, e) :: r) (by simp)
    rw [hl]
    generalize hlast : ((s, e) :: r).getLast (by simp) = q
    obtain ⟨s', e'⟩ := q
    simp only [List.head?_cons]
    have hq : ((s, e) :: r)[r.length]? = some (s', e') := by
      rw [← hlast, ← hl, List.getLast?_eq_getElem?]; simp
    by_cases h : ch < s ∨ ch > e'
    · rw [if_pos h]
      refine ⟨false, rfl, by simp, ?_⟩
      rintro ⟨p, hp, h3, h4⟩
      obtain ⟨i, hi⟩ := List.getElem?_of_mem hp
      have hi' := (List.getElem?_eq_some_iff.1 hi).1
      rcases h with h | h
      · rcases Nat.eq_zero_or_pos i with rfl | hpos
        · simp at hi; subst hi; simp at h3; omega
        · have := sorted_lt hs hpos (a := (s, e)) (by simp) hi
          have := hs.1 (s, e) (by simp)
          simp only at *; omega
      · simp only [List.length_cons] at hi'
        rcases Nat.lt_or_ge i r.length with hlt | hge
        · have := sorted_lt hs hlt hi hq
          have := hs.1 (s', e') (List.mem_of_getElem? hq)
          simp only at *; omega
        · have : i = r.length := by omega
          subst this; rw [hq] at hi; cases hi; simp only at *; omega
    · rw [if_neg h]
      refine binarySearch_spec hs ch _ _ _ (by omega) (by simp; omega) (by simp; omega) (by simp; omega) ?_ ?_
      · intro i p _ h; omega
      · intro i p hi hlt
        have := (List.getElem?_eq_some_iff.1 hi).1
        simp at this hlt; omega

theorem truth_inGroup {r : List (Nat × Nat)} (hs : Sorted r) (hne : r ≠ []) (ch : Nat) :
    truth (inGroup ch r) = true ↔ InTable ch r := by
  obtain ⟨b, h1, h2⟩ := inGroup_spec hs hne ch
  rw [← h2, h1]
  simp [truth]

theorem sorted_base : Sorted baseCharRange := by decide +kernel
theorem sorted_char : Sorted charRange := by decide +kernel
theorem sorted_combining : Sorted combiningCharRange := by decide +kernel
theorem sorted_digit : Sorted digitCharRange := by decide +kernel
theorem sorted_extender : Sorted extenderRange := by decide +kernel
theorem sorted_ideographic : Sorted ideographicRange := by decide +kernel

theorem isLetter_iff (ch : Nat) : isLetter ch = true ↔ InTable ch baseCharRange ∨ InTable ch ideographicRange := by
  simp only [isLetter, Bool.or_eq_true, truth_inGroup sorted_base (by decide +kernel),
    truth_inGroup sorted_ideographic (by decide +kernel)]

/-- Inclusion of tables. -/
theorem inTable_mono {r q : List (Nat × Nat)} (h : ∀ x ∈ r, ∃ y ∈ q, y.1 ≤ x.1 ∧ x.2 ≤ y.2) {ch : Nat}
    (hc : InTable ch r) : InTable ch q := by
  obtain ⟨p, hp, h1, h2⟩ := hc
  obtain ⟨y, hy, h3, h4⟩ := h p hp
  exact ⟨y, hy, by omega, by omega⟩

/-! ## Decoding -/

theorem isCont_iff (b : UInt8) : isCont b = true ↔ 128 ≤ b.toNat ∧ b.toNat < 192 := by simp [isCont]

theorem contBits_range : ∀ (k acc : Nat) (bs : Bytes) (v : Nat), contBits k acc bs = some v →
    acc * 64 ^ k ≤ v ∧ v < (acc + 1) * 64 ^ k := by
  intro k
  induction k with
  | zero => intro acc bs v h; simp only [contBits, Option.some.injEq] at h; subst h; simp
  | succ k ih =>
    intro acc bs v h
    cases bs with
    | nil => simp [contBits] at h
    | cons b bs =>
      simp only [contBits] at h
      split at h
      · rename_i hb
        rw [isCont_iff] at hb
        have := ih _ _ _ h
        have e : 64 ^ (k + 1) = 64 * 64 ^ k := by rw [Nat.pow_succ]; omega
        rw [e]
        generalize 64 ^ k = x at *
        constructor
        · refine Nat.le_trans ?_ this.1
          rw [← Nat.mul_assoc]
          exact Nat.mul_le_mul_right _ (by omega)
        · refine Nat.lt_of_lt_of_le this.2 ?_
          rw [← Nat.mul_assoc]
          exact Nat.mul_le_mul_right _ (by omega)
      · cases h

theorem contBits_inj : ∀ (k acc acc' : Nat) (bs bs' : Bytes) (v : Nat), contBits k acc bs = some v →
    contBits k acc' bs' = some v → acc = acc' ∧ bs.take k = bs'.take k := by
  intro k
  induction k with
  | zero =>
    intro acc acc' bs bs' v h h'
    simp only [contBits, Option.some.injEq] at h h'
    exact ⟨by omega, rfl⟩
  | succ k ih =>
    intro acc acc' bs bs' v h h'
    cases bs with
    | nil => simp [contBits] at h
    | cons b bs =>
      cases bs' with
      | nil => simp [contBits] at h'
      | cons b' bs' =>
        simp only [contBits] at h h'
        split at h
        · rename_i hb
          split at h'
          · rename_i hb'
            rw [isCont_iff] at hb hb'
            obtain ⟨h1, h2⟩ := ih _ _ _ _ _ h h'
            have : b.toNat = b'.toNat := by omega
            have hbb : b = b' := UInt8.toNat_inj.1 this
            subst hbb
            exact ⟨by omega, by simp [h2]⟩
          · cases h'
        · cases h

theorem leadLen_bounds {b : UInt8} {k : Nat} (h : leadLen b = some k) :
    (k = 1 ∧ leadBits b < 128 ∧ b.toNat = leadBits b) ∨ (k = 2 ∧ leadBits b < 32 ∧ b.toNat = leadBits b + 0xC0) ∨
    (k = 3 ∧ leadBits b < 16 ∧ b.toNat = leadBits b + 0xE0) ∨ (k = 4 ∧ leadBits b < 8 ∧ b.toNat = leadBits b + 0xF0) ∨
    (k = 5 ∧ leadBits b < 4 ∧ b.toNat = leadBits b + 0xF8) ∨ (k = 6 ∧ leadBits b < 2 ∧ b.toNat = leadBits b + 0xFC) := by
  unfold leadBits
  unfold leadLen at h
  simp only at h ⊢
  generalize b.toNat = m at *
  by_cases h1 : m < 0x80
  · rw [if_pos h1] at h; cases h; rw [if_pos h1]; omega
  rw [if_neg h1] at h; rw [if_neg h1]
  by_cases h2 : m < 0xC0
  · rw [if_pos h2] at h; cases h
  rw [if_neg h2] at h
  by_cases h3 : m < 0xE0
  · rw [if_pos h3] at h; cases h; rw [if_pos h3]; omega
  rw [if_neg h3] at h; rw [if_neg h3]
  by_cases h4 : m < 0xF0
  · rw [if_pos h4] at h; cases h; rw [if_pos h4]; omega
  rw [if_neg h4] at h; rw [if_neg h4]
  by_cases h5 : m < 0xF8
  · rw [if_pos h5] at h; cases h; rw [if_pos h5]; omega
  rw [if_neg h5] at h; rw [if_neg h5]
  by_cases h6 : m < 0xFC
  · rw [if_pos h6] at h; cases h; rw [if_pos h6]; omega
  rw [if_neg h6] at h; rw [if_neg h6]
  by_cases h7 : m < 0xFE
  · rw [if_pos h7] at h; cases h; omega
  rw [if_neg h7] at h; cases h

theorem toUcs4_some {s : Bytes} {n c k : Nat} (h : toUcs4 s n = some (c, k)) :
    ∃ b rest, s = b :: rest ∧ leadLen b = some k ∧ k ≤ n ∧ contBits (k - 1) (leadBits b) rest = some c ∧
      minOfLen k ≤ c ∧ ¬ (0xD800 ≤ c ∧ c ≤ 0xDFFF) ∧ c ≠ 0xFFFE ∧ c ≠ 0xFFFF := by
  cases s with
  | nil => simp [toUcs4] at h
  | cons b rest =>
    simp only [toUcs4] at h
    cases hl : leadLen b with
    | none => rw [hl] at h; simp at h
    | some k' =>
      rw [hl] at h
      simp only at h
      split at h
      · cases h
      · rename_i hn
        cases hc : contBits (k' - 1) (leadBits b) rest with
        | none => rw [hc] at h; simp at h
        | some c' =>
          rw [hc] at h
          simp only at h
          split at h
          · cases h
          · rename_i hbad
            simp only [Option.some.injEq, Prod.mk.injEq] at h
            obtain ⟨rfl, rfl⟩ := h
            simp only [Bool.or_eq_true, decide_eq_true_eq, Bool.and_eq_true, beq_iff_eq, not_or] at hbad
            exact ⟨b, rest, rfl, hl, by omega, hc, by omega, hbad.1.1.2, hbad.1.2, hbad.2⟩

theorem toUcs4_upper {s : Bytes} {n c k : Nat} (h : toUcs4 s n = some (c, k)) :
    (k = 1 ∧ c < 0x80) ∨ (k = 2 ∧ 0x80 ≤ c ∧ c < 0x800) ∨ (k = 3 ∧ 0x800 ≤ c ∧ c < 0x10000) ∨
    (k = 4 ∧ 0x10000 ≤ c ∧ c < 0x200000) ∨ (k = 5 ∧ 0x200000 ≤ c ∧ c < 0x4000000) ∨
    (k = 6 ∧ 0x4000000 ≤ c ∧ c < 0x80000000) := by
  obtain ⟨b, rest, rfl, hl, _, hc, hm, _⟩ := toUcs4_some h
  have hr := contBits_range _ _ _ _ hc
  rcases leadLen_bounds hl with ⟨rfl, h1, _⟩ | ⟨rfl, h1, _⟩ | ⟨rfl, h1, _⟩ | ⟨rfl, h1, _⟩ | ⟨rfl, h1, _⟩ | ⟨rfl, h1, _⟩ <;>
    simp only [minOfLen] at hm <;> simp only [Nat.reduceSub, Nat.reducePow] at hr <;> omega

theorem toUcs4_inj {s s' : Bytes} {n n' c k k' : Nat} (h : toUcs4 s n = some (c, k)) (h' : toUcs4 s' n' = some (c, k')) :
    k = k' ∧ s.take k = s'.take k := by
  have hk : k = k' := by
    have := toUcs4_upper h
    have := toUcs4_upper h'
    omega
  subst hk
  obtain ⟨b, rest, rfl, hl, _, hc, _⟩ := toUcs4_some h
  obtain ⟨b', rest', rfl, hl', _, hc', _⟩ := toUcs4_some h'
  obtain ⟨h1, h2⟩ := contBits_inj _ _ _ _ _ _ hc hc'
  have hb : b = b' := by
    apply UInt8.toNat_inj.1
    have := leadLen_bounds hl
    have := leadLen_bounds hl'
    omega
  subst hb
  refine ⟨rfl, ?_⟩
  cases k with
  | zero => simp
  | succ k => simpa using h2

/-- A decoded code point in the Unicode range is a character, and the bytes read are its UTF-8 form. -/
theorem toUcs4_char {s : Bytes} {n c k : Nat} (h : toUcs4 s n = some (c, k)) (hc : c ≤ 0x10FFFF) :
    ∃ ch : Char, ch.toNat = c ∧ s = String.utf8EncodeChar ch ++ s.drop k := by
  obtain ⟨_, _, _, _, hkn, _, _, hsur, he, hf⟩ := toUcs4_some h
  have hv : c.isValidChar := by unfold Nat.isValidChar; omega
  refine ⟨Char.ofNat c, ?_, ?_⟩
  · simp [Char.ofNat, hv, Char.toNat, Char.ofNatAux]
  · have hch : (Char.ofNat c).toNat = c := by simp [Char.ofNat, hv, Char.toNat, Char.ofNatAux]
    have h2 := Str.toUcs4_enc (Char.ofNat c) [] (String.utf8EncodeChar (Char.ofNat c)).length (Nat.le_refl _)
      (by rw [hch]; exact he) (by rw [hch]; exact hf)
    rw [hch] at h2
    obtain ⟨h3, h4⟩ := toUcs4_inj h h2
    rw [List.append_nil, h3, List.take_length] at h4
    conv_lhs => rw [← List.take_append_drop k s]
    rw [h3, h4]

/-- The validation loop on the UTF-8 form of characters. -/
theorem validLoop_enc (ok : Nat → Bool) (cs : List Char) (hbad : ok 0xFFFE = false ∧ ok 0xFFFF = false) :
    ∀ fuel, (utf8 cs).length ≤ fuel → (validLoop ok fuel (utf8 cs) = true ↔ ∀ c ∈ cs, ok c.toNat = true) := by
  induction cs with
  | nil => intro fuel _; cases fuel <;> simp [validLoop, utf8]
  | cons c cs ih =>
    intro fuel hf
    have hpos := Str.enc_length_pos c
    have hlen : (utf8 (c :: cs)).length = (String.utf8EncodeChar c).length + (utf8 cs).length := by simp [utf8]
    cases fuel with
    | zero => omega
    | succ fuel =>
      have hcons : ∃ b bs, utf8 (c :: cs) = b :: bs := by
        cases h : utf8 (c :: cs) with
        | nil => rw [h] at hlen; simp at hlen; omega
        | cons b bs => exact ⟨b, bs, rfl⟩
      obtain ⟨b, bs, hb⟩ := hcons
      by_cases hdec : c.toNat ≠ 0xFFFE ∧ c.toNat ≠ 0xFFFF
      · have h1 := Str.toUcs4_enc c (utf8 cs) (utf8 (c :: cs)).length (by omega) hdec.1 hdec.2
        have h2 : utf8 (c :: cs) = String.utf8EncodeChar c ++ utf8 cs := by simp [utf8]
        rw [← h2, hb] at h1
        rw [hb]
        simp only [validLoop, h1]
        rw [← hb, h2, List.drop_left]
        have := ih fuel (by omega)
        by_cases hok : ok c.toNat = true
        · simp only [hok, if_true, this, List.mem_cons, forall_eq_or_imp, true_and]
        · simp only [hok, if_false]
          simp [hok]
      · have hn : ok c.toNat = false := by
          by_cases h : c.toNat = 0xFFFE
          · rw [h]; exact hbad.1
          · rw [show c.toNat = 0xFFFF by by_contra h'; exact hdec ⟨h, h'⟩]; exact hbad.2
        constructor
        · intro h
          rw [hb] at h
          simp only [validLoop] at h
          split at h
          · cases h
          · rename_i c' k heq
            split at h
            · rename_i hok
              exfalso
              rw [← hb] at heq
              have h2 : utf8 (c :: cs) = String.utf8EncodeChar c ++ utf8 cs := by simp [utf8]
              rw [h2] at heq
              rcases Str.toUcs4_dich c (utf8 cs) _ with h3 | h3
              · rw [h3] at heq; cases heq
              · rw [h3] at heq; cases heq; rw [hn] at hok; cases hok
            · cases h
        · intro h
          have := h c (by simp)
          rw [hn] at this; cases this

/-- What the loop accepts is UTF-8, if only Unicode code points pass the test. -/
theorem validLoop_utf8 (ok : Nat → Bool) (hok : ∀ c, ok c = true → c ≤ 0x10FFFF) :
    ∀ (fuel : Nat) (s : Bytes), validLoop ok fuel s = true → ∃ cs, s = utf8 cs := by
  intro fuel
  induction fuel with
  | zero =>
    intro s h
    cases s with
    | nil => exact ⟨[], rfl⟩
    | cons => simp [validLoop] at h
  | succ fuel ih =>
    intro s h
    cases s with
    | nil => exact ⟨[], rfl⟩
    | cons b bs =>
      simp only [validLoop] at h
      split at h
      · cases h
      · rename_i c k heq
        split at h
        · rename_i hc
          obtain ⟨ch, h1, h2⟩ := toUcs4_char heq (hok c hc)
          obtain ⟨cs, h3⟩ := ih _ h
          refine ⟨ch :: cs, ?_⟩
          rw [h2, h3]; simp [utf8]
        · cases h

end Dom.Names
