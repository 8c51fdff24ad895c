import Verif.Str.Props
import Mathlib.Data.List.Induction
/-!
# Property C05: backward search (`dom_string_rindex`)

Full claim: `rindex` returns the greatest position holding `chr`, `(uint32_t)-1` if there is none.
The code does not satisfy it: the result is one too large when a character is found, and most occurrences other
than the last character of the string are not found at all, because the length argument at
src/core/string.c:447 subtracts the length of the previously decoded character.
-/
namespace Dom.Str

set_option linter.unusedSimpArgs false
attribute [-simp] String.length_utf8EncodeChar

theorem utf8Prev_step (s : Bytes) (n k : Nat) (b : UInt8) (hb : s[n]? = some b) (hb' : isCont b = false)
    (hc : ∀ j, j < k → ∃ x, s[n + 1 + j]? = some x ∧ isCont x = true) :
    utf8Prev s (n + 1 + k) = n := by
  induction k with
  | zero => simp [utf8Prev, hb, hb']
  | succ k ih =>
    obtain ⟨x, hx, hx'⟩ := hc k (by omega)
    show utf8Prev s ((n + 1 + k) + 1) = n
    rw [utf8Prev, hx]
    simp only [hx', if_true]
    exact ih (fun j hj => hc j (by omega))

theorem utf8Prev_enc (pre : List Char) (c : Char) (post : List Char) :
    utf8Prev (utf8 (pre ++ c :: post)) (utf8 (pre ++ [c])).length = (utf8 pre).length := by
  obtain ⟨b, rest, h, hb, hr, _⟩ := enc_shape c
  have e : (utf8 (pre ++ [c])).length = (utf8 pre).length + 1 + rest.length := by simp [h]; omega
  have hs : utf8 (pre ++ c :: post) = utf8 pre ++ (b :: (rest ++ utf8 post)) := by simp [h]
  rw [e, hs]
  apply utf8Prev_step _ _ _ b
  · simp
  · exact hb
  · intro j hj
    refine ⟨rest[j], ?_, hr _ (by simp)⟩
    rw [List.getElem?_append_right (by omega)]
    have : (utf8 pre).length + 1 + j - (utf8 pre).length = j + 1 := by omega
    rw [this, List.getElem?_cons_succ, List.getElem?_append_left hj]
    simp

theorem toUcs4_dich (c : Char) (tail : Bytes) (n : Nat) :
    toUcs4 (String.utf8EncodeChar c ++ tail) n = none ∨
    toUcs4 (String.utf8EncodeChar c ++ tail) n = some (c.toNat, (String.utf8EncodeChar c).length) := by
  obtain ⟨b, rest, h, hb, hr, hl, hc, hm⟩ := enc_shape c
  rw [h]
  simp only [List.cons_append, toUcs4, hl, Nat.add_sub_cancel, hc tail, List.length_cons]
  split
  · exact .inl rfl
  · split
    · exact .inl rfl
    · exact .inr rfl

theorem rindexLoop_spec (chr : Nat) (pre post : List Char) (fuel clen : Nat)
    (hsm : pre.length < 2 ^ 32) (hf : (utf8 pre).length ≤ fuel) :
    let r := rindexLoop (utf8 (pre ++ post)) chr fuel (utf8 pre).length clen pre.length
    r = u32max ∨ ∃ p c, r = p + 1 ∧ pre[p]? = some c ∧ c.toNat = chr ∧
      ∀ q d, p < q → pre[q]? = some d → d.toNat ≠ chr := by
  induction pre using List.reverseRecOn generalizing post fuel clen with
  | nil => left; cases fuel <;> simp [rindexLoop]
  | append_singleton pre c ih =>
    have hpos := enc_length_pos c
    have hlen : (utf8 (pre ++ [c])).length = (utf8 pre).length + (String.utf8EncodeChar c).length := by simp
    obtain ⟨m, hm⟩ : ∃ m, (utf8 (pre ++ [c])).length = m + 1 := ⟨(utf8 (pre ++ [c])).length - 1, by omega⟩
    obtain ⟨f, hfe⟩ : ∃ f, fuel = f + 1 := ⟨fuel - 1, by omega⟩
    have hprev := utf8Prev_enc pre c post
    have happ : pre ++ [c] ++ post = pre ++ c :: post := by simp
    have hdrop : (utf8 (pre ++ c :: post)).drop (utf8 pre).length = String.utf8EncodeChar c ++ utf8 post := by
      simp
    subst hfe
    rw [happ]
    rw [hm] at hprev ⊢
    simp only [rindexLoop, hprev, hdrop]
    have hl' : (pre ++ [c]).length = pre.length + 1 := by simp
    rcases toUcs4_dich c (utf8 post) (sub64 (m + 1) clen) with h | h
    · left; rw [h]
    · rw [h]
      simp only
      by_cases he : c.toNat = chr
      · right
        rw [if_pos he, hl']
        refine ⟨pre.length, c, rfl, by simp, he, ?_⟩
        intro q d hq hd
        have := (List.getElem?_eq_some_iff.mp hd).1
        rw [hl'] at this
        omega
      · rw [if_neg he, hl']
        have e1 : sub64 (m + 1) (String.utf8EncodeChar c).length = (utf8 pre).length := by
          unfold sub64; rw [if_pos (by omega)]; omega
        have e2 : sub32 (pre.length + 1) 1 = pre.length := by
          rw [sub32_le (by omega)]; omega
        rw [e1, e2]
        rcases ih (c :: post) f (String.utf8EncodeChar c).length (by omega) (by omega) with h' | h'
        · exact .inl h'
        · right
          obtain ⟨p, c', hr, hp, hc', hq⟩ := h'
          refine ⟨p, c', hr, ?_, hc', ?_⟩
          · rw [List.getElem?_append_left (List.getElem?_eq_some_iff.mp hp).1]; exact hp
          · intro q d hpq hd
            by_cases hql : q < pre.length
            · rw [List.getElem?_append_left hql] at hd
              exact hq q d hpq hd
            · have hlt := (List.getElem?_eq_some_iff.mp hd).1
              have : q = pre.length := by rw [hl'] at hlt; omega
              subst this
              simp at hd
              rw [← hd]; exact he

/-- C05, the true part.  A result other than `(uint32_t)-1` is one more than the greatest position of `chr`;
in particular an absent character is always reported as absent.
Missing: the result should be that position itself, and present characters should always be found. -/
theorem C05_rindex_partial (s : DStr) (cs : List Char) (chr : Nat) (h : Holds s cs) :
    rindex (some s) chr = .ok u32max ∨
    ∃ p c, rindex (some s) chr = .ok (p + 1) ∧ cs[p]? = some c ∧ c.toNat = chr ∧
      ∀ q d, p < q → cs[q]? = some d → d.toNat ≠ chr := by
  have hb := length_le_utf8 cs
  have hs := h.small
  have key := rindexLoop_spec chr cs [] (utf8 cs).length 0 (by omega) (Nat.le_refl _)
  simp only [List.append_nil] at key
  have e : rindex (some s) chr = .ok (rindexLoop (utf8 cs) chr (utf8 cs).length (utf8 cs).length 0 cs.length) := by
    unfold rindex
    simp only [length_holds h, Out.bind_ok, h.data]
  rw [e]
  rcases key with k | ⟨p, c, hr, hrest⟩
  · exact .inl (by rw [k])
  · exact .inr ⟨p, c, by rw [hr], hrest⟩

/-- C05: an absent character is reported as absent. -/
theorem C05_rindex_absent (s : DStr) (cs : List Char) (chr : Nat) (h : Holds s cs)
    (hno : ∀ c ∈ cs, c.toNat ≠ chr) : rindex (some s) chr = .ok u32max := by
  rcases C05_rindex_partial s cs chr h with h' | ⟨p, c, _, hp, hc, _⟩
  · exact h'
  · exact absurd hc (hno c (List.mem_of_getElem? hp))

/-- C05 is false of the code: in "ab" the position of 'b' is reported as 2 (it is 1) and 'a' is not found. -/
theorem C05_rindex_violated :
    Holds ⟨utf8 ['a', 'b'], false⟩ ['a', 'b'] ∧
    rindex (some ⟨utf8 ['a', 'b'], false⟩) 'b'.toNat = .ok 2 ∧
    rindex (some ⟨utf8 ['a', 'b'], false⟩) 'a'.toNat = .ok u32max := by
  refine ⟨⟨rfl, by decide +kernel⟩, by decide +kernel, by decide +kernel⟩

/-- C05, stated as the negation of the full claim. -/
theorem C05_rindex_full_claim_false :
    ¬ ∀ (s : DStr) (cs : List Char) (chr p : Nat) (c : Char), Holds s cs → cs[p]? = some c → c.toNat = chr →
      (∀ q d, p < q → cs[q]? = some d → d.toNat ≠ chr) → rindex (some s) chr = .ok p := by
  intro hall
  have h := hall ⟨utf8 ['a', 'b'], false⟩ ['a', 'b'] 'b'.toNat 1 'b' ⟨rfl, by decide +kernel⟩ rfl rfl (by
    intro q d hq hd
    have := (List.getElem?_eq_some_iff.mp hd).1
    simp at this
    omega)
  rw [C05_rindex_violated.2.1] at h
  cases h

example : ∃ s cs, Holds s cs ∧ rindex (some s) 'z'.toNat = .ok 5 ∧ cs = sample :=
  ⟨⟨utf8 sample, false⟩, sample, sample_holds false, by decide +kernel, rfl⟩

end Dom.Str
