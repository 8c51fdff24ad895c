import Verif.Html.PropsReflect
/-!
# C66: numbers read from attributes

What `strtol` and `strtoul` with base 0 make of the text of an attribute, compared with the rules of HTML for parsing integers.
-/
namespace Dom.Html
set_option linter.unusedSimpArgs false
set_option linter.unusedVariables false

open Dom.Attr
open Dom.Str (DStr Bytes contents)

/-- White space in front of a number. -/
def Blank (b : UInt8) : Prop := b = 9 ∨ b = 10 ∨ b = 12 ∨ b = 13 ∨ b = 32

/-- A decimal digit. -/
def Decimal (b : UInt8) : Prop := 48 ≤ b.toNat ∧ b.toNat ≤ 57

/-- The number decimal digits stand for. -/
def decimalValue (ds : Bytes) : Nat := ds.foldl (fun n d => n * 10 + (d.toNat - 48)) 0

/-- The text is, by the rules of HTML, the number `n` with a minus sign or not: white space, an optional sign, decimal digits, and then anything that does
not start with a digit. -/
def Reads (t : Bytes) (neg : Bool) (ds : Bytes) : Prop :=
  ∃ ws sign rest, t = ws ++ (sign ++ (ds ++ rest)) ∧ (∀ b ∈ ws, Blank b) ∧
    (sign = [] ∧ neg = false ∨ sign = [43] ∧ neg = false ∨ sign = [45] ∧ neg = true) ∧
    ds ≠ [] ∧ (∀ b ∈ ds, Decimal b) ∧ ∀ b, rest.head? = some b → ¬ Decimal b

theorem digitOf_decimal {b : UInt8} (h : Decimal b) : digitOf b = some (b.toNat - 48) := by
  unfold digitOf
  have h1 : (48 ≤ b && b ≤ 57) = true := by
    simp only [Bool.and_eq_true, decide_eq_true_eq, UInt8.le_iff_toNat_le]
    exact h
  rw [if_pos h1]

theorem digitOf_big {b : UInt8} (h : ¬ Decimal b) : ∀ d, digitOf b = some d → 10 ≤ d := by
  intro d hd
  unfold digitOf at hd
  split at hd
  · rename_i h1
    simp only [Bool.and_eq_true, decide_eq_true_eq, UInt8.le_iff_toNat_le] at h1
    exact absurd h1 h
  · split at hd
    · rename_i h2
      simp only [Bool.and_eq_true, decide_eq_true_eq, UInt8.le_iff_toNat_le] at h2
      have : (97 : UInt8).toNat = 97 := rfl
      cases hd; omega
    · split at hd
      · rename_i h3
        simp only [Bool.and_eq_true, decide_eq_true_eq, UInt8.le_iff_toNat_le] at h3
        have : (65 : UInt8).toNat = 65 := rfl
        cases hd; omega
      · cases hd

theorem digits_run {rest : Bytes} (hr : ∀ b, rest.head? = some b → ¬ Decimal b) : ∀ (ds : Bytes) (acc : Nat), (∀ b ∈ ds, Decimal b) →
    digits 10 (ds ++ rest) acc = ds.foldl (fun n d => n * 10 + (d.toNat - 48)) acc := by
  intro ds
  induction ds with
  | nil =>
    intro acc _
    cases rest with
    | nil => rfl
    | cons b r =>
      have hb := hr b rfl
      show digits 10 (b :: r) acc = acc
      unfold digits
      cases hd : digitOf b with
      | none => rfl
      | some d =>
        have := digitOf_big hb d hd
        simp only
        rw [if_neg (by omega)]
  | cons b ds ih =>
    intro acc h
    have hb := h b List.mem_cons_self
    show digits 10 (b :: (ds ++ rest)) acc = _
    unfold digits
    rw [digitOf_decimal hb]
    simp only
    have hlt : b.toNat - 48 < 10 := by have := hb.2; omega
    rw [if_pos hlt, ih _ fun x hx => h x (List.mem_cons_of_mem _ hx)]
    rfl

theorem blank_space {b : UInt8} (h : Blank b) : isSpace b = true := by
  rcases h with rfl | rfl | rfl | rfl | rfl <;> decide

theorem decimal_not_space {b : UInt8} (h : Decimal b) : isSpace b = false ∧ b ≠ 45 ∧ b ≠ 43 ∧ b ≠ 0 := by
  have h1 := h.1
  have h2 := h.2
  refine ⟨?_, ?_, ?_, ?_⟩
  · unfold isSpace
    have e1 : (b = 32) = False := eq_false (by rintro rfl; exact absurd h1 (by decide))
    have e2 : ¬ (b ≤ 13) := by
      rw [UInt8.le_iff_toNat_le]
      have : (13 : UInt8).toNat = 13 := rfl
      omega
    simp [e1, e2]
  · rintro rfl; exact absurd h1 (by decide)
  · rintro rfl; exact absurd h1 (by decide)
  · rintro rfl; exact absurd h1 (by decide)

theorem dropBlank {ws r : Bytes} (h : ∀ b ∈ ws, Blank b) (hr : ∀ b, r.head? = some b → isSpace b = false) : (ws ++ r).dropWhile isSpace = r := by
  induction ws with
  | nil =>
    cases r with
    | nil => rfl
    | cons b r => exact List.dropWhile_cons_of_neg (by rw [hr b rfl]; simp)
  | cons b ws ih =>
    show (b :: (ws ++ r)).dropWhile isSpace = r
    rw [List.dropWhile_cons_of_pos (blank_space (h b List.mem_cons_self))]
    exact ih fun x hx => h x (List.mem_cons_of_mem _ hx)

/-- A number that does not start with 0 is read as it should be. -/
theorem magnitude_run {ds rest : Bytes} (hne : ds ≠ []) (h0 : ds.head? ≠ some 48) (hd : ∀ b ∈ ds, Decimal b)
    (hr : ∀ b, rest.head? = some b → ¬ Decimal b) : magnitude (ds ++ rest) = decimalValue ds := by
  cases ds with
  | nil => exact absurd rfl hne
  | cons b ds =>
    have hb : b ≠ 48 := fun e => h0 (by rw [e]; rfl)
    unfold magnitude
    split
    · rename_i x r heq
      injection heq with h1
      exact absurd h1 hb
    · exact digits_run hr (b :: ds) 0 hd

theorem scan_run {t ds : Bytes} {neg : Bool} (h : Reads t neg ds) (h0 : ds.head? ≠ some 48) : scan t = (neg, decimalValue ds) := by
  obtain ⟨ws, sign, rest, rfl, hw, hs, hne, hd, hr⟩ := h
  have hm := magnitude_run hne h0 hd hr
  obtain ⟨b, ds', rfl⟩ := List.exists_cons_of_ne_nil hne
  obtain ⟨d1, d2, d3, _⟩ := decimal_not_space (hd b List.mem_cons_self)
  unfold scan
  rcases hs with ⟨rfl, rfl⟩ | ⟨rfl, rfl⟩ | ⟨rfl, rfl⟩
  · rw [dropBlank hw (by intro c hc; cases hc; exact d1)]
    show (match b :: (ds' ++ rest) with | 45 :: r => _ | 43 :: r => _ | r => _) = _
    split
    · rename_i heq; injection heq with e; exact absurd e d2
    · rename_i heq; injection heq with e; exact absurd e d3
    · exact congrArg (Prod.mk false) hm
  · rw [dropBlank hw (by intro c hc; cases hc; decide)]
    exact congrArg (Prod.mk false) hm
  · rw [dropBlank hw (by intro c hc; cases hc; decide)]
    exact congrArg (Prod.mk true) hm

theorem cstr_append {a r : Bytes} (h : ∀ b ∈ a, b ≠ 0) : Attr.cstr (a ++ r) = a ++ Attr.cstr r := by
  induction a with
  | nil => rfl
  | cons b a ih =>
    show Attr.cstr (b :: (a ++ r)) = b :: (a ++ Attr.cstr r)
    rw [← ih fun x hx => h x (List.mem_cons_of_mem _ hx)]
    exact if_neg (h b List.mem_cons_self)

/-- A NUL in the text ends it; what is in front is read. -/
theorem Reads.cstr {t ds : Bytes} {neg : Bool} (h : Reads t neg ds) : Reads (Attr.cstr t) neg ds := by
  obtain ⟨ws, sign, rest, rfl, hw, hs, hne, hd, hr⟩ := h
  refine ⟨ws, sign, Attr.cstr rest, ?_, hw, hs, hne, hd, ?_⟩
  · have w0 : ∀ b ∈ ws, b ≠ 0 := by
      intro b hb; rcases hw b hb with rfl | rfl | rfl | rfl | rfl <;> decide
    have s0 : ∀ b ∈ sign, b ≠ 0 := by
      rcases hs with ⟨rfl, _⟩ | ⟨rfl, _⟩ | ⟨rfl, _⟩ <;> simp
    rw [cstr_append w0, cstr_append s0, cstr_append fun b hb => (decimal_not_space (hd b hb)).2.2.2]
  · intro b hb
    cases rest with
    | nil => cases hb
    | cons c r =>
      by_cases hc : c = 0
      · subst hc; cases hb
      · have : Attr.cstr (c :: r) = c :: Attr.cstr r := if_neg hc
        rw [this] at hb
        cases hb
        exact hr _ rfl

variable {s s' : Mem} {ls : Addr → List Addr} {e : Addr} {el : Elem} {name : DStr} {en : Entry} {n : ANode} {v : DStr}

/-- **C66**: an integer property whose attribute is a number by the rules of HTML reads as that number.  Partial: the digits must not start with 0
(`C66_octal_violated`, `C66_hex_violated`) and the number must fit the 32 bits (`C66_large_violated`). -/
theorem C66_int32_partial (hI : Inv s ls) (he : s.elems e = some el) (hl : lookup (view s (ls e)) none name = some en) (hn : s.attrs en.attr = some n)
    (hk : n.kids = [.text (some v)]) (hp : n.parent = some e) {ds : Bytes} {neg : Bool} (hv : Reads v.data neg ds) (h0 : ds.head? ≠ some 48) :
    (neg = false → decimalValue ds < 2147483648 → getInt32Prop e name s = .ok s (decimalValue ds)) ∧
    (neg = true → decimalValue ds ≤ 2147483648 → getInt32Prop e name s = .ok s (-(decimalValue ds : Int))) := by
  have h1 := propText_run hI he hl hn hk hp
  have h2 := scan_run hv.cstr h0
  constructor
  · rintro rfl hlt
    unfold getInt32Prop
    rw [bind_ok h1]
    refine congrArg (Res.ok s) ?_
    unfold strtol toInt32
    rw [h2]
    simp only [Bool.false_eq_true, if_false]
    rw [if_pos (by omega)]
    split <;> omega
  · rintro rfl hlt
    unfold getInt32Prop
    rw [bind_ok h1]
    refine congrArg (Res.ok s) ?_
    unfold strtol toInt32
    rw [h2]
    simp only [if_true]
    have hle : decimalValue ds ≤ 9223372036854775808 := by omega
    rw [if_pos hle]
    by_cases h00 : decimalValue ds = 0
    · rw [h00]; decide
    · split <;> omega

/-- **C66**: the same for an unsigned property; a minus sign counts modulo 2^32. -/
theorem C66_ulong_partial (hI : Inv s ls) (he : s.elems e = some el) (hl : lookup (view s (ls e)) none name = some en) (hn : s.attrs en.attr = some n)
    (hk : n.kids = [.text (some v)]) (hp : n.parent = some e) {ds : Bytes} (hv : Reads v.data false ds) (h0 : ds.head? ≠ some 48)
    (hlt : decimalValue ds < 4294967296) : getUlongProp e name s = .ok s (decimalValue ds) := by
  have h1 := propText_run hI he hl hn hk hp
  have h2 := scan_run hv.cstr h0
  unfold getUlongProp
  rw [bind_ok h1]
  refine congrArg (Res.ok s) ?_
  unfold strtoul
  rw [h2]
  simp only [Bool.false_and, Bool.false_eq_true, if_false]
  rw [if_neg (by omega)]
  omega

/-- **C66**: without the attribute the integer property is -1, the unsigned one 2^32-1 and a canvas has its default size. -/
theorem C66_absent (hI : Inv s ls) (he : s.elems e = some el) (hl : lookup (view s (ls e)) none name = none) (default : Nat) :
    getInt32Prop e name s = .ok s (-1) ∧ getUlongProp e name s = .ok s 4294967295 ∧ getCanvasProp default e name s = .ok s default := by
  have h1 := getAttrNode_run (ns := none) (name := name) hI he
  rw [hl] at h1
  have h2 : propText e name s = .ok s none := by
    unfold propText
    rw [bind_ok h1]
    rfl
  have h3 : getUlongProp e name s = .ok s 4294967295 := by
    unfold getUlongProp
    rw [bind_ok h2]; rfl
  refine ⟨?_, h3, ?_⟩
  · unfold getInt32Prop
    rw [bind_ok h2]; rfl
  · unfold getCanvasProp
    rw [bind_ok h3]; rfl

/-! ## Concrete cases and deviations -/

/-- Digits only. -/
theorem reads_digits {t : Bytes} (h1 : t ≠ []) (h : t.all (fun b => decide (48 ≤ b.toNat) && decide (b.toNat ≤ 57)) = true) : Reads t false t := by
  refine ⟨[], [], [], by simp, by simp, Or.inl ⟨rfl, rfl⟩, h1, ?_, by simp⟩
  intro b hb
  have := List.all_eq_true.1 h b hb
  simpa [Decimal] using this

/-- The text `" -12px"` is by the rules of HTML the number -12. -/
example : Reads (str " -12px").data true (str "12").data ∧ decimalValue (str "12").data = 12 := by
  refine ⟨⟨(str " ").data, (str "-").data, (str "px").data, by decide +kernel, ?_, by decide +kernel, by decide +kernel, ?_, ?_⟩, by decide +kernel⟩
  · have : (str " ").data.all (fun b => decide (b = 32)) = true := by decide +kernel
    intro b hb
    have := List.all_eq_true.1 this b hb
    exact Or.inr (Or.inr (Or.inr (Or.inr (by simpa using this))))
  · have : (str "12").data.all (fun b => decide (48 ≤ b.toNat) && decide (b.toNat ≤ 57)) = true := by decide +kernel
    intro b hb
    have := List.all_eq_true.1 this b hb
    simpa [Decimal] using this
  · intro b hb
    have : (str "px").data.head? = some 112 := by decide +kernel
    rw [this] at hb
    cases hb
    rintro ⟨_, h⟩
    exact absurd h (by decide)

/-- An element with the attribute `tabindex` of this value reads the property as that number. -/
def readsAs (v : String) (n : Int) : Bool :=
  (runOps [.newElem 0 { owner := 0 }] empty).any fun s =>
    (do setAttribute 0 (str "tabindex") (some (str v)); getInt32Prop 0 (str "tabindex") : M Int) s |>.gives n

example : readsAs " -12px" (-12) = true ∧ readsAs "2147483647" 2147483647 = true ∧ readsAs "+7 8" 7 = true := by decide +kernel

/-- The same, as a reachable state. -/
theorem readsAs_exists {v : String} {n : Int} (h : readsAs v n = true) :
    ∃ s s' s'', After s ∧ setAttribute 0 (str "tabindex") (some (str v)) s = .ok s' () ∧ getInt32Prop 0 (str "tabindex") s' = .ok s'' n := by
  obtain ⟨s0, g1, g2⟩ := exists_after [.newElem 0 { owner := 0 }]
    (fun s => (do setAttribute 0 (str "tabindex") (some (str v)); getInt32Prop 0 (str "tabindex") : M Int) s |>.gives n) h
  obtain ⟨s2, k⟩ := Res.of_gives g2
  rw [bind_run] at k
  cases hr : setAttribute 0 (str "tabindex") (some (str v)) s0 with
  | ok s' u => rw [hr] at k; exact ⟨s0, s', s2, g1, hr, k⟩
  | exc _ _ => rw [hr] at k; cases k
  | fault _ => rw [hr] at k; cases k

/-- **C66** does not hold for a number with a leading zero: HTML reads `017` as seventeen, the code as fifteen. -/
theorem C66_octal_violated : Reads (str "017").data false (str "017").data ∧ decimalValue (str "017").data = 17 ∧
    ∃ s s' s'', After s ∧ setAttribute 0 (str "tabindex") (some (str "017")) s = .ok s' () ∧ getInt32Prop 0 (str "tabindex") s' = .ok s'' 15 := by
  exact ⟨reads_digits (by decide +kernel) (by decide +kernel), by decide +kernel, readsAs_exists (by decide +kernel)⟩

/-- **C66** does not hold for `0x1F`: HTML reads it as zero followed by garbage, the code as thirty-one. -/
theorem C66_hex_violated : Reads (str "0x1F").data false (str "0").data ∧ decimalValue (str "0").data = 0 ∧
    ∃ s s' s'', After s ∧ setAttribute 0 (str "tabindex") (some (str "0x1F")) s = .ok s' () ∧ getInt32Prop 0 (str "tabindex") s' = .ok s'' 31 := by
  refine ⟨⟨[], [], (str "x1F").data, by decide +kernel, by simp, Or.inl ⟨rfl, rfl⟩, by decide +kernel, ?_, ?_⟩, by decide +kernel,
    readsAs_exists (by decide +kernel)⟩
  · have : (str "0").data = [48] := by decide +kernel
    rw [this]
    intro b hb
    simp only [List.mem_singleton] at hb
    subst hb
    exact ⟨by decide, by decide⟩
  · intro b hb
    have : (str "x1F").data.head? = some 120 := by decide +kernel
    rw [this] at hb
    cases hb
    rintro ⟨_, h⟩
    exact absurd h (by decide)

/-- **C66** does not hold for a text that is not a number: HTML gives the value of an absent attribute, which is -1; the code gives 0. -/
theorem C66_garbage_violated : (∀ neg ds, ¬ Reads (str "abc").data neg ds) ∧
    ∃ s s' s'', After s ∧ setAttribute 0 (str "tabindex") (some (str "abc")) s = .ok s' () ∧ getInt32Prop 0 (str "tabindex") s' = .ok s'' 0 := by
  refine ⟨?_, readsAs_exists (by decide +kernel)⟩
  rintro neg ds ⟨ws, sign, rest, h, hw, hs, hne, hd, _⟩
  have : (str "abc").data = [97, 98, 99] := by decide +kernel
  rw [this] at h
  cases ws with
  | cons b ws =>
    injection h with h1
    have := hw b List.mem_cons_self
    rw [← h1] at this
    rcases this with h | h | h | h | h <;> exact absurd h (by decide)
  | nil =>
    rcases hs with ⟨rfl, _⟩ | ⟨rfl, _⟩ | ⟨rfl, _⟩
    · obtain ⟨b, ds, rfl⟩ := List.exists_cons_of_ne_nil hne
      injection h with h1
      have := hd b List.mem_cons_self
      rw [← h1] at this
      exact absurd this.2 (by decide)
    · injection h with h1
      exact absurd h1 (by decide)
    · injection h with h1
      exact absurd h1 (by decide)

/-- **C66** does not hold for a number out of range: HTML gives the value of an absent attribute, which is -1; the code drops the upper bits. -/
theorem C66_large_violated : Reads (str "4294967301").data false (str "4294967301").data ∧ decimalValue (str "4294967301").data = 4294967301 ∧
    ∃ s s' s'', After s ∧ setAttribute 0 (str "tabindex") (some (str "4294967301")) s = .ok s' () ∧ getInt32Prop 0 (str "tabindex") s' = .ok s'' 5 := by
  exact ⟨reads_digits (by decide +kernel) (by decide +kernel), by decide +kernel, readsAs_exists (by decide +kernel)⟩

end Dom.Html
