import Verif.Html.Reflect
import Verif.Attr.Violations
/-!
# C52: reflected properties
-/
namespace Dom.Html
set_option linter.unusedSimpArgs false

open Dom.Attr
open Dom.Str (DStr Bytes contents)

/-! ## Numbers -/

theorem digitOf_dec {d : Nat} (h : d < 10) : digitOf (UInt8.ofNat (48 + d)) = some d := by
  have : d = 0 ∨ d = 1 ∨ d = 2 ∨ d = 3 ∨ d = 4 ∨ d = 5 ∨ d = 6 ∨ d = 7 ∨ d = 8 ∨ d = 9 := by omega
  rcases this with rfl | rfl | rfl | rfl | rfl | rfl | rfl | rfl | rfl | rfl <;> decide +kernel

theorem digits_decimal : ∀ (k n : Nat) (acc : Bytes), n < 10 ^ k → 0 < k → digits 10 (decimalAux k n acc) 0 = digits 10 acc n := by
  intro k
  induction k with
  | zero => intro n acc _ h; omega
  | succ k ih =>
    intro n acc hn _
    unfold decimalAux
    by_cases h : n < 10
    · rw [if_pos h]
      unfold digits
      rw [digitOf_dec h]
      simp only []
      rw [if_pos h]
      cases acc <;> simp [digits]
    · rw [if_neg h]
      have hk : 0 < k := by
        rcases Nat.eq_zero_or_pos k with rfl | hk
        · simp at hn; omega
        · exact hk
      rw [ih _ _ (by rw [Nat.pow_succ] at hn; omega) hk]
      conv => lhs; unfold digits
      rw [digitOf_dec (Nat.mod_lt _ (by omega))]
      simp only []
      rw [if_pos (Nat.mod_lt _ (by omega))]
      congr 1
      omega

/-- A decimal digit. -/
def IsDigit (b : UInt8) : Prop := 48 ≤ b.toNat ∧ b.toNat ≤ 57

theorem digit_ofNat {d : Nat} (h : d < 10) : (UInt8.ofNat (48 + d)).toNat = 48 + d := by
  rw [UInt8.toNat_ofNat']
  omega

theorem decimal_shape : ∀ (k n : Nat) (acc : Bytes), n < 10 ^ k → 0 < k → (∀ b ∈ acc, IsDigit b) →
    ∃ b r, decimalAux k n acc = b :: r ∧ (∀ x ∈ b :: r, IsDigit x) ∧ (b = 48 → n = 0) ∧ (n = 0 → r = acc) := by
  intro k
  induction k with
  | zero => intro n acc _ h; omega
  | succ k ih =>
    intro n acc hn _ hacc
    unfold decimalAux
    by_cases h : n < 10
    · rw [if_pos h]
      refine ⟨_, _, rfl, ?_, ?_, fun _ => rfl⟩
      · intro x hx
        rcases List.mem_cons.1 hx with rfl | hx
        · unfold IsDigit
          rw [digit_ofNat h]
          omega
        · exact hacc x hx
      · intro hb
        have := congrArg UInt8.toNat hb
        rw [digit_ofNat h] at this
        have h48 : (48 : UInt8).toNat = 48 := rfl
        omega
    · rw [if_neg h]
      have hk : 0 < k := by
        rcases Nat.eq_zero_or_pos k with rfl | hk
        · simp at hn; omega
        · exact hk
      obtain ⟨b, r, h1, h2, h3, h4⟩ := ih (n / 10) (UInt8.ofNat (48 + n % 10) :: acc) (by rw [Nat.pow_succ] at hn; omega) hk (by
        intro x hx
        rcases List.mem_cons.1 hx with rfl | hx
        · unfold IsDigit
          rw [digit_ofNat (Nat.mod_lt _ (by omega))]
          omega
        · exact hacc x hx)
      refine ⟨b, r, h1, h2, fun hb => ?_, fun h0 => by omega⟩
      have := h3 hb
      omega

theorem digit_byte {b : UInt8} (h : IsDigit b) : isSpace b = false ∧ b ≠ 45 ∧ b ≠ 43 ∧ b ≠ 0 := by
  obtain ⟨h1, h2⟩ := h
  refine ⟨?_, ?_, ?_, ?_⟩
  · unfold isSpace
    simp only [Bool.or_eq_false_iff, Bool.and_eq_false_iff, decide_eq_false_iff_not, UInt8.le_iff_toNat_le]
    refine ⟨?_, Or.inr ?_⟩
    · rintro rfl; simp at h1
    · have : (13 : UInt8).toNat = 13 := rfl
      omega
  all_goals rintro rfl; simp at h1

/-- A decimal number is read back. -/
theorem scan_decimal {n : Nat} (h : n < 10 ^ 10) : scan (decimal n) = (false, n) ∧ cstr (decimal n) = decimal n := by
  obtain ⟨b, r, h1, h2, h3, h4⟩ := decimal_shape 10 n [] h (by omega) (by simp)
  have hv := digits_decimal 10 n [] h (by omega)
  unfold decimal
  rw [h1] at hv ⊢
  obtain ⟨d1, d2, d3, d4⟩ := digit_byte (h2 b (by simp))
  refine ⟨?_, cstr_id fun x hx => (digit_byte (h2 x hx)).2.2.2⟩
  unfold scan
  rw [List.dropWhile_cons_of_neg (by rw [d1]; simp)]
  have hm : magnitude (b :: r) = n := by
    unfold magnitude
    split
    · rename_i x r' heq
      injection heq with hb hr
      have := h4 (h3 hb)
      rw [hr] at this
      cases this
    · rw [hv]; rfl
  split
  · rename_i heq; injection heq with hb; exact absurd hb d2
  · rename_i heq; injection heq with hb; exact absurd hb d3
  · rw [hm]

theorem toUInt32_lt (v : Int) : toUInt32 v < 4294967296 := by
  unfold toUInt32
  have := Int.emod_lt_of_pos v (b := 4294967296) (by omega)
  have := Int.emod_nonneg v (b := 4294967296) (by omega)
  omega

/-- An `int32_t` written as `uint32_t` and read with `strtol` is itself. -/
theorem int32_back {v : Int} (h1 : -2147483648 ≤ v) (h2 : v < 2147483648) : toInt32 (strtol (decimal (toUInt32 v))) = v := by
  have hlt := toUInt32_lt v
  unfold strtol
  rw [(scan_decimal (n := toUInt32 v) (by omega)).1]
  simp only [Bool.false_eq_true, if_false]
  rw [if_pos (by omega)]
  unfold toInt32 toUInt32
  have := Int.emod_nonneg v (b := 4294967296) (by omega)
  rw [Int.toNat_of_nonneg this]
  simp only
  rw [Int.emod_emod_of_dvd _ (Int.dvd_refl _)]
  split <;> omega

theorem uint32_back {v : Nat} (h : v < 4294967296) : strtoul (decimal v) % 4294967296 = v := by
  unfold strtoul
  rw [(scan_decimal (n := v) (by omega)).1]
  simp only [Bool.false_and, Bool.false_eq_true, if_false]
  rw [if_neg (by omega)]
  omega

/-! ## Attributes -/

section
variable {s s' : Mem} {ls ls' : Addr → List Addr} {e a c h : Addr} {el el1 : Elem} {n m : ANode} {x : Cell} {ns : Option DStr} {name : DStr} {en : Entry}

theorem lookup_data (l : List Entry) {n1 n2 : DStr} (h : n1.data = n2.data) : lookup l ns n1 = lookup l ns n2 := by
  unfold lookup
  congr 1
  funext en
  exact decide_eq_decide.2 (by unfold Fits; rw [h])

/-- What is in the memory after a value has been set. -/
theorem set_kids (hI : Inv s ls) (he : s.elems e = some el) (hro : el.ro = false) (v : DStr)
    (hname : Names.validateAttributeName (some name) = true)
    (hw : ∀ en n, lookup (view s (ls e)) none name = some en → s.attrs en.attr = some n → Writable n) :
    ∃ s' ls' el' en n, setAttr e none name (some v) s = .ok s' () ∧ Inv s' ls' ∧ s'.elems e = some el' ∧
      lookup (view s' (ls' e)) none name = some en ∧ s'.attrs en.attr = some n ∧ n.kids = [.text (some v)] ∧ n.parent = some e := by
  cases hl : lookup (view s (ls e)) none name with
  | some en =>
    obtain ⟨hmem, hfit⟩ := lookup_mem hl
    obtain ⟨c, x, n, h1, h2, h3, h4, h5⟩ := view_mem hI hmem
    obtain ⟨hr, ht⟩ := hw en n hl h4
    obtain ⟨old, _, hrun⟩ := setAttr_existing hI he hro (some v) hname hl h4 hr ht
    exact ⟨_, ls, el, en, withValue n (some v), hrun, (hI.setA (n' := withValue n (some v)) h4 rfl).addLog _, he, hl, by simp, rfl, h5⟩
  | none =>
    obtain ⟨s', c, hrun, hI', hA, hat, _⟩ := setAttr_new hI he hro (some v) hname hl
    refine ⟨s', _, { el with attributes := (ls e ++ [c]).head?, classes := classesFor el.classes none name (contents (some v)) },
      { attr := s.fresh, name := name, ns := none }, madeNode s e el none name (some v), hrun, hI', ?_, ?_, ?_, rfl, rfl⟩
    · rw [hA.elem]; simp
    · rw [hA.view hI, if_pos rfl, lookup_append, hl, if_pos ⟨by simp, rfl⟩]
      rfl
    · rw [hat]; simp

/-- Writing back what was there. -/
theorem setA_back (hn : s.attrs a = some n) (m : ANode) : (s.setA a m).setA a n = s := by
  unfold Mem.setA
  cases s
  congr 1
  funext j
  by_cases hj : j = a
  · subst hj; simp only [if_true]; exact hn.symm
  · simp [hj]

theorem unref_held (hn : s.attrs a = some n) (hp : n.parent ≠ none) :
    unrefAttr a (s.setA a { n with refcnt := n.refcnt + 1 }) = .ok s () := by
  rw [unrefAttr_keep (n := { n with refcnt := n.refcnt + 1 }) (by simp) hp (by simp)]
  exact congrArg (fun z => Res.ok z ()) (setA_back hn _)

/-- Reading the text of the property. -/
theorem propText_run (hI : Inv s ls) (he : s.elems e = some el) (hl : lookup (view s (ls e)) none name = some en) (hn : s.attrs en.attr = some n)
    {v : DStr} (hk : n.kids = [.text (some v)]) (hp : n.parent = some e) :
    propText e name s = .ok s (some (cstr v.data)) := by
  have h1 := getAttrNode_run (ns := none) (name := name) hI he
  rw [hl] at h1
  obtain ⟨n', hn', hrun⟩ := h1
  rw [hn] at hn'
  injection hn' with hn'
  subst hn'
  unfold propText
  rw [bind_ok hrun]
  simp only []
  rw [getANode_bind (n := { n with refcnt := n.refcnt + 1 }) (by simp)]
  simp only []
  rw [bind_ok (liftOut_ok (show kidsText n.kids none = .ok (some v) by rw [hk]; rfl))]
  unfold textOf
  rw [pure_bind', bind_ok (unref_held hn (by rw [hp]; simp))]
  rfl

/-- The folded name is the name. -/
theorem fold_lower (he : s.elems e = some el) (hlow : name.data.map Str.asciiLower = name.data) :
    ∃ low, foldName e name s = .ok s low ∧ low.data = name.data := by
  cases hf : folds el with
  | true =>
    obtain ⟨low, h1, _, h3⟩ := foldName_html he hf name
    exact ⟨low, h1, by rw [h3, hlow]⟩
  | false => exact ⟨name, foldName_other he hf name, rfl⟩

theorem validate_data {n1 n2 : DStr} (h : n1.data = n2.data) : Names.validateAttributeName (some n1) = Names.validateAttributeName (some n2) := by
  have : Names.validateAttributeName (some n1) = Names.validateAttributeName (some ⟨n1.data, n2.interned⟩) := rfl
  rw [this, h]

/-- Set and read an integer property. -/
theorem number_run (hI : Inv s ls) (he : s.elems e = some el) (hro : el.ro = false) (hlow : name.data.map Str.asciiLower = name.data)
    (hname : Names.validateAttributeName (some name) = true)
    (hw : ∀ en n, lookup (view s (ls e)) none name = some en → s.attrs en.attr = some n → Writable n) (v : Nat) (hv : v < 10 ^ 10) :
    ∃ s', setUInt32Prop e name v s = .ok s' () ∧ propText e name s' = .ok s' (some (decimal v)) ∧ hasAttribute e name s' = .ok s' true := by
  obtain ⟨low, h1, h2⟩ := fold_lower he hlow
  obtain ⟨s', ls', el', en, n, g1, g2, g3, g4, g5, g6, g7⟩ := set_kids (name := low) hI he hro (Str.create (decimal v)) (by rw [validate_data h2]; exact hname)
    (fun en n hl hn => hw en n (by rw [← lookup_data _ h2]; exact hl) hn)
  have g4' : lookup (view s' (ls' e)) none name = some en := by rw [← lookup_data _ h2]; exact g4
  have g8 := propText_run g2 g3 g4' g5 g6 g7
  obtain ⟨low', h1', h2'⟩ := fold_lower g3 hlow
  refine ⟨s', ?_, ?_, ?_⟩
  · unfold setUInt32Prop setAttribute
    rw [bind_ok h1]
    exact g1
  · rw [g8]
    exact congrArg (fun z => Res.ok s' (some z)) (scan_decimal hv).2
  · unfold hasAttribute
    rw [bind_ok h1', hasAttr_run g2 g3, lookup_data _ h2', g4']
    rfl

/-- **C52**, signed integers: setting the property to a 32-bit value and reading it gives the value, and the attribute is there. -/
theorem C52_int32 (hI : Inv s ls) (he : s.elems e = some el) (hro : el.ro = false) (hlow : name.data.map Str.asciiLower = name.data)
    (hname : Names.validateAttributeName (some name) = true)
    (hw : ∀ en n, lookup (view s (ls e)) none name = some en → s.attrs en.attr = some n → Writable n)
    (v : Int) (h1 : -2147483648 ≤ v) (h2 : v < 2147483648) :
    ∃ s', setInt32Prop e name v s = .ok s' () ∧ getInt32Prop e name s' = .ok s' v ∧ hasAttribute e name s' = .ok s' true := by
  obtain ⟨s', g1, g2, g3⟩ := number_run hI he hro hlow hname hw (toUInt32 v) (Nat.lt_trans (toUInt32_lt v) (by omega))
  refine ⟨s', g1, ?_, g3⟩
  unfold getInt32Prop
  rw [bind_ok g2]
  exact congrArg (Res.ok s') (int32_back h1 h2)

/-- **C52**, unsigned integers. -/
theorem C52_ulong (hI : Inv s ls) (he : s.elems e = some el) (hro : el.ro = false) (hlow : name.data.map Str.asciiLower = name.data)
    (hname : Names.validateAttributeName (some name) = true)
    (hw : ∀ en n, lookup (view s (ls e)) none name = some en → s.attrs en.attr = some n → Writable n)
    (v : Nat) (h : v < 4294967296) :
    ∃ s', setUlongProp e name v s = .ok s' () ∧ getUlongProp e name s' = .ok s' v ∧ hasAttribute e name s' = .ok s' true := by
  obtain ⟨s', g1, g2, g3⟩ := number_run hI he hro hlow hname hw v (by omega)
  refine ⟨s', g1, ?_, g3⟩
  unfold getUlongProp
  rw [bind_ok g2]
  exact congrArg (Res.ok s') (uint32_back h)

/-- **C52**, the canvas: its width and height, except for the value 2^32-1 (see `C52_canvas_violated`). -/
theorem C52_canvas_partial (hI : Inv s ls) (he : s.elems e = some el) (hro : el.ro = false) (hlow : name.data.map Str.asciiLower = name.data)
    (hname : Names.validateAttributeName (some name) = true)
    (hw : ∀ en n, lookup (view s (ls e)) none name = some en → s.attrs en.attr = some n → Writable n)
    (default v : Nat) (h : v < 4294967295) :
    ∃ s', setUlongProp e name v s = .ok s' () ∧ getCanvasProp default e name s' = .ok s' v := by
  obtain ⟨s', g1, g2, _⟩ := C52_ulong hI he hro hlow hname hw v (by omega)
  refine ⟨s', g1, ?_⟩
  unfold getCanvasProp
  rw [bind_ok g2, if_neg (by omega)]
  rfl

/-- The names passed by the callers meet the hypotheses on the name. -/
theorem propNames_fit : ∀ x ∈ propNames, (Names.lit x).data.map Str.asciiLower = (Names.lit x).data ∧ Names.validateAttributeName (some (Names.lit x)) = true := by
  decide +kernel

/-- Reading the boolean property: is there an attribute of the name. -/
theorem getBool_run (hI : Inv s ls) (he : s.elems e = some el) : getBoolProp e name s = .ok s (lookup (view s (ls e)) none name).isSome := by
  have h1 := getAttrNode_run (ns := none) (name := name) hI he
  cases hl : lookup (view s (ls e)) none name with
  | none =>
    rw [hl] at h1
    unfold getBoolProp
    rw [bind_ok h1]
    rfl
  | some en =>
    rw [hl] at h1
    obtain ⟨n, hn, hrun⟩ := h1
    obtain ⟨c, x, n', k1, k2, k3, k4, k5⟩ := view_mem hI (lookup_mem hl).1
    rw [hn] at k4; injection k4 with k4; subst k4
    unfold getBoolProp
    rw [bind_ok hrun, bind_ok (show unrefOpt (some en.attr) _ = _ from unref_held hn (by rw [k5]; simp))]
    rfl

/-- What is seen afterwards: the reading of the property and the presence of the attribute. -/
theorem seen (hI : Inv s ls) (he : s.elems e = some el) (hlow : name.data.map Str.asciiLower = name.data) {b : Bool}
    (hb : (lookup (view s (ls e)) none name).isSome = b) :
    getBoolProp e name s = .ok s b ∧ hasAttribute e name s = .ok s b := by
  obtain ⟨low, h1, h2⟩ := fold_lower he hlow
  subst hb
  refine ⟨getBool_run hI he, ?_⟩
  unfold hasAttribute
  rw [bind_ok h1, hasAttr_run hI he, lookup_data _ h2]

theorem cleanup_ok {α : Type} {m : M α} {after : M Unit} {w w' w'' : Mem} {r : α} (h1 : m w = .ok w' r) (h2 : after w' = .ok w'' ()) :
    cleanup m after w = .ok w'' r := by
  unfold cleanup
  rw [bind_ok (attempt_ok h1), bind_ok h2]
  rfl

/-- Releasing twice what nothing refers to any more. -/
theorem release_twice (hI : Inv s ls) (hn : s.attrs a = some n) (hp : n.parent = none) (h2 : 2 ≤ n.refcnt) :
    ∃ s1 s2, unrefAttr a s = .ok s1 () ∧ unrefAttr a s1 = .ok s2 () ∧ s2.cells = s.cells ∧ s2.elems = s.elems ∧ Inv s2 ls := by
  have r1 := unrefAttr_gone hn hp (by omega)
  have hn1 : ({ s with attrs := fun j => if j = a then (if n.refcnt = 1 then none else some { n with refcnt := n.refcnt - 1 }) else s.attrs j } : Mem).attrs a
      = some { n with refcnt := n.refcnt - 1 } := by
    simp only [if_true]
    rw [if_neg (by omega)]
  have r2 := unrefAttr_gone (n := { n with refcnt := n.refcnt - 1 }) hn1 hp (by simp only; omega)
  refine ⟨_, _, r1, r2, rfl, rfl, ?_⟩
  refine hI.keep rfl (fun _ => rfl) ?_ (Nat.le_refl _) ?_
  · intro j m p hm hmp
    have hj : j ≠ a := by
      rintro rfl
      rw [hn] at hm; injection hm with hm; subst hm
      rw [hp] at hmp; cases hmp
    exact ⟨m, by simp [hj, hm], hmp⟩
  · intro j m hm
    by_cases hj : j = a
    · subst hj; exact hI.bndA hn
    · simp [hj] at hm
      exact hI.bndA hm

/-- The memory after creating an attribute. -/
theorem create_inv (hI : Inv s ls) (doc : Addr) (nm : DStr) (spec : Bool) :
    Inv { s with
        attrs := fun j => if j = s.fresh then
          some { name := nm, ns := none, pfx := none, owner := doc, raw := s.junk, specified := spec } else s.attrs j
        fresh := s.fresh + 1 } ls := by
  refine hI.keep rfl (fun _ => rfl) ?_ (Nat.le_succ _) ?_
  · intro a n p hn hp
    have : a ≠ s.fresh := by
      intro h0
      have := hI.bndA hn
      rw [h0] at this
      exact Nat.lt_irrefl _ this
    exact ⟨n, by simp [this, hn], hp⟩
  · intro a n hn
    by_cases h : a = s.fresh
    · rw [h]; exact Nat.lt_succ_self _
    · simp [h] at hn
      exact Nat.lt_succ_of_lt (hI.bndA hn)

/-- Switching on what is off: one more attribute, at the end. -/
theorem boolOn_run (hI : Inv s ls) (he : s.elems e = some el) (hro : el.ro = false) (hl : lookup (view s (ls e)) none name = none) :
    ∃ s' c, setBoolProp e name true s = .ok s' () ∧ Inv s' (upd ls e (ls e ++ [c])) ∧
      s'.elems = (fun j => if j = e then some { el with attributes := (ls e ++ [c]).head?, classes := classesFor el.classes none name [] } else s.elems j) ∧
      ∀ j, view s' (upd ls e (ls e ++ [c]) j) = if j = e then view s (ls e) ++ [{ attr := s.fresh, name := name, ns := none }] else view s (ls j) := by
  have hg := getAttrNode_run (ns := none) (name := name) hI he
  rw [hl] at hg
  have hI1 := create_inv hI el.owner name true
  obtain ⟨s', c, hrun, hI', hA, hat⟩ := setAttrNode_new (ns := none) (b := []) hI1 (e := e) (a := s.fresh) he hro (by simp; rfl) rfl rfl
    (by exact hl) (fun _ => rfl)
  have hn' : s'.attrs s.fresh = some { settle { name := name, ns := none, pfx := none, owner := el.owner, raw := s.junk, specified := true } with parent := some e } := by
    rw [hat]; simp
  have hk := unrefAttr_keep hn' (by simp) (by
    simp only [settle_fields.2.2.2.1]
    decide)
  have hI'' := hI'.setA (n' := _) hn' (show ({ settle { name := name, ns := none, pfx := none, owner := el.owner, raw := s.junk, specified := true } with
    parent := some e, refcnt := (settle { name := name, ns := none, pfx := none, owner := el.owner, raw := s.junk, specified := true }).refcnt - 1 } : ANode).parent = _ from rfl)
  refine ⟨_, c, ?_, hI'', hA.elem, fun j => hA.view hI1 j⟩
  unfold setBoolProp
  rw [bind_ok hg]
  simp only []
  rw [getElem_bind he]
  show (attrCreate el.owner name none none true >>= _) s = _
  rw [bind_ok (show attrCreate el.owner name none none true s = _ from rfl)]
  refine cleanup_ok (w' := s') (r := ()) ?_ hk
  unfold boolOn setAttributeNode
  rw [bind_ok hrun]
  rfl

/-- Setting to what it is already changes nothing. -/
theorem bool_same (hI : Inv s ls) (he : s.elems e = some el) {b : Bool} (hl : (lookup (view s (ls e)) none name).isSome = b) :
    setBoolProp e name b s = .ok s () := by
  have hg := getAttrNode_run (ns := none) (name := name) hI he
  cases hl1 : lookup (view s (ls e)) none name with
  | none =>
    rw [hl1] at hg hl
    unfold setBoolProp
    rw [bind_ok hg, ← hl]
    rfl
  | some en =>
    rw [hl1] at hg hl
    obtain ⟨n, hn, hg⟩ := hg
    obtain ⟨c, x, n', k1, k2, k3, k4, k5⟩ := view_mem hI (lookup_mem hl1).1
    rw [hn] at k4; injection k4 with k4; subst k4
    unfold setBoolProp
    rw [bind_ok hg, ← hl]
    exact unref_held hn (by rw [k5]; simp)

/-- **C52**, booleans: after setting the property to `b` it reads `b` and the attribute is there exactly if `b`.  Partial: to switch off, the
attribute that is found must have the property name as its node name (so no prefix) and be the only one with this local name (see
`C52_prefix_violated`, `C52_two_violated`). -/
theorem C52_bool_partial (hI : Inv s ls) (he : s.elems e = some el) (hro : el.ro = false) (hlow : name.data.map Str.asciiLower = name.data) (b : Bool)
    (hone : b = false → (view s (ls e)).countP (fun en => decide (Fits none name en)) ≤ 1)
    (hnode : b = false → ∀ en n, lookup (view s (ls e)) none name = some en → s.attrs en.attr = some n → n.pfx = none ∧ n.name.data = name.data) :
    ∃ s', setBoolProp e name b s = .ok s' () ∧ getBoolProp e name s' = .ok s' b ∧ hasAttribute e name s' = .ok s' b := by
  by_cases hsame : (lookup (view s (ls e)) none name).isSome = b
  · exact ⟨s, bool_same hI he hsame, seen hI he hlow hsame⟩
  · cases b with
    | true =>
      have hl : lookup (view s (ls e)) none name = none := by simpa using hsame
      obtain ⟨s', c, h1, h2, h3, h4⟩ := boolOn_run hI he hro hl
      refine ⟨s', h1, seen h2 (e := e) (by rw [h3]; exact if_pos rfl) hlow ?_⟩
      have h5 : lookup (view s' (upd ls e (ls e ++ [c]) e)) none name ≠ none := by
        rw [h4, if_pos rfl, lookup_append]
        have : Fits none name { attr := s.fresh, name := name, ns := none } := ⟨by simp, rfl⟩
        rw [if_pos this]
        simp
      exact Option.isSome_iff_ne_none.2 h5
    | false =>
      cases hl : lookup (view s (ls e)) none name with
      | none => rw [hl] at hsame; simp at hsame
      | some en =>
      have hg := getAttrNode_run (ns := none) (name := name) hI he
      rw [hl] at hg
      obtain ⟨n, hn, hg⟩ := hg
      obtain ⟨hmem, hfit⟩ := lookup_mem hl
      obtain ⟨hpf, hnm⟩ := hnode rfl en n hl hn
      have hone := hone rfl
      have hI1 := hI.setA (n' := { n with refcnt := n.refcnt + 1 }) hn rfl
      obtain ⟨s', pre, suf, hrun, hI', _, hsplit, hv, hat, hel⟩ := removeAttrNode_found (ns := none) (name := n.name) hI1 (e := e) (el := el) (a := en.attr)
        (n := { n with refcnt := n.refcnt + 1 }) he hro (by simp) (by unfold nodeName; simp [hpf])
        (show lookup (view s (ls e)) none n.name = some en by rw [lookup_data _ hnm]; exact hl) rfl
      have hn' : s'.attrs en.attr = some { settle { n with refcnt := n.refcnt + 1 } with parent := none, refcnt := n.refcnt + 1 + 1 } := by
        rw [hat]; simp
      obtain ⟨s1, s2, u1, u2, u3, u4, u5⟩ := release_twice hI' hn' rfl (by simp)
      have hel2 : s2.elems e = some { el with attributes := (pre ++ suf).head?, classes := if isClass en.ns en.name then [] else el.classes } := by
        rw [u4, hel]; simp
      refine ⟨s2, ?_, seen u5 (e := e) hel2 hlow (b := false) ?_⟩
      · unfold setBoolProp
        rw [bind_ok hg]
        simp only []
        refine cleanup_ok (w' := s1) (r := ()) ?_ u2
        unfold boolOff removeAttributeNode
        rw [bind_ok hrun]
        exact u1
      · have h3 : view s2 (upd ls e (pre ++ suf) e) = view s pre ++ view s suf := by
          have := hv e
          rw [if_pos rfl] at this
          unfold view at this ⊢
          rw [u3]
          exact this
        have h4 : view s (ls e) = view s pre ++ en :: view s suf := hsplit
        rw [h3]
        rw [h4] at hone
        have h5 : lookup (view s pre ++ view s suf) none name = none := by
          unfold lookup
          rw [List.find?_eq_none]
          intro k hk
          have h6 : (view s pre).countP (fun en => decide (Fits none name en)) + (view s suf).countP (fun en => decide (Fits none name en)) = 0 := by
            rw [List.countP_append, List.countP_cons_of_pos (by simpa using hfit)] at hone
            omega
          obtain ⟨h7, h8⟩ := Nat.add_eq_zero_iff.1 h6
          rcases List.mem_append.1 hk with hk | hk
          · exact List.countP_eq_zero.1 h7 k hk
          · exact List.countP_eq_zero.1 h8 k hk
        rw [h5]
        rfl
end

/-! ## Samples and disagreements -/

/-- A case of the theorems above: an element that two attributes have been given. -/
theorem reflect_reach : ∃ s ls el, Reach s ∧ Inv s ls ∧ s.elems 0 = some el ∧ el.ro = false ∧
    (view s (ls 0)).countP (fun en => decide (Fits none (str "cols") en)) ≤ 1 ∧
    ∀ en n, lookup (view s (ls 0)) none (str "cols") = some en → s.attrs en.attr = some n → Writable n ∧ n.pfx = none ∧ n.name.data = (str "cols").data := by
  obtain ⟨s, h1, h2⟩ := exists_reach [.newElem 0 { owner := 0 }, .set 0 none (str "id") (some (str "x")), .set 0 none (str "cols") (some (str "7"))]
    (fun s => (s.elems 0).any (fun el => el.ro == false) && (entriesOf s 0).countP (fun en => decide (Fits none (str "cols") en)) ≤ 1 &&
      (lookup (entriesOf s 0) none (str "cols")).all (fun en => (s.attrs en.attr).all fun n => n.readOnly == false && n.typed == false && n.pfx.isNone && n.name.data == (str "cols").data))
    (by decide +kernel)
  obtain ⟨ls, hg⟩ := h1.good
  simp only [Bool.and_eq_true, decide_eq_true_eq] at h2
  obtain ⟨⟨h3, h4⟩, h5⟩ := h2
  cases he : s.elems 0 with
  | none => rw [he] at h3; simp at h3
  | some el =>
    rw [he] at h3
    rw [entriesOf_eq hg.inv] at h4 h5
    refine ⟨s, ls, el, h1, hg.inv, he, by simpa using h3, h4, ?_⟩
    intro en n hl hn
    rw [hl] at h5
    simp only [Option.all_some, hn] at h5
    simp only [Bool.and_eq_true, beq_iff_eq, Option.isNone_iff_eq_none] at h5
    exact ⟨⟨h5.1.1.1, h5.1.1.2⟩, h5.1.2, h5.2⟩

/-- Minus one, the largest and the smallest value go through as their unsigned images. -/
example : toInt32 (strtol (decimal (toUInt32 (-1)))) = -1 ∧ decimal (toUInt32 (-1)) = (str "4294967295").data ∧
    toInt32 (strtol (decimal (toUInt32 (-2147483648)))) = -2147483648 := by decide +kernel

/-- **C52** is violated: a boolean property cannot be switched off when its attribute has a prefix; the attribute stays. -/
theorem C52_prefix_violated : ∃ s s', After s ∧ setBoolProp 0 (str "disabled") false s = .exc s' .notFound ∧ ∃ s'', getBoolProp 0 (str "disabled") s' = .ok s'' true := by
  obtain ⟨s0, g1, g2⟩ := exists_after
    [.newElem 0 { owner := 0 }, .newAttr 0 (str "disabled") (some (str "u")) (some (str "p")), .setNode 0 (some (str "u")) 0]
    (fun s => (match setBoolProp 0 (str "disabled") false s with | .exc s' e => e == .notFound && (getBoolProp 0 (str "disabled") s').gives true | _ => false)) (by decide +kernel)
  cases hr : setBoolProp 0 (str "disabled") false s0 with
  | ok s' u => rw [hr] at g2; simp at g2
  | fault _ => rw [hr] at g2; simp at g2
  | exc s' er =>
    rw [hr] at g2
    simp only [Bool.and_eq_true, beq_iff_eq] at g2
    exact ⟨s0, s', g1, by rw [hr, g2.1], Res.of_gives g2.2⟩

/-- **C52** is violated: a boolean property that was switched off is still on when two namespaces have the local name. -/
theorem C52_two_violated : ∃ s s', After s ∧ setBoolProp 0 (str "disabled") false s = .ok s' () ∧ ∃ s'', getBoolProp 0 (str "disabled") s' = .ok s'' true := by
  obtain ⟨s0, g1, g2⟩ := exists_after
    [.newElem 0 { owner := 0 }, .set 0 none (str "disabled") (some (str "1")), .set 0 (some (str "u")) (str "disabled") (some (str "2"))]
    (fun s => (do setBoolProp 0 (str "disabled") false; getBoolProp 0 (str "disabled") : M Bool) s |>.gives true) (by decide +kernel)
  obtain ⟨s2, k⟩ := Res.of_gives g2
  rw [bind_run] at k
  cases hr : setBoolProp 0 (str "disabled") false s0 with
  | ok s' u => rw [hr] at k; exact ⟨s0, s', g1, hr, s2, k⟩
  | exc _ _ => rw [hr] at k; cases k
  | fault _ => rw [hr] at k; cases k

/-- **C52** is violated: a canvas that is given the width 2^32-1 reports 300. -/
theorem C52_canvas_violated : ∃ s s', After s ∧ setUlongProp 0 (str "width") 4294967295 s = .ok s' () ∧ ∃ s'', getCanvasProp 300 0 (str "width") s' = .ok s'' 300 := by
  obtain ⟨s0, g1, g2⟩ := exists_after [.newElem 0 { owner := 0 }]
    (fun s => (do setUlongProp 0 (str "width") 4294967295; getCanvasProp 300 0 (str "width") : M Nat) s |>.gives 300) (by decide +kernel)
  obtain ⟨s2, k⟩ := Res.of_gives g2
  rw [bind_run] at k
  cases hr : setUlongProp 0 (str "width") 4294967295 s0 with
  | ok s' u => rw [hr] at k; exact ⟨s0, s', g1, hr, s2, k⟩
  | exc _ _ => rw [hr] at k; cases k
  | fault _ => rw [hr] at k; cases k

/-- **C46** is violated: reading an integer property whose attribute was created without a value dereferences NULL. -/
theorem C46_reflect_violated : ∃ s, After s ∧ getInt32Prop 0 (str "cols") s = .fault .nullDeref := by
  obtain ⟨s, h1, h2⟩ := exists_after [.newElem 0 { owner := 0 }, .newAttr 0 (str "cols") none none, .setNode 0 none 0]
    (fun s => (getInt32Prop 0 (str "cols") s).faults .nullDeref) (by decide +kernel)
  exact ⟨s, h1, Res.of_faults h2⟩

/-- The same after switching a boolean property of that name on. -/
theorem C46_reflect_bool_violated : ∃ s, After s ∧ (do setBoolProp 0 (str "start") true; getInt32Prop 0 (str "start") : M Int) s = .fault .nullDeref := by
  obtain ⟨s, h1, h2⟩ := exists_after [.newElem 0 { owner := 0 }]
    (fun s => ((do setBoolProp 0 (str "start") true; getInt32Prop 0 (str "start") : M Int) s).faults .nullDeref) (by decide +kernel)
  exact ⟨s, h1, Res.of_faults h2⟩

end Dom.Html
