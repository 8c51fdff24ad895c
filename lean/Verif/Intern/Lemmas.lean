import Verif.Intern.Model
import Mathlib.Algebra.BigOperators.Group.Finset.Basic
import Mathlib.Algebra.Order.BigOperators.Group.Finset
import Mathlib.Tactic.Ring
/-!
# The invariant of string storage and the effect of each basic step on it
-/
set_option linter.unusedSimpArgs false
set_option linter.unusedVariables false
namespace Dom.Intern

open Dom.Str (Bytes WsOp)

section upd
variable {β : Type} {f : Nat → β} {a b : Nat} {v w : β}
theorem upd_same : upd f a v a = v := if_pos rfl
theorem upd_ne (h : b ≠ a) : upd f a v b = f b := if_neg h
theorem upd_eq (b : Nat) : upd f a v b = if b = a then v else f b := rfl
theorem upd_upd : upd (upd f a v) a w = upd f a w := by
  funext x; simp only [upd]; split <;> rfl
theorem upd_self (h : f a = v) : upd f a v = f := by
  funext x; simp only [upd]; split
  · rename_i e; rw [e, h]
  · rfl
end upd

theorem lt_irr : ∀ {x : Nat}, ¬ x < x := by intros; omega
theorem ne_of_lt' : ∀ {x y : Nat}, x < y → x ≠ y := by intros; omega
theorem ne_succ : ∀ {x y : Nat}, x < y → x ≠ y + 1 := by intros; omega
theorem lt_one : ∀ {x y : Nat}, x < y → x < y + 1 := by intros; omega
theorem lt_two : ∀ {x y : Nat}, x < y → x < y + 2 := by intros; omega
theorem self_one : ∀ {y : Nat}, y < y + 1 := by intros; omega
theorem self_two : ∀ {y : Nat}, y < y + 2 := by intros; omega
theorem succ_two : ∀ {y : Nat}, y + 1 < y + 2 := by intros; omega
theorem self_ne_succ : ∀ {y : Nat}, y ≠ y + 1 := by intros; omega

/-- Whether a string uses the libwapcaplet string `l`: 1 or 0. -/
def uses (o : Option SObj) (l : Addr) : Nat :=
  match o with
  | some ⟨_, .interned m⟩ => if m = l then 1 else 0
  | _ => 0

/-- The number of strings that use the libwapcaplet string `l`. -/
def users (s : Mem) (l : Addr) : Nat := ∑ i ∈ Finset.range s.fresh, uses (s.strs i) l

theorem sum_upd (g : Nat → Option SObj) (k : Nat) {a : Nat} (ha : a < k) (v : Option SObj) (l : Addr) :
    ∑ i ∈ Finset.range k, uses (upd g a v i) l + uses (g a) l = ∑ i ∈ Finset.range k, uses (g i) l + uses v l := by
  have h1 := Finset.sum_erase_add (Finset.range k) (fun i => uses (upd g a v i) l) (Finset.mem_range.2 ha)
  have h2 := Finset.sum_erase_add (Finset.range k) (fun i => uses (g i) l) (Finset.mem_range.2 ha)
  have h3 : ∑ i ∈ (Finset.range k).erase a, uses (upd g a v i) l = ∑ i ∈ (Finset.range k).erase a, uses (g i) l := by
    refine Finset.sum_congr rfl fun i hi => ?_
    rw [upd_ne (Finset.ne_of_mem_erase hi)]
  rw [← h1, ← h2, h3]
  simp only [upd_same]
  ring

/-- The bytes of a live string. -/
def text (s : Mem) (a : Addr) : Option Bytes :=
  match s.strs a with
  | none => none
  | some o => match o.body with
    | .cdata p n => (s.bufs p).map (List.take n)
    | .interned l => (s.lwcs l).map LObj.bytes

/-- The invariant: `held` counts the references on strings, `loose` the references on libwapcaplet strings that are not those of strings. -/
structure Inv (s : Mem) (held loose : Addr → Nat) : Prop where
  live : ∀ a o, s.strs a = some o → o.refcnt = held a ∧ 0 < held a ∧ held a < 4294967296
  dead : ∀ a, s.strs a = none → held a = 0
  bStr : ∀ a o, s.strs a = some o → a < s.fresh
  bBuf : ∀ p b, s.bufs p = some b → p < s.fresh
  bLwc : ∀ l x, s.lwcs l = some x → l < s.fresh
  cdata : ∀ a o p n, s.strs a = some o → o.body = .cdata p n → ∃ b, s.bufs p = some (b ++ [0]) ∧ b.length = n
  own : ∀ a o a' o' p n n', s.strs a = some o → s.strs a' = some o' → o.body = .cdata p n → o'.body = .cdata p n' → a = a'
  owned : ∀ p b, s.bufs p = some b → ∃ a o n, s.strs a = some o ∧ o.body = .cdata p n
  intern : ∀ a o l, s.strs a = some o → o.body = .interned l → ∃ x, s.lwcs l = some x
  count : ∀ l x, s.lwcs l = some x → x.refcnt = loose l + users s l ∧ 0 < x.refcnt
  gone : ∀ l, s.lwcs l = none → loose l = 0
  uniq : ∀ l l' x x', s.lwcs l = some x → s.lwcs l' = some x' → x.bytes = x'.bytes → l = l'

/-- What every step leaves alone: the bytes of the strings that survive, and addresses are not used again. -/
structure Step (s s' : Mem) : Prop where
  fresh : s.fresh ≤ s'.fresh
  text : ∀ a b, text s a = some b → text s' a = some b ∨ s'.strs a = none
  strs : ∀ a, a < s.fresh → s.strs a = none → s'.strs a = none
  bytes : ∀ l x, s.lwcs l = some x → s'.lwcs l = none ∨ ∃ x', s'.lwcs l = some x' ∧ x'.bytes = x.bytes
  lwcs : ∀ l, l < s.fresh → s.lwcs l = none → s'.lwcs l = none

variable {s s' s'' : Mem} {held loose : Addr → Nat} {a b l m p : Addr} {o : SObj} {x : LObj}

theorem Step.refl (s : Mem) : Step s s :=
  ⟨Nat.le_refl _, fun _ _ h => Or.inl h, fun _ _ h => h, fun l x h => Or.inr ⟨x, h, rfl⟩, fun _ _ h => h⟩

theorem text_live {b : Bytes} (h : text s a = some b) : ∃ o, s.strs a = some o := by
  unfold text at h
  cases hs : s.strs a with
  | none => rw [hs] at h; cases h
  | some o => exact ⟨o, rfl⟩

theorem Step.trans (hI : Inv s held loose) (h : Step s s') (h' : Step s' s'') : Step s s'' := by
  refine ⟨Nat.le_trans h.fresh h'.fresh, fun a b ht => ?_, fun a hlt hs => h'.strs a (Nat.lt_of_lt_of_le hlt h.fresh) (h.strs a hlt hs),
    fun l x hx => ?_, fun l hlt hs => h'.lwcs l (Nat.lt_of_lt_of_le hlt h.fresh) (h.lwcs l hlt hs)⟩
  · obtain ⟨o, ho⟩ := text_live ht
    rcases h.text a b ht with h1 | h1
    · exact h'.text a b h1
    · exact Or.inr (h'.strs a (Nat.lt_of_lt_of_le (hI.bStr a o ho) h.fresh) h1)
  · rcases h.bytes l x hx with h1 | ⟨x', h1, h2⟩
    · exact Or.inl (h'.lwcs l (Nat.lt_of_lt_of_le (hI.bLwc l x hx) h.fresh) h1)
    · rcases h'.bytes l x' h1 with h3 | ⟨x'', h3, h4⟩
      · exact Or.inl h3
      · exact Or.inr ⟨x'', h3, h4.trans h2⟩

theorem empty_inv : Inv Mem.empty (fun _ => 0) (fun _ => 0) := by
  constructor <;> intros <;> first | rfl | (rename_i h; cases h) | skip
  all_goals simp_all [Mem.empty]

/-! ## Reading -/

theorem rdStr_run (h : s.strs a = some o) : rdStr s a = .ok o := by simp only [rdStr, h]
theorem rdLwc_run (h : s.lwcs l = some x) : rdLwc s l = .ok x := by simp only [rdLwc, h]
theorem rdBuf_run {b : Bytes} {n : Nat} (h : s.bufs p = some b) (hn : n ≤ b.length) : rdBuf s p n = .ok (b.take n) := by
  simp only [rdBuf, h, if_pos hn]
theorem freeBuf_run {b : Bytes} (h : s.bufs p = some b) : freeBuf s p = .ok { s with bufs := upd s.bufs p none } := by
  simp only [freeBuf, h]
theorem lwcRef_run (h : s.lwcs l = some x) :
    lwcRef s l = .ok { s with lwcs := upd s.lwcs l (some { x with refcnt := x.refcnt + 1 }) } := by
  simp only [lwcRef, rdLwc_run h, Out.bind_ok]
theorem lwcUnref_run (h : s.lwcs l = some x) : lwcUnref s l =
    .ok { s with lwcs := upd s.lwcs l (if x.refcnt - 1 = 0 then none else some { x with refcnt := x.refcnt - 1 }) } := by
  simp only [lwcUnref, rdLwc_run h, Out.bind_ok]

theorem Inv.alive (hI : Inv s held loose) (h : 0 < held a) : ∃ o, s.strs a = some o := by
  cases hs : s.strs a with
  | none => exact absurd (hI.dead a hs) (Nat.pos_iff_ne_zero.1 h)
  | some o => exact ⟨o, rfl⟩

theorem Inv.lwcAlive (hI : Inv s held loose) (h : 0 < loose l) : ∃ x, s.lwcs l = some x := by
  cases hs : s.lwcs l with
  | none => exact absurd (hI.gone l hs) (Nat.pos_iff_ne_zero.1 h)
  | some x => exact ⟨x, rfl⟩

/-- A live string has bytes and `strBytes` returns them. -/
theorem Inv.bytes (hI : Inv s held loose) (ho : s.strs a = some o) : ∃ b, text s a = some b ∧ strBytes s a = .ok b := by
  unfold text strBytes
  rw [rdStr_run ho, ho]
  simp only [Out.bind_ok]
  rcases o with ⟨rc, ⟨p, n⟩ | ⟨l⟩⟩
  · obtain ⟨b, hb, hn⟩ := hI.cdata a _ p n ho rfl
    refine ⟨b, ?_, ?_⟩
    · simp only [hb, Option.map_some, ← hn, List.take_left']
    · show rdBuf s p n = .ok b
      rw [rdBuf_run hb (n := n) (by simp [← hn]), List.take_left' hn]
  · obtain ⟨x, hx⟩ := hI.intern a _ l ho rfl
    refine ⟨x.bytes, ?_, ?_⟩
    · simp only [hx, Option.map_some]
    · simp only [rdLwc_run hx, Out.bind_ok]

/-! ## Steps on libwapcaplet strings -/

/-- Only libwapcaplet strings change. -/
theorem users_lwcs (f : Addr → Option LObj) (l : Addr) : users { s with lwcs := f } l = users s l := rfl

theorem text_lwcs {f : Addr → Option LObj} (hf : ∀ a o l, s.strs a = some o → o.body = .interned l → (f l).map LObj.bytes = (s.lwcs l).map LObj.bytes) (a : Addr) :
    text { s with lwcs := f } a = text s a := by
  unfold text
  show (match s.strs a with | none => _ | some o => _) = _
  cases hs : s.strs a with
  | none => rfl
  | some o =>
    rcases o with ⟨rc, ⟨p, n⟩ | ⟨l⟩⟩
    · rfl
    · exact hf a _ l hs rfl

/-- A change of the number of references on a libwapcaplet string. -/
theorem Inv.lwcRc (hI : Inv s held loose) (hx : s.lwcs l = some x) {k n : Nat} (hn : n + loose l = x.refcnt + k) (h0 : 0 < n) :
    Inv { s with lwcs := upd s.lwcs l (some { x with refcnt := n }) } held (upd loose l k) ∧
    Step s { s with lwcs := upd s.lwcs l (some { x with refcnt := n }) } ∧
    (∀ a, text { s with lwcs := upd s.lwcs l (some { x with refcnt := n }) } a = text s a) := by
  have hb : ∀ m, (upd s.lwcs l (some { x with refcnt := n }) m).map LObj.bytes = (s.lwcs m).map LObj.bytes := by
    intro m
    by_cases hm : m = l
    · subst hm; rw [upd_same, hx]; rfl
    · rw [upd_ne hm]
  have ht := text_lwcs (s := s) (f := upd s.lwcs l (some { x with refcnt := n })) (fun _ _ m _ _ => hb m)
  have hsome : ∀ m y, upd s.lwcs l (some { x with refcnt := n }) m = some y → ∃ z, s.lwcs m = some z ∧ z.bytes = y.bytes := by
    intro m y hy
    have := hb m
    rw [hy] at this
    cases hz : s.lwcs m with
    | none => rw [hz] at this; cases this
    | some z => rw [hz] at this; exact ⟨z, rfl, (Option.some.inj this).symm⟩
  refine ⟨⟨hI.live, hI.dead, hI.bStr, hI.bBuf, ?_, hI.cdata, hI.own, hI.owned, ?_, ?_, ?_, ?_⟩, ⟨Nat.le_refl _, ?_, fun _ _ h => h, ?_, ?_⟩, ht⟩
  · intro m y hy
    obtain ⟨z, hz, _⟩ := hsome m y hy
    exact hI.bLwc m z hz
  · intro c o' m hc ho
    by_cases hm : m = l
    · subst hm; exact ⟨_, upd_same⟩
    · obtain ⟨y, hy⟩ := hI.intern c o' m hc ho
      exact ⟨y, by show upd _ _ _ m = _; rw [upd_ne hm]; exact hy⟩
  · intro m y hy
    show y.refcnt = upd loose l k m + users s m ∧ _
    replace hy : upd s.lwcs l _ m = some y := hy
    by_cases hm : m = l
    · subst hm
      rw [upd_same] at hy ⊢
      cases hy
      have := hI.count m x hx
      refine ⟨?_, h0⟩
      show n = k + users s m
      omega
    · rw [upd_ne hm] at hy ⊢
      exact hI.count m y hy
  · intro m hm
    replace hm : upd s.lwcs l _ m = none := hm
    by_cases h : m = l
    · subst h; rw [upd_same] at hm; cases hm
    · rw [upd_ne h] at hm ⊢; exact hI.gone m hm
  · intro m m' y y' hy hy' he
    obtain ⟨z, hz, e⟩ := hsome m y hy
    obtain ⟨z', hz', e'⟩ := hsome m' y' hy'
    exact hI.uniq m m' z z' hz hz' (by rw [e, e', he])
  · intro c t htt
    exact Or.inl ((ht c).trans htt)
  · intro m y hy
    refine Or.inr ?_
    have := hb m
    rw [hy] at this
    show ∃ x', upd s.lwcs l _ m = some x' ∧ _
    cases hz : upd s.lwcs l (some { x with refcnt := n }) m with
    | none => rw [hz] at this; cases this
    | some z => rw [hz] at this; exact ⟨z, rfl, Option.some.inj this⟩
  · intro m _ hm
    show upd s.lwcs l _ m = none
    rw [upd_ne, hm]
    intro e; rw [e, hx] at hm; cases hm

/-- `lwc_string_ref`. -/
theorem Inv.lwcRef (hI : Inv s held loose) (hx : s.lwcs l = some x) : ∃ s', lwcRef s l = .ok s' ∧ Inv s' held (upd loose l (loose l + 1)) ∧
    Step s s' ∧ s'.strs = s.strs ∧ s'.fresh = s.fresh ∧ (∀ a, text s' a = text s a) ∧ (∀ l, (s'.lwcs l).map LObj.bytes = (s.lwcs l).map LObj.bytes) := by
  obtain ⟨h1, h2, h3⟩ := hI.lwcRc hx (k := loose l + 1) (n := x.refcnt + 1) (by omega) (by omega)
  refine ⟨_, lwcRef_run hx, h1, h2, rfl, rfl, h3, fun m => ?_⟩
  show (upd s.lwcs l _ m).map _ = _
  by_cases hm : m = l
  · subst hm; rw [upd_same, hx]; rfl
  · rw [upd_ne hm]

theorem users_pos (hI : Inv s held loose) (ho : s.strs a = some o) (hb : o.body = .interned l) : 0 < users s l := by
  have h : uses (s.strs a) l ≤ users s l :=
    Finset.single_le_sum (f := fun i => uses (s.strs i) l) (fun _ _ => Nat.zero_le _) (Finset.mem_range.2 (hI.bStr a o ho))
  have : uses (s.strs a) l = 1 := by
    rw [ho]; rcases o with ⟨_, _ | _⟩ <;> cases hb
    simp [uses]
  omega

/-- `lwc_string_unref` of a loose reference. -/
theorem Inv.lwcUnref (hI : Inv s held loose) {k : Nat} (hk : loose l = k + 1) : ∃ s', lwcUnref s l = .ok s' ∧ Inv s' held (upd loose l k) ∧
    Step s s' ∧ s'.strs = s.strs ∧ s'.fresh = s.fresh ∧ (∀ a, text s' a = text s a) := by
  obtain ⟨x, hx⟩ := hI.lwcAlive (l := l) (by omega)
  obtain ⟨c1, c2⟩ := hI.count l x hx
  rw [lwcUnref_run hx]
  by_cases h0 : x.refcnt - 1 = 0
  · rw [if_pos h0]
    have hk0 : k = 0 := by omega
    have hu : users s l = 0 := by omega
    subst hk0
    have hne : ∀ c o' m, s.strs c = some o' → o'.body = .interned m → m ≠ l := by
      rintro c o' m hc ho rfl
      have := users_pos hI hc ho
      omega
    have ht := text_lwcs (s := s) (f := upd s.lwcs l none) (fun c o' m hc ho => by rw [upd_ne (hne c o' m hc ho)])
    have hsome : ∀ m y, upd s.lwcs l none m = some y → m ≠ l ∧ s.lwcs m = some y := by
      intro m y hy
      by_cases hm : m = l
      · subst hm; rw [upd_same] at hy; cases hy
      · rw [upd_ne hm] at hy; exact ⟨hm, hy⟩
    refine ⟨_, rfl, ⟨hI.live, hI.dead, hI.bStr, hI.bBuf, ?_, hI.cdata, hI.own, hI.owned, ?_, ?_, ?_, ?_⟩, ⟨Nat.le_refl _, ?_, fun _ _ h => h, ?_, ?_⟩, rfl, rfl, ht⟩
    · intro m y hy; exact hI.bLwc m y (hsome m y hy).2
    · intro c o' m hc ho
      obtain ⟨y, hy⟩ := hI.intern c o' m hc ho
      exact ⟨y, by show upd _ _ _ m = _; rw [upd_ne (hne c o' m hc ho)]; exact hy⟩
    · intro m y hy
      obtain ⟨h1, h2⟩ := hsome m y hy
      show y.refcnt = upd loose l 0 m + users s m ∧ _
      rw [upd_ne h1]
      exact hI.count m y h2
    · intro m hm
      replace hm : upd s.lwcs l none m = none := hm
      by_cases h : m = l
      · subst h; exact upd_same
      · rw [upd_ne h] at hm ⊢; exact hI.gone m hm
    · intro m m' y y' hy hy' he
      exact hI.uniq m m' y y' (hsome m y hy).2 (hsome m' y' hy').2 he
    · intro c t htt; exact Or.inl ((ht c).trans htt)
    · intro m y hy
      by_cases h : m = l
      · subst h; exact Or.inl upd_same
      · exact Or.inr ⟨y, by show upd _ _ _ m = _; rw [upd_ne h]; exact hy, rfl⟩
    · intro m _ hm
      show upd s.lwcs l none m = none
      by_cases h : m = l
      · subst h; exact upd_same
      · rw [upd_ne h]; exact hm
  · rw [if_neg h0]
    obtain ⟨h1, h2, h3⟩ := hI.lwcRc hx (k := k) (n := x.refcnt - 1) (by omega) (by omega)
    exact ⟨_, rfl, h1, h2, rfl, rfl, h3⟩

theorem lwcFind_some {b : Bytes} (h : lwcFind s b = some l) : ∃ x, s.lwcs l = some x ∧ x.bytes = b := by
  unfold lwcFind at h
  have := List.find?_some h
  cases hx : s.lwcs l with
  | none => rw [hx] at this; simp at this
  | some x => rw [hx] at this; exact ⟨x, rfl, by simpa using this⟩

theorem lwcFind_none (hI : Inv s held loose) {b : Bytes} (h : lwcFind s b = none) (hx : s.lwcs l = some x) : x.bytes ≠ b := by
  unfold lwcFind at h
  have := List.find?_eq_none.1 h l (List.mem_range.2 (hI.bLwc l x hx))
  rw [hx] at this
  simpa using this

/-- `lwc_intern_string`: a loose reference on the libwapcaplet string with the given bytes. -/
theorem Inv.lwcIntern (hI : Inv s held loose) (b : Bytes) : ∃ s' l x, lwcIntern s b = .ok (s', l) ∧ s'.lwcs l = some x ∧ x.bytes = b ∧
    Inv s' held (upd loose l (loose l + 1)) ∧ Step s s' ∧ s'.strs = s.strs ∧ s'.bufs = s.bufs ∧ (∀ a, text s' a = text s a) ∧
    (∀ m x, s.lwcs m = some x → ∃ x', s'.lwcs m = some x' ∧ x'.bytes = x.bytes) := by
  unfold Intern.lwcIntern
  cases hf : lwcFind s b with
  | some l =>
    obtain ⟨x, hx, hb⟩ := lwcFind_some hf
    obtain ⟨s', h1, h2, h3, h4, h5, h6, h7⟩ := hI.lwcRef hx
    have hr := lwcRef_run hx
    rw [h1] at hr
    have hs' := Out.ok.inj hr
    have e : s'.lwcs l = some { x with refcnt := x.refcnt + 1 } := by rw [hs']; exact upd_same
    simp only [h1, Out.bind_ok]
    refine ⟨s', l, _, rfl, e, hb, h2, h3, h4, by rw [hs'], h6, fun m y hy => ?_⟩
    have := h7 m
    rw [hy] at this
    cases hz : s'.lwcs m with
    | none => rw [hz] at this; cases this
    | some z => rw [hz] at this; exact ⟨z, rfl, Option.some.inj this⟩
  | none =>
    have hfr : ∀ m y, s.lwcs m = some y → m ≠ s.fresh := fun m y h => ne_of_lt' (hI.bLwc m y h)
    have hdead : s.lwcs s.fresh = none := by
      cases h : s.lwcs s.fresh with
      | none => rfl
      | some y => exact absurd rfl (hfr _ y h)
    have hsd : s.strs s.fresh = none := by
      cases h : s.strs s.fresh with
      | none => rfl
      | some y => exact absurd (hI.bStr _ y h) lt_irr
    have hl0 : loose s.fresh = 0 := hI.gone _ hdead
    have hu : ∀ m, ∑ i ∈ Finset.range (s.fresh + 1), uses (s.strs i) m = users s m := by
      intro m
      rw [Finset.sum_range_succ, hsd]; rfl
    have hu0 : users s s.fresh = 0 := by
      refine Finset.sum_eq_zero fun i _ => ?_
      cases hi : s.strs i with
      | none => rfl
      | some o =>
        rcases o with ⟨rc, ⟨p, n⟩ | ⟨m⟩⟩
        · rfl
        · obtain ⟨y, hy⟩ := hI.intern i _ m hi rfl
          exact if_neg (hfr m y hy)
    have hint : ∀ a o m, s.strs a = some o → o.body = .interned m → m ≠ s.fresh := by
      intro a o m ha ho
      obtain ⟨y, hy⟩ := hI.intern a o m ha ho
      exact hfr m y hy
    have ht : ∀ a, text { s with lwcs := upd s.lwcs s.fresh (some { bytes := b, refcnt := 1 }), fresh := s.fresh + 1 } a = text s a :=
      text_lwcs (s := s) (f := upd s.lwcs s.fresh (some { bytes := b, refcnt := 1 })) (fun a o m ha ho => by rw [upd_ne (hint a o m ha ho)])
    have hcase : ∀ m y, upd s.lwcs s.fresh (some { bytes := b, refcnt := 1 }) m = some y →
        (m = s.fresh ∧ y = { bytes := b, refcnt := 1 }) ∨ (m ≠ s.fresh ∧ s.lwcs m = some y) := by
      intro m y hy
      by_cases hm : m = s.fresh
      · subst hm; rw [upd_same] at hy; exact Or.inl ⟨rfl, (Option.some.inj hy).symm⟩
      · rw [upd_ne hm] at hy; exact Or.inr ⟨hm, hy⟩
    refine ⟨_, _, _, rfl, upd_same, rfl, ⟨hI.live, hI.dead, ?_, ?_, ?_, hI.cdata, hI.own, hI.owned, ?_, ?_, ?_, ?_⟩,
      ⟨Nat.le_succ _, fun a t h => Or.inl ((ht a).trans h), fun _ _ h => h, ?_, ?_⟩, rfl, rfl, ht, ?_⟩
    · intro a o h; exact lt_one (hI.bStr a o h)
    · intro a o h; exact lt_one (hI.bBuf a o h)
    · intro m y hy
      rcases hcase m y hy with ⟨rfl, _⟩ | ⟨_, h⟩
      · exact self_one
      · exact lt_one (hI.bLwc m y h)
    · intro a o m ha ho
      obtain ⟨y, hy⟩ := hI.intern a o m ha ho
      exact ⟨y, by show upd _ _ _ m = _; rw [upd_ne (hfr m y hy)]; exact hy⟩
    · intro m y hy
      show y.refcnt = _ + ∑ i ∈ Finset.range (s.fresh + 1), uses (s.strs i) m ∧ _
      rw [hu]
      rcases hcase m y hy with ⟨rfl, rfl⟩ | ⟨h1, h⟩
      · rw [upd_same, hl0, hu0]; exact ⟨rfl, Nat.one_pos⟩
      · rw [upd_ne h1]; exact hI.count m y h
    · intro m hm
      replace hm : upd s.lwcs s.fresh _ m = none := hm
      by_cases h : m = s.fresh
      · subst h; rw [upd_same] at hm; cases hm
      · rw [upd_ne h] at hm ⊢; exact hI.gone m hm
    · intro m m' y y' hy hy' he
      rcases hcase m y hy with ⟨rfl, rfl⟩ | ⟨h1, h⟩ <;> rcases hcase m' y' hy' with ⟨h2, rfl⟩ | ⟨h2, h'⟩
      · exact h2.symm
      · exact absurd he.symm (lwcFind_none hI hf h')
      · exact absurd he (lwcFind_none hI hf h)
      · exact hI.uniq m m' y y' h h' he
    · intro m y hy
      exact Or.inr ⟨y, by show upd _ _ _ m = _; rw [upd_ne (hfr m y hy)]; exact hy, rfl⟩
    · intro m hlt hm
      show upd s.lwcs s.fresh _ m = none
      rw [upd_ne (ne_of_lt' hlt)]; exact hm
    · intro m y hy
      exact ⟨y, by show upd _ _ _ m = _; rw [upd_ne (hfr m y hy)]; exact hy, rfl⟩

/-! ## Steps on strings -/

/-- A change of the reference count of a string. -/
theorem Inv.strRc (hI : Inv s held loose) (ho : s.strs a = some o) {k : Nat} (hk : 0 < k) (hk' : k < 4294967296) :
    Inv { s with strs := upd s.strs a (some { o with refcnt := k }) } (upd held a k) loose ∧
    Step s { s with strs := upd s.strs a (some { o with refcnt := k }) } ∧
    (∀ c, text { s with strs := upd s.strs a (some { o with refcnt := k }) } c = text s c) := by
  have hcase : ∀ c q, upd s.strs a (some { o with refcnt := k }) c = some q → ∃ q', s.strs c = some q' ∧ q'.body = q.body := by
    intro c q hq
    by_cases hc : c = a
    · subst hc; rw [upd_same] at hq; cases hq; exact ⟨o, ho, rfl⟩
    · rw [upd_ne hc] at hq; exact ⟨q, hq, rfl⟩
  have hback : ∀ c q, s.strs c = some q → ∃ q', upd s.strs a (some { o with refcnt := k }) c = some q' ∧ q'.body = q.body := by
    intro c q hq
    by_cases hc : c = a
    · subst hc; rw [ho] at hq; cases hq; exact ⟨_, upd_same, rfl⟩
    · exact ⟨q, by rw [upd_ne hc]; exact hq, rfl⟩
  have ht : ∀ c, text { s with strs := upd s.strs a (some { o with refcnt := k }) } c = text s c := by
    intro c
    unfold text
    show (match upd s.strs a _ c with | none => _ | some o => _) = _
    by_cases hc : c = a
    · subst hc; rw [upd_same, ho]
    · rw [upd_ne hc]
  have hu : ∀ m, users { s with strs := upd s.strs a (some { o with refcnt := k }) } m = users s m := by
    intro m
    have := sum_upd s.strs s.fresh (hI.bStr a o ho) (some { o with refcnt := k }) m
    have e : uses (s.strs a) m = uses (some { o with refcnt := k }) m := by
      rw [ho]; rcases o with ⟨_, _ | _⟩ <;> rfl
    unfold users
    show ∑ i ∈ Finset.range s.fresh, uses (upd s.strs a (some { o with refcnt := k }) i) m = _
    omega
  refine ⟨⟨?_, ?_, ?_, hI.bBuf, hI.bLwc, ?_, ?_, ?_, ?_, ?_, hI.gone, hI.uniq⟩,
    ⟨Nat.le_refl _, fun c t h => Or.inl ((ht c).trans h), ?_, fun l x h => Or.inr ⟨x, h, rfl⟩, fun _ _ h => h⟩, ht⟩
  · intro c q hq
    replace hq : upd s.strs a _ c = some q := hq
    by_cases hc : c = a
    · subst hc; rw [upd_same] at hq ⊢; cases hq; exact ⟨rfl, hk, hk'⟩
    · rw [upd_ne hc] at hq ⊢; exact hI.live c q hq
  · intro c hq
    replace hq : upd s.strs a _ c = none := hq
    by_cases hc : c = a
    · subst hc; rw [upd_same] at hq; cases hq
    · rw [upd_ne hc] at hq ⊢; exact hI.dead c hq
  · intro c q hq
    obtain ⟨q', h, _⟩ := hcase c q hq
    exact hI.bStr c q' h
  · intro c q p n hq hb
    obtain ⟨q', h, e⟩ := hcase c q hq
    exact hI.cdata c q' p n h (e.trans hb)
  · intro c q c' q' p n n' hq hq' hb hb'
    obtain ⟨r, h, e⟩ := hcase c q hq
    obtain ⟨r', h', e'⟩ := hcase c' q' hq'
    exact hI.own c r c' r' p n n' h h' (e.trans hb) (e'.trans hb')
  · intro p t hp
    obtain ⟨c, q, n, h1, h2⟩ := hI.owned p t hp
    obtain ⟨q', h, e⟩ := hback c q h1
    exact ⟨c, q', n, h, e.trans h2⟩
  · intro c q l hq hb
    obtain ⟨q', h, e⟩ := hcase c q hq
    exact hI.intern c q' l h (e.trans hb)
  · intro l x hx
    rw [hu]; exact hI.count l x hx
  · intro c _ hc
    show upd s.strs a _ c = none
    rw [upd_ne, hc]
    intro e; rw [e, ho] at hc; cases hc

/-- `dom_string_ref`. -/
theorem Inv.strRef (hI : Inv s held loose) (ho : s.strs a = some o) (hk : held a + 1 < 4294967296) : ∃ s', strRef s a = .ok s' ∧
    Inv s' (upd held a (held a + 1)) loose ∧ Step s s' ∧ (∀ c, text s' c = text s c) ∧ s'.lwcs = s.lwcs := by
  have h0 := (hI.live a o ho).1
  have hu : u32 (o.refcnt + 1) = held a + 1 := by rw [h0]; exact u32_small (by omega)
  obtain ⟨h1, h2, h3⟩ := hI.strRc ho (k := held a + 1) (by omega) hk
  refine ⟨_, ?_, h1, h2, h3, rfl⟩
  unfold Intern.strRef
  rw [rdStr_run ho, Out.bind_ok, hu]

/-- A new string at the next address. -/
theorem Inv.strCreate (hI : Inv s held loose) (b : Bytes) : ∃ s', strCreate s b = .ok (s', s.fresh) ∧
    Inv s' (upd held s.fresh 1) loose ∧ Step s s' ∧ text s' s.fresh = some b ∧ held s.fresh = 0 ∧ s'.lwcs = s.lwcs := by
  have hfr : ∀ c q, s.strs c = some q → c ≠ s.fresh := fun c q h => ne_of_lt' (hI.bStr c q h)
  have hpf : ∀ c q, s.bufs c = some q → c ≠ s.fresh + 1 := fun c q h => ne_succ (hI.bBuf c q h)
  have hsd : s.strs s.fresh = none := by
    cases h : s.strs s.fresh with
    | none => rfl
    | some y => exact absurd (hI.bStr _ y h) lt_irr
  have hsd' : s.strs (s.fresh + 1) = none := by
    cases h : s.strs (s.fresh + 1) with
    | none => rfl
    | some y => exact absurd rfl (ne_succ (hI.bStr _ y h))
  have hcase : ∀ c q, upd s.strs s.fresh (some { refcnt := 1, body := .cdata (s.fresh + 1) b.length }) c = some q →
      (c = s.fresh ∧ q = { refcnt := 1, body := .cdata (s.fresh + 1) b.length }) ∨ (c ≠ s.fresh ∧ s.strs c = some q) := by
    intro c q hq
    by_cases hc : c = s.fresh
    · subst hc; rw [upd_same] at hq; exact Or.inl ⟨rfl, (Option.some.inj hq).symm⟩
    · rw [upd_ne hc] at hq; exact Or.inr ⟨hc, hq⟩
  have hold : ∀ c q p n, s.strs c = some q → q.body = .cdata p n → p ≠ s.fresh + 1 := by
    intro c q p n hq hb
    obtain ⟨t, h, _⟩ := hI.cdata c q p n hq hb
    exact hpf p _ h
  have htxt : ∀ c t, text s c = some t → text { s with
      strs := upd s.strs s.fresh (some { refcnt := 1, body := .cdata (s.fresh + 1) b.length })
      bufs := upd s.bufs (s.fresh + 1) (some (b ++ [0]))
      fresh := s.fresh + 2 } c = some t := by
    intro c t h
    obtain ⟨q, hq⟩ := text_live h
    unfold text at h ⊢
    show (match upd s.strs s.fresh _ c with | none => _ | some o => _) = _
    rw [upd_ne (hfr c q hq)]
    rw [hq] at h ⊢
    rcases q with ⟨rc, ⟨p, n⟩ | ⟨l⟩⟩
    · show (upd s.bufs (s.fresh + 1) _ p).map _ = _
      rw [upd_ne (hold c _ p n hq rfl)]; exact h
    · exact h
  have hu : ∀ m, ∑ i ∈ Finset.range (s.fresh + 2), uses (upd s.strs s.fresh (some { refcnt := 1, body := .cdata (s.fresh + 1) b.length }) i) m
      = users s m := by
    intro m
    have h := sum_upd s.strs (s.fresh + 2) self_two (some { refcnt := 1, body := .cdata (s.fresh + 1) b.length }) m
    have e : ∑ i ∈ Finset.range (s.fresh + 2), uses (s.strs i) m = users s m := by
      rw [Finset.sum_range_succ, Finset.sum_range_succ, hsd, hsd']; rfl
    rw [hsd, e] at h
    exact h
  refine ⟨_, rfl, ⟨?_, ?_, ?_, ?_, ?_, ?_, ?_, ?_, ?_, ?_, hI.gone, hI.uniq⟩, ⟨?_, fun c t h => Or.inl (htxt c t h), ?_, fun l x h => Or.inr ⟨x, h, rfl⟩, fun _ _ h => h⟩, ?_, hI.dead _ hsd, rfl⟩
  · intro c q hq
    rcases hcase c q hq with ⟨rfl, rfl⟩ | ⟨h1, h⟩
    · rw [upd_same]; exact ⟨rfl, Nat.one_pos, by decide⟩
    · rw [upd_ne h1]; exact hI.live c q h
  · intro c hq
    replace hq : upd s.strs s.fresh _ c = none := hq
    by_cases hc : c = s.fresh
    · subst hc; rw [upd_same] at hq; cases hq
    · rw [upd_ne hc] at hq ⊢; exact hI.dead c hq
  · intro c q hq
    rcases hcase c q hq with ⟨rfl, _⟩ | ⟨_, h⟩
    · exact self_two
    · exact lt_two (hI.bStr c q h)
  · intro p t hp
    replace hp : upd s.bufs (s.fresh + 1) _ p = some t := hp
    by_cases hc : p = s.fresh + 1
    · subst hc; exact succ_two
    · rw [upd_ne hc] at hp; exact lt_two (hI.bBuf p t hp)
  · intro l x h; exact lt_two (hI.bLwc l x h)
  · intro c q p n hq hb
    show ∃ t, upd s.bufs (s.fresh + 1) _ p = _ ∧ _
    rcases hcase c q hq with ⟨rfl, rfl⟩ | ⟨_, h⟩
    · cases hb; exact ⟨b, upd_same, rfl⟩
    · rw [upd_ne (hold c q p n h hb)]; exact hI.cdata c q p n h hb
  · intro c q c' q' p n n' hq hq' hb hb'
    rcases hcase c q hq with ⟨h1, rfl⟩ | ⟨_, h⟩ <;> rcases hcase c' q' hq' with ⟨h2, rfl⟩ | ⟨_, h'⟩
    · rw [h1, h2]
    · cases hb; exact absurd rfl (hold c' q' _ n' h' hb')
    · cases hb'; exact absurd rfl (hold c q _ n h hb)
    · exact hI.own c q c' q' p n n' h h' hb hb'
  · intro p t hp
    replace hp : upd s.bufs (s.fresh + 1) _ p = some t := hp
    by_cases hc : p = s.fresh + 1
    · subst hc; exact ⟨s.fresh, _, _, upd_same, rfl⟩
    · rw [upd_ne hc] at hp
      obtain ⟨c, q, n, h1, h2⟩ := hI.owned p t hp
      exact ⟨c, q, n, by show upd _ _ _ c = _; rw [upd_ne (hfr c q h1)]; exact h1, h2⟩
  · intro c q l hq hb
    rcases hcase c q hq with ⟨_, rfl⟩ | ⟨_, h⟩
    · cases hb
    · exact hI.intern c q l h hb
  · intro l x hx
    show x.refcnt = loose l + ∑ i ∈ Finset.range (s.fresh + 2), _ ∧ _
    rw [hu]; exact hI.count l x hx
  · exact Nat.le_add_right _ _
  · intro c hlt hc
    show upd s.strs s.fresh _ c = none
    rw [upd_ne (ne_of_lt' hlt)]; exact hc
  · unfold text
    show (match upd s.strs s.fresh _ s.fresh with | none => _ | some o => _) = _
    rw [upd_same]
    show (upd s.bufs (s.fresh + 1) _ (s.fresh + 1)).map _ = _
    rw [upd_same]
    simp

/-- A new string that takes over a loose reference on a libwapcaplet string. -/
theorem Inv.wrap (hI : Inv s held loose) (hx : s.lwcs l = some x) {k : Nat} (hk : loose l = k + 1) :
    Inv { s with strs := upd s.strs s.fresh (some { refcnt := 1, body := .interned l }), fresh := s.fresh + 1 } (upd held s.fresh 1) (upd loose l k) ∧
    Step s { s with strs := upd s.strs s.fresh (some { refcnt := 1, body := .interned l }), fresh := s.fresh + 1 } ∧
    text { s with strs := upd s.strs s.fresh (some { refcnt := 1, body := .interned l }), fresh := s.fresh + 1 } s.fresh = some x.bytes ∧
    held s.fresh = 0 := by
  have hfr : ∀ c q, s.strs c = some q → c ≠ s.fresh := fun c q h => ne_of_lt' (hI.bStr c q h)
  have hsd : s.strs s.fresh = none := by
    cases h : s.strs s.fresh with
    | none => rfl
    | some y => exact absurd (hI.bStr _ y h) lt_irr
  have hcase : ∀ c q, upd s.strs s.fresh (some { refcnt := 1, body := .interned l }) c = some q →
      (c = s.fresh ∧ q = { refcnt := 1, body := .interned l }) ∨ (c ≠ s.fresh ∧ s.strs c = some q) := by
    intro c q hq
    by_cases hc : c = s.fresh
    · subst hc; rw [upd_same] at hq; exact Or.inl ⟨rfl, (Option.some.inj hq).symm⟩
    · rw [upd_ne hc] at hq; exact Or.inr ⟨hc, hq⟩
  have htxt : ∀ c t, text s c = some t →
      text { s with strs := upd s.strs s.fresh (some { refcnt := 1, body := .interned l }), fresh := s.fresh + 1 } c = some t := by
    intro c t h
    obtain ⟨q, hq⟩ := text_live h
    unfold text at h ⊢
    show (match upd s.strs s.fresh _ c with | none => _ | some o => _) = _
    rw [upd_ne (hfr c q hq)]
    exact h
  have hu : ∀ m, ∑ i ∈ Finset.range (s.fresh + 1), uses (upd s.strs s.fresh (some { refcnt := 1, body := .interned l }) i) m
      = users s m + if l = m then 1 else 0 := by
    intro m
    have h := sum_upd s.strs (s.fresh + 1) self_one (some { refcnt := 1, body := .interned l }) m
    have e : ∑ i ∈ Finset.range (s.fresh + 1), uses (s.strs i) m = users s m := by
      rw [Finset.sum_range_succ, hsd]; rfl
    rw [hsd, e] at h
    exact h
  refine ⟨⟨?_, ?_, ?_, ?_, ?_, ?_, ?_, ?_, ?_, ?_, ?_, hI.uniq⟩, ⟨Nat.le_succ _, fun c t h => Or.inl (htxt c t h), ?_, fun l x h => Or.inr ⟨x, h, rfl⟩, fun _ _ h => h⟩, ?_, hI.dead _ hsd⟩
  · intro c q hq
    rcases hcase c q hq with ⟨rfl, rfl⟩ | ⟨h1, h⟩
    · rw [upd_same]; exact ⟨rfl, Nat.one_pos, by decide⟩
    · rw [upd_ne h1]; exact hI.live c q h
  · intro c hq
    replace hq : upd s.strs s.fresh _ c = none := hq
    by_cases hc : c = s.fresh
    · subst hc; rw [upd_same] at hq; cases hq
    · rw [upd_ne hc] at hq ⊢; exact hI.dead c hq
  · intro c q hq
    rcases hcase c q hq with ⟨rfl, _⟩ | ⟨_, h⟩
    · exact self_one
    · exact lt_one (hI.bStr c q h)
  · intro p t hp; exact lt_one (hI.bBuf p t hp)
  · intro l x h; exact lt_one (hI.bLwc l x h)
  · intro c q p n hq hb
    rcases hcase c q hq with ⟨_, rfl⟩ | ⟨_, h⟩
    · cases hb
    · exact hI.cdata c q p n h hb
  · intro c q c' q' p n n' hq hq' hb hb'
    rcases hcase c q hq with ⟨_, rfl⟩ | ⟨_, h⟩
    · cases hb
    rcases hcase c' q' hq' with ⟨_, rfl⟩ | ⟨_, h'⟩
    · cases hb'
    exact hI.own c q c' q' p n n' h h' hb hb'
  · intro p t hp
    obtain ⟨c, q, n, h1, h2⟩ := hI.owned p t hp
    exact ⟨c, q, n, by show upd _ _ _ c = _; rw [upd_ne (hfr c q h1)]; exact h1, h2⟩
  · intro c q m hq hb
    rcases hcase c q hq with ⟨_, rfl⟩ | ⟨_, h⟩
    · cases hb; exact ⟨x, hx⟩
    · exact hI.intern c q m h hb
  · intro m y hy
    show y.refcnt = upd loose l k m + ∑ i ∈ Finset.range (s.fresh + 1), _ ∧ _
    rw [hu]
    have := hI.count m y hy
    by_cases hm : m = l
    · subst hm; rw [upd_same, if_pos rfl]; refine ⟨?_, this.2⟩; omega
    · rw [upd_ne hm, if_neg (fun e => hm e.symm)]; exact this
  · intro m hm
    have : m ≠ l := by rintro rfl; rw [show s.lwcs m = none from hm] at hx; cases hx
    rw [upd_ne this]; exact hI.gone m hm
  · intro c hlt hc
    show upd s.strs s.fresh _ c = none
    rw [upd_ne (ne_of_lt' hlt)]; exact hc
  · unfold text
    show (match upd s.strs s.fresh _ s.fresh with | none => _ | some o => _) = _
    rw [upd_same]
    show (s.lwcs l).map _ = _
    rw [hx]; rfl

end Dom.Intern
