import Verif.Intern.Run
import Verif.Str.PropsEq
import Mathlib.Algebra.BigOperators.Group.Finset.Piecewise
/-!
# Claim C65: strings live as long as they are referenced, keep their bytes, and share interned bytes
-/
set_option linter.unusedSimpArgs false
set_option linter.unusedVariables false
namespace Dom.Intern

open Dom.Str (Bytes WsOp asciiLower asciiUpper)

/-! ## The client -/

/-- The calls on strings. -/
inductive Call
  | create (b : Bytes)
  | createInterned (b : Bytes)
  | ref (a : Addr)
  | unref (a : Addr)
  | intern (a : Addr)
  | lwcRef (l : Addr)
  | lwcUnref (l : Addr)
  | internBytes (b : Bytes)
  | concat (a b : Addr)
  | upper (a : Addr)
  | lower (a : Addr)
  | whitespace (a : Addr) (op : WsOp)

/-- Make a call; the address is that of the string (for `intern` and `internBytes`, which is `lwc_intern_string`, of the libwapcaplet string) returned, or of the argument. -/
def perform (s : Mem) : Call → Out (Mem × Addr)
  | .create b => strCreate s b
  | .createInterned b => strCreateInterned s b
  | .ref a => do let s ← strRef s a; .ok (s, a)
  | .unref a => do let s ← strUnref s a; .ok (s, a)
  | .intern a => strIntern s a
  | .lwcRef l => do let s ← lwcRef s l; .ok (s, l)
  | .lwcUnref l => do let s ← lwcUnref s l; .ok (s, l)
  | .internBytes b => lwcIntern s b
  | .concat a b => strConcat s a b
  | .upper a => strUpper s a
  | .lower a => strLower s a
  | .whitespace a op => strWhitespace s a op

/-- A client that respects the reference counts: `held` and `loose` are the references it has on strings and on libwapcaplet strings.  It uses what
it holds, gives back what it holds, and no count reaches 2^32.  `whitespace` of an empty string is left out, see `C65_whitespace_violated`. -/
def Allowed (s : Mem) (held loose : Addr → Nat) : Call → Prop
  | .create _ => True
  | .createInterned _ => True
  | .ref a => 0 < held a ∧ held a + 1 < 4294967296
  | .unref a => 0 < held a
  | .intern a => 0 < held a
  | .lwcRef l => 0 < loose l
  | .lwcUnref l => 0 < loose l
  | .internBytes _ => True
  | .concat a b => 0 < held a ∧ 0 < held b
  | .upper a => 0 < held a
  | .lower a => 0 < held a ∧ held a + 1 < 4294967296
  | .whitespace a _ => 0 < held a ∧ strBytes s a ≠ .ok []

instance (s : Mem) (held loose : Addr → Nat) (c : Call) : Decidable (Allowed s held loose c) := by
  cases c <;> unfold Allowed <;> infer_instance

/-- The references on strings after a call that returned `r`. -/
def heldAfter (held : Addr → Nat) (r : Addr) : Call → Addr → Nat
  | .unref a => upd held a (held a - 1)
  | .intern _ => held
  | .lwcRef _ => held
  | .lwcUnref _ => held
  | .internBytes _ => held
  | _ => upd held r (held r + 1)

/-- The references on libwapcaplet strings after a call that returned `r`. -/
def looseAfter (loose : Addr → Nat) (r : Addr) : Call → Addr → Nat
  | .intern _ => upd loose r (loose r + 1)
  | .lwcRef l => upd loose l (loose l + 1)
  | .lwcUnref l => upd loose l (loose l - 1)
  | .internBytes _ => upd loose r (loose r + 1)
  | _ => loose

/-- The histories of such a client. -/
inductive Reach : Mem → (Addr → Nat) → (Addr → Nat) → Prop
  | start : Reach Mem.empty (fun _ => 0) (fun _ => 0)
  | call {s held loose c s' r} : Reach s held loose → Allowed s held loose c → perform s c = .ok (s', r) →
      Reach s' (heldAfter held r c) (looseAfter loose r c)

/-- What a call that makes a string returns, by the bytes of its arguments. -/
inductive Result (s : Mem) : Call → Bytes → Prop
  | create (b : Bytes) : Result s (.create b) b
  | createInterned (b : Bytes) : Result s (.createInterned b) b
  | ref {a t} : strBytes s a = .ok t → Result s (.ref a) t
  | concat {a b t u} : strBytes s a = .ok t → strBytes s b = .ok u → Result s (.concat a b) (t ++ u)
  | upper {a t} : strBytes s a = .ok t → Result s (.upper a) (t.map asciiUpper)
  | lower {a t} : strBytes s a = .ok t → Result s (.lower a) (t.map asciiLower)
  | whitespace {a t op} : strBytes s a = .ok t → Result s (.whitespace a op) (Str.whitespaceOp ⟨t, false⟩ op).data

variable {s s' : Mem} {held loose : Addr → Nat} {a b l m r : Addr} {c : Call}

theorem text_bytes (hI : Inv s held loose) {t : Bytes} : text s a = some t ↔ strBytes s a = .ok t := by
  constructor
  · intro h; exact (bytes_of hI h).choose_spec.2.2
  · intro h
    cases ho : s.strs a with
    | none => simp [strBytes, rdStr, ho] at h
    | some o =>
      obtain ⟨u, h1, h2⟩ := hI.bytes ho
      rw [h] at h2; cases h2; exact h1

/-- What one call does, in terms of the invariant. -/
theorem perform_inv (hI : Inv s held loose) (h : Allowed s held loose c) : ∃ s' r, perform s c = .ok (s', r) ∧
    Inv s' (heldAfter held r c) (looseAfter loose r c) ∧ Step s s' ∧ (∀ t, Result s c t → text s' r = some t) ∧
    (∀ a, c = .intern a → ∃ x, s'.lwcs r = some x ∧ text s a = some x.bytes) ∧
    (∀ a, c = .unref a → held a = 1 → s'.strs a = none) := by
  have mk : ∀ t, Makes s held loose t (perform s c) → (heldAfter held · c) = (fun r => upd held r (held r + 1)) →
      (looseAfter loose · c) = (fun _ => loose) → (∀ u, Result s c u → u = t) → (∀ a, c ≠ .intern a) → (∀ a, c ≠ .unref a) → ∃ s' r, perform s c = .ok (s', r) ∧
      Inv s' (heldAfter held r c) (looseAfter loose r c) ∧ Step s s' ∧ (∀ t, Result s c t → text s' r = some t) ∧
      (∀ a, c = .intern a → ∃ x, s'.lwcs r = some x ∧ text s a = some x.bytes) ∧ (∀ a, c = .unref a → held a = 1 → s'.strs a = none) := by
    rintro t ⟨s', r, e, I, S, T⟩ h1 h2 hu h3 h4
    refine ⟨s', r, e, ?_, S, fun u hr => by rw [hu u hr]; exact T, fun a e => absurd e (h3 a), fun a e => absurd e (h4 a)⟩
    rw [show heldAfter held r c = _ from congrFun h1 r, show looseAfter loose r c = _ from congrFun h2 r]
    exact I
  have rd : ∀ {a}, 0 < held a → ∃ t, text s a = some t ∧ strBytes s a = .ok t := fun hh =>
    hI.bytes (hI.alive hh).choose_spec
  cases c with
  | create b => exact mk b (makes_create hI b) rfl rfl (by rintro u ⟨⟩; rfl) (fun _ e => nomatch e) (fun _ e => nomatch e)
  | createInterned b => exact mk b (makes_interned hI b) rfl rfl (by rintro u ⟨⟩; rfl) (fun _ e => nomatch e) (fun _ e => nomatch e)
  | ref a =>
    obtain ⟨o, ho⟩ := hI.alive h.1
    obtain ⟨s', e, I, S, T, _⟩ := hI.strRef ho h.2
    refine ⟨s', a, ?_, I, S, ?_, (fun _ e => nomatch e), (fun _ e => nomatch e)⟩
    · show (strRef s a >>= _) = _
      rw [e, Out.bind_ok]
    · rintro t ⟨⟩
      rename_i ht
      rw [T]; exact (text_bytes hI).2 ht
  | unref a =>
    obtain ⟨s', e, I, S, T, D⟩ := hI.strUnref h
    refine ⟨s', a, ?_, I, S, (fun _ e => nomatch e), (fun _ e => nomatch e), ?_⟩
    · show (strUnref s a >>= _) = _
      rw [e, Out.bind_ok]
    · rintro b e' h1; cases e'; exact D h1
  | intern a =>
    obtain ⟨o, ho⟩ := hI.alive h
    obtain ⟨s', l, x, e, I, S, T, hx, ht, _⟩ := hI.strIntern ho
    refine ⟨s', l, e, I, S, (fun _ e => nomatch e), ?_, (fun _ e => nomatch e)⟩
    rintro b e'; cases e'; exact ⟨x, hx, ht⟩
  | lwcRef l =>
    obtain ⟨x, hx⟩ := hI.lwcAlive h
    obtain ⟨s', e, I, S, _⟩ := hI.lwcRef hx
    refine ⟨s', l, ?_, I, S, (fun _ e => nomatch e), (fun _ e => nomatch e), (fun _ e => nomatch e)⟩
    show (lwcRef s l >>= _) = _
    rw [e, Out.bind_ok]
  | lwcUnref l =>
    have h' : loose l = (loose l - 1) + 1 := by have : 0 < loose l := h; omega
    obtain ⟨s', e, I, S, _⟩ := hI.lwcUnref h'
    refine ⟨s', l, ?_, I, S, (fun _ e => nomatch e), (fun _ e => nomatch e), (fun _ e => nomatch e)⟩
    show (lwcUnref s l >>= _) = _
    rw [e, Out.bind_ok]
  | internBytes b =>
    obtain ⟨s', l, x, e, _, _, I, S, _⟩ := hI.lwcIntern b
    exact ⟨s', l, e, I, S, (fun _ e => nomatch e), (fun _ e => nomatch e), (fun _ e => nomatch e)⟩
  | concat a b =>
    obtain ⟨t, h1, h2⟩ := rd h.1
    obtain ⟨u, h3, h4⟩ := rd h.2
    refine mk _ (makes_concat hI h1 h3) rfl rfl ?_ (fun _ e => nomatch e) (fun _ e => nomatch e)
    rintro w ⟨⟩
    rename_i t' u' g1 g2
    rw [h2] at g1; rw [h4] at g2; cases g1; cases g2; rfl
  | upper a =>
    obtain ⟨t, h1, h2⟩ := rd h
    refine mk _ (makes_upper hI h1) rfl rfl ?_ (fun _ e => nomatch e) (fun _ e => nomatch e)
    rintro w ⟨⟩
    rename_i t' g1
    rw [h2] at g1; cases g1
    exact (List.map_congr_left fun b _ => Str.doupper_eq b).symm
  | lower a =>
    obtain ⟨t, h1, h2⟩ := rd h.1
    refine mk _ (makes_lower hI h1 h.2) rfl rfl ?_ (fun _ e => nomatch e) (fun _ e => nomatch e)
    rintro w ⟨⟩
    rename_i t' g1
    rw [h2] at g1; cases g1
    exact (Str.map_dolower t).symm
  | whitespace a op =>
    obtain ⟨t, h1, h2⟩ := rd h.1
    refine mk _ (makes_whitespace hI h1 (fun e => h.2 (by rw [h2, e])) op) rfl rfl ?_ (fun _ e => nomatch e) (fun _ e => nomatch e)
    rintro w ⟨⟩
    rename_i t' g1
    rw [h2] at g1; cases g1; rfl

theorem Reach.inv (h : Reach s held loose) : Inv s held loose := by
  induction h with
  | start => exact empty_inv
  | call _ ha hp ih =>
    obtain ⟨s2, r2, e, I, _⟩ := perform_inv ih ha
    rw [hp] at e; cases e
    exact I

/-! ## Theorems -/

/-- C65: no call of such a client faults or fails, after any history; a call that makes a string returns the string it should. -/
theorem C65_calls (h : Reach s held loose) (ha : Allowed s held loose c) : ∃ s' r, perform s c = .ok (s', r) ∧
    (∀ t, Result s c t → strBytes s' r = .ok t) ∧ (∀ a, c = .intern a → ∃ x, s'.lwcs r = some x ∧ strBytes s a = .ok x.bytes) := by
  obtain ⟨s', r, e, I, _, T, N, _⟩ := perform_inv h.inv ha
  refine ⟨s', r, e, fun t ht => (text_bytes I).1 (T t ht), fun a ea => ?_⟩
  obtain ⟨x, hx, ht⟩ := N a ea
  exact ⟨x, hx, (text_bytes h.inv).1 ht⟩

/-- C65: every call that makes a string makes one that is described by `Result`. -/
theorem C65_result (h : Reach s held loose) (ha : Allowed s held loose c) :
    (∃ t, Result s c t) ∨ (∃ a, c = .unref a ∨ c = .intern a ∨ c = .lwcRef a ∨ c = .lwcUnref a) ∨ ∃ b, c = .internBytes b := by
  have rd : ∀ {a}, 0 < held a → ∃ t, strBytes s a = .ok t := fun hh =>
    let ⟨t, _, h⟩ := h.inv.bytes (h.inv.alive hh).choose_spec
    ⟨t, h⟩
  cases c with
  | create b => exact Or.inl ⟨_, .create b⟩
  | createInterned b => exact Or.inl ⟨_, .createInterned b⟩
  | ref a => obtain ⟨t, ht⟩ := rd ha.1; exact Or.inl ⟨_, .ref ht⟩
  | unref a => exact Or.inr (Or.inl ⟨a, Or.inl rfl⟩)
  | intern a => exact Or.inr (Or.inl ⟨a, Or.inr (Or.inl rfl)⟩)
  | lwcRef a => exact Or.inr (Or.inl ⟨a, Or.inr (Or.inr (Or.inl rfl))⟩)
  | lwcUnref a => exact Or.inr (Or.inl ⟨a, Or.inr (Or.inr (Or.inr rfl))⟩)
  | internBytes b => exact Or.inr (Or.inr ⟨b, rfl⟩)
  | concat a b => obtain ⟨t, ht⟩ := rd ha.1; obtain ⟨u, hu⟩ := rd ha.2; exact Or.inl ⟨_, .concat ht hu⟩
  | upper a => obtain ⟨t, ht⟩ := rd ha; exact Or.inl ⟨_, .upper ht⟩
  | lower a => obtain ⟨t, ht⟩ := rd ha.1; exact Or.inl ⟨_, .lower ht⟩
  | whitespace a op => obtain ⟨t, ht⟩ := rd ha.1; exact Or.inl ⟨_, .whitespace ht⟩

/-- C65: interning bytes returns the libwapcaplet string with these bytes, the same one for the same bytes. -/
theorem C65_intern_bytes (h : Reach s held loose) (b : Bytes) : ∃ s' l x, perform s (.internBytes b) = .ok (s', l) ∧ s'.lwcs l = some x ∧ x.bytes = b ∧
    ∀ m y, s'.lwcs m = some y → y.bytes = b → m = l := by
  obtain ⟨s', l, x, e, h1, h2, I, _⟩ := h.inv.lwcIntern b
  exact ⟨s', l, x, e, h1, h2, fun m y hm hy => I.uniq m l y x hm h1 (by rw [hy, h2])⟩

/-- C65: a string keeps its bytes as long as a reference is held, whatever is called, also when it becomes interned itself. -/
theorem C65_stable (h : Reach s held loose) (ha : Allowed s held loose c) (hp : perform s c = .ok (s', r)) (h0 : 0 < held a)
    (h1 : 0 < heldAfter held r c a) : ∃ t, strBytes s a = .ok t ∧ strBytes s' a = .ok t := by
  obtain ⟨s2, r2, e, I, S, _⟩ := perform_inv h.inv ha
  rw [hp] at e; cases e
  obtain ⟨o, ho⟩ := h.inv.alive h0
  obtain ⟨t, ht, hb⟩ := h.inv.bytes ho
  refine ⟨t, hb, (text_bytes I).1 ?_⟩
  rcases S.text a t ht with h2 | h2
  · exact h2
  · exact absurd (I.dead a h2) (Nat.pos_iff_ne_zero.1 h1)

/-- C65: the same for a libwapcaplet string. -/
theorem C65_lwc_stable (h : Reach s held loose) (ha : Allowed s held loose c) (hp : perform s c = .ok (s', r)) (h0 : 0 < loose l)
    (h1 : 0 < looseAfter loose r c l) : ∃ x x', s.lwcs l = some x ∧ s'.lwcs l = some x' ∧ x'.bytes = x.bytes := by
  obtain ⟨s2, r2, e, I, S, _⟩ := perform_inv h.inv ha
  rw [hp] at e; cases e
  obtain ⟨x, hx⟩ := h.inv.lwcAlive h0
  rcases S.bytes l x hx with h2 | ⟨x', h2, h3⟩
  · exact absurd (I.gone l h2) (Nat.pos_iff_ne_zero.1 h1)
  · exact ⟨x, x', hx, h2, h3⟩

/-- C65: a string exists exactly while it is referenced, and its count is the number of references. -/
theorem C65_alive (h : Reach s held loose) (a : Addr) : (∀ o, s.strs a = some o → o.refcnt = held a ∧ 0 < held a) ∧ (s.strs a = none → held a = 0) :=
  ⟨fun o ho => ⟨(h.inv.live a o ho).1, (h.inv.live a o ho).2.1⟩, h.inv.dead a⟩

/-- C65: a libwapcaplet string exists exactly while the client or a string uses it, and its count is the number of these. -/
theorem C65_lwc_alive (h : Reach s held loose) (l : Addr) : ∃ as : Finset Addr, (∀ a, a ∈ as ↔ ∃ o, s.strs a = some o ∧ o.body = .interned l) ∧
    (∀ x, s.lwcs l = some x → x.refcnt = loose l + as.card ∧ 0 < x.refcnt) ∧ (s.lwcs l = none → loose l = 0 ∧ as = ∅) := by
  have hI := h.inv
  have hmem : ∀ a, a ∈ (Finset.range s.fresh).filter (fun a => uses (s.strs a) l = 1) ↔ ∃ o, s.strs a = some o ∧ o.body = .interned l := by
    intro a
    rw [Finset.mem_filter, Finset.mem_range]
    constructor
    · rintro ⟨_, h⟩
      cases ho : s.strs a with
      | none => rw [ho] at h; cases h
      | some o =>
        rw [ho] at h
        rcases o with ⟨rc, ⟨p, n⟩ | ⟨m⟩⟩
        · cases h
        · refine ⟨_, rfl, ?_⟩
          by_cases hm : m = l
          · rw [hm]
          · simp [uses, hm] at h
    · rintro ⟨o, ho, hb⟩
      refine ⟨hI.bStr a o ho, ?_⟩
      rw [ho]
      rcases o with ⟨rc, ⟨p, n⟩ | ⟨m⟩⟩ <;> cases hb
      simp [uses]
  refine ⟨_, hmem, fun x hx => ?_, fun hn => ⟨hI.gone l hn, ?_⟩⟩
  · obtain ⟨h1, h2⟩ := hI.count l x hx
    refine ⟨?_, h2⟩
    rw [h1, Finset.card_filter]
    congr 1
    refine Finset.sum_congr rfl fun i _ => ?_
    have : uses (s.strs i) l = 0 ∨ uses (s.strs i) l = 1 := by
      cases s.strs i with
      | none => exact Or.inl rfl
      | some o =>
        rcases o with ⟨rc, ⟨p, n⟩ | ⟨m⟩⟩
        · exact Or.inl rfl
        · by_cases hm : m = l <;> simp [uses, hm]
    rcases this with e | e <;> rw [e] <;> rfl
  · refine Finset.eq_empty_of_forall_notMem fun a ha => ?_
    obtain ⟨o, ho, hb⟩ := (hmem a).1 ha
    obtain ⟨x, hx⟩ := hI.intern a o l ho hb
    rw [hn] at hx; cases hx

/-- C65: nothing leaks: with no reference left there is no string, no buffer and no libwapcaplet string. -/
theorem C65_no_leak (h : Reach s held loose) (h0 : ∀ a, held a = 0) (h1 : ∀ l, loose l = 0) (a : Addr) :
    s.strs a = none ∧ s.bufs a = none ∧ s.lwcs a = none := by
  have hI := h.inv
  have hs : ∀ a, s.strs a = none := by
    intro a
    cases ho : s.strs a with
    | none => rfl
    | some o => exact absurd (h0 a) (Nat.pos_iff_ne_zero.1 (hI.live a o ho).2.1)
  refine ⟨hs a, ?_, ?_⟩
  · cases hb : s.bufs a with
    | none => rfl
    | some b =>
      obtain ⟨c, o, n, h2, _⟩ := hI.owned a b hb
      rw [hs] at h2; cases h2
  · cases hx : s.lwcs a with
    | none => rfl
    | some x =>
      obtain ⟨h2, h3⟩ := hI.count a x hx
      have : users s a = 0 := Finset.sum_eq_zero fun i _ => by rw [hs]; rfl
      rw [h1, this] at h2
      omega

/-- C65: every buffer belongs to exactly one string, which is live. -/
theorem C65_buffers (h : Reach s held loose) {p : Addr} {t : Bytes} (hp : s.bufs p = some t) :
    ∃ a u, 0 < held a ∧ strBytes s a = .ok u ∧ t = u ++ [0] ∧ ∀ c o n, s.strs c = some o → o.body = .cdata p n → c = a := by
  have hI := h.inv
  obtain ⟨a, o, n, h1, h2⟩ := hI.owned p t hp
  obtain ⟨u, h3, h4⟩ := hI.cdata a o p n h1 h2
  rw [hp] at h3; cases h3
  refine ⟨a, u, (hI.live a o h1).2.1, (text_bytes hI).1 ?_, rfl, fun c q k hc hb => hI.own c q a o p k n hc h1 hb h2⟩
  unfold text
  rw [h1]
  simp only [h2, hp, Option.map_some, List.take_left' h4]

theorem argLwc_some (hI : Inv s held loose) {y : Option Addr} {t : Bytes} (h : argBytes s y = .ok t) :
    ∃ l, argLwc s y = .ok l ∧ ∀ k, l = some k → ∃ x, s.lwcs k = some x ∧ x.bytes = t := by
  cases y with
  | none => exact ⟨none, rfl, fun _ e => nomatch e⟩
  | some a =>
    have ht := (text_bytes hI).2 (show strBytes s a = .ok t from h)
    obtain ⟨o, ho⟩ := text_live ht
    unfold text at ht
    rw [ho] at ht
    simp only [argLwc, rdStr_run ho, Out.bind_ok]
    rcases o with ⟨rc, ⟨p, n⟩ | ⟨k⟩⟩
    · exact ⟨none, rfl, fun _ e => nomatch e⟩
    · refine ⟨some k, rfl, ?_⟩
      rintro k' e; cases e
      obtain ⟨x, hx⟩ := hI.intern a _ k ho rfl
      simp only [hx, Option.map_some] at ht
      exact ⟨x, hx, Option.some.inj ht⟩

theorem cmp_eq (t u : Bytes) : (if t.length ≠ u.length then false else t == u) = decide (t = u) := by
  by_cases h : t = u
  · subst h; simp
  · rw [decide_eq_false h]
    split
    · rfl
    · exact beq_eq_false_iff_ne.2 h

/-- C65: `dom_string_isequal` is equality of bytes, `NULL` being empty, whichever of the strings are interned: comparing interned strings by address
is sound and complete. -/
theorem C65_equal (h : Reach s held loose) {x y : Option Addr} {t u : Bytes} (hx : argBytes s x = .ok t) (hy : argBytes s y = .ok u) :
    strIsEqual s x y = .ok (decide (t = u)) := by
  have hI := h.inv
  obtain ⟨k, e1, h1⟩ := argLwc_some hI hx
  obtain ⟨m, e2, h2⟩ := argLwc_some hI hy
  unfold strIsEqual
  rw [e1, Out.bind_ok, e2, Out.bind_ok]
  have fb : (do let x ← argBytes s x; let y ← argBytes s y; Out.ok (if x.length ≠ y.length then false else x == y)) = Out.ok (decide (t = u)) := by
    rw [hx, Out.bind_ok, hy, Out.bind_ok, cmp_eq]
  cases k with
  | none => exact fb
  | some k =>
    cases m with
    | none => exact fb
    | some m =>
      obtain ⟨x1, g1, b1⟩ := h1 k rfl
      obtain ⟨x2, g2, b2⟩ := h2 m rfl
      show Out.ok (k == m) = _
      congr 1
      rw [show (k == m) = decide (k = m) from rfl]
      refine decide_eq_decide.2 ⟨fun e => ?_, fun e => hI.uniq k m x1 x2 g1 g2 (by rw [b1, b2, e])⟩
      rw [e, g2] at g1; cases g1
      rw [← b1, ← b2]

/-- C65: so is the comparison with a libwapcaplet string. -/
theorem C65_lwc_equal (h : Reach s held loose) {t : Bytes} {x : LObj} (ha : strBytes s a = .ok t) (hl : s.lwcs l = some x) :
    strLwcIsEqual s a l = .ok (decide (t = x.bytes)) := by
  have hI := h.inv
  obtain ⟨k, e1, h1⟩ := argLwc_some hI (y := some a) ha
  unfold strLwcIsEqual
  rw [e1, Out.bind_ok]
  cases k with
  | none =>
    simp only [ha, Out.bind_ok, rdLwc_run hl]
    rw [cmp_eq]
  | some k =>
    obtain ⟨x1, g1, b1⟩ := h1 k rfl
    show Out.ok (k == l) = _
    congr 1
    rw [show (k == l) = decide (k = l) from rfl]
    refine decide_eq_decide.2 ⟨fun e => ?_, fun e => hI.uniq k l x1 x g1 hl (by rw [b1, e])⟩
    rw [e, hl] at g1; cases g1
    exact b1.symm

/-- C65: no two libwapcaplet strings have the same bytes, so interning two strings gives the same address exactly when their bytes agree. -/
theorem C65_intern_unique (h : Reach s held loose) (ha : 0 < held a) (hb : 0 < held b) {s1 s2 : Mem} (h1 : strIntern s a = .ok (s1, l))
    (h2 : strIntern s1 b = .ok (s2, m)) : l = m ↔ strBytes s a = strBytes s b := by
  have r1 : Reach s1 held (upd loose l (loose l + 1)) := h.call (c := .intern a) ha h1
  have r2 := r1.call (c := .intern b) hb h2
  obtain ⟨_, _, e1, _, n1⟩ := C65_calls h (c := .intern a) ha
  rw [show perform s (.intern a) = _ from h1] at e1; cases e1
  obtain ⟨_, _, e2, _, n2⟩ := C65_calls r1 (c := .intern b) hb
  rw [show perform s1 (.intern b) = _ from h2] at e2; cases e2
  obtain ⟨x, hx, bx⟩ := n1 a rfl
  obtain ⟨y, hy, by'⟩ := n2 b rfl
  obtain ⟨t, ht, ht'⟩ := C65_stable h (c := .intern a) ha h1 hb hb
  obtain ⟨z, z', hz, hz', hzz⟩ := C65_lwc_stable r1 (c := .intern b) hb h2 (l := l) (by rw [upd_same]; exact Nat.succ_pos _)
    (by
      show 0 < upd (upd loose l (loose l + 1)) m _ l
      by_cases e : l = m
      · subst e; rw [upd_same]; exact Nat.succ_pos _
      · rw [upd_ne e, upd_same]; exact Nat.succ_pos _)
  rw [hx] at hz; cases hz
  rw [ht'] at by'
  have hty : t = y.bytes := Out.ok.inj by'
  rw [bx, ht, hty]
  constructor
  · rintro rfl
    rw [hy] at hz'; cases hz'
    rw [hzz]
  · intro e
    have e' : x.bytes = y.bytes := Out.ok.inj e
    exact r2.inv.uniq l m z' y hz' hy (by rw [hzz, e'])

/-! ## Where the code deviates -/

/-- C65 is violated by `dom_string_whitespace_op` of an empty string: it takes a reference on the argument that the caller never learns of, so the
string stays when every reference the caller has is given back.  Here a string without bytes is made, stripped, and both strings are given back. -/
theorem C65_whitespace_violated : ∃ s1 a s2 r s3 s4 o, strCreate Mem.empty [] = .ok (s1, a) ∧ strWhitespace s1 a ⟨true, true, true⟩ = .ok (s2, r) ∧
    strUnref s2 r = .ok s3 ∧ strUnref s3 a = .ok s4 ∧ r ≠ a ∧ s4.strs a = some o ∧ o.refcnt = 1 := by
  refine ⟨_, _, _, _, _, _, _, rfl, rfl, rfl, rfl, ?_, rfl, ?_⟩ <;> decide +kernel

/-- C65: the address `dom_string_data` returned does not survive `dom_string_intern`: the buffer it points to is released although the string is still
referenced. -/
theorem C65_data_violated (h : Reach s held loose) (h0 : 0 < held a) {o : SObj} {p : Addr} {n : Nat} (ho : s.strs a = some o) (hb : o.body = .cdata p n) :
    ∃ s' l, strIntern s a = .ok (s', l) ∧ 0 < held a ∧ (∃ t, s.bufs p = some t) ∧ s'.bufs p = none := by
  have hI := h.inv
  obtain ⟨t, ht, hn⟩ := hI.cdata a o p n ho hb
  obtain ⟨s', l, x, e, I, S, T, hx, htx, o', ho', hb'⟩ := hI.strIntern ho
  refine ⟨s', l, e, h0, ⟨_, ht⟩, ?_⟩
  unfold strIntern internBody at e
  rw [rdStr_run ho, Out.bind_ok] at e
  simp only [hb, rdBuf_run ht (n := n) (by simp [← hn]), Out.bind_ok, List.take_left' hn] at e
  obtain ⟨s1, l1, x1, e1, hx1, _, _, _, _, F1, _⟩ := hI.lwcIntern t
  rw [e1] at e
  simp only [Out.bind_ok] at e
  rw [freeBuf_run (b := t ++ [0]) (by rw [F1]; exact ht)] at e
  simp only [Out.bind_ok] at e
  rw [lwcRef_run (x := x1) (by exact hx1)] at e
  simp only [Out.bind_ok] at e
  cases e
  exact upd_same

/-! ## Concrete histories -/

/-- Run several calls, checking that each is allowed. -/
def run (p : Mem × (Addr → Nat) × (Addr → Nat)) : List Call → Option (Mem × (Addr → Nat) × (Addr → Nat))
  | [] => some p
  | c :: cs =>
    if Allowed p.1 p.2.1 p.2.2 c then
      match perform p.1 c with
      | .ok (s, r) => run (s, heldAfter p.2.1 r c, looseAfter p.2.2 r c) cs
      | _ => none
    else none

theorem run_reach {p q : Mem × (Addr → Nat) × (Addr → Nat)} {cs : List Call} (h : Reach p.1 p.2.1 p.2.2) (hs : run p cs = some q) :
    Reach q.1 q.2.1 q.2.2 := by
  induction cs generalizing p with
  | nil => cases hs; exact h
  | cons c cs ih =>
    simp only [run] at hs
    split at hs
    · rename_i ha
      split at hs
      · rename_i s r hp
        exact ih (p := (s, _, _)) (h.call ha hp) hs
      · cases hs
    · cases hs

theorem exists_run (cs : List Call) (check : Mem → (Addr → Nat) → (Addr → Nat) → Bool)
    (h : ((run (Mem.empty, fun _ => 0, fun _ => 0) cs).any fun q => check q.1 q.2.1 q.2.2) = true) :
    ∃ s held loose, Reach s held loose ∧ check s held loose = true := by
  cases h1 : run (Mem.empty, fun _ => 0, fun _ => 0) cs with
  | none => rw [h1] at h; cases h
  | some q =>
    rw [h1] at h
    exact ⟨q.1, q.2.1, q.2.2, run_reach (p := (Mem.empty, fun _ => 0, fun _ => 0)) Reach.start h1, h⟩

/-- "aB" is made twice, once interned; the other is interned too; both are lowered. -/
def sample : List Call := [.create [97, 66], .createInterned [97, 66], .intern 0, .lower 0, .create [97, 98]]

/-- After the sample history the two strings share libwapcaplet's string 2, which has three references, and are equal; the buffer of the first is
gone; the lowered string equals one that is not interned. -/
example : ∃ s held loose, Reach s held loose ∧ (s.lwcs 2).map (·.refcnt) = some 3 ∧ loose 2 = 1 ∧ s.bufs 1 = none ∧ held 0 = 1 ∧ held 3 = 1 ∧
    strIsEqual s (some 0) (some 3) = .ok true ∧ strBytes s 5 = .ok [97, 98] ∧ strIsEqual s (some 5) (some 6) = .ok true ∧
    strIsEqual s (some 0) (some 6) = .ok false := by
  obtain ⟨s, held, loose, h1, h2⟩ := exists_run sample (fun s held loose => decide ((s.lwcs 2).map (·.refcnt) = some 3 ∧ loose 2 = 1 ∧ s.bufs 1 = none ∧
    held 0 = 1 ∧ held 3 = 1 ∧ strIsEqual s (some 0) (some 3) = .ok true ∧ strBytes s 5 = .ok [97, 98] ∧
    strIsEqual s (some 5) (some 6) = .ok true ∧ strIsEqual s (some 0) (some 6) = .ok false)) (by decide +kernel)
  exact ⟨s, held, loose, h1, of_decide_eq_true h2⟩

/-- `C65_no_leak` applies after a history in which strings were interned and given back. -/
example : ∃ s held loose, Reach s held loose ∧ held 0 = 0 ∧ loose 2 = 0 ∧ s.fresh = 3 ∧ s.strs 0 = none ∧ s.bufs 1 = none ∧ s.lwcs 2 = none := by
  obtain ⟨s, held, loose, h1, h2⟩ := exists_run [.create [97], .intern 0, .ref 0, .unref 0, .unref 0, .lwcUnref 2] (fun s held loose =>
    decide (held 0 = 0 ∧ loose 2 = 0 ∧ s.fresh = 3 ∧ s.strs 0 = none ∧ s.bufs 1 = none ∧ s.lwcs 2 = none)) (by decide +kernel)
  exact ⟨s, held, loose, h1, of_decide_eq_true h2⟩

/-- `C65_data_violated` applies to a string that was just made. -/
example : ∃ s held loose, Reach s held loose ∧ 0 < held 0 ∧ s.strs 0 = some ⟨1, .cdata 1 1⟩ := by
  obtain ⟨s, held, loose, h1, h2⟩ := exists_run [.create [97]] (fun s held _ => decide (0 < held 0 ∧ s.strs 0 = some ⟨1, .cdata 1 1⟩)) (by decide +kernel)
  exact ⟨s, held, loose, h1, of_decide_eq_true h2⟩

end Dom.Intern
