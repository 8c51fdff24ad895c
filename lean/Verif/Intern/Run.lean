import Verif.Intern.Lemmas
/-!
# What the functions of string.c do to a memory that satisfies the invariant
-/
set_option linter.unusedSimpArgs false
set_option linter.unusedVariables false
namespace Dom.Intern

open Dom.Str (Bytes WsOp)

variable {s s' s'' : Mem} {held loose : Addr → Nat} {a b l m p : Addr} {o : SObj} {x : LObj}

/-- A string object disappears; the reference it had on its libwapcaplet string becomes a loose one. -/
theorem Inv.dropInterned (hI : Inv s held loose) (ho : s.strs a = some o) (hb : o.body = .interned l) :
    Inv { s with strs := upd s.strs a none } (upd held a 0) (upd loose l (loose l + 1)) ∧ Step s { s with strs := upd s.strs a none } := by
  have hcase : ∀ c q, upd s.strs a none c = some q → c ≠ a ∧ s.strs c = some q := by
    intro c q hq
    by_cases hc : c = a
    · subst hc; rw [upd_same] at hq; cases hq
    · rw [upd_ne hc] at hq; exact ⟨hc, hq⟩
  have hu : ∀ m, ∑ i ∈ Finset.range s.fresh, uses (upd s.strs a none i) m + (if l = m then 1 else 0) = users s m := by
    intro m
    have h := sum_upd s.strs s.fresh (hI.bStr a o ho) none m
    rw [ho] at h
    rcases o with ⟨rc, ⟨p, n⟩ | ⟨l'⟩⟩ <;> cases hb
    exact h
  refine ⟨⟨?_, ?_, ?_, hI.bBuf, hI.bLwc, ?_, ?_, ?_, ?_, ?_, ?_, hI.uniq⟩, ⟨Nat.le_refl _, ?_, ?_, fun l x h => Or.inr ⟨x, h, rfl⟩, fun _ _ h => h⟩⟩
  · intro c q hq
    obtain ⟨h1, h⟩ := hcase c q hq
    rw [upd_ne h1]; exact hI.live c q h
  · intro c hq
    replace hq : upd s.strs a none c = none := hq
    by_cases hc : c = a
    · subst hc; exact upd_same
    · rw [upd_ne hc] at hq ⊢; exact hI.dead c hq
  · intro c q hq; exact hI.bStr c q (hcase c q hq).2
  · intro c q p n hq hb'; exact hI.cdata c q p n (hcase c q hq).2 hb'
  · intro c q c' q' p n n' hq hq' h h'
    exact hI.own c q c' q' p n n' (hcase c q hq).2 (hcase c' q' hq').2 h h'
  · intro p t hp
    obtain ⟨c, q, n, h1, h2⟩ := hI.owned p t hp
    refine ⟨c, q, n, ?_, h2⟩
    show upd s.strs a none c = _
    rw [upd_ne]
    · exact h1
    · rintro rfl
      rw [ho] at h1; cases h1
      rw [hb] at h2; cases h2
  · intro c q m hq hb'; exact hI.intern c q m (hcase c q hq).2 hb'
  · intro m y hy
    show y.refcnt = upd loose l (loose l + 1) m + ∑ i ∈ Finset.range s.fresh, _ ∧ _
    have h1 := hI.count m y hy
    have h2 := hu m
    refine ⟨?_, h1.2⟩
    show y.refcnt = upd loose l (loose l + 1) m + ∑ i ∈ Finset.range s.fresh, uses (upd s.strs a none i) m
    by_cases hm : m = l
    · subst hm; rw [upd_same]; rw [if_pos rfl] at h2; omega
    · rw [upd_ne hm]; rw [if_neg (fun e => hm e.symm)] at h2; omega
  · intro m hm
    obtain ⟨y, hy⟩ := hI.intern a o l ho hb
    have : m ≠ l := by rintro rfl; rw [show s.lwcs m = none from hm] at hy; cases hy
    rw [upd_ne this]; exact hI.gone m hm
  · intro c t h
    by_cases hc : c = a
    · subst hc; exact Or.inr upd_same
    · refine Or.inl ?_
      unfold text at h ⊢
      show (match upd s.strs a none c with | none => _ | some o => _) = _
      rw [upd_ne hc]; exact h
  · intro c _ h
    show upd s.strs a none c = none
    by_cases hc : c = a
    · subst hc; exact upd_same
    · rw [upd_ne hc]; exact h

/-- A string object disappears together with its buffer. -/
theorem Inv.dropCdata (hI : Inv s held loose) (ho : s.strs a = some o) {n : Nat} (hb : o.body = .cdata p n) :
    Inv { s with strs := upd s.strs a none, bufs := upd s.bufs p none } (upd held a 0) loose ∧
    Step s { s with strs := upd s.strs a none, bufs := upd s.bufs p none } := by
  have hcase : ∀ c q, upd s.strs a none c = some q → c ≠ a ∧ s.strs c = some q := by
    intro c q hq
    by_cases hc : c = a
    · subst hc; rw [upd_same] at hq; cases hq
    · rw [upd_ne hc] at hq; exact ⟨hc, hq⟩
  have hp' : ∀ c q p' n', c ≠ a → s.strs c = some q → q.body = .cdata p' n' → p' ≠ p := by
    rintro c q p' n' hc hq hb' rfl
    exact hc (hI.own c q a o p' n' n hq ho hb' hb)
  have hu : ∀ m, ∑ i ∈ Finset.range s.fresh, uses (upd s.strs a none i) m = users s m := by
    intro m
    have h := sum_upd s.strs s.fresh (hI.bStr a o ho) none m
    rw [ho] at h
    rcases o with ⟨rc, ⟨p, n⟩ | ⟨l'⟩⟩ <;> cases hb
    exact h
  refine ⟨⟨?_, ?_, ?_, ?_, hI.bLwc, ?_, ?_, ?_, ?_, ?_, hI.gone, hI.uniq⟩, ⟨Nat.le_refl _, ?_, ?_, fun l x h => Or.inr ⟨x, h, rfl⟩, fun _ _ h => h⟩⟩
  · intro c q hq
    obtain ⟨h1, h⟩ := hcase c q hq
    rw [upd_ne h1]; exact hI.live c q h
  · intro c hq
    replace hq : upd s.strs a none c = none := hq
    by_cases hc : c = a
    · subst hc; exact upd_same
    · rw [upd_ne hc] at hq ⊢; exact hI.dead c hq
  · intro c q hq; exact hI.bStr c q (hcase c q hq).2
  · intro r t hr
    replace hr : upd s.bufs p none r = some t := hr
    by_cases hc : r = p
    · subst hc; rw [upd_same] at hr; cases hr
    · rw [upd_ne hc] at hr; exact hI.bBuf r t hr
  · intro c q r n' hq hb'
    obtain ⟨h1, h⟩ := hcase c q hq
    show ∃ t, upd s.bufs p none r = _ ∧ _
    rw [upd_ne (hp' c q r n' h1 h hb')]
    exact hI.cdata c q r n' h hb'
  · intro c q c' q' p n n' hq hq' h h'
    exact hI.own c q c' q' p n n' (hcase c q hq).2 (hcase c' q' hq').2 h h'
  · intro r t hr
    replace hr : upd s.bufs p none r = some t := hr
    by_cases hc : r = p
    · subst hc; rw [upd_same] at hr; cases hr
    · rw [upd_ne hc] at hr
      obtain ⟨c, q, n', h1, h2⟩ := hI.owned r t hr
      refine ⟨c, q, n', ?_, h2⟩
      show upd s.strs a none c = _
      rw [upd_ne]
      · exact h1
      · rintro rfl
        rw [ho] at h1; cases h1
        rw [hb] at h2; cases h2
        exact hc rfl
  · intro c q m hq hb'; exact hI.intern c q m (hcase c q hq).2 hb'
  · intro m y hy
    show y.refcnt = loose m + ∑ i ∈ Finset.range s.fresh, uses (upd s.strs a none i) m ∧ _
    rw [hu]
    exact hI.count m y hy
  · intro c t h
    by_cases hc : c = a
    · subst hc; exact Or.inr upd_same
    · refine Or.inl ?_
      obtain ⟨q, hq⟩ := text_live h
      unfold text at h ⊢
      show (match upd s.strs a none c with | none => _ | some o => _) = _
      rw [upd_ne hc]
      rw [hq] at h ⊢
      rcases q with ⟨rc, ⟨r, n'⟩ | ⟨l⟩⟩
      · show (upd s.bufs p none r).map _ = _
        rw [upd_ne (hp' c _ r n' hc hq rfl)]; exact h
      · exact h
  · intro c _ h
    show upd s.strs a none c = none
    by_cases hc : c = a
    · subst hc; exact upd_same
    · rw [upd_ne hc]; exact h

/-- `dom_string_unref`. -/
theorem Inv.strUnref (hI : Inv s held loose) (hh : 0 < held a) : ∃ s', strUnref s a = .ok s' ∧ Inv s' (upd held a (held a - 1)) loose ∧ Step s s' ∧
    (∀ c, c ≠ a ∨ 1 < held a → text s' c = text s c) ∧ (held a = 1 → s'.strs a = none) := by
  obtain ⟨o, ho⟩ := hI.alive hh
  obtain ⟨h0, _, h2⟩ := hI.live a o ho
  have hsub : sub32 o.refcnt 1 = held a - 1 := by rw [h0]; exact sub32_le (by omega)
  unfold Intern.strUnref
  rw [rdStr_run ho, Out.bind_ok, hsub]
  by_cases h1 : held a = 1
  · rw [h1]
    simp only [Nat.sub_self, if_true]
    unfold strDestroy
    rw [rdStr_run (o := { o with refcnt := 0 }) (by show upd _ _ _ a = _; exact upd_same)]
    simp only [Out.bind_ok, ne_eq, not_true_eq_false, if_false]
    have hstr : ∀ {f : Addr → Option SObj}, (∀ c, c ≠ a → f c = s.strs c) → ∀ c, c ≠ a → f c = s.strs c := fun h => h
    cases hb : o.body with
    | interned l =>
      obtain ⟨x, hx⟩ := hI.intern a o l ho hb
      obtain ⟨I1, S1⟩ := hI.dropInterned ho hb
      obtain ⟨s2, e2, I2, S2, e3, _, T2⟩ := I1.lwcUnref (l := l) (k := loose l) upd_same
      rw [lwcUnref_run (s := { s with strs := upd s.strs a none }) hx] at e2
      have hs2 := Out.ok.inj e2
      rw [dropBody, lwcUnref_run (s := { s with strs := upd s.strs a (some { refcnt := 0, body := .interned l }) }) hx]
      simp only [Out.bind_ok, upd_upd]
      refine ⟨s2, by rw [← hs2], ?_, S1.trans hI S2, ?_, ?_⟩
      · rw [upd_upd, upd_self rfl] at I2; exact I2
      · rintro c (hc | hc)
        · rw [T2]
          unfold text
          show (match upd s.strs a none c with | none => _ | some o => _) = _
          rw [upd_ne hc]
          rfl
        · exact absurd hc lt_irr
      · intro _; rw [← hs2]; exact upd_same
    | cdata p n =>
      obtain ⟨t, ht, _⟩ := hI.cdata a o p n ho hb
      obtain ⟨I1, S1⟩ := hI.dropCdata ho hb
      rw [dropBody, freeBuf_run (s := { s with strs := upd s.strs a (some { refcnt := 0, body := .cdata p n }) }) ht]
      simp only [Out.bind_ok, upd_upd]
      refine ⟨_, rfl, I1, S1, ?_, fun _ => upd_same⟩
      rintro c (hc | hc)
      · unfold text
        show (match upd s.strs a none c with | none => _ | some o => _) = _
        rw [upd_ne hc]
        cases hq : s.strs c with
        | none => rfl
        | some q =>
          rcases q with ⟨rc, ⟨r, n'⟩ | ⟨l⟩⟩
          · show (upd s.bufs p none r).map _ = _
            rw [upd_ne]
            rintro rfl
            exact hc (hI.own c _ a o r n' n hq ho rfl hb)
          · rfl
      · exact absurd hc lt_irr
  · rw [if_neg (by omega)]
    obtain ⟨I1, S1, T1⟩ := hI.strRc ho (k := held a - 1) (by omega) (by omega)
    exact ⟨_, rfl, I1, S1, fun c _ => T1 c, fun h => absurd h h1⟩

/-- `dom_string_create_interned`. -/
theorem Inv.strCreateInterned (hI : Inv s held loose) (t : Bytes) : ∃ s' r, strCreateInterned s t = .ok (s', r) ∧ Inv s' (upd held r 1) loose ∧
    Step s s' ∧ text s' r = some t ∧ held r = 0 ∧ (∀ m x, s.lwcs m = some x → ∃ x', s'.lwcs m = some x' ∧ x'.bytes = x.bytes) := by
  obtain ⟨s1, l, x, e1, hx, hb, I1, S1, _, _, T1, B1⟩ := hI.lwcIntern t
  obtain ⟨I2, S2, T2, h0⟩ := I1.wrap hx (k := loose l) upd_same
  unfold Intern.strCreateInterned
  rw [e1]
  refine ⟨_, _, rfl, ?_, S1.trans hI S2, by rw [T2, hb], h0, B1⟩
  rw [upd_upd, upd_self rfl] at I2
  exact I2

/-- A string gives up its buffer and takes over a loose reference on the libwapcaplet string with the same bytes. -/
theorem Inv.switch (hI : Inv s held loose) (ho : s.strs a = some o) {n : Nat} (hb : o.body = .cdata p n) (hx : s.lwcs l = some x)
    (ht : text s a = some x.bytes) {k : Nat} (hk : loose l = k + 1) :
    Inv { s with bufs := upd s.bufs p none, strs := upd s.strs a (some { o with body := .interned l }) } held (upd loose l k) ∧
    Step s { s with bufs := upd s.bufs p none, strs := upd s.strs a (some { o with body := .interned l }) } ∧
    (∀ c, text { s with bufs := upd s.bufs p none, strs := upd s.strs a (some { o with body := .interned l }) } c = text s c) := by
  have hcase : ∀ c q, upd s.strs a (some { o with body := .interned l }) c = some q →
      (c = a ∧ q = { o with body := .interned l }) ∨ (c ≠ a ∧ s.strs c = some q) := by
    intro c q hq
    by_cases hc : c = a
    · subst hc; rw [upd_same] at hq; exact Or.inl ⟨rfl, (Option.some.inj hq).symm⟩
    · rw [upd_ne hc] at hq; exact Or.inr ⟨hc, hq⟩
  have hp' : ∀ c q p' n', c ≠ a → s.strs c = some q → q.body = .cdata p' n' → p' ≠ p := by
    rintro c q p' n' hc hq hb' rfl
    exact hc (hI.own c q a o p' n' n hq ho hb' hb)
  have hu : ∀ m, ∑ i ∈ Finset.range s.fresh, uses (upd s.strs a (some { o with body := .interned l }) i) m
      = users s m + if l = m then 1 else 0 := by
    intro m
    have h := sum_upd s.strs s.fresh (hI.bStr a o ho) (some { o with body := .interned l }) m
    rw [ho] at h
    rcases o with ⟨rc, ⟨p, n⟩ | ⟨l'⟩⟩ <;> cases hb
    exact h
  have htxt : ∀ c, text { s with bufs := upd s.bufs p none, strs := upd s.strs a (some { o with body := .interned l }) } c = text s c := by
    intro c
    by_cases hc : c = a
    · subst hc
      rw [ht]
      unfold text
      show (match upd s.strs c _ c with | none => _ | some o => _) = _
      rw [upd_same]
      show (s.lwcs l).map _ = _
      rw [hx]; rfl
    · unfold text
      show (match upd s.strs a _ c with | none => _ | some o => _) = _
      rw [upd_ne hc]
      cases hq : s.strs c with
      | none => rfl
      | some q =>
        rcases q with ⟨rc, ⟨r, n'⟩ | ⟨l⟩⟩
        · show (upd s.bufs p none r).map _ = _
          rw [upd_ne (hp' c _ r n' hc hq rfl)]
        · rfl
  refine ⟨⟨?_, ?_, ?_, ?_, hI.bLwc, ?_, ?_, ?_, ?_, ?_, ?_, hI.uniq⟩,
    ⟨Nat.le_refl _, fun c t h => Or.inl ((htxt c).trans h), ?_, fun l x h => Or.inr ⟨x, h, rfl⟩, fun _ _ h => h⟩, htxt⟩
  · intro c q hq
    rcases hcase c q hq with ⟨rfl, rfl⟩ | ⟨h1, h⟩
    · exact hI.live c o ho
    · exact hI.live c q h
  · intro c hq
    replace hq : upd s.strs a _ c = none := hq
    by_cases hc : c = a
    · subst hc; rw [upd_same] at hq; cases hq
    · rw [upd_ne hc] at hq; exact hI.dead c hq
  · intro c q hq
    rcases hcase c q hq with ⟨rfl, rfl⟩ | ⟨h1, h⟩
    · exact hI.bStr c o ho
    · exact hI.bStr c q h
  · intro r t hr
    replace hr : upd s.bufs p none r = some t := hr
    by_cases hc : r = p
    · subst hc; rw [upd_same] at hr; cases hr
    · rw [upd_ne hc] at hr; exact hI.bBuf r t hr
  · intro c q r n' hq hb'
    rcases hcase c q hq with ⟨rfl, rfl⟩ | ⟨h1, h⟩
    · cases hb'
    · show ∃ t, upd s.bufs p none r = _ ∧ _
      rw [upd_ne (hp' c q r n' h1 h hb')]
      exact hI.cdata c q r n' h hb'
  · intro c q c' q' p n n' hq hq' h h'
    rcases hcase c q hq with ⟨_, rfl⟩ | ⟨_, g⟩
    · cases h
    rcases hcase c' q' hq' with ⟨_, rfl⟩ | ⟨_, g'⟩
    · cases h'
    exact hI.own c q c' q' p n n' g g' h h'
  · intro r t hr
    replace hr : upd s.bufs p none r = some t := hr
    by_cases hc : r = p
    · subst hc; rw [upd_same] at hr; cases hr
    · rw [upd_ne hc] at hr
      obtain ⟨c, q, n', h1, h2⟩ := hI.owned r t hr
      refine ⟨c, q, n', ?_, h2⟩
      show upd s.strs a _ c = _
      rw [upd_ne]
      · exact h1
      · rintro rfl
        rw [ho] at h1; cases h1
        rw [hb] at h2; cases h2
        exact hc rfl
  · intro c q m hq hb'
    rcases hcase c q hq with ⟨_, rfl⟩ | ⟨_, h⟩
    · cases hb'; exact ⟨x, hx⟩
    · exact hI.intern c q m h hb'
  · intro m y hy
    show y.refcnt = upd loose l k m + ∑ i ∈ Finset.range s.fresh, _ ∧ _
    rw [hu]
    have := hI.count m y hy
    by_cases hm : m = l
    · subst hm; rw [upd_same, if_pos rfl]; refine ⟨?_, this.2⟩; omega
    · rw [upd_ne hm, if_neg (fun e => hm e.symm)]; exact this
  · intro m hm
    have : m ≠ l := by rintro rfl; rw [show s.lwcs m = none from hm] at hx; cases hx
    rw [upd_ne this]; exact hI.gone m hm
  · intro c _ h
    show upd s.strs a _ c = none
    rw [upd_ne, h]
    rintro rfl; rw [ho] at h; cases h

/-- `dom_string_intern`. -/
theorem Inv.strIntern (hI : Inv s held loose) (ho : s.strs a = some o) : ∃ s' l x, strIntern s a = .ok (s', l) ∧
    Inv s' held (upd loose l (loose l + 1)) ∧ Step s s' ∧ (∀ c, text s' c = text s c) ∧ s'.lwcs l = some x ∧ text s a = some x.bytes ∧
    (∃ o', s'.strs a = some o' ∧ o'.body = .interned l) := by
  unfold Intern.strIntern
  rw [rdStr_run ho, Out.bind_ok]
  unfold internBody
  cases hb : o.body with
  | interned l =>
    obtain ⟨x, hx⟩ := hI.intern a o l ho hb
    obtain ⟨s1, e1, I1, S1, E1, _, T1, B1⟩ := hI.lwcRef hx
    simp only [Out.bind_ok, e1]
    have := B1 l
    rw [hx] at this
    cases hy : s1.lwcs l with
    | none => rw [hy] at this; cases this
    | some y =>
      rw [hy] at this
      refine ⟨s1, l, y, rfl, I1, S1, T1, hy, ?_, o, by rw [E1]; exact ho, hb⟩
      rw [Option.some.inj this]
      unfold text
      rw [ho]
      simp only [hb, hx, Option.map_some]
  | cdata p n =>
    obtain ⟨t, ht, hn⟩ := hI.cdata a o p n ho hb
    have hta : text s a = some t := by
      unfold text
      rw [ho]
      simp only [hb, ht, Option.map_some, List.take_left' hn]
    simp only [rdBuf_run ht (n := n) (by simp [← hn]), Out.bind_ok, List.take_left' hn]
    obtain ⟨s1, l, x, e1, hx, hxb, I1, S1, E1, F1, T1, B1⟩ := hI.lwcIntern t
    rw [e1]
    simp only [Out.bind_ok]
    rw [freeBuf_run (b := t ++ [0]) (by rw [F1]; exact ht)]
    simp only [Out.bind_ok]
    obtain ⟨I2, S2, T2⟩ := I1.switch (a := a) (o := o) (by rw [E1]; exact ho) hb hx (by rw [T1, hta, hxb]) (k := loose l) upd_same
    rw [upd_upd, upd_self rfl] at I2
    obtain ⟨s3, e3, I3, S3, E3, _, T3, B3⟩ := I2.lwcRef (l := l) hx
    have e3' : Intern.lwcRef { strs := upd s1.strs a (some { refcnt := o.refcnt, body := Body.interned l }), bufs := upd s1.bufs p none, lwcs := s1.lwcs, fresh := s1.fresh } l = .ok s3 := e3
    simp only [e3', Out.bind_ok]
    have := B3 l
    rw [show ({ s1 with bufs := upd s1.bufs p none, strs := upd s1.strs a (some { o with body := .interned l }) } : Mem).lwcs l = some x from hx] at this
    cases hy : s3.lwcs l with
    | none => rw [hy] at this; cases this
    | some y =>
      rw [hy] at this
      refine ⟨s3, l, y, rfl, I3, (S1.trans hI S2).trans hI S3, fun c => by rw [T3, T2, T1], hy, ?_, { o with body := .interned l }, ?_, rfl⟩
      · rw [hta, ← hxb]; exact congrArg some (Option.some.inj this).symm
      · rw [E3]; exact upd_same

/-- What a function that makes a string does: one more reference on the result, the other strings as before. -/
def Makes (s : Mem) (held loose : Addr → Nat) (t : Bytes) (r : Out (Mem × Addr)) : Prop :=
  ∃ s' c, r = .ok (s', c) ∧ Inv s' (upd held c (held c + 1)) loose ∧ Step s s' ∧ text s' c = some t

theorem makes_create (hI : Inv s held loose) (t : Bytes) : Makes s held loose t (strCreate s t) := by
  obtain ⟨s', e, I, S, T, h0, _⟩ := hI.strCreate t
  exact ⟨s', _, e, by rw [h0]; exact I, S, T⟩

theorem makes_interned (hI : Inv s held loose) (t : Bytes) : Makes s held loose t (strCreateInterned s t) := by
  obtain ⟨s', c, e, I, S, T, h0, _⟩ := hI.strCreateInterned t
  exact ⟨s', _, e, by rw [h0]; exact I, S, T⟩

theorem makes_like (hI : Inv s held loose) (o : SObj) (t : Bytes) : Makes s held loose t (createLike s o t) := by
  unfold createLike
  split
  · exact makes_create hI t
  · exact makes_interned hI t

theorem bytes_of (hI : Inv s held loose) {t : Bytes} (h : text s a = some t) : ∃ o, s.strs a = some o ∧ rdStr s a = .ok o ∧ strBytes s a = .ok t := by
  obtain ⟨o, ho⟩ := text_live h
  obtain ⟨b, h1, h2⟩ := hI.bytes ho
  rw [h] at h1; cases h1
  exact ⟨o, ho, rdStr_run ho, h2⟩

theorem makes_concat (hI : Inv s held loose) {t u : Bytes} (ha : text s a = some t) (hb : text s b = some u) :
    Makes s held loose (t ++ u) (strConcat s a b) := by
  obtain ⟨_, _, _, h1⟩ := bytes_of hI ha
  obtain ⟨_, _, _, h2⟩ := bytes_of hI hb
  unfold strConcat
  rw [h1, Out.bind_ok, h2, Out.bind_ok]
  exact makes_create hI _

theorem makes_upper (hI : Inv s held loose) {t : Bytes} (ha : text s a = some t) : Makes s held loose (t.map Str.doupper) (strUpper s a) := by
  obtain ⟨o, _, h0, h1⟩ := bytes_of hI ha
  unfold strUpper
  rw [h0, Out.bind_ok, h1, Out.bind_ok]
  exact makes_like hI o _

theorem makes_whitespace (hI : Inv s held loose) {t : Bytes} (ha : text s a = some t) (hne : t ≠ []) (op : WsOp) :
    Makes s held loose (Str.whitespaceOp { data := t, interned := false } op).data (strWhitespace s a op) := by
  obtain ⟨o, _, h0, h1⟩ := bytes_of hI ha
  unfold strWhitespace emptyRef
  rw [h0, Out.bind_ok, h1, Out.bind_ok, if_neg (fun h => hne (List.length_eq_zero_iff.1 h)), Out.bind_ok]
  exact makes_like hI o _

theorem makes_lower (hI : Inv s held loose) {t : Bytes} (ha : text s a = some t) (hk : held a + 1 < 4294967296) :
    Makes s held loose (t.map Str.dolower) (strLower s a) := by
  obtain ⟨o, ho, h0, h1⟩ := bytes_of hI ha
  unfold strLower
  rw [h0, Out.bind_ok]
  cases hb : o.body with
  | cdata p n =>
    simp only [h1, Out.bind_ok]
    exact makes_create hI _
  | interned l =>
    obtain ⟨x, hx⟩ := hI.intern a o l ho hb
    have hxt : x.bytes = t := by
      unfold text at ha
      rw [ho] at ha
      simp only [hb, hx, Option.map_some] at ha
      exact Option.some.inj ha
    obtain ⟨s1, m, y, e1, hy, hyb, I1, S1, E1, F1, T1, B1⟩ := hI.lwcIntern (x.bytes.map Str.dolower)
    have e1' : lwcLower s l = .ok (s1, m) := by
      unfold lwcLower
      rw [rdLwc_run hx, Out.bind_ok, e1]
    simp only [e1', Out.bind_ok]
    have hfin : ∀ s2 c, Makes s1 held (upd loose m (loose m + 1)) (t.map Str.dolower) (.ok (s2, c)) →
        Makes s held loose (t.map Str.dolower) (do let s3 ← lwcUnref s2 m; Out.ok (s3, c)) := by
      rintro s2 c ⟨s2', c', e, I2, S2, T2⟩
      cases e
      obtain ⟨s3, e3, I3, S3, E3, _, T3⟩ := I2.lwcUnref (l := m) (k := loose m) upd_same
      rw [upd_upd, upd_self rfl] at I3
      rw [e3, Out.bind_ok]
      exact ⟨s3, c, rfl, I3, S1.trans hI (S2.trans I1 S3), by rw [T3, T2]⟩
    by_cases hlm : l = m
    · obtain ⟨s2, e2, I2, S2, T2, _⟩ := I1.strRef (a := a) (o := o) (by rw [E1]; exact ho) hk
      have hr : lowerResult s1 a l m = .ok (s2, a) := by
        unfold lowerResult
        rw [if_pos hlm, e2, Out.bind_ok]
      simp only [hr, Out.bind_ok]
      refine hfin s2 a ⟨s2, a, rfl, I2, S2, ?_⟩
      have hl1 : x.bytes = y.bytes := by
        obtain ⟨x', hx', e⟩ := B1 l x hx
        rw [hlm, hy] at hx'
        cases hx'
        exact e.symm
      rw [T2, T1, ha]
      rw [← hxt, ← hyb]
      exact congrArg some hl1
    · obtain ⟨s2, c, e2, I2, S2, T2⟩ := makes_interned I1 y.bytes
      have hr : lowerResult s1 a l m = .ok (s2, c) := by
        unfold lowerResult
        rw [if_neg hlm, rdLwc_run hy, Out.bind_ok, e2]
      simp only [hr, Out.bind_ok]
      refine hfin s2 c ⟨s2, c, rfl, I2, S2, ?_⟩
      rw [T2, hyb, hxt]

end Dom.Intern
