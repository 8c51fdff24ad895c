import Verif.Oom.Keys
import Verif.Oom.PropsLists
set_option linter.unusedSimpArgs false
set_option linter.unusedVariables false
/-!
# C105: user data when memory may run out
-/
namespace Dom.Oom.Keys

open Dom.Oom
open Dom.Oom.Chars (Str)
open Dom.Oom.Lists (equal letters text_letters)

variable {r : Nat → Nat} {m : Mem}

/-! ## Specification -/

/-- A call of `setUserData`. -/
structure Call where
  key : Option Str
  data : Option Nat
  handler : Option Nat

/-- **Specification.**  The last of these calls, the newest first, about the key with these characters. -/
def lastCall (log : List Call) (k : List Nat) : Option Call := log.find? fun c => letters c.key == k

/-- **Specification.**  The value of a key after these calls: that of the last call about it, or nothing. -/
def value (log : List Call) (k : List Nat) : Option Nat := (lastCall log k).bind (·.data)

/-- **Specification.**  What an entry holds. -/
def held (e : Entry) : List Nat := e.block :: (e.key.map (·.addr)).toList

/-- A history: the calls that were accepted, the newest first, and the entries. -/
def run : List Call → List Call → List Entry → M (List Call × List Entry)
  | [], log, es => pure (log, es)
  | c :: cs, log, es => do
    let x ← setData c.key c.data c.handler es
    match x with
    | (.ok _, es) => run cs (c :: log) es
    | (.error _, es) => run cs log es

/-- **Specification.**  The keys that are passed are alive. -/
def Alive (r : Nat → Nat) (cs : List Call) : Prop := ∀ c ∈ cs, ∀ s, c.key = some s → 0 < r s.addr

/-- **Specification.**  The entries are those of the accepted calls: compared with the counts `r`, exactly the entries and their keys are held; no two entries have the same key; every value is that of the last
accepted call; and an entry that is there has the handler of the last accepted call about its key. -/
structure Good (r : Nat → Nat) (log : List Call) (es : List Entry) (m : Mem) : Prop where
  holds : Holds r (es.flatMap held) m
  apart : (es.map fun e => letters e.key).Nodup
  values : ∀ k : Option Str, getData k es = value log (letters k)
  handlers : ∀ e ∈ es, ∃ c, lastCall log (letters e.key) = some c ∧ c.data = e.data ∧ c.handler = e.handler

/-! ## Parts -/

theorem equal_iff {a b : Option Str} : equal a b = true ↔ letters a = letters b := by
  simp [equal, text_letters]

theorem seek_some {k : Option Str} {es : List Entry} {e : Entry} (h : seek k es = some e) : e ∈ es ∧ letters e.key = letters k :=
  ⟨List.mem_of_find?_eq_some h, equal_iff.1 (List.find?_some (p := fun e : Entry => equal e.key k) h)⟩

theorem seek_none {k : Option Str} {es : List Entry} : seek k es = none ↔ ∀ e ∈ es, letters e.key ≠ letters k := by
  unfold seek
  rw [List.find?_eq_none]
  constructor
  · intro h e he h'; exact h e he (equal_iff.2 h')
  · intro h e he h'; exact h e he (equal_iff.1 h')

theorem seek_cons {k : Option Str} {e : Entry} {es : List Entry} : seek k (e :: es) = if equal e.key k then some e else seek k es := by
  unfold seek
  rw [List.find?_cons]
  cases equal e.key k <;> rfl

theorem unlink_perm {k : Option Str} : ∀ {es : List Entry} {e : Entry}, seek k es = some e → es.Perm (e :: unlink k es)
  | [], _, h => nomatch h
  | x :: es, e, h => by
    rw [seek_cons] at h
    unfold unlink
    cases hx : equal x.key k with
    | true => rw [hx] at h; cases h; exact .refl _
    | false =>
      rw [hx] at h
      exact ((unlink_perm (by simpa using h)).cons x).trans (.swap _ _ _)

theorem change_keys {k : Option Str} {d h : Option Nat} : ∀ es : List Entry, (change k d h es).flatMap held = es.flatMap held ∧ (change k d h es).map (fun e => letters e.key) = es.map (fun e => letters e.key)
  | [] => ⟨rfl, rfl⟩
  | x :: es => by
    unfold change
    cases equal x.key k with
    | true => exact ⟨rfl, rfl⟩
    | false =>
      obtain ⟨h1, h2⟩ := change_keys (k := k) (d := d) (h := h) es
      exact ⟨by simp [h1], by simpa using h2⟩

theorem mem_change {k : Option Str} {d h : Option Nat} {es : List Entry} (hn : (es.map fun e => letters e.key).Nodup) {x : Entry} :
    x ∈ change k d h es → (letters x.key = letters k ∧ x.data = d ∧ x.handler = h) ∨ (x ∈ es ∧ letters x.key ≠ letters k) := by
  induction es with
  | nil => intro h; cases h
  | cons e es ih =>
    intro hx
    rw [List.map_cons, List.nodup_cons] at hn
    unfold change at hx
    cases he : equal e.key k with
    | true =>
      rw [he] at hx
      have he' := equal_iff.1 he
      rcases List.mem_cons.1 (by simpa using hx) with rfl | hx
      · exact Or.inl ⟨he', rfl, rfl⟩
      · exact Or.inr ⟨by simp [hx], fun h' => hn.1 (by rw [he', ← h']; exact List.mem_map_of_mem (f := fun e => letters e.key) hx)⟩
    | false =>
      rw [he] at hx
      have he' : letters e.key ≠ letters k := fun h' => by rw [equal_iff.2 h'] at he; cases he
      rcases List.mem_cons.1 (by simpa using hx) with rfl | hx
      · exact Or.inr ⟨by simp, he'⟩
      · rcases ih hn.2 hx with h1 | ⟨h1, h2⟩
        · exact Or.inl h1
        · exact Or.inr ⟨by simp [h1], h2⟩

theorem lastCall_same {c : Call} {log : List Call} {k : List Nat} (h : letters c.key = k) : lastCall (c :: log) k = some c := by
  unfold lastCall; rw [List.find?_cons]; simp [h]

theorem lastCall_other {c : Call} {log : List Call} {k : List Nat} (h : letters c.key ≠ k) : lastCall (c :: log) k = lastCall log k := by
  unfold lastCall; rw [List.find?_cons]
  have : (letters c.key == k) = false := by simpa using h
  rw [this]

/-- What entries say about a key, from what they are. -/
theorem values_of {log : List Call} {es : List Entry} (hn : (es.map fun e => letters e.key).Nodup)
    (hh : ∀ e ∈ es, ∃ c, lastCall log (letters e.key) = some c ∧ c.data = e.data ∧ c.handler = e.handler)
    (ha : ∀ k : Option Str, (∀ e ∈ es, letters e.key ≠ letters k) → value log (letters k) = none) (k : Option Str) : getData k es = value log (letters k) := by
  unfold getData
  cases h : seek k es with
  | none => exact (ha k (seek_none.1 h)).symm
  | some e =>
    obtain ⟨h1, h2⟩ := seek_some h
    obtain ⟨c, h3, h4, _⟩ := hh e h1
    unfold value
    rw [← h2, h3]
    exact h4.symm

theorem absent {log : List Call} {es : List Entry} (hv : ∀ k : Option Str, getData k es = value log (letters k)) (k : Option Str) (h : ∀ e ∈ es, letters e.key ≠ letters k) : value log (letters k) = none := by
  rw [← hv k]
  unfold getData
  rw [seek_none.2 h]

theorem set_good {log : List Call} {es : List Entry} (c : Call) (hc : ∀ s, c.key = some s → 0 < r s.addr) (h : Good r log es m) :
    after (setData c.key c.data c.handler es) m (fun o m' => m'.room = m.room ∧
      ((o = (.error .noMem, es) ∧ (∀ e ∈ es, letters e.key ≠ letters c.key) ∧ ¬ Granted m.room m.time 1 ∧ m'.refs = m.refs ∧ Good r log es m') ∨
       (∃ es', o = (.ok (value log (letters c.key)), es') ∧ ((∃ e ∈ es, letters e.key = letters c.key) ∨ Granted m.room m.time 1) ∧ Good r (c :: log) es' m'))) := by
  have hv := h.values c.key
  unfold getData at hv
  unfold setData
  cases hs : seek c.key es with
  | some e =>
    rw [hs] at hv
    dsimp only at hv ⊢
    obtain ⟨he, hk⟩ := seek_some hs
    rw [after_ite]
    split
    · rename_i hd
      have hp := unlink_perm hs
      have hh : Holds r ((e.key.map (·.addr)).toList ++ (e.block :: (unlink c.key es).flatMap held)) m := by
        refine h.holds.perm ?_
        have := hp.flatMap_right held
        rw [List.flatMap_cons] at this
        refine this.trans ?_
        show (e.block :: ((e.key.map (·.addr)).toList ++ _)).Perm _
        exact List.perm_middle.symm
      rw [after_bind]
      refine after_mono (frees_opt _ r _ m hh) ?_
      rintro _ m1 ⟨h1, hr1, _⟩
      rw [after_bind]
      refine after_mono (unref_spec h1) ?_
      rintro _ m2 ⟨h2, hr2, _⟩
      refine ⟨hr2.trans hr1, Or.inr ⟨_, by rw [hv], Or.inl ⟨e, he, hk⟩, ?_⟩⟩
      have hnd : (letters e.key :: (unlink c.key es).map fun e => letters e.key).Nodup := by
        have := (hp.map fun e => letters e.key).nodup_iff.1 h.apart
        simpa using this
      have hother : ∀ x ∈ unlink c.key es, letters c.key ≠ letters x.key := fun x hx h' =>
        (List.nodup_cons.1 hnd).1 (by rw [hk, h']; exact List.mem_map_of_mem (f := fun e => letters e.key) hx)
      have hhand : ∀ x ∈ unlink c.key es, ∃ d, lastCall (c :: log) (letters x.key) = some d ∧ d.data = x.data ∧ d.handler = x.handler := by
        intro x hx
        rw [lastCall_other (hother x hx)]
        exact h.handlers x (hp.mem_iff.2 (by simp [hx]))
      refine ⟨h2, (List.nodup_cons.1 hnd).2, values_of (List.nodup_cons.1 hnd).2 hhand ?_, hhand⟩
      intro k hno
      unfold value
      by_cases e1 : letters c.key = letters k
      · rw [lastCall_same e1]; exact hd
      · rw [lastCall_other e1]
        refine absent h.values k fun x hx h' => ?_
        rcases List.mem_cons.1 (hp.mem_iff.1 hx) with rfl | hx
        · exact e1 (hk.symm.trans h')
        · exact hno x hx h'
    · rename_i hd
      refine ⟨rfl, Or.inr ⟨_, by rw [hv], Or.inl ⟨e, he, hk⟩, ?_⟩⟩
      obtain ⟨k1, k2⟩ := change_keys (k := c.key) (d := c.data) (h := c.handler) es
      have hhand : ∀ x ∈ change c.key c.data c.handler es, ∃ d, lastCall (c :: log) (letters x.key) = some d ∧ d.data = x.data ∧ d.handler = x.handler := by
        intro x hx
        rcases mem_change h.apart hx with ⟨h1, h2, h3⟩ | ⟨h1, h2⟩
        · exact ⟨c, lastCall_same h1.symm, h2.symm, h3.symm⟩
        · rw [lastCall_other (Ne.symm h2)]
          exact h.handlers x h1
      refine ⟨by rw [k1]; exact h.holds, by rw [k2]; exact h.apart, values_of (by rw [k2]; exact h.apart) hhand ?_, hhand⟩
      intro k hno
      have hno' : ∀ x ∈ es, letters x.key ≠ letters k := fun x hx h' => by
        have : letters k ∈ (change c.key c.data c.handler es).map fun e => letters e.key := by
          rw [k2, ← h']; exact List.mem_map_of_mem (f := fun e => letters e.key) hx
        obtain ⟨y, hy, hy'⟩ := List.mem_map.1 this
        exact hno y hy hy'
      unfold value
      rw [lastCall_other fun e1 => hno' e he (hk.trans e1)]
      exact absent h.values k hno'
  | none =>
    rw [hs] at hv
    dsimp only at hv ⊢
    have hno := seek_none.1 hs
    rw [after_bind]
    refine after_mono (malloc_spec h.holds) ?_
    rintro o m1 ⟨hr1, ht1, ⟨rfl, h1, hg⟩ | ⟨b, rfl, h1, hg⟩⟩
    · refine ⟨hr1, Or.inl ⟨rfl, hno, hg, ?_, ⟨h1, h.apart, h.values, h.handlers⟩⟩⟩
      funext a
      rw [h1.refs, h.holds.refs]
    · dsimp only
      rw [after_bind]
      refine after_mono (refOpt_spec h1 (fun a ha => ?_)) ?_
      · cases hk : c.key with
        | none => rw [hk] at ha; cases ha
        | some s => rw [hk] at ha; cases ha; exact Nat.lt_of_lt_of_le (hc s hk) (Nat.le_add_right _ _)
      · rintro _ m2 ⟨h2, hr2, ht2⟩
        refine ⟨hr2.trans hr1, Or.inr ⟨_, by rw [← hv], Or.inr hg, ?_⟩⟩
        have hnd : ((⟨b, c.key, c.data, c.handler⟩ :: es : List Entry).map fun e => letters e.key).Nodup := by
          rw [List.map_cons, List.nodup_cons]
          refine ⟨fun hx => ?_, h.apart⟩
          obtain ⟨y, hy, hy'⟩ := List.mem_map.1 hx
          exact hno y hy hy'
        have hhand : ∀ x ∈ (⟨b, c.key, c.data, c.handler⟩ :: es : List Entry), ∃ d, lastCall (c :: log) (letters x.key) = some d ∧ d.data = x.data ∧ d.handler = x.handler := by
          intro x hx
          rcases List.mem_cons.1 hx with rfl | hx
          · exact ⟨c, lastCall_same rfl, rfl, rfl⟩
          · rw [lastCall_other (Ne.symm (hno x hx))]
            exact h.handlers x hx
        refine ⟨?_, hnd, values_of hnd hhand ?_, hhand⟩
        · refine h2.perm ?_
          rw [List.flatMap_cons]
          exact List.perm_middle
        · intro k hk
          unfold value
          rw [lastCall_other (hk ⟨b, c.key, c.data, c.handler⟩ (by simp))]
          exact absent h.values k fun x hx => hk x (by simp [hx])

theorem run_good : ∀ (cs log : List Call) (es : List Entry) (m : Mem), Alive r cs → Good r log es m → after (run cs log es) m (fun x m' => Good r x.1 x.2 m')
  | [], log, es, m, _, h => h
  | c :: cs, log, es, m, ha, h => by
    unfold run
    rw [after_bind]
    refine after_mono (set_good c (ha c (by simp)) h) ?_
    rintro o m1 ⟨_, ⟨rfl, _, _, _, h1⟩ | ⟨es', rfl, _, h1⟩⟩
    · exact run_good cs log es m1 (fun d hd => ha d (by simp [hd])) h1
    · exact run_good cs (c :: log) es' m1 (fun d hd => ha d (by simp [hd])) h1

theorem good_start (hm : m.Valid) : Good m.refs [] [] m := ⟨hm.holds, List.nodup_nil, fun _ => rfl, fun e he => (nomatch he)⟩

theorem release_spec : ∀ (es : List Entry) (l : List Nat) (m : Mem), Holds r (es.flatMap held ++ l) m →
    after (release es) m (fun calls m' => Holds r l m' ∧ calls = es.filterMap fun e => e.handler.map fun h => (h, e.key, e.data))
  | [], l, m, h => ⟨h, rfl⟩
  | e :: es, l, m, h => by
    unfold release
    rw [after_bind]
    have hh : Holds r ((e.key.map (·.addr)).toList ++ (e.block :: (es.flatMap held ++ l))) m := by
      refine h.perm ?_
      rw [List.flatMap_cons, List.append_assoc]
      show (e.block :: ((e.key.map (·.addr)).toList ++ _)).Perm _
      exact List.perm_middle.symm
    refine after_mono (frees_opt _ r _ m hh) ?_
    rintro _ m1 ⟨h1, _, _⟩
    rw [after_bind]
    refine after_mono (unref_spec h1) ?_
    rintro _ m2 ⟨h2, _, _⟩
    rw [after_bind]
    refine after_mono (release_spec es l m2 h2) ?_
    rintro calls m3 ⟨h3, rfl⟩
    refine ⟨h3, ?_⟩
    cases hh : e.handler <;> simp [hh]

/-! ## C105 -/

/-- **C105, histories.**  Whatever a client sets, in any order, and whatever requests are refused: nothing is used after it was freed, and the entries are those of the accepted calls (`Good`).  In particular
`getUserData` answers the value of the last accepted call about a key. -/
theorem C105_history (cs : List Call) (m : Mem) (hm : m.Valid) (ha : Alive m.refs cs) : ∃ log es m', run cs [] [] m = .ok (log, es) m' ∧ Good m.refs log es m' := by
  obtain ⟨⟨log, es⟩, m', e, h⟩ := after_elim (run_good cs [] [] m ha (good_start hm))
  exact ⟨log, es, m', e, h⟩

/-- **C105, answers.**  After any history, `setUserData` answers the value of the last accepted call about the key and is accepted; or it answers NO_MEM_ERR, exactly if there is no entry for the key and the one
request is refused, and then nothing has changed. -/
theorem C105_set (cs : List Call) (m : Mem) (hm : m.Valid) (ha : Alive m.refs cs) (c : Call) (hc : ∀ s, c.key = some s → 0 < m.refs s.addr) :
    ∃ log es m' o es' m'', run cs [] [] m = .ok (log, es) m' ∧ setData c.key c.data c.handler es m' = .ok (o, es') m'' ∧
      ((o = .ok (value log (letters c.key)) ∧ Good m.refs (c :: log) es' m'') ∨ (o = .error .noMem ∧ es' = es ∧ m''.refs = m'.refs ∧ Good m.refs log es m'')) ∧
      (o = .error .noMem ↔ (∀ e ∈ es, letters e.key ≠ letters c.key) ∧ ¬ Granted m'.room m'.time 1) := by
  obtain ⟨log, es, m', e, h⟩ := C105_history cs m hm ha
  obtain ⟨x, m'', e2, _, hx⟩ := after_elim (set_good c hc h)
  rcases hx with ⟨rfl, h1, h2, h3, h4⟩ | ⟨es', rfl, h1, h2⟩
  · exact ⟨log, es, m', _, _, m'', e, e2, Or.inr ⟨rfl, rfl, h3, h4⟩, ⟨fun _ => ⟨h1, h2⟩, fun _ => rfl⟩⟩
  · refine ⟨log, es, m', _, _, m'', e, e2, Or.inl ⟨rfl, h2⟩, ⟨fun h => (nomatch h), fun h => ?_⟩⟩
    rcases h1 with ⟨y, hy, hy'⟩ | hg
    · exact absurd hy' (h.1 y hy)
    · exact absurd hg h.2

/-- **C105, release.**  When the node is destroyed after any history, every count is what it was before the history; the handlers of the entries are called, once for each entry, with the key and the value of the
last accepted call about it, and no other handler is called. -/
theorem C105_release (cs : List Call) (m : Mem) (hm : m.Valid) (ha : Alive m.refs cs) :
    ∃ log es m' calls m'', run cs [] [] m = .ok (log, es) m' ∧ release es m' = .ok calls m'' ∧ m''.refs = m.refs ∧ (calls.map fun x => letters x.2.1).Nodup ∧
      (∀ x ∈ calls, ∃ c, lastCall log (letters x.2.1) = some c ∧ c.handler = some x.1 ∧ c.data = x.2.2) ∧
      (∀ c k, lastCall log k = some c → c.data ≠ none → ∀ f, c.handler = some f → ∃ x ∈ calls, letters x.2.1 = k ∧ x.1 = f) := by
  obtain ⟨log, es, m', e, h⟩ := C105_history cs m hm ha
  obtain ⟨calls, m'', e2, h2, rfl⟩ := after_elim (release_spec (r := m.refs) es [] m' (by rw [List.append_nil]; exact h.holds))
  refine ⟨log, es, m', _, m'', e, e2, h2.refs_eq, ?_, ?_, ?_⟩
  · refine List.Nodup.sublist ?_ h.apart
    clear e h e2
    induction es with
    | nil => exact .slnil
    | cons x es ih =>
      cases hh : x.handler with
      | none => simpa [hh] using ih.cons (letters x.key)
      | some f => simpa [hh] using ih.cons_cons (letters x.key)
  · intro x hx
    obtain ⟨y, hy, hy'⟩ := List.mem_filterMap.1 hx
    cases hh : y.handler with
    | none => rw [hh] at hy'; cases hy'
    | some f =>
      rw [hh] at hy'
      cases hy'
      obtain ⟨c, h1, h3, h4⟩ := h.handlers y hy
      exact ⟨c, h1, h4.trans hh, h3⟩
  · intro c k hk hd f hf
    have hkey : letters c.key = k := by
      have := List.find?_some (p := fun c : Call => letters c.key == k) hk
      simpa using this
    have hv := h.values c.key
    unfold value at hv
    rw [hkey, hk] at hv
    unfold getData at hv
    cases hs : seek c.key es with
    | none => rw [hs] at hv; exact absurd hv.symm hd
    | some y =>
      obtain ⟨h1, h3⟩ := seek_some hs
      obtain ⟨d, h4, h5, h6⟩ := h.handlers y h1
      rw [h3, hkey, hk] at h4
      cases h4
      exact ⟨(f, y.key, y.data), List.mem_filterMap.2 ⟨y, h1, by rw [← h6, hf]; rfl⟩, by rw [← hkey]; exact h3, rfl⟩

/-- **C105, disagreement.**  Setting a key to NULL removes it, so it should need no memory and leave none in use.  For a key without entry it needs a request: if this is refused the answer is NO_MEM_ERR, and if it is
granted there is an entry more, with the value NULL, whose handler is called when the node is destroyed. -/
theorem C105_null_violated (key : Option Str) (handler : Option Nat) (es : List Entry) (hno : ∀ e ∈ es, letters e.key ≠ letters key) (m : Mem) (hm : m.Valid) (hc : ∀ s, key = some s → 0 < m.refs s.addr) :
    ∃ o es' m', setData key none handler es m = .ok (o, es') m' ∧ (¬ Granted m.room m.time 1 → o = .error .noMem) ∧
      (Granted m.room m.time 1 → ∃ b, es' = { block := b, key := key, data := none, handler := handler } :: es ∧ Holds m.refs (b :: (key.map (·.addr)).toList) m') := by
  have hs := seek_none.2 hno
  have : after (setData key none handler es) m (fun x m' => (¬ Granted m.room m.time 1 → x.1 = .error .noMem) ∧
      (Granted m.room m.time 1 → ∃ b, x.2 = { block := b, key := key, data := none, handler := handler } :: es ∧ Holds m.refs (b :: (key.map (·.addr)).toList) m')) := by
    unfold setData
    rw [hs]
    dsimp only
    rw [after_bind]
    refine after_mono (malloc_spec hm.holds) ?_
    rintro o m1 ⟨hr1, ht1, ⟨rfl, h1, hg⟩ | ⟨b, rfl, h1, hg⟩⟩
    · exact ⟨fun _ => rfl, fun h => absurd h hg⟩
    · dsimp only
      rw [after_bind]
      refine after_mono (refOpt_spec h1 (fun a ha => ?_)) ?_
      · cases hk : key with
        | none => rw [hk] at ha; cases ha
        | some s => rw [hk] at ha; cases ha; exact Nat.lt_of_lt_of_le (hc s hk) (Nat.le_add_right _ _)
      · rintro _ m2 ⟨h2, hr2, ht2⟩
        refine ⟨fun h => absurd hg h, fun _ => ⟨b, rfl, h2.perm ?_⟩⟩
        cases key with
        | none => exact .refl _
        | some s => exact .swap _ _ _
  obtain ⟨x, m', e, h⟩ := after_elim this
  exact ⟨x.1, x.2, m', e, h⟩

/-! ## Cases -/

/-- The keys `a`, `b` and another `a` at 0, 1 and 2; request `k` is refused. -/
def small (k : Nat) : Mem := { room := fun i => i != k, time := 0, next := 3, refs := fun a => if a < 3 then 1 else 0 }

def keyA : Str := { addr := 0, data := [97] }
def keyB : Str := { addr := 1, data := [98] }
def keyA2 : Str := { addr := 2, data := [97] }

/-- The values of `a` and `b`, the counts of the first five addresses, and the calls at the end. -/
def told (cs : List Call) (k : Nat) : Option (List (Option Nat) × List Nat × List (Nat × Option Nat)) :=
  match run cs [] [] (small k) with
  | .ok (_, es) m => match release es m with
    | .ok calls _ => some ([getData (some keyA) es, getData (some keyB) es], (List.range 5).map m.refs, calls.map fun x => (x.1, x.2.2))
    | .fault _ => none
  | .fault _ => none

/-- Equal keys share an entry; a refused call leaves nothing; NULL removes an entry; NULL for a key without entry makes one. -/
theorem C105_cases :
    (small 1).Valid ∧ Alive (small 1).refs [⟨some keyA, some 7, some 50⟩] ∧
    told [⟨some keyA, some 7, some 50⟩, ⟨some keyB, some 8, none⟩, ⟨some keyA2, some 9, some 51⟩] 9 = some ([some 9, some 8], [2, 2, 1, 1, 1], [(51, some 9)]) ∧
    told [⟨some keyA, some 7, some 50⟩, ⟨some keyB, some 8, none⟩] 1 = some ([some 7, none], [2, 1, 1, 1, 0], [(50, some 7)]) ∧
    told [⟨some keyA, some 7, some 50⟩, ⟨some keyA2, none, some 51⟩] 9 = some ([none, none], [1, 1, 1, 0, 0], []) ∧
    told [⟨some keyB, none, some 52⟩] 9 = some ([none, none], [1, 2, 1, 1, 0], [(52, none)]) := by
  refine ⟨fun a ha => ?_, ?_, by decide +kernel, by decide +kernel, by decide +kernel, by decide +kernel⟩
  · have : ¬ a < 3 := Nat.not_lt.2 ha
    simp [small, this]
  · intro c hc s hs
    simp at hc
    subst hc
    cases hs
    decide

end Dom.Oom.Keys
