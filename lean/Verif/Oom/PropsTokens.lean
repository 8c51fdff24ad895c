import Verif.Oom.Tokens
import Verif.Oom.PropsParser

/-!
# C90: token lists when memory runs out
-/
namespace Dom.Oom.Tok
set_option linter.unusedSimpArgs false

open Dom.Oom

variable {r : Nat → Nat} {l : List Nat} {m : Mem}

/-! ## Specification -/

/-- **Specification.**  Only the first occurrences. -/
def firsts : List Nat → List Nat
  | [] => []
  | x :: xs => x :: (firsts xs).filter (· ≠ x)

/-- **Specification.**  The words of a value; an attribute that is not there has none. -/
def wordsOf : Option Str → List Nat
  | none => []
  | some s => s.words

/-- **Specification.**  The tokens of a value, in the order of their first occurrence. -/
def tokens (v : Option Str) : List Nat := firsts (wordsOf v)

/-- **Specification.**  The reference to a string that may be missing. -/
def addrOf (o : Option Str) : List Nat := (o.map (·.addr)).toList

/-- **Specification.**  The references to the strings of the client. -/
def refsOf (ss : List Str) : List Nat := ss.map (·.addr)

/-- What a list holds besides the value of the attribute. -/
def base (w : TL) : List Nat :=
  [w.block, w.listener, w.listener, w.reg, w.typ, w.name, w.ele] ++ (w.array.toList ++
    (w.entries.map (·.addr) ++ addrOf w.last))

/-- What a list and its attribute hold. -/
def held (w : TL) : List Nat := base w ++ addrOf w.value

/-- The array is there if it has room, and there is room for the entries. -/
structure Fit (w : TL) : Prop where
  len : w.entries.length ≤ w.alloc
  arr : w.array.isSome = true ↔ 0 < w.alloc

/-- The list, unless it is to be read again, is that of the attribute. -/
def Agree (w : TL) : Prop := w.dirty = false → w.entries.map (·.word) = tokens w.value

theorem mem_firsts {l : List Nat} {x : Nat} : x ∈ firsts l ↔ x ∈ l := by
  induction l with
  | nil => exact Iff.rfl
  | cons a l ih =>
    unfold firsts
    rw [List.mem_cons, List.mem_cons, List.mem_filter, ih]
    by_cases h : x = a
    · simp [h]
    · simp [h]

theorem firsts_nodup (l : List Nat) : (firsts l).Nodup := by
  induction l with
  | nil => exact List.nodup_nil
  | cons a l ih =>
    unfold firsts
    exact List.nodup_cons.mpr ⟨by simp, ih.filter _⟩

theorem firsts_id {l : List Nat} (h : l.Nodup) : firsts l = l := by
  induction l with
  | nil => rfl
  | cons a l ih =>
    unfold firsts
    rw [ih (List.nodup_cons.mp h).2, List.filter_eq_self.mpr]
    intro x hx
    have : x ≠ a := fun e => (List.nodup_cons.mp h).1 (e ▸ hx)
    simpa using this

/-- What the second loop makes of the words. -/
def grow : List Nat → List Nat → List Nat
  | acc, [] => acc
  | acc, x :: xs => if x ∈ acc then grow acc xs else grow (acc ++ [x]) xs

theorem grow_firsts : ∀ (xs acc : List Nat), grow acc xs = acc ++ (firsts xs).filter (· ∉ acc)
  | [], acc => by simp [grow, firsts]
  | x :: xs, acc => by
    unfold grow firsts
    split
    · rename_i h
      rw [grow_firsts xs acc, List.filter_cons_of_neg (by simpa using h), List.filter_filter]
      congr 1
      refine List.filter_congr fun y _ => ?_
      by_cases hy : y = x
      · subst hy; simp [h]
      · simp [hy]
    · rename_i h
      rw [grow_firsts xs _, List.filter_cons_of_pos (by simpa using h), List.filter_filter, List.append_assoc]
      congr 1
      show x :: _ = x :: _
      congr 1
      refine List.filter_congr fun y _ => ?_
      by_cases hy : y = x
      · subst hy; simp
      · simp [hy]

theorem grow_nil (xs : List Nat) : grow [] xs = firsts xs := by
  rw [grow_firsts, List.nil_append, List.filter_eq_self]
  intro x _; simp

theorem any_word {es : List Entry} {x : Nat} : (es.any (·.word == x)) = decide (x ∈ es.map (·.word)) := by
  induction es with
  | nil => rfl
  | cons e es ih =>
    rw [List.any_cons, ih, List.map_cons]
    by_cases h : e.word = x
    · simp [h]
    · have : ¬ x = e.word := fun h' => h h'.symm
      simp [h, this]

/-- Two lists of references are the same up to their order. -/
macro "perms" : tactic => `(tactic| (
  rw [List.perm_iff_count]; intro x
  simp only [held, base, addrOf, refsOf, List.count_append, List.count_cons, List.count_nil, Option.map_some,
    Option.toList_some, Option.map_none, Option.toList_none, List.map_append, List.map_cons, List.map_nil,
    List.cons_append, List.nil_append]
  omega))

/-! ## The parts -/

theorem held_heard (w : TL) (v : Str) : held (heard w v) = held w := by
  unfold heard; split <;> rfl

theorem Fit.heard {w : TL} (h : Fit w) (v : Str) : Fit (heard w v) := by
  unfold Tok.heard; split
  · exact h
  · exact ⟨h.len, h.arr⟩

theorem replaceValue_spec {w : TL} {v : Str} (h : Holds r (held w ++ l) m)
    (hv : 0 < r v.addr + (held w ++ l).count v.addr) :
    after (replaceValue w v) m (fun w' m' => w' = { w with value := some v } ∧ Holds r (held w' ++ l) m' ∧
      m'.room = m.room ∧ m'.time = m.time) := by
  unfold replaceValue
  rw [after_bind]
  refine after_mono (ref_live h hv) ?_
  rintro _ m1 ⟨h1, hr1, ht1⟩
  rw [after_bind]
  refine after_mono (frees_opt (w.value.map (·.addr)) r ([v.addr] ++ (base w ++ l)) m1 (h1.perm ?_)) ?_
  · perms
  rintro _ m2 ⟨h2, hr2, ht2⟩
  exact ⟨rfl, h2.perm (by perms), hr2.trans hr1, ht2.trans ht1⟩

/-- What `setAttribute` may do to a list. -/
def Setted (w : TL) (v : Str) (p : Ret) : Prop :=
  p = (some .noMem, w) ∨ p = (some .noMem, heard w v) ∨
    ((p.1 = none ∨ p.1 = some .noMem) ∧ p.2 = { heard w v with value := some v })

theorem setAttribute_spec {w : TL} {v : Str} (h : Holds r (held w ++ l) m)
    (hv : 0 < r v.addr + (held w ++ l).count v.addr) :
    after (setAttribute w v) m (fun p m' => Holds r (held p.2 ++ l) m' ∧ m'.room = m.room ∧ Setted w v p) := by
  unfold setAttribute
  rw [after_bind]
  refine after_mono (ask_spec h) ?_
  rintro one m1 ⟨h1, hr1, -, -⟩
  rw [after_ite]
  split
  · rw [after_bind]
    refine after_mono (ask_spec h1) ?_
    rintro two m2 ⟨h2, hr2, -, -⟩
    rw [after_ite]
    split
    · rw [after_bind]
      refine after_mono (replaceValue_spec (w := heard w v) (by rw [held_heard]; exact h2)
        (by rw [held_heard]; exact hv)) ?_
      rintro _ m3 ⟨rfl, h3, hr3, -⟩
      rw [after_bind]
      refine after_mono (ask_spec h3) ?_
      rintro three m4 ⟨h4, hr4, -, -⟩
      rw [after_pure]
      have hr : m4.room = m.room := hr4.trans (hr3.trans (hr2.trans hr1))
      cases three
      · exact ⟨h4, hr, Or.inr (Or.inr ⟨Or.inr rfl, rfl⟩)⟩
      · exact ⟨h4, hr, Or.inr (Or.inr ⟨Or.inl rfl, rfl⟩)⟩
    · exact ⟨by show Holds r (held (heard w v) ++ l) m2; rw [held_heard]; exact h2, hr2.trans hr1,
        Or.inr (Or.inl rfl)⟩
  · exact ⟨h1, hr1, Or.inl rfl⟩

theorem resize_spec {w : TL} {n : Nat} (h : Holds r (held w ++ l) m) (hf : Fit w) (hn : w.alloc < n) :
    after (resize w n) m (fun p m' => Holds r (held p.2 ++ l) m' ∧ Fit p.2 ∧ m'.room = m.room ∧
      ((p.1 = false ∧ p.2 = w) ∨ (p.1 = true ∧ ∃ a, p.2 = { w with array := a, alloc := n }))) := by
  unfold resize
  rw [after_bind]
  refine after_mono (ask_spec h) ?_
  rintro ok m1 ⟨h1, hr1, -, -⟩
  rw [after_ite]
  have hl := hf.len
  split
  · cases ha : w.array with
    | some a =>
      refine ⟨h1.perm ?_, ⟨by show w.entries.length ≤ n; omega, by show true = true ↔ 0 < n; simp; omega⟩,
        hr1, Or.inr ⟨rfl, some a, rfl⟩⟩
      rw [List.perm_iff_count]; intro x
      simp only [held, base, addrOf, ha]
    | none =>
      dsimp only
      rw [after_bind]
      refine after_mono (fresh_spec h1) ?_
      rintro a m2 ⟨h2, hr2, -⟩
      refine ⟨h2.perm ?_, ⟨by show w.entries.length ≤ n; omega, by show true = true ↔ 0 < n; simp; omega⟩,
        hr2.trans hr1, Or.inr ⟨rfl, some a, rfl⟩⟩
      rw [List.perm_iff_count]; intro x
      simp only [held, base, addrOf, ha, List.count_append, List.count_cons, List.count_nil,
        Option.toList_some, Option.toList_none, List.cons_append, List.nil_append]
      omega
  · exact ⟨h1, hf, hr1, Or.inl ⟨rfl, rfl⟩⟩

theorem intern_spec : ∀ (xs : List Nat) (w : TL) {r : Nat → Nat} {l : List Nat} {m : Mem},
    Holds r (held w ++ l) m → w.entries.length + xs.length ≤ w.alloc →
    after (intern xs w) m (fun p m' => Holds r (held p.2 ++ l) m' ∧ m'.room = m.room ∧
      ∃ es : List Entry, p.2 = { w with entries := es } ∧ es.length ≤ w.alloc ∧
        (p.1 = some .noMem ∨ (p.1 = none ∧ es.map (·.word) = grow (w.entries.map (·.word)) xs)))
  | [], w, r, l, m, h, hl => ⟨h, rfl, w.entries, rfl, by simpa using hl, Or.inr ⟨rfl, rfl⟩⟩
  | x :: xs, w, r, l, m, h, hl => by
    unfold intern
    rw [after_bind]
    refine after_mono (createString_spec h) ?_
    rw [List.length_cons] at hl
    rintro o m1 ⟨hr1, ⟨rfl, h1, -⟩ | ⟨a, rfl, h1, -, -⟩⟩
    · exact ⟨h1, hr1, w.entries, rfl, by omega, Or.inl rfl⟩
    · dsimp only
      rw [after_ite]
      split
      · rename_i hx
        rw [any_word, decide_eq_true_eq] at hx
        rw [after_bind]
        refine after_mono (unref_spec h1) ?_
        rintro _ m2 ⟨h2, hr2, -⟩
        refine after_mono (intern_spec xs w h2 (by omega)) ?_
        rintro p m3 ⟨h3, hr3, es, he, hle, hw⟩
        refine ⟨h3, hr3.trans (hr2.trans hr1), es, he, hle, hw.imp_right fun q => ⟨q.1, q.2.trans ?_⟩⟩
        show _ = if x ∈ _ then _ else _
        rw [if_pos hx]
      · rename_i hx
        rw [any_word, decide_eq_true_eq] at hx
        have hput : put w ⟨a, x⟩ = pure { w with entries := w.entries ++ [⟨a, x⟩] } := by
          unfold put; rw [if_pos (by omega)]
        rw [hput, after_bind, after_pure]
        refine after_mono (intern_spec xs { w with entries := w.entries ++ [⟨a, x⟩] } (l := l) (h1.perm (by perms))
          (by show (w.entries ++ [_]).length + _ ≤ w.alloc; rw [List.length_append]; simp; omega)) ?_
        rintro p m3 ⟨h3, hr3, es, he, hle, hw⟩
        refine ⟨h3, hr3.trans hr1, es, he, hle, hw.imp_right fun q => ⟨q.1, q.2.trans ?_⟩⟩
        show grow ((w.entries ++ [_]).map _) xs = if x ∈ _ then _ else _
        rw [if_neg hx, List.map_append]; rfl

/-- What `reparse` may do to a list. -/
def Parsed (w : TL) (p : Ret) : Prop :=
  p.2.value = w.value ∧ p.2.last = w.last ∧ p.2.empty = w.empty ∧
    ((p.1 = none ∧ p.2.dirty = false ∧ (w.dirty = true → p.2.entries.map (·.word) = tokens w.value) ∧
      (w.dirty = false → p.2 = w)) ∨
     (p.1 = some .noMem ∧ p.2.dirty = true ∧ w.dirty = true))

theorem fill_spec {w : TL} {v : Str} (h : Holds r (v.addr :: (held w ++ l)) m) (hf : Fit w) (he : w.entries = [])
    (hd : w.dirty = true) (hv : w.value = some v) :
    after (fill v w) m (fun p m' => Holds r (held p.2 ++ l) m' ∧ Fit p.2 ∧ m'.room = m.room ∧ Parsed w p) := by
  have h' : Holds r (held w ++ (v.addr :: l)) m := h.perm List.perm_middle.symm
  have hstep : after (if w.alloc < v.words.length then resize w v.words.length else pure (true, w)) m
      (fun p m' => Holds r (held p.2 ++ (v.addr :: l)) m' ∧ Fit p.2 ∧ m'.room = m.room ∧
        ((p.1 = false ∧ p.2 = w) ∨ (p.1 = true ∧ v.words.length ≤ p.2.alloc ∧
          ∃ a n, p.2 = { w with array := a, alloc := n }))) := by
    rw [after_ite]
    split
    · rename_i hlt
      refine after_mono (resize_spec h' hf hlt) ?_
      rintro p m1 ⟨h1, hf1, hr1, hc⟩
      refine ⟨h1, hf1, hr1, hc.imp_right ?_⟩
      rintro ⟨hp, a, ha⟩
      exact ⟨hp, by rw [ha]; exact Nat.le_refl _, a, _, ha⟩
    · rename_i hlt
      exact ⟨h', hf, rfl, Or.inr ⟨rfl, by show _ ≤ w.alloc; omega, w.array, w.alloc, rfl⟩⟩
  unfold fill
  rw [after_bind]
  refine after_mono hstep ?_
  rintro ⟨g, w1⟩ m1 ⟨h1, hf1, hr1, ⟨hg, hw⟩ | ⟨hg, hlen, a, n, hw⟩⟩
  · dsimp only at hg hw
    subst hg; subst hw
    dsimp only
    rw [if_neg (by decide), after_bind]
    refine after_mono (unref_spec (h1.perm List.perm_middle)) ?_
    rintro _ m2 ⟨h2, hr2, -⟩
    exact ⟨h2, hf1, hr2.trans hr1, rfl, rfl, rfl, Or.inr ⟨rfl, hd, hd⟩⟩
  · dsimp only at hg hw hlen
    subst hg; subst hw
    dsimp only at hlen ⊢
    rw [if_pos rfl, after_bind]
    refine after_mono (intern_spec v.words _ h1 (by show w.entries.length + _ ≤ n; rw [he]; simpa using hlen)) ?_
    rintro ⟨e, w2⟩ m2 ⟨h2, hr2, es, hw2, hle, hcase⟩
    dsimp only at hw2 hcase hle
    subst hw2
    have hf2 : Fit { w with array := a, alloc := n, entries := es } := ⟨hle, hf1.arr⟩
    unfold reparsed
    rw [after_bind]
    refine after_mono (unref_spec (h2.perm List.perm_middle)) ?_
    rintro _ m3 ⟨h3, hr3, -⟩
    rcases hcase with rfl | ⟨rfl, hg⟩
    · exact ⟨h3, hf2, hr3.trans (hr2.trans hr1), rfl, rfl, rfl, Or.inr ⟨rfl, hd, hd⟩⟩
    · refine ⟨h3, ⟨hf2.len, hf2.arr⟩, hr3.trans (hr2.trans hr1), rfl, rfl, rfl, Or.inl ⟨rfl, rfl, fun _ => ?_, fun hd' => ?_⟩⟩
      · show es.map _ = _
        rw [hg, he, List.map_nil, grow_nil, hv]; rfl
      · rw [hd] at hd'; exact absurd hd' (by decide)

theorem reparse_spec {w : TL} (h : Holds r (held w ++ l) m) (hf : Fit w) :
    after (reparse w) m (fun p m' => Holds r (held p.2 ++ l) m' ∧ Fit p.2 ∧ m'.room = m.room ∧ Parsed w p) := by
  unfold reparse
  rw [after_ite]
  split
  · rename_i hd
    rw [after_bind]
    refine after_mono (frees_all (w.entries.reverse.map (·.addr)) r (held { w with entries := [] } ++ l) m
      (h.perm ?_)) ?_
    · rw [List.perm_iff_count]; intro x
      simp only [held, base, addrOf, List.count_append, List.map_reverse, List.count_reverse, List.map_nil,
        List.count_nil, List.cons_append, List.nil_append, List.count_cons]
      omega
    rintro _ m1 ⟨h1, hr1, -⟩
    have hf1 : Fit { w with entries := [] } := ⟨Nat.zero_le _, hf.arr⟩
    dsimp only
    cases hv : w.value with
    | none =>
      dsimp only
      refine ⟨?_, ⟨Nat.zero_le _, hf.arr⟩, hr1, hv.symm ▸ rfl, rfl, rfl, Or.inl ⟨rfl, rfl, fun _ => ?_, fun hd' => ?_⟩⟩
      · exact h1.perm (by rw [List.perm_iff_count]; intro x; simp only [held, base, hv])
      · rw [hv]; rfl
      · rw [hd] at hd'; exact absurd hd' (by decide)
    | some v =>
      dsimp only
      rw [after_bind]
      have hm : v.addr ∈ held { w with entries := [] } ++ l := by
        refine List.mem_append_left _ (List.mem_append_right _ ?_)
        show v.addr ∈ addrOf w.value
        rw [hv]; exact List.mem_singleton.mpr rfl
      refine after_mono (ref_live h1 (live_mem hm)) ?_
      rintro _ m2 ⟨h2, hr2, -⟩
      rw [after_ite]
      have e : ({ w with entries := [], value := some v } : TL) = { w with entries := [] } := by rw [← hv]
      split
      · rename_i hw
        rw [after_bind]
        refine after_mono (unref_spec h2) ?_
        rintro _ m3 ⟨h3, hr3, -⟩
        refine ⟨?_, ⟨Nat.zero_le _, hf.arr⟩, hr3.trans (hr2.trans hr1), hv.symm ▸ rfl, rfl, rfl,
          Or.inl ⟨rfl, rfl, fun _ => ?_, fun hd' => ?_⟩⟩
        · exact h3.perm (by rw [List.perm_iff_count]; intro x; simp only [held, base, hv])
        · rw [hv]; show [] = firsts v.words; rw [hw]; rfl
        · rw [hd] at hd'; exact absurd hd' (by decide)
      · rw [← hv]
        refine after_mono (fill_spec h2 hf1 rfl hd hv) ?_
        rintro p m3 ⟨h3, hf3, hr3, q1, q2, q3, q4⟩
        refine ⟨h3, hf3, hr3.trans (hr2.trans hr1), q1, q2, q3, q4.imp ?_ ?_⟩
        · rintro ⟨a, b, c, d⟩
          exact ⟨a, b, c, fun hd' => by rw [hd] at hd'; exact absurd hd' (by decide)⟩
        · rintro ⟨a, b, c⟩; exact ⟨a, b, hd⟩
  · rename_i hd
    have hd' : w.dirty = false := by simpa using hd
    exact ⟨h, hf, rfl, rfl, rfl, rfl, Or.inl ⟨rfl, hd', fun q => absurd q hd, fun _ => rfl⟩⟩

/-- What `reify` may do to a list. -/
def Reified (w : TL) (p : Ret) : Prop :=
  p.2.entries = w.entries ∧ p.2.dirty = w.dirty ∧ p.2.empty = w.empty ∧
    ((p.1 = some .noMem ∧ p.2.value = w.value) ∨
     ((p.1 = none ∨ p.1 = some .noMem) ∧ ∃ s, p.2.value = some s ∧ s.words = w.entries.map (·.word)))

theorem heard_own {w : TL} {v : Str} (h : w.last = some v) : heard w v = w := by
  unfold heard; rw [if_pos (by rw [h]; rfl)]

theorem setted_reified {w : TL} {v : Str} (hv : v.words = w.entries.map (·.word)) {p : Ret}
    (h : Setted { w with last := some v } v p) (hf : Fit w) : Reified w p ∧ Fit p.2 := by
  unfold Setted at h
  rw [heard_own rfl] at h
  rcases h with rfl | rfl | ⟨he, hp⟩
  · exact ⟨⟨rfl, rfl, rfl, Or.inl ⟨rfl, rfl⟩⟩, hf.len, hf.arr⟩
  · exact ⟨⟨rfl, rfl, rfl, Or.inl ⟨rfl, rfl⟩⟩, hf.len, hf.arr⟩
  · unfold Reified; rw [hp]
    exact ⟨⟨rfl, rfl, rfl, Or.inr ⟨he, v, rfl, hv⟩⟩, hf.len, hf.arr⟩

theorem reify_spec {w : TL} (h : Holds r (held w ++ l) m) (hf : Fit w) (he : 0 < r w.empty) :
    after (reify w) m (fun p m' => Holds r (held p.2 ++ l) m' ∧ Fit p.2 ∧ m'.room = m.room ∧ Reified w p) := by
  unfold reify
  have hlast : (w.last.map (·.addr)).toList = addrOf w.last := rfl
  split
  · rename_i hnil
    rw [after_bind]
    refine after_mono (frees_opt (w.last.map (·.addr)) r (held { w with last := none } ++ l) m (h.perm (by perms))) ?_
    rintro _ m1 ⟨h1, hr1, -⟩
    rw [after_bind]
    refine after_mono (ref_live h1 (by omega)) ?_
    rintro _ m2 ⟨h2, hr2, -⟩
    refine after_mono (setAttribute_spec (w := { w with last := some ⟨w.empty, []⟩ }) (l := l) (h2.perm (by perms))
      (by show 0 < r w.empty + _; omega)) ?_
    rintro p m3 ⟨h3, hr3, hs⟩
    have := setted_reified (by rw [hnil]; rfl) hs hf
    exact ⟨h3, this.2, hr3.trans (hr2.trans hr1), this.1⟩
  · rename_i hcons
    rw [after_bind]
    refine after_mono (malloc_spec h) ?_
    rintro o m1 ⟨hr1, -, ⟨rfl, h1, -⟩ | ⟨b, rfl, h1, -⟩⟩
    · exact ⟨h1, hf, hr1, rfl, rfl, rfl, Or.inl ⟨rfl, rfl⟩⟩
    · dsimp only
      rw [after_bind]
      refine after_mono (createString_spec h1) ?_
      rintro o m2 ⟨hr2, ⟨rfl, h2, -⟩ | ⟨s, rfl, h2, -, -⟩⟩
      · rw [after_bind]
        refine after_mono (unref_spec h2) ?_
        rintro _ m3 ⟨h3, hr3, -⟩
        exact ⟨h3, hf, hr3.trans (hr2.trans hr1), rfl, rfl, rfl, Or.inl ⟨rfl, rfl⟩⟩
      · rw [after_bind]
        refine after_mono (unref_spec (h2.perm (List.Perm.swap ..))) ?_
        rintro _ m3 ⟨h3, hr3, -⟩
        dsimp only
        rw [after_bind]
        refine after_mono (frees_opt (w.last.map (·.addr)) r (held { w with last := some ⟨s, w.entries.map (·.word)⟩ } ++ l)
          m3 (h3.perm (by perms))) ?_
        rintro _ m4 ⟨h4, hr4, -⟩
        refine after_mono (setAttribute_spec (w := { w with last := some ⟨s, w.entries.map (·.word)⟩ }) h4
          (live_mem ?_)) ?_
        · refine List.mem_append_left _ (List.mem_append_left _ ?_)
          unfold base
          refine List.mem_append_right _ (List.mem_append_right _ (List.mem_append_right _ ?_))
          exact List.mem_singleton.mpr rfl
        rintro p m5 ⟨h5, hr5, hs⟩
        have := setted_reified rfl hs hf
        exact ⟨h5, this.2, hr5.trans (hr4.trans (hr3.trans (hr2.trans hr1))), this.1⟩

theorem getLength_spec {w : TL} (h : Holds r (held w ++ l) m) (hf : Fit w) :
    after (getLength w) m (fun p m' => Holds r (held p.2.2 ++ l) m' ∧ Fit p.2.2 ∧ m'.room = m.room ∧ Parsed w p.2 ∧
      p.1 = if p.2.1 = none then some p.2.2.entries.length else none) := by
  unfold getLength
  rw [after_bind]
  refine after_mono (reparse_spec h hf) ?_
  rintro ⟨e, w1⟩ m1 ⟨h1, hf1, hr1, hp⟩
  cases e
  · exact ⟨h1, hf1, hr1, hp, rfl⟩
  · exact ⟨h1, hf1, hr1, hp, rfl⟩

theorem contains_spec {w : TL} (x : Nat) (h : Holds r (held w ++ l) m) (hf : Fit w) :
    after (contains w x) m (fun p m' => Holds r (held p.2.2 ++ l) m' ∧ Fit p.2.2 ∧ m'.room = m.room ∧ Parsed w p.2 ∧
      p.1 = if p.2.1 = none then some (decide (x ∈ p.2.2.entries.map (·.word))) else none) := by
  unfold contains
  rw [after_bind]
  refine after_mono (reparse_spec h hf) ?_
  rintro ⟨e, w1⟩ m1 ⟨h1, hf1, hr1, hp⟩
  cases e
  · refine ⟨h1, hf1, hr1, hp, ?_⟩
    show some _ = some _
    rw [any_word]
  · exact ⟨h1, hf1, hr1, hp, rfl⟩

theorem item_spec {w : TL} (i : Nat) (h : Holds r (held w ++ l) m) (hf : Fit w) :
    after (item w i) m (fun p m' => Holds r ((p.1.map (·.addr)).toList ++ (held p.2.2 ++ l)) m' ∧ Fit p.2.2 ∧
      m'.room = m.room ∧ Parsed w p.2 ∧ p.1 = if p.2.1 = none then p.2.2.entries[i]? else none) := by
  unfold item
  rw [after_bind]
  refine after_mono (reparse_spec h hf) ?_
  rintro ⟨e, w1⟩ m1 ⟨h1, hf1, hr1, hp⟩
  cases e
  · dsimp only
    rw [after_bind]
    refine after_mono (refOpt_spec (o := w1.entries[i]?.map Entry.addr) h1 ?_) ?_
    · intro a ha
      rw [Option.map_eq_some_iff] at ha
      obtain ⟨e, he, rfl⟩ := ha
      have hmem : e ∈ w1.entries := List.mem_of_getElem? he
      refine live_mem (List.mem_append_left _ (List.mem_append_left _ (List.mem_append_right _
        (List.mem_append_right _ (List.mem_append_left _ (List.mem_map.mpr ⟨e, hmem, rfl⟩))))))
    rintro _ m2 ⟨h2, hr2, -⟩
    exact ⟨h2, hf1, hr2.trans hr1, hp, rfl⟩
  · exact ⟨h1, hf1, hr1, hp, rfl⟩

theorem makeRoom_spec {w : TL} (h : Holds r (held w ++ l) m) (hf : Fit w) :
    after (makeRoom w) m (fun p m' => Holds r (held p.2 ++ l) m' ∧ Fit p.2 ∧ m'.room = m.room ∧
      ((p.1 = false ∧ p.2 = w) ∨ (p.1 = true ∧ w.entries.length < p.2.alloc ∧
        ∃ a n, p.2 = { w with array := a, alloc := n }))) := by
  unfold makeRoom
  rw [after_ite]
  have hl := hf.len
  split
  · refine after_mono (resize_spec h hf (by omega)) ?_
    rintro p m1 ⟨h1, hf1, hr1, hc⟩
    refine ⟨h1, hf1, hr1, hc.imp_right ?_⟩
    rintro ⟨hp, a, ha⟩
    exact ⟨hp, by rw [ha]; show _ < w.alloc + 4; omega, a, _, ha⟩
  · exact ⟨h, hf, rfl, Or.inr ⟨rfl, by show _ < w.alloc; omega, w.array, w.alloc, rfl⟩⟩

/-- What `append` may do to a list. -/
def Appended (w : TL) (x : Nat) (p : Ret) : Prop :=
  p.2.dirty = w.dirty ∧ p.2.empty = w.empty ∧
    ((p.1 = some .noMem) ∨
     (p.1 = none ∧ p.2.entries.map (·.word) = w.entries.map (·.word) ++ [x] ∧
      ∃ s, p.2.value = some s ∧ s.words = w.entries.map (·.word) ++ [x]))

theorem append_spec {w : TL} {s : Entry} (h : Holds r (held w ++ l) m) (hf : Fit w) (he : 0 < r w.empty)
    (hs : 0 < r s.addr + l.count s.addr) :
    after (append w s) m (fun p m' => Holds r (held p.2 ++ l) m' ∧ Fit p.2 ∧ m'.room = m.room ∧
      Appended w s.word p) := by
  unfold append
  rw [after_bind]
  refine after_mono (makeRoom_spec h hf) ?_
  rintro ⟨g, w1⟩ m1 ⟨h1, hf1, hr1, ⟨hg, hw⟩ | ⟨hg, hlen, a, n, hw⟩⟩
  · dsimp only at hg hw
    subst hg; subst hw
    dsimp only
    rw [if_neg (by decide)]
    exact ⟨h1, hf1, hr1, rfl, rfl, Or.inl rfl⟩
  · dsimp only at hg hw hlen
    subst hg; subst hw
    dsimp only at hlen ⊢
    rw [if_pos rfl, after_bind]
    refine after_mono (ref_live h1 (live_mono hs)) ?_
    rintro _ m2 ⟨h2, hr2, -⟩
    have hput : put { w with array := a, alloc := n } s =
        pure { w with array := a, alloc := n, entries := w.entries ++ [s] } := by
      unfold put; rw [if_pos hlen]
    rw [hput, after_bind, after_pure]
    refine after_mono (reify_spec (w := { w with array := a, alloc := n, entries := w.entries ++ [s] }) (l := l)
      (h2.perm (by perms)) ⟨?_, hf1.arr⟩ he) ?_
    · show (w.entries ++ [s]).length ≤ n
      rw [List.length_append]; show _ + 1 ≤ n; omega
    rintro p m3 ⟨h3, hf3, hr3, q1, q2, q3, q4⟩
    refine ⟨h3, hf3, hr3.trans (hr2.trans hr1), q2, q3, ?_⟩
    have hm : (w.entries ++ [s]).map (·.word) = w.entries.map (·.word) ++ [s.word] := by
      rw [List.map_append]; rfl
    rcases q4 with ⟨qe, -⟩ | ⟨qe | qe, v, hv, hw⟩
    · exact Or.inl qe
    · exact Or.inr ⟨qe, by rw [q1]; exact hm, v, hv, hw.trans hm⟩
    · exact Or.inl qe

theorem parsed_agree {w : TL} {p : Ret} (h : Parsed w p) (ha : Agree w) : Agree p.2 := by
  obtain ⟨h1, -, -, ⟨-, -, hd, hc⟩ | ⟨-, hd, -⟩⟩ := h
  · intro _
    cases hw : w.dirty
    · rw [hc hw]; exact ha hw
    · rw [hd hw, h1]
  · intro hf; rw [hd] at hf; exact absurd hf (by decide)

theorem parsed_entries {w : TL} {p : Ret} (h : Parsed w p) (ha : Agree w) (hn : p.1 = none) :
    p.2.entries.map (·.word) = tokens w.value := by
  have hag := parsed_agree h ha
  obtain ⟨h1, -, -, ⟨-, hd, -, -⟩ | ⟨he, -, -⟩⟩ := h
  · rw [← h1]; exact hag hd
  · rw [hn] at he; exact absurd he (by decide)

/-- What a call may do to a list that agrees with the attribute: the agreement is lost only if an error is
reported, and without one the value of the attribute has the tokens `t`. -/
def Changes (w : TL) (t : List Nat) (p : Ret) : Prop :=
  p.2.empty = w.empty ∧ (p.1 = none ∨ p.1 = some .noMem) ∧
    (Agree w → p.1 = none → Agree p.2 ∧ tokens p.2.value = t)

theorem add_spec {w : TL} {s : Entry} (h : Holds r (held w ++ l) m) (hf : Fit w) (he : 0 < r w.empty)
    (hs : 0 < r s.addr + l.count s.addr) :
    after (add w s) m (fun p m' => Holds r (held p.2 ++ l) m' ∧ Fit p.2 ∧ m'.room = m.room ∧
      Changes w (if s.word ∈ tokens w.value then tokens w.value else tokens w.value ++ [s.word]) p) := by
  unfold add
  rw [after_bind]
  refine after_mono (contains_spec s.word h hf) ?_
  rintro ⟨b, e, w1⟩ m1 ⟨h1, hf1, hr1, hp, hb⟩
  have hemp : w1.empty = w.empty := hp.2.2.1
  dsimp only at hb h1 hf1 hp
  cases e with
  | some e =>
    obtain ⟨-, -, -, ⟨hx, -⟩ | ⟨hx, -, -⟩⟩ := id hp
    · exact absurd hx (by simp)
    · dsimp only at hx ⊢
      exact ⟨h1, hf1, hr1, hemp, Or.inr hx, fun _ hn => by dsimp only at hn; exact absurd hn (by simp)⟩
  | none =>
    rw [if_pos rfl] at hb
    by_cases hx : s.word ∈ w1.entries.map (·.word)
    · rw [decide_eq_true hx] at hb
      subst hb
      dsimp only
      refine ⟨h1, hf1, hr1, hemp, Or.inl rfl, fun ha _ => ⟨parsed_agree hp ha, ?_⟩⟩
      rw [parsed_entries hp ha rfl] at hx
      rw [if_pos hx]
      show tokens w1.value = _
      rw [hp.1]
    · rw [decide_eq_false hx] at hb
      subst hb
      dsimp only
      refine after_mono (append_spec h1 hf1 (hemp ▸ he) hs) ?_
      rintro p m2 ⟨h2, hf2, hr2, q1, q2, q3⟩
      refine ⟨h2, hf2, hr2.trans hr1, q2.trans hemp, ?_, fun ha hn => ?_⟩
      · rcases q3 with q | ⟨q, -⟩
        · exact Or.inr q
        · exact Or.inl q
      · rcases q3 with q | ⟨-, q4, v, hv, hw⟩
        · rw [hn] at q; exact absurd q (by decide)
        · rw [parsed_entries hp ha rfl] at hx q4 hw
          have hnd : (tokens w.value ++ [s.word]).Nodup := by
            refine List.nodup_append.mpr ⟨firsts_nodup _, by simp, ?_⟩
            intro a ha b hb hab
            rw [List.mem_singleton] at hb
            exact hx (hb ▸ hab ▸ ha)
          have ht : tokens p.2.value = tokens w.value ++ [s.word] := by
            rw [hv]; show firsts v.words = _
            rw [hw, firsts_id hnd]
          refine ⟨fun _ => by rw [q4, ht], ?_⟩
          rw [if_neg hx, ht]

theorem eraseP_words (es : List Entry) (x : Nat) :
    (es.eraseP (·.word == x)).map (·.word) = (es.map (·.word)).erase x := by
  induction es with
  | nil => rfl
  | cons e es ih =>
    rw [List.eraseP_cons, List.map_cons, List.erase_cons]
    by_cases h : e.word = x
    · have hb : (e.word == x) = true := by simpa using h
      rw [hb]; rfl
    · have hb : (e.word == x) = false := by simpa using h
      rw [hb]
      show e.word :: _ = e.word :: _
      rw [ih]

theorem eraseP_perm (es : List Entry) (x : Nat) :
    (es.map (·.addr)).Perm (((es.find? (·.word == x)).map (·.addr)).toList ++ (es.eraseP (·.word == x)).map (·.addr)) := by
  induction es with
  | nil => exact List.Perm.refl _
  | cons e es ih =>
    rw [List.eraseP_cons, List.find?_cons]
    by_cases h : e.word = x
    · have hb : (e.word == x) = true := by simpa using h
      rw [hb]; exact List.Perm.refl _
    · have hb : (e.word == x) = false := by simpa using h
      rw [hb]
      show (e.addr :: es.map _).Perm (_ ++ e.addr :: _)
      exact (List.Perm.cons _ ih).trans List.perm_middle.symm

theorem remove_spec {w : TL} (x : Nat) (h : Holds r (held w ++ l) m) (hf : Fit w) (he : 0 < r w.empty) :
    after (remove w x) m (fun p m' => Holds r (held p.2 ++ l) m' ∧ Fit p.2 ∧ m'.room = m.room ∧
      ((p.1 = none ∧ p.2.empty = w.empty ∧ p.2.value = w.value ∧ p.2.dirty = true ∧ w.dirty = true) ∨
       Changes w ((tokens w.value).erase x) p)) := by
  unfold remove
  rw [after_bind]
  refine after_mono (reparse_spec h hf) ?_
  rintro ⟨e, w1⟩ m1 ⟨h1, hf1, hr1, hp⟩
  have hemp : w1.empty = w.empty := hp.2.2.1
  cases e with
  | some e =>
    obtain ⟨hv, -, -, ⟨hx, -⟩ | ⟨hx, hd, hd'⟩⟩ := id hp
    · exact absurd hx (by simp)
    · exact ⟨h1, hf1, hr1, Or.inl ⟨rfl, hemp, hv, hd, hd'⟩⟩
  | none =>
    dsimp only
    rw [after_bind]
    have hperm : (held w1 ++ l).Perm (((w1.entries.find? (·.word == x)).map (·.addr)).toList ++
        (held { w1 with entries := w1.entries.eraseP (·.word == x) } ++ l)) := by
      rw [List.perm_iff_count]; intro y
      have := (eraseP_perm w1.entries x).count_eq y
      simp only [held, base, List.count_append] at this ⊢
      omega
    refine after_mono (frees_opt _ r _ m1 (h1.perm hperm)) ?_
    rintro _ m2 ⟨h2, hr2, -⟩
    have hf2 : Fit { w1 with entries := w1.entries.eraseP (·.word == x) } :=
      ⟨Nat.le_trans (List.length_eraseP_le ..) hf1.len, hf1.arr⟩
    refine after_mono (reify_spec h2 hf2 (hemp ▸ he)) ?_
    rintro p m3 ⟨h3, hf3, hr3, q1, q2, q3, q4⟩
    refine ⟨h3, hf3, hr3.trans (hr2.trans hr1), Or.inr ⟨q3.trans hemp, ?_, fun ha hn => ?_⟩⟩
    · rcases q4 with ⟨q, -⟩ | ⟨q, -⟩
      · exact Or.inr q
      · exact q
    · rcases q4 with ⟨q, -⟩ | ⟨-, v, hv, hw⟩
      · rw [hn] at q; exact absurd q (by decide)
      · have hE : w1.entries.map (·.word) = tokens w.value := parsed_entries hp ha rfl
        dsimp only at hw q1
        rw [eraseP_words, hE] at hw
        have hnd : ((tokens w.value).erase x).Nodup := (firsts_nodup _).erase _
        have ht : tokens p.2.value = (tokens w.value).erase x := by
          rw [hv]; show firsts v.words = _
          rw [hw, firsts_id hnd]
        refine ⟨fun _ => ?_, ht⟩
        rw [q1, eraseP_words, hE, ht]

theorem release_spec {w : TL} (h : Holds r (held w ++ l) m) (hf : Fit w) :
    after (release w) m (fun _ m' => Holds r (addrOf w.value ++ l) m' ∧ m'.room = m.room) := by
  have hfree : Frees (freeArray w) (w.entries.map (·.addr) ++ w.array.toList) := by
    unfold freeArray
    split
    · refine ((frees_all _).seq (frees_opt _)).perm (List.Perm.append_right _ ?_)
      rw [List.map_reverse]; exact (List.reverse_perm _).symm
    · rename_i h0
      have hl := hf.len
      have he : w.entries = [] := List.eq_nil_of_length_eq_zero (by omega)
      have ha : w.array = none := by
        cases ha : w.array with
        | none => rfl
        | some a => exact absurd (hf.arr.mp (by rw [ha]; rfl)) h0
      rw [he, ha]; exact Frees.none
  have hall : Frees (release w) (base w) := by
    unfold release
    refine (hfree.seq ((Frees.one _).seq ((Frees.one _).seq ((Frees.one _).seq ((Frees.one _).seq
      ((frees_opt (w.last.map (·.addr))).seq ((Frees.one _).seq ((Frees.one _).seq (Frees.one _))))))))).perm ?_
    perms
  refine after_mono (hall r (addrOf w.value ++ l) m ?_) ?_
  · rw [← List.append_assoc]; exact h
  rintro _ m' ⟨h', hr', -⟩
  exact ⟨h', hr'⟩

theorem create_spec {ele name typ empty : Nat} {value : Option Str} (h : Holds r (addrOf value ++ l) m)
    (he : 0 < r ele) (hn : 0 < r name) (ht : 0 < r typ) :
    after (create ele name typ empty value) m (fun o m' => m'.room = m.room ∧
      ((o = .error .noMem ∧ Holds r (addrOf value ++ l) m') ∨
       (∃ w, o = .ok w ∧ Holds r (held w ++ l) m' ∧ Fit w ∧ w.empty = empty ∧ w.value = value ∧ w.dirty = true))) := by
  unfold create
  rw [after_bind]
  refine after_mono (malloc_spec h) ?_
  rintro o m1 ⟨hr1, -, ⟨rfl, h1, -⟩ | ⟨b, rfl, h1, -⟩⟩
  · exact ⟨hr1, Or.inl ⟨rfl, h1⟩⟩
  dsimp only
  rw [after_bind]
  refine after_mono (ref_live h1 (by omega)) ?_
  rintro _ m2 ⟨h2, hr2, -⟩
  rw [after_bind]
  refine after_mono (ref_live h2 (by omega)) ?_
  rintro _ m3 ⟨h3, hr3, -⟩
  have hfail : ∀ (o : Option Nat) (m' : Mem), m'.room = m.room →
      Holds r (o.toList ++ (name :: ele :: b :: (addrOf value ++ l))) m' →
      after (createFail b ele name o) m' (fun o m' => m'.room = m.room ∧
      ((o = .error .noMem ∧ Holds r (addrOf value ++ l) m') ∨
       (∃ w, o = .ok w ∧ Holds r (held w ++ l) m' ∧ Fit w ∧ w.empty = empty ∧ w.value = value ∧ w.dirty = true))) := by
    intro o m' hr' h'
    unfold createFail
    rw [after_bind]
    refine after_mono (frees_opt o r _ m' h') ?_
    rintro _ n1 ⟨g1, hs1, -⟩
    rw [after_bind]
    refine after_mono (unref_spec (g1.perm (List.Perm.swap ..))) ?_
    rintro _ n2 ⟨g2, hs2, -⟩
    rw [after_bind]
    refine after_mono (unref_spec g2) ?_
    rintro _ n3 ⟨g3, hs3, -⟩
    rw [after_bind]
    refine after_mono (unref_spec g3) ?_
    rintro _ n4 ⟨g4, hs4, -⟩
    exact ⟨hs4.trans (hs3.trans (hs2.trans (hs1.trans hr'))), Or.inl ⟨rfl, g4⟩⟩
  rw [after_bind]
  refine after_mono (malloc_spec h3) ?_
  rintro o m4 ⟨hr4, -, ⟨rfl, h4, -⟩ | ⟨li, rfl, h4, -⟩⟩
  · exact hfail none m4 (hr4.trans (hr3.trans (hr2.trans hr1))) h4
  dsimp only
  rw [after_bind]
  refine after_mono (malloc_spec h4) ?_
  rintro o m5 ⟨hr5, -, ⟨rfl, h5, -⟩ | ⟨reg, rfl, h5, -⟩⟩
  · exact hfail (some li) m5 (hr5.trans (hr4.trans (hr3.trans (hr2.trans hr1)))) h5
  dsimp only
  rw [after_bind]
  refine after_mono (ref_live h5 (by omega)) ?_
  rintro _ m6 ⟨h6, hr6, -⟩
  rw [after_bind]
  refine after_mono (ref_live h6 (live_mem (by simp))) ?_
  rintro _ m7 ⟨h7, hr7, -⟩
  refine ⟨hr7.trans (hr6.trans (hr5.trans (hr4.trans (hr3.trans (hr2.trans hr1))))), Or.inr ⟨_, rfl, h7.perm ?_,
    ⟨Nat.le_refl _, by simp⟩, rfl, rfl, rfl⟩⟩
  perms

/-! ## Calls -/

/-- **Specification.**  What the call and the client have to do with each other in the theorem on answers: calls that
change the list report no error, and the client does not write to the attribute what the list wrote to it last, unless
the list is to be read again anyway. -/
def Fair (w : W) (o : Op) (a : Ans) : Prop :=
  match o with
  | .add _ => a = .done
  | .remove _ => a = .done
  | .set s => w.tl.dirty = true ∨ w.tl.last.map (·.words) ≠ some s.words
  | _ => True

/-- **Specification.**  The answer of a call, and the value of the attribute after it. -/
def Right (w : W) (o : Op) (a : Ans) (w' : W) : Prop :=
  match o with
  | .length => w'.tl.value = w.tl.value ∧ (a = .err .noMem ∨ a = .num (tokens w.tl.value).length)
  | .item i => w'.tl.value = w.tl.value ∧ (a = .err .noMem ∨ a = .word (tokens w.tl.value)[i]?)
  | .contains x => w'.tl.value = w.tl.value ∧ (a = .err .noMem ∨ a = .bool (decide (x ∈ wordsOf w.tl.value)))
  | .add s => ∀ x, s ∈ w.mine → s.words = [x] → a = .done → tokens w'.tl.value =
      if x ∈ tokens w.tl.value then tokens w.tl.value else tokens w.tl.value ++ [x]
  | .remove x => a = .done → tokens w'.tl.value = (tokens w.tl.value).erase x ∨
      (w.tl.dirty = true ∧ w'.tl.dirty = true ∧ w'.tl.value = w.tl.value)
  | .set s => s ∈ w.mine → a = .done → w'.tl.value = some s
  | .make _ => w'.tl = w.tl
  | .drop _ => w'.tl = w.tl

/-- What holds between calls. -/
structure Inv (r : Nat → Nat) (w : W) (m : Mem) : Prop where
  holds : Holds r (held w.tl ++ refsOf w.mine) m
  fit : Fit w.tl
  empty : 0 < r w.tl.empty

theorem live_mine {w : W} {s : Str} (h : s ∈ w.mine) : 0 < r s.addr + (refsOf w.mine).count s.addr :=
  live_mem (List.mem_map.mpr ⟨s, h, rfl⟩)

theorem setted_inv {w : TL} {v : Str} {p : Ret} (h : Setted w v p) (hf : Fit w) :
    Fit p.2 ∧ p.2.empty = w.empty ∧ (p.1 = none → p.2.value = some v) ∧ (p.1 = none ∨ p.1 = some .noMem) := by
  have hh := hf.heard v
  have he : (heard w v).empty = w.empty := by unfold heard; split <;> rfl
  rcases h with rfl | rfl | ⟨hp, h2⟩
  · exact ⟨hf, rfl, fun h => absurd h (by simp), Or.inr rfl⟩
  · exact ⟨hh, he, fun h => absurd h (by simp), Or.inr rfl⟩
  · rw [h2]; exact ⟨⟨hh.len, hh.arr⟩, he, fun _ => rfl, hp⟩

theorem setted_agree {w : TL} {v : Str} {p : Ret} (h : Setted w v p) (ha : Agree w)
    (hd : w.dirty = true ∨ w.last.map (·.words) ≠ some v.words) : Agree p.2 := by
  have hh : (heard w v).dirty = true := by
    unfold heard
    split
    · rename_i hl
      exact hd.resolve_right fun h => h hl
    · rfl
  have : ∀ w' : TL, w'.dirty = true → Agree w' := fun w' h h' => by rw [h] at h'; exact absurd h' (by decide)
  rcases h with rfl | rfl | ⟨-, h2⟩
  · exact ha
  · exact this _ hh
  · rw [h2]; exact this _ hh

theorem code_done {e : Option Exc} (h : code e = .done) : e = none := by
  cases e with
  | none => rfl
  | some e => exact absurd h (by simp [code])

theorem parsed_cases {w : TL} {p : Ret} (h : Parsed w p) :
    p.2.value = w.value ∧ p.2.empty = w.empty ∧ (p.1 = none ∨ p.1 = some .noMem) := by
  obtain ⟨h1, -, h3, ⟨h4, -⟩ | ⟨h4, -⟩⟩ := h
  · exact ⟨h1, h3, Or.inl h4⟩
  · exact ⟨h1, h3, Or.inr h4⟩

theorem step_spec {w : W} (o : Op) (h : Inv r w m) :
    after (step w o) m (fun p m' => Inv r p.2 m' ∧ m'.room = m.room ∧
      (Agree w.tl → Right w o p.1 p.2 ∧ (Fair w o p.1 → Agree p.2.tl))) := by
  obtain ⟨h, hf, he⟩ := h
  cases o with
  | make ws =>
    unfold step
    rw [after_bind]
    refine after_mono (createString_spec h) ?_
    rintro o m1 ⟨hr1, ⟨rfl, h1, -⟩ | ⟨a, rfl, h1, -, -⟩⟩
    · exact ⟨⟨h1, hf, he⟩, hr1, fun ha => ⟨rfl, fun _ => ha⟩⟩
    · exact ⟨⟨h1.perm (by perms), hf, he⟩, hr1, fun ha => ⟨rfl, fun _ => ha⟩⟩
  | drop s =>
    unfold step
    rw [after_ite]
    split
    · rename_i hs
      rw [after_bind]
      have hp : (refsOf w.mine).Perm (s.addr :: refsOf (w.mine.erase s)) :=
        (List.perm_cons_erase hs).map _
      refine after_mono (unref_spec (l := held w.tl ++ refsOf (w.mine.erase s)) (h.perm ?_)) ?_
      · exact (hp.append_left _).trans List.perm_middle
      rintro _ m1 ⟨h1, hr1, -⟩
      exact ⟨⟨h1, hf, he⟩, hr1, fun ha => ⟨rfl, fun _ => ha⟩⟩
    · exact ⟨⟨h, hf, he⟩, rfl, fun ha => ⟨rfl, fun _ => ha⟩⟩
  | length =>
    unfold step
    rw [after_bind]
    refine after_mono (getLength_spec h hf) ?_
    rintro ⟨n, e, tl⟩ m1 ⟨h1, hf1, hr1, hp, hn⟩
    obtain ⟨hv, hemp, hc⟩ := parsed_cases hp
    dsimp only at hn h1 hf1 hv hemp hc
    rcases hc with rfl | rfl
    · rw [if_pos rfl] at hn
      subst hn
      refine ⟨⟨h1, hf1, hemp ▸ he⟩, hr1, fun ha => ⟨⟨hv, Or.inr ?_⟩, fun _ => parsed_agree hp ha⟩⟩
      show Ans.num _ = Ans.num _
      rw [← parsed_entries hp ha rfl, List.length_map]
    · rw [if_neg (by simp)] at hn
      subst hn
      exact ⟨⟨h1, hf1, hemp ▸ he⟩, hr1, fun ha => ⟨⟨hv, Or.inl rfl⟩, fun _ => parsed_agree hp ha⟩⟩
  | item i =>
    unfold step
    rw [after_bind]
    refine after_mono (item_spec i h hf) ?_
    rintro ⟨x, e, tl⟩ m1 ⟨h1, hf1, hr1, hp, hx⟩
    obtain ⟨hv, hemp, hc⟩ := parsed_cases hp
    dsimp only at hx h1 hf1 hv hemp hc
    rcases hc with rfl | rfl
    · rw [if_pos rfl] at hx
      have hans : Agree w.tl → (tokens w.tl.value)[i]? = x.map (·.word) := by
        intro ha
        rw [← parsed_entries hp ha rfl, List.getElem?_map, hx]
      cases x with
      | none =>
        exact ⟨⟨h1, hf1, hemp ▸ he⟩, hr1, fun ha => ⟨⟨hv, Or.inr (by rw [hans ha]; rfl)⟩, fun _ => parsed_agree hp ha⟩⟩
      | some x =>
        exact ⟨⟨h1.perm (by perms), hf1, hemp ▸ he⟩, hr1,
          fun ha => ⟨⟨hv, Or.inr (by rw [hans ha]; rfl)⟩, fun _ => parsed_agree hp ha⟩⟩
    · rw [if_neg (by simp)] at hx
      subst hx
      exact ⟨⟨h1, hf1, hemp ▸ he⟩, hr1, fun ha => ⟨⟨hv, Or.inl rfl⟩, fun _ => parsed_agree hp ha⟩⟩
  | contains x =>
    unfold step
    rw [after_bind]
    refine after_mono (contains_spec x h hf) ?_
    rintro ⟨n, e, tl⟩ m1 ⟨h1, hf1, hr1, hp, hn⟩
    obtain ⟨hv, hemp, hc⟩ := parsed_cases hp
    dsimp only at hn h1 hf1 hv hemp hc
    rcases hc with rfl | rfl
    · rw [if_pos rfl] at hn
      rw [hn]
      refine ⟨⟨h1, hf1, hemp ▸ he⟩, hr1, fun ha => ⟨⟨hv, Or.inr ?_⟩, fun _ => parsed_agree hp ha⟩⟩
      show Ans.bool _ = Ans.bool _
      congr 1
      rw [decide_eq_decide]
      have := parsed_entries hp ha rfl
      dsimp only at this
      rw [this]
      exact mem_firsts
    · rw [if_neg (by simp)] at hn
      subst hn
      exact ⟨⟨h1, hf1, hemp ▸ he⟩, hr1, fun ha => ⟨⟨hv, Or.inl rfl⟩, fun _ => parsed_agree hp ha⟩⟩
  | add s =>
    unfold step
    rw [after_ite]
    split
    · rename_i hs
      split
      · rename_i x hx
        rw [after_bind]
        refine after_mono (add_spec (s := ⟨s.addr, x⟩) h hf he (live_mine hs)) ?_
        rintro p m1 ⟨h1, hf1, hr1, hemp, hc, hch⟩
        refine ⟨⟨h1, hf1, hemp ▸ he⟩, hr1, fun ha => ⟨?_, fun hd => (hch ha (code_done hd)).1⟩⟩
        intro y _ hy hd
        rw [hx] at hy
        have : x = y := by simpa using hy
        subst this
        exact (hch ha (code_done hd)).2
      · rename_i hx
        exact ⟨⟨h, hf, he⟩, rfl, fun ha => ⟨fun y _ hy => absurd hy (hx y), fun _ => ha⟩⟩
    · rename_i hs
      exact ⟨⟨h, hf, he⟩, rfl, fun ha => ⟨fun y hs' => absurd hs' hs, fun _ => ha⟩⟩
  | remove x =>
    unfold step
    rw [after_bind]
    refine after_mono (remove_spec x h hf he) ?_
    rintro p m1 ⟨h1, hf1, hr1, ⟨hn, hemp, hv, hd, hd'⟩ | ⟨hemp, hc, hch⟩⟩
    · refine ⟨⟨h1, hf1, hemp ▸ he⟩, hr1, fun ha => ⟨fun _ => Or.inr ⟨hd', hd, hv⟩, fun _ hf => ?_⟩⟩
      rw [hd] at hf; exact absurd hf (by decide)
    · exact ⟨⟨h1, hf1, hemp ▸ he⟩, hr1, fun ha => ⟨fun hd => Or.inl (hch ha (code_done hd)).2,
        fun hd => (hch ha (code_done hd)).1⟩⟩
  | set s =>
    unfold step
    rw [after_ite]
    split
    · rename_i hs
      rw [after_bind]
      refine after_mono (setAttribute_spec h (live_mono (live_mine hs))) ?_
      rintro p m1 ⟨h1, hr1, hset⟩
      obtain ⟨hf1, hemp, hv, -⟩ := setted_inv hset hf
      exact ⟨⟨h1, hf1, hemp ▸ he⟩, hr1, fun ha => ⟨fun _ hd => hv (code_done hd), fun hd => setted_agree hset ha hd⟩⟩
    · rename_i hs
      exact ⟨⟨h, hf, he⟩, rfl, fun ha => ⟨fun hs' => absurd hs' hs, fun _ => ha⟩⟩

theorem run_spec : ∀ (os : List Op) {w : W} {m : Mem}, Inv r w m →
    after (run os w) m (fun p m' => Inv r p.2 m' ∧ m'.room = m.room)
  | [], w, m, h => ⟨h, rfl⟩
  | o :: os, w, m, h => by
    unfold run
    rw [after_bind]
    refine after_mono (step_spec o h) ?_
    rintro p m1 ⟨h1, hr1, -⟩
    rw [after_bind]
    refine after_mono (run_spec os h1) ?_
    rintro q m2 ⟨h2, hr2⟩
    exact ⟨h2, hr2.trans hr1⟩

/-! ## The theorems -/

/-- **C90 (memory).**  A token list is made for an attribute with any value, a client makes any calls, and whichever
requests for memory are refused: no call reads or gives back an object that is not there, none writes outside the
array, and when the list is given back exactly the value of the attribute and the strings of the client are left.  If
the list cannot be made, nothing is left of it. -/
theorem C90_refs (m : Mem) (r : Nat → Nat) (ele name typ empty : Nat) (value : Option Str) (mine : List Str)
    (os : List Op) (hm : Holds r (addrOf value ++ refsOf mine) m) (he : 0 < r ele) (hn : 0 < r name) (ht : 0 < r typ)
    (h0 : 0 < r empty) :
    after (create ele name typ empty value) m (fun o m1 =>
      (o = .error .noMem ∧ Holds r (addrOf value ++ refsOf mine) m1) ∨
      (∃ tl, o = .ok tl ∧ after (run os ⟨tl, mine⟩) m1 (fun p m2 =>
        after (release p.2.tl) m2 (fun _ m3 => Holds r (addrOf p.2.tl.value ++ refsOf p.2.mine) m3)))) := by
  refine after_mono (create_spec hm he hn ht) ?_
  rintro o m1 ⟨hr1, ⟨rfl, h1⟩ | ⟨tl, rfl, h1, hf, hemp, hv, hd⟩⟩
  · exact Or.inl ⟨rfl, h1⟩
  · refine Or.inr ⟨tl, rfl, after_mono (run_spec os (w := ⟨tl, mine⟩) ⟨h1, hf, hemp ▸ h0⟩) ?_⟩
    rintro p m2 ⟨⟨h2, hf2, -⟩, -⟩
    refine after_mono (release_spec h2 hf2) ?_
    rintro _ m3 ⟨h3, -⟩
    exact h3

/-- **Specification.**  The states a fair client can bring about: a new list, and calls as in `Fair`. -/
inductive Reach (r : Nat → Nat) : W → Mem → Prop
  | start {m m' : Mem} {ele name typ empty : Nat} {value : Option Str} {mine : List Str} {tl : TL} :
      Holds r (addrOf value ++ refsOf mine) m → 0 < r ele → 0 < r name → 0 < r typ → 0 < r empty →
      create ele name typ empty value m = .ok (.ok tl) m' → Reach r ⟨tl, mine⟩ m'
  | call {w w' : W} {m m' : Mem} {o : Op} {a : Ans} :
      Reach r w m → step w o m = .ok (a, w') m' → Fair w o a → Reach r w' m'

theorem Reach.inv {w : W} {m : Mem} (h : Reach r w m) : Inv r w m ∧ Agree w.tl := by
  induction h with
  | start hm he hn ht h0 hc =>
    obtain ⟨o, m', ho, -, ⟨rfl, -⟩ | ⟨tl, rfl, h1, hf, hemp, hv, hd⟩⟩ := after_elim (create_spec (empty := _) hm he hn ht)
    · rw [hc] at ho; exact absurd ho (by simp)
    · rw [hc] at ho
      cases ho
      exact ⟨⟨h1, hf, hemp ▸ h0⟩, fun h' => by rw [hd] at h'; exact absurd h' (by decide)⟩
  | call _ hs hfair ih =>
    obtain ⟨p, m', hp, hi, -, hag⟩ := after_elim (step_spec _ ih.1)
    rw [hs] at hp
    cases hp
    exact ⟨hi, (hag ih.2).2 hfair⟩

/-- **C90 (answers, partial).**  Whichever requests are refused: in every state a fair client brings about, the length,
the items and the words found are those of the value of the attribute, or lack of memory is reported; `add` that
reports no error has added the word; a string written without an error is the value.  Partial: `remove` that reports no
error may have removed nothing (`C90_remove_violated`), after a call that changes the list and fails the list need not
be that of the attribute (`C90_add_violated`), and for the client that writes what the list wrote last see
`C49_stale_violated`. -/
theorem C90_answers_partial {w : W} {m : Mem} (h : Reach r w m) (o : Op) :
    ∃ a w' m', step w o m = .ok (a, w') m' ∧ Right w o a w' := by
  obtain ⟨hi, ha⟩ := h.inv
  obtain ⟨⟨a, w'⟩, m', hs, -, -, hr⟩ := after_elim (step_spec o hi)
  exact ⟨a, w', m', hs, (hr ha).1⟩

/-! ## Where it goes wrong -/

theorem reparse_clean {w : TL} (h : w.dirty = false) (m : Mem) : reparse w m = .ok (none, w) m := by
  unfold reparse
  rw [if_neg (by rw [h]; decide)]
  rfl

theorem contains_clean {w : TL} (x : Nat) (h : w.dirty = false) (m : Mem) :
    contains w x m = .ok (some (decide (x ∈ w.entries.map (·.word))), none, w) m := by
  unfold contains
  rw [bind_ok (reparse_clean h m)]
  dsimp only
  rw [any_word]; rfl

/-- The requests `makeRoom` makes. -/
def roomCost (w : TL) : Nat := if w.entries.length = w.alloc then 1 else 0

theorem makeRoom_granted {w : TL} (hg : Granted m.room m.time (roomCost w)) :
    after (makeRoom w) m (fun p m' => p.1 = true ∧ m'.time = m.time + roomCost w) := by
  unfold makeRoom roomCost at *
  split
  · rename_i h
    rw [if_pos h] at hg
    have hg' : m.room m.time = true := granted_one.mp hg
    unfold resize
    rw [after_bind]
    refine after_of_eq (show ask m = .ok (m.room m.time) { m with time := m.time + 1 } from rfl) ?_
    rw [if_pos hg']
    cases w.array <;> exact ⟨rfl, rfl⟩
  · exact ⟨rfl, rfl⟩

theorem reify_refused {w : TL} (he : w.entries ≠ []) (hr : m.room m.time = false) :
    reify w m = .ok (some .noMem, w) { m with time := m.time + 1 } := by
  unfold reify
  cases hw : w.entries with
  | nil => exact absurd hw he
  | cons e es =>
    dsimp only
    rw [bind_ok (malloc_none hr)]; rfl

theorem append_refused {w : TL} {s : Entry} (h : Holds r (held w ++ l) m) (hf : Fit w)
    (hs : 0 < r s.addr + l.count s.addr) (hk : RefusedAt m (roomCost w)) :
    after (append w s) m (fun p _ => p.1 = some .noMem ∧ p.2.value = w.value ∧ p.2.dirty = w.dirty ∧
      s.word ∈ p.2.entries.map (·.word)) := by
  unfold append
  rw [after_bind]
  refine after_mono (after_and (makeRoom_spec h hf) (makeRoom_granted hk.1)) ?_
  rintro ⟨g, w1⟩ m1 ⟨⟨h1, hf1, hr1, hc⟩, hg, ht1⟩
  dsimp only at hg
  subst hg
  rcases hc with ⟨hx, -⟩ | ⟨-, hlen, a, n, hw⟩
  · exact absurd hx (by simp)
  dsimp only at hw hlen
  subst hw
  dsimp only at hlen ⊢
  rw [if_pos rfl, after_bind]
  refine after_mono (ref_live h1 (live_mono hs)) ?_
  rintro _ m2 ⟨h2, hr2, ht2⟩
  have hput : put { w with array := a, alloc := n } s =
      pure { w with array := a, alloc := n, entries := w.entries ++ [s] } := by
    unfold put; rw [if_pos hlen]
  rw [hput, after_bind, after_pure]
  refine after_of_eq (reify_refused (by simp) ?_) ⟨rfl, rfl, rfl, ?_⟩
  · rw [hr2, hr1, ht2, ht1]; exact hk.2
  · show s.word ∈ (w.entries ++ [s]).map _
    simp

/-- **C90 (add, violated).**  A fair client adds a word that is not there, and the first request refused is that for the
buffer the new value is put together in.  `add` reports lack of memory and the attribute is unchanged; but the list
has the word from then on.  The client that tries again is told that all is well, whatever the memory by then, and the
attribute still does not have the word. -/
theorem C90_add_violated {w : W} {m : Mem} (h : Reach r w m) (hd : w.tl.dirty = false) {s : Str} {x : Nat}
    (hs : s ∈ w.mine) (hx : s.words = [x]) (hn : x ∉ wordsOf w.tl.value) (hk : RefusedAt m (roomCost w.tl)) :
    ∃ w1 m1, step w (.add s) m = .ok (.err .noMem, w1) m1 ∧ w1.tl.value = w.tl.value ∧
      ∀ room, ∃ w2 m2, step w1 (.add s) { m1 with room := room } = .ok (.done, w2) m2 ∧
        w2.tl.value = w.tl.value ∧ x ∉ wordsOf w2.tl.value ∧
        ∃ w3 m3, step w2 (.contains x) m2 = .ok (.bool true, w3) m3 := by
  obtain ⟨⟨hh, hf, he⟩, hag⟩ := h.inv
  have hany : x ∉ w.tl.entries.map (·.word) := by
    rw [hag hd]; exact fun hm => hn (mem_firsts.mp hm)
  obtain ⟨p, m1, hp, hp1, hp2, hp3, hp4⟩ := after_elim (append_refused (s := ⟨s.addr, x⟩) hh hf (live_mine hs) hk)
  have hadd : add w.tl ⟨s.addr, x⟩ m = .ok p m1 := by
    unfold add
    rw [bind_ok (contains_clean x hd m), decide_eq_false hany]
    exact hp
  have hstep : ∀ (w : W) (n n' : Mem) (q : Ret), s ∈ w.mine → add w.tl ⟨s.addr, x⟩ n = .ok q n' →
      step w (.add s) n = .ok (code q.1, { w with tl := q.2 }) n' := by
    intro w n n' q hs' hq
    unfold step
    dsimp only
    rw [if_pos hs', hx]
    dsimp only
    rw [bind_ok hq]; rfl
  refine ⟨{ w with tl := p.2 }, m1, ?_, hp2, fun room => ⟨{ w with tl := p.2 }, { m1 with room := room }, ?_, hp2, ?_, ?_⟩⟩
  · rw [hstep w m m1 p hs hadd, hp1]; rfl
  · have hagain : add p.2 ⟨s.addr, x⟩ { m1 with room := room } = .ok (none, p.2) { m1 with room := room } := by
      unfold add
      rw [bind_ok (contains_clean x (hp3.trans hd) _), decide_eq_true hp4]
      rfl
    rw [hstep { w with tl := p.2 } _ _ _ hs hagain]; rfl
  · show x ∉ wordsOf p.2.value
    rw [hp2]; exact hn
  · refine ⟨{ w with tl := p.2 }, { m1 with room := room }, ?_⟩
    unfold step
    dsimp only
    rw [bind_ok (contains_clean x (hp3.trans hd) _), decide_eq_true hp4]
    rfl

theorem intern_refused {x : Nat} {xs : List Nat} {w : TL} (hr : m.room m.time = false) :
    intern (x :: xs) w m = .ok (some .noMem, w) { m with time := m.time + 1 } := by
  unfold intern
  have : createString m = .ok (.error .noMem) { m with time := m.time + 1 } := by
    unfold createString
    rw [bind_ok (malloc_none hr)]; rfl
  rw [bind_ok this]; rfl

theorem fill_refused {w : TL} {v : Str} (hv : v.words ≠ []) (h : Holds r (v.addr :: l) m)
    (hr : m.room m.time = false) : after (fill v w) m (fun p _ => p.1 = some .noMem) := by
  unfold fill
  have hu : ∀ t, after (unref v.addr) { m with time := t } (fun _ _ => True) := fun t =>
    after_mono (unref_spec (r := r) (l := l) ⟨h.refs, h.fresh⟩) fun _ _ _ => trivial
  rw [after_bind]
  by_cases hlt : w.alloc < v.words.length
  · rw [if_pos hlt]
    have : resize w v.words.length m = .ok (false, w) { m with time := m.time + 1 } := by
      unfold resize
      rw [bind_ok (show ask m = .ok false { m with time := m.time + 1 } by unfold ask; rw [hr])]
      rfl
    refine after_of_eq this ?_
    dsimp only
    rw [if_neg (by decide), after_bind]
    exact after_mono (hu _) fun _ _ _ => rfl
  · rw [if_neg hlt, after_pure]
    dsimp only
    rw [if_pos rfl, after_bind]
    cases hw : v.words with
    | nil => exact absurd hw hv
    | cons x xs =>
      refine after_of_eq (intern_refused hr) ?_
      unfold reparsed
      rw [after_bind]
      exact after_mono (hu _) fun _ _ _ => rfl

theorem reparse_refused {w : TL} {v : Str} (h : Holds r (held w ++ l) m) (hd : w.dirty = true)
    (hv : w.value = some v) (hw : v.words ≠ []) (hr : m.room m.time = false) :
    after (reparse w) m (fun p _ => p.1 = some .noMem) := by
  unfold reparse
  rw [if_pos hd, after_bind]
  refine after_mono (frees_all (w.entries.reverse.map (·.addr)) r (held { w with entries := [] } ++ l) m (h.perm ?_)) ?_
  · rw [List.perm_iff_count]; intro x
    simp only [held, base, addrOf, List.count_append, List.map_reverse, List.count_reverse, List.map_nil,
      List.count_nil, List.cons_append, List.nil_append, List.count_cons]
    omega
  rintro _ m1 ⟨h1, hr1, ht1⟩
  dsimp only
  rw [hv]
  dsimp only
  rw [after_bind]
  have hm : v.addr ∈ held { w with entries := [] } ++ l := by
    refine List.mem_append_left _ (List.mem_append_right _ ?_)
    show v.addr ∈ addrOf w.value
    rw [hv]; exact List.mem_singleton.mpr rfl
  refine after_mono (ref_live h1 (live_mem hm)) ?_
  rintro _ m2 ⟨h2, hr2, ht2⟩
  rw [if_neg hw]
  exact fill_refused hw h2 (by rw [hr2, hr1, ht2, ht1]; exact hr)

/-- **C90 (remove, violated).**  The list is to be read again and the first request is refused: `remove` reports that all
is well, and the value of the attribute is what it was, with the word in it. -/
theorem C90_remove_violated {w : W} {m : Mem} (h : Reach r w m) (hd : w.tl.dirty = true) {x : Nat}
    (hx : x ∈ wordsOf w.tl.value) (hk : RefusedAt m 0) :
    ∃ w' m', step w (.remove x) m = .ok (.done, w') m' ∧ w'.tl.value = w.tl.value ∧ x ∈ wordsOf w'.tl.value := by
  obtain ⟨⟨hh, hf, he⟩, -⟩ := h.inv
  cases hv : w.tl.value with
  | none => rw [hv] at hx; exact absurd hx (by simp [wordsOf])
  | some v =>
    rw [hv] at hx
    have hw : v.words ≠ [] := List.ne_nil_of_mem hx
    obtain ⟨⟨e, w1⟩, m1, hp, ⟨-, -, -, hpar⟩, he1⟩ := after_elim (after_and (reparse_spec hh hf)
      (reparse_refused hh hd hv hw hk.2))
    dsimp only at he1
    subst he1
    have hval : w1.value = some v := hpar.1.trans hv
    have hrem : remove w.tl x m = .ok (none, w1) m1 := by
      unfold remove; rw [bind_ok hp]; rfl
    refine ⟨{ w with tl := w1 }, m1, ?_, hval, ?_⟩
    · unfold step; dsimp only; rw [bind_ok hrem]; rfl
    · show x ∈ wordsOf w1.value
      rw [hval]; exact hx

theorem setAttribute_late {w : TL} {v : Str} (h : Holds r (held w ++ l) m)
    (hv : 0 < r v.addr + (held w ++ l).count v.addr) (hk : RefusedAt m 2) :
    after (setAttribute w v) m (fun p _ => p.1 = some .noMem ∧ p.2.value = some v) := by
  have g0 := hk.1 0 (by omega)
  have g1 := hk.1 1 (by omega)
  unfold setAttribute
  rw [after_bind]
  refine after_mono (ask_spec h) ?_
  rintro one m1 ⟨h1, hr1, ht1, hok1⟩
  rw [show one = true from hok1.trans g0, if_pos rfl, after_bind]
  refine after_mono (ask_spec h1) ?_
  rintro two m2 ⟨h2, hr2, ht2, hok2⟩
  rw [show two = true from by rw [hok2, hr1, ht1]; exact g1, if_pos rfl, after_bind]
  refine after_mono (replaceValue_spec (w := heard w v) (by rw [held_heard]; exact h2) (by rw [held_heard]; exact hv)) ?_
  rintro _ m3 ⟨rfl, h3, hr3, ht3⟩
  rw [after_bind]
  refine after_mono (ask_spec h3) ?_
  rintro three m4 ⟨h4, hr4, -, hok4⟩
  rw [show three = false from by
    rw [hok4, hr3, hr2, hr1, ht3, ht2, ht1]; exact hk.2]
  exact ⟨rfl, rfl⟩

theorem reify_late {w : TL} (h : Holds r (held w ++ l) m) (hne : w.entries ≠ []) (hk : RefusedAt m 5) :
    after (reify w) m (fun p _ => p.1 = some .noMem ∧ ∃ s, p.2.value = some s ∧ s.words = w.entries.map (·.word)) := by
  have hlast : (w.last.map (·.addr)).toList = addrOf w.last := rfl
  unfold reify
  split
  · rename_i hnil; exact absurd hnil hne
  rw [after_bind]
  refine after_mono (malloc_spec h) ?_
  rintro o m1 ⟨hr1, ht1, ⟨rfl, h1, hng⟩ | ⟨b, rfl, h1, -⟩⟩
  · exact absurd (granted_mono hk.1 (by omega)) hng
  dsimp only
  rw [after_bind]
  have hg : Granted m1.room m1.time 2 := by
    rw [hr1, ht1]; exact granted_mono ((granted_add (a := 1) (b := 4)).mp hk.1).2 (by omega)
  refine after_mono (createString_spec h1) ?_
  rintro o m2 ⟨hr2, ⟨rfl, h2, hng⟩ | ⟨s, rfl, h2, -, ht2⟩⟩
  · exact absurd hg hng
  rw [after_bind]
  refine after_mono (unref_spec (h2.perm (List.Perm.swap ..))) ?_
  rintro _ m3 ⟨h3, hr3, ht3⟩
  dsimp only
  rw [after_bind]
  refine after_mono (frees_opt (w.last.map (·.addr)) r (held { w with last := some ⟨s, w.entries.map (·.word)⟩ } ++ l)
    m3 (h3.perm (by perms))) ?_
  rintro _ m4 ⟨h4, hr4, ht4⟩
  have hr : m4.room = m.room := hr4.trans (hr3.trans (hr2.trans hr1))
  have ht : m4.time = m.time + 3 := by omega
  refine after_mono (setAttribute_late (w := { w with last := some ⟨s, w.entries.map (·.word)⟩ }) h4
    (live_mem ?_) ⟨?_, ?_⟩) ?_
  · refine List.mem_append_left _ (List.mem_append_left _ ?_)
    unfold base
    refine List.mem_append_right _ (List.mem_append_right _ (List.mem_append_right _ ?_))
    exact List.mem_singleton.mpr rfl
  · rw [hr, ht]; exact ((granted_add (a := 3) (b := 2)).mp hk.1).2
  · rw [hr, ht]; exact hk.2
  rintro p m5 ⟨h5, hv⟩
  exact ⟨h5, _, hv, rfl⟩

/-- **C90 (error after the change, violated).**  A fair client adds a word that is not there, and the first request
refused is the last one of the call, for the event that tells of the change: lack of memory is reported although the
word has been added to the attribute. -/
theorem C90_late_violated {w : W} {m : Mem} (h : Reach r w m) (hd : w.tl.dirty = false) {s : Str} {x : Nat}
    (hs : s ∈ w.mine) (hx : s.words = [x]) (hn : x ∉ wordsOf w.tl.value) (hk : RefusedAt m (roomCost w.tl + 5)) :
    ∃ w1 m1, step w (.add s) m = .ok (.err .noMem, w1) m1 ∧ wordsOf w1.tl.value = tokens w.tl.value ++ [x] := by
  obtain ⟨⟨hh, hf, he⟩, hag⟩ := h.inv
  have hany : x ∉ w.tl.entries.map (·.word) := by
    rw [hag hd]; exact fun hm => hn (mem_firsts.mp hm)
  have hk1 := (granted_add.mp hk.1)
  have happ : after (append w.tl ⟨s.addr, x⟩) m (fun p _ => p.1 = some .noMem ∧
      ∃ v, p.2.value = some v ∧ v.words = w.tl.entries.map (·.word) ++ [x]) := by
    unfold append
    rw [after_bind]
    refine after_mono (after_and (makeRoom_spec hh hf) (makeRoom_granted hk1.1)) ?_
    rintro ⟨g, w1⟩ m1 ⟨⟨h1, hf1, hr1, hc⟩, hg, ht1⟩
    dsimp only at hg
    subst hg
    rcases hc with ⟨hx, -⟩ | ⟨-, hlen, a, n, hw⟩
    · exact absurd hx (by simp)
    dsimp only at hw hlen
    subst hw
    dsimp only at hlen ⊢
    rw [if_pos rfl, after_bind]
    refine after_mono (ref_live h1 (live_mono (live_mine hs))) ?_
    rintro _ m2 ⟨h2, hr2, ht2⟩
    have hput : put { w.tl with array := a, alloc := n } ⟨s.addr, x⟩ =
        pure { w.tl with array := a, alloc := n, entries := w.tl.entries ++ [⟨s.addr, x⟩] } := by
      unfold put; rw [if_pos hlen]
    rw [hput, after_bind, after_pure]
    refine after_mono (reify_late (w := { w.tl with array := a, alloc := n, entries := w.tl.entries ++ [⟨s.addr, x⟩] })
      (l := refsOf w.mine) (h2.perm (by perms)) (by simp) ⟨?_, ?_⟩) ?_
    · rw [hr2, hr1, ht2, ht1]; exact hk1.2
    · rw [hr2, hr1, ht2, ht1, Nat.add_assoc]; exact hk.2
    rintro p m3 ⟨hp, v, hv, hw⟩
    refine ⟨hp, v, hv, hw.trans ?_⟩
    show (w.tl.entries ++ [_]).map _ = _
    rw [List.map_append]; rfl
  obtain ⟨p, m1, hp, hp1, v, hv, hw⟩ := after_elim happ
  have hadd : add w.tl ⟨s.addr, x⟩ m = .ok p m1 := by
    unfold add
    rw [bind_ok (contains_clean x hd m), decide_eq_false hany]
    exact hp
  refine ⟨{ w with tl := p.2 }, m1, ?_, ?_⟩
  · unfold step
    dsimp only
    rw [if_pos hs, hx]
    dsimp only
    rw [bind_ok hadd, hp1]; rfl
  · show wordsOf p.2.value = _
    rw [hv]; show v.words = _
    rw [hw, hag hd]

/-! ## Cases -/

/-- Memory with 8 objects, two references to each, where request `k` is refused. -/
def lean (k : Nat) : Mem :=
  { room := fun t => t != k, time := 0, next := 8, refs := fun a => if a < 8 then 2 else 0 }

/-- The answers of the calls on a new list, and then the words of the attribute and the references left over when all
is given back (in a range of addresses that has all of them); `none` if the list cannot be made. -/
def trial (k : Nat) (value : Option Str) (mine : List Str) (os : List Op) : Option (List Ans × List Nat × Nat) :=
  match create 1 2 3 4 value (lean k) with
  | .ok (.ok tl) m1 =>
    match run os ⟨tl, mine⟩ m1 with
    | .ok (as, w) m2 =>
      match release w.tl m2 with
      | .ok _ m3 => some (as, wordsOf w.tl.value, ((List.range 80).map m3.refs).sum)
      | .fault _ => none
    | .fault _ => none
  | _ => none

/-- Concrete cases: the attribute is "1 2 1" (the string at 5) and the client holds the word 3 (at 6) and the text "2 4"
(at 7).  With enough memory; with the buffer refused, where the second `add` is said to have worked; with the first
request of `remove` refused; with the request for the last event refused; and no memory for the list. -/
theorem C90_cases :
    trial 100 (some ⟨5, [1, 2, 1]⟩) [⟨6, [3]⟩, ⟨7, [2, 4]⟩]
      [.length, .add ⟨6, [3]⟩, .item 2, .remove 1, .set ⟨7, [2, 4]⟩, .contains 4, .contains 3] =
        some ([.num 2, .done, .word (some 3), .done, .done, .bool true, .bool false], [2, 4], 17) ∧
    trial 10 (some ⟨5, [1, 2, 1]⟩) [⟨6, [3]⟩] [.length, .add ⟨6, [3]⟩, .add ⟨6, [3]⟩, .contains 3, .length] =
        some ([.num 2, .err .noMem, .done, .bool true, .num 3], [1, 2, 1], 16) ∧
    trial 3 (some ⟨5, [1, 2, 1]⟩) [] [.remove 2, .contains 2] = some ([.done, .bool true], [1, 2, 1], 16) ∧
    trial 15 (some ⟨5, [1, 2, 1]⟩) [⟨6, [3]⟩] [.length, .add ⟨6, [3]⟩] =
        some ([.num 2, .err .noMem], [1, 2, 3], 16) ∧
    trial 2 (some ⟨5, [1, 2, 1]⟩) [] [] = none := by decide +kernel

end Dom.Oom.Tok
