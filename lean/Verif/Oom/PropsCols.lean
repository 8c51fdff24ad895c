import Verif.Oom.Cols
import Verif.Oom.PropsLists
set_option linter.unusedSimpArgs false
set_option linter.unusedVariables false
/-!
# C104: HTML collections when memory may run out
-/
namespace Dom.Oom.Cols

open Dom.Oom
open Dom.Oom.Lists (malloc_fresh)

variable {r : Nat → Nat} {m : Mem} {doc : Nat}

/-! ## Specification -/

/-- **Specification.**  What a collection holds: its block, its document and its root. -/
def held (doc : Nat) (c : Col) : List Nat := [c.block, doc, c.root]

/-- A client: the collections that exist, and the references to collections that the client has. -/
structure Client where
  cols : List Col
  own : List Nat

/-- What a client does: it asks an element for a collection, asks the document for one, takes another reference, gives one back, or asks for a length.  A reference that it does not have it cannot use. -/
inductive Op
  | make (root : Nat) (applets : Bool)
  | whole (applets : Bool)
  | again (b : Nat)
  | drop (b : Nat)
  | length (b : Nat)

/-- The client with a new collection, or without. -/
def keep (c : Client) : Except Exc Col → Option Exc × Client
  | .ok x => (none, { cols := x :: c.cols, own := x.block :: c.own })
  | .error e => (some e, c)

/-- One operation, on a document with the document element `de`. -/
def step (p : Page) (doc de : Nat) (c : Client) : Op → M (Option Exc × Client)
  | .make root ap => do
    let x ← colCreate doc root ap
    pure (keep c x)
  | .whole ap => do
    let x ← docCol doc (some de) ap
    pure (keep c x)
  | .again b => if b ∈ c.own then do
      let cs ← refCol b c.cols
      pure (none, { cols := cs, own := b :: c.own })
    else pure (none, c)
  | .drop b => if b ∈ c.own then do
      let cs ← unrefCol doc b c.cols
      pure (none, { cols := cs, own := c.own.erase b })
    else pure (none, c)
  | .length b => match c.cols.find? (fun x => x.block = b) with
    | none => pure (none, c)
    | some x => do
      let _ ← colLength p doc x
      pure (none, c)

/-- A history. -/
def run (p : Page) (doc de : Nat) : List Op → Client → M Client
  | [], c => pure c
  | o :: os, c => do
    let x ← step p doc de c o
    run p doc de os x.2

/-- **Specification.**  The document, its element and the nodes of the tree are alive. -/
structure Alive (r : Nat → Nat) (p : Page) (doc de : Nat) : Prop where
  doc : 0 < r doc
  de : 0 < r de
  nodes : ∀ root x, x ∈ p.below root → 0 < r x

/-- **Specification.**  The roots of a history are alive. -/
def Fair (r : Nat → Nat) (os : List Op) : Prop := ∀ root ap, Op.make root ap ∈ os → 0 < r root

/-- **Specification.**  The accounts are right: compared with the counts `r`, exactly what the collections hold is held; every collection is somewhere else in memory; the count of a collection is the number of
references that the client has, at least one; and what the client has references to is a collection. -/
structure Good (r : Nat → Nat) (doc : Nat) (c : Client) (m : Mem) : Prop where
  holds : Holds r (c.cols.flatMap (held doc)) m
  apart : (c.cols.map Col.block).Nodup
  count : ∀ l ∈ c.cols, l.refcnt = c.own.count l.block ∧ l.refcnt ≠ 0
  own : ∀ b ∈ c.own, ∃ l ∈ c.cols, l.block = b

/-- **Specification.**  The OBJECT elements among these nodes. -/
def objects (p : Page) (xs : List Nat) : List Nat := xs.filter fun x => p.isObject x

/-- **Specification.**  An OBJECT with an APPLET at or below it. -/
def HasApplet (p : Page) (x : Nat) : Prop := ∃ y ∈ p.below x, p.isApplet y = true

/-- **Specification.**  How many OBJECT elements with an APPLET there are. -/
noncomputable def rightLength (p : Page) (xs : List Nat) : Nat := by
  classical exact ((objects p xs).filter fun x => HasApplet p x).length

/-! ## Parts -/

theorem held_count (b : Nat) (f : Nat → Nat) (ls : List Col) : (setCount b f ls).flatMap (held doc) = ls.flatMap (held doc) := by
  unfold setCount
  rw [List.flatMap_map]
  congr 1
  funext l
  by_cases h : l.block = b
  · rw [if_pos h]; rfl
  · rw [if_neg h]

theorem block_count (b : Nat) (f : Nat → Nat) (ls : List Col) : (setCount b f ls).map Col.block = ls.map Col.block := by
  unfold setCount
  rw [List.map_map]
  congr 1
  funext l
  show (if l.block = b then _ else l).block = l.block
  by_cases h : l.block = b
  · rw [if_pos h]
  · rw [if_neg h]

theorem mem_setCount {b : Nat} {f : Nat → Nat} {ls : List Col} {l : Col} (h : l ∈ setCount b f ls) :
    ∃ k ∈ ls, l = if k.block = b then { k with refcnt := f k.refcnt } else k := by
  unfold setCount at h
  obtain ⟨k, hk, rfl⟩ := List.mem_map.1 h
  exact ⟨k, hk, rfl⟩

theorem takeOut_some {b : Nat} : ∀ {ls : List Col} {l : Col} {rest : List Col}, takeOut b ls = some (l, rest) → ls.Perm (l :: rest) ∧ l.block = b
  | [], _, _, h => nomatch h
  | k :: ls, l, rest, h => by
    unfold takeOut at h
    by_cases hb : k.block = b
    · rw [if_pos hb] at h
      cases h
      exact ⟨.refl _, hb⟩
    · rw [if_neg hb] at h
      cases ht : takeOut b ls with
      | none => rw [ht] at h; cases h
      | some x =>
        rw [ht] at h
        cases h
        obtain ⟨h1, h2⟩ := takeOut_some (l := x.1) (rest := x.2) ht
        exact ⟨(h1.cons k).trans (.swap _ _ _), h2⟩

theorem takeOut_none {b : Nat} : ∀ {ls : List Col}, takeOut b ls = none → ∀ l ∈ ls, l.block ≠ b
  | [], _, _, h => nomatch h
  | k :: ls, h, l, hl => by
    unfold takeOut at h
    by_cases hb : k.block = b
    · rw [if_pos hb] at h; cases h
    · rw [if_neg hb] at h
      rcases List.mem_cons.1 hl with rfl | hl
      · exact hb
      · refine takeOut_none ?_ l hl
        cases ht : takeOut b ls with
        | none => rfl
        | some x => rw [ht] at h; cases h

theorem frees_col (l : Col) : Frees (colDestroy doc l) (held doc l) := by
  have := (Frees.one doc).seq ((Frees.one l.root).seq (Frees.one l.block))
  refine this.perm ?_
  rw [List.perm_iff_count]
  intro x
  simp only [held, List.count_append, List.count_cons, List.count_nil]
  omega

/-- One more reference. -/
theorem Good.more {c : Client} (h : Good r doc c m) {b : Nat} (hb : ∃ l ∈ c.cols, l.block = b) : Good r doc { cols := setCount b (· + 1) c.cols, own := b :: c.own } m := by
  refine ⟨by rw [held_count]; exact h.holds, by rw [block_count]; exact h.apart, ?_, ?_⟩
  · intro l hl
    obtain ⟨k, hk, rfl⟩ := mem_setCount hl
    obtain ⟨h1, h2⟩ := h.count k hk
    by_cases e : k.block = b
    · rw [if_pos e]
      dsimp only
      rw [e, List.count_cons_self, h1, e]
      exact ⟨rfl, by omega⟩
    · rw [if_neg e, List.count_cons_of_ne (Ne.symm e)]
      exact ⟨h1, h2⟩
  · intro x hx
    have hex : ∃ l ∈ c.cols, l.block = x := by
      rcases List.mem_cons.1 hx with rfl | hx
      · exact hb
      · exact h.own x hx
    obtain ⟨l, hl, e⟩ := hex
    have : x ∈ (setCount b (· + 1) c.cols).map Col.block := by
      rw [block_count, ← e]; exact List.mem_map_of_mem hl
    exact (List.mem_map.1 this).imp fun k hk => hk

theorem drop_good {c : Client} {b : Nat} (hb : b ∈ c.own) (h : Good r doc c m) :
    after (unrefCol doc b c.cols) m (fun ls m' => m'.room = m.room ∧ m'.time = m.time ∧ Good r doc { cols := ls, own := c.own.erase b } m') := by
  unfold unrefCol
  cases ht : takeOut b c.cols with
  | none =>
    obtain ⟨l, hl, e⟩ := h.own b hb
    exact absurd e (takeOut_none ht l hl)
  | some x =>
    obtain ⟨l, rest⟩ := x
    obtain ⟨hp, hlb⟩ := takeOut_some ht
    have hl : l ∈ c.cols := hp.mem_iff.2 (by simp)
    have hc := h.count l hl
    have hcnt : ∀ y, (c.own.erase b).count y = c.own.count y - if y = b then 1 else 0 := by
      intro y
      rw [List.count_erase]
      by_cases e : y = b
      · subst e; simp
      · rw [if_neg e, if_neg (by simpa using fun h => e h.symm)]
    dsimp only
    rw [after_ite]
    split
    · rename_i h1
      rw [after_bind]
      have hh : Holds r (held doc l ++ rest.flatMap (held doc)) m := by
        refine h.holds.perm ?_
        have := hp.flatMap_right (held doc)
        rwa [List.flatMap_cons] at this
      refine after_mono (frees_col l r _ m hh) ?_
      rintro _ m' ⟨h2, hr, ht'⟩
      have hnd : (l.block :: rest.map Col.block).Nodup := by
        have := (hp.map Col.block).nodup_iff.1 h.apart
        simpa using this
      refine ⟨hr, ht', ⟨h2, (List.nodup_cons.1 hnd).2, ?_, ?_⟩⟩
      · intro k hk
        have hne : k.block ≠ b := fun e => (List.nodup_cons.1 hnd).1 (hlb ▸ e ▸ List.mem_map_of_mem hk)
        show _ = (c.own.erase b).count k.block ∧ _
        rw [hcnt, if_neg hne]
        exact h.count k (hp.mem_iff.2 (by simp [hk]))
      · intro y hy
        have hy' : y ∈ c.own := List.mem_of_mem_erase hy
        have hyb : y ≠ b := by
          intro e
          have h3 : 0 < (c.own.erase b).count y := List.count_pos_iff.2 hy
          have h4 := hcnt y
          rw [if_pos e] at h4
          rw [e] at h3 h4
          rw [hlb] at hc
          omega
        obtain ⟨k, hk, e⟩ := h.own y hy'
        rcases List.mem_cons.1 (hp.mem_iff.1 hk) with rfl | hk
        · exact absurd (e.symm.trans hlb) hyb
        · exact ⟨k, hk, e⟩
    · rename_i h1
      refine ⟨rfl, rfl, ⟨by rw [held_count]; exact h.holds, by rw [block_count]; exact h.apart, ?_, ?_⟩⟩
      · intro j hj
        obtain ⟨k, hk, rfl⟩ := mem_setCount (b := b) (f := (· - 1)) (ls := c.cols) hj
        obtain ⟨h3, h4⟩ := h.count k hk
        by_cases e : k.block = b
        · rw [if_pos e]
          dsimp only
          rw [hcnt, if_pos e, e, h3, e]
          rw [hlb] at hc
          exact ⟨rfl, by omega⟩
        · rw [if_neg e]
          dsimp only
          rw [hcnt, if_neg e]
          exact ⟨h3, h4⟩
      · intro y hy
        obtain ⟨k, hk, e⟩ := h.own y (List.mem_of_mem_erase hy)
        have : y ∈ (setCount b (· - 1) c.cols).map Col.block := by
          rw [block_count, ← e]; exact List.mem_map_of_mem hk
        exact (List.mem_map.1 this).imp fun k hk => hk

/-- A new collection: complete, at a new address, or nothing. -/
theorem colCreate_spec {root : Nat} {ap : Bool} {l : List Nat} (hd : 0 < r doc) (hr : 0 < r root) (h : Holds r l m) :
    after (colCreate doc root ap) m (fun o m' => m'.room = m.room ∧ m'.time = m.time + 1 ∧
      ((o = .error .noMem ∧ ¬ Granted m.room m.time 1 ∧ Holds r l m') ∨
       (∃ c, o = .ok c ∧ Granted m.room m.time 1 ∧ c.root = root ∧ c.applets = ap ∧ c.refcnt = 1 ∧ c.block ∉ l ∧ Holds r (held doc c ++ l) m'))) := by
  unfold colCreate
  rw [after_bind]
  refine after_mono (after_and (malloc_spec h) (malloc_fresh h)) ?_
  rintro o m1 ⟨⟨hr1, ht1, ⟨rfl, h1, hg⟩ | ⟨b, rfl, h1, hg⟩⟩, hfr⟩
  · exact ⟨hr1, ht1, Or.inl ⟨rfl, hg, h1⟩⟩
  · dsimp only
    rw [after_bind]
    refine after_mono (ref_live h1 (by omega)) ?_
    rintro _ m2 ⟨h2, hr2, ht2⟩
    rw [after_bind]
    refine after_mono (ref_live h2 (by omega)) ?_
    rintro _ m3 ⟨h3, hr3, ht3⟩
    refine ⟨by rw [hr3, hr2, hr1], by rw [ht3, ht2, ht1], Or.inr ⟨_, rfl, hg, rfl, rfl, rfl, hfr b rfl, h3.perm ?_⟩⟩
    rw [List.perm_iff_count]
    intro x
    simp only [held, List.count_append, List.count_cons, List.count_nil]
    omega

theorem docCol_spec {de : Nat} {ap : Bool} {l : List Nat} (hd : 0 < r doc) (hr : 0 < r de) (h : Holds r l m) :
    after (docCol doc (some de) ap) m (fun o m' => m'.room = m.room ∧ m'.time = m.time + 1 ∧
      ((o = .error .noMem ∧ ¬ Granted m.room m.time 1 ∧ Holds r l m') ∨
       (∃ c, o = .ok c ∧ Granted m.room m.time 1 ∧ c.root = de ∧ c.applets = ap ∧ c.refcnt = 1 ∧ c.block ∉ l ∧ Holds r (held doc c ++ l) m'))) := by
  unfold docCol
  dsimp only
  rw [after_bind]
  refine after_mono (ref_live h (by omega)) ?_
  rintro _ m1 ⟨h1, hr1, ht1⟩
  rw [after_bind]
  refine after_mono (colCreate_spec hd hr h1) ?_
  rintro o m2 ⟨hr2, ht2, ⟨rfl, hg, h2⟩ | ⟨c, rfl, hg, t1, t2, t3, hf, h2⟩⟩
  · rw [after_bind]
    refine after_mono (unref_spec h2) ?_
    rintro _ m3 ⟨h3, hr3, ht3⟩
    rw [hr1, ht1] at hg
    exact ⟨by rw [hr3, hr2, hr1], by omega, Or.inl ⟨rfl, hg, h3⟩⟩
  · rw [after_bind]
    have h2' : Holds r (de :: (held doc c ++ l)) m2 := h2.perm List.perm_middle
    refine after_mono (unref_spec h2') ?_
    rintro _ m3 ⟨h3, hr3, ht3⟩
    rw [hr1, ht1] at hg
    exact ⟨by rw [hr3, hr2, hr1], by omega, Or.inr ⟨c, rfl, hg, t1, t2, t3, fun hx => hf (by simp [hx]), h3⟩⟩

/-- How many nodes pass the test, if `room` grants the requests from `t` on. -/
def seen (p : Page) (room : Nat → Bool) : Nat → List Nat → Nat
  | _, [] => 0
  | t, x :: xs => if p.isObject x then (if room t && ((p.below x).countP p.isApplet != 0) then 1 else 0) + seen p room (t + 1) xs else seen p room t xs

theorem one_granted {room : Nat → Bool} {t : Nat} : Granted room t 1 ↔ room t = true := granted_one

theorem appletsTest_spec {p : Page} {x : Nat} {l : List Nat} (hd : 0 < r doc) (hx : 0 < r x) (h : Holds r l m) :
    after (appletsTest p doc x) m (fun b m' => m'.room = m.room ∧ Holds r l m' ∧ m'.time = m.time + (if p.isObject x then 1 else 0) ∧
      b = (p.isObject x && (m.room m.time && ((p.below x).countP p.isApplet != 0)))) := by
  unfold appletsTest
  cases ho : p.isObject x with
  | false => exact ⟨rfl, h, rfl, rfl⟩
  | true =>
    rw [if_pos rfl, after_bind]
    refine after_mono (colCreate_spec hd hx h) ?_
    rintro o m1 ⟨hr1, ht1, ⟨rfl, hg, h1⟩ | ⟨c, rfl, hg, -, -, -, -, h1⟩⟩
    · refine ⟨hr1, h1, ht1, ?_⟩
      rw [one_granted, Bool.not_eq_true] at hg
      rw [hg]; rfl
    · dsimp only
      rw [after_bind]
      refine after_mono (frees_col c r _ m1 h1) ?_
      rintro _ m2 ⟨h2, hr2, ht2⟩
      refine ⟨hr2.trans hr1, h2, ht2.trans ht1, ?_⟩
      rw [one_granted.1 hg]; rfl

theorem countLoop_applets {p : Page} {l : List Nat} (hd : 0 < r doc) : ∀ (xs : List Nat) (n : Nat) (m : Mem), (∀ x ∈ xs, 0 < r x) → Holds r l m →
    after (countLoop p doc true xs n) m (fun k m' => m'.room = m.room ∧ Holds r l m' ∧ m'.time = m.time + (objects p xs).length ∧ k = n + seen p m.room m.time xs)
  | [], n, m, _, h => ⟨rfl, h, rfl, rfl⟩
  | x :: xs, n, m, hx, h => by
    unfold countLoop
    rw [after_bind]
    show after (appletsTest p doc x) m _
    refine after_mono (appletsTest_spec hd (hx x (by simp)) h) ?_
    rintro b m1 ⟨hr1, h1, ht1, rfl⟩
    refine after_mono (countLoop_applets hd xs _ m1 (fun y hy => hx y (by simp [hy])) h1) ?_
    rintro k m2 ⟨hr2, h2, ht2, rfl⟩
    refine ⟨hr2.trans hr1, h2, ?_, ?_⟩
    · rw [ht2, ht1]
      unfold objects
      cases ho : p.isObject x <;> simp [ho]
      omega
    · rw [hr1, ht1]
      show _ = n + (if p.isObject x then (if m.room m.time && ((p.below x).countP p.isApplet != 0) then 1 else 0) + seen p m.room (m.time + 1) xs else seen p m.room m.time xs)
      cases p.isObject x with
      | false => simp only [Bool.false_and, Bool.false_eq_true, if_false, Nat.add_zero]
      | true =>
        simp only [if_true, Bool.true_and]
        cases (m.room m.time && ((p.below x).countP p.isApplet != 0)) with
        | true => simp only [if_true]; omega
        | false => simp only [Bool.false_eq_true, if_false]; omega

theorem countLoop_plain {p : Page} : ∀ (xs : List Nat) (n : Nat) (m : Mem), countLoop p doc false xs n m = .ok (n + xs.countP p.plain) m
  | [], n, m => rfl
  | x :: xs, n, m => by
    unfold countLoop
    rw [bind_ok (show test p doc false x m = .ok (p.plain x) m from rfl), countLoop_plain xs _ m, List.countP_cons]
    cases p.plain x <;> simp
    omega

theorem hasApplet_iff {p : Page} {x : Nat} : ((p.below x).countP p.isApplet != 0) = true ↔ HasApplet p x := by
  rw [bne_iff_ne, ← Nat.pos_iff_ne_zero, List.countP_pos_iff]
  rfl

theorem rightLength_cons {p : Page} (x : Nat) (xs : List Nat) :
    rightLength p (x :: xs) = (if p.isObject x then (if ((p.below x).countP p.isApplet != 0) = true then 1 else 0) else 0) + rightLength p xs := by
  classical
  unfold rightLength objects
  cases ho : p.isObject x with
  | false => simp [ho]
  | true =>
    by_cases ha : HasApplet p x
    · simp [ho, ha, hasApplet_iff.2 ha]
      have := hasApplet_iff.2 ha
      simp at this
      omega
    · have h2 : ¬ ((p.below x).countP p.isApplet != 0) = true := fun h => ha (hasApplet_iff.1 h)
      rw [if_pos rfl, if_neg h2, List.filter_cons_of_pos (by simpa using ho), List.filter_cons_of_neg (by simpa using ha)]
      omega

/-- The requests for the OBJECT elements with an APPLET are granted. -/
def AllSeen (p : Page) (room : Nat → Bool) (t : Nat) (xs : List Nat) : Prop := ∀ i x, (objects p xs)[i]? = some x → HasApplet p x → room (t + i) = true

theorem allSeen_object {p : Page} {room : Nat → Bool} {t x : Nat} {xs : List Nat} (ho : p.isObject x = true) :
    AllSeen p room t (x :: xs) ↔ (HasApplet p x → room t = true) ∧ AllSeen p room (t + 1) xs := by
  unfold AllSeen
  have e : objects p (x :: xs) = x :: objects p xs := by unfold objects; rw [List.filter_cons_of_pos (by simpa using ho)]
  rw [e]
  constructor
  · intro h
    refine ⟨fun ha => h 0 x rfl ha, fun i y hy ha => ?_⟩
    have := h (i + 1) y (by simpa using hy) ha
    rwa [show t + 1 + i = t + (i + 1) by omega]
  · rintro ⟨h1, h2⟩ i y hy ha
    cases i with
    | zero =>
      have e : x = y := by simpa using hy
      subst e
      exact h1 ha
    | succ i =>
      have := h2 i y (by simpa using hy) ha
      rwa [show t + (i + 1) = t + 1 + i by omega]

theorem seen_right {p : Page} {room : Nat → Bool} : ∀ (xs : List Nat) (t : Nat), seen p room t xs ≤ rightLength p xs ∧ (seen p room t xs = rightLength p xs ↔ AllSeen p room t xs)
  | [], t => by
    classical
    refine ⟨Nat.zero_le _, ⟨fun _ i x h => ?_, fun _ => ?_⟩⟩
    · simp [objects] at h
    · simp [seen, rightLength, objects]
  | x :: xs, t => by
    rw [rightLength_cons]
    unfold seen
    cases ho : p.isObject x with
    | false =>
      have e : AllSeen p room t (x :: xs) ↔ AllSeen p room t xs := by unfold AllSeen objects; rw [List.filter_cons_of_neg (by simp [ho])]
      rw [e]
      simpa using seen_right xs t
    | true =>
      obtain ⟨h1, h2⟩ := seen_right (p := p) (room := room) xs (t + 1)
      rw [allSeen_object ho, ← h2, if_pos rfl, if_pos rfl, ← hasApplet_iff]
      cases ha : ((p.below x).countP p.isApplet != 0) with
      | false => simp; exact h1
      | true =>
        cases room t with
        | true => simp; exact h1
        | false => simp; omega

/-- The nodes that pass the test of `applets`, if `room` grants the requests from `t` on. -/
def shown (p : Page) (room : Nat → Bool) : Nat → List Nat → List Nat
  | _, [] => []
  | t, x :: xs => if p.isObject x then (if room t && ((p.below x).countP p.isApplet != 0) then x :: shown p room (t + 1) xs else shown p room (t + 1) xs) else shown p room t xs

theorem itemLoop_applets {p : Page} {l : List Nat} (i : Nat) (hd : 0 < r doc) : ∀ (xs : List Nat) (n : Nat) (m : Mem), n ≤ i → (∀ x ∈ xs, 0 < r x) → Holds r l m →
    after (itemLoop p doc true i xs n) m (fun o m' => Holds r (o.toList ++ l) m' ∧ o = (shown p m.room m.time xs)[i - n]?)
  | [], n, m, _, _, h => ⟨h, rfl⟩
  | x :: xs, n, m, hn, hx, h => by
    unfold itemLoop
    rw [after_bind]
    show after (appletsTest p doc x) m _
    refine after_mono (appletsTest_spec hd (hx x (by simp)) h) ?_
    rintro b m1 ⟨hr1, h1, ht1, hb⟩
    have hs : shown p m.room m.time (x :: xs) = (if b then [x] else []) ++ shown p m1.room m1.time xs := by
      rw [hr1, ht1, hb]
      show (if p.isObject x then _ else _) = _
      cases p.isObject x with
      | false => rfl
      | true =>
        simp only [if_true, Bool.true_and]
        cases (m.room m.time && ((p.below x).countP p.isApplet != 0)) <;> rfl
    rw [hs]
    have hxs : ∀ y ∈ xs, 0 < r y := fun y hy => hx y (by simp [hy])
    cases b with
    | false =>
      rw [if_neg (by simp; omega)]
      simpa using itemLoop_applets i hd xs n m1 hn hxs h1
    | true =>
      simp only [if_true]
      by_cases e : n = i
      · rw [if_pos (by omega), after_bind]
        refine after_mono (ref_live h1 (by have := hx x (by simp); omega)) ?_
        rintro _ m2 ⟨h2, _, _⟩
        exact ⟨h2, by simp [e]⟩
      · rw [if_neg (by omega)]
        have := itemLoop_applets (p := p) i hd xs (n + 1) m1 (by omega) hxs h1
        refine after_mono this ?_
        rintro o m2 ⟨h2, ho⟩
        refine ⟨h2, ?_⟩
        rw [ho, show i - n = (i - (n + 1)) + 1 by omega]
        rfl

theorem itemLoop_plain {p : Page} {l : List Nat} (i : Nat) : ∀ (xs : List Nat) (n : Nat), n ≤ i → (∀ x ∈ xs, 0 < r x) → Holds r l m →
    after (itemLoop p doc false i xs n) m (fun o m' => Holds r (o.toList ++ l) m' ∧ o = (xs.filter p.plain)[i - n]?)
  | [], n, _, _, h => ⟨h, rfl⟩
  | x :: xs, n, hn, hx, h => by
    unfold itemLoop
    rw [after_bind]
    show after (pure (p.plain x)) m _
    have hxs : ∀ y ∈ xs, 0 < r y := fun y hy => hx y (by simp [hy])
    show after (if (if p.plain x then n + 1 else n) = i + 1 then _ else _) m _
    cases hb : p.plain x with
    | false =>
      rw [if_neg (by simp; omega), List.filter_cons_of_neg (by simp [hb])]
      simpa using itemLoop_plain i xs n hn hxs h
    | true =>
      rw [List.filter_cons_of_pos hb]
      simp only [if_true]
      by_cases e : n = i
      · rw [if_pos (by omega), after_bind]
        refine after_mono (ref_live h (by have := hx x (by simp); omega)) ?_
        rintro _ m2 ⟨h2, _, _⟩
        exact ⟨h2, by simp [e]⟩
      · rw [if_neg (by omega)]
        have := itemLoop_plain (p := p) i xs (n + 1) (by omega) hxs h
        refine after_mono this ?_
        rintro o m2 ⟨h2, ho⟩
        refine ⟨h2, ?_⟩
        rw [ho, show i - n = (i - (n + 1)) + 1 by omega]
        rfl

theorem shown_all {p : Page} {room : Nat → Bool} : ∀ (xs : List Nat) (t : Nat), AllSeen p room t xs → ∀ q : Nat → Bool, (∀ x, q x = true ↔ HasApplet p x) → shown p room t xs = (objects p xs).filter q
  | [], _, _, _, _ => rfl
  | x :: xs, t, h, q, hq => by
    show (if p.isObject x then _ else _) = _
    cases ho : p.isObject x with
    | false =>
      have e : objects p (x :: xs) = objects p xs := by unfold objects; rw [List.filter_cons_of_neg (by simp [ho])]
      have h' : AllSeen p room t xs := by unfold AllSeen at h ⊢; rwa [e] at h
      rw [e]
      simpa using shown_all xs t h' q hq
    | true =>
      have e : objects p (x :: xs) = x :: objects p xs := by unfold objects; rw [List.filter_cons_of_pos (by simpa using ho)]
      obtain ⟨h1, h2⟩ := (allSeen_object ho).1 h
      rw [e, if_pos rfl, shown_all xs (t + 1) h2 q hq]
      by_cases ha : HasApplet p x
      · rw [List.filter_cons_of_pos ((hq x).2 ha), h1 ha, hasApplet_iff.2 ha]
        rfl
      · have hn : ((p.below x).countP p.isApplet != 0) = false := by
          rw [← Bool.not_eq_true]; exact fun h => ha (hasApplet_iff.1 h)
        rw [List.filter_cons_of_neg (fun h => ha ((hq x).1 h)), hn, Bool.and_false]
        rfl

theorem mem_shown {p : Page} {room : Nat → Bool} {x : Nat} : ∀ (xs : List Nat) (t : Nat), x ∈ shown p room t xs → ∃ i, (objects p xs)[i]? = some x ∧ room (t + i) = true
  | [], _, h => nomatch h
  | y :: xs, t, h => by
    have h : x ∈ (if p.isObject y then (if room t && ((p.below y).countP p.isApplet != 0) then y :: shown p room (t + 1) xs else shown p room (t + 1) xs) else shown p room t xs) := h
    cases ho : p.isObject y with
    | false =>
      rw [ho] at h
      have e : objects p (y :: xs) = objects p xs := by unfold objects; rw [List.filter_cons_of_neg (by simp [ho])]
      rw [e]
      exact mem_shown xs t (by simpa using h)
    | true =>
      have e : objects p (y :: xs) = y :: objects p xs := by unfold objects; rw [List.filter_cons_of_pos (by simpa using ho)]
      rw [ho, if_pos rfl] at h
      rw [e]
      have later : x ∈ shown p room (t + 1) xs → ∃ i, (y :: objects p xs)[i]? = some x ∧ room (t + i) = true := fun h => by
        obtain ⟨i, h1, h2⟩ := mem_shown xs (t + 1) h
        exact ⟨i + 1, by simpa using h1, by rwa [show t + (i + 1) = t + 1 + i by omega]⟩
      cases hr : room t && ((p.below y).countP p.isApplet != 0) with
      | false => rw [hr] at h; exact later (by simpa using h)
      | true =>
        rw [hr, if_pos rfl] at h
        rcases List.mem_cons.1 h with rfl | h
        · exact ⟨0, rfl, (Bool.and_eq_true _ _ ▸ hr).1⟩
        · exact later h

theorem length_spec {p : Page} {de : Nat} {l : List Nat} (ha : Alive r p doc de) (c : Col) (h : Holds r l m) :
    after (colLength p doc c) m (fun _ m' => Holds r l m') := by
  unfold colLength
  cases hc : c.applets with
  | true => exact after_mono (countLoop_applets ha.doc _ 0 m (ha.nodes c.root) h) fun _ _ h => h.2.1
  | false =>
    unfold after
    rw [countLoop_plain]
    exact h

theorem Good.add {c : Client} {x : Col} {m' : Mem} (h : Good r doc c m) (h1 : x.refcnt = 1) (h2 : x.block ∉ c.cols.flatMap (held doc)) (h3 : Holds r (held doc x ++ c.cols.flatMap (held doc)) m') :
    Good r doc { cols := x :: c.cols, own := x.block :: c.own } m' := by
  have hb : x.block ∉ c.cols.map Col.block := fun hb => by
    obtain ⟨k, hk, e⟩ := List.mem_map.1 hb
    exact h2 (List.mem_flatMap.2 ⟨k, hk, by rw [← e]; simp [held]⟩)
  refine ⟨by rw [List.flatMap_cons]; exact h3, List.nodup_cons.2 ⟨hb, h.apart⟩, ?_, ?_⟩
  · have h0 : c.own.count x.block = 0 := List.count_eq_zero.2 fun hx => by
      obtain ⟨k, hk, e⟩ := h.own _ hx
      exact hb (e ▸ List.mem_map_of_mem hk)
    intro k hk
    rcases List.mem_cons.1 hk with rfl | hk
    · refine ⟨?_, by omega⟩
      show _ = (k.block :: c.own).count k.block
      rw [List.count_cons_self, h0, h1]
    · have hne : k.block ≠ x.block := fun e => hb (e ▸ List.mem_map_of_mem hk)
      show _ = (x.block :: c.own).count k.block ∧ _
      rw [List.count_cons_of_ne (Ne.symm hne)]
      exact h.count k hk
  · intro y hy
    rcases List.mem_cons.1 hy with rfl | hy
    · exact ⟨x, by simp, rfl⟩
    · obtain ⟨k, hk, e⟩ := h.own y hy
      exact ⟨k, by simp [hk], e⟩

/-- **Specification.**  What asking for a collection does: the accounts are right afterwards; NO_MEM_ERR exactly if the request is refused, and then nothing has changed; otherwise the client has a reference to a
new collection below the root that was asked for. -/
def Made (r : Nat → Nat) (doc root : Nat) (ap : Bool) (c : Client) (m : Mem) (x : Option Exc × Client) (m' : Mem) : Prop :=
  Good r doc x.2 m' ∧ m'.time = m.time + 1 ∧ (x.1 = some .noMem ↔ ¬ Granted m.room m.time 1) ∧
    ((x.1 = some .noMem ∧ x.2 = c ∧ m'.refs = m.refs) ∨
     (x.1 = none ∧ ∃ l, x.2 = { cols := l :: c.cols, own := l.block :: c.own } ∧ l.root = root ∧ l.applets = ap))

theorem made {root : Nat} {ap : Bool} {c : Client} {f : M (Except Exc Col)} (h : Good r doc c m)
    (hf : after f m (fun o m' => m'.room = m.room ∧ m'.time = m.time + 1 ∧
      ((o = .error .noMem ∧ ¬ Granted m.room m.time 1 ∧ Holds r (c.cols.flatMap (held doc)) m') ∨
       (∃ k, o = .ok k ∧ Granted m.room m.time 1 ∧ k.root = root ∧ k.applets = ap ∧ k.refcnt = 1 ∧ k.block ∉ c.cols.flatMap (held doc) ∧ Holds r (held doc k ++ c.cols.flatMap (held doc)) m')))) :
    after (f >>= fun x => pure (keep c x)) m (Made r doc root ap c m) := by
  rw [after_bind]
  refine after_mono hf ?_
  rintro o m1 ⟨hr1, ht1, ⟨rfl, hg, h1⟩ | ⟨k, rfl, hg, t1, t2, t3, hfr, h1⟩⟩
  · refine ⟨⟨h1, h.apart, h.count, h.own⟩, ht1, ⟨fun _ => hg, fun _ => rfl⟩, Or.inl ⟨rfl, rfl, ?_⟩⟩
    funext a
    rw [h1.refs, h.holds.refs]
  · exact ⟨h.add t3 hfr h1, ht1, ⟨fun h => (nomatch h), fun h => absurd hg h⟩, Or.inr ⟨rfl, k, rfl, t1, t2⟩⟩

theorem step_good {p : Page} {de : Nat} {c : Client} {o : Op} (ha : Alive r p doc de) (ho : ∀ root ap, o = .make root ap → 0 < r root) (h : Good r doc c m) :
    after (step p doc de c o) m (fun x m' => Good r doc x.2 m') := by
  cases o with
  | make root ap => exact after_mono (made h (colCreate_spec ha.doc (ho root ap rfl) h.holds)) fun _ _ h => h.1
  | whole ap => exact after_mono (made h (docCol_spec ha.doc ha.de h.holds)) fun _ _ h => h.1
  | again b =>
    unfold step
    rw [after_ite]
    split
    · rename_i hb
      rw [after_bind]
      obtain ⟨l, hl, e⟩ := h.own b hb
      unfold refCol
      cases hf : c.cols.find? (fun l => l.block = b) with
      | none => exact absurd e (by simpa using List.find?_eq_none.1 hf l hl)
      | some k => exact h.more ⟨l, hl, e⟩
    · exact h
  | drop b =>
    unfold step
    rw [after_ite]
    split
    · rename_i hb
      rw [after_bind]
      refine after_mono (drop_good hb h) ?_
      rintro ls m' ⟨_, _, h1⟩
      exact h1
    · exact h
  | length b =>
    unfold step
    dsimp only
    cases hf : c.cols.find? (fun x => x.block = b) with
    | none => exact h
    | some x =>
      dsimp only
      rw [after_bind]
      exact after_mono (length_spec ha x h.holds) fun _ _ h1 => ⟨h1, h.apart, h.count, h.own⟩

theorem run_good {p : Page} {de : Nat} (ha : Alive r p doc de) : ∀ (os : List Op) (c : Client) (m : Mem), Fair r os → Good r doc c m → after (run p doc de os c) m (fun c' m' => Good r doc c' m')
  | [], c, m, _, h => h
  | o :: os, c, m, hf, h => by
    unfold run
    rw [after_bind]
    refine after_mono (step_good ha (fun root ap e => hf root ap (by simp [e])) h) ?_
    intro x m' h1
    exact run_good ha os x.2 m' (fun root ap hq => hf root ap (by simp [hq])) h1

/-! ## C104 -/

/-- **C104, accounts.**  Whatever collections a client makes, shares, measures and gives back, in any order, and whatever requests are refused meanwhile: nothing is used after it was freed, and the accounts
are right (`Good`). -/
theorem C104_accounts (p : Page) (de : Nat) (os : List Op) (m : Mem) (hm : m.Valid) (ha : Alive m.refs p doc de) (hf : Fair m.refs os) :
    ∃ c m', run p doc de os { cols := [], own := [] } m = .ok c m' ∧ Good m.refs doc c m' :=
  after_elim (run_good ha os _ m hf ⟨hm.holds, List.nodup_nil, fun l hl => (nomatch hl), fun b hb => (nomatch hb)⟩)

/-- **C104, release.**  If the client has given back all references in the end, there is no collection, and every count in memory is what it was. -/
theorem C104_release (p : Page) (de : Nat) (os : List Op) (m : Mem) (hm : m.Valid) (ha : Alive m.refs p doc de) (hf : Fair m.refs os) :
    ∃ c m', run p doc de os { cols := [], own := [] } m = .ok c m' ∧ (c.own = [] → c.cols = [] ∧ m'.refs = m.refs) := by
  obtain ⟨c, m', e, h⟩ := C104_accounts p de os m hm ha hf
  refine ⟨c, m', e, fun h0 => ?_⟩
  have hl : c.cols = [] := by
    cases hl : c.cols with
    | nil => rfl
    | cons l ls =>
      have := h.count l (by rw [hl]; simp)
      rw [h0] at this
      exact absurd this.1 this.2
  refine ⟨hl, ?_⟩
  have := h.holds
  rw [hl] at this
  exact this.refs_eq

/-- **C104, new collections.**  After any history, asking an element or the document for a collection makes one request.  If it is granted, the client has a new collection with the right root; otherwise the
answer is NO_MEM_ERR and nothing has changed (`Made`). -/
theorem C104_make (p : Page) (de : Nat) (os : List Op) (m : Mem) (hm : m.Valid) (ha : Alive m.refs p doc de) (hf : Fair m.refs os) (root : Nat) (hr : 0 < m.refs root) (ap : Bool) :
    ∃ c m', run p doc de os { cols := [], own := [] } m = .ok c m' ∧
      (∃ x m'', step p doc de c (.make root ap) m' = .ok x m'' ∧ Made m.refs doc root ap c m' x m'') ∧
      (∃ x m'', step p doc de c (.whole ap) m' = .ok x m'' ∧ Made m.refs doc de ap c m' x m'') := by
  obtain ⟨c, m', e, h⟩ := C104_accounts p de os m hm ha hf
  exact ⟨c, m', e, after_elim (made h (colCreate_spec ha.doc hr h.holds)), after_elim (made h (docCol_spec ha.doc ha.de h.holds))⟩

/-- **C104, lengths.**  The length of a collection whose test makes no request is the number of elements that pass the test; asking changes nothing and needs no memory. -/
theorem C104_length (p : Page) (c : Col) (hc : c.applets = false) (m : Mem) : colLength p doc c m = .ok ((p.below c.root).countP p.plain) m := by
  unfold colLength
  rw [hc, countLoop_plain, Nat.zero_add]

/-- **C104, lengths of `applets`.**  The length is never more than the number of OBJECT elements with an APPLET, and is this number exactly if the requests for all of them are granted; one request is made for
each OBJECT, and every count stays.  Missing for the full claim: the length should be right, or an error be reported, also if a request is refused (`C104_applets_violated`). -/
theorem C104_applets_partial (p : Page) (de : Nat) (c : Col) (hc : c.applets = true) (m : Mem) (hm : m.Valid) (ha : Alive m.refs p doc de) :
    ∃ n m', colLength p doc c m = .ok n m' ∧ m'.refs = m.refs ∧ m'.time = m.time + (objects p (p.below c.root)).length ∧ n ≤ rightLength p (p.below c.root) ∧
      (n = rightLength p (p.below c.root) ↔ ∀ i x, (objects p (p.below c.root))[i]? = some x → HasApplet p x → m.room (m.time + i) = true) := by
  obtain ⟨n, m', e, -, h, ht, rfl⟩ := after_elim (countLoop_applets (p := p) ha.doc (p.below c.root) 0 m (ha.nodes c.root) hm.holds)
  refine ⟨_, m', by unfold colLength; rw [hc]; exact e, h.refs_eq, ht, ?_⟩
  rw [Nat.zero_add]
  exact seen_right (p.below c.root) m.time

/-- **C104, disagreement.**  Whenever the request for an OBJECT with an APPLET is refused, the length of `applets` is too small, and no error is reported: the function has no way to report one. -/
theorem C104_applets_violated (p : Page) (de : Nat) (c : Col) (hc : c.applets = true) (m : Mem) (hm : m.Valid) (ha : Alive m.refs p doc de) (i x : Nat)
    (hx : (objects p (p.below c.root))[i]? = some x) (hap : HasApplet p x) (hno : m.room (m.time + i) = false) :
    ∃ n m', colLength p doc c m = .ok n m' ∧ n < rightLength p (p.below c.root) := by
  obtain ⟨n, m', e, _, _, h1, h2⟩ := C104_applets_partial p de c hc m hm ha
  refine ⟨n, m', e, Nat.lt_of_le_of_ne h1 fun h => ?_⟩
  rw [h2.1 h i x hx hap] at hno
  cases hno

/-- **C104, items.**  The item at an index of a collection whose test makes no request is the element with that index among those that pass the test, with one reference for the client; or there is none. -/
theorem C104_item (p : Page) (de : Nat) (c : Col) (hc : c.applets = false) (i : Nat) (m : Mem) (hm : m.Valid) (ha : Alive m.refs p doc de) :
    ∃ m', colItem p doc c i m = .ok ((p.below c.root).filter p.plain)[i]? m' ∧ Holds m.refs ((p.below c.root).filter p.plain)[i]?.toList m' := by
  obtain ⟨o, m', e, h, ho⟩ := after_elim (itemLoop_plain (p := p) (doc := doc) i (p.below c.root) 0 (Nat.zero_le _) (ha.nodes c.root) hm.holds)
  rw [Nat.sub_zero] at ho
  rw [List.append_nil] at h
  refine ⟨m', ?_, ho ▸ h⟩
  unfold colItem
  rw [hc, e, ho]

/-- **C104, items of `applets`.**  If the requests for the OBJECT elements with an APPLET (`q`) are granted, the item at an index is the one with that index among them, with one reference for the client.
Missing for the full claim: the item should be this one, or an error be reported, also if a request is refused (`C104_applets_item_violated`). -/
theorem C104_applets_item_partial (p : Page) (de : Nat) (c : Col) (hc : c.applets = true) (i : Nat) (m : Mem) (hm : m.Valid) (ha : Alive m.refs p doc de) (q : Nat → Bool) (hq : ∀ x, q x = true ↔ HasApplet p x)
    (hg : ∀ i x, (objects p (p.below c.root))[i]? = some x → HasApplet p x → m.room (m.time + i) = true) :
    ∃ m', colItem p doc c i m = .ok ((objects p (p.below c.root)).filter q)[i]? m' ∧ Holds m.refs ((objects p (p.below c.root)).filter q)[i]?.toList m' := by
  obtain ⟨o, m', e, h, ho⟩ := after_elim (itemLoop_applets (p := p) i ha.doc (p.below c.root) 0 m (Nat.zero_le _) (ha.nodes c.root) hm.holds)
  rw [Nat.sub_zero, shown_all _ _ hg q hq] at ho
  rw [List.append_nil] at h
  refine ⟨m', ?_, ho ▸ h⟩
  unfold colItem
  rw [hc, e, ho]

/-- **C104, disagreement.**  Whenever the request for an OBJECT is refused, no index gives this OBJECT, and no error is reported. -/
theorem C104_applets_item_violated (p : Page) (de : Nat) (c : Col) (hc : c.applets = true) (m : Mem) (hm : m.Valid) (ha : Alive m.refs p doc de) (hn : (p.below c.root).Nodup) (j x : Nat)
    (hx : (objects p (p.below c.root))[j]? = some x) (hno : m.room (m.time + j) = false) (i : Nat) :
    ∃ o m', colItem p doc c i m = .ok o m' ∧ o ≠ some x := by
  obtain ⟨o, m', e, h, ho⟩ := after_elim (itemLoop_applets (p := p) i ha.doc (p.below c.root) 0 m (Nat.zero_le _) (ha.nodes c.root) hm.holds)
  refine ⟨o, m', by unfold colItem; rw [hc]; exact e, fun hox => ?_⟩
  rw [hox] at ho
  obtain ⟨k, h1, h2⟩ := mem_shown _ _ (List.mem_of_getElem? ho.symm)
  have hnd : (objects p (p.below c.root)).Nodup := hn.filter _
  have hk : k < (objects p (p.below c.root)).length := by
    rcases Nat.lt_or_ge k (objects p (p.below c.root)).length with h | h
    · exact h
    · rw [List.getElem?_eq_none h] at h1; cases h1
  have := (List.getElem?_inj hk hnd).1 (h1.trans hx.symm)
  rw [this, hno] at h2
  cases h2

/-- **C104, disagreement.**  A document without a document element cannot be asked for a collection: the answer is NO_MEM_ERR if the request is refused, and otherwise the assertion fails. -/
theorem C104_no_root_violated (ap : Bool) (m : Mem) :
    (Granted m.room m.time 1 → docCol doc none ap m = .fault .assertFail) ∧ (¬ Granted m.room m.time 1 → ∃ m', docCol doc none ap m = .ok (.error .noMem) m' ∧ m'.refs = m.refs) := by
  constructor
  · intro h
    obtain ⟨a, m1, e, _⟩ := malloc_some (granted_one.1 h)
    unfold docCol
    dsimp only
    rw [bind_ok e]
    rfl
  · intro h
    rw [granted_one, Bool.not_eq_true] at h
    refine ⟨{ m with time := m.time + 1 }, ?_, rfl⟩
    unfold docCol
    dsimp only
    rw [bind_ok (malloc_none h)]
    rfl

/-! ## Cases -/

/-- The document 0 with the element 1, which has the OBJECT elements 2 and 4, each with an APPLET in it (3 and 5), and the OBJECT 6 without. -/
def page : Page where
  below x := if x = 1 then [1, 2, 3, 4, 5, 6] else if x = 2 then [2, 3] else if x = 4 then [4, 5] else if x ≤ 6 then [x] else []
  isObject x := x == 2 || x == 4 || x == 6
  isApplet x := x == 3 || x == 5
  plain x := x == 2 || x == 4 || x == 6

/-- The nodes are alive; request `k` is refused. -/
def small (k : Nat) : Mem := { room := fun i => i != k, time := 0, next := 7, refs := fun a => if a < 7 then 1 else 0 }

/-- The references that the client has, the number of collections, and the counts of the first nine addresses. -/
def told (os : List Op) (k : Nat) : Option (List Nat × Nat × List Nat) :=
  match run page 0 1 os { cols := [], own := [] } (small k) with
  | .ok c m => some (c.own, c.cols.length, (List.range 9).map m.refs)
  | .fault _ => none

/-- The length of `applets`. -/
def appletsLength (k : Nat) : Option Nat :=
  match colLength page 0 { block := 9, root := 1, applets := true, refcnt := 1 } (small k) with
  | .ok n _ => some n
  | .fault _ => none

/-- The item of `applets` at an index. -/
def appletsItem (k i : Nat) : Option (Option Nat) :=
  match colItem page 0 { block := 9, root := 1, applets := true, refcnt := 1 } i (small k) with
  | .ok o _ => some o
  | .fault _ => none

theorem small_valid (k : Nat) : (small k).Valid := fun a ha => by
  have : ¬ a < 7 := Nat.not_lt.2 ha
  simp [small, this]

theorem page_alive (k : Nat) : Alive (small k).refs page 0 1 := by
  refine ⟨(by decide : 0 < if 0 < 7 then 1 else 0), (by decide : 0 < if 1 < 7 then 1 else 0), fun root x hx => ?_⟩
  have : x < 7 := by
    unfold page at hx
    dsimp only at hx
    split at hx
    · simp at hx; omega
    · split at hx
      · simp at hx; omega
      · split at hx
        · simp at hx; omega
        · split at hx
          · simp at hx; omega
          · cases hx
  show 0 < if x < 7 then 1 else 0
  rw [if_pos this]
  decide

/-- A collection that is shared and given back, one that is refused; `applets` with all requests granted, and with one refused that matters or not. -/
theorem C104_cases :
    (small 1).Valid ∧ Alive (small 1).refs page 0 1 ∧
    told [.make 2 false, .whole true, .whole true, .again 7] 1 = some ([7, 8, 7], 2, [3, 2, 2, 1, 1, 1, 1, 1, 1]) ∧
    told [.make 2 false, .again 7, .drop 7, .length 7, .drop 7, .drop 7] 9 = some ([], 0, [1, 1, 1, 1, 1, 1, 1, 0, 0]) ∧
    appletsLength 9 = some 2 ∧ appletsLength 2 = some 2 ∧ appletsLength 1 = some 1 ∧
    appletsItem 9 1 = some (some 4) ∧ appletsItem 0 0 = some (some 4) ∧ appletsItem 0 1 = some none ∧ (page.below 1).Nodup ∧
    (objects page (page.below 1))[1]? = some 4 ∧ HasApplet page 4 ∧ (small 1).room ((small 1).time + 1) = false :=
  ⟨small_valid 1, page_alive 1, by decide +kernel, by decide +kernel, by decide +kernel, by decide +kernel, by decide +kernel, by decide +kernel, by decide +kernel, by decide +kernel, by decide +kernel, by decide, ⟨5, by decide, by decide⟩, rfl⟩

end Dom.Oom.Cols
