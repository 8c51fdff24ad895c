import Verif.Oom.Lists
import Verif.Oom.PropsDoctype
set_option linter.unusedSimpArgs false
set_option linter.unusedVariables false
/-!
# C103: node lists when memory may run out
-/
namespace Dom.Oom.Lists

open Dom.Oom
open Dom.Oom.Chars (Str)
open Dom.Cache (LType)

variable {r : Nat → Nat} {m : Mem} {doc : Nat}

/-! ## Specification -/

/-- **Specification.**  The strings that a list of this type has to keep. -/
def wanted (t : LType) (name ns lname : Option Str) : List Nat :=
  if t = .byName ∨ t = .byNameCaseless then (name.map (·.addr)).toList
  else if t = .byNs ∨ t = .byNsCaseless then (ns.map (·.addr)).toList ++ (lname.map (·.addr)).toList
  else []

/-- **Specification.**  What a list holds: its cell and its block, its document, its root, and the strings it looks for. -/
def held (doc : Nat) (l : NList) : List Nat := l.cell :: l.block :: doc :: l.root :: wanted l.type l.name l.ns l.lname

/-- **Specification.**  The characters of a string; no string has none. -/
def letters (s : Option Str) : List Nat := (s.map (·.data)).getD []

/-- **Specification.**  The list is one for the query: of this type, below this node, for these texts, letter by letter or up to the case of ASCII. -/
def For (q : Query) (l : NList) : Prop :=
  l.type = q.type ∧ l.root = q.root ∧
    match q.type with
    | .children => True
    | .byName => letters l.name = letters q.name
    | .byNs => letters l.ns = letters q.ns ∧ letters l.lname = letters q.lname
    | .byNameCaseless => (letters l.name).map lower = (letters q.name).map lower
    | .byNsCaseless => (letters l.ns).map lower = (letters q.ns).map lower ∧ (letters l.lname).map lower = (letters q.lname).map lower

/-- **Specification.**  The client has references to what it passes, and a name where one is needed. -/
structure Fit (r : Nat → Nat) (q : Query) : Prop where
  root : 0 < r q.root
  texts : ∀ s, q.name = some s ∨ q.ns = some s ∨ q.lname = some s → 0 < r s.addr
  name : q.type = .byName ∨ q.type = .byNameCaseless → q.name ≠ none

/-- A client: the lists of the document, and the references to lists that the client has. -/
structure Client where
  lists : List NList
  own : List Nat

/-- What a client does: it asks for a list, takes another reference to one of its lists, or gives one back.  A reference that it does not have it cannot use. -/
inductive Op
  | get (q : Query)
  | again (b : Nat)
  | drop (b : Nat)

/-- One operation. -/
def step (doc : Nat) (c : Client) : Op → M (Option Exc × Client)
  | .get q => do
    let r ← getList doc q c.lists
    match r with
    | (.ok b, ls) => pure (none, { lists := ls, own := b :: c.own })
    | (.error e, ls) => pure (some e, { c with lists := ls })
  | .again b => if b ∈ c.own then do
      let ls ← refList b c.lists
      pure (none, { lists := ls, own := b :: c.own })
    else pure (none, c)
  | .drop b => if b ∈ c.own then do
      let ls ← unrefList doc b c.lists
      pure (none, { lists := ls, own := c.own.erase b })
    else pure (none, c)

/-- A history. -/
def run (doc : Nat) : List Op → Client → M Client
  | [], c => pure c
  | o :: os, c => do
    let x ← step doc c o
    run doc os x.2

/-- **Specification.**  The queries of a history are fit. -/
def Fair (r : Nat → Nat) (os : List Op) : Prop := ∀ q, Op.get q ∈ os → Fit r q

/-- **Specification.**  The accounts are right: compared with the counts `r`, exactly what the lists hold is held; every list is somewhere else in memory; the count of a list is the number of references
that the client has, at least one; and what the client has references to is a list. -/
structure Good (r : Nat → Nat) (doc : Nat) (c : Client) (m : Mem) : Prop where
  holds : Holds r (c.lists.flatMap (held doc)) m
  apart : (c.lists.map NList.block).Nodup
  count : ∀ l ∈ c.lists, l.refcnt = c.own.count l.block ∧ l.refcnt ≠ 0
  own : ∀ b ∈ c.own, ∃ l ∈ c.lists, l.block = b

/-! ## Parts -/

theorem malloc_fresh {l : List Nat} (h : Holds r l m) : after malloc m (fun o _ => ∀ a, o = some a → a ∉ l) := by
  unfold malloc
  rw [after_bind]
  show after (if m.room m.time = true then _ else _) _ _
  rw [after_ite]
  split
  · show ∀ a, some m.next = some a → a ∉ l
    rintro a ⟨⟩ ha
    have h0 := h.fresh m.next (Nat.le_refl _)
    have h1 := h.refs m.next
    have := List.count_pos_iff.mpr ha
    omega
  · show ∀ a, none = some a → a ∉ l
    rintro a ⟨⟩

theorem strings_wanted (t : LType) (name ns lname : Option Str) : (strings t name ns lname).Perm (wanted t name ns lname) := by
  cases t <;> simp [strings, wanted]

theorem text_letters (s : Option Str) : text s = letters s := by
  cases s <;> rfl

theorem match_iff (q : Query) (l : NList) : listMatch q l = true ↔ For q l := by
  unfold listMatch For
  by_cases h1 : l.root = q.root
  · rw [if_neg (by simp [h1])]
    by_cases h2 : l.type = q.type
    · rw [if_neg (by simp [h2])]
      cases ht : l.type <;> rw [← h2, ht] <;> simp [h1, equal, equalCaseless, text_letters]
    · rw [if_pos h2]; simp [h2]
  · rw [if_pos h1]; simp [h1]

theorem held_count (b : Nat) (f : Nat → Nat) (ls : List NList) : (setCount b f ls).flatMap (held doc) = ls.flatMap (held doc) := by
  unfold setCount
  rw [List.flatMap_map]
  congr 1
  funext l
  by_cases h : l.block = b
  · rw [if_pos h]; rfl
  · rw [if_neg h]

theorem block_count (b : Nat) (f : Nat → Nat) (ls : List NList) : (setCount b f ls).map NList.block = ls.map NList.block := by
  unfold setCount
  rw [List.map_map]
  congr 1
  funext l
  show (if l.block = b then _ else l).block = l.block
  by_cases h : l.block = b
  · rw [if_pos h]
  · rw [if_neg h]

theorem mem_setCount {b : Nat} {f : Nat → Nat} {ls : List NList} {l : NList} (h : l ∈ setCount b f ls) :
    ∃ k ∈ ls, l = if k.block = b then { k with refcnt := f k.refcnt } else k := by
  unfold setCount at h
  obtain ⟨k, hk, rfl⟩ := List.mem_map.1 h
  exact ⟨k, hk, rfl⟩

theorem Fit.strings {q : Query} (h : Fit r q) : ∀ a ∈ strings q.type q.name q.ns q.lname, 0 < r a := by
  have one : ∀ o : Option Str, (o = q.name ∨ o = q.ns ∨ o = q.lname) → ∀ a ∈ (o.map (·.addr)).toList, 0 < r a := by
    intro o ho a ha
    cases o with
    | none => cases ha
    | some s =>
      simp at ha
      rw [ha]
      refine h.texts s ?_
      rcases ho with e | e | e
      · exact Or.inl e.symm
      · exact Or.inr (Or.inl e.symm)
      · exact Or.inr (Or.inr e.symm)
  intro a ha
  unfold Lists.strings at ha
  split at ha
  · cases ha
  · exact one _ (Or.inl rfl) a ha
  · exact one _ (Or.inl rfl) a ha
  · rcases List.mem_append.1 ha with ha | ha
    · exact one _ (Or.inr (Or.inl rfl)) a ha
    · exact one _ (Or.inr (Or.inr rfl)) a ha
  · rcases List.mem_append.1 ha with ha | ha
    · exact one _ (Or.inr (Or.inl rfl)) a ha
    · exact one _ (Or.inr (Or.inr rfl)) a ha

theorem Fit.named {q : Query} (h : Fit r q) : (byName q.type && q.name.isNone) = false := by
  cases ht : q.type <;> simp [byName]
  · have := h.name (Or.inl ht)
    cases hn : q.name <;> simp_all
  · have := h.name (Or.inr ht)
    cases hn : q.name <;> simp_all

/-- A new list: complete, at a new address, or nothing. -/
theorem newList_spec {q : Query} (hd : 0 < r doc) (hq : Fit r q) {ls : List NList} (h : Holds r (ls.flatMap (held doc)) m) :
    after (newList doc q ls) m (fun o m' => m'.room = m.room ∧
      ((o = (.error .noMem, ls) ∧ ¬ Granted m.room m.time 2 ∧ Holds r (ls.flatMap (held doc)) m') ∨
       (∃ l, o = (.ok l.block, l :: ls) ∧ Granted m.room m.time 2 ∧ m'.time = m.time + 2 ∧ l.refcnt = 1 ∧ l.block ∉ ls.map NList.block ∧
         l.type = q.type ∧ l.root = q.root ∧ l.name = q.name ∧ l.ns = q.ns ∧ l.lname = q.lname ∧ Holds r ((l :: ls).flatMap (held doc)) m'))) := by
  unfold newList
  rw [after_bind]
  refine after_mono (malloc_spec h) ?_
  rintro o m1 ⟨hr1, ht1, ⟨rfl, h1, hg⟩ | ⟨c, rfl, h1, hg⟩⟩
  · exact ⟨hr1, Or.inl ⟨rfl, fun h => hg (granted_mono h (by omega)), h1⟩⟩
  · dsimp only
    unfold listCreate
    rw [after_bind, after_bind]
    refine after_mono (after_and (malloc_spec h1) (malloc_fresh h1)) ?_
    rintro o m2 ⟨⟨hr2, ht2, ⟨rfl, h2, hg2⟩ | ⟨b, rfl, h2, hg2⟩⟩, hfr⟩
    · show after (unref c >>= _) m2 _
      rw [after_bind]
      refine after_mono (unref_spec h2) ?_
      rintro _ m3 ⟨h3, hr3, _⟩
      refine ⟨hr3.trans (hr2.trans hr1), Or.inl ⟨rfl, fun h => hg2 ?_, h3⟩⟩
      rw [hr1, ht1]
      exact ((granted_add (a := 1) (b := 1)).1 h).2
    · dsimp only
      rw [after_bind]
      refine after_mono (ref_live h2 (by omega)) ?_
      rintro _ m3 ⟨h3, hr3, ht3⟩
      rw [after_bind]
      refine after_mono (ref_live h3 (by have := hq.root; omega)) ?_
      rintro _ m4 ⟨h4, hr4, ht4⟩
      rw [hq.named]
      show after (refAll _ >>= _) m4 _
      rw [after_bind]
      refine after_mono (refAll_spec _ h4 hq.strings) ?_
      rintro _ m5 ⟨h5, hr5, ht5⟩
      have hb : b ∉ ls.map NList.block := by
        intro hb
        obtain ⟨k, hk, e⟩ := List.mem_map.1 hb
        refine hfr b rfl (List.mem_cons_of_mem _ (List.mem_flatMap.2 ⟨k, hk, ?_⟩))
        rw [← e]
        simp [held]
      refine ⟨by rw [hr5, hr4, hr3, hr2, hr1], Or.inr ⟨{ cell := c, block := b, type := q.type, root := q.root, name := q.name, ns := q.ns, lname := q.lname, refcnt := 1 }, rfl, ?_, by omega, rfl, hb,
        rfl, rfl, rfl, rfl, rfl, ?_⟩⟩
      · refine (granted_add (a := 1) (b := 1)).2 ⟨hg, ?_⟩
        rw [hr1, ht1] at hg2
        exact hg2
      · refine h5.perm ?_
        rw [List.flatMap_cons, List.perm_iff_count]
        intro x
        have hx := (strings_wanted q.type q.name q.ns q.lname).count_eq x
        simp only [held, List.count_append, List.count_cons]
        omega

theorem takeOut_some {b : Nat} : ∀ {ls : List NList} {l : NList} {rest : List NList}, takeOut b ls = some (l, rest) → ls.Perm (l :: rest) ∧ l.block = b
  | [], _, _, h => nomatch h
  | k :: ls, l, rest, h => by
    unfold takeOut at h
    by_cases hb : k.block = b
    · rw [if_pos hb] at h
      cases h
      exact ⟨.refl _, hb⟩
    · rw [if_neg hb] at h
      cases ht : takeOut b ls with
      | none => rw [ht] at h; cases h
      | some x =>
        rw [ht] at h
        cases h
        obtain ⟨h1, h2⟩ := takeOut_some (l := x.1) (rest := x.2) ht
        exact ⟨(h1.cons k).trans (.swap _ _ _), h2⟩

theorem takeOut_none {b : Nat} : ∀ {ls : List NList}, takeOut b ls = none → ∀ l ∈ ls, l.block ≠ b
  | [], _, _, h => nomatch h
  | k :: ls, h, l, hl => by
    unfold takeOut at h
    by_cases hb : k.block = b
    · rw [if_pos hb] at h; cases h
    · rw [if_neg hb] at h
      rcases List.mem_cons.1 hl with rfl | hl
      · exact hb
      · refine takeOut_none ?_ l hl
        cases ht : takeOut b ls with
        | none => rfl
        | some x => rw [ht] at h; cases h

theorem frees_list (l : NList) : Frees (releaseList doc l) (held doc l) := by
  have := (frees_all (strings l.type l.name l.ns l.lname)).seq ((Frees.one l.root).seq ((Frees.one l.cell).seq ((Frees.one l.block).seq (Frees.one doc))))
  refine this.perm ?_
  rw [List.perm_iff_count]
  intro x
  have hx := (strings_wanted l.type l.name l.ns l.lname).count_eq x
  simp only [held, List.count_append, List.count_cons, List.count_nil]
  omega

/-- One more reference. -/
theorem Good.more {c : Client} (h : Good r doc c m) {b : Nat} (hb : ∃ l ∈ c.lists, l.block = b) : Good r doc { lists := setCount b (· + 1) c.lists, own := b :: c.own } m := by
  refine ⟨by rw [held_count]; exact h.holds, by rw [block_count]; exact h.apart, ?_, ?_⟩
  · intro l hl
    obtain ⟨k, hk, rfl⟩ := mem_setCount hl
    obtain ⟨h1, h2⟩ := h.count k hk
    by_cases e : k.block = b
    · rw [if_pos e]
      dsimp only
      rw [e, List.count_cons_self, h1, e]
      exact ⟨rfl, by omega⟩
    · rw [if_neg e, List.count_cons_of_ne (Ne.symm e)]
      exact ⟨h1, h2⟩
  · intro x hx
    have hex : ∃ l ∈ c.lists, l.block = x := by
      rcases List.mem_cons.1 hx with rfl | hx
      · exact hb
      · exact h.own x hx
    obtain ⟨l, hl, e⟩ := hex
    have : x ∈ (setCount b (· + 1) c.lists).map NList.block := by
      rw [block_count, ← e]; exact List.mem_map_of_mem hl
    exact (List.mem_map.1 this).imp fun k hk => hk

theorem get_good {c : Client} {q : Query} (hd : 0 < r doc) (hq : Fit r q) (h : Good r doc c m) :
    after (getList doc q c.lists) m (fun o m' => m'.room = m.room ∧
      ((o = (.error .noMem, c.lists) ∧ (∀ l ∈ c.lists, ¬ For q l) ∧ ¬ Granted m.room m.time 2 ∧ m'.refs = m.refs ∧ Good r doc c m') ∨
       (∃ b ls, o = (.ok b, ls) ∧ (∃ l ∈ ls, l.block = b ∧ For q l) ∧ ((∃ l ∈ c.lists, For q l) ∨ Granted m.room m.time 2) ∧ Good r doc { lists := ls, own := b :: c.own } m'))) := by
  unfold getList
  cases hf : c.lists.find? (listMatch q) with
  | some l =>
    have hl := List.mem_of_find?_eq_some hf
    have hm := (match_iff q l).1 (List.find?_some hf)
    refine ⟨rfl, Or.inr ⟨l.block, _, rfl, ?_, Or.inl ⟨l, hl, hm⟩, h.more ⟨l, hl, rfl⟩⟩⟩
    refine ⟨{ l with refcnt := l.refcnt + 1 }, ?_, rfl, hm⟩
    unfold setCount
    exact List.mem_map.2 ⟨l, hl, by rw [if_pos rfl]⟩
  | none =>
    have hno : ∀ l ∈ c.lists, ¬ For q l := fun l hl hm => by
      have := List.find?_eq_none.1 hf l hl
      exact this ((match_iff q l).2 hm)
    refine after_mono (newList_spec hd hq h.holds) ?_
    rintro o m' ⟨hr, ⟨rfl, hg, h1⟩ | ⟨l, rfl, hg, _, hc, hb, t1, t2, t3, t4, t5, h1⟩⟩
    · refine ⟨hr, Or.inl ⟨rfl, hno, hg, ?_, ⟨h1, h.apart, h.count, h.own⟩⟩⟩
      funext a
      rw [h1.refs, h.holds.refs]
    · refine ⟨hr, Or.inr ⟨l.block, _, rfl, ⟨l, by simp, rfl, ?_⟩, Or.inr hg, ⟨h1, ?_, ?_, ?_⟩⟩⟩
      · refine ⟨t1, t2, ?_⟩
        rw [t3, t4, t5]
        cases q.type <;> simp
      · exact List.nodup_cons.2 ⟨hb, h.apart⟩
      · have h0 : c.own.count l.block = 0 := List.count_eq_zero.2 fun hx => by
          obtain ⟨k, hk, e⟩ := h.own _ hx
          exact hb (e ▸ List.mem_map_of_mem hk)
        intro k hk
        rcases List.mem_cons.1 hk with rfl | hk
        · refine ⟨?_, by omega⟩
          show _ = (k.block :: c.own).count k.block
          rw [List.count_cons_self, h0, hc]
        · have hne : k.block ≠ l.block := fun e => hb (e ▸ List.mem_map_of_mem hk)
          show _ = (l.block :: c.own).count k.block ∧ _
          rw [List.count_cons_of_ne (Ne.symm hne)]
          exact h.count k hk
      · intro x hx
        rcases List.mem_cons.1 hx with rfl | hx
        · exact ⟨l, by simp, rfl⟩
        · obtain ⟨k, hk, e⟩ := h.own x hx
          exact ⟨k, by simp [hk], e⟩

theorem drop_good {c : Client} {b : Nat} (hb : b ∈ c.own) (h : Good r doc c m) :
    after (unrefList doc b c.lists) m (fun ls m' => m'.room = m.room ∧ m'.time = m.time ∧ Good r doc { lists := ls, own := c.own.erase b } m') := by
  unfold unrefList
  cases ht : takeOut b c.lists with
  | none =>
    obtain ⟨l, hl, e⟩ := h.own b hb
    exact absurd e (takeOut_none ht l hl)
  | some x =>
    obtain ⟨l, rest⟩ := x
    obtain ⟨hp, hlb⟩ := takeOut_some ht
    have hl : l ∈ c.lists := hp.mem_iff.2 (by simp)
    have hc := h.count l hl
    have hcnt : ∀ y, (c.own.erase b).count y = c.own.count y - if y = b then 1 else 0 := by
      intro y
      rw [List.count_erase]
      by_cases e : y = b
      · subst e; simp
      · rw [if_neg e, if_neg (by simpa using fun h => e h.symm)]
    dsimp only
    rw [after_ite]
    split
    · rename_i h1
      rw [after_bind]
      have hh : Holds r (held doc l ++ rest.flatMap (held doc)) m := by
        refine h.holds.perm ?_
        have := hp.flatMap_right (held doc)
        rwa [List.flatMap_cons] at this
      refine after_mono (frees_list l r _ m hh) ?_
      rintro _ m' ⟨h2, hr, ht'⟩
      have hnd : (l.block :: rest.map NList.block).Nodup := by
        have := (hp.map NList.block).nodup_iff.1 h.apart
        simpa using this
      refine ⟨hr, ht', ⟨h2, (List.nodup_cons.1 hnd).2, ?_, ?_⟩⟩
      · intro k hk
        have hne : k.block ≠ b := fun e => (List.nodup_cons.1 hnd).1 (hlb ▸ e ▸ List.mem_map_of_mem hk)
        show _ = (c.own.erase b).count k.block ∧ _
        rw [hcnt, if_neg hne]
        exact h.count k (hp.mem_iff.2 (by simp [hk]))
      · intro y hy
        have hy' : y ∈ c.own := List.mem_of_mem_erase hy
        have hyb : y ≠ b := by
          intro e
          have h3 : 0 < (c.own.erase b).count y := List.count_pos_iff.2 hy
          have h4 := hcnt y
          rw [if_pos e] at h4
          rw [e] at h3 h4
          rw [hlb] at hc
          omega
        obtain ⟨k, hk, e⟩ := h.own y hy'
        rcases List.mem_cons.1 (hp.mem_iff.1 hk) with rfl | hk
        · exact absurd (e.symm.trans hlb) hyb
        · exact ⟨k, hk, e⟩
    · rename_i h1
      refine ⟨rfl, rfl, ⟨by rw [held_count]; exact h.holds, by rw [block_count]; exact h.apart, ?_, ?_⟩⟩
      · intro j hj
        obtain ⟨k, hk, rfl⟩ := mem_setCount (b := b) (f := (· - 1)) (ls := c.lists) hj
        obtain ⟨h3, h4⟩ := h.count k hk
        by_cases e : k.block = b
        · rw [if_pos e]
          dsimp only
          rw [hcnt, if_pos e, e, h3, e]
          rw [hlb] at hc
          exact ⟨rfl, by omega⟩
        · rw [if_neg e]
          dsimp only
          rw [hcnt, if_neg e]
          exact ⟨h3, h4⟩
      · intro y hy
        obtain ⟨k, hk, e⟩ := h.own y (List.mem_of_mem_erase hy)
        have : y ∈ (setCount b (· - 1) c.lists).map NList.block := by
          rw [block_count, ← e]; exact List.mem_map_of_mem hk
        exact (List.mem_map.1 this).imp fun k hk => hk

theorem step_good {c : Client} {o : Op} (hd : 0 < r doc) (ho : ∀ q, o = .get q → Fit r q) (h : Good r doc c m) :
    after (step doc c o) m (fun x m' => Good r doc x.2 m') := by
  cases o with
  | get q =>
    unfold step
    rw [after_bind]
    refine after_mono (get_good hd (ho q rfl) h) ?_
    rintro o m' ⟨_, ⟨rfl, _, _, _, h1⟩ | ⟨b, ls, rfl, _, _, h1⟩⟩
    · exact h1
    · exact h1
  | again b =>
    unfold step
    rw [after_ite]
    split
    · rename_i hb
      rw [after_bind]
      obtain ⟨l, hl, e⟩ := h.own b hb
      unfold refList
      cases hf : c.lists.find? (fun l => l.block = b) with
      | none => exact absurd e (by simpa using List.find?_eq_none.1 hf l hl)
      | some k => exact h.more ⟨l, hl, e⟩
    · exact h
  | drop b =>
    unfold step
    rw [after_ite]
    split
    · rename_i hb
      rw [after_bind]
      refine after_mono (drop_good hb h) ?_
      rintro ls m' ⟨_, _, h1⟩
      exact h1
    · exact h

theorem run_good (hd : 0 < r doc) : ∀ (os : List Op) (c : Client) (m : Mem), Fair r os → Good r doc c m → after (run doc os c) m (fun c' m' => Good r doc c' m')
  | [], c, m, _, h => h
  | o :: os, c, m, hf, h => by
    unfold run
    rw [after_bind]
    refine after_mono (step_good hd (fun q e => hf q (by simp [e])) h) ?_
    intro x m' h1
    exact run_good hd os x.2 m' (fun q hq => hf q (by simp [hq])) h1

theorem good_start (hm : m.Valid) : Good m.refs doc { lists := [], own := [] } m :=
  ⟨hm.holds, List.nodup_nil, fun l hl => (nomatch hl), fun b hb => (nomatch hb)⟩

/-! ## C103 -/

/-- **C103, accounts.**  Whatever lists a client asks for, shares and gives back, in any order, and whatever requests are refused meanwhile: nothing is used after it was freed, and the accounts are right
(`Good`): every list the client has a reference to is there, with that many references, and what the memory holds more than before is what these lists hold. -/
theorem C103_accounts (os : List Op) (m : Mem) (hm : m.Valid) (hd : 0 < m.refs doc) (hf : Fair m.refs os) :
    ∃ c m', run doc os { lists := [], own := [] } m = .ok c m' ∧ Good m.refs doc c m' := after_elim (run_good hd os _ m hf (good_start hm))

/-- **C103, release.**  If the client has given back all references in the end, the document has no list, and every count in memory is what it was. -/
theorem C103_release (os : List Op) (m : Mem) (hm : m.Valid) (hd : 0 < m.refs doc) (hf : Fair m.refs os) :
    ∃ c m', run doc os { lists := [], own := [] } m = .ok c m' ∧ (c.own = [] → c.lists = [] ∧ m'.refs = m.refs) := by
  obtain ⟨c, m', e, h⟩ := C103_accounts os m hm hd hf
  refine ⟨c, m', e, fun h0 => ?_⟩
  have hl : c.lists = [] := by
    cases hl : c.lists with
    | nil => rfl
    | cons l ls =>
      have := h.count l (by rw [hl]; simp)
      rw [h0] at this
      exact absurd this.1 this.2
  refine ⟨hl, ?_⟩
  have := h.holds
  rw [hl] at this
  exact this.refs_eq

/-- **C103, answers.**  After any history, asking for a list: the answer is a list for what was asked (`For`), to which the client has a reference now; or NO_MEM_ERR, and this exactly if there is no such
list yet and one of two requests is refused; then the lists and every count are what they were. -/
theorem C103_get (os : List Op) (m : Mem) (hm : m.Valid) (hd : 0 < m.refs doc) (hf : Fair m.refs os) (q : Query) (hq : Fit m.refs q) :
    ∃ c m' e c' m'', run doc os { lists := [], own := [] } m = .ok c m' ∧ step doc c (.get q) m' = .ok (e, c') m'' ∧ Good m.refs doc c' m'' ∧
      ((e = none ∧ ∃ l ∈ c'.lists, For q l ∧ c'.own = l.block :: c.own) ∨ (e = some .noMem ∧ c' = c ∧ m''.refs = m'.refs)) ∧
      (e = some .noMem ↔ (∀ l ∈ c.lists, ¬ For q l) ∧ ¬ Granted m'.room m'.time 2) := by
  obtain ⟨c, m', e1, h⟩ := C103_accounts os m hm hd hf
  obtain ⟨o, m'', e2, _, hc⟩ := after_elim (get_good hd hq h)
  rcases hc with ⟨rfl, h1, h2, h3, h4⟩ | ⟨b, ls, rfl, ⟨l, hl, hb, hm'⟩, h2, h3⟩
  · refine ⟨c, m', some .noMem, c, m'', e1, ?_, h4, Or.inr ⟨rfl, rfl, h3⟩, ⟨fun _ => ⟨h1, h2⟩, fun _ => rfl⟩⟩
    unfold step
    dsimp only
    rw [bind_ok e2]
    rfl
  · refine ⟨c, m', none, _, m'', e1, ?_, h3, Or.inl ⟨rfl, l, hl, hm', by rw [hb]⟩, ⟨fun h => (nomatch h), fun h => ?_⟩⟩
    · unfold step
      dsimp only
      rw [bind_ok e2]
      rfl
    · rcases h2 with ⟨k, hk, hm2⟩ | hg
      · exact absurd hm2 (h.1 k hk)
      · exact absurd hg h.2

/-- **C103, case.**  Two characters are the same up to case exactly if they are the same, or one is a capital letter of ASCII and the other the small letter for it. -/
theorem C103_case (c d : Nat) : lower c = lower d ↔ c = d ∨ (65 ≤ c ∧ c ≤ 90 ∧ d = c + 32) ∨ (65 ≤ d ∧ d ≤ 90 ∧ c = d + 32) := by
  unfold lower
  split <;> split <;> omega

/-! ## Cases -/

/-- A document at 0, a node at 1 and the strings `p` at 2 and `P` at 3; request `k` is refused. -/
def small (k : Nat) : Mem := { room := fun i => i != k, time := 0, next := 4, refs := fun a => if a < 4 then 1 else 0 }

def nameP : Str := { addr := 2, data := [112] }
def nameUpperP : Str := { addr := 3, data := [80] }

def askFor (t : LType) (s : Str) : Query := { type := t, root := 1, name := some s, ns := none, lname := none }

/-- The references that the client has, the number of lists, and the counts of the first eight addresses. -/
def told (os : List Op) (k : Nat) : Option (List Nat × Nat × List Nat) :=
  match run 0 os { lists := [], own := [] } (small k) with
  | .ok c m => some (c.own, c.lists.length, (List.range 8).map m.refs)
  | .fault _ => none

/-- Lists that differ in case are shared if asked for without regard to case, and only then; a refused request leaves nothing; all is given back in the end. -/
theorem C103_cases :
    (small 9).Valid ∧ Fit (small 9).refs (askFor .byNameCaseless nameP) ∧
    told [.get (askFor .byNameCaseless nameP), .get (askFor .byNameCaseless nameUpperP)] 9 = some ([5, 5], 1, [2, 2, 2, 1, 1, 1, 0, 0]) ∧
    told [.get (askFor .byName nameP), .get (askFor .byName nameUpperP)] 9 = some ([7, 5], 2, [3, 3, 2, 2, 1, 1, 1, 1]) ∧
    told [.get (askFor .byName nameP), .get (askFor .byName nameUpperP)] 3 = some ([5], 1, [2, 2, 2, 1, 1, 1, 0, 0]) ∧
    told [.get (askFor .byName nameP), .again 5, .drop 5, .drop 5, .drop 5] 9 = some ([], 0, [1, 1, 1, 1, 0, 0, 0, 0]) := by
  refine ⟨fun a ha => ?_, ⟨by decide, ?_, by simp [askFor]⟩, by decide +kernel, by decide +kernel, by decide +kernel, by decide +kernel⟩
  · have : ¬ a < 4 := Nat.not_lt.2 ha
    simp [small, this]
  · rintro s (h | h | h)
    · cases h; decide
    · cases h
    · cases h

end Dom.Oom.Lists
