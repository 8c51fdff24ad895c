import Verif.Oom.Doctype
import Verif.Oom.PropsChars
import Verif.Oom.PropsMake
/-!
# C99: document types when memory runs out
-/
namespace Dom.Oom.Doctype
set_option linter.unusedSimpArgs false
set_option linter.unusedVariables false
open Dom.Oom
open Dom.Oom.Chars (Str newString newString_spec)

/-! ## Specification -/

/-- **Specification.**  How a prefix and a local name are written. -/
def spelled : Option (List Nat) → List Nat → List Nat
  | none, l => l
  | some p, l => p ++ 58 :: l

/-- **Specification.**  The prefix and the local name of `q`: they spell `q`, there is a prefix exactly if there is a colon, and the prefix has none. -/
structure Halves (q : List Nat) (p : Option Str) (l : Str) : Prop where
  spell : spelled (p.map (·.data)) l.data = q
  some : p.isSome = true ↔ 58 ∈ q
  pre : ∀ x, p = .some x → 58 ∉ x.data

/-- **Specification.**  What a document type made from these arguments is. -/
structure Describes (d : Doctype) (q : List Nat) (pub sys : Option (List Nat)) : Prop where
  name : Halves q d.pre d.name
  pub : d.pub.map (·.data) = pub
  sys : d.sys.map (·.data) = sys

/-- **Specification.**  The references of a document type. -/
def held (d : Doctype) : List Nat := (at_ d.pub).toList ++ ((at_ d.sys).toList ++ ((at_ d.pre).toList ++ [d.name.addr, d.block]))

/-- **Specification.**  The requests for an identifier. -/
def idCost (o : Option (List Nat)) : Nat := if o.isSome then 2 else 0

/-- **Specification.**  The requests for the two parts of a name. -/
def nameCost (q : List Nat) : Nat := if 58 ∈ q then 4 else 0

/-- **Specification.**  The requests for a document type: the name, its parts, the identifiers, the block, and the parts of the name again. -/
def cost (q : List Nat) (pub sys : Option (List Nat)) : Nat := 2 + (nameCost q + (idCost pub + (idCost sys + (1 + nameCost q))))

/-! ## Tools -/

variable {r : Nat → Nat} {l : List Nat} {m : Mem}

/-- The call makes `c` requests: all are granted and the result holds what it should, or one is refused and only `l` is held. -/
def Makes {α : Type} (x : M (Except Exc α)) (r : Nat → Nat) (l : List Nat) (m : Mem) (c : Nat) (objs : α → List Nat) (good : α → Prop) : Prop :=
  after x m (fun o m' => m'.room = m.room ∧
    ((o = .error .noMem ∧ Holds r l m' ∧ ¬ Granted m.room m.time c) ∨
     (∃ a, o = .ok a ∧ good a ∧ Holds r (objs a ++ l) m' ∧ Granted m.room m.time c ∧ m'.time = m.time + c)))

theorem makes_seq {α β : Type} {x : M (Except Exc α)} {f : Except Exc α → M (Except Exc β)} {l0 : List Nat} {c1 c2 : Nat} {o1 : α → List Nat}
    {o2 : β → List Nat} {g1 : α → Prop} {g2 : β → Prop} (hx : Makes x r l0 m c1 o1 g1)
    (he : ∀ m1, Holds r l0 m1 → after (f (.error .noMem)) m1 (fun o m2 => o = .error .noMem ∧ Holds r l m2 ∧ m2.room = m1.room))
    (hk : ∀ a m1, g1 a → Holds r (o1 a ++ l0) m1 → Makes (f (.ok a)) r l m1 c2 o2 g2) :
    Makes (x >>= f) r l m (c1 + c2) o2 g2 := by
  unfold Makes
  rw [after_bind]
  refine after_mono hx ?_
  rintro o m1 ⟨hr1, ⟨rfl, h1, hg⟩ | ⟨a, rfl, ha, h1, hg, ht⟩⟩
  · refine after_mono (he m1 h1) ?_
    rintro o m2 ⟨rfl, h2, hr2⟩
    exact ⟨hr2.trans hr1, Or.inl ⟨rfl, h2, fun h => hg (granted_add.mp h).1⟩⟩
  · refine after_mono (hk a m1 ha h1) ?_
    rintro o m2 ⟨hr2, hc⟩
    rw [hr1, ht] at hc
    refine ⟨hr2.trans hr1, ?_⟩
    rcases hc with ⟨rfl, h2, hg2⟩ | ⟨b, rfl, hb, h2, hg2, ht2⟩
    · exact Or.inl ⟨rfl, h2, fun h => hg2 (granted_add.mp h).2⟩
    · exact Or.inr ⟨b, rfl, hb, h2, granted_add.mpr ⟨hg, hg2⟩, by omega⟩

/-- An error is passed on. -/
theorem pass {β : Type} (m1 : Mem) (h : Holds r l m1) :
    after (pure (.error .noMem : Except Exc β)) m1 (fun o m2 => o = .error .noMem ∧ Holds r l m2 ∧ m2.room = m1.room) := ⟨rfl, h, rfl⟩

/-- Something is given back, and the result passed on. -/
theorem frees_then {β : Type} {x : M Unit} {as : List Nat} {v : β} (hx : Frees x as) (h : Holds r (as ++ l) m) :
    after (x >>= fun _ => pure v) m (fun o m2 => o = v ∧ Holds r l m2 ∧ m2.room = m.room) := by
  rw [after_bind]
  refine after_mono (hx r l m h) ?_
  rintro _ m1 ⟨h1, hr1, ht1⟩
  exact ⟨rfl, h1, hr1⟩

/-- Two lists of references are the same up to their order. -/
macro "perms99" : tactic => `(tactic| (
  rw [List.perm_iff_count]; intro x
  simp only [held, at_, List.count_append, List.count_cons, List.count_nil, Option.map_some,
    Option.toList_some, Option.map_none, Option.toList_none, List.cons_append, List.nil_append]
  omega))

/-! ## The parts -/

theorem make_spec {data : List Nat} (h : Holds r l m) : Makes (make data) r l m 2 (fun s => [s.addr]) (fun s => s.data = data) := by
  unfold Makes make
  rw [after_bind]
  refine after_mono (newString_spec h) ?_
  rintro o m1 ⟨hr1, ⟨rfl, h1, hg⟩ | ⟨s, rfl, hs, h1, hg, ht⟩⟩
  · exact ⟨hr1, Or.inl ⟨rfl, h1, hg⟩⟩
  · exact ⟨hr1, Or.inr ⟨s, rfl, hs, h1, hg, ht⟩⟩

theorem makes_ok {α : Type} {a : α} {objs : α → List Nat} {good : α → Prop} (ha : good a) (h : Holds r (objs a ++ l) m) :
    Makes (pure (.ok a)) r l m 0 objs good :=
  ⟨rfl, Or.inr ⟨a, rfl, ha, h, granted_zero _ _, rfl⟩⟩

theorem makeOpt_spec (o : Option (List Nat)) (h : Holds r l m) :
    Makes (makeOpt o) r l m (idCost o) (fun s => (at_ s).toList) (fun s => s.map (·.data) = o) := by
  cases o with
  | none => exact makes_ok rfl h
  | some d =>
    refine makes_seq (c2 := 0) (make_spec h) pass ?_
    intro s m1 hs h1
    exact makes_ok (by rw [Option.map_some, hs]) h1

/-- The references of the two parts of a name. -/
def halves (x : Option Str × Str) : List Nat := (at_ x.1).toList ++ [x.2.addr]

theorem idx_none {q : List Nat} (h : q.idxOf? 58 = none) : 58 ∉ q := by
  rw [List.idxOf?_eq_none_iff] at h; exact h

theorem idx_some : ∀ {q : List Nat} {c : Nat}, q.idxOf? 58 = some c → q.take c ++ 58 :: q.drop (c + 1) = q ∧ 58 ∉ q.take c
  | [], c, h => by simp at h
  | a :: q, c, h => by
    rw [List.idxOf?_cons] at h
    by_cases ha : a = 58
    · rw [if_pos (by simpa using ha)] at h
      injection h with h
      subst h ha
      simp
    · rw [if_neg (by simpa using ha)] at h
      cases hq : q.idxOf? 58 with
      | none => rw [hq] at h; simp at h
      | some k =>
        rw [hq] at h
        simp only [Option.map_some, Option.some.injEq] at h
        subst h
        obtain ⟨h1, h2⟩ := idx_some hq
        refine ⟨?_, ?_⟩
        · rw [List.take_succ_cons, List.drop_succ_cons, List.cons_append, h1]
        · rw [List.take_succ_cons, List.mem_cons]
          rintro (h | h)
          · exact ha h.symm
          · exact h2 h

theorem split_spec {q : Str} (h : Holds r l m) (hq : 0 < r q.addr + l.count q.addr) :
    Makes (splitQname q) r l m (nameCost q.data) halves (fun x => Halves q.data x.1 x.2) := by
  unfold splitQname
  cases hi : q.data.idxOf? 58 with
  | none =>
    have hm := idx_none hi
    have hc : nameCost q.data = 0 := if_neg hm
    rw [hc]
    dsimp only
    unfold Makes
    rw [after_bind]
    refine after_mono (ref_live h hq) ?_
    rintro _ m1 ⟨h1, hr1, ht1⟩
    exact ⟨hr1, Or.inr ⟨_, rfl, ⟨rfl, by simp [hm], by intro x hx; simp at hx⟩, h1, granted_zero _ _, ht1⟩⟩
  | some c =>
    obtain ⟨hs, hn⟩ := idx_some hi
    have hm : 58 ∈ q.data := by rw [← hs]; simp
    have hc : nameCost q.data = 2 + (2 + 0) := if_pos hm
    rw [hc]
    dsimp only
    refine makes_seq (make_spec h) pass ?_
    intro p m1 hp h1
    dsimp only
    unfold splitRest
    refine makes_seq (make_spec h1) ?_ ?_
    · intro m2 h2
      exact frees_then (Frees.one p.addr) h2
    · intro s m2 hs2 h2
      refine makes_ok ?_ (h2.perm (by unfold halves; perms99))
      refine ⟨?_, by simp [hm], ?_⟩
      · rw [Option.map_some]
        rw [hp, hs2]
        exact hs
      · intro x hx
        injection hx with hx
        rw [← hx, hp]; exact hn

theorem live_at {o : Option Str} {k : List Nat} (h : ∀ a, a ∈ (at_ o).toList → 0 < r a + l.count a) :
    ∀ a, at_ o = some a → 0 < r a + (k ++ l).count a := fun a ha =>
  live_mono (h a (by rw [ha]; simp))

theorem initialise_spec {b : Nat} {q : Str} {pub sys : Option Str} (h : Holds r l m) (hq : 0 < r q.addr + l.count q.addr)
    (hpub : ∀ a, a ∈ (at_ pub).toList → 0 < r a + l.count a) (hsys : ∀ a, a ∈ (at_ sys).toList → 0 < r a + l.count a) :
    Makes (initialise b q pub sys) r l m (nameCost q.data)
      (fun d => (at_ d.pub).toList ++ ((at_ d.sys).toList ++ ((at_ d.pre).toList ++ [d.name.addr])))
      (fun d => d.block = b ∧ Describes d q.data (pub.map (·.data)) (sys.map (·.data))) := by
  unfold initialise
  refine makes_seq (c2 := 0) (split_spec h hq) pass ?_
  rintro ⟨p, n⟩ m1 hh h1
  dsimp only at hh ⊢
  unfold halves at h1
  unfold Makes
  rw [after_bind]
  refine after_mono (ref_live (a := n.addr) h1 (live_mem (by simp))) ?_
  rintro _ m2 ⟨h2, hr2, ht2⟩
  rw [after_bind]
  refine after_mono (refOpt_spec (o := at_ p) h2 (fun a ha => live_mem (by simp [ha]))) ?_
  rintro _ m3 ⟨h3, hr3, ht3⟩
  rw [after_bind]
  have h3' := h3.perm (l' := (((at_ p).toList ++ (n.addr :: ((at_ p).toList ++ [n.addr]))) ++ l)) (by perms99)
  refine after_mono (refOpt_spec (o := at_ pub) h3' (live_at hpub)) ?_
  rintro _ m4 ⟨h4, hr4, ht4⟩
  rw [after_bind]
  have h4' := h4.perm (l' := (((at_ pub).toList ++ ((at_ p).toList ++ (n.addr :: ((at_ p).toList ++ [n.addr])))) ++ l)) (by perms99)
  refine after_mono (refOpt_spec (o := at_ sys) h4' (live_at hsys)) ?_
  rintro _ m5 ⟨h5, hr5, ht5⟩
  rw [after_bind]
  have h5' := h5.perm (l' := ((at_ p).toList ++ (n.addr :: (((at_ pub).toList ++ ((at_ sys).toList ++ ((at_ p).toList ++ [n.addr]))) ++ l)))) (by perms99)
  refine after_mono (frees_opt (at_ p) _ _ _ h5') ?_
  rintro _ m6 ⟨h6, hr6, ht6⟩
  rw [after_bind]
  refine after_mono (unref_spec h6) ?_
  rintro _ m7 ⟨h7, hr7, ht7⟩
  refine ⟨by rw [hr7, hr6, hr5, hr4, hr3, hr2], Or.inr ⟨_, rfl, ⟨rfl, hh, rfl, rfl⟩, h7, granted_zero _ _, ?_⟩⟩
  rw [ht7, ht6, ht5, ht4, ht3, ht2]; rfl

theorem create_spec {q : Str} {pub sys : Option Str} (h : Holds r l m) (hq : 0 < r q.addr + l.count q.addr)
    (hpub : ∀ a, a ∈ (at_ pub).toList → 0 < r a + l.count a) (hsys : ∀ a, a ∈ (at_ sys).toList → 0 < r a + l.count a) :
    Makes (create q pub sys) r l m (1 + nameCost q.data) held (fun d => Describes d q.data (pub.map (·.data)) (sys.map (·.data))) := by
  unfold create Makes
  rw [after_bind]
  refine after_mono (malloc_spec h) ?_
  rintro o m1 ⟨hr1, ht1, ⟨rfl, h1, hg⟩ | ⟨b, rfl, h1, hg⟩⟩
  · exact ⟨hr1, Or.inl ⟨rfl, h1, fun hh => hg (granted_add.mp hh).1⟩⟩
  · dsimp only
    have key : Makes (initialise b q pub sys >>= fun d => match d with
        | .error e => do
            unref b
            pure (.error e)
        | .ok d => pure (.ok d)) r l m1 (nameCost q.data + 0) held (fun d => Describes d q.data (pub.map (·.data)) (sys.map (·.data))) := by
      refine makes_seq (initialise_spec h1 (live_cons hq) (fun a ha => live_cons (hpub a ha)) (fun a ha => live_cons (hsys a ha))) ?_ ?_
      · intro m2 h2
        exact frees_then (Frees.one b) h2
      · rintro d m2 ⟨rfl, hd⟩ h2
        exact makes_ok hd (h2.perm (by perms99))
    refine after_mono key ?_
    rintro o m2 ⟨hr2, hc⟩
    rw [hr1, ht1] at hc
    refine ⟨hr2.trans hr1, ?_⟩
    rcases hc with ⟨rfl, h2, hg2⟩ | ⟨d, rfl, hd, h2, hg2, ht2⟩
    · exact Or.inl ⟨rfl, h2, fun hh => hg2 (granted_add.mp hh).2⟩
    · exact Or.inr ⟨d, rfl, hd, h2, granted_add.mpr ⟨hg, hg2⟩, by omega⟩

/-- What `giveBack` gives back. -/
theorem frees_giveBack (sys pub pre : Option Str) (n q : Str) :
    Frees (giveBack sys pub pre n q) ((at_ sys).toList ++ ((at_ pub).toList ++ ((at_ pre).toList ++ ([n.addr] ++ [q.addr])))) :=
  (frees_opt _).seq ((frees_opt _).seq ((frees_opt _).seq ((Frees.one _).seq (Frees.one _))))

theorem finish_spec {q n : Str} {p pub sys : Option Str}
    (h : Holds r ((at_ sys).toList ++ ((at_ pub).toList ++ ((at_ p).toList ++ ([n.addr] ++ [q.addr]))) ++ l) m) :
    Makes (finish q p n pub sys) r l m (1 + nameCost q.data) held
      (fun d => Describes d q.data (pub.map (·.data)) (sys.map (·.data))) := by
  unfold finish Makes
  rw [after_bind]
  refine after_mono (create_spec h (live_mem (by simp)) (fun a ha => live_mem (by simp at ha; simp [ha]))
    (fun a ha => live_mem (by simp at ha; simp [ha]))) ?_
  rintro o m1 ⟨hr1, ⟨rfl, h1, hg⟩ | ⟨d, rfl, hd, h1, hg, ht⟩⟩
  · refine after_mono (frees_then (v := (.error .noMem : Except Exc Doctype)) (frees_giveBack sys pub p n q) h1) ?_
    rintro o m2 ⟨rfl, h2, hr2⟩
    exact ⟨hr2.trans hr1, Or.inl ⟨rfl, h2, hg⟩⟩
  · have h1' := h1.perm (l' := (((at_ sys).toList ++ ((at_ pub).toList ++ ((at_ p).toList ++ ([n.addr] ++ [q.addr])))) ++ (held d ++ l))) (by perms99)
    rw [after_bind]
    refine after_mono (frees_giveBack sys pub p n q _ _ _ h1') ?_
    rintro _ m2 ⟨h2, hr2, ht2⟩
    exact ⟨hr2.trans hr1, Or.inr ⟨d, rfl, hd, h2, hg, ht2.trans ht⟩⟩

theorem withSystem_spec {q n : Str} {p pub : Option Str} (sys : Option (List Nat))
    (h : Holds r (((at_ pub).toList ++ ((at_ p).toList ++ ([n.addr] ++ [q.addr]))) ++ l) m) :
    Makes (withSystem q p n pub sys) r l m (idCost sys + (1 + nameCost q.data)) held
      (fun d => Describes d q.data (pub.map (·.data)) sys) := by
  unfold withSystem
  refine makes_seq (makeOpt_spec sys h) ?_ ?_
  · intro m1 h1
    exact frees_then (frees_giveBack none pub p n q) h1
  · rintro s m1 rfl h1
    exact finish_spec (h1.perm (by perms99))

theorem withPublic_spec {q n : Str} {p : Option Str} (pub sys : Option (List Nat))
    (h : Holds r (((at_ p).toList ++ ([n.addr] ++ [q.addr])) ++ l) m) :
    Makes (withPublic q p n pub sys) r l m (idCost pub + (idCost sys + (1 + nameCost q.data))) held (fun d => Describes d q.data pub sys) := by
  unfold withPublic
  refine makes_seq (makeOpt_spec pub h) ?_ ?_
  · intro m1 h1
    exact frees_then (frees_giveBack none none p n q) h1
  · rintro s m1 rfl h1
    exact withSystem_spec sys (h1.perm (by perms99))

theorem withName_spec {q : Str} (pub sys : Option (List Nat)) (h : Holds r ([q.addr] ++ l) m) :
    Makes (withName q pub sys) r l m (nameCost q.data + (idCost pub + (idCost sys + (1 + nameCost q.data)))) held
      (fun d => Describes d q.data pub sys) := by
  unfold withName
  refine makes_seq (split_spec h (live_mem (by simp))) ?_ ?_
  · intro m1 h1
    exact frees_then (Frees.one q.addr) h1
  · rintro ⟨p, n⟩ m1 _ h1
    exact withPublic_spec pub sys (h1.perm (by unfold halves; perms99))

theorem createDocumentType_spec (q : List Nat) (pub sys : Option (List Nat)) (h : Holds r l m) :
    Makes (createDocumentType (some q) pub sys) r l m (cost q pub sys) held (fun d => Describes d q pub sys) := by
  unfold createDocumentType cost
  dsimp only
  refine makes_seq (make_spec h) pass ?_
  rintro s m1 rfl h1
  exact withName_spec pub sys h1

theorem frees_destroy (d : Doctype) : Frees (destroy d) (held d) :=
  ((frees_opt _).seq ((frees_opt _).seq ((frees_opt _).seq ((Frees.one d.name.addr).seq (Frees.one d.block)))))

theorem getName_spec {d : Doctype} {q : List Nat} (hd : Halves q d.pre d.name) (h : Holds r l m) (hn : 0 < r d.name.addr + l.count d.name.addr) :
    Makes (getName d) r l m (if 58 ∈ q then 6 else 0) (fun s => [s.addr]) (fun s => s.data = q) := by
  unfold getName
  cases hp : d.pre with
  | none =>
    have hm : 58 ∉ q := fun hm => by
      have := hd.some.mpr hm
      rw [hp] at this; simp at this
    rw [if_neg hm]
    dsimp only
    unfold Makes
    rw [after_bind]
    refine after_mono (ref_live h hn) ?_
    rintro _ m1 ⟨h1, hr1, ht1⟩
    refine ⟨hr1, Or.inr ⟨_, rfl, ?_, h1, granted_zero _ _, ht1⟩⟩
    have := hd.spell
    rw [hp] at this
    exact this
  | some p =>
    have hm : 58 ∈ q := hd.some.mp (by rw [hp]; rfl)
    rw [if_pos hm]
    dsimp only
    refine makes_seq (c1 := 2) (c2 := 4) (make_spec h) pass ?_
    intro colon m1 hc h1
    dsimp only
    unfold Makes
    rw [after_bind]
    refine after_mono (make_spec (l := [colon.addr] ++ l) h1) ?_
    rintro o m2 ⟨hr2, ⟨rfl, h2, hg2⟩ | ⟨t, rfl, ht, h2, hg2, hT2⟩⟩
    · rw [after_bind]
      refine after_mono (unref_spec h2) ?_
      rintro _ m3 ⟨h3, hr3, ht3⟩
      exact ⟨hr3.trans hr2, Or.inl ⟨rfl, h3, fun hh => hg2 (granted_mono hh (by omega))⟩⟩
    · rw [after_bind]
      refine after_mono (unref_spec (a := colon.addr) (l := [t.addr] ++ l) (h2.perm (by perms99))) ?_
      rintro _ m3 ⟨h3, hr3, ht3⟩
      dsimp only
      unfold nameRest
      rw [after_bind]
      refine after_mono (make_spec (l := [t.addr] ++ l) h3) ?_
      rintro o m4 ⟨hr4, hc4⟩
      rw [hr3, hr2, ht3, hT2] at hc4
      rcases hc4 with ⟨rfl, h4, hg4⟩ | ⟨s, rfl, hs, h4, hg4, hT4⟩
      · refine after_mono (frees_then (v := (.error .noMem : Except Exc Str)) (Frees.one t.addr) h4) ?_
        rintro o m5 ⟨rfl, h5, hr5⟩
        exact ⟨by rw [hr5, hr4, hr3, hr2], Or.inl ⟨rfl, h5, fun hh => hg4 ((granted_add (a := 2) (b := 2)).mp hh).2⟩⟩
      · rw [after_bind]
        refine after_mono (unref_spec (a := t.addr) (l := [s.addr] ++ l) (h4.perm (by perms99))) ?_
        rintro _ m5 ⟨h5, hr5, ht5⟩
        refine ⟨by rw [hr5, hr4, hr3, hr2], Or.inr ⟨s, rfl, ?_, h5, (granted_add (a := 2) (b := 2)).mpr ⟨hg2, hg4⟩, by omega⟩⟩
        have := hd.spell
        rw [hp] at this
        rw [hs, ht, hc, ← this]
        show (p.data ++ [58]) ++ d.name.data = p.data ++ 58 :: d.name.data
        simp

/-! ## C99 -/

/-- **C99, creation.**  Whatever name and identifiers are passed, and whatever requests are refused: either everything is granted, and the document type
has that name and those identifiers and holds one reference to each of its strings, which nobody else holds; or the answer is `DOM_NO_MEM_ERR` and the
memory is as it was. -/
theorem C99_create (q : List Nat) (pub sys : Option (List Nat)) (m : Mem) (hm : m.Valid) :
    ∃ o m', createDocumentType (some q) pub sys m = .ok o m' ∧
      ((o = .error .noMem ∧ ¬ Granted m.room m.time (cost q pub sys) ∧ m'.refs = m.refs) ∨
       (∃ d, o = .ok d ∧ Granted m.room m.time (cost q pub sys) ∧ m'.time = m.time + cost q pub sys ∧ Describes d q pub sys ∧
          Holds m.refs (held d) m')) := by
  obtain ⟨o, m', e, _, hc⟩ := after_elim (createDocumentType_spec q pub sys hm.holds)
  refine ⟨o, m', e, ?_⟩
  rcases hc with ⟨rfl, h, hg⟩ | ⟨d, rfl, hd, h, hg, ht⟩
  · exact Or.inl ⟨rfl, hg, h.refs_eq⟩
  · exact Or.inr ⟨d, rfl, hg, ht, hd, by rwa [List.append_nil] at h⟩

/-- **C99, no name.**  Without a name nothing is done. -/
theorem C99_null (pub sys : Option (List Nat)) (m : Mem) :
    createDocumentType none pub sys m = .ok (.error .invalidCharacter) m := rfl

/-- **C99, names.**  The name that a document type answers is, character by character, the one it was created with, though only its parts are kept; for names
with a colon the answer takes six requests, and if one is refused the memory is as it was. -/
theorem C99_name (d : Doctype) (q : List Nat) (pub sys : Option (List Nat)) (hd : Describes d q pub sys) (h : Holds r (held d ++ l) m) :
    ∃ o m', getName d m = .ok o m' ∧
      ((o = .error .noMem ∧ 58 ∈ q ∧ ¬ Granted m.room m.time 6 ∧ m'.refs = m.refs) ∨
       (∃ s, o = .ok s ∧ s.data = q ∧ (58 ∈ q → Granted m.room m.time 6) ∧ Holds r (s.addr :: (held d ++ l)) m')) := by
  obtain ⟨o, m', e, _, hc⟩ := after_elim (getName_spec hd.name h (live_mem (by simp [held])))
  refine ⟨o, m', e, ?_⟩
  rcases hc with ⟨rfl, h', hg⟩ | ⟨s, rfl, hs, h', hg, ht⟩
  · left
    by_cases hq : 58 ∈ q
    · rw [if_pos hq] at hg
      exact ⟨rfl, hq, hg, by funext a; rw [h'.refs a, h.refs a]⟩
    · rw [if_neg hq] at hg
      exact (hg (granted_zero _ _)).elim
  · refine Or.inr ⟨s, rfl, hs, fun hq => ?_, h'⟩
    rwa [if_pos hq] at hg

/-- **C99, identifiers.**  The identifiers that a document type answers are those it was created with, each with a new reference. -/
theorem C99_ids (d : Doctype) (q : List Nat) (pub sys : Option (List Nat)) (hd : Describes d q pub sys) (h : Holds r (held d ++ l) m) :
    (∃ o m', getPublic d m = .ok o m' ∧ o.map (·.data) = pub ∧ Holds r ((at_ o).toList ++ (held d ++ l)) m' ∧ m'.time = m.time) ∧
    (∃ o m', getSystem d m = .ok o m' ∧ o.map (·.data) = sys ∧ Holds r ((at_ o).toList ++ (held d ++ l)) m' ∧ m'.time = m.time) := by
  constructor
  · have : after (getPublic d) m (fun o m' => o.map (·.data) = pub ∧ Holds r ((at_ o).toList ++ (held d ++ l)) m' ∧ m'.time = m.time) := by
      unfold getPublic
      rw [after_bind]
      refine after_mono (refOpt_spec (o := at_ d.pub) h (fun a ha => live_mem (by simp [held, ha]))) ?_
      rintro _ m1 ⟨h1, _, ht⟩
      exact ⟨hd.pub, h1, ht⟩
    exact after_elim this
  · have : after (getSystem d) m (fun o m' => o.map (·.data) = sys ∧ Holds r ((at_ o).toList ++ (held d ++ l)) m' ∧ m'.time = m.time) := by
      unfold getSystem
      rw [after_bind]
      refine after_mono (refOpt_spec (o := at_ d.sys) h (fun a ha => live_mem (by simp [held, ha]))) ?_
      rintro _ m1 ⟨h1, _, ht⟩
      exact ⟨hd.sys, h1, ht⟩
    exact after_elim this

/-- **C99, destruction.**  A document type gives back what it holds, and no more, without asking for memory. -/
theorem C99_destroy (d : Doctype) (h : Holds r (held d ++ l) m) : ∃ m', destroy d m = .ok () m' ∧ Holds r l m' ∧ m'.time = m.time := by
  obtain ⟨_, m', e, h', _, ht⟩ := after_elim (frees_destroy d r l m h)
  exact ⟨m', e, h', ht⟩

/-- **Specification.**  The questions that a client may ask. -/
inductive Ask
  | name | pub | sys

/-- A question; the address of the string that is answered, if there is one. -/
def Ask.run (d : Doctype) : Ask → M (Option Nat)
  | .name => do
      let s ← getName d
      match s with
      | .ok s => pure (some s.addr)
      | .error _ => pure none
  | .pub => do
      let s ← getPublic d
      pure (at_ s)
  | .sys => do
      let s ← getSystem d
      pure (at_ s)

/-- Questions, and all the strings that are answered. -/
def asks (d : Doctype) : List Ask → M (List Nat)
  | [] => pure []
  | a :: as => do
      let s ← a.run d
      let rest ← asks d as
      pure (s.toList ++ rest)

theorem ask_run {d : Doctype} {q : List Nat} {pub sys : Option (List Nat)} (hd : Describes d q pub sys) (a : Ask) (h : Holds r (held d ++ l) m) :
    after (a.run d) m (fun o m' => Holds r (o.toList ++ (held d ++ l)) m') := by
  cases a with
  | name =>
    obtain ⟨o, m', e, hc⟩ := C99_name d q pub sys hd h
    show after (getName d >>= _) m _
    rw [after_bind]
    refine after_of_eq e ?_
    rcases hc with ⟨rfl, _, _, hr⟩ | ⟨s, rfl, _, _, h'⟩
    · have hT := after_elim (getName_spec hd.name h (live_mem (by simp [held])))
      obtain ⟨o, m2, e2, _, hc⟩ := hT
      rw [e] at e2
      injection e2 with e2 e3
      subst e2 e3
      rcases hc with ⟨_, h', _⟩ | ⟨s, hs, _⟩
      · exact h'
      · cases hs
    · exact h'
  | pub =>
    obtain ⟨o, m', e, _, h', _⟩ := (C99_ids d q pub sys hd h).1
    show after (getPublic d >>= _) m _
    rw [after_bind]
    exact after_of_eq e h'
  | sys =>
    obtain ⟨o, m', e, _, h', _⟩ := (C99_ids d q pub sys hd h).2
    show after (getSystem d >>= _) m _
    rw [after_bind]
    exact after_of_eq e h'

theorem asks_run {d : Doctype} {q : List Nat} {pub sys : Option (List Nat)} (hd : Describes d q pub sys) :
    ∀ (as : List Ask) {r : Nat → Nat} {l : List Nat} {m : Mem}, Holds r (held d ++ l) m →
      after (asks d as) m (fun o m' => Holds r (held d ++ (o ++ l)) m')
  | [], _, _, _, h => h
  | a :: as, r, l, m, h => by
    unfold asks
    rw [after_bind]
    refine after_mono (ask_run hd a h) ?_
    intro o m1 h1
    rw [after_bind]
    refine after_mono (asks_run hd as (l := o.toList ++ l) (h1.perm (by perms99))) ?_
    intro os m2 h2
    exact h2.perm (by perms99)

/-- **C99, the whole life.**  A document type is created, asked any questions in any order, some of them refused for lack of memory, and destroyed: there is no
undefined behaviour, and afterwards exactly the strings that were answered are held. -/
theorem C99_life (q : List Nat) (pub sys : Option (List Nat)) (as : List Ask) (m : Mem) (hm : m.Valid)
    (hg : Granted m.room m.time (cost q pub sys)) :
    ∃ d m1 got m2 m3, createDocumentType (some q) pub sys m = .ok (.ok d) m1 ∧ asks d as m1 = .ok got m2 ∧ destroy d m2 = .ok () m3 ∧
      ∀ a, m3.refs a = m.refs a + got.count a := by
  obtain ⟨o, m1, e, ⟨_, hn, _⟩ | ⟨d, rfl, _, _, hd, h1⟩⟩ := C99_create q pub sys m hm
  · exact (hn hg).elim
  · obtain ⟨got, m2, e2, h2⟩ := after_elim (asks_run hd as (l := []) (by rwa [List.append_nil]))
    obtain ⟨m3, e3, h3, _⟩ := C99_destroy d h2
    refine ⟨d, m1, got, m2, m3, e, e2, e3, fun a => ?_⟩
    rw [h3.refs a, List.append_nil]

/-- **C99, violated**: the comment of `dom_implementation_create_document_type` (src/core/implementation.c:40-59) promises `DOM_INVALID_CHARACTER_ERR` for invalid names
and `DOM_NAMESPACE_ERR` for malformed ones, but every string is taken as a name: the call fails only for lack of memory. -/
theorem C99_unchecked_violated (q : List Nat) (pub sys : Option (List Nat)) (m : Mem) (hm : m.Valid) :
    (∀ m', createDocumentType (some q) pub sys m ≠ .ok (.error .invalidCharacter) m' ∧
      createDocumentType (some q) pub sys m ≠ .ok (.error .namespace) m') ∧
    (Granted m.room m.time (cost q pub sys) → ∃ d m', createDocumentType (some q) pub sys m = .ok (.ok d) m') := by
  obtain ⟨o, m1, e, hc⟩ := C99_create q pub sys m hm
  refine ⟨fun m' => ?_, fun hg => ?_⟩
  · rw [e]
    rcases hc with ⟨rfl, _⟩ | ⟨d, rfl, _⟩
    · constructor <;> intro h <;> simp at h
    · constructor <;> intro h <;> simp at h
  · rcases hc with ⟨_, hn, _⟩ | ⟨d, rfl, _⟩
    · exact (hn hg).elim
    · exact ⟨d, m1, e⟩

/-- Every case occurs: the document type `a:b` with both identifiers takes fifteen requests; with any of them refused there is none and nothing is left behind, with
the next one refused there is one, and it cannot answer its name.  `1::` and the empty name are accepted. -/
theorem C99_cases :
    cost [97, 58, 98] (some [112]) (some [115]) = 15 ∧
    (∀ k, k < 15 → ∃ m', createDocumentType (some [97, 58, 98]) (some [112]) (some [115]) (tight k) = .ok (.error .noMem) m' ∧ m'.refs = fun _ => 0) ∧
    (∃ d m' m'', createDocumentType (some [97, 58, 98]) (some [112]) (some [115]) (tight 15) = .ok (.ok d) m' ∧ getName d m' = .ok (.error .noMem) m'' ∧
      m''.refs = m'.refs) ∧
    (∃ d m', createDocumentType (some [49, 58, 58]) none none (tight 100) = .ok (.ok d) m' ∧ d.name.data = [58]) ∧
    (∃ d m', createDocumentType (some []) none none (tight 100) = .ok (.ok d) m' ∧ d.name.data = []) := by
  have hgt : ∀ k n, n ≤ k → Granted (tight k).room (tight k).time n := fun k n hk => granted_mono (tight_refused k).1 hk
  refine ⟨by decide, fun k hk => ?_, ?_, ?_, ?_⟩
  · obtain ⟨o, m1, e, ⟨rfl, _, hr⟩ | ⟨d, _, hg, _⟩⟩ := C99_create [97, 58, 98] (some [112]) (some [115]) (tight k) (tight_valid k)
    · exact ⟨m1, e, hr⟩
    · have h15 : cost [97, 58, 98] (some [112]) (some [115]) = 15 := by decide
      have := granted_refused hg (tight_refused k).2
      omega
  · have h15 : cost [97, 58, 98] (some [112]) (some [115]) = 15 := by decide
    obtain ⟨o, m1, e, ⟨_, hn, _⟩ | ⟨d, rfl, hg, ht, hd, h⟩⟩ := C99_create [97, 58, 98] (some [112]) (some [115]) (tight 15) (tight_valid 15)
    · exact (hn (hgt 15 _ (by rw [h15]; exact Nat.le_refl _))).elim
    · have hroom : m1.room = (tight 15).room := by
        obtain ⟨o, m2, e2, hr, _⟩ := after_elim (createDocumentType_spec [97, 58, 98] (some [112]) (some [115]) (tight_valid 15).holds)
        rw [e] at e2
        injection e2 with _ e2
        rw [e2]; exact hr
      obtain ⟨o, m2, e2, ⟨rfl, _, _, hr⟩ | ⟨s, _, _, hg6, _⟩⟩ := C99_name (l := []) d _ _ _ hd (by rwa [List.append_nil])
      · exact ⟨d, m1, m2, e, e2, hr⟩
      · have := hg6 (by decide) 0 (by decide)
        rw [hroom, ht, h15] at this
        exact absurd this (by decide)
  · exact ⟨_, _, rfl, rfl⟩
  · exact ⟨_, _, rfl, rfl⟩

end Dom.Oom.Doctype
