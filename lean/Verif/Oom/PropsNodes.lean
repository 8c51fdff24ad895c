import Verif.Oom.Nodes
import Verif.Oom.PropsDoctype
/-!
# C100: creating nodes when memory runs out
-/
namespace Dom.Oom.Nodes
set_option linter.unusedSimpArgs false
set_option linter.unusedVariables false
open Dom.Oom
open Dom.Oom.Chars (Str)
open Dom.Oom.Doctype (make splitQname at_ Halves Makes makes_seq pass frees_then makes_ok make_spec split_spec live_at nameCost halves idx_none idx_some)

/-! ## Specification -/

/-- **Specification.**  The references of a node. -/
def held (n : Made) : List Nat := (at_ n.pre).toList ++ ((at_ n.ns).toList ++ ((at_ n.value).toList ++ [n.name.addr, n.block]))

/-- **Specification.**  ASCII lower case letters in upper case. -/
def upper (c : Nat) : Nat := if 'a'.toNat ≤ c ∧ c ≤ 'z'.toNat then c - 'a'.toNat + 'A'.toNat else c

/-- **Specification.**  A text, as characters. -/
def chars (s : String) : List Nat := s.toList.map Char.toNat

/-- **Specification.**  What the node created by a call must be. -/
def Fits : Call → Made → Prop
  | .element q, n => n.name = q ∧ n.value = none ∧ n.ns = none ∧ n.pre = none
  | .attribute q, n => n.name = q ∧ n.value = none ∧ n.ns = none ∧ n.pre = none
  | .entityReference q, n => n.name = q ∧ n.value = none ∧ n.ns = none ∧ n.pre = none
  | .instruction q data, n => n.name = q ∧ n.value = data ∧ n.ns = none ∧ n.pre = none
  | .fragment, n => n.name.data = chars "#document-fragment" ∧ n.value = none ∧ n.ns = none ∧ n.pre = none
  | .text data, n => n.name.data = chars "#text" ∧ n.value = data ∧ n.ns = none ∧ n.pre = none
  | .comment data, n => n.name.data = chars "#comment" ∧ n.value = data ∧ n.ns = none ∧ n.pre = none
  | .cdata data, n => n.name.data = chars "#cdata-section" ∧ n.value = data ∧ n.ns = none ∧ n.pre = none
  | .elementNs ns q, n => Halves q.data n.pre n.name ∧ n.value = none ∧ n.ns = ns
  | .attributeNs ns q, n => Halves q.data n.pre n.name ∧ n.value = none ∧ n.ns = ns
  | .htmlElement q, n => n.name.data = q.data.map upper ∧ n.value = none ∧ n.ns = none ∧ n.pre = none
  | .htmlElementNs ns q, n => (∃ l, Halves q.data n.pre l ∧ n.name.data = l.data.map upper) ∧ n.value = none ∧ n.ns = ns
  | .htmlAttribute q, n => n.name = q ∧ n.value = none ∧ n.ns = none ∧ n.pre = none
  | .htmlAttributeNs ns q, n => Halves q.data n.pre n.name ∧ n.value = none ∧ n.ns = ns

/-- **Specification.**  What is before the first colon. -/
def before (q : List Nat) : List Nat := q.takeWhile (· ≠ 58)

/-- **Specification.**  What is after the first colon. -/
def behind (q : List Nat) : List Nat := (q.dropWhile (· ≠ 58)).drop 1

/-- **Specification.**  Does the name have a prefix: a colon that is not its first character. -/
def Prefixed (q : List Nat) : Prop := 58 ∈ q ∧ before q ≠ []

instance (q : List Nat) : Decidable (Prefixed q) := by unfold Prefixed; infer_instance

/-- **Specification.**  Does the name agree with the namespace. -/
def agrees (R : Rules) (q : List Nat) : Option (List Nat) → Bool
  | none => ¬ Prefixed q
  | some n =>
    if Prefixed q then R.ncname (before q) && R.ncname (behind q) && R.pre (before q) n
    else decide (58 ∉ q) && R.plain q n

/-- **Specification.**  The error for a name. -/
def verdict (R : Rules) : Call → Option Exc
  | .element q => if R.name q.data then none else some .invalidCharacter
  | .attribute q => if R.name q.data then none else some .invalidCharacter
  | .entityReference q => if R.name q.data then none else some .invalidCharacter
  | .instruction q _ => if R.name q.data then none else some .invalidCharacter
  | .elementNs ns q => if R.name q.data then if agrees R q.data (ns.map (·.data)) then none else some .namespace else some .invalidCharacter
  | .attributeNs ns q => if R.name q.data then if agrees R q.data (ns.map (·.data)) then none else some .namespace else some .invalidCharacter
  | .htmlElement q => if q.data = [] then some .invalidCharacter else none
  | .htmlElementNs _ q => if q.data = [] ∨ (58 ∈ q.data ∧ behind q.data = []) then some .invalidCharacter else none
  | _ => none

/-- **Specification.**  The requests before the name is judged. -/
def judgeCost (R : Rules) : Call → Nat
  | .elementNs ns q => if R.name q.data ∧ Prefixed q.data ∧ ns.isSome then 4 else 0
  | .attributeNs ns q => if R.name q.data ∧ Prefixed q.data ∧ ns.isSome then 4 else 0
  | .htmlElementNs _ q => nameCost q.data
  | _ => 0

/-- **Specification.**  The requests after that. -/
def makeCost : Call → Nat
  | .element _ => 1
  | .attribute _ => 1
  | .entityReference _ => 1
  | .instruction _ _ => 1
  | .fragment => 3
  | .text _ => 3
  | .comment _ => 3
  | .cdata _ => 3
  | .elementNs _ q => nameCost q.data + 1
  | .attributeNs _ q => nameCost q.data + 1
  | .htmlElement _ => 4
  | .htmlElementNs _ _ => 4
  | .htmlAttribute _ => 1
  | .htmlAttributeNs _ q => nameCost q.data + 1

/-- **Specification.**  The strings that are passed. -/
def args : Call → List Str
  | .element q => [q]
  | .attribute q => [q]
  | .entityReference q => [q]
  | .instruction q data => q :: data.toList
  | .fragment => []
  | .text data => data.toList
  | .comment data => data.toList
  | .cdata data => data.toList
  | .elementNs ns q => q :: ns.toList
  | .attributeNs ns q => q :: ns.toList
  | .htmlElement q => [q]
  | .htmlElementNs ns q => q :: ns.toList
  | .htmlAttribute q => [q]
  | .htmlAttributeNs ns q => q :: ns.toList

/-- **Specification.**  Is it an SVG element for an HTML document. -/
def Svg (R : Rules) : Call → Prop
  | .htmlElementNs (some n) _ => R.svg n.data = true
  | _ => False

/-! ## Tools -/

variable {r : Nat → Nat} {l : List Nat} {m : Mem} {R : Rules}

/-- Two lists of references are the same up to their order. -/
macro "perms100" : tactic => `(tactic| (
  rw [List.perm_iff_count]; intro x
  simp only [held, halves, at_, List.count_append, List.count_cons, List.count_nil, Option.map_some,
    Option.toList_some, Option.map_none, Option.toList_none, List.cons_append, List.nil_append]
  omega))

/-- After `c1` requests the verdict `v` is found; if there is no error, `c2` more are made. -/
def Ends {α : Type} (x : M (Except Exc α)) (r : Nat → Nat) (l : List Nat) (m : Mem) (c1 : Nat) (v : Option Exc) (c2 : Nat) (objs : α → List Nat)
    (good : α → Prop) : Prop :=
  after x m (fun o m' => m'.room = m.room ∧
    ((o = .error .noMem ∧ Holds r l m' ∧ ¬ Granted m.room m.time (match v with | none => c1 + c2 | some _ => c1)) ∨
     (∃ e, v = some e ∧ o = .error e ∧ Holds r l m' ∧ Granted m.room m.time c1 ∧ m'.time = m.time + c1) ∨
     (v = none ∧ ∃ a, o = .ok a ∧ good a ∧ Holds r (objs a ++ l) m' ∧ Granted m.room m.time (c1 + c2) ∧ m'.time = m.time + (c1 + c2))))

theorem Ends.ofMakes {α : Type} {x : M (Except Exc α)} {c : Nat} {objs : α → List Nat} {good : α → Prop} (h : Makes x r l m c objs good) :
    Ends x r l m 0 none c objs good := by
  refine after_mono h ?_
  rintro o m1 ⟨hr, ⟨rfl, h1, hg⟩ | ⟨a, rfl, ha, h1, hg, ht⟩⟩
  · exact ⟨hr, Or.inl ⟨rfl, h1, by simpa using hg⟩⟩
  · exact ⟨hr, Or.inr (Or.inr ⟨rfl, a, rfl, ha, h1, by simpa using hg, by omega⟩)⟩

theorem Ends.refuse {α : Type} {e : Exc} {c : Nat} {objs : α → List Nat} {good : α → Prop} (h : Holds r l m) :
    Ends (pure (.error e)) r l m 0 (some e) c objs good :=
  ⟨rfl, Or.inr (Or.inl ⟨e, rfl, rfl, h, granted_zero _ _, rfl⟩)⟩

theorem Makes.weaken {α : Type} {x : M (Except Exc α)} {c : Nat} {objs : α → List Nat} {good good' : α → Prop} (h : Makes x r l m c objs good)
    (hg : ∀ a, good a → good' a) : Makes x r l m c objs good' := by
  refine after_mono h ?_
  rintro o m1 ⟨hr, h1 | ⟨a, rfl, ha, h1⟩⟩
  · exact ⟨hr, Or.inl h1⟩
  · exact ⟨hr, Or.inr ⟨a, rfl, hg a ha, h1⟩⟩

theorem Ends.weaken {α : Type} {x : M (Except Exc α)} {c1 c2 : Nat} {v : Option Exc} {objs : α → List Nat} {good good' : α → Prop}
    (h : Ends x r l m c1 v c2 objs good) (hg : ∀ a, good a → good' a) : Ends x r l m c1 v c2 objs good' := by
  refine after_mono h ?_
  rintro o m1 ⟨hr, h1 | h1 | ⟨hv, a, rfl, ha, h1⟩⟩
  · exact ⟨hr, Or.inl h1⟩
  · exact ⟨hr, Or.inr (Or.inl h1)⟩
  · exact ⟨hr, Or.inr (Or.inr ⟨hv, a, rfl, hg a ha, h1⟩)⟩

/-- Something is given back at the end, whatever the result. -/
theorem Makes.tidy {α : Type} {x : M (Except Exc α)} {y : M Unit} {as : List Nat} {c : Nat} {objs : α → List Nat} {good : α → Prop}
    (hx : Makes x r (as ++ l) m c objs good) (hy : Frees y as) : Makes (x >>= fun o => y >>= fun _ => pure o) r l m c objs good := by
  unfold Makes
  rw [after_bind]
  refine after_mono hx ?_
  rintro o m1 ⟨hr, ⟨rfl, h1, hg⟩ | ⟨a, rfl, ha, h1, hg, ht⟩⟩
  · rw [after_bind]
    refine after_mono (hy _ _ _ h1) ?_
    rintro _ m2 ⟨h2, hr2, ht2⟩
    exact ⟨hr2.trans hr, Or.inl ⟨rfl, h2, hg⟩⟩
  · rw [after_bind]
    refine after_mono (hy r (objs a ++ l) _ (h1.perm (by perms100))) ?_
    rintro _ m2 ⟨h2, hr2, ht2⟩
    exact ⟨hr2.trans hr, Or.inr ⟨a, rfl, ha, h2, hg, ht2.trans ht⟩⟩

theorem Ends.tidy {α : Type} {x : M (Except Exc α)} {y : M Unit} {as : List Nat} {c1 c2 : Nat} {v : Option Exc} {objs : α → List Nat} {good : α → Prop}
    (hx : Ends x r (as ++ l) m c1 v c2 objs good) (hy : Frees y as) : Ends (x >>= fun o => y >>= fun _ => pure o) r l m c1 v c2 objs good := by
  unfold Ends
  rw [after_bind]
  refine after_mono hx ?_
  rintro o m1 ⟨hr, ⟨rfl, h1, hg⟩ | ⟨e, hv, rfl, h1, hg, ht⟩ | ⟨hv, a, rfl, ha, h1, hg, ht⟩⟩
  · rw [after_bind]
    refine after_mono (hy _ _ _ h1) ?_
    rintro _ m2 ⟨h2, hr2, ht2⟩
    exact ⟨hr2.trans hr, Or.inl ⟨rfl, h2, hg⟩⟩
  · rw [after_bind]
    refine after_mono (hy _ _ _ h1) ?_
    rintro _ m2 ⟨h2, hr2, ht2⟩
    exact ⟨hr2.trans hr, Or.inr (Or.inl ⟨e, hv, rfl, h2, hg, ht2.trans ht⟩)⟩
  · rw [after_bind]
    refine after_mono (hy r (objs a ++ l) _ (h1.perm (by perms100))) ?_
    rintro _ m2 ⟨h2, hr2, ht2⟩
    exact ⟨hr2.trans hr, Or.inr (Or.inr ⟨hv, a, rfl, ha, h2, hg, ht2.trans ht⟩)⟩

/-! ## The parts -/

theorem nodeCreate_spec {name : Str} {value ns pre : Option Str} (h : Holds r l m) (hn : 0 < r name.addr + l.count name.addr)
    (hv : ∀ a, a ∈ (at_ value).toList → 0 < r a + l.count a) (hs : ∀ a, a ∈ (at_ ns).toList → 0 < r a + l.count a)
    (hp : ∀ a, a ∈ (at_ pre).toList → 0 < r a + l.count a) :
    Makes (nodeCreate name value ns pre) r l m 1 held (fun n => n.name = name ∧ n.value = value ∧ n.ns = ns ∧ n.pre = pre) := by
  unfold nodeCreate Makes
  rw [after_bind]
  refine after_mono (malloc_spec h) ?_
  rintro o m1 ⟨hr1, ht1, ⟨rfl, h1, hg⟩ | ⟨b, rfl, h1, hg⟩⟩
  · exact ⟨hr1, Or.inl ⟨rfl, h1, hg⟩⟩
  · dsimp only
    rw [after_bind]
    refine after_mono (ref_live h1 (live_cons hn)) ?_
    rintro _ m2 ⟨h2, hr2, ht2⟩
    rw [after_bind]
    have h2' : Holds r ([name.addr, b] ++ l) m2 := h2
    refine after_mono (refOpt_spec (o := at_ value) h2' (live_at hv)) ?_
    rintro _ m3 ⟨h3, hr3, ht3⟩
    rw [after_bind]
    have h3' := h3.perm (l' := ((at_ value).toList ++ [name.addr, b]) ++ l) (by perms100)
    refine after_mono (refOpt_spec (o := at_ ns) h3' (live_at hs)) ?_
    rintro _ m4 ⟨h4, hr4, ht4⟩
    rw [after_bind]
    have h4' := h4.perm (l' := ((at_ ns).toList ++ ((at_ value).toList ++ [name.addr, b])) ++ l) (by perms100)
    refine after_mono (refOpt_spec (o := at_ pre) h4' (live_at hp)) ?_
    rintro _ m5 ⟨h5, hr5, ht5⟩
    refine ⟨by rw [hr5, hr4, hr3, hr2, hr1], Or.inr ⟨_, rfl, ⟨rfl, rfl, rfl, rfl⟩, h5.perm (by perms100), hg, ?_⟩⟩
    rw [ht5, ht4, ht3, ht2, ht1]

theorem no_at {P : Nat → Prop} : ∀ a, a ∈ (at_ none).toList → P a := fun a h => by simp [at_] at h

theorem fixedName_spec {text : List Nat} {value : Option Str} (h : Holds r l m) (hv : ∀ a, a ∈ (at_ value).toList → 0 < r a + l.count a) :
    Makes (fixedName text value) r l m 3 held (fun n => n.name.data = text ∧ n.value = value ∧ n.ns = none ∧ n.pre = none) := by
  unfold fixedName
  refine makes_seq (c1 := 2) (c2 := 1) (make_spec h) pass ?_
  rintro s m1 rfl h1
  refine Makes.weaken (Makes.tidy (nodeCreate_spec h1 (live_mem (by simp)) (fun a ha => live_mono (hv a ha)) no_at no_at) (Frees.one s.addr)) ?_
  rintro n ⟨rfl, h2, h3, h4⟩
  exact ⟨rfl, h2, h3, h4⟩

theorem frees_tidy (s : Str) (p : Option Str) : Frees (tidy s p) ([s.addr] ++ (at_ p).toList) := (Frees.one _).seq (frees_opt _)

theorem fromParts_spec {q : Str} {ns : Option Str} (h : Holds r l m) (hq : 0 < r q.addr + l.count q.addr)
    (hs : ∀ a, a ∈ (at_ ns).toList → 0 < r a + l.count a) :
    Makes (fromParts q ns) r l m (nameCost q.data + 1) held (fun n => Halves q.data n.pre n.name ∧ n.value = none ∧ n.ns = ns) := by
  unfold fromParts
  refine makes_seq (split_spec h hq) pass ?_
  rintro ⟨p, s⟩ m1 hh h1
  have h1' := h1.perm (l' := ([s.addr] ++ (at_ p).toList) ++ l) (by perms100)
  refine Makes.weaken (Makes.tidy (nodeCreate_spec h1' (live_mem (by simp)) no_at (fun a ha => live_mono (hs a ha))
    (fun a ha => live_mem (by simp at ha; simp [ha]))) (frees_tidy s p)) ?_
  rintro n ⟨rfl, h2, h3, rfl⟩
  exact ⟨hh, h2, h3⟩

theorem checked_spec {q : Str} {value : Option Str} (h : Holds r l m) (hq : 0 < r q.addr + l.count q.addr)
    (hv : ∀ a, a ∈ (at_ value).toList → 0 < r a + l.count a) :
    Ends (checked R q value) r l m 0 (if R.name q.data then none else some .invalidCharacter) 1 held
      (fun n => n.name = q ∧ n.value = value ∧ n.ns = none ∧ n.pre = none) := by
  unfold checked
  cases hn : R.name q.data with
  | false => exact Ends.refuse h
  | true =>
    rw [if_neg (by simp), if_pos rfl]
    exact Ends.ofMakes (nodeCreate_spec h hq hv no_at no_at)

/-! ## Names and namespaces -/

theorem idx_before : ∀ {q : List Nat} {c : Nat}, q.idxOf? 58 = some c → q.take c = before q ∧ q.drop (c + 1) = behind q
  | [], c, h => by simp at h
  | a :: q, c, h => by
    rw [List.idxOf?_cons] at h
    by_cases ha : a = 58
    · rw [if_pos (by simpa using ha)] at h
      injection h with h
      subst h ha
      simp [before, behind]
    · rw [if_neg (by simpa using ha)] at h
      cases hq : q.idxOf? 58 with
      | none => rw [hq] at h; simp at h
      | some k =>
        rw [hq] at h
        simp only [Option.map_some, Option.some.injEq] at h
        subst h
        obtain ⟨h1, h2⟩ := idx_before hq
        unfold before behind at *
        rw [List.take_succ_cons, List.drop_succ_cons, List.takeWhile_cons, List.dropWhile_cons, if_pos (by simpa using ha),
          if_pos (by simpa using ha), h1, h2]
        exact ⟨rfl, rfl⟩

theorem checkParts_spec {p s n : Str} (h : Holds r ([s.addr] ++ ([p.addr] ++ l)) m) :
    after (checkParts R p s n) m (fun o m' => Holds r l m' ∧ m'.room = m.room ∧ m'.time = m.time ∧
      o = if R.ncname p.data && R.ncname s.data && R.pre p.data n.data then none else some .namespace) := by
  unfold checkParts
  split
  case isTrue hc =>
    rw [after_bind]
    refine after_mono (unref_spec (a := p.addr) (l := [s.addr] ++ l) (h.perm (by perms100))) ?_
    rintro _ m1 ⟨h1, hr1, ht1⟩
    rw [after_bind]
    refine after_mono (unref_spec (a := s.addr) (l := l) h1) ?_
    rintro _ m2 ⟨h2, hr2, ht2⟩
    refine ⟨h2, hr2.trans hr1, ht2.trans ht1, ?_⟩
    rcases hc with hc | hc <;> simp [hc]
  case isFalse hc =>
    rw [after_bind]
    refine after_mono (unref_spec (a := s.addr) (l := [p.addr] ++ l) h) ?_
    rintro _ m1 ⟨h1, hr1, ht1⟩
    rw [after_bind]
    refine after_mono (unref_spec (a := p.addr) (l := l) h1) ?_
    rintro _ m2 ⟨h2, hr2, ht2⟩
    refine ⟨h2, hr2.trans hr1, ht2.trans ht1, ?_⟩
    have h3 : R.ncname p.data = true := by cases hx : R.ncname p.data <;> simp_all
    have h4 : R.ncname s.data = true := by cases hx : R.ncname s.data <;> simp_all
    simp [h3, h4]

/-- The name is judged after `c` requests, and everything given back. -/
def Judges (x : M (Option Exc)) (r : Nat → Nat) (l : List Nat) (m : Mem) (c : Nat) (v : Option Exc) : Prop :=
  after x m (fun o m' => Holds r l m' ∧ m'.room = m.room ∧
    ((o = some .noMem ∧ ¬ Granted m.room m.time c) ∨ (o = v ∧ Granted m.room m.time c ∧ m'.time = m.time + c)))

theorem checkPrefix_spec {q : List Nat} {c : Nat} {n : Str} (h : Holds r l m) :
    Judges (checkPrefix R q c n) r l m 4
      (if R.ncname (q.take c) && R.ncname (q.drop (c + 1)) && R.pre (q.take c) n.data then none else some .namespace) := by
  unfold checkPrefix Judges
  rw [after_bind]
  refine after_mono (make_spec h) ?_
  rintro o m1 ⟨hr1, ⟨rfl, h1, hg1⟩ | ⟨p, rfl, hp, h1, hg1, ht1⟩⟩
  · exact ⟨h1, hr1, Or.inl ⟨rfl, fun hh => hg1 (granted_mono hh (by omega))⟩⟩
  · dsimp only
    unfold checkLocal
    rw [after_bind]
    refine after_mono (make_spec h1) ?_
    rintro o m2 ⟨hr2, hc⟩
    rw [hr1, ht1] at hc
    rcases hc with ⟨rfl, h2, hg2⟩ | ⟨s, rfl, hs, h2, hg2, ht2⟩
    · refine after_mono (frees_then (v := (some Exc.noMem)) (Frees.one p.addr) h2) ?_
      rintro o m3 ⟨rfl, h3, hr3⟩
      exact ⟨h3, by rw [hr3, hr2, hr1], Or.inl ⟨rfl, fun hh => hg2 ((granted_add (a := 2) (b := 2)).mp hh).2⟩⟩
    · refine after_mono (checkParts_spec h2) ?_
      rintro o m3 ⟨h3, hr3, ht3, ho⟩
      rw [hp, hs] at ho
      exact ⟨h3, by rw [hr3, hr2, hr1], Or.inr ⟨ho, (granted_add (a := 2) (b := 2)).mpr ⟨hg1, hg2⟩, by omega⟩⟩

theorem judges_pure {v : Option Exc} (h : Holds r l m) : Judges (pure v) r l m 0 v := ⟨h, rfl, Or.inr ⟨rfl, granted_zero _ _, rfl⟩⟩

theorem validateQname_spec {q : Str} {ns : Option Str} (hn : R.name q.data = true) (h : Holds r l m) :
    Judges (validateQname R q ns) r l m (if Prefixed q.data ∧ ns.isSome then 4 else 0)
      (if agrees R q.data (ns.map (·.data)) then none else some .namespace) := by
  unfold validateQname
  rw [if_neg (by simp [hn])]
  cases hi : q.data.idxOf? 58 with
  | none =>
    have hm := idx_none hi
    have hp : ¬ Prefixed q.data := fun hp => hm hp.1
    rw [if_neg (fun hx => hp hx.1)]
    cases ns with
    | none =>
      have : (if agrees R q.data (Option.map (·.data) (none : Option Str)) then none else some Exc.namespace) = none := by
        rw [if_pos (by simp [agrees, hp])]
      rw [this]; exact judges_pure h
    | some n =>
      have : agrees R q.data (Option.map (·.data) (some n)) = R.plain q.data n.data := by simp [agrees, hp, hm]
      rw [this]; exact judges_pure h
  | some c =>
    obtain ⟨hs, _⟩ := idx_some hi
    have hm : 58 ∈ q.data := by rw [← hs]; simp
    obtain ⟨hb, hd⟩ := idx_before hi
    cases c with
    | zero =>
      have hb' : before q.data = [] := by rw [← hb]; rfl
      have hp : ¬ Prefixed q.data := fun hp => hp.2 hb'
      rw [if_neg (fun hx => hp hx.1)]
      cases ns with
      | none =>
        have : (if agrees R q.data (Option.map (·.data) (none : Option Str)) then none else some Exc.namespace) = none := by
          rw [if_pos (by simp [agrees, hp])]
        rw [this]; exact judges_pure h
      | some n =>
        have : (if agrees R q.data (Option.map (·.data) (some n)) then none else some Exc.namespace) = some .namespace := by
          rw [if_neg (by simp [agrees, hp, hm])]
        rw [this]; exact judges_pure h
    | succ c =>
      have hp : Prefixed q.data := by
        refine ⟨hm, fun hx => ?_⟩
        rw [← hb] at hx
        cases hq : q.data with
        | nil => rw [hq] at hm; simp at hm
        | cons a t => rw [hq] at hx; simp at hx
      cases ns with
      | none =>
        rw [if_neg (by simp)]
        have : (if agrees R q.data (Option.map (·.data) (none : Option Str)) then none else some Exc.namespace) = some .namespace := by
          rw [if_neg (by simp [agrees, hp])]
        rw [this]; exact judges_pure h
      | some n =>
        rw [if_pos ⟨hp, rfl⟩]
        have : agrees R q.data (Option.map (·.data) (some n)) = (R.ncname (before q.data) && R.ncname (behind q.data) && R.pre (before q.data) n.data) := by
          simp [agrees, hp]
        rw [this, ← hb, ← hd]
        exact checkPrefix_spec h

theorem judged {x : M (Option Exc)} {y : M (Except Exc Made)} {c1 c2 : Nat} {v : Option Exc} {objs : Made → List Nat} {good : Made → Prop}
    (hx : Judges x r l m c1 v) (hy : ∀ m1, Holds r l m1 → Makes y r l m1 c2 objs good) :
    Ends (x >>= fun e => orMake e y) r l m c1 v c2 objs good := by
  unfold Ends
  rw [after_bind]
  refine after_mono hx ?_
  rintro o m1 ⟨h1, hr1, ⟨rfl, hg⟩ | ⟨rfl, hg, ht⟩⟩
  · refine ⟨hr1, Or.inl ⟨rfl, h1, ?_⟩⟩
    cases v with
    | none => exact fun hh => hg (granted_add.mp hh).1
    | some e => exact hg
  · cases o with
    | some e => exact ⟨hr1, Or.inr (Or.inl ⟨e, rfl, rfl, h1, hg, ht⟩)⟩
    | none =>
      show after y m1 _
      refine after_mono (hy m1 h1) ?_
      rintro o m2 ⟨hr2, hc⟩
      rw [hr1, ht] at hc
      refine ⟨hr2.trans hr1, ?_⟩
      rcases hc with ⟨rfl, h2, hg2⟩ | ⟨a, rfl, ha, h2, hg2, ht2⟩
      · exact Or.inl ⟨rfl, h2, fun hh => hg2 (granted_add.mp hh).2⟩
      · exact Or.inr (Or.inr ⟨rfl, a, rfl, ha, h2, granted_add.mpr ⟨hg, hg2⟩, by omega⟩)

theorem checkedNs_spec {q : Str} {ns : Option Str} (h : Holds r l m) (hq : 0 < r q.addr + l.count q.addr)
    (hs : ∀ a, a ∈ (at_ ns).toList → 0 < r a + l.count a) :
    Ends (checkedNs R q ns) r l m (if R.name q.data ∧ Prefixed q.data ∧ ns.isSome then 4 else 0)
      (if R.name q.data then if agrees R q.data (ns.map (·.data)) then none else some .namespace else some .invalidCharacter)
      (nameCost q.data + 1) held (fun n => Halves q.data n.pre n.name ∧ n.value = none ∧ n.ns = ns) := by
  unfold checkedNs
  cases hn : R.name q.data with
  | false =>
    rw [if_pos rfl, if_neg (by simp), if_neg (by simp)]
    exact Ends.refuse h
  | true =>
    rw [if_neg (by simp)]
    simp only [true_and, if_true]
    exact judged (validateQname_spec hn h) (fun m1 h1 => fromParts_spec h1 hq hs)

/-! ## HTML documents -/

theorem upperCase_eq (d : List Nat) : upperCase d = d.map upper := by
  unfold upperCase
  refine List.map_congr_left fun c _ => ?_
  unfold upper
  have h1 : 'a'.toNat = 97 := rfl
  have h2 : 'z'.toNat = 122 := rfl
  have h3 : 'A'.toNat = 65 := rfl
  rw [h1, h2, h3]
  split <;> omega

theorem toUpper_spec {s : Str} (h : Holds r l m) :
    Makes (toUpper s) r l m 3 (fun u => [u.addr]) (fun u => u.data = s.data.map upper) := by
  unfold toUpper Makes
  rw [after_bind]
  refine after_mono (malloc_spec h) ?_
  rintro o m1 ⟨hr1, ht1, ⟨rfl, h1, hg⟩ | ⟨b, rfl, h1, hg⟩⟩
  · exact ⟨hr1, Or.inl ⟨rfl, h1, fun hh => hg (granted_mono hh (by omega))⟩⟩
  · refine after_mono (Makes.tidy (l := l) (as := [b]) (make_spec h1) (Frees.one b)) ?_
    rintro o m2 ⟨hr2, hc⟩
    rw [hr1, ht1] at hc
    refine ⟨hr2.trans hr1, ?_⟩
    rcases hc with ⟨rfl, h2, hg2⟩ | ⟨a, rfl, ha, h2, hg2, ht2⟩
    · exact Or.inl ⟨rfl, h2, fun hh => hg2 ((granted_add (a := 1) (b := 2)).mp hh).2⟩
    · exact Or.inr ⟨a, rfl, ha.trans (upperCase_eq _), h2, (granted_add (a := 1) (b := 2)).mpr ⟨hg, hg2⟩, by omega⟩

theorem htmlElement_spec {q : Str} {ns pre : Option Str} (h : Holds r l m) (hsvg : isSvg R ns = false)
    (hs : ∀ a, a ∈ (at_ ns).toList → 0 < r a + l.count a) (hp : ∀ a, a ∈ (at_ pre).toList → 0 < r a + l.count a) :
    Ends (htmlElement R q ns pre) r l m 0 (if q.data = [] then some .invalidCharacter else none) 4 held
      (fun n => n.name.data = q.data.map upper ∧ n.value = none ∧ n.ns = ns ∧ n.pre = pre) := by
  unfold htmlElement
  by_cases hq : q.data = []
  · rw [if_pos hq, if_pos hq]; exact Ends.refuse h
  · rw [if_neg hq, if_neg hq, if_neg (by simp [hsvg])]
    refine Ends.ofMakes (makes_seq (c1 := 3) (c2 := 1) (toUpper_spec h) pass ?_)
    intro u m1 hu h1
    refine Makes.weaken (Makes.tidy (nodeCreate_spec h1 (live_mem (by simp)) no_at (fun a ha => live_mono (hs a ha)) (fun a ha => live_mono (hp a ha)))
      (Frees.one u.addr)) ?_
    rintro n ⟨rfl, h2, h3, h4⟩
    exact ⟨hu, h2, h3, h4⟩

theorem append_inj58 : ∀ {p q : List Nat} {s t : List Nat}, 58 ∉ p → 58 ∉ q → p ++ 58 :: s = q ++ 58 :: t → p = q ∧ s = t
  | [], [], s, t, _, _, h => by simp at h; exact ⟨rfl, h⟩
  | [], b :: q, s, t, _, hq, h => by simp at h; simp [← h.1] at hq
  | a :: p, [], s, t, hp, _, h => by simp at h; simp [h.1] at hp
  | a :: p, b :: q, s, t, hp, hq, h => by
    simp only [List.cons_append, List.cons.injEq] at h
    obtain ⟨h1, h2⟩ := append_inj58 (fun x => hp (List.mem_cons_of_mem _ x)) (fun x => hq (List.mem_cons_of_mem _ x)) h.2
    exact ⟨by rw [h.1, h1], h2⟩

/-- The local part of a name is empty exactly if the name is, or ends with its first colon. -/
theorem local_empty {q : List Nat} {p : Option Str} {s : Str} (hh : Halves q p s) : s.data = [] ↔ q = [] ∨ (58 ∈ q ∧ behind q = []) := by
  cases hi : q.idxOf? 58 with
  | none =>
    have hm := idx_none hi
    cases p with
    | some x => exact absurd (hh.some.mp rfl) hm
    | none =>
      have := hh.spell
      have h2 : s.data = q := this
      rw [h2]
      exact ⟨Or.inl, fun hx => hx.elim id (fun hx => absurd hx.1 hm)⟩
  | some c =>
    obtain ⟨hs, hn⟩ := idx_some hi
    have hm : 58 ∈ q := by rw [← hs]; simp
    obtain ⟨hb, hd⟩ := idx_before hi
    cases p with
    | none => exact absurd (hh.some.mpr hm) (by simp)
    | some x =>
      have h2 : x.data ++ 58 :: s.data = q := hh.spell
      have h3 := append_inj58 (hh.pre x rfl) hn (h2.trans hs.symm)
      rw [h3.2, hd]
      refine ⟨fun hx => Or.inr ⟨hm, hx⟩, fun hx => hx.elim (fun hx => ?_) (·.2)⟩
      rw [hx] at hm; simp at hm

theorem htmlElementNs_spec {q : Str} {ns : Option Str} (h : Holds r l m) (hsvg : isSvg R ns = false) (hq : 0 < r q.addr + l.count q.addr)
    (hs : ∀ a, a ∈ (at_ ns).toList → 0 < r a + l.count a) :
    Ends (htmlElementNs R q ns) r l m (nameCost q.data) (if q.data = [] ∨ (58 ∈ q.data ∧ behind q.data = []) then some .invalidCharacter else none) 4 held
      (fun n => (∃ s, Halves q.data n.pre s ∧ n.name.data = s.data.map upper) ∧ n.value = none ∧ n.ns = ns) := by
  unfold htmlElementNs Ends
  rw [after_bind]
  refine after_mono (split_spec h hq) ?_
  rintro o m1 ⟨hr1, ⟨rfl, h1, hg⟩ | ⟨⟨p, s⟩, rfl, hh, h1, hg, ht⟩⟩
  · refine ⟨hr1, Or.inl ⟨rfl, h1, fun hx => hg (granted_mono hx ?_)⟩⟩
    split <;> omega
  · dsimp only at hh ⊢
    have h1' := h1.perm (l' := ([s.addr] ++ (at_ p).toList) ++ l) (by perms100)
    have key := Ends.tidy (htmlElement_spec (R := R) (q := s) (pre := p) h1' hsvg (fun a ha => live_mono (hs a ha))
      (fun a ha => live_mem (by simp at ha; simp [ha]))) (frees_tidy s p)
    refine after_mono key ?_
    rintro o m2 ⟨hr2, hc⟩
    refine ⟨hr2.trans hr1, ?_⟩
    rw [hr1, ht] at hc
    have he := local_empty hh
    by_cases hz : s.data = []
    · rw [if_pos hz] at hc
      rw [if_pos (he.mp hz)]
      rcases hc with ⟨rfl, h2, hg2⟩ | ⟨e, hv, rfl, h2, hg2, ht2⟩ | ⟨hv, _⟩
      · exact (hg2 (granted_zero _ _)).elim
      · exact Or.inr (Or.inl ⟨e, hv, rfl, h2, hg, ht2⟩)
      · cases hv
    · rw [if_neg hz] at hc
      rw [if_neg (fun hx => hz (he.mpr hx))]
      rcases hc with ⟨rfl, h2, hg2⟩ | ⟨e, hv, _⟩ | ⟨hv, a, rfl, ha, h2, hg2, ht2⟩
      · exact Or.inl ⟨rfl, h2, fun hx => hg2 (by simpa using (granted_add.mp hx).2)⟩
      · cases hv
      · obtain ⟨ha1, ha2, ha3, ha4⟩ := ha
        refine Or.inr (Or.inr ⟨rfl, a, rfl, ⟨⟨s, by rw [ha4]; exact hh, ha1⟩, ha2, ha3⟩, h2, granted_add.mpr ⟨hg, by simpa using hg2⟩, by omega⟩)

theorem run_spec (c : Call) (hsvg : ¬ Svg R c) (h : Holds r l m) (ha : ∀ s, s ∈ args c → 0 < r s.addr + l.count s.addr) :
    Ends (c.run R) r l m (judgeCost R c) (verdict R c) (makeCost c) held (Fits c) := by
  have opt : ∀ (o : Option Str), (∀ s, s ∈ o.toList → 0 < r s.addr + l.count s.addr) → ∀ a, a ∈ (at_ o).toList → 0 < r a + l.count a := by
    intro o ho a hao
    cases o with
    | none => simp [at_] at hao
    | some s =>
      simp [at_] at hao
      rw [hao]; exact ho s (by simp)
  cases c with
  | element q => exact checked_spec h (ha q (by simp [args])) no_at
  | «attribute» q => exact checked_spec h (ha q (by simp [args])) no_at
  | entityReference q => exact checked_spec h (ha q (by simp [args])) no_at
  | instruction q d => exact checked_spec h (ha q (by simp [args])) (opt d fun s hs => ha s (by simp at hs; simp [args, hs]))
  | fragment => exact Ends.ofMakes (fixedName_spec h no_at)
  | text d => exact Ends.ofMakes (fixedName_spec h (opt d fun s hs => ha s hs))
  | comment d => exact Ends.ofMakes (fixedName_spec h (opt d fun s hs => ha s hs))
  | cdata d => exact Ends.ofMakes (fixedName_spec h (opt d fun s hs => ha s hs))
  | elementNs ns q => exact checkedNs_spec h (ha q (by simp [args])) (opt ns fun s hs => ha s (by simp at hs; simp [args, hs]))
  | attributeNs ns q => exact checkedNs_spec h (ha q (by simp [args])) (opt ns fun s hs => ha s (by simp at hs; simp [args, hs]))
  | htmlElement q => exact htmlElement_spec h rfl no_at no_at
  | htmlElementNs ns q =>
    refine htmlElementNs_spec h ?_ (ha q (by simp [args])) (opt ns fun s hs => ha s (by simp at hs; simp [args, hs]))
    cases ns with
    | none => rfl
    | some n => show R.svg n.data = false; simpa [Svg] using hsvg
  | htmlAttribute q => exact Ends.ofMakes (nodeCreate_spec h (ha q (by simp [args])) no_at no_at no_at)
  | htmlAttributeNs ns q => exact Ends.ofMakes (fromParts_spec h (ha q (by simp [args])) (opt ns fun s hs => ha s (by simp at hs; simp [args, hs])))

theorem frees_destroyNode (n : Made) : Frees (destroyNode n) (held n) :=
  (frees_opt _).seq ((frees_opt _).seq ((frees_opt _).seq ((Frees.one n.name.addr).seq (Frees.one n.block))))

/-! ## C100 -/

/-- **C100, creation.**  Whatever node is asked for, whatever the rules for names are and whatever requests are refused, for strings that exist: if the name is
wrong, the answer is its error; otherwise, if every request is granted, the node is the one asked for and holds one reference to each of its strings, which
nobody else has got; otherwise the answer is `DOM_NO_MEM_ERR`.  Without a node the memory is as it was.  Missing: SVG elements for HTML documents
(`C100_svg_violated`). -/
theorem C100_create_partial (R : Rules) (c : Call) (m : Mem) (hm : m.Valid) (ha : ∀ s, s ∈ args c → m.refs s.addr ≠ 0) (hsvg : ¬ Svg R c) :
    ∃ o m', c.run R m = .ok o m' ∧
      ((o = .error .noMem ∧ m'.refs = m.refs ∧
          ((verdict R c = none ∧ ¬ Granted m.room m.time (judgeCost R c + makeCost c)) ∨ (verdict R c ≠ none ∧ ¬ Granted m.room m.time (judgeCost R c)))) ∨
       (∃ e, verdict R c = some e ∧ o = .error e ∧ m'.refs = m.refs ∧ Granted m.room m.time (judgeCost R c)) ∨
       (∃ n, verdict R c = none ∧ o = .ok n ∧ Fits c n ∧ Holds m.refs (held n) m' ∧ Granted m.room m.time (judgeCost R c + makeCost c) ∧
          m'.time = m.time + (judgeCost R c + makeCost c))) := by
  obtain ⟨o, m', e, _, hc⟩ := after_elim (run_spec c hsvg hm.holds (fun s hs => by have := ha s hs; simp; omega))
  refine ⟨o, m', e, ?_⟩
  rcases hc with ⟨rfl, h, hg⟩ | ⟨x, hv, rfl, h, hg, ht⟩ | ⟨hv, n, rfl, hn, h, hg, ht⟩
  · refine Or.inl ⟨rfl, h.refs_eq, ?_⟩
    cases hv : verdict R c with
    | none => rw [hv] at hg; exact Or.inl ⟨rfl, hg⟩
    | some e => rw [hv] at hg; exact Or.inr ⟨by simp, hg⟩
  · exact Or.inr (Or.inl ⟨x, hv, rfl, h.refs_eq, hg⟩)
  · exact Or.inr (Or.inr ⟨n, hv, rfl, hn, by rwa [List.append_nil] at h, hg, ht⟩)

/-- **C100, destruction.**  A node gives back what it holds, and no more, without asking for memory. -/
theorem C100_destroy (n : Made) (h : Holds r (held n ++ l) m) : ∃ m', destroyNode n m = .ok () m' ∧ Holds r l m' ∧ m'.time = m.time := by
  obtain ⟨_, m', e, h', _, ht⟩ := after_elim (frees_destroyNode n r l m h)
  exact ⟨m', e, h', ht⟩

/-- Nodes are created one after the other; those that exist in the end, the last one first. -/
def creates (R : Rules) : List Call → List Made → M (List Made)
  | [], ns => pure ns
  | c :: cs, ns => do
      let o ← c.run R
      match o with
      | .ok n => creates R cs (n :: ns)
      | .error _ => creates R cs ns

/-- All of them are destroyed. -/
def destroyAll : List Made → M Unit
  | [] => pure ()
  | n :: ns => do
      destroyNode n
      destroyAll ns

theorem frees_destroyAll : ∀ ns : List Made, Frees (destroyAll ns) (ns.flatMap held)
  | [] => Frees.none
  | n :: ns => (frees_destroyNode n).seq (frees_destroyAll ns)

theorem creates_spec (R : Rules) : ∀ (cs : List Call) (ns : List Made) (m : Mem), (∀ c, c ∈ cs → ¬ Svg R c) →
    (∀ c, c ∈ cs → ∀ s, s ∈ args c → 0 < r s.addr) → Holds r (ns.flatMap held) m → after (creates R cs ns) m (fun ns' m' => Holds r (ns'.flatMap held) m')
  | [], ns, m, _, _, h => h
  | c :: cs, ns, m, hsvg, ha, h => by
    unfold creates
    rw [after_bind]
    refine after_mono (run_spec c (hsvg c (by simp)) h (fun s hs => by have := ha c (by simp) s hs; omega)) ?_
    have hs' : ∀ c, c ∈ cs → ¬ Svg R c := fun c hc => hsvg c (by simp [hc])
    have ha' : ∀ c, c ∈ cs → ∀ s, s ∈ args c → 0 < r s.addr := fun c hc => ha c (by simp [hc])
    rintro o m1 ⟨_, ⟨rfl, h1, _⟩ | ⟨e, _, rfl, h1, _⟩ | ⟨_, n, rfl, _, h1, _⟩⟩
    · exact creates_spec R cs ns m1 hs' ha' h1
    · exact creates_spec R cs ns m1 hs' ha' h1
    · exact creates_spec R cs (n :: ns) m1 hs' ha' h1

/-- **C100, life.**  However many nodes are created, and whatever requests are refused meanwhile: when the nodes that came into being have been destroyed, every
reference count is what it was. -/
theorem C100_life_partial (R : Rules) (cs : List Call) (m : Mem) (hm : m.Valid) (ha : ∀ c, c ∈ cs → ∀ s, s ∈ args c → m.refs s.addr ≠ 0)
    (hsvg : ∀ c, c ∈ cs → ¬ Svg R c) :
    ∃ ns m1 m2, creates R cs [] m = .ok ns m1 ∧ destroyAll ns m1 = .ok () m2 ∧ m2.refs = m.refs := by
  obtain ⟨ns, m1, e1, h1⟩ := after_elim (creates_spec (r := m.refs) R cs [] m hsvg (fun c hc s hs => by have := ha c hc s hs; omega) hm.holds)
  obtain ⟨_, m2, e2, h2, _⟩ := after_elim (frees_destroyAll ns m.refs [] m1 (by rwa [List.append_nil]))
  exact ⟨ns, m1, m2, e1, e2, h2.refs_eq⟩

/-- **C100, SVG elements violate it.**  If an element is created in an HTML document in the namespace of SVG, by a name without a colon to which the caller
has a reference, and memory suffices, then the reference of the caller is gone, and the element has no reference to its name either.  If there was no other, the
name is freed, and destroying the element uses it after that. -/
theorem C100_svg_violated (R : Rules) (q n : Str) (hsvg : R.svg n.data = true) (hq : q.data ≠ []) (hc : 58 ∉ q.data) (hn : r n.addr ≠ 0) (h : Holds r [q.addr] m) (hg : m.room m.time = true) :
    ∃ e m', (Call.htmlElementNs (some n) q).run R m = .ok (.ok e) m' ∧ e.name = q ∧ e.ns = some n ∧ e.pre = none ∧ Holds r [n.addr, e.block] m' ∧
      (r q.addr = 0 → e.block ≠ q.addr → m'.refs q.addr = 0 ∧ destroyNode e m' = .fault .useAfterFree) := by
  have key : after ((Call.htmlElementNs (some n) q).run R) m (fun o m' =>
      (∃ e, o = .ok e ∧ e.name = q ∧ e.ns = some n ∧ e.pre = none ∧ e.value = none ∧ Holds r [n.addr, e.block] m')) := by
    show after (Nodes.htmlElementNs R q (some n)) m _
    unfold Nodes.htmlElementNs splitQname
    have hi : q.data.idxOf? 58 = none := List.idxOf?_eq_none_iff.mpr hc
    rw [after_bind, hi]
    dsimp only
    rw [after_bind]
    refine after_mono (ref_live h (live_mem (by simp))) ?_
    rintro _ m1 ⟨h1, hr1, ht1⟩
    show after (Nodes.htmlElement R q (some n) none >>= _) m1 _
    unfold Nodes.htmlElement
    rw [if_neg hq, if_pos (show isSvg R (some n) = true from hsvg), after_bind, after_bind]
    refine after_mono (unref_spec h1) ?_
    rintro _ m2 ⟨h2, hr2, ht2⟩
    unfold htmlNode
    rw [after_bind]
    refine after_mono (nodeCreate_spec (l := [q.addr]) h2 (live_mem (by simp)) no_at (fun a ha => by
      simp [at_] at ha; rw [ha]; omega) no_at) ?_
    rintro o m3 ⟨_, ⟨rfl, h3, hr⟩ | ⟨e, rfl, ⟨e1, e2, e3, e4⟩, h3, _, _⟩⟩
    · refine (hr fun i hi => ?_).elim
      have h0 : i = 0 := by omega
      rw [hr2, hr1, ht2, ht1, h0]
      exact hg
    · rw [after_bind]
      have hh : (held e ++ [q.addr]).Perm (q.addr :: (q.addr :: [n.addr, e.block])) := by
        unfold held
        rw [e1, e2, e3, e4]
        perms100
      refine after_mono (unref_spec (h3.perm hh)) ?_
      rintro _ m4 ⟨h4, _, _⟩
      show after (Nodes.tidy q none >>= _) m4 _
      rw [after_bind]
      unfold Nodes.tidy
      rw [after_bind]
      refine after_mono (unref_spec h4) ?_
      rintro _ m5 ⟨h5, _, _⟩
      exact ⟨e, rfl, e1, e3, e4, e2, h5⟩
  obtain ⟨o, m', e, x, rfl, h1, h2, h3, h4, hh⟩ := after_elim key
  · refine ⟨x, m', e, h1, h2, h3, hh, fun hr hb => ?_⟩
    have hnq : n.addr ≠ q.addr := fun hx => hn (by rw [hx]; exact hr)
    have hz : m'.refs q.addr = 0 := by
      rw [hh.refs, hr]
      simp [List.count_cons, hb, hnq]
    refine ⟨hz, ?_⟩
    have hl : m'.refs n.addr ≠ 0 := by
      rw [hh.refs]; omega
    unfold destroyNode
    rw [h1, h2, h3, h4]
    show (bind (unref n.addr) _) m' = _
    unfold bind
    simp only [unref, hl, if_false]
    show (bind (unref q.addr) _) _ = _
    unfold bind
    simp [unref, hz, hnq.symm]

/-- **C100, SVG elements violate it, without memory.**  If memory is refused and the reference of the caller was the only one, the call itself uses the name after
it was freed. -/
theorem C100_svg_refused_violated (R : Rules) (q n : Str) (hsvg : R.svg n.data = true) (hq : q.data ≠ []) (hc : 58 ∉ q.data) (hone : m.refs q.addr = 1)
    (hg : m.room m.time = false) : (Call.htmlElementNs (some n) q).run R m = .fault .useAfterFree := by
  show Nodes.htmlElementNs R q (some n) m = _
  have hi : q.data.idxOf? 58 = none := List.idxOf?_eq_none_iff.mpr hc
  have hs : isSvg R (some n) = true := hsvg
  simp [Nodes.htmlElementNs, splitQname, hi, Nodes.htmlElement, hq, hs, htmlNode, nodeCreate, malloc, ask, Nodes.tidy, Bind.bind, Pure.pure, bind, ref, unref, hone, hg]

/-- A memory with three strings: `a:b` at 1, `div` at 2 and a namespace at 3, and which refuses request `k`. -/
def shop (k : Nat) : Mem := { room := fun i => i != k, time := 0, next := 4, refs := fun a => if a = 1 ∨ a = 2 ∨ a = 3 then 1 else 0 }

def nameAB : Str := { addr := 1, data := [97, 58, 98] }
def nameDiv : Str := { addr := 2, data := [100, 105, 118] }
def spaceN : Str := { addr := 3, data := [110] }

/-- Every name is fine but those with a `!`, and `n` is a namespace like others. -/
def lenient : Rules := { name := fun q => !q.contains 33, ncname := fun q => !q.isEmpty, plain := fun _ _ => true, pre := fun _ _ => true, svg := fun _ => false }

/-- `n` is the namespace of SVG. -/
def drawing : Rules := { lenient with svg := fun n => n == [110] }

/-- How a call ends: the name of the node, or the error; the references to the three strings; and how many requests were made. -/
def show_ (x : Res (Except Exc Made)) : Option (Except Exc (List Nat × Option (List Nat)) × List Nat × Nat) :=
  match x with
  | .ok (.ok n) m => some (.ok (n.name.data, n.pre.map (·.data)), [m.refs 1, m.refs 2, m.refs 3], m.time)
  | .ok (.error e) m => some (.error e, [m.refs 1, m.refs 2, m.refs 3], m.time)
  | .fault _ => none

/-- **C100, cases.**  The memory is in order and the strings exist; `a:b` in a namespace takes nine requests; without a namespace it is refused at once; if the
ninth request fails nothing has changed; `div` in an HTML document is called `DIV`; and the calls that violate the rule meet their hypotheses. -/
theorem C100_cases :
    (∀ k, (shop k).Valid) ∧ (∀ s, s ∈ args (.elementNs (some spaceN) nameAB) → (shop 9).refs s.addr ≠ 0) ∧
    ¬ Svg lenient (.elementNs (some spaceN) nameAB) ∧
    show_ ((Call.elementNs (some spaceN) nameAB).run lenient (shop 9)) = some (.ok ([98], some [97]), [1, 1, 2], 9) ∧
    show_ ((Call.elementNs (some spaceN) nameAB).run lenient (shop 8)) = some (.error .noMem, [1, 1, 1], 9) ∧
    show_ ((Call.elementNs none nameAB).run lenient (shop 0)) = some (.error .namespace, [1, 1, 1], 0) ∧
    show_ ((Call.htmlElement nameDiv).run lenient (shop 4)) = some (.ok ([68, 73, 86], none), [1, 1, 1], 4) ∧
    show_ ((Call.htmlElementNs (some spaceN) nameDiv).run drawing (shop 5)) = some (.ok ([100, 105, 118], none), [1, 0, 2], 1) ∧
    show_ ((Call.htmlElementNs (some spaceN) nameDiv).run drawing (shop 0)) = none := by
  refine ⟨?_, by decide, fun h => h, by rfl, by rfl, by rfl, by rfl, by rfl, by rfl⟩
  intro k a ha
  have h4 : 4 ≤ a := ha
  show (if a = 1 ∨ a = 2 ∨ a = 3 then 1 else 0) = 0
  rw [if_neg (by omega)]

end Dom.Oom.Nodes
