import Verif.Oom.Chars
import Verif.Oom.PropsParser

/-!
# C91: character data when memory runs out
-/
namespace Dom.Oom.Chars
set_option linter.unusedSimpArgs false

open Dom.Oom

/-! ## Specification -/

/-- **Specification.**  How often the array of an event grows while `n` more ancestors are put into it, when it
has room for `size` and holds `k`: room for 64, then twice as much whenever it is full. -/
def grows : Nat → Nat → Nat → Nat
  | _, _, 0 => 0
  | k, size, n + 1 =>
    if k = size then 1 + grows (k + 1) (if size = 0 then 64 else size * 2) n else grows (k + 1) size n

/-- **Specification.**  The requests of one event with `n` listening ancestors. -/
def eventCost (n : Nat) : Nat := 1 + grows 0 0 n

/-- **Specification.**  The requests of the event that announces the change. -/
def firstCost (p : Place) : Nat := eventCost p.hearChars.length

/-- **Specification.**  The requests of the event that follows the change; none without a parent. -/
def secondCost (p : Place) : Nat := if p.parent.isSome then eventCost p.hearTree.length else 0

/-- **Specification.**  The objects around a text node that its functions use. -/
def around (p : Place) : List Nat :=
  p.parent.toList ++ (p.hearChars ++ (p.hearTree ++ [p.typeChars, p.typeTree, p.empty.addr]))

/-- **Specification.**  The changes of character data. -/
inductive Call
  | set (d : Str)
  | append (d : Str)
  | insert (offset : Nat) (d : Str)
  | delete (offset count : Nat)
  | replace (offset count : Nat) (d : Str)

/-- The function of a change. -/
def Call.run (p : Place) (t : Text) : Call → M Ret
  | .set d => setData p t d
  | .append d => appendData p t d
  | .insert o d => insertData p t o d
  | .delete o c => deleteData p t o c
  | .replace o c d => replaceData p t o c d

/-- **Specification.**  The strings a change is given. -/
def Call.given : Call → List Nat
  | .set d => [d.addr]
  | .append d => [d.addr]
  | .insert _ d => [d.addr]
  | .delete _ _ => []
  | .replace _ _ d => [d.addr]

/-- **Specification.**  The text a change should leave. -/
def Call.wanted (old : List Nat) : Call → List Nat
  | .set d => d.data
  | .append d => old ++ d.data
  | .insert o d => old.take o ++ d.data ++ old.drop o
  | .delete o c => old.take o ++ old.drop (o + c)
  | .replace o c d => old.take o ++ d.data ++ old.drop (o + c)

/-- **Specification.**  The changes that are made: the node may be changed and the place is inside its text. -/
def Call.Fits (p : Place) (old : List Nat) : Call → Prop
  | .set _ => p.readonly = false
  | .append _ => p.readonly = false
  | .insert o _ => p.readonly = false ∧ o < 2147483648 ∧ o ≤ old.length
  | .delete o c => p.readonly = false ∧ o < 2147483648 ∧ c < 2147483648 ∧ o ≤ old.length
  | .replace o c _ => p.readonly = false ∧ o < 2147483648 ∧ c < 2147483648 ∧ o ≤ old.length

/-- **Specification.**  The requests for the new string. -/
def Call.stringCost : Call → Nat
  | .set _ => 0
  | _ => 2

/-- **Specification.**  The changes that forget the new string when its announcement is refused. -/
def Call.Forgets : Call → Prop
  | .set _ => False
  | .append _ => False
  | _ => True

/-! ## Events -/

variable {r : Nat → Nat} {l : List Nat} {m : Mem}

/-- A call that leaves everything as it was and makes `n` requests, all of which it needs. -/
def Neutral (x : M (Option Exc)) (live : List Nat) (n : Nat) : Prop :=
  ∀ (r : Nat → Nat) (l : List Nat) (m : Mem), Holds r l m → (∀ a ∈ live, 0 < r a + l.count a) →
    after x m (fun e m' => Holds r l m' ∧ m'.room = m.room ∧
      ((e = none ∧ Granted m.room m.time n ∧ m'.time = m.time + n) ∨
       (e = some .noMem ∧ ¬ Granted m.room m.time n)))

/-- The array fits what it holds. -/
structure Fit (t : Targets) : Prop where
  len : t.taken.length ≤ t.size
  none : t.array = none ↔ t.size = 0

/-- What an array holds. -/
def Targets.held (t : Targets) : List Nat := t.taken ++ t.array.toList

theorem expand_spec {t : Targets} (h : Holds r (t.held ++ l) m) (hf : Fit t) (hl : t.taken.length = t.size) :
    after (expand t) m (fun o m' => m'.room = m.room ∧ m'.time = m.time + 1 ∧
      ((o = none ∧ Holds r (t.held ++ l) m' ∧ ¬ Granted m.room m.time 1) ∨
       (∃ u, o = some u ∧ Holds r (u.held ++ l) m' ∧ Fit u ∧ u.taken = t.taken ∧
         u.size = (if t.size = 0 then 64 else t.size * 2) ∧ Granted m.room m.time 1))) := by
  unfold expand
  cases ha : t.array with
  | none =>
    have h0 := hf.none.mp ha
    dsimp only
    rw [after_bind]
    refine after_mono (malloc_spec h) ?_
    rintro o m1 ⟨hr1, ht1, ⟨rfl, h1, hg⟩ | ⟨a, rfl, h1, hg⟩⟩
    · exact ⟨hr1, ht1, Or.inl ⟨rfl, h1, hg⟩⟩
    · refine ⟨hr1, ht1, Or.inr ⟨_, rfl, h1.perm ?_, ⟨?_, ?_⟩, rfl, ?_, hg⟩⟩
      · simp only [Targets.held, ha, Option.toList_none, Option.toList_some, List.append_nil, List.append_assoc,
          List.cons_append, List.nil_append]
        exact List.perm_middle.symm
      · show t.taken.length ≤ 64; omega
      · show some a = none ↔ 64 = 0
        simp
      · show 64 = _
        rw [if_pos h0]
  | some a =>
    have h0 : t.size ≠ 0 := fun h0 => by rw [hf.none.mpr h0] at ha; exact absurd ha (by simp)
    dsimp only
    rw [after_bind]
    refine after_mono (ask_spec h) ?_
    rintro ok m1 ⟨h1, hr1, ht1, hok⟩
    rw [after_ite]
    split
    · rename_i hk
      refine ⟨hr1, ht1, Or.inr ⟨_, rfl, ?_, ⟨?_, ?_⟩, rfl, ?_, granted_one.mpr (by rw [← hok]; exact hk)⟩⟩
      · refine h1.perm (List.Perm.of_eq ?_)
        simp only [Targets.held, ha]
      · show t.taken.length ≤ t.size * 2; omega
      · show some a = none ↔ t.size * 2 = 0
        simp; omega
      · show t.size * 2 = _
        first | rfl | rw [if_neg h0]
    · rename_i hk
      exact ⟨hr1, ht1, Or.inl ⟨rfl, h1, fun hg => hk (by rw [hok]; exact granted_one.mp hg)⟩⟩

theorem ready_spec {t : Targets} (h : Holds r (t.held ++ l) m) (hf : Fit t) :
    after (ready t) m (fun o m' => m'.room = m.room ∧ ∃ n : Nat, n = (if t.taken.length = t.size then 1 else 0) ∧
      ((o = none ∧ Holds r (t.held ++ l) m' ∧ ¬ Granted m.room m.time n) ∨
       (∃ u, o = some u ∧ Holds r (u.held ++ l) m' ∧ Fit u ∧ u.taken = t.taken ∧ m'.time = m.time + n ∧
         u.size = (if t.taken.length = t.size then (if t.size = 0 then 64 else t.size * 2) else t.size) ∧
         Granted m.room m.time n))) := by
  unfold ready
  rw [after_ite]
  split
  · rename_i hl
    refine after_mono (expand_spec h hf hl) ?_
    rintro o m1 ⟨hr1, ht1, hc⟩
    refine ⟨hr1, 1, rfl, hc.imp_right ?_⟩
    rintro ⟨u, ho, hh, hfu, htk, hs, hg⟩
    exact ⟨u, ho, hh, hfu, htk, ht1, hs, hg⟩
  · exact ⟨rfl, 0, rfl, Or.inr ⟨t, rfl, h, hf, rfl, rfl, rfl, granted_zero _ _⟩⟩

theorem collect_spec : ∀ (xs : List Nat) (t : Targets) {l : List Nat} {m : Mem}, Holds r (t.held ++ l) m → Fit t →
    (∀ a ∈ xs, 0 < r a + l.count a) →
    after (collect xs t) m (fun p m' => m'.room = m.room ∧ Holds r (p.2.held ++ l) m' ∧
      ((p.1 = true ∧ Granted m.room m.time (grows t.taken.length t.size xs.length) ∧
         m'.time = m.time + grows t.taken.length t.size xs.length) ∨
       (p.1 = false ∧ ¬ Granted m.room m.time (grows t.taken.length t.size xs.length))))
  | [], t, l, m, h, hf, _ => ⟨rfl, h, Or.inl ⟨rfl, granted_zero _ _, rfl⟩⟩
  | x :: xs, t, l, m, h, hf, hx => by
    have hg : grows t.taken.length t.size (x :: xs).length = (if t.taken.length = t.size then 1 else 0) +
        grows (t.taken.length + 1)
          (if t.taken.length = t.size then (if t.size = 0 then 64 else t.size * 2) else t.size) xs.length := by
      show (if _ then _ else _) = _
      split
      · rfl
      · exact (Nat.zero_add _).symm
    unfold collect
    rw [after_bind]
    refine after_mono (ready_spec h hf) ?_
    rintro o m1 ⟨hr1, n, hn, ⟨rfl, h1, hno⟩ | ⟨u, rfl, h1, hfu, htk, ht1, hs, hyes⟩⟩
    · exact ⟨hr1, h1, Or.inr ⟨rfl, fun hall => hno (granted_mono hall (by rw [hg, ← hn]; omega))⟩⟩
    · dsimp only
      have hlt : u.taken.length < u.size := by
        have h1 := hf.len
        rw [htk, hs]
        split
        · split <;> omega
        · omega
      rw [if_pos hlt, after_bind]
      refine after_mono (ref_live h1 (live_mono (hx x (List.mem_cons_self ..)))) ?_
      rintro _ m2 ⟨h2, hr2, ht2⟩
      refine after_mono (collect_spec xs { u with taken := u.taken ++ [x] } (l := l) (h2.perm ?_) ⟨?_, hfu.none⟩
        fun a ha => hx a (List.mem_cons_of_mem _ ha)) ?_
      · simp only [Targets.held, List.append_assoc, List.cons_append, List.nil_append]
        exact List.perm_middle.symm
      · show (u.taken ++ [x]).length ≤ u.size
        rw [List.length_append]; simp; omega
      rintro p m3 ⟨hr3, h3, hc⟩
      have hlen : (u.taken ++ [x]).length = t.taken.length + 1 := by rw [htk, List.length_append]; rfl
      dsimp only at hc
      rw [hlen, hs, hr2, hr1, ht2, ht1] at hc
      refine ⟨hr3.trans (hr2.trans hr1), h3, ?_⟩
      rw [hg, ← hn]
      rcases hc with ⟨hp, hgr, ht⟩ | ⟨hp, hgr⟩
      · exact Or.inl ⟨hp, granted_add.mpr ⟨hyes, hgr⟩, by omega⟩
      · exact Or.inr ⟨hp, fun hall => hgr (granted_add.mp hall).2⟩

theorem dispatch_neutral (hear : List Nat) : Neutral (dispatchEvent hear) hear (grows 0 0 hear.length) := by
  intro r l m h hx
  unfold dispatchEvent
  rw [after_bind]
  refine after_mono (collect_spec hear { array := none, size := 0, taken := [] } (l := l) h
    ⟨Nat.le_refl _, by simp⟩ hx) ?_
  rintro ⟨ok, t⟩ m1 ⟨hr1, h1, hc⟩
  dsimp only
  rw [after_bind]
  refine after_mono (frees_all t.taken.reverse r (t.array.toList ++ l) m1 (h1.perm ?_)) ?_
  · unfold Targets.held
    rw [List.append_assoc]
    exact List.Perm.append_right _ (List.reverse_perm _).symm
  rintro _ m2 ⟨h2, hr2, ht2⟩
  rw [after_bind]
  refine after_mono (frees_opt t.array r l m2 h2) ?_
  rintro _ m3 ⟨h3, hr3, ht3⟩
  refine ⟨h3, hr3.trans (hr2.trans hr1), ?_⟩
  rcases hc with ⟨hp, hg, ht⟩ | ⟨hp, hg⟩ <;> dsimp only at hp <;> subst hp
  · exact Or.inl ⟨rfl, hg, by rw [ht3, ht2]; exact ht⟩
  · exact Or.inr ⟨rfl, hg⟩

theorem raise_neutral (type : Nat) (related prev new : Option Nat) (hear : List Nat) :
    Neutral (raise type related prev new hear) (type :: (related.toList ++ (prev.toList ++ (new.toList ++ hear))))
      (eventCost hear.length) := by
  intro r l m h hx
  have hx' : ∀ a, a = type ∨ a ∈ related.toList ∨ a ∈ prev.toList ∨ a ∈ new.toList ∨ a ∈ hear → 0 < r a + l.count a := by
    intro a ha
    refine hx a ?_
    simp only [List.mem_cons, List.mem_append]
    exact ha
  unfold raise
  rw [after_bind]
  refine after_mono (malloc_spec h) ?_
  rintro o m1 ⟨hr1, ht1, ⟨rfl, h1, hno⟩ | ⟨e, rfl, h1, hyes⟩⟩
  · exact ⟨h1, hr1, Or.inr ⟨rfl, fun hall => hno (granted_mono hall (by unfold eventCost; omega))⟩⟩
  · dsimp only
    rw [after_bind]
    refine after_mono (ref_live h1 (live_cons (hx' type (Or.inl rfl)))) ?_
    rintro _ m2 ⟨h2, hr2, ht2⟩
    rw [after_bind]
    refine after_mono (refOpt_spec (o := related) h2 fun a ha => live_cons (live_cons
      (hx' a (Or.inr (Or.inl (by rw [ha]; simp)))))) ?_
    rintro _ m3 ⟨h3, hr3, ht3⟩
    rw [after_bind]
    refine after_mono (refOpt_spec (o := prev) h3 fun a ha => live_mono (live_cons (live_cons
      (hx' a (Or.inr (Or.inr (Or.inl (by rw [ha]; simp)))))))) ?_
    rintro _ m4 ⟨h4, hr4, ht4⟩
    rw [after_bind]
    refine after_mono (refOpt_spec (o := new) h4 fun a ha => live_mono (live_mono (live_cons (live_cons
      (hx' a (Or.inr (Or.inr (Or.inr (Or.inl (by rw [ha]; simp)))))))))) ?_
    rintro _ m5 ⟨h5, hr5, ht5⟩
    rw [after_bind]
    refine after_mono (ref_live (a := type) h5 (live_mono (live_mono (live_mono (live_cons (live_cons
      (hx' type (Or.inl rfl)))))))) ?_
    rintro _ m6 ⟨h6, hr6, ht6⟩
    rw [after_bind]
    refine after_mono (unref_spec h6) ?_
    rintro _ m7 ⟨h7, hr7, ht7⟩
    rw [after_bind]
    refine after_mono (dispatch_neutral hear r _ m7 h7 fun a ha => live_mono (live_mono (live_mono (live_cons (live_cons
      (hx' a (Or.inr (Or.inr (Or.inr (Or.inr ha))))))))))  ?_
    rintro x m8 ⟨h8, hr8, hc⟩
    rw [after_bind]
    refine after_mono (frees_opt related r (new.toList ++ (prev.toList ++ (type :: e :: l))) m8 (h8.perm ?_)) ?_
    · rw [List.perm_iff_count]; intro y; simp only [List.count_append, List.count_cons]; omega
    rintro _ m9 ⟨h9, hr9, ht9⟩
    rw [after_bind]
    refine after_mono (frees_opt prev r (new.toList ++ (type :: e :: l)) m9 (h9.perm ?_)) ?_
    · rw [List.perm_iff_count]; intro y; simp only [List.count_append, List.count_cons]; omega
    rintro _ m10 ⟨h10, hr10, ht10⟩
    rw [after_bind]
    refine after_mono (frees_opt new r (type :: e :: l) m10 h10) ?_
    rintro _ m11 ⟨h11, hr11, ht11⟩
    rw [after_bind]
    refine after_mono (unref_spec h11) ?_
    rintro _ m12 ⟨h12, hr12, ht12⟩
    rw [after_bind]
    refine after_mono (unref_spec h12) ?_
    rintro _ m13 ⟨h13, hr13, ht13⟩
    have hr7' : m7.room = m.room := hr7.trans (hr6.trans (hr5.trans (hr4.trans (hr3.trans (hr2.trans hr1)))))
    have ht7' : m7.time = m.time + 1 := by rw [ht7, ht6, ht5, ht4, ht3, ht2, ht1]
    rw [hr7', ht7'] at hc
    refine ⟨h13, hr13.trans (hr12.trans (hr11.trans (hr10.trans (hr9.trans (hr8.trans hr7'))))), ?_⟩
    rcases hc with ⟨rfl, hg, ht⟩ | ⟨rfl, hg⟩
    · exact Or.inl ⟨rfl, granted_add.mpr ⟨hyes, hg⟩, by rw [ht13, ht12, ht11, ht10, ht9, ht]; unfold eventCost; omega⟩
    · exact Or.inr ⟨rfl, fun hall => hg (granted_add.mp hall).2⟩

theorem raiseChars_neutral (p : Place) (t : Text) (new : Str) :
    Neutral (raiseChars p t new) (p.typeChars :: t.block :: t.value.addr :: new.addr :: p.hearChars) (firstCost p) :=
  raise_neutral _ _ _ _ _

theorem raiseTree_neutral (p : Place) : Neutral (raiseTree p) (around p) (secondCost p) := by
  intro r l m h hx
  have hx' : ∀ a, a ∈ p.parent.toList ∨ a ∈ p.hearTree ∨ a = p.typeTree → 0 < r a + l.count a := by
    intro a ha
    refine hx a ?_
    unfold around
    simp only [List.mem_append, List.mem_cons]
    rcases ha with h | h | h <;> simp [h]
  unfold raiseTree secondCost
  cases hp : p.parent with
  | none => exact ⟨h, rfl, Or.inl ⟨rfl, granted_zero _ _, rfl⟩⟩
  | some q =>
    rw [hp] at hx'
    dsimp only
    rw [if_pos (by rfl)]
    refine raise_neutral _ _ _ _ _ r l m h fun a ha => ?_
    simp only [Option.toList_none, Option.toList_some, List.nil_append, List.cons_append, List.mem_cons] at ha
    rcases ha with h | h | h
    · exact hx' a (Or.inr (Or.inr h))
    · exact hx' a (Or.inl (by simp [h]))
    · exact hx' a (Or.inr (Or.inl h))

theorem newString_spec {data : List Nat} (h : Holds r l m) :
    after (newString data) m (fun o m' => m'.room = m.room ∧
      ((o = none ∧ Holds r l m' ∧ ¬ Granted m.room m.time 2) ∨
       (∃ s : Str, o = some s ∧ s.data = data ∧ Holds r (s.addr :: l) m' ∧ Granted m.room m.time 2 ∧ m'.time = m.time + 2))) := by
  unfold newString
  rw [after_bind]
  refine after_mono (createString_spec h) ?_
  rintro o m1 ⟨hr1, ⟨rfl, h1, hg⟩ | ⟨a, rfl, h1, hg, ht⟩⟩
  · exact ⟨hr1, Or.inl ⟨rfl, h1, hg⟩⟩
  · exact ⟨hr1, Or.inr ⟨_, rfl, rfl, h1, hg, ht⟩⟩

/-! ## The changes -/

/-- **Specification.**  How a change of the text of `t` to `data` ends, when its new string takes `s` requests and is
kept by nobody (`forgets`) if its announcement is refused.  Before it, `r` and `l` are held besides the value. -/
def Outcome (p : Place) (t : Text) (r : Nat → Nat) (l : List Nat) (s : Nat) (forgets : Prop) (data : List Nat)
    (m : Mem) (q : Ret) (m' : Mem) : Prop :=
  (¬ Granted m.room m.time s ∧ q = (some .noMem, t) ∧ Holds r (t.value.addr :: l) m') ∨
  (Granted m.room m.time s ∧ ¬ Granted m.room m.time (s + firstCost p) ∧ q = (some .noMem, t) ∧
    ((¬ forgets ∧ Holds r (t.value.addr :: l) m') ∨
     (forgets ∧ ∃ lost, Holds r (lost :: t.value.addr :: l) m'))) ∨
  (∃ v : Str, v.data = data ∧ q.2 = { t with value := v } ∧ Holds r (v.addr :: l) m' ∧
    Granted m.room m.time (s + firstCost p) ∧
    ((q.1 = none ∧ Granted m.room m.time (s + firstCost p + secondCost p) ∧
        m'.time = m.time + (s + firstCost p + secondCost p)) ∨
     (q.1 = some .noMem ∧ ¬ Granted m.room m.time (s + firstCost p + secondCost p))))

theorem store_spec {p : Place} {t : Text} {new : Str} (h : Holds r (t.value.addr :: new.addr :: l) m)
    (hp : ∀ a ∈ around p, 0 < r a + l.count a) :
    after (store p t new) m (fun q m' => m'.room = m.room ∧ q.2 = { t with value := new } ∧
      Holds r (new.addr :: l) m' ∧
      ((q.1 = none ∧ Granted m.room m.time (secondCost p) ∧ m'.time = m.time + secondCost p) ∨
       (q.1 = some .noMem ∧ ¬ Granted m.room m.time (secondCost p)))) := by
  unfold store
  rw [after_bind]
  refine after_mono (unref_spec h) ?_
  rintro _ m1 ⟨h1, hr1, ht1⟩
  rw [after_bind]
  refine after_mono (raiseTree_neutral p r _ m1 h1 fun a ha => live_cons (hp a ha)) ?_
  rintro e m2 ⟨h2, hr2, hc⟩
  rw [hr1, ht1] at hc
  exact ⟨hr2.trans hr1, rfl, h2, hc⟩

theorem setData_spec {p : Place} {t : Text} {d : Str} (hro : p.readonly = false)
    (h : Holds r (t.value.addr :: l) m) (hb : 0 < r t.block + l.count t.block) (hd : 0 < r d.addr + l.count d.addr)
    (hp : ∀ a ∈ around p, 0 < r a + l.count a) :
    after (setData p t d) m (fun q m' => m'.room = m.room ∧ Outcome p t r l 0 False d.data m q m') := by
  unfold setData
  rw [if_neg (by rw [hro]; decide), after_bind]
  refine after_mono (raiseChars_neutral p t d r _ m h fun a ha => ?_) ?_
  · simp only [List.mem_cons] at ha
    rcases ha with rfl | rfl | rfl | rfl | ha
    · exact live_cons (hp _ (by simp [around]))
    · exact live_cons hb
    · exact live_mem (by simp)
    · exact live_cons hd
    · exact live_cons (hp _ (by simp [around, ha]))
  rintro e m1 ⟨h1, hr1, ⟨rfl, hg, ht⟩ | ⟨rfl, hg⟩⟩
  · dsimp only
    rw [after_bind]
    refine after_mono (unref_spec h1) ?_
    rintro _ m2 ⟨h2, hr2, ht2⟩
    rw [after_bind]
    refine after_mono (ref_live h2 hd) ?_
    rintro _ m3 ⟨h3, hr3, ht3⟩
    rw [after_bind]
    refine after_mono (raiseTree_neutral p r _ m3 h3 fun a ha => live_cons (hp a ha)) ?_
    rintro e m4 ⟨h4, hr4, hc⟩
    rw [hr3, hr2, hr1, ht3, ht2, ht] at hc
    refine ⟨hr4.trans (hr3.trans (hr2.trans hr1)), Or.inr (Or.inr ⟨d, rfl, rfl, h4, by rw [Nat.zero_add]; exact hg, ?_⟩)⟩
    rw [Nat.zero_add, granted_add]
    rcases hc with ⟨he, hg2, ht4⟩ | ⟨he, hg2⟩
    · exact Or.inl ⟨he, ⟨hg, hg2⟩, by rw [ht4]; omega⟩
    · exact Or.inr ⟨he, fun hall => hg2 hall.2⟩
  · exact ⟨hr1, Or.inr (Or.inl ⟨granted_zero _ _, by rw [Nat.zero_add]; exact hg, rfl, Or.inl ⟨id, h1⟩⟩)⟩

/-- What follows the making of the new string, with what happens to it when its announcement is refused. -/
theorem change_spec {p : Place} {t : Text} {data : List Nat} (forgets : Prop)
    (bad : Str → Exc → M Ret)
    (hbad : ∀ (s : Str) (e : Exc) (m : Mem), Holds r (s.addr :: t.value.addr :: l) m →
      after (bad s e) m (fun q m' => m'.room = m.room ∧ q = (some e, t) ∧
        ((¬ forgets ∧ Holds r (t.value.addr :: l) m') ∨ (forgets ∧ Holds r (s.addr :: t.value.addr :: l) m'))))
    (h : Holds r (t.value.addr :: l) m) (hb : 0 < r t.block + l.count t.block)
    (hp : ∀ a ∈ around p, 0 < r a + l.count a) :
    after (do
      let s ← newString data
      match s with
      | none => pure (some .noMem, t)
      | some temp =>
        let r ← raiseChars p t temp
        match r with
        | some e => bad temp e
        | none => store p t temp) m
      (fun q m' => m'.room = m.room ∧ Outcome p t r l 2 forgets data m q m') := by
  rw [after_bind]
  refine after_mono (newString_spec h) ?_
  rintro o m1 ⟨hr1, ⟨rfl, h1, hg⟩ | ⟨s, rfl, hs, h1, hg, ht1⟩⟩
  · exact ⟨hr1, Or.inl ⟨hg, rfl, h1⟩⟩
  · dsimp only
    rw [after_bind]
    refine after_mono (raiseChars_neutral p t s r _ m1 h1 fun a ha => ?_) ?_
    · simp only [List.mem_cons] at ha
      rcases ha with rfl | rfl | rfl | rfl | ha
      · exact live_cons (live_cons (hp _ (by simp [around])))
      · exact live_cons (live_cons hb)
      · exact live_mem (by simp)
      · exact live_mem (by simp)
      · exact live_cons (live_cons (hp _ (by simp [around, ha])))
    rintro e m2 ⟨h2, hr2, hc⟩
    rw [hr1, ht1] at hc
    rcases hc with ⟨rfl, hg2, ht2⟩ | ⟨rfl, hg2⟩
    · dsimp only
      refine after_mono (store_spec (h2.perm (List.Perm.swap _ _ _)) hp) ?_
      rintro q m3 ⟨hr3, hq, h3, hc⟩
      rw [hr2, hr1, ht2] at hc
      refine ⟨hr3.trans (hr2.trans hr1), Or.inr (Or.inr ⟨s, hs, hq, h3, granted_add.mpr ⟨hg, hg2⟩, ?_⟩)⟩
      rw [granted_add]
      rcases hc with ⟨he, hg3, ht4⟩ | ⟨he, hg3⟩
      · exact Or.inl ⟨he, ⟨granted_add.mpr ⟨hg, hg2⟩, by rw [← Nat.add_assoc]; exact hg3⟩, by rw [ht4]; omega⟩
      · exact Or.inr ⟨he, fun hall => hg3 (by rw [Nat.add_assoc]; exact hall.2)⟩
    · dsimp only
      refine after_mono (hbad s _ m2 h2) ?_
      rintro q m3 ⟨hr3, hq, hc⟩
      refine ⟨hr3.trans (hr2.trans hr1), Or.inr (Or.inl ⟨hg, fun hall => hg2 (granted_add.mp hall).2, hq, ?_⟩)⟩
      exact hc.imp_right fun ⟨hf, hh⟩ => ⟨hf, s.addr, hh⟩

theorem appendData_spec {p : Place} {t : Text} {d : Str} (hro : p.readonly = false)
    (h : Holds r (t.value.addr :: l) m) (hb : 0 < r t.block + l.count t.block)
    (hp : ∀ a ∈ around p, 0 < r a + l.count a) :
    after (appendData p t d) m (fun q m' => m'.room = m.room ∧
      Outcome p t r l 2 False (t.value.data ++ d.data) m q m') := by
  unfold appendData
  rw [if_neg (by rw [hro]; decide)]
  refine change_spec False (fun temp e => do unref temp.addr; pure (some e, t)) ?_ h hb hp
  intro s e m hh
  rw [after_bind]
  refine after_mono (unref_spec hh) ?_
  rintro _ m1 ⟨h1, hr1, -⟩
  exact ⟨hr1, rfl, Or.inl ⟨id, h1⟩⟩

theorem storeNew_spec {p : Place} {t : Text} {data : List Nat} 
    (h : Holds r (t.value.addr :: l) m) (hb : 0 < r t.block + l.count t.block)
    (hp : ∀ a ∈ around p, 0 < r a + l.count a) :
    after (storeNew p t data) m (fun q m' => m'.room = m.room ∧ Outcome p t r l 2 True data m q m') := by
  refine change_spec True (fun _ e => pure (some e, t)) ?_ h hb hp
  intro s e m hh
  exact ⟨rfl, rfl, Or.inr ⟨trivial, hh⟩⟩

theorem replaceData_spec {p : Place} {t : Text} {o c : Nat} {d : Str} (hro : p.readonly = false)
    (ho : o < 2147483648) (hc : c < 2147483648) (hl : o ≤ t.value.data.length)
    (h : Holds r (t.value.addr :: l) m) (hb : 0 < r t.block + l.count t.block)
    (hp : ∀ a ∈ around p, 0 < r a + l.count a) :
    after (replaceData p t o c d) m (fun q m' => m'.room = m.room ∧
      Outcome p t r l 2 True (t.value.data.take o ++ d.data ++ t.value.data.drop (o + c)) m q m') := by
  have hno : neg o = false := decide_eq_false (by omega)
  have hnc : neg c = false := decide_eq_false (by omega)
  have hd : t.value.data.drop (if o + c ≥ t.value.data.length then t.value.data.length else o + c) =
      t.value.data.drop (o + c) := by
    split
    · rename_i hge
      rw [List.drop_eq_nil_of_le (Nat.le_refl _), List.drop_eq_nil_of_le hge]
    · rfl
  unfold replaceData
  rw [if_neg (by rw [hro]; decide), if_neg (by rw [hno, hnc]; decide), if_neg (by omega)]
  dsimp only
  rw [hd]
  exact storeNew_spec h hb hp

theorem run_spec (c : Call) {p : Place} {t : Text} (hf : c.Fits p t.value.data) (he : p.empty.data = [])
    (h : Holds r (t.value.addr :: l) m) (hb : 0 < r t.block + l.count t.block)
    (hp : ∀ a ∈ around p ++ c.given, 0 < r a + l.count a) :
    after (c.run p t) m (fun q m' => m'.room = m.room ∧
      Outcome p t r l c.stringCost c.Forgets (c.wanted t.value.data) m q m') := by
  have hp' : ∀ a ∈ around p, 0 < r a + l.count a := fun a ha => hp a (List.mem_append_left _ ha)
  cases c with
  | set d => exact setData_spec hf h hb (hp _ (List.mem_append_right _ (List.mem_singleton.mpr rfl))) hp'
  | append d => exact appendData_spec hf h hb hp'
  | insert o d =>
    obtain ⟨hro, ho, hl⟩ := hf
    show after (insertData p t o d) m _
    unfold insertData
    have hno : neg o = false := decide_eq_false (by omega)
    rw [if_neg (by rw [hro]; decide), if_neg (by rw [hno]; decide), if_neg (by omega)]
    exact storeNew_spec h hb hp'
  | delete o n =>
    obtain ⟨hro, ho, hn, hl⟩ := hf
    have := replaceData_spec (d := p.empty) hro ho hn hl h hb hp'
    rw [he, List.append_nil] at this
    exact this
  | replace o n d =>
    obtain ⟨hro, ho, hn, hl⟩ := hf
    exact replaceData_spec hro ho hn hl h hb hp'

/-! ## Splitting a text -/

theorem createText_spec {name : Nat} {value : Str} (h : Holds r l m) (hn : 0 < r name + l.count name)
    (hv : 0 < r value.addr + l.count value.addr) :
    after (createText name value) m (fun o m' => m'.room = m.room ∧ m'.time = m.time + 1 ∧
      ((o = none ∧ Holds r l m' ∧ ¬ Granted m.room m.time 1) ∨
       (∃ b, o = some ⟨b, name, value⟩ ∧ Holds r (value.addr :: name :: b :: l) m' ∧ Granted m.room m.time 1))) := by
  unfold createText
  rw [after_bind]
  refine after_mono (malloc_spec h) ?_
  rintro o m1 ⟨hr1, ht1, ⟨rfl, h1, hg⟩ | ⟨b, rfl, h1, hg⟩⟩
  · exact ⟨hr1, ht1, Or.inl ⟨rfl, h1, hg⟩⟩
  · dsimp only
    rw [after_bind]
    refine after_mono (ref_live h1 (live_cons hn)) ?_
    rintro _ m2 ⟨h2, hr2, ht2⟩
    rw [after_bind]
    refine after_mono (ref_live h2 (live_cons (live_cons hv))) ?_
    rintro _ m3 ⟨h3, hr3, ht3⟩
    exact ⟨hr3.trans (hr2.trans hr1), by rw [ht3, ht2, ht1], Or.inr ⟨b, rfl, h3, hg⟩⟩

theorem frees_destroyText (t : Text) : Frees (destroyText t) [t.value.addr, t.name, t.block] :=
  (Frees.one _).seq ((Frees.one _).seq (Frees.one _))

/-- **Specification.**  How `splitText` ends. -/
def SplitOutcome (p : Place) (t : Text) (o : Nat) (r : Nat → Nat) (l : List Nat) (m : Mem)
    (q : Except Exc Text × Text) (m' : Mem) : Prop :=
  (¬ Granted m.room m.time 5 ∧ q = (.error .noMem, t) ∧ Holds r (t.value.addr :: l) m') ∨
  (Granted m.room m.time 5 ∧ ¬ Granted m.room m.time (5 + firstCost p) ∧ q = (.error .noMem, t) ∧
    ∃ lost, Holds r (lost :: t.value.addr :: l) m') ∨
  (Granted m.room m.time (5 + firstCost p) ∧ ¬ Granted m.room m.time (5 + firstCost p + secondCost p) ∧
    ∃ v : Str, q = (.error .noMem, { t with value := v }) ∧ v.data = t.value.data.take o ∧ Holds r (v.addr :: l) m') ∨
  (Granted m.room m.time (5 + firstCost p + secondCost p) ∧
    ∃ (v : Str) (res : Text), q = (.ok res, { t with value := v }) ∧ v.data = t.value.data.take o ∧
      res.name = t.name ∧ res.value.data = t.value.data.drop o ∧
      Holds r (res.value.addr :: res.name :: res.block :: v.addr :: l) m')

theorem split_spec {p : Place} {t : Text} {o : Nat} (hro : p.readonly = false) (ho : o < t.value.data.length)
    (hlen : t.value.data.length < 2147483648) (he : p.empty.data = [])
    (h : Holds r (t.value.addr :: l) m) (hb : 0 < r t.block + l.count t.block) (hn : 0 < r t.name + l.count t.name)
    (hp : ∀ a ∈ around p, 0 < r a + l.count a) :
    after (splitText p t o) m (fun q m' => m'.room = m.room ∧ SplitOutcome p t o r l m q m') := by
  unfold splitText
  rw [if_neg (by rw [hro]; decide), if_neg (by omega), after_bind]
  refine after_mono (newString_spec h) ?_
  rintro s m1 ⟨hr1, ⟨rfl, h1, hg1⟩ | ⟨s, rfl, hs, h1, hg1, ht1⟩⟩
  · exact ⟨hr1, Or.inl ⟨fun hall => hg1 (granted_mono hall (by omega)), rfl, h1⟩⟩
  · dsimp only
    rw [after_bind]
    refine after_mono (createText_spec h1 (live_cons (live_cons hn)) (live_mem (by simp))) ?_
    rintro x m2 ⟨hr2, ht2, hc⟩
    rw [hr1, ht1] at hc
    rcases hc with ⟨rfl, h2, hg2⟩ | ⟨b, rfl, h2, hg2⟩
    · dsimp only
      rw [after_bind]
      refine after_mono (unref_spec h2) ?_
      rintro _ m3 ⟨h3, hr3, -⟩
      refine ⟨hr3.trans (hr2.trans hr1), Or.inl ⟨fun hall => ?_, rfl, h3⟩⟩
      exact hg2 (granted_add.mp (granted_mono hall (show 2 + 1 ≤ 5 by omega))).2
    · have hg3 : Granted m.room m.time 3 := granted_add.mpr ⟨hg1, hg2⟩
      dsimp only
      rw [after_bind]
      refine after_mono (unref_spec h2) ?_
      rintro _ m3 ⟨h3, hr3, ht3⟩
      unfold splitRest
      rw [after_bind]
      have h3' : Holds r (t.value.addr :: ([s.addr, t.name, b] ++ l)) m3 := h3.perm (by
        rw [List.perm_iff_count]; intro y; simp only [List.count_append, List.count_cons, List.count_nil]; omega)
      have hd := replaceData_spec (c := t.value.data.length - o) (d := p.empty) hro (by omega) (by omega)
        (Nat.le_of_lt ho) h3' (live_mono hb) fun a ha => live_mono (hp a ha)
      rw [he, List.append_nil, List.drop_eq_nil_of_le (show t.value.data.length ≤ o + (t.value.data.length - o) by omega),
        List.append_nil] at hd
      refine after_mono hd ?_
      rintro ⟨e, t'⟩ m4 ⟨hr4, hc⟩
      have hrm : m3.room = m.room := hr3.trans (hr2.trans hr1)
      have htm : m3.time = m.time + 3 := by rw [ht3, ht2, ht1]
      have hr4' : m4.room = m.room := hr4.trans hrm
      have cut : ∀ {k : Nat}, Granted m3.room m3.time k ↔ Granted m.room m.time (3 + k) := fun {k} => by
        rw [granted_add, hrm, htm]; exact ⟨fun hx => ⟨hg3, hx⟩, fun hx => hx.2⟩
      have e5 : 3 + (2 + firstCost p) = 5 + firstCost p := by omega
      have e6 : 3 + (2 + firstCost p + secondCost p) = 5 + firstCost p + secondCost p := by omega
      unfold Outcome at hc
      rw [cut, cut, cut, e5, e6] at hc
      have fin : ∀ (t' : Text) (k : List Nat) {P : (Except Exc Text × Text) → Mem → Prop},
          Holds r (k ++ ([s.addr, t.name, b] ++ l)) m4 →
          (∀ m5, Holds r (k ++ l) m5 → m5.room = m.room → P (.error .noMem, t') m5) →
          after (do destroyText ⟨b, t.name, s⟩; pure (.error .noMem, t')) m4 P := by
        intro t' k P hh hP
        rw [after_bind]
        refine after_mono (frees_destroyText ⟨b, t.name, s⟩ r (k ++ l) m4 (hh.perm ?_)) ?_
        · rw [List.perm_iff_count]; intro y; simp only [List.count_append, List.count_cons, List.count_nil]; omega
        rintro _ m5 ⟨h5, hr5, -⟩
        exact hP m5 h5 (hr5.trans hr4')
      rcases hc with ⟨hng, hq, h4⟩ | ⟨hg4, hng, hq, ⟨hf, -⟩ | ⟨-, lost, h4⟩⟩ | ⟨v, hv, hq, h4, hg4, ⟨hq1, hg5, -⟩ | ⟨hq1, hng⟩⟩
      · cases hq
        exact fin t [t.value.addr] h4 fun m5 h5 hr5 => ⟨hr5, Or.inl ⟨hng, rfl, h5⟩⟩
      · exact absurd trivial hf
      · cases hq
        exact fin t [lost, t.value.addr] h4 fun m5 h5 hr5 => ⟨hr5, Or.inr (Or.inl ⟨hg4, hng, rfl, lost, h5⟩)⟩
      · dsimp only at hq hq1
        subst hq hq1
        refine ⟨hr4', Or.inr (Or.inr (Or.inr ⟨hg5, v, ⟨b, t.name, s⟩, rfl, hv, rfl, hs, h4.perm ?_⟩))⟩
        rw [List.perm_iff_count]; intro y; simp only [List.count_append, List.count_cons, List.count_nil]; omega
      · dsimp only at hq hq1
        subst hq hq1
        exact fin { t with value := v } [v.addr] h4 fun m5 h5 hr5 => ⟨hr5, Or.inr (Or.inr (Or.inl ⟨hg4, hng, v, rfl, hv, h5⟩))⟩

/-! ## The text around a text -/

/-- **Specification.**  The text before a boundary that is taken along. -/
def Near (side : List Sibling) (v : Option Str) : Prop :=
  match v with
  | none => ∀ k x, side = List.replicate k .passed ++ x → ∀ s y, x ≠ .text s :: y
  | some s => ∃ k y, side = List.replicate k .passed ++ .text s :: y

theorem nearest_near : ∀ side : List Sibling, Near side (nearest side)
  | [] => fun k x h s y hx => by
    rw [hx] at h
    exact absurd h.symm (by simp)
  | .text v :: rest => ⟨0, rest, rfl⟩
  | .wall :: rest => fun k x h s y hx => by
    rw [hx] at h
    cases k with
    | zero => exact absurd (List.cons.inj h).1 (by simp)
    | succ k => exact absurd (List.cons.inj h).1 (by simp)
  | .passed :: rest => by
    have ih := nearest_near rest
    show Near _ (nearest rest)
    cases hv : nearest rest with
    | none =>
      rw [hv] at ih
      intro k x h s y hx
      cases k with
      | zero =>
        rw [hx] at h
        exact absurd (List.cons.inj h).1 (by simp)
      | succ k => exact ih k x (List.cons.inj h).2 s y hx
    | some s =>
      rw [hv] at ih
      obtain ⟨k, y, h⟩ := ih
      exact ⟨k + 1, y, congrArg (Sibling.passed :: ·) h⟩

/-- **Specification.**  The characters of a string that may be missing. -/
def dataOf : Option Str → List Nat
  | none => []
  | some s => s.data

/-- **Specification.**  The requests to put another text to the text so far. -/
def joinCost (o : Option Str) : Nat := if o.isSome then 2 else 0

theorem lookLeft_spec {left : List Sibling} {a : Option Str} (ha : nearest left = a) (h : Holds r l m)
    (hl : ∀ s, a = some s → 0 < r s.addr + l.count s.addr) :
    after (lookLeft left) m (fun o m' => o = a ∧ m'.room = m.room ∧ m'.time = m.time ∧
      Holds r ((a.map (·.addr)).toList ++ l) m') := by
  unfold lookLeft
  rw [ha]
  cases a with
  | none => exact ⟨rfl, rfl, rfl, h⟩
  | some v =>
    dsimp only
    rw [after_bind]
    refine after_mono (ref_live h (hl v rfl)) ?_
    rintro _ m1 ⟨h1, hr1, ht1⟩
    rw [after_bind]
    refine after_mono (ref_live h1 (live_cons (hl v rfl))) ?_
    rintro _ m2 ⟨h2, hr2, ht2⟩
    rw [after_bind]
    refine after_mono (unref_spec h2) ?_
    rintro _ m3 ⟨h3, hr3, ht3⟩
    exact ⟨rfl, hr3.trans (hr2.trans hr1), by rw [ht3, ht2, ht1], h3⟩

theorem lookSelf_spec {t : Text} {a : Option Str} (h : Holds r ((a.map (·.addr)).toList ++ l) m)
    (hv : 0 < r t.value.addr + l.count t.value.addr) :
    after (lookSelf t a) m (fun o m' => m'.room = m.room ∧
      ((o = none ∧ ¬ Granted m.room m.time (joinCost a) ∧ Holds r l m') ∨
       (∃ s : Str, o = some s ∧ s.data = dataOf a ++ t.value.data ∧ Granted m.room m.time (joinCost a) ∧
         m'.time = m.time + joinCost a ∧ Holds r (s.addr :: l) m'))) := by
  unfold lookSelf
  rw [after_bind]
  refine after_mono (ref_live h (live_mono hv)) ?_
  rintro _ m1 ⟨h1, hr1, ht1⟩
  cases a with
  | none => exact ⟨hr1, Or.inr ⟨t.value, rfl, rfl, granted_zero _ _, ht1, h1⟩⟩
  | some v =>
    dsimp only
    rw [after_bind]
    refine after_mono (newString_spec h1) ?_
    rintro o m2 ⟨hr2, hc⟩
    rw [hr1, ht1] at hc
    rw [after_bind]
    rcases hc with ⟨rfl, h2, hg⟩ | ⟨s, rfl, hs, h2, hg, ht2⟩
    · refine after_mono (unref_spec h2) ?_
      rintro _ m3 ⟨h3, hr3, ht3⟩
      rw [after_bind]
      refine after_mono (unref_spec h3) ?_
      rintro _ m4 ⟨h4, hr4, ht4⟩
      exact ⟨hr4.trans (hr3.trans (hr2.trans hr1)), Or.inl ⟨rfl, hg, h4⟩⟩
    · refine after_mono (unref_spec (a := t.value.addr) (l := v.addr :: s.addr :: l) (h2.perm ?_)) ?_
      · rw [List.perm_iff_count]; intro y
        simp only [Option.map_some, Option.toList_some, List.count_append, List.count_cons, List.count_nil]; omega
      rintro _ m3 ⟨h3, hr3, ht3⟩
      rw [after_bind]
      refine after_mono (unref_spec h3) ?_
      rintro _ m4 ⟨h4, hr4, ht4⟩
      exact ⟨hr4.trans (hr3.trans (hr2.trans hr1)), Or.inr ⟨s, rfl, hs, hg, by rw [ht4, ht3, ht2]; rfl, h4⟩⟩

theorem lookRight_spec {right : List Sibling} {a : Option Str} (ha : nearest right = a) {b : Str}
    (h : Holds r (b.addr :: l) m) (hl : ∀ s, a = some s → 0 < r s.addr + l.count s.addr) :
    after (lookRight right b) m (fun o m' => m'.room = m.room ∧
      ((o = none ∧ ¬ Granted m.room m.time (joinCost a) ∧ ∃ v, a = some v ∧ Holds r (v.addr :: l) m') ∨
       (∃ s : Str, o = some s ∧ s.data = b.data ++ dataOf a ∧ Granted m.room m.time (joinCost a) ∧
         m'.time = m.time + joinCost a ∧ Holds r (s.addr :: l) m'))) := by
  unfold lookRight
  rw [ha]
  cases a with
  | none => exact ⟨rfl, Or.inr ⟨b, rfl, (List.append_nil _).symm, granted_zero _ _, rfl, h⟩⟩
  | some v =>
    dsimp only
    rw [after_bind]
    refine after_mono (ref_live h (live_cons (hl v rfl))) ?_
    rintro _ m1 ⟨h1, hr1, ht1⟩
    rw [after_bind]
    refine after_mono (newString_spec h1) ?_
    rintro o m2 ⟨hr2, hc⟩
    rw [hr1, ht1] at hc
    rcases hc with ⟨rfl, h2, hg⟩ | ⟨s, rfl, hs, h2, hg, ht2⟩
    · dsimp only
      rw [after_bind]
      refine after_mono (unref_spec (h2.perm (List.Perm.swap _ _ _))) ?_
      rintro _ m3 ⟨h3, hr3, ht3⟩
      exact ⟨hr3.trans (hr2.trans hr1), Or.inl ⟨rfl, hg, v, rfl, h3⟩⟩
    · dsimp only
      rw [after_bind]
      refine after_mono (unref_spec (a := b.addr) (l := v.addr :: s.addr :: l) (h2.perm ?_)) ?_
      · rw [List.perm_iff_count]; intro y
        simp only [List.count_append, List.count_cons, List.count_nil]; omega
      rintro _ m3 ⟨h3, hr3, ht3⟩
      rw [after_bind]
      refine after_mono (unref_spec h3) ?_
      rintro _ m4 ⟨h4, hr4, ht4⟩
      exact ⟨hr4.trans (hr3.trans (hr2.trans hr1)), Or.inr ⟨s, rfl, hs, hg, by rw [ht4, ht3, ht2]; rfl, h4⟩⟩

/-- **Specification.**  How the collection of the text around ends, with `a` and `b` the texts on both sides. -/
def WholeOutcome (t : Text) (a b : Option Str) (r : Nat → Nat) (l : List Nat) (m : Mem) (o : Option Str) (m' : Mem) : Prop :=
  (o = none ∧ ¬ Granted m.room m.time (joinCost a) ∧ Holds r l m') ∨
  (o = none ∧ Granted m.room m.time (joinCost a) ∧ ¬ Granted m.room m.time (joinCost a + joinCost b) ∧
    ∃ v, b = some v ∧ Holds r (v.addr :: l) m') ∨
  (Granted m.room m.time (joinCost a + joinCost b) ∧ m'.time = m.time + (joinCost a + joinCost b) ∧
    ∃ s : Str, o = some s ∧ s.data = dataOf a ++ t.value.data ++ dataOf b ∧ Holds r (s.addr :: l) m')

theorem whole_spec {left right : List Sibling} {t : Text} {a b : Option Str} (ha : nearest left = a)
    (hb : nearest right = b) (h : Holds r l m) (hv : 0 < r t.value.addr + l.count t.value.addr)
    (hl : ∀ s, a = some s → 0 < r s.addr + l.count s.addr) (hl' : ∀ s, b = some s → 0 < r s.addr + l.count s.addr) :
    after (wholeText left t right) m (fun o m' => m'.room = m.room ∧ WholeOutcome t a b r l m o m') := by
  unfold wholeText
  rw [after_bind]
  refine after_mono (lookLeft_spec ha h hl) ?_
  rintro _ m1 ⟨rfl, hr1, ht1, h1⟩
  rw [after_bind]
  refine after_mono (lookSelf_spec h1 hv) ?_
  rintro o m2 ⟨hr2, hc⟩
  rw [hr1, ht1] at hc
  rcases hc with ⟨rfl, hg, h2⟩ | ⟨s, rfl, hs, hg, ht2, h2⟩
  · exact ⟨hr2.trans hr1, Or.inl ⟨rfl, hg, h2⟩⟩
  · dsimp only
    refine after_mono (lookRight_spec hb h2 hl') ?_
    rintro o m3 ⟨hr3, hc⟩
    rw [hr2, hr1, ht2] at hc
    refine ⟨hr3.trans (hr2.trans hr1), Or.inr ?_⟩
    unfold joinCost at *
    rw [granted_add]
    rcases hc with ⟨rfl, hg2, v, hv2, h3⟩ | ⟨x, rfl, hx, hg2, ht3, h3⟩
    · exact Or.inl ⟨rfl, hg, fun hall => hg2 hall.2, v, hv2, h3⟩
    · exact Or.inr ⟨⟨hg, hg2⟩, by rw [ht3]; omega, x, rfl, by rw [hx, hs], h3⟩

/-! ## C91 -/

/-- **C91, events.**  One mutation event, whatever number of ancestors listen, makes its requests and no more, writes
inside its array, and leaves every count as it was, whether it is dispatched or refused. -/
theorem C91_event (type : Nat) (related prev new : Option Nat) (hear : List Nat) (m : Mem) (hm : m.Valid)
    (hl : ∀ a ∈ type :: (related.toList ++ (prev.toList ++ (new.toList ++ hear))), 0 < m.refs a) :
    ∃ e m', raise type related prev new hear m = .ok e m' ∧ m'.refs = m.refs ∧ m'.Valid ∧
      (e = none ↔ Granted m.room m.time (eventCost hear.length)) ∧ (e = none ∨ e = some .noMem) := by
  obtain ⟨e, m', hx, h, -, hc⟩ := after_elim (raise_neutral type related prev new hear m.refs [] m hm.holds
    fun a ha => Nat.lt_of_lt_of_le (hl a ha) (Nat.le_add_right _ _))
  refine ⟨e, m', hx, h.refs_eq, h.valid, ?_, ?_⟩
  · rcases hc with ⟨rfl, hg, -⟩ | ⟨rfl, hg⟩
    · exact ⟨fun _ => hg, fun _ => rfl⟩
    · exact ⟨fun h => absurd h (by simp), fun h => absurd h hg⟩
  · exact hc.imp (·.1) (·.1)

/-- **C91, changes that are not made.**  A change of a read-only node, or at a place outside the text, is answered by
its exception; it makes no request and changes nothing. -/
theorem C91_refused (c : Call) (p : Place) (t : Text) (m : Mem) (hf : ¬ c.Fits p t.value.data) :
    c.run p t m = .ok (some (if p.readonly then .noModificationAllowed else .indexSize), t) m := by
  cases hro : p.readonly with
  | true =>
    cases c <;> simp only [Call.run, setData, appendData, insertData, deleteData, replaceData, hro, if_true] <;> rfl
  | false =>
    cases c with
    | set d => exact absurd hro hf
    | append d => exact absurd hro hf
    | insert o d =>
      show insertData p t o d m = _
      unfold insertData
      rw [if_neg (by rw [hro]; decide)]
      by_cases ho : o < 2147483648
      · have hno : neg o = false := decide_eq_false (by omega)
        have hl : t.value.data.length < o := Nat.lt_of_not_le fun hle => hf ⟨hro, ho, hle⟩
        rw [if_neg (by rw [hno]; decide), if_pos hl]; rfl
      · have hno : neg o = true := decide_eq_true (by omega)
        rw [if_pos hno]; rfl
    | delete o n =>
      show replaceData p t o n p.empty m = _
      unfold replaceData
      rw [if_neg (by rw [hro]; decide)]
      by_cases hon : o < 2147483648 ∧ n < 2147483648
      · have hno : (neg o || neg n) = false := by
          rw [show neg o = false from decide_eq_false (by omega), show neg n = false from decide_eq_false (by omega)]; rfl
        have hl : t.value.data.length < o := Nat.lt_of_not_le fun hle => hf ⟨hro, hon.1, hon.2, hle⟩
        rw [if_neg (by rw [hno]; decide), if_pos hl]; rfl
      · have hno : (neg o || neg n) = true := by
          unfold neg
          rw [← Bool.decide_or]
          exact decide_eq_true (by omega)
        rw [if_pos hno]; rfl
    | replace o n d =>
      show replaceData p t o n d m = _
      unfold replaceData
      rw [if_neg (by rw [hro]; decide)]
      by_cases hon : o < 2147483648 ∧ n < 2147483648
      · have hno : (neg o || neg n) = false := by
          rw [show neg o = false from decide_eq_false (by omega), show neg n = false from decide_eq_false (by omega)]; rfl
        have hl : t.value.data.length < o := Nat.lt_of_not_le fun hle => hf ⟨hro, hon.1, hon.2, hle⟩
        rw [if_neg (by rw [hno]; decide), if_pos hl]; rfl
      · have hno : (neg o || neg n) = true := by
          unfold neg
          rw [← Bool.decide_or]
          exact decide_eq_true (by omega)
        rw [if_pos hno]; rfl

/-- What a caller has to hold: the node, what is around it, and the strings given. -/
def Held (r : Nat → Nat) (p : Place) (t : Text) (given : List Nat) : Prop :=
  ∀ a ∈ t.block :: t.name :: (around p ++ given), 0 < r a

theorem Held.spec {p : Place} {t : Text} {given : List Nat} (h : Held r p t given) :
    0 < r t.block + ([] : List Nat).count t.block ∧ 0 < r t.name + ([] : List Nat).count t.name ∧
      ∀ a ∈ around p ++ given, 0 < r a + ([] : List Nat).count a :=
  ⟨h _ (by simp), h _ (by simp), fun a ha => h a (by simp only [List.mem_cons]; exact Or.inr (Or.inr ha))⟩

/-- **C91, changes.**  A change answers `DOM_NO_ERR` exactly if all its requests are granted; the text is then the one
asked for, and the node holds one reference to it, the old one being given back.  Otherwise it answers `DOM_NO_MEM_ERR`,
without undefined behaviour; the node is as before if the refused request is one for the string or for the first event.
`setData` and `appendData` then keep nothing, and neither do the others if the string is refused.  Missing: the other
changes keep the string when the first event is refused (`C91_forgotten_violated`), and a refused second event comes
too late (`C91_late_violated`). -/
theorem C91_edit_partial (c : Call) (p : Place) (t : Text) (m : Mem) (h : Holds r [t.value.addr] m)
    (hf : c.Fits p t.value.data) (he : p.empty.data = []) (hl : Held r p t c.given) :
    ∃ e t' m', c.run p t m = .ok (e, t') m' ∧ (e = none ∨ e = some .noMem) ∧
      (e = none ↔ Granted m.room m.time (c.stringCost + firstCost p + secondCost p)) ∧
      t'.block = t.block ∧ t'.name = t.name ∧
      (e = none → t'.value.data = c.wanted t.value.data ∧ Holds r [t'.value.addr] m') ∧
      (¬ Granted m.room m.time (c.stringCost + firstCost p) → t' = t) ∧
      (¬ c.Forgets ∨ ¬ Granted m.room m.time c.stringCost → Holds r [t'.value.addr] m') := by
  obtain ⟨hb, -, hp⟩ := hl.spec
  obtain ⟨⟨e, t'⟩, m', hx, -, hc⟩ := after_elim (run_spec c hf he h hb hp)
  refine ⟨e, t', m', hx, ?_⟩
  rcases hc with ⟨hng, hq, h4⟩ | ⟨hg4, hng, hq, hh⟩ | ⟨v, hv, hq, h4, hg4, ⟨hq1, hg5, -⟩ | ⟨hq1, hng⟩⟩
  · cases hq
    exact ⟨Or.inr rfl, ⟨fun h => absurd h (by simp), fun hall => absurd (granted_mono hall (by omega)) hng⟩, rfl, rfl,
      fun h => absurd h (by simp), fun _ => rfl, fun _ => h4⟩
  · cases hq
    refine ⟨Or.inr rfl, ⟨fun h => absurd h (by simp), fun hall => absurd (granted_mono hall (by omega)) hng⟩, rfl, rfl,
      fun h => absurd h (by simp), fun _ => rfl, ?_⟩
    rintro (hnf | hns)
    · rcases hh with ⟨-, h4⟩ | ⟨hf, -⟩
      · exact h4
      · exact absurd hf hnf
    · exact absurd hg4 hns
  · dsimp only at hq hq1
    subst hq hq1
    exact ⟨Or.inl rfl, ⟨fun _ => hg5, fun _ => rfl⟩, rfl, rfl, fun _ => ⟨hv, h4⟩, fun hn => absurd hg4 hn, fun _ => h4⟩
  · dsimp only at hq hq1
    subst hq hq1
    exact ⟨Or.inr rfl, ⟨fun h => absurd h (by simp), fun h => absurd h hng⟩, rfl, rfl, fun h => absurd h (by simp),
      fun hn => absurd hg4 hn, fun _ => h4⟩

/-- **C91, the string is forgotten.**  `insertData`, `deleteData` and `replaceData`: if the string is made and the event
that announces the change is refused, the call answers `DOM_NO_MEM_ERR` and one reference remains that nobody holds. -/
theorem C91_forgotten_violated (c : Call) (p : Place) (t : Text) (m : Mem) (h : Holds r [t.value.addr] m)
    (hf : c.Fits p t.value.data) (he : p.empty.data = []) (hl : Held r p t c.given) (hc : c.Forgets)
    (hg : Granted m.room m.time c.stringCost) (hn : ¬ Granted m.room m.time (c.stringCost + firstCost p)) :
    ∃ m' lost, c.run p t m = .ok (some .noMem, t) m' ∧ Holds r [lost, t.value.addr] m' := by
  obtain ⟨hb, -, hp⟩ := hl.spec
  obtain ⟨⟨e, t'⟩, m', hx, -, ho⟩ := after_elim (run_spec c hf he h hb hp)
  rcases ho with ⟨hng, -⟩ | ⟨-, -, hq, ⟨hnf, -⟩ | ⟨-, lost, h4⟩⟩ | ⟨v, hv, hq, h4, hg4, -⟩
  · exact absurd hg hng
  · exact absurd hc hnf
  · cases hq; exact ⟨m', lost, hx, h4⟩
  · exact absurd hg4 hn

/-- **C91, the answer comes too late.**  Every change: if the event after the change is refused, the call answers
`DOM_NO_MEM_ERR` although the text has been changed. -/
theorem C91_late_violated (c : Call) (p : Place) (t : Text) (m : Mem) (h : Holds r [t.value.addr] m)
    (hf : c.Fits p t.value.data) (he : p.empty.data = []) (hl : Held r p t c.given)
    (hg : Granted m.room m.time (c.stringCost + firstCost p))
    (hn : ¬ Granted m.room m.time (c.stringCost + firstCost p + secondCost p)) :
    ∃ t' m', c.run p t m = .ok (some .noMem, t') m' ∧ t'.value.data = c.wanted t.value.data := by
  obtain ⟨hb, -, hp⟩ := hl.spec
  obtain ⟨⟨e, t'⟩, m', hx, -, ho⟩ := after_elim (run_spec c hf he h hb hp)
  rcases ho with ⟨hng, -⟩ | ⟨-, hng, -⟩ | ⟨v, hv, hq, h4, hg4, ⟨hq1, hg5, -⟩ | ⟨hq1, hng⟩⟩
  · exact absurd (granted_mono hg (by omega)) hng
  · exact absurd hg hng
  · exact absurd hg5 hn
  · dsimp only at hq hq1
    subst hq hq1
    exact ⟨_, m', hx, hv⟩

/-- **C91, splitting refused.**  `splitText` of a read-only node, or at the end of the text or behind it, is refused with
the error for it; no memory is requested, and nothing is changed.  (DOM allows a split at the end, `C11_split_end_violated`.) -/
theorem C91_split_refused (p : Place) (t : Text) (o : Nat) (m : Mem) (h : p.readonly = true ∨ t.value.data.length ≤ o) :
    splitText p t o m = .ok (.error (if p.readonly then .noModificationAllowed else .indexSize), t) m := by
  unfold splitText
  cases hro : p.readonly with
  | true => rfl
  | false =>
    have ho : t.value.data.length ≤ o := by
      rcases h with h | h
      · rw [hro] at h; cases h
      · exact h
    rw [if_neg (by simp), if_pos ho]; rfl

/-- **C91, splitting.**  `splitText` answers with the new node exactly if all its requests are granted; the two texts
are then the two parts of the old one and each node holds its own.  Otherwise it answers `DOM_NO_MEM_ERR`, without
undefined behaviour; the text is whole, and nothing is kept, if one of the first five requests (two strings and the
node) is refused.  Missing: a refused event (`C91_split_lost_violated`, `C91_split_cut_violated`). -/
theorem C91_split_partial (p : Place) (t : Text) (o : Nat) (m : Mem) (h : Holds r [t.value.addr] m)
    (hro : p.readonly = false) (ho : o < t.value.data.length) (hlen : t.value.data.length < 2147483648)
    (he : p.empty.data = []) (hl : Held r p t []) :
    ∃ q m', splitText p t o m = .ok q m' ∧
      (q.1 = .error .noMem ∨ ∃ res, q.1 = .ok res) ∧
      ((∃ res, q.1 = .ok res) ↔ Granted m.room m.time (5 + firstCost p + secondCost p)) ∧
      (∀ res, q.1 = .ok res → q.2.value.data ++ res.value.data = t.value.data ∧ q.2.value.data.length = o ∧
        Holds r [res.value.addr, res.name, res.block, q.2.value.addr] m') ∧
      (¬ Granted m.room m.time (5 + firstCost p) → q.2 = t) ∧
      (¬ Granted m.room m.time 5 → Holds r [t.value.addr] m') := by
  obtain ⟨hb, hn, hp⟩ := hl.spec
  rw [List.append_nil] at hp
  obtain ⟨q, m', hx, -, hc⟩ := after_elim (split_spec hro ho hlen he h hb hn hp)
  refine ⟨q, m', hx, ?_⟩
  rcases hc with ⟨hng, rfl, h4⟩ | ⟨hg4, hng, rfl, lost, h4⟩ | ⟨hg4, hng, v, rfl, hv, h4⟩ | ⟨hg, v, res, rfl, hv, hn2, hr2, h4⟩
  · exact ⟨Or.inl rfl, ⟨fun ⟨_, h⟩ => absurd h (by simp), fun hall => absurd (granted_mono hall (by omega)) hng⟩,
      fun res h => absurd h (by simp), fun _ => rfl, fun _ => h4⟩
  · exact ⟨Or.inl rfl, ⟨fun ⟨_, h⟩ => absurd h (by simp), fun hall => absurd (granted_mono hall (by omega)) hng⟩,
      fun res h => absurd h (by simp), fun _ => rfl, fun hn5 => absurd hg4 hn5⟩
  · exact ⟨Or.inl rfl, ⟨fun ⟨_, h⟩ => absurd h (by simp), fun hall => absurd hall hng⟩,
      fun res h => absurd h (by simp), fun hn5 => absurd hg4 hn5, fun hn5 => absurd (granted_mono hg4 (by omega)) hn5⟩
  · refine ⟨Or.inr ⟨res, rfl⟩, ⟨fun _ => hg, fun _ => ⟨res, rfl⟩⟩, ?_, fun hn5 => absurd (granted_mono hg (by omega)) hn5,
      fun hn5 => absurd (granted_mono hg (by omega)) hn5⟩
    intro res' hres
    cases hres
    refine ⟨?_, ?_, h4⟩
    · show v.data ++ res.value.data = _
      rw [hv, hr2, List.take_append_drop]
    · show v.data.length = o
      rw [hv, List.length_take]; omega

/-- **C91, splitting forgets.**  If the event that announces the cut is refused, one reference remains that nobody
holds. -/
theorem C91_split_lost_violated (p : Place) (t : Text) (o : Nat) (m : Mem) (h : Holds r [t.value.addr] m)
    (hro : p.readonly = false) (ho : o < t.value.data.length) (hlen : t.value.data.length < 2147483648)
    (he : p.empty.data = []) (hl : Held r p t []) (hg : Granted m.room m.time 5)
    (hn : ¬ Granted m.room m.time (5 + firstCost p)) :
    ∃ m' lost, splitText p t o m = .ok (.error .noMem, t) m' ∧ Holds r [lost, t.value.addr] m' := by
  obtain ⟨hb, hn', hp⟩ := hl.spec
  rw [List.append_nil] at hp
  obtain ⟨q, m', hx, -, hc⟩ := after_elim (split_spec hro ho hlen he h hb hn' hp)
  rcases hc with ⟨hng, -⟩ | ⟨-, -, rfl, lost, h4⟩ | ⟨hg4, -⟩ | ⟨hg4, -⟩
  · exact absurd hg hng
  · exact ⟨m', lost, hx, h4⟩
  · exact absurd hg4 hn
  · exact absurd (granted_mono hg4 (by omega)) hn

/-- **C91, splitting loses text.**  If the event after the cut is refused, `splitText` answers `DOM_NO_MEM_ERR`, the node
has lost everything from the offset on, and the node that had it is destroyed: nothing is left of it in memory. -/
theorem C91_split_cut_violated (p : Place) (t : Text) (o : Nat) (m : Mem) (h : Holds r [t.value.addr] m)
    (hro : p.readonly = false) (ho : o < t.value.data.length) (hlen : t.value.data.length < 2147483648)
    (he : p.empty.data = []) (hl : Held r p t []) (hg : Granted m.room m.time (5 + firstCost p))
    (hn : ¬ Granted m.room m.time (5 + firstCost p + secondCost p)) :
    ∃ t' m', splitText p t o m = .ok (.error .noMem, t') m' ∧ t'.value.data = t.value.data.take o ∧
      t'.value.data ≠ t.value.data ∧ Holds r [t'.value.addr] m' := by
  obtain ⟨hb, hn', hp⟩ := hl.spec
  rw [List.append_nil] at hp
  obtain ⟨q, m', hx, -, hc⟩ := after_elim (split_spec hro ho hlen he h hb hn' hp)
  rcases hc with ⟨hng, -⟩ | ⟨-, hng, -⟩ | ⟨-, -, v, rfl, hv, h4⟩ | ⟨hg4, -⟩
  · exact absurd (granted_mono hg (by omega)) hng
  · exact absurd hg hng
  · refine ⟨_, m', hx, hv, ?_, h4⟩
    show v.data ≠ _
    rw [hv]
    intro e
    have := congrArg List.length e
    rw [List.length_take] at this
    omega
  · exact absurd hg4 hn

/-- **C91, collecting.**  `getWholeText` answers with the text and its nearest neighbours exactly if all its requests are
granted, and the caller holds the one new reference.  Otherwise it answers `DOM_NO_MEM_ERR`, without undefined
behaviour, and nothing is kept if the text on the left could not be put in front.  Missing: the text on the right
(`C91_whole_violated`).  (That only the nearest text on either side is taken is the subject of C12.) -/
theorem C91_whole_partial (left right : List Sibling) (t : Text) (a b : Option Str) (m : Mem) (hm : m.Valid)
    (ha : nearest left = a) (hb : nearest right = b) (hv : 0 < m.refs t.value.addr)
    (hl : ∀ s, a = some s ∨ b = some s → 0 < m.refs s.addr) :
    ∃ o m', wholeText left t right m = .ok o m' ∧ Near left a ∧ Near right b ∧
      (o.isSome = true ↔ Granted m.room m.time (joinCost a + joinCost b)) ∧
      (∀ s, o = some s → s.data = dataOf a ++ t.value.data ++ dataOf b ∧ Holds m.refs [s.addr] m') ∧
      (¬ Granted m.room m.time (joinCost a) → o = none ∧ m'.refs = m.refs) := by
  obtain ⟨o, m', hx, -, hc⟩ := after_elim (whole_spec (t := t) ha hb hm.holds (Nat.lt_of_lt_of_le hv (Nat.le_add_right _ _))
    (fun s hs => Nat.lt_of_lt_of_le (hl s (Or.inl hs)) (Nat.le_add_right _ _))
    (fun s hs => Nat.lt_of_lt_of_le (hl s (Or.inr hs)) (Nat.le_add_right _ _)))
  refine ⟨o, m', hx, ha ▸ nearest_near left, hb ▸ nearest_near right, ?_⟩
  rcases hc with ⟨rfl, hg, h4⟩ | ⟨rfl, hg, hng, v, hv, h4⟩ | ⟨hg, ht, s, rfl, hs, h4⟩
  · exact ⟨⟨fun h => absurd h (by simp), fun hall => absurd (granted_mono hall (by omega)) hg⟩, fun s h => absurd h (by simp),
      fun _ => ⟨rfl, h4.refs_eq⟩⟩
  · exact ⟨⟨fun h => absurd h (by simp), fun hall => absurd hall hng⟩, fun s h => absurd h (by simp), fun hn => absurd hg hn⟩
  · refine ⟨⟨fun _ => hg, fun _ => rfl⟩, ?_, fun hn => absurd (granted_mono hg (by omega)) hn⟩
    intro s' hs'
    cases hs'
    exact ⟨hs, h4⟩

/-- **C91, collecting forgets.**  If the text on the right cannot be put behind, `getWholeText` answers `DOM_NO_MEM_ERR`
and the count of its string stays one too high. -/
theorem C91_whole_violated (left right : List Sibling) (t : Text) (a : Option Str) (v : Str) (m : Mem) (hm : m.Valid)
    (ha : nearest left = a) (hb : nearest right = some v) (hv : 0 < m.refs t.value.addr) (hv' : 0 < m.refs v.addr)
    (hl : ∀ s, a = some s → 0 < m.refs s.addr) (hg : Granted m.room m.time (joinCost a))
    (hn : ¬ Granted m.room m.time (joinCost a + 2)) :
    ∃ m', wholeText left t right m = .ok none m' ∧ m'.refs v.addr = m.refs v.addr + 1 ∧ Holds m.refs [v.addr] m' := by
  obtain ⟨o, m', hx, -, hc⟩ := after_elim (whole_spec (t := t) ha hb hm.holds (Nat.lt_of_lt_of_le hv (Nat.le_add_right _ _))
    (fun s hs => Nat.lt_of_lt_of_le (hl s hs) (Nat.le_add_right _ _))
    (fun s hs => by cases hs; exact Nat.lt_of_lt_of_le hv' (Nat.le_add_right _ _)))
  rcases hc with ⟨rfl, hng, h4⟩ | ⟨rfl, -, -, v', hv, h4⟩ | ⟨hg, -⟩
  · exact absurd hg hng
  · cases hv
    refine ⟨m', hx, ?_, h4⟩
    have := h4.refs v.addr
    rw [List.count_cons_self, List.count_nil] at this
    exact this
  · exact absurd hg hn

/-- **C91, joining neighbours.**  The step of `normalize` that joins two texts answers `DOM_NO_ERR` or `DOM_NO_MEM_ERR`
without undefined behaviour, whatever is refused, and gives back what it took if all is granted.  Missing: the collected
text is kept if it cannot be appended (`C91_merge_violated`). -/
theorem C91_merge_partial (p : Place) (t n : Text) (right : List Sibling) (b : Option Str) (m : Mem)
    (h : Holds r [t.value.addr] m) (hro : p.readonly = false) (hl : Held r p t []) (hb : nearest right = b)
    (hv : 0 < r n.value.addr) (hr : ∀ s, b = some s → 0 < r s.addr) :
    ∃ e t' m', mergeText p t n right m = .ok (e, t') m' ∧
      (e = none ↔ Granted m.room m.time (4 + joinCost b + firstCost p + secondCost p)) ∧
      (e = none → Holds r [t'.value.addr] m') ∧
      (¬ Granted m.room m.time 2 → e = some .noMem ∧ t' = t ∧ Holds r [t'.value.addr] m') ∧
      (Granted m.room m.time (2 + joinCost b) → e ≠ none → e = some .noMem ∧
        ∃ s, Holds r [s, t'.value.addr] m') := by
  obtain ⟨hbl, hn, hp⟩ := hl.spec
  rw [List.append_nil] at hp
  have hw := whole_spec (left := [.text t.value]) (a := some t.value) (t := n) rfl hb h
    (Nat.lt_of_lt_of_le hv (Nat.le_add_right _ _)) (fun s hs => by cases hs; exact live_mem (by simp))
    (fun s hs => Nat.lt_of_lt_of_le (hr s hs) (Nat.le_add_right _ _))
  suffices hh : after (mergeText p t n right) m (fun q m' =>
      (q.1 = none ↔ Granted m.room m.time (4 + joinCost b + firstCost p + secondCost p)) ∧
      (q.1 = none → Holds r [q.2.value.addr] m') ∧
      (¬ Granted m.room m.time 2 → q.1 = some .noMem ∧ q.2 = t ∧ Holds r [q.2.value.addr] m') ∧
      (Granted m.room m.time (2 + joinCost b) → q.1 ≠ none → q.1 = some .noMem ∧
        ∃ s, Holds r [s, q.2.value.addr] m')) by
    obtain ⟨⟨e, t'⟩, m', hx, hq⟩ := after_elim hh
    exact ⟨e, t', m', hx, hq⟩
  unfold mergeText
  rw [after_bind]
  refine after_mono hw ?_
  rintro o m1 ⟨hr1, hc⟩
  have hj : joinCost (some t.value) = 2 := rfl
  unfold WholeOutcome at hc
  rw [hj] at hc
  rcases hc with ⟨rfl, hg, h4⟩ | ⟨rfl, hg, hng, v, hv, h4⟩ | ⟨hg, ht1, s, rfl, hs, h4⟩
  · exact ⟨⟨fun h => absurd h (by simp), fun hall => absurd (granted_mono hall (by omega)) hg⟩, fun h => absurd h (by simp),
      fun _ => ⟨rfl, rfl, h4⟩, fun hall => absurd (granted_mono hall (by omega)) hg⟩
  · exact ⟨⟨fun h => absurd h (by simp), fun hall => absurd (granted_mono hall (by omega)) hng⟩, fun h => absurd h (by simp),
      fun hn => absurd hg hn, fun hall => absurd hall hng⟩
  · dsimp only
    rw [after_bind]
    refine after_mono (appendData_spec (d := s) hro (l := [s.addr]) (h4.perm (List.Perm.swap _ _ _)) (live_cons hbl)
      fun a ha => live_cons (hp a ha)) ?_
    rintro ⟨e, t'⟩ m2 ⟨hr2, hc⟩
    have cut : ∀ {k : Nat}, Granted m1.room m1.time k ↔ Granted m.room m.time (2 + joinCost b + k) := fun {k} => by
      rw [granted_add, hr1, ht1]; exact ⟨fun hx => ⟨hg, hx⟩, fun hx => hx.2⟩
    unfold Outcome at hc
    rw [cut, cut, cut] at hc
    have e6 : 2 + joinCost b + (2 + firstCost p + secondCost p) = 4 + joinCost b + firstCost p + secondCost p := by omega
    rw [e6] at hc
    have bad : ∀ {t' : Text}, Holds r [t'.value.addr, s.addr] m2 → ¬ Granted m.room m.time (4 + joinCost b + firstCost p + secondCost p) →
        (some Exc.noMem = none ↔ Granted m.room m.time (4 + joinCost b + firstCost p + secondCost p)) ∧
        (some Exc.noMem = none → Holds r [t'.value.addr] m2) ∧
        (¬ Granted m.room m.time 2 → some Exc.noMem = some .noMem ∧ t' = t ∧ Holds r [t'.value.addr] m2) ∧
        (Granted m.room m.time (2 + joinCost b) → some Exc.noMem ≠ none → some Exc.noMem = some .noMem ∧
          ∃ s, Holds r [s, t'.value.addr] m2) := fun h5 hng =>
      ⟨⟨fun h => absurd h (by simp), fun h => absurd h hng⟩, fun h => absurd h (by simp),
        fun hn => absurd (granted_mono hg (by omega)) hn, fun _ _ => ⟨rfl, s.addr, h5.perm (List.Perm.swap _ _ _)⟩⟩
    rcases hc with ⟨hng, hq, h5⟩ | ⟨hg4, hng, hq, ⟨-, h5⟩ | ⟨hf, -⟩⟩ | ⟨v, hv, hq, h5, hg4, ⟨hq1, hg5, -⟩ | ⟨hq1, hng⟩⟩
    · cases hq
      exact bad h5 fun hall => hng (granted_mono hall (by omega))
    · cases hq
      exact bad h5 fun hall => hng (granted_mono hall (by omega))
    · exact hf.elim
    · dsimp only at hq hq1
      subst hq hq1
      dsimp only
      rw [after_bind]
      refine after_mono (unref_spec (h5.perm (List.Perm.swap _ _ _))) ?_
      rintro _ m3 ⟨h6, -, -⟩
      exact ⟨⟨fun _ => hg5, fun _ => rfl⟩, fun _ => h6, fun hn => absurd (granted_mono hg (by omega)) hn,
        fun _ h => absurd rfl h⟩
    · dsimp only at hq hq1
      subst hq hq1
      exact bad h5 hng

/-- **C91, joining forgets.**  If the collected text cannot be appended, one reference remains that nobody holds. -/
theorem C91_merge_violated (p : Place) (t n : Text) (right : List Sibling) (b : Option Str) (m : Mem)
    (h : Holds r [t.value.addr] m) (hro : p.readonly = false) (hl : Held r p t []) (hb : nearest right = b)
    (hv : 0 < r n.value.addr) (hr : ∀ s, b = some s → 0 < r s.addr)
    (hg : Granted m.room m.time (2 + joinCost b))
    (hn : ¬ Granted m.room m.time (4 + joinCost b + firstCost p + secondCost p)) :
    ∃ t' m' lost, mergeText p t n right m = .ok (some .noMem, t') m' ∧ Holds r [lost, t'.value.addr] m' := by
  obtain ⟨e, t', m', hx, h1, -, -, h4⟩ := C91_merge_partial p t n right b m h hro hl hb hv hr
  have hne : e ≠ none := fun he => hn (h1.mp he)
  obtain ⟨rfl, s, hs⟩ := h4 hg hne
  exact ⟨t', m', s, hx, hs⟩

/-! ## The cases exist -/

/-- A text `abc` with a parent; one ancestor listens for each event. -/
def someText : Text := { block := 1, name := 2, value := { addr := 0, data := [97, 98, 99] } }

/-- Its place. -/
def somePlace : Place :=
  { readonly := false, parent := some 3, hearChars := [3], hearTree := [4], typeChars := 5, typeTree := 6,
    empty := { addr := 7, data := [] } }

/-- What everybody else holds. -/
def others : Nat → Nat := fun a => if a = 0 then 0 else if a < 9 then 1 else 0

theorem some_holds (k : Nat) : Holds others [someText.value.addr] (stocked k 9) := by
  refine ⟨fun a => ?_, (stocked_valid k 9)⟩
  show (if a < 9 then 1 else 0) = (if a = 0 then 0 else if a < 9 then 1 else 0) + List.count a [0]
  by_cases ha : a = 0
  · subst ha; rfl
  · rw [if_neg ha, List.count_cons_of_ne (Ne.symm ha), List.count_nil]; rfl

theorem some_held (given : List Nat) (hg : ∀ a ∈ given, 0 < others a) : Held others somePlace someText given := by
  intro a ha
  simp only [List.mem_cons, List.mem_append] at ha
  have : ∀ b ∈ someText.block :: someText.name :: around somePlace, 0 < others b := by decide +kernel
  rcases ha with h | h | h | h
  · exact this a (by simp [h])
  · exact this a (by simp [h])
  · exact this a (by simp [h])
  · exact hg a h

/-- The cases exist, for `insertData(1, "x")` and `splitText(1)` in a document with listeners: all granted, the event
refused, the second event refused. -/
theorem C91_cases :
    (∃ t' m', (Call.insert 1 ⟨8, [120]⟩).run somePlace someText (stocked 6 9) = .ok (none, t') m' ∧
      t'.value.data = [97, 120, 98, 99]) ∧
    (∃ m' lost, (Call.insert 1 ⟨8, [120]⟩).run somePlace someText (stocked 3 9) = .ok (some .noMem, someText) m' ∧
      Holds others [lost, 0] m') ∧
    (∃ t' m', (Call.insert 1 ⟨8, [120]⟩).run somePlace someText (stocked 5 9) = .ok (some .noMem, t') m' ∧
      t'.value.data = [97, 120, 98, 99]) ∧
    (∃ t' m', splitText somePlace someText 1 (stocked 8 9) = .ok (.error .noMem, t') m' ∧ t'.value.data = [97]) ∧
    (∃ m' lost, splitText somePlace someText 1 (stocked 6 9) = .ok (.error .noMem, someText) m' ∧
      Holds others [lost, 0] m') ∧
    (∃ m', wholeText [] someText [.passed, .text ⟨8, [120]⟩] (stocked 1 9) = .ok none m' ∧ m'.refs 8 = 2) ∧
    (∃ t' m' lost, mergeText somePlace someText ⟨3, 2, ⟨8, [120]⟩⟩ [.wall] (stocked 3 9) = .ok (some .noMem, t') m' ∧
      Holds others [lost, t'.value.addr] m') ∧
    eventCost 0 = 1 ∧ eventCost 64 = 2 ∧ eventCost 65 = 3 := by
  have hlive : ∀ a ∈ [8], 0 < others a := by decide
  have ng : ∀ {k n : Nat}, k < n → ¬ Granted (stocked k 9).room (stocked k 9).time n := fun {k n} hkn hg => by
    have h1 := hg k hkn
    rw [(stocked_refused k 9).2] at h1
    exact absurd h1 (by decide)
  have hfit : (Call.insert 1 ⟨8, [120]⟩).Fits somePlace someText.value.data := by
    show _ ∧ _ ∧ _
    decide
  refine ⟨?_, ?_, ?_, ?_, ?_, ?_, ?_, by decide, by decide +kernel, by decide +kernel⟩
  · obtain ⟨e, t', m', hx, -, hi, -, -, hw, -⟩ := C91_edit_partial (.insert 1 ⟨8, [120]⟩) somePlace someText _ (some_holds 6)
      hfit rfl (some_held _ hlive)
    have he : e = none := hi.mpr (stocked_granted (by decide))
    subst he
    exact ⟨t', m', hx, (hw rfl).1⟩
  · exact C91_forgotten_violated (.insert 1 ⟨8, [120]⟩) somePlace someText _ (some_holds 3) hfit rfl (some_held _ hlive)
      trivial (stocked_granted (by decide)) (ng (by decide))
  · exact C91_late_violated (.insert 1 ⟨8, [120]⟩) somePlace someText _ (some_holds 5) hfit rfl (some_held _ hlive)
      (stocked_granted (by decide)) (ng (by decide))
  · obtain ⟨t', m', hx, hd, -⟩ := C91_split_cut_violated somePlace someText 1 _ (some_holds 8) rfl (by decide) (by decide) rfl
      (some_held _ (by simp)) (stocked_granted (by decide)) (ng (by decide))
    exact ⟨t', m', hx, hd⟩
  · exact C91_split_lost_violated somePlace someText 1 _ (some_holds 6) rfl (by decide) (by decide) rfl
      (some_held _ (by simp)) (stocked_granted (by decide)) (ng (by decide))
  · obtain ⟨m', hx, hr, -⟩ := C91_whole_violated [] [.passed, .text ⟨8, [120]⟩] someText none ⟨8, [120]⟩ _ (stocked_valid 1 9)
      rfl rfl (by decide) (by decide) (by simp) (stocked_granted (by decide)) (ng (by decide))
    exact ⟨m', hx, hr⟩
  · exact C91_merge_violated somePlace someText ⟨3, 2, ⟨8, [120]⟩⟩ [.wall] none _ (some_holds 3) rfl (some_held _ (by simp)) rfl
      (by decide) (by simp) (stocked_granted (by decide)) (ng (by decide))

end Dom.Oom.Chars
