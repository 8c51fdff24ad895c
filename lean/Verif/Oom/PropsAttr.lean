import Verif.Oom.Attr
import Verif.Oom.PropsMake

/-!
# C85 and C86: attributes and copies of elements when memory runs out
-/
namespace Dom.Oom

variable {r : Nat → Nat} {l : List Nat} {m : Mem}

/-! ## Runs -/

theorem bind_ok {α β : Type} {x : M α} {f : α → M β} {a : α} {m m1 : Mem} (h : x m = .ok a m1) :
    (x >>= f) m = f a m1 := by
  show bind x f m = _
  unfold bind; rw [h]

theorem bind_fault {α β : Type} {x : M α} {f : α → M β} {e : Fault} {m : Mem} (h : x m = .fault e) :
    (x >>= f) m = .fault e := by
  show bind x f m = _
  unfold bind; rw [h]

theorem malloc_none {m : Mem} (h : m.room m.time = false) :
    malloc m = .ok none { m with time := m.time + 1 } := by
  unfold malloc
  rw [bind_ok (show ask m = .ok (m.room m.time) { m with time := m.time + 1 } from rfl), h]
  rfl

theorem malloc_some {m : Mem} (h : m.room m.time = true) :
    ∃ a m1, malloc m = .ok (some a) m1 ∧ m1.room = m.room ∧ m1.time = m.time + 1 := by
  refine ⟨m.next, { m with time := m.time + 1, next := m.next + 1, refs := fun b => if b = m.next then 1 else m.refs b }, ?_, rfl, rfl⟩
  unfold malloc
  rw [bind_ok (show ask m = .ok (m.room m.time) { m with time := m.time + 1 } from rfl), h]
  rfl

/-! ## What the objects hold -/

/-- What a text node holds. -/
def Txt.held (t : Txt) : List Nat := [t.value, t.name, t.block]

/-- What a text node that may be missing holds. -/
def heldText : Option Txt → List Nat
  | none => []
  | some t => t.held

/-- What an attribute holds. -/
def Attr.held (a : Attr) : List Nat := a.ns.toList ++ (heldText a.text ++ [a.name, a.block])

/-- What a class cache holds. -/
def Classes.held : Classes → List Nat
  | .at b names => names ++ [b]
  | _ => []

/-- What an attribute in the list of its element holds, with the attribute. -/
def ListNode.held (n : ListNode) : List Nat := n.name :: (n.ns.toList ++ (n.attr.held ++ [n.block]))

/-- Giving back exactly these references. -/
def Frees (x : M Unit) (as : List Nat) : Prop :=
  ∀ (r : Nat → Nat) (l : List Nat) (m : Mem), Holds r (as ++ l) m →
    after x m (fun _ m' => Holds r l m' ∧ m'.room = m.room ∧ m'.time = m.time)

theorem Frees.none : Frees (pure ()) [] := fun _ _ _ h => ⟨h, rfl, rfl⟩

theorem Frees.one (a : Nat) : Frees (unref a) [a] := fun _ _ _ h => unref_spec h

theorem Frees.seq {x y : M Unit} {as bs : List Nat} (hx : Frees x as) (hy : Frees y bs) :
    Frees (x >>= fun _ => y) (as ++ bs) := by
  intro r l m h
  rw [after_bind]
  refine after_mono (hx r (bs ++ l) m (by rw [← List.append_assoc]; exact h)) ?_
  rintro _ m1 ⟨h1, hr1, ht1⟩
  refine after_mono (hy r l m1 h1) ?_
  rintro _ m2 ⟨h2, hr2, ht2⟩
  exact ⟨h2, hr2.trans hr1, ht2.trans ht1⟩

theorem Frees.perm {x : M Unit} {as bs : List Nat} (hx : Frees x as) (hp : bs.Perm as) : Frees x bs :=
  fun r l m h => hx r l m (h.perm (hp.append_right l))

theorem frees_all (as : List Nat) : Frees (unrefAll as) as := fun _ _ _ h => unrefAll_spec as h

theorem frees_opt : ∀ o : Option Nat, Frees (unrefOpt o) o.toList
  | none => Frees.none
  | some a => Frees.one a

theorem frees_text (t : Txt) : Frees (releaseText t) t.held :=
  (Frees.one _).seq ((Frees.one _).seq (Frees.one _))

theorem frees_textOpt : ∀ o : Option Txt, Frees (releaseTextOpt o) (heldText o)
  | none => Frees.none
  | some t => frees_text t

theorem frees_attr (a : Attr) : Frees (releaseAttr a) a.held :=
  (frees_opt _).seq ((frees_textOpt _).seq ((Frees.one _).seq (Frees.one _)))

theorem frees_try {a : Attr} (h : a.refcnt = 0) : Frees (tryDestroy a) a.held := by
  unfold tryDestroy; rw [if_pos h]; exact frees_attr a

theorem frees_tryHeld {a : Attr} (h : a.refcnt ≠ 0) : Frees (tryDestroy a) [] := by
  unfold tryDestroy; rw [if_neg h]; exact Frees.none

theorem frees_drop {a : Attr} (h : a.refcnt = 1) : Frees (dropAttr a) a.held :=
  frees_try (a := { a with refcnt := a.refcnt - 1 }) (by show a.refcnt - 1 = 0; omega)

theorem frees_classes : ∀ {c : Classes}, c ≠ .junk → Frees (destroyClasses c) c.held
  | .junk, h => absurd rfl h
  | .null, _ => Frees.none
  | .at _ names, _ => (frees_all names).seq (Frees.one _)

/-- An attribute that nobody else holds, below an element with the cache `c`. -/
theorem frees_node {n : ListNode} (h0 : n.attr.refcnt = 0) {c : Classes} (hc : c ≠ .junk ∨ n.cls = false) :
    Frees (nodeDestroy n (some c)) ((if n.cls then c.held else []) ++ n.held) := by
  unfold nodeDestroy
  refine Frees.seq (x := if n.cls = true then destroyClasses c else pure ()) ?_ ?_
  · cases hn : n.cls with
    | false => exact Frees.none
    | true =>
      rcases hc with hc | hc
      · exact frees_classes hc
      · rw [hn] at hc; exact absurd hc (by decide)
  · exact (Frees.one _).seq ((frees_opt _).seq ((frees_try h0).seq (Frees.one _)))

/-- An attribute to which somebody else holds a reference. -/
theorem frees_nodeHeld {n : ListNode} (h0 : n.attr.refcnt ≠ 0) {c : Classes} (hc : c ≠ .junk ∨ n.cls = false) :
    Frees (nodeDestroy n (some c)) ((if n.cls then c.held else []) ++ (n.name :: (n.ns.toList ++ [n.block]))) := by
  unfold nodeDestroy
  refine Frees.seq (x := if n.cls = true then destroyClasses c else pure ()) ?_ ?_
  · cases hn : n.cls with
    | false => exact Frees.none
    | true =>
      rcases hc with hc | hc
      · exact frees_classes hc
      · rw [hn] at hc; exact absurd hc (by decide)
  · exact (Frees.one _).seq ((frees_opt _).seq ((frees_tryHeld h0).seq (Frees.one _)))

/-! ## References taken -/

theorem Holds.live {a : Nat} (h : Holds r l m) (ha : 0 < r a + l.count a) : m.refs a ≠ 0 := by
  rw [h.refs a]; omega

theorem ref_live {a : Nat} (h : Holds r l m) (ha : 0 < r a + l.count a) :
    after (ref a) m (fun _ m' => Holds r (a :: l) m' ∧ m'.room = m.room ∧ m'.time = m.time) :=
  ref_spec h (h.live ha)

theorem refOpt_spec : ∀ {o : Option Nat} {r : Nat → Nat} {l : List Nat} {m : Mem}, Holds r l m →
    (∀ a, o = some a → 0 < r a + l.count a) →
    after (refOpt o) m (fun _ m' => Holds r (o.toList ++ l) m' ∧ m'.room = m.room ∧ m'.time = m.time)
  | none, _, _, _, h, _ => ⟨h, rfl, rfl⟩
  | some a, _, _, _, h, ha => ref_live h (ha a rfl)

theorem refAll_spec : ∀ (as : List Nat) {r : Nat → Nat} {l : List Nat} {m : Mem}, Holds r l m →
    (∀ a ∈ as, 0 < r a) →
    after (refAll as) m (fun _ m' => Holds r (as ++ l) m' ∧ m'.room = m.room ∧ m'.time = m.time)
  | [], _, _, _, h, _ => ⟨h, rfl, rfl⟩
  | a :: as, r, l, m, h, ha => by
    unfold refAll
    rw [after_bind]
    refine after_mono (ref_live h (by have := ha a (List.mem_cons_self ..); omega)) ?_
    rintro _ m1 ⟨h1, hr1, ht1⟩
    refine after_mono (refAll_spec as h1 fun b hb => ha b (List.mem_cons_of_mem _ hb)) ?_
    rintro _ m2 ⟨h2, hr2, ht2⟩
    exact ⟨h2.perm List.perm_middle, hr2.trans hr1, ht2.trans ht1⟩

theorem live_mono {a : Nat} {k : List Nat} (h : 0 < r a + l.count a) : 0 < r a + (k ++ l).count a := by
  rw [List.count_append]; omega

theorem live_cons {a b : Nat} (h : 0 < r a + l.count a) : 0 < r a + (b :: l).count a :=
  live_mono (k := [b]) h

theorem live_mem {a : Nat} (h : a ∈ l) : 0 < r a + l.count a := by
  have := List.count_pos_iff.mpr h; omega

/-! ## The class cache -/

theorem internClasses_spec (left : Cell) (b : Nat) : ∀ (n : Nat) (names : List Nat) {r : Nat → Nat} {l : List Nat}
    {m : Mem}, Holds r (names ++ l) m → Granted m.room m.time n →
    after (internClasses left b n names) m (fun o m' => m'.room = m.room ∧ m'.time = m.time + n ∧
      ∃ ns, o = some ns ∧ ns.length = names.length + n ∧ Holds r (ns ++ l) m')
  | 0, names, _, _, _, h, _ => ⟨rfl, rfl, names, rfl, rfl, h⟩
  | n + 1, names, r, l, m, h, hg => by
    rw [Nat.add_comm] at hg
    obtain ⟨hg1, hg2⟩ := granted_add.mp hg
    unfold internClasses
    rw [after_bind]
    refine after_mono (malloc_spec h) ?_
    rintro o m1 ⟨hr1, ht1, ⟨rfl, _, hn⟩ | ⟨a, rfl, h1, _⟩⟩
    · exact (hn hg1).elim
    · dsimp only
      have h1' : Holds r ((names ++ [a]) ++ l) m1 := by
        refine h1.perm ?_
        rw [List.append_assoc]
        exact List.perm_middle.symm
      refine after_mono (internClasses_spec left b n (names ++ [a]) h1' (by rw [hr1, ht1]; exact hg2)) ?_
      rintro o m2 ⟨hr2, ht2, ns, rfl, hl, h2⟩
      refine ⟨hr2.trans hr1, by omega, ns, rfl, ?_, h2⟩
      rw [List.length_append] at hl
      simp only [List.length_cons, List.length_nil] at hl; omega

/-- A class name that cannot be interned: the slot that it should have gone to is given back as well. -/
theorem internClasses_fault {left : Cell} {f : Fault} (hl : ∀ m, unrefSlot left m = .fault f) (b : Nat) :
    ∀ (n : Nat) (names : List Nat) (i : Nat) {m : Mem}, RefusedAt m i → i < n →
    internClasses left b n names m = .fault f
  | 0, _, _, _, _, hi => absurd hi (by omega)
  | n + 1, names, i, m, hg, hi => by
    unfold internClasses
    cases i with
    | zero =>
      rw [bind_ok (malloc_none hg.2)]
      exact bind_fault (hl _)
    | succ i =>
      obtain ⟨a, m1, hm, hr1, ht1⟩ := malloc_some (hg.1 0 (by omega))
      rw [bind_ok hm]
      refine internClasses_fault hl b n _ i ⟨?_, ?_⟩ (by omega)
      · rw [hr1, ht1]
        exact (granted_add (a := 1)).mp (by rw [Nat.add_comm]; exact hg.1) |>.2
      · rw [hr1, ht1, Nat.add_assoc, Nat.add_comm 1 i]; exact hg.2

/-- Requests for a class cache with `n` names. -/
def classCost (n : Nat) : Nat := if n = 0 then 0 else 1 + n

/-- The class cache is made, or its array is refused. -/
theorem createClasses_spec (left : Cell) (n : Nat) {old : Classes} (ho : old ≠ .junk)
    (h : Holds r (old.held ++ l) m)
    (hg : Granted m.room m.time (classCost n) ∨ ¬ Granted m.room m.time 1) :
    after (createClasses left n old) m (fun o m' => m'.room = m.room ∧
      ((o = none ∧ n ≠ 0 ∧ Holds r l m' ∧ ¬ Granted m.room m.time 1) ∨
       (∃ c, o = some c ∧ c ≠ .junk ∧ Holds r (c.held ++ l) m' ∧ Granted m.room m.time (classCost n) ∧
         m'.time = m.time + classCost n ∧ (c = .null ∨ ∃ b names, c = .at b names ∧ names.length = n)))) := by
  unfold createClasses
  rw [after_bind]
  refine after_mono (frees_classes ho r l m h) ?_
  rintro _ m1 ⟨h1, hr1, ht1⟩
  rw [after_ite]
  split
  · rename_i h0
    subst h0
    exact ⟨hr1, Or.inr ⟨.null, rfl, (fun h => nomatch h), h1, granted_zero _ _, ht1, Or.inl rfl⟩⟩
  · rename_i h0
    unfold classCost at hg ⊢
    rw [if_neg h0] at hg ⊢
    rw [after_bind]
    refine after_mono (malloc_spec h1) ?_
    rw [hr1, ht1]
    rintro o m2 ⟨hr2, ht2, ⟨rfl, h2, hn⟩ | ⟨b, rfl, h2, hg1⟩⟩
    · exact ⟨hr2, Or.inl ⟨rfl, h0, h2, hn⟩⟩
    · rcases hg with hg | hg
      · dsimp only
        rw [after_bind]
        refine after_mono (internClasses_spec left b n [] (l := b :: l) h2 (by
          rw [hr2, ht2]; exact (granted_add.mp hg).2)) ?_
        rintro o m3 ⟨hr3, ht3, ns, rfl, hl, h3⟩
        refine ⟨hr3.trans hr2, Or.inr ⟨.at b ns, rfl, fun h => (nomatch h), ?_, hg, by omega, Or.inr ⟨b, ns, rfl, by simpa using hl⟩⟩⟩
        show Holds r ((ns ++ [b]) ++ l) m3
        rw [List.append_assoc]; exact h3
      · exact (hg hg1).elim

/-! ## New attributes -/

theorem createText_spec {value : Nat} (h : Holds r l m) (hv : 0 < r value + l.count value) :
    after (createText value) m (fun o m' => m'.room = m.room ∧
      ((o = .error .noMem ∧ Holds r l m' ∧ ¬ Granted m.room m.time 3) ∨
       (∃ t, o = .ok t ∧ t.value = value ∧ Holds r (t.held ++ l) m' ∧ Granted m.room m.time 3 ∧
         m'.time = m.time + 3))) := by
  unfold createText
  rw [after_bind]
  refine after_mono (createString_spec h) ?_
  rintro o m1 ⟨hr1, ⟨rfl, h1, hg⟩ | ⟨name, rfl, h1, hg, ht1⟩⟩
  · exact ⟨hr1, Or.inl ⟨rfl, h1, fun h3 => hg (granted_mono h3 (by omega))⟩⟩
  · dsimp only
    rw [after_bind]
    refine after_mono (malloc_spec h1) ?_
    rw [hr1, ht1]
    rintro o m2 ⟨hr2, ht2, ⟨rfl, h2, hn⟩ | ⟨b, rfl, h2, hg1⟩⟩
    · dsimp only
      rw [after_bind]
      refine after_mono (unref_spec h2) ?_
      rintro _ m3 ⟨h3, hr3, ht3⟩
      refine ⟨hr3.trans hr2, Or.inl ⟨rfl, h3, fun h3 => hn ?_⟩⟩
      exact ((granted_add (a := 2) (b := 1)).mp h3).2
    · dsimp only
      rw [after_bind]
      refine after_mono (ref_live h2 (live_mem (by simp))) ?_
      rintro _ m3 ⟨h3, hr3, ht3⟩
      rw [after_bind]
      refine after_mono (ref_live h3 (live_cons (live_cons (live_cons hv)))) ?_
      rintro _ m4 ⟨h4, hr4, ht4⟩
      rw [after_bind]
      refine after_mono (unref_spec (h4.perm (List.Perm.swap ..))) ?_
      rintro _ m5 ⟨h5, hr5, ht5⟩
      refine ⟨by rw [hr5, hr4, hr3, hr2], Or.inr ⟨{ block := b, name := name, value := value }, rfl, rfl, ?_,
        (granted_add (a := 2) (b := 1)).mpr ⟨hg, hg1⟩, by omega⟩⟩
      exact h5.perm ((List.Perm.swap ..).cons _)

theorem createAttr_spec {name : Nat} {ns : Option Nat} (h : Holds r l m) (hn : 0 < r name + l.count name)
    (hns : ∀ a, ns = some a → 0 < r a + l.count a) :
    after (createAttr name ns) m (fun o m' => m'.room = m.room ∧ m'.time = m.time + 1 ∧
      ((o = .error .noMem ∧ Holds r l m' ∧ ¬ Granted m.room m.time 1) ∨
       (∃ b, o = .ok { block := b, refcnt := 1, name := name, ns := ns, text := none } ∧
         Holds r ((ns.toList ++ [name, b]) ++ l) m' ∧ Granted m.room m.time 1))) := by
  unfold createAttr
  rw [after_bind]
  refine after_mono (malloc_spec h) ?_
  rintro o m1 ⟨hr1, ht1, ⟨rfl, h1, hg⟩ | ⟨b, rfl, h1, hg⟩⟩
  · exact ⟨hr1, ht1, Or.inl ⟨rfl, h1, hg⟩⟩
  · dsimp only
    rw [after_bind]
    refine after_mono (ref_live h1 (live_cons hn)) ?_
    rintro _ m2 ⟨h2, hr2, ht2⟩
    rw [after_bind]
    refine after_mono (refOpt_spec h2 fun a ha => live_cons (live_cons (hns a ha))) ?_
    rintro _ m3 ⟨h3, hr3, ht3⟩
    refine ⟨by rw [hr3, hr2, hr1], by omega, Or.inr ⟨b, rfl, ?_, hg⟩⟩
    rw [List.append_assoc]; exact h3

theorem setValue_spec {a : Attr} {value : Nat} (h : Holds r l m) (hn : a.name ∈ l)
    (hv : 0 < r value + l.count value) :
    after (setValue a value) m (fun o m' => m'.room = m.room ∧
      ((o = .error .noMem ∧ Holds r l m' ∧ ¬ Granted m.room m.time 3) ∨
       (∃ t, o = .ok { a with text := some t } ∧ t.value = value ∧ Holds r (t.held ++ l) m' ∧
         Granted m.room m.time 3 ∧ m'.time = m.time + 3))) := by
  unfold setValue
  rw [after_bind]
  refine after_mono (ref_live h (live_mem hn)) ?_
  rintro _ m1 ⟨h1, hr1, ht1⟩
  rw [after_bind]
  refine after_mono (ref_live h1 (live_cons hv)) ?_
  rintro _ m2 ⟨h2, hr2, ht2⟩
  rw [after_bind]
  refine after_mono (unref_spec (h2.perm (List.Perm.swap ..))) ?_
  rintro _ m3 ⟨h3, hr3, ht3⟩
  rw [after_bind]
  refine after_mono (createText_spec h3 (live_mem (by simp))) ?_
  have e1 : m3.room = m.room := by rw [hr3, hr2, hr1]
  have e2 : m3.time = m.time := by omega
  rw [e1, e2]
  rintro o m4 ⟨hr4, ⟨rfl, h4, hg⟩ | ⟨t, rfl, htv, h4, hg, ht4⟩⟩
  · rw [after_bind]
    refine after_mono (unref_spec h4) ?_
    rintro _ m5 ⟨h5, hr5, ht5⟩
    exact ⟨hr5.trans hr4, Or.inl ⟨rfl, h5, hg⟩⟩
  · rw [after_bind]
    refine after_mono (unref_spec (h4.perm List.perm_middle)) ?_
    rintro _ m5 ⟨h5, hr5, ht5⟩
    exact ⟨hr5.trans hr4, Or.inr ⟨t, rfl, htv, h5, hg, by omega⟩⟩

/-- The list node of an attribute that is not `class`. -/
theorem nodeCreate_plain (left : Cell) (a : Attr) (value n : Nat) (ns : Option Nat) (parent : Bool) (old : Classes)
    (h : Holds r l m) :
    after (nodeCreate left a value false n ns parent old) m (fun o m' => m'.room = m.room ∧
      m'.time = m.time + 1 ∧
      ((o = (none, old) ∧ Holds r l m' ∧ ¬ Granted m.room m.time 1) ∨
       (∃ b, o = (some { block := b, attr := a, name := a.name, ns := ns, cls := false }, old) ∧
         Holds r (b :: l) m' ∧ Granted m.room m.time 1))) := by
  unfold nodeCreate
  rw [after_bind]
  refine after_mono (malloc_spec h) ?_
  rintro o m1 ⟨hr1, ht1, ⟨rfl, h1, hg⟩ | ⟨b, rfl, h1, hg⟩⟩
  · exact ⟨hr1, ht1, Or.inl ⟨rfl, h1, hg⟩⟩
  · exact ⟨hr1, ht1, Or.inr ⟨b, rfl, h1, hg⟩⟩

/-- The list node of the attribute `class`, if all requests are granted. -/
theorem nodeCreate_class (left : Cell) (a : Attr) (value n : Nat) (parent : Bool)
    (h : Holds r l m) (hv : 0 < r value + l.count value) (hg : Granted m.room m.time (1 + classCost n)) :
    after (nodeCreate left a value true n none parent .null) m (fun o m' => m'.room = m.room ∧
      ∃ b c, o = (some { block := b, attr := a, name := a.name, ns := none, cls := true }, c) ∧
         Holds r (c.held ++ b :: l) m' ∧ c ≠ .junk ∧
         (c = .null ∨ ∃ b names, c = .at b names ∧ names.length = n)) := by
  obtain ⟨hg1, hg2⟩ := granted_add.mp hg
  unfold nodeCreate
  rw [after_bind]
  refine after_mono (malloc_spec h) ?_
  rintro o m1 ⟨hr1, ht1, ⟨rfl, h1, hn⟩ | ⟨b, rfl, h1, _⟩⟩
  · exact (hn hg1).elim
  dsimp only
  rw [after_ite, if_pos rfl, after_bind]
  refine after_mono (ref_live h1 (live_cons hv)) ?_
  rintro _ m2 ⟨h2, hr2, ht2⟩
  rw [after_bind]
  have e1 : m2.room = m.room := by rw [hr2, hr1]
  have e2 : m2.time = m.time + 1 := by omega
  refine after_mono (createClasses_spec left n (old := .null) (fun h => nomatch h) h2
    (Or.inl (by rw [e1, e2]; exact hg2))) ?_
  rw [e1, e2]
  rintro o m3 ⟨hr3, ⟨rfl, hn0, _, hn⟩ | ⟨c, rfl, hc, h3, _, ht3, hcc⟩⟩
  · refine (hn (granted_mono hg2 ?_)).elim
    unfold classCost; rw [if_neg hn0]; omega
  · dsimp only
    rw [after_bind]
    refine after_mono (unref_spec (h3.perm List.perm_middle)) ?_
    rintro _ m4 ⟨h4, hr4, ht4⟩
    exact ⟨hr4.trans hr3, b, c, rfl, h4, hc, hcc⟩

/-- The list node of the attribute `class`, if the array for the class names is refused: its destruction gives
back a reference to the name that was never taken. -/
theorem nodeCreate_refused (left : Cell) {a : Attr} (value n : Nat) (hn0 : n ≠ 0) (ha : a.refcnt ≠ 0)
    (h : Holds r (a.name :: l) m) (hv : 0 < r value + (a.name :: l).count value) (hg : RefusedAt m 1) :
    after (nodeCreate left a value true n none true .null) m (fun o m' => m'.room = m.room ∧
      o = (none, .null) ∧ Holds r l m') := by
  unfold nodeCreate
  rw [after_bind]
  refine after_mono (malloc_spec h) ?_
  rintro o m1 ⟨hr1, ht1, ⟨rfl, h1, hn⟩ | ⟨b, rfl, h1, _⟩⟩
  · exact (hn hg.1).elim
  dsimp only
  rw [after_ite, if_pos rfl, after_bind]
  refine after_mono (ref_live h1 (live_cons hv)) ?_
  rintro _ m2 ⟨h2, hr2, ht2⟩
  rw [after_bind]
  have e1 : m2.room = m.room := by rw [hr2, hr1]
  have e2 : m2.time = m.time + 1 := by omega
  have hno : ¬ Granted m2.room m2.time 1 := by
    rw [e1, e2]
    intro hh
    have := granted_one.mp hh
    rw [hg.2] at this; exact absurd this (by decide)
  refine after_mono (createClasses_spec left n (old := .null) (fun h => nomatch h) h2 (Or.inr hno)) ?_
  rintro o m3 ⟨hr3, ⟨rfl, _, h3, _⟩ | ⟨c, rfl, hc, _, hgc, _, _⟩⟩
  · dsimp only
    rw [after_bind, if_pos rfl]
    refine after_mono (frees_nodeHeld (n := { block := b, attr := a, name := a.name, ns := none, cls := true })
      (c := .null) ha (Or.inl (fun h => nomatch h)) r (value :: l) m3 (h3.perm ?_)) ?_
    · show (value :: b :: a.name :: l).Perm (a.name :: b :: value :: l)
      exact ((List.Perm.swap ..).trans (((List.Perm.swap ..).cons _).trans (List.Perm.swap ..)))
    · rintro _ m4 ⟨h4, hr4, ht4⟩
      rw [after_bind]
      refine after_mono (unref_spec h4) ?_
      rintro _ m5 ⟨h5, hr5, ht5⟩
      exact ⟨by rw [hr5, hr4, hr3, e1], rfl, h5⟩
  · refine (hno (granted_mono hgc ?_)).elim
    unfold classCost; rw [if_neg hn0]; omega

/-- The attribute itself is made with four requests; a refusal among them leaves nothing behind. -/
theorem setAttr_few (left : Cell) {name : Nat} {ns : Option Nat} {value : Nat} (cls : Bool) (n : Nat)
    (classes : Classes) (h : Holds r l m) (hn : 0 < r name + l.count name)
    (hns : ∀ a, ns = some a → 0 < r a + l.count a) (hv : 0 < r value + l.count value)
    (hg : ¬ Granted m.room m.time 4) :
    after (setAttr left name ns value cls n classes) m (fun o m' => o = (.error .noMem, classes) ∧ Holds r l m') := by
  unfold setAttr
  rw [after_bind]
  refine after_mono (createAttr_spec h hn hns) ?_
  rintro o m1 ⟨hr1, ht1, ⟨rfl, h1, _⟩ | ⟨b, rfl, h1, hg1⟩⟩
  · exact ⟨rfl, h1⟩
  dsimp only
  rw [after_bind]
  refine after_mono (setValue_spec h1 (by simp) (live_mono hv)) ?_
  rw [hr1, ht1]
  rintro o m2 ⟨hr2, ⟨rfl, h2, _⟩ | ⟨t, rfl, htv, h2, hg2, ht2⟩⟩
  · dsimp only
    rw [after_bind]
    refine after_mono (frees_drop (a := { block := b, refcnt := 1, name := name, ns := ns, text := none }) rfl r l m2 h2) ?_
    rintro _ m3 ⟨h3, _, _⟩
    exact ⟨rfl, h3⟩
  · exact (hg ((granted_add (a := 1) (b := 3)).mpr ⟨hg1, hg2⟩)).elim

/-- What follows once the attribute is made. -/
def setAttrRest (left : Cell) (name : Nat) (ns : Option Nat) (value : Nat) (cls : Bool) (n : Nat) (classes : Classes)
    (a : Attr) : M (Except Exc ListNode × Classes) := do
  let r ← nodeCreate left a value cls n ns true classes
  match r.1 with
  | none =>
    dropAttr a
    pure (.error .noMem, r.2)
  | some node =>
    ref name
    refOpt ns
    pure (.ok { node with attr := { a with refcnt := 0 } }, r.2)

theorem setAttr_enough (left : Cell) {name : Nat} {ns : Option Nat} {value : Nat} (cls : Bool) (n : Nat)
    (classes : Classes) (h : Holds r l m) (hn : 0 < r name + l.count name)
    (hns : ∀ a, ns = some a → 0 < r a + l.count a) (hv : 0 < r value + l.count value)
    (hg : Granted m.room m.time 4) :
    ∃ a m', a.refcnt = 1 ∧ a.name = name ∧ a.ns = ns ∧ (∃ t, a.text = some t ∧ t.value = value) ∧
      Holds r (a.held ++ l) m' ∧
      m'.room = m.room ∧ m'.time = m.time + 4 ∧
      setAttr left name ns value cls n classes m = setAttrRest left name ns value cls n classes a m' := by
  obtain ⟨hg1, hg2⟩ := (granted_add (a := 1) (b := 3)).mp hg
  obtain ⟨o, m1, e1, hr1, ht1, ⟨rfl, _, hn1⟩ | ⟨b, rfl, h1, _⟩⟩ := after_elim (createAttr_spec h hn hns)
  · exact (hn1 hg1).elim
  obtain ⟨o, m2, e2, hr2, hh⟩ := after_elim (setValue_spec
    (a := { block := b, refcnt := 1, name := name, ns := ns, text := none }) h1 (by simp) (live_mono hv))
  rw [hr1, ht1] at hh
  rcases hh with ⟨rfl, _, hn2⟩ | ⟨t, rfl, htv, h2, _, ht2⟩
  · exact (hn2 hg2).elim
  refine ⟨{ block := b, refcnt := 1, name := name, ns := ns, text := some t }, m2, rfl, rfl, rfl, ⟨t, rfl, htv⟩, ?_, hr2.trans hr1, by omega, ?_⟩
  · refine h2.perm ?_
    show (t.held ++ ((ns.toList ++ [name, b]) ++ l)).Perm ((ns.toList ++ (t.held ++ [name, b])) ++ l)
    rw [List.append_assoc, List.append_assoc, List.append_assoc]
    exact List.perm_append_comm_assoc ..
  · unfold setAttr
    rw [bind_ok e1]
    dsimp only
    rw [bind_ok e2]
    rfl

theorem held_name (a : Attr) : a.name ∈ a.held := by unfold Attr.held; simp
theorem held_ns {a : Attr} {x : Nat} (h : a.ns = some x) : x ∈ a.held := by
  unfold Attr.held; rw [h]; simp

theorem held_value {a : Attr} {t : Txt} (h : a.text = some t) : t.value ∈ a.held := by
  unfold Attr.held heldText Txt.held; rw [h]; simp

/-- What a new attribute of an element holds. -/
theorem node_perm (a : Attr) (b : Nat) (k l : List Nat) :
    (a.ns.toList ++ (a.name :: (k ++ b :: (a.held ++ l)))).Perm
      (k ++ ({ block := b, attr := { a with refcnt := 0 }, name := a.name, ns := a.ns, cls := true } : ListNode).held ++ l) := by
  rw [List.perm_iff_count]
  intro x
  simp only [ListNode.held, Attr.held, List.count_append, List.count_cons, List.count_nil]
  omega

/-! ## C85 -/

/-- **C85**: setting an attribute other than `class` that an element does not have yet takes five requests.  If
one is refused the answer is `DOM_NO_MEM_ERR` and nothing stays behind; otherwise the attribute is there, and
taking it away again gives everything back.  Missing: the attribute `class` (`C85_class_partial`,
`C85_class_violated`), events. -/
theorem C85_set_attribute_partial (left : Cell) (m : Mem) (hm : m.Valid) (name value : Nat) (ns : Option Nat) (n : Nat)
    (classes : Classes) (hn : m.refs name ≠ 0) (hns : ∀ a, ns = some a → m.refs a ≠ 0) (hv : m.refs value ≠ 0) :
    ∃ o m', setAttr left name ns value false n classes m = .ok (o, classes) m' ∧
      ((∃ node, o = .ok node ∧ node.name = name ∧ node.ns = ns ∧ (∃ t, node.attr.text = some t ∧ t.value = value) ∧
          Granted m.room m.time 5 ∧
          ∃ m'', nodeDestroy node (some classes) m' = .ok () m'' ∧ m''.refs = m.refs) ∨
       (o = .error .noMem ∧ ¬ Granted m.room m.time 5 ∧ m'.refs = m.refs)) := by
  have hn' : 0 < m.refs name + ([] : List Nat).count name := by simp; omega
  have hns' : ∀ a, ns = some a → 0 < m.refs a + ([] : List Nat).count a := fun a ha => by
    have := hns a ha; simp; omega
  have hv' : 0 < m.refs value + ([] : List Nat).count value := by simp; omega
  by_cases h4 : Granted m.room m.time 4
  · obtain ⟨a, m1, ha1, han, hans, hat, h1, hr1, ht1, e1⟩ := setAttr_enough left false n classes hm.holds hn' hns' hv' h4
    rw [e1]
    obtain ⟨o, m2, e2, hr2, ht2, hh⟩ := after_elim (nodeCreate_plain left a value n ns true classes h1)
    rw [hr1, ht1] at hh
    rcases hh with ⟨rfl, h2, hg⟩ | ⟨b, rfl, h2, hg⟩
    · obtain ⟨_, m3, e3, h3, _, _⟩ := after_elim (frees_drop ha1 m.refs [] m2 h2)
      refine ⟨_, m3, ?_, Or.inr ⟨rfl, fun h5 => hg ((granted_add (a := 4) (b := 1)).mp h5).2, h3.refs_eq⟩⟩
      unfold setAttrRest
      rw [bind_ok e2]
      dsimp only
      rw [bind_ok e3]; rfl
    · obtain ⟨_, m3, e3, h3, _, _⟩ := after_elim (ref_live (a := name) h2 (live_cons (live_mono hn')))
      obtain ⟨_, m4, e4, h4', _, _⟩ := after_elim (refOpt_spec (o := ns) h3 (fun x hx => live_cons (live_cons (live_mono (hns' x hx)))))
      subst han hans
      have hp := h4'.perm (node_perm a b [] [])
      obtain ⟨_, m5, e5, h5, _, _⟩ := after_elim (frees_node
        (n := { block := b, attr := { a with refcnt := 0 }, name := a.name, ns := a.ns, cls := false })
        rfl (c := classes) (Or.inr rfl) m.refs [] m4 hp)
      refine ⟨_, m4, ?_, Or.inl ⟨_, rfl, rfl, rfl, hat, (granted_add (a := 4) (b := 1)).mpr ⟨h4, hg⟩, m5, e5, h5.refs_eq⟩⟩
      unfold setAttrRest
      rw [bind_ok e2]
      dsimp only
      rw [bind_ok e3, bind_ok e4]; rfl
  · obtain ⟨o, m1, e1, rfl, h1⟩ := after_elim (setAttr_few left false n classes hm.holds hn' hns' hv' h4)
    exact ⟨_, m1, e1, Or.inr ⟨rfl, fun h5 => h4 (granted_mono h5 (by omega)), h1.refs_eq⟩⟩

/-- **C85**: setting the attribute `class` on an element that has none, to a value with `n` class names: five
requests, and `1 + n` for the names if there are any.  If all are granted the class cache has `n` names, and taking the
attribute away gives everything back; if one of the first five is refused the answer is `DOM_NO_MEM_ERR` and nothing stays
behind.  Missing: the other requests (`C85_class_violated`, `C85_class_name_violated`). -/
theorem C85_class_partial (left : Cell) (m : Mem) (hm : m.Valid) (name value : Nat) (n : Nat)
    (hn : m.refs name ≠ 0) (hv : m.refs value ≠ 0) :
    (Granted m.room m.time (5 + classCost n) → ∃ node c m' m'',
      setAttr left name none value true n .null m = .ok (.ok node, c) m' ∧ node.name = name ∧
      (∃ t, node.attr.text = some t ∧ t.value = value) ∧
      (c = .null ∨ ∃ b names, c = .at b names ∧ names.length = n) ∧
      nodeDestroy node (some c) m' = .ok () m'' ∧ m''.refs = m.refs) ∧
    (¬ Granted m.room m.time 5 → ∃ m',
      setAttr left name none value true n .null m = .ok (.error .noMem, .null) m' ∧ m'.refs = m.refs) := by
  have hn' : 0 < m.refs name + ([] : List Nat).count name := by simp; omega
  have hns' : ∀ a, (none : Option Nat) = some a → 0 < m.refs a + ([] : List Nat).count a := fun a ha => nomatch ha
  have hv' : 0 < m.refs value + ([] : List Nat).count value := by simp; omega
  refine ⟨fun hg => ?_, fun hg => ?_⟩
  · obtain ⟨a, m1, ha1, han, hans, hat, h1, hr1, ht1, e1⟩ := setAttr_enough left true n .null hm.holds hn' hns' hv' (granted_mono hg (by omega))
    rw [e1]
    obtain ⟨o, m2, e2, hr2, b, c, rfl, h2, hc, hcc⟩ := after_elim (nodeCreate_class left a value n true h1 (live_mono hv') (by
      rw [hr1, ht1]
      rw [show 5 + classCost n = 4 + (1 + classCost n) by omega] at hg
      exact (granted_add.mp hg).2))
    obtain ⟨_, m3, e3, h3, _, _⟩ := after_elim (ref_live (a := name) h2 (live_mono (live_cons (live_mono hn'))))
    subst han
    have hp : Holds m.refs (c.held ++ ({ block := b, attr := { a with refcnt := 0 }, name := a.name, ns := none, cls := true } : ListNode).held ++ []) m3 := by
      refine h3.perm ?_
      rw [List.perm_iff_count]
      intro x
      simp only [ListNode.held, Attr.held, hans, Option.toList, List.count_append, List.count_cons, List.count_nil]
      omega
    obtain ⟨_, m5, e5, h5, _, _⟩ := after_elim (frees_node
      (n := { block := b, attr := { a with refcnt := 0 }, name := a.name, ns := none, cls := true })
      rfl (c := c) (Or.inl hc) m.refs [] m3 hp)
    refine ⟨_, c, m3, m5, ?_, rfl, hat, hcc, e5, h5.refs_eq⟩
    unfold setAttrRest
    rw [bind_ok e2]
    dsimp only
    rw [bind_ok e3]; rfl
  · by_cases h4 : Granted m.room m.time 4
    · obtain ⟨a, m1, ha1, han, hans, hat, h1, hr1, ht1, e1⟩ := setAttr_enough left true n .null hm.holds hn' hns' hv' h4
      rw [e1]
      have hno : m1.room m1.time = false := by
        rw [hr1, ht1]
        cases hb : m.room (m.time + 4) with
        | false => rfl
        | true => exact (hg ((granted_add (a := 4) (b := 1)).mpr ⟨h4, granted_one.mpr hb⟩)).elim
      have e2 : nodeCreate left a value true n none true .null m1 = .ok (none, .null) { m1 with time := m1.time + 1 } := by
        unfold nodeCreate
        rw [bind_ok (malloc_none hno)]
        rfl
      obtain ⟨_, m3, e3, h3, _, _⟩ := after_elim (frees_drop ha1 m.refs [] { m1 with time := m1.time + 1 } ⟨h1.refs, h1.fresh⟩)
      refine ⟨m3, ?_, h3.refs_eq⟩
      unfold setAttrRest
      rw [bind_ok e2]
      dsimp only
      rw [bind_ok e3]; rfl
    · obtain ⟨o, m1, e1, rfl, h1⟩ := after_elim (setAttr_few left true n .null hm.holds hn' hns' hv' h4)
      exact ⟨m1, e1, h1.refs_eq⟩

/-- **C85 fails** when the array for the class names is the first request to be refused: the name loses a reference that its
holder still counts on. -/
theorem C85_class_violated (left : Cell) (m : Mem) (hm : m.Valid) (name value : Nat) (n : Nat) (hn0 : n ≠ 0)
    (hn : m.refs name ≠ 0) (hv : m.refs value ≠ 0) (hk : RefusedAt m 5) :
    ∃ m', setAttr left name none value true n .null m = .ok (.error .noMem, .null) m' ∧
      ∀ a, m'.refs a = if a = name then m.refs a - 1 else m.refs a := by
  have h0 : Holds (fun a => if a = name then m.refs a - 1 else m.refs a) [name] m := by
    refine ⟨fun a => ?_, hm⟩
    by_cases ha : a = name
    · rw [if_pos ha, ha, List.count_cons_self]; simp; omega
    · rw [if_neg ha, List.count_cons_of_ne (Ne.symm ha)]; simp
  have hv' : 0 < (fun a => if a = name then m.refs a - 1 else m.refs a) value + [name].count value := by
    have := h0.refs value
    dsimp only at this ⊢
    omega
  obtain ⟨a, m1, ha1, han, hans, hat, h1, hr1, ht1, e1⟩ := setAttr_enough (ns := none) (name := name) (value := value) left true n .null h0
    (by rw [List.count_cons_self]; omega) (fun a ha => nomatch ha) hv' (granted_mono hk.1 (by omega))
  have hg1 : RefusedAt m1 1 := by
    refine ⟨?_, ?_⟩
    · rw [hr1, ht1]; exact ((granted_add (a := 4) (b := 1)).mp hk.1).2
    · rw [hr1, ht1, Nat.add_assoc]; exact hk.2
  obtain ⟨o, m2, e2, hr2, rfl, h2⟩ := after_elim (nodeCreate_refused left (a := a) value n hn0 (by omega)
    (l := a.held) (h1.perm (by rw [han]; exact List.perm_append_comm)) (by
      have e : (a.name :: a.held).count value = (a.held ++ [name]).count value := by
        rw [han]; exact (List.perm_append_comm (l₁ := [name]) (l₂ := a.held)).count_eq _
      rw [e, List.count_append]
      dsimp only at hv' ⊢
      omega) hg1)
  obtain ⟨_, m3, e3, h3, _, _⟩ := after_elim (frees_drop ha1 _ [] m2 (by rw [List.append_nil]; exact h2))
  refine ⟨m3, ?_, fun x => by rw [h3.refs_eq]⟩
  rw [e1]
  unfold setAttrRest
  rw [bind_ok e2]
  dsimp only
  rw [bind_ok e3]; rfl

/-- The class names are interned one after another. -/
theorem createClasses_fault {left : Cell} {f : Fault} (hl : ∀ m, unrefSlot left m = .fault f) {n i : Nat} (hi : i < n)
    (hk : RefusedAt m (1 + i)) : createClasses left n .null m = .fault f := by
  unfold createClasses
  rw [bind_ok (show destroyClasses .null m = .ok () m from rfl), if_neg (by omega)]
  obtain ⟨b, m1, e, hr1, ht1⟩ := malloc_some (m := m) (hk.1 0 (by omega))
  rw [bind_ok e]
  refine bind_fault (internClasses_fault hl b n [] i ⟨?_, ?_⟩ hi)
  · rw [hr1, ht1]; exact (granted_add.mp hk.1).2
  · rw [hr1, ht1, Nat.add_assoc]; exact hk.2

theorem nodeCreate_fault {left : Cell} {f : Fault} (hl : ∀ m, unrefSlot left m = .fault f) {n i : Nat} (hi : i < n)
    (a : Attr) (value : Nat) (parent : Bool) (h : Holds r l m) (hv : 0 < r value + l.count value)
    (hk : RefusedAt m (2 + i)) : nodeCreate left a value true n none parent .null m = .fault f := by
  unfold nodeCreate
  obtain ⟨o, m1, e1, hr1, ht1, ⟨rfl, _, hn⟩ | ⟨b, rfl, h1, _⟩⟩ := after_elim (malloc_spec h)
  · exact (hn (granted_mono hk.1 (by omega))).elim
  rw [bind_ok e1]
  obtain ⟨_, m2, e2, h2, hr2, ht2⟩ := after_elim (ref_live h1 (live_cons hv))
  dsimp only
  rw [if_pos rfl, bind_ok e2]
  refine bind_fault (createClasses_fault hl hi ⟨?_, ?_⟩)
  · rw [hr2, ht2, hr1, ht1]
    exact ((granted_add (a := 1) (b := 1 + i)).mp (by rw [← Nat.add_assoc]; exact hk.1)).2
  · rw [hr2, ht2, hr1, ht1, Nat.add_assoc, ← Nat.add_assoc 1 1 i]; exact hk.2

/-- **C85 fails** when a class name cannot be interned: the slot of the array that the name should have gone to is given
back, whether nothing was written to it (a read of unwritten memory) or `NULL` (a null dereference). -/
theorem C85_class_name_violated (m : Mem) (hm : m.Valid) (name value : Nat) (n i : Nat) (hi : i < n)
    (hn : m.refs name ≠ 0) (hv : m.refs value ≠ 0) (hk : RefusedAt m (6 + i)) :
    setAttr .junk name none value true n .null m = .fault .uninit ∧
    setAttr .null name none value true n .null m = .fault .nullDeref := by
  have main : ∀ (left : Cell) (f : Fault), (∀ m, unrefSlot left m = .fault f) →
      setAttr left name none value true n .null m = .fault f := by
    intro left f hl
    obtain ⟨a, m1, ha1, han, hans, hat, h1, hr1, ht1, e1⟩ := setAttr_enough (ns := none) (name := name) (value := value)
      left true n .null hm.holds (by simp; omega) (fun a ha => nomatch ha) (by simp; omega) (granted_mono hk.1 (by omega))
    rw [e1]
    unfold setAttrRest
    refine bind_fault (nodeCreate_fault hl hi a value true h1 (live_mono (by simp; omega)) ⟨?_, ?_⟩)
    · rw [hr1, ht1]
      rw [show 6 + i = 4 + (2 + i) by omega] at hk
      exact (granted_add.mp hk.1).2
    · rw [hr1, ht1, Nat.add_assoc, show 4 + (2 + i) = 6 + i by omega]; exact hk.2
  exact ⟨main .junk .uninit fun _ => rfl, main .null .nullDeref fun _ => rfl⟩

/-- **C85**: attaching an attribute node other than `class` takes one request; refused, nothing is changed.  Missing: the
attribute `class` (`C85_attach_violated`), an attribute of that name which is there already. -/
theorem C85_attach_partial (left : Cell) (m : Mem) (hm : m.Valid) (a : Attr) (value n : Nat) (classes : Classes)
    (ha : a.refcnt ≠ 0) (hn : m.refs a.name ≠ 0) (hns : ∀ x, a.ns = some x → m.refs x ≠ 0) (hv : m.refs value ≠ 0) :
    ∃ o m', setAttrNode left a value false n classes m = .ok (o, classes) m' ∧
      ((∃ node, o = .ok node ∧ node.attr = a ∧ node.name = a.name ∧ node.ns = a.ns ∧ Granted m.room m.time 1 ∧
          ∃ m'', nodeDestroy node (some classes) m' = .ok () m'' ∧ m''.refs = m.refs) ∨
       (o = .error .noMem ∧ ¬ Granted m.room m.time 1 ∧ m'.refs = m.refs)) := by
  have hn' : 0 < m.refs a.name + ([] : List Nat).count a.name := by simp; omega
  have hv' : 0 < m.refs value + ([] : List Nat).count value := by simp; omega
  unfold setAttrNode
  obtain ⟨_, m1, e1, h1, hr1, ht1⟩ := after_elim (ref_live hm.holds hn')
  rw [bind_ok e1]
  obtain ⟨o, m2, e2, hr2, ht2, hh⟩ := after_elim (nodeCreate_plain left a value n a.ns false classes h1)
  rw [hr1, ht1] at hh
  rw [bind_ok e2]
  rcases hh with ⟨rfl, h2, hg⟩ | ⟨b, rfl, h2, hg⟩
  · obtain ⟨_, m3, e3, h3, _, _⟩ := after_elim (unref_spec h2)
    dsimp only
    rw [bind_ok e3]
    exact ⟨_, m3, rfl, Or.inr ⟨rfl, hg, h3.refs_eq⟩⟩
  · obtain ⟨_, m3, e3, h3, _, _⟩ := after_elim (ref_live h2 (live_cons (live_cons hn')))
    obtain ⟨_, m4, e4, h4, _, _⟩ := after_elim (refOpt_spec (o := a.ns) h3 (fun x hx => by have := hns x hx; omega))
    obtain ⟨_, m5, e5, h5, _, _⟩ := after_elim (ref_live (a := value) h4 (by omega))
    obtain ⟨_, m6, e6, h6, _, _⟩ := after_elim (unref_spec h5)
    obtain ⟨_, m7, e7, h7, _, _⟩ := after_elim (unref_mem (a := a.name) h6 (by simp))
    have hp : ((a.ns.toList ++ [a.name, b, a.name]).erase a.name).Perm (a.name :: (a.ns.toList ++ [b])) := by
      rw [List.perm_iff_count]
      intro x
      rw [List.count_erase]
      simp only [List.count_append, List.count_cons, List.count_nil]
      by_cases hx : a.name = x
      · simp [hx]; omega
      · simp [hx]
    obtain ⟨_, m8, e8, h8, _, _⟩ := after_elim (frees_nodeHeld
      (n := { block := b, attr := a, name := a.name, ns := a.ns, cls := false })
      ha (c := classes) (Or.inr rfl) m.refs [] m7 (h7.perm (hp.trans (by simp))))
    dsimp only
    rw [bind_ok e3, bind_ok e4, bind_ok e5, bind_ok e6, bind_ok e7]
    exact ⟨_, m7, rfl, Or.inl ⟨_, rfl, rfl, rfl, rfl, hg, m8, e8, h8.refs_eq⟩⟩

/-- **C85 fails** when an attribute node `class` is attached and the array for the class names is refused: the clean-up
follows the attribute's parent, which is still `NULL`. -/
theorem C85_attach_violated (left : Cell) (m : Mem) (hm : m.Valid) (a : Attr) (value n : Nat) (hn0 : n ≠ 0)
    (hn : m.refs a.name ≠ 0) (hv : m.refs value ≠ 0) (hk : RefusedAt m 1) :
    setAttrNode left a value true n .null m = .fault .nullDeref := by
  have hv' : 0 < m.refs value + ([] : List Nat).count value := by simp; omega
  unfold setAttrNode
  obtain ⟨_, m1, e1, h1, hr1, ht1⟩ := after_elim (ref_live (a := a.name) hm.holds (by simp; omega))
  rw [bind_ok e1]
  refine bind_fault ?_
  unfold nodeCreate
  obtain ⟨o, m2, e2, hr2, ht2, hh⟩ := after_elim (malloc_spec h1)
  rw [hr1, ht1] at hh
  rcases hh with ⟨rfl, _, hg⟩ | ⟨b, rfl, h2, hg⟩
  · exact (hg hk.1).elim
  rw [bind_ok e2]
  obtain ⟨_, m3, e3, h3, hr3, ht3⟩ := after_elim (ref_live h2 (live_cons (live_cons hv')))
  dsimp only
  rw [if_pos rfl, bind_ok e3]
  have e4 : createClasses left n .null m3 = .ok none { m3 with time := m3.time + 1 } := by
    unfold createClasses
    rw [bind_ok (show destroyClasses .null m3 = .ok () m3 from rfl), if_neg hn0]
    rw [bind_ok (malloc_none (by rw [hr3, hr2, hr1, ht3, ht2, ht1]; exact hk.2))]
    rfl
  rw [bind_ok e4]
  rfl

/-- A memory with `n` objects, one reference to each, in which the first `k` requests are granted. -/
def stocked (k n : Nat) : Mem :=
  { room := fun t => decide (t < k), time := 0, next := n, refs := fun a => if a < n then 1 else 0 }

theorem stocked_valid (k n : Nat) : (stocked k n).Valid := fun a ha => if_neg (by
  have : n ≤ a := ha
  omega)

theorem stocked_refused (k n : Nat) : RefusedAt (stocked k n) k :=
  ⟨fun i hi => by show decide (0 + i < k) = true; simpa using hi, by show decide (0 + k < k) = false; simp⟩

theorem stocked_granted {k n j : Nat} (h : j ≤ k) : Granted (stocked k n).room (stocked k n).time j :=
  granted_mono (stocked_refused k n).1 h

/-- The cases exist: `class="a b"` with its name and value held once each, the name `class` freed under its holder
when the array is refused, and undefined behaviour at the second class name. -/
theorem C85_cases :
    (∃ m', setAttr .junk 0 none 1 true 2 .null (stocked 5 2) = .ok (.error .noMem, .null) m' ∧ m'.refs 0 = 0 ∧ m'.refs 1 = 1) ∧
    setAttr .junk 0 none 1 true 2 .null (stocked 7 2) = .fault .uninit ∧
    (∃ node c m', setAttr .junk 0 none 1 true 2 .null (stocked 8 2) = .ok (.ok node, c) m') ∧
    setAttrNode .junk { block := 0, refcnt := 1, name := 1, ns := none, text := none } 2 true 1 .null (stocked 1 3) = .fault .nullDeref := by
  refine ⟨?_, ?_, ?_, ?_⟩
  · obtain ⟨m', e, h⟩ := C85_class_violated .junk _ (stocked_valid 5 2) 0 1 2 (by decide) (by decide) (by decide) (stocked_refused 5 2)
    exact ⟨m', e, by rw [h]; decide, by rw [h]; decide⟩
  · exact (C85_class_name_violated _ (stocked_valid 7 2) 0 1 2 1 (by decide) (by decide) (by decide) (stocked_refused 7 2)).1
  · obtain ⟨node, c, m', _, e, _⟩ := (C85_class_partial .junk _ (stocked_valid 8 2) 0 1 2 (by decide) (by decide)).1 (stocked_granted (by decide))
    exact ⟨node, c, m', e⟩
  · exact C85_attach_violated .junk _ (stocked_valid 1 3) _ 2 1 (by decide) (by decide) (by decide) (stocked_refused 1 3)

end Dom.Oom
