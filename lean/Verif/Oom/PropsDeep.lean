import Verif.Oom.Deep
import Verif.Oom.PropsChars
import Verif.Oom.PropsNames

/-!
# C92: deep copies when memory runs out
-/
namespace Dom.Oom.Deep
set_option linter.unusedSimpArgs false

open Dom.Oom
open Dom.Oom.Chars (raise Neutral raise_neutral)

/-! ## Specification -/

/-- **Specification.**  The strings of a node. -/
def Names.strs (s : Names) : List Nat := s.name :: (s.ns.toList ++ (s.pre.toList ++ s.value.toList))

/-- **Specification.**  All strings of a source. -/
def Source.strs : Source → List Nat
  | .nil => []
  | .node s kids rest => s.strs ++ (kids.strs ++ rest.strs)

/-- **Specification.**  The number of nodes. -/
def Source.size : Source → Nat
  | .nil => 0
  | .node _ kids rest => 1 + kids.size + rest.size

/-- **Specification.**  What a copy is a copy of. -/
def Copy.shape : Copy → Source
  | .nil => .nil
  | .node _ s _ kids rest => .node s kids.shape rest.shape

/-- **Specification.**  The references that made the nodes: one to each block and one to each string. -/
def Copy.objs : Copy → List Nat
  | .nil => []
  | .node b s _ kids rest => b :: (s.strs ++ (kids.objs ++ rest.objs))

/-- **Specification.**  Nobody but the tree has any of the nodes. -/
def Copy.Plain : Copy → Prop
  | .nil => True
  | .node _ _ h kids rest => h = 0 ∧ kids.Plain ∧ rest.Plain

/-- **Specification.**  What a request for memory is for: the block of a node, or an event about the insertion of the copy
of a child. -/
inductive Ask
  | block
  | event (s : Names) (kids : Source)

/-- **Specification.**  The requests of a deep copy of children: each child takes a block, then its children are copied, and
then its insertion is announced at itself, at each of its descendants and at its parent. -/
def asks : Source → List Ask
  | .nil => []
  | .node s kids rest => .block :: (asks kids ++ (List.replicate (kids.size + 2) (.event s kids) ++ asks rest))

/-- **Specification.**  The requests of `cloneNode`. -/
def allAsks (deep : Bool) (kids : Source) : List Ask := .block :: (if deep then asks kids else [])

/-- **Specification.**  What remains when a request is refused: nothing if it was for a block; if it was for an event, the
whole copy of the child that was being inserted, with one reference that nobody knows of. -/
def Remains : Ask → Copy → Prop
  | .block, c => c = .nil
  | .event s kids, c => ∃ b k, c = .node b s 1 k .nil ∧ k.shape = kids ∧ k.Plain

/-- **Specification.**  `c` with its children `below` is one of the nodes of a source, at any depth. -/
inductive Below : Source → Names → Source → Prop
  | here {c : Names} {below rest : Source} : Below (.node c below rest) c below
  | inside {s c : Names} {kids rest below : Source} : Below kids c below → Below (.node s kids rest) c below
  | later {s c : Names} {kids rest below : Source} : Below rest c below → Below (.node s kids rest) c below

/-- **Specification.**  The strings a copy needs are there. -/
def Live (r : Nat → Nat) (l : List Nat) (T : Types) (src : Source) : Prop :=
  (∀ a ∈ [T.inserted, T.intoDoc, T.subtree], 0 < r a + l.count a) ∧ ∀ a ∈ src.strs, 0 < r a + l.count a

/-! ## Proofs -/

variable {r : Nat → Nat} {l : List Nat} {m : Mem}

/-- What is not given back when nodes are destroyed. -/
def Copy.kept : Copy → List Nat
  | .nil => []
  | .node b s h kids rest => (if h = 0 then kids.kept else b :: (s.strs ++ kids.objs)) ++ rest.kept

theorem kept_plain : ∀ {c : Copy}, c.Plain → c.kept = []
  | .nil, _ => rfl
  | .node b s h kids rest, hp => by
    unfold Copy.kept
    rw [if_pos hp.1, kept_plain hp.2.1, kept_plain hp.2.2]
    rfl

theorem append_plain : ∀ {c : Copy} {b : Nat} {s : Names} {k : Copy}, c.Plain → k.Plain → (c.append b s 0 k).Plain
  | .nil, _, _, _, _, hk => ⟨rfl, hk, trivial⟩
  | .node _ _ _ _ _, _, _, _, hc, hk => ⟨hc.1, hc.2.1, append_plain hc.2.2 hk⟩

theorem append_kept : ∀ {c : Copy} {b : Nat} {s : Names} {k : Copy}, c.Plain →
    (c.append b s 1 k).kept = (Copy.node b s 1 k .nil).objs
  | .nil, b, s, k, _ => by
    show (if (1 : Nat) = 0 then k.kept else b :: (s.strs ++ k.objs)) ++ [] = b :: (s.strs ++ (k.objs ++ []))
    rw [if_neg (by decide), List.append_nil, List.append_nil]
  | .node _ _ _ _ _, b, s, k, hc => by
    unfold Copy.append Copy.kept
    rw [if_pos hc.1, kept_plain hc.2.1, append_kept hc.2.2]
    rfl

theorem append_objs : ∀ {c : Copy} {b : Nat} {s : Names} {h : Nat} {k : Copy},
    (c.append b s h k).objs.Perm (b :: (s.strs ++ (k.objs ++ c.objs)))
  | .nil, _, _, _, _ => List.Perm.refl _
  | .node b' s' h' k' rest, b, s, h, k => by
    have ih := append_objs (c := rest) (b := b) (s := s) (h := h) (k := k)
    rw [List.perm_iff_count] at ih ⊢
    intro x
    have := ih x
    simp only [Copy.append, Copy.objs, List.count_append, List.count_cons] at this ⊢
    omega

/-- One list of children after another. -/
def Source.append : Source → Source → Source
  | .nil, x => x
  | .node s k rest, x => .node s k (rest.append x)

theorem append_shape : ∀ {c : Copy} {b : Nat} {s : Names} {h : Nat} {k : Copy} {rest : Source},
    (c.append b s h k).shape.append rest = c.shape.append (.node s k.shape rest)
  | .nil, _, _, _, _, _ => rfl
  | .node b' s' h' k' c, b, s, h, k, rest => by
    show Source.node s' k'.shape ((c.append b s h k).shape.append rest) = _
    rw [append_shape]
    rfl

theorem append_nil : ∀ x : Source, x.append .nil = x
  | .nil => rfl
  | .node s k rest => by
    show Source.node s k (rest.append .nil) = _
    rw [append_nil]

/-- Destroying nodes gives everything back but what somebody has. -/
theorem destroy_spec : ∀ (c : Copy) (r : Nat → Nat) (l : List Nat) (m : Mem), Holds r (c.objs ++ l) m →
    after (destroy c) m (fun _ m' => Holds r (c.kept ++ l) m' ∧ m'.room = m.room ∧ m'.time = m.time)
  | .nil, r, l, m, h => ⟨h, rfl, rfl⟩
  | .node b s hd kids rest, r, l, m, h => by
    unfold destroy
    rw [after_bind, after_ite]
    split
    · rename_i h0
      rw [after_bind]
      refine after_mono (frees_opt s.pre r (b :: s.name :: (s.ns.toList ++ (s.value.toList ++
        (kids.objs ++ (rest.objs ++ l))))) m (h.perm ?_)) ?_
      · rw [List.perm_iff_count]; intro x
        simp only [Copy.objs, Names.strs, List.count_append, List.count_cons]; omega
      rintro _ m1 ⟨h1, hr1, ht1⟩
      rw [after_bind]
      refine after_mono (frees_opt s.ns r (kids.objs ++ (b :: s.name :: (s.value.toList ++
        (rest.objs ++ l)))) m1 (h1.perm ?_)) ?_
      · rw [List.perm_iff_count]; intro x
        simp only [List.count_append, List.count_cons]; omega
      rintro _ m2 ⟨h2, hr2, ht2⟩
      rw [after_bind]
      refine after_mono (destroy_spec kids r _ m2 h2) ?_
      rintro _ m3 ⟨h3, hr3, ht3⟩
      rw [after_bind]
      refine after_mono (frees_opt s.value r (s.name :: b :: (rest.objs ++ (kids.kept ++ l))) m3 (h3.perm ?_)) ?_
      · rw [List.perm_iff_count]; intro x
        simp only [List.count_append, List.count_cons]; omega
      rintro _ m4 ⟨h4, hr4, ht4⟩
      rw [after_bind]
      refine after_mono (unref_spec h4) ?_
      rintro _ m5 ⟨h5, hr5, ht5⟩
      refine after_mono (unref_spec h5) ?_
      rintro _ m6 ⟨h6, hr6, ht6⟩
      refine after_mono (destroy_spec rest r _ m6 h6) ?_
      rintro _ m7 ⟨h7, hr7, ht7⟩
      refine ⟨h7.perm ?_, hr7.trans (hr6.trans (hr5.trans (hr4.trans (hr3.trans (hr2.trans hr1))))),
        ht7.trans (ht6.trans (ht5.trans (ht4.trans (ht3.trans (ht2.trans ht1)))))⟩
      rw [List.perm_iff_count]; intro x
      simp only [Copy.kept, if_pos h0, List.count_append]; omega
    · rename_i h0
      rw [after_pure]
      refine after_mono (destroy_spec rest r (b :: (s.strs ++ (kids.objs ++ l))) m (h.perm ?_)) ?_
      · rw [List.perm_iff_count]; intro x
        simp only [Copy.objs, List.count_append, List.count_cons]; omega
      rintro _ m1 ⟨h1, hr1, ht1⟩
      refine ⟨h1.perm ?_, hr1, ht1⟩
      rw [List.perm_iff_count]; intro x
      simp only [Copy.kept, if_neg h0, List.count_append, List.count_cons]; omega

theorem giveUp_spec {α : Type} {parent : Nat} {ps : Names} {kids : Copy} {e : Exc}
    (h : Holds r (parent :: (ps.strs ++ (kids.objs ++ l))) m) :
    after (giveUp (α := α) parent ps kids e) m (fun o m' => o = .error e ∧ Holds r (kids.kept ++ l) m' ∧ m'.room = m.room) := by
  unfold giveUp
  rw [after_bind]
  refine after_mono (destroy_spec (.node parent ps 0 kids .nil) r l m (h.perm ?_)) ?_
  · rw [List.perm_iff_count]; intro x
    simp only [Copy.objs, List.count_append, List.count_cons, List.count_nil]; omega
  rintro _ m1 ⟨h1, hr1, -⟩
  refine ⟨rfl, h1.perm ?_, hr1⟩
  rw [List.perm_iff_count]; intro x
  simp only [Copy.kept, if_true, List.count_append, List.count_nil]; omega

theorem copyNode_spec {s : Names} (h : Holds r l m) (hs : ∀ a ∈ s.strs, 0 < r a + l.count a) :
    after (copyNode s) m (fun o m' => m'.room = m.room ∧ m'.time = m.time + 1 ∧
      ((o = none ∧ Holds r l m' ∧ ¬ Granted m.room m.time 1) ∨
       (∃ b, o = some b ∧ Holds r (b :: (s.strs ++ l)) m' ∧ Granted m.room m.time 1))) := by
  unfold copyNode
  rw [after_bind]
  refine after_mono (malloc_spec h) ?_
  rintro o m1 ⟨hr1, ht1, ⟨rfl, h1, hg⟩ | ⟨b, rfl, h1, hg⟩⟩
  · exact ⟨hr1, ht1, Or.inl ⟨rfl, h1, hg⟩⟩
  · dsimp only
    rw [after_bind]
    refine after_mono (ref_live h1 (live_cons (hs s.name (by simp [Names.strs])))) ?_
    rintro _ m2 ⟨h2, hr2, ht2⟩
    rw [after_bind]
    refine after_mono (refOpt_spec (o := s.ns) h2 fun a ha => live_cons (live_cons
      (hs a (by simp [Names.strs, ha])))) ?_
    rintro _ m3 ⟨h3, hr3, ht3⟩
    rw [after_bind]
    refine after_mono (refOpt_spec (o := s.pre) h3 fun a ha => live_mono (live_cons (live_cons
      (hs a (by simp [Names.strs, ha]))))) ?_
    rintro _ m4 ⟨h4, hr4, ht4⟩
    rw [after_bind]
    refine after_mono (refOpt_spec (o := s.value) h4 fun a ha => live_mono (live_mono (live_cons (live_cons
      (hs a (by simp [Names.strs, ha])))))) ?_
    rintro _ m5 ⟨h5, hr5, ht5⟩
    refine ⟨hr5.trans (hr4.trans (hr3.trans (hr2.trans hr1))), by rw [ht5, ht4, ht3, ht2, ht1], Or.inr ⟨b, rfl, h5.perm ?_, hg⟩⟩
    rw [List.perm_iff_count]; intro x
    simp only [Names.strs, List.count_append, List.count_cons]; omega

theorem event_cost : Chars.eventCost ([] : List Nat).length = 1 := rfl

theorem walk_neutral (T : Types) : ∀ c : Copy, Neutral (walk T c) [T.intoDoc] c.shape.size
  | .nil => fun r l m h _ => ⟨h, rfl, Or.inl ⟨rfl, granted_zero _ _, rfl⟩⟩
  | .node b s hd kids rest => by
    intro r l m h hx
    have hsz : (Copy.node b s hd kids rest).shape.size = 1 + kids.shape.size + rest.shape.size := rfl
    rw [hsz]
    unfold walk
    rw [after_bind]
    refine after_mono (raise_neutral T.intoDoc none none none [] r l m h fun a ha => hx a (by simpa using ha)) ?_
    rintro e m1 ⟨h1, hr1, ⟨rfl, hg, ht⟩ | ⟨rfl, hg⟩⟩
    · dsimp only
      rw [event_cost] at hg ht
      rw [after_bind]
      refine after_mono (walk_neutral T kids r l m1 h1 hx) ?_
      rintro e m2 ⟨h2, hr2, ⟨rfl, hg2, ht2⟩ | ⟨rfl, hg2⟩⟩ <;> rw [hr1, ht] at hg2
      · dsimp only
        refine after_mono (walk_neutral T rest r l m2 h2 hx) ?_
        rintro e m3 ⟨h3, hr3, hc⟩
        refine ⟨h3, hr3.trans (hr2.trans hr1), ?_⟩
        have hgt : m2.time = m.time + (1 + kids.shape.size) := by omega
        rw [hr2, hr1, hgt] at hc
        rcases hc with ⟨rfl, hg3, ht3⟩ | ⟨rfl, hg3⟩
        · exact Or.inl ⟨rfl, granted_add.mpr ⟨granted_add.mpr ⟨hg, hg2⟩, hg3⟩, by omega⟩
        · exact Or.inr ⟨rfl, fun hall => hg3 (granted_add.mp hall).2⟩
      · exact ⟨h2, hr2.trans hr1, Or.inr ⟨rfl, fun hall => hg2 (granted_add.mp (granted_add.mp hall).1).2⟩⟩
    · exact ⟨h1, hr1, Or.inr ⟨rfl, fun hall => hg (granted_mono hall (by rw [event_cost]; omega))⟩⟩

theorem announce_neutral (T : Types) (parent : Nat) (c : Copy) :
    Neutral (announce T parent c) [T.inserted, T.intoDoc, T.subtree, parent] (c.shape.size + 2) := by
  intro r l m h hx
  unfold announce
  rw [after_bind]
  refine after_mono (raise_neutral T.inserted (some parent) none none [] r l m h fun a ha => hx a ?_) ?_
  · simp at ha; rcases ha with rfl | rfl <;> simp
  rintro e m1 ⟨h1, hr1, ⟨rfl, hg, ht⟩ | ⟨rfl, hg⟩⟩
  · dsimp only
    rw [event_cost] at hg ht
    rw [after_bind]
    refine after_mono (walk_neutral T c r l m1 h1 fun a ha => hx a (by simp at ha; simp [ha])) ?_
    rintro e m2 ⟨h2, hr2, ⟨rfl, hg2, ht2⟩ | ⟨rfl, hg2⟩⟩ <;> rw [hr1, ht] at hg2
    · dsimp only
      refine after_mono (raise_neutral T.subtree (some parent) none none [] r l m2 h2 fun a ha => hx a ?_) ?_
      · simp at ha; rcases ha with rfl | rfl <;> simp
      rintro e m3 ⟨h3, hr3, hc⟩
      refine ⟨h3, hr3.trans (hr2.trans hr1), ?_⟩
      have hgt : m2.time = m.time + (1 + c.shape.size) := by omega
      have hn : c.shape.size + 2 = 1 + c.shape.size + 1 := by omega
      rw [event_cost, hr2, hr1, hgt] at hc
      rw [hn]
      rcases hc with ⟨rfl, hg3, ht3⟩ | ⟨rfl, hg3⟩
      · exact Or.inl ⟨rfl, granted_add.mpr ⟨granted_add.mpr ⟨hg, hg2⟩, hg3⟩, by omega⟩
      · exact Or.inr ⟨rfl, fun hall => hg3 (granted_add.mp hall).2⟩
    · exact ⟨h2, hr2.trans hr1, Or.inr ⟨rfl, fun hall => hg2 (granted_add.mp
        (granted_mono (b := c.shape.size + 2) (a := 1 + c.shape.size) hall (by omega))).2⟩⟩
  · exact ⟨h1, hr1, Or.inr ⟨rfl, fun hall => hg (granted_mono hall (by rw [event_cost]; omega))⟩⟩

theorem refused_shift {m1 : Mem} {n j : Nat} (hr : m1.room = m.room) (ht : m1.time = m.time + n)
    (hg : Granted m.room m.time n) (h : RefusedAt m1 j) : RefusedAt m (n + j) := by
  unfold RefusedAt at h ⊢
  rw [hr, ht] at h
  exact ⟨granted_add.mpr ⟨hg, h.1⟩, by rw [← Nat.add_assoc]; exact h.2⟩

theorem asks_kids {s : Names} {kids rest : Source} {j : Nat} {a : Ask} (ha : (asks kids)[j]? = some a) :
    (asks (.node s kids rest))[1 + j]? = some a := by
  have h := (List.getElem?_eq_some_iff.mp ha).1
  rw [Nat.add_comm]
  unfold asks
  rw [List.getElem?_cons_succ, List.getElem?_append_left h]
  exact ha

theorem asks_event {s : Names} {kids rest : Source} {j : Nat} (hj : j < kids.size + 2) :
    (asks (.node s kids rest))[1 + (asks kids).length + j]? = some (.event s kids) := by
  have e1 : 1 + (asks kids).length + j = ((asks kids).length + j) + 1 := by omega
  rw [e1]
  show (Ask.block :: (asks kids ++ (List.replicate (kids.size + 2) (.event s kids) ++ asks rest)))[_]? = _
  rw [List.getElem?_cons_succ, List.getElem?_append_right (Nat.le_add_right _ _), Nat.add_sub_cancel_left,
    List.getElem?_append_left (by rw [List.length_replicate]; exact hj), List.getElem?_replicate, if_pos hj]

theorem asks_rest {s : Names} {kids rest : Source} {j : Nat} :
    (asks (.node s kids rest))[1 + (asks kids).length + (kids.size + 2) + j]? = (asks rest)[j]? := by
  have e1 : 1 + (asks kids).length + (kids.size + 2) + j = ((asks kids).length + ((kids.size + 2) + j)) + 1 := by omega
  rw [e1]
  show (Ask.block :: (asks kids ++ (List.replicate (kids.size + 2) (.event s kids) ++ asks rest)))[_]? = _
  rw [List.getElem?_cons_succ, List.getElem?_append_right (Nat.le_add_right _ _), Nat.add_sub_cancel_left,
    List.getElem?_append_right (by rw [List.length_replicate]; omega), List.length_replicate, Nat.add_sub_cancel_left]

/-- How a copy of children may end. -/
theorem cloneKids_spec (T : Types) : ∀ (src : Source) (parent : Nat) (ps : Names) (done : Copy) {r : Nat → Nat}
    {l : List Nat} {m : Mem}, Holds r (parent :: (ps.strs ++ (done.objs ++ l))) m → done.Plain → Live r l T src →
    after (cloneKids T parent ps src done) m (fun o m' => m'.room = m.room ∧
      ((∃ k, o = .ok k ∧ k.shape = done.shape.append src ∧ k.Plain ∧
          Holds r (parent :: (ps.strs ++ (k.objs ++ l))) m' ∧
          Granted m.room m.time (asks src).length ∧ m'.time = m.time + (asks src).length) ∨
       (∃ j a lost, o = .error .noMem ∧ RefusedAt m j ∧ (asks src)[j]? = some a ∧ Remains a lost ∧
          Holds r (lost.objs ++ l) m')))
  | .nil, parent, ps, done, r, l, m, h, hp, _ =>
    ⟨rfl, Or.inl ⟨done, rfl, (append_nil _).symm, hp, h, granted_zero _ _, rfl⟩⟩
  | .node s kids rest, parent, ps, done, r, l, m, h, hp, hl => by
    have hlen : (asks (.node s kids rest)).length = 1 + (asks kids).length + (kids.size + 2) + (asks rest).length := by
      simp only [asks, List.length_cons, List.length_append, List.length_replicate]; omega
    unfold cloneKids
    rw [after_bind]
    refine after_mono (copyNode_spec h fun a ha => live_cons (live_mono (live_mono (hl.2 a (by
      simp [Source.strs, ha]))))) ?_
    rintro o m1 ⟨hr1, ht1, ⟨rfl, h1, hg1⟩ | ⟨b, rfl, h1, hg1⟩⟩
    · dsimp only
      refine after_mono (giveUp_spec h1) ?_
      rintro o m2 ⟨rfl, h2, hr2⟩
      rw [kept_plain hp] at h2
      refine ⟨hr2.trans hr1, Or.inr ⟨0, .block, .nil, rfl, ⟨granted_zero _ _, ?_⟩, rfl, rfl, h2⟩⟩
      cases hc : m.room (m.time + 0) with
      | false => rfl
      | true => exact absurd (granted_one.mpr hc) hg1
    · dsimp only
      rw [after_bind]
      refine after_mono (cloneKids_spec T kids b s .nil (l := parent :: (ps.strs ++ (done.objs ++ l))) h1 trivial
        ⟨fun a ha => live_cons (live_mono (live_mono (hl.1 a ha))),
         fun a ha => live_cons (live_mono (live_mono (hl.2 a (by simp [Source.strs, ha]))))⟩) ?_
      rintro o m2 ⟨hr2, ⟨k, rfl, hsh, hkp, h2, hg2, ht2⟩ | ⟨j, a, lost, rfl, hj, ha, hrem, h2⟩⟩
      · dsimp only
        have hks : k.shape = kids := hsh
        rw [hr1, ht1] at hg2
        have hg12 : Granted m.room m.time (1 + (asks kids).length) := granted_add.mpr ⟨hg1, hg2⟩
        have ht12 : m2.time = m.time + (1 + (asks kids).length) := by omega
        rw [after_bind]
        refine after_mono (announce_neutral T parent k r _ m2 h2 ?_) ?_
        · intro a ha
          simp only [List.mem_cons, List.not_mem_nil, or_false] at ha
          rcases ha with ha | ha | ha | ha
          · exact live_cons (live_mono (live_mono (live_cons (live_mono (live_mono (hl.1 a (by simp [ha])))))))
          · exact live_cons (live_mono (live_mono (live_cons (live_mono (live_mono (hl.1 a (by simp [ha])))))))
          · exact live_cons (live_mono (live_mono (live_cons (live_mono (live_mono (hl.1 a (by simp [ha])))))))
          · exact live_mem (by simp [ha])
        rw [hks]
        rintro e m3 ⟨h3, hr3, hc⟩
        rw [hr2, hr1, ht12] at hc
        rcases hc with ⟨rfl, hg3, ht3⟩ | ⟨rfl, hg3⟩
        · dsimp only
          have hg13 : Granted m.room m.time (1 + (asks kids).length + (kids.size + 2)) := granted_add.mpr ⟨hg12, hg3⟩
          have ht13 : m3.time = m.time + (1 + (asks kids).length + (kids.size + 2)) := by omega
          have hr13 : m3.room = m.room := hr3.trans (hr2.trans hr1)
          refine after_mono (cloneKids_spec T rest parent ps (done.append b s 0 k) (l := l) (h3.perm ?_)
            (append_plain hp hkp) ⟨hl.1, fun a ha => hl.2 a (by simp [Source.strs, ha])⟩) ?_
          · have hap := append_objs (c := done) (b := b) (s := s) (h := 0) (k := k)
            rw [List.perm_iff_count] at hap ⊢
            intro x
            have := hap x
            simp only [List.count_append, List.count_cons] at this ⊢
            omega
          rintro o m4 ⟨hr4, ⟨k', rfl, hsh', hkp', h4, hg4, ht4⟩ | ⟨j, a, lost, rfl, hj, ha, hrem, h4⟩⟩
          · rw [hr13, ht13] at hg4
            refine ⟨hr4.trans hr13, Or.inl ⟨k', rfl, ?_, hkp', h4, ?_, ?_⟩⟩
            · rw [hsh', append_shape, hks]
            · rw [hlen]; exact granted_add.mpr ⟨hg13, hg4⟩
            · rw [ht4, ht13, hlen]; omega
          · refine ⟨hr4.trans hr13, Or.inr ⟨_, a, lost, rfl, refused_shift hr13 ht13 hg13 hj, ?_, hrem, h4⟩⟩
            rw [asks_rest]
            exact ha
        · dsimp only
          obtain ⟨j, hjlt, hj⟩ := refused_of_not (m := m2) (t := kids.size + 2) (by rw [hr2, hr1, ht12]; exact hg3)
          refine after_mono (giveUp_spec (parent := parent) (ps := ps) (kids := done.append b s 1 k) (l := l)
            (h3.perm ?_)) ?_
          · have hap := append_objs (c := done) (b := b) (s := s) (h := 1) (k := k)
            rw [List.perm_iff_count] at hap ⊢
            intro x
            have := hap x
            simp only [List.count_append, List.count_cons] at this ⊢
            omega
          rintro o m4 ⟨rfl, h4, hr4⟩
          rw [append_kept hp] at h4
          refine ⟨hr4.trans (hr3.trans (hr2.trans hr1)), Or.inr ⟨_, .event s kids, _, rfl,
            refused_shift (hr2.trans hr1) ht12 hg12 hj, ?_, ⟨b, k, rfl, hks, hkp⟩, h4⟩⟩
          exact asks_event hjlt
      · dsimp only
        refine after_mono (giveUp_spec (l := lost.objs ++ l) (h2.perm ?_)) ?_
        · rw [List.perm_iff_count]; intro x
          simp only [List.count_append, List.count_cons]; omega
        rintro o m3 ⟨rfl, h3, hr3⟩
        rw [kept_plain hp] at h3
        refine ⟨hr3.trans (hr2.trans hr1), Or.inr ⟨_, a, lost, rfl, refused_shift hr1 ht1 hg1 hj, ?_, hrem, h3⟩⟩
        exact asks_kids ha

/-- How a copy may end. -/
theorem cloneNode_spec (T : Types) (deep : Bool) (s : Names) (kids : Source) (hm : m.Valid)
    (hl : Live m.refs [] T (.node s kids .nil)) :
    after (cloneNode T deep s kids) m (fun o m' =>
      (∃ b k, o = .ok (b, k) ∧ k.shape = (if deep then kids else .nil) ∧ k.Plain ∧
          Holds m.refs (Copy.node b s 1 k .nil).objs m' ∧ Granted m.room m.time (allAsks deep kids).length) ∨
       (∃ j a lost, o = .error .noMem ∧ RefusedAt m j ∧ (allAsks deep kids)[j]? = some a ∧ Remains a lost ∧
          Holds m.refs lost.objs m')) := by
  unfold cloneNode
  rw [after_bind]
  refine after_mono (copyNode_spec hm.holds fun a ha => hl.2 a (by simp [Source.strs, ha])) ?_
  rintro o m1 ⟨hr1, ht1, ⟨rfl, h1, hg1⟩ | ⟨b, rfl, h1, hg1⟩⟩
  · refine Or.inr ⟨0, .block, .nil, rfl, ⟨granted_zero _ _, ?_⟩, rfl, rfl, h1⟩
    cases hc : m.room (m.time + 0) with
    | false => rfl
    | true => exact absurd (granted_one.mpr hc) hg1
  · dsimp only
    cases deep with
    | false =>
      refine Or.inl ⟨b, .nil, rfl, rfl, trivial, h1.perm ?_, hg1⟩
      simp [Copy.objs]
    | true =>
      rw [if_pos rfl, after_bind]
      refine after_mono (cloneKids_spec T kids b s .nil (l := []) (h1.perm (by simp [Copy.objs])) trivial
        ⟨hl.1, fun a ha => hl.2 a (by simp [Source.strs, ha])⟩) ?_
      rintro o m2 ⟨hr2, ⟨k, rfl, hsh, hkp, h2, hg2, ht2⟩ | ⟨j, a, lost, rfl, hj, ha, hrem, h2⟩⟩
      · refine Or.inl ⟨b, k, rfl, hsh, hkp, h2.perm (by simp [Copy.objs]), ?_⟩
        rw [hr1, ht1] at hg2
        have : (allAsks true kids).length = 1 + (asks kids).length := by
          simp [allAsks]; omega
        rw [this]
        exact granted_add.mpr ⟨hg1, hg2⟩
      · refine Or.inr ⟨_, a, lost, rfl, refused_shift hr1 ht1 hg1 hj, ?_, hrem, by rw [List.append_nil] at h2; exact h2⟩
        rw [Nat.add_comm]
        exact ha

theorem refused_lt {j n : Nat} (hj : RefusedAt m j) (hg : Granted m.room m.time n) : n ≤ j := by
  rcases Nat.lt_or_ge j n with h | h
  · have := hg j h
    rw [hj.2] at this
    cases this
  · exact h

/-! ## The theorems -/

/-- **C92.**  `cloneNode` never runs into undefined behaviour.  It succeeds exactly if all its requests are granted; then the copy has
the strings and the children of the source (or no children, if it was not to be deep), nobody but the caller and the tree has a
reference to any of its nodes, and exactly these references are new.  Otherwise it answers `DOM_NO_MEM_ERR`, and if the request that
was refused was for the block of a node, everything is given back.  Missing: a refused event (`C92_lost_violated`). -/
theorem C92_clone_partial (T : Types) (deep : Bool) (s : Names) (kids : Source) (m : Mem) (hm : m.Valid)
    (hT : ∀ a ∈ [T.inserted, T.intoDoc, T.subtree], m.refs a ≠ 0)
    (hs : ∀ a ∈ s.strs ++ kids.strs, m.refs a ≠ 0) :
    ∃ o m', cloneNode T deep s kids m = .ok o m' ∧
      (Granted m.room m.time (allAsks deep kids).length → ∃ b k, o = .ok (b, k) ∧
        k.shape = (if deep then kids else .nil) ∧ k.Plain ∧ Holds m.refs (Copy.node b s 1 k .nil).objs m') ∧
      (¬ Granted m.room m.time (allAsks deep kids).length → o = .error .noMem) ∧
      (∀ j, RefusedAt m j → (allAsks deep kids)[j]? = some .block → Holds m.refs [] m') := by
  have hl : Live m.refs [] T (.node s kids .nil) := by
    refine ⟨fun a ha => ?_, fun a ha => ?_⟩
    · have := hT a ha; simp; omega
    · have := hs a (by simpa [Source.strs] using ha); simp; omega
  obtain ⟨o, m', hx, hc⟩ := after_elim (cloneNode_spec T deep s kids hm hl)
  refine ⟨o, m', hx, ?_⟩
  rcases hc with ⟨b, k, rfl, hsh, hkp, h2, hg⟩ | ⟨j, a, lost, rfl, hj, ha, hrem, h2⟩
  · refine ⟨fun _ => ⟨b, k, rfl, hsh, hkp, h2⟩, fun hn => absurd hg hn, fun j hj hb => ?_⟩
    have h1 := refused_lt hj hg
    have h2 := (List.getElem?_eq_some_iff.mp hb).1
    omega
  · refine ⟨fun hg => ?_, fun _ => rfl, fun j' hj' hb => ?_⟩
    · have h1 := refused_lt hj hg
      have h2 := (List.getElem?_eq_some_iff.mp ha).1
      omega
    · rw [refused_unique hj' hj, ha] at hb
      cases hb
      rw [show lost = .nil from hrem] at h2
      exact h2

/-- **C92, a copy is lost.**  If an event about the insertion of the copy of some descendant is refused, `cloneNode` answers
`DOM_NO_MEM_ERR` and the whole copy of that descendant stays in memory, with a reference that nobody has. -/
theorem C92_lost_violated (T : Types) (deep : Bool) (s : Names) (kids : Source) (m : Mem) (hm : m.Valid)
    (hT : ∀ a ∈ [T.inserted, T.intoDoc, T.subtree], m.refs a ≠ 0)
    (hs : ∀ a ∈ s.strs ++ kids.strs, m.refs a ≠ 0) (j : Nat) (hj : RefusedAt m j) (c : Names) (below : Source)
    (hc : (allAsks deep kids)[j]? = some (.event c below)) :
    ∃ m' b k, cloneNode T deep s kids m = .ok (.error .noMem) m' ∧ k.shape = below ∧
      Holds m.refs (Copy.node b c 1 k .nil).objs m' := by
  have hl : Live m.refs [] T (.node s kids .nil) := by
    refine ⟨fun a ha => ?_, fun a ha => ?_⟩
    · have := hT a ha; simp; omega
    · have := hs a (by simpa [Source.strs] using ha); simp; omega
  obtain ⟨o, m', hx, hcase⟩ := after_elim (cloneNode_spec T deep s kids hm hl)
  rcases hcase with ⟨b, k, rfl, hsh, hkp, h2, hg⟩ | ⟨j', a, lost, rfl, hj', ha, hrem, h2⟩
  · have h1 := refused_lt hj hg
    have h2 := (List.getElem?_eq_some_iff.mp hc).1
    omega
  · rw [refused_unique hj' hj, hc] at ha
    cases ha
    obtain ⟨b, k, rfl, hk, -⟩ := hrem
    exact ⟨m', b, k, hx, hk, h2⟩

/-- **C92, no node is safe.**  For every node below the source there is a request whose refusal makes `cloneNode` lose the copy of
this node and of all that is below it. -/
theorem C92_every_node_violated (T : Types) (s : Names) (kids : Source) (c : Names) (below : Source)
    (hb : Below kids c below) :
    ∃ j, ∀ m : Mem, m.Valid → (∀ a ∈ [T.inserted, T.intoDoc, T.subtree], m.refs a ≠ 0) →
      (∀ a ∈ s.strs ++ kids.strs, m.refs a ≠ 0) → RefusedAt m j →
      ∃ m' b k, cloneNode T true s kids m = .ok (.error .noMem) m' ∧ k.shape = below ∧
        Holds m.refs (Copy.node b c 1 k .nil).objs m' := by
  have key : ∃ j : Nat, (asks kids)[j]? = some (Ask.event c below) := by
    induction hb with
    | here => exact ⟨_, asks_event (j := 0) (by omega)⟩
    | inside _ ih => exact ih.elim fun j hj => ⟨_, asks_kids hj⟩
    | later _ ih => exact ih.elim fun j hj => ⟨_, asks_rest.trans hj⟩
  obtain ⟨j, hj⟩ := key
  exact ⟨j + 1, fun m hm hT hs hr => C92_lost_violated T true s kids m hm hT hs (j + 1) hr c below hj⟩

/-- A text with the name 2 and the value 3, in an element with the name 1. -/
def someKids : Source := .node ⟨1, none, none, none⟩ (.node ⟨2, none, none, some 3⟩ .nil .nil) .nil

/-- An element with the name 0. -/
def someRoot : Names := ⟨0, none, none, none⟩

/-- The types of the events. -/
def someTypes : Types := ⟨4, 5, 6⟩

theorem some_there (k : Nat) : (∀ a ∈ [someTypes.inserted, someTypes.intoDoc, someTypes.subtree], (stocked k 7).refs a ≠ 0) ∧
    ∀ a ∈ someRoot.strs ++ someKids.strs, (stocked k 7).refs a ≠ 0 := by
  have h : ∀ a, a < 7 → (stocked k 7).refs a ≠ 0 := fun a ha => by
    show (if a < 7 then 1 else 0) ≠ 0
    rw [if_pos ha]
    decide
  exact ⟨fun a ha => h a (by revert a; decide), fun a ha => h a (by revert a; decide)⟩

/-- The cases exist: a copy of `<a><b>text</b></a>`, which takes eight requests; nothing kept if the block of the text is refused; the
text lost if an event about it is; `<b>` with its text lost if the last event is. -/
theorem C92_cases :
    (allAsks true someKids).length = 8 ∧
    (∃ b k m', cloneNode someTypes true someRoot someKids (stocked 8 7) = .ok (.ok (b, k)) m' ∧ k.shape = someKids) ∧
    (∃ m', cloneNode someTypes true someRoot someKids (stocked 2 7) = .ok (.error .noMem) m' ∧
      Holds (stocked 2 7).refs [] m') ∧
    (∃ m' b, cloneNode someTypes true someRoot someKids (stocked 3 7) = .ok (.error .noMem) m' ∧
      Holds (stocked 3 7).refs [b, 2, 3] m') ∧
    (∃ m' b k, cloneNode someTypes true someRoot someKids (stocked 7 7) = .ok (.error .noMem) m' ∧
      k.shape = .node ⟨2, none, none, some 3⟩ .nil .nil ∧
      Holds (stocked 7 7).refs (Copy.node b ⟨1, none, none, none⟩ 1 k .nil).objs m') := by
  refine ⟨rfl, ?_, ?_, ?_, ?_⟩
  · obtain ⟨o, m', hx, hyes, -⟩ := C92_clone_partial someTypes true someRoot someKids _ (stocked_valid 8 7)
      (some_there 8).1 (some_there 8).2
    obtain ⟨b, k, rfl, hk, -⟩ := hyes (stocked_granted (by decide))
    exact ⟨b, k, m', hx, hk⟩
  · obtain ⟨o, m', hx, -, hno, hb⟩ := C92_clone_partial someTypes true someRoot someKids _ (stocked_valid 2 7)
      (some_there 2).1 (some_there 2).2
    have ho := hno (fun hg => absurd (refused_lt (stocked_refused 2 7) hg) (by decide))
    subst ho
    exact ⟨m', hx, hb 2 (stocked_refused 2 7) rfl⟩
  · obtain ⟨m', b, k, hx, hk, h⟩ := C92_lost_violated someTypes true someRoot someKids _ (stocked_valid 3 7)
      (some_there 3).1 (some_there 3).2 3 (stocked_refused 3 7) ⟨2, none, none, some 3⟩ .nil rfl
    cases k with
    | nil => exact ⟨m', b, hx, h⟩
    | node _ _ _ _ _ => cases hk
  · exact C92_lost_violated someTypes true someRoot someKids _ (stocked_valid 7 7)
      (some_there 7).1 (some_there 7).2 7 (stocked_refused 7 7) _ _ rfl

end Dom.Oom.Deep
