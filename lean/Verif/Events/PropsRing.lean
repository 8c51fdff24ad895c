import Verif.Events.RingRun
/-!
# C77: the listener entries in memory

`Verif.Events.Model` keeps the listeners of a target in a list; C41 to C44 are about these lists.  Here it is proved that the entries in memory, with their links, are these lists,
that no entry and no listener is used after it was freed, and that none is left behind.
-/
set_option linter.unusedSimpArgs false
namespace Dom.Events.Ring
open Dom.Str (DStr)
open Dom.Tree (NodeId)

/-! ## Calls of the client -/

/-- The calls of a client: creating a listener, counting a reference, giving one up, registering, removing, finalising a target, and one step of an iteration. -/
inductive Call
  | create
  | ref (o : Nat)
  | unref (o : Nat)
  | add (et : NodeId) (type : DStr) (o : Nat) (cap : Bool)
  | remove (et : NodeId) (type : Option DStr) (o : Nat) (cap : Bool)
  | finalise (et : NodeId)
  | iter (et : NodeId) (type : Option DStr) (cap : Bool) (cur : Option Nat)

/-- The code of a call. -/
def call (h : Heap) : Call → Out Heap
  | .create => .ok (createObj h).1
  | .ref o => refObj h o
  | .unref o => unrefObj h o
  | .add et ty o cap => Ring.add h et ty o cap
  | .remove et ty o cap => Ring.remove h et ty o cap
  | .finalise et => Ring.finalise h et
  | .iter et ty cap cur => (iter h et ty cap cur).bind fun r => .ok r.1

/-- The code of a sequence of calls. -/
def calls : Heap → List Call → Out Heap
  | h, [] => .ok h
  | h, c :: cs => (call h c).bind fun h' => calls h' cs

/-- The memory at the start. -/
def empty : Heap := { cells := fun _ => none, fresh := 0, objs := fun _ => none, freshObj := 0, heads := fun _ => none }

/-! ## The specification -/

/-- The lists of the targets, the references of the client, and the number of listeners created. -/
structure Spec where
  st : St
  held : Nat → Nat
  objs : Nat

/-- At the start. -/
def Spec.empty : Spec :=
  { st := { evt := { type := none, bubble := false }, lists := fun _ => [], fresh := 0 }
    held := fun _ => 0, objs := 0 }

/-- The order in which an iteration visits the entries: the first one comes last. -/
def order (l : List Entry) : List Entry := l.tail ++ l.head?.toList

/-- The entry that one step of an iteration visits. -/
def visit (l : List Entry) : Option Nat → Option Entry
  | none => (order l).head?
  | some a => ((order l).dropWhile fun e => e.id != a).tail.head?

/-- The iteration asks for this entry: no type, or this type and this phase. -/
def wanted (type : Option DStr) (cap : Bool) (e : Entry) : Bool :=
  match type with
  | none => true
  | some t => t.data == e.type.data && cap == e.capture

/-- The listener handed out for a visited entry. -/
def handed (type : Option DStr) (cap : Bool) (e : Entry) : Option Nat := if wanted type cap e then some e.listener else none

/-- What a call should do. -/
def Spec.step (s : Spec) : Call → Spec
  | .create => { s with held := plus s.held s.objs, objs := s.objs + 1 }
  | .ref o => { s with held := plus s.held o }
  | .unref o => { s with held := minus s.held o }
  | .add et ty o cap => { s with st := addListener s.st et ty o cap }
  | .remove et ty o cap => { s with st := removeListener s.st et ty o cap }
  | .finalise et => { s with st := { s.st with lists := fun n => if n = et then [] else s.st.lists n } }
  | .iter et ty cap cur => { s with held := grant s.held ((visit (s.st.lists et) cur).bind (handed ty cap)) }

/-- What a client must see to: it only uses listeners it holds, and continues an iteration at an entry that is still registered. -/
def Spec.Careful (s : Spec) : Call → Prop
  | .create | .remove .. | .finalise _ => True
  | .ref o | .unref o | .add _ _ o _ => 0 < s.held o
  | .iter et _ _ cur => ∀ a, cur = some a → ∃ e ∈ s.st.lists et, e.id = a

/-- Every call of the sequence is careful. -/
def Spec.AllCareful : Spec → List Call → Prop
  | _, [] => True
  | s, c :: cs => s.Careful c ∧ (s.step c).AllCareful cs

/-- What a sequence of calls should do. -/
def Spec.steps : Spec → List Call → Spec
  | s, [] => s
  | s, c :: cs => (s.step c).steps cs

/-- The memory holds the lists and the counts. -/
structure Represents (h : Heap) (s : Spec) : Prop where
  /-- The target points to its first entry. -/
  head : ∀ et, h.heads et = (s.st.lists et).head?.map Entry.id
  /-- Every entry of a list is in memory and points to the next one, the last to the first. -/
  entry : ∀ et, ∀ e ∈ s.st.lists et, ∃ c, h.cells e.id = some c ∧ c.type = e.type ∧ c.listener = e.listener ∧ c.capture = e.capture ∧ nextOf (s.st.lists et) e.id = some c.next
  /-- Nothing else is in memory. -/
  only : ∀ a c, h.cells a = some c → ∃ et, ∃ e ∈ s.st.lists et, e.id = a
  /-- No entry is in two lists. -/
  apart : ∀ et et', ∀ e ∈ s.st.lists et, ∀ e' ∈ s.st.lists et', e.id = e'.id → et = et'
  /-- The count of a listener is the client's references and the entries with it; without any it is freed. -/
  refs : ∀ o, h.objs o = (if s.held o + ((List.range h.fresh).countP fun a => (h.cells a).any fun c => c.listener == o) = 0 then none
    else some (s.held o + ((List.range h.fresh).countP fun a => (h.cells a).any fun c => c.listener == o)))
  /-- No entry lies beyond the addresses given out. -/
  bound : ∀ a c, h.cells a = some c → a < h.fresh

/-! ## The simulation -/

variable {h h' : Heap} {m m' : Mem} {l t xs ys : List Nat} {a b z p n o : Nat} {et : NodeId} {L : NodeId → List Nat} {K T : Nat → Nat} {s : Spec}

/-- The entry at an address, as the list model has it. -/
def entryAt (m : Mem) (a : Nat) : Entry :=
  match (m a).map Cell.body with
  | none => { id := a, type := Str.create [], listener := 0, capture := false }
  | some b => { id := a, type := b.1, listener := b.2.1, capture := b.2.2 }

theorem entryAt_id (m : Mem) (a : Nat) : (entryAt m a).id = a := by unfold entryAt; split <;> rfl

theorem entryAt_some {c : Cell} (hc : m a = some c) : entryAt m a = { id := a, type := c.type, listener := c.listener, capture := c.capture } := by
  unfold entryAt; rw [hc]; rfl

theorem entryAt_congr (hb : (m' a).map Cell.body = (m a).map Cell.body) : entryAt m' a = entryAt m a := by
  unfold entryAt; rw [hb]

/-- The memory and the specification agree. -/
structure Sim (h : Heap) (L : NodeId → List Nat) (s : Spec) : Prop where
  inv : Inv h L s.held
  lists : ∀ et, s.st.lists et = (L et).map (entryAt h.cells)
  fresh : s.st.fresh = h.fresh
  objs : s.objs = h.freshObj

theorem Inv.setObjs (I : Inv h L K) {K' : Nat → Nat} (hs : h' = { h with objs := h'.objs }) (R : Refs h'.objs (fun o => K' o + uses h.cells h.fresh o))
    (hn : ∀ o, h.freshObj ≤ o → K' o = 0) : Inv h' L K' := by
  have hcells : h'.cells = h.cells := by rw [hs]
  have hfresh : h'.fresh = h.fresh := by rw [hs]
  have hheads : h'.heads = h.heads := by rw [hs]
  have hfo : h'.freshObj = h.freshObj := by rw [hs]
  refine ⟨⟨?_, I.core.apart, ?_, ?_, ?_, ?_⟩, ?_⟩
  · intro n; rw [hcells]; exact I.core.circle n
  · intro x cx hx; rw [hcells] at hx; exact I.core.all x cx hx
  · intro x cx hx; rw [hcells] at hx; rw [hfresh]; exact I.core.bound x cx hx
  · rw [hcells, hfresh]; exact R
  · intro o ho
    rw [hfo] at ho
    rw [R, if_pos]
    have := (I.core.total_new ho).2
    show K' o + uses h.cells h.fresh o = 0
    rw [hn o ho, this]
  · intro n; rw [hheads]; exact I.head n

theorem Sim.setObjs (S : Sim h L s) {K' : Nat → Nat} (hs : h' = { h with objs := h'.objs }) (I : Inv h' L K') : Sim h' L { s with held := K' } := by
  have hcells : h'.cells = h.cells := by rw [hs]
  have hfresh : h'.fresh = h.fresh := by rw [hs]
  have hfo : h'.freshObj = h.freshObj := by rw [hs]
  exact ⟨I, fun et => by rw [hcells]; exact S.lists et, by rw [hfresh]; exact S.fresh, by rw [hfo]; exact S.objs⟩

theorem removeLoop_first (m : Entry → Bool) {e : Entry} (he : m e = true) (post : List Entry) : ∀ (pre done : List Entry), (∀ y ∈ pre, m y = false) →
    Events.removeLoop m done (pre ++ e :: post) = some (post ++ (done ++ pre)) := by
  intro pre
  induction pre with
  | nil => intro done _; simp [Events.removeLoop, he]
  | cons x pre ih =>
    intro done hp
    have hx : m x = false := hp x (by simp)
    have := ih (done ++ [x]) (fun y hy => hp y (by simp [hy]))
    simp [Events.removeLoop, hx, this]

theorem removeLoop_none (m : Entry → Bool) : ∀ (l done : List Entry), (∀ y ∈ l, m y = false) → Events.removeLoop m done l = none := by
  intro l
  induction l with
  | nil => intro done _; rfl
  | cons x l ih =>
    intro done hp
    have hx : m x = false := hp x (by simp)
    simp [Events.removeLoop, hx, ih (done ++ [x]) (fun y hy => hp y (by simp [hy]))]

theorem matches_entry (ty : Option DStr) (o : Nat) (cap : Bool) {c : Cell} (hc : m a = some c) : matchesEntry ty o cap (entryAt m a) = matchesCell ty o cap c := by
  rw [entryAt_some hc]; cases ty <;> rfl

theorem Sim.remove (S : Sim h L s) (et : NodeId) (ty : Option DStr) (o : Nat) (cap : Bool) :
    ∃ h' L', Ring.remove h et ty o cap = .ok h' ∧ Sim h' L' (s.step (.remove et ty o cap)) := by
  have I := S.inv
  have hl := S.lists et
  unfold Ring.remove
  rw [I.head et]
  show ∃ h' L', _ ∧ Sim h' L' { s with st := removeListener s.st et ty o cap }
  cases hL : L et with
  | nil =>
    refine ⟨h, L, rfl, ?_⟩
    have e : removeListener s.st et ty o cap = s.st := by
      unfold removeListener
      rw [hl, hL]; rfl
    rw [e]
    exact S
  | cons p t =>
    have hlen := I.core.length et
    simp only [List.head?_cons]
    rcases removeLoop_run (matchesCell ty o cap) I (et := et) (h.fresh + 1) [] p t hL (by simp) (by rw [hL] at hlen; simp at hlen; omega) with
      ⟨hno, e⟩ | ⟨xs, b, ys, c, hLb, hcb, hm, hx, e⟩
    · refine ⟨h, L, e, ?_⟩
      have e : removeListener s.st et ty o cap = s.st := by
        unfold removeListener
        rw [hl, removeLoop_none]
        intro y hy
        obtain ⟨b, hb, rfl⟩ := List.mem_map.1 hy
        obtain ⟨c, hc⟩ := (I.core.circle et).live hb
        rw [matches_entry ty o cap hc]
        exact hno b hb c hc
      rw [e]
      exact S
    · obtain ⟨h1, e1, I1, f1, f2, g1, g2⟩ := I.unlink hLb hcb
      refine ⟨h1, fun n => if n = et then ys ++ xs else L n, e.trans e1, ?_⟩
      have er : Events.removeLoop (matchesEntry ty o cap) [] (s.st.lists et) = some ((ys ++ xs).map (entryAt h.cells)) := by
        rw [hl, hLb, List.map_append, List.map_cons]
        rw [removeLoop_first (matchesEntry ty o cap) (by rw [matches_entry ty o cap hcb]; exact hm)]
        · simp
        · intro y hy
          obtain ⟨b, hb, rfl⟩ := List.mem_map.1 hy
          obtain ⟨c, hc⟩ := (I.core.circle et).live (a := b) (by rw [hLb]; simp [hb])
          rw [matches_entry ty o cap hc]
          exact hx b hb c hc
      have est : removeListener s.st et ty o cap = { s.st with lists := fun n => if n = et then (ys ++ xs).map (entryAt h.cells) else s.st.lists n } := by
        unfold removeListener; rw [er]
      have nd := (I.core.circle et).nodup
      rw [hLb] at nd
      have hbn : b ∉ ys ++ xs := by
        have := (List.nodup_append_comm).1 nd
        simp only [List.cons_append, List.nodup_cons] at this
        exact this.1
      refine ⟨I1, ?_, ?_, ?_⟩
      · intro n
        rw [est]
        show (if n = et then _ else s.st.lists n) = _
        by_cases en : n = et
        · rw [if_pos en, if_pos en]
          refine List.map_congr_left ?_
          intro x hx
          exact (entryAt_congr (g2 x (by rintro rfl; exact hbn hx))).symm
        · rw [if_neg en, if_neg en, S.lists n]
          refine List.map_congr_left ?_
          intro x hx
          refine (entryAt_congr (g2 x ?_)).symm
          rintro rfl
          exact en (I.core.apart n et x hx (by rw [hLb]; simp))
      · rw [est]; exact S.fresh.trans f1.symm
      · exact S.objs.trans f2.symm

theorem Sim.add (S : Sim h L s) (et : NodeId) (ty : DStr) (o : Nat) (cap : Bool) (ho : 0 < s.held o) :
    ∃ h' L', Ring.add h et ty o cap = .ok h' ∧ Sim h' L' (s.step (.add et ty o cap)) := by
  have I := S.inv
  obtain ⟨h1, e1, I1, f1, f2, g1, g2⟩ := I.add et ty o cap ho
  refine ⟨h1, _, e1, I1, ?_, ?_, S.objs.trans f2.symm⟩
  · intro n
    have notin : ∀ k, ∀ x ∈ L k, x ≠ h.fresh := by
      intro k x hx e
      obtain ⟨c, hc⟩ := (I.core.circle k).live hx
      have := I.core.bound x c hc
      omega
    show (if n = et then s.st.lists et ++ [{ id := s.st.fresh, type := ty, listener := o, capture := cap }] else s.st.lists n) = _
    by_cases en : n = et
    · rw [if_pos en, if_pos en, List.map_append, S.lists et]
      congr 1
      · refine List.map_congr_left ?_
        intro x hx
        exact (entryAt_congr (g2 x (notin et x hx))).symm
      · simp only [List.map_cons, List.map_nil]
        unfold entryAt
        rw [g1, S.fresh]
    · rw [if_neg en, if_neg en, S.lists n]
      refine List.map_congr_left ?_
      intro x hx
      exact (entryAt_congr (g2 x (notin n x hx))).symm
  · show s.st.fresh + 1 = _
    rw [f1, S.fresh]

theorem Sim.finalise (S : Sim h L s) (et : NodeId) : ∃ h' L', Ring.finalise h et = .ok h' ∧ Sim h' L' (s.step (.finalise et)) := by
  have I := S.inv
  obtain ⟨h1, e1, I1, f1, f2, g1, g2⟩ := I.finalise et
  refine ⟨h1, _, e1, I1, ?_, S.fresh.trans f1.symm, S.objs.trans f2.symm⟩
  intro n
  show (if n = et then [] else s.st.lists n) = _
  by_cases en : n = et
  · rw [if_pos en, if_pos en]; rfl
  · rw [if_neg en, if_neg en, S.lists n]
    refine List.map_congr_left ?_
    intro x hx
    exact (entryAt_congr (g2 x (fun hh => en (I.core.apart n et x hx hh)))).symm

theorem given_handed (ty : Option DStr) (cap : Bool) {c : Cell} (hc : m a = some c) : given m ty cap a = handed ty cap (entryAt m a) := by
  unfold given handed
  rw [hc, entryAt_some hc]
  cases ty with
  | none => rfl
  | some t =>
    have e : ((some t).isNone || (Str.isEqual (some c.type) (some t) && cap == c.capture)) =
        wanted (some t) cap { id := a, type := c.type, listener := c.listener, capture := c.capture } := by
      rw [isEqual_data, Bool.eq_iff_iff]
      simp only [wanted, Option.isNone_some, Bool.false_or, Bool.and_eq_true, decide_eq_true_eq, beq_iff_eq]
      exact and_congr_left fun _ => eq_comm
    rw [← e]

/-- The step of an iteration, with the entry it visits. -/
theorem Sim.iter (S : Sim h L s) (et : NodeId) (ty : Option DStr) (cap : Bool) (cur : Option Nat) (hc : ∀ a, cur = some a → a ∈ L et) :
    ∃ h', Ring.iter h et ty cap cur = .ok (h', (visit (s.st.lists et) cur).map Entry.id, (visit (s.st.lists et) cur).bind (handed ty cap)) ∧
      Sim h' L (s.step (.iter et ty cap cur)) := by
  have I := S.inv
  have hl := S.lists et
  have stay : (visit (s.st.lists et) cur) = none → Sim h L (s.step (.iter et ty cap cur)) := by
    intro e
    show Sim h L { s with held := grant s.held ((visit (s.st.lists et) cur).bind (handed ty cap)) }
    rw [e]; exact S
  have go : ∀ xs a ys b, L et = xs ++ a :: ys → (ys ++ xs ++ [a]).head? = some b → visit (s.st.lists et) cur = some (entryAt h.cells b) →
      ∃ h', iterAt h ty cap a = .ok (h', (visit (s.st.lists et) cur).map Entry.id, (visit (s.st.lists et) cur).bind (handed ty cap)) ∧
      Sim h' L (s.step (.iter et ty cap cur)) := by
    intro xs a ys b h1 h2 h3
    obtain ⟨h', e, I', hs⟩ := I.iterAt ty cap h1 h2
    have hbm : b ∈ L et := by
      have := List.mem_of_head? h2
      rw [h1]
      simp only [List.mem_append, List.mem_cons, List.mem_singleton, List.not_mem_nil] at this ⊢
      tauto
    obtain ⟨cb, hcb⟩ := (I.core.circle et).live hbm
    refine ⟨h', ?_, ?_⟩
    · rw [e, h3, Option.map_some, Option.bind_some, entryAt_id, given_handed ty cap hcb]
    · show Sim h' L { s with held := grant s.held ((visit (s.st.lists et) cur).bind (handed ty cap)) }
      rw [h3, Option.bind_some, ← given_handed ty cap hcb]
      exact S.setObjs hs I'
  unfold Ring.iter
  cases cur with
  | none =>
    dsimp only
    rw [I.head et]
    cases hL : L et with
    | nil =>
      have e : visit (s.st.lists et) none = none := by rw [hl, hL]; rfl
      refine ⟨h, ?_, stay e⟩
      rw [e]; rfl
    | cons p t =>
      obtain ⟨b, hb⟩ : ∃ b, (t ++ [p]).head? = some b := by cases t <;> simp
      refine go [] p t b hL (by simpa using hb) ?_
      rw [hl, hL]
      show (t.map (entryAt h.cells) ++ [entryAt h.cells p]).head? = _
      have : t.map (entryAt h.cells) ++ [entryAt h.cells p] = (t ++ [p]).map (entryAt h.cells) := by simp
      rw [this, List.head?_map, hb]; rfl
  | some a =>
    have ha := hc a rfl
    dsimp only
    rw [I.head et]
    cases hL : L et with
    | nil => rw [hL] at ha; cases ha
    | cons p t =>
      have nd := (I.core.circle et).nodup
      rw [hL] at nd ha
      have ord : order (s.st.lists et) = (t ++ [p]).map (entryAt h.cells) := by rw [hl, hL]; simp [order]
      have drop : ∀ pre post, t ++ [p] = pre ++ a :: post → (∀ x ∈ pre, x ≠ a) → visit (s.st.lists et) (some a) = (post.map (entryAt h.cells)).head? := by
        intro pre post e1 e2
        show ((order (s.st.lists et)).dropWhile _).tail.head? = _
        rw [ord, e1, List.map_append, List.map_cons, List.dropWhile_append_of_pos]
        · rw [List.dropWhile_cons_of_neg]
          · rfl
          · simp [entryAt_id]
        · intro x hx
          obtain ⟨y, hy, rfl⟩ := List.mem_map.1 hx
          rw [entryAt_id]
          simpa using e2 y hy
      by_cases hap : p = a
      · subst hap
        rw [if_pos (by rfl)]
        have e : visit (s.st.lists et) (some p) = none := by
          rw [drop t [] rfl]
          · rfl
          · intro x hx e
            subst e
            exact (List.nodup_cons.1 nd).1 hx
        refine ⟨h, ?_, stay e⟩
        rw [e]; rfl
      · rw [if_neg (by simpa using hap)]
        have hat : a ∈ t := by
          rcases List.mem_cons.1 ha with e | e
          · exact absurd e.symm hap
          · exact e
        obtain ⟨u, v, rfl⟩ := List.append_of_mem hat
        have hv := drop u (v ++ [p]) (by simp) (by
          intro x hx e
          subst e
          have := (List.nodup_cons.1 nd).2
          rw [List.nodup_append] at this
          exact this.2.2 x hx x (by simp) rfl)
        obtain ⟨b, hb⟩ : ∃ b, (v ++ [p]).head? = some b := by cases v <;> simp
        refine go (p :: u) a v b (by rw [hL]; simp) ?_ ?_
        · cases v with
          | nil => simpa using hb
          | cons w v => simpa using hb
        · rw [hv, List.head?_map, hb]; rfl

theorem Sim.step (S : Sim h L s) (c : Call) (hc : s.Careful c) : ∃ h' L', call h c = .ok h' ∧ Sim h' L' (s.step c) := by
  have I := S.inv
  cases c with
  | create =>
    refine ⟨_, L, rfl, ?_⟩
    have hz := fun o (ho : h.freshObj ≤ o) => I.core.total_new ho
    refine ⟨⟨⟨I.core.circle, I.core.apart, I.core.all, I.core.bound, ?_, ?_⟩, I.head⟩, S.lists, S.fresh, ?_⟩
    · intro o
      show (if o = h.freshObj then some 1 else h.objs o) = if plus s.held s.objs o + uses h.cells h.fresh o = 0 then none else some (plus s.held s.objs o + uses h.cells h.fresh o)
      rw [S.objs]
      unfold plus
      by_cases ho : o = h.freshObj
      · subst ho
        obtain ⟨k1, k2⟩ := hz h.freshObj (Nat.le_refl _)
        rw [if_pos rfl, if_pos rfl, k1, k2]; rfl
      · rw [if_neg ho, if_neg ho]; exact I.core.refs o
    · intro o ho
      have ho' : h.freshObj + 1 ≤ o := ho
      show (if o = h.freshObj then some 1 else h.objs o) = none
      rw [if_neg (by omega)]
      exact I.core.new o (by omega)
    · show s.objs + 1 = h.freshObj + 1
      rw [S.objs]
  | ref o =>
    have hc' : 0 < s.held o := hc
    obtain ⟨h1, e1, s1, R1⟩ := Refs.ref (o := o) I.core.refs (by show 0 < s.held o + _; omega)
    refine ⟨h1, L, e1, S.setObjs s1 (I.setObjs s1 ?_ ?_)⟩
    · have e : (fun q => plus s.held o q + uses h.cells h.fresh q) = plus (fun q => s.held q + uses h.cells h.fresh q) o := by
        funext q
        show (if q = o then s.held q + 1 else s.held q) + _ = if q = o then s.held q + uses h.cells h.fresh q + 1 else s.held q + uses h.cells h.fresh q
        split <;> omega
      rw [e]; exact R1
    · intro q hq
      have := (I.core.total_new hq).1
      unfold plus
      rw [if_neg (by rintro rfl; omega)]; exact this
  | unref o =>
    have hc' : 0 < s.held o := hc
    obtain ⟨h1, e1, s1, R1⟩ := Refs.unref (o := o) I.core.refs (by show 0 < s.held o + _; omega)
    refine ⟨h1, L, e1, S.setObjs s1 (I.setObjs s1 ?_ ?_)⟩
    · have e : (fun q => minus s.held o q + uses h.cells h.fresh q) = minus (fun q => s.held q + uses h.cells h.fresh q) o := by
        funext q
        show (if q = o then s.held q - 1 else s.held q) + _ = if q = o then s.held q + uses h.cells h.fresh q - 1 else s.held q + uses h.cells h.fresh q
        by_cases hq : q = o
        · subst hq; rw [if_pos rfl, if_pos rfl]; omega
        · rw [if_neg hq, if_neg hq]
      rw [e]; exact R1
    · intro q hq
      have := (I.core.total_new hq).1
      unfold minus
      rw [if_neg (by rintro rfl; omega)]; exact this
  | add et ty o cap => exact S.add et ty o cap hc
  | remove et ty o cap => exact S.remove et ty o cap
  | finalise et => exact S.finalise et
  | iter et ty cap cur =>
    obtain ⟨h1, e1, S1⟩ := S.iter et ty cap cur (by
      intro a ha
      obtain ⟨e, he, hid⟩ := hc a ha
      rw [S.lists et] at he
      obtain ⟨b, hb, rfl⟩ := List.mem_map.1 he
      rw [entryAt_id] at hid
      rw [← hid]; exact hb)
    refine ⟨h1, L, ?_, S1⟩
    show (Ring.iter h et ty cap cur).bind _ = _
    rw [e1]; rfl

theorem Sim.steps (cs : List Call) : ∀ {h : Heap} {L : NodeId → List Nat} {s : Spec}, Sim h L s → s.AllCareful cs → ∃ h' L', calls h cs = .ok h' ∧ Sim h' L' (s.steps cs) := by
  induction cs with
  | nil => intro h L s S _; exact ⟨h, L, rfl, S⟩
  | cons c cs ih =>
    intro h L s S hc
    obtain ⟨h1, L1, e1, S1⟩ := S.step c hc.1
    obtain ⟨h2, L2, e2, S2⟩ := ih S1 hc.2
    refine ⟨h2, L2, ?_, S2⟩
    show (call h c).bind _ = _
    rw [e1]; exact e2

theorem Sim.empty : Sim empty (fun _ => []) Spec.empty := by
  refine ⟨⟨⟨fun _ => Circle.nil, by simp, (by intro a c h; cases h), (by intro a c h; cases h), ?_, fun _ _ => rfl⟩, fun _ => rfl⟩, fun _ => rfl, rfl, rfl⟩
  intro o; rfl

theorem nextOf_entry (C : Circle m (xs ++ a :: ys)) {c : Cell} (hc : m a = some c) (f : Nat → Entry) (hf : ∀ x, (f x).id = x) : nextOf ((xs ++ a :: ys).map f) a = some c.next := by
  have hn := C.next
  rw [nx_some hc] at hn
  have nd := C.nodup
  have hx : ∀ x ∈ xs, x ≠ a := by
    intro x hx e
    subst e
    rw [List.nodup_append] at nd
    exact nd.2.2 x hx x (by simp) rfl
  unfold nextOf
  have e : ((xs ++ a :: ys).map f).dropWhile (fun e => e.id != a) = f a :: ys.map f := by
    rw [List.map_append, List.map_cons, List.dropWhile_append_of_pos]
    · rw [List.dropWhile_cons_of_neg]
      simp [hf]
    · intro y hy
      obtain ⟨x, hx', rfl⟩ := List.mem_map.1 hy
      rw [hf]
      simpa using hx x hx'
  rw [e]
  cases ys with
  | nil =>
    show (List.map f (xs ++ [a])).head?.map Entry.id = _
    rw [hn]
    cases xs <;> simp [hf]
  | cons y ys =>
    rw [hn]
    simp [hf]

theorem Sim.represents (S : Sim h L s) : Represents h s := by
  have I := S.inv
  refine ⟨?_, ?_, ?_, ?_, I.core.refs, I.core.bound⟩
  · intro et
    rw [I.head et, S.lists et]
    cases L et with
    | nil => rfl
    | cons p t => simp [entryAt_id]
  · intro et e he
    rw [S.lists et] at he
    obtain ⟨a, ha, rfl⟩ := List.mem_map.1 he
    obtain ⟨c, hc⟩ := (I.core.circle et).live ha
    refine ⟨c, by rw [entryAt_id]; exact hc, by rw [entryAt_some hc], by rw [entryAt_some hc], by rw [entryAt_some hc], ?_⟩
    rw [S.lists et, entryAt_id]
    obtain ⟨xs, ys, e⟩ := List.append_of_mem ha
    have C := I.core.circle et
    rw [e] at C ⊢
    exact nextOf_entry C hc _ (entryAt_id _)
  · intro a c ha
    obtain ⟨et, h1⟩ := I.core.all a c ha
    exact ⟨et, entryAt h.cells a, by rw [S.lists et]; exact List.mem_map.2 ⟨a, h1, rfl⟩, entryAt_id _ _⟩
  · intro et et' e he e' he' hid
    rw [S.lists et] at he
    rw [S.lists et'] at he'
    obtain ⟨a, ha, rfl⟩ := List.mem_map.1 he
    obtain ⟨b, hb, rfl⟩ := List.mem_map.1 he'
    rw [entryAt_id, entryAt_id] at hid
    subst hid
    exact I.core.apart et et' a ha hb

/-! ## The theorems -/

/-- **C77.** Every sequence of careful calls runs without a fault, and afterwards the memory holds exactly the lists of `Verif.Events.Model` (what `addListener` and `removeListener`
make of them) and exactly the references that the client and the entries hold. -/
theorem C77_history (cs : List Call) (hc : Spec.empty.AllCareful cs) : ∃ h, calls empty cs = .ok h ∧ Represents h (Spec.empty.steps cs) := by
  obtain ⟨h, L, e, S⟩ := Sim.empty.steps cs hc
  exact ⟨h, e, S.represents⟩

/-- **C77.** When every target has no listener any more and the client holds no reference, nothing is left in memory. -/
theorem C77_no_leak (cs : List Call) (hc : Spec.empty.AllCareful cs) (hl : ∀ et, (Spec.empty.steps cs).st.lists et = []) (hh : ∀ o, (Spec.empty.steps cs).held o = 0) :
    ∃ h, calls empty cs = .ok h ∧ (∀ a, h.cells a = none) ∧ (∀ o, h.objs o = none) ∧ ∀ et, h.heads et = none := by
  obtain ⟨h, L, e, S⟩ := Sim.empty.steps cs hc
  have R := S.represents
  have hcells : ∀ a, h.cells a = none := by
    intro a
    cases ha : h.cells a with
    | none => rfl
    | some c =>
      obtain ⟨et, x, hx, _⟩ := R.only a c ha
      rw [hl et] at hx; cases hx
  refine ⟨h, e, hcells, ?_, ?_⟩
  · intro o
    rw [R.refs, if_pos]
    rw [hh o]
    have : (List.range h.fresh).countP (fun a => (h.cells a).any fun c => c.listener == o) = 0 := by
      rw [List.countP_eq_zero]
      intro a _
      rw [hcells a]; simp
    omega
  · intro et
    rw [R.head et, hl et]; rfl

/-- **C77.** `list_has` finds an address exactly when it is an entry of the target's list. -/
theorem C77_has (cs : List Call) (hc : Spec.empty.AllCareful cs) (et : NodeId) (a : Nat) :
    ∃ h r, calls empty cs = .ok h ∧ listHas h (h.heads et) a = .ok r ∧ (r = true ↔ ∃ e ∈ (Spec.empty.steps cs).st.lists et, e.id = a) := by
  obtain ⟨h, L, e, S⟩ := Sim.empty.steps cs hc
  have I := S.inv
  refine ⟨h, decide (a ∈ L et), e, ?_, ?_⟩
  · rw [I.head et]
    cases hL : L et with
    | nil => rfl
    | cons p t =>
      have hlen := I.core.length et
      have C := I.core.circle et
      rw [hL] at hlen C
      exact hasLoop_run C a (h.fresh + 1) [] p t rfl (by simp) (by simp at hlen; omega)
  · rw [decide_eq_true_iff, S.lists et]
    constructor
    · intro ha
      exact ⟨_, List.mem_map.2 ⟨a, ha, rfl⟩, entryAt_id _ _⟩
    · rintro ⟨x, hx, rfl⟩
      obtain ⟨b, hb, rfl⟩ := List.mem_map.1 hx
      rw [entryAt_id]; exact hb

/-- A client that iterates to the end and keeps what it is handed. -/
def walk (et : NodeId) (type : Option DStr) (cap : Bool) : Nat → Heap → Option Nat → Out (Heap × List (Option Nat))
  | 0, _, _ => .fault .diverge
  | fuel + 1, h, cur => (iter h et type cap cur).bind fun r =>
    match r.2.1 with
    | none => .ok (r.1, [])
    | some a => (walk et type cap fuel r.1 (some a)).bind fun q => .ok (q.1, r.2.2 :: q.2)

theorem count_grant (K : Nat → Nat) (x : Option Nat) (l : List (Option Nat)) : (fun o => grant K x o + l.count (some o)) = fun o => K o + (x :: l).count (some o) := by
  funext o
  rw [List.count_cons]
  cases x with
  | none => simp [grant]
  | some y =>
    show (if o = y then K o + 1 else K o) + _ = _
    by_cases e : o = y
    · subst e; simp; omega
    · have e2 : ¬ y = o := fun h => e h.symm
      simp [e, e2]

theorem walk_run (ty : Option DStr) (cap : Bool) (l : List Entry) (hnd : (l.map Entry.id).Nodup) : ∀ (rest pre : List Entry) (fuel : Nat) (cur : Option Nat) (h : Heap) (s : Spec), Sim h L s →
    s.st.lists et = l → order l = pre ++ rest → rest.length < fuel → cur = pre.getLast?.map Entry.id →
    ∃ h', walk et ty cap fuel h cur = .ok (h', rest.map (handed ty cap)) ∧ Sim h' L { s with held := fun o => s.held o + (rest.map (handed ty cap)).count (some o) } := by
  intro rest
  have hndo : ((order l).map Entry.id).Nodup := by
    cases l with
    | nil => simp [order]
    | cons x l =>
      simp only [order, List.tail_cons, List.head?_cons, Option.toList_some, List.map_append, List.map_cons, List.map_nil]
      have : (l.map Entry.id ++ [x.id]).Perm (x.id :: l.map Entry.id) := List.perm_append_singleton _ _
      exact this.nodup_iff.2 (by simpa using hnd)
  induction rest with
  | nil =>
    intro pre fuel cur h s S hl ho hf hcur
    obtain ⟨f, rfl⟩ : ∃ f, fuel = f + 1 := ⟨fuel - 1, by omega⟩
    have hv : visit (s.st.lists et) cur = none := by
      rw [hl, hcur]
      rcases List.eq_nil_or_concat pre with rfl | ⟨q, x, rfl⟩
      · show (order l).head? = none
        rw [ho]; rfl
      · rw [List.concat_eq_append] at ho ⊢
        simp only [List.getLast?_append, List.getLast?_singleton, Option.some_or, Option.map_some]
        show ((order l).dropWhile _).tail.head? = none
        rw [ho, List.append_nil] at hndo
        rw [ho, List.append_nil, List.dropWhile_append_of_pos]
        · rw [List.dropWhile_cons_of_neg]
          · rfl
          · simp
        · intro y hy
          rw [List.map_append, List.nodup_append] at hndo
          simpa using hndo.2.2 y.id (List.mem_map.2 ⟨y, hy, rfl⟩) x.id (by simp)
    obtain ⟨h', e, S'⟩ := S.iter et ty cap cur (by
      intro a ha
      rw [ha] at hcur
      cases hg : pre.getLast? with
      | none => rw [hg] at hcur; cases hcur
      | some x =>
        rw [hg] at hcur
        have hax : a = x.id := by simpa using hcur
        have hx : x ∈ order l := by rw [ho]; simp [List.mem_of_getLast? hg]
        have hx2 : x ∈ l := by
          cases l with
          | nil => simp [order] at hx
          | cons y l => simpa [order, or_comm] using hx
        rw [← hl, S.lists et] at hx2
        obtain ⟨b, hb, rfl⟩ := List.mem_map.1 hx2
        rw [hax, entryAt_id]; exact hb)
    refine ⟨h', ?_, ?_⟩
    · unfold walk
      rw [e, hv]; rfl
    · have e2 : s.step (.iter et ty cap cur) = s := by
        show { s with held := grant s.held ((visit (s.st.lists et) cur).bind (handed ty cap)) } = s
        rw [hv]; rfl
      rw [e2] at S'
      simpa using S'
  | cons x rest ih =>
    intro pre fuel cur h s S hl ho hf hcur
    obtain ⟨f, rfl⟩ : ∃ f, fuel = f + 1 := ⟨fuel - 1, by omega⟩
    have hv : visit (s.st.lists et) cur = some x := by
      rw [hl, hcur]
      rcases List.eq_nil_or_concat pre with rfl | ⟨q, y, rfl⟩
      · show (order l).head? = some x
        rw [ho]; rfl
      · rw [List.concat_eq_append] at ho ⊢
        simp only [List.getLast?_append, List.getLast?_singleton, Option.some_or, Option.map_some]
        show ((order l).dropWhile _).tail.head? = some x
        rw [ho] at hndo
        rw [ho, List.append_assoc, List.dropWhile_append_of_pos]
        · rw [List.cons_append, List.dropWhile_cons_of_neg]
          · rfl
          · simp
        · intro z hz
          rw [List.append_assoc, List.map_append, List.nodup_append] at hndo
          simpa using hndo.2.2 z.id (List.mem_map.2 ⟨z, hz, rfl⟩) y.id (by simp)
    obtain ⟨h', e, S'⟩ := S.iter et ty cap cur (by
      intro a ha
      rw [ha] at hcur
      cases hg : pre.getLast? with
      | none => rw [hg] at hcur; cases hcur
      | some y =>
        rw [hg] at hcur
        have hax : a = y.id := by simpa using hcur
        have hx : y ∈ order l := by rw [ho]; simp [List.mem_of_getLast? hg]
        have hx2 : y ∈ l := by
          cases l with
          | nil => simp [order] at hx
          | cons y l => simpa [order, or_comm] using hx
        rw [← hl, S.lists et] at hx2
        obtain ⟨b, hb, rfl⟩ := List.mem_map.1 hx2
        rw [hax, entryAt_id]; exact hb)
    have e2 : s.step (.iter et ty cap cur) = { s with held := grant s.held (handed ty cap x) } := by
      show { s with held := grant s.held ((visit (s.st.lists et) cur).bind (handed ty cap)) } = _
      rw [hv]; rfl
    rw [e2] at S'
    obtain ⟨h2, e3, S3⟩ := ih (pre ++ [x]) f (some x.id) h' _ S' hl (by rw [ho]; simp) (by simp at hf; omega) (by simp)
    refine ⟨h2, ?_, ?_⟩
    · unfold walk
      rw [e, hv]
      show ((walk et ty cap f h' (some x.id)).bind fun q => .ok (q.1, handed ty cap x :: q.2)) = _
      rw [e3]; rfl
    · have := count_grant s.held (handed ty cap x) (rest.map (handed ty cap))
      rw [List.map_cons, ← this]
      exact S3

/-- **C77 (in part).** An iteration visits every entry of the target exactly once and ends; it hands out the listeners that are asked for, each with one more reference, which is the
client's, and changes nothing else.  Missing: it visits the entries in `order`, not in the order of the list; see `C77_iter_order_violated`. -/
theorem C77_iterate_partial (cs : List Call) (hc : Spec.empty.AllCareful cs) (et : NodeId) (ty : Option DStr) (cap : Bool) (fuel : Nat)
    (hf : ((Spec.empty.steps cs).st.lists et).length < fuel) :
    ∃ h h' out, calls empty cs = .ok h ∧ walk et ty cap fuel h none = .ok (h', out) ∧
      out = (order ((Spec.empty.steps cs).st.lists et)).map (handed ty cap) ∧ (order ((Spec.empty.steps cs).st.lists et)).Perm ((Spec.empty.steps cs).st.lists et) ∧
      Represents h' { Spec.empty.steps cs with held := fun o => (Spec.empty.steps cs).held o + out.count (some o) } := by
  obtain ⟨h, L, e, S⟩ := Sim.empty.steps cs hc
  have hp : (order ((Spec.empty.steps cs).st.lists et)).Perm ((Spec.empty.steps cs).st.lists et) := by
    cases (Spec.empty.steps cs).st.lists et with
    | nil => exact List.Perm.refl _
    | cons x l => exact List.perm_append_singleton _ _
  have hnd : (((Spec.empty.steps cs).st.lists et).map Entry.id).Nodup := by
    rw [S.lists et, List.map_map]
    have : (Entry.id ∘ entryAt h.cells) = id := by funext a; exact entryAt_id _ _
    rw [this, List.map_id]
    exact (S.inv.core.circle et).nodup
  obtain ⟨h', e', S'⟩ := walk_run (et := et) ty cap _ hnd (order ((Spec.empty.steps cs).st.lists et)) [] fuel none h _ S rfl rfl (by rw [hp.length_eq]; exact hf) rfl
  exact ⟨h, h', _, e, e', rfl, hp, S'.represents⟩

/-- **C77 (violated).** With more than one listener an iteration does not start at the first: for every careful sequence of calls that leaves the entries `x`, `y` and more in the list
of a target, the first step gives `y`. -/
theorem C77_iter_first_violated (cs : List Call) (hc : Spec.empty.AllCareful cs) (et : NodeId) {x y : Entry} {r : List Entry} (hl : (Spec.empty.steps cs).st.lists et = x :: y :: r)
    (cap : Bool) : ∃ h h', calls empty cs = .ok h ∧ iter h et none cap none = .ok (h', some y.id, some y.listener) ∧ y.id ≠ x.id := by
  obtain ⟨h, L, e, S⟩ := Sim.empty.steps cs hc
  obtain ⟨h', e', _⟩ := S.iter et none cap none (by intro a ha; cases ha)
  rw [hl] at e'
  refine ⟨h, h', e, e', ?_⟩
  have nd := (S.inv.core.circle et).nodup
  have hll := S.lists et
  rw [hl] at hll
  intro hid
  match hL : L et with
  | [] => rw [hL] at hll; cases hll
  | [a] => rw [hL] at hll; simp at hll
  | a :: b :: q =>
    rw [hL] at hll nd
    have h1 : x = entryAt h.cells a ∧ y = entryAt h.cells b := by
      simp only [List.map_cons, List.cons.injEq] at hll
      exact ⟨hll.1, hll.2.1⟩
    rw [h1.1, h1.2, entryAt_id, entryAt_id] at hid
    subst hid
    simp at nd

/-- Two listeners, registered on the target 0 in the order 0, 1. -/
def two : List Call := [.create, .create, .add 0 (Str.create [0x61]) 0 false, .add 0 (Str.create [0x62]) 1 false]

theorem two_careful : Spec.empty.AllCareful two := by
  refine ⟨trivial, trivial, ?_, ?_, trivial⟩
  · show 0 < 1; decide
  · show 0 < 1; decide

/-- **C77 (violated).** The order of an iteration is not the order of registration, in which dispatch calls them (C41). -/
theorem C77_iter_order_violated : ∃ cs, Spec.empty.AllCareful cs ∧ ((Spec.empty.steps cs).st.lists 0).map Entry.listener = [0, 1] ∧
    ((calls empty cs).bind fun h => (walk 0 none false 3 h none).bind fun r => .ok r.2) = .ok [some 1, some 0] :=
  ⟨two, two_careful, by decide +kernel, by decide +kernel⟩

/-- **C77 (violated).** The iteration reads the entry at which it stands: a client that removes the listener it was just handed and goes on uses an entry that was freed.  All calls
before the last one are careful. -/
theorem C77_iter_remove_violated : ∃ cs a, Spec.empty.AllCareful cs ∧
    ((calls empty cs).bind fun h => (iter h 0 none false none).bind fun r => .ok r.2) = .ok (some a, some 1) ∧
    Spec.empty.AllCareful (cs ++ [.iter 0 none false none, .remove 0 (some (Str.create [0x62])) 1 false]) ∧
    ((calls empty (cs ++ [.iter 0 none false none, .remove 0 (some (Str.create [0x62])) 1 false])).bind fun h => (iter h 0 none false (some a)).bind fun r => .ok r.2) =
      .fault .useAfterFree := by
  refine ⟨two, 1, two_careful, by decide +kernel, ?_, by decide +kernel⟩
  refine ⟨trivial, trivial, ?_, ?_, ?_, trivial, trivial⟩
  · show 0 < 1; decide
  · show 0 < 1; decide
  · intro a ha; cases ha

/-- A careful sequence: three entries on one target, one on another, the middle one removed, an iteration step, the other target finalised, everything given up. -/
def sample : List Call := [.create, .create, .add 0 (Str.create [0x61]) 0 false, .add 0 (Str.create [0x62]) 1 true, .add 0 (Str.create [0x61]) 1 false, .add 1 (Str.create [0x61]) 1 false,
  .unref 1, .remove 0 (some (Str.create [0x62])) 1 true, .iter 0 none false none, .finalise 1]

theorem sample_careful : Spec.empty.AllCareful sample := by
  refine ⟨trivial, trivial, ?_, ?_, ?_, ?_, ?_, trivial, ?_, trivial, trivial⟩
  · show 0 < 1; decide
  · show 0 < 1; decide
  · show 0 < 1; decide
  · show 0 < 1; decide
  · show 0 < 1; decide
  · intro a ha; cases ha

example : ∃ h, calls empty sample = .ok h ∧ Represents h (Spec.empty.steps sample) := C77_history sample sample_careful

/-- In the end the target 0 has the entries 2 and 0, in this order, the listener 1 is alive because of its entry and of no other. -/
example : ((Spec.empty.steps sample).st.lists 0).map Entry.id = [2, 0] ∧
    ((calls empty sample).bind fun h => .ok (h.heads 0, h.heads 1, h.objs 0, h.objs 1)) = .ok (some 2, none, some 3, some 1) := by
  constructor <;> decide +kernel

end Dom.Events.Ring
