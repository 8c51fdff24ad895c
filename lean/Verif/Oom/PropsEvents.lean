import Verif.Oom.Events
import Verif.Oom.PropsDoctype
set_option linter.unusedSimpArgs false
set_option linter.unusedVariables false
/-!
# C102: events when memory may run out
-/
namespace Dom.Oom.Events

open Dom.Oom
open Dom.Oom.Chars (Str dispatchEvent Neutral eventCost grows dispatch_neutral)
open Dom.Oom.Doctype (Makes makes_seq pass)
open Dom.Events.Obj (Kind kinds typeNames)

/-! ## Specification -/

/-- **Specification.**  The names of the kinds of events. -/
def nameOf : Kind → String
  | .event => "Event"
  | .custom => "CustomEvent"
  | .ui => "UIEvent"
  | .text => "TextEvent"
  | .keyboard => "KeyboardEvent"
  | .mouse => "MouseEvent"
  | .multiWheel => "MouseMultiWheelEvent"
  | .wheel => "MouseWheelEvent"
  | .mutation => "MutationEvent"
  | .mutationName => "MutationNameEvent"

/-- **Specification.**  The kind of event for a type: the one of this name, otherwise a plain event. -/
def IsKind (type : List Nat) (k : Kind) : Prop := chars (nameOf k) = type ∨ (k = .event ∧ ∀ j, chars (nameOf j) ≠ type)

/-- **Specification.**  What an event holds: its block, and twice its empty string if it is a keyboard event. -/
def Complete (e : Event) : Prop := if e.kind = .keyboard then ∃ s, e.own = [s, s] else e.own = []

/-- **Specification.**  The requests for finding the kind. -/
def nameCost (interned : Bool) : Nat := if interned then 0 else 1

/-- **Specification.**  The requests for an event: its block and, for keyboard events, the empty string. -/
def kindCost (k : Kind) : Nat := if k = .keyboard then 3 else 1

/-- The objects of an event. -/
def held (e : Event) : List Nat := e.own ++ [e.block]

/-! ## Parts -/

variable {r : Nat → Nat} {l : List Nat} {m : Mem}

/-- The kind that the search finds. -/
def found (type : List Nat) : Kind := search type (typeNames.zip kinds)

theorem search_mem {type : List Nat} : ∀ {ps : List (String × Kind)}, (∀ p ∈ ps, p.1 = nameOf p.2) →
    chars (nameOf (search type ps)) = type ∨ (search type ps = .event ∧ ∀ p ∈ ps, chars p.1 ≠ type)
  | [], _ => Or.inr ⟨rfl, fun p hp => nomatch hp⟩
  | (n, k) :: ps, h => by
    unfold search
    by_cases hn : chars n = type
    · rw [if_pos hn]
      have := h (n, k) (by simp)
      dsimp only at this
      rw [← this]; exact Or.inl hn
    · rw [if_neg hn]
      rcases search_mem (ps := ps) (fun p hp => h p (by simp [hp])) with h1 | ⟨h1, h2⟩
      · exact Or.inl h1
      · refine Or.inr ⟨h1, fun p hp => ?_⟩
        rcases List.mem_cons.1 hp with rfl | hp
        · exact hn
        · exact h2 p hp

theorem table_names : ∀ p ∈ typeNames.zip kinds, p.1 = nameOf p.2 := by
  simp [typeNames, kinds, nameOf]

theorem table_full (k : Kind) : (nameOf k, k) ∈ typeNames.zip kinds := by
  cases k <;> simp [typeNames, kinds, nameOf]

theorem found_spec (type : List Nat) : IsKind type (found type) := by
  rcases search_mem (type := type) table_names with h | ⟨h1, h2⟩
  · exact Or.inl h
  · exact Or.inr ⟨h1, fun j => h2 _ (table_full j)⟩

theorem nameOf_inj {j k : Kind} (h : chars (nameOf j) = chars (nameOf k)) : j = k := by
  revert h; cases j <;> cases k <;> decide

theorem IsKind.unique {type : List Nat} {j k : Kind} (hj : IsKind type j) (hk : IsKind type k) : j = k := by
  rcases hj with hj | ⟨rfl, hj⟩ <;> rcases hk with hk | ⟨rfl, hk⟩
  · exact nameOf_inj (hj.trans hk.symm)
  · exact absurd hj (hk j)
  · exact absurd hk (hj k)
  · rfl

theorem createPlain_spec (k : Kind) (hk : k ≠ .keyboard) (h : Holds r l m) : Makes (createPlain k) r l m 1 held (fun e => e.kind = k ∧ Complete e) := by
  unfold createPlain Makes
  rw [after_bind]
  refine after_mono (malloc_spec h) ?_
  rintro o m1 ⟨hr1, ht1, ⟨rfl, h1, hg⟩ | ⟨b, rfl, h1, hg⟩⟩
  · exact ⟨hr1, Or.inl ⟨rfl, h1, hg⟩⟩
  · exact ⟨hr1, Or.inr ⟨_, rfl, ⟨rfl, by unfold Complete; rw [if_neg hk]⟩, h1, hg, ht1⟩⟩

/-- A keyboard event: nothing happens without a block; with it, it is made if the string is, and otherwise the block stays. -/
theorem createKeyboard_spec (h : Holds r l m) :
    after createKeyboard m (fun o m' => m'.room = m.room ∧
      ((o = .error .noMem ∧ ¬ Granted m.room m.time 1 ∧ Holds r l m') ∨
       (o = .error .noMem ∧ Granted m.room m.time 1 ∧ ¬ Granted m.room m.time 3 ∧ ∃ b, Holds r (b :: l) m') ∨
       (∃ e, o = .ok e ∧ e.kind = .keyboard ∧ Complete e ∧ Granted m.room m.time 3 ∧ m'.time = m.time + 3 ∧ Holds r (held e ++ l) m'))) := by
  unfold createKeyboard
  rw [after_bind]
  refine after_mono (malloc_spec h) ?_
  rintro o m1 ⟨hr1, ht1, ⟨rfl, h1, hg⟩ | ⟨b, rfl, h1, hg⟩⟩
  · exact ⟨hr1, Or.inl ⟨rfl, hg, h1⟩⟩
  · dsimp only
    unfold initKeyboard
    rw [after_bind]
    refine after_mono (createString_spec h1) ?_
    rw [hr1, ht1]
    rintro o m2 ⟨hr2, ⟨rfl, h2, hg2⟩ | ⟨s, rfl, h2, hg2, ht2⟩⟩
    · exact ⟨hr2, Or.inr (Or.inl ⟨rfl, hg, fun h3 => hg2 ((granted_add (a := 1) (b := 2)).1 h3).2, b, h2⟩)⟩
    · dsimp only
      rw [after_bind]
      refine after_mono (ref_live h2 (live_mem (by simp))) ?_
      rintro _ m3 ⟨h3, hr3, ht3⟩
      refine ⟨hr3.trans hr2, Or.inr (Or.inr ⟨_, rfl, rfl, ?_, (granted_add (a := 1) (b := 2)).2 ⟨hg, hg2⟩, by omega, h3⟩)⟩
      unfold Complete
      rw [if_pos rfl]
      exact ⟨s, rfl⟩

/-- The reference for the search: afterwards it is gone. -/
theorem intern_spec (interned : Bool) {β : Type} {f : M (Except Exc β)} {Q : Except Exc β → Mem → Prop} (h : Holds r l m)
    (hno : ∀ m1, Holds r l m1 → m1.room = m.room → ¬ Granted m.room m.time (nameCost interned) → Q (.error .noMem) m1)
    (hyes : ∀ m1, Holds r l m1 → m1.room = m.room → m1.time = m.time + nameCost interned → Granted m.room m.time (nameCost interned) → after f m1 Q) :
    after (internString interned >>= fun t => match t with
      | none => pure (.error .noMem)
      | some t => unref t >>= fun _ => f) m Q := by
  rw [after_bind]
  cases interned with
  | true =>
    show after (fresh >>= fun t => pure (some t)) m _
    rw [after_bind]
    refine after_mono (fresh_spec h) ?_
    rintro t m1 ⟨h1, hr1, ht1⟩
    show after (unref t >>= fun _ => f) m1 Q
    rw [after_bind]
    refine after_mono (unref_spec h1) ?_
    rintro _ m2 ⟨h2, hr2, ht2⟩
    exact hyes m2 h2 (hr2.trans hr1) (by rw [ht2, ht1]; rfl) (granted_zero _ _)
  | false =>
    show after malloc m _
    refine after_mono (malloc_spec h) ?_
    rintro o m1 ⟨hr1, ht1, ⟨rfl, h1, hg⟩ | ⟨t, rfl, h1, hg⟩⟩
    · exact hno m1 h1 hr1 hg
    · dsimp only
      rw [after_bind]
      refine after_mono (unref_spec h1) ?_
      rintro _ m2 ⟨h2, hr2, ht2⟩
      exact hyes m2 h2 (hr2.trans hr1) (by rw [ht2, ht1]; rfl) hg

theorem createEvent_eq (type : Str) (interned : Bool) : createEvent type interned = (internString interned >>= fun t => match t with
      | none => pure (.error .noMem)
      | some t => unref t >>= fun _ => createKind (found type.data)) := rfl

/-- Any kind but keyboard events. -/
theorem createEvent_spec (type : Str) (interned : Bool) (hk : found type.data ≠ .keyboard) (h : Holds r l m) :
    Makes (createEvent type interned) r l m (nameCost interned + 1) held (fun e => e.kind = found type.data ∧ Complete e) := by
  unfold Makes
  rw [createEvent_eq]
  refine intern_spec interned h (fun m1 h1 hr1 hg => ?_) (fun m1 h1 hr1 ht1 hg => ?_)
  · exact ⟨hr1, Or.inl ⟨rfl, h1, fun h' => hg (granted_mono h' (by omega))⟩⟩
  · unfold createKind
    rw [if_neg hk]
    refine after_mono (createPlain_spec (found type.data) hk h1) ?_
    rw [hr1, ht1]
    rintro o m2 ⟨hr2, ⟨rfl, h2, hg2⟩ | ⟨e, rfl, he, h2, hg2, ht2⟩⟩
    · exact ⟨hr2, Or.inl ⟨rfl, h2, fun h' => hg2 (granted_add.1 h').2⟩⟩
    · exact ⟨hr2, Or.inr ⟨e, rfl, he, h2, granted_add.2 ⟨hg, hg2⟩, by omega⟩⟩

theorem createEvent_keyboard (type : Str) (interned : Bool) (hk : found type.data = .keyboard) (h : Holds r l m) :
    after (createEvent type interned) m (fun o m' => m'.room = m.room ∧
      ((o = .error .noMem ∧ ¬ Granted m.room m.time (nameCost interned + 1) ∧ Holds r l m') ∨
       (o = .error .noMem ∧ Granted m.room m.time (nameCost interned + 1) ∧ ¬ Granted m.room m.time (nameCost interned + 3) ∧ ∃ b, Holds r (b :: l) m') ∨
       (∃ e, o = .ok e ∧ e.kind = .keyboard ∧ Complete e ∧ Granted m.room m.time (nameCost interned + 3) ∧ Holds r (held e ++ l) m'))) := by
  rw [createEvent_eq]
  refine intern_spec interned h (fun m1 h1 hr1 hg => ?_) (fun m1 h1 hr1 ht1 hg => ?_)
  · exact ⟨hr1, Or.inl ⟨rfl, fun h' => hg (granted_mono h' (by omega)), h1⟩⟩
  · unfold createKind
    rw [if_pos hk]
    refine after_mono (createKeyboard_spec h1) ?_
    rw [hr1, ht1]
    rintro o m2 ⟨hr2, ⟨rfl, hg2, h2⟩ | ⟨rfl, hg2, hg3, b, h2⟩ | ⟨e, rfl, he, hc, hg2, ht2, h2⟩⟩
    · exact ⟨hr2, Or.inl ⟨rfl, fun h' => hg2 (granted_add.1 h').2, h2⟩⟩
    · exact ⟨hr2, Or.inr (Or.inl ⟨rfl, granted_add.2 ⟨hg, hg2⟩, fun h' => hg3 (granted_add.1 h').2, b, h2⟩)⟩
    · exact ⟨hr2, Or.inr (Or.inr ⟨e, rfl, he, hc, granted_add.2 ⟨hg, hg2⟩, h2⟩)⟩

theorem frees_event (e : Event) : Frees (destroyEvent e) (held e) := (frees_all e.own).seq (Frees.one e.block)

theorem generic_neutral (x type : Nat) (hear : List Nat) : Neutral (generic (some x) (some type) true hear) (type :: hear) (eventCost hear.length) := by
  intro r l m h hx
  unfold generic
  dsimp only
  rw [after_bind]
  refine after_mono (createPlain_spec .event (by decide) h) ?_
  rintro o m1 ⟨hr1, ⟨rfl, h1, hg⟩ | ⟨e, rfl, ⟨_, he⟩, h1, hg, ht1⟩⟩
  · exact ⟨h1, hr1, Or.inr ⟨rfl, fun h' => hg (granted_mono h' (by unfold eventCost; omega))⟩⟩
  · dsimp only
    rw [after_bind]
    refine after_mono (refOpt_spec (o := some type) h1 (fun a ha => by cases ha; exact live_mono (hx type (by simp)))) ?_
    rintro _ m2 ⟨h2, hr2, ht2⟩
    rw [after_bind]
    show after (dispatchEvent hear) m2 _
    refine after_mono (dispatch_neutral hear r _ m2 h2 fun a ha => live_mono (live_mono (hx a (by simp [ha])))) ?_
    rintro x m3 ⟨h3, hr3, hc⟩
    rw [after_bind]
    refine after_mono (frees_opt (some type) r _ m3 h3) ?_
    rintro _ m4 ⟨h4, hr4, ht4⟩
    rw [after_bind]
    refine after_mono (frees_event e r _ m4 h4) ?_
    rintro _ m5 ⟨h5, hr5, ht5⟩
    rw [ht2, ht1, hr2, hr1] at hc
    refine ⟨h5, by rw [hr5, hr4, hr3, hr2, hr1], ?_⟩
    rcases hc with ⟨rfl, hg2, ht3⟩ | ⟨rfl, hg2⟩
    · exact Or.inl ⟨rfl, granted_add.2 ⟨hg, hg2⟩, by rw [ht5, ht4, ht3]; unfold eventCost; omega⟩
    · exact Or.inr ⟨rfl, fun h' => hg2 (granted_add.1 h').2⟩

/-! ## C102 -/

/-- **C102, creation.**  Whatever requests are refused, `createEvent` with any type but that of keyboard events does not run into undefined behaviour; it makes a complete event of the kind
of that name (of any other name: a plain event), which holds one block and nothing else, if its requests are granted; otherwise it answers NO_MEM_ERR and every count is what it was.

`_partial`: false of keyboard events, see `C102_keyboard_violated`. -/
theorem C102_create_partial (type : Str) (interned : Bool) (hk : ¬ IsKind type.data .keyboard) (m : Mem) (hm : m.Valid) :
    ∃ o m', createEvent type interned m = .ok o m' ∧
      ((o = .error .noMem ∧ m'.refs = m.refs ∧ ¬ Granted m.room m.time (nameCost interned + 1)) ∨
       (∃ e, o = .ok e ∧ IsKind type.data e.kind ∧ e.own = [] ∧ Holds m.refs [e.block] m' ∧ Granted m.room m.time (nameCost interned + 1))) := by
  have hf : found type.data ≠ .keyboard := fun h => hk (h ▸ found_spec type.data)
  obtain ⟨o, m', e, _, hc⟩ := after_elim (createEvent_spec type interned hf hm.holds)
  refine ⟨o, m', e, ?_⟩
  rcases hc with ⟨rfl, h, hg⟩ | ⟨x, rfl, ⟨h1, h2⟩, h, hg, _⟩
  · exact Or.inl ⟨rfl, h.refs_eq, hg⟩
  · have ho : x.own = [] := by
      unfold Complete at h2
      rwa [if_neg (by rw [h1]; exact hf)] at h2
    refine Or.inr ⟨x, rfl, h1 ▸ found_spec type.data, ho, ?_, hg⟩
    rw [List.append_nil] at h
    unfold held at h
    rwa [ho] at h

/-- **C102, keyboard events.**  A keyboard event is made if all requests are granted: a block, and one empty string, to which it has two references; if the block is refused, every count
is what it was.  `_partial`: see `C102_keyboard_violated` for the rest. -/
theorem C102_keyboard_partial (type : Str) (interned : Bool) (hk : IsKind type.data .keyboard) (m : Mem) (hm : m.Valid)
    (hg : Granted m.room m.time (nameCost interned + 3) ∨ ¬ Granted m.room m.time (nameCost interned + 1)) :
    ∃ o m', createEvent type interned m = .ok o m' ∧
      ((o = .error .noMem ∧ m'.refs = m.refs ∧ ¬ Granted m.room m.time (nameCost interned + 1)) ∨
       (∃ e s, o = .ok e ∧ e.kind = .keyboard ∧ e.own = [s, s] ∧ Holds m.refs [s, s, e.block] m' ∧ Granted m.room m.time (nameCost interned + 3))) := by
  have hf : found type.data = .keyboard := (found_spec type.data).unique hk
  obtain ⟨o, m', e, _, hc⟩ := after_elim (createEvent_keyboard type interned hf hm.holds)
  refine ⟨o, m', e, ?_⟩
  rcases hc with ⟨rfl, hg', h⟩ | ⟨rfl, hg1, hg3, _⟩ | ⟨x, rfl, hx, h2, hg', h⟩
  · exact Or.inl ⟨rfl, h.refs_eq, hg'⟩
  · rcases hg with h | h
    · exact absurd h hg3
    · exact absurd hg1 h
  · unfold Complete at h2
    rw [if_pos hx] at h2
    obtain ⟨s, hs⟩ := h2
    refine Or.inr ⟨x, s, rfl, hx, hs, ?_, hg'⟩
    rw [List.append_nil] at h
    unfold held at h
    rwa [hs] at h

/-- **C102 is false of keyboard events**: if the block is granted and the empty string is refused, `createEvent` answers NO_MEM_ERR and the block stays allocated
(keyboard_event.c:23-32 does not free it), although no event was made that could be destroyed. -/
theorem C102_keyboard_violated (type : Str) (interned : Bool) (hk : IsKind type.data .keyboard) (m : Mem) (hm : m.Valid)
    (hg : Granted m.room m.time (nameCost interned + 1)) (hno : ¬ Granted m.room m.time (nameCost interned + 3)) :
    ∃ b m', createEvent type interned m = .ok (.error .noMem) m' ∧ (∀ a, m'.refs a = m.refs a + if a = b then 1 else 0) ∧ m'.refs ≠ m.refs := by
  have hf : found type.data = .keyboard := (found_spec type.data).unique hk
  obtain ⟨o, m', e, _, hc⟩ := after_elim (createEvent_keyboard type interned hf hm.holds)
  rcases hc with ⟨rfl, hg', h⟩ | ⟨rfl, _, _, b, h⟩ | ⟨x, rfl, hx, h2, hg', h⟩
  · exact absurd hg hg'
  · have hb : ∀ a, m'.refs a = m.refs a + if a = b then 1 else 0 := by
      intro a
      rw [h.refs a, List.count_singleton]
      by_cases hab : a = b
      · simp [hab]
      · rw [if_neg hab, if_neg (by simpa using fun h => hab h.symm)]
    refine ⟨b, m', e, hb, fun hc => ?_⟩
    have := hb b
    rw [hc, if_pos rfl] at this
    omega
  · exact absurd hg' hno

/-- Events are created one after the other; those that exist in the end, the last one first. -/
def creates : List (Str × Bool) → List Event → M (List Event)
  | [], es => pure es
  | (t, i) :: ts, es => do
    let o ← createEvent t i
    match o with
    | .ok e => creates ts (e :: es)
    | .error _ => creates ts es

/-- All of them are destroyed. -/
def destroyAll : List Event → M Unit
  | [] => pure ()
  | e :: es => do
    destroyEvent e
    destroyAll es

theorem frees_events : ∀ es : List Event, Frees (destroyAll es) (es.flatMap held)
  | [] => Frees.none
  | e :: es => (frees_event e).seq (frees_events es)

theorem creates_spec : ∀ (ts : List (Str × Bool)) (es : List Event) (m : Mem), (∀ t ∈ ts, found t.1.data ≠ .keyboard) → Holds r (es.flatMap held) m →
    after (creates ts es) m (fun es' m' => Holds r (es'.flatMap held) m')
  | [], es, m, _, h => h
  | (t, i) :: ts, es, m, hk, h => by
    unfold creates
    rw [after_bind]
    refine after_mono (createEvent_spec t i (hk (t, i) (by simp)) h) ?_
    have hk' : ∀ t ∈ ts, found t.1.data ≠ .keyboard := fun t ht => hk t (by simp [ht])
    rintro o m1 ⟨_, ⟨rfl, h1, _⟩ | ⟨e, rfl, _, h1, _⟩⟩
    · exact creates_spec ts es m1 hk' h1
    · exact creates_spec ts (e :: es) m1 hk' h1

/-- **C102, life.**  However many events are created, and whatever requests are refused meanwhile: when the events that came into being have been destroyed, every count is what it was.
`_partial`: no keyboard events. -/
theorem C102_life_partial (ts : List (Str × Bool)) (hk : ∀ t ∈ ts, ¬ IsKind t.1.data .keyboard) (m : Mem) (hm : m.Valid) :
    ∃ es m1 m2, creates ts [] m = .ok es m1 ∧ destroyAll es m1 = .ok () m2 ∧ m2.refs = m.refs := by
  obtain ⟨es, m1, e1, h1⟩ := after_elim (creates_spec (r := m.refs) ts [] m (fun t ht h => hk t ht (h ▸ found_spec t.1.data)) hm.holds)
  obtain ⟨_, m2, e2, h2, _⟩ := after_elim (frees_events es m.refs [] m1 (by rwa [List.append_nil]))
  exact ⟨es, m1, m2, e1, e2, h2.refs_eq⟩

/-- **C102, events of methods.**  `blur`, `focus`, `select`, `click`, `submit` and `reset`, whatever number of nodes above the element listen: the event makes its requests and no more, leaves every
count as it was, and the answer is NO_MEM_ERR exactly if a request is refused. -/
theorem C102_method (ele type : Nat) (hear : List Nat) (m : Mem) (hm : m.Valid) (hl : ∀ a ∈ type :: hear, 0 < m.refs a) :
    ∃ e m', generic (some ele) (some type) true hear m = .ok e m' ∧ m'.refs = m.refs ∧ (e = none ∨ e = some .noMem) ∧ (e = none ↔ Granted m.room m.time (eventCost hear.length)) := by
  obtain ⟨e, m', hx, h, -, hc⟩ := after_elim (generic_neutral ele type hear m.refs [] m hm.holds fun a ha => Nat.lt_of_lt_of_le (hl a ha) (Nat.le_add_right _ _))
  refine ⟨e, m', hx, h.refs_eq, hc.imp (·.1) (·.1), ?_⟩
  rcases hc with ⟨rfl, hg, -⟩ | ⟨rfl, hg⟩
  · exact ⟨fun _ => hg, fun _ => rfl⟩
  · exact ⟨fun h => absurd h (by simp), fun h => absurd h hg⟩

/-- **C102, targets outside of documents and events without type.**  The event is made and destroyed, which needs one request, and every count stays.  If the request is granted, an event without type is
refused with UNSPECIFIED_EVENT_TYPE_ERR whatever its target, and a target without document hears nothing, without an error. -/
theorem C102_idle (ele : Nat) (type : Option Nat) (owned : Bool) (hear : List Nat) (hidle : type = none ∨ owned = false) (m : Mem) (hm : m.Valid) (hl : ∀ a, type = some a → 0 < m.refs a) :
    ∃ e m', generic (some ele) type owned hear m = .ok e m' ∧ m'.refs = m.refs ∧ (e = some .noMem ↔ ¬ Granted m.room m.time 1) ∧
      (Granted m.room m.time 1 → m'.time = m.time + 1 ∧ (e = some .unspecifiedEventType ↔ type = none) ∧ (e = none ↔ type ≠ none)) := by
  refine after_elim (x := generic (some ele) type owned hear) (Q := fun e m' => m'.refs = m.refs ∧ (e = some .noMem ↔ ¬ Granted m.room m.time 1) ∧
      (Granted m.room m.time 1 → m'.time = m.time + 1 ∧ (e = some .unspecifiedEventType ↔ type = none) ∧ (e = none ↔ type ≠ none))) ?_
  unfold generic
  dsimp only
  rw [after_bind]
  refine after_mono (createPlain_spec .event (by decide) hm.holds) ?_
  rintro o m1 ⟨hr1, ⟨rfl, h1, hg⟩ | ⟨e, rfl, ⟨_, he⟩, h1, hg, ht1⟩⟩
  · exact ⟨h1.refs_eq, ⟨fun _ => hg, fun _ => rfl⟩, fun h => absurd h hg⟩
  · dsimp only
    rw [after_bind]
    refine after_mono (refOpt_spec h1 (fun a ha => Nat.lt_of_lt_of_le (hl a ha) (Nat.le_add_right _ _))) ?_
    rintro _ m2 ⟨h2, hr2, ht2⟩
    rw [after_bind]
    have hdis : dispatch type owned hear = pure (if type = none then some .unspecifiedEventType else none) := by
      unfold dispatch
      split
      · rfl
      · rename_i ht
        rcases hidle with h | h
        · exact absurd h ht
        · rw [h]; rfl
    rw [hdis]
    show after (unrefOpt type >>= _) m2 _
    rw [after_bind]
    refine after_mono (frees_opt type m.refs _ m2 h2) ?_
    rintro _ m4 ⟨h4, hr4, ht4⟩
    rw [after_bind]
    refine after_mono (frees_event e m.refs _ m4 h4) ?_
    rintro _ m5 ⟨h5, hr5, ht5⟩
    refine ⟨h5.refs_eq, ?_, fun _ => ⟨by rw [ht5, ht4, ht2, ht1], ?_⟩⟩
    · cases type <;> simp [hg]
    · cases type <;> simp

/-- **C102, clicks.**  A click on an input element checks it if memory suffices; otherwise the answer is NO_MEM_ERR and the element is checked only if it was before.  Every count stays. -/
theorem C102_click (ele type : Nat) (hear : List Nat) (checked : Bool) (m : Mem) (hm : m.Valid) (hl : ∀ a ∈ type :: hear, 0 < m.refs a) :
    ∃ e b m', click ele type hear checked m = .ok (e, b) m' ∧ m'.refs = m.refs ∧ (e = none ↔ Granted m.room m.time (eventCost hear.length)) ∧
      (b = true ↔ (checked = true ∨ e = none)) := by
  obtain ⟨e, m', h1, h2, _, h3⟩ := C102_method ele type hear m hm hl
  cases e with
  | none => exact ⟨none, true, m', by unfold click; show bind _ _ m = _; unfold bind; rw [h1]; rfl, h2, h3, by simp⟩
  | some e => exact ⟨some e, checked, m', by unfold click; show bind _ _ m = _; unfold bind; rw [h1]; rfl, h2, h3, by simp⟩

/-! ## Cases -/

/-- A memory with the string 0, the node 1 and nothing else. -/
def plenty : Mem := { room := fun _ => true, time := 0, next := 2, refs := fun a => if a < 2 then 1 else 0 }

/-- As before, but the request number `k` is refused. -/
def tight (k : Nat) : Mem := { plenty with room := fun i => i != k }

theorem tight_valid (k : Nat) : (tight k).Valid := fun a ha => by
  have : ¬ a < 2 := Nat.not_lt.2 ha
  simp [tight, plenty, this]

/-- How a creation ends: the error, or the kind and the strings; the counts of the first six addresses. -/
def shows (type : String) (interned : Bool) (m : Mem) : Option (Option Exc × Option (Kind × List Nat) × List Nat) :=
  match createEvent { addr := 0, data := chars type } interned m with
  | .ok (.ok e) m' => some (none, some (e.kind, e.own), (List.range 6).map m'.refs)
  | .ok (.error x) m' => some (some x, none, (List.range 6).map m'.refs)
  | .fault _ => none

/-- Creations with and without enough memory, and a click with one listening node above that fails for want of memory: the hypotheses of C102 are met. -/
theorem C102_cases :
    shows "MouseEvent" false plenty = some (none, some (.mouse, []), [1, 1, 0, 1, 0, 0]) ∧
    shows "Click" false plenty = some (none, some (.event, []), [1, 1, 0, 1, 0, 0]) ∧
    shows "MouseEvent" false (tight 1) = some (some .noMem, none, [1, 1, 0, 0, 0, 0]) ∧
    shows "KeyboardEvent" true plenty = some (none, some (.keyboard, [4, 4]), [1, 1, 0, 1, 2, 0]) ∧
    shows "KeyboardEvent" true (tight 2) = some (some .noMem, none, [1, 1, 0, 1, 0, 0]) ∧
    (tight 2).Valid ∧ Granted (tight 2).room 0 2 ∧ ¬ Granted (tight 2).room 0 4 ∧
    (∃ m', click 5 0 [1] false (tight 1) = .ok (some .noMem, false) m') ∧ (∃ m', click 5 0 [1] false plenty = .ok (none, true) m') ∧
    (∃ m', generic (some 5) none true [1] plenty = .ok (some .unspecifiedEventType) m') ∧ (∃ m', generic (some 5) (some 0) false [1] plenty = .ok none m') := by
  refine ⟨by decide +kernel, by decide +kernel, by decide +kernel, by decide +kernel, by decide +kernel, tight_valid 2, ?_, ?_, ⟨_, rfl⟩, ⟨_, rfl⟩, ⟨_, rfl⟩, ⟨_, rfl⟩⟩
  · intro i hi
    have : i ≠ 2 := by omega
    simpa [tight, plenty] using this
  · intro h
    have := h 2 (by omega)
    simp [tight] at this

end Dom.Oom.Events
