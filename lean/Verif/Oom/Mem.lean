import Verif.Basic

/-!
# Memory that may run out

The rest of the model assumes that `malloc` never fails.  Here every request for memory may be refused:
a `Mem` carries the answers `room` to all requests to come, and nothing is assumed about them.  An object
is an address with a number of references; an object nobody holds is free.
-/
namespace Dom.Oom

/-- Not part of the code: the memory of the program, reduced to what `malloc`, `free` and the reference
counts of src/core/string.c and libwapcaplet make of it.  `room i` says whether the `i`-th request is
granted, `time` counts the requests made, `next` is the address the next granted request gets, and
`refs a` is the number of references to the object at `a` (0: not allocated, or freed). -/
structure Mem where
  room : Nat → Bool
  time : Nat
  next : Nat
  refs : Nat → Nat

/-- Not part of the code: how a call ends. -/
inductive Res (α : Type)
  | ok (a : α) (m : Mem)
  | fault (f : Fault)

/-- Not part of the code: a C function that works on the memory.  The error code it returns is part of its
result, as the C code goes on after a failed call to clean up. -/
abbrev M (α : Type) := Mem → Res α

/-- Sequencing: undefined behaviour ends the run. -/
def bind {α β : Type} (x : M α) (f : α → M β) : M β := fun m =>
  match x m with
  | .ok a m' => f a m'
  | .fault g => .fault g

instance : Monad M where
  pure a := fun m => .ok a m
  bind := bind

/-- Undefined behaviour. -/
def crash {α : Type} (f : Fault) : M α := fun _ => .fault f

/-- One request for memory: is it granted? -/
def ask : M Bool := fun m => .ok (m.room m.time) { m with time := m.time + 1 }

/-- A new object with one reference. -/
def fresh : M Nat := fun m =>
  .ok m.next { m with next := m.next + 1, refs := fun b => if b = m.next then 1 else m.refs b }

/-- `malloc`, `calloc`; also `lwc_intern_string` of libwapcaplet, which gives a reference to an interned
string or `lwc_error_oom`.  Simplified: two references to one interned string are two objects here. -/
def malloc : M (Option Nat) := do
  let ok ← ask
  if ok then
    let a ← fresh
    pure (some a)
  else
    pure none

/-- `dom_string_ref`, include/dom/core/string.h:25-30, `lwc_string_ref` and `dom_node_ref` of an object that
exists.  Simplified: the count does not wrap around. -/
def ref (a : Nat) : M Unit := fun m =>
  if m.refs a = 0 then .fault .useAfterFree
  else .ok () { m with refs := fun b => if b = a then m.refs b + 1 else m.refs b }

/-- `dom_string_unref`, include/dom/core/string.h:36-41, `lwc_string_unref`, and `free` of a block, which
has one reference. -/
def unref (a : Nat) : M Unit := fun m =>
  if m.refs a = 0 then .fault .useAfterFree
  else .ok () { m with refs := fun b => if b = a then m.refs b - 1 else m.refs b }

/-- A pointer variable or field: never written, `NULL`, or the address of an object. -/
inductive Cell
  | junk
  | null
  | ptr (a : Nat)
  deriving DecidableEq, Repr

/-- The address in a cell (0 if there is none; used on cells that have one). -/
def Cell.addr : Cell → Nat
  | .ptr a => a
  | _ => 0

/-- A call with a pointer that was never written is undefined. -/
def useCell {α : Type} (c : Cell) (atNull : M α) (at_ : Nat → M α) : M α :=
  match c with
  | .junk => crash .uninit
  | .null => atNull
  | .ptr a => at_ a

/-- `dom_string_unref(x)` where `x` may be `NULL`, include/dom/core/string.h:36-41. -/
def unrefCell (c : Cell) : M Unit := useCell c (pure ()) unref

/-- `dom_string_ref(x)` where `x` may be `NULL`, include/dom/core/string.h:25-30. -/
def refCell (c : Cell) : M Unit := useCell c (pure ()) ref

/-- `dom_string_create`, src/core/string.c:91-126, and `dom_string_create_interned`, :142-169: one request
for the string and one for its bytes (or the interned string), which live and die with the string. -/
def createString : M (Except Exc Nat) := do
  let s ← malloc
  match s with
  | none => pure (.error .noMem)
  | some s =>
    let ok ← ask
    if ok then pure (.ok s)
    else
      unref s
      pure (.error .noMem)

/-! ## Reasoning about runs -/

/-- The run does not fault, and its result and final memory satisfy `Q`. -/
def after {α : Type} (x : M α) (m : Mem) (Q : α → Mem → Prop) : Prop :=
  match x m with
  | .ok a m' => Q a m'
  | .fault _ => False

@[simp] theorem after_pure {α : Type} (a : α) (m : Mem) (Q : α → Mem → Prop) :
    after (pure a) m Q ↔ Q a m := Iff.rfl

theorem after_bind {α β : Type} (x : M α) (f : α → M β) (m : Mem) (Q : β → Mem → Prop) :
    after (x >>= f) m Q ↔ after x m (fun a m' => after (f a) m' Q) := by
  show after (bind x f) m Q ↔ _
  unfold after bind
  cases x m <;> exact Iff.rfl

theorem after_mono {α : Type} {x : M α} {m : Mem} {P Q : α → Mem → Prop} (h : after x m P)
    (hpq : ∀ a m', P a m' → Q a m') : after x m Q := by
  unfold after at *
  cases hx : x m with
  | ok a m' => rw [hx] at h; exact hpq a m' h
  | fault f => rw [hx] at h; exact h

theorem after_and {α : Type} {x : M α} {m : Mem} {P Q : α → Mem → Prop} (hp : after x m P)
    (hq : after x m Q) : after x m (fun a m' => P a m' ∧ Q a m') := by
  unfold after at *
  cases hx : x m with
  | ok a m' => rw [hx] at hp hq; exact ⟨hp, hq⟩
  | fault f => rw [hx] at hp; exact hp

theorem after_elim {α : Type} {x : M α} {m : Mem} {Q : α → Mem → Prop} (h : after x m Q) :
    ∃ a m', x m = .ok a m' ∧ Q a m' := by
  unfold after at h
  cases hx : x m with
  | ok a m' => rw [hx] at h; exact ⟨a, m', rfl, h⟩
  | fault f => rw [hx] at h; exact h.elim

theorem after_of_eq {α : Type} {x : M α} {m m' : Mem} {a : α} {Q : α → Mem → Prop} (h : x m = .ok a m')
    (hq : Q a m') : after x m Q := by
  unfold after; rw [h]; exact hq

theorem after_ite {α : Type} {c : Prop} [Decidable c] {x y : M α} {m : Mem} {Q : α → Mem → Prop} :
    after (if c then x else y) m Q ↔ (if c then after x m Q else after y m Q) := by
  split <;> exact Iff.rfl

/-! ## What is held -/

/-- **Specification.**  Compared with the counts `r`, the memory holds exactly one more reference for every
entry of `l`, and nothing beyond the address to be handed out next. -/
structure Holds (r : Nat → Nat) (l : List Nat) (m : Mem) : Prop where
  refs : ∀ a, m.refs a = r a + l.count a
  fresh : ∀ a, m.next ≤ a → m.refs a = 0

/-- **Specification.**  The memory is in order: nothing is held beyond the next address. -/
def Mem.Valid (m : Mem) : Prop := ∀ a, m.next ≤ a → m.refs a = 0

/-- **Specification.**  The next `k` requests from time `t` on are granted. -/
def Granted (room : Nat → Bool) (t k : Nat) : Prop := ∀ i, i < k → room (t + i) = true

/-- **Specification.**  From memory `m` on, the first request to be refused is number `k` (counted from 0). -/
def RefusedAt (m : Mem) (k : Nat) : Prop := Granted m.room m.time k ∧ m.room (m.time + k) = false

theorem Mem.Valid.holds {m : Mem} (h : m.Valid) : Holds m.refs [] m :=
  ⟨fun a => by simp, h⟩

theorem Holds.valid {r : Nat → Nat} {l : List Nat} {m : Mem} (h : Holds r l m) : m.Valid := h.fresh

theorem Holds.perm {r : Nat → Nat} {l l' : List Nat} {m : Mem} (h : Holds r l m) (hp : l.Perm l') :
    Holds r l' m :=
  ⟨fun a => by rw [h.refs a, hp.count_eq a], h.fresh⟩

theorem Holds.rebase {r : Nat → Nat} {l : List Nat} {m : Mem} (h : Holds r l m) : Holds m.refs [] m :=
  h.valid.holds

/-- What is held compared with an earlier memory is held compared with a still earlier one. -/
theorem Holds.trans {r : Nat → Nat} {l l' : List Nat} {m m' : Mem} (h : Holds r l m)
    (h' : Holds m.refs l' m') : Holds r (l' ++ l) m' :=
  ⟨fun a => by rw [h'.refs a, h.refs a, List.count_append]; omega, h'.fresh⟩

theorem Holds.refs_eq {r : Nat → Nat} {m : Mem} (h : Holds r [] m) : m.refs = r := by
  funext a; have := h.refs a; simpa using this

theorem granted_zero (room : Nat → Bool) (t : Nat) : Granted room t 0 := fun i hi => absurd hi (by omega)

theorem granted_one {room : Nat → Bool} {t : Nat} : Granted room t 1 ↔ room t = true := by
  constructor
  · intro h; simpa using h 0 (by omega)
  · intro h i hi
    have : i = 0 := by omega
    subst this; simpa using h

theorem granted_add {room : Nat → Bool} {t a b : Nat} :
    Granted room t (a + b) ↔ Granted room t a ∧ Granted room (t + a) b := by
  constructor
  · intro h
    refine ⟨fun i hi => h i (by omega), fun i hi => ?_⟩
    have := h (a + i) (by omega)
    rwa [← Nat.add_assoc] at this
  · rintro ⟨h1, h2⟩ i hi
    by_cases hia : i < a
    · exact h1 i hia
    · have := h2 (i - a) (by omega)
      rwa [show t + a + (i - a) = t + i by omega] at this

theorem granted_mono {room : Nat → Bool} {t a b : Nat} (h : Granted room t b) (hab : a ≤ b) :
    Granted room t a := fun i hi => h i (by omega)

theorem granted_refused {room : Nat → Bool} {t k j : Nat} (h : Granted room t k) (hr : room (t + j) = false) :
    k ≤ j := by
  refine Nat.le_of_not_lt fun hlt => ?_
  have := h j hlt
  rw [hr] at this; exact absurd this (by decide)

/-! ## The primitive calls -/

/-- What stays the same in every call: the answers to the requests. -/
def Same (m m' : Mem) : Prop := m'.room = m.room ∧ m.time ≤ m'.time

theorem ask_spec {r : Nat → Nat} {l : List Nat} {m : Mem} (h : Holds r l m) :
    after ask m (fun ok m' => Holds r l m' ∧ m'.room = m.room ∧ m'.time = m.time + 1 ∧
      ok = m.room m.time) :=
  ⟨⟨h.refs, h.fresh⟩, rfl, rfl, rfl⟩

theorem fresh_spec {r : Nat → Nat} {l : List Nat} {m : Mem} (h : Holds r l m) :
    after fresh m (fun a m' => Holds r (a :: l) m' ∧ m'.room = m.room ∧ m'.time = m.time) := by
  refine ⟨⟨fun b => ?_, fun b hb => ?_⟩, rfl, rfl⟩
  · show (if b = m.next then 1 else m.refs b) = _
    by_cases hb : b = m.next
    · rw [if_pos hb, hb]
      have h0 := h.fresh m.next (Nat.le_refl _)
      have h1 := h.refs m.next
      rw [List.count_cons_self]; omega
    · rw [if_neg hb, h.refs b, List.count_cons_of_ne (Ne.symm hb)]
  · show (if b = m.next then 1 else m.refs b) = 0
    have hb' : m.next + 1 ≤ b := hb
    rw [if_neg (by omega)]
    exact h.fresh b (by omega)

/-- `malloc`: refused, with nothing changed, or granted, with one new object. -/
theorem malloc_spec {r : Nat → Nat} {l : List Nat} {m : Mem} (h : Holds r l m) :
    after malloc m (fun o m' => m'.room = m.room ∧ m'.time = m.time + 1 ∧
      ((o = none ∧ Holds r l m' ∧ ¬ Granted m.room m.time 1) ∨
       (∃ a, o = some a ∧ Holds r (a :: l) m' ∧ Granted m.room m.time 1))) := by
  unfold malloc
  rw [after_bind]
  refine after_mono (ask_spec h) ?_
  rintro ok m1 ⟨h1, hr1, ht1, hok⟩
  rw [after_ite]
  split
  · rename_i ht
    rw [after_bind]
    refine after_mono (fresh_spec h1) ?_
    rintro a m2 ⟨h2, hr2, ht2⟩
    refine ⟨hr2.trans hr1, ht2.trans ht1, Or.inr ⟨a, rfl, h2, granted_one.mpr ?_⟩⟩
    rw [← hok]; exact ht
  · rename_i ht
    refine ⟨hr1, ht1, Or.inl ⟨rfl, h1, fun hg => ht ?_⟩⟩
    rw [hok]; exact granted_one.mp hg

theorem ref_spec {r : Nat → Nat} {l : List Nat} {m : Mem} {a : Nat} (h : Holds r l m)
    (ha : m.refs a ≠ 0) :
    after (ref a) m (fun _ m' => Holds r (a :: l) m' ∧ m'.room = m.room ∧ m'.time = m.time) := by
  unfold after ref
  rw [if_neg ha]
  refine ⟨⟨fun b => ?_, fun b hb => ?_⟩, rfl, rfl⟩
  · show (if b = a then m.refs b + 1 else m.refs b) = _
    by_cases hb : b = a
    · rw [if_pos hb, hb, h.refs a, List.count_cons_self]; omega
    · rw [if_neg hb, h.refs b, List.count_cons_of_ne (Ne.symm hb)]
  · show (if b = a then m.refs b + 1 else m.refs b) = 0
    have hb0 := h.fresh b hb
    have hne : ¬ b = a := fun e => ha (by rw [← e]; exact hb0)
    rw [if_neg hne]
    exact hb0

/-- Giving back a reference that is held. -/
theorem unref_spec {r : Nat → Nat} {l : List Nat} {m : Mem} {a : Nat} (h : Holds r (a :: l) m) :
    after (unref a) m (fun _ m' => Holds r l m' ∧ m'.room = m.room ∧ m'.time = m.time) := by
  have ha := h.refs a
  rw [List.count_cons_self] at ha
  unfold after unref
  rw [if_neg (by omega)]
  refine ⟨⟨fun b => ?_, fun b hb => ?_⟩, rfl, rfl⟩
  · show (if b = a then m.refs b - 1 else m.refs b) = _
    by_cases hb : b = a
    · rw [if_pos hb, hb]; omega
    · rw [if_neg hb, h.refs b, List.count_cons_of_ne (Ne.symm hb)]
  · show (if b = a then m.refs b - 1 else m.refs b) = 0
    have hb0 := h.fresh b hb
    split <;> omega

/-- Giving back a reference that is held, wherever it stands in the list. -/
theorem unref_mem {r : Nat → Nat} {l : List Nat} {m : Mem} {a : Nat} (h : Holds r l m) (ha : a ∈ l) :
    after (unref a) m (fun _ m' => Holds r (l.erase a) m' ∧ m'.room = m.room ∧ m'.time = m.time) :=
  unref_spec (h.perm (List.perm_cons_erase ha))

/-- Giving back a reference that was there before the call: one fewer than before. -/
theorem unref_old {m : Mem} {a : Nat} (hv : m.Valid) (ha : m.refs a ≠ 0) :
    after (unref a) m (fun _ m' => (∀ b, m'.refs b = if b = a then m.refs b - 1 else m.refs b) ∧
      m'.Valid ∧ m'.room = m.room ∧ m'.time = m.time) := by
  unfold after unref
  rw [if_neg ha]
  refine ⟨fun b => rfl, fun b hb => ?_, rfl, rfl⟩
  show (if b = a then m.refs b - 1 else m.refs b) = 0
  have hb0 := hv b hb
  split <;> omega

/-- A string: two requests; nothing stays behind if one of them is refused. -/
theorem createString_spec {r : Nat → Nat} {l : List Nat} {m : Mem} (h : Holds r l m) :
    after createString m (fun o m' => m'.room = m.room ∧
      ((o = .error .noMem ∧ Holds r l m' ∧ ¬ Granted m.room m.time 2) ∨
       (∃ a, o = .ok a ∧ Holds r (a :: l) m' ∧ Granted m.room m.time 2 ∧ m'.time = m.time + 2))) := by
  unfold createString
  rw [after_bind]
  refine after_mono (malloc_spec h) ?_
  rintro o m1 ⟨hr1, ht1, ⟨rfl, h1, hg⟩ | ⟨a, rfl, h1, hg⟩⟩
  · exact ⟨hr1, Or.inl ⟨rfl, h1, fun h2 => hg (granted_mono h2 (by omega))⟩⟩
  · dsimp only
    rw [after_bind]
    refine after_mono (ask_spec h1) ?_
    rintro ok m2 ⟨h2, hr2, ht2, hok⟩
    rw [hr1, ht1] at hok
    rw [after_ite]
    split
    · rename_i ht
      refine ⟨hr2.trans hr1, Or.inr ⟨a, rfl, h2, ?_, by omega⟩⟩
      exact (granted_add (a := 1) (b := 1)).mpr ⟨hg, granted_one.mpr (by rw [← hok]; exact ht)⟩
    · rename_i ht
      rw [after_bind]
      refine after_mono (unref_spec h2) ?_
      rintro _ m3 ⟨h3, hr3, ht3⟩
      refine ⟨hr3.trans (hr2.trans hr1), Or.inl ⟨rfl, h3, fun h4 => ht ?_⟩⟩
      rw [hok]
      exact granted_one.mp ((granted_add (a := 1) (b := 1)).mp h4).2

theorem unrefCell_ptr (a : Nat) : unrefCell (.ptr a) = unref a := rfl
theorem unrefCell_null : unrefCell .null = pure () := rfl

end Dom.Oom
