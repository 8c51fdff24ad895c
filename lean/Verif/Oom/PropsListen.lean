import Verif.Oom.Listen
import Verif.Oom.PropsLists
set_option linter.unusedSimpArgs false
set_option linter.unusedVariables false
/-!
# C106: event listeners when memory may run out
-/
namespace Dom.Oom.Listen

open Dom.Oom
open Dom.Oom.Chars (Str)
open Dom.Oom.Lists (equal letters text_letters)

variable {r : Nat → Nat} {m : Mem}

/-! ## Specification -/

/-- **Specification.**  What an entry holds: its block, its listener and its type. -/
def held (e : Entry) : List Nat := e.block :: e.listener :: (e.type.map (·.addr)).toList

/-- **Specification.**  The registrations that a removal is about: with a type, those with this type, this listener and this phase; without, all of this listener. -/
def About (type : Option Str) (listener : Nat) (capture : Bool) (e : Entry) : Prop :=
  e.listener = listener ∧ (type = none ∨ (letters e.type = letters type ∧ e.capture = capture))

/-- A client: the entries of the target, and the references to listeners that the client has. -/
structure Client where
  entries : List Entry
  own : List Nat

/-- What a client does: it creates a listener, gives a reference to a listener back, registers a listener it has, or removes a registration, also of a listener that it has no reference to. -/
inductive Op
  | create
  | forget (a : Nat)
  | add (type : Option Str) (a : Nat) (capture : Bool)
  | remove (type : Option Str) (a : Nat) (capture : Bool)

/-- One operation. -/
def step (c : Client) : Op → M (Option Exc × Client)
  | .create => do
    let x ← create
    pure (match x with
      | .ok a => (none, { c with own := a :: c.own })
      | .error e => (some e, c))
  | .forget a => if a ∈ c.own then do
      unref a
      pure (none, { c with own := c.own.erase a })
    else pure (none, c)
  | .add t a p => if a ∈ c.own then do
      let x ← add t a p c.entries
      pure (x.1, { c with entries := x.2 })
    else pure (none, c)
  | .remove t a p => do
    let es ← remove t a p c.entries
    pure (none, { c with entries := es })

/-- A history. -/
def run : List Op → Client → M Client
  | [], c => pure c
  | o :: os, c => do
    let x ← step c o
    run os x.2

/-- **Specification.**  The types that are passed are alive. -/
def Alive (r : Nat → Nat) (os : List Op) : Prop := ∀ t a p s, Op.add t a p ∈ os → t = some s → 0 < r s.addr

/-- **Specification.**  Compared with the counts `r`, exactly the references of the client to listeners and what the entries hold is held. -/
def Good (r : Nat → Nat) (c : Client) (m : Mem) : Prop := Holds r (c.own ++ c.entries.flatMap held) m

/-! ## Parts -/

theorem fits_iff {t : Option Str} {a : Nat} {p : Bool} {e : Entry} : fits t a p e = true ↔ About t a p e := by
  unfold fits About
  cases t with
  | none => simp
  | some s => simp [equal, text_letters]; exact ⟨fun ⟨⟨h1, h2⟩, h3⟩ => ⟨h2, h1, h3⟩, fun ⟨h2, h1, h3⟩ => ⟨⟨h1, h2⟩, h3⟩⟩

theorem frees_drop (e : Entry) : Frees (drop e) (held e) := by
  have := (Frees.one e.listener).seq ((frees_opt (e.type.map (·.addr))).seq (Frees.one e.block))
  refine this.perm ?_
  rw [List.perm_iff_count]
  intro x
  simp only [held, List.count_append, List.count_cons, List.count_nil]
  omega

theorem frees_finalise : ∀ es : List Entry, Frees (finalise es) (es.flatMap held)
  | [] => .none
  | e :: es => by
    rw [List.flatMap_cons]
    exact (frees_drop e).seq (frees_finalise es)

theorem add_spec {t : Option Str} {a : Nat} {p : Bool} {es : List Entry} {l : List Nat} (ht : ∀ s, t = some s → 0 < r s.addr) (ha : a ∈ l) (h : Holds r (l ++ es.flatMap held) m) :
    after (add t a p es) m (fun x m' => m'.room = m.room ∧ m'.time = m.time + 1 ∧
      ((x = (some .noMem, es) ∧ ¬ Granted m.room m.time 1 ∧ m'.refs = m.refs ∧ Holds r (l ++ es.flatMap held) m') ∨
       (∃ b, x = (none, es ++ [⟨b, t, a, p⟩]) ∧ Granted m.room m.time 1 ∧ Holds r (l ++ (es ++ [(⟨b, t, a, p⟩ : Entry)]).flatMap held) m'))) := by
  unfold add
  rw [after_bind]
  refine after_mono (malloc_spec h) ?_
  rintro o m1 ⟨hr1, ht1, ⟨rfl, h1, hg⟩ | ⟨b, rfl, h1, hg⟩⟩
  · refine ⟨hr1, ht1, Or.inl ⟨rfl, hg, ?_, h1⟩⟩
    funext x
    rw [h1.refs, h.refs]
  · dsimp only
    rw [after_bind]
    refine after_mono (refOpt_spec h1 (fun x hx => ?_)) ?_
    · cases t with
      | none => cases hx
      | some s => cases hx; exact Nat.lt_of_lt_of_le (ht s rfl) (Nat.le_add_right _ _)
    · rintro _ m2 ⟨h2, hr2, ht2⟩
      rw [after_bind]
      refine after_mono (ref_live h2 ?_) ?_
      · have : 0 < ((t.map (·.addr)).toList ++ b :: (l ++ es.flatMap held)).count a := List.count_pos_iff.2 (by simp [ha])
        omega
      · rintro _ m3 ⟨h3, hr3, ht3⟩
        refine ⟨by rw [hr3, hr2, hr1], by rw [ht3, ht2, ht1], Or.inr ⟨b, rfl, hg, h3.perm ?_⟩⟩
        rw [List.perm_iff_count]
        intro x
        simp only [held, List.flatMap_append, List.flatMap_cons, List.flatMap_nil, List.count_append, List.count_cons, List.count_nil]
        omega

theorem removeLoop_spec {t : Option Str} {a : Nat} {p : Bool} {l : List Nat} : ∀ (es seen : List Entry) (m : Mem), (∀ e ∈ seen, ¬ About t a p e) → Holds r (l ++ (seen ++ es).flatMap held) m →
    after (removeLoop t a p seen es) m (fun es' m' => m'.room = m.room ∧ m'.time = m.time ∧ Holds r (l ++ es'.flatMap held) m' ∧
      ((es' = seen ++ es ∧ m'.refs = m.refs ∧ ∀ e ∈ seen ++ es, ¬ About t a p e) ∨ (∃ e, About t a p e ∧ (seen ++ es).Perm (e :: es'))))
  | [], seen, m, hs, h => ⟨rfl, rfl, by rw [List.append_nil] at h; exact h, Or.inl ⟨by simp, rfl, by simpa using hs⟩⟩
  | e :: es, seen, m, hs, h => by
    unfold removeLoop
    rw [after_ite]
    split
    · rename_i hf
      rw [after_bind]
      have hp : (seen ++ e :: es).Perm (e :: (es ++ seen)) := List.perm_middle.trans (List.perm_append_comm.cons e)
      have hh : Holds r (held e ++ (l ++ (es ++ seen).flatMap held)) m := by
        refine h.perm ?_
        refine ((hp.flatMap_right held).append_left l).trans ?_
        rw [List.flatMap_cons, ← List.append_assoc, ← List.append_assoc]
        exact List.perm_append_comm.append_right _
      refine after_mono (frees_drop e r _ m hh) ?_
      rintro _ m1 ⟨h1, hr1, ht1⟩
      exact ⟨hr1, ht1, h1, Or.inr ⟨e, fits_iff.1 hf, hp⟩⟩
    · rename_i hf
      have := removeLoop_spec es (seen ++ [e]) m (fun x hx => by
        rcases List.mem_append.1 hx with hx | hx
        · exact hs x hx
        · have : x = e := by simpa using hx
          rw [this]
          exact fun h => hf (fits_iff.2 h)) (by rw [List.append_assoc seen]; exact h)
      rw [List.append_assoc seen] at this
      exact this

theorem step_good {c : Client} {o : Op} (ha : ∀ t a p s, o = .add t a p → t = some s → 0 < r s.addr) (h : Good r c m) : after (step c o) m (fun x m' => Good r x.2 m') := by
  cases o with
  | create =>
    unfold step create
    rw [after_bind, after_bind]
    refine after_mono (malloc_spec h) ?_
    rintro o m1 ⟨_, _, ⟨rfl, h1, _⟩ | ⟨b, rfl, h1, _⟩⟩
    · exact h1
    · exact h1
  | forget a =>
    unfold step
    rw [after_ite]
    split
    · rename_i hb
      rw [after_bind]
      have hh : Holds r (a :: (c.own.erase a ++ c.entries.flatMap held)) m := Holds.perm h ((List.perm_cons_erase hb).append_right _)
      refine after_mono (unref_spec hh) ?_
      rintro _ m1 ⟨h1, _⟩
      exact h1
    · exact h
  | add t a p =>
    unfold step
    rw [after_ite]
    split
    · rename_i hb
      rw [after_bind]
      refine after_mono (add_spec (fun s hs => ha t a p s rfl hs) hb h) ?_
      rintro x m1 ⟨_, _, ⟨rfl, _, _, h1⟩ | ⟨b, rfl, _, h1⟩⟩
      · exact h1
      · exact h1
    · exact h
  | remove t a p =>
    unfold step remove
    rw [after_bind]
    refine after_mono (removeLoop_spec c.entries [] m (fun e he => (nomatch he)) h) ?_
    rintro es m1 ⟨_, _, h1, _⟩
    exact h1

theorem run_good : ∀ (os : List Op) (c : Client) (m : Mem), Alive r os → Good r c m → after (run os c) m (fun c' m' => Good r c' m')
  | [], c, m, _, h => h
  | o :: os, c, m, ha, h => by
    unfold run
    rw [after_bind]
    refine after_mono (step_good (fun t a p s e hs => ha t a p s (by simp [e]) hs) h) ?_
    intro x m1 h1
    exact run_good os x.2 m1 (fun t a p s e hs => ha t a p s (by simp [e]) hs) h1

/-! ## C106 -/

/-- **C106, accounts.**  Whatever listeners a client creates, forgets, registers and removes, in any order, and whatever requests are refused: nothing is used after it was freed, and exactly the client's references
and the entries with their listeners and types are held. -/
theorem C106_accounts (os : List Op) (m : Mem) (hm : m.Valid) (ha : Alive m.refs os) : ∃ c m', run os { entries := [], own := [] } m = .ok c m' ∧ Good m.refs c m' :=
  after_elim (run_good os _ m ha hm.holds)

/-- **C106, registration.**  After any history, registering a listener that the client has makes one request.  If it is granted there is one more entry, the last, with type, listener and phase; otherwise the answer
is NO_MEM_ERR and nothing has changed. -/
theorem C106_add (os : List Op) (m : Mem) (hm : m.Valid) (ha : Alive m.refs os) (t : Option Str) (a : Nat) (p : Bool) (ht : ∀ s, t = some s → 0 < m.refs s.addr) :
    ∃ c m', run os { entries := [], own := [] } m = .ok c m' ∧ (a ∈ c.own → ∃ e es m'', add t a p c.entries m' = .ok (e, es) m'' ∧ Good m.refs { c with entries := es } m'' ∧
      ((e = some .noMem ∧ ¬ Granted m'.room m'.time 1 ∧ es = c.entries ∧ m''.refs = m'.refs) ∨ (e = none ∧ Granted m'.room m'.time 1 ∧ ∃ b, es = c.entries ++ [⟨b, t, a, p⟩]))) := by
  obtain ⟨c, m', e, h⟩ := C106_accounts os m hm ha
  refine ⟨c, m', e, fun hb => ?_⟩
  obtain ⟨x, m'', e2, _, _, hx⟩ := after_elim (add_spec (p := p) ht hb h)
  rcases hx with ⟨rfl, h1, h2, h3⟩ | ⟨b, rfl, h1, h2⟩
  · exact ⟨_, _, m'', e2, h3, Or.inl ⟨rfl, h1, rfl, h2⟩⟩
  · exact ⟨_, _, m'', e2, h2, Or.inr ⟨rfl, h1, b, rfl⟩⟩

/-- **C106, removal.**  After any history, a removal needs no memory and cannot fail.  If there are registrations that it is about, exactly one of them is gone; otherwise nothing has changed. -/
theorem C106_remove (os : List Op) (m : Mem) (hm : m.Valid) (ha : Alive m.refs os) (t : Option Str) (a : Nat) (p : Bool) :
    ∃ c m' es m'', run os { entries := [], own := [] } m = .ok c m' ∧ remove t a p c.entries m' = .ok es m'' ∧ m''.time = m'.time ∧ Good m.refs { c with entries := es } m'' ∧
      ((es = c.entries ∧ m''.refs = m'.refs ∧ ∀ e ∈ c.entries, ¬ About t a p e) ∨ (∃ e, About t a p e ∧ c.entries.Perm (e :: es))) := by
  obtain ⟨c, m', e, h⟩ := C106_accounts os m hm ha
  obtain ⟨es, m'', e2, _, ht, h2, hx⟩ := after_elim (removeLoop_spec (t := t) (a := a) (p := p) c.entries [] m' (fun e he => (nomatch he)) h)
  exact ⟨c, m', es, m'', e, e2, ht, h2, hx⟩

/-- **C106, release.**  When the target is finalised after any history, only the client's references to listeners are left; if the client has none, every count is what it was. -/
theorem C106_release (os : List Op) (m : Mem) (hm : m.Valid) (ha : Alive m.refs os) :
    ∃ c m' m'', run os { entries := [], own := [] } m = .ok c m' ∧ finalise c.entries m' = .ok () m'' ∧ Holds m.refs c.own m'' ∧ (c.own = [] → m''.refs = m.refs) := by
  obtain ⟨c, m', e, h⟩ := C106_accounts os m hm ha
  obtain ⟨_, m'', e2, h2, _⟩ := after_elim (frees_finalise c.entries m.refs c.own m' (Holds.perm h List.perm_append_comm))
  refine ⟨c, m', m'', e, e2, h2, fun h0 => ?_⟩
  rw [h0] at h2
  exact h2.refs_eq

/-! ## Cases -/

/-- The types `a` and `b` at 0 and 1; request `k` is refused. -/
def small (k : Nat) : Mem := { room := fun i => i != k, time := 0, next := 2, refs := fun a => if a < 2 then 1 else 0 }

def typeA : Str := { addr := 0, data := [97] }
def typeB : Str := { addr := 1, data := [98] }

/-- The listeners of the entries, the client's references, the counts of the first six addresses, and those after the target is finalised. -/
def told (os : List Op) (k : Nat) : Option (List Nat × List Nat × List Nat × List Nat) :=
  match run os { entries := [], own := [] } (small k) with
  | .ok c m => match finalise c.entries m with
    | .ok _ m' => some (c.entries.map (·.listener), c.own, (List.range 6).map m.refs, (List.range 6).map m'.refs)
    | .fault _ => none
  | .fault _ => none

/-- A forgotten listener lives as long as its registration; a refused registration leaves nothing; a removal without type takes one registration. -/
theorem C106_cases :
    (small 1).Valid ∧ Alive (small 1).refs [.create, .add (some typeA) 2 false] ∧
    told [.create, .add (some typeA) 2 false, .forget 2] 9 = some ([2], [], [2, 1, 1, 1, 0, 0], [1, 1, 0, 0, 0, 0]) ∧
    told [.create, .add (some typeA) 2 false] 1 = some ([], [2], [1, 1, 1, 0, 0, 0], [1, 1, 1, 0, 0, 0]) ∧
    told [.create, .add (some typeA) 2 false, .add (some typeB) 2 true, .remove none 2 false] 9 = some ([2], [2], [1, 2, 2, 0, 1, 0], [1, 1, 1, 0, 0, 0]) ∧
    told [.create, .add (some typeA) 2 false, .forget 2, .remove (some typeA) 2 true, .remove (some typeA) 2 false] 9 = some ([], [], [1, 1, 0, 0, 0, 0], [1, 1, 0, 0, 0, 0]) := by
  refine ⟨fun a ha => ?_, ?_, by decide +kernel, by decide +kernel, by decide +kernel, by decide +kernel⟩
  · have : ¬ a < 2 := Nat.not_lt.2 ha
    simp [small, this]
  · intro t a p s ho hs
    simp at ho
    obtain ⟨rfl, -⟩ := ho
    cases hs
    decide

end Dom.Oom.Listen
