import Verif.Events.Model
import Verif.Str.PropsEq
import Verif.Tree.Props

/-!
# C41–C44: listeners and propagation
-/
namespace Dom.Events

open Dom.Str (DStr)
open Dom.Tree (NodeId Node World)

/-! ## Specification -/

/-- Who is called: node, phase, listener object. -/
abbrev Tri := NodeId × Phase × Nat

/-- The invocation without what the listener did. -/
def Call.key (c : Call) : Tri := (c.node, c.phase, c.listener)

/-- The listeners of node `n` that are due in a phase for an event of type `ty`, in the order of the list: capture
listeners while capturing, all at the target, the others while bubbling if the event bubbles. -/
def due (lists : NodeId → List Entry) (ty : DStr) (bubbles : Bool) (phase : Phase) (n : NodeId) : List Tri :=
  ((lists n).filter fun e => decide (e.type.data = ty.data) &&
    (match phase with
     | .capturing => e.capture
     | .atTarget => true
     | .bubbling => !e.capture && bubbles)).map fun e => (n, phase, e.listener)

/-- The due listeners of a whole dispatch on `t`, target by target: `path` is the list of ancestors from the parent of
`t` to the outermost one. -/
def plan (lists : NodeId → List Entry) (ty : DStr) (bubbles : Bool) (t : NodeId) (path : List NodeId) : List (List Tri) :=
  path.reverse.map (due lists ty bubbles .capturing) ++ [due lists ty bubbles .atTarget t] ++
    path.map (due lists ty bubbles .bubbling)

/-- The listeners `g` of one target are called in order; one that calls stopImmediatePropagation is the last (`true`). -/
inductive Serves : List Tri → List Call → Bool → Prop
  | done : Serves [] [] false
  | now {t g c} : c.key = t → .stopImmediatePropagation ∈ c.cmds → Serves (t :: g) [c] true
  | go {t g c cs b} : c.key = t → .stopImmediatePropagation ∉ c.cmds → Serves g cs b → Serves (t :: g) (c :: cs) b

/-- The targets are served in order; a target at which stopPropagation or stopImmediatePropagation was called is the
last. -/
inductive Propagates : List (List Tri) → List Call → Prop
  | done : Propagates [] []
  | stop {g gs cs b} : Serves g cs b → (b = true ∨ ∃ c ∈ cs, .stopPropagation ∈ c.cmds) → Propagates (g :: gs) cs
  | go {g gs cs cs'} : Serves g cs false → (∀ c ∈ cs, .stopPropagation ∉ c.cmds) → Propagates gs cs' →
      Propagates (g :: gs) (cs ++ cs')

/-- `path` is the list of nodes from `o` upwards: parents, and from a fragment without parent its host. -/
inductive PathFrom (w : World) : Option NodeId → List NodeId → Prop
  | top : PathFrom w none []
  | up {i n l} : w.nodes i = some n →
      PathFrom w (if n.type = .fragment ∧ n.parent = none then n.host else n.parent) l → PathFrom w (some i) (i :: l)

/-- The listeners do not register or unregister listeners. -/
def Quiet (h : Handler) : Prop := ∀ l st, ∀ c ∈ h l st, match c with
  | .addListener .. => False
  | .removeListener .. => False
  | _ => True

/-- Every entry of the lists has its own address, below the next free one. -/
structure Ids (st : St) : Prop where
  nodup : ∀ n, ((st.lists n).map Entry.id).Nodup
  bound : ∀ n, ∀ e ∈ st.lists n, e.id < st.fresh

/-! ## What a quiet listener changes -/

def anyCmd (c : Cmd) (cs : List Call) : Bool := cs.any fun x => decide (c ∈ x.cmds)

theorem anyCmd_iff (c : Cmd) (cs : List Call) : anyCmd c cs = true ↔ ∃ x ∈ cs, c ∈ x.cmds := by
  simp [anyCmd]

/-- From `st` to `st'` only the calls `cs` happened, and they only set flags. -/
structure After (h : Handler) (st st' : St) (cs : List Call) : Prop where
  lists : st'.lists = st.lists
  fresh : st'.fresh = st.fresh
  type : st'.evt.type = st.evt.type
  bubble : st'.evt.bubble = st.evt.bubble
  target : st'.evt.target = st.evt.target
  inDispatch : st'.evt.inDispatch = st.evt.inDispatch
  log : st'.log = st.log ++ cs
  stop : st'.evt.stop = (st.evt.stop || anyCmd .stopPropagation cs)
  stopNow : st'.evt.stopNow = (st.evt.stopNow || anyCmd .stopImmediatePropagation cs)
  prevent : st'.evt.preventDefault = (st.evt.preventDefault || anyCmd .preventDefault cs)
  acts : ∀ c ∈ cs, ∃ s, c.cmds = h c.listener s

theorem After.refl {H : Handler} (st : St) : After H st st [] := by
  constructor <;> simp [anyCmd]

theorem After.trans {H : Handler} {a b c : St} {x y : List Call} (h : After H a b x) (g : After H b c y) : After H a c (x ++ y) := by
  constructor
  · rw [g.lists, h.lists]
  · rw [g.fresh, h.fresh]
  · rw [g.type, h.type]
  · rw [g.bubble, h.bubble]
  · rw [g.target, h.target]
  · rw [g.inDispatch, h.inDispatch]
  · rw [g.log, h.log, List.append_assoc]
  · rw [g.stop, h.stop]; simp [anyCmd, Bool.or_assoc]
  · rw [g.stopNow, h.stopNow]; simp [anyCmd, Bool.or_assoc]
  · rw [g.prevent, h.prevent]; simp [anyCmd, Bool.or_assoc]
  · intro z hz
    rcases List.mem_append.1 hz with hz | hz
    · exact h.acts z hz
    · exact g.acts z hz

theorem exec_quiet (cmds : List Cmd) (st : St) (hq : ∀ c ∈ cmds, match c with
    | .addListener .. => False
    | .removeListener .. => False
    | _ => True) :
    (cmds.foldl exec st).lists = st.lists ∧ (cmds.foldl exec st).fresh = st.fresh ∧ (cmds.foldl exec st).log = st.log ∧
    (cmds.foldl exec st).evt = { st.evt with
      stop := st.evt.stop || decide (.stopPropagation ∈ cmds)
      stopNow := st.evt.stopNow || decide (.stopImmediatePropagation ∈ cmds)
      preventDefault := st.evt.preventDefault || decide (.preventDefault ∈ cmds) } := by
  induction cmds generalizing st with
  | nil => simp
  | cons c cmds ih =>
    obtain ⟨h1, h2, h3, h4⟩ := ih (exec st c) (fun x hx => hq x (by simp [hx]))
    have hc := hq c (by simp)
    simp only [List.foldl_cons, h1, h2, h3, h4]
    cases c <;> first | exact hc.elim | simp [exec]

theorem invoke_after {h : Handler} (hq : Quiet h) (st : St) (et : NodeId) (ph : Phase) (l : Nat) :
    ∃ c : Call, c.key = (et, ph, l) ∧ After h st (invoke h st et ph l) [c] ∧
      (invoke h st et ph l).evt.current = st.evt.current := by
  obtain ⟨h1, h2, h3, h4⟩ := exec_quiet (h l st) st (hq l st)
  refine ⟨{ node := et, phase := ph, listener := l, cmds := h l st }, rfl, ?_, by simp [invoke, h4]⟩
  constructor <;> simp [invoke, h1, h2, h3, h4, anyCmd]

/-! ## One target -/

/-- The entries due, as the code tests it. -/
def wants (evt : Evt) (ph : Phase) (e : Entry) : Bool := Str.isEqual (some e.type) evt.type && runsIn evt ph e

theorem nextOf_mid {pre post : List Entry} {e : Entry} (hn : ((pre ++ e :: post).map Entry.id).Nodup) :
    nextOf (pre ++ e :: post) e.id = (post.head?.map Entry.id).or ((pre ++ e :: post).head?.map Entry.id) := by
  have hpre : (pre ++ e :: post).dropWhile (fun x => x.id != e.id) = e :: post := by
    rw [List.dropWhile_append_of_pos]
    · simp
    · intro a ha
      simp only [List.map_append, List.map_cons] at hn
      have := (List.nodup_append.1 hn).2.2 a.id (List.mem_map_of_mem ha) e.id (by simp)
      simpa using this
  unfold nextOf
  rw [hpre]
  cases post <;> simp

theorem find_mid {pre post : List Entry} {e : Entry} (hn : ((pre ++ e :: post).map Entry.id).Nodup) :
    (pre ++ e :: post).find? (fun x => x.id == e.id) = some e := by
  rw [List.find?_append]
  have : pre.find? (fun x => x.id == e.id) = none := by
    rw [List.find?_eq_none]
    intro a ha
    simp only [List.map_append, List.map_cons] at hn
    have := (List.nodup_append.1 hn).2.2 a.id (List.mem_map_of_mem ha) e.id (by simp)
    simpa using this
  simp [this]

theorem head_ne {pre post : List Entry} {e f : Entry} (hn : ((pre ++ e :: f :: post).map Entry.id).Nodup) :
    (pre ++ e :: f :: post).head?.map Entry.id ≠ some f.id := by
  cases pre with
  | nil => simp at hn ⊢; exact fun h => hn.1.1 h
  | cons a pre => simp at hn ⊢; exact fun h => hn.1.2.2.1 h

theorem fireLoop_serves {h : Handler} (hq : Quiet h) (et : NodeId) (ph : Phase) (post : List Entry) :
    ∀ (pre : List Entry) (e : Entry) (st : St) (fuel : Nat), st.lists et = pre ++ e :: post →
      ((st.lists et).map Entry.id).Nodup → st.evt.stopNow = false → post.length < fuel →
      ∃ st' cs b, fireLoop h et ph fuel st e.id = .ok st' ∧ After h st st' cs ∧ st'.evt.current = st.evt.current ∧
        Serves (((e :: post).filter (wants st.evt ph)).map fun e => (et, ph, e.listener)) cs b ∧
        (b = anyCmd .stopImmediatePropagation cs) := by
  induction post with
  | nil =>
    intro pre e st fuel hl hn hs hf
    obtain ⟨fuel, rfl⟩ : ∃ f, fuel = f + 1 := ⟨fuel - 1, by omega⟩
    have hn' := hn
    rw [hl] at hn'
    unfold fireLoop
    have hfind : (st.lists et).find? (fun x => x.id == e.id) = some e := by rw [hl]; exact find_mid hn'
    simp only [hfind]
    by_cases hw : wants st.evt ph e = true
    · rw [if_pos (by exact hw)]
      obtain ⟨c, hc, ha, hcur⟩ := invoke_after hq st et ph e.listener
      generalize invoke h st et ph e.listener = st' at ha hcur ⊢
      have hfil : (([e] : List Entry).filter (wants st.evt ph)).map (fun e => (et, ph, e.listener)) = [(et, ph, e.listener)] := by
        simp [hw]
      have hsn : st'.evt.stopNow = anyCmd .stopImmediatePropagation [c] := by rw [ha.stopNow, hs]; simp
      cases hb : st'.evt.stopNow with
      | true =>
        rw [if_pos rfl]
        refine ⟨st', [c], true, rfl, ha, hcur, ?_, by rw [← hsn, hb]⟩
        rw [hfil]
        rw [hsn, anyCmd_iff] at hb
        obtain ⟨x, hx, hx'⟩ := hb
        simp at hx; subst hx
        exact .now hc hx'
      | false =>
        have hany : (st'.lists et).any (fun x => x.id == e.id) = true := by rw [ha.lists, hl]; simp
        have hnext : nextOf (st'.lists et) e.id = (st'.lists et).head?.map Entry.id := by
          rw [ha.lists, hl, nextOf_mid hn']; simp
        have hhd : ∃ x, (st'.lists et).head?.map Entry.id = some x := by
          rw [ha.lists, hl]; cases pre <;> simp
        obtain ⟨x, hx⟩ := hhd
        refine ⟨st', [c], false, ?_, ha, hcur, ?_, by rw [← hsn, hb]⟩
        · simp only [Bool.false_eq_true, if_false, hany, Bool.true_eq_false, hnext, hx, if_true]
        · rw [hfil]
          refine .go hc ?_ .done
          intro hx'
          have : anyCmd .stopImmediatePropagation [c] = true := (anyCmd_iff _ _).2 ⟨c, by simp, hx'⟩
          rw [← hsn, hb] at this; cases this
    · rw [if_neg (by exact hw)]
      have hnext : nextOf (st.lists et) e.id = (st.lists et).head?.map Entry.id := by
        rw [hl, nextOf_mid hn']; simp
      have hhd : ∃ x, (st.lists et).head?.map Entry.id = some x := by
        rw [hl]; cases pre <;> simp
      obtain ⟨x, hx⟩ := hhd
      refine ⟨st, [], false, ?_, .refl st, rfl, ?_, by simp [anyCmd]⟩
      · simp only [hnext, hx, if_true]
      · simp [hw]; exact .done
  | cons f post ih =>
    intro pre e st fuel hl hn hs hf
    obtain ⟨fuel, rfl⟩ : ∃ f, fuel = f + 1 := ⟨fuel - 1, by omega⟩
    have hn' := hn
    rw [hl] at hn'
    unfold fireLoop
    have hfind : (st.lists et).find? (fun x => x.id == e.id) = some e := by rw [hl]; exact find_mid hn'
    simp only [hfind]
    have hl2 : pre ++ e :: f :: post = (pre ++ [e]) ++ f :: post := by simp
    by_cases hw : wants st.evt ph e = true
    · rw [if_pos (by exact hw)]
      obtain ⟨c, hc, ha, hcur⟩ := invoke_after hq st et ph e.listener
      generalize invoke h st et ph e.listener = st' at ha hcur ⊢
      have hfil : ((e :: f :: post).filter (wants st.evt ph)).map (fun e => (et, ph, e.listener)) =
          (et, ph, e.listener) :: ((f :: post).filter (wants st.evt ph)).map (fun e => (et, ph, e.listener)) := by
        rw [List.filter_cons_of_pos hw]; rfl
      have hsn : st'.evt.stopNow = anyCmd .stopImmediatePropagation [c] := by rw [ha.stopNow, hs]; simp
      cases hb : st'.evt.stopNow with
      | true =>
        rw [if_pos rfl]
        refine ⟨st', [c], true, rfl, ha, hcur, ?_, by rw [← hsn, hb]⟩
        rw [hfil]
        rw [hsn, anyCmd_iff] at hb
        obtain ⟨x, hx, hx'⟩ := hb
        simp at hx; subst hx
        exact .now hc hx'
      | false =>
        have hany : (st'.lists et).any (fun x => x.id == e.id) = true := by rw [ha.lists, hl]; simp
        have hnext : nextOf (st'.lists et) e.id = some f.id := by
          rw [ha.lists, hl, nextOf_mid hn']; simp
        have hhd : (st'.lists et).head?.map Entry.id ≠ some f.id := by
          rw [ha.lists, hl]; exact head_ne hn'
        obtain ⟨st2, cs, b, h1, h2, h3, h4, h5⟩ := ih (pre ++ [e]) f st' fuel (by rw [ha.lists, hl, hl2])
          (by rw [ha.lists]; exact hn) hb (by simp at hf; omega)
        refine ⟨st2, c :: cs, b, ?_, ha.trans h2, by rw [h3, hcur], ?_, ?_⟩
        · simp only [Bool.false_eq_true, if_false, hany, Bool.true_eq_false, hnext, hhd]
          exact h1
        · rw [hfil]
          have hww : wants st'.evt ph = wants st.evt ph := by
            funext x; simp only [wants, runsIn, ha.type, ha.bubble, ha.target, hcur]
          rw [hww] at h4
          refine .go hc ?_ h4
          intro hx'
          have : anyCmd .stopImmediatePropagation [c] = true := (anyCmd_iff _ _).2 ⟨c, by simp, hx'⟩
          rw [← hsn, hb] at this; cases this
        · rw [h5]
          have : anyCmd .stopImmediatePropagation [c] = false := by rw [← hsn, hb]
          simp only [anyCmd, List.any_cons, List.any_nil, Bool.or_false] at this ⊢
          rw [this]; simp
    · rw [if_neg (by exact hw)]
      have hnext : nextOf (st.lists et) e.id = some f.id := by rw [hl, nextOf_mid hn']; simp
      have hhd : (st.lists et).head?.map Entry.id ≠ some f.id := by rw [hl]; exact head_ne hn'
      obtain ⟨st2, cs, b, h1, h2, h3, h4, h5⟩ := ih (pre ++ [e]) f st fuel (by rw [hl, hl2]) hn hs (by simp at hf; omega)
      refine ⟨st2, cs, b, ?_, h2, h3, ?_, h5⟩
      · simp only [hnext, hhd, if_false]; exact h1
      · rw [List.filter_cons_of_neg hw]; exact h4

theorem isEqual_data (a b : DStr) : Str.isEqual (some a) (some b) = decide (a.data = b.data) := by
  rw [Bool.eq_iff_iff, Str.C06_isEqual_iff]; simp [Str.contents]

/-- `After` but for the fields `current` and `phase`, which do not matter for what follows. -/
theorem After.setCurrent {H : Handler} {st st' : St} {cs : List Call} {x : Option NodeId} (h : After H { st with evt := { st.evt with current := x } } st' cs) :
    After H st st' cs := ⟨h.lists, h.fresh, h.type, h.bubble, h.target, h.inDispatch, h.log, h.stop, h.stopNow, h.prevent, h.acts⟩

theorem After.setPhase {H : Handler} {st st' : St} {cs : List Call} {p : Phase} (h : After H (setPhase st p) st' cs) :
    After H st st' cs := ⟨h.lists, h.fresh, h.type, h.bubble, h.target, h.inDispatch, h.log, h.stop, h.stopNow, h.prevent, h.acts⟩

theorem targetDispatch_serves {h : Handler} (hq : Quiet h) (et : NodeId) (ph : Phase) (st : St) (fuel : Nat) {ty : DStr}
    (hty : st.evt.type = some ty) (hn : ((st.lists et).map Entry.id).Nodup) (hs : st.evt.stopNow = false)
    (hf : (st.lists et).length ≤ fuel) (htgt : ph = .atTarget → st.evt.target = some et) :
    ∃ st' cs b, targetDispatch h fuel et ph st = .ok st' ∧ After h st st' cs ∧
      Serves (due st.lists ty st.evt.bubble ph et) cs b ∧ (b = anyCmd .stopImmediatePropagation cs) := by
  unfold targetDispatch
  cases hl : st.lists et with
  | nil =>
    refine ⟨st, [], false, rfl, .refl st, ?_, by simp [anyCmd]⟩
    simp only [due, hl]; exact .done
  | cons e post =>
    obtain ⟨st', cs, b, h1, h2, _, h4, h5⟩ := fireLoop_serves hq et ph post [] e
      { st with evt := { st.evt with current := some et } } fuel hl hn hs (by rw [hl] at hf; simp at hf; omega)
    refine ⟨st', cs, b, h1, h2.setCurrent, ?_, h5⟩
    have : (e :: post).filter (wants { st.evt with current := some et } ph) = (e :: post).filter (fun e => decide (e.type.data = ty.data) &&
        (match ph with
         | .capturing => e.capture
         | .atTarget => true
         | .bubbling => !e.capture && st.evt.bubble)) := by
      congr 1
      funext x
      simp only [wants, hty, isEqual_data, runsIn]
      cases ph with
      | capturing => simp [show (Phase.capturing == Phase.bubbling) = false from rfl, show (Phase.capturing == Phase.atTarget) = false from rfl]
      | atTarget => simp [htgt rfl]
      | bubbling => simp [show (Phase.bubbling == Phase.capturing) = false from rfl, show (Phase.bubbling == Phase.atTarget) = false from rfl]
    simp only [due, hl]
    rw [← this]
    exact h4

/-! ## The phases -/

/-- Some listener of `n` has the type of the event: the nodes kept in the array of targets. -/
def listening (lists : NodeId → List Entry) (ty : Option DStr) (n : NodeId) : Bool :=
  (lists n).any fun le => Str.isEqual (some le.type) ty

theorem due_of_not_listening {lists : NodeId → List Entry} {ty : DStr} {n : NodeId} (h : listening lists (some ty) n = false)
    (b : Bool) (ph : Phase) : due lists ty b ph n = [] := by
  unfold due
  rw [List.filter_eq_nil_iff.2]
  · rfl
  · intro e he
    have := List.any_eq_false.1 h e he
    rw [isEqual_data] at this
    simp only [decide_eq_true_eq] at this
    simp [this]

/-- Same as `Propagates`, telling whether the last target stopped the propagation. -/
inductive Prop2 : List (List Tri) → List Call → Bool → Prop
  | done : Prop2 [] [] false
  | stop {g gs cs b} : Serves g cs b → (b = true ∨ ∃ c ∈ cs, .stopPropagation ∈ c.cmds) → Prop2 (g :: gs) cs true
  | go {g gs cs cs' b} : Serves g cs false → (∀ c ∈ cs, .stopPropagation ∉ c.cmds) → Prop2 gs cs' b →
      Prop2 (g :: gs) (cs ++ cs') b

theorem Prop2.append {gs cs} (h : Prop2 gs cs false) {gs' cs' b} (h' : Prop2 gs' cs' b) : Prop2 (gs ++ gs') (cs ++ cs') b := by
  generalize hb : false = b0 at h
  induction h with
  | done => exact h'
  | stop => cases hb
  | go h1 h2 _ ih =>
    rw [List.append_assoc]
    exact .go h1 h2 (ih hb)

theorem Prop2.cut {gs cs} (h : Prop2 gs cs true) (gs') : Prop2 (gs ++ gs') cs true := by
  generalize hb : true = b0 at h
  induction h with
  | done => cases hb
  | stop h1 h2 => exact .stop h1 h2
  | go h1 h2 _ ih => subst hb; exact .go h1 h2 (ih rfl)

theorem Prop2.propagates {gs cs b} (h : Prop2 gs cs b) : Propagates gs cs := by
  induction h with
  | done => exact .done
  | stop h1 h2 => exact .stop h1 h2
  | go h1 h2 _ ih => exact .go h1 h2 ih

theorem phaseLoop_prop {h : Handler} (hq : Quiet h) (ph : Phase) (hph : ph ≠ .atTarget) {ty : DStr} (fuel : Nat) (path : List NodeId) :
    ∀ st : St, st.evt.type = some ty → (∀ n, ((st.lists n).map Entry.id).Nodup) → st.evt.stopNow = false → st.evt.stop = false →
      (∀ n, (st.lists n).length ≤ fuel) →
      ∃ st' cs b, phaseLoop h fuel ph (path.filter (listening st.lists (some ty))) st = .ok (st', b) ∧ After h st st' cs ∧
        Prop2 (path.map (due st.lists ty st.evt.bubble ph)) cs b ∧
        b = (st'.evt.stopNow || st'.evt.stop) := by
  induction path with
  | nil =>
    intro st _ _ hs1 hs2 _
    exact ⟨st, [], false, rfl, .refl st, .done, by simp [hs1, hs2]⟩
  | cons n path ih =>
    intro st hty hn hs1 hs2 hf
    cases hl : listening st.lists (some ty) n with
    | false =>
      rw [List.filter_cons_of_neg (by simp [hl])]
      obtain ⟨st', cs, b, h1, h2, h3, h4⟩ := ih st hty hn hs1 hs2 hf
      refine ⟨st', cs, b, h1, h2, ?_, h4⟩
      rw [List.map_cons, due_of_not_listening hl]
      exact .go (cs := []) .done (by simp) h3
    | true =>
      rw [List.filter_cons_of_pos hl]
      obtain ⟨s1, c1, b1, h1, h2, h3, h4⟩ := targetDispatch_serves hq n ph st fuel hty (hn n) hs1 (hf n) (fun h => absurd h hph)
      have hsn : s1.evt.stopNow = anyCmd .stopImmediatePropagation c1 := by rw [h2.stopNow, hs1]; simp
      have hst : s1.evt.stop = anyCmd .stopPropagation c1 := by rw [h2.stop, hs2]; simp
      simp only [phaseLoop, h1, Out.bind_ok, List.map_cons]
      cases hstop : (s1.evt.stopNow || s1.evt.stop) with
      | true =>
        refine ⟨s1, c1, true, by simp, h2, ?_, by rw [hstop]⟩
        refine .stop h3 ?_
        rw [Bool.or_eq_true] at hstop
        rcases hstop with hh | hh
        · left; rw [h4, ← hsn]; exact hh
        · right; rw [hst, anyCmd_iff] at hh; exact hh
      | false =>
        rw [Bool.or_eq_false_iff] at hstop
        obtain ⟨s2, c2, b2, g1, g2, g3, g4⟩ := ih s1 (by rw [h2.type, hty]) (by rw [h2.lists]; exact hn) hstop.1 hstop.2
          (by rw [h2.lists]; exact hf)
        refine ⟨s2, c1 ++ c2, b2, ?_, h2.trans g2, ?_, g4⟩
        · simp only [Bool.false_eq_true, if_false]
          rw [← h2.lists]; exact g1
        · rw [h2.lists, h2.bubble] at g3
          have : b1 = false := by rw [h4, ← hsn]; exact hstop.1
          subst this
          refine .go h3 ?_ g3
          intro c hc hm
          have : anyCmd .stopPropagation c1 = true := (anyCmd_iff _ _).2 ⟨c, hc, hm⟩
          rw [← hst, hstop.2] at this; cases this

theorem phases_prop {h : Handler} (hq : Quiet h) {ty : DStr} (fuel : Nat) (et : NodeId) (path : List NodeId) (st : St)
    (hty : st.evt.type = some ty) (hn : ∀ n, ((st.lists n).map Entry.id).Nodup) (hs1 : st.evt.stopNow = false)
    (hs2 : st.evt.stop = false) (hf : ∀ n, (st.lists n).length ≤ fuel) :
    ∃ st' cs, phases h fuel et (path.filter (listening st.lists (some ty))) st = .ok st' ∧
      st'.lists = st.lists ∧ st'.log = st.log ++ cs ∧ Propagates (plan st.lists ty st.evt.bubble et path) cs ∧
      st'.evt.preventDefault = (st.evt.preventDefault || anyCmd .preventDefault cs) ∧
      st'.evt.inDispatch = st.evt.inDispatch ∧ ∀ c ∈ cs, ∃ s, c.cmds = h c.listener s := by
  unfold phases
  obtain ⟨s1, c1, b1, h1, h2, h3, h4⟩ := phaseLoop_prop hq .capturing (by simp) (ty := ty) fuel path.reverse
    (setPhase { st with evt := { st.evt with target := some et } } .capturing) hty hn hs1 hs2 hf
  rw [← List.filter_reverse]
  simp only [show (setPhase { st with evt := { st.evt with target := some et } } .capturing).lists = st.lists from rfl] at h1 h3
  simp only [h1, Out.bind_ok]
  have e1 := h2
  cases b1 with
  | true =>
    refine ⟨s1, c1, by simp, h2.lists, h2.log, ?_, h2.prevent, h2.inDispatch, h2.acts⟩
    unfold plan
    rw [List.append_assoc]
    exact (h3.cut _).propagates
  | false =>
    simp only [Bool.false_eq_true, if_false]
    have h4' := Bool.or_eq_false_iff.1 h4.symm
    have hl1 : s1.lists = st.lists := h2.lists
    have hb1 : s1.evt.bubble = st.evt.bubble := h2.bubble
    obtain ⟨s2, c2, b2, g1, g2, g3, g4⟩ := targetDispatch_serves hq et .atTarget
      (setPhase { s1 with evt := { s1.evt with current := some et } } .atTarget) fuel (ty := ty)
      (by exact h2.type.trans hty) (by exact hl1 ▸ hn et) h4'.1 (by exact hl1 ▸ hf et) (fun _ => h2.target)
    have g2' : After h s1 s2 c2 := (g2.setPhase).setCurrent
    simp only [g1, Out.bind_ok]
    have hsn : s2.evt.stopNow = anyCmd .stopImmediatePropagation c2 := by rw [g2'.stopNow, h4'.1]; simp
    have hst : s2.evt.stop = anyCmd .stopPropagation c2 := by rw [g2'.stop, h4'.2]; simp
    have g3' : Serves (due st.lists ty st.evt.bubble .atTarget et) c2 b2 := by
      have : (setPhase { s1 with evt := { s1.evt with current := some et } } .atTarget).lists = s1.lists := rfl
      rw [this, hl1] at g3
      rw [← hb1]; exact g3
    cases hstop : (s2.evt.stopNow || s2.evt.stop) with
    | true =>
      refine ⟨s2, c1 ++ c2, by simp, g2'.lists.trans hl1, by rw [g2'.log, h2.log, List.append_assoc]; rfl, ?_, ?_, g2'.inDispatch.trans h2.inDispatch, (h2.trans g2').acts⟩
      · unfold plan
        rw [List.append_assoc]
        refine (h3.append (.stop g3' ?_)).propagates
        rw [Bool.or_eq_true] at hstop
        rcases hstop with hh | hh
        · left; rw [g4, ← hsn]; exact hh
        · right; rw [hst, anyCmd_iff] at hh; exact hh
      · have := (h2.trans g2').prevent; exact this
    | false =>
      rw [Bool.or_eq_false_iff] at hstop
      simp only [Bool.false_eq_true, if_false]
      have hl2 : s2.lists = st.lists := g2'.lists.trans hl1
      have hb2 : s2.evt.bubble = st.evt.bubble := g2'.bubble.trans hb1
      obtain ⟨s3, c3, b3, k1, k2, k3, k4⟩ := phaseLoop_prop hq .bubbling (by simp) (ty := ty) fuel path (setPhase s2 .bubbling)
        (by exact g2'.type.trans (h2.type.trans hty)) (by exact hl2 ▸ hn) hstop.1 hstop.2 (by exact hl2 ▸ hf)
      simp only [show (setPhase s2 .bubbling).lists = s2.lists from rfl, hl2] at k1 k3
      have k2' : After h s2 s3 c3 := k2.setPhase
      simp only [k1, Out.bind_ok]
      have hb : (setPhase s2 .bubbling).evt.bubble = st.evt.bubble := hb2
      rw [hb] at k3
      have hall := (h2.trans g2').trans k2'
      refine ⟨s3, (c1 ++ c2) ++ c3, rfl, k2'.lists.trans hl2, hall.log, ?_, hall.prevent, hall.inDispatch, hall.acts⟩
      unfold plan
      have hg : Prop2 [due st.lists ty st.evt.bubble .atTarget et] c2 false := by
        have : b2 = false := by rw [g4, ← hsn]; exact hstop.1
        subst this
        have := Prop2.go g3' (by
          intro c hc hm
          have : anyCmd .stopPropagation c2 = true := (anyCmd_iff _ _).2 ⟨c, hc, hm⟩
          rw [← hst, hstop.2] at this; cases this) .done
        simpa using this
      exact ((h3.append hg).append k3).propagates

theorem collectTargets_run {w : World} {st : St} {ty : DStr} (hty : st.evt.type = some ty) {o : Option NodeId} {path : List NodeId}
    (hp : PathFrom w o path) (fuel : Nat) (hf : path.length ≤ fuel) :
    collectTargets w st fuel o = .ok (path.filter (listening st.lists (some ty))) := by
  induction hp generalizing fuel with
  | top => cases fuel <;> rfl
  | @up i n l hi _ ih =>
    obtain ⟨fuel, rfl⟩ : ∃ f, fuel = f + 1 := ⟨fuel - 1, by simp at hf; omega⟩
    simp only [collectTargets, hi]
    have := ih fuel (by simp at hf; omega)
    simp only [upOf, this, Out.bind_ok, hty]
    rw [List.filter_cons]
    rfl

/-- C43.  Dispatching a new event (with a type) on a node that has a Document, with any listeners that do whatever they
like except changing the listener lists: the calls made follow the plan target by target; a call of
stopImmediatePropagation ends everything at once, a call of stopPropagation after the current target; `success` is false
exactly if a listener that ran called preventDefault.

`fuel` is the model's bound for the loops over a list; any bound not below the lengths of the lists will do. -/
theorem C43_stop_and_prevent {h : Handler} (hq : Quiet h) {w : World} {et : NodeId} {n : Node} (het : w.nodes et = some n)
    (hown : n.owner ≠ none) {path : List NodeId} (hpath : PathFrom w n.parent path) (hlen : path.length ≤ w.fresh)
    {st : St} {ty : DStr} (hids : Ids st) (hty : st.evt.type = some ty) (hnew : st.evt.inDispatch = false ∧ st.evt.stop = false ∧
      st.evt.stopNow = false ∧ st.evt.preventDefault = false) {fuel : Nat} (hf : ∀ n, (st.lists n).length ≤ fuel) :
    ∃ st' cs, dispatch h fuel w et st =
        .ok { st := st', err := none, success := some (decide (¬ ∃ c ∈ cs, .preventDefault ∈ c.cmds)) } ∧
      st'.log = st.log ++ cs ∧ Propagates (plan st.lists ty st.evt.bubble et path) cs ∧ st'.lists = st.lists ∧
      ∀ c ∈ cs, ∃ s, c.cmds = h c.listener s := by
  obtain ⟨n1, n2, n3, n4⟩ := hnew
  have hc := collectTargets_run (st := { st with evt := { st.evt with inDispatch := true } }) hty hpath (w.fresh + 1) (by omega)
  obtain ⟨st', cs, h1, h2, h3, h4, h5, _, h6⟩ := phases_prop hq fuel et path { st with evt := { st.evt with inDispatch := true } }
    hty hids.nodup n3 n2 hf
  refine ⟨st', cs, ?_, h3, h4, h2, h6⟩
  unfold dispatch
  rw [n1]
  have hne : st.evt.type ≠ none := by rw [hty]; simp
  simp only [Bool.false_eq_true, if_false, hne, het, hown]
  simp only [hc, h1, Out.bind_ok]
  congr 2
  rw [h5, n4]
  have := anyCmd_iff .preventDefault cs
  cases ha : anyCmd .preventDefault cs with
  | true => simp [this.1 ha]
  | false =>
    have : ¬ ∃ c ∈ cs, .preventDefault ∈ c.cmds := fun hx => by rw [this.2 hx] at ha; cases ha
    simp [this]

/-! ## Consequences of `Propagates` -/

theorem Serves.prefix {g cs b} (h : Serves g cs b) : cs.map Call.key <+: g ∧ (b = false → cs.map Call.key = g) := by
  induction h with
  | done => simp
  | now hk _ => simp [hk]
  | go hk _ _ ih =>
    constructor
    · simp only [List.map_cons, hk, List.cons_prefix_cons, true_and]; exact ih.1
    · intro hb; simp only [List.map_cons, hk, ih.2 hb]

/-- The calls are an initial part of the plan. -/
theorem Propagates.prefix {gs cs} (h : Propagates gs cs) : cs.map Call.key <+: gs.flatten := by
  induction h with
  | done => simp
  | @stop g gs cs b hs _ => exact hs.prefix.1.trans (by simp)
  | @go g gs cs cs' hs _ _ ih =>
    rw [List.map_append, hs.prefix.2 rfl, List.flatten_cons]
    exact List.prefix_append_right_inj _ |>.2 ih

theorem Serves.last {g cs b} (h : Serves g cs b) : ∀ a c d, cs = a ++ c :: d → .stopImmediatePropagation ∈ c.cmds → d = [] ∧ b = true := by
  induction h with
  | done => intro a c d e; simp at e
  | now _ _ =>
    intro a c d e _
    cases a with
    | nil => simp at e; exact ⟨e.2, rfl⟩
    | cons x a => simp at e
  | go _ hno _ ih =>
    intro a c d e hc
    cases a with
    | nil =>
      simp at e
      rw [← e.1] at hc; exact absurd hc hno
    | cons x a =>
      simp at e
      exact ih a c d e.2 hc

/-- C43, stopImmediatePropagation: the caller is the last listener to run. -/
theorem C43_stop_now_is_last {gs cs} (h : Propagates gs cs) : ∀ a c d, cs = a ++ c :: d → .stopImmediatePropagation ∈ c.cmds →
    d = [] := by
  induction h with
  | done => intro a c d e; simp at e
  | stop hs _ => intro a c d e hc; exact (hs.last a c d e hc).1
  | @go g gs cs cs' hs _ _ ih =>
    intro a c d e hc
    rcases List.append_eq_append_iff.1 e with ⟨x, hx, hy⟩ | ⟨x, hx, hy⟩
    · exact ih x c d hy hc
    · cases x with
      | nil => exact ih [] c d (by simpa using hy.symm) hc
      | cons y x =>
        simp at hy
        have := (hs.last a c x (by rw [hx, ← hy.1]) hc).2
        cases this

/-- C43, stopPropagation: what runs later runs at the same target (in the plan of a dispatch, where the listeners of one
target in one phase form a group). -/
theorem C43_stop_same_target {gs cs} (h : Propagates gs cs) (hg : ∀ g ∈ gs, ∃ n ph, ∀ t ∈ g, t.1 = n ∧ t.2.1 = ph) :
    ∀ a c d, cs = a ++ c :: d → .stopPropagation ∈ c.cmds → ∀ x ∈ d, x.node = c.node ∧ x.phase = c.phase := by
  have same : ∀ {g cs b}, Serves g cs b → (∃ n ph, ∀ t ∈ g, t.1 = n ∧ t.2.1 = ph) → ∀ x ∈ cs, ∀ y ∈ cs, x.node = y.node ∧ x.phase = y.phase := by
    intro g cs b hs ⟨n, ph, hg⟩ x hx y hy
    have hx' := hg _ (hs.prefix.1.subset (List.mem_map_of_mem hx))
    have hy' := hg _ (hs.prefix.1.subset (List.mem_map_of_mem hy))
    simp only [Call.key] at hx' hy'
    exact ⟨hx'.1.trans hy'.1.symm, hx'.2.trans hy'.2.symm⟩
  induction h with
  | done => intro a c d e; simp at e
  | stop hs _ =>
    intro a c d e _ x hx
    exact same hs (hg _ (by simp)) x (by rw [e]; simp [hx]) c (by rw [e]; simp)
  | @go g gs cs cs' hs hno _ ih =>
    intro a c d e hc
    rcases List.append_eq_append_iff.1 e with ⟨x, hx, hy⟩ | ⟨x, hx, hy⟩
    · exact ih (fun g hgm => hg g (by simp [hgm])) x c d hy hc
    · cases x with
      | nil => exact ih (fun g hgm => hg g (by simp [hgm])) [] c d (by simpa using hy.symm) hc
      | cons y x =>
        simp at hy
        exact absurd hc (hno c (by rw [hx, ← hy.1]; simp))

/-- C43, stopPropagation: the remaining listeners of the current target do run, unless stopImmediatePropagation is
called. -/
theorem C43_stop_rest_of_target {gs cs} (h : Propagates gs cs) (hnow : ∀ c ∈ cs, .stopImmediatePropagation ∉ c.cmds) :
    ∃ k, cs.map Call.key = (gs.take k).flatten ∧ (k = gs.length ∨ ∃ c ∈ cs, .stopPropagation ∈ c.cmds) := by
  have full : ∀ {g cs b}, Serves g cs b → (∀ c ∈ cs, .stopImmediatePropagation ∉ c.cmds) → b = false := by
    intro g cs b hs
    induction hs with
    | done => intro _; rfl
    | now _ h => intro hn; exact absurd h (hn _ (by simp))
    | go _ _ _ ih => intro hn; exact ih (fun c hc => hn c (by simp [hc]))
  induction h with
  | done => exact ⟨0, by simp, .inl rfl⟩
  | @stop g gs cs b hs hb =>
    have hbf := full hs hnow
    refine ⟨1, by simp [hs.prefix.2 hbf], .inr ?_⟩
    rcases hb with hb | hb
    · rw [hb] at hbf; cases hbf
    · exact hb
  | @go g gs cs cs' hs hno _ ih =>
    obtain ⟨k, h1, h2⟩ := ih (fun c hc => hnow c (by simp [hc]))
    refine ⟨k + 1, by simp [hs.prefix.2 rfl, h1], ?_⟩
    rcases h2 with h2 | ⟨c, hc, h2⟩
    · left; simp [h2]
    · right; exact ⟨c, by simp [hc], h2⟩

/-- Without stopping, everything in the plan is called. -/
theorem Propagates.all {gs cs} (h : Propagates gs cs)
    (hno : ∀ c ∈ cs, .stopPropagation ∉ c.cmds ∧ .stopImmediatePropagation ∉ c.cmds) : cs.map Call.key = gs.flatten := by
  obtain ⟨k, h1, h2⟩ := C43_stop_rest_of_target h (fun c hc => (hno c hc).2)
  rcases h2 with h2 | ⟨c, hc, h2⟩
  · rw [h1, h2, List.take_length]
  · exact absurd h2 (hno c hc).1

/-- C42.  If no listener stops the propagation: capture listeners on the ancestors from the outermost to the parent, all
listeners of the target, then (if the event bubbles) the other listeners on the ancestors from the parent to the outermost,
and nothing else. -/
theorem C42_path {h : Handler} (hq : ∀ l st, ∀ c ∈ h l st, c = .preventDefault ∨ c = .dispatchAgain) {w : World} {et : NodeId} {n : Node}
    (het : w.nodes et = some n) (hown : n.owner ≠ none) {path : List NodeId} (hpath : PathFrom w n.parent path)
    (hlen : path.length ≤ w.fresh) {st : St} {ty : DStr} (hids : Ids st) (hty : st.evt.type = some ty)
    (hnew : st.evt.inDispatch = false ∧ st.evt.stop = false ∧ st.evt.stopNow = false ∧ st.evt.preventDefault = false)
    {fuel : Nat} (hf : ∀ n, (st.lists n).length ≤ fuel) :
    ∃ r, dispatch h fuel w et st = .ok r ∧ r.err = none ∧ ∃ cs, r.st.log = st.log ++ cs ∧
      cs.map Call.key =
        path.reverse.flatMap (due st.lists ty st.evt.bubble .capturing) ++ due st.lists ty st.evt.bubble .atTarget et ++
        path.flatMap (due st.lists ty st.evt.bubble .bubbling) := by
  have hq' : Quiet h := by
    intro l st c hc
    rcases hq l st c hc with rfl | rfl <;> trivial
  obtain ⟨st', cs, h1, h2, h3, _, h5⟩ := C43_stop_and_prevent hq' het hown hpath hlen hids hty hnew hf
  refine ⟨_, h1, rfl, cs, h2, ?_⟩
  rw [h3.all ?_]
  · simp [plan, List.flatMap]
  · intro c hc
    obtain ⟨s, hs⟩ := h5 c hc
    rw [hs]
    constructor <;> intro hm <;> rcases hq _ _ _ hm with h | h <;> cases h

/-! ## The path in a tree reached by the tree calls -/

/-- In a well-formed tree whose fragments have no hosts the path consists of the proper ancestors, parent first; it exists
and is short enough for `C42_path` and `C43_stop_and_prevent`. -/
theorem path_exists {w : World} {ch : Tree.Children} (hW : Tree.WF w ch) (hhost : ∀ i n, w.nodes i = some n → n.host = none)
    {et : NodeId} {n : Node} (het : w.nodes et = some n) :
    ∃ path, PathFrom w n.parent path ∧ path.length ≤ w.fresh ∧
      ∀ j, j ∈ path ↔ Relation.TransGen (Tree.ParentOf w) et j := by
  have conv : ∀ {o l}, Tree.Chain w o l → PathFrom w o l := by
    intro o l hc
    induction hc with
    | nil => exact .top
    | @cons i n l hi _ ih =>
      refine .up hi ?_
      split
      · rename_i hf
        rw [hhost i n hi]
        rw [hf.2] at ih
        exact ih
      · exact ih
  cases hp : n.parent with
  | none =>
    refine ⟨[], .top, by simp, fun j => ?_⟩
    simp only [List.not_mem_nil, false_iff]
    intro hj
    obtain ⟨k, hk, _⟩ := Relation.TransGen.head'_iff.1 hj
    obtain ⟨m, hm, hm'⟩ := hk
    rw [het] at hm; cases hm
    rw [hp] at hm'; cases hm'
  | some p =>
    obtain ⟨pn, hpn⟩ := hW.linked.alive_parent het hp
    obtain ⟨l, hl⟩ := Tree.exists_chain hW.linked hW.wf p pn hpn
    refine ⟨l, conv hl, hl.length_le hW.toCore, fun j => ?_⟩
    rw [hl.mem_iff]
    constructor
    · intro hj; exact Relation.TransGen.head' ⟨n, het, hp⟩ hj
    · intro hj
      obtain ⟨k, ⟨m, hm, hm'⟩, hr⟩ := Relation.TransGen.head'_iff.1 hj
      rw [het] at hm; cases hm
      rw [hp] at hm'; cases hm'
      exact hr

end Dom.Events
