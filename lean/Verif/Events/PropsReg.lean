import Verif.Events.Props
import Verif.Tree.Violations
import Mathlib.Data.List.TakeWhile

/-!
# C41 and C44: registration, repeated dispatch, listeners that change the lists
-/
namespace Dom.Events

open Dom.Str (DStr)
open Dom.Tree (NodeId Node World)

/-! ## Registration -/

/-- The registration calls on one target. -/
inductive Reg
  | add (type : DStr) (listener : Nat) (capture : Bool)
  | remove (type : Option DStr) (listener : Nat) (capture : Bool)

/-- The code. -/
def regStep (et : NodeId) (st : St) : Reg → St
  | .add t l c => addListener st et t l c
  | .remove t l c => removeListener st et t l c

/-- A registration: type, listener, capture. -/
abbrev Triple := List UInt8 × Nat × Bool

/-- The registrations of a target, in list order. -/
def regs (st : St) (et : NodeId) : List Triple := (st.lists et).map fun e => (e.type.data, e.listener, e.capture)

/-- What a removal call matches. -/
def hits (type : Option DStr) (listener : Nat) (capture : Bool) (r : Triple) : Bool :=
  match type with
  | none => r.2.1 == listener
  | some t => decide (r = (t.data, listener, capture))

/-- The specification: registrations in the order in which they were made; a removal takes away the oldest match. -/
def specStep (rs : List Triple) : Reg → List Triple
  | .add t l c => rs ++ [(t.data, l, c)]
  | .remove t l c => rs.eraseP (hits t l c)

/-- The removal hits nothing, the oldest or the newest registration. -/
def AtEnd (rs : List Triple) : Reg → Prop
  | .add .. => True
  | .remove t l c => ∀ pre x post, rs = pre ++ x :: post → hits t l c x = true → (∀ y ∈ pre, hits t l c y = false) →
      pre = [] ∨ post = []

/-- Every removal of the history hits nothing, the oldest or the newest registration. -/
def EndsOnly (rs : List Triple) : List Reg → Prop
  | [] => True
  | o :: os => AtEnd rs o ∧ EndsOnly (specStep rs o) os

theorem matches_hits (t : Option DStr) (l : Nat) (c : Bool) (e : Entry) :
    matchesEntry t l c e = hits t l c (e.type.data, e.listener, e.capture) := by
  cases t with
  | none => rfl
  | some t =>
    simp only [matchesEntry, hits, isEqual_data]
    rw [Bool.eq_iff_iff]
    simp [and_assoc]

theorem removeLoop_spec (m : Entry → Bool) (rest : List Entry) : ∀ done, (∀ e ∈ done, m e = false) →
    (∃ pre e post, done ++ rest = pre ++ e :: post ∧ m e = true ∧ (∀ y ∈ pre, m y = false) ∧
      removeLoop m done rest = some (post ++ pre)) ∨
    ((∀ e ∈ done ++ rest, m e = false) ∧ removeLoop m done rest = none) := by
  induction rest with
  | nil => intro done hd; right; exact ⟨by simpa using hd, rfl⟩
  | cons e rest ih =>
    intro done hd
    unfold removeLoop
    by_cases he : m e = true
    · left
      exact ⟨done, e, rest, rfl, he, hd, by simp [he]⟩
    · rw [if_neg he]
      have he' : m e = false := by simpa using he
      have := ih (done ++ [e]) (by
        intro x hx
        rcases List.mem_append.1 hx with hx | hx
        · exact hd x hx
        · simp at hx; rw [hx]; exact he')
      simpa using this

theorem eraseP_first {α : Type} {p : α → Bool} {pre post : List α} {x : α} (hx : p x = true) (hpre : ∀ y ∈ pre, p y = false) :
    (pre ++ x :: post).eraseP p = pre ++ post := by
  rw [List.eraseP_append_right _ (fun y hy => by simp [hpre y hy]), List.eraseP_cons_of_pos hx]

theorem eraseP_none {α : Type} {p : α → Bool} {l : List α} (h : ∀ y ∈ l, p y = false) : l.eraseP p = l :=
  List.eraseP_of_forall_not (fun y hy => by simp [h y hy])

/-- One call, on the registrations. -/
theorem regs_step (et : NodeId) (st : St) (o : Reg) :
    (∃ t l c, o = .add t l c ∧ regs (regStep et st o) et = regs st et ++ [(t.data, l, c)]) ∨
    (∃ t l c, o = .remove t l c ∧
      ((∃ pre x post, regs st et = pre ++ x :: post ∧ hits t l c x = true ∧ (∀ y ∈ pre, hits t l c y = false) ∧
          regs (regStep et st o) et = post ++ pre) ∨
       ((∀ y ∈ regs st et, hits t l c y = false) ∧ regs (regStep et st o) et = regs st et))) := by
  cases o with
  | add t l c => left; exact ⟨t, l, c, rfl, by simp [regStep, addListener, regs]⟩
  | remove t l c =>
    right
    refine ⟨t, l, c, rfl, ?_⟩
    simp only [regStep, removeListener]
    rcases removeLoop_spec (matchesEntry t l c) (st.lists et) [] (by simp) with ⟨pre, e, post, h1, h2, h3, h4⟩ | ⟨h1, h2⟩
    · left
      simp only [List.nil_append] at h1
      refine ⟨pre.map fun e => (e.type.data, e.listener, e.capture), (e.type.data, e.listener, e.capture),
        post.map fun e => (e.type.data, e.listener, e.capture), ?_, ?_, ?_, ?_⟩
      · simp [regs, h1]
      · rw [← matches_hits]; exact h2
      · intro y hy
        obtain ⟨x, hx, rfl⟩ := List.mem_map.1 hy
        rw [← matches_hits]; exact h3 x hx
      · rw [h4]; simp [regs]
    · right
      rw [h2]
      refine ⟨?_, rfl⟩
      intro y hy
      obtain ⟨x, hx, rfl⟩ := List.mem_map.1 hy
      rw [← matches_hits]; exact h1 x (by simpa using hx)

/-- C41, order.  After any history in which every removal hits nothing, the oldest or the newest registration, the list is
the registrations in registration order.

Missing from the full claim: a removal in the middle, after which the order is wrong (`C41_order_violated`). -/
theorem C41_order_partial (et : NodeId) (ops : List Reg) (st : St) (h0 : st.lists et = []) (he : EndsOnly [] ops) :
    regs (ops.foldl (regStep et) st) et = ops.foldl specStep [] := by
  have key : ∀ (ops : List Reg) (st : St) (rs : List Triple), regs st et = rs → EndsOnly rs ops →
      regs (ops.foldl (regStep et) st) et = ops.foldl specStep rs := by
    intro ops
    induction ops with
    | nil => intro st rs h _; exact h
    | cons o ops ih =>
      intro st rs h he
      simp only [List.foldl_cons]
      refine ih _ _ ?_ he.2
      rcases regs_step et st o with ⟨t, l, c, rfl, h1⟩ | ⟨t, l, c, rfl, h1⟩
      · rw [h1, h]; rfl
      · rcases h1 with ⟨pre, x, post, h1, h2, h3, h4⟩ | ⟨h1, h2⟩
        · rw [h4]
          rw [h] at h1
          simp only [specStep, h1, eraseP_first h2 h3]
          rcases he.1 pre x post h1 h2 h3 with rfl | rfl <;> simp
        · rw [h] at h1 h2
          rw [h2, specStep, eraseP_none h1]
  exact key ops st [] (by simp [regs, h0]) he

/-- C41, which listeners.  After any history (removals naming a type), the list holds exactly the current registrations,
each as often as it was registered and not removed; only the order may differ. -/
theorem C41_multiset_partial (et : NodeId) (ops : List Reg) (st : St) (h0 : st.lists et = [])
    (ht : ∀ l c, .remove none l c ∉ ops) :
    (regs (ops.foldl (regStep et) st) et).Perm (ops.foldl specStep []) := by
  have key : ∀ (ops : List Reg) (st : St) (rs : List Triple), (regs st et).Perm rs → (∀ l c, .remove none l c ∉ ops) →
      (regs (ops.foldl (regStep et) st) et).Perm (ops.foldl specStep rs) := by
    intro ops
    induction ops with
    | nil => intro st rs h _; exact h
    | cons o ops ih =>
      intro st rs h ht
      simp only [List.foldl_cons]
      refine ih _ _ ?_ (fun l c hm => ht l c (by simp [hm]))
      rcases regs_step et st o with ⟨t, l, c, rfl, h1⟩ | ⟨t, l, c, rfl, h1⟩
      · rw [h1]; exact h.append_right _
      · cases t with
        | none => exact absurd (by simp) (ht l c)
        | some t =>
          simp only [specStep]
          have hera : rs.eraseP (hits (some t) l c) = rs.erase (t.data, l, c) := by
            rw [List.erase_eq_eraseP]
            congr 1
            funext r
            simp only [hits]
            rw [Bool.eq_iff_iff, decide_eq_true_iff, beq_iff_eq]
            exact eq_comm
          rw [hera]
          rcases h1 with ⟨pre, x, post, h1, h2, h3, h4⟩ | ⟨h1, h2⟩
          · rw [h4]
            have hx : x = (t.data, l, c) := by simpa [hits] using h2
            have hp : (post ++ pre).Perm ((regs st et).erase (t.data, l, c)) := by
              rw [h1, ← hx]
              have : (pre ++ x :: post).Perm (x :: (post ++ pre)) :=
                List.perm_middle.trans ((List.perm_append_comm).cons x)
              have h2 := this.erase x
              rw [List.erase_cons_head] at h2
              exact h2.symm
            exact hp.trans (h.erase _)
          · rw [h2, List.erase_of_not_mem]
            · exact h
            · intro hm
              have := h1 _ (h.symm.subset hm)
              simp [hits] at this
  exact key ops st [] (by simp [regs, h0]) ht

/-- C41, who is called: the listeners due at the target are the registrations of the event's type, in list order. -/
theorem C41_due (st : St) (et : NodeId) (ty : DStr) (b : Bool) :
    due st.lists ty b .atTarget et = ((regs st et).filter fun r => decide (r.1 = ty.data)).map fun r => (et, .atTarget, r.2.1) := by
  simp only [due, regs, List.filter_map, List.map_map, Bool.and_true]
  rfl

/-! ## Addresses stay distinct -/

theorem Ids.add {st : St} (h : Ids st) (n t l c) : Ids (addListener st n t l c) := by
  constructor
  · intro m
    simp only [addListener]
    split
    · subst_vars
      rw [List.map_append, List.nodup_append]
      refine ⟨h.nodup _, by simp, ?_⟩
      intro a ha b hb
      obtain ⟨e, he, rfl⟩ := List.mem_map.1 ha
      have := h.bound _ e he
      simp at hb; omega
    · exact h.nodup m
  · intro m e he
    simp only [addListener] at he ⊢
    split at he
    · rcases List.mem_append.1 he with he | he
      · have := h.bound _ e he; omega
      · simp at he; rw [he]; simp
    · have := h.bound _ e he; omega

theorem Ids.remove {st : St} (h : Ids st) (n t l c) : Ids (removeListener st n t l c) := by
  unfold removeListener
  rcases removeLoop_spec (matchesEntry t l c) (st.lists n) [] (by simp) with ⟨pre, e, post, h1, _, _, h4⟩ | ⟨_, h2⟩
  · rw [h4]
    simp only [List.nil_append] at h1
    constructor
    · intro m
      simp only
      split
      · subst_vars
        have hn := h.nodup m
        rw [h1] at hn
        have : (pre ++ e :: post).Perm (e :: (post ++ pre)) :=
          List.perm_middle.trans ((List.perm_append_comm).cons e)
        have h3 := (this.map Entry.id).nodup_iff.1 hn
        simp only [List.map_cons, List.nodup_cons] at h3
        exact h3.2
      · exact h.nodup m
    · intro m x hx
      simp only at hx ⊢
      split at hx
      · subst_vars
        refine h.bound m x ?_
        rw [h1]
        simp at hx ⊢
        tauto
      · exact h.bound m x hx
  · rw [h2]; exact h

theorem Ids.exec {st : St} (h : Ids st) (c : Cmd) : Ids (exec st c) := by
  cases c with
  | addListener n t l c => exact h.add n t l c
  | removeListener n t l c => exact h.remove n t l c
  | _ => exact ⟨h.nodup, h.bound⟩

theorem Ids.invoke {h : Handler} {st : St} (hi : Ids st) (et ph l) : Ids (invoke h st et ph l) := by
  have key : ∀ (cmds : List Cmd) (st : St), Ids st → Ids (cmds.foldl Events.exec st) := by
    intro cmds
    induction cmds with
    | nil => intro st h; exact h
    | cons c cmds ih => intro st h; exact ih _ (h.exec c)
  have := key (h l st) st hi
  exact ⟨this.nodup, this.bound⟩

/-! ## Listeners may change the lists: the loop stays in bounds -/

/-- The outcome is a value, or an endless loop. -/
def Bounded {α : Type} (x : Out α) : Prop := (∃ a, x = .ok a) ∨ x = .fault .diverge

theorem nextOf_some {l : List Entry} {le : Nat} (h : le ∈ l.map Entry.id) : ∃ nx, nextOf l le = some nx ∧ nx ∈ l.map Entry.id := by
  obtain ⟨e, he, rfl⟩ := List.mem_map.1 h
  have hsub : ∀ x ∈ l.dropWhile (fun x => x.id != e.id), x ∈ l := fun x hx => (List.dropWhile_suffix _).subset hx
  unfold nextOf
  cases hd : l.dropWhile (fun x => x.id != e.id) with
  | nil =>
    have := List.dropWhile_eq_nil_iff.1 hd e he
    simp at this
  | cons a rest =>
    rw [hd] at hsub
    cases rest with
    | nil =>
      cases l with
      | nil => simp at he
      | cons b l => exact ⟨b.id, rfl, by simp⟩
    | cons b rest => exact ⟨b.id, rfl, List.mem_map_of_mem (hsub b (by simp))⟩

theorem fireLoop_bounded (h : Handler) (et : NodeId) (ph : Phase) (fuel : Nat) : ∀ (st : St) (le : Nat), Ids st →
    le ∈ (st.lists et).map Entry.id → fireLoop h et ph fuel st le = .fault .diverge ∨
      ∃ st', fireLoop h et ph fuel st le = .ok st' ∧ Ids st' := by
  induction fuel with
  | zero => intro st le _ _; exact .inl rfl
  | succ fuel ih =>
    intro st le hi hle
    unfold fireLoop
    obtain ⟨e, he, hid⟩ : ∃ e, (st.lists et).find? (fun e => e.id == le) = some e ∧ e.id = le := by
      obtain ⟨e, he, hid⟩ := List.mem_map.1 hle
      cases hf : (st.lists et).find? (fun e => e.id == le) with
      | none =>
        have := List.find?_eq_none.1 hf e he
        simp [hid] at this
      | some x => exact ⟨x, rfl, by simpa using List.find?_some hf⟩
    simp only [he]
    have go : ∀ s : St, Ids s → le ∈ (s.lists et).map Entry.id →
        (match nextOf (s.lists et) le with
          | none => Out.fault .useAfterFree
          | some nx => if (s.lists et).head?.map Entry.id = some nx then .ok s else fireLoop h et ph fuel s nx) = .fault .diverge ∨
        ∃ st', (match nextOf (s.lists et) le with
          | none => Out.fault .useAfterFree
          | some nx => if (s.lists et).head?.map Entry.id = some nx then .ok s else fireLoop h et ph fuel s nx) = .ok st' ∧ Ids st' := by
      intro s hs hle
      obtain ⟨nx, h1, h2⟩ := nextOf_some hle
      rw [h1]
      dsimp only
      split
      · exact .inr ⟨s, rfl, hs⟩
      · exact ih s nx hs h2
    split
    · split
      · exact .inr ⟨_, rfl, hi.invoke et ph e.listener⟩
      · split
        · exact .inr ⟨_, rfl, hi.invoke et ph e.listener⟩
        · rename_i hany
          refine go _ (hi.invoke et ph e.listener) ?_
          have hany : ((invoke h st et ph e.listener).lists et).any (fun e => e.id == le) = true := by simpa using hany
          obtain ⟨x, hx, hx'⟩ := List.any_eq_true.1 hany
          rw [beq_iff_eq] at hx'
          rw [← hx']
          exact List.mem_map_of_mem hx
    · exact go st hi hle

theorem targetDispatch_bounded (h : Handler) (et : NodeId) (ph : Phase) (fuel : Nat) (st : St) (hi : Ids st) :
    targetDispatch h fuel et ph st = .fault .diverge ∨ ∃ st', targetDispatch h fuel et ph st = .ok st' ∧ Ids st' := by
  unfold targetDispatch
  cases hl : st.lists et with
  | nil => exact .inr ⟨st, rfl, hi⟩
  | cons e es =>
    exact fireLoop_bounded h et ph fuel _ e.id ⟨hi.nodup, hi.bound⟩ (by simp [hl])

theorem phaseLoop_bounded (h : Handler) (fuel : Nat) (ph : Phase) (ts : List NodeId) : ∀ st, Ids st →
    phaseLoop h fuel ph ts st = .fault .diverge ∨ ∃ r, phaseLoop h fuel ph ts st = .ok r ∧ Ids r.1 := by
  induction ts with
  | nil => intro st hi; exact .inr ⟨_, rfl, hi⟩
  | cons t ts ih =>
    intro st hi
    unfold phaseLoop
    rcases targetDispatch_bounded h t ph fuel st hi with h1 | ⟨st', h1, h2⟩
    · rw [h1]; exact .inl rfl
    · rw [h1]
      simp only [Out.bind_ok]
      split
      · exact .inr ⟨_, rfl, h2⟩
      · exact ih st' h2

/-- C46 for dispatch.  Whatever the listeners do to the listener lists while they run, dispatch never uses a released
entry: it returns or loops for ever.  (The model never reuses the address of a released entry; the C allocator may.) -/
theorem C46_dispatch_bounded (h : Handler) (fuel : Nat) {w : World} {et : NodeId} {n : Node} (het : w.nodes et = some n)
    {path : List NodeId} (hpath : PathFrom w n.parent path) (hlen : path.length ≤ w.fresh) {st : St} (hi : Ids st) :
    Bounded (dispatch h fuel w et st) := by
  unfold dispatch Bounded
  by_cases h1 : st.evt.inDispatch = true
  · rw [if_pos h1]; exact .inl ⟨_, rfl⟩
  · rw [if_neg h1]
    dsimp only
    by_cases hty : st.evt.type = none
    · rw [if_pos hty]; exact .inl ⟨_, rfl⟩
    · rw [if_neg hty]
      simp only [het]
      split
      · exact .inl ⟨_, rfl⟩
      · obtain ⟨ty, hty'⟩ := Option.ne_none_iff_exists'.1 hty
        have hc := collectTargets_run (st := { st with evt := { st.evt with inDispatch := true } }) hty' hpath (w.fresh + 1) (by omega)
        simp only [hc, Out.bind_ok]
        generalize path.filter (listening st.lists (some ty)) = ts
        have hph : phases h fuel et ts { st with evt := { st.evt with inDispatch := true } } = .fault .diverge ∨
            ∃ st', phases h fuel et ts { st with evt := { st.evt with inDispatch := true } } = .ok st' := by
          unfold phases
          rcases phaseLoop_bounded h fuel .capturing ts.reverse
            (setPhase { evt := { { st.evt with inDispatch := true } with target := some et }, lists := st.lists, fresh := st.fresh, log := st.log } .capturing)
            ⟨hi.nodup, hi.bound⟩ with h1 | ⟨r, h1, h2⟩
          · left; simp only [h1]; rfl
          · simp only [h1, Out.bind_ok]
            split
            · exact .inr ⟨_, rfl⟩
            · rcases targetDispatch_bounded h et .atTarget fuel (setPhase { r.1 with evt := { r.1.evt with current := some et } } .atTarget)
                ⟨h2.nodup, h2.bound⟩ with g1 | ⟨s2, g1, g2⟩
              · left; simp only [g1]; rfl
              · simp only [g1, Out.bind_ok]
                split
                · exact .inr ⟨_, rfl⟩
                · rcases phaseLoop_bounded h fuel .bubbling ts (setPhase s2 .bubbling) ⟨g2.nodup, g2.bound⟩ with k1 | ⟨r3, k1, _⟩
                  · left; simp only [k1]; rfl
                  · right; exact ⟨r3.1, by simp only [k1]; rfl⟩
        rcases hph with h1 | ⟨s, h1⟩
        · right; rw [h1]; rfl
        · left; rw [h1]; exact ⟨_, rfl⟩

/-! ## C44 -/

/-- C44, first half: while an event is being dispatched, dispatching it again is refused and changes nothing; and a new
event is not refused on this ground.

Missing from the full claim: a finished event can be dispatched again; the code never resets the flag
(`C44_again_violated`). -/
theorem C44_in_dispatch_partial (h : Handler) (fuel : Nat) (w : World) (et : NodeId) (st : St) :
    (st.evt.inDispatch = true → dispatch h fuel w et st = .ok { st, err := some .dispatchRequest, success := none }) ∧
    (st.evt.inDispatch = false → ∀ r, dispatch h fuel w et st = .ok r → r.err ≠ some .dispatchRequest) := by
  constructor
  · intro hd; unfold dispatch; rw [if_pos hd]
  · intro hd r hr
    unfold dispatch at hr
    rw [if_neg (by simp [hd])] at hr
    simp only at hr
    split at hr
    · cases hr; simp
    · split at hr
      · cases hr
      · split at hr
        · cases hr; simp
        · generalize collectTargets _ _ _ _ = x at hr
          cases x with
          | ok ts =>
            simp only [Out.bind_ok] at hr
            generalize phases _ _ _ _ _ = y at hr
            cases y with
            | ok s => simp only [Out.bind_ok] at hr; cases hr; simp
            | exc e => cases hr
            | fault f => cases hr
          | exc e => cases hr
          | fault f => cases hr

/-- C44 is false of the code: after every completed dispatch (here with listeners that leave the lists alone) every further
dispatch of the same event, on any node, is refused. -/
theorem C44_again_violated {h : Handler} (hq : Quiet h) {w : World} {et : NodeId} {n : Node} (het : w.nodes et = some n)
    (hown : n.owner ≠ none) {path : List NodeId} (hpath : PathFrom w n.parent path) (hlen : path.length ≤ w.fresh)
    {st : St} {ty : DStr} (hids : Ids st) (hty : st.evt.type = some ty) (hnew : st.evt.inDispatch = false ∧ st.evt.stop = false ∧
      st.evt.stopNow = false ∧ st.evt.preventDefault = false) {fuel : Nat} (hf : ∀ n, (st.lists n).length ≤ fuel) :
    ∃ r, dispatch h fuel w et st = .ok r ∧ r.err = none ∧
      ∀ h' fuel' w' et', ∃ r', dispatch h' fuel' w' et' r.st = .ok r' ∧ r'.err = some .dispatchRequest := by
  obtain ⟨n1, n2, n3, n4⟩ := hnew
  have hc := collectTargets_run (st := { st with evt := { st.evt with inDispatch := true } }) hty hpath (w.fresh + 1) (by omega)
  obtain ⟨st', cs, h1, h2, h3, h4, h5, h6, _⟩ := phases_prop hq fuel et path { st with evt := { st.evt with inDispatch := true } }
    hty hids.nodup n3 n2 hf
  refine ⟨{ st := st', err := none, success := some (!st'.evt.preventDefault) }, ?_, rfl, ?_⟩
  · unfold dispatch
    rw [n1]
    have hne : st.evt.type ≠ none := by rw [hty]; simp
    simp only [Bool.false_eq_true, if_false, hne, het, hown]
    simp only [hc, h1, Out.bind_ok]
  · intro h' fuel' w' et'
    exact ⟨_, (C44_in_dispatch_partial h' fuel' w' et' st').1 h6, rfl⟩

/-! ## Concrete cases -/

def click : DStr := { data := [99, 108, 105, 99, 107] }

/-- A new event of type "click". -/
def newEvt (bubble : Bool) : Evt := { type := some click, bubble }

/-- No listeners anywhere. -/
def noListeners (bubble : Bool) : St := { evt := newEvt bubble, lists := fun _ => [], fresh := 0 }

theorem noListeners_ids (b : Bool) : Ids (noListeners b) := ⟨fun n => by simp [noListeners], fun n e he => by simp [noListeners] at he⟩

/-- Document 0 > element 1 > element 2. -/
def nested : List Tree.Call := [.createDocument, .createNode 0 .element none none, .createNode 0 .element none none,
  .appendChild 0 1, .appendChild 1 2]

/-- Listeners 10 (capture) and 11 on the document, 20 and 21 (capture) on element 1, 30 and 31 on element 2. -/
def listeners (b : Bool) : St :=
  let st := noListeners b
  let st := addListener st 0 click 10 true
  let st := addListener st 0 click 11 false
  let st := addListener st 1 click 20 false
  let st := addListener st 1 click 21 true
  let st := addListener st 2 click 30 false
  addListener st 2 click 31 true

theorem listeners_ids (b : Bool) : Ids (listeners b) :=
  ((((((noListeners_ids b).add _ _ _ _).add _ _ _ _).add _ _ _ _).add _ _ _ _).add _ _ _ _).add _ _ _ _

/-- The listeners called, with their nodes; the error; `success`. -/
abbrev Seen := Option (List (NodeId × Nat) × Option Exc × Option Bool)

instance : DecidableEq Seen := inferInstance

/-- What a dispatch shows. -/
def called (h : Handler) (st : St) (et : NodeId) (w : World) : Seen :=
  match dispatch h 100 w et st with
  | .ok r => some (r.st.log.map fun c => (c.node, c.listener), r.err, r.success)
  | _ => none

/-- The hypotheses of `C42_path` and `C43_stop_and_prevent` are met by a reachable tree, and this is what they say there;
stopping at 20 (stopPropagation) skips the document, stopping at 30 (stopImmediatePropagation) skips 31. -/
example : ∃ w, Tree.Reach (fun w c => c.Ok w) w ∧
    (called (fun _ _ => []) (listeners true) 2 w = some ([(0, 10), (1, 21), (2, 30), (2, 31), (1, 20), (0, 11)], none, some true) ∧
     called (fun _ _ => []) (listeners false) 2 w = some ([(0, 10), (1, 21), (2, 30), (2, 31)], none, some true) ∧
     called (fun l _ => if l = 20 then [.stopPropagation, .preventDefault] else []) (listeners true) 2 w =
       some ([(0, 10), (1, 21), (2, 30), (2, 31), (1, 20)], none, some false) ∧
     called (fun l _ => if l = 30 then [.stopImmediatePropagation] else []) (listeners true) 2 w =
       some ([(0, 10), (1, 21), (2, 30)], none, some true)) := by
  obtain ⟨w, h1, h2⟩ := Tree.exists_ok nested (fun w => decide (
     called (fun _ _ => []) (listeners true) 2 w = some ([(0, 10), (1, 21), (2, 30), (2, 31), (1, 20), (0, 11)], none, some true) ∧
     called (fun _ _ => []) (listeners false) 2 w = some ([(0, 10), (1, 21), (2, 30), (2, 31)], none, some true) ∧
     called (fun l _ => if l = 20 then [.stopPropagation, .preventDefault] else []) (listeners true) 2 w =
       some ([(0, 10), (1, 21), (2, 30), (2, 31), (1, 20)], none, some false) ∧
     called (fun l _ => if l = 30 then [.stopImmediatePropagation] else []) (listeners true) 2 w =
       some ([(0, 10), (1, 21), (2, 30)], none, some true))) (by decide +kernel)
  exact ⟨w, h1, of_decide_eq_true h2⟩

/-- Listeners 1, 2, 3 on node 0, registered in this order. -/
def three : St := [Reg.add click 1 false, .add click 2 false, .add click 3 false].foldl (regStep 0) (noListeners true)

theorem three_ids : Ids three := (((noListeners_ids true).add _ _ _ _).add _ _ _ _).add _ _ _ _

/-- C41 is false of the code: after removing the second of three listeners, the third is called before the first
(event_target.c:130-136). -/
theorem C41_order_violated : ∃ w, Tree.Reach (fun w c => c.Ok w) w ∧
    called (fun _ _ => []) ([Reg.add click 1 false, .add click 2 false, .add click 3 false, .remove (some click) 2 false].foldl
      (regStep 0) (noListeners true)) 0 w = some ([(0, 3), (0, 1)], none, some true) := by
  obtain ⟨w, h1, h2⟩ := Tree.exists_ok [.createDocument] (fun w => decide (
    called (fun _ _ => []) ([Reg.add click 1 false, .add click 2 false, .add click 3 false, .remove (some click) 2 false].foldl
      (regStep 0) (noListeners true)) 0 w = some ([(0, 3), (0, 1)], none, some true))) (by decide +kernel)
  exact ⟨w, h1, of_decide_eq_true h2⟩

/-- C42 is false of the code when listeners change the list: the first listener removes itself, and the others are not
called (event_target.c:248-251); the third listener removes the second, which has already run, and the first is called a
second time; the first removes the second, and the third is not called. -/
theorem C42_self_removal_violated : ∃ w, Tree.Reach (fun w c => c.Ok w) w ∧
    called (fun l _ => if l = 1 then [.removeListener 0 (some click) 1 false] else []) three 0 w = some ([(0, 1)], none, some true) ∧
    called (fun l _ => if l = 3 then [.removeListener 0 (some click) 2 false] else []) three 0 w =
      some ([(0, 1), (0, 2), (0, 3), (0, 1)], none, some true) ∧
    called (fun l _ => if l = 1 then [.removeListener 0 (some click) 2 false] else []) three 0 w = some ([(0, 1)], none, some true) := by
  obtain ⟨w, h1, h2⟩ := Tree.exists_ok [.createDocument] (fun w => decide (
    called (fun l _ => if l = 1 then [.removeListener 0 (some click) 1 false] else []) three 0 w = some ([(0, 1)], none, some true) ∧
    called (fun l _ => if l = 3 then [.removeListener 0 (some click) 2 false] else []) three 0 w =
      some ([(0, 1), (0, 2), (0, 3), (0, 1)], none, some true) ∧
    called (fun l _ => if l = 1 then [.removeListener 0 (some click) 2 false] else []) three 0 w = some ([(0, 1)], none, some true)))
    (by decide +kernel)
  exact ⟨w, h1, of_decide_eq_true h2⟩

end Dom.Events
