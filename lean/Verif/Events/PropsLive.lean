import Verif.Events.Live

/-!
# C42, C43, C46: dispatch with listeners that do anything
-/
set_option linter.unusedSimpArgs false

namespace Dom.Events.Live

open Dom.Str (DStr)
open Dom.Tree (NodeId Node World Act Ledger Client Careful Room)

/-! ## Specification -/

/-- All references to the nodes. -/
def S.led (s : S) : Ledger := fun j => s.own j + s.held j

/-- The command is one that a careful client may give: it uses nodes it has a reference to, see `Tree.Careful`, and no count overflows. -/
def Ok (s : S) : Cmd → Prop
  | .event (.addListener n _ _ _) => 0 < s.own n
  | .event (.removeListener n _ _ _) => 0 < s.own n
  | .event _ => True
  | .act a => Careful s.own s.w a
  | .getTarget => ∀ x, s.ev.evt.target = some x → Room s.w x
  | .getCurrent => ∀ x, s.ev.evt.current = some x → Room s.w x

/-- Each command is allowed when it is given. -/
def AllOk : List Cmd → S → Prop
  | [], _ => True
  | c :: cs, s => Ok s c ∧ ∀ s', exec s c = .ok s' → AllOk cs s'

/-- The nodes are as a careful client leaves them (`tied_of_client`): the tree is sound and every reference is accounted for. -/
def Tied (led : Ledger) (w : World) : Prop := ∃ ch, Tree.Sound w ch ∧ ∀ j, Tree.count w j = led j

theorem tied_of_client {led : Ledger} {w : World} (h : Client Careful led w) : Tied led w := h.sound

/-- The nodes are as a careful client leaves them; entries have their own addresses; target and current target of the event are referenced by the dispatch. -/
structure Safe (s : S) : Prop where
  client : Tied s.led s.w
  ids : Ids s.ev
  target : ∀ x, s.ev.evt.target = some x → 0 < s.held x
  current : ∀ x, s.ev.evt.current = some x → 0 < s.held x

/-- Listeners and callbacks are careful clients.  They may do all else: change the tree, the listeners of any node, stop the event. -/
def Tidy (h : Handler) : Prop := ∀ who s, Safe s → AllOk (h who s) s

/-- It ran for this node and phase, and the event said so. -/
def At (n : NodeId) (ph : Phase) (r : Ran) : Prop := (∃ l, r.who = .listener n ph l) ∧ r.seen.current = some n ∧ r.seen.phase = some ph

/-- It gave the command. -/
def Gave (c : Events.Cmd) (r : Ran) : Prop := .event c ∈ r.cmds

/-- Nothing runs after one that called stopImmediatePropagation. -/
def EndsNow (rs : List Ran) : Prop := ∀ a r b, rs = a ++ r :: b → Gave .stopImmediatePropagation r → b = []

/-- One of them stopped the event. -/
def Stops (rs : List Ran) : Prop := ∃ r ∈ rs, Gave .stopPropagation r ∨ Gave .stopImmediatePropagation r

/-- What runs at the stops `ps`: those at one stop come before those at the next, a stop at which the event was stopped is the last one (`true`). -/
inductive Follows : List (NodeId × Phase) → List Ran → Bool → Prop
  | done : Follows [] [] false
  | stop {n ph ps rs} : (∀ r ∈ rs, At n ph r) → EndsNow rs → Stops rs → Follows ((n, ph) :: ps) rs true
  | go {n ph ps rs rs' b} : (∀ r ∈ rs, At n ph r) → ¬ Stops rs → Follows ps rs' b → Follows ((n, ph) :: ps) (rs ++ rs') b

/-- Which registrations count in a phase. -/
def Counts (bubble capture : Bool) : Phase → Prop
  | .capturing => capture = true
  | .atTarget => True
  | .bubbling => capture = false ∧ bubble = true

/-- What ran is a listener registered for the type of the event and for the phase on its node: from the start, or by one of those that ran before (`a`). -/
def Registered (lists : NodeId → List Entry) (ty : DStr) (bubble : Bool) (a : List Ran) (r : Ran) : Prop :=
  ∀ n ph l, r.who = .listener n ph l → ∃ e : Entry, e.type.data = ty.data ∧ e.listener = l ∧ Counts bubble e.capture ph ∧
    (e ∈ lists n ∨ ∃ q ∈ a, Gave (.addListener n e.type l e.capture) q)

/-! ## What commands change -/

/-- From `s` to `s'` only the commands `cs` happened. -/
structure Did (s s' : S) (cs : List Cmd) : Prop where
  held : s'.held = s.held
  type : s'.ev.evt.type = s.ev.evt.type
  bubble : s'.ev.evt.bubble = s.ev.evt.bubble
  target : s'.ev.evt.target = s.ev.evt.target
  current : s'.ev.evt.current = s.ev.evt.current
  phase : s'.ev.evt.phase = s.ev.evt.phase
  log : s'.log = s.log
  stop : s'.ev.evt.stop = true ↔ s.ev.evt.stop = true ∨ .event .stopPropagation ∈ cs
  stopNow : s'.ev.evt.stopNow = true ↔ s.ev.evt.stopNow = true ∨ .event .stopImmediatePropagation ∈ cs
  prevent : s'.ev.evt.preventDefault = true ↔ s.ev.evt.preventDefault = true ∨ .event .preventDefault ∈ cs
  lists : ∀ n e, e ∈ s'.ev.lists n → e ∈ s.ev.lists n ∨ .event (.addListener n e.type e.listener e.capture) ∈ cs

theorem Did.refl (s : S) : Did s s [] := by
  constructor <;> simp

theorem Did.trans {a b c : S} {x y : List Cmd} (h : Did a b x) (g : Did b c y) : Did a c (x ++ y) := by
  constructor
  · rw [g.held, h.held]
  · rw [g.type, h.type]
  · rw [g.bubble, h.bubble]
  · rw [g.target, h.target]
  · rw [g.current, h.current]
  · rw [g.phase, h.phase]
  · rw [g.log, h.log]
  · rw [g.stop, h.stop, List.mem_append, or_assoc]
  · rw [g.stopNow, h.stopNow, List.mem_append, or_assoc]
  · rw [g.prevent, h.prevent, List.mem_append, or_assoc]
  · intro n e he
    rw [List.mem_append]
    rcases g.lists n e he with h1 | h1
    · rcases h.lists n e h1 with h2 | h2
      · exact .inl h2
      · exact .inr (.inl h2)
    · exact .inr (.inr h1)

/-- Commands that leave the event and the listeners alone. -/
theorem Did.same {s s' : S} {c : Cmd} (hc : ∀ e, c ≠ .event e) (h1 : s'.held = s.held) (h2 : s'.ev = s.ev) (h3 : s'.log = s.log) : Did s s' [c] := by
  have no : ∀ e, Cmd.event e ∉ [c] := fun e he => hc e (List.mem_singleton.1 he).symm
  constructor <;> simp only [h1, h2, h3, no, or_false]
  exact fun _ _ h => h

theorem book_led {a : Act} {own held : Ledger} (h : ∀ x ∈ a.args, 0 < own x) (r : Option NodeId) :
    a.book (fun j => own j + held j) r = fun j => a.book own r j + held j := by
  funext j
  cases a with
  | unref x =>
    have := h x (by simp [Act.args])
    unfold Act.book
    dsimp only
    split_ifs with e
    · subst e; omega
    · rfl
  | _ => unfold Act.book; dsimp only; omega

theorem careful_led {a : Act} {own held : Ledger} {w : World} (h : Careful own w a) : Careful (fun j => own j + held j) w a :=
  ⟨⟨fun x hx => by have := h.1.1 x hx; dsimp only; omega, h.1.2⟩, h.2⟩

theorem act_safe {s : S} (hs : Safe s) {a : Act} (ha : Careful s.led s.w a) (f : World → Ledger → S)
    (hf : ∀ w own, (f w own).w = w ∧ (f w own).held = s.held ∧ (f w own).ev = s.ev ∧ (f w own).own = own) (hb : ∀ r, a.book s.led r = fun j => a.book s.own r j + s.held j) :
    (∃ w' r, a.run s.w = .ok w' r ∧ Safe (f w' (a.book s.own r))) ∨ (∃ w' e, a.run s.w = .exc w' e ∧ Safe (f w' s.own)) := by
  obtain ⟨ch, So, hl⟩ := hs.client
  obtain ⟨w', ch', S', ⟨r, h1, h2⟩ | ⟨e, h1, h2⟩⟩ := So.act hl ha
  · refine .inl ⟨w', r, h1, ?_⟩
    obtain ⟨e1, e2, e3, e4⟩ := hf w' (a.book s.own r)
    refine ⟨⟨ch', by rw [e1]; exact S', fun j => ?_⟩, by rw [e3]; exact hs.ids, by rw [e3, e2]; exact hs.target, by rw [e3, e2]; exact hs.current⟩
    unfold S.led
    rw [e1, e2, e4, h2 j, hb]
  · refine .inr ⟨w', e, h1, ?_⟩
    obtain ⟨e1, e2, e3, e4⟩ := hf w' s.own
    refine ⟨⟨ch', by rw [e1]; exact S', fun j => ?_⟩, by rw [e3]; exact hs.ids, by rw [e3, e2]; exact hs.target, by rw [e3, e2]; exact hs.current⟩
    unfold S.led
    rw [e1, e2, e4, h2 j]
    rfl

theorem take_safe {s : S} (hs : Safe s) {x : NodeId} (hx : 0 < s.led x) (hr : Room s.w x) {c : Cmd} (hc : ∀ e, c ≠ .event e) :
    ∃ s', take s x = .ok s' ∧ Safe s' ∧ Did s s' [c] := by
  unfold take
  have ha : Careful s.led s.w (.ref x) := ⟨⟨fun y hy => by simp [Act.args] at hy; rw [hy]; exact hx, trivial⟩, hr⟩
  rcases act_safe hs ha (fun w own => { s with w, own }) (fun _ _ => ⟨rfl, rfl, rfl, rfl⟩)
    (fun r => by funext j; show s.own j + s.held j + _ = s.own j + _ + s.held j; omega) with ⟨w', r, h1, h2⟩ | ⟨w', e, h1, h2⟩
  · rw [h1]
    exact ⟨_, rfl, h2, .same hc rfl rfl rfl⟩
  · rw [h1]
    exact ⟨_, rfl, h2, .same hc rfl rfl rfl⟩

theorem live {s : S} (hs : Safe s) {x : NodeId} (hx : 0 < s.led x) : ∃ n, s.w.nodes x = some n := by
  obtain ⟨ch, S, hl⟩ := hs.client
  rw [← hl x] at hx
  unfold Tree.count at hx
  cases h : s.w.nodes x with
  | none => rw [h] at hx; exact absurd hx (by simp)
  | some n => exact ⟨n, rfl⟩

theorem exec_safe {s : S} (hs : Safe s) {c : Cmd} (hc : Ok s c) : ∃ s', exec s c = .ok s' ∧ Safe s' ∧ Did s s' [c] := by
  have ids := fun c => hs.ids.exec c
  cases c with
  | event c =>
    cases c with
    | addListener n t l cap =>
      obtain ⟨m, hm⟩ := live hs (x := n) (by have : 0 < s.own n := hc; unfold S.led; omega)
      refine ⟨{ s with ev := Events.exec s.ev (.addListener n t l cap) }, by unfold exec; dsimp only; rw [hm],
        ⟨hs.client, ids (.addListener n t l cap), hs.target, hs.current⟩, ?_⟩
      constructor <;> simp [Events.exec, addListener]
      intro n' e he
      split at he
      · rename_i h
        subst h
        rcases List.mem_append.1 he with h | h
        · exact .inl h
        · rw [List.mem_singleton] at h
          subst h
          simp
      · exact .inl he
    | removeListener n t l cap =>
      obtain ⟨m, hm⟩ := live hs (x := n) (by have : 0 < s.own n := hc; unfold S.led; omega)
      have hsub : ∀ n' e, e ∈ (removeListener s.ev n t l cap).lists n' → e ∈ s.ev.lists n' := by
        intro n' e he
        unfold removeListener at he
        rcases removeLoop_spec (matchesEntry t l cap) (s.ev.lists n) [] (by simp) with ⟨pre, x, post, h1, _, _, h4⟩ | ⟨_, h2⟩
        · rw [h4] at he
          simp only [List.nil_append] at h1
          dsimp only at he
          split at he
          · rename_i h
            subst h
            rw [h1]
            simp at he ⊢
            tauto
          · exact he
        · rw [h2] at he
          exact he
      have hev : (removeListener s.ev n t l cap).evt = s.ev.evt := by
        unfold removeListener
        split <;> rfl
      refine ⟨{ s with ev := Events.exec s.ev (.removeListener n t l cap) }, by unfold exec; dsimp only; rw [hm],
        ⟨hs.client, ids (.removeListener n t l cap), ?_, ?_⟩, ?_⟩
      · intro x hx
        refine hs.target x ?_
        rw [← hev]; exact hx
      · intro x hx
        refine hs.current x ?_
        rw [← hev]; exact hx
      · constructor <;> simp [Events.exec, hev]
        exact hsub
    | stopPropagation =>
      exact ⟨{ s with ev := Events.exec s.ev .stopPropagation }, rfl, ⟨hs.client, ids .stopPropagation, hs.target, hs.current⟩, by constructor <;> simp [Events.exec]⟩
    | stopImmediatePropagation =>
      exact ⟨{ s with ev := Events.exec s.ev .stopImmediatePropagation }, rfl, ⟨hs.client, ids .stopImmediatePropagation, hs.target, hs.current⟩, by constructor <;> simp [Events.exec]⟩
    | preventDefault =>
      exact ⟨{ s with ev := Events.exec s.ev .preventDefault }, rfl, ⟨hs.client, ids .preventDefault, hs.target, hs.current⟩, by constructor <;> simp [Events.exec]⟩
    | dispatchAgain =>
      exact ⟨{ s with ev := Events.exec s.ev .dispatchAgain }, rfl, ⟨hs.client, ids .dispatchAgain, hs.target, hs.current⟩, by constructor <;> simp [Events.exec]⟩
  | act a =>
    have ha : Careful s.own s.w a := hc
    unfold exec
    dsimp only
    rcases act_safe hs (careful_led ha) (fun w own => { s with w, own }) (fun _ _ => ⟨rfl, rfl, rfl, rfl⟩)
      (fun r => book_led ha.1.1 r) with ⟨w', r, h1, h2⟩ | ⟨w', e, h1, h2⟩
    · rw [h1]
      exact ⟨_, rfl, h2, .same (fun _ h => nomatch h) rfl rfl rfl⟩
    · rw [h1]
      exact ⟨_, rfl, h2, .same (fun _ h => nomatch h) rfl rfl rfl⟩
  | getTarget =>
    unfold exec
    cases ht : s.ev.evt.target with
    | none => exact ⟨s, rfl, hs, .same (fun _ h => nomatch h) rfl rfl rfl⟩
    | some x => exact take_safe hs (by have := hs.target x ht; unfold S.led; omega) (hc x ht) (fun _ h => nomatch h)
  | getCurrent =>
    unfold exec
    cases ht : s.ev.evt.current with
    | none => exact ⟨s, rfl, hs, .same (fun _ h => nomatch h) rfl rfl rfl⟩
    | some x => exact take_safe hs (by have := hs.current x ht; unfold S.led; omega) (hc x ht) (fun _ h => nomatch h)

theorem execAll_safe (cs : List Cmd) : ∀ s, Safe s → AllOk cs s → ∃ s', execAll cs s = .ok s' ∧ Safe s' ∧ Did s s' cs := by
  induction cs with
  | nil => exact fun s hs _ => ⟨s, rfl, hs, .refl s⟩
  | cons c cs ih =>
    intro s hs hc
    obtain ⟨s1, h1, h2, h3⟩ := exec_safe hs hc.1
    obtain ⟨s2, k1, k2, k3⟩ := ih s1 h2 (hc.2 s1 h1)
    refine ⟨s2, ?_, k2, h3.trans k3⟩
    unfold execAll
    rw [h1, Out.bind_ok]
    exact k1

/-! ## What invocations change -/

/-- From `s` to `s'` only the invocations `rs` happened. -/
structure Hist (s s' : S) (rs : List Ran) : Prop where
  held : s'.held = s.held
  type : s'.ev.evt.type = s.ev.evt.type
  bubble : s'.ev.evt.bubble = s.ev.evt.bubble
  target : s'.ev.evt.target = s.ev.evt.target
  log : s'.log = s.log ++ rs
  seen : ∀ r ∈ rs, r.seen.target = s.ev.evt.target
  stop : s'.ev.evt.stop = true ↔ s.ev.evt.stop = true ∨ ∃ r ∈ rs, Gave .stopPropagation r
  stopNow : s'.ev.evt.stopNow = true ↔ s.ev.evt.stopNow = true ∨ ∃ r ∈ rs, Gave .stopImmediatePropagation r
  prevent : s'.ev.evt.preventDefault = true ↔ s.ev.evt.preventDefault = true ∨ ∃ r ∈ rs, Gave .preventDefault r
  lists : ∀ n e, e ∈ s'.ev.lists n → e ∈ s.ev.lists n ∨ ∃ r ∈ rs, Gave (.addListener n e.type e.listener e.capture) r
  reg : ∀ ty, s.ev.evt.type = some ty → ∀ a r b, rs = a ++ r :: b → Registered s.ev.lists ty s.ev.evt.bubble a r

theorem Hist.refl (s : S) : Hist s s [] := by
  constructor <;> simp

theorem or_ex {p : Ran → Prop} {x y : List Ran} {A : Prop} : ((A ∨ ∃ r ∈ x, p r) ∨ ∃ r ∈ y, p r) ↔ (A ∨ ∃ r ∈ x ++ y, p r) := by
  simp only [List.mem_append, or_and_right, exists_or, or_assoc]

theorem Hist.trans {a b c : S} {x y : List Ran} (h : Hist a b x) (g : Hist b c y) : Hist a c (x ++ y) := by
  constructor
  · rw [g.held, h.held]
  · rw [g.type, h.type]
  · rw [g.bubble, h.bubble]
  · rw [g.target, h.target]
  · rw [g.log, h.log, List.append_assoc]
  · intro r hr
    rcases List.mem_append.1 hr with hr | hr
    · exact h.seen r hr
    · rw [g.seen r hr, h.target]
  · rw [g.stop, h.stop, or_ex]
  · rw [g.stopNow, h.stopNow, or_ex]
  · rw [g.prevent, h.prevent, or_ex]
  · intro n e he
    rcases g.lists n e he with h1 | ⟨r, hr, h1⟩
    · rcases h.lists n e h1 with h2 | ⟨r, hr, h2⟩
      · exact .inl h2
      · exact .inr ⟨r, List.mem_append_left _ hr, h2⟩
    · exact .inr ⟨r, List.mem_append_right _ hr, h1⟩
  · intro ty hty p r q e
    rcases List.append_eq_append_iff.1 e with ⟨as, e1, e2⟩ | ⟨bs, e1, e2⟩
    · have := g.reg ty (by rw [h.type]; exact hty) as r q e2
      intro n ph l hw
      obtain ⟨en, k1, k2, k3, k4⟩ := this n ph l hw
      refine ⟨en, k1, k2, by rw [← h.bubble]; exact k3, ?_⟩
      rcases k4 with k4 | ⟨z, hz, k4⟩
      · rcases h.lists n en k4 with k5 | ⟨z, hz, k5⟩
        · exact .inl k5
        · exact .inr ⟨z, by rw [e1]; exact List.mem_append_left _ hz, by rw [← k2]; exact k5⟩
      · exact .inr ⟨z, by rw [e1]; exact List.mem_append_right _ hz, k4⟩
    · cases bs with
      | nil =>
        rw [List.append_nil] at e1
        simp only [List.nil_append] at e2
        have := g.reg ty (by rw [h.type]; exact hty) [] r q e2.symm
        intro n ph l hw
        obtain ⟨en, k1, k2, k3, k4⟩ := this n ph l hw
        refine ⟨en, k1, k2, by rw [← h.bubble]; exact k3, ?_⟩
        rcases k4 with k4 | ⟨z, hz, k4⟩
        · rcases h.lists n en k4 with k5 | ⟨z, hz, k5⟩
          · exact .inl k5
          · exact .inr ⟨z, by rw [← e1]; exact hz, by rw [← k2]; exact k5⟩
        · cases hz
      | cons b bs =>
        simp only [List.cons_append, List.cons.injEq] at e2
        rw [← e2.1] at e1
        exact h.reg ty hty p r bs e1

theorem Did.hist {s s' : S} {cs : List Cmd} (h : Did s s' cs) (who : Who)
    (hreg : ∀ ty, s.ev.evt.type = some ty → Registered s.ev.lists ty s.ev.evt.bubble [] { who, seen := s.ev.evt, cmds := cs }) :
    Hist s { s' with log := s'.log ++ [{ who, seen := s.ev.evt, cmds := cs }] } [{ who, seen := s.ev.evt, cmds := cs }] := by
  constructor
  · exact h.held
  · exact h.type
  · exact h.bubble
  · exact h.target
  · show s'.log ++ _ = _
    rw [h.log]
  · intro r hr
    rw [List.mem_singleton] at hr
    rw [hr]
  · simpa [Gave] using h.stop
  · simpa [Gave] using h.stopNow
  · simpa [Gave] using h.prevent
  · intro n e he
    simpa [Gave] using h.lists n e he
  · intro ty hty a r b e
    cases a with
    | nil =>
      simp only [List.nil_append, List.cons.injEq] at e
      rw [← e.1]
      exact hreg ty hty
    | cons x a =>
      have := congrArg List.length e
      simp at this

theorem invoke_safe {h : Handler} (ht : Tidy h) {s : S} (hs : Safe s) (who : Who)
    (hreg : ∀ ty, s.ev.evt.type = some ty → Registered s.ev.lists ty s.ev.evt.bubble [] { who, seen := s.ev.evt, cmds := h who s }) :
    ∃ s', invoke h who s = .ok s' ∧ Safe s' ∧ Hist s s' [{ who, seen := s.ev.evt, cmds := h who s }] ∧ s'.ev.evt.current = s.ev.evt.current ∧ s'.ev.evt.phase = s.ev.evt.phase := by
  obtain ⟨s1, h1, h2, h3⟩ := execAll_safe _ s hs (ht who s hs)
  refine ⟨{ s1 with log := s1.log ++ [{ who, seen := s.ev.evt, cmds := h who s }] }, by unfold invoke; rw [h1]; rfl, ⟨h2.client, h2.ids, h2.target, h2.current⟩, h3.hist who hreg, h3.current, h3.phase⟩

/-! ## The loops -/

theorem entry_of {l : List Entry} {le : Nat} (hle : le ∈ l.map Entry.id) : ∃ e, l.find? (fun e => e.id == le) = some e ∧ e ∈ l := by
  obtain ⟨e, he, hid⟩ := List.mem_map.1 hle
  cases hf : l.find? (fun e => e.id == le) with
  | none =>
    have := List.find?_eq_none.1 hf e he
    simp [hid] at this
  | some x => exact ⟨x, rfl, List.mem_of_find?_eq_some hf⟩

theorem endsNow_cons {r : Ran} {rs : List Ran} (h1 : Gave .stopImmediatePropagation r → rs = []) (h2 : EndsNow rs) : EndsNow (r :: rs) := by
  intro a x b e hx
  cases a with
  | nil =>
    simp only [List.nil_append, List.cons.injEq] at e
    rw [← e.1] at hx
    rw [← e.2]; exact h1 hx
  | cons y a =>
    simp only [List.cons_append, List.cons.injEq] at e
    exact h2 a x b e.2 hx

theorem endsNow_nil : EndsNow [] := by
  intro a r b e
  simp at e

theorem fireLoop_safe {h : Handler} (ht : Tidy h) (et : NodeId) (ph : Phase) (fuel : Nat) : ∀ (s : S) (le : Nat), Safe s → 0 < s.held et →
    le ∈ (s.ev.lists et).map Entry.id → s.ev.evt.stopNow = false → s.ev.evt.current = some et → s.ev.evt.phase = some ph →
    fireLoop h et ph fuel s le = .fault .diverge ∨
      ∃ s' rs, fireLoop h et ph fuel s le = .ok s' ∧ Safe s' ∧ Hist s s' rs ∧ (∀ r ∈ rs, At et ph r) ∧ EndsNow rs ∧ s'.ev.evt.phase = some ph := by
  induction fuel with
  | zero => intro s le _ _ _ _ _ _; exact .inl rfl
  | succ fuel ih =>
    intro s le hs hheld hle hnow hcur hph
    unfold fireLoop
    obtain ⟨n, hn⟩ := live hs (x := et) (by unfold S.led; omega)
    rw [hn]
    dsimp only
    obtain ⟨e, he, hmem⟩ := entry_of hle
    simp only [he]
    have go : ∀ t : S, Safe t → 0 < t.held et → le ∈ (t.ev.lists et).map Entry.id → t.ev.evt.stopNow = false → t.ev.evt.current = some et → t.ev.evt.phase = some ph →
        (match nextOf (t.ev.lists et) le with
          | none => Out.fault .useAfterFree
          | some nx => if (t.ev.lists et).head?.map Entry.id = some nx then .ok t else fireLoop h et ph fuel t nx) = .fault .diverge ∨
        ∃ s' rs, (match nextOf (t.ev.lists et) le with
          | none => Out.fault .useAfterFree
          | some nx => if (t.ev.lists et).head?.map Entry.id = some nx then .ok t else fireLoop h et ph fuel t nx) = .ok s' ∧ Safe s' ∧ Hist t s' rs ∧
          (∀ r ∈ rs, At et ph r) ∧ EndsNow rs ∧ s'.ev.evt.phase = some ph := by
      intro t hst hh hle hnow hcur hph
      obtain ⟨nx, h1, h2⟩ := nextOf_some hle
      rw [h1]
      dsimp only
      split
      · exact .inr ⟨t, [], rfl, hst, .refl t, by simp, endsNow_nil, hph⟩
      · exact ih t nx hst hh h2 hnow hcur hph
    by_cases hrun : (Str.isEqual (some e.type) s.ev.evt.type && runsIn s.ev.evt ph e) = true
    · rw [if_pos hrun]
      rw [Bool.and_eq_true] at hrun
      obtain ⟨s1, h1, h2, h3, hc1, hp1⟩ := invoke_safe ht hs (.listener et ph e.listener) (fun ty hty => by
        intro n' ph' l' hw
        cases hw
        refine ⟨e, ?_, rfl, ?_, .inl hmem⟩
        · have := hrun.1
          rw [hty, isEqual_data] at this
          exact of_decide_eq_true this
        · have := hrun.2
          unfold runsIn at this
          cases ph <;> simp at this <;> simp [Counts, this])
      rw [h1, Out.bind_ok]
      have hat : ∀ r ∈ [({ who := .listener et ph e.listener, seen := s.ev.evt, cmds := h (.listener et ph e.listener) s } : Ran)], At et ph r := by
        intro r hr
        rw [List.mem_singleton] at hr
        subst hr
        exact ⟨⟨_, rfl⟩, hcur, hph⟩
      by_cases hn1 : s1.ev.evt.stopNow = true
      · rw [if_pos hn1]
        exact .inr ⟨s1, _, rfl, h2, h3, hat, endsNow_cons (fun _ => rfl) endsNow_nil, hp1.trans hph⟩
      · rw [if_neg hn1]
        have hheld1 : 0 < s1.held et := by rw [h3.held]; exact hheld
        obtain ⟨n1, hn1'⟩ := live h2 (x := et) (by unfold S.led; omega)
        rw [hn1']
        dsimp only
        have hno : ¬ Gave .stopImmediatePropagation ({ who := .listener et ph e.listener, seen := s.ev.evt, cmds := h (.listener et ph e.listener) s } : Ran) := by
          intro hg
          exact hn1 (h3.stopNow.2 (.inr ⟨_, List.mem_singleton.2 rfl, hg⟩))
        by_cases hany : (s1.ev.lists et).any (fun e => e.id == le) = false
        · rw [if_pos hany]
          exact .inr ⟨s1, _, rfl, h2, h3, hat, endsNow_cons (fun hg => absurd hg hno) endsNow_nil, hp1.trans hph⟩
        · rw [if_neg hany]
          have hany : (s1.ev.lists et).any (fun e => e.id == le) = true := by simpa using hany
          obtain ⟨x, hx, hx'⟩ := List.any_eq_true.1 hany
          rw [beq_iff_eq] at hx'
          rcases go s1 h2 hheld1 (by rw [← hx']; exact List.mem_map_of_mem hx) (by simpa using hn1) (hc1.trans hcur) (hp1.trans hph) with k | ⟨s2, rs, k1, k2, k3, k4, k5, k6⟩
          · exact .inl k
          · refine .inr ⟨s2, _, k1, k2, h3.trans k3, ?_, ?_, k6⟩
            · intro r hr
              rcases List.mem_append.1 hr with hr | hr
              · exact hat r hr
              · exact k4 r hr
            · exact endsNow_cons (fun hg => absurd hg hno) k5
    · rw [if_neg hrun]
      exact go s hs hheld hle hnow hcur hph

theorem Safe.evt {s : S} (hs : Safe s) {f : Evt → Evt} (h1 : ∀ x, (f s.ev.evt).target = some x → 0 < s.held x) (h2 : ∀ x, (f s.ev.evt).current = some x → 0 < s.held x) :
    Safe (withEvt s f) := ⟨hs.client, ⟨hs.ids.nodup, hs.ids.bound⟩, h1, h2⟩

theorem Hist.evt {s s' : S} {f : Evt → Evt} {rs : List Ran} (h : Hist (withEvt s f) s' rs) (h1 : (f s.ev.evt).type = s.ev.evt.type) (h2 : (f s.ev.evt).bubble = s.ev.evt.bubble)
    (h3 : (f s.ev.evt).target = s.ev.evt.target) (h4 : (f s.ev.evt).stop = s.ev.evt.stop) (h5 : (f s.ev.evt).stopNow = s.ev.evt.stopNow)
    (h6 : (f s.ev.evt).preventDefault = s.ev.evt.preventDefault) : Hist s s' rs := by
  constructor
  · exact h.held
  · exact h.type.trans h1
  · exact h.bubble.trans h2
  · exact h.target.trans h3
  · exact h.log
  · intro r hr
    exact (h.seen r hr).trans h3
  · rw [← h4]; exact h.stop
  · rw [← h5]; exact h.stopNow
  · rw [← h6]; exact h.prevent
  · exact h.lists
  · intro ty hty a r b e
    have := h.reg ty (h1.trans hty) a r b e
    rw [show (withEvt s f).ev.evt.bubble = s.ev.evt.bubble from h2] at this
    exact this

theorem targetDispatch_safe {h : Handler} (ht : Tidy h) (et : NodeId) (ph : Phase) (fuel : Nat) (s : S) (hs : Safe s) (hheld : 0 < s.held et)
    (hnow : s.ev.evt.stopNow = false) (hph : s.ev.evt.phase = some ph) :
    targetDispatch h fuel et ph s = .fault .diverge ∨
      ∃ s' rs, targetDispatch h fuel et ph s = .ok s' ∧ Safe s' ∧ Hist s s' rs ∧ (∀ r ∈ rs, At et ph r) ∧ EndsNow rs ∧ s'.ev.evt.phase = some ph := by
  unfold targetDispatch
  obtain ⟨n, hn⟩ := live hs (x := et) (by unfold S.led; omega)
  rw [hn]
  dsimp only
  cases hl : s.ev.lists et with
  | nil => exact .inr ⟨s, [], rfl, hs, .refl s, by simp, endsNow_nil, hph⟩
  | cons e es =>
    rcases fireLoop_safe ht et ph fuel (withEvt s fun v => { v with current := some et }) e.id
      (hs.evt hs.target fun x hx => by cases hx; exact hheld) hheld (by show _ ∈ (s.ev.lists et).map _; rw [hl]; simp) hnow rfl hph with k | ⟨s', rs, k1, k2, k3, k4⟩
    · exact .inl k
    · exact .inr ⟨s', rs, k1, k2, k3.evt rfl rfl rfl rfl rfl rfl, k4⟩

theorem stops_iff {s s' : S} {rs : List Ran} (h : Hist s s' rs) (h1 : s.ev.evt.stop = false) (h2 : s.ev.evt.stopNow = false) :
    (s'.ev.evt.stopNow || s'.ev.evt.stop) = true ↔ Stops rs := by
  rw [Bool.or_eq_true, h.stop, h.stopNow, h1, h2]
  simp only [Bool.false_eq_true, false_or]
  constructor
  · rintro (⟨r, hr, hg⟩ | ⟨r, hr, hg⟩)
    · exact ⟨r, hr, .inr hg⟩
    · exact ⟨r, hr, .inl hg⟩
  · rintro ⟨r, hr, hg | hg⟩
    · exact .inr ⟨r, hr, hg⟩
    · exact .inl ⟨r, hr, hg⟩

theorem phaseLoop_safe {h : Handler} (ht : Tidy h) (ph : Phase) (fuel : Nat) (ts : List NodeId) : ∀ s, Safe s → (∀ t ∈ ts, 0 < s.held t) →
    s.ev.evt.stop = false → s.ev.evt.stopNow = false → s.ev.evt.phase = some ph →
    phaseLoop h fuel ph ts s = .fault .diverge ∨
      ∃ s' b rs, phaseLoop h fuel ph ts s = .ok (s', b) ∧ Safe s' ∧ Hist s s' rs ∧ Follows (ts.map fun t => (t, ph)) rs b ∧
        (b = false → s'.ev.evt.stop = false ∧ s'.ev.evt.stopNow = false) := by
  induction ts with
  | nil => exact fun s hs _ h1 h2 _ => .inr ⟨s, false, [], rfl, hs, .refl s, .done, fun _ => ⟨h1, h2⟩⟩
  | cons t ts ih =>
    intro s hs hheld h1 h2 hph
    unfold phaseLoop
    rcases targetDispatch_safe ht t ph fuel s hs (hheld t (by simp)) h2 hph with k | ⟨s1, rs, k1, k2, k3, k4, k5, k6⟩
    · rw [k]; exact .inl rfl
    · rw [k1, Out.bind_ok]
      by_cases hst : (s1.ev.evt.stopNow || s1.ev.evt.stop) = true
      · rw [if_pos hst]
        exact .inr ⟨s1, true, rs, rfl, k2, k3, .stop k4 k5 ((stops_iff k3 h1 h2).1 hst), fun h => nomatch h⟩
      · rw [if_neg hst]
        have hno : ¬ Stops rs := fun hh => hst ((stops_iff k3 h1 h2).2 hh)
        have hst : (s1.ev.evt.stopNow || s1.ev.evt.stop) = false := by simpa using hst
        rw [Bool.or_eq_false_iff] at hst
        rcases ih s1 k2 (fun x hx => by rw [k3.held]; exact hheld x (List.mem_cons_of_mem _ hx)) hst.2 hst.1 k6 with j | ⟨s2, b, rs', j1, j2, j3, j4, j5⟩
        · exact .inl j
        · exact .inr ⟨s2, b, rs ++ rs', j1, j2, k3.trans j3, .go k4 hno j4, j5⟩

/-! ## The whole dispatch -/

theorem Follows.append {ps qs : List (NodeId × Phase)} {rs rs' : List Ran} {b : Bool} (h : Follows ps rs false) (h' : Follows qs rs' b) :
    Follows (ps ++ qs) (rs ++ rs') b := by
  generalize hf : false = f at h
  induction h with
  | done => exact h'
  | stop _ _ _ => cases hf
  | go h1 h2 _ ih =>
    rw [List.append_assoc]
    exact .go h1 h2 (ih hf)

theorem Follows.cut {ps : List (NodeId × Phase)} {rs : List Ran} (h : Follows ps rs true) (qs : List (NodeId × Phase)) : Follows (ps ++ qs) rs true := by
  generalize hf : true = f at h
  induction h with
  | done => cases hf
  | stop h1 h2 h3 => exact .stop h1 h2 h3
  | go h1 h2 _ ih => exact .go h1 h2 (ih hf)

theorem no_stops : ¬ Stops [] := by
  rintro ⟨r, hr, _⟩
  cases hr

theorem Follows.all {p : NodeId → Bool} {ph : Phase} (l : List NodeId) : ∀ {rs b}, Follows ((l.filter p).map fun t => (t, ph)) rs b → Follows (l.map fun t => (t, ph)) rs b := by
  induction l with
  | nil => exact fun h => h
  | cons x l ih =>
    intro rs b h
    by_cases hx : p x = true
    · rw [List.filter_cons_of_pos hx, List.map_cons] at h
      rw [List.map_cons]
      cases h with
      | stop h1 h2 h3 => exact .stop h1 h2 h3
      | go h1 h2 h3 => exact .go h1 h2 (ih h3)
    · rw [List.filter_cons_of_neg hx] at h
      exact .go (rs := []) (by simp) no_stops (ih h)

/-- The callback ran exactly if there is one. -/
def Acted (acts : Bool) (stage : Stage) (rs : List Ran) : Prop := rs.map Ran.who = if acts then [.action stage] else []

theorem action_safe {h : Handler} (ht : Tidy h) (acts : Bool) {d : NodeId} (stage : Stage) {s : S} (hs : Safe s) (hd : 0 < s.held d) :
    ∃ s' rs, action h acts d stage s = .ok s' ∧ Safe s' ∧ Hist s s' rs ∧ Acted acts stage rs ∧ (∀ r ∈ rs, r.cmds = h (.action stage) s) ∧
      s'.ev.evt.phase = s.ev.evt.phase := by
  unfold action
  obtain ⟨n, hn⟩ := live hs (x := d) (by unfold S.led; omega)
  rw [hn]
  dsimp only
  cases acts with
  | false => exact ⟨s, [], rfl, hs, .refl s, rfl, by simp, rfl⟩
  | true =>
    obtain ⟨s', h1, h2, h3, h4⟩ := invoke_safe ht hs (.action stage) (fun ty _ n ph l hw => nomatch hw)
    exact ⟨s', _, h1, h2, h3, rfl, fun r hr => by rw [List.mem_singleton] at hr; rw [hr], h4.2⟩

/-- The stops of a dispatch on `et`: down the path, the target, up the path. -/
def route (et : NodeId) (path : List NodeId) : List (NodeId × Phase) :=
  path.reverse.map (fun t => (t, .capturing)) ++ [(et, .atTarget)] ++ path.map fun t => (t, .bubbling)

/-- The callback for the end of the event flow runs only if the event was not stopped. -/
def Ended (acts stopped : Bool) (before rs : List Ran) : Prop :=
  (stopped = true → rs = []) ∧
  (stopped = false → ((∃ r ∈ before, Gave .preventDefault r) → Acted acts .prevented rs) ∧ ((¬ ∃ r ∈ before, Gave .preventDefault r) → Acted acts .finish rs))

/-- The callback for the start does not stop the event. -/
def Starts (h : Handler) : Prop := ∀ s, .event .stopPropagation ∉ h (.action .started) s ∧ .event .stopImmediatePropagation ∉ h (.action .started) s

theorem body_safe {h : Handler} (ht : Tidy h) (hst : Starts h) (acts : Bool) (fuel : Nat) {et d : NodeId} {path : List NodeId} {p : NodeId → Bool} {s : S} (hs : Safe s)
    (het : 0 < s.held et) (hd : 0 < s.held d) (hts : ∀ t ∈ path.filter p, 0 < s.held t) (h1 : s.ev.evt.stop = false) (h2 : s.ev.evt.stopNow = false)
    (h3 : s.ev.evt.preventDefault = false) :
    body h acts fuel et d (path.filter p) s = .fault .diverge ∨
      ∃ s' b rs1 rs2 rs3, body h acts fuel et d (path.filter p) s = .ok s' ∧ Safe s' ∧
        Hist (withEvt s fun v => { v with target := some et, phase := some .capturing }) s' (rs1 ++ rs2 ++ rs3) ∧
        Acted acts .started rs1 ∧ Follows (route et path) rs2 b ∧ Ended acts b (rs1 ++ rs2) rs3 := by
  unfold body
  obtain ⟨s1, rs1, a1, a2, a3, a4, a5, a6⟩ := action_safe ht acts .started
    (s := withEvt s fun v => { v with target := some et, phase := some .capturing }) (hs.evt (fun x hx => by cases hx; exact het) hs.current) hd
  rw [a1, Out.bind_ok]
  have hheld1 : s1.held = s.held := a3.held
  have n1 : ∀ r ∈ rs1, ¬ Gave .stopPropagation r := fun r hr hg => by
    unfold Gave at hg
    rw [a5 r hr] at hg
    exact (hst _).1 hg
  have n2 : ∀ r ∈ rs1, ¬ Gave .stopImmediatePropagation r := fun r hr hg => by
    unfold Gave at hg
    rw [a5 r hr] at hg
    exact (hst _).2 hg
  have f1 : s1.ev.evt.stop = false := by
    cases e : s1.ev.evt.stop with
    | false => rfl
    | true =>
      rcases a3.stop.1 e with h | ⟨r, hr, hg⟩
      · rw [← h]; exact h1
      · exact absurd hg (n1 r hr)
  have f2 : s1.ev.evt.stopNow = false := by
    cases e : s1.ev.evt.stopNow with
    | false => rfl
    | true =>
      rcases a3.stopNow.1 e with h | ⟨r, hr, hg⟩
      · rw [← h]; exact h2
      · exact absurd hg (n2 r hr)
  rcases phaseLoop_safe ht .capturing fuel (path.filter p).reverse s1 a2 (fun t hm => by rw [hheld1]; exact hts t (List.mem_reverse.1 hm)) f1 f2 a6 with k |
    ⟨s2, b, rs, k1, k2, k3, k4, k5⟩
  · rw [k]; exact .inl rfl
  rw [k1, Out.bind_ok]
  rw [← List.filter_reverse] at k4
  have k4 := Follows.all path.reverse k4
  cases b with
  | true =>
    refine .inr ⟨s2, true, rs1, rs, [], rfl, k2, by rw [List.append_nil]; exact a3.trans k3, a4, ?_, fun _ => rfl, fun h => nomatch h⟩
    unfold route
    rw [List.append_assoc]
    exact k4.cut _
  | false =>
    rw [if_neg (by simp)]
    obtain ⟨g1, g2⟩ := k5 rfl
    have hheld2 : s2.held = s.held := k3.held.trans hheld1
    have htgt : s2.ev.evt.target = some et := k3.target.trans a3.target
    rcases targetDispatch_safe ht et .atTarget fuel (withEvt s2 fun v => { v with phase := some .atTarget, current := some et })
      (k2.evt k2.target fun x hx => by cases hx; rw [hheld2]; exact het) (by show 0 < s2.held et; rw [hheld2]; exact het) g2 rfl with j |
      ⟨s3, ru, j1, j2, j3, j4, j5, _⟩
    · rw [j]; exact .inl rfl
    rw [j1, Out.bind_ok]
    have j3' : Hist s2 s3 ru := j3.evt rfl rfl rfl rfl rfl rfl
    by_cases hstop : (s3.ev.evt.stopNow || s3.ev.evt.stop) = true
    · rw [if_pos hstop]
      refine .inr ⟨s3, true, rs1, rs ++ ru, [], rfl, j2, ?_, a4, ?_, fun _ => rfl, fun h => nomatch h⟩
      · rw [List.append_nil]
        exact a3.trans (k3.trans j3')
      · unfold route
        exact (k4.append (.stop (ps := []) j4 j5 ((stops_iff j3' g1 g2).1 hstop))).cut _
    · rw [if_neg hstop]
      have hno : ¬ Stops ru := fun hh => hstop ((stops_iff j3' g1 g2).2 hh)
      have hstop : (s3.ev.evt.stopNow || s3.ev.evt.stop) = false := by simpa using hstop
      rw [Bool.or_eq_false_iff] at hstop
      have hheld3 : s3.held = s.held := j3'.held.trans hheld2
      rcases phaseLoop_safe ht .bubbling fuel (path.filter p) (withEvt s3 fun v => { v with phase := some .bubbling }) (j2.evt j2.target j2.current)
        (fun t hm => by show 0 < s3.held t; rw [hheld3]; exact hts t hm) hstop.2 hstop.1 rfl with m | ⟨s4, b, rv, m1, m2, m3, m4, m5⟩
      · rw [m]; exact .inl rfl
      rw [m1, Out.bind_ok]
      have m3' : Hist s3 s4 rv := m3.evt rfl rfl rfl rfl rfl rfl
      have m4 := Follows.all path m4
      have hroute : Follows (route et path) ((rs ++ (ru ++ [])) ++ rv) b := (k4.append (.go (ps := []) j4 hno .done)).append m4
      rw [List.append_nil] at hroute
      have hh := a3.trans ((k3.trans j3').trans m3')
      cases b with
      | true =>
        refine .inr ⟨s4, true, rs1, rs ++ ru ++ rv, [], rfl, m2, by rw [List.append_nil]; exact hh, a4, hroute, fun _ => rfl, fun h => nomatch h⟩
      | false =>
        rw [if_neg (by simp)]
        dsimp only
        have hheld4 : s4.held = s.held := m3'.held.trans hheld3
        obtain ⟨s5, rw_, z1, z2, z3, z4, z5, _⟩ := action_safe ht acts (d := d) (if s4.ev.evt.preventDefault then .prevented else .finish) m2 (by rw [hheld4]; exact hd)
        have hp : s4.ev.evt.preventDefault = true ↔ ∃ r ∈ rs1 ++ (rs ++ ru ++ rv), Gave .preventDefault r := by
          rw [hh.prevent]
          constructor
          · rintro (h | h)
            · rw [show (withEvt s _).ev.evt.preventDefault = s.ev.evt.preventDefault from rfl, h3] at h
              cases h
            · exact h
          · exact .inr
        refine .inr ⟨s5, false, rs1, rs ++ ru ++ rv, rw_, z1, z2, hh.trans z3, a4, hroute, fun h => (nomatch h), fun _ => ⟨fun h => ?_, fun h => ?_⟩⟩
        · rw [if_pos (hp.2 h)] at z4
          exact z4
        · rw [if_neg fun h' => h (hp.1 h')] at z4
          exact z4

/-! ## The references of a dispatch -/

theorem ref_tied {led : Ledger} {w : World} (h : Tied led w) {x : NodeId} {n : Node} (hx : w.nodes x = some n) (hr : Room w x) :
    ∃ w', (Act.ref x).run w = .ok w' (some x) ∧ Tied (fun j => led j + if j = x then 1 else 0) w' ∧ w'.fresh = w.fresh ∧
      (∀ j m, w.nodes j = some m → ∃ m', w'.nodes j = some m' ∧ m'.type = m.type ∧ m'.parent = m.parent ∧ m'.host = m.host ∧ m'.owner = m.owner) ∧
      ∀ j, j ≠ x → w'.nodes j = w.nodes j := by
  obtain ⟨ch, So, hl⟩ := h
  refine ⟨_, ?_, ⟨ch, So.ref hx (hr n hx), fun j => ?_⟩, rfl, fun j m hj =>
    ⟨{ m with refcnt := if j = x then u32 (m.refcnt + 1) else m.refcnt }, ?_, rfl, rfl, rfl, rfl⟩, fun j hj => ?_⟩
  · show (Tree.ref x >>= _) w = _
    rw [Tree.bind_ok (Tree.ref_run hx)]
    rfl
  · rw [Tree.grants_ref hx (hr n hx) j, hl j]
    simp only [Option.some.injEq, eq_comm]
  · rw [Tree.mp_nodes, hj]
    rfl
  · rw [Tree.mp_nodes]
    simp only [if_neg hj]
    cases w.nodes j <;> rfl

theorem PathFrom.same {w w' : World} (hn : ∀ j m, w.nodes j = some m → ∃ m', w'.nodes j = some m' ∧ m'.type = m.type ∧ m'.parent = m.parent ∧ m'.host = m.host ∧ m'.owner = m.owner)
    {o : Option NodeId} {l : List NodeId} (h : PathFrom w o l) : PathFrom w' o l := by
  induction h with
  | top => exact .top
  | up hi _ ih =>
    obtain ⟨m', h1, h2, h3, h4, _⟩ := hn _ _ hi
    refine .up h1 ?_
    rw [h2, h3, h4]
    exact ih

theorem collect_safe (path : List NodeId) : ∀ (fuel : Nat) (o : Option NodeId) (s : S), PathFrom s.w o path → path.length ≤ fuel → path.Nodup →
    (∀ t ∈ path, Room s.w t) → Safe s →
    ∃ s', collect fuel o s = .ok (path.filter (listening s.ev.lists s.ev.evt.type), s') ∧ Safe s' ∧ s'.ev = s.ev ∧ s'.own = s.own ∧ s'.log = s.log ∧
      ∀ x, s'.held x = s.held x + (path.filter (listening s.ev.lists s.ev.evt.type)).count x := by
  induction path with
  | nil =>
    intro fuel o s hp _ _ _ hs
    cases hp
    exact ⟨s, by unfold collect; rfl, hs, rfl, rfl, rfl, fun x => by simp⟩
  | cons t path ih =>
    intro fuel o s hp hf hnd hroom hs
    cases hp with
    | @up i n l hi hrest =>
    cases fuel with
    | zero => simp at hf
    | succ fuel =>
    unfold collect
    rw [hi]
    dsimp only
    by_cases hlis : listening s.ev.lists s.ev.evt.type t = true
    · rw [if_pos (by exact hlis), List.filter_cons_of_pos hlis]
      obtain ⟨w', h1, h2, h3, h4, h5⟩ := ref_tied hs.client hi (hroom t (by simp))
      rw [h1]
      dsimp only
      rw [List.nodup_cons] at hnd
      have hbook : (Act.ref t).book s.held (some t) = fun j => s.held j + if j = t then 1 else 0 := by
        funext j
        show s.held j + _ = _
        simp only [Option.some.injEq, eq_comm]
      obtain ⟨s', k1, k2, k3, k4, k5, k6⟩ := ih fuel _ { s with w := w', held := (Act.ref t).book s.held (some t) } (PathFrom.same h4 hrest) (by simp at hf; omega) hnd.2
        (fun x hx => by
          have : x ≠ t := fun e => hnd.1 (e ▸ hx)
          intro m hm
          exact hroom x (List.mem_cons_of_mem _ hx) m (by rw [← h5 x this]; exact hm))
        ⟨by
          obtain ⟨ch, So, hl⟩ := h2
          refine ⟨ch, So, fun j => ?_⟩
          rw [hl j]
          unfold S.led
          rw [hbook]
          dsimp only
          omega, hs.ids,
         fun x hx => by
          have := hs.target x hx
          rw [hbook]
          dsimp only
          omega,
         fun x hx => by
          have := hs.current x hx
          rw [hbook]
          dsimp only
          omega⟩
      unfold upOf
      rw [k1]
      refine ⟨s', rfl, k2, k3, k4, k5, fun x => ?_⟩
      rw [k6 x, hbook, List.count_cons]
      dsimp only
      by_cases hx : x = t
      · subst hx; simp; omega
      · simp [hx, Ne.symm hx]
    · rw [if_neg (by exact hlis), List.filter_cons_of_neg hlis]
      exact ih fuel _ s hrest (by simp at hf; omega) (List.nodup_cons.1 hnd).2 (fun x hx => hroom x (List.mem_cons_of_mem _ hx)) hs

/-- Giving up references of which one is left each time. -/
theorem release_safe (ts : List NodeId) : ∀ s : S, Tied s.led s.w → (∀ x, x ∈ ts → ts.count x < s.held x) →
    ∃ s', release ts s = .ok s' ∧ Tied s'.led s'.w ∧ s'.ev = s.ev ∧ s'.own = s.own ∧ s'.log = s.log ∧ ∀ x, s'.held x = s.held x - ts.count x := by
  induction ts with
  | nil => exact fun s hs _ => ⟨s, rfl, hs, rfl, rfl, rfl, fun x => by simp⟩
  | cons t ts ih =>
    intro s hs hc
    have ht := hc t (by simp)
    rw [List.count_cons_self] at ht
    obtain ⟨ch, So, hl⟩ := hs
    have hfine : Careful s.led s.w (.unref t) := by
      refine ⟨⟨fun y hy => ?_, trivial⟩, fun n hn h1 _ => ?_⟩
      · simp [Act.args] at hy
        rw [hy]; unfold S.led; omega
      · have := hl t
        rw [Tree.count_eq hn, h1] at this
        unfold S.led at this
        omega
    obtain ⟨w', ch', S', ⟨r, h1, h2⟩ | ⟨e, h1, _⟩⟩ := So.act hl hfine
    · unfold release
      rw [h1]
      dsimp only
      have hbook : ∀ x, (Act.unref t).book s.held r x = if x = t then s.held x - 1 else s.held x := fun x => rfl
      obtain ⟨s', k1, k2, k3, k4, k5, k6⟩ := ih { s with w := w', held := (Act.unref t).book s.held r }
        ⟨ch', S', fun j => by
          rw [h2 j]
          unfold S.led
          show (if j = t then s.own j + s.held j - 1 else s.own j + s.held j) = s.own j + (if j = t then s.held j - 1 else s.held j)
          split_ifs with e
          · subst e; omega
          · rfl⟩
        (fun x hx => by
          have := hc x (List.mem_cons_of_mem _ hx)
          rw [List.count_cons] at this
          dsimp only
          rw [hbook]
          by_cases e : x = t
          · subst e; simp at this ⊢; omega
          · simp [e, Ne.symm e] at this ⊢; exact this)
      refine ⟨s', k1, k2, k3, k4, k5, fun x => ?_⟩
      rw [k6 x]
      dsimp only
      rw [hbook, List.count_cons]
      by_cases e : x = t
      · subst e; simp; omega
      · simp [e, Ne.symm e]
    · exact absurd h1 (by
        intro h1
        have hr : (Act.unref t).run s.w = (Tree.unref t >>= fun _ => pure none) s.w := rfl
        obtain ⟨n, hn, hpos⟩ : ∃ n, s.w.nodes t = some n ∧ 0 < n.refcnt := by
          have := hl t
          unfold Tree.count at this
          cases hn : s.w.nodes t with
          | none => rw [hn] at this; unfold S.led at this; dsimp only at this; omega
          | some n => rw [hn] at this; unfold S.led at this; dsimp only at this; exact ⟨n, rfl, by omega⟩
        obtain ⟨v, chv, g1, _⟩ := So.unref hn hpos (hfine.2 n hn)
        rw [hr, Tree.bind_ok g1] at h1
        cases h1)

/-! ## Theorems -/

theorem exec_log {s s' : S} {c : Cmd} (h : exec s c = .ok s') : s'.log = s.log := by
  unfold exec at h
  split at h
  · split at h <;> cases h; rfl
  · split at h <;> cases h; rfl
  · cases h; rfl
  · split at h <;> cases h <;> rfl
  · split at h
    · cases h; rfl
    · unfold take at h
      split at h <;> cases h <;> rfl
  · split at h
    · cases h; rfl
    · unfold take at h
      split at h <;> cases h <;> rfl

theorem execAll_log (cs : List Cmd) : ∀ {s s' : S}, execAll cs s = .ok s' → s'.log = s.log := by
  induction cs with
  | nil => intro s s' h; cases h; rfl
  | cons c cs ih =>
    intro s s' h
    unfold execAll at h
    cases hc : exec s c with
    | ok s1 => rw [hc, Out.bind_ok] at h; rw [ih h, exec_log hc]
    | exc e => rw [hc] at h; cases h
    | fault f => rw [hc] at h; cases h

theorem action_log {h : Handler} {acts : Bool} {d : NodeId} {stage : Stage} {s s' : S} (hr : action h acts d stage s = .ok s') :
    ∃ rs, s'.log = s.log ++ rs ∧ Acted acts stage rs := by
  unfold action at hr
  split at hr
  · cases hr
  · cases acts with
    | false => cases hr; exact ⟨[], by simp, rfl⟩
    | true =>
      rw [if_pos rfl] at hr
      unfold invoke at hr
      cases hc : execAll (h (.action stage) s) s with
      | ok s1 =>
        rw [hc, Out.bind_ok] at hr
        cases hr
        exact ⟨[{ who := .action stage, seen := s.ev.evt, cmds := h (.action stage) s }], by dsimp only; rw [execAll_log _ hc], rfl⟩
      | exc e => rw [hc] at hr; cases hr
      | fault f => rw [hc] at hr; cases hr

theorem release_log (ts : List NodeId) : ∀ {s s' : S}, release ts s = .ok s' → s'.log = s.log := by
  induction ts with
  | nil => intro s s' h; cases h; rfl
  | cons t ts ih =>
    intro s s' h
    unfold release at h
    split at h
    · rw [ih h]
    · cases h
    · cases h

/-- A dispatch up to the point where it gives up its references. -/
theorem dispatch_body {h : Handler} (ht : Tidy h) (hst : Starts h) (acts : Bool) (fuel : Nat) {et d : NodeId} {s : S} {n : Node} {ty : DStr} {path : List NodeId}
    (hs : Safe s) (hn : s.w.nodes et = some n) (ho : n.owner = some d) (het : 0 < s.held et) (hd : 0 < s.held d)
    (hpath : PathFrom s.w n.parent path) (hlen : path.length ≤ s.w.fresh) (hnd : path.Nodup) (hroom : ∀ t ∈ path, Room s.w t)
    (hty : s.ev.evt.type = some ty)
    (hnew : s.ev.evt.inDispatch = false ∧ s.ev.evt.stop = false ∧ s.ev.evt.stopNow = false ∧ s.ev.evt.preventDefault = false) :
    dispatch h acts fuel et s = .fault .diverge ∨ ∃ s' b rs1 rs2 rs3,
      (dispatch h acts fuel et s = do
        let t ← release (path.filter (listening s.ev.lists s.ev.evt.type)).reverse s'
        let t ← action h acts d .finished t
        .ok { s := t, err := none, success := some (!s'.ev.evt.preventDefault) }) ∧ Safe s' ∧
      (∀ x, s'.held x = s.held x + (path.filter (listening s.ev.lists s.ev.evt.type)).count x) ∧
      s'.log = s.log ++ (rs1 ++ rs2 ++ rs3) ∧ Acted acts .started rs1 ∧ Follows (route et path) rs2 b ∧ Ended acts b (rs1 ++ rs2) rs3 ∧
      (s'.ev.evt.preventDefault = true ↔ ∃ r ∈ rs1 ++ rs2 ++ rs3, Gave .preventDefault r) ∧
      (∀ a r c, rs2 = a ++ r :: c → Registered s.ev.lists ty s.ev.evt.bubble (rs1 ++ a) r) ∧ ∀ r ∈ rs1 ++ rs2 ++ rs3, r.seen.target = some et := by
  unfold dispatch
  rw [if_neg (by rw [hnew.1]; simp)]
  dsimp only
  rw [if_neg (by show ¬ s.ev.evt.type = none; rw [hty]; simp)]
  have hs0 : Safe (withEvt s fun v => { v with inDispatch := true }) := hs.evt hs.target hs.current
  obtain ⟨s1, k1, k2, k3, k4, k5, k6⟩ := collect_safe path (s.w.fresh + 1) n.parent (withEvt s fun v => { v with inDispatch := true }) hpath (by omega) hnd hroom hs0
  have hnodes : (withEvt s fun v => { v with inDispatch := true }).w.nodes et = some n := hn
  rw [hnodes]
  dsimp only
  rw [ho]
  dsimp only
  rw [show (withEvt s fun v => { v with inDispatch := true }).w.fresh = s.w.fresh from rfl, k1, Out.bind_ok]
  dsimp only
  have hfil : listening (withEvt s fun v => { v with inDispatch := true }).ev.lists (withEvt s fun v => { v with inDispatch := true }).ev.evt.type =
      listening s.ev.lists s.ev.evt.type := rfl
  rw [hfil] at k6 ⊢
  rcases body_safe ht hst acts fuel (et := et) (d := d) (path := path) (p := listening s.ev.lists s.ev.evt.type) k2
    (by rw [k6]; show 0 < s.held et + _; omega) (by rw [k6]; show 0 < s.held d + _; omega)
    (fun t hm => by rw [k6]; have := List.count_pos_iff.2 hm; show 0 < s.held t + _; omega)
    (by rw [k3]; exact hnew.2.1) (by rw [k3]; exact hnew.2.2.1) (by rw [k3]; exact hnew.2.2.2) with j | ⟨s', b, rs1, rs2, rs3, j1, j2, j3, j4, j5, j6⟩
  · rw [j]; exact .inl rfl
  refine .inr ⟨s', b, rs1, rs2, rs3, ?_, j2, fun x => ?_, ?_, j4, j5, j6, ?_, ?_, j3.seen⟩
  · rw [j1]; rfl
  · rw [j3.held]; exact k6 x
  · rw [j3.log]
    show s1.log ++ _ = _
    rw [k5]; rfl
  · rw [j3.prevent]
    constructor
    · rintro (hh | hh)
      · have : s1.ev.evt.preventDefault = true := hh
        rw [k3] at this
        rw [show (withEvt s fun v => { v with inDispatch := true }).ev.evt.preventDefault = s.ev.evt.preventDefault from rfl, hnew.2.2.2] at this
        cases this
      · exact hh
    · exact .inr
  · intro a r c e
    have := j3.reg ty (by show s1.ev.evt.type = _; rw [k3]; exact hty) (rs1 ++ a) r (c ++ rs3) (by rw [e]; simp)
    have e1 : (withEvt s1 fun v => { v with target := some et, phase := some .capturing }).ev.lists = s.ev.lists := by
      show s1.ev.lists = _
      rw [k3]; rfl
    have e2 : (withEvt s1 fun v => { v with target := some et, phase := some .capturing }).ev.evt.bubble = s.ev.evt.bubble := by
      show s1.ev.evt.bubble = _
      rw [k3]; rfl
    rw [e1, e2] at this
    exact this

/-- C42, C43.  Whatever the listeners do to the tree, to the listeners of any node and to the event, as careful clients: a dispatch that ends calls
listeners only along the path that led from the target to the root when it began (captures downwards, the target, bubbling upwards), those of one stop before
those of the next; only listeners that are registered for the type and phase, from the start or by an earlier call; after stopImmediatePropagation nothing,
after stopPropagation nothing at another stop; and `success` is false exactly if preventDefault was called.

Missing: that every listener due is called, which fails when listeners remove others (`C42_self_removal_violated`); a dispatch that never ends
(`C42_endless_violated`). -/
theorem C42_any_listeners_partial {h : Handler} (ht : Tidy h) (hst : Starts h) (acts : Bool) (fuel : Nat) {et d : NodeId} {s : S} {n : Node} {ty : DStr}
    {path : List NodeId} (hs : Safe s) (hn : s.w.nodes et = some n) (ho : n.owner = some d) (het : 0 < s.held et) (hd : 0 < s.held d)
    (hpath : PathFrom s.w n.parent path) (hlen : path.length ≤ s.w.fresh) (hnd : path.Nodup) (hroom : ∀ t ∈ path, Room s.w t)
    (hty : s.ev.evt.type = some ty)
    (hnew : s.ev.evt.inDispatch = false ∧ s.ev.evt.stop = false ∧ s.ev.evt.stopNow = false ∧ s.ev.evt.preventDefault = false)
    {res : Result} (hres : dispatch h acts fuel et s = .ok res) :
    res.err = none ∧ ∃ b rs1 rs2 rs3 rs4, res.s.log = s.log ++ (rs1 ++ rs2 ++ rs3) ++ rs4 ∧ Acted acts .started rs1 ∧ Follows (route et path) rs2 b ∧
      Ended acts b (rs1 ++ rs2) rs3 ∧ Acted acts .finished rs4 ∧ (res.success = some true ∨ res.success = some false) ∧
      (res.success = some false ↔ ∃ r ∈ rs1 ++ rs2 ++ rs3, Gave .preventDefault r) ∧
      ∀ a r c, rs2 = a ++ r :: c → Registered s.ev.lists ty s.ev.evt.bubble (rs1 ++ a) r := by
  rcases dispatch_body ht hst acts fuel hs hn ho het hd hpath hlen hnd hroom hty hnew with k | ⟨s', b, rs1, rs2, rs3, k1, k2, k3, k4, k5, k6, k7, k8, k9, k10⟩
  · rw [k] at hres; cases hres
  rw [k1] at hres
  cases hr : release (path.filter (listening s.ev.lists s.ev.evt.type)).reverse s' with
  | ok t =>
    rw [hr, Out.bind_ok] at hres
    cases ha : action h acts d .finished t with
    | ok u =>
      rw [ha, Out.bind_ok] at hres
      cases hres
      obtain ⟨rs4, e1, e2⟩ := action_log ha
      refine ⟨rfl, b, rs1, rs2, rs3, rs4, by rw [e1, release_log _ hr, k4], k5, k6, k7, e2, ?_, ?_, k9⟩
      · dsimp only
        cases s'.ev.evt.preventDefault
        · exact .inl rfl
        · exact .inr rfl
      · rw [← k8]
        cases s'.ev.evt.preventDefault <;> simp
    | exc e => rw [ha] at hres; cases hres
    | fault f => rw [ha] at hres; cases hres
  | exc e => rw [hr] at hres; cases hres
  | fault f => rw [hr] at hres; cases hres

theorem Follows.listeners {ps : List (NodeId × Phase)} {rs : List Ran} {b : Bool} (h : Follows ps rs b) : ∀ r ∈ rs, ∃ n ph l, (n, ph) ∈ ps ∧ r.who = .listener n ph l ∧
    r.seen.current = some n ∧ r.seen.phase = some ph := by
  induction h with
  | done => simp
  | @stop n ph ps rs h1 _ _ =>
    intro r hr
    obtain ⟨⟨l, hl⟩, h2⟩ := h1 r hr
    exact ⟨n, ph, l, by simp, hl, h2⟩
  | @go n ph ps rs rs' b h1 _ _ ih =>
    intro r hr
    rcases List.mem_append.1 hr with hr | hr
    · obtain ⟨⟨l, hl⟩, h2⟩ := h1 r hr
      exact ⟨n, ph, l, by simp, hl, h2⟩
    · obtain ⟨n', ph', l, h2, h3⟩ := ih r hr
      exact ⟨n', ph', l, List.mem_cons_of_mem _ h2, h3⟩

theorem Follows.stopped {ps : List (NodeId × Phase)} {rs : List Ran} {b : Bool} (h : Follows ps rs b) : b = true ↔ Stops rs := by
  induction h with
  | done => simp [no_stops]
  | stop _ _ h3 => simp [h3]
  | go _ h2 _ ih =>
    rw [ih]
    constructor
    · rintro ⟨r, hr, hg⟩
      exact ⟨r, List.mem_append_right _ hr, hg⟩
    · rintro ⟨r, hr, hg⟩
      rcases List.mem_append.1 hr with hr | hr
      · exact absurd ⟨r, hr, hg⟩ h2
      · exact ⟨r, hr, hg⟩

/-- The callbacks for default actions among what ran, in order. -/
def stages (rs : List Ran) : List Stage := rs.filterMap fun r => match r.who with
  | .action st => some st
  | .listener _ _ _ => none

theorem stages_append (a b : List Ran) : stages (a ++ b) = stages a ++ stages b := List.filterMap_append

theorem Acted.stages {acts : Bool} {st : Stage} {rs : List Ran} (h : Acted acts st rs) : stages rs = if acts then [st] else [] := by
  unfold Acted at h
  have : Live.stages rs = (rs.map Ran.who).filterMap fun w => match w with
    | .action st => some st
    | .listener _ _ _ => none := by
    rw [List.filterMap_map]
    rfl
  rw [this, h]
  cases acts <;> rfl

theorem Follows.stages {ps : List (NodeId × Phase)} {rs : List Ran} {b : Bool} (h : Follows ps rs b) : stages rs = [] := by
  unfold Live.stages
  rw [List.filterMap_eq_nil_iff]
  intro r hr
  obtain ⟨n, ph, l, _, h2, _⟩ := h.listeners r hr
  rw [h2]

/-- C70.  While a dispatch runs the event tells the truth: for every listener called, the target of the event is the node it was dispatched to, its current
target is the node the listener was called for and its phase is the phase it was called in; the node and phase are on the path; for the callback at the start
and the one at the end of the event flow the target is right too. -/
theorem C70_event_state {h : Handler} (ht : Tidy h) (hst : Starts h) (acts : Bool) (fuel : Nat) {et d : NodeId} {s : S} {n : Node} {ty : DStr}
    {path : List NodeId} (hs : Safe s) (hn : s.w.nodes et = some n) (ho : n.owner = some d) (het : 0 < s.held et) (hd : 0 < s.held d)
    (hpath : PathFrom s.w n.parent path) (hlen : path.length ≤ s.w.fresh) (hnd : path.Nodup) (hroom : ∀ t ∈ path, Room s.w t)
    (hty : s.ev.evt.type = some ty)
    (hnew : s.ev.evt.inDispatch = false ∧ s.ev.evt.stop = false ∧ s.ev.evt.stopNow = false ∧ s.ev.evt.preventDefault = false)
    {res : Result} (hres : dispatch h acts fuel et s = .ok res) :
    ∃ new, res.s.log = s.log ++ new ∧ ∀ r ∈ new, (r.who ≠ .action .finished → r.seen.target = some et) ∧
      ∀ x ph l, r.who = .listener x ph l → r.seen.current = some x ∧ r.seen.phase = some ph ∧ (x, ph) ∈ route et path := by
  rcases dispatch_body ht hst acts fuel hs hn ho het hd hpath hlen hnd hroom hty hnew with k | ⟨s', b, rs1, rs2, rs3, k1, k2, k3, k4, k5, k6, k7, k8, k9, k10⟩
  · rw [k] at hres; cases hres
  rw [k1] at hres
  have acted : ∀ {st rs}, Acted acts st rs → ∀ r ∈ rs, r.who = .action st := by
    intro st rs ha r hr
    unfold Acted at ha
    have hm := List.mem_map_of_mem (f := Ran.who) hr
    rw [ha] at hm
    cases acts with
    | false => exact absurd hm (by simp)
    | true => exact List.mem_singleton.1 hm
  cases hr : release (path.filter (listening s.ev.lists s.ev.evt.type)).reverse s' with
  | ok t =>
    rw [hr, Out.bind_ok] at hres
    cases ha : action h acts d .finished t with
    | ok u =>
      rw [ha, Out.bind_ok] at hres
      cases hres
      obtain ⟨rs4, e1, e2⟩ := action_log ha
      refine ⟨(rs1 ++ rs2 ++ rs3) ++ rs4, by rw [e1, release_log _ hr, k4, List.append_assoc], fun r hr => ?_⟩
      rcases List.mem_append.1 hr with hr | hr
      · refine ⟨fun _ => k10 r hr, fun x ph l hw => ?_⟩
        rcases List.mem_append.1 hr with hr | hr
        · rcases List.mem_append.1 hr with hr | hr
          · rw [acted k5 r hr] at hw; cases hw
          · obtain ⟨x', ph', l', q1, q2, q3, q4⟩ := k6.listeners r hr
            rw [q2] at hw
            cases hw
            exact ⟨q3, q4, q1⟩
        · exfalso
          cases b with
          | true => rw [k7.1 rfl] at hr; cases hr
          | false =>
            by_cases hp : ∃ r ∈ rs1 ++ rs2, Gave .preventDefault r
            · rw [acted ((k7.2 rfl).1 hp) r hr] at hw; cases hw
            · rw [acted ((k7.2 rfl).2 hp) r hr] at hw; cases hw
      · have hw := acted e2 r hr
        exact ⟨fun h => absurd hw h, fun x ph l hw' => by rw [hw] at hw'; cases hw'⟩
    | exc e => rw [ha] at hres; cases hres
    | fault f => rw [ha] at hres; cases hres
  | exc e => rw [hr] at hres; cases hres
  | fault f => rw [hr] at hres; cases hres

/-- C70.  The callbacks for default actions that a dispatch calls, if the document has any: the one for the start first; after the event flow, unless a
listener stopped the event, the one for "prevented" if preventDefault was called before and else the one for the end; at last the one for "finished".

Missing: after stopPropagation the callback for the end is left out although the default action has not been prevented (`C70_stopped_violated`); an event
that cannot be cancelled is prevented all the same (`C70_cancelable_violated`). -/
theorem C70_default_actions_partial {h : Handler} (ht : Tidy h) (hst : Starts h) (acts : Bool) (fuel : Nat) {et d : NodeId} {s : S} {n : Node} {ty : DStr}
    {path : List NodeId} (hs : Safe s) (hn : s.w.nodes et = some n) (ho : n.owner = some d) (het : 0 < s.held et) (hd : 0 < s.held d)
    (hpath : PathFrom s.w n.parent path) (hlen : path.length ≤ s.w.fresh) (hnd : path.Nodup) (hroom : ∀ t ∈ path, Room s.w t)
    (hty : s.ev.evt.type = some ty)
    (hnew : s.ev.evt.inDispatch = false ∧ s.ev.evt.stop = false ∧ s.ev.evt.stopNow = false ∧ s.ev.evt.preventDefault = false)
    {res : Result} (hres : dispatch h acts fuel et s = .ok res) :
    ∃ new, res.s.log = s.log ++ new ∧ (acts = false → stages new = []) ∧ (acts = true →
      (Stops (new.filter fun r => r.who matches .listener _ _ _) → stages new = [.started, .finished]) ∧
      (¬ Stops (new.filter fun r => r.who matches .listener _ _ _) →
        (stages new = [.started, .prevented, .finished] ∧ (∃ r ∈ new, Gave .preventDefault r ∧ (r.who = .action .started ∨ ∃ x ph l, r.who = .listener x ph l))) ∨
        (stages new = [.started, .finish, .finished] ∧ ∀ r ∈ new, Gave .preventDefault r → r.who = .action .finish ∨ r.who = .action .finished))) := by
  obtain ⟨_, b, rs1, rs2, rs3, rs4, e1, e2, e3, e4, e5, _⟩ := C42_any_listeners_partial ht hst acts fuel hs hn ho het hd hpath hlen hnd hroom hty hnew hres
  have acted : ∀ {st rs}, Acted acts st rs → ∀ r ∈ rs, r.who = .action st := by
    intro st rs ha r hr
    unfold Acted at ha
    have hm := List.mem_map_of_mem (f := Ran.who) hr
    rw [ha] at hm
    cases acts with
    | false => exact absurd hm (by simp)
    | true => exact List.mem_singleton.1 hm
  have none_ : ∀ {st rs}, Acted acts st rs → rs.filter (fun r => r.who matches .listener _ _ _) = [] := by
    intro st rs ha
    rw [List.filter_eq_nil_iff]
    intro r hr
    rw [acted ha r hr]
    simp
  have h3 : rs3.filter (fun r => r.who matches .listener _ _ _) = [] := by
    cases b with
    | true => rw [e4.1 rfl]; rfl
    | false =>
      by_cases hp : ∃ r ∈ rs1 ++ rs2, Gave .preventDefault r
      · exact none_ ((e4.2 rfl).1 hp)
      · exact none_ ((e4.2 rfl).2 hp)
  have h2 : rs2.filter (fun r => r.who matches .listener _ _ _) = rs2 := by
    rw [List.filter_eq_self]
    intro r hr
    obtain ⟨x, ph, l, _, q, _⟩ := e3.listeners r hr
    rw [q]
  have hf : ((rs1 ++ rs2 ++ rs3) ++ rs4).filter (fun r => r.who matches .listener _ _ _) = rs2 := by
    rw [List.filter_append, List.filter_append, List.filter_append, none_ e2, h2, h3, none_ e5]
    simp
  have hs : stages ((rs1 ++ rs2 ++ rs3) ++ rs4) = (if acts then [.started] else []) ++ stages rs3 ++ (if acts then [.finished] else []) := by
    rw [stages_append, stages_append, stages_append, e2.stages, e3.stages, e5.stages, List.append_nil]
  refine ⟨(rs1 ++ rs2 ++ rs3) ++ rs4, by rw [e1, List.append_assoc], fun ha => ?_, fun ha => ⟨fun hstop => ?_, fun hstop => ?_⟩⟩
  · rw [hs, ha]
    have : stages rs3 = [] := by
      cases b with
      | true => rw [e4.1 rfl]; rfl
      | false =>
        by_cases hp : ∃ r ∈ rs1 ++ rs2, Gave .preventDefault r
        · rw [((e4.2 rfl).1 hp).stages, ha]; rfl
        · rw [((e4.2 rfl).2 hp).stages, ha]; rfl
    rw [this]
    rfl
  · rw [hf] at hstop
    rw [hs, ha, e4.1 (e3.stopped.2 hstop)]
    rfl
  · rw [hf] at hstop
    have hb : b = false := by
      cases b with
      | false => rfl
      | true => exact absurd (e3.stopped.1 rfl) hstop
    by_cases hp : ∃ r ∈ rs1 ++ rs2, Gave .preventDefault r
    · left
      refine ⟨by rw [hs, ((e4.2 hb).1 hp).stages, ha]; rfl, ?_⟩
      obtain ⟨r, hr, hg⟩ := hp
      refine ⟨r, List.mem_append_left _ (List.mem_append_left _ hr), hg, ?_⟩
      rcases List.mem_append.1 hr with hr | hr
      · exact .inl (acted e2 r hr)
      · obtain ⟨x, ph, l, _, q, _⟩ := e3.listeners r hr
        exact .inr ⟨x, ph, l, q⟩
    · right
      refine ⟨by rw [hs, ((e4.2 hb).2 hp).stages, ha]; rfl, fun r hr hg => ?_⟩
      rcases List.mem_append.1 hr with hr | hr
      · rcases List.mem_append.1 hr with hr | hr
        · exact absurd ⟨r, hr, hg⟩ hp
        · exact .inl (acted ((e4.2 hb).2 hp) r hr)
      · exact .inr (acted e5 r hr)

/-- C46, C47 for dispatch.  If the caller has references to the target, its document and the ancestors of the target, a dispatch without default actions
never uses what was released, whatever the listeners do as careful clients: it returns (or loops for ever), all references are accounted for, and it has
given up the references it took.

Missing: a caller without references to the ancestors, where giving up the last reference to one of them meets the cases left out of `Tree.Careful`; the
callback at the end, which may ask for the current target (`C70_current_violated`). -/
theorem C46_dispatch_live_partial {h : Handler} (ht : Tidy h) (hst : Starts h) (fuel : Nat) {et d : NodeId} {s : S} {n : Node} {ty : DStr}
    {path : List NodeId} (hs : Safe s) (hn : s.w.nodes et = some n) (ho : n.owner = some d) (het : 0 < s.held et) (hd : 0 < s.held d)
    (hpath : PathFrom s.w n.parent path) (hlen : path.length ≤ s.w.fresh) (hnd : path.Nodup) (hroom : ∀ t ∈ path, Room s.w t)
    (hanc : ∀ t ∈ path, 0 < s.held t) (hty : s.ev.evt.type = some ty)
    (hnew : s.ev.evt.inDispatch = false ∧ s.ev.evt.stop = false ∧ s.ev.evt.stopNow = false ∧ s.ev.evt.preventDefault = false) :
    dispatch h false fuel et s = .fault .diverge ∨
      ∃ res, dispatch h false fuel et s = .ok res ∧ Tied res.s.led res.s.w ∧ res.s.held = s.held := by
  rcases dispatch_body ht hst false fuel hs hn ho het hd hpath hlen hnd hroom hty hnew with k | ⟨s', b, rs1, rs2, rs3, k1, k2, k3, k4, k5, k6, k7, k8, k9, k10⟩
  · exact .inl k
  right
  obtain ⟨t, r1, r2, r3, r4, r5, r6⟩ := release_safe (path.filter (listening s.ev.lists s.ev.evt.type)).reverse s' k2.client (fun x hx => by
    rw [List.count_reverse, k3 x]
    have := hanc x (List.mem_filter.1 (List.mem_reverse.1 hx)).1
    omega)
  have hheld : t.held = s.held := by
    funext x
    rw [r6 x, k3 x, List.count_reverse]
    omega
  obtain ⟨m, hm⟩ : ∃ m, t.w.nodes d = some m := by
    obtain ⟨ch, So, hl⟩ := r2
    have := hl d
    unfold Tree.count at this
    cases hx : t.w.nodes d with
    | none => rw [hx] at this; unfold S.led at this; rw [hheld] at this; dsimp only at this; omega
    | some m => exact ⟨m, rfl⟩
  rw [k1, r1, Out.bind_ok]
  unfold action
  rw [hm]
  exact ⟨_, rfl, r2, hheld⟩

end Dom.Events.Live
