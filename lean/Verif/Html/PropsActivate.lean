import Verif.Html.Activate
import Verif.Events.PropsReg
set_option linter.unusedSimpArgs false
set_option linter.unusedVariables false
/-!
# C101: the methods blur, focus, select, click, submit and reset
-/
namespace Dom.Html.Activate

open Dom.Events
open Dom.Str (DStr)
open Dom.Tree (NodeId Node World)

/-! ## Specification -/

/-- **Specification.**  The methods of the interfaces of DOM Level 2 HTML. -/
def Has : Control → Method → Prop
  | .anchor, m => m = .blur ∨ m = .focus
  | .textArea, m => m = .blur ∨ m = .focus ∨ m = .select
  | .form, m => m = .submit ∨ m = .reset
  | .select, m => m = .blur ∨ m = .focus
  | .input, m => m = .blur ∨ m = .focus ∨ m = .select ∨ m = .click

/-- **Specification.**  The type of the event is the name of the method. -/
def typeOf : Method → DStr
  | .blur => Names.lit "blur"
  | .focus => Names.lit "focus"
  | .select => Names.lit "select"
  | .click => Names.lit "click"
  | .submit => Names.lit "submit"
  | .reset => Names.lit "reset"

/-- **Specification.**  `blur` and `focus` do not bubble, the others do (DOM Level 2 Events 1.6.5). -/
def Bubbles (m : Method) : Bool := match m with
  | .blur => false
  | .focus => false
  | _ => true

/-- **Specification.**  Where the code differs. -/
def Odd (c : Control) (m : Method) : Prop := (c = .input ∧ m = .blur) ∨ (c = .select ∧ (m = .blur ∨ m = .focus))

/-- **Specification.**  The element is in memory and belongs to a document; `path` are the nodes above it; the entries of the lists have their own addresses, and `fuel` is not below the
lengths of the lists. -/
structure Ready (w : World) (p : Page) (et : NodeId) (path : List NodeId) (fuel : Nat) : Prop where
  node : ∃ n, w.nodes et = some n ∧ n.owner ≠ none ∧ PathFrom w n.parent path
  short : path.length ≤ w.fresh
  nodup : ∀ n, ((p.lists n).map Entry.id).Nodup
  bound : ∀ n, ∀ e ∈ p.lists n, e.id < p.fresh
  fuel : ∀ n, (p.lists n).length ≤ fuel

/-! ## Runs -/

theorem event_none {c : Control} {m : Method} (h : ¬ Has c m) : event c m = none := by
  cases c <;> cases m <;> first | rfl | (exact absurd (by simp [Has]) h)

theorem run_event {H : Handler} (hq : Quiet H) {w : World} {p : Page} {et : NodeId} {path : List NodeId} {fuel : Nat} (hr : Ready w p et path fuel) {c : Control} {m : Method}
    {s : String} {b ca : Bool} (he : event c m = some (s, b, ca)) :
    ∃ cs f, activate H fuel w p c m et = .ok (finish c m et { p with log := p.log ++ cs, fresh := f } none) ∧
      Propagates (plan p.lists (Names.lit s) b et path) cs ∧ ∀ x ∈ cs, ∃ z, x.cmds = H x.listener z := by
  obtain ⟨n, hn, ho, hp⟩ := hr.node
  obtain ⟨st', cs, h1, h2, h3, h4, h5⟩ := C43_stop_and_prevent hq hn ho hp hr.short
    (st := { evt := { type := some (Names.lit s), bubble := b, cancelable := ca }, lists := p.lists, fresh := p.fresh, log := p.log })
    ⟨hr.nodup, hr.bound⟩ rfl ⟨rfl, rfl, rfl, rfl⟩ hr.fuel
  refine ⟨cs, st'.fresh, ?_, h3, h5⟩
  unfold activate genericEvent
  simp only [he, hn, ho, if_false, h1, Out.bind_ok, h2, h4]

theorem finish_none (c : Control) (m : Method) (et : NodeId) (p : Page) :
    finish c m et p none = ({ p with checked := fun i => if c = .input ∧ m = .click ∧ i = et then true else p.checked i }, none) := by
  unfold finish
  by_cases h : c = .input ∧ m = .click
  · simp [h.1, h.2]
  · rw [if_neg (fun h' => h ⟨h'.1, h'.2.1⟩)]
    have : (fun i => if c = .input ∧ m = .click ∧ i = et then true else p.checked i) = p.checked := by
      funext i; rw [if_neg (fun h' => h ⟨h'.1, h'.2.1⟩)]
    rw [this]

theorem due_mem {lists : NodeId → List Entry} {ty : DStr} {a : NodeId} {e : Entry} (he : e ∈ lists a) (ht : e.type.data = ty.data) (hc : e.capture = false) :
    (a, Phase.bubbling, e.listener) ∈ due lists ty true .bubbling a := by
  unfold due
  exact List.mem_map.2 ⟨e, List.mem_filter.2 ⟨he, by simp [ht, hc]⟩, rfl⟩

theorem plan_silent {lists : NodeId → List Entry} {ty : DStr} {et : NodeId} {path : List NodeId} {t : Tri} (h : t ∈ (plan lists ty false et path).flatten) : t.2.1 ≠ .bubbling := by
  simp only [plan, List.flatten_append, List.mem_append, List.mem_flatten, List.mem_map, List.mem_singleton] at h
  rcases h with (⟨l, ⟨a, _, rfl⟩, h⟩ | ⟨l, rfl, h⟩) | ⟨l, ⟨a, _, rfl⟩, h⟩
  · simp only [due, List.mem_map] at h
    obtain ⟨e, _, rfl⟩ := h
    simp
  · simp only [due, List.mem_map] at h
    obtain ⟨e, _, rfl⟩ := h
    simp
  · simp [due] at h

/-! ## What listeners are shown -/

/-- **Specification.**  The event that listeners are shown: its type, whether it bubbles and can be cancelled, and its target. -/
structure Looks (ty : DStr) (b ca : Bool) (et : NodeId) (e : Evt) : Prop where
  type : e.type = some ty
  bubble : e.bubble = b
  cancelable : e.cancelable = ca
  target : e.target = some et

/-- **Specification.**  In every call the listener is shown such an event, with `currentTarget` and `eventPhase` of the call. -/
def Shows (H : Handler) (ty : DStr) (b ca : Bool) (et : NodeId) (cs : List Call) : Prop :=
  ∀ x ∈ cs, ∃ z : St, x.cmds = H x.listener z ∧ Looks ty b ca et z.evt ∧ z.evt.current = some x.node ∧ z.evt.phase = some x.phase

variable {H : Handler} {ty : DStr} {b ca : Bool} {et : NodeId}

/-- What a part of a dispatch does: calls are added, and the event stays the same in the eyes of listeners. -/
def Adds (H : Handler) (ty : DStr) (b ca : Bool) (et : NodeId) (ph : Phase) (st st' : St) : Prop :=
  Looks ty b ca et st'.evt ∧ st'.evt.phase = some ph ∧ ∃ cs, st'.log = st.log ++ cs ∧ Shows H ty b ca et cs

theorem exec_keeps (st : St) (c : Cmd) : (exec st c).log = st.log ∧ (exec st c).evt.type = st.evt.type ∧ (exec st c).evt.bubble = st.evt.bubble ∧
    (exec st c).evt.cancelable = st.evt.cancelable ∧ (exec st c).evt.target = st.evt.target ∧ (exec st c).evt.current = st.evt.current ∧ (exec st c).evt.phase = st.evt.phase := by
  cases c with
  | removeListener n t l c =>
    simp only [exec, removeListener]
    split <;> exact ⟨rfl, rfl, rfl, rfl, rfl, rfl, rfl⟩
  | _ => exact ⟨rfl, rfl, rfl, rfl, rfl, rfl, rfl⟩

theorem execs_keep : ∀ (cs : List Cmd) (st : St), (cs.foldl exec st).log = st.log ∧ (cs.foldl exec st).evt.type = st.evt.type ∧ (cs.foldl exec st).evt.bubble = st.evt.bubble ∧
    (cs.foldl exec st).evt.cancelable = st.evt.cancelable ∧ (cs.foldl exec st).evt.target = st.evt.target ∧ (cs.foldl exec st).evt.current = st.evt.current ∧
    (cs.foldl exec st).evt.phase = st.evt.phase
  | [], st => ⟨rfl, rfl, rfl, rfl, rfl, rfl, rfl⟩
  | c :: cs, st => by
    obtain ⟨a1, a2, a3, a4, a5, a6, a7⟩ := exec_keeps st c
    obtain ⟨b1, b2, b3, b4, b5, b6, b7⟩ := execs_keep cs (exec st c)
    exact ⟨b1.trans a1, b2.trans a2, b3.trans a3, b4.trans a4, b5.trans a5, b6.trans a6, b7.trans a7⟩

theorem invoke_adds {st : St} {n : NodeId} {ph : Phase} {l : Nat} (hl : Looks ty b ca et st.evt) (hc : st.evt.current = some n) (hp : st.evt.phase = some ph) :
    Adds H ty b ca et ph st (invoke H st n ph l) ∧ (invoke H st n ph l).evt.current = some n := by
  obtain ⟨b1, b2, b3, b4, b5, b6, b7⟩ := execs_keep (H l st) st
  refine ⟨⟨⟨b2.trans hl.type, b3.trans hl.bubble, b4.trans hl.cancelable, b5.trans hl.target⟩, b7.trans hp, [{ node := n, phase := ph, listener := l, cmds := H l st }], ?_, ?_⟩, b6.trans hc⟩
  · simp only [invoke, b1]
  · intro x hx
    rw [List.mem_singleton] at hx
    subst hx
    exact ⟨st, rfl, hl, hc, hp⟩

theorem Adds.refl {st : St} {ph : Phase} (hl : Looks ty b ca et st.evt) (hp : st.evt.phase = some ph) : Adds H ty b ca et ph st st :=
  ⟨hl, hp, [], by simp, fun x hx => nomatch hx⟩

theorem Adds.trans {s1 s2 s3 : St} {p q : Phase} (h : Adds H ty b ca et p s1 s2) (h' : Adds H ty b ca et q s2 s3) : Adds H ty b ca et q s1 s3 := by
  obtain ⟨_, _, cs, h1, h2⟩ := h
  obtain ⟨h3, h4, ds, h5, h6⟩ := h'
  refine ⟨h3, h4, cs ++ ds, by rw [h5, h1, List.append_assoc], fun x hx => ?_⟩
  rcases List.mem_append.1 hx with hx | hx
  · exact h2 x hx
  · exact h6 x hx

theorem fireLoop_adds {n : NodeId} {ph : Phase} : ∀ (fuel : Nat) (st : St) (le : Nat) (st' : St), Looks ty b ca et st.evt → st.evt.current = some n → st.evt.phase = some ph →
    fireLoop H n ph fuel st le = .ok st' → Adds H ty b ca et ph st st'
  | 0, _, _, _, _, _, _, h => nomatch h
  | fuel + 1, st, le, st', hl, hc, hp, h => by
    unfold fireLoop at h
    split at h
    · cases h
    · rename_i e _
      split at h
      · obtain ⟨ha, hcur⟩ := invoke_adds (H := H) (l := e.listener) hl hc hp
        dsimp only at h
        split at h
        · cases h; exact ha
        · split at h
          · cases h; exact ha
          · split at h
            · cases h
            · split at h
              · cases h; exact ha
              · exact ha.trans (fireLoop_adds fuel _ _ _ ha.1 hcur ha.2.1 h)
      · split at h
        · cases h
        · split at h
          · cases h; exact .refl hl hp
          · exact fireLoop_adds fuel _ _ _ hl hc hp h

theorem targetDispatch_adds {n : NodeId} {ph : Phase} {fuel : Nat} {st st' : St} (hl : Looks ty b ca et st.evt) (hp : st.evt.phase = some ph)
    (h : targetDispatch H fuel n ph st = .ok st') : Adds H ty b ca et ph st st' := by
  unfold targetDispatch at h
  split at h
  · cases h; exact .refl hl hp
  · exact fireLoop_adds fuel { st with evt := { st.evt with current := some n } } _ _ ⟨hl.type, hl.bubble, hl.cancelable, hl.target⟩ rfl hp h

theorem bind_inv {α β : Type} {x : Out α} {f : α → Out β} {v : β} (h : (x >>= f) = .ok v) : ∃ a, x = .ok a ∧ f a = .ok v := by
  cases x with
  | ok a => exact ⟨a, rfl, h⟩
  | exc e => cases h
  | fault e => cases h

theorem phaseLoop_adds {ph : Phase} {fuel : Nat} : ∀ (ts : List NodeId) (st : St) (r : St × Bool), Looks ty b ca et st.evt → st.evt.phase = some ph →
    phaseLoop H fuel ph ts st = .ok r → Adds H ty b ca et ph st r.1
  | [], st, r, hl, hp, h => by cases h; exact .refl hl hp
  | t :: ts, st, r, hl, hp, h => by
    unfold phaseLoop at h
    obtain ⟨s1, h1, h2⟩ := bind_inv h
    have ha := targetDispatch_adds hl hp h1
    split at h2
    · cases h2; exact ha
    · exact ha.trans (phaseLoop_adds ts _ _ ha.1 ha.2.1 h2)

theorem phases_adds {fuel : Nat} {ts : List NodeId} {st st' : St} (h1 : st.evt.type = some ty) (h2 : st.evt.bubble = b) (h3 : st.evt.cancelable = ca)
    (h : phases H fuel et ts st = .ok st') : ∃ cs, st'.log = st.log ++ cs ∧ Shows H ty b ca et cs := by
  unfold phases at h
  obtain ⟨r, h4, h5⟩ := bind_inv h
  have a1 := phaseLoop_adds (b := b) (ca := ca) (ty := ty) (et := et) _ (setPhase { st with evt := { st.evt with target := some et } } .capturing) _ ⟨h1, h2, h3, rfl⟩ rfl h4
  split at h5
  · cases h5; exact a1.2.2
  · obtain ⟨s1, h6, h7⟩ := bind_inv h5
    have a2 := targetDispatch_adds (b := b) (ca := ca) (ty := ty) (et := et) (st := setPhase { r.1 with evt := { r.1.evt with current := some et } } .atTarget) ⟨a1.1.type, a1.1.bubble, a1.1.cancelable, a1.1.target⟩ rfl h6
    obtain ⟨cs, c1, c2⟩ := a1.2.2
    have a12 : Adds H ty b ca et .atTarget st s1 := by
      obtain ⟨k1, k2, ds, d1, d2⟩ := a2
      refine ⟨k1, k2, cs ++ ds, ?_, fun x hx => (List.mem_append.1 hx).elim (c2 x) (d2 x)⟩
      rw [d1, ← List.append_assoc]
      exact congrArg (· ++ ds) c1
    split at h7
    · cases h7; exact a12.2.2
    · obtain ⟨r2, h8, h9⟩ := bind_inv h7
      cases h9
      have a3 := phaseLoop_adds (b := b) (ca := ca) (ty := ty) (et := et) _ (setPhase s1 .bubbling) _ ⟨a12.1.type, a12.1.bubble, a12.1.cancelable, a12.1.target⟩ rfl h8
      obtain ⟨_, _, es, e1, e2⟩ := a3
      obtain ⟨ds, d1, d2⟩ := a12.2.2
      refine ⟨ds ++ es, ?_, fun x hx => (List.mem_append.1 hx).elim (d2 x) (e2 x)⟩
      rw [e1, ← List.append_assoc]
      exact congrArg (· ++ es) d1

theorem dispatch_adds {fuel : Nat} {w : World} {st : St} {r : Result} (h1 : st.evt.type = some ty) (h2 : st.evt.bubble = b) (h3 : st.evt.cancelable = ca)
    (h : dispatch H fuel w et st = .ok r) : ∃ cs, r.st.log = st.log ++ cs ∧ Shows H ty b ca et cs := by
  unfold dispatch at h
  split at h
  · cases h; exact ⟨[], by simp, fun x hx => nomatch hx⟩
  · dsimp only at h
    split at h
    · cases h; exact ⟨[], by simp, fun x hx => nomatch hx⟩
    · split at h
      · cases h
      · split at h
        · cases h; exact ⟨[], by simp, fun x hx => nomatch hx⟩
        · obtain ⟨ts, h4, h5⟩ := bind_inv h
          obtain ⟨s1, h6, h7⟩ := bind_inv h5
          cases h7
          exact phases_adds (st := { st with evt := { st.evt with inDispatch := true } }) h1 h2 h3 h6

/-- **Specification.**  Clicks, submissions and resets can be cancelled, `blur`, `focus` and `select` cannot. -/
def Cancelable (m : Method) : Bool := match m with
  | .click => true
  | .submit => true
  | .reset => true
  | _ => false

theorem event_of {c : Control} {m : Method} (h : Has c m) : ∃ s b ca, event c m = some (s, b, ca) ∧ Names.lit s = typeOf m ∧ (¬ Odd c m → b = Bubbles m) ∧ (Odd c m → b = true) ∧
    (¬ Odd c m → ca = Cancelable m) ∧ (Odd c m → ca = true) := by
  cases c <;> cases m <;> simp [Has] at h <;> exact ⟨_, _, _, rfl, rfl, by simp [Odd, Bubbles], by simp [Odd], by simp [Odd, Cancelable], by simp [Odd]⟩

theorem shown_of {H : Handler} {w : World} {p p' : Page} {et : NodeId} {fuel : Nat} {c : Control} {m : Method} {e : Option Exc} {s : String} {b ca : Bool}
    (he : event c m = some (s, b, ca)) (h : activate H fuel w p c m et = .ok (p', e)) : ∃ cs, p'.log = p.log ++ cs ∧ Shows H (Names.lit s) b ca et cs := by
  unfold activate at h
  rw [he] at h
  dsimp only at h
  split at h
  · cases h
  · split at h
    · cases h
    · obtain ⟨q, h1, h2⟩ := bind_inv h
      unfold genericEvent at h1
      dsimp only at h1
      obtain ⟨r, h3, h4⟩ := bind_inv h1
      obtain ⟨cs, h5, h6⟩ := dispatch_adds (ty := Names.lit s) (b := b) (ca := ca) rfl rfl rfl h3
      refine ⟨cs, ?_, h6⟩
      cases h4
      simp only [finish] at h2
      split at h2 <;> cases h2 <;> exact h5

/-! ## The properties -/

/-- **C101**, for listeners that do whatever they like except changing the lists of listeners.  The methods raise one event, of the type that is their name, at the element: the listeners are
called in the order of the event flow (`plan`, where the event bubbles unless it is `blur` or `focus`) until one of them stops it; no exception is returned, the lists stay as they are,
and no control changes whether it is checked except an input element that is clicked, which is checked then.

`_partial`: it is false of `blur` of input elements and of both methods of select elements, see `C101_bubbles_violated`. -/
theorem C101_event_partial {H : Handler} (hq : Quiet H) {w : World} {p : Page} {et : NodeId} {path : List NodeId} {fuel : Nat} (hr : Ready w p et path fuel) {c : Control} {m : Method}
    (hm : Has c m) (ho : ¬ Odd c m) :
    ∃ p' cs, activate H fuel w p c m et = .ok (p', none) ∧ p'.log = p.log ++ cs ∧ Propagates (plan p.lists (typeOf m) (Bubbles m) et path) cs ∧
      (∀ x ∈ cs, ∃ z, x.cmds = H x.listener z) ∧ p'.lists = p.lists ∧ ∀ i, p'.checked i = if c = .input ∧ m = .click ∧ i = et then true else p.checked i := by
  obtain ⟨s, b, ca, he, ht, hb, _, _, _⟩ := event_of hm
  obtain ⟨cs, f, h1, h2, h3⟩ := run_event hq hr he
  rw [finish_none] at h1
  rw [ht, hb ho] at h2
  exact ⟨_, cs, h1, rfl, h2, h3, rfl, fun i => rfl⟩

/-- **C101**: the events `blur` and `focus` of links, text areas and, for `focus`, input elements call no listener in the bubbling phase. -/
theorem C101_silent_partial {H : Handler} (hq : Quiet H) {w : World} {p : Page} {et : NodeId} {path : List NodeId} {fuel : Nat} (hr : Ready w p et path fuel) {c : Control} {m : Method}
    (hm : Has c m) (ho : ¬ Odd c m) (hb : m = .blur ∨ m = .focus) :
    ∃ p' cs, activate H fuel w p c m et = .ok (p', none) ∧ p'.log = p.log ++ cs ∧ ∀ x ∈ cs, x.phase ≠ .bubbling := by
  obtain ⟨p', cs, h1, h2, h3, _⟩ := C101_event_partial hq hr hm ho
  refine ⟨p', cs, h1, h2, fun x hx => ?_⟩
  have hB : Bubbles m = false := by rcases hb with rfl | rfl <;> rfl
  rw [hB] at h3
  exact plan_silent (t := x.key) (h3.prefix.subset (List.mem_map_of_mem hx))

/-- **C101 is false of the code**: `blur` of input elements and `blur` and `focus` of select elements raise events that bubble: every listener for the type at a node above the element is called
in the bubbling phase (unless the event is stopped). -/
theorem C101_bubbles_violated {H : Handler} (hq : ∀ l st, ∀ x ∈ H l st, x = .preventDefault ∨ x = .dispatchAgain) {w : World} {p : Page} {et : NodeId} {path : List NodeId} {fuel : Nat}
    (hr : Ready w p et path fuel) {c : Control} {m : Method} (ho : Odd c m) {a : NodeId} (ha : a ∈ path) {e : Entry} (he : e ∈ p.lists a) (ht : e.type.data = (typeOf m).data)
    (hc : e.capture = false) :
    ∃ p' cs, activate H fuel w p c m et = .ok (p', none) ∧ p'.log = p.log ++ cs ∧ ∃ x ∈ cs, x.node = a ∧ x.phase = .bubbling ∧ x.listener = e.listener := by
  have hm : Has c m := by
    rcases ho with ⟨rfl, rfl⟩ | ⟨rfl, rfl | rfl⟩ <;> simp [Has]
  have hq' : Quiet H := by
    intro l st x hx
    rcases hq l st x hx with rfl | rfl <;> trivial
  obtain ⟨s, b, ca, hev, hty, _, hb, _, _⟩ := event_of hm
  obtain ⟨cs, f, h1, h2, h3⟩ := run_event hq' hr hev
  rw [finish_none] at h1
  rw [hty, hb ho] at h2
  refine ⟨_, cs, h1, rfl, ?_⟩
  have hall := h2.all (fun x hx => by
    obtain ⟨z, hz⟩ := h3 x hx
    rw [hz]
    constructor <;> intro hn <;> rcases hq _ _ _ hn with h | h <;> cases h)
  have hin : (a, Phase.bubbling, e.listener) ∈ (plan p.lists (typeOf m) true et path).flatten := by
    simp only [plan, List.flatten_append, List.mem_append, List.mem_flatten, List.mem_map]
    exact Or.inr ⟨_, ⟨a, ha, rfl⟩, due_mem he ht hc⟩
  rw [← hall, List.mem_map] at hin
  obtain ⟨x, hx, hk⟩ := hin
  simp only [Call.key, Prod.mk.injEq] at hk
  exact ⟨x, hx, hk.1, hk.2.1, hk.2.2⟩

/-- **C101 is false of the code**: a click on an input element checks it although a listener prevented the default action (html_input_element.c:597-601 looks at the error only). -/
theorem C101_prevented_violated {H : Handler} (hq : ∀ l st, ∀ x ∈ H l st, x = .preventDefault ∨ x = .dispatchAgain) (hp : ∀ l st, .preventDefault ∈ H l st) {w : World} {p : Page}
    {et : NodeId} {path : List NodeId} {fuel : Nat} (hr : Ready w p et path fuel) {e : Entry} (he : e ∈ p.lists et) (ht : e.type.data = (typeOf .click).data) :
    ∃ p' cs, activate H fuel w p .input .click et = .ok (p', none) ∧ p'.log = p.log ++ cs ∧ (∃ x ∈ cs, x.node = et ∧ .preventDefault ∈ x.cmds) ∧ p'.checked et = true := by
  have hq' : Quiet H := by
    intro l st x hx
    rcases hq l st x hx with rfl | rfl <;> trivial
  obtain ⟨p', cs, h1, h2, h3, h4, _, h5⟩ := C101_event_partial hq' hr (c := .input) (m := .click) (by simp [Has]) (by simp [Odd])
  refine ⟨p', cs, h1, h2, ?_, by rw [h5]; simp⟩
  have hall := h3.all (fun x hx => by
    obtain ⟨z, hz⟩ := h4 x hx
    rw [hz]
    constructor <;> intro hn <;> rcases hq _ _ _ hn with h | h <;> cases h)
  have hin : (et, Phase.atTarget, e.listener) ∈ (plan p.lists (typeOf .click) (Bubbles .click) et path).flatten := by
    simp only [plan, List.flatten_append, List.mem_append, List.mem_flatten, List.mem_singleton]
    refine Or.inl (Or.inr ⟨_, rfl, ?_⟩)
    unfold due
    exact List.mem_map.2 ⟨e, List.mem_filter.2 ⟨he, by simp [ht]⟩, rfl⟩
  rw [← hall, List.mem_map] at hin
  obtain ⟨x, hx, hk⟩ := hin
  simp only [Call.key, Prod.mk.injEq] at hk
  obtain ⟨z, hz⟩ := h4 x hx
  exact ⟨x, hx, hk.1, by rw [hz]; exact hp _ _⟩

/-- **C101, what listeners are shown**, whatever they do, even if they change the lists of listeners.  If the method returns, every listener that was called was shown an event of the type that is the
name of the method, with the element as its target, the node the listener is registered at as its current target, and the phase of the call; it bubbles and can be cancelled as
the method demands.

`_partial`: false of `blur` of input elements and of both methods of select elements, see `C101_cancelable_violated`. -/
theorem C101_shown_partial {H : Handler} {w : World} {p p' : Page} {et : NodeId} {fuel : Nat} {c : Control} {m : Method} {e : Option Exc} (ho : ¬ Odd c m)
    (h : activate H fuel w p c m et = .ok (p', e)) : Has c m ∧ ∃ cs, p'.log = p.log ++ cs ∧ Shows H (typeOf m) (Bubbles m) (Cancelable m) et cs := by
  by_cases hm : Has c m
  · obtain ⟨s, b, ca, he, ht, hb, _, hca, _⟩ := event_of hm
    refine ⟨hm, ?_⟩
    rw [← ht, ← hb ho, ← hca ho]
    exact shown_of he h
  · unfold activate at h
    rw [event_none hm] at h
    cases h

/-- **C101 is false of the code**: `blur` of input elements and `blur` and `focus` of select elements tell listeners that they bubble and can be cancelled. -/
theorem C101_cancelable_violated {H : Handler} {w : World} {p p' : Page} {et : NodeId} {fuel : Nat} {c : Control} {m : Method} {e : Option Exc} (ho : Odd c m)
    (h : activate H fuel w p c m et = .ok (p', e)) : Bubbles m = false ∧ Cancelable m = false ∧ ∃ cs, p'.log = p.log ++ cs ∧ Shows H (typeOf m) true true et cs := by
  have hm : Has c m := by
    rcases ho with ⟨rfl, rfl⟩ | ⟨rfl, rfl | rfl⟩ <;> simp [Has]
  obtain ⟨s, b, ca, he, ht, _, hb, _, hca⟩ := event_of hm
  refine ⟨by rcases ho with ⟨rfl, rfl⟩ | ⟨rfl, rfl | rfl⟩ <;> rfl, by rcases ho with ⟨rfl, rfl⟩ | ⟨rfl, rfl | rfl⟩ <;> rfl, ?_⟩
  have := shown_of he h
  rwa [ht, hb ho, hca ho] at this

/-! ## A case -/

/-- Listeners 10 for `blur` and 11 for `click` at the document 0, and 30 and 31 at the element 2 (Verif/Events/PropsReg.lean: document 0 > element 1 > element 2). -/
def room : St :=
  let st := noListeners true
  let st := addListener st 0 (Names.lit "blur") 10 false
  let st := addListener st 0 (Names.lit "click") 11 false
  let st := addListener st 2 (Names.lit "blur") 30 false
  addListener st 2 (Names.lit "click") 31 false

def page : Page := { lists := room.lists, fresh := room.fresh, log := [], checked := fun _ => false }

theorem room_ids : Ids room := ((((noListeners_ids true).add _ _ _ _).add _ _ _ _).add _ _ _ _).add _ _ _ _

/-- What is called, the exception, and whether element 2 is checked. -/
abbrev Shown := Option (List (NodeId × Nat) × Option Exc × Bool)

instance : DecidableEq Shown := inferInstance

def shown (H : Handler) (w : World) (c : Control) (m : Method) : Shown :=
  match activate H 100 w page c m 2 with
  | .ok (p, e) => some (p.log.map fun x => (x.node, x.listener), e, p.checked 2)
  | _ => none

/-- A test of a node. -/
def tests (w : World) (i : NodeId) (q : Node → Bool) : Bool := match w.nodes i with
  | some n => q n
  | none => false

theorem tests_elim {w : World} {i : NodeId} {q : Node → Bool} (h : tests w i q = true) : ∃ n, w.nodes i = some n ∧ q n = true := by
  unfold tests at h
  cases hn : w.nodes i with
  | none => rw [hn] at h; cases h
  | some n => rw [hn] at h; exact ⟨n, rfl, h⟩

/-- The hypotheses of C101 are met in a tree that can be built, and this is what happens there: `blur` of a text area reaches the element only, `blur` of a select element the document too; a
click checks although the listeners prevent it. -/
theorem C101_cases : ∃ w, Tree.Reach (fun w c => c.Ok w) w ∧ Ready w page 2 [1, 0] 100 ∧
    shown (fun _ _ => []) w .textArea .blur = some ([(2, 30)], none, false) ∧ shown (fun _ _ => []) w .select .blur = some ([(2, 30), (0, 10)], none, false) ∧
    shown (fun _ _ => [.preventDefault]) w .input .click = some ([(2, 31), (0, 11)], none, true) := by
  obtain ⟨w, h1, h2⟩ := Tree.exists_ok nested (fun (w : World) => decide (
    shown (fun _ _ => []) w .textArea .blur = some ([(2, 30)], none, false) ∧ shown (fun _ _ => []) w .select .blur = some ([(2, 30), (0, 10)], none, false) ∧
    shown (fun _ _ => [.preventDefault]) w .input .click = some ([(2, 31), (0, 11)], none, true) ∧
    tests w 2 (fun n => decide (n.owner ≠ none) && decide (n.parent = some 1)) = true ∧ tests w 1 (fun n => decide (n.type ≠ .fragment) && decide (n.parent = some 0)) = true ∧
    tests w 0 (fun n => decide (n.type ≠ .fragment) && decide (n.parent = none)) = true ∧ 2 ≤ w.fresh)) (by decide +kernel)
  obtain ⟨a1, a2, a3, b2, b1, b0, bf⟩ := of_decide_eq_true h2
  refine ⟨w, h1, ⟨?_, bf, room_ids.nodup, room_ids.bound, ?_⟩, a1, a2, a3⟩
  · obtain ⟨n2, e2, t2⟩ := tests_elim b2
    obtain ⟨n1, e1, t1⟩ := tests_elim b1
    obtain ⟨n0, e0, t0⟩ := tests_elim b0
    simp only [Bool.and_eq_true, decide_eq_true_eq] at t2 t1 t0
    refine ⟨n2, e2, t2.1, ?_⟩
    rw [t2.2]
    refine .up e1 ?_
    rw [if_neg (fun h => t1.1 h.1), t1.2]
    refine .up e0 ?_
    rw [if_neg (fun h => t0.1 h.1), t0.2]
    exact .top
  · intro n
    simp only [page, room, addListener, noListeners]
    split <;> split <;> simp_all

end Dom.Html.Activate
