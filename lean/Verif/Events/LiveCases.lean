import Verif.Events.PropsLive
import Verif.Tree.LifeViolations

/-!
# C42, C46, C70: concrete dispatches, and where the code deviates
-/
set_option linter.unusedSimpArgs false

namespace Dom.Events

open Dom.Str (DStr)
open Dom.Tree (NodeId Node World)

/-! ## Listeners added while an event is dispatched -/

/-- C42 is false of the code: a listener that is registered on the current target while a listener runs is called by the same dispatch
(event_target.c:227-256 follows the list as it grows; DOM Events: "If an EventListener is added to an EventTarget while it is processing an event, it will
not be triggered by the current actions"). -/
theorem C42_added_runs_violated : ∃ w, Tree.Reach (fun w c => c.Ok w) w ∧
    called (fun l _ => if l = 1 then [.addListener 0 click 9 false] else []) three 0 w = some ([(0, 1), (0, 2), (0, 3), (0, 9)], none, some true) := by
  obtain ⟨w, h1, h2⟩ := Tree.exists_ok [.createDocument] (fun w => decide (
    called (fun l _ => if l = 1 then [.addListener 0 click 9 false] else []) three 0 w = some ([(0, 1), (0, 2), (0, 3), (0, 9)], none, some true)))
    (by decide +kernel)
  exact ⟨w, h1, of_decide_eq_true h2⟩

/-- One listener, on the document. -/
def one : St := addListener (noListeners true) 0 click 1 false

theorem one_ids : Ids one := (noListeners_ids true).add _ _ _ _

/-- The same when the event has reached the target. -/
def running : St :=
  { one with evt := { one.evt with inDispatch := true, target := some 0, current := some 0, phase := some .atTarget } }

/-- A listener that registers itself again. -/
def again : Handler := fun l _ => [.addListener 0 click l false]

theorem again_loop (fuel : Nat) : ∀ (st : St) (pre : List Entry) (e : Entry), Ids st → st.lists 0 = pre ++ [e] → e.type = click → st.evt.type = some click →
    st.evt.target = st.evt.current → st.evt.stopNow = false → fireLoop again 0 .atTarget fuel st e.id = .fault .diverge := by
  induction fuel with
  | zero => intros; rfl
  | succ fuel ih =>
    intro st pre e hi hl ht hty htg hnow
    have hnd := hi.nodup 0
    rw [hl] at hnd
    have hfind : (st.lists 0).find? (fun x => x.id == e.id) = some e := by
      rw [hl]
      rw [List.map_append, List.nodup_append] at hnd
      rw [List.find?_append, List.find?_eq_none.2 fun x hx => ?_]
      · simp
      · have := hnd.2.2 x.id (List.mem_map_of_mem hx) e.id (by simp)
        simpa using this
    unfold fireLoop
    rw [hfind]
    dsimp only
    have hrun : (Str.isEqual (some e.type) st.evt.type && runsIn st.evt .atTarget e) = true := by
      rw [ht, hty, isEqual_data]
      unfold runsIn
      rw [htg]
      simp
    rw [if_pos hrun]
    have hi' : Ids (invoke again st 0 .atTarget e.listener) := hi.invoke _ _ _
    have hl' : (invoke again st 0 .atTarget e.listener).lists 0 = pre ++ [e] ++ [{ id := st.fresh, type := click, listener := e.listener, capture := false }] := by
      show (if (0 : Nat) = 0 then st.lists 0 ++ _ else st.lists 0) = _
      rw [if_pos rfl, hl]
    rw [if_neg (by show ¬ st.evt.stopNow = true; rw [hnow]; simp), if_neg (by rw [hl']; simp)]
    have hnd' := hi'.nodup 0
    have hnext : nextOf ((invoke again st 0 .atTarget e.listener).lists 0) e.id = some st.fresh := by
      rw [hl', List.append_assoc]
      rw [hl', List.append_assoc] at hnd'
      rw [List.singleton_append, nextOf_mid (by simpa using hnd')]
      rfl
    rw [hnext]
    dsimp only
    have hhead : ¬ ((invoke again st 0 .atTarget e.listener).lists 0).head?.map Entry.id = some st.fresh := by
      rw [hl']
      cases pre with
      | nil =>
        have := hi.bound 0 e (by rw [hl]; simp)
        simp
        omega
      | cons p pre =>
        have := hi.bound 0 p (by rw [hl]; simp)
        simp
        omega
    rw [if_neg hhead]
    exact ih (invoke again st 0 .atTarget e.listener) (pre ++ [e]) _ hi' hl' rfl hty htg hnow

/-- C42 is false of the code: a listener that registers itself again makes the dispatch run for ever. -/
theorem C42_endless_violated : ∃ w, Tree.Reach (fun w c => c.Ok w) w ∧ ∀ fuel, dispatch again fuel w 0 one = .fault .diverge := by
  obtain ⟨w, h1, h2⟩ := Tree.exists_ok [.createDocument] (fun w => (w.nodes 0).any fun n => n.parent.isNone && n.owner.isSome) (by decide +kernel)
  refine ⟨w, h1, fun fuel => ?_⟩
  obtain ⟨n, hn, hp⟩ := (Option.any_eq_true _ _).1 h2
  rw [Bool.and_eq_true, Option.isNone_iff_eq_none, Option.isSome_iff_exists] at hp
  obtain ⟨hp, d, hd⟩ := hp
  unfold dispatch
  rw [if_neg (by decide)]
  dsimp only
  rw [if_neg (by decide), hn]
  dsimp only
  rw [if_neg (by rw [hd]; simp), hp]
  show (phases again fuel 0 [] _ >>= _) = _
  have : phases again fuel 0 [] { one with evt := { one.evt with inDispatch := true } } = .fault .diverge := by
    show (fireLoop again 0 .atTarget fuel running 0 >>= _) = _
    rw [again_loop fuel running [] { id := 0, type := click, listener := 1, capture := false } ⟨one_ids.nodup, one_ids.bound⟩ rfl rfl rfl rfl rfl]
    rfl
  rw [this]
  rfl

end Dom.Events

namespace Dom.Events.Live

open Dom.Str (DStr)
open Dom.Tree (NodeId Node World Act Ledger Client Careful Room carefulB roomB)

/-! ## Careful listeners -/

/-- A computable check that implies `Ok`. -/
def okB (s : S) : Cmd → Bool
  | .event (.addListener n _ _ _) => decide (0 < s.own n)
  | .event (.removeListener n _ _ _) => decide (0 < s.own n)
  | .event _ => true
  | .act a => carefulB s.own s.w a
  | .getTarget => roomB s.w
  | .getCurrent => roomB s.w

/-- A computable check that implies `AllOk`. -/
def allOkB : List Cmd → S → Bool
  | [], _ => true
  | c :: cs, s => okB s c && (match exec s c with
    | .ok s' => allOkB cs s'
    | _ => true)

theorem allOk_of (cs : List Cmd) : ∀ {s : S}, Safe s → allOkB cs s = true → AllOk cs s := by
  induction cs with
  | nil => exact fun _ _ => trivial
  | cons c cs ih =>
    intro s hs h
    unfold allOkB at h
    rw [Bool.and_eq_true] at h
    have hok : Ok s c := by
      have h1 := h.1
      obtain ⟨ch, So, _⟩ := hs.client
      cases c with
      | event c => cases c <;> first | trivial | exact (decide_eq_true_iff (p := 0 < s.own _)).1 h1
      | act a => exact Tree.careful_of_carefulB So.wf.toCore h1
      | getTarget => exact fun x _ => Tree.room_of_roomB So.wf.bnd h1 x
      | getCurrent => exact fun x _ => Tree.room_of_roomB So.wf.bnd h1 x
    refine ⟨hok, fun s' hs' => ?_⟩
    obtain ⟨s1, e1, e2, _⟩ := exec_safe hs hok
    rw [e1] at hs'
    cases hs'
    have h2 := h.2
    rw [e1] at h2
    exact ih e2 h2

/-- Do this if it is what a careful client may do, and else nothing. -/
def guarded (f : Who → List Cmd) : Handler := fun who s => if allOkB (f who) s then f who else []

theorem guarded_tidy (f : Who → List Cmd) : Tidy (guarded f) := by
  intro who s hs
  unfold guarded
  split
  · rename_i h
    exact allOk_of _ hs h
  · trivial

theorem guarded_starts {f : Who → List Cmd} (h : f (.action .started) = []) : Starts (guarded f) := by
  intro s
  unfold guarded
  rw [h]
  simp

/-- Following the path. -/
def climb (w : World) : Nat → Option NodeId → Option (List NodeId)
  | _, none => some []
  | 0, some _ => none
  | fuel + 1, some i => (w.nodes i).bind fun n => (climb w fuel (upOf n)).map (i :: ·)

theorem climb_path {w : World} (fuel : Nat) : ∀ {o l}, climb w fuel o = some l → PathFrom w o l := by
  induction fuel with
  | zero =>
    intro o l h
    cases o with
    | none => cases h; exact .top
    | some i => cases h
  | succ fuel ih =>
    intro o l h
    cases o with
    | none => cases h; exact .top
    | some i =>
      unfold climb at h
      obtain ⟨n, hn, h⟩ := Option.bind_eq_some_iff.1 h
      obtain ⟨r, hr, rfl⟩ := Option.map_eq_some_iff.1 h
      exact .up hn (ih hr)

/-- The caller has what the client has not. -/
def split (own led : Ledger) (w : World) (ev : St) : S := { w, own, held := fun j => led j - own j, ev }

theorem split_safe {own led : Ledger} {w : World} {ev : St} (h : Client Careful led w) (hle : ∀ j, own j ≤ led j) (hi : Ids ev)
    (h1 : ev.evt.target = none) (h2 : ev.evt.current = none) : Safe (split own led w ev) := by
  refine ⟨?_, hi, fun x hx => ?_, fun x hx => ?_⟩
  · have : (split own led w ev).led = led := by
      funext j
      show own j + (led j - own j) = led j
      have := hle j
      omega
    rw [this]
    exact tied_of_client h
  · have hx : ev.evt.target = some x := hx
    rw [h1] at hx
    cases hx
  · have hx : ev.evt.current = some x := hx
    rw [h2] at hx
    cases hx

/-- Document 0 > element 1 > element 2, with two references to each. -/
def nestedActs : List Act :=
  [.call .createDocument, .call (.createNode 0 .element none none), .call (.createNode 0 .element none none), .call (.appendChild 0 1), .call (.appendChild 1 2), .ref 0]

/-- The client has one reference to each. -/
def ones : Ledger := fun j => if j < 3 then 1 else 0

/-- Listener 30 (on the target) moves the target to the document, gives up its reference to element 1 and registers a listener on the document;
listener 20 prevents the default action. -/
def mover : Who → List Cmd
  | .listener _ _ 30 => [.act (.call (.appendChild 0 2)), .act (.unref 1), .event (.addListener 0 click 40 false), .getTarget]
  | .listener _ _ 20 => [.event .preventDefault]
  | _ => []

/-- What a dispatch shows. -/
def shown (r : Out Result) : Option (List Who × Option Bool) :=
  match r with
  | .ok r => some (r.s.log.map Ran.who, r.success)
  | _ => none

/-- The hypotheses about the state, as a check. -/
def fits (led : Ledger) (w : World) : Bool :=
  decide (1 < led 0) && decide (1 < led 1) && decide (1 < led 2) && ((w.nodes 2).any fun n => decide (n.owner = some 0) && decide (climb w 5 n.parent = some [1, 0])) &&
  decide (w.fresh = 3) && roomB w

theorem below_three {j : Nat} (h : j < 3) : j = 0 ∨ j = 1 ∨ j = 2 := by omega

/-- What the check gives. -/
structure Fits (led : Ledger) (w : World) (n : Node) : Prop where
  safe : ∀ ev, Ids ev → ev.evt.target = none → ev.evt.current = none → Safe (split ones led w ev)
  node : w.nodes 2 = some n
  owner : n.owner = some 0
  path : PathFrom w n.parent [1, 0]
  fresh : w.fresh = 3
  room : ∀ x, Room w x
  held : ∀ x, x < 3 → 0 < led x - ones x

theorem fits_spec {led : Ledger} {w : World} (hc : Client Careful led w) (h : fits led w = true) : ∃ n, Fits led w n := by
  unfold fits at h
  simp only [Bool.and_eq_true, decide_eq_true_eq] at h
  obtain ⟨⟨⟨⟨⟨h0, h1⟩, h2⟩, h3⟩, h4⟩, h5⟩ := h
  obtain ⟨n, hn, hp⟩ := (Option.any_eq_true _ _).1 h3
  simp only [Bool.and_eq_true, decide_eq_true_eq] at hp
  obtain ⟨ch, So, _⟩ := hc.sound
  have hle : ∀ j, ones j ≤ led j := by
    intro j
    unfold ones
    split
    · rename_i hj
      rcases below_three hj with rfl | rfl | rfl <;> omega
    · exact Nat.zero_le _
  refine ⟨n, fun ev hi g1 g2 => split_safe hc hle hi g1 g2, hn, hp.1, climb_path _ hp.2, h4, fun x => Tree.room_of_roomB So.wf.bnd h5 x, fun x hx => ?_⟩
  unfold ones
  rw [if_pos hx]
  rcases below_three hx with rfl | rfl | rfl <;> omega

/-- The hypotheses of `C42_any_listeners_partial`, `C46_dispatch_live_partial`, `C70_event_state` and `C70_default_actions_partial` are met by listeners that
change the tree: the path is the one from before the target was moved, and the listener registered on the way is called. -/
example : ∃ led w n, Client Careful led w ∧ Tidy (guarded mover) ∧ Starts (guarded mover) ∧ Safe (split ones led w (listeners true)) ∧ w.nodes 2 = some n ∧
    n.owner = some 0 ∧ PathFrom w n.parent [1, 0] ∧ w.fresh = 3 ∧ (∀ x, Room w x) ∧ (∀ x, x < 3 → 0 < (split ones led w (listeners true)).held x) ∧
    (listeners true).evt.type = some click ∧
    shown (dispatch (guarded mover) true 20 2 (split ones led w (listeners true))) = some ([.action .started, .listener 0 .capturing 10, .listener 1 .capturing 21,
      .listener 2 .atTarget 30, .listener 2 .atTarget 31, .listener 1 .bubbling 20, .listener 0 .bubbling 11, .listener 0 .bubbling 40, .action .prevented,
      .action .finished], some false) := by
  obtain ⟨led, w, h1, h2⟩ := Tree.exists_careful nestedActs (fun led w => fits led w &&
    decide (shown (dispatch (guarded mover) true 20 2 (split ones led w (listeners true))) = some ([.action .started, .listener 0 .capturing 10, .listener 1 .capturing 21,
      .listener 2 .atTarget 30, .listener 2 .atTarget 31, .listener 1 .bubbling 20, .listener 0 .bubbling 11, .listener 0 .bubbling 40, .action .prevented,
      .action .finished], some false))) (by decide +kernel)
  rw [Bool.and_eq_true] at h2
  obtain ⟨n, F⟩ := fits_spec h1 h2.1
  exact ⟨led, w, n, h1, guarded_tidy _, guarded_starts rfl, F.safe _ (listeners_ids true) rfl rfl, F.node, F.owner, F.path, F.fresh, F.room, F.held, rfl,
    of_decide_eq_true h2.2⟩

/-! ## Where the code deviates -/

/-- Listener 30 stops the event. -/
def stopper : Who → List Cmd
  | .listener _ _ 30 => [.event .stopPropagation]
  | _ => []

/-- C70 is false of the code: after stopPropagation the default action is not performed, although nothing prevented it (node.c:2596-2597 jumps over the callback
for the end; DOM Events: only preventDefault prevents the default action), and `success` says that it was not prevented. -/
theorem C70_stopped_violated : ∃ led w n, Client Careful led w ∧ Tidy (guarded stopper) ∧ Fits led w n ∧
    shown (dispatch (guarded stopper) true 20 2 (split ones led w (listeners true))) = some ([.action .started, .listener 0 .capturing 10, .listener 1 .capturing 21,
      .listener 2 .atTarget 30, .listener 2 .atTarget 31, .action .finished], some true) := by
  obtain ⟨led, w, h1, h2⟩ := Tree.exists_careful nestedActs (fun led w => fits led w &&
    decide (shown (dispatch (guarded stopper) true 20 2 (split ones led w (listeners true))) = some ([.action .started, .listener 0 .capturing 10,
      .listener 1 .capturing 21, .listener 2 .atTarget 30, .listener 2 .atTarget 31, .action .finished], some true))) (by decide +kernel)
  rw [Bool.and_eq_true] at h2
  obtain ⟨n, F⟩ := fits_spec h1 h2.1
  exact ⟨led, w, n, h1, guarded_tidy _, F, of_decide_eq_true h2.2⟩

/-- An event that cannot be cancelled. -/
def firm : St := { listeners true with evt := { (listeners true).evt with cancelable := false } }

/-- C70 is false of the code: preventDefault prevents the default action of an event that cannot be cancelled (event.c:241-245; DOM Events: "If a
non-cancelable event is canceled this has no effect"). -/
theorem C70_cancelable_violated : ∃ led w n, Client Careful led w ∧ Tidy (guarded mover) ∧ Fits led w n ∧ firm.evt.cancelable = false ∧
    shown (dispatch (guarded mover) true 20 2 (split ones led w firm)) = some ([.action .started, .listener 0 .capturing 10, .listener 1 .capturing 21,
      .listener 2 .atTarget 30, .listener 2 .atTarget 31, .listener 1 .bubbling 20, .listener 0 .bubbling 11, .listener 0 .bubbling 40, .action .prevented,
      .action .finished], some false) := by
  obtain ⟨led, w, h1, h2⟩ := Tree.exists_careful nestedActs (fun led w => fits led w &&
    decide (shown (dispatch (guarded mover) true 20 2 (split ones led w firm)) = some ([.action .started, .listener 0 .capturing 10, .listener 1 .capturing 21,
      .listener 2 .atTarget 30, .listener 2 .atTarget 31, .listener 1 .bubbling 20, .listener 0 .bubbling 11, .listener 0 .bubbling 40, .action .prevented,
      .action .finished], some false))) (by decide +kernel)
  rw [Bool.and_eq_true] at h2
  obtain ⟨n, F⟩ := fits_spec h1 h2.1
  exact ⟨led, w, n, h1, guarded_tidy _, F, rfl, of_decide_eq_true h2.2⟩

/-- After a dispatch the client has all references. -/
def after (s : S) : S := { s with own := s.led, held := fun _ => 0 }

/-- Is it a use of released memory? -/
def isUAF {α : Type} (o : Out α) : Bool := match o with
  | .fault .useAfterFree => true
  | _ => false

theorem uaf_of {α : Type} {o : Out α} (h : isUAF o = true) : o = .fault .useAfterFree := by
  unfold isUAF at h
  split at h
  · rfl
  · cases h

/-- Give up the reference to `x`, then ask for the target. -/
def askTarget (x : NodeId) (r : Out Result) : Bool :=
  match r with
  | .ok r => carefulB (after r.s).own r.s.w (.unref x) && isUAF (exec (after r.s) (.act (.unref x)) >>= fun s => exec s .getTarget)
  | _ => false

/-- C70 and C46 are false of the code: the event does not hold a reference to its target (node.c:2555), so that `dom_event_get_target` after a dispatch uses
released memory if the client has given up the target in the meantime. -/
theorem C70_target_violated : ∃ led w res, Client Careful led w ∧
    dispatch (fun _ _ => []) false 5 1 (split (fun _ => 0) led w (noListeners true)) = .ok res ∧ Careful (after res.s).own res.s.w (.unref 1) ∧
    (exec (after res.s) (.act (.unref 1)) >>= fun s => exec s .getTarget) = .fault .useAfterFree := by
  obtain ⟨led, w, h1, h2⟩ := Tree.exists_careful [.call .createDocument, .call (.createNode 0 .element none none)]
    (fun led w => askTarget 1 (dispatch (fun _ _ => []) false 5 1 (split (fun _ => 0) led w (noListeners true))) &&
      (w.nodes 1).any (fun n : Node => decide (n.owner = some 0) && decide (n.parent = none)) && decide (0 < led 0) && decide (0 < led 1)) (by decide +kernel)
  simp only [Bool.and_eq_true, decide_eq_true_eq] at h2
  obtain ⟨⟨⟨h2, h3⟩, h4⟩, h5⟩ := h2
  obtain ⟨n, hn, hp⟩ := (Option.any_eq_true _ _).1 h3
  simp only [Bool.and_eq_true, decide_eq_true_eq] at hp
  have hS : Safe (split (fun _ => 0) led w (noListeners true)) := split_safe h1 (fun _ => Nat.zero_le _) (noListeners_ids true) rfl rfl
  have hT : Tidy fun _ _ => [] := fun _ _ _ => trivial
  unfold askTarget at h2
  rcases C46_dispatch_live_partial hT (fun _ => ⟨by simp, by simp⟩) 5 (et := 1) (d := 0) hS hn hp.1 (by simpa [split] using h5) (by simpa [split] using h4)
    (by rw [hp.2]; exact .top) (Nat.zero_le _) List.nodup_nil (by simp) (by simp) rfl ⟨rfl, rfl, rfl, rfl⟩ with k | ⟨res, k, ⟨ch, So, _⟩, _⟩
  · rw [k] at h2; cases h2
  · rw [k] at h2
    simp only [Bool.and_eq_true] at h2
    exact ⟨led, w, res, h1, k, Tree.careful_of_carefulB So.wf.toCore h2.1, uaf_of h2.2⟩

/-- Element 1 > element 2, not in the document: one reference to 1, none to 2 but that of the caller. -/
def looseActs : List Act :=
  [.call .createDocument, .call (.createNode 0 .element none none), .call (.createNode 0 .element none none), .call (.appendChild 1 2)]

/-- The listener on element 1 takes element 2 out of it and gives up element 1; the callback at the end asks for the current target. -/
def dropper : Who → List Cmd
  | .listener 1 .bubbling _ => [.act (.call (.removeChild 1 2)), .act (.unref 1)]
  | .action .finished => [.getCurrent]
  | _ => []

/-- One reference to 1 and one to 2. -/
def pair : Ledger := fun j => if j = 1 ∨ j = 2 then 1 else 0

/-- C70 and C46 are false of the code: the callback that runs after the dispatch has given up its references (node.c:2633-2646) uses released memory if it asks
the event for its current target, here an ancestor of the target to which the listener gave up the last other reference.  All that listeners and callbacks
do is allowed. -/
theorem C70_current_violated : ∃ led w, Client Careful led w ∧ Tidy (guarded dropper) ∧ Safe (split pair led w (listeners true)) ∧
    0 < (split pair led w (listeners true)).held 2 ∧ 0 < (split pair led w (listeners true)).held 0 ∧
    dispatch (guarded dropper) true 20 2 (split pair led w (listeners true)) = .fault .useAfterFree := by
  obtain ⟨led, w, h1, h2⟩ := Tree.exists_careful looseActs (fun led w => decide (1 ≤ led 1) && decide (1 < led 2) && decide (0 < led 0) &&
    isUAF (dispatch (guarded dropper) true 20 2 (split pair led w (listeners true)))) (by decide +kernel)
  simp only [Bool.and_eq_true, decide_eq_true_eq] at h2
  obtain ⟨⟨⟨h2, h3⟩, h4⟩, h5⟩ := h2
  refine ⟨led, w, h1, guarded_tidy _, split_safe h1 (fun j => ?_) (listeners_ids true) rfl rfl, ?_, ?_, uaf_of h5⟩
  · unfold pair
    split
    · rename_i h
      rcases h with rfl | rfl <;> omega
    · omega
  · show 0 < led 2 - pair 2
    have : pair 2 = 1 := rfl
    omega
  · show 0 < led 0 - pair 0
    have : pair 0 = 0 := rfl
    omega

end Dom.Events.Live
