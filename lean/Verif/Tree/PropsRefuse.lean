import Verif.Tree.Refuse
import Verif.Tree.PropsEvents
import Verif.Tree.LifeViolations
import Verif.Oom.Mem
/-!
# C93: the tree-changing functions when memory runs out
-/
namespace Dom.Tree
set_option linter.unusedSimpArgs false
set_option linter.unusedVariables false

open Dom.Oom (Granted granted_add granted_mono granted_zero granted_one)

/-! ## Specification -/

/-- **Specification.**  Every node has an owner: there is no DocumentType outside of all documents. -/
def Owned (w : World) : Prop := ∀ i n, w.nodes i = some n → n.owner ≠ none

/-- **Specification.**  `s` has the nodes of `w`. -/
def Tight.Like (s : Tight) (w : World) : Prop := s.w.nodes = w.nodes ∧ s.w.fresh = w.fresh

/-- **Specification.**  `s` has the nodes of `w`, where `new` has been put below `p`, but without the reference that the caller of a
successful insertion gets; a DocumentType put into a document has no owner. -/
def Tight.Unpaid (s : Tight) (w : World) (p new : NodeId) (pn nn : Node) : Prop :=
  (∀ j, j ≠ new → s.w.nodes j = w.nodes j) ∧
  ∃ n, s.w.nodes new = some n ∧ w.nodes new = some { n with
    refcnt := u32 (n.refcnt + 1), owner := if pn.type = .document ∧ nn.type = .doctype then some p else n.owner }

/-! ## Runs -/

/-- The same memory with another log. -/
def World.relog (w : World) (lg : List Ev) : World := { w with log := lg }

theorem relog_self (w : World) : w.relog w.log = w := rfl

section
variable {α β : Type}

theorem bind_ran {x : M α} {f : α → M β} {w w2 : World} {b : β} (h : (x >>= f) w = .ok w2 b) :
    ∃ w1 a, x w = .ok w1 a ∧ f a w1 = .ok w2 b := by
  rw [bind_run] at h
  cases hx : x w with
  | ok w1 a => rw [hx] at h; exact ⟨w1, a, rfl, h⟩
  | exc w1 e => rw [hx] at h; cases h
  | fault g => rw [hx] at h; cases h

theorem tbind_ok {x : L α} {f : α → L β} {s s1 : Tight} {a : α} (h : x s = .ok s1 a) : (x >>= f) s = f a s1 := by
  show L.bind x f s = _
  unfold L.bind
  rw [h]

theorem tbind_exc {x : L α} {f : α → L β} {s s1 : Tight} {e : Exc} (h : x s = .exc s1 e) : (x >>= f) s = .exc s1 e := by
  show L.bind x f s = _
  unfold L.bind
  rw [h]

theorem lift_ok {x : M α} {s : Tight} {w : World} {a : α} (h : x s.w = .ok w a) : lift x s = .ok { s with w := w } a := by
  unfold lift
  rw [h]

theorem bind_assoc' {γ : Type} (x : M α) (f : α → M β) (g : β → M γ) : (x >>= f) >>= g = x >>= fun a => f a >>= g := by
  funext w
  show M.bind (M.bind x f) g w = M.bind x (fun a => M.bind (f a) g) w
  unfold M.bind
  cases x w <;> rfl

theorem pure_bind'' (a : α) (f : α → M β) : (pure a : M α) >>= f = f a := rfl

/-- A part that neither reads nor writes the log. -/
def Hushed (x : M α) : Prop :=
  ∀ w w1 a, x w = .ok w1 a → w1.log = w.log ∧ ∀ lg, x (w.relog lg) = .ok (w1.relog lg) a

theorem Hushed.pure (a : α) : Hushed (pure a : M α) := by
  intro w w1 b h
  cases h
  exact ⟨rfl, fun _ => rfl⟩

theorem Hushed.bind {x : M α} {f : α → M β} (hx : Hushed x) (hf : ∀ a, Hushed (f a)) : Hushed (x >>= f) := by
  intro w w2 b h
  obtain ⟨w1, a, h1, h2⟩ := bind_ran h
  obtain ⟨hl1, hr1⟩ := hx w w1 a h1
  obtain ⟨hl2, hr2⟩ := hf a w1 w2 b h2
  exact ⟨hl2.trans hl1, fun lg => by rw [bind_ok (hr1 lg)]; exact hr2 lg⟩

theorem Hushed.get (i : NodeId) : Hushed (getNode i) := by
  intro w w1 n h
  unfold getNode at h
  cases hn : w.nodes i with
  | none => rw [hn] at h; cases h
  | some m =>
    rw [hn] at h; cases h
    exact ⟨rfl, fun lg => getNode_run (w := w.relog lg) hn⟩

theorem Hushed.mod (i : NodeId) (f : Node → Node) : Hushed (modNode i f) := by
  intro w w1 n h
  unfold modNode at h
  cases hn : w.nodes i with
  | none => rw [hn] at h; cases h
  | some m =>
    rw [hn] at h; cases h
    refine ⟨rfl, fun lg => ?_⟩
    unfold modNode
    rw [show (w.relog lg).nodes i = some m from hn]
    rfl

theorem Hushed.crash (f : Fault) : Hushed (M.crash f : M α) := fun w w1 a h => by cases h

theorem Hushed.throw (e : Exc) : Hushed (M.throw e : M α) := fun w w1 a h => by cases h

theorem Hushed.deref (p : Option NodeId) : Hushed (Tree.deref p) := by
  cases p with
  | none => exact Hushed.crash _
  | some i => exact Hushed.pure i

theorem Hushed.bound : Hushed Tree.bound := by
  intro w w1 a h
  cases h
  exact ⟨rfl, fun _ => rfl⟩

theorem Hushed.assert (b : Bool) : Hushed (cassert b) := by
  cases b
  · exact Hushed.crash _
  · exact Hushed.pure ()

theorem Hushed.throwIf (b : Bool) (e : Exc) : Hushed (Tree.throwIf b e) := by
  cases b
  · exact Hushed.pure ()
  · exact Hushed.throw e

theorem Hushed.ite {c : Prop} [Decidable c] {x y : M α} (hx : Hushed x) (hy : Hushed y) : Hushed (if c then x else y) := by
  split
  · exact hx
  · exact hy

theorem hushed_linkFwd (p q v : Option NodeId) : Hushed (linkFwd p q v) := by
  unfold linkFwd
  cases p with
  | none => exact (Hushed.deref q).bind fun _ => Hushed.mod _ _
  | some p => exact Hushed.mod _ _

theorem hushed_linkBack (p q v : Option NodeId) : Hushed (linkBack p q v) := by
  unfold linkBack
  cases p with
  | none => exact (Hushed.deref q).bind fun _ => Hushed.mod _ _
  | some p => exact Hushed.mod _ _

theorem hushed_markPending (i : NodeId) : Hushed (markPending i) := by
  unfold markPending
  refine (Hushed.get i).bind fun n => ?_
  cases n.owner with
  | none => exact Hushed.pure ()
  | some d => exact (Hushed.assert _).bind fun _ => (Hushed.get d).bind fun _ => Hushed.mod _ _

theorem hushed_removePending (i : NodeId) : Hushed (removePending i) := by
  unfold removePending
  refine (Hushed.get i).bind fun n => ?_
  cases n.owner with
  | none => exact Hushed.pure ()
  | some d => exact (Hushed.assert _).bind fun _ => Hushed.mod _ _

theorem hushed_attachLinks (a b p : NodeId) (x y : Option NodeId) : Hushed (attachLinks a b p x y) := by
  unfold attachLinks
  exact (Hushed.mod _ _).bind fun _ => (Hushed.mod _ _).bind fun _ => (hushed_linkFwd _ _ _).bind fun _ =>
    (hushed_linkBack _ _ _).bind fun _ => (Hushed.get _).bind fun _ => (Hushed.deref _).bind fun _ =>
    (Hushed.get _).bind fun _ => Hushed.bound.bind fun _ => Hushed.pure _

theorem hushed_detachLinks (i : NodeId) : Hushed (detachLinks i) := by
  unfold detachLinks
  exact (hushed_markPending i).bind fun _ => (Hushed.get _).bind fun _ => (hushed_linkFwd _ _ _).bind fun _ =>
    (hushed_linkBack _ _ _).bind fun _ => Hushed.pure _

theorem hushed_detachParent (i : NodeId) (p : Option NodeId) : Hushed (detachParent i p) := by
  unfold detachParent
  exact (Hushed.mod _ _).bind fun _ => (Hushed.deref _).bind fun _ => (Hushed.get _).bind fun _ => Hushed.pure _

theorem hushed_insertPoint (p : NodeId) (r : Option NodeId) : Hushed (insertPoint p r) := by
  unfold insertPoint
  cases r with
  | none => exact (Hushed.get _).bind fun _ => Hushed.pure _
  | some _ => exact (Hushed.get _).bind fun _ => Hushed.pure _

theorem hushed_insertEnd (p new : NodeId) (nw nd : Node) : Hushed (insertEnd p new nw nd) := by
  unfold insertEnd
  exact (Hushed.ite (Hushed.mod _ _) (Hushed.pure _)).bind fun _ => (Hushed.mod _ _).bind fun _ => Hushed.pure _

theorem hushed_replaceLoop (par : Option NodeId) (last : NodeId) : ∀ (n : Nat) (cur : Option NodeId),
    Hushed (replaceLoop par last n cur)
  | n, none => by unfold replaceLoop; exact Hushed.pure ()
  | 0, some c => by
    unfold replaceLoop
    exact (Hushed.get _).bind fun l => Hushed.ite (Hushed.pure ()) (Hushed.crash _)
  | n + 1, some c => by
    unfold replaceLoop
    exact (Hushed.get _).bind fun l => Hushed.ite (Hushed.pure ()) ((Hushed.mod _ _).bind fun _ =>
      (Hushed.get _).bind fun x => hushed_replaceLoop par last n x.next)

theorem hushed_replaceNode (old new : NodeId) : Hushed (replaceNode old new) := by
  unfold replaceNode
  refine Hushed.bind ?_ fun r => ?_
  · unfold replacementRange
    exact (Hushed.get _).bind fun r => Hushed.ite ((Hushed.mod _ _).bind fun _ => Hushed.pure _) (Hushed.pure _)
  · cases r.1 with
    | none =>
      show Hushed (replaceByNothing old)
      unfold replaceByNothing
      exact (Hushed.get _).bind fun _ => (Hushed.ite ((Hushed.deref _).bind fun _ => Hushed.mod _ _) (Hushed.pure _)).bind fun _ =>
        (Hushed.ite ((Hushed.deref _).bind fun _ => Hushed.mod _ _) (Hushed.pure _)).bind fun _ => Hushed.mod _ _
    | some fst =>
      refine (Hushed.deref _).bind fun lst => ?_
      unfold replaceByRange
      exact (Hushed.get _).bind fun _ => (Hushed.mod _ _).bind fun _ => (Hushed.mod _ _).bind fun _ =>
        (hushed_linkFwd _ _ _).bind fun _ => (hushed_linkBack _ _ _).bind fun _ => Hushed.bound.bind fun _ =>
        (hushed_replaceLoop _ _ _ _).bind fun _ => Hushed.mod _ _

/-- A part that only raises events: what it does in a memory that may run out. -/
def Still (x : M Unit) (xT : L Unit) : Prop :=
  ∀ w w2, x w = .ok w2 () → ∃ evs, w2 = w.relog (w.log ++ evs) ∧ ∃ k, evs.length ≤ k ∧ (Owned w → evs.length = k) ∧
    ∀ lg room t,
      (Granted room t k → xT ⟨w.relog lg, room, t⟩ = .ok ⟨w.relog (lg ++ evs), room, t + k⟩ ()) ∧
      (¬ Granted room t k → ∃ evs' t', xT ⟨w.relog lg, room, t⟩ = .exc ⟨w.relog (lg ++ evs'), room, t'⟩ .noMem)

/-- A part that changes nodes before it raises events: what it does in a memory that may run out. -/
def Late (x : M α) (xT : L α) : Prop :=
  ∀ w w2 a, x w = .ok w2 a → ∃ evs, w2.log = w.log ++ evs ∧ ∃ k, evs.length ≤ k ∧ (Owned w2 → evs.length = k) ∧
    ∀ lg room t,
      (Granted room t k → xT ⟨w.relog lg, room, t⟩ = .ok ⟨w2.relog (lg ++ evs), room, t + k⟩ a) ∧
      (¬ Granted room t k → ∃ evs' t', xT ⟨w.relog lg, room, t⟩ = .exc ⟨w2.relog (lg ++ evs'), room, t'⟩ .noMem)

theorem Still.late {x : M Unit} {xT : L Unit} (h : Still x xT) : Late x xT := by
  rintro w w2 ⟨⟩ hx
  obtain ⟨evs, rfl, k, hk, ho, hr⟩ := h w w2 hx
  exact ⟨evs, rfl, k, hk, ho, hr⟩

theorem Late.after {x : M α} {f : α → M β} {fT : α → L β} (hx : Hushed x) (hf : ∀ a, Late (f a) (fT a)) :
    Late (x >>= f) (lift x >>= fT) := by
  intro w w2 b h
  obtain ⟨w1, a, h1, h2⟩ := bind_ran h
  obtain ⟨hl, hr⟩ := hx w w1 a h1
  obtain ⟨evs, hl2, k, hk, ho, hr2⟩ := hf a w1 w2 b h2
  refine ⟨evs, by rw [hl2, hl], k, hk, ho, fun lg room t => ?_⟩
  rw [tbind_ok (lift_ok (s := ⟨w.relog lg, room, t⟩) (hr lg))]
  exact hr2 lg room t

theorem Late.still {x y : M Unit} {xT yT : L Unit} (hx : Late x xT) (hy : Still y yT) :
    Late (x >>= fun _ => y) (xT >>= fun _ => yT) := by
  rintro w w2 ⟨⟩ h
  obtain ⟨w1, ⟨⟩, h1, h2⟩ := bind_ran h
  obtain ⟨evs, hl, k, hk, ho, hr⟩ := hx w w1 () h1
  obtain ⟨evs2, rfl, k2, hk2, ho2, hr2⟩ := hy w1 w2 h2
  refine ⟨evs ++ evs2, ?_, k + k2, ?_, ?_, fun lg room t => ⟨?_, ?_⟩⟩
  · show w1.log ++ evs2 = _
    rw [hl, List.append_assoc]
  · rw [List.length_append]; omega
  · intro h
    have e1 := ho h
    have e2 := ho2 h
    rw [List.length_append]; omega
  · intro hg
    obtain ⟨hg1, hg2⟩ := granted_add.mp hg
    rw [tbind_ok ((hr lg room t).1 hg1), (hr2 _ _ _).1 hg2, ← List.append_assoc, Nat.add_assoc]
    rfl
  · intro hn
    by_cases hg1 : Granted room t k
    · have hg2 : ¬ Granted room (t + k) k2 := fun hg2 => hn (granted_add.mpr ⟨hg1, hg2⟩)
      obtain ⟨evs', t', he⟩ := (hr2 (lg ++ evs) _ _).2 hg2
      exact ⟨evs ++ evs', t', by rw [tbind_ok ((hr lg room t).1 hg1), he, ← List.append_assoc]; rfl⟩
    · obtain ⟨evs', t', he⟩ := (hr lg room t).2 hg1
      exact ⟨evs', t', tbind_exc he⟩

end

theorem still_fire (doc : Option NodeId) (ev : Ev) : Still (fire doc ev) (fireT doc ev) := by
  intro w w2 h
  have hrun : ∃ evs : List Ev, w2 = w.relog (w.log ++ evs) ∧ evs.length ≤ 1 ∧ (Owned w → evs.length = 1) ∧
      ∀ lg, fire doc ev (w.relog lg) = .ok (w.relog (lg ++ evs)) () := by
    unfold fire at h ⊢
    cases doc with
    | none => cases h
    | some d =>
      rw [deref_bind] at h
      obtain ⟨w1, _, h1, h0⟩ := bind_ran h
      clear h
      obtain ⟨w3, n, h3, h⟩ := bind_ran h0
      clear h0
      have q1 := Hushed.get d w w1 _ h1
      have hw1 : w1 = w := by
        unfold getNode at h1
        cases hd : w.nodes d with
        | none => rw [hd] at h1; cases h1
        | some _ => rw [hd] at h1; cases h1; rfl
      subst hw1
      have q3 := Hushed.get ev.target w1 w3 _ h3
      have hw3 : w3 = w1 ∧ w1.nodes ev.target = some n := by
        unfold getNode at h3
        cases hd : w1.nodes ev.target with
        | none => rw [hd] at h3; cases h3
        | some _ => rw [hd] at h3; cases h3; exact ⟨rfl, rfl⟩
      obtain ⟨rfl, hn⟩ := hw3
      by_cases ho : n.owner.isSome = true
      · rw [if_pos ho] at h
        cases h
        refine ⟨[ev], rfl, Nat.le_refl 1, fun _ => rfl, fun lg => ?_⟩
        rw [deref_bind, bind_ok (q1.2 lg), bind_ok (q3.2 lg), if_pos ho]
        rfl
      · rw [if_neg ho] at h
        cases h
        refine ⟨[], ?_, Nat.zero_le 1, fun hw => ?_, fun lg => ?_⟩
        · rw [List.append_nil]; rfl
        · exact absurd (Option.isSome_iff_ne_none.mpr (hw _ _ hn)) ho
        · rw [deref_bind, bind_ok (q1.2 lg), bind_ok (q3.2 lg), if_neg ho, List.append_nil]
          rfl
  obtain ⟨evs, h1, h2, h3, h4⟩ := hrun
  refine ⟨evs, h1, 1, h2, h3, fun lg room t => ⟨fun hg => ?_, fun hg => ?_⟩⟩
  · have hr : room t = true := granted_one.mp hg
    unfold fireT
    rw [if_pos hr]
    exact lift_ok (s := ⟨w.relog lg, room, t + 1⟩) (h4 lg)
  · have hr : ¬ room t = true := fun hr => hg (granted_one.mpr hr)
    refine ⟨[], t + 1, ?_⟩
    unfold fireT
    rw [if_neg hr, List.append_nil]

/-- Reading a node before raising events. -/
theorem Still.get {i : NodeId} {f : Node → M Unit} {fT : Node → L Unit} (hf : ∀ n, Still (f n) (fT n)) :
    Still (getNode i >>= f) (lift (getNode i) >>= fT) := by
  intro w w2 h
  obtain ⟨w1, n, h1, h2⟩ := bind_ran h
  have hw1 : w1 = w ∧ w.nodes i = some n := by
    unfold getNode at h1
    cases hd : w.nodes i with
    | none => rw [hd] at h1; cases h1
    | some _ => rw [hd] at h1; cases h1; exact ⟨rfl, rfl⟩
  obtain ⟨rfl, hn⟩ := hw1
  obtain ⟨evs, he, k, hk, ho, hr⟩ := hf n w1 w2 h2
  refine ⟨evs, he, k, hk, ho, fun lg room t => ?_⟩
  rw [tbind_ok (lift_ok (s := ⟨w1.relog lg, room, t⟩) (getNode_run (w := w1.relog lg) hn))]
  exact hr lg room t

theorem Still.deref {p : Option NodeId} {f : NodeId → M Unit} {fT : NodeId → L Unit} (hf : ∀ n, Still (f n) (fT n)) :
    Still (deref p >>= f) (lift (deref p) >>= fT) := by
  intro w w2 h
  cases p with
  | none => cases h
  | some i => exact hf i w w2 h

theorem Still.pure : Still (pure ()) (pure ()) := by
  intro w w2 h
  cases h
  refine ⟨[], by rw [List.append_nil]; rfl, 0, Nat.le_refl 0, fun _ => rfl, fun lg room t => ⟨fun _ => ?_, fun hn => absurd (granted_zero _ _) hn⟩⟩
  rw [List.append_nil]
  rfl

theorem Still.seq {x y : M Unit} {xT yT : L Unit} (hx : Still x xT) (hy : Still y yT) :
    Still (x >>= fun _ => y) (xT >>= fun _ => yT) := by
  intro w w2 h
  obtain ⟨w1, ⟨⟩, h1, h2⟩ := bind_ran h
  obtain ⟨evs, rfl, k, hk, ho, hr⟩ := hx w w1 h1
  obtain ⟨evs2, rfl, k2, hk2, ho2, hr2⟩ := hy _ w2 h2
  obtain ⟨evs0, hl0, k0, hk0, ho0, hr0⟩ := hx.late.still hy w _ () h
  have : evs0 = evs ++ evs2 := by
    have h3 : (w.log ++ evs) ++ evs2 = w.log ++ evs0 := hl0
    rw [List.append_assoc] at h3
    exact (List.append_cancel_left h3).symm
  subst this
  refine ⟨evs ++ evs2, ?_, k0, hk0, ho0, hr0⟩
  show _ = World.relog _ _
  rw [← List.append_assoc]
  rfl

theorem Still.ite {c : Prop} [Decidable c] {x y : M Unit} {xT yT : L Unit} (hx : Still x xT) (hy : Still y yT) :
    Still (if c then x else y) (if c then xT else yT) := by
  split
  · exact hx
  · exact hy

theorem still_walk (doc : Option NodeId) (node : NodeId) (kind : EvKind) : ∀ (fuel : Nat) (st : WalkState),
    Still (walkLoop doc node kind fuel st) (walkLoopT doc node kind fuel st)
  | n, .down none => by
    unfold walkLoop walkLoopT
    exact Still.pure
  | 0, .down (some t) => fun w w2 h => by cases h
  | 0, .up t p => fun w w2 h => by cases h
  | n + 1, .down (some t) => by
    unfold walkLoop walkLoopT
    exact (still_fire _ _).seq (Still.get fun tn => Still.ite (still_walk doc node kind n _)
      (Still.ite (still_walk doc node kind n _) (still_walk doc node kind n _)))
  | n + 1, .up t p => by
    unfold walkLoop walkLoopT
    exact Still.ite (Still.get fun tn => still_walk doc node kind n _)
      (Still.deref fun q => Still.get fun qn => Still.ite (still_walk doc node kind n _)
        (Still.get fun tn => still_walk doc node kind n _))

theorem still_change (doc : Option NodeId) (node : NodeId) (rel : Option NodeId) (c : Change) :
    Still (dispatchNodeChange doc node rel c) (dispatchNodeChangeT doc node rel c) := by
  unfold dispatchNodeChange dispatchNodeChangeT
  refine (still_fire _ _).seq (Still.get fun n => ?_)
  intro w w2 h
  obtain ⟨w1, b, h1, h⟩ := bind_ran h
  cases h1
  obtain ⟨evs, he, k, hk, ho, hr⟩ := still_walk doc node c.below _ _ w w2 h
  exact ⟨evs, he, k, hk, ho, hr⟩


/-! ## The checks say nothing -/

theorem hushed_anyAncestor (q : NodeId → Node → Bool) : ∀ (n : Nat) (cur : Option NodeId), Hushed (anyAncestor q n cur)
  | n, none => by unfold anyAncestor; exact Hushed.pure _
  | 0, some i => Hushed.crash _
  | n + 1, some i => by
    unfold anyAncestor
    exact (Hushed.get _).bind fun x => Hushed.ite (Hushed.pure _) (hushed_anyAncestor q n _)

theorem hushed_anySibling (q : NodeId → Node → Bool) : ∀ (n : Nat) (cur : Option NodeId), Hushed (anySibling q n cur)
  | n, none => by unfold anySibling; exact Hushed.pure _
  | 0, some i => Hushed.crash _
  | n + 1, some i => by
    unfold anySibling
    exact (Hushed.get _).bind fun x => Hushed.ite (Hushed.pure _) (hushed_anySibling q n _)

theorem hushed_readonly (i : NodeId) : Hushed (readonly i) := by
  unfold readonly
  exact (Hushed.get _).bind fun n => Hushed.ite (Hushed.pure _) (Hushed.ite (Hushed.pure _)
    (Hushed.bound.bind fun b => hushed_anyAncestor _ _ _))

theorem hushed_permittedChild (p c : NodeId) : Hushed (permittedChild p c) := by
  unfold permittedChild
  refine (Hushed.get _).bind fun _ => (Hushed.get _).bind fun _ => Hushed.ite (Hushed.bound.bind fun _ => Hushed.ite
    ((hushed_anySibling _ _ _).bind fun _ => ?_) ?_) (Hushed.pure _)
  · exact Hushed.ite ((hushed_anySibling _ _ _).bind fun _ => Hushed.pure _) (Hushed.pure _)
  · exact Hushed.ite ((hushed_anySibling _ _ _).bind fun _ => Hushed.pure _) (Hushed.pure _)

theorem hushed_allPermitted (p : NodeId) : ∀ (n : Nat) (cur : Option NodeId), Hushed (allPermitted p n cur)
  | n, none => by unfold allPermitted; exact Hushed.pure _
  | 0, some i => Hushed.crash _
  | n + 1, some i => by
    unfold allPermitted
    exact (hushed_permittedChild _ _).bind fun x => Hushed.ite ((Hushed.get _).bind fun _ => hushed_allPermitted p n _) (Hushed.pure _)

theorem hushed_notChildOf (p : NodeId) (r : Option NodeId) : Hushed (notChildOf p r) := by
  unfold notChildOf
  cases r with
  | none => exact Hushed.pure _
  | some _ => exact (Hushed.get _).bind fun _ => Hushed.pure _

theorem hushed_isSelfOrAncestor (a b : NodeId) : Hushed (isSelfOrAncestor a b) := by
  unfold isSelfOrAncestor
  exact Hushed.bound.bind fun _ => hushed_anyAncestor _ _ _

theorem hushed_notPermitted (p new : NodeId) (nw : Node) : Hushed (notPermitted p new nw) := by
  unfold notPermitted
  exact Hushed.ite (Hushed.pure _) ((hushed_permittedChild _ _).bind fun _ => Hushed.pure _)

theorem hushed_insertChecks (p new : NodeId) (r : Option NodeId) : Hushed (insertChecks p new r) := by
  unfold insertChecks
  exact (Hushed.get _).bind fun _ => (Hushed.get _).bind fun _ => (Hushed.throwIf _ _).bind fun _ =>
    (hushed_readonly _).bind fun _ => (Hushed.throwIf _ _).bind fun _ => (hushed_notChildOf _ _).bind fun _ =>
    (Hushed.throwIf _ _).bind fun _ => (hushed_isSelfOrAncestor _ _).bind fun _ => (Hushed.throwIf _ _).bind fun _ =>
    (hushed_notPermitted _ _ _).bind fun _ => (Hushed.throwIf _ _).bind fun _ => Hushed.pure _

theorem hushed_replaceChecks (p new old : NodeId) : Hushed (replaceChecks p new old) := by
  unfold replaceChecks
  refine (Hushed.get _).bind fun _ => (Hushed.get _).bind fun _ => (Hushed.throwIf _ _).bind fun _ => (Hushed.throwIf _ _).bind fun _ =>
    (hushed_readonly _).bind fun _ => (Hushed.throwIf _ _).bind fun _ => (hushed_notChildOf _ _).bind fun _ =>
    (Hushed.throwIf _ _).bind fun _ => (hushed_isSelfOrAncestor _ _).bind fun _ => (Hushed.throwIf _ _).bind fun _ => Hushed.bind ?_ fun _ =>
    Hushed.throwIf _ _
  unfold replacePermitted
  exact Hushed.ite (Hushed.bound.bind fun _ => hushed_allPermitted _ _ _) (hushed_permittedChild _ _)

theorem hushed_removeChecks (p old : NodeId) : Hushed (removeChecks p old) := by
  unfold removeChecks
  exact (Hushed.get _).bind fun _ => (Hushed.get _).bind fun _ => (Hushed.throwIf _ _).bind fun _ => (Hushed.throwIf _ _).bind fun _ =>
    (hushed_readonly _).bind fun _ => (Hushed.throwIf _ _).bind fun _ => Hushed.pure _

/-- A check writes nothing. -/
def Pure {α : Type} (x : M α) : Prop := ∀ w w1 a, x w = .ok w1 a → w1 = w

section
variable {α β : Type}

theorem Pure.pure (a : α) : Pure (pure a : M α) := by intro w w1 b h; cases h; rfl

theorem Pure.bind {x : M α} {f : α → M β} (hx : Pure x) (hf : ∀ a, Pure (f a)) : Pure (x >>= f) := by
  intro w w2 b h
  obtain ⟨w1, a, h1, h2⟩ := bind_ran h
  rw [hf a w1 w2 b h2, hx w w1 a h1]

theorem Pure.get (i : NodeId) : Pure (getNode i) := by
  intro w w1 n h
  unfold getNode at h
  cases hn : w.nodes i with
  | none => rw [hn] at h; cases h
  | some m => rw [hn] at h; cases h; rfl

theorem Pure.crash (f : Fault) : Pure (M.crash f : M α) := fun w w1 a h => by cases h
theorem Pure.bound : Pure Tree.bound := by intro w w1 a h; cases h; rfl
theorem Pure.throwIf (b : Bool) (e : Exc) : Pure (Tree.throwIf b e) := by
  cases b
  · exact Pure.pure ()
  · exact fun w w1 a h => by cases h
theorem Pure.deref (p : Option NodeId) : Pure (Tree.deref p) := by
  cases p with
  | none => exact Pure.crash _
  | some i => exact Pure.pure i
theorem Pure.ite {c : Prop} [Decidable c] {x y : M α} (hx : Pure x) (hy : Pure y) : Pure (if c then x else y) := by
  split
  · exact hx
  · exact hy

end

theorem pure_anyAncestor (q : NodeId → Node → Bool) : ∀ (n : Nat) (cur : Option NodeId), Pure (anyAncestor q n cur)
  | n, none => by unfold anyAncestor; exact Pure.pure _
  | 0, some i => Pure.crash _
  | n + 1, some i => by
    unfold anyAncestor
    exact (Pure.get _).bind fun x => Pure.ite (Pure.pure _) (pure_anyAncestor q n _)

theorem pure_anySibling (q : NodeId → Node → Bool) : ∀ (n : Nat) (cur : Option NodeId), Pure (anySibling q n cur)
  | n, none => by unfold anySibling; exact Pure.pure _
  | 0, some i => Pure.crash _
  | n + 1, some i => by
    unfold anySibling
    exact (Pure.get _).bind fun x => Pure.ite (Pure.pure _) (pure_anySibling q n _)

theorem pure_readonly (i : NodeId) : Pure (readonly i) := by
  unfold readonly
  exact (Pure.get _).bind fun n => Pure.ite (Pure.pure _) (Pure.ite (Pure.pure _)
    (Pure.bound.bind fun b => pure_anyAncestor _ _ _))

theorem pure_permittedChild (p c : NodeId) : Pure (permittedChild p c) := by
  unfold permittedChild
  refine (Pure.get _).bind fun _ => (Pure.get _).bind fun _ => Pure.ite (Pure.bound.bind fun _ => Pure.ite
    ((pure_anySibling _ _ _).bind fun _ => ?_) ?_) (Pure.pure _)
  · exact Pure.ite ((pure_anySibling _ _ _).bind fun _ => Pure.pure _) (Pure.pure _)
  · exact Pure.ite ((pure_anySibling _ _ _).bind fun _ => Pure.pure _) (Pure.pure _)

theorem pure_allPermitted (p : NodeId) : ∀ (n : Nat) (cur : Option NodeId), Pure (allPermitted p n cur)
  | n, none => by unfold allPermitted; exact Pure.pure _
  | 0, some i => Pure.crash _
  | n + 1, some i => by
    unfold allPermitted
    exact (pure_permittedChild _ _).bind fun x => Pure.ite ((Pure.get _).bind fun _ => pure_allPermitted p n _) (Pure.pure _)

theorem pure_notChildOf (p : NodeId) (r : Option NodeId) : Pure (notChildOf p r) := by
  unfold notChildOf
  cases r with
  | none => exact Pure.pure _
  | some _ => exact (Pure.get _).bind fun _ => Pure.pure _

theorem pure_insertPoint (p : NodeId) (r : Option NodeId) : Pure (insertPoint p r) := by
  unfold insertPoint
  cases r with
  | none => exact (Pure.get _).bind fun _ => Pure.pure _
  | some _ => exact (Pure.get _).bind fun _ => Pure.pure _

theorem pure_insertChecks (p new : NodeId) (r : Option NodeId) : Pure (insertChecks p new r) := by
  unfold insertChecks
  refine (Pure.get _).bind fun _ => (Pure.get _).bind fun _ => (Pure.throwIf _ _).bind fun _ =>
    (pure_readonly _).bind fun _ => (Pure.throwIf _ _).bind fun _ => (pure_notChildOf _ _).bind fun _ =>
    (Pure.throwIf _ _).bind fun _ => Pure.bind ?_ fun _ => (Pure.throwIf _ _).bind fun _ =>
    Pure.bind ?_ fun _ => (Pure.throwIf _ _).bind fun _ => Pure.pure _
  · unfold isSelfOrAncestor
    exact Pure.bound.bind fun _ => pure_anyAncestor _ _ _
  · unfold notPermitted
    exact Pure.ite (Pure.pure _) ((pure_permittedChild _ _).bind fun _ => Pure.pure _)

theorem pure_removeChecks (p old : NodeId) : Pure (removeChecks p old) := by
  unfold removeChecks
  exact (Pure.get _).bind fun _ => (Pure.get _).bind fun _ => (Pure.throwIf _ _).bind fun _ => (Pure.throwIf _ _).bind fun _ =>
    (pure_readonly _).bind fun _ => (Pure.throwIf _ _).bind fun _ => Pure.pure _

/-! ## The functions of the model, cut into the same pieces -/

theorem attachRange_eq (a b p : NodeId) (x y : Option NodeId) : attachRange a b p x y =
    attachLinks a b p x y >>= fun q => attachLoop q.1 p b q.2 (some a) >>= fun _ => fireSubtreeModified q.1 p := by
  unfold attachRange attachLinks
  simp only [bind_assoc', pure_bind'']

theorem detach_eq (i : NodeId) : detach i =
    detachLinks i >>= fun n => dispatchNodeChange n.owner i n.parent .removal >>= fun _ => detachParent i n.parent >>= fun q =>
      fireSubtreeModified q.2 q.1 >>= fun _ => (do
        modNode i fun x => { x with prev := none }
        modNode i fun x => { x with next := none }) := by
  unfold detach detachLinks detachParent
  simp only [bind_assoc', pure_bind'']

theorem insertDo_eq (p new : NodeId) (r : Option NodeId) (nw nd : Node) : insertDo p new r nw nd =
    takeOut new >>= fun _ => removePending new >>= fun _ =>
      (if nw.type = .fragment then insertFragment p new r
       else insertPoint p r >>= fun pt => attachRange new new p pt r) >>= fun _ => insertEnd p new nw nd := by
  unfold insertDo insertEnd attach
  simp only [bind_assoc', pure_bind'']

theorem insertBefore_eq (p new : NodeId) (r : Option NodeId) : insertBefore p new r =
    insertChecks p new r >>= fun q => if r = some new then (do
      ref new
      pure new) else insertDo p new r q.1 q.2 := by
  unfold insertBefore insertChecks
  simp only [bind_assoc', pure_bind'']

theorem replaceDo_eq (new old : NodeId) : replaceDo new old = takeOut new >>= fun _ => (do
    removePending new
    replaceNode old new
    ref old
    markPending old
    pure old) := by
  unfold replaceDo
  simp only [bind_assoc', pure_bind'']

theorem replaceChild_eq (p new old : NodeId) : replaceChild p new old =
    replaceChecks p new old >>= fun _ => if new = old then (do
      ref old
      pure old) else replaceDo new old := by
  unfold replaceChild replaceChecks
  simp only [bind_assoc', pure_bind'']

theorem removeChild_eq (p old : NodeId) : removeChild p old =
    removeChecks p old >>= fun d => dispatchNodeChange d old (some p) .removal >>= fun _ => detach old >>= fun _ =>
      ref old >>= fun _ => fireSubtreeModified d p >>= fun _ => pure old := by
  unfold removeChild removeChecks
  simp only [bind_assoc', pure_bind'']

/-! ## With memory enough -/

/-- A result, told of the memory with its answers. -/
def Res.tight {α : Type} (room : Nat → Bool) (t : Nat) : Res α → TRes α
  | .ok w a => .ok ⟨w, room, t⟩ a
  | .exc w e => .exc ⟨w, room, t⟩ e
  | .fault f => .fault f

/-- With memory enough the two do the same. -/
def Same {α : Type} (x : M α) (xT : L α) : Prop :=
  ∀ w room t, (∀ i, room i = true) → ∃ t', xT ⟨w, room, t⟩ = (x w).tight room t'

section
variable {α β : Type}

theorem Same.lift (x : M α) : Same x (lift x) := by
  intro w room t _
  refine ⟨t, ?_⟩
  unfold Tree.lift
  cases h : x w <;> simp only [h] <;> rfl

theorem Same.bind {x : M α} {xT : L α} {f : α → M β} {fT : α → L β} (hx : Same x xT) (hf : ∀ a, Same (f a) (fT a)) :
    Same (x >>= f) (xT >>= fT) := by
  intro w room t hr
  obtain ⟨t1, h1⟩ := hx w room t hr
  rw [bind_run]
  show ∃ t', L.bind xT fT ⟨w, room, t⟩ = _
  unfold L.bind
  rw [h1]
  cases hxw : x w with
  | ok w1 a => exact hf a w1 room t1 hr
  | exc w1 e => exact ⟨t1, rfl⟩
  | fault g => exact ⟨t1, rfl⟩

theorem Same.pure (a : α) : Same (pure a : M α) (pure a) := fun w room t _ => ⟨t, rfl⟩

theorem Same.ite {c : Prop} [Decidable c] {x y : M α} {xT yT : L α} (hx : Same x xT) (hy : Same y yT) :
    Same (if c then x else y) (if c then xT else yT) := by
  split
  · exact hx
  · exact hy

/-- A part that never answers with an exception. -/
def NoExc (x : M α) : Prop := ∀ w w1 e, x w ≠ .exc w1 e

theorem NoExc.bind {x : M α} {f : α → M β} (hx : NoExc x) (hf : ∀ a, NoExc (f a)) : NoExc (x >>= f) := by
  intro w w2 e h
  rw [bind_run] at h
  cases hxw : x w with
  | ok w1 a => rw [hxw] at h; exact hf a w1 w2 e h
  | exc w1 e => exact hx w w1 e hxw
  | fault g => rw [hxw] at h; cases h

theorem NoExc.get (i : NodeId) : NoExc (getNode i) := by
  intro w w1 e h
  unfold getNode at h
  cases hn : w.nodes i with
  | none => rw [hn] at h; cases h
  | some m => rw [hn] at h; cases h

theorem NoExc.deref (p : Option NodeId) : NoExc (Tree.deref p) := by
  intro w w1 e h
  cases p <;> cases h

theorem NoExc.pure (a : α) : NoExc (pure a : M α) := by
  intro w w1 e h; cases h

theorem NoExc.crash (f : Fault) : NoExc (M.crash f : M α) := by
  intro w w1 e h; cases h

theorem NoExc.bound : NoExc Tree.bound := by
  intro w w1 e h; cases h

theorem NoExc.ite {c : Prop} [Decidable c] {x y : M α} (hx : NoExc x) (hy : NoExc y) : NoExc (if c then x else y) := by
  split
  · exact hx
  · exact hy

theorem Same.ignore {x : M Unit} {xT : L Unit} (h : Same x xT) (hn : NoExc x) : Same x (ignore xT) := by
  intro w room t hr
  obtain ⟨t1, h1⟩ := h w room t hr
  refine ⟨t1, ?_⟩
  unfold Tree.ignore
  rw [h1]
  cases hxw : x w with
  | ok w1 a => rfl
  | exc w1 e => exact absurd hxw (hn w w1 e)
  | fault g => rfl

end

theorem noExc_fire (doc : Option NodeId) (ev : Ev) : NoExc (fire doc ev) := by
  unfold fire
  refine (NoExc.deref _).bind fun _ => (NoExc.get _).bind fun _ => (NoExc.get _).bind fun _ => NoExc.ite ?_ (NoExc.pure _)
  intro w w1 e h
  cases h

theorem noExc_walk (doc : Option NodeId) (node : NodeId) (kind : EvKind) : ∀ (fuel : Nat) (st : WalkState),
    NoExc (walkLoop doc node kind fuel st)
  | n, .down none => by
    unfold walkLoop
    exact NoExc.pure _
  | 0, .down (some t) => NoExc.crash _
  | 0, .up t p => NoExc.crash _
  | n + 1, .down (some t) => by
    unfold walkLoop
    exact (noExc_fire _ _).bind fun _ => (NoExc.get _).bind fun _ => NoExc.ite (noExc_walk doc node kind n _)
      (NoExc.ite (noExc_walk doc node kind n _) (noExc_walk doc node kind n _))
  | n + 1, .up t p => by
    unfold walkLoop
    exact NoExc.ite ((NoExc.get _).bind fun _ => noExc_walk doc node kind n _)
      ((NoExc.deref _).bind fun _ => (NoExc.get _).bind fun _ => NoExc.ite (noExc_walk doc node kind n _)
        ((NoExc.get _).bind fun _ => noExc_walk doc node kind n _))

theorem noExc_change (doc : Option NodeId) (node : NodeId) (rel : Option NodeId) (c : Change) :
    NoExc (dispatchNodeChange doc node rel c) := by
  unfold dispatchNodeChange
  exact (noExc_fire _ _).bind fun _ => (NoExc.get _).bind fun _ => NoExc.bound.bind fun _ => noExc_walk _ _ _ _ _

theorem same_fire (doc : Option NodeId) (ev : Ev) : Same (fire doc ev) (fireT doc ev) := by
  intro w room t hr
  unfold fireT
  rw [if_pos (hr t)]
  exact Same.lift _ w room (t + 1) hr

theorem same_walk (doc : Option NodeId) (node : NodeId) (kind : EvKind) : ∀ (fuel : Nat) (st : WalkState),
    Same (walkLoop doc node kind fuel st) (walkLoopT doc node kind fuel st)
  | n, .down none => by
    unfold walkLoop walkLoopT
    exact Same.pure _
  | 0, .down (some t) => Same.lift _
  | 0, .up t p => Same.lift _
  | n + 1, .down (some t) => by
    unfold walkLoop walkLoopT
    exact (same_fire _ _).bind fun _ => (Same.lift _).bind fun tn => Same.ite (same_walk doc node kind n _)
      (Same.ite (same_walk doc node kind n _) (same_walk doc node kind n _))
  | n + 1, .up t p => by
    unfold walkLoop walkLoopT
    exact Same.ite ((Same.lift _).bind fun tn => same_walk doc node kind n _)
      ((Same.lift _).bind fun q => (Same.lift _).bind fun qn => Same.ite (same_walk doc node kind n _)
        ((Same.lift _).bind fun tn => same_walk doc node kind n _))

theorem same_change (doc : Option NodeId) (node : NodeId) (rel : Option NodeId) (c : Change) :
    Same (dispatchNodeChange doc node rel c) (dispatchNodeChangeT doc node rel c) := by
  unfold dispatchNodeChange dispatchNodeChangeT
  exact (same_fire _ _).bind fun _ => (Same.lift _).bind fun _ => (Same.lift _).bind fun _ => same_walk _ _ _ _ _

theorem same_attachLoop (doc : Option NodeId) (p last : NodeId) : ∀ (fuel : Nat) (cur : Option NodeId),
    Same (attachLoop doc p last fuel cur) (attachLoopT doc p last fuel cur)
  | 0, cur => by
    unfold attachLoop attachLoopT
    exact (Same.lift _).bind fun _ => Same.ite (Same.pure _) (Same.lift _)
  | n + 1, cur => by
    unfold attachLoop attachLoopT
    exact (Same.lift _).bind fun _ => Same.ite (Same.pure _) ((Same.lift _).bind fun _ => (Same.lift _).bind fun _ =>
      (same_change _ _ _ _).bind fun _ => (Same.lift _).bind fun _ => same_attachLoop doc p last n _)

theorem same_attachRange (a b p : NodeId) (x y : Option NodeId) : Same (attachRange a b p x y) (attachRangeT a b p x y) := by
  rw [attachRange_eq]
  exact (Same.lift _).bind fun _ => (same_attachLoop _ _ _ _ _).bind fun _ => same_fire _ _

theorem same_detach (i : NodeId) : Same (detach i) (detachT i) := by
  rw [detach_eq]
  exact (Same.lift _).bind fun _ => ((same_change _ _ _ _).ignore (noExc_change _ _ _ _)).bind fun _ => (Same.lift _).bind fun _ =>
    ((same_fire _ _).ignore (noExc_fire _ _)).bind fun _ => Same.lift _

theorem same_takeOut (i : NodeId) : Same (takeOut i) (takeOutT i) := by
  unfold takeOut takeOutT
  refine (Same.lift _).bind fun n => ?_
  cases n.parent with
  | none => exact Same.pure _
  | some q => exact (Same.lift _).bind fun _ => (Same.lift _).bind fun _ => same_detach _

theorem same_insertFragment (p new : NodeId) (r : Option NodeId) : Same (insertFragment p new r) (insertFragmentT p new r) := by
  unfold insertFragment insertFragmentT
  refine (Same.lift _).bind fun f => (Same.lift _).bind fun _ => (Same.lift _).bind fun _ => (Same.lift _).bind fun _ => ?_
  cases f.first with
  | none => exact Same.pure _
  | some c => exact (Same.lift _).bind fun _ => (Same.lift _).bind fun _ => (same_attachRange _ _ _ _ _).bind fun _ => Same.lift _

theorem same_insert (p new : NodeId) (r : Option NodeId) : Same (insertBefore p new r) (insertBeforeT p new r) := by
  rw [insertBefore_eq]
  refine (Same.lift _).bind fun q => Same.ite (Same.lift _) ?_
  rw [insertDo_eq]
  exact (same_takeOut _).bind fun _ => (Same.lift _).bind fun _ =>
    (Same.ite (same_insertFragment _ _ _) ((Same.lift _).bind fun _ => same_attachRange _ _ _ _ _)).bind fun _ => Same.lift _

theorem same_replace (p new old : NodeId) : Same (replaceChild p new old) (replaceChildT p new old) := by
  rw [replaceChild_eq]
  refine (Same.lift _).bind fun q => Same.ite (Same.lift _) ?_
  rw [replaceDo_eq]
  exact (same_takeOut _).bind fun _ => Same.lift _

theorem same_remove (p old : NodeId) : Same (removeChild p old) (removeChildT p old) := by
  rw [removeChild_eq]
  exact (Same.lift _).bind fun q => (same_change _ _ _ _).bind fun _ => (same_detach _).bind fun _ => (Same.lift _).bind fun _ =>
    (same_fire _ _).bind fun _ => Same.pure _


/-! ## Putting one node in -/

theorem getNode_inv {i : NodeId} {w w1 : World} {n : Node} (h : getNode i w = .ok w1 n) : w1 = w ∧ w.nodes i = some n := by
  unfold getNode at h
  cases hd : w.nodes i with
  | none => rw [hd] at h; cases h
  | some _ => rw [hd] at h; cases h; exact ⟨rfl, rfl⟩

theorem modNode_inv {i : NodeId} {f : Node → Node} {w w1 : World} {u : Unit} (h : modNode i f w = .ok w1 u) :
    ∃ n, w.nodes i = some n ∧ w1 = w.upd i (f n) := by
  unfold modNode at h
  cases hd : w.nodes i with
  | none => rw [hd] at h; cases h
  | some n => rw [hd] at h; cases h; exact ⟨n, rfl, rfl⟩

theorem late_attachOne (doc : Option NodeId) (p x : NodeId) (fuel : Nat) :
    Late (attachLoop doc p x fuel (some x)) (attachLoopT doc p x fuel (some x)) := by
  rintro w w2 ⟨⟩ h
  unfold attachLoop at h
  obtain ⟨w1, l, h1, h2⟩ := bind_ran h
  obtain ⟨rfl, hl⟩ := getNode_inv h1
  by_cases hc : some x = l.next
  · rw [if_pos hc] at h2
    cases h2
    refine ⟨[], (List.append_nil _).symm, 0, Nat.le_refl 0, fun _ => rfl, fun lg room t =>
      ⟨fun _ => ?_, fun hn => absurd (granted_zero _ _) hn⟩⟩
    unfold attachLoopT
    rw [tbind_ok (lift_ok (s := ⟨w2.relog lg, room, t⟩) (getNode_run (w := w2.relog lg) hl)), if_pos hc, List.append_nil]
    rfl
  · rw [if_neg hc] at h2
    cases fuel with
    | zero => cases h2
    | succ fuel =>
      dsimp only at h2
      rw [deref_bind, mod_bind hl] at h2
      obtain ⟨w4, ⟨⟩, h5, h6⟩ := bind_ran h2
      obtain ⟨evs, rfl, k, hk, ho, hr⟩ := still_change doc x (some p) .addition _ w4 h5
      have hx : (w1.upd x { l with parent := some p }).nodes x = some { l with parent := some p } := by
        rw [upd_nodes, if_pos rfl]
      have hx' : ∀ lg, ((w1.upd x { l with parent := some p }).relog lg).nodes x = some { l with parent := some p } := fun _ => hx
      rw [get_bind (hx' _)] at h6
      unfold attachLoop at h6
      rw [get_bind (hx' _), if_pos rfl] at h6
      cases h6
      refine ⟨evs, rfl, k, hk, ho, fun lg room t => ?_⟩
      unfold attachLoopT
      rw [tbind_ok (lift_ok (s := ⟨w1.relog lg, room, t⟩) (getNode_run (w := w1.relog lg) hl)), if_neg hc]
      dsimp only
      rw [tbind_ok (lift_ok (s := ⟨w1.relog lg, room, t⟩) (deref_run x _)),
        tbind_ok (lift_ok (s := ⟨w1.relog lg, room, t⟩) (modNode_run (w := w1.relog lg) hl _))]
      refine ⟨fun hg => ?_, fun hg => ?_⟩
      · refine (tbind_ok ((hr lg room t).1 hg)).trans ?_
        refine (tbind_ok (lift_ok (s := ⟨_, room, t + k⟩) (getNode_run (hx' (lg ++ evs))))).trans ?_
        unfold attachLoopT
        refine (tbind_ok (lift_ok (s := ⟨_, room, t + k⟩) (getNode_run (hx' (lg ++ evs))))).trans ?_
        rw [if_pos rfl]
        rfl
      · obtain ⟨evs', t', he⟩ := (hr lg room t).2 hg
        exact ⟨evs', t', tbind_exc he⟩

theorem late_attach (p x : NodeId) (a b : Option NodeId) : Late (attachRange x x p a b) (attachRangeT x x p a b) := by
  rw [attachRange_eq]
  exact Late.after (hushed_attachLinks _ _ _ _ _) fun q => (late_attachOne _ _ _ _).still (still_fire _ _)

/-! ## Taking a node out: nobody is asked -/

/-- A part that does not look at the errors of its events. -/
def Deaf (x : M Unit) (xT : L Unit) : Prop :=
  ∀ w w2, x w = .ok w2 () → ∀ lg room t, ∃ lg' t', xT ⟨w.relog lg, room, t⟩ = .ok ⟨w2.relog lg', room, t'⟩ () ∧
    ((∀ i, t ≤ i → room i = false) → lg' = lg ∧ t ≤ t')

theorem Deaf.quiet {x : M Unit} (hx : Hushed x) : Deaf x (lift x) := by
  intro w w2 h lg room t
  exact ⟨lg, t, lift_ok (s := ⟨w.relog lg, room, t⟩) ((hx w w2 () h).2 lg), fun _ => ⟨rfl, Nat.le_refl t⟩⟩

theorem Deaf.seq {x y : M Unit} {xT yT : L Unit} (hx : Deaf x xT) (hy : Deaf y yT) :
    Deaf (x >>= fun _ => y) (xT >>= fun _ => yT) := by
  intro w w2 h lg room t
  obtain ⟨w1, ⟨⟩, h1, h2⟩ := bind_ran h
  obtain ⟨lg1, t1, e1, n1⟩ := hx w w1 h1 lg room t
  obtain ⟨lg2, t2, e2, n2⟩ := hy w1 w2 h2 lg1 room t1
  exact ⟨lg2, t2, by rw [tbind_ok e1, e2], fun hr => by
    obtain ⟨a1, b1⟩ := n1 hr
    obtain ⟨a2, b2⟩ := n2 fun i hi => hr i (b1.trans hi)
    exact ⟨by rw [a2, a1], b1.trans b2⟩⟩

theorem Deaf.after {α : Type} {x : M α} {f : α → M Unit} {fT : α → L Unit} (hx : Hushed x) (hf : ∀ a, Deaf (f a) (fT a)) :
    Deaf (x >>= f) (lift x >>= fT) := by
  intro w w2 h lg room t
  obtain ⟨w1, a, h1, h2⟩ := bind_ran h
  rw [tbind_ok (lift_ok (s := ⟨w.relog lg, room, t⟩) ((hx w w1 a h1).2 lg))]
  exact hf a w1 w2 h2 lg room t

theorem deaf_ignore {x : M Unit} {xT : L Unit} (hx : Still x xT)
    (hs : ∀ w room t, room t = false → xT ⟨w, room, t⟩ = .exc ⟨w, room, t + 1⟩ .noMem) : Deaf x (ignore xT) := by
  intro w w2 h lg room t
  obtain ⟨evs, rfl, k, _, _, hr⟩ := hx w w2 h
  by_cases hf : room t = false
  · refine ⟨lg, t + 1, ?_, fun _ => ⟨rfl, Nat.le_succ t⟩⟩
    unfold ignore
    rw [hs _ _ _ hf]
    rfl
  · by_cases hg : Granted room t k
    · refine ⟨lg ++ evs, t + k, ?_, fun h => absurd (h t (Nat.le_refl t)) hf⟩
      unfold ignore
      rw [(hr lg room t).1 hg]
      rfl
    · obtain ⟨evs', t', he⟩ := (hr lg room t).2 hg
      refine ⟨lg ++ evs', t', ?_, fun h => absurd (h t (Nat.le_refl t)) hf⟩
      unfold ignore
      rw [he]
      rfl

theorem fireT_refused (doc : Option NodeId) (ev : Ev) (w : World) (room : Nat → Bool) (t : Nat) (h : room t = false) :
    fireT doc ev ⟨w, room, t⟩ = .exc ⟨w, room, t + 1⟩ .noMem := by
  unfold fireT
  rw [if_neg (show ¬ room t = true by rw [h]; exact Bool.false_ne_true)]

theorem changeT_refused (doc : Option NodeId) (i : NodeId) (rel : Option NodeId) (c : Change) (w : World) (room : Nat → Bool) (t : Nat)
    (h : room t = false) : dispatchNodeChangeT doc i rel c ⟨w, room, t⟩ = .exc ⟨w, room, t + 1⟩ .noMem :=
  tbind_exc (fireT_refused _ _ _ _ _ h)

theorem deaf_detach (i : NodeId) : Deaf (detach i) (detachT i) := by
  rw [detach_eq]
  refine Deaf.after (hushed_detachLinks i) fun n => (deaf_ignore (still_change _ _ _ _) (fun w room t h => changeT_refused _ _ _ _ _ _ _ h)).seq
    (Deaf.after (hushed_detachParent _ _) fun q => (deaf_ignore (still_fire _ _) (fun w room t h => fireT_refused _ _ _ _ _ h)).seq
      (Deaf.quiet ((Hushed.mod _ _).bind fun _ => Hushed.mod _ _)))

theorem deaf_takeOut (i : NodeId) : Deaf (takeOut i) (takeOutT i) := by
  unfold takeOut takeOutT
  refine Deaf.after (Hushed.get i) fun n => ?_
  cases n.parent with
  | none => exact Deaf.quiet (Hushed.pure ())
  | some q => exact Deaf.after (hushed_readonly q) fun ro => Deaf.after (Hushed.throwIf _ _) fun _ => deaf_detach i

/-! ## insertBefore -/

theorem insertChecks_nodes {p new : NodeId} {r : Option NodeId} {w w1 : World} {q : Node × Node} (h : insertChecks p new r w = .ok w1 q) :
    w1 = w ∧ w.nodes new = some q.1 ∧ w.nodes p = some q.2 := by
  have hw := pure_insertChecks p new r w w1 q h
  subst hw
  unfold insertChecks at h
  obtain ⟨w2, nw, h1, h⟩ := bind_ran h
  obtain ⟨rfl, hn⟩ := getNode_inv h1
  rename_i h0
  clear h0
  obtain ⟨w3, nd, h2, h3⟩ := bind_ran h
  obtain ⟨rfl, hp⟩ := getNode_inv h2
  obtain ⟨_, _, _, h⟩ := bind_ran h3
  obtain ⟨_, _, _, h⟩ := bind_ran h
  obtain ⟨_, _, _, h⟩ := bind_ran h
  obtain ⟨_, _, _, h⟩ := bind_ran h
  obtain ⟨_, _, _, h⟩ := bind_ran h
  obtain ⟨_, _, _, h⟩ := bind_ran h
  obtain ⟨_, _, _, h⟩ := bind_ran h
  obtain ⟨_, _, _, h⟩ := bind_ran h
  obtain ⟨_, _, _, h⟩ := bind_ran h
  cases h
  exact ⟨rfl, hn, hp⟩

theorem insertEnd_inv {p new : NodeId} {nw nd : Node} {w w' : World} {res : NodeId} (h : insertEnd p new nw nd w = .ok w' res) :
    res = new ∧ w'.log = w.log ∧ (∀ j, j ≠ new → w'.nodes j = w.nodes j) ∧ ∃ n, w.nodes new = some n ∧ w'.nodes new = some { n with
      refcnt := u32 (n.refcnt + 1), owner := if nd.type = .document ∧ nw.type = .doctype then some p else n.owner } := by
  unfold insertEnd at h
  obtain ⟨w1, ⟨⟩, h1, h2⟩ := bind_ran h
  obtain ⟨w2, ⟨⟩, h3, h4⟩ := bind_ran h2
  cases h4
  obtain ⟨n, hn, rfl⟩ := modNode_inv h3
  by_cases hc : nd.type = .document ∧ nw.type = .doctype
  · rw [if_pos hc] at h1
    obtain ⟨m, hm, rfl⟩ := modNode_inv h1
    rw [upd_nodes, if_pos rfl] at hn
    cases hn
    refine ⟨rfl, rfl, fun j hj => by rw [upd_ne _ _ hj, upd_ne _ _ hj], m, hm, ?_⟩
    rw [upd_nodes, if_pos rfl, if_pos hc]
  · rw [if_neg hc] at h1
    cases h1
    refine ⟨rfl, rfl, fun j hj => by rw [upd_ne _ _ hj], n, hn, ?_⟩
    rw [upd_nodes, if_pos rfl, if_neg hc]

/-- The part of an insertion of one node after it has been taken out. -/
theorem late_insert (p new : NodeId) (r : Option NodeId) : Late (removePending new >>= fun _ => insertPoint p r >>= fun pt => attachRange new new p pt r)
    (lift (removePending new) >>= fun _ => lift (insertPoint p r) >>= fun pt => attachRangeT new new p pt r) :=
  Late.after (hushed_removePending new) fun _ => Late.after (hushed_insertPoint p r) fun _ => late_attach _ _ _ _

theorem tbind_assoc {α β γ : Type} (x : L α) (f : α → L β) (g : β → L γ) : (x >>= f) >>= g = x >>= fun a => f a >>= g := by
  funext w
  show L.bind (L.bind x f) g w = L.bind x (fun a => L.bind (f a) g) w
  unfold L.bind
  cases x w <;> rfl

/-- What the successful insertion of one node consists of, and what it is in a memory that may run out. -/
theorem insert_parts {w w' : World} {p new res : NodeId} {pn nn : Node} {r : Option NodeId} (hp : w.nodes p = some pn) (hx : w.nodes new = some nn)
    (hne : r ≠ some new) (hf : nn.type ≠ .fragment) (h : insertBefore p new r w = .ok w' res) :
    ∃ w1 w2, takeOut new w = .ok w1 () ∧ (removePending new >>= fun _ => insertPoint p r >>= fun pt => attachRange new new p pt r) w1 = .ok w2 () ∧
      insertEnd p new nn pn w2 = .ok w' res ∧
      ∀ lg room t, insertBeforeT p new r ⟨w.relog lg, room, t⟩ = (takeOutT new >>= fun _ =>
        (lift (removePending new) >>= fun _ => lift (insertPoint p r) >>= fun pt => attachRangeT new new p pt r) >>= fun _ =>
          lift (insertEnd p new nn pn)) ⟨w.relog lg, room, t⟩ := by
  rw [insertBefore_eq] at h
  obtain ⟨w0, q, h1, h2⟩ := bind_ran h
  have hq := (hushed_insertChecks p new r w w0 q h1).2
  obtain ⟨rfl, hqx, hqp⟩ := insertChecks_nodes h1
  rw [hx] at hqx
  rw [hp] at hqp
  obtain ⟨q1, q2⟩ := q
  cases hqx
  cases hqp
  rw [if_neg hne, insertDo_eq] at h2
  dsimp only at h2
  rw [if_neg hf] at h2
  obtain ⟨w1, ⟨⟩, h3, h4⟩ := bind_ran h2
  rw [← bind_assoc'] at h4
  obtain ⟨w2, ⟨⟩, h5, h6⟩ := bind_ran h4
  refine ⟨w1, w2, h3, h5, h6, fun lg room t => ?_⟩
  unfold insertBeforeT
  rw [tbind_ok (lift_ok (s := ⟨w0.relog lg, room, t⟩) (hq lg)), if_neg hne]
  unfold insertDoT
  rw [if_neg hf]
  simp only [tbind_assoc]


/-- **C93, insertion of one node.**  Where `insertBefore p new r` succeeds when memory is enough, leading to `w'`: whatever requests
are refused, it either succeeds, with the nodes of `w'`, or it answers with no memory — and then too `new` has been put in its place
below `p`; only the reference for the caller is missing. -/
theorem C93_insert_partial {w w' : World} {p new res : NodeId} {pn nn : Node} {r : Option NodeId} (hp : w.nodes p = some pn)
    (hx : w.nodes new = some nn) (hne : r ≠ some new) (hf : nn.type ≠ .fragment) (h : insertBefore p new r w = .ok w' res)
    (room : Nat → Bool) (t : Nat) :
    (∃ s, insertBeforeT p new r ⟨w, room, t⟩ = .ok s res ∧ s.Like w') ∨
    (∃ s, insertBeforeT p new r ⟨w, room, t⟩ = .exc s .noMem ∧ s.Unpaid w' p new pn nn) := by
  obtain ⟨w1, w2, h1, h2, h3, hT⟩ := insert_parts hp hx hne hf h
  have hT := hT w.log room t
  rw [relog_self] at hT
  rw [hT]
  obtain ⟨lg1, t1, e1, _⟩ := deaf_takeOut new w w1 h1 w.log room t
  rw [relog_self] at e1
  rw [tbind_ok e1]
  obtain ⟨evs, _, k, _, _, hr⟩ := late_insert p new r w1 w2 () h2
  by_cases hg : Granted room t1 k
  · left
    rw [tbind_ok ((hr lg1 room t1).1 hg)]
    obtain ⟨_, h5⟩ := hushed_insertEnd p new nn pn w2 w' res h3
    exact ⟨_, lift_ok (s := ⟨w2.relog (lg1 ++ evs), room, t1 + k⟩) (h5 _), rfl, rfl⟩
  · right
    obtain ⟨evs', t', he⟩ := (hr lg1 room t1).2 hg
    obtain ⟨_, _, h6, n, h7, h8⟩ := insertEnd_inv h3
    exact ⟨_, tbind_exc he, fun j hj => (h6 j hj).symm, n, h7, h8⟩

/-- **C93, insertion of a new node, exactly.**  For a node without parent that is no DocumentType, every node having an owner: the
insertion succeeds exactly when there is room for all the events that it raises, one block each; then it does what it does when memory
is enough. -/
theorem C93_insert_exact {w w' : World} {ch : Children} (hW : WF w ch) {p new res : NodeId} {pn nn : Node} {r : Option NodeId} (hp : w.nodes p = some pn)
    (hx : w.nodes new = some nn) (hr : ∀ c, r = some c → NotAttrOf w p c) (hne : r ≠ some new) (hf : nn.type ≠ .fragment)
    (hd : nn.type ≠ .doctype) (hpar : nn.parent = none) (ho : Owned w)
    (h : insertBefore p new r w = .ok w' res) (room : Nat → Bool) (t : Nat) :
    ∃ evs, w'.log = w.log ++ evs ∧
      (Granted room t evs.length → insertBeforeT p new r ⟨w, room, t⟩ = .ok ⟨w', room, t + evs.length⟩ res) ∧
      (¬ Granted room t evs.length → ∃ s, insertBeforeT p new r ⟨w, room, t⟩ = .exc s .noMem ∧ s.Unpaid w' p new pn nn) := by
  obtain ⟨_, ch', _, _, _, _, hown, _⟩ := C20_insert_effect hW hp hx hr hne h
  obtain ⟨w1, w2, h1, h2, h3, hT⟩ := insert_parts hp hx hne hf h
  have hT := hT w.log room t
  rw [relog_self] at hT
  rw [hT]
  have ht : takeOutT new ⟨w, room, t⟩ = .ok ⟨w, room, t⟩ () := by
    unfold takeOutT
    rw [tbind_ok (lift_ok (s := ⟨w, room, t⟩) (getNode_run hx)), hpar]
    rfl
  have hw1 : w1 = w := by
    unfold takeOut at h1
    rw [get_bind hx, hpar] at h1
    cases h1
    rfl
  subst hw1
  rw [tbind_ok ht]
  obtain ⟨evs, hl, k, _, hk, hrr⟩ := late_insert p new r w1 w2 () h2
  have hrr := hrr w1.log room t
  rw [relog_self] at hrr
  obtain ⟨_, hl', h6, n, h7, h8⟩ := insertEnd_inv h3
  have ho' : Owned w' := by
    intro j m hm
    have := hown j
    rw [hm] at this
    cases hj : w1.nodes j with
    | none => rw [hj] at this; cases this
    | some m0 =>
      rw [hj] at this
      simp only [Option.map_some, Option.some.injEq, hd, and_false, if_false] at this
      rw [this]
      exact ho j m0 hj
  have ho2 : Owned w2 := by
    intro j m hm
    by_cases hj : j = new
    · subst hj
      rw [h7] at hm
      cases hm
      have := ho' j _ h8
      rw [if_neg (fun c => hd c.2)] at this
      exact this
    · exact ho' j m (by rw [h6 j hj]; exact hm)
  have hk := hk ho2
  subst hk
  refine ⟨evs, by rw [hl', hl], fun hg => ?_, fun hg => ?_⟩
  · rw [tbind_ok (hrr.1 hg)]
    obtain ⟨hq, h5⟩ := hushed_insertEnd p new nn pn w2 w' res h3
    rw [← hl, relog_self]
    exact lift_ok (s := ⟨w2, room, t + evs.length⟩) h3
  · obtain ⟨evs', t', he⟩ := hrr.2 hg
    exact ⟨_, tbind_exc he, fun j hj => (h6 j hj).symm, n, h7, h8⟩

/-! ## replaceChild -/

theorem replace_parts {w w' : World} {p new old res : NodeId} (hne : new ≠ old) (h : replaceChild p new old w = .ok w' res)
    (lg : List Ev) (room : Nat → Bool) (t : Nat) :
    ∃ lg' t', replaceChildT p new old ⟨w.relog lg, room, t⟩ = .ok ⟨w'.relog lg', room, t'⟩ res ∧ ((∀ i, t ≤ i → room i = false) → lg' = lg) := by
  rw [replaceChild_eq] at h
  obtain ⟨w0, ⟨⟩, h1, h2⟩ := bind_ran h
  obtain ⟨_, hq⟩ := hushed_replaceChecks p new old w w0 _ h1
  rw [if_neg hne, replaceDo_eq] at h2
  obtain ⟨w1, ⟨⟩, h3, h4⟩ := bind_ran h2
  obtain ⟨lg1, t1, e1, n1⟩ := deaf_takeOut new w0 w1 h3 lg room t
  have hquiet : Hushed (do
      removePending new
      replaceNode old new
      ref old
      markPending old
      pure old : M NodeId) :=
    (hushed_removePending _).bind fun _ => (hushed_replaceNode _ _).bind fun _ => (Hushed.mod _ _).bind fun _ => (hushed_markPending _).bind fun _ => Hushed.pure _
  obtain ⟨_, h5⟩ := hquiet w1 w' res h4
  refine ⟨lg1, t1, ?_, fun hr => (n1 hr).1⟩
  unfold replaceChildT
  rw [tbind_ok (lift_ok (s := ⟨w.relog lg, room, t⟩) (hq lg)), if_neg hne]
  unfold replaceDoT
  rw [tbind_ok e1]
  exact lift_ok (s := ⟨w1.relog lg1, room, t1⟩) (h5 _)

/-- **C93, replacement.**  Where `replaceChild p new old` succeeds when memory is enough it always succeeds, whatever is refused, and
the nodes are the same. -/
theorem C93_replace {w w' : World} {p new old res : NodeId} (hne : new ≠ old) (h : replaceChild p new old w = .ok w' res)
    (room : Nat → Bool) (t : Nat) : ∃ s, replaceChildT p new old ⟨w, room, t⟩ = .ok s res ∧ s.Like w' := by
  obtain ⟨lg', t', h1, _⟩ := replace_parts hne h w.log room t
  rw [relog_self] at h1
  exact ⟨_, h1, rfl, rfl⟩

/-- **C93 is false of the code**: the errors of the events are thrown away when a node is taken out (src/core/node.c:2187-2194), so a call
that reports success may have told the listeners nothing: with no memory at all `replaceChild` succeeds, and no event is raised; with
memory enough the removal of `new` from where it was is announced. -/
theorem C93_silent_violated {w w' : World} {ch : Children} (hW : WF w ch) {p new old res q : NodeId} {pn nn on : Node}
    (hp : w.nodes p = some pn) (hx : w.nodes new = some nn) (hold : w.nodes old = some on) (hna : on.type = .attribute → on.parent ≠ some p)
    (hne : new ≠ old) (hq : nn.parent = some q) (hnf : nn.type ≠ .fragment)
    (h : replaceChild p new old w = .ok w' res) :
    (∃ s, replaceChildT p new old ⟨w, fun _ => false, 0⟩ = .ok s res ∧ s.Like w' ∧ s.w.log = w.log) ∧
    { kind := .nodeRemoved, target := new, related := some q } ∈ w'.log.drop w.log.length := by
  refine ⟨?_, ?_⟩
  · obtain ⟨lg', t', h1, h2⟩ := replace_parts hne h w.log (fun _ => false) 0
    rw [relog_self] at h1
    exact ⟨_, h1, ⟨rfl, rfl⟩, h2 fun _ _ => rfl⟩
  · obtain ⟨order, _, hl⟩ := C50_replace_events_partial hW hp hx hold hna hne (fun hf => absurd hf hnf) h
    rw [hl, hq, List.drop_left]
    simp [takenOutEvs, removedEvs]

/-! ## removeChild -/

/-- What the successful removal of a node consists of. -/
theorem remove_parts {w w' : World} {p old res : NodeId} (h : removeChild p old w = .ok w' res) :
    ∃ d w1 w2, res = old ∧ removeChecks p old w = .ok w d ∧ dispatchNodeChange d old (some p) .removal w = .ok w1 () ∧
      (detach old >>= fun _ => ref old) w1 = .ok w2 () ∧ fireSubtreeModified d p w2 = .ok w' () ∧
      ∀ room t, removeChildT p old ⟨w, room, t⟩ = (dispatchNodeChangeT d old (some p) .removal >>= fun _ =>
        (detachT old >>= fun _ => lift (ref old)) >>= fun _ => fireSubtreeModifiedT d p >>= fun _ => (pure old : L NodeId)) ⟨w, room, t⟩ := by
  rw [removeChild_eq] at h
  obtain ⟨w0, d, h1, h2⟩ := bind_ran h
  have := pure_removeChecks p old w w0 d h1
  subst this
  obtain ⟨w1, ⟨⟩, h3, h4⟩ := bind_ran h2
  rw [← bind_assoc'] at h4
  obtain ⟨w2, ⟨⟩, h5, h6⟩ := bind_ran h4
  obtain ⟨w3, ⟨⟩, h7, h8⟩ := bind_ran h6
  cases h8
  refine ⟨d, w1, w2, rfl, h1, h3, h5, h7, fun room t => ?_⟩
  unfold removeChildT
  rw [tbind_ok (lift_ok (s := ⟨w0, room, t⟩) h1)]
  simp only [tbind_assoc]

theorem deaf_detachRef (i : NodeId) : Deaf (detach i >>= fun _ => ref i) (detachT i >>= fun _ => lift (ref i)) :=
  (deaf_detach i).seq (Deaf.quiet (Hushed.mod _ _))

/-- **C93, removal.**  Where `removeChild p old` succeeds when memory is enough, leading to `w'`: whatever requests are refused, it either
succeeds with the nodes of `w'`, or answers with no memory and no node has changed, or answers with no memory and the nodes are those of
`w'` — the node has been removed and a reference to it has been taken. -/
theorem C93_remove_partial {w w' : World} {p old res : NodeId} (h : removeChild p old w = .ok w' res) (room : Nat → Bool) (t : Nat) :
    (∃ s, removeChildT p old ⟨w, room, t⟩ = .ok s res ∧ s.Like w') ∨
    (∃ s, removeChildT p old ⟨w, room, t⟩ = .exc s .noMem ∧ s.Like w) ∨
    (∃ s, removeChildT p old ⟨w, room, t⟩ = .exc s .noMem ∧ s.Like w') := by
  obtain ⟨d, w1, w2, rfl, h1, h3, h5, h7, hT⟩ := remove_parts h
  rw [hT]
  obtain ⟨evs, rfl, k, _, _, hr⟩ := still_change d _ _ _ w w1 h3
  have hr := hr w.log room t
  rw [relog_self] at hr
  by_cases hg : Granted room t k
  · rw [tbind_ok (hr.1 hg)]
    obtain ⟨lg2, t2, e2, _⟩ := deaf_detachRef res _ w2 h5 (w.log ++ evs) room (t + k)
    have e2 : (detachT res >>= fun _ => lift (ref res)) ⟨w.relog (w.log ++ evs), room, t + k⟩ = _ := e2
    rw [tbind_ok e2]
    obtain ⟨evs3, rfl, k3, _, _, hr3⟩ := still_fire _ _ w2 w' h7
    by_cases hg3 : Granted room t2 k3
    · exact .inl ⟨_, tbind_ok ((hr3 lg2 room t2).1 hg3), rfl, rfl⟩
    · obtain ⟨evs', t', he⟩ := (hr3 lg2 room t2).2 hg3
      exact .inr (.inr ⟨_, tbind_exc he, rfl, rfl⟩)
  · obtain ⟨evs', t', he⟩ := hr.2 hg
    exact .inr (.inl ⟨_, tbind_exc he, rfl, rfl⟩)

/-- **C93 is false of the code**: every successful removal can be turned into one that answers with no memory although the node has been
removed, by refusing what comes after the announcement. -/
theorem C93_remove_violated {w w' : World} {ch : Children} (hW : WF w ch) {p old res : NodeId} {pn : Node} (hp : w.nodes p = some pn)
    (ho : NotAttrOf w p old) (h : removeChild p old w = .ok w' res) (t : Nat) :
    ∃ room s, removeChildT p old ⟨w, room, t⟩ = .exc s .noMem ∧ s.Like w' ∧
      (∃ n, w.nodes old = some n ∧ n.parent = some p) ∧ ∃ n, s.w.nodes old = some n ∧ n.parent = none := by
  obtain ⟨_, hm, _, _, _, _, ⟨o, h9, h10, _⟩, _⟩ := C21_remove_effect hW hp ho h
  obtain ⟨d, w1, w2, rfl, h1, h3, h5, h7, hT⟩ := remove_parts h
  obtain ⟨evs, rfl, k, _, _, hr⟩ := still_change d _ _ _ w w1 h3
  have hg : Granted (fun i => decide (i < t + k)) t k := fun i hi => by simp; omega
  refine ⟨fun i => decide (i < t + k), ?_⟩
  rw [hT]
  have hr := hr w.log (fun i => decide (i < t + k)) t
  rw [relog_self] at hr
  rw [tbind_ok (hr.1 hg)]
  obtain ⟨lg2, t2, e2, n2⟩ := deaf_detachRef res _ w2 h5 (w.log ++ evs) (fun i => decide (i < t + k)) (t + k)
  have e2 : (detachT res >>= fun _ => lift (ref res)) ⟨w.relog (w.log ++ evs), (fun i => decide (i < t + k)), t + k⟩ = _ := e2
  rw [tbind_ok e2]
  obtain ⟨_, ht2⟩ := n2 fun i hi => by simp; omega
  obtain ⟨evs3, rfl, _⟩ := still_fire _ _ w2 w' h7
  obtain ⟨n, hn, _, hn'⟩ := hW.linked.alive_child hm
  exact ⟨_, tbind_exc (fireT_refused _ _ _ _ _ (by simp; omega)), ⟨rfl, rfl⟩, ⟨n, hn, hn'⟩, o, h9, h10⟩


/-! ## Where an insertion goes wrong -/

theorem attachT_refused {p x : NodeId} {a b : Option NodeId} {w w2 : World} (h : attachRange x x p a b w = .ok w2 ()) (lg : List Ev) (t : Nat) :
    ∃ s, attachRangeT x x p a b ⟨w.relog lg, fun _ => false, t⟩ = .exc s .noMem := by
  rw [attachRange_eq] at h
  obtain ⟨w1, q, h1, h2⟩ := bind_ran h
  obtain ⟨w3, ⟨⟩, h3, h4⟩ := bind_ran h2
  obtain ⟨_, hq⟩ := hushed_attachLinks x x p a b w w1 q h1
  unfold attachRangeT
  rw [tbind_ok (lift_ok (s := ⟨w.relog lg, fun _ => false, t⟩) (hq lg))]
  obtain ⟨evs, _, k, _, _, hr⟩ := late_attachOne q.1 p x q.2 w1 w3 () h3
  by_cases hg : Granted (fun _ => false) t k
  · refine ⟨_, (tbind_ok ((hr lg _ t).1 hg)).trans (fireT_refused _ _ _ _ _ rfl)⟩
  · obtain ⟨evs', t', he⟩ := (hr lg _ t).2 hg
    exact ⟨_, tbind_exc he⟩

/-- **C93 is false of the code**: every successful insertion of one node can be turned into one that answers with no memory although the
node has been put below `p`, by refusing everything.  The caller who believes the answer still has only the reference it had. -/
theorem C93_insert_violated {w w' : World} {ch : Children} (hW : WF w ch) {p new res : NodeId} {pn nn : Node} {r : Option NodeId}
    (hp : w.nodes p = some pn) (hx : w.nodes new = some nn) (hr : ∀ c, r = some c → NotAttrOf w p c) (hne : r ≠ some new)
    (hf : nn.type ≠ .fragment) (h : insertBefore p new r w = .ok w' res) (t : Nat) :
    ∃ s, insertBeforeT p new r ⟨w, fun _ => false, t⟩ = .exc s .noMem ∧ s.Unpaid w' p new pn nn ∧
      ∃ n, s.w.nodes new = some n ∧ n.parent = some p := by
  have key : ∃ s, insertBeforeT p new r ⟨w, fun _ => false, t⟩ = .exc s .noMem := by
    obtain ⟨w1, w2, h1, h2, h3, hT⟩ := insert_parts hp hx hne hf h
    have hT := hT w.log (fun _ => false) t
    rw [relog_self] at hT
    rw [hT]
    obtain ⟨lg1, t1, e1, _⟩ := deaf_takeOut new w w1 h1 w.log (fun _ => false) t
    rw [relog_self] at e1
    rw [tbind_ok e1]
    obtain ⟨w3, ⟨⟩, h4, h5⟩ := bind_ran h2
    obtain ⟨w4, pt, h6, h7⟩ := bind_ran h5
    obtain ⟨s, hs⟩ := attachT_refused h7 lg1 t1
    have e2 : (lift (removePending new) >>= fun _ => lift (insertPoint p r) >>= fun pt => attachRangeT new new p pt r)
        ⟨w1.relog lg1, fun _ => false, t1⟩ = .exc s .noMem := by
      rw [tbind_ok (lift_ok (s := ⟨w1.relog lg1, fun _ => false, t1⟩) ((hushed_removePending new w1 w3 () h4).2 lg1)),
        tbind_ok (lift_ok (s := ⟨w3.relog lg1, fun _ => false, t1⟩) ((hushed_insertPoint p r w3 w4 pt h6).2 lg1))]
      exact hs
    exact ⟨s, tbind_exc e2⟩
  obtain ⟨s, hs⟩ := key
  rcases C93_insert_partial hp hx hne hf h (fun _ => false) t with ⟨s', h1, _⟩ | ⟨s', h1, h2⟩
  · rw [hs] at h1; cases h1
  · obtain ⟨_, ch', hW', ⟨a, b, _, _, hch⟩, _⟩ := C20_insert_effect hW hp hx hr hne h
    rw [if_neg hf] at hch
    obtain ⟨m, hm, _, hm'⟩ := hW'.linked.alive_child (p := p) (c := new) (by rw [hch]; simp)
    obtain ⟨n, hn, hn'⟩ := h2.2
    rw [hm] at hn'
    cases hn'
    exact ⟨s', h1, h2, n, hn, hm'⟩

/-! ### Fragments -/

/-- Some nodes have got the parent `p`; nothing else has changed. -/
def Marked (p : NodeId) (w w1 : World) : Prop :=
  ∀ j, w1.nodes j = w.nodes j ∨ ∃ n, w.nodes j = some n ∧ w1.nodes j = some { n with parent := some p }

theorem Marked.refl (p : NodeId) (w : World) : Marked p w w := fun _ => .inl rfl

theorem Marked.trans {p : NodeId} {w w1 w2 : World} (h1 : Marked p w w1) (h2 : Marked p w1 w2) : Marked p w w2 := by
  intro j
  rcases h1 j with h | ⟨n, ha, hb⟩
  · rcases h2 j with h' | ⟨m, hc, hd⟩
    · exact .inl (h'.trans h)
    · exact .inr ⟨m, h ▸ hc, hd⟩
  · rcases h2 j with h' | ⟨m, hc, hd⟩
    · exact .inr ⟨n, ha, h'.trans hb⟩
    · rw [hb] at hc
      cases hc
      exact .inr ⟨n, ha, hd⟩

theorem Marked.stays {p : NodeId} {w w1 : World} (h : Marked p w w1) {j : NodeId} (hj : ∃ n, w.nodes j = some n ∧ n.parent = some p) :
    ∃ n, w1.nodes j = some n ∧ n.parent = some p := by
  obtain ⟨n, hn, hn'⟩ := hj
  rcases h j with h | ⟨m, _, hb⟩
  · exact ⟨n, h.trans hn, hn'⟩
  · exact ⟨_, hb, rfl⟩

/-- The loop over the inserted nodes: if it is cut off, the first node has the new parent already. -/
theorem attachLoop_cut (doc : Option NodeId) (p last : NodeId) : ∀ (fuel : Nat) (cur : Option NodeId) (w w2 : World),
    attachLoop doc p last fuel cur w = .ok w2 () → ∃ k evs, ∀ lg room t,
      (Granted room t k → attachLoopT doc p last fuel cur ⟨w.relog lg, room, t⟩ = .ok ⟨w2.relog (lg ++ evs), room, t + k⟩ () ∧ Marked p w w2) ∧
      (¬ Granted room t k → ∃ s, attachLoopT doc p last fuel cur ⟨w.relog lg, room, t⟩ = .exc s .noMem ∧ Marked p w s.w ∧
        ∀ c, cur = some c → ∃ n, s.w.nodes c = some n ∧ n.parent = some p)
  | 0, cur, w, w2, h => by
    unfold attachLoop at h
    obtain ⟨w1, l, h1, h2⟩ := bind_ran h
    obtain ⟨rfl, hl⟩ := getNode_inv h1
    by_cases hc : cur = l.next
    · rw [if_pos hc] at h2
      cases h2
      refine ⟨0, [], fun lg room t => ⟨fun _ => ⟨?_, Marked.refl _ _⟩, fun hn => absurd (granted_zero _ _) hn⟩⟩
      unfold attachLoopT
      rw [tbind_ok (lift_ok (s := ⟨w2.relog lg, room, t⟩) (getNode_run (w := w2.relog lg) hl)), if_pos hc, List.append_nil]
      rfl
    · rw [if_neg hc] at h2
      cases h2
  | fuel + 1, cur, w, w2, h => by
    unfold attachLoop at h
    obtain ⟨w1, l, h1, h2⟩ := bind_ran h
    obtain ⟨rfl, hl⟩ := getNode_inv h1
    by_cases hc : cur = l.next
    · rw [if_pos hc] at h2
      cases h2
      refine ⟨0, [], fun lg room t => ⟨fun _ => ⟨?_, Marked.refl _ _⟩, fun hn => absurd (granted_zero _ _) hn⟩⟩
      unfold attachLoopT
      rw [tbind_ok (lift_ok (s := ⟨w2.relog lg, room, t⟩) (getNode_run (w := w2.relog lg) hl)), if_pos hc, List.append_nil]
      rfl
    · rw [if_neg hc] at h2
      dsimp only at h2
      cases cur with
      | none => cases h2
      | some x =>
        rw [deref_bind] at h2
        obtain ⟨w3, ⟨⟩, h3, h4⟩ := bind_ran h2
        obtain ⟨n, hn, rfl⟩ := modNode_inv h3
        obtain ⟨w4, ⟨⟩, h5, h6⟩ := bind_ran h4
        obtain ⟨evs, rfl, k, _, _, hr⟩ := still_change doc x (some p) .addition _ w4 h5
        have hx : (w1.upd x { n with parent := some p }).nodes x = some { n with parent := some p } := by
          rw [upd_nodes, if_pos rfl]
        have hmark : Marked p w1 (w1.upd x { n with parent := some p }) := by
          intro j
          by_cases hj : j = x
          · subst hj
            exact .inr ⟨n, hn, hx⟩
          · exact .inl (upd_ne _ _ hj)
        have hx' : ∀ lg, ((w1.upd x { n with parent := some p }).relog lg).nodes x = some { n with parent := some p } := fun _ => hx
        rw [get_bind (hx' _)] at h6
        obtain ⟨k2, evs2, hr2⟩ := attachLoop_cut doc p last fuel _ _ w2 h6
        have hstart : ∀ lg room t, attachLoopT doc p last (fuel + 1) (some x) ⟨w1.relog lg, room, t⟩ =
            (dispatchNodeChangeT doc x (some p) .addition >>= fun _ => lift (getNode x) >>= fun y => attachLoopT doc p last fuel y.next)
              ⟨(w1.upd x { n with parent := some p }).relog lg, room, t⟩ := by
          intro lg room t
          rw [attachLoopT]
          rw [tbind_ok (lift_ok (s := ⟨w1.relog lg, room, t⟩) (getNode_run (w := w1.relog lg) hl)), if_neg hc]
          dsimp only
          rw [tbind_ok (lift_ok (s := ⟨w1.relog lg, room, t⟩) (deref_run x _)),
            tbind_ok (lift_ok (s := ⟨w1.relog lg, room, t⟩) (modNode_run (w := w1.relog lg) hn _))]
          rfl
        refine ⟨k + k2, evs ++ evs2, fun lg room t => ?_⟩
        rw [hstart]
        by_cases hg : Granted room t k
        · rw [tbind_ok ((hr lg room t).1 hg)]
          have e2 := tbind_ok (f := fun y : Node => attachLoopT doc p last fuel y.next)
            (lift_ok (s := ⟨(w1.upd x { n with parent := some p }).relog (lg ++ evs), room, t + k⟩) (getNode_run (hx' (lg ++ evs))))
          have h7 := hr2 (lg ++ evs) room (t + k)
          refine ⟨fun hgg => ?_, fun hgg => ?_⟩
          · obtain ⟨a, b⟩ := h7.1 (granted_add.mp hgg).2
            refine ⟨?_, hmark.trans b⟩
            rw [e2]
            refine Eq.trans a ?_
            rw [← List.append_assoc, Nat.add_assoc]
          · obtain ⟨s, a, b, _⟩ := h7.2 fun hg2 => hgg (granted_add.mpr ⟨hg, hg2⟩)
            refine ⟨s, ?_, hmark.trans b, ?_⟩
            · rw [e2]
              exact a
            · rintro c ⟨⟩
              exact b.stays ⟨_, hx, rfl⟩
        · refine ⟨fun hgg => absurd (granted_add.mp hgg).1 hg, fun _ => ?_⟩
          obtain ⟨evs', t', he⟩ := (hr lg room t).2 hg
          refine ⟨_, tbind_exc he, hmark, ?_⟩
          rintro c ⟨⟩
          exact ⟨_, hx, rfl⟩


/-- A part that leaves the first child of `j`. -/
def Keeps {α : Type} (j : NodeId) (x : M α) : Prop := ∀ w w1 a, x w = .ok w1 a → (w1.nodes j).map Node.first = (w.nodes j).map Node.first

theorem Keeps.bind {α β : Type} {j : NodeId} {x : M α} {f : α → M β} (hx : Keeps j x) (hf : ∀ a, Keeps j (f a)) : Keeps j (x >>= f) := by
  intro w w2 b h
  obtain ⟨w1, a, h1, h2⟩ := bind_ran h
  rw [hf a w1 w2 b h2, hx w w1 a h1]

theorem Keeps.of_pure {α : Type} {j : NodeId} {x : M α} (h : Pure x) : Keeps j x := by
  intro w w1 a hx
  rw [h w w1 a hx]

theorem Keeps.mod {j i : NodeId} {f : Node → Node} (h : i ≠ j ∨ ∀ n, (f n).first = n.first) : Keeps j (modNode i f) := by
  intro w w1 a hx
  obtain ⟨n, hn, rfl⟩ := modNode_inv hx
  by_cases hj : j = i
  · subst hj
    rcases h with h | h
    · exact absurd rfl h
    · rw [upd_nodes, if_pos rfl, hn, Option.map_some, Option.map_some, h]
  · rw [upd_ne _ _ hj]

theorem keeps_linkFwd {j p : NodeId} (h : p ≠ j) (q v : Option NodeId) : Keeps j (linkFwd q (some p) v) := by
  unfold linkFwd
  cases q with
  | none =>
    intro w w1 a hx
    exact Keeps.mod (.inl h) w w1 a hx
  | some q => exact Keeps.mod (.inr fun _ => by rfl)

theorem keeps_linkBack {j p : NodeId} (q v : Option NodeId) : Keeps j (linkBack q (some p) v) := by
  unfold linkBack
  cases q with
  | none =>
    intro w w1 a hx
    exact Keeps.mod (.inr fun _ => by rfl) w w1 a hx
  | some q => exact Keeps.mod (.inr fun _ => by rfl)

theorem keeps_attachLinks {j p : NodeId} (h : p ≠ j) (a b : NodeId) (x y : Option NodeId) : Keeps j (attachLinks a b p x y) := by
  unfold attachLinks
  exact (Keeps.mod (.inr fun _ => by rfl)).bind fun _ => (Keeps.mod (.inr fun _ => by rfl)).bind fun _ => (keeps_linkFwd h _ _).bind fun _ =>
    (keeps_linkBack _ _).bind fun _ => (Keeps.of_pure (Pure.get _)).bind fun _ => (Keeps.of_pure (Pure.deref _)).bind fun _ =>
    (Keeps.of_pure (Pure.get _)).bind fun _ => (Keeps.of_pure Pure.bound).bind fun _ => Keeps.of_pure (Pure.pure _)

theorem keeps_removePending (j i : NodeId) : Keeps j (removePending i) := by
  unfold removePending
  refine (Keeps.of_pure (Pure.get _)).bind fun n => ?_
  cases n.owner with
  | none => exact Keeps.of_pure (Pure.pure _)
  | some d =>
    refine Keeps.bind ?_ fun _ => Keeps.mod (.inr fun _ => by rfl)
    cases n.pendingIn.isSome
    · exact Keeps.of_pure (Pure.crash _)
    · exact Keeps.of_pure (Pure.pure _)

/-- A node whose first child has another parent: the links fit no tree. -/
theorem not_linked {w : World} {f c p : NodeId} (hf : (w.nodes f).map Node.first = some (some c)) (hc : ∃ n, w.nodes c = some n ∧ n.parent = some p)
    (hne : p ≠ f) : ¬ ∃ ch, Linked w ch := by
  rintro ⟨ch, hL⟩
  cases hn : w.nodes f with
  | none => rw [hn] at hf; cases hf
  | some fn =>
    rw [hn, Option.map_some, Option.some.injEq] at hf
    obtain ⟨m, hm, h1, _⟩ := (hL.loc f fn hn).ends
    rw [hn] at hm
    cases hm
    have hmem : c ∈ ch f := List.mem_of_mem_head? (by rw [← h1, hf]; rfl)
    obtain ⟨n, hn, hp⟩ := hc
    have := hL.parent_of_mem hmem hn
    rw [hp] at this
    exact hne (Option.some.inj this)

/-- The part of the insertion of a fragment that puts in its children. -/
theorem attachRange_cut {p fst lst : NodeId} {a b : Option NodeId} {w w2 : World} (h : attachRange fst lst p a b w = .ok w2 ())
    {f : NodeId} (hne : p ≠ f) (hf : (w.nodes f).map Node.first = some (some fst)) (hc : ∃ n, w2.nodes fst = some n ∧ n.parent = some p)
    (lg : List Ev) (room : Nat → Bool) (t : Nat) :
    ((∃ lg' t', attachRangeT fst lst p a b ⟨w.relog lg, room, t⟩ = .ok ⟨w2.relog lg', room, t'⟩ ()) ∧ ∃ i, room i = true) ∨
    ∃ s, attachRangeT fst lst p a b ⟨w.relog lg, room, t⟩ = .exc s .noMem ∧ ¬ ∃ ch, Linked s.w ch := by
  rw [attachRange_eq] at h
  obtain ⟨w1, q, h1, h2⟩ := bind_ran h
  obtain ⟨w3, ⟨⟩, h3, h4⟩ := bind_ran h2
  obtain ⟨_, hq⟩ := hushed_attachLinks fst lst p a b w w1 q h1
  have hf1 := keeps_attachLinks hne fst lst a b w w1 q h1
  rw [hf] at hf1
  have hfirst : ∀ v, Marked p w1 v → (v.nodes f).map Node.first = some (some fst) := by
    intro v hv
    rcases hv f with h | ⟨n, hn, hb⟩
    · rw [h, hf1]
    · rw [hb, ← hf1, hn]
      rfl
  unfold attachRangeT
  rw [tbind_ok (lift_ok (s := ⟨w.relog lg, room, t⟩) (hq lg))]
  obtain ⟨k, evs, hr⟩ := attachLoop_cut q.1 p lst q.2 (some fst) w1 w3 h3
  by_cases hg : Granted room t k
  · obtain ⟨e1, hm⟩ := (hr lg room t).1 hg
    obtain ⟨evs2, rfl, k2, _, _, hr2⟩ := still_fire _ _ w3 w2 h4
    cases hroom : room (t + k) with
    | false =>
      right
      exact ⟨_, (tbind_ok e1).trans (fireT_refused _ _ _ _ _ hroom), not_linked (hfirst w3 hm) hc hne⟩
    | true =>
      by_cases hg2 : Granted room (t + k) k2
      · exact .inl ⟨⟨_, _, (tbind_ok e1).trans ((hr2 (lg ++ evs) room (t + k)).1 hg2)⟩, _, hroom⟩
      · right
        obtain ⟨evs', t', he⟩ := (hr2 (lg ++ evs) room (t + k)).2 hg2
        exact ⟨_, (tbind_ok e1).trans he, not_linked (hfirst w3 hm) hc hne⟩
  · right
    obtain ⟨s, e1, hm, hc'⟩ := (hr lg room t).2 hg
    exact ⟨s, tbind_exc e1, not_linked (hfirst _ hm) (hc' fst rfl) hne⟩

/-- **C93 is false of the code**: where the insertion of a fragment that is not empty succeeds when memory is enough, it may be refused
memory, and whenever it is the links fit no tree any more: the fragment still has as its first child a node whose parent is `p`. -/
theorem C93_fragment_violated {w w' : World} {ch : Children} (hW : WF w ch) {p new res : NodeId} {pn nn : Node} {r : Option NodeId}
    (hp : w.nodes p = some pn) (hx : w.nodes new = some nn) (hr : ∀ c, r = some c → NotAttrOf w p c) (hne : r ≠ some new)
    (hf : nn.type = .fragment) (hk : ch new ≠ []) (h : insertBefore p new r w = .ok w' res) :
    (∀ room t, (∃ s, insertBeforeT p new r ⟨w, room, t⟩ = .ok s res ∧ s.Like w') ∨
      ∃ s, insertBeforeT p new r ⟨w, room, t⟩ = .exc s .noMem ∧ ¬ ∃ ch, Linked s.w ch) ∧
    ∀ t, ∃ s, insertBeforeT p new r ⟨w, fun _ => false, t⟩ = .exc s .noMem ∧ ¬ ∃ ch, Linked s.w ch := by
  obtain ⟨_, ch', hW', ⟨a, b, hab, _, hch⟩, _⟩ := C20_insert_effect hW hp hx hr hne h
  rw [if_pos hf] at hch
  have hpar := fragment_parent hW.toCore hx hf
  cases hc : ch new with
  | nil => exact absurd hc hk
  | cons c rest =>
    have hmem : c ∈ ch new := by rw [hc]; exact List.mem_cons_self
    have hcnew : c ≠ new := by
      rintro rfl
      have := hW.linked.parent_of_mem hmem hx
      rw [hpar] at this
      cases this
    have hpne : p ≠ new := by
      rintro rfl
      have h1 : c ∈ a ++ b := by
        rw [← hab, List.mem_filter]
        exact ⟨hmem, by simpa using hcnew⟩
      obtain ⟨pn', hpn', _⟩ := hW'.linked.alive_child (p := p) (c := c) (by rw [hch]; simp [hmem])
      have hnd : (ch' p).Nodup := by
        obtain ⟨n, hn, _, hpp⟩ := hW'.linked.alive_child (p := p) (c := c) (by rw [hch]; simp [hmem])
        obtain ⟨m, hm⟩ := hW'.linked.alive_parent hn hpp
        exact (hW'.linked.loc p m hm).nodup
      rw [hch, List.nodup_iff_count_le_one] at hnd
      have h2 := hnd c
      have h3 := List.count_pos_iff.mpr h1
      have h4 := List.count_pos_iff.mpr hmem
      simp only [List.count_append] at h2 h3
      omega
    have hfirst : nn.first = some c := by
      obtain ⟨n, hn, h1, _⟩ := (hW.linked.loc new nn hx).ends
      rw [hx] at hn
      cases hn
      rw [h1, hc]
      rfl
    have hcp : ∃ n, w'.nodes c = some n ∧ n.parent = some p := by
      obtain ⟨n, hn, _, hn'⟩ := hW'.linked.alive_child (p := p) (c := c) (by rw [hch]; simp [hmem])
      exact ⟨n, hn, hn'⟩
    have main : ∀ room t, ((∃ s, insertBeforeT p new r ⟨w, room, t⟩ = .ok s res ∧ s.Like w') ∧ ∃ i, room i = true) ∨
        ∃ s, insertBeforeT p new r ⟨w, room, t⟩ = .exc s .noMem ∧ ¬ ∃ ch, Linked s.w ch := by
      rw [insertBefore_eq] at h
      obtain ⟨w0, q, h1, h2⟩ := bind_ran h
      obtain ⟨rfl, hqx, hqp⟩ := insertChecks_nodes h1
      rw [hx] at hqx
      rw [hp] at hqp
      obtain ⟨q1, q2⟩ := q
      cases hqx
      cases hqp
      rw [if_neg hne, insertDo_eq] at h2
      dsimp only at h2
      rw [if_pos hf] at h2
      obtain ⟨w1, ⟨⟩, h3, h4⟩ := bind_ran h2
      have hw1 : w1 = w0 := by
        unfold takeOut at h3
        rw [get_bind hx, hpar] at h3
        cases h3
        rfl
      subst hw1
      obtain ⟨w2, ⟨⟩, h5, h6⟩ := bind_ran h4
      obtain ⟨w3, ⟨⟩, h7, h8⟩ := bind_ran h6
      have hk2 := keeps_removePending new new w1 w2 () h5
      rw [hx, Option.map_some, hfirst] at hk2
      unfold insertFragment at h7
      obtain ⟨w4, f, g1, h70⟩ := bind_ran h7
      obtain ⟨rfl, hfn⟩ := getNode_inv g1
      have hff : f.first = some c := by
        rw [hfn, Option.map_some, Option.some.injEq] at hk2
        exact hk2
      obtain ⟨w5, bd, g2, h71⟩ := bind_ran h70
      have e5 := Pure.bound _ _ _ g2
      subst e5
      obtain ⟨w6, ok, g3, h72⟩ := bind_ran h71
      have e6 := pure_allPermitted _ _ _ _ _ _ g3
      subst e6
      obtain ⟨w7, ⟨⟩, g4, h73⟩ := bind_ran h72
      have e7 := Pure.throwIf _ _ _ _ _ g4
      subst e7
      rw [hff] at h73
      obtain ⟨w8, pt, g5, h74⟩ := bind_ran h73
      have e8 := pure_insertPoint _ _ _ _ _ g5
      subst e8
      obtain ⟨w9, lst, g6, h75⟩ := bind_ran h74
      have e9 := Pure.deref _ _ _ _ g6
      subst e9
      obtain ⟨w10, ⟨⟩, g7, h76⟩ := bind_ran h75
      have hq2 : Hushed ((do
          modNode new fun x => { x with first := none }
          modNode new fun x => { x with last := none }) : M Unit) := (Hushed.mod _ _).bind fun _ => Hushed.mod _ _
      obtain ⟨_, hq2'⟩ := hq2 _ _ _ h76
      obtain ⟨_, hq3⟩ := hushed_insertEnd p new q1 q2 _ _ _ h8
      have hc10 : ∃ n, w10.nodes c = some n ∧ n.parent = some p := by
        obtain ⟨w11, ⟨⟩, g8, g9⟩ := bind_ran h76
        obtain ⟨_, _, rfl⟩ := modNode_inv g8
        obtain ⟨_, _, rfl⟩ := modNode_inv g9
        obtain ⟨_, _, k6, _⟩ := insertEnd_inv h8
        have := k6 c hcnew
        rw [upd_ne _ _ hcnew, upd_ne _ _ hcnew] at this
        rw [← this]
        exact hcp
      intro room t
      have hT : insertBeforeT p new r ⟨w1, room, t⟩ = ((attachRangeT c lst p pt r >>= fun _ => lift (do
            modNode new fun x => { x with first := none }
            modNode new fun x => { x with last := none })) >>= fun _ => lift (insertEnd p new q1 q2)) ⟨w9.relog w9.log, room, t⟩ := by
        unfold insertBeforeT
        rw [tbind_ok (lift_ok (s := ⟨w1, room, t⟩) h1), if_neg hne]
        unfold insertDoT
        dsimp only
        have ht : takeOutT new ⟨w1, room, t⟩ = .ok ⟨w1, room, t⟩ () := by
          unfold takeOutT
          rw [tbind_ok (lift_ok (s := ⟨w1, room, t⟩) (getNode_run hx)), hpar]
          rfl
        rw [tbind_ok ht, tbind_ok (lift_ok (s := ⟨w1, room, t⟩) h5), if_pos hf]
        unfold insertFragmentT
        simp only [tbind_assoc]
        rw [tbind_ok (lift_ok (s := ⟨w9, room, t⟩) g1), tbind_ok (lift_ok (s := ⟨w9, room, t⟩) g2),
          tbind_ok (lift_ok (s := ⟨w9, room, t⟩) g3), tbind_ok (lift_ok (s := ⟨w9, room, t⟩) g4), hff]
        dsimp only
        simp only [tbind_assoc]
        rw [tbind_ok (lift_ok (s := ⟨w9, room, t⟩) g5), tbind_ok (lift_ok (s := ⟨w9, room, t⟩) g6)]
        rfl
      rw [hT]
      rcases attachRange_cut g7 hpne hk2 hc10 w9.log room t with ⟨⟨lg', t', e1⟩, hi⟩ | ⟨s, e1, hs⟩
      · refine .inl ⟨?_, hi⟩
        have e2 := tbind_ok (f := fun _ => lift (do
            modNode new fun x => { x with first := none }
            modNode new fun x => { x with last := none })) e1
        rw [lift_ok (s := ⟨w10.relog lg', room, t'⟩) (hq2' lg')] at e2
        exact ⟨_, (tbind_ok e2).trans (lift_ok (s := ⟨w3.relog lg', room, t'⟩) (hq3 lg')), rfl, rfl⟩
      · exact .inr ⟨s, tbind_exc (tbind_exc e1), hs⟩
    refine ⟨fun room t => (main room t).imp_left And.left, fun t => ?_⟩
    rcases main (fun _ => false) t with ⟨_, i, hi⟩ | h
    · cases hi
    · exact h

/-- **C93, with memory enough.**  If nothing is refused, `insertBefore`, `replaceChild` and `removeChild` do what Verif/Tree/Model.lean says:
the same answer, the same nodes and the same events. -/
theorem C93_enough (w : World) (room : Nat → Bool) (t : Nat) (hr : ∀ i, room i = true) (p new : NodeId) (r : Option NodeId) (old : NodeId) :
    (∃ t', insertBeforeT p new r ⟨w, room, t⟩ = (insertBefore p new r w).tight room t') ∧
    (∃ t', replaceChildT p new old ⟨w, room, t⟩ = (replaceChild p new old w).tight room t') ∧
    (∃ t', removeChildT p old ⟨w, room, t⟩ = (removeChild p old w).tight room t') :=
  ⟨same_insert p new r w room t hr, same_replace p new old w room t hr, same_remove p old w room t hr⟩


/-- How a call ends, for concrete cases. -/
def TRes.refusedB {α : Type} (r : TRes α) (f : Tight → Bool) : Bool :=
  match r with
  | .exc s .noMem => f s
  | _ => false

theorem refusedB_elim {α : Type} {r : TRes α} {f : Tight → Bool} (h : r.refusedB f = true) : ∃ s, r = .exc s .noMem ∧ f s = true := by
  unfold TRes.refusedB at h
  split at h
  · exact ⟨_, rfl, h⟩
  · cases h

theorem outcome_fault {α : Type} {r : Res α} {f : Fault} (h : r.outcome = .fault f) : r = .fault f := by
  cases r with
  | ok w a => cases h
  | exc w e => cases h
  | fault g => cases h; rfl

/-- **C93 is false of the code**, what comes of it: a fragment (2) with two texts (3, 4), to which the client has no references, is appended
to an element (1), and the first event is refused.  The client is told that there is no memory.  If it then gives its fragment back, the texts go with it although
they are children of the element: asking for the first child of the element reads freed memory.  If it calls again instead, an assertion fails. -/
theorem C93_fragment_freed_violated : ∃ led w, Client Proper led w ∧ 0 < led 1 ∧ 0 < led 2 ∧
    ∃ s, appendChildT 1 2 ⟨w, fun _ => false, 0⟩ = .exc s .noMem ∧
      (∃ w2, (Act.unref 2).run s.w = .ok w2 none ∧ (Act.get .first 1).run w2 = .fault .useAfterFree) ∧
      (Call.appendChild 1 2).run s.w = .fault .assertFail := by
  obtain ⟨led, w, h, hc⟩ := exists_proper
    [.call .createDocument, .call (.createNode 0 .element none none), .call (.createNode 0 .fragment none none),
     .call (.createNode 0 .text none none), .call (.createNode 0 .text none none), .call (.appendChild 2 3), .call (.appendChild 2 4),
     .unref 3, .unref 3, .unref 4, .unref 4]
    (fun led w => decide (0 < led 1) && decide (0 < led 2) && (appendChildT 1 2 ⟨w, fun _ => false, 0⟩).refusedB fun s =>
      (match (Act.unref 2).run s.w with
        | .ok w2 none => decide (((Act.get .first 1).run w2).outcome = .fault .useAfterFree)
        | _ => false) && decide (((Call.appendChild 1 2).run s.w).outcome = .fault .assertFail))
    (by decide +kernel)
  simp only [Bool.and_eq_true, decide_eq_true_eq] at hc
  obtain ⟨s, hs, h1⟩ := refusedB_elim hc.2
  simp only [Bool.and_eq_true, decide_eq_true_eq] at h1
  refine ⟨led, w, h, hc.1.1, hc.1.2, s, hs, ?_, outcome_fault h1.2⟩
  have h2 := h1.1
  cases hr : (Act.unref 2).run s.w with
  | exc w2 e => rw [hr] at h2; simp at h2
  | fault f => rw [hr] at h2; simp at h2
  | ok w2 a =>
    rw [hr] at h2
    cases a with
    | some a => simp at h2
    | none =>
      simp only [decide_eq_true_eq] at h2
      exact ⟨w2, rfl, outcome_fault h2⟩

/-- All nodes have an owner. -/
def ownedB (w : World) : Bool := allB w fun n => n.owner.isSome

theorem C93_cases : ∃ w ch, WF w ch ∧ Owned w ∧
    (∃ pn nn w', w.nodes 1 = some pn ∧ w.nodes 2 = some nn ∧ nn.parent = none ∧ nn.type = .text ∧ insertBefore 1 2 none w = .ok w' 2) ∧
    (∃ nn w', w.nodes 3 = some nn ∧ nn.parent = some 4 ∧ nn.type = .text ∧ replaceChild 1 3 5 w = .ok w' 5 ∧ NotAttrOf w 1 5) ∧
    (∃ w', removeChild 1 5 w = .ok w' 5) ∧
    (∃ nn w', w.nodes 6 = some nn ∧ nn.type = .fragment ∧ ch 6 ≠ [] ∧ insertBefore 1 6 (some 5) w = .ok w' 6) := by
  obtain ⟨w, hr, h⟩ := exists_ok
    [.createDocument, .createNode 0 .element none none, .createNode 0 .text none none, .createNode 0 .text none none,
     .createNode 0 .element none none, .createNode 0 .comment none none, .createNode 0 .fragment none none, .createNode 0 .comment none none,
     .appendChild 4 3, .appendChild 1 5, .appendChild 6 7]
    (fun w => ownedB w && (at_ w 1 fun _ => true) && (at_ w 2 fun n => n.parent.isNone && n.type = .text) &&
      (at_ w 3 fun n => n.parent = some 4 && n.type = .text) && (at_ w 5 fun n => n.type = .comment) &&
      (at_ w 6 fun n => n.type = .fragment && n.first.isSome) &&
      (match insertBefore 1 2 none w with | .ok _ r => r = 2 | _ => false) &&
      (match replaceChild 1 3 5 w with | .ok _ r => r = 5 | _ => false) &&
      (match removeChild 1 5 w with | .ok _ r => r = 5 | _ => false) &&
      (match insertBefore 1 6 (some 5) w with | .ok _ r => r = 6 | _ => false))
    (by decide +kernel)
  have okB : ∀ {r : Res NodeId} {i : NodeId}, (match r with | .ok _ r => decide (r = i) | _ => false) = true → ∃ w', r = .ok w' i := by
    intro r i h
    cases r with
    | ok w' a => simp only [decide_eq_true_eq] at h; exact ⟨w', by rw [h]⟩
    | exc w' e => simp at h
    | fault f => simp at h
  simp only [Bool.and_eq_true] at h
  obtain ⟨⟨⟨⟨⟨⟨⟨⟨⟨h0, h1⟩, h2⟩, h3⟩, h5⟩, h6⟩, g1⟩, g2⟩, g3⟩, g4⟩ := h
  obtain ⟨ch, hW⟩ := hr.wf fun _ _ h => h
  obtain ⟨n1, e1, _⟩ := at_elim h1
  obtain ⟨n2, e2, f2⟩ := at_elim h2
  obtain ⟨n3, e3, f3⟩ := at_elim h3
  obtain ⟨n5, e5, f5⟩ := at_elim h5
  obtain ⟨n6, e6, f6⟩ := at_elim h6
  simp only [Bool.and_eq_true, decide_eq_true_eq, Option.isNone_iff_eq_none] at f2 f3 f5 f6
  obtain ⟨wa, ga⟩ := okB g1
  obtain ⟨wb, gb⟩ := okB g2
  obtain ⟨wc, gc⟩ := okB g3
  obtain ⟨wd, gd⟩ := okB g4
  refine ⟨w, ch, hW, ?_, ⟨n1, n2, wa, e1, e2, f2.1, f2.2, ga⟩, ⟨n3, wb, e3, f3.1, f3.2, gb, n5, e5, fun ha => ?_⟩, ⟨wc, gc⟩, n6, wd, e6, f6.1, ?_, gd⟩
  · intro i n hn
    have := allB_elim hW.toCore.bnd h0 hn
    exact Option.isSome_iff_ne_none.mp this
  · rw [f5] at ha
    cases ha
  · intro hk
    obtain ⟨m, hm, hf, _⟩ := (hW.linked.loc 6 n6 e6).ends
    rw [e6] at hm
    cases hm
    rw [hf, hk] at f6
    exact absurd f6.2 (by simp)

end Dom.Tree
