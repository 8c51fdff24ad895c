import Verif.Events.Objects
import Verif.Html.PropsControl
/-!
# Claim C74: event objects
-/
set_option linter.unusedSimpArgs false
set_option linter.unusedVariables false
namespace Dom.Events.Obj

open Dom.Intern
open Dom.Str (Bytes)
open Dom.Html.Create (refOpt unrefOpt plus plus_plus plus_nil plus_perm refOpt_run unrefOpt_run ref_run unref_run step_of keep le_plus new_run)
open Dom.Html.Control (allowed_plus heldAfter_plus run_le lastOf lastOf_snoc)

/-! ## What is claimed -/

/-- The initialisation a call makes. -/
def initOf : Op → Option Args
  | .init a => some a
  | _ => none

/-- The initialisations of a history, the oldest first. -/
def inits (h : List Op) : List Args := h.filterMap initOf

/-- The last one. -/
def last (h : List Op) : Option Args := (inits h).getLast?

/-- The namespaces given, by initialisations that give one. -/
def spaces (h : List Op) : List (Option Addr) := (inits h).filterMap Args.ns

/-- The times of the initialisations without namespace. -/
def timeOf (a : Args) : Option Nat := if a.ns.isNone then some a.clock else none

/-- `key` and `code` of a keyboard event: the last string given, at first the empty string `e0`. -/
def keyOf (e0 : Addr) (h : List Op) (i : Nat) : Addr := (((inits h).filterMap fun a => a.str i).getLast?).getD e0

/-- The strings of the derived type: those of the last initialisation.  `none` stands for memory that was not written. -/
def stringsOf (k : Kind) (e0 : Addr) (h : List Op) : List (Option (Option Addr)) :=
  match k with
  | .text => [some ((last h).bind fun a => a.str 0)]
  | .keyboard => [some (some (keyOf e0 h 0)), some (some (keyOf e0 h 1))]
  | .mutation => [some ((last h).bind fun a => a.str 0), some ((last h).bind fun a => a.str 1), some ((last h).bind fun a => a.str 2)]
  | .mutationName => [some ((last h).bind fun a => a.str 0), some ((last h).bind fun a => a.str 1), (last h).map fun _ => none, (last h).map fun _ => none,
      (last h).map fun _ => none]
  | _ => []

/-- The related node. -/
def relatedOf (k : Kind) (h : List Op) : Option (Option Nat) :=
  match k with
  | .mutation => some ((last h).bind Args.node)
  | .mutationName => (last h).map Args.node
  | _ => some none

/-- The trust a call sets. -/
def trustOf : Op → Option Bool
  | .setTrusted b => some b
  | _ => none

/-- What a call returns after the calls `h`; `none` if it reads memory that was not written. -/
def said (k : Kind) (e0 : Addr) (h : List Op) : Op → Option Ans
  | .getType => some (.str ((last h).bind Args.type))
  | .getNamespace => some (.str (spaces h).getLast?.join)
  | .getBubbles => (((last h).map Args.bubble).or (blank k false)).map .bool
  | .getCancelable => (((last h).map Args.cancelable).or (blank k false)).map .bool
  | .getTime => (((lastOf timeOf (inits h)).map fun c => c / 2 * 2).or (blank k 0)).map .num
  | .isInitialised => some (.bool (last h).isSome)
  | .getTrusted => some (.bool ((lastOf trustOf h).getD true))
  | .getString i => ((stringsOf k e0 h).getD i none).map .str
  | .getRelated => (relatedOf k h).map .node
  | _ => some .none

/-- The strings given to an initialisation. -/
def Args.strs (a : Args) : List Addr := a.type.toList ++ a.ns.join.toList ++ (a.str 0).toList ++ (a.str 1).toList ++ (a.str 2).toList

/-- The calls a client can make with the strings `held` and the nodes `mine`. -/
def Valid (k : Kind) (held mine : Nat → Nat) : Op → Prop
  | .init a => (∀ x ∈ a.strs, 0 < held x) ∧ ∀ n ∈ a.node, 0 < mine n
  | .getString i => i < (stringsOf k 0 []).length
  | .getRelated => k = .mutation ∨ k = .mutationName
  | _ => True

/-- The strings on which an initialisation takes a reference that a later one does not give back. -/
def given (k : Kind) (a : Args) : List Addr :=
  a.type.toList ++ match k with
    | .text => (a.str 0).toList
    | .mutation => (a.str 0).toList ++ (a.str 1).toList ++ (a.str 2).toList
    | .mutationName => (a.str 0).toList ++ (a.str 1).toList
    | _ => []

/-- The references on strings an event has taken and not given back. -/
def taken (k : Kind) (e0 : Addr) (h : List Op) : List Addr :=
  (inits h).flatMap (given k) ++ (spaces h).flatMap Option.toList ++ if k = .keyboard then [keyOf e0 h 0, keyOf e0 h 1] else []

/-- The nodes on which an initialisation takes a reference. -/
def nodesOf (k : Kind) (a : Args) : List Nat := if k = .mutation ∨ k = .mutationName then a.node.toList else []

/-- The references on nodes an event has taken and not given back. -/
def takenNodes (k : Kind) (h : List Op) : List Nat := (inits h).flatMap (nodesOf k)

/-- The references on strings a caller gets. -/
def Ans.refs : Ans → List Addr
  | .str v => v.toList
  | _ => []

/-- The references on nodes a caller gets. -/
def Ans.nodes : Ans → List Nat
  | .node v => v.toList
  | _ => []

/-- The histories of an event of type `k` that still exists: it is created; then a client with the references `held` on strings and `mine` on nodes makes calls on strings and on the
event; others take and give up references on nodes.  No count of a string or of the event comes near 2^32. -/
inductive Hist (k : Kind) : St → (Addr → Nat) → (Addr → Nat) → (Nat → Nat) → Ev → Addr → List Op → Prop
  | start {s s' held loose mine e} : Reach s held loose → (∀ a, held a + 8 < 4294967296) → create s k = .ok (s', e) →
      Hist k ⟨s', mine⟩ held loose mine e s.fresh []
  | string {st held loose mine e e0 h c s' r} : Hist k st held loose mine e e0 h → Allowed st.mem held loose c →
      (∀ a, plus held (taken k e0 h) a + 8 < 4294967296) → Intern.perform st.mem c = .ok (s', r) →
      Hist k ⟨s', st.nodes⟩ (heldAfter held r c) (looseAfter loose r c) mine e e0 h
  | node {st held loose mine e e0 h} (mine' : Nat → Nat) : Hist k st held loose mine e e0 h →
      Hist k ⟨st.mem, fun n => st.nodes n - mine n + mine' n⟩ held loose mine' e e0 h
  | op {st held loose mine e e0 h o st' e' r} : Hist k st held loose mine e e0 h → Valid k held mine o →
      (∀ a, plus held (taken k e0 h) a + 8 < 4294967296) → (o = .unref → 1 < e.refcnt) → (o = .ref → e.refcnt + 1 < 4294967296) →
      e.run st o = .ok (st', e', r) → Hist k st' (plus held r.refs) loose (plus mine r.nodes) e' e0 (h ++ [o])

/-- The references that are lost when the event is destroyed. -/
def lost (k : Kind) (h : List Op) : List Addr := (inits h).dropLast.flatMap (given k) ++ (spaces h).dropLast.flatMap Option.toList

/-- The same for nodes. -/
def lostNodes (k : Kind) (h : List Op) : List Nat := if k = .mutationName then takenNodes k h else (inits h).dropLast.flatMap (nodesOf k)

/-! ## Steps -/

variable {k : Kind} {s s' : Mem} {st st' : St} {held tot loose : Addr → Nat} {mine : Nat → Nat} {e e' : Ev} {e0 : Addr} {h : List Op} {o : Op} {a : Args}

theorem inits_snoc (h : List Op) (o : Op) : inits (h ++ [o]) = inits h ++ (initOf o).toList := by
  unfold inits; cases ho : initOf o <;> simp [List.filterMap_append, ho]

theorem inits_other (ho : initOf o = none) : inits (h ++ [o]) = inits h := by rw [inits_snoc, ho]; simp

theorem inits_init (a : Args) : inits (h ++ [.init a]) = inits h ++ [a] := inits_snoc h (.init a)

theorem last_init (a : Args) : last (h ++ [.init a]) = some a := by unfold last; rw [inits_init]; simp

theorem plus_of_count {l m : List Addr} (hc : ∀ x, l.count x = m.count x) : plus held l = plus held m := by funext x; simp only [plus, hc]

/-- References on several strings. -/
theorem refAll_run {xs : List (Option Addr)} (hR : Reach s tot loose) (h0 : ∀ x ∈ xs, ∀ y ∈ x, 0 < tot y) (hk : ∀ y, tot y + xs.length < 4294967296) :
    ∃ s', refAll s xs = .ok s' ∧ Reach s' (plus tot (xs.flatMap Option.toList)) loose ∧ Step s s' := by
  induction xs generalizing s tot with
  | nil => exact ⟨s, rfl, by simpa [plus_nil] using hR, Step.refl s⟩
  | cons x xs ih =>
    obtain ⟨s1, e1, R1, S1⟩ := refOpt_run (x := x) hR (h0 x List.mem_cons_self) (fun y => by have := hk y; simp only [List.length_cons] at this; omega)
    obtain ⟨s2, e2, R2, S2⟩ := ih R1 (fun y hy z hz => le_plus _ _ _ (h0 y (List.mem_cons_of_mem _ hy) z hz)) (fun y => by
      have h1 := hk y
      have h2 : x.toList.count y ≤ 1 := by cases x <;> simp [List.count_singleton]; split_ifs <;> omega
      simp only [List.length_cons] at h1; simp only [plus]; omega)
    refine ⟨s2, by simp only [refAll, e1, e2, Out.bind_ok], ?_, S1.trans hR.inv S2⟩
    rw [plus_plus] at R2; rw [List.flatMap_cons]; exact R2

/-- Giving up several strings. -/
theorem unrefFields_run {xs : List (Option Addr)} {l : List Addr} (hR : Reach s (plus held (xs.flatMap Option.toList ++ l)) loose) :
    ∃ s', unrefFields s (xs.map some) = .ok s' ∧ Reach s' (plus held l) loose ∧ Step s s' := by
  induction xs generalizing s with
  | nil => exact ⟨s, rfl, by simpa using hR, Step.refl s⟩
  | cons x xs ih =>
    rw [List.flatMap_cons, List.append_assoc] at hR
    obtain ⟨s1, e1, R1, S1⟩ := unrefOpt_run hR
    obtain ⟨s2, e2, R2, S2⟩ := ih R1
    exact ⟨s2, by simp only [List.map_cons, unrefFields, e1, e2, Out.bind_ok], R2, S1.trans hR.inv S2⟩

theorem keyField_run {x : Addr} {y : Option Addr} {l : List Addr} (hR : Reach s (plus held (x :: l)) loose) (h0 : ∀ z ∈ y, 0 < held z)
    (hk : ∀ z, plus held l z + 1 < 4294967296) :
    ∃ s', keyField s (some (some x)) y = .ok (s', some (some (y.getD x))) ∧ Reach s' (plus held (y.getD x :: l)) loose ∧ Step s s' := by
  cases y with
  | none => exact ⟨s, rfl, hR, Step.refl s⟩
  | some z =>
    obtain ⟨s1, e1, R1, S1⟩ := unrefOpt_run (x := some x) (l := l) hR
    obtain ⟨s2, e2, R2, S2⟩ := refOpt_run (x := some z) R1 (fun w hw => le_plus _ _ _ (h0 w hw)) hk
    refine ⟨s2, ?_, ?_, S1.trans hR.inv S2⟩
    · show (do let s ← unrefOpt s (some x); let s ← refOpt s (some z); Out.ok (s, some (some z)) : Out _) = _
      rw [e1, Out.bind_ok, e2, Out.bind_ok]; rfl
    · rw [plus_plus, plus_perm List.perm_append_comm] at R2; exact R2

/-- The fields after an initialisation of the base type. -/
def baseNext (e : Ev) (a : Args) : Ev :=
  { e with
    type := a.type, ns := a.ns.getD e.ns, bubble := some a.bubble, cancelable := some a.cancelable, isInit := true,
    time := ((timeOf a).map fun c => c / 2 * 2).or e.time }

theorem initBase_run (hR : Reach s tot loose) (h1 : ∀ x ∈ a.type, 0 < tot x) (h2 : ∀ x ∈ a.ns.join, 0 < tot x) (hk : ∀ x, tot x + 2 < 4294967296) :
    ∃ s', initBase s e a = .ok (s', baseNext e a) ∧ Reach s' (plus tot (a.type.toList ++ a.ns.join.toList)) loose ∧ Step s s' := by
  obtain ⟨s1, e1, R1, S1⟩ := refOpt_run (x := a.type) hR h1 (fun x => by have := hk x; omega)
  unfold initBase
  rw [e1, Out.bind_ok]
  cases hn : a.ns with
  | none =>
    refine ⟨s1, ?_, by simpa using R1, S1⟩
    have : a.clock - a.clock % 2 = a.clock / 2 * 2 := by omega
    simp only [baseNext, timeOf, hn, Option.isNone_none, if_true, Option.map_some, Option.some_or, Option.getD_none, this]
  | some n =>
    have h2' : ∀ x ∈ n, 0 < tot x := by intro x hx; exact h2 x (by rw [hn]; exact hx)
    obtain ⟨s2, e2, R2, S2⟩ := refOpt_run (x := n) R1 (fun x hx => le_plus _ _ _ (h2' x hx)) (fun x => by
      have h3 := hk x
      have h4 : a.type.toList.count x ≤ 1 := by cases a.type <;> simp [List.count_singleton]; split_ifs <;> omega
      simp only [plus]; omega)
    refine ⟨s2, ?_, by rw [plus_plus] at R2; exact R2, S1.trans hR.inv S2⟩
    dsimp only
    rw [e2, Out.bind_ok]
    simp only [baseNext, timeOf, hn, Option.isNone_some, Bool.false_eq_true, if_false, Option.map_none, Option.none_or, Option.getD_some]

/-- The fields after some calls. -/
structure Follows (k : Kind) (e : Ev) (e0 : Addr) (h : List Op) : Prop where
  kind : e.kind = k
  live : e.freed = false
  pos : 0 < e.refcnt
  small : e.refcnt < 4294967296
  type : e.type = (last h).bind Args.type
  ns : e.ns = (spaces h).getLast?.join
  bubble : e.bubble = ((last h).map Args.bubble).or (blank k false)
  cancelable : e.cancelable = ((last h).map Args.cancelable).or (blank k false)
  time : e.time = ((lastOf timeOf (inits h)).map fun c => c / 2 * 2).or (blank k 0)
  isInit : e.isInit = (last h).isSome
  trusted : e.trusted = (lastOf trustOf h).getD true
  own : e.own = stringsOf k e0 h
  related : e.related = relatedOf k h

/-- The event and the memory belong together. -/
structure Good (k : Kind) (st : St) (held loose : Addr → Nat) (mine : Nat → Nat) (e : Ev) (e0 : Addr) (h : List Op) : Prop where
  follows : Follows k e e0 h
  reach : Reach st.mem (plus held (taken k e0 h)) loose
  nodes : ∀ n, st.nodes n = plus mine (takenNodes k h) n
  old : e0 < st.mem.fresh ∨ k ≠ .keyboard
  empty : k = .keyboard → 0 < plus held (taken k e0 h) e0 → strBytes st.mem e0 = .ok []

/-- The empty string stays what it is, as long as it exists. -/
theorem empty_step {tot' loose' : Addr → Nat} (hR : Reach s tot loose) (hR' : Reach s' tot' loose') (S : Step s s') (hf : e0 < s.fresh)
    (he : 0 < tot e0 → strBytes s e0 = .ok []) (h0 : 0 < tot' e0) : strBytes s' e0 = .ok [] := by
  refine keep hR hR' S (he ?_) h0
  cases ho : s.strs e0 with
  | none => exact absurd (hR'.inv.dead e0 (S.strs e0 hf ho)) (Nat.pos_iff_ne_zero.1 h0)
  | some o => exact (hR.inv.live e0 o ho).2.1

theorem refNode_eq (nodes : Nat → Nat) (x : Option Nat) : refNode nodes x = plus nodes x.toList := by
  cases x with
  | none => simp only [refNode, Option.toList_none, plus_nil]
  | some n =>
    funext m
    simp only [refNode, upd, plus, Option.toList_some, List.count_singleton]
    by_cases hm : m = n
    · subst hm; simp
    · rw [if_neg hm]; simp [Ne.symm hm]

theorem count1 (x : Option Addr) (y : Addr) : x.toList.count y ≤ 1 := by cases x <;> simp [List.count_singleton]; split_ifs <;> omega

theorem lastOf_append {α β : Type} (f : α → Option β) (l : List α) (x : α) : lastOf f (l ++ [x]) = (f x).or (lastOf f l) := lastOf_snoc f l x

/-- The references for the strings of the derived type: what an initialisation adds and takes away. -/
def ownGiven (k : Kind) (a : Args) : List Addr :=
  match k with
    | .text => (a.str 0).toList
    | .mutation => (a.str 0).toList ++ (a.str 1).toList ++ (a.str 2).toList
    | .mutationName => (a.str 0).toList ++ (a.str 1).toList
    | _ => []

/-- `key` and `code`, as references. -/
def keys (k : Kind) (e0 : Addr) (h : List Op) : List Addr := if k = .keyboard then [keyOf e0 h 0, keyOf e0 h 1] else []

theorem keyOf_init (i : Nat) : keyOf e0 (h ++ [.init a]) i = (a.str i).getD (keyOf e0 h i) := by
  unfold keyOf
  rw [inits_init, List.filterMap_append]
  cases hs : a.str i with
  | none => simp [hs]
  | some x => simp [hs]

theorem initOwn_run {l : List Addr} (hF : Follows k e e0 h) (hR : Reach st.mem (plus held (keys k e0 h ++ l)) loose) (h0 : ∀ x ∈ a.strs, 0 < held x)
    (hk : ∀ x, plus held (keys k e0 h ++ l) x + 8 < 4294967296) :
    ∃ s', initOwn st e a = .ok (⟨s', plus st.nodes (nodesOf k a)⟩,
        { e with own := stringsOf k e0 (h ++ [.init a]), related := relatedOf k (h ++ [.init a]) }) ∧
      Reach s' (plus held (keys k e0 (h ++ [.init a]) ++ (ownGiven k a ++ l))) loose ∧ Step st.mem s' := by
  have p0 : ∀ x ∈ a.str 0, 0 < held x := fun x hx => h0 x (by have hx' : a.str 0 = some x := hx; simp [Args.strs, hx'])
  have p1 : ∀ x ∈ a.str 1, 0 < held x := fun x hx => h0 x (by have hx' : a.str 1 = some x := hx; simp [Args.strs, hx'])
  have p2 : ∀ x ∈ a.str 2, 0 < held x := fun x hx => h0 x (by have hx' : a.str 2 = some x := hx; simp [Args.strs, hx'])
  have hown := hF.own
  have hrel := hF.related
  have hkd := hF.kind
  clear hF
  obtain ⟨kd, rc, ty, n, b, c, tm, ii, tr, ow, re, fr⟩ := e
  obtain rfl : kd = k := hkd
  unfold initOwn
  dsimp only at hown hrel ⊢
  have idle : ∀ {k}, stringsOf k e0 (h ++ [.init a]) = stringsOf k e0 h → relatedOf k (h ++ [.init a]) = relatedOf k h → ownGiven k a = [] → nodesOf k a = [] →
      keys k e0 (h ++ [.init a]) = [] → keys k e0 h = [] → ow = stringsOf k e0 h → re = relatedOf k h → Reach st.mem (plus held (keys k e0 h ++ l)) loose →
      ∃ s', (Out.ok (st, Ev.mk k rc ty n b c tm ii tr ow re fr) : Out (St × Ev)) = .ok (⟨s', plus st.nodes (nodesOf k a)⟩,
        Ev.mk k rc ty n b c tm ii tr (stringsOf k e0 (h ++ [.init a])) (relatedOf k (h ++ [.init a])) fr) ∧
      Reach s' (plus held (keys k e0 (h ++ [.init a]) ++ (ownGiven k a ++ l))) loose ∧ Step st.mem s' := by
    intro k q1 q2 q3 q4 q5 q6 q7 q8 q9
    refine ⟨st.mem, ?_, ?_, Step.refl _⟩
    · rw [q1, q2, q4, plus_nil, ← q7, ← q8]
    · rw [q3, q5]; rw [q6] at q9; exact q9
  cases kd with
  | event => exact idle rfl rfl rfl rfl rfl rfl hown hrel hR
  | custom => exact idle rfl rfl rfl rfl rfl rfl hown hrel hR
  | ui => exact idle rfl rfl rfl rfl rfl rfl hown hrel hR
  | mouse => exact idle rfl rfl rfl rfl rfl rfl hown hrel hR
  | multiWheel => exact idle rfl rfl rfl rfl rfl rfl hown hrel hR
  | wheel => exact idle rfl rfl rfl rfl rfl rfl hown hrel hR
  | text =>
    obtain ⟨s1, e1, R1, S1⟩ := refOpt_run (x := a.str 0) hR (fun x hx => le_plus _ _ _ (p0 x hx)) (fun x => by have := hk x; omega)
    refine ⟨s1, ?_, ?_, S1⟩
    · dsimp only
      rw [e1, Out.bind_ok]
      simp only [stringsOf, relatedOf, last_init, Option.bind_some, nodesOf, reduceCtorEq, or_self, if_false, plus_nil]
      rw [hrel]; rfl
    · rw [plus_plus, plus_perm List.perm_append_comm] at R1; exact R1
  | keyboard =>
    have hk0 : keys .keyboard e0 h = [keyOf e0 h 0, keyOf e0 h 1] := rfl
    rw [hk0] at hR hk
    obtain ⟨s1, e1, R1, S1⟩ := keyField_run (x := keyOf e0 h 0) (y := a.str 0) (l := keyOf e0 h 1 :: l) hR p0 (fun z => by
      have := hk z; simp only [plus, List.cons_append, List.nil_append, List.count_cons] at this ⊢; omega)
    have sw : ∀ x y : Addr, plus held (x :: y :: l) = plus held (y :: x :: l) := fun x y => plus_perm (List.Perm.swap y x l)
    rw [sw] at R1
    obtain ⟨s2, e2, R2, S2⟩ := keyField_run (x := keyOf e0 h 1) (y := a.str 1) R1 p1 (fun z => by
      have h1 := hk z
      have h2 : List.count z [(a.str 0).getD (keyOf e0 h 0)] ≤ 1 := List.count_le_length
      simp only [plus, List.cons_append, List.nil_append, List.count_cons, List.count_nil] at h1 h2 ⊢; omega)
    rw [sw] at R2
    refine ⟨s2, ?_, ?_, S1.trans hR.inv S2⟩
    · dsimp only
      rw [hown]
      simp only [stringsOf, List.getD_cons_zero, List.getD_cons_succ, e1, e2, Out.bind_ok, keyOf_init, relatedOf, nodesOf, reduceCtorEq, or_self, if_false, plus_nil]
      rw [hrel]; rfl
    · simp only [keys, if_true, keyOf_init, ownGiven]; exact R2
  | mutation =>
    obtain ⟨s1, e1, R1, S1⟩ := refAll_run (xs := [a.str 0, a.str 1, a.str 2]) hR (by
      intro x hx y hy
      rcases List.mem_cons.1 hx with hx | hx
      · subst hx; exact le_plus _ _ _ (p0 y hy)
      · rcases List.mem_cons.1 hx with hx | hx
        · subst hx; exact le_plus _ _ _ (p1 y hy)
        · rw [List.mem_singleton] at hx; subst hx; exact le_plus _ _ _ (p2 y hy)) (fun x => by have := hk x; simp only [List.length_cons, List.length_nil]; omega)
    refine ⟨s1, ?_, ?_, S1⟩
    · unfold mutationPart
      rw [e1, Out.bind_ok, refNode_eq]
      simp [stringsOf, relatedOf, last_init, nodesOf]
    · rw [plus_plus, plus_perm List.perm_append_comm] at R1; simpa [ownGiven, keys] using R1
  | mutationName =>
    obtain ⟨s1, e1, R1, S1⟩ := refAll_run (xs := [a.str 0, a.str 1]) hR (by
      intro x hx y hy
      rcases List.mem_cons.1 hx with hx | hx
      · subst hx; exact le_plus _ _ _ (p0 y hy)
      · rw [List.mem_singleton] at hx; subst hx; exact le_plus _ _ _ (p1 y hy)) (fun x => by have := hk x; simp only [List.length_cons, List.length_nil]; omega)
    refine ⟨s1, ?_, ?_, S1⟩
    · dsimp only
      rw [e1, Out.bind_ok]
      unfold mutationPart
      rw [refNode_eq]
      simp [refAll, refOpt, stringsOf, relatedOf, last_init, nodesOf, Out.bind_ok]
    · rw [plus_plus, plus_perm List.perm_append_comm] at R1; simpa [ownGiven, keys] using R1

theorem given_eq (k : Kind) (a : Args) : given k a = a.type.toList ++ ownGiven k a := by cases k <;> rfl

theorem spaces_init : spaces (h ++ [.init a]) = spaces h ++ a.ns.toList := by
  unfold spaces; rw [inits_init, List.filterMap_append]
  cases hn : a.ns <;> simp [hn]

theorem join_flat (x : Option (Option Addr)) : x.toList.flatMap Option.toList = x.join.toList := by cases x with
  | none => rfl
  | some y => cases y <;> rfl

/-- Calls that are not initialisations do not change what the event has taken. -/
theorem taken_other (ho : initOf o = none) : taken k e0 (h ++ [o]) = taken k e0 h ∧ takenNodes k (h ++ [o]) = takenNodes k h := by
  simp only [taken, takenNodes, spaces, keyOf, inits_other ho, and_self]

theorem taken_init (x : Addr) : (taken k e0 (h ++ [.init a])).count x =
    (keys k e0 (h ++ [.init a])).count x + (ownGiven k a).count x + (a.type.toList ++ a.ns.join.toList).count x +
      ((inits h).flatMap (given k) ++ (spaces h).flatMap Option.toList).count x := by
  unfold taken
  rw [inits_init, spaces_init, List.flatMap_append, List.flatMap_append, join_flat, List.flatMap_singleton, given_eq]
  simp only [List.count_append, keys]
  omega

theorem taken_nodes_init : takenNodes k (h ++ [.init a]) = takenNodes k h ++ nodesOf k a := by
  unfold takenNodes; rw [inits_init, List.flatMap_append, List.flatMap_singleton]

theorem split_taken : taken k e0 h = (inits h).flatMap (given k) ++ (spaces h).flatMap Option.toList ++ keys k e0 h := rfl

theorem init_run (hG : Good k st held loose mine e e0 h) (h0 : ∀ x ∈ a.strs, 0 < held x) (hk : ∀ x, plus held (taken k e0 h) x + 8 < 4294967296) :
    ∃ st' e', init st e a = .ok (st', e') ∧ Good k st' held loose mine e' e0 (h ++ [.init a]) ∧ Step st.mem st'.mem := by
  have hF := hG.follows
  have pt : ∀ x ∈ a.type, 0 < held x := fun x hx => h0 x (by have hx' : a.type = some x := hx; simp [Args.strs, hx'])
  have pn : ∀ x ∈ a.ns.join, 0 < held x := fun x hx => h0 x (by have hx' : a.ns.join = some x := hx; simp [Args.strs, hx'])
  have hR := hG.reach
  rw [split_taken, plus_perm List.perm_append_comm] at hR
  obtain ⟨s1, e1, R1, S1⟩ := initOwn_run (a := a) hF hR h0 (fun x => by
    have := hk x; rw [split_taken, plus_perm List.perm_append_comm] at this; exact this)
  have hold : ∀ x, (ownGiven k a).count x ≤ 3 := fun x => by
    refine Nat.le_trans List.count_le_length ?_
    cases k <;> simp only [ownGiven, List.length_append, List.length_nil] <;>
      (first | omega | (cases a.str 0 <;> cases a.str 1 <;> cases a.str 2 <;> simp))
  have hkeys : ∀ x, (keys k e0 (h ++ [.init a])).count x ≤ 2 := fun x => by
    refine Nat.le_trans List.count_le_length ?_
    unfold keys; split_ifs <;> simp
  obtain ⟨s2, e2, R2, S2⟩ := initBase_run (a := a) (e := { e with own := stringsOf k e0 (h ++ [.init a]), related := relatedOf k (h ++ [.init a]) }) R1
    (fun x hx => le_plus _ _ _ (pt x hx)) (fun x hx => le_plus _ _ _ (pn x hx)) (fun x => by
      have h1 := hk x; have h2 := hold x; have h3 := hkeys x
      rw [split_taken] at h1
      simp only [plus, List.count_append] at h1 ⊢; omega)
  refine ⟨⟨s2, plus st.nodes (nodesOf k a)⟩, baseNext { e with own := stringsOf k e0 (h ++ [.init a]), related := relatedOf k (h ++ [.init a]) } a, ?_, ?_,
    S1.trans hR.inv S2⟩
  · unfold init; rw [e1, Out.bind_ok]; dsimp only; rw [e2, Out.bind_ok]
  · have hR2 : Reach s2 (plus held (taken k e0 (h ++ [.init a]))) loose := by
      rw [plus_plus] at R2
      refine (plus_of_count (fun x => ?_) : plus held _ = plus held _) ▸ R2
      rw [taken_init]; simp only [List.count_append]; omega
    refine ⟨?_, hR2, fun n => ?_, ?_, fun hkk h1 => ?_⟩
    · refine ⟨hF.kind, hF.live, hF.pos, hF.small, ?_, ?_, ?_, ?_, ?_, ?_, ?_, rfl, rfl⟩
      · rw [last_init]; rfl
      · rw [spaces_init]; dsimp only [baseNext]; rw [hF.ns]
        cases a.ns with
        | none => simp
        | some n => simp
      · rw [last_init]; rfl
      · rw [last_init]; rfl
      · dsimp only [baseNext]; rw [inits_init, lastOf_append, hF.time]
        cases timeOf a <;> simp
      · rw [last_init]; rfl
      · dsimp only [baseNext]; rw [lastOf_append, hF.trusted]; rfl
    · dsimp only; rw [taken_nodes_init, ← plus_plus]; simp only [plus]; rw [hG.nodes n]; rfl
    · rcases hG.old with h1 | h1
      · exact Or.inl (Nat.lt_of_lt_of_le h1 (S1.trans hR.inv S2).fresh)
      · exact Or.inr h1
    · have hf : e0 < st.mem.fresh := hG.old.resolve_right (fun h => h hkk)
      exact empty_step hG.reach hR2 (S1.trans hR.inv S2) hf (hG.empty hkk) h1

/-- A call that is not an initialisation. -/
theorem Good.next {held' : Addr → Nat} {mine' : Nat → Nat} (hG : Good k st held loose mine e e0 h) (ho : initOf o = none) (hF : Follows k e' e0 (h ++ [o]))
    (hR : Reach st'.mem (plus held' (taken k e0 h)) loose) (hn : ∀ n, st'.nodes n = plus mine' (takenNodes k h) n) (S : Step st.mem st'.mem) :
    Good k st' held' loose mine' e' e0 (h ++ [o]) := by
  obtain ⟨t1, t2⟩ := taken_other (k := k) (e0 := e0) (h := h) ho
  refine ⟨hF, by rw [t1]; exact hR, by rw [t2]; exact hn, ?_, fun hkk h1 => ?_⟩
  · rcases hG.old with h1 | h1
    · exact Or.inl (Nat.lt_of_lt_of_le h1 S.fresh)
    · exact Or.inr h1
  · rw [t1] at h1
    exact empty_step hG.reach hR S (hG.old.resolve_right (fun h => h hkk)) (hG.empty hkk) h1

theorem Follows.next (hF : Follows k e e0 h) (ho : initOf o = none) (ht : trustOf o = none) : Follows k e e0 (h ++ [o]) := by
  have hl : last (h ++ [o]) = last h := by unfold last; rw [inits_other ho]
  have hs : spaces (h ++ [o]) = spaces h := by unfold spaces; rw [inits_other ho]
  have hy : ∀ i, keyOf e0 (h ++ [o]) i = keyOf e0 h i := fun i => by unfold keyOf; rw [inits_other ho]
  refine ⟨hF.kind, hF.live, hF.pos, hF.small, ?_, ?_, ?_, ?_, ?_, ?_, ?_, ?_, ?_⟩
  · rw [hl]; exact hF.type
  · rw [hs]; exact hF.ns
  · rw [hl]; exact hF.bubble
  · rw [hl]; exact hF.cancelable
  · rw [inits_other ho]; exact hF.time
  · rw [hl]; exact hF.isInit
  · rw [lastOf_snoc, ht]; exact hF.trusted
  · rw [hF.own]; unfold stringsOf; rw [hl]; simp only [hy]
  · rw [hF.related]; unfold relatedOf; rw [hl]

/-- A call that takes a reference on a string of the event for the caller. -/
theorem getStr_run {v : Option Addr} (hG : Good k st held loose mine e e0 h) (ho : initOf o = none) (ht : trustOf o = none)
    (hv : ∀ x ∈ v, x ∈ taken k e0 h) (hk : ∀ x, plus held (taken k e0 h) x + 8 < 4294967296) :
    ∃ st', getStr st e v = .ok (st', e, .str v) ∧ Good k st' (plus held v.toList) loose (plus mine []) e e0 (h ++ [o]) ∧ Step st.mem st'.mem := by
  obtain ⟨s1, e1, R1, S1⟩ := refOpt_run (x := v) hG.reach (fun x hx => by have := List.count_pos_iff.2 (hv x hx); simp only [plus]; omega)
    (fun x => by have := hk x; omega)
  refine ⟨⟨s1, st.nodes⟩, by unfold getStr; rw [e1, Out.bind_ok], ?_, S1⟩
  refine hG.next ho (hG.follows.next ho ht) ?_ ?_ S1
  · rw [plus_plus, plus_perm List.perm_append_comm, ← plus_plus] at R1; exact R1
  · rw [plus_nil]; exact hG.nodes

theorem last_mem {a : Args} (hl : last h = some a) : a ∈ inits h := List.mem_of_getLast? hl

theorem type_taken : ∀ x ∈ (last h).bind Args.type, x ∈ taken k e0 h := by
  intro x hx
  cases hl : last h with
  | none => rw [hl] at hx; cases hx
  | some a =>
    rw [hl] at hx
    refine List.mem_append_left _ (List.mem_append_left _ (List.mem_flatMap.2 ⟨a, last_mem hl, ?_⟩))
    rw [given_eq]; exact List.mem_append_left _ (Option.mem_toList.2 hx)

theorem space_taken : ∀ x ∈ (spaces h).getLast?.join, x ∈ taken k e0 h := by
  intro x hx
  cases hl : (spaces h).getLast? with
  | none => rw [hl] at hx; cases hx
  | some y =>
    rw [hl] at hx
    exact List.mem_append_left _ (List.mem_append_right _ (List.mem_flatMap.2 ⟨y, List.mem_of_getLast? hl, Option.mem_toList.2 hx⟩))

theorem own_taken {i : Nat} {v : Option Addr} (hv : (stringsOf k e0 h).getD i none = some v) : ∀ x ∈ v, x ∈ taken k e0 h := by
  intro x hx
  have pick : ∀ {j}, (last h).bind (fun a => a.str j) = some x → (∀ a, a.str j = some x → x ∈ ownGiven k a) → x ∈ taken k e0 h := by
    intro j h1 h2
    cases hl : last h with
    | none => rw [hl] at h1; cases h1
    | some a =>
      rw [hl] at h1
      refine List.mem_append_left _ (List.mem_append_left _ (List.mem_flatMap.2 ⟨a, last_mem hl, ?_⟩))
      rw [given_eq]; exact List.mem_append_right _ (h2 a h1)
  obtain rfl : v = some x := hx
  cases k with
  | text =>
    match i with
    | 0 => exact pick (j := 0) (by simpa [stringsOf] using hv) (fun a ha => by simp [ownGiven, ha])
    | i + 1 => simp [stringsOf] at hv
  | keyboard =>
    match i with
    | 0 => refine List.mem_append_right _ ?_; simp [stringsOf] at hv; simp [hv]
    | 1 => refine List.mem_append_right _ ?_; simp [stringsOf] at hv; simp [hv]
    | i + 2 => simp [stringsOf] at hv
  | mutation =>
    match i with
    | 0 => exact pick (j := 0) (by simpa [stringsOf] using hv) (fun a ha => by simp [ownGiven, ha])
    | 1 => exact pick (j := 1) (by simpa [stringsOf] using hv) (fun a ha => by simp [ownGiven, ha])
    | 2 => exact pick (j := 2) (by simpa [stringsOf] using hv) (fun a ha => by simp [ownGiven, ha])
    | i + 3 => simp [stringsOf] at hv
  | mutationName =>
    match i with
    | 0 => exact pick (j := 0) (by simpa [stringsOf] using hv) (fun a ha => by simp [ownGiven, ha])
    | 1 => exact pick (j := 1) (by simpa [stringsOf] using hv) (fun a ha => by simp [ownGiven, ha])
    | 2 => simp [stringsOf] at hv
    | 3 => simp [stringsOf] at hv
    | 4 => simp [stringsOf] at hv
    | i + 5 => simp [stringsOf] at hv
  | _ => simp [stringsOf] at hv

/-- One call on an event that exists afterwards, too. -/
theorem run_step (hG : Good k st held loose mine e e0 h) (hv : Valid k held mine o) (hk : ∀ x, plus held (taken k e0 h) x + 8 < 4294967296)
    (h1 : o = .unref → 1 < e.refcnt) (h2 : o = .ref → e.refcnt + 1 < 4294967296) :
    (∃ r st' e', said k e0 h o = some r ∧ e.run st o = .ok (st', e', r) ∧ Good k st' (plus held r.refs) loose (plus mine r.nodes) e' e0 (h ++ [o]) ∧
      Step st.mem st'.mem) ∨ (said k e0 h o = none ∧ e.run st o = .fault .uninit) := by
  have hF := hG.follows
  have hrun : e.run st o = perform1 st e o := by unfold Ev.run; rw [hF.live]; rfl
  rw [hrun]
  have idle : ∀ {e' : Ev} {r : Ans}, initOf o = none → Follows k e' e0 (h ++ [o]) → r.refs = [] → r.nodes = [] →
      Good k st (plus held r.refs) loose (plus mine r.nodes) e' e0 (h ++ [o]) ∧ Step st.mem st.mem := by
    intro e' r ho hF' q1 q2
    rw [q1, q2, plus_nil, plus_nil]
    exact ⟨hG.next ho hF' hG.reach hG.nodes (Step.refl _), Step.refl _⟩
  have flag : ∀ {f : Option Bool}, initOf o = none → trustOf o = none → said k e0 h o = f.map .bool → perform1 st e o = (do let b ← rd f; Out.ok (st, e, Ans.bool b)) →
      (∃ r st' e', said k e0 h o = some r ∧ perform1 st e o = .ok (st', e', r) ∧
        Good k st' (plus held r.refs) loose (plus mine r.nodes) e' e0 (h ++ [o]) ∧ Step st.mem st'.mem) ∨
      (said k e0 h o = none ∧ perform1 st e o = .fault .uninit) := by
    intro f q1 q2 q3 q4
    rw [q3, q4]
    cases f with
    | none => exact Or.inr ⟨rfl, rfl⟩
    | some b => exact Or.inl ⟨.bool b, st, e, rfl, rfl, idle q1 (hF.next q1 q2) rfl rfl⟩
  cases o with
  | ref =>
    have hs : u32 (e.refcnt + 1) = e.refcnt + 1 := u32_small (h2 rfl)
    refine Or.inl ⟨.none, st, _, rfl, rfl, idle rfl ?_ rfl rfl⟩
    have := hF.next (o := .ref) rfl rfl
    exact { this with pos := by dsimp only; omega, small := by dsimp only; rw [hs]; exact h2 rfl }
  | unref =>
    have h3 := h1 rfl
    refine Or.inl ⟨.none, st, { e with refcnt := e.refcnt - 1 }, rfl, ?_, idle rfl ?_ rfl rfl⟩
    · show (do let (st, e) ← unrefEv st e; Out.ok (st, e, Ans.none)) = _
      have : unrefEv st e = .ok (st, { e with refcnt := e.refcnt - 1 }) := by
        unfold unrefEv
        rw [if_pos (by omega : e.refcnt > 0)]
        dsimp only
        rw [if_neg (by omega)]
      rw [this]; rfl
    · have := hF.next (o := .unref) rfl rfl
      have h4 := hF.small
      exact { this with pos := by dsimp only; omega, small := by dsimp only; omega }
  | init a =>
    obtain ⟨st', e', q1, q2, q3⟩ := init_run hG hv.1 hk
    refine Or.inl ⟨.none, st', e', rfl, ?_, ?_, q3⟩
    · show (do let (st, e) ← Obj.init st e a; Out.ok (st, e, Ans.none)) = _
      rw [q1]; rfl
    · show Good k st' (plus held []) loose (plus mine []) e' e0 _
      rw [plus_nil, plus_nil]; exact q2
  | getType =>
    obtain ⟨st', q1, q2, q3⟩ := getStr_run (o := .getType) hG rfl rfl type_taken hk
    exact Or.inl ⟨_, st', e, rfl, by show getStr st e e.type = _; rw [hF.type]; exact q1, q2, q3⟩
  | getNamespace =>
    obtain ⟨st', q1, q2, q3⟩ := getStr_run (o := .getNamespace) hG rfl rfl space_taken hk
    exact Or.inl ⟨_, st', e, rfl, by show getStr st e e.ns = _; rw [hF.ns]; exact q1, q2, q3⟩
  | getBubbles => exact flag (f := ((last h).map Args.bubble).or (blank k false)) rfl rfl rfl (by rw [← hF.bubble]; rfl)
  | getCancelable => exact flag (f := ((last h).map Args.cancelable).or (blank k false)) rfl rfl rfl (by rw [← hF.cancelable]; rfl)
  | getTime =>
    have hs : said k e0 h .getTime = e.time.map .num := by rw [hF.time]; rfl
    rw [hs]
    show (∃ r st' e', e.time.map Ans.num = some r ∧ (do let n ← rd e.time; Out.ok (st, e, Ans.num n)) = _ ∧ _ ∧ _) ∨
      (_ ∧ (do let n ← rd e.time; Out.ok (st, e, Ans.num n)) = _)
    cases e.time with
    | none => exact Or.inr ⟨rfl, rfl⟩
    | some b => exact Or.inl ⟨.num b, st, e, rfl, rfl, idle rfl (hF.next rfl rfl) rfl rfl⟩
  | isInitialised => exact flag (f := some (last h).isSome) rfl rfl rfl (by rw [← hF.isInit]; rfl)
  | getTrusted => exact flag (f := some ((lastOf trustOf h).getD true)) rfl rfl rfl (by rw [← hF.trusted]; rfl)
  | setTrusted b =>
    refine Or.inl ⟨.none, st, { e with trusted := b }, rfl, rfl, idle rfl ?_ rfl rfl⟩
    obtain ⟨g1, g2, g3, g4, g5, g6, g7, g8, g9, g10, g11, g12, g13⟩ := hF
    have hl : last (h ++ [.setTrusted b]) = last h := by unfold last; rw [inits_other rfl]
    have hs : spaces (h ++ [.setTrusted b]) = spaces h := by unfold spaces; rw [inits_other rfl]
    have hy : ∀ i, keyOf e0 (h ++ [.setTrusted b]) i = keyOf e0 h i := fun i => by unfold keyOf; rw [inits_other rfl]
    refine ⟨g1, g2, g3, g4, ?_, ?_, ?_, ?_, ?_, ?_, ?_, ?_, ?_⟩
    · rw [hl]; exact g5
    · rw [hs]; exact g6
    · rw [hl]; exact g7
    · rw [hl]; exact g8
    · rw [inits_other rfl]; exact g9
    · rw [hl]; exact g10
    · rw [lastOf_snoc]; rfl
    · show e.own = _
      rw [g12]; unfold stringsOf; rw [hl]; simp only [hy]
    · show e.related = _
      rw [g13]; unfold relatedOf; rw [hl]
  | getString i =>
    have hs : said k e0 h (.getString i) = ((stringsOf k e0 h).getD i none).map .str := rfl
    have hp : perform1 st e (.getString i) = (do let v ← rd ((stringsOf k e0 h).getD i none); getStr st e v) := by rw [← hF.own]; rfl
    rw [hs, hp]
    cases hx : (stringsOf k e0 h).getD i none with
    | none => exact Or.inr ⟨rfl, rfl⟩
    | some v =>
      obtain ⟨st', q1, q2, q3⟩ := getStr_run (o := .getString i) hG rfl rfl (own_taken hx) hk
      exact Or.inl ⟨_, st', e, rfl, q1, q2, q3⟩
  | getRelated =>
    have hp : perform1 st e .getRelated = (do let n ← rd (relatedOf k h); Out.ok (⟨st.mem, refNode st.nodes n⟩, e, Ans.node n)) := by rw [← hF.related]; rfl
    rw [hp]
    show (∃ r st' e', (relatedOf k h).map Ans.node = some r ∧ _) ∨ ((relatedOf k h).map Ans.node = none ∧ _)
    cases relatedOf k h with
    | none => exact Or.inr ⟨rfl, rfl⟩
    | some n =>
      refine Or.inl ⟨.node n, ⟨st.mem, refNode st.nodes n⟩, e, rfl, rfl, ?_, Step.refl _⟩
      refine hG.next rfl (hF.next rfl rfl) ?_ (fun m => ?_) (Step.refl _)
      · show Reach st.mem (plus (plus held []) _) loose
        rw [plus_nil]; exact hG.reach
      · show refNode st.nodes n m = plus (plus mine n.toList) _ m
        rw [refNode_eq]; simp only [plus]; rw [hG.nodes m]; simp only [plus]; omega

theorem create_run (hR : Reach s held loose) (hk : ∀ x, held x + 8 < 4294967296) :
    ∃ s' e, create s k = .ok (s', e) ∧ Good k ⟨s', mine⟩ held loose mine e s.fresh [] ∧ Step s s' := by
  have nothing : ∀ {k}, k ≠ .keyboard → create s k = .ok (s, base k (stringsOf k s.fresh []) (relatedOf k [])) →
      ∃ s' e, create s k = .ok (s', e) ∧ Good k ⟨s', mine⟩ held loose mine e s.fresh [] ∧ Step s s' := by
    intro k hne he
    refine ⟨s, _, he, ⟨⟨rfl, rfl, Nat.one_pos, (by show 1 < 4294967296; decide), rfl, rfl, by simp [last, inits, base], by simp [last, inits, base], by simp [lastOf, inits, base], rfl, rfl, rfl,
      rfl⟩, ?_, fun n => ?_, Or.inr hne, fun h => absurd h hne⟩, Step.refl s⟩
    · have : taken k s.fresh [] = [] := by simp [taken, inits, spaces, hne]
      rw [this, plus_nil]; exact hR
    · have : takenNodes k [] = [] := rfl
      rw [this, plus_nil]
  cases k with
  | keyboard =>
    obtain ⟨s1, e1, R1, S1, B1, Z1⟩ := (new_run hR []).1
    obtain ⟨s2, e2, R2, S2⟩ := ref_run (a := s.fresh) R1 (by simp [plus]) (by have := hk s.fresh; simp [plus]; omega)
    rw [plus_plus] at R2
    have hlt : s.fresh < s1.fresh := by
      have := R1.inv
      cases ho : s1.strs s.fresh with
      | none => have := this.dead _ ho; simp [plus] at this
      | some o => exact this.bStr _ o ho
    refine ⟨s2, base .keyboard [some (some s.fresh), some (some s.fresh)] (some none), ?_, ⟨⟨rfl, rfl, Nat.one_pos, (by show 1 < 4294967296; decide), rfl, rfl, rfl, rfl, rfl, rfl, rfl, rfl, rfl⟩,
      R2, fun n => ?_, Or.inl (Nat.lt_of_lt_of_le hlt S2.fresh), fun _ h1 => ?_⟩, S1.trans hR.inv S2⟩
    · unfold create; rw [e1, Out.bind_ok]; dsimp only; rw [e2, Out.bind_ok]
    · show _ = plus mine [] n; rw [plus_nil]
    · exact keep R1 R2 S2 B1 h1
  | _ => exact nothing (fun h => nomatch h) rfl

theorem Hist.good (hH : Hist k st held loose mine e e0 h) : Good k st held loose mine e e0 h := by
  induction hH with
  | start hR hk hc =>
    obtain ⟨s', e', q1, q2, _⟩ := create_run (mine := _) hR hk
    rw [hc] at q1; cases q1; exact q2
  | string _ ha hk hp ih =>
    obtain ⟨s1, r1, q1, R1, S1, _⟩ := step_of ih.reach (allowed_plus ha hk)
    rw [hp] at q1; cases q1
    rw [heldAfter_plus ha] at R1
    refine ⟨ih.follows, R1, ih.nodes, ?_, fun hkk h1 => ?_⟩
    · rcases ih.old with h1 | h1
      · exact Or.inl (Nat.lt_of_lt_of_le h1 S1.fresh)
      · exact Or.inr h1
    · exact empty_step ih.reach R1 S1 (ih.old.resolve_right (fun h => h hkk)) (ih.empty hkk) h1
  | node mine' _ ih =>
    exact ⟨ih.follows, ih.reach, fun n => by dsimp only; rw [ih.nodes n]; simp only [plus]; omega, ih.old, ih.empty⟩
  | op _ hv hk h1 h2 hr ih =>
    rcases run_step ih hv hk h1 h2 with ⟨r, st', e', _, q2, q3, _⟩ | ⟨_, q2⟩
    · rw [hr] at q2; cases q2; exact q3
    · rw [hr] at q2; cases q2

/-! ## The end of an event -/

theorem last_part {α : Type} (f : α → List Addr) (l : List α) (x : Addr) : (l.flatMap f).count x = (l.dropLast.flatMap f).count x + (l.getLast?.elim [] f).count x := by
  rcases List.eq_nil_or_concat l with rfl | ⟨l', y, rfl⟩
  · rfl
  · simp [List.flatMap_append, List.count_append]

/-- The strings of the derived type, as references. -/
theorem fields_of (hF : Follows k e e0 h) : ∃ xs : List (Option Addr),
    (if k = .mutationName then e.own.take 2 else e.own) = xs.map some ∧
      ∀ x, (xs.flatMap Option.toList).count x = ((last h).elim [] (ownGiven k)).count x + (keys k e0 h).count x := by
  rw [hF.own]
  cases k with
  | text => refine ⟨[(last h).bind fun a => a.str 0], rfl, fun x => ?_⟩; cases last h <;> simp [ownGiven, keys]
  | keyboard => refine ⟨[some (keyOf e0 h 0), some (keyOf e0 h 1)], rfl, fun x => ?_⟩; cases last h <;> simp [ownGiven, keys]
  | mutation =>
    refine ⟨[(last h).bind fun a => a.str 0, (last h).bind fun a => a.str 1, (last h).bind fun a => a.str 2], rfl, fun x => ?_⟩
    cases last h <;> simp [ownGiven, keys]
  | mutationName =>
    refine ⟨[(last h).bind fun a => a.str 0, (last h).bind fun a => a.str 1], rfl, fun x => ?_⟩
    cases last h <;> simp [ownGiven, keys]
  | _ => refine ⟨[], rfl, fun x => ?_⟩; cases last h <;> simp [ownGiven, keys]

theorem destroy_run (hG : Good k st held loose mine e e0 h) : ∃ st' e', destroy st e = .ok (st', e') ∧ e'.freed = true ∧
    Reach st'.mem (plus held (lost k h)) loose ∧ (∀ n, st'.nodes n = plus mine (lostNodes k h) n) ∧ Step st.mem st'.mem := by
  have hF := hG.follows
  obtain ⟨xs, hx, hc⟩ := fields_of hF
  have hR : Reach st.mem (plus held (xs.flatMap Option.toList ++ (e.type.toList ++ (e.ns.toList ++ lost k h)))) loose := by
    refine (plus_of_count (fun x => ?_) : plus held _ = plus held _) ▸ hG.reach
    have h1 := last_part (given k) (inits h) x
    have h2 := last_part Option.toList (spaces h) x
    have h3 : ((inits h).getLast?.elim [] (given k)).count x = ((last h).elim [] (ownGiven k)).count x + e.type.toList.count x := by
      rw [hF.type]
      show ((last h).elim [] (given k)).count x = _
      cases last h with
      | none => rfl
      | some a => show (given k a).count x = (ownGiven k a).count x + a.type.toList.count x; rw [given_eq, List.count_append]; omega
    have h4 : ((spaces h).getLast?.elim [] Option.toList) = e.ns.toList := by
      rw [hF.ns]; cases (spaces h).getLast? with
      | none => rfl
      | some y => rfl
    rw [split_taken]
    simp only [List.count_append, lost, hc x]
    rw [h4] at h2
    omega
  obtain ⟨s1, q1, R1, S1⟩ := unrefFields_run hR
  obtain ⟨s2, q2, R2, S2⟩ := unrefOpt_run R1
  obtain ⟨s3, q3, R3, S3⟩ := unrefOpt_run R2
  have hfin : ∃ nodes', finaliseOwn st e = .ok ⟨s1, nodes'⟩ ∧ ∀ n, nodes' n = plus mine (lostNodes k h) n := by
    have quiet : ∀ {k}, k ≠ .mutation → k ≠ .mutationName → (∀ n, st.nodes n = plus mine (takenNodes k h) n) → ∀ n, st.nodes n = plus mine (lostNodes k h) n := by
      intro k n1 n2 hn n
      have z : ∀ a, nodesOf k a = [] := fun a => by unfold nodesOf; rw [if_neg (by rintro (h | h); exacts [n1 h, n2 h])]
      rw [hn n]
      have e1 : takenNodes k h = [] := by unfold takenNodes; rw [List.flatMap_eq_nil_iff]; exact fun a _ => z a
      have e2 : lostNodes k h = [] := by unfold lostNodes; rw [if_neg n2, List.flatMap_eq_nil_iff]; exact fun a _ => z a
      rw [e1, e2]
    have hn := hG.nodes
    have hkd := hF.kind
    have hrel := hF.related
    unfold finaliseOwn
    rw [hkd]
    cases k with
    | mutation =>
      rw [if_neg (by decide)] at hx
      have hr : e.related.join = (last h).bind Args.node := by rw [hrel]; rfl
      have hcnt : ∀ n, st.nodes n = plus mine (lostNodes .mutation h) n + ((last h).bind Args.node).toList.count n := by
        intro n
        rw [hn n]
        have h5 := last_part (nodesOf .mutation) (inits h) n
        have h6 : ((inits h).getLast?.elim [] (nodesOf .mutation)) = ((last h).bind Args.node).toList := by
          show ((last h).elim [] (nodesOf .mutation)) = _
          cases last h <;> rfl
        rw [h6] at h5
        simp only [plus, takenNodes, lostNodes, reduceCtorEq, if_false]
        omega
      refine ⟨fun n => plus mine (lostNodes .mutation h) n, ?_, fun n => rfl⟩
      dsimp only
      rw [hr]
      have hu : unrefNode st.nodes ((last h).bind Args.node) = .ok (fun n => plus mine (lostNodes .mutation h) n) := by
        cases hb : (last h).bind Args.node with
        | none =>
          show Out.ok st.nodes = _
          congr 1; funext n; rw [hcnt n, hb]; rfl
        | some m =>
          have hm := hcnt m
          rw [hb] at hm
          simp only [Option.toList_some, List.count_singleton_self] at hm
          show (if st.nodes m = 0 then _ else _) = _
          rw [if_neg (by omega)]
          congr 1; funext n
          by_cases e1 : n = m
          · subst e1; rw [upd_same]; omega
          · rw [upd_ne e1, hcnt n, hb]; simp [List.count_singleton, Ne.symm e1]
      rw [hu, Out.bind_ok, hx, q1, Out.bind_ok]
    | mutationName =>
      rw [if_pos rfl] at hx
      refine ⟨st.nodes, ?_, fun n => by rw [hn n]; rfl⟩
      dsimp only
      rw [hx, q1, Out.bind_ok]
    | _ =>
      rw [if_neg (fun h => nomatch h)] at hx
      refine ⟨st.nodes, ?_, quiet (fun h => nomatch h) (fun h => nomatch h) hn⟩
      dsimp only
      rw [hx, q1, Out.bind_ok]
  obtain ⟨nodes', q4, hn'⟩ := hfin
  refine ⟨⟨s3, nodes'⟩, { e with type := none, ns := none, freed := true }, ?_, rfl, R3, hn', (S1.trans hR.inv S2).trans hR.inv S3⟩
  unfold destroy
  rw [q4, Out.bind_ok]; dsimp only
  rw [q2, Out.bind_ok, q3, Out.bind_ok]

/-! ## The theorems -/

/-- C74, as far as it holds: after every history of an event every call on it that reads a field written before succeeds and returns what the last initialisation said, with a
reference for the caller on a string or node; strings that are still referenced keep their bytes.  Missing: a call can read a field that was never written
(`C74_unwritten_violated`, `C74_time_violated`); the namespace and `key` and `code` are those of the last initialisation that gave one (`C74_namespace_violated`); initialising again loses
references (`C74_again_violated`). -/
theorem C74_event_partial (hH : Hist k st held loose mine e e0 h) (hv : Valid k held mine o) (hk : ∀ x, plus held (taken k e0 h) x + 8 < 4294967296)
    (h1 : o = .unref → 1 < e.refcnt) (h2 : o = .ref → e.refcnt + 1 < 4294967296) :
    (∀ r, said k e0 h o = some r → ∃ st' e', e.run st o = .ok (st', e', r) ∧
      Hist k st' (plus held r.refs) loose (plus mine r.nodes) e' e0 (h ++ [o]) ∧
      ∀ x t, 0 < plus (plus held r.refs) (taken k e0 (h ++ [o])) x → strBytes st.mem x = .ok t → strBytes st'.mem x = .ok t) ∧
    (said k e0 h o = none → e.run st o = .fault .uninit) := by
  have hG := hH.good
  rcases run_step hG hv hk h1 h2 with ⟨r, st', e', q1, q2, q3, S⟩ | ⟨q1, q2⟩
  · refine ⟨fun r' hr => ?_, fun hr => by rw [q1] at hr; cases hr⟩
    rw [q1] at hr; cases hr
    exact ⟨st', e', q2, hH.op hv hk h1 h2 q2, fun x t hx hb => keep hG.reach q3.reach S hb hx⟩
  · exact ⟨fun r hr => absurd (q1.symm.trans hr) (fun h => nomatch h), fun _ => q2⟩

/-- C74: `key` and `code` of a keyboard event are empty before the first is given: the string `e0` of `keyOf` is empty as long as it exists. -/
theorem C74_keyboard (hH : Hist .keyboard st held loose mine e e0 h) (h0 : 0 < plus held (taken .keyboard e0 h) e0) : strBytes st.mem e0 = .ok [] :=
  hH.good.empty rfl h0

/-- C74: creating an event of any type succeeds in every state, and begins a history. -/
theorem C74_create (hR : Reach s held loose) (hk : ∀ x, held x + 8 < 4294967296) : ∃ s' e, create s k = .ok (s', e) ∧ e.kind = k ∧
    Hist k ⟨s', mine⟩ held loose mine e s.fresh [] := by
  obtain ⟨s', e, q1, q2, _⟩ := create_run (k := k) (mine := mine) hR hk
  exact ⟨s', e, q1, q2.follows.kind, Hist.start hR hk q1⟩

/-- The last reference on the event is given up. -/
theorem release_run (hG : Good k st held loose mine e e0 h) (h1 : e.refcnt = 1) : ∃ st' e', e.run st .unref = .ok (st', e', .none) ∧ e'.freed = true ∧
    Reach st'.mem (plus held (lost k h)) loose ∧ ∀ n, st'.nodes n = plus mine (lostNodes k h) n := by
  have hG' : Good k st held loose mine { e with refcnt := 0 } e0 h → False := fun g => Nat.lt_irrefl _ g.follows.pos
  have hd : ∃ st' e', destroy st { e with refcnt := 0 } = .ok (st', e') ∧ e'.freed = true ∧ Reach st'.mem (plus held (lost k h)) loose ∧
      ∀ n, st'.nodes n = plus mine (lostNodes k h) n := by
    obtain ⟨st', e', q1, q2, q3, q4, _⟩ := destroy_run hG
    have : destroy st { e with refcnt := 0 } = destroy st e >>= fun p => .ok (p.1, { p.2 with refcnt := 0 }) := by
      unfold destroy
      have : finaliseOwn st { e with refcnt := 0 } = finaliseOwn st e := rfl
      rw [this]
      cases finaliseOwn st e with
      | ok s1 =>
        simp only [Out.bind_ok]
        cases unrefOpt s1.mem e.type with
        | ok s2 => simp only [Out.bind_ok]; cases unrefOpt s2 e.ns <;> rfl
        | _ => rfl
      | _ => rfl
    rw [this, q1, Out.bind_ok]
    exact ⟨st', { e' with refcnt := 0 }, rfl, q2, q3, q4⟩
  obtain ⟨st', e', q1, q2, q3, q4⟩ := hd
  refine ⟨st', e', ?_, q2, q3, q4⟩
  have hrun : e.run st .unref = perform1 st e .unref := by unfold Ev.run; rw [hG.follows.live]; rfl
  rw [hrun]
  show (do let (st, e) ← unrefEv st e; Out.ok (st, e, Ans.none)) = _
  have : unrefEv st e = .ok (st', e') := by
    unfold unrefEv
    rw [h1]
    exact q1
  rw [this]; rfl

/-- C74, as far as it holds: when the last reference on an event is given up, the event is destroyed and what is left are the client's references; unless the event was initialised
more than once, or is a mutation name event with a related node.  Missing: these (`C74_again_violated`, `C74_name_node_violated`). -/
theorem C74_release_partial (hH : Hist k st held loose mine e e0 h) (h1 : e.refcnt = 1) (h2 : (inits h).length ≤ 1)
    (h3 : k = .mutationName → ∀ a ∈ inits h, a.node = none) :
    ∃ st' e', e.run st .unref = .ok (st', e', .none) ∧ e'.freed = true ∧ Reach st'.mem held loose ∧ st'.nodes = mine := by
  obtain ⟨st', e', q1, q2, q3, q4⟩ := release_run hH.good h1
  have hd : (inits h).dropLast = [] := by
    match inits h, h2 with
    | [], _ => rfl
    | [_], _ => rfl
  have hs : (spaces h).dropLast = [] := by
    have : (spaces h).length ≤ 1 := Nat.le_trans (List.length_filterMap_le _ _) h2
    match spaces h, this with
    | [], _ => rfl
    | [_], _ => rfl
  have hl : lost k h = [] := by unfold lost; rw [hd, hs]; rfl
  have hn : lostNodes k h = [] := by
    unfold lostNodes
    split_ifs with hk
    · unfold takenNodes
      rw [List.flatMap_eq_nil_iff]
      intro a ha
      unfold nodesOf; rw [h3 hk a ha]; simp
    · rw [hd]; rfl
  rw [hl, plus_nil] at q3
  refine ⟨st', e', q1, q2, q3, ?_⟩
  funext n; rw [q4 n, hn, plus_nil]

/-! ## The names of the types -/

/-- The name of a type, DOM Level 3 Events and libdom's own types. -/
def label : Kind → String
  | .event => "Event"
  | .custom => "CustomEvent"
  | .ui => "UIEvent"
  | .text => "TextEvent"
  | .keyboard => "KeyboardEvent"
  | .mouse => "MouseEvent"
  | .multiWheel => "MouseMultiWheelEvent"
  | .wheel => "MouseWheelEvent"
  | .mutation => "MutationEvent"
  | .mutationName => "MutationNameEvent"

/-- Its bytes. -/
def bytes (k : Kind) : Bytes := (label k).toUTF8.toList

/-- The document has the names of the types, in their order. -/
def Named (s : Mem) (names : List Addr) : Prop := names.map (fun l => (s.lwcs l).map LObj.bytes) = kinds.map fun k => some (bytes k)

theorem names_eq : typeNames = kinds.map label := by decide

theorem mem_kinds (k : Kind) : k ∈ kinds := by cases k <;> decide

theorem kinds_split (k : Kind) : ∃ n, kinds = kinds.take n ++ k :: kinds.drop (n + 1) ∧ k ∉ kinds.take n ∧ kinds[n]? = some k ∧ (kinds.take n).length = n :=
  ⟨kinds.idxOf k, by cases k <;> decide⟩

theorem bytes_inj {k k' : Kind} (hb : bytes k = bytes k') : k = k' := by
  revert hb; cases k <;> cases k' <;> decide +kernel

theorem lwc_keep {loose' : Addr → Nat} {l : Addr} {x : LObj} (hR : Reach s' held loose') (S : Step s s') (hx : s.lwcs l = some x) (h0 : 0 < loose' l) :
    (s'.lwcs l).map LObj.bytes = some x.bytes := by
  rcases S.bytes l x hx with h1 | ⟨x', h1, h2⟩
  · exact absurd (hR.inv.gone l h1) (Nat.pos_iff_ne_zero.1 h0)
  · rw [h1, ← h2]; rfl

theorem intern_run (hR : Reach s held loose) (b : Bytes) : ∃ s' l x, lwcIntern s b = .ok (s', l) ∧ Reach s' held (plus loose [l]) ∧ Step s s' ∧ s'.lwcs l = some x ∧
    x.bytes = b := by
  obtain ⟨s', l, x, q1, q2, q3, _, S, _⟩ := hR.inv.lwcIntern b
  refine ⟨s', l, x, q1, ?_, S, q2, q3⟩
  have := hR.call (c := .internBytes b) trivial q1
  exact (Html.Create.upd_plus loose l) ▸ this

theorem internAll_run {ns : List String} (hR : Reach s held loose) : ∃ s' ls, internAll s ns = .ok (s', ls) ∧ Reach s' held (plus loose ls) ∧ Step s s' ∧
    ls.map (fun l => (s'.lwcs l).map LObj.bytes) = ns.map fun n => some n.toUTF8.toList := by
  induction ns generalizing s loose with
  | nil => exact ⟨s, [], rfl, by rw [plus_nil]; exact hR, Step.refl s, rfl⟩
  | cons n ns ih =>
    obtain ⟨s1, l, x, q1, R1, S1, hx, hb⟩ := intern_run hR n.toUTF8.toList
    obtain ⟨s2, ls, q2, R2, S2, hm⟩ := ih R1
    refine ⟨s2, l :: ls, by unfold internAll; rw [q1, Out.bind_ok]; dsimp only; rw [q2, Out.bind_ok], by rw [plus_plus] at R2; exact R2, S1.trans hR.inv S2, ?_⟩
    rw [List.map_cons, List.map_cons, hm, lwc_keep R2 S2 hx (by simp [plus]), hb]

/-- C74: a new document has the names of all types; it holds one reference on each. -/
theorem C74_names (hR : Reach s held loose) : ∃ s' names, internAll s typeNames = .ok (s', names) ∧ Reach s' held (plus loose names) ∧ Named s' names := by
  obtain ⟨s', ls, q1, q2, _, q3⟩ := internAll_run (ns := typeNames) hR
  refine ⟨s', ls, q1, q2, ?_⟩
  unfold Named
  rw [q3, names_eq, List.map_map]; rfl

/-- C74: a document that is destroyed gives these references back. -/
theorem C74_names_released {names : List Addr} (hR : Reach s held (plus loose names)) : ∃ s', unrefAll s names = .ok s' ∧ Reach s' held loose := by
  induction names generalizing s with
  | nil => exact ⟨s, rfl, by rw [plus_nil] at hR; exact hR⟩
  | cons l ls ih =>
    have h0 : 0 < plus loose (l :: ls) l := by simp [plus]
    obtain ⟨s1, r1, q1, R1, _⟩ := step_of (c := .lwcUnref l) hR h0
    have e1 : ∃ s2, lwcUnref s l = .ok s2 ∧ (s2, l) = (s1, r1) := by
      have : (do let s ← lwcUnref s l; Out.ok (s, l)) = Out.ok (s1, r1) := q1
      cases hl : lwcUnref s l with
      | ok s2 => rw [hl, Out.bind_ok] at this; exact ⟨s2, rfl, Out.ok.inj this⟩
      | _ => rw [hl] at this; cases this
    obtain ⟨s2, e2, e3⟩ := e1
    cases e3
    have R2 : Reach s1 held (plus loose ls) := (Html.Create.upd_minus loose l ls) ▸ R1
    obtain ⟨s3, q3, R3⟩ := ih R2
    exact ⟨s3, by unfold unrefAll; rw [e2, Out.bind_ok]; exact q3, R3⟩

theorem findType_run {t : Addr} {x : LObj} (hR : Reach s held loose) (hx : s.lwcs t = some x) {ks : List Kind} {ls : List Addr} {i : Nat}
    (hm : ls.map (fun l => (s.lwcs l).map LObj.bytes) = ks.map fun k => some (bytes k)) :
    (∀ pre k post, ks = pre ++ k :: post → k ∉ pre → x.bytes = bytes k → findType t i ls = i + pre.length) ∧
    ((∀ k ∈ ks, x.bytes ≠ bytes k) → findType t i ls = 0) := by
  induction ks generalizing ls i with
  | nil =>
    cases ls with
    | nil => exact ⟨fun pre k post h => by simp at h, fun _ => rfl⟩
    | cons l ls => cases hm
  | cons k0 ks ih =>
    cases ls with
    | nil => cases hm
    | cons l ls =>
      simp only [List.map_cons, List.cons.injEq] at hm
      obtain ⟨hl, hm⟩ := hm
      obtain ⟨i1, i2⟩ := ih (i := i + 1) hm
      have key : l = t ↔ x.bytes = bytes k0 := by
        obtain ⟨y, hy, hb⟩ := Option.map_eq_some_iff.1 hl
        constructor
        · intro h; subst h; rw [hx] at hy; cases hy; exact hb
        · intro h; exact hR.inv.uniq l t y x hy hx (by rw [hb, h])
      refine ⟨fun pre k post h1 h2 h3 => ?_, fun h1 => ?_⟩
      · cases pre with
        | nil =>
          cases h1
          show (if l = t then i else _) = _
          rw [if_pos (key.2 h3)]; rfl
        | cons p pre =>
          obtain ⟨h4, h5⟩ := List.cons.inj h1
          subst h4
          have hne : ¬ l = t := fun h => h2 (by rw [bytes_inj (h3.symm.trans (key.1 h))]; exact List.mem_cons_self)
          show (if l = t then i else findType t (i + 1) ls) = _
          rw [if_neg hne, i1 pre k post h5 (fun h => h2 (List.mem_cons_of_mem _ h)) h3, List.length_cons]; omega
      · have hne : ¬ l = t := fun h => h1 k0 List.mem_cons_self (key.1 h)
        show (if l = t then i else findType t (i + 1) ls) = _
        rw [if_neg hne, i2 fun k hk => h1 k (List.mem_cons_of_mem _ hk)]

/-- Creating an event by the name of its type. -/
theorem createEvent_run {names : List Addr} {type : Addr} {t : Bytes} (hR : Reach s held (plus loose names)) (hN : Named s names) (hk : ∀ x, held x + 8 < 4294967296)
    (hb : strBytes s type = .ok t) : ∃ s' e e0 k, createEvent s names type = .ok (s', e) ∧ Hist k ⟨s', mine⟩ held (plus loose names) mine e e0 [] ∧ Named s' names ∧
      (∀ k', t = bytes k' → k = k') ∧ ((∀ k', t ≠ bytes k') → k = .event) := by
  have h0 : 0 < held type := Html.Create.held_of_bytes hR hb
  obtain ⟨s1, l, q1, I1, S1, _, N1, _⟩ := perform_inv (c := .intern type) hR.inv h0
  have R1 : Reach s1 held (upd (plus loose names) l (plus loose names l + 1)) := hR.call (c := .intern type) h0 q1
  have q1' : strIntern s type = .ok (s1, l) := q1
  obtain ⟨x, hx, ht⟩ := N1 type rfl
  have htx : t = x.bytes := by
    have := (text_bytes hR.inv).1 ht
    rw [hb] at this; exact Out.ok.inj this
  have hl0 : 0 < upd (plus loose names) l (plus loose names l + 1) l := by rw [upd_same]; omega
  obtain ⟨s2, r2, q2, R2, S2, _⟩ := step_of (c := .lwcUnref l) R1 hl0
  have e2 : lwcUnref s1 l = .ok s2 := by
    have : (do let s ← lwcUnref s1 l; Out.ok (s, l)) = Out.ok (s2, r2) := q2
    cases hl : lwcUnref s1 l with
    | ok s3 => rw [hl, Out.bind_ok] at this; cases this; rfl
    | _ => rw [hl] at this; cases this
  have R2' : Reach s2 held (plus loose names) := by
    have : upd (upd (plus loose names) l (plus loose names l + 1)) l (upd (plus loose names) l (plus loose names l + 1) l - 1) = plus loose names := by
      funext y
      by_cases hy : y = l
      · subst hy; rw [upd_same, upd_same]; omega
      · rw [upd_ne hy, upd_ne hy]
    exact this ▸ R2
  have named : ∀ {s3 : Mem} {he lo : Addr → Nat}, Reach s3 he lo → Step s s3 → (∀ y ∈ names, 0 < lo y) → Named s3 names := by
    intro s3 he lo R3 S3 hp
    unfold Named at hN ⊢
    rw [← hN]
    refine List.map_congr_left fun y hy => ?_
    obtain ⟨z, hz⟩ := hR.inv.lwcAlive (l := y) (by have := List.count_pos_iff.2 hy; simp only [plus]; omega)
    rw [lwc_keep R3 S3 hz (hp y hy), hz]; rfl
  have posn : ∀ y ∈ names, 0 < plus loose names y := fun y hy => by have := List.count_pos_iff.2 hy; simp only [plus]; omega
  have hN1 : Named s1 names := named R1 S1 (fun y hy => by
    by_cases e1 : y = l
    · rw [e1, upd_same]; omega
    · rw [upd_ne e1]; exact posn y hy)
  obtain ⟨f1, f2⟩ := findType_run R1 hx (i := 0) hN1
  have hcase : ∃ k, kinds[findType l 0 names]? = some k ∧ (∀ k', t = bytes k' → k = k') ∧ ((∀ k', t ≠ bytes k') → k = .event) := by
    by_cases hex : ∃ k', t = bytes k'
    · obtain ⟨k, hk'⟩ := hex
      refine ⟨k, ?_, fun k' h => bytes_inj (hk'.symm.trans h), fun h => absurd hk' (h k)⟩
      obtain ⟨n, n1, n2, n3, n4⟩ := kinds_split k
      rw [f1 _ k _ n1 n2 (htx.symm.trans hk'), n4, Nat.zero_add]; exact n3
    · refine ⟨.event, ?_, fun k' h => absurd ⟨k', h⟩ hex, fun _ => rfl⟩
      rw [f2 fun k _ h => hex ⟨k, htx.trans h⟩]; rfl
  obtain ⟨k, c1, c2, c3⟩ := hcase
  obtain ⟨s3, e, q3, q4, q5⟩ := create_run (k := k) (mine := mine) R2' hk
  refine ⟨s3, e, s2.fresh, k, ?_, Hist.start R2' hk q3, ?_, c2, c3⟩
  · unfold createEvent
    rw [q1', Out.bind_ok]; dsimp only
    rw [e2, Out.bind_ok]
    unfold createKind; rw [c1]; exact q3
  · exact named q4.reach ((S1.trans hR.inv S2).trans hR.inv q5) posn

/-- C74, as far as it holds: `createEvent` with the name of a type makes an event of that type, and begins a history.  Missing: other names are not refused (`C74_unknown_violated`). -/
theorem C74_create_event_partial {names : List Addr} {type : Addr} (hR : Reach s held (plus loose names)) (hN : Named s names) (hk : ∀ x, held x + 8 < 4294967296)
    (hb : strBytes s type = .ok (bytes k)) : ∃ s' e e0, createEvent s names type = .ok (s', e) ∧ e.kind = k ∧ Named s' names ∧
      Hist k ⟨s', mine⟩ held (plus loose names) mine e e0 [] := by
  obtain ⟨s', e, e0, k', q1, q2, q3, q4, _⟩ := createEvent_run (mine := mine) hR hN hk hb
  obtain rfl := q4 k rfl
  exact ⟨s', e, e0, q1, q2.good.follows.kind, q3, q2⟩

/-! ## Concrete histories -/

/-- `Valid`, computed. -/
def validB (k : Kind) (held mine : Nat → Nat) : Op → Bool
  | .init a => (a.strs.all fun x => decide (0 < held x)) && a.node.toList.all fun n => decide (0 < mine n)
  | .getString i => decide (i < (stringsOf k 0 []).length)
  | .getRelated => decide (k = .mutation ∨ k = .mutationName)
  | _ => true

theorem valid_of (hv : validB k held mine o = true) : Valid k held mine o := by
  cases o with
  | init a =>
    obtain ⟨h1, h2⟩ := Bool.and_eq_true_iff.1 hv
    exact ⟨fun x hx => by simpa using List.all_eq_true.1 h1 x hx, fun n hn => by simpa using List.all_eq_true.1 h2 n (Option.mem_toList.2 hn)⟩
  | getString i => exact (decide_eq_true_iff (p := i < (stringsOf k 0 []).length)).1 hv
  | getRelated => exact (decide_eq_true_iff (p := k = .mutation ∨ k = .mutationName)).1 hv
  | _ => trivial

/-- Calls on the event. -/
def play (k : Kind) (st : St) (held mine : Nat → Nat) (e : Ev) : List Op → Option (St × (Nat → Nat) × (Nat → Nat) × Ev)
  | [] => some (st, held, mine, e)
  | o :: os =>
    if validB k held mine o && decide ((o = .unref → 1 < e.refcnt) ∧ (o = .ref → e.refcnt + 1 < 4294967296)) then
      match e.run st o with
      | .ok (st', e', r) => play k st' (plus held r.refs) (plus mine r.nodes) e' os
      | _ => none
    else none

theorem taken_le (x : Addr) : (taken k e0 h).count x ≤ 5 * h.length + 2 := by
  have h1 : (inits h).length ≤ h.length := List.length_filterMap_le _ _
  have h2 : (spaces h).length ≤ h.length := Nat.le_trans (List.length_filterMap_le _ _) h1
  have f1 : ∀ l : List Args, (l.flatMap (given k)).length ≤ 4 * l.length := by
    intro l
    induction l with
    | nil => simp
    | cons a l ih =>
      have : (given k a).length ≤ 4 := by
        have o1 : ∀ o : Option Addr, o.toList.length ≤ 1 := fun o => by cases o <;> simp
        have t0 := o1 a.type; have t1 := o1 (a.str 0); have t2 := o1 (a.str 1); have t3 := o1 (a.str 2)
        cases k <;> simp only [given, List.length_append, List.length_nil] <;> omega
      simp only [List.flatMap_cons, List.length_append, List.length_cons]; omega
  have f2 : ∀ l : List (Option Addr), (l.flatMap Option.toList).length ≤ l.length := by
    intro l
    induction l with
    | nil => simp
    | cons a l ih =>
      have : a.toList.length ≤ 1 := by cases a <;> simp
      simp only [List.flatMap_cons, List.length_append, List.length_cons]; omega
  have f3 : (keys k e0 h).length ≤ 2 := by unfold keys; split_ifs <;> simp
  refine Nat.le_trans List.count_le_length ?_
  rw [split_taken]
  have g1 := f1 (inits h); have g2 := f2 (spaces h)
  simp only [List.length_append]; omega

theorem play_hist {os : List Op} {n : Nat} {q : St × (Nat → Nat) × (Nat → Nat) × Ev} (hH : Hist k st held loose mine e e0 h) (hn : ∀ x, held x ≤ n)
    (hk : n + 10 * h.length + 20 * os.length + 20 < 4294967296) (hp : play k st held mine e os = some q) : Hist k q.1 q.2.1 loose q.2.2.1 q.2.2.2 e0 (h ++ os) := by
  induction os generalizing st held mine e h n with
  | nil => cases hp; rw [List.append_nil]; exact hH
  | cons o os ih =>
    unfold play at hp
    split at hp
    · rename_i hc
      split at hp
      · rename_i st' e' r he
        obtain ⟨c1, c2⟩ := Bool.and_eq_true_iff.1 hc
        have c3 := of_decide_eq_true c2
        have h1 := hH.op (o := o) (valid_of c1) (fun x => by
          have h2 := hn x; have h3 := taken_le (k := k) (e0 := e0) (h := h) x
          simp only [List.length_cons] at hk; simp only [plus]; omega) c3.1 c3.2 he
        have hr : ∀ x, r.refs.count x ≤ 1 := fun x => by
          cases r with
          | str v => exact count1 v x
          | _ => exact Nat.zero_le _
        have := ih h1 (n := n + 1) (fun x => by have h2 := hn x; have h3 := hr x; simp only [plus]; omega)
          (by simp only [List.length_cons, List.length_append, List.length_nil] at hk ⊢; omega) hp
        rwa [List.append_assoc] at this
      · cases hp
    · cases hp

/-- A concrete history: calls on strings, the creation of an event, calls on it. -/
theorem exists_hist (k : Kind) (cs : List Call) (mine : Nat → Nat) (os : List Op) (check : St → (Nat → Nat) → (Nat → Nat) → Ev → Bool)
    (hk : cs.length + 20 * os.length + 20 < 4294967296)
    (hc : ((run (Mem.empty, fun _ => 0, fun _ => 0) cs).any fun p =>
      match create p.1 k with
      | .ok (s, e) => (play k ⟨s, mine⟩ p.2.1 mine e os).any fun q => check q.1 q.2.1 q.2.2.1 q.2.2.2
      | _ => false) = true) :
    ∃ st held loose mine e e0, Hist k st held loose mine e e0 os ∧ check st held mine e = true := by
  obtain ⟨p, hp, h1⟩ := (Option.any_eq_true _ _).1 hc
  have hR : Reach p.1 p.2.1 p.2.2 := run_reach (p := (Mem.empty, fun _ => 0, fun _ => 0)) Reach.start hp
  have hle := run_le (n := 0) (p := (Mem.empty, fun _ => 0, fun _ => 0)) (fun _ => Nat.le_refl _) hp
  split at h1
  · rename_i s e he
    obtain ⟨q, hq, h2⟩ := (Option.any_eq_true _ _).1 h1
    have := play_hist (Hist.start (mine := mine) hR (fun x => by have := hle x; omega) he) hle (by simp only [List.length_nil]; omega) hq
    exact ⟨_, _, _, _, _, _, this, h2⟩
  · cases h1

/-- Strings "a" (0), "b" (2) and "c" (4). -/
def strings : List Call := [.create [97], .create [98], .create [99]]

/-- An initialisation of a keyboard event with the type "a", namespace "c" and the code "b". -/
def first : Args := { type := some 0, ns := some (some 4), bubble := true, cancelable := false, own := [none, some 2], node := none, clock := 7 }

/-- One with the type "b", without namespace. -/
def second : Args := { type := some 2, ns := none, bubble := false, cancelable := true, own := [some 0, none], node := some 5, clock := 9 }

/-- Calls on a keyboard event. -/
def calls : List Op := [.init first, .getType, .getString 0, .ref, .init second, .unref]

/-- `C74_event_partial`, `C74_keyboard`, `C74_again_violated` and `C74_namespace_violated` apply to this history: the event had two initialisations, the second without namespace. -/
example : ∃ st held loose mine e e0, Hist .keyboard st held loose mine e e0 calls ∧ e.refcnt = 1 ∧ held 0 = 2 ∧ first ∈ (inits calls).dropLast ∧
    last calls = some second ∧ second.ns = none ∧ (spaces calls).getLast? = some (some 4) ∧ said .keyboard e0 calls .getTime = some (.num 8) ∧
    said .keyboard e0 calls (.getString 1) = some (.str (some 2)) ∧ 0 < held 6 := by
  obtain ⟨st, held, loose, mine, e, e0, h1, h2⟩ := exists_hist .keyboard strings (fun _ => 1) calls (fun _ held _ e => decide (e.refcnt = 1 ∧ held 0 = 2 ∧ 0 < held 6))
    (by decide) (by decide +kernel)
  obtain ⟨c1, c2, c3⟩ := of_decide_eq_true h2
  exact ⟨st, held, loose, mine, e, e0, h1, c1, c2, by decide, by decide, rfl, by decide, rfl, rfl, c3⟩

/-- `C74_name_node_violated` applies to this one, and `C74_event_partial` with a related node. -/
example : ∃ st held loose mine e e0, Hist .mutationName st held loose mine e e0 [.init second, .getRelated] ∧ e.refcnt = 1 ∧ second ∈ inits [.init second, .getRelated] ∧
    second.node = some 5 ∧ said .mutationName e0 [.init second, .getRelated] .getRelated = some (.node (some 5)) ∧ mine 5 = 2 ∧ st.nodes 5 = 3 := by
  obtain ⟨st, held, loose, mine, e, e0, h1, h2⟩ := exists_hist .mutationName strings (fun _ => 1) [.init second, .getRelated]
    (fun st _ mine e => decide (e.refcnt = 1 ∧ mine 5 = 2 ∧ st.nodes 5 = 3)) (by decide) (by decide +kernel)
  obtain ⟨c1, c2, c3⟩ := of_decide_eq_true h2
  exact ⟨st, held, loose, mine, e, e0, h1, c1, by decide, rfl, rfl, c2, c3⟩

/-- `C74_release_partial` applies to this one, with a node. -/
example : ∃ st held loose mine e e0, Hist .mutation st held loose mine e e0 [.init second] ∧ e.refcnt = 1 ∧ (inits [.init second]).length ≤ 1 := by
  obtain ⟨st, held, loose, mine, e, e0, h1, h2⟩ := exists_hist .mutation strings (fun _ => 1) [.init second] (fun _ _ _ e => decide (e.refcnt = 1)) (by decide)
    (by decide +kernel)
  exact ⟨st, held, loose, mine, e, e0, h1, of_decide_eq_true h2, by decide⟩

/-- `C74_unwritten_violated` and `C74_time_violated` apply to these. -/
example : (∃ st held loose mine e e0, Hist .mutationName st held loose mine e e0 []) ∧ (∃ st held loose mine e e0, Hist .custom st held loose mine e e0 [.init first]) ∧
    ∀ a ∈ inits [.init first], a.ns ≠ none := by
  obtain ⟨st, held, loose, mine, e, e0, h1, _⟩ := exists_hist .mutationName strings (fun _ => 1) [] (fun _ _ _ _ => true) (by decide) (by decide +kernel)
  obtain ⟨st', held', loose', mine', e', e0', h1', _⟩ := exists_hist .custom strings (fun _ => 1) [.init first] (fun _ _ _ _ => true) (by decide) (by decide +kernel)
  exact ⟨⟨st, held, loose, mine, e, e0, h1⟩, ⟨st', held', loose', mine', e', e0', h1'⟩, by decide⟩

/-- `C74_create_event_partial` and `C74_unknown_violated` apply to a new document with a string. -/
example : ∃ s held loose names type, Reach s held (plus loose names) ∧ Named s names ∧ (∀ x, held x + 8 < 4294967296) ∧ strBytes s type = .ok (bytes .text) := by
  have R1 := Reach.start.call (c := .create (bytes .text)) trivial rfl
  obtain ⟨s', names, q1, q2, q3⟩ := C74_names R1
  obtain ⟨_, _, q4, _, S, _⟩ := internAll_run (ns := typeNames) R1
  rw [q1] at q4; cases q4
  have hb : strBytes (perform Mem.empty (.create (bytes .text)) |> fun r => match r with | .ok p => p.1 | _ => Mem.empty) 0 = .ok (bytes .text) := by decide +kernel
  refine ⟨s', _, _, names, 0, q2, q3, fun x => ?_, keep R1 q2 S hb (by decide)⟩
  have : heldAfter (fun _ => 0) Mem.empty.fresh (.create (bytes .text)) x ≤ 1 := by
    show upd (fun _ => 0) 0 1 x ≤ 1
    unfold upd; split_ifs <;> simp
  omega

/-! ## Where the code deviates -/

/-- C74 is violated by `createEvent` with a name that is not that of a type: it makes a plain event; DOM says `NOT_SUPPORTED_ERR`. -/
theorem C74_unknown_violated {names : List Addr} {type : Addr} {t : Bytes} (hR : Reach s held (plus loose names)) (hN : Named s names)
    (hk : ∀ x, held x + 8 < 4294967296) (hb : strBytes s type = .ok t) (ht : ∀ k, t ≠ bytes k) :
    ∃ s' e, createEvent s names type = .ok (s', e) ∧ e.kind = .event := by
  obtain ⟨s', e, e0, k', q1, q2, _, _, q4⟩ := createEvent_run (mine := fun _ => 0) hR hN hk hb
  obtain rfl := q4 ht
  exact ⟨s', e, q1, q2.good.follows.kind⟩

/-- Such a name. -/
example : ∀ k, "HTMLEvents".toUTF8.toList ≠ bytes k := by intro k; cases k <;> decide +kernel

/-- C74 is violated by an event that is initialised more than once: the type string of every initialisation but the last keeps a reference after the event is gone. -/
theorem C74_again_violated {x : Addr} (hH : Hist k st held loose mine e e0 h) (h1 : e.refcnt = 1) (ha : a ∈ (inits h).dropLast) (hx : a.type = some x) :
    ∃ st' e' o, e.run st .unref = .ok (st', e', .none) ∧ e'.freed = true ∧ st'.mem.strs x = some o ∧ held x < o.refcnt := by
  obtain ⟨st', e', q1, q2, q3, _⟩ := release_run hH.good h1
  have hm : x ∈ lost k h := by
    refine List.mem_append_left _ (List.mem_flatMap.2 ⟨a, ha, ?_⟩)
    rw [given_eq, hx]; exact List.mem_append_left _ List.mem_cons_self
  have hc := List.count_pos_iff.2 hm
  cases ho : st'.mem.strs x with
  | none => have := q3.inv.dead x ho; simp only [plus] at this; omega
  | some o =>
    refine ⟨st', e', o, q1, q2, ho, ?_⟩
    rw [(q3.inv.live x o ho).1]; simp only [plus]; omega

/-- C74 is violated by mutation name events: the reference on the related node is never given back, also when the event is initialised once. -/
theorem C74_name_node_violated {n : Nat} (hH : Hist .mutationName st held loose mine e e0 h) (h1 : e.refcnt = 1) (ha : a ∈ inits h) (hx : a.node = some n) :
    ∃ st' e', e.run st .unref = .ok (st', e', .none) ∧ e'.freed = true ∧ mine n < st'.nodes n := by
  obtain ⟨st', e', q1, q2, _, q4⟩ := release_run hH.good h1
  refine ⟨st', e', q1, q2, ?_⟩
  have hm : n ∈ lostNodes .mutationName h := by
    show n ∈ (inits h).flatMap _
    refine List.mem_flatMap.2 ⟨a, ha, ?_⟩
    unfold nodesOf; rw [hx]; simp
  have := List.count_pos_iff.2 hm
  rw [q4 n]; simp only [plus]; omega

/-- C74 is violated before the first initialisation: whether the event bubbles or is cancelable is read from memory that was never written, except for UI events
and keyboard events; so are the related node of a mutation name event and the strings it has as a mutation event. -/
theorem C74_unwritten_violated (hH : Hist k st held loose mine e e0 h) (h0 : inits h = []) :
    (k ≠ .ui → k ≠ .keyboard → e.run st .getBubbles = .fault .uninit ∧ e.run st .getCancelable = .fault .uninit) ∧
    (k = .mutationName → e.run st .getRelated = .fault .uninit ∧ e.run st (.getString 3) = .fault .uninit) := by
  have hF := hH.good.follows
  have hl : last h = none := by unfold last; rw [h0]; rfl
  have hrun : ∀ o, e.run st o = perform1 st e o := fun o => by unfold Ev.run; rw [hF.live]; rfl
  refine ⟨fun n1 n2 => ?_, fun hk => ?_⟩
  · have hb : (blank k false : Option Bool) = none := by unfold blank; rw [if_neg (by rintro (h | h); exacts [n1 h, n2 h])]
    rw [hrun, hrun]
    unfold perform1
    dsimp only
    rw [hF.bubble, hF.cancelable, hl, hb]
    exact ⟨rfl, rfl⟩
  · subst hk
    rw [hrun, hrun]
    unfold perform1
    dsimp only
    rw [hF.related, hF.own]
    unfold relatedOf stringsOf
    rw [hl]
    exact ⟨rfl, rfl⟩

/-- C74 is violated by the initialisations with a namespace: they do not write the time. -/
theorem C74_time_violated (hH : Hist k st held loose mine e e0 h) (h0 : ∀ a ∈ inits h, a.ns ≠ none) (n1 : k ≠ .ui) (n2 : k ≠ .keyboard) :
    e.run st .getTime = .fault .uninit := by
  have hF := hH.good.follows
  have hrun : ∀ o, e.run st o = perform1 st e o := fun o => by unfold Ev.run; rw [hF.live]; rfl
  have hb : (blank k 0 : Option Nat) = none := by unfold blank; rw [if_neg (by rintro (h | h); exacts [n1 h, n2 h])]
  have ht : lastOf timeOf (inits h) = none := by
    unfold lastOf
    rw [List.getLast?_eq_none_iff, List.filterMap_eq_nil_iff]
    intro a ha
    unfold timeOf
    cases hn : a.ns with
    | none => exact absurd hn (h0 a ha)
    | some n => rfl
  rw [hrun]
  unfold perform1
  dsimp only
  rw [hF.time, ht, hb]
  rfl

/-- C74 is violated when an event is initialised again without a namespace: it still has the namespace of before. -/
theorem C74_namespace_violated {n : Addr} (hH : Hist k st held loose mine e e0 h) (hk : ∀ x, plus held (taken k e0 h) x + 8 < 4294967296)
    (hl : last h = some a) (ha : a.ns = none) (hn : (spaces h).getLast? = some (some n)) :
    ∃ st' e', e.run st .getNamespace = .ok (st', e', .str (some n)) := by
  obtain ⟨h1, _⟩ := C74_event_partial (o := .getNamespace) hH trivial hk (fun h => nomatch h) (fun h => nomatch h)
  obtain ⟨st', e', q1, _⟩ := h1 _ rfl
  rw [hn] at q1
  exact ⟨st', e', q1⟩

end Dom.Events.Obj
