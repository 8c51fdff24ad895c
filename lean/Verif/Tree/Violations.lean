import Verif.Tree.PropsMut
/-!
# Concrete histories: the theorems' hypotheses are met, and where the code breaks a property
-/
namespace Dom.Tree
set_option linter.unusedSimpArgs false

/-- The arguments are live nodes, and new nodes are created in a Document; nothing else is asked. -/
def Call.Args (w : World) : Call → Prop
  | .createDocument => True
  | .createNode d t _ _ => IsType w d .document ∧ t ≠ .document
  | .createDoctype _ => True
  | .insertBefore p new r => Live w p ∧ Live w new ∧ ∀ c, r = some c → Live w c
  | .appendChild p new => Live w p ∧ Live w new
  | .replaceChild p new old => Live w p ∧ Live w new ∧ Live w old
  | .removeChild p old => Live w p ∧ Live w old

def liveB (w : World) (i : NodeId) : Bool := (w.nodes i).isSome
def typeB (w : World) (i : NodeId) (t : NodeType) : Bool := (w.nodes i).any fun n => n.type = t
def notAttrB (w : World) (p c : NodeId) : Bool :=
  (w.nodes c).any fun n => !(n.type = .attribute && n.parent = some p)

theorem live_of_liveB {w : World} {i : NodeId} (h : liveB w i = true) : Live w i := Option.isSome_iff_exists.1 h

theorem isType_of_typeB {w : World} {i : NodeId} {t : NodeType} (h : typeB w i t = true) : IsType w i t := by
  unfold typeB at h
  cases hn : w.nodes i with
  | none => rw [hn] at h; simp at h
  | some n => rw [hn] at h; exact ⟨n, hn, by simpa using h⟩

theorem notAttr_of_notAttrB {w : World} {p c : NodeId} (h : notAttrB w p c = true) : NotAttrOf w p c := by
  unfold notAttrB at h
  cases hn : w.nodes c with
  | none => rw [hn] at h; simp at h
  | some n =>
    rw [hn] at h
    refine ⟨n, hn, fun h1 h2 => ?_⟩
    simp [h1, h2] at h

/-- A computable check that implies `Call.Args`. -/
def Call.argsB (w : World) : Call → Bool
  | .createDocument => true
  | .createNode d t _ _ => typeB w d .document && t ≠ .document
  | .createDoctype _ => true
  | .insertBefore p new r => liveB w p && liveB w new && (match r with | some c => liveB w c | none => true)
  | .appendChild p new => liveB w p && liveB w new
  | .replaceChild p new old => liveB w p && liveB w new && liveB w old
  | .removeChild p old => liveB w p && liveB w old

theorem args_of_argsB {w : World} {c : Call} (h : c.argsB w = true) : c.Args w := by
  cases c with
  | createDocument => trivial
  | createDoctype n => trivial
  | createNode d t n v =>
    simp only [Call.argsB, Bool.and_eq_true, decide_eq_true_eq] at h
    exact ⟨isType_of_typeB h.1, h.2⟩
  | insertBefore p new r =>
    simp only [Call.argsB, Bool.and_eq_true] at h
    refine ⟨live_of_liveB h.1.1, live_of_liveB h.1.2, ?_⟩
    rintro c rfl
    exact live_of_liveB h.2
  | appendChild p new =>
    simp only [Call.argsB, Bool.and_eq_true] at h
    exact ⟨live_of_liveB h.1, live_of_liveB h.2⟩
  | replaceChild p new old =>
    simp only [Call.argsB, Bool.and_eq_true] at h
    exact ⟨live_of_liveB h.1.1, live_of_liveB h.1.2, live_of_liveB h.2⟩
  | removeChild p old =>
    simp only [Call.argsB, Bool.and_eq_true] at h
    exact ⟨live_of_liveB h.1, live_of_liveB h.2⟩

/-- A computable check that implies `Call.Ok`. -/
def Call.okB (w : World) : Call → Bool
  | .createDocument => true
  | .createNode d t _ _ => typeB w d .document && t ≠ .document
  | .createDoctype _ => true
  | .insertBefore p new r => liveB w p && liveB w new && (match r with | some c => notAttrB w p c | none => true)
  | .appendChild p new => liveB w p && liveB w new
  | .replaceChild p new old => liveB w p && liveB w new && notAttrB w p old &&
      (match w.nodes new, w.nodes old with
       | some n, some o => n.type ≠ .fragment || n.first.isSome || (o.prev.isNone && o.next.isNone)
       | _, _ => false)
  | .removeChild p old => liveB w p && notAttrB w p old

theorem ok_of_okB {w : World} {c : Call} (h : c.okB w = true) : c.Ok w := by
  cases c with
  | createDocument => trivial
  | createDoctype n => trivial
  | createNode d t n v =>
    simp only [Call.okB, Bool.and_eq_true, decide_eq_true_eq] at h
    exact ⟨isType_of_typeB h.1, h.2⟩
  | insertBefore p new r =>
    simp only [Call.okB, Bool.and_eq_true] at h
    refine ⟨live_of_liveB h.1.1, live_of_liveB h.1.2, ?_⟩
    rintro c rfl
    exact notAttr_of_notAttrB h.2
  | appendChild p new =>
    simp only [Call.okB, Bool.and_eq_true] at h
    exact ⟨live_of_liveB h.1, live_of_liveB h.2⟩
  | replaceChild p new old =>
    simp only [Call.okB, Bool.and_eq_true] at h
    refine ⟨live_of_liveB h.1.1.1, live_of_liveB h.1.1.2, notAttr_of_notAttrB h.1.2, ?_⟩
    intro n o hn ho h1 h2
    have := h.2
    rw [hn, ho] at this
    simpa [h1, h2] using this
  | removeChild p old =>
    simp only [Call.okB, Bool.and_eq_true] at h
    exact ⟨live_of_liveB h.1, notAttr_of_notAttrB h.2⟩

/-- Run calls in sequence, as long as each passes the check `b` and returns. -/
def runAll (b : World → Call → Bool) : List Call → World → Option World
  | [], w => some w
  | c :: cs, w => if b w c then (match (c.run w).world with | some w' => runAll b cs w' | none => none) else none

theorem reach_runAll {P : World → Call → Prop} {b : World → Call → Bool} (hb : ∀ w c, b w c = true → P w c) :
    ∀ (cs : List Call) (w w' : World), Reach P w → runAll b cs w = some w' → Reach P w' := by
  intro cs
  induction cs with
  | nil => intro w w' hr h; simp only [runAll, Option.some.injEq] at h; exact h ▸ hr
  | cons c cs ih =>
    intro w w' hr h
    unfold runAll at h
    split at h
    · rename_i hc
      split at h
      · rename_i w1 hw1
        exact ih w1 w' (.call c hr (hb w c hc) hw1) h
      · cases h
    · cases h

theorem exists_reach {P : World → Call → Prop} {b : World → Call → Bool} (hb : ∀ w c, b w c = true → P w c)
    (cs : List Call) (check : World → Bool) (h : (runAll b cs World.empty).any check = true) :
    ∃ w, Reach P w ∧ check w = true := by
  cases hw : runAll b cs World.empty with
  | none => rw [hw] at h; simp at h
  | some w =>
    rw [hw] at h
    exact ⟨w, reach_runAll hb cs _ w .start hw, by simpa using h⟩

theorem exists_ok (cs : List Call) (check : World → Bool)
    (h : (runAll (fun w c => c.okB w) cs World.empty).any check = true) :
    ∃ w, Reach (fun w c => c.Ok w) w ∧ check w = true :=
  exists_reach (fun _ _ h => ok_of_okB h) cs check h

theorem exists_args (cs : List Call) (check : World → Bool)
    (h : (runAll (fun w c => c.argsB w) cs World.empty).any check = true) :
    ∃ w, Reach (fun w c => c.Args w) w ∧ check w = true :=
  exists_reach (fun _ _ h => args_of_argsB h) cs check h

/-- The fields of a live node satisfy `f`. -/
def at_ (w : World) (i : NodeId) (f : Node → Bool) : Bool := (w.nodes i).any f

theorem at_elim {w : World} {i : NodeId} {f : Node → Bool} (h : at_ w i f = true) :
    ∃ n, w.nodes i = some n ∧ f n = true := by
  unfold at_ at h
  cases hn : w.nodes i with
  | none => rw [hn] at h; simp at h
  | some n => rw [hn] at h; exact ⟨n, rfl, by simpa using h⟩

/-! ## The hypotheses are met -/

/-- A document (0) with doctype (1), root element (2), in it a text (3), an element (4) and a comment (5), and a
fragment (6) whose two texts (7, 8) have been inserted before the comment. -/
def sampleHistory : List Call :=
  [.createDocument, .createDoctype none, .createNode 0 .element none none, .createNode 0 .text none none,
   .createNode 0 .element none none, .createNode 0 .comment none none, .createNode 0 .fragment none none,
   .createNode 0 .text none none, .createNode 0 .text none none,
   .appendChild 0 1, .appendChild 0 2, .appendChild 2 5, .insertBefore 2 3 (some 5), .appendChild 2 4,
   .appendChild 6 7, .appendChild 6 8, .insertBefore 2 6 (some 5), .replaceChild 2 4 3, .removeChild 2 7,
   .appendChild 4 2, .appendChild 4 7]

/-- A state with a tree of four levels is reachable under `Call.Ok` (so `C19`, `C24`, `C25`, `C26` speak about it, and
by `Reach.wf` the invariant `WF` holds in it); the last but one call was refused as it would have made a cycle. -/
example : ∃ w, Reach (fun w c => c.Ok w) w ∧
    (at_ w 0 (fun n => n.first = some 1 && n.last = some 2) && at_ w 2 (fun n => n.first = some 4 && n.last = some 5) &&
     at_ w 4 (fun n => n.next = some 8 && n.first = some 7) && at_ w 8 (fun n => n.next = some 5 && n.prev = some 4) &&
     at_ w 5 (fun n => n.parent = some 2) && at_ w 3 (fun n => n.parent = none) && at_ w 6 (fun n => n.first = none)) = true :=
  exists_ok sampleHistory _ (by decide +kernel)

/-! ## Violations -/

/-- A document (0), an element (1) with three comments (2, 3, 4), an empty fragment (5); the middle comment is replaced
by the empty fragment. -/
def emptyFragmentHistory : List Call :=
  [.createDocument, .createNode 0 .element none none, .createNode 0 .comment none none,
   .createNode 0 .comment none none, .createNode 0 .comment none none, .createNode 0 .fragment none none,
   .appendChild 1 2, .appendChild 1 3, .appendChild 1 4, .replaceChild 1 5 3]

/-- C19 and C22 are false of the code: after replacing a middle child by an empty fragment (the call succeeds), the
first child's `nextSibling` is still the replaced node, which has no parent any more.  `_dom_node_replace` does not
update the siblings' links in this case (src/core/node.c:2231-2241). -/
theorem C22_empty_fragment_violated : ∃ w, Reach (fun w c => c.Args w) w ∧
    ¬ ∃ ch, Linked w ch := by
  obtain ⟨w, hr, h⟩ := exists_args emptyFragmentHistory
    (fun w => at_ w 2 (fun n => n.next = some 3 && n.parent = some 1 && n.type = .comment) && at_ w 3 (fun n => n.parent = none))
    (by decide +kernel)
  refine ⟨w, hr, ?_⟩
  rintro ⟨ch, hL⟩
  simp only [Bool.and_eq_true] at h
  obtain ⟨n2, h2, h2'⟩ := at_elim h.1
  obtain ⟨n3, h3, h3'⟩ := at_elim h.2
  simp only [Bool.and_eq_true, decide_eq_true_eq] at h2' h3'
  have hmem := hL.up 2 n2 1 h2 (by rw [h2'.2]; simp) h2'.1.2
  obtain ⟨a, b, hab⟩ := List.append_of_mem hmem
  obtain ⟨p1, hp1⟩ := hL.alive_parent h2 h2'.1.2
  obtain ⟨n, hn, _, _, _, hnext⟩ := (hL.loc 1 p1 hp1).kids a 2 b hab
  rw [h2] at hn; cases hn
  rw [h2'.1.1] at hnext
  cases b with
  | nil => simp at hnext
  | cons x b =>
    simp only [List.head?_cons, Option.some.injEq] at hnext
    subst hnext
    obtain ⟨m, hm, _, hmp⟩ := hL.alive_child (show 3 ∈ ch 1 by rw [hab]; simp)
    rw [h3] at hm; cases hm
    rw [h3'] at hmp; cases hmp

/-- The same history against the wording of `C19_links_agree`: the forward enumeration of the children of node 1 does
not consist of the nodes whose parent is node 1. -/
theorem C19_links_violated : ∃ w, Reach (fun w c => c.Args w) w ∧ ∃ p pn, w.nodes p = some pn ∧
    ¬ ∃ l, Fwd w pn.first l ∧ ∀ c, c ∈ l ↔ ∃ n, w.nodes c = some n ∧ n.type ≠ .attribute ∧ n.parent = some p := by
  obtain ⟨w, hr, h⟩ := exists_args emptyFragmentHistory
    (fun w => at_ w 1 (fun n => n.first = some 2) && at_ w 2 (fun n => n.next = some 3) && at_ w 3 (fun n => n.parent = none))
    (by decide +kernel)
  simp only [Bool.and_eq_true] at h
  obtain ⟨n1, h1, h1'⟩ := at_elim h.1.1
  obtain ⟨n2, h2, h2'⟩ := at_elim h.1.2
  obtain ⟨n3, h3, h3'⟩ := at_elim h.2
  simp only [decide_eq_true_eq] at h1' h2' h3'
  refine ⟨w, hr, 1, n1, h1, ?_⟩
  rintro ⟨l, hl, hm⟩
  rw [h1'] at hl
  cases hl with
  | step hn hl =>
    rw [h2] at hn; cases hn
    rw [h2'] at hl
    cases hl with
    | step hn hl =>
      obtain ⟨n, hn', _, hp⟩ := (hm 3).1 (by simp)
      rw [h3] at hn'; cases hn'
      rw [h3'] at hp; cases hp

/-- C25 is false of the code: a fragment with two elements is accepted by a document without root element, since the
children are checked one by one against the document as it is before (src/core/node.c:802-812). -/
theorem C25_two_roots_violated : ∃ w, Reach (fun w c => c.Ok w) w ∧
    ∃ d x y dn xn yn, w.nodes d = some dn ∧ w.nodes x = some xn ∧ w.nodes y = some yn ∧ x ≠ y ∧
      dn.type = .document ∧ xn.type = .element ∧ yn.type = .element ∧ xn.parent = some d ∧ yn.parent = some d := by
  obtain ⟨w, hr, h⟩ := exists_ok
    [.createDocument, .createNode 0 .fragment none none, .createNode 0 .element none none,
     .createNode 0 .element none none, .appendChild 1 2, .appendChild 1 3, .appendChild 0 1]
    (fun w => at_ w 0 (fun n => n.type = .document) && at_ w 2 (fun n => n.type = .element && n.parent = some 0) &&
      at_ w 3 (fun n => n.type = .element && n.parent = some 0))
    (by decide +kernel)
  simp only [Bool.and_eq_true] at h
  obtain ⟨n1, h1, h1'⟩ := at_elim h.1.1
  obtain ⟨n2, h2, h2'⟩ := at_elim h.1.2
  obtain ⟨n3, h3, h3'⟩ := at_elim h.2
  simp only [Bool.and_eq_true, decide_eq_true_eq] at h1' h2' h3'
  exact ⟨w, hr, 0, 2, 3, n1, n2, n3, h1, h2, h3, by decide, h1', h2'.1, h3'.1, h2'.2, h3'.2⟩

/-- What a call ends with. -/
inductive Outcome
  | ok | exc (e : Exc) | fault (f : Fault)
  deriving DecidableEq

def Res.outcome {α : Type} : Res α → Outcome
  | .ok _ _ => .ok
  | .exc _ e => .exc e
  | .fault f => .fault f

/-- C23 is false of the code: a refused insertion of a fragment takes the fragment off its document's pending list
(src/core/node.c:798-812), so the memory is not as before. -/
theorem C23_pending_violated : ∃ w, Reach (fun w c => c.Ok w) w ∧ ∃ c w' e, Call.Ok w c ∧ c.run w = .exc w' e ∧
    ∃ x n n', w.nodes x = some n ∧ w'.nodes x = some n' ∧ n.pendingIn = some 0 ∧ n'.pendingIn = none := by
  obtain ⟨w, hr, h⟩ := exists_ok
    [.createDocument, .createNode 0 .fragment none none, .createNode 0 .text none none, .appendChild 1 2]
    (fun w => at_ w 1 (fun n => n.pendingIn = some 0) && (Call.appendChild 0 1).okB w &&
      ((Call.appendChild 0 1).run w).outcome = .exc .hierarchyRequest &&
      (((Call.appendChild 0 1).run w).world).any (fun w => at_ w 1 (fun n => n.pendingIn = none)))
    (by decide +kernel)
  simp only [Bool.and_eq_true] at h
  obtain ⟨n1, h1, h1'⟩ := at_elim h.1.1.1
  simp only [decide_eq_true_eq] at h1'
  have h2 := h.1.2
  have h3 := h.2
  cases hc : (Call.appendChild 0 1).run w with
  | ok w' a => rw [hc] at h2; simp [Res.outcome] at h2
  | fault f => rw [hc] at h2; simp [Res.outcome] at h2
  | exc w' e =>
    rw [hc] at h3
    simp only [Res.world, Option.any_some] at h3
    obtain ⟨n', hn', hn''⟩ := at_elim h3
    exact ⟨w, hr, _, w', e, ok_of_okB h.1.1.2, hc, 1, n1, n', h1, hn', h1', by simpa using hn''⟩

/-- C46 and C48 are false of the code: a fragment that has been inserted once cannot be inserted again; the second
insertion trips the assertion in `_dom_node_remove_pending` (src/core/node.c:2350-2360). -/
theorem C48_fragment_reuse_violated : ∃ w, Reach (fun w c => c.Ok w) w ∧ ∃ p new, Call.Ok w (.appendChild p new) ∧
    IsType w new .fragment ∧ (Call.appendChild p new).run w = .fault .assertFail := by
  obtain ⟨w, hr, h⟩ := exists_ok
    [.createDocument, .createNode 0 .element none none, .createNode 0 .fragment none none,
     .createNode 0 .text none none, .appendChild 2 3, .appendChild 1 2]
    (fun w => (Call.appendChild 1 2).okB w && typeB w 2 .fragment &&
      ((Call.appendChild 1 2).run w).outcome = .fault .assertFail)
    (by decide +kernel)
  simp only [Bool.and_eq_true, decide_eq_true_eq] at h
  refine ⟨w, hr, 1, 2, ok_of_okB h.1.1, isType_of_typeB h.1.2, ?_⟩
  have h2 := h.2
  cases hc : (Call.appendChild 1 2).run w with
  | ok w' a => rw [hc] at h2; simp [Res.outcome] at h2
  | exc w' e => rw [hc] at h2; simp [Res.outcome] at h2
  | fault f => rw [hc] at h2; simp [Res.outcome] at h2; rw [h2]

end Dom.Tree
