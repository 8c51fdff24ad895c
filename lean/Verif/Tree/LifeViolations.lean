import Verif.Tree.PropsLife
/-!
# Concrete histories of a client: the hypotheses of C46 and C47 are met, and where the code breaks the properties
-/
set_option linter.unusedSimpArgs false
set_option linter.unusedVariables false
namespace Dom.Tree

/-- A computable check that implies `Act.Typed`. -/
def Act.typedB (w : World) : Act → Bool
  | .call (.createNode d t _ _) => typeB w d .document && t ≠ .document
  | .putAttr e a _ _ => typeB w e .element && typeB w a .attribute && (w.nodes a).all fun n => n.parent ≠ some e
  | _ => true

def properB (led : Ledger) (w : World) (a : Act) : Bool := (a.args.all fun x => decide (0 < led x)) && a.typedB w

theorem proper_of_properB {led : Ledger} {w : World} {a : Act} (h : properB led w a = true) : Proper led w a := by
  simp only [properB, Bool.and_eq_true, List.all_eq_true, decide_eq_true_eq] at h
  refine ⟨h.1, ?_⟩
  have h2 := h.2
  cases a with
  | call c =>
    cases c <;> try trivial
    simp only [Act.typedB, Bool.and_eq_true, decide_eq_true_eq] at h2
    exact ⟨isType_of_typeB h2.1, h2.2⟩
  | putAttr e a name ns =>
    simp only [Act.typedB, Bool.and_eq_true] at h2
    refine ⟨isType_of_typeB h2.1.1, isType_of_typeB h2.1.2, fun n hn => ?_⟩
    have := h2.2
    rw [hn] at this
    simpa using this
  | get k x => trivial
  | ref x => trivial
  | unref x => trivial
  | clone x deep => trivial

/-- All nodes satisfy `f`. -/
def allB (w : World) (f : Node → Bool) : Bool := (List.range w.fresh).all fun j => (w.nodes j).all f

theorem allB_elim {w : World} {f : Node → Bool} (hb : ∀ i n, w.nodes i = some n → i < w.fresh) (h : allB w f = true) {j : NodeId} {n : Node}
    (hj : w.nodes j = some n) : f n = true := by
  simp only [allB, List.all_eq_true, List.mem_range] at h
  have := h j (hb j n hj)
  rw [hj] at this
  simpa using this

/-- No count overflows. -/
def roomB (w : World) : Bool := allB w fun n => decide (n.refcnt < 1000)

/-- `new` is not a DocumentFragment, or it is on the pending list and the documents are referenced. -/
def heldB (w : World) (new : NodeId) : Bool :=
  (w.nodes new).all fun n => n.type ≠ .fragment || (n.pendingIn.isSome && allB w fun m => m.type ≠ .document || decide (0 < m.refcnt))

/-- The types of nodes that cannot be cloned. -/
def badType (t : NodeType) : Bool := t = .document || t = .doctype || t = .entity || t = .notation_ || t = .pi

/-- A computable check that implies `Act.Fine`. -/
def Act.fineB (w : World) (led : Ledger) : Act → Bool
  | .call c => c.okB w && roomB w &&
      (match c with
       | .insertBefore p new _ => decide (0 < count w p) && heldB w new
       | .appendChild p new => decide (0 < count w p) && heldB w new
       | .replaceChild p new _ => decide (0 < count w p) && heldB w new
       | _ => true)
  | .unref x => (w.nodes x).all fun n => decide (n.refcnt ≠ 1) || n.parent.isSome ||
      (allB w (fun m => decide (m.refcnt = 0) || m.parent.isNone || (m.prev.isNone && m.next.isNone)) &&
       (n.type ≠ .document || allB w fun m => m.type ≠ .fragment || m.pendingIn.isSome))
  | .clone x _ => (w.nodes x).any fun n => !badType n.type && (List.range w.fresh).all fun j => (w.nodes j).all fun m => m.parent.isNone || !badType m.type
  | _ => roomB w

def carefulB (led : Ledger) (w : World) (a : Act) : Bool := properB led w a && a.fineB w led

theorem room_of_roomB {w : World} (hb : ∀ i n, w.nodes i = some n → i < w.fresh) (h : roomB w = true) (x : NodeId) : Room w x := by
  intro n hn
  have := allB_elim hb h hn
  simp only [decide_eq_true_eq] at this
  omega

theorem listed_of_heldB {w : World} {new : NodeId} (h : heldB w new = true) : Listed w new := by
  intro n hn ht
  unfold heldB at h
  rw [hn] at h
  simp only [Option.all_some, ht, ne_eq, not_true_eq_false, decide_false, Bool.false_or, Bool.and_eq_true] at h
  intro h2
  rw [h2] at h
  exact absurd h.1 (by simp)

theorem docHeld_of_heldB {w : World} {ch : Children} (hC : Core w ch) {new : NodeId} (h : heldB w new = true) : DocHeld w new := by
  intro fn d dn hf ht ho hd
  unfold heldB at h
  rw [hf] at h
  simp only [Option.all_some, ht, ne_eq, not_true_eq_false, decide_false, Bool.false_or, Bool.and_eq_true] at h
  have h1 := allB_elim hC.bnd h.2 hd
  have hdt : dn.type = .document := by
    obtain ⟨d2, dn2, o1, o2, o3⟩ | ⟨_, o1, _⟩ := hC.owner new fn hf
    · rw [ho] at o1; cases o1; rw [hd] at o2; cases o2; exact o3
    · rw [ho] at o1; cases o1
  simpa [hdt] using h1

theorem held_of_count {w : World} {p : NodeId} (h : 0 < count w p) : Held w p := by
  unfold count at h
  cases hp : w.nodes p with
  | none => rw [hp] at h; exact absurd h (by simp)
  | some n => rw [hp] at h; exact ⟨n, hp, h⟩

theorem careful_of_carefulB {led : Ledger} {w : World} {ch : Children} (hC : Core w ch) {a : Act} (h : carefulB led w a = true) : Careful led w a := by
  simp only [carefulB, Bool.and_eq_true] at h
  refine ⟨proper_of_properB h.1, ?_⟩
  have h2 := h.2
  cases a with
  | call c =>
    unfold Act.fineB at h2
    rw [Bool.and_eq_true, Bool.and_eq_true] at h2
    obtain ⟨⟨h3, h4⟩, h5⟩ := h2
    have hroom := room_of_roomB hC.bnd h4
    refine ⟨ok_of_okB h3, ?_⟩
    cases c <;> try trivial
    all_goals try simp only [Bool.and_eq_true, decide_eq_true_eq] at h5
    · exact ⟨held_of_count h5.1, listed_of_heldB h5.2, docHeld_of_heldB hC h5.2, hroom _⟩
    · exact ⟨held_of_count h5.1, listed_of_heldB h5.2, docHeld_of_heldB hC h5.2, hroom _⟩
    · exact ⟨held_of_count h5.1, listed_of_heldB h5.2, docHeld_of_heldB hC h5.2, hroom _⟩
    · exact hroom _
  | putAttr e a name ns => trivial
  | get k x => exact fun n _ y _ => room_of_roomB hC.bnd h2 y
  | ref x => exact room_of_roomB hC.bnd h2 x
  | unref x =>
    intro n hn hr hp
    simp only [Act.fineB] at h2
    rw [hn] at h2
    simp only [Option.all_some, hr, hp, ne_eq, not_true_eq_false, decide_false, Option.isSome_none, Bool.false_or, Bool.and_eq_true] at h2
    refine ⟨?_, fun ht => ?_⟩
    · rintro c m ⟨q, m', _, k1, k2, k3⟩ hc
      rw [hc] at k1; cases k1
      have := allB_elim hC.bnd h2.1 hc
      simpa [k2, k3] using this
    · intro f fn hf hft _ hfp
      have h3 := h2.2
      simp only [ht, not_true_eq_false, decide_false, Bool.false_or] at h3
      have := allB_elim hC.bnd h3 hf
      simp [hft, hfp] at this
  | clone x deep =>
    simp only [Act.fineB] at h2
    cases hx : w.nodes x with
    | none => rw [hx] at h2; cases h2
    | some n =>
      rw [hx] at h2
      simp only [Option.any_some, Bool.and_eq_true, List.all_eq_true, List.mem_range] at h2
      have hbad : ∀ t : NodeType, (!badType t) = true → t ∉ [NodeType.document, .doctype, .entity, .notation_, .pi] := by
        intro t; cases t <;> decide
      refine .inl fun j m hj hm => ?_
      by_cases hjx : j = x
      · subst hjx; rw [hx] at hm; cases hm; exact hbad _ h2.1
      · have hanc : AncSelf w j x := hj.elim (fun h => absurd h hjx) (fun h => h.2)
        have := h2.2 j (hC.bnd j m hm)
        rw [hm] at this
        simp only [Option.all_some, Bool.or_eq_true, Option.isNone_iff_eq_none] at this
        rcases this with h | h
        · exact absurd (anc_top hm h hanc).symm hjx
        · exact hbad _ h

/-- Run the steps in sequence, as long as each passes the check `b` and returns. -/
def runActs (b : Ledger → World → Act → Bool) : List Act → Ledger → World → Option (Ledger × World)
  | [], led, w => some (led, w)
  | a :: as, led, w => if b led w a then (match a.run w with
      | .ok w' r => runActs b as (a.book led r) w'
      | .exc w' _ => runActs b as led w'
      | .fault _ => none) else none

theorem client_runActs {P : Ledger → World → Act → Prop} {b : Ledger → World → Act → Bool}
    (hb : ∀ led w a, Client P led w → b led w a = true → P led w a) :
    ∀ (as : List Act) (led led' : Ledger) (w w' : World), Client P led w → runActs b as led w = some (led', w') → Client P led' w' := by
  intro as
  induction as with
  | nil => intro led led' w w' hr h; simp only [runActs, Option.some.injEq, Prod.mk.injEq] at h; exact h.1 ▸ h.2 ▸ hr
  | cons a as ih =>
    intro led led' w w' hr h
    unfold runActs at h
    split at h
    · rename_i hc
      split at h
      · rename_i w1 r hw1
        exact ih _ led' w1 w' (.done a hr (hb led w a hr hc) hw1) h
      · rename_i w1 e hw1
        exact ih _ led' w1 w' (.refused a hr (hb led w a hr hc) hw1) h
      · cases h
    · cases h

theorem exists_client {P : Ledger → World → Act → Prop} {b : Ledger → World → Act → Bool}
    (hb : ∀ led w a, Client P led w → b led w a = true → P led w a) (as : List Act) (check : Ledger → World → Bool)
    (h : ((runActs b as (fun _ => 0) World.empty).any fun p => check p.1 p.2) = true) :
    ∃ led w, Client P led w ∧ check led w = true := by
  cases hw : runActs b as (fun _ => 0) World.empty with
  | none => rw [hw] at h; simp at h
  | some p =>
    obtain ⟨led, w⟩ := p
    rw [hw] at h
    exact ⟨led, w, client_runActs hb as _ led _ w .start hw, by simpa using h⟩

theorem exists_careful (as : List Act) (check : Ledger → World → Bool)
    (h : ((runActs carefulB as (fun _ => 0) World.empty).any fun p => check p.1 p.2) = true) :
    ∃ led w, Client Careful led w ∧ check led w = true :=
  exists_client (fun _ _ _ hc h => by
    obtain ⟨ch, S, _⟩ := hc.sound
    exact careful_of_carefulB S.wf.toCore h) as check h

theorem exists_proper (as : List Act) (check : Ledger → World → Bool)
    (h : ((runActs properB as (fun _ => 0) World.empty).any fun p => check p.1 p.2) = true) :
    ∃ led w, Client Proper led w ∧ check led w = true :=
  exists_client (fun _ _ _ _ h => proper_of_properB h) as check h

/-! ## The hypotheses are met -/

/-- A document (0) with an element (1) that has an attribute (2); in it an element (3) with a text (4), which is removed again; the references to the
attribute and to the element 1 are given up, so that the client has one reference to 0, three to 3 and one to 4. -/
def sampleActs : List Act :=
  [.call .createDocument, .call (.createNode 0 .element none none), .call (.createNode 0 .attribute none none),
   .call (.createNode 0 .element none none), .call (.createNode 0 .text none none), .putAttr 1 2 (Names.lit "id") none, .call (.appendChild 0 1),
   .call (.appendChild 1 3), .call (.appendChild 3 4), .unref 4, .unref 2, .call (.removeChild 1 3), .unref 1, .unref 1, .get .owner 3, .unref 0]

/-- After it the client can give up its reference to the document, whereupon 1 and 2 go and 0, 3 and 4 stay. -/
example : ∃ led w, Client Careful led w ∧ led 3 = 3 ∧ led 4 = 1 ∧ led 0 = 0 ∧ w.nodes 1 = none ∧ w.nodes 2 = none ∧ Live w 0 ∧ Live w 3 := by
  obtain ⟨led, w, h, hc⟩ := exists_careful (sampleActs ++ [.unref 0])
    (fun led w => decide (led 3 = 3) && decide (led 4 = 1) && decide (led 0 = 0) && (w.nodes 1).isNone && (w.nodes 2).isNone &&
      liveB w 0 && liveB w 3) (by decide +kernel)
  simp only [Bool.and_eq_true, decide_eq_true_eq, Option.isNone_iff_eq_none] at hc
  obtain ⟨⟨⟨⟨⟨⟨h1, h2⟩, h3⟩, h4⟩, h5⟩, h7⟩, h8⟩ := hc
  exact ⟨led, w, h, h1, h2, h3, h4, h5, live_of_liveB h7, live_of_liveB h8⟩

/-- And when it has given up all its references nothing is left. -/
example : ∃ led w, Client Careful led w ∧ w.fresh = 5 ∧ (∀ j < 5, led j = 0) ∧ ∀ j < 5, w.nodes j = none := by
  obtain ⟨led, w, h, hc⟩ := exists_careful (sampleActs ++ [.unref 0, .unref 3, .unref 3, .unref 3, .unref 4])
    (fun led w => decide (w.fresh = 5) && ((List.range 5).all fun j => decide (led j = 0)) && (List.range 5).all fun j => (w.nodes j).isNone)
    (by decide +kernel)
  simp only [Bool.and_eq_true, decide_eq_true_eq, List.all_eq_true, List.mem_range, Option.isNone_iff_eq_none] at hc
  exact ⟨led, w, h, hc.1.1, hc.1.2, hc.2⟩

/-! ## Where the code breaks the properties -/

/-- C46 is false of the code: `_dom_node_finalise` (src/core/node.c:253-260) cuts the children off but leaves their links to each other.  A parent is
released while its two children are referenced; then the second child is released; the next sibling of the first is then a freed node. -/
theorem C46_stale_sibling_violated : ∃ led w, Client Proper led w ∧ ∃ a, Proper led w a ∧ a.run w = .fault .useAfterFree := by
  obtain ⟨led, w, h, hc⟩ := exists_proper
    [.call .createDocument, .call (.createNode 0 .element none none), .call (.createNode 0 .text none none), .call (.createNode 0 .text none none),
     .call (.appendChild 1 2), .call (.appendChild 1 3), .unref 1, .unref 3, .unref 3]
    (fun led w => properB led w (.get .next 2) && decide (((Act.get .next 2).run w).outcome = .fault .useAfterFree)) (by decide +kernel)
  simp only [Bool.and_eq_true, decide_eq_true_eq] at hc
  refine ⟨led, w, h, .get .next 2, proper_of_properB hc.1, ?_⟩
  have h2 := hc.2
  cases hr : (Act.get .next 2).run w with
  | ok w' a => rw [hr] at h2; simp [Res.outcome] at h2
  | exc w' e => rw [hr] at h2; simp [Res.outcome] at h2
  | fault f => rw [hr] at h2; simp [Res.outcome] at h2; rw [h2]

/-- C19 is false of the code for the same reason: after the parent has been released a child without parent still has a next sibling. -/
theorem C19_released_parent_siblings_violated : ∃ led w, Client Proper led w ∧ ∃ j n, w.nodes j = some n ∧ 0 < led j ∧ n.parent = none ∧ n.next ≠ none := by
  obtain ⟨led, w, h, hc⟩ := exists_proper
    [.call .createDocument, .call (.createNode 0 .element none none), .call (.createNode 0 .text none none), .call (.createNode 0 .text none none),
     .call (.appendChild 1 2), .call (.appendChild 1 3), .unref 1]
    (fun led w => decide (0 < led 2) && at_ w 2 fun n => n.parent.isNone && n.next.isSome) (by decide +kernel)
  simp only [Bool.and_eq_true, decide_eq_true_eq] at hc
  obtain ⟨n, h1, h2⟩ := at_elim hc.2
  simp only [Bool.and_eq_true, Option.isNone_iff_eq_none, Option.isSome_iff_ne_none] at h2
  exact ⟨led, w, h, 2, n, h1, hc.1, h2.1, h2.2⟩

/-- C46 and C48 are false of the code: a DocumentFragment that has been inserted is not on the pending list of its document any more
(src/core/node.c:801, 2350-2360), so the document is freed although the client has a reference to the fragment; asking for the document of the fragment
then follows a dangling pointer. -/
theorem C46_fragment_document_freed_violated : ∃ led w, Client Proper led w ∧ ∃ f fn d, w.nodes f = some fn ∧ fn.type = .fragment ∧ 0 < led f ∧
    fn.owner = some d ∧ w.nodes d = none ∧ Proper led w (.get .owner f) ∧ (Act.get .owner f).run w = .fault .useAfterFree := by
  obtain ⟨led, w, h, hc⟩ := exists_proper
    [.call .createDocument, .call (.createNode 0 .element none none), .call (.createNode 0 .fragment none none), .call (.createNode 0 .text none none),
     .call (.appendChild 2 3), .unref 3, .unref 3, .call (.appendChild 1 2), .unref 1, .unref 0]
    (fun led w => (at_ w 2 fun n => n.type = .fragment && n.owner = some 0) && decide (0 < led 2) && (w.nodes 0).isNone && properB led w (.get .owner 2) &&
      decide (((Act.get .owner 2).run w).outcome = .fault .useAfterFree)) (by decide +kernel)
  simp only [Bool.and_eq_true, decide_eq_true_eq, Option.isNone_iff_eq_none] at hc
  obtain ⟨⟨⟨⟨h1, h2⟩, h3⟩, h4⟩, h5⟩ := hc
  obtain ⟨n, k1, k2⟩ := at_elim h1
  simp only [Bool.and_eq_true, decide_eq_true_eq] at k2
  refine ⟨led, w, h, 2, n, 0, k1, k2.1, h2, k2.2, h3, proper_of_properB h4, ?_⟩
  cases hr : (Act.get .owner 2).run w with
  | ok w' a => rw [hr] at h5; simp [Res.outcome] at h5
  | exc w' e => rw [hr] at h5; simp [Res.outcome] at h5
  | fault f => rw [hr] at h5; simp [Res.outcome] at h5; rw [h5]

/-- C47 is false of the code for the same reason: the last node of a document that the client has given up is put into such a DocumentFragment; when the
fragment is released nobody destroys the document.  The client has no reference left to any node ever created and the document is still in memory. -/
theorem C47_document_leaks_violated : ∃ led w, Client Proper led w ∧ (∀ j, j < w.fresh → led j = 0) ∧ IsType w 0 .document := by
  obtain ⟨led, w, h, hc⟩ := exists_proper
    [.call .createDocument, .call (.createNode 0 .element none none), .call (.createNode 0 .fragment none none), .call (.createNode 0 .text none none),
     .call (.appendChild 1 2), .unref 1, .unref 0, .call (.appendChild 2 3), .unref 3, .unref 3, .unref 2, .unref 2]
    (fun led w => decide (w.fresh = 4) && (List.range 4).all (fun j => led j = 0) && typeB w 0 .document) (by decide +kernel)
  simp only [Bool.and_eq_true, decide_eq_true_eq, List.all_eq_true, List.mem_range] at hc
  refine ⟨led, w, h, fun j hj => hc.1.2 j (by rw [hc.1.1] at hj; exact hj), isType_of_typeB hc.2⟩

end Dom.Tree
