import Verif.Tree.LifeViolations
import Verif.Tree.Content
/-!
# C28: cloneNode
-/
set_option linter.unusedSimpArgs false
set_option linter.unusedVariables false
namespace Dom.Tree
variable {w w' : World} {ch ch' : Children} {x d j : NodeId} {n dn : Node} {led : Ledger} {deep : Bool}

/-- The links determine the tree. -/
theorem Linked.unique (h : Linked w ch) (h' : Linked w ch') : ch' = ch := by
  funext p
  cases hp : w.nodes p with
  | none => rw [h.dead p hp, h'.dead p hp]
  | some n =>
    have key : ∀ l l' a a', ch p = a ++ l → ch' p = a' ++ l' → l'.head? = l.head? → l' = l := by
      intro l
      induction l with
      | nil =>
        intro l' a a' _ _ hh
        cases l' with
        | nil => rfl
        | cons _ _ => cases hh
      | cons c l ih =>
        intro l' a a' e1 e2 hh
        cases l' with
        | nil => cases hh
        | cons c' l' =>
          cases hh
          obtain ⟨m, g1, _, _, _, g2⟩ := (h.loc p n hp).kids a c l e1
          obtain ⟨m', g3, _, _, _, g4⟩ := (h'.loc p n hp).kids a' c l' e2
          rw [g1] at g3; cases g3
          rw [ih l' (a ++ [c]) (a' ++ [c]) (by rw [e1]; simp) (by rw [e2]; simp) (by rw [← g4, g2])]
    obtain ⟨m, g1, g2, _⟩ := (h.loc p n hp).ends
    obtain ⟨m', g3, g4, _⟩ := (h'.loc p n hp).ends
    rw [hp] at g1 g3; cases g1; cases g3
    exact key _ _ [] [] rfl rfl (by rw [← g4, g2])

/-- What is below or an attribute of a new node is new. -/
theorem Ext.anc (hC : Core w ch) (h : Ext w ch w' ch') {r : NodeId} (hr : w.fresh ≤ r) (ha : AncSelf w' j r) : w.fresh ≤ j := by
  induction ha using Relation.ReflTransGen.head_induction_on with
  | refl => exact hr
  | @head j q hq _ ih =>
    refine Nat.le_of_not_lt fun hlt => ?_
    obtain ⟨m, hm, hp⟩ := hq
    rw [h.nodes j hlt] at hm
    obtain ⟨qn, hqn⟩ := hC.linked.alive_parent hm hp
    exact Nat.not_lt.2 ih (hC.bnd q qn hqn)

theorem dead_of_fresh (hC : Core w ch) (h : w.fresh ≤ j) : w.nodes j = none := by
  cases hj : w.nodes j with
  | none => rfl
  | some m => exact absurd (hC.bnd j m hj) (Nat.not_lt.2 h)

/-- C28.  Cloning a node succeeds; the result is a new node without parent with the same type, name, value and owner document; a deep clone has the shape
of the original, a shallow one the same attributes and no children; the clone consists of new nodes only; the original tree is unchanged.
Missing: ProcessingInstructions, for which it is false (`C28_pi_clone_violated`).  The `value` is the one stored in the node; the value of an attribute
consists of its children, so for shallow clones of attributes the property is false too (`C28_shallow_attribute_violated`). -/
theorem C28_clone_partial (h : Client Careful led w) (hx : 0 < led x) (hL : Linked w ch)
    (hok : ∀ j m, (j = x ∨ deep = true ∧ Below ch x j) → w.nodes j = some m → m.type ∉ [.document, .doctype, .entity, .notation_, .pi]) :
    ∃ w' ch' r n m, cloneNode x deep w = .ok w' r ∧ Linked w' ch' ∧ w.nodes x = some n ∧ w'.nodes r = some m ∧ m.parent = none ∧
      m.type = n.type ∧ m.name = n.name ∧ m.value = n.value ∧ m.owner = n.owner ∧ m.refcnt = 1 ∧
      (deep = true → ∀ k, shape w' ch' k r = shape w ch k x) ∧
      (deep = false → ch' r = [] ∧ ∀ k, shape w' ch' k r = (shape w ch k x).bare) ∧
      (∀ j, AncSelf w' j r → w.nodes j = none) ∧
      (∀ j m, w.nodes j = some m → w'.nodes j = some m ∧ ch' j = ch j) := by
  obtain ⟨ch0, S, hl⟩ := h.sound
  have := hL.unique S.wf.linked
  subst this
  obtain ⟨n, hn, _⟩ := C46_referenced_nodes_live_partial h hx
  obtain ⟨v, cv, rn, h1, B⟩ := cloneNode_run S hn (deep := deep) hok
  refine ⟨v, cv, w.fresh, n, rn, h1, B.sound.wf.linked, hn, B.here, B.parent, B.type, B.name, B.value, B.owner, B.refcnt, ?_, ?_, ?_, ?_⟩
  · rintro rfl
    exact Built.shape hn B rfl
  · rintro rfl
    have hnil : cv w.fresh = [] := List.map_eq_nil_iff.1 (B.kids 0)
    refine ⟨hnil, fun k => ?_⟩
    cases k with
    | zero => rfl
    | succ k =>
      simp only [shape, hn, B.here, Shape.bare, hnil, List.map_nil]
      rw [B.type, B.name, B.value, B.ns, B.pfx]
      congr 1
      have := B.attrs k
      unfold attrShapes at this
      by_cases ht : n.type = .element
      · rw [if_pos ht] at this ⊢
        rw [if_pos ht]
        exact this
      · rw [if_neg ht, if_neg ht]
  · intro j hj
    exact dead_of_fresh S.wf.toCore (B.ext.anc S.wf.toCore (Nat.le_refl _) hj)
  · intro j m hj
    have hlt := S.wf.bnd j m hj
    exact ⟨by rw [B.ext.nodes j hlt]; exact hj, B.ext.kids j hlt⟩

/-- C28.  Cloning a Document or a DocumentType of a document is refused and changes nothing. -/
theorem C28_clone_refused (h : Client Careful led w) (hx : w.nodes x = some n) (ht : n.type = .document ∨ n.type = .doctype ∧ n.owner ≠ none) :
    cloneNode x deep w = .exc w .notSupported := by
  obtain ⟨ch, S, _⟩ := h.sound
  refine clone_refused hx ?_ (ht.imp_right fun h => h.1) deep
  rcases ht with ht | ht
  · rw [S.wf.ownDoc x n hx ht]; simp
  · exact ht.2

/-- C28 is false of the code for ProcessingInstructions: `_dom_pi_copy` returns the address of a variable of its caller (src/core/pi.c:119).  Whenever a
ProcessingInstruction is cloned the result is not a node, and the copy stays in memory with a reference that nobody has. -/
theorem C28_pi_clone_violated (h : Client Careful led w) (hx : w.nodes x = some n) (ht : n.type = .pi) :
    ∃ w' r m, cloneNode x deep w = .ok w' r ∧ w'.nodes r = none ∧ w'.nodes w.fresh = some m ∧ m.type = .pi ∧ m.refcnt = 1 ∧ r ≠ w.fresh := by
  obtain ⟨ch, S, _⟩ := h.sound
  have hown : n.owner ≠ none := by
    rcases S.wf.owner x n hx with ⟨d, _, o, _⟩ | ⟨o, _⟩
    · rw [o]; simp
    · rw [ht] at o; cases o
  obtain ⟨v, rn, h1, B, hfr, _⟩ := copyInternal_run S hx hown (by rw [ht]; simp) 0
  have hne : v.fresh ≠ w.fresh := by rw [hfr]; exact Nat.succ_ne_self _
  have hkids : ch x = [] := by
    cases hc : ch x with
    | nil => rfl
    | cons c l =>
      have hmem : c ∈ ch x := by rw [hc]; simp
      obtain ⟨cn, hcn, _⟩ := S.wf.linked.alive_child hmem
      have := S.wf.types x n c cn hx hmem hcn
      rw [ht] at this
      generalize cn.type = t at this
      cases this with
      | content hp _ => simp at hp
  have hfirst : n.first = none := by
    obtain ⟨m, hm, e, _⟩ := (S.wf.linked.loc x n hx).ends
    rw [hx] at hm; cases hm
    rw [e, hkids]; rfl
  let v2 : World := { v with nodes := fun j => if j = v.fresh then none else v.nodes j, fresh := v.fresh + 1 }
  have hcopy : copyNode (cloneWith w.fresh) n w = .ok v2 v.fresh := by
    unfold copyNode
    simp only [ht]
    unfold copyPI
    rw [bind_ok h1]
    show (alloc _ >>= _) v = _
    have ha : alloc { type := .pi } v = .ok (v.add { type := .pi }) v.fresh := rfl
    rw [bind_ok ha]
    have hf : freeNode v.fresh (v.add { type := .pi }) = .ok v2 () := by
      unfold freeNode
      rw [add_new]
      simp only [World.add, v2]
      congr 1
      simp only [World.mk.injEq, and_true]
      funext j
      by_cases hj : j = v.fresh <;> simp [hj]
    rw [bind_ok hf]
    rfl
  refine ⟨v2, v.fresh, rn, ?_, by simp [v2], ?_, B.type.trans ht, B.refcnt, hne⟩
  · unfold cloneNode
    rw [bound_bind]
    show cloneBody (cloneWith w.fresh) deep x w = _
    unfold cloneBody
    have hos : n.owner.isSome = true := by
      cases h : n.owner with
      | none => exact absurd h hown
      | some d => rfl
    rw [get_bind hx, hos, cassert_bind, bind_ok hcopy, bound_bind, hfirst]
    cases deep <;> simp [cloneKids] <;> rfl
  · simp only [v2, if_neg (Ne.symm hne)]
    exact B.here

/-! ## Concrete cases -/

/-- A document (0) with an element (1) that has an attribute (2) with a text (3), an element (4) in it with a text (5). -/
def cloneActs : List Act :=
  [.call .createDocument, .call (.createNode 0 .element (some (Names.lit "p")) none), .call (.createNode 0 .attribute (some (Names.lit "id")) none),
   .call (.createNode 0 .text none (some (Names.lit "v"))), .call (.createNode 0 .element (some (Names.lit "q")) none),
   .call (.createNode 0 .text none (some (Names.lit "t"))), .call (.appendChild 2 3), .putAttr 1 2 (Names.lit "id") none, .call (.appendChild 1 4),
   .call (.appendChild 4 5)]

/-- The hypotheses of `C28_clone_partial` are met by a deep clone: the clone has five nodes. -/
example : ∃ led w, Client Careful led w ∧ 0 < led 1 ∧ Careful led w (.clone 1 true) ∧ ∃ w', (Act.clone 1 true).run w = .ok w' (some 6) ∧ w'.fresh = 11 ∧
    contentOf w' 6 = .ok [116] := by
  obtain ⟨led, w, h, hc⟩ := exists_careful cloneActs (fun led w => decide (0 < led 1) && carefulB led w (.clone 1 true) &&
    (match (Act.clone 1 true).run w with
     | .ok w' r => decide (r = some 6) && decide (w'.fresh = 11) && decide (contentOf w' 6 = .ok [116])
     | _ => false)) (by decide +kernel)
  simp only [Bool.and_eq_true, decide_eq_true_eq] at hc
  obtain ⟨ch, S, _⟩ := h.sound
  refine ⟨led, w, h, hc.1.1, careful_of_carefulB S.wf.toCore hc.1.2, ?_⟩
  have h2 := hc.2
  cases hr : (Act.clone 1 true).run w with
  | ok w' r =>
    rw [hr] at h2
    simp only [Bool.and_eq_true, decide_eq_true_eq] at h2
    exact ⟨w', by rw [h2.1.1], h2.1.2, h2.2⟩
  | exc w' e => rw [hr] at h2; cases h2
  | fault f => rw [hr] at h2; cases h2

/-- The hypotheses of `C28_pi_clone_violated` are met. -/
example : ∃ led w, Client Careful led w ∧ IsType w 1 .pi ∧ 0 < led 1 := by
  obtain ⟨led, w, h, hc⟩ := exists_careful [.call .createDocument, .call (.createNode 0 .pi none none)]
    (fun led w => typeB w 1 .pi && decide (0 < led 1)) (by decide +kernel)
  simp only [Bool.and_eq_true, decide_eq_true_eq] at hc
  exact ⟨led, w, h, isType_of_typeB hc.1, hc.2⟩

/-- The hypotheses of `C28_clone_refused` are met. -/
example : ∃ led w, Client Careful led w ∧ IsType w 0 .document := by
  obtain ⟨led, w, h, hc⟩ := exists_careful [.call .createDocument] (fun led w => typeB w 0 .document) (by decide +kernel)
  exact ⟨led, w, h, isType_of_typeB hc⟩

/-- C28 is false of the code for shallow clones of attributes: their children, which are the value, are not cloned, although the comment above the function
says that they always are (src/core/node.c:1125-1160 has no such case and no other clone function exists for attributes). -/
theorem C28_shallow_attribute_violated : ∃ led w, Client Careful led w ∧ 0 < led 2 ∧ IsType w 2 .attribute ∧ contentOf w 2 = .ok [118] ∧
    ∃ w' r, cloneNode 2 false w = .ok w' r ∧ contentOf w' r = .ok [] := by
  obtain ⟨led, w, h, hc⟩ := exists_careful cloneActs (fun led w => decide (0 < led 2) && typeB w 2 .attribute && decide (contentOf w 2 = .ok [118]) &&
    (match cloneNode 2 false w with
     | .ok w' r => decide (contentOf w' r = .ok [])
     | _ => false)) (by decide +kernel)
  simp only [Bool.and_eq_true, decide_eq_true_eq] at hc
  refine ⟨led, w, h, hc.1.1.1, isType_of_typeB hc.1.1.2, hc.1.2, ?_⟩
  have h2 := hc.2
  cases hr : cloneNode 2 false w with
  | ok w' r =>
    rw [hr] at h2
    simp only [decide_eq_true_eq] at h2
    exact ⟨w', r, rfl, h2⟩
  | exc w' e => rw [hr] at h2; cases h2
  | fault f => rw [hr] at h2; cases h2

/-- C46 is false of the code: a deep clone of an element with a ProcessingInstruction in it follows the address that `_dom_pi_copy` returns. -/
theorem C46_pi_clone_violated : ∃ led w, Client Careful led w ∧ ∃ a, Proper led w a ∧ a.run w = .fault .useAfterFree := by
  obtain ⟨led, w, h, hc⟩ := exists_careful
    [.call .createDocument, .call (.createNode 0 .element none none), .call (.createNode 0 .pi none none), .call (.appendChild 1 2)]
    (fun led w => properB led w (.clone 1 true) && decide (((Act.clone 1 true).run w).outcome = .fault .useAfterFree)) (by decide +kernel)
  simp only [Bool.and_eq_true, decide_eq_true_eq] at hc
  refine ⟨led, w, h, .clone 1 true, proper_of_properB hc.1, ?_⟩
  have h2 := hc.2
  cases hr : (Act.clone 1 true).run w with
  | ok w' a => rw [hr] at h2; simp [Res.outcome] at h2
  | exc w' e => rw [hr] at h2; simp [Res.outcome] at h2
  | fault f => rw [hr] at h2; simp [Res.outcome] at h2; rw [h2]

/-- C46 is false of the code: cloning a DocumentType that has been put into no document fails the assertion src/core/node.c:1132. -/
theorem C46_doctype_clone_violated : ∃ led w, Client Careful led w ∧ ∃ a, Proper led w a ∧ a.run w = .fault .assertFail := by
  obtain ⟨led, w, h, hc⟩ := exists_careful [.call (.createDoctype none)]
    (fun led w => properB led w (.clone 0 true) && decide (((Act.clone 0 true).run w).outcome = .fault .assertFail)) (by decide +kernel)
  simp only [Bool.and_eq_true, decide_eq_true_eq] at hc
  refine ⟨led, w, h, .clone 0 true, proper_of_properB hc.1, ?_⟩
  have h2 := hc.2
  cases hr : (Act.clone 0 true).run w with
  | ok w' a => rw [hr] at h2; simp [Res.outcome] at h2
  | exc w' e => rw [hr] at h2; simp [Res.outcome] at h2
  | fault f => rw [hr] at h2; simp [Res.outcome] at h2; rw [h2]

end Dom.Tree
