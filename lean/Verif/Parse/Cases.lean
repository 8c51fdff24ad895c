import Verif.Parse.Props
import Verif.Tree.Concrete
/-!
# C64: concrete cases
-/
set_option linter.unusedSimpArgs false
namespace Dom.Parse
open Dom.Tree

variable {w : World} {ch : Children}

/-- A document (0), an element (1) with the texts "A" (2) and "B" (3), an element (4) and a text "C" (5) without parents. -/
def parsed : List Act :=
  [.call .createDocument, .call (.createNode 0 .element none none), .call (.createNode 0 .text none (strOf [65])),
   .call (.createNode 0 .text none (strOf [66])), .call (.createNode 0 .element none none), .call (.createNode 0 .text none (strOf [67])),
   .call (.appendChild 1 2), .call (.appendChild 1 3)]

/-- The hypotheses of `C64_reparent` are met, and the two texts move. -/
example : ∃ led w ch, Client Careful led w ∧ WF w ch ∧ ch 1 = [2, 3] ∧ Movable w 1 4 (ch 1) ∧
    (∀ c ∈ ch 1, ∀ n, w.nodes c = some n → n.refcnt + 2 < 2 ^ 32) ∧
    ∃ w', reparentChildren 1 4 w = .ok w' .done ∧ kidsOf w' 4 = [2, 3] ∧ kidsOf w' 1 = [] := by
  obtain ⟨led, w, h, hc⟩ := exists_careful parsed (fun _ w => noEntities w && decide (kidsOf w 1 = [2, 3]) &&
    at_ w 1 (fun n => n.type = .element && n.owner = some 0) && at_ w 4 (fun n => n.type = .element && n.owner = some 0 && n.parent = none) &&
    at_ w 2 (fun n => n.type = .text && decide (n.refcnt < 10)) && at_ w 3 (fun n => n.type = .text && decide (n.refcnt < 10)) &&
    (reparentChildren 1 4 w).okB fun w' r => decide (r = .done) && decide (kidsOf w' 4 = [2, 3]) && decide (kidsOf w' 1 = [])) (by decide +kernel)
  simp only [Bool.and_eq_true, decide_eq_true_eq] at hc
  obtain ⟨⟨⟨⟨⟨⟨h1, h2⟩, h3⟩, h4⟩, h5⟩, h6⟩, h7⟩ := hc
  obtain ⟨n1, e1, t1⟩ := at_elim h3
  obtain ⟨n4, e4, t4⟩ := at_elim h4
  obtain ⟨n2, e2, t2⟩ := at_elim h5
  obtain ⟨n3, e3, t3⟩ := at_elim h6
  simp only [Bool.and_eq_true, decide_eq_true_eq] at t1 t2 t3 t4
  obtain ⟨w', r, h8, h9⟩ := okB_elim h7
  simp only [Bool.and_eq_true, decide_eq_true_eq] at h9
  obtain ⟨⟨rfl, h10⟩, h11⟩ := h9
  obtain ⟨ch, S, _⟩ := h.sound
  have hch : ch 1 = [2, 3] := by rw [kids_eq S.wf.toCore]; exact h2
  refine ⟨led, w, ch, h, S.wf, hch, ⟨⟨n1, e1, by rw [t1.1]; simp⟩, ⟨n4, e4, by rw [t4.1.1]; simp⟩, ?_, ⟨writable_of S.wf h1 e1 t1.1,
    writable_of S.wf h1 e4 t4.1.1⟩, ?_, ?_⟩, ?_, w', h8, h10, h11⟩
  · rw [e1, e4]; simp [t1.2, t4.1.2]
  · intro c hc ha
    rw [hch] at hc
    rcases Relation.ReflTransGen.cases_head ha with h | ⟨b, ⟨n, hn, hp⟩, _⟩
    · subst h; simp at hc
    · rw [e4] at hn; cases hn; rw [t4.2] at hp; cases hp
  · intro c hc cn qn hcn hqn
    rw [hch] at hc
    rw [e4] at hqn; cases hqn
    rw [t4.1.1]
    simp only [List.mem_cons, List.not_mem_nil, or_false] at hc
    rcases hc with rfl | rfl
    · rw [e2] at hcn; cases hcn; rw [t2.1]; exact .content (by simp) (by simp)
    · rw [e3] at hcn; cases hcn; rw [t3.1]; exact .content (by simp) (by simp)
  · intro c hc n hn
    rw [hch] at hc
    simp only [List.mem_cons, List.not_mem_nil, or_false] at hc
    rcases hc with rfl | rfl
    · rw [e2] at hn; cases hn; omega
    · rw [e3] at hn; cases hn; omega

/-- The case of `C64_append_text_partial`: appending the text "C" to the element makes "BC" of its last text; `C64_append_node`: the element (4) becomes
the last child. -/
example : ∃ led w, Client Careful led w ∧
    (∃ w', appendChild 1 5 w = .ok w' (.done, none) ∧ (∃ n, w'.nodes 3 = some n ∧ n.value.map Str.DStr.data = some [66, 67]) ∧ kidsOf w' 1 = [2, 3]) ∧
    (∃ w', appendChild 1 4 w = .ok w' (.done, some 4) ∧ kidsOf w' 1 = [2, 3, 4]) ∧
    (∃ w', appendChild 4 1 w = .ok w' (.done, some 1)) ∧ appendChild 1 1 w = .ok w (.failed, none) := by
  obtain ⟨led, w, h, hc⟩ := exists_careful parsed (fun _ w =>
    ((appendChild 1 5 w).okB fun w' r => decide (r = (.done, none)) && at_ w' 3 (fun n => n.value.map Str.DStr.data = some [66, 67]) && decide (kidsOf w' 1 = [2, 3])) &&
    ((appendChild 1 4 w).okB fun w' r => decide (r = (.done, some 4)) && decide (kidsOf w' 1 = [2, 3, 4])) &&
    ((appendChild 4 1 w).okB fun w' r => decide (r = (.done, some 1))) && at_ w 1 (fun n => n.type = .element && n.last = some 3)) (by decide +kernel)
  simp only [Bool.and_eq_true, decide_eq_true_eq] at hc
  obtain ⟨⟨⟨h1, h2⟩, h3⟩, h4⟩ := hc
  obtain ⟨w1, r1, a1, b1⟩ := okB_elim h1
  obtain ⟨w2, r2, a2, b2⟩ := okB_elim h2
  obtain ⟨w3, r3, a3, b3⟩ := okB_elim h3
  simp only [Bool.and_eq_true, decide_eq_true_eq] at b1 b2 b3
  obtain ⟨n3, e3, t3⟩ := at_elim b1.1.2
  obtain ⟨n1, e1, t1⟩ := at_elim h4
  simp only [Bool.and_eq_true, decide_eq_true_eq] at t1 t3
  obtain ⟨ch, S, _⟩ := h.sound
  refine ⟨led, w, h, ⟨w1, by rw [a1, b1.1.1], ⟨n3, e3, t3⟩, b1.2⟩, ⟨w2, by rw [a2, b2.1], b2.2⟩, ⟨w3, by rw [a3, b3]⟩, ?_⟩
  refine (C64_append_node S.wf e1 e1 (by rw [t1.1]; simp) (by rw [t1.1]; simp)).2 ?_
  rintro ⟨_, _, h, _⟩
  exact h .refl

/-- The case of `C64_reparent_refused`: a Document whose first child is an element. -/
example : ∃ led w ch xn c cs cn, Client Careful led w ∧ WF w ch ∧ w.nodes 0 = some xn ∧ ch 0 = c :: cs ∧ w.nodes c = some cn ∧ cn.refcnt + 1 < 2 ^ 32 ∧
    xn.type = .document ∧ cn.type = .element := by
  obtain ⟨led, w, h, hc⟩ := exists_careful (parsed ++ [.call (.appendChild 0 1)]) (fun _ w => at_ w 0 (fun n => n.type = .document && n.first = some 1) &&
    at_ w 1 (fun n => n.type = .element && decide (n.refcnt < 9))) (by decide +kernel)
  simp only [Bool.and_eq_true] at hc
  obtain ⟨n0, e0, t0⟩ := at_elim hc.1
  obtain ⟨n1, e1, t1⟩ := at_elim hc.2
  simp only [Bool.and_eq_true, decide_eq_true_eq] at t0 t1
  obtain ⟨ch, S, _⟩ := h.sound
  obtain ⟨m, hm, h1, _⟩ := (S.wf.linked.loc 0 n0 e0).ends
  rw [e0] at hm; cases hm
  rw [t0.2] at h1
  cases hl : ch 0 with
  | nil => rw [hl] at h1; cases h1
  | cons c cs =>
    rw [hl] at h1
    cases h1
    exact ⟨led, w, ch, n0, 1, cs, n1, h, S.wf, e0, hl, e1, by omega, t0.1, t1.1⟩

/-- C64 is false of the code for a text that has a parent: `append_child` does not move it but copies it (with the texts next to it) into the last text
of the parent (bindings/hubbub/parser.c:353-355); the element with the texts "A" and "B" then reads "ABAB". -/
theorem C64_append_attached_violated : ∃ led w, Client Careful led w ∧ kidsOf w 1 = [2, 3] ∧ contentOf w 1 = .ok [65, 66] ∧
    ∃ w', appendChild 1 2 w = .ok w' (.done, none) ∧ kidsOf w' 1 = [2, 3] ∧ contentOf w' 1 = .ok [65, 66, 65, 66] := by
  obtain ⟨led, w, h, hc⟩ := exists_careful parsed (fun _ w => decide (kidsOf w 1 = [2, 3]) && decide (contentOf w 1 = .ok [65, 66]) &&
    (appendChild 1 2 w).okB fun w' r => decide (r = (.done, none)) && decide (kidsOf w' 1 = [2, 3]) && decide (contentOf w' 1 = .ok [65, 66, 65, 66]))
    (by decide +kernel)
  simp only [Bool.and_eq_true, decide_eq_true_eq] at hc
  obtain ⟨w', r, a, b⟩ := okB_elim hc.2
  simp only [Bool.and_eq_true, decide_eq_true_eq] at b
  exact ⟨led, w, h, hc.1.1, hc.1.2, w', by rw [a, b.1.1], b.1.2, b.2⟩

/-- C64 is false of the code when the new parent is a child of the node: `reparent_children` reports an error, but only after it has moved the children
before it and has taken the new parent itself out of the tree (bindings/hubbub/parser.c:444-458). -/
theorem C64_reparent_fail_violated : ∃ led w, Client Careful led w ∧ kidsOf w 1 = [2, 3, 4] ∧
    ∃ w', reparentChildren 1 4 w = .ok w' .failed ∧ kidsOf w' 1 = [] ∧ kidsOf w' 4 = [2, 3] ∧ ∃ n, w'.nodes 4 = some n ∧ n.parent = none := by
  obtain ⟨led, w, h, hc⟩ := exists_careful (parsed ++ [.call (.appendChild 1 4)]) (fun _ w => decide (kidsOf w 1 = [2, 3, 4]) &&
    (reparentChildren 1 4 w).okB fun w' r => decide (r = .failed) && decide (kidsOf w' 1 = []) && decide (kidsOf w' 4 = [2, 3]) && at_ w' 4 (fun n => n.parent = none))
    (by decide +kernel)
  simp only [Bool.and_eq_true, decide_eq_true_eq] at hc
  obtain ⟨w', r, a, b⟩ := okB_elim hc.2
  simp only [Bool.and_eq_true, decide_eq_true_eq] at b
  obtain ⟨n, e, t⟩ := at_elim b.2
  simp only [decide_eq_true_eq] at t
  exact ⟨led, w, h, hc.1, w', by rw [a, b.1.1.1], b.1.1.2, b.1.2, n, e, t⟩

/-- The hypotheses of `C64_reparent_self_violated`, `C64_get_parent_partial` and `C64_get_parent_violated` are met: the element (1) has children and no
parent. -/
example : ∃ led w ch, Client Careful led w ∧ Sound w ch ∧ ch 1 ≠ [] ∧ (∃ n, w.nodes 1 = some n ∧ n.type = .element ∧ n.parent = none ∧ ¬ ReadOnly w 1) ∧
    (∃ n, w.nodes 2 = some n ∧ n.type = .text ∧ n.parent = some 1) ∧ reparentChildren 1 1 w = .fault .diverge ∧ getParent 1 true w = .fault .nullDeref := by
  obtain ⟨led, w, h, hc⟩ := exists_careful parsed (fun _ w => noEntities w && decide (kidsOf w 1 = [2, 3]) &&
    at_ w 1 (fun n => n.type = .element && n.parent = none) && at_ w 2 (fun n => n.type = .text && n.parent = some 1 && decide (n.refcnt < 10)) &&
    at_ w 3 (fun n => decide (n.refcnt < 10))) (by decide +kernel)
  simp only [Bool.and_eq_true, decide_eq_true_eq] at hc
  obtain ⟨⟨⟨⟨h1, h2⟩, h3⟩, h5⟩, h6⟩ := hc
  obtain ⟨n1, e1, t1⟩ := at_elim h3
  obtain ⟨n2, e2, t2⟩ := at_elim h5
  obtain ⟨n3, e3, t3⟩ := at_elim h6
  simp only [Bool.and_eq_true, decide_eq_true_eq] at t1 t2 t3
  obtain ⟨ch, S, _⟩ := h.sound
  have hch : ch 1 = [2, 3] := by rw [kids_eq S.wf.toCore]; exact h2
  have hro := writable_of S.wf h1 e1 t1.1
  refine ⟨led, w, ch, h, S, by rw [hch]; simp, ⟨n1, e1, t1.1, t1.2, hro⟩, ⟨n2, e2, t2.1.1, t2.1.2⟩, ?_, C64_get_parent_violated e1 t1.2⟩
  unfold reparentChildren
  rw [bound_bind]
  refine C64_reparent_self_violated _ w ch n1 S.wf e1 (by rw [t1.1]; simp) hro (by rw [hch]; simp) ?_
  intro c hc n hn
  rw [hch] at hc
  simp only [List.mem_cons, List.not_mem_nil, or_false] at hc
  rcases hc with rfl | rfl
  · rw [e2] at hn; cases hn; omega
  · rw [e3] at hn; cases hn; omega

end Dom.Parse
