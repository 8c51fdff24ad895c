import Verif.Tree.NormalizeRun
import Verif.Tree.PropsClone
/-!
# C31: normalize
-/
set_option linter.unusedSimpArgs false
set_option linter.unusedVariables false
namespace Dom.Tree
variable {w w' : World} {ch ch' : Children} {x d j : NodeId} {n dn : Node} {led : Ledger}

/-- C31, the first half, where the code looks: after a `normalize` that returns success no two adjacent Text siblings are left in `x` nor in any node that is
neither a first child nor a Text node of such a node; nothing but Text nodes has been taken out there, and elsewhere the tree is as it was.
Missing: what is below first children (`C31_first_child_violated`), empty Text nodes (`C31_empty_text_violated`), the text content
(`C31_text_duplicated_violated`); a Text node referenced exactly once may not be merged away (`C46_normalize_violated`). -/
theorem C31_no_adjacent_partial (h : Client Careful led w) (hx : 0 < led x) (hL : Linked w ch)
    (hone : ∀ j m, Below ch x j → w.nodes j = some m → m.type = .text → m.refcnt ≠ 1) (hok : normalize x w = .ok w' ()) :
    ∃ ch', Linked w' ch' ∧ (∀ j, (w'.nodes j).map Node.type = (w.nodes j).map Node.type) ∧
      (∀ y, Visits (isText w) ch x y → (∀ a b l1 l2, ch' y = l1 ++ a :: b :: l2 → ¬ (IsType w' a .text ∧ IsType w' b .text)) ∧
        (ch' y).Sublist (ch y) ∧ ∀ c ∈ ch y, ¬ IsType w c .text → c ∈ ch' y) ∧
      ∀ y, ¬ Visits (isText w) ch x y → ch' y = ch y := by
  obtain ⟨ch0, S, _⟩ := h.sound
  have := hL.unique S.wf.linked
  subst this
  obtain ⟨n, hn, _⟩ := C46_referenced_nodes_live_partial h hx
  obtain ⟨ch', hN⟩ := normalize_ok S.wf hn hone hok
  have hty : ∀ j, IsType w' j .text → isText w j = true := by
    rintro j ⟨m, hm, ht⟩
    have := hN.like.types j
    rw [hm] at this
    cases hj : w.nodes j with
    | none => rw [hj] at this; cases this
    | some k =>
      rw [hj] at this
      simp only [Option.map_some, Option.some.injEq] at this
      rw [isText_some hj, ← this, ht]; rfl
  refine ⟨ch', hN.wf.linked, hN.like.types, fun y hy => ⟨?_, ?_, ?_⟩, hN.no⟩
  · rintro a b l1 l2 e ⟨ha, hb⟩
    rw [hN.yes y hy] at e
    exact squash_adjacent _ _ (Nat.le_refl _) a b l1 l2 e ⟨hty a ha, hty b hb⟩
  · rw [hN.yes y hy]; exact squash_sublist _ _ (Nat.le_refl _)
  · intro c hc ht
    rw [hN.yes y hy]
    refine squash_kept _ _ (Nat.le_refl _) hc ?_
    obtain ⟨m, hm, _⟩ := S.wf.linked.alive_child hc
    rw [isText_some hm]
    exact decide_eq_false fun h => ht ⟨m, hm, h⟩

theorem normalizeLoop_idle {rec : NodeId → M Unit} (hW : WF w ch) (hx : w.nodes x = some n) : ∀ (fuel : Nat) (p : NodeId) (a rest : List NodeId),
    ch x = a ++ p :: rest → rest.length ≤ fuel → (∀ c ∈ rest, isText w c = false → rec c w = .ok w ()) →
    (∀ a b l1 l2, ch x = l1 ++ a :: b :: l2 → ¬ (isText w a = true ∧ isText w b = true)) → normalizeLoop rec fuel p rest.head? w = .ok w () := by
  intro fuel
  induction fuel with
  | zero =>
    intro p a rest hc hl _ _
    cases rest with
    | nil => rfl
    | cons _ _ => simp at hl
  | succ fuel ih =>
    intro p a rest hc hl hrec hadj
    cases rest with
    | nil => rfl
    | cons b rest =>
      obtain ⟨pn, hp, _⟩ := (hW.linked.loc x n hx).kids a p (b :: rest) hc
      have hc' : ch x = (a ++ [p]) ++ b :: rest := by rw [hc]; simp
      obtain ⟨bn, hb, _, _, _, hnext⟩ := (hW.linked.loc x n hx).kids (a ++ [p]) b rest hc'
      rw [List.head?_cons]
      unfold normalizeLoop
      have hna := hadj p b a rest hc
      rw [isText_some hp, isText_some hb] at hna
      rw [get_bind hb, get_bind hp, if_neg (by simp at hna; tauto)]
      have h1 : (if bn.type ≠ .text then rec b else pure ()) w = .ok w () := by
        split
        · rename_i ht
          exact hrec b (by simp) (by rw [isText_some hb]; simp [ht])
        · rfl
      rw [bind_ok h1, get_bind hb, hnext]
      exact ih b (a ++ [p]) rest hc' (by simp at hl; omega) (fun c hc => hrec c (List.mem_cons_of_mem _ hc)) hadj

theorem normalizeWith_idle (hW : WF w ch) : ∀ (fuel : Nat) (x : NodeId) (n : Node), w.nodes x = some n → Ht ch fuel x →
    (∀ y, Visits (isText w) ch x y → ∀ a b l1 l2, ch y = l1 ++ a :: b :: l2 → ¬ (isText w a = true ∧ isText w b = true)) →
    normalizeWith fuel x w = .ok w () := by
  intro fuel
  induction fuel with
  | zero => intro x n _ h; cases h
  | succ fuel ih =>
    intro x n hx hh hadj
    show normalizeBody (normalizeWith fuel) x w = _
    unfold normalizeBody
    obtain ⟨n', hn', hf, _⟩ := (hW.linked.loc x n hx).ends
    rw [hx] at hn'; cases hn'
    rw [get_bind hx, hf]
    cases hc : ch x with
    | nil => rfl
    | cons p rest =>
      simp only [List.head?_cons]
      obtain ⟨pn, hp, _, _, _, hnext⟩ := (hW.linked.loc x n hx).kids [] p rest hc
      rw [get_bind hp, bound_bind, hnext]
      refine normalizeLoop_idle hW hx _ p [] rest hc ?_ ?_ (hadj x (.self x))
      · have := kids_length hW.toCore x
        rw [hc] at this
        simp only [List.length_cons] at this
        exact Nat.le_trans (Nat.le_succ _) (Nat.le_trans this (Nat.le_succ _))
      · intro c hcr ht
        have hcx : c ∈ ch x := by rw [hc]; exact List.mem_cons_of_mem _ hcr
        obtain ⟨cn, hcn, _⟩ := hW.linked.alive_child hcx
        refine ih c cn hcn (hh c hcx) fun y hy => hadj y (.step ?_ ht hy)
        rw [hc]; exact hcr

/-- C31.  When there are no adjacent Text siblings below the node, `normalize` returns success and changes nothing: in particular the text content stays.
(Nodes that are not below the node may have any children.) -/
theorem C31_normal_unchanged_partial (h : Client Careful led w) (hx : 0 < led x) (hL : Linked w ch)
    (hadj : ∀ y, Below ch x y → ∀ a b l1 l2, ch y = l1 ++ a :: b :: l2 → ¬ (IsType w a .text ∧ IsType w b .text)) : normalize x w = .ok w () := by
  obtain ⟨ch0, S, _⟩ := h.sound
  have := hL.unique S.wf.linked
  subst this
  obtain ⟨n, hn, _⟩ := C46_referenced_nodes_live_partial h hx
  have hty : ∀ j, isText w j = true → IsType w j .text := by
    intro j h
    cases hj : w.nodes j with
    | none => simp [isText, hj] at h
    | some m => rw [isText_some hj] at h; exact ⟨m, hj, by simpa using h⟩
  unfold normalize
  rw [bound_bind]
  exact normalizeWith_idle S.wf _ x n hn ((S.wf.ht hn).mono (Nat.le_trans (Nat.le_succ _) (Nat.le_succ _)))
    fun y hy a b l1 l2 e h => hadj y hy.under a b l1 l2 e ⟨hty a h.1, hty b h.2⟩

/-! ## Concrete cases -/

/-- The call succeeds and the check holds of what it leaves. -/
def Res.okB {α : Type} (r : Res α) (f : World → α → Bool) : Bool :=
  match r with
  | .ok w a => f w a
  | _ => false

theorem okB_elim {α : Type} {r : Res α} {f : World → α → Bool} (h : r.okB f = true) : ∃ w a, r = .ok w a ∧ f w a = true := by
  cases r with
  | ok w a => exact ⟨w, a, rfl, h⟩
  | exc w e => cases h
  | fault e => cases h

/-- A document with an element (1) with texts "A" (2) and "B" (3), which the client has released after inserting. -/
def textActs : List Act :=
  [.call .createDocument, .call (.createNode 0 .element none none), .call (.createNode 0 .text none (some (Names.lit "A"))),
   .call (.createNode 0 .text none (some (Names.lit "B"))), .call (.appendChild 1 2), .call (.appendChild 1 3), .unref 2, .unref 2, .unref 3, .unref 3]

/-- The hypotheses of `C31_no_adjacent_partial` are met. -/
example : ∃ led w, Client Careful led w ∧ 0 < led 1 ∧ (∀ j m, j < 4 → w.nodes j = some m → m.type = .text → m.refcnt ≠ 1) ∧
    ∃ w', normalize 1 w = .ok w' () ∧ ∃ n, w'.nodes 1 = some n ∧ n.first = some 2 ∧ n.last = some 2 := by
  obtain ⟨led, w, h, hc⟩ := exists_careful textActs (fun led w => decide (0 < led 1) &&
    ((List.range 4).all fun j => (w.nodes j).all fun m => m.type ≠ .text || m.refcnt ≠ 1) &&
    (normalize 1 w).okB fun w' _ => at_ w' 1 fun n => n.first = some 2 && n.last = some 2) (by decide +kernel)
  simp only [Bool.and_eq_true, decide_eq_true_eq] at hc
  obtain ⟨w', _, h1, h2⟩ := okB_elim hc.2
  obtain ⟨n, k1, k2⟩ := at_elim h2
  simp only [Bool.and_eq_true, decide_eq_true_eq] at k2
  refine ⟨led, w, h, hc.1.1, ?_, w', h1, n, k1, k2⟩
  intro j m hj hm ht
  have := List.all_eq_true.1 hc.1.2 j (List.mem_range.2 hj)
  rw [hm] at this
  simpa [ht] using this

/-- C31 is false of the code: `_dom_merge_adjacent_text` (src/core/node.c:2271-2291) appends the whole text of the second node, which begins with the data of
the first.  The texts "A" and "B" become "AAB". -/
theorem C31_text_duplicated_violated : ∃ led w, Client Careful led w ∧ 0 < led 1 ∧ contentOf w 1 = .ok [65, 66] ∧
    ∃ w', normalize 1 w = .ok w' () ∧ contentOf w' 1 = .ok [65, 65, 66] := by
  obtain ⟨led, w, h, hc⟩ := exists_careful textActs (fun led w => decide (0 < led 1) && decide (contentOf w 1 = .ok [65, 66]) &&
    (normalize 1 w).okB fun w' _ => decide (contentOf w' 1 = .ok [65, 65, 66])) (by decide +kernel)
  simp only [Bool.and_eq_true, decide_eq_true_eq] at hc
  obtain ⟨w', _, h1, h2⟩ := okB_elim hc.2
  exact ⟨led, w, h, hc.1.1, hc.1.2, w', h1, by simpa using h2⟩

/-- C31 is false of the code: `_dom_node_normalize` never looks into the first child (src/core/node.c:1190-1196).  The two texts in the first child
of 4 stay. -/
theorem C31_first_child_violated : ∃ led w, Client Careful led w ∧ 0 < led 4 ∧
    ∃ w', normalize 4 w = .ok w' () ∧ ∃ n a b, w'.nodes 4 = some n ∧ n.first = some 1 ∧ w'.nodes 2 = some a ∧ w'.nodes 3 = some b ∧
      a.parent = some 1 ∧ a.type = .text ∧ b.type = .text ∧ a.next = some 3 := by
  obtain ⟨led, w, h, hc⟩ := exists_careful (textActs ++ [.call (.createNode 0 .element none none), .call (.appendChild 4 1)])
    (fun led w => decide (0 < led 4) && (normalize 4 w).okB fun w' _ => (at_ w' 4 fun n => n.first = some 1) &&
      (at_ w' 2 fun a => a.parent = some 1 && a.type = .text && a.next = some 3) && at_ w' 3 fun b => b.type = .text) (by decide +kernel)
  simp only [Bool.and_eq_true, decide_eq_true_eq] at hc
  obtain ⟨w', _, h1, h2⟩ := okB_elim hc.2
  simp only [Bool.and_eq_true] at h2
  obtain ⟨n, k1, k2⟩ := at_elim h2.1.1
  obtain ⟨a, a1, a2⟩ := at_elim h2.1.2
  obtain ⟨b, b1, b2⟩ := at_elim h2.2
  simp only [Bool.and_eq_true, decide_eq_true_eq] at k2 a2 b2
  exact ⟨led, w, h, hc.1, w', h1, n, a, b, k1, k2, a1, b1, a2.1.1, a2.1.2, b2, a2.2⟩

/-- C31 is false of the code: empty Text nodes stay. -/
theorem C31_empty_text_violated : ∃ led w, Client Careful led w ∧ 0 < led 1 ∧
    ∃ w', normalize 1 w = .ok w' () ∧ ∃ n a, w'.nodes 1 = some n ∧ n.first = some 2 ∧ w'.nodes 2 = some a ∧ a.type = .text ∧
      a.value.map Str.DStr.data = some [] := by
  obtain ⟨led, w, h, hc⟩ := exists_careful
    [.call .createDocument, .call (.createNode 0 .element none none), .call (.createNode 0 .text none (some (Names.lit ""))), .call (.appendChild 1 2)]
    (fun led w => decide (0 < led 1) && (normalize 1 w).okB fun w' _ => (at_ w' 1 fun n => n.first = some 2) &&
      (at_ w' 2 fun a => a.type = .text && a.value.map Str.DStr.data = some [])) (by decide +kernel)
  simp only [Bool.and_eq_true, decide_eq_true_eq] at hc
  obtain ⟨w', _, h1, h2⟩ := okB_elim hc.2
  simp only [Bool.and_eq_true] at h2
  obtain ⟨n, k1, k2⟩ := at_elim h2.1
  obtain ⟨a, a1, a2⟩ := at_elim h2.2
  simp only [Bool.and_eq_true, decide_eq_true_eq] at k2 a2
  exact ⟨led, w, h, hc.1, w', h1, n, a, k1, k2, a1, a2.1, a2.2⟩

/-- C46 is false of the code: `_dom_node_normalize` gives up a reference to the merged node that it never had (src/core/node.c:1204).  A Text node to which
the client has a reference is freed. -/
theorem C46_normalize_violated : ∃ led w, Client Careful led w ∧ 0 < led 1 ∧ 0 < led 3 ∧ ∃ w', normalize 1 w = .ok w' () ∧ w'.nodes 3 = none := by
  obtain ⟨led, w, h, hc⟩ := exists_careful (textActs.take 9) (fun led w => decide (0 < led 1) && decide (0 < led 3) &&
    (normalize 1 w).okB fun w' _ => (w'.nodes 3).isNone) (by decide +kernel)
  simp only [Bool.and_eq_true, decide_eq_true_eq] at hc
  obtain ⟨w', _, h1, h2⟩ := okB_elim hc.2
  exact ⟨led, w, h, hc.1.1, hc.1.2, w', h1, by simpa using h2⟩

/-- C47 is false of the code: without any reference the count of the merged node wraps around to 2^32 - 1, and neither the node nor its document is ever
freed. -/
theorem C47_normalize_violated : ∃ led w, Client Careful led w ∧ 0 < led 1 ∧ led 3 = 0 ∧ ∃ w', normalize 1 w = .ok w' () ∧
    ∃ n, w'.nodes 3 = some n ∧ n.parent = none ∧ n.refcnt = 4294967295 := by
  obtain ⟨led, w, h, hc⟩ := exists_careful textActs (fun led w => decide (0 < led 1) && decide (led 3 = 0) &&
    (normalize 1 w).okB fun w' _ => at_ w' 3 fun n => n.parent.isNone && n.refcnt = 4294967295) (by decide +kernel)
  simp only [Bool.and_eq_true, decide_eq_true_eq] at hc
  obtain ⟨w', _, h1, h2⟩ := okB_elim hc.2
  obtain ⟨n, k1, k2⟩ := at_elim h2
  simp only [Bool.and_eq_true, decide_eq_true_eq, Option.isNone_iff_eq_none] at k2
  exact ⟨led, w, h, hc.1.1, hc.1.2, w', h1, n, k1, k2.1, k2.2⟩

/-- The hypotheses of `C31_normal_unchanged_partial` are met by an element with a text, an element and a text. -/
example : ∃ led w ch, Client Careful led w ∧ 0 < led 1 ∧ Linked w ch ∧ (∃ n, w.nodes 1 = some n ∧ n.first = some 2 ∧ n.last = some 4) ∧
    ∀ y, Below ch 1 y → ∀ a b l1 l2, ch y = l1 ++ a :: b :: l2 → ¬ (IsType w a .text ∧ IsType w b .text) := by
  obtain ⟨led, w, h, hc⟩ := exists_careful
    [.call .createDocument, .call (.createNode 0 .element none none), .call (.createNode 0 .text none (some (Names.lit "A"))),
     .call (.createNode 0 .element none none), .call (.createNode 0 .text none (some (Names.lit "B"))), .call (.appendChild 1 2), .call (.appendChild 1 3),
     .call (.appendChild 1 4)]
    (fun led w => decide (0 < led 1) && (at_ w 1 fun n => n.first = some 2 && n.last = some 4) &&
      allB w fun n => n.type ≠ .text || n.next.all fun b => !isText w b) (by decide +kernel)
  simp only [Bool.and_eq_true, decide_eq_true_eq] at hc
  obtain ⟨n, n1, n2⟩ := at_elim hc.1.2
  simp only [Bool.and_eq_true, decide_eq_true_eq] at n2
  obtain ⟨ch, S, _⟩ := h.sound
  refine ⟨led, w, ch, h, hc.1.1, S.wf.linked, ⟨n, n1, n2⟩, ?_⟩
  rintro y _ a b l1 l2 e ⟨⟨am, ha, hat⟩, bm, hb, hbt⟩
  have hay : a ∈ ch y := by rw [e]; simp
  obtain ⟨m, hm, _, hp⟩ := S.wf.linked.alive_child hay
  obtain ⟨yn, hy⟩ := S.wf.linked.alive_parent hm hp
  obtain ⟨m, hm, _, _, _, hn⟩ := (S.wf.linked.loc y yn hy).kids l1 a (b :: l2) e
  rw [ha] at hm; cases hm
  have := allB_elim S.wf.bnd hc.2 ha
  simp [hat, hn, isText_some hb, hbt] at this

end Dom.Tree
