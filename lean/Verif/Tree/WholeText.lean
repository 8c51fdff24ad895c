import Verif.Tree.CharDataProps
import Verif.Tree.Violations
/-!
# `wholeText`, src/core/text.c (C12), and witnesses for character data
-/
namespace Dom.Tree
set_option linter.unusedSimpArgs false

open Dom.Str (DStr Holds HoldsOpt utf8)

/-- `walk_order`, src/core/text.c:53-56. -/
inductive Order | left | right
deriving DecidableEq

/-- `while (p != parent && node == p->last_child) { node = p; p = parent of p; }` and the same with `first_child`,
src/core/text.c:426-430, 440-444. -/
def climb (ord : Order) (parent : Option NodeId) : Nat → NodeId → Option NodeId → M NodeId
  | 0, _, _ => M.crash .diverge
  | k + 1, node, p =>
    if p = parent then pure node
    else do
      let pi ← deref p
      let pn ← getNode pi
      if (if ord = .left then pn.last else pn.first) = some node then climb ord parent k pi pn.parent
      else pure node

/-- The step to the next node, src/core/text.c:419-446. -/
def walkNext (ord : Order) (parent : Option NodeId) (node : NodeId) : M (Option NodeId) := do
  let n ← getNode node
  let kid := if ord = .left then n.last else n.first
  let sib := if ord = .left then n.prev else n.next
  if kid ≠ none then pure kid
  else if sib ≠ none then pure sib
  else do
    let bd ← bound
    let j ← climb ord parent bd node n.parent
    let jn ← getNode j
    pure (if ord = .left then jn.prev else jn.next)

/-- Add the data of a text node to the collected string, src/core/text.c:386-407. -/
def collect (ord : Order) (ret data : Option DStr) : M (Option DStr) :=
  match ret with
  | none => pure data
  | some tmp => do
    let s ← liftOut (if ord = .left then Str.concat data (some tmp) else Str.concat (some tmp) data)
    pure (some s)

/-- The loop of `walk_logic_adjacent_text_in_order` with `opt == COLLECT`, src/core/text.c:364-448. -/
def adjLoop (ord : Order) (parent : Option NodeId) : Nat → Option NodeId → Option DStr → M (Option DStr)
  | _, none, ret => pure ret
  | 0, some _, _ => M.crash .diverge
  | k + 1, some node, ret => do
    let n ← getNode node
    if n.type = .element ∨ n.type = .comment ∨ n.type = .pi then pure ret
    else if n.type = .text then do
      cassert n.first.isNone
      cassert n.last.isNone
      collect ord ret n.value
    else do
      let nx ← walkNext ord parent node
      adjLoop ord parent k nx ret

/-- `walk_logic_adjacent_text_in_order` with `opt == COLLECT`, src/core/text.c:346-451.  The flag `cont` is set but
never read. -/
def walkInOrder (ord : Order) (node : Option NodeId) (ret : Option DStr) : M (Option DStr) :=
  match node with
  | none => pure ret
  | some i => do
    let n ← getNode i
    let bd ← bound
    adjLoop ord n.parent bd (some i) ret

/-- The check of src/core/text.c:472-474. -/
def refuseEntity (parent : Option NodeId) : M Unit :=
  match parent with
  | none => pure ()
  | some p => do
    let pn ← getNode p
    throwIf (decide (pn.type = .entity)) .notSupported

/-- `_dom_text_get_whole_text` (src/core/text.c:257-263) by `walk_logic_adjacent_text` with `opt == COLLECT`,
src/core/text.c:461-537. -/
def wholeText (t : NodeId) : M (Option DStr) := do
  let n ← getNode t
  refuseEntity n.parent
  let l ← walkInOrder .left n.prev none
  let m ← collect .right l n.value
  walkInOrder .right n.next m

variable {w : World} {ch : Children}

/-- A node at which adjacent text ends (DOM3 Core 1.3, Text.wholeText). -/
def IsBoundary (w : World) (i : NodeId) : Prop :=
  ∃ n, w.nodes i = some n ∧ (n.type = .element ∨ n.type = .comment ∨ n.type = .pi)

/-- `run` is the sequence of Text nodes that surround `t` among its siblings: `t` has the parent `p`, all of `run` are
Text nodes, and `run` ends on both sides at a boundary or at the end of the child list. -/
def AdjacentRun (w : World) (ch : Children) (t : NodeId) (a b : List NodeId) : Prop :=
  ∃ p pn pre post, w.nodes p = some pn ∧ pn.type ≠ .entity ∧ ch p = pre ++ a ++ t :: b ++ post ∧
    (∀ i ∈ a ++ t :: b, IsType w i .text) ∧
    (∀ i, pre.getLast? = some i → IsBoundary w i) ∧ (∀ i, post.head? = some i → IsBoundary w i)

theorem walk_none (ord : Order) (r : Option DStr) : walkInOrder ord none r w = .ok w r := rfl

theorem walk_boundary {i : NodeId} (h : IsBoundary w i) (ord : Order) (r : Option DStr) :
    walkInOrder ord (some i) r w = .ok w r := by
  obtain ⟨n, hn, ht⟩ := h
  unfold walkInOrder
  dsimp only
  rw [get_bind hn, bound_bind]
  unfold adjLoop
  rw [get_bind hn]
  simp only [ht, if_true]
  rfl

theorem text_leaf (hW : WF w ch) {i : NodeId} {n : Node} (hn : w.nodes i = some n) (ht : n.type = .text) :
    n.first = none ∧ n.last = none := by
  have hnil : ch i = [] := by
    cases hc : ch i with
    | nil => rfl
    | cons x l =>
      obtain ⟨xn, hx, _⟩ := hW.linked.alive_child (p := i) (c := x) (by simp [hc])
      have := hW.types i n x xn hn (by simp [hc]) hx
      rw [ht] at this
      cases this with
      | content h _ => simp at h
  obtain ⟨n', hn', h1, h2⟩ := (hW.linked.loc i n hn).ends
  rw [hn] at hn'; cases hn'
  rw [hnil] at h1 h2
  exact ⟨h1, h2⟩

theorem walk_text (hW : WF w ch) {i : NodeId} {n : Node} (hn : w.nodes i = some n) (ht : n.type = .text)
    (ord : Order) (r : Option DStr) : walkInOrder ord (some i) r w = collect ord r n.value w := by
  obtain ⟨h1, h2⟩ := text_leaf hW hn ht
  unfold walkInOrder
  dsimp only
  rw [get_bind hn, bound_bind]
  unfold adjLoop
  rw [get_bind hn]
  rw [if_neg (by rw [ht]; simp), if_pos ht, h1, h2]
  rfl

theorem concat_holds {a b : DStr} {x y : List Char} (ha : Holds a x) (hb : Holds b y)
    (h : (utf8 (x ++ y)).length < 2 ^ 32) :
    ∃ v, Str.concat (some a) (some b) = .ok v ∧ Holds v (x ++ y) :=
  ⟨_, rfl, by simp [Str.create, ha.data, hb.data, utf8], h⟩

/-- C12.  `wholeText` of a Text node is the concatenation, in document order, of the data of all Text nodes around it,
and changes nothing.

Missing from the full claim: runs with more than one further Text node on a side, for which it is false
(`C12_three_texts_violated`), and text in entity references. -/
theorem C12_whole_text_partial (hW : WF w ch) {t : NodeId} {a b : List NodeId} (hrun : AdjacentRun w ch t a b)
    (data : NodeId → List Char)
    (hdata : ∀ i ∈ a ++ t :: b, ∃ n s, w.nodes i = some n ∧ n.value = some s ∧ Holds s (data i))
    (hfit : (utf8 ((a ++ t :: b).flatMap data)).length < 2 ^ 32)
    (ha : a.length ≤ 1) (hb : b.length ≤ 1) :
    ∃ v, wholeText t w = .ok w (some v) ∧ Holds v ((a ++ t :: b).flatMap data) := by
  obtain ⟨p, pn, pre, post, hp, hpt, hch, htext, hpre, hpost⟩ := hrun
  obtain ⟨n, hn, _, hpar, hprev, hnext⟩ := (hW.linked.loc p pn hp).kids (pre ++ a) t (b ++ post) (by simp [hch])
  obtain ⟨n', s, hn', hv, hs⟩ := hdata t (by simp)
  rw [hn] at hn'; cases hn'
  -- to the left
  have hleft : ∃ l, walkInOrder .left n.prev none w = .ok w l ∧
      ((a = [] ∧ l = none) ∨ ∃ s', l = some s' ∧ Holds s' (a.flatMap data)) := by
    match a, ha with
    | [], _ =>
      simp only [List.append_nil] at hprev
      cases hl : pre.getLast? with
      | none => rw [hl] at hprev; exact ⟨none, by rw [hprev]; rfl, .inl ⟨rfl, rfl⟩⟩
      | some i =>
        rw [hl] at hprev
        exact ⟨none, by rw [hprev]; exact walk_boundary (hpre i hl) _ _, .inl ⟨rfl, rfl⟩⟩
    | [i], _ =>
      simp only [List.getLast?_append, List.getLast?_singleton, Option.some_or] at hprev
      obtain ⟨m, s', hm, hmv, hs'⟩ := hdata i (by simp)
      obtain ⟨m', hm', hmt⟩ := htext i (by simp)
      rw [hm] at hm'; cases hm'
      refine ⟨some s', ?_, .inr ⟨s', rfl, by simpa using hs'⟩⟩
      rw [hprev, walk_text hW hm hmt, hmv]; rfl
  obtain ⟨l, hl1, hl2⟩ := hleft
  have hfit1 : (utf8 (a.flatMap data)).length + (utf8 (data t)).length + (utf8 (b.flatMap data)).length < 2 ^ 32 := by
    simpa [utf8, Nat.add_assoc] using hfit
  have hmid : ∃ m, collect .right l n.value w = .ok w (some m) ∧ Holds m (a.flatMap data ++ data t) := by
    rcases hl2 with ⟨rfl, rfl⟩ | ⟨s', rfl, hs'⟩
    · exact ⟨s, by rw [hv]; rfl, by simpa using hs⟩
    · obtain ⟨v, h1, h2⟩ := concat_holds hs' hs (by simp [utf8] at hfit1 ⊢; omega)
      refine ⟨v, ?_, h2⟩
      unfold collect
      rw [hv]
      simp only [show (Order.right = Order.left) = False by simp, if_false]
      rw [liftOut_ok h1]; rfl
  obtain ⟨m, hm1, hm2⟩ := hmid
  have hent : refuseEntity n.parent w = .ok w () := by
    rw [hpar]; unfold refuseEntity
    dsimp only
    rw [get_bind hp]
    simp [hpt, throwIf]; rfl
  unfold wholeText
  rw [get_bind hn, bind_ok hent, bind_ok hl1, bind_ok hm1]
  match b, hb with
  | [], _ =>
    refine ⟨m, ?_, by simpa using hm2⟩
    simp only [List.nil_append] at hnext
    cases hl : post.head? with
    | none => rw [hl] at hnext; rw [hnext]; rfl
    | some i => rw [hl] at hnext; rw [hnext]; exact walk_boundary (hpost i hl) _ _
  | [i], _ =>
    simp only [List.cons_append, List.nil_append, List.head?_cons] at hnext
    obtain ⟨k, s', hk, hkv, hs'⟩ := hdata i (by simp)
    obtain ⟨k', hk', hkt⟩ := htext i (by simp)
    rw [hk] at hk'; cases hk'
    obtain ⟨v, h1, h2⟩ := concat_holds hm2 hs' (by simp [utf8] at hfit1 ⊢; omega)
    refine ⟨v, ?_, by simpa using h2⟩
    rw [hnext, walk_text hW hk hkt, hkv]
    unfold collect
    simp only [show (Order.right = Order.left) = False by simp, if_false]
    rw [liftOut_ok h1]; rfl

/-- `wholeText` of a Text node outside any tree is its own data. -/
theorem C12_orphan (hW : WF w ch) {t : NodeId} {n : Node} (hn : w.nodes t = some n) (hp : n.parent = none) :
    wholeText t w = .ok w n.value := by
  obtain ⟨h1, h2⟩ := hW.linked.orphan t n hn (.inl hp)
  unfold wholeText
  rw [get_bind hn, hp, h1, h2]
  rfl

/-! ## Concrete histories -/

def strOf (l : List Nat) : Option DStr := some (Str.create (l.map UInt8.ofNat))

/-- A document (0), an element (1) with the texts "A" (2), "B" (3), "C" (4), and an element (5) after a text (6). -/
def textHistory : List Call :=
  [.createDocument, .createNode 0 .element none none, .createNode 0 .text none (strOf [65]),
   .createNode 0 .text none (strOf [66]), .createNode 0 .text none (strOf [67]), .createNode 0 .element none none,
   .createNode 0 .text none (strOf [226, 130, 172, 68]), .appendChild 1 2, .appendChild 1 3, .appendChild 1 4,
   .appendChild 1 5, .appendChild 1 6]

/-- The check that a call returns a string with the given bytes. -/
def returns (r : Res (Option DStr)) (l : List Nat) : Bool :=
  match r with
  | .ok _ (some v) => v.data == l.map UInt8.ofNat
  | _ => false

/-- The hypotheses of `C12_whole_text_partial` are met by the middle of the three texts, and the answer is "ABC". -/
example : ∃ w, Reach (fun w c => c.Ok w) w ∧ returns (wholeText 3 w) [65, 66, 67] = true :=
  exists_ok textHistory _ (by decide +kernel)

/-- C12 is false of the code: the first of three adjacent texts "A", "B", "C" gets "AB", as the walk to one side ends
at the first text it meets (src/core/text.c:409-410). -/
theorem C12_three_texts_violated : ∃ w, Reach (fun w c => c.Ok w) w ∧
    (∃ n1 n2 n3, w.nodes 2 = some n1 ∧ w.nodes 3 = some n2 ∧ w.nodes 4 = some n3 ∧
      n1.type = .text ∧ n2.type = .text ∧ n3.type = .text ∧ n1.next = some 3 ∧ n2.next = some 4 ∧
      n3.value.map DStr.data = some [67]) ∧
    ∃ w' v, wholeText 2 w = .ok w' (some v) ∧ v.data = [65, 66] := by
  obtain ⟨w, hr, h⟩ := exists_ok textHistory
    (fun w => at_ w 2 (fun n => n.type = .text && n.next = some 3) && at_ w 3 (fun n => n.type = .text && n.next = some 4) &&
      at_ w 4 (fun n => n.type = .text && n.value.map DStr.data = some [67]) && returns (wholeText 2 w) [65, 66])
    (by decide +kernel)
  simp only [Bool.and_eq_true] at h
  obtain ⟨⟨⟨h1, h2⟩, h3⟩, h4⟩ := h
  obtain ⟨n1, hn1, e1⟩ := at_elim h1
  obtain ⟨n2, hn2, e2⟩ := at_elim h2
  obtain ⟨n3, hn3, e3⟩ := at_elim h3
  simp only [Bool.and_eq_true, decide_eq_true_eq] at e1 e2 e3
  refine ⟨w, hr, ⟨n1, n2, n3, hn1, hn2, hn3, e1.1, e2.1, e3.1, e1.2, e2.2, e3.2⟩, ?_⟩
  unfold returns at h4
  split at h4
  · rename_i w' v hv
    exact ⟨w', v, hv, by simpa using h4⟩
  · cases h4

/-- The hypotheses of `C09_insert`, `C09_replace`, `C09_delete` and `C11_split_partial` are met, and the offsets count
characters: "€D" split at 1 gives "€" and "D". -/
example : ∃ w, Reach (fun w c => c.Ok w) w ∧ (match splitText 6 1 w with
    | .ok w' i => at_ w' 6 (fun n => n.value.map DStr.data = some [226, 130, 172]) && at_ w' i (fun n => n.value.map DStr.data = some [68])
    | _ => false) = true :=
  exists_ok textHistory _ (by decide +kernel)

/-- C11 is false of the code: the new node is not put next to the split node (src/core/text.c:216-227). -/
theorem C11_not_inserted_violated : ∃ w w' i, Reach (fun w c => c.Ok w) w ∧ splitText 6 1 w = .ok w' i ∧
    ∃ n m, w'.nodes 6 = some n ∧ w'.nodes i = some m ∧ n.parent = some 1 ∧ n.next = none ∧ m.parent = none := by
  obtain ⟨w, hr, h⟩ := exists_ok textHistory
    (fun w => match splitText 6 1 w with
      | .ok w' i => at_ w' 6 (fun n => n.parent = some 1 && n.next = none) && at_ w' i (fun n => n.parent = none)
      | _ => false) (by decide +kernel)
  split at h
  · rename_i w' i hv
    simp only [Bool.and_eq_true] at h
    obtain ⟨n, hn, e1⟩ := at_elim h.1
    obtain ⟨m, hm, e2⟩ := at_elim h.2
    simp only [Bool.and_eq_true, decide_eq_true_eq] at e1 e2
    exact ⟨w, w', i, hr, hv, n, m, hn, hm, e1.1, e1.2, e2⟩
  · cases h

/-- C09 is false of the code for a node without data: `appendData` there fails the assertion in `dom_string_concat`
(src/core/string.c:552), although the node counts as empty for every other operation. -/
theorem C09_append_null_violated (hW : WF w ch) {c : NodeId} {n : Node} (hc : w.nodes c = some n) (hro : ¬ ReadOnly w c)
    (hv : n.value = none) (d : DStr) : appendData c (some d) w = .fault .assertFail := by
  unfold appendData
  rw [not_ro hW.toCore hc hro, get_bind hc, hv]
  rfl

end Dom.Tree
