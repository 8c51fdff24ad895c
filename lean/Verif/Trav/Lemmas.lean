import Verif.Trav.Model
import Verif.Tree.PropsEvents
import Verif.Str.PropsEq

/-!
# The position in a traversal

`Rest d x l`: in the subtree of the root, `x` lies at depth `d` and `l` is what follows the subtree of `x` in document
order.
-/
namespace Dom.Trav
set_option linter.unusedSimpArgs false

open Dom.Str (DStr)
open Dom.Tree (NodeId Node World NodeType Children Core Linked DocOrder Below preorder Ht Chain ParentOf AncSelf)

variable {w : World} {ch : Children} {order : NodeId → List NodeId} {root : NodeId}

/-- Document order is determined by the child lists. -/
theorem docOrder_eq (hd : DocOrder ch order) : ∀ {k x}, Ht ch k x → order x = preorder ch k x
  | 0, _, h => h.elim
  | k + 1, x, h => by
      rw [hd x]
      simp only [preorder, List.cons.injEq, true_and, List.flatMap_def]
      congr 1
      exact List.map_congr_left fun c hc => docOrder_eq hd (h c hc)

theorem order_length_le (hW : Core w ch) (hd : DocOrder ch order) {n : Node} (hr : w.nodes root = some n) :
    (order root).length ≤ w.fresh := by
  rw [docOrder_eq hd (hW.ht hr)]
  exact Tree.preorder_length_le hW _ hr

theorem rd_ok {i : NodeId} {n : Node} (h : w.nodes i = some n) : rd w i = .ok n := by simp [rd, h]

/-- `x` lies in the subtree of the root at depth `d`, and `l` follows its subtree. -/
inductive Rest (ch : Children) (order : NodeId → List NodeId) (root : NodeId) : Nat → NodeId → List NodeId → Prop
  | root : Rest ch order root 0 root []
  | child {d p l a c b} : Rest ch order root d p l → ch p = a ++ c :: b →
      Rest ch order root (d + 1) c (b.flatMap order ++ l)

theorem Rest.inTree {d x l} (h : Rest ch order root d x l) : Below ch root x := by
  induction h with
  | root => exact .refl
  | child _ hc ih => exact .tail ih (by rw [hc]; simp)

theorem Rest.chain (hL : Linked w ch) (hwf : WellFounded (fun p c => ParentOf w c p)) {n : Node} (hr : w.nodes root = some n)
    {d x l} (h : Rest ch order root d x l) : ∃ c, Chain w (some x) c ∧ d + 1 ≤ c.length := by
  induction h with
  | root =>
    obtain ⟨c, hc⟩ := Tree.exists_chain hL hwf root n hr
    refine ⟨c, hc, ?_⟩
    cases hc; simp
  | @child d p l a c b _ hc ih =>
    obtain ⟨l', hl', hle⟩ := ih
    obtain ⟨m, hm, _, hp⟩ := hL.alive_child (p := p) (c := c) (by rw [hc]; simp)
    exact ⟨c :: l', .cons hm (by rw [hp]; exact hl'), by simp; omega⟩

theorem Rest.depth_lt (hW : Core w ch) {n : Node} (hr : w.nodes root = some n) {d x l} (h : Rest ch order root d x l) :
    d < w.fresh := by
  obtain ⟨c, hc, hle⟩ := h.chain hW.linked hW.wf hr
  have := hc.length_le hW
  omega

/-- The root is at depth 0 only. -/
theorem Rest.at_root (hW : Core w ch) {d x l} (h : Rest ch order root d x l) (hx : x = root) : d = 0 ∧ l = [] := by
  cases h with
  | root => exact ⟨rfl, rfl⟩
  | child hp hc =>
    subst hx
    exact absurd hp.inTree (Tree.not_below_child hW.linked hW.wf (by rw [hc]; simp))

/-- A pointer into the traversal with `rem` still to come. -/
def Lands (ch : Children) (order : NodeId → List NodeId) (root : NodeId) (r : Option NodeId) (rem : List NodeId) : Prop :=
  match r with
  | none => rem = []
  | some y => ∃ d l, Rest ch order root d y l ∧ y ≠ root ∧ rem = order y ++ l

/-- What is stored in a node of the traversal that is not the root. -/
theorem Rest.inv (hW : Core w ch) {d x l} (h : Rest ch order root d x l) (hx : x ≠ root) :
    ∃ d' p a b l' n pn, d = d' + 1 ∧ Rest ch order root d' p l' ∧ ch p = a ++ x :: b ∧ l = b.flatMap order ++ l' ∧
      w.nodes x = some n ∧ n.parent = some p ∧ n.next = b.head? ∧ w.nodes p = some pn ∧ (pn.last = some x ↔ b = []) := by
  cases h with
  | root => exact absurd rfl hx
  | @child d' p l' a _ b hp hc =>
    have hloc := by
      cases hpn : w.nodes p with
      | none => rw [hW.linked.dead p hpn] at hc; simp at hc
      | some pn => exact hW.linked.loc p pn hpn
    obtain ⟨n, hn, _, h1, _, h2⟩ := hloc.kids a x b hc
    obtain ⟨pn, hpn, _, hlast⟩ := hloc.ends
    refine ⟨d', p, a, b, l', n, pn, rfl, hp, hc, rfl, hn, h1, h2, hpn, ?_⟩
    rw [hlast, hc]
    constructor
    · intro hl
      by_contra hb
      have h1 : (a ++ x :: b).getLast? = b.getLast? := by
        rw [List.getLast?_append_of_ne_nil _ (by simp), List.getLast?_cons]
        cases hb' : b.getLast? with
        | none => rw [List.getLast?_eq_none_iff] at hb'; exact absurd hb' hb
        | some => simp
      rw [h1] at hl
      have hmem : x ∈ b := List.mem_of_getLast? hl
      have hnd := hloc.nodup
      rw [hc] at hnd
      have := (List.nodup_append.1 hnd).2.1
      exact (List.nodup_cons.1 this).1 hmem
    · rintro rfl; simp

/-- Moving to the next sibling. -/
theorem lands_next (hW : Core w ch) {d p l a x b} (hp : Rest ch order root d p l) (hc : ch p = a ++ x :: b) (hb : b ≠ [] ∨ l = []) :
    Lands ch order root b.head? (b.flatMap order ++ l) := by
  cases b with
  | nil => rcases hb with hb | hb; exact absurd rfl hb; simpa [Lands] using hb
  | cons y b =>
    refine ⟨d + 1, b.flatMap order ++ l, .child (a := a ++ [x]) hp (by simp [hc]), ?_, by simp⟩
    intro hy
    exact Tree.not_below_child hW.linked hW.wf (p := p) (c := y) (by rw [hc]; simp) (by rw [hy]; exact hp.inTree)

/-- Moving to the first child. -/
theorem lands_first (hW : Core w ch) {d x l} (hx : Rest ch order root d x l) (hb : ch x ≠ [] ∨ l = []) :
    Lands ch order root (ch x).head? ((ch x).flatMap order ++ l) := by
  cases hc : ch x with
  | nil => rw [hc] at hb; rcases hb with hb | hb; exact absurd rfl hb; simpa [Lands] using hb
  | cons y b =>
    refine ⟨d + 1, b.flatMap order ++ l, .child (a := []) hx (by simp [hc]), ?_, by simp⟩
    intro hy
    exact Tree.not_below_child hW.linked hW.wf (p := x) (c := y) (by rw [hc]; simp) (by rw [hy]; exact hx.inTree)

theorem first_eq (hW : Core w ch) {x : NodeId} {n : Node} (hx : w.nodes x = some n) : n.first = (ch x).head? := by
  obtain ⟨m, hm, h, _⟩ := (hW.linked.loc x n hx).ends
  rw [hx] at hm; cases hm; exact h

theorem isSome_head? {α : Type} (l : List α) : l.head?.isSome = true ↔ l ≠ [] := by cases l <;> simp

/-! ## One step of each traversal -/

theorem nlClimb_lands (hW : Core w ch) : ∀ (f d : Nat) (x : NodeId) (l : List NodeId) (n : Node), Rest ch order root d x l →
    x ≠ root → d < f → w.nodes x = some n → ∃ r, nlClimb w root f x n.parent = .ok r ∧ Lands ch order root r l := by
  intro f
  induction f with
  | zero => intro d x l n _ _ h; omega
  | succ f ih =>
    intro d x l n h hx hf hn
    obtain ⟨d', p, a, b, l', n', pn, rfl, hp, hc, rfl, hn', h1, h2, hpn, h3⟩ := h.inv hW hx
    rw [hn] at hn'; cases hn'
    unfold nlClimb
    rw [h1]
    by_cases hpr : p = root
    · rw [if_pos (by rw [hpr]), rd_ok hn]
      exact ⟨_, rfl, by rw [h2]; exact lands_next hW hp hc (.inr (hp.at_root hW hpr).2)⟩
    · rw [if_neg (by simpa using hpr)]
      simp only [rd_ok hpn, Out.bind_ok]
      by_cases hb : b = []
      · rw [if_pos (h3.2 hb)]
        subst hb
        exact ih d' p l' pn hp hpr (by omega) hpn
      · rw [if_neg (fun h => hb (h3.1 h)), rd_ok hn]
        exact ⟨_, rfl, by rw [h2]; exact lands_next hW hp hc (.inl hb)⟩

theorem colClimb_lands (hW : Core w ch) : ∀ (f d : Nat) (x : NodeId) (l : List NodeId) (n : Node), Rest ch order root d x l →
    d < f → w.nodes x = some n → ∃ r, colClimb w root f x n.parent = .ok r ∧ Lands ch order root r l := by
  intro f
  induction f with
  | zero => intro d x l n _ h; omega
  | succ f ih =>
    intro d x l n h hf hn
    unfold colClimb
    by_cases hx : x = root
    · rw [if_pos hx]
      exact ⟨none, rfl, (h.at_root hW hx).2⟩
    rw [if_neg hx]
    obtain ⟨d', p, a, b, l', n', pn, rfl, hp, hc, rfl, hn', h1, h2, hpn, h3⟩ := h.inv hW hx
    rw [hn] at hn'; cases hn'
    rw [h1]
    simp only [rd_ok hpn, Out.bind_ok]
    by_cases hb : b = []
    · rw [if_pos (h3.2 hb)]
      subst hb
      exact ih d' p l' pn hp (by omega) hpn
    · rw [if_neg (fun h => hb (h3.1 h)), rd_ok hn]
      exact ⟨_, rfl, by rw [h2]; exact lands_next hW hp hc (.inl hb)⟩

theorem findUp_lands (hW : Core w ch) : ∀ (f d : Nat) (x : NodeId) (l : List NodeId), Rest ch order root d x l →
    x ≠ root → d < f → ∃ r, findUp w root f (some x) = .ok r ∧ Lands ch order root r l := by
  intro f
  induction f with
  | zero => intro d x l _ _ h; omega
  | succ f ih =>
    intro d x l h hx hf
    obtain ⟨d', p, a, b, l', n, pn, rfl, hp, hc, rfl, hn, h1, h2, hpn, h3⟩ := h.inv hW hx
    unfold findUp
    simp only [rd_ok hn, Out.bind_ok]
    by_cases hb : b = []
    · subst hb
      rw [if_neg (by simp [h2])]
      by_cases hpr : p = root
      · rw [if_neg (by simp [h1, hpr])]
        exact ⟨none, rfl, by simpa [Lands] using (hp.at_root hW hpr).2⟩
      · rw [if_pos (by simp [h1, hpr]), h1]
        exact ih d' p l' hp hpr (by omega)
    · rw [if_pos (by rw [h2]; exact (isSome_head? b).2 hb)]
      exact ⟨_, rfl, by rw [h2]; exact lands_next hW hp hc (.inl hb)⟩

/-- One step of the node list traversal. -/
theorem nlNext_lands (hW : Core w ch) {rn : Node} (hr : w.nodes root = some rn) {k : Kind} (hk : k ≠ .children) {d x l} {n : Node}
    (h : Rest ch order root d x l) (hx : x ≠ root) (hn : w.nodes x = some n) :
    ∃ r, nlNext k w root x n = .ok r ∧ Lands ch order root r ((ch x).flatMap order ++ l) := by
  have hstep : nlNext k w root x n = (if n.first.isSome then .ok n.first else if n.next.isSome then .ok n.next
      else nlClimb w root (w.fresh + 1) x n.parent) := by
    cases k with
    | children => exact absurd rfl hk
    | _ => rfl
  rw [hstep, first_eq hW hn]
  by_cases hc : ch x = []
  · rw [hc]
    simp only [List.head?_nil, Option.isSome_none, Bool.false_eq_true, if_false, List.flatMap_nil, List.nil_append]
    obtain ⟨d', p, a, b, l', n', pn, rfl, hp, hcp, rfl, hn', h1, h2, hpn, h3⟩ := h.inv hW hx
    rw [hn] at hn'; cases hn'
    by_cases hb : b = []
    · rw [if_neg (by simp [h2, hb])]
      exact nlClimb_lands hW _ _ x _ n h hx (by have := h.depth_lt hW hr; omega) hn
    · rw [if_pos (by rw [h2]; exact (isSome_head? b).2 hb)]
      exact ⟨_, rfl, by rw [h2]; exact lands_next hW hp hcp (.inl hb)⟩
  · rw [if_pos ((isSome_head? _).2 hc)]
    exact ⟨_, rfl, lands_first hW h (.inl hc)⟩

/-- One step of the collection traversal, except at a root without children that has a next sibling. -/
theorem colNext_lands (hW : Core w ch) {rn : Node} (hr : w.nodes root = some rn) (hroot : ch root ≠ [] ∨ rn.next = none) {d x l}
    {n : Node} (h : Rest ch order root d x l) (hn : w.nodes x = some n) :
    ∃ r, colNext w root x n = .ok r ∧ Lands ch order root r ((ch x).flatMap order ++ l) := by
  unfold colNext
  rw [first_eq hW hn]
  by_cases hc : ch x = []
  · rw [hc]
    simp only [List.head?_nil, Option.isSome_none, Bool.false_eq_true, if_false, List.flatMap_nil, List.nil_append]
    by_cases hx : x = root
    · subst hx
      rw [hr] at hn; cases hn
      have hnx : rn.next = none := by
        rcases hroot with h | h
        · exact absurd hc h
        · exact h
      rw [if_neg (by simp [hnx])]
      exact colClimb_lands hW _ _ x _ rn h (by have := h.depth_lt hW hr; omega) hr
    · obtain ⟨d', p, a, b, l', n', pn, rfl, hp, hcp, rfl, hn', h1, h2, hpn, h3⟩ := h.inv hW hx
      rw [hn] at hn'; cases hn'
      by_cases hb : b = []
      · rw [if_neg (by simp [h2, hb])]
        exact colClimb_lands hW _ _ x _ n h (by have := h.depth_lt hW hr; omega) hn
      · rw [if_pos (by rw [h2]; exact (isSome_head? b).2 hb)]
        exact ⟨_, rfl, by rw [h2]; exact lands_next hW hp hcp (.inl hb)⟩
  · rw [if_pos ((isSome_head? _).2 hc)]
    exact ⟨_, rfl, lands_first hW h (.inl hc)⟩

theorem Lands.alive (hW : Core w ch) {rn : Node} (hr : w.nodes root = some rn) {y rem} (h : Lands ch order root (some y) rem) :
    ∃ n, w.nodes y = some n := by
  obtain ⟨d, l, h1, _, _⟩ := h
  exact h1.inTree.alive hW.linked hr

end Dom.Trav
