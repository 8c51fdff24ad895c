import Verif.Tree.PropsEdit
/-!
# C96: a node keeps its type and its document

No function of the tree changes the type of a node that stays in memory, nor the document it belongs to (a DocumentType gets its document when it is inserted).
-/
set_option linter.unusedSimpArgs false
set_option linter.unusedVariables false
namespace Dom.Tree
open Dom.Str (DStr)

/-! ## Specification -/

/-- Every address in use was handed out. -/
def Bounded (w : World) : Prop := ∀ j n, w.nodes j = some n → j < w.fresh

/-- Of the nodes of `w`, those that are still in memory in `w'` have the type and the document that they had; all others have new names.  Nothing is said about the document of a DocumentType. -/
def SameNodes (w w' : World) : Prop :=
  w.fresh ≤ w'.fresh ∧ ∀ x n', w'.nodes x = some n' → x < w.fresh → ∃ n, w.nodes x = some n ∧ n'.type = n.type ∧ (n.type ≠ .doctype → n'.owner = n.owner)

/-! ## The rules -/

/-- The function keeps the nodes, whatever it returns. -/
def Constant {α : Type} (m : M α) : Prop := ∀ w, Bounded w →
  (∀ w' a, m w = .ok w' a → Bounded w' ∧ SameNodes w w') ∧ ∀ w' e, m w = .exc w' e → Bounded w' ∧ SameNodes w w'

theorem SameNodes.refl (w : World) : SameNodes w w := ⟨Nat.le_refl _, fun x n h _ => ⟨n, h, rfl, fun _ => rfl⟩⟩

theorem SameNodes.trans {u v w : World} (h1 : SameNodes u v) (h2 : SameNodes v w) : SameNodes u w := by
  refine ⟨Nat.le_trans h1.1 h2.1, fun x n hx hlt => ?_⟩
  obtain ⟨n1, k1, k2, k3⟩ := h2.2 x n hx (Nat.lt_of_lt_of_le hlt h1.1)
  obtain ⟨n2, k4, k5, k6⟩ := h1.2 x n1 k1 hlt
  exact ⟨n2, k4, k2.trans k5, fun h => (k3 (by rw [k5]; exact h)).trans (k6 h)⟩

theorem Constant.ret {α : Type} (a : α) : Constant (pure a : M α) := fun w hb =>
  ⟨fun w' b h => (by cases h; exact ⟨hb, .refl w⟩), fun w' e h => by cases h⟩

theorem Constant.bind {α β : Type} {m : M α} {f : α → M β} (h1 : Constant m) (h2 : ∀ a, Constant (f a)) : Constant (m >>= f) := by
  intro w hb
  obtain ⟨g1, g2⟩ := h1 w hb
  have e : (m >>= f) w = match m w with | .ok w' a => f a w' | .exc w' e => .exc w' e | .fault g => .fault g := rfl
  rw [e]
  cases hm : m w with
  | ok w1 a =>
    obtain ⟨b1, s1⟩ := g1 w1 a hm
    obtain ⟨k1, k2⟩ := h2 a w1 b1
    exact ⟨fun w' b h => ⟨(k1 w' b h).1, s1.trans (k1 w' b h).2⟩, fun w' e h => ⟨(k2 w' e h).1, s1.trans (k2 w' e h).2⟩⟩
  | exc w1 e1 => exact ⟨fun w' b h => (by cases h), fun w' e h => by cases h; exact g2 w1 e1 hm⟩
  | fault f1 => exact ⟨fun w' b h => (by cases h), fun w' e h => by cases h⟩

theorem Constant.throw {α : Type} (e : Exc) : Constant (M.throw e : M α) := fun w hb =>
  ⟨fun w' b h => (by cases h), fun w' e h => by cases h; exact ⟨hb, .refl w⟩⟩

theorem Constant.crash {α : Type} (f : Fault) : Constant (M.crash f : M α) := fun w hb => ⟨fun w' b h => (by cases h), fun w' e h => by cases h⟩

/-- A function that reads only. -/
theorem Constant.reads {α : Type} {m : M α} (h : ∀ w, (∃ a, m w = .ok w a) ∨ (∃ e, m w = .exc w e) ∨ ∃ f, m w = .fault f) : Constant m := by
  intro w hb
  rcases h w with ⟨a, h⟩ | ⟨e, h⟩ | ⟨f, h⟩ <;> rw [h]
  · exact ⟨fun w' b h => (by cases h; exact ⟨hb, .refl w⟩), fun w' e h => by cases h⟩
  · exact ⟨fun w' b h => (by cases h), fun w' e h => by cases h; exact ⟨hb, .refl w⟩⟩
  · exact ⟨fun w' b h => (by cases h), fun w' e h => by cases h⟩

theorem Constant.get (i : NodeId) : Constant (getNode i) := by
  refine .reads fun w => ?_
  unfold getNode
  cases w.nodes i with
  | none => exact .inr (.inr ⟨_, rfl⟩)
  | some n => exact .inl ⟨_, rfl⟩

theorem Constant.deref (p : Option NodeId) : Constant (deref p) := by cases p with
  | none => exact .crash _
  | some i => exact .ret i

theorem Constant.cassert (b : Bool) : Constant (cassert b) := by
  unfold Dom.Tree.cassert; split
  · exact .ret ()
  · exact .crash _

theorem Constant.throwIf (b : Bool) (e : Exc) : Constant (throwIf b e) := by
  unfold Dom.Tree.throwIf; split
  · exact .throw e
  · exact .ret ()

theorem Constant.bound : Constant bound := .reads fun w => .inl ⟨_, rfl⟩

theorem Constant.liftOut {α : Type} (x : Out α) : Constant (liftOut x) := by
  refine .reads fun w => ?_
  unfold Dom.Tree.liftOut
  cases x with
  | ok a => exact .inl ⟨_, rfl⟩
  | exc e => exact .inr (.inl ⟨_, rfl⟩)
  | fault f => exact .inr (.inr ⟨_, rfl⟩)

theorem Constant.mod {i : NodeId} {f : Node → Node} (hf : ∀ n, (f n).type = n.type ∧ (f n).owner = n.owner) : Constant (modNode i f) := by
  intro w hb
  unfold modNode
  cases hn : w.nodes i with
  | none => exact ⟨fun w' b h => (by cases h), fun w' e h => by cases h⟩
  | some n =>
    refine ⟨fun w' b h => ?_, fun w' e h => by cases h⟩
    cases h
    refine ⟨fun j m hj => ?_, Nat.le_refl _, fun x n' hx _ => ?_⟩
    · dsimp only at hj ⊢
      by_cases h : j = i
      · subst h; exact hb _ n hn
      · rw [if_neg h] at hj; exact hb j m hj
    · dsimp only at hx
      by_cases h : x = i
      · subst h; rw [if_pos rfl] at hx; cases hx
        exact ⟨n, hn, (hf n).1, fun _ => (hf n).2⟩
      · rw [if_neg h] at hx; exact ⟨n', hx, rfl, fun _ => rfl⟩

theorem Constant.free (i : NodeId) : Constant (freeNode i) := by
  intro w hb
  unfold freeNode
  cases hn : w.nodes i with
  | none => exact ⟨fun w' b h => (by cases h), fun w' e h => by cases h⟩
  | some n =>
    refine ⟨fun w' b h => ?_, fun w' e h => by cases h⟩
    cases h
    refine ⟨fun j m hj => ?_, Nat.le_refl _, fun x n' hx _ => ?_⟩
    · dsimp only at hj ⊢
      by_cases h : j = i
      · rw [if_pos h] at hj; cases hj
      · rw [if_neg h] at hj; exact hb j m hj
    · dsimp only at hx
      by_cases h : x = i
      · rw [if_pos h] at hx; cases hx
      · rw [if_neg h] at hx; exact ⟨n', hx, rfl, fun _ => rfl⟩

theorem constant_new {w w' : World} {n : Node} (hb : Bounded w) (h1 : w'.nodes = fun j => if j = w.fresh then some n else w.nodes j) (h2 : w'.fresh = w.fresh + 1) :
    Bounded w' ∧ SameNodes w w' := by
  refine ⟨fun j m hj => ?_, h2 ▸ Nat.le_succ _, fun x n' hx hlt => ?_⟩
  · rw [h1] at hj
    dsimp only at hj
    rw [h2]
    by_cases h : j = w.fresh
    · rw [h]; exact Nat.lt_succ_self _
    · rw [if_neg h] at hj; exact Nat.lt_succ_of_lt (hb j m hj)
  · rw [h1] at hx
    dsimp only at hx
    rw [if_neg (Nat.ne_of_lt hlt)] at hx
    exact ⟨n', hx, rfl, fun _ => rfl⟩

theorem Constant.alloc (n : Node) : Constant (alloc n) := fun w hb =>
  ⟨fun w' b h => (by cases h; exact constant_new hb rfl rfl), fun w' e h => by cases h⟩

theorem Constant.document : Constant createDocument := fun w hb =>
  ⟨fun w' b h => (by cases h; exact constant_new hb rfl rfl), fun w' e h => by cases h⟩

theorem Constant.ite {α : Type} {c : Prop} [Decidable c] {a b : M α} (h1 : Constant a) (h2 : Constant b) : Constant (if c then a else b) := by
  split
  · exact h1
  · exact h2

/-- One step of a proof that a function keeps the nodes. -/
syntax "const1" : tactic
macro_rules | `(tactic| const1) => `(tactic| with_reducible assumption)
macro_rules | `(tactic| const1) => `(tactic| with_reducible exact Constant.ret _)
macro_rules | `(tactic| const1) => `(tactic| with_reducible exact Constant.get _)
macro_rules | `(tactic| const1) => `(tactic| with_reducible exact Constant.deref _)
macro_rules | `(tactic| const1) => `(tactic| with_reducible exact Constant.cassert _)
macro_rules | `(tactic| const1) => `(tactic| with_reducible exact Constant.throwIf _ _)
macro_rules | `(tactic| const1) => `(tactic| with_reducible exact Constant.bound)
macro_rules | `(tactic| const1) => `(tactic| with_reducible exact Constant.liftOut _)
macro_rules | `(tactic| const1) => `(tactic| with_reducible exact Constant.throw _)
macro_rules | `(tactic| const1) => `(tactic| with_reducible exact Constant.crash _)
macro_rules | `(tactic| const1) => `(tactic| with_reducible exact Constant.free _)
macro_rules | `(tactic| const1) => `(tactic| with_reducible exact Constant.alloc _)
macro_rules | `(tactic| const1) => `(tactic| (with_reducible refine Constant.mod ?_; exact fun _ => ⟨rfl, rfl⟩))

/-- Such a proof. -/
macro "const" : tactic => `(tactic| repeat' (first | const1 | with_reducible refine Constant.bind ?_ (fun _ => ?_) | with_reducible refine Constant.ite ?_ ?_ | split))

/-! ## The functions of Verif/Tree/Model.lean -/

theorem ref_const (i : NodeId) : Constant (ref i) := by unfold ref; const
macro_rules | `(tactic| const1) => `(tactic| with_reducible exact ref_const _)

theorem log_const (ev : Ev) : Constant (fun w => .ok { w with log := w.log ++ [ev] } () : M Unit) := fun w hb =>
  ⟨fun w' b h => (by cases h; exact ⟨hb, .refl w⟩), fun w' e h => by cases h⟩
macro_rules | `(tactic| const1) => `(tactic| with_reducible exact log_const _)

theorem fire_const (d : Option NodeId) (ev : Ev) : Constant (fire d ev) := by unfold fire; const
macro_rules | `(tactic| const1) => `(tactic| with_reducible exact fire_const _ _)

theorem walkLoop_const (d : Option NodeId) (x : NodeId) (k : EvKind) : ∀ (f : Nat) (s : WalkState), Constant (walkLoop d x k f s)
  | 0, .down none => by unfold walkLoop; const
  | 0, .down (some t) => by unfold walkLoop; const
  | 0, .up t p => by unfold walkLoop; const
  | f + 1, .down none => by unfold walkLoop; const
  | f + 1, .down (some t) => by
      have ih := walkLoop_const d x k f
      unfold walkLoop; const; all_goals exact ih _
  | f + 1, .up t p => by
      have ih := walkLoop_const d x k f
      unfold walkLoop; const; all_goals exact ih _
macro_rules | `(tactic| const1) => `(tactic| with_reducible exact walkLoop_const _ _ _ _ _)

theorem dispatch_const (d : Option NodeId) (x : NodeId) (r : Option NodeId) (c : Change) : Constant (dispatchNodeChange d x r c) := by unfold dispatchNodeChange; const
macro_rules | `(tactic| const1) => `(tactic| with_reducible exact dispatch_const _ _ _ _)

theorem subtree_const (d : Option NodeId) (t : NodeId) : Constant (fireSubtreeModified d t) := by unfold fireSubtreeModified; const
macro_rules | `(tactic| const1) => `(tactic| with_reducible exact subtree_const _ _)

theorem anyAncestor_const (p : NodeId → Node → Bool) : ∀ (f : Nat) (c : Option NodeId), Constant (anyAncestor p f c)
  | 0, none => by unfold anyAncestor; const
  | 0, some i => by unfold anyAncestor; const
  | f + 1, none => by unfold anyAncestor; const
  | f + 1, some i => by
      have ih := anyAncestor_const p f
      unfold anyAncestor; const; all_goals exact ih _
macro_rules | `(tactic| const1) => `(tactic| with_reducible exact anyAncestor_const _ _ _)

theorem anySibling_const (p : NodeId → Node → Bool) : ∀ (f : Nat) (c : Option NodeId), Constant (anySibling p f c)
  | 0, none => by unfold anySibling; const
  | 0, some i => by unfold anySibling; const
  | f + 1, none => by unfold anySibling; const
  | f + 1, some i => by
      have ih := anySibling_const p f
      unfold anySibling; const; all_goals exact ih _
macro_rules | `(tactic| const1) => `(tactic| with_reducible exact anySibling_const _ _ _)

theorem permittedChild_const (p c : NodeId) : Constant (permittedChild p c) := by unfold permittedChild; const
macro_rules | `(tactic| const1) => `(tactic| with_reducible exact permittedChild_const _ _)

theorem readonly_const (x : NodeId) : Constant (readonly x) := by unfold readonly; const
macro_rules | `(tactic| const1) => `(tactic| with_reducible exact readonly_const _)

theorem markPending_const (x : NodeId) : Constant (markPending x) := by unfold markPending; const
macro_rules | `(tactic| const1) => `(tactic| with_reducible exact markPending_const _)

theorem removePending_const (x : NodeId) : Constant (removePending x) := by unfold removePending; const
macro_rules | `(tactic| const1) => `(tactic| with_reducible exact removePending_const _)

theorem attachLoop_const (d : Option NodeId) (p l : NodeId) : ∀ (f : Nat) (c : Option NodeId), Constant (attachLoop d p l f c)
  | 0, c => by unfold attachLoop; const
  | f + 1, c => by
      have ih := attachLoop_const d p l f
      unfold attachLoop; const; all_goals exact ih _
macro_rules | `(tactic| const1) => `(tactic| with_reducible exact attachLoop_const _ _ _ _ _)

theorem linkFwd_const (p q v : Option NodeId) : Constant (linkFwd p q v) := by unfold linkFwd; const
macro_rules | `(tactic| const1) => `(tactic| with_reducible exact linkFwd_const _ _ _)
theorem linkBack_const (p q v : Option NodeId) : Constant (linkBack p q v) := by unfold linkBack; const
macro_rules | `(tactic| const1) => `(tactic| with_reducible exact linkBack_const _ _ _)

theorem attachRange_const (a b p : NodeId) (q r : Option NodeId) : Constant (attachRange a b p q r) := by unfold attachRange; const
macro_rules | `(tactic| const1) => `(tactic| with_reducible exact attachRange_const _ _ _ _ _)
theorem attach_const (a p : NodeId) (q r : Option NodeId) : Constant (attach a p q r) := by unfold attach; const
macro_rules | `(tactic| const1) => `(tactic| with_reducible exact attach_const _ _ _ _)

theorem detach_const (x : NodeId) : Constant (detach x) := by unfold detach; const
macro_rules | `(tactic| const1) => `(tactic| with_reducible exact detach_const _)

theorem allPermitted_const (p : NodeId) : ∀ (f : Nat) (c : Option NodeId), Constant (allPermitted p f c)
  | 0, none => by unfold allPermitted; const
  | 0, some i => by unfold allPermitted; const
  | f + 1, none => by unfold allPermitted; const
  | f + 1, some i => by
      have ih := allPermitted_const p f
      unfold allPermitted; const; all_goals exact ih _
macro_rules | `(tactic| const1) => `(tactic| with_reducible exact allPermitted_const _ _ _)

theorem isSelfOrAncestor_const (a b : NodeId) : Constant (isSelfOrAncestor a b) := by unfold isSelfOrAncestor; const
macro_rules | `(tactic| const1) => `(tactic| with_reducible exact isSelfOrAncestor_const _ _)
theorem takeOut_const (x : NodeId) : Constant (takeOut x) := by unfold takeOut; const
macro_rules | `(tactic| const1) => `(tactic| with_reducible exact takeOut_const _)
theorem insertPoint_const (x : NodeId) (r : Option NodeId) : Constant (insertPoint x r) := by unfold insertPoint; const
macro_rules | `(tactic| const1) => `(tactic| with_reducible exact insertPoint_const _ _)
theorem notChildOf_const (x : NodeId) (r : Option NodeId) : Constant (notChildOf x r) := by unfold notChildOf; const
macro_rules | `(tactic| const1) => `(tactic| with_reducible exact notChildOf_const _ _)
theorem notPermitted_const (p x : NodeId) (n : Node) : Constant (notPermitted p x n) := by unfold notPermitted; const
macro_rules | `(tactic| const1) => `(tactic| with_reducible exact notPermitted_const _ _ _)
theorem insertFragment_const (p x : NodeId) (r : Option NodeId) : Constant (insertFragment p x r) := by unfold insertFragment; const
macro_rules | `(tactic| const1) => `(tactic| with_reducible exact insertFragment_const _ _ _)

/-! An insertion writes the owner of a DocumentType. -/

/-- Like `Constant`, for memories where the node `x` has type `t`. -/
def ConstantIf {α : Type} (x : NodeId) (t : NodeType) (m : M α) : Prop := ∀ w, Bounded w → x < w.fresh → (∀ n, w.nodes x = some n → n.type = t) →
  (∀ w' a, m w = .ok w' a → Bounded w' ∧ SameNodes w w') ∧ ∀ w' e, m w = .exc w' e → Bounded w' ∧ SameNodes w w'

theorem Constant.when {α : Type} {m : M α} (h : Constant m) (x : NodeId) (t : NodeType) : ConstantIf x t m := fun w hb _ _ => h w hb

theorem ConstantIf.bind {α β : Type} {m : M α} {f : α → M β} {x : NodeId} {t : NodeType} (h1 : ConstantIf x t m) (h2 : ∀ a, ConstantIf x t (f a)) : ConstantIf x t (m >>= f) := by
  intro w hb hx ht
  obtain ⟨g1, g2⟩ := h1 w hb hx ht
  have e : (m >>= f) w = match m w with | .ok w' a => f a w' | .exc w' e => .exc w' e | .fault g => .fault g := rfl
  rw [e]
  cases hm : m w with
  | ok w1 a =>
    obtain ⟨b1, s1⟩ := g1 w1 a hm
    obtain ⟨k1, k2⟩ := h2 a w1 b1 (Nat.lt_of_lt_of_le hx s1.1) (fun n hn => by
      obtain ⟨m, k1, k2, _⟩ := s1.2 x n hn hx
      rw [k2]; exact ht m k1)
    exact ⟨fun w' b h => ⟨(k1 w' b h).1, s1.trans (k1 w' b h).2⟩, fun w' e h => ⟨(k2 w' e h).1, s1.trans (k2 w' e h).2⟩⟩
  | exc w1 e1 => exact ⟨fun w' b h => (by cases h), fun w' e h => by cases h; exact g2 w1 e1 hm⟩
  | fault f1 => exact ⟨fun w' b h => (by cases h), fun w' e h => by cases h⟩

theorem Constant.get_bind {α : Type} {i : NodeId} {f : Node → M α} (h : ∀ n, ConstantIf i n.type (f n)) : Constant (getNode i >>= f) := by
  intro w hb
  cases hn : w.nodes i with
  | none =>
    have e : (getNode i >>= f) w = .fault .useAfterFree := by
      have h : getNode i w = .fault .useAfterFree := by unfold getNode; rw [hn]
      exact bind_fault h f
    rw [e]; exact ⟨fun w' b h => (by cases h), fun w' e h => by cases h⟩
  | some n =>
    rw [Dom.Tree.get_bind hn]
    exact h n w hb (hb i n hn) (fun m hm => by rw [hn] at hm; cases hm; rfl)

theorem own_const (x p : NodeId) : ConstantIf x .doctype (modNode x fun n => { n with owner := some p }) := by
  intro w hb hx ht
  unfold modNode
  cases hn : w.nodes x with
  | none => exact ⟨fun w' b h => (by cases h), fun w' e h => by cases h⟩
  | some n =>
    refine ⟨fun w' b h => ?_, fun w' e h => by cases h⟩
    cases h
    refine ⟨fun j m hj => ?_, Nat.le_refl _, fun y n' hy _ => ?_⟩
    · dsimp only at hj ⊢
      by_cases h : j = x
      · subst h; exact hx
      · rw [if_neg h] at hj; exact hb j m hj
    · dsimp only at hy
      by_cases h : y = x
      · subst h; rw [if_pos rfl] at hy; cases hy
        exact ⟨n, hn, rfl, fun h => absurd (ht n hn) h⟩
      · rw [if_neg h] at hy; exact ⟨n', hy, rfl, fun _ => rfl⟩

theorem insertDo_const (p x : NodeId) (r : Option NodeId) (nw nd : Node) : ConstantIf x nw.type (insertDo p x r nw nd) := by
  unfold insertDo
  refine .bind ((takeOut_const x).when _ _) fun _ => .bind ((removePending_const x).when _ _) fun _ => .bind (Constant.when (by const) _ _) fun _ => .bind ?_ fun _ => Constant.when (by const) _ _
  split
  · rename_i h; rw [h.2]; exact own_const x p
  · exact (Constant.ret ()).when _ _

theorem insertBefore_const (p x : NodeId) (r : Option NodeId) : Constant (insertBefore p x r) := by
  unfold insertBefore
  refine .get_bind fun nw => .bind ((Constant.get p).when _ _) fun nd => .bind ((Constant.throwIf _ _).when _ _) fun _ => .bind ((readonly_const p).when _ _) fun ro =>
    .bind ((Constant.throwIf _ _).when _ _) fun _ => .bind ((notChildOf_const p r).when _ _) fun _ => .bind ((Constant.throwIf _ _).when _ _) fun _ =>
    .bind ((isSelfOrAncestor_const x p).when _ _) fun _ => .bind ((Constant.throwIf _ _).when _ _) fun _ => .bind ((notPermitted_const p x nw).when _ _) fun _ =>
    .bind ((Constant.throwIf _ _).when _ _) fun _ => ?_
  split
  · exact Constant.when (by const) _ _
  · exact insertDo_const p x r nw nd
macro_rules | `(tactic| const1) => `(tactic| with_reducible exact insertBefore_const _ _ _)
theorem appendChild_const (p x : NodeId) : Constant (appendChild p x) := by unfold appendChild; const
macro_rules | `(tactic| const1) => `(tactic| with_reducible exact appendChild_const _ _)

theorem replaceLoop_const (q : Option NodeId) (l : NodeId) : ∀ (f : Nat) (c : Option NodeId), Constant (replaceLoop q l f c)
  | 0, none => by unfold replaceLoop; const
  | 0, some i => by unfold replaceLoop; const
  | f + 1, none => by unfold replaceLoop; const
  | f + 1, some i => by
      have ih := replaceLoop_const q l f
      unfold replaceLoop; const; all_goals exact ih _
macro_rules | `(tactic| const1) => `(tactic| with_reducible exact replaceLoop_const _ _ _ _)
theorem replacementRange_const (x : NodeId) : Constant (replacementRange x) := by unfold replacementRange; const
macro_rules | `(tactic| const1) => `(tactic| with_reducible exact replacementRange_const _)
theorem replaceByNothing_const (x : NodeId) : Constant (replaceByNothing x) := by unfold replaceByNothing; const
macro_rules | `(tactic| const1) => `(tactic| with_reducible exact replaceByNothing_const _)
theorem replaceByRange_const (o a b : NodeId) : Constant (replaceByRange o a b) := by unfold replaceByRange; const
macro_rules | `(tactic| const1) => `(tactic| with_reducible exact replaceByRange_const _ _ _)
theorem replaceNode_const (o x : NodeId) : Constant (replaceNode o x) := by unfold replaceNode; const
macro_rules | `(tactic| const1) => `(tactic| with_reducible exact replaceNode_const _ _)
theorem replacePermitted_const (p x : NodeId) (n : Node) : Constant (replacePermitted p x n) := by unfold replacePermitted; const
macro_rules | `(tactic| const1) => `(tactic| with_reducible exact replacePermitted_const _ _ _)
theorem replaceDo_const (x o : NodeId) : Constant (replaceDo x o) := by unfold replaceDo; const
macro_rules | `(tactic| const1) => `(tactic| with_reducible exact replaceDo_const _ _)
theorem replaceChild_const (p x o : NodeId) : Constant (replaceChild p x o) := by unfold replaceChild; const
macro_rules | `(tactic| const1) => `(tactic| with_reducible exact replaceChild_const _ _ _)
theorem removeChild_const (p o : NodeId) : Constant (removeChild p o) := by unfold removeChild; const
macro_rules | `(tactic| const1) => `(tactic| with_reducible exact removeChild_const _ _)
theorem initNode_const (n : Node) : Constant (initNode n) := by unfold initNode; const
macro_rules | `(tactic| const1) => `(tactic| with_reducible exact initNode_const _)
theorem createNode_const (d : NodeId) (t : NodeType) (a b : Option DStr) : Constant (createNode d t a b) := by unfold createNode; const
macro_rules | `(tactic| const1) => `(tactic| with_reducible exact createNode_const _ _ _ _)
theorem createDoctype_const (a : Option DStr) : Constant (createDoctype a) := by unfold createDoctype; const
macro_rules | `(tactic| const1) => `(tactic| with_reducible exact createDoctype_const _)
macro_rules | `(tactic| const1) => `(tactic| with_reducible exact Constant.document)

/-! ## Those of Verif/Tree/Life.lean -/

section
variable {kill : NodeId → M Unit} (hk : ∀ x, Constant (kill x))
include hk

theorem tryDestroy_const (x : NodeId) : Constant (tryDestroy kill x) := by unfold tryDestroy; const; all_goals exact hk _
theorem unrefWith_const (x : NodeId) : Constant (unrefWith kill x) := by unfold unrefWith; const; all_goals exact tryDestroy_const hk _
theorem killLoop_const : ∀ (f : Nat) (c : Option NodeId), Constant (killLoop kill f c)
  | 0, none => by unfold killLoop; const
  | 0, some i => by unfold killLoop; const
  | f + 1, none => by unfold killLoop; const
  | f + 1, some i => by
      have ih := killLoop_const f
      unfold killLoop; const; all_goals first | exact tryDestroy_const hk _ | exact ih _
theorem docTryDestroy_const (d : NodeId) : Constant (docTryDestroy kill d) := by unfold docTryDestroy; const; all_goals exact hk _
theorem finalise_const (x : NodeId) : Constant (finalise kill x) := by unfold finalise; const; all_goals first | exact killLoop_const hk _ _ | exact docTryDestroy_const hk _
theorem attrKill_const (e : AttrEntry) : Constant (attrKill kill e) := by unfold attrKill; const; all_goals exact tryDestroy_const hk _
theorem attrKillLoop_const : ∀ l : List AttrEntry, Constant (attrKillLoop kill l)
  | [] => by unfold attrKillLoop; const
  | e :: l => by
      have ih := attrKillLoop_const l
      unfold attrKillLoop; const; all_goals exact attrKill_const hk _
theorem docDestroy_const (d : NodeId) : Constant (docDestroy kill d) := by
  unfold docDestroy
  refine .bind (finalise_const hk d) fun _ => .bind (.reads fun w => .inl ⟨_, rfl⟩) fun _ => ?_
  const
theorem destroyBody_const (x : NodeId) : Constant (destroyBody kill x) := by
  unfold destroyBody; const
  all_goals first | exact docDestroy_const hk _ | exact attrKillLoop_const hk _ | exact finalise_const hk _ | exact unrefWith_const hk _
theorem dropLoop_const : ∀ (f : Nat) (c : Option NodeId), Constant (dropLoop kill f c)
  | 0, none => by unfold dropLoop; const
  | 0, some i => by unfold dropLoop; const
  | f + 1, none => by unfold dropLoop; const
  | f + 1, some i => by
      have ih := dropLoop_const f
      unfold dropLoop; const; all_goals first | exact tryDestroy_const hk _ | exact ih _
end

theorem destroy_const : ∀ (f : Nat) (x : NodeId), Constant (destroy f x)
  | 0, x => by unfold destroy; const
  | f + 1, x => by unfold destroy; exact destroyBody_const (destroy_const f) x

theorem unref_const (x : NodeId) : Constant (unref x) := by
  unfold unref; const; all_goals exact unrefWith_const (destroy_const _) _
macro_rules | `(tactic| const1) => `(tactic| with_reducible exact unref_const _)
theorem putAttr_const (e a : NodeId) (n : DStr) (ns : Option DStr) : Constant (putAttr e a n ns) := by unfold putAttr; const
macro_rules | `(tactic| const1) => `(tactic| with_reducible exact putAttr_const _ _ _ _)
theorem visit_const (k : Dir) (x : NodeId) : Constant (visit k x) := by unfold visit; const
macro_rules | `(tactic| const1) => `(tactic| with_reducible exact visit_const _ _)

/-! ## Those of Verif/Tree/Clone.lean -/

theorem attempt_const {α : Type} {m : M α} (h : Constant m) : Constant (attempt m) := by
  intro w hb
  obtain ⟨g1, g2⟩ := h w hb
  unfold attempt
  cases hm : m w with
  | ok w1 a => exact ⟨fun w' b h => (by cases h; exact g1 w1 a hm), fun w' e h => by cases h⟩
  | exc w1 e => exact ⟨fun w' b h => (by cases h; exact g2 w1 e hm), fun w' e h => by cases h⟩
  | fault f => exact ⟨fun w' b h => (by cases h), fun w' e h => by cases h⟩

/-- A call, with what is done when it returns and when it fails. -/
def handled {α β : Type} (m : M α) (f : α → M β) (g : Exc → M β) : M β := fun w => match m w with
  | .ok w' a => f a w'
  | .exc w' e => g e w'
  | .fault k => .fault k

theorem handle_const {α β : Type} {m : M α} {f : α → M β} {g : Exc → M β} (h : Constant m) (hf : ∀ a, Constant (f a)) (hg : ∀ e, Constant (g e)) :
    Constant (handled m f g) := by
  intro w hb
  obtain ⟨g1, g2⟩ := h w hb
  unfold handled
  cases hm : m w with
  | ok w1 a =>
    obtain ⟨b1, s1⟩ := g1 w1 a hm
    obtain ⟨k1, k2⟩ := hf a w1 b1
    exact ⟨fun w' b h => ⟨(k1 w' b h).1, s1.trans (k1 w' b h).2⟩, fun w' e h => ⟨(k2 w' e h).1, s1.trans (k2 w' e h).2⟩⟩
  | exc w1 e1 =>
    obtain ⟨b1, s1⟩ := g2 w1 e1 hm
    obtain ⟨k1, k2⟩ := hg e1 w1 b1
    exact ⟨fun w' b h => ⟨(k1 w' b h).1, s1.trans (k1 w' b h).2⟩, fun w' e h => ⟨(k2 w' e h).1, s1.trans (k2 w' e h).2⟩⟩
  | fault f1 => exact ⟨fun w' b h => (by cases h), fun w' e h => by cases h⟩

theorem orUnref_const {α : Type} (n : NodeId) {m : M α} (h : Constant m) : Constant (orUnref n m) := by
  have e : orUnref n m = handled m (fun a => pure a) (fun e => unref n >>= fun _ => M.throw e) := by
    funext w; unfold orUnref handled; cases m w <;> rfl
  rw [e]; exact handle_const h (fun a => .ret a) (fun e => by const)

theorem copyInternal_const (n : Node) : Constant (copyInternal n) := by unfold copyInternal; const
macro_rules | `(tactic| const1) => `(tactic| with_reducible exact copyInternal_const _)
theorem copyPI_const (n : Node) : Constant (copyPI n) := by unfold copyPI; const
macro_rules | `(tactic| const1) => `(tactic| with_reducible exact copyPI_const _)
theorem dropAttrs_const (x : NodeId) : Constant (dropAttrs x) := by unfold dropAttrs; const; all_goals exact attrKillLoop_const (destroy_const _) _
macro_rules | `(tactic| const1) => `(tactic| with_reducible exact dropAttrs_const _)

section
variable {clone : Bool → NodeId → M NodeId} (hk : ∀ b x, Constant (clone b x))
include hk

theorem cloneAttrs_const (x : NodeId) : ∀ l : List AttrEntry, Constant (cloneAttrs clone x l)
  | [] => by unfold cloneAttrs; const
  | e :: l => by
      have ih := cloneAttrs_const x l
      unfold cloneAttrs; const; all_goals exact attempt_const (hk _ _)
theorem copyElement_const (n : Node) : Constant (copyElement clone n) := by unfold copyElement; const; all_goals exact cloneAttrs_const hk _ _
theorem copyNode_const (n : Node) : Constant (copyNode clone n) := by unfold copyNode; const; all_goals exact copyElement_const hk _
theorem cloneKids_const (x : NodeId) : ∀ (f : Nat) (c : Option NodeId), Constant (cloneKids clone x f c)
  | 0, none => by unfold cloneKids; const
  | 0, some i => by unfold cloneKids; const
  | f + 1, none => by unfold cloneKids; const
  | f + 1, some i => by
      have ih := cloneKids_const x f
      unfold cloneKids; const; all_goals first | exact ih _ | exact orUnref_const _ (hk _ _) | exact orUnref_const _ (appendChild_const _ _)
theorem cloneBody_const (b : Bool) (x : NodeId) : Constant (cloneBody clone b x) := by
  unfold cloneBody; const; all_goals first | exact copyNode_const hk _ | exact cloneKids_const hk _ _ _
end

theorem cloneWith_const : ∀ (f : Nat) (b : Bool) (x : NodeId), Constant (cloneWith f b x)
  | 0, b, x => by unfold cloneWith; const
  | f + 1, b, x => by unfold cloneWith; exact cloneBody_const (cloneWith_const f) b x
theorem cloneNode_const (x : NodeId) (b : Bool) : Constant (cloneNode x b) := by unfold cloneNode; const; all_goals exact cloneWith_const _ _ _
macro_rules | `(tactic| const1) => `(tactic| with_reducible exact cloneNode_const _ _)

/-! ## Those of Verif/Tree/CharData.lean, SetText.lean and SetAttr.lean -/

theorem subtreeAt_const (d t : Option NodeId) : Constant (fireSubtreeAt d t) := by unfold fireSubtreeAt; const
macro_rules | `(tactic| const1) => `(tactic| with_reducible exact subtreeAt_const _ _)
theorem storeData_const (c : NodeId) (v : Option DStr) : Constant (storeData c v) := by unfold storeData; const
macro_rules | `(tactic| const1) => `(tactic| with_reducible exact storeData_const _ _)
theorem setData_const (c : NodeId) (v : Option DStr) : Constant (setData c v) := by unfold setData; const
macro_rules | `(tactic| const1) => `(tactic| with_reducible exact setData_const _ _)
theorem substringData_const (c : NodeId) (o k : Nat) : Constant (substringData c o k) := by unfold substringData; const
macro_rules | `(tactic| const1) => `(tactic| with_reducible exact substringData_const _ _ _)
theorem appendData_const (c : NodeId) (v : Option DStr) : Constant (appendData c v) := by unfold appendData; const
macro_rules | `(tactic| const1) => `(tactic| with_reducible exact appendData_const _ _)
theorem insertData_const (c : NodeId) (o : Nat) (v : Option DStr) : Constant (insertData c o v) := by unfold insertData; const
macro_rules | `(tactic| const1) => `(tactic| with_reducible exact insertData_const _ _ _)
theorem replaceData_const (c : NodeId) (o k : Nat) (v : Option DStr) : Constant (replaceData c o k v) := by unfold replaceData; const
macro_rules | `(tactic| const1) => `(tactic| with_reducible exact replaceData_const _ _ _ _)
theorem deleteData_const (c : NodeId) (o k : Nat) : Constant (deleteData c o k) := by unfold deleteData; const
macro_rules | `(tactic| const1) => `(tactic| with_reducible exact deleteData_const _ _ _)
theorem splitText_const (c : NodeId) (o : Nat) : Constant (splitText c o) := by unfold splitText; const
macro_rules | `(tactic| const1) => `(tactic| with_reducible exact splitText_const _ _)

theorem clearLoop_const (x : NodeId) : ∀ (f : Nat) (c : Option NodeId), Constant (clearLoop x f c)
  | 0, none => by unfold clearLoop; const
  | 0, some i => by unfold clearLoop; const
  | f + 1, none => by unfold clearLoop; const
  | f + 1, some i => by
      have ih := clearLoop_const x f
      unfold clearLoop; const; all_goals exact ih _
macro_rules | `(tactic| const1) => `(tactic| with_reducible exact clearLoop_const _ _ _)
theorem appendText_const (x t : NodeId) : Constant (appendText x t) := by
  have e : appendText x t = handled (appendChild x t) (fun r => unref t >>= fun _ => unref r) (fun e => unref t >>= fun _ => M.throw e) := by
    funext w; unfold appendText handled; cases appendChild x t w <;> rfl
  rw [e]; exact handle_const (appendChild_const x t) (fun r => by const) (fun e => by const)
macro_rules | `(tactic| const1) => `(tactic| with_reducible exact appendText_const _ _)
theorem setTextContent_const (x : NodeId) (v : Option DStr) : Constant (setTextContent x v) := by unfold setTextContent; const

theorem linkValue_const (a t : NodeId) : Constant (linkValue a t) := by unfold linkValue; const
macro_rules | `(tactic| const1) => `(tactic| with_reducible exact linkValue_const _ _)
theorem setValue_const (a : NodeId) (v : Option DStr) : Constant (setValue a v) := by unfold setValue; const; all_goals exact dropLoop_const (destroy_const _) _ _
macro_rules | `(tactic| const1) => `(tactic| with_reducible exact setValue_const _ _)
theorem orGiveUp_const (a : NodeId) {m : M Unit} (h : Constant m) : Constant (orGiveUp a m) := by
  have e : orGiveUp a m = handled m (fun _ => pure ()) (fun e => modNode a (fun n => { n with parent := none }) >>= fun _ => unref a >>= fun _ => M.throw e) := by
    funext w; unfold orGiveUp handled; cases m w <;> rfl
  rw [e]; exact handle_const h (fun _ => .ret ()) (fun e => by const)
theorem addAttr_const (e : NodeId) (d : Option NodeId) (n : DStr) (ns v : Option DStr) : Constant (addAttr e d n ns v) := by
  unfold addAttr; const; all_goals exact orGiveUp_const _ (setValue_const _ _)
macro_rules | `(tactic| const1) => `(tactic| with_reducible exact addAttr_const _ _ _ _ _)
theorem setFound_const (f : Option AttrEntry) (e : NodeId) (d : Option NodeId) (n : DStr) (ns v : Option DStr) : Constant (setFound f e d n ns v) := by unfold setFound; const
macro_rules | `(tactic| const1) => `(tactic| with_reducible exact setFound_const _ _ _ _ _ _)
theorem setAttr_const (e : NodeId) (n : DStr) (ns v : Option DStr) : Constant (setAttr e n ns v) := by unfold setAttr; const
theorem dropFound_const (f : Option AttrEntry) (e : NodeId) : Constant (dropFound f e) := by unfold dropFound; const; all_goals exact attrKill_const (destroy_const _) _
macro_rules | `(tactic| const1) => `(tactic| with_reducible exact dropFound_const _ _)
theorem removeAttr_const (e : NodeId) (n : DStr) (ns : Option DStr) : Constant (removeAttr e n ns) := by unfold removeAttr; const

/-! ## The properties -/

theorem op_const (a : Op) : Constant a.run := by
  cases a with
  | act a =>
    cases a with
    | call c => cases c <;> (refine Constant.bind ?_ (fun _ => .ret _)) <;> (unfold Call.run; dsimp only) <;> const1
    | putAttr e a n ns => exact (putAttr_const e a n ns).bind fun _ => .ret _
    | get k x => exact visit_const k x
    | ref x => exact (ref_const x).bind fun _ => .ret _
    | unref x => exact (unref_const x).bind fun _ => .ret _
    | clone x b => exact (cloneNode_const x b).bind fun _ => .ret _
  | setData x v => exact (setData_const x v).bind fun _ => .ret _
  | appendData x v => exact (appendData_const x _).bind fun _ => .ret _
  | insertData x o v => exact (insertData_const x o _).bind fun _ => .ret _
  | replaceData x o k v => exact (replaceData_const x o k _).bind fun _ => .ret _
  | deleteData x o k => exact (deleteData_const x o k).bind fun _ => .ret _
  | splitText x o => exact (splitText_const x o).bind fun _ => .ret _
  | setText x v => exact (setTextContent_const x v).bind fun _ => .ret _
  | setAttr x n ns v => exact (setAttr_const x n ns v).bind fun _ => .ret _
  | removeAttr x n ns => exact (removeAttr_const x n ns).bind fun _ => .ret _
  | setValue x v => exact (setValue_const x v).bind fun _ => .ret _

/-- C96: no function changes the type of a node or, but for a DocumentType, the document it belongs to; whatever the arguments are, and also when it refuses.  (That no name of a node is used again is a device of the model, see `name_gone`.) -/
theorem C96_step (a : Op) {w w' : World} (hb : Bounded w) (h : (∃ r, a.run w = .ok w' r) ∨ ∃ e, a.run w = .exc w' e) : Bounded w' ∧ SameNodes w w' := by
  rcases h with ⟨r, h⟩ | ⟨e, h⟩
  · exact (op_const a w hb).1 w' r h
  · exact (op_const a w hb).2 w' e h

/-- What a client does after the memory was `w`. -/
inductive After (w : World) : World → Prop
  | now : After w w
  | done {v v' : World} {r : Option NodeId} (a : Op) : After w v → a.run v = .ok v' r → After w v'
  | refused {v v' : World} {e : Exc} (a : Op) : After w v → a.run v = .exc v' e → After w v'

/-- C96 for histories: from any memory that a heedful client meets, whatever is done next. -/
theorem C96_history {led : Ledger} {w v : World} (h : Editor led w) (ha : After w v) : SameNodes w v := by
  obtain ⟨ch, S, _⟩ := h.sound
  have hb : Bounded w := fun j n hj => S.wf.bnd j n hj
  suffices Bounded v ∧ SameNodes w v from this.2
  induction ha with
  | now => exact ⟨hb, .refl w⟩
  | done a _ hr ih => obtain ⟨h1, h2⟩ := C96_step a ih.1 (.inl ⟨_, hr⟩); exact ⟨h1, ih.2.trans h2⟩
  | refused a _ hr ih => obtain ⟨h1, h2⟩ := C96_step a ih.1 (.inr ⟨_, hr⟩); exact ⟨h1, ih.2.trans h2⟩

/-- C96: a node that the client holds throughout is one and the same: it has the type and the document it had. -/
theorem C96_held {led led' : Ledger} {w v : World} (h : Editor led w) (ha : After w v) (h' : Editor led' v) {x : NodeId} (hx : 0 < led x) (hx' : 0 < led' x) :
    ∃ n n', w.nodes x = some n ∧ v.nodes x = some n' ∧ n'.type = n.type ∧ (n.type ≠ .doctype → n'.owner = n.owner) := by
  obtain ⟨n, h1, _⟩ := C46_editing_live_partial h hx
  obtain ⟨n', h2, _⟩ := C46_editing_live_partial h' hx'
  obtain ⟨ch, S, _⟩ := h.sound
  obtain ⟨m, h3, h4, h5⟩ := (C96_history h ha).2 x n' h2 (S.wf.bnd x n h1)
  rw [h1] at h3; cases h3
  exact ⟨n, n', h1, h2, h4, h5⟩

/-- The model never uses a name of a node twice, so that equal names mean the same node.  This is a device of the model and says nothing about `malloc`. -/
theorem name_gone {led : Ledger} {w v : World} (h : Editor led w) (ha : After w v) {x : NodeId} (hlt : x < w.fresh) (hx : w.nodes x = none) : v.nodes x = none := by
  cases hv : v.nodes x with
  | none => rfl
  | some n =>
    obtain ⟨m, h1, _⟩ := (C96_history h ha).2 x n hv hlt
    rw [hx] at h1; cases h1

/-! ## The hypotheses are met -/

/-- The memory after steps of a client that did not crash. -/
def runOps : List Op → World → Option World
  | [], w => some w
  | a :: l, w => match a.run w with
    | .ok w' _ | .exc w' _ => runOps l w'
    | .fault _ => none

theorem After.all {w : World} : ∀ (l : List Op) {v v' : World}, After w v → runOps l v = some v' → After w v'
  | [], v, v', h, e => by cases e; exact h
  | a :: l, v, v', h, e => by
      unfold runOps at e
      cases hr : a.run v with
      | ok v1 r => rw [hr] at e; exact After.all l (.done a h hr) e
      | exc v1 r => rw [hr] at e; exact After.all l (.refused a h hr) e
      | fault f => rw [hr] at e; cases e

/-- A document with an element and a DocumentType. -/
def identityActs : List Act := [.call .createDocument, .call (.createNode 0 .element none none), .call (.createDoctype none)]

/-- They are put into the document; the element gets an attribute and twice a text. -/
def identityOps : List Op := [.act (.call (.appendChild 0 2)), .act (.call (.appendChild 0 1)), .setAttr 1 (Str.create [98]) none (some (Str.create [99])), .setText 1 (some (Str.create [99])), .setText 1 (some (Str.create [98]))]

/-- The DocumentType gets its document when it is inserted; the element keeps its own; nothing is put where the first Text node was. -/
theorem sample96 : ∃ led w v, Editor led w ∧ After w v ∧ 0 < led 1 ∧ (∃ n, w.nodes 2 = some n ∧ n.type = .doctype ∧ n.owner = none) ∧
    (∃ n, v.nodes 2 = some n ∧ n.type = .doctype ∧ n.owner = some 0) ∧ (∃ n, v.nodes 1 = some n ∧ n.type = .element ∧ n.owner = some 0 ∧ n.parent = some 0 ∧ n.attrs ≠ []) ∧ w.fresh = 3 ∧ v.nodes 5 = none ∧ (∃ n, v.nodes 6 = some n ∧ n.type = .text) := by
  obtain ⟨led, w, hc, h⟩ := exists_careful identityActs
    (fun led w => decide (0 < led 1) && at_ w 2 (fun m => m.type = .doctype && decide (m.owner = none)) &&
      (match runOps identityOps w with
       | none => false
       | some v => at_ v 2 (fun m => m.type = .doctype && decide (m.owner = some 0)) && at_ v 1 (fun m => m.type = .element && decide (m.owner = some 0) && decide (m.parent = some 0) && !m.attrs.isEmpty) &&
          decide (w.fresh = 3) && (v.nodes 5).isNone && at_ v 6 (fun m => m.type = .text))) (by decide +kernel)
  simp only [Bool.and_eq_true] at h
  obtain ⟨⟨h1, h2⟩, h3⟩ := h
  cases hv : runOps identityOps w with
  | none => rw [hv] at h3; cases h3
  | some v =>
    rw [hv] at h3
    simp only [Bool.and_eq_true] at h3
    obtain ⟨⟨⟨⟨h3, h4⟩, h5⟩, h6⟩, h7⟩ := h3
    obtain ⟨m6, k6, e6⟩ := at_elim h7
    obtain ⟨n2, k2, e2⟩ := at_elim h2
    obtain ⟨m2, k3, e3⟩ := at_elim h3
    obtain ⟨m1, k4, e4⟩ := at_elim h4
    simp only [Bool.and_eq_true, decide_eq_true_eq] at e2 e3 e4
    refine ⟨led, w, v, .of_client hc, .all _ .now hv, of_decide_eq_true h1, ⟨n2, k2, e2⟩, ⟨m2, k3, e3⟩, ⟨m1, k4, e4.1.1.1, e4.1.1.2, e4.1.2, ?_⟩, of_decide_eq_true h5, Option.isNone_iff_eq_none.1 h6, ⟨m6, k6, of_decide_eq_true e6⟩⟩
    intro e; rw [e] at e4; simp at e4

end Dom.Tree
