import Verif.Tree.Wp
import Verif.Tree.Spec
import Mathlib.Data.List.Nodup
import Mathlib.Data.Finset.Card
import Mathlib.Data.Finset.Range
/-!
# Reading the tree: parent chains, child lists, the checks made before a mutation
-/
namespace Dom.Tree
set_option linter.unusedSimpArgs false

/-- Distinct addresses below `n` are at most `n` many. -/
theorem nodup_length_le {l : List Nat} {n : Nat} (hd : l.Nodup) (hl : ∀ x ∈ l, x < n) : l.length ≤ n := by
  have h1 : l.toFinset ⊆ Finset.range n := by
    intro x hx
    simp only [List.mem_toFinset] at hx
    simpa using hl x hx
  have h2 := Finset.card_le_card h1
  rwa [List.toFinset_card_of_nodup hd, Finset.card_range] at h2

section
variable {w : World} {ch : Children}

theorem Linked.alive_child (hL : Linked w ch) {p c : NodeId} (h : c ∈ ch p) :
    ∃ n, w.nodes c = some n ∧ n.type ≠ .attribute ∧ n.parent = some p := by
  obtain ⟨a, b, hab⟩ := List.append_of_mem h
  cases hp : w.nodes p with
  | none => rw [hL.dead p hp] at h; simp at h
  | some pn =>
    obtain ⟨n, h1, h2, h3, _⟩ := (hL.loc p pn hp).kids a c b hab
    exact ⟨n, h1, h2, h3⟩

theorem Linked.alive_parent (hL : Linked w ch) {c p : NodeId} {n : Node} (hc : w.nodes c = some n)
    (hp : n.parent = some p) : ∃ pn, w.nodes p = some pn := by
  by_cases ht : n.type = .attribute
  · obtain ⟨e, he, _⟩ := hL.attrUp c n p hc ht hp
    exact ⟨e, he⟩
  · have := hL.up c n p hc ht hp
    cases h : w.nodes p with
    | none => rw [hL.dead p h] at this; simp at this
    | some pn => exact ⟨pn, rfl⟩

theorem Linked.parent_of_mem (hL : Linked w ch) {p c : NodeId} {n : Node} (h : c ∈ ch p)
    (hc : w.nodes c = some n) : n.parent = some p := by
  obtain ⟨m, hm, _, hp⟩ := hL.alive_child h
  rw [hm] at hc; cases hc; exact hp

theorem Linked.mem_unique (hL : Linked w ch) {p q c : NodeId} (h : c ∈ ch p) (h' : c ∈ ch q) : p = q := by
  obtain ⟨n, hn, _, hp⟩ := hL.alive_child h
  have := hL.parent_of_mem h' hn
  rw [hp] at this; simpa using this

/-- The list of a node and its ancestors. -/
inductive Chain (w : World) : Option NodeId → List NodeId → Prop
  | nil : Chain w none []
  | cons {i n l} : w.nodes i = some n → Chain w n.parent l → Chain w (some i) (i :: l)

theorem exists_chain (hL : Linked w ch) (hwf : WellFounded (fun p c => ParentOf w c p)) (i : NodeId) :
    ∀ n, w.nodes i = some n → ∃ l, Chain w (some i) l := by
  induction i using hwf.induction with
  | _ i ih =>
    intro n hn
    cases hp : n.parent with
    | none => exact ⟨[i], .cons hn (by rw [hp]; exact .nil)⟩
    | some p =>
      obtain ⟨pn, hpn⟩ := hL.alive_parent hn hp
      obtain ⟨l, hl⟩ := ih p ⟨n, hn, hp⟩ pn hpn
      exact ⟨i :: l, .cons hn (by rw [hp]; exact hl)⟩

theorem Chain.mem_iff {i : NodeId} {l : List NodeId} (h : Chain w (some i) l) (j : NodeId) :
    j ∈ l ↔ AncSelf w i j := by
  generalize ho : some i = o at h
  induction h generalizing i with
  | nil => cases ho
  | @cons i' n l hn hc ih =>
    cases ho
    constructor
    · intro hj
      rcases List.mem_cons.1 hj with rfl | hj
      · exact .refl
      · cases hp : n.parent with
        | none => rw [hp] at hc; cases hc; simp at hj
        | some p => exact .head ⟨n, hn, hp⟩ ((ih hp.symm).1 hj)
    · intro hj
      rcases Relation.ReflTransGen.cases_head hj with rfl | ⟨p, ⟨m, hm, hp⟩, hr⟩
      · simp
      · rw [hn] at hm; cases hm
        exact List.mem_cons_of_mem _ ((ih hp.symm).2 hr)

theorem Chain.alive {o : Option NodeId} {l : List NodeId} (h : Chain w o l) :
    ∀ j ∈ l, ∃ n, w.nodes j = some n := by
  induction h with
  | nil => simp
  | cons hn _ ih =>
    intro j hj
    rcases List.mem_cons.1 hj with rfl | hj
    · exact ⟨_, hn⟩
    · exact ih j hj

theorem transGen_irrefl (hwf : WellFounded (fun p c => ParentOf w c p)) (i : NodeId) :
    ¬ Relation.TransGen (ParentOf w) i i := by
  induction i using hwf.induction with
  | _ i ih =>
    intro h
    obtain ⟨p, hp, hr⟩ := Relation.TransGen.head'_iff.1 h
    exact ih p hp (Relation.TransGen.tail' hr hp)

theorem Chain.nodup (hwf : WellFounded (fun p c => ParentOf w c p)) {o : Option NodeId} {l : List NodeId}
    (h : Chain w o l) : l.Nodup := by
  induction h with
  | nil => simp
  | @cons i n l hn hc ih =>
    refine List.nodup_cons.2 ⟨?_, ih⟩
    intro hi
    cases hp : n.parent with
    | none => rw [hp] at hc; cases hc; simp at hi
    | some p =>
      rw [hp] at hc
      have hr := (hc.mem_iff i).1 hi
      exact transGen_irrefl hwf i (Relation.TransGen.head' ⟨n, hn, hp⟩ hr)

theorem Chain.length_le (hW : Core w ch) {o : Option NodeId} {l : List NodeId} (h : Chain w o l) :
    l.length ≤ w.fresh := by
  refine nodup_length_le (h.nodup hW.wf) fun x hx => ?_
  obtain ⟨n, hn⟩ := h.alive x hx
  exact hW.bnd x n hn

theorem anyAncestor_run (p : NodeId → Node → Bool) {o : Option NodeId} {l : List NodeId}
    (h : Chain w o l) : ∀ fuel, l.length ≤ fuel →
    ∃ b, anyAncestor p fuel o w = .ok w b ∧
      (b = true ↔ ∃ j ∈ l, ∃ n, w.nodes j = some n ∧ p j n = true) := by
  induction h with
  | nil => intro fuel _; exact ⟨false, by cases fuel <;> rfl, by simp⟩
  | @cons i n l hn hc ih =>
    intro fuel hf
    cases fuel with
    | zero => simp at hf
    | succ fuel =>
      obtain ⟨b, hb, hb'⟩ := ih fuel (by simpa using hf)
      rw [anyAncestor, get_bind hn]
      by_cases hp : p i n = true
      · refine ⟨true, by simp [hp, pure_run], ?_⟩
        simp only [true_iff]
        exact ⟨i, by simp, n, hn, hp⟩
      · refine ⟨b, by simp [hp, hb], hb'.trans ?_⟩
        constructor
        · rintro ⟨j, hj, r⟩; exact ⟨j, by simp [hj], r⟩
        · rintro ⟨j, hj, m, hm, r⟩
          rcases List.mem_cons.1 hj with rfl | hj
          · rw [hn] at hm; cases hm; exact absurd r hp
          · exact ⟨j, hj, m, hm, r⟩

/-- Walking up from a live node. -/
theorem anyAncestor_anc (hW : Core w ch) (p : NodeId → Node → Bool) {i : NodeId} {n : Node}
    (hi : w.nodes i = some n) :
    ∃ b, anyAncestor p (w.fresh + 1) (some i) w = .ok w b ∧
      (b = true ↔ ∃ j m, AncSelf w i j ∧ w.nodes j = some m ∧ p j m = true) := by
  obtain ⟨l, hl⟩ := exists_chain hW.linked hW.wf i n hi
  obtain ⟨b, hb, hb'⟩ := anyAncestor_run p hl (w.fresh + 1) (by have := hl.length_le hW; omega)
  refine ⟨b, hb, hb'.trans ?_⟩
  constructor
  · rintro ⟨j, hj, m, hm, r⟩; exact ⟨j, m, (hl.mem_iff j).1 hj, hm, r⟩
  · rintro ⟨j, m, hj, hm, r⟩; exact ⟨j, (hl.mem_iff j).2 hj, m, hm, r⟩

theorem AncSelf.alive (hL : Linked w ch) {i j : NodeId} {n : Node} (hi : w.nodes i = some n)
    (h : AncSelf w i j) : ∃ m, w.nodes j = some m := by
  induction h with
  | refl => exact ⟨n, hi⟩
  | tail _ hp _ =>
    obtain ⟨m, hm, hq⟩ := hp
    exact hL.alive_parent hm hq

theorem isSelfOrAncestor_run (hW : Core w ch) (new : NodeId) {i : NodeId} {n : Node}
    (hi : w.nodes i = some n) :
    ∃ b, isSelfOrAncestor new i w = .ok w b ∧ (b = true ↔ AncSelf w i new) := by
  obtain ⟨b, hb, hb'⟩ := anyAncestor_anc hW (fun j _ => decide (j = new)) hi
  refine ⟨b, by simpa [isSelfOrAncestor, bound_bind] using hb, hb'.trans ?_⟩
  constructor
  · rintro ⟨j, m, hj, _, r⟩; simp at r; exact r ▸ hj
  · intro h
    obtain ⟨m, hm⟩ := AncSelf.alive hW.linked hi h
    exact ⟨new, m, h, hm, by simp⟩

theorem readonly_run (hW : Core w ch) {i : NodeId} {n : Node} (hi : w.nodes i = some n) :
    ∃ b, readonly i w = .ok w b ∧ (b = true ↔ ReadOnly w i) := by
  have key : ReadOnly w i ↔ (n.type = .doctype ∨ n.type = .notation_ ∨
     (n.type = .attribute ∧ n.attrRO = true) ∨
     (n.type ≠ .attribute ∧ ∃ j m, AncSelf w i j ∧ w.nodes j = some m ∧
        (m.type = .entity ∨ m.type = .entityRef))) := by
    constructor
    · rintro ⟨m, hm, h⟩; rw [hi] at hm; cases hm; exact h
    · intro h; exact ⟨n, hi, h⟩
  rw [key]
  unfold readonly
  rw [get_bind hi]
  by_cases h1 : (n.type = .doctype || n.type = .notation_) = true
  · refine ⟨true, by simp [h1, pure_run], ?_⟩
    simp only [Bool.or_eq_true, decide_eq_true_eq] at h1
    simp only [true_iff]; tauto
  · by_cases h2 : n.type = .attribute
    · refine ⟨n.attrRO, by simp [h2, pure_run], ?_⟩
      simp [h2]
    · obtain ⟨b, hb, hb'⟩ :=
        anyAncestor_anc hW (fun _ m => decide (m.type = .entity) || decide (m.type = .entityRef)) hi
      refine ⟨b, by simpa [h1, h2, bound_bind] using hb, hb'.trans ?_⟩
      simp only [Bool.or_eq_true, decide_eq_true_eq, not_or] at h1
      simp [h2, h1.1, h1.2]

/-- A suffix `b` of the child list of `p`, reached by the sibling pointers from its head. -/
theorem anySibling_run (q : NodeId → Node → Bool) {p : NodeId} (hp : LocAt w ch p) :
    ∀ (b a : List NodeId), ch p = a ++ b → ∀ fuel, b.length ≤ fuel →
    ∃ r, anySibling q fuel b.head? w = .ok w r ∧
      (r = true ↔ ∃ j ∈ b, ∃ n, w.nodes j = some n ∧ q j n = true) := by
  intro b
  induction b with
  | nil => intro a _ fuel _; exact ⟨false, by cases fuel <;> rfl, by simp⟩
  | cons c b ih =>
    intro a hab fuel hf
    cases fuel with
    | zero => simp at hf
    | succ fuel =>
      obtain ⟨n, hn, _, _, _, hnext⟩ := hp.kids a c b hab
      obtain ⟨r, hr, hr'⟩ := ih (a ++ [c]) (by simp [hab]) fuel (by simpa using hf)
      rw [List.head?_cons, anySibling, get_bind hn]
      by_cases hq : q c n = true
      · refine ⟨true, by simp [hq, pure_run], ?_⟩
        simp only [true_iff]
        exact ⟨c, by simp, n, hn, hq⟩
      · refine ⟨r, by simp [hq, hnext, hr], hr'.trans ?_⟩
        constructor
        · rintro ⟨j, hj, s⟩; exact ⟨j, by simp [hj], s⟩
        · rintro ⟨j, hj, m, hm, s⟩
          rcases List.mem_cons.1 hj with rfl | hj
          · rw [hn] at hm; cases hm; exact absurd s hq
          · exact ⟨j, hj, m, hm, s⟩

theorem child_length_le (hW : Core w ch) (p : NodeId) : (ch p).length ≤ w.fresh := by
  cases hp : w.nodes p with
  | none => rw [hW.linked.dead p hp]; simp
  | some pn =>
    refine nodup_length_le (hW.linked.loc p pn hp).nodup fun x hx => ?_
    obtain ⟨n, hn, _⟩ := hW.linked.alive_child hx
    exact hW.bnd x n hn

theorem permittedType_iff (p c : NodeType) : permittedType p c = true ↔ MayContain p c := by
  constructor
  · intro h
    cases p <;> simp [permittedType] at h
    case «attribute» => exact .attr (by simpa using h)
    case document => exact .doc (by simpa [or_assoc] using h)
    all_goals exact .content (by simp) (by simpa [or_assoc] using h)
  · intro h
    cases h with
    | content hp hc => revert hp hc; cases p <;> cases c <;> simp [permittedType]
    | attr hc => revert hc; cases c <;> simp [permittedType]
    | doc hc => revert hc; cases c <;> simp [permittedType]

theorem permittedChild_run (hW : Core w ch) {p c : NodeId} {pn cn : Node} (hp : w.nodes p = some pn)
    (hc : w.nodes c = some cn) :
    ∃ b, permittedChild p c w = .ok w b ∧ (b = true ↔ Permitted w ch p c) := by
  have key : Permitted w ch p c ↔ (MayContain pn.type cn.type ∧
    (pn.type = .document → (cn.type = .element ∨ cn.type = .doctype) →
      ∀ x ∈ ch p, ∀ xn, w.nodes x = some xn → xn.type ≠ cn.type)) := by
    constructor
    · rintro ⟨a, b, ha, hb, h⟩; rw [hp] at ha; cases ha; rw [hc] at hb; cases hb; exact h
    · intro h; exact ⟨pn, cn, hp, hc, h⟩
  rw [key]
  have hloc := hW.linked.loc p pn hp
  obtain ⟨n', hn', hfirst, _⟩ := hloc.ends
  rw [hp] at hn'; cases hn'
  have hlen := child_length_le hW p
  unfold permittedChild
  rw [get_bind hp, get_bind hc]
  by_cases hd : pn.type = .document
  · simp only [hd, if_true]
    rw [bound_bind]
    obtain ⟨r1, hr1, hr1'⟩ := anySibling_run (fun _ n => decide (n.type = .element)) hloc (ch p) [] (by simp)
      (w.fresh + 1) (by omega)
    obtain ⟨r2, hr2, hr2'⟩ := anySibling_run (fun _ n => decide (n.type = .doctype)) hloc (ch p) [] (by simp)
      (w.fresh + 1) (by omega)
    rw [← hfirst] at hr1 hr2
    by_cases he : cn.type = .element
    · simp only [he, if_true]
      rw [bind_ok hr1]
      refine ⟨!r1, by simp [pure_run, pure_bind', permittedType], ?_⟩
      rw [Bool.not_eq_true', ← Bool.not_eq_true, hr1']
      simp only [decide_eq_true_eq, true_or, forall_const]
      constructor
      · intro h
        exact ⟨.doc (by simp), fun x hx xn hxn hxt => h ⟨x, hx, xn, hxn, hxt⟩⟩
      · rintro ⟨_, h⟩ ⟨x, hx, xn, hxn, hxt⟩; exact h x hx xn hxn hxt
    · simp only [he, if_false]
      rw [pure_bind']
      by_cases hdt : cn.type = .doctype
      · simp only [hdt, if_true]
        rw [bind_ok hr2]
        refine ⟨!r2, by simp [pure_run, permittedType], ?_⟩
        rw [Bool.not_eq_true', ← Bool.not_eq_true, hr2']
        simp only [decide_eq_true_eq, or_true, forall_const]
        constructor
        · intro h
          exact ⟨.doc (by simp), fun x hx xn hxn hxt => h ⟨x, hx, xn, hxn, hxt⟩⟩
        · rintro ⟨_, h⟩ ⟨x, hx, xn, hxn, hxt⟩; exact h x hx xn hxn hxt
      · simp only [hdt, if_false]
        rw [pure_bind']
        refine ⟨permittedType .document cn.type, by simp [pure_run], ?_⟩
        rw [permittedType_iff]
        simp [he, hdt]
  · simp only [hd, if_false]
    refine ⟨_, rfl, ?_⟩
    rw [permittedType_iff]
    simp

theorem allPermitted_run (hW : Core w ch) {f p : NodeId} {pn : Node} (hp : w.nodes p = some pn)
    (hf : LocAt w ch f) :
    ∀ (b a : List NodeId), ch f = a ++ b → ∀ fuel, b.length ≤ fuel →
    ∃ r, allPermitted p fuel b.head? w = .ok w r ∧ (r = true ↔ ∀ c ∈ b, Permitted w ch p c) := by
  intro b
  induction b with
  | nil => intro a _ fuel _; exact ⟨true, by cases fuel <;> rfl, by simp⟩
  | cons c b ih =>
    intro a hab fuel hfu
    cases fuel with
    | zero => simp at hfu
    | succ fuel =>
      obtain ⟨n, hn, _, _, _, hnext⟩ := hf.kids a c b hab
      obtain ⟨r, hr, hr'⟩ := ih (a ++ [c]) (by simp [hab]) fuel (by simpa using hfu)
      obtain ⟨q, hq, hq'⟩ := permittedChild_run hW hp hn
      rw [List.head?_cons, allPermitted, bind_ok hq]
      by_cases hqq : q = true
      · subst hqq
        refine ⟨r, by simp [get_bind hn, hnext, hr], hr'.trans ?_⟩
        simp [hq'.1 rfl]
      · refine ⟨false, by simp [hqq, pure_run], ?_⟩
        simp only [Bool.false_eq_true, List.mem_cons, forall_eq_or_imp, false_iff, not_and]
        intro h; exact absurd (hq'.2 h) hqq

end
end Dom.Tree
