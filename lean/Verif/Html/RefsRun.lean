import Verif.Html.Refs
import Verif.Html.PropsTable
import Verif.Tree.SetText
import Verif.Tree.PropsEdit
/-!
# The steps of the functions with references
-/
set_option linter.unusedSimpArgs false
set_option linter.unusedVariables false
namespace Dom.Html.Refs
open Dom.Str (DStr)
open Dom.Tree (World NodeId Node M Children Sound WF Core Room DocKept Clean count Grants getNode deref throwIf bound appendChild insertBefore removeChild ref unref AncSelf ReadOnly bind_ok bind_exc get_bind)

variable {w w' v v' : World} {ch ch' : Children} {x y s d j new : NodeId} {n dn sn nn : Node}

/-- One reference to `x`. -/
@[irreducible] def one (x j : NodeId) : Nat := if j = x then 1 else 0

theorem one_self (x : NodeId) : one x x = 1 := by unfold one; exact if_pos rfl
theorem one_ne (h : j ≠ x) : one x j = 0 := by unfold one; exact if_neg h
theorem one_le (x j : NodeId) : one x j ≤ 1 := by unfold one; split <;> omega

/-- A node without its reference count. -/
def bare (n : Node) : Node := { n with refcnt := 0 }

/-- The memories differ in reference counts only. -/
structure Alike (w w' : World) : Prop where
  nodes : ∀ j, (w'.nodes j).map bare = (w.nodes j).map bare
  fresh : w'.fresh = w.fresh
  log : w'.log = w.log

theorem Alike.refl (w : World) : Alike w w := ⟨fun _ => rfl, rfl, rfl⟩
theorem Alike.trans (h : Alike w w') (h' : Alike w' v) : Alike w v := ⟨fun j => (h'.nodes j).trans (h.nodes j), h'.fresh.trans h.fresh, h'.log.trans h.log⟩
theorem Alike.symm (h : Alike w w') : Alike w' w := ⟨fun j => (h.nodes j).symm, h.fresh.symm, h.log.symm⟩

/-- What is in memory stays there, with its content and its place. -/
def Kept (w w' : World) : Prop := ∀ j n, w.nodes j = some n → ∃ n', w'.nodes j = some n' ∧ n'.data = n.data ∧ n'.owner = n.owner ∧ n'.parent = n.parent

theorem Kept.refl (w : World) : Kept w w := fun j n h => ⟨n, h, rfl, rfl, rfl⟩
theorem Kept.trans (h : Kept w w') (h' : Kept w' v) : Kept w v := by
  intro j n hj
  obtain ⟨m, h1, h2, h3, h4⟩ := h j n hj
  obtain ⟨k, k1, k2, k3, k4⟩ := h' j m h1
  exact ⟨k, k1, k2.trans h2, k3.trans h3, k4.trans h4⟩

theorem bare_eq {a b : Node} (h : bare a = bare b) : a.data = b.data ∧ a.owner = b.owner ∧ a.parent = b.parent ∧ a.first = b.first ∧ a.next = b.next ∧ a.prev = b.prev ∧ a.pendingIn = b.pendingIn ∧ a.type = b.type :=
  ⟨by have := congrArg Node.data h; exact this, by have := congrArg Node.owner h; exact this, by have := congrArg Node.parent h; exact this, by have := congrArg Node.first h; exact this,
   by have := congrArg Node.next h; exact this, by have := congrArg Node.prev h; exact this, by have := congrArg Node.pendingIn h; exact this, by have := congrArg Node.type h; exact this⟩

theorem Alike.get (h : Alike w w') (hx : w.nodes x = some n) : ∃ n', w'.nodes x = some n' ∧ bare n' = bare n := by
  have := h.nodes x
  rw [hx] at this
  cases hx' : w'.nodes x with
  | none => rw [hx'] at this; cases this
  | some n' => rw [hx'] at this; exact ⟨n', rfl, by simpa using this⟩

theorem Alike.kept (h : Alike w w') : Kept w w' := by
  intro j n hj
  obtain ⟨m, h1, h2⟩ := h.get hj
  have := bare_eq h2
  exact ⟨m, h1, this.1, this.2.1, this.2.2.1⟩

/-- Memories that are alike and have the same counts are the same. -/
theorem Alike.eq_nodes (h : ∀ j, (w'.nodes j).map bare = (w.nodes j).map bare) (hc : ∀ j, count w' j = count w j) : w'.nodes = w.nodes := by
  funext j
  have h1 := h j
  have h2 := hc j
  unfold count at h2
  cases a : w.nodes j with
  | none =>
    rw [a] at h1
    cases b : w'.nodes j with
    | none => rfl
    | some m => rw [b] at h1; cases h1
  | some m =>
    rw [a] at h1 h2
    cases b : w'.nodes j with
    | none => rw [b] at h1; cases h1
    | some k =>
      rw [b] at h1 h2
      simp only [Option.map_some, Option.some.injEq] at h1 h2
      cases k; cases m
      simp only [bare, Node.mk.injEq] at h1
      simp only at h2
      simp only [Option.some.injEq, Node.mk.injEq]
      simp_all

theorem alike_upd (hx : w.nodes x = some n) (r : Nat) : Alike w (w.upd x { n with refcnt := r }) := by
  refine ⟨fun j => ?_, rfl, rfl⟩
  by_cases h : j = x
  · subst h; rw [Tree.upd_same, hx]; rfl
  · rw [Tree.upd_ne _ _ h]

theorem ref_step (S : Sound w ch) (hx : w.nodes x = some n) (hr : n.refcnt + 1 < 4294967296) :
    ∃ w', ref x w = .ok w' () ∧ Sound w' ch ∧ Alike w w' ∧ ∀ j, count w' j = count w j + one x j := by
  refine ⟨_, Tree.ref_run hx, S.ref hx hr, ?_, fun j => ?_⟩
  · rw [Tree.ref_upd hx]; exact alike_upd hx _
  · rw [Tree.grants_ref hx hr j]
    by_cases h : j = x
    · subst h; rw [one_self, if_pos rfl]
    · rw [one_ne h, if_neg (fun e => h (Option.some.inj e).symm)]

theorem unref_step (S : Sound w ch) (hx : w.nodes x = some n) (hr : 0 < n.refcnt) (hk : n.refcnt ≠ 1 ∨ n.parent ≠ none) :
    ∃ w', unref x w = .ok w' () ∧ Sound w' ch ∧ Alike w w' ∧ ∀ j, count w' j + one x j = count w j := by
  have hrun := Tree.unref_keep hx hr hk
  refine ⟨_, hrun, S.setRef hx (fun hp ht => ?_) (fun ht hz => ?_), alike_upd hx _, fun j => ?_⟩
  · have := hk.resolve_right (fun h => h hp); omega
  · have := hk.resolve_right (fun h => h (Tree.doc_parent S.wf.toCore hx ht)); omega
  · rw [S.unref_count hx hr hrun j]
    by_cases h : j = x
    · subst h; rw [one_self, if_pos rfl, Tree.count_eq hx]; omega
    · rw [one_ne h, if_neg h]; rfl

/-- A reference that was added to a node that was there before can be given up: the node has a parent or other references. -/
theorem unref_back (S : Sound w ch) (Sv : Sound v ch') (hx : w.nodes x = some n) (hd : n.type = .document → 0 < n.refcnt) (hk : Kept w v) (hc : count w x < count v x) :
    ∃ v', unref x v = .ok v' () ∧ Sound v' ch' ∧ Alike v v' ∧ ∀ j, count v' j + one x j = count v j := by
  obtain ⟨m, hm, _, _, hp⟩ := hk x n hx
  rw [Tree.count_eq hx, Tree.count_eq hm] at hc
  refine unref_step Sv hm (by omega) ?_
  by_cases h : n.parent = none
  · left
    have : 0 < n.refcnt := by
      by_cases ht : n.type = .document
      · exact hd ht
      · exact S.held x n hx h ht
    omega
  · exact .inr (by rw [hp]; exact h)

theorem docOf (S : Sound w ch) (hx : w.nodes x = some n) (ht : n.type = .element) : ∃ d dn, n.owner = some d ∧ w.nodes d = some dn ∧ dn.type = .document := by
  rcases S.wf.owner x n hx with ⟨d, dn, h1, h2, h3⟩ | ⟨h, _⟩
  · exact ⟨d, dn, h1, h2, h3⟩
  · rw [ht] at h; cases h

/-- No count overflows while a function runs. -/
def Roomy (w : World) : Prop := ∀ j, count w j < 4294967280

theorem get_count (h : w.nodes j = some n) : n.refcnt = count w j := (Tree.count_eq h).symm

theorem open_step (S : Sound w ch) (hx : w.nodes x = some n) (ht : n.type = .element) (hr : ∀ j, count w j < 4294967290) :
    ∃ d dn w', n.owner = some d ∧ w.nodes d = some dn ∧ dn.type = .document ∧ d ≠ x ∧ openCol x w = .ok w' d ∧ Sound w' ch ∧ Alike w w' ∧ ∀ j, count w' j = count w j + one d j + one x j := by
  obtain ⟨d, dn, ho, hd, hdt⟩ := docOf S hx ht
  have hdx : d ≠ x := by rintro rfl; rw [hx] at hd; cases hd; rw [ht] at hdt; cases hdt
  have hrd := hr d
  have hrx := hr x
  obtain ⟨w1, e1, S1, A1, c1⟩ := ref_step S hd (by rw [get_count hd]; omega)
  obtain ⟨n1, hx1, b1⟩ := A1.get hx
  have := c1 x
  rw [one_ne (fun h => hdx h.symm)] at this
  obtain ⟨w2, e2, S2, A2, c2⟩ := ref_step S1 hx1 (by rw [get_count hx1]; omega)
  refine ⟨d, dn, w2, ho, hd, hdt, hdx, ?_, S2, A1.trans A2, fun j => by rw [c2, c1]⟩
  unfold openCol
  rw [get_bind hx, ho]
  show (ref d >>= _) w = _
  rw [bind_ok e1, bind_ok e2]
  rfl

/-- Releasing the collection: `w` is the memory before it was created. -/
theorem close_step (S : Sound w ch) (Sv : Sound v ch') (hx : w.nodes x = some n) (ht : n.type = .element) (ho : n.owner = some d) (hd : w.nodes d = some dn) (hk : DocKept w x)
    (hv : Kept w v) (hdx : d ≠ x) (hc : ∀ j, count w j + one d j + one x j ≤ count v j) :
    ∃ v', closeCol x d v = .ok v' () ∧ Sound v' ch' ∧ Alike v v' ∧ ∀ j, count v' j + one d j + one x j = count v j := by
  have h1 := hc d
  have h2 := hc x
  rw [one_self, one_ne hdx] at h1
  rw [one_self, one_ne (fun h => hdx h.symm)] at h2
  obtain ⟨v1, e1, S1, A1, c1⟩ := unref_back S Sv hd (fun _ => hk n d dn hx ho hd) hv (by omega)
  have := c1 x
  rw [one_ne (fun h => hdx h.symm)] at this
  obtain ⟨v2, e2, S2, A2, c2⟩ := unref_back S S1 hx (fun h => by rw [ht] at h; cases h) (hv.trans A1.kept) (by omega)
  refine ⟨v2, ?_, S2, A1.trans A2, fun j => ?_⟩
  · unfold closeCol
    rw [bind_ok e1]; exact e2
  · have := c1 j
    have := c2 j
    omega

/-! ## Collections -/

/-- The collection of the elements below `x` does not leave `x` (see C35). -/
def Closed (w : World) (ch : Children) (x : NodeId) : Prop := ∃ n, w.nodes x = some n ∧ n.type = .element ∧ (ch x ≠ [] ∨ n.next = none)

theorem Closed.alike (h : Closed w ch x) (A : Alike w w') : Closed w' ch x := by
  obtain ⟨n, h1, h2, h3⟩ := h
  obtain ⟨m, hm, hb⟩ := A.get h1
  have := bare_eq hb
  exact ⟨m, hm, by rw [this.2.2.2.2.2.2.2]; exact h2, by rw [this.2.2.2.2.1]; exact h3⟩

theorem mod_small {a b : Nat} (h : a ≤ b) (hb : b < 4294967296) : a % 2 ^ 32 = a := Nat.mod_eq_of_lt (Nat.lt_of_le_of_lt h (by omega))

/-- The members of a collection in document order. -/
def members (w : World) (ch : Children) (ic : NodeId → Bool) (x : NodeId) : List NodeId := (Tree.preorder ch (w.fresh + 1) x).filter (Trav.member w ic)

/-- A collection has a list of members, which are live elements. -/
theorem col_total (S : Sound w ch) (hx : Closed w ch x) (ic : NodeId → Bool) (hf : w.fresh < 2147483648) :
    Trav.colLength ic w x = .ok (members w ch ic x).length ∧ (∀ i, i < 4294967295 → Trav.colItem ic w x i = .ok (members w ch ic x)[i]?) ∧ (members w ch ic x).length < 2147483648 ∧
      ∀ y ∈ members w ch ic x, ∃ m, w.nodes y = some m ∧ m.type = .element ∧ Tree.Below ch x y ∧ ic y = true := by
  obtain ⟨n, h1, h2, h3⟩ := hx
  have hd := Tree.docOrder_preorder S.wf.toCore
  obtain ⟨e1, e2, _⟩ := Trav.C35_collection_partial S.wf hd h1 h3 ic (fun _ => false)
  have hl := Nat.le_trans (List.length_filter_le (Trav.member w ic) (Tree.preorder ch (w.fresh + 1) x)) (Trav.order_length_le S.wf.toCore hd h1)
  refine ⟨?_, ?_, Nat.lt_of_le_of_lt hl hf, ?_⟩
  · rw [e1, mod_small hl (by omega)]; rfl
  · intro i hi
    exact e2 i (by omega)
  · intro y hy
    obtain ⟨a, b⟩ := List.mem_filter.1 hy
    have hb := (Table.mem_order S.wf hd).1 a
    unfold Trav.member at b
    cases hn : w.nodes y with
    | none => rw [hn] at b; simp at b
    | some m =>
      rw [hn] at b
      simp only [Option.any_some, Bool.and_eq_true, decide_eq_true_eq, beq_iff_eq] at b
      exact ⟨m, rfl, b.1, hb, b.2⟩

theorem Alike.member {ic : NodeId → Bool} (A : Alike w w') : Trav.member w' ic = Trav.member w ic := by
  funext y
  unfold Trav.member
  have h := A.nodes y
  cases hy : w.nodes y with
  | none =>
    rw [hy] at h
    cases hy' : w'.nodes y with
    | none => rfl
    | some m => rw [hy'] at h; cases h
  | some n =>
    obtain ⟨m, hm, hb⟩ := A.get hy
    rw [hm]
    simp only [Option.any_some, (bare_eq hb).2.2.2.2.2.2.2]

theorem Alike.isTag (A : Alike w w') (tag : DStr) : Table.isTag tag w' = Table.isTag tag w := by
  funext y
  unfold Table.isTag
  have h := A.nodes y
  cases hy : w.nodes y with
  | none =>
    rw [hy] at h
    cases hy' : w'.nodes y with
    | none => rfl
    | some m => rw [hy'] at h; cases h
  | some n =>
    obtain ⟨m, hm, hb⟩ := A.get hy
    rw [hm]
    have : m.name = n.name := by have := congrArg Node.name hb; exact this
    simp only [this]

theorem Alike.members (A : Alike w w') (ic : NodeId → Bool) : members w' ch ic x = members w ch ic x := by
  unfold Refs.members
  rw [A.fresh, A.member]

/-- The elements of the name below `x`, in document order. -/
def tagList (w : World) (ch : Children) (tag : DStr) (x : NodeId) : List NodeId := members w ch (Table.isTag tag w) x

theorem Alike.tagList (A : Alike w w') (tag : DStr) : tagList w' ch tag x = tagList w ch tag x := by
  unfold Refs.tagList
  rw [A.isTag, A.members]

theorem count_total (S : Sound w ch) (hx : Closed w ch x) (tag : DStr) (hf : w.fresh < 2147483648) : Table.count tag x w = .ok w (tagList w ch tag x).length :=
  Table.reading_ok (col_total S hx _ hf).1

theorem item_total (S : Sound w ch) (hx : Closed w ch x) (tag : DStr) (hf : w.fresh < 2147483648) {i : Nat} (hi : i < 4294967295) : Table.item tag x i w = .ok w (tagList w ch tag x)[i]? :=
  Table.reading_ok ((col_total S hx _ hf).2.1 i hi)

theorem tag_mem (S : Sound w ch) (hx : Closed w ch x) {tag : DStr} (hf : w.fresh < 2147483648) (hy : y ∈ tagList w ch tag x) :
    ∃ m, w.nodes y = some m ∧ m.type = .element ∧ Tree.Below ch x y ∧ Table.isTag tag w y = true := (col_total S hx _ hf).2.2.2 y hy

/-- Creating a collection, counting it and releasing it changes nothing. -/
theorem length_run (S : Sound w ch) (hx : Closed w ch x) (hk : DocKept w x) (hr : Roomy w) (hf : w.fresh < 2147483648) (tag : DStr) :
    lengthOf tag x w = .ok w (tagList w ch tag x).length := by
  obtain ⟨n, h1, h2, h3⟩ := hx
  obtain ⟨d, dn, w1, ho, hd, hdt, hdx, e1, S1, A1, c1⟩ := open_step S h1 h2 (fun j => Nat.lt_trans (hr j) (by omega))
  have hx1 := Closed.alike ⟨n, h1, h2, h3⟩ A1
  have e2 := count_total S1 hx1 tag (by rw [A1.fresh]; exact hf)
  obtain ⟨w2, e3, S2, A2, c2⟩ := close_step S S1 h1 h2 ho hd hk A1.kept hdx (fun j => by rw [c1])
  have hw : w2 = w := by
    have A := A1.trans A2
    have hn := Alike.eq_nodes A.nodes (fun j => by have := c1 j; have := c2 j; omega)
    have hf := A.fresh
    have hl := A.log
    cases w2; cases w
    simp only at hn hf hl
    rw [hn, hf, hl]
  unfold lengthOf
  rw [bind_ok e1, bind_ok e2, bind_ok e3, A1.tagList, hw]
  rfl

/-! ## Insertion -/

/-- `new` has become a child of `s`, before `r`; everything else is where it was. -/
structure Into (w : World) (ch : Children) (s new : NodeId) (r : Option NodeId) (w' : World) (ch' : Children) : Prop where
  sound : Sound w' ch'
  here : ∃ a b, ch s = a ++ b ∧ b.head? = r ∧ ch' s = a ++ new :: b
  elsewhere : ∀ q, q ≠ s → ch' q = ch q
  data : ∀ j, (w'.nodes j).map Node.data = (w.nodes j).map Node.data
  owner : ∀ j, (w'.nodes j).map Node.owner = (w.nodes j).map Node.owner
  parents : ∀ j, j ≠ new → (w'.nodes j).map Node.parent = (w.nodes j).map Node.parent
  parent : (w'.nodes new).map Node.parent = some (some s)
  counts : ∀ j, count w' j = count w j + one new j
  fresh : w'.fresh = w.fresh

theorem insert_step {r : Option NodeId} (S : Sound v ch) (hs : v.nodes s = some sn) (hst : sn.type = .element) (hn : v.nodes new = some nn) (hnt : nn.type = .element) (hpar : nn.parent = none)
    (hr : ∀ c, r = some c → ∃ m, v.nodes c = some m ∧ m.type = .element) (hrn : r ≠ some new) (hroom : nn.refcnt + 1 < 4294967296) :
    (∃ e, insertBefore s new r v = .exc v e) ∨ ∃ v' ch', insertBefore s new r v = .ok v' new ∧ Into v ch s new r v' ch' := by
  rcases Tree.insertBefore_total S.wf hs hn (r := r) (fun c hc => by
      obtain ⟨m, hm, ht⟩ := hr c hc
      exact ⟨m, hm, fun h => by rw [ht] at h; cases h⟩) with ⟨e, h⟩ | ⟨h, _⟩ | ⟨v', ch', h, I, _⟩ | ⟨h, _⟩ | ⟨h, _⟩
  · exact .inl ⟨e, h⟩
  · exact absurd h hrn
  · right
    refine ⟨v', ch', h, ?_⟩
    have SI : Sound v' ch' := S.inserted I hs hn (fun h => by rw [hnt] at h; cases h) hroom (fun h => by rw [hst] at h; cases h)
      (fun m _ _ hm hft => by rw [hn] at hm; cases hm; rw [hnt] at hft; cases hft) (by rw [hst]; simp)
    have hin : ∀ q, new ∉ ch q := by
      intro q hq
      obtain ⟨m, hm, _, hmp⟩ := S.wf.linked.alive_child hq
      rw [hn] at hm; cases hm
      rw [hpar] at hmp; cases hmp
    have hfil : ∀ q, (ch q).filter (· ≠ new) = ch q := by
      intro q
      rw [List.filter_eq_self]
      intro a ha
      have : a ≠ new := fun e => hin q (e ▸ ha)
      simp [this]
    have hnf : nn.type ≠ .fragment := by rw [hnt]; simp
    have hmv : Tree.moved ch new nn = [new] := by unfold Tree.moved; simp [hnf]
    have here : ∃ a b, ch s = a ++ b ∧ b.head? = r ∧ ch' s = a ++ new :: b := by
      obtain ⟨a, b, h1, h2, h3⟩ := I.here
      rw [hfil] at h1
      rw [hmv] at h3
      exact ⟨a, b, h1, h2, by rw [h3]; simp⟩
    have elsewhere : ∀ q, q ≠ s → ch' q = ch q := by
      intro q hq
      rw [I.elsewhere q hq, if_neg (fun h => hnf h.2), hfil]
    have hmem : ∀ j p, j ≠ new → (j ∈ ch' p ↔ j ∈ ch p) := by
      intro j p hj
      by_cases hp : p = s
      · subst hp
        obtain ⟨a, b, h1, _, h3⟩ := here
        rw [h1, h3]
        simp [hj]
      · rw [elsewhere p hp]
    refine ⟨SI, here, elsewhere, I.data, ?_, ?_, ?_, ?_, I.fresh⟩
    · intro j
      rw [I.owner j]
      congr 1
      funext a
      rw [if_neg]
      rintro ⟨_, h, _⟩
      rw [hst] at h; cases h
    · intro j hj
      cases hw : v.nodes j with
      | none =>
        have h := I.data j
        rw [hw] at h
        cases h3 : v'.nodes j with
        | none => rfl
        | some k => rw [h3] at h; cases h
      | some k =>
        obtain ⟨k3, hk3, d3⟩ := Tree.map_some_eq (I.data j) hw
        rw [hk3]
        simp only [Option.map_some, Option.some.injEq]
        by_cases ha : k.type = .attribute
        · obtain ⟨k', hk', e⟩ := I.attrs j k hw ha
          rw [hk3] at hk'; cases hk'; exact e
        · have h3a : k3.type ≠ .attribute := by rw [Tree.Node.data_type d3]; exact ha
          apply Option.ext
          intro p
          show k3.parent = some p ↔ k.parent = some p
          rw [Tree.child_iff SI.wf.linked hk3 (fun h => absurd h h3a), Tree.child_iff S.wf.linked hw (fun h => absurd h ha)]
          exact hmem j p hj
    · obtain ⟨a, b, _, _, h3⟩ := here
      obtain ⟨m, hm, _, hp⟩ := SI.wf.linked.alive_child (p := s) (c := new) (by rw [h3]; simp)
      rw [hm, Option.map_some, hp]
    · intro j
      rw [Tree.grants_refs hn hroom I.refs j]
      by_cases h : j = new
      · subst h; rw [one_self, if_pos rfl]
      · rw [one_ne h, if_neg (fun e => h (Option.some.inj e).symm)]
  · rw [hnt] at h; cases h
  · rw [hnt] at h; cases h

theorem Into.kept {r : Option NodeId} (I : Into w ch s new r w' ch') (hj : j ≠ new) (h : w.nodes j = some n) : ∃ n', w'.nodes j = some n' ∧ n'.data = n.data ∧ n'.owner = n.owner ∧ n'.parent = n.parent := by
  obtain ⟨m, hm, h1⟩ := Tree.map_some_eq (I.data j) h
  obtain ⟨m2, hm2, h2⟩ := Tree.map_some_eq (I.owner j) h
  rw [hm] at hm2; cases hm2
  obtain ⟨m3, hm3, h3⟩ := Tree.map_some_eq (I.parents j hj) h
  rw [hm] at hm3; cases hm3
  exact ⟨m, hm, h1, h2, h3⟩

/-! ## A new node that is given up -/

/-- The only reference to a node without parent, children and attributes is given up: the node is freed and nothing else changes. -/
theorem drop_step (S : Sound v ch) (hx : v.nodes x = some n) (hr : n.refcnt = 1) (hp : n.parent = none) (ht : n.type = .element) (hd : DocKept v x) (hch : ch x = []) (hat : n.attrs = []) :
    ∃ v', unref x v = .ok v' () ∧ v'.nodes x = none ∧ (∀ j, j ≠ x → v'.nodes j = v.nodes j) ∧ v'.fresh = v.fresh ∧ v'.log = v.log := by
  obtain ⟨d, dn, ho, hdn, hdt⟩ := docOf S hx ht
  have hdr := hd n d dn hx ho hdn
  have hnone : ∀ c m, v.nodes c = some m → m.parent ≠ some x := by
    intro c m hm h
    by_cases ha : m.type = .attribute
    · have h1 := (S.attrs x).2.2 c m hm ha h
      unfold Tree.attrNodes at h1
      rw [hx] at h1
      simp [hat] at h1
    · have := S.wf.linked.up c m x hm ha h
      rw [hch] at this; cases this
  have hdies : ∀ j, Tree.Dies v x j → j = x := by
    intro j h
    induction h with
    | self => rfl
    | down _ hc hpar _ ih => subst ih; exact absurd hpar (hnone _ _ hc)
  have horph : ∀ j, ¬ Tree.Orphaned v x j := by
    rintro j ⟨p, m, h1, h2, h3, _⟩
    rw [hdies p h1] at h3
    exact hnone _ _ h2 h3
  obtain ⟨v', h1, R⟩ := Tree.unref_root S.wf S.attrs hx hr hp (by rw [ht]; simp) (fun _ => S.noHost _ _ hx) ho hdn (fun h => by omega)
  refine ⟨v', h1, R.dead x (.inl .self), fun j hj => R.same j ?_ (horph j) ?_, R.fresh, R.log⟩
  · rintro (h | ⟨_, _, h, _⟩)
    · exact hj (hdies j h)
    · omega
  · rintro ⟨_, _, h, _⟩; omega

/-! ## Putting a new element into `s` -/

/-- The memory after a new node was released again. -/
def bump (w : World) : World := { w with fresh := w.fresh + 1 }

theorem WF_bump (hW : WF w ch) : WF (bump w) ch :=
  { toCore := ⟨⟨fun p n h => ⟨(hW.linked.loc p n h).ends, (hW.linked.loc p n h).kids, (hW.linked.loc p n h).nodup⟩, hW.linked.dead, hW.linked.up, hW.linked.attrUp, hW.linked.orphan⟩,
      fun i n h => Nat.lt_succ_of_lt (hW.bnd i n h), hW.wf, hW.owner, hW.ownDoc, hW.ownSame, hW.types⟩, pending := hW.pending }

theorem Sound_bump (S : Sound w ch) : Sound (bump w) ch :=
  ⟨WF_bump S.wf, S.attrs, S.noHost, S.held, S.docs, S.frags, S.ents⟩

/-- One reference to `r`, if it is a node. -/
def oneOpt (r : Option NodeId) (j : NodeId) : Nat := r.elim 0 fun c => one c j

theorem add_ne (e : Node) (h : j ≠ w.fresh) : (w.add e).nodes j = w.nodes j := by simp [World.add, h]

theorem kept_add (hC : Core w ch) (e : Node) : Kept w (w.add e) := fun j n h => ⟨n, Tree.add_old hC h, rfl, rfl, rfl⟩

theorem count_add (hC : Core w ch) {e : Node} (he : e.refcnt = 1) (j : NodeId) : count (w.add e) j = count w j + one w.fresh j := by
  rw [Tree.grants_add hC he j]
  by_cases h : j = w.fresh
  · subst h; rw [one_self, if_pos rfl]
  · rw [one_ne h, if_neg (fun e => h (Option.some.inj e).symm)]

/-- Equal memories. -/
theorem world_eq (h : w'.nodes = w.nodes) (hf : w'.fresh = w.fresh) (hl : w'.log = w.log) : w' = w := by
  cases w; cases w'
  simp only at h hf hl
  rw [h, hf, hl]

theorem Alike.eq (A : Alike w w') (hc : ∀ j, count w' j = count w j) : w' = w := world_eq (Alike.eq_nodes A.nodes hc) A.fresh A.log

/-- A new element of the document of `s`. -/
structure NewElem (w : World) (ch : Children) (e : Node) (d : NodeId) : Prop where
  sound : Sound (w.add e) ch
  refcnt : e.refcnt = 1
  type : e.type = .element
  parent : e.parent = none
  attrs : e.attrs = []
  owner : e.owner = some d
  doc : ∃ dn, w.nodes d = some dn ∧ 0 < dn.refcnt

theorem fail_drop {e : Node} (S : Sound w ch) (N : NewElem w ch e d) (Sv : Sound v ch) (A : Alike (w.add e) v) (hc : count v w.fresh = 1) (hcd : ∀ j, j ≠ w.fresh → count w j ≤ count v j) :
    ∃ v' ch', unref w.fresh v = .ok v' () ∧ Sound v' ch' ∧ Alike (bump w) v' ∧ ∀ j, count v' j + one w.fresh j = count v j := by
  obtain ⟨m, hm, hb⟩ := A.get (Tree.add_new e)
  have b := bare_eq hb
  have hr : m.refcnt = 1 := by rw [get_count hm]; exact hc
  have hat : m.attrs = [] := by have := congrArg Node.attrs hb; exact this.trans N.attrs
  have hch : ch w.fresh = [] := by
    have := S.wf.linked.dead w.fresh (Tree.fresh_dead S.wf.toCore)
    exact this
  have hty : m.type = .element := b.2.2.2.2.2.2.2.trans N.type
  have hdk : DocKept v w.fresh := by
    intro n' d' dn' h1 h2 h3
    rw [hm] at h1; cases h1
    rw [b.2.1, N.owner] at h2; cases h2
    obtain ⟨dn, hd, hpos⟩ := N.doc
    have hne : d ≠ w.fresh := by rintro rfl; rw [Tree.fresh_dead S.wf.toCore] at hd; cases hd
    have := hcd d hne
    rw [Tree.count_eq hd, Tree.count_eq h3] at this
    omega
  obtain ⟨v', h1, h2, h3, h4, h5⟩ := drop_step Sv hm hr (b.2.2.1.trans N.parent) hty hdk hch hat
  obtain ⟨v'', ch', h6, S'⟩ := Sv.unref hm (by omega) (fun _ _ => by
    have hnone : ∀ c k, v.nodes c = some k → k.parent ≠ some w.fresh := by
      intro c k hk h
      by_cases ha : k.type = .attribute
      · have h1 := (Sv.attrs w.fresh).2.2 c k hk ha h
        unfold Tree.attrNodes at h1
        rw [hm] at h1
        simp [hat] at h1
      · have := Sv.wf.linked.up c k w.fresh hk ha h
        rw [hch] at this; cases this
    have hdies : ∀ j, Tree.Dies v w.fresh j → j = w.fresh := by
      intro j h
      induction h with
      | self => rfl
      | down _ hc hpar _ ih => subst ih; exact absurd hpar (hnone _ _ hc)
    refine ⟨?_, fun h => by rw [hty] at h; cases h⟩
    rintro c k ⟨p, k', g1, g2, g3, _⟩ _
    rw [hdies p g1] at g3
    exact absurd g3 (hnone _ _ g2))
  rw [h1] at h6; cases h6
  refine ⟨v', ch', h1, S', ⟨fun j => ?_, ?_, ?_⟩, fun j => ?_⟩
  · by_cases hj : j = w.fresh
    · subst hj
      rw [h2]
      show _ = (w.nodes w.fresh).map bare
      rw [Tree.fresh_dead S.wf.toCore]
    · rw [h3 j hj, A.nodes j, add_ne e hj]; rfl
  · rw [h4, A.fresh]; rfl
  · rw [h5, A.log]; rfl
  · by_cases hj : j = w.fresh
    · subst hj
      rw [one_self, hc]
      unfold count
      rw [h2]
    · rw [one_ne hj]
      unfold count
      rw [h3 j hj]; rfl

/-- A new element with the content of `e` is a child of `s`, before `r`; the caller has the only reference to it, and everything else is as before. -/
structure Placed (w : World) (ch : Children) (s new : NodeId) (e : Node) (r : Option NodeId) (w' : World) (ch' : Children) : Prop where
  sound : Sound w' ch'
  dead : w.nodes new = none
  there : ∃ m, w'.nodes new = some m ∧ m.data = e.data ∧ m.owner = e.owner ∧ m.parent = some s ∧ m.refcnt = 1
  here : ∃ a b, ch s = a ++ b ∧ b.head? = r ∧ ch' s = a ++ new :: b
  elsewhere : ∀ q, q ≠ s → ch' q = ch q
  kept : Kept w w'
  back : ∀ j m', w'.nodes j = some m' → j = new ∨ ∃ m, w.nodes j = some m
  counts : ∀ j, count w' j = count w j + one new j
  fresh : w'.fresh = w.fresh + 1

theorem closing_exc {α : Type} {m : M α} {fin : M Unit} {x : Exc} (h : m w = .exc v x) (hf : fin v = .ok v' ()) : closing m fin w = .exc v' x := by
  unfold closing
  rw [h]
  show (fin >>= _) v = _
  rw [bind_ok hf]; rfl

theorem closing_ok {α : Type} {m : M α} {fin : M Unit} {a : α} (h : m w = .ok v a) (hf : fin v = .ok v' ()) : closing m fin w = .ok v' a := by
  unfold closing
  rw [h]
  show (fin >>= _) v = _
  rw [bind_ok hf]; rfl

/-- The two orders in which the references are given up. -/
inductive Fin (r : Option NodeId) (new : NodeId) : M Unit → Prop
  | node : Fin r new (do unrefOpt r; unref new)
  | new : Fin r new (do unref new; unrefOpt r)

theorem put_finish {e : Node} {r : Option NodeId} {fin : M Unit} (S : Sound w ch) (N : NewElem w ch e d) (hs : w.nodes s = some sn) (hst : sn.type = .element) (Sv : Sound v ch)
    (A : Alike (w.add e) v) (hr : ∀ c, r = some c → ∃ m, w.nodes c = some m ∧ m.type = .element) (hc : ∀ j, count v j = count w j + one w.fresh j + oneOpt r j) (hF : Fin r w.fresh fin) :
    (∃ x, closing (insertBefore s w.fresh r) fin v = .exc (bump w) x ∧ insertBefore s w.fresh r v = .exc v x) ∨
      ∃ w' ch', closing (insertBefore s w.fresh r) fin v = .ok w' w.fresh ∧ Placed w ch s w.fresh e r w' ch' := by
  have hC := S.wf.toCore
  have hdead := Tree.fresh_dead hC
  have hcf : count w w.fresh = 0 := by unfold count; rw [hdead]
  have hrf : ∀ c, r = some c → c ≠ w.fresh := by rintro c hc' rfl; obtain ⟨m, hm, _⟩ := hr _ hc'; rw [hdead] at hm; cases hm
  have hro : oneOpt r w.fresh = 0 := by
    cases r with
    | none => rfl
    | some c => exact one_ne (fun h => hrf c rfl h.symm)
  have hv1 : count v w.fresh = 1 := by rw [hc, hcf, one_self, hro]
  have K : Kept w v := (kept_add hC e).trans A.kept
  obtain ⟨sv, hsv, hsd, _, _⟩ := K s sn hs
  obtain ⟨nv, hnv, hnb⟩ := A.get (Tree.add_new e)
  have nb := bare_eq hnb
  have hsf : s ≠ w.fresh := by rintro rfl; rw [hdead] at hs; cases hs
  rcases insert_step Sv hsv (by rw [Tree.Node.data_type hsd]; exact hst) hnv (nb.2.2.2.2.2.2.2.trans N.type) (nb.2.2.1.trans N.parent) (r := r) (fun c hc' => by
      obtain ⟨m, hm, ht⟩ := hr c hc'
      obtain ⟨m', hm', hd', _⟩ := K c m hm
      exact ⟨m', hm', by rw [Tree.Node.data_type hd']; exact ht⟩) (fun h => hrf _ h rfl) (by rw [get_count hnv, hv1]; decide) with ⟨x, h⟩ | ⟨v1, ch1, h, I⟩
  · -- refused
    left
    refine ⟨x, ?_, h⟩
    cases hF with
    | node =>
      obtain ⟨u, e1, Su, Au, cu⟩ : ∃ u, unrefOpt r v = .ok u () ∧ Sound u ch ∧ Alike v u ∧ ∀ j, count u j + oneOpt r j = count v j := by
        cases r with
        | none => exact ⟨v, rfl, Sv, Alike.refl v, fun j => rfl⟩
        | some c =>
          obtain ⟨m, hm, ht⟩ := hr c rfl
          exact unref_back S Sv hm (fun h => by rw [ht] at h; cases h) K (by rw [hc c]; simp only [oneOpt, Option.elim, one_self]; omega)
      obtain ⟨u2, ch2, e2, S2, A2, c2⟩ := fail_drop S N Su (A.trans Au) (by have := cu w.fresh; omega) (fun j hj => by have := cu j; have := hc j; omega)
      rw [A2.eq (fun j => by show _ = count w j; have := cu j; have := hc j; have := c2 j; omega)] at e2
      exact closing_exc h (by rw [bind_ok e1]; exact e2)
    | new =>
      obtain ⟨u2, ch2, e2, S2, A2, c2⟩ := fail_drop S N Sv A hv1 (fun j hj => by have := hc j; omega)
      obtain ⟨u, e1, Su, Au, cu⟩ : ∃ u, unrefOpt r u2 = .ok u () ∧ Sound u ch2 ∧ Alike u2 u ∧ ∀ j, count u j + oneOpt r j = count u2 j := by
        cases r with
        | none => exact ⟨u2, rfl, S2, Alike.refl u2, fun j => rfl⟩
        | some c =>
          obtain ⟨m, hm, ht⟩ := hr c rfl
          refine unref_back S S2 hm (fun h => by rw [ht] at h; cases h) A2.kept ?_
          have h1 := c2 c
          have h2 := hc c
          simp only [oneOpt, Option.elim, one_self] at h2
          omega
      rw [(A2.trans Au).eq (fun j => by show _ = count w j; have := cu j; have := hc j; have := c2 j; omega)] at e1
      exact closing_exc h (by rw [bind_ok e2]; exact e1)
  · right
    have K1 : Kept w v1 := by
      intro j n hj
      have hjf : j ≠ w.fresh := by rintro rfl; rw [hdead] at hj; cases hj
      obtain ⟨m, a1, a2, a3, a4⟩ := K j n hj
      obtain ⟨m', b1, b2, b3, b4⟩ := I.kept hjf a1
      exact ⟨m', b1, b2.trans a2, b3.trans a3, b4.trans a4⟩
    have hnew : ∀ u, Alike v1 u → ∃ m, u.nodes w.fresh = some m ∧ m.data = e.data ∧ m.owner = e.owner ∧ m.parent = some s := by
      intro u Au
      obtain ⟨m, hm, hd⟩ := Tree.map_some_eq (I.data w.fresh) hnv
      obtain ⟨m2, hm2, ho⟩ := Tree.map_some_eq (I.owner w.fresh) hnv
      rw [hm] at hm2; cases hm2
      have hp := I.parent
      rw [hm] at hp
      obtain ⟨k, hk, hkd, hko, hkp⟩ := Au.kept w.fresh m hm
      exact ⟨k, hk, hkd.trans (hd.trans nb.1), hko.trans (ho.trans nb.2.1), by rw [hkp]; simpa using hp⟩
    have unew : ∀ u, Sound u ch1 → Alike v1 u → 0 < count u w.fresh → ∃ u', unref w.fresh u = .ok u' () ∧ Sound u' ch1 ∧ Alike u u' ∧ ∀ j, count u' j + one w.fresh j = count u j := by
      intro u Su Au hpos
      obtain ⟨m, hm, _, _, hp⟩ := hnew u Au
      exact unref_step Su hm (by rw [get_count hm]; exact hpos) (.inr (by rw [hp]; simp))
    have unode : ∀ u, Sound u ch1 → Alike v1 u → (∀ j, count w j + oneOpt r j ≤ count u j) → ∃ u', unrefOpt r u = .ok u' () ∧ Sound u' ch1 ∧ Alike u u' ∧ ∀ j, count u' j + oneOpt r j = count u j := by
      intro u Su Au hle
      cases r with
      | none => exact ⟨u, rfl, Su, Alike.refl u, fun j => rfl⟩
      | some c =>
        obtain ⟨m, hm, ht⟩ := hr c rfl
        refine unref_back S Su hm (fun h => by rw [ht] at h; cases h) (K1.trans Au.kept) ?_
        have := hle c
        simp only [oneOpt, Option.elim, one_self] at this
        omega
    have fin_ok : ∃ u, fin v1 = .ok u () ∧ Sound u ch1 ∧ Alike v1 u ∧ ∀ j, count u j + oneOpt r j + one w.fresh j = count v1 j := by
      cases hF with
      | node =>
        obtain ⟨u1, e1, S1, A1, c1⟩ := unode v1 I.sound (Alike.refl v1) (fun j => by have := I.counts j; have := hc j; omega)
        obtain ⟨u2, e2, S2, A2, c2⟩ := unew u1 S1 A1 (by have := c1 w.fresh; have := I.counts w.fresh; rw [one_self] at this; omega)
        exact ⟨u2, by rw [bind_ok e1]; exact e2, S2, A1.trans A2, fun j => by have := c1 j; have := c2 j; omega⟩
      | new =>
        obtain ⟨u1, e1, S1, A1, c1⟩ := unew v1 I.sound (Alike.refl v1) (by have := I.counts w.fresh; omega)
        obtain ⟨u2, e2, S2, A2, c2⟩ := unode u1 S1 A1 (fun j => by have := c1 j; have := I.counts j; have := hc j; omega)
        exact ⟨u2, by rw [bind_ok e1]; exact e2, S2, A1.trans A2, fun j => by have := c1 j; have := c2 j; omega⟩
    obtain ⟨u, e1, Su, Au, cu⟩ := fin_ok
    have hcu : ∀ j, count u j = count w j + one w.fresh j := fun j => by have := cu j; have := I.counts j; have := hc j; omega
    refine ⟨u, ch1, closing_ok h e1, Su, hdead, ?_, I.here, I.elsewhere, K1.trans Au.kept, ?_, hcu, ?_⟩
    · obtain ⟨m, hm, h1, h2, h3⟩ := hnew u Au
      exact ⟨m, hm, h1, h2, h3, by rw [get_count hm, hcu, hcf, one_self]⟩
    · intro j m' hj
      by_cases hjf : j = w.fresh
      · exact .inl hjf
      right
      obtain ⟨m1, h1, _⟩ := Au.symm.get hj
      have h2 := I.data j
      rw [h1] at h2
      have h3 : ∃ m2, v.nodes j = some m2 := by
        cases h : v.nodes j with
        | none => rw [h] at h2; cases h2
        | some m2 => exact ⟨m2, rfl⟩
      obtain ⟨m2, h3⟩ := h3
      obtain ⟨m3, h4, _⟩ := A.symm.get h3
      rw [add_ne e hjf] at h4
      exact ⟨m3, h4⟩
    · rw [Au.fresh, I.fresh, A.fresh]; rfl

end Dom.Html.Refs
