import Verif.Tree.WholeText
import Verif.Tree.PropsLife
import Verif.Parse.XmlRun
/-!
# `replaceWholeText`, src/core/text.c (C78)
-/
set_option linter.unusedSimpArgs false
namespace Dom.Tree
open Dom.Str (DStr)

/-- Take the node out of its parent and give up the reference that this returns, src/core/text.c:416-426 and 518-523.  With a parent that is NULL the call reads the function table
of NULL. -/
def deleteText (x : NodeId) : M Unit := do
  let n ← getNode x
  let p ← deref n.parent
  let tn ← removeChild p x
  unref tn

/-- The loop of `walk_logic_adjacent_text_in_order` with `opt == DELETE`, src/core/text.c:366-457. -/
def delLoop (ord : Order) (parent : Option NodeId) : Nat → Option NodeId → M Unit
  | _, none => pure ()
  | 0, some _ => M.crash .diverge
  | k + 1, some node => do
    let n ← getNode node
    if n.type = .element ∨ n.type = .comment ∨ n.type = .pi then pure ()
    else if n.type = .text then do
      cassert n.first.isNone
      cassert n.last.isNone
      deleteText node
    else do
      let nx ← walkNext ord parent node
      delLoop ord parent k nx

/-- `walk_logic_adjacent_text_in_order` with `opt == DELETE`, src/core/text.c:349-460. -/
def delInOrder (ord : Order) (node : Option NodeId) : M Unit :=
  match node with
  | none => pure ()
  | some i => do
    let n ← getNode i
    let bd ← bound
    delLoop ord n.parent bd (some i)

/-- `_dom_text_replace_whole_text` (src/core/text.c:273-291) by `walk_logic_adjacent_text` with `opt == DELETE`, src/core/text.c:470-537. -/
def replaceWholeText (t : NodeId) (content : Option DStr) : M NodeId := do
  let n ← getNode t
  refuseEntity n.parent
  delInOrder .left n.prev
  deleteText t
  delInOrder .right n.next
  setData t content
  ref t
  pure t

variable {w w' v : World} {ch ch' : Children} {x t p j : NodeId} {n tn pn : Node}

/-! ## Deleting one Text node -/

/-- Nothing lies below a Text node. -/
theorem text_childless (hW : WF w ch) (hx : w.nodes x = some n) (ht : n.type = .text) : ∀ c m, w.nodes c = some m → m.parent ≠ some x := by
  intro c m hc hp
  by_cases ha : m.type = .attribute
  · obtain ⟨e, he, het⟩ := hW.linked.attrUp c m x hc ha hp
    rw [hx] at he; cases he
    rw [ht] at het; cases het
  · have hm := hW.linked.up c m x hc ha hp
    have := hW.types x n c m hx hm hc
    rw [ht] at this
    cases this with
    | content h _ => simp at h

theorem dies_leaf (h : ∀ c m, w.nodes c = some m → m.parent ≠ some x) : Dies w x j ↔ j = x := by
  constructor
  · intro hd
    induction hd with
    | self => rfl
    | down _ hc hp _ ih => subst ih; exact absurd hp (h _ _ hc)
  · rintro rfl; exact .self

theorem orphaned_leaf (h : ∀ c m, w.nodes c = some m → m.parent ≠ some x) : ¬ Orphaned w x j := by
  rintro ⟨p, m, hd, hj, hp, _⟩
  rw [dies_leaf h] at hd
  subst hd
  exact h j m hj hp

/-- The links determine the lists. -/
theorem children_det {q : NodeId} (h1 : LocAt w ch q) (h2 : LocAt w' ch' q) (hq : (w'.nodes q).map Node.first = (w.nodes q).map Node.first) (hk : ∀ c ∈ ch q, w'.nodes c = w.nodes c) : ch' q = ch q := by
  have key : ∀ (s s' a : List NodeId), ch q = a ++ s → ch' q = a ++ s' → s' = s := by
    intro s
    induction s with
    | nil =>
      intro s' a e1 e2
      cases s' with
      | nil => rfl
      | cons y s' =>
        exfalso
        rcases List.eq_nil_or_concat a with rfl | ⟨a', z, rfl⟩
        · obtain ⟨m1, k1, k2, _⟩ := h1.ends
          obtain ⟨m2, k3, k4, _⟩ := h2.ends
          rw [k1, k3] at hq
          have hq' : _ = _ := Option.some.inj hq
          rw [k2, k4, e1, e2] at hq'
          simp at hq'
        · rw [List.concat_eq_append] at e1 e2
          obtain ⟨m1, k1, _, _, _, k2⟩ := h1.kids a' z [] (by rw [e1]; simp)
          obtain ⟨m2, k3, _, _, _, k4⟩ := h2.kids a' z (y :: s') (by rw [e2]; simp)
          rw [hk z (by rw [e1]; simp), k1] at k3; cases k3
          rw [k2] at k4; simp at k4
    | cons c s ih =>
      intro s' a e1 e2
      have hd : s'.head? = some c := by
        rcases List.eq_nil_or_concat a with rfl | ⟨a', z, rfl⟩
        · obtain ⟨m1, k1, k2, _⟩ := h1.ends
          obtain ⟨m2, k3, k4, _⟩ := h2.ends
          rw [k1, k3] at hq
          have hq' : _ = _ := Option.some.inj hq
          rw [k2, k4, e1, e2] at hq'
          simpa using hq'
        · rw [List.concat_eq_append] at e1 e2
          obtain ⟨m1, k1, _, _, _, k2⟩ := h1.kids a' z (c :: s) (by rw [e1]; simp)
          obtain ⟨m2, k3, _, _, _, k4⟩ := h2.kids a' z s' (by rw [e2]; simp)
          rw [hk z (by rw [e1]; simp), k1] at k3; cases k3
          rw [k2] at k4
          simpa using k4.symm
      cases s' with
      | nil => cases hd
      | cons y s' =>
        have : y = c := by simpa using hd
        subst this
        rw [ih s' (a ++ [y]) (by rw [e1]; simp) (by rw [e2]; simp)]
  exact key (ch q) (ch' q) [] rfl rfl

/-- The Text node `x` was taken out: it is in no child list, it is freed unless a reference to it is held, and everything else is as before. -/
structure Gone (w : World) (ch : Children) (x : NodeId) (w' : World) (ch' : Children) : Prop where
  sound : Sound w' ch'
  lists : ∀ q, ch' q = (ch q).filter (· ≠ x)
  others : ∀ j m, j ≠ x → w.nodes j = some m → ∃ m', w'.nodes j = some m' ∧ m'.data = m.data ∧ m'.owner = m.owner ∧ m'.refcnt = m.refcnt ∧ m'.parent = m.parent
  back : ∀ j m', w'.nodes j = some m' → ∃ m, w.nodes j = some m
  freed : ∀ m, w.nodes x = some m → m.refcnt = 0 → w'.nodes x = none
  kept : ∀ m, w.nodes x = some m → m.refcnt ≠ 0 → ∃ m', w'.nodes x = some m' ∧ m'.data = m.data ∧ m'.owner = m.owner ∧ m'.refcnt = m.refcnt ∧ m'.parent = none
  fresh : w'.fresh = w.fresh

/-- The owner document of `x` is referenced. -/
def DocKept (w : World) (x : NodeId) : Prop := ∀ n d dn, w.nodes x = some n → n.owner = some d → w.nodes d = some dn → 0 < dn.refcnt

theorem map_some_eq {α β : Type} {f : α → β} {g : α → β} {a : Option α} {b : Option α} {m : α} (h : b.map f = a.map g) (ha : a = some m) : ∃ m', b = some m' ∧ f m' = g m := by
  subst ha
  cases b with
  | none => cases h
  | some m' => exact ⟨m', rfl, by simpa using h⟩

theorem deleteText_run (S : Sound w ch) (hx : w.nodes x = some n) (ht : n.type = .text) (hp : n.parent = some p) (hro : ¬ ReadOnly w p) (hov : Room w x) (hdoc : DocKept w x) :
    ∃ w' ch', deleteText x w = .ok w' () ∧ Gone w ch x w' ch' := by
  have hov := hov n hx
  have hmem : x ∈ ch p := S.wf.linked.up x n p hx (by rw [ht]; decide) hp
  obtain ⟨pn, hpn⟩ : ∃ pn, w.nodes p = some pn := by
    cases h : w.nodes p with
    | some pn => exact ⟨pn, rfl⟩
    | none => rw [S.wf.linked.dead p h] at hmem; cases hmem
  have hna : n.type = .attribute → n.parent ≠ some p := fun h => by rw [ht] at h; cases h
  have hrr : removeRefusal w ch p x pn n = none := by
    unfold removeRefusal
    rw [if_neg (by rw [ht]; simp), if_neg (not_not.2 hmem), if_neg hro]
  obtain ⟨w1, ch1, e1, R⟩ := removeChild_ok S.wf hpn hx hna hrr
  have S1 := S.removed R hx (by rw [ht]; decide) hov
  obtain ⟨n1, hn1, hd1⟩ := map_some_eq (R.data x) hx
  obtain ⟨n1', hn1', hr1⟩ := map_some_eq (R.refs x) hx
  rw [hn1] at hn1'; cases hn1'
  obtain ⟨n1', hn1', ho1⟩ := map_some_eq (R.owner x) hx
  rw [hn1] at hn1'; cases hn1'
  obtain ⟨n1', hn1', hp1⟩ := map_some_eq (R.parents x) hx
  rw [hn1] at hn1'; cases hn1'
  rw [if_pos rfl] at hp1
  rw [if_pos rfl, u32_small (by omega)] at hr1
  have ht1 : n1.type = .text := by rw [Node.data_type hd1]; exact ht
  have leaf := text_childless S1.wf hn1 ht1
  have hch1x : ch1 x = [] := by
    cases h : ch1 x with
    | nil => rfl
    | cons c l =>
      obtain ⟨m, hm, _, hmp⟩ := S1.wf.linked.alive_child (p := x) (c := c) (by rw [h]; simp)
      exact absurd hmp (leaf c m hm)
  have rest1 : ∀ j m, j ≠ x → w.nodes j = some m → ∃ m', w1.nodes j = some m' ∧ m'.data = m.data ∧ m'.owner = m.owner ∧ m'.refcnt = m.refcnt ∧ m'.parent = m.parent := by
    intro j m hj hm
    obtain ⟨m1, k1, k2⟩ := map_some_eq (R.data j) hm
    obtain ⟨m2, k3, k4⟩ := map_some_eq (R.owner j) hm
    rw [k1] at k3; cases k3
    obtain ⟨m2, k3, k5⟩ := map_some_eq (R.refs j) hm
    rw [k1] at k3; cases k3
    obtain ⟨m2, k3, k6⟩ := map_some_eq (R.parents j) hm
    rw [k1] at k3; cases k3
    rw [if_neg hj] at k5 k6
    exact ⟨m1, k1, k2, k4, k5, k6⟩
  have back1 : ∀ j m', w1.nodes j = some m' → ∃ m, w.nodes j = some m := by
    intro j m' hj
    have := R.data j
    rw [hj] at this
    cases h : w.nodes j with
    | none => rw [h] at this; cases this
    | some m => exact ⟨m, rfl⟩
  have run : ∀ v, unref x w1 = .ok v () → deleteText x w = .ok v () := by
    intro v hv
    unfold deleteText
    rw [get_bind hx, hp, deref_bind, bind_ok e1]
    exact hv
  by_cases hz : n.refcnt = 0
  · -- the last reference
    obtain ⟨d, dn, hod, hdn, hdt⟩ : ∃ d dn, n1.owner = some d ∧ w1.nodes d = some dn ∧ dn.type = .document := by
      rcases S1.wf.owner x n1 hn1 with ⟨d, dn, o1, o2, o3⟩ | ⟨o1, _, _⟩
      · exact ⟨d, dn, o1, o2, o3⟩
      · exfalso; simp [ht1] at o1
    have hdx : d ≠ x := by rintro rfl; rw [hn1] at hdn; cases hdn; rw [ht1] at hdt; cases hdt
    have hdk : 0 < dn.refcnt := by
      obtain ⟨dn0, hdn0⟩ := back1 d dn hdn
      obtain ⟨dn1, k1, _, _, k2, _⟩ := rest1 d dn0 hdx hdn0
      rw [hdn] at k1; cases k1
      rw [k2]
      exact hdoc n d dn0 hx (by rw [← ho1]; exact hod) hdn0
    obtain ⟨v, hv, P⟩ := unref_root S1.wf S1.attrs hn1 (by rw [hr1, hz]) hp1 (by rw [ht1]; decide) (by rw [ht1]; intro h; cases h) hod hdn (by intro h; omega)
    obtain ⟨v', ch', hv', S'⟩ := S1.unref hn1 (by omega) (by
      intro _ _
      exact ⟨fun c m hc _ => absurd hc (orphaned_leaf leaf), fun h => by rw [ht1] at h; cases h⟩)
    rw [hv] at hv'; cases hv'
    have hdead : v.nodes x = none := P.dead x (.inl .self)
    have hsame : ∀ j, j ≠ x → v.nodes j = w1.nodes j := by
      intro j hj
      refine P.same j ?_ (orphaned_leaf leaf) ?_
      · rintro (h | ⟨_, _, h, _⟩)
        · exact hj ((dies_leaf leaf).1 h)
        · omega
      · rintro ⟨_, _, h, _⟩; omega
    have hlists : ∀ q, ch' q = ch1 q := by
      intro q
      by_cases hq : q = x
      · subst hq; rw [hch1x, S'.wf.linked.dead q hdead]
      · cases hqn : w1.nodes q with
        | none => rw [S1.wf.linked.dead q hqn, S'.wf.linked.dead q (by rw [hsame q hq]; exact hqn)]
        | some qn =>
          refine children_det (S1.wf.linked.loc q qn hqn) (S'.wf.linked.loc q qn (by rw [hsame q hq]; exact hqn)) (by rw [hsame q hq]) ?_
          intro c hc
          refine hsame c ?_
          rintro rfl
          rw [R.lists q] at hc
          simp at hc
    refine ⟨v, ch', run v hv, S', fun q => by rw [hlists q]; exact R.lists q, ?_, ?_, fun _ _ _ => hdead, ?_, P.fresh.trans R.fresh⟩
    · intro j m hj hm
      rw [hsame j hj]; exact rest1 j m hj hm
    · intro j m' hj
      by_cases h : j = x
      · subst h; exact ⟨n, hx⟩
      · rw [hsame j h] at hj; exact back1 j m' hj
    · intro m hm hm0
      rw [hx] at hm; cases hm
      exact absurd hz hm0
  · have hk := unref_keep hn1 (by omega) (.inl (by omega : n1.refcnt ≠ 1))
    have S2 := S1.setRef (r := n1.refcnt - 1) hn1 (fun _ _ => by omega) (fun h => by rw [ht1] at h; cases h)
    refine ⟨_, ch1, run _ hk, S2, R.lists, ?_, ?_, ?_, ?_, R.fresh⟩
    · intro j m hj hm
      simp only [World.upd, hj, if_false]
      exact rest1 j m hj hm
    · intro j m' hj
      by_cases h : j = x
      · subst h; exact ⟨n, hx⟩
      · simp only [World.upd, h, if_false] at hj
        exact back1 j m' hj
    · intro m hm h0
      rw [hx] at hm; cases hm
      exact absurd h0 hz
    · intro m hm _
      rw [hx] at hm; cases hm
      refine ⟨{ n1 with refcnt := n1.refcnt - 1 }, by simp [World.upd], ?_, ho1, ?_, hp1⟩
      · exact hd1
      · show n1.refcnt - 1 = n.refcnt
        omega

/-! ## Deleting several -/

/-- The Text nodes of `l` were taken out: they are in no child list, they are freed unless a reference to them is held, and everything else is as before. -/
structure Wiped (w : World) (ch : Children) (l : List NodeId) (w' : World) (ch' : Children) : Prop where
  sound : Sound w' ch'
  lists : ∀ q, ch' q = (ch q).filter (· ∉ l)
  others : ∀ j m, j ∉ l → w.nodes j = some m → ∃ m', w'.nodes j = some m' ∧ m'.data = m.data ∧ m'.owner = m.owner ∧ m'.refcnt = m.refcnt ∧ m'.parent = m.parent
  back : ∀ j m', w'.nodes j = some m' → ∃ m, w.nodes j = some m
  freed : ∀ j m, j ∈ l → w.nodes j = some m → m.refcnt = 0 → w'.nodes j = none
  kept : ∀ j m, j ∈ l → w.nodes j = some m → m.refcnt ≠ 0 → ∃ m', w'.nodes j = some m' ∧ m'.data = m.data ∧ m'.owner = m.owner ∧ m'.refcnt = m.refcnt ∧ m'.parent = none
  fresh : w'.fresh = w.fresh

theorem Wiped.refl (S : Sound w ch) : Wiped w ch [] w ch := by
  refine ⟨S, fun q => by simp, fun j m _ h => ⟨m, h, rfl, rfl, rfl, rfl⟩, fun j m h => ⟨m, h⟩, ?_, ?_, rfl⟩
  · intro j m h; cases h
  · intro j m h; cases h

theorem Wiped.snoc {l : List NodeId} {w1 : World} {ch1 : Children} (W : Wiped w ch l w1 ch1) (G : Gone w1 ch1 x w' ch') (hxl : x ∉ l) : Wiped w ch (l ++ [x]) w' ch' := by
  refine ⟨G.sound, ?_, ?_, ?_, ?_, ?_, G.fresh.trans W.fresh⟩
  · intro q
    rw [G.lists q, W.lists q, List.filter_filter]
    congr 1
    funext y
    rw [Bool.eq_iff_iff]
    simp [and_comm]
  · intro j m hj hm
    simp only [List.mem_append, List.mem_singleton, not_or] at hj
    obtain ⟨m1, k1, k2, k3, k4, k5⟩ := W.others j m hj.1 hm
    obtain ⟨m2, l1, l2, l3, l4, l5⟩ := G.others j m1 hj.2 k1
    exact ⟨m2, l1, l2.trans k2, l3.trans k3, l4.trans k4, l5.trans k5⟩
  · intro j m' hj
    obtain ⟨m, hm⟩ := G.back j m' hj
    exact W.back j m hm
  · intro j m hj hm hz
    rcases List.mem_append.1 hj with hj | hj
    · have := W.freed j m hj hm hz
      cases h : w'.nodes j with
      | none => rfl
      | some m' =>
        obtain ⟨m1, h1⟩ := G.back j m' h
        rw [this] at h1; cases h1
    · have : j = x := by simpa using hj
      subst this
      obtain ⟨m1, k1, _, _, k4, _⟩ := W.others j m hxl hm
      exact G.freed m1 k1 (by omega)
  · intro j m hj hm hz
    rcases List.mem_append.1 hj with hj | hj
    · obtain ⟨m1, k1, k2, k3, k4, k5⟩ := W.kept j m hj hm hz
      have hjx : j ≠ x := fun e => hxl (e ▸ hj)
      obtain ⟨m2, l1, l2, l3, l4, l5⟩ := G.others j m1 hjx k1
      exact ⟨m2, l1, l2.trans k2, l3.trans k3, l4.trans k4, l5.trans k5⟩
    · have : j = x := by simpa using hj
      subst this
      obtain ⟨m1, k1, k2, k3, k4, _⟩ := W.others j m hxl hm
      obtain ⟨m2, l1, l2, l3, l4, l5⟩ := G.kept m1 k1 (by omega)
      exact ⟨m2, l1, l2.trans k2, l3.trans k3, l4.trans k4, l5⟩

/-- Every node that is left has the type, the owner and the count it had, and the parent it had or none. -/
theorem Wiped.was {l : List NodeId} (W : Wiped w ch l w' ch') {m' : Node} (hj : w'.nodes j = some m') :
    ∃ m, w.nodes j = some m ∧ m'.data = m.data ∧ m'.owner = m.owner ∧ m'.refcnt = m.refcnt ∧ (m'.parent = m.parent ∨ m'.parent = none) := by
  obtain ⟨m, hm⟩ := W.back j m' hj
  by_cases h : j ∈ l
  · have hz : m.refcnt ≠ 0 := by
      intro hz
      rw [W.freed j m h hm hz] at hj; cases hj
    obtain ⟨m1, k1, k2, k3, k4, k5⟩ := W.kept j m h hm hz
    rw [hj] at k1; cases k1
    exact ⟨m, hm, k2, k3, k4, .inr k5⟩
  · obtain ⟨m1, k1, k2, k3, k4, k5⟩ := W.others j m h hm
    rw [hj] at k1; cases k1
    exact ⟨m, hm, k2, k3, k4, .inl k5⟩

theorem Wiped.anc {l : List NodeId} (W : Wiped w ch l w' ch') {i : NodeId} (h : AncSelf w' i j) : AncSelf w i j := by
  induction h with
  | refl => exact .refl
  | tail _ hq ih =>
    obtain ⟨m', hm', hp⟩ := hq
    obtain ⟨m, hm, _, _, _, h⟩ := W.was hm'
    refine .tail ih ⟨m, hm, ?_⟩
    rcases h with h | h
    · rw [← h]; exact hp
    · rw [h] at hp; cases hp

theorem Wiped.ro {l : List NodeId} (W : Wiped w ch l w' ch') {i : NodeId} (h : ¬ ReadOnly w i) : ¬ ReadOnly w' i := by
  rintro ⟨m', hm', hr⟩
  obtain ⟨m, hm, hd, _, _, _⟩ := W.was hm'
  apply h
  have ht : m'.type = m.type := Node.data_type hd
  have ha : m'.attrRO = m.attrRO := by have := congrArg Node.attrRO hd; exact this
  refine ⟨m, hm, ?_⟩
  rw [ht, ha] at hr
  rcases hr with hr | hr | hr | ⟨hr, j, k', hanc, hk', hkt⟩
  · exact .inl hr
  · exact .inr (.inl hr)
  · exact .inr (.inr (.inl hr))
  · obtain ⟨k, hk, hkd, _⟩ := W.was hk'
    refine .inr (.inr (.inr ⟨hr, j, k, W.anc hanc, hk, ?_⟩))
    rw [Node.data_type hkd] at hkt
    exact hkt

theorem Wiped.docKept {l : List NodeId} (W : Wiped w ch l w' ch') {i : NodeId} (h : DocKept w i) : DocKept w' i := by
  intro n' d dn' hn' ho hdn'
  obtain ⟨n, hn, _, k3, _⟩ := W.was hn'
  obtain ⟨dn, hdn, _, _, k4, _⟩ := W.was hdn'
  rw [k4]
  exact h n d dn hn (by rw [← k3]; exact ho) hdn

theorem Wiped.room {l : List NodeId} (W : Wiped w ch l w' ch') {i : NodeId} (h : Room w i) : Room w' i := by
  intro n' hn'
  obtain ⟨n, hn, _, _, k4, _⟩ := W.was hn'
  rw [k4]; exact h n hn

/-- Delete one more Text node. -/
theorem Wiped.delete {l : List NodeId} {w1 : World} {ch1 : Children} (W : Wiped w ch l w1 ch1) (hx : w.nodes x = some n) (hxl : x ∉ l) (ht : n.type = .text) (hp : n.parent = some p)
    (hro : ¬ ReadOnly w p) (hov : Room w x) (hdoc : DocKept w x) : ∃ w' ch', deleteText x w1 = .ok w' () ∧ Wiped w ch (l ++ [x]) w' ch' := by
  obtain ⟨m1, k1, k2, k3, k4, k5⟩ := W.others x n hxl hx
  obtain ⟨w', ch', e, G⟩ := deleteText_run W.sound k1 (by rw [Node.data_type k2]; exact ht) (by rw [k5]; exact hp) (W.ro hro) (W.room hov) (W.docKept hdoc)
  exact ⟨w', ch', e, W.snoc G hxl⟩

theorem del_none (ord : Order) : delInOrder ord none w = .ok w () := rfl

theorem del_boundary {i : NodeId} (h : IsBoundary w i) (ord : Order) : delInOrder ord (some i) w = .ok w () := by
  obtain ⟨n, hn, ht⟩ := h
  unfold delInOrder
  dsimp only
  rw [get_bind hn, bound_bind]
  unfold delLoop
  rw [get_bind hn]
  simp only [ht, if_true]
  rfl

theorem del_text (hW : WF w ch) {i : NodeId} {n : Node} (hn : w.nodes i = some n) (ht : n.type = .text) (ord : Order) : delInOrder ord (some i) w = deleteText i w := by
  obtain ⟨h1, h2⟩ := text_leaf hW hn ht
  unfold delInOrder
  dsimp only
  rw [get_bind hn, bound_bind]
  unfold delLoop
  rw [get_bind hn]
  simp only [ht, h1, h2]
  rfl

/-- One side: nothing, a boundary, or a Text node, which is deleted. -/
theorem Wiped.side {l : List NodeId} {w1 : World} {ch1 : Children} (W : Wiped w ch l w1 ch1) (ord : Order) (s : Option NodeId) (o : Option NodeId)
    (hs : (o = none ∧ ∀ i, s = some i → IsBoundary w i ∧ i ∉ l) ∨ ∃ i n, s = some i ∧ o = some i ∧ w.nodes i = some n ∧ i ∉ l ∧ n.type = .text ∧ n.parent = some p ∧ Room w i ∧ DocKept w i)
    (hro : ¬ ReadOnly w p) : ∃ w' ch', delInOrder ord s w1 = .ok w' () ∧ Wiped w ch (l ++ o.toList) w' ch' := by
  rcases hs with ⟨rfl, hs⟩ | ⟨i, n, rfl, rfl, hn, hil, ht, hp, hov, hdoc⟩
  · refine ⟨w1, ch1, ?_, by simpa using W⟩
    cases s with
    | none => rfl
    | some i =>
      obtain ⟨⟨n, hn, ht⟩, hil⟩ := hs i rfl
      obtain ⟨m1, k1, k2, _⟩ := W.others i n hil hn
      exact del_boundary ⟨m1, k1, by rw [Node.data_type k2]; exact ht⟩ ord
  · obtain ⟨m1, k1, k2, _⟩ := W.others i n hil hn
    rw [del_text W.sound.wf k1 (by rw [Node.data_type k2]; exact ht)]
    exact W.delete hn hil ht hp hro hov hdoc

/-! ## The theorems -/

/-- The Text nodes `a`, `t`, `b` lie next to each other among the children of `p` and are surrounded by boundaries or the ends of the list. -/
structure Run (w : World) (ch : Children) (p t : NodeId) (a b : List NodeId) : Prop where
  place : ∃ pre post, ch p = pre ++ a ++ t :: b ++ post ∧ (∀ i, pre.getLast? = some i → IsBoundary w i) ∧ (∀ i, post.head? = some i → IsBoundary w i)
  texts : ∀ i ∈ a ++ t :: b, IsType w i .text
  parent : ¬ IsType w p .entity
  /-- No count overflows and the document is referenced. -/
  room : ∀ i ∈ a ++ t :: b, Room w i ∧ DocKept w i

/-- **C78 (in part).** What `replaceWholeText` does with a referenced Text node that is not read-only: of the adjacent Text nodes it takes out the nearest on either side, and the node
itself; it stores the new text in the node and returns it with one more reference; all other nodes are as they were.  Missing: the node should stay in the tree, and all adjacent
Text nodes should go; see the theorems below. -/
theorem C78_effect_partial (S : Sound w ch) {a b : List NodeId} (R : Run w ch p t a b) (hro : ¬ ReadOnly w p) (hh : Held w t) (content : Option DStr) :
    ∃ w' ch', replaceWholeText t content w = .ok w' t ∧ Sound w' ch' ∧
      (∀ q, ch' q = (ch q).filter (· ∉ a.getLast?.toList ++ [t] ++ b.head?.toList)) ∧
      (∃ n m, w.nodes t = some n ∧ w'.nodes t = some m ∧ m.parent = none ∧ m.refcnt = n.refcnt + 1 ∧ m.owner = n.owner ∧ m.data = ({ n with value := content } : Node).data) ∧
      (∀ j m, j ∈ a.getLast?.toList ++ b.head?.toList → w.nodes j = some m → m.refcnt = 0 → w'.nodes j = none) ∧
      (∀ j m, j ∈ a.getLast?.toList ++ b.head?.toList → w.nodes j = some m → m.refcnt ≠ 0 →
        ∃ m', w'.nodes j = some m' ∧ m'.data = m.data ∧ m'.owner = m.owner ∧ m'.refcnt = m.refcnt ∧ m'.parent = none) ∧
      (∀ j m, j ∉ a.getLast?.toList ++ [t] ++ b.head?.toList → w.nodes j = some m →
        ∃ m', w'.nodes j = some m' ∧ m'.data = m.data ∧ m'.owner = m.owner ∧ m'.refcnt = m.refcnt ∧ m'.parent = m.parent) := by
  obtain ⟨pre, post, hch, hpre, hpost⟩ := R.place
  obtain ⟨n, hn, hh⟩ := hh
  obtain ⟨n', hn', htt⟩ := R.texts t (by simp)
  rw [hn] at hn'; cases hn'
  obtain ⟨pn, hpn⟩ : ∃ pn, w.nodes p = some pn := by
    cases h : w.nodes p with
    | some pn => exact ⟨pn, rfl⟩
    | none =>
      have := S.wf.linked.dead p h
      rw [hch] at this; simp at this
  have hloc := S.wf.linked.loc p pn hpn
  obtain ⟨n', hn', _, htp, hprev, hnext⟩ := hloc.kids (pre ++ a) t (b ++ post) (by rw [hch]; simp)
  rw [hn] at hn'; cases hn'
  have nd := hloc.nodup
  rw [hch] at nd
  have kid : ∀ i ∈ a ++ t :: b, ∃ m, w.nodes i = some m ∧ m.type = .text ∧ m.parent = some p := by
    intro i hi
    obtain ⟨m, hm, hmt⟩ := R.texts i hi
    have : i ∈ ch p := by rw [hch]; simp only [List.mem_append, List.mem_cons] at hi ⊢; tauto
    obtain ⟨m', hm', _, hmp⟩ := S.wf.linked.alive_child this
    rw [hm] at hm'; cases hm'
    exact ⟨m, hm, hmt, hmp⟩
  -- left
  obtain ⟨w1, ch1, e1, W1⟩ := (Wiped.refl S).side (p := p) .left n.prev a.getLast? (by
    rw [hprev]
    rcases List.eq_nil_or_concat a with rfl | ⟨a', y, rfl⟩
    · left
      refine ⟨rfl, fun i hi => ⟨hpre i (by simpa using hi), by simp⟩⟩
    · right
      rw [List.concat_eq_append] at *
      obtain ⟨m, k1, k2, k3⟩ := kid y (by simp)
      obtain ⟨k4, k5⟩ := R.room y (by simp)
      exact ⟨y, m, by simp, by simp, k1, by simp, k2, k3, k4, k5⟩) hro
  have htl : t ∉ [] ++ a.getLast?.toList := by
    rcases List.eq_nil_or_concat a with rfl | ⟨a', y, rfl⟩
    · simp
    · rw [List.concat_eq_append] at *
      intro h
      have : t = y := by simpa using h
      subst this
      rw [show pre ++ (a' ++ [t]) ++ t :: b ++ post = (pre ++ a') ++ (t :: t :: (b ++ post)) by simp] at nd
      have := (List.nodup_append.1 nd).2.1
      simp at this
  -- the node
  obtain ⟨k4, k5⟩ := R.room t (by simp)
  obtain ⟨w2, ch2, e2, W2⟩ := W1.delete hn htl htt htp hro k4 k5
  -- right
  obtain ⟨w3, ch3, e3, W3⟩ := W2.side (p := p) .right n.next b.head? (by
    rw [hnext]
    have after : ∀ i, i ∈ b ++ post → i ∉ [] ++ a.getLast?.toList ++ [t] := by
      intro i hi hia
      have hia' : i ∈ pre ++ a ++ [t] := by
        simp only [List.nil_append, List.mem_append, List.mem_singleton] at hia ⊢
        rcases hia with hia | hia
        · left; right
          cases ha : a.getLast? with
          | none => rw [ha] at hia; simp at hia
          | some y =>
            rw [ha] at hia
            have : i = y := by simpa using hia
            rw [this]; exact List.mem_of_getLast? ha
        · right; exact hia
      rw [show pre ++ a ++ t :: b ++ post = (pre ++ a ++ [t]) ++ (b ++ post) by simp] at nd
      exact (List.nodup_append.1 nd).2.2 i hia' i hi rfl
    cases b with
    | nil =>
      left
      refine ⟨rfl, fun i hi => ⟨hpost i (by simpa using hi), after i ?_⟩⟩
      have hi' : post.head? = some i := by simpa using hi
      simpa using List.mem_of_head? hi'
    | cons y b =>
      right
      obtain ⟨m, k1, k2, k3⟩ := kid y (by simp)
      obtain ⟨k4, k5⟩ := R.room y (by simp)
      exact ⟨y, m, by simp, by simp, k1, after y (by simp), k2, k3, k4, k5⟩) hro
  -- the new text
  obtain ⟨m3, g1, g2, g3, g4, g5⟩ := W3.kept t n (by simp) hn (by omega)
  have hro3 : ¬ ReadOnly w3 t := by
    rintro ⟨k, hk, hr⟩
    rw [g1] at hk; cases hk
    have : m3.type = .text := by rw [Node.data_type g2]; exact htt
    rw [this] at hr
    rcases hr with hr | hr | hr | ⟨_, j, k, hanc, hk, hkt⟩
    · cases hr
    · cases hr
    · cases hr.1
    · have : t = j := by
        rcases Relation.ReflTransGen.cases_head hanc with h | ⟨c, ⟨m, hm, hmp⟩, _⟩
        · exact h
        · rw [g1] at hm; cases hm
          rw [g5] at hmp; cases hmp
      subst this
      rw [g1] at hk; cases hk
      rw [this] at hkt
      rcases hkt with h | h <;> cases h
  have hown : m3.owner ≠ none := by
    rcases W3.sound.wf.owner t m3 g1 with ⟨d, dn, o1, _⟩ | ⟨o1, _⟩
    · rw [o1]; simp
    · rw [Node.data_type g2, htt] at o1; cases o1
  obtain ⟨w4, e4, D4, f4⟩ := storeData_becomes W3.sound.wf.toCore g1 hown content
  have e4' : setData t content w3 = .ok w4 () := by
    unfold setData
    rw [not_ro W3.sound.wf.toCore g1 hro3]
    exact e4
  have S4 : Sound w4 ch3 := by rw [f4]; exact Xml.Sound_value W3.sound g1 _ _
  have hov := k4 n hn
  have e5 : ref t w4 = .ok (w4.mp (fun j n => { n with refcnt := if j = t then u32 (n.refcnt + 1) else n.refcnt }) []) () := by
    exact ref_run D4.here
  have S5 := S4.ref D4.here (by show m3.refcnt + 1 < 4294967296; omega)
  have hrun : replaceWholeText t content w = .ok (w4.mp (fun j n => { n with refcnt := if j = t then u32 (n.refcnt + 1) else n.refcnt }) []) t := by
    unfold replaceWholeText
    rw [get_bind hn]
    have er : refuseEntity n.parent w = .ok w () := by
      rw [htp]
      unfold refuseEntity
      dsimp only
      rw [get_bind hpn]
      have : ¬ pn.type = .entity := fun h => R.parent ⟨pn, hpn, h⟩
      rw [decide_eq_false this]; rfl
    rw [bind_ok er, bind_ok e1, bind_ok e2, bind_ok e3, bind_ok e4', bind_ok e5]
    rfl
  have hl : [] ++ a.getLast?.toList ++ [t] ++ b.head?.toList = a.getLast?.toList ++ [t] ++ b.head?.toList := by simp
  rw [hl] at W3
  have out : ∀ j, j ≠ t → (w4.mp (fun j n => { n with refcnt := if j = t then u32 (n.refcnt + 1) else n.refcnt }) []).nodes j = w3.nodes j := by
    intro j hj
    rw [← D4.others j hj]
    cases h : w4.nodes j with
    | none => rw [mp_nodes, h]; rfl
    | some m => rw [mp_some h]; simp [hj]
  have tns : ∀ j, j ∈ a.getLast?.toList ++ b.head?.toList → j ≠ t := by
    intro j hj e
    subst e
    rcases List.mem_append.1 hj with hj | hj
    · exact htl (by simpa using hj)
    · cases b with
      | nil => simp at hj
      | cons y b =>
        have : j = y := by simpa using hj
        subst this
        rw [show pre ++ a ++ j :: (j :: b) ++ post = (pre ++ a) ++ (j :: j :: (b ++ post)) by simp] at nd
        have := (List.nodup_append.1 nd).2.1
        simp at this
  have sub : ∀ j, j ∈ a.getLast?.toList ++ b.head?.toList → j ∈ a.getLast?.toList ++ [t] ++ b.head?.toList := by
    intro j hj
    simp only [List.mem_append, List.mem_singleton] at hj ⊢
    tauto
  refine ⟨_, ch3, hrun, S5, W3.lists, ⟨n, { { m3 with value := content } with refcnt := u32 (m3.refcnt + 1) }, hn, ?_, g5, ?_, g3, ?_⟩, ?_, ?_, ?_⟩
  · rw [mp_some D4.here]; simp
  · show u32 (m3.refcnt + 1) = _
    rw [u32_small (by omega)]; omega
  · have hv := congrArg (fun m : Node => { m with value := content }) g2
    exact hv
  · intro j m hj hm hz
    rw [out j (tns j hj)]
    exact W3.freed j m (sub j hj) hm hz
  · intro j m hj hm hz
    rw [out j (tns j hj)]
    exact W3.kept j m (sub j hj) hm hz
  · intro j m hj hm
    have hjt : j ≠ t := by rintro rfl; exact hj (by simp)
    rw [out j hjt]
    exact W3.others j m hj hm

/-- C78 is false of the code: after a successful call the node that should hold the text of the whole run is in no child list and has no parent.  (`_dom_text_replace_whole_text`
deletes the node itself as well, src/core/text.c:517-523, and does not put it back.) -/
theorem C78_lost_violated (S : Sound w ch) {a b : List NodeId} (R : Run w ch p t a b) (hro : ¬ ReadOnly w p) (hh : Held w t) (content : Option DStr) :
    t ∈ ch p ∧ ∃ w' ch', replaceWholeText t content w = .ok w' t ∧ Sound w' ch' ∧ (∀ q, t ∉ ch' q) ∧ ∃ m, w'.nodes t = some m ∧ m.parent = none := by
  obtain ⟨w', ch', e, S', hl, ⟨_, m, _, hm, hp, _⟩, _⟩ := C78_effect_partial S R hro hh content
  refine ⟨?_, w', ch', e, S', ?_, m, hm, hp⟩
  · obtain ⟨pre, post, hch, _⟩ := R.place
    rw [hch]; simp
  · intro q hq
    rw [hl q] at hq
    simp at hq

/-- C78 is false of the code: of the adjacent Text nodes before the node only the nearest is deleted; the one before that stays where it is, with its data. -/
theorem C78_rest_violated (S : Sound w ch) {a b : List NodeId} {y z : NodeId} (R : Run w ch p t (a ++ [y, z]) b) (hro : ¬ ReadOnly w p) (hh : Held w t) (content : Option DStr) :
    ∃ w' ch', replaceWholeText t content w = .ok w' t ∧ Sound w' ch' ∧ y ∈ ch' p ∧ ∃ n m, w.nodes y = some n ∧ w'.nodes y = some m ∧ m.value = n.value := by
  obtain ⟨w', ch', e, S', hl, _, _, _, ho⟩ := C78_effect_partial S R hro hh content
  obtain ⟨pre, post, hch, _⟩ := R.place
  obtain ⟨n, hn, _⟩ := R.texts y (by simp)
  have nd : (ch p).Nodup := by
    cases h : w.nodes p with
    | none => rw [S.wf.linked.dead p h]; simp
    | some pn => exact (S.wf.linked.loc p pn h).nodup
  have hy : y ∉ (a ++ [y, z]).getLast?.toList ++ [t] ++ b.head?.toList := by
    rw [show (a ++ [y, z]).getLast? = some z by simp]
    rw [hch, show pre ++ (a ++ [y, z]) ++ t :: b ++ post = (pre ++ a) ++ (y :: ([z, t] ++ (b ++ post))) by simp] at nd
    have := (List.nodup_append.1 nd).2.1
    rw [List.nodup_cons] at this
    intro hy
    apply this.1
    simp only [Option.toList_some, List.mem_append, List.mem_cons, List.not_mem_nil, or_false] at hy ⊢
    rcases hy with (hy | hy) | hy
    · exact .inl (.inl hy)
    · exact .inl (.inr hy)
    · right; left
      cases b with
      | nil => simp at hy
      | cons c b => have : y = c := by simpa using hy
                    rw [this]; simp
  obtain ⟨m, hm, hd, _⟩ := ho y n hy hn
  refine ⟨w', ch', e, S', ?_, n, m, hn, hm, by have := congrArg Node.value hd; exact this⟩
  rw [hl p]
  refine List.mem_filter.2 ⟨by rw [hch]; simp, by simpa using hy⟩

/-- C78 is false of the code: the call on a Text node without parent reads the function table of the NULL parent (src/core/text.c:518). -/
theorem C78_orphan_violated (S : Sound w ch) (hn : w.nodes t = some n) (hp : n.parent = none) (content : Option DStr) :
    replaceWholeText t content w = .fault .nullDeref := by
  obtain ⟨h1, h2⟩ := S.wf.linked.orphan t n hn (.inl hp)
  unfold replaceWholeText
  rw [get_bind hn, hp, h1, h2]
  show (deleteText t >>= _) w = _
  have : deleteText t w = .fault .nullDeref := by
    unfold deleteText
    rw [get_bind hn, hp]
    rfl
  exact bind_fault this _

/-- A run of Text nodes under a read-only parent is refused, and nothing changes. -/
theorem C78_readonly (S : Sound w ch) {a b : List NodeId} (R : Run w ch p t a b) (hro : ReadOnly w p) (content : Option DStr) :
    replaceWholeText t content w = .exc w .noModificationAllowed := by
  obtain ⟨pre, post, hch, hpre, hpost⟩ := R.place
  obtain ⟨n, hn, htt⟩ := R.texts t (by simp)
  obtain ⟨pn, hpn, hpr⟩ := id hro
  have hloc := S.wf.linked.loc p pn hpn
  obtain ⟨n', hn', _, htp, hprev, hnext⟩ := hloc.kids (pre ++ a) t (b ++ post) (by rw [hch]; simp)
  rw [hn] at hn'; cases hn'
  have kid : ∀ i ∈ a ++ t :: b, ∃ m, w.nodes i = some m ∧ m.type = .text ∧ deleteText i w = .exc w .noModificationAllowed := by
    intro i hi
    obtain ⟨m, hm, hmt⟩ := R.texts i hi
    have hic : i ∈ ch p := by rw [hch]; simp only [List.mem_append, List.mem_cons] at hi ⊢; tauto
    obtain ⟨m', hm', _, hmp⟩ := S.wf.linked.alive_child hic
    rw [hm] at hm'; cases hm'
    refine ⟨m, hm, hmt, ?_⟩
    have hr : removeRefusal w ch p i pn m = some .noModificationAllowed := by
      unfold removeRefusal
      rw [if_neg (by rw [hmt]; simp), if_neg (by simpa using hic), if_pos hro]
    have := removeChild_refused S.wf hpn hm (by rw [hmt]; intro h; cases h) hr
    unfold deleteText
    rw [get_bind hm, hmp, deref_bind, bind_exc this]
  have er : refuseEntity n.parent w = .ok w () := by
    rw [htp]
    unfold refuseEntity
    dsimp only
    rw [get_bind hpn]
    have : ¬ pn.type = .entity := fun h => R.parent ⟨pn, hpn, h⟩
    rw [decide_eq_false this]; rfl
  unfold replaceWholeText
  rw [get_bind hn, bind_ok er, hprev]
  rcases List.eq_nil_or_concat a with rfl | ⟨a', y, rfl⟩
  · have e1 : delInOrder .left (pre ++ []).getLast? w = .ok w () := by
      rw [List.append_nil]
      cases h : pre.getLast? with
      | none => rfl
      | some i => exact del_boundary (hpre i h) .left
    rw [bind_ok e1]
    obtain ⟨_, _, _, e2⟩ := kid t (by simp)
    rw [bind_exc e2]
  · rw [List.concat_eq_append] at *
    obtain ⟨m, hm, hmt, e2⟩ := kid y (by simp)
    rw [show (pre ++ (a' ++ [y])).getLast? = some y by simp]
    have e1 : delInOrder .left (some y) w = .exc w .noModificationAllowed := by rw [del_text S.wf hm hmt]; exact e2
    rw [bind_exc e1]

/-! ## Concrete cases -/

/-- The check that the children of `q` are `l`: the first child, and the next siblings. -/
def nextsB (w : World) : List NodeId → Bool
  | [] => true
  | x :: l => at_ w x (fun m => m.next = l.head?) && nextsB w l

theorem nexts_split : ∀ {l : List NodeId} (a : List NodeId) (z : NodeId) (s : List NodeId), nextsB w l = true → l = a ++ z :: s → ∃ m, w.nodes z = some m ∧ m.next = s.head? := by
  intro l a
  induction a generalizing l with
  | nil =>
    rintro z s h rfl
    simp only [List.nil_append, nextsB, Bool.and_eq_true] at h
    obtain ⟨m, hm, h⟩ := at_elim h.1
    exact ⟨m, hm, by simpa using h⟩
  | cons y a ih =>
    rintro z s h rfl
    simp only [List.cons_append, nextsB, Bool.and_eq_true] at h
    exact ih z s h.2 rfl

theorem children_of {q : NodeId} {l : List NodeId} (hW : WF w ch) (h1 : at_ w q (fun m => m.first = l.head?) = true) (h2 : nextsB w l = true) : ch q = l := by
  obtain ⟨m, hm, h1⟩ := at_elim h1
  have h := hW.linked.loc q m hm
  have key : ∀ (s s' a : List NodeId), ch q = a ++ s → l = a ++ s' → s = s' := by
    intro s
    have hd : ∀ (s s' a : List NodeId), ch q = a ++ s → l = a ++ s' → s.head? = s'.head? := by
      intro s s' a e1 e2
      rcases List.eq_nil_or_concat a with rfl | ⟨a', z, rfl⟩
      · obtain ⟨m1, k1, k2, _⟩ := h.ends
        rw [hm] at k1; cases k1
        rw [e1] at k2
        rw [e2] at h1
        have h1' : m.first = ([] ++ s').head? := by simpa using h1
        rw [k2] at h1'; simpa using h1'
      · rw [List.concat_eq_append] at e1 e2
        obtain ⟨m1, k1, _, _, _, k2⟩ := h.kids a' z s (by rw [e1]; simp)
        obtain ⟨m2, k3, k4⟩ := nexts_split a' z s' h2 (by rw [e2]; simp)
        rw [k1] at k3; cases k3
        rw [← k2, k4]
    induction s with
    | nil =>
      intro s' a e1 e2
      have := hd [] s' a e1 e2
      cases s' with
      | nil => rfl
      | cons c s' => cases this
    | cons c s ih =>
      intro s' a e1 e2
      have hh := hd (c :: s) s' a e1 e2
      cases s' with
      | nil => cases hh
      | cons c' s' =>
        have : c' = c := by simpa using hh.symm
        subst this
        rw [ih s' (a ++ [c']) (by rw [e1]; simp) (by rw [e2]; simp)]
  exact key (ch q) l [] rfl rfl

/-- A document (0), an element (1) with the texts "A" (2), "B" (3), "C" (4), "D" (5) and an element (6); the references to 3 and 5 are given up. -/
def runActs78 : List Act :=
  [.call .createDocument, .call (.createNode 0 .element none none), .call (.createNode 0 .text none (strOf [65])),
   .call (.createNode 0 .text none (strOf [66])), .call (.createNode 0 .text none (strOf [67])), .call (.createNode 0 .text none (strOf [68])),
   .call (.createNode 0 .element none none),
   .call (.appendChild 1 2), .call (.appendChild 1 3), .call (.appendChild 1 4), .call (.appendChild 1 5), .call (.appendChild 1 6),
   .unref 3, .unref 3, .unref 5, .unref 5]

/-- The hypotheses of `C78_effect_partial`, `C78_lost_violated` and `C78_rest_violated` are met by the third of four texts in front of an element. -/
theorem sample78 : ∃ led w ch, Client Careful led w ∧ Sound w ch ∧ Run w ch 1 4 [2, 3] [5] ∧ ¬ ReadOnly w 1 ∧ Held w 4 ∧ ch 1 = [2, 3, 4, 5, 6] := by
  obtain ⟨led, w, hc, h⟩ := exists_careful runActs78
    (fun _ w => at_ w 1 (fun m => m.first = [2, 3, 4, 5, 6].head?) && nextsB w [2, 3, 4, 5, 6] && at_ w 0 (fun m => m.refcnt = 1) &&
      at_ w 1 (fun m => m.type = .element && m.parent.isNone) && at_ w 2 (fun m => m.type = .text && m.refcnt < 9 && m.owner = some 0) &&
      at_ w 3 (fun m => m.type = .text && m.refcnt < 9 && m.owner = some 0) && at_ w 4 (fun m => m.type = .text && m.refcnt = 2 && m.owner = some 0) &&
      at_ w 5 (fun m => m.type = .text && m.refcnt < 9 && m.owner = some 0) && at_ w 6 (fun m => m.type = .element)) (by decide +kernel)
  simp only [Bool.and_eq_true] at h
  obtain ⟨⟨⟨⟨⟨⟨⟨⟨hf, hx⟩, h0⟩, h1⟩, h2⟩, h3⟩, h4⟩, h5⟩, h6⟩ := h
  obtain ⟨ch, S, _⟩ := hc.sound
  have hch : ch 1 = [2, 3, 4, 5, 6] := children_of S.wf hf hx
  obtain ⟨n0, k0, e0⟩ := at_elim h0
  obtain ⟨n1, k1, e1⟩ := at_elim h1
  obtain ⟨n2, k2, e2⟩ := at_elim h2
  obtain ⟨n3, k3, e3⟩ := at_elim h3
  obtain ⟨n4, k4, e4⟩ := at_elim h4
  obtain ⟨n5, k5, e5⟩ := at_elim h5
  obtain ⟨n6, k6, e6⟩ := at_elim h6
  simp only [Bool.and_eq_true, decide_eq_true_eq, Option.isNone_iff_eq_none] at e0 e1 e2 e3 e4 e5 e6
  have fine : ∀ (i : NodeId) (m : Node), w.nodes i = some m → m.refcnt < 9 → m.owner = some 0 → Room w i ∧ DocKept w i := by
    intro i m hi hr ho
    refine ⟨fun m' hm' => ?_, fun m' d dn hm' hd hdn => ?_⟩
    · rw [hi] at hm'; cases hm'; omega
    · rw [hi] at hm'; cases hm'
      have : 0 = d := by rw [ho] at hd; simpa using hd
      subst this
      rw [k0] at hdn; cases hdn; omega
  refine ⟨led, w, ch, hc, S, ⟨⟨[], [6], by rw [hch]; rfl, ?_, ?_⟩, ?_, ?_, ?_⟩, ?_, ⟨n4, k4, by omega⟩, hch⟩
  · intro i hi; cases hi
  · intro i hi
    have : 6 = i := by simpa using hi
    subst this
    exact ⟨n6, k6, .inl e6⟩
  · intro i hi
    simp only [List.cons_append, List.nil_append, List.mem_cons, List.not_mem_nil, or_false] at hi
    rcases hi with rfl | rfl | rfl | rfl
    · exact ⟨n2, k2, e2.1.1⟩
    · exact ⟨n3, k3, e3.1.1⟩
    · exact ⟨n4, k4, e4.1.1⟩
    · exact ⟨n5, k5, e5.1.1⟩
  · rintro ⟨m, hm, ht⟩
    rw [k1] at hm; cases hm
    rw [e1.1] at ht; cases ht
  · intro i hi
    simp only [List.cons_append, List.nil_append, List.mem_cons, List.not_mem_nil, or_false] at hi
    rcases hi with rfl | rfl | rfl | rfl
    · exact fine _ n2 k2 e2.1.2 e2.2
    · exact fine _ n3 k3 e3.1.2 e3.2
    · exact fine _ n4 k4 (by omega) e4.2
    · exact fine _ n5 k5 e5.1.2 e5.2
  · rintro ⟨m, hm, hr⟩
    rw [k1] at hm; cases hm
    rw [e1.1] at hr
    rcases hr with hr | hr | hr | ⟨_, j, k, hanc, hk, hkt⟩
    · cases hr
    · cases hr
    · cases hr.1
    · have : 1 = j := by
        rcases Relation.ReflTransGen.cases_head hanc with h | ⟨c, ⟨m, hm, hmp⟩, _⟩
        · exact h
        · rw [k1] at hm; cases hm
          rw [e1.2] at hmp; cases hmp
      subst this
      rw [k1] at hk; cases hk
      rw [e1.1] at hkt
      rcases hkt with h | h <;> cases h

/-- There "B" (3), "C" (4) and "D" (5) go from the list, "A" (2) stays; 3 and 5 are freed; 4 has the new text "X". -/
example : ∃ led w, Client Careful led w ∧ ∃ w', replaceWholeText 4 (strOf [88]) w = .ok w' 4 ∧ nextsB w' [2, 6] = true ∧ w'.nodes 3 = none ∧ w'.nodes 5 = none ∧
    at_ w' 4 (fun m => m.value.map DStr.data == some [88] && m.parent.isNone) = true := by
  obtain ⟨led, w, hc, h⟩ := exists_careful runActs78
    (fun _ w => match replaceWholeText 4 (strOf [88]) w with
      | .ok w' i => decide (i = 4) && nextsB w' [2, 6] && (w'.nodes 3).isNone && (w'.nodes 5).isNone && at_ w' 4 (fun m => m.value.map DStr.data == some [88] && m.parent.isNone)
      | _ => false) (by decide +kernel)
  split at h
  · rename_i w' i hv
    simp only [Bool.and_eq_true, decide_eq_true_eq, Option.isNone_iff_eq_none] at h
    obtain ⟨⟨⟨⟨h1, h2⟩, h3⟩, h4⟩, h5⟩ := h
    exact ⟨led, w, hc, w', by rw [hv, h1], h2, h3, h4, by simpa using h5⟩
  · cases h

/-- `dom_attr_mark_readonly`, src/core/attr.c:389-392. -/
def markReadonly (x : NodeId) (w : World) : World := w.mp (fun j n => if j = x then { n with attrRO := true } else n) []

theorem Sound.markReadonly (S : Sound w ch) (x : NodeId) : Sound (markReadonly x w) ch := by
  have hf : ∀ j m, (Tree.markReadonly x w).nodes j = some m → ∃ k, w.nodes j = some k ∧ m.type = k.type ∧ m.host = k.host ∧ m.owner = k.owner ∧ m.parent = k.parent ∧
      m.refcnt = k.refcnt ∧ m.first = k.first ∧ m.pendingIn = k.pendingIn ∧ m.attrs = k.attrs := by
    intro j m hm
    obtain ⟨k, hk, rfl⟩ := mp_some_iff.1 hm
    refine ⟨k, hk, ?_⟩
    split <;> simp
  have same : ∀ j k m, w.nodes j = some k → (Tree.markReadonly x w).nodes j = some m → m.type = k.type ∧ m.host = k.host ∧ m.owner = k.owner ∧ m.parent = k.parent ∧
      m.refcnt = k.refcnt ∧ m.first = k.first ∧ m.pendingIn = k.pendingIn ∧ m.attrs = k.attrs := by
    intro j k m hk hm
    obtain ⟨k', hk', h⟩ := hf j m hm
    rw [hk] at hk'; cases hk'; exact h
  have hmap : ∀ {α : Type} (f : Node → α), (∀ k : Node, f { k with attrRO := true } = f k) → ∀ j, ((Tree.markReadonly x w).nodes j).map f = (w.nodes j).map f := by
    intro α f hfx j
    unfold Tree.markReadonly
    rw [mp_nodes]
    cases w.nodes j with
    | none => rfl
    | some k =>
      by_cases e : j = x
      · subst e; simp [hfx]
      · simp [e]
  have hW : WF (Tree.markReadonly x w) ch := by
    refine S.wf.mp_same [] ?_ ?_ ?_ ?_ <;> intro j n <;> split <;> rfl
  refine S.step' hW (S.attrs.congr (hmap _ fun k => by simp) ?_) (hmap _ fun k => by simp) ?_ ?_ ?_ ?_ ?_
  · intro j k hk _
    exact ⟨_, mp_some hk _ _, (same j k _ hk (mp_some hk _ _)).2.2.2.1⟩
  · intro j k m hk hm; exact .inr (same j k m hk hm).2.2.1
  · intro j m hm h1 h2
    obtain ⟨k, hk, e1, _, _, e2, e3, _⟩ := hf j m hm
    rw [e3]; exact S.held j k hk (by rw [← e2]; exact h1) (by rw [← e1]; exact h2)
  · intro j k m hk hm ht hr
    obtain ⟨_, _, _, _, e3, e4, _⟩ := same j k m hk hm
    rw [e3] at hr
    exact ⟨hr, by rw [e4]; exact (S.docs j k hk ht hr).1⟩
  · intro j k m hk hm _ hp
    left; rw [← (same j k m hk hm).2.2.2.2.2.2.1]; exact hp
  · intro c m p hm hp
    obtain ⟨k, hk, _, _, _, e2, _⟩ := hf c m hm
    exact .inl ⟨k, hk, by rw [← e2]; exact hp⟩

/-- The hypotheses of `C78_readonly` are met by the text (2) of an attribute (1) that the client has marked read-only. -/
theorem sample78_readonly : ∃ led w ch, Client Careful led w ∧ Sound (markReadonly 1 w) ch ∧ Run (markReadonly 1 w) ch 1 2 [] [] ∧ ReadOnly (markReadonly 1 w) 1 := by
  obtain ⟨led, w, hc, h⟩ := exists_careful
    [.call .createDocument, .call (.createNode 0 .attribute none none), .call (.createNode 0 .text none (strOf [65])), .call (.appendChild 1 2)]
    (fun _ w => at_ (markReadonly 1 w) 1 (fun m => m.first = [2].head?) && nextsB (markReadonly 1 w) [2] && at_ (markReadonly 1 w) 0 (fun m => m.refcnt = 1) &&
      at_ (markReadonly 1 w) 1 (fun m => m.type = .attribute && m.attrRO) && at_ (markReadonly 1 w) 2 (fun m => m.type = .text && m.refcnt < 9 && m.owner = some 0)) (by decide +kernel)
  simp only [Bool.and_eq_true] at h
  obtain ⟨⟨⟨⟨hf, hx⟩, h0⟩, h1⟩, h2⟩ := h
  obtain ⟨ch, S, _⟩ := hc.sound
  have S := S.markReadonly 1
  have hch : ch 1 = [2] := children_of S.wf hf hx
  obtain ⟨n0, k0, e0⟩ := at_elim h0
  obtain ⟨n1, k1, e1⟩ := at_elim h1
  obtain ⟨n2, k2, e2⟩ := at_elim h2
  simp only [Bool.and_eq_true, decide_eq_true_eq] at e0 e1 e2
  refine ⟨led, w, ch, hc, S, ⟨⟨[], [], by rw [hch]; rfl, ?_, ?_⟩, ?_, ?_, ?_⟩, ⟨n1, k1, .inr (.inr (.inl e1))⟩⟩
  · intro i hi; cases hi
  · intro i hi; cases hi
  · intro i hi
    have : i = 2 := by simpa using hi
    subst this
    exact ⟨n2, k2, e2.1.1⟩
  · rintro ⟨m, hm, ht⟩
    rw [k1] at hm; cases hm
    rw [e1.1] at ht; cases ht
  · intro i hi
    have : i = 2 := by simpa using hi
    subst this
    refine ⟨fun m' hm' => ?_, fun m' d dn hm' hd hdn => ?_⟩
    · rw [k2] at hm'; cases hm'; omega
    · rw [k2] at hm'; cases hm'
      have : 0 = d := by rw [e2.2] at hd; simpa using hd
      subst this
      rw [k0] at hdn; cases hdn; omega

end Dom.Tree
