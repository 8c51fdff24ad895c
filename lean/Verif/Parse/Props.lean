import Verif.Parse.Model
import Verif.Tree.PropsNormalize
import Verif.Tree.PropsImport
import Verif.Tree.WholeText
/-!
# C64: the tree callbacks of the HTML parser binding
-/
set_option linter.unusedSimpArgs false
namespace Dom.Parse
open Dom.Tree

variable {w w' : World} {ch ch' : Children} {x q c : NodeId} {xn qn cn : Node} {r : Nat}

/-- `c` now stands at the end of the children of `q`, and has `r` references; everything else is as before. -/
structure Moved (w : World) (ch : Children) (c q : NodeId) (r : Nat) (w' : World) (ch' : Children) : Prop where
  wf : WF w' ch'
  lists : ∀ p, ch' p = (ch p).filter (· ≠ c) ++ (if p = q then [c] else [])
  data : ∀ j, (w'.nodes j).map Node.data = (w.nodes j).map Node.data
  owner : ∀ j, (w'.nodes j).map Node.owner = (w.nodes j).map Node.owner
  refs : ∀ j, (w'.nodes j).map Node.refcnt = (w.nodes j).map fun n => if j = c then r else n.refcnt
  parents : ∀ j, (w'.nodes j).map Node.parent = (w.nodes j).map fun n => if j = c then some q else n.parent
  fresh : w'.fresh = w.fresh
  pend : ∀ j n, w.nodes j = some n → n.type = .fragment → ∃ n', w'.nodes j = some n' ∧ n'.pendingIn = n.pendingIn

/-- Giving a node another number of references. -/
theorem WF_refs (hW : WF w ch) (hx : w.nodes x = some xn) (r : Nat) : WF (w.upd x { xn with refcnt := r }) ch := by
  rw [upd_as_mp hx (fun n => { n with refcnt := r })]
  refine hW.mp_same [] ?_ ?_ ?_ ?_ <;> intro j n <;> split <;> rfl

theorem upd_map {α : Type} (f : Node → α) (hx : w.nodes x = some xn) (r : Nat) (hf : ∀ n r, f { n with refcnt := r } = f n) (j : NodeId) :
    ((w.upd x { xn with refcnt := r }).nodes j).map f = (w.nodes j).map f := by
  by_cases hj : j = x
  · subst hj; rw [upd_same, hx]; exact congrArg some (hf xn r)
  · rw [upd_ne _ _ hj]

theorem upd_refs (hx : w.nodes x = some xn) (r : Nat) (j : NodeId) :
    ((w.upd x { xn with refcnt := r }).nodes j).map Node.refcnt = (w.nodes j).map fun n => if j = x then r else n.refcnt := by
  by_cases hj : j = x
  · subst hj; rw [upd_same, hx]; simp
  · rw [upd_ne _ _ hj]; simp [hj]

theorem live_of {α : Type} {f g : Node → α} (h : (w'.nodes x).map f = (w.nodes x).map g) (hx : w.nodes x = some xn) : ∃ n', w'.nodes x = some n' ∧ f n' = g xn := by
  rw [hx] at h
  cases hw : w'.nodes x with
  | none => rw [hw] at h; cases h
  | some n' => rw [hw] at h; exact ⟨n', rfl, by simpa using h⟩

/-- A node that is not below `c` keeps its ancestors when the parent of `c` changes. -/
theorem anc_moved (hpar : ∀ j, j ≠ c → (w'.nodes j).map Node.parent = (w.nodes j).map Node.parent) {i : NodeId} (h : ¬ AncSelf w i c) (j : NodeId) :
    AncSelf w' i j ↔ AncSelf w i j := by
  have hstep : ∀ a b, a ≠ c → (ParentOf w' a b ↔ ParentOf w a b) := by
    intro a b ha
    have h1 := hpar a ha
    unfold ParentOf
    cases e1 : w'.nodes a <;> cases e2 : w.nodes a <;> rw [e1, e2] at h1 <;> simp_all
  constructor
  · intro hj
    induction hj with
    | refl => exact .refl
    | tail _ hs ih => exact ih.tail ((hstep _ _ (fun e => h (e ▸ ih))).1 hs)
  · intro hj
    induction hj with
    | refl => exact .refl
    | @tail a b h1 hs ih => exact ih.tail ((hstep _ _ (fun e => h (e ▸ h1))).2 hs)

/-- Whether a node is read-only depends on the types and on its ancestors. -/
theorem readOnly_moved (hd : ∀ j, (w'.nodes j).map Node.data = (w.nodes j).map Node.data) {i : NodeId} (h : ∀ j, AncSelf w' i j ↔ AncSelf w i j)
    (hro : ¬ ReadOnly w i) : ¬ ReadOnly w' i := by
  rintro ⟨n, hn, hc⟩
  apply hro
  have back : ∀ j m, w'.nodes j = some m → ∃ m', w.nodes j = some m' ∧ m'.data = m.data := by
    intro j m hm
    exact live_of (f := Node.data) (g := Node.data) (hd j).symm hm
  obtain ⟨m, hm, e⟩ := back i n hn
  have et : m.type = n.type := Node.data_type e
  have er : m.attrRO = n.attrRO := by have := congrArg Node.attrRO e; exact this
  refine ⟨m, hm, ?_⟩
  rw [et, er]
  rcases hc with h1 | h1 | h1 | ⟨h1, j, k, h2, h3, h4⟩
  · exact .inl h1
  · exact .inr (.inl h1)
  · exact .inr (.inr (.inl h1))
  · obtain ⟨k', hk', e'⟩ := back j k h3
    exact .inr (.inr (.inr ⟨h1, j, k', (h j).1 h2, hk', by rw [Node.data_type e']; exact h4⟩))

/-- What has to hold for the children of `x` to be moved to `q`: no Document and nothing read-only is involved, `q` is of the same document, is not in
the subtree of a child of `x`, and takes nodes of their types. -/
structure Movable (w : World) (x q : NodeId) (cs : List NodeId) : Prop where
  source : ∃ xn, w.nodes x = some xn ∧ xn.type ≠ .document
  target : ∃ qn, w.nodes q = some qn ∧ qn.type ≠ .document
  sameDoc : (w.nodes x).map Node.owner = (w.nodes q).map Node.owner
  open_ : ¬ ReadOnly w x ∧ ¬ ReadOnly w q
  outside : ∀ c ∈ cs, ¬ AncSelf w q c
  types : ∀ c ∈ cs, ∀ cn qn, w.nodes c = some cn → w.nodes q = some qn → MayContain qn.type cn.type

theorem Movable.moved {cs : List NodeId} (hm : Movable w x q (c :: cs)) (hW : WF w ch) (hc : c ∈ ch x) (h : Moved w ch c q r w' ch') : Movable w' x q cs := by
  have hpar : ∀ j, j ≠ c → (w'.nodes j).map Node.parent = (w.nodes j).map Node.parent := by
    intro j hj; rw [h.parents j]; simp [hj]
  have ax : ¬ AncSelf w x c := by
    intro ha
    obtain ⟨cn, hcn, _, hp⟩ := hW.linked.alive_child hc
    exact transGen_irrefl hW.wf x (Relation.TransGen.tail' ha ⟨cn, hcn, hp⟩)
  have aq : ¬ AncSelf w q c := hm.outside c (by simp)
  obtain ⟨xn, hx, hxt⟩ := hm.source
  obtain ⟨qn, hq, hqt⟩ := hm.target
  obtain ⟨xn', hx', ex⟩ := live_of (f := Node.data) (g := Node.data) (h.data x) hx
  obtain ⟨qn', hq', eq⟩ := live_of (f := Node.data) (g := Node.data) (h.data q) hq
  refine ⟨⟨xn', hx', by rw [Node.data_type ex]; exact hxt⟩, ⟨qn', hq', by rw [Node.data_type eq]; exact hqt⟩, by rw [h.owner, h.owner]; exact hm.sameDoc,
    ⟨readOnly_moved h.data (fun j => anc_moved hpar ax j) hm.open_.1, readOnly_moved h.data (fun j => anc_moved hpar aq j) hm.open_.2⟩, ?_, ?_⟩
  · intro d hd ha
    exact hm.outside d (by simp [hd]) ((anc_moved hpar aq d).1 ha)
  · intro d hd dn qn2 hdn hqn2
    rw [hq'] at hqn2; cases hqn2
    obtain ⟨dm, hdm, ed⟩ := live_of (f := Node.data) (g := Node.data) (h.data d).symm hdn
    have := hm.types d (by simp [hd]) dm qn hdm hq
    rw [Node.data_type ed, ← Node.data_type eq] at this
    exact this

theorem u32_room {k : Nat} (h : k + 1 < 4294967296) : u32 (k + 1) = k + 1 := u32_small h

/-- One round of the loop: the child moves to the end of `q`; the reference taken by `dom_node_get_first_child` is given back. -/
theorem reparentOne_run {cs : List NodeId} (hW : WF w ch) (hm : Movable w x q (c :: cs)) (hc : c ∈ ch x) (hcn : w.nodes c = some cn) (h0 : 0 < cn.refcnt)
    (hov : cn.refcnt + 1 < 4294967296) :
    ∃ w' ch', reparentOne x q c w = .ok w' .done ∧ Moved w ch c q (cn.refcnt - 1) w' ch' := by
  obtain ⟨xn, hx, hxt⟩ := hm.source
  obtain ⟨qn, hq, hqt⟩ := hm.target
  obtain ⟨cn', hcn', hca, hcp⟩ := hW.linked.alive_child hc
  rw [hcn] at hcn'; cases hcn'
  have aq : ¬ AncSelf w q c := hm.outside c (by simp)
  have href : removeRefusal w ch x c xn cn = none := by
    unfold removeRefusal
    rw [if_neg (fun h => hxt h.1), if_neg (by simpa using hc), if_neg hm.open_.1]
  obtain ⟨w1, ch1, h1, R⟩ := removeChild_ok hW hx hcn (fun h => absurd h hca) href
  obtain ⟨c1, hc1, e1⟩ := live_of (f := Node.refcnt) (R.refs c) hcn
  obtain ⟨c1', hc1', p1⟩ := live_of (f := Node.parent) (R.parents c) hcn
  rw [hc1] at hc1'; cases hc1'
  obtain ⟨c1', hc1', o1⟩ := live_of (f := Node.owner) (R.owner c) hcn
  rw [hc1] at hc1'; cases hc1'
  obtain ⟨c1', hc1', d1⟩ := live_of (f := Node.data) (g := Node.data) (R.data c) hcn
  rw [hc1] at hc1'; cases hc1'
  simp only [if_true] at e1 p1
  rw [u32_room hov] at e1
  have hu1 : unref c w1 = .ok (w1.upd c { c1 with refcnt := c1.refcnt - 1 }) () := unref_keep hc1 (by omega) (.inl (by omega))
  obtain ⟨w2, hw2⟩ : ∃ w2, w2 = w1.upd c { c1 with refcnt := c1.refcnt - 1 } := ⟨_, rfl⟩
  rw [← hw2] at hu1
  have hW2 : WF w2 ch1 := by rw [hw2]; exact WF_refs R.wf hc1 _
  have D2 : ∀ j, (w2.nodes j).map Node.data = (w.nodes j).map Node.data := by
    intro j; rw [hw2, upd_map _ hc1 (c1.refcnt - 1) (fun _ _ => rfl), R.data]
  have O2 : ∀ j, (w2.nodes j).map Node.owner = (w.nodes j).map Node.owner := by
    intro j; rw [hw2, upd_map _ hc1 (c1.refcnt - 1) (fun _ _ => rfl), R.owner]
  have P2 : ∀ j, (w2.nodes j).map Node.parent = (w.nodes j).map fun n => if j = c then none else n.parent := by
    intro j; rw [hw2, upd_map _ hc1 (c1.refcnt - 1) (fun _ _ => rfl), R.parents]
  have F2 : ∀ j, (w2.nodes j).map Node.refcnt = (w.nodes j).map Node.refcnt := by
    intro j; rw [hw2, upd_refs hc1]
    by_cases hj : j = c
    · subst hj; rw [hc1, hcn]; simp only [Option.map_some, if_true]; rw [e1]; rfl
    · simp only [hj, if_false]
      have := R.refs j
      simpa only [hj, if_false] using this
  obtain ⟨c2, hc2, d2⟩ := live_of (f := Node.data) (g := Node.data) (D2 c) hcn
  obtain ⟨c2', hc2', p2⟩ := live_of (f := Node.parent) (P2 c) hcn
  rw [hc2] at hc2'; cases hc2'
  obtain ⟨c2', hc2', o2⟩ := live_of (f := Node.owner) (O2 c) hcn
  rw [hc2] at hc2'; cases hc2'
  obtain ⟨c2', hc2', f2⟩ := live_of (f := Node.refcnt) (F2 c) hcn
  rw [hc2] at hc2'; cases hc2'
  obtain ⟨q2, hq2, dq⟩ := live_of (f := Node.data) (g := Node.data) (D2 q) hq
  obtain ⟨q2', hq2', oq⟩ := live_of (f := Node.owner) (O2 q) hq
  rw [hq2] at hq2'; cases hq2'
  simp only [if_true] at p2
  have hpar : ∀ j, j ≠ c → (w2.nodes j).map Node.parent = (w.nodes j).map Node.parent := by
    intro j hj; rw [P2 j]; simp [hj]
  have hown : cn.owner = qn.owner := by
    have h1 := hW.ownSame c cn x xn hcn hcp hx
    have h2 := hm.sameDoc
    rw [hx, hq] at h2
    simp only [Option.map_some, Option.some.injEq] at h2
    rw [h1, h2]
  have hmay := hm.types c (by simp) cn qn hcn hq
  have hnf : c2.type ≠ .fragment := by
    rw [Node.data_type d2]
    have := hmay.child
    intro h; rw [h] at this; simp at this
  have hins := (C20_insert_decision hW2 hq2 hc2 (r := none) (by simp) (by simp) (fun h => absurd h hnf)).2 (by
    refine ⟨.inl (by rw [o2, oq, hown]), readOnly_moved D2 (fun j => anc_moved hpar aq j) hm.open_.2, by simp, fun h => aq ((anc_moved hpar aq c).1 h), ?_,
      by rw [p2]; simp⟩
    rw [if_neg hnf]
    intro d hd
    rw [List.mem_singleton] at hd
    subst hd
    refine ⟨q2, c2, hq2, hc2, by rw [Node.data_type d2, Node.data_type dq]; exact hmay, fun h => absurd h (by rw [Node.data_type dq]; exact hqt)⟩)
  obtain ⟨w3, res, hres⟩ := hins
  obtain ⟨ch3, I⟩ : ∃ ch3, res = c ∧ Inserted w2 ch1 q c c2 q2 none w3 ch3 := by
    rcases insertBefore_total hW2 hq2 hc2 (r := none) (by simp) with ⟨e, h⟩ | ⟨h, _⟩ | ⟨w', ch', h, I, _⟩ | ⟨h, _⟩ | ⟨h, _⟩
    · rw [hres] at h; cases h
    · cases h
    · rw [hres] at h; cases h; exact ⟨ch', rfl, I⟩
    · exact absurd h hnf
    · exact absurd h hnf
  obtain ⟨rfl, I⟩ := I
  have hmem : res ∈ ch3 q := by
    obtain ⟨a, b, _, _, h⟩ := I.here
    rw [h]; unfold moved; simp [hnf]
  obtain ⟨c3, hc3, hca3, hp3⟩ := I.wf.linked.alive_child hmem
  obtain ⟨c3', hc3', f3⟩ := live_of (f := Node.refcnt) (I.refs res) hc2
  rw [hc3] at hc3'; cases hc3'
  simp only [if_true] at f3
  rw [f2, u32_room hov] at f3
  have hu2 : unref res w3 = .ok (w3.upd res { c3 with refcnt := c3.refcnt - 1 }) () := unref_keep hc3 (by omega) (.inl (by omega))
  have hu3 : unref res (w3.upd res { c3 with refcnt := c3.refcnt - 1 }) = .ok (w3.upd res { c3 with refcnt := cn.refcnt - 1 }) () := by
    rw [unref_keep (n := { c3 with refcnt := c3.refcnt - 1 }) (upd_same _ _ _) (by show 0 < c3.refcnt - 1; omega) (.inr (by show c3.parent ≠ none; rw [hp3]; simp)),
      upd_upd]
    have : c3.refcnt - 1 - 1 = cn.refcnt - 1 := by omega
    simp only [this]
  refine ⟨w3.upd res { c3 with refcnt := cn.refcnt - 1 }, ch3, ?_, ?_⟩
  · unfold reparentOne orDrop
    rw [bind_ok h1, bind_ok hu1, show Tree.appendChild q res = insertBefore q res none from rfl, bind_ok hres, bind_ok hu2, bind_ok hu3]
    rfl
  · have L : ∀ p, ch3 p = (ch p).filter (· ≠ res) ++ (if p = q then [res] else []) := by
      intro p
      by_cases hp : p = q
      · subst hp
        obtain ⟨a, b, h1, h2, h3⟩ := I.here
        have hb : b = [] := by simpa using h2
        subst hb
        rw [h3, if_pos rfl, ← List.append_nil a, ← h1, R.lists, List.filter_filter]
        unfold moved
        simp [hnf]
      · rw [I.elsewhere p hp, if_neg (fun h => hnf h.2), R.lists, List.filter_filter, if_neg hp]
        simp
    refine ⟨WF_refs I.wf hc3 _, L, ?_, ?_, ?_, ?_, ?_, ?_⟩
    · intro j; rw [upd_map _ hc3 (cn.refcnt - 1) (fun _ _ => rfl), I.data, D2]
    · intro j; rw [upd_map _ hc3 (cn.refcnt - 1) (fun _ _ => rfl), I.owner, ← O2]
      congr 1; funext n; rw [if_neg (fun h => absurd h.2.1 (by rw [Node.data_type dq]; exact hqt))]
    · intro j; rw [upd_refs hc3]
      by_cases hj : j = res
      · subst hj; rw [hc3, hcn]; simp
      · simp only [hj, if_false]
        have h := I.refs j
        simp only [hj, if_false] at h
        rw [← F2]; exact h
    · intro j; rw [upd_map _ hc3 (cn.refcnt - 1) (fun _ _ => rfl)]
      by_cases hj : j = res
      · subst hj; rw [hc3, hcn]; simp [hp3]
      · simp only [hj, if_false]
        cases hw : w.nodes j with
        | none =>
          have h := I.data j
          rw [D2 j, hw] at h
          cases h3 : w3.nodes j with
          | none => rfl
          | some n => rw [h3] at h; cases h
        | some n =>
          obtain ⟨n3, hn3, d3⟩ := live_of (f := Node.data) (g := Node.data) ((I.data j).trans (D2 j)) hw
          rw [hn3]
          simp only [Option.map_some, Option.some.injEq]
          by_cases ha : n.type = .attribute
          · obtain ⟨n2, hn2, e2⟩ := live_of (f := Node.parent) (P2 j) hw
            obtain ⟨n2', hn2', t2⟩ := live_of (f := Node.data) (g := Node.data) (D2 j) hw
            rw [hn2] at hn2'; cases hn2'
            obtain ⟨n3', hn3', e3⟩ := I.attrs j n2 hn2 (by rw [Node.data_type t2]; exact ha)
            rw [hn3] at hn3'; cases hn3'
            rw [e3, e2]; simp [hj]
          · have h3a : n3.type ≠ .attribute := by rw [Node.data_type d3]; exact ha
            apply Option.ext
            intro p
            show n3.parent = some p ↔ n.parent = some p
            rw [child_iff I.wf.linked hn3 (fun h => absurd h h3a), child_iff hW.linked hw (fun h => absurd h ha), L p]
            simp only [List.mem_append, List.mem_filter]
            have : j ∉ (if p = q then [res] else []) := by split <;> simp [hj]
            simp [this, hj]
    · show w3.fresh = w.fresh
      rw [I.fresh, hw2]; exact R.fresh
    · intro j n hn ht
      have hjr : j ≠ res := by
        rintro rfl
        rw [hcn] at hn; cases hn
        exact hnf (by rw [Node.data_type d2]; exact ht)
      obtain ⟨n1, k1, k2⟩ := R.pend j n hn ht
      have k3 : w2.nodes j = some n1 := by rw [hw2, upd_ne _ _ hjr]; exact k1
      obtain ⟨n1', k4, k5⟩ := live_of (f := Node.data) (g := Node.data) (D2 j) hn
      rw [k3] at k4; cases k4
      obtain ⟨n3, k6, k7⟩ := I.pend j n1 k3 (by rw [Node.data_type k5]; exact ht) hjr
      exact ⟨n3, by rw [upd_ne _ _ hjr]; exact k6, k7.trans k2⟩

theorem Movable.same {cs : List NodeId} (hm : Movable w x q cs) (hd : ∀ j, (w'.nodes j).map Node.data = (w.nodes j).map Node.data)
    (ho : ∀ j, (w'.nodes j).map Node.owner = (w.nodes j).map Node.owner) (hp : ∀ j, (w'.nodes j).map Node.parent = (w.nodes j).map Node.parent) :
    Movable w' x q cs := by
  have hstep : ∀ a b, ParentOf w' a b ↔ ParentOf w a b := by
    intro a b
    have h1 := hp a
    unfold ParentOf
    cases e1 : w'.nodes a <;> cases e2 : w.nodes a <;> rw [e1, e2] at h1 <;> simp_all
  have hanc : ∀ i j, AncSelf w' i j ↔ AncSelf w i j := by
    intro i j
    have : ParentOf w' = ParentOf w := by funext a b; exact propext (hstep a b)
    unfold AncSelf; rw [this]
  obtain ⟨xn, hx, hxt⟩ := hm.source
  obtain ⟨qn, hq, hqt⟩ := hm.target
  obtain ⟨xn', hx', ex⟩ := live_of (f := Node.data) (g := Node.data) (hd x) hx
  obtain ⟨qn', hq', eq⟩ := live_of (f := Node.data) (g := Node.data) (hd q) hq
  refine ⟨⟨xn', hx', by rw [Node.data_type ex]; exact hxt⟩, ⟨qn', hq', by rw [Node.data_type eq]; exact hqt⟩, by rw [ho, ho]; exact hm.sameDoc,
    ⟨readOnly_moved hd (hanc x) hm.open_.1, readOnly_moved hd (hanc q) hm.open_.2⟩, fun c hc h => hm.outside c hc ((hanc q c).1 h), ?_⟩
  intro d hdm dn qn2 hdn hqn2
  rw [hq'] at hqn2; cases hqn2
  obtain ⟨dm, hdm', ed⟩ := live_of (f := Node.data) (g := Node.data) (hd d).symm hdn
  have := hm.types d hdm dm qn hdm' hq
  rw [Node.data_type ed, ← Node.data_type eq] at this
  exact this

/-- A round including `dom_node_get_first_child`: all reference counts are as before. -/
theorem reparentRound_run {cs : List NodeId} (hW : WF w ch) (hm : Movable w x q (c :: cs)) (hc : ch x = c :: cs) (hcn : w.nodes c = some cn)
    (hov : cn.refcnt + 2 < 4294967296) :
    ∃ w1 w' ch', visit .first x w = .ok w1 (some c) ∧ reparentOne x q c w1 = .ok w' .done ∧ Moved w ch c q cn.refcnt w' ch' := by
  obtain ⟨xn, hx, hxt⟩ := hm.source
  have hcm : c ∈ ch x := by rw [hc]; simp
  have hfirst : xn.first = some c := by
    obtain ⟨m, hm, h1, _⟩ := (hW.linked.loc x xn hx).ends
    rw [hx] at hm; cases hm
    rw [h1, hc]; rfl
  have hv : visit .first x w = .ok (w.upd c { cn with refcnt := cn.refcnt + 1 }) (some c) := by
    unfold visit
    rw [get_bind hx]
    show (match xn.first with | none => (pure none : M (Option NodeId)) | some y => do ref y; pure (some y)) w = _
    rw [hfirst]
    dsimp only
    unfold ref
    rw [mod_bind hcn]
    rw [u32_small (by omega)]
    rfl
  have hn1 : (w.upd c { cn with refcnt := cn.refcnt + 1 }).nodes c = some { cn with refcnt := cn.refcnt + 1 } := upd_same _ _ _
  obtain ⟨w', ch', h1, h2⟩ := reparentOne_run (WF_refs hW hcn (cn.refcnt + 1)) (hm.same (upd_map _ hcn _ fun _ _ => rfl) (upd_map _ hcn _ fun _ _ => rfl)
    (upd_map _ hcn _ fun _ _ => rfl)) hcm hn1 (Nat.succ_pos _) (by show cn.refcnt + 1 + 1 < _; omega)
  refine ⟨_, w', ch', hv, h1, h2.wf, h2.lists, ?_, ?_, ?_, ?_, h2.fresh, ?_⟩
  · intro j; rw [h2.data, upd_map _ hcn _ fun _ _ => rfl]
  · intro j; rw [h2.owner, upd_map _ hcn _ fun _ _ => rfl]
  · intro j
    rw [h2.refs j]
    by_cases hj : j = c
    · subst hj; rw [hn1, hcn]; simp
    · rw [upd_ne _ _ hj]; simp [hj]
  · intro j
    rw [h2.parents j]
    by_cases hj : j = c
    · subst hj; rw [hn1, hcn]; rfl
    · rw [upd_ne _ _ hj]
  · intro j n hn ht
    have hjc : j ≠ c := by
      rintro rfl
      rw [hcn] at hn; cases hn
      have := (hm.types j (by simp) cn _ hcn hm.target.choose_spec.1).child
      rw [ht] at this; simp at this
    exact h2.pend j n (by rw [upd_ne _ _ hjc]; exact hn) ht

/-- The nodes `cs` are now the last children of `q`, in this order; everything else is as before. -/
structure AllMoved (w : World) (ch : Children) (x q : NodeId) (cs : List NodeId) (w' : World) (ch' : Children) : Prop where
  wf : WF w' ch'
  emptied : ch' x = []
  filled : ch' q = ch q ++ cs
  others : ∀ p, p ≠ x → p ≠ q → ch' p = ch p
  data : ∀ j, (w'.nodes j).map Node.data = (w.nodes j).map Node.data
  owner : ∀ j, (w'.nodes j).map Node.owner = (w.nodes j).map Node.owner
  refs : ∀ j, (w'.nodes j).map Node.refcnt = (w.nodes j).map Node.refcnt
  parents : ∀ j, (w'.nodes j).map Node.parent = (w.nodes j).map fun n => if j ∈ cs then some q else n.parent
  pend : ∀ j n, w.nodes j = some n → n.type = .fragment → ∃ n', w'.nodes j = some n' ∧ n'.pendingIn = n.pendingIn

theorem not_mem_other (hW : WF w ch) (hc : c ∈ ch x) {p : NodeId} (hp : p ≠ x) : (ch p).filter (· ≠ c) = ch p := by
  rw [List.filter_eq_self]
  intro d hd
  simp only [ne_eq, decide_not, Bool.not_eq_eq_eq_not, Bool.not_true, decide_eq_false_iff_not]
  rintro rfl
  obtain ⟨n, hn, _, h1⟩ := hW.linked.alive_child hc
  obtain ⟨m, hm, _, h2⟩ := hW.linked.alive_child hd
  rw [hn] at hm; cases hm
  rw [h1] at h2; exact hp (Option.some.inj h2).symm

theorem reparentLoop_run (hne : x ≠ q) : ∀ (cs : List NodeId) (w : World) (ch : Children) (fuel : Nat), WF w ch → Movable w x q cs → ch x = cs →
    (∀ c ∈ cs, ∀ n, w.nodes c = some n → n.refcnt + 2 < 4294967296) → cs.length ≤ fuel →
    ∃ w' ch', reparentLoop fuel x q w = .ok w' .done ∧ AllMoved w ch x q cs w' ch' := by
  intro cs
  induction cs with
  | nil =>
    intro w ch fuel hW hm hc _ _
    obtain ⟨xn, hx, _⟩ := hm.source
    have hfirst : xn.first = none := by
      obtain ⟨m, hm, h1, _⟩ := (hW.linked.loc x xn hx).ends
      rw [hx] at hm; cases hm
      rw [h1, hc]; rfl
    have hv : visit .first x w = .ok w none := by
      unfold visit
      rw [get_bind hx]
      show (match xn.first with | none => (pure none : M (Option NodeId)) | some y => do ref y; pure (some y)) w = _
      rw [hfirst]; rfl
    refine ⟨w, ch, ?_, hW, hc, by simp, fun _ _ _ => rfl, fun _ => rfl, fun _ => rfl, fun _ => rfl, fun _ => by simp, fun j n h _ => ⟨n, h, rfl⟩⟩
    unfold reparentLoop
    rw [bind_ok hv]
    rfl
  | cons c cs ih =>
    intro w ch fuel hW hm hc hov hf
    cases fuel with
    | zero => simp at hf
    | succ fuel =>
      have hcm : c ∈ ch x := by rw [hc]; simp
      obtain ⟨cn, hcn, _⟩ := hW.linked.alive_child hcm
      obtain ⟨w1, w2, ch2, h1, h2, h3⟩ := reparentRound_run hW hm hc hcn (hov c (by simp) cn hcn)
      have hcn' : c ∉ cs := by
        obtain ⟨xn, hx, _⟩ := hm.source
        have := (hW.linked.loc x xn hx).nodup
        rw [hc] at this
        exact (List.nodup_cons.1 this).1
      have hfc : cs.filter (· ≠ c) = cs := by
        rw [List.filter_eq_self]
        intro d hd
        simp only [ne_eq, decide_not, Bool.not_eq_eq_eq_not, Bool.not_true, decide_eq_false_iff_not]
        rintro rfl; exact hcn' hd
      have hx2 : ch2 x = cs := by
        rw [h3.lists, hc, if_neg hne, List.append_nil, List.filter_cons]
        simp only [ne_eq, not_true_eq_false, decide_false, Bool.false_eq_true, if_false]
        exact hfc
      obtain ⟨w3, ch3, h4, h5⟩ := ih w2 ch2 fuel h3.wf (hm.moved hW hcm h3) hx2 (by
        intro d hd n hn
        obtain ⟨m, hm, e⟩ := live_of (f := _) (g := Node.refcnt) (h3.refs d).symm hn
        have hdc : d ≠ c := by rintro rfl; exact hcn' hd
        simp only [hdc, if_false] at e
        have := hov d (by simp [hd]) m hm
        omega) (by simpa using hf)
      refine ⟨w3, ch3, ?_, h5.wf, h5.emptied, ?_, ?_, ?_, ?_, ?_, ?_, ?_⟩
      · unfold reparentLoop
        rw [bind_ok h1]
        show (reparentOne x q c >>= _) w1 = _
        rw [bind_ok h2]
        exact h4
      · rw [h5.filled, h3.lists, if_pos rfl, not_mem_other hW hcm (Ne.symm hne)]
        simp
      · intro p hp hq
        rw [h5.others p hp hq, h3.lists, if_neg hq, not_mem_other hW hcm hp, List.append_nil]
      · intro j; rw [h5.data, h3.data]
      · intro j; rw [h5.owner, h3.owner]
      · intro j
        rw [h5.refs, h3.refs]
        by_cases hj : j = c
        · subst hj; rw [hcn]; simp
        · simp [hj]
      · intro j
        rw [h5.parents]
        have e := h3.parents j
        cases hw2 : w2.nodes j with
        | none =>
          rw [hw2] at e
          cases hw : w.nodes j with
          | none => rfl
          | some n => rw [hw] at e; cases e
        | some n2 =>
          rw [hw2] at e
          cases hw : w.nodes j with
          | none => rw [hw] at e; cases e
          | some n =>
            rw [hw] at e
            simp only [Option.map_some, Option.some.injEq] at e ⊢
            rw [e]
            by_cases hj : j = c
            · simp [hj]
            · simp [hj]
      · intro j n hn ht
        obtain ⟨n2, k1, k2⟩ := h3.pend j n hn ht
        obtain ⟨n2', k3, k4⟩ := live_of (f := Node.data) (g := Node.data) (h3.data j) hn
        rw [k1] at k3; cases k3
        obtain ⟨n3, k5, k6⟩ := h5.pend j n2 k1 (by rw [Node.data_type k4]; exact ht)
        exact ⟨n3, k5, k6.trans k2⟩

/-- C64, `reparent_children`.  The children of `x` become the last children of `q`, in their order; no other child list, no datum, no owner and no
reference count changes. -/
theorem C64_reparent (hW : WF w ch) (hne : x ≠ q) (hm : Movable w x q (ch x)) (hov : ∀ c ∈ ch x, ∀ n, w.nodes c = some n → n.refcnt + 2 < 2 ^ 32) :
    ∃ w' ch', reparentChildren x q w = .ok w' .done ∧ WF w' ch' ∧ ch' x = [] ∧ ch' q = ch q ++ ch x ∧ (∀ p, p ≠ x → p ≠ q → ch' p = ch p) ∧
      (∀ j, (w'.nodes j).map Node.data = (w.nodes j).map Node.data) ∧ (∀ j, (w'.nodes j).map Node.owner = (w.nodes j).map Node.owner) ∧
      (∀ j, (w'.nodes j).map Node.refcnt = (w.nodes j).map Node.refcnt) := by
  obtain ⟨w', ch', h1, h2⟩ := reparentLoop_run hne (ch x) w ch (w.fresh + 1) hW hm rfl hov (Nat.le_succ_of_le (child_length_le hW.toCore x))
  refine ⟨w', ch', ?_, h2.wf, h2.emptied, h2.filled, h2.others, h2.data, h2.owner, h2.refs⟩
  unfold reparentChildren
  rw [bound_bind]
  exact h1

/-- C64: when the children cannot be taken away (the node is read-only, or a Document whose first child is a doctype or an element), the callback reports
the failure and nothing has changed; the reference taken on the first child is given back. -/
theorem C64_reparent_refused {xn : Node} {cs : List NodeId} (hW : WF w ch) (hx : w.nodes x = some xn) (hc : ch x = c :: cs) (hcn : w.nodes c = some cn)
    (hov : cn.refcnt + 1 < 2 ^ 32) (hre : ReadOnly w x ∨ (xn.type = .document ∧ (cn.type = .doctype ∨ cn.type = .element))) (q : NodeId) :
    reparentChildren x q w = .ok w .failed := by
  have hcm : c ∈ ch x := by rw [hc]; simp
  obtain ⟨m, hm, hna, hcp⟩ := hW.linked.alive_child hcm
  rw [hcn] at hm; cases hm
  have hxc : x ≠ c := by
    rintro rfl
    exact transGen_irrefl hW.wf x (.single ⟨cn, hcn, hcp⟩)
  have hfirst : xn.first = some c := by
    obtain ⟨m, hm, h1, _⟩ := (hW.linked.loc x xn hx).ends
    rw [hx] at hm; cases hm
    rw [h1, hc]; rfl
  have hv : visit .first x w = .ok (w.upd c { cn with refcnt := cn.refcnt + 1 }) (some c) := by
    unfold visit
    rw [get_bind hx]
    show (match xn.first with | none => (pure none : M (Option NodeId)) | some y => do ref y; pure (some y)) w = _
    rw [hfirst]
    dsimp only
    unfold ref
    rw [mod_bind hcn]
    rw [u32_small (by omega)]
    rfl
  have hW1 := WF_refs hW hcn (cn.refcnt + 1)
  have hn1 : (w.upd c { cn with refcnt := cn.refcnt + 1 }).nodes c = some { cn with refcnt := cn.refcnt + 1 } := upd_same _ _ _
  have hx1 : (w.upd c { cn with refcnt := cn.refcnt + 1 }).nodes x = some xn := by rw [upd_ne _ _ hxc]; exact hx
  have hr : ∃ e, removeChild x c (w.upd c { cn with refcnt := cn.refcnt + 1 }) = .exc (w.upd c { cn with refcnt := cn.refcnt + 1 }) e := by
    cases he : removeRefusal (w.upd c { cn with refcnt := cn.refcnt + 1 }) ch x c xn { cn with refcnt := cn.refcnt + 1 } with
    | some e => exact ⟨e, removeChild_refused hW1 hx1 hn1 (fun h => absurd h hna) he⟩
    | none =>
      exfalso
      have hok := removeChild_ok hW1 hx1 hn1 (fun h => absurd h hna) he
      obtain ⟨w1, ch1, h1, _⟩ := hok
      obtain ⟨_, h2, h3⟩ := (C21_remove_decision hW1 hx1 hn1 (fun h => absurd h hna)).1 ⟨_, _, h1⟩
      rcases hre with hre | hre
      · refine readOnly_moved (w := w.upd c { cn with refcnt := cn.refcnt + 1 }) (w' := w) (i := x) (fun j => (upd_map _ hcn _ (fun _ _ => rfl) j).symm)
          (fun j => ?_) h2 hre
        have hp : ParentOf w = ParentOf (w.upd c { cn with refcnt := cn.refcnt + 1 }) := by
          funext a b
          have h1 := upd_map Node.parent hcn (cn.refcnt + 1) (fun _ _ => rfl) a
          unfold ParentOf
          cases e1 : (w.upd c { cn with refcnt := cn.refcnt + 1 }).nodes a <;> cases e2 : w.nodes a <;> rw [e1, e2] at h1 <;> simp_all
        unfold AncSelf
        rw [hp]
      · exact h3 hre
  obtain ⟨e, hr⟩ := hr
  have hu := unref_keep hn1 (Nat.succ_pos _) (.inr (show cn.parent ≠ none by rw [hcp]; simp))
  rw [upd_upd] at hu
  have hback : w.upd c { cn with refcnt := cn.refcnt + 1 - 1 } = w := by
    rw [Nat.add_sub_cancel]
    simp only [World.upd]
    have : (fun j => if j = c then some cn else w.nodes j) = w.nodes := by
      funext j; split
      · rename_i h; rw [h, hcn]
      · rfl
    rw [this]
  have hone : reparentOne x q c (w.upd c { cn with refcnt := cn.refcnt + 1 }) = .ok w .failed := by
    unfold reparentOne orDrop
    rw [bind_exc hr]
    show (unref c >>= fun _ => pure Hub.failed) (w.upd c { cn with refcnt := cn.refcnt + 1 }) = _
    rw [bind_ok hu]
    show Tree.Res.ok (w.upd c { cn with refcnt := cn.refcnt + 1 - 1 }) _ = _
    rw [hback]
  unfold reparentChildren
  rw [bound_bind]
  unfold reparentLoop
  rw [bind_ok hv]
  dsimp only
  rw [bind_ok hone]
  rfl

/-- A node that is neither a Document nor read-only can take its own children again. -/
theorem movable_self (hW : WF w ch) (hx : w.nodes x = some xn) (ht : xn.type ≠ .document) (hro : ¬ ReadOnly w x) : Movable w x x (ch x) := by
  refine ⟨⟨xn, hx, ht⟩, ⟨xn, hx, ht⟩, rfl, ⟨hro, hro⟩, ?_, ?_⟩
  · intro c hc ha
    obtain ⟨cn, hcn, _, hp⟩ := hW.linked.alive_child hc
    exact transGen_irrefl hW.wf x (Relation.TransGen.tail' ha ⟨cn, hcn, hp⟩)
  · intro c hc cn qn hcn hqn
    exact hW.types x qn c cn hqn hc hcn

/-- C64 is false of the code when the two nodes are the same: moving the children of a node to that node never ends, whatever number of rounds is
allowed (bindings/hubbub/parser.c:433-462: each round puts the first child last, so there is always a first child). -/
theorem C64_reparent_self_violated (fuel : Nat) : ∀ (w : World) (ch : Children) (xn : Node), WF w ch → w.nodes x = some xn → xn.type ≠ .document →
    ¬ ReadOnly w x → ch x ≠ [] → (∀ c ∈ ch x, ∀ n, w.nodes c = some n → n.refcnt + 2 < 2 ^ 32) → reparentLoop fuel x x w = .fault .diverge := by
  induction fuel with
  | zero =>
    intro w ch xn hW hx ht hro hc hov
    cases hcs : ch x with
    | nil => exact absurd hcs hc
    | cons c cs =>
      obtain ⟨cn, hcn, _⟩ := hW.linked.alive_child (show c ∈ ch x by rw [hcs]; simp)
      have hm := movable_self hW hx ht hro
      rw [hcs] at hm
      obtain ⟨w1, w2, ch2, h1, h2, h3⟩ := reparentRound_run hW hm hcs hcn (hov c (by rw [hcs]; simp) cn hcn)
      unfold reparentLoop
      rw [bind_ok h1]
      rfl
  | succ fuel ih =>
    intro w ch xn hW hx ht hro hc hov
    cases hcs : ch x with
    | nil => exact absurd hcs hc
    | cons c cs =>
      have hcm : c ∈ ch x := by rw [hcs]; simp
      obtain ⟨cn, hcn, _⟩ := hW.linked.alive_child hcm
      have hm := movable_self hW hx ht hro
      rw [hcs] at hm
      obtain ⟨w1, w2, ch2, h1, h2, h3⟩ := reparentRound_run hW hm hcs hcn (hov c hcm cn hcn)
      have hm2 := hm.moved hW hcm h3
      obtain ⟨xn2, hx2, ht2⟩ := hm2.source
      unfold reparentLoop
      rw [bind_ok h1]
      show (reparentOne x x c >>= _) w1 = _
      rw [bind_ok h2]
      refine ih w2 ch2 xn2 h3.wf hx2 ht2 hm2.open_.1 (by rw [h3.lists]; simp) ?_
      intro d hd n hn
      obtain ⟨m, hm, e⟩ := live_of (f := _) (g := Node.refcnt) (h3.refs d).symm hn
      by_cases hdc : d = c
      · subst hdc
        simp only [if_true] at e
        have := hov d hcm cn hcn
        omega
      · simp only [hdc, if_false] at e
        rw [h3.lists] at hd
        simp only [List.mem_append, List.mem_filter] at hd
        have hdx : d ∈ ch x := by
          rcases hd with h | h
          · exact h.1
          · simp [hdc] at h
        have := hov d hdx m hm
        omega

/-- C64, `append_child` with a text for a parent that ends with a text.  The text of the child, which has no parent, is added to the text that is there;
the child stays without parent, nothing is returned, and nothing else changes. -/
theorem C64_append_text_partial {p l : NodeId} {pn ln : Node} {s d : Str.DStr} {cs ss : List Char} (hW : WF w ch) (hp : w.nodes p = some pn) (hc : w.nodes c = some cn)
    (hct : cn.type = .text) (hcp : cn.parent = none) (hl : pn.last = some l) (hln : w.nodes l = some ln) (hlt : ln.type = .text) (hro : ¬ ReadOnly w l)
    (hlv : ln.value = some s) (hcv : cn.value = some d) (hs : Str.Holds s cs) (hd : Str.Holds d ss) (hfit : (Str.utf8 (cs ++ ss)).length < 2 ^ 32) :
    ∃ w' v, appendChild p c w = .ok w' (.done, none) ∧ DataBecomes w l ln (some v) w' ∧ Str.Holds v (cs ++ ss) := by
  have ho : ln.owner ≠ none := by
    rcases hW.owner l ln hln with ⟨d, dn, h, _⟩ | ⟨h, _⟩
    · rw [h]; simp
    · rw [hlt] at h; cases h
  obtain ⟨⟨w', v, h1, h2, h3⟩, _⟩ := C09_append hW hln ho hro hlv hs hd hfit
  refine ⟨w', v, ?_, h2, h3⟩
  have hmt : mergeText l c w = .ok w' () := by
    unfold mergeText
    rw [get_bind hln, hlt]
    show (getNode c >>= _) w = _
    rw [get_bind hc, hct]
    show (wholeText c >>= _) w = _
    rw [bind_ok (C12_orphan hW hc hcp), hcv]
    exact h1
  unfold appendChild
  rw [get_bind hc, get_bind hp]
  have ht : mergeTarget pn cn w = .ok w (some l) := by
    unfold mergeTarget
    rw [if_pos hct, hl]
    dsimp only
    rw [get_bind hln, if_pos hlt]
    rfl
  rw [bind_ok ht]
  unfold reported appendBy
  dsimp only
  rw [bind_ok hmt]
  rfl

/-- Otherwise the binding appends the child. -/
theorem appendChild_plain {p : NodeId} {pn : Node} (hp : w.nodes p = some pn) (hc : w.nodes c = some cn)
    (hplain : ¬ (cn.type = .text ∧ ∃ l ln, pn.last = some l ∧ w.nodes l = some ln ∧ ln.type = .text)) (hW : WF w ch) :
    appendChild p c w = reported (do let r ← Tree.appendChild p c; pure (some r)) w := by
  unfold appendChild
  rw [get_bind hc, get_bind hp]
  have ht : mergeTarget pn cn w = .ok w none := by
    unfold mergeTarget
    by_cases hct : cn.type = .text
    · rw [if_pos hct]
      cases hl : pn.last with
      | none => rfl
      | some l =>
        obtain ⟨m, hm, _, h2⟩ := (hW.linked.loc p pn hp).ends
        rw [hp] at hm; cases hm
        have hlm : l ∈ ch p := by rw [hl] at h2; exact List.mem_of_getLast? h2.symm
        obtain ⟨ln, hln, _⟩ := hW.linked.alive_child hlm
        dsimp only
        rw [get_bind hln, if_neg (fun h => hplain ⟨hct, l, ln, hl, hln, h⟩)]
        rfl
    · rw [if_neg hct]; rfl
  rw [bind_ok ht]
  rfl

/-- C64, `append_child` in all other cases.  It succeeds exactly when the DOM allows the node there; then it returns the node, which stands at the end of
the parent (with a DocumentFragment its children), and nothing else has moved; otherwise it reports an error and the tree is as before. -/
theorem C64_append_node {p : NodeId} {pn : Node} (hW : WF w ch) (hp : w.nodes p = some pn) (hc : w.nodes c = some cn)
    (hplain : ¬ (cn.type = .text ∧ ∃ l ln, pn.last = some l ∧ w.nodes l = some ln ∧ ln.type = .text)) (hnf : cn.type ≠ .fragment) :
    ((cn.owner = pn.owner ∨ (cn.type = .doctype ∧ cn.owner = none)) ∧ ¬ ReadOnly w p ∧ ¬ AncSelf w p c ∧ Permitted w ch p c ∧
      (∀ q, cn.parent = some q → ¬ ReadOnly w q) →
      ∃ w' ch', appendChild p c w = .ok w' (.done, some c) ∧ WF w' ch' ∧ ch' p = (ch p).filter (· ≠ c) ++ [c] ∧
        (∀ q, q ≠ p → ch' q = (ch q).filter (· ≠ c)) ∧ (∀ j, (w'.nodes j).map Node.data = (w.nodes j).map Node.data)) ∧
    (¬ ((cn.owner = pn.owner ∨ (cn.type = .doctype ∧ cn.owner = none)) ∧ ¬ ReadOnly w p ∧ ¬ AncSelf w p c ∧ Permitted w ch p c ∧
      (∀ q, cn.parent = some q → ¬ ReadOnly w q)) → appendChild p c w = .ok w (.failed, none)) := by
  rw [appendChild_plain hp hc hplain hW]
  have dec := C20_insert_decision hW hp hc (r := none) (by simp) (by simp) (fun h => absurd h hnf)
  simp only [if_neg hnf, List.mem_singleton, forall_eq, reduceCtorEq, IsEmpty.forall_iff, implies_true, true_and] at dec
  constructor
  · intro h
    obtain ⟨w', res, h1⟩ := dec.2 h
    obtain ⟨rfl, ch', h2, h3, h4, h5⟩ := C20_append_effect hW hp hc (w' := w') (res := res) h1
    rw [if_neg hnf] at h3
    refine ⟨w', ch', ?_, h2, h3, fun q hq => by rw [h4 q hq, if_neg (fun h => hnf h.2)], h5⟩
    unfold reported
    rw [bind_ok (show Tree.appendChild p res w = .ok w' res from h1)]
    rfl
  · intro h
    rcases insertBefore_total hW hp hc (r := none) (by simp) with ⟨e, h1⟩ | ⟨h1, _⟩ | ⟨w', ch', h1, _, _⟩ | ⟨h1, _⟩ | ⟨h1, _⟩
    · unfold reported
      rw [bind_exc (show Tree.appendChild p c w = .exc w e from h1)]
    · cases h1
    · exact absurd (dec.1 ⟨_, _, h1⟩) h
    · exact absurd h1 hnf
    · exact absurd h1 hnf

/-- C64, `get_parent` for a node that has a parent.  It returns the parent with a reference of its own — except that, with `element_only`, a parent that is
no element is not returned and then nothing changes. -/
theorem C64_get_parent_partial {p : NodeId} {pn : Node} (S : Sound w ch) (hx : w.nodes x = some xn) (hna : xn.type ≠ .attribute) (hxp : xn.parent = some p)
    (hp : w.nodes p = some pn) (hov : pn.refcnt + 1 < 2 ^ 32) (elementOnly : Bool) :
    if elementOnly = true ∧ pn.type ≠ .element then getParent x elementOnly w = .ok w (.done, none)
    else getParent x elementOnly w = .ok (w.upd p { pn with refcnt := pn.refcnt + 1 }) (.done, some p) := by
  have hv : visit .parent x w = .ok (w.upd p { pn with refcnt := pn.refcnt + 1 }) (some p) := by
    unfold visit
    rw [get_bind hx]
    show (match (if xn.type = NodeType.attribute then none else xn.parent) with | none => (pure none : M (Option NodeId)) | some y => do ref y; pure (some y)) w = _
    rw [if_neg hna, hxp]
    dsimp only
    unfold ref
    rw [mod_bind hp, u32_small (by omega)]
    rfl
  have hp1 : (w.upd p { pn with refcnt := pn.refcnt + 1 }).nodes p = some { pn with refcnt := pn.refcnt + 1 } := upd_same _ _ _
  have keep : pn.refcnt + 1 ≠ 1 ∨ pn.parent ≠ none := by
    by_cases h : pn.parent = none
    · left
      by_cases hd : pn.type = .document
      · intro h0
        have hz : pn.refcnt = 0 := by omega
        exact no_children S.wf.toCore hp hd (S.docs p pn hp hd hz).1 hx hxp
      · have := S.held p pn hp h hd
        omega
    · exact .inr h
  unfold getParent
  rw [bind_ok hv]
  cases elementOnly with
  | false => simp only [Bool.false_eq_true, false_and, if_false]; rfl
  | true =>
    simp only [true_and, if_true]
    unfold elementParent
    dsimp only
    rw [get_bind hp1]
    by_cases he : pn.type = .element
    · rw [if_neg (not_not.2 he), if_pos he]; rfl
    · rw [if_pos he, if_neg he, bind_ok (unref_keep hp1 (Nat.succ_pos _) keep), upd_upd]
      have : w.upd p { pn with refcnt := pn.refcnt + 1 - 1 } = w := by
        rw [Nat.add_sub_cancel]
        simp only [World.upd]
        have : (fun j => if j = p then some pn else w.nodes j) = w.nodes := by
          funext j; split
          · rename_i h; rw [h, hp]
          · rfl
        rw [this]
      show Tree.Res.ok (w.upd p { pn with refcnt := pn.refcnt + 1 - 1 }) _ = _
      rw [this]

/-- C64 is false of the code for a node without parent: `get_parent` with `element_only` asks the null pointer for its type
(bindings/hubbub/parser.c:478-490). -/
theorem C64_get_parent_violated (hx : w.nodes x = some xn) (hxp : xn.parent = none) : getParent x true w = .fault .nullDeref := by
  have hv : visit .parent x w = .ok w none := by
    unfold visit
    rw [get_bind hx]
    show (match (if xn.type = NodeType.attribute then none else xn.parent) with | none => (pure none : M (Option NodeId)) | some y => do ref y; pure (some y)) w = _
    rw [hxp, ite_self]
    rfl
  unfold getParent
  rw [bind_ok hv]
  rfl

end Dom.Parse
