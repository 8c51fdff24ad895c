import Verif.Tree.Release
import Verif.Tree.Calls
/-!
# The invariant of reference counts and destruction
-/
namespace Dom.Tree
set_option linter.unusedSimpArgs false

variable {w w' v : World} {ch : Children} {x c j d : NodeId} {n cn dn : Node}

/-! ## Facts about documents and roots -/

theorem doc_parent (hC : Core w ch) (hd : w.nodes d = some dn) (ht : dn.type = .document) : dn.parent = none := by
  cases h : dn.parent with
  | none => rfl
  | some q =>
    have h1 : d ∈ ch q := hC.linked.up d dn q hd (by rw [ht]; simp) h
    obtain ⟨qn, hqn⟩ := hC.linked.alive_parent hd h
    have := hC.types q qn d dn hqn h1 hd
    rw [ht] at this
    exact absurd rfl this.child.2.1

/-- Every node has a root. -/
theorem exists_root (hC : Core w ch) (hx : w.nodes x = some n) : ∃ r rn, AncSelf w x r ∧ w.nodes r = some rn ∧ rn.parent = none := by
  revert n
  induction x using hC.wf.induction with
  | _ x ih =>
    intro n hx
    cases hp : n.parent with
    | none => exact ⟨x, n, .refl, hx, hp⟩
    | some p =>
      obtain ⟨pn, hpn⟩ := hC.linked.alive_parent hx hp
      obtain ⟨r, rn, h1, h2, h3⟩ := ih p ⟨n, hx, hp⟩ hpn
      exact ⟨r, rn, .head ⟨n, hx, hp⟩ h1, h2, h3⟩

theorem anc_owner (hC : Core w ch) (h : AncSelf w x j) : ∀ n m, w.nodes x = some n → w.nodes j = some m → n.owner = m.owner := by
  induction h using Relation.ReflTransGen.head_induction_on with
  | refl => intro n m h1 h2; rw [h1] at h2; cases h2; rfl
  | head h1 _ ih =>
    intro n m hn hm
    obtain ⟨n', hn', hp⟩ := h1
    rw [hn] at hn'; cases hn'
    obtain ⟨pn, hpn⟩ := hC.linked.alive_parent hn hp
    rw [hC.ownSame _ n _ pn hn hp hpn]
    exact ih pn m hpn hm

/-- A node below `x` goes with `x`, unless something below `x` stays. -/
theorem sub_fate (h : AncSelf w j x) (hl : ∃ m, w.nodes j = some m) : Dies w x j ∨ ∃ i, Orphaned w x i := by
  induction h using Relation.ReflTransGen.head_induction_on with
  | refl => exact .inl .self
  | @head a p h1 hr ih =>
    obtain ⟨m, hm, hp⟩ := h1
    have hpl : ∃ m, w.nodes p = some m ∨ p = x := by
      rcases Relation.ReflTransGen.cases_head hr with h | ⟨z, ⟨q, hq, _⟩, _⟩
      · exact ⟨m, .inr h⟩
      · exact ⟨q, .inl hq⟩
    have ih' : Dies w x p ∨ ∃ i, Orphaned w x i := by
      obtain ⟨q, hq | rfl⟩ := hpl
      · exact ih ⟨q, hq⟩
      · exact .inl .self
    rcases ih' with hd | ho
    · by_cases hz : m.refcnt = 0
      · exact .inl (hd.down hm hp hz)
      · exact .inr ⟨a, p, m, hd, hm, hp, hz⟩
    · exact .inr ho

theorem dies_parentless (h : Dies w x j) (hj : w.nodes j = some n) (hp : n.parent = none) : j = x := by
  cases h with
  | self => rfl
  | down _ h1 h2 _ => rw [hj] at h1; cases h1; rw [hp] at h2; cases h2

theorem orphaned_parent (h : Orphaned w x j) (hj : w.nodes j = some n) : n.parent ≠ none ∧ n.refcnt ≠ 0 := by
  obtain ⟨p, m, _, h1, h2, h3⟩ := h
  rw [hj] at h1; cases h1
  exact ⟨by rw [h2]; simp, h3⟩

theorem pending_parent (hW : WF w ch) (hj : w.nodes j = some n) (hp : n.pendingIn = some d) : n.parent = none ∧ n.owner = some d ∧ n.type ≠ .document := by
  rcases hW.pending j n hj with h | ⟨_, h⟩
  · rw [hp] at h
    by_cases hc : n.parent.isSome = true ∨ n.type = .document
    · rw [if_pos hc] at h; cases h
    · rw [if_neg hc] at h
      rw [not_or] at hc
      exact ⟨by simpa using hc.1, h.symm, hc.2⟩
  · rw [h] at hp; cases hp

theorem dies_owner (hC : Core w ch) (hx : w.nodes x = some n) (h : Dies w x j) : ∀ m, w.nodes j = some m → m.owner = n.owner := by
  induction h with
  | self => intro m h; rw [hx] at h; cases h; rfl
  | @down p c cn hp' b1 b2 _ ih =>
    intro m h
    rw [b1] at h; cases h
    obtain ⟨pn, hpn⟩ := dies_live hx hp'
    rw [hC.ownSame c _ p pn b1 b2 hpn]
    exact ih pn hpn

theorem orphaned_owner (hC : Core w ch) (hx : w.nodes x = some n) (h : Orphaned w x j) (hj : w.nodes j = some cn) : cn.owner = n.owner := by
  obtain ⟨p, m, h0, h1, h2, _⟩ := h
  rw [hj] at h1; cases h1
  obtain ⟨pn, hpn⟩ := dies_live hx h0
  rw [hC.ownSame j cn p pn hj h2 hpn]
  exact dies_owner hC hx h0 pn hpn

/-! ## The tree after a destruction -/

/-- What the freed, cut and emptied nodes of `Reaped` have to satisfy to leave a tree. -/
structure Cutting (w : World) (D C E : NodeId → Prop) : Prop where
  cutLive : ∀ j, C j → ∃ m p, w.nodes j = some m ∧ m.parent = some p
  docLive : ∀ j, E j → ∃ m, w.nodes j = some m ∧ m.type = .document
  disj : ∀ j, C j → ¬ D j
  down : ∀ c n p, w.nodes c = some n → n.parent = some p → (D p ∨ E p) → D c ∨ C c
  up : ∀ c n p, w.nodes c = some n → n.parent = some p → (D c ∨ C c) → D p ∨ E p
  clean : ∀ c n, C c → w.nodes c = some n → n.prev = none ∧ n.next = none
  own : ∀ j n d, w.nodes j = some n → ¬ D j → n.owner = some d → ¬ D d

/-- The record of a node that is left. -/
theorem Reaped.back {D C E : NodeId → Prop} (h : Reaped w w' D C E) (hC : Core w ch) (hc : Cutting w D C E) (hj : w'.nodes j = some n) :
    ¬ D j ∧ ∃ m, w.nodes j = some m ∧
      ((C j ∧ ¬ E j ∧ n = { m with parent := none, pendingIn := m.owner }) ∨ (E j ∧ ¬ C j ∧ n = emptied { m with refcnt := 0 }) ∨
        (¬ C j ∧ ¬ E j ∧ n = m)) := by
  have hD : ¬ D j := fun hd => by rw [h.dead j hd] at hj; cases hj
  refine ⟨hD, ?_⟩
  by_cases hcj : C j
  · obtain ⟨m, p, hm, hp⟩ := hc.cutLive j hcj
    have := h.cut j m hcj hD hm
    rw [hj] at this; cases this
    refine ⟨m, hm, .inl ⟨hcj, fun he => ?_, rfl⟩⟩
    obtain ⟨m', hm', ht⟩ := hc.docLive j he
    rw [hm] at hm'; cases hm'
    rw [doc_parent hC hm ht] at hp; cases hp
  · by_cases he : E j
    · obtain ⟨m, hm, _⟩ := hc.docLive j he
      have := h.husk j m he hD hm
      rw [hj] at this; cases this
      exact ⟨m, hm, .inr (.inl ⟨he, hcj, rfl⟩)⟩
    · have := h.same j hD hcj he
      exact ⟨n, by rw [← this]; exact hj, .inr (.inr ⟨hcj, he, rfl⟩)⟩

/-- In particular. -/
theorem Reaped.kept {D C E : NodeId → Prop} (h : Reaped w w' D C E) (hC : Core w ch) (hc : Cutting w D C E) (hj : w'.nodes j = some n) :
    ¬ D j ∧ ∃ m, w.nodes j = some m ∧ n.type = m.type ∧ n.owner = m.owner ∧ n.attrs = m.attrs ∧ n.host = m.host ∧
      (∀ p, n.parent = some p → n = m ∧ ¬ C j ∧ ¬ E j) := by
  obtain ⟨h1, m, h2, h3⟩ := h.back hC hc hj
  refine ⟨h1, m, h2, ?_⟩
  rcases h3 with ⟨_, _, rfl⟩ | ⟨_, _, rfl⟩ | ⟨h4, h5, rfl⟩
  · exact ⟨rfl, rfl, rfl, rfl, by simp⟩
  · exact ⟨rfl, rfl, rfl, rfl, by simp [emptied]⟩
  · exact ⟨rfl, rfl, rfl, rfl, fun _ _ => ⟨rfl, h4, h5⟩⟩

/-- A node whose parent stays is left as it was. -/
theorem Reaped.child {D C E : NodeId → Prop} (h : Reaped w w' D C E) (hC : Core w ch) (hc : Cutting w D C E) {p : NodeId} (hj : w.nodes j = some n)
    (hp : n.parent = some p) (hpD : ¬ D p) (hpE : ¬ E p) : w'.nodes j = some n := by
  have h1 : ¬ (D j ∨ C j) := fun h => by
    rcases hc.up j n p hj hp h with h | h
    · exact hpD h
    · exact hpE h
  rw [not_or] at h1
  rw [h.same j h1.1 h1.2]
  · exact hj
  · intro he
    obtain ⟨m', hm', ht⟩ := hc.docLive j he
    rw [hj] at hm'; cases hm'
    rw [doc_parent hC hj ht] at hp; cases hp

/-- A surviving node stays. -/
theorem Reaped.lives {D C E : NodeId → Prop} (h : Reaped w w' D C E) (hj : w.nodes j = some n) (hD : ¬ D j) : ∃ m, w'.nodes j = some m := by
  by_cases hc : C j
  · exact ⟨_, h.cut j n hc hD hj⟩
  · by_cases he : E j
    · exact ⟨_, h.husk j n he hD hj⟩
    · exact ⟨n, by rw [h.same j hD hc he]; exact hj⟩

open Classical in
/-- The tree that is left. -/
theorem Reaped.wf {D C E : NodeId → Prop} (h : Reaped w w' D C E) (hW : WF w ch) (hA : AttrOK w) (hc : Cutting w D C E) :
    ∃ ch', WF w' ch' ∧ AttrOK w' ∧ ∀ q, E q → ch' q = [] := by
  have hC := hW.toCore
  let ch' : Children := fun q => if D q ∨ E q then [] else ch q
  have hsub : ∀ {c q}, c ∈ ch' q → c ∈ ch q ∧ ¬ D q ∧ ¬ E q := by
    intro c q hcq
    by_cases hq : D q ∨ E q
    · simp only [ch', hq, if_true] at hcq; cases hcq
    · simp only [ch', hq, if_false] at hcq
      rw [not_or] at hq
      exact ⟨hcq, hq⟩
  have hkeepch : ∀ {q}, ¬ D q → ¬ E q → ch' q = ch q := by
    intro q h1 h2; simp [ch', h1, h2]
  have hup : ∀ {c n p}, w'.nodes c = some n → n.parent = some p → w.nodes c = some n ∧ ¬ D p ∧ ¬ E p := by
    intro c n p hcn hp
    obtain ⟨h1, m, h2, _, _, _, _, h3⟩ := h.kept hC hc hcn
    obtain ⟨rfl, h4, h5⟩ := h3 p hp
    have : ¬ (D p ∨ E p) := fun h => by
      rcases hc.down c n p h2 hp h with h | h
      · exact h1 h
      · exact h4 h
    rw [not_or] at this
    exact ⟨h2, this⟩
  have hattr : ∀ {e n}, w'.nodes e = some n → attrNodes w' e = attrNodes w e := by
    intro e n hen
    obtain ⟨_, m, h2, h3, _, h4, _⟩ := h.kept hC hc hen
    simp [attrNodes, hen, h2, h3, h4]
  refine ⟨ch', ⟨⟨⟨?_, ?_, ?_, ?_, ?_⟩, ?_, ?_, ?_, ?_, ?_, ?_⟩, ?_⟩, ?_, ?_⟩
  · -- loc
    intro p pn' hp
    obtain ⟨h1, m, h2, h3⟩ := h.back hC hc hp
    have hloc := hW.linked.loc p m h2
    obtain ⟨m', hm', hf, hl⟩ := hloc.ends
    rw [h2] at hm'; cases hm'
    by_cases he : E p
    · have hnil : ch' p = [] := by simp [ch', he]
      refine ⟨⟨pn', hp, ?_⟩, ?_, ?_⟩
      · rcases h3 with ⟨_, h4, _⟩ | ⟨_, _, rfl⟩ | ⟨_, h4, _⟩
        · exact absurd he h4
        · rw [hnil]; exact ⟨rfl, rfl⟩
        · exact absurd he h4
      · intro a c b hab; rw [hnil] at hab; simp at hab
      · rw [hnil]; exact .nil
    · have hsame := hkeepch h1 he
      refine ⟨⟨pn', hp, ?_⟩, ?_, ?_⟩
      · rw [hsame]
        rcases h3 with ⟨_, _, rfl⟩ | ⟨h4, _⟩ | ⟨_, _, rfl⟩
        · exact ⟨hf, hl⟩
        · exact absurd h4 he
        · exact ⟨hf, hl⟩
      · intro a c b hab
        rw [hsame] at hab
        obtain ⟨cn, k1, k2, k3, k4⟩ := hloc.kids a c b hab
        exact ⟨cn, h.child hC hc k1 k3 h1 he, k2, k3, k4⟩
      · rw [hsame]; exact hloc.nodup
  · -- dead
    intro p hp
    by_cases hq : D p ∨ E p
    · simp [ch', hq]
    · rw [not_or] at hq
      rw [hkeepch hq.1 hq.2]
      cases hw : w.nodes p with
      | none => exact hW.linked.dead p hw
      | some m =>
        obtain ⟨m', hm'⟩ := h.lives hw hq.1
        rw [hp] at hm'; cases hm'
  · -- up
    intro c n p hcn ht hp
    obtain ⟨h1, h2, h3⟩ := hup hcn hp
    rw [hkeepch h2 h3]
    exact hW.linked.up c n p h1 ht hp
  · -- attrUp
    intro c n p hcn ht hp
    obtain ⟨h1, h2, h3⟩ := hup hcn hp
    obtain ⟨e, he, het⟩ := hW.linked.attrUp c n p h1 ht hp
    obtain ⟨e', he'⟩ := h.lives he h2
    obtain ⟨_, m, h4, h5, _⟩ := h.kept hC hc he'
    rw [he] at h4; cases h4
    exact ⟨e', he', by rw [h5]; exact het⟩
  · -- orphan
    intro c n hcn ho
    obtain ⟨h1, m, h2, h3⟩ := h.back hC hc hcn
    rcases h3 with ⟨h4, _, rfl⟩ | ⟨_, _, rfl⟩ | ⟨_, _, rfl⟩
    · exact hc.clean c m h4 h2
    · exact ⟨rfl, rfl⟩
    · exact hW.linked.orphan c n h2 ho
  · -- bnd
    intro i n hi
    obtain ⟨_, m, h2, _⟩ := h.back hC hc hi
    rw [h.fresh]; exact hW.bnd i m h2
  · -- wf
    refine Subrelation.wf (r := fun p c => ParentOf w c p) ?_ hW.wf
    rintro p c ⟨n, hn, hp⟩
    exact ⟨n, (hup hn hp).1, hp⟩
  · -- owner
    intro i n hi
    obtain ⟨h1, m, h2, h3, h4, _, _, h5⟩ := h.kept hC hc hi
    rcases hW.owner i m h2 with ⟨d, dn, o1, o2, o3⟩ | ⟨o1, o2, o3⟩
    · left
      obtain ⟨d', hd'⟩ := h.lives o2 (hc.own i m d h2 h1 o1)
      obtain ⟨_, m', h6, h7, _⟩ := h.kept hC hc hd'
      rw [o2] at h6; cases h6
      exact ⟨d, d', by rw [h4]; exact o1, hd', by rw [h7]; exact o3⟩
    · right
      refine ⟨by rw [h3]; exact o1, by rw [h4]; exact o2, ?_⟩
      cases hp : n.parent with
      | none => rfl
      | some p =>
        obtain ⟨rfl, _⟩ := h5 p hp
        rw [o3] at hp; cases hp
  · -- ownDoc
    intro i n hi ht
    obtain ⟨_, m, h2, h3, h4, _⟩ := h.kept hC hc hi
    rw [h4]; exact hW.ownDoc i m h2 (by rw [← h3]; exact ht)
  · -- ownSame
    intro i n p pn hi hp hpn
    obtain ⟨h1, _⟩ := hup hi hp
    obtain ⟨_, m, h2, _, h4, _⟩ := h.kept hC hc hpn
    rw [h4]; exact hW.ownSame i n p m h1 hp h2
  · -- types
    intro p pn c cn hp hcp hcn
    obtain ⟨h1, _⟩ := hsub hcp
    obtain ⟨_, m, h2, h3, _⟩ := h.kept hC hc hp
    obtain ⟨_, m', h4, h5, _⟩ := h.kept hC hc hcn
    rw [h3, h5]
    exact hW.types p m c m' h2 h1 h4
  · -- pending
    intro i n hi
    obtain ⟨h1, m, h2, h3⟩ := h.back hC hc hi
    rcases h3 with ⟨h4, _, rfl⟩ | ⟨h4, _, rfl⟩ | ⟨_, _, rfl⟩
    · left
      obtain ⟨m', p, k1, k2⟩ := hc.cutLive i h4
      rw [h2] at k1; cases k1
      have : m.type ≠ .document := fun ht => by rw [doc_parent hC h2 ht] at k2; cases k2
      simp [this]
    · left
      obtain ⟨m', k1, k2⟩ := hc.docLive i h4
      rw [h2] at k1; cases k1
      have hpi : m.pendingIn = none := by
        rcases hW.pending i m h2 with h | ⟨_, h⟩
        · rw [h, k2]; simp
        · exact h
      simp [emptied, k2, hpi]
    · exact hW.pending i n h2
  · -- attributes
    intro e
    cases hen : w'.nodes e with
    | none =>
      have : attrNodes w' e = [] := by simp [attrNodes, hen]
      rw [this]
      refine ⟨.nil, by simp, ?_⟩
      intro a an ha ht hp
      obtain ⟨h1, h2, h3⟩ := hup ha hp
      obtain ⟨m, hm, _⟩ := hW.linked.attrUp a an e h1 ht hp
      obtain ⟨m', hm'⟩ := h.lives hm h2
      rw [hen] at hm'; cases hm'
    | some en =>
      rw [hattr hen]
      refine ⟨(hA e).1, ?_, ?_⟩
      · intro a ha
        obtain ⟨an, k1, k2, k3⟩ := (hA e).2.1 a ha
        obtain ⟨h1, m, h2, _⟩ := h.back hC hc hen
        have he : ¬ E e := by
          intro he
          obtain ⟨m', k4, k5⟩ := hc.docLive e he
          have : attrNodes w e = [] := by simp [attrNodes, k4, k5]
          rw [this] at ha; cases ha
        exact ⟨an, h.child hC hc k1 k3 h1 he, k2, k3⟩
      · intro a an ha ht hp
        obtain ⟨h1, _⟩ := hup ha hp
        exact (hA e).2.2 a an h1 ht hp
  · intro q hq; simp [ch', hq]

/-! ## The invariant -/

/-- The invariant: the tree is sound; a node without parent is referenced by the client; a document that is not referenced has no children and
belongs to some node; a DocumentFragment off the pending list belongs to a document that is referenced. -/
structure Sound (w : World) (ch : Children) : Prop where
  wf : WF w ch
  attrs : AttrOK w
  noHost : ∀ j n, w.nodes j = some n → n.host = none
  held : ∀ j n, w.nodes j = some n → n.parent = none → n.type ≠ .document → 0 < n.refcnt
  docs : ∀ d dn, w.nodes d = some dn → dn.type = .document → dn.refcnt = 0 → dn.first = none ∧ ∃ i m, w.nodes i = some m ∧ i ≠ d ∧ m.owner = some d
  frags : ∀ f fn d dn, w.nodes f = some fn → fn.type = .fragment → fn.pendingIn = none → fn.owner = some d → w.nodes d = some dn → 0 < dn.refcnt
  ents : ∀ c n p pn, w.nodes c = some n → n.parent = some p → w.nodes p = some pn → pn.type ≠ .entityRef ∧ pn.type ≠ .entity

theorem no_children (hC : Core w ch) (hd : w.nodes d = some dn) (ht : dn.type = .document) (hf : dn.first = none) (hj : w.nodes j = some n) :
    n.parent ≠ some d := by
  intro hp
  by_cases ha : n.type = .attribute
  · obtain ⟨e, he, het⟩ := hC.linked.attrUp j n d hj ha hp
    rw [hd] at he; cases he; rw [ht] at het; cases het
  · have := hC.linked.up j n d hj ha hp
    obtain ⟨m, hm, h1, _⟩ := (hC.linked.loc d dn hd).ends
    rw [hd] at hm; cases hm
    rw [hf] at h1
    cases hch : ch d with
    | nil => rw [hch] at this; cases this
    | cons a l => rw [hch] at h1; cases h1

/-- A root of a node of the document `d` other than `d`, when `d` has no children. -/
theorem root_of (hC : Core w ch) (hd : w.nodes d = some dn) (ht : dn.type = .document) (hf : dn.first = none) (hj : w.nodes j = some n) (hjd : j ≠ d)
    (ho : n.owner = some d) : ∃ r rn, AncSelf w j r ∧ w.nodes r = some rn ∧ rn.parent = none ∧ rn.owner = some d ∧ rn.type ≠ .document := by
  obtain ⟨r, rn, h1, h2, h3⟩ := exists_root hC hj
  have ho' := anc_owner hC h1 n rn hj h2
  rw [ho] at ho'
  refine ⟨r, rn, h1, h2, h3, ho'.symm, ?_⟩
  intro hrt
  have := hC.ownDoc r rn h2 hrt
  rw [← ho'] at this
  simp only [Option.some.injEq] at this
  subst this
  rcases Relation.ReflTransGen.cases_tail h1 with h | ⟨z, _, m, hm, hz⟩
  · exact hjd h.symm
  · exact no_children hC hd ht hf hm hz

theorem pending_root (hW : WF w ch) (hj : w.nodes j = some n) (hp : n.parent = none) (ht : n.type ≠ .document) (hf : n.type = .fragment → n.pendingIn ≠ none) :
    n.pendingIn = n.owner := by
  rcases hW.pending j n hj with h | ⟨h1, h2⟩
  · rw [h]; simp [hp, ht]
  · exact absurd h2 (hf h1)

/-- A document without references has a pending node. -/
theorem Sound.pending (S : Sound w ch) (hd : w.nodes d = some dn) (ht : dn.type = .document) (hr : dn.refcnt = 0) :
    ∃ i m, w.nodes i = some m ∧ m.pendingIn = some d := by
  obtain ⟨hf, i, m, h1, h2, h3⟩ := S.docs d dn hd ht hr
  obtain ⟨r, rn, _, h4, h5, h6, h7⟩ := root_of S.wf.toCore hd ht hf h1 h2 h3
  refine ⟨r, rn, h4, ?_⟩
  rw [pending_root S.wf h4 h5 h7, h6]
  intro hft hpi
  have := S.frags r rn d dn h4 hft hpi h6 hd
  omega

/-- No referenced node loses siblings: a referenced child of a node that goes is its only child. -/
def Clean (w : World) (x : NodeId) : Prop := ∀ c n, Orphaned w x c → w.nodes c = some n → n.prev = none ∧ n.next = none

/-- No DocumentFragment of the document is off the pending list. -/
def NoLoose (w : World) (d : NodeId) : Prop := ∀ f fn, w.nodes f = some fn → fn.type = .fragment → fn.owner = some d → fn.pendingIn ≠ none

/-- What is left after a destruction satisfies the invariant. -/
theorem Sound.reaped (S : Sound w ch) {D C E : NodeId → Prop} (h : Reaped w w' D C E) (hc : Cutting w D C E)
    (hCr : ∀ j n, C j → w.nodes j = some n → n.refcnt ≠ 0)
    (hE : ∀ d, E d → ∃ i m, w'.nodes i = some m ∧ i ≠ d ∧ m.owner = some d)
    (hdoc : ∀ d dn, w.nodes d = some dn → dn.type = .document → dn.refcnt = 0 → ¬ D d → ¬ E d → ∃ i m, w'.nodes i = some m ∧ i ≠ d ∧ m.owner = some d)
    (hEf : ∀ d, E d → NoLoose w d) : ∃ ch', Sound w' ch' := by
  have hC := S.wf.toCore
  obtain ⟨ch', h1, h2, h3⟩ := h.wf S.wf S.attrs hc
  refine ⟨ch', h1, h2, ?_, ?_, ?_, ?_, ?_⟩
  · intro j n hj
    obtain ⟨_, m, k1, _, _, _, k2, _⟩ := h.kept hC hc hj
    rw [k2]; exact S.noHost j m k1
  · intro j n hj hp ht
    obtain ⟨k0, m, k1, k2⟩ := h.back hC hc hj
    rcases k2 with ⟨k3, _, rfl⟩ | ⟨k3, _, rfl⟩ | ⟨_, _, rfl⟩
    · have := hCr j m k3 k1
      show 0 < m.refcnt
      omega
    · obtain ⟨m', k4, k5⟩ := hc.docLive j k3
      rw [k1] at k4; cases k4
      exact absurd k5 ht
    · exact S.held j n k1 hp ht
  · intro d dn hd ht hr
    obtain ⟨k0, m, k1, k2⟩ := h.back hC hc hd
    rcases k2 with ⟨k3, _, rfl⟩ | ⟨k3, _, rfl⟩ | ⟨_, k4, rfl⟩
    · obtain ⟨m', p, k4, k5⟩ := hc.cutLive d k3
      rw [k1] at k4; cases k4
      rw [doc_parent hC k1 ht] at k5; cases k5
    · exact ⟨rfl, hE d k3⟩
    · exact ⟨(S.docs d dn k1 ht hr).1, hdoc d dn k1 ht hr k0 k4⟩
  · intro f fn d dn hf ht hp ho hd
    obtain ⟨k0, m, k1, k2⟩ := h.back hC hc hf
    obtain ⟨_, md, k3, k4⟩ := h.back hC hc hd
    have hft : m.type = .fragment ∧ m.owner = some d ∧ m.pendingIn = none := by
      rcases k2 with ⟨c1, _, rfl⟩ | ⟨_, _, rfl⟩ | ⟨_, _, rfl⟩
      · rw [show m.owner = some d from ho] at hp; cases hp
      · exact ⟨ht, ho, hp⟩
      · exact ⟨ht, ho, hp⟩
    have := S.frags f m d md k1 hft.1 hft.2.2 hft.2.1 k3
    rcases k4 with ⟨_, _, rfl⟩ | ⟨c1, _, rfl⟩ | ⟨_, _, rfl⟩
    · exact this
    · exact absurd hft.2.2 (hEf d c1 f m k1 hft.1 hft.2.1)
    · exact this
  · intro c n p pn hcn hpar hpn
    obtain ⟨_, m, k1, k2⟩ := h.back hC hc hcn
    obtain ⟨_, pm, k3, k4, _⟩ := h.kept hC hc hpn
    have hmp : m.parent = some p := by
      rcases k2 with ⟨_, _, rfl⟩ | ⟨_, _, rfl⟩ | ⟨_, _, rfl⟩
      · cases hpar
      · cases hpar
      · exact hpar
    rw [k4]
    exact S.ents c m p pm k1 hmp k3

theorem needed_left (hW : WF w ch) {D C E : NodeId → Prop} (h : Reaped w w' D C E) (hc : Cutting w D C E) (hx : w.nodes x = some n)
    (ho : n.owner = some d) (hd : w.nodes d = some dn) (ht : dn.type = .document)
    (hD : ∀ j m, w.nodes j = some m → m.type ≠ .document → D j → Dies w x j) (hCo : ∀ j, C j ↔ Orphaned w x j) (hN : Needed w x d) :
    ∃ i m, w'.nodes i = some m ∧ i ≠ d ∧ m.owner = some d := by
  have hC := hW.toCore
  rcases hN with ⟨i, m, h1, h2, h3⟩ | ⟨i, hi⟩
  · obtain ⟨k1, k2, k3⟩ := pending_parent hW h1 h2
    obtain ⟨m', hm'⟩ := h.lives h1 (fun hd' => h3 (hD i m h1 k3 hd'))
    obtain ⟨_, m0, e1, _, e2, _⟩ := h.kept hC hc hm'
    rw [h1] at e1; cases e1
    exact ⟨i, m', hm', fun e => k3 (by rw [e] at h1; rw [hd] at h1; cases h1; exact ht), by rw [e2]; exact k2⟩
  · have hCi := (hCo i).2 hi
    obtain ⟨m, p, k1, k2⟩ := hc.cutLive i hCi
    have := h.cut i m hCi (hc.disj i hCi) k1
    refine ⟨i, _, this, ?_, ?_⟩
    · rintro rfl
      rw [hd] at k1; cases k1
      rw [doc_parent hC hd ht] at k2; cases k2
    · show m.owner = some d
      rw [orphaned_owner hC hx hi k1]; exact ho

theorem upd_as_mp (hx : w.nodes x = some n) (f : Node → Node) : w.upd x (f n) = w.mp (fun j m => if j = x then f m else m) [] := by
  simp only [World.upd, World.mp, List.append_nil, World.mk.injEq, and_true]
  funext j
  by_cases hj : j = x
  · subst hj; rw [hx]; simp
  · simp only [hj, if_false]
    cases w.nodes j <;> rfl

/-- Whether `AttrOK` holds is decided by the types, the attribute lists and the parents of attributes. -/
theorem AttrOK.congr (hA : AttrOK w) (ht : ∀ j, (w'.nodes j).map (fun n => (n.type, n.attrs)) = (w.nodes j).map (fun n => (n.type, n.attrs)))
    (hp : ∀ j n, w.nodes j = some n → n.type = .attribute → ∃ n', w'.nodes j = some n' ∧ n'.parent = n.parent) : AttrOK w' := by
  have hty : ∀ {j n'}, w'.nodes j = some n' → ∃ n, w.nodes j = some n ∧ n.type = n'.type := by
    intro j n' h
    have := ht j
    rw [h] at this
    cases hj : w.nodes j with
    | none => rw [hj] at this; cases this
    | some n =>
      rw [hj] at this
      simp only [Option.map_some, Option.some.injEq, Prod.mk.injEq] at this
      exact ⟨n, rfl, this.1.symm⟩
  have hl : ∀ e, attrNodes w' e = attrNodes w e := by
    intro e
    have := ht e
    unfold attrNodes
    cases h1 : w'.nodes e <;> cases h2 : w.nodes e
    · rfl
    · rw [h1, h2] at this; cases this
    · rw [h1, h2] at this; cases this
    · rw [h1, h2] at this
      simp only [Option.map_some, Option.some.injEq, Prod.mk.injEq] at this
      simp [this.1, this.2]
  intro e
  rw [hl e]
  refine ⟨(hA e).1, ?_, ?_⟩
  · intro a ha
    obtain ⟨an, h1, h2, h3⟩ := (hA e).2.1 a ha
    obtain ⟨n', h4, h5⟩ := hp a an h1 h2
    obtain ⟨m, h6, h7⟩ := hty h4
    rw [h1] at h6; cases h6
    exact ⟨n', h4, by rw [← h7]; exact h2, by rw [h5]; exact h3⟩
  · intro a an ha h1 h2
    obtain ⟨m, h3, h4⟩ := hty ha
    obtain ⟨n', h5, h6⟩ := hp a m h3 (by rw [h4]; exact h1)
    rw [ha] at h5; cases h5
    exact (hA e).2.2 a m h3 (by rw [h4]; exact h1) (by rw [← h6]; exact h2)

/-- A step that neither creates nor destroys nodes. -/
theorem Sound.step' {ch' : Children} (S : Sound w ch) (hW' : WF w' ch') (hA' : AttrOK w')
    (hd : ∀ j, (w'.nodes j).map (fun n => (n.type, n.host)) = (w.nodes j).map (fun n => (n.type, n.host)))
    (ho : ∀ j n n', w.nodes j = some n → w'.nodes j = some n' → n.owner = none ∨ n'.owner = n.owner)
    (hheld : ∀ j n', w'.nodes j = some n' → n'.parent = none → n'.type ≠ .document → 0 < n'.refcnt)
    (hdoc : ∀ j n n', w.nodes j = some n → w'.nodes j = some n' → n.type = .document → n'.refcnt = 0 → n.refcnt = 0 ∧ n'.first = none)
    (hfrag : ∀ j n n', w.nodes j = some n → w'.nodes j = some n' → n.type = .fragment → n'.pendingIn = none → n.pendingIn = none ∨
      ∀ d dn, n.owner = some d → w.nodes d = some dn → 0 < dn.refcnt)
    (hent : ∀ c n' p, w'.nodes c = some n' → n'.parent = some p → (∃ n, w.nodes c = some n ∧ n.parent = some p) ∨
      ∃ pn, w.nodes p = some pn ∧ pn.type ≠ .entityRef ∧ pn.type ≠ .entity) : Sound w' ch' := by
  have hback : ∀ {j n'}, w'.nodes j = some n' → ∃ n, w.nodes j = some n ∧ n.type = n'.type ∧ n.host = n'.host := by
    intro j n' h
    have := hd j
    rw [h] at this
    cases hj : w.nodes j with
    | none => rw [hj] at this; cases this
    | some n =>
      rw [hj] at this
      simp only [Option.map_some, Option.some.injEq, Prod.mk.injEq] at this
      exact ⟨n, rfl, this.1.symm, this.2.symm⟩
  have hforth : ∀ {j n}, w.nodes j = some n → ∃ n', w'.nodes j = some n' := by
    intro j n h
    have := hd j
    rw [h] at this
    cases hj : w'.nodes j with
    | none => rw [hj] at this; cases this
    | some n' => exact ⟨n', rfl⟩
  refine ⟨hW', hA', ?_, hheld, ?_, ?_, ?_⟩
  · intro j n' hj
    obtain ⟨n, h1, _, h2⟩ := hback hj
    rw [← h2]; exact S.noHost j n h1
  · intro d dn' hd' ht hr
    obtain ⟨dn, h1, h2, _⟩ := hback hd'
    have ht' : dn.type = .document := h2.trans ht
    obtain ⟨h3, h4⟩ := hdoc d dn dn' h1 hd' ht' hr
    obtain ⟨_, i, m, h5, h6, h7⟩ := S.docs d dn h1 ht' h3
    obtain ⟨m', h8⟩ := hforth h5
    refine ⟨h4, i, m', h8, h6, ?_⟩
    rcases ho i m m' h5 h8 with h | h
    · rw [h] at h7; cases h7
    · rw [h]; exact h7
  · intro f fn' d dn' hf ht hp ho' hd'
    obtain ⟨fn, h1, h2, _⟩ := hback hf
    obtain ⟨dn, h3, h4, _⟩ := hback hd'
    have hft : fn.type = .fragment := h2.trans ht
    have hfo : fn.owner = some d := by
      rcases ho f fn fn' h1 hf with h | h
      · obtain ⟨_, _, o1, _⟩ | ⟨o1, _⟩ := S.wf.owner f fn h1
        · rw [h] at o1; cases o1
        · rw [hft] at o1; cases o1
      · rw [← h]; exact ho'
    have hpos : 0 < dn.refcnt := by
      rcases hfrag f fn fn' h1 hf hft hp with h | h
      · exact S.frags f fn d dn h1 hft h hfo h3
      · exact h d dn hfo h3
    have hdt : dn.type = .document := by
      obtain ⟨d2, dn2, o1, o2, o3⟩ | ⟨_, o1, _⟩ := S.wf.owner f fn h1
      · rw [hfo] at o1; cases o1; rw [h3] at o2; cases o2; exact o3
      · rw [hfo] at o1; cases o1
    cases hz : dn'.refcnt with
    | zero => have := (hdoc d dn dn' h3 hd' hdt hz).1; omega
    | succ k => omega
  · intro c n' p pn' hc hpar hp'
    obtain ⟨pn, h1, h2, _⟩ := hback hp'
    rw [← h2]
    rcases hent c n' p hc hpar with ⟨n, h3, h4⟩ | ⟨pn2, h3, h4⟩
    · exact S.ents c n p pn h3 h4 h1
    · rw [h1] at h3; cases h3; exact h4

theorem Sound.step {ch' : Children} (S : Sound w ch) (hW' : WF w' ch') (hd : ∀ j, (w'.nodes j).map Node.data = (w.nodes j).map Node.data)
    (ho : ∀ j n n', w.nodes j = some n → w'.nodes j = some n' → n.owner = none ∨ n'.owner = n.owner)
    (ha : ∀ j n, w.nodes j = some n → n.type = .attribute → ∃ n', w'.nodes j = some n' ∧ n'.parent = n.parent)
    (hheld : ∀ j n', w'.nodes j = some n' → n'.parent = none → n'.type ≠ .document → 0 < n'.refcnt)
    (hdoc : ∀ j n n', w.nodes j = some n → w'.nodes j = some n' → n.type = .document → n'.refcnt = 0 → n.refcnt = 0 ∧ n'.first = none)
    (hfrag : ∀ j n n', w.nodes j = some n → w'.nodes j = some n' → n.type = .fragment → n'.pendingIn = none → n.pendingIn = none ∨
      ∀ d dn, n.owner = some d → w.nodes d = some dn → 0 < dn.refcnt)
    (hent : ∀ c n' p, w'.nodes c = some n' → n'.parent = some p → (∃ n, w.nodes c = some n ∧ n.parent = some p) ∨
      ∃ pn, w.nodes p = some pn ∧ pn.type ≠ .entityRef ∧ pn.type ≠ .entity) : Sound w' ch' := by
  refine S.step' hW' (S.attrs.congr (fun j => ?_) ha) (fun j => ?_) ho hheld hdoc hfrag hent
  · have h1 := congrArg (Option.map fun n : Node => (n.type, n.attrs)) (hd j)
    simpa only [Option.map_map, Function.comp_def, Node.data] using h1
  · have h1 := congrArg (Option.map fun n : Node => (n.type, n.host)) (hd j)
    simpa only [Option.map_map, Function.comp_def, Node.data] using h1

/-- A change of one reference count. -/
theorem Sound.setRef (S : Sound w ch) (hx : w.nodes x = some n) {r : Nat} (h1 : n.parent = none → n.type ≠ .document → 0 < r)
    (h2 : n.type = .document → r = 0 → n.refcnt = 0) : Sound (w.upd x { n with refcnt := r }) ch := by
  have hj : ∀ {j m m'}, w.nodes j = some m → (w.upd x { n with refcnt := r }).nodes j = some m' → (j = x ∧ m = n ∧ m' = { n with refcnt := r }) ∨
      (j ≠ x ∧ m' = m) := by
    intro j m m' h3 h4
    by_cases h : j = x
    · subst h
      rw [hx] at h3; cases h3
      simp only [World.upd, if_true, Option.some.injEq] at h4
      exact .inl ⟨rfl, rfl, h4.symm⟩
    · rw [upd_ne _ _ h, h3] at h4; cases h4
      exact .inr ⟨h, rfl⟩
  have hlive : ∀ {j m'}, (w.upd x { n with refcnt := r }).nodes j = some m' → ∃ m, w.nodes j = some m := by
    intro j m' h
    by_cases hjx : j = x
    · exact ⟨n, by rw [hjx]; exact hx⟩
    · rw [upd_ne _ _ hjx] at h; exact ⟨m', h⟩
  refine S.step ?_ ?_ ?_ ?_ ?_ ?_ ?_ ?_
  · rw [upd_as_mp hx fun m => { m with refcnt := r }]
    refine S.wf.mp_same [] ?_ ?_ ?_ ?_ <;> intro j m <;> by_cases h : j = x <;> simp [h, Node.links]
  · intro j
    by_cases h : j = x
    · subst h; simp only [World.upd, if_true, hx, Option.map_some]; rfl
    · rw [upd_ne _ _ h]
  · intro j m m' h3 h4
    rcases hj h3 h4 with ⟨_, rfl, rfl⟩ | ⟨_, rfl⟩ <;> exact .inr rfl
  · intro j m h3 _
    by_cases h : j = x
    · subst h; rw [hx] at h3; cases h3
      exact ⟨{ n with refcnt := r }, by simp [World.upd], rfl⟩
    · exact ⟨m, by rw [upd_ne _ _ h]; exact h3, rfl⟩
  · intro j m' h4 hp ht
    obtain ⟨m, h3⟩ := hlive h4
    rcases hj h3 h4 with ⟨_, rfl, rfl⟩ | ⟨_, rfl⟩
    · exact h1 hp ht
    · exact S.held j m' h3 hp ht
  · intro j m m' h3 h4 ht hr
    rcases hj h3 h4 with ⟨_, rfl, rfl⟩ | ⟨_, rfl⟩
    · have := h2 ht hr
      exact ⟨this, (S.docs j m h3 ht this).1⟩
    · exact ⟨hr, (S.docs j m' h3 ht hr).1⟩
  · intro j m m' h3 h4 _ hp
    rcases hj h3 h4 with ⟨_, rfl, rfl⟩ | ⟨_, rfl⟩ <;> exact .inl hp
  · intro c n' p h4 hp
    obtain ⟨m, h3⟩ := hlive h4
    rcases hj h3 h4 with ⟨_, rfl, rfl⟩ | ⟨_, rfl⟩ <;> exact .inl ⟨_, h3, hp⟩

/-- Creation of a node. -/
theorem Sound.add (S : Sound w ch) (hW' : WF (w.add n) ch) (hr : n.refcnt = 1) (hh : n.host = none) (ha : n.attrs = []) (hp : n.parent = none)
    (hf : n.type = .fragment → n.pendingIn ≠ none) : Sound (w.add n) ch := by
  have hC := S.wf.toCore
  refine ⟨hW', ?_, ?_, ?_, ?_, ?_, ?_⟩
  · intro e
    have hl : attrNodes (w.add n) e = attrNodes w e := by
      unfold attrNodes
      cases he : (w.add n).nodes e with
      | none =>
        have : w.nodes e = none := by
          cases h : w.nodes e with
          | none => rfl
          | some m => rw [add_old hC h] at he; cases he
        rw [this]
      | some m =>
        rcases add_some he with ⟨rfl, rfl⟩ | ⟨_, h⟩
        · rw [fresh_dead hC]; simp [ha]
        · rw [h]
    rw [hl]
    refine ⟨(S.attrs e).1, ?_, ?_⟩
    · intro a h
      obtain ⟨an, h1, h2⟩ := (S.attrs e).2.1 a h
      exact ⟨an, add_old hC h1, h2⟩
    · intro a an h1 h2 h3
      rcases add_some h1 with ⟨rfl, rfl⟩ | ⟨_, h⟩
      · rw [hp] at h3; cases h3
      · exact (S.attrs e).2.2 a an h h2 h3
  · intro j m hj
    rcases add_some hj with ⟨rfl, rfl⟩ | ⟨_, h⟩
    · exact hh
    · exact S.noHost j m h
  · intro j m hj h1 h2
    rcases add_some hj with ⟨rfl, rfl⟩ | ⟨_, h⟩
    · omega
    · exact S.held j m h h1 h2
  · intro j m hj h1 h2
    rcases add_some hj with ⟨rfl, rfl⟩ | ⟨_, h⟩
    · omega
    · obtain ⟨h3, i, mi, h4, h5⟩ := S.docs j m h h1 h2
      exact ⟨h3, i, mi, add_old hC h4, h5⟩
  · intro f fn d dn hj h1 h2 h3 h4
    rcases add_some h4 with ⟨rfl, rfl⟩ | ⟨_, h⟩
    · omega
    · rcases add_some hj with ⟨rfl, rfl⟩ | ⟨_, h'⟩
      · exact absurd h2 (hf h1)
      · exact S.frags f fn d dn h' h1 h2 h3 h
  · intro c m q qn h1 h2 h3
    rcases add_some h1 with ⟨rfl, rfl⟩ | ⟨_, h⟩
    · rw [hp] at h2; cases h2
    · rcases add_some h3 with ⟨rfl, rfl⟩ | ⟨_, h'⟩
      · obtain ⟨qn, hq⟩ := hC.linked.alive_parent h h2
        rw [fresh_dead hC] at hq; cases hq
      · exact S.ents c m q qn h h2 h'

/-- Giving up a reference keeps the invariant. -/
theorem Sound.unref (S : Sound w ch) (hx : w.nodes x = some n) (hr : 0 < n.refcnt)
    (hcl : n.refcnt = 1 → n.parent = none → Clean w x ∧ (n.type = .document → NoLoose w x)) :
    ∃ w' ch', unref x w = .ok w' () ∧ Sound w' ch' := by
  have hW := S.wf
  have hC := hW.toCore
  by_cases hk : n.refcnt ≠ 1 ∨ n.parent ≠ none
  · refine ⟨_, ch, unref_keep hx hr hk, S.setRef hx (fun hp' ht => ?_) (fun ht hz => ?_)⟩
    · have := hk.resolve_right (fun h => h hp')
      omega
    · have := hk.resolve_right (fun h => h (doc_parent hC hx ht))
      omega
  rw [not_or, not_not, not_not] at hk
  obtain ⟨hr1, hp⟩ := hk
  obtain ⟨hclean, hloose⟩ := hcl hr1 hp
  have hup0 : ∀ c m p, w.nodes c = some m → m.parent = some p → (Dies w x c ∨ Orphaned w x c) → Dies w x p := by
    intro c m p h1 h2 h3
    rcases h3 with h3 | h3
    · cases h3 with
      | self => rw [hx] at h1; cases h1; rw [hp] at h2; cases h2
      | down k1 k2 k3 _ => rw [h1] at k2; cases k2; rw [h2] at k3; cases k3; exact k1
    · obtain ⟨q, m', k1, k2, k3, _⟩ := h3
      rw [h1] at k2; cases k2; rw [h2] at k3; cases k3; exact k1
  have hdown0 : ∀ c m p, w.nodes c = some m → m.parent = some p → Dies w x p → Dies w x c ∨ Orphaned w x c := by
    intro c m p h1 h2 h3
    by_cases hz : m.refcnt = 0
    · exact .inl (h3.down h1 h2 hz)
    · exact .inr ⟨p, m, h3, h1, h2, hz⟩
  have hdoc0 : ∀ j m, w.nodes j = some m → m.type = .document → Dies w x j → j = x := by
    intro j m h1 h2 h3
    exact dies_parentless h3 h1 (doc_parent hC h1 h2)
  have hol : ∀ j, Orphaned w x j → ∃ m p, w.nodes j = some m ∧ m.parent = some p := by
    rintro j ⟨p, m, _, h1, h2, _⟩; exact ⟨m, p, h1, h2⟩
  by_cases ht : n.type = .document
  · obtain ⟨w', h1, h2⟩ := unref_document hW S.attrs hx hr1 ht
    have hxo := hW.ownDoc x n hx ht
    have hcut : Cutting w (fun j => Dies w x j ∧ (j = x → ¬ Needed w x x)) (Orphaned w x) (fun j => j = x ∧ Needed w x x) := by
      refine ⟨hol, ?_, fun j h1 h2 => not_dies_orphaned hx hp h1 h2.1, ?_, ?_, hclean, ?_⟩
      · rintro j ⟨rfl, _⟩; exact ⟨n, hx, ht⟩
      · intro c m p k1 k2 k3
        have hpd : Dies w x p := by
          rcases k3 with k3 | ⟨rfl, _⟩
          · exact k3.1
          · exact .self
        rcases hdown0 c m p k1 k2 hpd with h | h
        · refine .inl ⟨h, ?_⟩
          rintro rfl
          rw [hx] at k1; cases k1; rw [hp] at k2; cases k2
        · exact .inr h
      · intro c m p k1 k2 k3
        have := hup0 c m p k1 k2 (by rcases k3 with k3 | k3; exacts [.inl k3.1, .inr k3])
        by_cases hpx : p = x
        · by_cases hN : Needed w x x
          · exact .inr ⟨hpx, hN⟩
          · exact .inl ⟨this, fun _ => hN⟩
        · exact .inl ⟨this, fun h => absurd h hpx⟩
      · rintro j m d k1 k2 k3 ⟨k4, k5⟩
        obtain ⟨d', dn, o1, o2, o3⟩ | ⟨_, o1, _⟩ := hW.owner j m k1
        · rw [k3] at o1; cases o1
          have := hdoc0 d dn o2 o3 k4
          subst this
          have hN := k5 rfl
          apply k2
          refine ⟨?_, fun _ => hN⟩
          -- the root of j
          obtain ⟨r, rn, r1, r2, r3⟩ := exists_root hC k1
          have ho' := anc_owner hC r1 m rn k1 r2
          rw [k3] at ho'
          by_cases hrd : r = d
          · subst hrd
            rcases sub_fate r1 ⟨m, k1⟩ with h | h
            · exact h
            · exact absurd (.inr h) hN
          · have hrt : rn.type ≠ .document := by
              intro hrt
              have := hW.ownDoc r rn r2 hrt
              rw [← ho'] at this; cases this; exact hrd rfl
            exfalso; apply hN
            refine .inl ⟨r, rn, r2, ?_, fun h => hrd (dies_parentless h r2 r3)⟩
            rw [pending_root hW r2 r3 hrt fun hft => hloose ht r rn r2 hft ho'.symm]
            exact ho'.symm
        · rw [k3] at o1; cases o1
    obtain ⟨ch', hS⟩ := S.reaped h2 hcut (fun j m h hm => (orphaned_parent h hm).2)
      (by
        rintro d ⟨rfl, hN⟩
        exact needed_left hW h2 hcut hx hxo hx ht (fun _ _ _ _ h => h.1) (fun _ => Iff.rfl) hN)
      (by
        intro d dn hd hdt hdr _ _
        obtain ⟨i, m, k1, k2⟩ := S.pending hd hdt hdr
        obtain ⟨k3, k4, k5⟩ := pending_parent hW k1 k2
        have hnd : ¬ Dies w x i := by
          intro h
          have := dies_parentless h k1 k3
          subst this
          rw [hx] at k1; cases k1; exact k5 ht
        obtain ⟨m', hm'⟩ := h2.lives k1 (fun h => hnd h.1)
        obtain ⟨_, m0, e1, _, e2, _⟩ := h2.kept hC hcut hm'
        rw [k1] at e1; cases e1
        exact ⟨i, m', hm', fun e => k5 (by rw [e, hd] at k1; cases k1; exact hdt), by rw [e2]; exact k4⟩)
      (by rintro d ⟨rfl, _⟩; exact hloose ht)
    exact ⟨w', ch', h1, hS⟩
  · cases ho : n.owner with
    | none =>
      have hdt : n.type = .doctype := by
        obtain ⟨d', dn, o1, _⟩ | ⟨o1, _⟩ := hW.owner x n hx
        · rw [ho] at o1; cases o1
        · exact o1
      obtain ⟨w', h1, h2⟩ := unref_doctype hW S.attrs hx hr1 hp hdt ho
      have hcut : Cutting w (Dies w x) (Orphaned w x) (fun _ => False) := by
        refine ⟨hol, fun _ h => absurd h id, fun j h1 h2 => not_dies_orphaned hx hp h1 h2, ?_, ?_, hclean, ?_⟩
        · intro c m p k1 k2 k3
          exact hdown0 c m p k1 k2 (by rcases k3 with k3 | k3; exacts [k3, absurd k3 id])
        · intro c m p k1 k2 k3
          exact .inl (hup0 c m p k1 k2 k3)
        · intro j m d k1 k2 k3 k4
          obtain ⟨d', dn, o1, o2, o3⟩ | ⟨_, o1, _⟩ := hW.owner j m k1
          · rw [k3] at o1; cases o1
            have := hdoc0 d dn o2 o3 k4
            subst this
            rw [hx] at o2; cases o2; exact ht o3
          · rw [k3] at o1; cases o1
      obtain ⟨ch', hS⟩ := S.reaped h2 hcut (fun j m h hm => (orphaned_parent h hm).2) (fun _ h => absurd h id)
        (by
          intro d dn hd hdt' hdr _ _
          obtain ⟨i, m, k1, k2⟩ := S.pending hd hdt' hdr
          obtain ⟨k3, k4, k5⟩ := pending_parent hW k1 k2
          have hnd : ¬ Dies w x i := by
            intro h
            have := dies_parentless h k1 k3
            subst this
            rw [hx] at k1; cases k1; rw [ho] at k4; cases k4
          obtain ⟨m', hm'⟩ := h2.lives k1 hnd
          obtain ⟨_, m0, e1, _, e2, _⟩ := h2.kept hC hcut hm'
          rw [k1] at e1; cases e1
          exact ⟨i, m', hm', fun e => k5 (by rw [e, hd] at k1; cases k1; exact hdt'), by rw [e2]; exact k4⟩)
        (fun _ h => absurd h id)
      exact ⟨w', ch', h1, hS⟩
    | some d =>
      obtain ⟨dn, hd, hdt⟩ : ∃ dn, w.nodes d = some dn ∧ dn.type = .document := by
        obtain ⟨d', dn, o1, o2, o3⟩ | ⟨_, o1, _⟩ := hW.owner x n hx
        · rw [ho] at o1; cases o1; exact ⟨dn, o2, o3⟩
        · rw [ho] at o1; cases o1
      have hxd : d ≠ x := by rintro rfl; rw [hx] at hd; cases hd; exact ht hdt
      have hdd : ¬ Dies w x d := fun h => hxd (hdoc0 d dn hd hdt h)
      obtain ⟨w', h1, h2⟩ := unref_root hW S.attrs hx hr1 hp ht (fun _ => S.noHost x n hx) ho hd (fun h => (S.docs d dn hd hdt h).1)
      have hdl : dn.refcnt = 0 → NoLoose w d := by
        intro h0 f fn k1 k2 k3 k4
        have := S.frags f fn d dn k1 k2 k4 k3 hd
        omega
      have hcut : Cutting w (fun j => Dies w x j ∨ (j = d ∧ n.pendingIn ≠ none ∧ dn.refcnt = 0 ∧ ¬ Needed w x d)) (Orphaned w x)
          (fun j => j = d ∧ n.pendingIn ≠ none ∧ dn.refcnt = 0 ∧ Needed w x d) := by
        refine ⟨hol, ?_, ?_, ?_, ?_, hclean, ?_⟩
        · rintro j ⟨rfl, _⟩; exact ⟨dn, hd, hdt⟩
        · rintro j k1 (k2 | ⟨rfl, _⟩)
          · exact not_dies_orphaned hx hp k1 k2
          · obtain ⟨m, p, e1, e2⟩ := hol _ k1
            rw [hd] at e1; cases e1
            rw [doc_parent hC hd hdt] at e2; cases e2
        · intro c m p k1 k2 k3
          rcases k3 with (k3 | ⟨rfl, _, k4, _⟩) | ⟨rfl, _, k4, _⟩
          · rcases hdown0 c m p k1 k2 k3 with h | h
            · exact .inl (.inl h)
            · exact .inr h
          · exact absurd k2 (no_children hC hd hdt (S.docs p dn hd hdt k4).1 k1)
          · exact absurd k2 (no_children hC hd hdt (S.docs p dn hd hdt k4).1 k1)
        · intro c m p k1 k2 k3
          refine .inl (.inl ?_)
          rcases k3 with (k3 | ⟨rfl, _⟩) | k3
          · exact hup0 c m p k1 k2 (.inl k3)
          · rw [hd] at k1; cases k1
            rw [doc_parent hC hd hdt] at k2; cases k2
          · exact hup0 c m p k1 k2 (.inr k3)
        · rintro j m d2 k1 k2 k3 k4
          obtain ⟨d', dn2, o1, o2, o3⟩ | ⟨_, o1, _⟩ := hW.owner j m k1
          · rw [k3] at o1; cases o1
            rcases k4 with k4 | ⟨rfl, c1, c2, c3⟩
            · have := hdoc0 d2 dn2 o2 o3 k4
              subst this
              rw [hx] at o2; cases o2; exact ht o3
            · by_cases hjd : j = d2
              · exact k2 (.inr ⟨hjd, c1, c2, c3⟩)
              · obtain ⟨r, rn, r1, r2, r3, r4, r5⟩ := root_of hC hd hdt (S.docs d2 dn hd hdt c2).1 k1 hjd k3
                by_cases hrx : r = x
                · subst hrx
                  rcases sub_fate r1 ⟨m, k1⟩ with h | h
                  · exact k2 (.inl h)
                  · exact c3 (.inr h)
                · refine c3 (.inl ⟨r, rn, r2, ?_, fun h => hrx (dies_parentless h r2 r3)⟩)
                  rw [pending_root hW r2 r3 r5 fun hft => hdl c2 r rn r2 hft r4]
                  exact r4
          · rw [k3] at o1; cases o1
      obtain ⟨ch', hS⟩ := S.reaped h2 hcut (fun j m h hm => (orphaned_parent h hm).2)
        (by
          rintro d' ⟨rfl, _, _, hN⟩
          refine needed_left hW h2 hcut hx ho hd hdt ?_ (fun _ => Iff.rfl) hN
          rintro j m k1 k2 (k3 | ⟨rfl, _⟩)
          · exact k3
          · rw [hd] at k1; cases k1; exact absurd hdt k2)
        (by
          intro d2 dn2 hd2 hdt2 hdr2 hnD hnE
          obtain ⟨i, m, k1, k2⟩ := S.pending hd2 hdt2 hdr2
          obtain ⟨k3, k4, k5⟩ := pending_parent hW k1 k2
          have hnd : ¬ Dies w x i := by
            intro h
            have := dies_parentless h k1 k3
            subst this
            rw [hx] at k1; cases k1
            rw [ho] at k4; cases k4
            rw [hd] at hd2; cases hd2
            by_cases hN : Needed w i d
            · exact hnE ⟨rfl, by rw [k2]; simp, hdr2, hN⟩
            · exact hnD (.inr ⟨rfl, by rw [k2]; simp, hdr2, hN⟩)
          obtain ⟨m', hm'⟩ := h2.lives k1 (by
            rintro (h | ⟨rfl, _⟩)
            · exact hnd h
            · rw [hd] at k1; cases k1; exact k5 hdt)
          obtain ⟨_, m0, e1, _, e2, _⟩ := h2.kept hC hcut hm'
          rw [k1] at e1; cases e1
          exact ⟨i, m', hm', fun e => k5 (by rw [e, hd2] at k1; cases k1; exact hdt2), by rw [e2]; exact k4⟩)
        (by rintro d' ⟨rfl, _, h, _⟩; exact hdl h)
      exact ⟨w', ch', h1, hS⟩

end Dom.Tree
