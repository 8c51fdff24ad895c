import Verif.Tree.LifeRun
/-!
# Giving up a reference

What `dom_node_unref` does in every case.
-/
namespace Dom.Tree
set_option linter.unusedSimpArgs false

variable {w v : World} {ch : Children} {x c j d : NodeId} {n cn dn : Node}

/-! ## Specification -/

/-- The nodes that go when `x` is destroyed: `x` itself, and downwards every child and attribute to which no reference is held. -/
inductive Dies (w : World) (x : NodeId) : NodeId → Prop
  | self : Dies w x x
  | down {p c : NodeId} {n : Node} : Dies w x p → w.nodes c = some n → n.parent = some p → n.refcnt = 0 → Dies w x c

/-- The children and attributes of those nodes to which a reference is held. -/
def Orphaned (w : World) (x c : NodeId) : Prop := ∃ p n, Dies w x p ∧ w.nodes c = some n ∧ n.parent = some p ∧ n.refcnt ≠ 0

/-- Some node without parent will still need the document `d`. -/
def Needed (w : World) (x d : NodeId) : Prop := (∃ i m, w.nodes i = some m ∧ m.pendingIn = some d ∧ ¬ Dies w x i) ∨ ∃ i, Orphaned w x i

/-- The memory `w'` is `w` where the nodes of `D` are freed, those of `C` are cut off their parents (and on the pending list of their document),
and the documents of `E` are emptied. -/
structure Reaped (w w' : World) (D C E : NodeId → Prop) : Prop where
  dead : ∀ j, D j → w'.nodes j = none
  cut : ∀ j n, C j → ¬ D j → w.nodes j = some n → w'.nodes j = some { n with parent := none, pendingIn := n.owner }
  husk : ∀ j n, E j → ¬ D j → w.nodes j = some n → w'.nodes j = some (emptied { n with refcnt := 0 })
  same : ∀ j, ¬ D j → ¬ C j → ¬ E j → w'.nodes j = w.nodes j
  fresh : w'.fresh = w.fresh
  log : w'.log = w.log

/-! ## Heights -/

theorem tall_chain (hW : Core w ch) (hA : AttrOK w) : ∀ (k : Nat) (x : NodeId) (l : List NodeId), Chain w (some x) l → w.fresh + 1 ≤ k + l.length →
    Tall w ch k x := by
  intro k
  induction k with
  | zero => intro x l h hl; have := h.length_le hW; omega
  | succ k ih =>
    intro x l h hl c hc
    obtain ⟨cn, h1, h2⟩ := owned_parent hW hA hc
    refine ih c (c :: l) (.cons h1 (by rw [h2]; exact h)) ?_
    simp only [List.length_cons]; omega

theorem tall_live (hW : Core w ch) (hA : AttrOK w) (hx : w.nodes x = some n) {k : Nat} (hk : w.fresh ≤ k) : Tall w ch k x := by
  obtain ⟨l, hl⟩ := exists_chain hW.linked hW.wf x n hx
  refine tall_chain hW hA k x l hl ?_
  have : 0 < l.length := by cases hl; simp
  omega

/-! ## The lists and the specification -/

theorem owned_iff (hW : Core w ch) (hA : AttrOK w) : c ∈ owned w ch x ↔ ∃ n, w.nodes c = some n ∧ n.parent = some x := by
  refine ⟨fun h => owned_parent hW hA h, ?_⟩
  rintro ⟨n, h1, h2⟩
  by_cases ht : n.type = .attribute
  · exact List.mem_append_left _ ((hA x).2.2 c n h1 ht h2)
  · exact List.mem_append_right _ (hW.linked.up c n x h1 ht h2)

theorem unheld_iff : unheld w c = true ↔ ∃ n, w.nodes c = some n ∧ n.refcnt = 0 := by
  unfold unheld
  cases w.nodes c <;> simp

theorem Dies.trans {y : NodeId} (h1 : Dies w x y) (h2 : Dies w y c) : Dies w x c := by
  induction h2 with
  | self => exact h1
  | down _ a b c ih => exact .down ih a b c

/-- A node that dies with `x`: `x`, or one that dies with an owned node. -/
theorem dies_head (hW : Core w ch) (hA : AttrOK w) : Dies w x j ↔ j = x ∨ ∃ c ∈ owned w ch x, unheld w c = true ∧ Dies w c j := by
  constructor
  · intro h
    induction h with
    | self => exact .inl rfl
    | @down p c n _ h1 h2 h3 ih =>
      right
      rcases ih with rfl | ⟨a, ha, hu, hd⟩
      · exact ⟨c, (owned_iff hW hA).2 ⟨n, h1, h2⟩, unheld_iff.2 ⟨n, h1, h3⟩, .self⟩
      · exact ⟨a, ha, hu, hd.down h1 h2 h3⟩
  · rintro (rfl | ⟨c, hc, hu, hd⟩)
    · exact .self
    · obtain ⟨m, h1, h2⟩ := (owned_iff hW hA).1 hc
      obtain ⟨m', h3, h4⟩ := unheld_iff.1 hu
      rw [h1] at h3; cases h3
      exact Dies.trans (.down .self h1 h2 h4) hd

theorem mem_doomed (hW : Core w ch) (hA : AttrOK w) : ∀ (k : Nat) (x : NodeId), Tall w ch k x → (j ∈ doomed w ch k x ↔ Dies w x j) := by
  intro k
  induction k with
  | zero => intro x h; exact absurd h id
  | succ k ih =>
    intro x ht
    rw [doomed_succ, dies_head hW hA, List.mem_cons, List.mem_flatMap]
    refine or_congr Iff.rfl (exists_congr fun c => and_congr_right fun hc => ?_)
    unfold goes
    by_cases hu : unheld w c = true
    · simp only [hu, if_true, true_and]; exact ih c (ht c hc)
    · simp [hu]

theorem mem_cuts (hW : Core w ch) (hA : AttrOK w) : ∀ (k : Nat) (x : NodeId), Tall w ch k x → (j ∈ cuts w ch k x ↔ Orphaned w x j) := by
  intro k
  induction k with
  | zero => intro x h; exact absurd h id
  | succ k ih =>
    intro x ht
    rw [cuts_succ, List.mem_flatMap]
    constructor
    · rintro ⟨c, hc, h⟩
      obtain ⟨m, h1, h2⟩ := (owned_iff hW hA).1 hc
      unfold left at h
      by_cases hu : unheld w c = true
      · rw [if_pos hu, ih c (ht c hc)] at h
        obtain ⟨p, n, a1, a2⟩ := h
        exact ⟨p, n, (dies_head hW hA).2 (.inr ⟨c, hc, hu, a1⟩), a2⟩
      · rw [if_neg hu] at h
        simp at h; subst h
        exact ⟨x, m, .self, h1, h2, fun h => hu (unheld_iff.2 ⟨m, h1, h⟩)⟩
    · rintro ⟨p, n, a1, a2, a3, a4⟩
      rcases (dies_head hW hA).1 a1 with rfl | ⟨c, hc, hu, hd⟩
      · refine ⟨j, (owned_iff hW hA).2 ⟨n, a2, a3⟩, ?_⟩
        have : ¬ unheld w j = true := by
          rw [unheld_iff]; rintro ⟨m, h1, h2⟩
          rw [a2] at h1; cases h1; exact a4 h2
        simp [left, this]
      · refine ⟨c, hc, ?_⟩
        unfold left
        rw [if_pos hu, ih c (ht c hc)]
        exact ⟨p, n, hd, a2, a3, a4⟩

theorem dies_live (hx : w.nodes x = some n) (h : Dies w x j) : ∃ m, w.nodes j = some m := by
  cases h with
  | self => exact ⟨n, hx⟩
  | down _ h1 => exact ⟨_, h1⟩

theorem not_dies_orphaned (hx : w.nodes x = some n) (hp : n.parent = none) (h : Orphaned w x j) : ¬ Dies w x j := by
  obtain ⟨p, m, _, a1, a2, a3⟩ := h
  intro hd
  cases hd with
  | self => rw [hx] at a1; cases a1; rw [hp] at a2; cases a2
  | down _ h1 _ h3 => rw [a1] at h1; cases h1; exact a3 h3

theorem docPending_iff (hb : ∀ i m, w.nodes i = some m → i < w.fresh) : docPending w d = true ↔ ∃ i m, w.nodes i = some m ∧ m.pendingIn = some d := by
  unfold docPending
  rw [List.any_eq_true]
  constructor
  · rintro ⟨i, _, h⟩
    cases hi : w.nodes i with
    | none => rw [hi] at h; simp at h
    | some m => rw [hi] at h; exact ⟨i, m, hi, by simpa using h⟩
  · rintro ⟨i, m, h1, h2⟩
    exact ⟨i, List.mem_range.2 (hb i m h1), by simp [h1, h2]⟩

/-! ## `dom_node_unref` -/

/-- Not the last reference, or the node has a parent. -/
theorem unref_keep (hx : w.nodes x = some n) (hr : 0 < n.refcnt) (h : n.refcnt ≠ 1 ∨ n.parent ≠ none) :
    unref x w = .ok (w.upd x { n with refcnt := n.refcnt - 1 }) () := by
  have hs : sub32 n.refcnt 1 = n.refcnt - 1 := by unfold sub32; rw [if_pos (show 1 ≤ n.refcnt from hr)]
  unfold unref
  rw [bound_bind]
  unfold unrefWith
  rw [get_bind hx, mod_bind hx, hs]
  by_cases h1 : n.refcnt - 1 = 0
  · rw [if_pos h1]
    have hp : n.parent ≠ none := by
      rcases h with h | h
      · omega
      · exact h
    unfold tryDestroy
    rw [get_bind (n := { n with refcnt := n.refcnt - 1 }) (by simp [World.upd])]
    cases hpp : n.parent with
    | none => exact absurd hpp hp
    | some p => simp; rfl
  · rw [if_neg h1]; rfl

/-- The last reference to a node without parent. -/
theorem unref_last (hx : w.nodes x = some n) (hr : n.refcnt = 1) (hp : n.parent = none) :
    unref x w = destroyBody (destroy (w.fresh + 1)) x (w.upd x { n with refcnt := 0 }) := by
  have hs : sub32 n.refcnt 1 = 0 := by rw [hr]; rfl
  unfold unref
  rw [bound_bind]
  unfold unrefWith
  rw [get_bind hx, mod_bind hx, hs, if_pos rfl]
  unfold tryDestroy
  rw [get_bind (n := { n with refcnt := 0 }) (by simp [World.upd]), hp]
  rfl

/-- A memory without `x`. -/
def World.drop (w : World) (x : NodeId) : World := { w with nodes := fun j => if j = x then none else w.nodes j }

theorem finalise_leaf {kill : NodeId → M Unit} {u : World} (hx : u.nodes x = some n) (hf : n.first = none) (hp : n.pendingIn = none) :
    finalise kill x u = .ok (u.upd x (emptied n)) () := by
  unfold finalise
  rw [get_bind hx, bound_bind, hf]
  show ((pure () : M Unit) >>= _) u = _
  rw [pure_bind', mod_bind hx, get_bind (n := emptied n) (by simp [World.upd, emptied])]
  have : (emptied n).pendingIn = none := hp
  rw [this]; rfl

theorem doctypeDestroy_run {kill : NodeId → M Unit} {u : World} (hx : u.nodes x = some n) (ht : n.type = .doctype) (hf : n.first = none)
    (hp : n.pendingIn = none) : destroyBody kill x u = .ok ((u.upd x (emptied n)).drop x) () := by
  unfold destroyBody
  rw [get_bind hx, ht]
  show (finalise kill x >>= fun _ => freeNode x) u = _
  rw [bind_ok (finalise_leaf hx hf hp), freeNode_run (n := emptied n) (by simp [World.upd])]
  rfl

/-- The end of `_dom_document_destroy`. -/
theorem emptyDoc_run {kill : NodeId → M Unit} {u : World} (hd : u.nodes d = some dn) (ht : dn.type = .document) (hf : dn.first = none)
    (hp : dn.pendingIn = none) :
    destroyBody kill d u = .ok (if docPending (u.upd d (emptied dn)) d then u.upd d (emptied dn) else (u.upd d (emptied dn)).drop d) () := by
  unfold destroyBody
  rw [get_bind hd, ht]
  show docDestroy kill d u = _
  unfold docDestroy
  rw [bind_ok (finalise_leaf hd hf hp), bind_ok (a := docPending (u.upd d (emptied dn)) d) rfl]
  by_cases h : docPending (u.upd d (emptied dn)) d = true
  · rw [if_pos h, if_pos h]; rfl
  · rw [if_neg h, if_neg h, freeNode_run (n := emptied dn) (by simp [World.upd])]
    rfl

theorem leavePending_some {kill : NodeId → M Unit} {u : World} {h : Node} {e : NodeId} (hx : u.nodes x = some h) (hp : h.pendingIn = some e)
    (ho : h.owner = some d) (ht : h.type ≠ .document) :
    leavePending kill x h u = docTryDestroy kill d (u.upd x { h with pendingIn := none }) := by
  cases h
  simp only at hp ho ht
  subst hp ho
  unfold leavePending
  simp only []
  rw [mod_bind hx, if_pos ht]

/-- Giving up the last reference to a node without parent that is not a document. -/
theorem unref_root (hW : WF w ch) (hA : AttrOK w) (hx : w.nodes x = some n) (hr : n.refcnt = 1) (hp : n.parent = none) (hnd : n.type ≠ .document)
    (hh : n.type = .fragment → n.host = none) (ho : n.owner = some d) (hd : w.nodes d = some dn) (hde : dn.refcnt = 0 → dn.first = none) :
    ∃ w', unref x w = .ok w' () ∧
      Reaped w w' (fun j => Dies w x j ∨ (j = d ∧ n.pendingIn ≠ none ∧ dn.refcnt = 0 ∧ ¬ Needed w x d)) (Orphaned w x)
        (fun j => j = d ∧ n.pendingIn ≠ none ∧ dn.refcnt = 0 ∧ Needed w x d) := by
  have hC := hW.toCore
  have hdt : dn.type = .document := by
    obtain ⟨d', dn', o1, o2, o3⟩ | ⟨_, o1, _⟩ := hW.owner x n hx
    · rw [ho] at o1; cases o1; rw [hd] at o2; cases o2; exact o3
    · rw [ho] at o1; cases o1
  have hdx : d ≠ x := by rintro rfl; rw [hx] at hd; cases hd; exact hnd hdt
  have hdo := hW.ownDoc d dn hd hdt
  have hdpar : dn.parent = none := by
    cases h : dn.parent with
    | none => rfl
    | some q =>
      have : d ∈ ch q := hC.linked.up d dn q hd (by rw [hdt]; simp) h
      obtain ⟨qn, hqn⟩ := hC.linked.alive_parent hd h
      have := hW.types q qn d dn hqn this hd
      rw [hdt] at this
      exact absurd rfl this.child.2.1
  have hdp : dn.pendingIn = none := by
    rcases hW.pending d dn hd with h | ⟨_, h⟩
    · rw [h, hdt]; simp
    · exact h
  let k := w.fresh + 1
  have ht1 : Tall w ch (k + 1) x := tall_live hC hA hx (by omega)
  let D := (owned w ch x).flatMap (goes w ch k)
  let C := (owned w ch x).flatMap (left w ch k)
  have hD : ∀ j, j ∈ x :: D ↔ Dies w x j := fun j => mem_doomed hC hA (k + 1) x ht1
  have hCu : ∀ j, j ∈ C ↔ Orphaned w x j := fun j => mem_cuts hC hA (k + 1) x ht1
  let v := w.upd x { n with refcnt := 0 }
  let h0 := husk { n with refcnt := 0 }
  have hxD : ∀ j ∈ D, j ≠ x := by
    rintro j hj rfl
    obtain ⟨c, hc, h⟩ := List.mem_flatMap.1 hj
    exact not_sub_owner hC hA hc (goes_sub h)
  have hxC : ∀ j ∈ C, j ≠ x := by
    rintro j hj rfl
    obtain ⟨c, hc, h⟩ := List.mem_flatMap.1 hj
    exact not_sub_owner hC hA hc (left_sub h)
  have hdnotD : d ∉ D := by
    intro hj
    obtain ⟨c, hc, h⟩ := List.mem_flatMap.1 hj
    exact not_sub_doc hC hA hc hd hdt (goes_sub h)
  have hdnotC : d ∉ C := by
    intro hj
    obtain ⟨c, hc, h⟩ := List.mem_flatMap.1 hj
    exact not_sub_doc hC hA hc hd hdt (left_sub h)
  let U := (reap v D C).upd x h0
  have hUx : U.nodes x = some h0 := by simp [U, World.upd]
  have hUd : U.nodes d = some dn := by
    simp only [U]
    rw [upd_ne _ _ hdx, reap_other hdnotD hdnotC]
    simp only [v]
    rw [upd_ne _ _ hdx]; exact hd
  have hvj : ∀ j, j ≠ x → v.nodes j = w.nodes j := fun j hj => upd_ne _ _ hj
  have hcutn : ∀ j m, Orphaned w x j → w.nodes j = some m → cutNode m = { m with parent := none, pendingIn := m.owner } := by
    rintro j m ⟨p, m', _, a1, a2, _⟩ hm
    rw [hm] at a1; cases a1
    have : m.pendingIn = none := by
      rcases hW.pending j m hm with h | ⟨_, h⟩
      · rw [h, a2]; simp
      · exact h
    simp [cutNode, this]
  -- the memory when nothing happens to the document
  have hplain : ∀ (D' E' : NodeId → Prop), (∀ j, ¬ D' j) → (∀ j, ¬ E' j) → Reaped w (U.drop x) (fun j => Dies w x j ∨ D' j) (Orphaned w x) E' := by
    intro D' E' hD' hE'
    refine ⟨?_, ?_, fun j _ h => absurd h (hE' j), ?_, rfl, rfl⟩
    · rintro j (h | h)
      · by_cases hj : j = x
        · simp [World.drop, hj]
        · have : j ∈ D := by simpa [hj] using (hD j).2 h
          simp [World.drop, hj, U, World.upd, reap, this]
      · exact absurd h (hD' j)
    · intro j m hc hn hm
      have hjC := (hCu j).2 hc
      have hjx := hxC j hjC
      have hjD : j ∉ D := fun h => hn (.inl ((hD j).1 (List.mem_cons_of_mem _ h)))
      simp only [World.drop, hjx, if_false, U, World.upd, reap, hjD, hjC, if_true]
      rw [hvj j hjx, hm, Option.map_some, hcutn j m hc hm]
    · intro j h1 h2 _
      have hjx : j ≠ x := by rintro rfl; exact h1 (.inl .self)
      have hjD : j ∉ D := fun h => h1 (.inl ((hD j).1 (List.mem_cons_of_mem _ h)))
      have hjC : j ∉ C := fun h => h2 ((hCu j).1 h)
      simp only [World.drop, hjx, if_false, U, World.upd, reap, hjD, hjC]
      exact hvj j hjx
  have hbody : ∀ (u : World) (m : Node), leavePending (destroy k) x h0 U = .ok u () → u.nodes x = some m → m.host = n.host →
      unref x w = .ok (u.drop x) () := by
    intro u m h1 h2 h3
    rw [unref_last hx hr hp]
    exact body_run hW hA (kills_destroy hW hA k) hx ht1 hnd (v := v) (n' := { n with refcnt := 0 }) (by simp [v, World.upd]) rfl rfl rfl ho
      (by rw [hvj d hdx]; exact hd) (fun j _ hj => hvj j hj) rfl h1 h2 (fun hf => by rw [h3]; exact hh hf)
  have hq := husk_eq { n with refcnt := 0 }
  cases hpi : n.pendingIn with
  | none =>
    refine ⟨U.drop x, hbody U h0 ?_ hUx hq.2.2.2.1, hplain _ _ (by simp) (by simp)⟩
    unfold leavePending
    rw [hq.2.1]
    simp only [hpi]
    rfl
  | some d' =>
    let h1 : Node := { h0 with pendingIn := none }
    let U1 := U.upd x h1
    have hU1x : U1.nodes x = some h1 := by simp [U1, World.upd]
    have hU1d : U1.nodes d = some dn := by simp only [U1]; rw [upd_ne _ _ hdx]; exact hUd
    have hlp : leavePending (destroy k) x h0 U = docTryDestroy (destroy k) d U1 :=
      leavePending_some hUx (hq.2.1.trans hpi) (hq.2.2.1.trans ho) (by rw [hq.1]; exact hnd)
    have hdrop : U1.drop x = U.drop x := by
      simp only [World.drop, U1, World.upd, World.mk.injEq, and_true]
      funext j
      by_cases hj : j = x <;> simp [hj]
    by_cases hdr : dn.refcnt = 0
    · have hu := emptyDoc_run (kill := destroy w.fresh) hU1d hdt (hde hdr) hdp
      have hdoc : docTryDestroy (destroy k) d U1 = .ok (if docPending (U1.upd d (emptied dn)) d then U1.upd d (emptied dn) else (U1.upd d (emptied dn)).drop d) () := by
        unfold docTryDestroy
        rw [get_bind hU1d, if_neg (by simp [hdr, hdpar])]
        exact hu
      have hjw : ∀ j m, (U1.upd d (emptied dn)).nodes j = some m → j ≠ x → j ≠ d → j ∉ D ∧
          ∃ m', w.nodes j = some m' ∧ m = if j ∈ C then cutNode m' else m' := by
        intro j m hm hjx hjd
        rw [upd_ne _ _ hjd] at hm
        simp only [U1] at hm
        rw [upd_ne _ _ hjx] at hm
        simp only [U] at hm
        rw [upd_ne _ _ hjx] at hm
        simp only [reap] at hm
        by_cases hjD : j ∈ D
        · simp [hjD] at hm
        · refine ⟨hjD, ?_⟩
          rw [if_neg hjD, hvj j hjx] at hm
          by_cases hjC : j ∈ C
          · rw [if_pos hjC] at hm
            cases hw : w.nodes j with
            | none => rw [hw] at hm; cases hm
            | some m' => rw [hw] at hm; cases hm; exact ⟨m', rfl, by rw [if_pos hjC]⟩
          · rw [if_neg hjC] at hm
            exact ⟨m, hm, by rw [if_neg hjC]⟩
      have hneed : docPending (U1.upd d (emptied dn)) d = true ↔ Needed w x d := by
        rw [docPending_iff]
        · constructor
          · rintro ⟨i, m, h2, h3⟩
            have hix : i ≠ x := by
              rintro rfl
              rw [upd_ne _ _ (Ne.symm hdx), hU1x] at h2; cases h2
              simp [h1] at h3
            have hid : i ≠ d := by
              rintro rfl
              simp only [World.upd, if_true, Option.some.injEq] at h2
              subst h2
              have : (emptied dn).pendingIn = none := hdp
              rw [this] at h3; cases h3
            obtain ⟨hjD, m', h4, h5⟩ := hjw i m h2 hix hid
            by_cases hiC : i ∈ C
            · exact .inr ⟨i, (hCu i).1 hiC⟩
            · rw [if_neg hiC] at h5; subst h5
              refine .inl ⟨i, m, h4, h3, fun h => ?_⟩
              have := (hD i).2 h
              simp [hix, hjD] at this
          · rintro (⟨i, m, h2, h3, h4⟩ | ⟨i, hi⟩)
            · have hix : i ≠ x := by rintro rfl; exact h4 .self
              have hid : i ≠ d := by
                rintro rfl
                rw [hd] at h2; cases h2; rw [hdp] at h3; cases h3
              have hiD : i ∉ D := fun h => h4 ((hD i).1 (List.mem_cons_of_mem _ h))
              have hiC : i ∉ C := by
                intro h
                obtain ⟨p, m', _, a1, a2, _⟩ := (hCu i).1 h
                rw [h2] at a1; cases a1
                rcases hW.pending i m h2 with h | ⟨_, h⟩
                · rw [h, a2] at h3; simp at h3
                · rw [h] at h3; cases h3
              refine ⟨i, m, ?_, h3⟩
              rw [upd_ne _ _ hid]
              simp only [U1]
              rw [upd_ne _ _ hix]
              simp only [U]
              rw [upd_ne _ _ hix, reap_other hiD hiC, hvj i hix]
              exact h2
            · have hiC := (hCu i).2 hi
              have hix := hxC i hiC
              have hid : i ≠ d := by rintro rfl; exact hdnotC hiC
              have hnot := not_dies_orphaned hx hp hi
              have hiD : i ∉ D := fun h => hnot ((hD i).1 (List.mem_cons_of_mem _ h))
              obtain ⟨p, m, a0, a1, a2, _⟩ := hi
              refine ⟨i, cutNode m, ?_, ?_⟩
              · rw [upd_ne _ _ hid]
                simp only [U1]
                rw [upd_ne _ _ hix]
                simp only [U]
                rw [upd_ne _ _ hix]
                simp only [reap, hiD, hiC, if_false, if_true]
                rw [hvj i hix, a1]; rfl
              · rw [hcutn i m ⟨p, m, a0, a1, a2, by assumption⟩ a1]
                show m.owner = some d
                have hsub : ∀ y, Dies w x y → ∀ yn, w.nodes y = some yn → yn.owner = some d := by
                  intro y hy
                  induction hy with
                  | self => intro yn h; rw [hx] at h; cases h; exact ho
                  | @down p c cn hp' b1 b2 _ ih =>
                    intro yn h
                    rw [b1] at h; cases h
                    obtain ⟨pn, hpn⟩ := dies_live hx hp'
                    rw [hW.ownSame c _ p pn b1 b2 hpn]
                    exact ih pn hpn
                obtain ⟨pn, hpn⟩ := dies_live hx a0
                rw [hW.ownSame i m p pn a1 a2 hpn]
                exact hsub p a0 pn hpn
        · intro i m hi
          show i < w.fresh
          by_cases hix : i = x
          · rw [hix]; exact hW.bnd x n hx
          · by_cases hid : i = d
            · rw [hid]; exact hW.bnd d dn hd
            · obtain ⟨_, m', h4, _⟩ := hjw i m hi hix hid
              exact hW.bnd i m' h4
      by_cases hN : Needed w x d
      · rw [if_pos (hneed.2 hN)] at hdoc
        refine ⟨_, hbody _ h1 (hlp.trans hdoc) (by rw [upd_ne _ _ (Ne.symm hdx)]; exact hU1x) hq.2.2.2.1, ?_⟩
        have h2 := hplain (fun _ => False) (fun _ => False) (by simp) (by simp)
        have hnodes : ∀ j, j ≠ d → ((U1.upd d (emptied dn)).drop x).nodes j = (U.drop x).nodes j := by
          intro j hj
          rw [← hdrop]
          simp [World.drop, World.upd, hj]
        have hdDies : ¬ Dies w x d := fun h => by
          have := (hD d).2 h
          simp [hdx, hdnotD] at this
        refine ⟨?_, ?_, ?_, ?_, rfl, rfl⟩
        · rintro j (h | h)
          · have hjd : j ≠ d := by rintro rfl; exact hdDies h
            rw [hnodes j hjd]; exact h2.dead j (.inl h)
          · exact absurd hN h.2.2.2
        · intro j m h3 h4 h5
          have hjd : j ≠ d := by rintro rfl; exact hdnotC ((hCu _).2 h3)
          rw [hnodes j hjd]
          exact h2.cut j m h3 (fun h => by rcases h with h | h; exacts [h4 (.inl h), h]) h5
        · rintro j m ⟨rfl, _⟩ _ h5
          rw [hd] at h5; cases h5
          simp only [World.drop, if_neg hdx]
          simp only [World.upd, if_true]
          rw [← hdr]
        · intro j h3 h4 h5
          have hjd : j ≠ d := by rintro rfl; exact h5 ⟨rfl, by simp, hdr, hN⟩
          rw [hnodes j hjd]
          exact h2.same j (fun h => by rcases h with h | h; exacts [h3 (.inl h), h]) h4 id
      · rw [if_neg (fun h => hN (hneed.1 h))] at hdoc
        refine ⟨_, hbody _ h1 (hlp.trans hdoc) (by simp only [World.drop, if_neg (Ne.symm hdx)]; rw [upd_ne _ _ (Ne.symm hdx)]; exact hU1x) hq.2.2.2.1, ?_⟩
        have h2 := hplain (fun _ => False) (fun _ => False) (by simp) (by simp)
        have hnodes : ∀ j, j ≠ d → (((U1.upd d (emptied dn)).drop d).drop x).nodes j = (U.drop x).nodes j := by
          intro j hj
          rw [← hdrop]
          simp [World.drop, World.upd, hj]
        refine ⟨?_, ?_, ?_, ?_, rfl, rfl⟩
        · rintro j (h | h)
          · by_cases hjd : j = d
            · simp [World.drop, hjd]
            · rw [hnodes j hjd]; exact h2.dead j (.inl h)
          · simp [World.drop, h.1]
        · intro j m h3 h4 h5
          have hjd : j ≠ d := by rintro rfl; exact hdnotC ((hCu _).2 h3)
          rw [hnodes j hjd]
          exact h2.cut j m h3 (fun h => by rcases h with h | h; exacts [h4 (.inl h), h]) h5
        · rintro j m ⟨_, _, _, h⟩
          exact absurd h hN
        · intro j h3 h4 h5
          have hjd : j ≠ d := by rintro rfl; exact h3 (.inr ⟨rfl, by simp, hdr, hN⟩)
          rw [hnodes j hjd]
          exact h2.same j (fun h => by rcases h with h | h; exacts [h3 (.inl h), h]) h4 id
    · refine ⟨U1.drop x, hbody U1 h1 (hlp.trans ?_) hU1x hq.2.2.2.1, ?_⟩
      · unfold docTryDestroy
        rw [get_bind hU1d, if_pos (.inl hdr)]; rfl
      · rw [hdrop]; exact hplain _ _ (by simp [hdr]) (by simp [hdr])

/-- The same for a DocumentType that belongs to no document. -/
theorem unref_doctype (hW : WF w ch) (hA : AttrOK w) (hx : w.nodes x = some n) (hr : n.refcnt = 1) (hp : n.parent = none) (ht : n.type = .doctype)
    (ho : n.owner = none) : ∃ w', unref x w = .ok w' () ∧ Reaped w w' (Dies w x) (Orphaned w x) (fun _ => False) := by
  have hC := hW.toCore
  have hch : ch x = [] := by
    rw [List.eq_nil_iff_forall_not_mem]
    intro c hc
    obtain ⟨cn, h1, _⟩ := hC.linked.alive_child hc
    have := (hW.types x n c cn hx hc h1).parent
    exact this ht
  have how : owned w ch x = [] := by simp [owned, attrNodes, hx, ht, hch]
  have hfst : n.first = none := by
    obtain ⟨m, hm, h1, _⟩ := (hC.linked.loc x n hx).ends
    rw [hx] at hm; cases hm
    rw [h1, hch]; rfl
  have hpi : n.pendingIn = none := by
    rcases hW.pending x n hx with h | ⟨_, h⟩
    · rw [h, ho]; simp
    · exact h
  have hD : ∀ j, Dies w x j ↔ j = x := by
    intro j
    rw [dies_head hC hA, how]; simp
  have hO : ∀ j, ¬ Orphaned w x j := by
    rintro j ⟨p, m, a1, a2, a3, _⟩
    rw [hD] at a1; subst a1
    have := (owned_iff hC hA).2 ⟨m, a2, a3⟩
    rw [how] at this; cases this
  refine ⟨((w.upd x { n with refcnt := 0 }).upd x (emptied { n with refcnt := 0 })).drop x, ?_, ?_⟩
  · rw [unref_last hx hr hp]
    exact doctypeDestroy_run (by simp [World.upd]) ht hfst hpi
  · refine ⟨?_, fun j _ h => absurd h (hO j), fun j _ h => absurd h id, ?_, rfl, rfl⟩
    · intro j hj; rw [hD] at hj; simp [World.drop, hj]
    · intro j hj _ _
      rw [hD] at hj
      simp [World.drop, World.upd, hj]

/-- The same for a document. -/
theorem unref_document (hW : WF w ch) (hA : AttrOK w) (hx : w.nodes x = some n) (hr : n.refcnt = 1) (ht : n.type = .document) :
    ∃ w', unref x w = .ok w' () ∧ Reaped w w' (fun j => Dies w x j ∧ (j = x → ¬ Needed w x x)) (Orphaned w x) (fun j => j = x ∧ Needed w x x) := by
  have hC := hW.toCore
  have hp : n.parent = none := by
    cases h : n.parent with
    | none => rfl
    | some q =>
      have : x ∈ ch q := hC.linked.up x n q hx (by rw [ht]; simp) h
      obtain ⟨qn, hqn⟩ := hC.linked.alive_parent hx h
      have := hW.types q qn x n hqn this hx
      rw [ht] at this
      exact absurd rfl this.child.2.1
  have ho := hW.ownDoc x n hx ht
  have hpi : n.pendingIn = none := by
    rcases hW.pending x n hx with h | ⟨_, h⟩
    · rw [h, ht]; simp
    · exact h
  let k := w.fresh + 1
  have ht1 : Tall w ch (k + 1) x := tall_live hC hA hx (by omega)
  have how : owned w ch x = ch x := by simp [owned, attrNodes, hx, ht]
  have hK := owned_kids hW hA hx ht1 ho hx ht
  rw [how] at hK
  let D := (ch x).flatMap (goes w ch k)
  let C := (ch x).flatMap (left w ch k)
  have hD : ∀ j, j ∈ x :: D ↔ Dies w x j := by
    intro j
    have := mem_doomed (j := j) hC hA (k + 1) x ht1
    rw [doomed_succ, how] at this; exact this
  have hCu : ∀ j, j ∈ C ↔ Orphaned w x j := by
    intro j
    have := mem_cuts (j := j) hC hA (k + 1) x ht1
    rw [cuts_succ, how] at this; exact this
  have hxs : ∀ c ∈ ch x, ¬ Sub w ch c x := fun c hc => not_sub_owner hC hA (by rw [how]; exact hc)
  have hxD : x ∉ D := by
    intro hj
    obtain ⟨c, hc, h⟩ := List.mem_flatMap.1 hj
    exact hxs c hc (goes_sub h)
  have hxC : x ∉ C := by
    intro hj
    obtain ⟨c, hc, h⟩ := List.mem_flatMap.1 hj
    exact hxs c hc (left_sub h)
  let v := w.upd x { n with refcnt := 0 }
  have hvx : v.nodes x = some { n with refcnt := 0 } := by simp [v, World.upd]
  have hvj : ∀ j, j ≠ x → v.nodes j = w.nodes j := fun j hj => upd_ne _ _ hj
  let h0 := emptied { n with refcnt := 0 }
  let U := (reap v D C).upd x h0
  have hUx : U.nodes x = some h0 := by simp [U, World.upd]
  have hUj : ∀ j, j ≠ x → U.nodes j = if j ∈ D then none else if j ∈ C then (w.nodes j).map cutNode else w.nodes j := by
    intro j hj
    simp only [U]
    rw [upd_ne _ _ hj]
    simp only [reap, hvj j hj]
  have hfin : finalise (destroy k) x v = .ok U () := by
    rw [finalise_run hC (kills_destroy hW hA k) hx hK hxs hvx rfl hvx (fun a ha j hj => hvj j fun h => hxs a ha (h ▸ hj)) rfl]
    unfold leavePending
    have : (emptied { n with refcnt := 0 }).pendingIn = none := hpi
    rw [this]; rfl
  have hcutn : ∀ j m, Orphaned w x j → w.nodes j = some m → cutNode m = { m with parent := none, pendingIn := m.owner } ∧ m.owner = some x := by
    rintro j m ⟨p, m', a0, a1, a2, _⟩ hm
    rw [hm] at a1; cases a1
    have : m.pendingIn = none := by
      rcases hW.pending j m hm with h | ⟨_, h⟩
      · rw [h, a2]; simp
      · exact h
    refine ⟨by simp [cutNode, this], ?_⟩
    have hsub : ∀ y, Dies w x y → ∀ yn, w.nodes y = some yn → yn.owner = some x := by
      intro y hy
      induction hy with
      | self => intro yn h; rw [hx] at h; cases h; exact ho
      | @down p c cn hp' b1 b2 _ ih =>
        intro yn h
        rw [b1] at h; cases h
        obtain ⟨pn, hpn⟩ := dies_live hx hp'
        rw [hW.ownSame c _ p pn b1 b2 hpn]
        exact ih pn hpn
    obtain ⟨pn, hpn⟩ := dies_live hx a0
    rw [hW.ownSame j m p pn hm a2 hpn]
    exact hsub p a0 pn hpn
  have hneed : docPending U x = true ↔ Needed w x x := by
    rw [docPending_iff]
    · constructor
      · rintro ⟨i, m, h2, h3⟩
        have hix : i ≠ x := by
          rintro rfl
          rw [hUx] at h2; cases h2
          have : h0.pendingIn = none := hpi
          rw [this] at h3; cases h3
        rw [hUj i hix] at h2
        by_cases hiD : i ∈ D
        · rw [if_pos hiD] at h2; cases h2
        · rw [if_neg hiD] at h2
          by_cases hiC : i ∈ C
          · exact .inr ⟨i, (hCu i).1 hiC⟩
          · rw [if_neg hiC] at h2
            refine .inl ⟨i, m, h2, h3, fun h => ?_⟩
            have := (hD i).2 h
            simp [hix, hiD] at this
      · rintro (⟨i, m, h2, h3, h4⟩ | ⟨i, hi⟩)
        · have hix : i ≠ x := by rintro rfl; exact h4 .self
          have hiD : i ∉ D := fun h => h4 ((hD i).1 (List.mem_cons_of_mem _ h))
          have hiC : i ∉ C := by
            intro h
            obtain ⟨p, m', _, a1, a2, _⟩ := (hCu i).1 h
            rw [h2] at a1; cases a1
            rcases hW.pending i m h2 with h | ⟨_, h⟩
            · rw [h, a2] at h3; simp at h3
            · rw [h] at h3; cases h3
          exact ⟨i, m, by rw [hUj i hix, if_neg hiD, if_neg hiC]; exact h2, h3⟩
        · have hiC := (hCu i).2 hi
          have hix : i ≠ x := by rintro rfl; exact hxC hiC
          have hnot := not_dies_orphaned hx hp hi
          have hiD : i ∉ D := fun h => hnot ((hD i).1 (List.mem_cons_of_mem _ h))
          obtain ⟨m, hm⟩ : ∃ m, w.nodes i = some m := by obtain ⟨p, m, _, a, _⟩ := hi; exact ⟨m, a⟩
          obtain ⟨c1, c2⟩ := hcutn i m hi hm
          exact ⟨i, cutNode m, by rw [hUj i hix, if_neg hiD, if_pos hiC, hm]; rfl, by rw [c1]; exact c2⟩
    · intro i m hi
      show i < w.fresh
      by_cases hix : i = x
      · rw [hix]; exact hW.bnd x n hx
      · rw [hUj i hix] at hi
        cases hw : w.nodes i with
        | none => rw [hw] at hi; simp at hi
        | some m' => exact hW.bnd i m' hw
  have hun : unref x w = .ok (if docPending U x then U else U.drop x) () := by
    rw [unref_last hx hr hp]
    unfold destroyBody
    show (getNode x >>= _) v = _
    rw [get_bind hvx]
    simp only [ht]
    unfold docDestroy
    rw [bind_ok hfin, bind_ok (a := docPending U x) rfl]
    by_cases h : docPending U x = true
    · rw [if_pos h, if_pos h]; rfl
    · rw [if_neg h, if_neg h, freeNode_run hUx]; rfl
  have hrest : ∀ j, j ≠ x → (Dies w x j → U.nodes j = none) ∧
      (∀ m, Orphaned w x j → w.nodes j = some m → U.nodes j = some { m with parent := none, pendingIn := m.owner }) ∧
      (¬ Dies w x j → ¬ Orphaned w x j → U.nodes j = w.nodes j) := by
    intro j hj
    rw [hUj j hj]
    refine ⟨fun h => ?_, fun m h hm => ?_, fun h1 h2 => ?_⟩
    · have : j ∈ D := by simpa [hj] using (hD j).2 h
      rw [if_pos this]
    · have hnot := not_dies_orphaned hx hp h
      rw [if_neg fun h => hnot ((hD j).1 (List.mem_cons_of_mem _ h)), if_pos ((hCu j).2 h), hm, Option.map_some, (hcutn j m h hm).1]
    · rw [if_neg fun h => h1 ((hD j).1 (List.mem_cons_of_mem _ h)), if_neg fun h => h2 ((hCu j).1 h)]
  have hxO : ¬ Orphaned w x x := fun h => hxC ((hCu x).2 h)
  by_cases hN : Needed w x x
  · rw [if_pos (hneed.2 hN)] at hun
    refine ⟨U, hun, ?_, ?_, ?_, ?_, rfl, rfl⟩
    · rintro j ⟨h1, h2⟩
      exact (hrest j fun h => h2 h hN).1 h1
    · intro j m h1 _ h3
      have hj : j ≠ x := by rintro rfl; exact hxO h1
      exact (hrest j hj).2.1 m h1 h3
    · rintro j m ⟨rfl, _⟩ _ h
      rw [hx] at h; cases h
      exact hUx
    · intro j h1 h2 h3
      have hj : j ≠ x := by rintro rfl; exact h3 ⟨rfl, hN⟩
      exact (hrest j hj).2.2 (fun h => h1 ⟨h, fun h => absurd h hj⟩) h2
  · rw [if_neg (fun h => hN (hneed.1 h))] at hun
    have hdj : ∀ j, j ≠ x → (U.drop x).nodes j = U.nodes j := fun j hj => by simp [World.drop, hj]
    refine ⟨U.drop x, hun, ?_, ?_, ?_, ?_, rfl, rfl⟩
    · rintro j ⟨h1, h2⟩
      by_cases hj : j = x
      · simp [World.drop, hj]
      · rw [hdj j hj]; exact (hrest j hj).1 h1
    · intro j m h1 _ h3
      have hj : j ≠ x := by rintro rfl; exact hxO h1
      rw [hdj j hj]
      exact (hrest j hj).2.1 m h1 h3
    · rintro j m ⟨_, h⟩
      exact absurd h hN
    · intro j h1 h2 _
      have hj : j ≠ x := by rintro rfl; exact h1 ⟨.self, fun _ => hN⟩
      rw [hdj j hj]
      exact (hrest j hj).2.2 (fun h => h1 ⟨h, fun h => absurd h hj⟩) h2

end Dom.Tree
