import Verif.Tree.Mp
/-!
# Taking a node out of its parent
-/
namespace Dom.Tree
set_option linter.unusedSimpArgs false

/-- What `detach` does to the record at `j`, when `x` sits between `a` and `b` below `q`. -/
def detachedRec (x q : NodeId) (a b : List NodeId) (j : NodeId) (n : Node) : Node :=
  { n with
    parent := if j = x then none else n.parent
    prev := if j = x then none else if b.head? = some j then a.getLast? else n.prev
    next := if j = x then none else if a.getLast? = some j then b.head? else n.next
    first := if j = q ∧ a.getLast? = none then b.head? else n.first
    last := if j = q ∧ b.head? = none then a.getLast? else n.last
    pendingIn := if j = x then n.owner else n.pendingIn }

variable {w : World} {ch : Children}

theorem markPending_run {x : NodeId} {n : Node} (hx : w.nodes x = some n) {d : NodeId} {dn : Node}
    (ho : n.owner = some d) (hd : w.nodes d = some dn) (hp : n.pendingIn = none) :
    markPending x w = .ok (w.mp (fun j n => { n with pendingIn := if j = x then some d else n.pendingIn }) []) () := by
  unfold markPending
  rw [get_bind hx, ho]
  simp only [hp, Option.isNone_none]
  rw [cassert_bind, get_bind hd]
  conv => lhs; rw [← mp_id w]
  rw [mp_mod_run hx, setAt_pending]

theorem Core.doc_alive (hW : Core w ch) {x : NodeId} {n : Node} (hx : w.nodes x = some n)
    (h : n.type ≠ .doctype ∨ n.parent ≠ none ∨ n.owner ≠ none) :
    ∃ d dn, n.owner = some d ∧ w.nodes d = some dn ∧ dn.type = .document := by
  rcases hW.owner x n hx with h' | ⟨h1, h2, h3⟩
  · exact h'
  · rcases h with h | h | h
    · exact absurd h1 h
    · exact absurd h3 h
    · exact absurd h2 h

theorem Core.below_owner (hW : Core w ch) {x y : NodeId} (h : Below ch x y) (hne : y ≠ x) :
    ∃ m, w.nodes y = some m ∧ m.owner.isSome := by
  rcases Relation.ReflTransGen.cases_tail h with rfl | ⟨p, _, hc⟩
  · exact absurd rfl hne
  · obtain ⟨m, hm, _, hp⟩ := hW.linked.alive_child hc
    obtain ⟨d, _, hd, _⟩ := hW.doc_alive hm (.inr (.inl (by simp [hp])))
    exact ⟨m, hm, by simp [hd]⟩

/-- The records while the removal events are fired: the neighbours are linked past `x` already. -/
def halfRec (x q d : NodeId) (a b : List NodeId) (j : NodeId) (n : Node) : Node :=
  backRec b.head? q a.getLast? j (fwdRec a.getLast? q b.head? j
    { n with pendingIn := if j = x then some d else n.pendingIn })

theorem detach_run (hW : WF w ch) {x q : NodeId} {a b : List NodeId} (hab : ch q = a ++ x :: b) :
    detach x w = .ok (w.mp (detachedRec x q a b)
      (changeEvents ch w.fresh true x (some q) .removal ++
        [{ kind := .subtreeModified, target := q, related := some q }])) () := by
  have hL := hW.linked
  have hxq : x ∈ ch q := by simp [hab]
  obtain ⟨n, hn, hattr, hpar⟩ := hL.alive_child hxq
  obtain ⟨qn, hqn⟩ := hL.alive_parent hn hpar
  have hqloc := hL.loc q qn hqn
  obtain ⟨n', hn', _, _, hprev, hnext⟩ := hqloc.kids a x b hab
  rw [hn] at hn'; cases hn'
  obtain ⟨d, dn, hown, hd, _⟩ := hW.doc_alive hn (.inr (.inl (by simp [hpar])))
  have hqown : qn.owner = some d := by
    rw [← hW.ownSame x n q qn hn hpar hqn]; exact hown
  have hnd := hqloc.nodup
  rw [hab] at hnd
  have hxa : x ∉ a := fun h => (List.nodup_append.1 hnd).2.2 x h x (by simp) rfl
  have hxb : x ∉ b := (List.nodup_cons.1 (List.nodup_append.1 hnd).2.1).1
  have hxne : x ≠ q := by
    rintro rfl
    exact not_below_child hL hW.wf hxq .refl
  have hpend : n.pendingIn = none := by
    rcases hW.pending x n hn with h | ⟨_, h⟩
    · simpa [hpar] using h
    · exact h
  have hprevx : a.getLast? ≠ some x := fun h => hxa (List.mem_of_getLast? h)
  have hnextx : b.head? ≠ some x := fun h => hxb (List.mem_of_head? h)
  unfold detach
  rw [bind_ok (markPending_run hn hown hd hpend), mp_get_bind hn]
  simp only [hprev, hnext, hpar, hown]
  rw [bind_ok (linkFwd_run hqn (fun p hp => by
    have : p ∈ ch q := by rw [hab]; simp [List.mem_of_getLast? hp]
    obtain ⟨m, hm, _⟩ := hL.alive_child this; exact ⟨m, hm⟩) _ _)]
  rw [bind_ok (linkBack_run hqn (fun p hp => by
    have : p ∈ ch q := by rw [hab]; simp [List.mem_of_head? hp]
    obtain ⟨m, hm, _⟩ := hL.alive_child this; exact ⟨m, hm⟩) _ _)]
  change (dispatchNodeChange (some d) x (some q) .removal >>= _) (w.mp (halfRec x q d a b) []) = _
  -- the change events, fired while the node is half unlinked
  have hfields : ∀ j m, let r := halfRec x q d a b j m
      r.type = m.type ∧ r.parent = m.parent ∧ r.owner = m.owner ∧
      (j ≠ q → r.first = m.first ∧ r.last = m.last) ∧
      (b.head? ≠ some j → r.prev = m.prev) ∧ (a.getLast? ≠ some j → r.next = m.next) := by
    intro j m
    simp only [halfRec, fwdRec, backRec]
    refine ⟨trivial, trivial, trivial, ?_, ?_, ?_⟩
    · intro h; simp [h]
    · intro h; simp [h]
    · intro h; simp [h]
  have hdisp := dispatchNodeChange_run (ch := ch) (w := w.mp _ [])
    (mp_some hd (halfRec x q d a b) [])
    (mp_some hn _ []) (some q) .removal (k := w.fresh) (hW.ht hn)
    (fun y hy => by
      obtain ⟨yn, hyn⟩ := hy.alive hL hn
      have hyq : y ≠ q := by
        rintro rfl; exact not_below_child hL hW.wf hxq hy
      refine (hL.loc y yn hyn).mp (fun m _ => (hfields y m).2.2.2.1 hyq) ?_
      intro c hc m _
      obtain ⟨f1, f2, f3, f4, f5, f6⟩ := hfields c m
      have hcq : c ∉ ch q := fun h => hyq (hL.mem_unique hc h)
      rw [hab] at hcq
      simp only [List.mem_append, List.mem_cons, not_or] at hcq
      exact ⟨f1, f2, f5 (fun h => hcq.2.2 (List.mem_of_head? h)),
        f6 (fun h => hcq.1 (List.mem_of_getLast? h))⟩)
    (fun y hy hyx => by
      obtain ⟨m, hm, ho⟩ := hW.below_owner hy hyx
      exact ⟨_, mp_some hm _ _, by rw [(hfields y m).2.2.1]; exact ho⟩)
    (fun c hc => not_below_child hL hW.wf hc)
    (preorder_length_le hW.toCore _ hn)
  rw [(hfields x n).2.2.1, hown] at hdisp
  simp only [Option.isSome_some, mp_addLog, List.nil_append] at hdisp
  rw [bind_ok hdisp, mp_mod_bind hn, deref_bind, mp_get_bind hqn]
  have hqo : ∀ g : NodeId → Node → Node, (∀ j m, (g j m).owner = m.owner) →
      (setAt x (fun x => { x with parent := none }) g q qn).owner = some d := by
    intro g hg
    simp only [setAt, if_neg (Ne.symm hxne), hg, hqown]
  rw [hqo _ fun j m => (hfields j m).2.2.1]
  unfold fireSubtreeModified
  rw [fire_bind (mp_some hd _ _) (mp_some hqn _ _), hqo _ fun j m => (hfields j m).2.2.1]
  simp only [Option.isSome_some, if_true, mp_addLog]
  rw [mp_mod_bind hn, mp_mod_run hn]
  congr 1
  refine mp_congr _ ?_
  intro j m hm
  simp only [setAt_parent, setAt_prev, setAt_next, halfRec, fwdRec, backRec, detachedRec]
  by_cases hjx : j = x
  · subst hjx
    rw [hn] at hm; cases hm; simp [hown]
  · simp [hjx]

/-- `ch` with the children of `q` replaced. -/
def setCh (ch : Children) (q : NodeId) (l : List NodeId) : Children := fun p => if p = q then l else ch p

@[simp] theorem setCh_same (ch : Children) (q l) : setCh ch q l q = l := by simp [setCh]
theorem setCh_ne (ch : Children) {p q : NodeId} (l) (h : p ≠ q) : setCh ch q l p = ch p := by simp [setCh, h]

theorem mp_some_iff {g : NodeId → Node → Node} {l : List Ev} {j : NodeId} {m : Node} :
    (w.mp g l).nodes j = some m ↔ ∃ n, w.nodes j = some n ∧ g j n = m := by
  simp [mp_nodes]

theorem mp_none_iff {g : NodeId → Node → Node} {l : List Ev} {j : NodeId} :
    (w.mp g l).nodes j = none ↔ w.nodes j = none := by
  simp [mp_nodes]

theorem MayContain.child {p c : NodeType} (h : MayContain p c) :
    c ≠ .attribute ∧ c ≠ .document ∧ c ≠ .fragment ∧ c ≠ .entity ∧ c ≠ .notation_ := by
  cases h with
  | content _ hc => revert hc; cases c <;> simp
  | attr hc => revert hc; cases c <;> simp
  | doc hc => revert hc; cases c <;> simp

theorem WF_detached (hW : WF w ch) {x q : NodeId} {a b : List NodeId} (hab : ch q = a ++ x :: b)
    (l : List Ev) : WF (w.mp (detachedRec x q a b) l) (setCh ch q (a ++ b)) := by
  have hL := hW.linked
  have hxq : x ∈ ch q := by simp [hab]
  obtain ⟨xn, hxn, hattr, hpar⟩ := hL.alive_child hxq
  obtain ⟨qn, hqn⟩ := hL.alive_parent hxn hpar
  have hqloc := hL.loc q qn hqn
  have hnd := hqloc.nodup
  have hndab := hnd
  rw [hab] at hnd
  have hxa : x ∉ a := fun h => (List.nodup_append.1 hnd).2.2 x h x (by simp) rfl
  have hxb : x ∉ b := (List.nodup_cons.1 (List.nodup_append.1 hnd).2.1).1
  have hnda : a.Nodup := (List.nodup_append.1 hnd).1
  have hndb : b.Nodup := (List.nodup_cons.1 (List.nodup_append.1 hnd).2.1).2
  have hdisj : ∀ y ∈ a, y ∉ b := fun y hy hb => (List.nodup_append.1 hnd).2.2 y hy y (by simp [hb]) rfl
  have hxne : x ≠ q := by
    rintro rfl
    exact not_below_child hL hW.wf hxq .refl
  have hsub : ∀ p c, ParentOf (w.mp (detachedRec x q a b) l) c p → ParentOf w c p := by
    rintro p c ⟨m, hm, hp⟩
    obtain ⟨n, hn, rfl⟩ := mp_some_iff.1 hm
    refine ⟨n, hn, ?_⟩
    simp only [detachedRec] at hp
    split at hp
    · simp at hp
    · exact hp
  have hmem : ∀ p c, c ∈ setCh ch q (a ++ b) p ↔ c ∈ ch p ∧ c ≠ x := by
    intro p c
    by_cases hp : p = q
    · subst hp
      simp only [setCh_same, hab, List.mem_append, List.mem_cons]
      constructor
      · rintro (h | h)
        · exact ⟨.inl h, by rintro rfl; exact hxa h⟩
        · exact ⟨.inr (.inr h), by rintro rfl; exact hxb h⟩
      · rintro ⟨h | h | h, hne⟩
        · exact .inl h
        · exact absurd h hne
        · exact .inr h
    · rw [setCh_ne _ _ hp]
      constructor
      · intro h
        exact ⟨h, by rintro rfl; exact hp (hL.mem_unique h hxq)⟩
      · exact fun h => h.1
  refine { toCore := ⟨⟨?_, ?_, ?_, ?_, ?_⟩, ?_, ?_, ?_, ?_, ?_, ?_⟩, pending := ?_ }
  · -- loc
    intro p pm hpm
    obtain ⟨pn, hpn, rfl⟩ := mp_some_iff.1 hpm
    by_cases hp : p = q
    · subst hp
      rw [hqn] at hpn; cases hpn
      obtain ⟨n', hn', hfirst, hlast⟩ := hqloc.ends
      rw [hqn] at hn'; cases hn'
      refine ⟨⟨_, hpm, ?_, ?_⟩, ?_, ?_⟩
      · simp only [detachedRec, setCh_same, true_and, hfirst, hab, List.head?_append, List.head?_cons]
        cases ha : a with
        | nil => simp
        | cons => simp
      · simp only [detachedRec, setCh_same, true_and, hlast, hab]
        rcases List.eq_nil_or_concat b with rfl | ⟨b', y, rfl⟩
        · simp
        · have : (b' ++ [y]).head? ≠ none := by simp
          simp only [List.concat_eq_append, this, if_false]
          rw [← List.append_assoc, ← List.cons_append, ← List.append_assoc]
          simp only [List.getLast?_concat]
      · intro a' c b' hcb
        rw [setCh_same] at hcb
        rcases List.append_eq_append_iff.1 hcb with ⟨as, rfl, hb⟩ | ⟨cs, ha, hc⟩
        · -- `c` lies behind `x`
          have hca : c ∉ a := fun h => hdisj c h (by simp [hb])
          obtain ⟨n, hn, h1, h2, h3, h4⟩ := hqloc.kids (a ++ x :: as) c b' (by simp [hab, hb])
          have hcx : c ≠ x := by rintro rfl; exact hxb (by simp [hb])
          refine ⟨_, mp_some hn _ _, h1, ?_, ?_, ?_⟩
          · simp [detachedRec, hcx, h2]
          · simp only [detachedRec, hcx, if_false]
            cases as with
            | nil => simp [hb]
            | cons y as =>
              have hyc : y ≠ c := by
                rintro rfl
                rw [hb] at hndb
                exact (List.nodup_cons.1 hndb).1 (by simp)
              simp [hb, hyc, h3, List.getLast?_append, List.getLast?_cons]
          · have : a.getLast? ≠ some c := fun h => hca (List.mem_of_getLast? h)
            simp [detachedRec, hcx, this, h4]
        · cases cs with
          | nil =>
            simp only [List.nil_append] at hc
            simp only [List.append_nil] at ha
            subst ha
            have hca : c ∉ a := fun h => hdisj c h (by simp [← hc])
            obtain ⟨n, hn, h1, h2, h3, h4⟩ := hqloc.kids (a ++ [x]) c b' (by simp [hab, hc])
            have hcx : c ≠ x := by rintro rfl; exact hxb (by simp [← hc])
            have : a.getLast? ≠ some c := fun h => hca (List.mem_of_getLast? h)
            refine ⟨_, mp_some hn _ _, h1, ?_, ?_, ?_⟩
            · simp [detachedRec, hcx, h2]
            · simp [detachedRec, hcx, ← hc]
            · simp [detachedRec, hcx, this, h4]
          | cons y cs =>
            obtain ⟨rfl, rfl⟩ : c = y ∧ b' = cs ++ b := by simpa using hc
            have hcb' : c ∉ b := hdisj c (by simp [ha])
            obtain ⟨n, hn, h1, h2, h3, h4⟩ := hqloc.kids a' c (cs ++ x :: b) (by simp [hab, ha])
            have hcx : c ≠ x := by rintro rfl; exact hxa (by simp [ha])
            have hbh : b.head? ≠ some c := fun h => hcb' (List.mem_of_head? h)
            refine ⟨_, mp_some hn _ _, h1, ?_, ?_, ?_⟩
            · simp [detachedRec, hcx, h2]
            · simp [detachedRec, hcx, hbh, h3]
            · simp only [detachedRec, hcx, if_false]
              rcases List.eq_nil_or_concat cs with rfl | ⟨cs', z, rfl⟩
              · simp [ha]
              · have hzc : z ≠ c := by
                  rintro rfl
                  rw [ha] at hnda
                  have := (List.nodup_append.1 hnda).2.1
                  exact (List.nodup_cons.1 this).1 (by simp)
                have : a.getLast? ≠ some c := by
                  rw [ha]; simp [hzc, List.getLast?_append, List.getLast?_cons]
                simp only [this, if_false, h4]
                cases cs' <;> simp
      · rw [setCh_same]
        exact List.nodup_append.2 ⟨hnda, hndb, fun y hy z hz => by rintro rfl; exact hdisj y hy hz⟩
    · have hloc := hL.loc p pn hpn
      have hkid : ∀ c ∈ ch p, c ≠ x ∧ c ∉ a ∧ c ∉ b := by
        intro c hc
        have hcq : c ∉ ch q := fun h => hp (hL.mem_unique hc h)
        rw [hab] at hcq
        simp only [List.mem_append, List.mem_cons, not_or] at hcq
        exact ⟨hcq.2.1, hcq.1, hcq.2.2⟩
      have := hloc.mp (g := detachedRec x q a b) (l := l) (fun m _ => by simp [detachedRec, hp])
        (fun c hc m _ => by
          obtain ⟨h1, h2, h3⟩ := hkid c hc
          have e1 : b.head? ≠ some c := fun h => h3 (List.mem_of_head? h)
          have e2 : a.getLast? ≠ some c := fun h => h2 (List.mem_of_getLast? h)
          simp [detachedRec, h1, e1, e2])
      exact ⟨by rw [setCh_ne _ _ hp]; exact this.ends, by rw [setCh_ne _ _ hp]; exact this.kids,
        by rw [setCh_ne _ _ hp]; exact this.nodup⟩
  · -- dead
    intro p hp
    have hp' := mp_none_iff.1 hp
    have : p ≠ q := by rintro rfl; rw [hqn] at hp'; simp at hp'
    rw [setCh_ne _ _ this]; exact hL.dead p hp'
  · -- up
    intro c m p hm ht hp
    obtain ⟨n, hn, rfl⟩ := mp_some_iff.1 hm
    by_cases hcx : c = x
    · simp [detachedRec, hcx] at hp
    · simp only [detachedRec, hcx, if_false] at hp ht
      exact (hmem p c).2 ⟨hL.up c n p hn ht hp, hcx⟩
  · -- attrUp
    intro c m p hm ht hp
    obtain ⟨n, hn, rfl⟩ := mp_some_iff.1 hm
    by_cases hcx : c = x
    · simp [detachedRec, hcx] at hp
    · simp only [detachedRec, hcx, if_false] at hp ht
      obtain ⟨e, he, het⟩ := hL.attrUp c n p hn ht hp
      exact ⟨_, mp_some he _ _, het⟩
  · -- orphan
    intro c m hm h
    obtain ⟨n, hn, rfl⟩ := mp_some_iff.1 hm
    by_cases hcx : c = x
    · simp [detachedRec, hcx]
    · simp only [detachedRec, hcx, if_false] at h ⊢
      obtain ⟨h1, h2⟩ := hL.orphan c n hn h
      have hcq : c ∉ ch q := by
        intro hc
        obtain ⟨n', hn', ht, hp⟩ := hL.alive_child hc
        rw [hn] at hn'; cases hn'
        rcases h with h | h
        · rw [h] at hp; simp at hp
        · exact ht h
      rw [hab] at hcq
      simp only [List.mem_append, List.mem_cons, not_or] at hcq
      have e1 : b.head? ≠ some c := fun h => hcq.2.2 (List.mem_of_head? h)
      have e2 : a.getLast? ≠ some c := fun h => hcq.1 (List.mem_of_getLast? h)
      simp [e1, e2, h1, h2]
  · -- bnd
    intro i m hm
    obtain ⟨n, hn, rfl⟩ := mp_some_iff.1 hm
    exact hW.bnd i n hn
  · exact Subrelation.wf (fun {p c} h => hsub p c h) hW.wf
  · -- owner
    intro i m hm
    obtain ⟨n, hn, rfl⟩ := mp_some_iff.1 hm
    rcases hW.owner i n hn with ⟨d, dn, h1, h2, h3⟩ | ⟨h1, h2, h3⟩
    · exact .inl ⟨d, _, h1, mp_some h2 _ _, h3⟩
    · exact .inr ⟨h1, h2, by simp only [detachedRec]; split <;> [rfl; exact h3]⟩
  · intro i m hm ht
    obtain ⟨n, hn, rfl⟩ := mp_some_iff.1 hm
    exact hW.ownDoc i n hn ht
  · intro i m p pm hm hp hpm
    obtain ⟨n, hn, rfl⟩ := mp_some_iff.1 hm
    obtain ⟨pn, hpn, rfl⟩ := mp_some_iff.1 hpm
    obtain ⟨n', hn', hp'⟩ := hsub p i ⟨_, hm, hp⟩
    rw [hn] at hn'; cases hn'
    exact hW.ownSame i n p pn hn hp' hpn
  · intro p pm c cm hpm hc hcm
    obtain ⟨pn, hpn, rfl⟩ := mp_some_iff.1 hpm
    obtain ⟨cn, hcn, rfl⟩ := mp_some_iff.1 hcm
    exact hW.types p pn c cn hpn ((hmem p c).1 hc).1 hcn
  · -- pending
    intro i m hm
    obtain ⟨n, hn, rfl⟩ := mp_some_iff.1 hm
    by_cases hix : i = x
    · subst hix
      rw [hxn] at hn; cases hn
      have : xn.type ≠ .document := (hW.types q qn i xn hqn hxq hxn).child.2.1
      left; simp [detachedRec, this]
    · rcases hW.pending i n hn with h | ⟨h1, h2⟩
      · left; simp [detachedRec, hix, h]
      · right; simp [detachedRec, hix, h1, h2]

end Dom.Tree
