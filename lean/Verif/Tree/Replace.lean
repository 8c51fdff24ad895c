import Verif.Tree.Mutate
/-!
# `replaceChild`: every outcome
-/
namespace Dom.Tree
set_option linter.unusedSimpArgs false

variable {w : World} {ch : Children} {β : Type}

/-- The place of `old` between `a` and `b` below `p`, and the run `seg` of nodes to put there. -/
structure Slot (w : World) (p old : NodeId) (a b seg : List NodeId) : Prop where
  par : ∃ pn, w.nodes p = some pn
  olds : ∃ on, w.nodes old = some on ∧ on.parent = some p ∧ on.prev = a.getLast? ∧ on.next = b.head?
  sibs : ∀ x, x ∈ a ∨ x ∈ b → ∃ n, w.nodes x = some n
  kids : ∀ s1 c s2, seg = s1 ++ c :: s2 → ∃ n, w.nodes c = some n ∧ n.next = s2.head?
  nodup : seg.Nodup
  disj : ∀ x ∈ seg, x ∉ a ∧ x ∉ b ∧ x ≠ old
  oldab : old ∉ a ∧ old ∉ b
  oldp : old ≠ p
  len : seg.length ≤ w.fresh + 1

theorem replaceLoop_run {p old : NodeId} {a b seg : List NodeId} (hs : Slot w p old a b seg)
    {last : NodeId} (hlast : seg.getLast? = some last) :
    ∀ (s2 s1 : List NodeId), seg = s1 ++ s2 → ∀ fuel, s2.length ≤ fuel → ∀ l,
    replaceLoop (some p) last fuel (s2.head?.or b.head?) (w.mp (spliceRec p a b seg s1) l) =
      .ok (w.mp (spliceRec p a b seg seg) l) () := by
  have hlm : last ∈ seg := List.mem_of_getLast? hlast
  obtain ⟨s, t, hst⟩ := List.append_of_mem hlm
  obtain ⟨ln, hln, _⟩ := hs.kids s last t hst
  have hlnext : ∀ done, (spliceRec p a b seg done last ln).next = b.head? := by
    intro done
    have : a.getLast? ≠ some last := fun h => (hs.disj last hlm).1 (List.mem_of_getLast? h)
    simp [spliceRec, this, hlast]
  intro s2
  induction s2 with
  | nil =>
    intro s1 hseg fuel _ l
    simp only [List.append_nil] at hseg
    subst hseg
    cases b with
    | nil => unfold replaceLoop; rfl
    | cons y b =>
      have : ([] : List NodeId).head?.or (y :: b).head? = some y := rfl
      rw [this]
      unfold replaceLoop
      dsimp only
      rw [mp_get_bind hln, hlnext]
      simp [pure_run]
  | cons c s2 ih =>
    intro s1 hseg fuel hfuel l
    have hcs : c ∈ seg := by simp [hseg]
    obtain ⟨cn, hcn, hcnext⟩ := hs.kids s1 c s2 hseg
    obtain ⟨hca, hcb, _⟩ := hs.disj c hcs
    cases fuel with
    | zero => simp at hfuel
    | succ fuel =>
      have hcur : ((c :: s2).head?.or b.head?) = some c := rfl
      rw [hcur]
      unfold replaceLoop
      dsimp only
      rw [mp_get_bind hln, hlnext]
      have hne : (some c : Option NodeId) ≠ b.head? := fun h => hcb (List.mem_of_head? h.symm)
      rw [if_neg hne, mp_mod_bind hcn]
      have hg : setAt c (fun x => { x with parent := some p }) (spliceRec p a b seg s1) =
          spliceRec p a b seg (s1 ++ [c]) := by
        rw [setAt_parent]
        funext j n
        simp only [spliceRec, List.mem_append, List.mem_singleton]
        by_cases h1 : j = c
        · simp [h1]
        · simp [h1]
      rw [hg, mp_get_bind hcn]
      have hnext : (spliceRec p a b seg (s1 ++ [c]) c cn).next = s2.head?.or b.head? := by
        have e2 : a.getLast? ≠ some c := fun h => hca (List.mem_of_getLast? h)
        simp only [spliceRec, e2, if_false, hcnext]
        cases s2 with
        | nil => simp [hseg]
        | cons y s2 =>
          have : seg.getLast? ≠ some c := by
            intro h
            have hnd := hs.nodup
            rw [hseg] at hnd h
            rw [List.getLast?_append_of_ne_nil _ (by simp), List.getLast?_cons_cons] at h
            exact (List.nodup_cons.1 (List.nodup_append.1 hnd).2.1).1 (List.mem_of_getLast? h)
          simp [this]
      rw [hnext, ih (s1 ++ [c]) (by simp [hseg]) fuel (by simpa using hfuel)]

theorem setAt_gone (i : NodeId) (g : NodeId → Node → Node) :
    setAt i (fun x => { x with prev := none, next := none, parent := none }) g = fun j n =>
      { g j n with
        prev := if j = i then none else (g j n).prev
        next := if j = i then none else (g j n).next
        parent := if j = i then none else (g j n).parent } := by
  funext j n
  unfold setAt
  by_cases h : j = i <;> simp [h]

/-- The records after `replaceByRange`. -/
def replacedRec (p old : NodeId) (a b seg : List NodeId) (j : NodeId) (n : Node) : Node :=
  { spliceRec p a b seg seg j n with
    prev := if j = old then none else (spliceRec p a b seg seg j n).prev
    next := if j = old then none else (spliceRec p a b seg seg j n).next
    parent := if j = old then none else (spliceRec p a b seg seg j n).parent }

theorem replaceByRange_run {p old : NodeId} {a b seg : List NodeId} (hs : Slot w p old a b seg)
    {fst lst : NodeId} (hfst : seg.head? = some fst) (hlst : seg.getLast? = some lst) :
    replaceByRange old fst lst w = .ok (w.mp (replacedRec p old a b seg) []) () := by
  obtain ⟨pn, hp⟩ := hs.par
  obtain ⟨on, ho, h1, h2, h3⟩ := hs.olds
  obtain ⟨s, t, hst⟩ := List.append_of_mem (List.mem_of_head? hfst)
  obtain ⟨fn, hfn, _⟩ := hs.kids s fst t hst
  obtain ⟨s', t', hst'⟩ := List.append_of_mem (List.mem_of_getLast? hlst)
  obtain ⟨ln, hln, _⟩ := hs.kids s' lst t' hst'
  unfold replaceByRange
  conv => lhs; rw [← mp_id w]
  rw [mp_get_bind ho, h1, h2, h3, mp_mod_bind hfn, mp_mod_bind hln,
    bind_ok (linkFwd_run hp (fun x hx => hs.sibs x (.inl (List.mem_of_getLast? hx))) _ _),
    bind_ok (linkBack_run hp (fun x hx => hs.sibs x (.inr (List.mem_of_head? hx))) _ _), bound_bind]
  have hG : (fun j n => backRec b.head? p (some lst) j (fwdRec a.getLast? p (some fst) j
      (setAt lst (fun n => { n with next := b.head? })
        (setAt fst (fun n => { n with prev := a.getLast? }) fun _ n => n) j n))) =
      spliceRec p a b seg [] := by
    rw [setAt_prev, setAt_next]
    funext j n
    simp only [backRec, fwdRec, spliceRec, hfst, hlst]
    simp [eq_comm]
  rw [hG]
  have hcur : (some fst : Option NodeId) = seg.head?.or b.head? := by simp [hfst]
  rw [hcur, mp_fresh, bind_ok (replaceLoop_run hs hlst seg [] (by simp) (w.fresh + 1) hs.len []), mp_mod_run ho,
    setAt_gone]
  rfl

/-- The records after the whole replacement. -/
def replacedAll (p old : NodeId) (a b seg : List NodeId) (new : NodeId) (f : Option NodeId) (j : NodeId) (n : Node) :
    Node :=
  { insertedRec p a b seg new f false id j (detachedRec old p a b j n) with
    refcnt := if j = old then u32 (n.refcnt + 1) else n.refcnt }

theorem WF_replaced {p new old : NodeId} {a b seg : List NodeId} {f : Option NodeId} {pn : Node}
    (hW : WF w ch) (hab : ch p = a ++ old :: b) (hne : seg ≠ [])
    (hkids : ∀ s1 c s2, seg = s1 ++ c :: s2 → ∃ n, w.nodes c = some n ∧ n.type ≠ .attribute ∧
      n.prev = s1.getLast? ∧ n.next = s2.head?)
    (hnd : seg.Nodup) (hanc : ∀ c ∈ seg, ¬ AncSelf w p c)
    (hsrc : ∀ c ∈ seg, ∀ n, w.nodes c = some n → n.parent = f)
    (hfrag : ∀ q, f = some q → ch q = seg ∧ q ≠ p) (hsing : f = none → ∃ x, seg = [x])
    (hp : w.nodes p = some pn)
    (hm : Moved w p new seg f false pn) (hpo : pn.owner ≠ none) (l : List Ev) :
    WF (w.mp (replacedAll p old a b seg new f) l) (moveCh (setCh ch p (a ++ b)) p f (a ++ seg ++ b)) ∧
    (∀ x ∈ seg, x ∉ a ∧ x ∉ b ∧ x ≠ old) := by
  have hL := hW.linked
  have holdp : old ∈ ch p := by simp [hab]
  obtain ⟨on, ho, _, hop⟩ := hL.alive_child holdp
  have hdisj : ∀ x ∈ seg, x ∉ ch p := by
    intro x hx h
    obtain ⟨n, hn, _, hpar⟩ := hL.alive_child h
    have := hsrc x hx n hn
    rw [hpar] at this
    exact (hfrag p this.symm).2 rfl
  have hdisj' : ∀ x ∈ seg, x ∉ a ∧ x ∉ b ∧ x ≠ old := by
    intro x hx
    have := hdisj x hx
    rw [hab] at this
    simp only [List.mem_append, List.mem_cons, not_or] at this
    exact ⟨this.1, this.2.2, this.2.1⟩
  have hW1 := WF_detached hW hab l
  have hsub : ∀ c q, ParentOf (w.mp (detachedRec old p a b) l) c q → ParentOf w c q := by
    rintro c q ⟨m, hm, hq⟩
    obtain ⟨n, hn, rfl⟩ := mp_some_iff.1 hm
    by_cases hc : c = old
    · simp [detachedRec, hc] at hq
    · exact ⟨n, hn, by simpa [detachedRec, hc] using hq⟩
  have hseg : Seg (w.mp (detachedRec old p a b) l) (setCh ch p (a ++ b)) p a b seg f := by
    refine ⟨setCh_same _ _ _, hne, ?_, hnd, ?_, ?_, ?_, hsing⟩
    · intro s1 c s2 h
      obtain ⟨n, hn, h1, h2, h3⟩ := hkids s1 c s2 h
      obtain ⟨d1, d2, d3⟩ := hdisj' c (by simp [h])
      have e1 : b.head? ≠ some c := fun h => d2 (List.mem_of_head? h)
      have e2 : a.getLast? ≠ some c := fun h => d1 (List.mem_of_getLast? h)
      exact ⟨_, mp_some hn _ _, h1, by simp [detachedRec, d3, e1, h2], by simp [detachedRec, d3, e2, h3]⟩
    · intro c hc h
      exact hanc c hc (h.mono hsub)
    · intro c hc m hm
      obtain ⟨n, hn, rfl⟩ := mp_some_iff.1 hm
      have := hsrc c hc n hn
      simpa [detachedRec, (hdisj' c hc).2.2] using this
    · intro q hq
      obtain ⟨h1, h2⟩ := hfrag q hq
      exact ⟨by rw [setCh_ne _ _ h2, h1], h2⟩
  have hp1 : (w.mp (detachedRec old p a b) l).nodes p = some (detachedRec old p a b p pn) := mp_some hp _ _
  have hm1 : Moved (w.mp (detachedRec old p a b) l) p new seg f false (detachedRec old p a b p pn) := by
    refine ⟨?_, ?_, ?_, by simp⟩
    · rcases hm.what with h | ⟨h, n, hn, ht⟩
      · exact .inl h
      · exact .inr ⟨h, _, mp_some hn _ _, ht⟩
    · intro c hc m hm'
      obtain ⟨n, hn, rfl⟩ := mp_some_iff.1 hm'
      exact hm.types c hc n hn
    · intro _ c hc m hm'
      obtain ⟨n, hn, rfl⟩ := mp_some_iff.1 hm'
      exact hm.owns rfl c hc n hn
  have hfin := WF_attached (inc := id) hW1 hseg hp1 hm1 hpo []
  have hfin2 := hfin.mp_same (g := fun j n => { n with refcnt := if j = old then u32 (n.refcnt + 1) else n.refcnt }) []
      (fun _ _ => rfl) (fun _ _ => rfl) (fun _ _ => rfl) (fun _ _ => rfl)
  rw [mp_mp, mp_mp, List.append_nil, List.append_nil] at hfin2
  refine ⟨?_, hdisj'⟩
  have : w.mp (replacedAll p old a b seg new f) l = w.mp (fun j n =>
      { insertedRec p a b seg new f false id j (detachedRec old p a b j n) with
        refcnt := if j = old then u32 ((insertedRec p a b seg new f false id j (detachedRec old p a b j n)).refcnt + 1)
          else (insertedRec p a b seg new f false id j (detachedRec old p a b j n)).refcnt }) l := by
    refine mp_congr _ fun j n _ => ?_
    simp [replacedAll, insertedRec, detachedRec]
  rw [this]
  exact hfin2

/-- The steps of `replaceDo` after the old place has been left. -/
theorem replaceTail_run {p new old : NodeId} {a b seg : List NodeId} {f : Option NodeId} {on nn : Node}
    (hs : Slot w p old a b seg) (hne : seg ≠ []) (hx : w.nodes new = some nn)
    (hwhat : (f = none ∧ seg = [new] ∧ nn.type ≠ .fragment) ∨
      (f = some new ∧ nn.type = .fragment ∧ nn.first = seg.head? ∧ nn.last = seg.getLast?))
    (ho : w.nodes old = some on) {d : NodeId} {dn : Node} (hoo : on.owner = some d) (hd : w.nodes d = some dn)
    (hop : on.pendingIn = none) (hpnd : nn.owner = none ∧ nn.pendingIn = none ∨ nn.pendingIn ≠ none ∧ nn.owner ≠ none)
    (hno : new ≠ old) (hnp : new ≠ p) :
    (do removePending new; replaceNode old new; ref old; markPending old; pure old : M NodeId) w =
      .ok (w.mp (replacedAll p old a b seg new f) []) old := by
  rw [bind_ok (removePending_run hx hpnd)]
  have hx2 : (w.mp (unpend new) []).nodes new = some (unpend new new nn) := mp_some hx _ _
  obtain ⟨fst, hfst⟩ : ∃ x, seg.head? = some x := by
    cases seg with
    | nil => exact absurd rfl hne
    | cons x s => exact ⟨x, rfl⟩
  obtain ⟨lst, hlst⟩ : ∃ x, seg.getLast? = some x := by
    cases seg with
    | nil => exact absurd rfl hne
    | cons x s => exact ⟨_, List.getLast?_cons⟩
  -- the world in which the range is linked
  let g1 : NodeId → Node → Node := fun j n =>
    { unpend new j n with first := if f = some j then none else n.first, last := if f = some j then none else n.last }
  have hrr : replacementRange new (w.mp (unpend new) []) = .ok (w.mp g1 []) (seg.head?, seg.getLast?) := by
    unfold replacementRange
    rw [get_bind hx2]
    rcases hwhat with ⟨h1, h2, h3⟩ | ⟨h1, h2, h3, h4⟩
    · have : (unpend new new nn).type ≠ .fragment := h3
      rw [if_neg this, pure_run]
      congr 1
      · refine mp_congr _ fun j n _ => ?_
        simp [g1, h1, unpend]
      · simp [h2]
    · have : (unpend new new nn).type = .fragment := h2
      rw [if_pos this, mp_mod_bind hx, pure_run]
      congr 1
      · refine mp_congr _ fun j n _ => ?_
        simp only [g1, setAt, h1, Option.some.injEq]
        by_cases hj : j = new
        · simp [hj, unpend]
        · simp [hj, Ne.symm hj, unpend]
      · rw [← h3, ← h4]; rfl
  have hs1 : Slot (w.mp g1 []) p old a b seg := by
    obtain ⟨pn, hp⟩ := hs.par
    obtain ⟨on', ho', h1, h2, h3⟩ := hs.olds
    refine ⟨⟨_, mp_some hp _ _⟩, ⟨_, mp_some ho' _ _, h1, h2, h3⟩, ?_, ?_, hs.nodup, hs.disj, hs.oldab, hs.oldp, hs.len⟩
    · intro x hx
      obtain ⟨n, hn⟩ := hs.sibs x hx
      exact ⟨_, mp_some hn _ _⟩
    · intro s1 c s2 h
      obtain ⟨n, hn, h⟩ := hs.kids s1 c s2 h
      exact ⟨_, mp_some hn _ _, h⟩
  have hrn : replaceNode old new (w.mp (unpend new) []) = .ok ((w.mp g1 []).mp (replacedRec p old a b seg) []) () := by
    unfold replaceNode
    rw [bind_ok hrr]
    simp only [hfst, hlst]
    rw [deref_bind, replaceByRange_run hs1 hfst hlst]
  rw [bind_ok hrn, mp_mp]
  unfold ref
  rw [mp_mod_bind ho, setAt_ref]
  have hmk := markPending_run (w := w.mp (fun j n => { replacedRec p old a b seg j (g1 j n) with
      refcnt := if j = old then u32 ((replacedRec p old a b seg j (g1 j n)).refcnt + 1)
        else (replacedRec p old a b seg j (g1 j n)).refcnt }) ([] ++ []))
    (x := old) (mp_some ho _ _) (d := d) hoo (mp_some hd _ _)
    (by simp [replacedRec, spliceRec, g1, unpend, Ne.symm hno, hop])
  rw [bind_ok hmk, pure_run, mp_mp]
  congr 1
  simp only [List.append_nil]
  refine mp_congr _ fun j n hj => ?_
  obtain ⟨hoa, hob⟩ := hs.oldab
  have eb : ∀ x, b.head? = some x → x ∈ b := fun x h => List.mem_of_head? h
  have ea : ∀ x, a.getLast? = some x → x ∈ a := fun x h => List.mem_of_getLast? h
  have es : ∀ x, seg.head? = some x → x ∈ seg := fun x h => List.mem_of_head? h
  have es' : ∀ x, seg.getLast? = some x → x ∈ seg := fun x h => List.mem_of_getLast? h
  by_cases hjo : j = old
  · subst hjo
    rw [ho] at hj; cases hj
    have e1 : b.head? ≠ some j := fun h => hob (eb j h)
    have e2 : a.getLast? ≠ some j := fun h => hoa (ea j h)
    have e3 : seg.head? ≠ some j := fun h => (hs.disj j (es j h)).2.2 rfl
    have e4 : seg.getLast? ≠ some j := fun h => (hs.disj j (es' j h)).2.2 rfl
    have e5 : j ∉ seg := fun h => (hs.disj j h).2.2 rfl
    have e6 : f ≠ some j := by
      rcases hwhat with ⟨h1, _⟩ | ⟨h1, _⟩
      · rw [h1]; simp
      · rw [h1]; simpa using hno
    have e7 : j ≠ p := hs.oldp
    simp [replacedAll, replacedRec, insertedRec, detachedRec, spliceRec, g1, unpend, Ne.symm hno, e1, e2, e3, e4, e5, e6, e7, hoo]
  · by_cases hjp : j = p
    · subst hjp
      have e6 : f ≠ some j := by
        rcases hwhat with ⟨h1, _⟩ | ⟨h1, _⟩
        · rw [h1]; simp
        · rw [h1]; simpa using hnp
      simp only [replacedAll, replacedRec, insertedRec, detachedRec, spliceRec, g1, unpend, hjo, e6, if_false,
        true_and, id_eq, Bool.false_eq_true, false_and]
      congr 1
      all_goals (repeat' split) <;> simp_all
    · simp only [replacedAll, replacedRec, insertedRec, detachedRec, spliceRec, g1, unpend, hjo, hjp, if_false,
        true_and, id_eq, Bool.false_eq_true, false_and]
      congr 1
      all_goals (repeat' split) <;> simp_all

end Dom.Tree
