import Verif.Tree.Attach
/-!
# Linking a range of nodes keeps the invariant
-/
namespace Dom.Tree
set_option linter.unusedSimpArgs false

variable {w : World} {ch : Children}

/-- The child lists after moving `seg` (the children of `f`, or one node without parent) below `p`. -/
def moveCh (ch : Children) (p : NodeId) (f : Option NodeId) (l : List NodeId) : Children :=
  fun q => if q = p then l else if f = some q then [] else ch q

theorem moveCh_same (ch : Children) (p f l) : moveCh ch p f l p = l := by simp [moveCh]
theorem moveCh_frag (ch : Children) {p q : NodeId} {f : Option NodeId} (l) (h : q ≠ p) (hf : f = some q) :
    moveCh ch p f l q = [] := by simp [moveCh, h, hf]
theorem moveCh_ne (ch : Children) {p q : NodeId} {f : Option NodeId} (l) (h : q ≠ p) (hf : f ≠ some q) :
    moveCh ch p f l q = ch q := by simp [moveCh, h, hf]

/-- The records after the insertion of `new`: the range linked in, a fragment emptied, `new` taken off the
pending list, its count increased by `inc`, and its owner set if it is a DocumentType (`dt`). -/
def insertedRec (p : NodeId) (a b seg : List NodeId) (new : NodeId) (f : Option NodeId) (dt : Bool) (inc : Nat → Nat)
    (j : NodeId) (n : Node) : Node :=
  { n with
    parent := if j ∈ seg then some p else n.parent
    prev := if b.head? = some j then seg.getLast? else if seg.head? = some j then a.getLast? else n.prev
    next := if a.getLast? = some j then seg.head? else if seg.getLast? = some j then b.head? else n.next
    first := if f = some j then none else if j = p ∧ a.getLast? = none then seg.head? else n.first
    last := if f = some j then none else if j = p ∧ b.head? = none then seg.getLast? else n.last
    owner := if dt = true ∧ j = new then some p else n.owner
    refcnt := if j = new then inc n.refcnt else n.refcnt
    pendingIn := if j = new then none else n.pendingIn }

/-- What is known about the inserted nodes besides their links. -/
structure Moved (w : World) (p new : NodeId) (seg : List NodeId) (f : Option NodeId) (dt : Bool) (pn : Node) : Prop where
  what : (f = none ∧ seg = [new]) ∨ (f = some new ∧ ∃ n, w.nodes new = some n ∧ n.type = .fragment)
  types : ∀ c ∈ seg, ∀ n, w.nodes c = some n → MayContain pn.type n.type
  owns : dt = false → ∀ c ∈ seg, ∀ n, w.nodes c = some n → n.owner = pn.owner
  doct : dt = true → pn.type = .document ∧ f = none ∧ ∃ n, w.nodes new = some n ∧ n.type = .doctype

variable {p new : NodeId} {a b seg : List NodeId} {f : Option NodeId} {dt : Bool} {pn : Node} {inc : Nat → Nat}

theorem WF_attached (hW : WF w ch) (hs : Seg w ch p a b seg f) (hp : w.nodes p = some pn)
    (hm : Moved w p new seg f dt pn) (hpo : pn.owner ≠ none) (l : List Ev) :
    WF (w.mp (insertedRec p a b seg new f dt inc) l) (moveCh ch p f (a ++ seg ++ b)) := by
  have hL := hW.linked
  have hploc := hL.loc p pn hp
  have hnd := hploc.nodup
  rw [hs.hab] at hnd
  have hnda : a.Nodup := (List.nodup_append.1 hnd).1
  have hndb : b.Nodup := (List.nodup_append.1 hnd).2.1
  have hdisj : ∀ y ∈ a, y ∉ b := fun y hy hb => (List.nodup_append.1 hnd).2.2 y hy y hb rfl
  have hsega : ∀ y ∈ seg, y ∉ a ∧ y ∉ b := by
    intro y hy
    have := hs.not_mem hW.toCore hy
    rw [hs.hab, List.mem_append, not_or] at this
    exact this
  have hfp : f ≠ some p := fun h => (hs.frag p h).2 rfl
  have hpseg : p ∉ seg := fun h => hs.notAnc p h .refl
  have hpar : ∀ q c, ParentOf (w.mp (insertedRec p a b seg new f dt inc) l) c q →
      (c ∈ seg ∧ q = p) ∨ (c ∉ seg ∧ ParentOf w c q) := by
    rintro q c ⟨m, hm, hq⟩
    obtain ⟨n, hn, rfl⟩ := mp_some_iff.1 hm
    simp only [insertedRec] at hq
    split at hq
    · next h => exact .inl ⟨h, by simpa using hq.symm⟩
    · next h => exact .inr ⟨h, n, hn, hq⟩
  have hmem : ∀ q c, c ∈ moveCh ch p f (a ++ seg ++ b) q ↔
      (q = p ∧ (c ∈ ch p ∨ c ∈ seg)) ∨ (q ≠ p ∧ f ≠ some q ∧ c ∈ ch q) := by
    intro q c
    by_cases hq : q = p
    · subst hq
      simp only [moveCh_same, hs.hab, List.mem_append]
      tauto
    · by_cases hf : f = some q
      · rw [moveCh_frag _ _ hq hf]; simp [hq, hf]
      · rw [moveCh_ne _ _ hq hf]; simp [hq, hf]
  have hseg_of : ∀ q c, f = some q → c ∈ ch q → c ∈ seg := by
    intro q c hf hc
    rw [(hs.frag q hf).1] at hc; exact hc
  have hkeep : ∀ q c, q ≠ p → f ≠ some q → c ∈ ch q → c ∉ seg ∧ c ∉ a ∧ c ∉ b := by
    intro q c hq hf hc
    have hcp : c ∉ ch p := fun h => hq (hL.mem_unique hc h)
    rw [hs.hab, List.mem_append, not_or] at hcp
    refine ⟨fun h => ?_, hcp.1, hcp.2⟩
    obtain ⟨n, hn, _, hcpar⟩ := hL.alive_child hc
    have := hs.src c h n hn
    rw [hcpar] at this
    exact hf this.symm
  have hwf : WellFounded (fun q c => ParentOf (w.mp (insertedRec p a b seg new f dt inc) l) c q) := by
    have h1 : ∀ q, AncSelf w p q →
        Acc (fun q c => ParentOf (w.mp (insertedRec p a b seg new f dt inc) l) c q) q := by
      intro q
      induction q using hW.wf.induction with
      | _ q ih =>
        intro hq
        refine Acc.intro _ fun r hr => ?_
        rcases hpar r q hr with ⟨hqs, _⟩ | ⟨_, hr'⟩
        · exact absurd hq (hs.notAnc q hqs)
        · exact ih r hr' (hq.tail hr')
    refine ⟨fun x => ?_⟩
    induction x using hW.wf.induction with
    | _ x ih =>
      refine Acc.intro _ fun r hr => ?_
      rcases hpar r x hr with ⟨_, rfl⟩ | ⟨_, hr'⟩
      · exact h1 _ .refl
      · exact ih r hr'
  have hownp : dt = true → pn.owner = some p := fun h => hW.ownDoc p pn hp (hm.doct h).1
  have hnewseg : f = none → new ∈ seg := by
    intro h
    rcases hm.what with ⟨_, h2⟩ | ⟨h2, _⟩
    · simp [h2]
    · rw [h] at h2; simp at h2
  have hpnew : dt = true → p ≠ new := fun h hpn => hpseg (hpn ▸ hnewseg (hm.doct h).2.1)
  have hsegown : ∀ c ∈ seg, ∀ n, w.nodes c = some n →
      (insertedRec p a b seg new f dt inc c n).owner = pn.owner := by
    intro c hc n hn
    cases hdt : dt with
    | false => simpa [insertedRec, hdt] using hm.owns hdt c hc n hn
    | true =>
      have hf := (hm.doct hdt).2.1
      rcases hm.what with ⟨_, h2⟩ | ⟨h2, _⟩
      · rw [h2] at hc
        simp only [List.mem_singleton] at hc
        simp [insertedRec, hc, hownp hdt]
      · rw [hf] at h2; simp at h2
  refine { toCore := ⟨⟨?_, ?_, ?_, ?_, ?_⟩, ?_, hwf, ?_, ?_, ?_, ?_⟩, pending := ?_ }
  · -- loc
    intro q qm hqm
    obtain ⟨qn, hqn, rfl⟩ := mp_some_iff.1 hqm
    by_cases hq : q = p
    · subst hq
      rw [hp] at hqn; cases hqn
      obtain ⟨n', hn', hfirst, hlast⟩ := hploc.ends
      rw [hp] at hn'; cases hn'
      refine ⟨⟨_, hqm, ?_, ?_⟩, ?_, ?_⟩
      · simp only [insertedRec, moveCh_same, true_and, hfirst, hs.hab, hfp, if_false]
        cases a with
        | nil =>
          have := hs.ne
          cases seg with
          | nil => exact absurd rfl this
          | cons => simp
        | cons => simp
      · simp only [insertedRec, moveCh_same, true_and, hlast, hs.hab, hfp, if_false]
        rcases List.eq_nil_or_concat b with rfl | ⟨b', y, rfl⟩
        · rcases List.eq_nil_or_concat seg with h | ⟨s', z, rfl⟩
          · exact absurd h hs.ne
          · simp
        · have : (b' ++ [y]).head? ≠ none := by simp
          simp only [List.concat_eq_append, this, if_false]
          rw [← List.append_assoc, ← List.append_assoc]
          simp only [List.getLast?_concat]
      · intro a' c b' hcb
        rw [moveCh_same, List.append_assoc] at hcb
        rcases List.append_eq_append_iff.1 hcb with ⟨as, rfl, hb⟩ | ⟨cs, ha, hc⟩
        · -- `c` is in the range or behind it
          rcases List.append_eq_append_iff.1 hb with ⟨bs, rfl, hb2⟩ | ⟨ds, hsg, hb2⟩
          · -- `c` is in `b`
            have hcb' : c ∈ b := by simp [hb2]
            have hca : c ∉ a := fun h => hdisj c h hcb'
            have hcs : c ∉ seg := fun h => (hsega c h).2 hcb'
            obtain ⟨n, hn, h1, h2, h3, h4⟩ := hploc.kids (a ++ bs) c b' (by simp [hs.hab, hb2])
            have e2 : a.getLast? ≠ some c := fun h => hca (List.mem_of_getLast? h)
            have e3 : seg.head? ≠ some c := fun h => hcs (List.mem_of_head? h)
            have e4 : seg.getLast? ≠ some c := fun h => hcs (List.mem_of_getLast? h)
            refine ⟨_, mp_some hn _ _, h1, by simp [insertedRec, hcs, h2], ?_, ?_⟩
            · simp only [insertedRec, e3, if_false]
              cases bs with
              | nil =>
                simp only [hb2, List.nil_append, List.head?_cons, if_true, List.append_nil]
                rw [List.getLast?_append_of_ne_nil _ hs.ne]
              | cons y bs =>
                have hyc : y ≠ c := by
                  rintro rfl
                  rw [hb2] at hndb
                  exact (List.nodup_cons.1 hndb).1 (by simp)
                simp [hb2, hyc, h3, List.getLast?_append, List.getLast?_cons]
            · simp [insertedRec, e2, e4, h4]
          · -- `c` is in the range, or the first behind it
            cases ds with
            | nil =>
              simp only [List.append_nil] at hsg
              subst hsg
              simp only [List.nil_append] at hb2
              subst hb2
              have hca : c ∉ a := fun h => hdisj c h (by simp)
              have hcs : c ∉ seg := fun h => (hsega c h).2 (by simp)
              obtain ⟨n, hn, h1, h2, h3, h4⟩ := hploc.kids a c b' (by simp [hs.hab])
              have e2 : a.getLast? ≠ some c := fun h => hca (List.mem_of_getLast? h)
              have e3 : seg.head? ≠ some c := fun h => hcs (List.mem_of_head? h)
              have e4 : seg.getLast? ≠ some c := fun h => hcs (List.mem_of_getLast? h)
              refine ⟨_, mp_some hn _ _, h1, by simp [insertedRec, hcs, h2], ?_, ?_⟩
              · simp only [insertedRec, List.head?_cons, if_true]
                rw [List.getLast?_append_of_ne_nil _ hs.ne]
              · simp [insertedRec, e2, e4, h4]
            | cons y ds =>
              obtain ⟨rfl, rfl⟩ : c = y ∧ b' = ds ++ b := by simpa using hb2
              have hcs : c ∈ seg := by simp [hsg]
              obtain ⟨hca, hcb'⟩ := hsega c hcs
              obtain ⟨n, hn, h1, h3, h4⟩ := hs.kids as c ds hsg
              have e1 : b.head? ≠ some c := fun h => hcb' (List.mem_of_head? h)
              have e2 : a.getLast? ≠ some c := fun h => hca (List.mem_of_getLast? h)
              have hnds := hs.nodup
              rw [hsg] at hnds
              refine ⟨_, mp_some hn _ _, h1, by simp [insertedRec, hcs], ?_, ?_⟩
              · simp only [insertedRec, e1, if_false]
                cases as with
                | nil => simp [hsg]
                | cons z as =>
                  have hzc : z ≠ c := by
                    rintro rfl
                    exact (List.nodup_cons.1 hnds).1 (by simp)
                  simp [hsg, hzc, h3, List.getLast?_append, List.getLast?_cons]
              · simp only [insertedRec, e2, if_false]
                rcases List.eq_nil_or_concat ds with rfl | ⟨ds', z, rfl⟩
                · simp [hsg]
                · have hzc : z ≠ c := by
                    rintro rfl
                    exact (List.nodup_cons.1 (List.nodup_append.1 hnds).2.1).1 (by simp)
                  have : seg.getLast? ≠ some c := by
                    rw [hsg]; simp [hzc, List.getLast?_append, List.getLast?_cons]
                  simp only [this, if_false, h4]
                  cases ds' <;> simp
        · -- `c` is in `a`, or the first behind it
          cases cs with
          | nil =>
            simp only [List.nil_append] at hc
            simp only [List.append_nil] at ha
            subst ha
            -- `c` is the head of the range
            cases hsg : seg with
            | nil => exact absurd hsg hs.ne
            | cons y ss =>
              rw [hsg, List.cons_append] at hc
              obtain ⟨rfl, rfl⟩ : c = y ∧ b' = ss ++ b := by simpa using hc
              have hcs : c ∈ seg := by simp [hsg]
              obtain ⟨hca, hcb'⟩ := hsega c hcs
              obtain ⟨n, hn, h1, h3, h4⟩ := hs.kids [] c ss hsg
              have e1 : b.head? ≠ some c := fun h => hcb' (List.mem_of_head? h)
              have e2 : a.getLast? ≠ some c := fun h => hca (List.mem_of_getLast? h)
              have hnds := hs.nodup
              rw [hsg] at hnds
              refine ⟨_, mp_some hn _ _, h1, by simp [insertedRec], ?_, ?_⟩
              · simp [insertedRec, e1]
              · simp only [insertedRec, e2, if_false]
                rcases List.eq_nil_or_concat ss with rfl | ⟨ds', z, rfl⟩
                · simp
                · have hzc : z ≠ c := by
                    rintro rfl
                    exact (List.nodup_cons.1 hnds).1 (by simp)
                  have : (c :: (ds'.concat z)).getLast? ≠ some c := by
                    simp [hzc, List.getLast?_append, List.getLast?_cons]
                  simp only [this, if_false, h4]
                  cases ds' <;> simp
          | cons y cs =>
            obtain ⟨rfl, rfl⟩ : c = y ∧ b' = cs ++ (seg ++ b) := by simpa using hc
            have hca : c ∈ a := by simp [ha]
            have hcb' : c ∉ b := hdisj c hca
            have hcs : c ∉ seg := fun h => (hsega c h).1 hca
            obtain ⟨n, hn, h1, h2, h3, h4⟩ := hploc.kids a' c (cs ++ b) (by simp [hs.hab, ha])
            have e1 : b.head? ≠ some c := fun h => hcb' (List.mem_of_head? h)
            have e3 : seg.head? ≠ some c := fun h => hcs (List.mem_of_head? h)
            have e4 : seg.getLast? ≠ some c := fun h => hcs (List.mem_of_getLast? h)
            refine ⟨_, mp_some hn _ _, h1, by simp [insertedRec, hcs, h2], ?_, ?_⟩
            · simp [insertedRec, e1, e3, h3]
            · simp only [insertedRec, e4, if_false]
              rcases List.eq_nil_or_concat cs with rfl | ⟨cs', z, rfl⟩
              · have : seg.head? ≠ none := by
                  have := hs.ne
                  cases seg <;> simp_all
                simp only [ha, List.nil_append, List.head?_append]
                cases hh : seg.head? with
                | none => exact absurd hh this
                | some => simp
              · have hzc : z ≠ c := by
                  rintro rfl
                  rw [ha] at hnda
                  have := (List.nodup_append.1 hnda).2.1
                  exact (List.nodup_cons.1 this).1 (by simp)
                have : a.getLast? ≠ some c := by
                  rw [ha]; simp [hzc, List.getLast?_append, List.getLast?_cons]
                simp only [this, if_false, h4]
                cases cs' <;> simp
      · rw [moveCh_same, List.append_assoc]
        refine List.nodup_append.2 ⟨hnda, List.nodup_append.2 ⟨hs.nodup, hndb, ?_⟩, ?_⟩
        · rintro y hy z hz rfl; exact (hsega y hy).2 hz
        · rintro y hy z hz rfl
          rcases List.mem_append.1 hz with h | h
          · exact (hsega y h).1 hy
          · exact hdisj y hy h
    · by_cases hf : f = some q
      · refine ⟨⟨_, hqm, ?_, ?_⟩, ?_, ?_⟩ <;> rw [moveCh_frag _ _ hq hf] <;> simp [insertedRec, hf]
      · have hloc := hL.loc q qn hqn
        have := hloc.mp (g := insertedRec p a b seg new f dt inc) (l := l)
          (fun m _ => by simp [insertedRec, hq, hf])
          (fun c hc m _ => by
            obtain ⟨h1, h2, h3⟩ := hkeep q c hq hf hc
            have e1 : b.head? ≠ some c := fun h => h3 (List.mem_of_head? h)
            have e2 : a.getLast? ≠ some c := fun h => h2 (List.mem_of_getLast? h)
            have e3 : seg.head? ≠ some c := fun h => h1 (List.mem_of_head? h)
            have e4 : seg.getLast? ≠ some c := fun h => h1 (List.mem_of_getLast? h)
            simp [insertedRec, h1, e1, e2, e3, e4])
        exact ⟨by rw [moveCh_ne _ _ hq hf]; exact this.ends, by rw [moveCh_ne _ _ hq hf]; exact this.kids,
          by rw [moveCh_ne _ _ hq hf]; exact this.nodup⟩
  · -- dead
    intro q hq
    have hq' := mp_none_iff.1 hq
    have : q ≠ p := by rintro rfl; rw [hp] at hq'; simp at hq'
    by_cases hf : f = some q
    · rw [moveCh_frag _ _ this hf]
    · rw [moveCh_ne _ _ this hf]; exact hL.dead q hq'
  · -- up
    intro c m q hm' ht hq
    obtain ⟨n, hn, rfl⟩ := mp_some_iff.1 hm'
    rw [hmem]
    rcases hpar q c ⟨_, hm', hq⟩ with ⟨h1, rfl⟩ | ⟨h1, n', hn', h2⟩
    · exact .inl ⟨rfl, .inr h1⟩
    · rw [hn] at hn'; cases hn'
      have := hL.up c n q hn ht h2
      by_cases hqp : q = p
      · exact .inl ⟨hqp, .inl (hqp ▸ this)⟩
      · exact .inr ⟨hqp, fun hf => h1 (hseg_of q c hf this), this⟩
  · -- attrUp
    intro c m q hm' ht hq
    obtain ⟨n, hn, rfl⟩ := mp_some_iff.1 hm'
    rcases hpar q c ⟨_, hm', hq⟩ with ⟨h1, rfl⟩ | ⟨h1, n', hn', h2⟩
    · obtain ⟨n', hn', h⟩ := hs.alive h1
      rw [hn] at hn'; cases hn'
      exact absurd ht h
    · rw [hn] at hn'; cases hn'
      obtain ⟨e, he, het⟩ := hL.attrUp c n q hn ht h2
      exact ⟨_, mp_some he _ _, het⟩
  · -- orphan
    intro c m hm' h
    obtain ⟨n, hn, rfl⟩ := mp_some_iff.1 hm'
    have hcs : c ∉ seg := by
      intro hc
      obtain ⟨n', hn', ht⟩ := hs.alive hc
      rw [hn] at hn'; cases hn'
      rcases h with h | h
      · simp [insertedRec, hc] at h
      · exact ht h
    have h' : n.parent = none ∨ n.type = .attribute := by
      simpa [insertedRec, hcs] using h
    obtain ⟨h1, h2⟩ := hL.orphan c n hn h'
    have hcp : c ∉ ch p := by
      intro hc
      obtain ⟨n', hn', ht, hp⟩ := hL.alive_child hc
      rw [hn] at hn'; cases hn'
      rcases h' with h | h
      · rw [h] at hp; simp at hp
      · exact ht h
    rw [hs.hab, List.mem_append, not_or] at hcp
    have e1 : b.head? ≠ some c := fun h => hcp.2 (List.mem_of_head? h)
    have e2 : a.getLast? ≠ some c := fun h => hcp.1 (List.mem_of_getLast? h)
    have e3 : seg.head? ≠ some c := fun h => hcs (List.mem_of_head? h)
    have e4 : seg.getLast? ≠ some c := fun h => hcs (List.mem_of_getLast? h)
    simp [insertedRec, e1, e2, e3, e4, h1, h2]
  · -- bnd
    intro i m hm'
    obtain ⟨n, hn, rfl⟩ := mp_some_iff.1 hm'
    exact hW.bnd i n hn
  · -- owner
    intro i m hm'
    obtain ⟨n, hn, rfl⟩ := mp_some_iff.1 hm'
    by_cases his : i ∈ seg
    · left
      obtain ⟨d, dn, h1, h2, h3⟩ := hW.toCore.doc_alive hp (.inr (.inr hpo))
      exact ⟨d, _, (hsegown i his n hn).trans h1, mp_some h2 _ _, h3⟩
    · have hnn : ¬ (dt = true ∧ i = new) := fun h => his (h.2 ▸ hnewseg (hm.doct h.1).2.1)
      rcases hW.owner i n hn with ⟨d, dn, h1, h2, h3⟩ | ⟨h1, h2, h3⟩
      · exact .inl ⟨d, _, by simp [insertedRec, hnn, h1], mp_some h2 _ _, h3⟩
      · exact .inr ⟨h1, by simp [insertedRec, hnn, h2], by simp [insertedRec, his, h3]⟩
  · -- ownDoc
    intro i m hm' ht
    obtain ⟨n, hn, rfl⟩ := mp_some_iff.1 hm'
    have ht' : n.type = .document := ht
    have hnn : ¬ (dt = true ∧ i = new) := by
      rintro ⟨h, rfl⟩
      obtain ⟨n', hn', h2⟩ := (hm.doct h).2.2
      rw [hn] at hn'; cases hn'
      rw [ht'] at h2; cases h2
    simp only [insertedRec, hnn, if_false]
    exact hW.ownDoc i n hn ht'
  · -- ownSame
    intro i m q qm hm' hq hqm
    obtain ⟨n, hn, rfl⟩ := mp_some_iff.1 hm'
    obtain ⟨qn, hqn, rfl⟩ := mp_some_iff.1 hqm
    have hpown : (insertedRec p a b seg new f dt inc p pn).owner = pn.owner := by
      have : ¬ (dt = true ∧ p = new) := fun h => hpnew h.1 h.2
      simp [insertedRec, this]
    rcases hpar q i ⟨_, hm', hq⟩ with ⟨h1, rfl⟩ | ⟨h1, n', hn', h2⟩
    · rw [hp] at hqn; cases hqn
      rw [hpown]; exact hsegown i h1 n hn
    · rw [hn] at hn'; cases hn'
      have hnn : ¬ (dt = true ∧ i = new) := fun h => h1 (h.2 ▸ hnewseg (hm.doct h.1).2.1)
      have hnq : ¬ (dt = true ∧ q = new) := by
        rintro ⟨h, rfl⟩
        obtain ⟨q', hq', hqt⟩ := (hm.doct h).2.2
        rw [hqn] at hq'; cases hq'
        by_cases hit : n.type = .attribute
        · obtain ⟨e, he, het⟩ := hL.attrUp i n q hn hit h2
          rw [hqn] at he; cases he
          rw [hqt] at het; cases het
        · have := hW.types q qn i n hqn (hL.up i n q hn hit h2) hn
          rw [hqt] at this
          cases this with
          | content hp' _ => simp at hp'
      have := hW.ownSame i n q qn hn h2 hqn
      simpa [insertedRec, hnn, hnq] using this
  · -- types
    intro q qm c cm hqm hc hcm
    obtain ⟨qn, hqn, rfl⟩ := mp_some_iff.1 hqm
    obtain ⟨cn, hcn, rfl⟩ := mp_some_iff.1 hcm
    rcases (hmem q c).1 hc with ⟨rfl, h | h⟩ | ⟨_, _, h⟩
    · exact hW.types q qn c cn hqn h hcn
    · rw [hp] at hqn; cases hqn
      exact hm.types c h cn hcn
    · exact hW.types q qn c cn hqn h hcn
  · -- pending
    intro i m hm'
    obtain ⟨n, hn, rfl⟩ := mp_some_iff.1 hm'
    by_cases his : i ∈ seg
    · left
      by_cases hin : i = new
      · subst hin
        simp [insertedRec, his]
      · rcases hm.what with ⟨_, h2⟩ | ⟨h2, n2, hn2, ht2⟩
        · rw [h2] at his; simp only [List.mem_singleton] at his; exact absurd his hin
        · have hpi := hs.src i his n hn
          rw [h2] at hpi
          have := hW.pending i n hn
          simp only [hpi, Option.isSome_some, true_or, if_true] at this
          have hpi2 : n.pendingIn = none := by
            rcases this with h | ⟨_, h⟩ <;> exact h
          simp [insertedRec, his, hin, hpi2]
    · by_cases hin : i = new
      · right
        rcases hm.what with ⟨_, h2⟩ | ⟨h2, n2, hn2, ht2⟩
        · exact absurd (by simp [h2, hin]) his
        · subst hin
          rw [hn] at hn2; cases hn2
          simp [insertedRec, ht2]
      · have hnn : ¬ (dt = true ∧ i = new) := fun h => hin h.2
        have := hW.pending i n hn
        simpa [insertedRec, his, hin, hnn] using this

end Dom.Tree
