import Verif.Tree.Replace
/-!
# `replaceChild` meets its specification
-/
namespace Dom.Tree
set_option linter.unusedSimpArgs false

variable {w : World} {ch : Children} {β : Type} {p new old : NodeId} {pn nn on : Node}

open Classical in
/-- The last of the causes of `replaceRefusal`. -/
noncomputable def lastRefusal' (w : World) (new old : NodeId) (nn : Node) : Option Exc :=
  if new ≠ old ∧ ∃ q, nn.parent = some q ∧ ReadOnly w q then some .noModificationAllowed else none

theorem replacePermitted_run (hW : WF w ch) (hp : w.nodes p = some pn) (hx : w.nodes new = some nn) :
    ∃ b, replacePermitted p new nn w = .ok w b ∧ (b = true ↔ ∀ c ∈ moved ch new nn, Permitted w ch p c) := by
  unfold replacePermitted moved
  by_cases hf : nn.type = .fragment
  · rw [if_pos hf, if_pos hf, bound_bind]
    obtain ⟨n', hn', hfirst, hlast⟩ := (hW.linked.loc new nn hx).ends
    rw [hx] at hn'; cases hn'
    rw [hfirst]
    exact allPermitted_run hW.toCore hp (hW.linked.loc new nn hx) (ch new) [] (by simp)
      (w.fresh + 1) (by have := child_length_le hW.toCore new; omega)
  · rw [if_neg hf, if_neg hf]
    obtain ⟨b, hb, hb'⟩ := permittedChild_run hW.toCore hp hx
    exact ⟨b, hb, by simpa using hb'⟩

theorem replaceChild_checks (hW : WF w ch) (hp : w.nodes p = some pn) (hx : w.nodes new = some nn)
    (ho : w.nodes old = some on) (hna : on.type = .attribute → on.parent ≠ some p) :
    (∃ e, replaceRefusal w ch p new old nn pn = some e ∧ replaceChild p new old w = .exc w e) ∨
    (replaceChild p new old w = (if new = old then (do ref old; pure old) else replaceDo new old) w ∧
      ¬ (pn.type = .document ∧ (nn.type = .doctype ∨ nn.type = .element)) ∧
      nn.owner = pn.owner ∧ ¬ ReadOnly w p ∧ old ∈ ch p ∧ ¬ AncSelf w p new ∧
      (∀ c ∈ moved ch new nn, Permitted w ch p c) ∧
      replaceRefusal w ch p new old nn pn = lastRefusal' w new old nn) := by
  classical
  unfold replaceChild replaceRefusal
  rw [get_bind hp, get_bind hx]
  by_cases c0 : pn.type = .document ∧ (nn.type = .doctype ∨ nn.type = .element)
  · left
    have : (pn.type = .document && (nn.type = .doctype || nn.type = .element)) = true := by simpa using c0
    rw [this, throwIf_true]
    exact ⟨_, if_pos c0, rfl⟩
  have e0 : (pn.type = .document && (nn.type = .doctype || nn.type = .element)) = false := by
    rw [Bool.eq_false_iff]; simpa using c0
  rw [e0, throwIf_false, if_neg c0]
  by_cases c1 : nn.owner ≠ pn.owner
  · left
    have : decide (nn.owner ≠ pn.owner) = true := by simpa using c1
    rw [this, throwIf_true]
    exact ⟨_, if_pos c1, rfl⟩
  have e1 : decide (nn.owner ≠ pn.owner) = false := by simpa using c1
  rw [e1, throwIf_false, if_neg c1]
  obtain ⟨ro, hro, hro'⟩ := readonly_run hW.toCore hp
  rw [bind_ok hro]
  by_cases c2 : ReadOnly w p
  · left
    rw [hro'.2 c2, throwIf_true, if_pos c2]
    exact ⟨_, rfl, rfl⟩
  have e2 : ro = false := by
    cases ro with
    | false => rfl
    | true => exact absurd (hro'.1 rfl) c2
  rw [e2, throwIf_false, if_neg c2]
  obtain ⟨nf, hnf, hnf'⟩ := notChildOf_run hW.toCore p (some old) (fun c hc => by cases hc; exact ⟨on, ho, hna⟩)
  rw [bind_ok hnf]
  by_cases c3 : old ∉ ch p
  · left
    rw [hnf'.2 ⟨old, rfl, c3⟩, throwIf_true, if_pos c3]
    exact ⟨_, rfl, rfl⟩
  have e3 : nf = false := by
    cases nf with
    | false => rfl
    | true =>
      obtain ⟨c, hc, h⟩ := hnf'.1 rfl
      cases hc; exact absurd h c3
  rw [e3, throwIf_false, if_neg c3]
  obtain ⟨an, han, han'⟩ := isSelfOrAncestor_run hW.toCore new hp
  rw [bind_ok han]
  by_cases c4 : AncSelf w p new
  · left
    rw [han'.2 c4, throwIf_true, if_pos c4]
    exact ⟨_, rfl, rfl⟩
  have e4 : an = false := by
    cases an with
    | false => rfl
    | true => exact absurd (han'.1 rfl) c4
  rw [e4, throwIf_false, if_neg c4]
  obtain ⟨ok, hok, hok'⟩ := replacePermitted_run hW hp hx
  rw [bind_ok hok]
  by_cases c5 : ∀ c ∈ moved ch new nn, Permitted w ch p c
  swap
  · left
    have : ok = false := by
      cases ok with
      | false => rfl
      | true => exact absurd (hok'.1 rfl) c5
    rw [this, if_pos c5]
    simp only [Bool.not_false]
    rw [throwIf_true]
    exact ⟨_, rfl, rfl⟩
  rw [hok'.2 c5, if_neg (not_not.2 c5)]
  simp only [Bool.not_true]
  rw [throwIf_false]
  right
  exact ⟨rfl, c0, not_not.1 c1, c2, not_not.1 c3, c4, c5, rfl⟩

/-- A refused replacement leaves the memory as it was. -/
theorem replaceChild_refused (hW : WF w ch) (hp : w.nodes p = some pn) (hx : w.nodes new = some nn)
    (ho : w.nodes old = some on) (hna : on.type = .attribute → on.parent ≠ some p) {e : Exc}
    (he : replaceRefusal w ch p new old nn pn = some e) : replaceChild p new old w = .exc w e := by
  classical
  rcases replaceChild_checks hW hp hx ho hna with ⟨e', he', h⟩ | ⟨h, c0, c1, c2, c3, c4, c5, href⟩
  · rw [he] at he'; cases he'; exact h
  · rw [he] at href
    unfold lastRefusal' at href
    have hcond : new ≠ old ∧ ∃ q, nn.parent = some q ∧ ReadOnly w q := by
      by_contra hc
      rw [if_neg hc] at href; simp at href
    rw [if_pos hcond] at href
    cases href
    rw [h, if_neg hcond.1]
    obtain ⟨q, hq, hqro⟩ := hcond.2
    unfold replaceDo
    rw [bind_exc (takeOut_exc hW.toCore hx hq hqro)]

theorem replaceChild_nop (hW : WF w ch) (hp : w.nodes p = some pn) (ho : w.nodes old = some on)
    (hna : on.type = .attribute → on.parent ≠ some p) (he : replaceRefusal w ch p old old on pn = none) :
    replaceChild p old old w =
      .ok (w.mp (fun j n => { n with refcnt := if j = old then u32 (n.refcnt + 1) else n.refcnt }) []) old := by
  rcases replaceChild_checks hW hp ho ho hna with ⟨e', he', h⟩ | ⟨h, _⟩
  · rw [he] at he'; simp at he'
  · rw [h, if_pos rfl, bind_ok (ref_run ho)]; rfl

theorem replace_roCond (hne : new ≠ old)
    (href : replaceRefusal w ch p new old nn pn = lastRefusal' w new old nn)
    (he : replaceRefusal w ch p new old nn pn = none) : ∀ q, nn.parent = some q → ¬ ReadOnly w q := by
  classical
  intro q hq hro
  unfold lastRefusal' at href
  rw [he, if_pos ⟨hne, q, hq, hro⟩] at href
  simp at href

theorem pending_of_child (hW : WF w ch) (ho : w.nodes old = some on) (hpar : on.parent = some p) :
    on.pendingIn = none := by
  rcases hW.pending old on ho with h | ⟨_, h⟩
  · simpa [hpar] using h
  · exact h

/-- Replacement by at least one node. -/
theorem replaceChild_ok (hW : WF w ch) (hp : w.nodes p = some pn) (hx : w.nodes new = some nn)
    (ho : w.nodes old = some on) (hna : on.type = .attribute → on.parent ≠ some p) (hne : new ≠ old)
    (hfull : moved ch new nn ≠ []) (hpend : nn.type = .fragment → nn.pendingIn ≠ none)
    (he : replaceRefusal w ch p new old nn pn = none) :
    ∃ w' ch', replaceChild p new old w = .ok w' old ∧ Replaced w ch p new old nn w' ch' := by
  rcases replaceChild_checks hW hp hx ho hna with ⟨e', he', h⟩ | ⟨h, c0, c1, c2, c3, c4, c5, href⟩
  · rw [he] at he'; simp at he'
  rw [h, if_neg hne]
  have hro := replace_roCond hne href he
  have hpo := ReadOnly.owner hW.toCore hp c2
  have hnp : new ≠ p := by rintro rfl; exact c4 .refl
  have hL := hW.linked
  by_cases hf : nn.type = .fragment
  · -- a DocumentFragment with children
    have hpar0 := fragment_parent hW.toCore hx hf
    have hmv : moved ch new nn = ch new := by simp [moved, hf]
    rw [hmv] at hfull c5
    have hrun : takeOut new w = .ok w () := by
      unfold takeOut; rw [get_bind hx, hpar0]; rfl
    have hrm : removeCh ch new = ch := removeCh_eq hL hx hpar0
    obtain ⟨a, b, hab⟩ := List.append_of_mem c3
    have hloc := hL.loc new nn hx
    obtain ⟨n', hn', hfirst, hlast⟩ := hloc.ends
    rw [hx] at hn'; cases hn'
    have hpar := (child_iff hL ho hna).2 c3
    have hploc := hL.loc p pn hp
    obtain ⟨on', ho', _, _, hoprev, honext⟩ := hploc.kids a old b hab
    rw [ho] at ho'; cases ho'
    obtain ⟨d, dn, hoo, hd, _⟩ := hW.toCore.doc_alive ho (.inr (.inl (by rw [hpar]; simp)))
    have hno : nn.owner ≠ none := by rw [c1]; exact hpo
    have hkids : ∀ s1 c s2, ch new = s1 ++ c :: s2 → ∃ n, w.nodes c = some n ∧ n.type ≠ .attribute ∧
        n.prev = s1.getLast? ∧ n.next = s2.head? := by
      intro s1 y s2 h
      obtain ⟨n, h1, h2, _, h3⟩ := hloc.kids s1 y s2 h
      exact ⟨n, h1, h2, h3⟩
    obtain ⟨hWF, hdisj⟩ := WF_replaced (f := some new) (new := new) (l := []) hW hab hfull hkids hloc.nodup
      (fun y hy h => by
        obtain ⟨n, hn, _, h1⟩ := hL.alive_child hy
        exact c4 (h.tail ⟨n, hn, h1⟩))
      (fun y hy n hn => by
        obtain ⟨n', hn', _, h1⟩ := hL.alive_child hy
        rw [hn] at hn'; cases hn'; exact h1)
      (fun q hq => by cases hq; exact ⟨rfl, hnp⟩) (by simp) hp
      ⟨.inr ⟨rfl, nn, hx, hf⟩, fun c hc n hn => (c5 c hc).may hp hn, fun _ c hc n hn => by
        obtain ⟨n', hn', _, h1⟩ := hL.alive_child hc
        rw [hn] at hn'; cases hn'
        rw [← c1]; exact hW.ownSame c n new nn hn h1 hx, by simp⟩ hpo
    have hnd := hploc.nodup
    rw [hab] at hnd
    have hslot : Slot w p old a b (ch new) := by
      refine ⟨⟨pn, hp⟩, ⟨on, ho, hpar, hoprev, honext⟩, ?_, ?_, hloc.nodup, hdisj, ?_, ?_, ?_⟩
      · intro x hx'
        have : x ∈ ch p := by rw [hab]; rcases hx' with h | h <;> simp [h]
        obtain ⟨n, hn, _⟩ := hL.alive_child this
        exact ⟨n, hn⟩
      · intro s1 c s2 h
        obtain ⟨n, h1, _, _, h3⟩ := hkids s1 c s2 h
        exact ⟨n, h1, h3⟩
      · exact ⟨fun h => (List.nodup_append.1 hnd).2.2 old h old (by simp) rfl,
          (List.nodup_cons.1 (List.nodup_append.1 hnd).2.1).1⟩
      · rintro rfl
        exact not_below_child hL hW.wf c3 .refl
      · have := child_length_le hW.toCore new; omega
    have htail := replaceTail_run (f := some new) hslot hfull hx (.inr ⟨rfl, hf, hfirst, hlast⟩) ho hoo hd
      (pending_of_child hW ho hpar) (.inr ⟨hpend hf, hno⟩) hne hnp
    refine ⟨_, _, ?_, hWF, ?_, ?_, ?_, ?_, ?_, ?_, rfl, ?_, ?_, ?_⟩
    · unfold replaceDo
      rw [bind_ok hrun]
      exact htail
    · refine ⟨a, b, ?_, by rw [hmv, moveCh_same]⟩
      rw [← hab]; exact congrFun hrm p
    · intro q hq
      by_cases hqn : q = new
      · subst hqn; rw [moveCh_frag _ _ hq rfl]; simp [hf]
      · rw [moveCh_ne _ _ hq (by simpa using Ne.symm hqn), setCh_ne _ _ hq]
        simp only [hqn, false_and, if_false]
        exact (congrFun hrm q).symm
    · intro q hq
      obtain ⟨n, hn, _, h1⟩ := hWF.linked.alive_child hq
      obtain ⟨m, hm, rfl⟩ := mp_some_iff.1 hn
      have : old ∉ ch new := fun h => (hdisj old h).2.2 rfl
      simp [replacedAll, insertedRec, detachedRec, this] at h1
    · intro j; rw [mp_nodes]; cases w.nodes j <;> rfl
    · intro j; rw [mp_nodes]; cases w.nodes j <;> rfl
    · intro j; rw [mp_nodes]; cases w.nodes j with
      | none => rfl
      | some n => simp [replacedAll, insertedRec, detachedRec]
    · rw [mp_log, hpar0]; rfl
    · intro j n hj ha
      refine ⟨_, mp_some hj _ _, ?_⟩
      have : j ∉ ch new := by
        intro h
        obtain ⟨m, hm, h2, _⟩ := hL.alive_child h
        rw [hj] at hm; cases hm; exact h2 ha
      have h2 : j ≠ old := by
        rintro rfl
        rw [ho] at hj; cases hj; exact hna ha hpar
      simp [replacedAll, insertedRec, detachedRec, this, h2]
    · intro j n hj hft hjn
      have h2 : j ≠ old := by
        rintro rfl
        rw [ho] at hj; cases hj
        rw [fragment_parent hW.toCore ho hft] at hpar; cases hpar
      exact ⟨_, mp_some hj _ _, by simp [replacedAll, insertedRec, detachedRec, hjn, h2]⟩
  · -- a single node
    have hmv : moved ch new nn = [new] := by simp [moved, hf]
    rw [hmv] at c5
    have hmay := (c5 new (by simp)).may hp hx
    obtain ⟨g, hrun, hwf, hdat, hoth, hpar0, _⟩ := takeOut_ok hW hx hmay.child.1 hro
    have htyp : ∀ j m, (g j m).type = m.type := fun j m => Node.data_type (hdat j m).1
    have hown' : ∀ j m, (g j m).owner = m.owner := fun j m => (hdat j m).2.2
    let l1 := removalEvents w ch new nn.parent
    have hW1 := hwf l1
    have hL1 := hW1.linked
    have hx1 : (w.mp g l1).nodes new = some (g new nn) := mp_some hx _ _
    have hp1 : (w.mp g l1).nodes p = some (g p pn) := mp_some hp _ _
    have ho1 : (w.mp g l1).nodes old = some (g old on) := mp_some ho _ _
    have horph := hL1.orphan new _ hx1 (.inl hpar0)
    have hsub : ∀ c q, ParentOf (w.mp g l1) c q → ParentOf w c q := by
      rintro c q ⟨m, hm, hq⟩
      obtain ⟨n, hn, rfl⟩ := mp_some_iff.1 hm
      by_cases hc : c = new
      · subst hc; rw [hx] at hn; cases hn; rw [hpar0] at hq; simp at hq
      · exact ⟨n, hn, by rw [← hq, (hoth c n hc).1]⟩
    have hmem1 : old ∈ removeCh ch new p := by
      simp only [removeCh, List.mem_filter]
      exact ⟨c3, by simpa using Ne.symm hne⟩
    obtain ⟨a, b, hab⟩ := List.append_of_mem hmem1
    have hpar : (g old on).parent = some p := by
      rw [(hoth old on (Ne.symm hne)).1]
      exact (child_iff hL ho hna).2 c3
    have hploc := hL1.loc p _ hp1
    obtain ⟨on', ho', _, _, hoprev, honext⟩ := hploc.kids a old b hab
    rw [ho1] at ho'; cases ho'
    obtain ⟨d, dn, hoo, hd, _⟩ := hW1.toCore.doc_alive ho1 (.inr (.inl (by rw [hpar]; simp)))
    have hpendn : (g new nn).owner = none ∧ (g new nn).pendingIn = none ∨
        (g new nn).pendingIn ≠ none ∧ (g new nn).owner ≠ none := by
      have := hW1.pending new _ hx1
      rw [hpar0, htyp] at this
      have hnd : nn.type ≠ .document := hmay.child.2.1
      simp only [Option.isSome_none, hnd, hf, Bool.false_eq_true, or_self, if_false, false_and, or_false] at this
      cases ho : (g new nn).owner with
      | none => left; rw [this, ho]; simp
      | some => right; rw [this, ho]; simp
    have hkids : ∀ s1 c s2, [new] = s1 ++ c :: s2 → ∃ n, (w.mp g l1).nodes c = some n ∧ n.type ≠ .attribute ∧
        n.prev = s1.getLast? ∧ n.next = s2.head? := by
      intro s1 c s2 h
      cases s1 with
      | nil =>
        simp only [List.nil_append, List.cons.injEq] at h
        obtain ⟨rfl, rfl⟩ := h
        exact ⟨_, hx1, by rw [htyp]; exact hmay.child.1, by simp [horph.1], by simp [horph.2]⟩
      | cons y s1 => simp at h
    obtain ⟨hWF, hdisj⟩ := WF_replaced (f := none) (new := new) (l := []) hW1 hab (by simp) hkids (by simp)
      (fun y hy h => by
        simp only [List.mem_singleton] at hy
        subst hy
        exact c4 (h.mono hsub))
      (fun y hy n hn => by
        simp only [List.mem_singleton] at hy
        subst hy
        rw [hx1] at hn; cases hn; exact hpar0)
      (by simp) (fun _ => ⟨new, rfl⟩) hp1
      ⟨.inl ⟨rfl, rfl⟩, fun c hc n hn => by
          simp only [List.mem_singleton] at hc
          subst hc
          rw [hx1] at hn; cases hn
          rw [htyp, htyp]; exact hmay,
        fun _ c hc n hn => by
          simp only [List.mem_singleton] at hc
          subst hc
          rw [hx1] at hn; cases hn
          rw [hown', hown']; exact c1, by simp⟩ (by rw [hown']; exact hpo)
    have hnd := hploc.nodup
    rw [hab] at hnd
    have hslot : Slot (w.mp g l1) p old a b [new] := by
      refine ⟨⟨_, hp1⟩, ⟨_, ho1, hpar, hoprev, honext⟩, ?_, ?_, by simp, hdisj, ?_, ?_, by simp⟩
      · intro x hx'
        have : x ∈ removeCh ch new p := by rw [hab]; rcases hx' with h | h <;> simp [h]
        obtain ⟨n, hn, _⟩ := hL1.alive_child this
        exact ⟨n, hn⟩
      · intro s1 c s2 h
        obtain ⟨n, h1, _, _, h3⟩ := hkids s1 c s2 h
        exact ⟨n, h1, h3⟩
      · exact ⟨fun h => (List.nodup_append.1 hnd).2.2 old h old (by simp) rfl,
          (List.nodup_cons.1 (List.nodup_append.1 hnd).2.1).1⟩
      · rintro rfl
        exact not_below_child hL hW.wf c3 .refl
    have htail := replaceTail_run (f := none) hslot (by simp) hx1 (.inl ⟨rfl, rfl, by rw [htyp]; exact hf⟩) ho1 hoo hd
      (pending_of_child hW1 ho1 hpar) hpendn hne hnp
    refine ⟨_, _, ?_, hWF, ?_, ?_, ?_, ?_, ?_, ?_, rfl, ?_, ?_, ?_⟩
    · unfold replaceDo
      rw [bind_ok hrun]
      exact htail
    · exact ⟨a, b, hab, by rw [hmv, moveCh_same]⟩
    · intro q hq
      rw [moveCh_ne _ _ hq (by simp), setCh_ne _ _ hq]
      simp [hf, removeCh]
    · intro q hq
      obtain ⟨n, hn, _, h1⟩ := hWF.linked.alive_child hq
      obtain ⟨m, hm, rfl⟩ := mp_some_iff.1 hn
      have : old ∉ [new] := fun h => (hdisj old h).2.2 rfl
      simp [replacedAll, insertedRec, detachedRec, Ne.symm hne] at h1
    · intro j
      rw [mp_nodes, mp_nodes]
      cases w.nodes j with
      | none => rfl
      | some n =>
        have := (hdat j n).1
        simp only [Option.map_some, Option.some.injEq]
        rw [← this]; rfl
    · intro j
      rw [mp_nodes, mp_nodes]
      cases w.nodes j with
      | none => rfl
      | some n =>
        have := (hdat j n).2.1
        simp [replacedAll, insertedRec, detachedRec, this]
    · intro j
      rw [mp_nodes, mp_nodes]
      cases w.nodes j with
      | none => rfl
      | some n => simp [replacedAll, insertedRec, detachedRec, hown']
    · rw [mp_log, mp_log]; simp [l1]
    · intro j n hj ha
      have hjn : j ≠ new := by rintro rfl; rw [hx] at hj; cases hj; exact hmay.child.1 ha
      have h2 : j ≠ old := by
        rintro rfl
        rw [ho] at hj; cases hj
        rw [(hoth j _ (Ne.symm hne)).1] at hpar
        exact hna ha hpar
      exact ⟨_, mp_some (mp_some hj _ _) _ _, by simp [replacedAll, insertedRec, detachedRec, hjn, h2, (hoth j n hjn).1]⟩
    · intro j n hj hft hjn
      have h2 : j ≠ old := by
        rintro rfl
        rw [ho] at hj; cases hj
        rw [(hoth j _ (Ne.symm hne)).1, fragment_parent hW.toCore ho hft] at hpar; cases hpar
      exact ⟨_, mp_some (mp_some hj _ _) _ _, by simp [replacedAll, insertedRec, detachedRec, hjn, h2, (hoth j n hjn).2]⟩

/-- A DocumentFragment that is not on the pending list trips an assertion. -/
theorem replaceChild_fragment_fault (hW : WF w ch) (hp : w.nodes p = some pn) (hx : w.nodes new = some nn)
    (ho : w.nodes old = some on) (hna : on.type = .attribute → on.parent ≠ some p)
    (hf : nn.type = .fragment) (hpend : nn.pendingIn = none)
    (he : replaceRefusal w ch p new old nn pn = none) :
    replaceChild p new old w = .fault .assertFail := by
  rcases replaceChild_checks hW hp hx ho hna with ⟨e', he', h⟩ | ⟨h, c0, c1, c2, c3, c4, c5, href⟩
  · rw [he] at he'; simp at he'
  have hpar0 := fragment_parent hW.toCore hx hf
  have hne : new ≠ old := by
    rintro rfl
    obtain ⟨n, hn, _, h'⟩ := hW.linked.alive_child c3
    rw [hx] at hn; cases hn
    rw [hpar0] at h'; simp at h'
  have hno : nn.owner ≠ none := by rw [c1]; exact ReadOnly.owner hW.toCore hp c2
  have hrun : takeOut new w = .ok w () := by
    unfold takeOut; rw [get_bind hx, hpar0]; rfl
  rw [h, if_neg hne]
  unfold replaceDo
  rw [bind_ok hrun, bind_fault (removePending_fault hx hpend hno)]

/-- Replacement of an only child by an empty DocumentFragment. -/
theorem replaceChild_empty (hW : WF w ch) (hp : w.nodes p = some pn) (hx : w.nodes new = some nn)
    (ho : w.nodes old = some on) (hna : on.type = .attribute → on.parent ≠ some p)
    (hf : nn.type = .fragment) (hempty : ch new = []) (honly : ch p = [old]) (hpend : nn.pendingIn ≠ none)
    (he : replaceRefusal w ch p new old nn pn = none) :
    ∃ w' ch', replaceChild p new old w = .ok w' old ∧ Replaced w ch p new old nn w' ch' := by
  rcases replaceChild_checks hW hp hx ho hna with ⟨e', he', h⟩ | ⟨h, c0, c1, c2, c3, c4, c5, href⟩
  · rw [he] at he'; simp at he'
  have hL := hW.linked
  have hpar0 := fragment_parent hW.toCore hx hf
  have hpar := (child_iff hL ho hna).2 c3
  have hne : new ≠ old := by
    rintro rfl
    rw [hx] at ho; cases ho
    rw [hpar0] at hpar; simp at hpar
  have hnp : new ≠ p := by rintro rfl; exact c4 .refl
  have hop : old ≠ p := by
    rintro rfl
    exact not_below_child hL hW.wf c3 .refl
  have hno : nn.owner ≠ none := by rw [c1]; exact ReadOnly.owner hW.toCore hp c2
  have hrun : takeOut new w = .ok w () := by
    unfold takeOut; rw [get_bind hx, hpar0]; rfl
  have hrm : removeCh ch new = ch := removeCh_eq hL hx hpar0
  obtain ⟨n', hn', hfirst, hlast⟩ := (hL.loc new nn hx).ends
  rw [hx] at hn'; cases hn'
  rw [hempty] at hfirst hlast
  simp only [List.head?_nil, List.getLast?_nil] at hfirst hlast
  obtain ⟨on', ho', _, _, hoprev, honext⟩ := (hL.loc p pn hp).kids [] old [] honly
  rw [ho] at ho'; cases ho'
  simp only [List.head?_nil, List.getLast?_nil] at hoprev honext
  obtain ⟨d, dn, hoo, hd, _⟩ := hW.toCore.doc_alive ho (.inr (.inl (by rw [hpar]; simp)))
  have hopend := pending_of_child hW ho hpar
  let G : NodeId → Node → Node := fun j n => { unpend new j (detachedRec old p [] [] j n) with
      refcnt := if j = old then u32 (n.refcnt + 1) else n.refcnt }
  have hrr : replacementRange new (w.mp (unpend new) []) = .ok (w.mp (unpend new) []) (none, none) := by
    unfold replacementRange
    have hx2 : (w.mp (unpend new) []).nodes new = some (unpend new new nn) := mp_some hx _ _
    rw [get_bind hx2, if_pos (show (unpend new new nn).type = .fragment from hf), mp_mod_bind hx, pure_run]
    congr 1
    · refine mp_congr _ fun j n hj => ?_
      by_cases hjn : j = new
      · subst hjn
        rw [hx] at hj; cases hj
        cases nn
        simp_all [setAt, unpend]
      · simp [setAt, hjn]
    · simp [unpend, hfirst, hlast]
  have hfin : replaceDo new old w = .ok (w.mp G []) old := by
    unfold replaceDo
    rw [bind_ok hrun, bind_ok (removePending_run hx (.inr ⟨hpend, hno⟩))]
    have hrn : replaceNode old new (w.mp (unpend new) []) = .ok (w.mp (fun j n =>
        { unpend new j n with
          first := if j = p then none else n.first
          last := if j = p then none else n.last
          prev := if j = old then none else n.prev
          next := if j = old then none else n.next
          parent := if j = old then none else n.parent }) []) () := by
      unfold replaceNode
      rw [bind_ok hrr]
      dsimp only
      unfold replaceByNothing
      rw [mp_get_bind ho]
      have e1 : (unpend new old on).prev = none := hoprev
      have e2 : (unpend new old on).next = none := honext
      have e3 : (unpend new old on).parent = some p := hpar
      simp only [e1, e2, e3, Option.isNone_none, if_true]
      have h1 : ∀ (g : NodeId → Node → Node), (do let q ← deref (some p); modNode q fun x => { x with first := none } : M Unit) (w.mp g []) =
          .ok (w.mp (setAt p (fun x => { x with first := none }) g) []) () := by
        intro g; rw [deref_bind, mp_mod_run hp]
      have h2 : ∀ (g : NodeId → Node → Node), (do let q ← deref (some p); modNode q fun x => { x with last := none } : M Unit) (w.mp g []) =
          .ok (w.mp (setAt p (fun x => { x with last := none }) g) []) () := by
        intro g; rw [deref_bind, mp_mod_run hp]
      rw [bind_ok (h1 _), bind_ok (h2 _), mp_mod_run ho, setAt_gone, setAt_last, setAt_first]
      simp [unpend]
    rw [bind_ok hrn]
    unfold ref
    rw [mp_mod_bind ho, setAt_ref]
    have hmk := markPending_run (w := w.mp (fun j n =>
        { unpend new j n with
          first := if j = p then none else n.first
          last := if j = p then none else n.last
          prev := if j = old then none else n.prev
          next := if j = old then none else n.next
          parent := if j = old then none else n.parent
          refcnt := if j = old then u32 (n.refcnt + 1) else n.refcnt }) [])
      (x := old) (mp_some ho _ _) (d := d) hoo (mp_some hd _ _)
      (by simp [unpend, Ne.symm hne, hopend])
    have hmk2 := bind_ok hmk (fun _ => (pure old : M NodeId))
    refine Eq.trans hmk2 ?_
    rw [pure_run, mp_mp]
    congr 1
    simp only [List.append_nil]
    refine mp_congr _ fun j n hj => ?_
    by_cases hjo : j = old
    · subst hjo
      rw [ho] at hj; cases hj
      simp [G, unpend, detachedRec, hop, Ne.symm hne, hoo]
    · by_cases hjp : j = p
      · simp [G, unpend, detachedRec, hjo, hjp, Ne.symm hop]
      · simp [G, unpend, detachedRec, hjo, hjp]
  have hWF : WF (w.mp G []) (setCh ch p []) := by
    have h1 := WF_detached hW (a := []) (b := []) honly []
    refine ⟨h1.toCore.mp_same (g := fun j n => { unpend new j n with
      refcnt := if j = old then u32 (n.refcnt + 1) else n.refcnt }) [] (fun _ _ => rfl) (fun _ _ => rfl)
      (fun _ _ => rfl) |> fun h => by rw [mp_mp] at h; exact h, ?_⟩
    intro i m hm
    obtain ⟨n, hn, rfl⟩ := mp_some_iff.1 hm
    by_cases hi : i = new
    · right
      subst hi; rw [hx] at hn; cases hn
      simp [G, unpend, detachedRec, hf]
    · have := h1.pending i _ (mp_some hn _ _)
      simpa [G, unpend, hi] using this
  refine ⟨_, _, ?_, hWF, ⟨[], [], ?_, ?_⟩, ?_, ?_, ?_, ?_, ?_, rfl, ?_, ?_, ?_⟩
  · rw [h, if_neg hne]; exact hfin
  · have := congrFun hrm p
    unfold removeCh at this
    rw [this, honly]; rfl
  · simp [moved, hf, hempty]
  · intro q hq
    rw [setCh_ne _ _ hq]
    by_cases hqn : q = new
    · subst hqn; simp [hf, hempty]
    · simp only [hqn, false_and, if_false]
      exact (congrFun hrm q).symm
  · intro q hq
    obtain ⟨n, hn, _, h1⟩ := hWF.linked.alive_child hq
    obtain ⟨m, hm, rfl⟩ := mp_some_iff.1 hn
    simp [G, unpend, detachedRec] at h1
  · intro j; rw [mp_nodes]; cases w.nodes j <;> rfl
  · intro j; rw [mp_nodes]; cases w.nodes j <;> rfl
  · intro j; rw [mp_nodes]; cases w.nodes j <;> rfl
  · rw [mp_log, hpar0]; rfl
  · intro j n hj ha
    have h2 : j ≠ old := by
      rintro rfl
      rw [ho] at hj; cases hj; exact hna ha hpar
    exact ⟨_, mp_some hj _ _, by simp [G, unpend, detachedRec, h2]⟩
  · intro j n hj hft hjn
    have h2 : j ≠ old := by
      rintro rfl
      rw [ho] at hj; cases hj
      rw [fragment_parent hW.toCore ho hft] at hpar; cases hpar
    exact ⟨_, mp_some hj _ _, by simp [G, unpend, detachedRec, h2, hjn]⟩

end Dom.Tree
