import Verif.Tree.InsertRun
/-!
# `insertBefore`, `removeChild`: every outcome
-/
namespace Dom.Tree
set_option linter.unusedSimpArgs false

variable {w : World} {ch : Children} {β : Type}

theorem wrongDocument_iff (nn pn : Node) :
    wrongDocument nn pn = true ↔ ¬ (nn.owner = pn.owner ∨ (nn.type = .doctype ∧ nn.owner = none)) := by
  unfold wrongDocument
  by_cases h1 : nn.type = .doctype
  · by_cases h2 : nn.owner = pn.owner
    · simp [h1, h2]
    · cases h3 : nn.owner with
      | none => simp [h1]
      | some d => rw [h3] at h2; simp [h1, h2]
  · simp [h1]

theorem ReadOnly.owner (hW : Core w ch) {p : NodeId} {pn : Node} (hp : w.nodes p = some pn) (h : ¬ ReadOnly w p) :
    pn.owner ≠ none := by
  have : pn.type ≠ .doctype := fun ht => h ⟨pn, hp, .inl ht⟩
  obtain ⟨d, _, h, _⟩ := hW.doc_alive hp (.inl this)
  rw [h]; simp

open Classical in
/-- The last of the causes of `insertRefusal`. -/
noncomputable def lastRefusal (w : World) (new : NodeId) (nn : Node) (r : Option NodeId) : Option Exc :=
  if r ≠ some new ∧ ∃ q, nn.parent = some q ∧ ReadOnly w q then some .noModificationAllowed else none

section
variable {p new : NodeId} {pn nn : Node} {r : Option NodeId}

/-- The common course of `insertBefore` up to the end of the checks. -/
theorem insertBefore_checks (hW : WF w ch) (hp : w.nodes p = some pn) (hx : w.nodes new = some nn)
    (hr : ∀ c, r = some c → ∃ n, w.nodes c = some n ∧ (n.type = .attribute → n.parent ≠ some p)) :
    (∃ e, insertRefusal w ch p new nn pn r = some e ∧ insertBefore p new r w = .exc w e) ∨
    (insertBefore p new r w = (if r = some new then (do ref new; pure new) else insertDo p new r nn pn) w ∧
      (nn.owner = pn.owner ∨ (nn.type = .doctype ∧ nn.owner = none)) ∧ ¬ ReadOnly w p ∧
      (∀ c, r = some c → c ∈ ch p) ∧ ¬ AncSelf w p new ∧ (nn.type ≠ .fragment → Permitted w ch p new) ∧
      insertRefusal w ch p new nn pn r =
        lastRefusal w new nn r) := by
  classical
  unfold insertBefore insertRefusal
  rw [get_bind hx, get_bind hp]
  by_cases c1 : nn.owner = pn.owner ∨ (nn.type = .doctype ∧ nn.owner = none)
  swap
  · left
    rw [(wrongDocument_iff nn pn).2 c1, throwIf_true]
    exact ⟨_, if_pos c1, rfl⟩
  have e1 : wrongDocument nn pn = false := by
    cases h : wrongDocument nn pn with
    | false => rfl
    | true => exact absurd c1 ((wrongDocument_iff nn pn).1 h)
  rw [e1, throwIf_false, if_neg (not_not.2 c1)]
  obtain ⟨ro, hro, hro'⟩ := readonly_run hW.toCore hp
  rw [bind_ok hro]
  by_cases c2 : ReadOnly w p
  · left
    rw [hro'.2 c2, throwIf_true, if_pos c2]
    exact ⟨_, rfl, rfl⟩
  have e2 : ro = false := by
    cases ro with
    | false => rfl
    | true => exact absurd (hro'.1 rfl) c2
  rw [e2, throwIf_false, if_neg c2]
  obtain ⟨nf, hnf, hnf'⟩ := notChildOf_run hW.toCore p r hr
  rw [bind_ok hnf]
  by_cases c3 : ∃ c, r = some c ∧ c ∉ ch p
  · left
    rw [hnf'.2 c3, throwIf_true, if_pos c3]
    exact ⟨_, rfl, rfl⟩
  have e3 : nf = false := by
    cases nf with
    | false => rfl
    | true => exact absurd (hnf'.1 rfl) c3
  rw [e3, throwIf_false, if_neg c3]
  obtain ⟨an, han, han'⟩ := isSelfOrAncestor_run hW.toCore new hp
  rw [bind_ok han]
  by_cases c4 : AncSelf w p new
  · left
    rw [han'.2 c4, throwIf_true, if_pos c4]
    exact ⟨_, rfl, rfl⟩
  have e4 : an = false := by
    cases an with
    | false => rfl
    | true => exact absurd (han'.1 rfl) c4
  rw [e4, throwIf_false, if_neg c4]
  have hnp : ∃ b, notPermitted p new nn w = .ok w b ∧ (b = true ↔ nn.type ≠ .fragment ∧ ¬ Permitted w ch p new) := by
    unfold notPermitted
    by_cases hf : nn.type = .fragment
    · rw [if_pos hf]; exact ⟨false, rfl, by simp [hf]⟩
    · rw [if_neg hf]
      obtain ⟨b, hb, hb'⟩ := permittedChild_run hW.toCore hp hx
      rw [bind_ok hb]
      refine ⟨!b, rfl, ?_⟩
      rw [← hb']; cases b <;> simp [hf]
  obtain ⟨np, hnp, hnp'⟩ := hnp
  rw [bind_ok hnp]
  by_cases c5 : nn.type ≠ .fragment ∧ ¬ Permitted w ch p new
  · left
    rw [hnp'.2 c5, throwIf_true, if_pos c5]
    exact ⟨_, rfl, rfl⟩
  have e5 : np = false := by
    cases np with
    | false => rfl
    | true => exact absurd (hnp'.1 rfl) c5
  rw [e5, throwIf_false, if_neg c5]
  right
  refine ⟨rfl, c1, c2, ?_, c4, ?_, rfl⟩
  · intro c hc; by_contra h; exact c3 ⟨c, hc, h⟩
  · intro h; by_contra h'; exact c5 ⟨h, h'⟩

/-- A refused insertion leaves the memory as it was. -/
theorem insertBefore_refused (hW : WF w ch) (hp : w.nodes p = some pn) (hx : w.nodes new = some nn)
    (hr : ∀ c, r = some c → ∃ n, w.nodes c = some n ∧ (n.type = .attribute → n.parent ≠ some p)) {e : Exc}
    (he : insertRefusal w ch p new nn pn r = some e) : insertBefore p new r w = .exc w e := by
  classical
  rcases insertBefore_checks hW hp hx hr with ⟨e', he', h⟩ | ⟨h, c1, c2, c3, c4, c5, href⟩
  · rw [he] at he'; cases he'; exact h
  · rw [he] at href
    unfold lastRefusal at href
    have hcond : r ≠ some new ∧ ∃ q, nn.parent = some q ∧ ReadOnly w q := by
      by_contra hc
      rw [if_neg hc] at href; simp at href
    rw [if_pos hcond] at href
    cases href
    rw [h, if_neg hcond.1]
    obtain ⟨q, hq, hqro⟩ := hcond.2
    unfold insertDo
    rw [bind_exc (takeOut_exc hW.toCore hx hq hqro)]

theorem WF_ref (hW : WF w ch) (x : NodeId) :
    WF (w.mp (fun j n => { n with refcnt := if j = x then u32 (n.refcnt + 1) else n.refcnt }) []) ch :=
  hW.mp_same [] (fun _ _ => rfl) (fun _ _ => rfl) (fun _ _ => rfl) (fun _ _ => rfl)

theorem ref_run (hx : w.nodes new = some nn) :
    ref new w = .ok (w.mp (fun j n => { n with refcnt := if j = new then u32 (n.refcnt + 1) else n.refcnt }) []) () := by
  unfold ref
  conv => lhs; rw [← mp_id w]
  rw [mp_mod_run hx, setAt_ref]

theorem insertBefore_nop (hW : WF w ch) (hp : w.nodes p = some pn) (hx : w.nodes new = some nn)
    (hna : nn.type = .attribute → nn.parent ≠ some p)
    (he : insertRefusal w ch p new nn pn (some new) = none) :
    insertBefore p new (some new) w =
      .ok (w.mp (fun j n => { n with refcnt := if j = new then u32 (n.refcnt + 1) else n.refcnt }) []) new := by
  rcases insertBefore_checks (r := some new) hW hp hx (fun c hc => by cases hc; exact ⟨nn, hx, hna⟩) with
    ⟨e', he', h⟩ | ⟨h, _⟩
  · rw [he] at he'; simp at he'
  · rw [h, if_pos rfl, bind_ok (ref_run hx)]; rfl

theorem refusal_none_cond (hne : r ≠ some new)
    (href : insertRefusal w ch p new nn pn r =
        lastRefusal w new nn r)
    (he : insertRefusal w ch p new nn pn r = none) : ∀ q, nn.parent = some q → ¬ ReadOnly w q := by
  classical
  intro q hq hro
  unfold lastRefusal at href
  rw [he, if_pos ⟨hne, q, hq, hro⟩] at href
  simp at href

/-- Insertion of a single node. -/
theorem insertBefore_node (hW : WF w ch) (hp : w.nodes p = some pn) (hx : w.nodes new = some nn)
    (hr : ∀ c, r = some c → ∃ n, w.nodes c = some n ∧ (n.type = .attribute → n.parent ≠ some p))
    (hnf : nn.type ≠ .fragment) (hne : r ≠ some new) (he : insertRefusal w ch p new nn pn r = none) :
    ∃ w' ch', insertBefore p new r w = .ok w' new ∧ Inserted w ch p new nn pn r w' ch' := by
  rcases insertBefore_checks hW hp hx hr with ⟨e', he', h⟩ | ⟨h, c1, c2, c3, c4, c5, href⟩
  · rw [he] at he'; simp at he'
  · rw [h, if_neg hne]
    exact insertDo_node hW hp hx hnf (c5 hnf) c4 c1 (refusal_none_cond hne href he) c3 hne

theorem fragment_parent (hW : Core w ch) (hx : w.nodes new = some nn) (hf : nn.type = .fragment) :
    nn.parent = none := by
  cases h : nn.parent with
  | none => rfl
  | some q =>
    obtain ⟨qn, hqn⟩ := hW.linked.alive_parent hx h
    have := (hW.types q qn new nn hqn (hW.linked.up new nn q hx (by simp [hf]) h) hx).child
    exact absurd hf this.2.2.1

theorem insertBefore_fragment (hW : WF w ch) (hp : w.nodes p = some pn) (hx : w.nodes new = some nn)
    (hr : ∀ c, r = some c → ∃ n, w.nodes c = some n ∧ (n.type = .attribute → n.parent ≠ some p))
    (hf : nn.type = .fragment) (hpend : nn.pendingIn ≠ none) (hperm : ∀ c ∈ ch new, Permitted w ch p c)
    (he : insertRefusal w ch p new nn pn r = none) :
    ∃ w' ch', insertBefore p new r w = .ok w' new ∧ Inserted w ch p new nn pn r w' ch' := by
  rcases insertBefore_checks hW hp hx hr with ⟨e', he', h⟩ | ⟨h, c1, c2, c3, c4, c5, href⟩
  · rw [he] at he'; simp at he'
  · have hne : r ≠ some new := by
      rintro rfl
      obtain ⟨n, hn, _, h'⟩ := hW.linked.alive_child (c3 new rfl)
      rw [hx] at hn; cases hn
      rw [fragment_parent hW.toCore hx hf] at h'; simp at h'
    rw [h, if_neg hne]
    refine insertDo_fragment hW hp hx hf hpend (ReadOnly.owner hW.toCore hp c2) hperm c4 ?_ c3
    rcases c1 with h | ⟨h, _⟩
    · exact h
    · rw [hf] at h; cases h

/-- A DocumentFragment with a child that is not permitted is refused, but it has left the pending list by then. -/
theorem insertBefore_fragment_bad (hW : WF w ch) (hp : w.nodes p = some pn) (hx : w.nodes new = some nn)
    (hr : ∀ c, r = some c → ∃ n, w.nodes c = some n ∧ (n.type = .attribute → n.parent ≠ some p))
    (hf : nn.type = .fragment) (hpend : nn.pendingIn ≠ none) (hperm : ¬ ∀ c ∈ ch new, Permitted w ch p c)
    (he : insertRefusal w ch p new nn pn r = none) :
    insertBefore p new r w = .exc (w.mp (unpend new) []) .hierarchyRequest := by
  rcases insertBefore_checks hW hp hx hr with ⟨e', he', h⟩ | ⟨h, c1, c2, c3, c4, c5, href⟩
  · rw [he] at he'; simp at he'
  · have hpar0 := fragment_parent hW.toCore hx hf
    have hne : r ≠ some new := by
      rintro rfl
      obtain ⟨n, hn, _, h'⟩ := hW.linked.alive_child (c3 new rfl)
      rw [hx] at hn; cases hn
      rw [hpar0] at h'; simp at h'
    have hno : nn.owner ≠ none := by
      obtain ⟨d, _, h, _⟩ := hW.toCore.doc_alive hx (.inl (by simp [hf]))
      rw [h]; simp
    have hrun : takeOut new w = .ok w () := by
      unfold takeOut; rw [get_bind hx, hpar0]; rfl
    have hu1 : ∀ j n, (unpend new j n).type = n.type := fun _ _ => rfl
    have hC2 : Core (w.mp (unpend new) []) ch := hW.toCore.mp_same [] hu1 (fun _ _ => rfl) (fun _ _ => rfl)
    have hp2 : (w.mp (unpend new) []).nodes p = some (unpend new p pn) := mp_some hp _ _
    have hx2 : (w.mp (unpend new) []).nodes new = some (unpend new new nn) := mp_some hx _ _
    obtain ⟨ok, hok, hok'⟩ := allPermitted_run hC2 hp2 (hC2.linked.loc new _ hx2) (ch new) [] (by simp)
      (w.fresh + 1) (by have := child_length_le hW.toCore new; omega)
    have hokf : ok = false := by
      cases ok with
      | false => rfl
      | true =>
        exact absurd (fun c hc => (hok'.1 rfl c hc).congr (w := w) (fun j => mp_types hu1 [] j) (fun x hx => hx)) hperm
    obtain ⟨n', hn', hfirst, hlast⟩ := (hW.linked.loc new nn hx).ends
    rw [hx] at hn'; cases hn'
    have hfirst' : (unpend new new nn).first = (ch new).head? := hfirst
    rw [h, if_neg hne]
    unfold insertDo
    rw [bind_ok hrun, bind_ok (removePending_run hx (.inr ⟨hpend, hno⟩)), if_pos hf]
    have hif : insertFragment p new r (w.mp (unpend new) []) =
        .exc (w.mp (unpend new) []) .hierarchyRequest := by
      unfold insertFragment
      rw [get_bind hx2, bound_bind, mp_fresh, hfirst', bind_ok hok, hokf]
      simp only [Bool.not_false]
      rw [throwIf_true]
    rw [bind_exc hif]

/-- A DocumentFragment that is not on the pending list trips an assertion. -/
theorem insertBefore_fragment_fault (hW : WF w ch) (hp : w.nodes p = some pn) (hx : w.nodes new = some nn)
    (hr : ∀ c, r = some c → ∃ n, w.nodes c = some n ∧ (n.type = .attribute → n.parent ≠ some p))
    (hf : nn.type = .fragment) (hpend : nn.pendingIn = none)
    (he : insertRefusal w ch p new nn pn r = none) :
    insertBefore p new r w = .fault .assertFail := by
  rcases insertBefore_checks hW hp hx hr with ⟨e', he', h⟩ | ⟨h, c1, c2, c3, c4, c5, href⟩
  · rw [he] at he'; simp at he'
  · have hpar0 := fragment_parent hW.toCore hx hf
    have hne : r ≠ some new := by
      rintro rfl
      obtain ⟨n, hn, _, h'⟩ := hW.linked.alive_child (c3 new rfl)
      rw [hx] at hn; cases hn
      rw [hpar0] at h'; simp at h'
    have hno : nn.owner ≠ none := by
      obtain ⟨d, _, h, _⟩ := hW.toCore.doc_alive hx (.inl (by simp [hf]))
      rw [h]; simp
    have hrun : takeOut new w = .ok w () := by
      unfold takeOut; rw [get_bind hx, hpar0]; rfl
    rw [h, if_neg hne]
    unfold insertDo
    rw [bind_ok hrun, bind_fault (removePending_fault hx hpend hno)]

end

/-! ## removeChild -/

section
variable {p old : NodeId} {pn on : Node}

theorem child_iff (hL : Linked w ch) (ho : w.nodes old = some on) (hna : on.type = .attribute → on.parent ≠ some p) :
    on.parent = some p ↔ old ∈ ch p := by
  constructor
  · exact fun h => hL.up old on p ho (fun h' => hna h' h) h
  · intro h
    obtain ⟨n', hn', _, hp⟩ := hL.alive_child h
    rw [ho] at hn'; cases hn'; exact hp

theorem removeChild_refused (hW : WF w ch) (hp : w.nodes p = some pn) (ho : w.nodes old = some on)
    (hna : on.type = .attribute → on.parent ≠ some p) {e : Exc} (he : removeRefusal w ch p old pn on = some e) :
    removeChild p old w = .exc w e := by
  classical
  unfold removeChild
  unfold removeRefusal at he
  rw [get_bind hp, get_bind ho]
  by_cases c1 : pn.type = .document ∧ (on.type = .doctype ∨ on.type = .element)
  · rw [if_pos c1] at he; cases he
    have : (pn.type = .document && (on.type = .doctype || on.type = .element)) = true := by simpa using c1
    rw [this, throwIf_true]
  · rw [if_neg c1] at he
    have : (pn.type = .document && (on.type = .doctype || on.type = .element)) = false := by
      rw [Bool.eq_false_iff]; simpa using c1
    rw [this, throwIf_false]
    by_cases c2 : old ∉ ch p
    · rw [if_pos c2] at he; cases he
      have : decide (on.parent ≠ some p) = true := by
        simpa [child_iff hW.linked ho hna] using c2
      rw [this, throwIf_true]
    · rw [if_neg c2] at he
      have : decide (on.parent ≠ some p) = false := by
        simpa [child_iff hW.linked ho hna] using c2
      rw [this, throwIf_false]
      obtain ⟨ro, hro, hro'⟩ := readonly_run hW.toCore hp
      rw [bind_ok hro]
      by_cases c3 : ReadOnly w p
      · rw [if_pos c3] at he; cases he
        rw [hro'.2 c3, throwIf_true]
      · rw [if_neg c3] at he; simp at he

theorem removeChild_ok (hW : WF w ch) (hp : w.nodes p = some pn) (ho : w.nodes old = some on)
    (hna : on.type = .attribute → on.parent ≠ some p) (he : removeRefusal w ch p old pn on = none) :
    ∃ w' ch', removeChild p old w = .ok w' old ∧ Removed w ch p old w' ch' := by
  classical
  have hL := hW.linked
  unfold removeRefusal at he
  by_cases c1 : pn.type = .document ∧ (on.type = .doctype ∨ on.type = .element)
  · rw [if_pos c1] at he; simp at he
  rw [if_neg c1] at he
  by_cases c2 : old ∉ ch p
  · rw [if_pos c2] at he; simp at he
  rw [if_neg c2] at he
  by_cases c3 : ReadOnly w p
  · rw [if_pos c3] at he; simp at he
  have hmem : old ∈ ch p := not_not.1 c2
  have hpar := (child_iff hL ho hna).2 hmem
  obtain ⟨a, b, hab⟩ := List.append_of_mem hmem
  obtain ⟨d, dn, hpo, hd, _⟩ := hW.toCore.doc_alive hp (.inr (.inr (ReadOnly.owner hW.toCore hp c3)))
  have hoo : on.owner = some d := by rw [hW.ownSame old on p pn ho hpar hp, hpo]
  have e1 : (pn.type = .document && (on.type = .doctype || on.type = .element)) = false := by
    rw [Bool.eq_false_iff]; simpa using c1
  have e2 : decide (on.parent ≠ some p) = false := by simp [hpar]
  obtain ⟨ro, hro, hro'⟩ := readonly_run hW.toCore hp
  have e3 : ro = false := by
    cases ro with
    | false => rfl
    | true => exact absurd (hro'.1 rfl) c3
  have hdisp := dispatchNodeChange_run (ch := ch) (w := w) hd ho (some p) .removal (k := w.fresh) (hW.ht ho)
    (fun y hy => by
      obtain ⟨m, hm⟩ := hy.alive hL ho; exact hL.loc y m hm)
    (fun y hy hne => hW.toCore.below_owner hy hne)
    (fun x hx => not_below_child hL hW.wf hx)
    (preorder_length_le hW.toCore _ ho)
  rw [hoo] at hdisp
  simp only [Option.isSome_some] at hdisp
  let l0 := changeEvents ch w.fresh true old (some p) .removal
  have hw0 : w.addLog l0 = w.mp (fun _ n => n) l0 := by
    conv => lhs; rw [← mp_id w]
    rw [mp_addLog]; rfl
  rw [hw0] at hdisp
  have hW0 : WF (w.mp (fun _ n => n) l0) ch :=
    hW.mp_same l0 (fun _ _ => rfl) (fun _ _ => rfl) (fun _ _ => rfl) (fun _ _ => rfl)
  have hdet := detach_run hW0 hab
  rw [mp_mp, mp_fresh] at hdet
  have hrun : removeChild p old w = .ok (w.mp (fun j n => { detachedRec old p a b j n with
        refcnt := if j = old then u32 (n.refcnt + 1) else n.refcnt })
      (l0 ++ removalEvents w ch old (some p) ++ [{ kind := .subtreeModified, target := p, related := some p }])) old := by
    unfold removeChild
    rw [get_bind hp, get_bind ho, e1, throwIf_false, e2, throwIf_false, bind_ok hro, e3, throwIf_false, hpo,
      bind_ok hdisp, bind_ok hdet]
    unfold ref
    rw [mp_mod_bind ho, setAt_ref]
    unfold fireSubtreeModified
    rw [fire_bind (mp_some hd _ _) (mp_some hp _ _)]
    have : (detachedRec old p a b p pn).owner = some d := hpo
    simp only [this, Option.isSome_some, if_true]
    rw [pure_run, mp_addLog]
    simp [removalEvents, l0, detachedRec]
  refine ⟨_, removeCh ch old, hrun, ?_, fun _ => rfl, ?_, ?_, ?_, rfl, ?_, ?_, ?_⟩
  · have h1 := WF_detached hW hab []
    rw [setCh_eq_removeCh hL hab] at h1
    have h2 := h1.mp_same (g := fun j n => { n with refcnt := if j = old then u32 (n.refcnt + 1) else n.refcnt })
      (l0 ++ removalEvents w ch old (some p) ++ [{ kind := .subtreeModified, target := p, related := some p }])
      (fun _ _ => rfl) (fun _ _ => rfl) (fun _ _ => rfl) (fun _ _ => rfl)
    rw [mp_mp] at h2
    exact h2
  · intro j; rw [mp_nodes]; cases w.nodes j <;> rfl
  · intro j; rw [mp_nodes]; cases w.nodes j <;> rfl
  · intro j; rw [mp_nodes]; cases w.nodes j <;> rfl
  · rw [mp_log]
  · intro j; rw [mp_nodes]; cases w.nodes j <;> rfl
  · intro j n hj hft
    have h2 : j ≠ old := by
      rintro rfl
      rw [ho] at hj; cases hj
      obtain ⟨qn, hqn⟩ := hL.alive_parent ho hpar
      exact absurd hft (hW.types p qn j on hqn hmem ho).child.2.2.1
    exact ⟨_, mp_some hj _ _, by simp [detachedRec, h2]⟩

end
end Dom.Tree
