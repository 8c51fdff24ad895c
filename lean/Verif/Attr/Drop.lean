import Verif.Attr.Effects
/-!
# Taking an entry out of the list of an element
-/
namespace Dom.Attr
set_option linter.unusedSimpArgs false

open Dom.Str (DStr Bytes contents)

section
variable {s s' : Mem} {ls : Addr → List Addr} {e a c h : Addr} {el el1 : Elem} {n : ANode} {x : Cell} {ns : Option DStr} {name : DStr}
  {pre suf : List Addr}

/-- The entry of cell `c` is taken out of the list of `e`; `heads` is the head the element has then. -/
structure Dropped (s s' : Mem) (ls : Addr → List Addr) (e : Addr) (el : Elem) (c : Addr) (x : Cell) (pre suf : List Addr)
    (head : Option Addr) : Prop where
  split : ls e = pre ++ c :: suf
  elem : s'.elems = fun j => if j = e then
    some { el with attributes := head, classes := if isClass x.ns x.name then [] else el.classes } else s.elems j
  cell : s'.cells c = none
  entries : ∀ j, j ≠ c → (s'.cells j).map Cell.pay = (s.cells j).map Cell.pay
  ring : Ring s' (pre ++ suf)
  out : ∀ j, j ∉ ls e → s'.cells j = s.cells j

theorem setE_self (h : s.elems e = some el) : s.setE e el = s := by
  unfold Mem.setE
  congr 1
  funext j
  by_cases hj : j = e
  · subst hj; simp [h]
  · simp [hj]

theorem setE_setE (el' : Elem) : (s.setE e el).setE e el' = s.setE e el' := by
  unfold Mem.setE
  congr 1
  funext j
  by_cases hj : j = e <;> simp [hj]

theorem tryDestroy_keep (h : s.attrs a = some n) (hk : ¬ (n.parent = none ∧ n.refcnt = 0)) : tryDestroy a s = .ok s () := by
  unfold tryDestroy
  rw [getANode_bind h, if_neg hk]
  rfl

theorem nodeDestroy_run {p : Addr} (hx : s.cells c = some x) (h : s.attrs x.attr = some n) (hp : n.parent = some p) (hr : n.refcnt ≠ 0)
    (he : s.elems p = some el) :
    nodeDestroy c s = .ok { s with
      cells := fun j => if j = c then none else s.cells j
      attrs := fun j => if j = x.attr then some { n with parent := none } else s.attrs j
      elems := fun j => if j = p then some { el with classes := if isClass x.ns x.name then [] else el.classes } else s.elems j } () := by
  unfold nodeDestroy
  rw [getCell_bind hx, getANode_bind h]
  have hse : (fun j => if j = p then some el else s.elems j) = s.elems := by
    funext j; by_cases hj : j = p <;> simp [hj, he]
  cases hc : isClass x.ns x.name with
  | false =>
    simp only [Bool.false_eq_true, if_false]
    rw [pure_bind', modANode_bind h, bind_ok (tryDestroy_keep (n := { n with parent := none }) (by simp) (fun h => hr h.2)), hse]
    rfl
  | true =>
    simp only [if_true]
    have hd : (deref n.parent >>= fun p => destroyClasses p) s = .ok (s.setE p { el with classes := [] }) () := by
      rw [hp, deref_bind]
      unfold destroyClasses
      rw [modElem_run he]
    rw [bind_ok hd, modANode_bind (n := n) (by simpa using h),
      bind_ok (tryDestroy_keep (n := { n with parent := none }) (by simp) (fun h => hr h.2))]
    rfl

theorem drop_core (hI : Inv s ls) (hl : ls e = pre ++ c :: suf) (hx : s.cells c = some x) (h : s.attrs x.attr = some n)
    (hp : n.parent = some e) (hr : n.refcnt ≠ 0) (el1 : Elem) :
    ∃ s', (do unlink c; nodeDestroy c : M Unit) (s.setE e el1) = .ok s' () ∧
      Dropped s s' ls e el1 c x pre suf el1.attributes ∧
      s'.attrs = (fun j => if j = x.attr then some { n with parent := none } else s.attrs j) ∧ s'.log = s.log ∧ s'.fresh = s.fresh ∧
      s'.junk = s.junk ∧ s'.quirks = s.quirks ∧ s'.idName = s.idName := by
  have hr0 : Ring (s.setE e el1) (c :: (suf ++ pre)) := by
    have := hI.ring e
    rw [hl] at this
    have := (this.rotate).congr (s' := s.setE e el1) fun _ _ => rfl
    simpa using this
  have hn0 : (c :: (suf ++ pre)).Nodup := by
    have := hI.nodup e
    rw [hl] at this
    have hp : (pre ++ c :: suf).Perm (c :: (suf ++ pre)) := by
      simpa using (List.perm_append_comm (l₁ := pre) (l₂ := c :: suf))
    exact hp.nodup_iff.1 this
  obtain ⟨w, h1, h2, h3, h4, f, hw⟩ := unlink_run hr0 hn0
  have hwx : ∃ y, w.cells c = some y ∧ y.pay = x.pay := by
    have := h3 c
    simp only [setE_cells, hx] at this
    cases hy : w.cells c with
    | none => rw [hy] at this; simp at this
    | some y => rw [hy] at this; simp at this; exact ⟨y, rfl, this⟩
  obtain ⟨y, hy, hyx⟩ := hwx
  have hya : y.attr = x.attr := congrArg Entry.attr hyx
  have hyn : y.name = x.name := congrArg Entry.name hyx
  have hys : y.ns = x.ns := congrArg Entry.ns hyx
  have hwa : w.attrs = s.attrs := by rw [hw]; rfl
  have hwe : w.elems = (s.setE e el1).elems := by rw [hw]
  rw [bind_ok h1, nodeDestroy_run (n := n) (el := el1) hy (by rw [hwa, hya, h]) hp hr (by rw [hwe]; simp)]
  refine ⟨_, rfl, ⟨hl, ?_, ?_, ?_, ?_, ?_⟩, ?_, ?_, ?_, ?_, ?_, ?_⟩
  · funext j
    simp only [hyn, hys, hwe, setE_elems]
    by_cases hj : j = e <;> simp [hj]
  · simp
  · intro j hj
    simp only [if_neg hj]
    exact h3 j
  · have hnc : c ∉ suf ++ pre := (List.nodup_cons.1 hn0).1
    refine (h2.rotate).congr ?_
    intro j hj
    have : j ≠ c := by
      rintro rfl
      apply hnc
      simp at hj ⊢
      tauto
    simp [this]
  · intro j hj
    have hjc : j ≠ c := by rintro rfl; rw [hl] at hj; simp at hj
    simp only [if_neg hjc]
    rw [h4 j]
    · rfl
    · rw [hl] at hj
      simp at hj ⊢
      tauto
  · funext j; rw [hwa, hya]
  · rw [hw]; rfl
  · rw [hw]; rfl
  · rw [hw]; rfl
  · rw [hw]; rfl
  · rw [hw]; rfl

theorem dropCell_run (hI : Inv s ls) (he : s.elems e = some el) (hl : ls e = pre ++ c :: suf) (hx : s.cells c = some x)
    (h : s.attrs x.attr = some n) (hp : n.parent = some e) (hr : n.refcnt ≠ 0) :
    ∃ s', dropCell e c s = .ok s' () ∧ Dropped s s' ls e el c x pre suf (pre ++ suf).head? ∧
      s'.attrs = (fun j => if j = x.attr then some { n with parent := none } else s.attrs j) ∧ s'.log = s.log ∧ s'.fresh = s.fresh ∧
      s'.junk = s.junk ∧ s'.quirks = s.quirks ∧ s'.idName = s.idName := by
  obtain ⟨s', h1, h2, h3⟩ := drop_core hI hl hx h hp hr { el with attributes := (pre ++ suf).head? }
  refine ⟨s', ?_, ⟨h2.split, h2.elem, h2.cell, h2.entries, h2.ring, h2.out⟩, h3⟩
  rw [← h1]
  have hhead := hI.head he
  rw [hl] at hhead
  have hring := hI.ring e
  have hnd := hI.nodup e
  rw [hl] at hring hnd
  unfold dropCell
  rw [getElem_bind he]
  cases pre with
  | nil =>
    simp only [List.nil_append, List.head?_cons] at hhead
    obtain ⟨x', hx', hnext⟩ := hring.next (h := c) (pre := []) (suf := suf) (c := c) rfl
    rw [hx] at hx'; cases hx'
    simp only [if_pos hhead]
    have hA : (getCell c >>= fun x => modElem e fun y => { y with attributes := some x.next }) s = .ok (s.setE e { el with attributes := some x.next }) () := by
      rw [getCell_bind hx, modElem_run he]
    rw [bind_ok hA, getElem_bind (el := { el with attributes := some x.next }) (by simp)]
    cases suf with
    | nil =>
      simp only [List.head?_nil, Option.getD_none] at hnext
      rw [if_pos (by show some x.next = some c; rw [hnext]), modElem_bind (el := { el with attributes := some x.next }) (by simp), setE_setE]
      rfl
    | cons k u =>
      simp only [List.head?_cons, Option.getD_some] at hnext
      rw [if_neg]
      · rw [pure_bind', hnext]; rfl
      · show ¬ some x.next = some c
        rw [hnext]
        intro h0; injection h0 with h0; subst h0; simp at hnd
  | cons k p =>
    simp only [List.cons_append, List.head?_cons] at hhead
    have hkc : k ≠ c := by rintro rfl; simp at hnd
    have hne : ¬ el.attributes = some c := by rw [hhead]; intro h0; injection h0 with h0; exact hkc h0
    rw [if_neg hne, pure_bind', getElem_bind he, if_neg hne, pure_bind']
    simp only [List.cons_append, List.head?_cons]
    rw [← hhead]
    rw [show ({ el with attributes := el.attributes } : Elem) = el from rfl, setE_self he]

theorem Dropped.inv {head : Option Addr} (hD : Dropped s s' ls e el c x pre suf head) (hI : Inv s ls) (hh : head = (pre ++ suf).head?)
    (hx : s.cells c = some x)
    (hat : ∀ b n p, b ≠ x.attr → s.attrs b = some n → n.parent = some p → ∃ n', s'.attrs b = some n' ∧ n'.parent = some p)
    (hf : s'.fresh = s.fresh) (hbA : ∀ a n, s'.attrs a = some n → a < s'.fresh) : Inv s' (upd ls e (pre ++ suf)) := by
  have hnd := hI.nodup e
  rw [hD.split] at hnd
  have hcm : c ∈ ls e := by rw [hD.split]; simp
  have hcn : c ∉ pre ++ suf := by
    rw [List.nodup_append] at hnd
    simp only [List.mem_append, not_or]
    refine ⟨fun h => hnd.2.2 c h c (by simp) rfl, (List.nodup_cons.1 hnd.2.1).1⟩
  have hsub : ∀ j ∈ pre ++ suf, j ∈ ls e ∧ j ≠ c := by
    intro j hj
    refine ⟨by rw [hD.split]; simp at hj ⊢; tauto, ?_⟩
    rintro rfl; exact hcn hj
  have hpay : ∀ j y, j ≠ c → s.cells j = some y → ∃ z, s'.cells j = some z ∧ z.attr = y.attr := by
    intro j y hj hy
    have := hD.entries j hj
    rw [hy] at this
    cases hz : s'.cells j with
    | none => rw [hz] at this; simp at this
    | some z => rw [hz] at this; simp at this; exact ⟨z, rfl, congrArg Entry.attr this⟩
  have hpay' : ∀ j y, j ≠ c → s'.cells j = some y → ∃ z, s.cells j = some z ∧ y.attr = z.attr := by
    intro j y hj hy
    have := hD.entries j hj
    rw [hy] at this
    cases hz : s.cells j with
    | none => rw [hz] at this; simp at this
    | some z => rw [hz] at this; simp at this; exact ⟨z, rfl, congrArg Entry.attr this⟩
  refine hI.change (el' := { el with attributes := head, classes := if isClass x.ns x.name then [] else el.classes })
    (by rw [hD.elem]; simp) hh ?_ hD.ring ?_ ?_ ?_ ?_ ?_ ?_ ?_ hbA
  · intro j hj; rw [hD.elem]; simp [hj]
  · have : (pre ++ suf).Sublist (pre ++ c :: suf) := (List.Sublist.refl pre).append (List.sublist_cons_self c suf)
    exact hnd.sublist this
  · intro j hj; exact Or.inl (hsub j hj).1
  · intro e' j he' hj
    exact hD.out j fun h => he' (hI.disj hj h)
  · intro j hj
    obtain ⟨hj1, hj2⟩ := hsub j hj
    obtain ⟨y, m, h1, h2, h3⟩ := hI.own hj1
    obtain ⟨z, h4, h5⟩ := hpay j y hj2 h1
    have hne : y.attr ≠ x.attr := fun h => hj2 (hI.inj hj1 hcm h1 hx h)
    obtain ⟨m', h6, h7⟩ := hat _ m e hne h2 h3
    exact ⟨z, m', h4, by rw [h5]; exact h6, h7⟩
  · intro i j y z hi hj hy hz hyz
    obtain ⟨hi1, hi2⟩ := hsub i hi
    obtain ⟨hj1, hj2⟩ := hsub j hj
    obtain ⟨y', h1, h2⟩ := hpay' i y hi2 hy
    obtain ⟨z', h3, h4⟩ := hpay' j z hj2 hz
    exact hI.inj hi1 hj1 h1 h3 (by rw [← h2, ← h4, hyz])
  · intro b m p hp hb hm
    refine hat b m p ?_ hb hm
    rintro rfl
    obtain ⟨x', n, h1, h2, h3⟩ := hI.own hcm
    rw [hx] at h1; cases h1
    rw [hb] at h2; cases h2
    rw [hm] at h3; injection h3 with h3; exact hp h3
  · intro j y hy
    by_cases hj : j = c
    · subst hj; rw [hD.cell] at hy; simp at hy
    · obtain ⟨z, hz, _⟩ := hpay' j y hj hy
      rw [hf]; exact hI.bndC hz

theorem Dropped.view {head : Option Addr} (hD : Dropped s s' ls e el c x pre suf head) (hI : Inv s ls) (j : Addr) :
    view s' (upd ls e (pre ++ suf) j) = if j = e then view s pre ++ view s suf else view s (ls j) := by
  have hcm : c ∈ ls e := by rw [hD.split]; simp
  have hnd := hI.nodup e
  rw [hD.split, List.nodup_append] at hnd
  by_cases hj : j = e
  · subst hj
    rw [upd_same, if_pos rfl]
    unfold Attr.view
    rw [List.filterMap_append]
    congr 1
    · exact List.filterMap_congr fun i hi => hD.entries i (by rintro rfl; exact hnd.2.2 i hi i (by simp) rfl)
    · exact List.filterMap_congr fun i hi => hD.entries i (by rintro rfl; exact (List.nodup_cons.1 hnd.2.1).1 hi)
  · rw [upd_other _ hj, if_neg hj]
    exact view_congr fun i hi => hD.entries i (by rintro rfl; exact hj (hI.disj hi hcm))

theorem view_split (hl : ls e = pre ++ c :: suf) (hx : s.cells c = some x) :
    view s (ls e) = view s pre ++ x.pay :: view s suf := by
  rw [hl]
  unfold view
  rw [List.filterMap_append, List.filterMap_cons_some (b := x.pay) (by simp [hx])]

end
end Dom.Attr
