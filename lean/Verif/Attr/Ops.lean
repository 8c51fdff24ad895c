import Verif.Attr.Drop
/-!
# The attribute calls on well-formed memory
-/
namespace Dom.Attr
set_option linter.unusedSimpArgs false

open Dom.Str (DStr Bytes contents)

/-- The entry an access by name finds. -/
def lookup (l : List Entry) (ns : Option DStr) (name : DStr) : Option Entry := l.find? fun en => decide (Fits ns name en)

section
variable {s s' : Mem} {ls : Addr → List Addr} {e a c h : Addr} {el el1 : Elem} {n : ANode} {x : Cell} {ns : Option DStr} {name : DStr}
  {pre suf : List Addr} {en : Entry}

/-- Nothing is found, or a cell of the list with all before it not fitting. -/
theorem find_cases (hI : Inv s ls) (e : Addr) (ns : Option DStr) (name : DStr) :
    (lookup (view s (ls e)) ns name = none ∧ (ls e).find? (cellFits s ns name) = none) ∨
    ∃ c x n pre suf, (ls e).find? (cellFits s ns name) = some c ∧ lookup (view s (ls e)) ns name = some x.pay ∧ ls e = pre ++ c :: suf ∧
      s.cells c = some x ∧ s.attrs x.attr = some n ∧ n.parent = some e ∧ Fits ns name x.pay ∧ (∀ k ∈ view s pre, ¬ Fits ns name k) := by
  have hv := view_find s ns name (ls e)
  cases hf : (ls e).find? (cellFits s ns name) with
  | none =>
    left
    rw [hf] at hv
    exact ⟨hv, rfl⟩
  | some c =>
    right
    obtain ⟨hp, pre, suf, hl, hpre⟩ := List.find?_eq_some_iff_append.1 hf
    obtain ⟨x, n, h1, h2, h3⟩ := hI.own (show c ∈ ls e by rw [hl]; simp)
    rw [hf] at hv
    simp only [Option.bind_some, h1, Option.map_some] at hv
    refine ⟨c, x, n, pre, suf, rfl, hv, hl, h1, h2, h3, ?_, ?_⟩
    · simp only [cellFits, h1] at hp
      exact matches_iff.1 hp
    · intro k hk hfk
      unfold view at hk
      obtain ⟨d, hd, hk⟩ := List.mem_filterMap.1 hk
      have := hpre d hd
      cases hd' : s.cells d with
      | none => rw [hd'] at hk; simp at hk
      | some y =>
        rw [hd'] at hk
        simp at hk
        subst hk
        simp only [cellFits, hd'] at this
        rw [matches_iff.2 hfk] at this
        simp at this

theorem settle_parent (p : Option Addr) : settle { n with parent := p } = { settle n with parent := p } := by
  unfold settle
  simp only []
  split
  · rfl
  · split <;> rfl

theorem settle_refcnt (k : Nat) : settle { n with refcnt := k } = { settle n with refcnt := k } := by
  unfold settle
  simp only []
  split
  · rfl
  · split <;> rfl

theorem valueOf_settle : valueOf (settle n) = valueOf n := by
  by_cases hs : ∃ v, n.kids = [.text (some v)]
  · obtain ⟨v, hk⟩ := hs
    unfold valueOf settle
    simp only [hk]
  · have hk : ∀ v, n.kids ≠ [.text (some v)] := fun v hv => hs ⟨v, hv⟩
    obtain ⟨_, h2, _, _, _, _, _, _, _, h10⟩ := settle_fields (n := n)
    rw [valueOf_other hk, valueOf_other (by intro v; rw [h2]; exact hk v), h2, h10]

theorem valueOf_parent (p : Option Addr) : valueOf { n with parent := p } = valueOf n := rfl

/-! ## Reading -/

theorem getAttr_none (hI : Inv s ls) (he : s.elems e = some el) (hl : lookup (view s (ls e)) ns name = none) :
    getAttr e ns name s = .ok s none := by
  unfold getAttr
  rw [getElem_bind he, bind_ok (findByName_run hI he)]
  rcases find_cases hI e ns name with ⟨_, h⟩ | ⟨c, x, n, pre, suf, _, h, _⟩
  · rw [h]; rfl
  · rw [hl] at h; simp at h

theorem getAttr_some (hI : Inv s ls) (he : s.elems e = some el) (hl : lookup (view s (ls e)) ns name = some en) :
    ∃ n, s.attrs en.attr = some n ∧ n.parent = some e ∧ (match valueOf n with
      | some b => ∃ v : DStr, getAttr e ns name s = .ok (s.setA en.attr (settle n)) (some v) ∧ v.data = b
      | none => getAttr e ns name s = .exc (s.setA en.attr (settle n)) .notSupported) := by
  unfold getAttr
  rw [getElem_bind he, bind_ok (findByName_run hI he)]
  rcases find_cases hI e ns name with ⟨h, _⟩ | ⟨c, x, n, pre, suf, h0, h, _, hx, hn, hp, _⟩
  · rw [hl] at h; simp at h
  · rw [hl] at h; injection h with h; subst h
    refine ⟨n, hn, hp, ?_⟩
    rw [h0]
    simp only []
    rw [getCell_bind hx]
    have hg := getValue_run hn
    cases hv : valueOf n with
    | none => rw [hv] at hg; exact bind_exc hg _
    | some b =>
      rw [hv] at hg
      obtain ⟨v, h1, h2⟩ := hg
      exact ⟨v, by rw [bind_ok h1]; rfl, h2⟩

theorem hasAttr_run (hI : Inv s ls) (he : s.elems e = some el) :
    hasAttr e ns name s = .ok s (lookup (view s (ls e)) ns name).isSome := by
  unfold hasAttr
  rw [getElem_bind he, bind_ok (findByName_run hI he)]
  rcases find_cases hI e ns name with ⟨h1, h2⟩ | ⟨c, x, n, pre, suf, h1, h2, _⟩
  · rw [h1, h2]; rfl
  · rw [h1, h2]; rfl

/-! ## Setting -/

/-- Setting through an entry that exists. -/
theorem setAttr_existing (hI : Inv s ls) (he : s.elems e = some el) (hro : el.ro = false) (v : Option DStr)
    (hname : Names.validateAttributeName (some name) = true)
    (hl : lookup (view s (ls e)) ns name = some en) (hn : s.attrs en.attr = some n) (hr : n.readOnly = false) (ht : n.typed = false) :
    ∃ old : Option DStr, old.map DStr.data = valueOf n ∧ setAttr e ns name v s =
      .ok ((s.setA en.attr (withValue n v)).addLog [.attrModified e old v en.attr (some name) .modification, .subtree e]) () := by
  rcases find_cases hI e ns name with ⟨h, _⟩ | ⟨c, x, n', pre, suf, h0, h, _, hx, hn', hp, _⟩
  · rw [hl] at h; simp at h
  rw [hl] at h; injection h with h; subst h
  have hna : x.pay.attr = x.attr := rfl
  rw [hna] at hn
  rw [hn] at hn'; injection hn' with hn'; subst hn'
  obtain ⟨old, h1, h2⟩ := setExisting_run (name := name) (v := v) hx hn hr ht hp he
  refine ⟨old, h1, ?_⟩
  unfold setAttr
  rw [hname]
  simp only [Bool.not_true]
  rw [throwIf_false, getElem_bind he, hro, throwIf_false, bind_ok (findByName_run hI he), h0]
  exact h2

/-- Setting an entry that cannot be written: the DOMAttrModified event is raised all the same. -/
theorem setAttr_refused (hI : Inv s ls) (he : s.elems e = some el) (hro : el.ro = false) (v : Option DStr)
    (hname : Names.validateAttributeName (some name) = true)
    (hl : lookup (view s (ls e)) ns name = some en) (hn : s.attrs en.attr = some n) (hr : n.readOnly = true ∨ n.typed = true) :
    ∃ old : Option DStr, setAttr e ns name v s =
      .exc ((s.setA en.attr (settle n)).addLog [.attrModified e old v en.attr (some name) .modification])
        (if n.readOnly then .noModificationAllowed else .attrWrongType) := by
  rcases find_cases hI e ns name with ⟨h, _⟩ | ⟨c, x, n', pre, suf, h0, h, _, hx, hn', hp, _⟩
  · rw [hl] at h; simp at h
  rw [hl] at h; injection h with h; subst h
  have hna : x.pay.attr = x.attr := rfl
  rw [hna] at hn
  rw [hn] at hn'; injection hn' with hn'; subst hn'
  obtain ⟨old, h1, h2⟩ := oldValue_run hn
  refine ⟨old, ?_⟩
  obtain ⟨_, _, _, _, _, _, _, hs8, _, hs10⟩ := settle_fields (n := n)
  unfold setAttr
  rw [hname]
  simp only [Bool.not_true]
  rw [throwIf_false, getElem_bind he, hro, throwIf_false, bind_ok (findByName_run hI he), h0]
  simp only []
  unfold setExisting
  rw [getCell_bind hx, bind_ok h1, fire_bind]
  rw [bind_exc (setValue_refused (n := settle n) (v := v) (by simp) (by rw [hs8, hs10]; exact hr)), hs8]
  rfl

theorem setAttr_new (hI : Inv s ls) (he : s.elems e = some el) (hro : el.ro = false) (v : Option DStr)
    (hname : Names.validateAttributeName (some name) = true)
    (hl : lookup (view s (ls e)) ns name = none) :
    ∃ s' c, setAttr e ns name v s = .ok s' () ∧ Inv s' (upd ls e (ls e ++ [c])) ∧
      Added s s' ls e el c { attr := s.fresh, name := name, ns := ns } (classesFor el.classes ns name (contents v)) ∧
      s'.attrs = (fun j => if j = s.fresh then some (madeNode s e el ns name v) else s.attrs j) ∧
      s'.log = s.log ++ [.attrModified e none v s.fresh (some name) .addition, .nodeChange s.fresh e .addition, .subtree e] ∧
      s'.fresh = s.fresh + 2 ∧ s'.junk = s.junk ∧ s'.quirks = s.quirks ∧ s'.idName = s.idName := by
  obtain ⟨s', c, h1, h2, h3, h4, h5, h6, h7, h8, h9⟩ := setNew_run (ns := ns) (name := name) hI he v
  have hfa : s.attrs s.fresh = none := by
    cases h : s.attrs s.fresh with
    | none => rfl
    | some n => exact absurd (hI.bndA h) (Nat.lt_irrefl _)
  refine ⟨s', c, ?_, ?_, h2, h3, h4, h5, h7, h8, h9⟩
  · unfold setAttr
    rw [hname]
    simp only [Bool.not_true]
    rw [throwIf_false, getElem_bind he, hro, throwIf_false, bind_ok (findByName_run hI he)]
    rcases find_cases hI e ns name with ⟨_, h⟩ | ⟨c, x, n, pre, suf, _, h, _⟩
    · rw [h]; exact h1
    · rw [hl] at h; simp at h
  · refine h2.inv hI ⟨madeNode s e el ns name v, by rw [h3]; simp, rfl⟩ ?_ ?_ (by omega) h6 ?_
    · intro n hn; simp only [hfa] at hn; simp at hn
    · intro b m p hb hm hp
      refine ⟨m, ?_, hp⟩
      rw [h3]
      simp only [hm]
      rw [if_neg hb]
    · intro b m hb
      rw [h3] at hb
      rw [h5]
      by_cases hbf : b = s.fresh
      · rw [hbf]; exact Nat.lt_add_of_pos_right (by omega)
      · simp [hbf] at hb
        exact Nat.lt_of_lt_of_le (hI.bndA hb) (Nat.le_add_right _ _)

/-! ## Removing -/

theorem unrefAttr_gone (h : s.attrs a = some n) (hp : n.parent = none) (h0 : n.refcnt ≠ 0) :
    unrefAttr a s = .ok { s with attrs := fun j => if j = a then (if n.refcnt = 1 then none else some { n with refcnt := n.refcnt - 1 }) else s.attrs j } () := by
  unfold unrefAttr
  rw [modANode_bind h]
  simp only [h0, if_false]
  rw [getANode_bind (n := { n with refcnt := n.refcnt - 1 }) (by simp)]
  simp only []
  by_cases h1 : n.refcnt = 1
  · rw [if_pos (by omega)]
    unfold tryDestroy
    rw [getANode_bind (n := { n with refcnt := n.refcnt - 1 }) (by simp), if_pos ⟨hp, by simp [h1]⟩]
    simp only [h1, if_true]
    congr 2
    funext j
    by_cases hj : j = a <;> simp [hj]
  · rw [if_neg (by omega)]
    simp only [h1, if_false]
    rfl

theorem removeAttr_none (hI : Inv s ls) (he : s.elems e = some el) (hro : el.ro = false) (hl : lookup (view s (ls e)) ns name = none) :
    removeAttr e ns name s = .ok s () := by
  unfold removeAttr
  rw [getElem_bind he, hro, throwIf_false, bind_ok (findByName_run hI he)]
  rcases find_cases hI e ns name with ⟨_, h⟩ | ⟨c, x, n, pre, suf, _, h, _⟩
  · rw [h]; rfl
  · rw [hl] at h; simp at h

/-- The node of a removed attribute: freed unless someone holds it. -/
def leftover (n : ANode) : Option ANode := if n.refcnt = 0 then none else some { settle n with parent := none }

theorem removeAttr_some (hI : Inv s ls) (he : s.elems e = some el) (hro : el.ro = false) (hl : lookup (view s (ls e)) ns name = some en) :
    ∃ s' n pre suf, removeAttr e ns name s = .ok s' () ∧ s.attrs en.attr = some n ∧ n.parent = some e ∧ Inv s' (upd ls e (pre ++ suf)) ∧
      view s (ls e) = view s pre ++ en :: view s suf ∧ (∀ k ∈ view s pre, ¬ Fits ns name k) ∧
      (∀ j, view s' (upd ls e (pre ++ suf) j) = if j = e then view s pre ++ view s suf else view s (ls j)) ∧
      s'.attrs = (fun j => if j = en.attr then leftover n else s.attrs j) ∧
      s'.elems = (fun j => if j = e then some { el with attributes := (pre ++ suf).head?, classes := if isClass en.ns en.name then [] else el.classes } else s.elems j) ∧
      (∃ old : Option DStr, old.map DStr.data = valueOf n ∧
        s'.log = s.log ++ [.nodeChange en.attr e .removal, .attrModified e old none en.attr (some name) .removal, .subtree e]) ∧
      s'.fresh = s.fresh ∧ s'.junk = s.junk ∧ s'.quirks = s.quirks ∧ s'.idName = s.idName := by
  rcases find_cases hI e ns name with ⟨h, _⟩ | ⟨c, x, n, pre, suf, h0, h, hsplit, hx, hn, hp, _, hpre⟩
  · rw [hl] at h; simp at h
  rw [hl] at h; injection h with h; subst h
  have hna : x.pay.attr = x.attr := rfl
  rw [hna]
  unfold removeAttr
  rw [getElem_bind he, hro, throwIf_false, bind_ok (findByName_run hI he), h0]
  simp only []
  rw [getCell_bind hx, fire_bind]
  let n1 : ANode := { n with refcnt := n.refcnt + 1 }
  let w : Mem := (s.addLog [.nodeChange x.attr e .removal]).setA x.attr n1
  have hI1 : Inv w ls := (hI.addLog _).setA (n := n) (n' := n1) hn rfl
  have href : refAttr x.attr (s.addLog [.nodeChange x.attr e .removal]) = .ok w () := modANode_run (s := s.addLog [.nodeChange x.attr e .removal]) (n := n) hn _
  rw [bind_ok href]
  obtain ⟨s1, g1, g2, g3, g4, g5, g6, g7, g8⟩ := dropCell_run (s := w) (n := n1) hI1 he hsplit hx (by simp [w]) hp (by simp [n1])
  rw [bind_ok g1]
  have ha1 : s1.attrs x.attr = some { n1 with parent := none } := by rw [g3]; simp
  obtain ⟨old, o1, o2⟩ := oldValue_run ha1
  rw [bind_ok o1, fire_bind]
  have hset : settle { n1 with parent := none } = { settle n with parent := none, refcnt := n.refcnt + 1 } := by
    rw [settle_parent, settle_refcnt]
  rw [hset]
  rw [bind_ok (unrefAttr_gone (n := { settle n with parent := none, refcnt := n.refcnt + 1 }) (by simp) rfl (by simp)), fire_run]
  have hfin : ∀ j, ((({ ((s1.setA x.attr { settle n with parent := none, refcnt := n.refcnt + 1 }).addLog [.attrModified e old none x.attr (some name) .removal]) with
      attrs := fun j => if j = x.attr then (if n.refcnt + 1 = 1 then none else some { settle n with parent := none, refcnt := n.refcnt + 1 - 1 })
        else ((s1.setA x.attr { settle n with parent := none, refcnt := n.refcnt + 1 }).addLog [.attrModified e old none x.attr (some name) .removal]).attrs j } : Mem).addLog [.subtree e]).attrs j)
      = (if j = x.attr then leftover n else s.attrs j) := by
    intro j
    simp only [addLog_attrs]
    by_cases hj : j = x.attr
    · simp only [hj, if_true, leftover]
      by_cases hc : n.refcnt = 0
      · simp [hc]
      · simp [hc]
        obtain ⟨_, _, _, h4, _⟩ := settle_fields (n := n)
        exact h4.symm
    · simp [hj, g3, w]
  refine ⟨_, n, pre, suf, rfl, hn, hp, ?_, view_split hsplit hx, hpre, ?_, ?_, ?_, ⟨old, ?_, ?_⟩, ?_, ?_, ?_, ?_⟩
  · have hD : Dropped w _ ls e el c x pre suf (pre ++ suf).head? := g2
    have hI2 : Inv s1 (upd ls e (pre ++ suf)) := by
      refine g2.inv hI1 rfl hx ?_ g5 ?_
      · intro b m p hb hm hmp
        exact ⟨m, by rw [g3]; simp [hb, hm], hmp⟩
      · intro b m hb
        rw [g5]
        rw [g3] at hb
        by_cases hbx : b = x.attr
        · rw [hbx]; exact hI.bndA hn
        · simp [hbx, w] at hb; exact hI.bndA hb
    refine hI2.keep rfl (fun _ => rfl) ?_ (Nat.le_refl _) ?_
    · intro b m p hb hm
      rw [hfin]
      by_cases hbx : b = x.attr
      · exfalso
        rw [hbx, ha1] at hb
        injection hb with hb
        rw [← hb] at hm
        simp at hm
      · rw [g3] at hb
        simp [hbx, w] at hb
        rw [if_neg hbx]
        exact ⟨m, hb, hm⟩
    · intro b m hb
      rw [hfin] at hb
      show b < s1.fresh
      rw [g5]
      by_cases hbx : b = x.attr
      · rw [hbx]; exact hI.bndA hn
      · rw [if_neg hbx] at hb; exact hI.bndA hb
  · intro j
    exact g2.view hI1 j
  · funext j; exact hfin j
  · show s1.elems = _
    rw [g2.elem]
    funext j
    by_cases hj : j = e
    · simp only [hj, if_true, hro]; rfl
    · simp only [hj, if_false]; rfl
  · rw [o2]
    exact (valueOf_parent none).trans rfl
  · simp [Mem.addLog, Mem.setA, g4, w]
  · exact g5
  · exact g6
  · exact g7
  · exact g8

end
end Dom.Attr
