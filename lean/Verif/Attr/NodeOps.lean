import Verif.Attr.Ops
/-!
# setAttributeNode, removeAttributeNode and the map view
-/
namespace Dom.Attr
set_option linter.unusedSimpArgs false

open Dom.Str (DStr Bytes contents)

section
variable {s s' : Mem} {ls : Addr → List Addr} {e a c h : Addr} {el el1 : Elem} {n m : ANode} {x : Cell} {ns : Option DStr} {name : DStr}
  {pre suf : List Addr} {en : Entry} {b : Bytes}

theorem settle_settle : settle (settle n) = settle n := by
  obtain ⟨_, h2, _⟩ := settle_fields (n := n)
  by_cases hs : ∃ v, n.kids = [.text (some v)]
  · obtain ⟨v, hk⟩ := hs
    have : settle n = n := by unfold settle; simp only [hk]
    rw [this, this]
  · have hk : ∀ v, n.kids ≠ [.text (some v)] := fun v hv => hs ⟨v, hv⟩
    rw [settle_other (n := settle n) (by intro v; rw [h2]; exact hk v), h2, settle_other hk]
    by_cases hu : n.type = .unset ∧ n.kids ≠ []
    · simp [hu]
    · simp only [if_neg hu]

theorem installNode_run (hI : Inv s ls) (he : s.elems e = some el) (hn : s.attrs a = some n) (hp : n.parent = none)
    (hv : isClass ns name = true → valueOf n = some b) :
    ∃ s' c, installNode e a name ns s = .ok s' () ∧ Inv s' (upd ls e (ls e ++ [c])) ∧
      Added s s' ls e el c { attr := a, name := name, ns := ns } (classesFor el.classes ns name b) ∧
      s'.attrs = (fun j => if j = a then some { settle n with parent := some e } else s.attrs j) ∧
      (∃ v : Option DStr, v.map DStr.data = valueOf n ∧
        s'.log = s.log ++ [.attrModified e none v a (some name) .addition, .nodeChange a e .addition, .subtree e]) ∧
      s'.fresh = s.fresh + 1 ∧ s'.junk = s.junk ∧ s'.quirks = s.quirks ∧ s'.idName = s.idName := by
  have hfc : s.cells s.fresh = none := by
    cases h : s.cells s.fresh with
    | none => rfl
    | some n => exact absurd (hI.bndC h) (Nat.lt_irrefl _)
  unfold installNode
  rw [bind_ok (nodeCreate_run hn he hv)]
  simp only []
  let n1 : ANode := if isClass ns name then settle n else n
  have hn1 : settle n1 = settle n := by
    simp only [n1]
    cases isClass ns name
    · rfl
    · exact settle_settle
  have hn1v : valueOf n1 = valueOf n := by
    simp only [n1]
    cases isClass ns name
    · rfl
    · exact valueOf_settle
  let w : Mem := { s with
        cells := fun j => if j = s.fresh then some { prev := s.fresh, next := s.fresh, attr := a, name := name, ns := ns } else s.cells j
        fresh := s.fresh + 1
        attrs := fun j => if j = a then some n1 else s.attrs j
        elems := fun j => if j = e then some { el with classes := classesFor el.classes ns name b } else s.elems j }
  show ∃ s' c, (modANode a (fun n => { n with parent := some e }) >>= _) w = _ ∧ _
  rw [modANode_bind (n := n1) (by simp [w])]
  obtain ⟨v, o1, o2⟩ := oldValue_run (s := w.setA a { n1 with parent := some e }) (a := a) (n := { n1 with parent := some e }) (by simp)
  rw [bind_ok (attempt_ok o1)]
  simp only []
  rw [fire_bind, fire_bind, fire_bind, setA_setA, settle_parent, hn1]
  have hlink := linkCell_run (s := s) (c := s.fresh) (el := el) (e := e) hI
    (w := (((w.setA a { settle n with parent := some e }).addLog [.attrModified e none v a (some name) .addition]).addLog [.nodeChange a e .addition]).addLog [.subtree e])
    (cel := { prev := s.fresh, next := s.fresh, attr := a, name := name, ns := ns })
    hfc (by simp [w]) ⟨rfl, rfl⟩ (by intro j hj; simp [w, hj]) he rfl
  obtain ⟨s', h3, hA, h4, h5, h6, h7, h8, h9⟩ := hlink
  replace h6 : s'.fresh = s.fresh + 1 := h6
  have hat : s'.attrs = (fun j => if j = a then some { settle n with parent := some e } else s.attrs j) := by
    rw [h4]; funext j; by_cases hj : j = a <;> simp [hj, w]
  refine ⟨s', s.fresh, h3, ?_, hA, hat, ⟨v, ?_, ?_⟩, h6, h7, h8, h9⟩
  · have hA' : Added s s' ls e el s.fresh { attr := a, name := name, ns := ns } (classesFor el.classes ns name b) := hA
    refine hA'.inv hI ⟨{ settle n with parent := some e }, by rw [hat]; simp, rfl⟩ ?_ ?_ (by rw [h6]; exact Nat.le_succ _) (by rw [h6]; exact Nat.lt_succ_self _) ?_
    · intro m hm; simp only [] at hm; rw [hn] at hm; cases hm; exact hp
    · intro d m p hd hm hmp
      exact ⟨m, by rw [hat]; simp only []; rw [if_neg hd]; exact hm, hmp⟩
    · intro d m hd
      rw [h6]
      show d < s.fresh + 1
      rw [hat] at hd
      by_cases hda : d = a
      · rw [hda]; exact Nat.lt_succ_of_lt (hI.bndA hn)
      · simp [hda] at hd; exact Nat.lt_succ_of_lt (hI.bndA hd)
  · rw [o2]
    exact hn1v
  · rw [h5]; simp [Mem.addLog, Mem.setA, w]

/-- The attribute found is taken out, when it is not the first of the list. -/
theorem replaceOld_run (hI : Inv s ls) (he : s.elems e = some el) (hsplit : ls e = pre ++ c :: suf) (hpre : pre ≠ [])
    (hx : s.cells c = some x) (hn : s.attrs x.attr = some n) (hp : n.parent = some e) (nm : DStr) :
    ∃ s', replaceOld e c nm s = .ok s' (some x.attr) ∧ Inv s' (upd ls e (pre ++ suf)) ∧
      (∀ j, view s' (upd ls e (pre ++ suf) j) = if j = e then view s pre ++ view s suf else view s (ls j)) ∧
      s'.attrs = (fun j => if j = x.attr then some { settle n with parent := none, refcnt := n.refcnt + 1 } else s.attrs j) ∧
      s'.elems = (fun j => if j = e then some { el with attributes := (pre ++ suf).head?, classes := if isClass x.ns x.name then [] else el.classes } else s.elems j) ∧
      (∃ old : Option DStr, old.map DStr.data = valueOf n ∧
        s'.log = s.log ++ [.nodeChange x.attr e .removal, .attrModified e old none x.attr (some nm) .removal, .subtree e]) ∧
      s'.fresh = s.fresh ∧ s'.junk = s.junk ∧ s'.quirks = s.quirks ∧ s'.idName = s.idName := by
  unfold replaceOld
  rw [getCell_bind hx, fire_bind]
  let n1 : ANode := { n with refcnt := n.refcnt + 1 }
  let w : Mem := (s.addLog [.nodeChange x.attr e .removal]).setA x.attr n1
  have hI1 : Inv w ls := (hI.addLog _).setA (n := n) (n' := n1) hn rfl
  have href : refAttr x.attr (s.addLog [.nodeChange x.attr e .removal]) = .ok w () :=
    modANode_run (s := s.addLog [.nodeChange x.attr e .removal]) (n := n) hn _
  rw [bind_ok href]
  obtain ⟨s1, g1, g2, g3, g4, g5, g6, g7, g8⟩ := drop_core (s := w) (n := n1) hI1 hsplit hx (by simp [w]) hp (by simp [n1]) el
  have hwe : w.elems e = some el := he
  rw [setE_self hwe] at g1
  have hassoc : ∀ {β : Type} (f : Unit → M β), (unlink c >>= fun _ => nodeDestroy c >>= f) w = f () s1 := by
    intro β f
    have : (unlink c >>= fun _ => nodeDestroy c >>= f) w = ((unlink c >>= fun _ => nodeDestroy c) >>= f) w := by
      simp only [bind_run]
      cases unlink c w <;> rfl
    rw [this, bind_ok g1]
  rw [hassoc]
  have ha1 : s1.attrs x.attr = some { n1 with parent := none } := by rw [g3]; simp
  obtain ⟨old, o1, o2⟩ := oldValue_run ha1
  rw [bind_ok o1, fire_bind, fire_bind]
  have hset : settle { n1 with parent := none } = { settle n with parent := none, refcnt := n.refcnt + 1 } := by
    rw [settle_parent, settle_refcnt]
  rw [hset]
  have hhead : el.attributes = (pre ++ suf).head? := by
    have := hI.head he
    rw [hsplit] at this
    cases pre with
    | nil => exact absurd rfl hpre
    | cons k p => simpa using this
  have hfin : ∀ j, ((((s1.setA x.attr { settle n with parent := none, refcnt := n.refcnt + 1 }).addLog [.attrModified e old none x.attr (some nm) .removal]).addLog [.subtree e]).attrs j)
      = (if j = x.attr then some { settle n with parent := none, refcnt := n.refcnt + 1 } else s.attrs j) := by
    intro j
    by_cases hj : j = x.attr <;> simp [hj, g3, w]
  refine ⟨_, rfl, ?_, ?_, ?_, ?_, ⟨old, ?_, ?_⟩, g5, g6, g7, g8⟩
  · have hI2 : Inv s1 (upd ls e (pre ++ suf)) := by
      refine g2.inv hI1 hhead hx ?_ g5 ?_
      · intro d m p hd hm hmp
        exact ⟨m, by rw [g3]; simp [hd, hm], hmp⟩
      · intro d m hd
        rw [g5]
        rw [g3] at hd
        by_cases hdx : d = x.attr
        · rw [hdx]; exact hI.bndA hn
        · simp [hdx, w] at hd; exact hI.bndA hd
    exact ((hI2.setA (n' := { settle n with parent := none, refcnt := n.refcnt + 1 }) ha1 rfl).addLog _).addLog _
  · intro j; exact g2.view hI1 j
  · funext j; exact hfin j
  · show s1.elems = _
    rw [g2.elem, hhead]
    rfl
  · rw [o2]; rfl
  · simp [Mem.addLog, Mem.setA, g4, w]

/-- setAttributeNode when nothing answers to the name. -/
theorem setAttrNode_new (hI : Inv s ls) (he : s.elems e = some el) (hro : el.ro = false) (hn : s.attrs a = some n) (ho : n.owner = el.owner)
    (hp : n.parent = none) (hl : lookup (view s (ls e)) ns n.name = none) (hv : isClass ns n.name = true → valueOf n = some b) :
    ∃ s' c, setAttrNode e ns a s = .ok s' none ∧ Inv s' (upd ls e (ls e ++ [c])) ∧
      Added s s' ls e el c { attr := a, name := n.name, ns := ns } (classesFor el.classes ns n.name b) ∧
      s'.attrs = (fun j => if j = a then some { settle n with parent := some e } else s.attrs j) := by
  obtain ⟨s', c, h1, h2, h3, h4, _⟩ := installNode_run (ns := ns) (name := n.name) hI he hn hp hv
  refine ⟨s', c, ?_, h2, h3, h4⟩
  unfold setAttrNode
  rw [getElem_bind he, getANode_bind hn, ho]
  simp only [ne_eq, not_true_eq_false, decide_false, throwIf_false, hro, hp, false_and]
  rw [bind_ok (findByName_run hI he)]
  rcases find_cases hI e ns n.name with ⟨_, h⟩ | ⟨c, x, n, pre, suf, _, h, _⟩
  · rw [h]
    simp only []
    rw [pure_bind', bind_ok h1]
    rfl
  · rw [hl] at h; simp at h

/-- setAttributeNode when an attribute other than the first answers to the name. -/
theorem setAttrNode_replace (hI : Inv s ls) (he : s.elems e = some el) (hro : el.ro = false) (hn : s.attrs a = some n) (ho : n.owner = el.owner)
    (hp : n.parent = none) (hl : lookup (view s (ls e)) ns n.name = some en) (hfirst : (view s (ls e)).head? ≠ some en)
    (hv : isClass ns n.name = true → valueOf n = some b) :
    ∃ s' m pre suf c, setAttrNode e ns a s = .ok s' (some en.attr) ∧ Inv s' (upd ls e ((pre ++ suf) ++ [c])) ∧
      s.attrs en.attr = some m ∧ m.parent = some e ∧ en.attr ≠ a ∧
      view s (ls e) = view s pre ++ en :: view s suf ∧ (∀ k ∈ view s pre, ¬ Fits ns n.name k) ∧ Fits ns n.name en ∧
      (∀ j, view s' (upd ls e ((pre ++ suf) ++ [c]) j) =
        if j = e then (view s pre ++ view s suf) ++ [{ attr := a, name := n.name, ns := ns }] else view s (ls j)) ∧
      s'.attrs = (fun j => if j = a then some { settle n with parent := some e }
        else if j = en.attr then some { settle m with parent := none, refcnt := m.refcnt + 1 } else s.attrs j) ∧
      s'.elems = (fun j => if j = e then some { el with attributes := ((pre ++ suf) ++ [c]).head?, classes := classesFor (if isClass en.ns en.name then [] else el.classes) ns n.name b } else s.elems j) := by
  rcases find_cases hI e ns n.name with ⟨h, _⟩ | ⟨c, x, m, pre, suf, h0, h, hsplit, hx, hm, hmp, hfit, hpre⟩
  · rw [hl] at h; simp at h
  rw [hl] at h; injection h with h; subst h
  have hna : x.pay.attr = x.attr := rfl
  have hvs := view_split hsplit hx
  have hpne : pre ≠ [] := by
    rintro rfl
    apply hfirst
    rw [hvs]; rfl
  obtain ⟨s1, g1, g2, g3, g4, g5, g6, g7, g8, g9, g10⟩ := replaceOld_run hI he hsplit hpne hx hm hmp n.name
  have hane : x.attr ≠ a := by
    intro h; rw [h, hn] at hm; cases hm; rw [hp] at hmp; simp at hmp
  obtain ⟨s', c', i1, i2, i3, i4, _⟩ := installNode_run (s := s1) (e := e) (ns := ns) (name := n.name) (n := n) (a := a) (b := b)
    (el := { el with attributes := (pre ++ suf).head?, classes := if isClass x.ns x.name then [] else el.classes }) g2 (by rw [g5]; simp)
    (by rw [g4]; simp [Ne.symm hane, hn]) hp hv
  have hu : ∀ l : List Addr, upd (upd ls e (pre ++ suf)) e l = upd ls e l := by
    intro l; funext j; by_cases hj : j = e <;> simp [upd, hj]
  rw [upd_same, hu] at i2
  refine ⟨s', m, pre, suf, c', ?_, i2, hm, hmp, hane, hvs, hpre, hfit, ?_, ?_, ?_⟩
  · unfold setAttrNode
    rw [getElem_bind he, getANode_bind hn, ho]
    simp only [ne_eq, not_true_eq_false, decide_false, throwIf_false, hro, hp, false_and]
    rw [bind_ok (findByName_run hI he), h0]
    simp only []
    rw [bind_ok g1, bind_ok i1]
    rfl
  · intro j
    have h1 := i3.view g2 j
    rw [upd_same, hu] at h1
    rw [h1]
    by_cases hj : j = e
    · have h2 := g3 e
      rw [upd_same, if_pos rfl] at h2
      rw [if_pos hj, if_pos hj, h2]
    · rw [if_neg hj, if_neg hj, g3 j, if_neg hj]
  · rw [i4]
    funext j
    by_cases hj : j = a
    · simp [hj]
    · simp [hj, g4, hna]
  · rw [i3.elem]
    funext j
    by_cases hj : j = e
    · simp [hj, Cell.pay]; rfl
    · simp [hj, g5]

/-- The refusals of setAttributeNode. -/
theorem setAttrNode_refused (he : s.elems e = some el) (hn : s.attrs a = some n)
    (h : n.owner ≠ el.owner ∨ el.ro = true ∨ (n.parent ≠ none ∧ n.parent ≠ some e)) :
    setAttrNode e ns a s = .exc s (if n.owner ≠ el.owner then .wrongDocument else if el.ro then .noModificationAllowed else .inuseAttribute) := by
  unfold setAttrNode
  rw [getElem_bind he, getANode_bind hn]
  by_cases ho : n.owner = el.owner
  · simp only [ho, ne_eq, not_true_eq_false, decide_false, throwIf_false, if_false]
    cases hro : el.ro with
    | true => simp [throwIf_true]
    | false =>
      rw [throwIf_false]
      have h : n.parent ≠ none ∧ n.parent ≠ some e := by
        rcases h with h | h | h
        · exact absurd ho h
        · rw [hro] at h; simp at h
        · exact h
      have h1 : decide (¬n.parent = none ∧ ¬n.parent = some e) = true := by simpa using h
      rw [h1, throwIf_true]
      rfl
  · have h1 : decide (el.owner ≠ n.owner) = true := by simpa using fun h => ho h.symm
    rw [h1, throwIf_true, if_pos ho]

/-- removeAttributeNode of an attribute that its node name leads to. -/
theorem removeAttrNode_found (hI : Inv s ls) (he : s.elems e = some el) (hro : el.ro = false) (hn : s.attrs a = some n) (hnm : nodeName n = .ok name)
    (hl : lookup (view s (ls e)) ns name = some en) (hen : en.attr = a) :
    ∃ s' pre suf, removeAttrNode e ns a s = .ok s' a ∧ Inv s' (upd ls e (pre ++ suf)) ∧ n.parent = some e ∧
      view s (ls e) = view s pre ++ en :: view s suf ∧
      (∀ j, view s' (upd ls e (pre ++ suf) j) = if j = e then view s pre ++ view s suf else view s (ls j)) ∧
      s'.attrs = (fun j => if j = a then some { settle n with parent := none, refcnt := n.refcnt + 1 } else s.attrs j) ∧
      s'.elems = (fun j => if j = e then some { el with attributes := (pre ++ suf).head?, classes := if isClass en.ns en.name then [] else el.classes } else s.elems j) := by
  rcases find_cases hI e ns name with ⟨h, _⟩ | ⟨c, x, m, pre, suf, h0, h, hsplit, hx, hm, hmp, _, hpre⟩
  · rw [hl] at h; simp at h
  rw [hl] at h; injection h with h; subst h
  have hna : x.attr = a := hen
  rw [hna, hn] at hm; injection hm with hm; subst hm
  have hname : liftOut (nodeName n) s = .ok s name := liftOut_ok hnm
  unfold removeAttrNode
  rw [getElem_bind he, hro, throwIf_false, getANode_bind hn, bind_ok hname, bind_ok (findByName_run hI he), h0]
  simp only []
  rw [getCell_bind hx]
  simp only [hna, ne_eq, not_true_eq_false, decide_false, throwIf_false]
  rw [fire_bind]
  let n1 : ANode := { n with refcnt := n.refcnt + 1 }
  let w : Mem := (s.addLog [.nodeChange a e .removal]).setA a n1
  have hI1 : Inv w ls := (hI.addLog _).setA (n := n) (n' := n1) hn rfl
  have href : refAttr a (s.addLog [.nodeChange a e .removal]) = .ok w () := modANode_run (s := s.addLog [.nodeChange a e .removal]) (n := n) hn _
  rw [bind_ok href]
  obtain ⟨s1, g1, g2, g3, g4, g5, g6, g7, g8⟩ := dropCell_run (s := w) (n := n1) hI1 he hsplit hx (by simp [w, hna]) hmp (by simp [n1])
  rw [hna] at g3
  rw [bind_ok g1]
  have ha1 : s1.attrs a = some { n1 with parent := none } := by rw [g3]; simp
  obtain ⟨old, o1, o2⟩ := oldValue_run ha1
  rw [bind_ok o1, fire_bind, fire_bind]
  have hset : settle { n1 with parent := none } = { settle n with parent := none, refcnt := n.refcnt + 1 } := by
    rw [settle_parent, settle_refcnt]
  rw [hset]
  refine ⟨_, pre, suf, rfl, ?_, hmp, view_split hsplit hx, ?_, ?_, ?_⟩
  · have hI2 : Inv s1 (upd ls e (pre ++ suf)) := by
      refine g2.inv hI1 rfl hx ?_ g5 ?_
      · intro d m p hd hm hmp
        rw [hna] at hd
        exact ⟨m, by rw [g3]; simp [hd, hm], hmp⟩
      · intro d m hd
        rw [g5]
        rw [g3] at hd
        by_cases hdx : d = a
        · rw [hdx]; exact hI.bndA hn
        · simp [hdx, w] at hd; exact hI.bndA hd
    exact ((hI2.setA (n' := { settle n with parent := none, refcnt := n.refcnt + 1 }) ha1 rfl).addLog _).addLog _
  · intro j; exact g2.view hI1 j
  · funext j
    by_cases hj : j = a <;> simp [hj, g3, w]
  · show s1.elems = _
    rw [g2.elem]
    funext j
    by_cases hj : j = e
    · simp only [hj, if_true, hro]; rfl
    · simp only [hj, if_false]; rfl

/-- removeAttributeNode refuses an attribute its name does not lead to. -/
theorem removeAttrNode_refused (hI : Inv s ls) (he : s.elems e = some el) (hro : el.ro = false) (hn : s.attrs a = some n) (hnm : nodeName n = .ok name)
    (hl : ∀ en, lookup (view s (ls e)) ns name = some en → en.attr ≠ a) :
    removeAttrNode e ns a s = .exc s .notFound := by
  have hname : liftOut (nodeName n) s = .ok s name := liftOut_ok hnm
  unfold removeAttrNode
  rw [getElem_bind he, hro, throwIf_false, getANode_bind hn, bind_ok hname, bind_ok (findByName_run hI he)]
  rcases find_cases hI e ns name with ⟨_, h⟩ | ⟨c, x, m, pre, suf, h0, h, hsplit, hx, hm, hmp, _, hpre⟩
  · rw [h]; rfl
  · rw [h0]
    simp only []
    rw [getCell_bind hx]
    have : x.attr ≠ a := hl x.pay h
    have h1 : decide (x.attr ≠ a) = true := by simpa using this
    rw [h1, throwIf_true]

/-! ## The map view -/

theorem view_getElem? (hI : Inv s ls) (e : Addr) (i : Nat) :
    (view s (ls e))[i]? = (ls e)[i]?.bind fun c => (s.cells c).map Cell.pay := by
  have h : ∀ l : List Addr, (∀ c ∈ l, ∃ x, s.cells c = some x) → ∀ i : Nat, (view s l)[i]? = l[i]?.bind fun c => (s.cells c).map Cell.pay := by
    intro l
    induction l with
    | nil => intro _ i; simp [view]
    | cons c t ih =>
      intro hc i
      obtain ⟨x, hx⟩ := hc c (by simp)
      have : view s (c :: t) = x.pay :: view s t := by
        unfold view; rw [List.filterMap_cons_some (b := x.pay) (by simp [hx])]
      rw [this]
      cases i with
      | zero => simp [hx]
      | succ i => simpa using ih (fun d hd => hc d (by simp [hd])) i
  exact h (ls e) (fun c hc => by obtain ⟨x, _, hx, _⟩ := hI.own hc; exact ⟨x, hx⟩) i

theorem view_length (hI : Inv s ls) (e : Addr) : (view s (ls e)).length = (ls e).length := by
  have h : ∀ l : List Addr, (∀ c ∈ l, ∃ x, s.cells c = some x) → (view s l).length = l.length := by
    intro l
    induction l with
    | nil => intro _; rfl
    | cons c t ih =>
      intro hc
      obtain ⟨x, hx⟩ := hc c (by simp)
      have : view s (c :: t) = x.pay :: view s t := by
        unfold view; rw [List.filterMap_cons_some (b := x.pay) (by simp [hx])]
      rw [this]
      simp [ih fun d hd => hc d (by simp [hd])]
  exact h (ls e) fun c hc => by obtain ⟨x, _, hx, _⟩ := hI.own hc; exact ⟨x, hx⟩

theorem refAttr_run (hn : s.attrs a = some n) : refAttr a s = .ok (s.setA a { n with refcnt := n.refcnt + 1 }) () := modANode_run hn _

theorem mapLength_run (hI : Inv s ls) (he : s.elems e = some el) : mapLength e s = .ok s (u32 (view s (ls e)).length) := by
  unfold mapLength
  rw [getElem_bind he, attrLength_run hI he, view_length hI]

theorem mapItem_run (hI : Inv s ls) (he : s.elems e = some el) {i : Nat} (hi : i < 4294967295) :
    (match (view s (ls e))[i]? with
     | none => mapItem e i s = .ok s none
     | some en => ∃ n, s.attrs en.attr = some n ∧ mapItem e i s = .ok (s.setA en.attr { n with refcnt := n.refcnt + 1 }) (some en.attr)) := by
  rw [view_getElem? hI]
  have hu : u32 (i + 1) = i + 1 := by rw [u32_eq_mod]; omega
  have hrun : mapItem e i s = (match (ls e)[i]? with
      | none => pure none
      | some c => do
        let x ← getCell c
        refAttr x.attr
        pure (some x.attr) : M (Option Addr)) s := by
    unfold mapItem
    rw [getElem_bind he, hu, bind_ok (getByIndex_run hI he hi)]
    cases (ls e)[i]? <;> rfl
  cases hc : (ls e)[i]? with
  | none => rw [hc] at hrun; simp only [Option.bind_none]; rw [hrun]; rfl
  | some c =>
    rw [hc] at hrun
    obtain ⟨x, n, h1, h2, h3⟩ := hI.own (List.mem_of_getElem? hc)
    simp only [Option.bind_some, h1, Option.map_some]
    refine ⟨n, h2, ?_⟩
    rw [hrun]
    simp only []
    rw [getCell_bind h1, bind_ok (refAttr_run h2)]
    rfl

theorem getAttrNode_run (hI : Inv s ls) (he : s.elems e = some el) :
    (match lookup (view s (ls e)) ns name with
     | none => getAttrNode e ns name s = .ok s none
     | some en => ∃ n, s.attrs en.attr = some n ∧ getAttrNode e ns name s = .ok (s.setA en.attr { n with refcnt := n.refcnt + 1 }) (some en.attr)) := by
  unfold getAttrNode
  rw [getElem_bind he, bind_ok (findByName_run hI he)]
  rcases find_cases hI e ns name with ⟨h1, h2⟩ | ⟨c, x, m, pre, suf, h0, h, hsplit, hx, hm, hmp, _, hpre⟩
  · rw [h1, h2]; rfl
  · rw [h0, h]
    refine ⟨m, hm, ?_⟩
    simp only []
    rw [getCell_bind hx, bind_ok (refAttr_run hm)]
    rfl

end
end Dom.Attr
