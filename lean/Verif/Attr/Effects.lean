import Verif.Attr.Lemmas
/-!
# What the attribute functions do to the lists
-/
namespace Dom.Attr
set_option linter.unusedSimpArgs false

open Dom.Str (DStr Bytes contents)

/-- The list of `e` becomes `l`. -/
def upd (ls : Addr → List Addr) (e : Addr) (l : List Addr) : Addr → List Addr := fun j => if j = e then l else ls j

section
variable {s s' : Mem} {ls : Addr → List Addr} {e a c h : Addr} {el : Elem} {n : ANode} {x : Cell} {ns : Option DStr} {name : DStr}

@[simp] theorem upd_same (l) : upd ls e l e = l := by simp [upd]
theorem upd_other {j : Addr} (l) (h : j ≠ e) : upd ls e l j = ls j := by simp [upd, h]
theorem upd_self : upd ls e (ls e) = ls := by funext j; by_cases h : j = e <;> simp [upd, h]

/-- A change of the list of one element. -/
theorem Inv.change (hI : Inv s ls) {l' : List Addr} {el' : Elem}
    (hel : s'.elems e = some el') (hhead : el'.attributes = l'.head?)
    (helo : ∀ j, j ≠ e → (s'.elems j).map Elem.attributes = (s.elems j).map Elem.attributes)
    (hring : Ring s' l') (hnd : l'.Nodup)
    (hnew : ∀ j ∈ l', j ∈ ls e ∨ ∀ e', j ∉ ls e')
    (hout : ∀ e' j, e' ≠ e → j ∈ ls e' → s'.cells j = s.cells j)
    (hown : ∀ c ∈ l', ∃ x n, s'.cells c = some x ∧ s'.attrs x.attr = some n ∧ n.parent = some e)
    (hinj : ∀ c c' x y, c ∈ l' → c' ∈ l' → s'.cells c = some x → s'.cells c' = some y → x.attr = y.attr → c = c')
    (hattrs : ∀ a n e', e' ≠ e → s.attrs a = some n → n.parent = some e' → ∃ n', s'.attrs a = some n' ∧ n'.parent = some e')
    (hbC : ∀ c x, s'.cells c = some x → c < s'.fresh) (hbA : ∀ a n, s'.attrs a = some n → a < s'.fresh) :
    Inv s' (upd ls e l') where
  head := by
    intro j elj hj
    by_cases h : j = e
    · subst h; rw [hel] at hj; cases hj; simpa using hhead
    · rw [upd_other _ h]
      have := helo j h
      rw [hj] at this
      cases hs : s.elems j with
      | none => rw [hs] at this; simp at this
      | some y => rw [hs] at this; simp at this; rw [this]; exact hI.head hs
  gone := by
    intro j hj
    by_cases h : j = e
    · subst h; rw [hel] at hj; simp at hj
    · rw [upd_other _ h]
      have := helo j h
      rw [hj] at this
      cases hs : s.elems j with
      | none => exact hI.gone hs
      | some y => rw [hs] at this; simp at this
  ring := by
    intro j
    by_cases h : j = e
    · subst h; simpa using hring
    · rw [upd_other _ h]; exact (hI.ring j).congr fun c hc => hout j c h hc
  nodup := by
    intro j
    by_cases h : j = e
    · subst h; simpa using hnd
    · rw [upd_other _ h]; exact hI.nodup j
  disj := by
    intro c i j hi hj
    by_cases h1 : i = e <;> by_cases h2 : j = e
    · rw [h1, h2]
    · subst h1
      rw [upd_same] at hi; rw [upd_other _ h2] at hj
      rcases hnew c hi with h | h
      · exact hI.disj h hj
      · exact absurd hj (h j)
    · subst h2
      rw [upd_same] at hj; rw [upd_other _ h1] at hi
      rcases hnew c hj with h | h
      · exact hI.disj hi h
      · exact absurd hi (h i)
    · rw [upd_other _ h1] at hi; rw [upd_other _ h2] at hj; exact hI.disj hi hj
  own := by
    intro c j hj
    by_cases h : j = e
    · subst h; rw [upd_same] at hj; exact hown c hj
    · rw [upd_other _ h] at hj
      obtain ⟨x, n, h1, h2, h3⟩ := hI.own hj
      obtain ⟨n', h4, h5⟩ := hattrs _ n j h h2 h3
      exact ⟨x, n', by rw [hout j c h hj, h1], h4, h5⟩
  inj := by
    intro c c' j x y hc hc' hx hy hxy
    by_cases h : j = e
    · subst h; rw [upd_same] at hc hc'; exact hinj c c' x y hc hc' hx hy hxy
    · rw [upd_other _ h] at hc hc'
      rw [hout j c h hc] at hx; rw [hout j c' h hc'] at hy
      exact hI.inj hc hc' hx hy hxy
  bndC := fun h => hbC _ _ h
  bndA := fun h => hbA _ _ h

/-- A change of attribute nodes that keeps the attachment of those in use. -/
theorem Inv.keep (hI : Inv s ls) (hc : s'.cells = s.cells)
    (he : ∀ j, (s'.elems j).map Elem.attributes = (s.elems j).map Elem.attributes)
    (ha : ∀ a n e, s.attrs a = some n → n.parent = some e → ∃ n', s'.attrs a = some n' ∧ n'.parent = some e)
    (hf : s.fresh ≤ s'.fresh) (hbA : ∀ a n, s'.attrs a = some n → a < s'.fresh) : Inv s' ls where
  head := by
    intro j elj hj
    have := he j
    rw [hj] at this
    cases hs : s.elems j with
    | none => rw [hs] at this; simp at this
    | some y => rw [hs] at this; simp at this; rw [this]; exact hI.head hs
  gone := by
    intro j hj
    have := he j
    rw [hj] at this
    cases hs : s.elems j with
    | none => exact hI.gone hs
    | some y => rw [hs] at this; simp at this
  ring j := (hI.ring j).congr fun c _ => by rw [hc]
  nodup := hI.nodup
  disj := hI.disj
  own := by
    intro c j hj
    obtain ⟨x, n, h1, h2, h3⟩ := hI.own hj
    obtain ⟨n', h4, h5⟩ := ha _ n j h2 h3
    exact ⟨x, n', by rw [hc, h1], h4, h5⟩
  inj := by
    intro c c' j x y h1 h2 hx hy hxy
    rw [hc] at hx hy
    exact hI.inj h1 h2 hx hy hxy
  bndC := by
    intro c x hx
    rw [hc] at hx
    exact Nat.lt_of_lt_of_le (hI.bndC hx) hf
  bndA := fun h => hbA _ _ h

/-- Writing to an attribute node without moving it. -/
theorem Inv.setA (hI : Inv s ls) (h : s.attrs a = some n) {n' : ANode} (hp : n'.parent = n.parent) : Inv (s.setA a n') ls := by
  refine hI.keep rfl (fun _ => rfl) ?_ (Nat.le_refl _) ?_
  · intro b m e hb hm
    by_cases hab : b = a
    · subst hab; rw [h] at hb; cases hb; exact ⟨n', by simp, by rw [hp, hm]⟩
    · exact ⟨m, by simp [hab, hb], hm⟩
  · intro b m hb
    by_cases hab : b = a
    · subst hab; exact hI.bndA h
    · simp [hab] at hb; exact hI.bndA hb

theorem Inv.addLog (hI : Inv s ls) (l : List Ev) : Inv (s.addLog l) ls :=
  hI.keep rfl (fun _ => rfl) (fun _ n _ h1 h2 => ⟨n, h1, h2⟩) (Nat.le_refl _) fun _ _ h => hI.bndA h

theorem view_congr {l : List Addr} (h : ∀ c ∈ l, (s'.cells c).map Cell.pay = (s.cells c).map Cell.pay) : view s' l = view s l := by
  unfold view
  exact List.filterMap_congr h

/-! ## Setting an existing attribute -/

theorem setValue_run {v : Option DStr} {p : Addr} (h : s.attrs a = some n) (hr : n.readOnly = false) (ht : n.typed = false)
    (hp : n.parent = some p) (hpe : s.elems p = some el) :
    setValue a v s = .ok (s.setA a { n with type := .string, kids := [.text v], specified := true }) () := by
  unfold setValue
  rw [getANode_bind h, hr, throwIf_false]
  by_cases hu : n.type = .unset
  · rw [if_pos hu, modANode_bind h, getANode_bind (n := { n with type := .string }) (by simp)]
    simp only [ne_eq, not_true_eq_false, decide_false, throwIf_false]
    simp only [hp]
    rw [deref_bind, getElem_bind (el := el) (by simpa using hpe), modANode_run (n := { n with type := .string }) (by simp [hp]), setA_setA]
    simp [hp, hr]
  · have hs : n.type = .string := by
      cases hty : n.type <;> simp [ANode.typed, hty] at ht hu ⊢
    rw [if_neg hu, pure_bind', getANode_bind h]
    simp only [hs, ne_eq, not_true_eq_false, decide_false, throwIf_false]
    rw [hp, deref_bind, getElem_bind hpe, modANode_run h]
    congr 2
    cases n; simp_all

theorem setValue_refused {v : Option DStr} (h : s.attrs a = some n) (hr : n.readOnly = true ∨ n.typed = true) :
    setValue a v s = .exc s (if n.readOnly then .noModificationAllowed else .attrWrongType) := by
  unfold setValue
  rw [getANode_bind h]
  cases hro : n.readOnly with
  | true => simp [throwIf_true]
  | false =>
    rw [throwIf_false]
    have ht : n.typed = true := by simpa [hro] using hr
    have hu : n.type ≠ .unset := by intro h0; simp [ANode.typed, h0] at ht
    have hs : n.type ≠ .string := by intro h0; simp [ANode.typed, h0] at ht
    rw [if_neg hu, pure_bind', getANode_bind h]
    simp [hs, throwIf_true]

/-- The node after its value was set. -/
def withValue (n : ANode) (v : Option DStr) : ANode := { n with type := .string, kids := [.text v], specified := true }

theorem withValue_value (n : ANode) (v : Option DStr) : valueOf (withValue n v) = some (contents v) := by
  cases v <;> simp [withValue, valueOf, contents, ANode.typed, joinKids]

theorem setExisting_run {v : Option DStr} (hx : s.cells c = some x) (h : s.attrs x.attr = some n) (hr : n.readOnly = false)
    (ht : n.typed = false) (hp : n.parent = some e) (he : s.elems e = some el) :
    ∃ old : Option DStr, old.map DStr.data = valueOf n ∧ setExisting e c name v s =
      .ok ((s.setA x.attr (withValue n v)).addLog [.attrModified e old v x.attr (some name) .modification, .subtree e]) () := by
  obtain ⟨old, h1, h2⟩ := oldValue_run h
  refine ⟨old, h2, ?_⟩
  obtain ⟨hs1, hs2, hs3, hs4, hs5, hs6, hs7, hs8, hs9, hs10⟩ := settle_fields (n := n)
  unfold setExisting
  rw [getCell_bind hx, bind_ok h1, fire_bind]
  rw [bind_ok (setValue_run (n := settle n) (el := el) (p := e) (by simp) (by rw [hs8, hr]) (by rw [hs10, ht]) (by rw [hs1, hp]) (by simpa using he))]
  rw [fire_run]
  have : withValue (settle n) v = withValue n v := by
    unfold withValue settle
    split
    · rfl
    · split <;> rfl
  unfold withValue at this ⊢
  rw [this]
  congr 1
  simp only [Mem.setA, Mem.addLog]
  congr 1
  · funext j; by_cases hj : j = x.attr <;> simp [hj]
  · simp

/-! ## Setting a new attribute -/

/-- The attribute node made for a new attribute. -/
def madeNode (s : Mem) (e : Addr) (el : Elem) (ns : Option DStr) (name : DStr) (v : Option DStr) : ANode :=
  { name := name, ns := ns, owner := el.owner, parent := some e, kids := [.text v], type := .string, raw := s.junk, refcnt := 0 }

/-- The classes after a new entry. -/
def classesFor (old : List Bytes) (ns : Option DStr) (name : DStr) (v : Bytes) : List Bytes :=
  if isClass ns name then classLoop [] (cstr v) else old

/-- A new entry at the end of the list of `e`. -/
structure Added (s s' : Mem) (ls : Addr → List Addr) (e : Addr) (el : Elem) (c : Addr) (en : Entry) (cls : List Bytes) : Prop where
  elem : s'.elems = fun j => if j = e then some { el with attributes := (ls e ++ [c]).head?, classes := cls } else s.elems j
  cell : (s'.cells c).map Cell.pay = some en
  isNew : s.cells c = none
  entries : ∀ j, j ≠ c → (s'.cells j).map Cell.pay = (s.cells j).map Cell.pay
  ring : Ring s' (ls e ++ [c])
  out : ∀ j, j ≠ c → j ∉ ls e → s'.cells j = s.cells j

theorem linkCell_run (hI : Inv s ls) {w : Mem} {cel : Cell} (hc : s.cells c = none) (hcw : w.cells c = some cel) (hself : cel.prev = c ∧ cel.next = c)
    (hw : ∀ j, j ≠ c → w.cells j = s.cells j) (hel : s.elems e = some el) {cls : List Bytes}
    (hwe : w.elems = fun j => if j = e then some { el with classes := cls } else s.elems j) :
    ∃ s', linkCell e c w = .ok s' () ∧ Added s s' ls e el c cel.pay cls ∧ s'.attrs = w.attrs ∧ s'.log = w.log ∧ s'.fresh = w.fresh ∧
      s'.junk = w.junk ∧ s'.quirks = w.quirks ∧ s'.idName = w.idName := by
  have hhead := hI.head hel
  have hcn : c ∉ ls e := by
    intro hm
    obtain ⟨x, _, hx, _⟩ := hI.own hm
    rw [hc] at hx; simp at hx
  unfold linkCell
  rw [getElem_bind (el := { el with classes := cls }) (by rw [hwe]; simp)]
  simp only []
  rw [hhead]
  cases hl : ls e with
  | nil =>
    simp only [List.head?_nil]
    rw [modElem_run (el := { el with classes := cls }) (by rw [hwe]; simp)]
    refine ⟨_, rfl, ⟨?_, ?_, hc, ?_, ?_, ?_⟩, rfl, rfl, rfl, rfl, rfl, rfl⟩
    · funext j
      simp only [setE_elems, hwe, hl, List.nil_append, List.head?_cons]
      by_cases hj : j = e <;> simp [hj]
    · simp [hcw]
    · intro j hj; simp [hw j hj]
    · rw [hl]
      refine List.isChain_iff_forall_rel_of_append_cons_cons.2 ?_
      intro y z l1 l2 h
      have h2 : y = c ∧ z = c := by
        cases l1 with
        | nil => simp at h; exact ⟨h.1.symm, h.2.1.symm⟩
        | cons q l1 =>
          have := congrArg List.length h
          simp at this
          omega
      rw [h2.1, h2.2]
      exact ⟨⟨cel, hcw, hself.2⟩, ⟨cel, hcw, hself.1⟩⟩
    · intro j hj _; exact hw j hj
  | cons h t =>
    simp only [List.head?_cons]
    have hr : Ring w (h :: t) := by
      rw [← hl]
      exact (hI.ring e).congr fun j hj => hw j (by rintro rfl; exact hcn hj)
    have hn : (h :: t).Nodup := by rw [← hl]; exact hI.nodup e
    obtain ⟨s', h1, h2, h3, h4, f, rfl⟩ := append_run hr hn (by rw [← hl]; exact hcn) hcw
    refine ⟨_, h1, ⟨?_, ?_, hc, ?_, ?_, ?_⟩, rfl, rfl, rfl, rfl, rfl, rfl⟩
    · show w.elems = _
      rw [hwe]
      funext j
      by_cases hj : j = e
      · simp only [hj, if_true, hl, List.cons_append, List.head?_cons]
        rw [hl] at hhead; simp at hhead
        rw [← hhead]
      · simp [hj]
    · rw [h3, hcw]; rfl
    · intro j hj; rw [h3, hw j hj]
    · rw [hl]; exact h2
    · intro j hj hjl
      rw [h4 j (by rw [← hl]; simp [hj, hjl]), hw j hj]

theorem nodeCreate_run {b : Bytes} (h : s.attrs a = some n) (he : s.elems e = some el)
    (hv : isClass ns name = true → valueOf n = some b) :
    nodeCreate a e name ns s = .ok
      { s with
        cells := fun j => if j = s.fresh then some { prev := s.fresh, next := s.fresh, attr := a, name := name, ns := ns } else s.cells j
        fresh := s.fresh + 1
        attrs := fun j => if j = a then some (if isClass ns name then settle n else n) else s.attrs j
        elems := fun j => if j = e then some { el with classes := classesFor el.classes ns name b } else s.elems j } (some s.fresh) := by
  unfold nodeCreate newCell
  rw [bind_run]
  simp only []
  have hse : (fun j => if j = e then some el else s.elems j) = s.elems := by
    funext j; by_cases hj : j = e <;> simp [hj, he]
  have hsa : (fun j => if j = a then some n else s.attrs j) = s.attrs := by
    funext j; by_cases hj : j = a <;> simp [hj, h]
  unfold classesFor
  cases hc : isClass ns name with
  | false =>
    simp only [Bool.false_eq_true, if_false]
    show Res.ok _ _ = _
    congr 2
    · exact hsa.symm
    · exact hse.symm
  | true =>
    simp only [if_true]
    have hg := getValue_run (s := { s with
        cells := fun j => if j = s.fresh then some { prev := s.fresh, next := s.fresh, attr := a, name := name, ns := ns } else s.cells j
        fresh := s.fresh + 1 }) (a := a) (n := n) h
    rw [hv hc] at hg
    obtain ⟨v, h1, h2⟩ := hg
    rw [bind_ok (attempt_ok h1)]
    simp only []
    unfold createClasses
    rw [modElem_bind (el := el) (by exact he), h2]
    rfl

theorem unrefAttr_keep (h : s.attrs a = some n) (hp : n.parent ≠ none) (h0 : n.refcnt ≠ 0) :
    unrefAttr a s = .ok (s.setA a { n with refcnt := n.refcnt - 1 }) () := by
  unfold unrefAttr
  rw [modANode_bind h]
  simp only [h0, if_false]
  rw [getANode_bind (n := { n with refcnt := n.refcnt - 1 }) (by simp)]
  simp only []
  split
  · unfold tryDestroy
    rw [getANode_bind (n := { n with refcnt := n.refcnt - 1 }) (by simp), if_neg (fun h => hp h.1)]
    rfl
  · rfl

theorem setNew_run (hI : Inv s ls) (he : s.elems e = some el) (v : Option DStr) :
    ∃ s' c, setNew e el ns name v s = .ok s' () ∧
      Added s s' ls e el c { attr := s.fresh, name := name, ns := ns } (classesFor el.classes ns name (contents v)) ∧
      s'.attrs = (fun j => if j = s.fresh then some (madeNode s e el ns name v) else s.attrs j) ∧
      s'.log = s.log ++ [.attrModified e none v s.fresh (some name) .addition, .nodeChange s.fresh e .addition, .subtree e] ∧
      s'.fresh = s.fresh + 2 ∧ c < s'.fresh ∧ s'.junk = s.junk ∧ s'.quirks = s.quirks ∧ s'.idName = s.idName := by
  have hfa : s.attrs s.fresh = none := by
    cases h : s.attrs s.fresh with
    | none => rfl
    | some n => exact absurd (hI.bndA h) (Nat.lt_irrefl _)
  have hfc : ∀ j, s.fresh ≤ j → s.cells j = none := by
    intro j hj
    cases h : s.cells j with
    | none => rfl
    | some n => exact absurd (hI.bndC h) (Nat.not_lt.2 hj)
  unfold setNew
  -- the node
  let n0 : ANode := { name := name, ns := ns, pfx := none, owner := el.owner, raw := s.junk, specified := true }
  let n1 : ANode := { n0 with parent := some e }
  let w0 : Mem := { s with attrs := fun j => if j = s.fresh then some n0 else s.attrs j, fresh := s.fresh + 1 }
  have h0 : attrCreate el.owner name ns none true s = .ok w0 s.fresh := rfl
  rw [bind_ok h0, modANode_bind (n := n0) (by simp [w0])]
  have h1 : setValue s.fresh v (w0.setA s.fresh n1) = .ok ((w0.setA s.fresh n1).setA s.fresh { n1 with type := .string, kids := [.text v], specified := true }) () :=
    setValue_run (n := n1) (el := el) (p := e) (by simp) rfl rfl rfl he
  rw [bind_ok (attempt_ok h1)]
  simp only []
  rw [fire_bind, fire_bind, setA_setA]
  let n2 : ANode := { n1 with type := .string, kids := [.text v], specified := true }
  let w2 : Mem := ((w0.setA s.fresh n2).addLog [.attrModified e none v s.fresh (some name) .addition]).addLog [.nodeChange s.fresh e .addition]
  have hn2 : valueOf n2 = some (contents v) := withValue_value n1 v
  have hw2 : w2.attrs s.fresh = some n2 := by simp [w2]
  rw [bind_ok (nodeCreate_run (s := w2) (n := n2) (el := el) hw2 he (fun _ => hn2))]
  simp only []
  have hset : (if isClass ns name = true then settle n2 else n2) = n2 := by
    have : settle n2 = n2 := by
      unfold settle; split
      · rfl
      · rw [if_neg (by simp [n2])]
    rw [this]; simp
  have hfr : w2.fresh = s.fresh + 1 := rfl
  rw [hset, hfr]
  have hlink := linkCell_run (s := s) (c := s.fresh + 1) (el := el) (e := e) hI
    (w := { w2 with
        cells := fun j => if j = s.fresh + 1 then some { prev := s.fresh + 1, next := s.fresh + 1, attr := s.fresh, name := name, ns := ns } else w2.cells j
        fresh := s.fresh + 1 + 1
        attrs := fun j => if j = s.fresh then some n2 else w2.attrs j
        elems := fun j => if j = e then some { el with classes := classesFor el.classes ns name (contents v) } else w2.elems j })
    (cel := { prev := s.fresh + 1, next := s.fresh + 1, attr := s.fresh, name := name, ns := ns })
    (hfc _ (by omega)) (by simp) ⟨rfl, rfl⟩ (by intro j hj; simp only [if_neg hj]; rfl) he rfl
  obtain ⟨s', h3, hA, h4, h5, h6, h7, h8, h9⟩ := hlink
  rw [bind_ok h3]
  have hs'a : s'.attrs s.fresh = some n2 := by rw [h4]; simp
  rw [bind_ok (unrefAttr_keep hs'a (by simp [n2, n1]) (by simp [n2, n1, n0])), fire_run]
  refine ⟨_, s.fresh + 1, rfl, ⟨hA.elem, hA.cell, hA.isNew, hA.entries, ?_, hA.out⟩, ?_, ?_, ?_, ?_, h7, h8, h9⟩
  · exact hA.ring.congr fun _ _ => rfl
  · funext j
    simp only [addLog_attrs, setA_attrs, h4]
    by_cases hj : j = s.fresh
    · simp [hj]; rfl
    · simp [hj, w2, w0]
  · simp only [Mem.addLog, Mem.setA, h5]
    simp [w2, w0, Mem.addLog]
  · simp [h6]
  · simp [h6]

/-- Adding an entry keeps the lists in order. -/
theorem Added.inv {cls : List Bytes} {en : Entry} (hA : Added s s' ls e el c en cls) (hI : Inv s ls)
    (hattr : ∃ n, s'.attrs en.attr = some n ∧ n.parent = some e)
    (hnew : ∀ n, s.attrs en.attr = some n → n.parent = none)
    (hold : ∀ b n p, b ≠ en.attr → s.attrs b = some n → n.parent = some p → ∃ n', s'.attrs b = some n' ∧ n'.parent = some p)
    (hf : s.fresh ≤ s'.fresh) (hcf : c < s'.fresh) (hbA : ∀ a n, s'.attrs a = some n → a < s'.fresh) :
    Inv s' (upd ls e (ls e ++ [c])) := by
  have hcn : ∀ e', c ∉ ls e' := by
    intro e' hm
    obtain ⟨x, _, hx, _⟩ := hI.own hm
    rw [hA.isNew] at hx; simp at hx
  have hat : ∀ b n p, s.attrs b = some n → n.parent = some p → ∃ n', s'.attrs b = some n' ∧ n'.parent = some p := by
    intro b n p hb hp
    refine hold b n p ?_ hb hp
    rintro rfl
    rw [hnew n hb] at hp; simp at hp
  have hcell : ∃ x, s'.cells c = some x ∧ x.pay = en := by
    have := hA.cell
    cases hx : s'.cells c with
    | none => rw [hx] at this; simp at this
    | some x => rw [hx] at this; simp at this; exact ⟨x, rfl, this⟩
  have hpay : ∀ j x, j ≠ c → s.cells j = some x → ∃ y, s'.cells j = some y ∧ y.attr = x.attr := by
    intro j x hj hx
    have := hA.entries j hj
    rw [hx] at this
    cases hy : s'.cells j with
    | none => rw [hy] at this; simp at this
    | some y => rw [hy] at this; simp at this; exact ⟨y, rfl, congrArg Entry.attr this⟩
  have hpay' : ∀ j y, j ≠ c → s'.cells j = some y → ∃ x, s.cells j = some x ∧ y.attr = x.attr := by
    intro j y hj hy
    have := hA.entries j hj
    rw [hy] at this
    cases hx : s.cells j with
    | none => rw [hx] at this; simp at this
    | some x => rw [hx] at this; simp at this; exact ⟨x, rfl, congrArg Entry.attr this⟩
  have hnotin : ∀ j x, j ∈ ls e → s.cells j = some x → x.attr ≠ en.attr := by
    intro j x hj hx heq
    obtain ⟨x', n, h1, h2, h3⟩ := hI.own hj
    rw [hx] at h1; cases h1
    rw [heq] at h2
    rw [hnew n h2] at h3; simp at h3
  refine hI.change (el' := { el with attributes := (ls e ++ [c]).head?, classes := cls }) (by rw [hA.elem]; simp) rfl ?_ hA.ring ?_ ?_ ?_ ?_ ?_ ?_ ?_ hbA
  · intro j hj; rw [hA.elem]; simp [hj]
  · refine List.nodup_append.2 ⟨hI.nodup e, by simp, ?_⟩
    intro x hx y hy hxy
    simp at hy
    subst hy; subst hxy
    exact hcn e hx
  · intro j hj
    simp at hj
    rcases hj with hj | rfl
    · exact Or.inl hj
    · exact Or.inr hcn
  · intro e' j he' hj
    refine hA.out j ?_ ?_
    · rintro rfl; exact hcn e' hj
    · intro h; exact he' (hI.disj hj h)
  · intro j hj
    simp at hj
    rcases hj with hj | rfl
    · obtain ⟨x, n, h1, h2, h3⟩ := hI.own hj
      obtain ⟨y, h4, h5⟩ := hpay j x (by rintro rfl; exact hcn e hj) h1
      obtain ⟨n', h6, h7⟩ := hat _ n e h2 h3
      exact ⟨y, n', h4, by rw [h5]; exact h6, h7⟩
    · obtain ⟨x, hx, hp⟩ := hcell
      obtain ⟨n, h1, h2⟩ := hattr
      have : x.attr = en.attr := congrArg Entry.attr hp
      exact ⟨x, n, hx, by rw [this]; exact h1, h2⟩
  · intro i j x y hi hj hx hy hxy
    obtain ⟨z, hz, hp⟩ := hcell
    have hza : z.attr = en.attr := congrArg Entry.attr hp
    simp at hi hj
    rcases hi with hi | rfl <;> rcases hj with hj | rfl
    · obtain ⟨x', h1, h2⟩ := hpay' i x (by rintro rfl; exact hcn e hi) hx
      obtain ⟨y', h3, h4⟩ := hpay' j y (by rintro rfl; exact hcn e hj) hy
      exact hI.inj hi hj h1 h3 (by rw [← h2, ← h4, hxy])
    · exfalso
      obtain ⟨x', h1, h2⟩ := hpay' i x (by rintro rfl; exact hcn e hi) hx
      rw [hz] at hy; cases hy
      exact hnotin i x' hi h1 (by rw [← h2, hxy, hza])
    · exfalso
      obtain ⟨y', h1, h2⟩ := hpay' j y (by rintro rfl; exact hcn e hj) hy
      rw [hz] at hx; cases hx
      exact hnotin j y' hj h1 (by rw [← h2, ← hxy, hza])
    · rfl
  · intro b n p hp hb hn
    exact hat b n p hb hn
  · intro j y hy
    by_cases hj : j = c
    · subst hj; exact hcf
    · obtain ⟨x, hx, _⟩ := hpay' j y hj hy
      exact Nat.lt_of_lt_of_le (hI.bndC hx) hf

theorem Added.view {cls : List Bytes} {en : Entry} (hA : Added s s' ls e el c en cls) (hI : Inv s ls) (j : Addr) :
    view s' (upd ls e (ls e ++ [c]) j) = if j = e then view s (ls e) ++ [en] else view s (ls j) := by
  have hcn : ∀ e', c ∉ ls e' := by
    intro e' hm
    obtain ⟨x, _, hx, _⟩ := hI.own hm
    rw [hA.isNew] at hx; simp at hx
  have hv : ∀ k, Attr.view s' (ls k) = Attr.view s (ls k) := fun k =>
    view_congr fun i hi => hA.entries i (by rintro rfl; exact hcn k hi)
  by_cases hj : j = e
  · subst hj
    rw [upd_same, if_pos rfl, ← hv]
    unfold Attr.view
    rw [List.filterMap_append]
    congr 1
    rw [List.filterMap_cons_some (by exact hA.cell)]
    rfl
  · rw [upd_other _ hj, if_neg hj, hv]

end
end Dom.Attr
