import Verif.Attr.History
/-!
# C37, C38, C46: the attribute map, attribute nodes, safety of attribute calls
-/
namespace Dom.Attr
set_option linter.unusedSimpArgs false

open Dom.Str (DStr Bytes contents)

/-- The entries of an element, found by walking its list. -/
def walkEntries : Nat → Addr → Addr → Mem → List Entry
  | 0, _, _, _ => []
  | k + 1, h, c, s =>
    match s.cells c with
    | none => []
    | some x => x.pay :: (if x.next = h then [] else walkEntries k h x.next s)

/-- The entries of an element. -/
def entriesOf (s : Mem) (e : Addr) : List Entry :=
  match s.elems e with
  | some el => (match el.attributes with | some h => walkEntries (s.fresh + 1) h h s | none => [])
  | none => []


section
variable {s s' : Mem} {ls ls' : Addr → List Addr} {e a c h : Addr} {el el1 : Elem} {n m : ANode} {x : Cell} {ns : Option DStr} {name : DStr}
  {pre suf : List Addr} {en : Entry} {b : Bytes}

theorem view_nodup (hI : Inv s ls) (e : Addr) : (view s (ls e)).Nodup := by
  unfold view
  rw [List.Nodup, List.pairwise_filterMap]
  refine List.Pairwise.imp_of_mem ?_ (hI.nodup e)
  intro c c' hc hc' hne k hk k' hk' heq
  subst heq
  obtain ⟨x, hx, hxk⟩ := Option.map_eq_some_iff.1 hk
  obtain ⟨y, hy, hyk⟩ := Option.map_eq_some_iff.1 hk'
  apply hne
  refine hI.inj hc hc' hx hy ?_
  have : x.pay.attr = y.pay.attr := by rw [hxk, hyk]
  exact this

theorem walkEntries_run {t : List Addr} (hr : Ring s (h :: t)) (hn : (h :: t).Nodup) :
    ∀ (suf pre : List Addr) (c : Addr) (k : Nat), h :: t = pre ++ c :: suf → suf.length < k → walkEntries k h c s = view s (c :: suf) := by
  intro suf
  induction suf with
  | nil =>
    intro pre c k he hk
    obtain ⟨x, hx, hnext⟩ := hr.next he
    obtain ⟨k, rfl⟩ : ∃ k', k = k' + 1 := ⟨k - 1, by omega⟩
    simp only [List.head?_nil, Option.getD_none] at hnext
    simp [walkEntries, hx, hnext, view]
  | cons d suf ih =>
    intro pre c k he hk
    obtain ⟨x, hx, hnext⟩ := hr.next he
    obtain ⟨k, rfl⟩ : ∃ k', k = k' + 1 := ⟨k - 1, by omega⟩
    simp only [List.head?_cons, Option.getD_some] at hnext
    have hdh : d ≠ h := by
      intro h0
      rw [he] at hn
      cases pre with
      | nil => simp at he; rw [← he.1, h0] at hn; simp at hn
      | cons y pre => simp at he; rw [← he.1, h0] at hn; simp at hn
    have := ih (pre ++ [c]) d k (by rw [he]; simp) (by simp at hk; omega)
    simp only [walkEntries, hx, hnext, if_neg hdh, this]
    simp [view, hx]

/-- The entries found by walking the list are those of the invariant. -/
theorem entriesOf_eq (hI : Inv s ls) (e : Addr) : entriesOf s e = view s (ls e) := by
  unfold entriesOf
  cases he : s.elems e with
  | none => simp only []; rw [hI.gone he]; rfl
  | some el =>
    simp only []
    rw [hI.head he]
    cases hl : ls e with
    | nil => rfl
    | cons h t =>
      have hr := hI.ring e
      have hn := hI.nodup e
      have hs := hI.short e
      rw [hl] at hr hn hs
      simp only [List.head?_cons]
      exact walkEntries_run hr hn t [] h _ rfl (by simp at hs; omega)

/-- **C37** (partial).  Whatever fair calls were made, with or without success: the list of every element is a well-formed ring, no two
attributes of an element have the same namespace and local name, and every listed attribute is alive and knows its
element.  Missing: calls of setAttributeNode outside `Installable`, for which the code breaks this
(`C37_duplicate_violated`, `C37_twice_violated`). -/
theorem C37_unique_partial (h : Reach s) : (∃ ls, Inv s ls) ∧ ∀ e, Unique (entriesOf s e) ∧
    ∀ en ∈ entriesOf s e, ∃ n, s.attrs en.attr = some n ∧ n.parent = some e := by
  obtain ⟨ls, hg⟩ := h.good
  refine ⟨⟨ls, hg.inv⟩, fun e => ?_⟩
  rw [entriesOf_eq hg.inv]
  refine ⟨hg.keys e, fun en hen => ?_⟩
  obtain ⟨_, _, n, _, _, _, h1, h2⟩ := view_mem hg.inv hen
  exact ⟨n, h1, h2⟩

/-- **C46** for attributes (partial).  After any history of fair calls no fair call runs into undefined behaviour. -/
theorem C46_attributes_partial (h : Reach s) (hI : Inv s ls) (op : Op) (hf : op.Fair s ls) (f : Fault) : op.run s ≠ .fault f := by
  obtain ⟨ls0, hg⟩ := h.good
  have := hI.unique hg.inv
  subst this
  obtain ⟨s1, ls1, h1, _⟩ := fair_ends hg op hf
  intro h2
  rcases h1 with h1 | ⟨er, h1⟩ <;> rw [h1] at h2 <;> cases h2

/-- **C37**, length: the length of the map is the number of attributes (up to 2^32). -/
theorem C37_length (hI : Inv s ls) (he : s.elems e = some el) (hlt : (view s (ls e)).length < 4294967296) :
    mapLength e s = .ok s (view s (ls e)).length := by
  rw [mapLength_run hI he, u32_small hlt]

/-- **C37**, item: item(i) is the i-th attribute, nothing from the length on, and every attribute is the item of exactly one
index. -/
theorem C37_item (hI : Inv s ls) (he : s.elems e = some el) (hlt : (view s (ls e)).length ≤ 4294967295) :
    (∀ i : Nat, i < (view s (ls e)).length → ∃ s', Inv s' ls ∧ view s' (ls e) = view s (ls e) ∧
      mapItem e i s = .ok s' ((view s (ls e))[i]?.map Entry.attr)) ∧
    (∀ i : Nat, (view s (ls e)).length ≤ i → i < 4294967295 → mapItem e i s = .ok s none) ∧
    (∀ en ∈ view s (ls e), ∃! i : Nat, (view s (ls e))[i]?.map Entry.attr = some en.attr) := by
  refine ⟨?_, ?_, ?_⟩
  · intro i hi
    have := mapItem_run hI he (i := i) (by omega)
    rw [List.getElem?_eq_getElem hi] at this ⊢
    obtain ⟨n, h1, h2⟩ := this
    exact ⟨_, hI.setA (n' := { n with refcnt := n.refcnt + 1 }) h1 rfl, rfl, h2⟩
  · intro i hi hlt
    have := mapItem_run hI he (i := i) hlt
    rw [List.getElem?_eq_none hi] at this
    exact this
  · intro en hen
    obtain ⟨i, hi, hg⟩ := List.mem_iff_getElem.1 hen
    refine ⟨i, by simp [List.getElem?_eq_getElem hi, hg], ?_⟩
    intro j hj
    obtain ⟨k, hk, hka⟩ := Option.map_eq_some_iff.1 hj
    have hkm : k ∈ view s (ls e) := List.mem_of_getElem? hk
    obtain ⟨_, heq⟩ := view_unique hI hkm hen hka
    subst heq
    obtain ⟨hj', hj2⟩ := List.getElem?_eq_some_iff.1 hk
    have hnd : (view s (ls e)).Nodup := view_nodup hI e
    exact (List.Nodup.getElem_inj_iff hnd).1 (by rw [hj2, hg])

/-- **C37**, named items: getNamedItem gives the attribute that getAttribute reads. -/
theorem C37_named (hI : Inv s ls) (he : s.elems e = some el) (ns : Option DStr) (name : DStr) :
    (mapGet e ns name s = .ok s none ∧ getAttr e ns name s = .ok s none) ∨
    ∃ s' s'' a n, mapGet e ns name s = .ok s' (some a) ∧ s.attrs a = some n ∧ n.parent = some e ∧
      (match valueOf n with
       | some b => ∃ v : DStr, getAttr e ns name s = .ok s'' (some v) ∧ v.data = b
       | none => getAttr e ns name s = .exc s'' .notSupported) := by
  have h1 := getAttrNode_run (ns := ns) (name := name) hI he
  cases hl : lookup (view s (ls e)) ns name with
  | none =>
    rw [hl] at h1
    exact Or.inl ⟨h1, getAttr_none hI he hl⟩
  | some en =>
    rw [hl] at h1
    obtain ⟨n, h1, h2⟩ := h1
    obtain ⟨n', h3, h4, h5⟩ := getAttr_some hI he hl
    rw [h1] at h3
    injection h3 with h3
    subst h3
    exact Or.inr ⟨_, _, en.attr, n, h2, h1, h4, h5⟩

/-! ## C38 -/

/-- **C38**, installing (partial).  An attribute that is not in use, has the owner document of the element and whose key is
not taken is appended; nothing is returned.  If its key is taken by an attribute that is not the first of the list,
that one is taken out and returned with a reference for the caller, and belongs to no element afterwards.  Missing: the key is that of the first
attribute, which is a use of freed memory (`C38_first_violated`); and without a namespace the attribute replaced can have another key
(`C37_duplicate_violated`). -/
theorem C38_install_partial (hI : Inv s ls) (he : s.elems e = some el) (hro : el.ro = false) (hn : s.attrs a = some n)
    (ho : n.owner = el.owner) (hp : n.parent = none) (hv : isClass ns n.name = true → valueOf n ≠ none)
    (hfirst : ∀ en, lookup (view s (ls e)) ns n.name = some en → (view s (ls e)).head? ≠ some en) :
    ∃ s' ls' r na, setAttrNode e ns a s = .ok s' r ∧ Inv s' ls' ∧
      r = (lookup (view s (ls e)) ns n.name).map Entry.attr ∧
      view s' (ls' e) = (view s (ls e)).eraseP (fun k => decide (Fits ns n.name k)) ++ [{ attr := a, name := n.name, ns := ns }] ∧
      (∀ j, j ≠ e → view s' (ls' j) = view s (ls j)) ∧
      s'.attrs a = some na ∧ na.parent = some e ∧ valueOf na = valueOf n ∧
      (∀ o, r = some o → o ≠ a ∧ ∃ m m', s.attrs o = some m ∧ s'.attrs o = some m' ∧ m'.parent = none ∧ m'.refcnt = m.refcnt + 1 ∧ valueOf m' = valueOf m) ∧
      (∀ j, j ≠ a → r ≠ some j → s'.attrs j = s.attrs j) := by
  obtain ⟨b, hb⟩ : ∃ b, isClass ns n.name = true → valueOf n = some b := by
    cases hv' : valueOf n with
    | some b => exact ⟨b, fun _ => rfl⟩
    | none => exact ⟨[], fun hc => absurd hv' (hv hc)⟩
  cases hl : lookup (view s (ls e)) ns n.name with
  | none =>
    obtain ⟨s', c, hrun, hI', hA, hat⟩ := setAttrNode_new hI he hro hn ho hp hl hb
    refine ⟨s', _, none, { settle n with parent := some e }, hrun, hI', rfl, ?_, ?_, by rw [hat]; simp, rfl, ?_, by simp, ?_⟩
    · rw [hA.view hI e, if_pos rfl, List.eraseP_of_forall_not]
      intro k hk
      simpa using lookup_none hl k hk
    · intro j hj; rw [hA.view hI j, if_neg hj]
    · exact valueOf_settle
    · intro j hj _; rw [hat]; simp [hj]
  | some en =>
    obtain ⟨s', m, pre, suf, c, hrun, hI', hm, hmp, hne, hsplit, hpre, hfit, hv', hat, _⟩ := setAttrNode_replace hI he hro hn ho hp hl (hfirst en hl) hb
    refine ⟨s', _, some en.attr, { settle n with parent := some e }, hrun, hI', rfl, ?_, ?_, ?_, rfl, ?_, ?_, ?_⟩
    · rw [hv' e, if_pos rfl, hsplit, List.eraseP_append_right]
      · rw [List.eraseP_cons_of_pos (by simpa using hfit)]
      · intro k hk; simpa using hpre k hk
    · intro j hj; rw [hv' j, if_neg hj]
    · rw [hat]; simp
    · exact valueOf_settle
    · intro o ho'
      injection ho' with ho'
      subst ho'
      refine ⟨hne, m, { settle m with parent := none, refcnt := m.refcnt + 1 }, hm, by rw [hat]; simp [hne], rfl, rfl, valueOf_settle⟩
    · intro j hj hjr
      have : j ≠ en.attr := fun h0 => hjr (by rw [h0])
      rw [hat]; simp [hj, this]

/-- **C38**, refusal.  An attribute of another element is refused as in use (after the tests for another document and for
a read-only element); nothing changes. -/
theorem C38_refused (he : s.elems e = some el) (hn : s.attrs a = some n) :
    (n.owner ≠ el.owner → setAttrNode e ns a s = .exc s .wrongDocument) ∧
    (n.owner = el.owner → el.ro = true → setAttrNode e ns a s = .exc s .noModificationAllowed) ∧
    (n.owner = el.owner → el.ro = false → ∀ o, n.parent = some o → o ≠ e → setAttrNode e ns a s = .exc s .inuseAttribute) := by
  refine ⟨fun h => ?_, fun h h' => ?_, fun h h' o ho hoe => ?_⟩
  · rw [setAttrNode_refused he hn (Or.inl h), if_pos h]
  · rw [setAttrNode_refused he hn (Or.inr (Or.inl h')), if_neg (fun hh => hh h), if_pos h']
  · rw [setAttrNode_refused he hn (Or.inr (Or.inr ⟨by rw [ho]; simp, by rw [ho]; simpa using hoe⟩)), if_neg (fun hh => hh h), if_neg (by rw [h']; simp)]

/-- **C38**, removal (partial).  For an attribute without a prefix, listed under its own name and being the first match
for it, removeAttributeNode takes out exactly this attribute and returns it with a reference for the caller; an attribute that is not in use at the element is not
found and nothing changes.  Missing: attributes with a prefix are not found (`C38_prefix_violated`), nor are attributes behind
another one with the same local name when no namespace is given. -/
theorem C38_remove_partial (hI : Inv s ls) (he : s.elems e = some el) (hro : el.ro = false) (hn : s.attrs a = some n) :
    (n.pfx = none → ∀ en, lookup (view s (ls e)) ns n.name = some en → en.attr = a →
      ∃ s' ls' n', removeAttrNode e ns a s = .ok s' a ∧ Inv s' ls' ∧ view s' (ls' e) = (view s (ls e)).erase en ∧
        (∀ j, j ≠ e → view s' (ls' j) = view s (ls j)) ∧
        s'.attrs a = some n' ∧ n'.parent = none ∧ n'.refcnt = n.refcnt + 1 ∧ valueOf n' = valueOf n ∧
        (∀ j, j ≠ a → s'.attrs j = s.attrs j)) ∧
    (n.parent ≠ some e → removeAttrNode e ns a s = .exc s .notFound) := by
  refine ⟨?_, ?_⟩
  · intro hpfx en hl hen
    have hnm : nodeName n = .ok n.name := by unfold nodeName; rw [hpfx]
    obtain ⟨s', pre, suf, hrun, hI', hp, hsplit, hv, hat, _⟩ := removeAttrNode_found hI he hro hn hnm hl hen
    refine ⟨s', _, { settle n with parent := none, refcnt := n.refcnt + 1 }, hrun, hI', ?_, ?_, by rw [hat]; simp, rfl, rfl, valueOf_settle, ?_⟩
    · have hnd := view_nodup hI e
      rw [hv e, if_pos rfl, hsplit, List.erase_append_right]
      · simp
      · intro hin
        rw [hsplit, List.nodup_append] at hnd
        exact hnd.2.2 en hin en (by simp) rfl
    · intro j hj; rw [hv j, if_neg hj]
    · intro j hj; rw [hat]; simp [hj]
  · intro hp
    obtain ⟨nm, hnm⟩ := nodeName_ok n
    refine removeAttrNode_refused hI he hro hn hnm ?_
    intro en hl hen
    obtain ⟨hmem, _⟩ := lookup_mem hl
    obtain ⟨_, _, m, _, _, _, hm, hmp⟩ := view_mem hI hmem
    rw [hen, hn] at hm
    injection hm with hm
    subst hm
    exact hp hmp

end
end Dom.Attr
