import Verif.Attr.NodeOps
/-!
# C36, C37, C38: the attributes of an element

`view s (ls e)` lists the attributes of `e` in order.  `reading` says what a name reads as.
-/
namespace Dom.Attr
set_option linter.unusedSimpArgs false

open Dom.Str (DStr Bytes contents)

/-! ## Specification -/

/-- What the attribute found under a name reads as; `none` when there is no such attribute, `some none` when its value
cannot be given (an entity reference). -/
def reading (s : Mem) (l : List Entry) (ns : Option DStr) (name : DStr) : Option (Option Bytes) :=
  (lookup l ns name).map fun en => (s.attrs en.attr).bind valueOf

/-- The key of an entry. -/
def Entry.key (en : Entry) : Option Bytes × Bytes := (en.ns.map DStr.data, en.name.data)

/-- No two entries have the same namespace and local name. -/
def Unique (l : List Entry) : Prop := (l.map Entry.key).Nodup

/-- The attribute can be given a string value. -/
def Writable (n : ANode) : Prop := n.readOnly = false ∧ n.typed = false

section
variable {s s' : Mem} {ls ls' : Addr → List Addr} {e a c h : Addr} {el el1 : Elem} {n m : ANode} {x : Cell} {ns : Option DStr} {name : DStr}
  {pre suf : List Addr} {en : Entry} {b : Bytes}

theorem view_mem (hI : Inv s ls) {k : Entry} (hk : k ∈ view s (ls e)) :
    ∃ c x n, c ∈ ls e ∧ s.cells c = some x ∧ x.pay = k ∧ s.attrs k.attr = some n ∧ n.parent = some e := by
  obtain ⟨c, hc, hk⟩ := List.mem_filterMap.1 hk
  obtain ⟨x, n, h1, h2, h3⟩ := hI.own hc
  rw [h1] at hk
  simp at hk
  exact ⟨c, x, n, hc, h1, hk, by rw [← hk]; exact h2, h3⟩

/-- An attribute is listed once, at one element. -/
theorem view_unique (hI : Inv s ls) {e' : Addr} {k k' : Entry} (hk : k ∈ view s (ls e)) (hk' : k' ∈ view s (ls e')) (ha : k.attr = k'.attr) :
    e = e' ∧ k = k' := by
  obtain ⟨c, x, n, h1, h2, h3, h4, h5⟩ := view_mem hI hk
  obtain ⟨c', x', n', g1, g2, g3, g4, g5⟩ := view_mem hI hk'
  rw [ha, g4] at h4
  injection h4 with h4
  rw [← h4, g5] at h5
  injection h5 with h5
  subst h5
  have hx : x.attr = x'.attr := by
    have : x.pay.attr = x'.pay.attr := by rw [h3, g3, ha]
    exact this
  have := hI.inj h1 g1 h2 g2 hx
  subst this
  rw [h2] at g2
  injection g2 with g2
  subst g2
  exact ⟨rfl, by rw [← h3, ← g3]⟩

theorem lookup_mem {l : List Entry} (h : lookup l ns name = some en) : en ∈ l ∧ Fits ns name en := by
  unfold lookup at h
  exact ⟨List.mem_of_find?_eq_some h, by simpa using List.find?_some h⟩

theorem lookup_none {l : List Entry} (h : lookup l ns name = none) : ∀ k ∈ l, ¬ Fits ns name k := by
  intro k hk
  unfold lookup at h
  simpa using List.find?_eq_none.1 h k hk

theorem lookup_append (l : List Entry) (k : Entry) : lookup (l ++ [k]) ns name = (lookup l ns name).or (if Fits ns name k then some k else none) := by
  unfold lookup
  rw [List.find?_append]
  congr 1
  by_cases h : Fits ns name k
  · rw [List.find?_cons_of_pos (by simpa using h), if_pos h]
  · rw [List.find?_cons_of_neg (by simpa using h), if_neg h]; rfl

theorem lookup_remove {l l' : List Entry} (h : ¬ Fits ns name en) : lookup (l ++ en :: l') ns name = lookup (l ++ l') ns name := by
  unfold lookup
  rw [List.find?_append, List.find?_append, List.find?_cons_of_neg (by simpa using h)]

/-! ## C36 -/

/-- C36: reading an attribute gives what is listed under the name, `hasAttribute` says whether there is such an attribute,
and neither changes what any name reads as. -/
theorem C36_read (hI : Inv s ls) (he : s.elems e = some el) (ns : Option DStr) (name : DStr) :
    hasAttr e ns name s = .ok s (reading s (view s (ls e)) ns name).isSome ∧
    ∃ s', Inv s' ls ∧ (∀ e' ns' name', reading s' (view s' (ls e')) ns' name' = reading s (view s (ls e')) ns' name') ∧
      (match reading s (view s (ls e)) ns name with
       | none => getAttr e ns name s = .ok s' none
       | some (some b) => ∃ v : DStr, getAttr e ns name s = .ok s' (some v) ∧ v.data = b
       | some none => getAttr e ns name s = .exc s' .notSupported) := by
  refine ⟨?_, ?_⟩
  · rw [hasAttr_run hI he]
    unfold reading
    simp
  · cases hl : lookup (view s (ls e)) ns name with
    | none =>
      refine ⟨s, hI, fun _ _ _ => rfl, ?_⟩
      unfold reading
      rw [hl]
      exact getAttr_none hI he hl
    | some en =>
      obtain ⟨n, h1, h2, h3⟩ := getAttr_some hI he hl
      refine ⟨s.setA en.attr (settle n), hI.setA h1 (settle_fields).1, ?_, ?_⟩
      · intro e' ns' name'
        have hv : view (s.setA en.attr (settle n)) (ls e') = view s (ls e') := rfl
        unfold reading
        rw [hv]
        congr 1
        funext k
        by_cases hk : k.attr = en.attr
        · simp [hk, h1, valueOf_settle]
        · simp [hk]
      · unfold reading
        rw [hl]
        simp only [Option.map_some, h1, Option.bind_some]
        cases hv : valueOf n with
        | none => rw [hv] at h3; exact h3
        | some b => rw [hv] at h3; exact h3

/-- C36: after setting, the name reads as the value, the other attributes of this and every other element read as before,
an existing attribute keeps its place and a new one comes last. -/
theorem C36_set (hI : Inv s ls) (he : s.elems e = some el) (hro : el.ro = false) (ns : Option DStr) (name : DStr) (v : Option DStr)
    (hname : Names.validateAttributeName (some name) = true)
    (hw : ∀ en n, lookup (view s (ls e)) ns name = some en → s.attrs en.attr = some n → Writable n) :
    ∃ s' ls' en', setAttr e ns name v s = .ok s' () ∧ Inv s' ls' ∧
      reading s' (view s' (ls' e)) ns name = some (some (contents v)) ∧
      (∀ e' ns' name', ¬ (e' = e ∧ Fits ns' name' en') →
        reading s' (view s' (ls' e')) ns' name' = reading s (view s (ls e')) ns' name') ∧
      (∀ j, j ≠ e → view s' (ls' j) = view s (ls j)) ∧
      (match lookup (view s (ls e)) ns name with
       | some en => en' = en ∧ view s' (ls' e) = view s (ls e)
       | none => en'.name = name ∧ en'.ns = ns ∧ view s' (ls' e) = view s (ls e) ++ [en']) := by
  cases hl : lookup (view s (ls e)) ns name with
  | some en =>
    obtain ⟨hmem, hfit⟩ := lookup_mem hl
    obtain ⟨c, x, n, h1, h2, h3, h4, h5⟩ := view_mem hI hmem
    obtain ⟨hr, ht⟩ := hw en n hl h4
    obtain ⟨old, _, hrun⟩ := setAttr_existing hI he hro v hname hl h4 hr ht
    refine ⟨_, ls, en, hrun, (hI.setA (n' := withValue n v) h4 rfl).addLog _, ?_, ?_, fun _ _ => rfl, rfl, rfl⟩
    · have hv : view ((s.setA en.attr (withValue n v)).addLog [.attrModified e old v en.attr (some name) .modification, .subtree e]) (ls e) = view s (ls e) := rfl
      unfold reading
      rw [hv, hl]
      simp [withValue_value]
    · intro e' ns' name' hnot
      have hv : view ((s.setA en.attr (withValue n v)).addLog [.attrModified e old v en.attr (some name) .modification, .subtree e]) (ls e') = view s (ls e') := rfl
      unfold reading
      rw [hv]
      cases hl' : lookup (view s (ls e')) ns' name' with
      | none => rfl
      | some k =>
        obtain ⟨hk1, hk2⟩ := lookup_mem hl'
        have hne : k.attr ≠ en.attr := by
          intro ha
          obtain ⟨h6, h7⟩ := view_unique hI hk1 hmem ha
          exact hnot ⟨h6, h7 ▸ hk2⟩
        simp [hne]
  | none =>
    obtain ⟨s', c, hrun, hI', hA, hat, _⟩ := setAttr_new hI he hro v hname hl
    have hve := hA.view hI
    refine ⟨s', _, { attr := s.fresh, name := name, ns := ns }, hrun, hI', ?_, ?_, ?_, rfl, rfl, ?_⟩
    · unfold reading
      rw [hve e, if_pos rfl, lookup_append, hl]
      have hf : Fits ns name { attr := s.fresh, name := name, ns := ns } := by
        refine ⟨?_, rfl⟩
        intro n hn
        exact ⟨n, hn, rfl⟩
      rw [if_pos hf]
      simp only [Option.none_or, Option.map_some, hat, if_true, Option.bind_some]
      exact congrArg some (withValue_value (madeNode s e el ns name v) v)
    · intro e' ns' name' hnot
      have hold : ∀ l, (∀ k ∈ l, k ∈ view s (ls e')) → (lookup l ns' name').map (fun en => (s'.attrs en.attr).bind valueOf) =
          (lookup l ns' name').map (fun en => (s.attrs en.attr).bind valueOf) := by
        intro l hl
        cases hl' : lookup l ns' name' with
        | none => rfl
        | some k =>
          obtain ⟨hk1, _⟩ := lookup_mem hl'
          obtain ⟨_, _, n, _, _, _, h4, _⟩ := view_mem hI (hl k hk1)
          have : k.attr ≠ s.fresh := by
            intro h0
            have := hI.bndA h4
            rw [h0] at this
            exact Nat.lt_irrefl _ this
          simp [hat, this]
      unfold reading
      rw [hve e']
      by_cases hee : e' = e
      · subst hee
        rw [if_pos rfl, lookup_append]
        have hnf : ¬ Fits ns' name' { attr := s.fresh, name := name, ns := ns } := fun h => hnot ⟨rfl, h⟩
        rw [if_neg hnf, Option.or_none]
        exact hold _ fun k hk => hk
      · rw [if_neg hee]
        exact hold _ fun k hk => hk
    · intro j hj
      rw [hve j, if_neg hj]
    · rw [hve e, if_pos rfl]

/-- The other keys keep their values: names that differ, and namespaces that differ. -/
theorem other_key {ns' : Option DStr} {name' : DStr} (hn : en.name.data = name.data) (hns : en.ns.map DStr.data = ns.map DStr.data)
    (h : name'.data ≠ name.data ∨ (ns'.isSome ∧ ns'.map DStr.data ≠ ns.map DStr.data)) : ¬ Fits ns' name' en := by
  rintro ⟨h1, h2⟩
  rcases h with h | ⟨h3, h4⟩
  · exact h (by rw [h2, hn])
  · obtain ⟨n', rfl⟩ := Option.isSome_iff_exists.1 h3
    obtain ⟨m, hm, hd⟩ := h1 n' rfl
    apply h4
    rw [← hns, Option.mem_def.1 hm]
    simp [hd]

/-- C36: removing takes the first attribute of that name out of the list and nothing else; when no other attribute answers
to the name it is gone.  What is missing: for the functions without a namespace another attribute with the same local name may
remain, see `C36_remove_violated`. -/
theorem C36_remove_partial (hI : Inv s ls) (he : s.elems e = some el) (hro : el.ro = false) (ns : Option DStr) (name : DStr) :
    ∃ s' ls', removeAttr e ns name s = .ok s' () ∧ Inv s' ls' ∧
      view s' (ls' e) = (view s (ls e)).eraseP (fun en => decide (Fits ns name en)) ∧
      (∀ j, j ≠ e → view s' (ls' j) = view s (ls j)) ∧
      (∀ e' ns' name', (∀ k ∈ view s (ls e), e' = e → Fits ns name k → ¬ Fits ns' name' k) →
        reading s' (view s' (ls' e')) ns' name' = reading s (view s (ls e')) ns' name') ∧
      ((∀ k ∈ view s (ls e), ∀ k' ∈ view s (ls e), Fits ns name k → Fits ns name k' → k = k') →
        reading s' (view s' (ls' e)) ns name = none) := by
  cases hl : lookup (view s (ls e)) ns name with
  | none =>
    refine ⟨s, ls, removeAttr_none hI he hro hl, hI, ?_, fun _ _ => rfl, fun _ _ _ _ => rfl, fun _ => ?_⟩
    · rw [List.eraseP_of_forall_not]
      intro k hk
      simpa using lookup_none hl k hk
    · unfold reading; rw [hl]; rfl
  | some en =>
    obtain ⟨hmem, hfit⟩ := lookup_mem hl
    obtain ⟨s', n, pre, suf, hrun, hn, hp, hI', hsplit, hpre, hv, hat, _⟩ := removeAttr_some hI he hro hl
    have hnodup : en ∉ view s pre ++ view s suf := by
      intro hin
      -- its attribute would still be listed
      have h1 : en ∈ view s' (upd ls e (pre ++ suf) e) := by rw [hv e, if_pos rfl]; exact hin
      obtain ⟨_, _, m, _, _, _, h4, h5⟩ := view_mem hI' h1
      rw [hat] at h4
      simp only [if_true] at h4
      unfold leftover at h4
      split at h4
      · simp at h4
      · injection h4 with h4
        rw [← h4] at h5
        simp at h5
    refine ⟨s', _, hrun, hI', ?_, ?_, ?_, ?_⟩
    · rw [hv e, if_pos rfl, hsplit, List.eraseP_append_right]
      · rw [List.eraseP_cons_of_pos (by simpa using hfit)]
      · intro k hk; simpa using hpre k hk
    · intro j hj; rw [hv j, if_neg hj]
    · intro e' ns' name' hnot
      have hold : ∀ l, (∀ k ∈ l, k ∈ view s (ls e') ∧ k.attr ≠ en.attr) → (lookup l ns' name').map (fun en => (s'.attrs en.attr).bind valueOf) =
          (lookup l ns' name').map (fun en => (s.attrs en.attr).bind valueOf) := by
        intro l hl
        cases hl' : lookup l ns' name' with
        | none => rfl
        | some k =>
          obtain ⟨hk1, _⟩ := lookup_mem hl'
          simp [hat, (hl k hk1).2]
      unfold reading
      rw [hv e']
      by_cases hee : e' = e
      · subst hee
        rw [if_pos rfl, hsplit, lookup_remove (hnot en hmem rfl hfit)]
        apply hold
        intro k hk
        have hk' : k ∈ view s (ls e') := by
          rw [hsplit]; simp at hk ⊢; tauto
        refine ⟨hk', fun ha => ?_⟩
        obtain ⟨_, h2⟩ := view_unique hI hk' hmem ha
        exact hnodup (h2 ▸ hk)
      · rw [if_neg hee]
        apply hold
        intro k hk
        exact ⟨hk, fun ha => hee (view_unique hI hk hmem ha).1⟩
    · intro huni
      have : lookup (view s' (upd ls e (pre ++ suf) e)) ns name = none := by
        rw [hv e, if_pos rfl]
        unfold lookup
        apply List.find?_eq_none.2
        intro k hk
        simp only [decide_eq_true_eq]
        intro hkf
        have hk' : k ∈ view s (ls e) := by rw [hsplit]; simp at hk ⊢; tauto
        have := huni k hk' en hmem hkf hfit
        exact hnodup (this ▸ hk)
      unfold reading
      rw [this]
      rfl

/-- With a namespace, unique keys make the entry found the only one that answers. -/
theorem fits_unique {l : List Entry} (hu : Unique l) {n : DStr} {k k' : Entry} (hk : k ∈ l) (hk' : k' ∈ l) (h : Fits (some n) name k) (h' : Fits (some n) name k') :
    k = k' := by
  have hkey : ∀ {k : Entry}, Fits (some n) name k → k.key = (some n.data, name.data) := by
    intro k hf
    obtain ⟨h1, h2⟩ := hf
    obtain ⟨m, hm, hd⟩ := h1 n rfl
    unfold Entry.key
    rw [Option.mem_def.1 hm, ← h2]
    simp [hd]
  exact List.inj_on_of_nodup_map hu hk hk' (by rw [hkey h, hkey h'])

/-- C36: with a namespace the attribute removed is gone. -/
theorem C36_remove_ns (hI : Inv s ls) (he : s.elems e = some el) (hro : el.ro = false) (n name : DStr) (hu : Unique (view s (ls e))) :
    ∃ s' ls', removeAttr e (some n) name s = .ok s' () ∧ Inv s' ls' ∧ reading s' (view s' (ls' e)) (some n) name = none ∧
      hasAttr e (some n) name s' = .ok s' false ∧ getAttr e (some n) name s' = .ok s' none := by
  obtain ⟨s', ls', h1, h2, h3, h4, h5, h6⟩ := C36_remove_partial hI he hro (some n) name
  have hr := h6 fun k hk k' hk' hf hf' => fits_unique hu hk hk' hf hf'
  have hel : ∃ el', s'.elems e = some el' := by
    cases hs : s'.elems e with
    | some y => exact ⟨y, rfl⟩
    | none =>
      exfalso
      cases hl : lookup (view s (ls e)) (some n) name with
      | none =>
        rw [removeAttr_none hI he hro hl] at h1
        injection h1 with h1
        rw [← h1, he] at hs; simp at hs
      | some en =>
        obtain ⟨s'', _, _, _, g1, _, _, _, _, _, _, _, g2, _⟩ := removeAttr_some hI he hro hl
        rw [g1] at h1
        injection h1 with h1
        rw [← h1, g2] at hs
        simp at hs
  obtain ⟨el', hel⟩ := hel
  have hl : lookup (view s' (ls' e)) (some n) name = none := by
    unfold reading at hr
    simpa using hr
  refine ⟨s', ls', h1, h2, hr, ?_, getAttr_none h2 hel hl⟩
  rw [hasAttr_run h2 hel, hl]; rfl

end
end Dom.Attr
