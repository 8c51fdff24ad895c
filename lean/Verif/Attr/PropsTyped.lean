import Verif.Attr.PropsMap
import Verif.Str.PropsEq
/-!
# C39, C40, C51: typed values, classes, names of HTML attributes
-/
namespace Dom.Attr
set_option linter.unusedSimpArgs false

open Dom.Str (DStr Bytes contents)

section
variable {s s' : Mem} {ls ls' : Addr → List Addr} {e a c h : Addr} {el el1 : Elem} {n m : ANode} {x : Cell} {ns : Option DStr} {name : DStr}
  {pre suf : List Addr} {en : Entry} {b : Bytes}

/-! ## C39 -/

/-- **C39**, refusal.  Reading a number with a type that is not the attribute's, and writing it with a type while it has another one, fails with
DOM_ATTR_WRONG_TYPE_ERR and changes nothing; likewise writing a string to a number. -/
theorem C39_refused (hn : s.attrs a = some n) :
    (n.type ≠ .integer → getInteger a s = .exc s .attrWrongType) ∧
    (n.type ≠ .short → getShort a s = .exc s .attrWrongType) ∧
    (n.type ≠ .bool → getBool a s = .exc s .attrWrongType) ∧
    (n.type ≠ .unset → n.type ≠ .integer → ∀ v, setInteger a v s = .exc s .attrWrongType) ∧
    (n.type ≠ .unset → n.type ≠ .short → ∀ v, setShort a v s = .exc s .attrWrongType) ∧
    (n.type ≠ .unset → n.type ≠ .bool → ∀ v, setBool a v s = .exc s .attrWrongType) ∧
    (n.type ≠ .unset → n.type ≠ .string → n.readOnly = false → ∀ v, setValue a v s = .exc s .attrWrongType) := by
  have hclaim : ∀ t, n.type ≠ .unset → n.type ≠ t → claimType a t s = .exc s .attrWrongType := by
    intro t h1 h2
    rw [claim_run hn, if_neg (by simp [h1, h2])]
  refine ⟨fun h => ?_, fun h => ?_, fun h => ?_, fun h h' v => ?_, fun h h' v => ?_, fun h h' v => ?_, fun h h' hr v => ?_⟩
  · unfold getInteger; rw [getANode_bind hn]; simp [throwIf, h]; rfl
  · unfold getShort; rw [getANode_bind hn]; simp [throwIf, h]; rfl
  · unfold getBool; rw [getANode_bind hn]; simp [throwIf, h]; rfl
  · unfold setInteger; exact bind_exc (hclaim _ h h') _
  · unfold setShort; exact bind_exc (hclaim _ h h') _
  · unfold setBool; exact bind_exc (hclaim _ h h') _
  · have ht : n.typed = true := by
      unfold ANode.typed
      cases hh : n.type <;> simp_all
    rw [setValue_refused hn (Or.inr ht), hr]
    rfl

/-- **C39**, the type is fixed.  Whatever fair call is made after any history, an attribute that had a type and still exists
has this type. -/
theorem C39_fixed (h : Reach s) (hI : Inv s ls) (op : Op) (hf : op.Fair s ls)
    (hrun : op.run s = .ok s' () ∨ ∃ er, op.run s = .exc s' er) {n' : ANode}
    (h1 : s.attrs a = some n) (ht : n.type ≠ .unset) (h2 : s'.attrs a = some n') : n'.type = n.type := by
  obtain ⟨ls0, hg⟩ := h.good
  have := hI.unique hg.inv
  subst this
  obtain ⟨s1, ls1, h3, _, hk⟩ := fair_ends hg op hf
  have : s1 = s' := by
    rcases h3 with h3 | ⟨er, h3⟩ <;> rcases hrun with h4 | ⟨er', h4⟩ <;> rw [h3] at h4 <;> injection h4
  subst this
  exact hk a n n' h1 h2 ht

theorem typed_set (hn : s.attrs a = some n) (t : AType) (ht : n.type = .unset ∨ n.type = t) (k v : Nat) :
    ∃ s' r, (do
      claimType a t
      let n ← getANode a
      if n.raw % k = v then pure () else do
        modANode a fun n => { n with raw := v }
        typedEvents a) s = .ok s' () ∧ s'.attrs a = some { n with type := t, raw := r } ∧ (r % k = v ∨ r = v) ∧
      (∀ j, j ≠ a → s'.attrs j = s.attrs j) ∧ s'.cells = s.cells ∧ s'.elems = s.elems := by
  have hc := claim_run hn t
  rw [if_pos ht] at hc
  by_cases hr : n.raw % k = v
  · refine ⟨s.setA a { n with type := t }, n.raw, ?_, by simp, Or.inl hr, fun j hj => by simp [hj], rfl, rfl⟩
    rw [bind_ok hc, getANode_bind (n := { n with type := t }) (by simp), if_pos hr]
    rfl
  · have hn2 : (s.setA a { n with type := t, raw := v }).attrs a = some { n with type := t, raw := v } := by simp
    obtain ⟨l, hl⟩ := typedEvents_run hn2
    refine ⟨(s.setA a { n with type := t, raw := v }).addLog l, v, ?_, by simp, Or.inr rfl, fun j hj => by simp [hj], rfl, rfl⟩
    rw [bind_ok hc, getANode_bind (n := { n with type := t }) (by simp), if_neg hr, modANode_bind (n := { n with type := t }) (by simp), setA_setA]
    exact hl

/-- **C39**, integers: what was written is read back, and nothing but this attribute changes. -/
theorem C39_integer (hn : s.attrs a = some n) (ht : n.type = .unset ∨ n.type = .integer) (v : Nat) (hv : v < 4294967296) :
    ∃ s', setInteger a v s = .ok s' () ∧ getInteger a s' = .ok s' v ∧ getShort a s' = .exc s' .attrWrongType ∧
      (∀ j, j ≠ a → s'.attrs j = s.attrs j) ∧ s'.cells = s.cells ∧ s'.elems = s.elems := by
  obtain ⟨s', r, h1, h2, h3, h4⟩ := typed_set hn .integer ht 4294967296 v
  refine ⟨s', h1, ?_, ?_, h4⟩
  · unfold getInteger
    rw [getANode_bind h2]
    have : r % 4294967296 = v := by omega
    simp [throwIf, this]
    rfl
  · exact (C39_refused h2).2.1 (by simp)

/-- **C39**, short integers. -/
theorem C39_short (hn : s.attrs a = some n) (ht : n.type = .unset ∨ n.type = .short) (v : Nat) (hv : v < 65536) :
    ∃ s', setShort a v s = .ok s' () ∧ getShort a s' = .ok s' v ∧ getInteger a s' = .exc s' .attrWrongType ∧
      (∀ j, j ≠ a → s'.attrs j = s.attrs j) ∧ s'.cells = s.cells ∧ s'.elems = s.elems := by
  obtain ⟨s', r, h1, h2, h3, h4⟩ := typed_set hn .short ht 65536 v
  refine ⟨s', h1, ?_, ?_, h4⟩
  · unfold getShort
    rw [getANode_bind h2]
    have : r % 65536 = v := by omega
    simp [throwIf, this]
    rfl
  · exact (C39_refused h2).1 (by simp)

/-- **C39**, bools (partial): when the memory of the value holds a bool, so from the second write on.  The first write reads it before
anything was written (`C39_bool_violated`). -/
theorem C39_bool_partial (hn : s.attrs a = some n) (ht : n.type = .unset ∨ n.type = .bool) (hb : n.raw % 256 = 0 ∨ n.raw % 256 = 1) (v : Bool) :
    ∃ s', setBool a v s = .ok s' () ∧ getBool a s' = .ok s' v ∧
      (∀ j, j ≠ a → s'.attrs j = s.attrs j) ∧ s'.cells = s.cells ∧ s'.elems = s.elems ∧
      ∃ n', s'.attrs a = some n' ∧ (n'.raw % 256 = 0 ∨ n'.raw % 256 = 1) := by
  have hread : ∀ (r : Nat) (w : Bool) (s : Mem), r % 256 = (if w then 1 else 0) → readBool r s = .ok s w := by
    intro r w s h
    unfold readBool
    cases w <;> simp at h <;> simp [h] <;> rfl
  obtain ⟨w, hw⟩ : ∃ w : Bool, n.raw % 256 = (if w then 1 else 0) := by
    rcases hb with hb | hb
    · exact ⟨false, by simp [hb]⟩
    · exact ⟨true, by simp [hb]⟩
  have hc := claim_run hn .bool
  rw [if_pos ht] at hc
  by_cases hwv : w = v
  · subst hwv
    refine ⟨s.setA a { n with type := .bool }, ?_, ?_, fun j hj => by simp [hj], rfl, rfl, { n with type := .bool }, by simp, hb⟩
    · unfold setBool
      rw [bind_ok hc, getANode_bind (n := { n with type := .bool }) (by simp), bind_ok (hread _ w _ hw), if_pos rfl]
      rfl
    · unfold getBool
      rw [getANode_bind (n := { n with type := .bool }) (by simp)]
      simp [throwIf]
      exact hread _ w _ hw
  · have hn2 : (s.setA a { n with type := .bool, raw := if v then 1 else 0 }).attrs a = some { n with type := .bool, raw := if v then 1 else 0 } := by simp
    obtain ⟨l, hl⟩ := typedEvents_run hn2
    refine ⟨(s.setA a { n with type := .bool, raw := if v then 1 else 0 }).addLog l, ?_, ?_, fun j hj => by simp [hj], rfl, rfl,
      { n with type := .bool, raw := if v then 1 else 0 }, by simp, by cases v <;> simp⟩
    · unfold setBool
      rw [bind_ok hc, getANode_bind (n := { n with type := .bool }) (by simp), bind_ok (hread _ w _ hw), if_neg hwv,
        modANode_bind (n := { n with type := .bool }) (by simp), setA_setA]
      exact hl
    · unfold getBool
      rw [getANode_bind (n := { n with type := .bool, raw := if v then 1 else 0 }) (by simp)]
      simp [throwIf]
      exact hread _ v _ (by cases v <;> rfl)

/-- **C39**, strings: what was written is read back. -/
theorem C39_string {p : Addr} (hn : s.attrs a = some n) (hr : n.readOnly = false) (ht : n.type = .unset ∨ n.type = .string)
    (hp : n.parent = some p) (hpe : s.elems p = some el) (v : Option DStr) :
    ∃ s' s'' w, setValue a v s = .ok s' () ∧ getValue a s' = .ok s'' w ∧ w.data = contents v ∧ getInteger a s' = .exc s' .attrWrongType := by
  have htt : n.typed = false := by
    unfold ANode.typed
    rcases ht with h | h <;> simp [h]
  have h1 := setValue_run (v := v) hn hr htt hp hpe
  have h2 : (s.setA a (withValue n v)).attrs a = some (withValue n v) := by simp
  have h3 := getValue_run h2
  rw [withValue_value] at h3
  obtain ⟨w, h3, h4⟩ := h3
  exact ⟨_, _, w, h1, h3, h4, (C39_refused h2).1 (by simp [withValue])⟩

/-! ## C40 -/

/-- `c` is one of the tokens of `v`: a maximal non-empty run of bytes that are no separators. -/
def IsToken (sep : UInt8 → Bool) (v c : Bytes) : Prop :=
  c ≠ [] ∧ (∀ x ∈ c, sep x = false) ∧ ∃ p q, v = p ++ c ++ q ∧ (∀ x ∈ p.getLast?, sep x = true) ∧ (∀ x ∈ q.head?, sep x = true)

/-- White space, `Str.IsSpace`. -/
def ws (b : UInt8) : Bool := decide (Str.IsSpace b)

/-- A space. -/
def isSpace (b : UInt8) : Bool := b == 32

theorem token_split {w r c : Bytes} (hw : ∀ x ∈ w, isSpace x = false) :
    IsToken isSpace (w ++ 32 :: r) c ↔ (w ≠ [] ∧ c = w) ∨ IsToken isSpace r c := by
  have h32 : isSpace 32 = true := rfl
  constructor
  · rintro ⟨hne, hc, p, q, hv, hp, hq⟩
    rcases List.eq_nil_or_concat p with rfl | ⟨p', x, rfl⟩
    · simp at hv
      rcases List.append_eq_append_iff.1 hv with ⟨a', h1, h2⟩ | ⟨c', h1, h2⟩
      · cases a' with
        | nil => simp at h1; subst h1; exact Or.inl ⟨hne, rfl⟩
        | cons y a' =>
          exfalso
          simp at h2
          have := hc y (by rw [h1]; simp)
          rw [← h2.1, h32] at this
          cases this
      · cases c' with
        | nil => simp at h1; subst h1; exact Or.inl ⟨hne, rfl⟩
        | cons y a' =>
          exfalso
          have := hq y (by rw [h2]; simp)
          rw [hw y (by rw [h1]; simp)] at this
          cases this
    · simp at hp
      simp at hv
      rcases List.append_eq_append_iff.1 hv with ⟨a', h1, h2⟩ | ⟨c', h1, h2⟩
      · cases a' with
        | nil =>
          simp at h2
          exact Or.inr ⟨hne, hc, [], q, by simp [h2.2], by simp, hq⟩
        | cons y a' =>
          simp at h2
          exact Or.inr ⟨hne, hc, a' ++ [x], q, by simp [h2.2], by simpa using hp, hq⟩
      · cases c' with
        | nil =>
          simp at h2
          exact Or.inr ⟨hne, hc, [], q, by simp [h2.2], by simp, hq⟩
        | cons y a' =>
          exfalso
          simp at h2
          have := hw x (by rw [h1, h2.1]; simp)
          rw [hp] at this
          cases this
  · rintro (⟨hne, rfl⟩ | ⟨hne, hc, p, q, hv, hp, hq⟩)
    · exact ⟨hne, hw, [], 32 :: r, by simp, by simp, by simp [h32]⟩
    · refine ⟨hne, hc, w ++ 32 :: p, q, by simp [hv], ?_, hq⟩
      intro x hx
      rcases List.eq_nil_or_concat p with rfl | ⟨p', y, rfl⟩
      · simp at hx; rw [← hx]; rfl
      · refine hp x ?_
        have : w ++ 32 :: (p' ++ [y]) = (w ++ 32 :: p') ++ [y] := by simp
        rw [List.concat_eq_append, this, List.getLast?_concat] at hx
        rw [List.concat_eq_append, List.getLast?_concat]
        exact hx

theorem token_whole {w c : Bytes} (hw : ∀ x ∈ w, isSpace x = false) : IsToken isSpace w c ↔ w ≠ [] ∧ c = w := by
  constructor
  · rintro ⟨hne, hc, p, q, hv, hp, hq⟩
    have hp0 : p = [] := by
      rcases List.eq_nil_or_concat p with rfl | ⟨p', x, rfl⟩
      · rfl
      · exfalso
        simp at hp
        have := hw x (by rw [hv]; simp)
        rw [hp] at this; cases this
    have hq0 : q = [] := by
      cases q with
      | nil => rfl
      | cons y q =>
        exfalso
        simp at hq
        have := hw y (by rw [hv]; simp)
        rw [hq] at this; cases this
    subst hp0 hq0
    simp at hv
    exact ⟨by rw [hv]; exact hne, hv.symm⟩
  · rintro ⟨hne, rfl⟩
    exact ⟨hne, hw, [], [], by simp, by simp, by simp⟩

theorem classLoop_tokens (v : Bytes) : ∀ (cur c : Bytes), (∀ x ∈ cur, isSpace x = false) →
    (c ∈ classLoop cur v ↔ IsToken isSpace (cur.reverse ++ v) c) := by
  induction v with
  | nil =>
    intro cur c hcur
    rw [List.append_nil, token_whole (by simpa using hcur)]
    unfold classLoop
    by_cases h : cur = [] <;> simp [h]
  | cons b r ih =>
    intro cur c hcur
    unfold classLoop
    by_cases hb : b = 32
    · subst hb
      rw [if_pos rfl, token_split (by simpa using hcur)]
      have := ih [] c (by simp)
      simp only [List.reverse_nil, List.nil_append] at this
      by_cases h : cur = []
      · simp [h, this]
      · simp [h, this]
    · rw [if_neg hb, ih (b :: cur) c (by
        intro x hx
        rcases List.mem_cons.1 hx with rfl | hx
        · simp [isSpace, hb]
        · exact hcur x hx)]
      simp

theorem token_sep {sep sep' : UInt8 → Bool} {v c : Bytes} (h : ∀ x ∈ v, sep x = sep' x) : IsToken sep v c ↔ IsToken sep' v c := by
  have key : ∀ {sep sep' : UInt8 → Bool}, (∀ x ∈ v, sep x = sep' x) → IsToken sep v c → IsToken sep' v c := by
    rintro sep sep' h ⟨hne, hc, p, q, hv, hp, hq⟩
    refine ⟨hne, fun x hx => ?_, p, q, hv, fun x hx => ?_, fun x hx => ?_⟩
    · rw [← h x (by rw [hv]; simp [hx])]; exact hc x hx
    · rw [← h x (by rw [hv]; simp [List.mem_of_getLast? hx])]; exact hp x hx
    · rw [← h x (by rw [hv]; simp [List.mem_of_head? hx])]; exact hq x hx
  exact ⟨key h, key fun x hx => (h x hx).symm⟩

theorem cstr_id {v : Bytes} (h : ∀ x ∈ v, x ≠ 0) : cstr v = v := by
  induction v with
  | nil => rfl
  | cons b r ih =>
    unfold cstr
    rw [if_neg (h b (by simp)), ih fun x hx => h x (by simp [hx])]

/-- The element has the class `c` among the tokens of `v`: caselessly in quirks mode. -/
def HasToken (quirks : Bool) (v c : Bytes) : Prop :=
  ∃ t, IsToken ws v t ∧ (if quirks then c.map Str.asciiLower = t.map Str.asciiLower else t = c)

theorem hasClass_run (he : s.elems e = some el) (v : Bytes) (hcl : el.classes = classLoop [] (cstr v)) (h0 : ∀ x ∈ v, x ≠ 0 ∧ ws x = isSpace x) (c : Bytes) :
    ∃ r, hasClass e c s = .ok s r ∧ (r = true ↔ HasToken (s.quirks el.owner) v c) := by
  have hmem : ∀ t, t ∈ el.classes ↔ IsToken ws v t := by
    intro t
    rw [hcl, cstr_id (fun x hx => (h0 x hx).1), classLoop_tokens v [] t (by simp)]
    exact (token_sep fun x hx => (h0 x hx).2).symm
  unfold hasClass
  rw [getElem_bind he]
  by_cases hz : el.classes = []
  · refine ⟨false, by rw [if_pos hz]; rfl, ?_⟩
    simp only [Bool.false_eq_true, false_iff]
    rintro ⟨t, ht, _⟩
    have := (hmem t).2 ht
    rw [hz] at this
    simp at this
  · refine ⟨_, by rw [if_neg hz], ?_⟩
    unfold HasToken
    cases s.quirks el.owner with
    | true =>
      simp only [if_true, List.any_eq_true]
      constructor
      · rintro ⟨t, ht, hq⟩
        refine ⟨t, (hmem t).1 ht, ?_⟩
        simpa [lwcCaselessEqual, Str.map_dolower] using hq
      · rintro ⟨t, ht, hq⟩
        exact ⟨t, (hmem t).2 ht, by simpa [lwcCaselessEqual, Str.map_dolower] using hq⟩
    | false =>
      simp only [if_false, List.any_eq_true, Bool.false_eq_true]
      constructor
      · rintro ⟨t, ht, hq⟩
        exact ⟨t, (hmem t).1 ht, by simpa using hq⟩
      · rintro ⟨t, ht, hq⟩
        exact ⟨t, (hmem t).2 ht, by simpa using hq⟩

/-- **C40** (partial).  After setAttribute has added a class attribute, `has_class` holds exactly for the tokens of its value.
Missing: setting an attribute that is already there leaves the classes as they were (`C40_stale_violated`); tabs, line feeds
etc. do not separate classes and a NUL ends them (`C40_space_violated`). -/
theorem C40_set_partial (hI : Inv s ls) (he : s.elems e = some el) (hro : el.ro = false) (v : Option DStr) (name : DStr)
    (hname : name.data = [99, 108, 97, 115, 115]) (hl : lookup (view s (ls e)) none name = none)
    (hv : ∀ x ∈ contents v, x ≠ 0 ∧ x ≠ 9 ∧ x ≠ 10 ∧ x ≠ 12 ∧ x ≠ 13) :
    ∃ s', setAttr e none name v s = .ok s' () ∧
      ∀ c, ∃ r, hasClass e c s' = .ok s' r ∧ (r = true ↔ HasToken (s.quirks el.owner) (contents v) c) := by
  have hval : Names.validateAttributeName (some name) = true := by
    have : name = ⟨[99, 108, 97, 115, 115], name.interned⟩ := by cases name; simp_all
    rw [this]
    cases name.interned <;> decide +kernel
  obtain ⟨s', c0, hrun, hI', hA, _, _, _, _, hq, _⟩ := setAttr_new hI he hro v hval hl
  refine ⟨s', hrun, fun c => ?_⟩
  have hcls : isClass none name = true := by
    simp [isClass, Str.C06_isEqual_iff, contents, hname, classStr, Str.createInterned]
  have hel : s'.elems e = some { el with attributes := (ls e ++ [c0]).head?, classes := classLoop [] (cstr (contents v)) } := by
    rw [hA.elem]
    simp [classesFor, hcls]
  have := hasClass_run hel (contents v) rfl (fun x hx => by
    obtain ⟨h1, h2, h3, h4, h5⟩ := hv x hx
    refine ⟨h1, ?_⟩
    simp [ws, isSpace, Str.IsSpace, h2, h3, h4, h5]; rfl) c
  rw [hq] at this
  exact this

/-- **C40**, removal: without the class attribute there are no classes. -/
theorem C40_remove (hI : Inv s ls) (he : s.elems e = some el) (hro : el.ro = false) {name : DStr}
    (hl : lookup (view s (ls e)) none name = some en) (hns : en.ns = none) (hname : name.data = [99, 108, 97, 115, 115]) :
    ∃ s', removeAttr e none name s = .ok s' () ∧ ∀ c, hasClass e c s' = .ok s' false := by
  obtain ⟨s', n, pre, suf, hrun, _, _, _, _, _, _, _, hel, _⟩ := removeAttr_some hI he hro hl
  refine ⟨s', hrun, fun c => ?_⟩
  obtain ⟨_, _, hnm⟩ := lookup_mem hl
  have hcls : isClass en.ns en.name = true := by
    rw [hns]
    simp [isClass, Str.C06_isEqual_iff, contents, ← hnm, hname, classStr, Str.createInterned]
  have hel' : s'.elems e = some { el with attributes := (pre ++ suf).head?, classes := [] } := by
    rw [hel]; simp [hcls]
  unfold hasClass
  rw [getElem_bind hel']
  rfl

/-! ## C51 -/

/-- The namespace of SVG. -/
def svgName : Bytes := "http://www.w3.org/2000/svg".toList.flatMap String.utf8EncodeChar

theorem folds_html (h : el.html = true) (hns : el.ns.map DStr.data ≠ some svgName) : folds el = true := by
  have : Str.isEqual el.ns (some svgNs) = false := by
    rw [Bool.eq_false_iff]
    intro heq
    rw [Str.C06_isEqual_iff] at heq
    cases hn : el.ns with
    | none => rw [hn] at heq; revert heq; decide +kernel
    | some d =>
      rw [hn] at heq hns
      exact hns (by simp only [Option.map_some]; congr 1)
  simp [folds, h, this]

theorem folds_svg (htag : el.tag = 0) (hns : el.ns.map DStr.data = some svgName) : folds el = false := by
  have : Str.isEqual el.ns (some svgNs) = true := by
    rw [Str.C06_isEqual_iff]
    cases hn : el.ns with
    | none => rw [hn] at hns; simp at hns
    | some d =>
      rw [hn] at hns
      simp at hns
      exact hns
  simp [folds, htag, this]

theorem foldName_html (he : s.elems e = some el) (hf : folds el = true) (name : DStr) :
    ∃ low, foldName e name s = .ok s low ∧ Str.toLower name true = .ok low ∧ low.data = name.data.map Str.asciiLower := by
  obtain ⟨low, h1, h2, _⟩ := Str.C07_toLower name
  refine ⟨low, ?_, h1, h2⟩
  unfold foldName
  rw [getElem_bind he, hf, h1]
  rfl

theorem foldName_other (he : s.elems e = some el) (hf : folds el = false) (name : DStr) : foldName e name s = .ok s name := by
  unfold foldName
  rw [getElem_bind he, hf]
  rfl

theorem reading_data (l : List Entry) {n1 n2 : DStr} (h : n1.data = n2.data) : reading s l ns n1 = reading s l ns n2 := by
  have : lookup l ns n1 = lookup l ns n2 := by
    unfold lookup
    congr 1
    funext en
    exact decide_eq_decide.2 (by unfold Fits; rw [h])
  unfold reading
  rw [this]

/-- **C51**, reading: on an HTML element (outside the SVG namespace) names that are equal up to ASCII case are the same attribute for
hasAttribute and getAttribute, namely the one listed under the lower-case name. -/
theorem C51_read (hI : Inv s ls) (he : s.elems e = some el) (hh : el.html = true) (hns : el.ns.map DStr.data ≠ some svgName) (name : DStr) :
    ∃ s', let r := reading s (view s (ls e)) none ⟨name.data.map Str.asciiLower, false⟩
      hasAttribute e name s = .ok s r.isSome ∧
      (match r with
       | none => getAttribute e name s = .ok s' none
       | some (some b) => ∃ v : DStr, getAttribute e name s = .ok s' (some v) ∧ v.data = b
       | some none => getAttribute e name s = .exc s' .notSupported) := by
  obtain ⟨low, h1, h2, h3⟩ := foldName_html he (folds_html hh hns) name
  obtain ⟨g1, s', _, _, g2⟩ := C36_read hI he none low
  have hr : reading s (view s (ls e)) none low = reading s (view s (ls e)) none ⟨name.data.map Str.asciiLower, false⟩ := reading_data _ h3
  rw [hr] at g1 g2
  refine ⟨s', ?_, ?_⟩
  · unfold hasAttribute; rw [bind_ok h1]; exact g1
  · unfold getAttribute; rw [bind_ok h1]; exact g2

/-- **C51**, writing: after setAttribute under one spelling, getAttribute and hasAttribute under any other spelling see
the value. -/
theorem C51_set (hI : Inv s ls) (he : s.elems e = some el) (hro : el.ro = false) (hh : el.html = true) (hns : el.ns.map DStr.data ≠ some svgName)
    (n1 n2 : DStr) (hcase : n1.data.map Str.asciiLower = n2.data.map Str.asciiLower) (v : Option DStr)
    (hname : ∀ low, Str.toLower n1 true = .ok low → Names.validateAttributeName (some low) = true)
    (hw : ∀ low en n, Str.toLower n1 true = .ok low → lookup (view s (ls e)) none low = some en → s.attrs en.attr = some n → Writable n) :
    ∃ s' s'' w, setAttribute e n1 v s = .ok s' () ∧ hasAttribute e n2 s' = .ok s' true ∧
      getAttribute e n2 s' = .ok s'' (some w) ∧ w.data = contents v := by
  obtain ⟨low, h1, h2, h3⟩ := foldName_html he (folds_html hh hns) n1
  obtain ⟨s', ls', en', g1, g2, g3, _, _, g4⟩ := C36_set hI he hro none low v (hname low h2) (fun en n hl hn => hw low en n h2 hl hn)
  have hset : setAttribute e n1 v s = .ok s' () := by unfold setAttribute; rw [bind_ok h1]; exact g1
  have hel : ∃ el', s'.elems e = some el' ∧ el'.html = el.html ∧ el'.ns = el.ns := by
    cases hl : lookup (view s (ls e)) none low with
    | none =>
      obtain ⟨s1, c, k1, _, hA, _⟩ := setAttr_new hI he hro v (hname low h2) hl
      rw [k1] at g1; injection g1 with g1; subst g1
      rw [hA.elem]
      exact ⟨_, if_pos rfl, rfl, rfl⟩
    | some en =>
      obtain ⟨hmem, _⟩ := lookup_mem hl
      obtain ⟨_, _, n, _, _, _, hn, _⟩ := view_mem hI hmem
      obtain ⟨w1, w2⟩ := hw low en n h2 hl hn
      obtain ⟨old, _, k1⟩ := setAttr_existing hI he hro v (hname low h2) hl hn w1 w2
      rw [k1] at g1; injection g1 with g1; subst g1
      exact ⟨el, he, rfl, rfl⟩
  obtain ⟨el', hel', hh', hns'⟩ := hel
  obtain ⟨s'', k1, k2⟩ := C51_read g2 hel' (by rw [hh', hh]) (by rw [hns']; exact hns) n2
  have hr : reading s' (view s' (ls' e)) none ⟨n2.data.map Str.asciiLower, false⟩ = some (some (contents v)) := by
    rw [← g3]; exact reading_data _ (by rw [h3, hcase])
  rw [hr] at k1 k2
  obtain ⟨w, k2, k3⟩ := k2
  exact ⟨s', s'', w, hset, k1, k2, k3⟩

/-- **C51**, removing: after removeAttribute under one spelling no spelling finds an attribute (if there was one entry
with this local name, cf. `C36_remove_violated`). -/
theorem C51_remove_partial (hI : Inv s ls) (he : s.elems e = some el) (hro : el.ro = false) (hh : el.html = true) (hns : el.ns.map DStr.data ≠ some svgName)
    (n1 n2 : DStr) (hcase : n1.data.map Str.asciiLower = n2.data.map Str.asciiLower)
    (hone : ∀ k ∈ view s (ls e), ∀ k' ∈ view s (ls e), k.name.data = n1.data.map Str.asciiLower → k'.name.data = n1.data.map Str.asciiLower → k = k') :
    ∃ s', removeAttribute e n1 s = .ok s' () ∧ hasAttribute e n2 s' = .ok s' false := by
  obtain ⟨low, h1, h2, h3⟩ := foldName_html he (folds_html hh hns) n1
  obtain ⟨s', ls', g1, g2, _, _, _, g3⟩ := C36_remove_partial hI he hro none low
  have hset : removeAttribute e n1 s = .ok s' () := by unfold removeAttribute; rw [bind_ok h1]; exact g1
  have g3 := g3 fun k hk k' hk' hf hf' => hone k hk k' hk' (by rw [← hf.2, h3]) (by rw [← hf'.2, h3])
  have hel : ∃ el', s'.elems e = some el' ∧ el'.html = el.html ∧ el'.ns = el.ns := by
    cases hl : lookup (view s (ls e)) none low with
    | none =>
      rw [removeAttr_none hI he hro hl] at g1; injection g1 with g1; subst g1
      exact ⟨el, he, rfl, rfl⟩
    | some en =>
      obtain ⟨s1, _, _, _, k1, _, _, _, _, _, _, _, k2, _⟩ := removeAttr_some hI he hro hl
      rw [k1] at g1; injection g1 with g1; subst g1
      rw [k2]
      exact ⟨_, if_pos rfl, rfl, rfl⟩
  obtain ⟨el', hel', hh', hns'⟩ := hel
  obtain ⟨s'', k1, k2⟩ := C51_read g2 hel' (by rw [hh', hh]) (by rw [hns']; exact hns) n2
  have hr : reading s' (view s' (ls' e)) none ⟨n2.data.map Str.asciiLower, false⟩ = none := by
    rw [← g3]; exact reading_data _ (by rw [h3, hcase])
  rw [hr] at k1
  exact ⟨s', hset, k1⟩

/-- **C51**, SVG (partial): on an element of the SVG namespace with an unknown tag the calls work with the name as given.  Missing: tags the
library knows from HTML (`C51_svg_violated`). -/
theorem C51_svg_partial (he : s.elems e = some el) (htag : el.tag = 0) (hns : el.ns.map DStr.data = some svgName) (name : DStr) (v : Option DStr) :
    getAttribute e name s = getAttr e none name s ∧ hasAttribute e name s = hasAttr e none name s ∧
    setAttribute e name v s = setAttr e none name v s ∧ removeAttribute e name s = removeAttr e none name s := by
  have h := foldName_other he (folds_svg htag hns) name
  refine ⟨?_, ?_, ?_, ?_⟩
  · unfold getAttribute; rw [bind_ok h]
  · unfold hasAttribute; rw [bind_ok h]
  · unfold setAttribute; rw [bind_ok h]
  · unfold removeAttribute; rw [bind_ok h]

end
end Dom.Attr
