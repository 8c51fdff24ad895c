import Verif.Html.PropsCreate
/-!
# Claim C68 continued: the strings of the document, where creating elements deviates, and claim C69 on the title that was set
-/
set_option linter.unusedSimpArgs false
set_option linter.unusedVariables false
namespace Dom.Html.Create

open Dom.Intern
open Dom.Str (Bytes DStr asciiUpper Holds utf8 Decodable)

variable {s s' s'' : Mem} {held held' loose : Addr → Nat} {a b g q tag name : Addr} {h : HtmlDoc} {t u v : Bytes}

/-! ## The document's own strings -/

/-- The strings of one of the arrays. -/
def arrayStrings (x : Option (List (String × Addr))) : List Addr := (x.getD []).map Prod.snd

/-- The references a document has: on its title, the names of attributes and the names of elements. -/
def HtmlDoc.refs (h : HtmlDoc) : List Addr := h.title.toList ++ (arrayStrings h.memoised ++ arrayStrings h.elements)

theorem makeAll_run (hR : Reach s held loose) (ts : List String) : ∃ s' l, makeAll s ts = .ok (s', l) ∧ Reach s' (plus held (l.map Prod.snd)) loose ∧
    Step s s' ∧ (∀ t ∈ ts, ∃ a, l.lookup t = some a ∧ a ∈ l.map Prod.snd ∧ strBytes s' a = .ok (label t)) ∧ l.length = ts.length := by
  induction ts generalizing s held with
  | nil => exact ⟨s, [], rfl, by rw [List.map_nil, plus_nil]; exact hR, Step.refl s, (fun _ h => nomatch h), rfl⟩
  | cons t ts ih =>
    obtain ⟨_, s1, a, e1, R1, S1, B1, _⟩ := new_run hR (label t)
    obtain ⟨s2, l, e2, R2, S2, L2, N2⟩ := ih R1
    rw [plus_plus] at R2
    refine ⟨s2, (t, a) :: l, ?_, R2, S1.trans hR.inv S2, fun x hx => ?_, congrArg (· + 1) N2⟩
    · simp only [makeAll, e1, e2, Out.bind_ok]
    · by_cases hxt : x = t
      · subst hxt
        exact ⟨a, by simp [List.lookup], by simp, keep R1 R2 S2 B1 (by simp [plus])⟩
      · rcases List.mem_cons.1 hx with h1 | h1
        · exact absurd h1 hxt
        · obtain ⟨c, h2, h3, h4⟩ := L2 x h1
          refine ⟨c, ?_, List.mem_cons_of_mem _ h3, h4⟩
          rw [List.lookup_cons, show (x == t) = false from beq_eq_false_iff_ne.2 hxt]
          exact h2

theorem dropAll_run {l : List (String × Addr)} {m : List Addr} (hR : Reach s (plus held (l.map Prod.snd ++ m)) loose) :
    ∃ s', dropAll s l = .ok s' ∧ Reach s' (plus held m) loose ∧ Step s s' := by
  induction l generalizing s with
  | nil => exact ⟨s, rfl, hR, Step.refl s⟩
  | cons x l ih =>
    obtain ⟨s1, e1, R1, S1⟩ := minus_run (a := x.2) (l := l.map Prod.snd ++ m) hR
    obtain ⟨s2, e2, R2, S2⟩ := ih R1
    exact ⟨s2, by simp only [dropAll, e1, e2, Out.bind_ok], R2, S1.trans hR.inv S2⟩

theorem dropArray_run {x : Option (List (String × Addr))} {m : List Addr} (hR : Reach s (plus held (arrayStrings x ++ m)) loose) :
    ∃ s', dropArray s x = .ok s' ∧ Reach s' (plus held m) loose ∧ Step s s' := by
  cases x with
  | none => exact ⟨s, rfl, hR, Step.refl s⟩
  | some l => exact dropAll_run hR

/-- C68: a new document has one reference on each of its strings and is ready to create elements. -/
theorem C68_ready (hR : Reach s held loose) (hg : strBytes s g = .ok svgName) (attrs : List String) : ∃ s' h, initialise s (some g) attrs = .ok (s', h) ∧
    Reach s' (plus held h.refs) loose ∧ Keeps s s' held ∧ Ready s' (plus held h.refs) h ∧ h.title = none ∧
    (∀ t ∈ attrs, ∃ a, entry h.memoised t = .ok a ∧ strBytes s' a = .ok (label t)) ∧ h.refs.length = attrs.length + 132 ∧ h.svg = some g := by
  obtain ⟨s1, m, e1, R1, S1, L1, N1⟩ := makeAll_run hR attrs
  obtain ⟨s2, l, e2, R2, S2, L2, N2⟩ := makeAll_run R1 (unknown :: tags)
  rw [plus_plus] at R2
  have S := S1.trans hR.inv S2
  have mem : ∀ {a : Addr} {l : List Addr}, a ∈ l → 0 < plus held l a := fun ha => by
    simp only [plus]; have := List.count_pos_iff.2 ha; omega
  refine ⟨s2, ⟨some g, some l, some m, none⟩, ?_, R2, keeps_of hR R2 S, ⟨⟨g, rfl, ?_, ?_⟩, l, rfl, fun t ht => ?_⟩, rfl, fun t ht => ?_, ?_, rfl⟩
  · simp only [initialise, e1, e2, Out.bind_ok]
  · exact le_plus held _ g (held_of_bytes hR hg)
  · exact keep hR R2 S hg (le_plus held _ g (held_of_bytes hR hg))
  · obtain ⟨a, h1, h2, h3⟩ := L2 t (List.mem_cons_of_mem _ ht)
    exact ⟨a, h1, mem (List.mem_append_right _ (List.mem_append_right _ h2)), h3⟩
  · obtain ⟨a, h1, h2, h3⟩ := L1 t ht
    refine ⟨a, by simp only [entry, h1], keep R1 R2 S2 h3 (mem (List.mem_append_left _ h2))⟩
  · have : (unknown :: tags).length = 132 := by decide +kernel
    simp only [HtmlDoc.refs, arrayStrings, Option.toList, List.nil_append, List.length_append, List.length_map, Option.getD_some, N1, N2, this]

/-- C68: a document that is released gives back exactly the references it has. -/
theorem C68_finalise (hR : Reach s (plus held h.refs) loose) : ∃ s', finalise s h = .ok (s', { h with elements := none, memoised := none }) ∧
    Reach s' held loose ∧ (∀ a t, 0 < held a → strBytes s a = .ok t → strBytes s' a = .ok t) := by
  obtain ⟨s1, e1, R1, S1⟩ := unrefOpt_run hR
  obtain ⟨s2, e2, R2, S2⟩ := dropArray_run R1
  obtain ⟨s3, e3, R3, S3⟩ := dropArray_run (m := []) (by rw [List.append_nil]; exact R2)
  rw [plus_nil] at R3
  refine ⟨s3, ?_, R3, fun a t h0 hb => keep hR R3 ((S1.trans hR.inv S2).trans hR.inv S3) hb h0⟩
  simp only [finalise, e1, e2, e3, Out.bind_ok]

/-! ## The title that was set -/

/-- C69: setting the title takes a reference on the new one and gives back that on the old one, also when both are the same string. -/
theorem C69_set_title {x : Option Addr} (hR : Reach s (plus held h.title.toList) loose) (h0 : ∀ a ∈ x, 0 < held a) (hroom : Room held) :
    ∃ s', setTitle s h x = .ok (s', { h with title := x }) ∧ Reach s' (plus held x.toList) loose ∧
      (∀ a t, 0 < held a → strBytes s a = .ok t → strBytes s' a = .ok t) := by
  obtain ⟨s1, e1, R1, S1⟩ := unrefOpt_run (l := []) (by rw [List.append_nil]; exact hR)
  rw [plus_nil] at R1
  obtain ⟨s2, e2, R2, S2⟩ := refOpt_run R1 h0 (fun a => by have := hroom a; omega)
  refine ⟨s2, ?_, R2, fun a t ha hb => keep hR R2 (S1.trans hR.inv S2) hb (le_plus held _ a ha)⟩
  simp only [setTitle, e1, e2, Out.bind_ok]

/-- C69: the title that was set is returned, with a reference for the caller. -/
theorem C69_get_title (hR : Reach s held loose) (h0 : ∀ a ∈ h.title, 0 < held a) (hroom : Room held) :
    ∃ s', getTitle s h = .ok (s', h.title) ∧ Reach s' (plus held h.title.toList) loose ∧ Keeps s s' held := by
  obtain ⟨s1, e1, R1, S1⟩ := refOpt_run hR h0 (fun a => by have := hroom a; omega)
  exact ⟨s1, by simp only [getTitle, e1, Out.bind_ok], R1, keeps_of hR R1 S1⟩

/-! ## Where the code deviates -/

/-- A string that was released is not read. -/
theorem gone (hs : s.strs a = none) : strBytes s a = .fault .useAfterFree := by simp [strBytes, rdStr, hs]

/-- Creating when the namespace was found to be that of SVG, and one reference on the name is all there is. -/
theorem svg_last {ns pfx : Option Addr} {k : Nat} (hR : Reach s held loose) (hb : strBytes s tag = .ok t)
    (hk : Str.length (some ⟨t, false⟩) = .ok (k + 1)) (hq : strIsEqual s ns h.svg = .ok true) (h1 : held tag = 1) :
    createInternal s h tag ns pfx = .fault .useAfterFree := by
  obtain ⟨s1, e1, R1, S1, D1⟩ := unref_run hR (a := tag) (by omega)
  unfold createInternal
  rw [hb, Out.bind_ok, hk, Out.bind_ok, if_neg (Nat.succ_ne_zero k), hq, Out.bind_ok]
  have : takeName s tag true = .ok (s1, tag) := by
    unfold takeName
    rw [if_neg (by simp), e1, Out.bind_ok]
  rw [this]
  simp only [Out.bind_ok, elementType, gone (D1 h1), Out.bind_fault]

/-- The same when there are more. -/
theorem svg_more {ns pfx : Option Addr} {k : Nat} (hR : Reach s held loose) (hD : ∃ l, h.elements = some l ∧ ∀ t ∈ tags, ∃ a, l.lookup t = some a ∧
    0 < held a ∧ strBytes s a = .ok (label t)) (hroom : ∀ a, held a + 6 < 4294967296) (hb : strBytes s tag = .ok t)
    (hk : Str.length (some ⟨t, false⟩) = .ok (k + 1)) (hq : strIsEqual s ns h.svg = .ok true) (h1 : 1 < held tag) (hns : ∀ a ∈ ns, 0 < held a)
    (hpf : ∀ a ∈ pfx, 0 < held a) : ∃ s', createInternal s h tag ns pfx = .ok (s', .ok ⟨typeOf t, tag, ns, pfx⟩) ∧
      Reach s' (plus (upd held tag (held tag - 1)) (ns.toList ++ pfx.toList)) loose ∧ Step s s' := by
  obtain ⟨s1, e1, R1, S1, _⟩ := unref_run hR (a := tag) (by omega)
  have hpos : ∀ a, 0 < held a → 0 < upd held tag (held tag - 1) a := by
    intro a ha
    by_cases hx : a = tag
    · subst hx; rw [upd_same]; omega
    · rw [upd_ne hx]; exact ha
  have hle : ∀ a, upd held tag (held tag - 1) a ≤ held a := by
    intro a
    by_cases hx : a = tag
    · subst hx; rw [upd_same]; omega
    · rw [upd_ne hx]
  have B1 := keep hR R1 S1 hb (hpos tag (by omega))
  have ht : elementType s1 h tag = .ok (typeOf t) := by
    obtain ⟨l, el, hl⟩ := hD
    unfold elementType
    rw [B1, Out.bind_ok, el, matchLoop_run R1 (fun t ht => ?_) B1 _ (cases_tags _), typeOf_cases]
    obtain ⟨a, h2, h3, h4⟩ := hl t ht
    exact ⟨a, h2, hpos a h3, keep hR R1 S1 h4 (hpos a h3)⟩
  obtain ⟨s2, e2, R2, S2⟩ := elemInit_run (ns := ns) (pfx := pfx) (type := typeOf t) R1 (fun a => by have := hroom a; have := hle a; omega) (hpos tag (by omega))
    (fun a ha => hpos a (hns a ha)) (fun a ha => hpos a (hpf a ha))
  obtain ⟨s3, e3, R3, S3⟩ := minus_run (l := ns.toList ++ pfx.toList) R2
  refine ⟨s3, ?_, R3, (S1.trans hR.inv S2).trans hR.inv S3⟩
  unfold createInternal
  rw [hb, Out.bind_ok, hk, Out.bind_ok, if_neg (Nat.succ_ne_zero k), hq, Out.bind_ok]
  have : takeName s tag true = .ok (s1, tag) := by
    unfold takeName
    rw [if_neg (by simp), e1, Out.bind_ok]
  rw [this]
  simp only [Out.bind_ok, ht, e2, e3]

theorem svg_equal (hR : Reach s held loose) (hD : Ready s held h) (hv : strBytes s a = .ok svgName) : strIsEqual s (some a) h.svg = .ok true := by
  obtain ⟨g, eg, _, hg⟩ := hD.svg
  rw [eg, C65_equal hR (show argBytes s (some a) = .ok svgName from hv) (show argBytes s (some g) = .ok svgName from hg)]
  simp

/-- C68 is violated in the SVG namespace: every name with a prefix makes the code read a string it has released. -/
theorem C68_svg_prefix_violated {p ls : List Char} (hR : Reach s held loose) (hD : Ready s held h) (hroom : Room held)
    (hb : strBytes s q = .ok t) (hh : Holds ⟨t, false⟩ (p ++ ':' :: ls)) (hd : Decodable (p ++ ':' :: ls)) (hp : ':' ∉ p) (hls : ls ≠ [])
    (hv : strBytes s a = .ok svgName) : createElementNS s h (some a) q = .fault .useAfterFree := by
  rcases split_run hR hroom hb hh hd with ⟨hno, _⟩ | ⟨p', l, ec, hp', s1, pa, la, e1, R1, S1, B1, B2, H2, z1, z2, z3⟩
  · exact absurd (List.mem_append_right _ (List.mem_cons_self ..)) hno
  · have hl : l ≠ [] := by
      rintro rfl
      have h1 : (p ++ ':' :: ls).count ':' = (p' ++ [':']).count ':' := by rw [ec]
      have h3 : p.count ':' = 0 := List.count_eq_zero.2 hp
      have h4 : p'.count ':' = 0 := List.count_eq_zero.2 hp'
      have h5 : ls.count ':' = 0 := by simpa [List.count_append, h3, h4] using h1
      have h6 : (p ++ ':' :: ls).getLast? = some ':' := by rw [ec]; simp
      have h7 : ':' ∈ ls := by
        cases ls with
        | nil => exact absurd rfl hls
        | cons c ls =>
          have : (c :: ls).getLast? = some ':' := by simpa [List.getLast?_append] using h6
          exact List.mem_of_getLast? this
      exact absurd h7 (List.count_eq_zero.1 h5)
    obtain ⟨k, hk⟩ := count_ne hl
    have h0 := held_of_bytes hR hv
    have hv1 := keep hR R1 S1 hv (le_plus held _ a h0)
    have e2 := svg_last (ns := some a) (pfx := some pa) (k := k) R1 B2 ((Str.length_holds H2).trans (by rw [hk]))
      (svg_equal R1 (hD.keep hR R1 S1 (le_plus held _)) hv1) (by simp [plus, z2, List.count_cons, z3])
    unfold createElementNS
    rw [e1]
    simp only [Out.bind_ok, e2, Out.bind_fault]

/-- C68 is violated in the SVG namespace: for a name without a prefix the element keeps the very string it was given, and the code gives back two
references it never took.  The caller still counts on its `held q` references and the element on one; there are `held q - 1`, and the string is gone
when the caller had one. -/
theorem C68_svg_violated {cs : List Char} (hR : Reach s held loose) (hD : Ready s held h) (hroom : Room held) (hb : strBytes s q = .ok t)
    (hh : Holds ⟨t, false⟩ cs) (hd : Decodable cs) (hno : ':' ∉ cs) (hne : cs ≠ []) (hv : strBytes s a = .ok svgName) (haq : a ≠ q) :
    ∃ s' e, createElementNS s h (some a) q = .ok (s', .ok e) ∧ e.name = q ∧ Reach s' (upd (plus held [a]) q (held q - 1)) loose ∧
      (held q = 1 → strBytes s' e.name = .fault .useAfterFree) := by
  rcases split_run hR hroom hb hh hd with ⟨_, s1, e1, R1, S1⟩ | ⟨p, l, rfl, _⟩
  on_goal 2 => exact absurd (List.mem_append_right _ (List.mem_cons_self ..)) hno
  obtain ⟨k, hk⟩ := count_ne hne
  have h0 := held_of_bytes hR hv
  have hq0 := held_of_bytes hR hb
  have hv1 := keep hR R1 S1 hv (le_plus held _ a h0)
  have hD1 := hD.keep hR R1 S1 (le_plus held [q])
  obtain ⟨s2, e2, R2, S2⟩ := svg_more (ns := some a) (pfx := none) (k := k) R1 hD1.elements
    (by intro x; have := hroom x; have : ([q] : List Addr).count x ≤ 1 := by rw [List.count_singleton]; split <;> omega
        simp only [plus]; omega)
    (keep hR R1 S1 hb (by simp [plus])) ((Str.length_holds hh).trans (by rw [hk])) (svg_equal R1 hD1 hv1) (by simp [plus]; omega)
    (fun x hx => by cases hx; exact le_plus held _ _ h0) (fun _ h => nomatch h)
  rw [upd_minus, plus_nil, show (some a).toList ++ (none : Option Addr).toList = [a] from rfl] at R2
  have hpq : plus held [a] q = held q := by simp [plus, List.count_singleton, haq]
  obtain ⟨s3, e3, R3, S3, D3⟩ := unref_run R2 (a := q) (by rw [hpq]; exact hq0)
  rw [hpq] at R3
  refine ⟨s3, ⟨typeOf t, q, some a, none⟩, ?_, rfl, R3, fun h1 => gone (D3 (by rw [hpq]; exact h1))⟩
  unfold createElementNS
  rw [e1]
  simp only [Out.bind_ok, e2, e3, unrefOpt]

/-- C68 is violated when the namespaces were finalised: `NULL` is then taken for the SVG namespace, and creating an element by a tag name of which the
caller has the only reference reads a released string. -/
theorem C68_uninitialised_violated {cs : List Char} (hR : Reach s held loose) (hb : strBytes s tag = .ok t) (hh : Holds ⟨t, false⟩ cs)
    (hne : cs ≠ []) (h1 : held tag = 1) : createElement s { h with svg := none } tag = .fault .useAfterFree := by
  obtain ⟨k, hk⟩ := count_ne hne
  exact svg_last hR hb ((Str.length_holds hh).trans (by rw [hk])) rfl h1

/-- C68: the question whether attribute names are lowered is answered by the namespace for an element of unknown type.  It is violated in that every
such question leaves a reference on the namespace behind. -/
theorem C68_normalise_violated {e : Elem} (hR : Reach s held loose) (hD : Ready s held h) (hroom : Room held) (ht : e.type = unknown) (hn : e.ns = some a)
    (hv : strBytes s a = .ok v) : ∃ s', shouldNormalise s h e = .ok (s', decide (v ≠ svgName)) ∧ Reach s' (plus held [a]) loose := by
  have h0 := held_of_bytes hR hv
  obtain ⟨s1, e1, R1, S1⟩ := ref_run hR h0 (by have := hroom a; omega)
  obtain ⟨g, eg, hg0, hg⟩ := hD.svg
  have hq : strIsEqual s1 (some a) (some g) = .ok (decide (v = svgName)) :=
    C65_equal R1 (show argBytes s1 (some a) = .ok v from keep hR R1 S1 hv (le_plus held _ a h0)) (keep hR R1 S1 hg (le_plus held _ g hg0))
  refine ⟨s1, ?_, R1⟩
  unfold shouldNormalise
  rw [if_pos ht, hn]
  simp only [refOpt, e1, Out.bind_ok, eg, hq]
  by_cases hx : v = svgName <;> simp [hx]

/-- C68 is violated for a document that was released while nodes of it are referenced: it stays because of these nodes, but every name of an attribute
is gone, and so are the names of elements, so that creating an element with a name as long as one of HTML reads a null pointer. -/
theorem C68_released_violated {cs : List Char} (hR : Reach s (plus held h.refs) loose) (hb : strBytes s tag = .ok t) (ht0 : 0 < held tag)
    (hh : Holds ⟨t, false⟩ cs) (hne : cs ≠ []) (hc : casesOf t.length ≠ []) (hg : h.svg = some g) (hg0 : 0 < held g) (hgb : strBytes s g = .ok svgName) :
    ∃ s' h', finalise s h = .ok (s', h') ∧ Reach s' held loose ∧ (∀ x, entry h'.memoised x = .fault .nullDeref) ∧
      createElement s' h' tag = .fault .nullDeref := by
  obtain ⟨k, hk⟩ := count_ne hne
  obtain ⟨s', e1, R, K⟩ := C68_finalise hR
  have B := K tag t ht0 hb
  have hq : strIsEqual s' none h.svg = .ok false := by
    rw [hg, C65_equal R (show argBytes s' none = .ok [] from rfl) (show argBytes s' (some g) = .ok svgName from K g _ hg0 hgb)]
    exact congrArg Out.ok (by decide +kernel)
  obtain ⟨s2, c, e2, R2, S2, B2, _⟩ := upper_run R B
  refine ⟨s', _, e1, R, fun _ => rfl, ?_⟩
  unfold createElement createInternal
  rw [B, Out.bind_ok, (Str.length_holds hh).trans (by rw [hk]), Out.bind_ok, if_neg (Nat.succ_ne_zero k), hq, Out.bind_ok]
  have h3 : takeName s' tag false = .ok (s2, c) := by unfold takeName; rw [if_pos rfl, e2]
  rw [h3]
  simp only [Out.bind_ok, elementType, B2, List.length_map]
  cases hl : casesOf t.length with
  | nil => exact absurd hl hc
  | cons x l => simp only [matchLoop, entry, Out.bind_fault]

/-! ## Concrete cases -/

/-- A document, a tag name `name` of which the caller has the only reference, and the SVG namespace. -/
theorem sample_document (name : String) : ∃ s held loose h tag g, Reach s held loose ∧ Ready s held h ∧ Room held ∧ strBytes s tag = .ok (label name) ∧
    held tag = 1 ∧ h.svg = some g ∧ strBytes s g = .ok svgName ∧ g ≠ tag := by
  obtain ⟨⟨s1, e1, R1, S1, B1, z1⟩, _⟩ := new_run Reach.start svgName
  obtain ⟨s2, h, e2, R2, K2, D2, _, _, L2, hx⟩ := C68_ready R1 B1 ["id", "class"]
  rw [plus_plus] at R2 D2
  obtain ⟨⟨s3, e3, R3, S3, B3, z3⟩, _⟩ := new_run R2 (label name)
  have hg := K2 _ _ (by simp [plus]) B1
  have hne : Mem.empty.fresh ≠ s2.fresh := by
    intro e
    rw [← e] at z3
    simp [plus] at z3
  refine ⟨s3, _, _, h, s2.fresh, Mem.empty.fresh, R3, D2.keep R2 R3 S3 (le_plus _ _), ?_, B3, ?_, hx, ?_, hne⟩
  · intro a
    rw [plus_plus]
    have hl : ([Mem.empty.fresh] ++ h.refs ++ [s2.fresh]).count a ≤ ([Mem.empty.fresh] ++ h.refs ++ [s2.fresh]).length := List.count_le_length
    simp only [List.length_append, L2, List.length_cons, List.length_nil] at hl
    simp only [plus]
    omega
  · show plus _ [s2.fresh] s2.fresh = 1
    simp only [plus] at z3 ⊢
    rw [z3]; simp
  · exact keep R2 R3 S3 hg (le_plus _ _ _ (by simp [plus]))

/-- `C68_create` applies: for "tHead" it makes an element of type `THEAD`, for "main2" one of unknown type. -/
example : ∃ s held loose h tag, Reach s held loose ∧ Ready s held h ∧ Room held ∧ strBytes s tag = .ok (label "tHead") ∧
    Holds ⟨label "tHead", false⟩ "tHead".toList ∧ typeOf ((label "tHead").map asciiUpper) = "THEAD" ∧ typeOf ((label "main2").map asciiUpper) = unknown := by
  obtain ⟨s, held, loose, h, tag, g, R, D, M, B, _⟩ := sample_document "tHead"
  exact ⟨s, held, loose, h, tag, R, D, M, B, ⟨by decide +kernel, by decide +kernel⟩, by decide +kernel, by decide +kernel⟩

/-- `C68_create_ns_partial` applies to "x:p" without a namespace. -/
example : ∃ s held loose h tag, Reach s held loose ∧ Ready s held h ∧ Room held ∧ strBytes s tag = .ok (label "x:p") ∧
    Holds ⟨label "x:p", false⟩ ['x', ':', 'p'] ∧ Decodable ['x', ':', 'p'] ∧ argBytes s none = .ok [] ∧ [] ≠ svgName ∧
    ['x', ':', 'p'] = ['x'] ++ ':' :: ['p'] ∧ ':' ∉ ['x'] := by
  obtain ⟨s, held, loose, h, tag, g, R, D, M, B, _⟩ := sample_document "x:p"
  exact ⟨s, held, loose, h, tag, R, D, M, B, ⟨by decide +kernel, by decide +kernel⟩, by unfold Decodable; decide, rfl, by decide +kernel, rfl, by decide⟩

/-- `C68_svg_violated` applies to "rect" and `C68_svg_prefix_violated` to "svg:rect": the element of the first has a name that was released, creating
the second reads a released string. -/
theorem C68_svg_cases_violated : (∃ s held loose h q g s' e, Reach s held loose ∧ 0 < held q ∧ 0 < held g ∧ strBytes s q = .ok (label "rect") ∧
      strBytes s g = .ok svgName ∧ createElementNS s h (some g) q = .ok (s', .ok e) ∧ strBytes s' e.name = .fault .useAfterFree) ∧
    (∃ s held loose h q g, Reach s held loose ∧ 0 < held q ∧ 0 < held g ∧ strBytes s q = .ok (label "svg:rect") ∧ strBytes s g = .ok svgName ∧
      createElementNS s h (some g) q = .fault .useAfterFree) := by
  constructor
  · obtain ⟨s, held, loose, h, q, g, R, D, M, B, h1, _, hg, hne⟩ := sample_document "rect"
    obtain ⟨s', e, e1, _, _, h2⟩ := C68_svg_violated (cs := "rect".toList) R D M B ⟨by decide +kernel, by decide +kernel⟩ (by unfold Decodable; decide +kernel)
      (by decide +kernel) (by decide +kernel) hg hne
    exact ⟨s, held, loose, h, q, g, s', e, R, by omega, held_of_bytes R hg, B, hg, e1, h2 h1⟩
  · obtain ⟨s, held, loose, h, q, g, R, D, M, B, h1, _, hg, hne⟩ := sample_document "svg:rect"
    exact ⟨s, held, loose, h, q, g, R, by omega, held_of_bytes R hg, B, hg, C68_svg_prefix_violated (p := ['s', 'v', 'g']) (ls := ['r', 'e', 'c', 't']) R D M B
      ⟨by decide +kernel, by decide +kernel⟩ (by unfold Decodable; decide +kernel) (by decide +kernel) (by decide +kernel) hg⟩

/-- C68 is violated by names: "<" is no name, and the element is created. -/
theorem C68_name_violated : ∃ s held loose h tag s' e, Reach s held loose ∧ strBytes s tag = .ok (label "<") ∧
    Names.validateName (some ⟨label "<", false⟩) = false ∧ createElement s h tag = .ok (s', .ok e) := by
  obtain ⟨s, held, loose, h, tag, g, R, D, M, B, _⟩ := sample_document "<"
  obtain ⟨s', e, e1, _⟩ := C68_create (cs := ['<']) R D M B ⟨by decide +kernel, by decide +kernel⟩ (by decide)
  exact ⟨s, held, loose, h, tag, s', e, R, B, by decide +kernel, e1⟩

/-- `C68_released_violated` applies to a new document and the name "div". -/
example : ∃ s held loose, ∃ h : HtmlDoc, ∃ tag g, Reach s (plus held h.refs) loose ∧ strBytes s tag = .ok (label "div") ∧ 0 < held tag ∧
    Holds ⟨label "div", false⟩ ['d', 'i', 'v'] ∧ casesOf (label "div").length ≠ [] ∧ h.svg = some g ∧ 0 < held g ∧ strBytes s g = .ok svgName := by
  obtain ⟨⟨s1, e1, R1, S1, B1, z1⟩, _⟩ := new_run Reach.start svgName
  obtain ⟨⟨s2, e2, R2, S2, B2, z2⟩, _⟩ := new_run R1 (label "div")
  have hg : 0 < plus (plus (fun _ => 0) [Mem.empty.fresh]) [s1.fresh] Mem.empty.fresh := le_plus _ _ _ (by simp [plus])
  have B1' := keep R1 R2 S2 B1 hg
  obtain ⟨s3, h, e3, R3, K3, D3, _, _, _, hx⟩ := C68_ready R2 B1' ["id"]
  have ht : 0 < plus (plus (fun _ => 0) [Mem.empty.fresh]) [s1.fresh] s1.fresh := by simp [plus]
  exact ⟨s3, _, _, h, s1.fresh, Mem.empty.fresh, R3, K3 _ _ ht B2, ht, ⟨by decide +kernel, by decide +kernel⟩, by decide +kernel, hx, hg, K3 _ _ hg B1'⟩

end Dom.Html.Create
