import Verif.Html.Create
import Verif.Names.Props
/-!
# Claim C68: which element an HTML document creates for a name, and the references it takes
-/
set_option linter.unusedSimpArgs false
set_option linter.unusedVariables false
namespace Dom.Html.Create

open Dom.Intern
open Dom.Str (Bytes DStr asciiUpper Holds utf8 Decodable)

/-! ## What is claimed -/

/-- The type for an upper case name: that of the name in html_elements.h with these bytes. -/
def typeOf (u : Bytes) : String := (tags.find? fun t => label t = u).getD unknown

/-- The references after some more were taken, one for each occurrence in the list. -/
def plus (held : Addr → Nat) (l : List Addr) : Addr → Nat := fun a => held a + l.count a

/-- The references an element has: on its name, its namespace and its prefix. -/
def Elem.refs (e : Elem) : List Addr := e.name :: (e.ns.toList ++ e.pfx.toList)

/-- No count is near 2^32. -/
def Room (held : Addr → Nat) : Prop := ∀ a, held a + 8 < 4294967296

/-- A document between `initialise` and `finalise`, with the namespaces initialised (see `C68_ready`). -/
structure Ready (s : Mem) (held : Addr → Nat) (h : HtmlDoc) : Prop where
  svg : ∃ g, h.svg = some g ∧ 0 < held g ∧ strBytes s g = .ok svgName
  elements : ∃ l, h.elements = some l ∧ ∀ t ∈ tags, ∃ a, l.lookup t = some a ∧ 0 < held a ∧ strBytes s a = .ok (label t)

/-! ## Steps -/

variable {s s' s'' : Mem} {held held' loose : Addr → Nat} {a b g q tag name : Addr} {h : HtmlDoc} {t u v : Bytes}

theorem upd_plus (held : Addr → Nat) (a : Addr) : upd held a (held a + 1) = plus held [a] := by
  funext x
  by_cases hx : x = a
  · subst hx; rw [upd_same]; simp [plus]
  · rw [upd_ne hx]; simp [plus, List.count_singleton, Ne.symm hx]

theorem plus_plus (held : Addr → Nat) (l m : List Addr) : plus (plus held l) m = plus held (l ++ m) := by
  funext x; simp only [plus, List.count_append]; omega

theorem plus_perm {l m : List Addr} (hp : l.Perm m) : plus held l = plus held m := by
  funext x; simp only [plus, hp.count_eq]

theorem upd_minus (held : Addr → Nat) (a : Addr) (l : List Addr) : upd (plus held (a :: l)) a (plus held (a :: l) a - 1) = plus held l := by
  funext x
  by_cases hx : x = a
  · subst hx; rw [upd_same]; simp [plus, List.count_cons]
  · rw [upd_ne hx]; simp [plus, List.count_cons, Ne.symm hx]

theorem plus_nil (held : Addr → Nat) : plus held [] = held := by funext x; simp [plus]

theorem alive_bytes (hR : Reach s held loose) (h0 : 0 < held a) : ∃ t, strBytes s a = .ok t :=
  let ⟨t, _, h⟩ := hR.inv.bytes (hR.inv.alive h0).choose_spec
  ⟨t, h⟩

theorem held_of_bytes (hR : Reach s held loose) (hb : strBytes s a = .ok t) : 0 < held a := by
  have ht := (text_bytes hR.inv).2 hb
  obtain ⟨o, ho⟩ := text_live ht
  exact (hR.inv.live a o ho).2.1

/-- A string that is still referenced has its bytes. -/
theorem keep (hR : Reach s held loose) {loose' : Addr → Nat} (hR' : Reach s' held' loose') (S : Step s s') (hb : strBytes s a = .ok t) (h0 : 0 < held' a) :
    strBytes s' a = .ok t := by
  rcases S.text a t ((text_bytes hR.inv).2 hb) with h1 | h1
  · exact (text_bytes hR'.inv).1 h1
  · exact absurd (hR'.inv.dead a h1) (Nat.pos_iff_ne_zero.1 h0)

theorem step_of {c : Call} (hR : Reach s held loose) (ha : Allowed s held loose c) : ∃ s' r, perform s c = .ok (s', r) ∧
    Reach s' (heldAfter held r c) (looseAfter loose r c) ∧ Step s s' ∧ (∀ a, c = .unref a → held a = 1 → s'.strs a = none) := by
  obtain ⟨s', r, e, I, S, T, _, D⟩ := perform_inv hR.inv ha
  exact ⟨s', r, e, hR.call ha e, S, D⟩

theorem ref_run (hR : Reach s held loose) (h0 : 0 < held a) (hk : held a + 1 < 4294967296) :
    ∃ s', strRef s a = .ok s' ∧ Reach s' (plus held [a]) loose ∧ Step s s' := by
  obtain ⟨s', r, e, R, S, _⟩ := step_of (c := .ref a) hR ⟨h0, hk⟩
  have e' : (strRef s a >>= fun s => Out.ok (s, a)) = .ok (s', r) := e
  cases hs : strRef s a with
  | ok s1 =>
    rw [hs] at e'; cases e'
    refine ⟨s', rfl, ?_, S⟩
    rw [← upd_plus]; exact R
  | exc x => rw [hs] at e'; cases e'
  | fault f => rw [hs] at e'; cases e'

theorem unref_run (hR : Reach s held loose) (h0 : 0 < held a) : ∃ s', strUnref s a = .ok s' ∧ Reach s' (upd held a (held a - 1)) loose ∧ Step s s' ∧
    (held a = 1 → s'.strs a = none) := by
  obtain ⟨s', r, e, R, S, D⟩ := step_of (c := .unref a) hR h0
  have e' : (strUnref s a >>= fun s => Out.ok (s, a)) = .ok (s', r) := e
  cases hs : strUnref s a with
  | ok s1 =>
    rw [hs] at e'; cases e'
    exact ⟨s', rfl, R, S, D a rfl⟩
  | exc x => rw [hs] at e'; cases e'
  | fault f => rw [hs] at e'; cases e'

theorem minus_run {l : List Addr} (hR : Reach s (plus held (a :: l)) loose) : ∃ s', strUnref s a = .ok s' ∧ Reach s' (plus held l) loose ∧ Step s s' := by
  obtain ⟨s', e, R, S, _⟩ := unref_run (a := a) hR (by simp [plus])
  rw [upd_minus] at R
  exact ⟨s', e, R, S⟩

theorem refOpt_run {x : Option Addr} (hR : Reach s held loose) (h0 : ∀ a ∈ x, 0 < held a) (hk : ∀ a, held a + 1 < 4294967296) :
    ∃ s', refOpt s x = .ok s' ∧ Reach s' (plus held x.toList) loose ∧ Step s s' := by
  cases x with
  | none => exact ⟨s, rfl, by rw [show (none : Option Addr).toList = [] from rfl, plus_nil]; exact hR, Step.refl s⟩
  | some a => exact ref_run hR (h0 a rfl) (hk a)

theorem unrefOpt_run {x : Option Addr} {l : List Addr} (hR : Reach s (plus held (x.toList ++ l)) loose) :
    ∃ s', unrefOpt s x = .ok s' ∧ Reach s' (plus held l) loose ∧ Step s s' := by
  cases x with
  | none => exact ⟨s, rfl, hR, Step.refl s⟩
  | some a => exact minus_run hR

theorem new_run (hR : Reach s held loose) (t : Bytes) : (∃ s', strCreate s t = .ok (s', s.fresh) ∧ Reach s' (plus held [s.fresh]) loose ∧ Step s s' ∧
    strBytes s' s.fresh = .ok t ∧ held s.fresh = 0) ∧ (∃ s' c, strCreateInterned s t = .ok (s', c) ∧ Reach s' (plus held [c]) loose ∧ Step s s' ∧
    strBytes s' c = .ok t ∧ held c = 0) := by
  constructor
  · obtain ⟨s', e, I, S, T, h0, _⟩ := hR.inv.strCreate t
    have R := hR.call (c := .create t) trivial e
    exact ⟨s', e, by rw [← upd_plus]; exact R, S, (text_bytes I).1 T, h0⟩
  · obtain ⟨s', c, e, I, S, T, h0, _⟩ := hR.inv.strCreateInterned t
    have R := hR.call (c := .createInterned t) trivial e
    exact ⟨s', c, e, by rw [← upd_plus]; exact R, S, (text_bytes I).1 T, h0⟩

theorem upper_run (hR : Reach s held loose) (hb : strBytes s a = .ok t) : ∃ s' c, strUpper s a = .ok (s', c) ∧ Reach s' (plus held [c]) loose ∧
    Step s s' ∧ strBytes s' c = .ok (t.map asciiUpper) ∧ held c = 0 := by
  obtain ⟨o, ho, hrd, _⟩ := bytes_of hR.inv ((text_bytes hR.inv).2 hb)
  have hu : t.map asciiUpper = t.map Str.doupper := (List.map_congr_left fun b _ => Str.doupper_eq b).symm
  unfold strUpper
  rw [hrd, Out.bind_ok, hb, Out.bind_ok, hu]
  obtain ⟨⟨s1, e1, r1⟩, s2, c2, e2, r2⟩ := new_run hR (t.map Str.doupper)
  unfold createLike
  split
  · exact ⟨s1, _, e1, r1⟩
  · exact ⟨s2, c2, e2, r2⟩

theorem Ready.keep (hD : Ready s held h) (hR : Reach s held loose) (hR' : Reach s' held' loose) (S : Step s s') (hh : ∀ a, 0 < held a → 0 < held' a) :
    Ready s' held' h := by
  obtain ⟨⟨g, e, h0, hb⟩, l, el, hl⟩ := hD
  refine ⟨⟨g, e, hh g h0, Create.keep hR hR' S hb (hh g h0)⟩, l, el, fun t ht => ?_⟩
  obtain ⟨a, ea, h1, h2⟩ := hl t ht
  exact ⟨a, ea, hh a h1, Create.keep hR hR' S h2 (hh a h1)⟩

/-! ## The type -/

theorem tags_labels : (tags.map label).Nodup := by decide +kernel

theorem tags_cases : ∀ t ∈ tags, t ∈ casesOf (label t).length := by decide +kernel

theorem cases_tags (n : Nat) : ∀ t ∈ casesOf n, t ∈ tags := by
  unfold casesOf
  split <;> decide +kernel

theorem label_inj {x y : String} (hx : x ∈ tags) (hy : y ∈ tags) (e : label x = label y) : x = y :=
  List.inj_on_of_nodup_map tags_labels hx hy e

theorem find_sub {l : List String} (hl : ∀ t ∈ l, t ∈ tags) (u : Bytes) {x : String} (hx : x ∈ l) (e : label x = u) :
    l.find? (fun t => label t = u) = some x := by
  cases hf : l.find? (fun t => label t = u) with
  | none => exact absurd (decide_eq_true e) (List.find?_eq_none.1 hf x hx)
  | some y =>
    have h1 := List.mem_of_find?_eq_some hf
    have h2 : label y = u := of_decide_eq_true (List.find?_some (p := fun t => decide (label t = u)) hf)
    rw [label_inj (hl y h1) (hl x hx) (h2.trans e.symm)]

theorem typeOf_cases (u : Bytes) : ((casesOf u.length).find? fun t => label t = u).getD unknown = typeOf u := by
  unfold typeOf
  congr 1
  cases hf : tags.find? (fun t => label t = u) with
  | some x =>
    have h1 := List.mem_of_find?_eq_some hf
    have h2 : label x = u := of_decide_eq_true (List.find?_some (p := fun t => decide (label t = u)) hf)
    exact find_sub (cases_tags _) u (by rw [← h2]; exact tags_cases x h1) h2
  | none =>
    refine List.find?_eq_none.2 fun x hx => ?_
    exact List.find?_eq_none.1 hf x (cases_tags _ x hx)

theorem matchLoop_run (hR : Reach s held loose) {l : List (String × Addr)} (hl : ∀ t ∈ tags, ∃ a, l.lookup t = some a ∧ 0 < held a ∧ strBytes s a = .ok (label t))
    (hu : strBytes s name = .ok u) (ts : List String) (hts : ∀ t ∈ ts, t ∈ tags) :
    matchLoop s (some l) name ts = .ok ((ts.find? fun t => label t = u).getD unknown) := by
  induction ts with
  | nil => rfl
  | cons t ts ih =>
    obtain ⟨a, ea, _, hb⟩ := hl t (hts t (List.mem_cons_self ..))
    have he : entry (some l) t = .ok a := by simp only [entry, ea]
    have hq : strIsEqual s (some name) (some a) = .ok (decide (u = label t)) := C65_equal hR (show argBytes s (some name) = .ok u from hu) hb
    simp only [matchLoop, he, hq, Out.bind_ok]
    by_cases hm : label t = u
    · rw [List.find?_cons_of_pos (by exact decide_eq_true hm), decide_eq_true hm.symm, if_pos rfl]; rfl
    · rw [List.find?_cons_of_neg (by simpa using hm), decide_eq_false (Ne.symm hm)]
      exact ih fun t' h' => hts t' (List.mem_cons_of_mem _ h')

theorem elementType_run (hR : Reach s held loose) (hD : Ready s held h) (hu : strBytes s name = .ok u) : elementType s h name = .ok (typeOf u) := by
  obtain ⟨_, l, el, hl⟩ := hD
  unfold elementType
  rw [hu, Out.bind_ok, el, matchLoop_run hR hl hu _ (cases_tags _), typeOf_cases]

/-- C68: the type is that of the name with these bytes. -/
theorem C68_type (t : String) (ht : t ∈ tags) (u : Bytes) : typeOf u = t ↔ u = label t := by
  constructor
  · intro e
    unfold typeOf at e
    cases hf : tags.find? (fun t => label t = u) with
    | none =>
      rw [hf] at e
      have : unknown ∈ tags := by rw [show unknown = t from e]; exact ht
      exact absurd this (by decide +kernel)
    | some x =>
      rw [hf] at e
      have h2 : label x = u := of_decide_eq_true (List.find?_some (p := fun t => decide (label t = u)) hf)
      rw [← h2, show x = t from e]
  · intro e
    unfold typeOf
    rw [find_sub (fun _ h => h) u ht e.symm]; rfl

/-! ## Creating an element -/

theorem elemInit_run {ns pfx : Option Addr} {type : String} (hR : Reach s held loose) (hroom : ∀ a, held a + 4 < 4294967296) (h0 : 0 < held name)
    (hns : ∀ a ∈ ns, 0 < held a) (hpf : ∀ a ∈ pfx, 0 < held a) : ∃ s', elemInit s type name ns pfx = .ok (s', ⟨type, name, ns, pfx⟩) ∧
    Reach s' (plus held (Elem.refs ⟨type, name, ns, pfx⟩)) loose ∧ Step s s' := by
  have c1 : ∀ (x : Option Addr) (a : Addr), x.toList.count a ≤ 1 := by
    intro x a; cases x <;> simp [List.count_singleton]; split <;> omega
  obtain ⟨s1, e1, R1, S1⟩ := ref_run hR h0 (by have := hroom name; omega)
  obtain ⟨s2, e2, R2, S2⟩ := refOpt_run (x := ns) R1 (fun a ha => Nat.lt_of_lt_of_le (hns a ha) (Nat.le_add_right _ _))
    (by intro a; have := hroom a; have := c1 (some name) a; simp only [plus]; simp only [Option.toList] at this; omega)
  rw [plus_plus] at R2
  obtain ⟨s3, e3, R3, S3⟩ := refOpt_run (x := pfx) R2 (fun a ha => Nat.lt_of_lt_of_le (hpf a ha) (Nat.le_add_right _ _))
    (by intro a; have := hroom a; have := c1 (some name) a; have := c1 ns a; simp only [plus, List.count_append]; simp only [Option.toList] at *; omega)
  rw [plus_plus] at R3
  refine ⟨s3, ?_, R3, (S1.trans hR.inv S2).trans hR.inv S3⟩
  unfold elemInit
  rw [e1, Out.bind_ok, e2, Out.bind_ok, e3, Out.bind_ok]

theorem elemFinalise_run {e : Elem} (hR : Reach s (plus held e.refs) loose) : ∃ s', elemFinalise s e = .ok s' ∧ Reach s' held loose ∧ Step s s' := by
  have hp : e.refs.Perm (e.pfx.toList ++ (e.ns.toList ++ [e.name])) := by
    refine List.perm_iff_count.2 fun x => ?_
    simp only [Elem.refs, List.count_cons, List.count_append, List.count_nil]; omega
  rw [plus_perm hp] at hR
  obtain ⟨s1, e1, R1, S1⟩ := unrefOpt_run hR
  obtain ⟨s2, e2, R2, S2⟩ := unrefOpt_run R1
  obtain ⟨s3, e3, R3, S3⟩ := minus_run R2
  rw [plus_nil] at R3
  refine ⟨s3, ?_, R3, (S1.trans hR.inv S2).trans hR.inv S3⟩
  unfold elemFinalise
  rw [e1, Out.bind_ok, e2, Out.bind_ok, e3]

theorem le_plus (held : Addr → Nat) (l : List Addr) (a : Addr) (h0 : 0 < held a) : 0 < plus held l a := Nat.lt_of_lt_of_le h0 (Nat.le_add_right _ _)

/-- Creating outside the SVG namespace. -/
theorem internal_run {ns pfx : Option Addr} {k : Nat} (hR : Reach s held loose) (hD : Ready s held h) (hroom : ∀ a, held a + 6 < 4294967296)
    (hb : strBytes s tag = .ok t) (hk : Str.length (some ⟨t, false⟩) = .ok (k + 1)) (hns : ∀ a ∈ ns, 0 < held a) (hpf : ∀ a ∈ pfx, 0 < held a)
    (hv : argBytes s ns = .ok v) (hsvg : v ≠ svgName) : ∃ s' e, createInternal s h tag ns pfx = .ok (s', .ok e) ∧ Reach s' (plus held e.refs) loose ∧
    Step s s' ∧ strBytes s' e.name = .ok (t.map asciiUpper) ∧ held e.name = 0 ∧ e.type = typeOf (t.map asciiUpper) ∧ e.ns = ns ∧ e.pfx = pfx := by
  obtain ⟨g, eg, _, hg⟩ := hD.svg
  have hq : strIsEqual s ns h.svg = .ok false := by
    rw [eg, C65_equal hR hv (show argBytes s (some g) = .ok svgName from hg), decide_eq_false hsvg]
  obtain ⟨s1, c, e1, R1, S1, B1, c0⟩ := upper_run hR hb
  have hD1 := hD.keep hR R1 S1 (le_plus held [c])
  have ht := elementType_run R1 hD1 B1
  have hc1 : 0 < plus held [c] c := by simp [plus]
  obtain ⟨s2, e2, R2, S2⟩ := elemInit_run (ns := ns) (pfx := pfx) (type := typeOf (t.map asciiUpper)) R1
    (by intro a; have := hroom a; have : ([c] : List Addr).count a ≤ 1 := by rw [List.count_singleton]; split <;> omega
        simp only [plus]; omega) hc1
    (fun a ha => le_plus held _ a (hns a ha)) (fun a ha => le_plus held _ a (hpf a ha))
  have hp : ([c] ++ Elem.refs ⟨typeOf (t.map asciiUpper), c, ns, pfx⟩).Perm (c :: Elem.refs ⟨typeOf (t.map asciiUpper), c, ns, pfx⟩) := List.Perm.refl _
  rw [plus_plus, plus_perm hp] at R2
  obtain ⟨s3, e3, R3, S3⟩ := minus_run R2
  refine ⟨s3, ⟨typeOf (t.map asciiUpper), c, ns, pfx⟩, ?_, R3, (S1.trans hR.inv S2).trans hR.inv S3, ?_, c0, rfl, rfl, rfl⟩
  · unfold createInternal
    rw [hb, Out.bind_ok, hk, Out.bind_ok, if_neg (Nat.succ_ne_zero k), hq, Out.bind_ok]
    have : takeName s tag false = .ok (s1, c) := by unfold takeName; rw [if_pos rfl, e1]
    rw [this]
    simp only [Out.bind_ok, ht, e2, e3]
  · exact keep R1 R3 (S2.trans R1.inv S3) B1 (by simp [plus, Elem.refs])

/-- What a held string keeps. -/
def Keeps (s s' : Mem) (held : Addr → Nat) : Prop := ∀ a t, 0 < held a → strBytes s a = .ok t → strBytes s' a = .ok t

theorem keeps_of {l : List Addr} (hR : Reach s held loose) (hR' : Reach s' (plus held l) loose) (S : Step s s') : Keeps s s' held :=
  fun a _ h0 hb => keep hR hR' S hb (le_plus held l a h0)

theorem count_ne {cs : List Char} (hne : cs ≠ []) : ∃ k, cs.length = k + 1 := by
  cases cs with
  | nil => exact absurd rfl hne
  | cons c cs => exact ⟨cs.length, rfl⟩

/-- C68: an HTML document creates an element for every name that is not empty.  Its name is the upper case of the given one, its type that of the name
in html_elements.h with these bytes; it has no namespace and no prefix.  The element has one reference on its name, and nothing else changed. -/
theorem C68_create {cs : List Char} (hR : Reach s held loose) (hD : Ready s held h) (hroom : Room held) (hb : strBytes s tag = .ok t)
    (hh : Holds ⟨t, false⟩ cs) (hne : cs ≠ []) : ∃ s' e, createElement s h tag = .ok (s', .ok e) ∧ Reach s' (plus held e.refs) loose ∧
    Keeps s s' held ∧ strBytes s' e.name = .ok (t.map asciiUpper) ∧ e.type = typeOf (t.map asciiUpper) ∧ e.ns = none ∧ e.pfx = none := by
  obtain ⟨k, hk⟩ := count_ne hne
  obtain ⟨s', e, e1, R, S, B, _, T, N, P⟩ := internal_run (ns := none) (pfx := none) hR hD (fun a => by have := hroom a; omega) hb
    ((Str.length_holds hh).trans (by rw [hk])) (fun _ h => nomatch h) (fun _ h => nomatch h) (show argBytes s none = .ok [] from rfl) (by decide +kernel)
  exact ⟨s', e, e1, R, keeps_of hR R S, B, T, N, P⟩

/-- C68: the empty name, and one that is not UTF-8, is refused; nothing changes. -/
theorem C68_refused {ns pfx : Option Addr} (hb : strBytes s tag = .ok t) (h0 : t = [] ∨ Str.utf8Length t = none) :
    createInternal s h tag ns pfx = .ok (s, .error .invalidCharacter) := by
  have hl : Str.length (some ⟨t, false⟩) = .ok 0 := by
    rcases h0 with rfl | h0
    · decide +kernel
    · simp only [Str.length, h0]
  unfold createInternal
  rw [hb, Out.bind_ok, hl, Out.bind_ok, if_pos rfl]

/-- C68: destroying the element gives back exactly what creating it took. -/
theorem C68_release {e : Elem} (hR : Reach s (plus held e.refs) loose) : ∃ s', elemFinalise s e = .ok s' ∧ Reach s' held loose ∧
    (∀ a t, 0 < held a → strBytes s a = .ok t → strBytes s' a = .ok t) := by
  obtain ⟨s', e1, R, S⟩ := elemFinalise_run hR
  exact ⟨s', e1, R, fun a t h0 hb => keep hR R S hb h0⟩

/-! ## Qualified names -/

theorem substr_run (hR : Reach s held loose) {d : DStr} {i j : Nat} (hd : Str.substr (some ⟨t, false⟩) i j = .ok d) :
    ∃ s', strSubstr s t i j = .ok (s', .ok s.fresh) ∧ Reach s' (plus held [s.fresh]) loose ∧ Step s s' ∧ strBytes s' s.fresh = .ok d.data ∧
      held s.fresh = 0 := by
  obtain ⟨⟨s', e, R, S, B, h0⟩, _⟩ := new_run hR d.data
  refine ⟨s', ?_, R, S, B, h0⟩
  unfold strSubstr
  rw [hd]
  simp only [e, Out.bind_ok]

/-- The prefix and the local name, each with a reference. -/
theorem split_run {cs : List Char} (hR : Reach s held loose) (hroom : Room held) (hb : strBytes s q = .ok t) (hh : Holds ⟨t, false⟩ cs) (hd : Decodable cs) :
    (':' ∉ cs ∧ ∃ s', split s q = .ok (s', .ok (none, q)) ∧ Reach s' (plus held [q]) loose ∧ Step s s') ∨
    (∃ ps ls, cs = ps ++ ':' :: ls ∧ ':' ∉ ps ∧ ∃ s' p l, split s q = .ok (s', .ok (some p, l)) ∧ Reach s' (plus held [p, l]) loose ∧ Step s s' ∧
      strBytes s' p = .ok (utf8 ps) ∧ strBytes s' l = .ok (utf8 ls) ∧ Holds ⟨utf8 ls, false⟩ ls ∧ held p = 0 ∧ held l = 0 ∧ p ≠ l) := by
  have h0 : 0 < held q := held_of_bytes hR hb
  rcases Names.index_cases hh hd with ⟨h1, h2⟩ | ⟨ps, ls, h1, rfl, h3, h4⟩
  · obtain ⟨s', e, R, S⟩ := ref_run hR h0 (by have := hroom q; omega)
    refine .inl ⟨h2, s', ?_, R, S⟩
    unfold split
    rw [hb, Out.bind_ok, h1, Out.bind_ok, if_pos rfl, e, Out.bind_ok]
  · obtain ⟨dp, dl, g1, hp, g2, hl⟩ := Names.split_parts hh
    obtain ⟨s1, e1, R1, S1, B1, z1⟩ := substr_run hR g1
    obtain ⟨s2, e2, R2, S2, B2, z2⟩ := substr_run R1 g2
    rw [plus_plus] at R2
    have hz : held s1.fresh = 0 ∧ s.fresh ≠ s1.fresh := by
      simp only [plus, List.count_singleton] at z2
      by_cases hx : s.fresh = s1.fresh
      · rw [if_pos (by simpa using hx)] at z2; omega
      · exact ⟨by omega, hx⟩
    refine .inr ⟨ps, ls, rfl, h3, s2, s.fresh, s1.fresh, ?_, R2, S1.trans hR.inv S2, ?_, ?_, ?_, z1, hz⟩
    · unfold split
      rw [hb, Out.bind_ok, h1, Out.bind_ok, if_neg h4, e1]
      simp only [Out.bind_ok, splitLocal, Str.length_holds hh, e2]
    · rw [← hp.data]
      exact keep R1 R2 S2 B1 (by simp [plus])
    · rw [B2, hl.data]
    · exact ⟨rfl, hl.small⟩

/-- What is claimed of the element for a qualified name: the upper case of the local part as name, the namespace as given, the prefix. -/
structure Made (s' : Mem) (ns : Option Addr) (ps : Option (List Char)) (ls : List Char) (e : Elem) : Prop where
  name : strBytes s' e.name = .ok ((utf8 ls).map asciiUpper)
  type : e.type = typeOf ((utf8 ls).map asciiUpper)
  ns : e.ns = ns
  noPrefix : ps = none → e.pfx = none
  pfx : ∀ p, ps = some p → ∃ a, e.pfx = some a ∧ strBytes s' a = .ok (utf8 p)

/-- What is after the split: creating, and giving back the two parts. -/
theorem ns_tail {ns pfx : Option Addr} {s1 : Mem} {l : Addr} {ls : List Char} {k : Nat} (hR : Reach s held loose) (hroom : Room held) (hD : Ready s held h)
    (e1 : split s q = .ok (s1, .ok (pfx, l))) (R1 : Reach s1 (plus held (l :: pfx.toList)) loose) (S1 : Step s s1)
    (hl : strBytes s1 l = .ok (utf8 ls)) (hk : Str.length (some ⟨utf8 ls, false⟩) = .ok (k + 1)) (hns : ∀ a ∈ ns, 0 < held a)
    (hv : argBytes s ns = .ok v) (hsvg : v ≠ svgName) : ∃ s' e, createElementNS s h ns q = .ok (s', .ok e) ∧ Reach s' (plus held e.refs) loose ∧
    Step s s' ∧ Step s1 s' ∧ strBytes s' e.name = .ok ((utf8 ls).map asciiUpper) ∧ e.type = typeOf ((utf8 ls).map asciiUpper) ∧ e.ns = ns ∧ e.pfx = pfx := by
  have c1 : ∀ (x : Option Addr) (a : Addr), x.toList.count a ≤ 1 := by
    intro x a; cases x <;> simp [List.count_singleton]; split <;> omega
  have hroom1 : ∀ a, plus held (l :: pfx.toList) a + 6 < 4294967296 := by
    intro a; have := hroom a; have := c1 pfx a
    simp only [plus, List.count_cons]; split <;> omega
  have hv1 : argBytes s1 ns = .ok v := by
    cases ns with
    | none => exact hv
    | some n => exact keep hR R1 S1 hv (le_plus held _ n (hns n rfl))
  obtain ⟨s2, e, e2, R2, S2, B2, _, T2, N2, P2⟩ := internal_run (ns := ns) (pfx := pfx) R1 (hD.keep hR R1 S1 (le_plus held _)) hroom1 hl hk
    (fun a ha => le_plus held _ a (hns a ha)) (fun a ha => by
      have : a ∈ l :: pfx.toList := List.mem_cons_of_mem _ (by rw [Option.mem_toList]; exact ha)
      simp only [plus]; have := List.count_pos_iff.2 this; omega) hv1 hsvg
  rw [plus_plus] at R2
  obtain ⟨s3, e3, R3, S3⟩ := minus_run (l := pfx.toList ++ e.refs) R2
  obtain ⟨s4, e4, R4, S4⟩ := unrefOpt_run R3
  have S14 : Step s1 s4 := S2.trans R1.inv (S3.trans R2.inv S4)
  refine ⟨s4, e, ?_, R4, S1.trans hR.inv S14, S14, ?_, T2, N2, P2⟩
  · unfold createElementNS
    rw [e1]
    simp only [Out.bind_ok, e2, e3, e4]
  · exact keep R2 R4 (S3.trans R2.inv S4) B2 (by simp [plus, Elem.refs])

/-- C68 for `createElementNS`, for a qualified name whose local part is not empty and a namespace other than that of SVG (see `C68_svg_violated`). -/
theorem C68_create_ns_partial {ns : Option Addr} {cs : List Char} (hR : Reach s held loose) (hD : Ready s held h) (hroom : Room held)
    (hb : strBytes s q = .ok t) (hh : Holds ⟨t, false⟩ cs) (hd : Decodable cs) (hns : ∀ a ∈ ns, 0 < held a) (hv : argBytes s ns = .ok v)
    (hsvg : v ≠ svgName) (ps : Option (List Char)) (ls : List Char) (hls : ls ≠ [])
    (hcs : (ps = none ∧ ':' ∉ cs ∧ ls = cs) ∨ (∃ p, ps = some p ∧ cs = p ++ ':' :: ls ∧ ':' ∉ p)) :
    ∃ s' e, createElementNS s h ns q = .ok (s', .ok e) ∧ Reach s' (plus held e.refs) loose ∧ Keeps s s' held ∧ Made s' ns ps ls e := by
  obtain ⟨k, hk⟩ := count_ne hls
  rcases split_run hR hroom hb hh hd with ⟨hno, s1, e1, R1, S1⟩ | ⟨p, l, ec, hp, s1, pa, la, e1, R1, S1, B1, B2, H2, _⟩
  · rcases hcs with ⟨rfl, _, rfl⟩ | ⟨p, _, rfl, _⟩
    · obtain ⟨s', e, e2, R, S, _, B, T, N, P⟩ := ns_tail (pfx := none) (ls := ls) hR hroom hD e1 R1 S1
        (by rw [keep hR R1 S1 hb (by simp [plus])]; exact congrArg Out.ok hh.data)
        ((Str.length_holds ⟨rfl, hh.small⟩).trans (by rw [hk])) hns hv hsvg
      exact ⟨s', e, e2, R, keeps_of hR R S, B, T, N, fun _ => P, fun _ h => nomatch h⟩
    · exact absurd (List.mem_append_right _ (List.mem_cons_self ..)) hno
  · rcases hcs with ⟨rfl, hno, rfl⟩ | ⟨p', rfl, ec', hp'⟩
    · exact absurd (ec ▸ List.mem_append_right _ (List.mem_cons_self ..)) hno
    · obtain ⟨e3, e4⟩ : p = p' ∧ l = ls := by
        have hx := ec.symm.trans ec'
        clear ec ec' B1 B2 H2 hls hk hh
        induction p generalizing p' with
        | nil =>
          cases p' with
          | nil => exact ⟨rfl, by simpa using hx⟩
          | cons c p' => simp only [List.nil_append, List.cons_append, List.cons.injEq] at hx; exact absurd (hx.1 ▸ List.mem_cons_self ..) hp'
        | cons c p ih =>
          cases p' with
          | nil => simp only [List.nil_append, List.cons_append, List.cons.injEq] at hx; exact absurd (hx.1 ▸ List.mem_cons_self ..) hp
          | cons c' p' =>
            simp only [List.cons_append, List.cons.injEq] at hx
            obtain ⟨i1, i2⟩ := ih (fun h => hp (List.mem_cons_of_mem _ h)) p' (fun h => hp' (List.mem_cons_of_mem _ h)) hx.2
            exact ⟨by rw [hx.1, i1], i2⟩
      subst e3; subst e4
      have hperm : plus held [pa, la] = plus held (la :: (some pa).toList) := plus_perm (List.Perm.swap ..)
      rw [hperm] at R1
      obtain ⟨s', e, e2, R, S, S', B, T, N, P⟩ := ns_tail (pfx := some pa) (ls := l) hR hroom hD e1 R1 S1 B2
        ((Str.length_holds H2).trans (by rw [hk])) hns hv hsvg
      refine ⟨s', e, e2, R, keeps_of hR R S, B, T, N, fun h => (nomatch h), fun x hx => ?_⟩
      cases hx
      refine ⟨pa, P, keep R1 R S' B1 ?_⟩
      have : pa ∈ e.refs := by simp [Elem.refs, P]
      simp only [plus]; have := List.count_pos_iff.2 this; omega

/-- C68: a qualified name that ends with its only colon is refused, and both parts are given back. -/
theorem C68_ns_refused {ns : Option Addr} {p : List Char} (hR : Reach s held loose) (hD : Ready s held h) (hroom : Room held)
    (hb : strBytes s q = .ok t) (hh : Holds ⟨t, false⟩ (p ++ [':'])) (hd : Decodable (p ++ [':'])) (hp : ':' ∉ p) :
    ∃ s', createElementNS s h ns q = .ok (s', .error .invalidCharacter) ∧ Reach s' held loose := by
  rcases split_run hR hroom hb hh hd with ⟨hno, _⟩ | ⟨p', l, ec, hp', s1, pa, la, e1, R1, S1, B1, B2, H2, _⟩
  · exact absurd (List.mem_append_right _ (List.mem_cons_self ..)) hno
  · have hl : l = [] := by
      cases l with
      | nil => rfl
      | cons c l =>
        have h1 := congrArg (List.getLast? ·) ec
        have h2 := congrArg (List.filter (· = ':')) ec
        have h3 : p.filter (· = ':') = [] := List.filter_eq_nil_iff.2 fun x hx => by simp; rintro rfl; exact hp hx
        have h4 : p'.filter (· = ':') = [] := List.filter_eq_nil_iff.2 fun x hx => by simp; rintro rfl; exact hp' hx
        simp [List.filter_append, h3, h4] at h2
        have h5 : (c :: l).getLast? = some ':' := by
          have : (p ++ [':']).getLast? = some ':' := by simp
          rw [ec] at this
          simpa [List.getLast?_append] using this
        have h6 : ':' ∈ c :: l := List.mem_of_getLast? h5
        have h7 : ':' ∈ (c :: l).filter (· = ':') := List.mem_filter.2 ⟨h6, by simp⟩
        rcases List.mem_cons.1 h6 with h8 | h8
        · exact absurd h8.symm h2.1
        · exact absurd rfl (h2.2 _ h8)
    subst hl
    have e2 := C68_refused (s := s1) (h := h) (ns := ns) (pfx := some pa) (tag := la) (t := utf8 []) B2 (Or.inl rfl)
    have hperm : plus held [pa, la] = plus held (la :: [pa]) := plus_perm (List.Perm.swap ..)
    rw [hperm] at R1
    obtain ⟨s2, e3, R2, _⟩ := minus_run R1
    obtain ⟨s3, e4, R3, _⟩ := minus_run R2
    rw [plus_nil] at R3
    refine ⟨s3, ?_, R3⟩
    unfold createElementNS
    rw [e1]
    simp only [Out.bind_ok, e2, e3, unrefOpt, e4]

theorem bind_inv {α β : Type} {x : Out α} {f : α → Out β} {y : β} (hx : (x >>= f) = .ok y) : ∃ a, x = .ok a ∧ f a = .ok y := by
  cases x with
  | ok a => exact ⟨a, rfl, hx⟩
  | exc e => cases hx
  | fault f => cases hx

theorem internal_error {ns pfx : Option Addr} {e : Exc} (hc : createInternal s h tag ns pfx = .ok (s', .error e)) : s' = s := by
  unfold createInternal at hc
  obtain ⟨_, _, hc⟩ := bind_inv hc
  obtain ⟨_, _, hc⟩ := bind_inv hc
  split at hc
  · cases hc; rfl
  · obtain ⟨_, _, hc⟩ := bind_inv hc
    obtain ⟨⟨_, _⟩, _, hc⟩ := bind_inv hc
    obtain ⟨_, _, hc⟩ := bind_inv hc
    obtain ⟨⟨_, _⟩, _, hc⟩ := bind_inv hc
    obtain ⟨_, _, hc⟩ := bind_inv hc
    cases hc

/-- What is held after `strSubstr`. -/
def AfterSubstr (s s' : Mem) (held loose : Addr → Nat) : Except Exc Addr → Prop
  | .ok a => Reach s' (plus held [a]) loose
  | .error _ => s' = s

theorem substr_any (hR : Reach s held loose) {i j : Nat} {r : Except Exc Addr} (hc : strSubstr s t i j = .ok (s', r)) :
    AfterSubstr s s' held loose r := by
  unfold strSubstr at hc
  split at hc
  · rename_i d hd
    obtain ⟨⟨s1, e, R, _⟩, _⟩ := new_run hR d.data
    rw [e] at hc
    cases hc
    exact R
  · cases hc; rfl
  · cases hc

/-- What is held after `split`. -/
def AfterSplit (s' : Mem) (held loose : Addr → Nat) : Except Exc (Option Addr × Addr) → Prop
  | .ok (p, l) => Reach s' (plus held (l :: p.toList)) loose
  | .error _ => Reach s' held loose

theorem split_any (hR : Reach s held loose) (hroom : Room held) {r : Except Exc (Option Addr × Addr)} (hc : split s q = .ok (s', r)) :
    AfterSplit s' held loose r := by
  unfold split at hc
  obtain ⟨t, hb, hc⟩ := bind_inv hc
  obtain ⟨colon, _, hc⟩ := bind_inv hc
  split at hc
  · obtain ⟨s1, e1, R1, _⟩ := ref_run hR (held_of_bytes hR hb) (by have := hroom q; omega)
    rw [e1] at hc
    cases hc
    exact R1
  · obtain ⟨⟨s1, r1⟩, e1, hc⟩ := bind_inv hc
    have h1 := substr_any hR e1
    cases r1 with
    | error x => cases hc; cases h1; exact hR
    | ok p =>
      have h1 : Reach s1 (plus held [p]) loose := h1
      have hc : splitLocal s1 t colon p = .ok (s', r) := hc
      unfold splitLocal at hc
      obtain ⟨n, _, hc⟩ := bind_inv hc
      obtain ⟨⟨s2, r2⟩, e2, hd⟩ := bind_inv hc
      have h2 := substr_any h1 e2
      cases r2 with
      | error x =>
        obtain rfl : s2 = s1 := h2
        have h1 : Reach s2 (plus held [p]) loose := h1
        obtain ⟨s3, e3, R3, _⟩ := minus_run h1
        obtain ⟨s4, e4, hf⟩ := bind_inv hd
        rw [e3] at e4
        cases e4
        cases hf
        rw [plus_nil] at R3
        exact R3
      | ok l =>
        cases hd
        have h2 : Reach s' (plus (plus held [p]) [l]) loose := h2
        rw [plus_plus] at h2
        show Reach s' (plus held [l, p]) loose
        rw [plus_perm (List.Perm.swap ..)]
        exact h2

/-- C68: whatever bytes the qualified name has, when creating an element with it fails, every reference taken on the way is given back. -/
theorem C68_ns_error {ns : Option Addr} {e : Exc} (hR : Reach s held loose) (hroom : Room held)
    (hc : createElementNS s h ns q = .ok (s', .error e)) : Reach s' held loose := by
  unfold createElementNS at hc
  obtain ⟨⟨s1, r⟩, e1, hc⟩ := bind_inv hc
  have h1 := split_any hR hroom e1
  rcases r with x | ⟨p, l⟩
  · cases hc; exact h1
  · have h1 : Reach s1 (plus held (l :: p.toList)) loose := h1
    obtain ⟨⟨s2, r2⟩, e2, hc⟩ := bind_inv hc
    obtain ⟨s3, e3, hc⟩ := bind_inv hc
    obtain ⟨s4, e4, hc⟩ := bind_inv hc
    cases hc
    obtain rfl := internal_error e2
    obtain ⟨s3', e3', R3, _⟩ := minus_run h1
    rw [e3'] at e3; cases e3
    have R4 : Reach s3 (plus held (p.toList ++ [])) loose := by rw [List.append_nil]; exact R3
    obtain ⟨s4', e4', R5, _⟩ := unrefOpt_run R4
    rw [e4'] at e4; cases e4
    rwa [plus_nil] at R5

/-- The local part is not UTF-8: the prefix has been made and is given back. -/
example : ∃ s held loose q, Reach s held loose ∧ Room held ∧ strBytes s q = .ok [97, 58, 255] ∧
    ∀ h ns, ∃ s', createElementNS s h ns q = .ok (s', .error .noMem) := by
  have R1 := Reach.start.call (c := .create [97, 58, 255]) trivial rfl
  have hb : strBytes ((strCreate Mem.empty [97, 58, 255]) |> fun r => match r with | .ok p => p.1 | _ => Mem.empty) 0 = .ok [97, 58, 255] := by decide +kernel
  have hs : ((split ((strCreate Mem.empty [97, 58, 255]) |> fun r => match r with | .ok p => p.1 | _ => Mem.empty) 0) |> fun r => match r with
      | .ok (_, .error .noMem) => true | _ => false) = true := by decide +kernel
  refine ⟨_, _, _, 0, R1, fun a => ?_, hb, fun h ns => ?_⟩
  · show upd (fun _ => 0) 0 1 a + 8 < 4294967296
    unfold upd; split_ifs <;> simp
  · dsimp only at hs
    split at hs
    · rename_i s' he
      refine ⟨s', ?_⟩
      unfold createElementNS
      exact (congrArg (· >>= _) he).trans rfl
    · cases hs

end Dom.Html.Create
