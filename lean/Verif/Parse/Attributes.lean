import Verif.Attr.Violations
/-!
# C64: the attributes the HTML parser binding adds, bindings/hubbub/parser.c
-/
set_option linter.unusedSimpArgs false
namespace Dom.Parse
open Dom.Attr
open Dom.Str (DStr Bytes)

/-- An attribute as the parser gives it (`hubbub_attribute`): the namespace, `none` for `HUBBUB_NS_NULL`, the name and the value. -/
structure Given where
  ns : Option DStr := none
  name : DStr
  value : DStr

/-- An exception is reported and the loop goes on, bindings/hubbub/parser.c:605-609 and 617-621. -/
def ignored (m : M Unit) : M Unit := fun s =>
  match m s with
  | .ok s' a => .ok s' a
  | .exc s' _ => .ok s' ()
  | .fault f => .fault f

/-- One attribute, bindings/hubbub/parser.c:599-622. -/
def addOne (e : Addr) (g : Given) : M Unit :=
  match g.ns with
  | none => setAttribute e g.name (some g.value)
  | some n => setAttributeNS e (some n) g.name (some g.value)

/-- `add_attributes`, bindings/hubbub/parser.c:575-632; creating the strings fails only when memory runs out. -/
def addAttributes (e : Addr) : List Given → M Unit
  | [] => pure ()
  | g :: gs => do
      ignored (addOne e g)
      addAttributes e gs

/-! ## Specification -/

/-- The name an element of this kind stores: HTML elements (but for SVG elements with unknown tags) fold it. -/
def stored (el : Elem) (name : DStr) : Bytes := if folds el then name.data.map Str.asciiLower else name.data

/-- The value that is given last for a name that can be an attribute name. -/
def lastGiven (el : Elem) (gs : List Given) (name : Bytes) : Option Bytes :=
  (gs.reverse.find? fun g => Names.validateAttributeName (some ⟨stored el g.name, false⟩) && stored el g.name == name).map fun g => g.value.data

/-- All attributes of the element can be given string values. -/
def AllWritable (s : Mem) (ls : Addr → List Addr) (e : Addr) : Prop := ∀ k ∈ view s (ls e), ∀ n, s.attrs k.attr = some n → Writable n

variable {s s' : Mem} {ls ls' : Addr → List Addr} {e : Addr} {el : Elem}

theorem lastGiven_cons (el : Elem) (g : Given) (gs : List Given) (name : Bytes) :
    lastGiven el (g :: gs) name = (lastGiven el gs name).or
      (if Names.validateAttributeName (some ⟨stored el g.name, false⟩) && stored el g.name == name then some g.value.data else none) := by
  unfold lastGiven
  rw [List.reverse_cons, List.find?_append, Option.map_or]
  congr 1
  rw [List.find?_cons]
  cases Names.validateAttributeName (some ⟨stored el g.name, false⟩) && stored el g.name == name <;> rfl

/-- What a call leaves behind at the element. -/
structure After1 (s : Mem) (ls : Addr → List Addr) (e : Addr) (el : Elem) (given : Bytes → Option Bytes) (s' : Mem) (ls' : Addr → List Addr) : Prop where
  inv : Inv s' ls'
  elem : ∃ el', s'.elems e = some el' ∧ el'.ro = false ∧ (∀ n, stored el' n = stored el n)
  writable : AllWritable s' ls' e
  reads : ∀ name, reading s' (view s' (ls' e)) none name = (match given name.data with
    | some v => some (some v)
    | none => reading s (view s (ls e)) none name)
  others : ∀ e' ns name, e' ≠ e → reading s' (view s' (ls' e')) ns name = reading s (view s (ls e')) ns name

theorem stored_congr {el el' : Elem} (h : folds el' = folds el) (n : DStr) : stored el' n = stored el n := by unfold stored; rw [h]

theorem lookup_data {l : List Entry} {a b : DStr} (h : a.data = b.data) : lookup l none a = lookup l none b := by
  unfold lookup
  congr 1
  funext en
  have : Fits none a en ↔ Fits none b en := by unfold Fits; rw [h]
  exact decide_eq_decide.2 this

theorem valid_data {a b : DStr} (h : a.data = b.data) : Names.validateAttributeName (some a) = Names.validateAttributeName (some b) := by
  cases a; cases b; dsimp only at h; subst h; rfl

/-- One attribute without namespace. -/
theorem addOne_run (hI : Inv s ls) (he : s.elems e = some el) (hro : el.ro = false) (hw : AllWritable s ls e) (name v : DStr) :
    ∃ s' ls', ignored (setAttribute e name (some v)) s = .ok s' () ∧
      After1 s ls e el (fun b => if Names.validateAttributeName (some ⟨stored el name, false⟩) && stored el name == b then some v.data else none) s' ls' := by
  obtain ⟨low, hlow, hdata⟩ : ∃ low : DStr, foldName e name s = .ok s low ∧ low.data = stored el name := by
    unfold stored
    cases hf : folds el with
    | true =>
      obtain ⟨low, h1, _, h3⟩ := foldName_html he hf name
      exact ⟨low, h1, by rw [h3]; rfl⟩
    | false => exact ⟨name, foldName_other he hf name, rfl⟩
  have hvd : Names.validateAttributeName (some low) = Names.validateAttributeName (some ⟨stored el name, false⟩) := valid_data hdata
  have hrun : setAttribute e name (some v) s = setAttr e none low (some v) s := by
    unfold setAttribute; rw [bind_ok hlow]
  cases hv : Names.validateAttributeName (some ⟨stored el name, false⟩) with
  | false =>
    refine ⟨s, ls, ?_, hI, ⟨el, he, hro, fun _ => rfl⟩, hw, fun n => ?_, fun _ _ _ _ => rfl⟩
    · unfold ignored
      rw [hrun]
      unfold setAttr
      rw [hvd, hv]
      rfl
    · simp
  | true =>
    rw [hv] at hvd
    have hreads : ∀ {s' : Mem} {ls' : Addr → List Addr} {en' : Entry}, reading s' (view s' (ls' e)) none low = some (some (Str.contents (some v))) → en'.name.data = low.data →
        (∀ e' ns' name', ¬ (e' = e ∧ Fits ns' name' en') → reading s' (view s' (ls' e')) ns' name' = reading s (view s (ls e')) ns' name') →
        ∀ n : DStr, reading s' (view s' (ls' e)) none n = (match (if true && stored el name == n.data then some v.data else none) with
          | some v => some (some v)
          | none => reading s (view s (ls e)) none n) := by
      intro s' ls' en' h1 h2 h3 n
      by_cases hn : stored el name = n.data
      · simp only [hn, beq_self_eq_true, Bool.and_self, if_true]
        rw [show some (some v.data) = reading s' (view s' (ls' e)) none low from h1.symm]
        unfold reading
        rw [lookup_data (show n.data = low.data by rw [hdata, hn])]
      · have : (stored el name == n.data) = false := by simpa using hn
        simp only [this, Bool.and_false, Bool.false_eq_true, if_false]
        refine h3 e none n ?_
        rintro ⟨_, _, h⟩
        rw [h2, hdata] at h
        exact hn h.symm
    obtain ⟨s', ls', en', h1, h2, h3, h4, h5, h6⟩ := C36_set hI he hro none low (some v) hvd (fun en n hl hn => hw en (lookup_mem hl).1 n hn)
    refine ⟨s', ls', ?_, h2, ?_, ?_, ?_, ?_⟩
    · unfold ignored; rw [hrun, h1]
    · cases hl : lookup (view s (ls e)) none low with
      | some en =>
        obtain ⟨_, _, n, _, _, _, hn, _⟩ := view_mem hI (lookup_mem hl).1
        obtain ⟨w1, w2⟩ := hw en (lookup_mem hl).1 n hn
        obtain ⟨old, _, h7⟩ := setAttr_existing hI he hro (some v) hvd hl hn w1 w2
        rw [h7] at h1; cases h1
        exact ⟨el, he, hro, fun _ => rfl⟩
      | none =>
        obtain ⟨s2, c, h7, _, h8, _⟩ := setAttr_new hI he hro (some v) hvd hl
        rw [h7] at h1; cases h1
        rw [h8.elem]
        exact ⟨_, if_pos rfl, hro, stored_congr rfl⟩
    · intro k hk n hn
      cases hl : lookup (view s (ls e)) none low with
      | some en =>
        obtain ⟨_, _, n0, _, _, _, hn0, _⟩ := view_mem hI (lookup_mem hl).1
        obtain ⟨w1, w2⟩ := hw en (lookup_mem hl).1 n0 hn0
        obtain ⟨old, _, h7⟩ := setAttr_existing hI he hro (some v) hvd hl hn0 w1 w2
        rw [h7] at h1; cases h1
        rw [hl] at h6
        rw [h6.2] at hk
        simp only [Mem.addLog, Mem.setA] at hn
        by_cases hka : k.attr = en.attr
        · rw [if_pos hka] at hn
          cases hn
          exact ⟨w1, rfl⟩
        · rw [if_neg hka] at hn
          exact hw k hk n hn
      | none =>
        obtain ⟨s2, c, h7, hI2, h8, h9, _⟩ := setAttr_new hI he hro (some v) hvd hl
        rw [h7] at h1; cases h1
        have hls := h2.unique hI2
        subst hls
        rw [h8.view hI e, if_pos rfl] at hk
        rw [h9] at hn
        by_cases hka : k.attr = s.fresh
        · simp only [hka, if_true, Option.some.injEq] at hn
          subst hn
          exact ⟨rfl, rfl⟩
        · simp only [hka, if_false] at hn
          rw [List.mem_append, List.mem_singleton] at hk
          rcases hk with hk | hk
          · exact hw k hk n hn
          · exact absurd (by rw [hk]) hka
    · refine hreads h3 ?_ h4
      cases hl : lookup (view s (ls e)) none low with
      | some en =>
        rw [hl] at h6
        rw [h6.1]
        exact (lookup_mem hl).2.2.symm
      | none => rw [hl] at h6; rw [h6.1]
    · intro e' ns n hne
      exact h4 e' ns n (fun h => hne h.1)

/-- C64, `add_attributes` (partial).  Attributes without namespace: afterwards a name reads as the value given last for it, under the spelling the
element stores; names not given read as before, and so do all attributes of other elements; attributes whose names are not allowed are skipped.
Missing: attributes with a namespace (those of foreign elements). -/
theorem C64_add_attributes_partial (gs : List Given) : ∀ {s : Mem} {ls : Addr → List Addr} {el : Elem}, (∀ g ∈ gs, g.ns = none) → Inv s ls →
    s.elems e = some el → el.ro = false → AllWritable s ls e →
    ∃ s' ls', addAttributes e gs s = .ok s' () ∧ Inv s' ls' ∧
      (∀ name, reading s' (view s' (ls' e)) none name = (match lastGiven el gs name.data with
        | some v => some (some v)
        | none => reading s (view s (ls e)) none name)) ∧
      (∀ e' ns name, e' ≠ e → reading s' (view s' (ls' e')) ns name = reading s (view s (ls e')) ns name) := by
  induction gs with
  | nil =>
    intro s ls el _ hI he hro hw
    exact ⟨s, ls, rfl, hI, fun _ => rfl, fun _ _ _ _ => rfl⟩
  | cons g gs ih =>
    intro s ls el hns hI he hro hw
    obtain ⟨s1, ls1, h1, A⟩ := addOne_run hI he hro hw g.name g.value
    obtain ⟨el1, e1, e2, e3⟩ := A.elem
    obtain ⟨s2, ls2, h2, h3, h4, h5⟩ := ih (fun g hg => hns g (by simp [hg])) A.inv e1 e2 A.writable
    have hlast : ∀ b, lastGiven el1 gs b = lastGiven el gs b := by
      intro b; unfold lastGiven; simp only [e3]
    refine ⟨s2, ls2, ?_, h3, ?_, ?_⟩
    · unfold addAttributes
      have : addOne e g = setAttribute e g.name (some g.value) := by unfold addOne; rw [hns g (by simp)]
      rw [this, bind_ok h1]
      exact h2
    · intro name
      rw [h4 name, lastGiven_cons, hlast]
      cases lastGiven el gs name.data with
      | some v => rfl
      | none => rw [A.reads name]; rfl
    · intro e' ns name hne
      rw [h5 e' ns name hne, A.others e' ns name hne]

/-- The hypotheses are met, by an HTML element with the attribute `a` that is given `A` = 1, an impossible name, `b` = 2 and `a` = 3. -/
example : ∃ s ls el, Reach s ∧ Inv s ls ∧ s.elems 0 = some el ∧ el.ro = false ∧ AllWritable s ls 0 ∧ el.html = true ∧
    ∃ s', (do addAttributes 0 [{ name := str "A", value := str "1" }, { name := str " ", value := str "x" }, { name := str "b", value := str "2" },
      { name := str "a", value := str "3" }]; getAttribute 0 (str "A") : M (Option DStr)) s = .ok s' (some (str "3")) := by
  obtain ⟨s, h1, h2⟩ := exists_reach [.newElem 0 { owner := 0, html := true }, .set 0 none (str "a") (some (str "0"))]
    (fun s => (s.elems 0).any (fun el => !el.ro && el.html) &&
      ((entriesOf s 0).all fun k => (s.attrs k.attr).all fun n => !n.readOnly && !n.typed) &&
      ((do addAttributes 0 [{ name := str "A", value := str "1" }, { name := str " ", value := str "x" }, { name := str "b", value := str "2" },
        { name := str "a", value := str "3" }]; getAttribute 0 (str "A") : M (Option DStr)) s).gives (some (str "3"))) (by decide +kernel)
  simp only [Bool.and_eq_true] at h2
  obtain ⟨⟨h3, h4⟩, h5⟩ := h2
  obtain ⟨ls, hg⟩ := h1.good
  obtain ⟨s', h6⟩ := Res.of_gives h5
  cases he : s.elems 0 with
  | none => rw [he] at h3; cases h3
  | some el =>
    rw [he] at h3
    simp only [Option.any_some, Bool.and_eq_true, Bool.not_eq_true'] at h3
    refine ⟨s, ls, el, h1, hg.inv, he, h3.1, ?_, h3.2, s', h6⟩
    intro k hk n hn
    rw [← entriesOf_eq hg.inv] at hk
    have := List.all_eq_true.1 h4 k hk
    rw [hn] at this
    simpa [Writable] using this

end Dom.Parse
