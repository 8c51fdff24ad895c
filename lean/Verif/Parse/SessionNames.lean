import Verif.Parse.SessionCases
/-!
# C80: the names that doctypes and attributes get from the HTML parser

The names are those in the source text: the name of a doctype ends before a NUL, and the name of an attribute is put into lower case
unless the element is an SVG element whose tag is not one of HTML; an attribute with a namespace is found under what follows the colon of its name.
-/
set_option linter.unusedSimpArgs false
set_option linter.unusedVariables false
attribute [-simp] String.length_utf8EncodeChar
namespace Dom.Hubbub
open Dom.Tree Dom.Parse
open Dom.Str (DStr Bytes Holds Decodable)

variable {w w' : World} {ch : Children} {e x : NodeId} {en : Node}

/-! ## Doctypes -/

theorem cut_spec {a rest : Bytes} (ha : 0 ∉ a) (hr : rest = [] ∨ ∃ r, rest = 0 :: r) : cut (a ++ rest) = a := by
  unfold cut
  rw [List.takeWhile_append_of_pos (by intro b hb; simp; rintro rfl; exact ha hb)]
  rcases hr with rfl | ⟨r, rfl⟩ <;> simp

/-- **C80**: the document type that Hubbub gets is a new node; its name is what stands before the first NUL of the name in the source text (`rest` is empty or begins with it).
The public and the system identifier are not part of the tree model. -/
theorem C80_doctype_name (S : Sound w ch) {name a rest : Bytes} (hn : name = a ++ rest) (ha : 0 ∉ a) (hr : rest = [] ∨ ∃ r, rest = 0 :: r)
    (h : makeDoctype name w = .ok w' (.done, some x)) :
    w.nodes x = none ∧ ∃ n s, w'.nodes x = some n ∧ n.type = .doctype ∧ n.name = some s ∧ s.data = a := by
  subst hn
  unfold makeDoctype at h
  rw [cut_spec ha hr] at h
  cases hs : Names.splitQName (Str.create a) with
  | fault f => exact absurd hs (calm_split _ f)
  | exc y =>
    rw [made_exc (w' := w) (y := y) (by unfold newDoctype; rw [hs]; rfl)] at h
    cases h
  | ok pl =>
    rw [made_ok (w' := w.add (newNode none .doctype (some (Str.create a)) none)) (x := w.fresh) (by
      unfold newDoctype
      rw [hs, liftOut_ok rfl, createDoctype_run])] at h
    cases h
    exact ⟨fresh_dead S.wf.toCore, _, _, add_new _, rfl, rfl, rfl⟩

/-- The doctype `html` followed by a NUL and more. -/
example : ∃ w ch w' x, Sound w ch ∧ makeDoctype [104, 116, 109, 108, 0, 120] w = .ok w' (.done, some x) :=
  ⟨_, _, _, _, Sound.empty, made_ok (by
    unfold newDoctype
    rw [show Names.splitQName (Str.create (cut [104, 116, 109, 108, 0, 120])) = .ok (none, Str.create [104, 116, 109, 108]) by decide +kernel, liftOut_ok rfl, createDoctype_run])⟩

/-! ## Attributes -/

/-- The element is an SVG element whose tag is not one of HTML (html_elements.h). -/
def Foreign (n : Node) : Prop :=
  n.ns.map DStr.data = some Html.Create.svgName ∧ ∃ l, n.name = some l ∧ ∀ t ∈ Html.Create.tags, Html.Create.label t ≠ l.data

theorem folds_iff : folds en = false ↔ Foreign en := by
  unfold folds Foreign
  cases h : en.name with
  | none => simp
  | some l =>
    simp only [isSvg, Bool.or_eq_false_iff, List.any_eq_false, decide_eq_true_eq, Bool.not_eq_false', Option.some.injEq, exists_eq_left']
    exact and_comm

/-- **C80**: an attribute without namespace is afterwards found under its name in lower case, with the given value; for SVG elements whose tag is not one of HTML the name is kept as it is. -/
theorem C80_attribute_name (S : Sound w ch) (he : w.nodes e = some en) (het : en.type = .element) {g : Given} (hg : g.ns = none) (h : addOne e g w = .ok w' ()) {name : DStr}
    (hname : name.data = g.name.map Str.asciiLower ∧ ¬ Foreign en ∨ name.data = g.name ∧ Foreign en) (hi : name.interned = true) :
    ∃ r, getAttr e name none w' = .ok w' (some r) ∧ r.data = g.value := by
  unfold addOne at h
  rw [hg] at h
  dsimp only at h
  rw [get_bind he] at h
  have hx : name = (if folds en then Str.createInterned (g.name.map Str.asciiLower) else Str.createInterned g.name) := by
    obtain ⟨nd, ni⟩ := name
    dsimp only at hi hname
    subst hi
    rcases hname with ⟨h1, h2⟩ | ⟨h1, h2⟩
    · rw [if_pos (by by_contra hf; exact h2 (folds_iff.1 (by simpa using hf))), h1]; rfl
    · rw [if_neg (by rw [folds_iff.2 h2]; simp), h1]; rfl
  rw [← hx] at h
  exact C79_roundtrip S he het h

/-- **C80**: an attribute with a namespace is afterwards found under the part of its name that follows the colon (the whole name if there is none), with the given value. -/
theorem C80_attribute_local (S : Sound w ch) (he : w.nodes e = some en) (het : en.type = .element) {g : Given} {u : DStr} (hg : g.ns = some u)
    {cs ls : List Char} (hh : Holds (Str.create g.name) cs) (hu : Decodable cs) (hl : ':' ∉ cs ∧ ls = cs ∨ ∃ ps, ':' ∉ ps ∧ cs = ps ++ ':' :: ls)
    (h : addOne e g w = .ok w' ()) :
    ∃ name r, name.data = Str.utf8 ls ∧ getAttr e name (some u) w' = .ok w' (some r) ∧ r.data = g.value := by
  have hh' : Holds (Str.createInterned g.name) cs := ⟨hh.data, hh.small⟩
  have key : ∃ p l, Names.splitQName (Str.createInterned g.name) = .ok (p, l) ∧ l.data = Str.utf8 ls := by
    unfold Names.splitQName
    rcases Names.index_cases hh' hu with ⟨h1, h2⟩ | ⟨ps', ls', h1, e, h3, h4⟩
    · rcases hl with ⟨_, rfl⟩ | ⟨ps, _, rfl⟩
      · rw [h1]
        exact ⟨none, _, rfl, hh'.data⟩
      · exact absurd (by simp) h2
    · rcases hl with ⟨h5, _⟩ | ⟨ps, hp, e'⟩
      · exact absurd (by rw [e]; simp) h5
      · have kk : ∀ (a b : List Char), ':' ∉ a → (a ++ ':' :: b).takeWhile (fun c => decide (c ≠ ':')) = a := by
          intro a b ha
          rw [List.takeWhile_append_of_pos (by intro c hc; simp; rintro rfl; exact ha hc)]
          simp
        have hps : ps' = ps := by
          have t1 := congrArg (List.takeWhile (fun c => decide (c ≠ ':'))) (e'.symm.trans e)
          rw [kk ps ls hp, kk ps' ls' h3] at t1
          exact t1.symm
        subst hps
        subst e'
        obtain ⟨a, l, e1, _, e2, hl⟩ := Names.split_parts hh'
        rw [h1]
        simp only [Out.bind_ok, h4, if_false, e1, Str.length_holds hh', e2]
        exact ⟨_, _, rfl, hl.data⟩
  obtain ⟨p, l, hs, hld⟩ := key
  unfold addOne at h
  rw [hg] at h
  dsimp only at h
  unfold setAttributeNS at h
  rw [hs] at h
  cases hv : Names.validateName (some (Str.createInterned g.name)) with
  | false => rw [hv] at h; simp only [Bool.not_false] at h; rw [throwIf_true] at h; cases h
  | true =>
    rw [hv] at h
    simp only [Bool.not_true] at h
    rw [throwIf_false] at h
    cases hq : Names.validateQName (some (Str.createInterned g.name)) (some u) with
    | fault f => rw [hq] at h; cases h
    | exc y => rw [hq] at h; cases h
    | ok a =>
      rw [hq] at h
      have h' : setAttr e l (some u) (some (Str.create g.value)) w = .ok w' () := h
      exact ⟨l, _, hld, (C79_roundtrip S he het h').choose_spec.1, (C79_roundtrip S he het h').choose_spec.2⟩

/-- A check that a run ends without exception. -/
def succeeds {α : Type} : Tree.Res α → Bool
  | .ok _ _ => true
  | _ => false

theorem succeeds_elim {r : Tree.Res Unit} (h : succeeds r = true) : ∃ w', r = .ok w' () := by
  cases r with
  | ok w' a => exact ⟨w', rfl⟩
  | exc _ _ => cases h
  | fault _ => cases h

/-- A `P` element (1) gets the attribute `ID="x"`, which is found under `id`; an SVG element `path` gets `viewBox="x"` and keeps the name; `xlink:href` is found under `href`. -/
example : (∃ w ch en w' r, Sound w ch ∧ w.nodes 1 = some en ∧ ¬ Foreign en ∧ addOne 1 ⟨none, [73, 68], [120]⟩ w = .ok w' () ∧
      getAttr 1 (Str.createInterned [105, 100]) none w' = .ok w' (some r) ∧ r.data = [120]) ∧
    (∃ w ch en w' r, Sound w ch ∧ w.nodes 1 = some en ∧ Foreign en ∧ addOne 1 ⟨none, [118, 66], [120]⟩ w = .ok w' () ∧
      getAttr 1 (Str.createInterned [118, 66]) none w' = .ok w' (some r) ∧ r.data = [120]) ∧
    (∃ w ch w' name r, Sound w ch ∧ addOne 1 ⟨some (Str.create [104]), [97, 58, 98], [120]⟩ w = .ok w' () ∧
      name.data = Str.utf8 ['b'] ∧ getAttr 1 name (some (Str.create [104])) w' = .ok w' (some r) ∧ r.data = [120]) := by
  have S := Sound.empty.add (WF_createDocument Sound.empty.wf) rfl rfl rfl rfl (fun h => nomatch h)
  have S1 := elem_sound S (add_new _) rfl none none (Str.create [112])
  have S2 := elem_sound S (add_new _) rfl (some svg) none (Str.create [112, 97])
  have F1 : ¬ Foreign (elemNode World.empty.fresh none none (Str.create [112])) := by
    rintro ⟨h, _⟩
    cases h
  have F2 : Foreign (elemNode World.empty.fresh (some svg) none (Str.create [112, 97])) := ⟨rfl, _, rfl, by decide +kernel⟩
  refine ⟨?_, ?_, ?_⟩
  · obtain ⟨w', h⟩ := succeeds_elim (r := addOne 1 ⟨none, [73, 68], [120]⟩ _) (by decide +kernel : succeeds (addOne 1 ⟨none, [73, 68], [120]⟩ ((World.empty.add { type := .document, owner := some World.empty.fresh }).add (elemNode World.empty.fresh none none (Str.create [112])))) = true)
    obtain ⟨r, h1, h2⟩ := C80_attribute_name S1 (add_new _) rfl rfl h (name := Str.createInterned [105, 100]) (.inl ⟨by decide, F1⟩) rfl
    exact ⟨_, _, _, w', r, S1, add_new _, F1, h, h1, h2⟩
  · obtain ⟨w', h⟩ := succeeds_elim (r := addOne 1 ⟨none, [118, 66], [120]⟩ _) (by decide +kernel : succeeds (addOne 1 ⟨none, [118, 66], [120]⟩ ((World.empty.add { type := .document, owner := some World.empty.fresh }).add (elemNode World.empty.fresh (some svg) none (Str.create [112, 97])))) = true)
    obtain ⟨r, h1, h2⟩ := C80_attribute_name S2 (add_new _) rfl rfl h (name := Str.createInterned [118, 66]) (.inr ⟨rfl, F2⟩) rfl
    exact ⟨_, _, _, w', r, S2, add_new _, F2, h, h1, h2⟩
  · obtain ⟨w', h⟩ := succeeds_elim (r := addOne 1 ⟨some (Str.create [104]), [97, 58, 98], [120]⟩ _) (by decide +kernel : succeeds (addOne 1 ⟨some (Str.create [104]), [97, 58, 98], [120]⟩ ((World.empty.add { type := .document, owner := some World.empty.fresh }).add (elemNode World.empty.fresh none none (Str.create [112])))) = true)
    obtain ⟨name, r, h1, h2, h3⟩ := C80_attribute_local S1 (add_new _) rfl rfl (cs := ['a', ':', 'b']) (ls := ['b']) ⟨by decide +kernel, by decide +kernel⟩ (by unfold Decodable; decide +kernel) (.inr ⟨['a'], by decide, rfl⟩) h
    exact ⟨_, _, w', name, r, S1, h, h1, h2, h3⟩

end Dom.Hubbub
