import Verif.Parse.Session
import Verif.Names.Props
import Verif.Tree.LifeViolations
/-!
# The HTML parser binding: what the elements are, and a whole parse
-/
set_option linter.unusedSimpArgs false
set_option linter.unusedVariables false
namespace Dom.Hubbub
open Dom.Tree Dom.Parse
open Dom.Str (DStr Bytes Holds Decodable)

variable {w w' : World} {ch : Children} {x q c p e d j : NodeId} {n dn : Node}

/-! ## The elements -/

theorem isEqual_data (a b : DStr) : Str.isEqual (some a) (some b) = decide (a.data = b.data) := by
  unfold Str.isEqual
  simp only [Option.getD_some]
  by_cases h : a.data = b.data
  · simp [h]
  · split
    · simp [h]
    · split <;> simp [h]

theorem isSvg (ns : Option DStr) : Str.isEqual ns (some svg) = decide (ns.map DStr.data = some Html.Create.svgName) := by
  cases ns with
  | none =>
    rw [show Str.isEqual none (some svg) = false by decide +kernel]
    simp
  | some u =>
    rw [isEqual_data]
    by_cases h : u.data = Html.Create.svgName <;> simp [svg, Str.create, h]

/-- A new element `e` of the document `d` with the local name `l`, put into upper case unless the namespace is that of SVG; nobody but the caller knows it. -/
def Born (w w' : World) (d e : NodeId) (ns : Option DStr) (l : Bytes) (pfx : Option DStr) : Prop :=
  w.nodes e = none ∧ ∃ n name, w'.nodes e = some n ∧ n.type = .element ∧ n.name = some name ∧
    name.data = (if ns.map DStr.data = some Html.Create.svgName then l else l.map Str.asciiUpper) ∧
    n.ns = ns ∧ n.pfx = pfx ∧ n.owner = some d ∧ n.parent = none ∧ n.first = none ∧ n.refcnt = 1

theorem born (S : Sound w ch) (hd : w.nodes d = some dn) (hdt : dn.type = .document) {tag : Tag} {pfx : Option DStr} {l : DStr} (hp : parts tag.ns tag.name = .ok (pfx, l))
    (hl : Str.length (some l) ≠ .ok 0) : ∃ w' e, createElement d tag w = .ok w' (.done, some e) ∧ Born w w' d e tag.ns l.data pfx := by
  obtain ⟨w', ch', as, S', hc, h', he⟩ := addAttributes_run (e := w.fresh) tag.attrs (elem_sound S hd hdt tag.ns pfx l) (add_new _) rfl
  refine ⟨w', w.fresh, ?_, fresh_dead S.wf.toCore, _, elemName tag.ns l, he, rfl, rfl, ?_, rfl, rfl, rfl, rfl, rfl, rfl⟩
  · unfold createElement
    refine made_ok ?_
    have h : makeElement d tag.ns tag.name w = .ok (w.add (elemNode d tag.ns pfx l)) w.fresh := by
      rw [makeElement_parts, hp, liftOut_ok rfl, newElement_run S hd, if_neg hl]
    rw [bind_ok h, bind_ok h']; rfl
  · unfold elemName
    rw [isSvg]
    by_cases h : tag.ns.map DStr.data = some Html.Create.svgName <;> simp [h, Str.createInterned]

/-- **C80**: a start tag whose name is not empty becomes an element of that name, for every namespace and whatever attributes there are. -/
theorem C80_element_partial (S : Sound w ch) (hd : w.nodes d = some dn) (hdt : dn.type = .document) {tag : Tag} {cs : List Char} (hh : Holds (Str.create tag.name) cs)
    (hu : Decodable cs) (hne : cs ≠ []) (hc : tag.ns = none ∨ ':' ∉ cs) :
    ∃ w' e, createElement d tag w = .ok w' (.done, some e) ∧ Born w w' d e tag.ns tag.name none := by
  have hh' : Holds (Str.createInterned tag.name) cs := ⟨hh.data, hh.small⟩
  refine born S hd hdt (l := Str.createInterned tag.name) ?_ ?_
  · unfold parts
    cases hns : tag.ns with
    | none => rfl
    | some u =>
      dsimp only
      unfold Names.splitQName
      rcases Names.index_cases hh' hu with ⟨h1, h2⟩ | ⟨ps, ls, h1, e, h3, h4⟩
      · rw [h1]; rfl
      · rcases hc with hc | hc
        · rw [hns] at hc; cases hc
        · exact absurd (by rw [e]; simp) hc
  · rw [Str.length_holds hh']
    intro h
    exact hne (List.length_eq_zero_iff.1 (by injection h))

/-- C80 is violated for names with a colon: in HTML they are names like others, but the element gets what follows the first colon as its local name, and the rest as its prefix. -/
theorem C80_element_colon_violated (S : Sound w ch) (hd : w.nodes d = some dn) (hdt : dn.type = .document) {tag : Tag} {ps ls : List Char}
    (hh : Holds (Str.create tag.name) (ps ++ ':' :: ls)) (hu : Decodable (ps ++ ':' :: ls)) (hp : ':' ∉ ps) (hne : ls ≠ []) (hc : tag.ns ≠ none) :
    ∃ w' e pfx, createElement d tag w = .ok w' (.done, some e) ∧ Born w w' d e tag.ns (Str.utf8 ls) (some pfx) ∧ Holds pfx ps := by
  have hh' : Holds (Str.createInterned tag.name) (ps ++ ':' :: ls) := ⟨hh.data, hh.small⟩
  obtain ⟨a, l, e1, ha, e2, hl⟩ := Names.split_parts hh'
  obtain ⟨w', e, h1, h2⟩ := born S hd hdt (tag := tag) (pfx := some a) (l := l) (by
    unfold parts
    cases hns : tag.ns with
    | none => exact absurd hns hc
    | some u =>
      dsimp only
      unfold Names.splitQName
      rcases Names.index_cases hh' hu with ⟨h1, h2⟩ | ⟨ps', ls', h1, e, h3, h4⟩
      · exact absurd (by simp) h2
      · have hps : ps' = ps := by
          have t1 := congrArg (List.takeWhile (fun c => decide (c ≠ ':'))) e
          have key : ∀ (a b : List Char), ':' ∉ a → (a ++ ':' :: b).takeWhile (fun c => decide (c ≠ ':')) = a := by
            intro a b ha
            rw [List.takeWhile_append_of_pos (by intro c hc; simp; rintro rfl; exact ha hc)]
            simp
          rw [key ps ls hp, key ps' ls' h3] at t1
          exact t1.symm
        subst hps
        rw [h1]
        simp only [Out.bind_ok, h4, if_false, e1, Str.length_holds hh', e2]) (by
    rw [Str.length_holds hl]
    intro h
    exact hne (List.length_eq_zero_iff.1 (by injection h)))
  exact ⟨w', e, a, h1, by rw [← hl.data]; exact h2, ha⟩

/-- C80 is violated for names that end with their only colon: Hubbub gets no element, but `HUBBUB_UNKNOWN`. -/
theorem C80_element_refused_violated (S : Sound w ch) (hd : w.nodes d = some dn) {tag : Tag} {ps : List Char}
    (hh : Holds (Str.create tag.name) (ps ++ [':'])) (hu : Decodable (ps ++ [':'])) (hp : ':' ∉ ps) (hc : tag.ns ≠ none) :
    createElement d tag w = .ok w (.failed, none) := by
  have hh' : Holds (Str.createInterned tag.name) (ps ++ ':' :: []) := ⟨hh.data, hh.small⟩
  obtain ⟨a, l, e1, ha, e2, hl⟩ := Names.split_parts hh'
  have hparts : parts tag.ns tag.name = .ok (some a, l) := by
    unfold parts
    cases hns : tag.ns with
    | none => exact absurd hns hc
    | some u =>
      dsimp only
      unfold Names.splitQName
      rcases Names.index_cases hh' hu with ⟨h1, h2⟩ | ⟨ps', ls', h1, e, h3, h4⟩
      · exact absurd (by simp) h2
      · have hps : ps' = ps := by
          have t1 := congrArg (List.takeWhile (fun c => decide (c ≠ ':'))) e
          have key : ∀ (a b : List Char), ':' ∉ a → (a ++ ':' :: b).takeWhile (fun c => decide (c ≠ ':')) = a := by
            intro a b ha
            rw [List.takeWhile_append_of_pos (by intro c hc; simp; rintro rfl; exact ha hc)]
            simp
          rw [key ps [] hp, key ps' ls' h3] at t1
          exact t1.symm
        subst hps
        rw [h1]
        simp only [Out.bind_ok, h4, if_false, e1, Str.length_holds hh', e2]
  unfold createElement
  refine made_exc (y := .invalidCharacter) (bind_exc ?_ _)
  rw [makeElement_parts, hparts, liftOut_ok rfl, newElement_run S hd]
  exact if_pos (Str.length_holds hl)

/-- The three cases: `<p>`, `<a:b>` and `<x:>` in a new document. -/
example : ∃ w ch dn, Sound w ch ∧ w.nodes 0 = some dn ∧ dn.type = .document ∧
    (∃ w' e, createElement 0 ⟨some (Str.create [104]), [112], []⟩ w = .ok w' (.done, some e) ∧ Born w w' 0 e (some (Str.create [104])) [112] none) ∧
    (∃ w' e pfx, createElement 0 ⟨some (Str.create [104]), [97, 58, 98], []⟩ w = .ok w' (.done, some e) ∧ Born w w' 0 e (some (Str.create [104])) (Str.utf8 ['b']) (some pfx) ∧ Holds pfx ['a']) ∧
    createElement 0 ⟨some (Str.create [104]), [120, 58], []⟩ w = .ok w (.failed, none) := by
  have S := Sound.empty.add (WF_createDocument Sound.empty.wf) rfl rfl rfl rfl (fun h => nomatch h)
  refine ⟨_, _, _, S, add_new _, rfl, ?_, ?_, ?_⟩
  · exact C80_element_partial S (add_new _) rfl (cs := ['p']) ⟨by decide +kernel, by decide +kernel⟩ (by unfold Decodable; decide +kernel) (by simp) (.inr (by decide))
  · exact C80_element_colon_violated S (add_new _) rfl (ps := ['a']) (ls := ['b']) ⟨by decide +kernel, by decide +kernel⟩ (by unfold Decodable; decide +kernel) (by decide) (by simp) (by simp)
  · exact C80_element_refused_violated S (add_new _) (ps := ['x']) ⟨by decide +kernel, by decide +kernel⟩ (by unfold Decodable; decide +kernel) (by decide) (by simp)

/-! ## A whole parse -/

/-- The steps of a sample; the parser is the one created last. -/
inductive Stage
  | act (a : Act)
  | create
  | fragment (d : NodeId)
  | cb (c : Cb)
  | destroy

/-- A computable check that implies `Cb.Fine`, for the callbacks of the samples. -/
def Cb.fineB (w : World) (led : Ledger) : Cb → Bool
  | .createComment _ | .createDoctype _ | .createText _ | .createElement _ | .hasChildren _ | .addAttributes _ _ => true
  | .ref x => carefulB led w (.ref x)
  | .unref x => carefulB led w (.unref x)
  | .appendChild p c => (w.nodes c).all (fun cn => decide (cn.parent = none) && cn.value.isSome || decide (cn.type ≠ .text)) &&
      ((w.nodes p).all fun pn => pn.last.all fun l => (w.nodes l).all fun ln => ln.value.isSome || decide (ln.type ≠ .text)) &&
      carefulB led w (.call (.appendChild p c))
  | .insertBefore p c r => carefulB led w (.call (.insertBefore p c r))
  | .removeChild p c => carefulB led w (.call (.removeChild p c))
  | .clone x deep => carefulB led w (.clone x deep)
  | .reparent _ _ | .getParent _ _ => false

def Cb.typedB (w : World) : Cb → Bool
  | .addAttributes x _ => typeB w x .element
  | _ => true

def allowedB (p : Parser) (w : World) (cb : Cb) : Bool := (cb.args.all fun x => decide (0 < p.hub x)) && cb.typedB w && cb.fineB w p.hub

theorem allowed_of_allowedB (hC : Core w ch) {p : Parser} {cb : Cb} (h : allowedB p w cb = true) : Allowed p w cb := by
  simp only [allowedB, Bool.and_eq_true, List.all_eq_true, decide_eq_true_eq] at h
  obtain ⟨⟨h1, h3⟩, h4⟩ := h
  refine ⟨h1, ?_, ?_⟩
  · cases cb with
    | addAttributes x gs => exact isType_of_typeB h3
    | _ => trivial
  · cases cb with
    | ref x => exact (careful_of_carefulB hC h4).2
    | unref x => exact (careful_of_carefulB hC h4).2
    | appendChild p c =>
      simp only [Cb.fineB, Bool.and_eq_true] at h4
      refine ⟨?_, fun _ => (careful_of_carefulB hC h4.2).2⟩
      rintro l ⟨pn, cn, ln, e1, e2, e3, t1, t2, t3⟩
      obtain ⟨⟨a, b⟩, _⟩ := h4
      rw [e2] at a
      rw [e1] at b
      simp only [Option.all_some] at a b
      rw [t2] at b
      simp only [Option.all_some] at b
      rw [e3] at b
      simp only [Option.all_some] at b
      constructor
      · intro cn' h
        rw [e2] at h; cases h
        have : cn.parent = none ∧ cn.value.isSome = true := by simpa [t1] using a
        exact ⟨this.1, fun hv => by rw [hv] at this; simp at this⟩
      · intro ln' h
        rw [e3] at h; cases h
        have : ln.value.isSome = true := by simpa [t3] using b
        intro hv; rw [hv] at this; simp at this
    | insertBefore p c r => exact (careful_of_carefulB hC h4).2
    | removeChild p c => exact (careful_of_carefulB hC h4).2
    | clone x deep => exact (careful_of_carefulB hC h4).2
    | reparent x q => simp [Cb.fineB] at h4
    | getParent x b => simp [Cb.fineB] at h4
    | _ => trivial

/-- One step of a sample. -/
def Stage.step (s : St) : Stage → Option St
  | .act a => if carefulB s.client s.w a then (match a.run s.w with
      | .ok w' r => some ⟨w', a.book s.client r, s.parsers⟩
      | .exc w' _ => some ⟨w', s.client, s.parsers⟩
      | .fault _ => none) else none
  | .create => match createParser s.w with
      | .ok w' d => some ⟨w', plus s.client (one d), ⟨d, one d⟩ :: s.parsers⟩
      | _ => none
  | .fragment d => if decide (0 < s.client d) && typeB s.w d .document && roomB s.w then (match createFragmentParser d s.w with
      | .ok w' f => some ⟨w', plus s.client (one f), ⟨d, one f⟩ :: s.parsers⟩
      | _ => none) else none
  | .cb c => match s.parsers with
      | [] => none
      | p :: r => if allowedB p s.w c then (match c.run p.doc s.w with
          | .ok w' hx => some ⟨w', s.client, ⟨p.doc, c.book p.hub hx.2⟩ :: r⟩
          | _ => none) else none
  | .destroy => match s.parsers with
      | [] => none
      | p :: r => if ((List.range s.w.fresh).all fun j => decide (p.hub j = 0)) && (Act.unref p.doc).fineB s.w s.client then (match destroyParser p.doc s.w with
          | .ok w' _ => some ⟨w', s.client, r⟩
          | _ => none) else none

theorem unref_fine (hC : Core w ch) {led : Ledger} (h : (Act.unref x).fineB w led = true) : (Act.unref x).Fine w :=
  (careful_of_carefulB (led := fun _ => 1) hC (a := .unref x) (by
    unfold carefulB properB
    rw [Bool.and_eq_true]
    exact ⟨by simp [Act.args, Act.typedB], h⟩)).2

theorem Stage.story {s s' : St} (h : Story s) {g : Stage} (hg : g.step s = some s') : Story s' := by
  obtain ⟨ch, S, hl⟩ := h.sound
  obtain ⟨w, client, ps⟩ := s
  cases g with
  | act a =>
    simp only [Stage.step] at hg
    split at hg
    · rename_i hc
      have hc := careful_of_carefulB S.wf.toCore hc
      have hh : Heedful client w (.act a) := ⟨hc.1.1, hc.1.2, hc.2⟩
      split at hg
      · rename_i w' r hr
        cases hg
        exact .op (s := ⟨w, client, ps⟩) (.act a) h hh hr
      · rename_i w' e hr
        cases hg
        exact .refused (s := ⟨w, client, ps⟩) (.act a) h hh hr
      · cases hg
    · cases hg
  | create =>
    simp only [Stage.step] at hg
    split at hg
    · rename_i w' d hr
      cases hg
      exact .create (s := ⟨w, client, ps⟩) h hr
    · cases hg
  | fragment d =>
    simp only [Stage.step] at hg
    split at hg
    · rename_i hc
      simp only [Bool.and_eq_true, decide_eq_true_eq] at hc
      split at hg
      · rename_i w' f hr
        cases hg
        exact .createFragment (s := ⟨w, client, ps⟩) d h hc.1.1 (isType_of_typeB hc.1.2) (room_of_roomB S.wf.bnd hc.2 d) hr
      · cases hg
    · cases hg
  | cb c =>
    cases ps with
    | nil => cases hg
    | cons p r =>
      simp only [Stage.step] at hg
      split at hg
      · rename_i hc
        split at hg
        · rename_i w' hx hr
          cases hg
          exact .callback (l := []) (p := p) (r := r) c h (allowed_of_allowedB S.wf.toCore hc) hr
        · cases hg
      · cases hg
  | destroy =>
    cases ps with
    | nil => cases hg
    | cons p r =>
      simp only [Stage.step] at hg
      split at hg
      · rename_i hc
        simp only [Bool.and_eq_true, List.all_eq_true, List.mem_range, decide_eq_true_eq] at hc
        split at hg
        · rename_i w' u hr
          cases hg
          refine .destroy (l := []) (p := p) (r := r) h (fun j => ?_) (unref_fine S.wf.toCore hc.2) hr
          by_cases hj : j < w.fresh
          · exact hc.1 j hj
          · have h1 : count w j = _ := (hl j).trans (total_mid client [] r p j)
            have h2 : count w j = 0 := by
              unfold count
              cases hn : w.nodes j with
              | none => rfl
              | some n => exact absurd (S.wf.bnd j n hn) hj
            rw [h2] at h1
            omega
        · cases hg
      · cases hg

def runStages : List Stage → St → Option St
  | [], s => some s
  | g :: gs, s => (g.step s).bind (runStages gs)

theorem story_runStages : ∀ (gs : List Stage) {s s' : St}, Story s → runStages gs s = some s' → Story s'
  | [], s, s', h, e => by cases e; exact h
  | g :: gs, s, s', h, e => by
    unfold runStages at e
    cases hg : g.step s with
    | none => rw [hg] at e; cases e
    | some s1 => rw [hg] at e; exact story_runStages gs (Stage.story h hg) e

theorem exists_story (gs : List Stage) (check : St → Bool) (h : ((runStages gs ⟨World.empty, fun _ => 0, []⟩).any check) = true) : ∃ s, Story s ∧ check s = true := by
  cases hw : runStages gs ⟨World.empty, fun _ => 0, []⟩ with
  | none => rw [hw] at h; simp at h
  | some s => rw [hw] at h; exact ⟨s, story_runStages gs .start hw, by simpa using h⟩

/-- The parse of `<!DOCTYPE html><p id=x>ab`: Hubbub creates the document type, the element P, the texts "a" and "b"; it puts them into the element and the element into the document.
The document is 0, the doctype 1, the element 2; 3 is the attribute, 4 the text in it, 5 and 6 are the texts; 6 is freed, since "b" is appended to "a". -/
def parsePage : List Stage :=
  [.create, .cb (.createDoctype [104, 116, 109, 108]), .cb (.appendChild 0 1), .cb (.unref 1), .cb (.unref 1),
   .cb (.createElement ⟨none, [112], [⟨none, [105, 100], [120]⟩]⟩), .cb (.createText [97]), .cb (.appendChild 2 5), .cb (.unref 5), .cb (.unref 5),
   .cb (.createText [98]), .cb (.appendChild 2 6), .cb (.unref 6), .cb (.appendChild 0 2), .cb (.unref 2)]

/-- The hypotheses of C80 are met in the middle of a parse: Hubbub may add attributes to the element and ask for its parent. -/
theorem sample80 : ∃ w client p, Story ⟨w, client, [p]⟩ ∧ (∃ n, w.nodes 2 = some n ∧ n.parent = some 0) ∧ (∃ n, w.nodes 5 = some n ∧ n.value = some (Str.create [97, 98])) ∧
    w.nodes 6 = none ∧ Allowed p w (.addAttributes 2 [⟨none, [105, 100], [121]⟩]) ∧ Allowed p w (.getParent 2 true) := by
  obtain ⟨s, hs, hc⟩ := exists_story parsePage (fun s => decide (s.parsers.length = 1) && at_ s.w 2 (fun n => n.parent = some 0) && at_ s.w 5 (fun n => n.value = some (Str.create [97, 98])) &&
    (s.w.nodes 6).isNone && (s.parsers.all fun p => allowedB p s.w (.addAttributes 2 [⟨none, [105, 100], [121]⟩])) && roomB s.w && at_ s.w 2 (fun n => n.type ≠ .attribute)) (by decide +kernel)
  obtain ⟨w, client, ps⟩ := s
  simp only [Bool.and_eq_true, decide_eq_true_eq] at hc
  obtain ⟨⟨⟨⟨⟨⟨h1, h2⟩, h3⟩, h4⟩, h5⟩, h6⟩, h7⟩ := hc
  obtain ⟨p, rfl⟩ := List.length_eq_one_iff.1 h1
  obtain ⟨n2, e2, t2⟩ := at_elim h2
  obtain ⟨n5, e5, t5⟩ := at_elim h3
  obtain ⟨n2', e2', t2'⟩ := at_elim h7
  rw [e2] at e2'; cases e2'
  simp only [decide_eq_true_eq] at t2 t5 t2'
  obtain ⟨ch, S, _⟩ := hs.sound
  have ha := allowed_of_allowedB S.wf.toCore (by simpa using h5)
  refine ⟨w, client, p, hs, ⟨n2, e2, t2⟩, ⟨n5, e5, t5⟩, Option.isNone_iff_eq_none.1 h4, ha, ha.1, trivial, ?_, ?_⟩
  · intro n _ y _
    exact room_of_roomB S.wf.bnd h6 y
  · intro _ n hn
    rw [e2] at hn; cases hn
    exact ⟨t2', by rw [t2]; simp⟩

/-- Afterwards everything is given up: the element by Hubbub, the document by Hubbub, the binding and the client; nothing is left. -/
theorem sample80_end : ∃ s, Story s ∧ s.parsers = [] ∧ (∀ j, s.client j = 0) := by
  obtain ⟨s, hs, hc⟩ := exists_story (parsePage ++ [.cb (.unref 2), .cb (.unref 0), .destroy, .act (.unref 0)])
    (fun s => s.parsers.isEmpty && (List.range s.w.fresh).all fun j => decide (s.client j = 0)) (by decide +kernel)
  simp only [Bool.and_eq_true, List.isEmpty_iff, List.all_eq_true, List.mem_range, decide_eq_true_eq] at hc
  refine ⟨s, hs, hc.1, fun j => ?_⟩
  obtain ⟨ch, S, hl⟩ := hs.sound
  by_cases hj : j < s.w.fresh
  · exact hc.2 j hj
  · have h2 : count s.w j = 0 := by
      unfold count
      cases hn : s.w.nodes j with
      | none => rfl
      | some n => exact absurd (S.wf.bnd j n hn) hj
    have h1 := hl j
    rw [h2] at h1
    unfold St.total at h1
    omega

/-- While a fragment is parsed (6) into the document 0, which the client holds, its parser is one of two. -/
theorem sample80_fragment : ∃ s, Story s ∧ s.parsers.length = 2 ∧ ∃ n, s.w.nodes 6 = some n ∧ n.parent = none ∧ n.refcnt = 2 := by
  obtain ⟨s, hs, hc⟩ := exists_story (parsePage.take 9 ++ [.fragment 0, .cb (.createElement ⟨none, [98], []⟩), .cb (.appendChild 6 7)])
    (fun s => decide (s.parsers.length = 2) && at_ s.w 6 (fun n => decide (n.parent = none) && decide (n.refcnt = 2))) (by decide +kernel)
  simp only [Bool.and_eq_true, decide_eq_true_eq] at hc
  obtain ⟨n, e, t⟩ := at_elim hc.2
  simp only [Bool.and_eq_true, decide_eq_true_eq] at t
  exact ⟨s, hs, hc.1, n, e, t⟩

/-- Two elements without parents, the first of which has a text: its children may be moved to the other one. -/
theorem sample80_reparent : ∃ w client p, Story ⟨w, client, [p]⟩ ∧ Allowed p w (.reparent 1 3) ∧ ∃ n, w.nodes 2 = some n ∧ n.parent = some 1 := by
  obtain ⟨s, hs, hc⟩ := exists_story [.create, .cb (.createElement ⟨none, [98], []⟩), .cb (.createText [97]), .cb (.appendChild 1 2), .cb (.createElement ⟨none, [105], []⟩)]
    (fun s => decide (s.parsers.length = 1) && (s.parsers.all fun p => decide (0 < p.hub 1) && decide (0 < p.hub 3) && decide (p.doc = 0)) && typeB s.w 0 .document &&
      at_ s.w 1 (fun n => decide (n.parent = none) && decide (n.type = .element) && decide (n.owner = some 0)) &&
      at_ s.w 3 (fun n => decide (n.parent = none) && decide (n.type = .element) && decide (n.owner = some 0)) && at_ s.w 2 (fun n => n.parent = some 1) &&
      allB s.w (fun n => decide (n.parent ≠ some 1) || decide (n.type = .text) && decide (n.refcnt < 1000))) (by decide +kernel)
  obtain ⟨w, client, ps⟩ := s
  simp only [Bool.and_eq_true, decide_eq_true_eq] at hc
  obtain ⟨⟨⟨⟨⟨⟨h1, h2⟩, h3⟩, h4⟩, h5⟩, h6⟩, h7⟩ := hc
  obtain ⟨p, rfl⟩ := List.length_eq_one_iff.1 h1
  obtain ⟨n1, e1, t1⟩ := at_elim h4
  obtain ⟨n3, e3, t3⟩ := at_elim h5
  obtain ⟨n2, e2, t2⟩ := at_elim h6
  simp only [Bool.and_eq_true, decide_eq_true_eq] at t1 t2 t3
  obtain ⟨⟨a1, b1⟩, c1⟩ := t1
  obtain ⟨⟨a3, b3⟩, c3⟩ := t3
  have hp : (0 < p.hub 1 ∧ 0 < p.hub 3) ∧ p.doc = 0 := by simpa using h2
  obtain ⟨ch, S, _⟩ := hs.sound
  have anc : ∀ {i m}, w.nodes i = some m → m.parent = none → ∀ {k}, AncSelf w i k → k = i := by
    intro i m hi hm k hk
    rcases Relation.ReflTransGen.cases_head hk with h | ⟨z, ⟨m', hm', hz⟩, _⟩
    · exact h.symm
    · rw [hi] at hm'; cases hm'; rw [hm] at hz; cases hz
  have ro : ∀ {i m}, w.nodes i = some m → m.parent = none → m.type = .element → ¬ ReadOnly w i := by
    rintro i m hi hm ht ⟨m', hm', hr⟩
    rw [hi] at hm'; cases hm'
    rw [ht] at hr
    rcases hr with h | h | h | ⟨_, j, k, hk, hj, h⟩
    · cases h
    · cases h
    · cases h.1
    · have := anc hi hm hk
      subst this
      rw [hi] at hj; cases hj
      rw [ht] at h
      rcases h with h | h <;> cases h
  refine ⟨w, client, p, hs, ⟨?_, trivial, ?_⟩, n2, e2, t2⟩
  · intro y hy
    have : y = 1 ∨ y = 3 := by simpa [Cb.args] using hy
    rcases this with rfl | rfl
    exacts [hp.1.1, hp.1.2]
  · refine ⟨by decide, ⟨n1, e1, by rw [b1]; simp⟩, ⟨n3, e3, by rw [b3]; simp⟩, by rw [e1, e3]; simp [c1, c3], ro e1 a1 b1, ro e3 a3 b3, ?_⟩
    intro c m hc hcp _
    have := allB_elim S.wf.bnd h7 hc
    have : m.type = .text ∧ m.refcnt < 1000 := by simpa [hcp] using this
    refine ⟨fun ha => ?_, fun qn hq => ?_, by omega⟩
    · have := anc e3 a3 ha
      subst this
      rw [e3] at hc; cases hc
      rw [a3] at hcp; cases hcp
    · rw [e3] at hq; cases hq
      rw [b3, this.1]
      exact .content (by simp) (by simp)

end Dom.Hubbub
