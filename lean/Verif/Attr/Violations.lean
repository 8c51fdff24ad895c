import Verif.Attr.PropsTyped
/-!
# Attributes: sample histories and disagreements

Every memory here is what the listed calls leave behind.
-/
namespace Dom.Attr
set_option linter.unusedSimpArgs false

open Dom.Str (DStr Bytes contents)

/-- The memory before the first call; new memory holds the bytes 170. -/
def empty : Mem where
  cells := fun _ => none
  attrs := fun _ => none
  elems := fun _ => none
  fresh := 0
  log := []
  junk := 170
  quirks := fun _ => false
  idName := fun _ => none

theorem empty_blank : Blank empty := ⟨fun _ => rfl, fun _ => rfl, fun _ => rfl⟩

/-- Run calls that all succeed. -/
def runOps : List Op → Mem → Option Mem
  | [], s => some s
  | op :: ops, s =>
    match op.run s with
    | .ok s' () => runOps ops s'
    | _ => none

/-- The memory is left behind by successful calls. -/
def After (s : Mem) : Prop := ∃ ops, runOps ops empty = some s

theorem exists_after (ops : List Op) (check : Mem → Bool) (h : (runOps ops empty).any check = true) : ∃ s, After s ∧ check s = true := by
  cases hr : runOps ops empty with
  | none => rw [hr] at h; simp at h
  | some s => rw [hr] at h; exact ⟨s, ⟨ops, hr⟩, by simpa using h⟩

/-- The call is this fault. -/
def Res.faults {α : Type} (r : Res α) (f : Fault) : Bool :=
  match r with
  | .fault g => g == f
  | _ => false

/-- The call fails so. -/
def Res.throws {α : Type} (r : Res α) (e : Exc) : Bool :=
  match r with
  | .exc _ g => g == e
  | _ => false

/-- The call succeeds with this result. -/
def Res.gives {α : Type} [DecidableEq α] (r : Res α) (a : α) : Bool :=
  match r with
  | .ok _ b => b = a
  | _ => false

theorem Res.of_faults {α : Type} {r : Res α} {f : Fault} (h : r.faults f = true) : r = .fault f := by
  cases r <;> simp [Res.faults] at h
  rw [h]

theorem Res.of_throws {α : Type} {r : Res α} {e : Exc} (h : r.throws e = true) : ∃ s', r = .exc s' e := by
  cases r <;> simp [Res.throws] at h
  exact ⟨_, by rw [h]⟩

theorem Res.of_gives {α : Type} [DecidableEq α] {r : Res α} {a : α} (h : r.gives a = true) : ∃ s', r = .ok s' a := by
  cases r <;> simp [Res.gives] at h
  exact ⟨_, by rw [h]⟩

/-- The call fails so and raises `k` events. -/
def Res.raises {α : Type} (r : Res α) (e : Exc) (before k : Nat) : Bool :=
  match r with
  | .exc s' g => g == e && s'.log.length == before + k
  | _ => false

theorem Res.of_raises {α : Type} {r : Res α} {e : Exc} {before k : Nat} (h : r.raises e before k = true) :
    ∃ s', r = .exc s' e ∧ s'.log.length = before + k := by
  cases r <;> simp [Res.raises] at h
  exact ⟨_, by rw [h.1], h.2⟩

theorem hasClass_same {s : Mem} {e : Addr} {c : Bytes} {b : Bool} (h : (hasClass e c s).gives b = true) : hasClass e c s = .ok s b := by
  obtain ⟨s', h⟩ := Res.of_gives h
  rw [h]
  congr 1
  unfold hasClass at h
  cases he : s.elems e with
  | none =>
    exfalso
    unfold getElem at h
    rw [bind_run, he] at h
    cases h
  | some el =>
    rw [getElem_bind he] at h
    by_cases hz : el.classes = []
    · rw [if_pos hz] at h; injection h with h; exact h.symm
    · rw [if_neg hz] at h; injection h with h; exact h.symm

/-- A string. -/
def str (s : String) : DStr := Names.lit s

/-- A check for `Op.Fair`. -/
def installB (s : Mem) (e : Addr) (ns : Option DStr) (a : Addr) : Bool :=
  (s.attrs a).all fun n => n.parent ≠ some e && (!isClass ns n.name || (valueOf n).isSome) &&
    (lookup (entriesOf s e) ns n.name).all fun en => (entriesOf s e).head? ≠ some en && (ns.isSome || en.ns.isNone)

/-- A check for `Op.Fair`. -/
def Op.fairB (s : Mem) : Op → Bool
  | .newElem e _ => (s.elems e).isNone
  | .newAttr _ _ _ _ => true
  | .get e _ _ | .has e _ _ | .set e _ _ _ | .remove e _ _ | .getNode e _ _ => (s.elems e).isSome
  | .item e i => (s.elems e).isSome && i < 4294967295
  | .setNode e ns a => (s.elems e).isSome && (s.attrs a).isSome && installB s e ns a
  | .removeNode e _ a => (s.elems e).isSome && (s.attrs a).isSome
  | .getValue a | .markReadonly a | .hold a | .setInteger a _ | .setShort a _ => (s.attrs a).isSome
  | .setValue a _ => (s.attrs a).any fun n => n.parent.any fun p => (s.elems p).isSome
  | .release a => (s.attrs a).any fun n => n.refcnt ≠ 0

theorem fair_of_fairB {s : Mem} {ls : Addr → List Addr} (hI : Inv s ls) {op : Op} (h : op.fairB s = true) : op.Fair s ls := by
  have hne : ∀ {α : Type} {o : Option α}, o.isSome = true → o ≠ none := by
    intro α o h; cases o <;> simp_all
  cases op with
  | setNode e ns a =>
    simp only [Op.fairB, Bool.and_eq_true] at h
    refine ⟨hne h.1.1, hne h.1.2, ?_⟩
    have h := h.2
    unfold installB at h
    rw [entriesOf_eq hI] at h
    intro n hn
    rw [hn] at h
    simp only [Option.all_some, Bool.and_eq_true, decide_eq_true_eq, Bool.or_eq_true, Bool.not_eq_true'] at h
    refine ⟨h.1.1, fun hc => ?_, fun en hl => ?_⟩
    · rcases h.1.2 with h | h
      · rw [hc] at h; cases h
      · exact hne h
    · have := h.2
      rw [hl] at this
      simp only [Option.all_some, Bool.and_eq_true, decide_eq_true_eq, Bool.or_eq_true] at this
      refine ⟨this.1, fun hns => ?_⟩
      have h2 := this.2
      rw [hns] at h2
      simpa using h2
  | newElem e el => simp only [Op.fairB] at h; exact Option.isNone_iff_eq_none.1 h
  | newAttr _ _ _ _ => trivial
  | item e i => simp only [Op.fairB, Bool.and_eq_true, decide_eq_true_eq] at h; exact ⟨hne h.1, h.2⟩
  | removeNode e _ a => simp only [Op.fairB, Bool.and_eq_true] at h; exact ⟨hne h.1, hne h.2⟩
  | setValue a v =>
    simp only [Op.fairB] at h
    cases ha : s.attrs a with
    | none => rw [ha] at h; simp at h
    | some n =>
      cases hp : n.parent with
      | none => rw [ha] at h; simp [hp] at h
      | some p => rw [ha] at h; simp [hp] at h; exact ⟨n, p, ha, hp, hne h⟩
  | release a =>
    simp only [Op.fairB] at h
    cases ha : s.attrs a with
    | none => rw [ha] at h; simp at h
    | some n => rw [ha] at h; simp at h; exact ⟨n, ha, h⟩
  | get e _ _ => exact hne h
  | has e _ _ => exact hne h
  | set e _ _ _ => exact hne h
  | remove e _ _ => exact hne h
  | getNode e _ _ => exact hne h
  | getValue a => exact hne h
  | markReadonly a => exact hne h
  | hold a => exact hne h
  | setInteger a _ => exact hne h
  | setShort a _ => exact hne h

/-- Run fair calls, going on after exceptions. -/
def runFair : List Op → Mem → Option Mem
  | [], s => some s
  | op :: ops, s =>
    if op.fairB s then
      (match op.run s with
       | .ok s' () => runFair ops s'
       | .exc s' _ => runFair ops s'
       | .fault _ => none)
    else none

theorem reach_runFair : ∀ (ops : List Op) (s s' : Mem), Reach s → runFair ops s = some s' → Reach s' := by
  intro ops
  induction ops with
  | nil => intro s s' hr h; simp only [runFair, Option.some.injEq] at h; exact h ▸ hr
  | cons op ops ih =>
    intro s s' hr h
    unfold runFair at h
    split at h
    · rename_i hf
      obtain ⟨ls, hg⟩ := hr.good
      cases hrun : op.run s with
      | ok s1 u => rw [hrun] at h; exact ih s1 s' (.step op hr hg.inv (fair_of_fairB hg.inv hf) (Or.inl hrun)) h
      | exc s1 er => rw [hrun] at h; exact ih s1 s' (.step op hr hg.inv (fair_of_fairB hg.inv hf) (Or.inr ⟨er, hrun⟩)) h
      | fault f => rw [hrun] at h; cases h
    · cases h

theorem exists_reach (ops : List Op) (check : Mem → Bool) (h : (runFair ops empty).any check = true) : ∃ s, Reach s ∧ check s = true := by
  cases hr : runFair ops empty with
  | none => rw [hr] at h; simp at h
  | some s => rw [hr] at h; exact ⟨s, reach_runFair ops empty s (.start empty_blank) hr, by simpa using h⟩

/-- A history with attributes set, changed, replaced as nodes, removed, held and refused. -/
def sampleOps : List Op :=
  [.newElem 0 { owner := 0 }, .newElem 1 { owner := 0, html := true }, .set 0 none (str "h") (some (str "1")),
    .set 0 none (str "class") (some (str "a bc")), .set 0 (some (str "u")) (str "x") (some (str "2")), .set 0 none (str "h") (some (str "3")),
    .set 1 none (str "y") none, .newAttr 0 (str "x") (some (str "u")) none, .setNode 0 (some (str "u")) 8, .getNode 0 none (str "class"),
    .markReadonly 0, .set 0 none (str "h") (some (str "4")), .set 0 none (str "z") (some (str "5")), .item 0 1, .remove 0 none (str "class"), .setNode 1 none 8, .setValue 8 (some (str "9"))]

/-- The sample history meets the hypotheses of the theorems about reachable memories: it ends with three attributes at element 0 and one at
element 1, an attribute held by the caller and one that is read-only. -/
theorem sample_reach : ∃ s, Reach s ∧ ((entriesOf s 0).map (fun en => en.name.data) = [(str "h").data, (str "x").data, (str "z").data] ∧
    (entriesOf s 1).length = 1 ∧ s.elems 0 ≠ none ∧ s.elems 1 ≠ none) := by
  obtain ⟨s, h1, h2⟩ := exists_reach sampleOps (fun s => (entriesOf s 0).map (fun en => en.name.data) = [(str "h").data, (str "x").data, (str "z").data] &&
    (entriesOf s 1).length = 1 && (s.elems 0).isSome && (s.elems 1).isSome) (by decide +kernel)
  simp only [Bool.and_eq_true, decide_eq_true_eq] at h2
  refine ⟨s, h1, h2.1.1.1, h2.1.1.2, ?_, ?_⟩
  · intro h; rw [h] at h2; simp at h2
  · intro h; rw [h] at h2; simp at h2

/-- **C38** is violated, and memory safety with it: setAttributeNode with the name of the first attribute uses freed memory. -/
theorem C38_first_violated : ∃ s, After s ∧ setAttrNode 0 none 2 s = .fault .useAfterFree := by
  obtain ⟨s, h1, h2⟩ := exists_after
    [.newElem 0 { owner := 0 }, .set 0 none (str "x") (some (str "1")), .newAttr 0 (str "x") none none]
    (fun s => (setAttrNode 0 none 2 s).faults .useAfterFree) (by decide +kernel)
  exact ⟨s, h1, Res.of_faults h2⟩

/-- **C38** is violated: removeAttributeNode does not find an attribute of the element that has a prefix. -/
theorem C38_prefix_violated : ∃ s, After s ∧ (s.attrs 0).bind ANode.parent = some 0 ∧ ∃ s', removeAttrNode 0 none 0 s = .exc s' .notFound := by
  obtain ⟨s, h1, h2⟩ := exists_after
    [.newElem 0 { owner := 0 }, .newAttr 0 (str "x") (some (str "u")) (some (str "p")), .setNode 0 (some (str "u")) 0]
    (fun s => (s.attrs 0).bind ANode.parent = some 0 && (removeAttrNode 0 none 0 s).throws .notFound) (by decide +kernel)
  simp only [Bool.and_eq_true, decide_eq_true_eq] at h2
  exact ⟨s, h1, h2.1, Res.of_throws h2.2⟩

/-- **C37** is violated: after setAttributeNode twice an element has two attributes `x` without a namespace. -/
theorem C37_duplicate_violated : ∃ s, After s ∧ ((entriesOf s 0).map Entry.key).count (none, (str "x").data) = 2 := by
  obtain ⟨s, h1, h2⟩ := exists_after
    [.newElem 0 { owner := 0 }, .set 0 none (str "h") (some (str "1")), .set 0 none (str "x") (some (str "1")),
      .set 0 (some (str "u")) (str "x") (some (str "2")), .newAttr 0 (str "x") none none, .setNode 0 none 6,
      .newAttr 0 (str "x") none none, .setNode 0 none 8]
    (fun s => ((entriesOf s 0).map Entry.key).count (none, (str "x").data) = 2) (by decide +kernel)
  exact ⟨s, h1, by simpa using h2⟩

/-- **C37** is violated: setAttributeNode of an attribute that the element has already can list it twice. -/
theorem C37_twice_violated : ∃ s a, After s ∧ ((entriesOf s 0).map Entry.attr).count a = 2 := by
  obtain ⟨s, h1, h2⟩ := exists_after
    [.newElem 0 { owner := 0 }, .set 0 none (str "h") (some (str "1")), .set 0 none (str "x") (some (str "1")),
      .set 0 (some (str "u")) (str "x") (some (str "2")), .setNode 0 none 4]
    (fun s => ((entriesOf s 0).map Entry.attr).count 4 = 2) (by decide +kernel)
  exact ⟨s, 4, h1, by simpa using h2⟩

/-- **C36** is violated: after removeAttribute the attribute is still there when two namespaces have the local name. -/
theorem C36_remove_violated : ∃ s s', After s ∧ removeAttribute 0 (str "x") s = .ok s' () ∧ ∃ s'', hasAttribute 0 (str "x") s' = .ok s'' true := by
  obtain ⟨s0, g1, g2⟩ := exists_after
    [.newElem 0 { owner := 0 }, .set 0 none (str "x") (some (str "1")), .set 0 (some (str "u")) (str "x") (some (str "2"))]
    (fun s => (do removeAttribute 0 (str "x"); hasAttribute 0 (str "x") : M Bool) s |>.gives true) (by decide +kernel)
  obtain ⟨s2, k⟩ := Res.of_gives g2
  rw [bind_run] at k
  cases hr : removeAttribute 0 (str "x") s0 with
  | ok s' u => rw [hr] at k; exact ⟨s0, s', g1, hr, s2, k⟩
  | exc _ _ => rw [hr] at k; cases k
  | fault _ => rw [hr] at k; cases k

/-- **C40** is violated: setting a class attribute that is there already changes its value but not the classes. -/
theorem C40_stale_violated : ∃ s, After s ∧ (∃ s' v, getAttr 0 none (str "class") s = .ok s' (some v) ∧ v.data = (str "b").data) ∧
    hasClass 0 (str "b").data s = .ok s false ∧ hasClass 0 (str "a").data s = .ok s true := by
  obtain ⟨s, h1, h2⟩ := exists_after
    [.newElem 0 { owner := 0 }, .set 0 none (str "class") (some (str "a")), .set 0 none (str "class") (some (str "b"))]
    (fun s => (getAttr 0 none (str "class") s).gives (some (str "b")) && (hasClass 0 (str "b").data s).gives false && (hasClass 0 (str "a").data s).gives true) (by decide +kernel)
  simp only [Bool.and_eq_true] at h2
  obtain ⟨s1, k1⟩ := Res.of_gives h2.1.1
  exact ⟨s, h1, ⟨s1, _, k1, rfl⟩, hasClass_same h2.1.2, hasClass_same h2.2⟩

/-- **C40** is violated: a tab does not separate classes. -/
theorem C40_space_violated : ∃ s, After s ∧ (∃ s' v, getAttr 0 none (str "class") s = .ok s' (some v) ∧ v.data = (str "a\tb").data) ∧
    hasClass 0 (str "a").data s = .ok s false := by
  obtain ⟨s, h1, h2⟩ := exists_after
    [.newElem 0 { owner := 0 }, .set 0 none (str "class") (some (str "a\tb"))]
    (fun s => (getAttr 0 none (str "class") s).gives (some (str "a\tb")) && (hasClass 0 (str "a").data s).gives false) (by decide +kernel)
  simp only [Bool.and_eq_true] at h2
  obtain ⟨s1, k1⟩ := Res.of_gives h2.1
  exact ⟨s, h1, ⟨s1, _, k1, rfl⟩, hasClass_same h2.2⟩

/-- **C46** is violated: dom_attr_set_value on an attribute that no element has dereferences NULL. -/
theorem C46_attr_set_value_violated : ∃ s, After s ∧ setValue 0 (some (str "v")) s = .fault .nullDeref := by
  obtain ⟨s, h1, h2⟩ := exists_after [.newAttr 0 (str "x") none none]
    (fun s => (setValue 0 (some (str "v")) s).faults .nullDeref) (by decide +kernel)
  exact ⟨s, h1, Res.of_faults h2⟩

/-- **C39** is violated: the first dom_attr_set_bool reads a bool that was never written. -/
theorem C39_bool_violated : ∃ s, After s ∧ setBool 0 true s = .fault .uninit := by
  obtain ⟨s, h1, h2⟩ := exists_after [.newAttr 0 (str "x") none none]
    (fun s => (setBool 0 true s).faults .uninit) (by decide +kernel)
  exact ⟨s, h1, Res.of_faults h2⟩

/-- **C39** is violated: reading a number as a string does not fail. -/
theorem C39_string_read_violated : ∃ s, After s ∧ (s.attrs 0).map ANode.type = some .integer ∧ ∃ s' v, getValue 0 s = .ok s' v ∧ v.data = [] := by
  obtain ⟨s, h1, h2⟩ := exists_after [.newAttr 0 (str "x") none none, .setInteger 0 5]
    (fun s => (s.attrs 0).map ANode.type = some .integer && (getValue 0 s).gives Str.emptyString) (by decide +kernel)
  simp only [Bool.and_eq_true, decide_eq_true_eq] at h2
  obtain ⟨s1, k1⟩ := Res.of_gives h2.2
  exact ⟨s, h1, h2.1, s1, _, k1, rfl⟩

/-- **C51** is violated: on an SVG element with a tag that HTML knows too, `viewBox` is read under another spelling. -/
theorem C51_svg_violated : ∃ s, After s ∧ (s.elems 0).bind Elem.ns = some svgNs ∧
    ∃ s', (do setAttribute 0 (str "viewBox") (some (str "1")); hasAttribute 0 (str "VIEWBOX") : M Bool) s = .ok s' true := by
  obtain ⟨s, h1, h2⟩ := exists_after [.newElem 0 { owner := 0, html := true, tag := 1, ns := some svgNs }]
    (fun s => (s.elems 0).bind Elem.ns = some svgNs && ((do setAttribute 0 (str "viewBox") (some (str "1")); hasAttribute 0 (str "VIEWBOX") : M Bool) s).gives true) (by decide +kernel)
  simp only [Bool.and_eq_true, decide_eq_true_eq] at h2
  exact ⟨s, h1, h2.1, Res.of_gives h2.2⟩

/-- **C55** is violated: DOMAttrModified is raised for a read-only attribute although the call is refused and the value stays. -/
theorem C55_refused_violated : ∃ s s', After s ∧ setAttr 0 none (str "x") (some (str "2")) s = .exc s' .noModificationAllowed ∧ s'.log.length = s.log.length + 1 := by
  obtain ⟨s, h1, h2⟩ := exists_after
    [.newElem 0 { owner := 0 }, .set 0 none (str "x") (some (str "1")), .markReadonly 0]
    (fun s => (setAttr 0 none (str "x") (some (str "2")) s).raises .noModificationAllowed s.log.length 1) (by decide +kernel)
  obtain ⟨s', k1, k2⟩ := Res.of_raises h2
  exact ⟨s, s', h1, k1, k2⟩

end Dom.Attr
