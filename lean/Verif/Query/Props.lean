import Verif.Query.Reach
/-!
# C57 isEqualNode, C60 names and prefixes, C61 node values, C62 ancestor elements
-/
set_option linter.unusedSimpArgs false
set_option linter.unusedVariables false
attribute [-simp] String.length_utf8EncodeChar
namespace Dom.Query

open Dom.Tree
open Dom.Str (DStr Bytes Holds contents asciiLower)

variable {w w' : World} {ch : Children} {x y d p j : NodeId} {n m pn : Node}

theorem rdNode_run {α : Type} (hx : w.nodes x = some n) (f : Node → Out α) : (rdNode w x >>= f) = f n := by
  unfold rdNode; rw [hx]; rfl

/-! ## Sample histories -/

/-- The conditions of `QCall.Ok` as a test, for a call whose qualified name (if it has one) is the given text. -/
def okQ (w : World) (c : QCall) (s : String) : Bool :=
  match c with
  | .tree c => c.okB w && (match c with
      | .createNode _ .element name _ => decide (Names.createNamed name = .ok ())
      | _ => true)
  | .createNS d t _ q => typeB w d .document && decide (t = .element ∨ t = .attribute) && decide (q = Names.lit s) &&
      decide ((Names.lit s).data.length < 4294967296)
  | .setPrefix x _ => (w.nodes x).isSome
  | .setValue x _ => at_ w x fun n => n.type ≠ .attribute

theorem okQ_ok {c : QCall} {s : String} (hc : okQ w c s = true) : c.Ok w := by
  cases c with
  | tree c =>
    simp only [okQ, Bool.and_eq_true] at hc
    refine ⟨ok_of_okB hc.1, ?_⟩
    rintro d name v rfl
    simpa using hc.2
  | createNS d t ns q =>
    simp only [okQ, Bool.and_eq_true, decide_eq_true_eq] at hc
    obtain ⟨⟨⟨h1, h2⟩, h3⟩, h4⟩ := hc
    refine ⟨isType_of_typeB h1, h2, s.toList, ?_⟩
    subst h3
    exact ⟨rfl, h4⟩
  | setPrefix x q =>
    obtain ⟨n, hn⟩ := Option.isSome_iff_exists.1 hc
    exact ⟨n, hn⟩
  | setValue x v =>
    obtain ⟨n, hn, ht⟩ := at_elim hc
    refine ⟨⟨n, hn⟩, ?_⟩
    rintro ⟨k, hk, e⟩
    rw [hn] at hk; cases hk
    simp [e] at ht

/-- A sample history: each call with the text of its qualified name. -/
def runQ : List (QCall × String) → World → Option World
  | [], w => some w
  | (c, s) :: cs, w => if okQ w c s then ((c.run w).world).bind (runQ cs) else none

theorem reach_runQ : ∀ (cs : List (QCall × String)) (w w' : World), ReachQ w → runQ cs w = some w' → ReachQ w' := by
  intro cs
  induction cs with
  | nil => intro w w' hr h; simp only [runQ, Option.some.injEq] at h; exact h ▸ hr
  | cons c cs ih =>
    intro w w' hr h
    obtain ⟨c, s⟩ := c
    rw [runQ] at h
    by_cases hc : okQ w c s = true
    · rw [if_pos hc] at h
      obtain ⟨w1, h1, h2⟩ := Option.bind_eq_some_iff.1 h
      exact ih w1 w' (.call c hr (okQ_ok hc) h1) h2
    · rw [if_neg hc] at h; cases h

theorem exists_q (cs : List (QCall × String)) (check : World → Bool) (h : (runQ cs World.empty).any check = true) :
    ∃ w, ReachQ w ∧ check w = true := by
  cases hw : runQ cs World.empty with
  | none => rw [hw] at h; simp at h
  | some w =>
    rw [hw] at h
    exact ⟨w, reach_runQ cs _ w .start hw, by simpa using h⟩

/-! ## C57 isEqualNode -/

/-- C57.  `isEqualNode` says "equal" only for nodes that are: everything below them, their attributes included, agrees.
Missing: the converse, which is false (`C57_element_violated`, `C57_other_violated`). -/
theorem C57_sound_partial (h : isEqualNode w x y = .ok true) : ∀ k, shape w ch k x = shape w ch k y := by
  suffices x = y by subst this; exact fun _ => rfl
  unfold isEqualNode at h
  cases hx : w.nodes x with
  | none => unfold rdNode at h; rw [hx] at h; cases h
  | some a =>
    cases hy : w.nodes y with
    | none => rw [rdNode_run hx] at h; unfold rdNode at h; rw [hy] at h; cases h
    | some b =>
      rw [rdNode_run hx, rdNode_run hy] at h
      split_ifs at h
      all_goals first | (cases h; done) | skip
      unfold mapsEqual at h
      split at h
      · simp only [Out.bind_ok] at h
        split_ifs at h
        · simp at h
        · simpa [listsEqual] using h
      · cases h

/-- C57.  Nodes that differ in type, name, prefix, namespace or value are reported as different (a missing string counts as empty). -/
theorem C57_different (hx : w.nodes x = some n) (hy : w.nodes y = some m) (ho : n.owner ≠ none) (ho' : m.owner ≠ none)
    (h : n.type ≠ m.type ∨ contents n.name ≠ contents m.name ∨ contents n.pfx ≠ contents m.pfx ∨ contents n.ns ≠ contents m.ns ∨
      contents n.value ≠ contents m.value) : isEqualNode w x y = .ok false := by
  unfold isEqualNode
  rw [rdNode_run hx, rdNode_run hy]
  by_cases ht : n.type = m.type
  · have hown : (n.owner.isNone || m.owner.isNone) = false := by
      cases h1 : n.owner <;> cases h2 : m.owner <;> simp_all
    simp only [ht, ne_eq, not_true_eq_false, if_false, hown, Bool.false_eq_true]
    have key : ∀ s t : Option DStr, (Str.isEqual s t = false) ↔ contents s ≠ contents t := by
      intro s t
      rw [← Bool.not_eq_true, Str.C06_isEqual_iff]
    simp only [key]
    rcases h with h | h | h | h | h
    · exact absurd ht h
    · rw [if_pos h]
    · split_ifs <;> rfl
    · split_ifs <;> rfl
    · split_ifs <;> rfl
  · simp only [ne_eq, ht, not_false_eq_true, if_true]

/-- What the code computes for two Elements: whether they are the same node. -/
theorem C57_element (h : ReachQ w) (hx : w.nodes x = some n) (hy : w.nodes y = some m) (ht : n.type = .element) (ht' : m.type = .element) :
    isEqualNode w x y = .ok (decide (x = y)) := by
  obtain ⟨⟨ch, hW⟩, _⟩ := h.sound
  have own : ∀ {z : NodeId} {k : Node}, w.nodes z = some k → k.type = .element → k.owner.isNone = false := by
    intro z k hz hk
    rcases hW.owner z k hz with ⟨d, _, o, _⟩ | ⟨o, _⟩
    · rw [o]; rfl
    · rw [hk] at o; cases o
  unfold isEqualNode
  rw [rdNode_run hx, rdNode_run hy]
  simp only [ht, ht', own hx ht, own hy ht', ne_eq, not_true_eq_false, if_false, Bool.or_self, Bool.false_eq_true, getAttributes, if_true, mapsEqual,
    Out.bind_ok, listsEqual]
  by_cases hxy : x = y
  · subst hxy
    rw [hx] at hy; cases hy
    have e : ∀ s : Option DStr, Str.isEqual s s = true := fun s => (Str.C06_isEqual_iff s s).2 rfl
    simp [e]
  · simp [hxy]

/-- C57 is false of the code for every node that is not an Element: comparing such a node with itself dereferences NULL
(src/core/node.c:1693-1706 gets no attribute map and src/core/namednodemap.c:315 looks into it). -/
theorem C57_other_violated (hx : w.nodes x = some n) (ht : n.type ≠ .element) (ho : n.owner ≠ none) :
    isEqualNode w x x = .fault .nullDeref := by
  unfold isEqualNode
  rw [rdNode_run hx, rdNode_run hx]
  have e : ∀ s : Option DStr, Str.isEqual s s = true := fun s => (Str.C06_isEqual_iff s s).2 rfl
  have hown : n.owner.isNone = false := by cases h1 : n.owner <;> simp_all
  simp [e, hown, getAttributes, ht, mapsEqual, Out.bind_fault]

/-- `<a/>` twice and the text "x", all without parent. -/
def equalSample : List (QCall × String) :=
  [(.tree .createDocument, ""), (.tree (.createNode 0 .element (some (Names.lit "a")) none), ""),
   (.tree (.createNode 0 .element (some (Names.lit "a")) none), ""), (.tree (.createNode 0 .text (some (Names.lit "#text")) (some (Names.lit "x"))), ""),
   (.tree (.createNode 0 .text (some (Names.lit "#text")) (some (Names.lit "x"))), ""), (.tree (.appendChild 1 3), ""), (.tree (.appendChild 2 4), "")]

/-- C57 is false of the code for Elements: two different elements with the same name and the same content are reported as different
(src/core/element.c:2405-2412, src/core/nodelist.c:453-457). -/
theorem C57_element_violated : ∃ w ch, ReachQ w ∧ WF w ch ∧ IsType w 1 .element ∧ IsType w 2 .element ∧ (∀ k, shape w ch k 1 = shape w ch k 2) ∧
    isEqualNode w 1 2 = .ok false := by
  obtain ⟨w, h1, h2⟩ := exists_q equalSample (fun w => at_ w 1 (fun n => n.type = .element && n.name = some (Names.lit "a") && n.value = none && n.ns = none &&
      n.pfx = none && n.attrs = []) && at_ w 2 (fun n => n.type = .element && n.name = some (Names.lit "a") && n.value = none && n.ns = none &&
      n.pfx = none && n.attrs = []) && at_ w 3 (fun n => n.type = .text && n.name = some (Names.lit "#text") && n.value = some (Names.lit "x") && n.ns = none &&
      n.pfx = none) && at_ w 4 (fun n => n.type = .text && n.name = some (Names.lit "#text") && n.value = some (Names.lit "x") && n.ns = none && n.pfx = none) &&
      decide (kidsOf w 1 = [3]) && decide (kidsOf w 2 = [4]) && decide (kidsOf w 3 = []) && decide (kidsOf w 4 = [])) (by decide +kernel)
  obtain ⟨⟨ch, hW⟩, _⟩ := h1.sound
  simp only [Bool.and_eq_true, decide_eq_true_eq] at h2
  obtain ⟨⟨⟨⟨⟨⟨⟨a1, a2⟩, a3⟩, a4⟩, k1⟩, k2⟩, k3⟩, k4⟩ := h2
  obtain ⟨n1, b1, c1⟩ := at_elim a1
  obtain ⟨n2, b2, c2⟩ := at_elim a2
  obtain ⟨n3, b3, c3⟩ := at_elim a3
  obtain ⟨n4, b4, c4⟩ := at_elim a4
  simp only [Bool.and_eq_true, decide_eq_true_eq] at c1 c2 c3 c4
  obtain ⟨⟨⟨⟨⟨t1, e1⟩, v1⟩, s1⟩, q1⟩, l1⟩ := c1
  obtain ⟨⟨⟨⟨⟨t2, e2⟩, v2⟩, s2⟩, q2⟩, l2⟩ := c2
  obtain ⟨⟨⟨⟨t3, e3⟩, v3⟩, s3⟩, q3⟩ := c3
  obtain ⟨⟨⟨⟨t4, e4⟩, v4⟩, s4⟩, q4⟩ := c4
  have hk := kids_eq hW.toCore
  refine ⟨w, ch, h1, hW, ⟨n1, b1, t1⟩, ⟨n2, b2, t2⟩, ?_, ?_⟩
  · have h34 : ∀ k, shape w ch k 3 = shape w ch k 4 := by
      intro k
      cases k with
      | zero => rfl
      | succ k => simp only [shape, b3, b4, t3, t4, e3, e4, v3, v4, s3, s4, q3, q4, hk, k3, k4, List.map_nil]; simp
    intro k
    cases k with
    | zero => rfl
    | succ k =>
      have := h34 k
      rw [hk] at this ⊢
      simp only [shape, b1, b2, t1, t2, e1, e2, v1, v2, s1, s2, q1, q2, l1, l2, k1, k2, List.map_nil, List.map_cons, this]
  · rw [C57_element h1 b1 b2 t1 t2]
    rfl

/-! ## C60 names and prefixes -/

/-- The bytes of a qualified name: the prefix and a colon if there is one, then the local name. -/
def qualified (pfx : Option DStr) (l : DStr) : Bytes :=
  match pfx with
  | some p => p.data ++ 58 :: l.data
  | none => l.data

/-- C60.  The node name is the qualified name made of prefix and local name. -/
theorem C60_node_name (hx : w.nodes x = some n) (ho : n.owner ≠ none) {l : DStr} (hl : n.name = some l) :
    ∃ r, getNodeName w x = .ok r ∧ r.data = qualified n.pfx l := by
  unfold getNodeName
  rw [rdNode_run hx]
  have hown : n.owner.isSome = true := by cases h : n.owner <;> simp_all
  simp only [hown, Bool.or_true, Bool.not_true, Bool.false_eq_true, if_false, hl]
  cases hp : n.pfx with
  | none => exact ⟨l, rfl, rfl⟩
  | some p =>
    refine ⟨_, rfl, ?_⟩
    simp [colonStr, Str.create, qualified]

/-- C60.  A node created with a qualified name is called by that name, and its local name is what stands behind the colon. -/
theorem C60_create (h : ReachQ w) {dn : Node} (hd : w.nodes d = some dn) {t : NodeType} (ht : t = .element ∨ t = .attribute)
    {ns : Option DStr} {q : DStr} {cs : List Char} (hq : Holds q cs) (hrun : createNodeNS d t ns (some q) w = .ok w' x) :
    ∃ r l, getNodeName w' x = .ok r ∧ r.data = q.data ∧ getLocalName w' x = .ok (some l) ∧
      ((':' ∉ cs ∧ l = q) ∨ ∃ ps ls, cs = ps ++ [':'] ++ ls ∧ ':' ∉ ps ∧ Holds l ls) := by
  obtain ⟨⟨ch, hW⟩, _⟩ := h.sound
  rcases createNodeNS_cases hW.toCore hd (t := t) (ns := ns) (q := some q) with ⟨p, l, h1, h2⟩ | ⟨e, _, h2⟩ | ⟨f, h2⟩
  · rw [h2] at hrun; cases hrun
    have hn := add_new (w := w) (nsNode d t ns p l)
    obtain ⟨r, hr, hr'⟩ := C60_node_name hn (by simp [nsNode]) (l := l) rfl
    refine ⟨r, l, hr, ?_, ?_, ?_⟩
    · rw [hr']
      show qualified p l = q.data
      rcases split_prefix hq h1 with ⟨rfl, rfl, _⟩ | ⟨p', ps, ls, rfl, hp, hl, rfl, _, _⟩
      · rfl
      · show p'.data ++ 58 :: l.data = q.data
        rw [hp.data, hl.data, hq.data, Str.utf8_append, Str.utf8_append, List.append_assoc]
        rfl
    · unfold getLocalName
      rw [rdNode_run hn]
      rcases ht with rfl | rfl <;> rfl
    · rcases split_prefix hq h1 with ⟨_, h3, h4⟩ | ⟨p', ps, ls, _, _, hl, h3, h4, _⟩
      · exact .inl ⟨h4, h3⟩
      · exact .inr ⟨ps, ls, h3, h4, hl⟩
  · rw [h2] at hrun; cases hrun
  · rw [h2] at hrun; cases hrun

/-- C60.  In every memory reached, a node with a non-empty prefix is an element or attribute with a namespace. -/
theorem C60_prefix_namespace (h : ReachQ w) (hx : w.nodes x = some n) {p : DStr} (hp : n.pfx = some p) (hne : p.data ≠ []) :
    (n.type = .element ∨ n.type = .attribute) ∧ n.ns ≠ none := by
  obtain ⟨h1, h2⟩ := h.sound.2.prefixed x n p hx hp
  exact ⟨h1, h2.resolve_right hne⟩

/-- C60.  Setting the prefix of a writable element or attribute with a namespace changes its prefix and nothing else; its name becomes the new prefix
and the old local name; an empty prefix means none.
Missing: a prefix that is not a name should be refused, which is false of the code (`C60_prefix_violated`). -/
theorem C60_set_prefix_partial (h : ReachQ w) (hx : w.nodes x = some n) (ht : n.type = .element ∨ n.type = .attribute) (hns : n.ns ≠ none)
    (hro : ¬ ReadOnly w x) {l : DStr} (hl : n.name = some l) {p : DStr} {ps : List Char} (hp : Holds p ps) :
    ∃ w' r, setPrefix x (some p) w = .ok w' () ∧ getNodeName w' x = .ok r ∧ r.data = (if ps = [] then l.data else p.data ++ 58 :: l.data) ∧
      w'.nodes x = some { n with pfx := if ps = [] then none else some p } ∧ (∀ j, j ≠ x → w'.nodes j = w.nodes j) ∧ w'.log = w.log := by
  obtain ⟨⟨ch, hW⟩, _⟩ := h.sound
  have hz : newPrefix (some p) = if ps = [] then none else some p := by
    unfold newPrefix
    have := Names.lengthZero_holds hp
    by_cases hps : ps = []
    · simp [this.2 hps, hps]
    · have h2 : Names.lengthZero p = false := by
        cases h3 : Names.lengthZero p
        · rfl
        · exact absurd (this.1 h3) hps
      simp [h2, hps]
  have hx' : (w.mp (withPrefix x (newPrefix (some p))) []).nodes x = some { n with pfx := if ps = [] then none else some p } := by
    rw [mp_some hx, hz]; simp [withPrefix]
  have ho : n.owner ≠ none := by
    rcases hW.owner x n hx with ⟨d, _, o, _⟩ | ⟨o, _⟩
    · rw [o]; simp
    · rcases ht with ht | ht <;> rw [ht] at o <;> cases o
  obtain ⟨r, h1, h2⟩ := C60_node_name hx' (by exact ho) (l := l) hl
  refine ⟨_, r, setPrefix_run hW.toCore hx ⟨ht, hns⟩ hro _, h1, ?_, hx', ?_, by simp [World.mp]⟩
  · rw [h2]
    by_cases hps : ps = [] <;> simp [hps, qualified]
  · intro j hj
    rw [mp_nodes]; cases w.nodes j <;> simp [withPrefix, hj]

/-- C60.  A read-only node refuses a new prefix, and a node that cannot have one ignores it; nothing changes. -/
theorem C60_set_prefix_other (h : ReachQ w) (hx : w.nodes x = some n) (q : Option DStr) :
    (¬ ((n.type = .element ∨ n.type = .attribute) ∧ n.ns ≠ none) → setPrefix x q w = .ok w ()) ∧
    ((n.type = .element ∨ n.type = .attribute) ∧ n.ns ≠ none → ReadOnly w x → setPrefix x q w = .exc w .noModificationAllowed) := by
  obtain ⟨⟨ch, hW⟩, _⟩ := h.sound
  exact ⟨fun h => setPrefix_skip hx h q, fun h hro => setPrefix_refused hW.toCore hx h hro q⟩

/-- `<p:a xmlns:p="u">` as node 1 of a document. -/
def nsSample : List (QCall × String) :=
  [(.tree .createDocument, ""), (.createNS 0 .element (some (Names.lit "u")) (Names.lit "p:a"), "p:a"), (.tree (.appendChild 0 1), "")]

/-- Name of node 1 after setting its prefix. -/
def nameAfter (s : DStr) (w : World) : Out DStr :=
  match setPrefix 1 (some s) w with
  | .ok w' _ => getNodeName w' 1
  | _ => .fault .diverge

theorem nameAfter_elim {s r : DStr} (h : nameAfter s w = .ok r) : ∃ w', setPrefix 1 (some s) w = .ok w' () ∧ getNodeName w' 1 = .ok r := by
  unfold nameAfter at h
  cases h1 : setPrefix 1 (some s) w with
  | ok w' u => rw [h1] at h; exact ⟨w', rfl, h⟩
  | exc w' e => rw [h1] at h; cases h
  | fault f => rw [h1] at h; cases h

/-- C60 is false of the code for prefixes that are not names: they are accepted (src/core/node.c:1330, a todo), so that the node gets a name no
document may contain; likewise the prefix `xml` with another namespace. -/
theorem C60_prefix_violated : ∃ w, ReachQ w ∧ IsType w 1 .element ∧ ¬ ReadOnly w 1 ∧
    (∃ w', setPrefix 1 (some (Names.lit "1 <")) w = .ok w' () ∧ getNodeName w' 1 = .ok (Names.lit "1 <:a")) ∧ Names.validateName (some (Names.lit "1 <:a")) = false ∧
    (∃ w', setPrefix 1 (some (Names.lit "xml")) w = .ok w' () ∧ getNodeName w' 1 = .ok (Names.lit "xml:a")) ∧
    Names.validateQName (some (Names.lit "xml:a")) (some (Names.lit "u")) = .exc .namespace := by
  obtain ⟨w, h1, h2⟩ := exists_q nsSample (fun w => typeB w 1 .element && noEntities w && decide (nameAfter (Names.lit "1 <") w = .ok (Names.lit "1 <:a")) &&
    decide (nameAfter (Names.lit "xml") w = .ok (Names.lit "xml:a"))) (by decide +kernel)
  simp only [Bool.and_eq_true, decide_eq_true_eq] at h2
  obtain ⟨⟨⟨a1, a2⟩, a3⟩, a4⟩ := h2
  obtain ⟨⟨ch, hW⟩, _⟩ := h1.sound
  obtain ⟨n1, b1, b2⟩ := isType_of_typeB a1
  exact ⟨w, h1, ⟨n1, b1, b2⟩, writable_of hW a2 b1 b2, nameAfter_elim a3, by decide +kernel, nameAfter_elim a4, by decide +kernel⟩

/-- The hypotheses of the C60 theorems are met by a reachable memory. -/
theorem name_example : ∃ w n, ReachQ w ∧ w.nodes 1 = some n ∧ n.type = .element ∧ n.ns ≠ none ∧ n.pfx = some (Names.lit "p") ∧ ¬ ReadOnly w 1 ∧
    getNodeName w 1 = .ok (Names.lit "p:a") ∧ getLocalName w 1 = .ok (some (Names.lit "a")) ∧
    (∃ w', setPrefix 1 (some (Names.lit "q")) w = .ok w' () ∧ getNodeName w' 1 = .ok (Names.lit "q:a")) ∧
    (∃ w', setPrefix 1 (some (Names.lit "")) w = .ok w' () ∧ getNodeName w' 1 = .ok (Names.lit "a")) := by
  obtain ⟨w, h1, h2⟩ := exists_q nsSample (fun w => at_ w 1 (fun n => n.type = .element && n.ns.isSome && n.pfx = some (Names.lit "p")) && noEntities w &&
    decide (getNodeName w 1 = .ok (Names.lit "p:a") ∧ getLocalName w 1 = .ok (some (Names.lit "a"))) &&
    decide (nameAfter (Names.lit "q") w = .ok (Names.lit "q:a")) &&
    decide (nameAfter (Names.lit "") w = .ok (Names.lit "a"))) (by decide +kernel)
  simp only [Bool.and_eq_true, decide_eq_true_eq] at h2
  obtain ⟨⟨⟨⟨a1, a2⟩, a3⟩, a4⟩, a5⟩ := h2
  obtain ⟨⟨ch, hW⟩, _⟩ := h1.sound
  obtain ⟨n1, b1, b2⟩ := at_elim a1
  simp only [Bool.and_eq_true, decide_eq_true_eq] at b2
  obtain ⟨⟨b2, b3⟩, b4⟩ := b2
  exact ⟨w, n1, h1, b1, b2, (by intro e; rw [e] at b3; cases b3), b4, writable_of hW a2 b1 b2, a3.1, a3.2, nameAfter_elim a4, nameAfter_elim a5⟩

/-! ## C61 node values -/

/-- C61.  Setting the value of a writable Text, CDATASection, Comment or ProcessingInstruction stores it; nothing else changes.
Missing: the mutation events that setting the same data otherwise raises (`C61_events_violated`); values of attributes are C36. -/
theorem C61_set_partial {f} (h : ReachQ w) (hx : w.nodes x = some n) (ht : n.type ∈ [NodeType.text, .cdata, .comment, .pi]) (hro : ¬ ReadOnly w x)
    (v : Option DStr) : ∃ w', setNodeValue f x v w = .ok w' () ∧ getNodeValue w' x = .ok v ∧ w'.nodes x = some { n with value := v } ∧
      (∀ j, j ≠ x → w'.nodes j = w.nodes j) := by
  obtain ⟨⟨ch, hW⟩, _⟩ := h.sound
  have h1 : ¬ NoValue n.type := by
    generalize n.type = t at ht; revert ht; cases t <;> decide
  have h2 : n.type ≠ .attribute := by
    generalize n.type = t at ht; revert ht; cases t <;> decide
  have hx' : (w.mp (withValue x v) []).nodes x = some { n with value := v } := by rw [mp_some hx]; simp [withValue]
  refine ⟨_, setNodeValue_run hW.toCore hx h1 h2 hro v, ?_, hx', ?_⟩
  · unfold getNodeValue; rw [rdNode_run hx']
  · intro j hj
    rw [mp_nodes]; cases w.nodes j <;> simp [withValue, hj]

/-- C61.  Setting the value of a node whose value is defined to be null does nothing; a read-only node refuses and nothing changes; a writable
attribute is handed to the function that sets attribute values. -/
theorem C61_set_other {f} (h : ReachQ w) (hx : w.nodes x = some n) (v : Option DStr) :
    (n.type ∈ [NodeType.document, .fragment, .doctype, .element, .entity, .entityRef, .notation_] → setNodeValue f x v w = .ok w ()) ∧
    (n.type ∈ [NodeType.text, .cdata, .comment, .pi, .attribute] → ReadOnly w x → setNodeValue f x v w = .exc w .noModificationAllowed) ∧
    (n.type = .attribute → ¬ ReadOnly w x → setNodeValue f x v w = f x v w) := by
  obtain ⟨⟨ch, hW⟩, _⟩ := h.sound
  refine ⟨fun ht => setNodeValue_skip hx ht v, fun ht hro => setNodeValue_refused hW.toCore hx ?_ hro v, fun ht hro => setNodeValue_attr hW.toCore hx ht hro v⟩
  generalize n.type = t at ht; revert ht; cases t <;> decide

/-- C61 is false of the code as to mutation events: setting the value of a Text node raises none, while storing the same text with the functions
for character data raises DOMCharacterDataModified (src/core/node.c:479-489, src/core/characterdata.c). -/
theorem C61_events_violated {f} (h : ReachQ w) (hx : w.nodes x = some n) (ht : n.type = .text) (hro : ¬ ReadOnly w x) (v : Option DStr) :
    (∃ w', setNodeValue f x v w = .ok w' () ∧ w'.log = w.log) ∧
    (∃ w' l, storeData x v w = .ok w' () ∧ (∀ j, (w'.nodes j).map Node.value = if j = x then some v else (w.nodes j).map Node.value) ∧
      w'.log = w.log ++ l ∧ ∃ e ∈ l, e.kind = .characterDataModified ∧ e.target = x ∧ e.prevValue = n.value ∧ e.newValue = v) := by
  obtain ⟨⟨ch, hW⟩, _⟩ := h.sound
  have h1 : ¬ NoValue n.type := by rw [ht]; decide
  have ho : n.owner ≠ none := by
    rcases hW.owner x n hx with ⟨d, _, o, _⟩ | ⟨o, _⟩
    · rw [o]; simp
    · rw [ht] at o; cases o
  refine ⟨⟨_, setNodeValue_run hW.toCore hx h1 (by rw [ht]; simp) hro v, by simp [World.mp]⟩, ?_⟩
  obtain ⟨w', h2, _, h4⟩ := storeData_becomes hW.toCore hx ho v
  refine ⟨w', dataEvents x n v, h2, ?_, by rw [h4]; rfl, ?_⟩
  · intro j
    rw [h4, mp_nodes]
    by_cases hj : j = x
    · subst hj; rw [hx]; simp [withValue]
    · rw [if_neg hj]; cases w.nodes j <;> simp [withValue, hj]
  · unfold dataEvents
    exact ⟨_, List.mem_append_left _ (List.mem_singleton.2 rfl), rfl, rfl, rfl, rfl⟩

/-- The hypotheses of the C61 theorems are met by a reachable memory. -/
theorem value_example : ∃ w n, ReachQ w ∧ w.nodes 3 = some n ∧ n.type = .text ∧ n.value = some (Names.lit "x") ∧ n.parent = some 1 := by
  obtain ⟨w, h1, h2⟩ := exists_q equalSample (fun w => at_ w 3 (fun n => n.type = .text && n.value = some (Names.lit "x") && n.parent = some 1)) (by decide +kernel)
  obtain ⟨n, hn, h3⟩ := at_elim h2
  simp only [Bool.and_eq_true, decide_eq_true_eq] at h3
  exact ⟨w, n, h1, hn, h3.1.1, h3.1.2, h3.2⟩

/-! ## C62 ancestor elements -/

/-- `a` is a proper ancestor of `x`. -/
def Above (w : World) (x a : NodeId) : Prop := Relation.TransGen (ParentOf w) x a

/-- `r` is the nearest proper ancestor of `x` with the property `P`, or `none` when there is no such ancestor. -/
def IsNearest (w : World) (P : NodeId → Prop) (x : NodeId) : Option NodeId → Prop
  | none => ∀ a, Above w x a → ¬ P a
  | some r => Above w x r ∧ P r ∧ ∀ a, Above w x a → P a → AncSelf w r a

/-- `a` is an Element whose name is `name`, letter case aside. -/
def Called (w : World) (name : Bytes) (a : NodeId) : Prop :=
  ∃ n s, w.nodes a = some n ∧ n.type = .element ∧ n.name = some s ∧ s.data.map asciiLower = name.map asciiLower

theorem chain_find {o : Option NodeId} {l : List NodeId} (h : Chain w o l) (f : NodeId → Bool) :
    ∀ r, l.find? f = some r → ∀ a ∈ l, f a = true → AncSelf w r a := by
  induction h with
  | nil => intro r hr; cases hr
  | @cons i n l hn hc ih =>
    intro r hr a ha hfa
    have hchain : Chain w (some i) (i :: l) := .cons hn hc
    by_cases hi : f i = true
    · rw [List.find?_cons_of_pos (by exact hi)] at hr; cases hr
      exact (hchain.mem_iff a).1 ha
    · rw [List.find?_cons_of_neg (by exact hi)] at hr
      rcases List.mem_cons.1 ha with rfl | ha
      · exact absurd hfa hi
      · exact ih r hr a ha hfa

/-- The proper ancestors of a node form a chain. -/
theorem above_chain (hW : Core w ch) (hx : w.nodes x = some n) : ∃ l, Chain w n.parent l ∧ l.length ≤ w.fresh ∧ ∀ a, a ∈ l ↔ Above w x a := by
  obtain ⟨l, hl⟩ := exists_chain hW.linked hW.wf x n hx
  cases hl with
  | cons hn hc =>
    rw [hx] at hn; cases hn
    refine ⟨_, hc, hc.length_le hW, fun a => ?_⟩
    cases hp : n.parent with
    | none =>
      rw [hp] at hc; cases hc
      simp only [List.not_mem_nil, false_iff]
      intro h
      obtain ⟨b, ⟨k, hk, e⟩, _⟩ := Relation.TransGen.head'_iff.1 h
      rw [hx] at hk; cases hk; rw [hp] at e; cases e
    | some q =>
      rw [hp] at hc
      rw [hc.mem_iff]
      constructor
      · intro h; exact Relation.TransGen.head' ⟨n, hx, hp⟩ h
      · intro h
        obtain ⟨b, ⟨k, hk, e⟩, h2⟩ := Relation.TransGen.head'_iff.1 h
        rw [hx] at hk; cases hk; rw [hp] at e; cases e; exact h2

theorem nearest_find {o : Option NodeId} {l : List NodeId} (hc : Chain w o l) (hl : ∀ a, a ∈ l ↔ Above w x a) {P : NodeId → Prop} {f : NodeId → Bool}
    (hf : ∀ a, f a = true ↔ P a) : IsNearest w P x (l.find? f) := by
  cases h : l.find? f with
  | none =>
    intro a ha hP
    exact (List.find?_eq_none.1 h) a ((hl a).2 ha) ((hf a).2 hP)
  | some r =>
    exact ⟨(hl r).1 (List.mem_of_find?_eq_some h), (hf r).1 (List.find?_some h), fun a ha hP => chain_find hc f r h a ((hl a).2 ha) ((hf a).2 hP)⟩

/-- Test for an Element. -/
def elementB (w : World) (a : NodeId) : Bool := (w.nodes a).any fun n => n.type = .element

/-- Test for an Element of the given name. -/
def calledB (w : World) (name : Bytes) (a : NodeId) : Bool := (w.nodes a).any fun n => n.type = .element && Str.caselessLwcIsEqual n.name (some name)

theorem elementB_iff (a : NodeId) : elementB w a = true ↔ IsType w a .element := by
  unfold elementB IsType
  cases w.nodes a <;> simp

theorem calledB_iff (name : Bytes) (a : NodeId) : calledB w name a = true ↔ Called w name a := by
  unfold calledB Called
  cases w.nodes a with
  | none => simp
  | some n =>
    simp only [Option.any_some, Bool.and_eq_true, decide_eq_true_eq, (Str.C06_lwc_iff n.name (some name)).2, Option.some.injEq]
    constructor
    · rintro ⟨h1, s, b, h2, rfl, h3⟩; exact ⟨n, s, rfl, h1, h2, h3⟩
    · rintro ⟨m, s, rfl, h1, h2, h3⟩; exact ⟨h1, s, name, h2, rfl, h3⟩

theorem ancestorLoop_run (T : Tidy w) (name : Bytes) {o : Option NodeId} {l : List NodeId} (h : Chain w o l) :
    ∀ k, l.length < k → ancestorLoop w name k o = .ok (l.find? (calledB w name)) := by
  induction h with
  | nil => intro k hk; cases k with
    | zero => cases hk
    | succ k => rfl
  | @cons i n l hn hc ih =>
    intro k hk
    cases k with
    | zero => simp at hk
    | succ k =>
      have hrec := ih k (by simpa using hk)
      unfold ancestorLoop
      rw [rdNode_run hn]
      by_cases ht : n.type = .element
      · rw [if_neg (by simpa using ht)]
        cases hs : n.name with
        | none => exact absurd hs (T.named i n hn ht)
        | some s =>
          have e : nameIs n name = .ok (Str.caselessLwcIsEqual (some s) (some name)) := by unfold nameIs; rw [hs]
          rw [e, Out.bind_ok]
          have e2 : calledB w name i = Str.caselessLwcIsEqual (some s) (some name) := by unfold calledB; simp [hn, ht, hs]
          cases hb : Str.caselessLwcIsEqual (some s) (some name) with
          | true => rw [if_pos rfl, List.find?_cons_of_pos (by rw [e2]; exact hb)]
          | false => rw [if_neg (by simp), List.find?_cons_of_neg (by rw [e2, hb]; simp), hrec]
      · rw [if_pos (by simpa using ht), List.find?_cons_of_neg (by unfold calledB; simp [hn, ht]), hrec]

theorem parentLoop_run {o : Option NodeId} {l : List NodeId} (h : Chain w o l) :
    ∀ k, l.length < k → parentLoop w k o = .ok (l.find? (elementB w)) := by
  induction h with
  | nil => intro k hk; cases k with
    | zero => cases hk
    | succ k => rfl
  | @cons i n l hn hc ih =>
    intro k hk
    cases k with
    | zero => simp at hk
    | succ k =>
      have hrec := ih k (by simpa using hk)
      unfold parentLoop
      rw [rdNode_run hn]
      by_cases ht : n.type = .element
      · rw [if_neg (by simpa using ht), List.find?_cons_of_pos (by unfold elementB; simp [hn, ht])]
      · rw [if_pos (by simpa using ht), List.find?_cons_of_neg (by unfold elementB; simp [hn, ht]), hrec]

theorem namedParentLoop_run (T : Tidy w) (name : Bytes) {o : Option NodeId} {l : List NodeId} (h : Chain w o l) :
    ∀ k, l.length < k → namedParentLoop w name k o = .ok ((l.find? (elementB w)).filter (calledB w name)) := by
  induction h with
  | nil => intro k hk; cases k with
    | zero => cases hk
    | succ k => rfl
  | @cons i n l hn hc ih =>
    intro k hk
    cases k with
    | zero => simp at hk
    | succ k =>
      have hrec := ih k (by simpa using hk)
      unfold namedParentLoop
      rw [rdNode_run hn]
      by_cases ht : n.type = .element
      · rw [if_neg (by simpa using ht)]
        cases hs : n.name with
        | none => exact absurd hs (T.named i n hn ht)
        | some s =>
          have e : nameIs n name = .ok (Str.caselessLwcIsEqual (some s) (some name)) := by unfold nameIs; rw [hs]
          have e2 : calledB w name i = Str.caselessLwcIsEqual (some s) (some name) := by unfold calledB; simp [hn, ht, hs]
          rw [e, Out.bind_ok, List.find?_cons_of_pos (by unfold elementB; simp [hn, ht]), Option.filter_some, e2]
      · rw [if_pos (by simpa using ht), List.find?_cons_of_neg (by unfold elementB; simp [hn, ht]), hrec]

/-- C62.  `dom_element_named_ancestor_node` finds the nearest proper ancestor that is an Element of the given name. -/
theorem C62_named_ancestor (h : ReachQ w) (hx : w.nodes x = some n) (name : Bytes) :
    ∃ r, namedAncestor w x name = .ok r ∧ IsNearest w (Called w name) x r := by
  obtain ⟨⟨ch, hW⟩, T⟩ := h.sound
  obtain ⟨l, hc, hl, hm⟩ := above_chain hW.toCore hx
  refine ⟨_, ?_, nearest_find hc hm (calledB_iff name)⟩
  unfold namedAncestor
  rw [rdNode_run hx]
  exact ancestorLoop_run T name hc _ (Nat.lt_succ_of_le hl)

/-- C62.  `dom_element_parent_node` finds the nearest proper ancestor that is an Element. -/
theorem C62_parent_element (h : ReachQ w) (hx : w.nodes x = some n) :
    ∃ r, parentElement w x = .ok r ∧ IsNearest w (fun a => IsType w a .element) x r := by
  obtain ⟨⟨ch, hW⟩, T⟩ := h.sound
  obtain ⟨l, hc, hl, hm⟩ := above_chain hW.toCore hx
  refine ⟨_, ?_, nearest_find hc hm (fun a => elementB_iff a)⟩
  unfold parentElement
  rw [rdNode_run hx]
  exact parentLoop_run hc _ (Nat.lt_succ_of_le hl)

/-- C62.  `dom_element_named_parent_node` gives the nearest Element above if it has the given name, else nothing. -/
theorem C62_named_parent (h : ReachQ w) (hx : w.nodes x = some n) (name : Bytes) :
    ∃ r, namedParent w x name = .ok r ∧
      ∀ a, r = some a ↔ IsNearest w (fun a => IsType w a .element) x (some a) ∧ Called w name a := by
  obtain ⟨⟨ch, hW⟩, T⟩ := h.sound
  obtain ⟨l, hc, hl, hm⟩ := above_chain hW.toCore hx
  have hnear := nearest_find hc hm (fun a => elementB_iff (w := w) a)
  refine ⟨_, (by unfold namedParent; rw [rdNode_run hx]; exact namedParentLoop_run T name hc _ (Nat.lt_succ_of_le hl)), fun a => ?_⟩
  rw [Option.filter_eq_some_iff, calledB_iff]
  constructor
  · rintro ⟨h1, h2⟩; rw [h1] at hnear; exact ⟨hnear, h2⟩
  · rintro ⟨h1, h2⟩
    refine ⟨?_, h2⟩
    cases hf : l.find? (elementB w) with
    | none => rw [hf] at hnear; exact absurd h1.2.1 (hnear a h1.1)
    | some b =>
      rw [hf] at hnear
      exact congrArg some (AncSelf.antisymm hW.wf (hnear.2.2 a h1.1 h1.2.1) (h1.2.2 b hnear.1 hnear.2.1))

/-- `<A><b><c/></b></A>` in a document: 1, 2, 3. -/
def ancSample : List (QCall × String) :=
  [(.tree .createDocument, ""), (.tree (.createNode 0 .element (some (Names.lit "A")) none), ""),
   (.tree (.createNode 0 .element (some (Names.lit "b")) none), ""), (.tree (.createNode 0 .element (some (Names.lit "c")) none), ""),
   (.tree (.appendChild 0 1), ""), (.tree (.appendChild 1 2), ""), (.tree (.appendChild 2 3), "")]

/-- The hypotheses of the C62 theorems are met by a reachable memory. -/
theorem ancestor_example : ∃ w, ReachQ w ∧ namedAncestor w 3 [97] = .ok (some 1) ∧ namedParent w 3 [97] = .ok none ∧ namedParent w 3 [66] = .ok (some 2) ∧
    parentElement w 3 = .ok (some 2) ∧ parentElement w 1 = .ok none := by
  obtain ⟨w, h1, h2⟩ := exists_q ancSample (fun w => decide (namedAncestor w 3 [97] = .ok (some 1) ∧ namedParent w 3 [97] = .ok none ∧
    namedParent w 3 [66] = .ok (some 2) ∧ parentElement w 3 = .ok (some 2) ∧ parentElement w 1 = .ok none)) (by decide +kernel)
  exact ⟨w, h1, of_decide_eq_true h2⟩

/-! ## hasAttributes -/

/-- C36 is false of the code as to `hasAttributes`: it is true of every Element (src/core/element.c:1345-1351), also of one without attributes. -/
theorem C36_has_attributes_violated : ∃ w n, ReachQ w ∧ w.nodes 1 = some n ∧ n.type = .element ∧ n.attrs = [] ∧ hasAttributes w 1 = .ok true := by
  obtain ⟨w, h1, h2⟩ := exists_q ancSample (fun w => at_ w 1 (fun n => n.type = .element && n.attrs = []) && decide (hasAttributes w 1 = .ok true)) (by decide +kernel)
  simp only [Bool.and_eq_true, decide_eq_true_eq] at h2
  obtain ⟨n, hn, h3⟩ := at_elim h2.1
  simp only [Bool.and_eq_true, decide_eq_true_eq] at h3
  exact ⟨w, n, h1, hn, h3.1, h3.2, h2.2⟩

end Dom.Query
