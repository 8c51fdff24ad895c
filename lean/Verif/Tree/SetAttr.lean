import Verif.Tree.SetText
/-!
# C79: attributes set and removed by name, in the tree

`dom_element_set_attribute`, `dom_element_remove_attribute` and `dom_attr_set_value` with the nodes they create and destroy.  (The lists in memory, the typed values, the
events and the case of names in HTML documents are modelled in Verif/Attr, which has no nodes below an attribute.)
-/
set_option linter.unusedSimpArgs false
namespace Dom.Tree
open Dom.Str (DStr)

/-! ## The model -/

/-- The test in `_dom_element_attr_list_find_by_name`, src/core/element.c:207-210. -/
def sameAttr (name : DStr) (ns : Option DStr) (x : AttrEntry) : Bool :=
  (match ns with
   | none => true
   | some n => x.ns.isSome && Str.isEqual (some n) x.ns) && Str.isEqual (some name) (some x.name)

/-- The loop that takes off the children of an attribute, src/core/attr.c:573-584. -/
def dropLoop (kill : NodeId → M Unit) : Nat → Option NodeId → M Unit
  | _, none => pure ()
  | 0, some _ => M.crash .diverge
  | f + 1, some c => do
      let n ← getNode c
      modNode c fun n => { n with parent := none, prev := none, next := none }
      tryDestroy kill c
      dropLoop kill f n.next

/-- Making the text the value, src/core/attr.c:586-590. -/
def linkValue (a t : NodeId) : M Unit := do
  modNode t fun n => { n with parent := some a }
  modNode a fun n => { n with first := some t, last := some t }
  unref t
  removePending t

/-- `_dom_attr_set_value`, src/core/attr.c:534-596, for an attribute without a typed value.  `dom_element_parse_attribute` (src/core/element.h:205-212) follows the parent
pointer and gives the value back (src/core/element.c:1506-1517). -/
def setValue (a : NodeId) (v : Option DStr) : M Unit := do
  let ro ← readonly a
  throwIf ro .noModificationAllowed
  let an ← getNode a
  let p ← deref an.parent
  let _ ← getNode p
  let d ← deref an.owner
  let _ ← getNode d
  let t ← createNode d .text (some textName) v
  let an ← getNode a
  let b ← bound
  dropLoop (destroy (b + 1)) b an.first
  linkValue a t

/-- After a failure in `_dom_element_set_attr` the new attribute is given up, src/core/element.c:1703-1707. -/
def orGiveUp (a : NodeId) (m : M Unit) : M Unit := fun w =>
  match m w with
  | .ok w' _ => .ok w' ()
  | .exc w' e => (do
      modNode a fun n => { n with parent := none }
      unref a
      M.throw e : M Unit) w'
  | .fault f => .fault f

/-- The new attribute, src/core/element.c:1686-1756.  Simplified: the events are left out, and the list of classes is not represented. -/
def addAttr (e : NodeId) (owner : Option NodeId) (name : DStr) (ns : Option DStr) (v : Option DStr) : M Unit := do
  let d ← deref owner
  let _ ← getNode d
  let a ← initNode { type := .attribute, name := some name, ns := ns, owner := some d }
  modNode a fun n => { n with parent := some e }
  orGiveUp a (setValue a v)
  modNode e fun n => { n with attrs := n.attrs ++ [{ name := name, ns := ns, node := a }] }
  unref a
  removePending a

/-- The two branches of `_dom_element_set_attr`, src/core/element.c:1659-1757. -/
def setFound (found : Option AttrEntry) (e : NodeId) (owner : Option NodeId) (name : DStr) (ns : Option DStr) (v : Option DStr) : M Unit :=
  match found with
  | some x => setValue x.node v
  | none => addAttr e owner name ns v

/-- `_dom_element_set_attr`, src/core/element.c:1642-1760. -/
def setAttr (e : NodeId) (name : DStr) (ns : Option DStr) (v : Option DStr) : M Unit := do
  throwIf (!Names.validateAttributeName (some name)) .invalidCharacter
  let ro ← readonly e
  throwIf ro .noModificationAllowed
  let en ← getNode e
  setFound (en.attrs.find? (sameAttr name ns)) e en.owner name ns v

/-- Taking the entry out, src/core/element.c:1786-1832: the attribute is kept for the event, and given up then. -/
def dropFound (found : Option AttrEntry) (e : NodeId) : M Unit :=
  match found with
  | none => pure ()
  | some x => do
      ref x.node
      modNode e fun n => { n with attrs := n.attrs.filter (fun y => decide (y.node ≠ x.node)) }
      let b ← bound
      attrKill (destroy (b + 1)) x
      unref x.node

/-- `_dom_element_remove_attr`, src/core/element.c:1770-1839.  Simplified: the events are left out. -/
def removeAttr (e : NodeId) (name : DStr) (ns : Option DStr) : M Unit := do
  let ro ← readonly e
  throwIf ro .noModificationAllowed
  let en ← getNode e
  dropFound (en.attrs.find? (sameAttr name ns)) e

/-- The body of the loop in `_dom_attr_get_value`, src/core/attr.c:480-519; `_dom_entity_reference_get_textual_representation` (src/core/entity_ref.c:103-110) is not
supported. -/
def addValue (n : Node) (v : DStr) : M DStr :=
  match n.type, n.value with
  | .text, some t => liftOut (Str.concat (some v) (some t))
  | .entityRef, _ => M.throw .notSupported
  | _, _ => pure v

/-- The loop over the children in `_dom_attr_get_value`, src/core/attr.c:479-520. -/
def valueLoop : Nat → DStr → Option NodeId → M DStr
  | _, v, none => pure v
  | 0, _, some _ => M.crash .diverge
  | f + 1, v, some c => do
      let n ← getNode c
      let v' ← addValue n v
      valueLoop f v' n.next

/-- The shortcut in `_dom_attr_get_value`, src/core/attr.c:450-456. -/
def singleText (n : Node) : M (Option DStr) :=
  match n.first with
  | none => pure none
  | some c => if n.last = some c then (do
      let m ← getNode c
      pure (if m.type = .text then m.value else none)) else pure none

/-- `_dom_attr_get_value`, src/core/attr.c:441-524, for an attribute without a typed value (without children the loop gives the empty string as well). -/
def getValue (a : NodeId) : M DStr := do
  let n ← getNode a
  let one ← singleText n
  (match one with
   | some v => pure v
   | none => do
      let b ← bound
      valueLoop b Str.emptyString n.first)

/-- `_dom_element_get_attr`, src/core/element.c:1613-1630. -/
def getAttr (e : NodeId) (name : DStr) (ns : Option DStr) : M (Option DStr) := do
  let en ← getNode e
  (match en.attrs.find? (sameAttr name ns) with
   | none => pure none
   | some x => do
      let v ← getValue x.node
      pure (some v))

variable {w w' v : World} {ch ch' : Children} {x c p j a t e d : NodeId} {n cn an tn en dn : Node}

/-! ## The value is replaced -/

/-- The memory when the text `t` has become the only child of the attribute `a`. -/
def revalued (w : World) (a t : NodeId) : World :=
  { w with nodes := fun j =>
      match w.nodes j with
      | none => none
      | some m =>
        if j = a then some { m with first := some t, last := some t }
        else if j = t then some { m with parent := some a, pendingIn := none, refcnt := 0 }
        else if m.parent = some a then (if m.refcnt = 0 then none else some { m with parent := none, prev := none, next := none, pendingIn := m.owner })
        else some m }

theorem value_leaf (S : Sound w ch) (ha : w.nodes a = some an) (hat : an.type = .attribute) (hc : c ∈ ch a) : ch c = [] := by
  obtain ⟨cn, hcn, _⟩ := S.wf.linked.alive_child hc
  have hty := S.wf.types a an c cn ha hc hcn
  rw [hat] at hty
  cases h : ch c with
  | nil => rfl
  | cons k l =>
    have hk : k ∈ ch c := by rw [h]; simp
    obtain ⟨kn, hkn, _, hkp⟩ := S.wf.linked.alive_child hk
    have hty2 := S.wf.types c cn k kn hcn hk hkn
    have hen := S.ents k kn c cn hkn hkp hcn
    cases hty with
    | content hp _ => simp at hp
    | attr hc =>
      simp only [List.mem_cons, List.not_mem_nil, or_false] at hc
      rcases hc with hc | hc
      · rw [hc] at hty2
        cases hty2 with
        | content hp _ => simp at hp
      · exact absurd hc hen.1

theorem text_alone (hC : Core w ch) (ht : w.nodes t = some tn) (htt : tn.type = .text) : ch t = [] := by
  cases h : ch t with
  | nil => rfl
  | cons k l =>
    have hk : k ∈ ch t := by rw [h]; simp
    obtain ⟨kn, hkn, _, hkp⟩ := hC.linked.alive_child hk
    have hty2 := hC.types t tn k kn ht hk hkn
    rw [htt] at hty2
    cases hty2 with
    | content hp _ => simp at hp

/-- A text is the parent of nothing. -/
theorem text_no_kid (hC : Core w ch) (ht : w.nodes t = some tn) (htt : tn.type = .text) (hc : w.nodes c = some cn) : cn.parent ≠ some t := by
  intro hp
  by_cases hca : cn.type = .attribute
  · obtain ⟨m, hm, hmt⟩ := hC.linked.attrUp c cn t hc hca hp
    rw [ht] at hm; cases hm; rw [htt] at hmt; cases hmt
  · have := hC.linked.up c cn t hc hca hp
    rw [text_alone hC ht htt] at this; cases this

theorem Sound.revalued (S : Sound w ch) (ha : w.nodes a = some an) (hat : an.type = .attribute) (ht : w.nodes t = some tn) (htt : tn.type = .text)
    (htp : tn.parent = none) (hto : tn.owner = an.owner) : Sound (Tree.revalued w a t) (setCh ch a [t]) := by
  have hC := S.wf.toCore
  have hta : t ≠ a := by rintro rfl; rw [ha] at ht; cases ht; rw [hat] at htt; cases htt
  have hmem : ∀ q, a ∉ ch q := by
    intro q hq
    obtain ⟨m, hm, h, _⟩ := hC.linked.alive_child hq
    rw [ha] at hm; cases hm; exact h hat
  have hkid : ∀ c cn, w.nodes c = some cn → cn.parent = some a → c ∈ ch a ∧ cn.type ∈ [NodeType.text, .entityRef] := by
    intro c cn hc hp
    have hna : cn.type ≠ .attribute := by
      intro h
      obtain ⟨m, hm, hmt⟩ := hC.linked.attrUp c cn a hc h hp
      rw [ha] at hm; cases hm; rw [hat] at hmt; cases hmt
    have h1 := hC.linked.up c cn a hc hna hp
    have h2 := hC.types a an c cn ha h1 hc
    rw [hat] at h2
    cases h2 with
    | content hp _ => simp at hp
    | attr h => exact ⟨h1, h⟩
  have hback : ∀ {j m'}, (Tree.revalued w a t).nodes j = some m' → ∃ m, w.nodes j = some m ∧
      ((j = a ∧ m = an ∧ m' = { an with first := some t, last := some t }) ∨ (j = t ∧ m = tn ∧ m' = { tn with parent := some a, pendingIn := none, refcnt := 0 }) ∨
        (j ≠ a ∧ j ≠ t ∧ m.parent = some a ∧ m.refcnt ≠ 0 ∧ m' = { m with parent := none, prev := none, next := none, pendingIn := m.owner }) ∨
        (j ≠ a ∧ j ≠ t ∧ m.parent ≠ some a ∧ m' = m)) := by
    intro j m' h
    unfold Tree.revalued at h
    cases hj : w.nodes j with
    | none => simp [hj] at h
    | some m =>
      refine ⟨m, rfl, ?_⟩
      simp only [hj] at h
      by_cases h1 : j = a
      · subst h1; rw [ha] at hj; cases hj
        rw [if_pos rfl] at h; cases h; exact .inl ⟨rfl, rfl, rfl⟩
      · rw [if_neg h1] at h
        by_cases h2 : j = t
        · subst h2; rw [ht] at hj; cases hj
          rw [if_pos rfl] at h; cases h; exact .inr (.inl ⟨rfl, rfl, rfl⟩)
        · rw [if_neg h2] at h
          by_cases h3 : m.parent = some a
          · rw [if_pos h3] at h
            by_cases h4 : m.refcnt = 0
            · rw [if_pos h4] at h; cases h
            · rw [if_neg h4] at h; cases h; exact .inr (.inr (.inl ⟨h1, h2, h3, h4, rfl⟩))
          · rw [if_neg h3] at h; cases h; exact .inr (.inr (.inr ⟨h1, h2, h3, rfl⟩))
  have hwa : (Tree.revalued w a t).nodes a = some { an with first := some t, last := some t } := by simp [Tree.revalued, ha]
  have hwt : (Tree.revalued w a t).nodes t = some { tn with parent := some a, pendingIn := none, refcnt := 0 } := by simp [Tree.revalued, ht, hta]
  have hwo : ∀ {j m}, w.nodes j = some m → j ≠ a → j ≠ t → m.parent ≠ some a → (Tree.revalued w a t).nodes j = some m := by
    intro j m hj h1 h2 h3
    simp [Tree.revalued, hj, h1, h2, h3]
  have hdead : ∀ {j}, (Tree.revalued w a t).nodes j = none → w.nodes j = none ∨ ∃ m, w.nodes j = some m ∧ m.parent = some a ∧ j ≠ a ∧ j ≠ t := by
    intro j h
    cases hj : w.nodes j with
    | none => exact .inl rfl
    | some m =>
      right
      refine ⟨m, rfl, ?_, ?_, ?_⟩
      · by_contra h3
        by_cases h1 : j = a
        · subst h1; rw [hwa] at h; cases h
        · by_cases h2 : j = t
          · subst h2; rw [hwt] at h; cases h
          · rw [hwo hj h1 h2 h3] at h; cases h
      · rintro rfl; rw [hwa] at h; cases h
      · rintro rfl; rw [hwt] at h; cases h
  have hdocs : ∀ {d dn}, w.nodes d = some dn → (dn.type = .document ∨ dn.type = .element) → (Tree.revalued w a t).nodes d = some dn := by
    intro d dn hd hdt
    refine hwo hd ?_ ?_ ?_
    · rintro rfl; rw [ha] at hd; cases hd; rw [hat] at hdt; rcases hdt with h | h <;> cases h
    · rintro rfl; rw [ht] at hd; cases hd; rw [htt] at hdt; rcases hdt with h | h <;> cases h
    · intro h
      have := (hkid d dn hd h).2
      rcases hdt with h | h <;> rw [h] at this <;> simp at this
  have hfr : (Tree.revalued w a t).fresh = w.fresh := rfl
  have htl := text_alone hC ht htt
  obtain ⟨hto1, hto2⟩ := hC.linked.orphan t tn ht (.inl htp)
  generalize hw' : Tree.revalued w a t = w' at *
  have hL : Linked w' (setCh ch a [t]) := by
    refine ⟨?_, ?_, ?_, ?_, ?_⟩
    · intro p n' hp'
      obtain ⟨m, hm, h⟩ := hback hp'
      have hl := hC.linked.loc p m hm
      obtain ⟨m2, hm2, e1, e2⟩ := hl.ends
      rw [hm] at hm2; cases hm2
      by_cases hpa : p = a
      · subst hpa
        rw [hwa] at hp'; cases hp'
        refine ⟨⟨_, hwa, by simp, by simp⟩, ?_, by simp⟩
        intro s c b hsb
        rw [setCh_same] at hsb
        have hs : s = [] := by
          cases s with
          | nil => rfl
          | cons y s => simp at hsb
        subst hs
        simp only [List.nil_append, List.cons.injEq] at hsb
        obtain ⟨rfl, rfl⟩ := hsb
        exact ⟨_, hwt, by rw [htt]; simp, rfl, hto1, hto2⟩
      · rw [← setCh_ne ch [t] hpa] at e1 e2
        refine ⟨⟨n', hp', ?_, ?_⟩, ?_, by rw [setCh_ne ch _ hpa]; exact hl.nodup⟩
        · rw [← e1]
          rcases h with ⟨rfl, _⟩ | ⟨_, rfl, rfl⟩ | ⟨_, _, _, _, rfl⟩ | ⟨_, _, _, rfl⟩
          · exact absurd rfl hpa
          all_goals rfl
        · rw [← e2]
          rcases h with ⟨rfl, _⟩ | ⟨_, rfl, rfl⟩ | ⟨_, _, _, _, rfl⟩ | ⟨_, _, _, rfl⟩
          · exact absurd rfl hpa
          all_goals rfl
        · intro s c b hsb
          rw [setCh_ne ch _ hpa] at hsb
          obtain ⟨k, hk, k1, k2, k3, k4⟩ := hl.kids s c b hsb
          refine ⟨k, hwo hk ?_ ?_ ?_, k1, k2, k3, k4⟩
          · rintro rfl; rw [ha] at hk; cases hk; exact k1 hat
          · rintro rfl; rw [ht] at hk; cases hk; rw [htp] at k2; cases k2
          · rw [k2]; simpa using hpa
    · intro p hp'
      have hpa : p ≠ a := by rintro rfl; rw [hwa] at hp'; cases hp'
      rw [setCh_ne ch _ hpa]
      rcases hdead hp' with h | ⟨m, hm, h, _⟩
      · exact hC.linked.dead p h
      · exact value_leaf S ha hat (hkid p m hm h).1
    · intro c n' p hc hty hpar
      obtain ⟨m, hm, h⟩ := hback hc
      rcases h with ⟨_, _, rfl⟩ | ⟨rfl, rfl, rfl⟩ | ⟨_, _, _, _, rfl⟩ | ⟨_, _, h3, rfl⟩
      · exact absurd hat hty
      · cases hpar; simp
      · cases hpar
      · have hpa : p ≠ a := by rintro rfl; exact h3 hpar
        rw [setCh_ne ch _ hpa]
        exact hC.linked.up c n' p hm hty hpar
    · intro c n' p hc hty hpar
      obtain ⟨m, hm, h⟩ := hback hc
      have hkey : m.type = .attribute ∧ m.parent = some p := by
        rcases h with ⟨_, rfl, rfl⟩ | ⟨rfl, rfl, rfl⟩ | ⟨_, _, _, _, rfl⟩ | ⟨_, _, h3, rfl⟩
        · exact ⟨hty, hpar⟩
        · have hty : m.type = .attribute := hty
          rw [htt] at hty; cases hty
        · cases hpar
        · exact ⟨hty, hpar⟩
      obtain ⟨en, he, het⟩ := hC.linked.attrUp c m p hm hkey.1 hkey.2
      exact ⟨en, hdocs he (.inr het), het⟩
    · intro c n' hc hor
      obtain ⟨m, hm, h⟩ := hback hc
      rcases h with ⟨_, rfl, rfl⟩ | ⟨rfl, rfl, rfl⟩ | ⟨_, _, _, _, rfl⟩ | ⟨_, _, h3, rfl⟩
      · exact hC.linked.orphan c m hm (.inr hat)
      · exact ⟨hto1, hto2⟩
      · exact ⟨rfl, rfl⟩
      · exact hC.linked.orphan c _ hm hor
  have hnoanc : ¬ AncSelf w a t := by
    intro h
    rcases Relation.ReflTransGen.cases_tail h with h | ⟨z, _, zn, hz, hzp⟩
    · exact hta h
    · exact text_no_kid hC ht htt hz hzp
  have hsame : ∀ {j m'}, w'.nodes j = some m' → ∃ m, w.nodes j = some m ∧ m'.type = m.type ∧ m'.owner = m.owner ∧ m'.host = m.host ∧ m'.attrs = m.attrs := by
    intro j m' h
    obtain ⟨m, hm, h⟩ := hback h
    refine ⟨m, hm, ?_⟩
    rcases h with ⟨_, rfl, rfl⟩ | ⟨_, rfl, rfl⟩ | ⟨_, _, _, _, rfl⟩ | ⟨_, _, _, rfl⟩ <;> exact ⟨rfl, rfl, rfl, rfl⟩
  have hW' : WF w' (setCh ch a [t]) := by
    refine ⟨⟨hL, ?_, ?_, ?_, ?_, ?_, ?_⟩, ?_⟩
    · intro i n' hi
      obtain ⟨m, hm, _⟩ := hback hi
      rw [hfr]; exact hC.bnd i m hm
    · refine wf_edge hC.wf hnoanc (e := a) (a := t) ?_ ?_
      · rintro c p hct ⟨n', hc, hpar⟩
        obtain ⟨m, hm, h⟩ := hback hc
        rcases h with ⟨_, rfl, rfl⟩ | ⟨h, _⟩ | ⟨_, _, _, _, rfl⟩ | ⟨_, _, h3, rfl⟩
        · exact ⟨m, hm, hpar⟩
        · exact absurd h hct
        · cases hpar
        · exact ⟨_, hm, hpar⟩
      · rintro p ⟨n', hc, hpar⟩
        rw [hwt] at hc; cases hc; cases hpar; rfl
    · intro i n' hi
      obtain ⟨m, hm, h1, h2, _⟩ := hsame hi
      rcases hC.owner i m hm with ⟨d', dn', k1, k2, k3⟩ | ⟨k1, k2, k3⟩
      · exact .inl ⟨d', dn', by rw [h2]; exact k1, hdocs k2 (.inl k3), k3⟩
      · right
        refine ⟨by rw [h1]; exact k1, by rw [h2]; exact k2, ?_⟩
        obtain ⟨m2, hm2, h⟩ := hback hi
        rw [hm] at hm2; cases hm2
        rcases h with ⟨_, rfl, rfl⟩ | ⟨_, rfl, rfl⟩ | ⟨_, _, _, _, rfl⟩ | ⟨_, _, h3, rfl⟩
        · exact k3
        · rw [htt] at k1; cases k1
        · rfl
        · exact k3
    · intro i n' hi hty
      obtain ⟨m, hm, h1, h2, _⟩ := hsame hi
      rw [h2]; exact hC.ownDoc i m hm (by rw [← h1]; exact hty)
    · intro i n' p pn' hi hpar hp'
      obtain ⟨pm, hpm, _, o2, _⟩ := hsame hp'
      obtain ⟨m, hm, h⟩ := hback hi
      rw [o2]
      rcases h with ⟨_, rfl, rfl⟩ | ⟨_, rfl, rfl⟩ | ⟨_, _, _, _, rfl⟩ | ⟨_, _, h3, rfl⟩
      · exact hC.ownSame i m p pm hm hpar hpm
      · cases hpar
        rw [ha] at hpm; cases hpm; exact hto
      · cases hpar
      · exact hC.ownSame i _ p pm hm hpar hpm
    · intro p pn' c cn' hp' hc hcn
      obtain ⟨pm, hpm, t1, _⟩ := hsame hp'
      obtain ⟨cm, hcm, t2, _⟩ := hsame hcn
      rw [t1, t2]
      by_cases hpa : p = a
      · subst hpa
        rw [setCh_same] at hc
        simp only [List.mem_singleton] at hc
        subst hc
        rw [ha] at hpm; cases hpm
        rw [ht] at hcm; cases hcm
        rw [hat, htt]; exact .attr (by simp)
      · rw [setCh_ne ch _ hpa] at hc
        exact hC.types p pm c cm hpm hc hcm
    · intro i n' hi
      obtain ⟨m, hm, h⟩ := hback hi
      rcases h with ⟨_, rfl, rfl⟩ | ⟨_, rfl, rfl⟩ | ⟨_, _, h3, _, rfl⟩ | ⟨_, _, h3, rfl⟩
      · exact S.wf.pending i m hm
      · left; simp
      · left
        have := (hkid i m hm h3).2
        have : m.type ≠ .document := by intro h; rw [h] at this; simp at this
        simp [this]
      · exact S.wf.pending i _ hm
  refine ⟨hW', ?_, ?_, ?_, ?_, ?_, ?_⟩
  · have hat' : ∀ q, attrNodes w' q = attrNodes w q := by
      intro q
      unfold attrNodes
      cases hq : w'.nodes q with
      | some m' =>
        obtain ⟨m, hm, h1, _, _, h2⟩ := hsame hq
        rw [hm]; simp [h1, h2]
      | none =>
        rcases hdead hq with h | ⟨m, hm, h, _⟩
        · rw [h]
        · have := (hkid q m hm h).2
          have : m.type ≠ .element := by intro h; rw [h] at this; simp at this
          rw [hm]; simp [this]
    intro q
    rw [hat' q]
    refine ⟨(S.attrs q).1, ?_, ?_⟩
    · intro c hc
      obtain ⟨m, hm, h2, h3⟩ := (S.attrs q).2.1 c hc
      by_cases hca : c = a
      · subst hca; rw [ha] at hm; cases hm; exact ⟨_, hwa, h2, h3⟩
      · refine ⟨m, hwo hm hca ?_ ?_, h2, h3⟩
        · rintro rfl; rw [ht] at hm; cases hm; rw [htt] at h2; cases h2
        · intro h
          have := (hkid c m hm h).2
          rw [h2] at this; simp at this
    · intro c n' hc hty hpar
      obtain ⟨m, hm, h⟩ := hback hc
      rcases h with ⟨_, rfl, rfl⟩ | ⟨rfl, rfl, rfl⟩ | ⟨_, _, _, _, rfl⟩ | ⟨_, _, h3, rfl⟩
      · exact (S.attrs q).2.2 c m hm hty hpar
      · have hty : m.type = .attribute := hty
        rw [htt] at hty; cases hty
      · cases hpar
      · exact (S.attrs q).2.2 c _ hm hty hpar
  · intro j m' hj
    obtain ⟨m, hm, _, _, h, _⟩ := hsame hj
    rw [h]; exact S.noHost j m hm
  · intro j m' hj hp hnd
    obtain ⟨m, hm, h⟩ := hback hj
    rcases h with ⟨_, rfl, rfl⟩ | ⟨rfl, rfl, rfl⟩ | ⟨_, _, _, h4, rfl⟩ | ⟨_, _, h3, rfl⟩
    · exact S.held j m hm hp hnd
    · cases hp
    · exact Nat.pos_of_ne_zero h4
    · exact S.held j _ hm hp hnd
  · intro d' dn' hd hdt hz
    obtain ⟨m, hm, h1, _⟩ := hsame hd
    have hd' := hdocs hm (.inl (by rw [← h1]; exact hdt))
    rw [hd] at hd'; cases hd'
    obtain ⟨k1, i, mi, hi, hne, hio⟩ := S.docs d' dn' hm hdt hz
    refine ⟨k1, ?_⟩
    cases hi' : w'.nodes i with
    | some mi' =>
      obtain ⟨mi2, hmi2, _, h2, _⟩ := hsame hi'
      rw [hi] at hmi2; cases hmi2
      exact ⟨i, mi', hi', hne, by rw [h2]; exact hio⟩
    | none =>
      rcases hdead hi' with h | ⟨mi2, hmi2, h, _⟩
      · rw [hi] at h; cases h
      · rw [hi] at hmi2; cases hmi2
        refine ⟨a, _, hwa, ?_, ?_⟩
        · rintro rfl; rw [ha] at hm; cases hm; rw [hat] at hdt; cases hdt
        · show an.owner = some d'
          rw [← hC.ownSame i mi a an hi h ha]; exact hio
  · intro f fn' d' dn' hf hft hpe ho hd
    obtain ⟨dm, hdm, _⟩ := hsame hd
    obtain ⟨m, hm, h⟩ := hback hf
    have hfm : fn' = m := by
      rcases h with ⟨_, rfl, rfl⟩ | ⟨rfl, rfl, rfl⟩ | ⟨_, _, h3, _, rfl⟩ | ⟨_, _, h3, rfl⟩
      · have hft : m.type = .fragment := hft
        rw [hat] at hft; cases hft
      · have hft : m.type = .fragment := hft
        rw [htt] at hft; cases hft
      · have := (hkid f m hm h3).2
        have hft : m.type = .fragment := hft
        rw [hft] at this; simp at this
      · rfl
    subst hfm
    have hdt : dm.type = .document := by
      rcases hC.owner f fn' hm with ⟨d2, dn2, k1, k2, k3⟩ | ⟨k1, _⟩
      · rw [ho] at k1; cases k1; rw [hdm] at k2; cases k2; exact k3
      · rw [hft] at k1; cases k1
    have := hdocs hdm (.inl hdt)
    rw [hd] at this; cases this
    exact S.frags f fn' d' dn' hm hft hpe ho hdm
  · intro c n' q qn' hc hpar hq
    obtain ⟨qm, hqm, t1, _⟩ := hsame hq
    rw [t1]
    obtain ⟨m, hm, h⟩ := hback hc
    rcases h with ⟨_, rfl, rfl⟩ | ⟨rfl, rfl, rfl⟩ | ⟨_, _, _, _, rfl⟩ | ⟨_, _, h3, rfl⟩
    · exact S.ents c m q qm hm hpar hqm
    · cases hpar
      rw [ha] at hqm; cases hqm
      rw [hat]; simp
    · cases hpar
    · exact S.ents c _ q qm hm hpar hqm

/-! ## The run of `setValue` -/

/-- What happens to a child of the attribute: freed, or on its own and pending. -/
def strip (w : World) (c : NodeId) : World :=
  { w with nodes := fun j =>
      if j = c then
        (match w.nodes c with
         | none => none
         | some m => if m.refcnt = 0 then none else some { m with parent := none, prev := none, next := none, pendingIn := m.owner })
      else w.nodes j }

/-- `l` is linked by `next`, and its nodes are leaves that have a parent. -/
inductive Leaves (w : World) : List NodeId → Prop
  | nil : Leaves w []
  | cons {c : NodeId} {l : List NodeId} {m : Node} {d : NodeId} {dn : Node} : w.nodes c = some m → m.next = l.head? → m.first = none → m.pendingIn = none →
      m.type ∈ [.text, .entityRef] → m.owner = some d → w.nodes d = some dn → d ≠ c → dn.type = .document → Leaves w l → Leaves w (c :: l)

theorem Leaves.strip {l : List NodeId} (h : Leaves w l) (hc : c ∉ l) (hcn : w.nodes c = some cn) (hcd : cn.type ≠ .document) : Leaves (Tree.strip w c) l := by
  induction h with
  | nil => exact .nil
  | @cons k l m d dn h1 h2 h3 h4 h5 h6 h7 h8 h9 _ ih =>
    simp only [List.mem_cons, not_or] at hc
    have e1 : (Tree.strip w c).nodes k = some m := by simp [Tree.strip, Ne.symm hc.1, h1]
    have hdc : d ≠ c := by rintro rfl; rw [h7] at hcn; cases hcn; exact hcd h9
    have e2 : (Tree.strip w c).nodes d = some dn := by simp [Tree.strip, hdc, h7]
    exact .cons e1 h2 h3 h4 h5 h6 e2 h8 h9 (ih hc.2)

theorem leafDestroy_run {kill : NodeId → M Unit} {u : World} (hx : u.nodes x = some n) (ht : n.type ∈ [NodeType.text, .entityRef]) (hf : n.first = none)
    (hp : n.pendingIn = none) : destroyBody kill x u = .ok ((u.upd x (emptied n)).drop x) () := by
  have key : (finalise kill x >>= fun _ => freeNode x) u = .ok ((u.upd x (emptied n)).drop x) () := by
    rw [bind_ok (finalise_leaf hx hf hp), freeNode_run (n := emptied n) (by simp [World.upd])]
    rfl
  unfold destroyBody
  rw [get_bind hx]
  simp only [List.mem_cons, List.not_mem_nil, or_false] at ht
  rcases ht with ht | ht <;> rw [ht] <;> exact key

theorem strip_run (h1 : w.nodes c = some cn) (h3 : cn.first = none) (h4 : cn.pendingIn = none) (h5 : cn.type ∈ [NodeType.text, .entityRef]) (h6 : cn.owner = some d)
    (h7 : w.nodes d = some dn) (h8 : d ≠ c) (b : Nat) :
    tryDestroy (destroy (b + 1)) c (w.upd c { cn with parent := none, prev := none, next := none }) = .ok (strip w c) () := by
  unfold tryDestroy
  rw [get_bind (upd_same _ _ _)]
  rw [if_pos (show Option.isNone (none : Option NodeId) = true from rfl)]
  by_cases hz : cn.refcnt = 0
  · rw [if_pos hz]
    unfold destroy
    rw [leafDestroy_run (upd_same w c { cn with parent := none, prev := none, next := none }) h5 h3 h4]
    have e : ∀ u u' : World, u.nodes = u'.nodes → u.fresh = u'.fresh → u.log = u'.log → u = u' := by
      intro u u' a1 a2 a3; cases u; cases u'; simp_all
    congr 1
    refine e _ _ ?_ rfl rfl
    funext j
    by_cases hj : j = c
    · simp [strip, World.drop, World.upd, hj, h1, hz]
    · simp [strip, World.drop, World.upd, hj]
  · rw [if_neg hz, if_pos (show Option.isNone cn.pendingIn = true by rw [h4]; rfl)]
    rw [show (deref cn.owner : M NodeId) = pure d by rw [h6]; rfl]
    rw [pure_bind', get_bind (n := dn) (by rw [upd_ne _ _ h8]; exact h7), modNode_run (upd_same _ _ _)]
    have e : ∀ u u' : World, u.nodes = u'.nodes → u.fresh = u'.fresh → u.log = u'.log → u = u' := by
      intro u u' a1 a2 a3; cases u; cases u'; simp_all
    congr 1
    refine e _ _ ?_ rfl rfl
    funext j
    by_cases hj : j = c
    · simp [strip, World.upd, hj, h1, hz, h6]
    · simp [strip, World.upd, hj]

theorem drop_run (b : Nat) : ∀ {l : List NodeId} {w : World} {f : Nat}, Leaves w l → l.Nodup → l.length ≤ f → dropLoop (destroy (b + 1)) f l.head? w = .ok (l.foldl strip w) ()
  | [], w, f, _, _, _ => by cases f <;> rfl
  | c :: l, w, 0, _, _, hf => by simp at hf
  | c :: l, w, f + 1, hl, hn, hf => by
    cases hl with
    | @cons _ _ m d dn h1 h2 h3 h4 h5 h6 h7 h8 h9 ht =>
      simp only [List.nodup_cons] at hn
      unfold dropLoop
      simp only [List.head?_cons]
      rw [get_bind h1, mod_bind h1, bind_ok (strip_run h1 h3 h4 h5 h6 h7 h8 b), h2]
      exact drop_run b (ht.strip hn.1 h1 (by intro h; rw [h] at h5; simp at h5)) hn.2 (by simpa using hf)

theorem strip_all : ∀ {l : List NodeId} {w : World}, l.Nodup → ∀ j, (l.foldl strip w).nodes j = if j ∈ l then
    (match w.nodes j with
     | none => none
     | some m => if m.refcnt = 0 then none else some { m with parent := none, prev := none, next := none, pendingIn := m.owner }) else w.nodes j
  | [], w, _, j => by simp
  | c :: l, w, hn, j => by
    simp only [List.nodup_cons] at hn
    rw [List.foldl_cons, strip_all hn.2 j]
    by_cases hj : j = c
    · subst hj; rw [if_neg hn.1, if_pos (by simp)]; simp [strip]
    · have e : (strip w c).nodes j = w.nodes j := by simp [strip, hj]
      rw [e]
      by_cases hl : j ∈ l
      · rw [if_pos hl, if_pos (by simp [hl])]
      · rw [if_neg hl, if_neg (by simp [hl, hj])]

theorem strip_fresh : ∀ {l : List NodeId} {w : World}, (l.foldl strip w).fresh = w.fresh ∧ (l.foldl strip w).log = w.log
  | [], _ => ⟨rfl, rfl⟩
  | c :: l, w => by rw [List.foldl_cons]; exact strip_fresh (w := strip w c)

theorem readonly_attr (ha : w.nodes a = some an) (hat : an.type = .attribute) : readonly a w = .ok w an.attrRO := by
  unfold readonly
  rw [get_bind ha, hat]
  rfl

/-- The effect of `setValue` on any memory in which the attribute has an owner, a parent and the children `l`. -/
theorem setValue_at {l : List NodeId} (hb : ∀ i n, w.nodes i = some n → i < w.fresh) (ha : w.nodes a = some an) (hat : an.type = .attribute) (hro : an.attrRO = false)
    (hp : an.parent = some p) (hpn : w.nodes p = some n) (ho : an.owner = some d) (hd : w.nodes d = some dn) (hf : an.first = l.head?) (hL : Leaves w l) (hn : l.Nodup)
    (hlen : l.length ≤ w.fresh) (hal : a ∉ l) (hl : ∀ j m, w.nodes j = some m → j ≠ a → (j ∈ l ↔ m.parent = some a)) (v : Option DStr) :
    setValue a v w = .ok (revalued (w.add (newNode (some d) .text (some textName) v)) a w.fresh) () := by
  have hfa : a ≠ w.fresh := fun h => absurd (hb a an ha) (by rw [h]; exact Nat.lt_irrefl _)
  have hold : ∀ {j m}, w.nodes j = some m → (w.add (newNode (some d) .text (some textName) v)).nodes j = some m := by
    intro j m hj
    have : j ≠ w.fresh := fun h => absurd (hb j m hj) (by rw [h]; exact Nat.lt_irrefl _)
    rw [Xml.add_ne _ this]; exact hj
  have hcr : createNode d .text (some textName) v w = .ok (w.add (newNode (some d) .text (some textName) v)) w.fresh := by
    unfold createNode initNode
    have h1 : alloc { type := .text, name := some textName, value := v, owner := some d } w = .ok (w.add { type := .text, name := some textName, value := v, owner := some d }) w.fresh := rfl
    have hdf : d ≠ w.fresh := fun h => absurd (hb d dn hd) (by rw [h]; exact Nat.lt_irrefl _)
    rw [bind_ok h1, bind_ok (markPending_run (add_new _) rfl (by rw [Xml.add_ne _ hdf]; exact hd) rfl), pure_run]
    congr 1
    simp only [World.mp, World.add, List.append_nil, World.mk.injEq, and_true]
    funext j
    by_cases hj : j = w.fresh
    · simp [hj, newNode]
    · simp only [hj, if_false]
      cases w.nodes j <;> rfl
  have hfl : w.fresh ∉ l := by
    intro h
    have : ∀ {l : List NodeId}, Leaves w l → ∀ c ∈ l, ∃ m, w.nodes c = some m := by
      intro l h
      induction h with
      | nil => intro c hc; cases hc
      | cons h1 _ _ _ _ _ _ _ _ _ ih =>
        intro c hc
        rcases List.mem_cons.1 hc with rfl | hc
        · exact ⟨_, h1⟩
        · exact ih c hc
    obtain ⟨m, hm⟩ := this hL _ h
    exact absurd (hb _ m hm) (Nat.lt_irrefl _)
  have hL' : Leaves (w.add (newNode (some d) .text (some textName) v)) l := by
    clear hf hn hlen hal hl hfl
    induction hL with
    | nil => exact .nil
    | cons h1 h2 h3 h4 h5 h6 h7 h8 h9 _ ih => exact .cons (hold h1) h2 h3 h4 h5 h6 (hold h7) h8 h9 ih
  unfold setValue
  rw [bind_ok (readonly_attr ha hat), hro, throwIf_false, get_bind ha, hp, deref_bind, get_bind hpn, ho, deref_bind, get_bind hd, bind_ok hcr, get_bind (hold ha), bound_bind, hf,
    bind_ok (drop_run _ hL' hn (by show _ ≤ w.fresh + 1 + 1; omega))]
  generalize hT : newNode (some d) .text (some textName) v = tn at *
  have hst := strip_all (w := w.add tn) hn
  have hfr := strip_fresh (l := l) (w := w.add tn)
  generalize hw1 : l.foldl strip (w.add tn) = w1 at *
  have h1t : w1.nodes w.fresh = some tn := by rw [hst, if_neg hfl, add_new]
  have h1a : w1.nodes a = some an := by rw [hst, if_neg hal, hold ha]
  unfold linkValue
  rw [mod_bind h1t, mod_bind (n := an) (by rw [upd_ne _ _ hfa]; exact h1a)]
  have h2t : ((w1.upd w.fresh { tn with parent := some a }).upd a { an with first := some w.fresh, last := some w.fresh }).nodes w.fresh = some { tn with parent := some a } := by
    rw [upd_ne _ _ (Ne.symm hfa), upd_same]
  have hu := unref_keep h2t (by show 0 < tn.refcnt; rw [← hT]; exact Nat.one_pos) (.inr (by simp))
  rw [bind_ok hu, removePending_run (upd_same _ _ _) (.inr (by rw [← hT]; exact ⟨by simp [newNode], by simp [newNode]⟩))]
  have e : ∀ u u' : World, u.nodes = u'.nodes → u.fresh = u'.fresh → u.log = u'.log → u = u' := by
    intro u u' a1 a2 a3; cases u; cases u'; simp_all
  congr 1
  refine e _ _ ?_ hfr.1 (by simp [World.mp, World.upd, revalued, hfr.2])
  funext j
  rw [mp_nodes]
  by_cases hja : j = a
  · subst hja
    rw [upd_ne _ _ hfa, upd_same]
    simp [unpend, hfa, revalued, hold ha]
  · by_cases hjt : j = w.fresh
    · subst hjt
      rw [upd_same]
      have : tn.refcnt - 1 = 0 := by rw [← hT]; rfl
      simp [unpend, this, revalued, hja, add_new]
    · rw [upd_ne _ _ hjt, upd_ne _ _ hja, upd_ne _ _ hjt, hst, Xml.add_ne _ hjt]
      simp only [revalued]
      rw [Xml.add_ne _ hjt]
      cases hm : w.nodes j with
      | none => simp
      | some m =>
        have := hl j m hm hja
        by_cases hjl : j ∈ l
        · rw [if_pos hjl]
          simp only
          rw [if_neg hja, if_neg hjt, if_pos (this.1 hjl)]
          by_cases hz : m.refcnt = 0
          · rw [if_pos hz]; rfl
          · rw [if_neg hz]; simp [unpend, hjt]
        · rw [if_neg hjl]
          simp only
          rw [if_neg hja, if_neg hjt, if_neg (fun h => hjl (this.2 h))]
          simp [unpend, hjt]

theorem world_ext {u u' : World} (h1 : u.nodes = u'.nodes) (h2 : u.fresh = u'.fresh) (h3 : u.log = u'.log) : u = u' := by
  cases u; cases u'; simp_all

theorem value_leaves (S : Sound w ch) (ha : w.nodes a = some an) (hat : an.type = .attribute) : ∀ (s l : List NodeId), ch a = s ++ l → Leaves w l
  | _, [], _ => .nil
  | s, c :: l, h => by
    have hc : c ∈ ch a := by rw [h]; simp
    obtain ⟨m, hm, h1, h2, h3, h4⟩ := (S.wf.linked.loc a an ha).kids s c l h
    obtain ⟨m', hm', e1, _⟩ := (S.wf.linked.loc c m hm).ends
    rw [hm] at hm'; cases hm'
    rw [value_leaf S ha hat hc] at e1
    have hty := S.wf.types a an c m ha hc hm
    rw [hat] at hty
    have hty : m.type ∈ [NodeType.text, .entityRef] := by
      cases hty with
      | content hp _ => simp at hp
      | attr h => exact h
    obtain ⟨d, dn, o1, o2, o3⟩ : ∃ d dn, m.owner = some d ∧ w.nodes d = some dn ∧ dn.type = .document := by
      rcases S.wf.owner c m hm with h | ⟨h, _⟩
      · exact h
      · rw [h] at hty; simp at hty
    have hpe : m.pendingIn = none := by
      rcases S.wf.pending c m hm with h | h
      · rw [h, if_pos (.inl (by rw [h2]; rfl))]
      · exact h.2
    have hdc : d ≠ c := by
      intro e; rw [e] at o2; rw [hm] at o2; cases o2; rw [o3] at hty; simp at hty
    exact .cons hm h4 e1 hpe hty o1 o2 hdc o3 (value_leaves S ha hat (s ++ [c]) l (by simp [h]))

theorem attr_owner (S : Sound w ch) (ha : w.nodes a = some an) (hat : an.type = .attribute) : ∃ d dn, an.owner = some d ∧ w.nodes d = some dn ∧ dn.type = .document := by
  rcases S.wf.owner a an ha with h | ⟨h, _⟩
  · exact h
  · rw [hat] at h; cases h

theorem value_iff (S : Sound w ch) (ha : w.nodes a = some an) (hat : an.type = .attribute) (hc : w.nodes c = some cn) : c ∈ ch a ↔ cn.parent = some a := by
  constructor
  · intro h
    obtain ⟨m, hm, _, hp⟩ := S.wf.linked.alive_child h
    rw [hc] at hm; cases hm; exact hp
  · intro h
    refine S.wf.linked.up c cn a hc ?_ h
    intro hca
    obtain ⟨m, hm, hmt⟩ := S.wf.linked.attrUp c cn a hc hca h
    rw [ha] at hm; cases hm; rw [hat] at hmt; cases hmt

theorem Sound.addText (S : Sound w ch) (hd : w.nodes d = some dn) (hdt : dn.type = .document) (v : Option DStr) : Sound (w.add (newNode (some d) .text (some textName) v)) ch :=
  S.add (WF_add S.wf rfl (.inr (.inl ⟨by simp [newNode], d, dn, rfl, hd, hdt⟩)) (by simp [newNode])) rfl rfl rfl rfl (fun h => by cases h)

/-- The run, and the invariant after it. -/
theorem setValue_run (S : Sound w ch) (ha : w.nodes a = some an) (hat : an.type = .attribute) (hro : an.attrRO = false) (hp : an.parent = some p) (hod : an.owner = some d) (v : Option DStr) :
    setValue a v w = .ok (Tree.revalued (w.add (newNode (some d) .text (some textName) v)) a w.fresh) () ∧
    Sound (Tree.revalued (w.add (newNode (some d) .text (some textName) v)) a w.fresh) (setCh ch a [w.fresh]) := by
  have hC := S.wf.toCore
  obtain ⟨d', dn, ho, hd, hdt⟩ := attr_owner S ha hat
  rw [hod] at ho; cases ho
  obtain ⟨pn, hpn⟩ := hC.linked.alive_parent ha hp
  have hal : a ∉ ch a := fun h => by
    obtain ⟨m, hm, h1, _⟩ := hC.linked.alive_child h
    rw [ha] at hm; cases hm; exact h1 hat
  obtain ⟨m, hm, hf, _⟩ := (hC.linked.loc a an ha).ends
  rw [ha] at hm; cases hm
  refine ⟨setValue_at hC.bnd ha hat hro hp hpn hod hd hf (value_leaves S ha hat [] _ rfl) (hC.linked.loc a an ha).nodup (child_length_le hC a) hal
    (fun j m hj _ => value_iff S ha hat hj) v, ?_⟩
  exact (S.addText hd hdt v).revalued (add_old hC ha) hat (add_new _) rfl rfl hod.symm

/-! ## What setting a value does -/

/-- The attribute `a` got the value `v`: one new Text is its only child.  The old children are freed, unless a reference to them is held; then they are on their own.
No reference is made or lost, and every other node is as it was. -/
structure ValueSet (w : World) (ch : Children) (a : NodeId) (v : Option DStr) (w' : World) (ch' : Children) : Prop where
  sound : Sound w' ch'
  value : ∃ t tn, ch' a = [t] ∧ w.nodes t = none ∧ w'.nodes t = some tn ∧ tn.type = .text ∧ tn.value = v ∧ tn.parent = some a ∧
    ∀ j, j ≠ t → w.nodes j = none → w'.nodes j = none
  lists : ∀ q, q ≠ a → ch' q = ch q
  counts : ∀ j, count w' j = count w j
  freed : ∀ c ∈ ch a, count w c = 0 → w'.nodes c = none
  alone : ∀ c ∈ ch a, ∀ m, w.nodes c = some m → 0 < m.refcnt → w'.nodes c = some { m with parent := none, prev := none, next := none, pendingIn := m.owner }
  self : ∀ m, w.nodes a = some m → ∃ m', w'.nodes a = some m' ∧ m'.data = m.data ∧ m'.parent = m.parent ∧ m'.owner = m.owner
  others : ∀ j m, w.nodes j = some m → j ≠ a → j ∉ ch a → w'.nodes j = some m
  log : w'.log = w.log

theorem ValueSet.of_run (S : Sound w ch) (ha : w.nodes a = some an) (hat : an.type = .attribute)
    (S' : Sound (Tree.revalued (w.add (newNode (some d) .text (some textName) v')) a w.fresh) (setCh ch a [w.fresh])) :
    ValueSet w ch a v' (Tree.revalued (w.add (newNode (some d) .text (some textName) v')) a w.fresh) (setCh ch a [w.fresh]) := by
  have hC := S.wf.toCore
  have hfd := fresh_dead hC
  have hfa : a ≠ w.fresh := fun h => by rw [← h, ha] at hfd; cases hfd
  have hkids : ∀ c ∈ ch a, c ≠ a ∧ c ≠ w.fresh := by
    intro c hc
    obtain ⟨m, hm, h1, _⟩ := hC.linked.alive_child hc
    refine ⟨?_, ?_⟩
    · rintro rfl; rw [ha] at hm; cases hm; exact h1 hat
    · rintro rfl; rw [hfd] at hm; cases hm
  have hnode : ∀ j m, w.nodes j = some m → (Tree.revalued (w.add (newNode (some d) .text (some textName) v')) a w.fresh).nodes j =
      if j = a then some { m with first := some w.fresh, last := some w.fresh }
      else if m.parent = some a then (if m.refcnt = 0 then none else some { m with parent := none, prev := none, next := none, pendingIn := m.owner }) else some m := by
    intro j m hj
    have hjf : j ≠ w.fresh := fun h => by rw [← h, hj] at hfd; cases hfd
    simp only [Tree.revalued, Xml.add_ne _ hjf, hj, if_neg hjf]
  have hdead : ∀ j, j ≠ w.fresh → w.nodes j = none → (Tree.revalued (w.add (newNode (some d) .text (some textName) v')) a w.fresh).nodes j = none := by
    intro j hjf hj
    simp only [Tree.revalued, Xml.add_ne _ hjf, hj]
  have hnew : (Tree.revalued (w.add (newNode (some d) .text (some textName) v')) a w.fresh).nodes w.fresh =
      some { newNode (some d) .text (some textName) v' with parent := some a, pendingIn := none, refcnt := 0 } := by
    simp only [Tree.revalued, add_new, if_neg (Ne.symm hfa), if_true]
  refine ⟨S', ⟨w.fresh, _, by simp, hfd, hnew, rfl, rfl, rfl, hdead⟩, fun q hq => setCh_ne ch _ hq, ?_, ?_, ?_, ?_, ?_, rfl⟩
  · intro j
    cases hj : w.nodes j with
    | none =>
      by_cases hjf : j = w.fresh
      · rw [hjf, count_some hnew, count_none hfd]
      · rw [count_none (hdead j hjf hj), count_none hj]
    | some m =>
      rw [count_some hj]
      unfold count
      rw [hnode j m hj]
      split_ifs with h1 h2 h3
      · rfl
      · exact h3.symm
      · rfl
      · rfl
  · intro c hc h0
    obtain ⟨m, hm, _, hp⟩ := hC.linked.alive_child hc
    rw [count_some hm] at h0
    rw [hnode c m hm, if_neg (hkids c hc).1, if_pos hp, if_pos h0]
  · intro c hc m hm h0
    have hp := (value_iff S ha hat hm).1 hc
    rw [hnode c m hm, if_neg (hkids c hc).1, if_pos hp, if_neg (by omega)]
  · intro m hm
    exact ⟨{ m with first := some w.fresh, last := some w.fresh }, by rw [hnode a m hm, if_pos rfl], rfl, rfl, rfl⟩
  · intro j m hm hja hjc
    rw [hnode j m hm, if_neg hja, if_neg (fun h => hjc ((value_iff S ha hat hm).2 h))]

/-- **C79**: the value of an attribute is replaced. -/
theorem C79_value (S : Sound w ch) (ha : w.nodes a = some an) (hat : an.type = .attribute) (hro : an.attrRO = false) (hp : an.parent = some p) (v : Option DStr) :
    ∃ w' ch', setValue a v w = .ok w' () ∧ ValueSet w ch a v w' ch' := by
  obtain ⟨d, dn, hod, _, _⟩ := attr_owner S ha hat
  obtain ⟨h1, h2⟩ := setValue_run S ha hat hro hp hod v
  exact ⟨_, _, h1, ValueSet.of_run S ha hat h2⟩

/-- **C79**: a read-only attribute keeps its value. -/
theorem C79_value_readonly (ha : w.nodes a = some an) (hat : an.type = .attribute) (hro : an.attrRO = true) (v : Option DStr) :
    setValue a v w = .exc w .noModificationAllowed := by
  unfold setValue
  rw [bind_ok (readonly_attr ha hat), hro, throwIf_true]

/-- **C79** is violated for an attribute that is not in an element: its value cannot be set, the code follows a NULL pointer. -/
theorem C79_value_orphan_violated (ha : w.nodes a = some an) (hat : an.type = .attribute) (hro : an.attrRO = false) (hp : an.parent = none) (v : Option DStr) :
    setValue a v w = .fault .nullDeref := by
  unfold setValue
  rw [bind_ok (readonly_attr ha hat), hro, throwIf_false, get_bind ha, hp]
  rfl

/-! ## A new attribute -/

/-- The element `e` got a new attribute at the end of its list, with the value `v` in a new Text; nothing else changed, and nobody has a reference to the new nodes. -/
structure AttrAdded (w : World) (ch : Children) (e : NodeId) (name : DStr) (ns : Option DStr) (v : Option DStr) (w' : World) (ch' : Children) : Prop where
  sound : Sound w' ch'
  new : ∃ a t an tn, w.nodes a = none ∧ w.nodes t = none ∧ a ≠ t ∧ w'.nodes a = some an ∧ an.type = .attribute ∧ an.name = some name ∧ an.ns = ns ∧ an.parent = some e ∧
    ch' a = [t] ∧ w'.nodes t = some tn ∧ tn.type = .text ∧ tn.value = v ∧ tn.parent = some a ∧
    (∀ en, w.nodes e = some en → w'.nodes e = some { en with attrs := en.attrs ++ [{ name := name, ns := ns, node := a }] }) ∧
    (∀ q, q ≠ a → ch' q = ch q) ∧ ∀ j, j ≠ e → j ≠ a → j ≠ t → w'.nodes j = w.nodes j
  counts : ∀ j, count w' j = count w j
  log : w'.log = w.log

/-- The record of a new attribute. -/
def newAttr (d : NodeId) (name : DStr) (ns : Option DStr) : Node := { type := .attribute, name := some name, ns := ns, owner := some d, pendingIn := some d }

theorem addAttr_run (S : Sound w ch) (he : w.nodes e = some en) (het : en.type = .element) (name : DStr) (ns v : Option DStr) :
    ∃ w' ch', addAttr e en.owner name ns v w = .ok w' () ∧ AttrAdded w ch e name ns v w' ch' := by
  have hC := S.wf.toCore
  obtain ⟨d, dn, ho, hd, hdt⟩ : ∃ d dn, en.owner = some d ∧ w.nodes d = some dn ∧ dn.type = .document := by
    rcases S.wf.owner e en he with h | ⟨h, _⟩
    · exact h
    · rw [het] at h; cases h
  have hfd := fresh_dead hC
  -- the memory with the attribute, according to the invariant
  have S1 : Sound (w.add (newAttr d name ns)) ch :=
    S.add (WF_add S.wf rfl (.inr (.inl ⟨by simp [newAttr], d, dn, rfl, hd, hdt⟩)) (by simp [newAttr])) rfl rfl rfl rfl (fun h => by cases h)
  generalize ha : w.fresh = a at *
  have hea : e ≠ a := fun h => by rw [← h, he] at hfd; cases hfd
  have hda : d ≠ a := fun h => by rw [← h, hd] at hfd; cases hfd
  have h1a : (w.add (newAttr d name ns)).nodes a = some (newAttr d name ns) := by rw [← ha]; exact add_new _
  have h1o : ∀ j, j ≠ a → (w.add (newAttr d name ns)).nodes j = w.nodes j := fun j hj => Xml.add_ne _ (by rw [ha]; exact hj)
  have h1e : (w.add (newAttr d name ns)).nodes e = some en := by rw [h1o e hea]; exact he
  have hnoanc : ¬ AncSelf (w.add (newAttr d name ns)) e a := by
    intro h
    rcases Relation.ReflTransGen.cases_tail h with h | ⟨z, _, zn, hz, hzp⟩
    · exact hea h.symm
    · have hza : z ≠ a := by rintro rfl; rw [h1a] at hz; cases hz; cases hzp
      rw [h1o z hza] at hz
      obtain ⟨m, hm⟩ := hC.linked.alive_parent hz hzp
      rw [hfd] at hm; cases hm
  have S2 := S1.withAttr h1e het h1a rfl rfl ho hnoanc name ns
  have h2a : (withAttr (w.add (newAttr d name ns)) e a en (newAttr d name ns) name ns).nodes a = some { newAttr d name ns with parent := some e, pendingIn := none } := by
    simp [withAttr, World.upd, Ne.symm hea]
  have S3 := S2.setRef (r := 0) h2a (fun h => by cases h) (fun h => by cases h)
  have hfr1 : (w.add (newAttr d name ns)).fresh = a + 1 := by rw [← ha]; rfl
  have h3d : ((withAttr (w.add (newAttr d name ns)) e a en (newAttr d name ns) name ns).upd a { newAttr d name ns with parent := some e, pendingIn := none, refcnt := 0 }).nodes d = some dn := by
    rw [upd_ne _ _ hda]
    have hde : d ≠ e := by rintro rfl; rw [he] at hd; cases hd; rw [hdt] at het; cases het
    simp [withAttr, World.upd, hda, hde, h1o, hd]
  generalize hw3 : (withAttr (w.add (newAttr d name ns)) e a en (newAttr d name ns) name ns).upd a { newAttr d name ns with parent := some e, pendingIn := none, refcnt := 0 } = w3 at *
  have h3a : w3.nodes a = some { newAttr d name ns with parent := some e, pendingIn := none, refcnt := 0 } := by rw [← hw3, upd_same]
  have h3e : w3.nodes e = some { en with attrs := en.attrs ++ [{ name := name, ns := ns, node := a }] } := by
    rw [← hw3, upd_ne _ _ hea]; simp [withAttr]
  have h3o : ∀ j, j ≠ e → j ≠ a → w3.nodes j = w.nodes j := by
    intro j h1 h2
    rw [← hw3, upd_ne _ _ h2]
    simp [withAttr, World.upd, h1, h2, h1o]
  have h3f : w3.fresh = a + 1 := by rw [← hw3]; exact hfr1
  have h3l : w3.log = w.log := by rw [← hw3]; rfl
  have S4 := (S3.addText h3d hdt v).revalued (a := a) (t := w3.fresh) (add_old S3.wf.toCore h3a) rfl (add_new _) rfl rfl rfl
  have V := ValueSet.of_run S3 h3a rfl S4
  refine ⟨_, _, ?_, V.sound, ?_, ?_, ?_⟩
  · -- the run
    unfold addAttr
    rw [ho, deref_bind, get_bind hd]
    have hi : initNode { type := .attribute, name := some name, ns := ns, owner := some d } w = .ok (w.add (newAttr d name ns)) a := by
      rw [initNode_run hC rfl hd rfl, ha]; rfl
    rw [bind_ok hi, mod_bind h1a]
    generalize hu : (w.add (newAttr d name ns)).upd a { newAttr d name ns with parent := some e } = u
    have hua : u.nodes a = some { newAttr d name ns with parent := some e } := by rw [← hu, upd_same]
    have huo : ∀ j, j ≠ a → u.nodes j = w.nodes j := by intro j hj; rw [← hu, upd_ne _ _ hj, h1o j hj]
    have huf : u.fresh = a + 1 := by rw [← hu]; exact hfr1
    have hul : u.log = w.log := by rw [← hu]; rfl
    have hub : ∀ i n, u.nodes i = some n → i < u.fresh := by
      intro i n hi
      rw [huf]
      by_cases h : i = a
      · rw [h]; exact Nat.lt_succ_self _
      · rw [huo i h] at hi
        have := hC.bnd i n hi
        rw [ha] at this
        exact Nat.lt_succ_of_lt this
    have hs := setValue_at (l := []) hub hua rfl rfl rfl (by rw [huo e hea]; exact he) rfl (by rw [huo d hda]; exact hd) rfl .nil (by simp) (by simp) (by simp) (by
      intro j m hj hja
      rw [huo j hja] at hj
      simp only [List.not_mem_nil, false_iff]
      intro hp
      obtain ⟨m', hm'⟩ := hC.linked.alive_parent hj hp
      rw [hfd] at hm'; cases hm') v
    have hg : orGiveUp a (setValue a v) u = .ok (Tree.revalued (u.add (newNode (some d) .text (some textName) v)) a u.fresh) () := by
      unfold orGiveUp
      rw [hs]
    have hat1 : a ≠ a + 1 := (Nat.succ_ne_self a).symm
    have hde : e ≠ a + 1 := by
      intro h
      have := hC.bnd e en he
      rw [ha, h] at this; exact absurd (Nat.lt_of_succ_lt this) (Nat.lt_irrefl _)
    rw [bind_ok hg, huf]
    generalize hr : Tree.revalued (u.add (newNode (some d) .text (some textName) v)) a (a + 1) = r
    have huadd : ∀ j, j ≠ a + 1 → (u.add (newNode (some d) .text (some textName) v)).nodes j = u.nodes j := fun j hj => Xml.add_ne _ (by rw [huf]; exact hj)
    have huadn : (u.add (newNode (some d) .text (some textName) v)).nodes (a + 1) = some (newNode (some d) .text (some textName) v) := by rw [← huf]; exact add_new _
    have hnp : ∀ j m, w.nodes j = some m → m.parent ≠ some a := by
      intro j m hj hp
      obtain ⟨m', hm'⟩ := hC.linked.alive_parent hj hp
      rw [hfd] at hm'; cases hm'
    have hre : r.nodes e = some en := by
      rw [← hr]
      simp only [Tree.revalued, huadd e hde, huo e hea, he, if_neg hea, if_neg hde, if_neg (hnp e en he)]
    have hra : r.nodes a = some { newAttr d name ns with parent := some e, first := some (a + 1), last := some (a + 1) } := by
      rw [← hr]
      simp only [Tree.revalued, huadd a hat1, hua, if_true]
    rw [mod_bind hre]
    have hk := unref_keep (w := r.upd e { en with attrs := en.attrs ++ [{ name := name, ns := ns, node := a }] }) (x := a)
      (by rw [upd_ne _ _ (Ne.symm hea)]; exact hra) Nat.one_pos (.inr (by simp))
    rw [bind_ok hk, removePending_run (upd_same _ _ _) (.inr ⟨by simp [newAttr], by simp [newAttr]⟩)]
    congr 1
    refine world_ext ?_ ?_ ?_
    · funext j
      rw [mp_nodes, h3f]
      have h3add : ∀ j, j ≠ a + 1 → (w3.add (newNode (some d) .text (some textName) v)).nodes j = w3.nodes j := fun j hj => Xml.add_ne _ (by rw [h3f]; exact hj)
      have h3adn : (w3.add (newNode (some d) .text (some textName) v)).nodes (a + 1) = some (newNode (some d) .text (some textName) v) := by rw [← h3f]; exact add_new _
      by_cases hja : j = a
      · subst hja
        rw [upd_same]
        simp only [Tree.revalued, h3add j hat1, h3a, if_true, Option.map_some]
        simp [unpend, newAttr]
      · rw [upd_ne _ _ hja]
        by_cases hje : j = e
        · subst hje
          rw [upd_same]
          simp only [Tree.revalued, h3add j hde, h3e, if_neg hea, if_neg hde, if_neg (hnp j en he), Option.map_some]
          simp [unpend, hja]
        · rw [upd_ne _ _ hje, ← hr]
          by_cases hjt : j = a + 1
          · subst hjt
            simp only [Tree.revalued, h3adn, huadn, if_neg hja, if_true, Option.map_some]
            simp [unpend, hja]
          · simp only [Tree.revalued, h3add j hjt, huadd j hjt, h3o j hje hja, huo j hja]
            cases hj : w.nodes j with
            | none => rfl
            | some m =>
              simp only [if_neg hja, if_neg hjt, if_neg (hnp j m hj), Option.map_some]
              simp [unpend, hja]
    · show r.fresh = w3.fresh + 1
      rw [← hr, h3f]
      show u.fresh + 1 = _
      rw [huf]
    · show r.log ++ [] = w3.log
      rw [List.append_nil, ← hr, h3l]; exact hul
  · obtain ⟨t, tn, k1, k2, k3, k4, k5, k6, k7⟩ := V.value
    obtain ⟨m', q1, q2, q3, q4⟩ := V.self _ h3a
    have hta : t ≠ a := by rintro rfl; rw [h3a] at k2; cases k2
    have hte : t ≠ e := by rintro rfl; rw [h3e] at k2; cases k2
    have hch : ch a = [] := hC.linked.dead a hfd
    refine ⟨a, t, m', tn, hfd, by rw [← h3o t hte hta]; exact k2, Ne.symm hta, q1, ?_, ?_, ?_, ?_, k1, k3, k4, k5, k6, ?_, V.lists, ?_⟩
    · have := congrArg Node.type q2; exact this
    · have := congrArg Node.name q2; exact this
    · have := congrArg Node.ns q2; exact this
    · rw [q3]
    · intro en' he'
      rw [he] at he'; cases he'
      exact V.others e _ h3e hea (by rw [hch]; simp)
    · intro j h1 h2 h3
      rw [← h3o j h1 h2]
      cases hj : w3.nodes j with
      | none => exact k7 j h3 hj
      | some m => exact V.others j m hj h2 (by rw [hch]; simp)
  · intro j
    rw [V.counts j]
    by_cases hja : j = a
    · rw [hja, count_some h3a, count_none hfd]
    · by_cases hje : j = e
      · rw [hje, count_some h3e, count_some he]
      · unfold count; rw [h3o j hje hja]
  · rw [V.log, h3l]

/-! ## An attribute is taken off -/

/-- The memory when the attribute `a` has been taken off the element `e` and has `r` references. -/
def withoutAttr (w : World) (e a : NodeId) (en an : Node) (r : Nat) : World :=
  (w.upd a { an with parent := none, pendingIn := an.owner, refcnt := r }).upd e { en with attrs := en.attrs.filter (fun y => decide (y.node ≠ a)) }

theorem Sound.withoutAttr (S : Sound w ch) (he : w.nodes e = some en) (het : en.type = .element) (ha : w.nodes a = some an) (hat : an.type = .attribute)
    (hp : an.parent = some e) {r : Nat} (hr : 0 < r) : Sound (Tree.withoutAttr w e a en an r) ch := by
  have hC := S.wf.toCore
  have hne : e ≠ a := by rintro rfl; rw [he] at ha; cases ha; rw [het] at hat; cases hat
  have hwe : (Tree.withoutAttr w e a en an r).nodes e = some { en with attrs := en.attrs.filter (fun y => decide (y.node ≠ a)) } := by
    simp [Tree.withoutAttr, World.upd]
  have hwa : (Tree.withoutAttr w e a en an r).nodes a = some { an with parent := none, pendingIn := an.owner, refcnt := r } := by
    simp [Tree.withoutAttr, World.upd, Ne.symm hne]
  have hwo : ∀ j, j ≠ e → j ≠ a → (Tree.withoutAttr w e a en an r).nodes j = w.nodes j := by
    intro j h1 h2; simp [Tree.withoutAttr, World.upd, h1, h2]
  have hfr : (Tree.withoutAttr w e a en an r).fresh = w.fresh := rfl
  generalize hw' : Tree.withoutAttr w e a en an r = w' at *
  have hback : ∀ {j m'}, w'.nodes j = some m' → ∃ m, w.nodes j = some m ∧ ((j = e ∧ m = en ∧ m' = { en with attrs := en.attrs.filter (fun y => decide (y.node ≠ a)) }) ∨
      (j = a ∧ m = an ∧ m' = { an with parent := none, pendingIn := an.owner, refcnt := r }) ∨ (j ≠ e ∧ j ≠ a ∧ m' = m)) := by
    intro j m' h
    by_cases h1 : j = e
    · subst h1; rw [hwe] at h; cases h; exact ⟨en, he, .inl ⟨rfl, rfl, rfl⟩⟩
    · by_cases h2 : j = a
      · subst h2; rw [hwa] at h; cases h; exact ⟨an, ha, .inr (.inl ⟨rfl, rfl, rfl⟩)⟩
      · rw [hwo j h1 h2] at h; exact ⟨m', h, .inr (.inr ⟨h1, h2, rfl⟩)⟩
  have hfwd : ∀ {j m}, w.nodes j = some m → ∃ m', w'.nodes j = some m' ∧ m'.type = m.type ∧ m'.owner = m.owner ∧ m'.host = m.host ∧ m'.first = m.first ∧ m'.last = m.last ∧
      m'.prev = m.prev ∧ m'.next = m.next ∧ (j ≠ a → m'.parent = m.parent ∧ m'.pendingIn = m.pendingIn ∧ m'.refcnt = m.refcnt) := by
    intro j m h
    by_cases h1 : j = e
    · subst h1; rw [he] at h; cases h
      exact ⟨_, hwe, rfl, rfl, rfl, rfl, rfl, rfl, rfl, fun _ => ⟨rfl, rfl, rfl⟩⟩
    · by_cases h2 : j = a
      · subst h2; rw [ha] at h; cases h
        exact ⟨_, hwa, rfl, rfl, rfl, rfl, rfl, rfl, rfl, fun h => absurd rfl h⟩
      · exact ⟨m, by rw [hwo j h1 h2]; exact h, rfl, rfl, rfl, rfl, rfl, rfl, rfl, fun _ => ⟨rfl, rfl, rfl⟩⟩
  have hsame : ∀ {j m'}, w'.nodes j = some m' → ∃ m, w.nodes j = some m ∧ m'.type = m.type ∧ m'.owner = m.owner ∧ m'.host = m.host ∧ m'.first = m.first ∧ m'.last = m.last ∧
      m'.prev = m.prev ∧ m'.next = m.next ∧ (j ≠ a → m'.parent = m.parent ∧ m'.pendingIn = m.pendingIn ∧ m'.refcnt = m.refcnt) := by
    intro j m' h
    obtain ⟨m, hm, _⟩ := hback h
    obtain ⟨m2, h2, r2⟩ := hfwd hm
    rw [h] at h2; cases h2
    exact ⟨m, hm, r2⟩
  have hpar : ∀ {j m' q}, w'.nodes j = some m' → m'.parent = some q → j ≠ a := by
    intro j m' q h hq hja
    subst hja
    rw [hwa] at h; cases h; cases hq
  have hL : Linked w' ch := by
    refine ⟨?_, ?_, ?_, ?_, ?_⟩
    · intro p n' hp'
      obtain ⟨m, hm, _, _, _, hf, hl, _⟩ := hsame hp'
      have hl0 := hC.linked.loc p m hm
      obtain ⟨m2, hm2, e1, e2⟩ := hl0.ends
      rw [hm] at hm2; cases hm2
      refine ⟨⟨n', hp', by rw [hf]; exact e1, by rw [hl]; exact e2⟩, ?_, hl0.nodup⟩
      intro s c b hsb
      obtain ⟨k, hk, k1, k2, k3, k4⟩ := hl0.kids s c b hsb
      have hca : c ≠ a := by rintro rfl; rw [ha] at hk; cases hk; exact k1 hat
      obtain ⟨k', hk', t1, _, _, _, _, t2, t3, t4⟩ := hfwd hk
      exact ⟨k', hk', by rw [t1]; exact k1, by rw [(t4 hca).1]; exact k2, by rw [t2]; exact k3, by rw [t3]; exact k4⟩
    · intro p hp'
      cases h : w.nodes p with
      | none => exact hC.linked.dead p h
      | some m => obtain ⟨m', hm', _⟩ := hfwd h; rw [hp'] at hm'; cases hm'
    · intro c n' p hc hty hq
      have hca := hpar hc hq
      obtain ⟨m, hm, t1, _, _, _, _, _, _, t4⟩ := hsame hc
      exact hC.linked.up c m p hm (by rw [← t1]; exact hty) (by rw [← (t4 hca).1]; exact hq)
    · intro c n' p hc hty hq
      have hca := hpar hc hq
      obtain ⟨m, hm, t1, _, _, _, _, _, _, t4⟩ := hsame hc
      obtain ⟨k, hk, hkt⟩ := hC.linked.attrUp c m p hm (by rw [← t1]; exact hty) (by rw [← (t4 hca).1]; exact hq)
      obtain ⟨k', hk', t, _⟩ := hfwd hk
      exact ⟨k', hk', by rw [t]; exact hkt⟩
    · intro c n' hc hor
      obtain ⟨m, hm, t1, _, _, _, _, t2, t3, t4⟩ := hsame hc
      rw [t2, t3]
      by_cases hca : c = a
      · subst hca; rw [ha] at hm; cases hm
        exact hC.linked.orphan c an ha (.inr hat)
      · rw [t1, (t4 hca).1] at hor
        exact hC.linked.orphan c m hm hor
  have hW' : WF w' ch := by
    refine ⟨⟨hL, ?_, ?_, ?_, ?_, ?_, ?_⟩, ?_⟩
    · intro i n' hi
      obtain ⟨m, hm, _⟩ := hback hi
      rw [hfr]; exact hC.bnd i m hm
    · refine Subrelation.wf (r := fun p c => ParentOf w c p) ?_ hC.wf
      rintro p c ⟨n', hc, hq⟩
      have hca := hpar hc hq
      obtain ⟨m, hm, _, _, _, _, _, _, _, t4⟩ := hsame hc
      exact ⟨m, hm, by rw [← (t4 hca).1]; exact hq⟩
    · intro i n' hi
      obtain ⟨m, hm, h1, h2, _, _, _, _, _, h4⟩ := hsame hi
      rcases hC.owner i m hm with ⟨d', dn', k1, k2, k3⟩ | ⟨k1, k2, k3⟩
      · obtain ⟨dn2, q1, q2, _⟩ := hfwd k2
        exact .inl ⟨d', dn2, by rw [h2]; exact k1, q1, by rw [q2]; exact k3⟩
      · have hia : i ≠ a := by rintro rfl; rw [ha] at hm; cases hm; rw [hat] at k1; cases k1
        exact .inr ⟨by rw [h1]; exact k1, by rw [h2]; exact k2, by rw [(h4 hia).1]; exact k3⟩
    · intro i n' hi hty
      obtain ⟨m, hm, h1, h2, _⟩ := hsame hi
      rw [h2]; exact hC.ownDoc i m hm (by rw [← h1]; exact hty)
    · intro i n' p pn' hi hq hp'
      have hia := hpar hi hq
      obtain ⟨pm, hpm, _, o2, _⟩ := hsame hp'
      obtain ⟨m, hm, _, o1, _, _, _, _, _, t4⟩ := hsame hi
      rw [o1, o2]
      exact hC.ownSame i m p pm hm (by rw [← (t4 hia).1]; exact hq) hpm
    · intro p pn' c cn' hp' hc hcn
      obtain ⟨pm, hpm, t1, _⟩ := hsame hp'
      obtain ⟨cm, hcm, t2, _⟩ := hsame hcn
      rw [t1, t2]
      exact hC.types p pm c cm hpm hc hcm
    · intro i n' hi
      obtain ⟨m, hm, h1, h2, _, _, _, _, _, h4⟩ := hsame hi
      by_cases hia : i = a
      · subst hia
        rw [hwa] at hi; cases hi
        left
        show an.owner = _
        simp [hat]
      · rw [h1, h2, (h4 hia).1, (h4 hia).2.1]
        exact S.wf.pending i m hm
  refine ⟨hW', ?_, ?_, ?_, ?_, ?_, ?_⟩
  · have hae : attrNodes w' e = (attrNodes w e).filter (fun y => decide (y ≠ a)) := by
      unfold attrNodes
      rw [hwe, he]
      simp only [het, if_true]
      rw [List.filter_map]
      rfl
    have hao : ∀ q, q ≠ e → attrNodes w' q = attrNodes w q := by
      intro q hq
      unfold attrNodes
      by_cases hqa : q = a
      · subst hqa; rw [hwa, ha]
      · rw [hwo q hq hqa]
    have hin : ∀ q c, c ∈ attrNodes w' q ↔ c ∈ attrNodes w q ∧ c ≠ a := by
      intro q c
      by_cases hq : q = e
      · subst hq; rw [hae]; simp
      · rw [hao q hq]
        refine ⟨fun h => ⟨h, ?_⟩, fun h => h.1⟩
        rintro rfl
        obtain ⟨m, hm, _, h3⟩ := (S.attrs q).2.1 c h
        rw [ha] at hm; cases hm
        rw [hp] at h3; exact hq (by simpa using h3.symm)
    intro q
    refine ⟨?_, ?_, ?_⟩
    · by_cases hq : q = e
      · subst hq; rw [hae]; exact (S.attrs q).1.filter _
      · rw [hao q hq]; exact (S.attrs q).1
    · intro c hc
      obtain ⟨h1, h2⟩ := (hin q c).1 hc
      obtain ⟨m, hm, k1, k2⟩ := (S.attrs q).2.1 c h1
      obtain ⟨m', hm', t1, _, _, _, _, _, _, t4⟩ := hfwd hm
      exact ⟨m', hm', by rw [t1]; exact k1, by rw [(t4 h2).1]; exact k2⟩
    · intro c n' hc hty hq
      have hca := hpar hc hq
      obtain ⟨m, hm, t1, _, _, _, _, _, _, t4⟩ := hsame hc
      exact (hin q c).2 ⟨(S.attrs q).2.2 c m hm (by rw [← t1]; exact hty) (by rw [← (t4 hca).1]; exact hq), hca⟩
  · intro j m' hj
    obtain ⟨m, hm, _, _, h, _⟩ := hsame hj
    rw [h]; exact S.noHost j m hm
  · intro j m' hj hq hnd
    by_cases hja : j = a
    · subst hja; rw [hwa] at hj; cases hj; exact hr
    · obtain ⟨m, hm, t1, _, _, _, _, _, _, t4⟩ := hsame hj
      rw [(t4 hja).2.2]
      exact S.held j m hm (by rw [← (t4 hja).1]; exact hq) (by rw [← t1]; exact hnd)
  · intro d' dn' hd hdt hz
    obtain ⟨m, hm, t1, t2, _, tf, _, _, _, t4⟩ := hsame hd
    have hda : d' ≠ a := by rintro rfl; rw [ha] at hm; cases hm; rw [t1, hat] at hdt; cases hdt
    obtain ⟨k1, i, mi, hi, hne', hio⟩ := S.docs d' m hm (by rw [← t1]; exact hdt) (by rw [← (t4 hda).2.2]; exact hz)
    obtain ⟨mi', hi', _, q2, _⟩ := hfwd hi
    exact ⟨by rw [tf]; exact k1, i, mi', hi', hne', by rw [q2]; exact hio⟩
  · intro f fn' d' dn' hf hft hpe ho hd
    obtain ⟨m, hm, t1, t2, _, _, _, _, _, t4⟩ := hsame hf
    obtain ⟨dm, hdm, s1, _, _, _, _, _, _, s4⟩ := hsame hd
    have hfa : f ≠ a := by rintro rfl; rw [ha] at hm; cases hm; rw [t1, hat] at hft; cases hft
    have := S.frags f m d' dm hm (by rw [← t1]; exact hft) (by rw [← (t4 hfa).2.1]; exact hpe) (by rw [← t2]; exact ho) hdm
    by_cases hda : d' = a
    · subst hda
      rw [hwa] at hd; cases hd; exact hr
    · rw [(s4 hda).2.2]; exact this
  · intro c n' q qn' hc hq hqn
    have hca := hpar hc hq
    obtain ⟨m, hm, t1, _, _, _, _, _, _, t4⟩ := hsame hc
    obtain ⟨qm, hqm, s1, _⟩ := hsame hqn
    rw [s1]
    exact S.ents c m q qm hm (by rw [← (t4 hca).1]; exact hq) hqm

/-- The attribute `a` was taken off the element `e`.  Without a reference to it, it is freed, and so is its value, except for the nodes to which a reference is held; with
one it is on its own, and keeps its value.  No reference is made or lost, and every other node is as it was (of the documents only those that are referenced are meant). -/
structure AttrRemoved (w : World) (ch : Children) (e a : NodeId) (w' : World) (ch' : Children) : Prop where
  sound : Sound w' ch'
  element : ∀ en, w.nodes e = some en → w'.nodes e = some { en with attrs := en.attrs.filter (fun y => decide (y.node ≠ a)) }
  freed : count w a = 0 → w'.nodes a = none ∧ ∀ c ∈ ch a, (count w c = 0 → w'.nodes c = none) ∧
    ∀ m, w.nodes c = some m → 0 < m.refcnt → w'.nodes c = some { m with parent := none, pendingIn := m.owner }
  kept : ∀ an, w.nodes a = some an → 0 < an.refcnt → w'.nodes a = some { an with parent := none, pendingIn := an.owner } ∧ ∀ c ∈ ch a, w'.nodes c = w.nodes c
  lists : ∀ q m', w'.nodes q = some m' → ch' q = ch q
  counts : ∀ j, count w' j = count w j
  others : ∀ j m, w.nodes j = some m → j ≠ e → j ≠ a → j ∉ ch a → (m.type = .document → 0 < m.refcnt) → w'.nodes j = some m
  log : w'.log = w.log

theorem withoutAttr_parents (he : w.nodes e = some en) (hne : e ≠ a) {r : Nat} :
    ∀ {j m'}, (withoutAttr w e a en an r).nodes j = some m' → j ≠ a → ∃ m, w.nodes j = some m ∧ m'.parent = m.parent ∧ m'.refcnt = m.refcnt ∧ m'.prev = m.prev ∧ m'.next = m.next ∧
      m'.pendingIn = m.pendingIn ∧ m'.type = m.type ∧ m'.first = m.first ∧ m'.owner = m.owner := by
  intro j m' hj hja
  by_cases h : j = e
  · subst h
    have : (withoutAttr w j a en an r).nodes j = some { en with attrs := en.attrs.filter (fun y => decide (y.node ≠ a)) } := by simp [withoutAttr, World.upd]
    rw [this] at hj; cases hj
    exact ⟨en, he, rfl, rfl, rfl, rfl, rfl, rfl, rfl, rfl⟩
  · have : (withoutAttr w e a en an r).nodes j = w.nodes j := by simp [withoutAttr, World.upd, h, hja]
    rw [this] at hj
    exact ⟨m', hj, rfl, rfl, rfl, rfl, rfl, rfl, rfl, rfl⟩

theorem dropFound_run (S : Sound w ch) (he : w.nodes e = some en) (het : en.type = .element) {y : AttrEntry} (hy : y ∈ en.attrs) (hov : Room w y.node)
    (hcl : count w y.node = 0 → Clean w y.node) :
    ∃ w' ch', dropFound (some y) e w = .ok w' () ∧ AttrRemoved w ch e y.node w' ch' := by
  have hC := S.wf.toCore
  obtain ⟨an, ha, hat, hp⟩ := (S.attrs e).2.1 y.node (by unfold attrNodes; rw [he]; simp only [het, if_true]; exact List.mem_map_of_mem hy)
  generalize hay : y.node = a at *
  have hne : e ≠ a := by rintro rfl; rw [he] at ha; cases ha; rw [het] at hat; cases hat
  obtain ⟨d, dn, ho, hd, hdt⟩ := attr_owner S ha hat
  have hde : d ≠ e := by rintro rfl; rw [he] at hd; cases hd; rw [hdt] at het; cases het
  have hda : d ≠ a := by rintro rfl; rw [ha] at hd; cases hd; rw [hdt] at hat; cases hat
  have hpe : an.pendingIn = none := by
    rcases S.wf.pending a an ha with h | h
    · rw [h, if_pos (.inl (by rw [hp]; rfl))]
    · exact h.2
  have hov := hov an ha
  have hu32 : u32 (an.refcnt + 1) = an.refcnt + 1 := u32_small hov
  have S1 := S.withoutAttr he het ha hat hp (r := an.refcnt + 1) (Nat.succ_pos _)
  have h1a : (withoutAttr w e a en an (an.refcnt + 1)).nodes a = some { an with parent := none, pendingIn := an.owner, refcnt := an.refcnt + 1 } := by
    simp [withoutAttr, World.upd, Ne.symm hne]
  have h1e : (withoutAttr w e a en an (an.refcnt + 1)).nodes e = some { en with attrs := en.attrs.filter (fun y => decide (y.node ≠ a)) } := by
    simp [withoutAttr, World.upd]
  have h1o : ∀ j, j ≠ e → j ≠ a → (withoutAttr w e a en an (an.refcnt + 1)).nodes j = w.nodes j := by
    intro j h1 h2; simp [withoutAttr, World.upd, h1, h2]
  -- the run up to the last step
  have hrun : dropFound (some y) e w = unref a (withoutAttr w e a en an (an.refcnt + 1)) := by
    unfold dropFound
    simp only
    rw [hay]
    have href : ref a w = .ok (w.upd a { an with refcnt := an.refcnt + 1 }) () := by
      unfold ref; rw [modNode_run ha, hu32]
    rw [bind_ok href, mod_bind (n := en) (by rw [upd_ne _ _ hne]; exact he), bound_bind]
    generalize hu : (w.upd a { an with refcnt := an.refcnt + 1 }).upd e { en with attrs := en.attrs.filter (fun y => decide (y.node ≠ a)) } = u
    have hua : u.nodes a = some { an with refcnt := an.refcnt + 1 } := by rw [← hu, upd_ne _ _ (Ne.symm hne), upd_same]
    have hud : u.nodes d = some dn := by rw [← hu, upd_ne _ _ hde, upd_ne _ _ hda]; exact hd
    have hue : u.nodes e = some { en with attrs := en.attrs.filter (fun y => decide (y.node ≠ a)) } := by rw [← hu, upd_same]
    have hk : attrKill (destroy (u.fresh + 1 + 1)) y u = .ok (withoutAttr w e a en an (an.refcnt + 1)) () := by
      unfold attrKill
      rw [hay, get_bind hua, ho, deref_bind, get_bind hud]
      have hcls : ((if y.ns.isNone ∧ y.name.data = (Names.lit "class").data then do
          let p ← deref an.parent
          let _ ← getNode p
          pure ()
        else pure ()) : M Unit) u = .ok u () := by
        by_cases h : y.ns.isNone ∧ y.name.data = (Names.lit "class").data
        · rw [if_pos h, hp, deref_bind, get_bind hue]; rfl
        · rw [if_neg h]; rfl
      refine (bind_ok hcls _).trans ?_
      rw [mod_bind hua]
      unfold tryDestroy
      rw [get_bind (upd_same _ _ _)]
      rw [if_pos (show Option.isNone (none : Option NodeId) = true from rfl), if_neg (Nat.succ_ne_zero _), if_pos (show Option.isNone an.pendingIn = true by rw [hpe]; rfl)]
      show (deref an.owner >>= _) _ = _
      rw [ho, deref_bind, get_bind (n := dn) (by rw [upd_ne _ _ hda]; exact hud), modNode_run (upd_same _ _ _)]
      congr 1
      refine world_ext ?_ (by rw [← hu]; rfl) (by rw [← hu]; rfl)
      funext j
      by_cases hja : j = a
      · subst hja; rw [upd_same, h1a, ho]
      · rw [upd_ne _ _ hja, upd_ne _ _ hja]
        by_cases hje : j = e
        · subst hje; rw [hue, h1e]
        · rw [h1o j hje hja, ← hu, upd_ne _ _ hje, upd_ne _ _ hja]
    rw [bind_ok hk]
  have hkid : ∀ c cn, w.nodes c = some cn → (cn.parent = some a ↔ c ∈ ch a) := fun c cn hc => (value_iff S ha hat hc).symm
  have hleaf : ∀ c, c ∈ ch a → ∀ j m, w.nodes j = some m → m.parent ≠ some c := by
    intro c hc j m hj hpj
    obtain ⟨cn, hcn, _⟩ := hC.linked.alive_child hc
    have hty := hC.types a an c cn ha hc hcn
    rw [hat] at hty
    have hty : cn.type ∈ [NodeType.text, .entityRef] := by
      cases hty with
      | content hp _ => simp at hp
      | attr h => exact h
    by_cases hja : m.type = .attribute
    · obtain ⟨m', hm', hmt⟩ := hC.linked.attrUp j m c hj hja hpj
      rw [hcn] at hm'; cases hm'; rw [hmt] at hty; simp at hty
    · have := hC.linked.up j m c hj hja hpj
      rw [value_leaf S ha hat hc] at this; cases this
  have hdies : ∀ j, Dies (withoutAttr w e a en an (an.refcnt + 1)) a j ↔ j = a ∨ (j ∈ ch a ∧ count w j = 0) := by
    intro j
    constructor
    · intro h
      induction h with
      | self => exact .inl rfl
      | @down p c m _ hc hpc hz ih =>
        have hca : c ≠ a := by rintro rfl; rw [h1a] at hc; cases hc; cases hpc
        obtain ⟨m0, h0, e1, e2, _⟩ := withoutAttr_parents he hne hc hca
        rcases ih with rfl | ⟨h, _⟩
        · exact .inr ⟨(hkid c m0 h0).1 (by rw [← e1]; exact hpc), by rw [count_some h0, ← e2]; exact hz⟩
        · exact absurd (by rw [← e1]; exact hpc) (hleaf p h c m0 h0)
    · rintro (rfl | ⟨h, h0⟩)
      · exact .self
      · obtain ⟨cn, hcn, hct, hcp⟩ := hC.linked.alive_child h
        rw [count_some hcn] at h0
        have hca : j ≠ a := by rintro rfl; rw [ha] at hcn; cases hcn; exact hct hat
        have hce : j ≠ e := by
          rintro rfl
          have := hC.types a an j cn ha h hcn
          rw [he] at hcn; cases hcn
          rw [hat, het] at this
          cases this with
          | content hp _ => simp at hp
          | attr h => simp at h
        exact .down .self (by rw [h1o j hce hca]; exact hcn) hcp h0
  have horph : ∀ j, Orphaned (withoutAttr w e a en an (an.refcnt + 1)) a j ↔ j ∈ ch a ∧ count w j ≠ 0 := by
    intro j
    constructor
    · rintro ⟨p, m, hdp, hj, hpj, hz⟩
      have hja : j ≠ a := by rintro rfl; rw [h1a] at hj; cases hj; cases hpj
      obtain ⟨m0, h0, e1, e2, _⟩ := withoutAttr_parents he hne hj hja
      rcases (hdies p).1 hdp with rfl | ⟨h, _⟩
      · exact ⟨(hkid j m0 h0).1 (by rw [← e1]; exact hpj), by rw [count_some h0, ← e2]; exact hz⟩
      · exact absurd (by rw [← e1]; exact hpj) (hleaf p h j m0 h0)
    · rintro ⟨h, h0⟩
      obtain ⟨cn, hcn, hct, hcp⟩ := hC.linked.alive_child h
      rw [count_some hcn] at h0
      have hca : j ≠ a := by rintro rfl; rw [ha] at hcn; cases hcn; exact hct hat
      have hce : j ≠ e := by
        rintro rfl
        have := hC.types a an j cn ha h hcn
        rw [he] at hcn; cases hcn
        rw [hat, het] at this
        cases this with
        | content hp _ => simp at hp
        | attr h => simp at h
      exact ⟨a, cn, .self, by rw [h1o j hce hca]; exact hcn, hcp, h0⟩
  have hkne : ∀ c ∈ ch a, c ≠ a ∧ c ≠ e ∧ c ≠ d := by
    intro c hc
    obtain ⟨cn, hcn, hct, hcp⟩ := hC.linked.alive_child hc
    have hty := hC.types a an c cn ha hc hcn
    rw [hat] at hty
    have hty : cn.type ∈ [NodeType.text, .entityRef] := by
      cases hty with
      | content hp _ => simp at hp
      | attr h => exact h
    refine ⟨?_, ?_, ?_⟩ <;> rintro rfl
    · rw [ha] at hcn; cases hcn; exact hct hat
    · rw [he] at hcn; cases hcn; rw [het] at hty; simp at hty
    · rw [hd] at hcn; cases hcn; rw [hdt] at hty; simp at hty
  have hcnt1 : ∀ j, count (withoutAttr w e a en an (an.refcnt + 1)) j = if j = a then count w j + 1 else count w j := by
    intro j
    by_cases hja : j = a
    · rw [if_pos hja, hja, count_some h1a, count_some ha]
    · rw [if_neg hja]
      by_cases hje : j = e
      · rw [hje, count_some h1e, count_some he]
      · unfold count; rw [h1o j hje hja]
  obtain ⟨w', ch', hu, S'⟩ := S1.unref h1a (Nat.succ_pos _) (fun h1 _ => ⟨by
    have h0 : count w a = 0 := by rw [count_some ha]; simpa using h1
    intro c m hoc hm
    obtain ⟨hc, hcz⟩ := (horph c).1 hoc
    obtain ⟨k1, k2, _⟩ := hkne c hc
    rw [h1o c k2 k1] at hm
    exact hcl h0 c m ⟨a, m, .self, hm, (hkid c m hm).2 hc, by rw [← count_some hm]; exact hcz⟩ hm, fun h => by
    have h : an.type = .document := h
    rw [hat] at h; cases h⟩)
  have hcnt := S1.unref_count h1a (Nat.succ_pos _) hu
  have hcounts : ∀ j, count w' j = count w j := by
    intro j
    rw [hcnt j, hcnt1 j]
    by_cases hja : j = a
    · rw [if_pos hja, if_pos hja]; omega
    · rw [if_neg hja, if_neg hja]
  by_cases hz : an.refcnt = 0
  · have hdoc1 : (withoutAttr w e a en an (an.refcnt + 1)).nodes d = some dn := by rw [h1o d hde hda]; exact hd
    obtain ⟨v, hv, P⟩ := unref_root S1.wf S1.attrs h1a (by show an.refcnt + 1 = 1; omega) rfl (by show an.type ≠ _; rw [hat]; simp) (fun h => by
      have h : an.type = .fragment := h
      rw [hat] at h; cases h) ho hdoc1 (fun h => (S.docs d dn hd hdt h).1)
    rw [hu] at hv; cases hv
    have hdead : ∀ j, (j = a ∨ (j ∈ ch a ∧ count w j = 0)) → w'.nodes j = none := fun j h => P.dead j (.inl ((hdies j).2 h))
    have hcut : ∀ c ∈ ch a, ∀ m, w.nodes c = some m → 0 < m.refcnt → w'.nodes c = some { m with parent := none, pendingIn := m.owner } := by
      intro c hc m hm h0
      obtain ⟨k1, k2, k3⟩ := hkne c hc
      refine P.cut c m ((horph c).2 ⟨hc, by rw [count_some hm]; omega⟩) ?_ (by rw [h1o c k2 k1]; exact hm)
      rintro (h | ⟨h, _⟩)
      · rcases (hdies c).1 h with h | ⟨_, h⟩
        · exact k1 h
        · rw [count_some hm] at h; omega
      · exact k3 h
    have hsame : ∀ j, j ≠ a → j ∉ ch a → (j = d → 0 < dn.refcnt) → w'.nodes j = (withoutAttr w e a en an (an.refcnt + 1)).nodes j := by
      intro j h1 h2 h3
      refine P.same j ?_ (fun h => h2 ((horph j).1 h).1) ?_
      · rintro (h | ⟨h, _, h4, _⟩)
        · rcases (hdies j).1 h with h | ⟨h, _⟩
          · exact h1 h
          · exact h2 h
        · have := h3 h; omega
      · rintro ⟨h, _, h4, _⟩
        have := h3 h; omega
    have hea : e ∉ ch a := fun h => (hkne e h).2.1 rfl
    have helem : w'.nodes e = some { en with attrs := en.attrs.filter (fun y => decide (y.node ≠ a)) } := by
      rw [hsame e hne hea (fun h => absurd h (Ne.symm hde)), h1e]
    refine ⟨w', ch', by rw [hrun]; exact hu, S', ?_, ?_, ?_, ?_, hcounts, ?_, ?_⟩
    · intro en' he'
      rw [he] at he'; cases he'; exact helem
    · intro _
      exact ⟨hdead a (.inl rfl), fun c hc => ⟨fun h0 => hdead c (.inr ⟨hc, h0⟩), fun m hm h0 => hcut c hc m hm h0⟩⟩
    · intro an' ha' h0
      rw [ha] at ha'; cases ha'; omega
    · intro q m' hq
      have hqa : q ≠ a := by rintro rfl; rw [hdead q (.inl rfl)] at hq; cases hq
      by_cases hqc : q ∈ ch a
      · have hq0 : ch q = [] := value_leaf S ha hat hqc
        obtain ⟨qn, hqn, _⟩ := hC.linked.alive_child hqc
        have hf : qn.first = none := by
          obtain ⟨m2, hm2, e1, _⟩ := (hC.linked.loc q qn hqn).ends
          rw [hqn] at hm2; cases hm2; rw [e1, hq0]; rfl
        have h0 : 0 < qn.refcnt := by
          rcases Nat.eq_zero_or_pos qn.refcnt with h | h
          · rw [hdead q (.inr ⟨hqc, by rw [count_some hqn]; exact h⟩)] at hq; cases hq
          · exact h
        rw [hcut q hqc qn hqn h0] at hq; cases hq
        obtain ⟨m2, hm2, e1, _⟩ := (S'.wf.linked.loc q _ (hcut q hqc qn hqn h0)).ends
        rw [hcut q hqc qn hqn h0] at hm2; cases hm2
        rw [hq0]
        have e1 : qn.first = (ch' q).head? := e1
        rw [hf] at e1
        exact List.head?_eq_none_iff.1 e1.symm
      · by_cases hqd : q = d ∧ dn.refcnt = 0
        · obtain ⟨rfl, h0⟩ := hqd
          have hf := (S.docs q dn hd hdt h0).1
          have hl0 : ch q = [] := by
            obtain ⟨m2, hm2, e1, _⟩ := (hC.linked.loc q dn hd).ends
            rw [hd] at hm2; cases hm2
            rw [hf] at e1; exact List.head?_eq_none_iff.1 e1.symm
          rw [hl0]
          have hmem : ∀ k ∈ ch' q, False := by
            intro k hk
            obtain ⟨kn, hkn, _, hkp⟩ := S'.wf.linked.alive_child hk
            have hka : k ≠ a := by rintro rfl; rw [hdead k (.inl rfl)] at hkn; cases hkn
            have hkd : k ≠ q := by
              rintro rfl
              have hkt : kn.type = .document := by
                have hnd : ¬ (Dies (withoutAttr w e a en an (an.refcnt + 1)) a k ∨ (k = k ∧ (some k : Option NodeId) ≠ none ∧ dn.refcnt = 0 ∧ ¬ Needed (withoutAttr w e a en an (an.refcnt + 1)) a k)) := by
                  intro h
                  have hx := P.dead k (by
                    rcases h with h | ⟨_, _, h1, h2⟩
                    · exact .inl h
                    · exact .inr ⟨rfl, by show an.owner ≠ none; rw [ho]; simp, h1, h2⟩)
                  rw [hx] at hq; cases hq
                have hN : Needed (withoutAttr w e a en an (an.refcnt + 1)) a k := by
                  by_contra h; exact hnd (.inr ⟨rfl, by simp, h0, h⟩)
                have hh := P.husk k dn ⟨rfl, by show an.owner ≠ none; rw [ho]; simp, h0, hN⟩ (by
                  rintro (h | ⟨_, _, _, h⟩)
                  · exact hnd (.inl h)
                  · exact h hN) hdoc1
                rw [hh] at hkn; cases hkn; exact hdt
              have := doc_parent S'.wf.toCore hkn hkt
              rw [hkp] at this; cases this
            by_cases hkc : k ∈ ch a
            · obtain ⟨qn, hqn, _⟩ := hC.linked.alive_child hkc
              rcases Nat.eq_zero_or_pos qn.refcnt with h | h
              · rw [hdead k (.inr ⟨hkc, by rw [count_some hqn]; exact h⟩)] at hkn; cases hkn
              · rw [hcut k hkc qn hqn h] at hkn; cases hkn; cases hkp
            · rw [hsame k hka hkc (fun h => absurd h hkd)] at hkn
              obtain ⟨m0, hm0, e1, _⟩ := withoutAttr_parents he hne hkn hka
              exact no_children hC hd hdt hf hm0 (by rw [← e1]; exact hkp)
          cases hc : ch' q with
          | nil => rfl
          | cons k l => exact absurd (hmem k (by rw [hc]; simp)) id
        · have hs : w'.nodes q = (withoutAttr w e a en an (an.refcnt + 1)).nodes q := hsame q hqa hqc (fun h => by
            rcases Nat.eq_zero_or_pos dn.refcnt with h0 | h0
            · exact absurd ⟨h, h0⟩ hqd
            · exact h0)
          have hq1 := hq
          rw [hs] at hq1
          refine children_det (S1.wf.linked.loc q m' hq1) (S'.wf.linked.loc q m' hq) (by rw [hs]) ?_
          intro k hk
          obtain ⟨kn, hkn, hkt, hkp⟩ := hC.linked.alive_child hk
          refine hsame k ?_ ?_ ?_
          · rintro rfl; rw [ha] at hkn; cases hkn; exact hkt hat
          · intro h
            exact hqa (hC.linked.mem_unique hk h)
          · rintro rfl
            rw [hd] at hkn; cases hkn
            have := doc_parent hC hd hdt
            rw [hkp] at this; cases this
    · intro j m hm h1 h2 h3 h4
      rw [hsame j h2 h3 (fun h => by subst h; rw [hd] at hm; cases hm; exact h4 hdt), h1o j h1 h2]; exact hm
    · rw [P.log]; rfl
  · have hk := unref_keep h1a (Nat.succ_pos _) (.inl (show an.refcnt + 1 ≠ 1 by omega))
    rw [hu] at hk
    cases hk
    have h2a : ∀ j, j ≠ a → ((withoutAttr w e a en an (an.refcnt + 1)).upd a { an with parent := none, pendingIn := an.owner, refcnt := an.refcnt + 1 - 1 }).nodes j =
        (withoutAttr w e a en an (an.refcnt + 1)).nodes j := fun j hj => upd_ne _ _ hj
    have S2 := S1.setRef (r := an.refcnt + 1 - 1) h1a (fun _ _ => by omega) (fun h => by
      have h : an.type = .document := h
      rw [hat] at h; cases h)
    refine ⟨_, ch, by rw [hrun]; exact hu, S2, ?_, ?_, ?_, fun _ _ _ => rfl, hcounts, ?_, rfl⟩
    · intro en' he'
      rw [he] at he'; cases he'
      rw [h2a e hne]; exact h1e
    · intro h; rw [count_some ha] at h; exact absurd h hz
    · intro an' ha' _
      rw [ha] at ha'; cases ha'
      refine ⟨by rw [upd_same]; rfl, fun c hc => ?_⟩
      obtain ⟨k1, k2, _⟩ := hkne c hc
      rw [h2a c k1, h1o c k2 k1]
    · intro j m hm h1 h2 _ _
      rw [h2a j h2, h1o j h1 h2]; exact hm

/-! ## The functions with names -/

/-- The entry has the name, and the namespace if one is given. -/
def Named (name : DStr) (ns : Option DStr) (x : AttrEntry) : Prop := x.name.data = name.data ∧ ∀ u, ns = some u → ∃ u', x.ns = some u' ∧ u'.data = u.data

/-- Among the entries of `e` the first that has the name is `x`. -/
def First (en : Node) (name : DStr) (ns : Option DStr) (x : AttrEntry) : Prop := ∃ l r, en.attrs = l ++ x :: r ∧ Named name ns x ∧ ∀ y ∈ l, ¬ Named name ns y

theorem sameAttr_iff {name : DStr} {ns : Option DStr} {x : AttrEntry} : sameAttr name ns x = true ↔ Named name ns x := by
  have heq : ∀ a b : DStr, Str.isEqual (some a) (some b) = true ↔ b.data = a.data := by
    intro a b
    rw [Str.C06_isEqual_iff]
    simp only [Str.contents]
    exact ⟨fun h => h.symm, fun h => h.symm⟩
  unfold sameAttr Named
  rw [Bool.and_eq_true, heq]
  cases ns with
  | none => simp
  | some u =>
    cases hx : x.ns with
    | none => simp
    | some u' =>
      simp only [Option.isSome_some, Bool.true_and]
      rw [heq]
      constructor
      · rintro ⟨h1, h2⟩
        exact ⟨h2, fun v hv => ⟨u', rfl, by cases hv; exact h1⟩⟩
      · rintro ⟨h1, h2⟩
        obtain ⟨u2, h3, h4⟩ := h2 u rfl
        cases h3
        exact ⟨h4, h1⟩

theorem find_first {name : DStr} {ns : Option DStr} {y : AttrEntry} (h : First en name ns y) : en.attrs.find? (sameAttr name ns) = some y := by
  obtain ⟨l, r, h1, h2, h3⟩ := h
  rw [h1, List.find?_append, List.find?_cons_of_pos (sameAttr_iff.2 h2)]
  rw [List.find?_eq_none.2 (fun z hz hs => h3 z hz (sameAttr_iff.1 hs))]
  rfl

theorem find_none {name : DStr} {ns : Option DStr} (h : ∀ y ∈ en.attrs, ¬ Named name ns y) : en.attrs.find? (sameAttr name ns) = none :=
  List.find?_eq_none.2 (fun z hz hs => h z hz (sameAttr_iff.1 hs))

theorem setAttr_start (hC : Core w ch) (he : w.nodes e = some en) {name : DStr} (hn : Names.validateAttributeName (some name) = true) (hro : ¬ ReadOnly w e) (ns v : Option DStr) :
    setAttr e name ns v w = setFound (en.attrs.find? (sameAttr name ns)) e en.owner name ns v w := by
  unfold setAttr
  rw [hn]
  simp only [Bool.not_true]
  rw [throwIf_false, not_ro hC he hro, get_bind he]

theorem entry_node (S : Sound w ch) (he : w.nodes e = some en) (het : en.type = .element) {y : AttrEntry} (hy : y ∈ en.attrs) :
    ∃ an, w.nodes y.node = some an ∧ an.type = .attribute ∧ an.parent = some e :=
  (S.attrs e).2.1 y.node (by unfold attrNodes; rw [he]; simp only [het, if_true]; exact List.mem_map_of_mem hy)

/-- **C79**: setting an attribute that the element has replaces the value of the first attribute of the name, and nothing else. -/
theorem C79_set_existing (S : Sound w ch) (he : w.nodes e = some en) (het : en.type = .element) (hro : ¬ ReadOnly w e) {name : DStr} {cs : List Char} (hn : Str.Holds name cs)
    (hok : cs ≠ [] ∧ ∀ c ∈ cs, Names.IsAttrChar c.toNat) {ns : Option DStr} {y : AttrEntry} (hy : First en name ns y) (v : Option DStr) :
    (∀ an, w.nodes y.node = some an → an.attrRO = false → ∃ w' ch', setAttr e name ns v w = .ok w' () ∧ ValueSet w ch y.node v w' ch') ∧
    ∀ an, w.nodes y.node = some an → an.attrRO = true → setAttr e name ns v w = .exc w .noModificationAllowed := by
  have hv := (Names.C15_accept_iff name cs hn).2 ⟨hok.1, fun c hc => .inl (hok.2 c hc)⟩
  have hs := setAttr_start S.wf.toCore he hv hro ns v
  rw [find_first hy] at hs
  obtain ⟨l, r, h1, _⟩ := hy
  obtain ⟨an, ha, hat, hp⟩ := entry_node S he het (y := y) (by rw [h1]; simp)
  refine ⟨fun an' ha' hr => ?_, fun an' ha' hr => ?_⟩ <;> rw [ha] at ha' <;> cases ha' <;> rw [hs]
  · exact C79_value S ha hat hr hp v
  · exact C79_value_readonly ha hat hr v

/-- **C79**: setting an attribute that the element does not have adds it at the end. -/
theorem C79_set_new (S : Sound w ch) (he : w.nodes e = some en) (het : en.type = .element) (hro : ¬ ReadOnly w e) {name : DStr} {cs : List Char} (hn : Str.Holds name cs)
    (hok : cs ≠ [] ∧ ∀ c ∈ cs, Names.IsAttrChar c.toNat) {ns : Option DStr} (hno : ∀ y ∈ en.attrs, ¬ Named name ns y) (v : Option DStr) :
    ∃ w' ch', setAttr e name ns v w = .ok w' () ∧ AttrAdded w ch e name ns v w' ch' := by
  have hv := (Names.C15_accept_iff name cs hn).2 ⟨hok.1, fun c hc => .inl (hok.2 c hc)⟩
  rw [setAttr_start S.wf.toCore he hv hro ns v, find_none hno]
  exact addAttr_run S he het name ns v

/-- **C79**: a name that is empty or has a character that is not allowed is refused, and so is a read-only element; nothing changes. -/
theorem C79_set_refused (hC : Core w ch) (he : w.nodes e = some en) {name : DStr} {cs : List Char} (hn : Str.Holds name cs) (ns v : Option DStr) :
    (cs = [] ∨ (∃ c ∈ cs, ¬ Names.IsAttrChar c.toNat ∧ ¬ c.toNat < 0x20) → setAttr e name ns v w = .exc w .invalidCharacter) ∧
    (cs ≠ [] → (∀ c ∈ cs, Names.IsAttrChar c.toNat) → ReadOnly w e → setAttr e name ns v w = .exc w .noModificationAllowed) := by
  constructor
  · intro h
    have hv : Names.validateAttributeName (some name) = false := by
      rw [Bool.eq_false_iff]
      intro h1
      obtain ⟨h2, h3⟩ := (Names.C15_accept_iff name cs hn).1 h1
      rcases h with h | ⟨c, hc, h4, h5⟩
      · exact h2 h
      · rcases h3 c hc with h6 | h6
        · exact h4 h6
        · exact h5 h6
    unfold setAttr
    rw [hv]
    simp only [Bool.not_false]
    rw [throwIf_true]
  · intro h1 h2 hro
    have hv := (Names.C15_accept_iff name cs hn).2 ⟨h1, fun c hc => .inl (h2 c hc)⟩
    unfold setAttr
    rw [hv]
    simp only [Bool.not_true]
    rw [throwIf_false, yes_ro hC he hro]

/-- **C79**: removing an attribute takes off the first one of the name.  Missing: an attribute to which no reference is held, with a value of several nodes of which one is referenced
(the freed siblings stay in the links of that node, as `C46_stale_sibling_violated` shows for elements). -/
theorem C79_remove_partial (S : Sound w ch) (he : w.nodes e = some en) (het : en.type = .element) (hro : ¬ ReadOnly w e) {name : DStr} {ns : Option DStr} {y : AttrEntry}
    (hy : First en name ns y) (hov : Room w y.node) (hcl : count w y.node = 0 → Clean w y.node) :
    ∃ w' ch', removeAttr e name ns w = .ok w' () ∧ AttrRemoved w ch e y.node w' ch' := by
  have hy' : y ∈ en.attrs := by obtain ⟨l, r, h1, _⟩ := hy; rw [h1]; simp
  have e1 : removeAttr e name ns w = dropFound (some y) e w := by
    unfold removeAttr
    rw [not_ro S.wf.toCore he hro, get_bind he, find_first hy]
  rw [e1]
  exact dropFound_run S he het hy' hov hcl

/-- **C79**: removing an attribute that the element does not have changes nothing, and a read-only element refuses. -/
theorem C79_remove_none (hC : Core w ch) (he : w.nodes e = some en) {name : DStr} {ns : Option DStr} :
    (¬ ReadOnly w e → (∀ y ∈ en.attrs, ¬ Named name ns y) → removeAttr e name ns w = .ok w ()) ∧ (ReadOnly w e → removeAttr e name ns w = .exc w .noModificationAllowed) := by
  constructor
  · intro hro h
    unfold removeAttr
    rw [not_ro hC he hro, get_bind he, find_none h]
    rfl
  · intro hro
    unfold removeAttr
    rw [yes_ro hC he hro]

/-! ## Reading -/

/-- The bytes of the data of a node. -/
def dataAt (w : World) (c : NodeId) : List UInt8 := match w.nodes c with
  | some m => (m.value.map DStr.data).getD []
  | none => []

theorem valueLoop_run (hL : ∀ c ∈ ch a, ∃ m, w.nodes c = some m ∧ m.type = .text) (hloc : LocAt w ch a) : ∀ (l s : List NodeId) (f : Nat) (v : DStr), ch a = s ++ l → l.length ≤ f →
    ∃ r, valueLoop f v l.head? w = .ok w r ∧ r.data = v.data ++ l.flatMap (dataAt w)
  | [], s, f, v, _, _ => ⟨v, by cases f <;> rfl, by simp⟩
  | c :: l, s, 0, v, _, hf => by simp at hf
  | c :: l, s, f + 1, v, hs, hf => by
    obtain ⟨m, hm, ht⟩ := hL c (by rw [hs]; simp)
    obtain ⟨m', hm', _, _, _, hnx⟩ := hloc.kids s c l hs
    rw [hm] at hm'; cases hm'
    unfold valueLoop
    simp only [List.head?_cons]
    rw [get_bind hm]
    cases hv : m.value with
    | none =>
      obtain ⟨r, h1, h2⟩ := valueLoop_run hL hloc l (s ++ [c]) f v (by simp [hs]) (by simpa using hf)
      have e1 : addValue m v = pure v := by unfold addValue; rw [ht, hv]
      rw [e1, pure_bind', hnx]
      exact ⟨r, h1, by rw [h2]; simp [dataAt, hm, hv]⟩
    | some t =>
      obtain ⟨r, h1, h2⟩ := valueLoop_run hL hloc l (s ++ [c]) f (Str.create (v.data ++ t.data)) (by simp [hs]) (by simpa using hf)
      have e1 : addValue m v = liftOut (Str.concat (some v) (some t)) := by unfold addValue; rw [ht, hv]
      rw [e1, liftOut_ok (x := Str.concat (some v) (some t)) (a := Str.create (v.data ++ t.data)) rfl, hnx]
      have hcr : ∀ b, (Str.create b).data = b := fun _ => rfl
      exact ⟨r, h1, by rw [h2, hcr]; simp [dataAt, hm, hv]⟩

/-- **C79**: the value of an attribute is the data of its Text nodes in order.  Missing: values with entity references, for which the code reports that they are not supported. -/
theorem C79_read_partial (S : Sound w ch) (ha : w.nodes a = some an) (hL : ∀ c ∈ ch a, ∃ m, w.nodes c = some m ∧ m.type = .text) :
    ∃ r, getValue a w = .ok w r ∧ r.data = (ch a).flatMap (dataAt w) := by
  have hC := S.wf.toCore
  have hloc := hC.linked.loc a an ha
  obtain ⟨m, hm, hf, hl⟩ := hloc.ends
  rw [ha] at hm; cases hm
  obtain ⟨r, h1, h2⟩ := valueLoop_run hL hloc (ch a) [] (w.fresh + 1) Str.emptyString rfl (by have := child_length_le hC a; omega)
  have hgen : ∀ (k : M (Option DStr)), k w = .ok w none → (k >>= fun one => (match one with
       | some v => pure v
       | none => do
          let b ← bound
          valueLoop b Str.emptyString an.first : M DStr)) w = .ok w r := by
    intro k hk
    rw [bind_ok hk]
    simp only
    rw [bound_bind, hf]; exact h1
  unfold getValue
  rw [get_bind ha]
  cases hc : ch a with
  | nil =>
    refine ⟨r, hgen _ (by unfold singleText; rw [hf, hc]; rfl), by rw [h2, hc]; rfl⟩
  | cons c l =>
    obtain ⟨m, hm, ht⟩ := hL c (by rw [hc]; simp)
    have hfc : an.first = some c := by rw [hf, hc]; rfl
    by_cases hlc : an.last = some c
    · have hl0 : l = [] := by
        cases l with
        | nil => rfl
        | cons k l =>
          exfalso
          have hnd := hloc.nodup
          rw [hl, hc] at hlc
          rw [hc] at hnd
          rw [List.getLast?_cons_cons] at hlc
          exact (List.nodup_cons.1 hnd).1 (List.mem_of_getLast? hlc)
      have hs : singleText an w = .ok w m.value := by
        unfold singleText
        rw [hfc]
        simp only
        rw [if_pos hlc, get_bind hm, ht]
        rfl
      cases hv : m.value with
      | some v =>
        refine ⟨v, ?_, ?_⟩
        · rw [bind_ok hs, hv]; rfl
        · rw [hl0]; simp [dataAt, hm, hv]
      | none =>
        refine ⟨r, hgen _ (by rw [hs, hv]), by rw [h2, hc]; rfl⟩
    · refine ⟨r, hgen _ (by unfold singleText; rw [hfc]; simp only; rw [if_neg hlc]; rfl), by rw [h2, hc]; rfl⟩

/-- **C79**: reading an attribute by name gives the value of the first one of the name, or NULL. -/
theorem C79_get_partial (S : Sound w ch) (he : w.nodes e = some en) (het : en.type = .element) {name : DStr} {ns : Option DStr} :
    (∀ y, First en name ns y → (∀ c ∈ ch y.node, ∃ m, w.nodes c = some m ∧ m.type = .text) →
      ∃ r, getAttr e name ns w = .ok w (some r) ∧ r.data = (ch y.node).flatMap (dataAt w)) ∧
    ((∀ y ∈ en.attrs, ¬ Named name ns y) → getAttr e name ns w = .ok w none) := by
  constructor
  · intro y hy hL
    have hy' : y ∈ en.attrs := by obtain ⟨l, r, h1, _⟩ := hy; rw [h1]; simp
    obtain ⟨an, ha, _⟩ := entry_node S he het hy'
    obtain ⟨r, h1, h2⟩ := C79_read_partial S ha hL
    refine ⟨r, ?_, h2⟩
    unfold getAttr
    rw [get_bind he, find_first hy]
    simp only
    rw [bind_ok h1]; rfl
  · intro h
    unfold getAttr
    rw [get_bind he, find_none h]
    rfl

theorem named_self (name : DStr) (ns : Option DStr) (a : NodeId) : Named name ns { name := name, ns := ns, node := a } :=
  ⟨rfl, fun u h => ⟨u, h, rfl⟩⟩

/-- **C79**: the value that was set is the value that is read. -/
theorem C79_roundtrip (S : Sound w ch) (he : w.nodes e = some en) (het : en.type = .element) {name : DStr} {ns v : Option DStr} (h : setAttr e name ns v w = .ok w' ()) :
    ∃ r, getAttr e name ns w' = .ok w' (some r) ∧ r.data = (v.map DStr.data).getD [] := by
  have hC := S.wf.toCore
  have hv : Names.validateAttributeName (some name) = true := by
    by_contra hv
    rw [Bool.not_eq_true] at hv
    unfold setAttr at h
    rw [hv] at h
    simp only [Bool.not_false] at h
    rw [throwIf_true] at h; cases h
  have hro : ¬ ReadOnly w e := by
    intro hro
    unfold setAttr at h
    rw [hv] at h
    simp only [Bool.not_true] at h
    rw [throwIf_false, yes_ro hC he hro] at h; cases h
  have hs := setAttr_start hC he hv hro ns v
  rw [h] at hs
  have fin : ∀ {u : World} {chu : Children} {t b : NodeId} {tn eu : Node} {y : AttrEntry}, Sound u chu → u.nodes e = some eu → eu.type = .element → First eu name ns y → y.node = b → chu b = [t] →
      u.nodes t = some tn → tn.type = .text → tn.value = v → ∃ r, getAttr e name ns u = .ok u (some r) ∧ r.data = (v.map DStr.data).getD [] := by
    intro u chu t b tn eu y Su heu het hy hyb hch ht htt htv
    obtain ⟨r, h1, h2⟩ := (C79_get_partial Su heu het).1 y hy (by rw [hyb, hch]; intro c hc; rw [List.mem_singleton.1 hc]; exact ⟨tn, ht, htt⟩)
    refine ⟨r, h1, ?_⟩
    rw [h2, hyb, hch]
    simp [dataAt, ht, htv]
  cases hf : en.attrs.find? (sameAttr name ns) with
  | some y =>
    rw [hf] at hs
    obtain ⟨h1, l, r, h2, h3⟩ := List.find?_eq_some_iff_append.1 hf
    have hy : First en name ns y := ⟨l, r, h2, sameAttr_iff.1 h1, fun z hz hn => by
      have := h3 z hz
      rw [sameAttr_iff.2 hn] at this; simp at this⟩
    obtain ⟨an, ha, hat, hp⟩ := entry_node S he het (y := y) (by rw [h2]; simp)
    cases hr : an.attrRO with
    | true =>
      have := C79_value_readonly ha hat hr v
      rw [show setFound (some y) e en.owner name ns v w = setValue y.node v w from rfl, this] at hs
      cases hs
    | false =>
      obtain ⟨u, chu, h4, V⟩ := C79_value S ha hat hr hp v
      rw [show setFound (some y) e en.owner name ns v w = setValue y.node v w from rfl, h4] at hs
      cases hs
      obtain ⟨t, tn, k1, _, k3, k4, k5, _⟩ := V.value
      have hea : e ≠ y.node := by intro h; rw [← h, he] at ha; cases ha; rw [het] at hat; cases hat
      have hec : e ∉ ch y.node := by
        intro h
        have := hC.types _ _ _ _ ha h he
        rw [hat, het] at this
        cases this with
        | content hp _ => simp at hp
        | attr h => simp at h
      exact fin V.sound (V.others e en he hea hec) het hy rfl k1 k3 k4 k5
  | none =>
    rw [hf] at hs
    obtain ⟨u, chu, h4, V⟩ := addAttr_run S he het name ns v
    rw [show setFound none e en.owner name ns v w = addAttr e en.owner name ns v w from rfl, h4] at hs
    cases hs
    obtain ⟨a, t, an, tn, _, _, _, _, _, _, _, _, k1, k3, k4, k5, _, k6, _⟩ := V.new
    refine fin V.sound (k6 en he) het (y := { name := name, ns := ns, node := a }) ⟨en.attrs, [], rfl, named_self _ _ _, ?_⟩ rfl k1 k3 k4 k5
    intro z hz hn
    have := List.find?_eq_none.1 hf z hz
    exact this (sameAttr_iff.2 hn)

/-! ## Concrete cases -/

/-- A document (0) and an element (1) with an attribute `b` (2) whose value is the Text "x" (3), to which a reference is kept; the references to the attribute are given up. -/
def attrActs : List Act :=
  [.call .createDocument, .call (.createNode 0 .element none none), .call (.createNode 0 .attribute (strOf [98]) none), .call (.createNode 0 .text none (strOf [120])),
   .call (.appendChild 2 3), .putAttr 1 2 (Str.create [98]) none, .unref 2, .unref 3]

/-- An element without parent is not read-only. -/
theorem loose_ro (he : w.nodes e = some en) (het : en.type = .element) (hp : en.parent = none) : ¬ ReadOnly w e := by
  rintro ⟨m, hm, hr⟩
  rw [he] at hm; cases hm
  rw [het] at hr
  rcases hr with hr | hr | hr | ⟨_, j, k, hanc, hk, hkt⟩
  · cases hr
  · cases hr
  · cases hr.1
  · rcases Relation.ReflTransGen.cases_head hanc with h | ⟨c, ⟨m, hm, hmp⟩, _⟩
    · rw [← h, he] at hk; cases hk
      rw [het] at hkt
      rcases hkt with h | h <;> cases h
    · rw [he] at hm; cases hm
      rw [hp] at hmp; cases hmp

/-- The hypotheses of the theorems above are met in this memory: the attribute `b` can be set and removed, the attribute `c` can be added. -/
theorem sample79 : ∃ led w ch en an y, Client Careful led w ∧ Sound w ch ∧ w.nodes 1 = some en ∧ en.type = .element ∧ ¬ ReadOnly w 1 ∧ First en (Str.create [98]) none y ∧
    y.node = 2 ∧ w.nodes 2 = some an ∧ an.type = .attribute ∧ an.attrRO = false ∧ an.parent = some 1 ∧ ch 2 = [3] ∧ count w 2 = 0 ∧ count w 3 = 1 ∧ Room w 2 ∧ Clean w 2 ∧
    (∀ y ∈ en.attrs, ¬ Named (Str.create [99]) none y) ∧ Str.Holds (Str.create [98]) ['b'] ∧ Str.Holds (Str.create [99]) ['c'] ∧
    (∀ c ∈ ['b', 'c'], Names.IsAttrChar c.toNat) ∧
    ∃ w1 w2 w3, setAttr 1 (Str.create [98]) none (strOf [113]) w = .ok w1 () ∧ setAttr 1 (Str.create [99]) none (strOf [114]) w1 = .ok w2 () ∧ removeAttr 1 (Str.create [98]) none w2 = .ok w3 () ∧
      (∃ n3, w3.nodes 3 = some n3 ∧ n3.parent = none) ∧ w3.nodes 2 = none ∧ w3.nodes 4 = none ∧ (w3.nodes 5).isSome := by
  obtain ⟨led, w, hc, h⟩ := exists_careful attrActs
    (fun _ w => at_ w 2 (fun m => m.first = [3].head?) && nextsB w [3] &&
      at_ w 1 (fun m => m.type = .element && m.parent.isNone && decide (m.attrs = [{ name := Str.create [98], ns := none, node := 2 }])) &&
      at_ w 2 (fun m => m.type = .attribute && !m.attrRO && decide (m.parent = some 1)) && roomB w &&
      allB w (fun m => decide (m.refcnt = 0) || m.parent.isNone || (m.prev.isNone && m.next.isNone)) &&
      decide (count w 2 = 0 ∧ count w 3 = 1) &&
      (match setAttr 1 (Str.create [98]) none (strOf [113]) w with
       | .ok w1 _ => (match setAttr 1 (Str.create [99]) none (strOf [114]) w1 with
          | .ok w2 _ => (match removeAttr 1 (Str.create [98]) none w2 with
             | .ok w3 _ => at_ w3 3 (fun m => m.parent.isNone) && (w3.nodes 2).isNone && (w3.nodes 4).isNone && (w3.nodes 5).isSome
             | _ => false)
          | _ => false)
       | _ => false)) (by decide +kernel)
  simp only [Bool.and_eq_true] at h
  obtain ⟨⟨⟨⟨⟨⟨⟨hf, hx⟩, h1⟩, h2⟩, hr⟩, ha⟩, hd⟩, hs⟩ := h
  have hd := of_decide_eq_true hd
  obtain ⟨ch, S, _⟩ := hc.sound
  have hch : ch 2 = [3] := children_of S.wf hf hx
  obtain ⟨n1, k1, e1⟩ := at_elim h1
  obtain ⟨n2, k2, e2⟩ := at_elim h2
  simp only [Bool.and_eq_true, decide_eq_true_eq, Option.isNone_iff_eq_none, Bool.not_eq_true'] at e1 e2
  refine ⟨led, w, ch, n1, n2, { name := Str.create [98], ns := none, node := 2 }, hc, S, k1, e1.1.1, loose_ro k1 e1.1.1 e1.1.2, ⟨[], [], by rw [e1.2]; rfl, ⟨rfl, fun u h => by cases h⟩, fun y hy => by cases hy⟩,
    rfl, k2, e2.1.1, e2.1.2, e2.2, hch, hd.1, hd.2, room_of_roomB S.wf.bnd hr 2, ?_, ?_, ⟨rfl, by decide +kernel⟩, ⟨rfl, by decide +kernel⟩, ?_, ?_⟩
  · intro j m ho hm
    obtain ⟨p, m', _, hm', hp, hr0⟩ := ho
    rw [hm] at hm'; cases hm'
    have := allB_elim S.wf.bnd ha hm
    simpa [hr0, hp] using this
  · intro y hy hn
    rw [e1.2] at hy
    rw [List.mem_singleton.1 hy] at hn
    exact absurd hn.1 (by decide)
  · intro c hc
    simp only [List.mem_cons, List.not_mem_nil, or_false] at hc
    rcases hc with rfl | rfl <;> (unfold Names.IsAttrChar; decide +kernel)
  · split at hs
    · rename_i w1 _ hw1
      split at hs
      · rename_i w2 _ hw2
        split at hs
        · rename_i w3 _ hw3
          simp only [Bool.and_eq_true, Option.isNone_iff_eq_none] at hs
          obtain ⟨n3, q1, q2⟩ := at_elim hs.1.1.1
          exact ⟨w1, w2, w3, hw1, hw2, hw3, ⟨n3, q1, by simpa using q2⟩, hs.1.1.2, hs.1.2, hs.2⟩
        · cases hs
      · cases hs
    · cases hs

/-- An element (1) with an attribute `b` (2) whose value is "x" (3) and "y" (4); only the references to the element and to "y" are kept. -/
def staleActs : List Act :=
  [.call .createDocument, .call (.createNode 0 .element none none), .call (.createNode 0 .attribute (strOf [98]) none), .call (.createNode 0 .text none (strOf [120])),
   .call (.createNode 0 .text none (strOf [121])), .call (.appendChild 2 3), .call (.appendChild 2 4), .putAttr 1 2 (Str.create [98]) none, .unref 2, .unref 3, .unref 3, .unref 4]

/-- **C79** is violated for such a value: after the attribute was removed, asking the referenced Text for its previous sibling uses freed memory. -/
theorem C79_remove_stale_violated : ∃ led w, Client Careful led w ∧ 0 < led 1 ∧ 0 < led 4 ∧
    ∃ w', removeAttr 1 (Str.create [98]) none w = .ok w' () ∧ visit .prev 4 w' = .fault .useAfterFree := by
  obtain ⟨led, w, hc, h⟩ := exists_careful staleActs
    (fun led w => decide (0 < led 1) && decide (0 < led 4) &&
      (match removeAttr 1 (Str.create [98]) none w with
       | .ok w' _ => (match visit .prev 4 w' with
          | .fault .useAfterFree => true
          | _ => false)
       | _ => false)) (by decide +kernel)
  simp only [Bool.and_eq_true, decide_eq_true_eq] at h
  obtain ⟨⟨h1, h4⟩, hs⟩ := h
  refine ⟨led, w, hc, h1, h4, ?_⟩
  split at hs
  · rename_i w' _ hw
    split at hs
    · rename_i hv
      exact ⟨w', hw, hv⟩
    · cases hs
  · cases hs

end Dom.Tree
