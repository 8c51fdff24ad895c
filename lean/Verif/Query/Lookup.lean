import Verif.Query.Props
import Verif.Html.PropsSelect
/-!
# C58 Namespace lookup: isDefaultNamespace, lookupNamespaceURI, lookupPrefix

The tree (`World`) is only read; attributes live in the memory of the attribute model, where the address of an element is its node.
The calls through the table of functions from a node to its parent are the rounds of `climb`.
-/
set_option linter.unusedSimpArgs false
set_option linter.unusedVariables false
attribute [-simp] String.length_utf8EncodeChar
namespace Dom.Query

open Dom.Attr (M Mem liftOut hasAttr getAttr hasAttribute getAttribute Inv view reading entriesOf Op runOps Res)
open Dom.Tree hiding M Res
open Dom.Str (DStr Bytes contents)

/-- The string "xmlns", src/utils/namespace.c:53-54, which `_dom_namespace_get_xmlns_prefix` gives (:317-325). -/
def xmlnsName : DStr := Names.lit "xmlns"

/-- `dom_namespaces[DOM_NAMESPACE_XMLNS]`, src/utils/namespace.c:31. -/
def xmlnsNs : DStr := Names.lit "http://www.w3.org/2000/xmlns/"

/-- The way up the tree.  An Element answers (`some`) or passes the question on to its parent (`none`); every other node passes it on
(src/core/node.c:1578-1635), an attribute to its element (src/core/attr.c:703-760; the parent of the node; the reference taken on the
element, which is never given back, is not represented).  Without a parent the answer is `d`. -/
def climb {α : Type} (w : World) (say : NodeId → Node → M (Option α)) (d : α) : Nat → NodeId → M α
  | 0, _ => Attr.M.crash .diverge
  | k + 1, x => do
    let n ← liftOut (rdNode w x)
    let r ← (if n.type = .element then say x n else pure none)
    match r with
    | some a => pure a
    | none =>
      match n.parent with
      | none => pure d
      | some p => climb w say d k p

/-- `_dom_element_is_default_namespace`, src/core/element.c:1391-1427, without the call at the parent. -/
def sayDefault (ns : Option DStr) (x : NodeId) (n : Node) : M (Option Bool) :=
  if n.pfx.isNone then pure (some (Str.isEqual n.ns ns))
  else do
    let has ← hasAttribute x xmlnsName
    if has then do
      let v ← getAttribute x xmlnsName
      pure (some (Str.isEqual v ns))
    else pure none

/-- `dom_node_is_default_namespace`. -/
def isDefaultNamespace (w : World) (x : NodeId) (ns : Option DStr) : M Bool := climb w (sayDefault ns) false (w.fresh + 1) x

/-- `dom_element_has_attribute_ns` with the string "xmlns" for the namespace, src/core/element.c:1453; a name that is NULL is not found
(:203). -/
def hasDecl (x : NodeId) (p : Option DStr) : M Bool :=
  match p with
  | none => pure false
  | some q => hasAttr x (some xmlnsName) q

/-- `dom_element_get_attribute_ns` of src/core/element.c:1458-1460. -/
def getDecl (x : NodeId) (p : Option DStr) : M (Option DStr) :=
  match p with
  | none => pure none
  | some q => getAttr x (some xmlnsNs) q

/-- `_dom_element_lookup_namespace`, src/core/element.c:1438-1478, without the call at the parent. -/
def sayNamespace (p : Option DStr) (x : NodeId) (n : Node) : M (Option (Option DStr)) :=
  if n.ns.isSome && Str.isEqual n.pfx p then pure (some n.ns)
  else do
    let has ← hasDecl x p
    if has then do
      let v ← getDecl x p
      pure (some v)
    else do
      let has ← hasAttribute x xmlnsName
      if has then do
        let v ← getAttribute x xmlnsName
        pure (some v)
      else pure none

/-- `dom_node_lookup_namespace`. -/
def lookupNamespace (w : World) (x : NodeId) (p : Option DStr) : M (Option DStr) := climb w (sayNamespace p) none (w.fresh + 1) x

/-- `_dom_element_lookup_prefix`, src/core/element.c:1365-1381: calls the function of attributes that gives the owner element (the fifth
after those of nodes, include/dom/core/attr.h:28-50), where the table of an element has `dom_element_get_attribute_node`, a function with
other arguments. -/
def sayPrefix (ns : Option DStr) (x : NodeId) (n : Node) : M (Option (Option DStr)) := Attr.M.crash .badCall

/-- `dom_node_lookup_prefix`. -/
def lookupPrefix (w : World) (x : NodeId) (ns : Option DStr) : M (Option DStr) := climb w (sayPrefix ns) none (w.fresh + 1) x

/-! ## Specification -/

/-- `r` is the nearest node with the property `P` among `x` and its ancestors, or `none` when there is no such node. -/
def IsFirst (w : World) (P : NodeId → Prop) (x : NodeId) : Option NodeId → Prop
  | none => ∀ a, AncSelf w x a → ¬ P a
  | some r => AncSelf w x r ∧ P r ∧ ∀ a, AncSelf w x a → P a → AncSelf w r a

/-- The value of the attribute with the local name `xmlns` (`none` when there is no such attribute, `some none` when its value cannot be given). -/
def declared (s : Mem) (a : NodeId) : Option (Option Bytes) := reading s (entriesOf s a) none xmlnsName

/-- The elements from `x` upwards are in the attribute memory, and their namespace declarations have values. -/
def Covers (w : World) (s : Mem) (x : NodeId) : Prop :=
  ∀ a, AncSelf w x a → IsType w a .element → s.elems a ≠ none ∧ declared s a ≠ some none

variable {w : World} {ch : Children} {s s' : Mem} {ls : Attr.Addr → List Attr.Addr} {x a : NodeId} {n : Node} {α : Type}

/-! ## The way up -/

theorem climb_run {say : NodeId → Node → M (Option α)} {d : α} {P : NodeId → Prop} [DecidablePred P] {o : Option NodeId} {l : List NodeId}
    (h : Chain w o l) (hP : ∀ a, P a → IsType w a .element)
    (hsay : ∀ a n, a ∈ l → w.nodes a = some n → n.type = .element → ¬ P a → say a n s = .ok s none) :
    ∀ k x, o = some x → l.length ≤ k →
      (l.find? (fun a => decide (P a)) = none → climb w say d k x s = .ok s d) ∧
      ∀ a n s' r, l.find? (fun a => decide (P a)) = some a → w.nodes a = some n → say a n s = .ok s' (some r) → climb w say d k x s = .ok s' r := by
  induction h with
  | nil => intro k x hx; cases hx
  | @cons i n l hn hc ih =>
    intro k x hx hk
    cases hx
    cases k with
    | zero => simp at hk
    | succ k =>
      have hrd : liftOut (rdNode w i) s = .ok s n := Attr.liftOut_ok (by unfold rdNode; rw [hn])
      by_cases hPi : P i
      · obtain ⟨m, hm, ht⟩ := hP i hPi
        rw [hn] at hm; cases hm
        rw [List.find?_cons_of_pos (by simpa using hPi)]
        refine ⟨fun h => (nomatch h), ?_⟩
        intro a m s' r ha hm hs
        cases ha
        rw [hn] at hm; cases hm
        unfold climb
        rw [Attr.bind_ok hrd]
        simp only [ht, if_true]
        rw [Attr.bind_ok hs]
        rfl
      · rw [List.find?_cons_of_neg (by simpa using hPi)]
        unfold climb
        rw [Attr.bind_ok hrd]
        have hq : (if n.type = .element then say i n else pure none : M (Option α)) s = .ok s none := by
          by_cases ht : n.type = .element
          · rw [if_pos ht]; exact hsay i n List.mem_cons_self hn ht hPi
          · rw [if_neg ht]; rfl
        rw [Attr.bind_ok hq]
        cases hp : n.parent with
        | none =>
          rw [hp] at hc; cases hc
          exact ⟨fun _ => rfl, fun _ _ _ _ h => nomatch h⟩
        | some p =>
          dsimp only
          exact ih (fun a m ha => hsay a m (List.mem_cons_of_mem _ ha)) k p hp (by simpa using hk)

theorem self_chain (hW : Core w ch) (hx : w.nodes x = some n) : ∃ l, Chain w (some x) l ∧ l.length ≤ w.fresh + 1 ∧ ∀ a, a ∈ l ↔ AncSelf w x a := by
  obtain ⟨l, hl⟩ := exists_chain hW.linked hW.wf x n hx
  exact ⟨l, hl, Nat.le_succ_of_le (hl.length_le hW), hl.mem_iff⟩

theorem first_find {o : Option NodeId} {l : List NodeId} (hc : Chain w o l) (hl : ∀ a, a ∈ l ↔ AncSelf w x a) {P : NodeId → Prop} [DecidablePred P] :
    IsFirst w P x (l.find? fun a => decide (P a)) := by
  cases h : l.find? (fun a => decide (P a)) with
  | none =>
    intro a ha hP
    have := (List.find?_eq_none.1 h) a ((hl a).2 ha)
    simp [hP] at this
  | some r =>
    refine ⟨(hl r).1 (List.mem_of_find?_eq_some h), by simpa using List.find?_some h, fun a ha hP => ?_⟩
    exact chain_find hc _ r h a ((hl a).2 ha) (by simpa using hP)

/-- The question climbs to the first node of `P`, whose answer is the result. -/
theorem climb_first {say : NodeId → Node → M (Option α)} {d : α} {P : NodeId → Prop} (hW : Core w ch) (hx : w.nodes x = some n)
    (hP : ∀ a, P a → IsType w a .element)
    (hsay : ∀ a n, AncSelf w x a → w.nodes a = some n → n.type = .element → ¬ P a → say a n s = .ok s none)
    (hans : ∀ a n, AncSelf w x a → w.nodes a = some n → P a → ∃ s' v, say a n s = .ok s' (some v)) :
    ∃ r, IsFirst w P x r ∧ (r = none → climb w say d (w.fresh + 1) x s = .ok s d) ∧
      ∀ a, r = some a → ∃ n s' v, w.nodes a = some n ∧ say a n s = .ok s' (some v) ∧ climb w say d (w.fresh + 1) x s = .ok s' v := by
  classical
  obtain ⟨l, hc, hlen, hm⟩ := self_chain hW hx
  have hrun := climb_run (d := d) (P := P) (s := s) (say := say) hc hP (fun a n ha => hsay a n ((hm a).1 ha)) (w.fresh + 1) x rfl hlen
  have hfst := first_find hc hm (P := P)
  refine ⟨_, hfst, hrun.1, ?_⟩
  intro a h
  rw [h] at hfst
  obtain ⟨m, hm', ht⟩ := hP a hfst.2.1
  obtain ⟨s', v, hs⟩ := hans a m hfst.1 hm' hfst.2.1
  exact ⟨m, s', v, hm', hs, hrun.2 a m s' v h hm' hs⟩

/-! ## Reading the declaration -/

theorem fold_xmlns {el : Attr.Elem} (he : s.elems x = some el) : ∃ low : DStr, Attr.foldName x xmlnsName s = .ok s low ∧ low.data = xmlnsName.data := by
  cases hf : Attr.folds el with
  | true =>
    obtain ⟨low, h1, _, h3⟩ := Attr.foldName_html he hf xmlnsName
    exact ⟨low, h1, by rw [h3]; decide +kernel⟩
  | false => exact ⟨_, Attr.foldName_other he hf _, rfl⟩

theorem has_xmlns (hI : Inv s ls) (he : s.elems x ≠ none) : hasAttribute x xmlnsName s = .ok s (declared s x).isSome := by
  obtain ⟨el, he⟩ := Option.ne_none_iff_exists'.1 he
  obtain ⟨low, h1, h2⟩ := fold_xmlns he
  unfold hasAttribute
  rw [Attr.bind_ok h1, (Attr.C36_read hI he none low).1, Attr.reading_data _ h2, ← Attr.entriesOf_eq hI]
  rfl

theorem get_xmlns (hI : Inv s ls) (he : s.elems x ≠ none) {b : Bytes} (hd : declared s x = some (some b)) :
    ∃ s' v, getAttribute x xmlnsName s = .ok s' (some v) ∧ v.data = b := by
  obtain ⟨el, he⟩ := Option.ne_none_iff_exists'.1 he
  obtain ⟨low, h1, h2⟩ := fold_xmlns he
  obtain ⟨_, s', _, _, h3⟩ := Attr.C36_read hI he none low
  rw [Attr.reading_data _ h2] at h3
  unfold declared at hd
  rw [Attr.entriesOf_eq hI] at hd
  rw [hd] at h3
  obtain ⟨v, h4, h5⟩ := h3
  refine ⟨s', v, ?_, h5⟩
  unfold getAttribute
  rw [Attr.bind_ok h1]
  exact h4

/-! ## isDefaultNamespace -/

/-- An Element that decides what the default namespace is: it has no prefix, or it declares one. -/
def Decides (w : World) (s : Mem) (a : NodeId) : Prop :=
  ∃ n, w.nodes a = some n ∧ n.type = .element ∧ (n.pfx = none ∨ declared s a ≠ none)

/-- The default namespace according to a deciding element: its own when it has no prefix, else the declared one. -/
def DefaultIs (w : World) (s : Mem) (a : NodeId) (v : Bytes) : Prop :=
  ∃ n, w.nodes a = some n ∧ ((n.pfx = none ∧ contents n.ns = v) ∨ (n.pfx ≠ none ∧ declared s a = some (some v)))

/-- C58.  Away from Documents, isDefaultNamespace compares with the default namespace according to the nearest deciding element (no namespace
counts as the empty one).
Missing: a Document should ask its document element (`C58_document_violated`). -/
theorem C58_is_default_partial (h : ReachQ w) (hs : Attr.Reach s) (hx : w.nodes x = some n) (hc : Covers w s x) (ns : Option DStr) :
    ∃ r s' b, IsFirst w (Decides w s) x r ∧ isDefaultNamespace w x ns s = .ok s' b ∧
      (b = true ↔ ∃ a, r = some a ∧ DefaultIs w s a (contents ns)) := by
  obtain ⟨⟨ch, hW⟩, _⟩ := h.sound
  obtain ⟨ls, hg⟩ := hs.good
  have hI := hg.inv
  obtain ⟨r, h1, h2, h3⟩ := climb_first (say := sayDefault ns) (d := false) (P := Decides w s) (s := s) hW.toCore hx
    (fun a ⟨n, h1, h2, _⟩ => ⟨n, h1, h2⟩)
    (by
      intro a n ha hn ht hP
      have hp : ¬ (n.pfx = none ∨ declared s a ≠ none) := fun h => hP ⟨n, hn, ht, h⟩
      push Not at hp
      obtain ⟨p, hp1⟩ := Option.ne_none_iff_exists'.1 hp.1
      unfold sayDefault
      rw [hp1]
      simp only [Option.isNone_some, Bool.false_eq_true, if_false]
      rw [Attr.bind_ok (has_xmlns hI (hc a ha ⟨n, hn, ht⟩).1), hp.2]
      rfl)
    (by
      rintro a n ha hn ⟨m, hm, ht, hd⟩
      rw [hn] at hm; cases hm
      unfold sayDefault
      cases hp : n.pfx with
      | none => exact ⟨s, _, rfl⟩
      | some p =>
        rw [hp] at hd
        simp only [Option.isNone_some, Bool.false_eq_true, if_false]
        have hcov := hc a ha ⟨n, hn, ht⟩
        rw [Attr.bind_ok (has_xmlns hI hcov.1)]
        rcases hd with hd | hd
        · cases hd
        · cases hdd : declared s a with
          | none => exact absurd hdd hd
          | some ob =>
            cases ob with
            | none => exact absurd hdd hcov.2
            | some b =>
              obtain ⟨s', v, hv, _⟩ := get_xmlns hI hcov.1 hdd
              simp only [Option.isSome_some, if_true]
              rw [Attr.bind_ok hv]
              exact ⟨s', _, rfl⟩)
  cases r with
  | none => exact ⟨none, s, false, h1, h2 rfl, by simp⟩
  | some a =>
    obtain ⟨n, s', b, hn, hs, hrun⟩ := h3 a rfl
    refine ⟨some a, s', b, h1, hrun, ?_⟩
    obtain ⟨m, hm, ht, hd⟩ := h1.2.1
    rw [hn] at hm; cases hm
    have key : (b = true ↔ DefaultIs w s a (contents ns)) := by
      unfold sayDefault at hs
      unfold DefaultIs
      cases hp : n.pfx with
      | none =>
        rw [hp] at hs
        cases hs
        rw [Str.C06_isEqual_iff]
        constructor
        · intro h; exact ⟨n, hn, Or.inl ⟨hp, h⟩⟩
        · rintro ⟨m, hm, ⟨_, h⟩ | ⟨h, _⟩⟩
          · rw [hn] at hm; cases hm; exact h
          · rw [hn] at hm; cases hm; exact absurd hp h
      | some p =>
        rw [hp] at hs hd
        simp only [Option.isNone_some, Bool.false_eq_true, if_false] at hs
        have hcov := hc a h1.1 ⟨n, hn, ht⟩
        rw [Attr.bind_ok (has_xmlns hI hcov.1)] at hs
        rcases hd with hd | hd
        · cases hd
        · cases hdd : declared s a with
          | none => exact absurd hdd hd
          | some ob =>
            cases ob with
            | none => exact absurd hdd hcov.2
            | some c =>
              obtain ⟨s'', v, hv, hvc⟩ := get_xmlns hI hcov.1 hdd
              rw [hdd] at hs
              simp only [Option.isSome_some, if_true] at hs
              rw [Attr.bind_ok hv] at hs
              cases hs
              rw [Str.C06_isEqual_iff]
              show v.data = contents ns ↔ _
              rw [hvc]
              constructor
              · rintro rfl; exact ⟨n, hn, Or.inr ⟨by rw [hp]; simp, rfl⟩⟩
              · rintro ⟨m, hm, ⟨h, _⟩ | ⟨_, h⟩⟩
                · rw [hn] at hm; cases hm; rw [hp] at h; cases h
                · injection h with h; injection h
    rw [key]
    constructor
    · intro h; exact ⟨a, rfl, h⟩
    · rintro ⟨a', ha, h⟩; cases ha; exact h

/-! ## lookupNamespaceURI -/

/-- An Element that is in a namespace and has the prefix. -/
def Bears (w : World) (p : Bytes) (a : NodeId) : Prop :=
  ∃ n, w.nodes a = some n ∧ n.type = .element ∧ n.ns ≠ none ∧ contents n.pfx = p

/-- C58.  Where no element from `x` upwards carries a declaration, the namespace of a prefix is that of the nearest element with the prefix; NULL
stands for no prefix.
Missing: declarations are not understood (`C58_declaration_violated`, `C58_default_violated`), and Documents do not ask their document element
(`C58_document_violated`). -/
theorem C58_lookup_partial (h : ReachQ w) (hs : Attr.Reach s) (hx : w.nodes x = some n) (p : Option DStr)
    (hc : ∀ a, AncSelf w x a → IsType w a .element → s.elems a ≠ none ∧ ∀ en ∈ entriesOf s a, en.name.data ≠ xmlnsName.data ∧
      ∀ m ∈ en.ns, m.data ≠ xmlnsName.data) :
    ∃ r, IsFirst w (Bears w (contents p)) x r ∧ lookupNamespace w x p s = .ok s (r.bind fun a => (w.nodes a).bind Node.ns) := by
  obtain ⟨⟨ch, hW⟩, _⟩ := h.sound
  obtain ⟨ls, hg⟩ := hs.good
  have hI := hg.inv
  have bears : ∀ {a n}, w.nodes a = some n → n.type = .element → (Bears w (contents p) a ↔ (n.ns.isSome && Str.isEqual n.pfx p) = true) := by
    intro a n hn ht
    rw [Bool.and_eq_true, Str.C06_isEqual_iff, Option.isSome_iff_ne_none]
    constructor
    · rintro ⟨m, hm, _, h⟩; rw [hn] at hm; cases hm; exact h
    · intro h; exact ⟨n, hn, ht, h⟩
  obtain ⟨r, h1, h2, h3⟩ := climb_first (say := sayNamespace p) (d := none) (P := Bears w (contents p)) (s := s) hW.toCore hx
    (fun a ⟨n, h1, h2, _⟩ => ⟨n, h1, h2⟩)
    (by
      intro a n ha hn ht hP
      rw [bears hn ht] at hP
      obtain ⟨h1, h2⟩ := hc a ha ⟨n, hn, ht⟩
      rw [Attr.entriesOf_eq hI] at h2
      unfold sayNamespace
      rw [if_neg hP]
      have hq : hasDecl a p s = .ok s false := by
        cases p with
        | none => rfl
        | some q =>
          obtain ⟨el, he⟩ := Option.ne_none_iff_exists'.1 h1
          show hasAttr a (some xmlnsName) q s = _
          rw [Attr.hasAttr_run hI he]
          have : Attr.lookup (view s (ls a)) (some xmlnsName) q = none := by
            unfold Attr.lookup
            rw [List.find?_eq_none]
            intro en hen hf
            obtain ⟨m, hm, e⟩ := (of_decide_eq_true hf).1 xmlnsName rfl
            exact (h2 en hen).2 m hm e.symm
          rw [this]; rfl
      rw [Attr.bind_ok hq]
      simp only [Bool.false_eq_true, if_false]
      have hd : declared s a = none := by
        unfold declared reading
        rw [Attr.entriesOf_eq hI]
        have : Attr.lookup (view s (ls a)) none xmlnsName = none := by
          unfold Attr.lookup
          rw [List.find?_eq_none]
          intro en hen hf
          exact (h2 en hen).1 (of_decide_eq_true hf).2.symm
        rw [this]; rfl
      rw [Attr.bind_ok (has_xmlns hI h1), hd]
      rfl)
    (by
      rintro a n ha hn ⟨m, hm, ht, hd⟩
      rw [hn] at hm; cases hm
      unfold sayNamespace
      rw [if_pos ((bears hn ht).1 ⟨n, hn, ht, hd⟩)]
      exact ⟨s, _, rfl⟩)
  refine ⟨r, h1, ?_⟩
  cases r with
  | none => exact h2 rfl
  | some a =>
    obtain ⟨n, s', b, hn, hs, hrun⟩ := h3 a rfl
    obtain ⟨m, hm, ht, hd⟩ := h1.2.1
    rw [hn] at hm; cases hm
    unfold sayNamespace at hs
    rw [if_pos ((bears hn ht).1 ⟨n, hn, ht, hd⟩)] at hs
    cases hs
    show climb w (sayNamespace p) none (w.fresh + 1) x s = _
    rw [hrun, Option.bind_some, hn]
    rfl

/-- An Element that decides the namespace of names without prefix in a lookup: it is in a namespace and has no prefix, or it declares one. -/
def Settles (w : World) (s : Mem) (a : NodeId) : Prop :=
  ∃ n, w.nodes a = some n ∧ n.type = .element ∧ ((n.ns ≠ none ∧ contents n.pfx = []) ∨ declared s a ≠ none)

/-- The namespace according to it. -/
def SettledTo (w : World) (s : Mem) (a : NodeId) (v : Option DStr) : Prop :=
  ∃ n, w.nodes a = some n ∧ ((n.ns ≠ none ∧ contents n.pfx = [] ∧ v = n.ns) ∨
    (¬ (n.ns ≠ none ∧ contents n.pfx = []) ∧ ∃ b u, declared s a = some (some b) ∧ v = some u ∧ u.data = b))

/-- C58.  The namespace of names without prefix is the one according to the nearest settling element.
Missing: an empty declaration should give none (`C58_empty_violated`), and a Document should ask its document element (`C58_document_violated`). -/
theorem C58_lookup_default_partial (h : ReachQ w) (hs : Attr.Reach s) (hx : w.nodes x = some n) (hc : Covers w s x) :
    ∃ r s' v, IsFirst w (Settles w s) x r ∧ lookupNamespace w x none s = .ok s' v ∧ (r = none → v = none) ∧ ∀ a, r = some a → SettledTo w s a v := by
  obtain ⟨⟨ch, hW⟩, _⟩ := h.sound
  obtain ⟨ls, hg⟩ := hs.good
  have hI := hg.inv
  have own : ∀ {n : Node}, (n.ns ≠ none ∧ contents n.pfx = []) ↔ (n.ns.isSome && Str.isEqual n.pfx none) = true := by
    intro n
    rw [Bool.and_eq_true, Str.C06_isEqual_iff, Option.isSome_iff_ne_none]
    exact Iff.rfl
  have tail : ∀ {a n}, AncSelf w x a → w.nodes a = some n → n.type = .element → declared s a ≠ none → ¬ (n.ns ≠ none ∧ contents n.pfx = []) →
      ∃ s' u b, sayNamespace none a n s = .ok s' (some (some u)) ∧ declared s a = some (some b) ∧ u.data = b := by
    intro a n ha hn ht hd ho
    have hcov := hc a ha ⟨n, hn, ht⟩
    cases hdd : declared s a with
    | none => exact absurd hdd hd
    | some ob =>
      cases ob with
      | none => exact absurd hdd hcov.2
      | some b =>
        obtain ⟨s', u, hu, hub⟩ := get_xmlns hI hcov.1 hdd
        refine ⟨s', u, b, ?_, rfl, hub⟩
        unfold sayNamespace
        rw [if_neg (fun h => ho (own.2 h)), Attr.bind_ok (show hasDecl a none s = .ok s false from rfl)]
        simp only [Bool.false_eq_true, if_false]
        rw [Attr.bind_ok (has_xmlns hI hcov.1), hdd]
        simp only [Option.isSome_some, if_true]
        rw [Attr.bind_ok hu]
        rfl
  obtain ⟨r, h1, h2, h3⟩ := climb_first (say := sayNamespace none) (d := none) (P := Settles w s) (s := s) hW.toCore hx
    (fun a ⟨n, h1, h2, _⟩ => ⟨n, h1, h2⟩)
    (by
      intro a n ha hn ht hP
      have hp : ¬ ((n.ns ≠ none ∧ contents n.pfx = []) ∨ declared s a ≠ none) := fun h => hP ⟨n, hn, ht, h⟩
      have hd : declared s a = none := by by_contra hd; exact hp (Or.inr hd)
      unfold sayNamespace
      rw [if_neg (fun h => hp (Or.inl (own.2 h))), Attr.bind_ok (show hasDecl a none s = .ok s false from rfl)]
      simp only [Bool.false_eq_true, if_false]
      rw [Attr.bind_ok (has_xmlns hI (hc a ha ⟨n, hn, ht⟩).1), hd]
      rfl)
    (by
      rintro a n ha hn ⟨m, hm, ht, hd⟩
      rw [hn] at hm; cases hm
      by_cases ho : n.ns ≠ none ∧ contents n.pfx = []
      · refine ⟨s, n.ns, ?_⟩
        unfold sayNamespace
        rw [if_pos (own.1 ho)]
        rfl
      · obtain ⟨s', u, b, hs, _⟩ := tail ha hn ht (hd.resolve_left ho) ho
        exact ⟨s', _, hs⟩)
  cases r with
  | none => exact ⟨none, s, none, h1, h2 rfl, fun _ => rfl, fun a h => nomatch h⟩
  | some a =>
    obtain ⟨n, s', v, hn, hs, hrun⟩ := h3 a rfl
    refine ⟨some a, s', v, h1, hrun, fun h => (nomatch h), fun a' ha' => ?_⟩
    cases ha'
    obtain ⟨m, hm, ht, hd⟩ := h1.2.1
    rw [hn] at hm; cases hm
    refine ⟨n, hn, ?_⟩
    by_cases ho : n.ns ≠ none ∧ contents n.pfx = []
    · left
      unfold sayNamespace at hs
      rw [if_pos (own.1 ho)] at hs
      cases hs
      exact ⟨ho.1, ho.2, rfl⟩
    · right
      obtain ⟨s'', u, b, hs', hb, hu⟩ := tail h1.1 hn ht (hd.resolve_left ho) ho
      rw [hs] at hs'
      cases hs'
      exact ⟨ho, b, u, hb, rfl, hu⟩

/-! ## lookupPrefix -/

/-- C58 is false of the code for `lookupPrefix` of every node at or below an Element: a function is called with the wrong arguments. -/
theorem C58_lookup_prefix_violated (h : ReachQ w) (hx : w.nodes x = some n) (ha : AncSelf w x a) (ht : IsType w a .element) (ns : Option DStr) (s : Mem) :
    lookupPrefix w x ns s = .fault .badCall := by
  obtain ⟨⟨ch, hW⟩, _⟩ := h.sound
  obtain ⟨l, hc, hlen, hm⟩ := self_chain hW.toCore hx
  have hal := (hm a).2 ha
  unfold lookupPrefix
  clear hm ha hx
  generalize w.fresh + 1 = k at hlen
  generalize ho : some x = o at hc
  induction hc generalizing x k with
  | nil => cases ho
  | @cons i n l hn hc ih =>
    cases ho
    cases k with
    | zero => simp at hlen
    | succ k =>
      unfold climb
      rw [Attr.bind_ok (Attr.liftOut_ok (show rdNode w _ = .ok n by unfold rdNode; rw [hn]))]
      by_cases he : n.type = .element
      · rw [if_pos he]; rfl
      · rw [if_neg he, Attr.bind_ok (show (pure none : M (Option (Option DStr))) s = .ok s none from rfl)]
        rcases List.mem_cons.1 hal with rfl | hal
        · obtain ⟨m, hm, e⟩ := ht
          rw [hn] at hm; cases hm; exact absurd e he
        · cases hp : n.parent with
          | none => rw [hp] at hc; cases hc; cases hal
          | some q => exact ih hal k (by simpa using hlen) hp.symm

/-! ## Examples and violations -/

/-- A tree and attributes of its elements that the check accepts. -/
theorem exists_named (calls : List (QCall × String)) (ops : List Op) (check : World → Mem → Bool)
    (h : (runQ calls World.empty).any (fun w => (Attr.runFair ops Attr.empty).any (check w)) = true) : ∃ w s, ReachQ w ∧ Attr.Reach s ∧ check w s = true := by
  obtain ⟨w, h1, h2⟩ := exists_q calls _ h
  obtain ⟨s, h3, h4⟩ := Attr.exists_reach ops (check w) h2
  exact ⟨w, s, h1, h3, h4⟩

/-- `<p:a><b><q:c/></b></p:a>` in a document: node 1 in the namespace `u`, node 2 in none, node 3 in `v`. -/
def lookupSample : List (QCall × String) :=
  [(.tree .createDocument, ""), (.createNS 0 .element (some (Names.lit "u")) (Names.lit "p:a"), "p:a"),
    (.tree (.createNode 0 .element (some (Names.lit "b")) none), ""), (.createNS 0 .element (some (Names.lit "v")) (Names.lit "q:c"), "q:c"),
    (.tree (.appendChild 0 1), ""), (.tree (.appendChild 1 2), ""), (.tree (.appendChild 2 3), "")]

/-- Its elements, each with the attribute `h`. -/
def lookupOps : List Op := [.newElem 1 { owner := 0 }, .newElem 2 { owner := 0 }, .newElem 3 { owner := 0 },
  .set 1 none (Names.lit "h") (some (Names.lit "1")), .set 2 none (Names.lit "h") (some (Names.lit "2")), .set 3 none (Names.lit "h") (some (Names.lit "3"))]

/-- Its elements, with `xmlns="d"` at node 1 and node 3. -/
def declOps : List Op := [.newElem 1 { owner := 0 }, .newElem 2 { owner := 0 }, .newElem 3 { owner := 0 },
  .set 1 (some xmlnsNs) xmlnsName (some (Names.lit "d")), .set 3 (some xmlnsNs) xmlnsName (some (Names.lit "d"))]

/-- Lookups at work: without declarations the prefixes of the ancestors are found, the nearer element first; with them the default namespace. -/
theorem lookup_example : ∃ w, ReachQ w ∧
    (∃ s, Attr.Reach s ∧ (∃ s', lookupNamespace w 3 (some (Names.lit "p")) s = .ok s' (some (Names.lit "u"))) ∧
      (∃ s', lookupNamespace w 3 (some (Names.lit "q")) s = .ok s' (some (Names.lit "v"))) ∧ (∃ s', lookupNamespace w 2 (some (Names.lit "q")) s = .ok s' none)) ∧
    (∃ s, Attr.Reach s ∧ (∃ s', isDefaultNamespace w 3 (some (Names.lit "d")) s = .ok s' true) ∧
      (∃ s', isDefaultNamespace w 2 (some (Names.lit "d")) s = .ok s' false) ∧ (∃ s', isDefaultNamespace w 2 none s = .ok s' true) ∧
      (∃ s', lookupNamespace w 2 none s = .ok s' (some (Names.lit "d")))) := by
  obtain ⟨w, h1, h2⟩ := exists_q lookupSample (fun w =>
    (Attr.runFair lookupOps Attr.empty).any (fun s => (lookupNamespace w 3 (some (Names.lit "p")) s).gives (some (Names.lit "u")) &&
      (lookupNamespace w 3 (some (Names.lit "q")) s).gives (some (Names.lit "v")) && (lookupNamespace w 2 (some (Names.lit "q")) s).gives none) &&
    (Attr.runFair declOps Attr.empty).any (fun s => (isDefaultNamespace w 3 (some (Names.lit "d")) s).gives true &&
      (isDefaultNamespace w 2 (some (Names.lit "d")) s).gives false && (isDefaultNamespace w 2 none s).gives true &&
      (lookupNamespace w 2 none s).gives (some (Names.lit "d")))) (by decide +kernel)
  rw [Bool.and_eq_true] at h2
  obtain ⟨s, h3, h4⟩ := Attr.exists_reach lookupOps _ h2.1
  obtain ⟨t, h5, h6⟩ := Attr.exists_reach declOps _ h2.2
  simp only [Bool.and_eq_true] at h4 h6
  exact ⟨w, h1, ⟨s, h3, Res.of_gives h4.1.1, Res.of_gives h4.1.2, Res.of_gives h4.2⟩,
    t, h5, Res.of_gives h6.1.1.1, Res.of_gives h6.1.1.2, Res.of_gives h6.1.2, Res.of_gives h6.2⟩

/-- The call succeeds. -/
def okB {β : Type} : Res β → Bool
  | .ok _ _ => true
  | _ => false

/-- The samples meet the hypotheses of the theorems above: the elements have attributes with values, and declare nothing or the namespace `d`. -/
theorem lookup_meets : ∃ w n, ReachQ w ∧ w.nodes 3 = some n ∧ (∃ s, Attr.Reach s ∧ Covers w s 3 ∧ Decides w s 1 ∧ Decides w s 3 ∧ Settles w s 3) ∧
    ∃ s, Attr.Reach s ∧ Bears w (contents (some (Names.lit "p"))) 1 ∧ entriesOf s 1 ≠ [] ∧
      ∀ a, AncSelf w 3 a → IsType w a .element → s.elems a ≠ none ∧ ∀ en ∈ entriesOf s a, en.name.data ≠ xmlnsName.data ∧ ∀ m ∈ en.ns, m.data ≠ xmlnsName.data := by
  obtain ⟨w, h1, h2⟩ := exists_q lookupSample (fun w => decide (w.fresh = 4) && typeB w 0 .document &&
    at_ w 1 (fun n => n.type = .element && n.ns.isSome && n.pfx = some (Names.lit "p")) && typeB w 3 .element) (by decide +kernel)
  simp only [Bool.and_eq_true, decide_eq_true_eq] at h2
  obtain ⟨⟨⟨hf, h0⟩, b1⟩, b3⟩ := h2
  obtain ⟨n1, hn1, hh1⟩ := at_elim b1
  obtain ⟨n3, hn3, hh3⟩ := isType_of_typeB b3
  simp only [Bool.and_eq_true, decide_eq_true_eq] at hh1
  obtain ⟨⟨ch, hW⟩, _⟩ := h1.sound
  have idx : ∀ a, IsType w a .element → a = 1 ∨ a = 2 ∨ a = 3 := by
    rintro a ⟨n, hn, ht⟩
    have hlt : a < 4 := hf ▸ hW.bnd a n hn
    have hne : a ≠ 0 := by
      rintro rfl
      obtain ⟨m, hm, e⟩ := isType_of_typeB h0
      rw [hn] at hm; cases hm; rw [ht] at e; cases e
    have : ∀ b : Nat, b < 4 → b ≠ 0 → b = 1 ∨ b = 2 ∨ b = 3 := by intro b _ _; omega
    exact this a hlt hne
  refine ⟨w, n3, h1, hn3, ?_, ?_⟩
  · obtain ⟨s, h3, h4⟩ := Attr.exists_reach declOps (fun s => (s.elems 1).isSome && (s.elems 2).isSome && (s.elems 3).isSome &&
      okB (getAttr 1 none xmlnsName s) && okB (getAttr 2 none xmlnsName s) && okB (getAttr 3 none xmlnsName s) &&
      (hasAttr 1 none xmlnsName s).gives true && (hasAttr 3 none xmlnsName s).gives true) (by decide +kernel)
    simp only [Bool.and_eq_true, Option.isSome_iff_exists] at h4
    obtain ⟨⟨⟨⟨⟨⟨⟨⟨e1, c1⟩, e2, c2⟩, e3, c3⟩, g1⟩, g2⟩, g3⟩, k1⟩, k3⟩ := h4
    obtain ⟨ls, hg⟩ := h3.good
    have good : ∀ {a el}, s.elems a = some el → okB (getAttr a none xmlnsName s) = true → s.elems a ≠ none ∧ declared s a ≠ some none := by
      intro a el he hok
      refine ⟨by rw [he]; simp, fun hd => ?_⟩
      obtain ⟨_, s', _, _, h⟩ := Attr.C36_read hg.inv he none xmlnsName
      unfold declared at hd
      rw [Attr.entriesOf_eq hg.inv] at hd
      rw [hd] at h
      rw [h] at hok
      cases hok
    have decl : ∀ {a el}, s.elems a = some el → (hasAttr a none xmlnsName s).gives true = true → declared s a ≠ none := by
      intro a el he hok hd
      unfold declared at hd
      rw [Attr.entriesOf_eq hg.inv] at hd
      rw [(Attr.C36_read hg.inv he none xmlnsName).1, hd] at hok
      cases hok
    refine ⟨s, h3, ?_, ⟨n1, hn1, hh1.1.1, Or.inr (decl c1 k1)⟩, ⟨n3, hn3, hh3, Or.inr (decl c3 k3)⟩, n3, hn3, hh3, Or.inr (decl c3 k3)⟩
    intro a _ ht
    rcases idx a ht with rfl | rfl | rfl
    · exact good c1 g1
    · exact good c2 g2
    · exact good c3 g3
  · obtain ⟨s, h3, h4⟩ := Attr.exists_reach lookupOps (fun s => (s.elems 1).isSome && (s.elems 2).isSome && (s.elems 3).isSome &&
      decide ((entriesOf s 1).map (fun en => (en.name.data, en.ns)) = [((Names.lit "h").data, none)]) &&
      decide ((entriesOf s 2).map (fun en => (en.name.data, en.ns)) = [((Names.lit "h").data, none)]) &&
      decide ((entriesOf s 3).map (fun en => (en.name.data, en.ns)) = [((Names.lit "h").data, none)])) (by decide +kernel)
    simp only [Bool.and_eq_true, decide_eq_true_eq, Option.isSome_iff_exists] at h4
    obtain ⟨⟨⟨⟨⟨⟨e1, c1⟩, e2, c2⟩, e3, c3⟩, g1⟩, g2⟩, g3⟩ := h4
    have good : ∀ {a el}, s.elems a = some el → (entriesOf s a).map (fun en => (en.name.data, en.ns)) = [((Names.lit "h").data, none)] →
        s.elems a ≠ none ∧ ∀ en ∈ entriesOf s a, en.name.data ≠ xmlnsName.data ∧ ∀ m ∈ en.ns, m.data ≠ xmlnsName.data := by
      intro a el he hm
      refine ⟨by rw [he]; simp, fun en hen => ?_⟩
      have := List.mem_map_of_mem (f := fun en : Attr.Entry => (en.name.data, en.ns)) hen
      rw [hm] at this
      have := List.mem_singleton.1 this
      injection this with a1 a2
      rw [a1, a2]
      exact ⟨by decide +kernel, fun m hm => nomatch hm⟩
    refine ⟨s, h3, ⟨n1, hn1, hh1.1.1, ?_, ?_⟩, ?_, ?_⟩
    · exact Option.isSome_iff_ne_none.1 hh1.1.2
    · rw [hh1.2]
    · intro h; rw [h] at g1; cases g1
    · intro a _ ht
      rcases idx a ht with rfl | rfl | rfl
      · exact good c1 g1
      · exact good c2 g2
      · exact good c3 g3

/-- C58 is false of the code for declared prefixes: with `xmlns:z="d"` at an element, the namespace of `z` is not found there
(src/core/element.c:1453 asks with the string "xmlns" for the namespace). -/
theorem C58_declaration_violated : ∃ w s, ReachQ w ∧ Attr.Reach s ∧ IsType w 1 .element ∧
    (∃ s', getAttr 1 (some xmlnsNs) (Names.lit "z") s = .ok s' (some (Names.lit "d"))) ∧ ∃ s', lookupNamespace w 1 (some (Names.lit "z")) s = .ok s' none := by
  obtain ⟨w, s, h1, h2, h3⟩ := exists_named lookupSample [.newElem 1 { owner := 0 }, .set 1 (some xmlnsNs) (Names.lit "z") (some (Names.lit "d"))]
    (fun w s => typeB w 1 .element && (getAttr 1 (some xmlnsNs) (Names.lit "z") s).gives (some (Names.lit "d")) &&
      (lookupNamespace w 1 (some (Names.lit "z")) s).gives none) (by decide +kernel)
  simp only [Bool.and_eq_true] at h3
  exact ⟨w, s, h1, h2, isType_of_typeB h3.1.1, Res.of_gives h3.1.2, Res.of_gives h3.2⟩

/-- C58 is false of the code for prefixes that are not declared: with `xmlns="d"` at an element every other prefix is in the namespace `d`
(src/core/element.c:1462-1468). -/
theorem C58_default_violated : ∃ w s, ReachQ w ∧ Attr.Reach s ∧ IsType w 2 .element ∧
    (∀ a n, AncSelf w 2 a → w.nodes a = some n → n.pfx ≠ some (Names.lit "z")) ∧ hasAttr 1 (some xmlnsNs) (Names.lit "z") s = .ok s false ∧
    hasAttr 2 (some xmlnsNs) (Names.lit "z") s = .ok s false ∧ ∃ s', lookupNamespace w 2 (some (Names.lit "z")) s = .ok s' (some (Names.lit "d")) := by
  obtain ⟨w, s, h1, h2, h3⟩ := exists_named lookupSample declOps
    (fun w s => typeB w 2 .element && decide (w.fresh = 4) && decide (∀ a : Nat, a < 4 → (w.nodes a).any (fun n => n.pfx = some (Names.lit "z")) = false) &&
      (hasAttr 1 (some xmlnsNs) (Names.lit "z") s).gives false && (hasAttr 2 (some xmlnsNs) (Names.lit "z") s).gives false &&
      (s.elems 1).isSome && (s.elems 2).isSome &&
      (lookupNamespace w 2 (some (Names.lit "z")) s).gives (some (Names.lit "d"))) (by decide +kernel)
  simp only [Bool.and_eq_true, decide_eq_true_eq] at h3
  obtain ⟨⟨⟨⟨⟨⟨⟨a1, a2⟩, a3⟩, a4⟩, a5⟩, a6⟩, a7⟩, a8⟩ := h3
  obtain ⟨⟨ch, hW⟩, _⟩ := h1.sound
  obtain ⟨ls, hg⟩ := h2.good
  obtain ⟨e1, he1⟩ := Option.isSome_iff_exists.1 a6
  obtain ⟨e2, he2⟩ := Option.isSome_iff_exists.1 a7
  refine ⟨w, s, h1, h2, isType_of_typeB a1, ?_, ?_, ?_, Res.of_gives a8⟩
  · intro a n ha hn hz
    have hlt : a < 4 := a2 ▸ hW.bnd a n hn
    have := a3 a hlt
    rw [hn] at this
    simp [hz] at this
  · obtain ⟨s', h⟩ := Res.of_gives a4
    rw [Attr.hasAttr_run hg.inv he1] at h ⊢
    injection h with _ h; rw [h]
  · obtain ⟨s', h⟩ := Res.of_gives a5
    rw [Attr.hasAttr_run hg.inv he2] at h ⊢
    injection h with _ h; rw [h]

/-- C58 is false of the code for Documents: they should ask their document element, but they find nothing. -/
theorem C58_document_violated : ∃ w s, ReachQ w ∧ Attr.Reach s ∧ IsType w 0 .document ∧ ParentOf w 1 0 ∧ IsType w 1 .element ∧
    (∃ s', lookupNamespace w 1 (some (Names.lit "p")) s = .ok s' (some (Names.lit "u"))) ∧ (∃ s', lookupNamespace w 0 (some (Names.lit "p")) s = .ok s' none) ∧
    (∃ s', isDefaultNamespace w 1 (some (Names.lit "d")) s = .ok s' true) ∧ (∃ s', isDefaultNamespace w 0 (some (Names.lit "d")) s = .ok s' false) := by
  obtain ⟨w, s, h1, h2, h3⟩ := exists_named lookupSample declOps
    (fun w s => typeB w 0 .document && at_ w 1 (fun n => n.type = .element && n.parent = some 0) &&
      (lookupNamespace w 1 (some (Names.lit "p")) s).gives (some (Names.lit "u")) && (lookupNamespace w 0 (some (Names.lit "p")) s).gives none &&
      (isDefaultNamespace w 1 (some (Names.lit "d")) s).gives true && (isDefaultNamespace w 0 (some (Names.lit "d")) s).gives false) (by decide +kernel)
  simp only [Bool.and_eq_true] at h3
  obtain ⟨⟨⟨⟨⟨a1, a2⟩, a3⟩, a4⟩, a5⟩, a6⟩ := h3
  obtain ⟨n, hn, hh⟩ := at_elim a2
  simp only [Bool.and_eq_true, decide_eq_true_eq] at hh
  exact ⟨w, s, h1, h2, isType_of_typeB a1, ⟨n, hn, hh.2⟩, ⟨n, hn, hh.1⟩, Res.of_gives a3, Res.of_gives a4, Res.of_gives a5, Res.of_gives a6⟩

/-- C58 is false of the code for `xmlns=""`, which takes the default namespace away: the lookup gives the empty string, not NULL. -/
theorem C58_empty_violated : ∃ w s, ReachQ w ∧ Attr.Reach s ∧ IsType w 2 .element ∧ ∃ s' v, lookupNamespace w 2 none s = .ok s' (some v) ∧ v.data = [] := by
  obtain ⟨w, s, h1, h2, h3⟩ := exists_named lookupSample [.newElem 1 { owner := 0 }, .newElem 2 { owner := 0 }, .set 2 (some xmlnsNs) xmlnsName (some (Names.lit ""))]
    (fun w s => typeB w 2 .element && (lookupNamespace w 2 none s).gives (some (Names.lit ""))) (by decide +kernel)
  simp only [Bool.and_eq_true] at h3
  obtain ⟨s', h⟩ := Res.of_gives h3.2
  exact ⟨w, s, h1, h2, isType_of_typeB h3.1, s', _, h, by decide +kernel⟩

/-- C58 is false of the code for attributes that only look like declarations: one in another namespace with the local name `xmlns` counts. -/
theorem C58_foreign_violated : ∃ w s, ReachQ w ∧ Attr.Reach s ∧ IsType w 1 .element ∧
    (∃ s', getAttr 1 (some (Names.lit "f")) xmlnsName s = .ok s' (some (Names.lit "d"))) ∧ (∃ s', getAttr 1 (some xmlnsNs) xmlnsName s = .ok s' none) ∧
    (∃ s', isDefaultNamespace w 1 (some (Names.lit "d")) s = .ok s' true) := by
  obtain ⟨w, s, h1, h2, h3⟩ := exists_named lookupSample [.newElem 1 { owner := 0 }, .set 1 (some (Names.lit "f")) xmlnsName (some (Names.lit "d"))]
    (fun w s => typeB w 1 .element && (getAttr 1 (some (Names.lit "f")) xmlnsName s).gives (some (Names.lit "d")) && (getAttr 1 (some xmlnsNs) xmlnsName s).gives none &&
      (isDefaultNamespace w 1 (some (Names.lit "d")) s).gives true) (by decide +kernel)
  simp only [Bool.and_eq_true] at h3
  exact ⟨w, s, h1, h2, isType_of_typeB h3.1.1.1, Res.of_gives h3.1.1.2, Res.of_gives h3.1.2, Res.of_gives h3.2⟩

/-- The text of an option (`Html.C56_shown_partial`): of the elements `sCript` in HTML's namespace, `b` in none and `script` in SVG's only the second is shown. -/
example : ∃ w, ReachQ w ∧ Html.textBytes w 1 = .ok (Names.lit "a b").data := by
  obtain ⟨w, h1, h2⟩ := exists_q [(.tree .createDocument, ""), (.tree (.createNode 0 .element (some (Names.lit "OPTION")) none), ""),
    (.createNS 0 .element (some (Names.lit "http://www.w3.org/1999/xhtml")) (Names.lit "sCript"), "sCript"),
    (.tree (.createNode 0 .element (some (Names.lit "b")) none), ""), (.createNS 0 .element (some (Names.lit "http://www.w3.org/2000/svg")) (Names.lit "script"), "script"),
    (.tree (.createNode 0 .text none (some (Names.lit "x"))), ""), (.tree (.createNode 0 .text none (some (Names.lit "b"))), ""),
    (.tree (.createNode 0 .text none (some (Names.lit "y"))), ""), (.tree (.createNode 0 .text none (some (Names.lit " a "))), ""),
    (.tree (.appendChild 2 5), ""), (.tree (.appendChild 3 6), ""), (.tree (.appendChild 4 7), ""), (.tree (.appendChild 1 8), ""),
    (.tree (.appendChild 1 2), ""), (.tree (.appendChild 1 3), ""), (.tree (.appendChild 1 4), "")]
    (fun w => decide (Html.textBytes w 1 = .ok (Names.lit "a b").data)) (by decide +kernel)
  exact ⟨w, h1, of_decide_eq_true h2⟩

end Dom.Query
