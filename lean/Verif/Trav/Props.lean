import Verif.Trav.Lemmas
import Verif.Tree.Violations

/-!
# C32, C33, C35: node lists, getElementById and HTML collections enumerate in document order
-/
namespace Dom.Trav
set_option linter.unusedSimpArgs false

open Dom.Str (DStr asciiLower contents)
open Dom.Tree (NodeId Node World NodeType Children Core WF Linked DocOrder Below)

variable {w : World} {ch : Children} {order : NodeId → List NodeId} {root : NodeId}

/-! ## Specification -/

/-- Equality of names: of the bytes, or up to ASCII case. -/
def sameName (caseless : Bool) (a b : List UInt8) : Bool :=
  if caseless then decide (a.map asciiLower = b.map asciiLower) else decide (a = b)

/-- The pattern is "*". -/
def wild (s : Option DStr) : Bool := decide (s.map (·.data) = some [0x2A])

/-- Which nodes a list is about: the children, or the elements with the wanted name ("*" for any); no namespace is the
same as the empty namespace. -/
def selects (w : World) (k : Kind) (x : NodeId) : Bool :=
  match w.nodes x with
  | none => false
  | some n =>
    match k with
    | .children => true
    | .byName name cl => n.type = .element && (wild (some name) || n.name.any fun m => sameName cl m.data name.data)
    | .byNs ns lname cl => n.type = .element && (wild ns || sameName cl (contents n.ns) (contents ns)) &&
        (wild lname || n.name.any fun m => sameName cl m.data (contents lname))

/-- The nodes among which a list selects: the children of the root, or all its proper descendants in document order. -/
def scope (ch : Children) (order : NodeId → List NodeId) (root : NodeId) : Kind → List NodeId
  | .children => ch root
  | _ => (order root).tail

/-- The list names a namespace that is not empty. -/
def NamesNs : Kind → Prop
  | .byNs ns _ _ => contents ns ≠ []
  | _ => True

/-! ## The tests of the code -/

theorem isStar_eq (s : Option DStr) : isStar s = wild s := by
  cases s with
  | none => rfl
  | some s =>
    simp only [isStar, wild, Option.map_some, Option.some.injEq]
    match s.data with
    | [] => rfl
    | [b] => rw [Bool.eq_iff_iff]; simp
    | _ :: _ :: _ => simp

theorem eqBy_eq (cl : Bool) (a b : Option DStr) : eqBy cl a b = sameName cl (contents a) (contents b) := by
  cases cl with
  | true => rw [Bool.eq_iff_iff]; simp [eqBy, sameName, Str.C06_caseless_iff]
  | false => rw [Bool.eq_iff_iff]; simp [eqBy, sameName, Str.C06_isEqual_iff]

theorem name_test (cl : Bool) (a b : Option DStr) :
    (a.isSome && eqBy cl a b) = a.any fun m => sameName cl m.data (contents b) := by
  cases a with
  | none => rfl
  | some a => simp [eqBy_eq, contents]

theorem lenMatch_eq {k : Kind} {x : NodeId} {n : Node} (hn : w.nodes x = some n) : lenMatch k n = selects w k x := by
  cases k with
  | children => simp [lenMatch, selects, hn]
  | byName name cl =>
    simp only [lenMatch, selects, hn, isStar_eq, name_test, contents, Option.map_some, Option.getD_some]
    rw [Bool.and_comm, Bool.eq_iff_iff]; simp
  | byNs ns lname cl =>
    simp only [lenMatch, selects, hn, isStar_eq, name_test]
    simp only [eqBy_eq]
    rw [Bool.eq_iff_iff]; simp; tauto

theorem itemMatch_eq {k : Kind} (hk : NamesNs k) {x : NodeId} {n : Node} (hn : w.nodes x = some n) : itemMatch k n = selects w k x := by
  rw [← lenMatch_eq hn]
  cases k with
  | children => rfl
  | byName name cl => rfl
  | byNs ns lname cl =>
    have hk : contents ns ≠ [] := hk
    simp only [itemMatch, lenMatch]
    cases h : n.ns with
    | some _ => simp
    | none =>
      have : eqBy cl none ns = false := by
        rw [eqBy_eq]
        cases cl with
        | true => simp [sameName, contents]; intro h; exact hk (by simpa [contents] using h)
        | false => simp [sameName, contents]; intro h; exact hk (by simpa [contents] using h.symm)
      simp [this]

/-! ## Node lists -/

/-- The state of the loops: `r` is the current pointer and `rem` what is still to be visited. -/
def At (ch : Children) (order : NodeId → List NodeId) (root : NodeId) (k : Kind) (r : Option NodeId) (rem : List NodeId) : Prop :=
  match k with
  | .children => r = rem.head? ∧ ∃ a, ch root = a ++ rem
  | _ => Lands ch order root r rem

/-- One round of the loops. -/
theorem at_step (hW : Core w ch) (hd : DocOrder ch order) {rn : Node} (hr : w.nodes root = some rn) {k : Kind} {r rem}
    (h : At ch order root k r rem) : (r = none ∧ rem = []) ∨ ∃ x rem' n r', r = some x ∧ rem = x :: rem' ∧ w.nodes x = some n ∧
      nlNext k w root x n = .ok r' ∧ At ch order root k r' rem' := by
  by_cases hk : k = .children
  · subst hk
    obtain ⟨rfl, a, ha⟩ := h
    cases rem with
    | nil => exact .inl ⟨rfl, rfl⟩
    | cons x rem =>
      obtain ⟨n, hn, _, _, _, hx⟩ := (hW.linked.loc root rn hr).kids a x rem ha
      exact .inr ⟨x, rem, n, n.next, rfl, rfl, hn, rfl, hx, a ++ [x], by simp [ha]⟩
  · have hL : Lands ch order root r rem := by
      cases k with
      | children => exact absurd rfl hk
      | _ => exact h
    cases r with
    | none => exact .inl ⟨rfl, hL⟩
    | some x =>
      obtain ⟨n, hn⟩ := hL.alive hW hr
      obtain ⟨d, l, h1, h2, rfl⟩ := hL
      obtain ⟨r', h3, h4⟩ := nlNext_lands hW hr hk h1 h2 hn
      refine .inr ⟨x, _, n, r', rfl, by rw [hd x]; rfl, hn, h3, ?_⟩
      cases k with
      | children => exact absurd rfl hk
      | _ => exact h4

theorem at_start (hW : Core w ch) (hd : DocOrder ch order) {rn : Node} (hr : w.nodes root = some rn) (k : Kind) :
    At ch order root k rn.first (scope ch order root k) := by
  rw [first_eq hW hr]
  cases k with
  | children => exact ⟨rfl, [], rfl⟩
  | _ =>
    simp only [At, scope]
    rw [hd root]
    simpa using lands_first hW (Rest.root (ch := ch) (order := order) (root := root)) (.inr rfl)

theorem scope_le (hW : Core w ch) (hd : DocOrder ch order) {rn : Node} (hr : w.nodes root = some rn) (k : Kind) :
    (scope ch order root k).length ≤ w.fresh := by
  have h := order_length_le hW hd hr
  cases k with
  | children =>
    have h2 : (ch root).length ≤ (order root).length := by
      rw [hd root, List.length_cons, List.length_flatMap]
      have : ∀ l : List NodeId, l.length ≤ (l.map fun x => (order x).length).sum := by
        intro l
        induction l with
        | nil => simp
        | cons a l ih =>
          have : 1 ≤ (order a).length := by rw [hd a]; simp
          simp; omega
      have := this (ch root); omega
    exact le_trans h2 h
  | _ => simp only [scope, List.length_tail]; omega

theorem lenLoop_spec (hW : Core w ch) (hd : DocOrder ch order) {rn : Node} (hr : w.nodes root = some rn) (k : Kind)
    (rem : List NodeId) : ∀ r len f, At ch order root k r rem → rem.length ≤ f → len < 2 ^ 32 →
      lenLoop k w root f r len = .ok ((len + (rem.filter (selects w k)).length) % 2 ^ 32) := by
  induction rem with
  | nil =>
    intro r len f h _ hl
    rcases at_step hW hd hr h with ⟨rfl, _⟩ | ⟨_, _, _, _, _, h, _⟩
    · cases f <;> simp [lenLoop, Nat.mod_eq_of_lt hl]
    · cases h
  | cons y rem ih =>
    intro r len f h hf hl
    rcases at_step hW hd hr h with ⟨_, h⟩ | ⟨x, rem', n, r', rfl, h1, hn, h2, h3⟩
    · cases h
    · injection h1 with h1 h1'; subst h1 h1'
      cases f with
      | zero => simp at hf
      | succ f =>
        simp only [lenLoop, rd_ok hn, Out.bind_ok, h2, lenMatch_eq hn]
        rw [ih r' _ f h3 (by simpa using hf) (by split; rw [u32_eq_mod]; omega; exact hl)]
        by_cases hs : selects w k y = true
        · rw [if_pos hs, List.filter_cons_of_pos hs, u32_eq_mod, List.length_cons]
          congr 1; omega
        · rw [if_neg hs, List.filter_cons_of_neg hs]

/-- C32, length: the number of matching nodes of the tree as it is now. -/
theorem C32_length (hW : WF w ch) (hd : DocOrder ch order) {rn : Node} (hr : w.nodes root = some rn) (k : Kind) :
    listLength k w root = .ok (((scope ch order root k).filter (selects w k)).length % 2 ^ 32) := by
  unfold listLength
  rw [rd_ok hr]
  simp only [Out.bind_ok]
  rw [lenLoop_spec hW.toCore hd hr k _ _ 0 _ (at_start hW.toCore hd hr k) (by have := scope_le hW.toCore hd hr k; omega) (by omega)]
  simp

theorem itemLoop_spec (hW : Core w ch) (hd : DocOrder ch order) {rn : Node} (hr : w.nodes root = some rn) {k : Kind}
    (hk : NamesNs k) (index : Nat) (hi : index < 2 ^ 32 - 1) (rem : List NodeId) : ∀ r count f, At ch order root k r rem → rem.length ≤ f →
      count ≤ index → itemLoop k w root index f r count = .ok (rem.filter (selects w k))[index - count]? := by
  induction rem with
  | nil =>
    intro r len f h _ hl
    rcases at_step hW hd hr h with ⟨rfl, _⟩ | ⟨_, _, _, _, _, h, _⟩
    · cases f <;> simp [itemLoop]
    · cases h
  | cons y rem ih =>
    intro r count f h hf hl
    rcases at_step hW hd hr h with ⟨_, h⟩ | ⟨x, rem', n, r', rfl, h1, hn, h2, h3⟩
    · cases h
    · injection h1 with h1 h1'; subst h1 h1'
      cases f with
      | zero => simp at hf
      | succ f =>
        simp only [itemLoop, rd_ok hn, Out.bind_ok, itemMatch_eq hk hn]
        rw [u32_small (n := index + 1) (by omega)]
        by_cases hs : selects w k y = true
        · rw [if_pos hs, List.filter_cons_of_pos hs, u32_small (n := count + 1) (by omega)]
          by_cases hc : index = count
          · subst hc; simp
          · rw [if_neg (by omega), h2, Out.bind_ok, ih r' _ f h3 (by simpa using hf) (by omega)]
            rw [show index - count = (index - (count + 1)) + 1 by omega, List.getElem?_cons_succ]
        · rw [if_neg hs, List.filter_cons_of_neg hs, if_neg (by omega), h2, Out.bind_ok, ih r' _ f h3 (by simpa using hf) hl]

/-- C32, items: item(i) is the i-th matching node in document order, null past the end.

Missing from the full claim: lists about the empty namespace, where `item` misses the elements without namespace that
`length` counts (`C32_null_namespace_violated`), and the index 2^32 - 1 (`C32_last_index_violated`). -/
theorem C32_item_partial (hW : WF w ch) (hd : DocOrder ch order) {rn : Node} (hr : w.nodes root = some rn) (k : Kind) (hk : NamesNs k)
    (index : Nat) (hi : index < 2 ^ 32 - 1) :
    listItem k w root index = .ok ((scope ch order root k).filter (selects w k))[index]? := by
  unfold listItem
  rw [rd_ok hr]
  simp only [Out.bind_ok]
  rw [itemLoop_spec hW.toCore hd hr hk index hi _ _ 0 _ (at_start hW.toCore hd hr k)
    (by have := scope_le hW.toCore hd hr k; omega) (by omega)]
  simp

/-! ## HTML collections -/

/-- A member of the collection. -/
def member (w : World) (ic : NodeId → Bool) (x : NodeId) : Bool :=
  (w.nodes x).any fun n => n.type = .element && ic x

/-- `Lands`, or the start at the root. -/
def ColAt (ch : Children) (order : NodeId → List NodeId) (root : NodeId) (r : Option NodeId) (rem : List NodeId) : Prop :=
  match r with
  | none => rem = []
  | some y => ∃ d l, Rest ch order root d y l ∧ rem = order y ++ l

theorem Lands.colAt {r rem} (h : Lands ch order root r rem) : ColAt ch order root r rem := by
  cases r with
  | none => exact h
  | some y => obtain ⟨d, l, h1, _, h2⟩ := h; exact ⟨d, l, h1, h2⟩

theorem col_step (hW : Core w ch) (hd : DocOrder ch order) {rn : Node} (hr : w.nodes root = some rn)
    (hroot : ch root ≠ [] ∨ rn.next = none) {r rem} (h : ColAt ch order root r rem) :
    (r = none ∧ rem = []) ∨ ∃ x rem' n r', r = some x ∧ rem = x :: rem' ∧ w.nodes x = some n ∧
      colNext w root x n = .ok r' ∧ ColAt ch order root r' rem' := by
  cases r with
  | none => exact .inl ⟨rfl, h⟩
  | some x =>
    obtain ⟨d, l, h1, rfl⟩ := h
    obtain ⟨n, hn⟩ := h1.inTree.alive hW.linked hr
    obtain ⟨r', h3, h4⟩ := colNext_lands hW hr hroot h1 hn
    exact .inr ⟨x, _, n, r', rfl, by rw [hd x]; rfl, hn, h3, h4.colAt⟩

theorem col_start (ch : Children) (order : NodeId → List NodeId) (root : NodeId) : ColAt ch order root (some root) (order root) :=
  ⟨0, [], .root, by simp⟩

theorem colLenLoop_spec (hW : Core w ch) (hd : DocOrder ch order) {rn : Node} (hr : w.nodes root = some rn)
    (hroot : ch root ≠ [] ∨ rn.next = none) (ic : NodeId → Bool) (rem : List NodeId) : ∀ r len f, ColAt ch order root r rem →
      rem.length ≤ f → len < 2 ^ 32 →
      colLenLoop ic w root f r len = .ok ((len + (rem.filter (member w ic)).length) % 2 ^ 32) := by
  induction rem with
  | nil =>
    intro r len f h _ hl
    rcases col_step hW hd hr hroot h with ⟨rfl, _⟩ | ⟨_, _, _, _, _, h, _⟩
    · cases f <;> simp [colLenLoop, Nat.mod_eq_of_lt hl]
    · cases h
  | cons y rem ih =>
    intro r len f h hf hl
    rcases col_step hW hd hr hroot h with ⟨_, h⟩ | ⟨x, rem', n, r', rfl, h1, hn, h2, h3⟩
    · cases h
    · injection h1 with h1 h1'; subst h1 h1'
      cases f with
      | zero => simp at hf
      | succ f =>
        have hm : (n.type == .element && ic y) = member w ic y := by rw [Bool.eq_iff_iff]; simp [member, hn]
        simp only [colLenLoop, rd_ok hn, Out.bind_ok, h2, hm]
        rw [ih r' _ f h3 (by simpa using hf) (by split; rw [u32_eq_mod]; omega; exact hl)]
        by_cases hs : member w ic y = true
        · rw [if_pos hs, List.filter_cons_of_pos hs, u32_eq_mod, List.length_cons]
          congr 1; omega
        · rw [if_neg hs, List.filter_cons_of_neg hs]

theorem colItemLoop_spec (hW : Core w ch) (hd : DocOrder ch order) {rn : Node} (hr : w.nodes root = some rn)
    (hroot : ch root ≠ [] ∨ rn.next = none) (ic : NodeId → Bool) (index : Nat) (hi : index < 2 ^ 32 - 1) (rem : List NodeId) :
    ∀ r count f, ColAt ch order root r rem → rem.length ≤ f →
      count ≤ index → colItemLoop ic w root index f r count = .ok (rem.filter (member w ic))[index - count]? := by
  induction rem with
  | nil =>
    intro r len f h _ hl
    rcases col_step hW hd hr hroot h with ⟨rfl, _⟩ | ⟨_, _, _, _, _, h, _⟩
    · cases f <;> simp [colItemLoop]
    · cases h
  | cons y rem ih =>
    intro r count f h hf hl
    rcases col_step hW hd hr hroot h with ⟨_, h⟩ | ⟨x, rem', n, r', rfl, h1, hn, h2, h3⟩
    · cases h
    · injection h1 with h1 h1'; subst h1 h1'
      cases f with
      | zero => simp at hf
      | succ f =>
        have hm : (n.type == .element && ic y) = member w ic y := by rw [Bool.eq_iff_iff]; simp [member, hn]
        simp only [colItemLoop, rd_ok hn, Out.bind_ok, hm]
        rw [u32_small (n := index + 1) (by omega)]
        by_cases hs : member w ic y = true
        · rw [if_pos hs, List.filter_cons_of_pos hs, u32_small (n := count + 1) (by omega)]
          by_cases hc : index = count
          · subst hc; simp
          · rw [if_neg (by omega), h2, Out.bind_ok, ih r' _ f h3 (by simpa using hf) (by omega)]
            rw [show index - count = (index - (count + 1)) + 1 by omega, List.getElem?_cons_succ]
        · rw [if_neg hs, List.filter_cons_of_neg hs, if_neg (by omega), h2, Out.bind_ok, ih r' _ f h3 (by simpa using hf) hl]

theorem colFindLoop_spec (hW : Core w ch) (hd : DocOrder ch order) {rn : Node} (hr : w.nodes root = some rn)
    (hroot : ch root ≠ [] ∨ rn.next = none) (ic named : NodeId → Bool) (rem : List NodeId) :
    ∀ r f, ColAt ch order root r rem → rem.length ≤ f →
      colFindLoop ic named w root f r = .ok (rem.find? fun x => member w ic x && named x) := by
  induction rem with
  | nil =>
    intro r f h _
    rcases col_step hW hd hr hroot h with ⟨rfl, _⟩ | ⟨_, _, _, _, _, h, _⟩
    · cases f <;> simp [colFindLoop]
    · cases h
  | cons y rem ih =>
    intro r f h hf
    rcases col_step hW hd hr hroot h with ⟨_, h⟩ | ⟨x, rem', n, r', rfl, h1, hn, h2, h3⟩
    · cases h
    · injection h1 with h1 h1'; subst h1 h1'
      cases f with
      | zero => simp at hf
      | succ f =>
        have hm : (n.type == .element && ic y && named y) = (member w ic y && named y) := by rw [Bool.eq_iff_iff]; simp [member, hn]
        simp only [colFindLoop, rd_ok hn, Out.bind_ok, hm]
        by_cases hs : (member w ic y && named y) = true
        · rw [if_pos hs, List.find?_cons_of_pos (by exact hs)]
        · rw [if_neg hs, List.find?_cons_of_neg (by exact hs), h2, Out.bind_ok, ih r' f h3 (by simpa using hf)]

/-- C35.  Length, item and namedItem of a collection agree with the members of the subtree of the root, in document order;
nothing outside the subtree matters.  `ic` is the filter of the collection and `named` the test for a name.

Missing from the full claim: a root without children that has a next sibling, where the walk leaves the subtree
(`C35_empty_root_violated`), and the index 2^32 - 1 (`C35_last_index_violated`). -/
theorem C35_collection_partial (hW : WF w ch) (hd : DocOrder ch order) {rn : Node} (hr : w.nodes root = some rn)
    (hroot : ch root ≠ [] ∨ rn.next = none) (ic named : NodeId → Bool) :
    colLength ic w root = .ok (((order root).filter (member w ic)).length % 2 ^ 32) ∧
    (∀ index, index < 2 ^ 32 - 1 → colItem ic w root index = .ok ((order root).filter (member w ic))[index]?) ∧
    colNamed ic named w root = .ok ((order root).find? fun x => member w ic x && named x) := by
  have hlen : (order root).length ≤ w.fresh + 1 := by have := order_length_le hW.toCore hd hr; omega
  refine ⟨?_, fun index hi => ?_, ?_⟩
  · unfold colLength
    rw [colLenLoop_spec hW.toCore hd hr hroot ic _ _ 0 _ (col_start ch order root) hlen (by omega)]
    simp
  · unfold colItem
    rw [colItemLoop_spec hW.toCore hd hr hroot ic index hi _ _ 0 _ (col_start ch order root) hlen (by omega)]
    simp
  · exact colFindLoop_spec hW.toCore hd hr hroot ic named _ _ _ (col_start ch order root) hlen

/-! ## Search by id -/

theorem find_lands (hW : Core w ch) (hd : DocOrder ch order) {rn : Node} (hr : w.nodes root = some rn) (test : NodeId → Bool)
    (rem : List NodeId) : ∀ r f, Lands ch order root r rem → rem.length ≤ f →
      findLoop test w root f r = .ok (rem.find? (member w test)) := by
  induction rem with
  | nil =>
    intro r f h _
    cases r with
    | none => cases f <;> simp [findLoop]
    | some y => obtain ⟨_, _, _, _, h⟩ := h; rw [hd y] at h; simp at h
  | cons y rem ih =>
    intro r f h hf
    cases r with
    | none => simp [Lands] at h
    | some x =>
      obtain ⟨n, hn⟩ := h.alive hW hr
      obtain ⟨d, l, h1, h2, h3⟩ := h
      rw [hd x] at h3
      simp only [List.cons_append, List.cons.injEq] at h3
      obtain ⟨rfl, rfl⟩ := h3
      cases f with
      | zero => simp at hf
      | succ f =>
        have hm : (n.type == .element && test y) = member w test y := by rw [Bool.eq_iff_iff]; simp [member, hn]
        simp only [findLoop, rd_ok hn, Out.bind_ok, hm]
        by_cases hs : member w test y = true
        · rw [if_pos hs, List.find?_cons_of_pos (by exact hs)]
        · rw [if_neg hs, List.find?_cons_of_neg (by exact hs), first_eq hW hn]
          by_cases hc : ch y = []
          · rw [if_neg (by simp [hc])]
            obtain ⟨r', h4, h5⟩ := findUp_lands hW (w.fresh + 2) d y l h1 h2 (by have := h1.depth_lt hW hr; omega)
            rw [h4, Out.bind_ok, ih r' f (by simpa [hc] using h5) (by simpa using hf)]
          · rw [if_pos ((isSome_head? _).2 hc), Out.bind_ok, ih _ f (lands_first hW h1 (.inl hc)) (by simpa using hf)]

/-- Leaving an empty root: the search goes through the following siblings, which hold nothing. -/
theorem find_siblings (hW : Core w ch) {doc : NodeId} {dn : Node} (hdoc : w.nodes doc = some dn) (hp : dn.parent = none) (hne : doc ≠ root)
    (test : NodeId → Bool) (b : List NodeId) : ∀ a x f, ch doc = a ++ x :: b → root ∉ x :: b → (∀ y ∈ x :: b, ch y = [] ∧ member w test y = false) →
      b.length < f → findLoop test w root f (some x) = .ok none := by
  have hdn : dn.next = none := (hW.linked.orphan doc dn hdoc (.inl hp)).2
  induction b with
  | nil =>
    intro a x f hc hx hb hf
    obtain ⟨n, hn, _, hpar, _, hnext⟩ := (hW.linked.loc doc dn hdoc).kids a x [] hc
    obtain ⟨h1, h2⟩ := hb x (by simp)
    cases f with
    | zero => simp at hf
    | succ f =>
      have hm : (n.type == .element && test x) = member w test x := by rw [Bool.eq_iff_iff]; simp [member, hn]
      simp only [findLoop, rd_ok hn, Out.bind_ok, hm, h2, first_eq hW hn, h1, List.head?_nil, Option.isSome_none, Bool.false_eq_true,
        if_false, findUp, hnext, hpar]
      rw [if_pos (by simpa using hne)]
      simp only [rd_ok hdoc, Out.bind_ok, hdn, Option.isSome_none, Bool.false_eq_true, if_false, hp]
      rw [if_pos (by simp)]
      cases w.fresh <;> cases f <;> simp [findUp, findLoop]
  | cons y b ih =>
    intro a x f hc hx hb hf
    obtain ⟨n, hn, _, hpar, _, hnext⟩ := (hW.linked.loc doc dn hdoc).kids a x (y :: b) hc
    obtain ⟨h1, h2⟩ := hb x (by simp)
    cases f with
    | zero => simp at hf
    | succ f =>
      have hm : (n.type == .element && test x) = member w test x := by rw [Bool.eq_iff_iff]; simp [member, hn]
      simp only [findLoop, rd_ok hn, Out.bind_ok, hm, h2, first_eq hW hn, h1, List.head?_nil, Option.isSome_none, Bool.false_eq_true,
        if_false, findUp, hnext, List.head?_cons, Option.isSome_some, if_true]
      exact ih (a ++ [x]) y f (by simp [hc]) (fun h => hx (by simp at h ⊢; tauto)) (fun z hz => hb z (by simp at hz ⊢; tauto)) (by simpa using hf)

theorem may_not_document {t : NodeType} : ¬ Tree.MayContain t .document := by
  intro h
  cases h with
  | content _ h => simp at h
  | attr h => simp at h
  | doc h => simp at h

/-- Below a Document only Elements have children. -/
theorem may_document_leaf {t c : NodeType} (h : Tree.MayContain .document t) (h2 : Tree.MayContain t c) : t = .element := by
  have h3 : t ∈ [NodeType.element, .pi, .comment, .doctype] := by
    cases h with
    | content hp _ => simp at hp
    | doc h => exact h
  cases h2 with
  | content hp _ => simp at h3 hp; rcases h3 with h | h | h | h <;> simp_all
  | attr => simp at h3
  | doc => simp at h3

theorem docElement_run (hW : Core w ch) {doc : NodeId} {dn : Node} (hdoc : w.nodes doc = some dn) (hd : DocOrder ch order) :
    docElement w doc = .ok ((ch doc).find? (member w fun _ => true)) := by
  have key : ∀ (b a : List NodeId) (f : Nat), ch doc = a ++ b → b.length ≤ f →
      docElementLoop w f b.head? = .ok (b.find? (member w fun _ => true)) := by
    intro b
    induction b with
    | nil => intro a f _ _; cases f <;> rfl
    | cons x b ih =>
      intro a f hc hf
      obtain ⟨n, hn, _, _, _, hnext⟩ := (hW.linked.loc doc dn hdoc).kids a x b hc
      cases f with
      | zero => simp at hf
      | succ f =>
        have hm : (n.type == .element) = member w (fun _ => true) x := by rw [Bool.eq_iff_iff]; simp [member, hn]
        simp only [List.head?_cons, docElementLoop, rd_ok hn, Out.bind_ok, hm]
        by_cases hs : member w (fun _ => true) x = true
        · rw [if_pos hs, List.find?_cons_of_pos (by exact hs)]
        · rw [if_neg hs, List.find?_cons_of_neg (by exact hs), hnext]
          exact ih (a ++ [x]) f (by simp [hc]) (by simpa using hf)
  unfold docElement
  rw [rd_ok hdoc, Out.bind_ok, first_eq hW hdoc]
  have := scope_le hW hd hdoc .children
  exact key (ch doc) [] _ rfl (by simp only [scope] at this; omega)

/-- C33.  In a Document with at most one Element child, the search answers the first element below (or at) the document
element that passes the test, in document order, and null exactly when there is none; it ends.  `test` is the comparison of
the id.

Missing from the full claim: a Document with two Element children (see C25), where the search can leave the subtree
(`C33_two_roots_violated`). -/
theorem C33_search_partial (hW : WF w ch) (hd : DocOrder ch order) {doc : NodeId} {dn : Node} (hdoc : w.nodes doc = some dn)
    (hty : dn.type = .document) (hone : ((ch doc).filter (member w fun _ => true)).length ≤ 1) (test : NodeId → Bool) :
    getElementById test w doc = .ok (match (ch doc).find? (member w fun _ => true) with
      | none => none
      | some r => (order r).find? (member w test)) := by
  have hC := hW.toCore
  unfold getElementById
  rw [docElement_run hC hdoc hd, Out.bind_ok]
  cases hf : (ch doc).find? (member w fun _ => true) with
  | none => rfl
  | some r =>
    obtain ⟨hrel, a, b, hab, ha⟩ := List.find?_eq_some_iff_append.1 hf
    obtain ⟨rn, hr, _, hrp⟩ := hC.linked.alive_child (p := doc) (c := r) (by rw [hab]; simp)
    have hnd := (hC.linked.loc doc dn hdoc).nodup
    rw [hab] at hnd
    have hrb : r ∉ b := (List.nodup_cons.1 (List.nodup_append.1 hnd).2.1).1
    have hlen := order_length_le hC hd hr
    have hm : (rn.type == .element && test r) = member w test r := by rw [Bool.eq_iff_iff]; simp [member, hr]
    simp only [findById]
    rw [show w.fresh + 1 = w.fresh + 1 from rfl, findLoop, rd_ok hr, Out.bind_ok, hm, hd r]
    by_cases hs : member w test r = true
    · rw [if_pos hs, List.find?_cons_of_pos (by exact hs)]
    · rw [if_neg hs, List.find?_cons_of_neg (by exact hs), first_eq hC hr]
      by_cases hc : ch r = []
      · -- an empty document element
        rw [if_neg (by simp [hc]), hc]
        have hdp : dn.parent = none := by
          cases hp : dn.parent with
          | none => rfl
          | some q =>
            obtain ⟨qn, hq⟩ := hC.linked.alive_parent hdoc hp
            have hmem := hC.linked.up doc dn q hdoc (by rw [hty]; simp) hp
            have := hC.types q qn doc dn hq hmem hdoc
            rw [hty] at this
            exact absurd this may_not_document
        have hne : doc ≠ r := by
          rintro rfl
          exact Tree.not_below_child hC.linked hC.wf (p := doc) (c := doc) (by rw [hab]; simp) .refl
        have hdn : dn.next = none := (hC.linked.orphan doc dn hdoc (.inl hdp)).2
        have hnext := ((hC.linked.loc doc dn hdoc).kids a r b hab)
        obtain ⟨rn', hr', _, _, _, hnext⟩ := hnext
        rw [hr] at hr'; cases hr'
        have hrest : ∀ y ∈ b, ch y = [] ∧ member w test y = false := by
          intro y hy
          obtain ⟨yn, hy', _, _⟩ := hC.linked.alive_child (p := doc) (c := y) (by rw [hab]; simp [hy])
          have hyel : yn.type ≠ .element := by
            intro he
            have h1 : member w (fun _ => true) y = true := by simp [member, hy', he]
            rw [hab, List.filter_append, List.filter_cons_of_pos (by exact hrel)] at hone
            have : y ∈ b.filter (member w fun _ => true) := List.mem_filter.2 ⟨hy, h1⟩
            have := List.length_pos_of_mem this
            simp at hone; omega
          have hmay := hC.types doc dn y yn hdoc (by rw [hab]; simp [hy]) hy'
          refine ⟨?_, by simp [member, hy', hyel]⟩
          cases hcy : ch y with
          | nil => rfl
          | cons z l =>
            obtain ⟨zn, hz, _, _⟩ := hC.linked.alive_child (p := y) (c := z) (by rw [hcy]; simp)
            have h2 := hC.types y yn z zn hy' (by rw [hcy]; simp) hz
            rw [hty] at hmay
            exact absurd hyel (by simpa using may_document_leaf hmay h2)
        simp only [findUp, rd_ok hr, Out.bind_ok, hnext, hrp]
        cases b with
        | nil =>
          simp only [List.head?_nil, Option.isSome_none, Bool.false_eq_true, if_false]
          rw [if_pos (by simpa using hne)]
          simp only [rd_ok hdoc, Out.bind_ok, hdn, Option.isSome_none, Bool.false_eq_true, if_false, hdp]
          rw [if_pos (by simp)]
          cases w.fresh <;> simp [findUp, findLoop]
        | cons y b =>
          simp only [List.head?_cons, Option.isSome_some, if_true, Out.bind_ok]
          have hle : (ch doc).length ≤ w.fresh := by have := scope_le hC hd hdoc .children; simpa only [scope] using this
          rw [hab] at hle
          rw [find_siblings hC hdoc hdp hne test b (a ++ [r]) y _ (by simp [hab]) hrb hrest (by simp at hle; omega)]
          simp
      · rw [if_pos ((isSome_head? _).2 hc), Out.bind_ok]
        have := lands_first hC (Rest.root (ch := ch) (order := order) (root := r)) (.inl hc)
        rw [List.append_nil] at this
        exact find_lands hC hd hr test _ _ _ this (by rw [hd r] at hlen; simpa using Nat.le_of_succ_le hlen)

/-! ## Concrete cases -/

open Dom.Tree (Call Reach exists_ok)

def nm (b : UInt8) : Option DStr := some { data := [b] }

/-- Document 0; element 1 "a" below it with children: element 2 "b" (holding text 3 and element 4 "b") and element 5 "c". -/
def sample : List Call := [.createDocument, .createNode 0 .element (nm 97) none, .createNode 0 .element (nm 98) none,
  .createNode 0 .text none none, .createNode 0 .element (nm 98) none, .createNode 0 .element (nm 99) none,
  .appendChild 0 1, .appendChild 1 2, .appendChild 2 3, .appendChild 2 4, .appendChild 1 5]

/-- The theorems above at work in a reachable tree. -/
example : ∃ w, Reach (fun w c => c.Ok w) w ∧ (
    listLength (.byName { data := [98] } false) w 0 = .ok 2 ∧ listItem (.byName { data := [98] } false) w 0 1 = .ok (some 4) ∧
    listItem (.byName { data := [98] } false) w 0 2 = .ok none ∧ listItem (.byName { data := [66] } true) w 0 0 = .ok (some 2) ∧
    listLength .children w 1 = .ok 2 ∧ listItem .children w 1 1 = .ok (some 5) ∧
    colLength (fun _ => true) w 0 = .ok 4 ∧ colItem (fun _ => true) w 1 2 = .ok (some 4) ∧
    getElementById (fun x => x = 4 || x = 5) w 0 = .ok (some 4)) := by
  obtain ⟨w, h1, h2⟩ := exists_ok sample (fun w => decide (
    listLength (.byName { data := [98] } false) w 0 = .ok 2 ∧ listItem (.byName { data := [98] } false) w 0 1 = .ok (some 4) ∧
    listItem (.byName { data := [98] } false) w 0 2 = .ok none ∧ listItem (.byName { data := [66] } true) w 0 0 = .ok (some 2) ∧
    listLength .children w 1 = .ok 2 ∧ listItem .children w 1 1 = .ok (some 5) ∧
    colLength (fun _ => true) w 0 = .ok 4 ∧ colItem (fun _ => true) w 1 2 = .ok (some 4) ∧
    getElementById (fun x => x = 4 || x = 5) w 0 = .ok (some 4))) (by decide +kernel)
  exact ⟨w, h1, of_decide_eq_true h2⟩

/-- C32 is false of the code for lists about no namespace: `length` counts elements that `item` never gives
(nodelist.c:228-230 against 337-340). -/
theorem C32_null_namespace_violated : ∃ w, Reach (fun w c => c.Ok w) w ∧ listLength (.byNs none (nm 42) false) w 0 = .ok 4 ∧
    listItem (.byNs none (nm 42) false) w 0 0 = .ok none ∧ listItem (.byNs none (nm 42) false) w 0 1 = .ok none ∧
    listItem (.byNs none (nm 42) false) w 0 2 = .ok none ∧ listItem (.byNs none (nm 42) false) w 0 3 = .ok none := by
  obtain ⟨w, h1, h2⟩ := exists_ok sample (fun w => decide (listLength (.byNs none (nm 42) false) w 0 = .ok 4 ∧
    listItem (.byNs none (nm 42) false) w 0 0 = .ok none ∧ listItem (.byNs none (nm 42) false) w 0 1 = .ok none ∧
    listItem (.byNs none (nm 42) false) w 0 2 = .ok none ∧ listItem (.byNs none (nm 42) false) w 0 3 = .ok none)) (by decide +kernel)
  exact ⟨w, h1, of_decide_eq_true h2⟩

/-- C32 is false of the code for the index 2^32 - 1: `item` gives a node that does not match (nodelist.c:365). -/
theorem C32_last_index_violated : ∃ w, Reach (fun w c => c.Ok w) w ∧
    listLength (.byName { data := [98] } false) w 0 = .ok 2 ∧
    listItem (.byName { data := [98] } false) w 0 (2 ^ 32 - 1) = .ok (some 1) ∧ selects w (.byName { data := [98] } false) 1 = false := by
  obtain ⟨w, h1, h2⟩ := exists_ok sample (fun w => decide (
    listLength (.byName { data := [98] } false) w 0 = .ok 2 ∧
    listItem (.byName { data := [98] } false) w 0 (2 ^ 32 - 1) = .ok (some 1) ∧ selects w (.byName { data := [98] } false) 1 = false)) (by decide +kernel)
  exact ⟨w, h1, of_decide_eq_true h2⟩

/-- C35 is false of the code for a root without children that has a next sibling: the walk leaves the subtree, and ends
with a NULL dereference at the top of the tree (html_collection.c:128-142).  Here the root is the empty element 4 "b"
followed by element 5. -/
theorem C35_empty_root_violated : ∃ w, Reach (fun w c => c.Ok w) w ∧
    colItem (fun _ => true) w 2 1 = .ok (some 3) ∧ colLength (fun _ => true) w 2 = .fault .nullDeref := by
  obtain ⟨w, h1, h2⟩ := exists_ok [.createDocument, .createNode 0 .element (nm 97) none, .createNode 0 .element (nm 98) none,
      .createNode 0 .element (nm 99) none, .appendChild 0 1, .appendChild 1 2, .appendChild 1 3] (fun w => decide (
    colItem (fun _ => true) w 2 1 = .ok (some 3) ∧ colLength (fun _ => true) w 2 = .fault .nullDeref)) (by decide +kernel)
  exact ⟨w, h1, of_decide_eq_true h2⟩

/-- C35 is false of the code for the index 2^32 - 1: the root is given although it is not a member (html_collection.c:173). -/
theorem C35_last_index_violated : ∃ w, Reach (fun w c => c.Ok w) w ∧
    colLength (fun _ => true) w 0 = .ok 4 ∧ colItem (fun _ => true) w 0 (2 ^ 32 - 1) = .ok (some 0) ∧ member w (fun _ => true) 0 = false := by
  obtain ⟨w, h1, h2⟩ := exists_ok sample (fun w => decide (
    colLength (fun _ => true) w 0 = .ok 4 ∧ colItem (fun _ => true) w 0 (2 ^ 32 - 1) = .ok (some 0) ∧ member w (fun _ => true) 0 = false)) (by decide +kernel)
  exact ⟨w, h1, of_decide_eq_true h2⟩

/-- C33 is false of the code for a Document with two Element children, the first one empty: the search gives an element
outside the subtree of the document element (document.c:1444-1457). -/
theorem C33_two_roots_violated : ∃ w, Reach (fun w c => c.Ok w) w ∧
    docElement w 0 = .ok (some 2) ∧ getElementById (fun x => x = 3) w 0 = .ok (some 3) := by
  obtain ⟨w, h1, h2⟩ := exists_ok [.createDocument, .createNode 0 .fragment none none, .createNode 0 .element (nm 97) none,
      .createNode 0 .element (nm 98) none, .appendChild 1 2, .appendChild 1 3, .appendChild 0 1] (fun w => decide (
    docElement w 0 = .ok (some 2) ∧ getElementById (fun x => x = 3) w 0 = .ok (some 3))) (by decide +kernel)
  exact ⟨w, h1, of_decide_eq_true h2⟩

end Dom.Trav
