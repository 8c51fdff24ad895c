import Verif.Cache.Run
import Verif.Trav.Props
import Mathlib.Algebra.BigOperators.Ring.Finset
/-!
# C59: asking twice for the same node list gives the same list

A document hands out shared lists: a request that matches a list still in use returns that list with one more reference, any other request makes a
new list.  A list exists exactly as long as references are held on it.
-/
set_option linter.unusedSimpArgs false
set_option linter.unusedVariables false
namespace Dom.Cache

open Dom.Str (DStr contents asciiLower)
open Dom.Tree (NodeId World)
open Dom.Trav (Kind isStar eqBy lenMatch itemMatch listLength listItem lenLoop itemLoop nlNext)

/-! ## Specification -/

/-- The two strings have the same bytes, NULL counting as the empty string. -/
def SameText (x y : Option DStr) : Prop := contents x = contents y

/-- The two strings have the same bytes up to the case of ASCII letters. -/
def SameFolded (x y : Option DStr) : Prop := (contents x).map asciiLower = (contents y).map asciiLower

/-- The list `l` is the one the request asks for: the same root, the same kind, the same names. -/
def Answers (l : NList) (t : LType) (root : NodeId) (tag ns lname : Option DStr) : Prop :=
  l.root = root ∧ l.type = t ∧
    match t with
    | .children => True
    | .byName => SameText l.name tag
    | .byNs => SameText l.ns ns ∧ SameText l.lname lname
    | .byNameCaseless => SameFolded l.name tag
    | .byNsCaseless => SameFolded l.ns ns ∧ SameFolded l.lname lname

/-- A history of requests for lists and of references taken and given back; `held a` is the number of references the callers hold on the list `a`. -/
inductive Reach : Mem → (Addr → Nat) → Prop
  | start : Reach Mem.empty (fun _ => 0)
  | get {s s' held d t root tag ns lname a} : Reach s held → getNodelist s d t root tag ns lname = .ok (s', a) → held a + 1 < 4294967296 →
      Reach s' (upd held a (held a + 1))
  | ref {s s' held a} : Reach s held → 0 < held a → held a + 1 < 4294967296 → listRef s a = .ok s' → Reach s' (upd held a (held a + 1))
  | unref {s s' held a} : Reach s held → 0 < held a → listUnref s a = .ok s' → Reach s' (upd held a (held a - 1))

variable {s s' : Mem} {held : Addr → Nat} {a b c : Addr} {d root : NodeId} {t : LType} {tag ns lname : Option DStr} {l m : NList}

theorem answers_iff : listMatch l t root tag ns lname = true ↔ Answers l t root tag ns lname := by
  rw [listMatch_iff]
  unfold Answers SameText SameFolded
  refine and_congr_right fun _ => and_congr_right fun _ => ?_
  cases t <;> simp only [Str.C06_isEqual_iff, Str.C06_caseless_iff]

/-! ## The invariant along a history -/

variable {cs : NodeId → List Addr}

/-- A live list is found by its request. -/
theorem get_found (hI : Inv s cs held) (hl : s.lists a = some l) (ho : l.owner = d) (hm : listMatch l t root tag ns lname = true)
    (hk : held a + 1 < 4294967296) : getNodelist s d t root tag ns lname = .ok (s.setRc a l (held a + 1), a) := by
  rcases find_cases hI d t root tag ns lname with ⟨c, x, l', h1, h2, h3, h4, h5, h6⟩ | ⟨_, h⟩
  · have : x.list = a := hI.apart _ _ l' l h4 hl (h5.trans ho.symm) (match_both h6 hm)
    unfold getNodelist
    rw [h1, Out.bind_ok]
    simp only [rdCell, h3, Out.bind_ok, this, listRef_run hI hl hk]
  · rw [h a l hl ho] at hm; cases hm

theorem get_inv (hI : Inv s cs held) (h : getNodelist s d t root tag ns lname = .ok (s', a)) (hk : held a + 1 < 4294967296) :
    ∃ cs', Inv s' cs' (upd held a (held a + 1)) := by
  rcases find_cases hI d t root tag ns lname with ⟨c, x, l', h1, h2, h3, h4, h5, h6⟩ | ⟨h1, h2⟩
  · have hxa : x.list = a := by
      unfold getNodelist at h
      rw [h1, Out.bind_ok] at h
      simp only [rdCell, h3, Out.bind_ok, listRef, rdList, h4] at h
      cases h; rfl
    subst hxa
    rw [get_found hI h4 h5 h6 hk] at h
    cases h
    exact ⟨cs, hI.setRc h4 (Nat.succ_pos _) hk⟩
  · by_cases ht : noName t tag
    · exfalso
      unfold getNodelist at h
      rw [h1, Out.bind_ok] at h
      simp only [listCreate, show ((t = .byName ∨ t = .byNameCaseless) ∧ tag = none) from ht, if_true] at h
      cases h
    · rw [get_new hI h1 ht] at h
      cases h
      have : held (s.fresh + 1) = 0 := by
        refine hI.gone _ ?_
        cases hx : s.lists (s.fresh + 1) with
        | none => rfl
        | some x => exact absurd (hI.bndL _ x hx) not_succ_lt
      rw [this]
      exact ⟨_, hI.withNew h2 ht⟩

theorem Inv.alive (hI : Inv s cs held) (h : 0 < held a) : ∃ l, s.lists a = some l := by
  cases hl : s.lists a with
  | some l => exact ⟨l, rfl⟩
  | none => rw [hI.gone a hl] at h; cases h

theorem Reach.inv (h : Reach s held) : ∃ cs, Inv s cs held := by
  induction h with
  | start => exact ⟨_, empty_inv⟩
  | get _ h1 h2 ih =>
    obtain ⟨cs, hI⟩ := ih
    exact get_inv hI h1 h2
  | ref _ h1 h2 h3 ih =>
    obtain ⟨cs, hI⟩ := ih
    obtain ⟨l, hl⟩ := hI.alive h1
    rw [listRef_run hI hl h2] at h3
    cases h3
    exact ⟨cs, hI.setRc hl (Nat.succ_pos _) h2⟩
  | @unref s s' held a _ h1 h2 ih =>
    obtain ⟨cs, hI⟩ := ih
    obtain ⟨l, hl⟩ := hI.alive h1
    by_cases e : held a = 1
    · obtain ⟨c, x, pre, suf, g1, g2, g3, g4⟩ := unref_last hI hl e
      rw [g4] at h2; cases h2
      rw [e]
      exact ⟨_, hI.without hl g1 g2 g3⟩
    · have h3 : 1 < held a := by omega
      rw [unref_more hI hl h3] at h2; cases h2
      exact ⟨cs, hI.setRc hl (by omega) (by have := (hI.count a l hl).2.2; omega)⟩

/-! ## Theorems -/

/-- C59: a list exists exactly while somebody holds a reference on it, and its count is the number of references held. -/
theorem C59_alive (h : Reach s held) (a : Addr) : (∀ l, s.lists a = some l → l.refcnt = held a ∧ 0 < held a) ∧ (s.lists a = none → held a = 0) := by
  obtain ⟨cs, hI⟩ := h.inv
  exact ⟨fun l hl => ⟨(hI.count a l hl).1, (hI.count a l hl).2.1⟩, hI.gone a⟩

/-- C59: two lists of one document that exist at the same time answer different requests. -/
theorem C59_unique (h : Reach s held) (ha : s.lists a = some l) (hb : s.lists b = some m) (ho : l.owner = m.owner)
    (hl : Answers l t root tag ns lname) (hm : Answers m t root tag ns lname) : a = b := by
  obtain ⟨cs, hI⟩ := h.inv
  exact hI.apart a b l m ha hb ho (match_both (answers_iff.2 hl) (answers_iff.2 hm))

/-- C59: a request that a live list of the document answers gives that list; the only effect is one more reference on it. -/
theorem C59_get_same (h : Reach s held) (ha : s.lists a = some l) (ho : l.owner = d) (hl : Answers l t root tag ns lname) (hk : held a + 1 < 4294967296) :
    ∃ s', getNodelist s d t root tag ns lname = .ok (s', a) ∧ s'.lists a = some { l with refcnt := l.refcnt + 1 } ∧ (∀ b, b ≠ a → s'.lists b = s.lists b) ∧
      s'.cells = s.cells ∧ s'.heads = s.heads ∧ s'.refs = s.refs := by
  obtain ⟨cs, hI⟩ := h.inv
  refine ⟨_, get_found hI ha ho (answers_iff.2 hl) hk, ?_, fun b hb => upd_ne hb, rfl, rfl, rfl⟩
  rw [(hI.count a l ha).1]
  exact upd_same

/-- C59: any other request gives a list that did not exist before, for exactly what was asked, with one reference; the lists of before are not
changed, and one reference each is taken on the document and on the root. -/
theorem C59_get_new (h : Reach s held) (hn : ∀ a l, s.lists a = some l → l.owner = d → ¬ Answers l t root tag ns lname)
    (ht : (t = .byName ∨ t = .byNameCaseless) → tag ≠ none) :
    ∃ s' a, getNodelist s d t root tag ns lname = .ok (s', a) ∧ s.lists a = none ∧
      s'.lists a = some { owner := d, root := root, type := t, name := tag, ns := ns, lname := lname, refcnt := 1 } ∧
      (∀ b, b ≠ a → s'.lists b = s.lists b) ∧ ∀ n, s'.refs n = s.refs n + (if d = n then 1 else 0) + (if root = n then 1 else 0) := by
  obtain ⟨cs, hI⟩ := h.inv
  rcases find_cases hI d t root tag ns lname with ⟨c, x, l', h1, h2, h3, h4, h5, h6⟩ | ⟨h1, h2⟩
  · exact absurd (answers_iff.1 h6) (hn _ _ h4 h5)
  · refine ⟨_, _, get_new hI h1 (fun h => ht h.1 h.2), ?_, upd_same, fun b hb => upd_ne hb, fun n => rfl⟩
    cases hx : s.lists (s.fresh + 1) with
    | none => rfl
    | some x => exact absurd (hI.bndL _ x hx) not_succ_lt

/-- C59: the only request that fails is one by tag name without a tag name: the assertion of src/core/nodelist.c:89 fails. -/
theorem C59_get_safe (h : Reach s held) (d : NodeId) (t : LType) (root : NodeId) (tag ns lname : Option DStr) :
    (∃ s' a, getNodelist s d t root tag ns lname = .ok (s', a)) ∨
    ((t = .byName ∨ t = .byNameCaseless) ∧ tag = none ∧ (∀ a l, s.lists a = some l → l.owner = d → ¬ Answers l t root tag ns lname) ∧
      getNodelist s d t root tag ns lname = .fault .assertFail) := by
  obtain ⟨cs, hI⟩ := h.inv
  rcases find_cases hI d t root tag ns lname with ⟨c, x, l', h1, h2, h3, h4, h5, h6⟩ | ⟨h1, h2⟩
  · left
    unfold getNodelist
    rw [h1, Out.bind_ok]
    simp only [rdCell, h3, Out.bind_ok, listRef, rdList, h4]
    exact ⟨_, _, rfl⟩
  · by_cases ht : noName t tag
    · right
      refine ⟨ht.1, ht.2, fun a l ha ho hl => ?_, ?_⟩
      · have := h2 a l ha ho
        rw [answers_iff.2 hl] at this; cases this
      · unfold getNodelist
        rw [h1, Out.bind_ok]
        simp only [listCreate, show ((t = .byName ∨ t = .byNameCaseless) ∧ tag = none) from ht, if_true]
        rfl
    · exact Or.inl ⟨_, _, get_new hI h1 ht⟩

/-- C59: giving back a reference that is held succeeds.  The list goes away with the last one, and only then the references on the document and on
the root are given back; no other list is changed. -/
theorem C59_unref (h : Reach s held) (hk : 0 < held a) : ∃ l s', s.lists a = some l ∧ listUnref s a = .ok s' ∧
    s'.lists a = (if held a = 1 then none else some { l with refcnt := l.refcnt - 1 }) ∧ (∀ b, b ≠ a → s'.lists b = s.lists b) ∧
    ∀ n, s'.refs n = if held a = 1 then s.refs n - (if l.owner = n then 1 else 0) - (if l.root = n then 1 else 0) else s.refs n := by
  obtain ⟨cs, hI⟩ := h.inv
  obtain ⟨l, hl⟩ := hI.alive hk
  by_cases e : held a = 1
  · obtain ⟨c, x, pre, suf, g1, g2, g3, g4⟩ := unref_last hI hl e
    refine ⟨l, _, hl, g4, ?_, fun b hb => upd_ne hb, fun n => ?_⟩
    · rw [if_pos e]; exact upd_same
    · rw [if_pos e]; rfl
  · have h3 : 1 < held a := by omega
    refine ⟨l, _, hl, unref_more hI hl h3, ?_, fun b hb => upd_ne hb, fun n => ?_⟩
    · rw [if_neg e, (hI.count a l hl).1]; exact upd_same
    · rw [if_neg e]; rfl

/-- C59: the lists hold on each node one reference for each list of which it is the document and one for each list of which it is the root. -/
theorem C59_refs (h : Reach s held) (n : NodeId) : ∃ as : Finset Addr, (∀ a, a ∈ as ↔ s.lists a ≠ none) ∧
    s.refs n = (as.filter fun a => (s.lists a).any fun l => l.owner = n).card + (as.filter fun a => (s.lists a).any fun l => l.root = n).card := by
  obtain ⟨cs, hI⟩ := h.inv
  refine ⟨(Finset.range s.fresh).filter fun a => (s.lists a).isSome, fun a => ?_, ?_⟩
  · rw [Finset.mem_filter, Finset.mem_range]
    constructor
    · rintro ⟨_, h2⟩ e; rw [e] at h2; cases h2
    · intro h2
      cases hl : s.lists a with
      | none => exact absurd hl h2
      | some l => exact ⟨hI.bndL a l hl, rfl⟩
  · rw [hI.refs n]
    unfold total
    rw [Finset.filter_filter, Finset.filter_filter, Finset.card_filter, Finset.card_filter]
    rw [Nat.cast_sum, Nat.cast_sum, ← Finset.sum_add_distrib]
    refine Finset.sum_congr rfl fun i _ => ?_
    cases s.lists i with
    | none => simp [holds]
    | some l => simp [holds]

/-- C59: when every reference has been given back nothing is left: no list, no cell, no document with a list, and no reference on any node. -/
theorem C59_no_leak (h : Reach s held) (h0 : ∀ a, held a = 0) :
    (∀ a, s.lists a = none) ∧ (∀ c, s.cells c = none) ∧ (∀ d, s.heads d = none) ∧ ∀ n, s.refs n = 0 := by
  obtain ⟨cs, hI⟩ := h.inv
  have hno : ∀ a, s.lists a = none := by
    intro a
    cases hl : s.lists a with
    | none => rfl
    | some l => have := (hI.count a l hl).2.1; rw [h0 a] at this; cases this
  have hcs : ∀ d, cs d = [] := by
    intro d
    refine List.eq_nil_iff_forall_not_mem.2 fun c hc => ?_
    obtain ⟨x, l, _, h2, _⟩ := hI.cell d c hc
    rw [hno] at h2; cases h2
  refine ⟨hno, fun c => ?_, fun d => ?_, fun n => ?_⟩
  · cases hx : s.cells c with
    | none => rfl
    | some x =>
      obtain ⟨d, hd⟩ := hI.owned c x hx
      rw [hcs d] at hd; cases hd
  · have := (hI.dll d).head
    rw [hcs d] at this
    exact this
  · rw [hI.refs n]
    unfold total
    exact Finset.sum_eq_zero fun i _ => by rw [hno i]; rfl

/-! ## The shared list selects what was asked for -/

theorem star_same {x y : Option DStr} (h : SameFolded x y) : isStar x = isStar y := by
  unfold SameFolded contents at h
  have low : ∀ b : UInt8, (asciiLower b = asciiLower 0x2A) → b = 0x2A := by
    intro b hb
    have h2 : asciiLower 0x2A = 0x2A := by decide
    rw [h2] at hb
    unfold asciiLower at hb
    split at hb
    · rename_i hr
      have h3 : b.toNat + 32 = 42 := by
        have h4 := congrArg UInt8.toNat hb
        rw [UInt8.toNat_add] at h4
        have h5 : b.toNat ≤ 90 := hr.2
        have h6 : (32 : UInt8).toNat = 32 := rfl
        have h7 : (0x2A : UInt8).toNat = 42 := rfl
        rw [h6, h7] at h4
        omega
      have h8 : 65 ≤ b.toNat := hr.1
      omega
    · exact hb
  have key : ∀ {x y : List UInt8}, x.map asciiLower = y.map asciiLower → (x.length == 1 && x.head? == some 0x2A) = true →
      (y.length == 1 && y.head? == some 0x2A) = true := by
    intro x y e hx
    match x, hx with
    | _ :: _ :: _, hx => simp at hx
    | [b], hx =>
      have hb : b = 0x2A := by simpa using hx
      subst hb
      match y, e with
      | _ :: _ :: _, e => simp at e
      | [b'], e =>
        have := low b' (by simpa using e.symm)
        subst this; rfl
  have nn : ∀ z : Option DStr, isStar z = (((z.map DStr.data).getD []).length == 1 && ((z.map DStr.data).getD []).head? == some 0x2A) := by
    intro z; cases z <;> rfl
  rw [nn x, nn y]
  cases h1 : (((x.map DStr.data).getD []).length == 1 && ((x.map DStr.data).getD []).head? == some 0x2A) with
  | true => exact (key h h1).symm
  | false =>
    cases h2 : (((y.map DStr.data).getD []).length == 1 && ((y.map DStr.data).getD []).head? == some 0x2A) with
    | false => rfl
    | true => rw [key h.symm h2] at h1; cases h1

theorem SameText.folded {x y : Option DStr} (h : SameText x y) : SameFolded x y := by
  unfold SameFolded; rw [show contents x = contents y from h]

theorem eq_same {x y z : Option DStr} (h : SameText x y) : eqBy false z x = eqBy false z y := by
  refine Bool.eq_iff_iff.2 ?_
  show Str.isEqual z x = true ↔ Str.isEqual z y = true
  rw [Str.C06_isEqual_iff, Str.C06_isEqual_iff, show contents x = contents y from h]

theorem eq_folded {x y z : Option DStr} (h : SameFolded x y) : eqBy true z x = eqBy true z y := by
  refine Bool.eq_iff_iff.2 ?_
  show Str.caselessIsEqual z x = true ↔ Str.caselessIsEqual z y = true
  rw [Str.C06_caseless_iff, Str.C06_caseless_iff, show (contents x).map asciiLower = (contents y).map asciiLower from h]

theorem contents_getD (x : Option DStr) : contents (some (x.getD ⟨[], false⟩)) = contents x := by cases x <;> rfl

/-- The tests of two kinds agree on every node. -/
def Agree (k k' : Kind) : Prop := lenMatch k = lenMatch k' ∧ itemMatch k = itemMatch k' ∧ (k = .children ↔ k' = .children)

theorem agree (h : Answers l t root tag ns lname) : Agree (kindOf l.type l.name l.ns l.lname) (kindOf t tag ns lname) := by
  obtain ⟨_, h2, h3⟩ := h
  rw [h2]
  cases t with
  | children => exact ⟨rfl, rfl, Iff.rfl⟩
  | byName =>
    have h3 : SameText (some (l.name.getD ⟨[], false⟩)) (some (tag.getD ⟨[], false⟩)) := by
      unfold SameText; rw [contents_getD, contents_getD]; exact h3
    refine ⟨?_, ?_, ⟨nofun, nofun⟩⟩ <;>
    · funext n
      simp only [lenMatch, itemMatch, kindOf]
      rw [star_same h3.folded, eq_same h3]
  | byNameCaseless =>
    have h3 : SameFolded (some (l.name.getD ⟨[], false⟩)) (some (tag.getD ⟨[], false⟩)) := by
      unfold SameFolded; rw [contents_getD, contents_getD]; exact h3
    refine ⟨?_, ?_, ⟨nofun, nofun⟩⟩ <;>
    · funext n
      simp only [lenMatch, itemMatch, kindOf]
      rw [star_same h3, eq_folded h3]
  | byNs =>
    obtain ⟨h3, h4⟩ := h3
    refine ⟨?_, ?_, ⟨nofun, nofun⟩⟩ <;>
    · funext n
      simp only [lenMatch, itemMatch, kindOf]
      rw [star_same h3.folded, eq_same h3, star_same h4.folded, eq_same h4]
  | byNsCaseless =>
    obtain ⟨h3, h4⟩ := h3
    refine ⟨?_, ?_, ⟨nofun, nofun⟩⟩ <;>
    · funext n
      simp only [lenMatch, itemMatch, kindOf]
      rw [star_same h3, eq_folded h3, star_same h4, eq_folded h4]

theorem next_agree {k k' : Kind} (h : Agree k k') : nlNext k = nlNext k' := by
  obtain ⟨_, _, h⟩ := h
  cases k with
  | children => rw [h.1 rfl]
  | byName _ _ =>
    cases k' with
    | children => exact absurd (h.2 rfl) nofun
    | byName _ _ => rfl
    | byNs _ _ _ => rfl
  | byNs _ _ _ =>
    cases k' with
    | children => exact absurd (h.2 rfl) nofun
    | byName _ _ => rfl
    | byNs _ _ _ => rfl

theorem len_agree {k k' : Kind} (h : Agree k k') (w : World) (root : NodeId) : ∀ f r len, lenLoop k w root f r len = lenLoop k' w root f r len := by
  intro f
  induction f with
  | zero => intro r len; cases r <;> rfl
  | succ f ih =>
    intro r len
    cases r with
    | none => rfl
    | some cur => simp only [lenLoop, next_agree h, h.1, ih]

theorem item_agree {k k' : Kind} (h : Agree k k') (w : World) (root : NodeId) (i : Nat) : ∀ f r c, itemLoop k w root i f r c = itemLoop k' w root i f r c := by
  intro f
  induction f with
  | zero => intro r c; cases r <;> rfl
  | succ f ih =>
    intro r c
    cases r with
    | none => rfl
    | some cur => simp only [itemLoop, next_agree h, h.2.1, ih]

/-- C59: the list a request gives has the root that was asked for, and at every later moment, whatever the tree, its length and its items are those
of a list made for exactly the names of this request, also when it was made for other spellings of them. -/
theorem C59_items (h : Reach s held) (hg : getNodelist s d t root tag ns lname = .ok (s', a)) (hk : held a + 1 < 4294967296) :
    ∃ l, s'.lists a = some l ∧ l.owner = d ∧ l.root = root ∧ ∀ w : World,
      listLength (kindOf l.type l.name l.ns l.lname) w l.root = listLength (kindOf t tag ns lname) w root ∧
      ∀ i, listItem (kindOf l.type l.name l.ns l.lname) w l.root i = listItem (kindOf t tag ns lname) w root i := by
  obtain ⟨cs, hI⟩ := h.inv
  have fin : ∀ l, s'.lists a = some l → l.owner = d → Answers l t root tag ns lname → ∃ l, s'.lists a = some l ∧ l.owner = d ∧ l.root = root ∧ ∀ w : World,
      listLength (kindOf l.type l.name l.ns l.lname) w l.root = listLength (kindOf t tag ns lname) w root ∧
      ∀ i, listItem (kindOf l.type l.name l.ns l.lname) w l.root i = listItem (kindOf t tag ns lname) w root i := by
    intro l h1 h2 h3
    refine ⟨l, h1, h2, h3.1, fun w => ⟨?_, fun i => ?_⟩⟩
    · unfold listLength; rw [h3.1]; simp only [len_agree (agree h3)]
    · unfold listItem; rw [h3.1]; simp only [item_agree (agree h3)]
  rcases find_cases hI d t root tag ns lname with ⟨c, x, l', h1, h2, h3, h4, h5, h6⟩ | ⟨h1, h2⟩
  · obtain ⟨s1, g1, g2, _⟩ := C59_get_same (t := t) (root := root) (tag := tag) (ns := ns) (lname := lname) (a := x.list) h h4 h5 (answers_iff.1 h6) (by
      unfold getNodelist at hg
      rw [h1, Out.bind_ok] at hg
      simp only [rdCell, h3, Out.bind_ok, listRef, rdList, h4] at hg
      cases hg; exact hk)
    rw [g1] at hg
    cases hg
    exact fin _ g2 h5 (answers_iff.1 h6)
  · by_cases ht : noName t tag
    · exfalso
      unfold getNodelist at hg
      rw [h1, Out.bind_ok] at hg
      simp only [listCreate, show ((t = .byName ∨ t = .byNameCaseless) ∧ tag = none) from ht, if_true] at hg
      cases hg
    · rw [get_new hI h1 ht] at hg
      cases hg
      refine fin _ upd_same rfl ⟨rfl, rfl, ?_⟩
      cases t <;> trivial

/-! ## A history -/

/-- One step of a sample history. -/
inductive Op
  | get (d : NodeId) (t : LType) (root : NodeId) (tag ns lname : Option DStr)
  | ref (a : Addr)
  | unref (a : Addr)

/-- Run one step, keeping count of the references. -/
def step (p : Mem × (Addr → Nat)) : Op → Option (Mem × (Addr → Nat))
  | .get d t root tag ns lname =>
    match getNodelist p.1 d t root tag ns lname with
    | .ok (s, a) => if p.2 a + 1 < 4294967296 then some (s, upd p.2 a (p.2 a + 1)) else none
    | _ => none
  | .ref a =>
    if 0 < p.2 a ∧ p.2 a + 1 < 4294967296 then
      match listRef p.1 a with
      | .ok s => some (s, upd p.2 a (p.2 a + 1))
      | _ => none
    else none
  | .unref a =>
    if 0 < p.2 a then
      match listUnref p.1 a with
      | .ok s => some (s, upd p.2 a (p.2 a - 1))
      | _ => none
    else none

/-- Run several steps. -/
def run (p : Mem × (Addr → Nat)) : List Op → Option (Mem × (Addr → Nat))
  | [] => some p
  | o :: os => (step p o).bind fun q => run q os

theorem step_reach {p q : Mem × (Addr → Nat)} {o : Op} (h : Reach p.1 p.2) (hs : step p o = some q) : Reach q.1 q.2 := by
  cases o with
  | get d t root tag ns lname =>
    simp only [step] at hs
    split at hs
    · rename_i s a hg
      split at hs
      · rename_i hk; cases hs; exact h.get hg hk
      · cases hs
    · cases hs
  | ref a =>
    simp only [step] at hs
    split at hs
    · rename_i hk
      split at hs
      · rename_i s hg; cases hs; exact h.ref hk.1 hk.2 hg
      · cases hs
    · cases hs
  | unref a =>
    simp only [step] at hs
    split at hs
    · rename_i hk
      split at hs
      · rename_i s hg; cases hs; exact h.unref hk hg
      · cases hs
    · cases hs

theorem run_reach {p q : Mem × (Addr → Nat)} {os : List Op} (h : Reach p.1 p.2) (hs : run p os = some q) : Reach q.1 q.2 := by
  induction os generalizing p with
  | nil => cases hs; exact h
  | cons o os ih =>
    simp only [run] at hs
    cases h1 : step p o with
    | none => rw [h1] at hs; cases hs
    | some r => rw [h1] at hs; exact ih (step_reach h h1) hs

theorem exists_run (os : List Op) (check : Mem → (Addr → Nat) → Bool)
    (h : ((run (Mem.empty, fun _ => 0) os).any fun q => check q.1 q.2) = true) : ∃ s held, Reach s held ∧ check s held = true := by
  cases h1 : run (Mem.empty, fun _ => 0) os with
  | none => rw [h1] at h; cases h
  | some q =>
    rw [h1] at h
    exact ⟨q.1, q.2, run_reach (p := (Mem.empty, fun _ => 0)) Reach.start h1, h⟩

/-- A one-letter name. -/
def nm (b : UInt8) : Option DStr := some ⟨[b], false⟩

/-- Document 0 is asked for the children of node 3, for its descendants "a" and, ignoring case, "A" and "a"; the middle list is given back. -/
def sample : List Op :=
  [.get 0 .children 3 none none none, .get 0 .byName 3 (nm 97) none none, .get 0 .byNameCaseless 3 (nm 65) none none, .get 0 .byNameCaseless 3 (nm 97) none none,
   .unref 3]

/-- After the sample history: the list by "a" is gone, that ignoring case is shared, and three lists' worth of references are left on the nodes. -/
example : ∃ s held, Reach s held ∧ s.lists 3 = none ∧ held 5 = 2 ∧ (s.lists 5).map (·.refcnt) = some 2 ∧ s.refs 3 = 2 ∧ s.refs 0 = 2 ∧
    s.heads 0 = some 4 ∧ (s.cells 4).map (·.next) = some (some 0) := by
  obtain ⟨s, held, h1, h2⟩ := exists_run sample (fun s held => decide (s.lists 3 = none ∧ held 5 = 2 ∧ (s.lists 5).map (·.refcnt) = some 2 ∧ s.refs 3 = 2 ∧
    s.refs 0 = 2 ∧ s.heads 0 = some 4 ∧ (s.cells 4).map (·.next) = some (some 0))) (by decide +kernel)
  exact ⟨s, held, h1, of_decide_eq_true h2⟩

/-- `C59_get_same` applies: the lists by "A" and by "a" ignoring case are the same request. -/
example : Answers { owner := 0, root := 3, type := .byNameCaseless, name := nm 65, ns := none, lname := none, refcnt := 1 } .byNameCaseless 3 (nm 97) none none :=
  ⟨rfl, rfl, (by unfold SameFolded; decide)⟩

/-- `C59_no_leak` applies after a history in which lists were made. -/
example : ∃ s held, Reach s held ∧ held 1 = 0 ∧ s.fresh = 2 := by
  obtain ⟨s, held, h1, h2⟩ := exists_run [.get 0 .children 3 none none none, .ref 1, .unref 1, .unref 1] (fun s held => decide (held 1 = 0 ∧ s.fresh = 2)) (by decide +kernel)
  exact ⟨s, held, h1, of_decide_eq_true h2⟩

end Dom.Cache
