import Verif.Attr.Ring
import Verif.Str.PropsEq
import Mathlib.Data.List.Perm.Subperm
/-!
# What the attribute lists mean, and the loops over them
-/
namespace Dom.Attr
set_option linter.unusedSimpArgs false

open Dom.Str (DStr Bytes contents)

/-! ## Specification -/

/-- The attributes listed by the cells `l`, in order. -/
def view (s : Mem) (l : List Addr) : List Entry := l.filterMap fun c => (s.cells c).map Cell.pay

/-- The entry answers to this name; without a namespace every entry with the local name does, with one only those of that
namespace. -/
def Fits (ns : Option DStr) (name : DStr) (en : Entry) : Prop :=
  (∀ n ∈ ns, ∃ m ∈ en.ns, n.data = m.data) ∧ name.data = en.name.data

instance (ns : Option DStr) (name : DStr) (en : Entry) : Decidable (Fits ns name en) :=
  decidable_of_iff (((ns.all fun n => en.ns.any fun m => n.data == m.data) && name.data == en.name.data) = true) (by
      unfold Fits
      cases ns <;> cases en.ns <;> simp)

/-- The text of the children of an attribute; there is none when one of them is an entity reference. -/
def joinKids : List Kid → Option Bytes
  | [] => some []
  | .text v :: r => (joinKids r).map (contents v ++ ·)
  | .entityRef :: _ => none

/-- The attribute has one of the numeric types. -/
def ANode.typed (n : ANode) : Bool := n.type = .integer || n.type = .short || n.type = .bool

/-- The value of an attribute as a string: the text of its children, nothing for a numeric one without text. -/
def valueOf (n : ANode) : Option Bytes :=
  match n.kids with
  | [.text (some v)] => some v.data
  | kids => if n.typed then some [] else joinKids kids

/-- The lists of cells `ls` are those of the elements in `s`. -/
structure Inv (s : Mem) (ls : Addr → List Addr) : Prop where
  head : ∀ {e el}, s.elems e = some el → el.attributes = (ls e).head?
  gone : ∀ {e}, s.elems e = none → ls e = []
  ring : ∀ e, Ring s (ls e)
  nodup : ∀ e, (ls e).Nodup
  disj : ∀ {c e e'}, c ∈ ls e → c ∈ ls e' → e = e'
  own : ∀ {c e}, c ∈ ls e → ∃ x n, s.cells c = some x ∧ s.attrs x.attr = some n ∧ n.parent = some e
  inj : ∀ {c c' e x y}, c ∈ ls e → c' ∈ ls e → s.cells c = some x → s.cells c' = some y → x.attr = y.attr → c = c'
  bndC : ∀ {c x}, s.cells c = some x → c < s.fresh
  bndA : ∀ {a n}, s.attrs a = some n → a < s.fresh

/-! ## Lists -/

section
variable {s s' : Mem} {ls : Addr → List Addr} {e a c h : Addr} {el : Elem} {n : ANode} {x : Cell} {ns : Option DStr} {name : DStr}

theorem matches_iff : matches_ name ns x = true ↔ Fits ns name x.pay := by
  unfold matches_ Fits
  rw [Bool.and_eq_true, Str.C06_isEqual_iff]
  cases ns with
  | none => simp [contents, Cell.pay]
  | some n =>
    cases hx : x.ns with
    | none => simp [contents, Cell.pay, hx]
    | some m =>
      simp [contents, Cell.pay, hx, Str.C06_isEqual_iff]

/-- The cell answers to this name. -/
def cellFits (s : Mem) (ns : Option DStr) (name : DStr) (c : Addr) : Bool :=
  match s.cells c with
  | some x => matches_ name ns x
  | none => false

theorem view_find (s : Mem) (ns : Option DStr) (name : DStr) (l : List Addr) :
    (view s l).find? (fun en => decide (Fits ns name en)) =
      (l.find? (cellFits s ns name)).bind fun c => (s.cells c).map Cell.pay := by
  induction l with
  | nil => rfl
  | cons c t ih =>
    unfold view at ih ⊢
    cases hc : s.cells c with
    | none =>
      rw [List.filterMap_cons_none (by simp [hc]), ih, List.find?_cons_of_neg (by simp [cellFits, hc])]
    | some x =>
      rw [List.filterMap_cons_some (b := x.pay) (by simp [hc])]
      by_cases hf : Fits ns name x.pay
      · rw [List.find?_cons_of_pos (by simpa using hf), List.find?_cons_of_pos (by simp only [cellFits, hc]; exact matches_iff.2 hf)]
        simp [hc]
      · have : ¬ cellFits s ns name c = true := by simp only [cellFits, hc]; rwa [matches_iff]
        rw [List.find?_cons_of_neg (by simpa using hf), List.find?_cons_of_neg this, ih]

theorem Ring.next {t : List Addr} (hr : Ring s (h :: t)) {pre suf : List Addr} (he : h :: t = pre ++ c :: suf) :
    ∃ x, s.cells c = some x ∧ x.next = suf.head?.getD h := by
  cases suf with
  | nil =>
    have := (hr.rel (a := pre) (x := c) (y := h) (b := []) (by rw [← List.cons_append, he]; simp)).1
    simpa using this
  | cons k u =>
    have := (hr.rel (a := pre) (x := c) (y := k) (b := u ++ [h]) (by rw [← List.cons_append, he]; simp)).1
    simpa using this

theorem findLoop_run {t : List Addr} (hr : Ring s (h :: t)) (hn : (h :: t).Nodup) :
    ∀ (suf pre : List Addr) (c : Addr) (k : Nat), h :: t = pre ++ c :: suf → suf.length < k →
    findLoop h name ns k c s = .ok s ((c :: suf).find? (cellFits s ns name)) := by
  intro suf
  induction suf with
  | nil =>
    intro pre c k he hk
    obtain ⟨x, hx, hnext⟩ := hr.next he
    obtain ⟨k, rfl⟩ : ∃ k', k = k' + 1 := ⟨k - 1, by omega⟩
    unfold findLoop
    rw [getCell_bind hx]
    cases hm : matches_ name ns x with
    | true => rw [List.find?_cons_of_pos (by simp [cellFits, hx, hm])]; rfl
    | false =>
      rw [List.find?_cons_of_neg (by simp [cellFits, hx, hm])]
      simp only [List.head?_nil, Option.getD_none] at hnext
      simp [hnext]; rfl
  | cons d suf ih =>
    intro pre c k he hk
    obtain ⟨x, hx, hnext⟩ := hr.next he
    obtain ⟨k, rfl⟩ : ∃ k', k = k' + 1 := ⟨k - 1, by omega⟩
    unfold findLoop
    rw [getCell_bind hx]
    cases hm : matches_ name ns x with
    | true => rw [List.find?_cons_of_pos (by simp [cellFits, hx, hm])]; rfl
    | false =>
      rw [List.find?_cons_of_neg (by simp [cellFits, hx, hm])]
      simp only [List.head?_cons, Option.getD_some] at hnext
      have hdh : d ≠ h := by
        rintro rfl
        rw [he] at hn
        cases pre with
        | nil =>
          simp at he hn
          exact hn.1.1 he.1.symm
        | cons q pre =>
          simp at he hn
          exact hn.1.2.2.1 he.1.symm
      simp only [hnext, hdh, if_false, Bool.false_eq_true]
      exact ih (pre ++ [c]) d k (by rw [he]; simp) (by simp at hk; omega)

theorem lengthLoop_run {t : List Addr} (hr : Ring s (h :: t)) (hn : (h :: t).Nodup) :
    ∀ (suf pre : List Addr) (c : Addr) (k count : Nat), h :: t = pre ++ c :: suf → suf.length < k →
    lengthLoop h k c count s = .ok s (u32 (count + 1 + suf.length)) := by
  intro suf
  induction suf with
  | nil =>
    intro pre c k count he hk
    obtain ⟨x, hx, hnext⟩ := hr.next he
    obtain ⟨k, rfl⟩ : ∃ k', k = k' + 1 := ⟨k - 1, by omega⟩
    unfold lengthLoop
    rw [getCell_bind hx]
    simp only [List.head?_nil, Option.getD_none] at hnext
    simp [hnext]; rfl
  | cons d suf ih =>
    intro pre c k count he hk
    obtain ⟨x, hx, hnext⟩ := hr.next he
    obtain ⟨k, rfl⟩ : ∃ k', k = k' + 1 := ⟨k - 1, by omega⟩
    unfold lengthLoop
    rw [getCell_bind hx]
    simp only [List.head?_cons, Option.getD_some] at hnext
    have hdh : d ≠ h := by
      rintro rfl
      rw [he] at hn
      cases pre with
      | nil =>
        simp at he hn
        exact hn.1.1 he.1.symm
      | cons q pre =>
        simp at he hn
        exact hn.1.2.2.1 he.1.symm
    simp only [hnext, hdh, if_false]
    rw [ih (pre ++ [c]) d k _ (by rw [he]; simp) (by simp at hk; omega)]
    congr 1
    rw [u32_eq_mod, u32_eq_mod, u32_eq_mod]
    simp only [List.length_cons]
    omega

theorem indexLoop_run {t : List Addr} (hr : Ring s (h :: t)) (hn : (h :: t).Nodup) :
    ∀ (suf pre : List Addr) (c : Addr) (k i : Nat), h :: t = pre ++ c :: suf → suf.length < k → i < 4294967295 →
    indexLoop h k c (i + 1) s = .ok s ((c :: suf)[i]?) := by
  intro suf
  induction suf with
  | nil =>
    intro pre c k i he hk hi
    obtain ⟨x, hx, hnext⟩ := hr.next he
    obtain ⟨k, rfl⟩ : ∃ k', k = k' + 1 := ⟨k - 1, by omega⟩
    have hs : sub32 (i + 1) 1 = i := by unfold sub32; simp
    unfold indexLoop
    rw [hs]
    cases i with
    | zero => rfl
    | succ i =>
      rw [if_neg (by omega), getCell_bind hx]
      simp only [List.head?_nil, Option.getD_none] at hnext
      simp [hnext]; rfl
  | cons d suf ih =>
    intro pre c k i he hk hi
    obtain ⟨x, hx, hnext⟩ := hr.next he
    obtain ⟨k, rfl⟩ : ∃ k', k = k' + 1 := ⟨k - 1, by omega⟩
    have hs : sub32 (i + 1) 1 = i := by unfold sub32; simp
    unfold indexLoop
    rw [hs]
    cases i with
    | zero => rfl
    | succ i =>
      rw [if_neg (by omega), getCell_bind hx]
      simp only [List.head?_cons, Option.getD_some] at hnext
      have hdh : d ≠ h := by
        rintro rfl
        rw [he] at hn
        cases pre with
        | nil =>
          simp at he hn
          exact hn.1.1 he.1.symm
        | cons q pre =>
          simp at he hn
          exact hn.1.2.2.1 he.1.symm
      simp only [hnext, hdh, if_false]
      rw [ih (pre ++ [c]) d k i (by rw [he]; simp) (by simp at hk; omega) (by omega)]
      rfl

/-- The bound of the loops is large enough. -/
theorem Inv.short (hI : Inv s ls) (e : Addr) : (ls e).length ≤ s.fresh := by
  have h1 : (ls e) ⊆ List.range s.fresh := by
    intro c hc
    obtain ⟨x, n, hx, _⟩ := hI.own hc
    exact List.mem_range.2 (hI.bndC hx)
  have := (List.subperm_of_subset (hI.nodup e) h1).length_le
  simpa using this

theorem findByName_run (hI : Inv s ls) (he : s.elems e = some el) :
    findByName el.attributes name ns s = .ok s ((ls e).find? (cellFits s ns name)) := by
  rw [hI.head he]
  have hr := hI.ring e
  have hn := hI.nodup e
  have hb := hI.short e
  cases hl : ls e with
  | nil => rfl
  | cons h t =>
    rw [hl] at hr hn hb
    simp only [List.head?_cons, findByName]
    rw [bound_bind]
    exact findLoop_run hr hn t [] h _ rfl (by simp at hb; omega)

theorem attrLength_run (hI : Inv s ls) (he : s.elems e = some el) :
    attrLength el.attributes s = .ok s (u32 (ls e).length) := by
  rw [hI.head he]
  have hr := hI.ring e
  have hn := hI.nodup e
  have hb := hI.short e
  cases hl : ls e with
  | nil => rfl
  | cons h t =>
    rw [hl] at hr hn hb
    simp only [List.head?_cons, attrLength]
    rw [bound_bind, lengthLoop_run hr hn t [] h _ 0 rfl (by simp at hb; omega)]
    congr 2
    simp; omega

theorem getByIndex_run (hI : Inv s ls) (he : s.elems e = some el) {i : Nat} (hi : i < 4294967295) :
    getByIndex el.attributes (i + 1) s = .ok s ((ls e)[i]?) := by
  rw [hI.head he]
  have hr := hI.ring e
  have hn := hI.nodup e
  have hb := hI.short e
  cases hl : ls e with
  | nil => rfl
  | cons h t =>
    rw [hl] at hr hn hb
    simp only [List.head?_cons, getByIndex]
    rw [bound_bind, indexLoop_run hr hn t [] h _ i rfl (by simp at hb; omega) hi]

theorem setA_self (h : s.attrs a = some n) : s.setA a n = s := by
  unfold Mem.setA
  congr 1
  funext j
  by_cases hj : j = a
  · subst hj; simp [h]
  · simp [hj]

theorem setA_setA (n' : ANode) : (s.setA a n).setA a n' = s.setA a n' := by
  unfold Mem.setA
  congr 1
  funext j
  by_cases hj : j = a <;> simp [hj]

/-! ## Values -/

/-- Reading a value gives an unset attribute with children the type string. -/
def settle (n : ANode) : ANode :=
  match n.kids with
  | [.text (some _)] => n
  | kids => if n.type = .unset ∧ kids ≠ [] then { n with type := .string } else n

theorem settle_fields : (settle n).parent = n.parent ∧ (settle n).kids = n.kids ∧ (settle n).owner = n.owner ∧ (settle n).refcnt = n.refcnt ∧
    (settle n).name = n.name ∧ (settle n).ns = n.ns ∧ (settle n).pfx = n.pfx ∧ (settle n).readOnly = n.readOnly ∧
    (settle n).raw = n.raw ∧ (settle n).typed = n.typed := by
  unfold settle
  split
  · simp
  · split
    · rename_i h; simp [ANode.typed, h.1]
    · simp

theorem kidsValue_run (kids : List Kid) : ∀ v : DStr, (match joinKids kids with
    | some b => ∃ u, kidsValue kids v = .ok u ∧ u.data = v.data ++ b
    | none => kidsValue kids v = .exc .notSupported) := by
  induction kids with
  | nil => intro v; exact ⟨v, rfl, by simp⟩
  | cons k r ih =>
    intro v
    cases k with
    | entityRef => rfl
    | text t =>
      cases t with
      | none =>
        have := ih v
        simp only [joinKids]
        cases hj : joinKids r with
        | none => rw [hj] at this; exact this
        | some b => 
          rw [hj] at this
          obtain ⟨u, h1, h2⟩ := this
          exact ⟨u, h1, by rw [h2]; simp [contents]⟩
      | some t =>
        have := ih (Str.create (v.data ++ t.data))
        simp only [joinKids]
        cases hj : joinKids r with
        | none => rw [hj] at this; exact this
        | some b =>
          rw [hj] at this
          obtain ⟨u, h1, h2⟩ := this
          exact ⟨u, h1, by rw [h2]; simp [contents, Str.create]⟩

theorem liftOut_ok {α : Type} {o : Out α} {r : α} (h : o = .ok r) : liftOut o s = .ok s r := by subst h; rfl
theorem liftOut_exc {α : Type} {o : Out α} {r : Exc} (h : o = .exc r) : liftOut o s = .exc s r := by subst h; rfl

theorem getValue_single {v : DStr} (h : s.attrs a = some n) (hk : n.kids = [.text (some v)]) :
    getValue a s = .ok s v ∧ valueOf n = some v.data ∧ settle n = n := by
  unfold getValue valueOf settle
  rw [getANode_bind h]
  simp only [hk]
  exact ⟨rfl, trivial, trivial⟩

theorem valueOf_other (hk : ∀ v, n.kids ≠ [.text (some v)]) : valueOf n = if n.typed then some [] else joinKids n.kids := by
  unfold valueOf
  split
  · exact absurd ‹_› (hk _)
  · rfl

theorem settle_other (hk : ∀ v, n.kids ≠ [.text (some v)]) : settle n = if n.type = .unset ∧ n.kids ≠ [] then { n with type := .string } else n := by
  unfold settle
  split
  · exact absurd ‹_› (hk _)
  · rfl

theorem getValue_other (h : s.attrs a = some n) (hk : ∀ v, n.kids ≠ [.text (some v)]) : getValue a s =
    (do let m ← getANode a
        if m.type ≠ .string then pure Str.emptyString else liftOut (kidsValue n.kids Str.emptyString) : M DStr) (s.setA a (settle n)) := by
  unfold getValue
  rw [getANode_bind h, settle_other hk]
  generalize hkk : n.kids = kk
  rw [hkk] at hk
  split
  · exact absurd rfl (hk _)
  · by_cases hu : n.type = .unset ∧ kk ≠ []
    · simp only [if_pos hu]
      rw [modANode_bind h, hkk]
    · simp only [if_neg hu]
      rw [pure_bind', setA_self h]

theorem getValue_run (h : s.attrs a = some n) : match valueOf n with
    | some b => ∃ v, getValue a s = .ok (s.setA a (settle n)) v ∧ v.data = b
    | none => getValue a s = .exc (s.setA a (settle n)) .notSupported := by
  by_cases hs : ∃ v, n.kids = [.text (some v)]
  · obtain ⟨v, hk⟩ := hs
    obtain ⟨h1, h2, h3⟩ := getValue_single h hk
    rw [h2, h3, setA_self h]
    exact ⟨v, h1, rfl⟩
  · have hk : ∀ v, n.kids ≠ [.text (some v)] := fun v hv => hs ⟨v, hv⟩
    rw [getValue_other h hk, valueOf_other hk, getANode_bind (n := settle n) (by simp)]
    generalize hw : s.setA a (settle n) = w
    have hkv := kidsValue_run n.kids Str.emptyString
    by_cases hst : n.type = .string ∨ (n.type = .unset ∧ n.kids ≠ [])
    · have hty : (settle n).type = AType.string := by
        rw [settle_other hk]
        rcases hst with h1 | h1
        · simp [h1]
        · rw [if_pos h1]
      have ht : n.typed = false := by
        rcases hst with h1 | h1
        · simp [ANode.typed, h1]
        · simp [ANode.typed, h1.1]
      simp only [hty, ht, ne_eq, not_true_eq_false, if_false, Bool.false_eq_true]
      cases hj : joinKids n.kids with
      | none => rw [hj] at hkv; exact liftOut_exc hkv
      | some b =>
        rw [hj] at hkv
        obtain ⟨u, h1, h2⟩ := hkv
        exact ⟨u, liftOut_ok h1, by simpa [Str.emptyString] using h2⟩
    · have hnu : ¬ (n.type = .unset ∧ n.kids ≠ []) := fun h => hst (Or.inr h)
      have hns : n.type ≠ .string := fun h => hst (Or.inl h)
      have hse : settle n = n := by rw [settle_other hk, if_neg hnu]
      rw [hse, if_pos hns]
      have hv : (if n.typed = true then some [] else joinKids n.kids) = some [] := by
        cases ht : n.type with
        | unset =>
          have : n.kids = [] := by
            by_contra hne; exact hnu ⟨ht, hne⟩
          simp [this, joinKids]
        | string => exact absurd ht hns
        | integer => simp [ANode.typed, ht]
        | short => simp [ANode.typed, ht]
        | bool => simp [ANode.typed, ht]
      rw [hv]
      exact ⟨Str.emptyString, rfl, rfl⟩

/-- The value before a change, as the events report it. -/
theorem oldValue_run (h : s.attrs a = some n) : ∃ v : Option DStr, oldValue a s = .ok (s.setA a (settle n)) v ∧
    v.map DStr.data = valueOf n := by
  have := getValue_run h
  unfold oldValue
  cases hv : valueOf n with
  | none =>
    rw [hv] at this
    rw [bind_ok (attempt_exc this)]
    exact ⟨none, rfl, rfl⟩
  | some b =>
    rw [hv] at this
    obtain ⟨v, h1, h2⟩ := this
    rw [bind_ok (attempt_ok h1)]
    exact ⟨some v, rfl, by simp [h2]⟩

end
end Dom.Attr
