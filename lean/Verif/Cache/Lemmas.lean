import Verif.Cache.Model
import Verif.Str.PropsEq
import Mathlib.Algebra.BigOperators.Group.Finset.Basic
import Mathlib.Algebra.BigOperators.Intervals
import Mathlib.Tactic.Ring
/-!
# The active node lists: well-formed memory and what the calls do to it
-/
set_option linter.unusedSimpArgs false
set_option linter.unusedVariables false
namespace Dom.Cache

open Dom.Str (DStr)
open Dom.Tree (NodeId)

section
variable {β : Type} {f : Nat → β} {a b : Nat} {v : β}

theorem upd_same : upd f a v a = v := if_pos rfl
theorem upd_ne (h : b ≠ a) : upd f a v b = f b := if_neg h
theorem upd_eq (b : Nat) : upd f a v b = if b = a then v else f b := rfl
end

/-! ## Doubly linked lists -/

/-- From `h` on the cells are `l`, linked both ways; before the first comes `p`. -/
def DLL (cells : Addr → Option Cell) : Option Addr → Option Addr → List Addr → Prop
  | _, h, [] => h = none
  | p, h, c :: l => h = some c ∧ ∃ x n, cells c = some { list := x, prev := p, next := n } ∧ DLL cells (some c) n l

variable {cells cells' : Addr → Option Cell} {p h : Option Addr} {l pre suf : List Addr} {c : Addr} {x : Cell}

theorem DLL.congr (hd : DLL cells p h l) (he : ∀ y ∈ l, cells' y = cells y) : DLL cells' p h l := by
  induction l generalizing p h with
  | nil => exact hd
  | cons y l ih =>
    obtain ⟨h1, u, n, h2, h3⟩ := hd
    exact ⟨h1, u, n, by rw [he y List.mem_cons_self]; exact h2, ih h3 fun z hz => he z (List.mem_cons_of_mem _ hz)⟩

theorem DLL.alive (hd : DLL cells p h l) (hc : c ∈ l) : ∃ x, cells c = some x := by
  induction l generalizing p h with
  | nil => cases hc
  | cons y l ih =>
    obtain ⟨h1, u, n, h2, h3⟩ := hd
    rcases List.mem_cons.1 hc with rfl | hc
    · exact ⟨_, h2⟩
    · exact ih h3 hc

theorem DLL.head (hd : DLL cells p h l) : h = l.head? := by
  cases l with
  | nil => exact hd
  | cons y l => exact hd.1

/-- Neighbours of a cell. -/
theorem DLL.at (hd : DLL cells p h (pre ++ c :: suf)) : ∃ u, cells c = some { list := u, prev := pre.getLast?.or p, next := suf.head? } := by
  induction pre generalizing p h with
  | nil =>
    obtain ⟨h1, u, n, h2, h3⟩ := hd
    exact ⟨u, by rw [h2, h3.head]; rfl⟩
  | cons y pre ih =>
    obtain ⟨h1, u, n, h2, h3⟩ := hd
    obtain ⟨u', h4⟩ := ih h3
    refine ⟨u', h4.trans ?_⟩
    cases pre with
    | nil => rfl
    | cons z pre =>
      rw [List.getLast?_cons_cons]
      cases hl : (z :: pre).getLast? with
      | none => simp at hl
      | some b => rfl

/-- What taking a cell out does to the cells. -/
def unlinked (cells : Addr → Option Cell) (c : Addr) (x : Cell) : Addr → Option Cell := fun y =>
  if y = c then none
  else (cells y).map fun z => { list := z.list, prev := if x.next = some y then x.prev else z.prev, next := if x.prev = some y then x.next else z.next }

theorem DLL.unlink_suf (hd : DLL cells (some c) x.next suf) (hn : (c :: suf).Nodup) (hp : ∀ y ∈ suf, x.prev ≠ some y) :
    DLL (unlinked cells c x) x.prev x.next suf := by
  cases suf with
  | nil => exact hd
  | cons m suf =>
    obtain ⟨h1, u, n, h2, h3⟩ := hd
    rw [List.nodup_cons, List.nodup_cons] at hn
    refine ⟨h1, u, n, ?_, h3.congr fun y hy => ?_⟩
    · have : m ≠ c := fun e => hn.1 (e ▸ List.mem_cons_self)
      simp [unlinked, this, h2, h1, hp m List.mem_cons_self]
    · have h5 : y ≠ c := fun e => hn.1 (e ▸ List.mem_cons_of_mem _ hy)
      have h6 : m ≠ y := fun e => hn.2.1 (e ▸ hy)
      have h7 := hp y (List.mem_cons_of_mem _ hy)
      unfold unlinked
      rw [if_neg h5]
      cases cells y with
      | none => rfl
      | some z => simp [h1, h6, h7]

theorem DLL.unlink (hd : DLL cells p h (pre ++ c :: suf)) (hn : (pre ++ c :: suf).Nodup) (hc : cells c = some x)
    (hp : ∀ y ∈ pre ++ c :: suf, p ≠ some y) :
    DLL (unlinked cells c x) p (if pre = [] then x.next else h) (pre ++ suf) := by
  induction pre generalizing p h with
  | nil =>
    obtain ⟨h1, u, n, h2, h3⟩ := hd
    rw [hc] at h2; injection h2 with h2
    have e1 : x.prev = p := by rw [h2]
    have e2 : x.next = n := by rw [h2]
    rw [if_pos rfl, ← e1]
    rw [← e2] at h3
    exact h3.unlink_suf hn fun y hy => e1 ▸ hp y (List.mem_cons_of_mem _ hy)
  | cons a pre ih =>
    obtain ⟨u', h4⟩ := DLL.at hd
    obtain ⟨h1, u, n, h2, h3⟩ := hd
    rw [hc] at h4; injection h4 with h4
    have hn' := hn
    rw [List.cons_append, List.nodup_cons] at hn
    have := ih h3 hn.2 (fun y hy e => hn.1 (by injection e with e; rw [e]; exact hy))
    rw [if_neg (by simp)]
    have hac : a ≠ c := fun e => hn.1 (e ▸ by simp)
    have e1 : x.next ≠ some a := by
      rw [h4]
      intro e
      exact hn.1 (by simp [List.mem_of_head? e])
    refine ⟨h1, u, (if pre = [] then x.next else n), ?_, this⟩
    unfold unlinked
    rw [if_neg hac, h2, Option.map_some, if_neg e1]
    have e2 : (x.prev = some a) ↔ pre = [] := by
      rw [h4]
      cases pre with
      | nil => simp
      | cons z pre =>
        have : (a :: z :: pre).getLast? = (z :: pre).getLast? := List.getLast?_cons_cons
        simp only [this]
        constructor
        · intro e
          exfalso
          have hm : (z :: pre).getLast? = some a := by
            cases hl : (z :: pre).getLast? with
            | none => simp at hl
            | some b => rw [hl] at e; exact e
          exact hn.1 (List.mem_append_left _ (List.mem_of_getLast? hm))
        · intro e; cases e
    by_cases hpre : pre = []
    · rw [if_pos hpre, if_pos (e2.2 hpre)]
    · rw [if_neg hpre, if_neg (fun e => hpre (e2.1 e))]

/-- Linking a new cell in front. -/
theorem DLL.push (hd : DLL cells none h l) (hc : c ∉ l) {u : Addr} (hnew : cells' c = some { list := u, prev := none, next := h })
    (hold : ∀ y ∈ l, cells' y = (cells y).map fun z => if h = some y then { z with prev := some c } else z) (hn : l.Nodup) : DLL cells' none (some c) (c :: l) := by
  refine ⟨rfl, u, h, hnew, ?_⟩
  cases l with
  | nil => exact hd
  | cons m l =>
    obtain ⟨h1, v, n, h2, h3⟩ := hd
    rw [List.nodup_cons] at hn
    refine ⟨h1, v, n, ?_, h3.congr fun y hy => ?_⟩
    · rw [hold m List.mem_cons_self, h2, h1]; simp
    · rw [hold y (List.mem_cons_of_mem _ hy), h1]
      have : m ≠ y := fun e => hn.1 (e ▸ hy)
      simp [this]

/-! ## Well-formed memory -/

/-- The references one list holds on a node: one on its document and one on its root. -/
def holds (o : Option NList) (n : NodeId) : Int :=
  match o with
  | none => 0
  | some l => (if l.owner = n then 1 else 0) + (if l.root = n then 1 else 0)

/-- The references all lists hold on a node. -/
def total (s : Mem) (n : NodeId) : Int := ∑ i ∈ Finset.range s.fresh, holds (s.lists i) n

/-- The cells `cs` of each document are well linked and hold exactly the lists of the document, each once; no two lists of a document are the same
request; `held` is the number of references of the callers. -/
structure Inv (s : Mem) (cs : NodeId → List Addr) (held : Addr → Nat) : Prop where
  dll : ∀ d, DLL s.cells none (s.heads d) (cs d)
  nodup : ∀ d, (cs d).Nodup
  cell : ∀ d c, c ∈ cs d → ∃ x l, s.cells c = some x ∧ s.lists x.list = some l ∧ l.owner = d
  live : ∀ a l, s.lists a = some l → ∃ c x, c ∈ cs l.owner ∧ s.cells c = some x ∧ x.list = a
  inj : ∀ d c c' x x', c ∈ cs d → c' ∈ cs d → s.cells c = some x → s.cells c' = some x' → x.list = x'.list → c = c'
  apart : ∀ a b l m, s.lists a = some l → s.lists b = some m → l.owner = m.owner → listMatch l m.type m.root m.name m.ns m.lname = true → a = b
  count : ∀ a l, s.lists a = some l → l.refcnt = held a ∧ 0 < held a ∧ held a < 4294967296
  gone : ∀ a, s.lists a = none → held a = 0
  named : ∀ a l, s.lists a = some l → nameGone l = false
  bndC : ∀ c x, s.cells c = some x → c < s.fresh
  bndL : ∀ a l, s.lists a = some l → a < s.fresh
  refs : ∀ n, s.refs n = total s n
  owned : ∀ c x, s.cells c = some x → ∃ d, c ∈ cs d

theorem empty_inv : Inv Mem.empty (fun _ => []) (fun _ => 0) := by
  constructor <;> simp [Mem.empty, DLL, total]

variable {s s' : Mem} {cs : NodeId → List Addr} {held : Addr → Nat} {a b : Addr} {d root : NodeId} {t : LType} {tag ns lname : Option DStr} {nl m : NList}

theorem Inv.length (hI : Inv s cs held) (d : NodeId) : (cs d).length ≤ s.fresh := by
  have h : (cs d) ⊆ List.range s.fresh := by
    intro c hc
    obtain ⟨x, l, h1, _⟩ := hI.cell d c hc
    exact List.mem_range.2 (hI.bndC c x h1)
  have := (hI.nodup d).subperm h
  simpa using this.length_le

/-- Whether the list of a cell is the one asked for. -/
def cellMatch (s : Mem) (t : LType) (root : NodeId) (tag ns lname : Option DStr) (c : Addr) : Bool :=
  (s.cells c).any fun x => (s.lists x.list).any fun l => listMatch l t root tag ns lname

theorem findLoop_run {l : List Addr} {p h : Option Addr} (hd : DLL s.cells p h l) (hl : ∀ c ∈ l, ∃ x l, s.cells c = some x ∧ s.lists x.list = some l) :
    ∀ k, l.length < k → findLoop s t root tag ns lname k h = .ok (l.find? (cellMatch s t root tag ns lname)) := by
  induction l generalizing p h with
  | nil =>
    intro k hk
    cases k with
    | zero => cases hk
    | succ k => rw [show h = none from hd]; rfl
  | cons c l ih =>
    intro k hk
    cases k with
    | zero => cases hk
    | succ k =>
      obtain ⟨h1, u, n, h2, h3⟩ := hd
      obtain ⟨x, y, hx, hy⟩ := hl c List.mem_cons_self
      rw [h2] at hx; cases hx
      dsimp only at hy
      rw [h1]
      unfold findLoop
      simp only [rdCell, h2, rdList, hy, Out.bind_ok]
      have e : cellMatch s t root tag ns lname c = listMatch y t root tag ns lname := by simp [cellMatch, h2, hy]
      cases hm : listMatch y t root tag ns lname with
      | true => rw [if_pos rfl, List.find?_cons_of_pos (by rw [e, hm])]
      | false =>
        rw [if_neg (by simp), List.find?_cons_of_neg (by rw [e, hm]; simp)]
        exact ih h3 (fun z hz => hl z (List.mem_cons_of_mem _ hz)) k (by simpa using hk)

theorem removeLoop_run {l : List Addr} {p h : Option Addr} (hd : DLL s.cells p h l) (a : Addr) :
    ∀ k, l.length < k → removeLoop s a k h = .ok (l.find? fun c => (s.cells c).any fun x => x.list = a) := by
  induction l generalizing p h with
  | nil =>
    intro k hk
    cases k with
    | zero => cases hk
    | succ k => rw [show h = none from hd]; rfl
  | cons c l ih =>
    intro k hk
    cases k with
    | zero => cases hk
    | succ k =>
      obtain ⟨h1, u, n, h2, h3⟩ := hd
      rw [h1]
      unfold removeLoop
      simp only [rdCell, h2, Out.bind_ok]
      by_cases hm : u = a
      · rw [if_pos hm, List.find?_cons_of_pos (by simp [h2, hm])]
      · rw [if_neg hm, List.find?_cons_of_neg (by simp [h2, hm])]
        exact ih h3 k (by simpa using hk)

/-! ## Matching -/

theorem listMatch_iff : listMatch nl t root tag ns lname = true ↔ nl.root = root ∧ nl.type = t ∧
    (match t with
     | .children => True
     | .byName => Str.isEqual nl.name tag = true
     | .byNs => Str.isEqual nl.ns ns = true ∧ Str.isEqual nl.lname lname = true
     | .byNameCaseless => Str.caselessIsEqual nl.name tag = true
     | .byNsCaseless => Str.caselessIsEqual nl.ns ns = true ∧ Str.caselessIsEqual nl.lname lname = true) := by
  unfold listMatch
  by_cases h1 : nl.root = root
  · by_cases h2 : nl.type = t
    · subst h2
      cases nl.type <;> simp [h1]
    · simp [h1, h2]
  · simp [h1]

theorem isEqual_symm {x y : Option DStr} (h : Str.isEqual x y = true) : Str.isEqual y x = true := by
  rw [Str.C06_isEqual_iff] at *; exact h.symm

theorem caseless_symm {x y : Option DStr} (h : Str.caselessIsEqual x y = true) : Str.caselessIsEqual y x = true := by
  rw [Str.C06_caseless_iff] at *; exact h.symm

theorem isEqual_trans {x y z : Option DStr} (h : Str.isEqual x y = true) (h' : Str.isEqual y z = true) : Str.isEqual x z = true := by
  rw [Str.C06_isEqual_iff] at *; exact h.trans h'

theorem caseless_trans {x y z : Option DStr} (h : Str.caselessIsEqual x y = true) (h' : Str.caselessIsEqual y z = true) : Str.caselessIsEqual x z = true := by
  rw [Str.C06_caseless_iff] at *; exact h.trans h'

/-- The match of two requests does not depend on their order. -/
theorem match_symm (h : listMatch nl m.type m.root m.name m.ns m.lname = true) : listMatch m nl.type nl.root nl.name nl.ns nl.lname = true := by
  rw [listMatch_iff] at *
  obtain ⟨h1, h2, h3⟩ := h
  refine ⟨h1.symm, h2.symm, ?_⟩
  rw [h2]
  generalize m.type = t at h3 ⊢
  cases t <;> simp_all only
  · exact isEqual_symm h3
  · exact ⟨isEqual_symm h3.1, isEqual_symm h3.2⟩
  · exact caseless_symm h3
  · exact ⟨caseless_symm h3.1, caseless_symm h3.2⟩

/-- Two lists that match one request match each other. -/
theorem match_both (h : listMatch nl t root tag ns lname = true) (h' : listMatch m t root tag ns lname = true) :
    listMatch nl m.type m.root m.name m.ns m.lname = true := by
  rw [listMatch_iff] at *
  obtain ⟨h1, h2, h3⟩ := h
  obtain ⟨h1', h2', h3'⟩ := h'
  refine ⟨h1.trans h1'.symm, h2.trans h2'.symm, ?_⟩
  rw [h2']
  cases t <;> simp_all only
  · exact isEqual_trans h3 (isEqual_symm h3')
  · exact ⟨isEqual_trans h3.1 (isEqual_symm h3'.1), isEqual_trans h3.2 (isEqual_symm h3'.2)⟩
  · exact caseless_trans h3 (caseless_symm h3')
  · exact ⟨caseless_trans h3.1 (caseless_symm h3'.1), caseless_trans h3.2 (caseless_symm h3'.2)⟩

/-- The list of a document that a request finds, if there is one. -/
theorem find_cases (hI : Inv s cs held) (d : NodeId) (t : LType) (root : NodeId) (tag ns lname : Option DStr) :
    (∃ c x l, findLoop s t root tag ns lname (s.fresh + 1) (s.heads d) = .ok (some c) ∧ c ∈ cs d ∧ s.cells c = some x ∧ s.lists x.list = some l ∧ l.owner = d ∧
      listMatch l t root tag ns lname = true) ∨
    (findLoop s t root tag ns lname (s.fresh + 1) (s.heads d) = .ok none ∧
      ∀ a l, s.lists a = some l → l.owner = d → listMatch l t root tag ns lname = false) := by
  rw [findLoop_run (hI.dll d) (fun c hc => by obtain ⟨x, l, h1, h2, _⟩ := hI.cell d c hc; exact ⟨x, l, h1, h2⟩) _ (Nat.lt_succ_of_le (hI.length d))]
  cases hf : (cs d).find? (cellMatch s t root tag ns lname) with
  | some c =>
    left
    have hm := List.mem_of_find?_eq_some hf
    obtain ⟨x, l, h1, h2, h3⟩ := hI.cell d c hm
    refine ⟨c, x, l, rfl, hm, h1, h2, h3, ?_⟩
    have := List.find?_some hf
    simpa [cellMatch, h1, h2] using this
  | none =>
    right
    refine ⟨rfl, fun a l hl ho => ?_⟩
    obtain ⟨c, x, h1, h2, h3⟩ := hI.live a l hl
    rw [ho] at h1
    have := List.find?_eq_none.1 hf c h1
    rw [← h3] at hl
    simpa [cellMatch, h2, hl] using this

end Dom.Cache
