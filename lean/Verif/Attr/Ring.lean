import Verif.Attr.Model
import Mathlib.Data.List.Chain
import Mathlib.Data.List.Nodup
/-!
# The circular list of cells and the steps on memory
-/
namespace Dom.Attr
set_option linter.unusedSimpArgs false

open Dom.Str (DStr Bytes)

/-! ## Memory updates -/

/-- Replace an attribute node. -/
def Mem.setA (s : Mem) (a : Addr) (n : ANode) : Mem := { s with attrs := fun j => if j = a then some n else s.attrs j }
/-- Replace a cell. -/
def Mem.setC (s : Mem) (c : Addr) (x : Cell) : Mem := { s with cells := fun j => if j = c then some x else s.cells j }
/-- Replace an element. -/
def Mem.setE (s : Mem) (e : Addr) (x : Elem) : Mem := { s with elems := fun j => if j = e then some x else s.elems j }
/-- Raise events. -/
def Mem.addLog (s : Mem) (l : List Ev) : Mem := { s with log := s.log ++ l }

section
variable {s : Mem} {a c e j : Addr} {n : ANode} {x : Cell} {el : Elem} {α β : Type}

@[simp] theorem setA_attrs : (s.setA a n).attrs j = if j = a then some n else s.attrs j := rfl
@[simp] theorem setA_cells : (s.setA a n).cells = s.cells := rfl
@[simp] theorem setA_elems : (s.setA a n).elems = s.elems := rfl
@[simp] theorem setA_fresh : (s.setA a n).fresh = s.fresh := rfl
@[simp] theorem setA_log : (s.setA a n).log = s.log := rfl
@[simp] theorem setA_quirks : (s.setA a n).quirks = s.quirks := rfl
@[simp] theorem setC_cells : (s.setC c x).cells j = if j = c then some x else s.cells j := rfl
@[simp] theorem setC_attrs : (s.setC c x).attrs = s.attrs := rfl
@[simp] theorem setC_elems : (s.setC c x).elems = s.elems := rfl
@[simp] theorem setC_fresh : (s.setC c x).fresh = s.fresh := rfl
@[simp] theorem setE_elems : (s.setE e el).elems j = if j = e then some el else s.elems j := rfl
@[simp] theorem setE_attrs : (s.setE e el).attrs = s.attrs := rfl
@[simp] theorem setE_cells : (s.setE e el).cells = s.cells := rfl
@[simp] theorem setE_fresh : (s.setE e el).fresh = s.fresh := rfl
@[simp] theorem addLog_attrs (l) : (s.addLog l).attrs = s.attrs := rfl
@[simp] theorem addLog_cells (l) : (s.addLog l).cells = s.cells := rfl
@[simp] theorem addLog_elems (l) : (s.addLog l).elems = s.elems := rfl
@[simp] theorem addLog_fresh (l) : (s.addLog l).fresh = s.fresh := rfl

theorem pure_run (r : α) : (pure r : M α) s = .ok s r := rfl
theorem bind_run (m : M α) (f : α → M β) (s : Mem) : (m >>= f) s = match m s with
    | .ok s' r => f r s' | .exc s' e => .exc s' e | .fault g => .fault g := rfl
theorem bind_ok {m : M α} {s' : Mem} {r : α} (h : m s = .ok s' r) (f : α → M β) : (m >>= f) s = f r s' := by
  rw [bind_run, h]
theorem bind_exc {m : M α} {s' : Mem} {e : Exc} (h : m s = .exc s' e) (f : α → M β) : (m >>= f) s = .exc s' e := by
  rw [bind_run, h]
theorem bind_fault {m : M α} {g : Fault} (h : m s = .fault g) (f : α → M β) : (m >>= f) s = .fault g := by
  rw [bind_run, h]

theorem getCell_bind (h : s.cells c = some x) (f : Cell → M β) : (getCell c >>= f) s = f x s := by
  rw [bind_run, getCell, h]
theorem modCell_run (h : s.cells c = some x) (f : Cell → Cell) : modCell c f s = .ok (s.setC c (f x)) () := by
  rw [modCell, h]; rfl
theorem modCell_bind (h : s.cells c = some x) (g : Cell → Cell) (f : Unit → M β) :
    (modCell c g >>= f) s = f () (s.setC c (g x)) := by rw [bind_ok (modCell_run h g)]
theorem getANode_bind (h : s.attrs a = some n) (f : ANode → M β) : (getANode a >>= f) s = f n s := by
  rw [bind_run, getANode, h]
theorem modANode_run (h : s.attrs a = some n) (f : ANode → ANode) : modANode a f s = .ok (s.setA a (f n)) () := by
  rw [modANode, h]; rfl
theorem modANode_bind (h : s.attrs a = some n) (g : ANode → ANode) (f : Unit → M β) :
    (modANode a g >>= f) s = f () (s.setA a (g n)) := by rw [bind_ok (modANode_run h g)]
theorem getElem_bind (h : s.elems e = some el) (f : Elem → M β) : (getElem e >>= f) s = f el s := by
  rw [bind_run, getElem, h]
theorem modElem_run (h : s.elems e = some el) (f : Elem → Elem) : modElem e f s = .ok (s.setE e (f el)) () := by
  rw [modElem, h]; rfl
theorem modElem_bind (h : s.elems e = some el) (g : Elem → Elem) (f : Unit → M β) :
    (modElem e g >>= f) s = f () (s.setE e (g el)) := by rw [bind_ok (modElem_run h g)]
theorem fire_bind (ev : Ev) (f : Unit → M β) : (fire ev >>= f) s = f () (s.addLog [ev]) := rfl
theorem fire_run (ev : Ev) : fire ev s = .ok (s.addLog [ev]) () := rfl
theorem bound_bind (f : Nat → M β) : (bound >>= f) s = f (s.fresh + 1) s := rfl
theorem deref_bind (i : Addr) (f : Addr → M β) : (deref (some i) >>= f) s = f i s := rfl
theorem pure_bind' (r : α) (f : α → M β) : ((pure r : M α) >>= f) s = f r s := rfl
theorem throwIf_false (er : Exc) (f : Unit → M β) : (throwIf false er >>= f) s = f () s := rfl
theorem throwIf_true (er : Exc) (f : Unit → M β) : (throwIf true er >>= f) s = .exc s er := rfl
theorem attempt_ok {m : M α} {s' : Mem} {r : α} (h : m s = .ok s' r) : M.attempt m s = .ok s' (.ok r) := by
  rw [M.attempt, h]
theorem attempt_exc {m : M α} {s' : Mem} {er : Exc} (h : m s = .exc s' er) : M.attempt m s = .ok s' (.error er) := by
  rw [M.attempt, h]

end

/-! ## Rings -/

/-- `x` and `y` are neighbours: `x.next` is `y` and `y.prev` is `x`. -/
def Link (s : Mem) (x y : Addr) : Prop := (∃ c, s.cells x = some c ∧ c.next = y) ∧ (∃ d, s.cells y = some d ∧ d.prev = x)

/-- The cells of `l` form a circular list in this order. -/
def Ring (s : Mem) : List Addr → Prop
  | [] => True
  | h :: t => List.IsChain (Link s) (h :: (t ++ [h]))

/-- An attribute as the list of an element shows it: its node, and the key it is listed under. -/
structure Entry where
  attr : Addr
  name : DStr
  ns : Option DStr
  deriving DecidableEq, Repr

/-- What a cell carries. -/
def Cell.pay (x : Cell) : Entry := { attr := x.attr, name := x.name, ns := x.ns }

section
variable {s s' : Mem} {h c : Addr} {t l r a b : List Addr} {x : Cell}

theorem Ring.rel (hr : Ring s (h :: t)) {a b : List Addr} {x y : Addr} (he : h :: (t ++ [h]) = a ++ x :: y :: b) : Link s x y :=
  (List.isChain_iff_forall_rel_of_append_cons_cons.1 hr) he

/-- A ring may be read from any of its cells. -/
theorem Ring.rotate (hr : Ring s (a ++ b)) : Ring s (b ++ a) := by
  cases a with
  | nil => simpa using hr
  | cons h t =>
    cases b with
    | nil => simpa using hr
    | cons k u =>
      have h1 : List.IsChain (Link s) ((h :: t) ++ k :: (u ++ [h])) := by simpa [Ring] using hr
      have h2 := (List.isChain_split (R := Link s) (l₁ := h :: t) (l₂ := u ++ [h]) (c := k)).1 h1
      have h3 : List.IsChain (Link s) ((k :: u) ++ h :: (t ++ [k])) := by
        refine List.isChain_split.2 ⟨by simpa using h2.2, by simpa using h2.1⟩
      simpa [Ring] using h3

theorem Ring.alive (hr : Ring s l) (hc : c ∈ l) : ∃ x, s.cells c = some x := by
  obtain ⟨a, b, rfl⟩ := List.append_of_mem hc
  have h1 : Ring s (c :: (b ++ a)) := by simpa using hr.rotate
  cases hba : b ++ a with
  | nil =>
    rw [hba] at h1
    obtain ⟨⟨x, hx, _⟩, _⟩ := h1.rel (a := []) (x := c) (y := c) (b := []) rfl
    exact ⟨x, hx⟩
  | cons k u =>
    rw [hba] at h1
    obtain ⟨⟨x, hx, _⟩, _⟩ := h1.rel (a := []) (x := c) (y := k) (b := u ++ [c]) rfl
    exact ⟨x, hx⟩

/-- Next and previous cell of the first one of a ring. -/
theorem Ring.first (hr : Ring s (c :: r)) : ∃ x, s.cells c = some x ∧ x.next = (r ++ [c]).head (by simp) ∧
    x.prev = (c :: r).getLast (by simp) := by
  have h1 : ∃ x, s.cells c = some x ∧ x.next = (r ++ [c]).head (by simp) := by
    cases r with
    | nil => exact (hr.rel (a := []) (x := c) (y := c) (b := []) rfl).1
    | cons k u => exact (hr.rel (a := []) (x := c) (y := k) (b := u ++ [c]) rfl).1
  have h2 : ∃ x, s.cells c = some x ∧ x.prev = (c :: r).getLast (by simp) := by
    have := List.dropLast_append_getLast (l := c :: r) (by simp)
    refine (hr.rel (a := (c :: r).dropLast) (x := (c :: r).getLast (by simp)) (y := c) (b := []) ?_).2
    rw [← List.cons_append]
    conv_lhs => rw [← this]
    simp
  obtain ⟨x, hx, h1⟩ := h1
  obtain ⟨y, hy, h2⟩ := h2
  rw [hx] at hy; cases hy
  exact ⟨x, hx, h1, h2⟩

theorem Ring.congr (hr : Ring s l) (h : ∀ c ∈ l, s'.cells c = s.cells c) : Ring s' l := by
  cases l with
  | nil => trivial
  | cons k t =>
    refine List.isChain_iff_forall_rel_of_append_cons_cons.2 ?_
    intro x y a b he
    have hmem : ∀ z ∈ k :: (t ++ [k]), z ∈ k :: t := by intro z hz; simp at hz ⊢; tauto
    obtain ⟨⟨u, h1, h2⟩, ⟨v, h3, h4⟩⟩ := Ring.rel hr he
    have hx : x ∈ k :: t := hmem x (by rw [he]; simp)
    have hy : y ∈ k :: t := hmem y (by rw [he]; simp)
    exact ⟨⟨u, by rw [h x hx, h1], h2⟩, ⟨v, by rw [h y hy, h3], h4⟩⟩

/-- `list_del` takes the cell out of the ring: the others form a ring in the same order. -/
theorem unlink_run (hr : Ring s (c :: r)) (hn : (c :: r).Nodup) : ∃ s', unlink c s = .ok s' () ∧
    Ring s' r ∧ (∀ j, (s'.cells j).map Cell.pay = (s.cells j).map Cell.pay) ∧
    (∀ j, j ∉ c :: r → s'.cells j = s.cells j) ∧ (∃ f, s' = { s with cells := f }) := by
  obtain ⟨x, hx, hnext, hprev⟩ := hr.first
  cases r with
  | nil =>
    simp at hnext hprev
    refine ⟨{ s with cells := fun j => if j = c then some { x with prev := c, next := c } else s.cells j }, ?_, trivial, ?_, ?_, ⟨_, rfl⟩⟩
    · unfold unlink
      rw [getCell_bind hx, hprev, modCell_bind hx]
      rw [getCell_bind (x := { x with next := x.next }) (by simp)]
      simp only [hnext]
      rw [modCell_bind (x := { x with next := c }) (by simp)]
      rw [modCell_run (x := { x with next := c, prev := x.prev }) (by simp)]
      simp only [Mem.setC]
      congr 2
      funext j
      by_cases hj : j = c <;> simp [hj]
    · intro j
      by_cases hj : j = c
      · subst hj; simp [hx, Cell.pay]
      · simp [hj]
    · intro j hj
      have hj : j ≠ c := by simpa using hj
      simp [hj]
  | cons n u =>
    have hnc : n ≠ c := by rintro rfl; simp at hn
    simp only [List.cons_append, List.head_cons] at hnext
    obtain ⟨i, p, hip⟩ : ∃ i p, n :: u = i ++ [p] :=
      ⟨(n :: u).dropLast, (n :: u).getLast (by simp), (List.dropLast_append_getLast (by simp)).symm⟩
    have hprev : x.prev = p := by
      rw [hprev]
      simp [List.getLast_cons, hip]
    have hpc : p ≠ c := by
      rintro rfl
      rw [hip] at hn; simp at hn
    obtain ⟨xp, hxp⟩ := hr.alive (c := p) (by rw [hip]; simp)
    obtain ⟨xn, hxn⟩ := hr.alive (c := n) (by simp)
    let f : Addr → Option Cell := fun j => if j = c then some { x with prev := c, next := c } else
      (s.cells j).map fun z => { z with next := if j = p then n else z.next, prev := if j = n then p else z.prev }
    refine ⟨{ s with cells := f }, ?_, ?_, ?_, ?_, ⟨_, rfl⟩⟩
    · unfold unlink
      rw [getCell_bind hx, hprev, hnext, modCell_bind hxp, getCell_bind (x := x) (by simp [hpc.symm, hx]), hnext, hprev]
      by_cases hpn : p = n
      · subst hpn
        rw [hxp] at hxn; cases hxn
        rw [modCell_bind (x := { xp with next := p }) (by simp), modCell_run (x := x) (by simp [hpc.symm, hx])]
        simp only [Mem.setC]
        congr 2
        funext j
        simp only [f]
        by_cases h1 : j = c
        · simp [h1]
        · by_cases h2 : j = p
          · subst h2; simp [h1, hxp]
          · simp [h1, h2]
      · have hnp : n ≠ p := fun h => hpn h.symm
        rw [modCell_bind (x := xn) (by simp [hnp, hxn]), modCell_run (x := x) (by simp [hpc.symm, hnc.symm, hx])]
        simp only [Mem.setC]
        congr 2
        funext j
        simp only [f]
        by_cases h1 : j = c
        · simp [h1]
        · by_cases h2 : j = p
          · subst h2; simp [h1, hxp, hpn]
          · by_cases h3 : j = n
            · subst h3; simp [h1, h2, hxn]
            · simp [h1, h2, h3]
    · have hnd : (n :: u).Nodup := (List.nodup_cons.1 hn).2
      have hcn : c ∉ n :: u := (List.nodup_cons.1 hn).1
      refine List.isChain_iff_forall_rel_of_append_cons_cons.2 ?_
      intro y z l1 l2 he
      have hfl : ∀ j ∈ n :: u, f j = (s.cells j).map fun z => { z with next := if j = p then n else z.next, prev := if j = n then p else z.prev } := by
        intro j hj
        simp only [f]
        rw [if_neg (by rintro rfl; exact hcn hj)]
      rcases List.eq_nil_or_concat l2 with rfl | ⟨l3, q, rfl⟩
      · have he' : i ++ [p, n] = l1 ++ [y, z] := by
          rw [← he, ← List.cons_append, hip]; simp
        have := List.append_inj' he' rfl
        obtain ⟨_, h2⟩ := this
        simp at h2
        obtain ⟨rfl, rfl⟩ := h2
        refine ⟨⟨{ xp with next := n, prev := if p = n then p else xp.prev }, ?_, rfl⟩, ⟨{ xn with next := if n = p then n else xn.next, prev := p }, ?_, rfl⟩⟩
        · show f p = _
          rw [hfl p (by rw [hip]; simp), hxp]; simp
        · show f n = _
          rw [hfl n (by simp), hxn]; simp
      · have he' : (n :: u) ++ [n] = (l1 ++ y :: z :: l3) ++ [q] := by simpa using he
        obtain ⟨h1, h2⟩ := List.append_inj' he' rfl
        have hy : y ∈ n :: u := by rw [h1]; simp
        have hz : z ∈ n :: u := by rw [h1]; simp
        have hyp : y ≠ p := by
          rintro rfl
          rw [hip] at h1 hnd
          have h3 : i ++ [y] = (l1 ++ [y]) ++ (z :: l3) := by simpa using h1
          rcases List.eq_nil_or_concat (z :: l3) with h4 | ⟨l4, q', h4⟩
          · simp at h4
          · rw [h4] at h3
            have h5 : i = (l1 ++ [y]) ++ l4 := by
              have := List.append_inj' (s₁ := i) (t₁ := [y]) (s₂ := (l1 ++ [y]) ++ l4) (t₂ := [q']) (by simpa using h3) rfl
              exact this.1
            rw [h5] at hnd
            have := (List.nodup_append.1 hnd).2.2 y (by simp) y (by simp)
            exact this rfl
        have hzn : z ≠ n := by
          rintro rfl
          cases l1 with
          | nil =>
            simp at h1
            rw [h1.1] at hnd
            rw [h1.2, h1.1] at hnd
            simp at hnd
          | cons k l1 =>
            simp at h1
            rw [h1.2] at hnd
            simp at hnd
        have hl : Link s y z := by
          refine hr.rel (a := c :: l1) (x := y) (y := z) (b := l3 ++ [c]) ?_
          rw [h1]; simp
        obtain ⟨⟨cy, hcy, hcy'⟩, ⟨cz, hcz, hcz'⟩⟩ := hl
        refine ⟨⟨{ cy with next := cy.next, prev := if y = n then p else cy.prev }, ?_, hcy'⟩, ⟨{ cz with next := if z = p then n else cz.next, prev := cz.prev }, ?_, hcz'⟩⟩
        · show f y = _
          rw [hfl y hy, hcy]; simp [hyp]
        · show f z = _
          rw [hfl z hz, hcz]; simp [hzn]
    · intro j
      show (f j).map Cell.pay = _
      simp only [f]
      by_cases hj : j = c
      · subst hj; simp [hx, Cell.pay]
      · rw [if_neg hj]
        cases s.cells j <;> simp [Cell.pay]
    · intro j hj
      show f j = _
      simp only [f]
      have h1 : j ≠ c := by rintro rfl; simp at hj
      have h2 : j ≠ n := by rintro rfl; simp at hj
      have h3 : j ≠ p := by rintro rfl; rw [hip] at hj; simp at hj
      rw [if_neg h1]
      cases s.cells j <;> simp [h2, h3]

/-- `list_append` puts the new cell at the end of the ring. -/
theorem append_run (hr : Ring s (h :: t)) (hn : (h :: t).Nodup) (hc : c ∉ h :: t) (hx : s.cells c = some x) :
    ∃ s', listAppend h c s = .ok s' () ∧ Ring s' (h :: t ++ [c]) ∧
    (∀ j, (s'.cells j).map Cell.pay = (s.cells j).map Cell.pay) ∧
    (∀ j, j ∉ c :: h :: t → s'.cells j = s.cells j) ∧ (∃ f, s' = { s with cells := f }) := by
  obtain ⟨xh, hxh, hnext, hprev⟩ := hr.first
  obtain ⟨i, p, hip⟩ : ∃ i p, h :: t = i ++ [p] :=
    ⟨(h :: t).dropLast, (h :: t).getLast (by simp), (List.dropLast_append_getLast (by simp)).symm⟩
  have hprev : xh.prev = p := by rw [hprev]; simp [hip]
  have hhc : h ≠ c := by rintro rfl; simp at hc
  have hpc : p ≠ c := by rintro rfl; rw [hip] at hc; simp at hc
  obtain ⟨xp, hxp⟩ := hr.alive (c := p) (by rw [hip]; simp)
  let f : Addr → Option Cell := fun j => if j = c then some { x with prev := p, next := h } else
    (s.cells j).map fun z => { z with next := if j = p then c else z.next, prev := if j = h then c else z.prev }
  refine ⟨{ s with cells := f }, ?_, ?_, ?_, ?_, ⟨_, rfl⟩⟩
  · unfold listAppend
    rw [modCell_bind hx, getCell_bind (x := xh) (by simp [hhc, hxh]), hprev,
      modCell_bind (x := { x with next := h }) (by simp), modCell_bind (x := xp) (by simp [hpc, hxp])]
    by_cases hph : p = h
    · subst hph
      rw [hxp] at hxh
      injection hxh with hxh
      subst hxh
      rw [modCell_run (x := { xp with next := c }) (by simp)]
      simp only [Mem.setC]
      congr 2
      funext j
      simp only [f]
      by_cases h1 : j = c
      · simp [h1, hpc.symm]
      · by_cases h2 : j = p
        · subst h2; simp [h1, hxp]
        · simp [h1, h2]
    · have hhp : h ≠ p := fun e => hph e.symm
      rw [modCell_run (x := xh) (by simp [hhp, hhc, hxh])]
      simp only [Mem.setC]
      congr 2
      funext j
      simp only [f]
      by_cases h1 : j = c
      · simp [h1, hpc.symm, hhc.symm]
      · by_cases h2 : j = p
        · subst h2; simp [h1, hxp, hph]
        · by_cases h3 : j = h
          · subst h3; simp [h1, h2, hxh]
          · simp [h1, h2, h3]
  · have hfl : ∀ j ∈ h :: t, f j = (s.cells j).map fun z => { z with next := if j = p then c else z.next, prev := if j = h then c else z.prev } := by
      intro j hj
      simp only [f]
      rw [if_neg (by rintro rfl; exact hc hj)]
    refine List.isChain_iff_forall_rel_of_append_cons_cons.2 ?_
    intro y z l1 l2 he
    rcases List.eq_nil_or_concat l2 with rfl | ⟨l3, q, rfl⟩
    · -- c and h
      have he' : (h :: t) ++ [c, h] = l1 ++ [y, z] := by simpa using he
      obtain ⟨_, h2⟩ := List.append_inj' he' rfl
      simp at h2
      obtain ⟨rfl, rfl⟩ := h2
      refine ⟨⟨{ x with prev := p, next := h }, by simp [f], rfl⟩, ⟨{ xh with next := if h = p then c else xh.next, prev := c }, ?_, rfl⟩⟩
      show f h = _
      rw [hfl h (by simp), hxh]; simp
    · have he' : ((h :: t) ++ [c]) ++ [h] = (l1 ++ y :: z :: l3) ++ [q] := by simpa using he
      obtain ⟨h1, _⟩ := List.append_inj' he' rfl
      rcases List.eq_nil_or_concat l3 with rfl | ⟨l4, q', rfl⟩
      · have h1' : i ++ [p, c] = l1 ++ [y, z] := by rw [← h1, hip]; simp
        obtain ⟨_, h2⟩ := List.append_inj' h1' rfl
        simp at h2
        obtain ⟨rfl, rfl⟩ := h2
        refine ⟨⟨{ xp with next := c, prev := if p = h then c else xp.prev }, ?_, rfl⟩, ⟨{ x with prev := p, next := h }, by simp [f], rfl⟩⟩
        show f p = _
        rw [hfl p (by rw [hip]; simp), hxp]; simp
      · have h1' : (h :: t) ++ [c] = (l1 ++ y :: z :: l4) ++ [q'] := by simpa using h1
        obtain ⟨h2, _⟩ := List.append_inj' h1' rfl
        have hy : y ∈ h :: t := by rw [h2]; simp
        have hz : z ∈ h :: t := by rw [h2]; simp
        have hyp : y ≠ p := by
          rintro rfl
          rw [hip] at h2 hn
          rcases List.eq_nil_or_concat (z :: l4) with h4 | ⟨l5, q'', h4⟩
          · simp at h4
          · have h3 : i ++ [y] = (l1 ++ [y] ++ l5) ++ [q''] := by
              rw [h2, show l1 ++ y :: z :: l4 = l1 ++ [y] ++ (z :: l4) by simp, h4]; simp
            have h5 := (List.append_inj' h3 rfl).1
            rw [h5] at hn
            exact (List.nodup_append.1 hn).2.2 y (by simp) y (by simp) rfl
        have hzn : z ≠ h := by
          rintro rfl
          cases l1 with
          | nil =>
            simp at h2
            rw [h2.2, h2.1] at hn
            simp at hn
          | cons k l1 =>
            simp at h2
            rw [h2.2] at hn
            simp at hn
        have hl : Link s y z := by
          refine hr.rel (a := l1) (x := y) (y := z) (b := l4 ++ [h]) ?_
          rw [← List.cons_append, h2]; simp
        obtain ⟨⟨cy, hcy, hcy'⟩, ⟨cz, hcz, hcz'⟩⟩ := hl
        refine ⟨⟨{ cy with next := cy.next, prev := if y = h then c else cy.prev }, ?_, hcy'⟩, ⟨{ cz with next := if z = p then c else cz.next, prev := cz.prev }, ?_, hcz'⟩⟩
        · show f y = _
          rw [hfl y hy, hcy]; simp [hyp]
        · show f z = _
          rw [hfl z hz, hcz]; simp [hzn]
  · intro j
    show (f j).map Cell.pay = _
    simp only [f]
    by_cases hj : j = c
    · subst hj; simp [hx, Cell.pay]
    · rw [if_neg hj]
      cases s.cells j <;> simp [Cell.pay]
  · intro j hj
    show f j = _
    simp only [f]
    have h1 : j ≠ c := by rintro rfl; simp at hj
    have h2 : j ≠ h := by rintro rfl; simp at hj
    have h3 : j ≠ p := by rintro rfl; rw [hip] at hj; simp at hj
    rw [if_neg h1]
    cases s.cells j <;> simp [h2, h3]

end
end Dom.Attr
