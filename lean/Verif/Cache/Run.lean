import Verif.Cache.Lemmas
/-!
# The active node lists: the calls keep the memory well-formed
-/
set_option linter.unusedSimpArgs false
set_option linter.unusedVariables false
namespace Dom.Cache

open Dom.Str (DStr)
open Dom.Tree (NodeId)

variable {s s' : Mem} {cs : NodeId → List Addr} {held : Addr → Nat} {a b c : Addr} {d root : NodeId} {t : LType} {tag ns lname : Option DStr} {l m : NList}

/-! ## Sums -/

theorem lt_succ_ne : ∀ {x y : Nat}, x < y → x ≠ y + 1 := by intros; omega
theorem lt_two : ∀ {x y : Nat}, x < y → x < y + 2 := by intros; omega
theorem self_two : ∀ {y : Nat}, y < y + 2 := by intros; omega
theorem succ_two : ∀ {y : Nat}, y + 1 < y + 2 := by intros; omega
theorem not_succ_lt : ∀ {y : Nat}, ¬ y + 1 < y := by intros; omega

theorem sum_upd (g : Nat → Option NList) (k : Nat) (ha : a < k) (v : Option NList) (n : NodeId) :
    ∑ i ∈ Finset.range k, holds (upd g a v i) n = ∑ i ∈ Finset.range k, holds (g i) n - holds (g a) n + holds v n := by
  have h1 := Finset.sum_erase_add (Finset.range k) (fun i => holds (upd g a v i) n) (Finset.mem_range.2 ha)
  have h2 := Finset.sum_erase_add (Finset.range k) (fun i => holds (g i) n) (Finset.mem_range.2 ha)
  have h3 : ∑ i ∈ (Finset.range k).erase a, holds (upd g a v i) n = ∑ i ∈ (Finset.range k).erase a, holds (g i) n := by
    refine Finset.sum_congr rfl fun i hi => ?_
    rw [upd_ne (Finset.ne_of_mem_erase hi)]
  rw [← h1, ← h2, h3]
  simp only [upd_same]
  ring

/-! ## Reference counts of lists -/

/-- The memory after the reference count of a list has been set. -/
def Mem.setRc (s : Mem) (a : Addr) (l : NList) (k : Nat) : Mem := { s with lists := upd s.lists a (some { l with refcnt := k }) }

theorem Inv.setRc (hI : Inv s cs held) (hl : s.lists a = some l) {k : Nat} (hk : 0 < k) (hk' : k < 4294967296) :
    Inv (s.setRc a l k) cs (upd held a k) := by
  have look : ∀ {b m}, (s.setRc a l k).lists b = some m → ∃ m0, s.lists b = some m0 ∧ m0.owner = m.owner ∧ m0.root = m.root ∧ m0.type = m.type ∧
      m0.name = m.name ∧ m0.ns = m.ns ∧ m0.lname = m.lname ∧ (b = a → m.refcnt = k) ∧ (b ≠ a → m = m0) := by
    intro b m hb
    by_cases e : b = a
    · subst e
      rw [show (s.setRc b l k).lists b = some { l with refcnt := k } from upd_same] at hb
      cases hb
      exact ⟨l, hl, rfl, rfl, rfl, rfl, rfl, rfl, fun _ => rfl, fun h => absurd rfl h⟩
    · rw [show (s.setRc a l k).lists b = s.lists b from upd_ne e] at hb
      exact ⟨m, hb, rfl, rfl, rfl, rfl, rfl, rfl, fun h => absurd h e, fun _ => rfl⟩
  have mtch : ∀ {m m0 : NList} {t root tag ns lname}, m0.root = m.root → m0.type = m.type → m0.name = m.name → m0.ns = m.ns → m0.lname = m.lname →
      listMatch m t root tag ns lname = listMatch m0 t root tag ns lname := by
    intro m m0 t root tag ns lname h1 h2 h3 h4 h5
    unfold listMatch
    rw [h1, h2, h3, h4, h5]
  refine ⟨hI.dll, hI.nodup, ?_, ?_, hI.inj, ?_, ?_, ?_, ?_, hI.bndC, ?_, ?_, hI.owned⟩
  · intro d c hc
    obtain ⟨x, m, h1, h2, h3⟩ := hI.cell d c hc
    by_cases e : x.list = a
    · refine ⟨x, { l with refcnt := k }, h1, by rw [e]; exact upd_same, ?_⟩
      rw [e, hl] at h2; cases h2; exact h3
    · exact ⟨x, m, h1, (upd_ne e).trans h2, h3⟩
  · intro b m hb
    obtain ⟨m0, h1, h2, _⟩ := look hb
    obtain ⟨c, x, h3, h4⟩ := hI.live b m0 h1
    exact ⟨c, x, h2 ▸ h3, h4⟩
  · intro b b' m m' hb hb' ho hm
    obtain ⟨m0, h1, h2, h3, h4, h5, h6, h7, _⟩ := look hb
    obtain ⟨m0', h1', h2', h3', h4', h5', h6', h7', _⟩ := look hb'
    refine hI.apart b b' m0 m0' h1 h1' (by rw [h2, h2']; exact ho) ?_
    rw [← mtch h3 h4 h5 h6 h7, h3', h4', h5', h6', h7']
    exact hm
  · intro b m hb
    obtain ⟨m0, h1, _, _, _, _, _, _, h2, h3⟩ := look hb
    by_cases e : b = a
    · subst e; rw [h2 rfl, upd_same]; exact ⟨rfl, hk, hk'⟩
    · rw [h3 e, upd_ne e]; exact hI.count b m0 h1
  · intro b hb
    by_cases e : b = a
    · subst e; rw [show (s.setRc b l k).lists b = some { l with refcnt := k } from upd_same] at hb; cases hb
    · rw [show (s.setRc a l k).lists b = s.lists b from upd_ne e] at hb
      rw [upd_ne e]; exact hI.gone b hb
  · intro b m hb
    obtain ⟨m0, h1, _, _, h4, h5, _⟩ := look hb
    have := hI.named b m0 h1
    unfold nameGone at this ⊢
    rw [← h4, ← h5]; exact this
  · intro b m hb
    obtain ⟨m0, h1, _⟩ := look hb
    exact hI.bndL b m0 h1
  · intro n
    rw [show (s.setRc a l k).refs n = s.refs n from rfl, hI.refs n]
    unfold total
    show _ = ∑ i ∈ Finset.range s.fresh, holds (upd s.lists a _ i) n
    rw [sum_upd _ _ (hI.bndL a l hl), hl]
    simp [holds]

theorem listRef_run (hI : Inv s cs held) (hl : s.lists a = some l) (hk : held a + 1 < 4294967296) :
    listRef s a = .ok (s.setRc a l (held a + 1)) := by
  unfold listRef
  simp only [rdList, hl, Out.bind_ok]
  rw [(hI.count a l hl).1, u32_small (by omega)]
  rfl

/-! ## New lists -/

/-- The memory after a new list has been made for a request. -/
def Mem.withNew (s : Mem) (d : NodeId) (t : LType) (root : NodeId) (tag ns lname : Option DStr) : Mem where
  lists := upd s.lists (s.fresh + 1) (some { owner := d, root := root, type := t, name := tag, ns := ns, lname := lname, refcnt := 1 })
  cells := fun y => if y = s.fresh then some { list := s.fresh + 1, prev := none, next := s.heads d } else
    (s.cells y).map fun z => if s.heads d = some y then { z with prev := some s.fresh } else z
  heads := upd s.heads d (some s.fresh)
  refs := fun n => s.refs n + (if d = n then 1 else 0) + (if root = n then 1 else 0)
  fresh := s.fresh + 2

/-- A request by tag name without one. -/
def noName (t : LType) (tag : Option DStr) : Prop := (t = .byName ∨ t = .byNameCaseless) ∧ tag = none

theorem Mem.ext' {s s' : Mem} (h1 : s.lists = s'.lists) (h2 : s.cells = s'.cells) (h3 : s.heads = s'.heads) (h4 : s.refs = s'.refs) (h5 : s.fresh = s'.fresh) :
    s = s' := by
  cases s; cases s'; simp only at h1 h2 h3 h4 h5; subst h1 h2 h3 h4 h5; rfl

theorem get_new (hI : Inv s cs held) (hf : findLoop s t root tag ns lname (s.fresh + 1) (s.heads d) = .ok none) (ht : ¬ noName t tag) :
    getNodelist s d t root tag ns lname = .ok (s.withNew d t root tag ns lname, s.fresh + 1) := by
  unfold getNodelist
  rw [hf, Out.bind_ok]
  dsimp only
  unfold listCreate
  rw [if_neg (show ¬ ((t = .byName ∨ t = .byNameCaseless) ∧ tag = none) from ht), Out.bind_ok]
  dsimp only [Mem.addRef]
  have hrefs : upd (upd s.refs d (s.refs d + 1)) root (upd s.refs d (s.refs d + 1) root + 1) =
      fun n => s.refs n + (if d = n then 1 else 0) + (if root = n then 1 else 0) := by
    funext n
    unfold upd
    by_cases h1 : n = root
    · subst h1
      by_cases h2 : n = d
      · subst h2; simp
      · simp [h2, Ne.symm h2]
    · by_cases h2 : n = d
      · subst h2; simp [h1, Ne.symm h1]
      · simp [h1, h2, Ne.symm h1, Ne.symm h2]
  have hfr : s.cells s.fresh = none := by
    cases h : s.cells s.fresh with
    | none => rfl
    | some x => exact absurd (hI.bndC _ x h) (Nat.lt_irrefl _)
  cases hh : s.heads d with
  | none =>
    unfold setPrev
    rw [Out.bind_ok]
    refine congrArg (fun z => Out.ok (z, _)) (Mem.ext' rfl ?_ rfl hrefs rfl)
    funext y
    by_cases hy : y = s.fresh
    · subst hy; simp [Mem.withNew, hh, upd]
    · simp [Mem.withNew, hh, upd, hy]
  | some h =>
    have hmem : h ∈ cs d := by
      have := (hI.dll d).head
      rw [hh] at this
      exact List.mem_of_head? this.symm
    obtain ⟨x, hx⟩ := (hI.dll d).alive hmem
    have hne : h ≠ s.fresh := fun e => by rw [e, hfr] at hx; cases hx
    unfold setPrev rdCell
    simp only [upd_ne hne, hx, Out.bind_ok]
    refine congrArg (fun z => Out.ok (z, _)) (Mem.ext' rfl ?_ rfl hrefs rfl)
    funext y
    by_cases hy : y = s.fresh
    · subst hy
      simp [Mem.withNew, hh, upd, Ne.symm hne]
    · by_cases hy' : y = h
      · subst hy'
        simp [Mem.withNew, hh, upd, hx, hne]
      · simp [Mem.withNew, hh, upd, hy, hy', Ne.symm hy']

theorem Inv.withNew (hI : Inv s cs held) (hnone : ∀ a l, s.lists a = some l → l.owner = d → listMatch l t root tag ns lname = false) (ht : ¬ noName t tag) :
    Inv (s.withNew d t root tag ns lname) (upd cs d (s.fresh :: cs d)) (upd held (s.fresh + 1) 1) := by
  have hfc : ∀ {e c}, c ∈ cs e → c ≠ s.fresh := by
    intro e c hc h
    obtain ⟨x, _, h1, _⟩ := hI.cell e c hc
    exact absurd (hI.bndC c x h1) (by rw [h]; exact Nat.lt_irrefl _)
  have oldC : ∀ {y}, y ≠ s.fresh → (s.withNew d t root tag ns lname).cells y =
      (s.cells y).map fun z => if s.heads d = some y then { z with prev := some s.fresh } else z := fun h => if_neg h
  have oldC' : ∀ {y x}, y ≠ s.fresh → (s.withNew d t root tag ns lname).cells y = some x → ∃ x0, s.cells y = some x0 ∧ x0.list = x.list := by
    intro y x hy hx
    rw [oldC hy] at hx
    cases h : s.cells y with
    | none => rw [h] at hx; cases hx
    | some x0 =>
      rw [h, Option.map_some] at hx
      injection hx with hx
      refine ⟨x0, rfl, ?_⟩
      rw [← hx]
      split <;> rfl
  have newC : (s.withNew d t root tag ns lname).cells s.fresh = some { list := s.fresh + 1, prev := none, next := s.heads d } := if_pos rfl
  have oldL : ∀ {b}, b ≠ s.fresh + 1 → (s.withNew d t root tag ns lname).lists b = s.lists b := fun h => upd_ne h
  have newL : (s.withNew d t root tag ns lname).lists (s.fresh + 1) = some { owner := d, root := root, type := t, name := tag, ns := ns, lname := lname, refcnt := 1 } := upd_same
  have hfl : ∀ {b m}, s.lists b = some m → b ≠ s.fresh + 1 := by
    intro b m hb h
    exact lt_succ_ne (hI.bndL b m hb) h
  have mem : ∀ {e c}, c ∈ upd cs d (s.fresh :: cs d) e → (e = d ∧ c = s.fresh) ∨ c ∈ cs e := by
    intro e c hc
    by_cases h : e = d
    · subst h
      rw [upd_same] at hc
      rcases List.mem_cons.1 hc with h | h
      · exact Or.inl ⟨rfl, h⟩
      · exact Or.inr h
    · rw [upd_ne h] at hc; exact Or.inr hc
  have mem' : ∀ {e c}, c ∈ cs e → c ∈ upd cs d (s.fresh :: cs d) e := by
    intro e c hc
    by_cases h : e = d
    · subst h; rw [upd_same]; exact List.mem_cons_of_mem _ hc
    · rw [upd_ne h]; exact hc
  refine ⟨?_, ?_, ?_, ?_, ?_, ?_, ?_, ?_, ?_, ?_, ?_, ?_, ?_⟩
  · intro e
    by_cases h : e = d
    · subst h
      rw [upd_same, show (s.withNew e t root tag ns lname).heads e = some s.fresh from upd_same]
      exact (hI.dll e).push (fun h => hfc h rfl) newC (fun y hy => oldC (hfc hy)) (hI.nodup e)
    · rw [upd_ne h, show (s.withNew d t root tag ns lname).heads e = s.heads e from upd_ne h]
      refine (hI.dll e).congr fun y hy => ?_
      rw [oldC (hfc hy)]
      have : s.heads d ≠ some y := by
        intro hh
        have h1 := (hI.dll d).head
        rw [hh] at h1
        obtain ⟨x, l, h2, h3, h4⟩ := hI.cell d y (List.mem_of_head? h1.symm)
        obtain ⟨x', l', h2', h3', h4'⟩ := hI.cell e y hy
        rw [h2] at h2'; cases h2'
        rw [h3] at h3'; cases h3'
        exact h (h4'.symm.trans h4)
      cases s.cells y with
      | none => rfl
      | some z => simp [this]
  · intro e
    by_cases h : e = d
    · subst h; rw [upd_same]; exact List.nodup_cons.2 ⟨fun h => hfc h rfl, hI.nodup e⟩
    · rw [upd_ne h]; exact hI.nodup e
  · intro e c hc
    rcases mem hc with ⟨rfl, rfl⟩ | hc
    · exact ⟨_, _, newC, newL, rfl⟩
    · obtain ⟨x, l, h1, h2, h3⟩ := hI.cell e c hc
      have h4 := oldC (hfc hc)
      rw [h1, Option.map_some] at h4
      refine ⟨_, l, h4, ?_, h3⟩
      have : (if s.heads d = some c then { x with prev := some s.fresh } else x).list = x.list := by split <;> rfl
      rw [this, oldL (hfl h2)]; exact h2
  · intro b m hb
    by_cases e : b = s.fresh + 1
    · subst e
      rw [newL] at hb; cases hb
      exact ⟨s.fresh, _, by dsimp only; rw [upd_same]; exact List.mem_cons_self, newC, rfl⟩
    · rw [oldL e] at hb
      obtain ⟨c, x, h1, h2, h3⟩ := hI.live b m hb
      have h4 := oldC (hfc h1)
      rw [h2, Option.map_some] at h4
      refine ⟨c, _, mem' h1, h4, ?_⟩
      rw [← h3]
      split <;> rfl
  · intro e c c' x x' hc hc' hx hx' he
    have isnew : ∀ {y z}, y ∈ cs e → (s.withNew d t root tag ns lname).cells y = some z → z.list ≠ s.fresh + 1 := by
      intro y z hy hz
      obtain ⟨z0, h1, h2⟩ := oldC' (hfc hy) hz
      obtain ⟨z1, l, h3, h4, _⟩ := hI.cell e y hy
      rw [h1] at h3; cases h3
      rw [← h2]; exact hfl h4
    rcases mem hc with ⟨h1, rfl⟩ | hc1
    · rcases mem hc' with ⟨_, rfl⟩ | hc1'
      · rfl
      · rw [newC] at hx; cases hx
        exact absurd he.symm (isnew hc1' hx')
    · rcases mem hc' with ⟨_, rfl⟩ | hc1'
      · rw [newC] at hx'; cases hx'
        exact absurd he (isnew hc1 hx)
      · obtain ⟨z, h1, h2⟩ := oldC' (hfc hc1) hx
        obtain ⟨z', h1', h2'⟩ := oldC' (hfc hc1') hx'
        exact hI.inj e c c' z z' hc1 hc1' h1 h1' (by rw [h2, h2']; exact he)
  · intro b b' m m' hb hb' ho hm
    by_cases e : b = s.fresh + 1
    · by_cases e' : b' = s.fresh + 1
      · rw [e, e']
      · rw [oldL e'] at hb'
        subst e
        rw [newL] at hb; cases hb
        have := match_symm hm
        rw [hnone b' m' hb' ho.symm] at this
        cases this
    · rw [oldL e] at hb
      by_cases e' : b' = s.fresh + 1
      · subst e'
        rw [newL] at hb'; cases hb'
        rw [hnone b m hb ho] at hm
        cases hm
      · rw [oldL e'] at hb'
        exact hI.apart b b' m m' hb hb' ho hm
  · intro b m hb
    by_cases e : b = s.fresh + 1
    · subst e
      rw [newL] at hb; cases hb
      rw [upd_same]; exact ⟨rfl, by omega, by omega⟩
    · rw [oldL e] at hb; rw [upd_ne e]; exact hI.count b m hb
  · intro b hb
    by_cases e : b = s.fresh + 1
    · subst e; rw [newL] at hb; cases hb
    · rw [oldL e] at hb; rw [upd_ne e]; exact hI.gone b hb
  · intro b m hb
    by_cases e : b = s.fresh + 1
    · subst e
      rw [newL] at hb; cases hb
      unfold nameGone
      unfold noName at ht
      cases tag with
      | none => cases t <;> simp at ht ⊢
      | some v => simp
    · rw [oldL e] at hb; exact hI.named b m hb
  · intro y x hx
    show y < s.fresh + 2
    by_cases e : y = s.fresh
    · rw [e]; exact self_two
    · obtain ⟨x0, h1, _⟩ := oldC' e hx
      exact lt_two (hI.bndC y x0 h1)
  · intro b m hb
    show b < s.fresh + 2
    by_cases e : b = s.fresh + 1
    · rw [e]; exact succ_two
    · rw [oldL e] at hb
      exact lt_two (hI.bndL b m hb)
  · intro n
    show s.refs n + _ + _ = total _ n
    rw [hI.refs n]
    unfold total
    show _ = ∑ i ∈ Finset.range (s.fresh + 2), holds (upd s.lists (s.fresh + 1) _ i) n
    rw [sum_upd _ _ succ_two, Finset.sum_range_succ, Finset.sum_range_succ]
    have h1 : s.lists s.fresh = none := by
      cases h : s.lists s.fresh with
      | none => rfl
      | some x => exact absurd (hI.bndL _ x h) (Nat.lt_irrefl _)
    have h2 : s.lists (s.fresh + 1) = none := by
      cases h : s.lists (s.fresh + 1) with
      | none => rfl
      | some x => exact absurd (hI.bndL _ x h) not_succ_lt
    rw [h1, h2]
    simp only [holds]
    ring
  · intro c x hx
    by_cases e : c = s.fresh
    · exact ⟨d, by rw [upd_same, e]; exact List.mem_cons_self⟩
    · obtain ⟨x0, h1, _⟩ := oldC' e hx
      obtain ⟨d', h2⟩ := hI.owned c x0 h1
      exact ⟨d', mem' h2⟩

/-! ## Giving lists back -/

/-- The memory after the last reference on a list has been given back; `c` is its cell. -/
def Mem.without (s : Mem) (a : Addr) (l : NList) (c : Addr) (x : Cell) : Mem where
  lists := upd s.lists a none
  cells := unlinked s.cells c x
  heads := if x.prev = none then upd s.heads l.owner x.next else s.heads
  refs := fun n => s.refs n - (if l.owner = n then 1 else 0) - (if l.root = n then 1 else 0)
  fresh := s.fresh

theorem unref_last (hI : Inv s cs held) (hl : s.lists a = some l) (h1 : held a = 1) :
    ∃ c x pre suf, cs l.owner = pre ++ c :: suf ∧ s.cells c = some x ∧ x.list = a ∧ listUnref s a = .ok (s.without a l c x) := by
  obtain ⟨c, x, hc, hx, hxa⟩ := hI.live a l hl
  obtain ⟨pre, suf, hsplit⟩ := List.append_of_mem hc
  refine ⟨c, x, pre, suf, hsplit, hx, hxa, ?_⟩
  have hrc : sub32 l.refcnt 1 = 0 := by
    rw [(hI.count a l hl).1, h1]; rfl
  unfold listUnref
  simp only [rdList, hl, Out.bind_ok]
  rw [hrc]
  simp only [if_true, hI.named a l hl, Bool.false_eq_true, if_false]
  have hfind : (cs l.owner).find? (fun c => (s.cells c).any fun x => x.list = a) = some c := by
    cases hf : (cs l.owner).find? (fun c => (s.cells c).any fun x => x.list = a) with
    | none =>
      have := List.find?_eq_none.1 hf c hc
      simp [hx, hxa] at this
    | some c' =>
      have h2 := List.find?_some hf
      have h3 := List.mem_of_find?_eq_some hf
      cases hx' : s.cells c' with
      | none => rw [hx'] at h2; cases h2
      | some x' =>
        rw [hx'] at h2
        have h2 : x'.list = a := by simpa using h2
        rw [hI.inj _ c' c x' x h3 hc hx' hx (by rw [h2, hxa])]
  unfold removeNodelist
  have hloop := removeLoop_run (s := { s with lists := upd s.lists a (some { l with refcnt := 0 }), refs := upd s.refs l.root (s.refs l.root + -1) })
    (p := none) (h := s.heads l.owner) (l := cs l.owner) (hI.dll l.owner) a (s.fresh + 1) (Nat.lt_succ_of_le (hI.length _))
  simp only [Mem.addRef]
  rw [hloop]
  simp only [hfind, Out.bind_ok, rdCell, hx]
  have hat := hI.dll l.owner
  rw [hsplit] at hat
  obtain ⟨u, hcell⟩ := hat.at
  rw [hx] at hcell; injection hcell with hcell
  have hnd := hI.nodup l.owner
  rw [hsplit] at hnd
  have hprev : x.prev = pre.getLast? := by rw [hcell]; simp
  have hnext : x.next = suf.head? := by rw [hcell]
  have hpc : x.prev ≠ some c := by
    rw [hprev]; intro e
    have := List.mem_of_getLast? e
    rw [List.nodup_append] at hnd
    exact hnd.2.2 c this c List.mem_cons_self rfl
  have hnc : x.next ≠ some c := by
    rw [hnext]; intro e
    have := List.mem_of_head? e
    rw [List.nodup_append, List.nodup_cons] at hnd
    exact hnd.2.1.1 this
  have hpn : ∀ y, x.prev = some y → x.next ≠ some y := by
    intro y e e'
    rw [hprev] at e; rw [hnext] at e'
    rw [List.nodup_append] at hnd
    exact hnd.2.2 y (List.mem_of_getLast? e) y (List.mem_cons_of_mem _ (List.mem_of_head? e')) rfl
  have halive : ∀ y, x.prev = some y ∨ x.next = some y → ∃ z, s.cells y = some z := by
    rintro y (e | e)
    · rw [hprev] at e
      exact hat.alive (List.mem_append_left _ (List.mem_of_getLast? e))
    · rw [hnext] at e
      exact hat.alive (List.mem_append_right _ (List.mem_cons_of_mem _ (List.mem_of_head? e)))
  have hrefs : upd (upd s.refs l.root (s.refs l.root + -1)) l.owner (upd s.refs l.root (s.refs l.root + -1) l.owner + -1) =
      fun n => s.refs n - (if l.owner = n then 1 else 0) - (if l.root = n then 1 else 0) := by
    funext n
    unfold upd
    by_cases g1 : n = l.root
    · by_cases g2 : n = l.owner
      · rw [if_pos g2, if_pos (g2.symm.trans g1), if_pos g2.symm, if_pos g1.symm, ← g1]; ring
      · rw [if_neg g2, if_pos g1, if_neg (Ne.symm g2), if_pos g1.symm, ← g1]; ring
    · by_cases g2 : n = l.owner
      · rw [if_pos g2, if_neg (fun e => g1 (g2.trans e)), if_pos g2.symm, if_neg (Ne.symm g1), ← g2]; ring
      · rw [if_neg g2, if_neg g1, if_neg (Ne.symm g2), if_neg (Ne.symm g1)]; ring
  have hlists : upd (upd s.lists a (some { l with refcnt := 0 })) a none = upd s.lists a none := by
    funext y; unfold upd; split <;> rfl
  unfold setNext setPrev rdCell
  cases hp : x.prev with
  | none =>
    simp only [Out.bind_ok]
    cases hn : x.next with
    | none =>
      simp only [Out.bind_ok]
      refine congrArg Out.ok (Mem.ext' hlists ?_ ?_ hrefs rfl)
      · funext y
        simp only [Mem.without, unlinked, upd, hp, hn]
        by_cases e : y = c
        · simp [e]
        · simp only [if_neg e]
          cases s.cells y <;> simp
      · simp [Mem.without, hp, hn]
    | some q =>
      obtain ⟨z, hz⟩ := halive q (Or.inr hn)
      simp only [hz, Out.bind_ok]
      refine congrArg Out.ok (Mem.ext' hlists ?_ ?_ hrefs rfl)
      · funext y
        simp only [Mem.without, unlinked, upd, hp, hn]
        by_cases e : y = c
        · simp [e]
        · simp only [if_neg e]
          by_cases e' : y = q
          · subst e'; simp [hz]
          · simp only [if_neg e', Option.some.injEq, Ne.symm e', if_false]
            cases s.cells y <;> simp
      · simp [Mem.without, hp, hn]
  | some r =>
    obtain ⟨zr, hzr⟩ := halive r (Or.inl hp)
    simp only [hzr, Out.bind_ok]
    cases hn : x.next with
    | none =>
      simp only [Out.bind_ok]
      refine congrArg Out.ok (Mem.ext' hlists ?_ ?_ hrefs rfl)
      · funext y
        simp only [Mem.without, unlinked, upd, hp, hn]
        by_cases e : y = c
        · simp [e]
        · simp only [if_neg e]
          by_cases e' : y = r
          · subst e'; simp [hzr]
          · simp only [if_neg e', Option.some.injEq, Ne.symm e', if_false]
            cases s.cells y <;> simp
      · simp [Mem.without, hp, hn]
    | some q =>
      have hqr : q ≠ r := fun e => hpn r hp (by rw [hn, e])
      obtain ⟨z, hz⟩ := halive q (Or.inr hn)
      simp only [upd_ne hqr, hz, Out.bind_ok]
      refine congrArg Out.ok (Mem.ext' hlists ?_ ?_ hrefs rfl)
      · funext y
        simp only [Mem.without, unlinked, upd, hp, hn]
        by_cases e : y = c
        · simp [e]
        · simp only [if_neg e]
          by_cases e' : y = r
          · subst e'
            have : ¬ y = q := Ne.symm hqr
            simp [hzr, this, hqr]
          · by_cases e2 : y = q
            · subst e2; simp [hz, Ne.symm e']
            · simp only [if_neg e', if_neg e2, Option.some.injEq, Ne.symm e', Ne.symm e2, if_false]
              cases s.cells y <;> simp
      · simp [Mem.without, hp, hn]

theorem Inv.without {x : Cell} {pre suf : List Addr} (hI : Inv s cs held) (hl : s.lists a = some l) (hsplit : cs l.owner = pre ++ c :: suf)
    (hx : s.cells c = some x) (hxa : x.list = a) : Inv (s.without a l c x) (upd cs l.owner (pre ++ suf)) (upd held a 0) := by
  have hd := hI.dll l.owner
  have hnd := hI.nodup l.owner
  rw [hsplit] at hd hnd
  obtain ⟨u, hcell⟩ := hd.at
  rw [hx] at hcell; injection hcell with hcell
  have hprev : x.prev = pre.getLast? := by rw [hcell]; simp
  have hnext : x.next = suf.head? := by rw [hcell]
  have hcm : c ∈ cs l.owner := by rw [hsplit]; simp
  have hsub : ∀ {y}, y ∈ pre ++ suf → y ∈ cs l.owner ∧ y ≠ c := by
    intro y hy
    have h2 : (pre ++ suf).Nodup ∧ c ∉ pre ++ suf := by
      have := (List.perm_middle (a := c) (l₁ := pre) (l₂ := suf)).nodup_iff.1 hnd
      rw [List.nodup_cons] at this
      exact ⟨this.2, this.1⟩
    refine ⟨?_, fun e => h2.2 (e ▸ hy)⟩
    rw [hsplit]
    rcases List.mem_append.1 hy with h | h
    · exact List.mem_append_left _ h
    · exact List.mem_append_right _ (List.mem_cons_of_mem _ h)
  have mem : ∀ {e y}, y ∈ upd cs l.owner (pre ++ suf) e → y ∈ cs e ∧ y ≠ c := by
    intro e y hy
    by_cases h : e = l.owner
    · subst h; rw [upd_same] at hy; exact hsub hy
    · rw [upd_ne h] at hy
      refine ⟨hy, fun hyc => ?_⟩
      subst hyc
      obtain ⟨x1, l1, g1, g2, g3⟩ := hI.cell e y hy
      rw [hx] at g1; cases g1
      rw [hxa, hl] at g2; cases g2
      exact h g3.symm
  have mem' : ∀ {e y}, y ∈ cs e → y ≠ c → y ∈ upd cs l.owner (pre ++ suf) e := by
    intro e y hy hyc
    by_cases h : e = l.owner
    · subst h
      rw [upd_same]
      rw [hsplit] at hy
      rcases List.mem_append.1 hy with h | h
      · exact List.mem_append_left _ h
      · rcases List.mem_cons.1 h with h | h
        · exact absurd h hyc
        · exact List.mem_append_right _ h
    · rw [upd_ne h]; exact hy
  have cellOf : ∀ {y z}, y ≠ c → s.cells y = some z → ∃ z', (s.without a l c x).cells y = some z' ∧ z'.list = z.list := by
    intro y z hy hz
    refine ⟨{ list := z.list, prev := if x.next = some y then x.prev else z.prev, next := if x.prev = some y then x.next else z.next }, ?_, ?_⟩
    · show unlinked s.cells c x y = some { list := z.list, prev := if x.next = some y then x.prev else z.prev, next := if x.prev = some y then x.next else z.next }
      unfold unlinked
      rw [if_neg hy, hz]; rfl
    · rfl
  have cellOf' : ∀ {y z}, (s.without a l c x).cells y = some z → y ≠ c ∧ ∃ z0, s.cells y = some z0 ∧ z0.list = z.list := by
    intro y z hz
    have hz : unlinked s.cells c x y = some z := hz
    unfold unlinked at hz
    by_cases e : y = c
    · rw [if_pos e] at hz; cases hz
    · rw [if_neg e] at hz
      cases h : s.cells y with
      | none => rw [h] at hz; cases hz
      | some z0 => rw [h] at hz; cases hz; exact ⟨e, z0, rfl, rfl⟩
  have listOf : ∀ {b m}, (s.without a l c x).lists b = some m ↔ b ≠ a ∧ s.lists b = some m := by
    intro b m
    show upd s.lists a none b = some m ↔ _
    by_cases e : b = a
    · subst e; simp [upd_same]
    · rw [upd_ne e]; simp [e]
  have other : ∀ {e y}, e ≠ l.owner → y ∈ cs e → y ∉ cs l.owner := by
    intro e y he hy hy'
    obtain ⟨x1, l1, g1, g2, g3⟩ := hI.cell e y hy
    obtain ⟨x2, l2, g1', g2', g3'⟩ := hI.cell l.owner y hy'
    rw [g1] at g1'; cases g1'
    rw [g2] at g2'; cases g2'
    exact he (g3.symm.trans g3')
  refine ⟨?_, ?_, ?_, ?_, ?_, ?_, ?_, ?_, ?_, ?_, ?_, ?_, ?_⟩
  · intro e
    by_cases h : e = l.owner
    · subst h
      rw [upd_same]
      have h2 := hd.unlink hnd hx (fun y _ h => nomatch h)
      have h3 : (s.without a l c x).heads l.owner = if pre = [] then x.next else s.heads l.owner := by
        show (if x.prev = none then upd s.heads l.owner x.next else s.heads) l.owner = _
        have : x.prev = none ↔ pre = [] := by rw [hprev]; exact List.getLast?_eq_none_iff
        by_cases hp : pre = []
        · rw [if_pos (this.2 hp), if_pos hp, upd_same]
        · rw [if_neg (fun h => hp (this.1 h)), if_neg hp]
      rw [h3]; exact h2
    · rw [upd_ne h]
      have h3 : (s.without a l c x).heads e = s.heads e := by
        show (if x.prev = none then upd s.heads l.owner x.next else s.heads) e = _
        split
        · exact upd_ne h
        · rfl
      rw [h3]
      refine (hI.dll e).congr fun y hy => ?_
      have hy' := other h hy
      show unlinked s.cells c x y = s.cells y
      unfold unlinked
      have e1 : y ≠ c := fun e => hy' (e ▸ hcm)
      have e2 : x.next ≠ some y := by
        rw [hnext]; intro e
        exact hy' (by rw [hsplit]; exact List.mem_append_right _ (List.mem_cons_of_mem _ (List.mem_of_head? e)))
      have e3 : x.prev ≠ some y := by
        rw [hprev]; intro e
        exact hy' (by rw [hsplit]; exact List.mem_append_left _ (List.mem_of_getLast? e))
      rw [if_neg e1]
      simp only [if_neg e2, if_neg e3]
      cases s.cells y <;> rfl
  · intro e
    by_cases h : e = l.owner
    · subst h
      rw [upd_same]
      have := (List.perm_middle (a := c) (l₁ := pre) (l₂ := suf)).nodup_iff.1 hnd
      exact (List.nodup_cons.1 this).2
    · rw [upd_ne h]; exact hI.nodup e
  · intro e y hy
    obtain ⟨h1, h2⟩ := mem hy
    obtain ⟨z, m, g1, g2, g3⟩ := hI.cell e y h1
    obtain ⟨z', g4, g5⟩ := cellOf h2 g1
    refine ⟨z', m, g4, ?_, g3⟩
    rw [g5]
    refine listOf.2 ⟨fun e' => h2 ?_, g2⟩
    rw [e', hl] at g2; cases g2
    have : e = l.owner := g3.symm
    subst this
    exact hI.inj _ y c z x h1 hcm g1 hx (by rw [e', hxa])
  · intro b m hb
    obtain ⟨hba, hb⟩ := listOf.1 hb
    obtain ⟨y, z, g1, g2, g3⟩ := hI.live b m hb
    have hyc : y ≠ c := fun e => by
      subst e; rw [hx] at g2; cases g2; exact hba (g3.symm.trans hxa)
    obtain ⟨z', g4, g5⟩ := cellOf hyc g2
    exact ⟨y, z', mem' g1 hyc, g4, g5.trans g3⟩
  · intro e y y' z z' hy hy' hz hz' he
    obtain ⟨_, z0, g1, g2⟩ := cellOf' hz
    obtain ⟨_, z0', g1', g2'⟩ := cellOf' hz'
    exact hI.inj e y y' z0 z0' (mem hy).1 (mem hy').1 g1 g1' (by rw [g2, g2']; exact he)
  · intro b b' m m' hb hb' ho hm
    exact hI.apart b b' m m' (listOf.1 hb).2 (listOf.1 hb').2 ho hm
  · intro b m hb
    obtain ⟨hba, hb⟩ := listOf.1 hb
    rw [upd_ne hba]; exact hI.count b m hb
  · intro b hb
    by_cases e : b = a
    · subst e; exact upd_same
    · rw [upd_ne e]
      exact hI.gone b ((upd_ne e).symm.trans hb)
  · intro b m hb; exact hI.named b m (listOf.1 hb).2
  · intro y z hz
    obtain ⟨_, z0, g1, _⟩ := cellOf' hz
    exact hI.bndC y z0 g1
  · intro b m hb; exact hI.bndL b m (listOf.1 hb).2
  · intro n
    show s.refs n - _ - _ = total _ n
    rw [hI.refs n]
    unfold total
    show _ = ∑ i ∈ Finset.range s.fresh, holds (upd s.lists a none i) n
    rw [sum_upd _ _ (hI.bndL a l hl), hl]
    simp only [holds]
    ring
  · intro y z hz
    obtain ⟨hy, z0, g1, _⟩ := cellOf' hz
    obtain ⟨d', h2⟩ := hI.owned y z0 g1
    exact ⟨d', mem' h2 hy⟩

theorem unref_more (hI : Inv s cs held) (hl : s.lists a = some l) (h1 : 1 < held a) : listUnref s a = .ok (s.setRc a l (held a - 1)) := by
  unfold listUnref
  simp only [rdList, hl, Out.bind_ok]
  have hrc : sub32 l.refcnt 1 = held a - 1 := by
    rw [(hI.count a l hl).1]
    exact sub32_le (by omega)
  rw [hrc, if_neg (by omega)]
  rfl

end Dom.Cache
