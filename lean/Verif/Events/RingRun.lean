import Verif.Events.RingInv
import Mathlib.Data.List.Perm.Subperm
/-!
# What the operations on the listeners in memory do
-/
set_option linter.unusedSimpArgs false
namespace Dom.Events.Ring
open Dom.Str (DStr)
open Dom.Tree (NodeId)

/-- Changing one value of a function. -/
def put {α : Type} (f : Nat → α) (a : Nat) (v : α) : Nat → α := fun b => if b = a then v else f b

theorem put_eq {α : Type} (f : Nat → α) (a : Nat) (v : α) : put f a v a = v := if_pos rfl
theorem put_ne {α : Type} {f : Nat → α} {a b : Nat} {v : α} (h : b ≠ a) : put f a v b = f b := if_neg h

/-- The number of entries at addresses below `N` that hold the listener `o`. -/
def uses (m : Mem) (N o : Nat) : Nat := (List.range N).countP fun a => (m a).any fun c => c.listener == o

/-- The counts of references of the objects: the object is there while the count is not 0. -/
def Refs (objs : Nat → Option Nat) (T : Nat → Nat) : Prop := ∀ o, objs o = if T o = 0 then none else some (T o)

/-- One more. -/
def plus (T : Nat → Nat) (o : Nat) : Nat → Nat := fun p => if p = o then T p + 1 else T p
/-- One less. -/
def minus (T : Nat → Nat) (o : Nat) : Nat → Nat := fun p => if p = o then T p - 1 else T p

variable {h h' : Heap} {m m' : Mem} {l t xs ys : List Nat} {a b z p n o : Nat} {et : NodeId} {L : NodeId → List Nat} {K T : Nat → Nat}

/-- The invariant but for the pointers in the targets: `L` gives the entries of every target, `K` the references of the client. -/
structure Core (h : Heap) (L : NodeId → List Nat) (K : Nat → Nat) : Prop where
  circle : ∀ et, Circle h.cells (L et)
  apart : ∀ et et' a, a ∈ L et → a ∈ L et' → et = et'
  all : ∀ a c, h.cells a = some c → ∃ et, a ∈ L et
  bound : ∀ a c, h.cells a = some c → a < h.fresh
  refs : Refs h.objs (fun o => K o + uses h.cells h.fresh o)
  new : ∀ o, h.freshObj ≤ o → h.objs o = none

/-- The invariant. -/
structure Inv (h : Heap) (L : NodeId → List Nat) (K : Nat → Nat) : Prop where
  core : Core h L K
  head : ∀ et, h.heads et = (L et).head?

/-! ## Counting -/

theorem uses_body (hb : SameBody m m') (N o : Nat) : uses m' N o = uses m N o := by
  unfold uses
  congr 1
  funext a
  have := hb a
  cases h1 : m a <;> cases h2 : m' a <;> rw [h1, h2] at this <;> simp [Cell.body] at this ⊢
  rw [this.2.1]

theorem uses_succ (m : Mem) (N o : Nat) : uses m (N + 1) o = uses m N o + if ((m N).any fun c => c.listener == o) = true then 1 else 0 := by
  unfold uses
  rw [List.range_succ, List.countP_append, List.countP_singleton]

theorem uses_congr {N : Nat} (h : ∀ a, a < N → m' a = m a) : uses m' N o = uses m N o := by
  unfold uses
  refine List.countP_congr ?_
  intro a ha
  rw [h a (List.mem_range.1 ha)]

theorem uses_free {c : Cell} (hc : m a = some c) (N : Nat) (hN : a < N) (o : Nat) :
    uses (fun b => if b = a then none else m b) N o + (if c.listener = o then 1 else 0) = uses m N o := by
  induction N with
  | zero => omega
  | succ N ih =>
    rw [uses_succ, uses_succ]
    by_cases hb : a = N
    · subst hb
      rw [if_pos rfl, hc]
      rw [uses_congr (m' := fun b => if b = a then none else m b) (m := m) (fun b hb => if_neg (by omega))]
      simp
    · have := ih (by omega)
      rw [if_neg (show ¬ N = a by omega)]
      omega

theorem uses_pos {c : Cell} {N : Nat} (hc : m a = some c) (hN : a < N) : 0 < uses m N c.listener := by
  have := uses_free hc N hN c.listener
  rw [if_pos rfl] at this
  omega

theorem Refs.ref (R : Refs h.objs T) (ho : 0 < T o) : ∃ h', refObj h o = .ok h' ∧ h' = { h with objs := h'.objs } ∧ Refs h'.objs (plus T o) := by
  have e : h.objs o = some (T o) := by rw [R, if_neg (by omega)]
  refine ⟨{ h with objs := fun p => if p = o then some (T o + 1) else h.objs p }, by unfold refObj; rw [e], rfl, ?_⟩
  intro q
  unfold plus
  show (if q = o then _ else _) = _
  by_cases hq : q = o
  · subst hq; simp
  · rw [if_neg hq, if_neg hq]; exact R q

theorem Refs.unref (R : Refs h.objs T) (ho : 0 < T o) : ∃ h', unrefObj h o = .ok h' ∧ h' = { h with objs := h'.objs } ∧ Refs h'.objs (minus T o) := by
  have e : h.objs o = some (T o) := by rw [R, if_neg (by omega)]
  refine ⟨{ h with objs := fun p => if p = o then (if T o - 1 = 0 then none else some (T o - 1)) else h.objs p }, by unfold unrefObj; rw [e], rfl, ?_⟩
  intro q
  unfold minus
  show (if q = o then _ else _) = _
  by_cases hq : q = o
  · subst hq; simp
  · rw [if_neg hq, if_neg hq]; exact R q

theorem Refs.new_ok {objs : Nat → Option Nat} (R : Refs objs T) {N : Nat} (h : ∀ o, N ≤ o → T o = 0) : ∀ o, N ≤ o → objs o = none := by
  intro o ho
  rw [R, if_pos (h o ho)]

theorem Core.total_new (I : Core h L K) {o : Nat} (ho : h.freshObj ≤ o) : K o = 0 ∧ uses h.cells h.fresh o = 0 := by
  have := I.new o ho
  rw [I.refs] at this
  split at this
  · rename_i e
    have e' : K o + uses h.cells h.fresh o = 0 := e
    omega
  · cases this

/-! ## The lists -/

theorem Core.length (I : Core h L K) (et : NodeId) : (L et).length ≤ h.fresh := by
  have hs : L et ⊆ List.range h.fresh := by
    intro a ha
    obtain ⟨c, hc⟩ := (I.circle et).live ha
    exact List.mem_range.2 (I.bound a c hc)
  have := (List.subperm_of_subset (I.circle et).nodup hs).length_le
  simpa using this

/-- Taking an entry out of the circle, giving back its listener and freeing it. -/
theorem Core.free (I : Core h L K) (hL : L et = xs ++ a :: ys) {c : Cell} (hc : h.cells a = some c) :
    ∃ h1 c1 h2, listDel h a = .ok h1 ∧ h1.cells a = some c1 ∧ c1.listener = c.listener ∧ unrefObj h1 c.listener = .ok h2 ∧
      Core (setCell h2 a none) (fun n => if n = et then ys ++ xs else L n) K ∧ h2.fresh = h.fresh ∧ h2.heads = h.heads ∧ h2.freshObj = h.freshObj ∧
      SameBody h.cells h2.cells := by
  have C0 := I.circle et
  rw [hL] at C0
  have C : Circle h.cells (a :: (ys ++ xs)) := by
    have := C0.rot; simpa using this
  obtain ⟨h1, e1, C1, F, O⟩ := listDel_run C
  obtain ⟨c1, hc1, hb1⟩ := F.live hc
  have hl1 : c1.listener = c.listener := by
    have := congrArg (fun b => b.2.1) hb1
    exact this
  have ha := I.bound a c hc
  have R : Refs h1.objs (fun o => K o + uses h.cells h.fresh o) := by rw [F.objs]; exact I.refs
  have hpos := uses_pos hc ha
  obtain ⟨h2, e2, s2, R2⟩ := Refs.unref (o := c.listener) R (by show 0 < K c.listener + _; omega)
  have hcells : h2.cells = h1.cells := by rw [s2]
  have hfresh : h2.fresh = h.fresh := by rw [s2]; exact F.fresh
  have hheads : h2.heads = h.heads := by rw [s2]; exact F.heads
  have hfo : h2.freshObj = h.freshObj := by rw [s2]; exact F.freshObj
  have hbody : SameBody h.cells h2.cells := by rw [hcells]; exact F.body
  have nd := List.nodup_cons.1 C.nodup
  have mem_iff : ∀ x, x ∈ L et ↔ x = a ∨ x ∈ ys ++ xs := by
    intro x; rw [hL]; simp only [List.mem_append, List.mem_cons]; tauto
  refine ⟨h1, c1, h2, e1, hc1, hl1, e2, ⟨?_, ?_, ?_, ?_, ?_, ?_⟩, hfresh, hheads, hfo, hbody⟩
  · intro n
    by_cases hn : n = et
    · subst hn
      rw [if_pos rfl]
      refine C1.congr ?_
      intro x hx
      have hxa : x ≠ a := by rintro rfl; exact nd.1 hx
      simp only [nx, pv, setCell, if_neg hxa, hcells]
      exact ⟨trivial, trivial⟩
    · rw [if_neg hn]
      refine (I.circle n).congr ?_
      intro x hx
      have hx2 : x ∉ a :: (ys ++ xs) := by
        intro hh
        have : x ∈ L et := (mem_iff x).2 (by simpa using hh)
        exact hn (I.apart _ _ x hx this)
      have hxa : x ≠ a := fun e => hx2 (by simp [e])
      obtain ⟨g1, g2⟩ := O x hx2
      unfold nx at g1 ⊢
      unfold pv at g2 ⊢
      simp only [setCell, if_neg hxa, hcells]
      exact ⟨g1, g2⟩
  · intro n n' x h1 h2
    have key : ∀ k, x ∈ (if k = et then ys ++ xs else L k) → x ∈ L k := by
      intro k hk
      split at hk
      · rename_i e; rw [e]; exact (mem_iff x).2 (Or.inr hk)
      · exact hk
    exact I.apart n n' x (key n h1) (key n' h2)
  · intro x cx hx
    by_cases hxa : x = a
    · simp [setCell, hxa] at hx
    · have hx' : h2.cells x = some cx := by simpa [setCell, hxa] using hx
      have hb := hbody x
      rw [hx'] at hb
      cases h0 : h.cells x with
      | none => rw [h0] at hb; cases hb
      | some c0 =>
        obtain ⟨k, hk⟩ := I.all x c0 h0
        refine ⟨k, ?_⟩
        by_cases he : k = et
        · subst he
          rcases (mem_iff x).1 hk with h | h
          · exact absurd h hxa
          · rw [if_pos rfl]; exact h
        · rw [if_neg he]; exact hk
  · intro x cx hx
    show x < h2.fresh
    rw [hfresh]
    by_cases hxa : x = a
    · simp [setCell, hxa] at hx
    · have hx' : h2.cells x = some cx := by simpa [setCell, hxa] using hx
      have hb := hbody x
      rw [hx'] at hb
      cases h0 : h.cells x with
      | none => rw [h0] at hb; cases hb
      | some c0 => exact I.bound x c0 h0
  · show Refs h2.objs _
    have e : (fun o => K o + uses (setCell h2 a none).cells (setCell h2 a none).fresh o) = minus (fun o => K o + uses h.cells h.fresh o) c.listener := by
      funext o
      unfold minus
      show K o + uses (fun b => if b = a then none else h2.cells b) h2.fresh o = if o = c.listener then K o + uses h.cells h.fresh o - 1 else K o + uses h.cells h.fresh o
      have hc2 : h2.cells a = some c1 := by rw [hcells]; exact hc1
      have := uses_free hc2 h2.fresh (by rw [hfresh]; exact ha) o
      rw [uses_body hbody, hfresh, hl1] at this
      rw [hfresh]
      by_cases ho : o = c.listener
      · subst ho
        rw [if_pos rfl] at this ⊢
        omega
      · rw [if_neg (Ne.symm ho)] at this
        rw [if_neg ho]
        omega
    rw [e]; exact R2
  · intro o ho
    have ho' : h.freshObj ≤ o := by rw [← hfo]; exact ho
    obtain ⟨k1, k2⟩ := I.total_new ho'
    show h2.objs o = none
    rw [R2, if_pos]
    show (if o = c.listener then K o + uses h.cells h.fresh o - 1 else K o + uses h.cells h.fresh o) = 0
    split <;> omega

/-! ## Adding -/

theorem Inv.add (I : Inv h L K) (et : NodeId) (ty : DStr) (o : Nat) (cap : Bool) (ho : 0 < K o) :
    ∃ h', add h et ty o cap = .ok h' ∧ Inv h' (fun n => if n = et then L et ++ [h.fresh] else L n) K ∧ h'.fresh = h.fresh + 1 ∧ h'.freshObj = h.freshObj ∧
      (h'.cells h.fresh).map Cell.body = some (ty, o, cap) ∧ ∀ a, a ≠ h.fresh → (h'.cells a).map Cell.body = (h.cells a).map Cell.body := by
  have hfree : h.cells h.fresh = none := by
    cases hh : h.cells h.fresh with
    | none => rfl
    | some c => exact absurd (I.core.bound _ c hh) (Nat.lt_irrefl _)
  have notin : ∀ n, h.fresh ∉ L n := by
    intro n hn
    obtain ⟨c, hc⟩ := (I.core.circle n).live hn
    rw [hfree] at hc; cases hc
  let h0 : Heap := { setCell h h.fresh (some { prev := h.fresh, next := h.fresh, type := ty, listener := o, capture := cap }) with fresh := h.fresh + 1 }
  have hc0 : h0.cells h.fresh = some { prev := h.fresh, next := h.fresh, type := ty, listener := o, capture := cap } := by simp [h0, setCell]
  have hcn : ∀ a, a ≠ h.fresh → h0.cells a = h.cells a := by intro a ha; simp [h0, setCell, ha]
  have R0 : Refs h0.objs (fun o => K o + uses h.cells h.fresh o) := I.core.refs
  obtain ⟨h1, e1, s1, R1⟩ := Refs.ref (o := o) R0 (by show 0 < K o + _; omega)
  have hcells1 : h1.cells = h0.cells := by rw [s1]
  have hfresh1 : h1.fresh = h.fresh + 1 := by rw [s1]
  have hheads1 : h1.heads = h.heads := by rw [s1]; rfl
  have hfo1 : h1.freshObj = h.freshObj := by rw [s1]; rfl
  have htot : (fun q => K q + uses h0.cells (h.fresh + 1) q) = plus (fun o => K o + uses h.cells h.fresh o) o := by
    funext q
    unfold plus
    rw [uses_succ, hc0, uses_congr (m := h.cells) (fun a ha => hcn a (by omega))]
    by_cases hq : q = o
    · subst hq; simp; omega
    · rw [if_neg hq]
      have : ¬ o = q := fun e => hq e.symm
      simp [this]
  have base : ∀ h' : Heap, h'.fresh = h.fresh + 1 → h'.objs = h1.objs → h'.freshObj = h.freshObj → SameBody h0.cells h'.cells →
      (∀ n, Circle h'.cells (if n = et then L et ++ [h.fresh] else L n)) → Core h' (fun n => if n = et then L et ++ [h.fresh] else L n) K := by
    intro h' f1 f2 f3 hb hC
    have live : ∀ a c, h'.cells a = some c → a = h.fresh ∨ ∃ c', h.cells a = some c' := by
      intro a c ha
      by_cases e : a = h.fresh
      · exact Or.inl e
      · right
        have := hb a
        rw [ha, hcn a e] at this
        cases h2 : h.cells a with
        | none => rw [h2] at this; cases this
        | some c' => exact ⟨c', rfl⟩
    refine ⟨hC, ?_, ?_, ?_, ?_, ?_⟩
    · intro n n' a h1 h2
      have key : ∀ k, a ∈ (if k = et then L et ++ [h.fresh] else L k) → a ∈ L k ∨ (a = h.fresh ∧ k = et) := by
        intro k hk
        split at hk
        · rename_i e
          rcases List.mem_append.1 hk with hk | hk
          · left; rw [e]; exact hk
          · right; exact ⟨by simpa using hk, e⟩
        · exact Or.inl hk
      rcases key n h1 with k1 | ⟨k1, k2⟩ <;> rcases key n' h2 with k3 | ⟨k3, k4⟩
      · exact I.core.apart n n' a k1 k3
      · rw [k3] at k1; exact absurd k1 (notin n)
      · rw [k1] at k3; exact absurd k3 (notin n')
      · rw [k2, k4]
    · intro a c ha
      rcases live a c ha with rfl | ⟨c', hc'⟩
      · exact ⟨et, by rw [if_pos rfl]; simp⟩
      · obtain ⟨n, hn⟩ := I.core.all a c' hc'
        refine ⟨n, ?_⟩
        by_cases e : n = et
        · subst e; rw [if_pos rfl]; simp [hn]
        · rw [if_neg e]; exact hn
    · intro a c ha
      rw [f1]
      rcases live a c ha with rfl | ⟨c', hc'⟩
      · omega
      · have := I.core.bound a c' hc'; omega
    · rw [f1, f2]
      have : (fun o => K o + uses h'.cells (h.fresh + 1) o) = plus (fun o => K o + uses h.cells h.fresh o) o := by
        rw [← htot]; funext q; rw [uses_body hb]
      rw [this]; exact R1
    · intro q hq
      rw [f2, R1, if_pos]
      rw [f3] at hq
      obtain ⟨k1, k2⟩ := I.core.total_new hq
      unfold plus
      have : q ≠ o := by rintro rfl; omega
      rw [if_neg this]
      show K q + uses h.cells h.fresh q = 0
      omega
  have bodies : ∀ h' : Heap, SameBody h0.cells h'.cells → (h'.cells h.fresh).map Cell.body = some (ty, o, cap) ∧ ∀ a, a ≠ h.fresh → (h'.cells a).map Cell.body = (h.cells a).map Cell.body := by
    intro h' hb
    refine ⟨by rw [hb, hc0]; rfl, fun a ha => by rw [hb, hcn a ha]⟩
  have other : ∀ n, n ≠ et → Circle h0.cells (L n) := by
    intro n _
    refine (I.core.circle n).congr ?_
    intro a ha
    have : a ≠ h.fresh := by rintro rfl; exact notin n ha
    unfold nx pv
    rw [hcn a this]
    exact ⟨rfl, rfl⟩
  have same0 : Circle h0.cells (L et) := by
    refine (I.core.circle et).congr ?_
    intro a ha
    have : a ≠ h.fresh := by rintro rfl; exact notin et ha
    unfold nx pv
    rw [hcn a this]
    exact ⟨rfl, rfl⟩
  have erun : Ring.add h et ty o cap = (match h1.heads et with
      | none => .ok (setHead h1 et (some h.fresh))
      | some p => listAppend h1 p h.fresh) := by
    show (refObj h0 o >>= _) = _
    rw [e1]; rfl
  rw [erun, hheads1, I.head et]
  cases hLet : L et with
  | nil =>
    refine ⟨setHead h1 et (some h.fresh), rfl, ⟨?_, ?_⟩, hfresh1, hfo1, ?_⟩
    · have := base (setHead h1 et (some h.fresh)) hfresh1 rfl hfo1 (by intro a; show ((h1.cells a).map _) = _; rw [hcells1]) (by
        intro n
        show Circle h1.cells _
        rw [hcells1]
        by_cases e : n = et
        · rw [if_pos e, hLet]
          refine ⟨by simp, ?_, ?_⟩
          · intro l1 a b l2 he
            cases l1 <;> simp at he
          · intro a z h1 h2
            have e1 : h.fresh = a := by simpa using h1
            have e2 : h.fresh = z := by simpa using h2
            subst e1 e2
            exact ⟨by simp [nx, hc0], by simp [pv, hc0]⟩
        · rw [if_neg e]; exact other n e)
      rw [hLet] at this
      exact this
    · intro n
      show (if n = et then some h.fresh else h1.heads n) = _
      by_cases e : n = et
      · rw [if_pos e, if_pos e]; rfl
      · rw [if_neg e, if_neg e, hheads1]; exact I.head n
    · refine bodies _ ?_
      intro a; show ((h1.cells a).map _) = _; rw [hcells1]
  | cons p t =>
    have C1 : Circle h1.cells (p :: t) := by rw [hcells1, ← hLet]; exact same0
    obtain ⟨h2, e2, C2, F2, O2⟩ := listAppend_run C1 (n := h.fresh) (by rw [hcells1]; exact hc0) (by rw [← hLet]; exact notin et)
    have hb2 : SameBody h0.cells h2.cells := by intro a; rw [F2.body a, hcells1]
    refine ⟨h2, e2, ⟨?_, ?_⟩, by rw [F2.fresh]; exact hfresh1, by rw [F2.freshObj]; exact hfo1, bodies h2 hb2⟩
    · have := base h2 (by rw [F2.fresh]; exact hfresh1) F2.objs (by rw [F2.freshObj]; exact hfo1) hb2 (by
        intro n
        by_cases e : n = et
        · rw [if_pos e, hLet]; exact C2
        · rw [if_neg e]
          refine (other n e).congr ?_
          intro a ha
          have h1 : a ∉ p :: t := by
            intro hh
            rw [← hLet] at hh
            exact e (I.core.apart n et a ha hh)
          have h2 : a ≠ h.fresh := by rintro rfl; exact notin n ha
          obtain ⟨g1, g2⟩ := O2 a h1 h2
          rw [g1, g2, hcells1]
          exact ⟨rfl, rfl⟩)
      rw [hLet] at this
      exact this
    · intro n
      rw [F2.heads, hheads1, I.head n]
      by_cases e : n = et
      · subst e; rw [if_pos rfl, hLet]; rfl
      · rw [if_neg e]

/-! ## Removing -/

theorem put_head (hL : L et = xs ++ a :: ys) (C : Circle h.cells (L et)) {c : Cell} (hc : h.cells a = some c) :
    (if c.next = a then none else some c.next) = (ys ++ xs).head? := by
  rw [hL] at C
  have hn := C.next
  rw [nx_some hc] at hn
  have nd : (a :: (ys ++ xs)).Nodup := by
    have := (C.rot).nodup; simpa using this
  cases hyx : ys ++ xs with
  | nil =>
    rw [hyx] at hn
    have : c.next = a := by simpa using hn
    rw [if_pos this]; rfl
  | cons b r =>
    rw [hyx] at hn nd
    have : c.next = b := by simpa using hn
    have hba : b ≠ a := by rintro rfl; simp at nd
    rw [this, if_neg hba]; rfl

/-- The entry is taken out and freed, and its listener given back. -/
theorem Inv.unlink (I : Inv h L K) (hL : L et = xs ++ a :: ys) {c : Cell} (hc : h.cells a = some c) :
    ∃ h', unlink h et a c = .ok h' ∧ Inv h' (fun n => if n = et then ys ++ xs else L n) K ∧ h'.fresh = h.fresh ∧ h'.freshObj = h.freshObj ∧ h'.cells a = none ∧
      ∀ b, b ≠ a → (h'.cells b).map Cell.body = (h.cells b).map Cell.body := by
  let h0 := setHead h et (if c.next = a then none else some c.next)
  have I0 : Core h0 L K := ⟨I.core.circle, I.core.apart, I.core.all, I.core.bound, I.core.refs, I.core.new⟩
  obtain ⟨h1, c1, h2, e1, hc1, hl1, e2, I2, f1, f2, f3, hb⟩ := I0.free hL hc
  refine ⟨setCell h2 a none, ?_, ⟨I2, ?_⟩, f1, f3, by simp [setCell], ?_⟩
  · show (listDel h0 a >>= _) = _
    rw [e1]
    show (unrefObj h1 c.listener >>= _) = _
    rw [e2]; rfl
  · intro n
    show h2.heads n = _
    rw [f2]
    show (if n = et then _ else h.heads n) = _
    by_cases e : n = et
    · rw [if_pos e, if_pos e]
      exact put_head hL (I.core.circle et) hc
    · rw [if_neg e, if_neg e]; exact I.head n
  · intro b hba
    have := hb b
    simp only [setCell, if_neg hba]
    exact this

theorem removeLoop_run (m : Cell → Bool) (I : Inv h L K) : ∀ (fuel : Nat) (xs : List Nat) (a : Nat) (ys : List Nat), L et = xs ++ a :: ys →
    (∀ b ∈ xs, ∀ c, h.cells b = some c → m c = false) → ys.length < fuel →
    ((∀ b ∈ L et, ∀ c, h.cells b = some c → m c = false) ∧ removeLoop m et fuel h a = .ok h) ∨
    ∃ xs' b ys' c, L et = xs' ++ b :: ys' ∧ h.cells b = some c ∧ m c = true ∧ (∀ b ∈ xs', ∀ c, h.cells b = some c → m c = false) ∧
      removeLoop m et fuel h a = unlink h et b c := by
  intro fuel
  induction fuel with
  | zero => intro xs a ys _ _ hf; omega
  | succ fuel ih =>
    intro xs a ys hL hx hf
    obtain ⟨c, hc⟩ := (I.core.circle et).live (a := a) (by rw [hL]; simp)
    unfold removeLoop
    rw [cell_ok hc]
    simp only [Out.bind_ok]
    by_cases hm : m c = true
    · right
      exact ⟨xs, a, ys, c, hL, hc, hm, hx, by rw [if_pos hm]⟩
    · have hm' : m c = false := by simpa using hm
      rw [if_neg hm]
      have C := I.core.circle et
      have hC := C
      rw [hL] at hC
      have hn := hC.next
      rw [nx_some hc] at hn
      have hh := I.head et
      cases ys with
      | nil =>
        left
        refine ⟨?_, ?_⟩
        · intro b hb c' hc'
          rw [hL] at hb
          rcases List.mem_append.1 hb with hb | hb
          · exact hx b hb c' hc'
          · have : b = a := by simpa using hb
            subst this
            rw [hc] at hc'
            cases hc'
            exact hm'
        · rw [if_pos]
          left
          rw [hh, hL, hn]
          simp
      | cons y ys =>
        have hy : c.next = y := by simpa using hn
        rw [hy, if_neg]
        · exact ih (xs ++ [a]) y ys (by rw [hL]; simp) (by
            intro b hb c' hc'
            rcases List.mem_append.1 hb with hb | hb
            · exact hx b hb c' hc'
            · have : b = a := by simpa using hb
              subst this
              rw [hc] at hc'
              cases hc'
              exact hm') (by simp at hf; omega)
        · rw [hh, hL]
          have nd := C.nodup
          rw [hL] at nd
          cases xs with
          | nil =>
            simp only [List.nil_append, List.head?_cons]
            rintro (e | e)
            · have : a = y := by simpa using e
              subst this
              simp at nd
            · cases e
          | cons x xs =>
            simp only [List.cons_append, List.head?_cons]
            rintro (e | e)
            · have : x = y := by simpa using e
              subst this
              simp at nd
            · cases e

/-! ## Finalising -/

/-- Same as `Inv.unlink`, without the pointer in the target. -/
theorem Core.destroyOne (I : Core h L K) (hL : L et = a :: t) : ∃ h', destroyOne h a = .ok h' ∧ Core h' (fun n => if n = et then t else L n) K ∧ h'.heads = h.heads ∧
      h'.fresh = h.fresh ∧ h'.freshObj = h.freshObj ∧ h'.cells a = none ∧ ∀ b, b ≠ a → (h'.cells b).map Cell.body = (h.cells b).map Cell.body := by
  obtain ⟨c, hc⟩ := (I.circle et).live (a := a) (by rw [hL]; simp)
  obtain ⟨h1, c1, h2, e1, hc1, hl1, e2, I2, f1, f2, f3, hb⟩ := I.free (xs := []) (ys := t) hL hc
  refine ⟨setCell h2 a none, ?_, by simpa using I2, f2, f1, f3, by simp [setCell], ?_⟩
  · unfold Ring.destroyOne
    rw [e1]
    simp only [Out.bind_ok]
    rw [cell_ok hc1]
    simp only [Out.bind_ok]
    rw [hl1, e2]; rfl
  · intro b hba
    have := hb b
    simp only [setCell, if_neg hba]
    exact this

theorem destroyLoop_run : ∀ (fuel : Nat) (t : List Nat) (h : Heap) (L : NodeId → List Nat) (a : Nat), Core h L K → L et = a :: t → t.length < fuel →
    ∃ h', destroyLoop fuel h a = .ok h' ∧ Core h' (fun n => if n = et then [] else L n) K ∧ h'.heads = h.heads ∧ h'.fresh = h.fresh ∧ h'.freshObj = h.freshObj ∧
      (∀ b ∈ L et, h'.cells b = none) ∧ ∀ b, b ∉ L et → (h'.cells b).map Cell.body = (h.cells b).map Cell.body := by
  intro fuel
  induction fuel with
  | zero => intro t h L a _ _ hf; omega
  | succ fuel ih =>
    intro t h L a I hL hf
    obtain ⟨c, hc⟩ := (I.circle et).live (a := a) (by rw [hL]; simp)
    have C := I.circle et
    rw [hL] at C
    have hn := Circle.next (xs := []) (ys := t) C
    rw [nx_some hc] at hn
    obtain ⟨h1, e1, I1, f1, f2, f3, g1, g2⟩ := I.destroyOne hL
    unfold destroyLoop
    rw [cell_ok hc]
    simp only [Out.bind_ok]
    cases t with
    | nil =>
      have : c.next = a := by simpa using hn
      rw [if_pos this.symm]
      refine ⟨h1, e1, I1, f1, f2, f3, ?_, ?_⟩
      · intro b hb
        rw [hL] at hb
        have : b = a := by simpa using hb
        rw [this]; exact g1
      · intro b hb
        exact g2 b (by rintro rfl; exact hb (by rw [hL]; simp))
    | cons y t =>
      have hy : c.next = y := by simpa using hn
      have hya : y ≠ a := by
        rintro rfl
        have := C.nodup
        simp at this
      rw [hy, if_neg (Ne.symm hya), e1]
      simp only [Out.bind_ok]
      obtain ⟨h2, e2, I2, k1, k2, k3, k4, k5⟩ := ih t h1 _ y I1 (if_pos rfl) (by simp at hf; omega)
      rw [if_pos rfl] at k4 k5
      have nd := List.nodup_cons.1 C.nodup
      refine ⟨h2, e2, ?_, k1.trans f1, k2.trans f2, k3.trans f3, ?_, ?_⟩
      · have e : (fun n => if n = et then [] else if n = et then y :: t else L n) = fun n => if n = et then ([] : List Nat) else L n := by
          funext n; split <;> rfl
        rw [e] at I2
        exact I2
      · intro b hb
        rw [hL] at hb
        rcases List.mem_cons.1 hb with rfl | hb
        · have := k5 b nd.1
          rw [g1] at this
          simpa using this
        · exact k4 b hb
      · intro b hb
        rw [hL] at hb
        rw [k5 b (fun hh => hb (List.mem_cons_of_mem _ hh)), g2 b (fun e => hb (by simp [e]))]

theorem Inv.finalise (I : Inv h L K) (et : NodeId) : ∃ h', finalise h et = .ok h' ∧ Inv h' (fun n => if n = et then [] else L n) K ∧ h'.fresh = h.fresh ∧ h'.freshObj = h.freshObj ∧
      (∀ b ∈ L et, h'.cells b = none) ∧ ∀ b, b ∉ L et → (h'.cells b).map Cell.body = (h.cells b).map Cell.body := by
  unfold Ring.finalise
  rw [I.head et]
  cases hL : L et with
  | nil =>
    refine ⟨h, rfl, ?_, rfl, rfl, by simp, by simp⟩
    have e : (fun n => if n = et then [] else L n) = L := by
      funext n
      by_cases e : n = et
      · rw [if_pos e, e, hL]
      · rw [if_neg e]
    rw [e]; exact I
  | cons a t =>
    obtain ⟨h1, e1, I1, f1, f2, f3, g1, g2⟩ := destroyLoop_run (h.fresh + 1) t h L a I.core hL (by
      have := I.core.length et
      rw [hL] at this
      simp at this; omega)
    refine ⟨setHead h1 et none, ?_, ⟨⟨I1.circle, I1.apart, I1.all, I1.bound, I1.refs, I1.new⟩, ?_⟩, f2, f3, by rw [← hL]; exact g1, by rw [← hL]; exact g2⟩
    · simp only [List.head?_cons]
      rw [e1]; rfl
    · intro n
      show (if n = et then none else h1.heads n) = _
      by_cases e : n = et
      · rw [if_pos e, if_pos e]; rfl
      · rw [if_neg e, if_neg e, f1]; exact I.head n

/-! ## Looking for an entry -/

theorem hasLoop_run (C : Circle h.cells (p :: t)) (ent : Nat) : ∀ (fuel : Nat) (xs : List Nat) (a : Nat) (ys : List Nat), p :: t = xs ++ a :: ys → ent ∉ xs → ys.length < fuel →
    hasLoop h p ent fuel a = .ok (decide (ent ∈ p :: t)) := by
  intro fuel
  induction fuel with
  | zero => intro xs a ys _ _ hf; omega
  | succ fuel ih =>
    intro xs a ys hL hx hf
    unfold hasLoop
    by_cases he : a = ent
    · rw [if_pos he, decide_eq_true]
      rw [hL, ← he]; simp
    · rw [if_neg he]
      obtain ⟨c, hc⟩ := C.live (a := a) (by rw [hL]; simp)
      rw [cell_ok hc]
      simp only [Out.bind_ok]
      have hC := C
      rw [hL] at hC
      have hn := hC.next
      rw [nx_some hc] at hn
      cases ys with
      | nil =>
        have hp : c.next = p := by
          have : some c.next = (p :: t).head? := by rw [hL, hn]; simp
          simpa using this
        rw [if_pos hp, decide_eq_false]
        rw [hL]
        simp only [List.mem_append, List.mem_singleton]
        rintro (h | h)
        · exact hx h
        · exact he h.symm
      | cons y ys =>
        have hy : c.next = y := by simpa using hn
        have hyp : y ≠ p := by
          rintro rfl
          have nd := C.nodup
          rw [hL] at nd
          cases xs with
          | nil =>
            have : y = a := by simpa using (List.cons.inj hL).1
            subst this; simp at nd
          | cons x xs =>
            have : y = x := by simpa using (List.cons.inj hL).1
            subst this; simp at nd
        rw [hy, if_neg hyp]
        exact ih (xs ++ [a]) y ys (by rw [hL]; simp) (by
          simp only [List.mem_append, List.mem_singleton]
          rintro (h | h)
          · exact hx h
          · exact he h.symm) (by simp at hf; omega)

/-! ## Iterating -/

/-- What one call hands out for the entry `a`. -/
def given (m : Mem) (type : Option DStr) (cap : Bool) (a : Nat) : Option Nat :=
  match m a with
  | none => none
  | some c => if type.isNone || (Str.isEqual (some c.type) type && cap == c.capture) then some c.listener else none

/-- The client holds one more reference to the listener handed out. -/
def grant (K : Nat → Nat) : Option Nat → Nat → Nat
  | none => K
  | some o => plus K o

theorem Inv.iterAt (I : Inv h L K) (type : Option DStr) (cap : Bool) (hL : L et = xs ++ a :: ys) (hb : (ys ++ xs ++ [a]).head? = some b) :
    ∃ h', iterAt h type cap a = .ok (h', some b, given h.cells type cap b) ∧ Inv h' L (grant K (given h.cells type cap b)) ∧ h' = { h with objs := h'.objs } := by
  have C := I.core.circle et
  obtain ⟨c, hc⟩ := C.live (a := a) (by rw [hL]; simp)
  have hC := C
  rw [hL] at hC
  have hn := hC.next
  rw [nx_some hc, hb] at hn
  have hn' : c.next = b := by simpa using hn
  have hbm : b ∈ L et := by
    have := List.mem_of_head? hb
    rw [hL]
    simp only [List.mem_append, List.mem_cons, List.mem_singleton, List.not_mem_nil] at this ⊢
    tauto
  obtain ⟨cb, hcb⟩ := C.live hbm
  unfold Ring.iterAt
  rw [cell_ok hc]
  simp only [Out.bind_ok]
  rw [hn', cell_ok hcb]
  simp only [Out.bind_ok]
  have hg : given h.cells type cap b = if type.isNone || (Str.isEqual (some cb.type) type && cap == cb.capture) then some cb.listener else none := by
    unfold given; rw [hcb]
  by_cases ht : (type.isNone || (Str.isEqual (some cb.type) type && cap == cb.capture)) = true
  · rw [hg, if_pos ht, if_pos ht]
    have hpos := uses_pos hcb (I.core.bound b cb hcb)
    obtain ⟨h1, e1, s1, R1⟩ := Refs.ref (o := cb.listener) I.core.refs (by show 0 < K cb.listener + _; omega)
    rw [e1]
    have hcells : h1.cells = h.cells := by rw [s1]
    have hfresh : h1.fresh = h.fresh := by rw [s1]
    have hheads : h1.heads = h.heads := by rw [s1]
    have hfo : h1.freshObj = h.freshObj := by rw [s1]
    refine ⟨h1, rfl, ⟨⟨?_, I.core.apart, ?_, ?_, ?_, ?_⟩, ?_⟩, s1⟩
    · intro n; rw [hcells]; exact I.core.circle n
    · intro x cx hx; rw [hcells] at hx; exact I.core.all x cx hx
    · intro x cx hx; rw [hcells] at hx; rw [hfresh]; exact I.core.bound x cx hx
    · have e : (fun o => grant K (some cb.listener) o + uses h1.cells h1.fresh o) = plus (fun o => K o + uses h.cells h.fresh o) cb.listener := by
        funext o
        rw [hcells, hfresh]
        show (if o = cb.listener then K o + 1 else K o) + _ = if o = cb.listener then K o + uses h.cells h.fresh o + 1 else K o + uses h.cells h.fresh o
        split <;> omega
      rw [e]; exact R1
    · intro o ho
      rw [hfo] at ho
      obtain ⟨k1, k2⟩ := I.core.total_new ho
      have : o ≠ cb.listener := by rintro rfl; omega
      rw [R1, if_pos]
      show (if o = cb.listener then K o + uses h.cells h.fresh o + 1 else K o + uses h.cells h.fresh o) = 0
      rw [if_neg this]; omega
    · intro n; rw [hheads]; exact I.head n
  · rw [hg, if_neg ht, if_neg ht]
    exact ⟨h, rfl, I, rfl⟩

end Dom.Events.Ring
