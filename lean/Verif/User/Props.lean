import Verif.User.Model
import Mathlib.Tactic.Tauto
import Mathlib.Data.List.Induction
/-!
# C45: user data is a map
-/
namespace Dom.User
set_option linter.unusedSimpArgs false

open Dom.Str (DStr Bytes contents)

/-! ## Specification -/

/-- A call of setUserData. -/
structure Call where
  key : Option DStr
  data : Option Nat
  handler : Option Nat

/-- The last of the calls about this key, with its data and its handler. -/
def lastCall (k : Bytes) (cs : List Call) : Option Call := cs.reverse.find? fun c => contents c.key = k

/-- The value of the key after these calls: that of the last call about it, NULL if there was none. -/
def valueOf (k : Bytes) (cs : List Call) : Option Nat := (lastCall k cs).bind (·.data)

/-- The calls, one after the other, on a new node. -/
def runAll : List Call → Node → Out Node
  | [], n => .ok n
  | c :: cs, n => do
    let (_, n) ← setUserData c.key c.data c.handler n
    runAll cs n

/-! ## The list -/

/-- A cell with its links left out. -/
structure Ent where
  a : Nat
  key : Option DStr
  data : Option Nat
  handler : Option Nat

/-- The cells of these entries, linked in this order: `p` points to the first, whose `prev` is `prev`; `lp` is the last, or `prev`, and `q`
its `next`. -/
def Seg (m : Nat → Option Cell) : Option Nat → Option Nat → List Ent → Option Nat → Option Nat → Prop
  | prev, p, [], lp, q => prev = lp ∧ p = q
  | prev, p, e :: es, lp, q => p = some e.a ∧ ∃ nx, m e.a = some ⟨e.key, e.data, e.handler, nx, prev⟩ ∧ Seg m (some e.a) nx es lp q

theorem Seg.congr {m m' : Nat → Option Cell} {es : List Ent} : ∀ {prev p lp q}, (∀ e ∈ es, m' e.a = m e.a) → Seg m prev p es lp q → Seg m' prev p es lp q := by
  induction es with
  | nil => intro _ _ _ _ _ h; exact h
  | cons e es ih =>
    intro prev p lp q hm h
    obtain ⟨h1, nx, h2, h3⟩ := h
    exact ⟨h1, nx, by rw [hm e (by simp), h2], ih (fun x hx => hm x (by simp [hx])) h3⟩

theorem Seg.append {m : Nat → Option Cell} {l1 l2 : List Ent} : ∀ {prev p lp q}, Seg m prev p (l1 ++ l2) lp q ↔ ∃ mp x, Seg m prev p l1 mp x ∧ Seg m mp x l2 lp q := by
  induction l1 with
  | nil =>
    intro prev p lp q
    constructor
    · intro h; exact ⟨prev, p, ⟨rfl, rfl⟩, h⟩
    · rintro ⟨mp, x, ⟨rfl, rfl⟩, h⟩; exact h
  | cons e l1 ih =>
    intro prev p lp q
    constructor
    · rintro ⟨h1, nx, h2, h3⟩
      obtain ⟨mp, x, h4, h5⟩ := ih.1 h3
      exact ⟨mp, x, ⟨h1, nx, h2, h4⟩, h5⟩
    · rintro ⟨mp, x, ⟨h1, nx, h2, h4⟩, h5⟩
      exact ⟨h1, nx, h2, ih.2 ⟨mp, x, h4, h5⟩⟩

/-- The state of a node whose entries are `es`. -/
structure Good (n : Node) (es : List Ent) : Prop where
  seg : ∃ lp, Seg n.cells none n.head es lp none
  nodup : (es.map (·.a)).Nodup
  old : ∀ e ∈ es, e.a < n.fresh
  keys : (es.map fun e => contents e.key).Nodup
  free : ∀ a, a ∉ es.map (·.a) → n.cells a = none

theorem Good.blank : Good Node.blank [] := ⟨⟨none, rfl, rfl⟩, by simp, by simp, by simp, fun _ _ => rfl⟩

theorem nodup_bound : ∀ (k : Nat) (l : List Nat), l.Nodup → (∀ a ∈ l, a < k) → l.length ≤ k := by
  intro k
  induction k with
  | zero =>
    intro l _ h
    cases l with
    | nil => simp
    | cons a l => exact absurd (h a (by simp)) (Nat.not_lt_zero _)
  | succ k ih =>
    intro l hn h
    have h1 := ih (l.erase k) (hn.erase _) (by
      intro a ha
      have h2 := h a (List.mem_of_mem_erase ha)
      have h3 : a ≠ k := ((List.Nodup.mem_erase_iff hn).1 ha).1
      omega)
    have h2 := List.length_erase (a := k) (l := l)
    split at h2 <;> omega

theorem Good.fuel {n : Node} {es : List Ent} (h : Good n es) : es.length ≤ n.fresh := by
  have := nodup_bound n.fresh (es.map (·.a)) h.nodup (by
    intro a ha
    obtain ⟨e, h1, rfl⟩ := List.mem_map.1 ha
    exact h.old e h1)
  simpa using this

theorem find_run {n : Node} {key : Option DStr} {es : List Ent} : ∀ {k prev p lp}, Seg n.cells prev p es lp none → es.length ≤ k →
    find n key k p = .ok ((es.find? fun e => contents e.key = contents key).map (·.a)) := by
  induction es with
  | nil =>
    intro k prev p lp h _
    obtain ⟨_, rfl⟩ := h
    cases k <;> rfl
  | cons e es ih =>
    intro k prev p lp h hk
    obtain ⟨rfl, nx, h2, h3⟩ := h
    obtain ⟨k, rfl⟩ : ∃ k', k = k' + 1 := ⟨k - 1, by simp at hk; omega⟩
    unfold find Node.read
    rw [h2]
    simp only [Out.bind_ok]
    by_cases he : contents e.key = contents key
    · rw [if_pos ((Str.C06_isEqual_iff _ _).2 he), List.find?_cons_of_pos (by simpa using he)]
      rfl
    · rw [if_neg (fun hc => he ((Str.C06_isEqual_iff _ _).1 hc)), List.find?_cons_of_neg (by simpa using he)]
      exact ih h3 (by simpa using hk)

theorem Seg.read {m : Nat → Option Cell} {es : List Ent} : ∀ {prev p lp q e}, Seg m prev p es lp q → e ∈ es →
    ∃ nx pv, m e.a = some ⟨e.key, e.data, e.handler, nx, pv⟩ := by
  induction es with
  | nil => intro _ _ _ _ _ _ h; cases h
  | cons x es ih =>
    intro prev p lp q e h he
    obtain ⟨_, nx, h2, h3⟩ := h
    rcases List.mem_cons.1 he with rfl | he
    · exact ⟨nx, prev, h2⟩
    · exact ih h3 he

theorem get_run {n : Node} {es : List Ent} (h : Good n es) (key : Option DStr) :
    getUserData key n = .ok ((es.find? fun e => contents e.key = contents key).bind (·.data)) := by
  obtain ⟨lp, hs⟩ := h.seg
  unfold getUserData
  rw [find_run hs h.fuel]
  simp only [Out.bind_ok]
  cases hf : es.find? (fun e => contents e.key = contents key) with
  | none => rfl
  | some e =>
    obtain ⟨nx, pv, h1⟩ := hs.read (List.mem_of_find?_eq_some hf)
    simp only [Option.map_some, Node.read, h1, Out.bind_ok, Option.bind_some]

theorem assign_run {n : Node} {l1 l2 : List Ent} {e : Ent} (h : Good n (l1 ++ e :: l2)) (d hd : Option Nat) :
    ∃ n', assign n e.a d hd = .ok (e.data, n') ∧ Good n' (l1 ++ ⟨e.a, e.key, d, hd⟩ :: l2) := by
  obtain ⟨lp, hs⟩ := h.seg
  obtain ⟨mp, x, h1, h2⟩ := Seg.append.1 hs
  obtain ⟨rfl, nx, h3, h4⟩ := h2
  have hn := h.nodup
  simp only [List.map_append, List.map_cons, List.nodup_append, List.nodup_cons, List.mem_cons, List.mem_map] at hn
  unfold assign Node.read
  rw [h3]
  refine ⟨_, rfl, ⟨lp, Seg.append.2 ⟨mp, some e.a, ?_, rfl, nx, ?_, ?_⟩⟩, ?_, ?_, ?_, ?_⟩
  · refine h1.congr fun y hy => ?_
    have : y.a ≠ e.a := fun hc => hn.2.2 y.a ⟨y, hy, rfl⟩ e.a (Or.inl rfl) hc
    simp [Node.put, this]
  · simp [Node.put]
  · refine h4.congr fun y hy => ?_
    have : y.a ≠ e.a := fun hc => hn.2.1.1 ⟨y, hy, hc⟩
    simp [Node.put, this]
  · simpa using h.nodup
  · intro y hy
    simp only [List.mem_append, List.mem_cons] at hy
    rcases hy with hy | rfl | hy
    · exact h.old y (by simp [hy])
    · exact h.old e (by simp)
    · exact h.old y (by simp [hy])
  · simpa using h.keys
  · intro a ha
    have h5 : a ≠ e.a := by rintro rfl; simp at ha
    have h6 := h.free a (by simpa using ha)
    simp [Node.put, h5, h6]

theorem push_run {n : Node} {es : List Ent} (h : Good n es) (key : Option DStr) (hk : ∀ e ∈ es, contents e.key ≠ contents key) :
    ∃ n', push n key = .ok (n.fresh, n') ∧ Good n' (⟨n.fresh, key, none, none⟩ :: es) := by
  obtain ⟨lp, hs⟩ := h.seg
  have hf : ∀ e ∈ es, e.a ≠ n.fresh := fun e he => Nat.ne_of_lt (h.old e he)
  have hkeys : (List.map (fun e => contents e.key) (⟨n.fresh, key, none, none⟩ :: es)).Nodup := by
    simp only [List.map_cons, List.nodup_cons, List.mem_map, not_exists, not_and]
    exact ⟨hk, h.keys⟩
  have hnd : (List.map (·.a) (⟨n.fresh, key, none, none⟩ :: es)).Nodup := by
    simp only [List.map_cons, List.nodup_cons, List.mem_map, not_exists, not_and]
    exact ⟨hf, h.nodup⟩
  unfold push
  cases es with
  | nil =>
    obtain ⟨rfl, hh⟩ := hs
    rw [hh]
    refine ⟨_, rfl, ⟨some n.fresh, rfl, none, by simp [Node.put], rfl, rfl⟩, hnd, ?_, hkeys, ?_⟩
    · intro e he; simp at he; subst he; exact Nat.lt_succ_self _
    · intro a ha
      have : a ≠ n.fresh := by simpa using ha
      have h2 := h.free a (by simp)
      simp [Node.put, this, h2]
  | cons e es =>
    obtain ⟨hh, nx, h2, h3⟩ := hs
    have he := hf e (by simp)
    have hn := h.nodup
    simp only [List.map_cons, List.nodup_cons, List.mem_map, not_exists, not_and] at hn
    rw [hh]
    simp only [Node.update, Node.read, Node.put, if_neg he, h2, Out.bind_ok]
    refine ⟨_, rfl, ⟨lp, rfl, some e.a, ?_, rfl, nx, ?_, ?_⟩, hnd, ?_, hkeys, ?_⟩
    · simp [Ne.symm he]
    · simp
    · refine h3.congr fun y hy => ?_
      have h4 : y.a ≠ e.a := hn.1 y hy
      have h5 := hf y (by simp [hy])
      simp [h4, h5]
    · intro y hy
      rcases List.mem_cons.1 hy with rfl | hy
      · exact Nat.lt_succ_self _
      · exact Nat.lt_succ_of_lt (h.old y hy)
    · intro a ha
      simp only [List.map_cons, List.mem_cons, not_or] at ha
      have h4 := h.free a (by simpa using ha.2)
      simp [ha.1, ha.2.1, h4]

theorem Seg.setPrev {m : Nat → Option Cell} {e : Ent} {es : List Ent} {pv pv' lp q nx} (hn : ((e :: es).map (·.a)).Nodup)
    (h : Seg m pv (some e.a) (e :: es) lp q) (hx : m e.a = some ⟨e.key, e.data, e.handler, nx, pv⟩) :
    Seg (fun x => if x = e.a then some ⟨e.key, e.data, e.handler, nx, pv'⟩ else m x) pv' (some e.a) (e :: es) lp q := by
  obtain ⟨_, nx', h2, h3⟩ := h
  rw [h2] at hx
  injection hx with hx
  injection hx with _ _ _ hx _
  subst hx
  simp only [List.map_cons, List.nodup_cons, List.mem_map, not_exists, not_and] at hn
  refine ⟨rfl, nx', by simp, h3.congr fun y hy => ?_⟩
  have := hn.1 y hy
  simp [this]

theorem unlink_run {n : Node} {l1 l2 : List Ent} {e : Ent} (h : Good n (l1 ++ e :: l2)) :
    ∃ n', unlink n e.a = .ok (e.data, n') ∧ Good n' (l1 ++ l2) := by
  obtain ⟨lp, hs⟩ := h.seg
  obtain ⟨mp, x, h1, h2⟩ := Seg.append.1 hs
  obtain ⟨rfl, nx, h3, h4⟩ := h2
  have hn := h.nodup
  simp only [List.map_append, List.map_cons, List.nodup_append, List.nodup_cons, List.mem_cons, List.mem_map] at hn
  have hne1 : ∀ y ∈ l1, y.a ≠ e.a := fun y hy hc => hn.2.2 y.a ⟨y, hy, rfl⟩ e.a (Or.inl rfl) hc
  have hne2 : ∀ y ∈ l2, y.a ≠ e.a := fun y hy hc => hn.2.1.1 ⟨y, hy, hc⟩
  have hne12 : ∀ y ∈ l1, ∀ z ∈ l2, y.a ≠ z.a := fun y hy z hz hc => hn.2.2 y.a ⟨y, hy, rfl⟩ z.a (Or.inr ⟨z, hz, rfl⟩) hc
  have hnd : ((l1 ++ l2).map (·.a)).Nodup := h.nodup.sublist ((List.Sublist.append_left (List.sublist_cons_self _ _) _).map _)
  have hkeys : ((l1 ++ l2).map fun e => contents e.key).Nodup := h.keys.sublist ((List.Sublist.append_left (List.sublist_cons_self _ _) _).map _)
  have hold : ∀ y ∈ l1 ++ l2, y.a < n.fresh := fun y hy => h.old y (by simp at hy ⊢; tauto)
  -- the link of the cell behind
  obtain ⟨n1, hn1, hfr1, hhd1, hs1, hs2, hsame⟩ : ∃ n1, unlinkNext n ⟨e.key, e.data, e.handler, nx, mp⟩ = .ok n1 ∧ n1.fresh = n.fresh ∧ n1.head = n.head ∧
      Seg n1.cells none n.head l1 mp (some e.a) ∧ (∃ lp, Seg n1.cells mp nx l2 lp none) ∧ ∀ a, a ∉ l2.map (·.a) → n1.cells a = n.cells a := by
    unfold unlinkNext
    cases l2 with
    | nil =>
      obtain ⟨rfl, rfl⟩ := h4
      exact ⟨n, rfl, rfl, rfl, h1, ⟨mp, rfl, rfl⟩, fun _ _ => rfl⟩
    | cons b l2 =>
      have hb := h4
      obtain ⟨rfl, nx', h5, h6⟩ := h4
      simp only [Node.update, Node.read, h5, Out.bind_ok]
      refine ⟨_, rfl, rfl, rfl, ?_, ⟨lp, Seg.setPrev (hnd.sublist ((List.sublist_append_right l1 (b :: l2)).map _)) hb h5⟩, ?_⟩
      · refine h1.congr fun y hy => ?_
        have := hne12 y hy b (by simp)
        simp [Node.put, this]
      · intro a ha
        have : a ≠ b.a := by rintro rfl; simp at ha
        simp [Node.put, this]
  obtain ⟨n2, hn2, hfr2, hs3, hsame2⟩ : ∃ n2, unlinkPrev n1 ⟨e.key, e.data, e.handler, nx, mp⟩ = .ok n2 ∧ n2.fresh = n.fresh ∧
      (∃ lp, Seg n2.cells none n2.head (l1 ++ l2) lp none) ∧ ∀ a, a ∉ (l1 ++ l2).map (·.a) → n2.cells a = n.cells a := by
    obtain ⟨lp2, hs2⟩ := hs2
    unfold unlinkPrev
    rcases List.eq_nil_or_concat l1 with rfl | ⟨l1', d, rfl⟩
    · obtain ⟨rfl, _⟩ := hs1
      exact ⟨_, rfl, hfr1, ⟨lp2, hs2⟩, fun a ha => hsame a (by simpa using ha)⟩
    · rw [List.concat_eq_append] at *
      obtain ⟨mp', x', h5, h6⟩ := Seg.append.1 hs1
      obtain ⟨rfl, nx', h7, rfl, rfl⟩ := h6
      have hd1 : ∀ y ∈ l1', y.a ≠ d.a := by
        intro y hy hc
        have := hn.1
        simp only [List.map_append, List.map_cons, List.map_nil, List.nodup_append, List.mem_map] at this
        exact this.2.2 y.a ⟨y, hy, rfl⟩ d.a (by simp) hc
      simp only [Node.update, Node.read, h7, Out.bind_ok]
      refine ⟨_, rfl, hfr1, ⟨lp2, Seg.append.2 ⟨some d.a, nx, Seg.append.2 ⟨mp', some d.a, ?_, ⟨rfl, nx, ?_, rfl, rfl⟩⟩, ?_⟩⟩, ?_⟩
      · show Seg _ none n1.head l1' _ _
        rw [hhd1]
        refine h5.congr fun y hy => ?_
        simp [Node.put, hd1 y hy]
      · simp [Node.put]
      · refine hs2.congr fun y hy => ?_
        have := hne12 d (by simp) y hy
        simp [Node.put, Ne.symm this]
      · intro a ha
        have h8 : a ≠ d.a := by rintro rfl; simp at ha
        have h9 := hsame a (by simp at ha ⊢; tauto)
        simp [Node.put, h8, h9]
  unfold unlink
  simp only [Node.read, h3, Out.bind_ok, hn1, hn2]
  obtain ⟨lp3, hs3⟩ := hs3
  refine ⟨_, rfl, ⟨lp3, ?_⟩, hnd, ?_, hkeys, ?_⟩
  · refine hs3.congr fun y hy => ?_
    have : y.a ≠ e.a := by
      rcases List.mem_append.1 hy with hy | hy
      · exact hne1 y hy
      · exact hne2 y hy
    simp [Node.put, this]
  · intro y hy
    show y.a < n2.fresh
    rw [hfr2]
    exact hold y hy
  · intro a ha
    by_cases hae : a = e.a
    · simp [Node.put, hae]
    · have h5 := hsame2 a ha
      have h6 := h.free a (by simp at ha ⊢; tauto)
      simp [Node.put, hae, h5, h6]

/-! ## Histories -/

/-- The entry of a key. -/
def entry (k : Bytes) (es : List Ent) : Option Ent := es.find? fun e => contents e.key = k

/-- The entries say what the calls said. -/
def View (es : List Ent) (cs : List Call) : Prop := ∀ k, match entry k es with
  | some e => ∃ c, lastCall k cs = some c ∧ c.data = e.data ∧ c.handler = e.handler
  | none => valueOf k cs = none

theorem lastCall_snoc (k : Bytes) (cs : List Call) (c : Call) : lastCall k (cs ++ [c]) = if contents c.key = k then some c else lastCall k cs := by
  unfold lastCall
  rw [List.reverse_append]
  show List.find? _ (c :: cs.reverse) = _
  by_cases h : contents c.key = k
  · rw [if_pos h, List.find?_cons_of_pos (by simpa using h)]
  · rw [if_neg h, List.find?_cons_of_neg (by simpa using h)]

theorem View.value {es : List Ent} {cs : List Call} (h : View es cs) (k : Bytes) : (entry k es).bind (·.data) = valueOf k cs := by
  have := h k
  cases he : entry k es with
  | none => rw [he] at this; exact this.symm
  | some e =>
    rw [he] at this
    obtain ⟨c, h1, h2, _⟩ := this
    simp [valueOf, h1, h2]

theorem set_run {n : Node} {es : List Ent} {cs : List Call} (h : Good n es) (hv : View es cs) (c : Call) :
    ∃ n' es', setUserData c.key c.data c.handler n = .ok (valueOf (contents c.key) cs, n') ∧ Good n' es' ∧ View es' (cs ++ [c]) := by
  obtain ⟨lp, hs⟩ := h.seg
  rw [← hv.value]
  unfold setUserData
  rw [find_run hs h.fuel]
  simp only [Out.bind_ok]
  rw [show es.find? (fun e => decide (contents e.key = contents c.key)) = entry (contents c.key) es from rfl]
  cases hf : entry (contents c.key) es with
  | none =>
    have hk : ∀ e ∈ es, contents e.key ≠ contents c.key := by simpa [entry] using hf
    obtain ⟨n1, h1, h2⟩ := push_run h c.key hk
    obtain ⟨n2, h3, h4⟩ := assign_run (l1 := []) h2 c.data c.handler
    simp only [Option.map_none, h1, Out.bind_ok, h3]
    refine ⟨n2, _, rfl, h4, fun k => ?_⟩
    rw [List.nil_append]
    by_cases hkc : contents c.key = k
    · rw [show entry k _ = _ from List.find?_cons_of_pos (by simpa using hkc)]
      exact ⟨c, by rw [lastCall_snoc, if_pos hkc], rfl, rfl⟩
    · rw [show entry k (_ :: es) = entry k es from List.find?_cons_of_neg (by simpa using hkc)]
      have := hv k
      simp only [valueOf, lastCall_snoc, if_neg hkc] at this ⊢
      exact this
  | some e =>
    obtain ⟨he, l1, l2, rfl, hl1⟩ := List.find?_eq_some_iff_append.1 hf
    simp only [decide_eq_true_eq] at he
    have hl1' : ∀ y ∈ l1, contents y.key ≠ contents c.key := by simpa using hl1
    have other : ∀ k, contents c.key ≠ k → ∀ (e' : Ent), contents e'.key = contents c.key → entry k (l1 ++ e' :: l2) = entry k (l1 ++ l2) := by
      intro k hk e' he'
      unfold entry
      rw [List.find?_append, List.find?_append, List.find?_cons_of_neg (by simpa [he'] using hk)]
    cases hd : c.data with
    | none =>
      obtain ⟨n1, h1, h2⟩ := unlink_run h
      refine ⟨n1, _, h1, h2, fun k => ?_⟩
      by_cases hkc : contents c.key = k
      · have hno : entry k (l1 ++ l2) = none := by
          subst hkc
          unfold entry
          rw [List.find?_eq_none]
          intro y hy
          simp only [decide_eq_true_eq]
          rcases List.mem_append.1 hy with hy | hy
          · exact hl1' y hy
          · have := h.keys
            simp only [List.map_append, List.map_cons, List.nodup_append, List.nodup_cons, List.mem_map, not_exists, not_and] at this
            rw [← he]
            exact this.2.1.1 y hy
        rw [hno]
        simp only [valueOf, lastCall_snoc, if_pos hkc]
        exact hd
      · have := hv k
        rw [other k hkc e he] at this
        simp only [valueOf, lastCall_snoc, if_neg hkc] at this ⊢
        exact this
    | some d =>
      obtain ⟨n1, h1, h2⟩ := assign_run h (some d) c.handler
      refine ⟨n1, _, h1, h2, fun k => ?_⟩
      by_cases hkc : contents c.key = k
      · have : entry k (l1 ++ ⟨e.a, e.key, some d, c.handler⟩ :: l2) = some ⟨e.a, e.key, some d, c.handler⟩ := by
          subst hkc
          unfold entry
          rw [List.find?_append, List.find?_eq_none.2 (by simpa using hl1'), List.find?_cons_of_pos (by simpa using he)]
          rfl
        rw [this]
        exact ⟨c, by rw [lastCall_snoc, if_pos hkc], hd, rfl⟩
      · have := hv k
        rw [other k hkc e he] at this
        rw [other k hkc ⟨e.a, e.key, some d, c.handler⟩ he]
        simp only [valueOf, lastCall_snoc, if_neg hkc] at this ⊢
        exact this

theorem runAll_snoc (cs : List Call) (c : Call) : ∀ n, runAll (cs ++ [c]) n = (do let n ← runAll cs n; let (_, n) ← setUserData c.key c.data c.handler n; .ok n) := by
  induction cs with
  | nil => intro n; rfl
  | cons x cs ih =>
    intro n
    show (do let (_, n) ← setUserData x.key x.data x.handler n; runAll (cs ++ [c]) n) = (do
      let n ← (do let (_, n) ← setUserData x.key x.data x.handler n; runAll cs n)
      let (_, n) ← setUserData c.key c.data c.handler n
      .ok n)
    cases setUserData x.key x.data x.handler n with
    | ok r => simp only [Out.bind_ok, ih]
    | exc e => rfl
    | fault f => rfl

theorem history (cs : List Call) : ∃ n es, runAll cs Node.blank = .ok n ∧ Good n es ∧ View es cs := by
  induction cs using List.reverseRecOn with
  | nil => exact ⟨_, [], rfl, Good.blank, fun k => rfl⟩
  | append_singleton cs c ih =>
    obtain ⟨n, es, h1, h2, h3⟩ := ih
    obtain ⟨n', es', h4, h5, h6⟩ := set_run h2 h3 c
    exact ⟨n', es', by rw [runAll_snoc, h1]; simp [h4], h5, h6⟩

/-! ## C45 -/

/-- C45: after any calls of setUserData, each of which succeeds, getUserData returns the value of the last call about the key, NULL if there
was none. -/
theorem C45_get (cs : List Call) : ∃ n, runAll cs Node.blank = .ok n ∧ ∀ key, getUserData key n = .ok (valueOf (contents key) cs) := by
  obtain ⟨n, es, h1, h2, h3⟩ := history cs
  refine ⟨n, h1, fun key => ?_⟩
  rw [get_run h2, ← h3.value]
  rfl

/-- C45: setUserData returns the previous value of the key. -/
theorem C45_set (cs : List Call) {n : Node} (hn : runAll cs Node.blank = .ok n) (key : Option DStr) (data handler : Option Nat) :
    ∃ n', setUserData key data handler n = .ok (valueOf (contents key) cs, n') := by
  obtain ⟨n0, es, h1, h2, h3⟩ := history cs
  rw [h1] at hn
  injection hn with hn
  subst hn
  obtain ⟨n', _, h4, _⟩ := set_run h2 h3 ⟨key, data, handler⟩
  exact ⟨n', h4⟩

/-- C45: and leaves the values of the other keys. -/
theorem C45_others (cs : List Call) {n n' : Node} {r : Option Nat} (hn : runAll cs Node.blank = .ok n) (key : Option DStr) (data handler : Option Nat)
    (hs : setUserData key data handler n = .ok (r, n')) (other : Option DStr) (ho : contents other ≠ contents key) :
    getUserData other n' = getUserData other n ∧ getUserData key n' = .ok data := by
  obtain ⟨n0, es, h1, h2, h3⟩ := history cs
  rw [h1] at hn
  injection hn with hn
  subst hn
  obtain ⟨n1, es1, h4, h5, h6⟩ := set_run h2 h3 ⟨key, data, handler⟩
  rw [h4] at hs
  injection hs with hs
  injection hs with _ hs
  subst hs
  constructor
  · rw [get_run h5, get_run h2]
    rw [show es1.find? (fun e => decide (contents e.key = contents other)) = entry (contents other) es1 from rfl,
      show es.find? (fun e => decide (contents e.key = contents other)) = entry (contents other) es from rfl, h6.value, h3.value]
    simp only [valueOf, lastCall_snoc, if_neg (Ne.symm ho)]
  · rw [get_run h5]
    rw [show es1.find? (fun e => decide (contents e.key = contents key)) = entry (contents key) es1 from rfl, h6.value]
    simp only [valueOf, lastCall_snoc, if_true, Option.bind_some]

/-! ## The end of the node -/

/-- The notices for these entries. -/
def notices (es : List Ent) : List Notice := es.filterMap fun e => e.handler.map fun h => ⟨h, e.key, e.data⟩

theorem releaseLoop_run {es : List Ent} : ∀ {n : Node} {k prev p lp log}, Seg n.cells prev p es lp none → es.length ≤ k → (es.map (·.a)).Nodup →
    ∃ n', releaseLoop k p n log = .ok (log ++ notices es, n') ∧ ∀ a, n'.cells a = if a ∈ es.map (·.a) then none else n.cells a := by
  induction es with
  | nil =>
    intro n k prev p lp log h _ _
    obtain ⟨_, rfl⟩ := h
    refine ⟨n, ?_, by simp⟩
    cases k <;> simp [releaseLoop, notices]
  | cons e es ih =>
    intro n k prev p lp log h hk hn
    obtain ⟨rfl, nx, h2, h3⟩ := h
    obtain ⟨k, rfl⟩ : ∃ k', k = k' + 1 := ⟨k - 1, by simp at hk; omega⟩
    simp only [List.map_cons, List.nodup_cons] at hn
    unfold releaseLoop Node.read
    rw [h2]
    simp only [Out.bind_ok]
    have h4 : Seg (n.put e.a none).cells (some e.a) nx es lp none := by
      refine h3.congr fun y hy => ?_
      have : y.a ≠ e.a := fun hc => hn.1 (List.mem_map.2 ⟨y, hy, hc⟩)
      simp [Node.put, this]
    obtain ⟨n', h5, h6⟩ := ih (log := notify ⟨e.key, e.data, e.handler, nx, prev⟩ log) h4 (by simpa using hk) hn.2
    refine ⟨n', ?_, fun a => ?_⟩
    · rw [h5]
      cases hh : e.handler <;> simp [notify, notices, hh]
    · rw [h6]
      by_cases h7 : a = e.a
      · subst h7; simp [Node.put]
      · simp [Node.put, h7]

/-- C45, C46: when the node is finalised all entries are freed and none is used again; the handler of every key that has a value is called exactly
once, with this value, and no handler is called twice for a key. -/
theorem C45_release (cs : List Call) {n : Node} (hn : runAll cs Node.blank = .ok n) :
    ∃ log n', release n = .ok (log, n') ∧ (∀ a, n'.cells a = none) ∧ n'.head = none ∧
      (log.map fun x => contents x.key).Nodup ∧
      ∀ k c h v, lastCall k cs = some c → c.handler = some h → c.data = some v →
        ∃ key, contents key = k ∧ ⟨h, key, some v⟩ ∈ log := by
  obtain ⟨n0, es, h1, h2, h3⟩ := history cs
  rw [h1] at hn
  injection hn with hn
  subst hn
  obtain ⟨lp, hs⟩ := h2.seg
  obtain ⟨n', h4, h5⟩ := releaseLoop_run (log := []) hs h2.fuel h2.nodup
  refine ⟨_, _, by unfold release; rw [h4]; rfl, fun a => ?_, rfl, ?_, ?_⟩
  · show n'.cells a = none
    rw [h5]
    split
    · rfl
    · exact h2.free a (by assumption)
  · rw [List.nil_append]
    have : ((notices es).map fun x => contents x.key).Sublist (es.map fun e => contents e.key) := by
      clear * -
      induction es with
      | nil => exact List.Sublist.slnil
      | cons e es ih =>
        cases hh : e.handler with
        | none =>
          rw [show notices (e :: es) = notices es by simp [notices, hh]]
          exact ih.trans (List.sublist_cons_self _ _)
        | some h =>
          rw [show notices (e :: es) = ⟨h, e.key, e.data⟩ :: notices es by simp [notices, hh]]
          exact List.Sublist.cons_cons _ ih
    exact h2.keys.sublist this
  · intro k c h v hl hh hd
    have h6 := h3 k
    have h7 := h3.value k
    cases he : entry k es with
    | none => rw [he] at h7; simp [valueOf, hl, hd] at h7
    | some e =>
      rw [he] at h6
      obtain ⟨c', h8, h9, h10⟩ := h6
      rw [hl] at h8
      injection h8 with h8
      subst h8
      have hm := List.mem_of_find?_eq_some he
      have hk := List.find?_some he
      refine ⟨e.key, by simpa using hk, ?_⟩
      rw [List.nil_append]
      unfold notices
      rw [List.mem_filterMap]
      refine ⟨e, hm, ?_⟩
      rw [← h10, ← h9, hh, hd]
      rfl

/-- A case: three keys, one set again, one removed. -/
example : ∃ n, runAll [⟨some (Str.createInterned [97]), some 1, some 7⟩, ⟨some (Str.createInterned [98]), some 2, none⟩,
    ⟨some (Str.createInterned [97]), some 3, some 8⟩, ⟨some (Str.createInterned [98]), none, none⟩] Node.blank = .ok n ∧
    getUserData (some (Str.createInterned [97])) n = .ok (some 3) ∧ getUserData (some (Str.createInterned [98])) n = .ok none := by
  obtain ⟨n, h1, h2⟩ := C45_get [⟨some (Str.createInterned [97]), some 1, some 7⟩, ⟨some (Str.createInterned [98]), some 2, none⟩,
    ⟨some (Str.createInterned [97]), some 3, some 8⟩, ⟨some (Str.createInterned [98]), none, none⟩]
  exact ⟨n, h1, by rw [h2]; rfl, by rw [h2]; rfl⟩

end Dom.User
