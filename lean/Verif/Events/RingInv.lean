import Verif.Events.Ring
import Verif.Events.PropsReg
/-!
# Circles of listener entries
-/
set_option linter.unusedSimpArgs false
namespace Dom.Events.Ring
open Dom.Str (DStr)
open Dom.Tree (NodeId)

/-- The contents of the memory for entries. -/
abbrev Mem := Nat → Option Cell

/-- `next` of an entry. -/
def nx (m : Mem) (a : Nat) : Option Nat := (m a).map Cell.next
/-- `prev` of an entry. -/
def pv (m : Mem) (a : Nat) : Option Nat := (m a).map Cell.prev

/-- What an entry holds apart from the links. -/
def Cell.body (c : Cell) : DStr × Nat × Bool := (c.type, c.listener, c.capture)

/-- The bodies of two memories are the same. -/
def SameBody (m m' : Mem) : Prop := ∀ a, (m' a).map Cell.body = (m a).map Cell.body

/-- `b` follows `a`. -/
def Link (m : Mem) (a b : Nat) : Prop := nx m a = some b ∧ pv m b = some a

/-- The entries of `l` are linked in a circle, in this order. -/
structure Circle (m : Mem) (l : List Nat) : Prop where
  nodup : l.Nodup
  inner : ∀ l1 a b l2, l = l1 ++ a :: b :: l2 → Link m a b
  close : ∀ a z, l.head? = some a → l.getLast? = some z → Link m z a

variable {h h' : Heap} {m m' : Mem} {l t xs ys : List Nat} {a b z p n : Nat} {et : NodeId}

theorem Circle.nil : Circle m [] := ⟨List.nodup_nil, by intro l1 a b l2 h; simp at h, by intro a z h; simp at h⟩

/-- A circle can be read from any of its entries. -/
theorem Circle.rot (C : Circle m (xs ++ ys)) : Circle m (ys ++ xs) := by
  refine ⟨(List.nodup_append_comm).1 C.nodup, ?_, ?_⟩
  · intro l1 a b l2 e
    rcases List.append_eq_append_iff.1 e with ⟨c, rfl, e2⟩ | ⟨c, e1, e2⟩
    · exact C.inner c a b (l2 ++ ys) (by rw [e2]; simp)
    · match c, e1, e2 with
      | [], e1, e2 =>
        exact C.inner [] a b (l2 ++ ys) (by rw [show xs = a :: b :: l2 by simpa using e2.symm]; simp)
      | [c], e1, e2 =>
        obtain ⟨rfl, rfl⟩ : a = c ∧ b :: l2 = xs := by simpa using e2
        exact C.close b a (by simp) (by rw [e1, ← List.append_assoc, List.getLast?_append_of_ne_nil _ (by simp)]; rfl)
      | c :: d :: r, e1, e2 =>
        have e3 : a = c ∧ b = d ∧ l2 = r ++ xs := by simpa using e2
        exact C.inner (xs ++ l1) a b r (by rw [e1, e3.1, e3.2.1]; simp)
  · intro a z h1 h2
    cases ys with
    | nil => exact C.close a z (by simpa using h1) (by simpa using h2)
    | cons y ys =>
      have hy : y = a := by simpa using h1
      subst hy
      rcases List.eq_nil_or_concat xs with rfl | ⟨xs', x, rfl⟩
      · exact C.close y z (by simp) (by simpa using h2)
      · have hx : x = z := by
          rw [List.concat_eq_append, ← List.append_assoc, List.getLast?_append_of_ne_nil _ (by simp)] at h2
          simpa using h2
        subst hx
        exact C.inner xs' x y ys (by simp)

theorem Circle.next (C : Circle m (xs ++ a :: ys)) : nx m a = (ys ++ xs ++ [a]).head? := by
  have C' : Circle m (a :: (ys ++ xs)) := by
    have := C.rot; simpa using this
  cases h : ys ++ xs with
  | nil =>
    rw [h] at C'
    exact (C'.close a a rfl rfl).1
  | cons b r =>
    rw [h] at C'
    exact (C'.inner [] a b r rfl).1

theorem Circle.live (C : Circle m l) (h : a ∈ l) : ∃ c, m a = some c := by
  obtain ⟨xs, ys, rfl⟩ := List.append_of_mem h
  have := C.next
  cases hm : m a with
  | some c => exact ⟨c, rfl⟩
  | none =>
    unfold nx at this
    rw [hm] at this
    simp only [Option.map_none] at this
    cases ys <;> cases xs <;> simp at this

/-- Only the links of the entries in the circle matter. -/
theorem Circle.congr (C : Circle m l) (h : ∀ a ∈ l, nx m' a = nx m a ∧ pv m' a = pv m a) : Circle m' l := by
  refine ⟨C.nodup, ?_, ?_⟩
  · intro l1 a b l2 e
    obtain ⟨h1, h2⟩ := C.inner l1 a b l2 e
    exact ⟨by rw [(h a (by rw [e]; simp)).1]; exact h1, by rw [(h b (by rw [e]; simp)).2]; exact h2⟩
  · intro a z e1 e2
    obtain ⟨h1, h2⟩ := C.close a z e1 e2
    exact ⟨by rw [(h z (List.mem_of_getLast? e2)).1]; exact h1, by rw [(h a (List.mem_of_head? e1)).2]; exact h2⟩

/-! ## Appending and deleting -/

theorem cell_ok {c : Cell} (hc : h.cells a = some c) : cell h a = .ok c := by unfold cell; rw [hc]

theorem edit_ok {c : Cell} {f : Cell → Cell} (hc : h.cells a = some c) : edit h a f = .ok (setCell h a (some (f c))) := by
  unfold edit; rw [cell_ok hc]; rfl

/-- Nothing but entries was written. -/
structure Frame (h h' : Heap) : Prop where
  fresh : h'.fresh = h.fresh
  objs : h'.objs = h.objs
  freshObj : h'.freshObj = h.freshObj
  heads : h'.heads = h.heads
  body : SameBody h.cells h'.cells

theorem Frame.trans {h1 h2 h3 : Heap} (a : Frame h1 h2) (b : Frame h2 h3) : Frame h1 h3 :=
  ⟨b.fresh.trans a.fresh, b.objs.trans a.objs, b.freshObj.trans a.freshObj, b.heads.trans a.heads, fun x => (b.body x).trans (a.body x)⟩

/-- One write of a link. -/
theorem edit_next {c : Cell} {v : Nat} (hc : h.cells a = some c) : ∃ h', edit h a (fun c => { c with next := v }) = .ok h' ∧ Frame h h' ∧
    (∀ b, nx h'.cells b = if b = a then some v else nx h.cells b) ∧ (∀ b, pv h'.cells b = pv h.cells b) := by
  refine ⟨_, edit_ok hc, ⟨rfl, rfl, rfl, rfl, ?_⟩, ?_, ?_⟩
  all_goals
    intro b
    by_cases hb : b = a
    · subst hb; simp [setCell, nx, pv, hc, Cell.body]
    · simp [setCell, nx, pv, hb, Cell.body]

theorem edit_prev {c : Cell} {v : Nat} (hc : h.cells a = some c) : ∃ h', edit h a (fun c => { c with prev := v }) = .ok h' ∧ Frame h h' ∧
    (∀ b, nx h'.cells b = nx h.cells b) ∧ (∀ b, pv h'.cells b = if b = a then some v else pv h.cells b) := by
  refine ⟨_, edit_ok hc, ⟨rfl, rfl, rfl, rfl, ?_⟩, ?_, ?_⟩
  all_goals
    intro b
    by_cases hb : b = a
    · subst hb; simp [setCell, nx, pv, hc, Cell.body]
    · simp [setCell, nx, pv, hb, Cell.body]

theorem Frame.live {c : Cell} (F : Frame h h') (hc : h.cells a = some c) : ∃ c', h'.cells a = some c' ∧ c'.body = c.body := by
  have := F.body a
  rw [hc] at this
  cases h2 : h'.cells a with
  | none => rw [h2] at this; cases this
  | some c' =>
    rw [h2] at this
    exact ⟨c', rfl, by simpa using this⟩

theorem nx_some {c : Cell} (hc : m a = some c) : nx m a = some c.next := by simp [nx, hc]
theorem pv_some {c : Cell} (hc : m a = some c) : pv m a = some c.prev := by simp [pv, hc]

/-- `list_append` puts the entry at the end. -/
theorem listAppend_run (C : Circle h.cells (p :: t)) {c0 : Cell} (hn : h.cells n = some c0) (hni : n ∉ p :: t) :
    ∃ h', listAppend h p n = .ok h' ∧ Circle h'.cells (p :: t ++ [n]) ∧ Frame h h' ∧
      ∀ b, b ∉ p :: t → b ≠ n → nx h'.cells b = nx h.cells b ∧ pv h'.cells b = pv h.cells b := by
  obtain ⟨z, hz⟩ : ∃ z, (p :: t).getLast? = some z := ⟨(p :: t).getLast (by simp), List.getLast?_eq_some_getLast (by simp)⟩
  have hzm : z ∈ p :: t := List.mem_of_getLast? hz
  obtain ⟨hl1, hl2⟩ := C.close p z rfl hz
  have hpn : p ≠ n := fun e => hni (by simp [e])
  have hzn : z ≠ n := fun e => hni (e ▸ hzm)
  unfold listAppend
  obtain ⟨h1, e1, F1, n1, p1⟩ := edit_next (v := p) hn
  rw [e1]; simp only [Out.bind_ok]
  obtain ⟨cp, hcp⟩ := C.live (a := p) (by simp)
  obtain ⟨cp1, hcp1, _⟩ := F1.live hcp
  rw [cell_ok hcp1]; simp only [Out.bind_ok]
  have ez : cp1.prev = z := by
    have := p1 p
    rw [pv_some hcp1, hl2] at this
    simpa using this
  rw [ez]
  obtain ⟨cn1, hcn1, _⟩ := F1.live hn
  obtain ⟨h2, e2, F2, n2, p2⟩ := edit_prev (v := z) hcn1
  rw [e2]; simp only [Out.bind_ok]
  obtain ⟨cp2, hcp2, _⟩ := F2.live hcp1
  rw [cell_ok hcp2]; simp only [Out.bind_ok]
  have ez2 : cp2.prev = z := by
    have := p2 p
    rw [pv_some hcp2, if_neg hpn, p1, hl2] at this
    simpa using this
  rw [ez2]
  obtain ⟨cz, hcz⟩ := C.live hzm
  obtain ⟨cz2, hcz2, _⟩ := (F1.trans F2).live hcz
  obtain ⟨h3, e3, F3, n3, p3⟩ := edit_next (v := n) hcz2
  rw [e3]; simp only [Out.bind_ok]
  obtain ⟨cp3, hcp3, _⟩ := F3.live hcp2
  obtain ⟨h4, e4, F4, n4, p4⟩ := edit_prev (v := n) hcp3
  have N : ∀ b, nx h4.cells b = if b = z then some n else if b = n then some p else nx h.cells b := by
    intro b; rw [n4, n3, n2, n1]
  have P : ∀ b, pv h4.cells b = if b = p then some n else if b = n then some z else pv h.cells b := by
    intro b; rw [p4, p3, p2, p1]
  refine ⟨h4, e4, ⟨?_, ?_, ?_⟩, ((F1.trans F2).trans F3).trans F4, ?_⟩
  · rw [List.nodup_append]
    refine ⟨C.nodup, by simp, ?_⟩
    intro x hx y hy e
    have : y = n := by simpa using hy
    rw [e, this] at hx
    exact hni hx
  · intro l1 x y l2 e
    rcases List.eq_nil_or_concat l2 with rfl | ⟨l2', w, rfl⟩
    · have e' : (p :: t) ++ [n] = (l1 ++ [x]) ++ [y] := by rw [e]; simp
      obtain ⟨e1, e2⟩ := List.append_inj' e' rfl
      have hy : n = y := by simpa using e2
      subst hy
      have hx : z = x := by
        rw [e1] at hz
        have : x = z := by simpa using hz
        exact this.symm
      subst hx
      exact ⟨by rw [N, if_pos rfl], by rw [P, if_neg (Ne.symm hpn), if_pos rfl]⟩
    · have e' : (p :: t) ++ [n] = (l1 ++ x :: y :: l2') ++ [w] := by rw [e]; simp
      obtain ⟨e1, _⟩ := List.append_inj' e' rfl
      obtain ⟨g1, g2⟩ := C.inner l1 x y l2' e1
      have nd := C.nodup
      rw [e1] at nd
      have hxz : x ≠ z := by
        rintro rfl
        rw [e1] at hz
        have hz' : (y :: l2').getLast? = some x := by
          rw [show l1 ++ x :: y :: l2' = (l1 ++ [x]) ++ (y :: l2') by simp, List.getLast?_append_of_ne_nil _ (by simp)] at hz
          exact hz
        have hm := List.mem_of_getLast? hz'
        have := (List.nodup_append.1 nd).2.1
        exact (List.nodup_cons.1 this).1 hm
      have hyp : y ≠ p := by
        rintro rfl
        cases l1 with
        | nil =>
          have : y = x := by simpa using (List.cons.inj e1).1
          subst this
          simp at nd
        | cons u l1 =>
          have : y = u := (List.cons.inj e1).1
          subst this
          simp at nd
      have hxn : x ≠ n := fun e => hni (by rw [e1, ← e]; simp)
      have hyn : y ≠ n := fun e => hni (by rw [e1, ← e]; simp)
      exact ⟨by rw [N, if_neg hxz, if_neg hxn]; exact g1, by rw [P, if_neg hyp, if_neg hyn]; exact g2⟩
  · intro a w h1 h2
    have ha : p = a := by simpa using h1
    have hw : n = w := by
      rw [List.getLast?_append_of_ne_nil _ (by simp)] at h2
      simpa using h2
    subst ha hw
    exact ⟨by rw [N, if_neg (Ne.symm hzn), if_pos rfl], by rw [P, if_pos rfl]⟩
  · intro b hb hbn
    have hbz : b ≠ z := fun e => hb (e ▸ hzm)
    have hbp : b ≠ p := fun e => hb (by simp [e])
    rw [N, P, if_neg hbz, if_neg hbn, if_neg hbp, if_neg hbn]
    exact ⟨rfl, rfl⟩

/-- `list_del` takes the entry out of the circle. -/
theorem listDel_run (C : Circle h.cells (a :: t)) :
    ∃ h', listDel h a = .ok h' ∧ Circle h'.cells t ∧ Frame h h' ∧ ∀ b, b ∉ a :: t → nx h'.cells b = nx h.cells b ∧ pv h'.cells b = pv h.cells b := by
  obtain ⟨z, hz⟩ : ∃ z, (a :: t).getLast? = some z := ⟨(a :: t).getLast (by simp), List.getLast?_eq_some_getLast (by simp)⟩
  have hzm : z ∈ a :: t := List.mem_of_getLast? hz
  obtain ⟨hl1, hl2⟩ := C.close a z rfl hz
  obtain ⟨b, hb⟩ : ∃ b, (t ++ [a]).head? = some b := by cases t <;> simp
  have hnx : nx h.cells a = some b := by
    have := Circle.next (xs := []) (ys := t) C
    rw [this]; simpa using hb
  have hbm : b ∈ a :: t := by
    have := List.mem_of_head? hb
    simp only [List.mem_append, List.mem_singleton] at this
    simp only [List.mem_cons]
    tauto
  obtain ⟨ca, hca⟩ := C.live (a := a) (by simp)
  have eprev : ca.prev = z := by rw [pv_some hca] at hl2; simpa using hl2
  have enext : ca.next = b := by rw [nx_some hca] at hnx; simpa using hnx
  unfold listDel
  rw [cell_ok hca]; simp only [Out.bind_ok]
  rw [eprev, enext]
  obtain ⟨cz, hcz⟩ := C.live hzm
  obtain ⟨h1, e1, F1, n1, p1⟩ := edit_next (v := b) hcz
  rw [e1]; simp only [Out.bind_ok]
  obtain ⟨ca1, hca1, _⟩ := F1.live hca
  rw [cell_ok hca1]; simp only [Out.bind_ok]
  have eprev1 : ca1.prev = z := by
    have := p1 a
    rw [pv_some hca1, hl2] at this; simpa using this
  have enext1 : ca1.next = b := by
    have := n1 a
    rw [nx_some hca1, hnx] at this
    split at this <;> simpa using this
  rw [eprev1, enext1]
  obtain ⟨cb, hcb⟩ := C.live hbm
  obtain ⟨cb1, hcb1, _⟩ := F1.live hcb
  obtain ⟨h2, e2, F2, n2, p2⟩ := edit_prev (v := z) hcb1
  rw [e2]; simp only [Out.bind_ok]
  obtain ⟨ca2, hca2, _⟩ := F2.live hca1
  obtain ⟨h3, e3, F3, n3, p3⟩ := edit_prev (v := a) hca2
  rw [e3]; simp only [Out.bind_ok]
  obtain ⟨ca3, hca3, _⟩ := F3.live hca2
  obtain ⟨h4, e4, F4, n4, p4⟩ := edit_next (v := a) hca3
  have N : ∀ x, nx h4.cells x = if x = a then some a else if x = z then some b else nx h.cells x := by
    intro x; rw [n4, n3, n2, n1]
  have P : ∀ x, pv h4.cells x = if x = a then some a else if x = b then some z else pv h.cells x := by
    intro x; rw [p4, p3, p2, p1]
  have nd := List.nodup_cons.1 C.nodup
  refine ⟨h4, e4, ⟨nd.2, ?_, ?_⟩, ((F1.trans F2).trans F3).trans F4, ?_⟩
  · intro l1 x y l2 e
    obtain ⟨g1, g2⟩ := C.inner (a :: l1) x y l2 (by rw [e]; simp)
    have hxa : x ≠ a := by rintro rfl; exact nd.1 (by rw [e]; simp)
    have hya : y ≠ a := by rintro rfl; exact nd.1 (by rw [e]; simp)
    have ndt := nd.2
    rw [e] at ndt
    have hxz : x ≠ z := by
      rintro rfl
      have hz' : (y :: l2).getLast? = some x := by
        rw [e, show a :: (l1 ++ x :: y :: l2) = (a :: l1 ++ [x]) ++ (y :: l2) by simp, List.getLast?_append_of_ne_nil _ (by simp)] at hz
        exact hz
      have hm := List.mem_of_getLast? hz'
      have := (List.nodup_append.1 ndt).2.1
      exact (List.nodup_cons.1 this).1 hm
    have hyb : y ≠ b := by
      rintro rfl
      rw [e] at hb
      cases l1 with
      | nil =>
        have : x = y := by simpa using hb
        subst this
        simp at ndt
      | cons u l1 =>
        have : u = y := by simpa using hb
        subst this
        simp at ndt
    exact ⟨by rw [N, if_neg hxa, if_neg hxz]; exact g1, by rw [P, if_neg hya, if_neg hyb]; exact g2⟩
  · intro x w hx hw
    have hxb : x = b := by
      cases t with
      | nil => simp at hx
      | cons y t =>
        have h1 : y = x := by simpa using hx
        have h2 : y = b := by simpa using hb
        rw [← h1, h2]
    have hwz : w = z := by
      cases t with
      | nil => simp at hw
      | cons y t =>
        rw [List.getLast?_cons_cons] at hz
        rw [hw] at hz; simpa using hz
    subst hxb hwz
    have hxa : x ≠ a := by rintro rfl; exact nd.1 (List.mem_of_head? hx)
    have hwa : w ≠ a := by rintro rfl; exact nd.1 (List.mem_of_getLast? hw)
    exact ⟨by rw [N, if_neg hwa, if_pos rfl], by rw [P, if_neg hxa, if_pos rfl]⟩
  · intro x hx
    have hxa : x ≠ a := fun e => hx (by simp [e])
    have hxz : x ≠ z := fun e => hx (e ▸ hzm)
    have hxb : x ≠ b := fun e => hx (e ▸ hbm)
    rw [N, P, if_neg hxa, if_neg hxz, if_neg hxa, if_neg hxb]
    exact ⟨rfl, rfl⟩

end Dom.Events.Ring
