import Verif.Oom.PropsAttr

/-!
# C86: copying an element when memory runs out
-/
namespace Dom.Oom

variable {r : Nat → Nat} {l : List Nat} {m : Mem}

/-! ## What is copied -/

/-- **Specification.**  What can be seen of an attribute in the list of its element: names, namespaces, whether it is
`class`, and the value. -/
def ListNode.view (n : ListNode) : Nat × Option Nat × Bool × Nat × Option Nat × Option Nat :=
  (n.name, n.ns, n.cls, n.attr.name, n.attr.ns, n.attr.text.map (·.value))

/-- The class names in a cache. -/
def Classes.names : Classes → List Nat
  | .at _ names => names
  | _ => []

/-- What a list of attributes holds. -/
def heldAll (ns : List ListNode) : List Nat := ns.flatMap ListNode.held

/-- What an element holds. -/
def Elem.held (e : Elem) : List Nat := heldAll e.attrs ++ (e.classes.held ++ [e.name, e.block])

/-- Requests for copying an attribute. -/
def Attr.cost (a : Attr) : Nat := if a.text.isSome then 2 else 1

/-- Requests for copying an attribute in a list. -/
def ListNode.cost (n : ListNode) : Nat := 1 + n.attr.cost

/-- Requests for copying a list of attributes. -/
def costAll (ns : List ListNode) : Nat := (ns.map ListNode.cost).sum

/-- Requests for copying a class cache. -/
def Classes.cost (c : Classes) : Nat := if c.names = [] then 0 else 1

theorem refused_zero (h : ¬ Granted m.room m.time 1) : RefusedAt m 0 := by
  refine ⟨granted_zero _ _, ?_⟩
  cases hb : m.room (m.time + 0) with
  | false => rfl
  | true => exact (h (granted_one.mpr hb)).elim

theorem refused_shift {m1 : Mem} {a k : Nat} (hr : m1.room = m.room) (ht : m1.time = m.time + a)
    (hg : Granted m.room m.time a) (h : RefusedAt m1 k) : RefusedAt m (a + k) := by
  refine ⟨granted_add.mpr ⟨hg, ?_⟩, ?_⟩
  · have := h.1; rw [hr, ht] at this; exact this
  · have := h.2; rw [hr, ht, Nat.add_assoc] at this; exact this

theorem refused_later {m1 : Mem} {a k : Nat} (hr : m1.room = m.room) (ht : m1.time = m.time + a)
    (h : RefusedAt m (a + k)) : RefusedAt m1 k := by
  refine ⟨?_, ?_⟩
  · rw [hr, ht]; exact (granted_add.mp h.1).2
  · rw [hr, ht, Nat.add_assoc]; exact h.2

theorem not_granted {k n : Nat} (h : RefusedAt m k) (hk : k < n) : ¬ Granted m.room m.time n := by
  intro hg
  have := hg k hk
  rw [h.2] at this; exact absurd this (by decide)

/-! ## Copies of attributes -/

theorem cloneText_spec {t : Txt} (h : Holds r l m) (hn : 0 < r t.name) (hv : 0 < r t.value) :
    after (cloneText t) m (fun o m' => m'.room = m.room ∧ m'.time = m.time + 1 ∧
      ((o = .error .noMem ∧ Holds r l m' ∧ RefusedAt m 0) ∨
       (∃ b, o = .ok { t with block := b } ∧ Holds r (({ t with block := b } : Txt).held ++ l) m' ∧
         Granted m.room m.time 1))) := by
  unfold cloneText
  rw [after_bind]
  refine after_mono (malloc_spec h) ?_
  rintro o m1 ⟨hr1, ht1, ⟨rfl, h1, hg⟩ | ⟨b, rfl, h1, hg⟩⟩
  · exact ⟨hr1, ht1, Or.inl ⟨rfl, h1, refused_zero hg⟩⟩
  · dsimp only
    rw [after_bind]
    refine after_mono (ref_live (a := t.name) h1 (by omega)) ?_
    rintro _ m2 ⟨h2, hr2, ht2⟩
    rw [after_bind]
    refine after_mono (ref_live (a := t.value) h2 (by omega)) ?_
    rintro _ m3 ⟨h3, hr3, ht3⟩
    exact ⟨by rw [hr3, hr2, hr1], by omega, Or.inr ⟨b, rfl, h3, hg⟩⟩

theorem cloneAttr_spec {a : Attr} (h : Holds r l m) (ha : ∀ x ∈ a.held, 0 < r x) :
    after (cloneAttr a) m (fun o m' => m'.room = m.room ∧
      ((o = .error .noMem ∧ Holds r l m' ∧ ∃ k, k < a.cost ∧ RefusedAt m k ∧ m'.time = m.time + k + 1) ∨
       (∃ c, o = .ok c ∧ c.refcnt = 1 ∧ c.name = a.name ∧ c.ns = a.ns ∧
         c.text.map (·.value) = a.text.map (·.value) ∧
         Holds r (c.held ++ l) m' ∧ Granted m.room m.time a.cost ∧ m'.time = m.time + a.cost))) := by
  unfold cloneAttr
  rw [after_bind]
  refine after_mono (malloc_spec h) ?_
  rintro o m1 ⟨hr1, ht1, ⟨rfl, h1, hg⟩ | ⟨b, rfl, h1, hg⟩⟩
  · refine ⟨hr1, Or.inl ⟨rfl, h1, 0, ?_, refused_zero hg, by omega⟩⟩
    unfold Attr.cost; split <;> omega
  · dsimp only
    rw [after_bind]
    refine after_mono (ref_live (a := a.name) h1 (by have := ha _ (held_name a); omega)) ?_
    rintro _ m2 ⟨h2, hr2, ht2⟩
    rw [after_bind]
    refine after_mono (refOpt_spec (o := a.ns) h2 fun x hx => by have := ha _ (held_ns hx); omega) ?_
    rintro _ m3 ⟨h3, hr3, ht3⟩
    have e1 : m3.room = m.room := by rw [hr3, hr2, hr1]
    have e2 : m3.time = m.time + 1 := by omega
    have h3' : Holds r ((a.ns.toList ++ [a.name, b]) ++ l) m3 := by
      rw [List.append_assoc]; exact h3
    cases ht : a.text with
    | none =>
      have hc : a.cost = 1 := by unfold Attr.cost; rw [ht]; rfl
      exact ⟨e1, Or.inr ⟨_, rfl, rfl, rfl, rfl, rfl, h3', by rw [hc]; exact hg, by rw [hc]; exact e2⟩⟩
    | some t =>
      have hc : a.cost = 2 := by unfold Attr.cost; rw [ht]; rfl
      have hheld : ∀ x ∈ t.held, 0 < r x := fun x hx => ha x (by
        unfold Attr.held heldText; rw [ht]; simp [hx])
      dsimp only
      rw [after_bind]
      refine after_mono (cloneText_spec (t := t) h3' (hheld _ (by simp [Txt.held])) (hheld _ (by simp [Txt.held]))) ?_
      rintro o m4 ⟨hr4, ht4, ⟨rfl, h4, hg4⟩ | ⟨b', rfl, h4, hg4⟩⟩
      · dsimp only
        rw [after_bind]
        refine after_mono (frees_drop (a := { block := b, refcnt := 1, name := a.name, ns := a.ns, text := none }) rfl r l m4 h4) ?_
        rintro _ m5 ⟨h5, hr5, ht5⟩
        exact ⟨by rw [hr5, hr4, e1], Or.inl ⟨rfl, h5, 1, by omega, refused_shift e1 e2 hg hg4, by omega⟩⟩
      · refine ⟨hr4.trans e1, Or.inr ⟨_, rfl, rfl, rfl, rfl, rfl, ?_, ?_, by omega⟩⟩
        · refine h4.perm ?_
          rw [List.perm_iff_count]
          intro x
          simp only [Attr.held, heldText, List.count_append, List.count_cons, List.count_nil]
          omega
        · rw [e1, e2] at hg4
          rw [hc]; exact (granted_add (a := 1) (b := 1)).mpr ⟨hg, hg4⟩

theorem nodeClone_spec {n : ListNode} (h : Holds r l m) (ha : ∀ x ∈ n.held, 0 < r x) :
    after (nodeClone n) m (fun o m' => m'.room = m.room ∧
      ((o = none ∧ Holds r l m' ∧ ∃ k, k < n.cost ∧ RefusedAt m k ∧ m'.time = m.time + k + 1) ∨
       (∃ c, o = some c ∧ c.attr.refcnt = 0 ∧ c.view = n.view ∧
         Holds r (c.held ++ l) m' ∧ Granted m.room m.time n.cost ∧ m'.time = m.time + n.cost))) := by
  unfold nodeClone
  rw [after_bind]
  refine after_mono (malloc_spec h) ?_
  rintro o m1 ⟨hr1, ht1, ⟨rfl, h1, hg⟩ | ⟨b, rfl, h1, hg⟩⟩
  · refine ⟨hr1, Or.inl ⟨rfl, h1, 0, ?_, refused_zero hg, by omega⟩⟩
    unfold ListNode.cost; omega
  · dsimp only
    rw [after_bind]
    refine after_mono (cloneAttr_spec h1 fun x hx => ha x (by unfold ListNode.held; simp [hx])) ?_
    rintro o m2 ⟨hr2, ⟨rfl, h2, k, hk, hg2, ht2⟩ | ⟨c, rfl, hc0, hcn, hcs, hct, h2, hg2, ht2⟩⟩
    · dsimp only
      rw [after_bind]
      refine after_mono (unref_spec h2) ?_
      rintro _ m3 ⟨h3, hr3, ht3⟩
      exact ⟨by rw [hr3, hr2, hr1], Or.inl ⟨rfl, h3, 1 + k, by unfold ListNode.cost; omega,
        refused_shift hr1 ht1 hg hg2, by omega⟩⟩
    · dsimp only
      rw [after_bind]
      refine after_mono (ref_live (a := n.name) h2 (by have := ha n.name (by unfold ListNode.held; simp); omega)) ?_
      rintro _ m3 ⟨h3, hr3, ht3⟩
      rw [after_bind]
      refine after_mono (refOpt_spec (o := n.ns) h3 fun x hx => by
        have := ha x (by unfold ListNode.held; rw [hx]; simp); omega) ?_
      rintro _ m4 ⟨h4, hr4, ht4⟩
      refine ⟨by rw [hr4, hr3, hr2, hr1], Or.inr ⟨_, rfl, rfl, ?_, ?_, ?_, ?_⟩⟩
      · show (n.name, n.ns, n.cls, c.name, c.ns, c.text.map (·.value)) = _
        rw [hcn, hcs, hct]; rfl
      · refine h4.perm ?_
        rw [List.perm_iff_count]
        intro x
        simp only [ListNode.held, Attr.held, List.count_append, List.count_cons, List.count_nil]
        omega
      · rw [hr1, ht1] at hg2
        exact granted_add.mpr ⟨hg, hg2⟩
      · unfold ListNode.cost; omega

/-! ## Lists of attributes -/

theorem frees_list (c : Classes) : ∀ ns : List ListNode, (∀ n ∈ ns, n.attr.refcnt = 0 ∧ n.cls = false) →
    Frees (listDestroy c ns) (heldAll ns)
  | [], _ => Frees.none
  | n :: ns, h => by
    obtain ⟨h0, hc⟩ := h n (List.mem_cons_self ..)
    have h1 := frees_node h0 (c := c) (Or.inr hc)
    rw [hc] at h1
    exact Frees.seq h1 (frees_list c ns fun x hx => h x (List.mem_cons_of_mem _ hx))

/-- If `class` is among the attributes of an element whose class cache was never written, their destruction reads it. -/
theorem listDestroy_fault : ∀ (ns : List ListNode) {r : Nat → Nat} {l : List Nat} {m : Mem}, Holds r (heldAll ns ++ l) m →
    (∀ n ∈ ns, n.attr.refcnt = 0) → (∃ n ∈ ns, n.cls = true) → listDestroy .junk ns m = .fault .uninit
  | [], _, _, _, _, _, he => by obtain ⟨n, hn, _⟩ := he; exact absurd hn (by simp)
  | n :: ns, r, l, m, h, h0, he => by
    unfold listDestroy
    cases hc : n.cls with
    | true =>
      refine bind_fault ?_
      unfold nodeDestroy
      rw [hc]; rfl
    | false =>
      have h1 := frees_node (h0 n (List.mem_cons_self ..)) (c := .junk) (Or.inr hc)
      rw [hc] at h1
      obtain ⟨_, m1, e1, hh1, _, _⟩ := after_elim (h1 r (heldAll ns ++ l) m (by
        rw [← List.append_assoc]; exact h))
      rw [bind_ok e1]
      refine listDestroy_fault ns hh1 (fun x hx => h0 x (List.mem_cons_of_mem _ hx)) ?_
      obtain ⟨x, hx, hxc⟩ := he
      rcases List.mem_cons.mp hx with e | e
      · rw [e, hc] at hxc; exact absurd hxc (by decide)
      · exact ⟨x, e, hxc⟩

/-- As long as the requests are granted the copies pile up. -/
theorem listClone_append (c : Classes) : ∀ (pre rest made : List ListNode) {r : Nat → Nat} {l : List Nat} {m : Mem},
    Holds r l m → (∀ n ∈ pre, ∀ x ∈ n.held, 0 < r x) → Granted m.room m.time (costAll pre) →
    ∃ copies m1, listClone c (pre ++ rest) made m = listClone c rest (made ++ copies) m1 ∧
      copies.map ListNode.view = pre.map ListNode.view ∧ (∀ x ∈ copies, x.attr.refcnt = 0) ∧
      Holds r (heldAll copies ++ l) m1 ∧ m1.room = m.room ∧ m1.time = m.time + costAll pre
  | [], rest, made, r, l, m, h, _, _ =>
    ⟨[], m, by simp, rfl, fun x hx => absurd hx (by simp), h, rfl, rfl⟩
  | n :: pre, rest, made, r, l, m, h, ha, hg => by
    have hcost : costAll (n :: pre) = n.cost + costAll pre := by unfold costAll; simp
    rw [hcost] at hg
    obtain ⟨hg1, hg2⟩ := granted_add.mp hg
    obtain ⟨o, m1, e1, hr1, ⟨rfl, _, k, hk, hg3, _⟩ | ⟨x, rfl, hx0, hxv, h1, _, ht1⟩⟩ := after_elim (nodeClone_spec h (ha n (List.mem_cons_self ..)))
    · exact (not_granted hg3 hk hg1).elim
    obtain ⟨copies, m2, e2, hv, h0, h2, hr2, ht2⟩ := listClone_append c pre rest (made ++ [x]) h1
      (fun y hy => ha y (List.mem_cons_of_mem _ hy)) (by rw [hr1, ht1]; exact hg2)
    refine ⟨x :: copies, m2, ?_, ?_, ?_, ?_, hr2.trans hr1, by omega⟩
    · show listClone c (n :: (pre ++ rest)) made m = _
      conv => lhs; unfold listClone
      rw [bind_ok e1]
      dsimp only
      rw [e2, List.append_assoc]; rfl
    · rw [List.map_cons, List.map_cons, hxv, hv]
    · intro y hy
      rcases List.mem_cons.mp hy with e | e
      · rw [e]; exact hx0
      · exact h0 y e
    · refine h2.perm ?_
      show (heldAll copies ++ (x.held ++ l)).Perm (heldAll (x :: copies) ++ l)
      have : heldAll (x :: copies) = x.held ++ heldAll copies := by unfold heldAll; simp
      rw [this, List.append_assoc]
      exact List.perm_append_comm_assoc ..

/-- A refused request while the list is copied: if no copy is `class`, all copies are given back. -/
theorem listClone_none (c : Classes) (pre post : List ListNode) (n : ListNode) (h : Holds r l m)
    (ha : ∀ x ∈ pre ++ n :: post, ∀ y ∈ x.held, 0 < r y) (hcls : ∀ x ∈ pre, x.cls = false) {j : Nat} (hj : j < n.cost)
    (hk : RefusedAt m (costAll pre + j)) :
    after (listClone c (pre ++ n :: post) []) m (fun o m' => o = none ∧ Holds r l m' ∧ m'.room = m.room ∧
      m'.time = m.time + (costAll pre + j) + 1) := by
  obtain ⟨copies, m1, e1, hv, h0, h1, hr1, ht1⟩ := listClone_append c pre (n :: post) [] h
    (fun x hx => ha x (by simp [hx])) (granted_mono hk.1 (by omega))
  have hk1 := refused_later hr1 ht1 hk
  obtain ⟨o, m2, e2, hr2, ⟨rfl, h2, k, hkc, hg3, ht2⟩ | ⟨x, rfl, hx0, hxv, _, hg3, _⟩⟩ := after_elim (nodeClone_spec h1 (ha n (by simp)))
  · have hkj : k = j := by
      have h3 := granted_refused hk1.1 hg3.2
      have h4 := granted_refused hg3.1 hk1.2
      omega
    subst hkj
    have hcc : ∀ x ∈ copies, x.cls = false := by
      intro x hx
      have : x.view ∈ pre.map ListNode.view := by rw [← hv]; exact List.mem_map.mpr ⟨x, hx, rfl⟩
      obtain ⟨y, hy, e⟩ := List.mem_map.mp this
      have e' : y.cls = x.cls := congrArg (fun v => v.2.2.1) e
      rw [← e']; exact hcls y hy
    obtain ⟨_, m3, e3, h3, hr3, ht3⟩ := after_elim (frees_list c copies (fun x hx => ⟨h0 x hx, hcc x hx⟩) r l m2 h2)
    refine after_of_eq (a := none) (m' := m3) ?_ ⟨rfl, h3, by rw [hr3, hr2, hr1], by omega⟩
    rw [e1]
    unfold listClone
    rw [bind_ok e2]
    dsimp only
    rw [List.nil_append, bind_ok e3]; rfl
  · exact (not_granted hk1 hj hg3).elim

/-- A refused request while the list is copied: if a copy is `class`, the class cache is read. -/
theorem listClone_fault (pre post : List ListNode) (n : ListNode) (h : Holds r l m)
    (ha : ∀ x ∈ pre ++ n :: post, ∀ y ∈ x.held, 0 < r y) (hcls : ∃ x ∈ pre, x.cls = true) {j : Nat} (hj : j < n.cost)
    (hk : RefusedAt m (costAll pre + j)) : listClone .junk (pre ++ n :: post) [] m = .fault .uninit := by
  obtain ⟨copies, m1, e1, hv, h0, h1, hr1, ht1⟩ := listClone_append .junk pre (n :: post) [] h
    (fun x hx => ha x (by simp [hx])) (granted_mono hk.1 (by omega))
  have hk1 := refused_later hr1 ht1 hk
  obtain ⟨o, m2, e2, hr2, ⟨rfl, h2, k, hkc, hg3, ht2⟩ | ⟨x, rfl, hx0, hxv, _, hg3, _⟩⟩ := after_elim (nodeClone_spec h1 (ha n (by simp)))
  · rw [e1]
    unfold listClone
    rw [bind_ok e2]
    dsimp only
    rw [List.nil_append]
    refine bind_fault (listDestroy_fault copies h2 h0 ?_)
    obtain ⟨y, hy, hyc⟩ := hcls
    have : y.view ∈ copies.map ListNode.view := by rw [hv]; exact List.mem_map.mpr ⟨y, hy, rfl⟩
    obtain ⟨x, hx, e⟩ := List.mem_map.mp this
    have e' : x.cls = y.cls := congrArg (fun v => v.2.2.1) e
    exact ⟨x, hx, by rw [e']; exact hyc⟩
  · exact (not_granted hk1 hj hg3).elim

/-! ## Elements -/

theorem destroyAttrs_spec : ∀ (ns : List ListNode) (c : Classes) {r : Nat → Nat} {l : List Nat} {m : Mem}, c ≠ .junk →
    (∀ n ∈ ns, n.attr.refcnt = 0) → Holds r (heldAll ns ++ (c.held ++ l)) m →
    after (destroyAttrs c ns) m (fun c' m' => c' ≠ .junk ∧ Holds r (c'.held ++ l) m')
  | [], c, r, l, m, hc, _, h => ⟨hc, h⟩
  | n :: ns, c, r, l, m, hc, h0, h => by
    unfold destroyAttrs
    rw [after_bind]
    have hh : heldAll (n :: ns) = n.held ++ heldAll ns := by unfold heldAll; simp
    rw [hh] at h
    have h1 := frees_node (h0 n (List.mem_cons_self ..)) (c := c) (Or.inl hc)
    cases hn : n.cls with
    | true =>
      rw [hn] at h1
      refine after_mono (h1 r (heldAll ns ++ l) m (h.perm ?_)) ?_
      · rw [List.perm_iff_count]
        intro x
        simp only [if_true, List.count_append]
        omega
      · rintro _ m1 ⟨hh1, _, _⟩
        exact destroyAttrs_spec ns .null (fun h => nomatch h) (fun x hx => h0 x (List.mem_cons_of_mem _ hx)) hh1
    | false =>
      rw [hn] at h1
      refine after_mono (h1 r (heldAll ns ++ (c.held ++ l)) m (h.perm ?_)) ?_
      · rw [List.append_assoc]; exact List.Perm.refl _
      · rintro _ m1 ⟨hh1, _, _⟩
        exact destroyAttrs_spec ns c hc (fun x hx => h0 x (List.mem_cons_of_mem _ hx)) hh1

theorem destroyElem_spec {e : Elem} (hc : e.classes ≠ .junk) (h0 : ∀ n ∈ e.attrs, n.attr.refcnt = 0)
    (h : Holds r (e.held ++ l) m) : after (destroyElem e) m (fun _ m' => Holds r l m') := by
  unfold destroyElem
  rw [after_bind]
  refine after_mono (destroyAttrs_spec e.attrs e.classes (l := e.name :: e.block :: l) hc h0 (h.perm ?_)) ?_
  · unfold Elem.held
    rw [List.append_assoc, List.append_assoc]; exact List.Perm.refl _
  rintro c m1 ⟨hc1, h1⟩
  refine after_mono ((Frees.seq (frees_classes hc1) ((Frees.one e.name).seq (Frees.one e.block))) r l m1 (h1.perm ?_)) ?_
  · rw [List.append_assoc]; exact List.Perm.refl _
  · rintro _ m2 ⟨h2, _, _⟩; exact h2

theorem copyClasses_spec {c : Classes} (hc : c ≠ .junk) (h : Holds r l m) (ha : ∀ x ∈ c.names, 0 < r x) :
    after (copyClasses c) m (fun o m' => m'.room = m.room ∧
      ((o = .error .noMem ∧ Holds r l m' ∧ ¬ Granted m.room m.time c.cost) ∨
       (∃ c', o = .ok c' ∧ c' ≠ .junk ∧ c'.names = c.names ∧ Holds r (c'.held ++ l) m' ∧ Granted m.room m.time c.cost))) := by
  cases c with
  | junk => exact absurd rfl hc
  | null => exact ⟨rfl, Or.inr ⟨.null, rfl, (fun h => nomatch h), rfl, h, granted_zero _ _⟩⟩
  | «at» b0 names =>
    unfold copyClasses
    dsimp only
    by_cases hn : names = []
    · subst hn
      rw [if_pos rfl]
      exact ⟨rfl, Or.inr ⟨.null, rfl, (fun h => nomatch h), rfl, h, granted_zero _ _⟩⟩
    · have hcost : (Classes.at b0 names).cost = 1 := by unfold Classes.cost; exact if_neg hn
      rw [hcost, if_neg hn, after_bind]
      refine after_mono (malloc_spec h) ?_
      rintro o m1 ⟨hr1, ht1, ⟨rfl, h1, hg⟩ | ⟨b, rfl, h1, hg⟩⟩
      · exact ⟨hr1, Or.inl ⟨rfl, h1, hg⟩⟩
      · dsimp only
        rw [after_bind]
        refine after_mono (refAll_spec names h1 ha) ?_
        rintro _ m2 ⟨h2, hr2, ht2⟩
        refine ⟨hr2.trans hr1, Or.inr ⟨.at b names, rfl, (fun h => nomatch h), rfl, ?_, hg⟩⟩
        show Holds r ((names ++ [b]) ++ l) m2
        rw [List.append_assoc]; exact h2

/-- All that an element refers to is there. -/
def Elem.Alive (e : Elem) (m : Mem) : Prop :=
  e.classes ≠ .junk ∧ (∀ n ∈ e.attrs, ∀ x ∈ n.held, 0 < m.refs x) ∧ (∀ x ∈ e.classes.names, 0 < m.refs x) ∧ 0 < m.refs e.name

/-- What follows once the attributes have been dealt with. -/
def copyRest (e : Elem) (b : Nat) (attrs : List ListNode) : M (Except Exc Elem) := do
  let c ← copyClasses e.classes
  match c with
  | .error x =>
    unref b
    pure (.error x)
  | .ok c =>
    ref e.name
    pure (.ok { block := b, name := e.name, attrs := attrs, classes := c })

theorem copyRest_spec {e : Elem} {m0 : Mem} (ha : e.Alive m0) {b : Nat} {attrs : List ListNode} (l : List Nat)
    (h : Holds m0.refs (heldAll attrs ++ b :: l) m) :
    after (copyRest e b attrs) m (fun o m' => 
      ((o = .error .noMem ∧ Holds m0.refs (heldAll attrs ++ l) m' ∧ ¬ Granted m.room m.time e.classes.cost) ∨
       (∃ e', o = .ok e' ∧ e'.attrs = attrs ∧ e'.name = e.name ∧ e'.classes ≠ .junk ∧ e'.classes.names = e.classes.names ∧
         Holds m0.refs (e'.held ++ l) m' ∧ Granted m.room m.time e.classes.cost))) := by
  obtain ⟨hj, _, hcn, hname⟩ := ha
  unfold copyRest
  rw [after_bind]
  refine after_mono (copyClasses_spec hj h hcn) ?_
  rintro o m1 ⟨hr1, ⟨rfl, h1, hg⟩ | ⟨c, rfl, hc, hcn', h1, hg⟩⟩
  · dsimp only
    rw [after_bind]
    refine after_mono (unref_spec (h1.perm List.perm_middle)) ?_
    rintro _ m2 ⟨h2, _, _⟩
    exact Or.inl ⟨rfl, h2, hg⟩
  · dsimp only
    rw [after_bind]
    refine after_mono (ref_live (a := e.name) h1 (by omega)) ?_
    rintro _ m2 ⟨h2, _, _⟩
    refine Or.inr ⟨_, rfl, rfl, rfl, hc, hcn', h2.perm ?_, hg⟩
    rw [List.perm_iff_count]
    intro x
    simp only [Elem.held, List.count_append, List.count_cons, List.count_nil]
    omega

/-- **C86**: an element is copied with one request for itself, two or three for each attribute and one for its class names.  If
all are granted, the copy has the same attributes, values and class names, and destroying it gives everything back; if the
first is refused the answer is `DOM_NO_MEM_ERR` and nothing is changed.  Missing: refusals later on, see the theorems
below; children, events. -/
theorem C86_copy_partial (m : Mem) (hm : m.Valid) (e : Elem) (ha : e.Alive m) :
    (Granted m.room m.time (1 + costAll e.attrs + e.classes.cost) → ∃ e' m' m'', copyElem e m = .ok (.ok e') m' ∧
      e'.name = e.name ∧ e'.attrs.map ListNode.view = e.attrs.map ListNode.view ∧ e'.classes.names = e.classes.names ∧
      destroyElem e' m' = .ok () m'' ∧ m''.refs = m.refs) ∧
    (¬ Granted m.room m.time 1 → ∃ m', copyElem e m = .ok (.error .noMem) m' ∧ m'.refs = m.refs) := by
  refine ⟨fun hg => ?_, fun hg => ?_⟩
  · obtain ⟨hg12, hg3⟩ := granted_add.mp hg
    obtain ⟨hg1, hg2⟩ := granted_add.mp hg12
    unfold copyElem
    obtain ⟨o, m1, e1, hr1, ht1, ⟨rfl, _, hn⟩ | ⟨b, rfl, h1, _⟩⟩ := after_elim (malloc_spec hm.holds)
    · exact (hn hg1).elim
    rw [bind_ok e1]
    obtain ⟨copies, m2, e2, hv, h0, h2, hr2, ht2⟩ := listClone_append .junk e.attrs [] [] h1 ha.2.1 (by rw [hr1, ht1]; exact hg2)
    rw [List.append_nil] at e2
    dsimp only
    rw [bind_ok (e2.trans rfl)]
    obtain ⟨o, m3, e3, ⟨rfl, _, hn⟩ | ⟨e', rfl, hattrs, hname, hc, hcn, h3, _⟩⟩ := after_elim (copyRest_spec ha [] h2)
    · exact (hn (by rw [hr2, ht2, hr1, ht1, Nat.add_assoc m.time]; exact hg3)).elim
    obtain ⟨_, m4, e4, h4⟩ := after_elim (destroyElem_spec (l := []) hc (by rw [hattrs]; exact h0) h3)
    exact ⟨e', m3, m4, e3, hname, by rw [hattrs]; exact hv, hcn, e4, h4.refs_eq⟩
  · refine ⟨{ m with time := m.time + 1 }, ?_, rfl⟩
    unfold copyElem
    rw [bind_ok (malloc_none (refused_zero hg).2)]
    rfl

/-- **C86 fails** when a request is refused while the attributes are copied and none of the attributes copied before is
`class`: if the class names can still be copied, the call succeeds and the copy has no attributes at all. -/
theorem C86_attributes_violated (m : Mem) (hm : m.Valid) (e : Elem) (ha : e.Alive m) (pre post : List ListNode) (n : ListNode)
    (he : e.attrs = pre ++ n :: post) (hcls : ∀ x ∈ pre, x.cls = false) (j : Nat) (hj : j < n.cost)
    (hk : RefusedAt m (1 + (costAll pre + j)))
    (hrest : e.classes.names = [] ∨ m.room (m.time + (1 + (costAll pre + j)) + 1) = true) :
    ∃ e' m', copyElem e m = .ok (.ok e') m' ∧ e'.attrs = [] ∧ e'.classes.names = e.classes.names := by
  unfold copyElem
  obtain ⟨o, m1, e1, hr1, ht1, ⟨rfl, _, hn⟩ | ⟨b, rfl, h1, _⟩⟩ := after_elim (malloc_spec hm.holds)
  · exact (hn (granted_mono hk.1 (by omega))).elim
  rw [bind_ok e1]
  obtain ⟨o, m2, e2, rfl, h2, hr2, ht2⟩ := after_elim (listClone_none .junk pre post n h1 (by rw [← he]; exact ha.2.1) hcls hj
    (refused_later hr1 ht1 hk))
  dsimp only
  rw [he, bind_ok e2]
  obtain ⟨o, m3, e3, ⟨rfl, _, hn⟩ | ⟨e', rfl, hattrs, hname, hc, hcn, h3, _⟩⟩ := after_elim (copyRest_spec (attrs := []) ha [] h2)
  · refine (hn ?_).elim
    rcases hrest with h | h
    · unfold Classes.cost; rw [if_pos h]; exact granted_zero _ _
    · have : Granted m2.room m2.time 1 := granted_one.mpr (by
        rw [hr2, hr1, show m2.time = m.time + (1 + (costAll pre + j)) + 1 by omega]; exact h)
      unfold Classes.cost
      split
      · exact granted_zero _ _
      · exact this
  · exact ⟨e', m3, e3, hattrs, hcn⟩

/-- **C86 fails** when a request is refused while the attributes are copied and `class` has been copied before: the
clean-up reads the class cache of the new element, which nothing has written. -/
theorem C86_uninit_violated (m : Mem) (hm : m.Valid) (e : Elem) (ha : e.Alive m) (pre post : List ListNode) (n : ListNode)
    (he : e.attrs = pre ++ n :: post) (hcls : ∃ x ∈ pre, x.cls = true) (j : Nat) (hj : j < n.cost)
    (hk : RefusedAt m (1 + (costAll pre + j))) : copyElem e m = .fault .uninit := by
  unfold copyElem
  obtain ⟨o, m1, e1, hr1, ht1, ⟨rfl, _, hn⟩ | ⟨b, rfl, h1, _⟩⟩ := after_elim (malloc_spec hm.holds)
  · exact (hn (granted_mono hk.1 (by omega))).elim
  rw [bind_ok e1]
  dsimp only
  rw [he]
  exact bind_fault (listClone_fault pre post n h1 (by rw [← he]; exact ha.2.1) hcls hj (refused_later hr1 ht1 hk))

/-- **C86 fails** when the array for the class names is refused: the answer is `DOM_NO_MEM_ERR`, and all copies of the
attributes stay behind, with what they hold. -/
theorem C86_lost_violated (m : Mem) (hm : m.Valid) (e : Elem) (ha : e.Alive m) (hn : e.classes.names ≠ [])
    (hk : RefusedAt m (1 + costAll e.attrs)) :
    ∃ copies m', copyElem e m = .ok (.error .noMem) m' ∧ copies.map ListNode.view = e.attrs.map ListNode.view ∧
      ∀ a, m'.refs a = m.refs a + (heldAll copies).count a := by
  unfold copyElem
  obtain ⟨o, m1, e1, hr1, ht1, ⟨rfl, _, hn⟩ | ⟨b, rfl, h1, _⟩⟩ := after_elim (malloc_spec hm.holds)
  · exact (hn (granted_mono hk.1 (by omega))).elim
  rw [bind_ok e1]
  obtain ⟨copies, m2, e2, hv, h0, h2, hr2, ht2⟩ := listClone_append .junk e.attrs [] [] h1 ha.2.1 (by
    rw [hr1, ht1]; exact (granted_add.mp hk.1).2)
  rw [List.append_nil] at e2
  dsimp only
  rw [bind_ok (e2.trans rfl)]
  obtain ⟨o, m3, e3, ⟨rfl, h3, _⟩ | ⟨e', rfl, _, _, _, _, _, hg⟩⟩ := after_elim (copyRest_spec ha [] h2)
  · exact ⟨copies, m3, e3, hv, fun a => by rw [h3.refs a, List.append_nil]⟩
  · unfold Classes.cost at hg
    rw [if_neg hn] at hg
    have := granted_one.mp hg
    rw [hr2, hr1, show m2.time = m.time + (1 + costAll e.attrs) by omega, hk.2] at this
    exact absurd this (by decide)

/-! ## A concrete case -/

/-- `id="x"`. -/
def sampleId : ListNode :=
  { block := 2, attr := { block := 3, refcnt := 0, name := 4, ns := none, text := some { block := 5, name := 6, value := 7 } }
    name := 4, ns := none, cls := false }

/-- `class="a"`. -/
def sampleClass : ListNode :=
  { block := 8, attr := { block := 9, refcnt := 0, name := 10, ns := none, text := some { block := 11, name := 6, value := 12 } }
    name := 10, ns := none, cls := true }

/-- `title="y"`. -/
def sampleTitle : ListNode :=
  { block := 13, attr := { block := 14, refcnt := 0, name := 15, ns := none, text := some { block := 16, name := 6, value := 17 } }
    name := 15, ns := none, cls := false }

/-- `<p id="x" class="a" title="y">`, with the objects numbered from 0. -/
def samplePar : Elem :=
  { block := 0, name := 1, attrs := [sampleId, sampleClass, sampleTitle], classes := .at 18 [19] }

theorem sample_alive (k : Nat) : samplePar.Alive (stocked k 20) := by
  have h : ∀ x, x < 20 → 0 < (stocked k 20).refs x := fun x hx => by
    show 0 < (if x < 20 then 1 else 0)
    rw [if_pos hx]; omega
  refine ⟨(fun h => nomatch h), fun n hn x hx => h x ?_, fun x hx => h x ?_, h 1 (by decide)⟩
  · revert n x; decide
  · revert x; decide

/-- **C86**: the cases exist.  Eleven requests: with all granted the copy is complete; with the second one to fail it has no
attributes; with the eighth one to fail, after `class` was copied, unwritten memory is read; with the last one to fail the
attributes are lost. -/
theorem C86_cases :
    (∃ e' m', copyElem samplePar (stocked 11 20) = .ok (.ok e') m' ∧ e'.attrs.map ListNode.view = samplePar.attrs.map ListNode.view) ∧
    (∃ e' m', copyElem { samplePar with classes := .null } (stocked 1 20) = .ok (.ok e') m' ∧ e'.attrs = []) ∧
    copyElem samplePar (stocked 7 20) = .fault .uninit ∧
    (∃ m', copyElem samplePar (stocked 10 20) = .ok (.error .noMem) m' ∧ 2 ≤ m'.refs 12) := by
  refine ⟨?_, ?_, ?_, ?_⟩
  · obtain ⟨e', m', _, h, _, hv, _⟩ := (C86_copy_partial _ (stocked_valid 11 20) _ (sample_alive 11)).1 (stocked_granted (by decide))
    exact ⟨e', m', h, hv⟩
  · obtain ⟨e', m', h, hv, _⟩ := C86_attributes_violated _ (stocked_valid 1 20) { samplePar with classes := .null }
      ⟨(fun h => nomatch h), (sample_alive 1).2.1, (fun x hx => nomatch hx), (sample_alive 1).2.2.2⟩ [] [sampleClass, sampleTitle]
      sampleId rfl (fun x hx => nomatch hx) 0 (by decide) (stocked_refused 1 20) (Or.inl rfl)
    exact ⟨e', m', h, hv⟩
  · exact C86_uninit_violated _ (stocked_valid 7 20) _ (sample_alive 7) [sampleId, sampleClass] [] sampleTitle rfl
      ⟨sampleClass, List.mem_cons_of_mem _ (List.mem_cons_self ..), rfl⟩ 0 (by decide) (stocked_refused 7 20)
  · obtain ⟨copies, m', h, hv, hr⟩ := C86_lost_violated _ (stocked_valid 10 20) _ (sample_alive 10) (by decide) (stocked_refused 10 20)
    refine ⟨m', h, ?_⟩
    rw [hr]
    have h1 : (stocked 10 20).refs 12 = 1 := by decide
    have h2 : 12 ∈ heldAll copies := by
      have : sampleClass.view ∈ copies.map ListNode.view := by
        rw [hv]
        exact List.mem_map.mpr ⟨sampleClass, List.mem_cons_of_mem _ (List.mem_cons_self ..), rfl⟩
      obtain ⟨x, hx, e⟩ := List.mem_map.mp this
      have e' : x.attr.text.map (·.value) = some 12 := congrArg (fun v => v.2.2.2.2.2) e
      unfold heldAll
      refine List.mem_flatMap.mpr ⟨x, hx, ?_⟩
      cases ht : x.attr.text with
      | none => rw [ht] at e'; cases e'
      | some t =>
        rw [ht] at e'
        have : t.value = 12 := by simpa using e'
        unfold ListNode.held Attr.held heldText Txt.held
        rw [ht, ← this]; simp
    have := List.count_pos_iff.mpr h2
    omega

end Dom.Oom
