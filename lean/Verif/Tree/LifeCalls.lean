import Verif.Tree.LifeInv
/-! The functions that change the tree, the attributes and the reference counts keep the invariant `Sound`. -/
set_option linter.unusedSimpArgs false
set_option linter.unusedVariables false
namespace Dom.Tree
variable {w w' : World} {ch ch' : Children} {x e a d j p new old : NodeId} {n xn en an nn pn dn m on : Node}

theorem u32_pos {k : Nat} (h : k + 1 < 4294967296) : 0 < u32 (k + 1) := by
  rw [u32_small (by omega)]; omega

theorem first_nil (hC : Core w ch) (hd : w.nodes d = some dn) : dn.first = none ↔ ch d = [] := by
  obtain ⟨m, hm, h1, _⟩ := (hC.linked.loc d dn hd).ends
  rw [hd] at hm; cases hm
  rw [h1]
  cases ch d <;> simp

/-- A step that moves nodes and counts one reference more to `x`. -/
theorem Sound.move (S : Sound w ch) (hW' : WF w' ch') (hd : ∀ j, (w'.nodes j).map Node.data = (w.nodes j).map Node.data)
    (ho : ∀ j n n', w.nodes j = some n → w'.nodes j = some n' → n.owner = none ∨ n'.owner = n.owner)
    (ha : ∀ j n, w.nodes j = some n → n.type = .attribute → ∃ n', w'.nodes j = some n' ∧ n'.parent = n.parent)
    (hx : w.nodes x = some xn) (hov : xn.refcnt + 1 < 4294967296)
    (hr : ∀ j, (w'.nodes j).map Node.refcnt = (w.nodes j).map fun n => if j = x then u32 (n.refcnt + 1) else n.refcnt)
    (hkeep : ∀ j q, j ≠ x → j ∈ ch q → ∃ q', j ∈ ch' q')
    (hdoc : ∀ d dn, w.nodes d = some dn → dn.type = .document → dn.refcnt = 0 → ch d = [] → ch' d = [])
    (hfrag : ∀ j n n', w.nodes j = some n → w'.nodes j = some n' → n.type = .fragment → n'.pendingIn = none → n.pendingIn = none ∨
      ∀ d dn, n.owner = some d → w.nodes d = some dn → 0 < dn.refcnt)
    (hent : ∀ q j, j ∈ ch' q → j ∈ ch q ∨ ∃ qn, w.nodes q = some qn ∧ qn.type ≠ .entityRef ∧ qn.type ≠ .entity) : Sound w' ch' := by
  have hback : ∀ {j n'}, w'.nodes j = some n' → ∃ n, w.nodes j = some n ∧ n.type = n'.type ∧
      n'.refcnt = if j = x then u32 (n.refcnt + 1) else n.refcnt := by
    intro j n' h
    have h1 := hd j
    have h2 := hr j
    rw [h] at h1 h2
    cases hj : w.nodes j with
    | none => rw [hj] at h1; cases h1
    | some n =>
      rw [hj] at h1 h2
      simp only [Option.map_some, Option.some.injEq] at h1 h2
      exact ⟨n, rfl, (Node.data_type h1).symm, h2⟩
  refine S.step hW' hd ho ha ?_ ?_ hfrag ?_
  · intro j n' hj hp ht
    obtain ⟨n, h1, h2, h3⟩ := hback hj
    by_cases hjx : j = x
    · subst hjx
      rw [hx] at h1; cases h1
      rw [if_pos rfl] at h3
      rw [h3]; exact u32_pos hov
    · rw [if_neg hjx] at h3
      rw [h3]
      cases hq : n.parent with
      | none => exact S.held j n h1 hq (by rw [h2]; exact ht)
      | some q =>
        exfalso
        by_cases hat : n.type = .attribute
        · obtain ⟨n2, h4, h5⟩ := ha j n h1 hat
          rw [hj] at h4; cases h4
          rw [hp, hq] at h5; cases h5
        · obtain ⟨q', h4⟩ := hkeep j q hjx (S.wf.linked.up j n q h1 hat hq)
          obtain ⟨n2, h5, _, h6⟩ := hW'.linked.alive_child h4
          rw [hj] at h5; cases h5
          rw [hp] at h6; cases h6
  · intro j n n' h1 hj ht hz
    obtain ⟨n2, h2, _, h3⟩ := hback hj
    rw [h1] at h2; cases h2
    have hz0 : n.refcnt = 0 := by
      by_cases hjx : j = x
      · subst hjx
        rw [hx] at h1; cases h1
        rw [if_pos rfl, hz] at h3
        have := u32_pos hov
        omega
      · rw [if_neg hjx, hz] at h3; exact h3.symm
    refine ⟨hz0, (first_nil hW'.toCore hj).2 (hdoc j n h1 ht hz0 ?_)⟩
    exact (first_nil S.wf.toCore h1).1 (S.docs j n h1 ht hz0).1
  · intro c n' q hc hpar
    obtain ⟨n, h1, h2, _⟩ := hback hc
    by_cases hat : n.type = .attribute
    · obtain ⟨n2, h3, h4⟩ := ha c n h1 hat
      rw [hc] at h3; cases h3
      exact .inl ⟨n, h1, h4 ▸ hpar⟩
    · rcases hent q c (hW'.linked.up c n' q hc (by rw [← h2]; exact hat) hpar) with h3 | h3
      · obtain ⟨n3, h4, _, h5⟩ := S.wf.linked.alive_child h3
        exact .inl ⟨n3, h4, h5⟩
      · exact .inr h3

/-- The document of a DocumentFragment is held by the client. -/
def DocHeld (w : World) (f : NodeId) : Prop := ∀ fn d dn, w.nodes f = some fn → fn.type = .fragment → fn.owner = some d → w.nodes d = some dn → 0 < dn.refcnt

theorem owner_map {f : NodeId → Node → Option NodeId} (h : ∀ j, (w'.nodes j).map Node.owner = (w.nodes j).map (f j)) {n' : Node} (h1 : w.nodes j = some n)
    (h2 : w'.nodes j = some n') : n'.owner = f j n := by
  have := h j
  rw [h1, h2] at this
  simpa using this

theorem Sound.inserted {r : Option NodeId} (S : Sound w ch) (h : Inserted w ch p new nn pn r w' ch') (hp : w.nodes p = some pn) (hx : w.nodes new = some nn)
    (hdt : nn.type = .doctype → pn.type = .document → nn.owner = none ∨ nn.owner = some p)
    (hov : nn.refcnt + 1 < 4294967296) (hheld : pn.type = .document → 0 < pn.refcnt) (hf : DocHeld w new) (hpe : pn.type ≠ .entityRef ∧ pn.type ≠ .entity) : Sound w' ch' := by
  refine S.move h.wf h.data ?_ h.attrs hx hov h.refs ?_ ?_ ?_ ?_
  · intro j n n' h1 h2
    have h3 := owner_map (f := fun j n => if j = new ∧ pn.type = .document ∧ nn.type = .doctype then some p else n.owner) h.owner h1 h2
    by_cases hc : j = new ∧ pn.type = .document ∧ nn.type = .doctype
    · obtain ⟨rfl, c1, c2⟩ := hc
      rw [hx] at h1; cases h1
      rw [if_pos ⟨rfl, c1, c2⟩] at h3
      rcases hdt c2 c1 with h4 | h4
      · exact .inl h4
      · exact .inr (h3.trans h4.symm)
    · rw [if_neg hc] at h3; exact .inr h3
  · intro j q hj hq
    by_cases hqp : q = p
    · subst hqp
      obtain ⟨s, t, h1, _, h2⟩ := h.here
      refine ⟨q, ?_⟩
      have : j ∈ s ++ t := by rw [← h1]; simp [hq, hj]
      rw [h2]
      simp only [List.mem_append] at this ⊢
      tauto
    · have h1 := h.elsewhere q hqp
      by_cases hc : q = new ∧ nn.type = .fragment
      · obtain ⟨rfl, hc⟩ := hc
        obtain ⟨s, t, _, _, h2⟩ := h.here
        refine ⟨p, ?_⟩
        rw [h2]
        simp [moved, hc, hq]
      · rw [if_neg hc] at h1
        exact ⟨q, by rw [h1]; simp [hq, hj]⟩
  · intro d dn hd ht hz hc
    have hdp : d ≠ p := by rintro rfl; rw [hp] at hd; cases hd; have := hheld ht; omega
    rw [h.elsewhere d hdp, hc]
    simp
  · intro j n n' h1 h2 ht hp'
    by_cases hj : j = new
    · subst hj
      exact .inr fun d dn h3 h4 => hf n d dn h1 ht h3 h4
    · obtain ⟨n2, h3, h4⟩ := h.pend j n h1 ht hj
      rw [h2] at h3; cases h3
      exact .inl (h4 ▸ hp')
  · intro q j hj
    by_cases hqp : q = p
    · exact .inr ⟨pn, by rw [hqp]; exact hp, hpe⟩
    · left
      rw [h.elsewhere q hqp] at hj
      split_ifs at hj
      · cases hj
      · exact (List.mem_filter.1 hj).1

theorem Sound.replaced (S : Sound w ch) (h : Replaced w ch p new old nn w' ch') (hp : w.nodes p = some pn) (hx : w.nodes new = some nn)
    (ho : w.nodes old = some on) (hov : on.refcnt + 1 < 4294967296) (hheld : 0 < pn.refcnt) (hf : DocHeld w new)
    (hpe : pn.type ≠ .entityRef ∧ pn.type ≠ .entity) : Sound w' ch' := by
  have hnf : nn.type ≠ .fragment → new ∈ ch' p := by
    intro hft
    obtain ⟨s, t, _, h2⟩ := h.here
    rw [h2]; simp [moved, hft]
  refine S.move h.wf h.data ?_ h.attrs ho hov h.refs ?_ ?_ ?_ ?_
  · intro j n n' h1 h2
    exact .inr (owner_map (f := fun _ n => n.owner) h.owner h1 h2)
  · intro j q hj hq
    by_cases hjn : j = new
    · subst hjn
      by_cases hft : nn.type = .fragment
      · exfalso
        obtain ⟨m, hm, _, h1⟩ := S.wf.linked.alive_child hq
        obtain ⟨qn, hqn⟩ := S.wf.linked.alive_parent hm h1
        have := S.wf.types q qn j nn hqn hq hx
        rw [hft] at this
        generalize qn.type = t at this
        cases this <;> simp_all
      · exact ⟨p, hnf hft⟩
    by_cases hqp : q = p
    · subst hqp
      obtain ⟨s, t, h1, h2⟩ := h.here
      refine ⟨q, ?_⟩
      have : j ∈ s ++ old :: t := by rw [← h1]; simp [hq, hjn]
      rw [h2]
      simp only [List.mem_append, List.mem_cons] at this ⊢
      tauto
    · have h1 := h.elsewhere q hqp
      by_cases hc : q = new ∧ nn.type = .fragment
      · obtain ⟨rfl, hc⟩ := hc
        obtain ⟨s, t, _, h2⟩ := h.here
        refine ⟨p, ?_⟩
        rw [h2]
        simp [moved, hc, hq]
      · rw [if_neg hc] at h1
        exact ⟨q, by rw [h1]; simp [hq, hjn]⟩
  · intro d dn hd ht hz hc
    have hdp : d ≠ p := by rintro rfl; rw [hp] at hd; cases hd; omega
    rw [h.elsewhere d hdp, hc]
    simp
  · intro j n n' h1 h2 ht hp'
    by_cases hj : j = new
    · subst hj
      exact .inr fun d dn h3 h4 => hf n d dn h1 ht h3 h4
    · obtain ⟨n2, h3, h4⟩ := h.pend j n h1 ht hj
      rw [h2] at h3; cases h3
      exact .inl (h4 ▸ hp')
  · intro q j hj
    by_cases hqp : q = p
    · exact .inr ⟨pn, by rw [hqp]; exact hp, hpe⟩
    · left
      rw [h.elsewhere q hqp] at hj
      split_ifs at hj
      · cases hj
      · exact (List.mem_filter.1 hj).1

theorem Sound.removed (S : Sound w ch) (h : Removed w ch p old w' ch') (ho : w.nodes old = some on) (hna : on.type ≠ .attribute)
    (hov : on.refcnt + 1 < 4294967296) : Sound w' ch' := by
  refine S.move h.wf h.data ?_ ?_ ho hov h.refs ?_ ?_ ?_ ?_
  · intro j n n' h1 h2
    exact .inr (owner_map (f := fun _ n => n.owner) h.owner h1 h2)
  · intro j n h1 ht
    have h2 := h.parents j
    rw [h1] at h2
    cases hj : w'.nodes j with
    | none => rw [hj] at h2; cases h2
    | some n' =>
      rw [hj] at h2
      have hjo : j ≠ old := by rintro rfl; rw [ho] at h1; cases h1; exact hna ht
      simp only [Option.map_some, Option.some.injEq, if_neg hjo] at h2
      exact ⟨n', rfl, h2⟩
  · intro j q hj hq
    exact ⟨q, by rw [h.lists]; simp [hq, hj]⟩
  · intro d dn hd ht hz hc
    rw [h.lists, hc]; rfl
  · intro j n n' h1 h2 ht hp'
    obtain ⟨n2, h3, h4⟩ := h.pend j n h1 ht
    rw [h2] at h3; cases h3
    exact .inl (h4 ▸ hp')
  · intro q j hj
    rw [h.lists] at hj
    exact .inl (List.mem_filter.1 hj).1

theorem ref_upd (hx : w.nodes x = some xn) :
    w.mp (fun j n => { n with refcnt := if j = x then u32 (n.refcnt + 1) else n.refcnt }) [] = w.upd x { xn with refcnt := u32 (xn.refcnt + 1) } := by
  rw [upd_as_mp hx fun m => { m with refcnt := u32 (m.refcnt + 1) }]
  congr 1
  funext j m
  by_cases h : j = x <;> simp [h]

theorem Sound.ref (S : Sound w ch) (hx : w.nodes x = some xn) (hov : xn.refcnt + 1 < 4294967296) :
    Sound (w.mp (fun j n => { n with refcnt := if j = x then u32 (n.refcnt + 1) else n.refcnt }) []) ch := by
  rw [ref_upd hx]
  have := u32_pos hov
  exact S.setRef hx (fun _ _ => this) (fun _ h => by omega)

theorem Sound.unpend (S : Sound w ch) (hx : w.nodes x = some xn) (ht : xn.type = .fragment) (hf : DocHeld w x) : Sound (w.mp (unpend x) []) ch := by
  have hb : ∀ {j n n'}, w.nodes j = some n → (w.mp (Tree.unpend x) []).nodes j = some n' → n' = Tree.unpend x j n := by
    intro j n n' h1 h2
    rw [mp_nodes, h1] at h2
    simpa using h2.symm
  have hb' : ∀ {j n'}, (w.mp (Tree.unpend x) []).nodes j = some n' → ∃ n, w.nodes j = some n ∧ n' = Tree.unpend x j n := by
    intro j n' h
    obtain ⟨n, h1, h2⟩ := mp_some_iff.1 h
    exact ⟨n, h1, by rw [← h2]⟩
  refine S.step (WF_unpend S.wf hx ht) ?_ ?_ ?_ ?_ ?_ ?_ ?_
  · intro j
    rw [mp_nodes]
    cases w.nodes j <;> rfl
  · intro j n n' h1 h2
    rw [hb h1 h2]; exact .inr rfl
  · intro j n h1 _
    exact ⟨Tree.unpend x j n, by rw [mp_nodes, h1]; rfl, rfl⟩
  · intro j n' h hp ht
    obtain ⟨n, h1, rfl⟩ := hb' h
    exact S.held j n h1 hp ht
  · intro j n n' h1 h2 ht hz
    rw [hb h1 h2] at hz ⊢
    exact ⟨hz, (S.docs j n h1 ht hz).1⟩
  · intro j n n' h1 h2 htj hp
    rw [hb h1 h2] at hp
    by_cases hj : j = x
    · subst hj
      exact .inr fun d dn h3 h4 => hf n d dn h1 htj h3 h4
    · left; simpa [Tree.unpend, hj] using hp
  · intro c n' q h hp
    obtain ⟨n, h1, rfl⟩ := hb' h
    exact .inl ⟨n, h1, hp⟩

/-- A node that is not read-only is not an entity (reference). -/
theorem not_entity (hp : w.nodes p = some pn) (h : ¬ ReadOnly w p) : pn.type ≠ .entityRef ∧ pn.type ≠ .entity := by
  constructor <;> intro ht
  · exact h ⟨pn, hp, .inr (.inr (.inr ⟨by rw [ht]; simp, p, pn, .refl, hp, .inr ht⟩))⟩
  · exact h ⟨pn, hp, .inr (.inr (.inr ⟨by rw [ht]; simp, p, pn, .refl, hp, .inl ht⟩))⟩

/-- `x` is a live node whose reference count can be increased. -/
def Room (w : World) (x : NodeId) : Prop := ∀ n, w.nodes x = some n → n.refcnt + 1 < 4294967296
/-- The client holds a reference to `x`. -/
def Held (w : World) (x : NodeId) : Prop := ∃ n, w.nodes x = some n ∧ 0 < n.refcnt
/-- If `x` is a DocumentFragment then it is on the list of pending nodes of its document. -/
def Listed (w : World) (x : NodeId) : Prop := ∀ n, w.nodes x = some n → n.type = .fragment → n.pendingIn ≠ none

/-- What the client has to observe about references when it calls a tree function: it holds the node into which it inserts; a DocumentFragment that
it inserts is on the list of pending nodes, and it holds the document of that DocumentFragment; no count overflows. -/
def Call.Kept (w : World) : Call → Prop
  | .insertBefore p new _ => Held w p ∧ Listed w new ∧ DocHeld w new ∧ Room w new
  | .appendChild p new => Held w p ∧ Listed w new ∧ DocHeld w new ∧ Room w new
  | .replaceChild p new old => Held w p ∧ Listed w new ∧ DocHeld w new ∧ Room w old
  | .removeChild _ old => Room w old
  | _ => True

/-- The reference count of a node, 0 when there is no such node. -/
def count (w : World) (j : NodeId) : Nat := match w.nodes j with
  | some n => n.refcnt
  | none => 0

theorem count_eq (h : w.nodes j = some n) : count w j = n.refcnt := by simp [count, h]

/-- Between `w` and `w'` one reference to `r` has been added and nothing else. -/
def Grants (w w' : World) (r : Option NodeId) : Prop := ∀ j, count w' j = count w j + if r = some j then 1 else 0

theorem Grants.refl : Grants w w none := fun j => by simp

theorem grants_refs (hx : w.nodes x = some xn) (hov : xn.refcnt + 1 < 4294967296)
    (hr : ∀ j, (w'.nodes j).map Node.refcnt = (w.nodes j).map fun n => if j = x then u32 (n.refcnt + 1) else n.refcnt) : Grants w w' (some x) := by
  intro j
  have h := hr j
  unfold count
  cases h1 : w.nodes j with
  | none =>
    have hjx : x ≠ j := by rintro rfl; rw [hx] at h1; cases h1
    rw [h1] at h
    cases h2 : w'.nodes j with
    | none => simp [hjx]
    | some n' => rw [h2] at h; cases h
  | some n =>
    rw [h1] at h
    cases h2 : w'.nodes j with
    | none => rw [h2] at h; cases h
    | some n' =>
      rw [h2] at h
      simp only [Option.map_some, Option.some.injEq] at h
      by_cases hjx : j = x
      · subst hjx
        rw [hx] at h1; cases h1
        rw [if_pos rfl, u32_small (by omega)] at h
        simp [h]
      · rw [if_neg hjx] at h
        simp [h, Ne.symm hjx]

theorem grants_same (hr : ∀ j, (w'.nodes j).map Node.refcnt = (w.nodes j).map Node.refcnt) : Grants w w' none := by
  intro j
  have h := hr j
  unfold count
  cases h1 : w.nodes j <;> cases h2 : w'.nodes j <;> rw [h1, h2] at h <;> simp_all

theorem grants_add (hC : Core w ch) (hn : n.refcnt = 1) : Grants w (w.add n) (some w.fresh) := by
  intro j
  unfold count
  by_cases hj : j = w.fresh
  · subst hj
    rw [add_new, fresh_dead hC]; simp [hn]
  · have : (w.add n).nodes j = w.nodes j := by simp [World.add, hj]
    rw [this]; simp [Ne.symm hj]

/-- The call returned, the invariant holds, and exactly one reference to the node that it returned has been added. -/
def Settles (w : World) (m : Res NodeId) : Prop :=
  ∃ w' ch', Sound w' ch' ∧ ((∃ r, m = .ok w' r ∧ Grants w w' (some r)) ∨ ∃ e, m = .exc w' e ∧ Grants w w' none)

theorem grants_ref (hx : w.nodes x = some xn) (hov : xn.refcnt + 1 < 4294967296) :
    Grants w (w.mp (fun j n => { n with refcnt := if j = x then u32 (n.refcnt + 1) else n.refcnt }) []) (some x) := by
  refine grants_refs hx hov fun j => ?_
  rw [mp_nodes]
  cases w.nodes j <;> rfl

theorem Sound.insert {r : Option NodeId} (S : Sound w ch) (hp : Held w p) (hx : Live w new) (hr : ∀ c, r = some c → NotAttrOf w p c)
    (hl : Listed w new) (hf : DocHeld w new) (hov : Room w new) : Settles w (insertBefore p new r w) := by
  classical
  obtain ⟨pn, hp, hh⟩ := hp
  obtain ⟨nn, hx⟩ := hx
  rcases insertBefore_total S.wf hp hx hr with ⟨e, h1⟩ | ⟨_, h1⟩ | ⟨w1, ch1, h1, h2, _⟩ | ⟨ht, h1⟩ | ⟨ht, hz, h1⟩
  · exact ⟨w, ch, S, .inr ⟨e, h1, .refl⟩⟩
  · exact ⟨_, ch, S.ref hx (hov nn hx), .inl ⟨new, h1, grants_ref hx (hov nn hx)⟩⟩
  · have he : insertRefusal w ch p new nn pn r = none := by
      cases he : insertRefusal w ch p new nn pn r with
      | some e => rw [insertBefore_refused S.wf hp hx hr he] at h1; cases h1
      | none => rfl
    unfold insertRefusal at he
    by_cases hc : nn.owner = pn.owner ∨ (nn.type = .doctype ∧ nn.owner = none)
    swap
    · rw [if_pos hc] at he; cases he
    rw [if_neg (not_not.2 hc)] at he
    by_cases hro : ReadOnly w p
    · rw [if_pos hro] at he; cases he
    refine ⟨w1, ch1, S.inserted h2 hp hx ?_ (hov nn hx) (fun _ => hh) hf (not_entity hp hro), .inl ⟨new, h1, grants_refs hx (hov nn hx) h2.refs⟩⟩
    intro ht hpt
    rcases hc with hc | hc
    · right; rw [hc]; exact S.wf.ownDoc p pn hp hpt
    · exact .inl hc.2
  · refine ⟨_, ch, S.unpend hx ht hf, .inr ⟨_, h1, grants_same fun j => ?_⟩⟩
    rw [mp_nodes]; cases w.nodes j <;> rfl
  · exact absurd hz (hl nn hx ht)

/-- The tree functions keep the invariant. -/
theorem Sound.call (S : Sound w ch) {c : Call} (hok : c.Ok w) (hk : c.Kept w) : Settles w (c.run w) := by
  cases c with
  | createDocument =>
    exact ⟨_, ch, S.add (WF_createDocument S.wf) rfl rfl rfl rfl (fun h => nomatch h), .inl ⟨_, createDocument_run, grants_add S.wf.toCore rfl⟩⟩
  | createNode d t n v =>
    obtain ⟨⟨dn, hd, hdt⟩, ht⟩ := hok
    exact ⟨_, ch, S.add (WF_createNode S.wf hd hdt ht n v) rfl rfl rfl rfl (fun _ h => nomatch h),
      .inl ⟨_, createNode_run S.wf.toCore hd t n v, grants_add S.wf.toCore rfl⟩⟩
  | createDoctype n =>
    exact ⟨_, ch, S.add (WF_createDoctype S.wf n) rfl rfl rfl rfl (fun h => nomatch h), .inl ⟨_, createDoctype_run n, grants_add S.wf.toCore rfl⟩⟩
  | insertBefore p new r => exact S.insert hk.1 hok.2.1 hok.2.2 hk.2.1 hk.2.2.1 hk.2.2.2
  | appendChild p new => exact S.insert hk.1 hok.2 (by simp) hk.2.1 hk.2.2.1 hk.2.2.2
  | replaceChild p new old =>
    obtain ⟨⟨pn, hp⟩, ⟨nn, hx⟩, ⟨on, ho, hna⟩, hempty⟩ := hok
    obtain ⟨⟨pn', hp', hh⟩, hl, hf, hov⟩ := hk
    rw [hp] at hp'; cases hp'
    rcases replaceChild_total S.wf hp hx ho hna (fun h1 h2 => hempty nn on hx ho h1 h2) with
      ⟨e, h1⟩ | ⟨_, h1⟩ | ⟨w1, ch1, h1, h2, _⟩ | ⟨ht, hz, h1⟩
    · exact ⟨w, ch, S, .inr ⟨e, h1, .refl⟩⟩
    · exact ⟨_, ch, S.ref ho (hov on ho), .inl ⟨old, h1, grants_ref ho (hov on ho)⟩⟩
    · classical
      have he : replaceRefusal w ch p new old nn pn = none := by
        cases he : replaceRefusal w ch p new old nn pn with
        | some e => rw [replaceChild_refused S.wf hp hx ho hna he] at h1; cases h1
        | none => rfl
      have hro : ¬ ReadOnly w p := by
        intro hro
        unfold replaceRefusal at he
        rw [if_pos hro] at he
        split_ifs at he
      exact ⟨w1, ch1, S.replaced h2 hp hx ho (hov on ho) hh hf (not_entity hp hro), .inl ⟨old, h1, grants_refs ho (hov on ho) h2.refs⟩⟩
    · exact absurd hz (hl nn hx ht)
  | removeChild p old =>
    obtain ⟨⟨pn, hp⟩, ⟨on, ho, hna⟩⟩ := hok
    cases he : removeRefusal w ch p old pn on with
    | some e => exact ⟨w, ch, S, .inr ⟨e, removeChild_refused S.wf hp ho hna he, .refl⟩⟩
    | none =>
      obtain ⟨w1, ch1, h1, h2⟩ := removeChild_ok S.wf hp ho hna he
      refine ⟨w1, ch1, S.removed h2 ho ?_ (hk on ho), .inl ⟨old, h1, grants_refs ho (hk on ho) h2.refs⟩⟩
      intro hat
      have hmem : old ∈ ch p := by
        classical
        unfold removeRefusal at he
        by_contra hc
        rw [if_pos hc] at he
        split_ifs at he
      obtain ⟨m, hm, h3, _⟩ := S.wf.linked.alive_child hmem
      rw [ho] at hm; cases hm
      exact h3 hat

/-- What the functions that return a neighbour return is a live node. -/
theorem target_live (hC : Core w ch) (k : Dir) (hx : w.nodes x = some n) {y : NodeId} (h : k.target n = some y) : Live w y := by
  have hkid : ∀ {p pn}, w.nodes p = some pn → ∀ y ∈ ch p, Live w y := fun _ y hy => by
    obtain ⟨m, hm, _⟩ := hC.linked.alive_child hy
    exact ⟨m, hm⟩
  have hsib : n.prev = some y ∨ n.next = some y → Live w y := by
    intro hs
    by_cases ho : n.parent = none ∨ n.type = .attribute
    · have := hC.linked.orphan x n hx ho
      rw [this.1, this.2] at hs
      rcases hs with hs | hs <;> cases hs
    · cases hp : n.parent with
      | none => exact absurd (.inl hp) ho
      | some p =>
        have hm := hC.linked.up x n p hx (fun h => ho (.inr h)) hp
        obtain ⟨pn, hpn⟩ := hC.linked.alive_parent hx hp
        obtain ⟨s, t, hst⟩ := List.append_of_mem hm
        obtain ⟨m, hm', _, _, h1, h2⟩ := (hC.linked.loc p pn hpn).kids s x t hst
        rw [hx] at hm'; cases hm'
        refine hkid hpn y ?_
        rw [hst]
        rcases hs with hs | hs
        · rw [h1] at hs
          have := List.mem_of_getLast? hs
          simp [this]
        · rw [h2] at hs
          have := List.mem_of_head? hs
          simp [this]
  obtain ⟨m, hm, h1, h2⟩ := (hC.linked.loc x n hx).ends
  rw [hx] at hm; cases hm
  cases k <;> simp only [Dir.target] at h
  · split_ifs at h
    exact hC.linked.alive_parent hx h
  · rw [h1] at h; exact hkid hx y (List.mem_of_head? h)
  · rw [h2] at h; exact hkid hx y (List.mem_of_getLast? h)
  · split_ifs at h; exact hsib (.inl h)
  · split_ifs at h; exact hsib (.inr h)
  · split_ifs at h
    obtain ⟨d, dn, o1, o2, _⟩ | ⟨_, o1, _⟩ := hC.owner x n hx
    · rw [h] at o1; cases o1; exact ⟨dn, o2⟩
    · rw [h] at o1; cases o1

theorem Sound.visit (S : Sound w ch) (k : Dir) (hx : w.nodes x = some n) (hov : ∀ y, k.target n = some y → Room w y) :
    ∃ w', Tree.visit k x w = .ok w' (k.target n) ∧ Sound w' ch ∧ Grants w w' (k.target n) := by
  unfold Tree.visit
  rw [get_bind hx]
  cases h : k.target n with
  | none => exact ⟨w, rfl, S, .refl⟩
  | some y =>
    obtain ⟨yn, hy⟩ := target_live S.wf.toCore k hx h
    dsimp only
    rw [bind_ok (ref_run hy)]
    exact ⟨_, rfl, S.ref hy (hov y h yn hy), grants_ref hy (hov y h yn hy)⟩

/-- A new edge keeps the parent relation well-founded if it closes no cycle. -/
theorem wf_edge (hwf : WellFounded (fun p c => ParentOf w c p)) (hne : ¬ AncSelf w e a) (h1 : ∀ c p, c ≠ a → ParentOf w' c p → ParentOf w c p)
    (h2 : ∀ p, ParentOf w' a p → p = e) : WellFounded (fun p c => ParentOf w' c p) := by
  have hfar : ∀ x, ¬ AncSelf w x a → Acc (fun p c => ParentOf w' c p) x := by
    intro x
    induction x using hwf.induction with
    | _ x ih =>
      intro hx
      refine Acc.intro x fun p hp => ?_
      have hxa : x ≠ a := by rintro rfl; exact hx .refl
      have hp' := h1 x p hxa hp
      exact ih p hp' fun h => hx (.head hp' h)
  have ha : Acc (fun p c => ParentOf w' c p) a := Acc.intro a fun p hp => by rw [h2 p hp]; exact hfar e hne
  refine ⟨fun x => ?_⟩
  induction x using hwf.induction with
  | _ x ih =>
    by_cases hx : x = a
    · rw [hx]; exact ha
    · exact Acc.intro x fun p hp => ih p (h1 x p hx hp)

/-- An element below an attribute is below an entity reference. -/
theorem below_attr_readonly (hC : Core w ch) (ha : w.nodes a = some an) (hat : an.type = .attribute) (he : w.nodes e = some en) (het : en.type = .element)
    (h : AncSelf w e a) : ReadOnly w e := by
  have key : ∀ x, AncSelf w x a → ∀ n, w.nodes x = some n → n.type = .attribute ∨ n.type = .text ∨ ∃ j m, AncSelf w x j ∧ w.nodes j = some m ∧ m.type = .entityRef := by
    intro x hx
    induction hx using Relation.ReflTransGen.head_induction_on with
    | refl => intro n hn; rw [ha] at hn; cases hn; exact .inl hat
    | @head x p hxp hr ih =>
      intro n hn
      obtain ⟨n', hn', hp⟩ := hxp
      rw [hn] at hn'; cases hn'
      by_cases hna : n.type = .attribute
      · exact .inl hna
      obtain ⟨pn, hpn⟩ := hC.linked.alive_parent hn hp
      have hm := hC.linked.up x n p hn hna hp
      have hty := hC.types p pn x n hpn hm hn
      rcases ih pn hpn with h1 | h1 | ⟨j, m, h1, h2⟩
      · rw [h1] at hty
        generalize htt : n.type = t at hty
        cases hty with
        | content hp _ => simp at hp
        | attr hc =>
          simp only [List.mem_cons, List.mem_nil_iff, or_false] at hc
          rcases hc with rfl | rfl
          · exact .inr (.inl rfl)
          · exact .inr (.inr ⟨x, n, .refl, hn, htt⟩)
      · rw [h1] at hty
        generalize n.type = t at hty
        cases hty with
        | content hp _ => simp at hp
      · exact .inr (.inr ⟨j, m, .head ⟨n, hn, hp⟩ h1, h2⟩)
  refine ⟨en, he, .inr (.inr (.inr ⟨by rw [het]; simp, ?_⟩))⟩
  rcases key e h en he with h1 | h1 | ⟨j, m, h1, h2, h3⟩
  · rw [het] at h1; cases h1
  · rw [het] at h1; cases h1
  · exact ⟨j, m, h1, h2, .inr h3⟩

/-- The memory after `putAttr`. -/
def withAttr (w : World) (e a : NodeId) (en an : Node) (name : Str.DStr) (ns : Option Str.DStr) : World :=
  (w.upd a { an with parent := some e, pendingIn := none }).upd e { en with attrs := en.attrs ++ [{ name := name, ns := ns, node := a }] }

theorem Sound.withAttr (S : Sound w ch) (he : w.nodes e = some en) (het : en.type = .element) (ha : w.nodes a = some an) (hat : an.type = .attribute)
    (hp : an.parent = none) (ho : en.owner = an.owner) (hro : ¬ AncSelf w e a) (name : Str.DStr) (ns : Option Str.DStr) :
    Sound (Tree.withAttr w e a en an name ns) ch := by
  have hC := S.wf.toCore
  have hne : e ≠ a := by rintro rfl; rw [he] at ha; cases ha; rw [het] at hat; cases hat
  -- the new memory
  have hwe : (Tree.withAttr w e a en an name ns).nodes e = some { en with attrs := en.attrs ++ [{ name := name, ns := ns, node := a }] } := by
    simp [Tree.withAttr, World.upd]
  have hwa : (Tree.withAttr w e a en an name ns).nodes a = some { an with parent := some e, pendingIn := none } := by
    simp [Tree.withAttr, World.upd, Ne.symm hne]
  have hwo : ∀ j, j ≠ e → j ≠ a → (Tree.withAttr w e a en an name ns).nodes j = w.nodes j := by
    intro j h1 h2; simp [Tree.withAttr, World.upd, h1, h2]
  have hfr : (Tree.withAttr w e a en an name ns).fresh = w.fresh := rfl
  generalize hw' : Tree.withAttr w e a en an name ns = w' at hwe hwa hwo hfr ⊢
  have hback : ∀ {j n'}, w'.nodes j = some n' → ∃ n, w.nodes j = some n ∧ n'.type = n.type ∧ n'.owner = n.owner ∧ n'.host = n.host ∧
      n'.refcnt = n.refcnt ∧ n'.first = n.first ∧ n'.last = n.last ∧ n'.prev = n.prev ∧ n'.next = n.next ∧
      (j ≠ a → n'.parent = n.parent ∧ n'.pendingIn = n.pendingIn) ∧ (j ≠ e → n'.attrs = n.attrs) := by
    intro j n' h
    by_cases hj : j = e
    · subst hj; rw [hwe] at h; cases h; exact ⟨en, he, rfl, rfl, rfl, rfl, rfl, rfl, rfl, rfl, fun _ => ⟨rfl, rfl⟩, fun h => absurd rfl h⟩
    · by_cases hj' : j = a
      · subst hj'; rw [hwa] at h; cases h
        exact ⟨an, ha, rfl, rfl, rfl, rfl, rfl, rfl, rfl, rfl, fun h => absurd rfl h, fun _ => rfl⟩
      · rw [hwo j hj hj'] at h
        exact ⟨n', h, rfl, rfl, rfl, rfl, rfl, rfl, rfl, rfl, fun _ => ⟨rfl, rfl⟩, fun _ => rfl⟩
  have hforth : ∀ {j n}, w.nodes j = some n → ∃ n', w'.nodes j = some n' := by
    intro j n h
    by_cases hj : j = e
    · subst hj; exact ⟨_, hwe⟩
    · by_cases hj' : j = a
      · subst hj'; exact ⟨_, hwa⟩
      · exact ⟨n, by rw [hwo j hj hj']; exact h⟩
  have hmem : ∀ q, a ∉ ch q := by
    intro q hq
    obtain ⟨m, hm, h, _⟩ := hC.linked.alive_child hq
    rw [ha] at hm; cases hm; exact h hat
  have hL : Linked w' ch := by
    refine ⟨?_, ?_, ?_, ?_, ?_⟩
    · intro p n' hp'
      obtain ⟨n, h0, h1, h2, h3, h4, h5, h6, h7⟩ := hback hp'
      have hl := hC.linked.loc p n h0
      refine ⟨?_, ?_, hl.nodup⟩
      · obtain ⟨m, hm, e1, e2⟩ := hl.ends
        rw [h0] at hm; cases hm
        exact ⟨n', hp', by rw [h5, e1], by rw [h6, e2]⟩
      · intro s c t hst
        obtain ⟨m, hm, k1, k2, k3, k4⟩ := hl.kids s c t hst
        obtain ⟨m', hm'⟩ := hforth hm
        have hca : c ≠ a := by rintro rfl; exact hmem p (by rw [hst]; simp)
        obtain ⟨m2, g0, g1, g2, g3, g4, g5, g6, g7, g8, g9, _⟩ := hback hm'
        rw [hm] at g0; cases g0
        exact ⟨m', hm', by rw [g1]; exact k1, by rw [(g9 hca).1]; exact k2, by rw [g7]; exact k3, by rw [g8]; exact k4⟩
    · intro p hp'
      refine hC.linked.dead p ?_
      cases h : w.nodes p with
      | none => rfl
      | some n => obtain ⟨n', h'⟩ := hforth h; rw [hp'] at h'; cases h'
    · intro c n' p hc ht hpar
      obtain ⟨n, g0, g1, g2, g3, g4, g5, g6, g7, g8, g9, _⟩ := hback hc
      have hca : c ≠ a := by rintro rfl; rw [ha] at g0; cases g0; exact ht (g1.trans hat)
      exact hC.linked.up c n p g0 (by rw [← g1]; exact ht) (by rw [← (g9 hca).1]; exact hpar)
    · intro c n' p hc ht hpar
      by_cases hca : c = a
      · subst hca; rw [hwa] at hc; cases hc
        cases hpar
        exact ⟨_, hwe, het⟩
      · obtain ⟨n, g0, g1, g2, g3, g4, g5, g6, g7, g8, g9, _⟩ := hback hc
        obtain ⟨m, hm, hmt⟩ := hC.linked.attrUp c n p g0 (by rw [← g1]; exact ht) (by rw [← (g9 hca).1]; exact hpar)
        obtain ⟨m', hm'⟩ := hforth hm
        obtain ⟨m2, f0, f1, _⟩ := hback hm'
        rw [hm] at f0; cases f0
        exact ⟨m', hm', by rw [f1]; exact hmt⟩
    · intro c n' hc hor
      obtain ⟨n, g0, g1, g2, g3, g4, g5, g6, g7, g8, g9, _⟩ := hback hc
      rw [g7, g8]
      refine hC.linked.orphan c n g0 ?_
      by_cases hca : c = a
      · subst hca; rw [ha] at g0; cases g0; exact .inr hat
      · rw [← (g9 hca).1, ← g1]; exact hor
  have hW' : WF w' ch := by
    refine ⟨⟨hL, ?_, ?_, ?_, ?_, ?_, ?_⟩, ?_⟩
    · intro i n' hi
      obtain ⟨n, g0, _⟩ := hback hi
      rw [hfr]; exact hC.bnd i n g0
    · refine wf_edge hC.wf hro (e := e) (a := a) ?_ ?_
      · rintro c p hca ⟨n', hc, hpar⟩
        obtain ⟨n, g0, g1, g2, g3, g4, g5, g6, g7, g8, g9, _⟩ := hback hc
        exact ⟨n, g0, by rw [← (g9 hca).1]; exact hpar⟩
      · rintro p ⟨n', hc, hpar⟩
        rw [hwa] at hc; cases hc
        cases hpar; rfl
    · intro i n' hi
      obtain ⟨n, g0, g1, g2, g3, g4, g5, g6, g7, g8, g9, _⟩ := hback hi
      rcases hC.owner i n g0 with ⟨d', dn', k1, k2, k3⟩ | ⟨k1, k2, k3⟩
      · obtain ⟨m', hm'⟩ := hforth k2
        obtain ⟨m2, f0, f1, _⟩ := hback hm'
        rw [k2] at f0; cases f0
        exact .inl ⟨d', m', by rw [g2]; exact k1, hm', by rw [f1]; exact k3⟩
      · have hia : i ≠ a := by rintro rfl; rw [ha] at g0; cases g0; rw [hat] at k1; cases k1
        exact .inr ⟨by rw [g1]; exact k1, by rw [g2]; exact k2, by rw [(g9 hia).1]; exact k3⟩
    · intro i n' hi ht
      obtain ⟨n, g0, g1, g2, _⟩ := hback hi
      rw [g2]; exact hC.ownDoc i n g0 (by rw [← g1]; exact ht)
    · intro i n' p pn' hi hpar hp'
      obtain ⟨pn, f0, f1, f2, _⟩ := hback hp'
      by_cases hia : i = a
      · subst hia; rw [hwa] at hi; cases hi
        cases hpar
        rw [he] at f0; cases f0
        rw [f2]; exact ho.symm
      · obtain ⟨n, g0, g1, g2, g3, g4, g5, g6, g7, g8, g9, _⟩ := hback hi
        rw [g2, f2]
        exact hC.ownSame i n p pn g0 (by rw [← (g9 hia).1]; exact hpar) f0
    · intro p pn' c cn' hp' hc hcn
      obtain ⟨pn, f0, f1, _⟩ := hback hp'
      obtain ⟨n, g0, g1, _⟩ := hback hcn
      rw [f1, g1]; exact hC.types p pn c n f0 hc g0
    · intro i n' hi
      by_cases hia : i = a
      · subst hia; rw [hwa] at hi; cases hi
        left; simp
      · obtain ⟨n, g0, g1, g2, g3, g4, g5, g6, g7, g8, g9, _⟩ := hback hi
        rw [(g9 hia).2, (g9 hia).1, g1, g2]
        exact S.wf.pending i n g0
  refine S.step' hW' ?_ ?_ ?_ ?_ ?_ ?_ ?_
  · have hle : attrNodes w' e = attrNodes w e ++ [a] := by simp [attrNodes, hwe, he, het]
    have hlo : ∀ q, q ≠ e → attrNodes w' q = attrNodes w q := by
      intro q hq
      by_cases hqa : q = a
      · subst hqa; simp [attrNodes, hwa, ha, hat]
      · simp only [attrNodes, hwo q hq hqa]
    have hna : ∀ q, a ∉ attrNodes w q := by
      intro q hq
      obtain ⟨m, hm, _, h3⟩ := (S.attrs q).2.1 a hq
      rw [ha] at hm; cases hm; rw [hp] at h3; cases h3
    have hlive : ∀ q, ∀ c ∈ attrNodes w q, ∃ n, w'.nodes c = some n ∧ n.type = .attribute ∧ n.parent = some q := by
      intro q c hc
      obtain ⟨m, hm, h2, h3⟩ := (S.attrs q).2.1 c hc
      have hca : c ≠ a := by rintro rfl; exact hna q hc
      obtain ⟨m', hm'⟩ := hforth hm
      obtain ⟨n, g0, g1, g2, g3, g4, g5, g6, g7, g8, g9, _⟩ := hback hm'
      rw [hm] at g0; cases g0
      exact ⟨m', hm', by rw [g1]; exact h2, by rw [(g9 hca).1]; exact h3⟩
    intro q
    by_cases hq : q = e
    · subst hq
      rw [hle]
      refine ⟨?_, ?_, ?_⟩
      · rw [List.nodup_append]
        refine ⟨(S.attrs q).1, by simp, ?_⟩
        intro c hc b hb
        simp only [List.mem_singleton] at hb
        rintro rfl
        exact hna q (hb ▸ hc)
      · intro c hc
        simp only [List.mem_append, List.mem_singleton] at hc
        rcases hc with hc | rfl
        · exact hlive q c hc
        · exact ⟨_, hwa, hat, rfl⟩
      · intro c n' hc ht hpar
        by_cases hca : c = a
        · subst hca; simp
        · obtain ⟨n, g0, g1, g2, g3, g4, g5, g6, g7, g8, g9, _⟩ := hback hc
          have := (S.attrs q).2.2 c n g0 (by rw [← g1]; exact ht) (by rw [← (g9 hca).1]; exact hpar)
          simp [this]
    · rw [hlo q hq]
      refine ⟨(S.attrs q).1, hlive q, ?_⟩
      intro c n' hc ht hpar
      by_cases hca : c = a
      · subst hca; rw [hwa] at hc; cases hc; cases hpar; exact absurd rfl hq
      · obtain ⟨n, g0, g1, g2, g3, g4, g5, g6, g7, g8, g9, _⟩ := hback hc
        exact (S.attrs q).2.2 c n g0 (by rw [← g1]; exact ht) (by rw [← (g9 hca).1]; exact hpar)
  · intro j
    by_cases hj : j = e
    · subst hj; rw [hwe, he]; rfl
    · by_cases hj' : j = a
      · subst hj'; rw [hwa, ha]; rfl
      · rw [hwo j hj hj']
  · intro j n n' h1 h2
    obtain ⟨m, g0, g1, g2, _⟩ := hback h2
    rw [h1] at g0; cases g0
    exact .inr g2
  · intro j n' h hpar ht
    by_cases hja : j = a
    · subst hja; rw [hwa] at h; cases h; cases hpar
    · obtain ⟨n, g0, g1, g2, g3, g4, g5, g6, g7, g8, g9, _⟩ := hback h
      rw [g4]
      exact S.held j n g0 (by rw [← (g9 hja).1]; exact hpar) (by rw [← g1]; exact ht)
  · intro j n n' h1 h2 ht hz
    obtain ⟨m, g0, g1, g2, g3, g4, g5, _⟩ := hback h2
    rw [h1] at g0; cases g0
    rw [g4] at hz
    exact ⟨hz, by rw [g5]; exact (S.docs j n h1 ht hz).1⟩
  · intro j n n' h1 h2 ht hz
    have hja : j ≠ a := by rintro rfl; rw [ha] at h1; cases h1; rw [hat] at ht; cases ht
    obtain ⟨m, g0, g1, g2, g3, g4, g5, g6, g7, g8, g9, _⟩ := hback h2
    rw [h1] at g0; cases g0
    left; rw [← (g9 hja).2]; exact hz
  · intro c n' q hc hpar
    by_cases hca : c = a
    · subst hca; rw [hwa] at hc; cases hc; cases hpar
      exact .inr ⟨en, he, by rw [het]; simp⟩
    · obtain ⟨m, g0, g1, g2, g3, g4, g5, g6, g7, g8, g9, _⟩ := hback hc
      exact .inl ⟨m, g0, by rw [← (g9 hca).1]; exact hpar⟩

theorem Sound.putAttr (S : Sound w ch) (he : w.nodes e = some en) (het : en.type = .element) (ha : w.nodes a = some an) (hat : an.type = .attribute)
    (hnew : an.parent ≠ some e) (name : Str.DStr) (ns : Option Str.DStr) : (∃ x, Tree.putAttr e a name ns w = .exc w x) ∨
      (Tree.putAttr e a name ns w = .ok (Tree.withAttr w e a en an name ns) () ∧ Sound (Tree.withAttr w e a en an name ns) ch) := by
  have hC := S.wf.toCore
  have hne : e ≠ a := by rintro rfl; rw [he] at ha; cases ha; rw [het] at hat; cases hat
  unfold Tree.putAttr
  rw [get_bind he, get_bind ha]
  by_cases ho : en.owner ≠ an.owner
  · left; exact ⟨.wrongDocument, by rw [decide_eq_true ho, throwIf_true]⟩
  rw [decide_eq_false ho, throwIf_false]
  have ho : en.owner = an.owner := by simpa using ho
  obtain ⟨b, hb, hro⟩ := readonly_run hC he
  rw [bind_ok hb]
  cases b with
  | true => left; exact ⟨.noModificationAllowed, rfl⟩
  | false =>
    rw [throwIf_false]
    cases hp : an.parent with
    | some q =>
      left
      refine ⟨.inuseAttribute, ?_⟩
      have : ((some q).isSome && decide (some q ≠ some e)) = true := by
        rw [hp] at hnew
        simpa using hnew
      rw [this, throwIf_true]
    | none =>
      right
      have hf : ((none : Option NodeId).isSome && decide ((none : Option NodeId) ≠ some e)) = false := rfl
      rw [hf, throwIf_false, mod_bind ha]
      obtain ⟨d, dn, o1, o2, o3⟩ | ⟨o1, _⟩ := hC.owner a an ha
      swap
      · rw [hat] at o1; cases o1
      have hpend : an.pendingIn = some d := by
        rcases S.wf.pending a an ha with h | ⟨h, _⟩
        · rw [h, hp, hat, o1]; simp
        · rw [hat] at h; cases h
      have hrp : removePending a (w.upd a { an with parent := some e }) = .ok (w.upd a { an with parent := some e, pendingIn := none }) () := by
        unfold removePending
        rw [get_bind (n := { an with parent := some e }) (by simp [World.upd])]
        dsimp only
        rw [o1]
        dsimp only
        rw [hpend]
        show (cassert true >>= _) _ = _
        rw [cassert_bind]
        rw [modNode_run (n := { an with parent := some e }) (by simp [World.upd, o1, hpend])]
        congr 1
        simp only [World.upd, World.mk.injEq, and_true]
        funext j
        by_cases h : j = a
        · simp [h, ← o1]
        · simp [h]
      rw [bind_ok hrp]
      clear hrp
      have he' : (w.upd a { an with parent := some e, pendingIn := none }).nodes e = some en := by rw [upd_ne _ _ hne]; exact he
      rw [modNode_run he']
      exact ⟨rfl, S.withAttr he het ha hat hp ho (fun h => absurd (hro.2 (below_attr_readonly hC ha hat he het h)) (by simp)) name ns⟩

theorem grants_putAttr (he : w.nodes e = some en) (ha : w.nodes a = some an) (name : Str.DStr) (ns : Option Str.DStr) :
    Grants w (withAttr w e a en an name ns) none := by
  refine grants_same fun j => ?_
  by_cases h1 : j = e
  · subst h1; simp [withAttr, World.upd, he]
  · by_cases h2 : j = a
    · subst h2; simp [withAttr, World.upd, h1, ha]
    · simp [withAttr, World.upd, h1, h2]

/-- Giving up a reference takes one reference from `x` and nothing else. -/
theorem Sound.unref_count (S : Sound w ch) (hx : w.nodes x = some n) (hr : 0 < n.refcnt) {w' : World} (h : Tree.unref x w = .ok w' ()) :
    ∀ j, count w' j = if j = x then count w j - 1 else count w j := by
  have hW := S.wf
  have hC := hW.toCore
  intro j
  by_cases hk : n.refcnt ≠ 1 ∨ n.parent ≠ none
  · rw [unref_keep hx hr hk] at h
    cases h
    by_cases hj : j = x
    · subst hj; simp [count, World.upd, hx]
    · simp [count, World.upd, hj]
  rw [not_or, not_not, not_not] at hk
  obtain ⟨hr1, hp⟩ := hk
  have hdies : Dies w x j → w'.nodes j = none → count w' j = if j = x then count w j - 1 else count w j := by
    intro h1 h2
    cases h1 with
    | self => rw [if_pos rfl, count_eq hx, hr1]; simp [count, h2]
    | down k1 k2 k3 k4 =>
      rw [if_neg, count_eq k2, k4]
      · simp [count, h2]
      · rintro rfl; rw [hx] at k2; cases k2; rw [hp] at k3; cases k3
  have horph : Orphaned w x j → ¬ Dies w x j → (∀ m, w.nodes j = some m → w'.nodes j = some { m with parent := none, pendingIn := m.owner }) →
      count w' j = if j = x then count w j - 1 else count w j := by
    rintro ⟨q, m, k1, k2, k3, k4⟩ hnd h2
    rw [if_neg, count_eq k2, count_eq (h2 m k2)]
    rintro rfl; exact hnd .self
  by_cases ht : n.type = .document
  · obtain ⟨w1, h1, h2⟩ := unref_document hW S.attrs hx hr1 ht
    rw [h] at h1; cases h1
    by_cases hD : Dies w x j
    · by_cases hN : j = x ∧ Needed w x x
      · obtain ⟨rfl, hN⟩ := hN
        rw [if_pos rfl, count_eq hx, count_eq (h2.husk j n ⟨rfl, hN⟩ (fun h => h.2 rfl hN) hx), hr1]
        rfl
      · exact hdies hD (h2.dead j ⟨hD, fun h h' => hN ⟨h, h'⟩⟩)
    · have hjx : j ≠ x := by rintro rfl; exact hD .self
      by_cases hO : Orphaned w x j
      · exact horph hO hD fun m hm => h2.cut j m hO (fun h => hD h.1) hm
      · rw [if_neg hjx]
        unfold count
        rw [h2.same j (fun h => hD h.1) hO (fun h => hjx h.1)]
  · obtain ⟨d, dn, o1, o2, o3⟩ | ⟨o1, o2, _⟩ := hC.owner x n hx
    · obtain ⟨w1, h1, h2⟩ := unref_root hW S.attrs hx hr1 hp ht (fun _ => S.noHost x n hx) o1 o2 (fun hz => (S.docs d dn o2 o3 hz).1)
      rw [h] at h1; cases h1
      have hdx : d ≠ x := by rintro rfl; rw [hx] at o2; cases o2; exact ht o3
      by_cases hD : Dies w x j
      · exact hdies hD (h2.dead j (.inl hD))
      · have hjx : j ≠ x := by rintro rfl; exact hD .self
        by_cases hE : j = d ∧ n.pendingIn ≠ none ∧ dn.refcnt = 0
        · obtain ⟨rfl, k1, k2⟩ := hE
          rw [if_neg hjx, count_eq o2, k2]
          by_cases hN : Needed w x j
          · rw [count_eq (h2.husk j dn ⟨rfl, k1, k2, hN⟩ (fun h => h.elim hD fun h => h.2.2.2 hN) o2)]
            rfl
          · unfold count; rw [h2.dead j (.inr ⟨rfl, k1, k2, hN⟩)]
        · have hnD : ¬ (Dies w x j ∨ (j = d ∧ n.pendingIn ≠ none ∧ dn.refcnt = 0 ∧ ¬ Needed w x d)) :=
            fun h => h.elim hD fun h => hE ⟨h.1, h.2.1, h.2.2.1⟩
          by_cases hO : Orphaned w x j
          · exact horph hO hD fun m hm => h2.cut j m hO hnD hm
          · rw [if_neg hjx]
            unfold count
            rw [h2.same j hnD hO (fun h => hE ⟨h.1, h.2.1, h.2.2.1⟩)]
    · obtain ⟨w1, h1, h2⟩ := unref_doctype hW S.attrs hx hr1 hp o1 o2
      rw [h] at h1; cases h1
      by_cases hD : Dies w x j
      · exact hdies hD (h2.dead j hD)
      · have hjx : j ≠ x := by rintro rfl; exact hD .self
        by_cases hO : Orphaned w x j
        · exact horph hO hD fun m hm => h2.cut j m hO hD hm
        · rw [if_neg hjx]
          unfold count
          rw [h2.same j hD hO (fun h => h)]

end Dom.Tree
