import Verif.Tree.Attached
/-!
# What `insertBefore` does
-/
namespace Dom.Tree
set_option linter.unusedSimpArgs false

variable {w : World} {ch : Children} {β : Type}

/-- The parts of a record that none of the tree functions changes. -/
def Node.data (n : Node) : Node :=
  { n with parent := none, first := none, last := none, prev := none, next := none, pendingIn := none,
           refcnt := 0, owner := none }

theorem Node.data_type {n m : Node} (h : n.data = m.data) : n.type = m.type := by
  have := congrArg Node.type h; exact this

/-- The links of a record. -/
def Node.links (n : Node) : Option NodeId × Option NodeId × Option NodeId × Option NodeId × Option NodeId :=
  (n.parent, n.first, n.last, n.prev, n.next)

theorem mp_mp (g g' : NodeId → Node → Node) (l l') :
    (w.mp g l).mp g' l' = w.mp (fun j n => g' j (g j n)) (l ++ l') := by
  unfold World.mp
  simp only [List.append_assoc, World.mk.injEq, and_true]
  funext j
  cases w.nodes j <;> rfl

theorem parentOf_mp_same {g : NodeId → Node → Node} (hg : ∀ j n, (g j n).links = n.links) (l) {c p : NodeId} :
    ParentOf (w.mp g l) c p ↔ ParentOf w c p := by
  have hpar : ∀ j n, (g j n).parent = n.parent := fun j n => congrArg Prod.fst (hg j n)
  constructor
  · rintro ⟨m, hm, h⟩
    obtain ⟨n, hn, rfl⟩ := mp_some_iff.1 hm
    exact ⟨n, hn, by rw [← h, hpar]⟩
  · rintro ⟨n, hn, h⟩
    exact ⟨_, mp_some hn _ _, by rw [hpar, h]⟩

/-- Changes that leave type, links and owner alone keep the invariant. -/
theorem Core.mp_same (hW : Core w ch) {g : NodeId → Node → Node} (l)
    (ht : ∀ j n, (g j n).type = n.type) (hg : ∀ j n, (g j n).links = n.links)
    (ho : ∀ j n, (g j n).owner = n.owner) : Core (w.mp g l) ch := by
  have hL := hW.linked
  have hpar : ∀ j n, (g j n).parent = n.parent := fun j n => congrArg Prod.fst (hg j n)
  have hf : ∀ j n, (g j n).first = n.first := fun j n => congrArg (·.2.1) (hg j n)
  have hla : ∀ j n, (g j n).last = n.last := fun j n => congrArg (·.2.2.1) (hg j n)
  have hpr : ∀ j n, (g j n).prev = n.prev := fun j n => congrArg (·.2.2.2.1) (hg j n)
  have hne : ∀ j n, (g j n).next = n.next := fun j n => congrArg (·.2.2.2.2) (hg j n)
  refine ⟨⟨?_, ?_, ?_, ?_, ?_⟩, ?_, ?_, ?_, ?_, ?_, ?_⟩
  · intro p m hm
    obtain ⟨n, hn, rfl⟩ := mp_some_iff.1 hm
    exact (hL.loc p n hn).mp (fun m _ => by simp [hf, hla]) (fun c _ m _ => by simp [ht, hpar, hpr, hne])
  · intro p hp; exact hL.dead p (mp_none_iff.1 hp)
  · intro c m p hm h1 h2
    obtain ⟨n, hn, rfl⟩ := mp_some_iff.1 hm
    rw [ht] at h1; rw [hpar] at h2
    exact hL.up c n p hn h1 h2
  · intro c m p hm h1 h2
    obtain ⟨n, hn, rfl⟩ := mp_some_iff.1 hm
    rw [ht] at h1; rw [hpar] at h2
    obtain ⟨e, he, h⟩ := hL.attrUp c n p hn h1 h2
    exact ⟨_, mp_some he _ _, by rw [ht]; exact h⟩
  · intro c m hm h
    obtain ⟨n, hn, rfl⟩ := mp_some_iff.1 hm
    rw [ht, hpar] at h
    rw [hpr, hne]
    exact hL.orphan c n hn h
  · intro i m hm
    obtain ⟨n, hn, rfl⟩ := mp_some_iff.1 hm
    exact hW.bnd i n hn
  · exact Subrelation.wf (fun {p c} h => (parentOf_mp_same hg l).1 h) hW.wf
  · intro i m hm
    obtain ⟨n, hn, rfl⟩ := mp_some_iff.1 hm
    rw [ht, hpar, ho]
    rcases hW.owner i n hn with ⟨d, dn, h1, h2, h3⟩ | h
    · exact .inl ⟨d, _, h1, mp_some h2 _ _, by rw [ht]; exact h3⟩
    · exact .inr h
  · intro i m hm h
    obtain ⟨n, hn, rfl⟩ := mp_some_iff.1 hm
    rw [ht] at h; rw [ho]
    exact hW.ownDoc i n hn h
  · intro i m p pm hm hp hpm
    obtain ⟨n, hn, rfl⟩ := mp_some_iff.1 hm
    obtain ⟨pn, hpn, rfl⟩ := mp_some_iff.1 hpm
    rw [hpar] at hp
    rw [ho, ho]
    exact hW.ownSame i n p pn hn hp hpn
  · intro p pm c cm hpm hc hcm
    obtain ⟨pn, hpn, rfl⟩ := mp_some_iff.1 hpm
    obtain ⟨cn, hcn, rfl⟩ := mp_some_iff.1 hcm
    rw [ht, ht]
    exact hW.types p pn c cn hpn hc hcn

theorem WF.mp_same (hW : WF w ch) {g : NodeId → Node → Node} (l)
    (ht : ∀ j n, (g j n).type = n.type) (hg : ∀ j n, (g j n).links = n.links)
    (ho : ∀ j n, (g j n).owner = n.owner) (hp : ∀ j n, (g j n).pendingIn = n.pendingIn) : WF (w.mp g l) ch := by
  refine ⟨hW.toCore.mp_same l ht hg ho, fun i m hm => ?_⟩
  obtain ⟨n, hn, rfl⟩ := mp_some_iff.1 hm
  have hpar : ∀ j n, (g j n).parent = n.parent := fun j n => congrArg Prod.fst (hg j n)
  rw [hp, ht, hpar, ho]
  exact hW.pending i n hn

/-- The child lists without `x`. -/
def removeCh (ch : Children) (x : NodeId) : Children := fun q => (ch q).filter (· ≠ x)

theorem removeCh_of_not_mem {x q : NodeId} (h : x ∉ ch q) : removeCh ch x q = ch q := by
  unfold removeCh
  rw [List.filter_eq_self]
  intro y hy
  simp only [ne_eq, decide_not, Bool.not_eq_eq_eq_not, Bool.not_true, decide_eq_false_iff_not]
  rintro rfl; exact h hy

theorem removeCh_split {x q : NodeId} {a b : List NodeId} (hnd : (ch q).Nodup) (hab : ch q = a ++ x :: b) :
    removeCh ch x q = a ++ b := by
  rw [hab] at hnd
  have hxa : x ∉ a := fun h => (List.nodup_append.1 hnd).2.2 x h x (by simp) rfl
  have hxb : x ∉ b := (List.nodup_cons.1 (List.nodup_append.1 hnd).2.1).1
  unfold removeCh
  rw [hab, List.filter_append, List.filter_cons]
  simp only [ne_eq, not_true_eq_false, decide_false, Bool.false_eq_true, if_false]
  congr 1
  · rw [List.filter_eq_self]; intro y hy; simp; rintro rfl; exact hxa hy
  · rw [List.filter_eq_self]; intro y hy; simp; rintro rfl; exact hxb hy

theorem setCh_eq_removeCh (hL : Linked w ch) {x q : NodeId} {a b : List NodeId} (hab : ch q = a ++ x :: b) :
    setCh ch q (a ++ b) = removeCh ch x := by
  funext r
  have hxq : x ∈ ch q := by simp [hab]
  obtain ⟨xn, hxn, _, hpar⟩ := hL.alive_child hxq
  obtain ⟨qn, hqn⟩ := hL.alive_parent hxn hpar
  by_cases hr : r = q
  · subst hr
    rw [setCh_same, removeCh_split (hL.loc r qn hqn).nodup hab]
  · rw [setCh_ne _ _ hr, removeCh_of_not_mem]
    exact fun h => hr (hL.mem_unique h hxq)

theorem removeCh_eq (hL : Linked w ch) {x : NodeId} {n : Node} (hx : w.nodes x = some n) (hp : n.parent = none) :
    removeCh ch x = ch := by
  funext q
  refine removeCh_of_not_mem fun h => ?_
  obtain ⟨n', hn', _, hp'⟩ := hL.alive_child h
  rw [hx] at hn'; cases hn'
  rw [hp] at hp'; simp at hp'

/-- The events of taking `x` out of its parent, if it has one. -/
def removalEvents (w : World) (ch : Children) (x : NodeId) (par : Option NodeId) : List Ev :=
  match par with
  | none => []
  | some q => changeEvents ch w.fresh true x (some q) .removal ++
      [{ kind := .subtreeModified, target := q, related := some q }]

theorem takeOut_exc (hW : Core w ch) {x q : NodeId} {n : Node} (hx : w.nodes x = some n) (hp : n.parent = some q)
    (hro : ReadOnly w q) : takeOut x w = .exc w .noModificationAllowed := by
  unfold takeOut
  rw [get_bind hx, hp]
  obtain ⟨qn, hqn⟩ := hW.linked.alive_parent hx hp
  obtain ⟨b, hb, hb'⟩ := readonly_run hW hqn
  dsimp only
  rw [bind_ok hb, hb'.2 hro, throwIf_true]

theorem takeOut_ok (hW : WF w ch) {x : NodeId} {n : Node} (hx : w.nodes x = some n) (ht : n.type ≠ .attribute)
    (hro : ∀ q, n.parent = some q → ¬ ReadOnly w q) :
    ∃ g : NodeId → Node → Node,
      takeOut x w = .ok (w.mp g (removalEvents w ch x n.parent)) () ∧
      (∀ l, WF (w.mp g l) (removeCh ch x)) ∧
      (∀ j m, (g j m).data = m.data ∧ (g j m).refcnt = m.refcnt ∧ (g j m).owner = m.owner) ∧
      (∀ j m, j ≠ x → (g j m).parent = m.parent ∧ (g j m).pendingIn = m.pendingIn) ∧
      (g x n).parent = none ∧ (n.parent = none → g = fun _ m => m) := by
  unfold takeOut
  rw [get_bind hx]
  cases hp : n.parent with
  | none =>
    refine ⟨fun _ m => m, ?_, ?_, ?_, ?_, hp, fun _ => rfl⟩
    · simp [removalEvents, mp_id, pure_run]
    · intro l
      rw [removeCh_eq hW.linked hx hp]
      exact hW.mp_same l (fun _ _ => rfl) (fun _ _ => rfl) (fun _ _ => rfl) (fun _ _ => rfl)
    · intro j m; exact ⟨rfl, rfl, rfl⟩
    · intro j m _; exact ⟨rfl, rfl⟩
  | some q =>
    obtain ⟨qn, hqn⟩ := hW.linked.alive_parent hx hp
    obtain ⟨b, hb, hb'⟩ := readonly_run hW.toCore hqn
    have hxq := hW.linked.up x n q hx ht hp
    obtain ⟨u, v, huv⟩ := List.append_of_mem hxq
    have hbf : b = false := by
      cases b with
      | false => rfl
      | true => exact absurd (hb'.1 rfl) (hro q hp)
    refine ⟨detachedRec x q u v, ?_, ?_, ?_, ?_, ?_, by simp⟩
    · dsimp only
      rw [bind_ok hb, hbf, throwIf_false, detach_run hW huv]
      simp [removalEvents]
    · intro l
      rw [← setCh_eq_removeCh hW.linked huv]
      exact WF_detached hW huv l
    · intro j m; exact ⟨rfl, rfl, rfl⟩
    · intro j m hj; simp [detachedRec, hj]
    · simp [detachedRec]

theorem AncSelf.mono {w' : World} (h : ∀ c p, ParentOf w' c p → ParentOf w c p) {i j : NodeId}
    (hij : AncSelf w' i j) : AncSelf w i j := by
  induction hij with
  | refl => exact .refl
  | tail _ h1 ih => exact ih.tail (h _ _ h1)

theorem insertPoint_run (hW : Core w ch) {p : NodeId} {pn : Node} (hp : w.nodes p = some pn)
    {a b : List NodeId} {r : Option NodeId} (hab : ch p = a ++ b) (hr : b.head? = r) :
    insertPoint p r w = .ok w a.getLast? := by
  have hloc := hW.linked.loc p pn hp
  unfold insertPoint
  cases b with
  | nil =>
    simp only [List.head?_nil] at hr
    subst hr
    obtain ⟨n, hn, _, hl⟩ := hloc.ends
    rw [hp] at hn; cases hn
    dsimp only
    rw [get_bind hp, hl, hab]; simp [pure_run]
  | cons c b =>
    simp only [List.head?_cons] at hr
    subst hr
    obtain ⟨n, hn, _, _, h, _⟩ := hloc.kids a c b hab
    dsimp only
    rw [get_bind hn, h]; rfl

theorem notChildOf_run (hW : Core w ch) (p : NodeId) (r : Option NodeId)
    (hr : ∀ c, r = some c → ∃ n, w.nodes c = some n ∧ (n.type = .attribute → n.parent ≠ some p)) :
    ∃ b, notChildOf p r w = .ok w b ∧ (b = true ↔ ∃ c, r = some c ∧ c ∉ ch p) := by
  unfold notChildOf
  cases r with
  | none => exact ⟨false, rfl, by simp⟩
  | some c =>
    obtain ⟨n, hn, ht⟩ := hr c rfl
    dsimp only
    rw [get_bind hn]
    refine ⟨decide (n.parent ≠ some p), rfl, ?_⟩
    have : n.parent = some p ↔ c ∈ ch p := by
      constructor
      · exact fun h => hW.linked.up c n p hn (fun h' => ht h' h) h
      · intro h
        obtain ⟨n', hn', _, hp⟩ := hW.linked.alive_child h
        rw [hn] at hn'; cases hn'; exact hp
    simp [this]

theorem Permitted.congr {w' : World} {ch' : Children} {p c : NodeId}
    (ht : ∀ j, (w'.nodes j).map Node.type = (w.nodes j).map Node.type)
    (hch : ∀ x ∈ ch p, x ∈ ch' p) (h : Permitted w' ch' p c) : Permitted w ch p c := by
  have key : ∀ j n, w.nodes j = some n → ∃ n', w'.nodes j = some n' ∧ n'.type = n.type := by
    intro j n hn
    have := ht j
    rw [hn] at this
    cases hj : w'.nodes j with
    | none => rw [hj] at this; simp at this
    | some n' => rw [hj] at this; exact ⟨n', rfl, by simpa using this⟩
  have key' : ∀ j n, w'.nodes j = some n → ∃ n', w.nodes j = some n' ∧ n'.type = n.type := by
    intro j n hn
    have := ht j
    rw [hn] at this
    cases hj : w.nodes j with
    | none => rw [hj] at this; simp at this
    | some n' => rw [hj] at this; exact ⟨n', rfl, by simpa using this.symm⟩
  obtain ⟨pn, cn, hp, hc, hm, hu⟩ := h
  obtain ⟨pn', hp', htp⟩ := key' p pn hp
  obtain ⟨cn', hc', htc⟩ := key' c cn hc
  refine ⟨pn', cn', hp', hc', by rw [htp, htc]; exact hm, ?_⟩
  rw [htp, htc]
  intro h1 h2 x hx xn hxn
  obtain ⟨xn', hxn', htx⟩ := key x xn hxn
  rw [← htx]
  exact hu h1 h2 x (hch x hx) xn' hxn'

theorem mp_types {g : NodeId → Node → Node} (hg : ∀ j n, (g j n).type = n.type) (l) (j : NodeId) :
    ((w.mp g l).nodes j).map Node.type = (w.nodes j).map Node.type := by
  rw [mp_nodes]
  cases w.nodes j <;> simp [hg]

end Dom.Tree
