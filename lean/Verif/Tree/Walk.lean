import Verif.Tree.Lemmas
/-!
# Subtrees: height, document order, and the walk that fires the change events
-/
namespace Dom.Tree
set_option linter.unusedSimpArgs false

/-- The subtree of `x` has fewer than `k + 1` levels. -/
def Ht (ch : Children) : Nat → NodeId → Prop
  | 0, _ => False
  | k + 1, x => ∀ c ∈ ch x, Ht ch k c

theorem Ht.mono {ch : Children} : ∀ {k x}, Ht ch k x → ∀ {k'}, k ≤ k' → Ht ch k' x
  | 0, _, h, _, _ => h.elim
  | k + 1, x, h, 0, hk => by omega
  | k + 1, x, h, k' + 1, hk => fun c hc => (h c hc).mono (by omega)

theorem preorder_stable {ch : Children} : ∀ {k x}, Ht ch k x → ∀ {k'}, k ≤ k' →
    preorder ch k' x = preorder ch k x
  | 0, _, h, _, _ => h.elim
  | k + 1, x, h, 0, hk => by omega
  | k + 1, x, h, k' + 1, hk => by
      simp only [preorder, List.cons.injEq, true_and, List.flatMap_def]
      congr 1
      exact List.map_congr_left fun c hc => preorder_stable (h c hc) (by omega)

section
variable {w : World} {ch : Children}

theorem deep_chain (hL : Linked w ch) : ∀ (k : Nat) (x : NodeId) (l : List NodeId),
    Chain w (some x) l → ¬ Ht ch k x → ∃ d l', Chain w (some d) l' ∧ k + l.length ≤ l'.length := by
  intro k
  induction k with
  | zero => intro x l hl _; exact ⟨x, l, hl, by omega⟩
  | succ k ih =>
    intro x l hl hn
    simp only [Ht, not_forall] at hn
    obtain ⟨c, hc, hn⟩ := hn
    obtain ⟨n, hcn, _, hp⟩ := hL.alive_child hc
    obtain ⟨d, l', hl', hle⟩ := ih c (c :: l) (.cons hcn (by rw [hp]; exact hl)) hn
    exact ⟨d, l', hl', by simp at hle; omega⟩

theorem Core.ht (hW : Core w ch) {x : NodeId} {n : Node} (hx : w.nodes x = some n) : Ht ch w.fresh x := by
  by_contra hn
  obtain ⟨l, hl⟩ := exists_chain hW.linked hW.wf x n hx
  obtain ⟨d, l', hl', hle⟩ := deep_chain hW.linked _ x l hl hn
  have := hl'.length_le hW
  cases hl
  simp at hle; omega

theorem Below.anc (hL : Linked w ch) {x d : NodeId} (h : Below ch x d) : AncSelf w d x := by
  induction h with
  | refl => exact .refl
  | tail _ hc ih =>
    obtain ⟨n, hn, _, hp⟩ := hL.alive_child hc
    exact .head ⟨n, hn, hp⟩ ih

theorem Below.alive (hL : Linked w ch) {x d : NodeId} {n : Node} (hx : w.nodes x = some n)
    (h : Below ch x d) : ∃ m, w.nodes d = some m := by
  rcases Relation.ReflTransGen.cases_tail h with rfl | ⟨p, _, hc⟩
  · exact ⟨n, hx⟩
  · obtain ⟨m, hm, _⟩ := hL.alive_child hc; exact ⟨m, hm⟩

theorem ParentOf.unique {i p q : NodeId} (h : ParentOf w i p) (h' : ParentOf w i q) : p = q := by
  obtain ⟨n, hn, hp⟩ := h
  obtain ⟨m, hm, hq⟩ := h'
  rw [hn] at hm; cases hm; rw [hp] at hq; simpa using hq

theorem AncSelf.total {i a b : NodeId} (ha : AncSelf w i a) (hb : AncSelf w i b) :
    AncSelf w a b ∨ AncSelf w b a := by
  induction ha with
  | refl => exact .inl hb
  | @tail x y _ hxy ih =>
    rcases ih with h | h
    · rcases Relation.ReflTransGen.cases_head h with rfl | ⟨z, hz, hr⟩
      · exact .inr (.single hxy)
      · have := ParentOf.unique hxy hz
        subst this
        exact .inl hr
    · exact .inr (.tail h hxy)

theorem AncSelf.antisymm (hwf : WellFounded (fun p c => ParentOf w c p)) {a b : NodeId}
    (h : AncSelf w a b) (h' : AncSelf w b a) : a = b := by
  rcases Relation.ReflTransGen.cases_head h with rfl | ⟨z, hz, hr⟩
  · rfl
  · exact absurd (Relation.TransGen.head' hz (hr.trans h')) (transGen_irrefl hwf a)

theorem mem_preorder_below : ∀ {k : Nat} {x d : NodeId}, d ∈ preorder ch k x → Below ch x d
  | 0, _, _, h => by simp [preorder] at h
  | k + 1, x, d, h => by
      simp only [preorder, List.mem_cons, List.mem_flatMap] at h
      rcases h with rfl | ⟨c, hc, hd⟩
      · exact .refl
      · exact .head hc (mem_preorder_below hd)

theorem below_mem_preorder {x d : NodeId} (h : Below ch x d) : ∀ {k : Nat}, Ht ch k x → d ∈ preorder ch k x := by
  induction h using Relation.ReflTransGen.head_induction_on with
  | refl => intro k hk; cases k with
    | zero => exact hk.elim
    | succ k => simp [preorder]
  | head hc _ ih =>
    intro k hk
    cases k with
    | zero => exact hk.elim
    | succ k =>
      simp only [preorder, List.mem_cons, List.mem_flatMap]
      exact .inr ⟨_, hc, ih (hk _ hc)⟩

/-- Two children of one node have nothing in common below them. -/
theorem below_disjoint (hL : Linked w ch) (hwf : WellFounded (fun p c => ParentOf w c p)) {p c c' d : NodeId}
    (hc : c ∈ ch p) (hc' : c' ∈ ch p) (h : Below ch c d) (h' : Below ch c' d) : c = c' := by
  obtain ⟨n, hn, _, hp⟩ := hL.alive_child hc
  obtain ⟨n', hn', _, hp'⟩ := hL.alive_child hc'
  have aux : ∀ {c c' : NodeId} {n' : Node} {n : Node}, w.nodes c = some n → n.parent = some p →
      w.nodes c' = some n' → n'.parent = some p → AncSelf w c c' → c = c' := by
    intro c c' n' n hn hp hn' hp' h
    rcases Relation.ReflTransGen.cases_head h with rfl | ⟨z, hz, hr⟩
    · rfl
    · have := ParentOf.unique hz ⟨n, hn, hp⟩
      subst this
      exact absurd (Relation.TransGen.head' ⟨n', hn', hp'⟩ hr) (transGen_irrefl hwf _)
  rcases AncSelf.total (h.anc hL) (h'.anc hL) with r | r
  · exact aux hn hp hn' hp' r
  · exact (aux hn' hp' hn hp r).symm

theorem not_below_child (hL : Linked w ch) (hwf : WellFounded (fun p c => ParentOf w c p)) {p c : NodeId}
    (hc : c ∈ ch p) : ¬ Below ch c p := by
  intro h
  obtain ⟨n, hn, _, hp⟩ := hL.alive_child hc
  exact transGen_irrefl hwf p (Relation.TransGen.tail' (h.anc hL) ⟨n, hn, hp⟩)

theorem preorder_nodup (hL : Linked w ch) (hwf : WellFounded (fun p c => ParentOf w c p)) :
    ∀ (k : Nat) (x : NodeId), (preorder ch k x).Nodup
  | 0, x => by simp [preorder]
  | k + 1, x => by
      simp only [preorder, List.nodup_cons]
      constructor
      · intro h
        obtain ⟨c, hc, hx⟩ := List.mem_flatMap.1 h
        exact not_below_child hL hwf hc (mem_preorder_below hx)
      · have hnd : (ch x).Nodup := by
          cases hx : w.nodes x with
          | none => rw [hL.dead x hx]; simp
          | some n => exact (hL.loc x n hx).nodup
        rw [List.nodup_flatMap]
        refine ⟨fun c _ => preorder_nodup hL hwf k c, ?_⟩
        refine List.Pairwise.imp_of_mem ?_ (List.nodup_iff_pairwise_ne.1 hnd)
        intro a b ha hb hab d hd hd'
        exact hab (below_disjoint hL hwf ha hb (mem_preorder_below hd) (mem_preorder_below hd'))

theorem preorder_length_le (hW : Core w ch) (k : Nat) {x : NodeId} {n : Node} (hx : w.nodes x = some n) :
    (preorder ch k x).length ≤ w.fresh := by
  refine nodup_length_le (preorder_nodup hW.linked hW.wf k x) fun d hd => ?_
  obtain ⟨m, hm⟩ := (mem_preorder_below hd).alive hW.linked hx
  exact hW.bnd d m hm

end

/-- The world with events appended to the log. -/
def World.addLog (w : World) (l : List Ev) : World := { w with log := w.log ++ l }

@[simp] theorem addLog_nodes (w : World) (l) : (w.addLog l).nodes = w.nodes := rfl
@[simp] theorem addLog_fresh (w : World) (l) : (w.addLog l).fresh = w.fresh := rfl
@[simp] theorem addLog_log (w : World) (l) : (w.addLog l).log = w.log ++ l := rfl
@[simp] theorem addLog_nil (w : World) : w.addLog [] = w := by simp [World.addLog]
@[simp] theorem addLog_addLog (w : World) (l l') : (w.addLog l).addLog l' = w.addLog (l ++ l') := by
  simp [World.addLog]

theorem fire_run {w : World} {d : NodeId} {dn t : Node} {ev : Ev} (hd : w.nodes d = some dn)
    (ht : w.nodes ev.target = some t) :
    fire (some d) ev w = .ok (w.addLog (if t.owner.isSome then [ev] else [])) () := by
  unfold fire
  rw [deref_bind, get_bind hd, get_bind ht]
  by_cases h : t.owner.isSome
  · simp [h, World.addLog]
  · simp [h, pure_run]

theorem fire_bind {w : World} {d : NodeId} {dn t : Node} {ev : Ev} {β : Type} (hd : w.nodes d = some dn)
    (ht : w.nodes ev.target = some t) (f : Unit → M β) :
    (fire (some d) ev >>= f) w = f () (w.addLog (if t.owner.isSome then [ev] else [])) :=
  bind_ok (fire_run hd ht) f

/-- Events of one type at a list of targets. -/
def evsAt (kind : EvKind) (l : List NodeId) : List Ev := l.map fun t => { kind := kind, target := t }

section
variable {w : World} {ch : Children}

theorem head?_isSome_of_ne {l : List NodeId} (h : l ≠ []) : l.head?.isSome = true := by
  cases l with
  | nil => exact absurd rfl h
  | cons => rfl

/-- Walking the siblings `b` (a tail of the children of `p`) and everything below them. -/
theorem walk_forest {d : NodeId} {dn : Node} (hd : w.nodes d = some dn) (node : NodeId) (kind : EvKind) :
    ∀ (k : Nat) (b a : List NodeId) (p : NodeId), ch p = a ++ b → (hb : b ≠ []) → LocAt w ch p →
    (∀ c ∈ b, Ht ch k c) →
    (∀ c ∈ b, ∀ x, Below ch c x → x ≠ node ∧ LocAt w ch x ∧ ∃ n, w.nodes x = some n ∧ n.owner.isSome) →
    ∃ s, s + 1 ≤ 2 * (b.flatMap (preorder ch k)).length ∧ ∀ fuel lg,
      walkLoop (some d) node kind (s + fuel) (.down b.head?) (w.addLog lg) =
      walkLoop (some d) node kind fuel (.up (b.getLast hb) (some p))
        (w.addLog (lg ++ evsAt kind (b.flatMap (preorder ch k)))) := by
  intro k
  induction k with
  | zero =>
    intro b a p _ hb _ hh _
    cases b with
    | nil => exact absurd rfl hb
    | cons c b => exact (hh c (by simp)).elim
  | succ k ih =>
    intro b
    induction b with
    | nil => intro a p _ hb; exact absurd rfl hb
    | cons c b ihb =>
      intro a p hab _ hp hh hloc
      obtain ⟨cn, hcn, _, hcp, _, hcnext⟩ := hp.kids a c b hab
      obtain ⟨_, hcl, n', hn', hown⟩ := hloc c (by simp) c .refl
      rw [hcn] at hn'; cases hn'
      obtain ⟨n', hn', hfirst, hlast⟩ := hcl.ends
      rw [hcn] at hn'; cases hn'
      have hcnode : c ≠ node := (hloc c (by simp) c .refl).1
      -- the step at `c` itself together with its subtree, ending at `up c p` or moving on
      by_cases hk : ch c = []
      · -- leaf
        have hpre : preorder ch (k + 1) c = [c] := by simp [preorder, hk]
        by_cases hbn : b = []
        · subst hbn
          refine ⟨1, by simp [hpre], fun fuel lg => ?_⟩
          rw [Nat.add_comm 1 fuel, List.head?_cons, walkLoop, fire_bind (by simpa using hd) (by simpa using hcn),
            get_bind (by simpa using hcn)]
          simp [hfirst, hk, hcnext, hown, hcp, hpre, evsAt]
        · obtain ⟨s, hs, hrun⟩ := ihb (a ++ [c]) p (by simp [hab]) hbn hp
            (fun x hx => hh x (by simp [hx])) (fun x hx => hloc x (by simp [hx]))
          refine ⟨s + 1, by simp only [List.flatMap_cons, List.length_append, hpre, List.length_cons,
              List.length_nil]; omega, fun fuel lg => ?_⟩
          rw [show s + 1 + fuel = (s + fuel) + 1 by omega, List.head?_cons, walkLoop,
            fire_bind (by simpa using hd) (by simpa using hcn), get_bind (by simpa using hcn)]
          simp only [hfirst, hk, List.head?_nil, Option.isSome_none, Bool.false_eq_true, if_false, hcnext,
            head?_isSome_of_ne hbn, if_true, hown, addLog_addLog]
          rw [hrun]
          simp [hpre, evsAt, List.getLast_cons hbn]
      · -- inner node
        have hpre : preorder ch (k + 1) c = c :: (ch c).flatMap (preorder ch k) := rfl
        obtain ⟨s1, hs1, hrun1⟩ := ih (ch c) [] c (by simp) hk hcl (hh c (by simp))
          (fun x hx y hy => hloc c (by simp) y (.head hx hy))
        have hstep : ∀ fuel lg,
            walkLoop (some d) node kind (s1 + 2 + fuel) (.down (some c)) (w.addLog lg) =
            walkLoop (some d) node kind fuel (.up c (some p))
              (w.addLog (lg ++ evsAt kind (preorder ch (k + 1) c))) := by
          intro fuel lg
          rw [show s1 + 2 + fuel = (s1 + (fuel + 1)) + 1 by omega, walkLoop,
            fire_bind (by simpa using hd) (by simpa using hcn), get_bind (by simpa using hcn)]
          simp only [hfirst, head?_isSome_of_ne hk, if_true, hown, addLog_addLog]
          rw [hrun1, walkLoop]
          have hne : (some c : Option NodeId) ≠ some node := by simpa using hcnode
          simp only [hne, if_false]
          rw [deref_bind, get_bind (by simpa using hcn)]
          simp [hlast, List.getLast?_eq_getLast_of_ne_nil hk, hcp, hpre, evsAt]
        by_cases hbn : b = []
        · subst hbn
          refine ⟨s1 + 2, ?_, fun fuel lg => ?_⟩
          · simp only [List.flatMap_cons, List.flatMap_nil, List.append_nil, hpre, List.length_cons]
            omega
          · rw [List.head?_cons, hstep]; simp
        · obtain ⟨s, hs, hrun⟩ := ihb (a ++ [c]) p (by simp [hab]) hbn hp
            (fun x hx => hh x (by simp [hx])) (fun x hx => hloc x (by simp [hx]))
          refine ⟨s1 + 2 + (1 + s), ?_, fun fuel lg => ?_⟩
          · simp only [List.flatMap_cons, List.length_append, hpre, List.length_cons]
            omega
          · rw [List.head?_cons, show s1 + 2 + (1 + s) + fuel = s1 + 2 + ((s + fuel) + 1) by omega, hstep,
              walkLoop]
            have hmove : ∀ lg', (getNode c >>= fun tn => walkLoop (some d) node kind (s + fuel) (.down tn.next))
                (w.addLog lg') = walkLoop (some d) node kind (s + fuel) (.down b.head?) (w.addLog lg') := by
              intro lg'
              rw [get_bind (by simpa using hcn), hcnext]
            by_cases hpn : p = node
            · simp only [hpn, if_true]
              rw [hmove, hrun]
              simp [evsAt, List.getLast_cons hbn, hpn]
            · have hne : (some p : Option NodeId) ≠ some node := by simpa using hpn
              simp only [hne, if_false]
              obtain ⟨pn, hpn', _, hplast⟩ := hp.ends
              rw [deref_bind, get_bind (by simpa using hpn')]
              have hlne : pn.last ≠ some c := by
                rw [hplast, hab]
                intro h
                have h1 : (a ++ c :: b).getLast? = b.getLast? := by
                  rw [List.getLast?_append_of_ne_nil _ (by simp), List.getLast?_cons]
                  cases hb' : b.getLast? with
                  | none => rw [List.getLast?_eq_none_iff] at hb'; exact absurd hb' hbn
                  | some => simp
                rw [h1] at h
                have hmem : c ∈ b := List.mem_of_getLast? h
                have hnd := hp.nodup
                rw [hab] at hnd
                have := (List.nodup_append.1 hnd).2.1
                exact (List.nodup_cons.1 this).1 hmem
              simp only [hlne, if_false]
              rw [hmove, hrun]
              simp [evsAt, List.getLast_cons hbn]

/-- The events fired for a change at `n`: one at the node itself, then one at each descendant in document
order. -/
def changeEvents (ch : Children) (k : Nat) (hasOwner : Bool) (n : NodeId) (related : Option NodeId)
    (c : Change) : List Ev :=
  (if hasOwner then [{ kind := c.atNode, target := n, related := related }] else []) ++
  evsAt c.below ((preorder ch k n).drop 1)

theorem dispatchNodeChange_run {d : NodeId} {dn n : Node} (hd : w.nodes d = some dn) {x : NodeId}
    (hx : w.nodes x = some n) (related : Option NodeId) (c : Change) {k : Nat} (hk : Ht ch k x)
    (hloc : ∀ y, Below ch x y → LocAt w ch y)
    (hdesc : ∀ y, Below ch x y → y ≠ x → ∃ m, w.nodes y = some m ∧ m.owner.isSome)
    (hne : ∀ c ∈ ch x, ¬ Below ch c x)
    (hlen : (preorder ch k x).length ≤ w.fresh) :
    dispatchNodeChange (some d) x related c w =
      .ok (w.addLog (changeEvents ch k n.owner.isSome x related c)) () := by
  unfold dispatchNodeChange
  rw [fire_bind hd (by simpa using hx), get_bind (by simpa using hx), bound_bind]
  obtain ⟨n', hn', hfirst, hlast⟩ := (hloc x .refl).ends
  rw [hx] at hn'; cases hn'
  rw [hfirst]
  cases k with
  | zero => exact hk.elim
  | succ k =>
    by_cases hc : ch x = []
    · simp only [hc, List.head?_nil]
      have : ∀ fuel, walkLoop (some d) x c.below fuel (.down none)
          (w.addLog (if n.owner.isSome then [{ kind := c.atNode, target := x, related := related }] else []))
          = .ok (w.addLog (if n.owner.isSome then [{ kind := c.atNode, target := x, related := related }]
              else [])) () := by
        intro fuel; cases fuel <;> rfl
      rw [this]
      simp [changeEvents, preorder, hc, evsAt]
    · obtain ⟨s, hs, hrun⟩ := walk_forest hd x c.below k (ch x) [] x (by simp) hc (hloc x .refl)
        hk (fun a ha y hy => by
          have hyx : y ≠ x := by rintro rfl; exact hne a ha hy
          exact ⟨hyx, hloc y (.head ha hy), hdesc y (.head ha hy) hyx⟩)
      have hlen' : (preorder ch (k + 1) x).length = (List.flatMap (preorder ch k) (ch x)).length + 1 := by
        simp [preorder]
      rw [hlen'] at hlen
      rw [addLog_fresh,
        show 2 * (w.fresh + 1) = s + ((2 * (w.fresh + 1) - s - 1) + 1) by omega, hrun, walkLoop]
      obtain ⟨ln, hln, _, hlp, _, hlnext⟩ := (hloc x .refl).kids ((ch x).dropLast) ((ch x).getLast hc) []
        (by rw [List.dropLast_concat_getLast])
      simp only [if_true]
      rw [get_bind (by simpa using hln), hlnext]
      have : ∀ fuel w', walkLoop (some d) x c.below fuel (.down none) w' = .ok w' () := by
        intro fuel w'; cases fuel <;> rfl
      rw [List.head?_nil, this]
      simp [changeEvents, preorder, evsAt]

end
end Dom.Tree
