import Verif.Trav.Lemmas
import Verif.Tree.Violations

/-!
# C34: the tree walker
-/
namespace Dom.Trav
set_option linter.unusedSimpArgs false

open Dom.Tree (NodeId Node World NodeType Children Core WF Linked DocOrder Below Ht)

variable {σ : Type} {w : World} {ch : Children} {root : NodeId} {mask : Stage → Bool} {cb : Callback σ}

/-! ## Specification: the recursive walk -/

/-- The callback, if the stage is enabled; the last command given stays in force otherwise. -/
def told (mask : Stage → Bool) (cb : Callback σ) (st : Stage) (x : NodeId) (r : Cmd × σ) : Cmd × σ :=
  if mask st then cb st x r.2 else r

/-- One after the other, until told to stop. -/
def inTurn (f : NodeId → Cmd × σ → Cmd × σ) : List NodeId → Cmd × σ → Cmd × σ
  | [], r => r
  | x :: xs, r => if r.1 = .abort then r else inTurn f xs (f x r)

/-- Enter the node, walk its children unless told to skip them, leave the node; stop when told to. -/
def visit (mask : Stage → Bool) (cb : Callback σ) (ch : Children) : Nat → NodeId → Cmd × σ → Cmd × σ
  | 0, _, r => r
  | k + 1, x, r =>
    let r1 := told mask cb .enter x r
    let r2 := if r1.1 = .skip then r1 else inTurn (visit mask cb ch k) (ch x) r1
    if r2.1 = .abort then r2 else told mask cb .leave x r2

/-! ## The code does the same -/

/-- What the code does after a subtree has been left without abort: the rest of the walk from `x` (about to be left). -/
def afterUp (mask : Stage → Bool) (cb : Callback σ) (w : World) (root : NodeId) (f : Nat) (u : Out (Up × (Cmd × σ))) : Out σ := do
  let (u, r) ← u
  match u with
  | .stopped => .ok r.2
  | .atRoot => .ok r.2
  | .next x =>
    if x = root then .fault .assertFail
    else walkMain mask cb w root f x (callCb mask cb .enter x r)

theorem walkMain_succ (f : Nat) (node : NodeId) (r : Cmd × σ) :
    walkMain mask cb w root (f + 1) node r =
      if r.1 = .abort then .ok r.2 else afterUp mask cb w root f (nextNode mask cb w root node r) := rfl

theorem told_eq : callCb mask cb = told mask cb := rfl

/-- Number of nodes entered at most: the size of the subtree. -/
def size (ch : Children) : Nat → NodeId → Nat
  | 0, _ => 0
  | k + 1, x => 1 + ((ch x).map (size ch k)).sum

theorem size_eq (ch : Children) : ∀ k x, size ch k x = (Tree.preorder ch k x).length
  | 0, _ => rfl
  | k + 1, x => by
      simp only [size, Tree.preorder, List.length_cons, List.length_flatMap]
      rw [Nat.add_comm]
      congr 2
      exact List.map_congr_left fun c _ => size_eq ch k c

/-- Leaving the last child of `p`, the walk goes on to leave `p`; leaving another child, it enters the next one. -/
theorem upLoop_step {p c : NodeId} {b : List NodeId} {n : Node} (hc : w.nodes c = some n) (hcr : c ≠ root)
    (hpar : n.parent = some p) (hnext : n.next = b.head?) (g : Nat) (r : Cmd × σ) :
    upLoop mask cb w root (g + 1) (some c) r =
      let r' := told mask cb .leave c r
      if r'.1 = .abort then .ok (.stopped, r')
      else match b with
        | [] => upLoop mask cb w root g (some p) r'
        | y :: _ => .ok (.next y, r') := by
  conv_lhs => unfold upLoop
  rw [if_neg (by simpa using hcr)]
  simp only [told_eq, rd_ok hc, Out.bind_ok, hnext, hpar]
  split
  · rfl
  · cases b <;> rfl

/-- Climbing needs no more rounds than the depth. -/
theorem upLoop_fuel (hW : Core w ch) {order} : ∀ (g g' d : Nat) (x : NodeId) (l : List NodeId) (r : Cmd × σ), Rest ch order root d x l →
    d < g → d < g' → upLoop mask cb w root g (some x) r = upLoop mask cb w root g' (some x) r := by
  intro g
  induction g with
  | zero => intro g' d x l r _ h; omega
  | succ g ih =>
    intro g' d x l r h hg hg'
    cases g' with
    | zero => omega
    | succ g' =>
      by_cases hx : x = root
      · subst hx; simp [upLoop]
      · obtain ⟨d', p, a, b, l', n, pn, rfl, hp, hc, rfl, hn, h1, h2, hpn, h3⟩ := h.inv hW hx
        rw [upLoop_step hn hx h1 h2, upLoop_step hn hx h1 h2]
        simp only
        split
        · rfl
        · cases b with
          | nil => exact ih g' d' p l' _ hp (by omega) (by omega)
          | cons y b => rfl

/-- Leaving a child. -/
theorem up_child (hW : Core w ch) {rn : Node} (hr : w.nodes root = some rn) {order} {d p l a c b} (hp : Rest ch order root d p l)
    (hc : ch p = a ++ c :: b) (r : Cmd × σ) :
    upLoop mask cb w root (w.fresh + 1) (some c) r =
      if (told mask cb .leave c r).1 = .abort then .ok (.stopped, told mask cb .leave c r)
      else match b with
        | [] => upLoop mask cb w root (w.fresh + 1) (some p) (told mask cb .leave c r)
        | y :: _ => .ok (.next y, told mask cb .leave c r) := by
  have hcr : c ≠ root := by
    rintro rfl
    exact Tree.not_below_child hW.linked hW.wf (p := p) (c := c) (by rw [hc]; simp) hp.inTree
  obtain ⟨pn, hpn⟩ := hp.inTree.alive hW.linked hr
  obtain ⟨n, hn, _, h1, _, h2⟩ := (hW.linked.loc p pn hpn).kids a c b hc
  rw [upLoop_step hn hcr h1 h2]
  simp only
  split
  · rfl
  · cases b with
    | cons => rfl
    | nil => have := hp.depth_lt hW hr; exact upLoop_fuel hW _ _ d p l _ hp (by omega) (by omega)

/-- The children part of a visit. -/
def kids (mask : Stage → Bool) (cb : Callback σ) (ch : Children) (k : Nat) (x : NodeId) (r : Cmd × σ) : Cmd × σ :=
  if r.1 = .skip then r else inTurn (visit mask cb ch k) (ch x) r

/-- The code after the children of `x`. -/
def finish (mask : Stage → Bool) (cb : Callback σ) (w : World) (root : NodeId) (f : Nat) (x : NodeId) (r : Cmd × σ) : Out σ :=
  if r.1 = .abort then .ok r.2 else afterUp mask cb w root f (upLoop mask cb w root (w.fresh + 1) (some x) r)

theorem inTurn_abort (f : NodeId → Cmd × σ → Cmd × σ) (l : List NodeId) {r : Cmd × σ} (h : r.1 = .abort) : inTurn f l r = r := by
  cases l <;> simp [inTurn, h]

theorem walk_node (hW : Core w ch) {rn : Node} (hr : w.nodes root = some rn) {order} : ∀ (k : Nat) (d : Nat) (x : NodeId) (l : List NodeId),
    Rest ch order root d x l → Ht ch (k + 1) x → ∀ r : Cmd × σ, ∃ s, s ≤ size ch (k + 1) x ∧ ∀ f,
      walkMain mask cb w root (s + f) x r = finish mask cb w root f x (kids mask cb ch k x r) := by
  intro k
  induction k with
  | zero =>
    intro d x l hx hh r
    have hnil : ch x = [] := by
      cases hc : ch x with
      | nil => rfl
      | cons c b => exact (hh c (by rw [hc]; simp)).elim
    obtain ⟨n, hn⟩ := hx.inTree.alive hW.linked hr
    refine ⟨1, by simp [size], fun f => ?_⟩
    rw [Nat.add_comm, walkMain_succ]
    have hk : kids mask cb ch 0 x r = r := by simp [kids, hnil, inTurn]
    rw [hk]
    unfold finish nextNode
    rw [rd_ok hn, Out.bind_ok, first_eq hW hn, hnil]
    simp
  | succ k ih =>
    intro d x l hx hh r
    obtain ⟨n, hn⟩ := hx.inTree.alive hW.linked hr
    by_cases hab : r.1 = .abort
    · refine ⟨1, by simp [size], fun f => ?_⟩
      rw [Nat.add_comm, walkMain_succ, if_pos hab]
      have hk : kids mask cb ch (k + 1) x r = r := by
        simp [kids, hab, inTurn_abort]
      rw [hk, finish, if_pos hab]
    by_cases hsk : r.1 = .skip ∨ ch x = []
    · refine ⟨1, by simp [size], fun f => ?_⟩
      rw [Nat.add_comm, walkMain_succ, if_neg hab]
      have hk : kids mask cb ch (k + 1) x r = r := by
        rcases hsk with h | h
        · simp [kids, h]
        · simp [kids, h, inTurn]
      rw [hk, finish, if_neg hab]
      unfold nextNode
      rw [rd_ok hn, Out.bind_ok, first_eq hW hn]
      rcases hsk with h | h
      · simp [h]
      · simp [h]
    · have hs1 : r.1 ≠ .skip := fun h => hsk (.inl h)
      have hs2 : ch x ≠ [] := fun h => hsk (.inr h)
      -- the forest of children
      have forest : ∀ (b a : List NodeId) (c : NodeId), ch x = a ++ c :: b → ∀ r : Cmd × σ, r.1 ≠ .abort →
          ∃ s, s ≤ ((c :: b).map (size ch (k + 1))).sum ∧ ∀ f, walkMain mask cb w root (s + f) c (told mask cb .enter c r) =
            finish mask cb w root f x (inTurn (visit mask cb ch (k + 1)) (c :: b) r) := by
        intro b
        induction b with
        | nil =>
          intro a c hc r hr'
          obtain ⟨s, hs, hrun⟩ := ih (d + 1) c _ (.child hx hc) (hh c (by rw [hc]; simp)) (told mask cb .enter c r)
          refine ⟨s, by simpa using hs, fun f => ?_⟩
          rw [hrun]
          simp only [inTurn, if_neg hr']
          unfold finish
          by_cases h1 : (kids mask cb ch k c (told mask cb .enter c r)).1 = .abort
          · have hv : visit mask cb ch (k + 1) c r = kids mask cb ch k c (told mask cb .enter c r) := by
              simp only [kids] at h1
              simp only [visit, kids, if_pos h1]
            rw [hv, if_pos h1, if_pos h1]
          · have hv : visit mask cb ch (k + 1) c r = told mask cb .leave c (kids mask cb ch k c (told mask cb .enter c r)) := by
              simp only [kids] at h1
              simp only [visit, kids, if_neg h1]
            rw [hv, if_neg h1, up_child hW hr hx hc]
            split
            · simp [afterUp]
            · rfl
        | cons y b ihb =>
          intro a c hc r hr'
          obtain ⟨s, hs, hrun⟩ := ih (d + 1) c _ (.child hx hc) (hh c (by rw [hc]; simp)) (told mask cb .enter c r)
          have hyr : y ≠ root := by
            rintro rfl
            exact Tree.not_below_child hW.linked hW.wf (p := x) (c := y) (by rw [hc]; simp) hx.inTree
          by_cases h1 : (kids mask cb ch k c (told mask cb .enter c r)).1 = .abort
          · have hv : visit mask cb ch (k + 1) c r = kids mask cb ch k c (told mask cb .enter c r) := by
              simp only [kids] at h1
              simp only [visit, kids, if_pos h1]
            refine ⟨s, ?_, fun f => ?_⟩
            · simp only [List.map_cons, List.sum_cons]; omega
            · rw [hrun]
              simp only [inTurn, if_neg hr']
              rw [hv, if_pos h1]
              unfold finish
              rw [if_pos h1, if_pos h1]
          · have hv : visit mask cb ch (k + 1) c r = told mask cb .leave c (kids mask cb ch k c (told mask cb .enter c r)) := by
              simp only [kids] at h1
              simp only [visit, kids, if_neg h1]
            by_cases h2 : (told mask cb .leave c (kids mask cb ch k c (told mask cb .enter c r))).1 = .abort
            · refine ⟨s, ?_, fun f => ?_⟩
              · simp only [List.map_cons, List.sum_cons]; omega
              · rw [hrun]
                simp only [inTurn, if_neg hr']
                rw [hv, if_pos h2]
                unfold finish
                rw [if_neg h1, if_pos h2, up_child hW hr hx hc, if_pos h2]
                simp [afterUp]
            · obtain ⟨s2, hs2, hrun2⟩ := ihb (a ++ [c]) y (by simp [hc]) _ h2
              refine ⟨s + s2, ?_, fun f => ?_⟩
              · simp only [List.map_cons, List.sum_cons] at hs2 ⊢; omega
              · rw [Nat.add_assoc, hrun]
                conv_rhs => rw [inTurn, if_neg hr', hv]
                rw [← hrun2]
                unfold finish
                rw [if_neg h1, up_child hW hr hx hc, if_neg h2]
                simp only [afterUp, Out.bind_ok, if_neg hyr, told_eq]
      cases hc : ch x with
      | nil => exact absurd hc hs2
      | cons c b =>
        have hcr : c ≠ root := by
          rintro rfl
          exact Tree.not_below_child hW.linked hW.wf (p := x) (c := c) (by rw [hc]; simp) hx.inTree
        obtain ⟨s, hs, hrun⟩ := forest b [] c (by simp [hc]) r hab
        refine ⟨s + 1, ?_, fun f => ?_⟩
        · simp only [size, hc]; simp only [size] at hs; omega
        · rw [show s + 1 + f = (s + f) + 1 by omega, walkMain_succ, if_neg hab]
          have hk : kids mask cb ch (k + 1) x r = inTurn (visit mask cb ch (k + 1)) (c :: b) r := by
            simp [kids, hs1, hc]
          rw [hk, ← hrun]
          unfold nextNode
          rw [rd_ok hn, Out.bind_ok, first_eq hW hn, hc]
          simp only [hs1, ne_eq, not_false_eq_true, if_true, List.head?_cons, afterUp, Out.bind_ok, if_neg hcr, told_eq]

/-- C34.  The iterative walk over the pointers does what the recursive walk over the tree does, for every callback; it
ends and no assertion fails. -/
theorem C34_walk (hW : WF w ch) {rn : Node} (hr : w.nodes root = some rn) (mask : Stage → Bool) (cb : Callback σ) (s : σ) :
    treewalk mask cb w root s = .ok (inTurn (visit mask cb ch w.fresh) (ch root) (.continue_, s)).2 := by
  have hht : Ht ch (w.fresh + 1) root := (hW.ht hr).mono (Nat.le_succ _)
  obtain ⟨n, hn, hrun⟩ := walk_node hW.toCore hr (mask := mask) (cb := cb) (order := fun _ => []) w.fresh 0 root [] .root hht (.continue_, s)
  rw [size_eq] at hn
  have := Tree.preorder_length_le hW.toCore (w.fresh + 1) hr
  unfold treewalk
  rw [show w.fresh + 1 = n + (w.fresh + 1 - n) by omega, hrun]
  have hk : kids mask cb ch w.fresh root (.continue_, s) = inTurn (visit mask cb ch w.fresh) (ch root) (.continue_, s) := by
    simp [kids]
  rw [hk, finish]
  split
  · rfl
  · simp [upLoop, afterUp]

/-! ## What the calls look like -/

/-- The tour of a subtree: enter a node, tour its children, leave it. -/
def TourOf (ch : Children) (tour : NodeId → List (Stage × NodeId)) : Prop :=
  ∀ x, tour x = (.enter, x) :: ((ch x).flatMap tour ++ [(.leave, x)])

/-- Every well-formed forest has a tour (so the hypothesis `TourOf` below can always be met). -/
theorem tour_exists (hW : Core w ch) : ∃ tour, TourOf ch tour := by
  let tr : Nat → NodeId → List (Stage × NodeId) := fun k =>
    Nat.rec (fun _ => []) (fun _ rec x => (.enter, x) :: ((ch x).flatMap rec ++ [(.leave, x)])) k
  have hs : ∀ k x, Ht ch k x → tr (k + 1) x = tr k x := by
    intro k
    induction k with
    | zero => intro x h; exact h.elim
    | succ k ih =>
      intro x h
      show (Stage.enter, x) :: ((ch x).flatMap (tr (k + 1)) ++ [(Stage.leave, x)]) =
        (Stage.enter, x) :: ((ch x).flatMap (tr k) ++ [(Stage.leave, x)])
      rw [List.flatMap_congr fun c hc => ih c (h c hc)]
  refine ⟨tr (w.fresh + 1), fun x => ?_⟩
  conv_lhs => rw [← hs _ x (Tree.ht_any hW x)]

/-- One call of the callback, with what it answered. -/
structure Rec where
  stage : Stage
  node : NodeId
  answer : Cmd
  deriving DecidableEq, Repr

/-- The callback that also writes down its calls. -/
def recorded (cb : Callback σ) : Callback (σ × List Rec) := fun st x s =>
  let a := cb st x s.1
  (a.1, (a.2, s.2 ++ [⟨st, x, a.1⟩]))

/-- Both stages enabled. -/
def allStages : Stage → Bool := fun _ => true

/-- The calls `l` made in one visit, ending with the command `c`. -/
structure Good (ch : Children) (tour : List (Stage × NodeId)) (below : NodeId → Prop) (c : Cmd) (l : List Rec) : Prop where
  /-- in the order of the tour, each at most once -/
  sub : (l.map fun r => (r.stage, r.node)).Sublist tour
  /-- only the last call can have answered ABORT -/
  last : c = .abort → ∃ l' r, l = l' ++ [r] ∧ r.answer = .abort ∧ ∀ q ∈ l', q.answer ≠ .abort
  none : c ≠ .abort → ∀ q ∈ l, q.answer ≠ .abort
  /-- nothing below a skipped node -/
  skip : ∀ x, ⟨.enter, x, .skip⟩ ∈ l → ∀ d, Below ch x d → d ≠ x → ∀ r ∈ l, r.node ≠ d
  /-- without abort: everything but what is below skipped nodes -/
  full : c ≠ .abort → ∀ d, below d → (∀ x, below x → Below ch x d → x ≠ d → ⟨.enter, x, .skip⟩ ∉ l) → ∀ st, ∃ r ∈ l, r.stage = st ∧ r.node = d
  /-- nothing else -/
  only : ∀ r ∈ l, below r.node

theorem inTurn_good (hL : Linked w ch) (hwf : WellFounded (fun p c => Tree.ParentOf w c p)) (tour : NodeId → List (Stage × NodeId))
    (f : NodeId → Cmd × (σ × List Rec) → Cmd × (σ × List Rec)) (p : NodeId) :
    ∀ (b a : List NodeId), ch p = a ++ b → (∀ c ∈ b, ∀ r, ∃ l, (f c r).2.2 = r.2.2 ++ l ∧ Good ch (tour c) (Below ch c) (f c r).1 l) →
    ∀ r, r.1 ≠ .abort → ∃ l, (inTurn f b r).2.2 = r.2.2 ++ l ∧
      Good ch (b.flatMap tour) (fun d => ∃ c ∈ b, Below ch c d) (inTurn f b r).1 l := by
  intro b
  induction b with
  | nil =>
    intro a _ _ r hr
    refine ⟨[], by simp [inTurn], by simp, fun h => absurd h (by simpa [inTurn] using hr), fun _ q hq => by simp at hq, fun x hx => by simp at hx,
      fun _ d hd => ?_, fun r hr => by simp at hr⟩
    obtain ⟨c, hc, _⟩ := hd
    simp at hc
  | cons c b ih =>
    intro a hab hf r hr
    obtain ⟨l1, h1, g1⟩ := hf c (by simp) r
    simp only [inTurn, if_neg hr]
    by_cases hc1 : (f c r).1 = .abort
    · rw [inTurn_abort f b hc1]
      refine ⟨l1, h1, ?_, g1.last, g1.none, g1.skip, fun h => absurd hc1 h, fun q hq => ⟨c, by simp, g1.only q hq⟩⟩
      simpa using g1.sub.append (List.nil_sublist (b.flatMap tour))
    · obtain ⟨l2, h2, g2⟩ := ih (a ++ [c]) (by simp [hab]) (fun x hx => hf x (by simp [hx])) (f c r) hc1
      refine ⟨l1 ++ l2, by rw [h2, h1]; simp, ?_⟩
      have hnd : (ch p).Nodup := by
        cases hp : w.nodes p with
        | none => rw [hL.dead p hp]; simp
        | some n => exact (hL.loc p n hp).nodup
      have hcb : c ∉ b := by
        rw [hab] at hnd
        exact (List.nodup_cons.1 (List.nodup_append.1 hnd).2.1).1
      have hmem : ∀ x, x ∈ c :: b → x ∈ ch p := fun x hx => by rw [hab]; simp at hx ⊢; tauto
      have hdis : ∀ d x, Below ch c d → x ∈ b → ¬ Below ch x d := by
        intro d x hd hx hxd
        have := Tree.below_disjoint hL hwf (hmem c (by simp)) (hmem x (by simp [hx])) hd hxd
        exact hcb (this ▸ hx)
      refine ⟨?_, ?_, ?_, ?_, ?_, ?_⟩
      · rw [List.map_append, List.flatMap_cons]; exact g1.sub.append g2.sub
      · intro hab
        obtain ⟨l', q, rfl, hq, hl'⟩ := g2.last hab
        refine ⟨l1 ++ l', q, by simp, hq, ?_⟩
        intro z hz
        rcases List.mem_append.1 hz with hz | hz
        · exact g1.none hc1 z hz
        · exact hl' z hz
      · intro hna z hz
        rcases List.mem_append.1 hz with hz | hz
        · exact g1.none hc1 z hz
        · exact g2.none hna z hz
      · intro x hx d hd hdx z hz hzd
        rcases List.mem_append.1 hx with hx | hx
        · have hbx := g1.only _ hx
          rcases List.mem_append.1 hz with hz | hz
          · exact g1.skip x hx d hd hdx z hz hzd
          · obtain ⟨y, hy, hyz⟩ := g2.only _ hz
            rw [hzd] at hyz
            exact hdis d y (Relation.ReflTransGen.trans hbx hd) hy hyz
        · obtain ⟨y, hy, hyx⟩ := g2.only _ hx
          rcases List.mem_append.1 hz with hz | hz
          · have := g1.only _ hz
            rw [hzd] at this
            exact hdis d y this hy (Relation.ReflTransGen.trans hyx hd)
          · exact g2.skip x hx d hd hdx z hz hzd
      · intro hna d hd hsk st
        obtain ⟨y, hy, hyd⟩ := hd
        rcases List.mem_cons.1 hy with rfl | hy
        · obtain ⟨z, hz, h⟩ := g1.full hc1 d hyd (fun x hx hxd hne hm => hsk x ⟨y, by simp, hx⟩ hxd hne (by simp [hm])) st
          exact ⟨z, by simp [hz], h⟩
        · obtain ⟨z, hz, h⟩ := g2.full hna d ⟨y, hy, hyd⟩ (fun x ⟨u, hu, hux⟩ hxd hne hm => hsk x ⟨u, by simp [hu], hux⟩ hxd hne (by simp [hm])) st
          exact ⟨z, by simp [hz], h⟩
      · intro z hz
        rcases List.mem_append.1 hz with hz | hz
        · exact ⟨c, by simp, g1.only z hz⟩
        · obtain ⟨y, hy, h⟩ := g2.only z hz
          exact ⟨y, by simp [hy], h⟩

theorem visit_good (hL : Linked w ch) (hwf : WellFounded (fun p c => Tree.ParentOf w c p)) {tour : NodeId → List (Stage × NodeId)}
    (ht : TourOf ch tour) (cb : Callback σ) : ∀ (k : Nat) (x : NodeId), Ht ch k x → ∀ r : Cmd × (σ × List Rec),
    ∃ l, (visit allStages (recorded cb) ch k x r).2.2 = r.2.2 ++ l ∧
      Good ch (tour x) (Below ch x) (visit allStages (recorded cb) ch k x r).1 l := by
  intro k
  induction k with
  | zero => intro x h; exact h.elim
  | succ k ih =>
    intro x hx r
    have kidNotX : ∀ c ∈ ch x, ¬ Below ch c x := fun c hc => Tree.not_below_child hL hwf hc
    have belowCases : ∀ d, Below ch x d → d ≠ x → ∃ c ∈ ch x, Below ch c d := by
      intro d hd hne
      rcases Relation.ReflTransGen.cases_head hd with rfl | ⟨c, hc, h⟩
      · exact absurd rfl hne
      · exact ⟨c, hc, h⟩
    obtain ⟨e, he⟩ : ∃ e, cb .enter x r.2.1 = e := ⟨_, rfl⟩
    have hr1 : told allStages (recorded cb) .enter x r = (e.1, (e.2, r.2.2 ++ [⟨.enter, x, e.1⟩])) := by
      simp [told, allStages, recorded, he]
    -- the part before LEAVE
    have mid : ∃ l, (kids allStages (recorded cb) ch k x (told allStages (recorded cb) .enter x r)).2.2 =
          r.2.2 ++ (⟨.enter, x, e.1⟩ :: l) ∧
        ((kids allStages (recorded cb) ch k x (told allStages (recorded cb) .enter x r)).1 = .abort →
          ∃ l' q, (⟨.enter, x, e.1⟩ :: l) = l' ++ [q] ∧ q.answer = .abort ∧ ∀ q ∈ l', q.answer ≠ .abort) ∧
        ((kids allStages (recorded cb) ch k x (told allStages (recorded cb) .enter x r)).1 ≠ .abort →
          e.1 ≠ .abort ∧ ∀ q ∈ l, q.answer ≠ .abort) ∧
        (e.1 = .skip → l = []) ∧ (l.map fun r => (r.stage, r.node)).Sublist ((ch x).flatMap tour) ∧
        (∀ q ∈ l, ∃ c ∈ ch x, Below ch c q.node) ∧
        (∀ y, ⟨.enter, y, .skip⟩ ∈ l → ∀ d, Below ch y d → d ≠ y → ∀ r ∈ l, r.node ≠ d) ∧
        ((kids allStages (recorded cb) ch k x (told allStages (recorded cb) .enter x r)).1 ≠ .abort → e.1 ≠ .skip →
          ∀ d, (∃ c ∈ ch x, Below ch c d) → (∀ y, (∃ c ∈ ch x, Below ch c y) → Below ch y d → y ≠ d → ⟨.enter, y, .skip⟩ ∉ l) →
            ∀ st, ∃ r ∈ l, r.stage = st ∧ r.node = d) := by
      rw [hr1]
      unfold kids
      by_cases hs : e.1 = .skip
      · simp only [hs, if_true]
        exact ⟨[], by simp, by simp, by simp, by simp, by simp, by simp, by simp, by simp⟩
      · by_cases ha : e.1 = .abort
        · simp only [ha]
          rw [if_neg (by simp), inTurn_abort _ _ rfl]
          exact ⟨[], by simp, fun _ => ⟨[], ⟨.enter, x, .abort⟩, by simp, rfl, by simp⟩, by simp, by simp, by simp, by simp, by simp, by simp⟩
        · simp only [hs, if_false]
          obtain ⟨l, h1, g⟩ := inTurn_good hL hwf tour (visit allStages (recorded cb) ch k) x (ch x) [] (by simp)
            (fun c hc r => ih c (hx c hc) r) (e.1, (e.2, r.2.2 ++ [⟨.enter, x, e.1⟩])) ha
          refine ⟨l, by rw [h1]; simp, ?_, fun h => ⟨ha, g.none h⟩, fun h => h.elim, g.sub, g.only, g.skip, fun h _ => g.full h⟩
          intro hab
          obtain ⟨l', q, rfl, h2, h3⟩ := g.last hab
          refine ⟨⟨.enter, x, e.1⟩ :: l', q, by simp, h2, ?_⟩
          intro z hz
          rcases List.mem_cons.1 hz with rfl | hz
          · exact ha
          · exact h3 z hz
    obtain ⟨l, m1, m2, m3, m4, m5, m6, m7, m8⟩ := mid
    have hvis : visit allStages (recorded cb) ch (k + 1) x r =
        (let r2 := kids allStages (recorded cb) ch k x (told allStages (recorded cb) .enter x r)
         if r2.1 = .abort then r2 else told allStages (recorded cb) .leave x r2) := rfl
    rw [hvis]
    generalize kids allStages (recorded cb) ch k x (told allStages (recorded cb) .enter x r) = r2 at m1 m2 m3 m8
    simp only
    have notX : ∀ q ∈ l, q.node ≠ x := by
      intro q hq h
      obtain ⟨c, hc, hb⟩ := m6 q hq
      rw [h] at hb
      exact kidNotX c hc hb
    by_cases hab : r2.1 = .abort
    · rw [if_pos hab]
      refine ⟨_, m1, ⟨?_, fun _ => m2 hab, fun h => absurd hab h, ?_, fun h => absurd hab h, ?_⟩⟩
      · rw [ht x]
        simp only [List.map_cons]
        refine List.Sublist.cons_cons _ ?_
        simpa using m5.append (List.nil_sublist [(Stage.leave, x)])
      · intro y hy d hd hdy z hz hzd
        rcases List.mem_cons.1 hy with hy | hy
        · injection hy with _ h1 h2
          subst h1
          rcases List.mem_cons.1 hz with rfl | hz
          · exact hdy hzd.symm
          · rw [m4 h2.symm] at hz; simp at hz
        · rcases List.mem_cons.1 hz with rfl | hz
          · obtain ⟨c, hc, hb⟩ := m6 _ hy
            simp only at hzd
            subst hzd
            exact kidNotX c hc (Relation.ReflTransGen.trans hb hd)
          · exact m7 y hy d hd hdy z hz hzd
      · intro z hz
        rcases List.mem_cons.1 hz with rfl | hz
        · exact .refl
        · obtain ⟨c, hc, hb⟩ := m6 z hz
          exact .head hc hb
    · rw [if_neg hab]
      obtain ⟨v, hv⟩ : ∃ v, cb .leave x r2.2.1 = v := ⟨_, rfl⟩
      have hr3 : told allStages (recorded cb) .leave x r2 = (v.1, (v.2, r2.2.2 ++ [⟨.leave, x, v.1⟩])) := by
        simp [told, allStages, recorded, hv]
      rw [hr3]
      simp only
      have hno : ∀ q ∈ (⟨.enter, x, e.1⟩ :: l : List Rec), q.answer ≠ .abort := by
        intro q hq
        rcases List.mem_cons.1 hq with rfl | hq
        · exact (m3 hab).1
        · exact (m3 hab).2 q hq
      refine ⟨⟨.enter, x, e.1⟩ :: l ++ [⟨.leave, x, v.1⟩], by rw [m1]; simp, ⟨?_, ?_, ?_, ?_, ?_, ?_⟩⟩
      · rw [ht x]
        simp only [List.cons_append, List.map_cons, List.map_append, List.map_nil]
        exact List.Sublist.cons_cons _ (m5.append (List.Sublist.refl _))
      · intro h; exact ⟨_, _, rfl, h, hno⟩
      · intro h q hq
        rcases List.mem_append.1 hq with hq | hq
        · exact hno q hq
        · simp at hq; rw [hq]; exact h
      · intro y hy d hd hdy z hz hzd
        have hy : y = x ∧ e.1 = .skip ∨ ⟨.enter, y, .skip⟩ ∈ l := by
          simp at hy; rcases hy with ⟨h1, h2⟩ | h
          · exact .inl ⟨h1, h2.symm⟩
          · exact .inr h
        have hz : z.node = x ∨ z ∈ l := by
          simp at hz; rcases hz with rfl | h | rfl
          · exact .inl rfl
          · exact .inr h
          · exact .inl rfl
        rcases hy with ⟨rfl, hs⟩ | hy
        · rcases hz with hz | hz
          · exact hdy (by rw [← hzd, hz])
          · rw [m4 hs] at hz; simp at hz
        · rcases hz with hz | hz
          · obtain ⟨c, hc, hb⟩ := m6 _ hy
            rw [hz] at hzd
            subst hzd
            exact kidNotX c hc (Relation.ReflTransGen.trans hb hd)
          · exact m7 y hy d hd hdy z hz hzd
      · intro _ d hd hsk st
        by_cases hdx : d = x
        · subst hdx
          cases st with
          | enter => exact ⟨⟨.enter, d, e.1⟩, by simp, rfl, rfl⟩
          | leave => exact ⟨⟨.leave, d, v.1⟩, by simp, rfl, rfl⟩
        · have hes : e.1 ≠ .skip := fun h => hsk x .refl hd (fun h => hdx h.symm) (by simp [h])
          obtain ⟨c, hc, hb⟩ := belowCases d hd hdx
          obtain ⟨z, hz, h⟩ := m8 hab hes d ⟨c, hc, hb⟩ (fun y ⟨u, hu, huy⟩ hyd hne hm =>
            hsk y (.head hu huy) hyd hne (by simp [hm])) st
          exact ⟨z, by simp [hz], h⟩
      · intro z hz
        have hz : z.node = x ∨ z ∈ l := by
          simp at hz; rcases hz with rfl | h | rfl
          · exact .inl rfl
          · exact .inr h
          · exact .inl rfl
        rcases hz with hz | hz
        · rw [hz]; exact .refl
        · obtain ⟨c, hc, hb⟩ := m6 z hz
          exact .head hc hb

/-- C34, the calls.  With both stages enabled, whatever the callback answers:

* the calls come in the order of the tour (enter in pre-order, leave in post-order, properly nested), each at most once and
  never for the root;
* a call that answers ABORT is the last one;
* there is no call below a node whose ENTER answered SKIP;
* if no call answers ABORT, every descendant that is not below a skipped node is entered and left. -/
theorem C34_calls (hW : WF w ch) {rn : Node} (hr : w.nodes root = some rn) {tour : NodeId → List (Stage × NodeId)} (ht : TourOf ch tour)
    (cb : Callback σ) (s : σ) : ∃ s' l, treewalk allStages (recorded cb) w root (s, []) = .ok (s', l) ∧
      (l.map fun r => (r.stage, r.node)).Sublist ((ch root).flatMap tour) ∧
      (∀ a r b, l = a ++ r :: b → r.answer = .abort → b = []) ∧
      (∀ x, ⟨.enter, x, .skip⟩ ∈ l → ∀ d, Below ch x d → d ≠ x → ∀ r ∈ l, r.node ≠ d) ∧
      ((∀ r ∈ l, r.answer ≠ .abort) → ∀ d, Below ch root d → d ≠ root →
        (∀ x, Below ch root x → Below ch x d → x ≠ d → ⟨.enter, x, .skip⟩ ∉ l) → ∀ st, ∃ r ∈ l, r.stage = st ∧ r.node = d) := by
  have hh := hW.ht hr
  obtain ⟨l, h1, g⟩ := inTurn_good hW.linked hW.wf tour (visit allStages (recorded cb) ch w.fresh) root (ch root) [] (by simp)
    (fun c hc r => by
      obtain ⟨n, hn, _⟩ := hW.linked.alive_child hc
      exact visit_good hW.linked hW.wf ht cb w.fresh c (hW.ht hn) r) (.continue_, (s, [])) (by simp)
  rw [List.nil_append] at h1
  refine ⟨_, l, by rw [C34_walk hW hr, ← h1], g.sub, ?_, g.skip, ?_⟩
  · intro a r b hl hab
    by_cases hc : (inTurn (visit allStages (recorded cb) ch w.fresh) (ch root) (.continue_, (s, []))).1 = .abort
    · obtain ⟨l', q, rfl, hq, hl'⟩ := g.last hc
      by_contra hb
      obtain ⟨b', z, rfl⟩ := List.eq_nil_or_concat b |>.resolve_left hb
      rw [show a ++ r :: b'.concat z = (a ++ r :: b') ++ [z] by simp] at hl
      obtain ⟨rfl, _⟩ := List.append_inj' hl rfl
      exact hl' r (by simp) hab
    · exact absurd hab (g.none hc r (by rw [hl]; simp))
  · intro hna d hd hne hsk st
    have hc : (inTurn (visit allStages (recorded cb) ch w.fresh) (ch root) (.continue_, (s, []))).1 ≠ .abort := by
      intro hc
      obtain ⟨l', q, rfl, hq, _⟩ := g.last hc
      exact hna q (by simp) hq
    rcases Relation.ReflTransGen.cases_head hd with h | ⟨c, hcc, h⟩
    · exact absurd h.symm hne
    · exact g.full hc d ⟨c, hcc, h⟩ (fun x ⟨u, hu, hux⟩ hxd hxn => hsk x (.head hu hux) hxd hxn) st

/-- C34, the full walk: a callback that always continues is called along the whole tour (the enabled stages of it). -/
theorem C34_tour (hW : WF w ch) {rn : Node} (hr : w.nodes root = some rn) {tour : NodeId → List (Stage × NodeId)} (ht : TourOf ch tour)
    (mask : Stage → Bool) (cb : Callback σ) (hcb : ∀ st x s, (cb st x s).1 = .continue_) (s : σ) :
    treewalk mask cb w root s = .ok ((((ch root).flatMap tour).filter fun e => mask e.1).foldl (fun s e => (cb e.1 e.2 s).2) s) := by
  rw [C34_walk hW hr]
  congr 1
  have htold : ∀ st x s, told mask cb st x (.continue_, s) = (.continue_, if mask st then (cb st x s).2 else s) := by
    intro st x s
    unfold told
    by_cases h : mask st = true
    · simp only [h, if_true]; exact Prod.ext (hcb st x s) rfl
    · simp [h]
  have hturn : ∀ (f : NodeId → Cmd × σ → Cmd × σ) (l : List NodeId), (∀ c ∈ l, ∀ s, f c (.continue_, s) =
      (.continue_, ((tour c).filter fun e => mask e.1).foldl (fun s e => (cb e.1 e.2 s).2) s)) →
      ∀ s, inTurn f l (.continue_, s) = (.continue_, ((l.flatMap tour).filter fun e => mask e.1).foldl (fun s e => (cb e.1 e.2 s).2) s) := by
    intro f l
    induction l with
    | nil => intro _ s; simp [inTurn]
    | cons c l ih =>
      intro hf s
      simp only [inTurn]
      rw [if_neg (by simp), hf c (by simp), ih (fun x hx => hf x (by simp [hx]))]
      simp [List.filter_append, List.foldl_append]
  have hvis : ∀ (k : Nat) (x : NodeId), Ht ch k x → ∀ s, visit mask cb ch k x (.continue_, s) =
      (.continue_, ((tour x).filter fun e => mask e.1).foldl (fun s e => (cb e.1 e.2 s).2) s) := by
    intro k
    induction k with
    | zero => intro x h; exact h.elim
    | succ k ih =>
      intro x hx s
      have hk := hturn _ _ (fun c hc s => ih c (hx c hc) s) (if mask .enter then (cb .enter x s).2 else s)
      have hcs : ¬ Cmd.continue_ = Cmd.skip := by simp
      have hca : ¬ Cmd.continue_ = Cmd.abort := by simp
      simp only [visit, htold, if_neg hcs, hk, if_neg hca]
      rw [ht x]
      cases h1 : mask .enter <;> cases h2 : mask .leave <;> simp [h1, h2, List.filter_append, List.foldl_append]
  rw [hturn _ _ (fun c hc s => by
    obtain ⟨n, hn, _⟩ := hW.linked.alive_child hc
    exact hvis w.fresh c (hW.ht hn) s)]

/-! ## Concrete case -/

open Dom.Tree (Call Reach exists_ok)

/-- Document 0, element 1 with children element 2 (holding 3 and 4) and element 5; a callback that skips 2 or aborts at 4. -/
example : ∃ w, Reach (fun w c => c.Ok w) w ∧ (
    (treewalk allStages (fun st x l => (.continue_, l ++ [(st, x)])) w 1 [] =
      .ok [(.enter, 2), (.enter, 3), (.leave, 3), (.enter, 4), (.leave, 4), (.leave, 2), (.enter, 5), (.leave, 5)]) ∧
    (treewalk allStages (fun st x l => (if st = .enter ∧ x = 2 then .skip else .continue_, l ++ [(st, x)])) w 1 [] =
      .ok [(.enter, 2), (.leave, 2), (.enter, 5), (.leave, 5)]) ∧
    (treewalk allStages (fun st x l => (if x = 4 then .abort else .continue_, l ++ [(st, x)])) w 1 [] =
      .ok [(.enter, 2), (.enter, 3), (.leave, 3), (.enter, 4)])) := by
  obtain ⟨w, h1, h2⟩ := exists_ok [.createDocument, .createNode 0 .element none none, .createNode 0 .element none none,
    .createNode 0 .text none none, .createNode 0 .element none none, .createNode 0 .element none none,
    .appendChild 0 1, .appendChild 1 2, .appendChild 2 3, .appendChild 2 4, .appendChild 1 5] (fun w => decide (
    (treewalk allStages (fun st x l => (.continue_, l ++ [(st, x)])) w 1 [] =
      .ok [(.enter, 2), (.enter, 3), (.leave, 3), (.enter, 4), (.leave, 4), (.leave, 2), (.enter, 5), (.leave, 5)]) ∧
    (treewalk allStages (fun st x l => (if st = .enter ∧ x = 2 then .skip else .continue_, l ++ [(st, x)])) w 1 [] =
      .ok [(.enter, 2), (.leave, 2), (.enter, 5), (.leave, 5)]) ∧
    (treewalk allStages (fun st x l => (if x = 4 then .abort else .continue_, l ++ [(st, x)])) w 1 [] =
      .ok [(.enter, 2), (.enter, 3), (.leave, 3), (.enter, 4)]))) (by decide +kernel)
  exact ⟨w, h1, of_decide_eq_true h2⟩

end Dom.Trav
