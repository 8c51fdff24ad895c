import Verif.Tree.Detach
/-!
# Linking a range of nodes into a child list
-/
namespace Dom.Tree
set_option linter.unusedSimpArgs false

variable {w : World} {ch : Children}

/-- What `attachRange` needs to know: `seg` is a properly linked run of siblings, namely either one node
without parent (`f = none`) or all the children of `f`; it goes between `a` and `b` below `p`. -/
structure Seg (w : World) (ch : Children) (p : NodeId) (a b seg : List NodeId) (f : Option NodeId) : Prop where
  hab : ch p = a ++ b
  ne : seg ≠ []
  kids : ∀ s1 c s2, seg = s1 ++ c :: s2 → ∃ n, w.nodes c = some n ∧ n.type ≠ .attribute ∧
    n.prev = s1.getLast? ∧ n.next = s2.head?
  nodup : seg.Nodup
  notAnc : ∀ c ∈ seg, ¬ AncSelf w p c
  src : ∀ c ∈ seg, ∀ n, w.nodes c = some n → n.parent = f
  frag : ∀ q, f = some q → ch q = seg ∧ q ≠ p
  single : f = none → ∃ x, seg = [x]

/-- The records after linking `seg` between `a` and `b` below `p`, the parent pointers being set for the nodes
in `done` only. -/
def spliceRec (p : NodeId) (a b seg done : List NodeId) (j : NodeId) (n : Node) : Node :=
  { n with
    parent := if j ∈ done then some p else n.parent
    prev := if b.head? = some j then seg.getLast? else if seg.head? = some j then a.getLast? else n.prev
    next := if a.getLast? = some j then seg.head? else if seg.getLast? = some j then b.head? else n.next
    first := if j = p ∧ a.getLast? = none then seg.head? else n.first
    last := if j = p ∧ b.head? = none then seg.getLast? else n.last }

section
variable {p : NodeId} {a b seg : List NodeId} {f : Option NodeId}

theorem Seg.not_mem (hW : Core w ch) (hs : Seg w ch p a b seg f) {c : NodeId} (hc : c ∈ seg) : c ∉ ch p := by
  intro h
  obtain ⟨n, hn, _, hp⟩ := hW.linked.alive_child h
  have := hs.src c hc n hn
  rw [hp] at this
  have := hs.frag p this.symm
  exact this.2 rfl

theorem Seg.alive (hs : Seg w ch p a b seg f) {c : NodeId} (hc : c ∈ seg) :
    ∃ n, w.nodes c = some n ∧ n.type ≠ .attribute := by
  obtain ⟨s1, s2, h⟩ := List.append_of_mem hc
  obtain ⟨n, h1, h2, _⟩ := hs.kids s1 c s2 h
  exact ⟨n, h1, h2⟩

/-- Nothing that the splice touches lies strictly below a node of the range. -/
theorem Seg.below (hW : Core w ch) (hs : Seg w ch p a b seg f) {c y : NodeId} (hc : c ∈ seg)
    (hy : Below ch c y) : y ≠ p ∧ ∀ z ∈ ch y, z ∉ seg ∧ z ∉ a ∧ z ∉ b := by
  have hL := hW.linked
  have hyp : y ≠ p := by
    rintro rfl
    exact hs.notAnc c hc (hy.anc hL)
  refine ⟨hyp, fun z hz => ?_⟩
  have hzp : z ∉ ch p := fun h => hyp (hL.mem_unique hz h)
  rw [hs.hab, List.mem_append, not_or] at hzp
  refine ⟨fun hzs => ?_, hzp.1, hzp.2⟩
  obtain ⟨n, hn, _, hp⟩ := hL.alive_child hz
  have h1 := hs.src z hzs n hn
  rw [hp] at h1
  have h2 := (hs.frag y h1.symm).1
  exact not_below_child hL hW.wf (h2 ▸ hc) hy

theorem LocAt_splice (hW : Core w ch) (hs : Seg w ch p a b seg f) {done : List NodeId}
    (hdone : ∀ c ∈ done, c ∈ seg) {c y : NodeId} (hc : c ∈ seg) (hy : Below ch c y) (l : List Ev) :
    LocAt (w.mp (spliceRec p a b seg done) l) ch y := by
  obtain ⟨hyp, hk⟩ := hs.below hW hc hy
  obtain ⟨cn, hcn, _⟩ := hs.alive hc
  obtain ⟨yn, hyn⟩ := hy.alive hW.linked hcn
  refine (hW.linked.loc y yn hyn).mp (fun m _ => by simp [spliceRec, hyp]) ?_
  intro z hz m _
  obtain ⟨h1, h2, h3⟩ := hk z hz
  have e1 : b.head? ≠ some z := fun h => h3 (List.mem_of_head? h)
  have e2 : a.getLast? ≠ some z := fun h => h2 (List.mem_of_getLast? h)
  have e3 : seg.head? ≠ some z := fun h => h1 (List.mem_of_head? h)
  have e4 : seg.getLast? ≠ some z := fun h => h1 (List.mem_of_getLast? h)
  have e5 : z ∉ done := fun h => h1 (hdone z h)
  simp [spliceRec, e1, e2, e3, e4, e5]

/-- Whether a node has an owner document. -/
def hasOwner (w : World) (x : NodeId) : Bool :=
  match w.nodes x with
  | some n => n.owner.isSome
  | none => false

theorem attachLoop_run (hW : Core w ch) (hs : Seg w ch p a b seg f) {d : NodeId} {dn : Node}
    (hd : w.nodes d = some dn) {last : NodeId} (hlast : seg.getLast? = some last) :
    ∀ (s2 s1 : List NodeId), seg = s1 ++ s2 → ∀ fuel, s2.length ≤ fuel → ∀ l,
    attachLoop (some d) p last fuel (s2.head?.or b.head?) (w.mp (spliceRec p a b seg s1) l) =
      .ok (w.mp (spliceRec p a b seg seg)
        (l ++ s2.flatMap fun c => changeEvents ch w.fresh (hasOwner w c) c (some p) .addition)) () := by
  have hL := hW.linked
  have hlm : last ∈ seg := List.mem_of_getLast? hlast
  obtain ⟨ln, hln, _⟩ := hs.alive hlm
  have hlnext : ∀ done, (spliceRec p a b seg done last ln).next = b.head? := by
    intro done
    have : a.getLast? ≠ some last := by
      intro h
      exact hs.not_mem hW hlm (by rw [hs.hab]; simp [List.mem_of_getLast? h])
    simp [spliceRec, this, hlast]
  intro s2
  induction s2 with
  | nil =>
    intro s1 hseg fuel _ l
    simp only [List.append_nil] at hseg
    subst hseg
    unfold attachLoop
    rw [mp_get_bind hln, hlnext]
    simp [pure_run]
  | cons c s2 ih =>
    intro s1 hseg fuel hfuel l
    have hcs : c ∈ seg := by simp [hseg]
    obtain ⟨cn, hcn, hct, hcprev, hcnext⟩ := hs.kids s1 c s2 hseg
    have hcab : c ∉ a ∧ c ∉ b := by
      have := hs.not_mem hW hcs
      rw [hs.hab, List.mem_append, not_or] at this
      exact this
    cases fuel with
    | zero => simp at hfuel
    | succ fuel =>
      have hcur : ((c :: s2).head?.or b.head?) = some c := rfl
      rw [hcur]
      unfold attachLoop
      rw [mp_get_bind hln, hlnext]
      have hne : (some c : Option NodeId) ≠ b.head? := fun h => hcab.2 (List.mem_of_head? h.symm)
      rw [if_neg hne]
      dsimp only
      rw [deref_bind, mp_mod_bind hcn]
      have hg : setAt c (fun x => { x with parent := some p }) (spliceRec p a b seg s1) =
          spliceRec p a b seg (s1 ++ [c]) := by
        rw [setAt_parent]
        funext j n
        simp only [spliceRec, List.mem_append, List.mem_singleton]
        by_cases h1 : j = c
        · simp [h1]
        · simp [h1]
      rw [hg]
      have hsub : ∀ x ∈ s1 ++ [c], x ∈ seg := by
        intro x hx
        rw [hseg]
        rcases List.mem_append.1 hx with h | h
        · simp [h]
        · simp only [List.mem_singleton] at h; simp [h]
      have hdisp := dispatchNodeChange_run (ch := ch) (w := w.mp (spliceRec p a b seg (s1 ++ [c])) l)
        (mp_some hd _ _) (mp_some hcn _ _) (some p) .addition (k := w.fresh) (hW.ht hcn)
        (fun y hy => LocAt_splice hW hs hsub hcs hy l)
        (fun y hy hyc => by
          obtain ⟨m, hm, ho⟩ := hW.below_owner hy hyc
          exact ⟨_, mp_some hm _ _, ho⟩)
        (fun x hx => not_below_child hL hW.wf hx)
        (preorder_length_le hW _ hcn)
      rw [bind_ok hdisp, mp_addLog, mp_get_bind hcn]
      have hnext : (spliceRec p a b seg (s1 ++ [c]) c cn).next = s2.head?.or b.head? := by
        have e2 : a.getLast? ≠ some c := fun h => hcab.1 (List.mem_of_getLast? h)
        simp only [spliceRec, e2, if_false, hcnext]
        cases s2 with
        | nil => simp [hseg]
        | cons y s2 =>
          have : seg.getLast? ≠ some c := by
            intro h
            have hnd := hs.nodup
            rw [hseg] at hnd h
            rw [List.getLast?_append_of_ne_nil _ (by simp), List.getLast?_cons_cons] at h
            exact (List.nodup_cons.1 (List.nodup_append.1 hnd).2.1).1 (List.mem_of_getLast? h)
          simp [this]
      rw [hnext, ih (s1 ++ [c]) (by simp [hseg]) fuel (by simpa using hfuel)]
      congr 2
      simp only [List.flatMap_cons, List.append_assoc]
      congr 2
      simp [hasOwner, hcn, spliceRec]

/-- The events of inserting a range below `p`. -/
def insertEvents (w : World) (ch : Children) (p : NodeId) (seg : List NodeId) : List Ev :=
  (seg.flatMap fun c => changeEvents ch w.fresh (hasOwner w c) c (some p) .addition) ++
    [{ kind := .subtreeModified, target := p, related := some p }]

theorem attachRange_run (hW : Core w ch) (hs : Seg w ch p a b seg f) {pn : Node} (hp : w.nodes p = some pn)
    (hpo : pn.owner ≠ none) {fst lst : NodeId} (hfst : seg.head? = some fst) (hlst : seg.getLast? = some lst) :
    attachRange fst lst p a.getLast? b.head? w =
      .ok (w.mp (spliceRec p a b seg seg) (insertEvents w ch p seg)) () := by
  have hL := hW.linked
  obtain ⟨d, dn, hown, hd, _⟩ := hW.doc_alive hp (.inr (.inr hpo))
  obtain ⟨fn, hfn, _⟩ := hs.alive (List.mem_of_head? hfst)
  obtain ⟨ln, hln, _⟩ := hs.alive (List.mem_of_getLast? hlst)
  have hfm := hs.not_mem hW (List.mem_of_head? hfst)
  have hlm := hs.not_mem hW (List.mem_of_getLast? hlst)
  rw [hs.hab, List.mem_append, not_or] at hfm hlm
  have halive : ∀ x ∈ ch p, ∃ n, w.nodes x = some n := by
    intro x hx
    obtain ⟨n, hn, _⟩ := hL.alive_child hx; exact ⟨n, hn⟩
  unfold attachRange
  conv => lhs; rw [← mp_id w]
  rw [mp_mod_bind hfn, mp_mod_bind hln,
    bind_ok (linkFwd_run hp (fun x hx => halive x (by rw [hs.hab]; simp [List.mem_of_getLast? hx])) _ _),
    bind_ok (linkBack_run hp (fun x hx => halive x (by rw [hs.hab]; simp [List.mem_of_head? hx])) _ _)]
  have hG : (fun j n => backRec b.head? p (some lst) j (fwdRec a.getLast? p (some fst) j
      (setAt lst (fun n => { n with next := b.head? })
        (setAt fst (fun n => { n with prev := a.getLast? }) fun _ n => n) j n))) =
      spliceRec p a b seg [] := by
    rw [setAt_prev, setAt_next]
    funext j n
    simp only [backRec, fwdRec, spliceRec, hfst, hlst]
    simp [eq_comm]
  rw [hG]
  have ho : (spliceRec p a b seg [] p pn).owner = some d := hown
  rw [mp_get_bind hp, ho, deref_bind, mp_get_bind hd, bound_bind]
  have hlen : seg.length ≤ w.fresh + 1 := by
    have := nodup_length_le (n := w.fresh) hs.nodup (fun x hx => by
      obtain ⟨n, hn, _⟩ := hs.alive hx; exact hW.bnd x n hn)
    omega
  have hcur : (some fst : Option NodeId) = seg.head?.or b.head? := by simp [hfst]
  rw [hcur, mp_fresh, bind_ok (attachLoop_run hW hs hd hlst seg [] (by simp) (w.fresh + 1) hlen [])]
  unfold fireSubtreeModified
  rw [fire_run (mp_some hd _ _) (mp_some hp _ _)]
  have ho' : (spliceRec p a b seg seg p pn).owner = some d := hown
  simp [ho', insertEvents]

end
end Dom.Tree
