import Verif.Tree.Content
/-!
# Putting a node without parent into the tree
-/
namespace Dom.Tree
set_option linter.unusedSimpArgs false

open Dom.Str (DStr)

variable {w w' : World} {ch ch' : Children} {p new x j : NodeId} {n pn nn : Node} {r : Option NodeId}

/-- Types that make everything below them read-only. -/
def isEntity (w : World) (j : NodeId) : Prop := ∃ m, w.nodes j = some m ∧ (m.type = .entity ∨ m.type = .entityRef)

theorem entity_above (hW : Core w ch) (hj : isEntity w j) (h : AncSelf w x j) : ∀ {n : Node}, w.nodes x = some n →
    n.type ≠ .attribute → n.type ≠ .text → ∃ i, Below ch i x ∧ isEntity w i := by
  induction h using Relation.ReflTransGen.head_induction_on with
  | refl => intro n hx _ _; exact ⟨j, .refl, hj⟩
  | @head x z hxz _ ih =>
    intro n hx ha ht
    obtain ⟨m, hm, hmz⟩ := hxz
    rw [hx] at hm; cases hm
    have hmem : x ∈ ch z := hW.linked.up x n z hx ha hmz
    obtain ⟨zn, hz⟩ := hW.linked.alive_parent hx hmz
    have hmay := hW.types z zn x n hz hmem hx
    by_cases hza : zn.type = .attribute
    · refine ⟨x, .refl, n, hx, .inr ?_⟩
      rw [hza] at hmay
      cases hmay with
      | content hp _ => simp at hp
      | attr hc =>
        simp only [List.mem_cons, List.not_mem_nil, or_false] at hc
        rcases hc with h | h
        · exact absurd h ht
        · exact h
    · have hzt : zn.type ≠ .text := by
        intro h
        rw [h] at hmay
        cases hmay with
        | content hp _ => simp at hp
      obtain ⟨i, hi, hi'⟩ := ih hz hza hzt
      exact ⟨i, .tail hi hmem, hi'⟩

/-- An element is read-only exactly when it lies below an entity or entity reference. -/
theorem readOnly_elem (hW : Core w ch) (hx : w.nodes x = some n) (ht : n.type = .element) : ReadOnly w x ↔ ∃ i, Below ch i x ∧ isEntity w i := by
  constructor
  · rintro ⟨m, hm, h⟩
    rw [hx] at hm; cases hm
    rcases h with h | h | ⟨h, _⟩ | ⟨_, j, m, ha, hm, hmt⟩
    · rw [ht] at h; cases h
    · rw [ht] at h; cases h
    · rw [ht] at h; cases h
    · exact entity_above hW ⟨m, hm, hmt⟩ ha hx (by simp [ht]) (by simp [ht])
  · rintro ⟨i, hi, m, hm, hmt⟩
    exact ⟨n, hx, .inr (.inr (.inr ⟨by simp [ht], i, m, hi.anc hW.linked, hm, hmt⟩))⟩

/-- What putting the parentless node `new` into `p` before `r` does. -/
structure Joined (w : World) (ch : Children) (p new : NodeId) (r : Option NodeId) (w' : World) (ch' : Children) : Prop where
  wf : WF w' ch'
  here : ∃ a b, ch p = a ++ b ∧ b.head? = r ∧ ch' p = a ++ new :: b
  elsewhere : ∀ q, q ≠ p → ch' q = ch q
  data : ∀ j, (w'.nodes j).map Node.data = (w.nodes j).map Node.data
  owner : ∀ j, (w'.nodes j).map Node.owner = (w.nodes j).map Node.owner
  refs : ∀ j, (w'.nodes j).map Node.refcnt = (w.nodes j).map fun n => if j = new then u32 (n.refcnt + 1) else n.refcnt
  fresh : w'.fresh = w.fresh

/-- A node without parent, of the same document, permitted and not above `p`, can be put into `p` before any child. -/
theorem join_run (hW : WF w ch) (hp : w.nodes p = some pn) (hx : w.nodes new = some nn) (hro : ¬ ReadOnly w p) (hpar : nn.parent = none)
    (hnf : nn.type ≠ .fragment) (hnd : nn.type ≠ .doctype) (hown : nn.owner = pn.owner) (habove : ¬ AncSelf w p new) (hperm : Permitted w ch p new)
    (hr : ∀ c, r = some c → c ∈ ch p) : ∃ w' ch', insertBefore p new r w = .ok w' new ∧ Joined w ch p new r w' ch' := by
  have hnotin : ∀ q, new ∉ ch q := by
    intro q hq
    obtain ⟨m, hm, _, h⟩ := hW.linked.alive_child hq
    rw [hx] at hm; cases hm; rw [hpar] at h; cases h
  have hfil : ∀ q, (ch q).filter (· ≠ new) = ch q := by
    intro q
    refine List.filter_eq_self.2 fun y hy => ?_
    simp only [ne_eq, decide_not, Bool.not_eq_true', decide_eq_false_iff_not]
    rintro rfl; exact hnotin q hy
  have hrn : r ≠ some new := by
    intro h; exact hnotin p (hr new h)
  have hattr : ∀ c, r = some c → ∃ n, w.nodes c = some n ∧ (n.type = .attribute → n.parent ≠ some p) := by
    intro c hc
    obtain ⟨m, hm, hma, _⟩ := hW.linked.alive_child (hr c hc)
    exact ⟨m, hm, fun h => absurd h hma⟩
  have href : insertRefusal w ch p new nn pn r = none := by
    unfold insertRefusal
    rw [if_neg (not_not.2 (.inl hown)), if_neg hro, if_neg (by rintro ⟨c, h1, h2⟩; exact h2 (hr c h1)), if_neg habove,
      if_neg (fun h => h.2 hperm), if_neg (by rintro ⟨_, q, h, _⟩; rw [hpar] at h; cases h)]
  obtain ⟨w', ch', h1, h2⟩ := insertBefore_node hW hp hx hattr hnf hrn href
  refine ⟨w', ch', h1, h2.wf, ?_, ?_, h2.data, ?_, h2.refs, h2.fresh⟩
  · obtain ⟨a, b, e1, e2, e3⟩ := h2.here
    rw [hfil] at e1
    refine ⟨a, b, e1, e2, ?_⟩
    rw [e3]; simp [moved, hnf]
  · intro q hq
    rw [h2.elsewhere q hq, if_neg (fun h => hnf h.2), hfil]
  · intro j
    rw [h2.owner j]
    cases w.nodes j with
    | none => rfl
    | some m => simp [hnd]

/-- Below a node there is, after the insertion, what was there before and the new subtree. -/
theorem Joined.below (h : Joined w ch p new r w' ch') {i : NodeId} (hd : Below ch' i x) : Below ch i x ∨ Below ch new x := by
  induction hd with
  | refl => exact .inl .refl
  | @tail b c _ hc ih =>
    by_cases hb : b = p
    · obtain ⟨u, v, h1, _, h3⟩ := h.here
      rw [hb, h3] at hc
      rcases List.mem_append.1 hc with hc | hc
      · rcases ih with ih | ih
        · exact .inl (.tail ih (by rw [hb, h1]; exact List.mem_append_left _ hc))
        · exact .inr (.tail ih (by rw [hb, h1]; exact List.mem_append_left _ hc))
      · rcases List.mem_cons.1 hc with rfl | hc
        · exact .inr .refl
        · rcases ih with ih | ih
          · exact .inl (.tail ih (by rw [hb, h1]; exact List.mem_append_right _ hc))
          · exact .inr (.tail ih (by rw [hb, h1]; exact List.mem_append_right _ hc))
    · rw [h.elsewhere b hb] at hc
      rcases ih with ih | ih
      · exact .inl (.tail ih hc)
      · exact .inr (.tail ih hc)

/-- Nothing is taken away. -/
theorem Joined.keeps (h : Joined w ch p new r w' ch') {i : NodeId} (hd : Below ch i x) : Below ch' i x := by
  refine Relation.ReflTransGen.mono (fun b c hc => ?_) _ _ hd
  by_cases hb : b = p
  · obtain ⟨u, v, h1, _, h3⟩ := h.here
    rw [hb, h3]; rw [hb, h1] at hc
    rcases List.mem_append.1 hc with hc | hc
    · exact List.mem_append_left _ hc
    · exact List.mem_append_right _ (List.mem_cons_of_mem _ hc)
  · rw [h.elsewhere b hb]; exact hc

theorem isEntity_data (h : (w'.nodes x).map Node.data = (w.nodes x).map Node.data) : isEntity w' x ↔ isEntity w x := by
  unfold isEntity
  cases hx : w.nodes x with
  | none => rw [hx] at h; cases hx' : w'.nodes x with
    | none => simp
    | some _ => rw [hx'] at h; simp at h
  | some n =>
    rw [hx] at h
    cases hx' : w'.nodes x with
    | none => rw [hx'] at h; simp at h
    | some n' =>
      rw [hx'] at h
      simp only [Option.map_some, Option.some.injEq] at h
      have h1 : n'.type = n.type := Node.data_type h
      simp [h1]

/-- Creation of an element. -/
def elementNode (name ns pfx : Option DStr) (d : NodeId) : Node :=
  { type := .element, name := name, ns := ns, pfx := pfx, owner := some d, pendingIn := some d }

theorem initElement_run (hW : WF w ch) {d : NodeId} {dn : Node} (hd : w.nodes d = some dn) (hdt : dn.type = .document) (name ns pfx : Option DStr) :
    initNode { type := .element, name := name, ns := ns, pfx := pfx, owner := some d } w = .ok (w.add (elementNode name ns pfx d)) w.fresh ∧
    WF (w.add (elementNode name ns pfx d)) ch :=
  ⟨initNode_run hW.toCore rfl hd rfl, WF_add hW rfl (.inr (.inl ⟨by simp [elementNode], d, dn, rfl, hd, hdt⟩)) (by simp [elementNode])⟩

/-- Creation makes no element read-only. -/
theorem add_readOnly (hW : WF w ch) {e : Node} (hW' : WF (w.add e) ch) (hx : w.nodes x = some n) (ht : n.type = .element) (h : ¬ ReadOnly w x) :
    ¬ ReadOnly (w.add e) x := by
  rw [readOnly_elem hW'.toCore (add_old hW.toCore hx) ht]
  rw [readOnly_elem hW.toCore hx ht] at h
  rintro ⟨i, hi, m, hm, hmt⟩
  refine h ⟨i, hi, m, ?_, hmt⟩
  rcases add_some hm with ⟨rfl, rfl⟩ | ⟨_, h'⟩
  · exfalso
    have : ch w.fresh = [] := hW.linked.dead _ (fresh_dead hW.toCore)
    rcases Relation.ReflTransGen.cases_head hi with rfl | ⟨z, hz, _⟩
    · rw [fresh_dead hW.toCore] at hx; cases hx
    · rw [this] at hz; cases hz
  · exact h'

end Dom.Tree
