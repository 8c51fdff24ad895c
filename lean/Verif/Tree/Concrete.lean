import Verif.Tree.Fresh
/-!
# The tree of a given memory, computed

For examples: the child lists of a well-formed memory are what following the pointers gives.
-/
namespace Dom.Tree

variable {w : World} {ch : Children}

/-- The nodes from `c` on, following `next`. -/
def siblings (w : World) : Nat → Option NodeId → List NodeId
  | 0, _ => []
  | _, none => []
  | k + 1, some c => c :: siblings w k ((w.nodes c).bind Node.next)

/-- The children of every node, following `first_child` and `next`. -/
def kidsOf (w : World) : Children := fun p => siblings w w.fresh ((w.nodes p).bind Node.first)

theorem siblings_eq {p : NodeId} {n : Node} (hW : Core w ch) (hp : w.nodes p = some n) : ∀ (b a : List NodeId) (k : Nat), ch p = a ++ b →
    b.length ≤ k → siblings w k b.head? = b := by
  intro b
  induction b with
  | nil => intro a k _ _; cases k <;> rfl
  | cons c b ih =>
    intro a k hab hk
    cases k with
    | zero => simp at hk
    | succ k =>
      obtain ⟨m, hm, _, _, _, hnext⟩ := (hW.linked.loc p n hp).kids a c b hab
      simp only [List.head?_cons, siblings, hm, Option.bind_some, hnext]
      rw [ih (a ++ [c]) k (by simp [hab]) (by simpa using hk)]

/-- The tree is determined by the memory. -/
theorem kids_eq (hW : Core w ch) : ch = kidsOf w := by
  funext p
  unfold kidsOf
  cases hp : w.nodes p with
  | none =>
    rw [hW.linked.dead p hp]
    cases w.fresh <;> rfl
  | some n =>
    obtain ⟨n', hn', hfirst, _⟩ := (hW.linked.loc p n hp).ends
    rw [hp] at hn'; cases hn'
    rw [Option.bind_some, hfirst]
    exact (siblings_eq hW hp (ch p) [] w.fresh rfl (child_length_le hW p)).symm

/-- What lies below a node. -/
theorem below_iff (hW : Core w ch) {x d : NodeId} : Below ch x d ↔ d ∈ preorder (kidsOf w) (w.fresh + 1) x := by
  rw [← kids_eq hW]
  exact ⟨fun h => below_mem_preorder h (ht_any hW x), mem_preorder_below⟩

/-- No Entity and no EntityReference in the memory. -/
def noEntities (w : World) : Bool := (List.range w.fresh).all fun i => (w.nodes i).all fun n => n.type ≠ .entity && n.type ≠ .entityRef

theorem writable_of (hW : WF w ch) (h : noEntities w = true) {x : NodeId} {n : Node} (hx : w.nodes x = some n) (ht : n.type = .element) :
    ¬ ReadOnly w x := by
  rw [readOnly_elem hW.toCore hx ht]
  rintro ⟨i, _, m, hm, hmt⟩
  have := List.all_eq_true.1 h i (List.mem_range.2 (hW.bnd i m hm))
  rw [hm] at this
  simp only [Option.all_some, Bool.and_eq_true, decide_eq_true_eq] at this
  rcases hmt with h | h
  · exact this.1 h
  · exact this.2 h

end Dom.Tree
