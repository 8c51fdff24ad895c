import Verif.Tree.ReplaceRun
/-!
# Creating nodes keeps the invariant
-/
namespace Dom.Tree
set_option linter.unusedSimpArgs false

variable {w : World} {ch : Children}

/-- `w` with a new node. -/
def World.add (w : World) (n : Node) : World :=
  { w with nodes := fun j => if j = w.fresh then some n else w.nodes j, fresh := w.fresh + 1 }

/-- The memory before the first call. -/
def World.empty : World := { nodes := fun _ => none, fresh := 0, log := [] }

theorem WF_empty : WF World.empty (fun _ => []) := by
  refine { toCore := ⟨⟨?_, ?_, ?_, ?_, ?_⟩, ?_, ?_, ?_, ?_, ?_, ?_⟩, pending := ?_ }
  case refine_7 =>
    exact ⟨fun x => Acc.intro _ fun p ⟨n, hn, _⟩ => by simp [World.empty] at hn⟩
  all_goals (intros; simp_all [World.empty])

theorem add_some {n m : Node} {j : NodeId} (h : (w.add n).nodes j = some m) :
    (j = w.fresh ∧ m = n) ∨ (j ≠ w.fresh ∧ w.nodes j = some m) := by
  simp only [World.add] at h
  split at h
  · next h' => exact .inl ⟨h', by simpa using h.symm⟩
  · next h' => exact .inr ⟨h', h⟩

theorem add_old (hW : Core w ch) {n m : Node} {j : NodeId} (h : w.nodes j = some m) :
    (w.add n).nodes j = some m := by
  have := hW.bnd j m h
  simp [World.add, Nat.ne_of_lt this, h]

theorem add_new (n : Node) : (w.add n).nodes w.fresh = some n := by simp [World.add]

theorem fresh_dead (hW : Core w ch) : w.nodes w.fresh = none := by
  cases h : w.nodes w.fresh with
  | none => rfl
  | some m => exact absurd (hW.bnd _ m h) (by simp)

theorem WF_add (hW : WF w ch) {n : Node} (hl : n.links = (none, none, none, none, none))
    (ho : (n.type = .document ∧ n.owner = some w.fresh) ∨
      (n.type ≠ .document ∧ ∃ d dn, n.owner = some d ∧ w.nodes d = some dn ∧ dn.type = .document) ∨
      (n.type = .doctype ∧ n.owner = none))
    (hp : n.pendingIn = if n.type = .document then none else n.owner) : WF (w.add n) ch := by
  have hL := hW.linked
  have hdead := fresh_dead hW.toCore
  simp only [Node.links, Prod.mk.injEq] at hl
  obtain ⟨l1, l2, l3, l4, l5⟩ := hl
  have hchf : ch w.fresh = [] := hL.dead _ hdead
  have hnotin : ∀ q, w.fresh ∉ ch q := by
    intro q h
    obtain ⟨m, hm, _⟩ := hL.alive_child h
    rw [hdead] at hm; simp at hm
  have hsub : ∀ c p, ParentOf (w.add n) c p → ParentOf w c p := by
    rintro c p ⟨m, hm, h⟩
    rcases add_some hm with ⟨_, rfl⟩ | ⟨_, h'⟩
    · rw [l1] at h; simp at h
    · exact ⟨m, h', h⟩
  refine { toCore := ⟨⟨?_, ?_, ?_, ?_, ?_⟩, ?_, ?_, ?_, ?_, ?_, ?_⟩, pending := ?_ }
  · intro p m hm
    rcases add_some hm with ⟨rfl, rfl⟩ | ⟨_, h'⟩
    · exact ⟨⟨_, hm, by simp [hchf, l2], by simp [hchf, l3]⟩, by simp [hchf], by simp [hchf]⟩
    · have := hL.loc p m h'
      obtain ⟨m', hm', h1, h2⟩ := this.ends
      refine ⟨⟨m', add_old hW.toCore hm', h1, h2⟩, ?_, this.nodup⟩
      intro a c b hab
      obtain ⟨k, hk, h⟩ := this.kids a c b hab
      exact ⟨k, add_old hW.toCore hk, h⟩
  · intro p hp
    by_cases h : p = w.fresh
    · rw [h, hchf]
    · simp only [World.add, h, if_false] at hp
      exact hL.dead p hp
  · intro c m p hm ht h
    rcases add_some hm with ⟨rfl, rfl⟩ | ⟨_, h'⟩
    · rw [l1] at h; simp at h
    · exact hL.up c m p h' ht h
  · intro c m p hm ht h
    rcases add_some hm with ⟨rfl, rfl⟩ | ⟨_, h'⟩
    · rw [l1] at h; simp at h
    · obtain ⟨e, he, h2⟩ := hL.attrUp c m p h' ht h
      exact ⟨e, add_old hW.toCore he, h2⟩
  · intro c m hm h
    rcases add_some hm with ⟨rfl, rfl⟩ | ⟨_, h'⟩
    · exact ⟨l4, l5⟩
    · exact hL.orphan c m h' h
  · intro i m hm
    rcases add_some hm with ⟨rfl, rfl⟩ | ⟨_, h'⟩
    · simp [World.add]
    · have := hW.bnd i m h'
      exact Nat.lt_succ_of_lt this
  · exact Subrelation.wf (fun {p c} h => hsub c p h) hW.wf
  · intro i m hm
    rcases add_some hm with ⟨rfl, rfl⟩ | ⟨_, h'⟩
    · rcases ho with ⟨h1, h2⟩ | ⟨h1, d, dn, h2, h3, h4⟩ | ⟨h1, h2⟩
      · exact .inl ⟨_, _, h2, hm, h1⟩
      · exact .inl ⟨d, dn, h2, add_old hW.toCore h3, h4⟩
      · exact .inr ⟨h1, h2, l1⟩
    · rcases hW.owner i m h' with ⟨d, dn, h1, h2, h3⟩ | h
      · exact .inl ⟨d, dn, h1, add_old hW.toCore h2, h3⟩
      · exact .inr h
  · intro i m hm ht
    rcases add_some hm with ⟨rfl, rfl⟩ | ⟨_, h'⟩
    · rcases ho with ⟨h1, h2⟩ | ⟨h1, _⟩ | ⟨h1, _⟩
      · exact h2
      · exact absurd ht h1
      · rw [ht] at h1; cases h1
    · exact hW.ownDoc i m h' ht
  · intro i m p pm hm h hpm
    rcases add_some hm with ⟨rfl, rfl⟩ | ⟨_, h'⟩
    · rw [l1] at h; simp at h
    · rcases add_some hpm with ⟨rfl, rfl⟩ | ⟨_, hp'⟩
      · obtain ⟨k, hk⟩ := hL.alive_parent h' h
        rw [hdead] at hk; simp at hk
      · exact hW.ownSame i m p pm h' h hp'
  · intro p pm c cm hpm hc hcm
    rcases add_some hcm with ⟨rfl, rfl⟩ | ⟨_, hc'⟩
    · exact absurd hc (hnotin p)
    · rcases add_some hpm with ⟨rfl, rfl⟩ | ⟨_, hp'⟩
      · rw [hchf] at hc; simp at hc
      · exact hW.types p pm c cm hp' hc hc'
  · intro i m hm
    rcases add_some hm with ⟨rfl, rfl⟩ | ⟨_, h'⟩
    · left; rw [hp, l1]; simp
    · exact hW.pending i m h'

theorem createDocument_run :
    createDocument w = .ok (w.add { type := .document, owner := some w.fresh }) w.fresh := rfl

theorem WF_createDocument (hW : WF w ch) : WF (w.add { type := .document, owner := some w.fresh }) ch :=
  WF_add hW rfl (.inl ⟨rfl, rfl⟩) rfl

/-- The record of a new node. -/
def newNode (doc : Option NodeId) (t : NodeType) (name value : Option Str.DStr) : Node :=
  { type := t, name := name, value := value, owner := doc, pendingIn := doc }

theorem initNode_run (hW : Core w ch) {n : Node} {d : NodeId} {dn : Node} (ho : n.owner = some d)
    (hd : w.nodes d = some dn) (hp : n.pendingIn = none) :
    initNode n w = .ok (w.add { n with pendingIn := some d }) w.fresh := by
  unfold initNode
  have h1 : alloc n w = .ok (w.add n) w.fresh := rfl
  rw [bind_ok h1, bind_ok (markPending_run (add_new n) ho (add_old hW hd) hp), pure_run]
  congr 1
  simp only [World.mp, World.add, List.append_nil, World.mk.injEq, and_true]
  funext j
  by_cases hj : j = w.fresh
  · simp [hj]
  · simp [hj]

theorem createNode_run (hW : Core w ch) {d : NodeId} {dn : Node} (hd : w.nodes d = some dn) (t : NodeType)
    (name value : Option Str.DStr) :
    createNode d t name value w = .ok (w.add (newNode (some d) t name value)) w.fresh := by
  unfold createNode
  rw [initNode_run hW rfl hd rfl]
  rfl

theorem WF_createNode (hW : WF w ch) {d : NodeId} {dn : Node} (hd : w.nodes d = some dn)
    (hdt : dn.type = .document) {t : NodeType} (ht : t ≠ .document) (name value : Option Str.DStr) :
    WF (w.add (newNode (some d) t name value)) ch :=
  WF_add hW rfl (.inr (.inl ⟨ht, d, dn, rfl, hd, hdt⟩)) (by simp [newNode, ht])

theorem createDoctype_run (name : Option Str.DStr) :
    createDoctype name w = .ok (w.add (newNode none .doctype name none)) w.fresh := by
  unfold createDoctype initNode
  have h1 : alloc { type := .doctype, name := name } w = .ok (w.add { type := .doctype, name := name }) w.fresh := rfl
  rw [bind_ok h1]
  have h2 : markPending w.fresh (w.add { type := .doctype, name := name }) =
      .ok (w.add { type := .doctype, name := name }) () := by
    unfold markPending
    rw [get_bind (add_new _)]; rfl
  rw [bind_ok h2]
  rfl

theorem WF_createDoctype (hW : WF w ch) (name : Option Str.DStr) :
    WF (w.add (newNode none .doctype name none)) ch :=
  WF_add hW rfl (.inr (.inr ⟨rfl, rfl⟩)) rfl

end Dom.Tree
