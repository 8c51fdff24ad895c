import Verif.Tree.Life
import Verif.Tree.Concrete
/-!
# What destroying a node does
-/
namespace Dom.Tree
set_option linter.unusedSimpArgs false

variable {w v : World} {ch : Children} {x c j d : NodeId} {n cn dn : Node}

/-! ## Vocabulary -/

/-- The attribute nodes of an element, in order. -/
def attrNodes (w : World) (x : NodeId) : List NodeId :=
  match w.nodes x with
  | some n => if n.type = .element then n.attrs.map AttrEntry.node else []
  | none => []

/-- What a node owns: its attributes and its children. -/
def owned (w : World) (ch : Children) (x : NodeId) : List NodeId := attrNodes w x ++ ch x

/-- The attribute lists agree with the attribute nodes. -/
def AttrOK (w : World) : Prop := ∀ e, (attrNodes w e).Nodup ∧
  (∀ a ∈ attrNodes w e, ∃ an, w.nodes a = some an ∧ an.type = .attribute ∧ an.parent = some e) ∧
  ∀ a an, w.nodes a = some an → an.type = .attribute → an.parent = some e → a ∈ attrNodes w e

/-- `j` is `x` or owned by it, directly or not. -/
def Sub (w : World) (ch : Children) (x j : NodeId) : Prop := Relation.ReflTransGen (fun p c => c ∈ owned w ch p) x j

/-- No reference to the node is held. -/
def unheld (w : World) (c : NodeId) : Bool := (w.nodes c).any fun n => n.refcnt = 0

/-- The nodes that go with `x`: down to the referenced ones. -/
def doomed (w : World) (ch : Children) : Nat → NodeId → List NodeId
  | 0, _ => []
  | k + 1, x => x :: (owned w ch x).flatMap fun c => if unheld w c then doomed w ch k c else []

/-- The referenced nodes right below those that go. -/
def cuts (w : World) (ch : Children) : Nat → NodeId → List NodeId
  | 0, _ => []
  | k + 1, x => (owned w ch x).flatMap fun c => if unheld w c then cuts w ch k c else [c]

/-- A node that has lost its parent: on the pending list. -/
def cutNode (n : Node) : Node := { n with parent := none, pendingIn := n.pendingIn <|> n.owner }

/-- The memory without `D` and with the nodes of `C` cut off. -/
def reap (v : World) (D C : List NodeId) : World :=
  { v with nodes := fun j => if j ∈ D then none else if j ∈ C then (v.nodes j).map cutNode else v.nodes j }

/-- Trees of ownership of height at most `k`. -/
def Tall (w : World) (ch : Children) : Nat → NodeId → Prop
  | 0, _ => False
  | k + 1, x => ∀ c ∈ owned w ch x, Tall w ch k c

/-! ## Facts -/

theorem cutNode_cutNode (n : Node) : cutNode (cutNode n) = cutNode n := by
  unfold cutNode
  cases n.pendingIn <;> cases n.owner <;> rfl

theorem reap_reap (v : World) (D C D' C' : List NodeId) : reap (reap v D C) D' C' = reap v (D ++ D') (C ++ C') := by
  simp only [reap, World.mk.injEq, and_true]
  funext j
  simp only [List.mem_append]
  by_cases h1 : j ∈ D' <;> by_cases h2 : j ∈ D <;> by_cases h3 : j ∈ C' <;> by_cases h4 : j ∈ C <;> simp [h1, h2, h3, h4]
  cases v.nodes j with
  | none => rfl
  | some n => simp [cutNode_cutNode]

theorem reap_nil (v : World) : reap v [] [] = v := by simp [reap]

theorem reap_other {D C : List NodeId} (h1 : j ∉ D) (h2 : j ∉ C) : (reap v D C).nodes j = v.nodes j := by simp [reap, h1, h2]

theorem owned_parent (hW : Core w ch) (hA : AttrOK w) (h : c ∈ owned w ch x) : ∃ cn, w.nodes c = some cn ∧ cn.parent = some x := by
  rcases List.mem_append.1 h with h | h
  · obtain ⟨an, h1, _, h3⟩ := (hA x).2.1 c h
    exact ⟨an, h1, h3⟩
  · obtain ⟨cn, h1, _, h3⟩ := hW.linked.alive_child h
    exact ⟨cn, h1, h3⟩

theorem owned_parentOf (hW : Core w ch) (hA : AttrOK w) (h : c ∈ owned w ch x) : ParentOf w c x := owned_parent hW hA h

theorem Sub.anc (hW : Core w ch) (hA : AttrOK w) (h : Sub w ch x j) : AncSelf w j x := by
  induction h with
  | refl => exact .refl
  | tail _ hc ih => exact .head (owned_parentOf hW hA hc) ih

theorem owned_nodup (hW : Core w ch) (hA : AttrOK w) (x : NodeId) : (owned w ch x).Nodup := by
  refine List.Nodup.append (hA x).1 ?_ ?_
  · cases hx : w.nodes x with
    | none => rw [hW.linked.dead x hx]; exact .nil
    | some n => exact (hW.linked.loc x n hx).nodup
  · intro a ha hc
    obtain ⟨an, h1, h2, _⟩ := (hA x).2.1 a ha
    obtain ⟨cn, h3, h4, _⟩ := hW.linked.alive_child hc
    rw [h1] at h3; cases h3; exact h4 h2

theorem parentOf_unique {a b : NodeId} (h1 : ParentOf w x a) (h2 : ParentOf w x b) : a = b := by
  obtain ⟨n, hn, ha⟩ := h1
  obtain ⟨m, hm, hb⟩ := h2
  rw [hn] at hm; cases hm; rw [ha] at hb; cases hb; rfl

/-- A node does not own itself. -/
theorem not_sub_owner (hW : Core w ch) (hA : AttrOK w) (h : c ∈ owned w ch x) : ¬ Sub w ch c x := by
  intro hs
  exact transGen_irrefl hW.wf c (Relation.TransGen.head' (owned_parentOf hW hA h) (hs.anc hW hA))

/-- What two owned nodes own is disjoint. -/
theorem sub_disjoint (hW : Core w ch) (hA : AttrOK w) {c' : NodeId} (h : c ∈ owned w ch x) (h' : c' ∈ owned w ch x) (hne : c ≠ c')
    (hj : Sub w ch c j) : ¬ Sub w ch c' j := by
  intro hj'
  have key : ∀ {a b : NodeId}, a ∈ owned w ch x → b ∈ owned w ch x → a ≠ b → ¬ AncSelf w a b := by
    intro a b ha hb hab h
    rcases Relation.ReflTransGen.cases_head h with rfl | ⟨z, hz, h2⟩
    · exact hab rfl
    · have := parentOf_unique hz (owned_parentOf hW hA ha)
      subst this
      exact transGen_irrefl hW.wf b (Relation.TransGen.head' (owned_parentOf hW hA hb) h2)
  rcases Relation.ReflTransGen.total_of_right_unique (r := ParentOf w) (fun _ _ _ h1 h2 => parentOf_unique h1 h2) (hj.anc hW hA) (hj'.anc hW hA) with h1 | h1
  · exact key h h' hne h1
  · exact key h' h (Ne.symm hne) h1

theorem doomed_sub : ∀ (k : Nat) (x : NodeId), j ∈ doomed w ch k x → Sub w ch x j := by
  intro k
  induction k with
  | zero => intro x h; cases h
  | succ k ih =>
    intro x h
    simp only [doomed, List.mem_cons, List.mem_flatMap] at h
    rcases h with rfl | ⟨c, hc, h⟩
    · exact .refl
    · by_cases hu : unheld w c = true
      · rw [if_pos hu] at h; exact .head hc (ih c h)
      · rw [if_neg hu] at h; cases h

theorem cuts_sub : ∀ (k : Nat) (x : NodeId), j ∈ cuts w ch k x → Sub w ch x j ∧ ¬ unheld w j = true := by
  intro k
  induction k with
  | zero => intro x h; cases h
  | succ k ih =>
    intro x h
    simp only [cuts, List.mem_flatMap] at h
    obtain ⟨c, hc, h⟩ := h
    by_cases hu : unheld w c = true
    · rw [if_pos hu] at h
      exact ⟨.head hc (ih c h).1, (ih c h).2⟩
    · rw [if_neg hu] at h
      simp at h; subst h
      exact ⟨.single hc, hu⟩

/-- What goes with the owned node `c`, and what is cut off. -/
def goes (w : World) (ch : Children) (k : Nat) (c : NodeId) : List NodeId := if unheld w c then doomed w ch k c else []
/-- See `goes`. -/
def left (w : World) (ch : Children) (k : Nat) (c : NodeId) : List NodeId := if unheld w c then cuts w ch k c else [c]

theorem goes_sub {k : Nat} (h : j ∈ goes w ch k c) : Sub w ch c j := by
  unfold goes at h
  by_cases hu : unheld w c = true
  · rw [if_pos hu] at h; exact doomed_sub k c h
  · rw [if_neg hu] at h; cases h

theorem left_sub {k : Nat} (h : j ∈ left w ch k c) : Sub w ch c j := by
  unfold left at h
  by_cases hu : unheld w c = true
  · rw [if_pos hu] at h; exact (cuts_sub k c h).1
  · rw [if_neg hu] at h; simp at h; subst h; exact .refl

theorem doomed_succ (k : Nat) (x : NodeId) : doomed w ch (k + 1) x = x :: (owned w ch x).flatMap (goes w ch k) := rfl
theorem cuts_succ (k : Nat) (x : NodeId) : cuts w ch (k + 1) x = (owned w ch x).flatMap (left w ch k) := rfl

/-! ## Runs -/

/-- The memory `v` has the tree below `x` as `w` has it. -/
def Agree (w : World) (ch : Children) (v : World) (x : NodeId) : Prop := ∀ j, Sub w ch x j → v.nodes j = w.nodes j

/-- The same without `x`. -/
def AgreeBelow (w : World) (ch : Children) (v : World) (x : NodeId) : Prop := ∀ j, Sub w ch x j → j ≠ x → v.nodes j = w.nodes j

/-- What `destroy` does, by height. -/
def Kills (w : World) (ch : Children) (k : Nat) (kill : NodeId → M Unit) : Prop := ∀ (x : NodeId) (v : World) (n n' : Node) (d : NodeId) (dn : Node),
  w.nodes x = some n → Tall w ch k x → n.type ≠ .document → n.type ≠ .fragment → v.nodes x = some n' → n'.type = n.type → n'.first = n.first →
  n'.attrs = n.attrs → n'.pendingIn = none → n.owner = some d → v.nodes d = some dn → AgreeBelow w ch v x → v.fresh = w.fresh →
  kill x v = .ok (reap v (doomed w ch k x) (cuts w ch k x)) ()

/-- What the code takes care of when it has cut an owned node off. -/
theorem tryDestroy_run {k : Nat} {kill : NodeId → M Unit} (hk : Kills w ch k kill) (hc : w.nodes c = some cn) (ht : Tall w ch k c)
    (h1 : cn.type ≠ .document) (h2 : cn.type ≠ .fragment) (hp : cn.pendingIn = none) (ho : cn.owner = some d) (hd : v.nodes d = some dn)
    (hdc : d ≠ c) (hA : Agree w ch v c) (hf : v.fresh = w.fresh) :
    tryDestroy kill c (v.upd c { cn with parent := none }) = .ok (reap v (goes w ch k c) (left w ch k c)) () := by
  have hv : v.nodes c = some cn := by rw [hA c .refl]; exact hc
  have hc' : (v.upd c { cn with parent := none }).nodes c = some { cn with parent := none } := by simp [World.upd]
  have hd' : (v.upd c { cn with parent := none }).nodes d = some dn := by rw [upd_ne _ _ hdc]; exact hd
  unfold tryDestroy
  rw [get_bind hc']
  simp only [Option.isNone_none, if_true]
  by_cases hr : cn.refcnt = 0
  · have hu : unheld w c = true := by simp [unheld, hc, hr]
    rw [if_pos hr]
    rw [hk c _ cn { cn with parent := none } d dn hc ht h1 h2 hc' rfl rfl rfl hp ho hd' (fun j hj hne => by rw [upd_ne _ _ hne]; exact hA j hj) hf]
    simp only [goes, left, hu, if_true]
    congr 1
    simp only [reap, World.mk.injEq, World.upd, and_true]
    funext j
    by_cases hj : j = c
    · subst hj
      have : j ∈ doomed w ch k j := by
        cases k with
        | zero => exact absurd ht id
        | succ k => simp [doomed]
      simp [this]
    · simp [hj]
  · have hu : ¬ unheld w c = true := by simp [unheld, hc, hr]
    rw [if_neg hr]
    have hder : deref cn.owner (v.upd c { cn with parent := none }) = .ok (v.upd c { cn with parent := none }) d := by rw [ho]; rfl
    rw [if_pos (show ({ cn with parent := none } : Node).pendingIn.isNone = true by show cn.pendingIn.isNone = true; rw [hp]; rfl)]
    rw [bind_ok hder, get_bind hd', modNode_run hc']
    simp only [goes, left, hu]
    congr 1
    simp only [reap, World.mk.injEq, World.upd, and_true]
    funext j
    by_cases hj : j = c
    · subst hj; simp [hv, cutNode, hp, ho]
    · simp [hj]

/-- What is needed of the nodes that a node owns. -/
structure Kids (w : World) (ch : Children) (k : Nat) (d : NodeId) (l : List NodeId) : Prop where
  nodup : l.Nodup
  disj : ∀ a ∈ l, ∀ b ∈ l, a ≠ b → ∀ j, Sub w ch a j → ¬ Sub w ch b j
  doc : ∀ a ∈ l, ¬ Sub w ch a d
  each : ∀ a ∈ l, ∃ an, w.nodes a = some an ∧ Tall w ch k a ∧ an.type ≠ .document ∧ an.type ≠ .fragment ∧ an.pendingIn = none ∧ an.owner = some d

theorem Kids.tail {k : Nat} {a : NodeId} {l : List NodeId} (h : Kids w ch k d (a :: l)) : Kids w ch k d l :=
  ⟨(List.nodup_cons.1 h.nodup).2, fun x hx y hy => h.disj x (List.mem_cons_of_mem _ hx) y (List.mem_cons_of_mem _ hy),
    fun x hx => h.doc x (List.mem_cons_of_mem _ hx), fun x hx => h.each x (List.mem_cons_of_mem _ hx)⟩

theorem Kids.agree {k : Nat} {a b : NodeId} {l : List NodeId} (h : Kids w ch k d (a :: l)) (hb : b ∈ l) (hA : Agree w ch v b) :
    Agree w ch (reap v (goes w ch k a) (left w ch k a)) b := by
  have hne : b ≠ a := by rintro rfl; exact (List.nodup_cons.1 h.nodup).1 hb
  intro j hj
  have := h.disj b (List.mem_cons_of_mem _ hb) a List.mem_cons_self hne j hj
  rw [reap_other (fun h => this (goes_sub h)) (fun h => this (left_sub h))]
  exact hA j hj

theorem Kids.docLives {k : Nat} {a : NodeId} {l : List NodeId} (h : Kids w ch k d (a :: l)) (hd : v.nodes d = some dn) :
    (reap v (goes w ch k a) (left w ch k a)).nodes d = some dn := by
  have := h.doc a List.mem_cons_self
  rw [reap_other (fun h => this (goes_sub h)) (fun h => this (left_sub h))]
  exact hd

theorem killLoop_run {k : Nat} {kill : NodeId → M Unit} (hk : Kills w ch k kill) : ∀ (l : List NodeId) (fuel : Nat) (v : World), Kids w ch k d l →
    (∀ a c b, l = a ++ c :: b → ∃ n, w.nodes c = some n ∧ n.next = b.head?) → l.length ≤ fuel → v.nodes d = some dn → (∀ a ∈ l, Agree w ch v a) →
    v.fresh = w.fresh → killLoop kill fuel l.head? v = .ok (reap v (l.flatMap (goes w ch k)) (l.flatMap (left w ch k))) () := by
  intro l
  induction l with
  | nil => intro fuel v _ _ _ _ _ _; cases fuel <;> simp [killLoop, pure_run, reap_nil]
  | cons a l ih =>
    intro fuel v hK hl hlen hd hA hf
    obtain ⟨an, e1, e2, e3, e4, e5, e6⟩ := hK.each a List.mem_cons_self
    have hv : v.nodes a = some an := by rw [hA a List.mem_cons_self a .refl]; exact e1
    obtain ⟨an', e1', e7⟩ := hl [] a l rfl
    rw [e1] at e1'; cases e1'
    cases fuel with
    | zero => simp at hlen
    | succ fuel =>
      have hda : d ≠ a := by rintro rfl; exact hK.doc d List.mem_cons_self .refl
      show (do let n ← getNode a; modNode a fun x => { x with parent := none }; tryDestroy kill a; killLoop kill fuel n.next : M Unit) v = _
      rw [get_bind hv, mod_bind hv]
      rw [bind_ok (tryDestroy_run hk e1 e2 e3 e4 e5 e6 hd hda (hA a List.mem_cons_self) hf), e7]
      rw [ih fuel _ hK.tail (fun x c b hb => hl (a :: x) c b (by rw [hb]; rfl)) (by simpa using hlen) (hK.docLives hd)
        (fun b hb => hK.agree hb (hA b (List.mem_cons_of_mem _ hb))) hf, reap_reap]
      rfl

theorem attrKillLoop_run {k : Nat} {kill : NodeId → M Unit} (hk : Kills w ch k kill) : ∀ (es : List AttrEntry) (v : World) (xn : Node),
    Kids w ch k d (es.map AttrEntry.node) → (∀ e ∈ es, ∃ n, w.nodes e.node = some n ∧ n.parent = some x) → (∀ e ∈ es, ¬ Sub w ch e.node x) →
    v.nodes d = some dn → v.nodes x = some xn → (∀ e ∈ es, Agree w ch v e.node) → v.fresh = w.fresh →
    attrKillLoop kill es v = .ok (reap v ((es.map AttrEntry.node).flatMap (goes w ch k)) ((es.map AttrEntry.node).flatMap (left w ch k))) () := by
  intro es
  induction es with
  | nil => intro v xn _ _ _ _ _ _ _; simp [attrKillLoop, pure_run, reap_nil]
  | cons e es ih =>
    intro v xn hK hpar hns hd hx hA hf
    obtain ⟨an, e1, e2, e3, e4, e5, e6⟩ := hK.each e.node List.mem_cons_self
    have hv : v.nodes e.node = some an := by rw [hA e List.mem_cons_self e.node .refl]; exact e1
    have hda : d ≠ e.node := by rintro rfl; exact hK.doc _ List.mem_cons_self .refl
    have hap : an.parent = some x := by
      obtain ⟨n, h1, h2⟩ := hpar e List.mem_cons_self
      rw [e1] at h1; cases h1; exact h2
    have hrun : attrKill kill e v = .ok (reap v (goes w ch k e.node) (left w ch k e.node)) () := by
      unfold attrKill
      rw [get_bind hv, e6, deref_bind, get_bind hd]
      have hif : (if e.ns.isNone ∧ e.name.data = (Names.lit "class").data then do
          let p ← deref an.parent
          let _ ← getNode p
          pure ()
        else pure () : M Unit) v = .ok v () := by
        by_cases hcls : e.ns.isNone ∧ e.name.data = (Names.lit "class").data
        · rw [if_pos hcls, hap, deref_bind, get_bind hx]; rfl
        · rw [if_neg hcls]; rfl
      rw [bind_ok hif, mod_bind hv]
      exact tryDestroy_run hk e1 e2 e3 e4 e5 e6 hd hda (hA e List.mem_cons_self) hf
    show (do attrKill kill e; attrKillLoop kill es : M Unit) v = _
    rw [bind_ok hrun]
    have hns' := hns e List.mem_cons_self
    rw [ih _ xn hK.tail (fun e' he' => hpar e' (List.mem_cons_of_mem _ he')) (fun e' he' => hns e' (List.mem_cons_of_mem _ he')) (hK.docLives hd)
      (by rw [reap_other (fun h => hns' (goes_sub h)) (fun h => hns' (left_sub h))]; exact hx)
      (fun e' he' => hK.agree (List.mem_map_of_mem he') (hA e' (List.mem_cons_of_mem _ he'))) hf, reap_reap]
    rfl

/-! ## Destroying a subtree -/

theorem owned_type (hW : Core w ch) (hA : AttrOK w) (h : c ∈ owned w ch x) (hc : w.nodes c = some cn) : cn.type ≠ .document ∧ cn.type ≠ .fragment := by
  rcases List.mem_append.1 h with h | h
  · obtain ⟨an, h1, h2, _⟩ := (hA x).2.1 c h
    rw [hc] at h1; cases h1
    simp [h2]
  · cases hx : w.nodes x with
    | none => rw [hW.linked.dead x hx] at h; cases h
    | some n =>
      have := hW.types x n c cn hx h hc
      revert this
      cases hct : cn.type <;> intro hm <;> first
        | exact ⟨by decide, by decide⟩
        | (exfalso; generalize n.type = pt at hm; cases hm <;> simp_all)

theorem owned_owner (hW : Core w ch) (hA : AttrOK w) (h : c ∈ owned w ch x) (hx : w.nodes x = some n) (hc : w.nodes c = some cn) : cn.owner = n.owner := by
  obtain ⟨cn', h1, h2⟩ := owned_parent hW hA h
  rw [hc] at h1; cases h1
  exact hW.ownSame c cn x n hc h2 hx

theorem not_sub_doc (hW : Core w ch) (hA : AttrOK w) (h : c ∈ owned w ch x) (hd : w.nodes d = some dn) (hdt : dn.type = .document) : ¬ Sub w ch c d := by
  intro hs
  rcases Relation.ReflTransGen.cases_tail hs with rfl | ⟨z, _, hz⟩
  · exact (owned_type hW hA h hd).1 hdt
  · exact (owned_type hW hA hz hd).1 hdt

theorem owned_kids (hW : WF w ch) (hA : AttrOK w) {k : Nat} (hx : w.nodes x = some n) (ht : Tall w ch (k + 1) x) (ho : n.owner = some d)
    (hd : w.nodes d = some dn) (hdt : dn.type = .document) : Kids w ch k d (owned w ch x) := by
  refine ⟨owned_nodup hW.toCore hA x, fun a ha b hb hne j hj => sub_disjoint hW.toCore hA ha hb hne hj, fun a ha => not_sub_doc hW.toCore hA ha hd hdt,
    fun a ha => ?_⟩
  obtain ⟨an, h1, h2⟩ := owned_parent hW.toCore hA ha
  obtain ⟨h3, h4⟩ := owned_type hW.toCore hA ha h1
  refine ⟨an, h1, ht a ha, h3, h4, ?_, by rw [owned_owner hW.toCore hA ha hx h1]; exact ho⟩
  rcases hW.pending a an h1 with h | ⟨h, _⟩
  · rw [h, h2]; simp
  · exact absurd h h4

theorem Kids.sub {k : Nat} {l l' : List NodeId} (h : Kids w ch k d l) (hs : l'.Sublist l) : Kids w ch k d l' :=
  ⟨h.nodup.sublist hs, fun a ha b hb => h.disj a (hs.subset ha) b (hs.subset hb), fun a ha => h.doc a (hs.subset ha),
    fun a ha => h.each a (hs.subset ha)⟩

/-- What `finalise` leaves of a node. -/
def emptied (n : Node) : Node :=
  { n with name := none, value := none, ns := none, pfx := none, parent := none, first := none, last := none, prev := none, next := none }

/-- The end of `finalise`: the node leaves the pending list. -/
def leavePending (kill : NodeId → M Unit) (x : NodeId) (n : Node) : M Unit :=
  match n.pendingIn with
  | none => pure ()
  | some _ => do
      modNode x fun n => { n with pendingIn := none }
      match n.owner with
      | none => pure ()
      | some d => if n.type ≠ .document then docTryDestroy kill d else pure ()

/-- `finalise` up to the pending list. -/
theorem finalise_run (hW : Core w ch) {k : Nat} {kill : NodeId → M Unit} (hk : Kills w ch k kill) (hx : w.nodes x = some n) {n' : Node}
    (hK : Kids w ch k d (ch x)) (hxs : ∀ c ∈ ch x, ¬ Sub w ch c x) (hv : v.nodes x = some n') (hfst : n'.first = n.first) (hd : v.nodes d = some dn)
    (hA : ∀ a ∈ ch x, Agree w ch v a) (hf : v.fresh = w.fresh) :
    finalise kill x v = leavePending kill x (emptied n')
      ((reap v ((ch x).flatMap (goes w ch k)) ((ch x).flatMap (left w ch k))).upd x (emptied n')) := by
  obtain ⟨m, hm, h1, _⟩ := (hW.linked.loc x n hx).ends
  rw [hx] at hm; cases hm
  unfold finalise
  rw [get_bind hv, bound_bind, hfst, h1]
  have hrun := killLoop_run hk (ch x) (v.fresh + 1) v hK (fun a c b h => by
      obtain ⟨cn, g1, _, _, _, g2⟩ := (hW.linked.loc x n hx).kids a c b h
      exact ⟨cn, g1, g2⟩)
    (by rw [hf]; exact Nat.le_succ_of_le (child_length_le hW x)) hd hA hf
  rw [bind_ok hrun]
  have hx1 : (reap v ((ch x).flatMap (goes w ch k)) ((ch x).flatMap (left w ch k))).nodes x = some n' := by
    rw [reap_other, hv]
    · intro h
      obtain ⟨c, hc, h⟩ := List.mem_flatMap.1 h
      exact hxs c hc (goes_sub h)
    · intro h
      obtain ⟨c, hc, h⟩ := List.mem_flatMap.1 h
      exact hxs c hc (left_sub h)
  rw [mod_bind hx1]
  have hx2 : ((reap v ((ch x).flatMap (goes w ch k)) ((ch x).flatMap (left w ch k))).upd x (emptied n')).nodes x = some (emptied n') := by simp [World.upd]
  exact get_bind hx2 _

theorem freeNode_run (h : v.nodes x = some n) : freeNode x v = .ok { v with nodes := fun j => if j = x then none else v.nodes j } () := by
  unfold freeNode; rw [h]

/-- What is left of a node before it is freed. -/
def husk (n : Node) : Node := emptied (if n.type = .element then { n with attrs := [] } else n)

theorem husk_eq (n : Node) : (husk n).type = n.type ∧ (husk n).pendingIn = n.pendingIn ∧ (husk n).owner = n.owner ∧ (husk n).host = n.host ∧
    (husk n).parent = none := by
  unfold husk emptied
  by_cases h : n.type = .element <;> simp [h]

/-- Destroying a node: first all that it owns, then the node leaves the pending list, then it is freed. -/
theorem body_run (hW : WF w ch) (hA : AttrOK w) {k : Nat} {kill : NodeId → M Unit} (hk : Kills w ch k kill) {x : NodeId} {v : World} {n n' : Node}
    {d : NodeId} {dn : Node} (hx : w.nodes x = some n) (ht : Tall w ch (k + 1) x) (hnd : n.type ≠ .document)
    (hv : v.nodes x = some n') (e1 : n'.type = n.type) (e2 : n'.first = n.first) (e3 : n'.attrs = n.attrs) (ho : n.owner = some d)
    (hd : v.nodes d = some dn) (hag : AgreeBelow w ch v x) (hf : v.fresh = w.fresh) {u : World} {m : Node}
    (hlp : leavePending kill x (husk n') ((reap v ((owned w ch x).flatMap (goes w ch k)) ((owned w ch x).flatMap (left w ch k))).upd x (husk n')) =
      .ok u ()) (hux : u.nodes x = some m) (hmh : n.type = .fragment → m.host = none) :
    destroyBody kill x v = .ok { u with nodes := fun j => if j = x then none else u.nodes j } () := by
  obtain ⟨d', dn', o1, o2, o3⟩ | ⟨_, o1, _⟩ := hW.owner x n hx
  rotate_left
  · rw [ho] at o1; cases o1
  rw [ho] at o1; cases o1
  have hK := owned_kids hW hA hx ht ho o2 o3
  have hagree : ∀ a ∈ owned w ch x, Agree w ch v a := by
    intro a ha j hj
    refine hag j (.head ha hj) ?_
    rintro rfl
    exact not_sub_owner hW.toCore hA ha hj
  have hxs : ∀ c ∈ owned w ch x, ¬ Sub w ch c x := fun c hc => not_sub_owner hW.toCore hA hc
  unfold destroyBody
  rw [get_bind hv]
  by_cases hel : n.type = .element
  · simp only [e1, hel]
    have hat : attrNodes w x = n.attrs.map AttrEntry.node := by simp [attrNodes, hx, hel]
    have hmem : ∀ e ∈ n.attrs, e.node ∈ owned w ch x := fun e he => List.mem_append_left _ (by rw [hat]; exact List.mem_map_of_mem he)
    rw [e3]
    have h1 := attrKillLoop_run hk n.attrs v n' (hK.sub (by rw [← hat]; exact List.sublist_append_left _ _))
      (fun e he => owned_parent hW.toCore hA (hmem e he)) (fun e he => hxs _ (hmem e he)) hd hv (fun e he => hagree _ (hmem e he)) hf
    rw [← hat] at h1
    rw [bind_ok h1]
    have hx1 : ∀ j, (∀ c ∈ attrNodes w x, ¬ Sub w ch c j) →
        (reap v ((attrNodes w x).flatMap (goes w ch k)) ((attrNodes w x).flatMap (left w ch k))).nodes j = v.nodes j := by
      intro j h
      refine reap_other ?_ ?_
      · intro hm
        obtain ⟨c, hc, hm⟩ := List.mem_flatMap.1 hm
        exact h c hc (goes_sub hm)
      · intro hm
        obtain ⟨c, hc, hm⟩ := List.mem_flatMap.1 hm
        exact h c hc (left_sub hm)
    have hx2 := (hx1 x fun c hc => hxs c (List.mem_append_left _ hc)).trans hv
    rw [mod_bind hx2]
    have hxd : d ≠ x := by
      rintro rfl
      rw [hx] at o2; cases o2; exact hnd o3
    have hrun := finalise_run (v := (reap v ((attrNodes w x).flatMap (goes w ch k)) ((attrNodes w x).flatMap (left w ch k))).upd x { n' with attrs := [] })
      (n' := { n' with attrs := [] }) hW.toCore hk hx (hK.sub (List.sublist_append_right _ _)) (fun c hc => hxs c (List.mem_append_right _ hc))
      (by simp [World.upd]) e2 (by
        rw [upd_ne _ _ hxd, hx1 d fun c hc => hK.doc c (List.mem_append_left _ hc)]; exact hd)
      (by
        intro a ha j hj
        have hjx : j ≠ x := by rintro rfl; exact hxs a (List.mem_append_right _ ha) hj
        rw [upd_ne _ _ hjx, hx1 j fun c hc hcj => ?_]
        · exact hagree a (List.mem_append_right _ ha) j hj
        · have hne : c ≠ a := by
            rintro rfl
            exact (List.disjoint_of_nodup_append hK.nodup) hc ha
          exact hK.disj c (List.mem_append_left _ hc) a (List.mem_append_right _ ha) hne j hcj hj) hf
    have heq : ((reap ((reap v ((attrNodes w x).flatMap (goes w ch k)) ((attrNodes w x).flatMap (left w ch k))).upd x { n' with attrs := [] })
        ((ch x).flatMap (goes w ch k)) ((ch x).flatMap (left w ch k))).upd x (emptied { n' with attrs := [] })) =
        (reap v ((owned w ch x).flatMap (goes w ch k)) ((owned w ch x).flatMap (left w ch k))).upd x (husk n') := by
      rw [owned, List.flatMap_append, List.flatMap_append]
      simp only [reap, World.upd, World.mk.injEq, and_true]
      funext j
      by_cases hj : j = x
      · simp [hj, husk, e1, hel]
      · simp only [hj, if_false, List.mem_append]
        by_cases h1 : j ∈ (attrNodes w x).flatMap (goes w ch k) <;> by_cases h2 : j ∈ (ch x).flatMap (goes w ch k) <;>
          by_cases h3 : j ∈ (attrNodes w x).flatMap (left w ch k) <;> by_cases h4 : j ∈ (ch x).flatMap (left w ch k) <;> simp [h1, h2, h3, h4]
        cases v.nodes j with
        | none => rfl
        | some n => simp [cutNode_cutNode]
    rw [heq] at hrun
    have hh : husk n' = emptied { n' with attrs := [] } := by simp [husk, e1, hel]
    rw [← hh] at hrun
    rw [bind_ok (hrun.trans hlp), freeNode_run hux]
  · have hat : attrNodes w x = [] := by simp [attrNodes, hx, hel]
    have how : owned w ch x = ch x := by simp [owned, hat]
    rw [how] at hlp
    have hh : husk n' = emptied n' := by simp [husk, e1, hel]
    rw [hh] at hlp
    have hrun := finalise_run hW.toCore hk hx (hK.sub (List.sublist_append_right _ _)) (fun c hc => hxs c (List.mem_append_right _ hc)) hv e2 hd
      (fun a ha => hagree a (by rw [how]; exact ha)) hf
    have hmain : (finalise kill x >>= fun _ => freeNode x) v = .ok { u with nodes := fun j => if j = x then none else u.nodes j } () := by
      rw [bind_ok (hrun.trans hlp), freeNode_run hux]
    rw [e1]
    cases hty : n.type <;> first | exact absurd hty hel | exact absurd hty hnd | exact hmain | skip
    show (finalise kill x >>= fun _ => getNode x >>= fun n => _) v = _
    rw [bind_ok (hrun.trans hlp), get_bind hux, hmh hty]
    exact freeNode_run hux

/-- Destroying a node that is in no pending list. -/
theorem kills_succ (hW : WF w ch) (hA : AttrOK w) {k : Nat} {kill : NodeId → M Unit} (hk : Kills w ch k kill) : Kills w ch (k + 1) (destroyBody kill) := by
  intro x v n n' d dn hx ht hnd hnf hv e1 e2 e3 e4 ho hd hag hf
  rw [body_run hW hA hk hx ht hnd hv e1 e2 e3 ho hd hag hf (u := (reap v ((owned w ch x).flatMap (goes w ch k))
    ((owned w ch x).flatMap (left w ch k))).upd x (husk n')) (m := husk n') (by
      unfold leavePending
      rw [(husk_eq n').2.1, e4]; rfl) (by simp [World.upd]) (fun h => absurd h hnf)]
  rw [doomed_succ, cuts_succ]
  congr 1
  simp only [reap, World.upd, World.mk.injEq, and_true]
  funext j
  by_cases hj : j = x <;> simp [hj]

theorem kills_destroy (hW : WF w ch) (hA : AttrOK w) : ∀ k, Kills w ch k (destroy k) := by
  intro k
  induction k with
  | zero => intro x v n n' d dn _ ht; exact absurd ht id
  | succ k ih => exact kills_succ hW hA ih

end Dom.Tree
