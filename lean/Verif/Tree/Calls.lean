import Verif.Tree.Create
/-!
# Sequences of calls

The states that clients can reach by creating nodes and changing the tree.
-/
namespace Dom.Tree
set_option linter.unusedSimpArgs false

/-- The calls that build and change the tree, with arbitrary arguments. -/
inductive Call
  | createDocument
  | createNode (doc : NodeId) (t : NodeType) (name value : Option Str.DStr)
  | createDoctype (name : Option Str.DStr)
  | insertBefore (p new : NodeId) (r : Option NodeId)
  | appendChild (p new : NodeId)
  | replaceChild (p new old : NodeId)
  | removeChild (p old : NodeId)

/-- Run a call (the functions are those of Verif/Tree/Model.lean). -/
def Call.run : Call → M NodeId
  | .createDocument => Tree.createDocument
  | .createNode d t n v => Tree.createNode d t n v
  | .createDoctype n => Tree.createDoctype n
  | .insertBefore p new r => Tree.insertBefore p new r
  | .appendChild p new => Tree.appendChild p new
  | .replaceChild p new old => Tree.replaceChild p new old
  | .removeChild p old => Tree.removeChild p old

/-- The memory after a call that returned, with or without an exception. -/
def Res.world {α : Type} : Res α → Option World
  | .ok w _ => some w
  | .exc w _ => some w
  | .fault _ => none

def Live (w : World) (i : NodeId) : Prop := ∃ n, w.nodes i = some n

/-- `c` is a live node and not an attribute of `p`. -/
def NotAttrOf (w : World) (p c : NodeId) : Prop :=
  ∃ n, w.nodes c = some n ∧ (n.type = .attribute → n.parent ≠ some p)

/-- The arguments are live nodes, and the call is none of the two that corrupt the child list: an attribute of `p`
given as the child of `p` to insert before, replace or remove; an empty DocumentFragment given to replace a node
that has siblings. -/
def Call.Ok (w : World) : Call → Prop
  | .createDocument => True
  | .createNode d t _ _ => IsType w d .document ∧ t ≠ .document
  | .createDoctype _ => True
  | .insertBefore p new r => Live w p ∧ Live w new ∧ ∀ c, r = some c → NotAttrOf w p c
  | .appendChild p new => Live w p ∧ Live w new
  | .replaceChild p new old => Live w p ∧ Live w new ∧ NotAttrOf w p old ∧
      (∀ n o, w.nodes new = some n → w.nodes old = some o → n.type = .fragment → n.first = none →
        o.prev = none ∧ o.next = none)
  | .removeChild p old => Live w p ∧ NotAttrOf w p old

/-- A DocumentFragment given to a Document has at most one Element child. -/
def Call.Ok1 (w : World) : Call → Prop
  | .insertBefore p new _ | .appendChild p new | .replaceChild p new _ =>
      IsType w p .document → IsType w new .fragment →
      ∀ x y xn yn, w.nodes x = some xn → w.nodes y = some yn → xn.parent = some new → yn.parent = some new →
        xn.type = .element → yn.type = .element → x = y
  | _ => True

/-- The states reachable by sequences of calls that satisfy `P`, from the empty memory. -/
inductive Reach (P : World → Call → Prop) : World → Prop
  | start : Reach P World.empty
  | call {w w' : World} (c : Call) : Reach P w → P w c → (c.run w).world = some w' → Reach P w'

theorem Reach.mono {P Q : World → Call → Prop} (h : ∀ w c, P w c → Q w c) {w : World} (hr : Reach P w) : Reach Q w := by
  induction hr with
  | start => exact .start
  | call c _ hp hc ih => exact .call c ih (h _ _ hp) hc

/-- Every Document has at most one Element and one DocumentType child. -/
def OneEach (w : World) (ch : Children) : Prop :=
  ∀ p pn, w.nodes p = some pn → pn.type = .document →
    ∀ x ∈ ch p, ∀ y ∈ ch p, ∀ xn yn, w.nodes x = some xn → w.nodes y = some yn →
      (xn.type = .element ∨ xn.type = .doctype) → xn.type = yn.type → x = y

variable {w : World} {ch : Children}

theorem WF_unpend (hW : WF w ch) {x : NodeId} {n : Node} (hx : w.nodes x = some n) (hf : n.type = .fragment) :
    WF (w.mp (unpend x) []) ch := by
  refine ⟨hW.toCore.mp_same [] (fun _ _ => rfl) (fun _ _ => rfl) (fun _ _ => rfl), ?_⟩
  intro i m hm
  obtain ⟨k, hk, rfl⟩ := mp_some_iff.1 hm
  by_cases hi : i = x
  · subst hi; rw [hx] at hk; cases hk
    right; simp [unpend, hf]
  · simpa [unpend, hi] using hW.pending i k hk

/-- What an insertion that returns does, in every case. -/
theorem insertBefore_total (hW : WF w ch) {p new : NodeId} {pn nn : Node} {r : Option NodeId} (hp : w.nodes p = some pn)
    (hx : w.nodes new = some nn)
    (hr : ∀ c, r = some c → NotAttrOf w p c) :
    (∃ e, insertBefore p new r w = .exc w e) ∨
    (r = some new ∧ insertBefore p new r w =
      .ok (w.mp (fun j n => { n with refcnt := if j = new then u32 (n.refcnt + 1) else n.refcnt }) []) new) ∨
    (∃ w' ch', insertBefore p new r w = .ok w' new ∧ Inserted w ch p new nn pn r w' ch' ∧
      (∀ c ∈ moved ch new nn, Permitted w ch p c)) ∨
    (nn.type = .fragment ∧ insertBefore p new r w = .exc (w.mp (unpend new) []) .hierarchyRequest) ∨
    (nn.type = .fragment ∧ nn.pendingIn = none ∧ insertBefore p new r w = .fault .assertFail) := by
  cases he : insertRefusal w ch p new nn pn r with
  | some e => exact .inl ⟨e, insertBefore_refused hW hp hx hr he⟩
  | none =>
    right
    by_cases hrn : r = some new
    · subst hrn
      left
      refine ⟨rfl, insertBefore_nop hW hp hx ?_ he⟩
      obtain ⟨n, hn, h⟩ := hr new rfl
      rw [hx] at hn; cases hn; exact h
    · by_cases hf : nn.type = .fragment
      · by_cases hpend : nn.pendingIn = none
        · exact .inr (.inr (.inr ⟨hf, hpend, insertBefore_fragment_fault hW hp hx hr hf hpend he⟩))
        · by_cases hperm : ∀ c ∈ ch new, Permitted w ch p c
          · obtain ⟨w', ch', h1, h2⟩ := insertBefore_fragment hW hp hx hr hf hpend hperm he
            exact .inr (.inl ⟨w', ch', h1, h2, by simpa [moved, hf] using hperm⟩)
          · exact .inr (.inr (.inl ⟨hf, insertBefore_fragment_bad hW hp hx hr hf hpend hperm he⟩))
      · obtain ⟨w', ch', h1, h2⟩ := insertBefore_node hW hp hx hr hf hrn he
        refine .inr (.inl ⟨w', ch', h1, h2, ?_⟩)
        rcases insertBefore_checks hW hp hx hr with ⟨e', he', h⟩ | ⟨h, c1, c2, c3, c4, c5, href⟩
        · rw [he] at he'; simp at he'
        · simpa [moved, hf] using c5 hf

/-- What a replacement that returns does, in every case but that of an empty fragment for a node with siblings. -/
theorem replaceChild_total (hW : WF w ch) {p new old : NodeId} {pn nn on : Node} (hp : w.nodes p = some pn)
    (hx : w.nodes new = some nn) (ho : w.nodes old = some on) (hna : on.type = .attribute → on.parent ≠ some p)
    (hempty : nn.type = .fragment → nn.first = none → on.prev = none ∧ on.next = none) :
    (∃ e, replaceChild p new old w = .exc w e) ∨
    (new = old ∧ replaceChild p new old w =
      .ok (w.mp (fun j n => { n with refcnt := if j = old then u32 (n.refcnt + 1) else n.refcnt }) []) old) ∨
    (∃ w' ch', replaceChild p new old w = .ok w' old ∧ Replaced w ch p new old nn w' ch' ∧
      (∀ c ∈ moved ch new nn, Permitted w ch p c)) ∨
    (nn.type = .fragment ∧ nn.pendingIn = none ∧ replaceChild p new old w = .fault .assertFail) := by
  cases he : replaceRefusal w ch p new old nn pn with
  | some e => exact .inl ⟨e, replaceChild_refused hW hp hx ho hna he⟩
  | none =>
    right
    by_cases hno : new = old
    · subst hno
      rw [hx] at ho; cases ho
      exact .inl ⟨rfl, replaceChild_nop hW hp hx hna he⟩
    · rcases replaceChild_checks hW hp hx ho hna with ⟨e', he', h⟩ | ⟨h, c0, c1, c2, c3, c4, c5, href⟩
      · rw [he] at he'; simp at he'
      by_cases hf : nn.type = .fragment
      · by_cases hpend : nn.pendingIn = none
        · exact .inr (.inr ⟨hf, hpend, replaceChild_fragment_fault hW hp hx ho hna hf hpend he⟩)
        · by_cases hch : ch new = []
          · obtain ⟨n', hn', hfirst, _⟩ := (hW.linked.loc new nn hx).ends
            rw [hx] at hn'; cases hn'
            rw [hch] at hfirst
            obtain ⟨hp1, hn1⟩ := hempty hf hfirst
            obtain ⟨a, b, hab⟩ := List.append_of_mem c3
            obtain ⟨o', ho', _, _, h1, h2⟩ := (hW.linked.loc p pn hp).kids a old b hab
            rw [ho] at ho'; cases ho'
            rw [hp1] at h1; rw [hn1] at h2
            have ha : a = [] := by simpa using h1.symm
            have hb : b = [] := by simpa using h2.symm
            obtain ⟨w', ch', h3, h4⟩ := replaceChild_empty hW hp hx ho hna hf hch (by rw [hab, ha, hb]; rfl) hpend he
            exact .inr (.inl ⟨w', ch', h3, h4, c5⟩)
          · obtain ⟨w', ch', h3, h4⟩ := replaceChild_ok hW hp hx ho hna hno (by simpa [moved, hf] using hch)
              (fun _ => hpend) he
            exact .inr (.inl ⟨w', ch', h3, h4, c5⟩)
      · obtain ⟨w', ch', h3, h4⟩ := replaceChild_ok hW hp hx ho hna hno (by simp [moved, hf])
          (fun h => absurd h hf) he
        exact .inr (.inl ⟨w', ch', h3, h4, c5⟩)

theorem WF_addLog (hW : WF w ch) (l) : WF (w.mp (fun _ n => n) l) ch :=
  hW.mp_same l (fun _ _ => rfl) (fun _ _ => rfl) (fun _ _ => rfl) (fun _ _ => rfl)

/-- Every call keeps the invariant. -/
theorem call_wf (hW : WF w ch) {c : Call} (hok : c.Ok w) {w' : World} (h : (c.run w).world = some w') :
    ∃ ch', WF w' ch' := by
  have hins : ∀ {p new : NodeId} {r : Option NodeId}, Live w p → Live w new → (∀ c, r = some c → NotAttrOf w p c) →
      (insertBefore p new r w).world = some w' → ∃ ch', WF w' ch' := by
    rintro p new r ⟨pn, hp⟩ ⟨nn, hx⟩ hr h
    rcases insertBefore_total hW hp hx hr with ⟨e, h1⟩ | ⟨_, h1⟩ | ⟨w1, ch1, h1, h2, _⟩ | ⟨hf, h1⟩ | ⟨_, _, h1⟩
    · rw [h1] at h; cases h; exact ⟨ch, hW⟩
    · rw [h1] at h; cases h; exact ⟨ch, WF_ref hW new⟩
    · rw [h1] at h; cases h; exact ⟨ch1, h2.wf⟩
    · rw [h1] at h; cases h; exact ⟨ch, WF_unpend hW hx hf⟩
    · rw [h1] at h; cases h
  cases c with
  | createDocument =>
    simp only [Call.run, createDocument_run, Res.world, Option.some.injEq] at h
    exact ⟨ch, h ▸ WF_createDocument hW⟩
  | createNode d t n v =>
    obtain ⟨⟨dn, hd, hdt⟩, ht⟩ := hok
    simp only [Call.run, createNode_run hW.toCore hd, Res.world, Option.some.injEq] at h
    exact ⟨ch, h ▸ WF_createNode hW hd hdt ht n v⟩
  | createDoctype n =>
    simp only [Call.run, createDoctype_run, Res.world, Option.some.injEq] at h
    exact ⟨ch, h ▸ WF_createDoctype hW n⟩
  | insertBefore p new r => exact hins hok.1 hok.2.1 hok.2.2 h
  | appendChild p new => exact hins hok.1 hok.2 (by simp) h
  | replaceChild p new old =>
    obtain ⟨⟨pn, hp⟩, ⟨nn, hx⟩, ⟨on, ho, hna⟩, hempty⟩ := hok
    rcases replaceChild_total hW hp hx ho hna (fun h1 h2 => hempty nn on hx ho h1 h2) with
      ⟨e, h1⟩ | ⟨_, h1⟩ | ⟨w1, ch1, h1, h2, _⟩ | ⟨_, _, h1⟩
    · simp only [Call.run, h1, Res.world, Option.some.injEq] at h; exact ⟨ch, h ▸ hW⟩
    · simp only [Call.run, h1, Res.world, Option.some.injEq] at h; exact ⟨ch, h ▸ WF_ref hW old⟩
    · simp only [Call.run, h1, Res.world, Option.some.injEq] at h; exact ⟨ch1, h ▸ h2.wf⟩
    · simp [Call.run, h1, Res.world] at h
  | removeChild p old =>
    obtain ⟨⟨pn, hp⟩, ⟨on, ho, hna⟩⟩ := hok
    cases he : removeRefusal w ch p old pn on with
    | some e =>
      simp only [Call.run, removeChild_refused hW hp ho hna he, Res.world, Option.some.injEq] at h
      exact ⟨ch, h ▸ hW⟩
    | none =>
      obtain ⟨w1, ch1, h1, h2⟩ := removeChild_ok hW hp ho hna he
      simp only [Call.run, h1, Res.world, Option.some.injEq] at h
      exact ⟨ch1, h ▸ h2.wf⟩

theorem Reach.wf {P : World → Call → Prop} (hP : ∀ w c, P w c → c.Ok w) (hr : Reach P w) : ∃ ch, WF w ch := by
  induction hr with
  | start => exact ⟨_, WF_empty⟩
  | call c _ hp hc ih =>
    obtain ⟨ch, hW⟩ := ih
    exact call_wf hW (hP _ _ hp) hc

/-- The child lists are determined by the memory. -/
theorem WF.unique {ch ch' : Children} (h : WF w ch) (h' : WF w ch') : ch = ch' := by
  have step : ∀ (n : Nat) (l l' : List NodeId) (p : NodeId) (pre : List NodeId),
      l.length ≤ n → ch p = pre ++ l → ch' p = pre ++ l' → l.head? = l'.head? → l = l' := by
    intro n
    induction n with
    | zero =>
      intro l l' p pre hl _ _ hh
      have : l = [] := by simpa using hl
      subst this
      cases l' with
      | nil => rfl
      | cons => simp at hh
    | succ n ih =>
      intro l l' p pre hl h1 h2 hh
      cases l with
      | nil =>
        cases l' with
        | nil => rfl
        | cons => simp at hh
      | cons x l =>
        cases l' with
        | nil => simp at hh
        | cons y l' =>
          simp only [List.head?_cons, Option.some.injEq] at hh
          subst hh
          congr 1
          have hx : x ∈ ch p := by simp [h1]
          obtain ⟨xn, hxn, _, hpar⟩ := h.linked.alive_child hx
          obtain ⟨pn, hpn⟩ := h.linked.alive_parent hxn hpar
          obtain ⟨n1, hn1, _, _, _, e1⟩ := (h.linked.loc p pn hpn).kids pre x l h1
          obtain ⟨n2, hn2, _, _, _, e2⟩ := (h'.linked.loc p pn hpn).kids pre x l' h2
          rw [hn1] at hn2; cases hn2
          refine ih l l' p (pre ++ [x]) (by simpa using hl) (by simp [h1]) (by simp [h2]) ?_
          rw [← e1, ← e2]
  funext p
  cases hp : w.nodes p with
  | none => rw [h.linked.dead p hp, h'.linked.dead p hp]
  | some pn =>
    obtain ⟨n1, hn1, e1, _⟩ := (h.linked.loc p pn hp).ends
    obtain ⟨n2, hn2, e2, _⟩ := (h'.linked.loc p pn hp).ends
    rw [hn1] at hn2; cases hn2
    exact step _ _ _ p [] (Nat.le_refl _) rfl rfl (by rw [← e1, ← e2])

theorem types_of_data {w' : World} (h : ∀ j, (w'.nodes j).map Node.data = (w.nodes j).map Node.data) {j : NodeId}
    {n' : Node} (hn : w'.nodes j = some n') : ∃ n, w.nodes j = some n ∧ n.type = n'.type := by
  have := h j
  rw [hn] at this
  cases hj : w.nodes j with
  | none => rw [hj] at this; simp at this
  | some n =>
    rw [hj] at this
    simp only [Option.map_some, Option.some.injEq] at this
    exact ⟨n, rfl, (Node.data_type this).symm⟩

/-- The uniqueness of the Document's children survives when the children of one node `p` become a selection of its
old children and of nodes permitted below it, and all other child lists only lose nodes. -/
theorem OneEach.step {w' : World} {ch' : Children} (h1 : OneEach w ch)
    (hd : ∀ j, (w'.nodes j).map Node.data = (w.nodes j).map Node.data) {p : NodeId} {mv : List NodeId}
    (hp : ∀ x ∈ ch' p, x ∈ ch p ∨ x ∈ mv) (hq : ∀ q, q ≠ p → ∀ x ∈ ch' q, x ∈ ch q)
    (hperm : ∀ c ∈ mv, Permitted w ch p c)
    (hone : IsType w p .document → ∀ x ∈ mv, ∀ y ∈ mv, ∀ xn yn, w.nodes x = some xn → w.nodes y = some yn →
      (xn.type = .element ∨ xn.type = .doctype) → xn.type = yn.type → x = y) : OneEach w' ch' := by
  intro q qn' hqn' hqt x hx y hy xn' yn' hxn' hyn' hxt hxy
  obtain ⟨qn, hqn, eq⟩ := types_of_data hd hqn'
  obtain ⟨xn, hxn, ex⟩ := types_of_data hd hxn'
  obtain ⟨yn, hyn, ey⟩ := types_of_data hd hyn'
  rw [← eq] at hqt
  rw [← ex] at hxt
  rw [← ex, ← ey] at hxy
  by_cases hqp : q = p
  · subst hqp
    have hno : ∀ c ∈ mv, ∀ cn, w.nodes c = some cn → (cn.type = .element ∨ cn.type = .doctype) →
        ∀ z ∈ ch q, ∀ zn, w.nodes z = some zn → zn.type ≠ cn.type := by
      intro c hc cn hcn ht z hz zn hzn
      obtain ⟨a, b, ha, hb, _, h⟩ := hperm c hc
      rw [hqn] at ha; cases ha
      rw [hcn] at hb; cases hb
      exact h hqt ht z hz zn hzn
    rcases hp x hx with hx1 | hx1 <;> rcases hp y hy with hy1 | hy1
    · exact h1 q qn hqn hqt x hx1 y hy1 xn yn hxn hyn hxt hxy
    · exact absurd hxy (hno y hy1 yn hyn (hxy ▸ hxt) x hx1 xn hxn)
    · exact absurd hxy.symm (hno x hx1 xn hxn hxt y hy1 yn hyn)
    · exact hone ⟨qn, hqn, hqt⟩ x hx1 y hy1 xn yn hxn hyn hxt hxy
  · exact h1 q qn hqn hqt x (hq q hqp x hx) y (hq q hqp y hy) xn yn hxn hyn hxt hxy

theorem OneEach.same {w' : World} (h1 : OneEach w ch)
    (hd : ∀ j, (w'.nodes j).map Node.data = (w.nodes j).map Node.data) : OneEach w' ch :=
  h1.step (ch' := ch) (p := 0) (mv := []) hd (fun x hx => .inl hx) (fun _ _ x hx => hx) (by simp) (by simp)

theorem OneEach.add (hW : WF w ch) (h1 : OneEach w ch) (n : Node) : OneEach (w.add n) ch := by
  intro q qn hqn hqt x hx y hy xn yn hxn hyn hxt hxy
  rcases add_some hqn with ⟨rfl, rfl⟩ | ⟨_, hq⟩
  · rw [hW.linked.dead _ (fresh_dead hW.toCore)] at hx; simp at hx
  · obtain ⟨a, ha, _⟩ := hW.linked.alive_child hx
    obtain ⟨b, hb, _⟩ := hW.linked.alive_child hy
    have ha' := add_old hW.toCore (n := n) ha
    have hb' := add_old hW.toCore (n := n) hb
    rw [hxn] at ha'; cases ha'
    rw [hyn] at hb'; cases hb'
    exact h1 q qn hq hqt x hx y hy xn yn ha hb hxt hxy

/-- Every call keeps the uniqueness of the Document's children, if fragments bring at most one Element. -/
theorem call_one (hW : WF w ch) (h1 : OneEach w ch) {c : Call} (hok : c.Ok w) (hok1 : c.Ok1 w) {w' : World}
    (h : (c.run w).world = some w') : ∃ ch', WF w' ch' ∧ OneEach w' ch' := by
  have hmv : ∀ {p new : NodeId} {nn : Node}, w.nodes new = some nn →
      (IsType w p .document → IsType w new .fragment →
        ∀ x y xn yn, w.nodes x = some xn → w.nodes y = some yn → xn.parent = some new → yn.parent = some new →
        xn.type = .element → yn.type = .element → x = y) →
      IsType w p .document → ∀ x ∈ moved ch new nn, ∀ y ∈ moved ch new nn, ∀ xn yn, w.nodes x = some xn →
        w.nodes y = some yn → (xn.type = .element ∨ xn.type = .doctype) → xn.type = yn.type → x = y := by
    intro p new nn hx ho hp x hxm y hym xn yn hxn hyn ht hxy
    by_cases hf : nn.type = .fragment
    · simp only [moved, hf, if_true] at hxm hym
      obtain ⟨a, ha, _, hax⟩ := hW.linked.alive_child hxm
      rw [hxn] at ha; cases ha
      obtain ⟨b, hb, _, hby⟩ := hW.linked.alive_child hym
      rw [hyn] at hb; cases hb
      rcases ht with ht | ht
      · exact ho hp ⟨nn, hx, hf⟩ x y xn yn hxn hyn hax hby ht (hxy ▸ ht)
      · have := hW.types new nn x xn hx hxm hxn
        rw [ht, hf] at this
        cases this with
        | content _ hc => simp at hc
    · simp only [moved, hf, if_false, List.mem_singleton] at hxm hym
      rw [hxm, hym]
  have hsame : ∀ {g : NodeId → Node → Node} {l}, (∀ j n, (g j n).data = n.data) → OneEach (w.mp g l) ch := by
    intro g l hg
    refine h1.same fun j => ?_
    rw [mp_nodes]; cases w.nodes j <;> simp [hg]
  have hins : ∀ {p new : NodeId} {r : Option NodeId}, Live w p → Live w new → (∀ c, r = some c → NotAttrOf w p c) →
      (IsType w p .document → IsType w new .fragment →
        ∀ x y xn yn, w.nodes x = some xn → w.nodes y = some yn → xn.parent = some new → yn.parent = some new →
        xn.type = .element → yn.type = .element → x = y) →
      (insertBefore p new r w).world = some w' → ∃ ch', WF w' ch' ∧ OneEach w' ch' := by
    rintro p new r ⟨pn, hp⟩ ⟨nn, hx⟩ hr hok1 h
    rcases insertBefore_total hW hp hx hr with ⟨e, h1'⟩ | ⟨_, h1'⟩ | ⟨w1, ch1, h1', h2, h3⟩ | ⟨hf, h1'⟩ | ⟨_, _, h1'⟩
    · rw [h1'] at h; cases h; exact ⟨ch, hW, h1⟩
    · rw [h1'] at h; cases h; exact ⟨ch, WF_ref hW new, hsame fun _ _ => rfl⟩
    · rw [h1'] at h; cases h
      refine ⟨ch1, h2.wf, h1.step h2.data (p := p) (mv := moved ch new nn) ?_ ?_ h3 (hmv hx hok1)⟩
      · intro x hx'
        obtain ⟨a, b, h4, _, h5⟩ := h2.here
        rw [h5] at hx'
        simp only [List.mem_append] at hx'
        have : ∀ y, y ∈ a ∨ y ∈ b → y ∈ ch p := by
          intro y hy
          have : y ∈ (ch p).filter (· ≠ new) := by rw [h4]; simpa using hy
          exact (List.mem_filter.1 this).1
        rcases hx' with (h | h) | h
        · exact .inl (this x (.inl h))
        · exact .inr h
        · exact .inl (this x (.inr h))
      · intro q hq x hx'
        rw [h2.elsewhere q hq] at hx'
        split at hx'
        · simp at hx'
        · exact (List.mem_filter.1 hx').1
    · rw [h1'] at h; cases h; exact ⟨ch, WF_unpend hW hx hf, hsame fun _ _ => rfl⟩
    · rw [h1'] at h; cases h
  cases c with
  | createDocument =>
    simp only [Call.run, createDocument_run, Res.world, Option.some.injEq] at h
    exact ⟨ch, h ▸ WF_createDocument hW, h ▸ h1.add hW _⟩
  | createNode d t n v =>
    obtain ⟨⟨dn, hd, hdt⟩, ht⟩ := hok
    simp only [Call.run, createNode_run hW.toCore hd, Res.world, Option.some.injEq] at h
    exact ⟨ch, h ▸ WF_createNode hW hd hdt ht n v, h ▸ h1.add hW _⟩
  | createDoctype n =>
    simp only [Call.run, createDoctype_run, Res.world, Option.some.injEq] at h
    exact ⟨ch, h ▸ WF_createDoctype hW n, h ▸ h1.add hW _⟩
  | insertBefore p new r => exact hins hok.1 hok.2.1 hok.2.2 hok1 h
  | appendChild p new => exact hins hok.1 hok.2 (by simp) hok1 h
  | replaceChild p new old =>
    obtain ⟨⟨pn, hp⟩, ⟨nn, hx⟩, ⟨on, ho, hna⟩, hempty⟩ := hok
    rcases replaceChild_total hW hp hx ho hna (fun h1 h2 => hempty nn on hx ho h1 h2) with
      ⟨e, h1'⟩ | ⟨_, h1'⟩ | ⟨w1, ch1, h1', h2, h3⟩ | ⟨_, _, h1'⟩
    · simp only [Call.run, h1', Res.world, Option.some.injEq] at h; exact ⟨ch, h ▸ hW, h ▸ h1⟩
    · simp only [Call.run, h1', Res.world, Option.some.injEq] at h
      subst h
      exact ⟨ch, WF_ref hW old, hsame fun _ _ => rfl⟩
    · simp only [Call.run, h1', Res.world, Option.some.injEq] at h
      subst h
      refine ⟨ch1, h2.wf, h1.step h2.data (p := p) (mv := moved ch new nn) ?_ ?_ h3 (hmv hx hok1)⟩
      · intro x hx'
        obtain ⟨a, b, h4, h5⟩ := h2.here
        rw [h5] at hx'
        simp only [List.mem_append] at hx'
        have : ∀ y, y ∈ a ∨ y ∈ b → y ∈ ch p := by
          intro y hy
          have : y ∈ (ch p).filter (· ≠ new) := by
            rw [h4]; simp only [List.mem_append, List.mem_cons]; tauto
          exact (List.mem_filter.1 this).1
        rcases hx' with (h | h) | h
        · exact .inl (this x (.inl h))
        · exact .inr h
        · exact .inl (this x (.inr h))
      · intro q hq x hx'
        rw [h2.elsewhere q hq] at hx'
        split at hx'
        · simp at hx'
        · exact (List.mem_filter.1 hx').1
    · simp [Call.run, h1', Res.world] at h
  | removeChild p old =>
    obtain ⟨⟨pn, hp⟩, ⟨on, ho, hna⟩⟩ := hok
    cases he : removeRefusal w ch p old pn on with
    | some e =>
      simp only [Call.run, removeChild_refused hW hp ho hna he, Res.world, Option.some.injEq] at h
      exact ⟨ch, h ▸ hW, h ▸ h1⟩
    | none =>
      obtain ⟨w1, ch1, h1', h2⟩ := removeChild_ok hW hp ho hna he
      simp only [Call.run, h1', Res.world, Option.some.injEq] at h
      subst h
      refine ⟨ch1, h2.wf, h1.step h2.data (p := p) (mv := []) ?_ ?_ (by simp) (by simp)⟩
      · intro x hx
        rw [h2.lists] at hx
        exact .inl (List.mem_filter.1 hx).1
      · intro q _ x hx
        rw [h2.lists] at hx
        exact (List.mem_filter.1 hx).1

theorem Reach.one (hr : Reach (fun w c => c.Ok w ∧ c.Ok1 w) w) : ∃ ch, WF w ch ∧ OneEach w ch := by
  induction hr with
  | start => exact ⟨_, WF_empty, by intro p pn h; simp [World.empty] at h⟩
  | call c _ hp hc ih =>
    obtain ⟨ch, hW, h1⟩ := ih
    exact call_one hW h1 hp.1 hp.2 hc

end Dom.Tree
