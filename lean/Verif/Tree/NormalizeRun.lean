import Verif.Tree.Normalize
import Verif.Tree.LifeCalls
import Mathlib.Data.List.TakeWhile
import Mathlib.Tactic.Tauto
/-!
# What `normalize` does to the tree
-/
set_option linter.unusedSimpArgs false
set_option linter.unusedVariables false
namespace Dom.Tree
variable {w w' v v' : World} {ch cv cv' : Children} {x d j p c y : NodeId} {n dn : Node} {t : NodeId → Bool}

/-! ## Specification -/

/-- The node is a Text node. -/
def isText (w : World) (j : NodeId) : Bool := (w.nodes j).any fun n => n.type = .text

/-- The list without the members that satisfy `t` and come after one that does. -/
def squash (t : NodeId → Bool) : List NodeId → List NodeId
  | [] => []
  | a :: l => a :: squash t (if t a then l.dropWhile t else l)
termination_by l => l.length
decreasing_by
  split
  · exact Nat.lt_succ_of_le ((List.dropWhile_sublist _).length_le)
  · exact Nat.lt_succ_self _

/-- The nodes that `normalize` of `x` looks into: `x`, and the nodes that are no Text nodes and no first children below such a node. -/
inductive Visits (t : NodeId → Bool) (ch : Children) : NodeId → NodeId → Prop
  | self (x : NodeId) : Visits t ch x x
  | step {x c y : NodeId} (hc : c ∈ (ch x).tail) (ht : t c = false) (h : Visits t ch c y) : Visits t ch x y

/-! ## Lists -/

theorem squash_merge {a b : NodeId} (l : List NodeId) (ha : t a = true) (hb : t b = true) : squash t (a :: b :: l) = squash t (a :: l) := by
  conv => lhs; unfold squash
  conv => rhs; unfold squash
  simp [ha, hb]

theorem squash_step {a b : NodeId} (l : List NodeId) (h : ¬ (t b = true ∧ t a = true)) : squash t (a :: b :: l) = a :: squash t (b :: l) := by
  conv => lhs; unfold squash
  congr 2
  split
  · rename_i ha
    have hb : t b = false := by cases hb : t b <;> simp_all
    simp [hb]
  · rfl

theorem squash_single (a : NodeId) : squash t [a] = [a] := by
  unfold squash
  split <;> unfold squash <;> simp

theorem squash_sublist : ∀ (k : Nat) (l : List NodeId), l.length ≤ k → (squash t l).Sublist l := by
  intro k
  induction k with
  | zero =>
    intro l h
    cases l with
    | nil => unfold squash; exact .slnil
    | cons a l => simp at h
  | succ k ih =>
    intro l h
    cases l with
    | nil => unfold squash; exact .slnil
    | cons a l =>
      unfold squash
      refine .cons_cons _ ?_
      simp only [List.length_cons] at h
      split
      · exact (ih _ (by have := (List.dropWhile_sublist (l := l) t).length_le; omega)).trans (List.dropWhile_sublist _)
      · exact ih _ (by omega)

theorem squash_kept : ∀ (k : Nat) (l : List NodeId), l.length ≤ k → c ∈ l → t c = false → c ∈ squash t l := by
  intro k
  induction k with
  | zero =>
    intro l h hc ht
    cases l with
    | nil => cases hc
    | cons a l => simp at h
  | succ k ih =>
    intro l h hc ht
    cases l with
    | nil => cases hc
    | cons a l =>
      unfold squash
      rcases List.mem_cons.1 hc with rfl | hc
      · simp
      refine List.mem_cons_of_mem _ ?_
      simp only [List.length_cons] at h
      split
      · refine ih _ (by have := (List.dropWhile_sublist (l := l) t).length_le; omega) ?_ ht
        have := List.takeWhile_append_dropWhile (p := t) (l := l)
        rw [← this] at hc
        rcases List.mem_append.1 hc with h1 | h1
        · exact absurd (List.mem_takeWhile_imp h1) (by simp [ht])
        · exact h1
      · exact ih _ (by omega) hc ht

theorem squash_adjacent : ∀ (k : Nat) (l : List NodeId), l.length ≤ k → ∀ a b l1 l2, squash t l = l1 ++ a :: b :: l2 → ¬ (t a = true ∧ t b = true) := by
  intro k
  induction k with
  | zero =>
    intro l h a b l1 l2 e
    cases l with
    | nil => unfold squash at e; cases l1 <;> cases e
    | cons a l => simp at h
  | succ k ih =>
    intro l h a b l1 l2 e
    cases l with
    | nil => unfold squash at e; cases l1 <;> cases e
    | cons z l =>
      unfold squash at e
      simp only [List.length_cons] at h
      have hlen : (if t z = true then l.dropWhile t else l).length ≤ k := by
        split
        · have := (List.dropWhile_sublist (l := l) t).length_le; omega
        · omega
      cases l1 with
      | cons y l1 =>
        simp only [List.cons_append, List.cons.injEq] at e
        exact ih _ hlen a b l1 l2 e.2
      | nil =>
        simp only [List.nil_append, List.cons.injEq] at e
        obtain ⟨rfl, e⟩ := e
        rintro ⟨ha, hb⟩
        rw [if_pos ha] at e
        cases hd : l.dropWhile t with
        | nil => rw [hd] at e; unfold squash at e; cases e
        | cons q r =>
          rw [hd] at e
          unfold squash at e
          simp only [List.cons.injEq] at e
          obtain ⟨rfl, _⟩ := e
          have := List.head_dropWhile_not t (l := l) (by rw [hd]; simp)
          simp only [hd, List.head_cons] at this
          rw [hb] at this; cases this

/-! ## The visited nodes -/

theorem Visits.under (h : Visits t ch x y) : Below ch x y := by
  induction h with
  | self => exact .refl
  | step hc _ _ ih => exact .head (List.mem_of_mem_tail hc) ih

theorem Visits.congr (h : ∀ y, Visits t ch x y → cv y = ch y) : Visits t cv x y ↔ Visits t ch x y := by
  constructor
  · intro hv
    induction hv with
    | self => exact .self _
    | @step x c y hc ht _ ih =>
      rw [h x (.self x)] at hc
      exact .step hc ht (ih fun y hy => h y (.step hc ht hy))
  · intro hv
    induction hv with
    | self => exact .self _
    | @step x c y hc ht _ ih =>
      refine .step ?_ ht (ih fun y hy => h y (.step hc ht hy))
      rw [h x (.self x)]; exact hc

/-! ## Calls that change nothing -/

/-- The call does not change the memory. -/
def Looks {α : Type} (m : M α) : Prop := ∀ w w' a, m w = .ok w' a → w' = w

theorem Looks.pure {α : Type} (a : α) : Looks (Pure.pure a : M α) := by
  intro w w' b h; cases h; rfl

theorem Looks.bind {α β : Type} {m : M α} {f : α → M β} (h1 : Looks m) (h2 : ∀ a, Looks (f a)) : Looks (m >>= f) := by
  intro w w' b h
  cases hm : m w with
  | ok u a =>
    rw [bind_ok hm] at h
    rw [h2 a u w' b h, h1 w u a hm]
  | exc u e => rw [bind_exc hm] at h; cases h
  | fault f => rw [bind_fault hm] at h; cases h

theorem Looks.crash {α : Type} (f : Fault) : Looks (M.crash f : M α) := by intro w w' a h; cases h
theorem Looks.bound : Looks Tree.bound := by intro w w' a h; cases h; rfl
theorem Looks.throwIf (b : Bool) (e : Exc) : Looks (throwIf b e) := by
  intro w w' a h; cases b
  · cases h; rfl
  · cases h
theorem Looks.cassert (b : Bool) : Looks (cassert b) := by
  intro w w' a h; cases b
  · cases h
  · cases h; rfl
theorem Looks.getNode (x : NodeId) : Looks (getNode x) := by
  intro w w' a h
  unfold Tree.getNode at h
  split at h
  · cases h; rfl
  · cases h
theorem Looks.deref (o : Option NodeId) : Looks (deref o) := by
  intro w w' a h
  cases o
  · cases h
  · cases h; rfl
theorem Looks.liftOut {α : Type} (o : Out α) : Looks (liftOut o) := by
  intro w w' a h
  cases o with
  | ok a => cases h; rfl
  | exc e => cases h
  | fault f => cases h

theorem Looks.ite {α : Type} {q : Prop} [Decidable q] {m m' : M α} (h1 : Looks m) (h2 : Looks m') : Looks (if q then m else m') := by
  split
  · exact h1
  · exact h2

theorem Looks.climb (ord : Order) (q : Option NodeId) : ∀ k i o, Looks (climb ord q k i o) := by
  intro k
  induction k with
  | zero => intro i o; exact .crash _
  | succ k ih =>
    intro i o
    unfold Tree.climb
    exact .ite (.pure _) (.bind (.deref _) fun a => .bind (.getNode _) fun b => .ite (ih _ _) (.pure _))

theorem Looks.walkNext (ord : Order) (q : Option NodeId) (i : NodeId) : Looks (walkNext ord q i) := by
  unfold Tree.walkNext
  refine .bind (.getNode _) fun a => ?_
  exact .ite (.pure _) (.ite (.pure _) (.bind .bound fun b => .bind (.climb _ _ _ _ _) fun j => .bind (.getNode _) fun m => .pure _))

theorem Looks.collect (ord : Order) (r s : Option Str.DStr) : Looks (collect ord r s) := by
  unfold Tree.collect
  split
  · exact .pure _
  · exact .bind (.liftOut _) fun a => .pure _

theorem Looks.adjLoop (ord : Order) (q : Option NodeId) : ∀ k i r, Looks (adjLoop ord q k i r) := by
  intro k
  induction k with
  | zero =>
    intro i r
    cases i with
    | none => exact .pure _
    | some i => exact .crash _
  | succ k ih =>
    intro i r
    cases i with
    | none => exact .pure _
    | some i =>
      unfold Tree.adjLoop
      refine .bind (.getNode _) fun a => ?_
      split
      · exact .pure _
      · split
        · exact .bind (.cassert _) fun _ => .bind (.cassert _) fun _ => .collect _ _ _
        · exact .bind (.walkNext _ _ _) fun _ => ih _ _

theorem Looks.walkInOrder (ord : Order) (i : Option NodeId) (r : Option Str.DStr) : Looks (walkInOrder ord i r) := by
  unfold Tree.walkInOrder
  split
  · exact .pure _
  · exact .bind (.getNode _) fun a => .bind .bound fun b => .adjLoop _ _ _ _ _

theorem Looks.wholeText (i : NodeId) : Looks (wholeText i) := by
  unfold Tree.wholeText
  refine .bind (.getNode _) fun a => .bind ?_ fun _ => .bind (.walkInOrder _ _ _) fun _ => .bind (.collect _ _ _) fun _ => .walkInOrder _ _ _
  unfold refuseEntity
  split
  · exact .pure _
  · exact .bind (.getNode _) fun _ => .throwIf _ _

/-- What a sequence of calls that returns did. -/
theorem bind_inv {α β : Type} {m : M α} {f : α → M β} {b : β} (h : (m >>= f) w = .ok w' b) : ∃ v a, m w = .ok v a ∧ f a v = .ok w' b := by
  cases hm : m w with
  | ok u a => rw [bind_ok hm] at h; exact ⟨u, a, rfl, h⟩
  | exc u e => rw [bind_exc hm] at h; cases h
  | fault f => rw [bind_fault hm] at h; cases h

theorem look_inv {α β : Type} {m : M α} {f : α → M β} {b : β} (hm : Looks m) (h : (m >>= f) w = .ok w' b) : ∃ a, m w = .ok w a ∧ f a w = .ok w' b := by
  obtain ⟨v, a, h1, h2⟩ := bind_inv h
  cases hm w v a h1
  exact ⟨a, h1, h2⟩

/-- A successful merge changes the data of the first node only. -/
theorem mergeText_inv (hW : WF w ch) {p n : NodeId} {pn : Node} (hp : w.nodes p = some pn) (ho : pn.owner ≠ none)
    (h : mergeText p n w = .ok w' ()) : ∃ s l, w' = w.mp (withValue p s) l := by
  unfold mergeText at h
  obtain ⟨_, _, h⟩ := look_inv (.getNode _) h
  obtain ⟨_, _, h⟩ := look_inv (.cassert _) h
  obtain ⟨_, _, h⟩ := look_inv (.getNode _) h
  obtain ⟨_, _, h⟩ := look_inv (.cassert _) h
  obtain ⟨str, _, h⟩ := look_inv (.wholeText _) h
  unfold appendData at h
  obtain ⟨b, hb, _⟩ := readonly_run hW.toCore hp
  rw [bind_ok hb] at h
  obtain ⟨_, _, h⟩ := look_inv (.throwIf _ _) h
  obtain ⟨m, hm, h⟩ := look_inv (.getNode _) h
  obtain ⟨temp, _, h⟩ := look_inv (.liftOut _) h
  obtain ⟨v, h1, _, h2⟩ := storeData_becomes hW.toCore hp ho (some temp)
  rw [h1] at h; cases h
  exact ⟨_, _, h2⟩

/-- Releasing a node that has not exactly one reference. -/
theorem unref_other (hx : w.nodes x = some n) (hr : n.refcnt ≠ 1) : unref x w = .ok (w.upd x { n with refcnt := sub32 n.refcnt 1 }) () := by
  have hne : sub32 n.refcnt 1 ≠ 0 := by
    unfold sub32
    split <;> omega
  unfold unref
  rw [bound_bind]
  unfold unrefWith
  rw [get_bind hx, mod_bind hx, if_neg hne]
  rfl

/-! ## The loop -/

/-- Between the two memories no node has changed its type, and a node that has a parent afterwards has had it before with the same count. -/
structure Like (w w' : World) : Prop where
  types : ∀ j, (w'.nodes j).map Node.type = (w.nodes j).map Node.type
  counts : ∀ j m', w'.nodes j = some m' → m'.parent ≠ none → ∃ m, w.nodes j = some m ∧ m.refcnt = m'.refcnt ∧ m.parent = m'.parent

theorem Like.refl : Like w w := ⟨fun _ => rfl, fun j m h _ => ⟨m, h, rfl, rfl⟩⟩

theorem isText_congr (h : ∀ j, (w'.nodes j).map Node.type = (w.nodes j).map Node.type) : isText w' = isText w := by
  funext j
  have := h j
  unfold isText
  cases h1 : w'.nodes j <;> cases h2 : w.nodes j <;> simp_all

theorem Like.trans (h1 : Like w v) (h2 : Like v v') : Like w v' := by
  refine ⟨fun j => (h2.types j).trans (h1.types j), fun j m' h hp => ?_⟩
  obtain ⟨m, hm, hr, hq⟩ := h2.counts j m' h hp
  obtain ⟨k, hk, hr', hq'⟩ := h1.counts j m hm (by rw [hq]; exact hp)
  exact ⟨k, hk, hr'.trans hr, hq'.trans hq⟩

/-- No Text node below `x` has exactly one reference. -/
def NoOne (w : World) (ch : Children) (x : NodeId) : Prop := ∀ j m, Below ch x j → w.nodes j = some m → m.type = .text → m.refcnt ≠ 1

/-- The effect of `normalize` of `x` on the tree. -/
structure Normed (w : World) (ch : Children) (x : NodeId) (w' : World) (ch' : Children) : Prop where
  wf : WF w' ch'
  like : Like w w'
  yes : ∀ y, Visits (isText w) ch x y → ch' y = squash (isText w) (ch y)
  no : ∀ y, ¬ Visits (isText w) ch x y → ch' y = ch y

theorem below_sub (hs : ∀ y, cv' y ⊆ cv y) (h : Below cv' x y) : Below cv x y := by
  induction h with
  | refl => exact .refl
  | tail _ h ih => exact .tail ih (hs _ h)

theorem NoOne.like (h : NoOne w ch x) (hL : Like w w') (hs : ∀ y, cv' y ⊆ ch y) (hK : Linked w' cv') (hp : ∀ m, w'.nodes x = some m → m.type = .text → m.parent ≠ none) :
    NoOne w' cv' x := by
  intro j m hb hj ht
  have hpar : m.parent ≠ none := by
    rcases Relation.ReflTransGen.cases_tail hb with rfl | ⟨q, _, hc⟩
    · exact hp m hj ht
    · obtain ⟨m', hm', _, e⟩ := hK.alive_child hc
      rw [hj] at hm'; cases hm'
      rw [e]; simp
  obtain ⟨k, hk, hr, _⟩ := hL.counts j m hj hpar
  have := hL.types j
  rw [hj, hk] at this
  simp only [Option.map_some, Option.some.injEq] at this
  rw [← hr]
  exact h j k (below_sub hs hb) hk (by rw [← this]; exact ht)

theorem isText_some (h : w.nodes j = some n) : isText w j = decide (n.type = .text) := by simp [isText, h]

/-- Merging the text `n` into the text `p` before it, detaching and releasing it. -/
theorem merged_run (hW : WF v cv) {p n : NodeId} {a b : List NodeId} (hab : cv x = a ++ p :: n :: b) {pn nn : Node} (hp : v.nodes p = some pn)
    (hn : v.nodes n = some nn) (hr : nn.refcnt ≠ 1) {f : M Unit} (h : (do mergeText p n; detach n; unref n; f) v = .ok v' ()) :
    ∃ u, f u = .ok v' () ∧ WF u (setCh cv x (a ++ p :: b)) ∧ Like v u := by
  have hpx : p ∈ cv x := by simp [hab]
  obtain ⟨pn', hp', _, hpp⟩ := hW.linked.alive_child hpx
  rw [hp] at hp'; cases hp'
  obtain ⟨d, _, ho, _⟩ := hW.doc_alive hp (.inr (.inl (by simp [hpp])))
  obtain ⟨v1, _, h1, h⟩ := bind_inv h
  obtain ⟨s, l, rfl⟩ := mergeText_inv hW hp (by simp [ho]) h1
  have hW1 := WF_withValue (c := p) hW s l
  have hab1 : cv x = (a ++ [p]) ++ n :: b := by rw [hab]; simp
  rw [bind_ok (detach_run hW1 hab1)] at h
  have hW2 := WF_detached hW1 hab1 (changeEvents cv (v.mp (withValue p s) l).fresh true n (some x) .removal ++
        [{ kind := .subtreeModified, target := x, related := some x }])
  rw [List.append_assoc] at hW2
  generalize (changeEvents cv (v.mp (withValue p s) l).fresh true n (some x) .removal ++
        [{ kind := .subtreeModified, target := x, related := some x }]) = l2 at hW2 h
  have hn2 := mp_some (mp_some hn (withValue p s) l) (detachedRec n x (a ++ [p]) b) l2
  rw [bind_ok (unref_other hn2 (by
    simp only [detachedRec, withValue]; split <;> exact hr))] at h
  refine ⟨_, h, ?_, ?_, ?_⟩
  · rw [upd_as_mp hn2 fun m => { m with refcnt := sub32 m.refcnt 1 }]
    refine hW2.mp_same [] ?_ ?_ ?_ ?_ <;> intro j m <;> by_cases h : j = n <;> simp [h, Node.links]
  · intro j
    by_cases hj : j = n
    · subst hj
      simp only [World.upd, if_true, hn, Option.map_some, detachedRec, withValue]
      split <;> rfl
    · rw [upd_ne _ _ hj, mp_nodes, mp_nodes]
      cases v.nodes j with
      | none => rfl
      | some m =>
        simp only [Option.map_some, detachedRec, withValue]
        split <;> rfl
  · intro j m' hm hpar
    by_cases hj : j = n
    · subst hj
      simp only [World.upd, if_true, Option.some.injEq] at hm
      subst hm
      simp [detachedRec] at hpar
    · rw [upd_ne _ _ hj, mp_nodes, mp_nodes] at hm
      cases hv : v.nodes j with
      | none => rw [hv] at hm; cases hm
      | some m =>
        rw [hv] at hm
        simp only [Option.map_some, Option.some.injEq] at hm
        subst hm
        refine ⟨m, rfl, ?_, ?_⟩
        · simp only [detachedRec, withValue]; split <;> rfl
        · simp only [detachedRec, withValue, if_neg hj]; split <;> rfl

/-- The calls for the nodes below do what they have to. -/
def RecNorm (rec : NodeId → M Unit) : Prop := ∀ v cv c v' n, WF v cv → v.nodes c = some n → NoOne v cv c → rec c v = .ok v' () → ∃ cv', Normed v cv c v' cv'

theorem sub_of_squash {S : NodeId → Prop} (h1 : ∀ y, S y → cv' y = squash t (cv y)) (h2 : ∀ y, ¬ S y → cv' y = cv y) (y : NodeId) : cv' y ⊆ cv y := by
  by_cases h : S y
  · rw [h1 y h]; exact (squash_sublist _ _ (Nat.le_refl _)).subset
  · rw [h2 y h]; exact fun _ h => h

theorem normalizeLoop_ok {rec : NodeId → M Unit} (hrec : RecNorm rec) (x : NodeId) : ∀ (fuel : Nat) (p : NodeId) (done rest : List NodeId) (v : World)
    (cv : Children), WF v cv → cv x = done ++ p :: rest → (∀ c ∈ p :: rest, NoOne v cv c) → normalizeLoop rec fuel p rest.head? v = .ok v' () →
    ∃ cv', WF v' cv' ∧ Like v v' ∧ cv' x = done ++ squash (isText v) (p :: rest) ∧
      (∀ y, y ≠ x → (∃ c ∈ rest, isText v c = false ∧ Visits (isText v) cv c y) → cv' y = squash (isText v) (cv y)) ∧
      (∀ y, y ≠ x → (¬ ∃ c ∈ rest, isText v c = false ∧ Visits (isText v) cv c y) → cv' y = cv y) := by
  intro fuel
  induction fuel with
  | zero =>
    intro p done rest v cv hW hx hno h
    cases rest with
    | nil =>
      unfold normalizeLoop at h
      cases h
      refine ⟨cv, hW, .refl, by rw [squash_single]; exact hx, ?_, fun _ _ _ => rfl⟩
      rintro y _ ⟨c, hc, _⟩; cases hc
    | cons n rest => unfold normalizeLoop at h; cases h
  | succ fuel ih =>
    intro p done rest v cv hW hx hno h
    cases rest with
    | nil =>
      unfold normalizeLoop at h
      cases h
      refine ⟨cv, hW, .refl, by rw [squash_single]; exact hx, ?_, fun _ _ _ => rfl⟩
      rintro y _ ⟨c, hc, _⟩; cases hc
    | cons n rest =>
      have hpx : p ∈ cv x := by simp [hx]
      have hnx : n ∈ cv x := by simp [hx]
      obtain ⟨pn, hp, _, _⟩ := hW.linked.alive_child hpx
      obtain ⟨nn, hn, _, hnp⟩ := hW.linked.alive_child hnx
      obtain ⟨xn, hxn⟩ := hW.linked.alive_parent hn hnp
      have hnd := (hW.linked.loc x xn hxn).nodup
      rw [hx] at hnd
      have hnrest : n ∉ rest := (List.nodup_cons.1 (List.nodup_cons.1 (List.nodup_append.1 hnd).2.1).2).1
      have hdis : ∀ c ∈ rest, ∀ {y}, Visits (isText v) cv c y → y ≠ x := by
        rintro c hc y hv rfl
        exact not_below_child hW.linked hW.wf (by rw [hx]; simp [hc]) hv.under
      rw [List.head?_cons] at h
      unfold normalizeLoop at h
      rw [get_bind hn, get_bind hp] at h
      by_cases htt : nn.type = .text ∧ pn.type = .text
      · rw [if_pos htt] at h
        have htn : isText v n = true := by rw [isText_some hn]; simp [htt.1]
        have htp : isText v p = true := by rw [isText_some hp]; simp [htt.2]
        obtain ⟨u, h, hWu, hlike⟩ := merged_run hW hx hp hn (hno n (by simp) n nn .refl hn htt.1) h
        have ht := isText_congr hlike.types
        have hux : setCh cv x (done ++ p :: rest) x = done ++ p :: rest := setCh_same _ _ _
        obtain ⟨un, hun, _, _, _, hnext⟩ : ∃ m, u.nodes p = some m ∧ _ := by
          have hm : p ∈ setCh cv x (done ++ p :: rest) x := by rw [hux]; simp
          obtain ⟨m, hm, _, hmp⟩ := hWu.linked.alive_child hm
          obtain ⟨xm, hxm⟩ := hWu.linked.alive_parent hm hmp
          exact (hWu.linked.loc x xm hxm).kids done p rest hux
        rw [get_bind hun, hnext] at h
        have hsub : ∀ y, setCh cv x (done ++ p :: rest) y ⊆ cv y := by
          intro y
          by_cases hy : y = x
          · subst hy; rw [hux, hx]
            intro z hz
            simp only [List.mem_append, List.mem_cons] at hz ⊢
            tauto
          · rw [setCh_ne _ _ hy]; exact fun _ h => h
        have hno' : ∀ c ∈ p :: rest, NoOne u (setCh cv x (done ++ p :: rest)) c := by
          intro c hc
          refine (hno c (by rcases List.mem_cons.1 hc with h | h <;> simp [h])).like hlike hsub hWu.linked ?_
          intro m hm _
          have hcx : c ∈ setCh cv x (done ++ p :: rest) x := by rw [hux]; exact List.mem_append_right _ hc
          obtain ⟨m', hm', _, e⟩ := hWu.linked.alive_child hcx
          rw [hm] at hm'; cases hm'
          rw [e]; simp
        obtain ⟨cv', k1, k2, k3, k4, k5⟩ := ih p done rest u _ hWu hux hno' h
        rw [ht] at k3 k4 k5
        have hvis : ∀ c ∈ rest, ∀ y, Visits (isText v) (setCh cv x (done ++ p :: rest)) c y ↔ Visits (isText v) cv c y := by
          intro c hc y
          exact Visits.congr fun y hy => setCh_ne _ _ (hdis c hc hy)
        refine ⟨cv', k1, hlike.trans k2, by rw [k3, squash_merge _ htp htn], ?_, ?_⟩
        · rintro y hy ⟨c, hc, hct, hv⟩
          rcases List.mem_cons.1 hc with rfl | hc
          · rw [htn] at hct; cases hct
          · rw [k4 y hy ⟨c, hc, hct, (hvis c hc y).2 hv⟩, setCh_ne _ _ hy]
        · intro y hy hnv
          rw [k5 y hy, setCh_ne _ _ hy]
          rintro ⟨c, hc, hct, hv⟩
          exact hnv ⟨c, List.mem_cons_of_mem _ hc, hct, (hvis c hc y).1 hv⟩
      · rw [if_neg htt] at h
        obtain ⟨u, _, h1, h⟩ := bind_inv h
        obtain ⟨cu, hWu, hlike, hyes, hnot⟩ : ∃ cu, WF u cu ∧ Like v u ∧
            (∀ y, (isText v n = false ∧ Visits (isText v) cv n y) → cu y = squash (isText v) (cv y)) ∧
            (∀ y, ¬ (isText v n = false ∧ Visits (isText v) cv n y) → cu y = cv y) := by
          by_cases htn : nn.type = .text
          · rw [if_neg (by simp [htn])] at h1
            cases h1
            have : isText v n = true := by rw [isText_some hn]; simp [htn]
            refine ⟨cv, hW, .refl, fun y h => ?_, fun _ _ => rfl⟩
            rw [this] at h; cases h.1
          · rw [if_pos htn] at h1
            have : isText v n = false := by rw [isText_some hn]; simp [htn]
            obtain ⟨cu, hN⟩ := hrec v cv n u nn hW hn (hno n (by simp)) h1
            exact ⟨cu, hN.wf, hN.like, fun y h => hN.yes y h.2, fun y h => hN.no y fun hv => h ⟨this, hv⟩⟩
        have ht := isText_congr hlike.types
        have hux : cu x = (done ++ [p]) ++ n :: rest := by
          rw [hnot x fun hv => not_below_child hW.linked hW.wf hnx hv.2.under, hx]; simp
        obtain ⟨un, hun, _, _, _, hnext⟩ : ∃ m, u.nodes n = some m ∧ _ := by
          have hm : n ∈ cu x := by rw [hux]; simp
          obtain ⟨m, hm, _, hmp⟩ := hWu.linked.alive_child hm
          obtain ⟨xm, hxm⟩ := hWu.linked.alive_parent hm hmp
          exact (hWu.linked.loc x xm hxm).kids (done ++ [p]) n rest hux
        rw [get_bind hun, hnext] at h
        have hsub := sub_of_squash hyes hnot
        have hno' : ∀ c ∈ n :: rest, NoOne u cu c := by
          intro c hc
          refine (hno c (List.mem_cons_of_mem _ hc)).like hlike hsub hWu.linked ?_
          intro m hm _
          have hcx : c ∈ cu x := by rw [hux]; exact List.mem_append_right _ hc
          obtain ⟨m', hm', _, e⟩ := hWu.linked.alive_child hcx
          rw [hm] at hm'; cases hm'
          rw [e]; simp
        obtain ⟨cv', k1, k2, k3, k4, k5⟩ := ih n (done ++ [p]) rest u cu hWu hux hno' h
        rw [ht] at k3 k4 k5
        have hsep : ∀ c ∈ rest, ∀ {y}, Visits (isText v) cv c y → ¬ Visits (isText v) cv n y := by
          intro c hc y hv hv'
          have := below_disjoint hW.linked hW.wf (show c ∈ cv x by rw [hx]; simp [hc]) hnx hv.under hv'.under
          subst this
          exact hnrest hc
        have hvis : ∀ c ∈ rest, ∀ y, Visits (isText v) cu c y ↔ Visits (isText v) cv c y := by
          intro c hc y
          exact Visits.congr fun y hy => hnot y fun h => hsep c hc hy h.2
        refine ⟨cv', k1, hlike.trans k2, ?_, ?_, ?_⟩
        · rw [k3, squash_step _ (by rw [isText_some hn, isText_some hp]; simpa using htt)]; simp
        · rintro y hy ⟨c, hc, hct, hv⟩
          by_cases hrest : ∃ c ∈ rest, isText v c = false ∧ Visits (isText v) cv c y
          · obtain ⟨c, hc, hct, hv⟩ := hrest
            rw [k4 y hy ⟨c, hc, hct, (hvis c hc y).2 hv⟩, hnot y fun h => hsep c hc hv h.2]
          · rw [k5 y hy fun ⟨c, hc, hct, hv⟩ => hrest ⟨c, hc, hct, (hvis c hc y).1 hv⟩]
            rcases List.mem_cons.1 hc with rfl | hc
            · exact hyes y ⟨hct, hv⟩
            · exact absurd ⟨c, hc, hct, hv⟩ hrest
        · intro y hy hnv
          rw [k5 y hy fun ⟨c, hc, hct, hv⟩ => hnv ⟨c, List.mem_cons_of_mem _ hc, hct, (hvis c hc y).1 hv⟩,
            hnot y fun h => hnv ⟨n, by simp, h⟩]

/-- A successful `normalize`. -/
theorem normalizeWith_ok : ∀ fuel, RecNorm (normalizeWith fuel) := by
  intro fuel
  induction fuel with
  | zero => intro v cv c v' n _ _ _ h; cases h
  | succ fuel ih =>
    intro v cv x v' n hW hx hno h
    change normalizeBody (normalizeWith fuel) x v = _ at h
    unfold normalizeBody at h
    rw [get_bind hx] at h
    obtain ⟨n', hn', hf, _⟩ := (hW.linked.loc x n hx).ends
    rw [hx] at hn'; cases hn'
    have hvisits : ∀ y, Visits (isText v) cv x y ↔ y = x ∨ ∃ c ∈ (cv x).tail, isText v c = false ∧ Visits (isText v) cv c y := by
      intro y
      constructor
      · intro h
        cases h with
        | self => exact .inl rfl
        | step hc ht h => exact .inr ⟨_, hc, ht, h⟩
      · rintro (rfl | ⟨c, hc, ht, h⟩)
        · exact .self _
        · exact .step hc ht h
    cases hc : cv x with
    | nil =>
      rw [hf, hc] at h
      cases h
      refine ⟨cv, hW, .refl, fun y hy => ?_, fun _ _ => rfl⟩
      rcases (hvisits y).1 hy with rfl | ⟨c, hc', _⟩
      · rw [hc]; unfold squash; rfl
      · rw [hc] at hc'; cases hc'
    | cons p rest =>
      rw [hf, hc] at h
      simp only [List.head?_cons] at h
      obtain ⟨pn, hp, _, _, _, hnext⟩ := (hW.linked.loc x n hx).kids [] p rest hc
      rw [get_bind hp, bound_bind, hnext] at h
      have hno' : ∀ c ∈ p :: rest, NoOne v cv c := fun c hcc j m hb => hno j m (.head (by rw [hc]; exact hcc) hb)
      obtain ⟨cv', k1, k2, k3, k4, k5⟩ := normalizeLoop_ok ih x _ p [] rest v cv hW hc hno' h
      refine ⟨cv', k1, k2, fun y hy => ?_, fun y hy => ?_⟩
      · by_cases hyx : y = x
        · subst hyx; rw [k3, hc]; rfl
        · rcases (hvisits y).1 hy with h | ⟨c, hcc, h⟩
          · exact absurd h hyx
          · exact k4 y hyx ⟨c, by rw [hc] at hcc; exact hcc, h⟩
      · have hyx : y ≠ x := by rintro rfl; exact hy (.self _)
        refine k5 y hyx fun ⟨c, hcc, h⟩ => hy ((hvisits y).2 (.inr ⟨c, by rw [hc]; exact hcc, h⟩))

theorem normalize_ok (hW : WF w ch) (hx : w.nodes x = some n) (hno : NoOne w ch x) (h : normalize x w = .ok w' ()) : ∃ ch', Normed w ch x w' ch' := by
  unfold normalize at h
  rw [bound_bind] at h
  exact normalizeWith_ok _ w ch x w' n hW hx hno h

end Dom.Tree
