import Verif.Tree.Maps
/-!
# C97: named node maps
-/
set_option linter.unusedSimpArgs false
set_option linter.unusedVariables false
namespace Dom.Tree
open Dom.Str (DStr)

/-! ## Specification -/

/-- The number of maps on the node `j`. -/
def onNode (j : NodeId) : List (Option AttrMap) → Nat
  | [] => 0
  | none :: l => onNode j l
  | some m :: l => (if m.node = j then 1 else 0) + onNode j l

/-- The number of references the client has to each map. -/
abbrev MapLedger := Nat → Nat

/-- The references to nodes after the client did `a` and was answered `r`. -/
def MapOp.book (led : Ledger) : MapOp → Answer → Ledger
  | .tree a, .node r => a.book led r
  | _, .node r => fun j => led j + if r = some j then 1 else 0
  | _, _ => led

/-- The references to maps. -/
def MapOp.mapBook (mled : MapLedger) : MapOp → Answer → MapLedger
  | .attributes _, .map r => fun j => mled j + if r = some j then 1 else 0
  | .ref k, _ => fun j => mled j + if j = k then 1 else 0
  | .unref k, _ => fun j => if j = k then mled j - 1 else mled j
  | _, _ => mled

/-- The attributes of the node of the map can be referenced twice without an overflow. -/
def AttrRoom (s : Stock) (k : Nat) : Prop := ∀ m, s.maps[k]? = some (some m) → ∀ a an, s.w.nodes a = some an → an.parent = some m.node → an.refcnt + 2 < 4294967296

/-- Setting the attribute `a` on `e` does not replace the first attribute of `e`, and if `a` is on `e` already it is the one that is replaced. -/
def Settable (w : World) (e a : NodeId) (name : DStr) (ns : Option DStr) : Prop := ∀ n, w.nodes e = some n →
  (∀ y, First n name ns y → n.attrs.head?.map (·.node) ≠ some y.node) ∧ ∀ an, w.nodes a = some an → an.parent = some e → ∃ y, First n name ns y ∧ y.node = a

/-- The client uses only what it has references to, avoids the faults of the tree functions, and no count overflows.  Giving up a map gives up a reference to
the element, so what is said about that (`Act.Fine`) is needed for the last reference to a map. -/
def Mindful (led : Ledger) (mled : MapLedger) (s : Stock) : MapOp → Prop
  | .tree a => Heedful led s.w a
  | .attributes x => 0 < led x ∧ Room s.w x
  | .ref k => 0 < mled k ∧ mled k + 1 < 4294967296
  | .unref k => 0 < mled k ∧ (mled k = 1 → ∀ m, s.maps[k]? = some (some m) → (Act.unref m.node).Fine s.w)
  | .length k => 0 < mled k
  | .item k _ | .named k _ _ | .remove k _ _ => 0 < mled k ∧ AttrRoom s k
  | .set k a name ns => 0 < mled k ∧ 0 < led a ∧ AttrRoom s k ∧ ∀ m, s.maps[k]? = some (some m) → Settable s.w m.node a name ns

/-- The histories of such a client. -/
inductive Keeper : Ledger → MapLedger → Stock → Prop
  | start : Keeper (fun _ => 0) (fun _ => 0) { w := World.empty, maps := [] }
  | done {led : Ledger} {mled : MapLedger} {s s' : Stock} {r : Answer} (a : MapOp) : Keeper led mled s → Mindful led mled s a → a.run s = .ok s' r →
      Keeper (a.book led r) (a.mapBook mled r) s'
  | refused {led : Ledger} {mled : MapLedger} {s s' : Stock} {e : Exc} (a : MapOp) : Keeper led mled s → Mindful led mled s a → a.run s = .exc s' e → Keeper led mled s'

/-! ## The invariant -/

/-- Every live map has as many references as the client, and is on an element; the client has no references to others. -/
def MapOK (w : World) (mled : MapLedger) (maps : List (Option AttrMap)) : Prop := ∀ k,
  (∀ m, maps[k]? = some (some m) → m.refcnt = mled k ∧ 0 < mled k ∧ IsType w m.node .element) ∧ ((∀ m, maps[k]? ≠ some (some m)) → mled k = 0)

def Kept (led : Ledger) (mled : MapLedger) (s : Stock) : Prop :=
  ∃ ch, Sound s.w ch ∧ (∀ j, count s.w j = led j + onNode j s.maps) ∧ MapOK s.w mled s.maps

theorem onNode_append (j : NodeId) (l l' : List (Option AttrMap)) : onNode j (l ++ l') = onNode j l + onNode j l' := by
  induction l with
  | nil => simp [onNode]
  | cons a l ih => cases a <;> simp [onNode, ih]; omega

theorem onNode_set_none {m : AttrMap} (j : NodeId) : ∀ (l : List (Option AttrMap)) (k : Nat), l[k]? = some (some m) →
    onNode j (l.set k none) + (if m.node = j then 1 else 0) = onNode j l
  | [], k, h => by simp at h
  | a :: l, 0, h => by simp at h; subst h; simp [onNode]; omega
  | a :: l, k + 1, h => by
      have ih := onNode_set_none j l k (by simpa using h)
      cases a <;> simp [onNode] <;> omega

theorem onNode_set_some {m : AttrMap} (r : Nat) (j : NodeId) : ∀ (l : List (Option AttrMap)) (k : Nat), l[k]? = some (some m) →
    onNode j (l.set k (some { m with refcnt := r })) = onNode j l
  | [], k, h => by simp at h
  | a :: l, 0, h => by simp at h; subst h; simp [onNode]
  | a :: l, k + 1, h => by
      have ih := onNode_set_some r j l k (by simpa using h)
      cases a <;> simp [onNode] <;> omega

theorem onNode_pos {m : AttrMap} : ∀ (l : List (Option AttrMap)) (k : Nat), l[k]? = some (some m) → 0 < onNode m.node l
  | [], k, h => by simp at h
  | a :: l, 0, h => by simp at h; subst h; simp [onNode]; omega
  | a :: l, k + 1, h => by
      have ih := onNode_pos l k (by simpa using h)
      cases a <;> simp [onNode] <;> omega

theorem onNode_zero {j : NodeId} : ∀ l : List (Option AttrMap), (∀ (k : Nat) (m : AttrMap), l[k]? = some (some m) → m.node ≠ j) → onNode j l = 0
  | [], h => rfl
  | none :: l, h => onNode_zero l (fun k m hk => h (k + 1) m (by simpa using hk))
  | some m :: l, h => by
      have h0 := h 0 m (by simp)
      simp only [onNode, if_neg h0]
      rw [onNode_zero l (fun k m hk => h (k + 1) m (by simpa using hk))]

theorem live_of_count {w : World} {j : NodeId} (h : 0 < count w j) : ∃ n, w.nodes j = some n ∧ 0 < n.refcnt := by
  unfold count at h
  cases hj : w.nodes j with
  | none => rw [hj] at h; exact absurd h (by simp)
  | some n => rw [hj] at h; exact ⟨n, rfl, h⟩

/-- The maps stay good if the memory keeps the nodes. -/
theorem MapOK.keep {w w' : World} {mled : MapLedger} {maps : List (Option AttrMap)} (h : MapOK w mled maps) (hb : Bounded w) (hs : SameNodes w w')
    (hl : ∀ (k : Nat) (m : AttrMap), maps[k]? = some (some m) → 0 < count w' m.node) : MapOK w' mled maps := by
  intro k
  refine ⟨fun m hm => ?_, (h k).2⟩
  obtain ⟨h1, h2, n, h3, h4⟩ := (h k).1 m hm
  obtain ⟨n', h5, _⟩ := live_of_count (hl k m hm)
  obtain ⟨n'', h6, h7, _⟩ := hs.2 m.node n' h5 (hb _ n h3)
  rw [h3] at h6; cases h6
  exact ⟨h1, h2, n', h5, h7.trans h4⟩

theorem Sound.bounded {w : World} {ch : Children} (S : Sound w ch) : Bounded w := fun j n h => S.wf.bnd j n h

/-- No element is read-only. -/
theorem element_free {w : World} {ch : Children} (S : Sound w ch) {e : NodeId} {en : Node} (he : w.nodes e = some en) (ht : en.type = .element) : ¬ ReadOnly w e := by
  rintro ⟨n, hn, h⟩
  rw [he] at hn; cases hn
  rcases h with h | h | ⟨h, _⟩ | ⟨_, j, m, h1, h2, h3⟩
  · rw [ht] at h; cases h
  · rw [ht] at h; cases h
  · rw [ht] at h; cases h
  · rcases Relation.ReflTransGen.cases_tail h1 with rfl | ⟨c, _, cn, hc, hp⟩
    · rw [he] at h2; cases h2; rw [ht] at h3; rcases h3 with h3 | h3 <;> cases h3
    · obtain ⟨k1, k2⟩ := S.ents c cn j m hc hp h2
      rcases h3 with h3 | h3
      · exact k2 h3
      · exact k1 h3

theorem getByIndex_pos : ∀ (l : List AttrEntry) (i : Nat), 0 < i → i < 4294967296 → getByIndex l i = l[i - 1]?
  | [], i, _, _ => by simp [getByIndex]
  | e :: l, i, h, h' => by
      have e1 : sub32 i 1 = i - 1 := by unfold sub32; rw [if_pos (by omega)]
      unfold getByIndex
      rw [e1]
      by_cases hi : i = 1
      · subst hi; simp
      · rw [if_neg (by omega), getByIndex_pos l (i - 1) (by omega) (by omega)]
        obtain ⟨q, rfl⟩ : ∃ q, i = q + 2 := ⟨i - 2, by omega⟩
        simp

theorem getByIndex_item (l : List AttrEntry) (i : Nat) (hi : i < 4294967296) (hl : l.length < 4294967296) : getByIndex l (u32 (i + 1)) = l[i]? := by
  by_cases h : i + 1 < 4294967296
  · have e : u32 (i + 1) = i + 1 := by unfold u32; rw [if_pos (by omega)]
    rw [e, getByIndex_pos l (i + 1) (by omega) h]; simp
  · have hi : i = 4294967295 := by omega
    subst hi
    have e : u32 (4294967295 + 1) = 0 := by decide +kernel
    rw [e, List.getElem?_eq_none (by omega)]
    cases l with
    | nil => rfl
    | cons x l =>
      have e1 : sub32 0 1 = 4294967295 := by decide +kernel
      unfold getByIndex
      rw [e1, if_neg (by omega), getByIndex_pos l _ (by omega) (by omega)]
      simp at hl
      rw [List.getElem?_eq_none (by omega)]

theorem getByIndex_mem : ∀ (l : List AttrEntry) (i : Nat) {z : AttrEntry}, getByIndex l i = some z → z ∈ l
  | [], i, z, h => by cases h
  | e :: l, i, z, h => by
      unfold getByIndex at h
      split at h
      · cases h; simp
      · exact List.mem_cons_of_mem _ (getByIndex_mem l _ h)

/-! ## Every step keeps the invariant -/

/-- One attribute of the node of a map is looked up. -/
theorem found_run {w : World} {ch : Children} (S : Sound w ch) {e : NodeId} {en : Node} (he : w.nodes e = some en) (ht : en.type = .element) {y : Option AttrEntry}
    (hy : ∀ z, y = some z → z ∈ en.attrs) (hr : ∀ a an, w.nodes a = some an → an.parent = some e → an.refcnt + 2 < 4294967296) :
    ∃ w', found y w = .ok w' (y.map (·.node)) ∧ Sound w' ch ∧ Grants w w' (y.map (·.node)) ∧
      ∀ j, w'.nodes j = (w.nodes j).map fun n => { n with refcnt := n.refcnt + if y.map (·.node) = some j then 1 else 0 } := by
  cases y with
  | none => exact ⟨w, rfl, S, .refl, fun j => by cases w.nodes j <;> simp⟩
  | some z =>
    obtain ⟨an, ha, _, hp⟩ := entry_node S he ht (hy z rfl)
    have hov := hr _ an ha hp
    refine ⟨_, ?_, S.ref ha (by omega), grants_ref ha (by omega), fun j => ?_⟩
    · show (ref z.node >>= _) w = _
      rw [bind_ok (ref_run ha)]; rfl
    · rw [mp_nodes]
      by_cases hj : j = z.node
      · subst hj
        have e : u32 (an.refcnt + 1) = an.refcnt + 1 := by unfold u32; rw [if_pos (by omega)]
        rw [ha]; simp [e]
      · have hj' : ¬ z.node = j := fun h => hj h.symm
        cases w.nodes j <;> simp [hj, hj']

theorem openMap_const (x : NodeId) : Constant (openMap x) := by unfold openMap; const
theorem found_const (y : Option AttrEntry) : Constant (found y) := by unfold found; const
macro_rules | `(tactic| const1) => `(tactic| with_reducible exact found_const _)
theorem itemNode_const (e : NodeId) (i : Nat) : Constant (itemNode e i) := by unfold itemNode; const
theorem getAttrNode_const (e : NodeId) (name : DStr) (ns : Option DStr) : Constant (getAttrNode e name ns) := by unfold getAttrNode; const
macro_rules | `(tactic| const1) => `(tactic| with_reducible exact getAttrNode_const _ _ _)
macro_rules | `(tactic| const1) => `(tactic| with_reducible exact removeAttr_const _ _ _)
theorem takeNamed_const (e : NodeId) (name : DStr) (ns : Option DStr) : Constant (takeNamed e name ns) := by unfold takeNamed; const

/-- The first attribute of the name is taken out, and the client is given a reference to it. -/
theorem take_run {w : World} {ch : Children} (S : Sound w ch) {e : NodeId} {en : Node} (he : w.nodes e = some en) (ht : en.type = .element) (name : DStr) (ns : Option DStr)
    (hr : ∀ a an, w.nodes a = some an → an.parent = some e → an.refcnt + 2 < 4294967296) :
    (en.attrs.find? (sameAttr name ns) = none ∧ takeNamed e name ns w = .exc w .notFound) ∨
    ∃ y w' ch', en.attrs.find? (sameAttr name ns) = some y ∧ takeNamed e name ns w = .ok w' (some y.node) ∧ Sound w' ch' ∧ Grants w w' (some y.node) ∧
      (∃ en', w'.nodes e = some en' ∧ en'.attrs = en.attrs.filter (fun z => decide (z.node ≠ y.node))) ∧ ∃ an, w'.nodes y.node = some an ∧ an.type = .attribute ∧ an.parent = none := by
  have hmem : ∀ z, en.attrs.find? (sameAttr name ns) = some z → z ∈ en.attrs := fun z h => List.mem_of_find?_eq_some h
  obtain ⟨w1, h1, S1, g1, n1⟩ := found_run S he ht hmem hr
  have e1 : getAttrNode e name ns w = .ok w1 ((en.attrs.find? (sameAttr name ns)).map (·.node)) := by
    unfold getAttrNode; rw [get_bind he]; exact h1
  cases hf : en.attrs.find? (sameAttr name ns) with
  | none =>
    refine .inl ⟨rfl, ?_⟩
    rw [hf] at e1 h1
    have : w1 = w := by cases h1; rfl
    subst this
    unfold takeNamed; rw [bind_ok e1]; rfl
  | some y =>
    right
    rw [hf] at e1 g1 n1
    obtain ⟨an, ha, hat, hp⟩ := entry_node S he ht (hmem y hf)
    have hne : y.node ≠ e := by intro h; rw [h, he] at ha; cases ha; rw [ht] at hat; cases hat
    have he1 : w1.nodes e = some en := by rw [n1 e, he]; simp [hne]
    have ha1 : w1.nodes y.node = some { an with refcnt := an.refcnt + 1 } := by rw [n1, ha]; simp
    have hov := hr _ an ha hp
    obtain ⟨w2, ch2, h2, R⟩ := dropFound_run S1 he1 ht (hmem y hf) (fun n hn => by rw [ha1] at hn; cases hn; show an.refcnt + 1 + 1 < _; omega)
      (fun h => by rw [count_some ha1] at h; exact absurd h (by simp))
    refine ⟨y, w2, ch2, rfl, ?_, R.sound, fun j => by rw [R.counts j, g1 j]; rfl, ⟨_, R.element en he1, rfl⟩, ⟨_, (R.kept _ ha1 (by simp)).1, hat, rfl⟩⟩
    have e2 : removeAttr e name ns w1 = .ok w2 () := by
      unfold removeAttr
      rw [not_ro S1.wf.toCore he1 (element_free S1 he1 ht), get_bind he1, hf]
      exact h2
    unfold takeNamed
    rw [bind_ok e1]
    show (removeAttr e name ns >>= _) w1 = _
    rw [bind_ok e2]; rfl

theorem pullAttr_const (e : NodeId) (y : AttrEntry) : Constant (pullAttr e y) := by unfold pullAttr; const; all_goals exact attrKill_const (destroy_const _) _
macro_rules | `(tactic| const1) => `(tactic| with_reducible exact pullAttr_const _ _)
theorem linkAttr_const (e a : NodeId) (name : DStr) (ns : Option DStr) : Constant (linkAttr e a name ns) := by unfold linkAttr; const
macro_rules | `(tactic| const1) => `(tactic| with_reducible exact linkAttr_const _ _ _ _)
theorem swapIn_const (l : List AttrEntry) (y : Option AttrEntry) (e a : NodeId) (name : DStr) (ns : Option DStr) : Constant (swapIn l y e a name ns) := by unfold swapIn; const
macro_rules | `(tactic| const1) => `(tactic| with_reducible exact swapIn_const _ _ _ _ _ _)
theorem setNamed_const (e a : NodeId) (name : DStr) (ns : Option DStr) : Constant (setNamed e a name ns) := by unfold setNamed; const

/-- The attribute is taken out of the list. -/
theorem pull_run {w : World} {ch : Children} (S : Sound w ch) {e : NodeId} {en : Node} (he : w.nodes e = some en) (het : en.type = .element) {y : AttrEntry} (hy : y ∈ en.attrs)
    {an : Node} (ha : w.nodes y.node = some an) (hat : an.type = .attribute) (hp : an.parent = some e) (hov : an.refcnt + 1 < 4294967296) :
    pullAttr e y w = .ok (withoutAttr w e y.node en an (an.refcnt + 1)) () := by
  generalize hay : y.node = a at *
  have hne : e ≠ a := by rintro rfl; rw [he] at ha; cases ha; rw [het] at hat; cases hat
  obtain ⟨d, dn, ho, hd, hdt⟩ := attr_owner S ha hat
  have hde : d ≠ e := by rintro rfl; rw [he] at hd; cases hd; rw [hdt] at het; cases het
  have hda : d ≠ a := by rintro rfl; rw [ha] at hd; cases hd; rw [hdt] at hat; cases hat
  have hpe : an.pendingIn = none := by
    rcases S.wf.pending a an ha with h | h
    · rw [h, if_pos (.inl (by rw [hp]; rfl))]
    · exact h.2
  have hu32 : u32 (an.refcnt + 1) = an.refcnt + 1 := u32_small hov
  have h1a : (withoutAttr w e a en an (an.refcnt + 1)).nodes a = some { an with parent := none, pendingIn := an.owner, refcnt := an.refcnt + 1 } := by
    simp [withoutAttr, World.upd, Ne.symm hne]
  have h1e : (withoutAttr w e a en an (an.refcnt + 1)).nodes e = some { en with attrs := en.attrs.filter (fun y => decide (y.node ≠ a)) } := by
    simp [withoutAttr, World.upd]
  have h1o : ∀ j, j ≠ e → j ≠ a → (withoutAttr w e a en an (an.refcnt + 1)).nodes j = w.nodes j := by
    intro j h1 h2; simp [withoutAttr, World.upd, h1, h2]
  unfold pullAttr
  rw [hay]
  have href : ref a w = .ok (w.upd a { an with refcnt := an.refcnt + 1 }) () := by
    unfold ref; rw [modNode_run ha, hu32]
  rw [bind_ok href, mod_bind (n := en) (by rw [upd_ne _ _ hne]; exact he), bound_bind]
  generalize hu : (w.upd a { an with refcnt := an.refcnt + 1 }).upd e { en with attrs := en.attrs.filter (fun y => decide (y.node ≠ a)) } = u
  have hua : u.nodes a = some { an with refcnt := an.refcnt + 1 } := by rw [← hu, upd_ne _ _ (Ne.symm hne), upd_same]
  have hud : u.nodes d = some dn := by rw [← hu, upd_ne _ _ hde, upd_ne _ _ hda]; exact hd
  have hue : u.nodes e = some { en with attrs := en.attrs.filter (fun y => decide (y.node ≠ a)) } := by rw [← hu, upd_same]
  unfold attrKill
  rw [hay, get_bind hua, ho, deref_bind, get_bind hud]
  have hcls : ((if y.ns.isNone ∧ y.name.data = (Names.lit "class").data then do
      let p ← deref an.parent
      let _ ← getNode p
      pure ()
    else pure ()) : M Unit) u = .ok u () := by
    by_cases h : y.ns.isNone ∧ y.name.data = (Names.lit "class").data
    · rw [if_pos h, hp, deref_bind, get_bind hue]; rfl
    · rw [if_neg h]; rfl
  refine (bind_ok hcls _).trans ?_
  rw [mod_bind hua]
  unfold tryDestroy
  rw [get_bind (upd_same _ _ _)]
  rw [if_pos (show Option.isNone (none : Option NodeId) = true from rfl), if_neg (Nat.succ_ne_zero _), if_pos (show Option.isNone an.pendingIn = true by rw [hpe]; rfl)]
  show (deref an.owner >>= _) _ = _
  rw [ho, deref_bind, get_bind (n := dn) (by rw [upd_ne _ _ hda]; exact hud), modNode_run (upd_same _ _ _)]
  congr 1
  refine world_ext ?_ (by rw [← hu]; rfl) (by rw [← hu]; rfl)
  funext j
  by_cases hja : j = a
  · subst hja; rw [upd_same, h1a, ho]
  · rw [upd_ne _ _ hja, upd_ne _ _ hja]
    by_cases hje : j = e
    · subst hje; rw [hue, h1e]
    · rw [h1o j hje hja, ← hu, upd_ne _ _ hje, upd_ne _ _ hja]

/-- The attribute is put at the end of the list. -/
theorem link_run {w : World} {ch : Children} (S : Sound w ch) {e a : NodeId} {en an : Node} (he : w.nodes e = some en) (het : en.type = .element) (ha : w.nodes a = some an)
    (hat : an.type = .attribute) (hp : an.parent = none) (ho : en.owner = an.owner) (name : DStr) (ns : Option DStr) :
    linkAttr e a name ns w = .ok (withAttr w e a en an name ns) () ∧ Sound (withAttr w e a en an name ns) ch := by
  have hC := S.wf.toCore
  have hne : e ≠ a := by rintro rfl; rw [he] at ha; cases ha; rw [het] at hat; cases hat
  unfold linkAttr
  rw [mod_bind ha]
  obtain ⟨d, dn, o1, o2, o3⟩ | ⟨o1, _⟩ := hC.owner a an ha
  swap
  · rw [hat] at o1; cases o1
  have hpend : an.pendingIn = some d := by
    rcases S.wf.pending a an ha with h | ⟨h, _⟩
    · rw [h, hp, hat, o1]; simp
    · rw [hat] at h; cases h
  have hrp : removePending a (w.upd a { an with parent := some e }) = .ok (w.upd a { an with parent := some e, pendingIn := none }) () := by
    unfold removePending
    rw [get_bind (n := { an with parent := some e }) (by simp [World.upd])]
    dsimp only
    rw [o1]
    dsimp only
    rw [hpend]
    show (cassert true >>= _) _ = _
    rw [cassert_bind]
    rw [modNode_run (n := { an with parent := some e }) (by simp [World.upd, o1, hpend])]
    congr 1
    simp only [World.upd, World.mk.injEq, and_true]
    funext j
    by_cases h : j = a
    · simp [h, ← o1]
    · simp [h]
  rw [bind_ok hrp]
  clear hrp
  have he' : (w.upd a { an with parent := some e, pendingIn := none }).nodes e = some en := by rw [upd_ne _ _ hne]; exact he
  rw [modNode_run he']
  exact ⟨rfl, S.withAttr he het ha hat hp ho (fun h => element_free S he het (below_attr_readonly hC ha hat he het h)) name ns⟩

/-- The nodes after `a` was put in the place of what was found. -/
structure Swapped (w : World) (e a : NodeId) (name : DStr) (ns : Option DStr) (r : Option NodeId) (w' : World) : Prop where
  element : ∀ en, w.nodes e = some en → w'.nodes e = some { en with attrs := en.attrs.filter (fun z => decide (r ≠ some z.node)) ++ [{ name := name, ns := ns, node := a }] }
  put : ∀ an, w.nodes a = some an → w'.nodes a = some { an with parent := some e, pendingIn := none, refcnt := an.refcnt + if r = some a then 1 else 0 }
  out : ∀ b bn, r = some b → b ≠ a → w.nodes b = some bn → w'.nodes b = some { bn with parent := none, pendingIn := bn.owner, refcnt := bn.refcnt + 1 }
  rest : ∀ j, j ≠ e → j ≠ a → r ≠ some j → w'.nodes j = w.nodes j

theorem swap_run {w : World} {ch : Children} (S : Sound w ch) {e a : NodeId} {en an : Node} (he : w.nodes e = some en) (het : en.type = .element) (ha : w.nodes a = some an)
    (hat : an.type = .attribute) (ho : en.owner = an.owner) (name : DStr) (ns : Option DStr) {y : Option AttrEntry} (hy : ∀ z, y = some z → z ∈ en.attrs)
    (hh : ∀ z, y = some z → en.attrs.head?.map (·.node) ≠ some z.node) (hpar : an.parent = none ∨ an.parent = some e ∧ ∃ z, y = some z ∧ z.node = a)
    (hr : ∀ a an, w.nodes a = some an → an.parent = some e → an.refcnt + 2 < 4294967296) :
    ∃ w', swapIn en.attrs y e a name ns w = .ok w' (y.map (·.node)) ∧ Sound w' ch ∧ Grants w w' (y.map (·.node)) ∧ Swapped w e a name ns (y.map (·.node)) w' := by
  have hne : e ≠ a := by rintro rfl; rw [he] at ha; cases ha; rw [het] at hat; cases hat
  cases y with
  | none =>
    have hp : an.parent = none := by
      rcases hpar with h | ⟨_, z, h, _⟩
      · exact h
      · cases h
    obtain ⟨h1, S1⟩ := link_run S he het ha hat hp ho name ns
    refine ⟨_, ?_, S1, grants_putAttr he ha name ns, ?_, ?_, ?_, ?_⟩
    · show (linkAttr e a name ns >>= _) w = _
      rw [bind_ok h1]; rfl
    · intro n hn; rw [he] at hn; cases hn; simp [withAttr, World.upd]
    · intro n hn; rw [ha] at hn; cases hn; simp [withAttr, World.upd, Ne.symm hne]
    · intro b bn h; cases h
    · intro j h1 h2 _; simp [withAttr, World.upd, h1, h2]
  | some y =>
    obtain ⟨bn, hb, hbt, hbp⟩ := entry_node S he het (hy y rfl)
    have hov := hr _ bn hb hbp
    have hbe : y.node ≠ e := by intro h; rw [h, he] at hb; cases hb; rw [het] at hbt; cases hbt
    have h1 := pull_run S he het (hy y rfl) hb hbt hbp (by omega)
    have S1 := S.withoutAttr he het hb hbt hbp (r := bn.refcnt + 1) (Nat.succ_pos _)
    have n1e : (withoutAttr w e y.node en bn (bn.refcnt + 1)).nodes e = some { en with attrs := en.attrs.filter (fun z => decide (z.node ≠ y.node)) } := by
      simp [withoutAttr, World.upd]
    have n1b : (withoutAttr w e y.node en bn (bn.refcnt + 1)).nodes y.node = some { bn with parent := none, pendingIn := bn.owner, refcnt := bn.refcnt + 1 } := by
      simp [withoutAttr, World.upd, hbe]
    have n1o : ∀ j, j ≠ e → j ≠ y.node → (withoutAttr w e y.node en bn (bn.refcnt + 1)).nodes j = w.nodes j := by
      intro j h1 h2; simp [withoutAttr, World.upd, h1, h2]
    generalize withoutAttr w e y.node en bn (bn.refcnt + 1) = w1 at *
    have hg1 : Grants w w1 (some y.node) := by
      intro j
      by_cases hj : j = y.node
      · subst hj; rw [count_some n1b, count_some hb]; simp
      · have : ¬ some y.node = some j := fun h => hj (by cases h; rfl)
        rw [if_neg this]
        by_cases hje : j = e
        · subst hje; rw [count_some n1e, count_some he]; simp
        · unfold count; rw [n1o j hje hj]; simp
    obtain ⟨an1, ha1, hat1, hp1, ho1, hput⟩ : ∃ an1, w1.nodes a = some an1 ∧ an1.type = .attribute ∧ an1.parent = none ∧ en.owner = an1.owner ∧
        { an1 with parent := some e, pendingIn := none } = { an with parent := some e, pendingIn := none, refcnt := an.refcnt + if some y.node = some a then 1 else 0 } := by
      by_cases hya : y.node = a
      · rw [hya] at hb n1b; rw [ha] at hb; cases hb
        exact ⟨_, n1b, hat, rfl, ho, by simp [hya]⟩
      · refine ⟨an, by rw [n1o a (Ne.symm hne) (Ne.symm hya)]; exact ha, hat, ?_, ho, by simp [hya]⟩
        rcases hpar with h | ⟨_, z, h, h'⟩
        · exact h
        · cases h; exact absurd h' hya
    obtain ⟨h2, S2⟩ := link_run S1 n1e het ha1 hat1 hp1 ho1 name ns
    refine ⟨_, ?_, S2, ?_, ?_, ?_, ?_, ?_⟩
    · unfold swapIn
      dsimp only
      rw [if_neg (hh y rfl), bind_ok h1, bind_ok h2]; rfl
    · intro j
      rw [grants_putAttr n1e ha1 name ns j, hg1 j]; simp
    · intro n hn; rw [he] at hn; cases hn
      simp only [withAttr, World.upd, if_true, Option.map_some]
      congr 4
      funext z
      simp only [ne_eq, Option.some.injEq, eq_comm]
    · intro n hn; rw [ha] at hn; cases hn
      have : (withAttr w1 e a { en with attrs := en.attrs.filter (fun z => decide (z.node ≠ y.node)) } an1 name ns).nodes a = some { an1 with parent := some e, pendingIn := none } := by
        simp [withAttr, World.upd, Ne.symm hne]
      rw [this, hput]; rfl
    · intro b n hr' hba hn
      cases hr'
      rw [hb] at hn; cases hn
      rw [← n1b]; simp [withAttr, World.upd, hbe, hba]
    · intro j h1 h2 h3
      have : (withAttr w1 e a { en with attrs := en.attrs.filter (fun z => decide (z.node ≠ y.node)) } an1 name ns).nodes j = w1.nodes j := by simp [withAttr, World.upd, h1, h2]
      rw [this]
      exact n1o j h1 (fun h => h3 (by rw [h]; rfl))

/-- How setting an attribute ends. -/
theorem set_run {w : World} {ch : Children} (S : Sound w ch) {e a : NodeId} {en an : Node} (he : w.nodes e = some en) (het : en.type = .element) (ha : w.nodes a = some an)
    (name : DStr) (ns : Option DStr) :
    setNamed e a name ns w =
      if an.type ≠ .attribute then .exc w .hierarchyRequest
      else if en.owner ≠ an.owner then .exc w .wrongDocument
      else if an.parent ≠ none ∧ an.parent ≠ some e then .exc w .inuseAttribute
      else swapIn en.attrs (en.attrs.find? (sameAttr name ns)) e a name ns w := by
  unfold setNamed
  rw [get_bind ha]
  by_cases h1 : an.type ≠ .attribute
  · rw [if_pos h1, decide_eq_true h1, throwIf_true]
  rw [if_neg h1, decide_eq_false h1, throwIf_false, get_bind he]
  by_cases h2 : en.owner ≠ an.owner
  · rw [if_pos h2, decide_eq_true h2, throwIf_true]
  rw [if_neg h2, decide_eq_false h2, throwIf_false]
  rw [not_ro S.wf.toCore he (element_free S he het)]
  by_cases h3 : an.parent ≠ none ∧ an.parent ≠ some e
  · rw [if_pos h3]
    have : (an.parent.isSome && decide (an.parent ≠ some e)) = true := by
      rw [Bool.and_eq_true]; exact ⟨Option.isSome_iff_ne_none.2 h3.1, decide_eq_true h3.2⟩
    rw [this, throwIf_true]
  · rw [if_neg h3]
    have : (an.parent.isSome && decide (an.parent ≠ some e)) = false := by
      rw [Bool.eq_false_iff]
      intro h
      rw [Bool.and_eq_true] at h
      exact h3 ⟨Option.isSome_iff_ne_none.1 h.1, of_decide_eq_true h.2⟩
    rw [this, throwIf_false]

theorem first_of_find {n : Node} {name : DStr} {ns : Option DStr} {y : AttrEntry} (h : n.attrs.find? (sameAttr name ns) = some y) : First n name ns y := by
  obtain ⟨hp, l, r, h1, h2⟩ := List.find?_eq_some_iff_append.1 h
  exact ⟨l, r, h1, sameAttr_iff.1 hp, fun z hz hs => by have := h2 z hz; rw [sameAttr_iff.2 hs] at this; cases this⟩

theorem Heedful.more {led led' : Ledger} {w : World} {a : Op} (h : Heedful led w a) (hle : ∀ j, led j ≤ led' j) : Heedful led' w a :=
  ⟨fun x hx => Nat.lt_of_lt_of_le (h.1 x hx) (hle x), h.2⟩

theorem book_more {led : Ledger} {w : World} {a : Op} (h : Heedful led w a) (c : NodeId → Nat) (r : Option NodeId) (j : NodeId) :
    a.book (fun j => led j + c j) r j = a.book led r j + c j := by
  cases a with
  | act a =>
    cases a with
    | unref x =>
      have := h.1 x (by simp [Op.args, Act.args])
      simp only [Op.book, Act.book]
      split
      · rename_i e; subst e; omega
      · rfl
    | _ => simp only [Op.book, Act.book]; omega
  | _ => simp only [Op.book]; omega

theorem map_live {led : Ledger} {mled : MapLedger} {s : Stock} {k : Nat} (hm : MapOK s.w mled s.maps) (h : 0 < mled k) : ∃ m, s.maps[k]? = some (some m) := by
  by_cases hx : ∃ m, s.maps[k]? = some (some m)
  · exact hx
  · have := (hm k).2 (fun m h => hx ⟨m, h⟩); omega

theorem withMap_eq {s : Stock} {k : Nat} {m : AttrMap} (h : s.maps[k]? = some (some m)) (f : AttrMap → MapRes) : withMap s k f = f m := by
  unfold withMap; rw [h]

theorem onTree_ok {α : Type} {s : Stock} {m : M α} {w' : World} {a : α} (h : m s.w = .ok w' a) (k : World → α → MapRes) : onTree s m k = k w' a := by
  unfold onTree; rw [h]

/-- How a step of a mindful client ends. -/
def StepOK (led : Ledger) (mled : MapLedger) (a : MapOp) (r : MapRes) : Prop :=
  (∃ s' x, r = .ok s' x ∧ Kept (a.book led x) (a.mapBook mled x) s') ∨ ∃ s' e, r = .exc s' e ∧ Kept led mled s'

theorem ask_step {led : Ledger} {mled : MapLedger} {s : Stock} {ch : Children} {k : Nat} {m : AttrMap} (S : Sound s.w ch) (hc : ∀ j, count s.w j = led j + onNode j s.maps)
    (hm : MapOK s.w mled s.maps) (hk : s.maps[k]? = some (some m)) {f : NodeId → M (Option NodeId)} (hf : Constant (f m.node)) {w' : World} {ch' : Children} {r : Option NodeId}
    (h : f m.node s.w = .ok w' r) (S' : Sound w' ch') (hg : Grants s.w w' r) :
    ∃ s', ask k s f = .ok s' (.node r) ∧ Kept (fun j => led j + if r = some j then 1 else 0) mled s' := by
  refine ⟨{ s with w := w' }, ?_, ch', S', fun j => ?_, hm.keep S.bounded ((hf s.w S.bounded).1 w' r h).2 fun k' m' hk' => ?_⟩
  · unfold ask; rw [withMap_eq hk, onTree_ok h]
  · have := hg j; have := hc j; dsimp only; omega
  · show 0 < count w' m'.node
    rw [hg, hc]; have := onNode_pos _ _ hk'; omega

theorem Kept.step {led : Ledger} {mled : MapLedger} {s : Stock} (h : Kept led mled s) {a : MapOp} (ha : Mindful led mled s a) : StepOK led mled a (a.run s) := by
  obtain ⟨ch, S, hc, hm⟩ := h
  have hpos : ∀ {w' : World} {k : Nat} {m : AttrMap}, s.maps[k]? = some (some m) → (∀ j, ∃ l, count w' j = l + onNode j s.maps) → 0 < count w' m.node := by
    intro w' k m hk h
    obtain ⟨l, h⟩ := h m.node
    have := onNode_pos _ _ hk; omega
  cases a with
  | tree a =>
    have hh : Heedful (fun j => led j + onNode j s.maps) s.w a := Heedful.more ha (fun j => Nat.le_add_right _ _)
    obtain ⟨w', ch', S', ⟨r, h1, h2⟩ | ⟨e, h1, h2⟩⟩ := S.op hc hh
    · refine .inl ⟨{ s with w := w' }, .node r, onTree_ok h1 _, ch', S', fun j => ?_, hm.keep S.bounded ((op_const a s.w S.bounded).1 w' r h1).2 fun k m hk => ?_⟩
      · rw [h2 j]; exact book_more ha _ r j
      · exact hpos hk fun j => ⟨_, by rw [h2 j]; exact book_more ha _ r j⟩
    · refine .inr ⟨{ s with w := w' }, e, ?_, ch', S', h2, hm.keep S.bounded ((op_const a s.w S.bounded).2 w' e h1).2 fun k m hk => hpos hk fun j => ⟨_, h2 j⟩⟩
      show onTree s a.run _ = _
      unfold onTree; rw [h1]
  | attributes x =>
    obtain ⟨hx, hov⟩ := ha
    obtain ⟨n, hn, _⟩ := live_of_count (w := s.w) (j := x) (by rw [hc x]; omega)
    by_cases ht : n.type = .element
    · have ho := data_owner S hn (by rw [ht]; simp)
      have hov := hov n hn
      have h1 : openMap x s.w = .ok (s.w.mp (fun j n => { n with refcnt := if j = x then u32 (n.refcnt + 1) else n.refcnt }) []) true := by
        unfold openMap
        rw [get_bind hn, if_pos ht]
        obtain ⟨d, hd⟩ := Option.ne_none_iff_exists'.1 ho
        rw [hd]
        show (ref x >>= _) s.w = _
        rw [bind_ok (ref_run hn)]; rfl
      have hg := grants_ref hn hov
      have S1 := S.ref hn hov
      have hx1 : ∃ n', (s.w.mp (fun j n => { n with refcnt := if j = x then u32 (n.refcnt + 1) else n.refcnt }) []).nodes x = some n' ∧ n'.type = .element :=
        ⟨{ n with refcnt := u32 (n.refcnt + 1) }, by rw [mp_nodes, hn]; simp, ht⟩
      generalize s.w.mp (fun j n => { n with refcnt := if j = x then u32 (n.refcnt + 1) else n.refcnt }) [] = w1 at *
      have hl : ∀ j, count w1 j = led j + onNode j (s.maps ++ [some { node := x, refcnt := 1 }]) := by
        intro j
        rw [hg j, hc j, onNode_append]
        by_cases hj : x = j <;> simp [onNode, hj]; omega
      have hkeep := hm.keep S.bounded ((openMap_const x s.w S.bounded).1 _ _ h1).2 (fun k m hk => by
        rw [hl]; have := onNode_pos _ _ hk; rw [onNode_append]; omega)
      refine .inl ⟨{ w := w1, maps := s.maps ++ [some { node := x, refcnt := 1 }] }, .map (some s.maps.length), ?_, ch, S1, hl, fun k => ?_⟩
      · show getAttributes x s = _
        unfold getAttributes; rw [onTree_ok h1]; rfl
      · dsimp only [MapOp.mapBook]
        rcases Nat.lt_trichotomy k s.maps.length with hlt | rfl | hgt
        · rw [List.getElem?_append_left hlt]
          have : ¬ s.maps.length = k := by omega
          have e0 : mled k + (if some s.maps.length = some k then 1 else 0) = mled k := by simp [this]
          rw [e0]; exact hkeep k
        · have hz : mled s.maps.length = 0 := (hm _).2 (fun m h => by simp at h)
          refine ⟨fun m h => ?_, fun h => absurd (by simp) (h { node := x, refcnt := 1 })⟩
          have : m = { node := x, refcnt := 1 } := by simpa using h.symm
          subst this
          exact ⟨by simp [hz], by simp, hx1⟩
        · rw [List.getElem?_eq_none (by simp; omega)]
          have : ¬ s.maps.length = k := by omega
          have hz : mled k = 0 := (hm k).2 (fun m h => by rw [List.getElem?_eq_none (by omega)] at h; cases h)
          exact ⟨fun m h => (by cases h), fun _ => by simp [this, hz]⟩
    · have h1 : openMap x s.w = .ok s.w false := by
        unfold openMap; rw [get_bind hn, if_neg ht]; rfl
      refine .inl ⟨s, .map none, ?_, ch, S, hc, ?_⟩
      · show getAttributes x s = _
        unfold getAttributes; rw [onTree_ok h1]; rfl
      · simpa [MapOp.mapBook] using hm
  | ref k =>
    obtain ⟨hp, hov⟩ := ha
    obtain ⟨m, hk⟩ := map_live (led := led) hm hp
    obtain ⟨h1, h2, h3⟩ := (hm k).1 m hk
    have e : u32 (m.refcnt + 1) = mled k + 1 := by unfold u32; rw [if_pos (by omega), h1]
    have hlt : k < s.maps.length := by
      rcases Nat.lt_or_ge k s.maps.length with h | h
      · exact h
      · rw [List.getElem?_eq_none h] at hk; cases hk
    refine .inl ⟨{ s with maps := s.maps.set k (some { m with refcnt := u32 (m.refcnt + 1) }) }, .nothing, ?_, ch, S, fun j => ?_, fun i => ?_⟩
    · show mapRef k s = _
      unfold mapRef; rw [withMap_eq hk]
    · dsimp only [MapOp.book]; rw [onNode_set_some _ j _ _ hk]; exact hc j
    · dsimp only [MapOp.mapBook]
      by_cases hi : i = k
      · subst hi
        rw [List.getElem?_set_self hlt]
        refine ⟨fun m' h => ?_, fun h => absurd rfl (h _)⟩
        cases h
        exact ⟨by simp [e], by simp, h3⟩
      · rw [List.getElem?_set_ne (fun h => hi h.symm)]
        simpa [hi] using hm i
  | unref k =>
    obtain ⟨hp, hf⟩ := ha
    obtain ⟨m, hk⟩ := map_live (led := led) hm hp
    obtain ⟨h1, h2, h3⟩ := (hm k).1 m hk
    have e : sub32 m.refcnt 1 = mled k - 1 := by unfold sub32; rw [if_pos (by omega), h1]
    have hlt : k < s.maps.length := by
      rcases Nat.lt_or_ge k s.maps.length with h | h
      · exact h
      · rw [List.getElem?_eq_none h] at hk; cases hk
    by_cases hz : mled k = 1
    · obtain ⟨n, hn, hr⟩ := live_of_count (w := s.w) (j := m.node) (by rw [hc]; have := onNode_pos _ _ hk; omega)
      obtain ⟨w', ch', g1, S'⟩ := S.unref hn hr (hf hz m hk n hn)
      have g2 := S.unref_count hn hr g1
      have hl : ∀ j, count w' j = led j + onNode j (s.maps.set k none) := by
        intro j
        have a1 := onNode_set_none j s.maps k hk
        have a2 := hc j
        rw [g2 j]
        by_cases hj : j = m.node
        · rw [if_pos hj]; rw [if_pos hj.symm] at a1; omega
        · rw [if_neg hj]; rw [if_neg (fun h => hj h.symm)] at a1; omega
      refine .inl ⟨{ w := w', maps := s.maps.set k none }, .nothing, ?_, ch', S', hl, fun i => ?_⟩
      · show mapUnref k s = _
        unfold mapUnref; rw [withMap_eq hk, if_pos (by omega), onTree_ok g1]
      · dsimp only [MapOp.mapBook]
        by_cases hi : i = k
        · subst hi
          rw [List.getElem?_set_self hlt]
          exact ⟨fun m' h => (by cases h), fun _ => by simp [hz]⟩
        · rw [List.getElem?_set_ne (fun h => hi h.symm), if_neg hi]
          refine ⟨fun m' hm' => ?_, (hm i).2⟩
          obtain ⟨q1, q2, nn, q3, q4⟩ := (hm i).1 m' hm'
          obtain ⟨n', q5, _⟩ := live_of_count (w := w') (j := m'.node) (by
            rw [hl]
            have := onNode_pos (m := m') (s.maps.set k none) i (by rw [List.getElem?_set_ne (fun h => hi h.symm)]; exact hm')
            omega)
          obtain ⟨n'', q6, q7, _⟩ := ((unref_const m.node s.w S.bounded).1 w' () g1).2.2 m'.node n' q5 (S.bounded _ nn q3)
          rw [q3] at q6; cases q6
          exact ⟨q1, q2, n', q5, q7.trans q4⟩
    · refine .inl ⟨{ s with maps := s.maps.set k (some { m with refcnt := sub32 m.refcnt 1 }) }, .nothing, ?_, ch, S, fun j => ?_, fun i => ?_⟩
      · show mapUnref k s = _
        unfold mapUnref; rw [withMap_eq hk, if_neg (by omega)]
      · dsimp only [MapOp.book]; rw [onNode_set_some _ j _ _ hk]; exact hc j
      · dsimp only [MapOp.mapBook]
        by_cases hi : i = k
        · subst hi
          rw [List.getElem?_set_self hlt]
          refine ⟨fun m' h => ?_, fun h => absurd rfl (h _)⟩
          cases h
          exact ⟨by simp [e], by simp; omega, h3⟩
        · rw [List.getElem?_set_ne (fun h => hi h.symm), if_neg hi]
          exact hm i
  | length k =>
    obtain ⟨m, hk⟩ := map_live (led := led) hm ha
    obtain ⟨_, _, n, hn, _⟩ := (hm k).1 m hk
    refine .inl ⟨s, .number (u32 n.attrs.length), ?_, ch, S, hc, hm⟩
    show mapLength k s = _
    unfold mapLength; rw [withMap_eq hk, onTree_ok (getNode_run hn)]
  | item k i =>
    obtain ⟨hp, hr⟩ := ha
    obtain ⟨m, hk⟩ := map_live (led := led) hm hp
    obtain ⟨_, _, n, hn, ht⟩ := (hm k).1 m hk
    obtain ⟨w', h1, S', hg, _⟩ := found_run S hn ht (y := getByIndex n.attrs (u32 (i + 1))) (fun z hz => getByIndex_mem _ _ hz) (hr m hk)
    obtain ⟨s', e, K⟩ := ask_step S hc hm hk (f := fun e => itemNode e i) (itemNode_const m.node i) (w' := w') (by unfold itemNode; rw [get_bind hn]; exact h1) S' hg
    exact .inl ⟨s', _, e, K⟩
  | named k name ns =>
    obtain ⟨hp, hr⟩ := ha
    obtain ⟨m, hk⟩ := map_live (led := led) hm hp
    obtain ⟨_, _, n, hn, ht⟩ := (hm k).1 m hk
    obtain ⟨w', h1, S', hg, _⟩ := found_run S hn ht (y := n.attrs.find? (sameAttr name ns)) (fun z hz => List.mem_of_find?_eq_some hz) (hr m hk)
    obtain ⟨s', e, K⟩ := ask_step S hc hm hk (f := fun e => getAttrNode e name ns) (getAttrNode_const m.node name ns) (w' := w') (by unfold getAttrNode; rw [get_bind hn]; exact h1) S' hg
    exact .inl ⟨s', _, e, K⟩
  | remove k name ns =>
    obtain ⟨hp, hr⟩ := ha
    obtain ⟨m, hk⟩ := map_live (led := led) hm hp
    obtain ⟨_, _, n, hn, ht⟩ := (hm k).1 m hk
    rcases take_run S hn ht name ns (hr m hk) with ⟨_, h1⟩ | ⟨y, w', ch', _, h1, S', hg, _⟩
    · refine .inr ⟨s, .notFound, ?_, ch, S, hc, hm⟩
      show ask k s (fun e => takeNamed e name ns) = _
      unfold ask onTree; rw [withMap_eq hk]; dsimp only; rw [h1]
    · obtain ⟨s', e, K⟩ := ask_step S hc hm hk (f := fun e => takeNamed e name ns) (takeNamed_const m.node name ns) h1 S' hg
      exact .inl ⟨s', _, e, K⟩

  | set k a name ns =>
    obtain ⟨hp, hl, hr, hs⟩ := ha
    obtain ⟨m, hk⟩ := map_live (led := led) hm hp
    obtain ⟨_, _, n, hn, ht⟩ := (hm k).1 m hk
    obtain ⟨an, ha, _⟩ := live_of_count (w := s.w) (j := a) (by rw [hc a]; omega)
    obtain ⟨hs1, hs2⟩ := hs m hk n hn
    have e0 := set_run S hn ht ha name ns
    have hexc : ∀ x, setNamed m.node a name ns s.w = .exc s.w x → StepOK led mled (.set k a name ns) ((MapOp.set k a name ns).run s) := by
      intro x hx
      refine .inr ⟨s, x, ?_, ch, S, hc, hm⟩
      show ask k s (fun e => setNamed e a name ns) = _
      unfold ask onTree; rw [withMap_eq hk]; dsimp only; rw [hx]
    by_cases h1 : an.type ≠ .attribute
    · exact hexc _ (by rw [e0, if_pos h1])
    by_cases h2 : n.owner ≠ an.owner
    · exact hexc _ (by rw [e0, if_neg h1, if_pos h2])
    by_cases h3 : an.parent ≠ none ∧ an.parent ≠ some m.node
    · exact hexc _ (by rw [e0, if_neg h1, if_neg h2, if_pos h3])
    rw [if_neg h1, if_neg h2, if_neg h3] at e0
    obtain ⟨w', g1, S', hg, _⟩ := swap_run S hn ht ha (Classical.not_not.1 h1) (Classical.not_not.1 h2) name ns (y := n.attrs.find? (sameAttr name ns))
      (fun z hz => List.mem_of_find?_eq_some hz) (fun z hz => hs1 z (first_of_find hz)) (by
        by_cases hq : an.parent = none
        · exact .inl hq
        · have hq' : an.parent = some m.node := Classical.byContradiction fun h => h3 ⟨hq, h⟩
          obtain ⟨y, hy, hya⟩ := hs2 an ha hq'
          exact .inr ⟨hq', y, find_first hy, hya⟩) (hr m hk)
    obtain ⟨s', e, K⟩ := ask_step S hc hm hk (f := fun e => setNamed e a name ns) (setNamed_const m.node a name ns) (e0.trans g1) S' hg
    exact .inl ⟨s', _, e, K⟩

theorem Keeper.kept {led : Ledger} {mled : MapLedger} {s : Stock} (h : Keeper led mled s) : Kept led mled s := by
  induction h with
  | start => exact ⟨_, .empty, fun j => rfl, fun k => ⟨fun m h => (by simp at h), fun _ => rfl⟩⟩
  | done a _ ha hr ih =>
    rcases ih.step ha with ⟨s', x, h1, h2⟩ | ⟨s', e, h1, _⟩
    · rw [hr] at h1; cases h1; exact h2
    · rw [hr] at h1; cases h1
  | refused a _ ha hr ih =>
    rcases ih.step ha with ⟨s', x, h1, _⟩ | ⟨s', e, h1, h2⟩
    · rw [hr] at h1; cases h1
    · rw [hr] at h1; cases h1; exact h2

/-! ## The properties -/

variable {led : Ledger} {mled : MapLedger} {s : Stock} {k : Nat}

/-- C97: no fault.  Missing: what `Mindful` leaves out. -/
theorem C97_no_fault_partial (h : Keeper led mled s) {a : MapOp} (ha : Mindful led mled s a) (f : Fault) : a.run s ≠ .fault f := by
  rcases h.kept.step ha with ⟨s', x, h1, _⟩ | ⟨s', e, h1, _⟩ <;> rw [h1] <;> exact fun h => nomatch h

/-- C97: the map that the client has a reference to is there with as many references as the client has, its node is an element, and that element is in memory: the
count of every node is the number of references of the client and of maps that are there. -/
theorem C97_counts (h : Keeper led mled s) :
    (∀ k, 0 < mled k → ∃ m n, s.maps[k]? = some (some m) ∧ m.refcnt = mled k ∧ s.w.nodes m.node = some n ∧ n.type = .element) ∧
    (∀ k m, s.maps[k]? = some (some m) → 0 < mled k) ∧
    ∀ j, 0 < led j + onNode j s.maps → ∃ n, s.w.nodes j = some n ∧ n.refcnt = led j + onNode j s.maps := by
  obtain ⟨ch, S, hc, hm⟩ := h.kept
  refine ⟨fun k hk => ?_, fun k m hk => ((hm k).1 m hk).2.1, fun j hj => ?_⟩
  · obtain ⟨m, h1⟩ := map_live (led := led) hm hk
    obtain ⟨h2, _, n, h3, h4⟩ := (hm k).1 m h1
    exact ⟨m, n, h1, h2, h3, h4⟩
  · rw [← hc j] at hj ⊢
    obtain ⟨n, hn, _⟩ := live_of_count hj
    exact ⟨n, hn, (count_some hn).symm⟩

/-- C97: when the client has given up all references, to nodes and to maps, neither nodes nor maps are in memory. -/
theorem C97_no_leak_partial (h : Keeper led mled s) (hl : ∀ j, led j = 0) (hm : ∀ k, mled k = 0) : (∀ j, s.w.nodes j = none) ∧ ∀ (k : Nat) (m : AttrMap), s.maps[k]? ≠ some (some m) := by
  obtain ⟨ch, S, hc, ho⟩ := h.kept
  have hn : ∀ (k : Nat) (m : AttrMap), s.maps[k]? ≠ some (some m) := fun k m hk => by have := ((ho k).1 m hk).2.1; have := hm k; omega
  refine ⟨fun j => ?_, hn⟩
  have hz : ∀ j, count s.w j = 0 := fun j => by rw [hc j, hl j, onNode_zero _ (fun k m hk => absurd hk (hn k m))]
  have hz' : ∀ {i n}, s.w.nodes i = some n → n.refcnt = 0 := fun hi => by rw [← count_some hi]; exact hz _
  cases hj : s.w.nodes j with
  | none => rfl
  | some n =>
    have hC := S.wf.toCore
    obtain ⟨r, rn, _, h2, h3⟩ := exists_root hC hj
    by_cases ht : rn.type = .document
    · obtain ⟨hf, i, m, h4, h5, h6⟩ := S.docs r rn h2 ht (hz' h2)
      obtain ⟨q, qn, _, g1, g2, g3, g4⟩ := root_of hC h2 ht hf h4 h5 h6
      have := S.held q qn g1 g2 g4
      have := hz' g1; omega
    · have := S.held r rn h2 h3 ht
      have := hz' h2; omega

/-- C97: `dom_node_get_attributes` makes a new map for an element and takes one reference to the element; for other nodes there is none. -/
theorem C97_open (h : Keeper led mled s) {x : NodeId} (hx : 0 < led x) (hr : Room s.w x) :
    (IsType s.w x .element → ∃ w', (MapOp.attributes x).run s = .ok { w := w', maps := s.maps ++ [some { node := x, refcnt := 1 }] } (.map (some s.maps.length)) ∧ Grants s.w w' (some x)) ∧
    (¬ IsType s.w x .element → (MapOp.attributes x).run s = .ok s (.map none)) := by
  obtain ⟨ch, S, hc, hm⟩ := h.kept
  obtain ⟨n, hn, _⟩ := live_of_count (w := s.w) (j := x) (by rw [hc x]; omega)
  constructor
  · rintro ⟨n', hn', ht⟩
    rw [hn] at hn'; cases hn'
    refine ⟨_, ?_, grants_ref hn (hr n hn)⟩
    have h1 : openMap x s.w = .ok (s.w.mp (fun j n => { n with refcnt := if j = x then u32 (n.refcnt + 1) else n.refcnt }) []) true := by
      unfold openMap
      rw [get_bind hn, if_pos ht]
      obtain ⟨d, hd⟩ := Option.ne_none_iff_exists'.1 (data_owner S hn (by rw [ht]; simp))
      rw [hd]
      show (ref x >>= _) s.w = _
      rw [bind_ok (ref_run hn)]; rfl
    show getAttributes x s = _
    unfold getAttributes; rw [onTree_ok h1]; rfl
  · intro ht
    have h1 : openMap x s.w = .ok s.w false := by
      unfold openMap; rw [get_bind hn, if_neg (fun h => ht ⟨n, hn, h⟩)]; rfl
    show getAttributes x s = _
    unfold getAttributes; rw [onTree_ok h1]; rfl

/-- One more reference to `r`, and no other change to any node. -/
def OnlyRef (w w' : World) (r : Option NodeId) : Prop := ∀ j, w'.nodes j = (w.nodes j).map fun n => { n with refcnt := n.refcnt + if r = some j then 1 else 0 }

/-- C97: a map shows the attributes that its element has now, whatever was done since the map was made: its length is their number, item `i` is the `i`-th of them, and a name
gives the first of that name.  The attribute is referenced for the client, and nothing else changes. -/
theorem C97_live (h : Keeper led mled s) {m : AttrMap} (hk : s.maps[k]? = some (some m)) :
    ∃ n, s.w.nodes m.node = some n ∧ n.type = .element ∧
      (n.attrs.length < 4294967296 → (MapOp.length k).run s = .ok s (.number n.attrs.length)) ∧
      (AttrRoom s k → n.attrs.length < 4294967296 → ∀ i, i < 4294967296 →
        ∃ w', (MapOp.item k i).run s = .ok { s with w := w' } (.node ((n.attrs[i]?).map (·.node))) ∧ OnlyRef s.w w' ((n.attrs[i]?).map (·.node))) ∧
      (AttrRoom s k → ∀ name ns y, First n name ns y → ∃ w', (MapOp.named k name ns).run s = .ok { s with w := w' } (.node (some y.node)) ∧ OnlyRef s.w w' (some y.node)) ∧
      (∀ name ns, (∀ y ∈ n.attrs, ¬ Named name ns y) → (MapOp.named k name ns).run s = .ok s (.node none)) := by
  obtain ⟨ch, S, hc, hm⟩ := h.kept
  obtain ⟨_, _, n, hn, ht⟩ := (hm k).1 m hk
  refine ⟨n, hn, ht, fun hl => ?_, fun hr hl i hi => ?_, fun hr name ns y hy => ?_, fun name ns hy => ?_⟩
  · show mapLength k s = _
    unfold mapLength; rw [withMap_eq hk, onTree_ok (getNode_run hn)]
    have e : u32 n.attrs.length = n.attrs.length := by unfold u32; rw [if_pos (by omega)]
    rw [e]
  · obtain ⟨w', h1, _, _, h2⟩ := found_run S hn ht (y := n.attrs[i]?) (fun z hz => List.mem_of_getElem? hz) (hr m hk)
    refine ⟨w', ?_, h2⟩
    show ask k s (fun e => itemNode e i) = _
    unfold ask
    rw [withMap_eq hk, onTree_ok (w' := w') (a := (n.attrs[i]?).map (·.node))]
    unfold itemNode; dsimp only
    rw [get_bind hn, getByIndex_item _ _ hi hl]; exact h1
  · have hf := find_first hy
    obtain ⟨w', h1, _, _, h2⟩ := found_run S hn ht (y := some y) (fun z hz => by cases hz; exact List.mem_of_find?_eq_some hf) (hr m hk)
    refine ⟨w', ?_, h2⟩
    show ask k s (fun e => getAttrNode e name ns) = _
    unfold ask
    rw [withMap_eq hk, onTree_ok (w' := w') (a := some y.node)]
    unfold getAttrNode; dsimp only
    rw [get_bind hn, hf]; exact h1
  · show ask k s (fun e => getAttrNode e name ns) = _
    unfold ask
    rw [withMap_eq hk, onTree_ok (w' := s.w) (a := none)]
    unfold getAttrNode; dsimp only
    rw [get_bind hn, find_none hy]; rfl

/-- C97: removing a name takes the first attribute of that name out of the element, and no other; the attribute is given to the client, alive and without a parent.  If there is
none the call is refused, and nothing changes. -/
theorem C97_remove (h : Keeper led mled s) {m : AttrMap} (hk : s.maps[k]? = some (some m)) (hr : AttrRoom s k) (name : DStr) (ns : Option DStr) :
    ∃ n, s.w.nodes m.node = some n ∧ n.type = .element ∧
      (∀ y, First n name ns y → ∃ w' n' a, (MapOp.remove k name ns).run s = .ok { s with w := w' } (.node (some y.node)) ∧ w'.nodes m.node = some n' ∧
        n'.attrs = n.attrs.filter (fun z => decide (z.node ≠ y.node)) ∧ w'.nodes y.node = some a ∧ a.type = .attribute ∧ a.parent = none ∧ Grants s.w w' (some y.node)) ∧
      ((∀ y ∈ n.attrs, ¬ Named name ns y) → (MapOp.remove k name ns).run s = .exc s .notFound) := by
  obtain ⟨ch, S, hc, hm⟩ := h.kept
  obtain ⟨_, _, n, hn, ht⟩ := (hm k).1 m hk
  refine ⟨n, hn, ht, fun y hy => ?_, fun hy => ?_⟩
  · rcases take_run S hn ht name ns (hr m hk) with ⟨h0, _⟩ | ⟨y', w', ch', h0, h1, _, hg, ⟨n', g1, g2⟩, a, g3, g4, g5⟩
    · rw [find_first hy] at h0; cases h0
    · rw [find_first hy] at h0; cases h0
      refine ⟨w', n', a, ?_, g1, g2, g3, g4, g5, hg⟩
      show ask k s (fun e => takeNamed e name ns) = _
      unfold ask
      rw [withMap_eq hk, onTree_ok h1]
  · rcases take_run S hn ht name ns (hr m hk) with ⟨_, h1⟩ | ⟨y', _, _, h0, _⟩
    · show ask k s (fun e => takeNamed e name ns) = _
      unfold ask onTree; rw [withMap_eq hk]; dsimp only; rw [h1]
    · rw [find_none hy] at h0; cases h0

/-- C97: setting an attribute of a name that the element does not have puts it at the end of the attributes; nothing is answered.  If the element has an attribute of the
name, and it is not the first attribute, the first of that name is taken out, the new one is at the end, and the old one is given to the client, alive and, unless it is the
one that was set, without a parent.  No other node changes. -/
theorem C97_set_partial (h : Keeper led mled s) {m : AttrMap} (hk : s.maps[k]? = some (some m)) {a : NodeId} {an : Node} (ha : s.w.nodes a = some an) (hat : an.type = .attribute)
    (name : DStr) (ns : Option DStr) : ∃ n, s.w.nodes m.node = some n ∧ n.type = .element ∧
      (n.owner = an.owner → an.parent = none → (∀ y ∈ n.attrs, ¬ Named name ns y) → AttrRoom s k →
        ∃ w', (MapOp.set k a name ns).run s = .ok { s with w := w' } (.node none) ∧ Grants s.w w' none ∧
          w'.nodes m.node = some { n with attrs := n.attrs ++ [{ name := name, ns := ns, node := a }] } ∧ w'.nodes a = some { an with parent := some m.node, pendingIn := none } ∧
          ∀ j, j ≠ m.node → j ≠ a → w'.nodes j = s.w.nodes j) ∧
      (n.owner = an.owner → ∀ y, First n name ns y → (an.parent = none ∨ y.node = a) → n.attrs.head?.map (·.node) ≠ some y.node → AttrRoom s k →
        ∃ w' a' o, (MapOp.set k a name ns).run s = .ok { s with w := w' } (.node (some y.node)) ∧ Grants s.w w' (some y.node) ∧
          w'.nodes m.node = some { n with attrs := n.attrs.filter (fun z => decide (z.node ≠ y.node)) ++ [{ name := name, ns := ns, node := a }] } ∧
          w'.nodes a = some a' ∧ a'.parent = some m.node ∧ w'.nodes y.node = some o ∧ (y.node ≠ a → o.parent = none) ∧
          ∀ j, j ≠ m.node → j ≠ a → j ≠ y.node → w'.nodes j = s.w.nodes j) := by
  obtain ⟨ch, S, hc, hm⟩ := h.kept
  obtain ⟨_, _, n, hn, ht⟩ := (hm k).1 m hk
  have hrun : ∀ {w' r}, setNamed m.node a name ns s.w = .ok w' r → (MapOp.set k a name ns).run s = .ok { s with w := w' } (.node r) := by
    intro w' r hx
    show ask k s (fun e => setNamed e a name ns) = _
    unfold ask
    rw [withMap_eq hk, onTree_ok hx]
  have e0 := set_run S hn ht ha name ns
  rw [if_neg (by rw [hat]; simp)] at e0
  refine ⟨n, hn, ht, fun ho hp hy hr => ?_, fun ho y hy hp hh hr => ?_⟩
  · rw [if_neg (by simp [ho]), if_neg (by simp [hp]), find_none hy] at e0
    obtain ⟨w', g1, _, hg, W⟩ := swap_run S hn ht ha hat ho name ns (y := none) (fun z hz => by cases hz) (fun z hz => by cases hz) (.inl hp) (hr m hk)
    refine ⟨w', hrun (e0.trans g1), hg, ?_, ?_, fun j h1 h2 => W.rest j h1 h2 (by simp)⟩
    · rw [W.element n hn]; simp
    · rw [W.put an ha]; simp
  · have hf := find_first hy
    have hmem := List.mem_of_find?_eq_some hf
    obtain ⟨bn, hb, hbt, hbp⟩ := entry_node S hn ht hmem
    have hpar : an.parent = none ∨ an.parent = some m.node ∧ ∃ z, some y = some z ∧ z.node = a := by
      rcases hp with hp | hp
      · exact .inl hp
      · rw [hp] at hb; rw [ha] at hb; cases hb
        exact .inr ⟨hbp, y, rfl, hp⟩
    rw [if_neg (by simp [ho]), if_neg (by rintro ⟨q1, q2⟩; rcases hpar with hp | ⟨hp, _⟩ <;> contradiction), hf] at e0
    obtain ⟨w', g1, _, hg, W⟩ := swap_run S hn ht ha hat ho name ns (y := some y) (fun z hz => by cases hz; exact hmem) (fun z hz => by cases hz; exact hh) hpar (hr m hk)
    have hlast : ∃ o, w'.nodes y.node = some o ∧ (y.node ≠ a → o.parent = none) := by
      by_cases hya : y.node = a
      · exact ⟨_, by rw [hya]; exact W.put an ha, fun h => absurd hya h⟩
      · exact ⟨_, W.out y.node bn rfl hya hb, fun _ => rfl⟩
    obtain ⟨o, q1, q2⟩ := hlast
    refine ⟨w', _, o, hrun (e0.trans g1), hg, ?_, W.put an ha, rfl, q1, q2, fun j h1 h2 h3 => W.rest j h1 h2 (fun h => h3 (by cases h; rfl))⟩
    rw [W.element n hn]
    congr 4
    funext z
    simp only [Option.map_some, ne_eq, Option.some.injEq, eq_comm]

/-- C97: what is refused: a node that is no attribute, an attribute of another document, an attribute of another element.  Nothing changes. -/
theorem C97_set_refused (h : Keeper led mled s) {m : AttrMap} (hk : s.maps[k]? = some (some m)) {a : NodeId} {an : Node} (ha : s.w.nodes a = some an) (name : DStr) (ns : Option DStr) :
    ∃ n, s.w.nodes m.node = some n ∧
      (an.type ≠ .attribute → (MapOp.set k a name ns).run s = .exc s .hierarchyRequest) ∧
      (an.type = .attribute → n.owner ≠ an.owner → (MapOp.set k a name ns).run s = .exc s .wrongDocument) ∧
      (an.type = .attribute → n.owner = an.owner → ∀ q, an.parent = some q → q ≠ m.node → (MapOp.set k a name ns).run s = .exc s .inuseAttribute) := by
  obtain ⟨ch, S, hc, hm⟩ := h.kept
  obtain ⟨_, _, n, hn, ht⟩ := (hm k).1 m hk
  have hrun : ∀ {x}, setNamed m.node a name ns s.w = .exc s.w x → (MapOp.set k a name ns).run s = .exc s x := by
    intro x hx
    show ask k s (fun e => setNamed e a name ns) = _
    unfold ask onTree; rw [withMap_eq hk]; dsimp only; rw [hx]
  have e0 := set_run S hn ht ha name ns
  refine ⟨n, hn, fun h1 => hrun (by rw [e0, if_pos h1]), fun h1 h2 => hrun (by rw [e0, if_neg (by simp [h1]), if_pos h2]), fun h1 h2 q hq hne => hrun ?_⟩
  rw [e0, if_neg (by simp [h1]), if_neg (by simp [h2]), if_pos (by rw [hq]; simp [hne])]

/-- C97 does not hold for the first attribute of an element: replacing it through the map, as any other attribute of the name, reads freed memory. -/
theorem C97_set_first_violated (h : Keeper led mled s) {m : AttrMap} (hk : s.maps[k]? = some (some m)) {a : NodeId} {an n : Node} (ha : s.w.nodes a = some an) (hat : an.type = .attribute)
    (hn : s.w.nodes m.node = some n) (ho : n.owner = an.owner) (hp : an.parent = none ∨ an.parent = some m.node) {y : AttrEntry} {l : List AttrEntry} (hl : n.attrs = y :: l)
    {name : DStr} {ns : Option DStr} (hy : Named name ns y) : (MapOp.set k a name ns).run s = .fault .useAfterFree := by
  obtain ⟨ch, S, hc, hm⟩ := h.kept
  obtain ⟨_, _, n', hn', ht⟩ := (hm k).1 m hk
  rw [hn] at hn'; cases hn'
  have e0 := set_run S hn ht ha name ns
  rw [if_neg (by simp [hat]), if_neg (by simp [ho]), if_neg (by rintro ⟨q1, q2⟩; rcases hp with hp | hp <;> contradiction)] at e0
  have hf : n.attrs.find? (sameAttr name ns) = some y := find_first ⟨[], l, hl, hy, by simp⟩
  have : setNamed m.node a name ns s.w = .fault .useAfterFree := by
    rw [e0, hf]
    unfold swapIn
    dsimp only
    rw [if_pos (by rw [hl]; rfl)]; rfl
  show ask k s (fun e => setNamed e a name ns) = _
  unfold ask onTree; rw [withMap_eq hk]; dsimp only; rw [this]

/-! ## The hypotheses are met -/

theorem Keeper.of_editor {w : World} (h : Editor led w) : Keeper led (fun _ => 0) { w := w, maps := [] } := by
  induction h with
  | start => exact .start
  | done a _ ha hr ih =>
    have := Keeper.done (.tree a) ih (r := .node _) ha (onTree_ok (s := { w := _, maps := [] }) hr _)
    exact this
  | @refused _ _ _ e a _ ha hr ih =>
    refine Keeper.refused (.tree a) ih ha (e := e) (s' := { w := _, maps := [] }) ?_
    show onTree _ _ _ = _
    unfold onTree; rw [hr]

/-- A client has a map on an element with the attribute "b", which it may remove through the map; then it may give up the map. -/
theorem sample97 : ∃ led mled s m n y, Keeper led mled s ∧ mled 0 = 1 ∧ s.maps[0]? = some (some m) ∧ s.w.nodes m.node = some n ∧ First n (Str.create [98]) none y ∧ AttrRoom s 0 ∧
    Mindful led mled s (.remove 0 (Str.create [98]) none) ∧ Mindful led mled s (.unref 0) := by
  obtain ⟨led, w, hc, h⟩ := exists_careful attrActs
    (fun led w => at_ w 1 (fun m => m.type = .element && (m.attrs.find? (sameAttr (Str.create [98]) none)).isSome && decide (m.refcnt = 1)) && allB w (fun m => decide (m.refcnt + 3 < 4294967296)) && decide (0 < led 1)) (by decide +kernel)
  simp only [Bool.and_eq_true] at h
  obtain ⟨⟨h1, h2⟩, h3⟩ := h
  obtain ⟨n, hn, e1⟩ := at_elim h1
  simp only [Bool.and_eq_true, decide_eq_true_eq] at e1
  have hl1 := of_decide_eq_true h3
  obtain ⟨ch, S, _⟩ := hc.sound
  have hov : ∀ {j m}, w.nodes j = some m → m.refcnt + 3 < 4294967296 := fun hj => of_decide_eq_true (allB_elim S.wf.bnd h2 hj)
  have K := Keeper.of_editor (.of_client hc)
  have hroom : Room w 1 := fun m hm => by have := hov hm; omega
  obtain ⟨w', hrun, hg⟩ := (C97_open K hl1 hroom).1 ⟨n, hn, e1.1.1⟩
  have K' := Keeper.done (.attributes 1) K ⟨hl1, hroom⟩ hrun
  obtain ⟨n', hn', ht', _⟩ := C97_live K' (k := 0) (m := { node := 1, refcnt := 1 }) rfl
  have hw : w' = w.mp (fun j n => { n with refcnt := if j = 1 then u32 (n.refcnt + 1) else n.refcnt }) [] := by
    have h1 : openMap 1 w = .ok (w.mp (fun j n => { n with refcnt := if j = 1 then u32 (n.refcnt + 1) else n.refcnt }) []) true := by
      unfold openMap
      rw [get_bind hn, if_pos e1.1.1]
      obtain ⟨d, hd⟩ := Option.ne_none_iff_exists'.1 (data_owner S hn (by rw [e1.1.1]; simp))
      rw [hd]
      show (ref 1 >>= _) w = _
      rw [bind_ok (ref_run hn)]; rfl
    have h2 : getAttributes 1 { w := w, maps := [] } = _ := hrun
    unfold getAttributes at h2
    rw [onTree_ok (s := { w := w, maps := [] }) h1] at h2
    simp at h2
    exact h2.symm
  have hatt : n'.attrs = n.attrs := by
    have : w'.nodes 1 = some n' := hn'
    rw [hw, mp_nodes, hn] at this
    simp at this
    rw [← this]
  have hcnt : ∀ {j m}, w'.nodes j = some m → m.refcnt + 2 < 4294967296 := fun {j m} hj => by
    have := hg j
    rw [count_some hj] at this
    rw [this]
    cases hj' : w.nodes j with
    | none => rw [count_none hj']; split <;> omega
    | some q => rw [count_some hj']; have := hov hj'; split <;> omega
  have hroom' : AttrRoom { w := w', maps := [some { node := 1, refcnt := 1 }] } 0 := fun m _ a an ha _ => hcnt ha
  obtain ⟨y, hy⟩ := Option.isSome_iff_exists.1 e1.1.2
  refine ⟨_, _, _, { node := 1, refcnt := 1 }, n', y, K', rfl, rfl, hn', ?_, hroom', ⟨Nat.one_pos, hroom'⟩, ⟨Nat.one_pos, fun _ m hm => ?_⟩⟩
  · obtain ⟨hp, l, r, h1, h2⟩ := List.find?_eq_some_iff_append.1 hy
    exact ⟨l, r, by rw [hatt]; exact h1, sameAttr_iff.1 hp, fun z hz hs => by have := h2 z hz; rw [sameAttr_iff.2 hs] at this; cases this⟩
  · intro q hq hq1
    have : m = { node := 1, refcnt := 1 } := by simpa using hm.symm
    subst this
    have h1 := hg 1
    rw [count_some hq, hq1, count_some hn, e1.2] at h1
    simp at h1

theorem opened (h : Keeper led mled s) {x : NodeId} (hx : 0 < led x) (hr : Room s.w x) (ht : IsType s.w x .element) :
    ∃ w', (MapOp.attributes x).run s = .ok { w := w', maps := s.maps ++ [some { node := x, refcnt := 1 }] } (.map (some s.maps.length)) ∧ OnlyRef s.w w' (some x) := by
  obtain ⟨ch, S, hc, hm⟩ := h.kept
  obtain ⟨n, hn, ht⟩ := ht
  have hov := hr n hn
  have h1 : openMap x s.w = .ok (s.w.mp (fun j n => { n with refcnt := if j = x then u32 (n.refcnt + 1) else n.refcnt }) []) true := by
    unfold openMap
    rw [get_bind hn, if_pos ht]
    obtain ⟨d, hd⟩ := Option.ne_none_iff_exists'.1 (data_owner S hn (by rw [ht]; simp))
    rw [hd]
    show (ref x >>= _) s.w = _
    rw [bind_ok (ref_run hn)]; rfl
  refine ⟨s.w.mp (fun j n => { n with refcnt := if j = x then u32 (n.refcnt + 1) else n.refcnt }) [], ?_, fun j => ?_⟩
  · show getAttributes x s = _
    unfold getAttributes; rw [onTree_ok h1]; rfl
  · rw [mp_nodes]
    by_cases hj : j = x
    · subst hj
      have e : u32 (n.refcnt + 1) = n.refcnt + 1 := by unfold u32; rw [if_pos (by omega)]
      rw [hn]; simp [e]
    · have hj' : ¬ x = j := fun h => hj h.symm
      cases s.w.nodes j <;> simp [hj, hj']

/-- An element with the attributes "b" and "c", and another attribute "c". -/
def twoAttrActs : List Act :=
  [.call .createDocument, .call (.createNode 0 .element none none), .call (.createNode 0 .attribute (strOf [98]) none), .call (.createNode 0 .attribute (strOf [99]) none),
   .call (.createNode 0 .attribute (strOf [99]) none), .putAttr 1 2 (Str.create [98]) none, .putAttr 1 3 (Str.create [99]) none]

/-- A client has a map on an element whose attributes are "b" and "c", and an attribute without parent.  It may set that one in place of "c", or as "d"; in place of "b", the
first attribute, the call is as in `C97_set_first_violated`. -/
theorem sample97_set : ∃ led mled s m n an y z, Keeper led mled s ∧ s.maps[0]? = some (some m) ∧ s.w.nodes m.node = some n ∧ n.attrs = [y, z] ∧ Named (Str.create [98]) none y ∧
    First n (Str.create [99]) none z ∧ n.attrs.head?.map (·.node) ≠ some z.node ∧ (∀ q ∈ n.attrs, ¬ Named (Str.create [100]) none q) ∧ s.w.nodes 4 = some an ∧ an.type = .attribute ∧
    an.parent = none ∧ n.owner = an.owner ∧ AttrRoom s 0 ∧ Mindful led mled s (.set 0 4 (Str.create [99]) none) ∧ Mindful led mled s (.set 0 4 (Str.create [100]) none) := by
  obtain ⟨led, w, hc, h⟩ := exists_careful twoAttrActs
    (fun led w => at_ w 1 (fun m => decide (m.type = .element ∧ m.attrs.map (·.node) = [2, 3] ∧ m.attrs.map (sameAttr (Str.create [98]) none) = [true, false] ∧
        m.attrs.map (sameAttr (Str.create [99]) none) = [false, true] ∧ m.attrs.map (sameAttr (Str.create [100]) none) = [false, false] ∧ m.owner = some 0)) &&
      at_ w 4 (fun m => decide (m.type = .attribute ∧ m.parent = none ∧ m.owner = some 0)) &&
      allB w (fun m => decide (m.refcnt + 3 < 4294967296)) && decide (0 < led 1) && decide (0 < led 4)) (by decide +kernel)
  simp only [Bool.and_eq_true] at h
  obtain ⟨⟨⟨⟨h1, h4⟩, h2⟩, h3⟩, h5⟩ := h
  obtain ⟨n, hn, e1⟩ := at_elim h1
  obtain ⟨an, han, e4⟩ := at_elim h4
  obtain ⟨a1, a2, a3, a4, a5, a6⟩ := of_decide_eq_true e1
  obtain ⟨b1, b2, b3⟩ := of_decide_eq_true e4
  have hl1 := of_decide_eq_true h3
  have hl4 := of_decide_eq_true h5
  obtain ⟨ch, S, _⟩ := hc.sound
  have hov : ∀ {j m}, w.nodes j = some m → m.refcnt + 3 < 4294967296 := fun hj => of_decide_eq_true (allB_elim S.wf.bnd h2 hj)
  have K := Keeper.of_editor (.of_client hc)
  have hroom : Room w 1 := fun m hm => by have := hov hm; omega
  obtain ⟨w', hrun, hg⟩ := opened K hl1 hroom ⟨n, hn, a1⟩
  have K' := Keeper.done (.attributes 1) K ⟨hl1, hroom⟩ hrun
  have hcnt : ∀ {j m}, w'.nodes j = some m → m.refcnt + 2 < 4294967296 := fun {j m} hj => by
    rw [hg j] at hj
    cases hj' : w.nodes j with
    | none => rw [hj'] at hj; cases hj
    | some q => rw [hj'] at hj; cases hj; have := hov hj'; dsimp only; split <;> omega
  have hroom' : AttrRoom { w := w', maps := [some { node := 1, refcnt := 1 }] } 0 := fun m _ a an ha _ => hcnt ha
  have hn' : w'.nodes 1 = some { n with refcnt := n.refcnt + 1 } := by rw [hg 1, hn]; rfl
  have han' : w'.nodes 4 = some an := by rw [hg 4, han]; rfl
  obtain ⟨y, z, hyz⟩ : ∃ y z, n.attrs = [y, z] := by
    match hq : n.attrs, a2 with
    | [y, z], _ => exact ⟨y, z, rfl⟩
    | [], h => simp at h
    | [_], h => simp at h
    | _ :: _ :: _ :: _, h => simp at h
  rw [hyz] at a2 a3 a4 a5
  simp only [List.map_cons, List.map_nil, List.cons.injEq, and_true] at a2 a3 a4 a5
  have hfirst : First { n with refcnt := n.refcnt + 1 } (Str.create [99]) none z :=
    ⟨[y], [], hyz, sameAttr_iff.1 a4.2, fun q hq hs => by
      have : q = y := by simpa using hq
      subst this
      rw [sameAttr_iff.2 hs] at a4; cases a4.1⟩
  have hnone : ∀ q ∈ ({ n with refcnt := n.refcnt + 1 } : Node).attrs, ¬ Named (Str.create [100]) none q := by
    intro q hq hs
    have hq : q ∈ n.attrs := hq
    rw [hyz] at hq
    have := sameAttr_iff.2 hs
    rcases List.mem_pair.1 hq with rfl | rfl
    · rw [a5.1] at this; cases this
    · rw [a5.2] at this; cases this
  have hhead : n.attrs.head?.map (·.node) ≠ some z.node := by
    rw [hyz]
    simp [a2.1, a2.2]
  have hset : ∀ name, (∀ q, First { n with refcnt := n.refcnt + 1 } name none q → q = z) → Settable w' 1 4 name none := by
    intro name hname n0 hn0
    rw [hn'] at hn0; cases hn0
    refine ⟨fun q hq => ?_, fun a0 ha0 hp => ?_⟩
    · rw [hname q hq]; exact hhead
    · rw [han'] at ha0; cases ha0; rw [b2] at hp; cases hp
  have hmind : ∀ name, (∀ q, First { n with refcnt := n.refcnt + 1 } name none q → q = z) →
      Mindful (MapOp.book led (.attributes 1) (.map (some 0))) (MapOp.mapBook (fun _ => 0) (.attributes 1) (.map (some 0))) { w := w', maps := [some { node := 1, refcnt := 1 }] } (.set 0 4 name none) := by
    intro name hname
    refine ⟨Nat.one_pos, hl4, hroom', fun m hm => ?_⟩
    have : m = { node := 1, refcnt := 1 } := by simpa using hm.symm
    subst this
    exact hset name hname
  refine ⟨_, _, _, { node := 1, refcnt := 1 }, _, an, y, z, K', rfl, hn', hyz, sameAttr_iff.1 a3.1, hfirst, hhead, hnone, han', b1, b2, a6.trans b3.symm, hroom', hmind _ fun q hq => ?_,
    hmind _ fun q hq => ?_⟩
  · have e1 := find_first hq
    rw [find_first hfirst] at e1; cases e1; rfl
  · have := List.mem_of_find?_eq_some (find_first hq)
    obtain ⟨l, r, f1, f2, _⟩ := hq
    exact absurd f2 (hnone q this)

end Dom.Tree
