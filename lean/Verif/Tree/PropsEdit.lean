import Verif.Tree.SetAttr
import Verif.Tree.CharDataProps
/-!
# C46, C47: histories of a client that also edits character data, sets text content and sets attributes by name

The histories of PropsLife.lean, with the functions of `dom_characterdata`, `splitText`, `setTextContent`, `setAttribute`, `removeAttribute` and `dom_attr_set_value` as further steps.
-/
set_option linter.unusedSimpArgs false
set_option linter.unusedVariables false
namespace Dom.Tree
open Dom.Str (DStr Holds HoldsOpt utf8)
variable {w w' : World} {ch ch' : Children} {x d j : NodeId} {n dn : Node}

/-- What the client does. -/
inductive Op
  | act (a : Act)
  | setData (x : NodeId) (v : Option DStr)
  | appendData (x : NodeId) (v : DStr)
  | insertData (x : NodeId) (o : Nat) (v : DStr)
  | replaceData (x : NodeId) (o k : Nat) (v : DStr)
  | deleteData (x : NodeId) (o k : Nat)
  | splitText (x : NodeId) (o : Nat)
  | setText (x : NodeId) (v : Option DStr)
  | setAttr (x : NodeId) (name : DStr) (ns v : Option DStr)
  | removeAttr (x : NodeId) (name : DStr) (ns : Option DStr)
  | setValue (x : NodeId) (v : Option DStr)

/-- A function that returns no node. -/
def plain (m : M Unit) : M (Option NodeId) := do
  m
  pure none

/-- Do it; the result is the node to which the client gets a reference. -/
def Op.run : Op → M (Option NodeId)
  | .act a => a.run
  | .setData x v => plain (Tree.setData x v)
  | .appendData x v => plain (Tree.appendData x (some v))
  | .insertData x o v => plain (Tree.insertData x o (some v))
  | .replaceData x o k v => plain (Tree.replaceData x o k (some v))
  | .deleteData x o k => plain (Tree.deleteData x o k)
  | .splitText x o => do
      let r ← Tree.splitText x o
      pure (some r)
  | .setText x v => plain (setTextContent x v)
  | .setAttr x name ns v => plain (Tree.setAttr x name ns v)
  | .removeAttr x name ns => plain (Tree.removeAttr x name ns)
  | .setValue x v => plain (Tree.setValue x v)

/-- The nodes the client passes. -/
def Op.args : Op → List NodeId
  | .act a => a.args
  | .setData x _ | .appendData x _ | .insertData x _ _ | .replaceData x _ _ _ | .deleteData x _ _ | .splitText x _ | .setText x _ | .setAttr x _ _ _ | .removeAttr x _ _ | .setValue x _ => [x]

/-- The node is character data. -/
def IsData (w : World) (x : NodeId) : Prop := ∃ n, w.nodes x = some n ∧ n.type ∈ [.text, .cdata, .comment]

/-- The C types of the arguments. -/
def Op.Typed (w : World) : Op → Prop
  | .act a => a.Typed w
  | .setData x _ | .appendData x _ | .insertData x _ _ | .replaceData x _ _ _ | .deleteData x _ _ => IsData w x
  | .splitText x _ => ∃ n, w.nodes x = some n ∧ n.type ∈ [.text, .cdata]
  | .setText _ _ => True
  | .setAttr x _ _ _ | .removeAttr x _ _ => IsType w x .element
  | .setValue x _ => IsType w x .attribute

/-- The ledger after the client did `a` and was returned `r`. -/
def Op.book (led : Ledger) : Op → Option NodeId → Ledger
  | .act a, r => a.book led r
  | _, r => fun j => led j + if r = some j then 1 else 0

/-- The data of `x` and the string `v` are UTF-8, and together short enough for `uint32_t`. -/
def Fits (w : World) (x : NodeId) (v : DStr) : Prop :=
  ∀ n, w.nodes x = some n → ∃ cs ss, HoldsOpt n.value cs ∧ Holds v ss ∧ (utf8 cs).length + (utf8 ss).length + 1 < 2 ^ 32

/-- The cases where the code is at fault are left out, and no count overflows:
* those of `Act.Fine`;
* strings that are not UTF-8 or too long, and appending to data that are NULL;
* setting the text content of a node whose document is not referenced, or below whose unreferenced children a node with siblings is referenced;
* removing attributes by name from an element that has an unreferenced attribute below which a node with siblings is referenced (`C79_remove_stale_violated`);
* setting the value of an attribute that is not in an element (`C79_value_orphan_violated`). -/
def Op.Fine (w : World) : Op → Prop
  | .act a => a.Fine w
  | .setData _ _ => True
  | .appendData x v => ∀ n, w.nodes x = some n → n.value ≠ none
  | .insertData x _ v | .replaceData x _ _ v => Fits w x v
  | .deleteData x _ _ => Fits w x Str.emptyString
  | .splitText x _ => ∀ n, w.nodes x = some n → ∃ cs, HoldsOpt n.value cs ∧ cs.length < 2 ^ 31 ∧ (utf8 cs).length + 1 < 2 ^ 32
  | .setText x _ => DocKept w x ∧ ∀ c m, w.nodes c = some m → m.parent = some x → m.type ≠ .attribute → Room w c ∧ (m.refcnt = 0 → Clean w c)
  | .setAttr _ _ _ _ => True
  | .removeAttr x _ _ => ∀ a m, w.nodes a = some m → m.parent = some x → m.type = .attribute → Room w a ∧ (m.refcnt = 0 → Clean w a)
  | .setValue x _ => ∀ n, w.nodes x = some n → n.parent ≠ none

/-- The client passes only nodes it has references to, and avoids the cases where the code is at fault. -/
def Heedful (led : Ledger) (w : World) (a : Op) : Prop := (∀ x ∈ a.args, 0 < led x) ∧ a.Typed w ∧ a.Fine w

/-- The histories of such a client. -/
inductive Editor : Ledger → World → Prop
  | start : Editor (fun _ => 0) World.empty
  | done {led : Ledger} {w w' : World} {r : Option NodeId} (a : Op) : Editor led w → Heedful led w a → a.run w = .ok w' r → Editor (a.book led r) w'
  | refused {led : Ledger} {w w' : World} {e : Exc} (a : Op) : Editor led w → Heedful led w a → a.run w = .exc w' e → Editor led w'

/-! ## Every step keeps the invariant -/

/-- The function returned, or refused; the memory is sound, and the counts are as before. -/
def Quiet (w : World) (r : Res Unit) : Prop := ∃ w' ch', Sound w' ch' ∧ (∀ j, count w' j = count w j) ∧ (r = .ok w' () ∨ ∃ e, r = .exc w' e)

theorem becomes_mp {c : NodeId} {v : Option DStr} (hW : Core w ch) (hc : w.nodes c = some n) (ho : n.owner ≠ none) (h : DataBecomes w c n v w') :
    w' = w.mp (withValue c v) (dataEvents c n v) := by
  obtain ⟨w'', _, h5, h6⟩ := storeData_becomes hW hc ho v
  rw [← h6]
  have e : w'.nodes = w''.nodes := by
    funext j
    by_cases hj : j = c
    · subst hj; rw [h.here, h5.here]
    · rw [h.others j hj, h5.others j hj]
  have e2 : w'.fresh = w''.fresh := by rw [h.fresh, h5.fresh]
  have e3 : w'.log = w''.log := by rw [h.log, h5.log]
  cases w'; cases w''; simp_all

theorem count_value (c : NodeId) (v : Option DStr) (l : List Ev) : count (w.mp (withValue c v) l) j = count w j := by
  unfold count
  rw [mp_nodes]
  cases w.nodes j with
  | none => rfl
  | some m => simp only [Option.map_some, withValue]; split <;> rfl

theorem quiet_becomes (S : Sound w ch) (hx : w.nodes x = some n) (ho : n.owner ≠ none) {v : Option DStr} {r : Res Unit} (hr : r = .ok w' ()) (h : DataBecomes w x n v w') : Quiet w r := by
  have e := becomes_mp S.wf.toCore hx ho h
  subst e
  exact ⟨_, ch, Xml.Sound_value S hx v _, fun j => count_value x v _, .inl hr⟩

theorem quiet_refused (S : Sound w ch) {r : Res Unit} {e : Exc} (hr : r = .exc w e) : Quiet w r := ⟨w, ch, S, fun _ => rfl, .inr ⟨e, hr⟩⟩

theorem data_owner (S : Sound w ch) (hx : w.nodes x = some n) (ht : n.type ≠ .doctype) : n.owner ≠ none := by
  rcases S.wf.owner x n hx with ⟨d, _, h, _⟩ | ⟨h, _⟩
  · rw [h]; simp
  · exact absurd h ht

theorem quiet_set (S : Sound w ch) (hx : w.nodes x = some n) (ho : n.owner ≠ none) (v : Option DStr) : Quiet w (setData x v w) := by
  by_cases hro : ReadOnly w x
  · exact quiet_refused S (e := .noModificationAllowed) (by unfold setData; rw [yes_ro S.wf.toCore hx hro])
  · obtain ⟨w', h1, h2, _⟩ := storeData_becomes S.wf.toCore hx ho v
    exact quiet_becomes S hx ho (by unfold setData; rw [not_ro S.wf.toCore hx hro]; exact h1) h2

theorem quiet_setText (S : Sound w ch) (hx : w.nodes x = some n) (hh : 0 < n.refcnt) (hf : (Op.setText x v).Fine w) : Quiet w (setTextContent x v w) := by
  obtain ⟨hdoc, hkids⟩ := hf
  by_cases hd : n.type ∈ [.text, .cdata, .comment]
  · have e : setTextContent x v w = setData x v w := by
      unfold setTextContent
      rw [get_bind hx]
      cases h : n.type <;> rw [h] at hd <;> first | rfl | simp at hd
    rw [e]
    exact quiet_set S hx (data_owner S hx (by rintro h; simp [h] at hd)) v
  by_cases hd2 : n.type ∈ [.document, .doctype]
  · have e : setTextContent x v w = .ok w () := by
      unfold setTextContent
      rw [get_bind hx]
      cases h : n.type <;> rw [h] at hd2 <;> first | rfl | simp at hd2
    exact ⟨w, ch, S, fun _ => rfl, .inl e⟩
  have hd3 : n.type ∉ [NodeType.text, .cdata, .comment, .document, .doctype] := by
    cases h : n.type <;> rw [h] at hd hd2 <;> simp_all
  by_cases hro : ReadOnly w x
  · obtain ⟨w', h1, h2, h3⟩ := C30_write_refused S hx hd3 hro hdoc v
    exact ⟨w', ch, h2, fun j => by unfold count; rw [h3 j], .inr ⟨_, h1⟩⟩
  by_cases hpi : n.type = .pi
  · obtain ⟨w', e, h1, h2, h3⟩ := setText_pi S hx hpi hro hh hdoc v
    exact ⟨w', ch, h2, fun j => by unfold count; rw [h3 j], .inr ⟨_, h1⟩⟩
  have hself : n.type ≠ .entity ∧ n.type ≠ .entityRef := by
    constructor <;> intro h <;> exact hro ⟨n, hx, .inr (.inr (.inr ⟨by rw [h]; decide, x, n, .refl, hx, by simp [h]⟩))⟩
  have hnot : n.type ≠ .notation_ := fun h => hro ⟨n, hx, .inr (.inl h)⟩
  have ht : n.type = .element ∨ n.type = .fragment ∨ n.type = .attribute := by
    cases h : n.type <;> rw [h] at hd3 hpi hself hnot <;> simp_all
  have hk : ∀ c ∈ ch x, ∃ m, w.nodes c = some m ∧ m.parent = some x ∧ m.type ≠ .attribute := fun c hc => by
    obtain ⟨m, h1, h3, h2⟩ := S.wf.linked.alive_child hc
    exact ⟨m, h1, h2, h3⟩
  obtain ⟨w', ch', t, tn, h1, h2, _, _, _, _, _, _, h3, _⟩ := C30_write_partial S hx ht hro hh hdoc
    (fun c hc => by obtain ⟨m, k1, k2, k3⟩ := hk c hc; exact (hkids c m k1 k2 k3).1)
    (fun c hc h0 => by obtain ⟨m, k1, k2, k3⟩ := hk c hc; exact (hkids c m k1 k2 k3).2 (by rw [← count_some k1]; exact h0)) v
  exact ⟨w', ch', h2, h3, .inl h1⟩

theorem quiet_append (S : Sound w ch) (hx : w.nodes x = some n) (ho : n.owner ≠ none) {v : DStr} (hf : n.value ≠ none) : Quiet w (appendData x (some v) w) := by
  by_cases hro : ReadOnly w x
  · exact quiet_refused S (C10_readonly S.wf hx hro 0 0 _).2.1
  · obtain ⟨s, hs⟩ : ∃ s, n.value = some s := by
      cases h : n.value with
      | none => exact absurd h hf
      | some s => exact ⟨s, rfl⟩
    have hcat : Str.concat n.value (some v) = .ok (Str.create (s.data ++ v.data)) := by rw [hs]; rfl
    obtain ⟨w', h1, h2, _⟩ := storeData_becomes S.wf.toCore hx ho (some (Str.create (s.data ++ v.data)))
    refine quiet_becomes S hx ho ?_ h2
    unfold appendData
    rw [not_ro S.wf.toCore hx hro, get_bind hx, liftOut_ok hcat]
    exact h1

theorem quiet_insert (S : Sound w ch) (hx : w.nodes x = some n) (ho : n.owner ≠ none) {v : DStr} (o : Nat) (hf : Fits w x v) : Quiet w (insertData x o (some v) w) := by
  obtain ⟨cs, ss, h1, h2, h3⟩ := hf n hx
  by_cases hro : ReadOnly w x
  · exact quiet_refused S (C10_readonly S.wf hx hro o 0 _).2.2.1
  · obtain ⟨k1, k2⟩ := C09_insert S.wf hx ho hro h1 h2 h3 o
    by_cases hc : 2 ^ 31 ≤ o ∨ cs.length < o
    · exact quiet_refused S (k1 hc)
    · obtain ⟨w', v', e, hb, _⟩ := k2 hc
      exact quiet_becomes S hx ho e hb

theorem quiet_replace (S : Sound w ch) (hx : w.nodes x = some n) (ho : n.owner ≠ none) {v : DStr} (o k : Nat) (hf : Fits w x v) : Quiet w (replaceData x o k (some v) w) := by
  obtain ⟨cs, ss, h1, h2, h3⟩ := hf n hx
  by_cases hro : ReadOnly w x
  · exact quiet_refused S (C10_readonly S.wf hx hro o k _).2.2.2.1
  · obtain ⟨k1, k2⟩ := C09_replace S.wf hx ho hro h1 h2 h3 o k
    by_cases hc : 2 ^ 31 ≤ o ∨ 2 ^ 31 ≤ k ∨ cs.length < o
    · exact quiet_refused S (k1 hc)
    · obtain ⟨w', v', e, hb, _⟩ := k2 hc
      exact quiet_becomes S hx ho e hb

theorem quiet_delete (S : Sound w ch) (hx : w.nodes x = some n) (ho : n.owner ≠ none) (o k : Nat) (hf : Fits w x Str.emptyString) : Quiet w (deleteData x o k w) := by
  obtain ⟨cs, ss, h1, h2, h3⟩ := hf n hx
  by_cases hro : ReadOnly w x
  · exact quiet_refused S (C10_readonly S.wf hx hro o k none).2.2.2.2.1
  · obtain ⟨k1, k2⟩ := C09_delete S.wf hx ho hro h1 (by omega) o k
    by_cases hc : 2 ^ 31 ≤ o ∨ 2 ^ 31 ≤ k ∨ cs.length < o
    · exact quiet_refused S (k1 hc)
    · obtain ⟨w', v', e, hb, _⟩ := k2 hc
      exact quiet_becomes S hx ho e hb

theorem quiet_value (S : Sound w ch) (hx : w.nodes x = some n) (ht : n.type = .attribute) (hp : n.parent ≠ none) (v : Option DStr) : Quiet w (setValue x v w) := by
  cases hr : n.attrRO with
  | true => exact quiet_refused S (C79_value_readonly hx ht hr v)
  | false =>
    obtain ⟨p, hp⟩ : ∃ p, n.parent = some p := by
      cases h : n.parent with
      | none => exact absurd h hp
      | some p => exact ⟨p, rfl⟩
    obtain ⟨w', ch', h1, V⟩ := C79_value S hx ht hr hp v
    exact ⟨w', ch', V.sound, V.counts, .inl h1⟩

theorem quiet_setAttr (S : Sound w ch) (hx : w.nodes x = some n) (ht : n.type = .element) (name : DStr) (ns v : Option DStr) : Quiet w (setAttr x name ns v w) := by
  cases hv : Names.validateAttributeName (some name) with
  | false =>
    refine quiet_refused S (e := .invalidCharacter) ?_
    unfold setAttr
    rw [hv]
    simp only [Bool.not_false]
    rw [throwIf_true]
  | true =>
    by_cases hro : ReadOnly w x
    · refine quiet_refused S (e := .noModificationAllowed) ?_
      unfold setAttr
      rw [hv]
      simp only [Bool.not_true]
      rw [throwIf_false, yes_ro S.wf.toCore hx hro]
    · rw [setAttr_start S.wf.toCore hx hv hro]
      cases hf : n.attrs.find? (sameAttr name ns) with
      | some y =>
        obtain ⟨an, ha, hat, hp⟩ := entry_node S hx ht (List.mem_of_find?_eq_some hf)
        exact quiet_value S ha hat (by rw [hp]; simp) v
      | none =>
        obtain ⟨w', ch', h1, V⟩ := addAttr_run S hx ht name ns v
        exact ⟨w', ch', V.sound, V.counts, .inl h1⟩

theorem quiet_removeAttr (S : Sound w ch) (hx : w.nodes x = some n) (ht : n.type = .element) (name : DStr) (ns : Option DStr) (hf : (Op.removeAttr x name ns).Fine w) :
    Quiet w (removeAttr x name ns w) := by
  by_cases hro : ReadOnly w x
  · exact quiet_refused S ((C79_remove_none S.wf.toCore hx).2 hro)
  · have e1 : removeAttr x name ns w = dropFound (n.attrs.find? (sameAttr name ns)) x w := by
      unfold removeAttr
      rw [not_ro S.wf.toCore hx hro, get_bind hx]
    rw [e1]
    cases hy : n.attrs.find? (sameAttr name ns) with
    | none => exact ⟨w, ch, S, fun _ => rfl, .inl rfl⟩
    | some y =>
      have hm := List.mem_of_find?_eq_some hy
      obtain ⟨an, ha, hat, hp⟩ := entry_node S hx ht hm
      obtain ⟨f1, f2⟩ := hf _ an ha hp hat
      obtain ⟨w', ch', h1, V⟩ := dropFound_run S hx ht hm f1 (fun h => f2 (by rw [← count_some ha]; exact h))
      exact ⟨w', ch', V.sound, V.counts, .inl h1⟩

/-- The order of the events does not matter for the invariant. -/
theorem Sound.of_nodes {v : World} (S : Sound v ch) (hW : WF w ch) (e : w.nodes = v.nodes) : Sound w ch := by
  cases w; cases v
  simp only at e
  subst e
  exact ⟨hW, S.attrs, S.noHost, S.held, S.docs, S.frags, S.ents⟩

theorem split_settles (S : Sound w ch) (hx : w.nodes x = some n) (ht : n.type ∈ [.text, .cdata]) (o : Nat) (hf : (Op.splitText x o).Fine w) :
    (∃ w', splitText x o w = .ok w' w.fresh ∧ Sound w' ch ∧ Grants w w' (some w.fresh)) ∨ ∃ e, splitText x o w = .exc w e := by
  obtain ⟨cs, h1, h2, h3⟩ := hf n hx
  have ho := data_owner S hx (by rintro h; simp [h] at ht)
  by_cases hro : ReadOnly w x
  · exact .inr ⟨_, (C10_readonly S.wf hx hro o 0 none).2.2.2.2.2⟩
  rcases Nat.lt_trichotomy o cs.length with hlt | rfl | hgt
  · obtain ⟨w', v1, v2, m, e1, hW', ht', _, hm, hmt, hmo, hmp, hmr, hmh, hma, _, _, _, hold⟩ := C11_split_partial S.wf hx ho hro h1 h2 h3 hlt
    have hne : w.fresh ≠ x := by
      intro e; have := S.wf.bnd x n hx; rw [e] at this; exact absurd this (Nat.lt_irrefl _)
    obtain ⟨d, dn, hod, hd, hdt⟩ : ∃ d dn, n.owner = some d ∧ w.nodes d = some dn ∧ dn.type = .document := by
      rcases S.wf.owner x n hx with h | ⟨h, _⟩
      · exact h
      · simp [h] at ht
    -- the node before the value of the old one is changed
    have hpend := hW'.pending w.fresh m hm
    rw [hmp, hmt] at hpend
    have hpend' : m.pendingIn = m.owner := by simpa using hpend
    obtain ⟨m', hm', hf1, hl1⟩ := (hW'.linked.loc w.fresh m hm).ends
    rw [hm] at hm'; cases hm'
    rw [S.wf.linked.dead w.fresh (fresh_dead S.wf.toCore)] at hf1 hl1
    obtain ⟨hp1, hn1⟩ := hW'.linked.orphan w.fresh m hm (.inl hmp)
    have hlinks : m.links = (none, none, none, none, none) := by
      simp [Node.links, hmp, hf1, hl1, hp1, hn1]
    have hWa : WF (w.add m) ch := WF_add S.wf hlinks (.inr (.inl ⟨by rw [hmt]; simp, d, dn, by rw [hmo]; exact hod, hd, hdt⟩)) (by rw [hmt]; simpa using hpend')
    have Sa : Sound (w.add m) ch := S.add hWa hmr hmh hma hmp (fun h => by rw [hmt] at h; cases h)
    have hx' := add_old (n := m) S.wf.toCore hx
    have Sv := Xml.Sound_value Sa hx' (some v1) []
    have hnodes : w'.nodes = ((w.add m).mp (withValue x (some v1)) []).nodes := by
      funext j
      rw [mp_nodes]
      by_cases hj : j = x
      · subst hj; rw [hx', ht']; simp [withValue]
      · by_cases hj' : j = w.fresh
        · subst hj'; rw [add_new, hm]; simp [withValue, hj]
        · rw [hold j hj hj', Xml.add_ne _ hj']
          cases w.nodes j <;> simp [withValue, hj]
    refine .inl ⟨w', e1, Sv.of_nodes hW' hnodes, fun j => ?_⟩
    by_cases hj : j = x
    · subst hj
      rw [count_some ht', count_some hx, if_neg (by simpa using hne)]
      rfl
    · by_cases hj' : j = w.fresh
      · subst hj'
        rw [count_some hm, hmr, count_none (fresh_dead S.wf.toCore)]; simp
      · unfold count
        rw [hold j hj hj', if_neg (fun e => hj' (Option.some.inj e).symm)]
        rfl
  · exact .inr ⟨_, C11_split_end_violated S.wf hx hro h1⟩
  · exact .inr ⟨_, C11_split_index S.wf hx hro h1 hgt⟩

theorem plain_ok {m : M Unit} (h : m w = .ok w' ()) : plain m w = .ok w' none := by
  unfold plain; rw [bind_ok h]; rfl

theorem plain_exc {m : M Unit} {e : Exc} (h : m w = .exc w' e) : plain m w = .exc w' e := by
  unfold plain; rw [bind_exc h]

/-- Every step of a heedful client returns, keeps the invariant, and the counts change as the ledger does. -/
theorem Sound.op (S : Sound w ch) {led : Ledger} (hl : ∀ j, count w j = led j) {a : Op} (h : Heedful led w a) :
    ∃ w' ch', Sound w' ch' ∧ ((∃ r, a.run w = .ok w' r ∧ ∀ j, count w' j = a.book led r j) ∨ ∃ e, a.run w = .exc w' e ∧ ∀ j, count w' j = led j) := by
  obtain ⟨hargs, hty, hf⟩ := h
  have hlive : ∀ x ∈ a.args, ∃ n, w.nodes x = some n ∧ 0 < n.refcnt := by
    intro x hx
    have h1 := hargs x hx
    rw [← hl x] at h1
    unfold count at h1
    cases h2 : w.nodes x with
    | none => rw [h2] at h1; exact absurd h1 (by simp)
    | some n => rw [h2] at h1; exact ⟨n, rfl, h1⟩
  have quiet : ∀ m : M Unit, Quiet w (m w) →
      ∃ w' ch', Sound w' ch' ∧ ((∃ r, plain m w = .ok w' r ∧ ∀ j, count w' j = led j + if r = some j then 1 else 0) ∨ ∃ e, plain m w = .exc w' e ∧ ∀ j, count w' j = led j) := by
    rintro m ⟨w', ch', S', hc, h | ⟨e, h⟩⟩
    · exact ⟨w', ch', S', .inl ⟨none, plain_ok h, fun j => by rw [hc j, hl j]; simp⟩⟩
    · exact ⟨w', ch', S', .inr ⟨e, plain_exc h, fun j => by rw [hc j, hl j]⟩⟩
  have own : ∀ {x : NodeId} {n : Node}, w.nodes x = some n → n.type ∈ [NodeType.text, .cdata, .comment] → n.owner ≠ none :=
    fun hx ht => data_owner S hx (by rintro h; simp [h] at ht)
  cases a with
  | act a => exact S.act hl ⟨⟨hargs, hty⟩, hf⟩
  | setData x v =>
    obtain ⟨n, hx, ht⟩ := hty
    exact quiet _ (quiet_set S hx (own hx ht) v)
  | appendData x v =>
    obtain ⟨n, hx, ht⟩ := hty
    exact quiet _ (quiet_append S hx (own hx ht) (hf n hx))
  | insertData x o v =>
    obtain ⟨n, hx, ht⟩ := hty
    exact quiet _ (quiet_insert S hx (own hx ht) o hf)
  | replaceData x o k v =>
    obtain ⟨n, hx, ht⟩ := hty
    exact quiet _ (quiet_replace S hx (own hx ht) o k hf)
  | deleteData x o k =>
    obtain ⟨n, hx, ht⟩ := hty
    exact quiet _ (quiet_delete S hx (own hx ht) o k hf)
  | splitText x o =>
    obtain ⟨n, hx, ht⟩ := hty
    rcases split_settles S hx ht o hf with ⟨w', h1, S', h2⟩ | ⟨e, h1⟩
    · refine ⟨w', ch, S', .inl ⟨some w.fresh, ?_, fun j => ?_⟩⟩
      · show (Tree.splitText x o >>= _) w = _
        rw [bind_ok h1]; rfl
      · rw [h2 j, hl j]; rfl
    · refine ⟨w, ch, S, .inr ⟨e, ?_, hl⟩⟩
      show (Tree.splitText x o >>= _) w = _
      rw [bind_exc h1]
  | setText x v =>
    obtain ⟨n, hx, hr⟩ := hlive x (by simp [Op.args])
    exact quiet _ (quiet_setText S hx hr hf)
  | setAttr x name ns v =>
    obtain ⟨n, hx, ht⟩ := hty
    exact quiet _ (quiet_setAttr S hx ht name ns v)
  | removeAttr x name ns =>
    obtain ⟨n, hx, ht⟩ := hty
    exact quiet _ (quiet_removeAttr S hx ht name ns hf)
  | setValue x v =>
    obtain ⟨n, hx, ht⟩ := hty
    exact quiet _ (quiet_value S hx ht (hf n hx) v)

theorem Editor.sound {led : Ledger} (h : Editor led w) : ∃ ch, Sound w ch ∧ ∀ j, count w j = led j := by
  induction h with
  | start => exact ⟨_, .empty, fun j => rfl⟩
  | done a _ hc hr ih =>
    obtain ⟨ch, S, hl⟩ := ih
    obtain ⟨w', ch', S', ⟨r, h1, h2⟩ | ⟨e, h1, _⟩⟩ := S.op hl hc
    · rw [hr] at h1; cases h1; exact ⟨ch', S', h2⟩
    · rw [hr] at h1; cases h1
  | refused a _ hc hr ih =>
    obtain ⟨ch, S, hl⟩ := ih
    obtain ⟨w', ch', S', ⟨r, h1, h2⟩ | ⟨e, h1, h2⟩⟩ := S.op hl hc
    · rw [hr] at h1; cases h1
    · rw [hr] at h1; cases h1; exact ⟨ch', S', h2⟩

/-! ## The properties -/

/-- C46 with editing: a node to which the client has a reference is in memory, and its reference count is the number of references of the client. -/
theorem C46_editing_live_partial {led : Ledger} (h : Editor led w) (hj : 0 < led j) : ∃ n, w.nodes j = some n ∧ n.refcnt = led j := by
  obtain ⟨ch, S, hl⟩ := h.sound
  have h1 := hl j
  unfold count at h1
  cases h2 : w.nodes j with
  | none => rw [h2] at h1; dsimp only at h1; omega
  | some n => rw [h2] at h1; exact ⟨n, rfl, h1⟩

/-- C46 with editing: no fault.  Missing: the cases that `Op.Fine` leaves out (besides those of `C46_client_no_fault_partial` there are `C30_dangling_violated`, `C79_remove_stale_violated` and `C79_value_orphan_violated`), and the functions
outside of `Op`. -/
theorem C46_editing_no_fault_partial {led : Ledger} (h : Editor led w) {a : Op} (ha : Heedful led w a) (f : Fault) : a.run w ≠ .fault f := by
  obtain ⟨ch, S, hl⟩ := h.sound
  obtain ⟨w', ch', _, ⟨r, h1, _⟩ | ⟨e, h1, _⟩⟩ := S.op hl ha <;> rw [h1] <;> exact fun h => nomatch h

/-- C47 with editing: what is in memory is needed. -/
theorem C47_editing_needed_partial {led : Ledger} (h : Editor led w) (hj : w.nodes j = some n) :
    (∃ r, AncSelf w j r ∧ 0 < led r) ∨ (n.type = .document ∧ ∃ r rn, w.nodes r = some rn ∧ rn.owner = some j ∧ 0 < led r) := by
  obtain ⟨ch, S, hl⟩ := h.sound
  have hC := S.wf.toCore
  obtain ⟨r, rn, h1, h2, h3⟩ := exists_root hC hj
  by_cases ht : rn.type = .document
  · cases hz : rn.refcnt with
    | succ k => exact .inl ⟨r, h1, by rw [← hl r, count_eq h2]; omega⟩
    | zero =>
      obtain ⟨hf, i, m, h4, h5, h6⟩ := S.docs r rn h2 ht hz
      obtain ⟨q, qn, _, g1, g2, g3, g4⟩ := root_of hC h2 ht hf h4 h5 h6
      have hq := S.held q qn g1 g2 g4
      have hjr : j = r := by
        rcases Relation.ReflTransGen.cases_tail h1 with rfl | ⟨c, _, cn, hc, hp⟩
        · rfl
        · exact absurd hp (no_children hC h2 ht hf hc)
      subst hjr
      rw [hj] at h2; cases h2
      exact .inr ⟨ht, q, qn, g1, g3, by rw [← hl q, count_eq g1]; exact hq⟩
  · exact .inl ⟨r, h1, by rw [← hl r, count_eq h2]; exact S.held r rn h2 h3 ht⟩

/-- C47 with editing: when the client has given up all its references nothing is in memory. -/
theorem C47_editing_no_leak_partial {led : Ledger} (h : Editor led w) (hz : ∀ j, led j = 0) : ∀ j, w.nodes j = none := by
  intro j
  cases hj : w.nodes j with
  | none => rfl
  | some n =>
    rcases C47_editing_needed_partial h hj with ⟨r, _, h2⟩ | ⟨_, r, _, _, _, h2⟩
    · have := hz r; omega
    · have := hz r; omega

/-! ## A concrete case -/

theorem Editor.of_client {led : Ledger} (h : Client Careful led w) : Editor led w := by
  induction h with
  | start => exact .start
  | done a _ hc hr ih => exact .done (.act a) ih ⟨hc.1.1, hc.1.2, hc.2⟩ hr
  | refused a _ hc hr ih => exact .refused (.act a) ih ⟨hc.1.1, hc.1.2, hc.2⟩ hr

/-- The hypotheses are met: in the memory of `sample30` the client may set the text content of the element, split the Text node "y" it holds, and insert "z" after "y". -/
theorem sample46_editing : ∃ led w, Editor led w ∧ Heedful led w (.setText 1 (strOf [113])) ∧ Heedful led w (.splitText 4 0) ∧
    Heedful led w (.insertData 4 1 (Str.create [122])) := by
  obtain ⟨led, w, hc, h⟩ := exists_careful setActs
    (fun led w => at_ w 0 (fun m => m.refcnt = 1) && at_ w 1 (fun m => m.owner = some 0) && roomB w &&
      allB w (fun m => decide (m.refcnt = 0) || m.parent.isNone || (m.prev.isNone && m.next.isNone)) &&
      at_ w 4 (fun m => m.type = .text && decide (m.value = strOf [121])) && decide (0 < led 1) && decide (0 < led 4)) (by decide +kernel)
  simp only [Bool.and_eq_true] at h
  obtain ⟨⟨⟨⟨⟨⟨h0, h1⟩, hr⟩, ha⟩, h4⟩, l1⟩, l4⟩ := h
  have l1 := of_decide_eq_true l1
  have l4 := of_decide_eq_true l4
  obtain ⟨ch, S, _⟩ := hc.sound
  obtain ⟨n0, k0, e0⟩ := at_elim h0
  obtain ⟨n1, k1, e1⟩ := at_elim h1
  obtain ⟨n4, k4, e4⟩ := at_elim h4
  simp only [Bool.and_eq_true, decide_eq_true_eq] at e0 e1 e4
  have hold : HoldsOpt n4.value ['y'] := by
    rw [e4.2]
    exact ⟨rfl, by decide +kernel⟩
  refine ⟨led, w, .of_client hc, ⟨?_, trivial, ?_, ?_⟩, ⟨?_, ⟨n4, k4, by simp [e4.1]⟩, ?_⟩, ⟨?_, ⟨n4, k4, by simp [e4.1]⟩, ?_⟩⟩
  · intro x hx
    have : x = 1 := by simpa [Op.args] using hx
    subst this; exact l1
  · intro m d dn hm ho hdn
    rw [k1] at hm; cases hm
    have : 0 = d := by rw [e1] at ho; simpa using ho
    subst this
    rw [k0] at hdn; cases hdn; omega
  · intro c m _ _ _
    refine ⟨room_of_roomB S.wf.bnd hr c, fun _ j k ho hk => ?_⟩
    obtain ⟨p, k', _, hk', hp, hr0⟩ := ho
    rw [hk] at hk'; cases hk'
    have := allB_elim S.wf.bnd ha hk
    simpa [hr0, hp] using this
  · intro x hx
    have : x = 4 := by simpa [Op.args] using hx
    subst this; exact l4
  · intro n hn
    rw [k4] at hn; cases hn
    exact ⟨['y'], hold, by decide +kernel, by decide +kernel⟩
  · intro x hx
    have : x = 4 := by simpa [Op.args] using hx
    subst this; exact l4
  · intro n hn
    rw [k4] at hn; cases hn
    exact ⟨['y'], ['z'], hold, ⟨rfl, by decide +kernel⟩, by decide +kernel⟩

/-- The same for attributes: in the memory of `sample79` the client may add an attribute, set the one that is there, and remove it. -/
theorem sample46_attributes : ∃ led w, Editor led w ∧ Heedful led w (.setAttr 1 (Str.create [99]) none (strOf [113])) ∧ Heedful led w (.setAttr 1 (Str.create [98]) none (strOf [113])) ∧
    Heedful led w (.removeAttr 1 (Str.create [98]) none) := by
  obtain ⟨led, w, hc, h⟩ := exists_careful attrActs
    (fun led w => at_ w 1 (fun m => m.type = .element) && roomB w &&
      allB w (fun m => decide (m.refcnt = 0) || m.parent.isNone || (m.prev.isNone && m.next.isNone)) && decide (0 < led 1)) (by decide +kernel)
  simp only [Bool.and_eq_true] at h
  obtain ⟨⟨⟨h1, hr⟩, ha⟩, l1⟩ := h
  have l1 := of_decide_eq_true l1
  obtain ⟨ch, S, _⟩ := hc.sound
  obtain ⟨n1, k1, e1⟩ := at_elim h1
  simp only [decide_eq_true_eq] at e1
  have hh : ∀ x ∈ [(1 : NodeId)], 0 < led x := by
    intro x hx
    rw [List.mem_singleton.1 hx]; exact l1
  refine ⟨led, w, .of_client hc, ⟨hh, ⟨n1, k1, e1⟩, trivial⟩, ⟨hh, ⟨n1, k1, e1⟩, trivial⟩, ⟨hh, ⟨n1, k1, e1⟩, ?_⟩⟩
  intro a m _ _ _
  refine ⟨room_of_roomB S.wf.bnd hr a, fun _ j k ho hk => ?_⟩
  obtain ⟨p, k', _, hk', hp, hr0⟩ := ho
  rw [hk] at hk'; cases hk'
  have := allB_elim S.wf.bnd ha hk
  simpa [hr0, hp] using this

end Dom.Tree
