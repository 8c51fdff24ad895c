import Verif.Query.Model
import Verif.Names.Props
import Verif.Str.PropsEq
/-!
# Histories with namespaces

The calls of the tree model together with the creation of nodes with a qualified name and the setting of prefixes and values; and what
holds of the names in every memory they lead to.
-/
set_option linter.unusedSimpArgs false
set_option linter.unusedVariables false
namespace Dom.Query

open Dom.Tree
open Dom.Str (DStr Bytes Holds)

variable {w w' : World} {ch : Children} {x d p j : NodeId} {n pn : Node}

/-- One call of a history. -/
inductive QCall
  | tree (c : Tree.Call)
  | createNS (doc : NodeId) (t : NodeType) (ns : Option DStr) (qname : DStr)
  | setPrefix (x : NodeId) (p : Option DStr)
  | setValue (x : NodeId) (v : Option DStr)

/-- Run a call.  Setting the value of an attribute is not among the calls (see `QCall.Ok`). -/
def QCall.run : QCall → M Unit
  | .tree c => do let _ ← c.run; pure ()
  | .createNS d t ns q => do let _ ← createNodeNS d t ns (some q); pure ()
  | .setPrefix x p => Query.setPrefix x p
  | .setValue x v => Query.setNodeValue (fun _ _ => pure ()) x v

/-- The arguments are live nodes of the right type; names of elements and qualified names are valid UTF-8 of less than 2^32 bytes; elements are
created with a name that the code accepts. -/
def QCall.Ok (w : World) : QCall → Prop
  | .tree c => c.Ok w ∧ ∀ d name v, c = .createNode d .element name v → Names.createNamed name = .ok ()
  | .createNS d t _ q => IsType w d .document ∧ (t = .element ∨ t = .attribute) ∧ ∃ cs, Holds q cs
  | .setPrefix x _ => Live w x
  | .setValue x _ => Live w x ∧ ¬ IsType w x .attribute

/-- The memories reached by such calls. -/
inductive ReachQ : World → Prop
  | start : ReachQ World.empty
  | call {w w' : World} (c : QCall) : ReachQ w → c.Ok w → (c.run w).world = some w' → ReachQ w'

/-- What holds of names: elements have one; only elements and attributes have a prefix, and then they have a namespace or the prefix is the empty
string. -/
structure Tidy (w : World) : Prop where
  named : ∀ i n, w.nodes i = some n → n.type = .element → n.name ≠ none
  prefixed : ∀ i n p, w.nodes i = some n → n.pfx = some p → (n.type = .element ∨ n.type = .attribute) ∧ (n.ns ≠ none ∨ p.data = [])

theorem data_name {m : Node} (h : n.data = m.data) : n.name = m.name := by have := congrArg Node.name h; exact this
theorem data_pfx {m : Node} (h : n.data = m.data) : n.pfx = m.pfx := by have := congrArg Node.pfx h; exact this
theorem data_ns {m : Node} (h : n.data = m.data) : n.ns = m.ns := by have := congrArg Node.ns h; exact this

/-- The data of old nodes are unchanged by a tree call; a new node has no prefix, and the name it was created with. -/
theorem call_data (hW : WF w ch) {c : Tree.Call} (hok : c.Ok w) (h : (c.run w).world = some w') {n' : Node} (hj : w'.nodes j = some n') :
    (∃ n, w.nodes j = some n ∧ n'.data = n.data) ∨
      (n'.pfx = none ∧ (n'.type = .element → ∃ d v, c = .createNode d .element n'.name v)) := by
  have of_map : (w'.nodes j).map Node.data = (w.nodes j).map Node.data → ∃ n, w.nodes j = some n ∧ n'.data = n.data := by
    intro e
    rw [hj] at e
    cases hw : w.nodes j with
    | none => rw [hw] at e; simp at e
    | some n => rw [hw] at e; simp only [Option.map_some, Option.some.injEq] at e; exact ⟨n, rfl, e⟩
  have of_mp : ∀ (g : NodeId → Node → Node) (l), w' = w.mp g l → (∀ j m, (g j m).data = m.data) → ∃ n, w.nodes j = some n ∧ n'.data = n.data := by
    rintro g l rfl hg
    obtain ⟨n, hn, rfl⟩ := mp_some_iff.1 hj
    exact ⟨n, hn, hg j n⟩
  have hins : ∀ {p new : NodeId} {r : Option NodeId}, Live w p → Live w new → (∀ c, r = some c → NotAttrOf w p c) →
      (insertBefore p new r w).world = some w' → ∃ n, w.nodes j = some n ∧ n'.data = n.data := by
    rintro p new r ⟨pn, hp⟩ ⟨nn, hx⟩ hr h
    rcases insertBefore_total hW hp hx hr with ⟨e, h1⟩ | ⟨_, h1⟩ | ⟨w1, ch1, h1, h2, _⟩ | ⟨hf, h1⟩ | ⟨_, _, h1⟩
    · rw [h1] at h; cases h; exact ⟨n', hj, rfl⟩
    · rw [h1] at h; cases h; exact of_mp _ _ rfl (fun _ _ => rfl)
    · rw [h1] at h; cases h; exact of_map (h2.data j)
    · rw [h1] at h; cases h
      exact of_mp _ _ rfl (fun k m => by unfold unpend; split <;> rfl)
    · rw [h1] at h; cases h
  cases c with
  | createDocument =>
    simp only [Call.run, createDocument_run, Res.world, Option.some.injEq] at h
    subst h
    rcases add_some hj with ⟨rfl, rfl⟩ | ⟨_, hq⟩
    · exact .inr ⟨rfl, by simp⟩
    · exact .inl ⟨_, hq, rfl⟩
  | createNode d t nm v =>
    obtain ⟨⟨dn, hd, hdt⟩, ht⟩ := hok
    simp only [Call.run, createNode_run hW.toCore hd, Res.world, Option.some.injEq] at h
    subst h
    rcases add_some hj with ⟨rfl, rfl⟩ | ⟨_, hq⟩
    · refine .inr ⟨rfl, fun e => ?_⟩
      obtain rfl : t = .element := e
      exact ⟨d, v, rfl⟩
    · exact .inl ⟨_, hq, rfl⟩
  | createDoctype nm =>
    simp only [Call.run, createDoctype_run, Res.world, Option.some.injEq] at h
    subst h
    rcases add_some hj with ⟨rfl, rfl⟩ | ⟨_, hq⟩
    · exact .inr ⟨rfl, fun e => nomatch e⟩
    · exact .inl ⟨_, hq, rfl⟩
  | insertBefore p new r => exact .inl (hins hok.1 hok.2.1 hok.2.2 h)
  | appendChild p new => exact .inl (hins hok.1 hok.2 (by simp) h)
  | replaceChild p new old =>
    left
    obtain ⟨⟨pn, hp⟩, ⟨nn, hx⟩, ⟨on, ho, hna⟩, hempty⟩ := hok
    rcases replaceChild_total hW hp hx ho hna (fun h1 h2 => hempty nn on hx ho h1 h2) with
      ⟨e, h1⟩ | ⟨_, h1⟩ | ⟨w1, ch1, h1, h2, _⟩ | ⟨_, _, h1⟩
    · simp only [Call.run, h1, Res.world, Option.some.injEq] at h; subst h; exact ⟨n', hj, rfl⟩
    · simp only [Call.run, h1, Res.world, Option.some.injEq] at h; exact of_mp _ _ h.symm (fun _ _ => rfl)
    · simp only [Call.run, h1, Res.world, Option.some.injEq] at h; subst h; exact of_map (h2.data j)
    · simp [Call.run, h1, Res.world] at h
  | removeChild p old =>
    left
    obtain ⟨⟨pn, hp⟩, ⟨on, ho, hna⟩⟩ := hok
    cases he : removeRefusal w ch p old pn on with
    | some e =>
      simp only [Call.run, removeChild_refused hW hp ho hna he, Res.world, Option.some.injEq] at h
      subst h; exact ⟨n', hj, rfl⟩
    | none =>
      obtain ⟨w1, ch1, h1, h2⟩ := removeChild_ok hW hp ho hna he
      simp only [Call.run, h1, Res.world, Option.some.injEq] at h
      subst h; exact of_map (h2.data j)

/-- Memory of a sequence ending in `pure`. -/
theorem world_discard {α : Type} (m : M α) : ((do let _ ← m; pure ()) w : Res Unit).world = (m w).world := by
  show (M.bind m _ w).world = _
  unfold M.bind
  cases m w <;> rfl

/-- The new node of `createNodeNS`. -/
def nsNode (d : NodeId) (t : NodeType) (ns : Option DStr) (p : Option DStr) (l : DStr) : Node :=
  { type := t, name := some l, ns := ns, pfx := p, owner := some d, pendingIn := some d }

theorem createNodeNS_run (hW : Core w ch) {dn : Node} (hd : w.nodes d = some dn) {t : NodeType} {ns : Option DStr} {q : Option DStr}
    {p : Option DStr} {l : DStr} (h : Names.createNamedNS ns q = .ok (p, l)) :
    createNodeNS d t ns q w = .ok (w.add (nsNode d t ns p l)) w.fresh := by
  unfold createNodeNS
  rw [h]
  show initNode _ w = _
  rw [initNode_run hW rfl hd rfl]
  rfl

/-- The three ways a creation can go. -/
theorem createNodeNS_cases (hW : Core w ch) {dn : Node} (hd : w.nodes d = some dn) {t : NodeType} {ns : Option DStr} {q : Option DStr} :
    (∃ p l, Names.createNamedNS ns q = .ok (p, l) ∧ createNodeNS d t ns q w = .ok (w.add (nsNode d t ns p l)) w.fresh) ∨
    (∃ e, Names.createNamedNS ns q = .exc e ∧ createNodeNS d t ns q w = .exc w e) ∨ (∃ f, createNodeNS d t ns q w = .fault f) := by
  cases h : Names.createNamedNS ns q with
  | ok a => exact .inl ⟨a.1, a.2, rfl, createNodeNS_run hW hd h⟩
  | exc e => exact .inr (.inl ⟨e, rfl, by unfold createNodeNS; rw [h]⟩)
  | fault f => exact .inr (.inr ⟨f, by unfold createNodeNS; rw [h]⟩)

theorem WF_nsNode (hW : WF w ch) {dn : Node} (hd : w.nodes d = some dn) (hdt : dn.type = .document) {t : NodeType} (ht : t ≠ .document)
    (ns p : Option DStr) (l : DStr) : WF (w.add (nsNode d t ns p l)) ch :=
  WF_add hW rfl (.inr (.inl ⟨ht, d, dn, rfl, hd, hdt⟩)) (by simp [nsNode, ht])

/-- The record with another prefix. -/
def withPrefix (x : NodeId) (p : Option DStr) (j : NodeId) (n : Node) : Node := if j = x then { n with pfx := p } else n

theorem WF_withPrefix (hW : WF w ch) (q : Option DStr) : WF (w.mp (withPrefix x q) []) ch := by
  refine hW.mp_same [] ?_ ?_ ?_ ?_ <;> intro j n <;> unfold withPrefix <;> split <;> rfl

/-- The nodes that have a prefix at all: elements and attributes with a namespace. -/
def TakesPrefix (n : Node) : Prop := (n.type = .element ∨ n.type = .attribute) ∧ n.ns ≠ none

theorem takesPrefix_iff (n : Node) : ((n.type ≠ .element && n.type ≠ .attribute || n.ns.isNone) = true) ↔ ¬ TakesPrefix n := by
  unfold TakesPrefix
  cases n.ns <;> simp [not_or]

theorem setPrefix_skip (hx : w.nodes x = some n) (h : ¬ TakesPrefix n) (q : Option DStr) : setPrefix x q w = .ok w () := by
  unfold setPrefix
  rw [get_bind hx, if_pos ((takesPrefix_iff n).2 h)]
  rfl

theorem setPrefix_refused (hW : Core w ch) (hx : w.nodes x = some n) (h : TakesPrefix n) (hro : ReadOnly w x) (q : Option DStr) :
    setPrefix x q w = .exc w .noModificationAllowed := by
  unfold setPrefix
  rw [get_bind hx, if_neg fun e => (takesPrefix_iff n).1 e h]
  exact yes_ro hW hx hro _

theorem setPrefix_run (hW : Core w ch) (hx : w.nodes x = some n) (h : TakesPrefix n) (hro : ¬ ReadOnly w x) (q : Option DStr) :
    setPrefix x q w = .ok (w.mp (withPrefix x (newPrefix q)) []) () := by
  unfold setPrefix
  rw [get_bind hx, if_neg fun e => (takesPrefix_iff n).1 e h]
  refine (not_ro hW hx hro _).trans ?_
  rw [modNode_run hx, upd_as_mp hx (fun n => { n with pfx := newPrefix q })]
  rfl

/-- The node types whose `nodeValue` is defined to be null. -/
def NoValue (t : NodeType) : Prop := t ∈ [NodeType.document, .fragment, .doctype, .element, .entity, .entityRef, .notation_]

instance (t : NodeType) : Decidable (NoValue t) := inferInstanceAs (Decidable (t ∈ _))

theorem noValue_iff (n : Node) : ((n.type = .document || n.type = .fragment || n.type = .doctype || n.type = .element || n.type = .entity ||
    n.type = .entityRef || n.type = .notation_) = true) ↔ NoValue n.type := by
  unfold NoValue
  simp [or_assoc]

theorem setNodeValue_skip {f} (hx : w.nodes x = some n) (h : NoValue n.type) (v : Option DStr) : setNodeValue f x v w = .ok w () := by
  unfold setNodeValue
  rw [get_bind hx, if_pos ((noValue_iff n).2 h)]
  rfl

theorem setNodeValue_refused {f} (hW : Core w ch) (hx : w.nodes x = some n) (h : ¬ NoValue n.type) (hro : ReadOnly w x) (v : Option DStr) :
    setNodeValue f x v w = .exc w .noModificationAllowed := by
  unfold setNodeValue
  rw [get_bind hx, if_neg fun e => h ((noValue_iff n).1 e)]
  exact yes_ro hW hx hro _

theorem setNodeValue_attr {f} (hW : Core w ch) (hx : w.nodes x = some n) (h : n.type = .attribute) (hro : ¬ ReadOnly w x) (v : Option DStr) :
    setNodeValue f x v w = f x v w := by
  unfold setNodeValue
  rw [get_bind hx, if_neg fun e => by have := (noValue_iff n).1 e; rw [h] at this; revert this; decide]
  refine (not_ro hW hx hro _).trans ?_
  rw [if_pos h]

theorem setNodeValue_run {f} (hW : Core w ch) (hx : w.nodes x = some n) (h : ¬ NoValue n.type) (ha : n.type ≠ .attribute) (hro : ¬ ReadOnly w x)
    (v : Option DStr) : setNodeValue f x v w = .ok (w.mp (withValue x v) []) () := by
  unfold setNodeValue
  rw [get_bind hx, if_neg fun e => h ((noValue_iff n).1 e)]
  refine (not_ro hW hx hro _).trans ?_
  rw [if_neg ha, modNode_run hx, upd_as_mp hx (fun n => { n with value := v })]
  rfl

/-- A qualified name is split without loss, and a prefix comes with a namespace unless it is empty. -/
theorem split_prefix {ns : Option DStr} {q : DStr} {cs : List Char} (hq : Holds q cs) {p : Option DStr} {l : DStr}
    (h : Names.createNamedNS ns (some q) = .ok (p, l)) :
    (p = none ∧ l = q ∧ ':' ∉ cs) ∨
    ∃ p' ps ls, p = some p' ∧ Holds p' ps ∧ Holds l ls ∧ cs = ps ++ [':'] ++ ls ∧ ':' ∉ ps ∧ (ns ≠ none ∨ p'.data = []) := by
  have hv : Names.validateName (some q) = true := by
    unfold Names.createNamedNS at h
    by_cases hv : Names.validateName (some q) = false
    · rw [if_pos hv] at h; cases h
    · simpa using hv
  obtain ⟨cs', e, hN⟩ := (Names.C14_name_iff q (by rw [hq.data]; exact hq.small)).1 hv
  obtain rfl : cs' = cs := Names.utf8_inj (e.symm.trans hq.data)
  have hs : Names.splitQName q = .ok (p, l) := by
    unfold Names.createNamedNS at h
    rw [if_neg (by rw [hv]; simp)] at h
    simp only at h
    cases hvq : Names.validateQName (some q) ns with
    | ok a => rw [hvq] at h; exact h
    | exc e => rw [hvq] at h; cases h
    | fault f => rw [hvq] at h; cases h
  rcases Names.C16_split_lossless q cs' hq hN with ⟨h1, h2⟩ | ⟨p', l', ps, ls, h1, h2, h3, h4, h5⟩
  · rw [h2] at hs; cases hs
    exact .inl ⟨rfl, rfl, h1⟩
  · rw [h1] at hs; cases hs
    refine .inr ⟨p', ps, ls, rfl, h2, h3, h4, h5, ?_⟩
    by_cases hps : ps = []
    · right; rw [h2.data, hps]; rfl
    · left
      rintro rfl
      subst h4
      rw [Names.C16_no_namespace q ps ls hq hN hps h5] at h
      cases h

theorem Tidy.add (T : Tidy w) {m : Node} (h1 : m.type = .element → m.name ≠ none)
    (h2 : ∀ p, m.pfx = some p → (m.type = .element ∨ m.type = .attribute) ∧ (m.ns ≠ none ∨ p.data = [])) : Tidy (w.add m) := by
  constructor
  · intro i n hi ht
    rcases add_some hi with ⟨rfl, rfl⟩ | ⟨_, hq⟩
    · exact h1 ht
    · exact T.named i n hq ht
  · intro i n p hi hp
    rcases add_some hi with ⟨rfl, rfl⟩ | ⟨_, hq⟩
    · exact h2 p hp
    · exact T.prefixed i n p hq hp

/-- In every memory reached the tree is well-formed and the names are as they should be. -/
theorem ReachQ.sound (h : ReachQ w) : (∃ ch, WF w ch) ∧ Tidy w := by
  induction h with
  | start => exact ⟨⟨_, WF_empty⟩, ⟨fun i n h => by simp [World.empty] at h, fun i n p h => by simp [World.empty] at h⟩⟩
  | @call w w' c _ hok hrun ih =>
    obtain ⟨⟨ch, hW⟩, T⟩ := ih
    cases c with
    | tree c =>
      obtain ⟨hok, hnm⟩ := hok
      rw [QCall.run, world_discard] at hrun
      refine ⟨call_wf hW hok hrun, ⟨?_, ?_⟩⟩
      · intro i n hi ht
        rcases call_data hW hok hrun hi with ⟨m, hm, e⟩ | ⟨_, h2⟩
        · have e1 : n.type = m.type := Node.data_type e
          have e2 : n.name = m.name := data_name e
          rw [e2]; exact T.named i m hm (e1 ▸ ht)
        · obtain ⟨d, v, rfl⟩ := h2 ht
          intro e
          have := hnm d n.name v rfl
          rw [e] at this
          revert this; decide
      · intro i n p hi hp
        rcases call_data hW hok hrun hi with ⟨m, hm, e⟩ | ⟨h1, _⟩
        · have e1 : n.type = m.type := Node.data_type e
          have e2 : n.pfx = m.pfx := data_pfx e
          have e3 : n.ns = m.ns := data_ns e
          rw [e1, e3]; exact T.prefixed i m p hm (e2 ▸ hp)
        · rw [h1] at hp; cases hp
    | createNS d t ns q =>
      obtain ⟨⟨dn, hd, hdt⟩, ht, cs, hq⟩ := hok
      rw [QCall.run, world_discard] at hrun
      have htd : t ≠ .document := by rcases ht with rfl | rfl <;> simp
      rcases createNodeNS_cases hW.toCore hd (t := t) (ns := ns) (q := some q) with ⟨p, l, h1, h2⟩ | ⟨e, _, h2⟩ | ⟨f, h2⟩
      · rw [h2] at hrun; cases hrun
        refine ⟨⟨ch, WF_nsNode hW hd hdt htd ns p l⟩, T.add (fun _ => by simp [nsNode]) fun p' e => ⟨ht, ?_⟩⟩
        obtain rfl : p = some p' := e
        rcases split_prefix hq h1 with ⟨e, _⟩ | ⟨p'', ps, ls, e, _, _, _, _, h⟩
        · cases e
        · cases e; exact h
      · rw [h2] at hrun; cases hrun; exact ⟨⟨ch, hW⟩, T⟩
      · rw [h2] at hrun; cases hrun
    | setPrefix x q =>
      obtain ⟨n, hx⟩ := hok
      simp only [QCall.run] at hrun
      by_cases ht : TakesPrefix n
      · by_cases hro : ReadOnly w x
        · rw [setPrefix_refused hW.toCore hx ht hro] at hrun; cases hrun; exact ⟨⟨ch, hW⟩, T⟩
        · rw [setPrefix_run hW.toCore hx ht hro] at hrun; cases hrun
          refine ⟨⟨ch, WF_withPrefix hW _⟩, ⟨?_, ?_⟩⟩
          · intro i m hi hm
            obtain ⟨k, hk, rfl⟩ := mp_some_iff.1 hi
            unfold withPrefix at hm ⊢
            split_ifs at hm ⊢ <;> exact T.named i k hk hm
          · intro i m p hi hm
            obtain ⟨k, hk, rfl⟩ := mp_some_iff.1 hi
            unfold withPrefix at hm ⊢
            split_ifs at hm ⊢ with hij
            · subst hij; rw [hx] at hk; cases hk
              exact ⟨ht.1, .inl ht.2⟩
            · exact T.prefixed i k p hk hm
      · rw [setPrefix_skip hx ht] at hrun; cases hrun; exact ⟨⟨ch, hW⟩, T⟩
    | setValue x v =>
      obtain ⟨⟨n, hx⟩, hna⟩ := hok
      have hna : n.type ≠ .attribute := fun e => hna ⟨n, hx, e⟩
      simp only [QCall.run] at hrun
      by_cases ht : NoValue n.type
      · rw [setNodeValue_skip hx ht] at hrun; cases hrun; exact ⟨⟨ch, hW⟩, T⟩
      · by_cases hro : ReadOnly w x
        · rw [setNodeValue_refused hW.toCore hx ht hro] at hrun; cases hrun; exact ⟨⟨ch, hW⟩, T⟩
        · rw [setNodeValue_run hW.toCore hx ht hna hro] at hrun; cases hrun
          refine ⟨⟨ch, WF_withValue hW _ _⟩, ⟨?_, ?_⟩⟩
          · intro i m hi hm
            obtain ⟨k, hk, rfl⟩ := mp_some_iff.1 hi
            unfold withValue at hm ⊢
            split_ifs at hm ⊢ <;> exact T.named i k hk hm
          · intro i m p hi hm
            obtain ⟨k, hk, rfl⟩ := mp_some_iff.1 hi
            unfold withValue at hm ⊢
            split_ifs at hm ⊢ <;> exact T.prefixed i k p hk hm

end Dom.Query
