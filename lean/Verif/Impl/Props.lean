import Verif.Impl.Model
import Verif.Parse.XmlNames
/-!
# C76: creating documents
-/
set_option linter.unusedSimpArgs false
namespace Dom.Impl
open Dom.Tree
open Dom.Names
open Dom.Xml (Short bump append_new unref_new Grown add_ne createNamedNS_total permitted_iff)
open Dom.Parse (live_of u32_room)
open Dom.Str (Bytes DStr Holds utf8)

variable {w w' : World} {ch ch' : Children} {d x j : NodeId} {n dn : Node}

theorem orErr_ok {α β : Type} {m : M α} {bad : Exc → M β} {good : α → M β} {a : α} (h : m w = .ok w' a) : orErr m bad good w = good a w' := by unfold orErr; rw [h]
theorem orErr_exc {α β : Type} {m : M α} {bad : Exc → M β} {good : α → M β} {e : Exc} (h : m w = .exc w' e) : orErr m bad good w = bad e w' := by unfold orErr; rw [h]

/-- A Document is not read-only. -/
theorem doc_open (hW : Core w ch) (hd : w.nodes d = some dn) (hdt : dn.type = .document) : ¬ ReadOnly w d := by
  rintro ⟨m, hm, hc⟩
  rw [hd] at hm; cases hm
  rcases hc with h | h | ⟨h, _⟩ | ⟨_, k, m, h2, h3, h4⟩
  · rw [hdt] at h; cases h
  · rw [hdt] at h; cases h
  · rw [hdt] at h; cases h
  · rcases Relation.ReflTransGen.cases_head h2 with h | ⟨z, ⟨a, ha, hz⟩, _⟩
    · subst h
      rw [hd] at h3; cases h3
      rw [hdt] at h4; rcases h4 with h | h <;> cases h
    · rw [hd] at ha; cases ha
      rw [doc_parent hW hd hdt] at hz; cases hz

/-- `x` was put into the empty document `d`. -/
structure Placed (w : World) (ch : Children) (d x : NodeId) (n : Node) (r : Nat) (w' : World) (ch' : Children) : Prop where
  sound : Sound w' ch'
  lists : ∀ p, ch' p = if p = d then [x] else ch p
  here : ∃ m, w'.nodes x = some m ∧ m.data = n.data ∧ m.owner = some d ∧ m.parent = some d ∧ m.refcnt = r
  data : ∀ j, j ≠ x → (w'.nodes j).map Node.data = (w.nodes j).map Node.data
  owner : ∀ j, j ≠ x → (w'.nodes j).map Node.owner = (w.nodes j).map Node.owner
  refs : ∀ j, j ≠ x → (w'.nodes j).map Node.refcnt = (w.nodes j).map Node.refcnt
  parents : ∀ j, j ≠ x → (w'.nodes j).map Node.parent = (w.nodes j).map Node.parent
  fresh : w'.fresh = w.fresh

/-- An unused DocumentType is put into an empty document. -/
theorem append_doctype (S : Sound w ch) (hd : w.nodes d = some dn) (hdt : dn.type = .document) (hdr : 0 < dn.refcnt) (hde : ch d = [])
    (hx : w.nodes x = some n) (ht : n.type = .doctype) (ho : n.owner = none) (hr : n.refcnt + 1 < 4294967296) :
    ∃ w' ch', appendChild d x w = .ok w' x ∧ Placed w ch d x n (n.refcnt + 1) w' ch' := by
  have hC := S.wf.toCore
  have hp : n.parent = none := by
    rcases hC.owner x n hx with ⟨_, _, h, _⟩ | ⟨_, _, h⟩
    · rw [ho] at h; cases h
    · exact h
  have hnf : n.type ≠ .fragment := by rw [ht]; decide
  have hdx : d ≠ x := fun h => by subst h; rw [hd] at hx; cases hx; rw [hdt] at ht; cases ht
  have hanc : ¬ AncSelf w d x := by
    intro h
    rcases Relation.ReflTransGen.cases_head h with h | ⟨z, ⟨a, ha, hz⟩, _⟩
    · exact hdx h
    · rw [hd] at ha; cases ha
      rw [doc_parent hC hd hdt] at hz; cases hz
  have hok : ∃ w' res, insertBefore d x none w = .ok w' res := by
    rw [C20_insert_decision S.wf hd hx (r := none) (by simp) (by simp) (fun h => absurd h hnf), if_neg hnf]
    refine ⟨.inr ⟨ht, ho⟩, doc_open hC hd hdt, by simp, hanc, ?_, by rw [hp]; simp⟩
    intro c hc
    have : c = x := by simpa using hc
    subst this
    refine ⟨dn, n, hd, hx, ?_, ?_⟩
    · rw [hdt, ht]; exact .doc (by simp)
    · intro _ _ y hy; rw [hde] at hy; simp at hy
  have hin : ∀ q, x ∉ ch q := by
    intro q hq
    obtain ⟨m, hm, _, h⟩ := hC.linked.alive_child hq
    rw [hx] at hm; cases hm
    rw [hp] at h; cases h
  have hfil : ∀ q, (ch q).filter (· ≠ x) = ch q := by
    intro q
    rw [List.filter_eq_self]
    intro a ha
    have : a ≠ x := fun e => hin q (e ▸ ha)
    simp [this]
  rcases insertBefore_total S.wf hd hx (r := none) (by simp) with ⟨e, h⟩ | ⟨h, _⟩ | ⟨v, cv, h, I, _⟩ | ⟨h, _⟩ | ⟨h, _⟩
  · obtain ⟨_, _, h'⟩ := hok
    rw [h] at h'; cases h'
  · cases h
  · refine ⟨v, cv, h, ?_⟩
    have L : ∀ p, cv p = if p = d then [x] else ch p := by
      intro p
      by_cases hpc : p = d
      · subst hpc
        obtain ⟨a, b, h1, h2, h3⟩ := I.here
        have hb : b = [] := by simpa using h2
        subst hb
        rw [hfil, hde] at h1
        have ha : a = [] := by simpa using h1.symm
        rw [h3, if_pos rfl, ha]
        unfold moved
        simp [hnf]
      · rw [I.elsewhere p hpc, if_neg (fun h => hnf h.2), hfil, if_neg hpc]
    have SI : Sound v cv := by
      refine S.inserted I hd hx (fun _ _ => .inl ho) hr (fun _ => hdr) ?_ (by rw [hdt]; decide)
      intro m _ _ hm hft
      rw [hx] at hm; cases hm
      exact absurd hft hnf
    obtain ⟨m, hm, hma, hmp⟩ := SI.wf.linked.alive_child (show x ∈ cv d by rw [L]; simp)
    have e1 := I.data x
    have e2 := I.refs x
    have e3 := I.owner x
    rw [hm, hx] at e1 e2 e3
    simp only [Option.map_some, Option.some.injEq, if_true, true_and] at e1 e2 e3
    refine ⟨SI, L, ⟨m, hm, e1, ?_, hmp, by rw [e2]; exact u32_small hr⟩, ?_, ?_, ?_, ?_, I.fresh⟩
    · rw [e3, if_pos ⟨hdt, ht⟩]
    · intro j hj; rw [I.data]
    · intro j hj; rw [I.owner]
      congr 1; funext a; simp [hj]
    · intro j hj; rw [I.refs]
      congr 1; funext a; simp [hj]
    · intro j hj
      cases hw : w.nodes j with
      | none =>
        have h := I.data j
        rw [hw] at h
        cases h3 : v.nodes j with
        | none => rfl
        | some k => rw [h3] at h; cases h
      | some k =>
        obtain ⟨k3, hk3, d3⟩ := live_of (f := Node.data) (g := Node.data) (I.data j) hw
        rw [hk3]
        simp only [Option.map_some, Option.some.injEq]
        by_cases ha : k.type = .attribute
        · obtain ⟨k', hk', e⟩ := I.attrs j k hw ha
          rw [hk3] at hk'; cases hk'; exact e
        · have h3a : k3.type ≠ .attribute := by rw [Node.data_type d3]; exact ha
          apply Option.ext
          intro p
          show k3.parent = some p ↔ k.parent = some p
          rw [child_iff SI.wf.linked hk3 (fun h => absurd h h3a), child_iff S.wf.linked hw (fun h => absurd h ha), L p]
          split
          · next e => subst e; rw [hde]; simp [hj]
          · rfl
  · exact absurd h hnf
  · exact absurd h hnf

/-- Giving up the reference that the insertion returned. -/
theorem Placed.unref {r : Nat} (G : Placed w ch d x n (r + 1) w' ch') : ∃ v, Tree.unref x w' = .ok v () ∧ Placed w ch d x n r v ch' := by
  obtain ⟨m, hm, e1, e2, e3, e4⟩ := G.here
  refine ⟨_, unref_keep hm (by omega) (.inr (by rw [e3]; simp)), ?_⟩
  rw [e4]
  refine ⟨G.sound.setRef hm (fun h => by rw [e3] at h; cases h) (fun h => ?_), G.lists, ⟨_, upd_same _ _ _, e1, e2, e3, rfl⟩, ?_, ?_, ?_, ?_, G.fresh⟩
  · rw [doc_parent G.sound.wf.toCore hm h] at e3; cases e3
  all_goals (intro j hj; rw [upd_ne _ _ hj])
  · exact G.data j hj
  · exact G.owner j hj
  · exact G.refs j hj
  · exact G.parents j hj

/-- The record of a new document. -/
def docNode (d : NodeId) : Node := { type := .document, owner := some d }

theorem Sound_doc (S : Sound w ch) : Sound (w.add (docNode w.fresh)) ch :=
  S.add (WF_createDocument S.wf) rfl rfl rfl rfl (fun h => by cases h)

/-- The only reference to a new, empty document is given up. -/
theorem unref_newdoc (S : Sound w ch) : unref w.fresh (w.add (docNode w.fresh)) = .ok (bump w) () := by
  have hC := S.wf.toCore
  have Sn := Sound_doc S
  have hnone : ∀ c m, (w.add (docNode w.fresh)).nodes c = some m → m.parent ≠ some w.fresh := by
    intro c m hm h
    rcases add_some hm with ⟨rfl, rfl⟩ | ⟨_, h'⟩
    · cases h
    · obtain ⟨k, hk⟩ := hC.linked.alive_parent h' h
      rw [fresh_dead hC] at hk; cases hk
  have hdies : ∀ j, Dies (w.add (docNode w.fresh)) w.fresh j → j = w.fresh := by
    intro j h
    induction h with
    | self => rfl
    | down _ hc hpar _ ih => subst ih; exact absurd hpar (hnone _ _ hc)
  have horph : ∀ j, ¬ Orphaned (w.add (docNode w.fresh)) w.fresh j := by
    rintro j ⟨p, m, h1, h2, h3, _⟩
    rw [hdies p h1] at h3
    exact hnone _ _ h2 h3
  have hneed : ¬ Needed (w.add (docNode w.fresh)) w.fresh w.fresh := by
    rintro (⟨i, m, h1, h2, h3⟩ | ⟨i, h⟩)
    · rcases add_some h1 with ⟨rfl, rfl⟩ | ⟨_, h4⟩
      · cases h2
      · rcases S.wf.pending i m h4 with h5 | ⟨h5, h6⟩
        · rw [h5] at h2
          split at h2
          · cases h2
          · rcases hC.owner i m h4 with ⟨e, en, o1, o2, _⟩ | ⟨_, o1, _⟩
            · rw [h2] at o1; cases o1
              rw [fresh_dead hC] at o2; cases o2
            · rw [h2] at o1; cases o1
        · rw [h6] at h2; cases h2
    · exact horph i h
  obtain ⟨v, h1, R⟩ := unref_document Sn.wf Sn.attrs (add_new _) rfl rfl
  rw [h1]
  have hv : v = bump w := by
    have h1 : v.nodes = w.nodes := by
      funext j
      by_cases hj : j = w.fresh
      · subst hj
        rw [R.dead _ ⟨.self, fun _ => hneed⟩, fresh_dead hC]
      · rw [R.same j (fun h => hj (hdies j h.1)) (horph j) (fun h => hj h.1), add_ne _ hj]
    have h2 := R.fresh
    have h3 := R.log
    cases v
    simp only [World.add] at h1 h2 h3
    unfold bump
    rw [h1, h2, h3]
  rw [hv]

/-! ## The steps -/

/-- The names are accepted by createDocument: there is neither, or createElementNS accepts them. -/
def Accepted (ns q : Option Bytes) : Prop := (q = none ∧ ns = none) ∨ ∃ b r, q = some b ∧ createNamedNS (str ns) (some (Str.create b)) = .ok r

theorem checkNames_ok {ns q : Option Bytes} (h : Accepted ns q) : checkNames (str ns) (str q) w = .ok w () := by
  unfold checkNames
  rcases h with ⟨rfl, rfl⟩ | ⟨b, r, rfl, h⟩
  · rfl
  · have hv : validateName (some (Str.create b)) = true := by
      cases hv : validateName (some (Str.create b)) with
      | true => rfl
      | false => unfold createNamedNS at h; rw [hv] at h; cases h
    have hq : ∃ u, validateQName (some (Str.create b)) (str ns) = .ok u := by
      unfold createNamedNS at h
      simp only [hv, Bool.true_eq_false, if_false] at h
      cases hq : validateQName (some (Str.create b)) (str ns) with
      | ok u => exact ⟨u, rfl⟩
      | exc e => rw [hq] at h; cases h
      | fault f => rw [hq] at h; cases h
    obtain ⟨u, hq⟩ := hq
    show (if _ then _ else _ : M Unit) w = _
    rw [if_neg (by simp [str, hv])]
    show (match validateQName (some (Str.create b)) (str ns) with | .ok _ => pure () | .exc _ => M.throw .namespace | .fault f => M.crash f : M Unit) w = _
    rw [hq]; rfl

/-- The exception for names that are not accepted: INVALID_CHARACTER_ERR when the qualified name is no Name, otherwise NAMESPACE_ERR. -/
theorem checkNames_exc {ns q : Option Bytes} (hl : ∀ b, q = some b → Short b) (h : ¬ Accepted ns q) :
    ((∃ b, q = some b ∧ ¬ ∃ cs, b = utf8 cs ∧ IsName cs) ∧ checkNames (str ns) (str q) w = .exc w .invalidCharacter) ∨
    ((∀ b, q = some b → ∃ cs, b = utf8 cs ∧ IsName cs) ∧ checkNames (str ns) (str q) w = .exc w .namespace) := by
  unfold checkNames
  cases q with
  | none =>
    right
    refine ⟨by simp, ?_⟩
    cases ns with
    | none => exact absurd (.inl ⟨rfl, rfl⟩) h
    | some u => rfl
  | some b =>
    have hs : (Str.create b).data.length < 2 ^ 32 := hl b rfl
    cases hv : validateName (some (Str.create b)) with
    | false =>
      left
      constructor
      · refine ⟨b, rfl, fun hb => ?_⟩
        have := (C14_name_iff (Str.create b) hs).2 hb
        rw [hv] at this; cases this
      · show (if _ then _ else _ : M Unit) w = _
        rw [if_pos (by simp [str, hv])]; rfl
    | true =>
      right
      constructor
      · intro b' hb; cases hb
        exact (C14_name_iff (Str.create b) hs).1 hv
      · show (if _ then _ else _ : M Unit) w = _
        rw [if_neg (by simp [str, hv])]
        show (match validateQName (some (Str.create b)) (str ns) with | .ok _ => pure () | .exc _ => M.throw .namespace | .fault f => M.crash f : M Unit) w = _
        have hc : createNamedNS (str ns) (some (Str.create b)) = validateQName (some (Str.create b)) (str ns) >>= fun _ => splitQName (Str.create b) := by
          unfold createNamedNS
          simp only [hv, Bool.true_eq_false, if_false]
        have hspl : ∃ r, splitQName (Str.create b) = .ok r := by
          obtain ⟨cs, e, hN⟩ := (C14_name_iff (Str.create b) hs).1 hv
          rcases C16_split_lossless _ cs ⟨e, by rw [← e]; exact hs⟩ hN with ⟨_, h⟩ | ⟨p, l, _, _, h, _⟩
          · exact ⟨_, h⟩
          · exact ⟨_, h⟩
        obtain ⟨r, hspl⟩ := hspl
        cases hq : validateQName (some (Str.create b)) (str ns) with
        | ok u =>
          refine absurd (.inr ⟨b, r, rfl, ?_⟩) h
          rw [hc, hq]; exact hspl
        | exc e => rfl
        | fault f =>
          rcases createNamedNS_total (str ns) (Str.create b) hs with ⟨r, h⟩ | ⟨e, h⟩ <;>
            (rw [hc, hq] at h; cases h)

/-- What is known of the DocumentType given by the caller: there is none, or it is one and the caller has a reference to it. -/
def Given (w : World) (t : Option NodeId) : Prop :=
  ∀ x, t = some x → ∃ n, w.nodes x = some n ∧ n.type = .doctype ∧ 0 < n.refcnt ∧ n.refcnt + 1 < 4294967296

/-- The DocumentType belongs to no document. -/
def Unused (w : World) (t : Option NodeId) : Prop := ∀ x n, t = some x → w.nodes x = some n → n.owner = none

/-- The new document `w.fresh`: it has the DocumentType and then the root element as children, the caller has the only reference to it, and everything else is as it was. -/
structure Created (w : World) (ch : Children) (ns q : Option Bytes) (t : Option NodeId) (w' : World) (ch' : Children) : Prop where
  sound : Sound w' ch'
  document : ∃ m, w'.nodes w.fresh = some m ∧ m.type = .document ∧ m.refcnt = 1 ∧ m.owner = some w.fresh ∧ m.parent = none
  children : ch' w.fresh = t.toList ++ (if q.isSome then [w.fresh + 1] else [])
  root : ∀ b, q = some b → ∃ p l m, createNamedNS (str ns) (some (Str.create b)) = .ok (p, l) ∧ w'.nodes (w.fresh + 1) = some m ∧ m.type = .element ∧ m.name = some l ∧
    m.pfx = p ∧ m.ns = str ns ∧ m.attrs = [] ∧ m.owner = some w.fresh ∧ m.parent = some w.fresh ∧ m.refcnt = 0 ∧ ch' (w.fresh + 1) = []
  doctype : ∀ x, t = some x → ∃ n m, w.nodes x = some n ∧ w'.nodes x = some m ∧ m.data = n.data ∧ m.refcnt = n.refcnt ∧ m.owner = some w.fresh ∧ m.parent = some w.fresh
  others : ∀ j, j < w.fresh → t ≠ some j → (w'.nodes j).map Node.data = (w.nodes j).map Node.data ∧ (w'.nodes j).map Node.owner = (w.nodes j).map Node.owner ∧
    (w'.nodes j).map Node.refcnt = (w.nodes j).map Node.refcnt ∧ (w'.nodes j).map Node.parent = (w.nodes j).map Node.parent
  lists : ∀ j, j < w.fresh → ch' j = ch j
  fresh : w'.fresh = w.fresh + 1 + (if q.isSome then 1 else 0)

/-- The memory after the DocumentType was set. -/
theorem Placed_created {r : Nat} {v : World} {cv : Children} (S : Sound w ch) (hxw : w.nodes x = some n) (hr : n.refcnt = r)
    (P : Placed (w.add (docNode w.fresh)) ch w.fresh x n r v cv) : Created w ch none none (some x) v cv := by
  have hC := S.wf.toCore
  have hxf : x ≠ w.fresh := fun h => by rw [h, fresh_dead hC] at hxw; cases hxw
  have hdd : w.fresh ≠ x := Ne.symm hxf
  refine ⟨P.sound, ?_, by rw [P.lists]; simp, by simp, ?_, ?_, ?_, by rw [P.fresh]; rfl⟩
  · have h1 := P.data w.fresh hdd
    have h2 := P.refs w.fresh hdd
    have h3 := P.owner w.fresh hdd
    have h4 := P.parents w.fresh hdd
    rw [add_new] at h1 h2 h3 h4
    cases hm : v.nodes w.fresh with
    | none => rw [hm] at h1; cases h1
    | some m =>
      rw [hm] at h1 h2 h3 h4
      simp only [Option.map_some, Option.some.injEq] at h1 h2 h3 h4
      exact ⟨m, rfl, Node.data_type h1, h2, h3, h4⟩
  · intro y hy; cases hy
    obtain ⟨m, h1, h2, h3, h4, h5⟩ := P.here
    exact ⟨n, m, hxw, h1, h2, by rw [h5, hr], h3, h4⟩
  · intro j hj hne
    have hjx : j ≠ x := fun h => hne (by rw [h])
    have hjf : j ≠ w.fresh := Nat.ne_of_lt hj
    rw [P.data j hjx, P.owner j hjx, P.refs j hjx, P.parents j hjx, add_ne _ hjf]
    exact ⟨rfl, rfl, rfl, rfl⟩
  · intro j hj
    rw [P.lists, if_neg (Nat.ne_of_lt hj)]

/-- The memory after a document without DocumentType was created. -/
theorem doc_created (S : Sound w ch) : Created w ch none none none (w.add (docNode w.fresh)) ch := by
  have hC := S.wf.toCore
  refine ⟨Sound_doc S, ⟨_, add_new _, rfl, rfl, rfl, rfl⟩, ?_, by simp, by simp, ?_, fun j _ => rfl, rfl⟩
  · rw [hC.linked.dead _ (fresh_dead hC)]; simp
  · intro j hj _
    rw [add_ne _ (Nat.ne_of_lt hj)]; exact ⟨rfl, rfl, rfl, rfl⟩

/-- The root element is created and put at the end of the new document. -/
theorem setRoot_run {v : World} {cv : Children} {t : Option NodeId} {ns q : Option Bytes} (hT : Given w t) (C : Created w ch none none t v cv) (ha : Accepted ns q) :
    ∃ w' ch', setRoot w.fresh (str ns) (str q) v = .ok w' () ∧ Created w ch ns q t w' ch' := by
  rcases ha with ⟨rfl, rfl⟩ | ⟨b, ⟨p, l⟩, rfl, hr⟩
  · exact ⟨v, cv, rfl, C⟩
  obtain ⟨m, hm, hmt, hmr, hmo, hmp⟩ := C.document
  have hC := C.sound.wf.toCore
  have hf : v.fresh = w.fresh + 1 := by rw [C.fresh]; rfl
  have hcr := Query.createNodeNS_run (t := .element) hC hm hr
  have Sn : Sound (v.add (Query.nsNode w.fresh .element (str ns) p l)) cv :=
    C.sound.add (Query.WF_nsNode C.sound.wf hm hmt (by decide) _ _ _) rfl rfl rfl rfl (fun h => by cases h)
  have hperm : Permitted (v.add (Query.nsNode w.fresh .element (str ns) p l)) cv w.fresh v.fresh := by
    rw [permitted_iff hC hm]
    refine ⟨by rw [hmt]; exact .doc (by simp [Query.nsNode]), ?_⟩
    intro _ _ c hc k hk
    rw [C.children] at hc
    cases t with
    | none => simp at hc
    | some x =>
      have : c = x := by simpa using hc
      subst this
      obtain ⟨n, m2, h1, h2, h3, _⟩ := C.doctype c rfl
      obtain ⟨n', h1', h4, _⟩ := hT c rfl
      rw [h1] at h1'; cases h1'
      rw [h2] at hk; cases hk
      rw [Node.data_type h3, h4]; simp [Query.nsNode]
  rcases append_new C.sound Sn hm hmt (by rw [hmr]; decide) hm hmo (fun _ => rfl) (fun _ => by rw [hmr]; decide) (by rw [hmt]; decide)
    (Xml.ro_add hC hm (doc_open hC hm hmt)) rfl rfl (by simp [Query.nsNode]) (.inl rfl) with ⟨_, w1, ch1, h1, G⟩ | ⟨h, _⟩
  swap
  · exact absurd hperm h
  obtain ⟨w2, h2, G2⟩ := G.unref
  obtain ⟨w3, h3, G3⟩ := G2.unref
  refine ⟨w3, ch1, ?_, ?_⟩
  · unfold setRoot
    show orErr (Query.createNodeNS w.fresh .element (str ns) (some (Str.create b))) _ _ v = _
    rw [orErr_ok hcr]
    unfold putRoot
    rw [orErr_ok h1, bind_ok h2, h3]
  · have hlt : ∀ j, j ≤ w.fresh → j ≠ v.fresh := by intro j hj h; rw [hf] at h; subst h; exact absurd hj (Nat.not_succ_le_self _)
    refine ⟨G3.sound, ?_, ?_, ?_, ?_, ?_, ?_, ?_⟩
    · have e1 := G3.data w.fresh (hlt _ (Nat.le_refl _))
      have e2 := G3.refs w.fresh (hlt _ (Nat.le_refl _))
      have e3 := G3.owner w.fresh (hlt _ (Nat.le_refl _))
      have e4 := G3.parents w.fresh (hlt _ (Nat.le_refl _))
      rw [hm] at e1 e2 e3 e4
      cases hk : w3.nodes w.fresh with
      | none => rw [hk] at e1; cases e1
      | some k =>
        rw [hk] at e1 e2 e3 e4
        simp only [Option.map_some, Option.some.injEq] at e1 e2 e3 e4
        exact ⟨k, rfl, by rw [Node.data_type e1, hmt], by rw [e2, hmr], by rw [e3, hmo], by rw [e4, hmp]⟩
    · rw [G3.lists, if_pos rfl, C.children, hf]; simp
    · intro b' hb; cases hb
      obtain ⟨k, k1, k2, k3, k4, k5⟩ := G3.new
      rw [hf] at k1
      refine ⟨p, l, k, hr, k1, ?_, ?_, ?_, ?_, ?_, k3, k4, k5, ?_⟩
      · rw [Node.data_type k2]; rfl
      · simp only [Node.data, Prod.mk.injEq] at k2
        simp_all [Query.nsNode]
      · simp only [Node.data, Prod.mk.injEq] at k2
        simp_all [Query.nsNode]
      · simp only [Node.data, Prod.mk.injEq] at k2
        simp_all [Query.nsNode]
      · simp only [Node.data, Prod.mk.injEq] at k2
        simp_all [Query.nsNode]
      · rw [G3.lists, if_neg (Nat.succ_ne_self _), ← hf, hC.linked.dead _ (fresh_dead hC)]; rfl
    · intro x hx
      obtain ⟨n, k, k1, k2, k3, k4, k5, k6⟩ := C.doctype x hx
      have hxf : x ≠ v.fresh := fun h => by rw [h, fresh_dead hC] at k2; cases k2
      have e1 := G3.data x hxf
      have e2 := G3.refs x hxf
      have e3 := G3.owner x hxf
      have e4 := G3.parents x hxf
      rw [k2] at e1 e2 e3 e4
      cases hk : w3.nodes x with
      | none => rw [hk] at e1; cases e1
      | some k' =>
        rw [hk] at e1 e2 e3 e4
        simp only [Option.map_some, Option.some.injEq] at e1 e2 e3 e4
        exact ⟨n, k', k1, rfl, e1.trans k3, e2.trans k4, e3.trans k5, e4.trans k6⟩
    · intro j hj hne
      have h := hlt j (Nat.le_of_lt hj)
      rw [G3.data j h, G3.owner j h, G3.refs j h, G3.parents j h]
      exact C.others j hj hne
    · intro j hj
      rw [G3.lists, if_neg (Nat.ne_of_lt hj), C.lists j hj]; simp
    · rw [G3.fresh, hf]; rfl

/-! ## C76 -/

/-- C76, success.  Names that are accepted and no DocumentType or an unused one: there is a new document with the DocumentType and the root element as children, in this order; the
caller has one reference to it and keeps those to the DocumentType, nothing else is held, and everything else is as it was. -/
theorem C76_created (S : Sound w ch) {ns q : Option Bytes} {t : Option NodeId} (hT : Given w t) (ha : Accepted ns q) (hu : Unused w t) :
    ∃ w' ch', createDocument ns q t w = .ok w' w.fresh ∧ Created w ch ns q t w' ch' := by
  have hC := S.wf.toCore
  unfold createDocument
  rw [bind_ok (checkNames_ok ha)]
  have hdt : checkDoctype t w = .ok w () := by
    cases t with
    | none => rfl
    | some x =>
      obtain ⟨n, h1, h2, _⟩ := hT x rfl
      have hp : n.parent = none := by
        rcases hC.owner x n h1 with ⟨_, _, h, _⟩ | ⟨_, _, h⟩
        · rw [hu x n rfl h1] at h; cases h
        · exact h
      show (getNode x >>= _) w = _
      rw [get_bind h1, hp]; rfl
  rw [bind_ok hdt, bind_ok createDocument_run]
  have hset : ∃ v cv, setDoctype w.fresh t (w.add (docNode w.fresh)) = .ok v () ∧ Created w ch none none t v cv := by
    cases t with
    | none => exact ⟨_, ch, rfl, doc_created S⟩
    | some x =>
      obtain ⟨n, h1, h2, _, h4⟩ := hT x rfl
      obtain ⟨w1, c1, e1, P1⟩ := append_doctype (Sound_doc S) (add_new _) rfl (by show 0 < 1; decide) (hC.linked.dead _ (fresh_dead hC)) (add_old hC h1) h2 (hu x n rfl h1) h4
      obtain ⟨w2, e2, P2⟩ := P1.unref
      refine ⟨w2, c1, ?_, Placed_created S h1 rfl P2⟩
      unfold setDoctype
      show orErr _ _ _ _ = _
      rw [orErr_ok e1, e2]
  obtain ⟨v, cv, hv, C⟩ := hset
  obtain ⟨w', ch', h1, h2⟩ := setRoot_run hT C ha
  refine ⟨w', ch', ?_, h2⟩
  have hv' : setDoctype w.fresh t (w.add { type := .document, owner := some w.fresh }) = .ok v () := hv
  rw [bind_ok hv', bind_ok h1]; rfl

/-- C76, names.  Otherwise the call is refused: with INVALID_CHARACTER_ERR when the qualified name is no Name, with NAMESPACE_ERR for the other reasons; nothing has changed. -/
theorem C76_refused_names {ns q : Option Bytes} (t : Option NodeId) (hl : ∀ b, q = some b → Short b) (ha : ¬ Accepted ns q) :
    ((∃ b, q = some b ∧ ¬ ∃ cs, b = utf8 cs ∧ IsName cs) ∧ createDocument ns q t w = .exc w .invalidCharacter) ∨
    ((∀ b, q = some b → ∃ cs, b = utf8 cs ∧ IsName cs) ∧ createDocument ns q t w = .exc w .namespace) := by
  unfold createDocument
  rcases checkNames_exc (w := w) hl ha with ⟨h1, h2⟩ | ⟨h1, h2⟩
  · exact .inl ⟨h1, bind_exc h2 _⟩
  · exact .inr ⟨h1, bind_exc h2 _⟩

/-- C76, DocumentType.  A DocumentType that is, or has been, in a document is refused with WRONG_DOCUMENT_ERR; no node has changed and none is left. -/
theorem C76_refused_doctype (S : Sound w ch) {ns q : Option Bytes} {x : NodeId} (hT : Given w (some x)) (ha : Accepted ns q) (hu : ¬ Unused w (some x)) :
    ∃ w', createDocument ns q (some x) w = .exc w' .wrongDocument ∧ w'.nodes = w.nodes := by
  have hC := S.wf.toCore
  obtain ⟨n, h1, h2, _⟩ := hT x rfl
  have ho : n.owner ≠ none := by
    intro h
    apply hu
    intro y m hy hm
    cases hy
    rw [h1] at hm; cases hm; exact h
  unfold createDocument
  rw [bind_ok (checkNames_ok ha)]
  cases hp : n.parent with
  | some p =>
    refine ⟨w, ?_, rfl⟩
    have : checkDoctype (some x) w = .exc w .wrongDocument := by
      show (getNode x >>= _) w = _
      rw [get_bind h1, hp]; rfl
    exact bind_exc this _
  | none =>
    have hdt : checkDoctype (some x) w = .ok w () := by
      show (getNode x >>= _) w = _
      rw [get_bind h1, hp]; rfl
    rw [bind_ok hdt, bind_ok createDocument_run]
    have hxf : x < w.fresh := hC.bnd x n h1
    have hof : n.owner ≠ some w.fresh := by
      intro h
      rcases hC.owner x n h1 with ⟨d, dn, o1, o2, _⟩ | ⟨_, o1, _⟩
      · rw [h] at o1; cases o1
        rw [fresh_dead hC] at o2; cases o2
      · exact ho o1
    have hins : appendChild w.fresh x (w.add (docNode w.fresh)) = .exc (w.add (docNode w.fresh)) .wrongDocument := by
      refine insertBefore_refused (Sound_doc S).wf (add_new _) (add_old hC h1) (by simp) ?_
      unfold insertRefusal
      rw [if_pos]
      rintro (h | ⟨_, h⟩)
      · exact hof h
      · exact ho h
    refine ⟨bump w, ?_, rfl⟩
    have hs : setDoctype w.fresh (some x) (w.add (docNode w.fresh)) = .exc (bump w) .wrongDocument := by
      unfold setDoctype
      show orErr _ _ _ _ = _
      rw [orErr_exc hins, bind_ok (unref_newdoc S)]; rfl
    exact bind_exc hs _

/-- The names that are accepted, as characters: with a namespace the rules of createElementNS (see C16), without one no ':' but a first one. -/
def AcceptedChars : Option (List Char) → Option (List Char) → Prop
  | none, none => True
  | some _, none => False
  | none, some cs => IsName cs ∧ (':' ∉ cs ∨ cs.head? = some ':')
  | some us, some cs => IsName cs ∧ QNameRules cs us ∧ ∀ ps ls, cs = ps ++ [':'] ++ ls → ':' ∉ ps → StartsOk ps ∧ StartsOk ls

theorem holds_create {cs : List Char} (h : Short (utf8 cs)) : Holds (Str.create (utf8 cs)) cs := ⟨rfl, h⟩

/-- A qualified name without namespace. -/
theorem noNS_iff {cs : List Char} (h : Short (utf8 cs)) : (∃ r, createNamedNS none (some (Str.create (utf8 cs))) = .ok r) ↔ IsName cs ∧ (':' ∉ cs ∨ cs.head? = some ':') := by
  have hq := holds_create h
  have hname : validateName (some (Str.create (utf8 cs))) = true ↔ IsName cs := by
    rw [C14_name_iff (Str.create (utf8 cs)) h]
    constructor
    · rintro ⟨ds, e, h⟩
      have : cs = ds := utf8_inj e
      rw [this]; exact h
    · intro h; exact ⟨cs, rfl, h⟩
  cases hv : validateName (some (Str.create (utf8 cs))) with
  | false =>
    have hN : ¬ IsName cs := by rw [← hname, hv]; simp
    constructor
    · rintro ⟨r, h⟩; unfold createNamedNS at h; rw [hv] at h; cases h
    · rintro ⟨h, _⟩; exact absurd h hN
  | true =>
    have hN : IsName cs := hname.1 hv
    have hs : ∃ r, splitQName (Str.create (utf8 cs)) = .ok r := by
      rcases C16_split_lossless _ cs hq hN with ⟨_, h⟩ | ⟨p, l, _, _, h, _⟩
      · exact ⟨_, h⟩
      · exact ⟨_, h⟩
    obtain ⟨r, hs⟩ := hs
    by_cases hc : ':' ∉ cs ∨ cs.head? = some ':'
    · refine ⟨fun _ => ⟨hN, hc⟩, fun _ => ⟨r, ?_⟩⟩
      unfold createNamedNS validateQName
      simp only [hv, Bool.true_eq_false, if_false, Str.length_holds hq, Out.bind_ok]
      rcases index_cases hq hN.decodable with ⟨h1, _⟩ | ⟨ps, ls, h1, e, h3, h4⟩
      · rw [h1]
        simp only [Out.bind_ok, if_true]
        exact hs
      · have hps : ps = [] := by
          rcases hc with hc | hc
          · exact absurd (by rw [e]; simp) hc
          · cases ps with
            | nil => rfl
            | cons c ps =>
              rw [e] at hc
              have : c = ':' := by simpa using hc
              rw [this] at h3
              exact absurd (by simp) h3
        subst hps
        rw [h1]
        simp only [Out.bind_ok, h4, if_false]
        exact hs
    · constructor
      · rintro ⟨r', h'⟩
        exfalso
        push Not at hc
        obtain ⟨h1, h2⟩ := hc
        rcases index_cases hq hN.decodable with ⟨_, h3⟩ | ⟨ps, ls, _, e, h3, _⟩
        · exact h3 h1
        · have hps : ps ≠ [] := by
            rintro rfl
            apply h2; rw [e]; rfl
          have e' : cs = ps ++ [':'] ++ ls := by rw [e]; simp
          have := C16_no_namespace (Str.create (utf8 cs)) ps ls (e' ▸ hq) (e' ▸ hN) hps h3
          rw [h'] at this; cases this
      · rintro ⟨_, h⟩; exact absurd h hc

theorem accepted_iff {us cs : Option (List Char)} (hu : ∀ l, us = some l → Short (utf8 l)) (hc : ∀ l, cs = some l → Short (utf8 l)) :
    Accepted (us.map utf8) (cs.map utf8) ↔ AcceptedChars us cs := by
  unfold Accepted
  cases cs with
  | none => cases us <;> simp [AcceptedChars]
  | some l =>
    cases us with
    | none =>
      have := noNS_iff (hc l rfl)
      show _ ↔ IsName l ∧ (':' ∉ l ∨ l.head? = some ':')
      rw [← this]
      simp [str]
    | some u =>
      have := C16_rules_iff (Str.create (utf8 l)) (Str.create (utf8 u)) l u (holds_create (hc l rfl)) (holds_create (hu u rfl))
      show _ ↔ IsName l ∧ QNameRules l u ∧ ∀ ps ls, l = ps ++ [':'] ++ ls → ':' ∉ ps → StartsOk ps ∧ StartsOk ls
      rw [← this]
      simp [str]

/-- C76, decision.  For names given as characters: createDocument succeeds exactly when the names are accepted and the DocumentType, if there is one, is unused. -/
theorem C76_decision (S : Sound w ch) {us cs : Option (List Char)} {t : Option NodeId} (hT : Given w t) (hu : ∀ l, us = some l → Short (utf8 l))
    (hc : ∀ l, cs = some l → Short (utf8 l)) :
    (∃ w' d, createDocument (us.map utf8) (cs.map utf8) t w = .ok w' d) ↔ AcceptedChars us cs ∧ Unused w t := by
  have hl : ∀ b, cs.map utf8 = some b → Short b := by
    intro b hb
    cases cs with
    | none => cases hb
    | some l => cases hb; exact hc l rfl
  rw [← accepted_iff hu hc]
  by_cases ha : Accepted (us.map utf8) (cs.map utf8)
  · by_cases hun : Unused w t
    · obtain ⟨w', _, h, _⟩ := C76_created S hT ha hun
      exact ⟨fun _ => ⟨ha, hun⟩, fun _ => ⟨w', _, h⟩⟩
    · cases t with
      | none => exact absurd (fun x n h => by cases h) hun
      | some x =>
        obtain ⟨w', h, _⟩ := C76_refused_doctype S hT ha hun
        constructor
        · rintro ⟨_, _, h'⟩; rw [h] at h'; cases h'
        · rintro ⟨_, h⟩; exact absurd h hun
  · constructor
    · rintro ⟨_, _, h'⟩
      rcases C76_refused_names t hl ha with ⟨_, h⟩ | ⟨_, h⟩ <;> (rw [h] at h'; cases h')
    · rintro ⟨h, _⟩; exact absurd h ha

/-- C76, DocumentType.  createDocumentType makes a DocumentType with the given name that belongs to no document; the caller has the only reference, and nothing else has changed. -/
theorem C76_doctype (S : Sound w ch) {cs : List Char} (hn : IsName cs) (hs : Short (utf8 cs)) :
    Xml.newDoctype (utf8 cs) w = .ok (w.add (newNode none .doctype (some (Str.create (utf8 cs))) none)) w.fresh ∧
    Sound (w.add (newNode none .doctype (some (Str.create (utf8 cs))) none)) ch ∧
    (∀ j, j < w.fresh → (w.add (newNode none .doctype (some (Str.create (utf8 cs))) none)).nodes j = w.nodes j) := by
  refine ⟨?_, S.add (WF_createDoctype S.wf _) rfl rfl rfl rfl (fun h => by cases h), fun j hj => add_ne _ (Nat.ne_of_lt hj)⟩
  have hs : ∃ r, splitQName (Str.create (utf8 cs)) = .ok r := by
    rcases C16_split_lossless _ cs (holds_create hs) hn with ⟨_, h⟩ | ⟨p, l, _, _, h, _⟩
    · exact ⟨_, h⟩
    · exact ⟨_, h⟩
  obtain ⟨r, hs⟩ := hs
  unfold Xml.newDoctype
  have : (liftOut (splitQName (Str.create (utf8 cs))) : M _) w = .ok w r := by rw [hs]; rfl
  rw [bind_ok this]
  exact createDoctype_run _

theorem took {α : Type} {m : M α} {a : α} [DecidableEq α] (h : (match m w with | .ok _ b => decide (b = a) | _ => false) = true) : ∃ w', m w = .ok w' a := by
  cases hm : m w with
  | ok w' b => rw [hm] at h; exact ⟨w', by rw [of_decide_eq_true h]⟩
  | exc w' e => rw [hm] at h; cases h
  | fault f => rw [hm] at h; cases h

/-- C76 is false of createDocumentType: it takes names that are no Names ("a b") and malformed qualified names ("a:") (src/core/implementation.c:74-84; documented are
INVALID_CHARACTER_ERR and NAMESPACE_ERR, src/core/implementation.c:48-49). -/
theorem C76_doctype_name_violated :
    (¬ IsName ['a', ' ', 'b'] ∧ ∃ w', Xml.newDoctype (utf8 ['a', ' ', 'b']) World.empty = .ok w' 0) ∧
    ((∀ us, ¬ QNameRules ['a', ':'] us) ∧ ∃ w', Xml.newDoctype (utf8 ['a', ':']) World.empty = .ok w' 0) := by
  refine ⟨⟨?_, took (by decide +kernel)⟩, ?_, took (by decide +kernel)⟩
  · rintro ⟨_, h⟩
    exact absurd (h ' ' (by simp)) (by decide +kernel)
  · rintro us (⟨h, _⟩ | ⟨ps, ls, e, h1, h2, _⟩)
    · exact h (by simp)
    · have hl := congrArg List.length e
      simp only [List.length_append, List.length_cons, List.length_nil] at hl
      have hp : ps ≠ [] := by rintro rfl; exact h1.1.elim
      have hl' : ls ≠ [] := by rintro rfl; exact h2.1.elim
      have a1 := List.length_pos_iff.2 hp
      have a2 := List.length_pos_iff.2 hl'
      omega

/-- The steps of a concrete case: a DocumentType "svg", a document with it and the root element "s:svg", and then a document with the same DocumentType. -/
def sample : M (NodeId × NodeId) := do
  let t ← Xml.newDoctype (utf8 ['s', 'v', 'g'])
  let d ← createDocument (some (utf8 ['u'])) (some (utf8 ['s', ':', 's', 'v', 'g'])) (some t)
  pure (t, d)

/-- The parent, the references and the name of a node. -/
def peek (w : World) (i : NodeId) : Option (Option NodeId × Nat × Option DStr) := (w.nodes i).map fun n => (n.parent, n.refcnt, n.name)

/-- A case of the theorems above: the document 1 has the DocumentType 0, which the caller still holds, and the element 2; a second document cannot have the same DocumentType. -/
example :
    (match sample World.empty with
     | .ok w (t, d) =>
       decide (t = 0 ∧ d = 1 ∧ peek w 0 = some (some 1, 1, some (Str.create (utf8 ['s', 'v', 'g']))) ∧ peek w 1 = some (none, 1, none) ∧
         peek w 2 = some (some 1, 0, some (Str.create (utf8 ['s', 'v', 'g'])))) &&
       (match createDocument none (some (utf8 ['r'])) (some 0) w with
        | .exc w' e => decide (e = .wrongDocument ∧ w'.nodes 3 = none)
        | _ => false)
     | _ => false) = true := by
  decide +kernel

end Dom.Impl
