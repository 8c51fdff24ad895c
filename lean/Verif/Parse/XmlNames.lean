import Verif.Parse.XmlRun
/-!
# The names given to the XML parser binding
-/
set_option linter.unusedSimpArgs false
namespace Dom.Xml
open Dom.Tree
open Dom.Names
open Dom.Str (Bytes DStr Holds utf8)

/-- Creating a named node with a namespace never crashes: names that are no UTF-8 are refused first. -/
theorem createNamedNS_total (ns : Option DStr) (q : DStr) (h : q.data.length < 2 ^ 32) : (∃ r, createNamedNS ns (some q) = .ok r) ∨ ∃ e, createNamedNS ns (some q) = .exc e := by
  cases hv : validateName (some q) with
  | false => right; exact ⟨.invalidCharacter, by unfold createNamedNS; rw [hv]; rfl⟩
  | true =>
    obtain ⟨cs, e, hN⟩ := (C14_name_iff q h).1 hv
    have hq : Holds q cs := ⟨e, by rw [← e]; exact h⟩
    have hs : ∃ r, splitQName q = .ok r := by
      rcases C16_split_lossless q cs hq hN with ⟨_, h⟩ | ⟨p, l, _, _, h, _⟩
      · exact ⟨_, h⟩
      · exact ⟨_, h⟩
    have hval : validateQName (some q) ns = .ok () ∨ ∃ e, validateQName (some q) ns = .exc e := by
      unfold validateQName
      simp only [hv, Bool.true_eq_false, if_false, Str.length_holds hq, Out.bind_ok]
      rcases index_cases hq hN.decodable with ⟨h1, _⟩ | ⟨ps, ls, h1, rfl, h3, h4⟩
      · rw [h1]
        simp only [Out.bind_ok, if_true]
        cases ns with
        | none => exact .inl rfl
        | some n =>
          dsimp only
          split_ifs <;> first | exact .inl rfl | exact .inr ⟨_, rfl⟩
      · obtain ⟨p, l, e1, _, e2, _⟩ := split_parts hq
        rw [h1]
        simp only [Out.bind_ok, h4, if_false, e1, e2]
        cases ns with
        | none =>
          simp only [Option.isSome_none, Bool.false_eq_true, if_false]
          split_ifs <;> first | exact .inl rfl | exact .inr ⟨_, rfl⟩
        | some n =>
          simp only [Option.isSome_some, if_true]
          split_ifs <;> first | exact .inl rfl | exact .inr ⟨_, rfl⟩
    unfold createNamedNS
    simp only [hv, Bool.true_eq_false, if_false]
    rcases hval with h1 | ⟨e, h1⟩
    · obtain ⟨r, h2⟩ := hs
      left; exact ⟨r, by rw [h1]; exact h2⟩
    · right; exact ⟨e, by rw [h1]; rfl⟩

variable {w w' w0 : World} {ch ch' ch0 : Children} {doc cur i x j : NodeId} {n cn dn : Node} {st st' : St}

/-- Less than 4 GiB. -/
def Short (b : Bytes) : Prop := b.length < 2 ^ 32

theorem splitSep_short {s n : Bytes} {u : Option Bytes} (h : Short s) (e : splitSep s = (u, n)) : Short n := by
  unfold splitSep at e
  split at e
  · cases e
    have h1 : ((s.dropWhile (· ≠ 10)).tail).length ≤ s.length := by
      rw [List.length_tail]
      have := (List.dropWhile_suffix (l := s) (· ≠ 10)).length_le
      omega
    unfold Short at *; omega
  · cases e; exact h

/-- The record of the element that is created for a start tag. -/
def elemOut (doc : NodeId) (name : Bytes) : Out Node :=
  match splitSep name with
  | (none, n) => do
    createNamed (some (Str.createInterned n))
    .ok (newNode (some doc) .element (some (Str.createInterned n)) none)
  | (some u, n) => do
    let r ← createNamedNS (some (Str.createInterned u)) (some (Str.createInterned n))
    .ok (Query.nsNode doc .element (some (Str.createInterned u)) r.1 r.2)

/-- Either the element is created or its name is refused. -/
theorem createElem_run (S : Sound w ch) (hd : w.nodes doc = some dn) (hdt : dn.type = .document) {name : Bytes} (hl : Short name) :
    (∃ n, elemOut doc name = .ok n ∧ createElem doc name w = .ok (w.add n) w.fresh ∧ Sound (w.add n) ch ∧ n.refcnt = 1 ∧ n.parent = none ∧ n.type = .element ∧ n.name ≠ none ∧
      n.owner = some doc) ∨
    (∃ e, elemOut doc name = .exc e ∧ createElem doc name w = .exc w e) := by
  unfold createElem elemOut
  rcases hs : splitSep name with ⟨u, m⟩
  have hm := splitSep_short hl hs
  cases u with
  | none =>
    dsimp only
    cases hv : createNamed (some (Str.createInterned m)) with
    | ok a =>
      left
      refine ⟨_, rfl, ?_, S.add (WF_createNode S.wf hd hdt (by decide) _ _) rfl rfl rfl rfl (fun h => by cases h), rfl, rfl, rfl, by simp [newNode], rfl⟩
      have : (liftOut (createNamed (some (Str.createInterned m))) : M Unit) w = .ok w () := by rw [hv]; rfl
      rw [← hv, bind_ok this, createNode_run S.wf.toCore hd]
    | exc e =>
      right
      refine ⟨e, rfl, ?_⟩
      have : (liftOut (createNamed (some (Str.createInterned m))) : M Unit) w = .exc w e := by rw [hv]; rfl
      rw [← hv]
      exact bind_exc this _
    | fault f =>
      unfold createNamed at hv
      split at hv <;> cases hv
  | some u =>
    dsimp only
    rcases createNamedNS_total (some (Str.createInterned u)) (Str.createInterned m) hm with ⟨r, h⟩ | ⟨e, h⟩
    · left
      rw [h]
      exact ⟨_, rfl, Query.createNodeNS_run S.wf.toCore hd h, S.add (Query.WF_nsNode S.wf hd hdt (by decide) _ _ _) rfl rfl rfl rfl (fun h => by cases h), rfl, rfl, rfl, by simp [Query.nsNode], rfl⟩
    · right
      rw [h]
      exact ⟨e, rfl, by unfold Query.createNodeNS; rw [h]⟩

/-- An attribute is stored or refused. -/
theorem attOne_total {a : Att} (h : Short a.name) : (∃ s, attOne a = .ok s) ∨ ∃ e, attOne a = .exc e := by
  unfold attOne
  rcases hs : splitSep a.name with ⟨u, m⟩
  have hm := splitSep_short h hs
  cases u with
  | none =>
    dsimp only
    split
    · exact .inr ⟨_, rfl⟩
    · exact .inl ⟨_, rfl⟩
  | some u =>
    dsimp only
    rcases createNamedNS_total (some (Str.createInterned u)) (Str.createInterned m) hm with ⟨⟨p, l⟩, h⟩ | ⟨e, h⟩
    · rw [h]
      simp only [Out.bind_ok]
      split
      · exact .inr ⟨_, rfl⟩
      · exact .inl ⟨_, rfl⟩
    · rw [h]; exact .inr ⟨_, rfl⟩

theorem attLoop_total {as : List Att} (h : ∀ a ∈ as, Short a.name) : ∀ l, (∃ r, attLoop l as = .ok r) ∨ ∃ e, attLoop l as = .exc e := by
  induction as with
  | nil => intro l; exact .inl ⟨l, rfl⟩
  | cons a as ih =>
    intro l
    unfold attLoop
    rcases attOne_total (h a (by simp)) with ⟨s, e⟩ | ⟨x, e⟩
    · rw [e]; exact ih (fun b hb => h b (by simp [hb])) _
    · rw [e]; exact .inr ⟨_, rfl⟩

/-- The start of an element: it is entered, or nothing is left of it. -/
theorem startTree_run (B : Base w0 ch0 doc w ch) (R : Refs doc cur w) (H : Here doc cur w) {name : Bytes} (hl : Short name) {l : Out (List Stored)}
    (hlt : (∃ r, l = .ok r) ∨ ∃ e, l = .exc e) :
    (∃ n r, elemOut doc name = .ok n ∧ l = .ok r ∧ n.type = .element ∧ Permitted (w.add n) ch cur w.fresh ∧ ∃ w' v ch', startTree doc cur name l w = .ok w' (some w.fresh) ∧
      Grown w ch cur w.fresh n doc 1 v ch' ∧ (∀ j, (w'.nodes j).map Node.data = (v.nodes j).map Node.data) ∧ w'.fresh = v.fresh ∧
      Base w0 ch0 doc w' ch' ∧ Refs doc w.fresh w' ∧ Here doc w.fresh w') ∨
    ((∀ n r, elemOut doc name = .ok n → l = .ok r → ¬ Permitted (w.add n) ch cur w.fresh) ∧ ∃ w', startTree doc cur name l w = .ok w' none ∧
      (w' = w ∨ w' = bump w) ∧ Base w0 ch0 doc w' ch ∧ Refs doc cur w' ∧ Here doc cur w') := by
  obtain ⟨dn, hd, hdt⟩ := B.docNode
  unfold startTree
  rcases createElem_run B.sound hd hdt hl with ⟨n, h1, h2, h3, h4, h5, h6, h7, h8⟩ | ⟨e, h1, h2⟩
  · rw [orElse_ok h2]
    have hs : Shaped n := .inl ⟨h6, h7⟩
    rcases hlt with ⟨r, rfl⟩ | ⟨e, rfl⟩
    · rcases enter_run B R H h3 h4 h5 hs h6 h8 with ⟨g1, w', v, ch', g2⟩ | ⟨g1, g2, g3⟩
      · exact .inl ⟨n, r, h1, rfl, h6, g1, w', v, ch', g2⟩
      · right
        refine ⟨?_, _, g2, .inr rfl, g3⟩
        intro m _ hm _
        rw [h1] at hm; cases hm; exact g1
    · right
      refine ⟨(by intro _ _ _ h; cases h), bump w, ?_, .inr rfl, B.bump, R, H⟩
      have := unref_new B.sound h3 hd (by rw [R doc dn hd (Nat.le_refl _), if_pos rfl]; omega) h4 h5 (by rw [h6]; decide) (.inl h8)
      unfold fill
      dsimp only
      rw [bind_ok this]; rfl
  · right
    rw [orElse_exc h2]
    exact ⟨(fun n r h => by rw [h1] at h; cases h), w, rfl, .inl rfl, B, R, H⟩

theorem commentTree_run (B : Base w0 ch0 doc w ch) (R : Refs doc cur w) (H : Here doc cur w) (d : DStr) :
    (Permitted (w.add (newNode (some doc) .comment none (some d))) ch cur w.fresh ∧ ∃ w' ch', commentTree doc cur d w = .ok w' true ∧
      Grown w ch cur w.fresh (newNode (some doc) .comment none (some d)) doc 0 w' ch' ∧ Base w0 ch0 doc w' ch' ∧ Refs doc cur w' ∧ Here doc cur w') ∨
    (¬ Permitted (w.add (newNode (some doc) .comment none (some d))) ch cur w.fresh ∧ commentTree doc cur d w = .ok (bump w) false ∧
      Base w0 ch0 doc (bump w) ch ∧ Refs doc cur (bump w) ∧ Here doc cur (bump w)) := by
  obtain ⟨dn, hd, hdt⟩ := B.docNode
  unfold commentTree
  rw [bind_ok (createNode_run B.sound.wf.toCore hd _ _ _)]
  exact attachLeaf_run B R H (.inl rfl) (B.sound.add (WF_createNode B.sound.wf hd hdt (by decide) _ _) rfl rfl rfl rfl (fun h => by cases h)) rfl rfl
    (.inr (.inl ⟨.inr (.inr rfl), by simp [newNode]⟩)) (.inl rfl)

/-- The type of the new node for characters. -/
def charsType (b : Bool) : NodeType := if b then .cdata else .text

theorem charsType_shaped (b : Bool) (d : DStr) : Shaped (newNode (some doc) (charsType b) none (some d)) := by
  cases b
  · exact .inr (.inl ⟨.inl rfl, by simp [newNode]⟩)
  · exact .inr (.inl ⟨.inr (.inl rfl), by simp [newNode]⟩)

/-- A new node for characters. -/
theorem newNode_run (B : Base w0 ch0 doc w ch) (R : Refs doc cur w) (H : Here doc cur w) (b : Bool) (d : DStr) :
    let n := newNode (some doc) (charsType b) none (some d)
    let m : M Bool := (do
      let c ← createNode doc (if b then .cdata else .text) none (some d)
      attachLeaf cur c)
    (Permitted (w.add n) ch cur w.fresh ∧ ∃ w' ch', m w = .ok w' true ∧ Grown w ch cur w.fresh n doc 0 w' ch' ∧ Base w0 ch0 doc w' ch' ∧ Refs doc cur w' ∧ Here doc cur w') ∨
    (¬ Permitted (w.add n) ch cur w.fresh ∧ m w = .ok (bump w) false ∧ Base w0 ch0 doc (bump w) ch ∧ Refs doc cur (bump w) ∧ Here doc cur (bump w)) := by
  obtain ⟨dn, hd, hdt⟩ := B.docNode
  dsimp only
  rw [bind_ok (createNode_run B.sound.wf.toCore hd _ _ _)]
  have ht : charsType b ≠ .document ∧ charsType b ≠ .fragment := by cases b <;> decide
  exact attachLeaf_run B R H (.inl rfl) (B.sound.add (WF_createNode B.sound.wf hd hdt ht.1 _ _) rfl rfl rfl rfl (fun h => absurd h ht.2)) rfl rfl (charsType_shaped b d) (.inl rfl)

/-- The text `l`, with record `ln`, got more data. -/
structure Extended (w : World) (l : NodeId) (ln : Node) (v : DStr) (w' : World) : Prop where
  here : w'.nodes l = some { ln with value := some v }
  others : ∀ j, j ≠ l → w'.nodes j = w.nodes j
  fresh : w'.fresh = w.fresh

/-- What is known of the memory is known of it after a text got more data. -/
theorem Base.extended (B : Base w0 ch0 doc w ch) (hl : w.nodes x = some n) (hlt : doc < x) (ht : n.type = .text) {v : DStr} (evs : List Ev) :
    Base w0 ch0 doc (w.mp (withValue x (some v)) evs) ch := by
  have hne : ∀ j, j < doc → j ≠ x := fun j h e => by subst e; exact absurd hlt (Nat.not_lt.2 (Nat.le_of_lt h))
  have ho : ∀ j, j ≠ x → (w.mp (withValue x (some v)) evs).nodes j = w.nodes j := by
    intro j hj; rw [mp_nodes]; cases w.nodes j <;> simp [withValue, hj]
  refine ⟨Sound_value B.sound hl _ _, B.docIs, ?_, ?_, ?_, ?_, ?_, ?_, B.lists, B.before⟩
  · obtain ⟨dn, h1, h2⟩ := B.docNode
    exact ⟨dn, by rw [ho _ (Nat.ne_of_lt hlt)]; exact h1, h2⟩
  · intro j m hm hj
    by_cases e : j = x
    · subst e
      rw [mp_some hl] at hm; cases hm
      obtain ⟨_, h2, h3⟩ := B.nodes j n hl hj
      unfold withValue
      rw [if_pos rfl]
      exact ⟨.inr (.inl ⟨.inl ht, by simp⟩), h2, h3⟩
    · rw [ho j e] at hm; exact B.nodes j m hm hj
  all_goals (intro j hj; rw [ho j (hne j hj)])
  · exact B.data j hj
  · exact B.owner j hj
  · exact B.parent j hj
  · exact B.refs j hj

/-- Characters: the last text gets them, or there is a new node, or they are lost. -/
theorem charsTree_run (B : Base w0 ch0 doc w ch) (R : Refs doc cur w) (H : Here doc cur w) (b : Bool) (d : DStr) :
    let n := newNode (some doc) (charsType b) none (some d)
    (∃ l ln s w', b = false ∧ (ch cur).getLast? = some l ∧ w.nodes l = some ln ∧ ln.type = .text ∧ ln.value = some s ∧ charsTree doc cur b d w = .ok w' true ∧
      Extended w l ln (Str.create (s.data ++ d.data)) w' ∧ Base w0 ch0 doc w' ch ∧ Refs doc cur w' ∧ Here doc cur w') ∨
    ((∀ l ln, b = false → (ch cur).getLast? = some l → w.nodes l = some ln → ln.type ≠ .text) ∧
      ((Permitted (w.add n) ch cur w.fresh ∧ ∃ w' ch', charsTree doc cur b d w = .ok w' true ∧ Grown w ch cur w.fresh n doc 0 w' ch' ∧ Base w0 ch0 doc w' ch' ∧ Refs doc cur w' ∧ Here doc cur w') ∨
       (¬ Permitted (w.add n) ch cur w.fresh ∧ charsTree doc cur b d w = .ok (bump w) false ∧ Base w0 ch0 doc (bump w) ch ∧ Refs doc cur (bump w) ∧ Here doc cur (bump w)))) := by
  obtain ⟨hc1, cn, hc2, hc3⟩ := H
  have H : Here doc cur w := ⟨hc1, cn, hc2, hc3⟩
  intro n
  cases hl : (ch cur).getLast? with
  | none =>
    right
    refine ⟨(by simp), ?_⟩
    have hrun : charsTree doc cur b d w = newChars doc cur b none d w := by
      unfold charsTree
      rw [bind_ok (last_none B hc2 hl)]
      show (isText none >>= _) w = _
      have : isText none w = .ok w false := rfl
      rw [bind_ok this]
      rfl
    have h2 : newChars doc cur b none d w = (do
        let c ← createNode doc (if b then .cdata else .text) none (some d)
        attachLeaf cur c : M Bool) w := rfl
    rw [hrun, h2]
    exact newNode_run B R H b d
  | some l =>
    obtain ⟨ln, h1, h2, h3, h4, h5, h6, h7⟩ := last_some B R hc2 hc1 hl
    have hit : isText (some l) (w.upd l { ln with refcnt := 1 }) = .ok (w.upd l { ln with refcnt := 1 }) (decide (ln.type = .text)) := by
      show (getNode l >>= _) _ = _
      rw [get_bind (upd_same _ _ _)]; rfl
    by_cases hcase : ln.type = .text ∧ b = false
    · left
      obtain ⟨ht, hb⟩ := hcase
      obtain ⟨hsh, ho, p, hp, _⟩ := B.nodes l ln h1 h2
      have hv : ∃ s, ln.value = some s := by
        rcases hsh with ⟨h, _⟩ | ⟨_, h⟩ | ⟨h, _⟩ | ⟨h, _⟩
        · rw [ht] at h; cases h
        · cases hx : ln.value with
          | none => exact absurd hx h
          | some s => exact ⟨s, rfl⟩
        · rw [ht] at h; cases h
        · rw [ht] at h; cases h
      obtain ⟨s, hv⟩ := hv
      have B1 : Base w0 ch0 doc (w.upd l { ln with refcnt := 1 }) ch := B.setRef (r := 1) h1 (Nat.le_of_lt h2) (fun _ => by decide)
      have hl1 : (w.upd l { ln with refcnt := 1 }).nodes l = some { ln with refcnt := 1 } := upd_same _ _ _
      have hro := B1.open hl1 (Nat.le_of_lt h2) (by show ln.type ≠ .doctype ∧ ln.type ≠ .entityRef; rw [ht]; decide)
      obtain ⟨w2, g1, g2, g3⟩ := storeData_becomes B1.sound.wf.toCore hl1 (by show ln.owner ≠ none; rw [ho]; simp) (some (Str.create (s.data ++ d.data)))
      have hap : appendData l (some d) (w.upd l { ln with refcnt := 1 }) = .ok w2 () := by
        unfold appendData
        rw [not_ro B1.sound.wf.toCore hl1 hro, get_bind hl1]
        have : (liftOut (Str.concat ln.value (some d)) : M DStr) (w.upd l { ln with refcnt := 1 }) = .ok (w.upd l { ln with refcnt := 1 }) (Str.create (s.data ++ d.data)) := by
          rw [hv]; rfl
        show (liftOut (Str.concat ln.value (some d)) >>= _) _ = _
        rw [bind_ok this]
        exact g1
      have hu := unref_keep (w := w2) (n := { ln with refcnt := 1, value := some (Str.create (s.data ++ d.data)) }) g2.here (by show 0 < 1; decide)
        (.inr (by show ln.parent ≠ none; rw [h5]; simp))
      have B2 : Base w0 ch0 doc w2 ch := by rw [g3]; exact B1.extended hl1 h2 ht _
      have E : Extended w l ln (Str.create (s.data ++ d.data)) (w2.upd l { ln with refcnt := 1 - 1, value := some (Str.create (s.data ++ d.data)) }) := by
        refine ⟨?_, ?_, g2.fresh⟩
        · rw [upd_same]
          have : ({ ln with refcnt := 1 - 1, value := some (Str.create (s.data ++ d.data)) } : Node) = { ln with value := some (Str.create (s.data ++ d.data)) } := by
            cases ln; simp only at h4; subst h4; rfl
          rw [this]
        · intro j hj
          rw [upd_ne _ _ hj, g2.others j hj, upd_ne _ _ hj]
      refine ⟨l, ln, s, _, hb, rfl, h1, ht, hv, ?_, E, ?_, ?_, ?_⟩
      · unfold charsTree
        rw [bind_ok h6, bind_ok hit]
        subst hb
        rw [if_pos (by simp [ht])]
        show orElse (appendData l (some d)) _ _ _ = _
        rw [orElse_ok hap, bind_ok hu]
        rfl
      · exact B2.setRef (r := 0) g2.here (Nat.le_of_lt h2) (fun h => absurd h (Nat.ne_of_gt h2))
      · intro j m hm hj
        by_cases e : j = l
        · subst e
          rw [E.here] at hm; cases hm
          exact R j ln h1 hj
        · rw [E.others j e] at hm; exact R j m hm hj
      · exact ⟨hc1, cn, by rw [E.others _ (Ne.symm h3)]; exact hc2, hc3⟩
    · right
      constructor
      · intro l' ln' hb hl' hln' ht
        cases hl'
        rw [h1] at hln'; cases hln'
        exact hcase ⟨ht, hb⟩
      · have hrun : charsTree doc cur b d w = (do
            let c ← createNode doc (if b then .cdata else .text) none (some d)
            attachLeaf cur c : M Bool) w := by
          unfold charsTree
          rw [bind_ok h6, bind_ok hit, if_neg (by simpa using hcase)]
          unfold newChars
          show (unref l >>= _) _ = _
          rw [bind_ok h7]
        rw [hrun]
        exact newNode_run B R H b d

/-- A document type declaration. -/
theorem doctypeTree_run (B : Base w0 ch0 doc w ch) (R : Refs doc cur w) (H : Here doc cur w) {name : Bytes} (hn : ∃ cs, Holds (Str.create name) cs ∧ IsName cs) :
    let n := newNode none .doctype (some (Str.create name)) none
    (Permitted (w.add n) ch doc w.fresh ∧ ∃ w' ch', doctypeTree doc name w = .ok w' (some w.fresh) ∧
      Grown w ch doc w.fresh n doc 0 w' ch' ∧ Base w0 ch0 doc w' ch' ∧ Refs doc cur w' ∧ Here doc cur w') ∨
    (¬ Permitted (w.add n) ch doc w.fresh ∧ doctypeTree doc name w = .ok (bump w) none ∧
      Base w0 ch0 doc (bump w) ch ∧ Refs doc cur (bump w) ∧ Here doc cur (bump w)) := by
  intro n
  have hsp : ∃ r, splitQName (Str.create name) = .ok r := by
    obtain ⟨cs, h1, h2⟩ := hn
    rcases C16_split_lossless _ cs h1 h2 with ⟨_, h⟩ | ⟨p, l, _, _, h, _⟩
    · exact ⟨_, h⟩
    · exact ⟨_, h⟩
  obtain ⟨r, hsp⟩ := hsp
  have hnd : newDoctype name w = .ok (w.add n) w.fresh := by
    unfold newDoctype
    have : (liftOut (splitQName (Str.create name)) : M _) w = .ok w r := by rw [hsp]; rfl
    rw [bind_ok this]
    exact createDoctype_run _
  have hat := attachLeaf_run (x := doc) B R H (.inr rfl) (B.sound.add (WF_createDoctype B.sound.wf (some (Str.create name))) rfl rfl rfl rfl (fun h => by cases h)) rfl rfl
    (.inr (.inr (.inl ⟨rfl, by simp [newNode]⟩))) (.inr ⟨rfl, rfl, rfl⟩)
  unfold doctypeTree
  rw [orElse_ok hnd]
  rcases hat with ⟨g1, w', ch', g2, g3⟩ | ⟨g1, g2, g3⟩
  · refine .inl ⟨g1, w', ch', ?_, g3⟩
    rw [bind_ok g2]; rfl
  · refine .inr ⟨g1, ?_, g3⟩
    rw [bind_ok g2]; rfl

end Dom.Xml
