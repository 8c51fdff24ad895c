import Verif.Oom.Parser
import Verif.Oom.PropsCopy

/-!
# C87: creating parsers when memory runs out
-/
namespace Dom.Oom

variable {r : Nat → Nat} {l : List Nat} {m : Mem}

/-! ## Giving back -/

/-- The call gives back exactly these references and returns `b`. -/
def Gives {α : Type} (x : M α) (as : List Nat) (b : α) : Prop :=
  ∀ (r : Nat → Nat) (l : List Nat) (m : Mem), Holds r (as ++ l) m →
    after x m (fun v m' => v = b ∧ Holds r l m' ∧ m'.room = m.room ∧ m'.time = m.time)

theorem gives_pure {α : Type} (b : α) : Gives (pure b) [] b := fun _ _ _ h => ⟨rfl, h, rfl, rfl⟩

theorem Frees.gives {x : M Unit} {as : List Nat} (h : Frees x as) : Gives x as () := fun r l m hh =>
  after_mono (h r l m hh) fun _ _ q => ⟨rfl, q⟩

theorem Gives.bind {α β : Type} {x : M α} {f : α → M β} {as bs : List Nat} {a : α} {b : β}
    (hx : Gives x as a) (hf : Gives (f a) bs b) : Gives (x >>= f) (as ++ bs) b := by
  intro r l m h
  rw [after_bind]
  refine after_mono (hx r (bs ++ l) m (by rw [← List.append_assoc]; exact h)) ?_
  rintro v m1 ⟨rfl, h1, hr1, ht1⟩
  refine after_mono (hf r l m1 h1) ?_
  rintro w m2 ⟨rfl, h2, hr2, ht2⟩
  exact ⟨rfl, h2, hr2.trans hr1, ht2.trans ht1⟩

theorem Gives.perm {α : Type} {x : M α} {as bs : List Nat} {b : α} (hx : Gives x as b) (hp : bs.Perm as) :
    Gives x bs b := fun r l m h => hx r l m (h.perm (hp.append_right l))

theorem frees_destroyDocument {d : Doc} (hd : Made d) : Frees (destroyDocument d) (held d ++ [d.block]) :=
  Frees.seq (fun _ _ _ h => finaliseDocument_spec d hd h) (Frees.one _)

theorem frees_destroyHtml {d : HtmlDoc} (hd : Made d.base) :
    Frees (destroyHtml d) (heldHtml d ++ [d.base.block]) := by
  have := (Frees.seq (x := clearArr (.at d.memoised)) (fun _ _ _ h => clearArr_spec d.memoised h)
    (Frees.seq (x := clearArr (.at d.elements)) (fun _ _ _ h => clearArr_spec d.elements h)
      (Frees.seq (fun _ _ _ h => finaliseDocument_spec d.base hd h) (Frees.one d.base.block))))
  refine Frees.perm this ?_
  unfold heldHtml
  rw [List.append_assoc, List.append_assoc]

theorem gives_doc_last {d : Doc} (hd : Made d) : Gives (releaseDoc d 1) (held d ++ [d.block]) 0 :=
  (Gives.bind (f := fun _ => pure (0 : Nat)) (frees_destroyDocument hd).gives (gives_pure 0)).perm (by rw [List.append_nil])

theorem gives_doc_more (d : Doc) (c : Nat) : Gives (releaseDoc d (c + 2)) [] (c + 1) := gives_pure _

theorem gives_html_last {d : HtmlDoc} (hd : Made d.base) :
    Gives (releaseHtml d 1) (heldHtml d ++ [d.base.block]) 0 :=
  (Gives.bind (f := fun _ => pure (0 : Nat)) (frees_destroyHtml hd).gives (gives_pure 0)).perm (by rw [List.append_nil])

theorem gives_html_more (d : HtmlDoc) (c : Nat) : Gives (releaseHtml d (c + 2)) [] (c + 1) := gives_pure _

/-! ## Strings of the document -/

theorem allFields_nodup : allFields.Nodup := by decide +kernel

theorem mem_allFields (f : Field) : f ∈ allFields := by cases f <;> decide +kernel

/-- Writing another string into a field of a document. -/
theorem set_held {d : Doc} (hd : Made d) (f : Field) (s : Nat) :
    ∃ rest, d.field f = .ptr (d.field f).addr ∧ (held d).Perm ((d.field f).addr :: rest) ∧
      (held (d.set f s)).Perm (s :: rest) ∧ Made (d.set f s) := by
  have hf := mem_allFields f
  have hp : allFields.Perm (f :: allFields.erase f) := List.perm_cons_erase hf
  have hn : f ∉ allFields.erase f := fun h => by
    rw [List.Nodup.mem_erase_iff allFields_nodup] at h; exact h.1 rfl
  refine ⟨d.name.addr :: (addrs d (allFields.erase f) ++ d.events), hd.2.1 f hf, ?_, ?_, hd.1, ?_, hd.2.2⟩
  · have h1 := addrs_perm (d := d) hp
    exact (((h1.append_right d.events).cons d.name.addr).trans (List.Perm.swap _ _ _))
  · have h1 := addrs_perm (d := d.set f s) hp
    have e : addrs (d.set f s) (f :: allFields.erase f) = s :: addrs d (allFields.erase f) := by
      show ((d.set f s).field f).addr :: addrs (d.set f s) (allFields.erase f) = _
      rw [set_same, addrs_set d f s hn]; rfl
    rw [e] at h1
    exact (((h1.append_right d.events).cons d.name.addr).trans (List.Perm.swap _ _ _))
  · intro g _
    by_cases hg : g = f
    · rw [hg, set_same]; rfl
    · rw [set_other d s hg]; exact hd.2.1 g (mem_allFields g)

theorem setIdName_spec {d : Doc} (hd : Made d) {s : Nat} (h : Holds r (s :: (held d ++ l)) m) :
    after (do let b ← setIdName d s; unref s; pure b : M Doc) m (fun b m' =>
      b = d.set .idName s ∧ Made b ∧ Holds r (held b ++ l) m' ∧ m'.room = m.room ∧ m'.time = m.time) := by
  obtain ⟨rest, hf, hp, hq, hd'⟩ := set_held hd .idName s
  unfold setIdName
  rw [after_bind, hf, if_pos (by intro h; cases h), unrefCell_ptr, after_bind]
  have h1 : Holds r ((d.field .idName).addr :: (s :: (rest ++ l))) m :=
    h.perm (((hp.append_right l).cons s).trans (List.Perm.swap _ _ _))
  refine after_mono (unref_spec h1) ?_
  rintro _ m1 ⟨h2, hr1, ht1⟩
  rw [after_bind]
  have hs : m1.refs s ≠ 0 := by
    have := h2.refs s; rw [List.count_cons_self] at this; omega
  refine after_mono (ref_spec h2 hs) ?_
  rintro _ m2 ⟨h3, hr2, ht2⟩
  rw [after_pure, after_bind]
  refine after_mono (unref_spec h3) ?_
  rintro _ m3 ⟨h4, hr3, ht3⟩
  refine ⟨rfl, hd', h4.perm (hq.symm.append_right l), ?_, ?_⟩
  · rw [hr3, hr2, hr1]
  · rw [ht3, ht2, ht1]

theorem setEncoding_spec {d : Doc} (hd : Made d) (charset : Bool) (h : Holds r (held d ++ l) m) :
    after (setEncoding d charset) m (fun b m' => b.block = d.block ∧ Made b ∧
      ∃ lost, Holds r (held b ++ (lost ++ l)) m' ∧
        ((charset = true ∧ Granted m.room m.time 2 ∧ lost.length = 1) ∨
         (lost = [] ∧ ¬ (charset = true ∧ Granted m.room m.time 2)))) := by
  unfold setEncoding
  rw [after_ite]
  split
  · rename_i hc
    rw [after_bind]
    refine after_mono (createString_spec h) ?_
    rintro o m1 ⟨hr1, ⟨rfl, h1, hg⟩ | ⟨s, rfl, h1, hg, ht1⟩⟩
    · exact ⟨rfl, hd, [], h1, Or.inr ⟨rfl, fun hh => hg hh.2⟩⟩
    · obtain ⟨rest, hf, hp, hq, hd'⟩ := set_held hd .encoding s
      refine ⟨rfl, hd', [(d.field .encoding).addr], h1.perm ?_, Or.inl ⟨hc, hg, rfl⟩⟩
      refine ((hp.append_right l).cons s).trans ?_
      refine List.Perm.trans ?_ (hq.symm.append_right _)
      exact (List.perm_middle.symm).cons s
  · rename_i hc
    exact ⟨rfl, hd, [], h, Or.inr ⟨rfl, fun hh => hc hh.1⟩⟩

/-- **Specification.**  The namespace component has its strings: a document was made before. -/
def Names.Ready (n : Names) : Prop := n.xml ≠ .null

theorem useNames_ready {n : Names} (hn : n.Ready) : useNames n = pure (none, n) := if_neg hn

theorem newHtml_ready {n : Names} (hn : n.Ready) : newHtml n = (do let d ← createHtml; pure (d, n)) := by
  unfold newHtml
  rw [useNames_ready hn]
  rfl

theorem newXml_ready {n : Names} (hn : n.Ready) : newXml n = (do let d ← createDocument; pure (d, n)) := by
  unfold newXml
  rw [useNames_ready hn]
  rfl

theorem heldHtml_length {d : HtmlDoc} (hd : Made d.base) (h1 : d.memoised.strings.length = hdsCount)
    (h2 : d.elements.strings.length = elementCount) : (heldHtml d).length = 253 := by
  unfold heldHtml tableHeld
  simp only [List.length_append, held_length hd, h1, h2, List.length_cons, List.length_nil]
  rfl

/-- The errors of `dom_hubbub_parser_create` as its documentation wants them. -/
def errorFor (room : Nat → Bool) (t : Nat) (e : ParserErr) : Prop :=
  (e = .noMem ∧ ¬ Granted room t 1) ∨ (e = .hubbub ∧ Granted room t 1 ∧ ¬ Granted room t 2) ∨
  (e = .dom ∧ Granted room t 2)

theorem createParser_spec (charset : Bool) {n : Names} (hn : n.Ready) (hm : m.Valid)
    (h41 : Granted m.room m.time 41 → m.room (m.time + 41) = true) :
    after (createParser charset n) m (fun o m' => o.2 = n ∧
      ((∃ e lost, o.1 = .error e ∧ errorFor m.room m.time e ∧ Holds m.refs lost m' ∧
          ¬ Granted m.room m.time 499 ∧ (¬ Granted m.room m.time 9 → lost = []) ∧
          (Granted m.room m.time 497 → lost.length = 254)) ∨
       (∃ p lost, o.1 = .ok p ∧ p.count = 3 ∧ Made p.doc.base ∧ Granted m.room m.time 499 ∧
          Holds m.refs (heldHtml p.doc ++ (p.doc.base.block :: p.hubbub :: p.binding :: lost)) m' ∧
          ((charset = true ∧ Granted m.room m.time 501 ∧ lost.length = 1) ∨
           (lost = [] ∧ ¬ (charset = true ∧ Granted m.room m.time 501)))))) := by
  unfold createParser
  rw [after_bind]
  refine after_mono (malloc_spec hm.holds) ?_
  rintro o m1 ⟨hr1, ht1, ⟨rfl, h1, hg1⟩ | ⟨binding, rfl, h1, hg1⟩⟩
  · exact ⟨rfl, Or.inl ⟨.noMem, [], rfl, Or.inl ⟨rfl, hg1⟩, h1, fun h => hg1 (granted_mono h (by omega)),
      fun _ => rfl, fun h => (hg1 (granted_mono h (by omega))).elim⟩⟩
  dsimp only
  rw [after_bind]
  refine after_mono (malloc_spec h1) ?_
  rintro o m2 ⟨hr2, ht2, ⟨rfl, h2, hg2⟩ | ⟨hubbub, rfl, h2, hg2⟩⟩
  · rw [hr1, ht1] at hg2
    have g2 : ¬ Granted m.room m.time 2 := fun h => hg2 ((granted_add (a := 1) (b := 1)).mp h).2
    dsimp only
    rw [after_bind]
    refine after_mono (unref_spec h2) ?_
    rintro _ m3 ⟨h3, _, _⟩
    exact ⟨rfl, Or.inl ⟨.hubbub, [], rfl, Or.inr (Or.inl ⟨rfl, hg1, g2⟩), h3,
      fun h => g2 (granted_mono h (by omega)), fun _ => rfl, fun h => (g2 (granted_mono h (by omega))).elim⟩⟩
  rw [hr1, ht1] at hg2
  have g2 : Granted m.room m.time 2 := (granted_add (a := 1) (b := 1)).mpr ⟨hg1, hg2⟩
  have hr02 : m2.room = m.room := hr2.trans hr1
  have ht02 : m2.time = m.time + 2 := by omega
  dsimp only
  rw [newHtml_ready hn, after_bind, after_bind]
  have h39 : Granted m2.room m2.time 39 → m2.room (m2.time + 39) = true := by
    rw [hr02, ht02]
    intro hh
    have := h41 ((granted_add (a := 2) (b := 39)).mpr ⟨g2, hh⟩)
    rwa [show m.time + 2 + 39 = m.time + 41 by omega]
  refine after_mono (createHtml_spec h2 h39) ?_
  have up : ∀ {k}, Granted m.room m.time (2 + k) → Granted m2.room m2.time k := fun h => by
    rw [hr02, ht02]; exact (granted_add.mp h).2
  have bad : ∀ {lost : List Nat} {m3 : Mem}, Holds m.refs (lost ++ [hubbub, binding]) m3 →
      (¬ Granted m.room m.time 9 → lost = []) → ¬ Granted m.room m.time 497 →
      after (do unref hubbub; unref binding; pure (Except.error ParserErr.dom, n) :
          M (Except ParserErr HtmlParser × Names)) m3 (fun o m' => o.2 = n ∧
        ((∃ e lost, o.1 = .error e ∧ errorFor m.room m.time e ∧ Holds m.refs lost m' ∧
          ¬ Granted m.room m.time 499 ∧ (¬ Granted m.room m.time 9 → lost = []) ∧
          (Granted m.room m.time 497 → lost.length = 254)) ∨
       (∃ p lost, o.1 = .ok p ∧ p.count = 3 ∧ Made p.doc.base ∧ Granted m.room m.time 499 ∧
          Holds m.refs (heldHtml p.doc ++ (p.doc.base.block :: p.hubbub :: p.binding :: lost)) m' ∧
          ((charset = true ∧ Granted m.room m.time 501 ∧ lost.length = 1) ∨
           (lost = [] ∧ ¬ (charset = true ∧ Granted m.room m.time 501)))))) := by
    intro lost m3 hh h9 h497
    rw [after_bind]
    refine after_mono (unref_spec (a := hubbub) (l := binding :: lost)
      (hh.perm (List.perm_append_comm))) ?_
    rintro _ m4 ⟨h4, _, _⟩
    rw [after_bind]
    refine after_mono (unref_spec h4) ?_
    rintro _ m5 ⟨h5, _, _⟩
    exact ⟨rfl, Or.inl ⟨.dom, lost, rfl, Or.inr (Or.inr ⟨rfl, g2⟩), h5,
      fun h => h497 (granted_mono h (by omega)), h9, fun h => (h497 h).elim⟩⟩
  rintro o m3 ⟨hr3, ⟨rfl, h3, hg3⟩ | ⟨rfl, hg3, lost, h3, hl⟩ | ⟨d, rfl, hmade, h3, hg3, ht3, hn1, hn2⟩⟩
  · rw [after_pure]
    exact bad (lost := []) h3 (fun _ => rfl) (fun h => hg3 (granted_mono (up (k := 495) h) (by omega)))
  · rw [after_pure]
    refine bad h3 (fun h9 => ?_) (fun h => ?_)
    · have h7 : ¬ Granted m2.room m2.time 7 := fun h => h9 (by
        rw [hr02, ht02] at h; exact (granted_add (a := 2) (b := 7)).mpr ⟨g2, h⟩)
      have h6 : ¬ Granted m2.room (m2.time + 1) 6 := fun h6 =>
        h7 ((granted_add (a := 1) (b := 6)).mpr ⟨hg3, h6⟩)
      rcases hl with (⟨e, _⟩ | ⟨_, h6', _⟩ | ⟨j, hj, _, h6', _⟩) | ⟨_, h40, _⟩
      · exact e
      · exact (h6 h6').elim
      · exact (h6 (granted_mono h6' (by omega))).elim
      · exact (h7 (granted_mono h40 (by omega))).elim
    · have hall := up (k := 495) h
      have h38 := ((granted_add (a := 1) (b := 494)).mp hall).2
      rcases hl with (⟨_, hn⟩ | ⟨_, _, hn⟩ | ⟨j, hj, _, _, hn⟩) | ⟨_, _, hn⟩
      · exact hn (granted_mono h38 (by omega))
      · exact hn (granted_mono h38 (by omega))
      · exact hn (granted_mono h38 (by omega))
      · exact hn hall
  · rw [after_pure]
    dsimp only
    have hr03 : m3.room = m.room := hr3.trans hr02
    have e495 : 1 + htmlRequests = 495 := rfl
    have ht03 : m3.time = m.time + 497 := by omega
    have g497 : Granted m.room m.time 497 := by
      rw [hr02, ht02] at hg3
      exact (granted_add (a := 2) (b := 495)).mpr ⟨g2, hg3⟩
    rw [after_bind]
    refine after_mono (createString_spec h3) ?_
    rintro o m4 ⟨hr4, ⟨rfl, h4, hg4⟩ | ⟨idname, rfl, h4, hg4, ht4⟩⟩
    · rw [hr03, ht03] at hg4
      dsimp only
      rw [after_bind]
      refine after_mono (gives_html_more d 0 m.refs (heldHtml d ++ (d.base.block :: [hubbub, binding])) _ h4) ?_
      rintro _ m5 ⟨_, h5, _, _⟩
      rw [after_bind]
      have h5' : Holds m.refs (hubbub :: binding :: (heldHtml d ++ [d.base.block])) m5 := by
        refine h5.perm ?_
        rw [List.perm_iff_count]; intro x
        simp only [heldHtml, List.count_append, List.count_cons, List.count_nil]; omega
      refine after_mono (unref_spec h5') ?_
      rintro _ m6 ⟨h6, _, _⟩
      rw [after_bind]
      refine after_mono (unref_spec h6) ?_
      rintro _ m7 ⟨h7, _, _⟩
      refine ⟨rfl, Or.inl ⟨.dom, _, rfl, Or.inr (Or.inr ⟨rfl, g2⟩), h7,
        fun h => hg4 ((granted_add (a := 497) (b := 2)).mp h).2, fun h => (h (granted_mono g497 (by omega))).elim,
        fun _ => ?_⟩⟩
      rw [List.length_append, heldHtml_length hmade hn1 hn2]; rfl
    · rw [hr03, ht03] at hg4
      have g499 : Granted m.room m.time 499 := (granted_add (a := 497) (b := 2)).mpr ⟨g497, hg4⟩
      have hr04 : m4.room = m.room := hr4.trans hr03
      have ht04 : m4.time = m.time + 499 := by omega
      dsimp only
      have h4' : Holds m.refs (idname :: (held d.base ++ (tableHeld d.memoised ++ (tableHeld d.elements ++
          [d.base.block, hubbub, binding])))) m4 := by
        refine h4.perm ?_
        rw [List.perm_iff_count]; intro x
        simp only [heldHtml, List.count_append, List.count_cons, List.count_nil]; omega
      have key := setIdName_spec hmade h4'
      rw [after_bind] at key ⊢
      refine after_mono key ?_
      intro b m5 h5
      rw [after_bind] at h5 ⊢
      refine after_mono h5 ?_
      rintro _ m6 ⟨rfl, hmade6, h6, hr6, ht6⟩
      rw [after_bind]
      refine after_mono (setEncoding_spec hmade6 charset h6) ?_
      rintro c m7 ⟨hb7, hmade7, lost, h7, hl⟩
      rw [hr6, ht6, hr04, ht04] at hl
      have g501 : Granted m.room (m.time + 499) 2 ↔ Granted m.room m.time 501 :=
        ⟨fun h => (granted_add (a := 499) (b := 2)).mpr ⟨g499, h⟩, fun h => ((granted_add (a := 499) (b := 2)).mp h).2⟩
      rw [g501] at hl
      refine ⟨rfl, Or.inr ⟨_, lost, rfl, rfl, hmade7, g499, h7.perm ?_, hl⟩⟩
      have hb : c.block = d.base.block := hb7
      show (held c ++ (lost ++ (tableHeld d.memoised ++ (tableHeld d.elements ++ [d.base.block, hubbub, binding])))).Perm
        ((tableHeld d.memoised ++ (tableHeld d.elements ++ held c)) ++ (c.block :: hubbub :: binding :: lost))
      rw [hb, List.perm_iff_count]; intro x
      simp only [List.count_append, List.count_cons, List.count_nil]; omega

theorem destroyParser_gives {p : HtmlParser} (hp : p.count = 3) (hd : Made p.doc.base) :
    Gives (do let c ← destroyParser p; releaseHtml p.doc c : M Nat)
      (heldHtml p.doc ++ [p.doc.base.block, p.hubbub, p.binding]) 0 := by
  have h1 : Gives (destroyParser p) [p.hubbub, p.binding] 1 := by
    unfold destroyParser
    rw [hp]
    exact (gives_html_more p.doc 1).bind ((Frees.one _).gives.bind (Gives.bind (gives_html_more p.doc 0)
      (Gives.bind (f := fun _ => pure 1) (Frees.one p.binding).gives (gives_pure 1))))
  refine (h1.bind (gives_html_last hd)).perm ?_
  rw [List.perm_iff_count]; intro x
  simp only [List.count_append, List.count_cons, List.count_nil]; omega

theorem releaseFirst_gives {p : HtmlParser} (hp : p.count = 3) (hd : Made p.doc.base) :
    Gives (do let c ← releaseHtml p.doc p.count; destroyParser { p with count := c } : M Nat)
      (heldHtml p.doc ++ [p.doc.base.block, p.hubbub, p.binding]) 0 := by
  rw [hp]
  have h1 : Gives (destroyParser { p with count := 2 })
      (p.hubbub :: ((heldHtml p.doc ++ [p.doc.base.block]) ++ [p.binding])) 0 := by
    unfold destroyParser
    exact (gives_html_more p.doc 0).bind ((Frees.one _).gives.bind (Gives.bind (gives_html_last hd)
      (Gives.bind (f := fun _ => pure 0) (Frees.one p.binding).gives (gives_pure 0))))
  refine ((gives_html_more p.doc 1).bind (f := fun c => destroyParser { p with count := c }) h1).perm ?_
  rw [List.perm_iff_count]; intro x
  simp only [List.count_append, List.count_cons, List.count_nil]; omega

theorem Gives.run {α : Type} {x : M α} {as l : List Nat} {b : α} {m : Mem} (hx : Gives x as b)
    (h : Holds r (as ++ l) m) : ∃ m', x m = .ok b m' ∧ Holds r l m' := by
  obtain ⟨v, m', e, rfl, hh, _⟩ := after_elim (hx r l m h)
  exact ⟨m', e, hh⟩

theorem not_refused {k : Nat} (hk : ¬ RefusedAt m k) : Granted m.room m.time k → m.room (m.time + k) = true := by
  intro hg
  cases hb : m.room (m.time + k) with
  | true => rfl
  | false => exact (hk ⟨hg, hb⟩).elim

/-- **Specification.**  The client ends a parse before it began: the parser is destroyed, and the document
given up, in one order or the other; the number of references to the document that are left. -/
def closeParser (clientFirst : Bool) (p : HtmlParser) : M Nat :=
  if clientFirst then do
    let c ← releaseHtml p.doc p.count
    destroyParser { p with count := c }
  else do
    let c ← destroyParser p
    releaseHtml p.doc c

theorem closeParser_gives (clientFirst : Bool) {p : HtmlParser} (hp : p.count = 3) (hd : Made p.doc.base) :
    Gives (closeParser clientFirst p) (heldHtml p.doc ++ [p.doc.base.block, p.hubbub, p.binding]) 0 := by
  cases clientFirst
  · exact destroyParser_gives hp hd
  · exact releaseFirst_gives hp hd

/-- **C87 (HTML parsers, full claim where it holds).**  The namespace strings are there, and the first refused
request is not number 41 (where the creation of an HTML document reads an unwritten pointer, C84).  Then
`dom_hubbub_parser_create` runs without undefined behaviour.  It succeeds exactly if its first 499 requests
are granted; if no charset is given, or its string cannot be made, closing the parser and giving up the
document, in either order, then gives back all that was taken.  Otherwise it returns the error that belongs
to the refused request, and if that was one of the first nine, nothing is left behind.
Missing for the full property: see `C87_html_parser_violated`, `C87_encoding_violated` and C84. -/
theorem C87_html_parser_partial (charset : Bool) (n : Names) (hn : n.Ready) (m : Mem) (hm : m.Valid)
    (hk : ¬ RefusedAt m 41) :
    ∃ o m', createParser charset n m = .ok (o, n) m' ∧
      ((∃ p, o = .ok p ∧ Granted m.room m.time 499 ∧
          (¬ (charset = true ∧ Granted m.room m.time 501) →
            ∀ clientFirst, ∃ m'', closeParser clientFirst p m' = .ok 0 m'' ∧ m''.refs = m.refs)) ∨
       (∃ e, o = .error e ∧ errorFor m.room m.time e ∧ ¬ Granted m.room m.time 499 ∧
          (¬ Granted m.room m.time 9 → m'.refs = m.refs))) := by
  obtain ⟨⟨o, n'⟩, m', ho, hn', h⟩ := after_elim (createParser_spec charset hn hm (not_refused hk))
  dsimp only at hn' h
  subst hn'
  refine ⟨o, m', ho, ?_⟩
  rcases h with ⟨e, lost, rfl, he, hh, hg, h9, _⟩ | ⟨p, lost, rfl, hc, hmade, hg, hh, hl⟩
  · refine Or.inr ⟨e, rfl, he, hg, fun hn9 => ?_⟩
    rw [h9 hn9] at hh; exact hh.refs_eq
  · refine Or.inl ⟨p, rfl, hg, fun hno cf => ?_⟩
    rcases hl with ⟨h1, h2, _⟩ | ⟨rfl, _⟩
    · exact (hno ⟨h1, h2⟩).elim
    · obtain ⟨m'', e, h''⟩ := (closeParser_gives cf hc hmade).run (l := []) (by rw [List.append_nil]; exact hh)
      exact ⟨m'', e, h''.refs_eq⟩

/-- **C87, violated.**  If the string "id" cannot be made (the first refused request is number 497 or 498),
`dom_hubbub_parser_create` fails and loses the whole document it had made: 254 objects. -/
theorem C87_html_parser_violated (charset : Bool) (n : Names) (hn : n.Ready) (m : Mem) (hm : m.Valid) (k : Nat)
    (hk : RefusedAt m k) (h497 : 497 ≤ k) (h499 : k < 499) :
    ∃ (m' : Mem) (lost : List Nat), createParser charset n m = .ok (.error .dom, n) m' ∧ lost.length = 254 ∧
      ∀ a, m'.refs a = m.refs a + lost.count a := by
  obtain ⟨⟨o, n'⟩, m', ho, hn', h⟩ := after_elim (createParser_spec charset hn hm
    (fun _ => hk.1 41 (by omega)))
  dsimp only at hn' h
  subst hn'
  rcases h with ⟨e, lost, rfl, he, hh, hg, h9, hl⟩ | ⟨p, lost, rfl, hc, hmade, hg, hh, hl⟩
  · have g2 : Granted m.room m.time 2 := granted_mono hk.1 (by omega)
    have : e = .dom := by
      rcases he with ⟨_, h⟩ | ⟨_, _, h⟩ | ⟨h, _⟩
      · exact (h (granted_mono g2 (by omega))).elim
      · exact (h g2).elim
      · exact h
    subst this
    exact ⟨m', lost, ho, hl (granted_mono hk.1 h497), hh.refs⟩
  · have := le_refused hk hg; omega

/-- **C87, violated.**  If a charset is given and every request is granted, then after the parser was closed
and the document given up, in whatever order, one object is still there: the name of the encoding that the
document was made with, whose only pointer was written over. -/
theorem C87_encoding_violated (n : Names) (hn : n.Ready) (m : Mem) (hm : m.Valid)
    (hg : Granted m.room m.time 501) :
    ∃ p m', createParser true n m = .ok (.ok p, n) m' ∧
      ∀ clientFirst, ∃ (m'' : Mem) (lost : Nat), closeParser clientFirst p m' = .ok 0 m'' ∧
        ∀ a, m''.refs a = m.refs a + [lost].count a := by
  obtain ⟨⟨o, n'⟩, m', ho, hn', h⟩ := after_elim (createParser_spec true hn hm
    (fun _ => hg 41 (by omega)))
  dsimp only at hn' h
  subst hn'
  rcases h with ⟨e, lost, rfl, he, hh, hng, _⟩ | ⟨p, lost, rfl, hc, hmade, _, hh, hl⟩
  · exact (hng (granted_mono hg (by omega))).elim
  · refine ⟨p, m', ho, fun cf => ?_⟩
    rcases hl with ⟨_, _, h1⟩ | ⟨_, hno⟩
    · obtain ⟨x, rfl⟩ : ∃ x, lost = [x] := by
        cases lost with
        | nil => simp at h1
        | cons x xs =>
          cases xs with
          | nil => exact ⟨x, rfl⟩
          | cons y ys => simp at h1
      obtain ⟨m'', e, h''⟩ := (closeParser_gives cf hc hmade).run (l := [x]) (by
        rw [List.append_assoc]; exact hh)
      exact ⟨m'', x, e, h''.refs⟩
    · exact (hno ⟨rfl, hg⟩).elim

theorem last_gives {α : Type} (a : Nat) (b : α) : Gives (do unref a; pure b : M α) [a] b :=
  Gives.bind (f := fun _ => pure b) (Frees.one a).gives (gives_pure b)

/-! ## Fragment parsers -/

theorem releaseFrag_last (p : FragParser) : Gives (releaseFrag p 1) [p.name, p.fragment] 0 :=
  (Frees.one _).gives.bind (Gives.bind (f := fun _ => pure 0) (Frees.one p.fragment).gives (gives_pure 0))

theorem releaseFrag_more (p : FragParser) (c : Nat) : Gives (releaseFrag p (c + 2)) [] (c + 1) := gives_pure _

/-- **Specification.**  The client ends a fragment parse before it began. -/
def closeFragParser (clientFirst : Bool) (p : FragParser) : M Nat :=
  if clientFirst then do
    let c ← releaseFrag p p.count
    destroyFragParser { p with count := c }
  else do
    let c ← destroyFragParser p
    releaseFrag p c

theorem closeFragParser_gives (cf : Bool) {p : FragParser} (hp : p.count = 2) :
    Gives (closeFragParser cf p) [p.name, p.fragment, p.hubbub, p.doc, p.binding] 0 := by
  cases cf
  · have h1 : Gives (destroyFragParser p) [p.hubbub, p.doc, p.binding] 1 := by
      unfold destroyFragParser
      rw [hp]
      exact (releaseFrag_more p 0).bind ((Frees.one _).gives.bind ((Frees.one _).gives.bind
        (Gives.bind (f := fun _ => pure 1) (Frees.one p.binding).gives (gives_pure 1))))
    refine (h1.bind (releaseFrag_last p)).perm ?_
    rw [List.perm_iff_count]; intro x
    simp only [List.count_append, List.count_cons, List.count_nil]; omega
  · have h1 : Gives (destroyFragParser { p with count := 1 }) [p.name, p.fragment, p.hubbub, p.doc, p.binding] 0 := by
      unfold destroyFragParser
      exact (releaseFrag_last p).bind ((Frees.one _).gives.bind ((Frees.one _).gives.bind
        (Gives.bind (f := fun _ => pure 0) (Frees.one p.binding).gives (gives_pure 0))))
    show Gives (do let c ← releaseFrag p p.count; destroyFragParser { p with count := c } : M Nat) _ 0
    rw [hp]
    exact (releaseFrag_more p 0).bind (f := fun c => destroyFragParser { p with count := c }) h1

theorem Frees.run {x : M Unit} {as l : List Nat} {m : Mem} (hx : Frees x as)
    (h : Holds r (as ++ l) m) : ∃ m', x m = .ok () m' ∧ Holds r l m' := by
  obtain ⟨v, m', e, hh, _⟩ := after_elim (hx r l m h)
  exact ⟨m', e, hh⟩

/-- **C87 (fragment parsers).**  Whatever requests are refused, `dom_hubbub_fragment_parser_create` does not
run into undefined behaviour.  It succeeds exactly if its five requests are granted, and then closing the
parser and giving up the fragment, in either order, gives back all that was taken, the reference to the
document too; otherwise it returns an error and leaves nothing behind. -/
theorem C87_fragment_parser (doc : Nat) (m : Mem) (hm : m.Valid) (hd : m.refs doc ≠ 0) :
    ∃ o m', createFragParser doc m = .ok o m' ∧
      ((∃ p, o = .ok p ∧ p.doc = doc ∧ Granted m.room m.time 5 ∧ m.refs doc < m'.refs doc ∧
          ∀ clientFirst, ∃ m'', closeFragParser clientFirst p m' = .ok 0 m'' ∧ m''.refs = m.refs) ∨
       (∃ e, o = .error e ∧ errorFor m.room m.time e ∧ ¬ Granted m.room m.time 5 ∧ m'.refs = m.refs)) := by
  suffices h : after (createFragParser doc) m (fun o m' =>
      ((∃ p, o = .ok p ∧ p.doc = doc ∧ p.count = 2 ∧ Granted m.room m.time 5 ∧
          Holds m.refs [p.name, p.fragment, p.hubbub, p.doc, p.binding] m') ∨
       (∃ e, o = .error e ∧ errorFor m.room m.time e ∧ ¬ Granted m.room m.time 5 ∧ m'.refs = m.refs))) by
    obtain ⟨o, m', ho, h⟩ := after_elim h
    refine ⟨o, m', ho, ?_⟩
    rcases h with ⟨p, rfl, hpd, hc, hg, hh⟩ | h
    · refine Or.inl ⟨p, rfl, hpd, hg, ?_, fun cf => ?_⟩
      · rw [hh.refs doc, hpd]
        have : 0 < [p.name, p.fragment, p.hubbub, doc, p.binding].count doc :=
          List.count_pos_iff.mpr (by simp)
        omega
      · obtain ⟨m'', e, h''⟩ := (closeFragParser_gives cf hc).run (l := []) hh
        exact ⟨m'', e, h''.refs_eq⟩
    · exact Or.inr h
  unfold createFragParser
  rw [after_bind]
  refine after_mono (malloc_spec hm.holds) ?_
  rintro o m1 ⟨hr1, ht1, ⟨rfl, h1, hg1⟩ | ⟨binding, rfl, h1, hg1⟩⟩
  · exact Or.inr ⟨.noMem, rfl, Or.inl ⟨rfl, hg1⟩, fun h => hg1 (granted_mono h (by omega)), h1.refs_eq⟩
  dsimp only
  have hd1 : m1.refs doc ≠ 0 := by have := h1.refs doc; omega
  rw [after_bind]
  refine after_mono (ref_spec h1 hd1) ?_
  rintro _ m2 ⟨h2, hr2, ht2⟩
  rw [after_bind]
  refine after_mono (malloc_spec h2) ?_
  rintro o m3 ⟨hr3, ht3, ⟨rfl, h3, hg3⟩ | ⟨hubbub, rfl, h3, hg3⟩⟩
  · rw [hr2, hr1, ht2, ht1] at hg3
    have g2 : ¬ Granted m.room m.time 2 := fun h => hg3 ((granted_add (a := 1) (b := 1)).mp h).2
    refine after_mono (((Frees.one doc).gives.bind (last_gives binding _)) _ [] _ h3) ?_
    rintro _ m4 ⟨rfl, h4, _⟩
    exact Or.inr ⟨.hubbub, rfl, Or.inr (Or.inl ⟨rfl, hg1, g2⟩), fun h => g2 (granted_mono h (by omega)),
      h4.refs_eq⟩
  dsimp only
  rw [hr2, hr1, ht2, ht1] at hg3
  have g2 : Granted m.room m.time 2 := (granted_add (a := 1) (b := 1)).mpr ⟨hg1, hg3⟩
  have hr03 : m3.room = m.room := by rw [hr3, hr2, hr1]
  have ht03 : m3.time = m.time + 2 := by omega
  rw [after_bind]
  refine after_mono (createString_spec h3) ?_
  rintro o m4 ⟨hr4, ⟨rfl, h4, hg4⟩ | ⟨name, rfl, h4, hg4, ht4⟩⟩
  · rw [hr03, ht03] at hg4
    refine after_mono (((Frees.one hubbub).gives.bind ((Frees.one doc).gives.bind (last_gives binding _)))
      _ [] _ h4) ?_
    rintro _ m5 ⟨rfl, h5, _⟩
    exact Or.inr ⟨.dom, rfl, Or.inr (Or.inr ⟨rfl, g2⟩), fun h => hg4 (granted_mono
      ((granted_add (a := 2) (b := 3)).mp h).2 (by omega)), h5.refs_eq⟩
  dsimp only
  rw [hr03, ht03] at hg4
  have g4 : Granted m.room m.time 4 := (granted_add (a := 2) (b := 2)).mpr ⟨g2, hg4⟩
  rw [after_bind]
  refine after_mono (malloc_spec h4) ?_
  rintro o m5 ⟨hr5, ht5, ⟨rfl, h5, hg5⟩ | ⟨frag, rfl, h5, hg5⟩⟩
  · rw [hr4, hr03, ht4, ht03] at hg5
    refine after_mono (((Frees.one name).gives.bind ((Frees.one hubbub).gives.bind ((Frees.one doc).gives.bind
      (last_gives binding _)))) _ [] _ h5) ?_
    rintro _ m6 ⟨rfl, h6, _⟩
    exact Or.inr ⟨.dom, rfl, Or.inr (Or.inr ⟨rfl, g2⟩), fun h => hg5
      ((granted_add (a := 4) (b := 1)).mp h).2, h6.refs_eq⟩
  dsimp only
  rw [hr4, hr03, ht4, ht03] at hg5
  have g5 : Granted m.room m.time 5 := (granted_add (a := 4) (b := 1)).mpr ⟨g4, hg5⟩
  have hnm : m5.refs name ≠ 0 := by
    have := h5.refs name
    have h0 : 0 < [frag, name, hubbub, doc, binding].count name := List.count_pos_iff.mpr (by simp)
    omega
  rw [after_bind]
  refine after_mono (ref_spec h5 hnm) ?_
  rintro _ m6 ⟨h6, _, _⟩
  rw [after_bind]
  refine after_mono (unref_spec h6) ?_
  rintro _ m7 ⟨h7, _, _⟩
  refine Or.inl ⟨_, rfl, rfl, rfl, g5, h7.perm ?_⟩
  exact List.Perm.swap _ _ _

/-! ## XML parsers -/

/-- **Specification.**  The client ends a parse with libxml before it began. -/
def closeLibxml (clientFirst : Bool) (p : XmlParser) : M Nat :=
  if clientFirst then do
    let c ← releaseDoc p.doc p.count
    destroyLibxml { p with count := c }
  else do
    let c ← destroyLibxml p
    releaseDoc p.doc c

theorem closeLibxml_gives (cf : Bool) {p : XmlParser} (hp : p.count = 2) (hd : Made p.doc) :
    Gives (closeLibxml cf p) (held p.doc ++ [p.doc.block, p.key, p.ctx, p.block]) 0 := by
  cases cf
  · have h1 : Gives (destroyLibxml p) [p.key, p.ctx, p.block] 1 := by
      unfold destroyLibxml
      rw [hp]
      exact (Frees.one _).gives.bind ((gives_doc_more p.doc 0).bind ((Frees.one _).gives.bind
        (last_gives p.block 1)))
    refine (h1.bind (gives_doc_last hd)).perm ?_
    rw [List.perm_iff_count]; intro x
    simp only [List.count_append, List.count_cons, List.count_nil]; omega
  · have h1 : Gives (destroyLibxml { p with count := 1 })
        ([p.key] ++ ((held p.doc ++ [p.doc.block]) ++ [p.ctx, p.block])) 0 := by
      unfold destroyLibxml
      exact (Frees.one _).gives.bind ((gives_doc_last hd).bind ((Frees.one _).gives.bind (last_gives p.block 0)))
    show Gives (do let c ← releaseDoc p.doc p.count; destroyLibxml { p with count := c } : M Nat) _ 0
    rw [hp]
    refine ((gives_doc_more p.doc 0).bind (f := fun c => destroyLibxml { p with count := c }) h1).perm ?_
    rw [List.perm_iff_count]; intro x
    simp only [List.count_append, List.count_cons, List.count_nil]; omega

/-- **Specification.**  The client ends a parse with expat before it began. -/
def closeExpat (clientFirst : Bool) (p : ExpatParser) : M Nat :=
  if clientFirst then do
    let c ← releaseDoc p.doc p.count
    destroyExpat { p with count := c }
  else do
    let c ← destroyExpat p
    releaseDoc p.doc c

theorem closeExpat_gives (cf : Bool) {p : ExpatParser} (hp : p.count = 3) (hd : Made p.doc) :
    Gives (closeExpat cf p) (held p.doc ++ [p.doc.block, p.expat, p.block]) 0 := by
  cases cf
  · have h1 : Gives (destroyExpat p) [p.expat, p.block] 1 := by
      unfold destroyExpat
      rw [hp]
      exact (Frees.one _).gives.bind ((gives_doc_more p.doc 1).bind ((gives_doc_more p.doc 0).bind
        (last_gives p.block 1)))
    refine (h1.bind (gives_doc_last hd)).perm ?_
    rw [List.perm_iff_count]; intro x
    simp only [List.count_append, List.count_cons, List.count_nil]; omega
  · have h1 : Gives (destroyExpat { p with count := 2 })
        ([p.expat] ++ ((held p.doc ++ [p.doc.block]) ++ [p.block])) 0 := by
      unfold destroyExpat
      exact (Frees.one _).gives.bind ((gives_doc_more p.doc 0).bind ((gives_doc_last hd).bind
        (last_gives p.block 0)))
    show Gives (do let c ← releaseDoc p.doc p.count; destroyExpat { p with count := c } : M Nat) _ 0
    rw [hp]
    refine ((gives_doc_more p.doc 1).bind (f := fun c => destroyExpat { p with count := c }) h1).perm ?_
    rw [List.perm_iff_count]; intro x
    simp only [List.count_append, List.count_cons, List.count_nil]; omega

theorem createLibxml_run {n : Names} (hn : n.Ready) (hm : m.Valid) :
    (∃ m', createLibxml n m = .ok (none, n) m' ∧ ¬ Granted m.room m.time 4 ∧ m'.refs = m.refs) ∨
    (createLibxml n m = .fault .useAfterFree ∧ Granted m.room m.time 4 ∧ ¬ Granted m.room m.time 43) ∨
    (∃ p m', createLibxml n m = .ok (some p, n) m' ∧ Granted m.room m.time 43 ∧ p.count = 2 ∧ Made p.doc ∧
      Holds m.refs (held p.doc ++ [p.doc.block, p.key, p.ctx, p.block]) m') := by
  unfold createLibxml
  obtain ⟨o, m1, e1, hr1, ht1, ho⟩ := after_elim (malloc_spec hm.holds)
  rw [bind_ok e1]
  rcases ho with ⟨rfl, h1, hg1⟩ | ⟨parser, rfl, h1, hg1⟩
  · exact Or.inl ⟨m1, rfl, fun h => hg1 (granted_mono h (by omega)), h1.refs_eq⟩
  dsimp only
  obtain ⟨o, m2, e2, hr2, ht2, ho⟩ := after_elim (malloc_spec h1)
  rw [bind_ok e2]
  rcases ho with ⟨rfl, h2, hg2⟩ | ⟨ctx, rfl, h2, hg2⟩
  · rw [hr1, ht1] at hg2
    obtain ⟨m', e, h'⟩ := (last_gives parser ((none : Option XmlParser), n)).run (l := []) h2
    exact Or.inl ⟨m', e, fun h => hg2 (granted_mono ((granted_add (a := 1) (b := 3)).mp h).2 (by omega)),
      h'.refs_eq⟩
  dsimp only
  rw [hr1, ht1] at hg2
  have g2 : Granted m.room m.time 2 := (granted_add (a := 1) (b := 1)).mpr ⟨hg1, hg2⟩
  have hr02 : m2.room = m.room := hr2.trans hr1
  have ht02 : m2.time = m.time + 2 := by omega
  obtain ⟨o, m3, e3, hr3, ho⟩ := after_elim (createString_spec h2)
  rw [bind_ok e3]
  rcases ho with ⟨rfl, h3, hg3⟩ | ⟨key, rfl, h3, hg3, ht3⟩
  · rw [hr02, ht02] at hg3
    have hgv : Gives (do unref ctx; unref parser; pure (none, n) : M (Option XmlParser × Names))
      [ctx, parser] (none, n) := (Frees.one ctx).gives.bind (last_gives parser _)
    obtain ⟨m', e, h'⟩ := hgv.run (l := []) h3
    exact Or.inl ⟨m', e, fun h => hg3 ((granted_add (a := 2) (b := 2)).mp h).2, h'.refs_eq⟩
  dsimp only
  rw [hr02, ht02] at hg3
  have g4 : Granted m.room m.time 4 := (granted_add (a := 2) (b := 2)).mpr ⟨g2, hg3⟩
  have hr03 : m3.room = m.room := hr3.trans hr02
  have ht03 : m3.time = m.time + 4 := by omega
  obtain ⟨o, m4, e4, hr4, ho⟩ := after_elim (createDocument_spec h3.valid)
  have en : newXml n m3 = .ok (o, n) m4 := by
    rw [newXml_ready hn, bind_ok e4]; rfl
  rw [bind_ok en]
  rw [hr03, ht03] at ho
  have down : ∀ {k}, Granted m.room m.time 43 → k ≤ 39 → Granted m.room (m.time + 4) k := fun h hk =>
    granted_mono ((granted_add (a := 4) (b := 39)).mp h).2 hk
  have crashes : ∀ {m5 : Mem} {lost : List Nat}, Holds m.refs (lost ++ [key, ctx, parser]) m5 →
      (do unref ctx; unref key; unref parser; crash .useAfterFree : M (Option XmlParser × Names)) m5
        = .fault .useAfterFree := by
    intro m5 lost hh
    have hh' : Holds m.refs (ctx :: key :: parser :: lost) m5 := hh.perm (by
      rw [List.perm_iff_count]; intro x
      simp only [List.count_append, List.count_cons, List.count_nil]; omega)
    obtain ⟨_, m6, e6, h6, _⟩ := after_elim (unref_spec hh')
    obtain ⟨_, m7, e7, h7, _⟩ := after_elim (unref_spec h6)
    obtain ⟨_, m8, e8, h8, _⟩ := after_elim (unref_spec h7)
    rw [bind_ok e6, bind_ok e7, bind_ok e8]; rfl
  rcases ho with ⟨rfl, he, hg⟩ | ⟨rfl, hg, lost, hh, hl⟩ | ⟨d, rfl, hmade, hh, hg, ht⟩
  · exact Or.inr (Or.inl ⟨crashes (h3.trans he), g4, fun h => hg (down h (by omega))⟩)
  · refine Or.inr (Or.inl ⟨crashes (h3.trans hh), g4, fun h => ?_⟩)
    have h38 := ((granted_add (a := 1) (b := 38)).mp (down h (Nat.le_refl 39))).2
    rcases hl with ⟨_, hn⟩ | ⟨_, _, hn⟩ | ⟨j, hj, _, _, hn⟩
    · exact hn (granted_mono h38 (by omega))
    · exact hn (granted_mono h38 (by omega))
    · exact hn (granted_mono h38 (by omega))
  · refine Or.inr (Or.inr ⟨_, m4, rfl, (granted_add (a := 4) (b := 39)).mpr ⟨g4, hg⟩, rfl, hmade, ?_⟩)
    exact (h3.trans hh).perm (by rw [List.append_assoc]; exact List.Perm.refl _)

/-- **C87 (XML parsers with libxml, full claim where it holds).**  The namespace strings are there.  If all 43
requests are granted, `dom_xml_parser_create` succeeds, and closing the parser and giving up the document, in
either order, gives back all that was taken.  If one of the first four is refused it returns `NULL` and leaves
nothing behind.  Missing for the full property: see `C87_libxml_violated`. -/
theorem C87_libxml_partial (n : Names) (hn : n.Ready) (m : Mem) (hm : m.Valid) :
    (Granted m.room m.time 43 → ∃ p m', createLibxml n m = .ok (some p, n) m' ∧
      ∀ clientFirst, ∃ m'', closeLibxml clientFirst p m' = .ok 0 m'' ∧ m''.refs = m.refs) ∧
    (¬ Granted m.room m.time 4 → ∃ m', createLibxml n m = .ok (none, n) m' ∧ m'.refs = m.refs) := by
  rcases createLibxml_run hn hm with ⟨m', e, hg, hr⟩ | ⟨e, hg, hg'⟩ | ⟨p, m', e, hg, hc, hd, hh⟩
  · exact ⟨fun h => (hg (granted_mono h (by omega))).elim, fun _ => ⟨m', e, hr⟩⟩
  · exact ⟨fun h => (hg' h).elim, fun h => (h hg).elim⟩
  · refine ⟨fun _ => ⟨p, m', e, fun cf => ?_⟩, fun h => (h (granted_mono hg (by omega))).elim⟩
    obtain ⟨m'', e', h''⟩ := (closeLibxml_gives cf hc hd).run (l := []) (by rw [List.append_nil]; exact hh)
    exact ⟨m'', e', h''.refs_eq⟩

/-- **C87, violated.**  Whenever the parser and its key can be made but the document cannot (the first refused
request is one of number 4 to 42), `dom_xml_parser_create` of the libxml binding frees the parser and then
reads its message function. -/
theorem C87_libxml_violated (n : Names) (hn : n.Ready) (m : Mem) (hm : m.Valid) (k : Nat) (hk : RefusedAt m k)
    (h4 : 4 ≤ k) (h43 : k < 43) : createLibxml n m = .fault .useAfterFree := by
  rcases createLibxml_run hn hm with ⟨m', e, hg, hr⟩ | ⟨e, hg, hg'⟩ | ⟨p, m', e, hg, hc, hd, hh⟩
  · have := refused_lt hk hg; omega
  · exact e
  · have := le_refused hk hg; omega

/-- **C87 (XML parsers with expat, full claim where it holds).**  The namespace strings are there.  Whatever
requests are refused, `dom_xml_parser_create` of the expat binding does not run into undefined behaviour.  It
succeeds exactly if its 41 requests are granted, and then closing the parser and giving up the document, in
either order, gives back all that was taken.  Otherwise it returns `NULL`, and if one of the first nine
requests was refused, nothing is left behind.
Missing for the full property: the strings that `_dom_document_create` loses (C84). -/
theorem C87_expat_partial (n : Names) (hn : n.Ready) (m : Mem) (hm : m.Valid) :
    ∃ o m', createExpat n m = .ok (o, n) m' ∧
      ((∃ p, o = some p ∧ Granted m.room m.time 41 ∧
          ∀ clientFirst, ∃ m'', closeExpat clientFirst p m' = .ok 0 m'' ∧ m''.refs = m.refs) ∨
       (o = none ∧ ¬ Granted m.room m.time 41 ∧ (¬ Granted m.room m.time 9 → m'.refs = m.refs))) := by
  unfold createExpat
  obtain ⟨o, m1, e1, hr1, ht1, ho⟩ := after_elim (malloc_spec hm.holds)
  rw [bind_ok e1]
  rcases ho with ⟨rfl, h1, hg1⟩ | ⟨parser, rfl, h1, hg1⟩
  · exact ⟨none, m1, rfl, Or.inr ⟨rfl, fun h => hg1 (granted_mono h (by omega)), fun _ => h1.refs_eq⟩⟩
  dsimp only
  obtain ⟨o, m2, e2, hr2, ht2, ho⟩ := after_elim (malloc_spec h1)
  rw [bind_ok e2]
  rcases ho with ⟨rfl, h2, hg2⟩ | ⟨expat, rfl, h2, hg2⟩
  · rw [hr1, ht1] at hg2
    obtain ⟨m', e, h'⟩ := (last_gives parser ((none : Option ExpatParser), n)).run (l := []) h2
    exact ⟨none, m', e, Or.inr ⟨rfl, fun h => hg2 (granted_mono ((granted_add (a := 1) (b := 40)).mp h).2
      (by omega)), fun _ => h'.refs_eq⟩⟩
  dsimp only
  rw [hr1, ht1] at hg2
  have g2 : Granted m.room m.time 2 := (granted_add (a := 1) (b := 1)).mpr ⟨hg1, hg2⟩
  have hr02 : m2.room = m.room := hr2.trans hr1
  have ht02 : m2.time = m.time + 2 := by omega
  obtain ⟨o, m4, e4, hr4, ho⟩ := after_elim (createDocument_spec h2.valid)
  have en : newXml n m2 = .ok (o, n) m4 := by
    rw [newXml_ready hn, bind_ok e4]; rfl
  rw [bind_ok en]
  rw [hr02, ht02] at ho
  have down : ∀ {k}, Granted m.room m.time 41 → k ≤ 39 → Granted m.room (m.time + 2) k := fun h hk =>
    granted_mono ((granted_add (a := 2) (b := 39)).mp h).2 hk
  have fails : ∀ {m5 : Mem} {lost : List Nat}, Holds m.refs (lost ++ [expat, parser]) m5 →
      ∃ m', (do unref expat; unref parser; pure (none, n) : M (Option ExpatParser × Names)) m5
        = .ok (none, n) m' ∧ Holds m.refs lost m' := by
    intro m5 lost hh
    exact ((Frees.one expat).gives.bind (last_gives parser ((none : Option ExpatParser), n))).run
      (as := [expat, parser]) (hh.perm List.perm_append_comm)
  rcases ho with ⟨rfl, he, hg⟩ | ⟨rfl, hg, lost, hh, hl⟩ | ⟨d, rfl, hmade, hh, hg, ht⟩
  · obtain ⟨m', e, h'⟩ := fails (h2.trans he)
    exact ⟨none, m', e, Or.inr ⟨rfl, fun h => hg (down h (by omega)), fun _ => h'.refs_eq⟩⟩
  · obtain ⟨m', e, h'⟩ := fails (h2.trans hh)
    refine ⟨none, m', e, Or.inr ⟨rfl, fun h => ?_, fun h9 => ?_⟩⟩
    · have h38 := ((granted_add (a := 1) (b := 38)).mp (down h (Nat.le_refl 39))).2
      rcases hl with ⟨_, hn⟩ | ⟨_, _, hn⟩ | ⟨j, hj, _, _, hn⟩
      · exact hn (granted_mono h38 (by omega))
      · exact hn (granted_mono h38 (by omega))
      · exact hn (granted_mono h38 (by omega))
    · have h6 : ¬ Granted m.room (m.time + 2 + 1) 6 := fun h6 =>
        h9 ((granted_add (a := 2) (b := 7)).mpr ⟨g2, (granted_add (a := 1) (b := 6)).mpr ⟨hg, h6⟩⟩)
      rcases hl with ⟨e, _⟩ | ⟨_, h6', _⟩ | ⟨j, hj, _, h6', _⟩
      · rw [e] at h'; exact h'.refs_eq
      · exact (h6 h6').elim
      · exact (h6 (granted_mono h6' (by omega))).elim
  · refine ⟨some { block := parser, expat := expat, doc := d, count := 3 }, m4, rfl,
      Or.inl ⟨_, rfl, (granted_add (a := 2) (b := 39)).mpr ⟨g2, hg⟩, fun cf => ?_⟩⟩
    obtain ⟨m'', e', h''⟩ := (closeExpat_gives cf (p := { block := parser, expat := expat, doc := d, count := 3 })
      rfl hmade).run (l := []) (by
        refine (h2.trans hh).perm ?_
        rw [List.append_nil, List.append_assoc]; exact List.Perm.refl _)
    exact ⟨m'', e', h''.refs_eq⟩

/-! ## The hypotheses are met -/

/-- The namespace component after the first document, with string 0 for `xml`. -/
def someNames : Names := { xml := .ptr 0 }

theorem someNames_ready : someNames.Ready := by intro h; cases h

/-- The cases exist: parsers that are made, a document lost at the name "id", an encoding lost without any
refusal, and a parser read after it was freed. -/
theorem C87_cases :
    (∃ p m', createParser false someNames (tight 499) = .ok (.ok p, someNames) m') ∧
    (∃ m', createParser false someNames (tight 497) = .ok (.error .dom, someNames) m' ∧ m'.refs ≠ fun _ => 0) ∧
    (∃ p m' m'', createParser true someNames (tight 501) = .ok (.ok p, someNames) m' ∧
      closeParser true p m' = .ok 0 m'' ∧ m''.refs ≠ fun _ => 0) ∧
    (∀ k, 4 ≤ k → k < 43 → createLibxml someNames (tight k) = .fault .useAfterFree) ∧
    (∃ p m', createLibxml someNames (tight 43) = .ok (some p, someNames) m') ∧
    (∃ p m', createExpat someNames (tight 41) = .ok (some p, someNames) m') ∧
    (∃ p m', createFragParser 0 (stocked 5 1) = .ok (.ok p) m') := by
  refine ⟨?_, ?_, ?_, fun k h4 h43 => C87_libxml_violated _ someNames_ready _ (tight_valid k) k
    (tight_refused k) h4 h43, ?_, ?_, ?_⟩
  · obtain ⟨o, m', e, ⟨p, rfl, _⟩ | ⟨_, _, _, hn, _⟩⟩ := C87_html_parser_partial false someNames someNames_ready
      (tight 499) (tight_valid _) (fun h => by have := le_refused h (granted_mono (tight_refused 499).1 (show 42 ≤ 499 by omega)); omega)
    · exact ⟨p, m', e⟩
    · exact (hn (tight_refused 499).1).elim
  · obtain ⟨m', lost, e, hl, hr⟩ := C87_html_parser_violated false someNames someNames_ready (tight 497)
      (tight_valid _) 497 (tight_refused _) (by omega) (by omega)
    refine ⟨m', e, fun h0 => ?_⟩
    cases lost with
    | nil => simp at hl
    | cons x xs =>
      have := hr x
      rw [h0] at this
      simp only [List.count_cons_self] at this
      omega
  · obtain ⟨p, m', e, h⟩ := C87_encoding_violated someNames someNames_ready (tight 501) (tight_valid _)
      (tight_refused 501).1
    obtain ⟨m'', x, e'', hr⟩ := h true
    refine ⟨p, m', m'', e, e'', fun h0 => ?_⟩
    have := hr x
    rw [h0] at this
    simp only [List.count_cons_self] at this
    omega
  · obtain ⟨p, m', e, _⟩ := (C87_libxml_partial someNames someNames_ready (tight 43) (tight_valid _)).1
      (tight_refused 43).1
    exact ⟨p, m', e⟩
  · obtain ⟨o, m', e, ⟨p, rfl, _⟩ | ⟨_, hn, _⟩⟩ := C87_expat_partial someNames someNames_ready (tight 41) (tight_valid _)
    · exact ⟨p, m', e⟩
    · exact (hn (tight_refused 41).1).elim
  · obtain ⟨o, m', e, ⟨p, rfl, _⟩ | ⟨_, _, _, hn, _⟩⟩ := C87_fragment_parser 0 (stocked 5 1) (stocked_valid _ _) (by decide)
    · exact ⟨p, m', e⟩
    · exact (hn (stocked_granted (Nat.le_refl 5))).elim

end Dom.Oom
