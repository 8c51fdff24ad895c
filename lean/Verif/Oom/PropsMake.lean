import Verif.Oom.Make

/-!
# C84: creating a document when memory runs out

`createDocument` and `createHtml` are run against every possible sequence of granted and refused requests.
A refused request must come back as `DOM_NO_MEM_ERR` with nothing left behind; the theorems say exactly when
it does, and what is lost (or read without having been written) when it does not.
-/
namespace Dom.Oom

/-! ## Lists of references -/

theorem unrefAll_spec : ∀ (as : List Nat) {r : Nat → Nat} {l : List Nat} {m : Mem}, Holds r (as ++ l) m →
    after (unrefAll as) m (fun _ m' => Holds r l m' ∧ m'.room = m.room ∧ m'.time = m.time)
  | [], _, _, _, h => ⟨h, rfl, rfl⟩
  | a :: as, r, l, m, h => by
    unfold unrefAll
    rw [after_bind]
    refine after_mono (unref_spec (a := a) (l := as ++ l) h) ?_
    rintro _ m1 ⟨h1, hr1, ht1⟩
    refine after_mono (unrefAll_spec as h1) ?_
    rintro _ m2 ⟨h2, hr2, ht2⟩
    exact ⟨h2, hr2.trans hr1, ht2.trans ht1⟩

/-- The addresses in some fields of a document. -/
def addrs (d : Doc) (fs : List Field) : List Nat := fs.map fun f => (d.field f).addr

/-- All these fields have been written. -/
def Written (d : Doc) (fs : List Field) : Prop := ∀ f ∈ fs, d.field f = .ptr (d.field f).addr

theorem unrefFields_spec : ∀ (fs : List Field) (d : Doc) {r : Nat → Nat} {l : List Nat} {m : Mem},
    Written d fs → Holds r (addrs d fs ++ l) m →
    after (unrefFields d fs) m (fun _ m' => Holds r l m' ∧ m'.room = m.room ∧ m'.time = m.time)
  | [], _, _, _, _, _, h => ⟨h, rfl, rfl⟩
  | f :: fs, d, r, l, m, hw, h => by
    unfold unrefFields
    rw [hw f (List.mem_cons_self ..), unrefCell_ptr, after_bind]
    refine after_mono (unref_spec (a := (d.field f).addr) (l := addrs d fs ++ l) h) ?_
    rintro _ m1 ⟨h1, hr1, ht1⟩
    refine after_mono (unrefFields_spec fs d (fun g hg => hw g (List.mem_cons_of_mem _ hg)) h1) ?_
    rintro _ m2 ⟨h2, hr2, ht2⟩
    exact ⟨h2, hr2.trans hr1, ht2.trans ht1⟩

theorem addrs_perm {d : Doc} {fs gs : List Field} (h : fs.Perm gs) : (addrs d fs).Perm (addrs d gs) :=
  h.map _

theorem Written.perm {d : Doc} {fs gs : List Field} (h : Written d fs) (hp : gs.Perm fs) : Written d gs :=
  fun f hf => h f (hp.mem_iff.mp hf)

theorem set_same (d : Doc) (f : Field) (s : Nat) : (d.set f s).field f = .ptr s := if_pos rfl

theorem set_other (d : Doc) {f g : Field} (s : Nat) (h : g ≠ f) : (d.set f s).field g = d.field g :=
  if_neg h

theorem addrs_set (d : Doc) (f : Field) (s : Nat) : ∀ {fs : List Field}, f ∉ fs →
    addrs (d.set f s) fs = addrs d fs
  | [], _ => rfl
  | g :: gs, h => by
    have hg : g ≠ f := fun e => h (by rw [e]; exact List.mem_cons_self ..)
    have ih := addrs_set d f s (fs := gs) (fun hf => h (List.mem_cons_of_mem _ hf))
    show ((d.set f s).field g).addr :: addrs (d.set f s) gs = _
    rw [set_other d s hg, ih]; rfl

/-! ## The strings of a document -/

/-- A table of strings to be made in which every row gives back exactly what has been made before. -/
def Proper : List Field → List (Field × List Field) → Prop
  | _, [] => True
  | done, (f, back) :: rest => back.Perm done ∧ f ∉ done ∧ Proper (f :: done) rest

instance decProper : (done : List Field) → (t : List (Field × List Field)) → Decidable (Proper done t)
  | _, [] => isTrue trivial
  | done, (f, back) :: rest =>
    have := decProper (f :: done) rest
    inferInstanceAs (Decidable (back.Perm done ∧ f ∉ done ∧ Proper (f :: done) rest))

theorem rows_proper : Proper [.encoding, .uri] rows := by decide +kernel

theorem makeFields_spec : ∀ (t : List (Field × List Field)) (done : List Field) (d : Doc)
    {r : Nat → Nat} {l : List Nat} {m : Mem}, Proper done t → Written d done →
    Holds r (addrs d done ++ l) m →
    after (makeFields t d) m (fun o m' => m'.room = m.room ∧
      ((o = .error .noMem ∧ Holds r l m' ∧ ¬ Granted m.room m.time (2 * t.length)) ∨
       (∃ d', o = .ok d' ∧ Granted m.room m.time (2 * t.length) ∧ m'.time = m.time + 2 * t.length ∧
         d'.name = d.name ∧ d'.events = d.events ∧ d'.block = d.block ∧
         Written d' ((t.map (·.1)).reverse ++ done) ∧
         Holds r (addrs d' ((t.map (·.1)).reverse ++ done) ++ l) m')))
  | [], done, d, r, l, m, _, hw, h =>
    ⟨rfl, Or.inr ⟨d, rfl, granted_zero _ _, rfl, rfl, rfl, rfl, hw, h⟩⟩
  | (f, back) :: rest, done, d, r, l, m, hp, hw, h => by
    obtain ⟨hback, hf, hrest⟩ := hp
    unfold makeFields
    rw [after_bind]
    refine after_mono (createString_spec h) ?_
    rintro o m1 ⟨hr1, ⟨rfl, h1, hg⟩ | ⟨s, rfl, h1, hg, ht1⟩⟩
    · dsimp only
      rw [after_bind]
      refine after_mono (unrefFields_spec back d (hw.perm hback)
        (h1.perm ((addrs_perm hback.symm).append_right l))) ?_
      rintro _ m2 ⟨h2, hr2, ht2⟩
      refine ⟨hr2.trans hr1, Or.inl ⟨rfl, h2, fun hh => hg (granted_mono hh ?_)⟩⟩
      simp only [List.length_cons]; omega
    · dsimp only
      have hw1 : Written (d.set f s) (f :: done) := by
        intro g hg'
        rcases List.mem_cons.mp hg' with e | e
        · rw [e, set_same]; rfl
        · have hne : g ≠ f := fun e' => hf (e' ▸ e)
          rw [set_other d s hne]; exact hw g e
      have h1' : Holds r (addrs (d.set f s) (f :: done) ++ l) m1 := by
        show Holds r (((d.set f s).field f).addr :: addrs (d.set f s) done ++ l) m1
        rw [set_same, addrs_set d f s hf]
        exact h1
      refine after_mono (makeFields_spec rest (f :: done) (d.set f s) hrest hw1 h1') ?_
      rintro o m2 ⟨hr2, ⟨rfl, h2, hg2⟩ | ⟨d', rfl, hg2, ht2, hn, he, hb, hw2, h2⟩⟩
      · refine ⟨hr2.trans hr1, Or.inl ⟨rfl, h2, fun hh => hg2 ?_⟩⟩
        rw [show 2 * ((f, back) :: rest).length = 2 + 2 * rest.length by
          simp only [List.length_cons]; omega] at hh
        rw [hr1, ht1]
        exact (granted_add.mp hh).2
      · rw [hr1, ht1] at hg2
        refine ⟨hr2.trans hr1, Or.inr ⟨d', rfl, ?_, ?_, hn, he, hb, ?_, ?_⟩⟩
        · rw [show 2 * ((f, back) :: rest).length = 2 + 2 * rest.length by
            simp only [List.length_cons]; omega]
          exact granted_add.mpr ⟨hg, hg2⟩
        · simp only [List.length_cons]; omega
        · simpa [List.map_cons, List.reverse_cons, List.append_assoc] using hw2
        · simpa [List.map_cons, List.reverse_cons, List.append_assoc] using h2

theorem makeEvents_spec : ∀ (n : Nat) (d : Doc) {r : Nat → Nat} {l : List Nat} {m : Mem},
    Holds r (d.events ++ l) m →
    after (makeEvents n d) m (fun o m' => m'.room = m.room ∧
      ((o = .error .noMem ∧ ∃ j lost, j < n ∧ lost.length = d.events.length + j ∧
          Holds r (lost ++ l) m' ∧ Granted m.room m.time j ∧ ¬ Granted m.room m.time (j + 1)) ∨
       (∃ es, o = .ok { d with events := es } ∧ es.length = d.events.length + n ∧
          Holds r (es ++ l) m' ∧ Granted m.room m.time n ∧ m'.time = m.time + n)))
  | 0, d, r, l, m, h => ⟨rfl, Or.inr ⟨d.events, rfl, rfl, h, granted_zero _ _, rfl⟩⟩
  | n + 1, d, r, l, m, h => by
    unfold makeEvents
    rw [after_bind]
    refine after_mono (malloc_spec h) ?_
    rintro o m1 ⟨hr1, ht1, ⟨rfl, h1, hg⟩ | ⟨s, rfl, h1, hg⟩⟩
    · exact ⟨hr1, Or.inl ⟨rfl, 0, d.events, by omega, rfl, h1, granted_zero _ _, hg⟩⟩
    · dsimp only
      have h1' : Holds r ((d.events ++ [s]) ++ l) m1 := by
        refine h1.perm ?_
        rw [List.append_assoc]
        exact List.perm_middle.symm
      refine after_mono (makeEvents_spec n { d with events := d.events ++ [s] } h1') ?_
      rintro o m2 ⟨hr2, ⟨rfl, j, lost, hj, hl, h2, hg2, hg3⟩ | ⟨es, rfl, hl, h2, hg2, ht2⟩⟩
      · rw [hr1, ht1] at hg2 hg3
        refine ⟨hr2.trans hr1, Or.inl ⟨rfl, j + 1, lost, by omega, ?_, h2, ?_, ?_⟩⟩
        · rw [hl]; simp only [List.length_append, List.length_cons, List.length_nil]; omega
        · rw [Nat.add_comm]; exact granted_add.mpr ⟨hg, hg2⟩
        · intro hh
          rw [show j + 1 + 1 = 1 + (j + 1) by omega] at hh
          exact hg3 (granted_add.mp hh).2
      · rw [hr1, ht1] at hg2
        refine ⟨hr2.trans hr1, Or.inr ⟨es, rfl, ?_, h2, ?_, by omega⟩⟩
        · rw [hl]; simp only [List.length_append, List.length_cons, List.length_nil]; omega
        · rw [Nat.add_comm]; exact granted_add.mpr ⟨hg, hg2⟩

/-- All the strings of a document, last one first. -/
def allFields : List Field := (rows.map (·.1)).reverse ++ [.encoding, .uri]

theorem finalise_perm : finaliseOrder.Perm allFields := by decide +kernel

/-- Everything a document holds apart from its block. -/
def held (d : Doc) : List Nat := d.name.addr :: (addrs d allFields ++ d.events)

/-- A document as `_dom_document_initialise` leaves it. -/
def Made (d : Doc) : Prop := d.name = .ptr d.name.addr ∧ Written d allFields ∧ d.events.length = eventCount

theorem held_length {d : Doc} (h : Made d) : (held d).length = 24 := by
  have h13 : (addrs d allFields).length = 13 := by
    show (allFields.map _).length = 13
    rw [List.length_map]; rfl
  show ((addrs d allFields ++ d.events).length + 1) = 24
  rw [List.length_append, h13, h.2.2]; rfl

/-- What `_dom_document_initialise` leaves behind when a request is refused: nothing if it is one of the
first six, the name if it is one of the next 22, and everything made so far if it is one of the last ten. -/
def Lost (room : Nat → Bool) (t : Nat) (lost : List Nat) : Prop :=
  (lost = [] ∧ ¬ Granted room t 6) ∨
  (lost.length = 1 ∧ Granted room t 6 ∧ ¬ Granted room t 28) ∨
  (∃ j, j < 10 ∧ lost.length = 14 + j ∧ Granted room t (28 + j) ∧ ¬ Granted room t (29 + j))

theorem initDocument_spec (d : Doc) (hd : d.events = []) {r : Nat → Nat} {l : List Nat} {m : Mem}
    (h : Holds r l m) :
    after (initDocument d) m (fun o m' => m'.room = m.room ∧
      ((o = .error .noMem ∧ ∃ lost, Holds r (lost ++ l) m' ∧ Lost m.room m.time lost) ∨
       (∃ d', o = .ok d' ∧ d'.block = d.block ∧ Made d' ∧ Holds r (held d' ++ l) m' ∧
         Granted m.room m.time 38 ∧ m'.time = m.time + 38))) := by
  unfold initDocument
  rw [after_bind]
  refine after_mono (createString_spec h) ?_
  rintro o m1 ⟨hr1, ⟨rfl, h1, hg1⟩ | ⟨name, rfl, h1, hg1, ht1⟩⟩
  · exact ⟨hr1, Or.inl ⟨rfl, [], h1, Or.inl ⟨rfl, fun hh => hg1 (granted_mono hh (by omega))⟩⟩⟩
  dsimp only
  rw [after_bind]
  refine after_mono (createString_spec h1) ?_
  rintro o m2 ⟨hr2, ⟨rfl, h2, hg2⟩ | ⟨uri, rfl, h2, hg2, ht2⟩⟩
  · dsimp only
    rw [after_bind]
    refine after_mono (unref_spec h2) ?_
    rintro _ m3 ⟨h3, hr3, ht3⟩
    refine ⟨hr3.trans (hr2.trans hr1), Or.inl ⟨rfl, [], h3, Or.inl ⟨rfl, fun hh => hg2 ?_⟩⟩⟩
    rw [hr1, ht1]
    exact (granted_add (a := 2) (b := 2)).mp (granted_mono hh (by omega)) |>.2
  dsimp only
  rw [hr1, ht1] at hg2
  have g4 : Granted m.room m.time 4 := (granted_add (a := 2) (b := 2)).mpr ⟨hg1, hg2⟩
  rw [after_bind]
  refine after_mono (createString_spec h2) ?_
  rintro o m3 ⟨hr3, ⟨rfl, h3, hg3⟩ | ⟨encoding, rfl, h3, hg3, ht3⟩⟩
  · dsimp only
    rw [after_bind]
    refine after_mono (unref_mem h3 (a := name) (List.mem_cons_of_mem _ (List.mem_cons_self ..))) ?_
    rintro _ m4 ⟨h4, hr4, ht4⟩
    have h4' : Holds r (uri :: l) m4 := by
      refine h4.perm ?_
      exact (List.perm_cons_erase (List.mem_cons_of_mem _ (List.mem_cons_self ..))).symm.trans
        (List.Perm.swap ..) |>.cons_inv
    rw [after_bind]
    refine after_mono (unref_spec h4') ?_
    rintro _ m5 ⟨h5, hr5, ht5⟩
    refine ⟨hr5.trans (hr4.trans (hr3.trans (hr2.trans hr1))),
      Or.inl ⟨rfl, [], h5, Or.inl ⟨rfl, fun hh => hg3 ?_⟩⟩⟩
    rw [hr2, hr1, ht2, ht1]
    have := (granted_add (a := 4) (b := 2)).mp hh |>.2
    rwa [show m.time + 2 + 2 = m.time + 4 by omega]
  dsimp only
  rw [hr2, hr1, ht2, ht1, show m.time + 2 + 2 = m.time + 4 by omega] at hg3
  have g6 : Granted m.room m.time 6 := (granted_add (a := 4) (b := 2)).mpr ⟨g4, hg3⟩
  have hname : m3.refs name ≠ 0 := by
    have := h3.refs name
    rw [this]
    have hmem : name ∈ encoding :: uri :: name :: l := by simp
    have := List.count_pos_iff.mpr hmem
    omega
  rw [after_bind]
  refine after_mono (ref_spec h3 hname) ?_
  rintro _ m4 ⟨h4, hr4, ht4⟩
  rw [after_bind]
  refine after_mono (unref_spec h4) ?_
  rintro _ m5 ⟨h5, hr5, ht5⟩
  let d0 : Doc := { (d.set .uri uri).set .encoding encoding with name := .ptr name }
  have hw0 : Written d0 [.encoding, .uri] := by
    intro f hf
    rcases List.mem_cons.mp hf with e | e
    · rw [e]; rfl
    · rw [List.mem_singleton.mp e]; rfl
  have h5' : Holds r (addrs d0 [.encoding, .uri] ++ (name :: l)) m5 := h5
  have hr05 : m5.room = m.room := hr5.trans (hr4.trans (hr3.trans (hr2.trans hr1)))
  have ht05 : m5.time = m.time + 6 := by omega
  rw [after_bind]
  refine after_mono (makeFields_spec rows [.encoding, .uri] d0 rows_proper hw0 h5') ?_
  have hlen : 2 * rows.length = 22 := rfl
  rintro o m6 ⟨hr6, ⟨rfl, h6, hg6⟩ | ⟨d', rfl, hg6, ht6, hn, he, hb, hw, h6⟩⟩
  · rw [hlen, hr05, ht05] at hg6
    refine ⟨hr6.trans hr05, Or.inl ⟨rfl, [name], h6, Or.inr (Or.inl ⟨rfl, g6, fun hh => hg6 ?_⟩)⟩⟩
    exact ((granted_add (a := 6) (b := 22)).mp hh).2
  · rw [hlen, hr05, ht05] at hg6
    rw [hlen, ht05] at ht6
    have g28 : Granted m.room m.time 28 := (granted_add (a := 6) (b := 22)).mpr ⟨g6, hg6⟩
    have he' : d'.events = [] := he.trans hd
    have hr06 : m6.room = m.room := hr6.trans hr05
    have h6' : Holds r (d'.events ++ (addrs d' allFields ++ name :: l)) m6 := by rw [he']; exact h6
    refine after_mono (makeEvents_spec eventCount d' h6') ?_
    rintro o m7 ⟨hr7, ⟨rfl, j, lost, hj, hl, h7, hg7, hg8⟩ | ⟨es, rfl, hl, h7, hg7, ht7⟩⟩
    · rw [hr06, ht6, show m.time + 6 + 22 = m.time + 28 by omega] at hg7 hg8
      refine ⟨hr7.trans hr06, Or.inl ⟨rfl, lost ++ (addrs d' allFields ++ [name]), ?_, ?_⟩⟩
      · simpa [List.append_assoc] using h7
      · refine Or.inr (Or.inr ⟨j, hj, ?_, granted_add.mpr ⟨g28, hg7⟩, fun hh => hg8 ?_⟩)
        · have h13 : (addrs d' allFields).length = 13 := by
            show (allFields.map _).length = 13
            rw [List.length_map]; rfl
          rw [List.length_append, List.length_append, h13, hl, he']
          simp only [List.length_nil, List.length_cons]; omega
        · rw [show 29 + j = 28 + (j + 1) by omega] at hh
          exact (granted_add.mp hh).2
    · rw [hr06, ht6, show m.time + 6 + 22 = m.time + 28 by omega] at hg7
      refine ⟨hr7.trans hr06, Or.inr ⟨{ d' with events := es }, rfl, hb, ⟨?_, hw, ?_⟩, ?_, ?_, ?_⟩⟩
      · show d'.name = .ptr d'.name.addr
        rw [hn]; rfl
      · show es.length = eventCount
        rw [hl, he']; simp
      · refine h7.perm ?_
        have e1 : d'.name.addr = name := by rw [hn]; rfl
        show (es ++ (addrs d' allFields ++ name :: l)).Perm
          ((d'.name.addr :: (addrs d' allFields ++ es)) ++ l)
        rw [e1, List.cons_append, ← List.append_assoc es, List.append_assoc (addrs d' allFields)]
        refine (List.perm_middle (a := name) (l₁ := es ++ addrs d' allFields) (l₂ := l)).trans ?_
        refine List.Perm.cons _ ?_
        rw [← List.append_assoc (addrs d' allFields)]
        exact (List.perm_append_comm (l₁ := es) (l₂ := addrs d' allFields)).append_right l
      · exact (granted_add (a := 28) (b := 10)).mpr ⟨g28, hg7⟩
      · have : m7.time = m6.time + 10 := ht7
        omega

theorem finaliseDocument_spec (d : Doc) (hd : Made d) {r : Nat → Nat} {l : List Nat} {m : Mem}
    (h : Holds r (held d ++ l) m) :
    after (finaliseDocument d) m (fun _ m' => Holds r l m' ∧ m'.room = m.room ∧ m'.time = m.time) := by
  unfold finaliseDocument
  rw [after_bind, hd.1, unrefCell_ptr]
  refine after_mono (unref_spec (a := d.name.addr) (l := (addrs d allFields ++ d.events) ++ l) h) ?_
  rintro _ m1 ⟨h1, hr1, ht1⟩
  rw [after_bind]
  have h1' : Holds r (addrs d finaliseOrder ++ (d.events ++ l)) m1 := by
    rw [List.append_assoc] at h1
    exact h1.perm ((addrs_perm finalise_perm.symm).append_right _)
  refine after_mono (unrefFields_spec finaliseOrder d (hd.2.1.perm finalise_perm) h1') ?_
  rintro _ m2 ⟨h2, hr2, ht2⟩
  refine after_mono (unrefAll_spec d.events h2) ?_
  rintro _ m3 ⟨h3, hr3, ht3⟩
  exact ⟨h3, hr3.trans (hr2.trans hr1), ht3.trans (ht2.trans ht1)⟩

theorem createDocument_spec {m : Mem} (hm : m.Valid) :
    after createDocument m (fun o m' => m'.room = m.room ∧
      ((o = .error .noMem ∧ Holds m.refs [] m' ∧ ¬ Granted m.room m.time 1) ∨
       (o = .error .noMem ∧ Granted m.room m.time 1 ∧
         ∃ lost, Holds m.refs lost m' ∧ Lost m.room (m.time + 1) lost) ∨
       (∃ d, o = .ok d ∧ Made d ∧ Holds m.refs (held d ++ [d.block]) m' ∧
         Granted m.room m.time 39 ∧ m'.time = m.time + 39))) := by
  unfold createDocument
  rw [after_bind]
  refine after_mono (malloc_spec hm.holds) ?_
  rintro o m1 ⟨hr1, ht1, ⟨rfl, h1, hg⟩ | ⟨b, rfl, h1, hg⟩⟩
  · exact ⟨hr1, Or.inl ⟨rfl, h1, hg⟩⟩
  · dsimp only
    rw [after_bind]
    refine after_mono (initDocument_spec { block := b } rfl h1) ?_
    rintro o m2 ⟨hr2, ⟨rfl, lost, h2, hl⟩ | ⟨d, rfl, hb, hmade, h2, hg2, ht2⟩⟩
    · dsimp only
      rw [after_bind]
      refine after_mono (unref_spec (a := b) (l := lost) (h2.perm (List.perm_append_comm))) ?_
      rintro _ m3 ⟨h3, hr3, ht3⟩
      rw [hr1, ht1] at hl
      exact ⟨hr3.trans (hr2.trans hr1), Or.inr (Or.inl ⟨rfl, hg, lost, h3, hl⟩)⟩
    · rw [hr1, ht1] at hg2
      refine ⟨hr2.trans hr1, Or.inr (Or.inr ⟨d, rfl, hmade, ?_, ?_, by omega⟩)⟩
      · have hb' : d.block = b := hb
        rw [hb']; exact h2
      · exact (granted_add (a := 1) (b := 38)).mpr ⟨hg, hg2⟩

theorem refused_lt {m : Mem} {k n : Nat} (h : RefusedAt m k) (hn : ¬ Granted m.room m.time n) : k < n :=
  Nat.lt_of_not_le fun hle => hn (granted_mono h.1 hle)

theorem le_refused {m : Mem} {k n : Nat} (h : RefusedAt m k) (hn : Granted m.room m.time n) : n ≤ k :=
  granted_refused hn h.2

/-- **C84 (documents, full claim where it holds).**  Whatever requests are refused, creating a document does
not run into undefined behaviour.  It succeeds exactly if the first 39 requests are granted, and then
destroying the document gives back all it took.  Otherwise it returns `DOM_NO_MEM_ERR`; if one of the first
seven requests was refused, nothing is left behind.
Missing for the full property: nothing may be left behind whichever request is refused; see
`C84_document_violated`. -/
theorem C84_document_partial (m : Mem) (hm : m.Valid) :
    ∃ o m', createDocument m = .ok o m' ∧
      ((∃ d, o = .ok d ∧ Granted m.room m.time 39 ∧
          ∃ m'', destroyDocument d m' = .ok () m'' ∧ m''.refs = m.refs) ∨
       (o = .error .noMem ∧ ¬ Granted m.room m.time 39 ∧
          (¬ Granted m.room m.time 7 → m'.refs = m.refs))) := by
  obtain ⟨o, m', ho, hr, h⟩ := after_elim (createDocument_spec hm)
  refine ⟨o, m', ho, ?_⟩
  rcases h with ⟨rfl, he, hg⟩ | ⟨rfl, hg, lost, hh, hl⟩ | ⟨d, rfl, hmade, hh, hg, ht⟩
  · exact Or.inr ⟨rfl, fun h39 => hg (granted_mono h39 (by omega)), fun _ => he.refs_eq⟩
  · refine Or.inr ⟨rfl, fun h39 => ?_, fun h7 => ?_⟩
    · have h38 := ((granted_add (a := 1) (b := 38)).mp h39).2
      rcases hl with ⟨_, hn⟩ | ⟨_, _, hn⟩ | ⟨j, hj, _, _, hn⟩
      · exact hn (granted_mono h38 (by omega))
      · exact hn (granted_mono h38 (by omega))
      · exact hn (granted_mono h38 (by omega))
    · have h6 : ¬ Granted m.room (m.time + 1) 6 := fun h6 =>
        h7 ((granted_add (a := 1) (b := 6)).mpr ⟨hg, h6⟩)
      rcases hl with ⟨e, _⟩ | ⟨_, h6', _⟩ | ⟨j, hj, _, h6', _⟩
      · rw [e] at hh; exact hh.refs_eq
      · exact (h6 h6').elim
      · exact (h6 (granted_mono h6' (by omega))).elim
  · refine Or.inl ⟨d, rfl, hg, ?_⟩
    have : after (destroyDocument d) m' (fun _ m'' => m''.refs = m.refs) := by
      unfold destroyDocument
      rw [after_bind]
      refine after_mono (finaliseDocument_spec d hmade hh) ?_
      rintro _ m2 ⟨h2, _, _⟩
      refine after_mono (unref_spec (a := d.block) (l := []) h2) ?_
      rintro _ m3 ⟨h3, _, _⟩
      exact h3.refs_eq
    obtain ⟨_, m'', e, hq⟩ := after_elim this
    exact ⟨m'', e, hq⟩

/-- **C84, violated.**  Whenever the first refused request is one of number 7 to 38, `_dom_document_create`
returns `DOM_NO_MEM_ERR` and loses memory for good: the string `"#document"` while the strings are made
(the reference taken by `_dom_node_initialise` is not given back), and all the strings and the names of event
types made so far while the event types are interned. -/
theorem C84_document_violated (m : Mem) (hm : m.Valid) (k : Nat) (hk : RefusedAt m k) (h7 : 7 ≤ k)
    (h39 : k < 39) :
    ∃ (m' : Mem) (lost : List Nat), createDocument m = .ok (.error .noMem) m' ∧
      lost.length = (if k < 29 then 1 else 14 + (k - 29)) ∧
      ∀ a, m'.refs a = m.refs a + lost.count a := by
  obtain ⟨o, m', ho, hr, h⟩ := after_elim (createDocument_spec hm)
  rcases h with ⟨rfl, he, hg⟩ | ⟨rfl, hg, lost, hh, hl⟩ | ⟨d, rfl, hmade, hh, hg, ht⟩
  · have := refused_lt hk hg; omega
  · refine ⟨m', lost, ho, ?_, hh.refs⟩
    have up : ∀ n, Granted m.room (m.time + 1) n → 1 + n ≤ k := fun n hn =>
      le_refused hk (granted_add.mpr ⟨hg, hn⟩)
    have down : ∀ n, ¬ Granted m.room (m.time + 1) n → k < 1 + n := fun n hn =>
      refused_lt hk (fun hh => hn (granted_add.mp hh).2)
    rcases hl with ⟨e, hn⟩ | ⟨e, _, hn⟩ | ⟨j, hj, e, hy, hn⟩
    · have := down _ hn; omega
    · have := down _ hn
      rw [if_pos (by omega)]; exact e
    · have h1 := down _ hn
      have h2 := up _ hy
      rw [if_neg (by omega), e]; omega
  · have := le_refused hk hg; omega

/-! ## The HTML document -/

theorem fill_spec : ∀ (n : Nat) (t : Table) {r : Nat → Nat} {l : List Nat} {m : Mem},
    Holds r (t.strings ++ l) m →
    after (fill n t) m (fun o m' => m'.room = m.room ∧ o.2.block = t.block ∧
      Holds r (o.2.strings ++ l) m' ∧
      ((o.1 = some .noMem ∧ ¬ Granted m.room m.time (2 * n)) ∨
       (o.1 = none ∧ Granted m.room m.time (2 * n) ∧ m'.time = m.time + 2 * n ∧
        o.2.strings.length = t.strings.length + n)))
  | 0, t, r, l, m, h => ⟨rfl, rfl, h, Or.inr ⟨rfl, granted_zero _ _, rfl, rfl⟩⟩
  | n + 1, t, r, l, m, h => by
    unfold fill
    rw [after_bind]
    refine after_mono (createString_spec h) ?_
    rintro o m1 ⟨hr1, ⟨rfl, h1, hg⟩ | ⟨s, rfl, h1, hg, ht1⟩⟩
    · exact ⟨hr1, rfl, h1, Or.inl ⟨rfl, fun hh => hg (granted_mono hh (by omega))⟩⟩
    · dsimp only
      have h1' : Holds r ((t.strings ++ [s]) ++ l) m1 := by
        refine h1.perm ?_
        rw [List.append_assoc]
        exact List.perm_middle.symm
      refine after_mono (fill_spec n { t with strings := t.strings ++ [s] } h1') ?_
      rintro o m2 ⟨hr2, hb, h2, ⟨e, hg2⟩ | ⟨e, hg2, ht2, hn2⟩⟩
      · rw [hr1, ht1] at hg2
        refine ⟨hr2.trans hr1, hb, h2, Or.inl ⟨e, fun hh => hg2 ?_⟩⟩
        rw [show 2 * (n + 1) = 2 + 2 * n by omega] at hh
        exact (granted_add.mp hh).2
      · rw [hr1, ht1] at hg2
        rw [List.length_append] at hn2
        refine ⟨hr2.trans hr1, hb, h2, Or.inr ⟨e, ?_, by omega,
          hn2.trans (by show t.strings.length + 1 + n = _; omega)⟩⟩
        rw [show 2 * (n + 1) = 2 + 2 * n by omega]
        exact granted_add.mpr ⟨hg, hg2⟩

/-- What an array of strings holds. -/
def tableHeld (t : Table) : List Nat := t.strings ++ [t.block]

theorem clearArr_spec (t : Table) {r : Nat → Nat} {l : List Nat} {m : Mem} (h : Holds r (tableHeld t ++ l) m) :
    after (clearArr (.at t)) m (fun _ m' => Holds r l m' ∧ m'.room = m.room ∧ m'.time = m.time) := by
  unfold clearArr
  rw [after_bind]
  have h' : Holds r (t.strings ++ (t.block :: l)) m := by
    have := h; unfold tableHeld at this; rw [List.append_assoc] at this; exact this
  refine after_mono (unrefAll_spec t.strings h') ?_
  rintro _ m1 ⟨h1, hr1, ht1⟩
  refine after_mono (unref_spec h1) ?_
  rintro _ m2 ⟨h2, hr2, ht2⟩
  exact ⟨h2, hr2.trans hr1, ht2.trans ht1⟩

theorem cleanArrs_spec (t u : Table) {r : Nat → Nat} {l : List Nat} {m : Mem}
    (h : Holds r (tableHeld t ++ (tableHeld u ++ l)) m) :
    after (cleanArrs (.at t) (.at u)) m (fun _ m' => Holds r l m' ∧ m'.room = m.room) := by
  unfold cleanArrs
  rw [after_bind]
  refine after_mono (clearArr_spec t h) ?_
  rintro _ m1 ⟨h1, hr1, ht1⟩
  refine after_mono (clearArr_spec u h1) ?_
  rintro _ m2 ⟨h2, hr2, ht2⟩
  exact ⟨h2, hr2.trans hr1⟩

/-- Everything an HTML document holds apart from its block. -/
def heldHtml (d : HtmlDoc) : List Nat := tableHeld d.memoised ++ (tableHeld d.elements ++ held d.base)

/-- The number of requests `_dom_html_document_initialise` makes. -/
def htmlRequests : Nat := 38 + (2 + (2 * hdsCount + 2 * elementCount))

theorem initHtml_spec (b : Nat) {r : Nat → Nat} {l : List Nat} {m : Mem} (h : Holds r l m)
    (h38 : Granted m.room m.time 38 → m.room (m.time + 38) = true) :
    after (initHtml b) m (fun o m' => m'.room = m.room ∧
      ((o = .error .noMem ∧ ∃ lost, Holds r (lost ++ l) m' ∧
          (Lost m.room m.time lost ∨
            (lost.length = 24 ∧ Granted m.room m.time 39 ∧ ¬ Granted m.room m.time htmlRequests))) ∨
       (∃ d, o = .ok d ∧ d.base.block = b ∧ Made d.base ∧ Holds r (heldHtml d ++ l) m' ∧
          Granted m.room m.time htmlRequests ∧ m'.time = m.time + htmlRequests ∧
          d.memoised.strings.length = hdsCount ∧ d.elements.strings.length = elementCount))) := by
  unfold initHtml
  rw [after_bind]
  refine after_mono (initDocument_spec { block := b } rfl h) ?_
  rintro o m1 ⟨hr1, ⟨rfl, lost, h1, hl⟩ | ⟨d, rfl, hb, hmade, h1, hg1, ht1⟩⟩
  · exact ⟨hr1, Or.inl ⟨rfl, lost, h1, Or.inl hl⟩⟩
  dsimp only
  have hlen := held_length hmade
  rw [after_bind]
  refine after_mono (malloc_spec h1) ?_
  rintro o m2 ⟨hr2, ht2, ⟨rfl, h2, hg2⟩ | ⟨memo, rfl, h2, hg2⟩⟩
  · rw [hr1, ht1] at hg2
    exact (hg2 (granted_one.mpr (h38 hg1))).elim
  dsimp only
  rw [hr1, ht1] at hg2
  have g39 : Granted m.room m.time 39 := (granted_add (a := 38) (b := 1)).mpr ⟨hg1, hg2⟩
  have hr02 : m2.room = m.room := hr2.trans hr1
  have ht02 : m2.time = m.time + 39 := by omega
  rw [after_bind]
  refine after_mono (malloc_spec h2) ?_
  rintro o m3 ⟨hr3, ht3, ⟨rfl, h3, hg3⟩ | ⟨els, rfl, h3, hg3⟩⟩
  · rw [hr02, ht02] at hg3
    dsimp only
    rw [after_bind]
    have : after (cleanArrs (.at { block := memo }) .null) m3
        (fun _ m' => Holds r (held d ++ l) m' ∧ m'.room = m3.room) := by
      unfold cleanArrs
      rw [after_bind]
      refine after_mono (clearArr_spec { block := memo } (l := held d ++ l) h3) ?_
      rintro _ m4 ⟨h4, hr4, ht4⟩
      exact ⟨h4, hr4⟩
    refine after_mono this ?_
    rintro _ m4 ⟨h4, hr4⟩
    refine ⟨hr4.trans (hr3.trans hr02), Or.inl ⟨rfl, held d, h4, Or.inr ⟨hlen, g39, fun hh => hg3 ?_⟩⟩⟩
    exact ((granted_add (a := 39) (b := 1)).mp (granted_mono hh (by decide))).2
  dsimp only
  rw [hr02, ht02] at hg3
  have g40 : Granted m.room m.time 40 := (granted_add (a := 39) (b := 1)).mpr ⟨g39, hg3⟩
  have hr03 : m3.room = m.room := hr3.trans hr02
  have ht03 : m3.time = m.time + 40 := by omega
  rw [after_bind]
  refine after_mono (fill_spec hdsCount { block := memo } (r := r)
    (l := els :: memo :: (held d ++ l)) h3) ?_
  rintro ⟨fe, ft⟩ m4 ⟨hr4, hb4, h4, hor⟩
  dsimp only at hb4 h4 hor
  have hr04 : m4.room = m.room := hr4.trans hr03
  have h4m : Holds r (tableHeld ft ++ (tableHeld { block := els } ++ (held d ++ l))) m4 := by
    refine h4.perm ?_
    unfold tableHeld
    rw [hb4, List.append_assoc]
    exact (List.Perm.swap memo els _).append_left _
  rcases hor with ⟨rfl, hg4⟩ | ⟨rfl, hg4, ht4, hn4⟩
  · dsimp only
    rw [after_bind]
    refine after_mono (cleanArrs_spec ft { block := els } h4m) ?_
    rintro _ m5 ⟨h5, hr5⟩
    refine ⟨hr5.trans hr04, Or.inl ⟨rfl, held d, h5, Or.inr ⟨hlen, g39, fun hh => hg4 ?_⟩⟩⟩
    rw [hr03, ht03]
    exact ((granted_add (a := 40) (b := 2 * hdsCount)).mp (granted_mono hh (by decide))).2
  · dsimp only
    rw [hr03, ht03] at hg4
    have g4 : Granted m.room m.time (40 + 2 * hdsCount) := granted_add.mpr ⟨g40, hg4⟩
    have ht04 : m4.time = m.time + (40 + 2 * hdsCount) := by omega
    rw [after_bind]
    have h4e : Holds r (([] : List Nat) ++ (els :: (tableHeld ft ++ (held d ++ l)))) m4 := by
      refine h4m.perm ?_
      exact List.perm_middle
    refine after_mono (fill_spec elementCount { block := els } h4e) ?_
    rintro ⟨ge, gt⟩ m5 ⟨hr5, hb5, h5, hor⟩
    dsimp only at hb5 h5 hor
    have hr05 : m5.room = m.room := hr5.trans hr04
    have h5m : Holds r (tableHeld ft ++ (tableHeld gt ++ (held d ++ l))) m5 := by
      refine h5.perm ?_
      have e : tableHeld gt = gt.strings ++ [els] := by unfold tableHeld; rw [hb5]
      rw [e]
      refine (List.Perm.trans ?_ (List.perm_append_comm_assoc ..))
      rw [List.append_assoc]
      exact List.Perm.refl _
    rcases hor with ⟨rfl, hg5⟩ | ⟨rfl, hg5, ht5, hn5⟩
    · dsimp only
      rw [after_bind]
      refine after_mono (cleanArrs_spec ft gt h5m) ?_
      rintro _ m6 ⟨h6, hr6⟩
      refine ⟨hr6.trans hr05, Or.inl ⟨rfl, held d, h6, Or.inr ⟨hlen, g39, fun hh => hg5 ?_⟩⟩⟩
      rw [hr04, ht04]
      exact ((granted_add (a := 40 + 2 * hdsCount) (b := 2 * elementCount)).mp
        (granted_mono hh (by decide))).2
    · rw [hr04, ht04] at hg5
      refine ⟨hr05, Or.inr ⟨{ base := d, memoised := ft, elements := gt }, rfl, hb, hmade, ?_, ?_, ?_,
        hn4.trans (Nat.zero_add _), hn5.trans (Nat.zero_add _)⟩⟩
      · show Holds r ((tableHeld ft ++ (tableHeld gt ++ held d)) ++ l) m5
        rw [List.append_assoc, List.append_assoc]; exact h5m
      · have := granted_add.mpr ⟨g4, hg5⟩
        exact granted_mono this (by decide)
      · have e : htmlRequests = 40 + 2 * hdsCount + 2 * elementCount := rfl
        omega

theorem createHtml_spec {r : Nat → Nat} {l : List Nat} {m : Mem} (hm : Holds r l m)
    (h39 : Granted m.room m.time 39 → m.room (m.time + 39) = true) :
    after createHtml m (fun o m' => m'.room = m.room ∧
      ((o = .error .noMem ∧ Holds r l m' ∧ ¬ Granted m.room m.time 1) ∨
       (o = .error .noMem ∧ Granted m.room m.time 1 ∧ ∃ lost, Holds r (lost ++ l) m' ∧
          (Lost m.room (m.time + 1) lost ∨
            (lost.length = 24 ∧ Granted m.room m.time 40 ∧
              ¬ Granted m.room m.time (1 + htmlRequests)))) ∨
       (∃ d, o = .ok d ∧ Made d.base ∧ Holds r (heldHtml d ++ (d.base.block :: l)) m' ∧
         Granted m.room m.time (1 + htmlRequests) ∧ m'.time = m.time + (1 + htmlRequests) ∧
         d.memoised.strings.length = hdsCount ∧ d.elements.strings.length = elementCount))) := by
  unfold createHtml
  rw [after_bind]
  refine after_mono (malloc_spec hm) ?_
  rintro o m1 ⟨hr1, ht1, ⟨rfl, h1, hg⟩ | ⟨b, rfl, h1, hg⟩⟩
  · exact ⟨hr1, Or.inl ⟨rfl, h1, hg⟩⟩
  · dsimp only
    rw [after_bind]
    have h38 : Granted m1.room m1.time 38 → m1.room (m1.time + 38) = true := by
      rw [hr1, ht1]
      intro hh
      have := h39 ((granted_add (a := 1) (b := 38)).mpr ⟨hg, hh⟩)
      rwa [show m.time + 1 + 38 = m.time + 39 by omega]
    refine after_mono (initHtml_spec b h1 h38) ?_
    rintro o m2 ⟨hr2, ⟨rfl, lost, h2, hl⟩ | ⟨d, rfl, hb, hmade, h2, hg2, ht2, hn⟩⟩
    · dsimp only
      rw [after_bind]
      refine after_mono (unref_spec (a := b) (l := lost ++ l) (h2.perm List.perm_middle)) ?_
      rintro _ m3 ⟨h3, hr3, ht3⟩
      rw [hr1, ht1] at hl
      refine ⟨hr3.trans (hr2.trans hr1), Or.inr (Or.inl ⟨rfl, hg, lost, h3, ?_⟩)⟩
      rcases hl with hl | ⟨e, ha, hn⟩
      · exact Or.inl hl
      · exact Or.inr ⟨e, (granted_add (a := 1) (b := 39)).mpr ⟨hg, ha⟩,
          fun hh => hn (granted_add.mp hh).2⟩
    · rw [hr1, ht1] at hg2
      refine ⟨hr2.trans hr1, Or.inr (Or.inr ⟨d, rfl, hmade, ?_, granted_add.mpr ⟨hg, hg2⟩, by omega, hn⟩)⟩
      rw [hb]; exact h2

/-- **C84 (HTML documents, full claim where it holds).**  Unless the first refused request is number 39, the
creation of an HTML document does not run into undefined behaviour.  It succeeds exactly if all of its 495
requests are granted, and then destroying the document gives back all it took.  Otherwise it returns
`DOM_NO_MEM_ERR`; if one of the first seven requests was refused, nothing is left behind.
Missing for the full property: see `C84_html_violated` and `C84_html_uninit_violated`. -/
theorem C84_html_partial (m : Mem) (hm : m.Valid) (hk : ¬ RefusedAt m 39) :
    ∃ o m', createHtml m = .ok o m' ∧
      ((∃ d, o = .ok d ∧ Granted m.room m.time 495 ∧
          ∃ m'', destroyHtml d m' = .ok () m'' ∧ m''.refs = m.refs) ∨
       (o = .error .noMem ∧ ¬ Granted m.room m.time 495 ∧
          (¬ Granted m.room m.time 7 → m'.refs = m.refs))) := by
  have h39 : Granted m.room m.time 39 → m.room (m.time + 39) = true := by
    intro hg
    cases hb : m.room (m.time + 39) with
    | true => rfl
    | false => exact (hk ⟨hg, hb⟩).elim
  obtain ⟨o, m', ho, h⟩ := after_elim (createHtml_spec hm.holds h39)
  refine ⟨o, m', ho, ?_⟩
  rcases h with ⟨_, ⟨rfl, he, hg⟩ | ⟨rfl, hg, lost, hh, hl⟩ | ⟨d, rfl, hmade, hh, hg, _⟩⟩
  · exact Or.inr ⟨rfl, fun h => hg (granted_mono h (by omega)), fun _ => he.refs_eq⟩
  · refine Or.inr ⟨rfl, fun hall => ?_, fun h7 => ?_⟩
    · have h38 := ((granted_add (a := 1) (b := 494)).mp hall).2
      rcases hl with (⟨_, hn⟩ | ⟨_, _, hn⟩ | ⟨j, hj, _, _, hn⟩) | ⟨_, _, hn⟩
      · exact hn (granted_mono h38 (by omega))
      · exact hn (granted_mono h38 (by omega))
      · exact hn (granted_mono h38 (by omega))
      · exact hn hall
    · have h6 : ¬ Granted m.room (m.time + 1) 6 := fun h6 =>
        h7 ((granted_add (a := 1) (b := 6)).mpr ⟨hg, h6⟩)
      rcases hl with (⟨e, _⟩ | ⟨_, h6', _⟩ | ⟨j, hj, _, h6', _⟩) | ⟨_, h40, _⟩
      · rw [e, List.append_nil] at hh; exact hh.refs_eq
      · exact (h6 h6').elim
      · exact (h6 (granted_mono h6' (by omega))).elim
      · exact (h7 (granted_mono h40 (by omega))).elim
  · refine Or.inl ⟨d, rfl, hg, ?_⟩
    have : after (destroyHtml d) m' (fun _ m'' => m''.refs = m.refs) := by
      have hh' : Holds m.refs (tableHeld d.memoised ++ (tableHeld d.elements ++
          (held d.base ++ [d.base.block]))) m' := by
        have := hh; unfold heldHtml at this
        rw [List.append_assoc, List.append_assoc] at this; exact this
      unfold destroyHtml
      rw [after_bind]
      refine after_mono (clearArr_spec _ hh') ?_
      rintro _ m1 ⟨h1, _, _⟩
      rw [after_bind]
      refine after_mono (clearArr_spec _ h1) ?_
      rintro _ m2 ⟨h2, _, _⟩
      rw [after_bind]
      refine after_mono (finaliseDocument_spec d.base hmade h2) ?_
      rintro _ m3 ⟨h3, _, _⟩
      refine after_mono (unref_spec (a := d.base.block) (l := []) h3) ?_
      rintro _ m4 ⟨h4, _, _⟩
      exact h4.refs_eq
    obtain ⟨_, m'', e, hq⟩ := after_elim this
    exact ⟨m'', e, hq⟩

/-- **C84, violated.**  Whenever the first refused request is one of number 40 to 494 (the array of element
names, or any of the 227 strings of an HTML document), `_dom_html_document_create` returns
`DOM_NO_MEM_ERR` and loses all 24 strings of the base document: nobody finalises it. -/
theorem C84_html_violated (m : Mem) (hm : m.Valid) (k : Nat) (hk : RefusedAt m k) (h40 : 40 ≤ k)
    (h495 : k < 495) :
    ∃ (m' : Mem) (lost : List Nat), createHtml m = .ok (.error .noMem) m' ∧ lost.length = 24 ∧
      ∀ a, m'.refs a = m.refs a + lost.count a := by
  obtain ⟨o, m', ho, h⟩ := after_elim (createHtml_spec hm.holds (fun _ => hk.1 39 (by omega)))
  rcases h with ⟨_, ⟨rfl, he, hg⟩ | ⟨rfl, hg, lost, hh, hl⟩ | ⟨d, rfl, hmade, hh, hg, _⟩⟩
  · have := refused_lt hk hg; omega
  · rw [List.append_nil] at hh
    refine ⟨m', lost, ho, ?_, hh.refs⟩
    have down : ∀ n, ¬ Granted m.room (m.time + 1) n → k < 1 + n := fun n hn =>
      refused_lt hk (fun hh => hn (granted_add.mp hh).2)
    rcases hl with (⟨e, hn⟩ | ⟨e, _, hn⟩ | ⟨j, hj, e, _, hn⟩) | ⟨e, _, _⟩
    · have := down _ hn; omega
    · have := down _ hn; omega
    · have := down _ hn; omega
    · exact e
  · have := le_refused hk hg
    have e : (1 + htmlRequests) = 495 := rfl
    omega

/-- **C84, violated.**  If the first refused request is number 39, the array of attribute names, the code
reads `doc->elements`, which nobody has written yet. -/
theorem C84_html_uninit_violated (m : Mem) (hm : m.Valid) (hk : RefusedAt m 39) :
    createHtml m = .fault .uninit := by
  obtain ⟨o, m1, e1, hr1, ht1, ho⟩ := after_elim (malloc_spec hm.holds)
  rcases ho with ⟨rfl, _, hg⟩ | ⟨b, rfl, h1, hg⟩
  · exact (hg (granted_mono hk.1 (by omega))).elim
  obtain ⟨o, m2, e2, hr2, ho⟩ := after_elim (initDocument_spec { block := b } rfl h1)
  rcases ho with ⟨rfl, lost, _, hl⟩ | ⟨d, rfl, hb, hmade, h2, hg2, ht2⟩
  · rw [hr1, ht1] at hl
    have h38 := ((granted_add (a := 1) (b := 38)).mp hk.1).2
    rcases hl with ⟨_, hn⟩ | ⟨_, _, hn⟩ | ⟨j, hj, _, _, hn⟩
    · exact (hn (granted_mono h38 (by omega))).elim
    · exact (hn (granted_mono h38 (by omega))).elim
    · exact (hn (granted_mono h38 (by omega))).elim
  obtain ⟨o, m3, e3, hr3, ht3, ho⟩ := after_elim (malloc_spec h2)
  rcases ho with ⟨rfl, h3, hg3⟩ | ⟨c, rfl, h3, hg3⟩
  · have i1 : initHtml b m1 = .fault .uninit := by
      show bind (initDocument { block := b }) _ m1 = _
      unfold bind
      rw [e2]
      show bind malloc _ m2 = _
      unfold bind
      rw [e3]
      rfl
    show bind malloc _ m = _
    unfold bind
    rw [e1]
    show bind (initHtml b) _ m1 = _
    unfold bind
    rw [i1]
  · have := granted_one.mp hg3
    rw [hr2, hr1, ht2, ht1, show m.time + 1 + 38 = m.time + 39 by omega, hk.2] at this
    exact absurd this (by decide)

/-! ## The hypotheses are met -/

/-- An empty memory in which every request is granted but number `k`. -/
def tight (k : Nat) : Mem := { room := fun i => i != k, time := 0, next := 1, refs := fun _ => 0 }

theorem tight_valid (k : Nat) : (tight k).Valid := fun _ _ => rfl

theorem tight_refused (k : Nat) : RefusedAt (tight k) k := by
  constructor
  · intro i hi
    show (0 + i != k) = true
    rw [Nat.zero_add]
    simp only [bne_iff_ne]; omega
  · show (0 + k != k) = false
    rw [Nat.zero_add]; simp

/-- Every case occurs: in `tight k` with `k` from 7 to 38 the creation of a document fails and loses
something, with `k = 39` the creation of an HTML document is undefined, and with a request beyond the last
one refused both succeed. -/
theorem C84_cases :
    (∀ k, 7 ≤ k → k < 39 → ∃ m', createDocument (tight k) = .ok (.error .noMem) m' ∧ m'.refs ≠ fun _ => 0) ∧
    createHtml (tight 39) = .fault .uninit ∧
    (∃ d m', createDocument (tight 39) = .ok (.ok d) m') ∧
    (∃ d m', createHtml (tight 495) = .ok (.ok d) m') := by
  refine ⟨fun k h7 h39 => ?_, C84_html_uninit_violated _ (tight_valid 39) (tight_refused 39), ?_, ?_⟩
  · obtain ⟨m', lost, e, hl, hr⟩ := C84_document_violated _ (tight_valid k) k (tight_refused k) h7 h39
    refine ⟨m', e, fun h0 => ?_⟩
    cases lost with
    | nil => rw [List.length_nil] at hl; split at hl <;> omega
    | cons x xs =>
      have := hr x
      rw [h0, List.count_cons_self] at this
      have this : 0 = 0 + (xs.count x + 1) := this
      omega
  · obtain ⟨o, m', e, ⟨d, rfl, _, _⟩ | ⟨_, hn, _⟩⟩ := C84_document_partial _ (tight_valid 39)
    · exact ⟨d, m', e⟩
    · exact (hn (tight_refused 39).1).elim
  · have h : ¬ RefusedAt (tight 495) 39 := fun h => by
      have := h.2
      exact absurd this (by decide)
    obtain ⟨o, m', e, ⟨d, rfl, _, _⟩ | ⟨_, hn, _⟩⟩ := C84_html_partial _ (tight_valid 495) h
    · exact ⟨d, m', e⟩
    · exact (hn (tight_refused 495).1).elim

end Dom.Oom
