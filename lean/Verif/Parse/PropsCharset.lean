import Verif.Parse.Charset
/-!
# C95: the encoding, the quirks mode and the errors of the HTML parser binding
-/
set_option linter.unusedSimpArgs false
set_option linter.unusedVariables false
namespace Dom.Parse.Charset
open Dom.Str (Bytes)

/-! ## Specification -/

/-- All the calls of a history, one after the other. -/
def runAll (s : St) : List Call → Out St
  | [] => .ok s
  | c :: cs => do
    let r ← c.run s
    runAll r.1 cs

/-- The encodings that Hubbub proposed for parser `p`: each with whether it was certain. -/
def proposed (p : Nat) (cs : List Call) : List (CStr × Bool) :=
  cs.filterMap fun c =>
    match c with
    | .changeEncoding q c _ b => if q = p then some (c, b) else none
    | _ => none

/-- What a parser should report: what it was given; otherwise the first proposal; otherwise Windows-1252. -/
def report (enc : Option CStr) (props : List (CStr × Bool)) : CStr × Source :=
  match enc, props with
  | some e, _ => (e, .header)
  | none, (c, certain) :: _ => (c, if certain then .detected else .meta_)
  | none, [] => (windows1252, .detected)

/-- The characters of the encoding that a document has. -/
def encodingText (s : St) (d : Nat) : Option Bytes :=
  match s.docs[d]? with
  | some x =>
    match x.encoding with
    | some a => s.strs[a]?.map Prod.fst
    | none => none
  | none => none

/-- How often the fields of the documents point to string `a`. -/
def fields (s : St) (a : Nat) : Nat := (s.docs.filter fun x => x.encoding = some a).length

/-- The reference count of string `a`. -/
def refs (s : St) (a : Nat) : Nat :=
  match s.strs[a]? with
  | some x => x.2
  | none => 0

/-- The references the client holds. -/
abbrev Held := Nat → Nat

/-- The calls a client may make: it passes and gives up only strings it holds, and names documents and parsers that are there. -/
def Fair (held : Held) (s : St) : Call → Prop
  | .createFragment d _ => d < s.docs.length
  | .changeEncoding p _ _ _ => p < s.parsers.length
  | .parserQuirks p _ => p < s.parsers.length
  | .setQuirks d _ => d < s.docs.length
  | .inputEncoding d => d < s.docs.length
  | .setInputEncoding d e => d < s.docs.length ∧ ∀ a ∈ e, 0 < held a
  | .unref a => 0 < held a
  | _ => True

/-- What the client holds after a call. -/
def book (held : Held) (s : St) : Call → Ans → Held
  | .unref a, _ => fun b => if b = a then held b - 1 else held b
  | _, .str (some a) => fun b => if b = a then held b + 1 else held b
  | _, _ => held

/-- The call gives a document an encoding that the parser found out or was given. -/
def replaces (s : St) : Call → Bool
  | .create (some _) => true
  | .changeEncoding p _ _ _ =>
    match s.parsers[p]? with
    | some x => x.encoding.isNone
    | none => false
  | _ => false

/-- Histories from a state on: the state, what the client holds, and how many times an encoding was replaced by a parser. -/
inductive From (s0 : St) (held0 : Held) : St → Held → Nat → Prop
  | start : From s0 held0 s0 held0 0
  | call {s held n s' a} (c : Call) (h : From s0 held0 s held n) (hf : Fair held s c) (hr : c.run s = .ok (s', a)) :
      From s0 held0 s' (book held s c a) (n + if replaces s c then 1 else 0)

/-- Histories from the beginning. -/
abbrev Hist (s : St) (held : Held) (n : Nat) : Prop := From ⟨[], [], []⟩ (fun _ => 0) s held n

/-- The characters of the encoding of document `d` that should be there after a call. -/
def expected (s : St) (d : Nat) : Call → Option Bytes
  | .newDoc => if d = s.docs.length then some utf8 else encodingText s d
  | .create none => if d = s.docs.length then some utf8 else encodingText s d
  | .create (some c) => if d = s.docs.length then some c.text else encodingText s d
  | .changeEncoding p c _ _ =>
    match s.parsers[p]? with
    | some x => if x.doc = d ∧ x.encoding = none then some c.text else encodingText s d
    | none => encodingText s d
  | .setInputEncoding e t => if e = d then t.bind (fun a => s.strs[a]?.map Prod.fst) else encodingText s d
  | _ => encodingText s d

/-- The quirks mode of document `d` that should be there after a call. -/
def expectedQuirks (s : St) (d : Nat) : Call → Option Quirks
  | .newDoc => if d = s.docs.length then some .none else s.docs[d]?.map Doc.quirks
  | .create _ => if d = s.docs.length then some .none else s.docs[d]?.map Doc.quirks
  | .setQuirks e q => if e = d then some q else s.docs[d]?.map Doc.quirks
  | .parserQuirks p q =>
    match s.parsers[p]? with
    | some x => if x.doc = d then some q else s.docs[d]?.map Doc.quirks
    | none => s.docs[d]?.map Doc.quirks
  | _ => s.docs[d]?.map Doc.quirks

/-! ## Lemmas about the memory of strings -/

theorem newStr_refs (s : St) (b : Bytes) (a : Nat) : refs (s.newStr b).1 a = if a = s.strs.length then 1 else refs s a := by
  unfold refs St.newStr
  dsimp only
  by_cases h : a < s.strs.length
  · rw [List.getElem?_append_left h, if_neg (by omega)]
  · by_cases ha : a = s.strs.length
    · subst ha; rw [if_pos rfl, List.getElem?_append_right (Nat.le_refl _)]; simp
    · rw [if_neg ha, List.getElem?_eq_none (by simp; omega), List.getElem?_eq_none (by omega)]

theorem newStr_len (s : St) (b : Bytes) : refs s s.strs.length = 0 := by
  unfold refs; rw [List.getElem?_eq_none (Nat.le_refl _)]

theorem ref_run {s : St} {a : Nat} (h : 0 < refs s a) : ∃ s', s.ref (some a) = .ok s' ∧ s'.docs = s.docs ∧ s'.parsers = s.parsers ∧
    (∀ b, refs s' b = if b = a then refs s b + 1 else refs s b) ∧ (∀ b : Nat, s'.strs[b]?.map Prod.fst = s.strs[b]?.map Prod.fst) := by
  unfold refs at h
  cases hx : s.strs[a]? with
  | none => rw [hx] at h; exact absurd h (by simp)
  | some x =>
    obtain ⟨t, n⟩ := x
    rw [hx] at h
    obtain ⟨m, rfl⟩ : ∃ m, n = m + 1 := ⟨n - 1, by have h' : 0 < n := h; omega⟩
    have hlt : a < s.strs.length := (List.getElem?_eq_some_iff.1 hx).1
    refine ⟨{ s with strs := s.strs.set a (t, m + 2) }, by unfold St.ref; simp only [hx], rfl, rfl, ?_, ?_⟩
    · intro b
      unfold refs
      dsimp only
      by_cases hb : b = a
      · subst hb; rw [List.getElem?_set_self hlt, if_pos rfl, hx]
      · rw [List.getElem?_set_ne (fun h => hb h.symm), if_neg hb]
    · intro b
      dsimp only
      by_cases hb : b = a
      · subst hb; rw [List.getElem?_set_self hlt, hx]; rfl
      · rw [List.getElem?_set_ne (fun h => hb h.symm)]

theorem unref_run {s : St} {a : Nat} (h : 0 < refs s a) : ∃ s', s.unref (some a) = .ok s' ∧ s'.docs = s.docs ∧ s'.parsers = s.parsers ∧
    (∀ b, refs s' b = if b = a then refs s b - 1 else refs s b) ∧ (∀ b : Nat, s'.strs[b]?.map Prod.fst = s.strs[b]?.map Prod.fst) := by
  unfold refs at h
  cases hx : s.strs[a]? with
  | none => rw [hx] at h; exact absurd h (by simp)
  | some x =>
    obtain ⟨t, n⟩ := x
    rw [hx] at h
    obtain ⟨m, rfl⟩ : ∃ m, n = m + 1 := ⟨n - 1, by have h' : 0 < n := h; omega⟩
    have hlt : a < s.strs.length := (List.getElem?_eq_some_iff.1 hx).1
    refine ⟨{ s with strs := s.strs.set a (t, m) }, by unfold St.unref; simp only [hx], rfl, rfl, ?_, ?_⟩
    · intro b
      unfold refs
      dsimp only
      by_cases hb : b = a
      · subst hb; rw [List.getElem?_set_self hlt, if_pos rfl, hx]; rfl
      · rw [List.getElem?_set_ne (fun h => hb h.symm), if_neg hb]
    · intro b
      dsimp only
      by_cases hb : b = a
      · subst hb; rw [List.getElem?_set_self hlt, hx]; rfl
      · rw [List.getElem?_set_ne (fun h => hb h.symm)]

/-- 1 if the field points to `a`. -/
def hit (e : Option Nat) (a : Nat) : Nat := if e = some a then 1 else 0

def countF (ds : List Doc) (a : Nat) : Nat := (ds.filter fun x => x.encoding = some a).length

theorem countF_append (l m : List Doc) (a : Nat) : countF (l ++ m) a = countF l a + countF m a := by
  simp [countF, List.filter_append]

theorem countF_one (x : Doc) (a : Nat) : countF [x] a = hit x.encoding a := by
  unfold countF hit
  by_cases h : x.encoding = some a <;> simp [h]

/-- One field is overwritten. -/
theorem countF_set : ∀ (ds : List Doc) (d : Nat) (x y : Doc) (a : Nat), ds[d]? = some x →
    countF (ds.set d y) a + hit x.encoding a = countF ds a + hit y.encoding a
  | [], d, x, y, a, h => by simp at h
  | z :: ds, 0, x, y, a, h => by
      simp at h; subst h
      show countF ([y] ++ ds) a + _ = countF ([z] ++ ds) a + _
      rw [countF_append, countF_append, countF_one, countF_one]; omega
  | z :: ds, d + 1, x, y, a, h => by
      have := countF_set ds d x y a (by simpa using h)
      show countF ([z] ++ ds.set d y) a + _ = countF ([z] ++ ds) a + _
      rw [countF_append, countF_append]; omega

theorem hit_le {s : St} {d : Nat} {x : Doc} (hd : s.docs[d]? = some x) (a : Nat) : hit x.encoding a ≤ countF s.docs a := by
  have := countF_set s.docs d x ⟨none, .none⟩ a hd
  have h0 : hit (none : Option Nat) a = 0 := rfl
  dsimp only at this
  omega

/-- The books of a history: every reference is the client's, a document's, or one of those in `lost`. -/
structure Books (s : St) (held : Held) (lost : List Nat) : Prop where
  cnt : ∀ a, refs s a = held a + countF s.docs a + lost.count a
  docs : ∀ (p : Nat) x, s.parsers[p]? = some x → x.doc < s.docs.length

theorem refs_of_strs {s s' : St} (h : s'.strs = s.strs) (a : Nat) : refs s' a = refs s a := by unfold refs; rw [h]

/-- A document gets a new string for its encoding; the old one is forgotten. -/
theorem setDocumentEncoding_run {s : St} {d : Nat} {x : Doc} (hd : s.docs[d]? = some x) (c : CStr) :
    ∃ s', s.setDocumentEncoding d (some c) = .ok s' ∧ s'.parsers = s.parsers ∧ s'.docs = s.docs.set d { x with encoding := some s.strs.length } ∧
      s'.strs = s.strs ++ [(c.text, 1)] := by
  refine ⟨{ s with strs := s.strs ++ [(c.text, 1)], docs := s.docs.set d { x with encoding := some s.strs.length } }, ?_, rfl, rfl, rfl⟩
  show (St.doc { s with strs := s.strs ++ [(c.text, 1)] } d >>= fun x => _) = _
  have : St.doc { s with strs := s.strs ++ [(c.text, 1)] } d = .ok x := by unfold St.doc; simp only [hd]
  rw [this]; rfl

theorem Books.forget {s s' : St} {held : Held} {lost : List Nat} (hB : Books s held lost) {d : Nat} {x : Doc} (hd : s.docs[d]? = some x) {t : Bytes}
    (h1 : s'.docs = s.docs.set d { x with encoding := some s.strs.length }) (h2 : s'.strs = s.strs ++ [(t, 1)])
    (h3 : ∀ (p : Nat) y, s'.parsers[p]? = some y → y.doc < s.docs.length) : Books s' held (x.encoding.toList ++ lost) := by
  refine ⟨fun a => ?_, fun p y hy => by rw [h1, List.length_set]; exact h3 p y hy⟩
  have e1 := newStr_refs s t a
  rw [show refs s' a = refs (s.newStr t).1 a from refs_of_strs (by rw [h2]; rfl) a, e1, h1]
  have e2 := countF_set s.docs d x { x with encoding := some s.strs.length } a hd
  have e3 := hB.cnt a
  have e4 : hit ({ x with encoding := some s.strs.length } : Doc).encoding a = if a = s.strs.length then 1 else 0 := by
    unfold hit; dsimp only
    by_cases h : a = s.strs.length
    · subst h; simp
    · rw [if_neg h, if_neg (fun h' => h (by cases h'; rfl))]
  have e5 : x.encoding.toList.count a = hit x.encoding a := by
    unfold hit
    cases x.encoding with
    | none => rfl
    | some b =>
      by_cases h : b = a
      · subst h; simp
      · rw [if_neg (fun h' => h (by cases h'; rfl))]; simp [List.count_cons, h]
  rw [List.count_append, e5]
  rw [e4] at e2
  by_cases h : a = s.strs.length
  · rw [if_pos h] at e2 ⊢
    have := newStr_len s t
    rw [← h] at this
    omega
  · rw [if_neg h] at e2 ⊢; omega

/-- One call that is allowed runs, and the books are right afterwards. -/
theorem step {s : St} {held : Held} {lost : List Nat} (hB : Books s held lost) (c : Call) (hf : Fair held s c) :
    ∃ s' a lost', c.run s = .ok (s', a) ∧ Books s' (book held s c a) lost' ∧ lost'.length ≤ lost.length + (if replaces s c then 1 else 0) ∧
      (∀ l ∈ lost, l ∈ lost') ∧ lost.length ≤ lost'.length ∧
      (lost'.length < lost.length + (if replaces s c then 1 else 0) → ∃ (d : Nat) (x : Doc), s.docs[d]? = some x ∧ x.encoding = none) := by
  have newDocB : Books s.newDoc held lost := by
    refine ⟨fun a => ?_, fun p x hx => by
      have := hB.docs p x hx
      show x.doc < (s.docs ++ _).length
      rw [List.length_append]; omega⟩
    have e1 := newStr_refs s utf8 a
    rw [show refs s.newDoc a = refs (s.newStr utf8).1 a from rfl, e1]
    show _ = held a + countF (s.docs ++ [⟨some s.strs.length, .none⟩]) a + _
    rw [countF_append, countF_one]
    have e3 := hB.cnt a
    unfold hit
    dsimp only
    by_cases h : a = s.strs.length
    · have := newStr_len s utf8
      rw [← h] at this
      rw [if_pos h, if_pos (by rw [h])]; omega
    · rw [if_neg h, if_neg (fun h' => h (by cases h'; rfl))]; omega
  have add : ∀ (s : St) (lost : List Nat) (y : Parser), Books s held lost → y.doc < s.docs.length → Books { s with parsers := s.parsers ++ [y] } held lost := by
    intro s lost y hB hy
    refine ⟨hB.cnt, fun p x hx => ?_⟩
    by_cases hp : p < s.parsers.length
    · exact hB.docs p x (by rw [← List.getElem?_append_left hp]; exact hx)
    · have hx' : ([y] : List Parser)[p - s.parsers.length]? = some x := by rw [← List.getElem?_append_right (by omega)]; exact hx
      cases hz : p - s.parsers.length with
      | zero => rw [hz] at hx'; cases hx'; exact hy
      | succ k => rw [hz] at hx'; simp at hx'
  have getDoc : ∀ d, d < s.docs.length → ∃ x, s.docs[d]? = some x ∧ s.doc d = .ok x := by
    intro d hd
    exact ⟨_, List.getElem?_eq_getElem hd, by unfold St.doc; rw [List.getElem?_eq_getElem hd]⟩
  cases c with
  | newDoc => exact ⟨_, _, lost, rfl, newDocB, by simp, fun _ h => h, Nat.le_refl _, fun h => absurd h (by simp [replaces])⟩
  | create e =>
    cases e with
    | none =>
      refine ⟨_, _, lost, rfl, ?_, by simp, fun _ h => h, Nat.le_refl _, fun h => absurd h (by simp [replaces])⟩
      exact add s.newDoc lost (fresh s.docs.length none) newDocB (by show _ < (s.docs ++ _).length; simp [fresh])
    | some c =>
      have h1 := add s.newDoc lost (fresh s.docs.length (some c)) newDocB (by show _ < (s.docs ++ _).length; simp [fresh])
      have hd : ({ s.newDoc with parsers := s.newDoc.parsers ++ [fresh s.docs.length (some c)] } : St).docs[s.docs.length]? = some ⟨some s.strs.length, .none⟩ := by
        show (s.docs ++ [_])[s.docs.length]? = _
        rw [List.getElem?_append_right (Nat.le_refl _)]; simp [St.newStr]
      obtain ⟨s', hr, hp, hds, hst⟩ := setDocumentEncoding_run hd c
      refine ⟨s', .none, s.strs.length :: lost, ?_, ?_, by simp [replaces], fun l hl => List.mem_cons_of_mem _ hl, by simp, fun h => absurd h (by simp [replaces])⟩
      · show (St.setDocumentEncoding ({ s.newDoc with parsers := s.newDoc.parsers ++ [fresh s.docs.length (some c)] } : St) s.docs.length (some c) >>=
          fun s => Out.ok (s, Ans.none)) = _
        rw [hr]; rfl
      · exact h1.forget hd hds hst (fun p y hy => h1.docs p y (by rw [← hp]; exact hy))
  | createFragment d e =>
    obtain ⟨x, hx, hd⟩ := getDoc d hf
    refine ⟨{ s with parsers := s.parsers ++ [fresh d e] }, .none, lost, ?_, add s lost (fresh d e) hB hf, by simp, fun _ h => h, Nat.le_refl _, fun h => absurd h (by simp [replaces])⟩
    show ((St.doc s d >>= fun _ => Out.ok { s with parsers := s.parsers ++ [fresh d e] }) >>= fun s => Out.ok (s, Ans.none)) = _
    rw [hd]; rfl
  | changeEncoding p c nm b =>
    have hp : s.parsers[p]? = some s.parsers[p] := List.getElem?_eq_getElem hf
    generalize s.parsers[p] = x at hp
    have hpp : s.parser p = .ok x := by unfold St.parser; rw [hp]
    have hx := hB.docs p x hp
    show ∃ s' a lost', (St.changeEncoding s p c nm b >>= fun r => Out.ok (r.1, Ans.reply r.2)) = _ ∧ _
    by_cases he : x.encoding.isSome
    · refine ⟨s, .reply .ok, lost, ?_, hB, by simp, fun _ h => h, Nat.le_refl _, fun h => ?_⟩
      · unfold St.changeEncoding; rw [hpp]; show ((if x.encoding.isSome then _ else _) >>= _) = _; rw [if_pos he]; rfl
      · exfalso
        have : replaces s (.changeEncoding p c nm b) = false := by simp [replaces, hp, he]
        simp [this] at h
    · have hn : replaces s (.changeEncoding p c nm b) = true := by simp only [replaces, hp]; cases h : x.encoding <;> simp_all
      obtain ⟨y, hy, hyd⟩ := getDoc x.doc hx
      have key : ∀ (src : Source) (r : Reply), ∃ s' lost', (do
          let s := { s with parsers := s.parsers.set p { x with encoding := some c, source := src } }
          let s ← s.setDocumentEncoding x.doc (some c)
          Out.ok (s, r)) = .ok (s', r) ∧ Books s' held lost' ∧ lost'.length ≤ lost.length + 1 ∧ (∀ l ∈ lost, l ∈ lost') ∧ lost.length ≤ lost'.length ∧
          (lost'.length < lost.length + 1 → ∃ (d : Nat) (x : Doc), s.docs[d]? = some x ∧ x.encoding = none) := by
        intro src r
        obtain ⟨s', hr, hps, hds, hst⟩ := setDocumentEncoding_run (s := { s with parsers := s.parsers.set p { x with encoding := some c, source := src } })
          (d := x.doc) (x := y) hy c
        refine ⟨s', y.encoding.toList ++ lost, by show (St.setDocumentEncoding _ _ _ >>= fun s => Out.ok (s, r)) = _; rw [hr]; rfl, ?_, ?_,
          fun l hl => List.mem_append_right _ hl, by simp, fun h => ⟨x.doc, y, hy, ?_⟩⟩
        · refine hB.forget hy hds hst (fun q z hz => ?_)
          rw [hps] at hz
          dsimp only at hz
          by_cases hq : q = p
          · subst hq
            rw [List.getElem?_set_self hf] at hz; cases hz; exact hx
          · rw [List.getElem?_set_ne (fun h => hq h.symm)] at hz; exact hB.docs q z hz
        · rw [List.length_append]; cases y.encoding <;> simp <;> omega
        · cases hye : y.encoding with
          | none => rfl
          | some b => rw [hye] at h; simp at h
      unfold St.changeEncoding
      rw [hpp, hn]
      show ∃ s' a lost', ((if x.encoding.isSome then _ else _) >>= _) = _ ∧ _
      rw [if_neg he]
      cases b with
      | true =>
        obtain ⟨s', lost', hr, h1, h2, h3, h4, h5⟩ := key .detected .ok
        refine ⟨s', .reply .ok, lost', ?_, h1, h2, h3, h4, h5⟩
        rw [if_pos rfl]
        refine (congrArg (· >>= _) hr).trans rfl
      | false =>
        obtain ⟨s', lost', hr, h1, h2, h3, h4, h5⟩ := key .meta_ (if c.addr = nm.addr then .ok else .encodingChange)
        refine ⟨s', .reply (if c.addr = nm.addr then .ok else .encodingChange), lost', ?_, h1, h2, h3, h4, h5⟩
        rw [if_neg Bool.false_ne_true]
        refine (congrArg (· >>= _) hr).trans rfl
  | parserQuirks p q =>
    have hp : s.parsers[p]? = some s.parsers[p] := List.getElem?_eq_getElem hf
    generalize s.parsers[p] = x at hp
    have hpp : s.parser p = .ok x := by unfold St.parser; rw [hp]
    obtain ⟨y, hy, hyd⟩ := getDoc x.doc (hB.docs p x hp)
    refine ⟨{ s with docs := s.docs.set x.doc { y with quirks := q } }, .none, lost, ?_, ⟨fun a => ?_, fun p z hz => by
        show _ < (s.docs.set _ _).length; rw [List.length_set]; exact hB.docs p z hz⟩, by simp, fun _ h => h, Nat.le_refl _, fun h => absurd h (by simp [replaces])⟩
    · show (St.parserQuirks s p q >>= fun s => Out.ok (s, Ans.none)) = _
      unfold St.parserQuirks St.setQuirks
      rw [hpp]; show ((St.doc s x.doc >>= _) >>= _) = _; rw [hyd]; rfl
    · have := countF_set s.docs x.doc y { y with quirks := q } a hy
      have e := hB.cnt a
      rw [show refs ({ s with docs := s.docs.set x.doc { y with quirks := q } } : St) a = refs s a from rfl]
      dsimp only at this ⊢
      show _ = held a + _ + _
      omega
  | setQuirks d q =>
    obtain ⟨y, hy, hyd⟩ := getDoc d hf
    refine ⟨{ s with docs := s.docs.set d { y with quirks := q } }, .none, lost, ?_, ⟨fun a => ?_, fun p z hz => by
        show _ < (s.docs.set _ _).length; rw [List.length_set]; exact hB.docs p z hz⟩, by simp, fun _ h => h, Nat.le_refl _, fun h => absurd h (by simp [replaces])⟩
    · show (St.setQuirks s d q >>= fun s => Out.ok (s, Ans.none)) = _
      unfold St.setQuirks
      rw [hyd]; rfl
    · have := countF_set s.docs d y { y with quirks := q } a hy
      have e := hB.cnt a
      rw [show refs ({ s with docs := s.docs.set d { y with quirks := q } } : St) a = refs s a from rfl]
      dsimp only at this ⊢
      show _ = held a + _ + _
      omega
  | inputEncoding d =>
    obtain ⟨y, hy, hyd⟩ := getDoc d hf
    cases he : y.encoding with
    | none =>
      refine ⟨s, .str none, lost, ?_, hB, by simp, fun _ h => h, Nat.le_refl _, fun h => absurd h (by simp [replaces])⟩
      show (St.inputEncoding s d >>= fun r => Out.ok (r.1, Ans.str r.2)) = _
      unfold St.inputEncoding; rw [hyd]
      show ((St.ref s y.encoding >>= fun s => Out.ok (s, y.encoding)) >>= _) = _
      rw [he]; rfl
    | some e =>
      have h1 := hit_le hy e
      have h2 : hit y.encoding e = 1 := by unfold hit; rw [if_pos he]
      have h3 := hB.cnt e
      obtain ⟨s', hr, hd', hp', hrf, _⟩ := ref_run (s := s) (a := e) (by omega)
      refine ⟨s', .str (some e), lost, ?_, ⟨fun a => ?_, fun p z hz => by rw [hd']; exact hB.docs p z (by rw [← hp']; exact hz)⟩, by simp, fun _ h => h, Nat.le_refl _,
        fun h => absurd h (by simp [replaces])⟩
      · show (St.inputEncoding s d >>= fun r => Out.ok (r.1, Ans.str r.2)) = _
        unfold St.inputEncoding; rw [hyd]
        show ((St.ref s y.encoding >>= fun s => Out.ok (s, y.encoding)) >>= _) = _
        rw [he, hr]; rfl
      · rw [hrf, hd']
        show _ = (if a = e then held a + 1 else held a) + _ + _
        have := hB.cnt a
        split <;> omega
  | setInputEncoding d e =>
    obtain ⟨hdl, he⟩ := hf
    obtain ⟨y, hy, hyd⟩ := getDoc d hdl
    have run : ∀ (s1 s2 : St), s.unref y.encoding = .ok s1 → s1.ref e = .ok s2 →
        Call.run s (.setInputEncoding d e) = .ok ({ s2 with docs := s2.docs.set d { y with encoding := e } }, .none) := by
      intro s1 s2 h1 h2
      show (St.setInputEncoding s d e >>= fun s => Out.ok (s, Ans.none)) = _
      unfold St.setInputEncoding; rw [hyd]
      show ((St.unref s y.encoding >>= fun s => St.ref s e >>= fun s => Out.ok { s with docs := s.docs.set d { y with encoding := e } }) >>= _) = _
      rw [h1]
      show ((St.ref s1 e >>= fun s => Out.ok { s with docs := s.docs.set d { y with encoding := e } }) >>= _) = _
      rw [h2]; rfl
    have un : ∃ s1, s.unref y.encoding = .ok s1 ∧ s1.docs = s.docs ∧ s1.parsers = s.parsers ∧ ∀ a, refs s1 a + hit y.encoding a = refs s a := by
      cases hye : y.encoding with
      | none => exact ⟨s, rfl, rfl, rfl, fun a => rfl⟩
      | some b =>
        have h1 := hit_le hy b
        have h2 : hit y.encoding b = 1 := by unfold hit; rw [if_pos hye]
        have h3 := hB.cnt b
        obtain ⟨s', hr, hd', hp', hrf, _⟩ := unref_run (s := s) (a := b) (by omega)
        refine ⟨s', hr, hd', hp', fun a => ?_⟩
        rw [hrf]
        unfold hit
        by_cases hab : a = b
        · subst hab; rw [if_pos rfl, if_pos rfl]; omega
        · rw [if_neg hab, if_neg (fun h => hab (by cases h; rfl))]; rfl
    obtain ⟨s1, hu, hd1, hp1, hr1⟩ := un
    have re : ∃ s2, s1.ref e = .ok s2 ∧ s2.docs = s.docs ∧ s2.parsers = s.parsers ∧ ∀ a, refs s2 a = refs s1 a + hit e a := by
      cases e with
      | none => exact ⟨s1, rfl, hd1, hp1, fun a => rfl⟩
      | some b =>
        have h1 := hit_le hy b
        have h3 := hB.cnt b
        have h4 := hr1 b
        have h5 := he b rfl
        obtain ⟨s', hr, hd', hp', hrf, _⟩ := ref_run (s := s1) (a := b) (by omega)
        refine ⟨s', hr, by rw [hd', hd1], by rw [hp', hp1], fun a => ?_⟩
        rw [hrf]
        unfold hit
        by_cases hab : a = b
        · subst hab; rw [if_pos rfl, if_pos rfl]
        · rw [if_neg hab, if_neg (fun h => hab (by cases h; rfl))]; rfl
    obtain ⟨s2, hr2, hd2, hp2, hrf2⟩ := re
    refine ⟨_, _, lost, run s1 s2 hu hr2, ⟨fun a => ?_, fun p z hz => ?_⟩, by simp, fun _ h => h, Nat.le_refl _, fun h => absurd h (by simp [replaces])⟩
    · show refs s2 a = held a + countF (s2.docs.set d { y with encoding := e }) a + _
      have h1 := hr1 a
      have h2 := hrf2 a
      have h3 := hB.cnt a
      have h4 := countF_set s.docs d y { y with encoding := e } a hy
      rw [hd2]
      dsimp only at h4
      omega
    · show _ < (s2.docs.set d _).length
      rw [List.length_set, hd2]
      exact hB.docs p z (by rw [← hp2]; exact hz)
  | newStr b =>
    refine ⟨_, _, lost, rfl, ⟨fun a => ?_, hB.docs⟩, by simp, fun _ h => h, Nat.le_refl _, fun h => absurd h (by simp [replaces])⟩
    rw [newStr_refs]
    show _ = (if a = s.strs.length then held a + 1 else held a) + countF s.docs a + _
    have e := hB.cnt a
    by_cases h : a = s.strs.length
    · have := newStr_len s b
      rw [← h] at this
      rw [if_pos h, if_pos h]; omega
    · rw [if_neg h, if_neg h]; omega
  | unref a =>
    have h0 : 0 < held a := hf
    have h1 := hB.cnt a
    obtain ⟨s', hr, hd', hp', hrf, _⟩ := unref_run (s := s) (a := a) (by omega)
    refine ⟨s', .none, lost, ?_, ⟨fun b => ?_, fun p z hz => by rw [hd']; exact hB.docs p z (by rw [← hp']; exact hz)⟩, by simp, fun _ h => h, Nat.le_refl _,
      fun h => absurd h (by simp [replaces])⟩
    · show (St.unref s (some a) >>= fun s => Out.ok (s, Ans.none)) = _
      rw [hr]; rfl
    · rw [hrf, hd']
      show _ = (if b = a then held b - 1 else held b) + _ + _
      have := hB.cnt b
      by_cases hb : b = a
      · subst hb; rw [if_pos rfl, if_pos rfl]; omega
      · rw [if_neg hb, if_neg hb]; omega

/-- The books of a history that goes on. -/
theorem From.books {s0 : St} {held0 : Held} {lost0 : List Nat} (h0 : Books s0 held0 lost0) {s : St} {held : Held} {n : Nat} (h : From s0 held0 s held n) :
    ∃ lost, Books s held lost ∧ lost.length ≤ lost0.length + n ∧ ∀ l ∈ lost0, l ∈ lost := by
  induction h with
  | start => exact ⟨lost0, h0, by omega, fun _ h => h⟩
  | call c h hf hr ih =>
    obtain ⟨lost, hB, hn, hm⟩ := ih
    obtain ⟨s', a, lost', hr', hB', hn', hm', _⟩ := step hB c hf
    rw [hr'] at hr
    cases hr
    exact ⟨lost', hB', by omega, fun l hl => hm' l (hm l hl)⟩

theorem books_start : Books ⟨[], [], []⟩ (fun _ => 0) [] :=
  ⟨fun a => by simp [refs, countF], fun p x hx => by simp at hx⟩

theorem Hist.books {s : St} {held : Held} {n : Nat} (h : Hist s held n) : ∃ lost, Books s held lost ∧ lost.length ≤ n := by
  obtain ⟨lost, h1, h2, _⟩ := From.books books_start h
  exact ⟨lost, h1, by simpa using h2⟩

/-! ## C95 -/

/-- A client that passes and gives up only what it holds never meets a dangling string, whatever encodings are proposed to its parsers; and
every reference to a string is the client's, a document's, or one of at most as many lost ones as parsers replaced an encoding.  (Partial: none should
be lost, see `C95_lost_violated`.) -/
theorem C95_references_partial {s : St} {held : Held} {n : Nat} (h : Hist s held n) :
    (∀ c, Fair held s c → ∃ s' a, c.run s = .ok (s', a)) ∧
    ∃ lost : List Nat, lost.length ≤ n ∧ ∀ a, refs s a = held a + fields s a + lost.count a := by
  obtain ⟨lost, hB, hn⟩ := h.books
  refine ⟨fun c hc => ?_, lost, hn, hB.cnt⟩
  obtain ⟨s', a, _, hr, _⟩ := step hB c hc
  exact ⟨s', a, hr⟩

/-- Every time a parser replaces the encoding of a document, the reference to the old one is lost: whatever is done later, that string is never
freed, even when nobody holds it and no document points to it. -/
theorem C95_lost_violated {s : St} {held : Held} {n : Nat} (h : Hist s held n) {p : Nat} {x : Parser} {d : Doc} {a : Nat} (hp : s.parsers[p]? = some x)
    (hx : x.encoding = none) (hd : s.docs[x.doc]? = some d) (ha : d.encoding = some a) (c nm : CStr) (b : Bool) {s1 : St} {r : Ans}
    (hr : Call.run s (.changeEncoding p c nm b) = .ok (s1, r)) {s2 : St} {held2 : Held} {n2 : Nat} (h2 : From s1 held s2 held2 n2) :
    held2 a + fields s2 a < refs s2 a := by
  obtain ⟨lost, hB, _⟩ := h.books
  have hlt : p < s.parsers.length := (List.getElem?_eq_some_iff.1 hp).1
  have hpp : s.parser p = .ok x := by unfold St.parser; rw [hp]
  have key : ∀ (src : Source), ∃ s', St.setDocumentEncoding { s with parsers := s.parsers.set p { x with encoding := some c, source := src } } x.doc (some c) = .ok s' ∧
      Books s' held (d.encoding.toList ++ lost) := by
    intro src
    obtain ⟨s', hr, hps, hds, hst⟩ := setDocumentEncoding_run (s := { s with parsers := s.parsers.set p { x with encoding := some c, source := src } })
      (d := x.doc) (x := d) hd c
    refine ⟨s', hr, hB.forget hd hds hst (fun q z hz => ?_)⟩
    rw [hps] at hz
    dsimp only at hz
    by_cases hq : q = p
    · subst hq
      rw [List.getElem?_set_self hlt] at hz; cases hz; exact hB.docs q x hp
    · rw [List.getElem?_set_ne (fun h => hq h.symm)] at hz; exact hB.docs q z hz
  have hB1 : Books s1 held (d.encoding.toList ++ lost) := by
    have hr' : (St.changeEncoding s p c nm b >>= fun r => Out.ok (r.1, Ans.reply r.2)) = .ok (s1, r) := hr
    unfold St.changeEncoding at hr'
    rw [hpp] at hr'
    change ((if x.encoding.isSome then _ else _) >>= _) = _ at hr'
    rw [hx, if_neg (by simp)] at hr'
    cases b with
    | true =>
      obtain ⟨s', e1, e2⟩ := key .detected
      rw [if_pos rfl] at hr'
      dsimp only at hr'
      rw [e1] at hr'
      cases hr'; exact e2
    | false =>
      obtain ⟨s', e1, e2⟩ := key .meta_
      rw [if_neg Bool.false_ne_true] at hr'
      dsimp only at hr'
      rw [e1] at hr'
      cases hr'; exact e2
  obtain ⟨lost2, hB2, _, hm⟩ := From.books hB1 h2
  have h3 := hB2.cnt a
  have h4 : 0 < lost2.count a := List.count_pos_iff.2 (hm a (by rw [ha]; simp))
  show held2 a + countF s2.docs a < _
  omega

/-- What a call does to a parser that is there. -/
def after (c : Call) (p : Nat) (x : Parser) : Parser :=
  match c with
  | .changeEncoding q ch _ b => if q = p ∧ x.encoding = none then ⟨x.doc, some ch, if b then .detected else .meta_⟩ else x
  | _ => x

theorem bind_ok_inv {α β : Type} {o : Out α} {f : α → Out β} {y : β} (h : (o >>= f) = .ok y) : ∃ x, o = .ok x ∧ f x = .ok y := by
  cases o with
  | ok x => exact ⟨x, rfl, h⟩
  | exc e => cases h
  | fault e => cases h

theorem ref_parsers {s s' : St} {a : Option Nat} (h : s.ref a = .ok s') : s'.parsers = s.parsers ∧ s'.docs = s.docs := by
  unfold St.ref at h
  split at h
  · cases h; exact ⟨rfl, rfl⟩
  · split at h
    · cases h; exact ⟨rfl, rfl⟩
    · cases h

theorem unref_parsers {s s' : St} {a : Option Nat} (h : s.unref a = .ok s') : s'.parsers = s.parsers ∧ s'.docs = s.docs := by
  unfold St.unref at h
  split at h
  · cases h; exact ⟨rfl, rfl⟩
  · split at h
    · cases h; exact ⟨rfl, rfl⟩
    · cases h

theorem setEnc_parsers {s s' : St} {d : Nat} {c : Option CStr} (h : s.setDocumentEncoding d c = .ok s') : s'.parsers = s.parsers := by
  cases c with
  | none => cases h; rfl
  | some c =>
    obtain ⟨x, _, h2⟩ := bind_ok_inv (show (St.doc (s.newStr c.text).1 d >>= fun x => _) = _ from h)
    cases h2; rfl

theorem setQuirks_parsers {s s' : St} {d : Nat} {q : Quirks} (h : s.setQuirks d q = .ok s') : s'.parsers = s.parsers := by
  obtain ⟨x, _, h2⟩ := bind_ok_inv (show (St.doc s d >>= fun x => _) = _ from h)
  cases h2; rfl

/-- `change_encoding` of a parser that has an encoding, and of one that has none. -/
theorem change_inv {s s' : St} {p : Nat} {ch nm : CStr} {b : Bool} {r : Reply} (h : s.changeEncoding p ch nm b = .ok (s', r)) :
    ∃ x, s.parsers[p]? = some x ∧ ((x.encoding ≠ none ∧ s' = s ∧ r = .ok) ∨
      (x.encoding = none ∧ s'.parsers = s.parsers.set p ⟨x.doc, some ch, if b then .detected else .meta_⟩ ∧
        r = if b = false ∧ ch.addr ≠ nm.addr then .encodingChange else .ok)) := by
  obtain ⟨x, h1, h2⟩ := bind_ok_inv (show (St.parser s p >>= fun x => _) = _ from h)
  have hx : s.parsers[p]? = some x := by
    unfold St.parser at h1
    split at h1
    · cases h1; assumption
    · cases h1
  refine ⟨x, hx, ?_⟩
  by_cases he : x.encoding.isSome
  · left
    rw [if_pos he] at h2
    cases h2
    exact ⟨fun h => absurd he (by rw [h]; simp), rfl, rfl⟩
  · right
    rw [if_neg he] at h2
    have hn : x.encoding = none := by cases h : x.encoding <;> simp_all
    refine ⟨hn, ?_⟩
    cases b with
    | true =>
      rw [if_pos rfl] at h2
      obtain ⟨s1, h3, h4⟩ := bind_ok_inv h2
      have := setEnc_parsers h3
      cases h4
      exact ⟨this, by simp⟩
    | false =>
      rw [if_neg Bool.false_ne_true] at h2
      obtain ⟨s1, h3, h4⟩ := bind_ok_inv h2
      have := setEnc_parsers h3
      cases h4
      refine ⟨this, ?_⟩
      by_cases ha : ch.addr = nm.addr
      · simp [ha]
      · simp [ha]

theorem run_parsers {s s' : St} {c : Call} {a : Ans} (h : c.run s = .ok (s', a)) {p : Nat} {x : Parser} (hx : s.parsers[p]? = some x) :
    s'.parsers[p]? = some (after c p x) := by
  have hlt : p < s.parsers.length := (List.getElem?_eq_some_iff.1 hx).1
  cases c with
  | newDoc => cases h; exact hx
  | create e =>
    obtain ⟨s1, h1, h2⟩ := bind_ok_inv (show (St.create s e >>= fun x => _) = _ from h)
    have := setEnc_parsers (show St.setDocumentEncoding ({ s.newDoc with parsers := s.newDoc.parsers ++ [fresh s.docs.length e] } : St) s.docs.length e = .ok s1 from h1)
    cases h2
    rw [this]
    show (s.parsers ++ [_])[p]? = _
    rw [List.getElem?_append_left hlt, hx]; rfl
  | createFragment d e =>
    obtain ⟨s1, h1, h2⟩ := bind_ok_inv (show (St.createFragment s d e >>= fun x => _) = _ from h)
    obtain ⟨_, _, h3⟩ := bind_ok_inv (show (St.doc s d >>= fun x => _) = _ from h1)
    cases h2; cases h3
    show (s.parsers ++ [_])[p]? = _
    rw [List.getElem?_append_left hlt, hx]; rfl
  | changeEncoding q ch nm b =>
    obtain ⟨⟨s1, r⟩, h1, h2⟩ := bind_ok_inv (show (St.changeEncoding s q ch nm b >>= fun x => _) = _ from h)
    cases h2
    obtain ⟨y, hy, hc⟩ := change_inv h1
    unfold after
    dsimp only
    by_cases hq : q = p
    · subst hq
      rw [hx] at hy; cases hy
      rcases hc with ⟨e1, e2, _⟩ | ⟨e1, e2, _⟩
      · rw [if_neg (fun h => e1 h.2), e2]; exact hx
      · rw [if_pos ⟨rfl, e1⟩, e2, List.getElem?_set_self hlt]
    · rw [if_neg (fun h => hq h.1)]
      rcases hc with ⟨e1, e2, _⟩ | ⟨e1, e2, _⟩
      · rw [e2]; exact hx
      · rw [e2, List.getElem?_set_ne hq]; exact hx
  | parserQuirks q k =>
    obtain ⟨s1, h1, h2⟩ := bind_ok_inv (show (St.parserQuirks s q k >>= fun x => _) = _ from h)
    obtain ⟨y, _, h3⟩ := bind_ok_inv (show (St.parser s q >>= fun x => _) = _ from h1)
    cases h2
    rw [setQuirks_parsers h3]; exact hx
  | setQuirks d k =>
    obtain ⟨s1, h1, h2⟩ := bind_ok_inv (show (St.setQuirks s d k >>= fun x => _) = _ from h)
    cases h2
    rw [setQuirks_parsers h1]; exact hx
  | inputEncoding d =>
    obtain ⟨⟨s1, r⟩, h1, h2⟩ := bind_ok_inv (show (St.inputEncoding s d >>= fun x => _) = _ from h)
    obtain ⟨y, _, h3⟩ := bind_ok_inv (show (St.doc s d >>= fun x => _) = _ from h1)
    obtain ⟨s2, h4, h5⟩ := bind_ok_inv h3
    cases h2; cases h5
    rw [(ref_parsers h4).1]; exact hx
  | setInputEncoding d e =>
    obtain ⟨s1, h1, h2⟩ := bind_ok_inv (show (St.setInputEncoding s d e >>= fun x => _) = _ from h)
    obtain ⟨y, _, h3⟩ := bind_ok_inv (show (St.doc s d >>= fun x => _) = _ from h1)
    obtain ⟨s2, h4, h5⟩ := bind_ok_inv h3
    obtain ⟨s3, h6, h7⟩ := bind_ok_inv h5
    cases h2; cases h7
    show s3.parsers[p]? = _
    rw [(ref_parsers h6).1, (unref_parsers h4).1]; exact hx
  | newStr b => cases h; exact hx
  | unref b =>
    obtain ⟨s1, h1, h2⟩ := bind_ok_inv (show (St.unref s (some b) >>= fun x => _) = _ from h)
    cases h2
    rw [(unref_parsers h1).1]; exact hx

/-- The parser after a history. -/
theorem runAll_parser : ∀ (cs : List Call) {s s' : St} {p : Nat} {x : Parser}, runAll s cs = .ok s' → s.parsers[p]? = some x →
    s'.parsers[p]? = some (match x.encoding, proposed p cs with
      | none, (c, certain) :: _ => ⟨x.doc, some c, if certain then .detected else .meta_⟩
      | _, _ => x)
  | [], s, s', p, x, h, hx => by
      cases h
      cases x.encoding <;> exact hx
  | c :: cs, s, s', p, x, h, hx => by
      obtain ⟨⟨s1, a⟩, h1, h2⟩ := bind_ok_inv (show (Call.run s c >>= fun r => runAll r.1 cs) = _ from h)
      have e1 := run_parsers h1 hx
      have ih := runAll_parser cs h2 e1
      rw [ih]
      by_cases hp : proposed p [c] = []
      · have h3 : proposed p (c :: cs) = proposed p cs := by
          show proposed p ([c] ++ cs) = _
          unfold proposed at hp ⊢
          rw [List.filterMap_append, hp]; rfl
        have h4 : after c p x = x := by
          cases c with
          | changeEncoding q ch nm b =>
            unfold after; dsimp only
            by_cases hq : q = p
            · exfalso; simp [proposed, hq] at hp
            · rw [if_neg (fun h => hq h.1)]
          | _ => rfl
        rw [h3, h4]
      · cases c with
        | changeEncoding q ch nm b =>
          have hq : q = p := by
            by_cases hq : q = p
            · exact hq
            · exact absurd (by simp [proposed, hq]) hp
          subst hq
          have h3 : proposed q (.changeEncoding q ch nm b :: cs) = (ch, b) :: proposed q cs := by simp [proposed]
          rw [h3]
          unfold after; dsimp only
          cases hx' : x.encoding with
          | none => simp
          | some e => simp [hx']
        | _ => exact absurd rfl hp

/-- The call makes a parser that is given the encoding `e`. -/
inductive Makes (e : Option CStr) : Call → Prop
  | whole : Makes e (.create e)
  | fragment (d : Nat) : Makes e (.createFragment d e)

theorem makes_parser {s s' : St} {e : Option CStr} {c : Call} {a : Ans} (hm : Makes e c) (h : c.run s = .ok (s', a)) :
    ∃ d, s'.parsers[s.parsers.length]? = some (fresh d e) := by
  cases hm with
  | whole =>
    obtain ⟨s1, h1, h2⟩ := bind_ok_inv (show (St.create s e >>= fun x => _) = _ from h)
    have := setEnc_parsers (show St.setDocumentEncoding ({ s.newDoc with parsers := s.newDoc.parsers ++ [fresh s.docs.length e] } : St) s.docs.length e = .ok s1 from h1)
    cases h2
    rw [this]
    refine ⟨s.docs.length, ?_⟩
    show (s.parsers ++ [_])[s.parsers.length]? = _
    rw [List.getElem?_append_right (Nat.le_refl _)]; simp
  | fragment d =>
    obtain ⟨s1, h1, h2⟩ := bind_ok_inv (show (St.createFragment s d e >>= fun x => _) = _ from h)
    obtain ⟨_, _, h3⟩ := bind_ok_inv (show (St.doc s d >>= fun x => _) = _ from h1)
    cases h2; cases h3
    refine ⟨d, ?_⟩
    show (s.parsers ++ [_])[s.parsers.length]? = _
    rw [List.getElem?_append_right (Nat.le_refl _)]; simp

/-- What `dom_hubbub_parser_get_encoding` reports, after any history: the encoding that the parser was given; otherwise the first that Hubbub
proposed; otherwise Windows-1252; and where it came from. -/
theorem C95_report {s s' : St} {e : Option CStr} {c : Call} (hm : Makes e c) {cs : List Call} (h : runAll s (c :: cs) = .ok s') :
    s'.getEncoding s.parsers.length = .ok (report e (proposed s.parsers.length cs)) := by
  obtain ⟨⟨s1, a⟩, h1, h2⟩ := bind_ok_inv (show (Call.run s c >>= fun r => runAll r.1 cs) = _ from h)
  obtain ⟨d, hd⟩ := makes_parser hm h1
  have h3 := runAll_parser cs h2 hd
  unfold St.getEncoding St.parser
  rw [h3]
  cases e with
  | some e => rfl
  | none =>
    cases hp : proposed s.parsers.length cs with
    | nil => rfl
    | cons p ps => obtain ⟨c, b⟩ := p; cases b <;> rfl

/-- Hubbub is told to start again exactly if the parser was given no encoding, this is the first proposal, it is not certain, and it is not the very
string that Hubbub works with. -/
theorem C95_restart {s s' s'' : St} {e : Option CStr} {c : Call} (hm : Makes e c) {cs : List Call} (h : runAll s (c :: cs) = .ok s') {ch nm : CStr}
    {certain : Bool} {r : Reply} (hr : s'.changeEncoding s.parsers.length ch nm certain = .ok (s'', r)) :
    r = .encodingChange ↔ e = none ∧ proposed s.parsers.length cs = [] ∧ certain = false ∧ ch.addr ≠ nm.addr := by
  obtain ⟨⟨s1, a⟩, h1, h2⟩ := bind_ok_inv (show (Call.run s c >>= fun r => runAll r.1 cs) = _ from h)
  obtain ⟨d, hd⟩ := makes_parser hm h1
  have h3 := runAll_parser cs h2 hd
  obtain ⟨x, hx, hc⟩ := change_inv hr
  rw [h3] at hx
  cases hx
  cases e with
  | some e =>
    rcases hc with ⟨_, _, e3⟩ | ⟨e1, _⟩
    · rw [e3]; simp
    · exact absurd e1 (by simp [fresh])
  | none =>
    cases hp : proposed s.parsers.length cs with
    | nil =>
      rw [hp] at hc
      rcases hc with ⟨e1, _⟩ | ⟨_, _, e3⟩
      · exact absurd rfl e1
      · rw [e3]
        by_cases hb : certain = false ∧ ch.addr ≠ nm.addr
        · rw [if_pos hb]; simp [hb]
        · rw [if_neg hb]
          constructor
          · intro h; cases h
          · intro h; exact absurd h.2.2 hb
    | cons p ps =>
      rw [hp] at hc
      rcases hc with ⟨_, _, e3⟩ | ⟨e1, _⟩
      · rw [e3]; simp
      · exact absurd e1 (by simp [fresh])

/-! ## The documents -/

theorem encodingText_eq (s : St) (d : Nat) : encodingText s d = (s.docs[d]?.bind Doc.encoding).bind (fun a => s.strs[a]?.map Prod.fst) := by
  unfold encodingText
  cases s.docs[d]? with
  | none => rfl
  | some x =>
    cases h : x.encoding with
    | none => simp [h]
    | some a => simp [h]

theorem ref_text {s s' : St} {a : Option Nat} (h : s.ref a = .ok s') (b : Nat) : s'.strs[b]?.map Prod.fst = s.strs[b]?.map Prod.fst := by
  unfold St.ref at h
  split at h
  · cases h; rfl
  · split at h
    · rename_i _ a _ t n heq
      cases h
      dsimp only
      by_cases hb : a = b
      · subst hb; rw [List.getElem?_set_self (List.getElem?_eq_some_iff.1 heq).1, heq]; rfl
      · rw [List.getElem?_set_ne hb]
    · cases h

theorem unref_text {s s' : St} {a : Option Nat} (h : s.unref a = .ok s') (b : Nat) : s'.strs[b]?.map Prod.fst = s.strs[b]?.map Prod.fst := by
  unfold St.unref at h
  split at h
  · cases h; rfl
  · split at h
    · rename_i _ a _ t n heq
      cases h
      dsimp only
      by_cases hb : a = b
      · subst hb; rw [List.getElem?_set_self (List.getElem?_eq_some_iff.1 heq).1, heq]; rfl
      · rw [List.getElem?_set_ne hb]
    · cases h

theorem doc_inv {s : St} {d : Nat} {x : Doc} (h : s.doc d = .ok x) : s.docs[d]? = some x := by
  unfold St.doc at h
  split at h
  · cases h; assumption
  · cases h

theorem setEnc_inv {s s' : St} {d : Nat} {c : CStr} (h : s.setDocumentEncoding d (some c) = .ok s') :
    ∃ x, s.docs[d]? = some x ∧ s'.docs = s.docs.set d { x with encoding := some s.strs.length } ∧ s'.strs = s.strs ++ [(c.text, 1)] := by
  obtain ⟨x, h1, h2⟩ := bind_ok_inv (show (St.doc (s.newStr c.text).1 d >>= fun x => _) = _ from h)
  cases h2
  exact ⟨x, doc_inv h1, rfl, rfl⟩

theorem Books.inRange {s : St} {held : Held} {lost : List Nat} (hB : Books s held lost) {d : Nat} {x : Doc} {a : Nat} (hd : s.docs[d]? = some x)
    (ha : x.encoding = some a) : a < s.strs.length := by
  have h1 := hit_le hd a
  have h2 : hit x.encoding a = 1 := by unfold hit; rw [if_pos ha]
  have h3 := hB.cnt a
  by_cases h : a < s.strs.length
  · exact h
  · have : refs s a = 0 := by unfold refs; rw [List.getElem?_eq_none (by omega)]
    omega

/-- A document whose field stays, in a memory with more strings. -/
theorem text_grow {s s' : St} {held : Held} {lost : List Nat} (hB : Books s held lost) {d : Nat} {l : List (Bytes × Nat)}
    (h1 : (s'.docs[d]?.bind Doc.encoding) = (s.docs[d]?.bind Doc.encoding)) (h2 : s'.strs = s.strs ++ l) : encodingText s' d = encodingText s d := by
  rw [encodingText_eq, encodingText_eq, h1]
  cases hx : s.docs[d]? with
  | none => rfl
  | some x =>
    cases ha : x.encoding with
    | none => simp [ha]
    | some a =>
      have := hB.inRange hx ha
      simp only [Option.bind_some, ha]
      rw [h2, List.getElem?_append_left this]

theorem text_same {s s' : St} {d : Nat} (h1 : (s'.docs[d]?.bind Doc.encoding) = (s.docs[d]?.bind Doc.encoding))
    (h2 : ∀ b : Nat, s'.strs[b]?.map Prod.fst = s.strs[b]?.map Prod.fst) : encodingText s' d = encodingText s d := by
  rw [encodingText_eq, encodingText_eq, h1]
  congr 1
  funext a
  exact h2 a

theorem text_new {s' : St} {d : Nat} {x : Doc} {l : List (Bytes × Nat)} {t : Bytes} (h1 : s'.docs[d]? = some x) (h2 : x.encoding = some l.length)
    (h3 : s'.strs = l ++ [(t, 1)]) : encodingText s' d = some t := by
  rw [encodingText_eq, h1, Option.bind_some, h2, Option.bind_some, h3, List.getElem?_append_right (Nat.le_refl _)]; simp

/-- The encoding and the quirks mode that every document has after every call. -/
theorem C95_document {s s' : St} {held : Held} {n : Nat} (h : Hist s held n) {c : Call} {a : Ans} (hr : c.run s = .ok (s', a)) (d : Nat) :
    encodingText s' d = expected s d c ∧ s'.docs[d]?.map Doc.quirks = expectedQuirks s d c := by
  obtain ⟨lost, hB, _⟩ := h.books
  have hend : (s.docs ++ [(⟨some s.strs.length, .none⟩ : Doc)])[s.docs.length]? = some ⟨some s.strs.length, .none⟩ := by
    rw [List.getElem?_append_right (Nat.le_refl _)]; simp
  have hother : ∀ x, d ≠ s.docs.length → (s.docs ++ [(x : Doc)])[d]? = s.docs[d]? := by
    intro x hne
    by_cases hlt : d < s.docs.length
    · rw [List.getElem?_append_left hlt]
    · rw [List.getElem?_eq_none (by rw [List.length_append]; simp; omega), List.getElem?_eq_none (by omega)]
  have new : encodingText s.newDoc d = (if d = s.docs.length then some utf8 else encodingText s d) ∧
      s.newDoc.docs[d]?.map Doc.quirks = (if d = s.docs.length then some .none else s.docs[d]?.map Doc.quirks) := by
    by_cases hd : d = s.docs.length
    · rw [if_pos hd, if_pos hd, hd]
      exact ⟨text_new hend rfl rfl, congrArg (Option.map Doc.quirks) hend⟩
    · rw [if_neg hd, if_neg hd]
      exact ⟨text_grow hB (by show ((s.docs ++ [_])[_]?).bind _ = _; rw [hother _ hd]) rfl, by show ((s.docs ++ [_])[_]?).map _ = _; rw [hother _ hd]⟩
  have quirked : ∀ (e : Nat) (q : Quirks) (s1 : St), s.setQuirks e q = .ok s1 → encodingText s1 d = encodingText s d ∧
      s1.docs[d]?.map Doc.quirks = if e = d then some q else s.docs[d]?.map Doc.quirks := by
    intro e q s1 h1
    obtain ⟨x, h2, h3⟩ := bind_ok_inv (show (St.doc s e >>= fun x => _) = _ from h1)
    have hx := doc_inv h2
    cases h3
    by_cases hd : e = d
    · subst hd
      have hs := List.getElem?_set_self (a := { x with quirks := q }) (List.getElem?_eq_some_iff.1 hx).1
      refine ⟨text_same ?_ (fun b => rfl), ?_⟩
      · dsimp only; rw [hs, hx]; rfl
      · dsimp only; rw [hs, if_pos rfl]; rfl
    · refine ⟨text_same ?_ (fun b => rfl), ?_⟩
      · dsimp only; rw [List.getElem?_set_ne hd]
      · dsimp only; rw [List.getElem?_set_ne hd, if_neg hd]
  cases c with
  | newDoc => cases hr; exact new
  | create e =>
    obtain ⟨s1, h1, h2⟩ := bind_ok_inv (show (St.create s e >>= fun x => _) = _ from hr)
    have h3 : St.setDocumentEncoding ({ s.newDoc with parsers := s.newDoc.parsers ++ [fresh s.docs.length e] } : St) s.docs.length e = .ok s1 := h1
    cases h2
    cases e with
    | none => cases h3; exact new
    | some c =>
      obtain ⟨x, hx, h4, h5⟩ := setEnc_inv h3
      have hx' : s.newDoc.docs[s.docs.length]? = some x := hx
      have hxe : s.newDoc.docs[s.docs.length]? = some ⟨some s.strs.length, .none⟩ := hend
      rw [hxe] at hx'
      cases hx'
      have hlen : s.docs.length < s.newDoc.docs.length := (List.getElem?_eq_some_iff.1 hxe).1
      by_cases hd : d = s.docs.length
      · subst hd
        show _ = (if _ then some c.text else _) ∧ _ = if _ then some Quirks.none else _
        rw [if_pos rfl, if_pos rfl]
        have hs := List.getElem?_set_self (a := (⟨some s.newDoc.strs.length, .none⟩ : Doc)) hlen
        exact ⟨text_new (l := s.newDoc.strs) (by rw [h4]; exact hs) rfl h5, by rw [h4]; exact congrArg (Option.map Doc.quirks) hs⟩
      · show _ = (if _ then some c.text else _) ∧ _ = if _ then some Quirks.none else _
        rw [if_neg hd, if_neg hd]
        have hs : s'.docs[d]? = s.docs[d]? := by
          rw [h4, List.getElem?_set_ne (fun h => hd h.symm)]; exact hother _ hd
        exact ⟨text_grow (l := [(utf8, 1)] ++ [(c.text, 1)]) hB (by rw [hs]) (by rw [h5, ← List.append_assoc]; rfl), by rw [hs]⟩
  | createFragment e c =>
    obtain ⟨s1, h1, h2⟩ := bind_ok_inv (show (St.createFragment s e c >>= fun x => _) = _ from hr)
    obtain ⟨_, _, h3⟩ := bind_ok_inv (show (St.doc s e >>= fun x => _) = _ from h1)
    cases h2; cases h3
    exact ⟨rfl, rfl⟩
  | changeEncoding p c nm b =>
    obtain ⟨⟨s1, r⟩, h1, h2⟩ := bind_ok_inv (show (St.changeEncoding s p c nm b >>= fun x => _) = _ from hr)
    cases h2
    obtain ⟨x, h3, h4⟩ := bind_ok_inv (show (St.parser s p >>= fun x => _) = _ from h1)
    have hx : s.parsers[p]? = some x := by
      unfold St.parser at h3
      split at h3
      · cases h3; assumption
      · cases h3
    show _ = (match s.parsers[p]? with | some x => if x.doc = d ∧ x.encoding = none then some c.text else encodingText s d | none => encodingText s d) ∧ _ = Option.map Doc.quirks s.docs[d]?
    rw [hx]
    dsimp only
    have key : ∀ (src : Source) (s1 : St), x.encoding = none →
        St.setDocumentEncoding { s with parsers := s.parsers.set p { x with encoding := some c, source := src } } x.doc (some c) = .ok s1 →
        encodingText s1 d = (if x.doc = d ∧ x.encoding = none then some c.text else encodingText s d) ∧ s1.docs[d]?.map Doc.quirks = s.docs[d]?.map Doc.quirks := by
      intro src s1 hn h5
      obtain ⟨y, hy, h6, h7⟩ := setEnc_inv h5
      dsimp only at hy h6 h7
      by_cases hd : x.doc = d
      · subst hd
        rw [if_pos ⟨rfl, hn⟩]
        have hs := List.getElem?_set_self (a := { y with encoding := some s.strs.length }) (List.getElem?_eq_some_iff.1 hy).1
        exact ⟨text_new (l := s.strs) (by rw [h6]; exact hs) rfl h7, by rw [h6, hs, hy]; rfl⟩
      · rw [if_neg (fun h => hd h.1)]
        have hs : s1.docs[d]? = s.docs[d]? := by rw [h6, List.getElem?_set_ne hd]
        exact ⟨text_grow hB (by rw [hs]) h7, by rw [hs]⟩
    by_cases he : x.encoding.isSome
    · rw [if_pos he] at h4
      cases h4
      exact ⟨by rw [if_neg (fun h => absurd he (by rw [h.2]; simp))], rfl⟩
    · rw [if_neg he] at h4
      have hn : x.encoding = none := by cases h : x.encoding <;> simp_all
      cases b with
      | true =>
        rw [if_pos rfl] at h4
        obtain ⟨s2, h5, h6⟩ := bind_ok_inv h4
        cases h6
        exact key _ _ hn h5
      | false =>
        rw [if_neg Bool.false_ne_true] at h4
        obtain ⟨s2, h5, h6⟩ := bind_ok_inv h4
        cases h6
        exact key _ _ hn h5
  | parserQuirks p q =>
    obtain ⟨s1, h1, h2⟩ := bind_ok_inv (show (St.parserQuirks s p q >>= fun x => _) = _ from hr)
    obtain ⟨x, h3, h4⟩ := bind_ok_inv (show (St.parser s p >>= fun x => _) = _ from h1)
    have hx : s.parsers[p]? = some x := by
      unfold St.parser at h3
      split at h3
      · cases h3; assumption
      · cases h3
    cases h2
    show _ = encodingText s d ∧ _ = (match s.parsers[p]? with | some x => if x.doc = d then some q else s.docs[d]?.map Doc.quirks | none => s.docs[d]?.map Doc.quirks)
    rw [hx]
    exact quirked _ _ _ h4
  | setQuirks e q =>
    obtain ⟨s1, h1, h2⟩ := bind_ok_inv (show (St.setQuirks s e q >>= fun x => _) = _ from hr)
    cases h2
    exact quirked _ _ _ h1
  | inputEncoding e =>
    obtain ⟨⟨s1, r⟩, h1, h2⟩ := bind_ok_inv (show (St.inputEncoding s e >>= fun x => _) = _ from hr)
    obtain ⟨y, _, h3⟩ := bind_ok_inv (show (St.doc s e >>= fun x => _) = _ from h1)
    obtain ⟨s2, h4, h5⟩ := bind_ok_inv h3
    cases h2; cases h5
    exact ⟨text_same (by rw [(ref_parsers h4).2]) (ref_text h4), by rw [(ref_parsers h4).2]; rfl⟩
  | setInputEncoding e t =>
    obtain ⟨s1, h1, h2⟩ := bind_ok_inv (show (St.setInputEncoding s e t >>= fun x => _) = _ from hr)
    obtain ⟨y, h0, h3⟩ := bind_ok_inv (show (St.doc s e >>= fun x => _) = _ from h1)
    obtain ⟨s2, h4, h5⟩ := bind_ok_inv h3
    obtain ⟨s3, h6, h7⟩ := bind_ok_inv h5
    have hy := doc_inv h0
    cases h2; cases h7
    have hdocs : s3.docs = s.docs := by rw [(ref_parsers h6).2, (unref_parsers h4).2]
    have htext : ∀ b : Nat, s3.strs[b]?.map Prod.fst = s.strs[b]?.map Prod.fst := fun b => by rw [ref_text h6, unref_text h4]
    show encodingText { s3 with docs := s3.docs.set e { y with encoding := t } } d = (if e = d then _ else _) ∧ _ = s.docs[d]?.map Doc.quirks
    by_cases hd : e = d
    · subst hd
      rw [if_pos rfl]
      have hs := List.getElem?_set_self (a := { y with encoding := t }) (List.getElem?_eq_some_iff.1 hy).1
      constructor
      · rw [encodingText_eq]
        dsimp only
        rw [hdocs, hs]
        show t.bind _ = _
        congr 1
        funext b
        exact htext b
      · show (s3.docs.set e { y with encoding := t })[e]?.map Doc.quirks = _
        rw [hdocs, hs, hy]; rfl
    · rw [if_neg hd]
      have hs : (s3.docs.set e { y with encoding := t })[d]? = s.docs[d]? := by rw [hdocs, List.getElem?_set_ne hd]
      exact ⟨text_same (by dsimp only; rw [hs]) htext, by dsimp only; rw [hs]⟩
  | newStr b => cases hr; exact ⟨text_grow hB rfl rfl, rfl⟩
  | unref b =>
    obtain ⟨s1, h1, h2⟩ := bind_ok_inv (show (St.unref s (some b) >>= fun x => _) = _ from hr)
    cases h2
    exact ⟨text_same (by rw [(unref_parsers h1).2]) (unref_text h1), by rw [(unref_parsers h1).2]; rfl⟩

/-- A parser that is given no encoding says one thing and the document that it makes another: Windows-1252 and UTF-8. -/
theorem C95_default_violated {s s' : St} {held : Held} {n : Nat} (h : Hist s held n) {a : Ans} (hr : Call.run s (.create none) = .ok (s', a)) :
    s'.getEncoding s.parsers.length = .ok (windows1252, .detected) ∧ encodingText s' s.docs.length = some utf8 ∧ utf8 ≠ windows1252.text := by
  have h1 : runAll s [.create none] = .ok s' := by
    show (Call.run s (.create none) >>= fun r => runAll r.1 []) = _
    rw [hr]; rfl
  refine ⟨C95_report .whole h1, ?_, by decide⟩
  rw [(C95_document h hr _).1]
  show (if _ then _ else _) = _
  rw [if_pos rfl]

/-- A fragment parser that is given an encoding leaves the document with its own; one that is given none changes the encoding of the client's document
when the fragment says that it has another. -/
theorem C95_fragment_violated {s s' : St} {held : Held} {n : Nat} (h : Hist s held n) {d : Nat} {e : Option CStr} {a : Ans}
    (hr : Call.run s (.createFragment d e) = .ok (s', a)) (hd : d < s.docs.length) :
    encodingText s' d = encodingText s d ∧
    (e = none → ∀ (c nm : CStr) (b : Bool), ∃ s'' r, Call.run s' (.changeEncoding s.parsers.length c nm b) = .ok (s'', r) ∧ encodingText s'' d = some c.text) := by
  refine ⟨(C95_document h hr d).1, fun he c nm b => ?_⟩
  have h' : Hist s' _ _ := From.call (.createFragment d e) h hd hr
  have hp : s'.parsers = s.parsers ++ [fresh d e] := by
    obtain ⟨s1, h1, h2⟩ := bind_ok_inv (show (St.createFragment s d e >>= fun x => _) = _ from hr)
    obtain ⟨_, _, h3⟩ := bind_ok_inv (show (St.doc s d >>= fun x => _) = _ from h1)
    cases h2; cases h3; rfl
  obtain ⟨s'', r, hr2⟩ := (C95_references_partial h').1 (.changeEncoding s.parsers.length c nm b) (by
    show _ < s'.parsers.length; rw [hp]; simp)
  refine ⟨s'', r, hr2, ?_⟩
  rw [(C95_document h' hr2 d).1]
  show (match s'.parsers[s.parsers.length]? with | some x => if x.doc = d ∧ x.encoding = none then some c.text else encodingText s' d | none => encodingText s' d) = _
  rw [hp, List.getElem?_append_right (Nat.le_refl _)]
  subst he
  simp [fresh]

/-! ## Errors -/

theorem and_high (e : Nat) (he : e < 65536) : e &&& 65536 = 0 := by
  apply Nat.eq_of_testBit_eq
  intro i
  rw [Nat.testBit_and, show (65536 : Nat) = 2 ^ 16 from rfl, Nat.testBit_two_pow, Nat.zero_testBit]
  by_cases h : 16 = i
  · subst h; rw [Nat.testBit_lt_two_pow he]; rfl
  · simp [h]

/-- An error that Hubbub returned to the binding goes back to Hubbub unchanged when the client's script callback returns it; any other error of the
client becomes `HUBBUB_UNKNOWN`; and no error stays none. -/
theorem C95_errors (unknown : Nat) :
    (∀ e < 65536, completeScript unknown (fromHubbub e) = e) ∧ (∀ e, 0 < e → e < 65536 → completeScript unknown e = unknown) := by
  have hor : ∀ e < 65536, 65536 ||| e = 65536 + e := fun e he => (Nat.two_pow_add_eq_or_of_lt (i := 16) (b := e) he 1).symm
  refine ⟨fun e he => ?_, fun e h0 he => ?_⟩
  · unfold fromHubbub completeScript hubbubErr
    by_cases h : e = 0
    · subst h; rfl
    · rw [if_neg h, hor e he, if_neg (by omega)]
      have h1 : (65536 + e) &&& 65536 = 65536 := by
        rw [← hor e he, Nat.and_or_distrib_right, Nat.and_self]
        have : e &&& 65536 = 0 := by
          exact and_high e he
        rw [this]; rfl
      rw [if_pos (by rw [h1]; decide)]
      show (65536 + e) &&& 65535 = e
      have := Nat.and_two_pow_sub_one_eq_mod (65536 + e) 16
      rw [show (2 : Nat) ^ 16 - 1 = 65535 from rfl, show (2 : Nat) ^ 16 = 65536 from rfl] at this
      rw [this]; omega
  · unfold completeScript hubbubErr
    rw [if_neg (by omega)]
    have : e &&& 65536 = 0 := by
      exact and_high e he
    rw [this]; simp

/-- An error of the client that says only "Hubbub failed" is reported to Hubbub as success. -/
theorem C95_error_lost_violated (unknown : Nat) : completeScript unknown hubbubErr = 0 := by
  unfold completeScript hubbubErr; rw [if_neg (by decide), if_pos (by decide)]; rfl

/-! ## Concrete cases -/

/-- `ISO-8859-2` as an encoding that Hubbub found in a META element, at two addresses. -/
def latin2 (addr : Nat) : CStr := ⟨addr, [73, 83, 79, 45, 56, 56, 53, 57, 45, 50]⟩

/-- A client makes a parser, Hubbub finds a META element, and the client asks for the encoding. -/
def someCalls : List Call := [.create none, .changeEncoding 0 (latin2 7) (latin2 8) false, .parserQuirks 0 .full, .inputEncoding 0, .createFragment 0 none,
  .changeEncoding 1 (latin2 9) (latin2 9) true, .newStr [85], .setInputEncoding 0 (some 3)]

/-- The state after them, and what the client holds. -/
def someState : St := ⟨[(utf8, 1), ((latin2 7).text, 2), ((latin2 9).text, 0), ([85], 2)], [⟨some 3, .full⟩],
  [⟨0, some (latin2 7), .meta_⟩, ⟨0, some (latin2 9), .detected⟩]⟩

/-- The first string and one reference of the second are lost. -/
theorem someHist : ∃ held, Hist someState held 2 ∧ held 0 = 0 ∧ fields someState 0 = 0 ∧ refs someState 0 = 1 ∧ held 1 = 1 ∧ refs someState 1 = 2 := by
  have h1 : Hist _ _ _ := From.call (.create none) From.start trivial rfl
  have h2 := From.call (.changeEncoding 0 (latin2 7) (latin2 8) false) h1 (by show _ < _; decide +kernel) rfl
  have h3 := From.call (.parserQuirks 0 .full) h2 (by show _ < _; decide +kernel) rfl
  have h4 := From.call (.inputEncoding 0) h3 (by show _ < _; decide +kernel) rfl
  have h5 := From.call (.createFragment 0 none) h4 (by show _ < _; decide +kernel) rfl
  have h6 := From.call (.changeEncoding 1 (latin2 9) (latin2 9) true) h5 (by show _ < _; decide +kernel) rfl
  have h7 := From.call (.newStr [85]) h6 trivial rfl
  have h8 := From.call (.setInputEncoding 0 (some 3)) h7 ⟨by decide +kernel, fun a ha => by cases ha; decide +kernel⟩ rfl
  exact ⟨_, h8, rfl, rfl, rfl, rfl, rfl⟩

example : runAll ⟨[], [], []⟩ someCalls = .ok someState ∧ someState.getEncoding 0 = .ok (latin2 7, .meta_) ∧ someState.getEncoding 1 = .ok (latin2 9, .detected) ∧
    proposed 0 someCalls.tail = [(latin2 7, false)] := by decide +kernel
example : Makes none (.create none) := .whole
example : completeScript 99 (fromHubbub 5) = 5 ∧ completeScript 99 3 = 99 := by decide +kernel

end Dom.Parse.Charset
