import Verif.Html.Parts
/-!
# C94: the fields of HTML elements have the values that were put there

Specification: what each field of each element of a history holds, by the calls that were made (`World`), and which fields exist (`Has`).
-/
set_option linter.unusedSimpArgs false
namespace Dom.Html.Parts

/-! ## Specification -/

/-- The element of this kind has this field, and there is a function that reads it. -/
def Has : Kind → Field → Prop
  | .button, f => f = .form
  | .input, f => f = .form ∨ f = .defaultChecked ∨ f = .defaultCheckedSet ∨ f = .defaultValue ∨ f = .defaultValueSet ∨ f = .checked ∨
      f = .checkedSet ∨ f = .value ∨ f = .valueSet
  | .option, f => f = .defaultSelected ∨ f = .defaultSelectedSet
  | .script, f => f = .flags ∨ f = .processed
  | .select, f => f = .form
  | .textArea, f => f = .form ∨ f = .defaultValue ∨ f = .defaultValueSet ∨ f = .value ∨ f = .valueSet
  | .other, _ => False

/-- The histories and what the elements hold: `h i = some (k, m)` says that element `i` is of kind `k` and that field `f` holds `m f`;
`m f = none` says that nobody has decided what it holds. -/
inductive Says : List Call → Nat → (Nat → Option (Kind × (Field → Option Nat))) → Prop
  | start : Says [] 0 (fun _ => none)
  /-- Everything is zero at first.  A script does not block; the parser marks its scripts. -/
  | create {cs n h} (k : Kind) (p : Bool) (hs : Says cs n h) :
      Says (cs ++ [.create k p]) (n + 1) (fun j => if j = n then
        some (k, fun f => if f = .flags then some (if p then 6 else 4) else some 0) else h j)
  /-- A copy holds what the original holds; but a copied script has not been processed, and its flags are not those of the original. -/
  | copy {cs n h} (i : Nat) {k m} (hi : h i = some (k, m)) (hs : Says cs n h) :
      Says (cs ++ [.copy i]) (n + 1) (fun j => if j = n then
        some (k, fun f => if f = .processed then some 0 else if f = .flags then none else m f) else h j)
  | set {cs n h} (i : Nat) (f : Field) (v : Nat) {k m} (hi : h i = some (k, m)) (hf : Has k f) (hs : Says cs n h) :
      Says (cs ++ [.set i f v]) n (fun j => if j = i then some (k, fun g => if g = f then some v else m g) else h j)
  | get {cs n h} (i : Nat) (f : Field) {k m} (hi : h i = some (k, m)) (hf : Has k f) (hv : m f ≠ none) (hs : Says cs n h) :
      Says (cs ++ [.get i f]) n h

/-- All the calls of a history, one after the other. -/
def runAll (s : List Elem) : List Call → Out (List Elem)
  | [] => .ok s
  | c :: cs => do
    let r ← c.run s
    runAll r.1 cs

/-! ## Proofs -/

theorem runAll_snoc (cs : List Call) (c : Call) : ∀ s, runAll s (cs ++ [c]) = (do
    let s ← runAll s cs
    let r ← c.run s
    .ok r.1) := by
  induction cs with
  | nil =>
    intro s
    show (Call.run s c >>= fun r => Out.ok r.1) = _
    rfl
  | cons d cs ih =>
    intro s
    show (Call.run s d >>= fun r => runAll r.1 (cs ++ [c])) = _
    rw [show runAll s (d :: cs) = (Call.run s d >>= fun r => runAll r.1 cs) from rfl]
    cases Call.run s d with
    | ok r => exact ih r.1
    | exc e => rfl
    | fault f => rfl

theorem own_of_has {k : Kind} {f : Field} (h : Has k f) : f ∈ own k := by
  cases k <;> simp only [Has] at h <;> simp only [own] <;> first | exact h.elim | (rcases h with h | h | h | h | h | h | h | h | h <;> subst h <;> simp) | (rcases h with h | h | h | h | h <;> subst h <;> simp) | (rcases h with h | h <;> subst h <;> simp) | (subst h; simp)

theorem not_selected {k : Kind} {f : Field} (h : Has k f) : f ≠ .selected := by
  rintro rfl
  cases k <;> simp [Has] at h

/-- What the memory has to do with what the history says. -/
structure Agrees (s : List Elem) (n : Nat) (h : Nat → Option (Kind × (Field → Option Nat))) : Prop where
  size : s.length = n
  out : ∀ j, n ≤ j → h j = none
  inn : ∀ j, j < n → ∃ k m, h j = some (k, m)
  kind : ∀ (j : Nat) (e : Elem) k m, s[j]? = some e → h j = some (k, m) → e.kind = k
  vals : ∀ (j : Nat) (e : Elem) k m f, s[j]? = some e → h j = some (k, m) → Has k f → e.vals f = m f
  /-- the parts that no function writes -/
  sel : ∀ (j : Nat) (e : Elem), s[j]? = some e → e.vals .selected = none

theorem at_of {s : List Elem} {n : Nat} {h : Nat → Option (Kind × (Field → Option Nat))} (hA : Agrees s n h) {i : Nat} {k : Kind} {m : Field → Option Nat}
    (hi : h i = some (k, m)) : ∃ e, s[i]? = some e ∧ i < n := by
  have hlt : i < n := by
    by_cases hlt : i < n
    · exact hlt
    · rw [hA.out i (by omega)] at hi; cases hi
  exact ⟨s[i]'(by rw [hA.size]; exact hlt), List.getElem?_eq_getElem _, hlt⟩

/-- A new element at the end. -/
theorem Agrees.snoc {s : List Elem} {n : Nat} {h : Nat → Option (Kind × (Field → Option Nat))} (hA : Agrees s n h) (e : Elem) (m : Field → Option Nat)
    (hv : ∀ f, Has e.kind f → e.vals f = m f) (hs : e.vals .selected = none) :
    Agrees (s ++ [e]) (n + 1) (fun j => if j = n then some (e.kind, m) else h j) := by
  have look : ∀ j x, (s ++ [e])[j]? = some x → (j = n ∧ x = e) ∨ (j ≠ n ∧ s[j]? = some x) := by
    intro j x hx
    by_cases hj : j < s.length
    · right
      rw [List.getElem?_append_left hj] at hx
      exact ⟨by rw [← hA.size]; omega, hx⟩
    · left
      rw [List.getElem?_append_right (by omega)] at hx
      have hz : j - s.length = 0 := by
        by_cases hz : j - s.length = 0
        · exact hz
        · rw [List.getElem?_eq_none (by simp; omega)] at hx; cases hx
      rw [hz] at hx
      refine ⟨by rw [← hA.size]; omega, ?_⟩
      cases hx; rfl
  refine ⟨by simp [hA.size], ?_, ?_, ?_, ?_, ?_⟩
  · intro j hj
    rw [if_neg (by omega)]
    exact hA.out j (by omega)
  · intro j hj
    by_cases hjn : j = n
    · exact ⟨_, _, by rw [if_pos hjn]⟩
    · obtain ⟨k, m', hm⟩ := hA.inn j (by omega)
      exact ⟨k, m', by rw [if_neg hjn]; exact hm⟩
  · intro j x k m' hx hh
    rcases look j x hx with ⟨rfl, rfl⟩ | ⟨hj, hx⟩
    · rw [if_pos rfl] at hh; cases hh; rfl
    · rw [if_neg hj] at hh; exact hA.kind j x k m' hx hh
  · intro j x k m' f hx hh hf
    rcases look j x hx with ⟨rfl, rfl⟩ | ⟨hj, hx⟩
    · rw [if_pos rfl] at hh; cases hh; exact hv f hf
    · rw [if_neg hj] at hh; exact hA.vals j x k m' f hx hh hf
  · intro j x hx
    rcases look j x hx with ⟨rfl, rfl⟩ | ⟨hj, hx⟩
    · exact hs
    · exact hA.sel j x hx

/-- What a creation makes. -/
theorem create_run (s : List Elem) (k : Kind) (p : Bool) : ∃ e, Call.run s (.create k p) = .ok (s ++ [e], none) ∧ e.kind = k ∧ e.vals .selected = none ∧
    ∀ f, Has k f → e.vals f = (if f = .flags then some (if p then 6 else 4) else some 0) := by
  cases p <;> cases k <;> refine ⟨_, rfl, rfl, rfl, ?_⟩ <;> intro f hf <;> simp only [Has] at hf <;>
    first
    | exact hf.elim
    | (rcases hf with hf | hf | hf | hf | hf | hf | hf | hf | hf <;> subst hf <;> rfl)
    | (rcases hf with hf | hf | hf | hf | hf <;> subst hf <;> rfl)
    | (rcases hf with hf | hf <;> subst hf <;> rfl)
    | (subst hf; rfl)

/-- What a copy holds. -/
theorem copy_vals {k : Kind} {x : Vals} {f : Field} (hf : Has k f) :
    copy k x f = (if f = .processed then some 0 else if f = .flags then none else x f) := by
  cases k <;> simp only [Has] at hf <;>
    first
    | exact hf.elim
    | (rcases hf with hf | hf | hf | hf | hf | hf | hf | hf | hf <;> subst hf <;> rfl)
    | (rcases hf with hf | hf | hf | hf | hf <;> subst hf <;> rfl)
    | (rcases hf with hf | hf <;> subst hf <;> rfl)
    | (subst hf; rfl)

theorem copy_selected {k : Kind} {x : Vals} (h : x .selected = none) : copy k x .selected = none := by
  cases k <;> first | rfl | exact h

theorem agrees {cs : List Call} {n : Nat} {h : Nat → Option (Kind × (Field → Option Nat))} (hS : Says cs n h) : ∃ s, runAll [] cs = .ok s ∧ Agrees s n h := by
  induction hS with
  | start =>
    exact ⟨[], rfl, rfl, fun _ _ => rfl, fun _ h => absurd h (Nat.not_lt_zero _), fun _ _ _ _ h => (by simp at h), fun _ _ _ _ _ h => (by simp at h),
      fun _ _ h => (by simp at h)⟩
  | @create cs n h k p hs ih =>
    obtain ⟨s, hr, hA⟩ := ih
    obtain ⟨e, he, hk, hsel, hv⟩ := create_run s k p
    refine ⟨s ++ [e], by rw [runAll_snoc, hr, Out.bind_ok, he]; rfl, ?_⟩
    subst hk
    exact hA.snoc e _ hv hsel
  | @copy cs n h i k m hi hs ih =>
    obtain ⟨s, hr, hA⟩ := ih
    obtain ⟨e, he, hlt⟩ := at_of hA hi
    have hk := hA.kind i e k m he hi
    subst hk
    refine ⟨s ++ [⟨e.kind, copy e.kind e.vals⟩], ?_, ?_⟩
    · rw [runAll_snoc, hr, Out.bind_ok]
      show ((match s[i]? with
        | some e => Out.ok (s ++ [⟨e.kind, copy e.kind e.vals⟩], none)
        | none => .fault .useAfterFree) >>= fun r => Out.ok r.1) = _
      rw [he]; rfl
    · refine hA.snoc ⟨e.kind, copy e.kind e.vals⟩ _ (fun f hf => ?_) (copy_selected (hA.sel i e he))
      show copy e.kind e.vals f = _
      rw [copy_vals hf, hA.vals i e _ m f he hi hf]
  | @set cs n h i f v k m hi hf hs ih =>
    obtain ⟨s, hr, hA⟩ := ih
    obtain ⟨e, he, hlt⟩ := at_of hA hi
    have hk := hA.kind i e k m he hi
    subst hk
    have hil : i < s.length := by rw [hA.size]; exact hlt
    have look : ∀ j x, (s.set i ⟨e.kind, e.vals.put f (some v)⟩)[j]? = some x → (j = i ∧ x = ⟨e.kind, e.vals.put f (some v)⟩) ∨ (j ≠ i ∧ s[j]? = some x) := by
      intro j x hx
      by_cases hj : j = i
      · subst hj
        rw [List.getElem?_set_self hil] at hx
        cases hx; exact .inl ⟨rfl, rfl⟩
      · rw [List.getElem?_set_ne (fun h => hj h.symm)] at hx
        exact .inr ⟨hj, hx⟩
    refine ⟨s.set i ⟨e.kind, e.vals.put f (some v)⟩, ?_, ?_, ?_, ?_, ?_, ?_, ?_⟩
    · rw [runAll_snoc, hr, Out.bind_ok]
      show ((match s[i]? with
        | some e => (do
            let e ← (if f = .selected then Out.fault .badCall else e.set f v)
            Out.ok (s.set i e, none))
        | none => .fault .useAfterFree) >>= fun r => Out.ok r.1) = _
      rw [he]
      show (((if f = .selected then Out.fault .badCall else e.set f v) >>= fun e => Out.ok (s.set i e, none)) >>= fun r => Out.ok r.1) = _
      rw [if_neg (not_selected hf), Elem.set, if_pos (own_of_has hf)]
      rfl
    · simp [hA.size]
    · intro j hj
      rw [if_neg (by omega)]
      exact hA.out j hj
    · intro j hj
      by_cases hji : j = i
      · exact ⟨_, _, by rw [if_pos hji]⟩
      · obtain ⟨k', m', hm⟩ := hA.inn j hj
        exact ⟨k', m', by rw [if_neg hji]; exact hm⟩
    · intro j x k' m' hx hh
      rcases look j x hx with ⟨rfl, rfl⟩ | ⟨hj, hx⟩
      · rw [if_pos rfl] at hh; cases hh; rfl
      · rw [if_neg hj] at hh; exact hA.kind j x k' m' hx hh
    · intro j x k' m' g hx hh hg
      rcases look j x hx with ⟨rfl, rfl⟩ | ⟨hj, hx⟩
      · rw [if_pos rfl] at hh; cases hh
        show Vals.put e.vals f (some v) g = _
        unfold Vals.put
        dsimp only
        by_cases hgf : g = f
        · rw [if_pos hgf, if_pos hgf]
        · rw [if_neg hgf, if_neg hgf]
          exact hA.vals j e _ m g he hi hg
      · rw [if_neg hj] at hh; exact hA.vals j x k' m' g hx hh hg
    · intro j x hx
      rcases look j x hx with ⟨rfl, rfl⟩ | ⟨hj, hx⟩
      · show Vals.put e.vals f (some v) .selected = _
        unfold Vals.put
        rw [if_neg (fun h => not_selected hf h.symm)]
        exact hA.sel j e he
      · exact hA.sel j x hx
  | @get cs n h i f k m hi hf hv hs ih =>
    obtain ⟨s, hr, hA⟩ := ih
    obtain ⟨e, he, hlt⟩ := at_of hA hi
    have hk := hA.kind i e k m he hi
    subst hk
    have hval := hA.vals i e _ m f he hi hf
    obtain ⟨v, hv⟩ := Option.ne_none_iff_exists'.1 hv
    refine ⟨s, ?_, hA⟩
    rw [runAll_snoc, hr, Out.bind_ok]
    show ((match s[i]? with
        | some e => (do
            let v ← (if f = .selected then Out.fault .badCall else e.get f)
            Out.ok (s, some v))
        | none => .fault .useAfterFree) >>= fun r => Out.ok r.1) = _
    rw [he]
    show (((if f = .selected then Out.fault .badCall else e.get f) >>= fun v => Out.ok (s, some v)) >>= fun r => Out.ok r.1) = _
    rw [if_neg (not_selected hf), Elem.get, if_pos (own_of_has hf), hval, hv]
    rfl

/-- The answer of one more read. -/
theorem get_run {cs : List Call} {n : Nat} {h : Nat → Option (Kind × (Field → Option Nat))} (hS : Says cs n h) {i : Nat} {k : Kind} {m : Field → Option Nat}
    (hi : h i = some (k, m)) {f : Field} (hf : Has k f) : ∃ s, runAll [] cs = .ok s ∧
      Call.run s (.get i f) = (match m f with
        | some v => Out.ok (s, some v)
        | none => .fault .uninit) := by
  obtain ⟨s, hr, hA⟩ := agrees hS
  obtain ⟨e, he, hlt⟩ := at_of hA hi
  have hk := hA.kind i e k m he hi
  subst hk
  have hval := hA.vals i e _ m f he hi hf
  refine ⟨s, hr, ?_⟩
  show (match s[i]? with
      | some (e : Elem) => (do
          let v ← (if f = Field.selected then Out.fault .badCall else e.get f)
          Out.ok (s, some v))
      | none => .fault .useAfterFree) = _
  rw [he]
  show ((if f = .selected then Out.fault .badCall else e.get f) >>= fun v => Out.ok (s, some v)) = _
  rw [if_neg (not_selected hf), Elem.get, if_pos (own_of_has hf), hval]
  cases m f <;> rfl

/-- C94: after every history of creations, copies, writes and reads, reading a field gives what the history says: what was last written,
what the original held when the copy was made, or zero (for the flags of a script 4, or 6 if the parser made it).  Missing: the flags
of copies of scripts until they are written, see `C94_flags_violated`. -/
theorem C94_fields_partial {cs : List Call} {n : Nat} {h : Nat → Option (Kind × (Field → Option Nat))} (hS : Says cs n h) {i : Nat} {k : Kind}
    {m : Field → Option Nat} (hi : h i = some (k, m)) {f : Field} (hf : Has k f) {v : Nat} (hv : m f = some v) :
    ∃ s, runAll [] cs = .ok s ∧ Call.run s (.get i f) = .ok (s, some v) := by
  obtain ⟨s, hr, hg⟩ := get_run hS hi hf
  exact ⟨s, hr, by rw [hg, hv]⟩

theorem decided {cs : List Call} {n : Nat} {h : Nat → Option (Kind × (Field → Option Nat))} (hS : Says cs n h) : ∀ {i : Nat} {k : Kind}
    {m : Field → Option Nat}, h i = some (k, m) → ∀ {f : Field}, f ≠ .flags → m f ≠ none := by
  induction hS with
  | start => intro i k m h; cases h
  | @create cs n h k p hs ih =>
    intro i k m hi f hf
    by_cases hin : i = n
    · dsimp only at hi; rw [if_pos hin] at hi; cases hi; dsimp only; rw [if_neg hf]; exact fun h => nomatch h
    · dsimp only at hi; rw [if_neg hin] at hi; exact ih hi hf
  | @copy cs n h j k m hj hs ih =>
    intro i k m hi f hf
    by_cases hin : i = n
    · dsimp only at hi; rw [if_pos hin] at hi; cases hi
      dsimp only
      split
      · exact fun h => nomatch h
      · exact ih hj hf
    · dsimp only at hi; rw [if_neg hin] at hi; exact ih hi hf
  | @set cs n h j f' v k m hj hf' hs ih =>
    intro i k m hi f hf
    by_cases hin : i = j
    · dsimp only at hi; rw [if_pos hin] at hi; cases hi
      dsimp only
      split
      · exact fun h => nomatch h
      · exact ih hj hf
    · dsimp only at hi; rw [if_neg hin] at hi; exact ih hi hf
  | @get cs n h j f' k m hj hf' hv hs ih => exact fun hi => ih hi

/-- C94: no field but the flags of a script is ever read before it is written. -/
theorem C94_written_partial {cs : List Call} {n : Nat} {h : Nat → Option (Kind × (Field → Option Nat))} (hS : Says cs n h) {i : Nat} {k : Kind}
    {m : Field → Option Nat} (hi : h i = some (k, m)) {f : Field} (hf : Has k f) (hx : f ≠ .flags) :
    ∃ s v, runAll [] cs = .ok s ∧ Call.run s (.get i f) = .ok (s, some v) := by
  obtain ⟨v, hv⟩ := Option.ne_none_iff_exists'.1 (decided hS hi hx)
  obtain ⟨s, hr, hg⟩ := C94_fields_partial hS hi hf hv
  exact ⟨s, v, hr, hg⟩

/-- C94 fails: whatever happened before, the flags of a copy of a script are read before anything was written there. -/
theorem C94_flags_violated {cs : List Call} {n : Nat} {h : Nat → Option (Kind × (Field → Option Nat))} (hS : Says cs n h) {i : Nat}
    {m : Field → Option Nat} (hi : h i = some (.script, m)) :
    ∃ s, runAll [] (cs ++ [.copy i]) = .ok s ∧ Call.run s (.get n .flags) = .fault .uninit := by
  obtain ⟨s, hr, hg⟩ := get_run (Says.copy i hi hS) (i := n) (if_pos rfl) (f := .flags) (.inl rfl)
  exact ⟨s, hr, hg⟩

/-- C94 fails: nothing is ever written to the field `selected` of a SELECT, and the copy takes over what happens to be there. -/
theorem C94_selected_violated {cs : List Call} {n : Nat} {h : Nat → Option (Kind × (Field → Option Nat))} (hS : Says cs n h) {i : Nat}
    {m : Field → Option Nat} (hi : h i = some (.select, m)) :
    ∃ s e, runAll [] cs = .ok s ∧ s[i]? = some e ∧ .selected ∈ own e.kind ∧ e.get .selected = .fault .uninit := by
  obtain ⟨s, hr, hA⟩ := agrees hS
  obtain ⟨e, he, hlt⟩ := at_of hA hi
  have hk := hA.kind i e _ m he hi
  refine ⟨s, e, hr, he, by rw [hk]; simp [own], ?_⟩
  rw [Elem.get, if_pos (by rw [hk]; simp [own]), hA.sel i e he]

/-! ## Cases -/

/-- A script made by the parser is processed and copied, the flags of the copy are set. -/
example : ∃ n h k m, Says [.create .script true, .set 0 .processed 1, .copy 0, .set 1 .flags 9] n h ∧ h 1 = some (k, m) ∧
    m .flags = some 9 ∧ m .processed = some 0 ∧ ∃ k' m', h 0 = some (k', m') ∧ m' .flags = some 6 ∧ m' .processed = some 1 :=
  ⟨_, _, _, _, .set (k := .script) (cs := [.create .script true, .set 0 .processed 1, .copy 0]) 1 .flags 9 rfl (Or.inl rfl)
    (.copy (cs := [.create .script true, .set 0 .processed 1]) 0 rfl
      (.set (k := .script) (cs := [.create .script true]) 0 .processed 1 rfl (Or.inr rfl) (.create (cs := []) .script true .start))), rfl, rfl, rfl, _, _, rfl, rfl, rfl⟩

/-- An INPUT with a form is copied. -/
example : ∃ n h k m, Says [.create .input false, .set 0 .form 7, .copy 0, .set 0 .form 0] n h ∧ h 1 = some (k, m) ∧ m .form = some 7 :=
  ⟨_, _, _, _, .set (k := .input) (cs := [.create .input false, .set 0 .form 7, .copy 0]) 0 .form 0 rfl (Or.inl rfl)
    (.copy (cs := [.create .input false, .set 0 .form 7]) 0 rfl
      (.set (k := .input) (cs := [.create .input false]) 0 .form 7 rfl (Or.inl rfl) (.create (cs := []) .input false .start))), rfl, rfl⟩

end Dom.Html.Parts
