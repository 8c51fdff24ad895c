import Verif.Html.PropsControl
/-!
# Claim C72 continued: the value of a TEXTAREA element
-/
set_option linter.unusedSimpArgs false
set_option linter.unusedVariables false
namespace Dom.Html.Control

open Dom.Intern
open Dom.Str (Bytes)
open Dom.Html.Create (refOpt unrefOpt plus plus_plus plus_nil plus_perm refOpt_run unrefOpt_run step_of keep le_plus new_run alive_bytes)

/-! ## What is claimed -/

/-- The value a call sets. -/
def areaSets : AreaOp → Option (Option Addr)
  | .setValue v => some v
  | _ => none

/-- The default value a call sets. -/
def areaDefault : AreaOp → Option (Option Addr)
  | .setDefaultValue v => some v
  | _ => none

/-- The text a call gives the element. -/
def areaText : AreaOp → Option (Option Bytes)
  | .setContent b => some b
  | _ => none

/-- The text of the element after calls that do not set the value, when it was `c` before. -/
def textAfter (c : Option Bytes) (h : List AreaOp) : Option Bytes := (lastOf areaText h).getD c

/-- The text that becomes the default value, if it is fixed by the calls, the text being `c` before: the text at the first call of `getDefaultValue` or
`setValue`; but nothing when the first call is `getValue`.  (Used only when no default value was set.) -/
def fixed : Option Bytes → List AreaOp → Option (Option Bytes)
  | _, [] => none
  | _, .setContent b :: t => fixed b t
  | c, .getDefaultValue :: _ => some c
  | c, .setValue _ :: _ => some c
  | _, .getValue :: _ => some none
  | _, .setDefaultValue _ :: _ => some none

/-- For every `getValue` before the first `setValue`, whether the element had text then. -/
def fetches : Option Bytes → List AreaOp → List Bool
  | _, [] => []
  | _, .setContent b :: t => fetches b t
  | c, .getValue :: t => c.isSome :: fetches c t
  | _, .setValue _ :: _ => []
  | c, .getDefaultValue :: t => fetches c t
  | c, .setDefaultValue _ :: t => fetches c t

/-- How many references are lost: one for each of these but the last, when there was text. -/
def losses (h : List AreaOp) : Nat := (fetches none h).dropLast.count true

/-- A string with these bytes, or `NULL` for none. -/
def Shows (s : Mem) (x : Option Addr) : Option Bytes → Prop
  | none => x = none
  | some b => ∃ a, x = some a ∧ strBytes s a = .ok b

/-- What a call may return after the calls `h`. -/
def Returns (s : Mem) (h : List AreaOp) (r : Ans) : AreaOp → Prop
  | .getValue => (∀ v, lastOf areaSets h = some v → r = .str v) ∧ (lastOf areaSets h = none → ∃ x, r = .str x ∧ Shows s x (textAfter none h))
  | .getDefaultValue => (∀ v, lastOf areaDefault h = some v → r = .str v) ∧
      (lastOf areaDefault h = none → ∃ x c, r = .str x ∧ fixed none (h ++ [.getDefaultValue]) = some c ∧ Shows s x c)
  | _ => r = .none

/-- The string handed to a call. -/
def AreaOp.arg : AreaOp → Option Addr
  | .setValue v => v
  | .setDefaultValue v => v
  | _ => none

/-- The references the element has. -/
def Area.refs (i : Area) : List Addr := i.defaultValue.toList ++ i.value.toList

/-- No count is near 2^32. -/
def Spare (s : Mem) : Prop := ∀ a o, s.strs a = some o → o.refcnt + 8 < 4294967296

/-- The histories of an element, as `Hist`. -/
inductive AreaHist : Mem → (Addr → Nat) → (Addr → Nat) → Area → List AreaOp → Prop
  | start {s held loose} : Reach s held loose → AreaHist s held loose Area.init []
  | string {s held loose i h c s' r} : AreaHist s held loose i h → Allowed s held loose c → Spare s →
      perform s c = .ok (s', r) → AreaHist s' (heldAfter held r c) (looseAfter loose r c) i h
  | op {s held loose i h o s' i' r} : AreaHist s held loose i h → (∀ a ∈ o.arg, 0 < held a) → Spare s →
      i.run s o = .ok (s', i', r) → AreaHist s' (plus held r.refs) loose i' (h ++ [o])

/-! ## Lists of calls -/

theorem lastOf_cons {α β : Type} (f : α → Option β) (o : α) (h : List α) : lastOf f (o :: h) = (lastOf f h).or (f o) := by
  unfold lastOf
  cases hf : f o with
  | none => simp [List.filterMap_cons, hf]
  | some x => simp [List.filterMap_cons, hf, List.getLast?_cons]

theorem textAfter_cons (c : Option Bytes) (o : AreaOp) (h : List AreaOp) : textAfter c (o :: h) = textAfter ((areaText o).getD c) h := by
  unfold textAfter
  rw [lastOf_cons]
  cases lastOf areaText h <;> simp

theorem fixed_snoc (c : Option Bytes) (h : List AreaOp) (o : AreaOp) :
    fixed c (h ++ [o]) = (fixed c h).or (fixed (textAfter c h) [o]) := by
  induction h generalizing c with
  | nil => simp [fixed, textAfter, lastOf]
  | cons p h ih => cases p <;> simp [fixed, textAfter_cons, areaText, ih]

theorem fixed_none {c : Option Bytes} {h : List AreaOp} (hf : fixed c h = none) : lastOf areaSets h = none := by
  induction h generalizing c with
  | nil => rfl
  | cons p h ih => cases p <;> simp [fixed] at hf; (rw [lastOf_cons, ih hf]; rfl)

theorem fetches_snoc {c : Option Bytes} {h : List AreaOp} (hs : lastOf areaSets h = none) (o : AreaOp) :
    fetches c (h ++ [o]) = fetches c h ++ fetches (textAfter c h) [o] := by
  induction h generalizing c with
  | nil => simp [fetches, textAfter, lastOf]
  | cons p h ih =>
    rw [lastOf_cons, Option.or_eq_none_iff] at hs
    cases p <;> simp [areaSets] at hs <;> simp [fetches, textAfter_cons, areaText, ih hs]

theorem fetches_set {c : Option Bytes} {h : List AreaOp} {v : Option Addr} (hs : lastOf areaSets h = some v) (o : AreaOp) :
    fetches c (h ++ [o]) = fetches c h := by
  induction h generalizing c with
  | nil => cases hs
  | cons p h ih =>
    rw [lastOf_cons] at hs
    cases p <;> first | rfl | (simp [areaSets] at hs; simp [fetches, ih hs])

/-! ## Steps -/

variable {s s' : Mem} {held held' loose : Addr → Nat} {i i' : Area} {h : List AreaOp} {o : AreaOp} {v x : Option Addr} {lost : List Addr}

theorem Spare.room (hS : Spare s) (hR : Reach s held loose) (a : Addr) : held a + 8 < 4294967296 := by
  cases hs : s.strs a with
  | none => have := hR.inv.dead a hs; omega
  | some o => have h1 := hR.inv.live a o hs; have h2 := hS a o hs; omega

theorem Shows.keep {c : Option Bytes} (hR : Reach s held loose) (hR' : Reach s' held' loose) (S : Step s s') (hx : Shows s x c)
    (h0 : ∀ a ∈ x, 0 < held' a) : Shows s' x c := by
  cases c with
  | none => exact hx
  | some b =>
    obtain ⟨a, e, hb⟩ := hx
    exact ⟨a, e, Create.keep hR hR' S hb (h0 a e)⟩

theorem text_run (hR : Reach s held loose) (c : Option Bytes) : ∃ s' x, textContent s c = .ok (s', x) ∧ Reach s' (plus held x.toList) loose ∧ Step s s' ∧
    Shows s' x c ∧ x.isSome = c.isSome := by
  cases c with
  | none => exact ⟨s, none, rfl, by rw [show (none : Option Addr).toList = [] from rfl, plus_nil]; exact hR, Step.refl s, rfl, rfl⟩
  | some b =>
    obtain ⟨⟨s1, e1, R1, S1, B1, _⟩, _⟩ := new_run hR b
    exact ⟨s1, some s.fresh, by simp only [textContent, e1, Out.bind_ok], R1, S1, ⟨s.fresh, rfl, B1⟩, rfl⟩

theorem one_le (x : Option Addr) (a : Addr) : x.toList.count a ≤ 1 := by
  refine Nat.le_trans List.count_le_length ?_
  cases x <;> simp

/-- The element, the memory and the references lost, after the calls `h`. -/
structure AreaInv (s : Mem) (held loose : Addr → Nat) (i : Area) (h : List AreaOp) (lost : List Addr) : Prop where
  reach : Reach s (plus held (i.refs ++ lost)) loose
  set : ∀ v, lastOf areaSets h = some v → i.valueSet = true ∧ i.value = v
  unset : lastOf areaSets h = none → i.valueSet = false ∧ i.content = textAfter none h ∧ i.value.isSome = (fetches none h).getLast?.getD false
  dset : ∀ v, lastOf areaDefault h = some v → i.defaultValueSet = true ∧ i.defaultValue = v
  dfix : ∀ c, lastOf areaDefault h = none → fixed none h = some c → i.defaultValueSet = true ∧ Shows s i.defaultValue c
  dunset : lastOf areaDefault h = none → fixed none h = none → i.defaultValueSet = false ∧ i.defaultValue = none
  lost : lost.length = losses h

theorem AreaInv.start (hR : Reach s held loose) : AreaInv s held loose Area.init [] [] := by
  refine ⟨by show Reach s (plus held []) loose; rw [plus_nil]; exact hR, (fun v hv => nomatch hv), fun _ => ⟨rfl, rfl, rfl⟩, (fun v hv => nomatch hv),
    (fun c _ hc => nomatch hc), fun _ _ => ⟨rfl, rfl⟩, rfl⟩

theorem AreaInv.dcases (hA : AreaInv s held loose i h lost) : i.defaultValueSet = true ∨
    i.defaultValueSet = false ∧ i.defaultValue = none ∧ lastOf areaDefault h = none ∧ fixed none h = none ∧ i.content = textAfter none h := by
  cases h1 : lastOf areaDefault h with
  | some v => exact Or.inl (hA.dset v h1).1
  | none =>
    cases h2 : fixed none h with
    | some c => exact Or.inl (hA.dfix c h1 h2).1
    | none => exact Or.inr ⟨(hA.dunset h1 h2).1, (hA.dunset h1 h2).2, rfl, rfl, (hA.unset (fixed_none h2)).2.1⟩

/-- Memory changes that keep what is held. -/
theorem AreaInv.shows {c : Option Bytes} (hA : AreaInv s held loose i h lost) (hR' : Reach s' held' loose) (S : Step s s')
    (h0 : ∀ a ∈ i.defaultValue, 0 < held' a) (h1 : lastOf areaDefault h = none) (h2 : fixed none h = some c) : Shows s' i.defaultValue c :=
  (hA.dfix c h1 h2).2.keep hA.reach hR' S h0

/-- Fetching the default value; the call that does so fixes it. -/
theorem fetchDefault_run (hA : AreaInv s held loose i h lost) (hf : ∀ c, fixed c [o] = some c) (ho : areaDefault o = none) :
    ∃ s' j, i.fetchDefault s = .ok (s', j) ∧
      Reach s' (plus held (j.refs ++ lost)) loose ∧ Step s s' ∧ j = { i with defaultValue := j.defaultValue, defaultValueSet := true } ∧
      (∀ v, lastOf areaDefault h = some v → j.defaultValue = v) ∧
      (lastOf areaDefault h = none → ∃ c, fixed none (h ++ [o]) = some c ∧ Shows s' j.defaultValue c) := by
  rcases hA.dcases with h1 | ⟨h1, h2, h3, h4, h5⟩
  · refine ⟨s, i, by simp [Area.fetchDefault, h1], hA.reach, Step.refl s, by cases i; simp only at h1; subst h1; rfl, fun v hv => (hA.dset v hv).2, fun hn => ?_⟩
    cases hc : fixed none h with
    | none => have := (hA.dunset hn hc).1; rw [h1] at this; cases this
    | some c => exact ⟨c, by rw [fixed_snoc, hc]; rfl, (hA.dfix c hn hc).2⟩
  · obtain ⟨s1, x, e1, R1, S1, B1, _⟩ := text_run hA.reach i.content
    refine ⟨s1, { i with defaultValue := x, defaultValueSet := true }, by simp only [Area.fetchDefault, h1, if_true, e1, Out.bind_ok], ?_, S1, rfl,
      (fun v hv => by rw [h3] at hv; cases hv), fun _ => ⟨textAfter none h, by rw [fixed_snoc, h4, hf]; rfl, h5 ▸ B1⟩⟩
    have : i.refs = i.value.toList := by simp [Area.refs, h2]
    rw [plus_plus, this] at R1
    show Reach s1 (plus held ((x.toList ++ i.value.toList) ++ lost)) loose
    rw [List.append_assoc, swap]; exact R1

/-- One call keeps the invariant, and returns what it should. -/
theorem area_step (hA : AreaInv s held loose i h lost) (h0 : ∀ a ∈ o.arg, 0 < held a) (hS : Spare s) :
    ∃ s' i' r lost', i.run s o = .ok (s', i', r) ∧ AreaInv s' (plus held r.refs) loose i' (h ++ [o]) lost' ∧ Step s s' ∧ Returns s' h r o := by
  have room := hS.room hA.reach
  cases o with
  | setContent b =>
    refine ⟨s, { i with content := b }, .none, lost, rfl, ?_, Step.refl s, rfl⟩
    have hl : losses (h ++ [.setContent b]) = losses h ∧ fetches none (h ++ [.setContent b]) = fetches none h := by
      unfold losses
      cases hs : lastOf areaSets h with
      | none => rw [fetches_snoc hs]; simp [fetches]
      | some v => rw [fetches_set hs]; exact ⟨rfl, rfl⟩
    refine ⟨by show Reach s (plus (plus held []) _) loose; rw [plus_nil]; exact hA.reach, fun v hv => ?_, fun hn => ?_, fun v hv => ?_, fun c hn hc => ?_,
      fun hn hc => ?_, by rw [hl.1]; exact hA.lost⟩
    · rw [lastOf_snoc] at hv; exact hA.set v hv
    · rw [lastOf_snoc] at hn
      have := hA.unset hn
      exact ⟨this.1, by simp [textAfter, lastOf_snoc, areaText], by rw [hl.2]; exact this.2.2⟩
    · rw [lastOf_snoc] at hv; exact hA.dset v hv
    · rw [lastOf_snoc] at hn; rw [fixed_snoc] at hc
      exact hA.dfix c hn (by simpa [fixed] using hc)
    · rw [lastOf_snoc] at hn; rw [fixed_snoc] at hc
      exact hA.dunset hn (by simpa [fixed] using hc)
  | setDefaultValue v =>
    obtain ⟨s1, s2, e1, e2, R2, S2⟩ := replace_run (x := i.defaultValue) (y := v) (l := i.value.toList ++ lost)
      (by rw [← List.append_assoc]; exact hA.reach) h0 (by rw [← List.append_assoc]; exact room)
    refine ⟨s2, { i with defaultValue := v, defaultValueSet := true }, .none, lost, by simp only [Area.run, Area.setDefaultValue, e1, e2, Out.bind_ok], ?_, S2, rfl⟩
    have hl : fetches none (h ++ [.setDefaultValue v]) = fetches none h := by
      cases hs : lastOf areaSets h with
      | none => rw [fetches_snoc hs]; simp [fetches]
      | some v => rw [fetches_set hs]
    have hd : lastOf areaDefault (h ++ [.setDefaultValue v]) = some v := by rw [lastOf_snoc]; rfl
    refine ⟨?_, fun w hv => ?_, fun hn => ?_, fun w hv => ?_, fun c hn hc => ?_, fun hn hc => ?_, by unfold losses; rw [hl]; exact hA.lost⟩
    · show Reach s2 (plus (plus held []) ((v.toList ++ i.value.toList) ++ lost)) loose
      rw [plus_nil, List.append_assoc]; exact R2
    · rw [lastOf_snoc] at hv; exact hA.set w hv
    · rw [lastOf_snoc] at hn
      have := hA.unset hn
      refine ⟨this.1, ?_, by rw [hl]; exact this.2.2⟩
      rw [show textAfter none (h ++ [.setDefaultValue v]) = textAfter none h from by simp [textAfter, lastOf_snoc, areaText]]; exact this.2.1
    · rw [hd] at hv; cases hv; exact ⟨rfl, rfl⟩
    · rw [hd] at hn; cases hn
    · rw [hd] at hn; cases hn
  | getDefaultValue =>
    obtain ⟨s1, j, e1, R1, S1, hj, k1, k2⟩ := fetchDefault_run (o := .getDefaultValue) hA (fun _ => rfl) rfl
    have rj : ∀ a ∈ j.defaultValue, a ∈ j.refs ++ lost := fun a ha => List.mem_append_left _ (List.mem_append_left _ (Option.mem_toList.2 ha))
    have hj1 : j.valueSet = i.valueSet := by rw [hj]
    have hj2 : j.content = i.content := by rw [hj]
    have hj3 : j.value = i.value := by rw [hj]
    have hj4 : j.defaultValueSet = true := by rw [hj]
    have big : ∀ a, plus held (j.refs ++ lost) a + 1 < 4294967296 := by
      intro a
      rcases hA.dcases with q | ⟨q1, q2, _⟩
      · have : j = i := by simp [Area.fetchDefault, q] at e1; exact e1.2.symm
        rw [this]; have := room a; omega
      · have h1 := room a; have h2 := one_le j.defaultValue a
        simp only [plus, Area.refs, q2, hj3, List.count_append, Option.toList_none, List.count_nil] at h1 ⊢; omega
    obtain ⟨s2, e2, R2, S2⟩ := refOpt_run (x := j.defaultValue) R1 (fun a ha => by
      have := List.count_pos_iff.2 (rj a ha); simp only [plus]; omega) big
    rw [plus_plus, swap, ← plus_plus] at R2
    have up : ∀ a ∈ j.defaultValue, 0 < plus (plus held j.defaultValue.toList) (j.refs ++ lost) a := fun a ha => by
      have := List.count_pos_iff.2 (rj a ha); simp only [plus] at this ⊢; omega
    have hl : fetches none (h ++ [.getDefaultValue]) = fetches none h := by
      cases hs : lastOf areaSets h with
      | none => rw [fetches_snoc hs]; simp [fetches]
      | some v => rw [fetches_set hs]
    refine ⟨s2, j, .str j.defaultValue, lost, by simp only [Area.run, Area.getDefaultValue, e1, e2, Out.bind_ok], ?_, S1.trans hA.reach.inv S2,
      fun v hv => by rw [k1 v hv], fun hn => ?_⟩
    · refine ⟨R2, fun w hv => ?_, fun hn => ?_, fun w hv => ?_, fun c hn hc => ?_, fun hn hc => ?_, by unfold losses; rw [hl]; exact hA.lost⟩
      · rw [lastOf_snoc] at hv; rw [hj1, hj3]; exact hA.set w hv
      · rw [lastOf_snoc] at hn
        have := hA.unset hn
        refine ⟨hj1.trans this.1, ?_, by rw [hl, hj3]; exact this.2.2⟩
        rw [show textAfter none (h ++ [.getDefaultValue]) = textAfter none h from by simp [textAfter, lastOf_snoc, areaText], hj2]; exact this.2.1
      · rw [lastOf_snoc] at hv; exact ⟨hj4, k1 w hv⟩
      · rw [lastOf_snoc] at hn
        obtain ⟨c', q1, q2⟩ := k2 hn
        rw [hc] at q1; cases q1
        exact ⟨hj4, q2.keep R1 R2 S2 up⟩
      · rw [lastOf_snoc] at hn
        obtain ⟨c', q1, _⟩ := k2 hn
        rw [hc] at q1; cases q1
    · obtain ⟨c', q1, q2⟩ := k2 hn
      exact ⟨_, c', rfl, q1, q2.keep R1 R2 S2 up⟩
  | setValue v =>
    obtain ⟨s1, j, e1, R1, S1, hj, k1, k2⟩ := fetchDefault_run (o := .setValue v) hA (fun _ => rfl) rfl
    have hj3 : j.value = i.value := by rw [hj]
    have hj4 : j.defaultValueSet = true := by rw [hj]
    have per : ∀ y : Option Addr, plus held ((j.defaultValue.toList ++ y.toList) ++ lost) = plus held (y.toList ++ (j.defaultValue.toList ++ lost)) := fun y =>
      plus_perm (by rw [List.append_assoc, ← List.append_assoc]; rw [← List.append_assoc]; exact (List.perm_append_comm (l₁ := j.defaultValue.toList)).append_right _)
    have R1' : Reach s1 (plus held (j.value.toList ++ (j.defaultValue.toList ++ lost))) loose := by rw [← per]; exact R1
    obtain ⟨s2, e2, R2, S2⟩ := unrefOpt_run R1'
    have big : ∀ a, plus held (j.defaultValue.toList ++ lost) a + 1 < 4294967296 := by
      intro a
      have h1 := room a
      rcases hA.dcases with q | ⟨q1, q2, _⟩
      · have : j = i := by simp [Area.fetchDefault, q] at e1; exact e1.2.symm
        rw [this]; simp only [plus, Area.refs, List.count_append] at h1 ⊢; omega
      · have h2 := one_le j.defaultValue a
        simp only [plus, Area.refs, List.count_append] at h1 ⊢; omega
    obtain ⟨s3, e3, R3, S3⟩ := refOpt_run (x := v) R2 (fun a ha => le_plus held _ a (h0 a ha)) big
    rw [plus_plus, swap, ← per] at R3
    have S13 := S2.trans R1'.inv S3
    obtain ⟨b, eb⟩ : ∃ b, bytesOf s3 v = .ok b := by
      cases v with
      | none => exact ⟨none, rfl⟩
      | some a =>
        obtain ⟨t, ht⟩ := alive_bytes R3 (le_plus held _ a (h0 a rfl))
        exact ⟨some t, by simp only [bytesOf, ht, Out.bind_ok]⟩
    refine ⟨s3, { j with value := v, valueSet := true, content := b }, .none, lost, by simp only [Area.run, Area.setValue, e1, e2, e3, eb, Out.bind_ok], ?_,
      S1.trans hA.reach.inv S13, rfl⟩
    have hs : lastOf areaSets (h ++ [.setValue v]) = some v := by rw [lastOf_snoc]; rfl
    have hl : fetches none (h ++ [.setValue v]) = fetches none h := by
      cases hs : lastOf areaSets h with
      | none => rw [fetches_snoc hs]; simp [fetches]
      | some v => rw [fetches_set hs]
    refine ⟨?_, fun w hv => ?_, fun hn => ?_, fun w hv => ?_, fun c hn hc => ?_, fun hn hc => ?_, by unfold losses; rw [hl]; exact hA.lost⟩
    · show Reach s3 (plus (plus held []) _) loose
      rw [plus_nil]; exact R3
    · rw [hs] at hv; cases hv; exact ⟨rfl, rfl⟩
    · rw [hs] at hn; cases hn
    · rw [lastOf_snoc] at hv; exact ⟨hj4, k1 w hv⟩
    · rw [lastOf_snoc] at hn
      obtain ⟨c', q1, q2⟩ := k2 hn
      rw [hc] at q1; cases q1
      refine ⟨hj4, q2.keep R1 R3 S13 (fun a ha => ?_)⟩
      have : a ∈ (j.defaultValue.toList ++ v.toList) ++ lost := List.mem_append_left _ (List.mem_append_left _ (Option.mem_toList.2 ha))
      have := List.count_pos_iff.2 this
      simp only [plus]; omega
    · rw [lastOf_snoc] at hn
      obtain ⟨c', q1, _⟩ := k2 hn
      rw [hc] at q1; cases q1
  | getValue =>
    cases hs : lastOf areaSets h with
    | some w =>
      obtain ⟨q1, q2⟩ := hA.set w hs
      have rj : ∀ a ∈ i.value, a ∈ i.refs ++ lost := fun a ha => List.mem_append_left _ (List.mem_append_right _ (Option.mem_toList.2 ha))
      obtain ⟨s2, e2, R2, S2⟩ := refOpt_run (x := i.value) hA.reach (fun a ha => by
        have := List.count_pos_iff.2 (rj a ha); simp only [plus]; omega) (fun a => by have := room a; omega)
      rw [plus_plus, swap, ← plus_plus] at R2
      have up : ∀ a ∈ i.defaultValue, 0 < plus (plus held i.value.toList) (i.refs ++ lost) a := fun a ha => by
        have : a ∈ i.refs ++ lost := List.mem_append_left _ (List.mem_append_left _ (Option.mem_toList.2 ha))
        have := List.count_pos_iff.2 this; simp only [plus] at this ⊢; omega
      refine ⟨s2, i, .str i.value, lost, by simp [Area.run, Area.getValue, Area.fetchValue, q1, e2, Out.bind_ok], ?_, S2, fun v hv => ?_, fun hn => ?_⟩
      · have hl := fetches_set (c := none) hs .getValue
        have hf : ∃ c, fixed none h = some c := by
          cases hf : fixed none h with
          | none => have := fixed_none hf; rw [hs] at this; cases this
          | some c => exact ⟨c, rfl⟩
        obtain ⟨c0, hc0⟩ := hf
        refine ⟨R2, fun w hv => ?_, fun hn => ?_, fun w hv => ?_, fun c hn hc => ?_, fun hn hc => ?_, by unfold losses; rw [hl]; exact hA.lost⟩
        · rw [lastOf_snoc] at hv; exact hA.set w hv
        · rw [lastOf_snoc] at hn; rw [show (areaSets .getValue).or (lastOf areaSets h) = lastOf areaSets h from rfl, hs] at hn; cases hn
        · rw [lastOf_snoc] at hv; exact hA.dset w hv
        · rw [lastOf_snoc] at hn; rw [fixed_snoc, hc0] at hc; cases hc
          exact ⟨(hA.dfix _ hn hc0).1, hA.shows R2 S2 up hn hc0⟩
        · rw [fixed_snoc, hc0] at hc; cases hc
      · rw [hs] at hv; cases hv; rw [q2]
      · rw [hs] at hn; cases hn
    | none =>
      obtain ⟨q1, q2, q3⟩ := hA.unset hs
      obtain ⟨s1, x, e1, R1, S1, B1, L1⟩ := text_run hA.reach i.content
      have big : ∀ a, plus (plus held (i.refs ++ lost)) x.toList a + 1 < 4294967296 := fun a => by
        have h1 := room a; have h2 := one_le x a; simp only [plus] at h1 ⊢; omega
      obtain ⟨s2, e2, R2, S2⟩ := refOpt_run (x := x) R1 (fun a ha => by
        have := List.count_pos_iff.2 (Option.mem_toList.2 ha); simp only [plus]; omega) big
      let j : Area := { i with value := x, defaultValueSet := true }
      have R2' : Reach s2 (plus (plus held x.toList) (j.refs ++ (lost ++ i.value.toList))) loose := by
        have : plus (plus (plus held (i.refs ++ lost)) x.toList) x.toList = plus (plus held x.toList) (j.refs ++ (lost ++ i.value.toList)) := by
          funext a
          simp only [plus, Area.refs, List.count_append, j]; omega
        rw [← this]; exact R2
      have S12 := S1.trans hA.reach.inv S2
      have up : ∀ a ∈ i.defaultValue, 0 < plus (plus held x.toList) (j.refs ++ (lost ++ i.value.toList)) a := fun a ha => by
        have : a ∈ j.refs ++ (lost ++ i.value.toList) := List.mem_append_left _ (List.mem_append_left _ (Option.mem_toList.2 ha))
        have := List.count_pos_iff.2 this; simp only [plus] at this ⊢; omega
      have hl := fetches_snoc (c := none) hs .getValue
      have hl' : fetches (textAfter none h) [.getValue] = [x.isSome] := by rw [L1, q2]; rfl
      rw [hl'] at hl
      have ux : ∀ a ∈ x, 0 < plus (plus held x.toList) (j.refs ++ (lost ++ i.value.toList)) a := fun a ha => by
        have := List.count_pos_iff.2 (Option.mem_toList.2 ha); simp only [plus] at this ⊢; omega
      refine ⟨s2, j, .str x, lost ++ i.value.toList, by simp [Area.run, Area.getValue, Area.fetchValue, q1, e1, e2, Out.bind_ok, j], ?_, S12,
        fun v hv => ?_, fun _ => ⟨x, rfl, q2 ▸ B1.keep R1 R2' S2 ux⟩⟩
      · refine ⟨R2', fun w hv => ?_, fun hn => ?_, fun w hv => ?_, fun c hn hc => ?_, fun hn hc => ?_, ?_⟩
        · rw [lastOf_snoc, show (areaSets .getValue).or (lastOf areaSets h) = lastOf areaSets h from rfl, hs] at hv; cases hv
        · refine ⟨q1, ?_, by rw [hl]; simp [j]⟩
          rw [show textAfter none (h ++ [.getValue]) = textAfter none h from by simp [textAfter, lastOf_snoc, areaText]]; exact q2
        · rw [lastOf_snoc] at hv; exact ⟨rfl, (hA.dset w hv).2⟩
        · rw [lastOf_snoc] at hn; rw [fixed_snoc] at hc
          refine ⟨rfl, ?_⟩
          show Shows s2 i.defaultValue c
          cases hf : fixed none h with
          | some c0 => rw [hf] at hc; cases hc; exact hA.shows R2' S12 up hn hf
          | none => rw [hf] at hc; cases hc; exact (hA.dunset hn hf).2
        · rw [fixed_snoc] at hc; cases hf : fixed none h <;> rw [hf] at hc <;> cases hc
        · have h1 := hA.lost
          unfold losses at h1 ⊢
          rw [hl, List.dropLast_concat, List.length_append, h1]
          rcases List.eq_nil_or_concat (fetches none h) with hn | ⟨l, b, hb⟩
          · rw [hn] at q3 ⊢
            have : i.value = none := by simpa using q3
            simp [this]
          · rw [hb] at q3 ⊢
            have : i.value.isSome = b := by simpa using q3
            rw [List.concat_eq_append, List.dropLast_concat, List.count_append]
            cases hv : i.value <;> rw [hv] at this <;> simp at this <;> simp [← this]
      · rw [hs] at hv; cases hv

theorem AreaHist.sound (hH : AreaHist s held loose i h) : ∃ lost, AreaInv s held loose i h lost := by
  induction hH with
  | start hR => exact ⟨[], AreaInv.start hR⟩
  | @string s held loose i h c s' r _ ha hS e ih =>
    obtain ⟨lost, hA⟩ := ih
    have room := hS.room hA.reach
    obtain ⟨s1, r1, e1, R1, S1, _⟩ := step_of hA.reach (allowed_plus ha room)
    rw [e1] at e; cases e
    rw [heldAfter_plus ha] at R1
    refine ⟨lost, R1, hA.set, hA.unset, hA.dset, fun c hn hc => ⟨(hA.dfix c hn hc).1, ?_⟩, hA.dunset, hA.lost⟩
    have hx := (hA.dfix c hn hc).2
    cases c with
    | none => exact hx
    | some b =>
      obtain ⟨a, e, hb⟩ := hx
      refine ⟨a, e, Create.keep hA.reach R1 S1 hb ?_⟩
      have : a ∈ i.refs ++ lost := List.mem_append_left _ (List.mem_append_left _ (Option.mem_toList.2 e))
      have := List.count_pos_iff.2 this
      simp only [plus]; omega
  | op _ h0 hS e ih =>
    obtain ⟨lost, hA⟩ := ih
    obtain ⟨s1, i1, r1, lost', e1, A1, _⟩ := area_step hA h0 hS
    rw [e1] at e; cases e
    exact ⟨lost', A1⟩

/-! ## The theorems -/

/-- C72: after every history every call on a TEXTAREA element succeeds.  The value is what was set last, and a string with the text of the element when
nothing was set; the default value is what was set last, and a string with the text when it was fixed. -/
theorem C72_area_partial (hH : AreaHist s held loose i h) (h0 : ∀ a ∈ o.arg, 0 < held a) (hS : Spare s) :
    ∃ s' i' r, i.run s o = .ok (s', i', r) ∧ AreaHist s' (plus held r.refs) loose i' (h ++ [o]) ∧ Returns s' h r o ∧
      ∀ a t, 0 < plus held r.refs a → strBytes s a = .ok t → strBytes s' a = .ok t := by
  obtain ⟨lost, hA⟩ := hH.sound
  obtain ⟨s1, i1, r1, lost', e1, A1, S1, T1⟩ := area_step hA h0 hS
  exact ⟨s1, i1, r1, e1, hH.op h0 hS e1, T1, fun a t ha hb => keep hA.reach A1.reach S1 hb (le_plus _ _ a ha)⟩

/-- C72: when the element is destroyed the client's references are left and as many as were lost: none when there was no text at any of the calls of `getValue`
before the first of `setValue`, except the last of them. -/
theorem C72_area_finalise_partial (hH : AreaHist s held loose i h) :
    ∃ s' i' lost, i.finalise s = .ok (s', i') ∧ Reach s' (plus held lost) loose ∧ lost.length = losses h := by
  obtain ⟨lost, hA⟩ := hH.sound
  have hR := hA.reach
  unfold Area.refs at hR
  rw [List.append_assoc] at hR
  obtain ⟨s1, e1, R1, S1⟩ := unrefOpt_run (x := i.defaultValue) hR
  obtain ⟨s2, e2, R2, S2⟩ := unrefOpt_run (x := i.value) R1
  exact ⟨s2, _, lost, by simp only [Area.finalise, e1, e2, Out.bind_ok]; rfl, R2, hA.lost⟩

/-! ## Where the code deviates -/

/-- C72 violated: when the value of an element with text is asked for before anything else, its default value is `NULL` from then on. -/
theorem C72_area_default_violated (hH : AreaHist s held loose i (h ++ [.getValue])) (hd : lastOf areaDefault h = none) (hf : fixed none h = none)
    (hS : Spare s) : ∃ s' i', i.run s .getDefaultValue = .ok (s', i', .str none) := by
  obtain ⟨s1, i1, r1, e1, _, T1, _⟩ := C72_area_partial (o := .getDefaultValue) hH (fun _ h => nomatch h) hS
  obtain ⟨x, c, rfl, hc, hx⟩ := T1.2 (by rw [lastOf_snoc, hd]; rfl)
  rw [fixed_snoc, fixed_snoc, hf] at hc
  cases hc
  exact ⟨s1, i1, by rw [e1, show x = none from hx]⟩

/-- C72 violated: asking twice for the value of an element with text, before it is set, leaves a string that nobody can give back. -/
theorem C72_area_leak_violated (hH : AreaHist s held loose i (h ++ [.getValue, .getValue])) (hs : lastOf areaSets h = none) (ht : textAfter none h ≠ none) :
    ∃ s' i' a lost, i.finalise s = .ok (s', i') ∧ Reach s' (plus held (a :: lost)) loose := by
  obtain ⟨s1, i1, lost, e1, R1, L1⟩ := C72_area_finalise_partial hH
  cases lost with
  | cons a lost => exact ⟨s1, i1, a, lost, e1, R1⟩
  | nil =>
    exfalso
    have e2 : h ++ [.getValue, .getValue] = (h ++ [.getValue]) ++ [.getValue] := by simp
    have h1 : lastOf areaSets (h ++ [.getValue]) = none := by rw [lastOf_snoc, hs]; rfl
    rw [e2] at L1
    unfold losses at L1
    rw [fetches_snoc h1, fetches_snoc hs] at L1
    have : (textAfter none h).isSome = true := Option.isSome_iff_ne_none.2 ht
    simp [fetches, this, List.dropLast_append_of_ne_nil] at L1

/-! ## Concrete histories -/

/-- `Spare`, checked. -/
def spareB (s : Mem) : Bool := (List.range s.fresh).all fun a => ((s.strs a).map fun o : SObj => decide (o.refcnt + 8 < 4294967296)).getD true

theorem spare_of (hR : Reach s held loose) (hb : spareB s = true) : Spare s := by
  intro a o ho
  have := List.all_eq_true.1 hb a (List.mem_range.2 (hR.inv.bStr a o ho))
  simpa [ho] using this

/-- Calls on the element, with strings the client holds. -/
def playArea (s : Mem) (held : Addr → Nat) (i : Area) : List AreaOp → Option (Mem × (Addr → Nat) × Area)
  | [] => some (s, held, i)
  | o :: os =>
    if (o.arg.toList.all fun a => decide (0 < held a)) && spareB s then
      match i.run s o with
      | .ok (s', i', r) => playArea s' (plus held r.refs) i' os
      | _ => none
    else none

theorem playArea_hist {os : List AreaOp} {q : Mem × (Addr → Nat) × Area} (hH : AreaHist s held loose i h) (hp : playArea s held i os = some q) :
    AreaHist q.1 q.2.1 loose q.2.2 (h ++ os) := by
  induction os generalizing s held i h with
  | nil => cases hp; rw [List.append_nil]; exact hH
  | cons o os ih =>
    unfold playArea at hp
    split at hp
    · rename_i hc
      obtain ⟨c1, c2⟩ := Bool.and_eq_true_iff.1 hc
      split at hp
      · rename_i s' i' r e
        have h1 := hH.op (o := o) (fun a ha => by simpa using List.all_eq_true.1 c1 a (Option.mem_toList.2 ha)) (spare_of hH.sound.choose_spec.reach c2) e
        have := ih h1 hp
        rwa [List.append_assoc] at this
      · cases hp
    · cases hp

theorem exists_area (cs : List Call) (os : List AreaOp) (check : Mem → (Addr → Nat) → Area → Bool)
    (hc : ((run (Mem.empty, fun _ => 0, fun _ => 0) cs).any fun p => (playArea p.1 p.2.1 Area.init os).any fun q => check q.1 q.2.1 q.2.2 && spareB q.1) = true) :
    ∃ s held loose i, AreaHist s held loose i os ∧ Spare s ∧ check s held i = true := by
  obtain ⟨p, hp, h1⟩ := (Option.any_eq_true _ _).1 hc
  obtain ⟨q, hq, h2⟩ := (Option.any_eq_true _ _).1 h1
  have hR : Reach p.1 p.2.1 p.2.2 := run_reach (p := (Mem.empty, fun _ => 0, fun _ => 0)) Reach.start hp
  have := playArea_hist (AreaHist.start hR) hq
  obtain ⟨c1, c2⟩ := Bool.and_eq_true_iff.1 h2
  exact ⟨q.1, q.2.1, p.2.2, q.2.2, this, spare_of this.sound.choose_spec.reach c2, c1⟩

/-- The default value is asked for, the text changes, the value is asked for and then set. -/
def areaCalls : List AreaOp := [.setContent (some [120]), .getDefaultValue, .setContent (some [121]), .getValue, .setValue (some 0), .getValue]

/-- `C72_area_partial` and `C72_area_finalise_partial` apply to this history; nothing is lost in it. -/
example : ∃ s held loose i, AreaHist s held loose i areaCalls ∧ Spare s ∧ losses areaCalls = 0 ∧ lastOf areaSets areaCalls = some (some 0) ∧
    fixed none areaCalls = some (some [120]) ∧ held 0 = 2 ∧ strBytes s 0 = .ok [97] := by
  obtain ⟨s, held, loose, i, h1, h2, h3⟩ := exists_area strings areaCalls (fun s held _ => decide (losses areaCalls = 0 ∧
    lastOf areaSets areaCalls = some (some 0) ∧ fixed none areaCalls = some (some [120]) ∧ held 0 = 2 ∧ strBytes s 0 = .ok [97])) (by decide +kernel)
  exact ⟨s, held, loose, i, h1, h2, of_decide_eq_true h3⟩

/-- The deviations apply to an element with the text "x". -/
example : ∃ s held loose i, AreaHist s held loose i ([.setContent (some [120])] ++ [.getValue, .getValue]) ∧ Spare s ∧
    lastOf areaSets [.setContent (some [120])] = none ∧ lastOf areaDefault [.setContent (some [120])] = none ∧
    fixed none [.setContent (some [120])] = none ∧ textAfter none [.setContent (some [120])] = some [120] := by
  obtain ⟨s, held, loose, i, h1, h2, h3⟩ := exists_area strings ([.setContent (some [120])] ++ [.getValue, .getValue]) (fun _ _ _ => true) (by decide +kernel)
  exact ⟨s, held, loose, i, h1, h2, by decide +kernel⟩

end Dom.Html.Control
