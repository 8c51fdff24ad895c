import Verif.Html.Control
import Verif.Html.PropsDocument
/-!
# Claim C72: the value and the checkedness of an INPUT element
-/
set_option linter.unusedSimpArgs false
set_option linter.unusedVariables false
namespace Dom.Html.Control

open Dom.Intern
open Dom.Str (Bytes)
open Dom.Html.Create (refOpt unrefOpt plus plus_plus plus_nil plus_perm refOpt_run unrefOpt_run step_of keep le_plus new_run)

/-! ## What is claimed -/

/-- The last of the calls for which `f` gives something, in a list of calls with the oldest first. -/
def lastOf {α β : Type} (f : α → Option β) (h : List α) : Option β := (h.filterMap f).getLast?

/-- The first of them. -/
def firstOf {α β : Type} (f : α → Option β) (h : List α) : Option β := (h.filterMap f).head?

/-- The value a call sets. -/
def setsValue : Op → Option (Option Addr)
  | .setValue v => some v
  | _ => none

/-- The default value a call sets. -/
def setsDefault : Op → Option (Option Addr)
  | .setDefaultValue v => some v
  | _ => none

/-- The value a call gives to an attribute "value". -/
def writesValue : Op → Option (Option Addr)
  | .setAttribute n v => if isNamed n "value" then some v else none
  | _ => none

/-- The checkedness a call sets: a click checks. -/
def setsChecked : Op → Option Bool
  | .setChecked b => some b
  | .click => some true
  | _ => none

/-- The default checkedness a call sets. -/
def setsDefaultChecked : Op → Option Bool
  | .setDefaultChecked b => some b
  | _ => none

/-- A call that gives a value to an attribute "checked". -/
def writesChecked : Op → Option Unit
  | .setAttribute n _ => if isNamed n "checked" then some () else none
  | _ => none

/-- The default value after some calls: what was set last; if nothing was set, the first value of the attribute. -/
def defaultValueOf (h : List Op) : Option Addr := (lastOf setsDefault h).getD (firstOf writesValue h).join

/-- The value: what was set last, otherwise the default value. -/
def valueOf (h : List Op) : Option Addr := (lastOf setsValue h).getD (defaultValueOf h)

/-- The default checkedness: what was set last; if nothing was set, whether the attribute was given a value. -/
def defaultCheckedOf (h : List Op) : Bool := (lastOf setsDefaultChecked h).getD (firstOf writesChecked h).isSome

/-- The checkedness: what was set last, otherwise the default. -/
def checkedOf (h : List Op) : Bool := (lastOf setsChecked h).getD (defaultCheckedOf h)

/-- What a call returns after the calls `h`. -/
def answer (h : List Op) : Op → Ans
  | .getValue => .str (valueOf h)
  | .getDefaultValue => .str (defaultValueOf h)
  | .getChecked => .bool (checkedOf h)
  | .getDefaultChecked => .bool (defaultCheckedOf h)
  | _ => .none

/-- The string handed to a call. -/
def Op.arg : Op → Option Addr
  | .setValue v => v
  | .setDefaultValue v => v
  | .setAttribute _ v => v
  | _ => none

/-- The references a caller gets. -/
def Ans.refs : Ans → List Addr
  | .str v => v.toList
  | _ => []

/-- The references the element has. -/
def Input.refs (i : Input) : List Addr := i.defaultValue.toList ++ i.value.toList

/-- The histories of an element: a client with the references `held` makes calls on strings and on the element, with strings it holds, and no count comes
near 2^32. -/
inductive Hist : Mem → (Addr → Nat) → (Addr → Nat) → Input → List Op → Prop
  | start {s held loose} : Reach s held loose → Hist s held loose Input.init []
  | string {s held loose i h c s' r} : Hist s held loose i h → Allowed s held loose c → (∀ a, plus held i.refs a + 8 < 4294967296) →
      perform s c = .ok (s', r) → Hist s' (heldAfter held r c) (looseAfter loose r c) i h
  | op {s held loose i h o s' i' r} : Hist s held loose i h → (∀ a ∈ o.arg, 0 < held a) → (∀ a, plus held i.refs a + 8 < 4294967296) →
      i.run s o = .ok (s', i', r) → Hist s' (plus held r.refs) loose i' (h ++ [o])

/-! ## Steps -/

variable {s s' : Mem} {held loose : Addr → Nat} {i i' : Input} {h : List Op} {o : Op} {v : Option Addr}

theorem lastOf_snoc {α β : Type} (f : α → Option β) (h : List α) (o : α) : lastOf f (h ++ [o]) = (f o).or (lastOf f h) := by
  unfold lastOf
  cases hf : f o <;> simp [List.filterMap_append, hf]

theorem firstOf_snoc {α β : Type} (f : α → Option β) (h : List α) (o : α) : firstOf f (h ++ [o]) = (firstOf f h).or (f o) := by
  unfold firstOf
  cases hf : f o <;> simp [List.filterMap_append, hf]

/-- The client's calls on strings when others hold some too. -/
theorem allowed_plus {c : Call} {l : List Addr} (ha : Allowed s held loose c) (hroom : ∀ a, plus held l a + 8 < 4294967296) :
    Allowed s (plus held l) loose c := by
  have up := le_plus held l
  cases c with
  | create b => trivial
  | createInterned b => trivial
  | ref a => exact ⟨up a ha.1, by have := hroom a; omega⟩
  | unref a => exact up a ha
  | intern a => exact up a ha
  | lwcRef a => exact ha
  | lwcUnref a => exact ha
  | internBytes b => trivial
  | concat a b => exact ⟨up a ha.1, up b ha.2⟩
  | upper a => exact up a ha
  | lower a => exact ⟨up a ha.1, by have := hroom a; omega⟩
  | whitespace a op => exact ⟨up a ha.1, ha.2⟩

theorem upd_add (held : Addr → Nat) (l : List Addr) (r : Addr) : upd (plus held l) r (plus held l r + 1) = plus (upd held r (held r + 1)) l := by
  funext x
  by_cases hx : x = r
  · subst hx; rw [upd_same]; simp only [plus, upd_same]; omega
  · rw [upd_ne hx]; simp only [plus, upd_ne hx]

theorem heldAfter_plus {c : Call} {l : List Addr} {r : Addr} (ha : Allowed s held loose c) : heldAfter (plus held l) r c = plus (heldAfter held r c) l := by
  cases c with
  | unref a =>
    funext x
    have h0 : 0 < held a := ha
    show upd (plus held l) a (plus held l a - 1) x = plus (upd held a (held a - 1)) l x
    by_cases hx : x = a
    · subst hx; rw [upd_same]; simp only [plus, upd_same]; omega
    · rw [upd_ne hx]; simp only [plus, upd_ne hx]
  | intern a => rfl
  | lwcRef a => rfl
  | lwcUnref a => rfl
  | internBytes b => rfl
  | _ => exact upd_add held l r

/-- Replacing a string: the old one is given up, then a reference is taken on the new one. -/
theorem replace_run {x y : Option Addr} {l : List Addr} (hR : Reach s (plus held (x.toList ++ l)) loose) (h0 : ∀ a ∈ y, 0 < held a)
    (hroom : ∀ a, plus held (x.toList ++ l) a + 8 < 4294967296) : ∃ s1 s2, unrefOpt s x = .ok s1 ∧ refOpt s1 y = .ok s2 ∧
      Reach s2 (plus held (y.toList ++ l)) loose ∧ Step s s2 := by
  obtain ⟨s1, e1, R1, S1⟩ := unrefOpt_run hR
  obtain ⟨s2, e2, R2, S2⟩ := refOpt_run R1 (fun a ha => le_plus held l a (h0 a ha))
    (fun a => by have := hroom a; simp only [plus, List.count_append] at this ⊢; omega)
  refine ⟨s1, s2, e1, e2, ?_, S1.trans hR.inv S2⟩
  rw [plus_plus] at R2
  rw [plus_perm List.perm_append_comm]; exact R2

theorem swap (held : Addr → Nat) (l m : List Addr) : plus held (l ++ m) = plus held (m ++ l) := plus_perm List.perm_append_comm

/-- The state after a call, without the memory. -/
def Input.next (i : Input) : Op → Input
  | .setValue v => { i with value := v, valueSet := true }
  | .setDefaultValue v => { i with defaultValue := v, defaultValueSet := true }
  | .setChecked b => i.setChecked b
  | .setDefaultChecked b => i.setDefaultChecked b
  | .click => i.click
  | .setAttribute n v => if isNamed n "value" && i.defaultValueSet == false then
      { i.parseChecked n with defaultValue := v, defaultValueSet := true } else i.parseChecked n
  | _ => i

/-- What a call returns in a state. -/
def Input.says (i : Input) : Op → Ans
  | .getValue => .str (if i.valueSet then i.value else i.defaultValue)
  | .getDefaultValue => .str i.defaultValue
  | .getChecked => .bool (if i.checkedSet then i.checked else i.defaultChecked)
  | .getDefaultChecked => .bool i.defaultChecked
  | _ => .none

theorem parseChecked_strings (i : Input) (n : Bytes) : (i.parseChecked n).defaultValue = i.defaultValue ∧ (i.parseChecked n).value = i.value ∧
    (i.parseChecked n).defaultValueSet = i.defaultValueSet := by
  unfold Input.parseChecked; split_ifs <;> exact ⟨rfl, rfl, rfl⟩

/-- One call, in memory. -/
theorem run_step (hR : Reach s (plus held i.refs) loose) (hu : i.defaultValueSet = false → i.defaultValue = none) (h0 : ∀ a ∈ o.arg, 0 < held a)
    (hroom : ∀ a, plus held i.refs a + 8 < 4294967296) :
    ∃ s', i.run s o = .ok (s', i.next o, i.says o) ∧ Reach s' (plus (plus held (i.says o).refs) (i.next o).refs) loose ∧ Step s s' := by
  have quiet : ∀ {x : Option Addr}, (∀ a ∈ x, a ∈ i.refs) → ∃ s', refOpt s x = .ok s' ∧ Reach s' (plus (plus held x.toList) i.refs) loose ∧ Step s s' := by
    intro x hx
    obtain ⟨s1, e1, R1, S1⟩ := refOpt_run (x := x) hR (fun a ha => by
      have := List.count_pos_iff.2 (hx a ha); simp only [plus]; omega) (fun a => by have := hroom a; omega)
    rw [plus_plus, swap, ← plus_plus] at R1
    exact ⟨s1, e1, R1, S1⟩
  have hd : ∀ a ∈ i.defaultValue, a ∈ i.refs := fun a ha => List.mem_append_left _ (Option.mem_toList.2 ha)
  have hv : ∀ a ∈ i.value, a ∈ i.refs := fun a ha => List.mem_append_right _ (Option.mem_toList.2 ha)
  have idle : ∀ {j : Input}, j.refs = i.refs → Reach s (plus (plus held []) j.refs) loose := by
    intro j hj; rw [plus_nil, hj]; exact hR
  cases o with
  | setValue v =>
    obtain ⟨s1, s2, e1, e2, R2, S2⟩ := replace_run (x := i.value) (y := v) (l := i.defaultValue.toList) (by rw [swap]; exact hR) h0
      (by rw [swap]; exact hroom)
    refine ⟨s2, by simp only [Input.run, Input.setValue, e1, e2, Out.bind_ok]; rfl, ?_, S2⟩
    show Reach s2 (plus (plus held []) (i.defaultValue.toList ++ v.toList)) loose
    rw [plus_nil, swap]; exact R2
  | getValue =>
    cases hs : i.valueSet with
    | true =>
      obtain ⟨s1, e1, R1, S1⟩ := quiet hv
      refine ⟨s1, by simp [Input.run, Input.getValue, Input.says, Input.next, hs, e1, Out.bind_ok], ?_, S1⟩
      simp only [Input.says, hs, if_true]; exact R1
    | false =>
      obtain ⟨s1, e1, R1, S1⟩ := quiet hd
      refine ⟨s1, by simp [Input.run, Input.getValue, Input.getDefaultValue, Input.says, Input.next, hs, e1, Out.bind_ok], ?_, S1⟩
      simp only [Input.says, hs, Bool.false_eq_true, if_false]; exact R1
  | setDefaultValue v =>
    obtain ⟨s1, s2, e1, e2, R2, S2⟩ := replace_run (x := i.defaultValue) (y := v) (l := i.value.toList) hR h0 hroom
    refine ⟨s2, by simp only [Input.run, Input.setDefaultValue, e1, e2, Out.bind_ok]; rfl, ?_, S2⟩
    show Reach s2 (plus (plus held []) (v.toList ++ i.value.toList)) loose
    rw [plus_nil]; exact R2
  | getDefaultValue =>
    obtain ⟨s1, e1, R1, S1⟩ := quiet hd
    exact ⟨s1, by simp only [Input.run, Input.getDefaultValue, e1, Out.bind_ok]; rfl, R1, S1⟩
  | setChecked b => exact ⟨s, rfl, idle rfl, Step.refl s⟩
  | getChecked => exact ⟨s, rfl, idle rfl, Step.refl s⟩
  | setDefaultChecked b => exact ⟨s, rfl, idle rfl, Step.refl s⟩
  | getDefaultChecked => exact ⟨s, rfl, idle rfl, Step.refl s⟩
  | click => exact ⟨s, rfl, idle rfl, Step.refl s⟩
  | setAttribute n v =>
    obtain ⟨p1, p2, p3⟩ := parseChecked_strings i n
    have tail : ∀ {s1 : Mem} {j : Input}, Reach s1 (plus held j.refs) loose → (∀ a, plus held j.refs a + 2 < 4294967296) →
        ∃ s2 s3, refOpt s1 v = .ok s2 ∧ unrefOpt s2 v = .ok s3 ∧ Reach s3 (plus held j.refs) loose ∧ Step s1 s3 := by
      intro s1 j R1 room
      obtain ⟨s2, e2, R2, S2⟩ := refOpt_run R1 (fun a ha => le_plus held _ a (h0 a ha)) (fun a => by have := room a; omega)
      rw [plus_plus, swap] at R2
      obtain ⟨s3, e3, R3, S3⟩ := unrefOpt_run R2
      exact ⟨s2, s3, e2, e3, R3, S2.trans R1.inv S3⟩
    by_cases hc : (isNamed n "value" && i.defaultValueSet == false) = true
    · have hn : i.defaultValue = none := hu (by simpa using (Bool.and_eq_true_iff.1 hc).2)
      have hi : i.refs = i.value.toList := by simp [Input.refs, hn]
      obtain ⟨s1, e1, R1, S1⟩ := refOpt_run hR (x := v) (fun a ha => le_plus held _ a (h0 a ha)) (fun a => by have := hroom a; omega)
      let j : Input := { i.parseChecked n with defaultValue := v, defaultValueSet := true }
      have hj : j.refs = v.toList ++ i.value.toList := by show v.toList ++ (i.parseChecked n).value.toList = _; rw [p2]
      rw [plus_plus, swap, hi, ← hj] at R1
      have cnt : ∀ a, v.toList.count a ≤ 1 := fun a => by cases v <;> simp [List.count_singleton]; split_ifs <;> omega
      obtain ⟨s2, s3, e2, e3, R3, S3⟩ := tail R1 (fun a => by
        have h1 := hroom a; have h2 := cnt a; rw [hi] at h1; rw [hj]; simp only [plus, List.count_append] at h1 ⊢; omega)
      refine ⟨s3, ?_, ?_, S1.trans hR.inv S3⟩
      · have hc' := hc; rw [← p3] at hc'
        simp only [Input.run, Input.setAttribute, Input.parseValue, Input.next, Input.says, if_pos hc, if_pos hc', e1, e2, e3, Out.bind_ok]
      · simp only [Input.next, if_pos hc]
        show Reach s3 (plus (plus held []) j.refs) loose
        rw [plus_nil]; exact R3
    · have hj : (i.parseChecked n).refs = i.refs := by simp only [Input.refs, p1, p2]
      obtain ⟨s2, s3, e2, e3, R3, S3⟩ := tail (j := i) hR (fun a => by have := hroom a; omega)
      refine ⟨s3, ?_, ?_, S3⟩
      · have hc' := hc; rw [← p3] at hc'
        simp only [Input.run, Input.setAttribute, Input.parseValue, Input.next, Input.says, if_neg hc, if_neg hc', e2, e3, Out.bind_ok]
      · simp only [Input.next, if_neg hc]
        show Reach s3 (plus (plus held []) (i.parseChecked n).refs) loose
        rw [plus_nil, hj]; exact R3

/-- The fields after some calls. -/
structure Follows (i : Input) (h : List Op) : Prop where
  value : i.value = (lastOf setsValue h).join
  valueSet : i.valueSet = (lastOf setsValue h).isSome
  default : i.defaultValue = defaultValueOf h
  defaultSet : i.defaultValueSet = ((lastOf setsDefault h).isSome || (firstOf writesValue h).isSome)
  checked : i.checked = (lastOf setsChecked h).getD false
  checkedSet : i.checkedSet = (lastOf setsChecked h).isSome
  defaultChecked : i.defaultChecked = defaultCheckedOf h
  defaultCheckedSet : i.defaultCheckedSet = ((lastOf setsDefaultChecked h).isSome || (firstOf writesChecked h).isSome)

theorem Follows.unset (hF : Follows i h) (hs : i.defaultValueSet = false) : i.defaultValue = none := by
  have h1 := hF.defaultSet; rw [hs] at h1
  have h2 := Bool.or_eq_false_iff.1 h1.symm
  rw [hF.default, defaultValueOf, Option.isSome_eq_false_iff.1 h2.1 |> Option.isNone_iff_eq_none.1, Option.isSome_eq_false_iff.1 h2.2 |> Option.isNone_iff_eq_none.1]
  rfl

theorem Follows.says (hF : Follows i h) (o : Op) : i.says o = answer h o := by
  cases o with
  | getValue =>
    simp only [Input.says, answer, valueOf, hF.value, hF.valueSet, hF.default]
    cases lastOf setsValue h <;> rfl
  | getChecked =>
    simp only [Input.says, answer, checkedOf, hF.checked, hF.checkedSet, hF.defaultChecked]
    cases lastOf setsChecked h <;> rfl
  | getDefaultValue => simp only [Input.says, answer, hF.default]
  | getDefaultChecked => simp only [Input.says, answer, hF.defaultChecked]
  | _ => rfl

theorem Follows.start : Follows Input.init [] := by constructor <;> rfl

theorem Follows.next (hF : Follows i h) (o : Op) : Follows (i.next o) (h ++ [o]) := by
  obtain ⟨f1, f2, f3, f4, f5, f6, f7, f8⟩ := hF
  unfold defaultValueOf at f3
  unfold defaultCheckedOf at f7
  cases o with
  | setAttribute n v =>
    cases c1 : isNamed n "value" <;> cases c2 : isNamed n "checked" <;> cases d1 : lastOf setsDefault h <;> cases d2 : firstOf writesValue h <;>
      cases d3 : lastOf setsDefaultChecked h <;> cases d4 : firstOf writesChecked h <;>
      simp only [d1, d2, d3, d4] at f3 f4 f7 f8 <;>
      (constructor <;> simp [Input.next, Input.parseChecked, defaultValueOf, defaultCheckedOf, lastOf_snoc, firstOf_snoc, setsValue, setsDefault, writesValue,
        setsChecked, setsDefaultChecked, writesChecked, c1, c2, d1, d2, d3, d4, f1, f2, f3, f4, f5, f6, f7, f8])
  | _ => constructor <;> simp [Input.next, Input.setChecked, Input.setDefaultChecked, Input.click, defaultValueOf, defaultCheckedOf, lastOf_snoc, firstOf_snoc,
      setsValue, setsDefault, writesValue, setsChecked, setsDefaultChecked, writesChecked, f1, f2, f3, f4, f5, f6, f7, f8]

theorem Hist.sound (hH : Hist s held loose i h) : Reach s (plus held i.refs) loose ∧ Follows i h := by
  induction hH with
  | start hR => exact ⟨by show Reach _ (plus _ []) _; rw [plus_nil]; exact hR, Follows.start⟩
  | string _ ha hroom e ih =>
    refine ⟨?_, ih.2⟩
    rw [← heldAfter_plus ha]
    exact ih.1.call (allowed_plus ha hroom) e
  | op _ h0 hroom e ih =>
    obtain ⟨s1, e1, R1, _⟩ := run_step ih.1 ih.2.unset h0 hroom
    rw [e1] at e; cases e
    exact ⟨R1, ih.2.next _⟩

/-! ## The theorems -/

/-- C72: after every history every call on an INPUT element succeeds, and what it returns is the value, default value, checkedness or default checkedness of
that history, with a reference for the caller on a string; the strings held before and after keep their bytes. -/
theorem C72_input (hH : Hist s held loose i h) (h0 : ∀ a ∈ o.arg, 0 < held a) (hroom : ∀ a, plus held i.refs a + 8 < 4294967296) :
    ∃ s' i', i.run s o = .ok (s', i', answer h o) ∧ Hist s' (plus held (answer h o).refs) loose i' (h ++ [o]) ∧
      ∀ a t, 0 < plus (plus held (answer h o).refs) i'.refs a → strBytes s a = .ok t → strBytes s' a = .ok t := by
  obtain ⟨hR, hF⟩ := hH.sound
  obtain ⟨s1, e1, R1, S1⟩ := run_step hR hF.unset h0 hroom
  rw [hF.says] at e1 R1
  exact ⟨s1, i.next o, e1, hH.op h0 hroom e1, fun a t ha hb => keep hR R1 S1 hb ha⟩

/-- C72: when the element is destroyed exactly the client's references are left. -/
theorem C72_input_finalise (hH : Hist s held loose i h) : ∃ s' i', i.finalise s = .ok (s', i') ∧ Reach s' held loose := by
  obtain ⟨hR, _⟩ := hH.sound
  obtain ⟨s1, e1, R1, S1⟩ := unrefOpt_run (x := i.defaultValue) hR
  obtain ⟨s2, e2, R2, S2⟩ := unrefOpt_run (x := i.value) (l := []) (by rw [List.append_nil]; exact R1)
  rw [plus_nil] at R2
  exact ⟨s2, _, by simp only [Input.finalise, e1, e2, Out.bind_ok]; rfl, R2⟩

/-- C72: a copy has references of its own, and calls on it return what they return for the original. -/
theorem C72_input_copy (hH : Hist s held loose i h) (hroom : ∀ a, plus held i.refs a + 16 < 4294967296) :
    ∃ s' j, i.copy s = .ok (s', j) ∧ Reach s' (plus (plus held i.refs) j.refs) loose ∧ j.refs = i.refs ∧
      ∀ o : Op, (∀ a ∈ o.arg, 0 < held a) → ∃ s'' j', j.run s' o = .ok (s'', j', answer h o) := by
  obtain ⟨hR, hF⟩ := hH.sound
  have pos : ∀ a ∈ i.refs, 0 < plus held i.refs a := fun a ha => by have := List.count_pos_iff.2 ha; simp only [plus]; omega
  have one : ∀ (x : Option Addr) a, x.toList.count a ≤ 1 := fun x a => by cases x <;> simp [List.count_singleton]; split_ifs <;> omega
  obtain ⟨s1, e1, R1, S1⟩ := refOpt_run (x := i.defaultValue) hR (fun a ha => pos a (List.mem_append_left _ (Option.mem_toList.2 ha)))
    (fun a => by have := hroom a; omega)
  obtain ⟨s2, e2, R2, S2⟩ := refOpt_run (x := i.value) R1
    (fun a ha => le_plus _ _ a (pos a (List.mem_append_right _ (Option.mem_toList.2 ha))))
    (fun a => by have h1 := hroom a; have h2 := one i.defaultValue a; simp only [plus] at h1 ⊢; omega)
  rw [plus_plus] at R2
  refine ⟨s2, i, by simp only [Input.copy, e1, e2, Out.bind_ok], R2, rfl, fun o h0 => ?_⟩
  obtain ⟨s3, e3, _, _⟩ := run_step (o := o) R2 hF.unset (fun a ha => le_plus _ _ a (h0 a ha)) (fun a => by
    have h1 := hroom a; have h2 := one i.defaultValue a; have h3 := one i.value a
    simp only [plus, Input.refs, List.count_append] at h1 ⊢; omega)
  rw [hF.says] at e3
  exact ⟨s3, _, e3⟩

/-! ## Concrete histories -/

theorem refs_le (i : Input) (a : Addr) : i.refs.count a ≤ 2 := by
  refine Nat.le_trans List.count_le_length ?_
  unfold Input.refs
  cases i.defaultValue <;> cases i.value <;> simp

theorem ans_le (r : Ans) (a : Addr) : r.refs.count a ≤ 1 := by
  refine Nat.le_trans List.count_le_length ?_
  cases r with
  | str v => cases v <;> simp [Ans.refs]
  | _ => simp [Ans.refs]

theorem run_le {cs : List Call} {p q : Mem × (Addr → Nat) × (Addr → Nat)} {n : Nat} (hp : ∀ a, p.2.1 a ≤ n) (hr : run p cs = some q) :
    ∀ a, q.2.1 a ≤ n + cs.length := by
  induction cs generalizing p n with
  | nil => cases hr; exact hp
  | cons c cs ih =>
    unfold run at hr
    split at hr
    · split at hr
      · rename_i s' r _
        have step : ∀ a, heldAfter p.2.1 r c a ≤ n + 1 := by
          intro a
          have h1 := hp a
          have up : ∀ x k, k ≤ n + 1 → upd p.2.1 x k a ≤ n + 1 := by
            intro x k hk
            by_cases hx : a = x
            · subst hx; rw [upd_same]; exact hk
            · rw [upd_ne hx]; omega
          cases c with
          | unref x => exact up x _ (by have := hp x; omega)
          | intern x => exact Nat.le_succ_of_le h1
          | lwcRef x => exact Nat.le_succ_of_le h1
          | lwcUnref x => exact Nat.le_succ_of_le h1
          | internBytes b => exact Nat.le_succ_of_le h1
          | _ => exact up r _ (by have := hp r; omega)
        intro a
        have := ih step hr a
        simp only [List.length_cons]; omega
      · cases hr
    · cases hr

/-- Calls on the element, with strings the client holds. -/
def play (s : Mem) (held : Addr → Nat) (i : Input) : List Op → Option (Mem × (Addr → Nat) × Input)
  | [] => some (s, held, i)
  | o :: os =>
    if (o.arg.toList.all fun a => decide (0 < held a)) then
      match i.run s o with
      | .ok (s', i', r) => play s' (plus held r.refs) i' os
      | _ => none
    else none

theorem play_hist {os : List Op} {n : Nat} {q : Mem × (Addr → Nat) × Input} (hH : Hist s held loose i h) (hn : ∀ a, held a ≤ n)
    (hk : n + os.length + 10 < 4294967296) (hp : play s held i os = some q) : Hist q.1 q.2.1 loose q.2.2 (h ++ os) := by
  induction os generalizing s held i h n with
  | nil => cases hp; rw [List.append_nil]; exact hH
  | cons o os ih =>
    unfold play at hp
    split at hp
    · rename_i hc
      split at hp
      · rename_i s' i' r e
        have h1 := hH.op (o := o) (fun a ha => by simpa using List.all_eq_true.1 hc a (Option.mem_toList.2 ha))
          (fun a => by have h2 := hn a; have h3 := refs_le i a; simp only [plus]; omega) e
        have := ih h1 (n := n + 1) (fun a => by have h2 := hn a; have h3 := ans_le r a; simp only [plus]; omega)
          (by simp only [List.length_cons] at hk; omega) hp
        rwa [List.append_assoc] at this
      · cases hp
    · cases hp

theorem exists_hist (cs : List Call) (os : List Op) (check : Mem → (Addr → Nat) → Input → Bool) (hk : cs.length + os.length + 10 < 4294967296)
    (hc : ((run (Mem.empty, fun _ => 0, fun _ => 0) cs).any fun p => (play p.1 p.2.1 Input.init os).any fun q => check q.1 q.2.1 q.2.2) = true) :
    ∃ s held loose i, Hist s held loose i os ∧ check s held i = true := by
  obtain ⟨p, hp, h1⟩ := (Option.any_eq_true _ _).1 hc
  obtain ⟨q, hq, h2⟩ := (Option.any_eq_true _ _).1 h1
  have hR : Reach p.1 p.2.1 p.2.2 := run_reach (p := (Mem.empty, fun _ => 0, fun _ => 0)) Reach.start hp
  have := play_hist (Hist.start hR) (run_le (n := 0) (fun _ => Nat.le_refl _) hp) (by omega) hq
  exact ⟨q.1, q.2.1, p.2.2, q.2.2, this, h2⟩

/-- "value" and "checked" as names of attributes. -/
def nameValue : Bytes := [118, 97, 108, 117, 101]
def nameChecked : Bytes := [99, 104, 101, 99, 107, 101, 100]

/-- Strings "a" (0), "b" (2) and "c" (4). -/
def strings : List Call := [.create [97], .create [98], .create [99]]

/-- The attributes are set, then the value, twice with the same string, and a new value of the attribute is given. -/
def calls : List Op := [.setAttribute nameValue (some 0), .setAttribute nameChecked (some 2), .getValue, .setValue (some 2), .setValue (some 2),
  .setAttribute nameValue (some 4), .setChecked false, .getDefaultValue]

/-- `C72_input`, `C72_input_finalise`, `C72_input_copy` and the theorems below apply to this history. -/
example : ∃ s held loose i, Hist s held loose i calls ∧ held 0 = 3 ∧ held 2 = 1 ∧ valueOf calls = some 2 ∧ defaultValueOf calls = some 0 ∧
    checkedOf calls = false ∧ defaultCheckedOf calls = true ∧ strBytes s 2 = .ok [98] := by
  obtain ⟨s, held, loose, i, h1, h2⟩ := exists_hist strings calls (fun s held _ => decide (held 0 = 3 ∧ held 2 = 1 ∧ valueOf calls = some 2 ∧
    defaultValueOf calls = some 0 ∧ checkedOf calls = false ∧ defaultCheckedOf calls = true ∧ strBytes s 2 = .ok [98])) (by decide) (by decide +kernel)
  exact ⟨s, held, loose, i, h1, of_decide_eq_true h2⟩

/-! ## Where the code deviates -/

/-- Two calls, one after the other. -/
theorem twice {o o' : Op} (hH : Hist s held loose i h) (h0 : ∀ a ∈ o.arg, 0 < held a) (h0' : ∀ a ∈ o'.arg, 0 < held a) (hr : (answer h o).refs = [])
    (hroom : ∀ a, held a + 10 < 4294967296) : ∃ s1 i1 s2 i2, i.run s o = .ok (s1, i1, answer h o) ∧
      i1.run s1 o' = .ok (s2, i2, answer (h ++ [o]) o') := by
  obtain ⟨s1, i1, e1, H1, _⟩ := C72_input hH h0 (fun a => by have h1 := hroom a; have h2 := refs_le i a; simp only [plus]; omega)
  rw [hr, plus_nil] at H1
  obtain ⟨s2, i2, e2, _⟩ := C72_input H1 h0' (fun a => by have h1 := hroom a; have h2 := refs_le i1 a; simp only [plus]; omega)
  exact ⟨s1, i1, s2, i2, e1, e2⟩

/-- C72 violated: the default value does not follow the attribute.  Once it was set, or the attribute was given a value, a new value of the attribute does
not change the default value that is returned. -/
theorem C72_default_value_violated {n : Bytes} (hH : Hist s held loose i h) (hn : isNamed n "value" = true) (h0 : ∀ a ∈ v, 0 < held a)
    (hset : (lastOf setsDefault h).isSome = true ∨ (firstOf writesValue h).isSome = true) (hroom : ∀ a, held a + 10 < 4294967296) :
    ∃ s1 i1 s2 i2, i.run s (.setAttribute n v) = .ok (s1, i1, .none) ∧
      i1.run s1 .getDefaultValue = .ok (s2, i2, .str (defaultValueOf h)) := by
  obtain ⟨s1, i1, s2, i2, e1, e2⟩ := twice (o := .setAttribute n v) (o' := .getDefaultValue) hH h0 (fun _ h => nomatch h) rfl hroom
  refine ⟨s1, i1, s2, i2, e1, e2.trans ?_⟩
  have : defaultValueOf (h ++ [.setAttribute n v]) = defaultValueOf h := by
    simp only [defaultValueOf, lastOf_snoc, firstOf_snoc, setsDefault, writesValue, hn, if_true]
    rcases hset with h1 | h1 <;> obtain ⟨x, hx⟩ := Option.isSome_iff_exists.1 h1 <;> simp [hx]
  simp only [answer, this]

/-- C72 violated: a click on a checked element leaves it checked, also when it is a checkbox. -/
theorem C72_click_violated (hH : Hist s held loose i h) (hroom : ∀ a, held a + 10 < 4294967296) :
    ∃ s1 i1 s2 i2, i.run s .click = .ok (s1, i1, .none) ∧ i1.run s1 .getChecked = .ok (s2, i2, .bool true) := by
  obtain ⟨s1, i1, s2, i2, e1, e2⟩ := twice (o := .click) (o' := .getChecked) hH (fun _ h => nomatch h) (fun _ h => nomatch h) rfl hroom
  refine ⟨s1, i1, s2, i2, e1, e2.trans ?_⟩
  simp [answer, checkedOf, lastOf_snoc, setsChecked]

end Dom.Html.Control
