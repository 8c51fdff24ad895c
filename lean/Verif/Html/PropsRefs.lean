import Verif.Html.RefsSelect
import Verif.Tree.PropsEdit
/-!
# C82: references in the functions of tables and selections
-/
set_option linter.unusedSimpArgs false
set_option linter.unusedVariables false
namespace Dom.Html.Refs
open Dom.Str (DStr asciiLower contents)
open Dom.Tree (World NodeId Node M Children Sound WF Core Room DocKept Clean count Grants Held getNode deref throwIf bound appendChild insertBefore removeChild ref unref AncSelf ReadOnly bind_ok bind_exc bind_fault get_bind Cut Severed Ledger Op IsType kidsOf plain Below NotAttrOf Client Careful Act at_ at_elim allB allB_elim exists_careful)
open Dom.Html.Table (trName tdName theadName tbodyName tfootName captionName newElement tagged childOf Shape sections tableRows place)

variable {u w w' v v' : World} {ch ch' : Children} {t x y s d j new p : NodeId} {n dn sn nn tn pn : Node} {led : Ledger}

theorem caption_data : captionName.data.map asciiLower = "caption".toUTF8.toList := by decide +kernel
theorem td_data : tdName.data.map asciiLower = "td".toUTF8.toList := by decide +kernel

/-! ## What a client does -/

/-- The three children of a table that have functions of their own. -/
inductive Part
  | caption | head | foot

def Part.tag : Part → DStr
  | .caption => captionName
  | .head => theadName
  | .foot => tfootName

def Part.name : Part → String
  | .caption => "caption"
  | .head => "thead"
  | .foot => "tfoot"

theorem Part.data (k : Part) : k.tag.data.map asciiLower = k.name.toUTF8.toList := by
  cases k
  · exact caption_data
  · exact Table.thead_data
  · exact Table.tfoot_data

/-- The functions of tables and selections besides those of `Op`. -/
inductive Step
  | op (a : Op)
  | insertRowIn (s : NodeId) (i : Int)
  | deleteRowIn (s : NodeId) (i : Int)
  | insertCell (s : NodeId) (i : Int)
  | deleteCell (s : NodeId) (i : Int)
  | get (k : Part) (t : NodeId)
  | create (k : Part) (t : NodeId)
  | delete (k : Part) (t : NodeId)
  | createBody (t : NodeId)
  | insertRow (t : NodeId) (i : Int)
  | deleteRow (t : NodeId) (i : Int)
  | addOption (s x : NodeId) (before : Option NodeId)
  | removeOption (s : NodeId) (i : Int)

/-- A function that returns a node. -/
def giving (m : M NodeId) : M (Option NodeId) := do
  let r ← m
  pure (some r)

/-- Do it; the result is the node to which the client gets a reference. -/
def Step.run : Step → M (Option NodeId)
  | .op a => a.run
  | .insertRowIn s i => giving (Refs.sectionInsertRow s i)
  | .deleteRowIn s i => plain (Refs.sectionDeleteRow s i)
  | .insertCell s i => giving (Refs.insertCell s i)
  | .deleteCell s i => plain (Refs.deleteCell s i)
  | .get k t => getChild k.tag t
  | .create .head t => giving (Refs.createTHead t)
  | .create k t => giving (createChild k.tag t)
  | .delete k t => plain (deleteChild k.tag t)
  | .createBody t => giving (createTBody t)
  | .insertRow t i => giving (Refs.insertRow t i)
  | .deleteRow t i => plain (Refs.deleteRow t i)
  | .addOption s x before => plain (selectAdd s x before)
  | .removeOption s i => plain (selectRemove s i)

/-- The nodes the client passes. -/
def Step.args : Step → List NodeId
  | .op a => a.args
  | .insertRowIn s _ | .deleteRowIn s _ | .insertCell s _ | .deleteCell s _ | .get _ s | .create _ s | .delete _ s | .createBody s | .insertRow s _ | .deleteRow s _ | .removeOption s _ => [s]
  | .addOption s x before => s :: x :: before.toList

/-- The ledger after the client did `a` and was returned `r`. -/
def Step.book (led : Ledger) : Step → Option NodeId → Ledger
  | .op a, r => a.book led r
  | _, r => fun j => led j + if r = some j then 1 else 0

/-- An element whose document is referenced; no count overflows. -/
def Usable (w : World) (t : NodeId) : Prop := IsType w t .element ∧ DocKept w t ∧ Spacious w ∧ w.fresh < 2147483630

/-- No node below `t` leaves a referenced node with siblings behind when it is destroyed (see `Act.Fine`). -/
def Loose (w : World) (t : NodeId) : Prop := ∀ y, Below (kidsOf w) t y → count w y = 0 → Clean w y

/-- The cases where the code is at fault are left out, and no count overflows:
* those of `Op.Fine`;
* collections below an element without children that has a next sibling (`C53_empty_section_violated`);
* the document of the element is not referenced, or something below it leaves stale links behind when it is destroyed;
* tables with rows but without head or foot, for `insert_row` (`C53_no_head_violated`);
* tables with rows outside of the sections, for `delete_row` (`C82_delete_row_leak_violated`);
* an option whose parent is not an element. -/
def Step.Fine (w : World) : Step → Prop
  | .op a => a.Typed w ∧ a.Fine w
  | .insertRowIn s _ | .insertCell s _ | .createBody s => Usable w s ∧ Closed w (kidsOf w) s
  | .deleteRowIn s _ | .deleteCell s _ => Usable w s ∧ Closed w (kidsOf w) s ∧ Loose w s
  | .get _ t | .create _ t => Usable w t
  | .delete _ t => Usable w t ∧ Loose w t
  | .insertRow t _ => Usable w t ∧ Closed w (kidsOf w) t ∧ SectionsClosed w (kidsOf w) t ∧
      (tagList w (kidsOf w) trName t ≠ [] → (∃ c ∈ kidsOf w t, tagged w "thead" c = true) ∧ ∃ c ∈ kidsOf w t, tagged w "tfoot" c = true)
  | .deleteRow t _ => Usable w t ∧ Closed w (kidsOf w) t ∧ Loose w t ∧ ∃ hd bodies ft, Shape w (kidsOf w) t hd bodies ft
  | .addOption s x before => IsType w x .element ∧ Spacious w ∧ ∀ c, before = some c → NotAttrOf w s c
  | .removeOption s _ => Usable w s ∧ Closed w (kidsOf w) s ∧ Loose w s ∧ isOption w s = false ∧ ∀ y ∈ options w (kidsOf w) s, ∀ p, y ∈ kidsOf w p → IsType w p .element

/-- The client passes only nodes it has references to, and avoids the cases where the code is at fault. -/
def Mindful (led : Ledger) (w : World) (a : Step) : Prop := (∀ x ∈ a.args, 0 < led x) ∧ a.Fine w

/-- The histories of such a client. -/
inductive Author : Ledger → World → Prop
  | start : Author (fun _ => 0) World.empty
  | done {led : Ledger} {w w' : World} {r : Option NodeId} (a : Step) : Author led w → Mindful led w a → a.run w = .ok w' r → Author (a.book led r) w'
  | refused {led : Ledger} {w w' : World} {e : Exc} (a : Step) : Author led w → Mindful led w a → a.run w = .exc w' e → Author led w'

/-! ## Each step -/

/-- The function returned; a reference to the node that it returned has been made, and no other reference made or lost. -/
def Returns (w : World) (res : Tree.Res (Option NodeId)) : Prop := ∃ w' ch', Sound w' ch' ∧
  ((∃ r, res = .ok w' r ∧ ∀ j, count w' j = count w j + if r = some j then 1 else 0) ∨ ∃ e, res = .exc w' e ∧ ∀ j, count w' j = count w j)

theorem one_eq (x j : NodeId) : one x j = if some x = some j then 1 else 0 := by
  by_cases h : j = x
  · subst h; rw [one_self, if_pos rfl]
  · rw [one_ne h, if_neg (fun h' => h (by simpa using h'.symm))]

theorem giving_ok {m : M NodeId} {r : NodeId} (S : Sound w' ch') (h : m w = .ok w' r) (hc : ∀ j, count w' j = count w j + one r j) : Returns w (giving m w) := by
  refine ⟨w', ch', S, .inl ⟨some r, ?_, fun j => by rw [hc, one_eq]⟩⟩
  unfold giving
  rw [bind_ok h]; rfl

theorem giving_exc {m : M NodeId} {e : Exc} (S : Sound w' ch') (h : m w = .exc w' e) (hc : ∀ j, count w' j = count w j) : Returns w (giving m w) :=
  ⟨w', ch', S, .inr ⟨e, bind_exc h _, hc⟩⟩

theorem plain_ok {m : M Unit} (S : Sound w' ch') (h : m w = .ok w' ()) (hc : ∀ j, count w' j = count w j) : Returns w (plain m w) := by
  refine ⟨w', ch', S, .inl ⟨none, ?_, fun j => by rw [hc]; simp⟩⟩
  unfold plain
  rw [bind_ok h]; rfl

theorem plain_exc {m : M Unit} {e : Exc} (S : Sound w' ch') (h : m w = .exc w' e) (hc : ∀ j, count w' j = count w j) : Returns w (plain m w) :=
  ⟨w', ch', S, .inr ⟨e, bind_exc h _, hc⟩⟩

theorem Inserts.returns {m : M NodeId} {tag : DStr} {i : Int} (S : Sound w ch) (h : Inserts w ch tag s i (m w)) : Returns w (giving m w) := by
  obtain ⟨h1, h2, h3⟩ := h
  by_cases hb : i < -1 ∨ (tagList w ch tag s).length < i
  · exact giving_exc (Sound_bump S) (h1 hb) (fun _ => rfl)
  · have ha : -1 ≤ i := by omega
    have hl : i ≤ (tagList w ch tag s).length := by omega
    by_cases hc : ∃ c, target (tagList w ch tag s) i = some c ∧ c ∉ ch s
    · exact giving_exc (Sound_bump S) (h2 ha hl hc) (fun _ => rfl)
    · obtain ⟨n, d, w', ch', _, _, e, P⟩ := h3 ha hl (fun c hc' => by by_contra hn; exact hc ⟨c, hc', hn⟩)
      exact giving_ok P.sound e P.counts

theorem Deletes.returns {m : M Unit} {tag : DStr} {i : Int} (S : Sound w ch) (hl : ∀ y ∈ ch s, count w y = 0 → Clean w y) (h : Deletes w ch tag s i (m w)) : Returns w (plain m w) := by
  obtain ⟨h1, h2⟩ := h
  cases hp : pick (tagList w ch tag s) i with
  | none => exact plain_exc S (h1 hp) (fun _ => rfl)
  | some y =>
    obtain ⟨g1, g2⟩ := h2 y hp
    by_cases hy : y ∈ ch s
    · obtain ⟨w', ch', e, C⟩ := g2 hy (hl y hy)
      exact plain_ok C.sound e C.counts
    · exact plain_exc S (g1 hy) (fun _ => rfl)

theorem Creates.returns {m : M NodeId} {tag : DStr} {name : String} (h : Creates w ch tag name t (m w)) : Returns w (giving m w) := by
  obtain ⟨h1, h2⟩ := h
  cases hf : (ch t).find? (tagged w name) with
  | some y =>
    obtain ⟨w', e, S', _, c⟩ := h1 y hf
    exact giving_ok S' e c
  | none =>
    obtain ⟨n, d, w', ch', _, _, e, P⟩ := h2 hf
    exact giving_ok P.sound e P.counts

theorem find_some {l : List NodeId} {f : NodeId → Bool} (h : ∃ c ∈ l, f c = true) : l.find? f ≠ none := by
  obtain ⟨c, hc, hf⟩ := h
  intro h
  have := List.find?_eq_none.1 h c hc
  exact this hf

/-- Every step of such a client returns, keeps the invariant, and the counts change as the ledger does. -/
theorem step_run (S : Sound w ch) (hl : ∀ j, count w j = led j) {a : Step} (h : Mindful led w a) :
    ∃ w' ch', Sound w' ch' ∧ ((∃ r, a.run w = .ok w' r ∧ ∀ j, count w' j = a.book led r j) ∨ ∃ e, a.run w = .exc w' e ∧ ∀ j, count w' j = led j) := by
  obtain ⟨hargs, hf⟩ := h
  have hkids := Tree.kids_eq S.wf.toCore
  have settle : (∀ r, a.book led r = fun j => led j + if r = some j then 1 else 0) → Returns w (a.run w) →
      ∃ w' ch', Sound w' ch' ∧ ((∃ r, a.run w = .ok w' r ∧ ∀ j, count w' j = a.book led r j) ∨ ∃ e, a.run w = .exc w' e ∧ ∀ j, count w' j = led j) := by
    rintro hb ⟨w', ch', S', ⟨r, h1, h2⟩ | ⟨e, h1, h2⟩⟩
    · exact ⟨w', ch', S', .inl ⟨r, h1, fun j => by rw [h2, hl, hb]⟩⟩
    · exact ⟨w', ch', S', .inr ⟨e, h1, fun j => by rw [h2, hl]⟩⟩
  have hlive : ∀ x ∈ a.args, ∃ n, w.nodes x = some n ∧ 0 < n.refcnt := by
    intro x hx
    have h1 := hargs x hx
    rw [← hl x] at h1
    unfold count at h1
    cases h2 : w.nodes x with
    | none => rw [h2] at h1; exact absurd h1 (by simp)
    | some n => rw [h2] at h1; exact ⟨n, rfl, h1⟩
  have loose : ∀ {t : NodeId}, Loose w t → ∀ y, Below ch t y → count w y = 0 → Clean w y := by
    intro t h y hy
    rw [hkids] at hy
    exact h y hy
  have child : ∀ {t : NodeId}, Loose w t → ∀ y ∈ ch t, count w y = 0 → Clean w y := fun h y hy => loose h y (.single hy)
  cases a with
  | op a => exact S.op hl ⟨hargs, hf.1, hf.2⟩
  | insertRowIn s i =>
    obtain ⟨⟨_, hk, hr, hfr⟩, hc⟩ := hf
    rw [← hkids] at hc
    exact settle (fun _ => rfl) (Inserts.returns S (sectionInsertRow_run S hc hk hr.roomy (by omega) i))
  | deleteRowIn s i =>
    obtain ⟨⟨_, hk, hr, hfr⟩, hc, hlo⟩ := hf
    rw [← hkids] at hc
    exact settle (fun _ => rfl) (Deletes.returns S (child hlo) (sectionDeleteRow_run S hc hk hr.roomy (by omega) i))
  | insertCell s i =>
    obtain ⟨⟨_, hk, hr, hfr⟩, hc⟩ := hf
    rw [← hkids] at hc
    exact settle (fun _ => rfl) (Inserts.returns S (insertCell_run S hc hk hr.roomy (by omega) i))
  | deleteCell s i =>
    obtain ⟨⟨_, hk, hr, hfr⟩, hc, hlo⟩ := hf
    rw [← hkids] at hc
    exact settle (fun _ => rfl) (Deletes.returns S (child hlo) (deleteCell_run S hc hk hr.roomy (by omega) i))
  | get k t =>
    obtain ⟨⟨tn, ht, htt⟩, hk, hr, hfr⟩ := hf
    obtain ⟨h1, h2⟩ := getChild_run S ht hr.roomy k.data
    refine settle (fun _ => rfl) ?_
    cases hfd : (ch t).find? (tagged w k.name) with
    | none => exact ⟨w, ch, S, .inl ⟨none, h1 hfd, fun j => by simp⟩⟩
    | some y =>
      obtain ⟨v, e, S', _, c⟩ := h2 y hfd
      exact ⟨v, ch, S', .inl ⟨some y, e, fun j => by rw [c, one_eq]⟩⟩
  | create k t =>
    obtain ⟨⟨tn, ht, htt⟩, hk, hr, hfr⟩ := hf
    refine settle (fun _ => rfl) ?_
    cases k with
    | caption => exact Creates.returns (createChild_run S ht htt hk hr.roomy caption_data)
    | head => exact Creates.returns (createTHead_run S ht htt hk hr.roomy)
    | foot => exact Creates.returns (createChild_run S ht htt hk hr.roomy Table.tfoot_data)
  | delete k t =>
    obtain ⟨⟨⟨tn, ht, htt⟩, hk, hr, hfr⟩, hlo⟩ := hf
    obtain ⟨h1, h2⟩ := deleteChild_run S ht htt hk hr.roomy k.data
    refine settle (fun _ => rfl) ?_
    cases hfd : (ch t).find? (tagged w k.name) with
    | none => exact plain_ok S (h1 hfd) (fun _ => rfl)
    | some y =>
      obtain ⟨w', ch', e, C⟩ := h2 y hfd (child hlo y (List.mem_of_find?_eq_some hfd))
      exact plain_ok C.sound e C.counts
  | createBody t =>
    obtain ⟨⟨_, hk, hr, hfr⟩, hc⟩ := hf
    rw [← hkids] at hc
    obtain ⟨h1, h2⟩ := createTBody_run S hc hk hr.roomy (by omega)
    refine settle (fun _ => rfl) ?_
    cases hl : tagList w ch tbodyName t with
    | nil =>
      obtain ⟨n, d, w', ch', _, _, e, P⟩ := h2 hl
      exact giving_ok P.sound e P.counts
    | cons y l =>
      obtain ⟨w', e, S', _, c⟩ := h1 y (by rw [hl]; rfl)
      exact giving_ok S' e c
  | insertRow t i =>
    obtain ⟨⟨⟨tn, ht, htt⟩, hk, hr, hfr⟩, hc, hcl, hex⟩ := hf
    rw [← hkids] at hc hcl hex
    obtain ⟨h1, h2, h3⟩ := insertRow_run S hc hk hr hfr hcl i
    refine settle (fun _ => rfl) ?_
    by_cases hb : i < -1 ∨ (tagList w ch trName t).length < i
    · exact giving_exc S (h1 hb) (fun _ => rfl)
    · have ha : -1 ≤ i := by omega
      have hle : i ≤ (tagList w ch trName t).length := by omega
      by_cases he : tagList w ch trName t = []
      · obtain ⟨n, d, _, _, g1, g2⟩ := h2 ha hle he
        cases hl : tagList w ch tbodyName t with
        | nil =>
          obtain ⟨w', ch', e, P⟩ := g2 hl
          exact giving_ok P.sound e P.counts
        | cons y l =>
          obtain ⟨w', ch', e, P⟩ := g1 y (by rw [hl]; rfl)
          exact giving_ok P.sound e P.counts
      · have A := h3 ha hle he
        obtain ⟨x1, x2⟩ := hex he
        have x1 := find_some x1
        have x2 := find_some x2
        generalize hres : insertRow t i w = res at A
        cases A with
        | null h => exact absurd h (by simp [x1, x2])
        | missed => exact giving_exc S hres (fun _ => rfl)
        | done hs hP =>
          obtain ⟨k, hP⟩ := hP
          rw [← hres] at hP
          exact Inserts.returns S hP
  | deleteRow t i =>
    obtain ⟨⟨⟨tn, ht, htt⟩, hk, hr, hfr⟩, hc, hlo, hd, bodies, ft, hT⟩ := hf
    rw [← hkids] at hc hT
    refine settle (fun _ => rfl) ?_
    have hlist := Shape.list hT
    by_cases hb : -1 ≤ i ∧ i < (Table.secRows w ch t).length ∧ Table.secRows w ch t ≠ []
    · obtain ⟨y, hy, h⟩ := deleteRow_shape S hT hc hk hr hfr hb.1 hb.2.1 hb.2.2
      have hyb : Below ch t y := by
        have h1 : y ∈ Table.secRows w ch t := List.mem_of_getElem? hy
        rw [← hlist] at h1
        obtain ⟨_, _, _, hb, _⟩ := tag_mem S hc (by omega) h1
        exact hb
      obtain ⟨w', ch', e, C, _⟩ := h (loose hlo y hyb)
      exact plain_ok C.sound e C.counts
    · have hp : pick (tagList w ch trName t) i = none := by
        rw [hlist]
        unfold pick
        by_cases h1 : i = -1
        · rw [if_pos h1, List.getLast?_eq_none_iff]
          by_contra h2
          have h3 : (Table.secRows w ch t).length ≠ 0 := by simpa using h2
          exact hb ⟨by omega, by omega, h2⟩
        · rw [if_neg h1]
          by_cases h2 : i < 0
          · rw [if_pos h2]
          · rw [if_neg h2, List.getElem?_eq_none_iff]
            by_contra h3
            exact hb ⟨by omega, by omega, by intro h4; rw [h4] at h3; simp at h3⟩
      exact plain_exc S ((deleteRow_run S hc hk hr hfr (Shape.closed hT) i).1 hp) (fun _ => rfl)
  | addOption s x before =>
    obtain ⟨⟨n, hx, hxt⟩, hr, hb⟩ := hf
    obtain ⟨n', hx', hxr⟩ := hlive x (by simp [Step.args])
    rw [hx] at hx'; cases hx'
    have h1 : count w x < 4294967200 := hr x
    rw [Tree.count_eq hx] at h1
    obtain ⟨w', ch', S', e | ⟨e, he⟩, c⟩ := selectAdd_run (before := before) S (hlive s (by simp [Step.args])) hx hxt hxr (by omega) hb
    · exact settle (fun _ => rfl) (plain_ok S' e c)
    · exact settle (fun _ => rfl) (plain_exc S' he c)
  | removeOption s i =>
    obtain ⟨⟨⟨sn, hs, hst⟩, hk, hr, hfr⟩, hc, hlo, hno, hpar⟩ := hf
    rw [← hkids] at hc hpar
    refine settle (fun _ => rfl) ?_
    obtain ⟨h1, h2⟩ := selectRemove_run S hc hk hr.roomy (by omega) hno i
    by_cases hb : i < 0 ∨ (options w ch s).length ≤ i
    · exact plain_ok S (h1 hb) (fun _ => rfl)
    · have hlt : i.toNat < (options w ch s).length := by omega
      have hget := List.getElem?_eq_getElem hlt
      generalize (options w ch s)[i.toNat] = y at hget
      obtain ⟨ym, hym, _, hyb, hyo⟩ := (col_total S hc (isOption w) (by omega)).2.2.2 y (List.mem_of_getElem? hget)
      have hys : y ≠ s := by rintro rfl; rw [hno] at hyo; cases hyo
      obtain ⟨q, _, hq⟩ := below_split hyb hys
      obtain ⟨qn, hqn, hqt⟩ := hpar y (List.mem_of_getElem? hget) q hq
      obtain ⟨w', ch', e, C⟩ := h2 y q qn (by omega) hget hq hqn hqt (loose hlo y hyb)
      exact plain_ok C.sound e C.counts

theorem Author.sound (h : Author led w) : ∃ ch, Sound w ch ∧ ∀ j, count w j = led j := by
  induction h with
  | start => exact ⟨_, .empty, fun j => rfl⟩
  | done a _ hc hr ih =>
    obtain ⟨ch, S, hl⟩ := ih
    obtain ⟨w', ch', S', ⟨r, h1, h2⟩ | ⟨e, h1, _⟩⟩ := step_run S hl hc
    · rw [hr] at h1; cases h1; exact ⟨ch', S', h2⟩
    · rw [hr] at h1; cases h1
  | refused a _ hc hr ih =>
    obtain ⟨ch, S, hl⟩ := ih
    obtain ⟨w', ch', S', ⟨r, h1, h2⟩ | ⟨e, h1, h2⟩⟩ := step_run S hl hc
    · rw [hr] at h1; cases h1
    · rw [hr] at h1; cases h1; exact ⟨ch', S', h2⟩

/-! ## The properties -/

/-- **C82**: a node to which the client has a reference is in memory, and its reference count is the number of references of the client: the functions of tables and selections
return one reference each to the node that they return, and keep none. -/
theorem C82_references_partial (h : Author led w) (hj : 0 < led j) : ∃ n, w.nodes j = some n ∧ n.refcnt = led j := by
  obtain ⟨ch, S, hl⟩ := h.sound
  have h1 := hl j
  unfold count at h1
  cases h2 : w.nodes j with
  | none => rw [h2] at h1; dsimp only at h1; omega
  | some n => rw [h2] at h1; exact ⟨n, rfl, h1⟩

/-- **C82**: no fault.  Missing: the cases that `Step.Fine` leaves out, and `set_caption`, `set_t_head`, `set_t_foot` (`C82_set_violated`). -/
theorem C82_no_fault_partial (h : Author led w) {a : Step} (ha : Mindful led w a) (f : Fault) : a.run w ≠ .fault f := by
  obtain ⟨ch, S, hl⟩ := h.sound
  obtain ⟨w', ch', _, ⟨r, h1, _⟩ | ⟨e, h1, _⟩⟩ := step_run S hl ha <;> rw [h1] <;> exact fun h => nomatch h

/-- **C82**: when the client has given up all its references nothing is in memory: the functions leak nothing. -/
theorem C82_no_leak_partial (h : Author led w) (hz : ∀ j, led j = 0) : ∀ j, w.nodes j = none := by
  obtain ⟨ch, S, hl⟩ := h.sound
  have hC := S.wf.toCore
  intro j
  cases hj : w.nodes j with
  | none => rfl
  | some n =>
    have hz' : ∀ i m, w.nodes i = some m → m.refcnt = 0 := fun i m hi => by rw [← Tree.count_eq hi, hl, hz]
    obtain ⟨r, rn, _, h2, h3⟩ := Tree.exists_root hC hj
    by_cases ht : rn.type = .document
    · obtain ⟨hf, i, m, h4, h5, h6⟩ := S.docs r rn h2 ht (hz' r rn h2)
      obtain ⟨q, qn, _, g1, g2, _, g4⟩ := Tree.root_of hC h2 ht hf h4 h5 h6
      have := S.held q qn g1 g2 g4
      have := hz' q qn g1
      omega
    · have := S.held r rn h2 h3 ht
      have := hz' r rn h2
      omega

/-! ## What the functions do -/

/-- **C82**: `dom_html_table_section_element_insert_row` puts a new TR before the row with the index, or at the end; the reference that the caller gets is the only one to it; a refusal
leaves everything as it is.  Missing: sections without children that have a next sibling, and a document that is not referenced. -/
theorem C82_section_insert_partial (S : Sound w ch) (hx : Closed w ch s) (hk : DocKept w s) (hr : Roomy w) (hf : w.fresh < 2147483640) (index : Int) :
    Inserts w ch trName s index (sectionInsertRow s index w) := sectionInsertRow_run S hx hk hr hf index

/-- **C82**: the same for `dom_html_table_row_element_insert_cell`. -/
theorem C82_insert_cell_partial (S : Sound w ch) (hx : Closed w ch s) (hk : DocKept w s) (hr : Roomy w) (hf : w.fresh < 2147483640) (index : Int) :
    Inserts w ch tdName s index (insertCell s index w) := insertCell_run S hx hk hr hf index

/-- **C82**: `dom_html_table_section_element_delete_row` takes the row with the index out and frees it unless a reference to it is held; a refusal leaves everything as it is. -/
theorem C82_section_delete_partial (S : Sound w ch) (hx : Closed w ch s) (hk : DocKept w s) (hr : Roomy w) (hf : w.fresh < 2147483640) (index : Int) :
    Deletes w ch trName s index (sectionDeleteRow s index w) := sectionDeleteRow_run S hx hk hr hf index

/-- **C82**: the same for `dom_html_table_row_element_delete_cell`. -/
theorem C82_delete_cell_partial (S : Sound w ch) (hx : Closed w ch s) (hk : DocKept w s) (hr : Roomy w) (hf : w.fresh < 2147483640) (index : Int) :
    Deletes w ch tdName s index (deleteCell s index w) := deleteCell_run S hx hk hr hf index

/-- **C82**: `dom_html_table_element_create_caption`, `create_t_head` and `create_t_foot` return the first such child with one more reference, or a new one at the end, to which the
caller's reference is the only one. -/
theorem C82_create (S : Sound w ch) (ht : w.nodes t = some tn) (htt : tn.type = .element) (hk : DocKept w t) (hr : Roomy w) :
    Creates w ch captionName "caption" t (createChild captionName t w) ∧ Creates w ch theadName "thead" t (createTHead t w) ∧
    Creates w ch tfootName "tfoot" t (createChild tfootName t w) :=
  ⟨createChild_run S ht htt hk hr caption_data, createTHead_run S ht htt hk hr, createChild_run S ht htt hk hr Table.tfoot_data⟩

/-- **C82**: `dom_html_table_element_delete_caption`, `delete_t_head` and `delete_t_foot` take the first such child out, if there is one, and free it unless a reference to it is held. -/
theorem C82_delete (S : Sound w ch) (ht : w.nodes t = some tn) (htt : tn.type = .element) (hk : DocKept w t) (hr : Roomy w) (k : Part) :
    ((∀ c ∈ ch t, tagged w k.name c = false) → deleteChild k.tag t w = .ok w ()) ∧
    ∀ a b y, ch t = a ++ y :: b → (∀ c ∈ a, tagged w k.name c = false) → tagged w k.name y = true → (count w y = 0 → Clean w y) →
      ∃ w' ch', deleteChild k.tag t w = .ok w' () ∧ Cut w ch [y] w' ch' := by
  obtain ⟨h1, h2⟩ := deleteChild_run S ht htt hk hr k.data
  refine ⟨fun h => h1 (List.find?_eq_none.2 fun c hc => by rw [h c hc]; simp), fun a b y hab ha hy hcl => h2 y ?_ hcl⟩
  rw [hab, List.find?_append, List.find?_eq_none.2 (fun c hc => by rw [ha c hc]; simp), List.find?_cons_of_pos hy]
  rfl

/-- **C82**: `dom_html_table_element_create_t_body` returns the first body below the table with one more reference, or a new one at the end. -/
theorem C82_create_body_partial (S : Sound w ch) (hx : Closed w ch t) (hk : DocKept w t) (hr : Roomy w) (hf : w.fresh < 2147483640) : GivesBody w ch t (createTBody t w) :=
  createTBody_run S hx hk hr hf

/-- **C82**: in a table of the usual shape `dom_html_table_element_insert_row` puts a new row at the place that is asked for among the rows of the table; the reference that the caller
gets is the only one to it, and no other reference is made or lost. -/
theorem C82_insert_row_partial {hd : NodeId} {bodies : List NodeId} {ft : Option NodeId} (S : Sound w ch) (hT : Shape w ch t hd bodies ft) (ht : IsType w t .element) (hk : DocKept w t)
    (hr : Spacious w) (hf : w.fresh < 2147483630) {i : Int} (h0 : -1 ≤ i) (h1 : i ≤ (tableRows w ch t).length) (h2 : tableRows w ch t ≠ []) :
    ∃ w' ch' row a b, insertRow t i w = .ok w' row ∧ Sound w' ch' ∧ Shape w' ch' t hd bodies ft ∧ w.nodes row = none ∧
      tableRows w ch t = a ++ b ∧ a.length = place i (tableRows w ch t).length ∧ tableRows w' ch' t = a ++ row :: b ∧
      (∀ j, count w' j = count w j + if j = row then 1 else 0) ∧
      ∀ j m, w.nodes j = some m → ∃ m', w'.nodes j = some m' ∧ m'.data = m.data ∧ m'.parent = m.parent := by
  obtain ⟨tn, ht, htt⟩ := ht
  rw [hT.spec] at h1 h2 ⊢
  obtain ⟨w', ch', s, n, d, r, a, b, e, _, P, _, _, hT', g1, g2, g3⟩ := insertRow_shape S hT ⟨tn, ht, htt, .inl hT.nonempty⟩ hk hr hf h0 h1 h2
  refine ⟨w', ch', w.fresh, a, b, e, P.sound, hT', P.dead, g1, g2, by rw [hT'.spec]; exact g3, fun j => ?_, fun j m hj => ?_⟩
  · rw [P.counts j]; unfold one; rfl
  · obtain ⟨m', q1, q2, _, q3⟩ := P.kept j m hj
    exact ⟨m', q1, q2, q3⟩

/-- **C82**: in a table of the usual shape `dom_html_table_element_delete_row` takes out the row that is asked for, frees it unless a reference to it is held, and neither makes nor
loses a reference. -/
theorem C82_delete_row_partial {hd : NodeId} {bodies : List NodeId} {ft : Option NodeId} (S : Sound w ch) (hT : Shape w ch t hd bodies ft) (ht : IsType w t .element) (hk : DocKept w t)
    (hr : Spacious w) (hf : w.fresh < 2147483630) {i : Int} (h0 : -1 ≤ i) (h1 : i < (tableRows w ch t).length) (h2 : tableRows w ch t ≠ []) :
    ∃ y, (tableRows w ch t)[place i ((tableRows w ch t).length - 1)]? = some y ∧ ((count w y = 0 → Clean w y) →
      ∃ w' ch', deleteRow t i w = .ok w' () ∧ Cut w ch [y] w' ch' ∧ (sections w' ch' t).flatMap (fun s => (ch' s).filter (tagged w' "tr")) = (tableRows w ch t).filter (fun c => decide (c ≠ y))) := by
  obtain ⟨tn, ht, htt⟩ := ht
  rw [hT.spec] at h1 h2 ⊢
  exact deleteRow_shape S hT ⟨tn, ht, htt, .inl hT.nonempty⟩ hk hr hf h0 h1 h2

/-- **C82**: `dom_html_select_element_remove` takes out the option with the index and frees it unless a reference to it is held; with an index out of range nothing happens. -/
theorem C82_remove_option_partial (S : Sound w ch) (hx : Closed w ch s) (hk : DocKept w s) (hr : Roomy w) (hf : w.fresh < 2147483640) (hno : isOption w s = false) (index : Int) :
    (index < 0 ∨ (options w ch s).length ≤ index → selectRemove s index w = .ok w ()) ∧
    ∀ y p, 0 ≤ index → (options w ch s)[index.toNat]? = some y → y ∈ ch p → IsType w p .element → (count w y = 0 → Clean w y) →
      ∃ w' ch', selectRemove s index w = .ok w' () ∧ Cut w ch [y] w' ch' := by
  obtain ⟨h1, h2⟩ := selectRemove_run S hx hk hr hf hno index
  exact ⟨h1, fun y p h0 hy hp ⟨pn, hpn, hpt⟩ hc => h2 y p pn h0 hy hp hpn hpt hc⟩

/-! ## A concrete case -/

theorem Author.of_client (h : Client Careful led w) : Author led w := by
  induction h with
  | start => exact .start
  | done a _ hc hr ih => exact .done (.op (.act a)) ih ⟨hc.1.1, hc.1.2, hc.2⟩ hr
  | refused a _ hc hr ih => exact .refused (.op (.act a)) ih ⟨hc.1.1, hc.1.2, hc.2⟩ hr

def elem (name : String) : Act := .call (.createNode 0 .element (some (Names.lit name)) none)

/-- The table of `Table.sample` and a selection (11) with two options (12, 13); the client gives up its references to the row 7. -/
def runActs82 : List Act :=
  Table.sample.map .call ++ [elem "SELECT", elem "OPTION", elem "OPTION", .call (.appendChild 11 12), .call (.appendChild 11 13), .unref 7, .unref 7]

/-- Nothing referenced has an unreferenced parent. -/
def tightB (w : World) : Bool := allB w fun m => decide (m.refcnt = 0) || m.parent.all fun p => at_ w p fun k => decide (k.refcnt ≠ 0)

theorem loose_of_tightB (hb : ∀ i n, w.nodes i = some n → i < w.fresh) (h : tightB w = true) (t : NodeId) : Loose w t := by
  intro y _ hy c n ⟨q, m, hd, hc, hp, hr⟩ hn
  exfalso
  have h1 := allB_elim hb h hc
  rw [hp] at h1
  simp only [Option.all_some, Bool.or_eq_true, decide_eq_true_eq] at h1
  obtain ⟨k, hk, hk0⟩ := at_elim (h1.resolve_left hr)
  have hk0 := of_decide_eq_true hk0
  apply hk0
  cases hd with
  | self => rw [← Tree.count_eq hk]; exact hy
  | down _ h2 _ h3 => rw [h2] at hk; cases hk; exact h3

def usableB (w : World) (t : NodeId) : Bool := at_ w t (fun n => n.type = .element && n.owner = some 0) && at_ w 0 (fun n => decide (0 < n.refcnt)) && allB w (fun m => decide (m.refcnt < 100)) && decide (w.fresh < 100)

theorem usable_of_usableB (hb : ∀ i n, w.nodes i = some n → i < w.fresh) (h : usableB w t = true) : Usable w t := by
  unfold usableB at h
  simp only [Bool.and_eq_true] at h
  obtain ⟨⟨⟨h1, h2⟩, h3⟩, h4⟩ := h
  obtain ⟨n, hn, e1⟩ := at_elim h1
  obtain ⟨d, hd, e2⟩ := at_elim h2
  simp only [Bool.and_eq_true, decide_eq_true_eq] at e1 e2 h4
  refine ⟨⟨n, hn, e1.1⟩, fun m d' dm k1 k2 k3 => ?_, fun j => ?_, Nat.lt_trans h4 (by omega)⟩
  · rw [hn] at k1; cases k1
    have e : 0 = d' := by rw [e1.2] at k2; simpa using k2
    subst e
    rw [hd] at k3; cases k3; exact e2
  · cases hj : w.nodes j with
    | none => unfold count; rw [hj]; show 0 < 4294967200; omega
    | some m =>
      have := of_decide_eq_true (allB_elim hb h3 hj)
      rw [Tree.count_eq hj]; omega

/-- The hypotheses are met: in this memory the client may call all the functions of tables and selections. -/
theorem sample82 : ∃ led w, Author led w ∧ Mindful led w (.insertRow 1 3) ∧ Mindful led w (.deleteRow 1 2) ∧ Mindful led w (.insertRowIn 6 1) ∧ Mindful led w (.deleteRowIn 6 0) ∧
    Mindful led w (.create .caption 1) ∧ Mindful led w (.createBody 1) ∧ Mindful led w (.delete .head 1) ∧ Mindful led w (.addOption 11 13 (some 12)) ∧ Mindful led w (.removeOption 11 1) := by
  obtain ⟨led, w, hc, h⟩ := exists_careful runActs82
    (fun led w => Table.shapeB w 1 2 [4, 6] (some 9) && usableB w 1 && usableB w 6 && usableB w 11 && usableB w 13 && tightB w && decide (0 < led 1) && decide (0 < led 6) && decide (0 < led 11) &&
      decide (0 < led 12) && decide (0 < led 13) && decide (kidsOf w 1 = [2, 4, 6, 9]) && decide (kidsOf w 6 = [7, 8]) && decide (kidsOf w 11 = [12, 13]) && !isOption w 11 &&
      (tagged w "thead" 2 && tagged w "tfoot" 9) && at_ w 12 (fun m => decide (m.type = .element) && decide (m.parent = some 11)) && at_ w 13 (fun m => decide (m.parent = some 11)) && decide (options w (kidsOf w) 11 = [12, 13])) (by decide +kernel)
  simp only [Bool.and_eq_true] at h
  obtain ⟨⟨⟨⟨⟨⟨⟨⟨⟨⟨⟨⟨⟨⟨⟨⟨⟨⟨hsh, u1⟩, u6⟩, u11⟩, u13⟩, htight⟩, l1⟩, l6⟩, l11⟩, l12⟩, l13⟩, k1⟩, k6⟩, k11⟩, hno⟩, htag⟩, h12⟩, h13⟩, hop⟩ := h
  have l1 := of_decide_eq_true l1
  have l6 := of_decide_eq_true l6
  have l11 := of_decide_eq_true l11
  have l12 := of_decide_eq_true l12
  have l13 := of_decide_eq_true l13
  have k1 := of_decide_eq_true k1
  have k6 := of_decide_eq_true k6
  have k11 := of_decide_eq_true k11
  have hop := of_decide_eq_true hop
  obtain ⟨ch, S, _⟩ := hc.sound
  have hkids := Tree.kids_eq S.wf.toCore
  have hT : Shape w (kidsOf w) 1 2 [4, 6] (some 9) := by rw [← hkids]; exact Table.shape_of S.wf hsh
  have U1 := usable_of_usableB S.wf.bnd u1
  have U6 := usable_of_usableB S.wf.bnd u6
  have U11 := usable_of_usableB S.wf.bnd u11
  have U13 := usable_of_usableB S.wf.bnd u13
  have closed : ∀ {t c : NodeId} {l : List NodeId}, Usable w t → kidsOf w t = c :: l → Closed w (kidsOf w) t := by
    rintro t c l ⟨⟨n, hn, ht⟩, _⟩ hk
    exact ⟨n, hn, ht, .inl (by rw [hk]; simp)⟩
  have lo := loose_of_tightB S.wf.bnd htight
  have single : ∀ {x : NodeId}, 0 < led x → ∀ y ∈ [x], 0 < led y := by
    intro x hx y hy
    rw [List.mem_singleton.1 hy]; exact hx
  obtain ⟨m12, n12, e12⟩ := at_elim h12
  obtain ⟨m13, n13, e13⟩ := at_elim h13
  simp only [Bool.and_eq_true, decide_eq_true_eq] at e12 e13
  refine ⟨led, w, .of_client hc, ⟨single l1, U1, closed U1 k1, Shape.closed hT, fun _ => ⟨⟨2, by rw [k1]; simp, htag.1⟩, ⟨9, by rw [k1]; simp, htag.2⟩⟩⟩,
    ⟨single l1, U1, closed U1 k1, lo 1, 2, [4, 6], some 9, hT⟩, ⟨single l6, U6, closed U6 k6⟩, ⟨single l6, U6, closed U6 k6, lo 6⟩, ⟨single l1, U1⟩, ⟨single l1, U1, closed U1 k1⟩,
    ⟨single l1, U1, lo 1⟩, ⟨?_, U13.1, U13.2.2.1, ?_⟩, ⟨single l11, U11, closed U11 k11, lo 11, by simpa using hno, ?_⟩⟩
  · intro y hy
    have hy : y = 11 ∨ y = 13 ∨ y = 12 := by simpa [Step.args] using hy
    rcases hy with rfl | rfl | rfl
    · exact l11
    · exact l13
    · exact l12
  · intro c hc
    have e : 12 = c := by simpa using hc
    subst e
    exact ⟨m12, n12, fun h => by rw [e12.1] at h; cases h⟩
  · intro y hy p hp
    rw [hop] at hy
    have hpar : ∃ m, w.nodes y = some m ∧ m.parent = some 11 := by
      have hy : y = 12 ∨ y = 13 := by simpa using hy
      rcases hy with rfl | rfl
      · exact ⟨m12, n12, e12.2⟩
      · exact ⟨m13, n13, e13⟩
    obtain ⟨m, hm, hmp⟩ := hpar
    rw [← hkids] at hp
    obtain ⟨m', hm', _, hp'⟩ := S.wf.linked.alive_child hp
    rw [hm] at hm'; cases hm'
    have e : p = 11 := by rw [hp'] at hmp; simpa using hmp
    subst e
    exact U11.1

/-! ## Where the code deviates -/

/-- **C82** is violated by `dom_html_table_element_set_caption`, `set_t_head` and `set_t_foot`: whenever they succeed they have made a reference to the new child, and nobody gets it. -/
theorem C82_set_violated (S : Sound w ch) (ht : w.nodes t = some tn) (htt : tn.type = .element) (htr : 0 < tn.refcnt) (hk : DocKept w t) (hr : Roomy w) (asked : DStr) (k : Part)
    (hx : w.nodes x = some n) (hxt : n.type = .element) (hxr : 0 < n.refcnt) (hcl : ∀ y ∈ ch t, count w y = 0 → Clean w y) (hok : setChild asked k.tag t (some x) w = .ok w' ()) :
    count w' x = count w x + 1 ∧ ∀ j, j ≠ x → count w' j = count w j := by
  obtain ⟨h1, h2⟩ := setChild_run (asked := asked) S ht htt htr hk hr k.data hx hxt hxr (fun y hy => hcl y (List.mem_of_find?_eq_some hy))
  cases hc : Str.caselessIsEqual (some asked) n.name with
  | false => rw [h1 hc] at hok; cases hok
  | true =>
    obtain ⟨v, cv, _, ⟨e, c⟩ | ⟨e, he, _⟩⟩ := h2 hc
    · rw [e] at hok; cases hok
      exact ⟨by rw [c, one_self], fun j hj => by rw [c, one_ne hj]; rfl⟩
    · rw [he] at hok; cases hok

/-- A run ends well, in a memory of a kind. -/
def endsWell (m : M Unit) (w : World) (f : World → Bool) : Bool :=
  match m w with
  | .ok w' () => f w'
  | _ => false

theorem endsWell_elim {m : M Unit} {f : World → Bool} (h : endsWell m w f = true) : ∃ w', m w = .ok w' () ∧ f w' = true := by
  unfold endsWell at h
  split at h
  · next w' e => exact ⟨w', e, h⟩
  · cases h

/-- A run is refused, in a memory of a kind. -/
def endsBadly (m : M Unit) (w : World) (f : World → Bool) : Bool :=
  match m w with
  | .exc w' .indexSize => f w'
  | _ => false

theorem endsBadly_elim {m : M Unit} {f : World → Bool} (h : endsBadly m w f = true) : ∃ w', m w = .exc w' .indexSize ∧ f w' = true := by
  unfold endsBadly at h
  split at h
  · next w' e => exact ⟨w', e, h⟩
  · cases h

/-- A document (0) and a table (1) in it, and a caption (2); the client has one reference to each of them. -/
def setActs : List Act := [.call .createDocument, elem "TABLE", elem "CAPTION", .call (.appendChild 0 1), .unref 1]

/-- **C82** is violated: after the caption was set the client gives up all its references, and the document and the caption stay in memory. -/
theorem C82_set_leak_violated : ∃ led w, Client Careful led w ∧ led 0 = 1 ∧ led 1 = 1 ∧ led 2 = 1 ∧ (∀ j, 3 ≤ j → led j = 0) ∧
    ∃ w', (do setChild captionName captionName 1 (some 2); unref 2; unref 1; unref 0 : M Unit) w = .ok w' () ∧ at_ w' 0 (fun n => n.type = .document) = true ∧
      at_ w' 2 (fun n => n.refcnt = 1) = true := by
  obtain ⟨led, w, hc, h⟩ := exists_careful setActs (fun led w => decide (led 0 = 1) && decide (led 1 = 1) && decide (led 2 = 1) && decide (w.fresh = 3) &&
    endsWell (do setChild captionName captionName 1 (some 2); unref 2; unref 1; unref 0) w (fun w' => at_ w' 0 (fun n => n.type = .document) && at_ w' 2 (fun n => n.refcnt = 1))) (by decide +kernel)
  simp only [Bool.and_eq_true, decide_eq_true_eq] at h
  obtain ⟨⟨⟨⟨h0, h1⟩, h2⟩, hf⟩, he⟩ := h
  obtain ⟨w', e, h3⟩ := endsWell_elim he
  rw [Bool.and_eq_true] at h3
  obtain ⟨ch, S, hl⟩ := hc.sound
  refine ⟨led, w, hc, h0, h1, h2, fun j hj => ?_, w', e, h3.1, h3.2⟩
  rw [← hl j]
  cases hn : w.nodes j with
  | none => unfold count; rw [hn]
  | some m => have h4 : j < w.fresh := S.wf.bnd j m hn; rw [hf] at h4; exact absurd h4 (Nat.not_lt.2 hj)

/-- A table (1) with a head (2), a foot (4) and a row (6) outside of both. -/
def rowActs : List Act :=
  [.call .createDocument, elem "TABLE", elem "THEAD", elem "TR", elem "TFOOT", elem "TR", elem "TR", .call (.appendChild 0 1), .call (.appendChild 1 2), .call (.appendChild 2 3),
    .call (.appendChild 1 4), .call (.appendChild 4 5), .call (.appendChild 1 6)]

/-- **C82** is violated by `dom_html_table_element_delete_row`: when the row is in no section, the refusal leaves a reference to the foot behind. -/
theorem C82_delete_row_leak_violated : ∃ led w, Client Careful led w ∧ ∃ w', deleteRow 1 2 w = .exc w' .indexSize ∧ count w 4 = 2 ∧ count w' 4 = 3 := by
  obtain ⟨led, w, hc, h⟩ := exists_careful rowActs (fun _ w => decide (count w 4 = 2) && endsBadly (deleteRow 1 2) w (fun w' => decide (count w' 4 = 3))) (by decide +kernel)
  simp only [Bool.and_eq_true, decide_eq_true_eq] at h
  obtain ⟨w', e, h3⟩ := endsBadly_elim h.2
  exact ⟨led, w, hc, w', e, h.1, by simpa using h3⟩

end Dom.Html.Refs
