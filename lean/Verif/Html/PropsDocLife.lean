import Verif.Html.DocLife

/-!
# What holds of the life of an HTML document
-/
namespace Dom.Html.DocLife

set_option linter.unusedSimpArgs false

/-- **Specification.**  A history in which the client uses only what it holds. -/
def Legal (w : S) : List Op → Prop
  | [] => True
  | o :: os => may w o = true ∧ ∀ w', step w o = .ok w' → Legal w' os

/-- **Specification.**  What the client must avoid in addition: after it gave up its last reference to the
document once (`gone`), it makes no element of that document, reads no property of its elements, and asks for its
title only if it set one; while it has no reference to the document, it takes none from a node if it had set a
title. -/
def avoids (gone : Bool) (w : S) : Op → Bool
  | .create | .read _ => !gone
  | .getTitle => !gone || w.title.isSome
  | .owner _ => w.count ≠ 0 || w.title.isNone
  | _ => true

/-- **Specification.**  A legal history that also avoids those calls. -/
def Careful (gone : Bool) (w : S) : List Op → Prop
  | [] => True
  | o :: os => may w o = true ∧ avoids gone w o = true ∧
      ∀ w', step w o = .ok w' → Careful (gone || decide (w'.count = 0)) w' os

/-- What careful histories keep. -/
structure Inv (gone : Bool) (w : S) : Prop where
  tables : w.tables = !gone
  dead : w.count = 0 → gone = true
  strs : ∀ s, w.strs s = w.mine s + if w.count ≠ 0 ∧ w.title = some s then 1 else 0
  block : w.block = true ↔ (w.count ≠ 0 ∨ w.nodes ≠ [])
  held : ∀ n ∈ w.nodes, (n.attached = false ∨ w.count = 0) → n.refs ≠ 0
  loose : w.count = 0 → ∀ n ∈ w.nodes, n.attached = false

theorem new_inv : Inv false new := by
  constructor <;> simp [new]

theorem mem_set' {l : List Node} {i : Nat} {a n : Node} (h : n ∈ l.set i a) : n ∈ l ∨ n = a :=
  List.mem_or_eq_of_mem_set h

theorem set_ne_nil {l : List Node} {i : Nat} {a : Node} : l.set i a ≠ [] ↔ l ≠ [] := by
  cases l <;> cases i <;> simp

/-- A change of one node that keeps the counts of the document. -/
theorem Inv.set {gone : Bool} {w : S} (h : Inv gone w) {i : Nat} {n a : Node} (_hn : w.nodes[i]? = some n)
    (h1 : (a.attached = false ∨ w.count = 0) → a.refs ≠ 0) (h2 : w.count = 0 → a.attached = false) :
    Inv gone { w with nodes := w.nodes.set i a } where
  tables := h.tables
  dead := h.dead
  strs := h.strs
  block := by
    have := h.block
    rw [show ({ w with nodes := w.nodes.set i a } : S).nodes = w.nodes.set i a from rfl, set_ne_nil]
    exact this
  held := by
    intro m hm
    rcases mem_set' hm with hm | rfl
    · exact h.held m hm
    · exact h1
  loose := by
    intro hc m hm
    rcases mem_set' hm with hm | rfl
    · exact h.loose hc m hm
    · exact h2 hc

/-- The end of a document without references. -/
theorem destroyCore_inv {w : S} {gone : Bool} (hg : gone = true) (hc : w.count = 0) (ht : w.tables = false)
    (hs : ∀ s, w.strs s = w.mine s) (hh : ∀ n ∈ w.nodes, n.attached = false → n.refs ≠ 0) :
    Inv gone (destroyCore w) where
  tables := by rw [hg]; exact ht
  dead := fun _ => hg
  strs := by
    intro s
    have : (destroyCore w).count = 0 := hc
    rw [if_neg (by simp [this])]
    exact hs s
  block := by
    simp [destroyCore, hc]
  held := by
    intro n hn _
    simp only [destroyCore, List.mem_map, List.mem_filter] at hn
    obtain ⟨m, ⟨hm, hf⟩, rfl⟩ := hn
    intro h0
    cases ha : m.attached with
    | true =>
      have h0' : m.refs = 0 := h0
      simp [ha, h0'] at hf
    | false => exact hh m hm ha h0
  loose := by
    intro _ n hn
    simp only [destroyCore, List.mem_map, List.mem_filter] at hn
    obtain ⟨m, _, rfl⟩ := hn
    rfl

/-- One careful call. -/
theorem step_inv {gone : Bool} {w : S} (h : Inv gone w) (o : Op) (hm : may w o = true)
    (ha : avoids gone w o = true) :
    ∃ w', step w o = .ok w' ∧ Inv (gone || decide (w'.count = 0)) w' := by
  have keep : ∀ {v : S}, (v.count = 0 → w.count = 0) → Inv gone v → Inv (gone || decide (v.count = 0)) v := by
    intro v hv hi
    have : (gone || decide (v.count = 0)) = gone := by
      by_cases hc : v.count = 0
      · rw [h.dead (hv hc)]; rfl
      · simp [hc]
    rw [this]; exact hi
  cases o with
  | refDoc =>
    have hm : w.count ≠ 0 := by simpa [may] using hm
    refine ⟨_, rfl, keep (fun _ => ?_) ?_⟩
    · rename_i hc; exact absurd hc (Nat.succ_ne_zero _)
    · refine ⟨h.tables, fun hc => absurd hc (Nat.succ_ne_zero _), ?_, ?_, ?_, ?_⟩
      · intro s; have := h.strs s; simpa [hm] using this
      · have := h.block; simpa [hm] using this
      · intro n hn hc
        rcases hc with hc | hc
        · exact h.held n hn (.inl hc)
        · exact absurd hc (Nat.succ_ne_zero _)
      · intro hc; exact absurd hc (Nat.succ_ne_zero _)
  | unrefDoc =>
    have hm : w.count ≠ 0 := by simpa [may] using hm
    by_cases h1 : w.count = 1
    · have hrun : ∃ v : S, dropTitle { w with count := 0 } = .ok v ∧ v.nodes = w.nodes ∧ v.count = 0 ∧
          (∀ s, v.strs s = v.mine s) := by
        unfold dropTitle
        cases ht : w.title with
        | none =>
          refine ⟨_, rfl, rfl, rfl, fun s => ?_⟩
          have := h.strs s
          simpa [ht] using this
        | some t =>
          have hst := h.strs t
          rw [if_pos ⟨hm, ht⟩] at hst
          simp only [unrefStr]
          rw [if_neg (by show ¬ w.strs t = 0; omega)]
          refine ⟨_, rfl, rfl, rfl, fun s => ?_⟩
          have hss := h.strs s
          show less w.strs t s = w.mine s
          unfold less
          by_cases hts : s = t
          · subst hts; rw [if_pos rfl, hst]; omega
          · rw [if_neg hts]
            rw [if_neg (fun hh => hts (by have := hh.2; rw [ht] at this; cases this; rfl))] at hss
            exact hss
      obtain ⟨v, hv, hvn, hvc, hvs⟩ := hrun
      refine ⟨destroyCore { v with tables := false }, ?_, ?_⟩
      · show unrefDoc w = _
        unfold unrefDoc destroyHtml
        rw [if_pos h1, hv]; rfl
      · refine destroyCore_inv ?_ hvc rfl hvs ?_
        · rw [show (destroyCore { v with tables := false }).count = 0 from hvc]; simp
        · intro n hn hat
          exact h.held n (hvn ▸ hn) (.inl hat)
    · refine ⟨{ w with count := w.count - 1 }, ?_, ?_⟩
      · show unrefDoc w = _
        unfold unrefDoc; rw [if_neg h1]
      · have hc : w.count - 1 ≠ 0 := by omega
        refine keep (fun hh => absurd hh hc) ?_
        refine ⟨h.tables, fun hh => absurd hh hc, ?_, ?_, ?_, fun hh => absurd hh hc⟩
        · intro s; have := h.strs s; simpa [hm, hc] using this
        · have := h.block; simpa [hm, hc] using this
        · intro n hn hcc
          rcases hcc with hcc | hcc
          · exact h.held n hn (.inl hcc)
          · exact absurd hcc hc
  | create =>
    have hm : w.count ≠ 0 := by simpa [may] using hm
    have hg : gone = false := by simpa [avoids] using ha
    refine ⟨{ w with nodes := w.nodes ++ [{ refs := 1, elem := true, attached := false }] }, ?_, keep id ?_⟩
    · show (if w.tables = true then _ else _) = _
      rw [if_pos (by rw [h.tables, hg]; rfl)]
    · refine ⟨h.tables, h.dead, h.strs, ?_, ?_, fun hc => absurd hc hm⟩
      · have := h.block; simpa [hm] using this
      · intro n hn hc
        rcases List.mem_append.mp hn with hn | hn
        · exact h.held n hn hc
        · rw [List.mem_singleton.mp hn]; exact Nat.one_ne_zero
  | comment =>
    have hm : w.count ≠ 0 := by simpa [may] using hm
    refine ⟨{ w with nodes := w.nodes ++ [{ refs := 1, elem := false, attached := false }] }, rfl, keep id ?_⟩
    refine ⟨h.tables, h.dead, h.strs, ?_, ?_, fun hc => absurd hc hm⟩
    · have := h.block; simpa [hm] using this
    · intro n hn hc
      rcases List.mem_append.mp hn with hn | hn
      · exact h.held n hn hc
      · rw [List.mem_singleton.mp hn]; exact Nat.one_ne_zero
  | refNode i =>
    cases hn : w.nodes[i]? with
    | none => simp [may, hn] at hm
    | some n =>
      refine ⟨{ w with nodes := w.nodes.set i { n with refs := n.refs + 1 } }, by simp only [step, hn], keep id ?_⟩
      exact h.set hn (fun _ => Nat.succ_ne_zero _) (fun hc => h.loose hc n (List.mem_of_getElem? hn))
  | child i =>
    cases hn : w.nodes[i]? with
    | none => simp [may, hn] at hm
    | some n =>
      refine ⟨{ w with nodes := w.nodes.set i { n with refs := n.refs + 1 } }, by simp only [step, hn], keep id ?_⟩
      exact h.set hn (fun _ => Nat.succ_ne_zero _) (fun hc => h.loose hc n (List.mem_of_getElem? hn))
  | unrefNode i =>
    cases hn : w.nodes[i]? with
    | none => simp [may, hn] at hm
    | some n =>
      have hmem := List.mem_of_getElem? hn
      have hr : n.refs ≠ 0 := by simpa [may, hn] using hm
      refine ⟨unrefNode w i n, by simp only [step, hn], ?_⟩
      unfold unrefNode
      by_cases hl : n.refs = 1 ∧ n.attached = false
      · rw [if_pos hl]
        unfold dropNode
        dsimp only
        have hsub : ∀ m ∈ w.nodes.eraseIdx i, m ∈ w.nodes := fun m hm => List.mem_of_mem_eraseIdx hm
        by_cases hc : w.count = 0
        · rw [if_pos hc]
          have hgone := h.dead hc
          refine destroyCore_inv (by rw [hgone]; rfl) hc (by have := h.tables; rw [hgone] at this; exact this) ?_ ?_
          · intro s; have := h.strs s; simpa [hc] using this
          · intro m hm ham; exact h.held m (hsub m hm) (.inl ham)
        · rw [if_neg hc]
          refine keep id ⟨h.tables, h.dead, h.strs, ?_, fun m hm => h.held m (hsub m hm), fun hh => absurd hh hc⟩
          have := h.block; simpa [hc] using this
      · rw [if_neg hl]
        refine keep id (h.set hn ?_ (fun hc => h.loose hc n hmem))
        intro hh h0
        have h0 : n.refs - 1 = 0 := h0
        have h1 : n.refs = 1 := by omega
        rcases hh with hh | hh
        · exact hl ⟨h1, hh⟩
        · exact hl ⟨h1, h.loose hh n hmem⟩
  | attach i =>
    cases hn : w.nodes[i]? with
    | none => simp [may, hn] at hm
    | some n =>
      have hm' : w.count ≠ 0 ∧ n.refs ≠ 0 := by
        simp [may, hn] at hm; exact ⟨hm.1.1.1, hm.1.1.2⟩
      refine ⟨{ w with nodes := w.nodes.set i { n with attached := true } }, by simp only [step, hn], keep id ?_⟩
      exact h.set hn (fun _ => hm'.2) (fun hc => absurd hc hm'.1)
  | detach i =>
    cases hn : w.nodes[i]? with
    | none => simp [may, hn] at hm
    | some n =>
      refine ⟨{ w with nodes := w.nodes.set i { n with refs := n.refs + 1, attached := false } },
        by simp only [step, hn], keep id ?_⟩
      exact h.set hn (fun _ => Nat.succ_ne_zero _) (fun _ => rfl)
  | owner i =>
    have hne : w.nodes ≠ [] := by
      intro hh; simp [may, hh] at hm
    refine ⟨{ w with count := w.count + 1 }, rfl, keep (fun hc => absurd hc (Nat.succ_ne_zero _)) ?_⟩
    refine ⟨h.tables, fun hc => absurd hc (Nat.succ_ne_zero _), ?_, ?_, ?_, fun hc => absurd hc (Nat.succ_ne_zero _)⟩
    · intro s
      have := h.strs s
      by_cases hc : w.count = 0
      · have ht : w.title = none := by
          simpa [avoids, hc, Option.isNone_iff_eq_none] using ha
        simpa [hc, ht] using this
      · simpa [hc] using this
    · have := h.block; simpa [hne] using this
    · intro n hn hc
      rcases hc with hc | hc
      · exact h.held n hn (.inl hc)
      · exact absurd hc (Nat.succ_ne_zero _)
  | read i =>
    have hg : gone = false := by simpa [avoids] using ha
    refine ⟨w, ?_, keep id h⟩
    show (if w.tables = true then _ else _) = _
    rw [if_pos (by rw [h.tables, hg]; rfl)]
  | newString s =>
    refine ⟨_, rfl, keep id ⟨h.tables, h.dead, ?_, h.block, h.held, h.loose⟩⟩
    intro t
    have ht := h.strs t
    show more w.strs s t = more w.mine s t + _
    unfold more
    by_cases hs : t = s
    · rw [if_pos hs, if_pos hs, ht]; dsimp only; omega
    · rw [if_neg hs, if_neg hs]; exact ht
  | dropString s =>
    have hm : w.mine s ≠ 0 := by simpa [may] using hm
    have hs := h.strs s
    refine ⟨{ w with strs := less w.strs s, mine := less w.mine s }, ?_, keep id ?_⟩
    · simp only [step, unrefStr]
      rw [if_neg (by omega)]; rfl
    · refine ⟨h.tables, h.dead, ?_, h.block, h.held, h.loose⟩
      intro t
      have ht := h.strs t
      show less w.strs s t = less w.mine s t + _
      unfold less
      by_cases hts : t = s
      · subst hts; rw [if_pos rfl, if_pos rfl, ht]; dsimp only; omega
      · rw [if_neg hts, if_neg hts]; exact ht
  | setTitle s =>
    have hm : w.count ≠ 0 ∧ w.mine s ≠ 0 := by simpa [may] using hm
    have hrun : ∃ v : S, dropTitle w = .ok v ∧ v = { w with strs := v.strs } ∧ (∀ s, v.strs s = w.mine s) := by
      unfold dropTitle
      cases ht : w.title with
      | none =>
        refine ⟨_, rfl, by rw [← ht], fun s => ?_⟩
        have := h.strs s
        simpa [ht] using this
      | some t =>
        have hst := h.strs t
        rw [if_pos ⟨hm.1, ht⟩] at hst
        simp only [unrefStr]
        rw [if_neg (by omega)]
        refine ⟨_, rfl, by rw [← ht], fun s => ?_⟩
        have hss := h.strs s
        show less w.strs t s = w.mine s
        unfold less
        by_cases hts : s = t
        · subst hts; rw [if_pos rfl, hst]; omega
        · rw [if_neg hts]
          rw [if_neg (fun hh => hts (by have := hh.2; rw [ht] at this; cases this; rfl))] at hss
          exact hss
    obtain ⟨v, hv, hve, hvs⟩ := hrun
    refine ⟨{ w with strs := more v.strs s, title := some s }, ?_, keep id ?_⟩
    · simp only [step, hv, Out.bind, refStr]
      rw [if_neg (by rw [hvs]; exact hm.2)]
      dsimp only
      rw [hve]
    · refine ⟨h.tables, h.dead, ?_, h.block, h.held, h.loose⟩
      intro t
      show more v.strs s t = w.mine t + if w.count ≠ 0 ∧ some s = some t then 1 else 0
      unfold more
      by_cases hts : t = s
      · subst hts; rw [if_pos rfl, if_pos ⟨hm.1, rfl⟩, hvs]
      · rw [if_neg hts, if_neg (fun hh => hts (by have := hh.2; cases this; rfl)), hvs]; rfl
  | getTitle =>
    have hm : w.count ≠ 0 := by simpa [may] using hm
    cases ht : w.title with
    | none =>
      have hg : gone = false := by simpa [avoids, ht] using ha
      refine ⟨w, ?_, keep id h⟩
      simp only [step, ht]
      rw [if_pos (by rw [h.tables, hg]; rfl)]
    | some t =>
      have hst := h.strs t
      rw [if_pos ⟨hm, ht⟩] at hst
      refine ⟨{ w with strs := more w.strs t, mine := more w.mine t }, ?_, keep id ?_⟩
      · simp only [step, ht, refStr]
        rw [if_neg (by omega)]; rfl
      · refine ⟨h.tables, h.dead, ?_, h.block, h.held, h.loose⟩
        intro s
        have hs := h.strs s
        show more w.strs t s = more w.mine t s + _
        unfold more
        by_cases hts : s = t
        · rw [if_pos hts, if_pos hts, hs]; dsimp only; omega
        · rw [if_neg hts, if_neg hts]; exact hs

theorem run_inv {gone : Bool} {w : S} (h : Inv gone w) (os : List Op) (hc : Careful gone w os) :
    ∃ g w', run w os = .ok w' ∧ Inv g w' := by
  induction os generalizing gone w with
  | nil => exact ⟨gone, w, rfl, h⟩
  | cons o os ih =>
    obtain ⟨v, hv, hi⟩ := step_inv h o hc.1 hc.2.1
    obtain ⟨g, w', hr, hi'⟩ := ih hi (hc.2.2 v hv)
    refine ⟨g, w', ?_, hi'⟩
    simp only [run, hv, Out.bind]
    exact hr

/-- **C89.**  A careful history never makes the code do anything undefined.  After it, the document is in memory
exactly while the client holds it or one of its nodes exists; every string has the references of the client and,
while the client holds the document, one more for the title; and when the client has given back all its references
to the document, to its nodes and to strings, nothing is left.
Partial: the full statement is about all legal histories (`C89_read_violated`, `C89_create_violated`,
`C89_title_violated`). -/
theorem C89_life_partial (os : List Op) (hc : Careful false new os) :
    ∃ w, run new os = .ok w ∧
      (w.block = true ↔ (w.count ≠ 0 ∨ w.nodes ≠ [])) ∧
      (∀ s, w.strs s = w.mine s + if w.count ≠ 0 ∧ w.title = some s then 1 else 0) ∧
      (w.count = 0 → (∀ n ∈ w.nodes, n.refs = 0) →
        w.nodes = [] ∧ w.block = false ∧ ((∀ s, w.mine s = 0) → ∀ s, w.strs s = 0)) := by
  obtain ⟨g, w, hr, hi⟩ := run_inv new_inv os hc
  refine ⟨w, hr, hi.block, hi.strs, ?_⟩
  intro h0 hn
  have hnil : w.nodes = [] := by
    cases hw : w.nodes with
    | nil => rfl
    | cons n l =>
      have hmem : n ∈ w.nodes := by rw [hw]; exact List.mem_cons_self
      exact absurd (hn n hmem) (hi.held n hmem (.inr h0))
  refine ⟨hnil, ?_, ?_⟩
  · cases hb : w.block with
    | false => rfl
    | true =>
      rcases hi.block.mp hb with h | h
      · exact absurd h0 h
      · exact absurd hnil h
  · intro hm s
    have := hi.strs s
    simpa [h0, hm s] using this

/-- Along any run: the arrays are gone once the last reference was given up, and never come back. -/
theorem step_tables {w w' : S} (o : Op) (h : step w o = .ok w') :
    (w.tables = false → w'.tables = false) ∧
    ((w.count = 0 → w.tables = false) → w'.count = 0 → w'.tables = false) := by
  have str : ∀ {a b : S} {s}, unrefStr a s = .ok b → b.tables = a.tables ∧ b.count = a.count := by
    intro a b s hh; unfold unrefStr at hh; split at hh
    · cases hh
    · cases hh; exact ⟨rfl, rfl⟩
  have str' : ∀ {a b : S} {s}, refStr a s = .ok b → b.tables = a.tables ∧ b.count = a.count := by
    intro a b s hh; unfold refStr at hh; split at hh
    · cases hh
    · cases hh; exact ⟨rfl, rfl⟩
  have drop : ∀ {a b : S}, dropTitle a = .ok b → b.tables = a.tables ∧ b.count = a.count := by
    intro a b hh; unfold dropTitle at hh; split at hh
    · cases hh; exact ⟨rfl, rfl⟩
    · exact str hh
  have same : w'.tables = w.tables → w'.count = w.count → (w.tables = false → w'.tables = false) ∧
      ((w.count = 0 → w.tables = false) → w'.count = 0 → w'.tables = false) := by
    intro h1 h2; rw [h1, h2]; exact ⟨id, id⟩
  have same' : w'.tables = w.tables → w'.count = w.count + 1 → (w.tables = false → w'.tables = false) ∧
      ((w.count = 0 → w.tables = false) → w'.count = 0 → w'.tables = false) := by
    intro h1 h2; rw [h1, h2]; exact ⟨id, fun _ hh => absurd hh (Nat.succ_ne_zero _)⟩
  cases o with
  | refDoc => cases h; exact same' rfl rfl
  | unrefDoc =>
    simp only [step, unrefDoc] at h
    split at h
    · unfold destroyHtml at h
      cases hd : dropTitle { w with count := 0 } with
      | ok v =>
        rw [hd] at h; cases h
        exact ⟨fun _ => rfl, fun _ _ => rfl⟩
      | exc e => rw [hd] at h; cases h
      | fault e => rw [hd] at h; cases h
    · cases h
      rename_i hne
      refine ⟨id, fun hh h0 => hh ?_⟩
      have : w.count - 1 = 0 := h0
      omega
  | create =>
    simp only [step] at h; split at h
    · cases h; exact same rfl rfl
    · cases h
  | comment => cases h; exact same rfl rfl
  | refNode i => simp only [step] at h; split at h <;> cases h <;> exact same rfl rfl
  | child i => simp only [step] at h; split at h <;> cases h <;> exact same rfl rfl
  | unrefNode i =>
    simp only [step] at h; split at h
    · cases h
      refine same ?_ ?_ <;>
      · unfold unrefNode dropNode destroyCore; dsimp only
        split
        · split <;> rfl
        · rfl
    · cases h; exact same rfl rfl
  | attach i => simp only [step] at h; split at h <;> cases h <;> exact same rfl rfl
  | detach i => simp only [step] at h; split at h <;> cases h <;> exact same rfl rfl
  | owner i => cases h; exact same' rfl rfl
  | read i =>
    simp only [step] at h; split at h
    · cases h; exact same rfl rfl
    · cases h
  | newString s => cases h; exact same rfl rfl
  | dropString s =>
    simp only [step] at h
    cases hd : unrefStr w s with
    | ok v => rw [hd] at h; cases h; exact same (str hd).1 (str hd).2
    | exc e => rw [hd] at h; cases h
    | fault e => rw [hd] at h; cases h
  | setTitle s =>
    simp only [step] at h
    cases hd : dropTitle w with
    | ok v =>
      rw [hd] at h; simp only [Out.bind] at h
      cases hr : refStr v s with
      | ok u =>
        rw [hr] at h; cases h
        exact same ((str' hr).1.trans (drop hd).1) ((str' hr).2.trans (drop hd).2)
      | exc e => rw [hr] at h; cases h
      | fault e => rw [hr] at h; cases h
    | exc e => rw [hd] at h; cases h
    | fault e => rw [hd] at h; cases h
  | getTitle =>
    simp only [step] at h; split at h
    · rename_i t _
      cases hd : refStr w t with
      | ok v => rw [hd] at h; cases h; exact same (str' hd).1 (str' hd).2
      | exc e => rw [hd] at h; cases h
      | fault e => rw [hd] at h; cases h
    · split at h
      · cases h; exact same rfl rfl
      · cases h

theorem run_tables {w w' : S} (os : List Op) (h : run w os = .ok w') :
    (w.tables = false → w'.tables = false) ∧
    ((w.count = 0 → w.tables = false) → w'.count = 0 → w'.tables = false) := by
  induction os generalizing w with
  | nil => cases h; exact ⟨id, id⟩
  | cons o os ih =>
    simp only [run] at h
    cases hs : step w o with
    | ok v =>
      rw [hs] at h
      have h1 := step_tables o hs
      have h2 := ih h
      exact ⟨fun hh => h2.1 (h1.1 hh), fun hh => h2.2 (h1.2 hh)⟩
    | exc e => rw [hs] at h; cases h
    | fault e => rw [hs] at h; cases h

/-- **C89, negated (reading).**  Once the client has given up its last reference to the document, the client may
still hold elements of it, but reading a property of one of them makes the code go through the null pointer that
`_dom_html_document_finalise` left, whatever happened in between. -/
theorem C89_read_violated (before after : List Op) (v w : S) (hv : run new before = .ok v) (h0 : v.count = 0)
    (hw : run v after = .ok w) (i : Nat) : step w (.read i) = .fault .nullDeref := by
  have h1 := (run_tables before hv).2 (by simp [new]) h0
  have h2 := (run_tables after hw).1 h1
  simp [step, h2]

/-- **C89, negated (making elements, and the title).**  In such a state the client can get the document back from a
node; making an element of it, or asking for its title when none was set, goes through a null pointer too. -/
theorem C89_create_violated (before after : List Op) (v w : S) (hv : run new before = .ok v) (h0 : v.count = 0)
    (hw : run v after = .ok w) (i : Nat) :
    run w [.owner i, .create] = .fault .nullDeref ∧
    (w.title = none → run w [.owner i, .getTitle] = .fault .nullDeref) := by
  have h1 := (run_tables before hv).2 (by simp [new]) h0
  have h2 := (run_tables after hw).1 h1
  refine ⟨?_, ?_⟩
  · simp [run, step, h2, Out.bind]
  · intro ht
    simp [run, step, h2, ht, Out.bind]

/-- Dropping the same string until nothing of it is left. -/
theorem drops {w : S} (t : Nat) (k : Nat) (hk : w.strs t < k) :
    run w (List.replicate k (.dropString t)) = .fault .useAfterFree := by
  induction k generalizing w with
  | zero => omega
  | succ k ih =>
    simp only [List.replicate_succ, run, step, unrefStr]
    by_cases h : w.strs t = 0
    · rw [if_pos h]; rfl
    · rw [if_neg h]
      simp only [Out.bind]
      apply ih
      show less w.strs t t < k
      unfold less; rw [if_pos rfl]; omega

theorem legal_drops {w : S} (t : Nat) (k : Nat) (hk : k ≤ w.mine t) :
    Legal w (List.replicate k (.dropString t)) := by
  induction k generalizing w with
  | zero => exact True.intro
  | succ k ih =>
    refine ⟨by simp [may]; omega, ?_⟩
    intro w' hw
    apply ih
    simp only [step, unrefStr] at hw
    split at hw
    · cases hw
    · cases hw
      show k ≤ less w.mine t t
      unfold less; rw [if_pos rfl]; omega

/-- **C89, negated (the title).**  If the document had a title when the client gave it up, and the client gets the
document back from a node it holds and gives it up again, the code gives up the title a second time.  Either that
is a use of freed memory at once, or it takes a reference away that the client owns: when the client then gives
back the references it has, the last time is a use of freed memory.  All these calls are legal. -/
theorem C89_title_violated (os : List Op) (w : S) (hc : Careful false new os) (hw : run new os = .ok w)
    (h0 : w.count = 0) (i : Nat) (n : Node) (hn : w.nodes[i]? = some n) (t : Nat) (ht : w.title = some t) :
    Legal w ([.owner i, .unrefDoc] ++ List.replicate (w.mine t) (.dropString t)) ∧
    run w ([.owner i, .unrefDoc] ++ List.replicate (w.mine t) (.dropString t)) = .fault .useAfterFree := by
  obtain ⟨g, w1, hr, hi⟩ := run_inv new_inv os hc
  rw [hw] at hr; cases hr
  have hs : w.strs t = w.mine t := by have := hi.strs t; simpa [h0] using this
  have hrefs : n.refs ≠ 0 := hi.held n (List.mem_of_getElem? hn) (.inr h0)
  refine ⟨⟨by simp [may, hn, hrefs], ?_⟩, ?_⟩
  · intro w1 h1
    cases h1
    refine ⟨by simp [may], ?_⟩
    intro w2 h2
    apply legal_drops
    simp only [step, unrefDoc, h0, destroyHtml, dropTitle, ht, unrefStr] at h2
    rw [if_pos trivial] at h2
    split at h2
    · cases h2
    · cases h2; exact Nat.le_refl _
  · show run w (.owner i :: .unrefDoc :: List.replicate (w.mine t) (.dropString t)) = _
    simp only [run, step, unrefDoc, h0, destroyHtml, dropTitle, ht, unrefStr, Out.bind]
    rw [if_pos trivial]
    by_cases hz : w.strs t = 0
    · rw [if_pos hz]
    · rw [if_neg hz]
      dsimp only
      apply drops
      show less w.strs t t < w.mine t
      unfold less; rw [if_pos rfl]; omega

/-- Decides `Careful`. -/
def careful (gone : Bool) (w : S) : List Op → Bool
  | [] => true
  | o :: os => may w o && avoids gone w o &&
      (match step w o with
        | .ok w' => careful (gone || decide (w'.count = 0)) w' os
        | _ => true)

theorem careful_iff (gone : Bool) (w : S) (os : List Op) (h : careful gone w os = true) : Careful gone w os := by
  induction os generalizing gone w with
  | nil => exact True.intro
  | cons o os ih =>
    simp only [careful, Bool.and_eq_true] at h
    refine ⟨h.1.1, h.1.2, ?_⟩
    intro w' hw
    rw [hw] at h
    exact ih _ _ h.2

/-- A careful history with a title, an element, and a comment in the tree that the client holds; then the document
is given up, got back in a second document without a title, and everything is given back. -/
theorem C89_cases :
    let pre : List Op := [.newString 7, .create, .comment, .attach 1, .child 1, .unrefNode 1, .setTitle 7, .read 0,
      .getTitle, .dropString 7, .unrefDoc]
    let quiet : List Op := [.create, .unrefDoc, .owner 0, .comment, .attach 1, .unrefNode 1, .unrefDoc, .unrefNode 0]
    Careful false new pre ∧ (∃ w, run new pre = .ok w ∧ w.count = 0 ∧ w.title = some 7 ∧ w.mine 7 = 1 ∧
      w.nodes = [⟨1, true, false⟩, ⟨1, false, false⟩] ∧ w.block = true ∧ may w (.read 0) = true ∧
      may w (.owner 1) = true) ∧
    Careful false new quiet ∧ (∃ w, run new quiet = .ok w ∧ w.count = 0 ∧ w.nodes = [] ∧ w.block = false) := by
  refine ⟨careful_iff _ _ _ (by decide +kernel), ⟨_, rfl, ?_⟩, careful_iff _ _ _ (by decide +kernel), ⟨_, rfl, ?_⟩⟩
  · decide +kernel
  · decide +kernel

end Dom.Html.DocLife
