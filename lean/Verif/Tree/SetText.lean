import Verif.Tree.ReplaceText
import Verif.Tree.Content
/-!
# Setting `textContent`, src/core/node.c:1507-1549 (C30), with the release of the children
-/
set_option linter.unusedSimpArgs false
namespace Dom.Tree
open Dom.Str (DStr)

/-! ## The model -/

/-- The loop that removes the children and gives up the references which `removeChild` returns, src/core/node.c:1516-1528. -/
def clearLoop (node : NodeId) : Nat → Option NodeId → M Unit
  | _, none => pure ()
  | 0, some _ => M.crash .diverge
  | f + 1, some p => do
    let pn ← getNode p
    let r ← removeChild node p
    unref r
    clearLoop node f pn.next

/-- Appending the new Text node, src/core/node.c:1537-1546. -/
def appendText (node text : NodeId) : M Unit := fun w =>
  match appendChild node text w with
  | .ok w' r => (do unref text; unref r) w'
  | .exc w' e => (do unref text; M.throw e) w'
  | .fault f => .fault f

/-- `dom_node_set_text_content`: `_dom_characterdata_set_text_content` (src/core/characterdata.c:466-475), nothing for
Document and DocumentType (src/core/document.c:1265-1273, src/core/document_type.c:314-322), otherwise
`_dom_node_set_text_content`, src/core/node.c:1507-1549. -/
def setTextContent (node : NodeId) (content : Option DStr) : M Unit := do
  let n ← getNode node
  match n.type with
  | .text | .cdata | .comment => setData node content
  | .document | .doctype => pure ()
  | _ => do
    let bd ← bound
    clearLoop node bd n.first
    let n' ← getNode node
    cassert n'.owner.isSome
    let doc ← deref n'.owner
    let text ← createNode doc .text (some textName) content
    appendText node text

variable {w w' v : World} {ch ch' : Children} {x c p j : NodeId} {n cn : Node}

/-! ## Taking out one child -/

/-- Children of `x` were taken out, those of `l`: they are in no child list, they are freed unless a reference to them is held, no reference is lost or made, and
what does not lie below them is as before. -/
structure Cut (w : World) (ch : Children) (l : List NodeId) (w' : World) (ch' : Children) : Prop where
  sound : Sound w' ch'
  lists : ∀ q m', w'.nodes q = some m' → ch' q = (ch q).filter (fun c => decide (c ∉ l))
  counts : ∀ j, count w' j = count w j
  freed : ∀ c ∈ l, count w c = 0 → w'.nodes c = none
  alone : ∀ c ∈ l, ∀ m', w'.nodes c = some m' → m'.parent = none
  back : ∀ j m', w'.nodes j = some m' → ∃ m, w.nodes j = some m ∧ m'.data = m.data ∧ m'.owner = m.owner ∧ m'.refcnt = m.refcnt ∧ (m'.parent = m.parent ∨ m'.parent = none)
  kept : ∀ j m, w.nodes j = some m → (∀ c ∈ l, ¬ AncSelf w j c) → ∃ m', w'.nodes j = some m' ∧ m'.data = m.data ∧ m'.owner = m.owner ∧ m'.refcnt = m.refcnt ∧ m'.parent = m.parent
  fresh : w'.fresh = w.fresh

theorem Dies.anc (h : Dies w x j) : AncSelf w j x := by
  induction h with
  | self => exact .refl
  | down _ hc hp _ ih => exact Relation.ReflTransGen.head ⟨_, hc, hp⟩ ih

theorem Cut.refl (S : Sound w ch) : Cut w ch [] w ch :=
  ⟨S, fun q _ _ => by simp, fun _ => rfl, fun _ h => (nomatch h), fun _ h => (nomatch h), fun j m h => ⟨m, h, rfl, rfl, rfl, .inl rfl⟩, fun j m h _ => ⟨m, h, rfl, rfl, rfl, rfl⟩, rfl⟩

theorem Cut.anc {l : List NodeId} (C : Cut w ch l w' ch') {i : NodeId} (h : AncSelf w' i j) : AncSelf w i j := by
  refine Relation.ReflTransGen.mono ?_ _ _ h
  rintro a b ⟨m, hm, hp⟩
  obtain ⟨m0, h0, _, _, _, h1 | h1⟩ := C.back a m hm
  · exact ⟨m0, h0, by rw [← h1]; exact hp⟩
  · rw [hp] at h1; cases h1

theorem Cut.trans {l l' : List NodeId} {w1 : World} {ch1 : Children} (C : Cut w ch l w1 ch1) (D : Cut w1 ch1 l' w' ch') : Cut w ch (l ++ l') w' ch' := by
  refine ⟨D.sound, ?_, fun j => (D.counts j).trans (C.counts j), ?_, ?_, ?_, ?_, D.fresh.trans C.fresh⟩
  · intro q m' hq
    obtain ⟨m, hm, _⟩ := D.back q m' hq
    rw [D.lists q m' hq, C.lists q m hm, List.filter_filter]
    refine List.filter_congr fun y _ => ?_
    by_cases h1 : y ∈ l <;> by_cases h2 : y ∈ l' <;> simp [h1, h2]
  · intro c hc h0
    rcases List.mem_append.1 hc with h | h
    · cases hn : w'.nodes c with
      | none => rfl
      | some m' =>
        obtain ⟨m, hm, _⟩ := D.back c m' hn
        rw [C.freed c h h0] at hm; cases hm
    · exact D.freed c h (by rw [C.counts c]; exact h0)
  · intro c hc m' hm'
    rcases List.mem_append.1 hc with h | h
    · obtain ⟨m, hm, _, _, _, e | e⟩ := D.back c m' hm'
      · rw [e]; exact C.alone c h m hm
      · exact e
    · exact D.alone c h m' hm'
  · intro j m' hj
    obtain ⟨m1, h1, a1, a2, a3, a4⟩ := D.back j m' hj
    obtain ⟨m, hm, b1, b2, b3, b4⟩ := C.back j m1 h1
    refine ⟨m, hm, a1.trans b1, a2.trans b2, a3.trans b3, ?_⟩
    rcases a4 with a4 | a4
    · rw [a4]; exact b4
    · exact .inr a4
  · intro j m hm hj
    obtain ⟨m1, h1, a1, a2, a3, a4⟩ := C.kept j m hm (fun c hc => hj c (List.mem_append_left _ hc))
    obtain ⟨m2, h2, b1, b2, b3, b4⟩ := D.kept j m1 h1 (fun c hc ha => hj c (List.mem_append_right _ hc) (C.anc ha))
    exact ⟨m2, h2, b1.trans a1, b2.trans a2, b3.trans a3, b4.trans a4⟩

/-- The types of children. -/
theorem child_type {a b : NodeType} (h : MayContain a b) : b ≠ .attribute ∧ b ≠ .document ∧ b ≠ .fragment := by
  cases h with
  | content _ hc => simp at hc; rcases hc with h | h | h | h | h | h <;> simp [h]
  | attr hc => simp at hc; rcases hc with h | h <;> simp [h]
  | doc hc => simp at hc; rcases hc with h | h | h | h <;> simp [h]

theorem count_some (h : w.nodes j = some n) : count w j = n.refcnt := by simp [count, h]
theorem count_none (h : w.nodes j = none) : count w j = 0 := by simp [count, h]

/-- `c` was taken out of its parent, with one reference to it made; the references of the others are as before. -/
structure Severed (w : World) (ch : Children) (c : NodeId) (w1 : World) (ch1 : Children) : Prop where
  lists : ∀ q, ch1 q = (ch q).filter (· ≠ c)
  data : ∀ j, (w1.nodes j).map Node.data = (w.nodes j).map Node.data
  refs : ∀ j, (w1.nodes j).map Node.refcnt = (w.nodes j).map fun n => if j = c then u32 (n.refcnt + 1) else n.refcnt
  owner : ∀ j, (w1.nodes j).map Node.owner = (w.nodes j).map Node.owner
  fresh : w1.fresh = w.fresh
  parents : ∀ j, (w1.nodes j).map Node.parent = (w.nodes j).map fun n => if j = c then none else n.parent

/-- The reference to a child that was taken out is given up. -/
theorem cut_finish {w1 : World} {ch1 : Children} (S : Sound w ch) (hx : w.nodes x = some n) (hmem : c ∈ ch x) (hov : Room w c) (hdoc : DocKept w x)
    (hcl : count w c = 0 → Clean w c) (S1 : Sound w1 ch1) (R : Severed w ch c w1 ch1) :
    ∃ w' ch', unref c w1 = .ok w' () ∧ Cut w ch [c] w' ch' := by
  obtain ⟨cn, hcn, hca, hcp⟩ := S.wf.linked.alive_child hmem
  have hov := hov cn hcn
  obtain ⟨_, hcd, hcf⟩ := child_type (S.wf.types x n c cn hx hmem hcn)
  obtain ⟨n1, hn1, hd1⟩ := map_some_eq (R.data c) hcn
  obtain ⟨n1', hn1', hr1⟩ := map_some_eq (R.refs c) hcn
  rw [hn1] at hn1'; cases hn1'
  obtain ⟨n1', hn1', ho1⟩ := map_some_eq (R.owner c) hcn
  rw [hn1] at hn1'; cases hn1'
  obtain ⟨n1', hn1', hp1⟩ := map_some_eq (R.parents c) hcn
  rw [hn1] at hn1'; cases hn1'
  rw [if_pos rfl] at hp1
  rw [if_pos rfl, u32_small (by omega)] at hr1
  have hty1 : n1.type = cn.type := Node.data_type hd1
  have rest1 : ∀ j m, j ≠ c → w.nodes j = some m → ∃ m', w1.nodes j = some m' ∧ m'.data = m.data ∧ m'.owner = m.owner ∧ m'.refcnt = m.refcnt ∧ m'.parent = m.parent := by
    intro j m hj hm
    obtain ⟨m1, k1, k2⟩ := map_some_eq (R.data j) hm
    obtain ⟨m2, k3, k4⟩ := map_some_eq (R.owner j) hm
    rw [k1] at k3; cases k3
    obtain ⟨m2, k3, k5⟩ := map_some_eq (R.refs j) hm
    rw [k1] at k3; cases k3
    obtain ⟨m2, k3, k6⟩ := map_some_eq (R.parents j) hm
    rw [k1] at k3; cases k3
    rw [if_neg hj] at k5 k6
    exact ⟨m1, k1, k2, k4, k5, k6⟩
  have back1 : ∀ j m', w1.nodes j = some m' → ∃ m, w.nodes j = some m := by
    intro j m' hj
    have := R.data j
    rw [hj] at this
    cases h : w.nodes j with
    | none => rw [h] at this; cases this
    | some m => exact ⟨m, rfl⟩
  have back2 : ∀ j m', j ≠ c → w1.nodes j = some m' → ∃ m, w.nodes j = some m ∧ m'.data = m.data ∧ m'.owner = m.owner ∧ m'.refcnt = m.refcnt ∧ m'.parent = m.parent := by
    intro j m' hj hm'
    obtain ⟨m, hm⟩ := back1 j m' hm'
    obtain ⟨m1, k, r⟩ := rest1 j m hj hm
    rw [hm'] at k; cases k
    exact ⟨m, hm, r⟩
  have par1 : ∀ a q, ParentOf w1 a q → ParentOf w a q := by
    rintro a q ⟨m, hm, hp⟩
    by_cases ha : a = c
    · rw [ha, hn1] at hm; cases hm; rw [hp1] at hp; cases hp
    · obtain ⟨m0, h0, _, _, _, h1⟩ := back2 a m ha hm
      exact ⟨m0, h0, by rw [← h1]; exact hp⟩
  have anc1 : ∀ i k, AncSelf w1 i k → AncSelf w i k := fun i k h => Relation.ReflTransGen.mono (fun a q h => par1 a q h) _ _ h
  have hclist : ∀ q, c ∉ ch1 q := fun q h => by rw [R.lists q] at h; simp at h
  have hfil : ∀ q, ch1 q = (ch q).filter (fun y => decide (y ∉ [c])) := by
    intro q; rw [R.lists q]; exact List.filter_congr fun y _ => by simp
  by_cases hz : cn.refcnt = 0
  · -- the last reference
    have dies1 : ∀ j, Dies w1 c j → Dies w c j := by
      intro j h
      induction h with
      | self => exact .self
      | @down p k m _ hk hp hr ih =>
        by_cases hkc : k = c
        · rw [hkc]; exact .self
        · obtain ⟨m0, h0, _, _, h2, h3⟩ := back2 k m hkc hk
          exact .down ih h0 (by rw [← h3]; exact hp) (by rw [← h2]; exact hr)
    have orph1 : ∀ j, Orphaned w1 c j → j ≠ c ∧ Orphaned w c j := by
      rintro j ⟨p, m, hd, hj, hp, hr⟩
      have hjc : j ≠ c := by rintro rfl; rw [hn1] at hj; cases hj; rw [hp1] at hp; cases hp
      obtain ⟨m0, h0, _, _, h2, h3⟩ := back2 j m hjc hj
      exact ⟨hjc, p, m0, dies1 p hd, h0, by rw [← h3]; exact hp, by rw [← h2]; exact hr⟩
    have clean1 : Clean w1 c := by
      intro j m1 hj hm1
      obtain ⟨hjc, ho⟩ := orph1 j hj
      obtain ⟨m, hm, hmd, _, _, hmp⟩ := back2 j m1 hjc hm1
      obtain ⟨a1, a2⟩ := hcl (by rw [count_some hcn]; exact hz) j m ho hm
      by_cases hat : m.type = .attribute
      · exact S1.wf.linked.orphan j m1 hm1 (.inr (by rw [Node.data_type hmd]; exact hat))
      obtain ⟨p, m', hd, hm', hp, _⟩ := hj
      rw [hm1] at hm'; cases hm'
      have hjp : j ∈ ch p := S.wf.linked.up j m p hm hat (by rw [← hmp]; exact hp)
      have hpx : p ≠ x := by
        rintro rfl
        have h1 := (dies1 p hd).anc
        have hw : WellFounded (Relation.TransGen (fun p c => ParentOf w c p)) := S.wf.toCore.wf.transGen
        have h2 : Relation.TransGen (fun p c => ParentOf w c p) p p := by
          have h3 : Relation.ReflTransGen (fun p c => ParentOf w c p) c p := Relation.reflTransGen_swap.1 h1
          exact Relation.TransGen.head' ⟨cn, hcn, hcp⟩ h3
        exact wf_irrefl hw p h2
      have hl : ch1 p = ch p := by
        rw [R.lists p]
        refine List.filter_eq_self.2 fun y hy => ?_
        simp only [ne_eq, decide_not, Bool.not_eq_true', decide_eq_false_iff_not]
        rintro rfl
        exact hpx (S.wf.linked.mem_unique hy hmem)
      obtain ⟨a, b, hab⟩ := List.append_of_mem hjp
      obtain ⟨pn, hpn⟩ := S.wf.linked.alive_parent hm (by rw [← hmp]; exact hp)
      obtain ⟨pn1, hpn1⟩ := S1.wf.linked.alive_parent hm1 hp
      obtain ⟨k, hk, _, _, k1, k2⟩ := (S.wf.linked.loc p pn hpn).kids a j b hab
      rw [hm] at hk; cases hk
      obtain ⟨k, hk, _, _, k3, k4⟩ := (S1.wf.linked.loc p pn1 hpn1).kids a j b (by rw [hl]; exact hab)
      rw [hm1] at hk; cases hk
      exact ⟨by rw [k3, ← k1]; exact a1, by rw [k4, ← k2]; exact a2⟩
    have hox := S.wf.ownSame c cn x n hcn hcp hx
    obtain ⟨d, dn, hod, hdn, hdt⟩ : ∃ d dn, n1.owner = some d ∧ w1.nodes d = some dn ∧ dn.type = .document := by
      rcases S.wf.owner c cn hcn with ⟨d, dn, o1, o2, o3⟩ | ⟨_, _, o1⟩
      · have hdc : d ≠ c := by rintro rfl; rw [hcn] at o2; cases o2; exact hcd o3
        obtain ⟨dn1, k1, k2, _⟩ := rest1 d dn hdc o2
        exact ⟨d, dn1, by rw [ho1]; exact o1, k1, by rw [Node.data_type k2]; exact o3⟩
      · rw [hcp] at o1; cases o1
    have hdc : d ≠ c := by rintro rfl; rw [hn1] at hdn; cases hdn; rw [hty1] at hdt; exact hcd hdt
    have hdk : 0 < dn.refcnt := by
      obtain ⟨dn0, hdn0⟩ := back1 d dn hdn
      obtain ⟨dn1, k1, _, _, k2, _⟩ := rest1 d dn0 hdc hdn0
      rw [hdn] at k1; cases k1
      rw [k2]
      exact hdoc n d dn0 hx (by rw [← hox, ← ho1]; exact hod) hdn0
    obtain ⟨v, hv, P⟩ := unref_root S1.wf S1.attrs hn1 (by rw [hr1, hz]) hp1 (by rw [hty1]; exact hcd) (fun h => absurd (hty1 ▸ h) hcf) hod hdn (by intro h; omega)
    obtain ⟨v', ch', hv', S'⟩ := S1.unref hn1 (by omega) (fun _ _ => ⟨clean1, fun h => absurd (hty1 ▸ h) hcd⟩)
    rw [hv] at hv'; cases hv'
    have hcnt := S1.unref_count hn1 (by omega) hv
    have hdead : ∀ j, Dies w1 c j → v.nodes j = none := fun j h => P.dead j (.inl h)
    have notD : ∀ j, ¬ Dies w1 c j → ¬ (Dies w1 c j ∨ (j = d ∧ n1.pendingIn ≠ none ∧ dn.refcnt = 0 ∧ ¬ Needed w1 c d)) := by
      rintro j hj (h | ⟨_, _, h, _⟩)
      · exact hj h
      · omega
    have notE : ∀ j, ¬ (j = d ∧ n1.pendingIn ≠ none ∧ dn.refcnt = 0 ∧ Needed w1 c d) := by rintro j ⟨_, _, h, _⟩; omega
    have hsame : ∀ j, ¬ Dies w1 c j → ¬ Orphaned w1 c j → v.nodes j = w1.nodes j := fun j h1 h2 => P.same j (notD j h1) h2 (notE j)
    have hcut : ∀ j m, ¬ Dies w1 c j → Orphaned w1 c j → w1.nodes j = some m → v.nodes j = some { m with parent := none, pendingIn := m.owner } :=
      fun j m h1 h2 h3 => P.cut j m h2 (notD j h1) h3
    have live : ∀ j m', v.nodes j = some m' → ¬ Dies w1 c j := fun j m' h hd => by rw [hdead j hd] at h; cases h
    have hback : ∀ j m', v.nodes j = some m' → j ≠ c ∧ ∃ m1, w1.nodes j = some m1 ∧ m'.first = m1.first ∧ m'.data = m1.data ∧ m'.owner = m1.owner ∧ m'.refcnt = m1.refcnt ∧ (m'.parent = m1.parent ∨ m'.parent = none) := by
      intro j m' hj
      have hnd := live j m' hj
      refine ⟨fun h => hnd (h ▸ .self), ?_⟩
      by_cases ho : Orphaned w1 c j
      · have ho' := ho
        obtain ⟨p, m1, _, hm1, _, _⟩ := ho'
        rw [hcut j m1 hnd ho hm1] at hj
        cases hj
        exact ⟨m1, hm1, rfl, rfl, rfl, rfl, .inr rfl⟩
      · rw [hsame j hnd ho] at hj
        exact ⟨m', hj, rfl, rfl, rfl, rfl, .inl rfl⟩
    have hlists : ∀ q m', v.nodes q = some m' → ch' q = ch1 q := by
      intro q m' hq
      have hnd := live q m' hq
      obtain ⟨_, m1, hm1, hf, _⟩ := hback q m' hq
      refine children_det (S1.wf.linked.loc q m1 hm1) (S'.wf.linked.loc q m' hq) (by rw [hq, hm1]; simp [hf]) ?_
      intro k hk
      obtain ⟨km, hkm, _, hkp⟩ := S1.wf.linked.alive_child hk
      refine hsame k ?_ ?_
      · intro h
        cases h with
        | self => exact hclist q hk
        | down hp' hk' hpp _ =>
          rw [hkm] at hk'; cases hk'
          rw [hkp] at hpp; cases hpp
          exact hnd hp'
      · rintro ⟨p', m2, hp', hk', hpp, _⟩
        rw [hkm] at hk'; cases hk'
        rw [hkp] at hpp; cases hpp
        exact hnd hp'
    refine ⟨v, ch', hv, S', fun q m' hq => by rw [hlists q m' hq, hfil q], ?_, ?_, ?_, ?_, ?_, P.fresh.trans R.fresh⟩
    · intro j
      rw [hcnt j]
      by_cases hj : j = c
      · rw [if_pos hj, hj, count_some hn1, count_some hcn, hr1]; omega
      · rw [if_neg hj]
        cases h : w.nodes j with
        | some m =>
          obtain ⟨m', k1, _, _, k2, _⟩ := rest1 j m hj h
          rw [count_some k1, count_some h, k2]
        | none =>
          cases h1 : w1.nodes j with
          | none => rw [count_none h1, count_none h]
          | some m' => obtain ⟨m, hm⟩ := back1 j m' h1; rw [h] at hm; cases hm
    · intro k hk _
      rw [List.mem_singleton.1 hk]; exact hdead c .self
    · intro k hk m' hm'
      rw [List.mem_singleton.1 hk, hdead c .self] at hm'; cases hm'
    · intro j m' hj
      obtain ⟨hjc, m1, hm1, _, b1, b2, b3, b4⟩ := hback j m' hj
      obtain ⟨m, hm, a1, a2, a3, a4⟩ := back2 j m1 hjc hm1
      exact ⟨m, hm, b1.trans a1, b2.trans a2, b3.trans a3, by rw [← a4]; exact b4⟩
    · intro j m hm hj
      have hja := hj c (by simp)
      have hjc : j ≠ c := by rintro rfl; exact hja .refl
      rw [hsame j (fun h => hja (anc1 _ _ h.anc)) ?_]
      · exact rest1 j m hjc hm
      · rintro ⟨p, k, hd, hk, hp, _⟩
        exact hja (anc1 _ _ (Relation.ReflTransGen.head ⟨k, hk, hp⟩ hd.anc))
  · have hk := unref_keep hn1 (by omega) (.inl (by omega : n1.refcnt ≠ 1))
    have S2 := S1.setRef (r := n1.refcnt - 1) hn1 (fun _ _ => by omega) (fun h => absurd (hty1 ▸ h) hcd)
    have hnode : ∀ j m', (w1.upd c { n1 with refcnt := n1.refcnt - 1 }).nodes j = some m' →
        (j = c ∧ m' = { n1 with refcnt := n1.refcnt - 1 }) ∨ (j ≠ c ∧ w1.nodes j = some m') := by
      intro j m' hj
      by_cases h : j = c
      · subst h
        rw [upd_same] at hj; cases hj
        exact .inl ⟨rfl, rfl⟩
      · rw [upd_ne _ _ h] at hj
        exact .inr ⟨h, hj⟩
    have hfresh : (w1.upd c { n1 with refcnt := n1.refcnt - 1 }).fresh = w1.fresh := rfl
    refine ⟨_, ch1, hk, S2, fun q _ _ => hfil q, ?_, ?_, ?_, ?_, ?_, hfresh.trans R.fresh⟩
    · intro j
      by_cases hj : j = c
      · subst hj
        rw [count_some (upd_same _ _ _), count_some hcn]
        show n1.refcnt - 1 = cn.refcnt
        omega
      · cases h : w.nodes j with
        | some m =>
          obtain ⟨m', k1, _, _, k2, _⟩ := rest1 j m hj h
          rw [count_some (by rw [upd_ne _ _ hj]; exact k1), count_some h, k2]
        | none =>
          cases h1 : w1.nodes j with
          | none => rw [count_none (by rw [upd_ne _ _ hj]; exact h1), count_none h]
          | some m' => obtain ⟨m, hm⟩ := back1 j m' h1; rw [h] at hm; cases hm
    · intro k hk' h0
      rw [List.mem_singleton.1 hk', count_some hcn] at h0
      exact absurd h0 hz
    · intro k hk' m' hm'
      rcases hnode k m' hm' with ⟨_, rfl⟩ | ⟨h, _⟩
      · exact hp1
      · exact absurd (List.mem_singleton.1 hk') h
    · intro j m' hj
      rcases hnode j m' hj with ⟨rfl, rfl⟩ | ⟨h, hm⟩
      · exact ⟨cn, hcn, hd1, ho1, by show n1.refcnt - 1 = cn.refcnt; omega, .inr hp1⟩
      · obtain ⟨m, hm, a1, a2, a3, a4⟩ := back2 j m' h hm
        exact ⟨m, hm, a1, a2, a3, .inl a4⟩
    · intro j m hm hj
      have hjc : j ≠ c := by rintro rfl; exact hj j (by simp) .refl
      rw [upd_ne _ _ hjc]
      exact rest1 j m hjc hm

/-- One child: removed, and the reference given up. -/
theorem cut_run (S : Sound w ch) (hx : w.nodes x = some n) (ht : n.type ≠ .document) (hro : ¬ ReadOnly w x) (hmem : c ∈ ch x) (hov : Room w c) (hdoc : DocKept w x)
    (hcl : count w c = 0 → Clean w c) :
    ∃ w1 w' ch', removeChild x c w = .ok w1 c ∧ unref c w1 = .ok w' () ∧ Cut w ch [c] w' ch' := by
  obtain ⟨cn, hcn, hca, hcp⟩ := S.wf.linked.alive_child hmem
  have hrr : removeRefusal w ch x c n cn = none := by
    unfold removeRefusal
    rw [if_neg (fun h => ht h.1), if_neg (not_not.2 hmem), if_neg hro]
  obtain ⟨w1, ch1, e1, R⟩ := removeChild_ok S.wf hx hcn (fun h => absurd h hca) hrr
  obtain ⟨w', ch', e2, C⟩ := cut_finish S hx hmem hov hdoc hcl (S.removed R hcn hca (hov cn hcn)) ⟨R.lists, R.data, R.refs, R.owner, R.fresh, R.parents⟩
  exact ⟨w1, w', ch', e1, e2, C⟩

/-! ## Taking out all of them -/

theorem child_not_above (hW : WF w ch) (hmem : c ∈ ch x) : ¬ AncSelf w x c := by
  intro h
  obtain ⟨cn, hcn, _, hcp⟩ := hW.linked.alive_child hmem
  have hw : WellFounded (Relation.TransGen (fun p c => ParentOf w c p)) := hW.toCore.wf.transGen
  have h3 : Relation.ReflTransGen (fun p c => ParentOf w c p) c x := Relation.reflTransGen_swap.1 h
  exact wf_irrefl hw x (Relation.TransGen.head' ⟨cn, hcn, hcp⟩ h3)

/-- Children that are still there are as clean as before. -/
theorem Cut.clean {l : List NodeId} (C : Cut w ch l w' ch') (S : Sound w ch) (hl : ∀ y ∈ l, y ∈ ch x) (hmem : c ∈ ch x) (h : Clean w c) : Clean w' c := by
  have dies : ∀ j, Dies w' c j → Dies w c j := by
    intro j h
    induction h with
    | self => exact .self
    | @down p k m _ hk hp hr ih =>
      obtain ⟨m0, h0, _, _, h2, h3 | h3⟩ := C.back k m hk
      · exact .down ih h0 (by rw [← h3]; exact hp) (by rw [← h2]; exact hr)
      · rw [hp] at h3; cases h3
  rintro j m' ⟨p, m1, hd, hm1, hp, hr⟩ hm'
  rw [hm'] at hm1; cases hm1
  obtain ⟨m, hm, hmd, _, hmr, hmp | hmp⟩ := C.back j m' hm'
  swap
  · rw [hp] at hmp; cases hmp
  obtain ⟨a1, a2⟩ := h j m ⟨p, m, dies p hd, hm, by rw [← hmp]; exact hp, by rw [← hmr]; exact hr⟩ hm
  by_cases hat : m.type = .attribute
  · exact C.sound.wf.linked.orphan j m' hm' (.inr (by rw [Node.data_type hmd]; exact hat))
  have hjp : j ∈ ch p := S.wf.linked.up j m p hm hat (by rw [← hmp]; exact hp)
  have hpx : p ≠ x := by
    rintro rfl
    exact child_not_above S.wf hmem (dies p hd).anc
  obtain ⟨pn, hpn⟩ := S.wf.linked.alive_parent hm (by rw [← hmp]; exact hp)
  obtain ⟨pn1, hpn1⟩ := C.sound.wf.linked.alive_parent hm' hp
  have hl' : ch' p = ch p := by
    rw [C.lists p pn1 hpn1]
    refine List.filter_eq_self.2 fun y hy => ?_
    simp only [decide_eq_true_eq]
    intro hyl
    exact hpx (S.wf.linked.mem_unique hy (hl y hyl))
  obtain ⟨a, b, hab⟩ := List.append_of_mem hjp
  obtain ⟨k, hk, _, _, k1, k2⟩ := (S.wf.linked.loc p pn hpn).kids a j b hab
  rw [hm] at hk; cases hk
  obtain ⟨k, hk, _, _, k3, k4⟩ := (C.sound.wf.linked.loc p pn1 hpn1).kids a j b (by rw [hl']; exact hab)
  rw [hm'] at hk; cases hk
  exact ⟨by rw [k3, ← k1]; exact a1, by rw [k4, ← k2]; exact a2⟩

theorem Cut.ro {l : List NodeId} (C : Cut w ch l w' ch') {i : NodeId} (h : ¬ ReadOnly w i) : ¬ ReadOnly w' i := by
  rintro ⟨m', hm', hc⟩
  obtain ⟨m, hm, hd, _⟩ := C.back i m' hm'
  have ht := Node.data_type hd
  have hro : m'.attrRO = m.attrRO := by
    have := congrArg Node.attrRO hd; exact this
  rw [ht, hro] at hc
  refine h ⟨m, hm, ?_⟩
  rcases hc with h | h | h | ⟨h, j, k', ha, hk', hkt⟩
  · exact .inl h
  · exact .inr (.inl h)
  · exact .inr (.inr (.inl h))
  · obtain ⟨k, hk, hkd, _⟩ := C.back j k' hk'
    exact .inr (.inr (.inr ⟨h, j, k, C.anc ha, hk, by rw [← Node.data_type hkd]; exact hkt⟩))

theorem Cut.docKept {l : List NodeId} (C : Cut w ch l w' ch') {i : NodeId} (h : DocKept w i) : DocKept w' i := by
  intro n' d dn' hn' ho hd
  obtain ⟨n, hn, _, e, _⟩ := C.back i n' hn'
  obtain ⟨dn, hdn, _, _, e2, _⟩ := C.back d dn' hd
  rw [e2]
  exact h n d dn hn (by rw [← e]; exact ho) hdn

theorem clear_run : ∀ (l : List NodeId) {w : World} {ch : Children} {n : Node} (f : Nat), Sound w ch → w.nodes x = some n → n.type ≠ .document → ¬ ReadOnly w x → ch x = l →
    l.length ≤ f → (∀ c ∈ ch x, Room w c) → DocKept w x → (∀ c ∈ ch x, count w c = 0 → Clean w c) →
    ∃ w' ch', clearLoop x f l.head? w = .ok w' () ∧ Cut w ch l w' ch' := by
  intro l
  induction l with
  | nil =>
    intro w ch n f S hx ht hro hl hf hov hdoc hcl
    exact ⟨w, ch, by cases f <;> rfl, Cut.refl S⟩
  | cons c l ih =>
    intro w ch n f S hx ht hro hl hf hov hdoc hcl
    cases f with
    | zero => simp at hf
    | succ f =>
      have hmem : c ∈ ch x := by rw [hl]; simp
      obtain ⟨cn, hcn, _, _, _, hnext⟩ := (S.wf.linked.loc x n hx).kids [] c l hl
      obtain ⟨w0, w1, ch1, h1, h2, C⟩ := cut_run S hx ht hro hmem (hov c hmem) hdoc (hcl c hmem)
      obtain ⟨n1, hn1, hd1, _⟩ := C.kept x n hx (fun k hk => by rw [List.mem_singleton.1 hk]; exact child_not_above S.wf hmem)
      have hnd := (S.wf.linked.loc x n hx).nodup
      rw [hl] at hnd
      have hcl' : c ∉ l := (List.nodup_cons.1 hnd).1
      have hl1 : ch1 x = l := by
        rw [C.lists x n1 hn1, hl, List.filter_cons_of_neg (by simp)]
        exact List.filter_eq_self.2 fun y hy => by
          simp only [List.mem_singleton, decide_eq_true_eq]
          rintro rfl; exact hcl' hy
      have hsub : ∀ y ∈ ch1 x, y ∈ ch x := fun y hy => by rw [hl1] at hy; rw [hl]; exact List.mem_cons_of_mem _ hy
      obtain ⟨w', ch', e1, D⟩ := ih f C.sound hn1 (by rw [Node.data_type hd1]; exact ht) (C.ro hro) hl1 (by simpa using hf)
        (fun y hy m' hm' => by
          obtain ⟨m, hm, _, _, e, _⟩ := C.back y m' hm'
          rw [e]; exact hov y (hsub y hy) m hm)
        (C.docKept hdoc)
        (fun y hy h0 => C.clean S (fun k hk => by rw [List.mem_singleton.1 hk]; exact hmem) (hsub y hy) (hcl y (hsub y hy) (by rw [← C.counts y]; exact h0)))
      refine ⟨w', ch', ?_, C.trans D⟩
      simp only [List.head?_cons, clearLoop]
      rw [get_bind hcn, bind_ok h1, bind_ok h2, hnext, e1]

/-! ## The property -/

/-- The call on a node that holds children. -/
theorem set_eq (hx : w.nodes x = some n) (ht : n.type ∉ [.text, .cdata, .comment, .document, .doctype]) (s : Option DStr) : setTextContent x s w = (do
    let bd ← bound
    clearLoop x bd n.first
    let n' ← getNode x
    cassert n'.owner.isSome
    let doc ← deref n'.owner
    let text ← createNode doc .text (some textName) s
    appendText x text) w := by
  unfold setTextContent
  rw [get_bind hx]
  cases h : n.type <;> rw [h] at ht <;> first | rfl | simp at ht

/-- C30, writing.  On an element, a fragment or an attribute that is not read-only, `setTextContent s` returns normally (for every string, and NULL); afterwards the node has
exactly one child, a new Text node with the data `s` that no client holds; every child there was is freed unless a client holds it, and those are without parent; the number of
references to every node is as before, and the memory is sound, so nothing leaks or dangles; what does not lie below the old children has the same data, owner and parent; the
other child lists are as before; and reading the text content gives `s`.

The node and its document are referenced, no reference count is at its limit, and the nodes that clients hold below a child that goes have no siblings (otherwise pointers to
freed siblings stay behind: `C30_dangling_violated`).

Missing from the full claim: for an empty `s` the node should have no child, but the code always makes one
(`C30_empty_violated`). -/
theorem C30_write_partial (S : Sound w ch) (hx : w.nodes x = some n) (ht : n.type = .element ∨ n.type = .fragment ∨ n.type = .attribute) (hro : ¬ ReadOnly w x)
    (hh : 0 < n.refcnt) (hdoc : DocKept w x) (hov : ∀ c ∈ ch x, Room w c) (hcl : ∀ c ∈ ch x, count w c = 0 → Clean w c) (s : Option DStr) :
    ∃ w' ch' t tn, setTextContent x s w = .ok w' () ∧ Sound w' ch' ∧ ch' x = [t] ∧
      w.nodes t = none ∧ w'.nodes t = some tn ∧ tn.type = .text ∧ tn.value = s ∧ tn.owner = n.owner ∧
      (∀ j, count w' j = count w j) ∧
      (∀ c ∈ ch x, ∀ m, w.nodes c = some m → (m.refcnt = 0 → w'.nodes c = none) ∧ (m.refcnt ≠ 0 → ∃ m', w'.nodes c = some m' ∧ m'.data = m.data ∧ m'.owner = m.owner ∧ m'.parent = none)) ∧
      (∀ q m', q ≠ x → w'.nodes q = some m' → ch' q = ch q) ∧
      (∀ j m, w.nodes j = some m → (∀ c ∈ ch x, ¬ AncSelf w j c) → ∃ m', w'.nodes j = some m' ∧ m'.data = m.data ∧ m'.owner = m.owner ∧ m'.parent = m.parent) ∧
      ∃ r, getTextContent w' x = .ok r ∧ bytesOf r = bytesOf s := by
  have hnd : n.type ≠ .document := by rcases ht with h | h | h <;> simp [h]
  have hfirst : n.first = (ch x).head? := by
    obtain ⟨n', hn', h, _⟩ := (S.wf.linked.loc x n hx).ends
    rw [hx] at hn'; cases hn'; exact h
  obtain ⟨w1, ch1, e1, C⟩ := clear_run (ch x) (w.fresh + 1) S hx hnd hro rfl (Nat.le_succ_of_le (child_length_le S.wf.toCore x)) hov hdoc hcl
  obtain ⟨n1, hn1, hn1d, hn1o, hn1r, hn1p⟩ := C.kept x n hx (fun c hc => child_not_above S.wf hc)
  have hn1t : n1.type = n.type := Node.data_type hn1d
  obtain ⟨d, dn, hod, hd, hdt⟩ : ∃ d dn, n1.owner = some d ∧ w1.nodes d = some dn ∧ dn.type = .document := by
    rcases C.sound.wf.owner x n1 hn1 with h | ⟨h, _⟩
    · exact h
    · rcases ht with h' | h' | h' <;> simp [hn1t, h'] at h
  have hW1 := C.sound.wf
  let tn := newNode (some d) .text (some textName) s
  have Sn : Sound (w1.add tn) ch1 := C.sound.add (WF_createNode hW1 hd hdt (by simp) _ _) rfl rfl rfl rfl (fun h => by cases h)
  have hrun2 := createNode_run hW1.toCore hd .text (some textName) s
  have hro2 : ¬ ReadOnly (w1.add tn) x := Xml.ro_add hW1.toCore hn1 (C.ro hro)
  have hdk : 0 < dn.refcnt := C.docKept hdoc n1 d dn hn1 hod hd
  have hmay : MayContain n1.type .text := by
    rw [hn1t]
    rcases ht with h | h | h <;> rw [h]
    · exact .content (by simp) (by simp)
    · exact .content (by simp) (by simp)
    · exact .attr (by simp)
  have hperm : Permitted (w1.add tn) ch1 x w1.fresh := (Xml.permitted_iff hW1.toCore hn1).2 ⟨hmay, fun h => absurd (hn1t ▸ h) hnd⟩
  obtain ⟨_, w2, ch2, e2, G⟩ | ⟨h, _⟩ := Xml.append_new C.sound Sn hd hdt hdk hn1 hod (fun h => absurd (hn1t ▸ h) hnd) (fun _ => by rw [hn1r]; exact hh)
    (by rw [hn1t]; rcases ht with h | h | h <;> simp [h]) hro2 rfl rfl (by simp [tn, newNode]) (.inl rfl)
  swap
  · exact absurd hperm h
  obtain ⟨w3, e3, G3⟩ := G.unref
  obtain ⟨w4, e4, G4⟩ := G3.unref
  obtain ⟨t4, ht4, td, tow, tp, tr⟩ := G4.new
  have hty : t4.type = .text := by rw [Node.data_type td]; rfl
  have htv : t4.value = s := by
    have := congrArg Node.value td; exact this
  have hfr : w1.fresh = w.fresh := C.fresh
  have keep4 : ∀ j m, w1.nodes j = some m → j ≠ w1.fresh ∧ ∃ m', w4.nodes j = some m' ∧ m'.data = m.data ∧ m'.owner = m.owner ∧ m'.refcnt = m.refcnt ∧ m'.parent = m.parent := by
    intro j m hm
    have hj : j ≠ w1.fresh := by rintro rfl; rw [fresh_dead hW1.toCore] at hm; cases hm
    obtain ⟨m1, k1, k2⟩ := map_some_eq (G4.data j hj) hm
    obtain ⟨m2, k3, k4⟩ := map_some_eq (G4.owner j hj) hm
    rw [k1] at k3; cases k3
    obtain ⟨m2, k3, k5⟩ := map_some_eq (G4.refs j hj) hm
    rw [k1] at k3; cases k3
    obtain ⟨m2, k3, k6⟩ := map_some_eq (G4.parents j hj) hm
    rw [k1] at k3; cases k3
    exact ⟨hj, m1, k1, k2, k4, k5, k6⟩
  have dead4 : ∀ j, j ≠ w1.fresh → w1.nodes j = none → w4.nodes j = none := by
    intro j hj h
    have := G4.data j hj
    rw [h] at this
    simpa using this
  have hch1 : ch1 x = [] := by
    rw [C.lists x n1 hn1]
    exact List.filter_eq_nil_iff.2 fun y hy => by simp [hy]
  have hchx : ch2 x = [w1.fresh] := by rw [G4.lists x, hch1, if_pos rfl]; rfl
  obtain ⟨_, n4, hn4, hn4d, hn4o, _⟩ := keep4 x n1 hn1
  have hn4t : n4.type = n.type := by rw [Node.data_type hn4d, hn1t]
  have hcnt1 : ∀ j, count w4 j = count w1 j := by
    intro j
    cases h : w1.nodes j with
    | some m =>
      obtain ⟨_, m', k, _, _, k2, _⟩ := keep4 j m h
      rw [count_some k, count_some h, k2]
    | none =>
      by_cases hj : j = w1.fresh
      · rw [count_none h, hj, count_some ht4, tr]
      · rw [count_none h, count_none (dead4 j hj h)]
  obtain ⟨r, hr1, hr2, _⟩ := C30_read G4.sound.wf (docOrder_preorder G4.sound.wf.toCore) hn4 (by rw [hn4t]; exact hnd)
    (by rw [hn4t]; rcases ht with h | h | h <;> simp [h]) (by rw [hn4t]; rcases ht with h | h | h <;> simp [h])
  refine ⟨w4, ch2, w1.fresh, t4, ?_, G4.sound, hchx, ?_, ht4, hty, htv, by rw [tow, ← hn1o]; exact hod.symm, fun j => (hcnt1 j).trans (C.counts j), ?_, ?_, ?_, r, hr1, ?_⟩
  · rw [set_eq hx (by rcases ht with h | h | h <;> simp [h]), bound_bind, hfirst, bind_ok e1, get_bind hn1, hod]
    simp only [Option.isSome_some]
    rw [cassert_bind, deref_bind, bind_ok hrun2]
    show appendText x w1.fresh (w1.add tn) = _
    unfold appendText
    rw [e2]
    show (do unref w1.fresh; unref w1.fresh) w2 = _
    rw [bind_ok e3]
    exact e4
  · rw [hfr]; exact fresh_dead S.wf.toCore
  · intro c hc m hm
    have hcf : c ≠ w1.fresh := by rintro rfl; rw [hfr, fresh_dead S.wf.toCore] at hm; cases hm
    constructor
    · intro h0
      exact dead4 c hcf (C.freed c hc (by rw [count_some hm]; exact h0))
    · intro h0
      cases h1 : w1.nodes c with
      | none =>
        have := C.counts c
        rw [count_none h1, count_some hm] at this
        exact absurd this.symm h0
      | some m1 =>
        obtain ⟨m0, hm0, a1, a2, _⟩ := C.back c m1 h1
        rw [hm] at hm0; cases hm0
        obtain ⟨_, m4, k, b1, b2, _, b3⟩ := keep4 c m1 h1
        exact ⟨m4, k, b1.trans a1, b2.trans a2, b3.trans (C.alone c hc m1 h1)⟩
  · intro q m' hq hm'
    rw [G4.lists q, if_neg hq, List.append_nil]
    by_cases hqf : q = w1.fresh
    · subst hqf
      rw [C.sound.wf.linked.dead _ (fresh_dead hW1.toCore), S.wf.linked.dead _ (by rw [hfr]; exact fresh_dead S.wf.toCore)]
    · cases h1 : w1.nodes q with
      | none => rw [dead4 q hqf h1] at hm'; cases hm'
      | some m1 =>
        rw [C.lists q m1 h1]
        refine List.filter_eq_self.2 fun y hy => ?_
        simp only [decide_eq_true_eq]
        intro hyx
        exact hq (S.wf.linked.mem_unique hy hyx)
  · intro j m hm hj
    obtain ⟨m1, h1, a1, a2, _, a4⟩ := C.kept j m hm hj
    obtain ⟨_, m4, k, b1, b2, _, b4⟩ := keep4 j m1 h1
    exact ⟨m4, k, b1.trans a1, b2.trans a2, b4.trans a4⟩
  · rw [hr2, docOrder_preorder G4.sound.wf.toCore x, hchx]
    have hleaf := leaf_children G4.sound.wf.toCore ht4 (by simp [hty])
    simp only [List.flatMap_cons, List.flatMap_nil, List.append_nil]
    rw [docOrder_preorder G4.sound.wf.toCore w1.fresh, hleaf]
    have hxs : holdsText w4 x = false := by
      rcases ht with h | h | h <;> simp [holdsText, hn4, hn4t, h]
    have hts : holdsText w4 w1.fresh = true := by simp [holdsText, ht4, hty]
    rw [List.filter_cons_of_neg (by simp [hxs])]
    simp [hts, dataBytes, ht4, htv]

/-- C30, refusal: a read-only node (other than character data, Document and DocumentType) refuses new text content, and nothing changes. -/
theorem C30_write_refused (S : Sound w ch) (hx : w.nodes x = some n) (ht : n.type ∉ [.text, .cdata, .comment, .document, .doctype])
    (hro : ReadOnly w x) (hdoc : DocKept w x) (s : Option DStr) :
    ∃ w', setTextContent x s w = .exc w' .noModificationAllowed ∧ Sound w' ch ∧ ∀ j, w'.nodes j = w.nodes j := by
  have hW := S.wf
  have hnd : n.type ≠ .document := by rintro h; simp [h] at ht
  obtain ⟨d, dn, hod, hd, hdt⟩ : ∃ d dn, n.owner = some d ∧ w.nodes d = some dn ∧ dn.type = .document := by
    rcases hW.owner x n hx with h | ⟨h, _⟩
    · exact h
    · simp [h] at ht
  have hdk := hdoc n d dn hx hod hd
  have hfirst : n.first = (ch x).head? := by
    obtain ⟨n', hn', h, _⟩ := (hW.linked.loc x n hx).ends
    rw [hx] at hn'; cases hn'; exact h
  rw [set_eq hx ht, bound_bind, hfirst]
  cases hl : ch x with
  | cons c l =>
    obtain ⟨cn, hcn, hca, hcp, _, hnext⟩ := (hW.linked.loc x n hx).kids [] c l hl
    have href : removeRefusal w ch x c n cn = some .noModificationAllowed := by
      unfold removeRefusal
      rw [if_neg (fun h => hnd h.1), if_neg (by simp [hl]), if_pos hro]
    have h1 := removeChild_refused hW hx hcn (fun h => absurd h hca) href
    refine ⟨w, ?_, S, fun _ => rfl⟩
    have : clearLoop x (w.fresh + 1) (c :: l).head? w = .exc w .noModificationAllowed := by
      simp only [List.head?_cons, clearLoop]
      rw [get_bind hcn, bind_exc h1]
    rw [bind_exc this]
  | nil =>
    have hrun := createNode_run hW.toCore hd .text (some textName) s
    have hW2 : WF _ ch := WF_createNode hW hd hdt (t := .text) (by simp) (some textName) s
    have Sn : Sound (w.add (newNode (some d) .text (some textName) s)) ch := S.add hW2 rfl rfl rfl rfl (fun h => by cases h)
    have hx2 := add_old hW.toCore (n := newNode (some d) .text (some textName) s) hx
    have ht2 : (w.add (newNode (some d) .text (some textName) s)).nodes w.fresh = some (newNode (some d) .text (some textName) s) :=
      add_new _
    have hro2 : ReadOnly (w.add (newNode (some d) .text (some textName) s)) x := by
      obtain ⟨m, hm, hc⟩ := hro
      refine ⟨m, add_old hW.toCore hm, ?_⟩
      rcases hc with h | h | h | ⟨h, j, m', ha, hm', hmt⟩
      · exact .inl h
      · exact .inr (.inl h)
      · exact .inr (.inr (.inl h))
      · refine .inr (.inr (.inr ⟨h, j, m', ?_, add_old hW.toCore hm', hmt⟩))
        refine Relation.ReflTransGen.mono ?_ _ _ ha
        rintro c q ⟨k, hk, hkq⟩
        exact ⟨k, add_old hW.toCore hk, hkq⟩
    have href : insertRefusal (w.add (newNode (some d) .text (some textName) s)) ch x w.fresh (newNode (some d) .text (some textName) s) n none
        = some .noModificationAllowed := by
      unfold insertRefusal
      rw [if_neg (by simp [newNode, hod]), if_pos hro2]
    have h3 := insertBefore_refused hW2 hx2 ht2 (by simp) href
    have hu := Xml.unref_new S Sn hd hdk rfl rfl (by simp [newNode]) (.inl rfl)
    refine ⟨Xml.bump w, ?_, Xml.Sound_bump S, fun _ => rfl⟩
    rw [bind_ok (show clearLoop x (w.fresh + 1) ([] : List NodeId).head? w = .ok w () from rfl), get_bind hx, hod]
    simp only [Option.isSome_some]
    rw [cassert_bind, deref_bind, bind_ok hrun]
    show appendText x w.fresh (w.add (newNode (some d) .text (some textName) s)) = _
    unfold appendText appendChild
    rw [h3]
    show (do unref w.fresh; M.throw .noModificationAllowed) _ = _
    rw [bind_ok hu]
    rfl

/-- A ProcessingInstruction refuses new text content: the code tries to give it a Text child. -/
theorem setText_pi (S : Sound w ch) (hx : w.nodes x = some n) (ht : n.type = .pi) (hro : ¬ ReadOnly w x) (hh : 0 < n.refcnt) (hdoc : DocKept w x) (s : Option DStr) :
    ∃ w' e, setTextContent x s w = .exc w' e ∧ Sound w' ch ∧ ∀ j, w'.nodes j = w.nodes j := by
  have hW := S.wf
  obtain ⟨d, dn, hod, hd, hdt⟩ : ∃ d dn, n.owner = some d ∧ w.nodes d = some dn ∧ dn.type = .document := by
    rcases hW.owner x n hx with h | ⟨h, _⟩
    · exact h
    · simp [ht] at h
  have hdk := hdoc n d dn hx hod hd
  have hfirst : n.first = (ch x).head? := by
    obtain ⟨n', hn', h, _⟩ := (hW.linked.loc x n hx).ends
    rw [hx] at hn'; cases hn'; exact h
  have hno : ∀ t, ¬ MayContain n.type t := by
    intro t h
    rw [ht] at h
    cases h with
    | content hp _ => simp at hp
  have hch : ch x = [] := by
    cases h : ch x with
    | nil => rfl
    | cons c l =>
      obtain ⟨cn, hcn, _⟩ := hW.linked.alive_child (p := x) (c := c) (by rw [h]; simp)
      exact absurd (hW.types x n c cn hx (by rw [h]; simp) hcn) (hno _)
  let tn := newNode (some d) .text (some textName) s
  have Sn : Sound (w.add tn) ch := S.add (WF_createNode hW hd hdt (by simp) _ _) rfl rfl rfl rfl (fun h => by cases h)
  have hrun := createNode_run hW.toCore hd .text (some textName) s
  obtain ⟨h, _⟩ | ⟨_, e, h3⟩ := Xml.append_new S Sn hd hdt hdk hx hod (fun h => by rw [ht] at h; cases h) (fun _ => hh)
    (by rw [ht]; simp) (Xml.ro_add hW.toCore hx hro) rfl rfl (by simp [tn, newNode]) (.inl rfl)
  · exact absurd ((Xml.permitted_iff hW.toCore hx).1 h).1 (hno _)
  have hu := Xml.unref_new S Sn hd hdk rfl rfl (by simp [tn, newNode]) (.inl rfl)
  refine ⟨Xml.bump w, e, ?_, Xml.Sound_bump S, fun _ => rfl⟩
  rw [set_eq hx (by simp [ht]), bound_bind, hfirst, hch]
  rw [bind_ok (show clearLoop x (w.fresh + 1) ([] : List NodeId).head? w = .ok w () from rfl), get_bind hx, hod]
  simp only [Option.isSome_some]
  rw [cassert_bind, deref_bind, bind_ok hrun]
  show appendText x w.fresh (w.add tn) = _
  unfold appendText
  rw [h3]
  show (do unref w.fresh; M.throw e) _ = _
  rw [bind_ok hu]
  rfl

/-! ## Concrete cases -/

/-- A document (0) and the element 1 = `<a>x<b>y</b>z</a>` (2 "x", 3 `<b>`, 4 "y", 5 "z"); the references to 2, 3 and 5 are given up, one to 4 is kept. -/
def setActs : List Act :=
  [.call .createDocument, .call (.createNode 0 .element none none), .call (.createNode 0 .text none (strOf [120])),
   .call (.createNode 0 .element none none), .call (.createNode 0 .text none (strOf [121])), .call (.createNode 0 .text none (strOf [122])),
   .call (.appendChild 1 2), .call (.appendChild 3 4), .call (.appendChild 1 3), .call (.appendChild 1 5),
   .unref 2, .unref 2, .unref 3, .unref 3, .unref 4, .unref 5, .unref 5]

/-- The hypotheses of `C30_write_partial` are met by an element with three children, of which one holds a Text node that is referenced: the children are freed, and
that Text node stays. -/
theorem sample30 : ∃ led w ch n, Client Careful led w ∧ Sound w ch ∧ w.nodes 1 = some n ∧ n.type = .element ∧ ¬ ReadOnly w 1 ∧ 0 < n.refcnt ∧ DocKept w 1 ∧
    (∀ c ∈ ch 1, Room w c) ∧ (∀ c ∈ ch 1, count w c = 0 → Clean w c) ∧ ch 1 = [2, 3, 5] ∧ count w 2 = 0 ∧ count w 3 = 0 ∧ count w 4 = 1 ∧
    contentOf w 1 = .ok [120, 121, 122] ∧
    ∃ w', setTextContent 1 (strOf [113]) w = .ok w' () ∧ contentOf w' 1 = .ok [113] ∧ w'.nodes 3 = none ∧ count w' 4 = 1 := by
  obtain ⟨led, w, hc, h⟩ := exists_careful setActs
    (fun _ w => at_ w 1 (fun m => m.first = [2, 3, 5].head?) && nextsB w [2, 3, 5] && at_ w 0 (fun m => m.refcnt = 1) &&
      at_ w 1 (fun m => m.type = .element && m.parent.isNone && m.owner = some 0 && decide (0 < m.refcnt)) && roomB w &&
      allB w (fun m => decide (m.refcnt = 0) || m.parent.isNone || (m.prev.isNone && m.next.isNone)) &&
      decide (count w 2 = 0 ∧ count w 3 = 0 ∧ count w 4 = 1 ∧ contentOf w 1 = .ok [120, 121, 122]) &&
      (match setTextContent 1 (strOf [113]) w with
       | .ok w' _ => decide (contentOf w' 1 = .ok [113] ∧ count w' 4 = 1) && (w'.nodes 3).isNone
       | _ => false)) (by decide +kernel)
  simp only [Bool.and_eq_true] at h
  obtain ⟨⟨⟨⟨⟨⟨⟨hf, hx⟩, h0⟩, h1⟩, hr⟩, ha⟩, hd⟩, hs⟩ := h
  have hd := of_decide_eq_true hd
  obtain ⟨ch, S, _⟩ := hc.sound
  have hch : ch 1 = [2, 3, 5] := children_of S.wf hf hx
  obtain ⟨n0, k0, e0⟩ := at_elim h0
  obtain ⟨n1, k1, e1⟩ := at_elim h1
  simp only [Bool.and_eq_true, decide_eq_true_eq, Option.isNone_iff_eq_none] at e0 e1
  refine ⟨led, w, ch, n1, hc, S, k1, e1.1.1.1, ?_, e1.2, ?_, fun c _ => room_of_roomB S.wf.bnd hr c, ?_, hch, hd.1, hd.2.1, hd.2.2.1, hd.2.2.2, ?_⟩
  · rintro ⟨m, hm, hr⟩
    rw [k1] at hm; cases hm
    rw [e1.1.1.1] at hr
    rcases hr with hr | hr | hr | ⟨_, j, k, hanc, hk, hkt⟩
    · cases hr
    · cases hr
    · cases hr.1
    · have : 1 = j := by
        rcases Relation.ReflTransGen.cases_head hanc with h | ⟨c, ⟨m, hm, hmp⟩, _⟩
        · exact h
        · rw [k1] at hm; cases hm
          rw [e1.1.1.2] at hmp; cases hmp
      subst this
      rw [k1] at hk; cases hk
      rw [e1.1.1.1] at hkt
      rcases hkt with h | h <;> cases h
  · intro m d dn hm ho hdn
    rw [k1] at hm; cases hm
    have : 0 = d := by rw [e1.1.2] at ho; simpa using ho
    subst this
    rw [k0] at hdn; cases hdn; omega
  · intro c _ _ j m ho hm
    obtain ⟨p, m', _, hm', hp, hr0⟩ := ho
    rw [hm] at hm'; cases hm'
    have := allB_elim S.wf.bnd ha hm
    simpa [hr0, hp] using this
  · split at hs
    · rename_i w' u hv
      simp only [Bool.and_eq_true, decide_eq_true_eq, Option.isNone_iff_eq_none] at hs
      exact ⟨w', hv, hs.1.1, hs.2, hs.1.2⟩
    · cases hs

/-- The hypotheses of `C30_write_refused` are met by an attribute (1) with a Text node (2), which the client has marked read-only. -/
theorem sample30_refused : ∃ led w ch n, Client Careful led w ∧ Sound (markReadonly 1 w) ch ∧ (markReadonly 1 w).nodes 1 = some n ∧ n.type = .attribute ∧
    ReadOnly (markReadonly 1 w) 1 ∧ DocKept (markReadonly 1 w) 1 ∧ ch 1 = [2] := by
  obtain ⟨led, w, hc, h⟩ := exists_careful
    [.call .createDocument, .call (.createNode 0 .attribute none none), .call (.createNode 0 .text none (strOf [65])), .call (.appendChild 1 2)]
    (fun _ w => at_ (markReadonly 1 w) 1 (fun m => m.first = [2].head?) && nextsB (markReadonly 1 w) [2] && at_ (markReadonly 1 w) 0 (fun m => m.refcnt = 1) &&
      at_ (markReadonly 1 w) 1 (fun m => m.type = .attribute && m.attrRO && m.owner = some 0)) (by decide +kernel)
  simp only [Bool.and_eq_true] at h
  obtain ⟨⟨⟨hf, hx⟩, h0⟩, h1⟩ := h
  obtain ⟨ch, S, _⟩ := hc.sound
  have S := S.markReadonly 1
  obtain ⟨n0, k0, e0⟩ := at_elim h0
  obtain ⟨n1, k1, e1⟩ := at_elim h1
  simp only [Bool.and_eq_true, decide_eq_true_eq] at e0 e1
  refine ⟨led, w, ch, n1, hc, S, k1, e1.1.1, ⟨n1, k1, .inr (.inr (.inl e1.1))⟩, ?_, children_of S.wf hf hx⟩
  intro m d dn hm ho hdn
  rw [k1] at hm; cases hm
  have : 0 = d := by rw [e1.2] at ho; simpa using ho
  subst this
  rw [k0] at hdn; cases hdn; omega

/-- C30 is false of the code for the empty string: the node gets an empty Text child (src/core/node.c:1533-1548). -/
theorem C30_empty_violated : ∃ led w, Client Careful led w ∧ 0 < led 1 ∧ ∃ w' n, setTextContent 1 (strOf []) w = .ok w' () ∧ w'.nodes 1 = some n ∧ n.first ≠ none := by
  obtain ⟨led, w, hc, h⟩ := exists_careful setActs (fun led w => decide (0 < led 1) &&
    (match setTextContent 1 (strOf []) w with
     | .ok w' _ => at_ w' 1 fun m => m.first.isSome
     | _ => false)) (by decide +kernel)
  rw [Bool.and_eq_true] at h
  obtain ⟨h1, hs⟩ := h
  refine ⟨led, w, hc, of_decide_eq_true h1, ?_⟩
  split at hs
  · rename_i w' u hv
    obtain ⟨m, hm, e⟩ := at_elim hs
    refine ⟨w', m, hv, hm, ?_⟩
    intro h
    rw [h] at e; cases e
  · cases hs

/-- A document (0) and the element 1 = `<a><b>yz</b></a>` (2 `<b>`, 3 "y", 4 "z"); only "y" is referenced besides 0 and 1. -/
def dangleActs : List Act :=
  [.call .createDocument, .call (.createNode 0 .element none none), .call (.createNode 0 .element none none),
   .call (.createNode 0 .text none (strOf [121])), .call (.createNode 0 .text none (strOf [122])),
   .call (.appendChild 2 3), .call (.appendChild 2 4), .call (.appendChild 1 2), .unref 2, .unref 2, .unref 3, .unref 4, .unref 4]

/-- C30 without the hypothesis on held nodes is false of the code: "y", which the client holds, survives the release of its parent, but keeps the pointer to its sibling "z",
which is freed; asking for the next sibling reads freed memory (src/core/node.c:253-260 clears the parent of a surviving child only). -/
theorem C30_dangling_violated : ∃ led w, Client Careful led w ∧ 0 < led 1 ∧ 0 < led 3 ∧ ∃ w' n, setTextContent 1 (strOf [113]) w = .ok w' () ∧
    w'.nodes 3 = some n ∧ n.next = some 4 ∧ w'.nodes 4 = none ∧ visit .next 3 w' = .fault .useAfterFree := by
  obtain ⟨led, w, hc, h⟩ := exists_careful dangleActs (fun led w => decide (0 < led 1) && decide (0 < led 3) &&
    (match setTextContent 1 (strOf [113]) w with
     | .ok w' _ => at_ w' 3 (fun m => decide (m.next = some 4) && decide (m.type ≠ .attribute)) && (w'.nodes 4).isNone
     | _ => false)) (by decide +kernel)
  rw [Bool.and_eq_true, Bool.and_eq_true] at h
  obtain ⟨⟨h1, h2⟩, hs⟩ := h
  refine ⟨led, w, hc, of_decide_eq_true h1, of_decide_eq_true h2, ?_⟩
  split at hs
  · rename_i w' u hv
    rw [Bool.and_eq_true] at hs
    obtain ⟨a1, a2⟩ := hs
    obtain ⟨m, hm, e⟩ := at_elim a1
    have e : m.next = some 4 ∧ m.type ≠ .attribute := by simpa using e
    have h4 : w'.nodes 4 = none := by simpa using a2
    refine ⟨w', m, hv, hm, e.1, h4, ?_⟩
    unfold visit
    rw [get_bind hm]
    simp only [Dir.target, e.1]
    have : ref 4 w' = .fault .useAfterFree := by
      simp [ref, modNode, h4]
    rw [if_neg e.2]
    exact bind_fault this _
  · cases hs

end Dom.Tree
