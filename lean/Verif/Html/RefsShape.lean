import Verif.Html.RefsTable
/-!
# Rows of a table of the usual shape, with references
-/
set_option linter.unusedSimpArgs false
set_option linter.unusedVariables false
namespace Dom.Html.Refs
open Dom.Str (DStr asciiLower contents)
open Dom.Tree (World NodeId Node M Children Sound WF Core Room DocKept Clean count Grants getNode deref throwIf bound appendChild insertBefore removeChild ref unref AncSelf ReadOnly bind_ok bind_exc bind_fault get_bind Cut Severed)
open Dom.Html.Table (trName tdName theadName tbodyName tfootName captionName newElement tagged childOf rowsOf sections secRows total Shape Section Grown place tableRows)

variable {u w w' v v' : World} {ch ch' : Children} {t x y s d j new hd : NodeId} {n dn sn nn tn : Node} {bodies : List NodeId} {ft : Option NodeId}

theorem Section.list (h : Section w ch s) : tagList w ch trName s = rowsOf w ch s := by
  unfold tagList members
  rw [Table.member_tag Table.tr_data]
  exact h.rows (Tree.docOrder_preorder h.tree.toCore)

theorem Shape.list (h : Shape w ch t hd bodies ft) : tagList w ch trName t = secRows w ch t := by
  unfold tagList members
  rw [Table.member_tag Table.tr_data]
  exact h.rows (Tree.docOrder_preorder h.tree.toCore)

theorem Shape.closed (h : Shape w ch t hd bodies ft) : SectionsClosed w ch t := fun c hc => by
  obtain ⟨n, h1, h2, h3⟩ := (h.section hc).elem
  exact ⟨n, h1, h2, h3⟩

theorem Shape.alike (h : Shape w ch t hd bodies ft) (A : Alike w v) : tagged v = tagged w := by
  funext name x
  exact Table.tagged_data (A.map Node.data (fun _ => rfl) x) name

/-- A row that was placed has made the section grow. -/
theorem Placed.grown {n : Node} {r : Option NodeId} (P : Placed w ch s w.fresh (Tree.elementNode (some trName) n.ns n.pfx d) r w' ch') (hW : WF w ch) (hs : w.nodes s = some sn) {i : Nat}
    (hr : ∀ c, r = some c → (rowsOf w ch s)[i]? = some c) (hnone : r = none → i = (rowsOf w ch s).length) : Grown w ch s i w.fresh w' ch' := by
  obtain ⟨m, hm, m1, m2, m3, m4⟩ := P.there
  refine ⟨P.sound.wf, ⟨P.dead, ?_, ?_⟩, ?_, P.elsewhere, fun j k hk => ?_⟩
  · rw [Table.tagged_data (w := w.add (Tree.elementNode (some trName) n.ns n.pfx d)) (by rw [hm, Tree.add_new]; simp [m1])]
    unfold tagged
    rw [Tree.add_new, Option.any_some]
    rw [show contents (Tree.elementNode (some trName) n.ns n.pfx d).name = trName.data from rfl, Table.tr_data]
    simp [Tree.elementNode]
  · have : w.fresh ≠ s := by rintro h; rw [← h, P.dead] at hs; cases hs
    rw [P.elsewhere _ this]
    exact hW.linked.dead _ P.dead
  · obtain ⟨a, b, g1, g2, g3⟩ := P.here
    refine ⟨a, b, g1, g3, ?_⟩
    cases r with
    | some c => exact Table.split_at_row (hW.linked.loc s sn hs).nodup (hr c rfl) g1 g2
    | none =>
      have hb : b = [] := by simpa using g2
      subst hb
      rw [hnone rfl]; unfold rowsOf; rw [g1]; simp
  · obtain ⟨k', h1, h2, _⟩ := P.kept j k hk
    exact ⟨k', h1, h2⟩

/-- The outcome of the search when the section is known. -/
theorem way_found {α : Type} {tidy : Bool} {act : NodeId → Nat → M α} {win : Nat} {res : Tree.Res α} (W : Way w ch t tidy act (.ok w (some (s, win))) res) :
    (s ∈ sections w ch t ∧ res = act s win w) ∨ ∃ v, s ∈ sections w ch t ∧ Sound v ch ∧ Alike w v ∧ (∀ j, count v j = count w j + one s j) ∧ res = closing (act s win) (unref s) v := by
  generalize hl : Tree.Res.ok w (some (s, win)) = loc at W
  cases W with
  | null h => cases hl
  | body hs => cases hl; exact .inl ⟨hs, rfl⟩
  | edge hs Sv A hc => cases hl; exact .inr ⟨_, hs, Sv, A, hc, rfl⟩
  | missed => cases hl
  | lost => cases hl

theorem insertRow_shape (S : Sound w ch) (hT : Shape w ch t hd bodies ft) (hx : Closed w ch t) (hk : DocKept w t) (hr : Spacious w) (hf : w.fresh < 2147483630) {i : Int} (h0 : -1 ≤ i)
    (h1 : i ≤ (secRows w ch t).length) (h2 : secRows w ch t ≠ []) :
    ∃ w' ch' s n d r a b, insertRow t i w = .ok w' w.fresh ∧ s ∈ sections w ch t ∧ Placed w ch s w.fresh (Tree.elementNode (some trName) n.ns n.pfx d) r w' ch' ∧ w.nodes s = some n ∧
      n.owner = some d ∧ Shape w' ch' t hd bodies ft ∧ secRows w ch t = a ++ b ∧ a.length = place i (secRows w ch t).length ∧ secRows w' ch' t = a ++ w.fresh :: b := by
  obtain ⟨tn, ht, htt, h3⟩ := hx
  have hx : Closed w ch t := ⟨tn, ht, htt, h3⟩
  have e1 := length_run S hx hk hr.roomy (by omega) trName
  have hsm : (tagList w ch trName t).length < 2147483648 := (col_total S hx (Table.isTag trName w) (by omega)).2.2.1
  rw [Shape.list hT] at e1 hsm
  have h32 := Table.toInt32_small hsm
  have htot : total w ch (sections w ch t) = (secRows w ch t).length := rfl
  have hkk : (if i == -1 then (secRows w ch t).length else toUInt32 i) = place i (secRows w ch t).length := by
    unfold place
    by_cases h : i = -1
    · rw [if_pos h, if_pos (by simp [h])]
    · rw [if_neg h, if_neg (by simp [h])]
      conv_lhs => rw [show i = (i.toNat : Int) by omega]
      exact Table.toUInt32_small (by omega)
  have hkle : place i (secRows w ch t).length ≤ (secRows w ch t).length := by unfold place; split <;> omega
  generalize hk' : place i (secRows w ch t).length = k at *
  obtain ⟨pre, s, post, hsp, hfst⟩ := Table.exists_first (w := w) (ch := ch) (fun e => decide (e > k) || e == (secRows w ch t).length) (sections w ch t) 0
    (by rw [hT.order]; simp) (by rw [Nat.zero_add, htot]; simp)
  have hlo : total w ch pre ≤ k := hfst.bounds (fun e he => by simp at he; omega)
  have hs : s ∈ sections w ch t := by rw [hsp]; simp
  have hsum : total w ch pre + (rowsOf w ch s).length + total w ch post = (secRows w ch t).length := by
    rw [← htot, hsp]; simp; omega
  have hhi : k - total w ch pre ≤ (rowsOf w ch s).length := by
    have := hfst.2
    rw [Nat.zero_add, Table.total_append, Table.total_cons, Table.total_nil] at this
    simp only [Bool.or_eq_true, decide_eq_true_eq, beq_iff_eq] at this
    omega
  have hsub : toInt32 (sub32 k (total w ch pre)) = ((k - total w ch pre : Nat) : Int) := by
    rw [Table.sub32_small hlo, Table.toInt32_small (by omega)]
  have hSec := hT.section hs
  have hcl := Shape.closed hT
  obtain ⟨sn, hsn, hst, _⟩ := hcl s hs
  have hI : Inserts w ch trName s ((k - total w ch pre : Nat) : Int) (insertRow t i w) := by
    have W := inSection_way S ht hk hr (by omega) hcl true (fun e => decide (e > k) || e == (secRows w ch t).length) (fun s win => sectionInsertRow s (toInt32 (sub32 k win)))
    rw [Table.locate_run hT hsm _ hsp hfst] at W
    unfold insertRow
    rw [bind_ok e1, Table.throwIf_neg (by rw [h32]; exact Table.ins_ok h0 h1), if_neg (by simpa using h2)]
    simp only [hkk]
    rcases way_found W with ⟨_, h⟩ | ⟨v, _, Sv, A, hc, h⟩
    · rw [h, hsub]
      exact sectionInsertRow_run S (hcl _ hs) (sections_doc S ht hk hs) hr.roomy (by omega) _
    · rw [h, hsub]
      refine inserts_edge S hsn hst Sv A hc ?_
      exact sectionInsertRow_run Sv ((hcl _ hs).alike A) (DocKept.up (sections_doc S ht hk hs) A (fun j => by have := hc j; omega)) (edge_roomy hr hc) (by rw [A.fresh]; omega) _
  clear hsub
  obtain ⟨_, _, hI⟩ := hI
  rw [Section.list hSec] at hI
  have htg : target (rowsOf w ch s) ((k - total w ch pre : Nat) : Int) = (rowsOf w ch s)[k - total w ch pre]? := by
    unfold target
    rw [if_neg (by omega), Int.toNat_natCast]
  rw [htg] at hI
  obtain ⟨n, d, w', ch', g1, g2, g3, P⟩ := hI (by omega) (by omega) (fun c hc => (List.mem_filter.1 (List.mem_of_getElem? hc)).1)
  have G := P.grown S.wf hsn (i := k - total w ch pre) (fun c hc => hc) (fun h => by have := List.getElem?_eq_none_iff.1 h; omega)
  obtain ⟨a, b, q1, q2, q3⟩ := G.rows hT.tree
  have htag : ∀ tag x, (∃ m, w.nodes x = some m) → tagged w' tag x = tagged w tag x := fun tag x hx => G.tagged hx
  obtain ⟨r1, r2⟩ := Table.secRows_split (w' := w') (ch' := ch') hT hsp (Table.sections_same hT.tree.linked (G.elsewhere t (hT.ne hs)) htag)
    (fun c _ hcs => Table.rowsOf_same hT.tree.linked (G.elsewhere c hcs) (htag "tr"))
  refine ⟨w', ch', s, n, d, _, pre.flatMap (rowsOf w ch) ++ a, b ++ post.flatMap (rowsOf w ch), g3, hs, P, g1, g2, G.shape hT hs, ?_, ?_, ?_⟩
  · rw [r1, q1]; simp
  · rw [List.length_append, q2]
    show total w ch pre + _ = k
    omega
  · rw [r2, q3]; simp

theorem loop_free (hW : WF w ch) (h : Relation.TransGen (Tree.ParentOf w) x x) : False :=
  Tree.wf_irrefl hW.wf.transGen x (Relation.transGen_swap.2 h)

/-- The rows after one of them was taken out. -/
theorem Cut.rows (C : Cut w ch [y] w' ch') (S : Sound w ch) (hT : Shape w ch t hd bodies ft) (ht : w.nodes t = some tn) (hs : s ∈ sections w ch t) (hy : y ∈ ch s) :
    secRows w' ch' t = (secRows w ch t).filter (fun c => decide (c ≠ y)) := by
  have hL := S.wf.linked
  have hst := Table.sections_mem hs
  have hdec : ∀ c, (decide (c ∉ [y])) = decide (c ≠ y) := fun c => by simp
  have hny : ∀ c, c ∈ sections w ch t → c ≠ y := by
    rintro c hc rfl
    have h1 := hL.alive_child (Table.sections_mem hc)
    have h2 := hL.alive_child hy
    obtain ⟨m1, k1, _, p1⟩ := h1
    obtain ⟨m2, k2, _, p2⟩ := h2
    rw [k1] at k2; cases k2
    have e : t = s := by rw [p1] at p2; simpa using p2
    exact hT.ne hs e
  have hbelow : ∀ c, c = t ∨ c ∈ sections w ch t → ¬ AncSelf w c y := by
    have htb : ¬ AncSelf w t y := by
      intro h
      obtain ⟨m2, k2, _, p2⟩ := hL.alive_child hy
      obtain ⟨m1, k1, _, p1⟩ := hL.alive_child hst
      have h1 : AncSelf w y t := Relation.ReflTransGen.head ⟨m2, k2, p2⟩ (Relation.ReflTransGen.head ⟨m1, k1, p1⟩ .refl)
      have hty : t ≠ y := by
        rintro rfl
        exact loop_free S.wf (Relation.TransGen.head ⟨m2, k2, p2⟩ (Relation.TransGen.single ⟨m1, k1, p1⟩))
      rcases Relation.reflTransGen_iff_eq_or_transGen.1 h with h | h
      · exact hty h.symm
      · exact loop_free S.wf (Relation.TransGen.trans_left h h1)
    rintro c (rfl | hc) h
    · exact htb h
    · rcases Relation.ReflTransGen.cases_head h with h | ⟨z, ⟨m, hm, hz⟩, h⟩
      · exact hny c hc h
      · obtain ⟨m1, k1, _, p1⟩ := hL.alive_child (Table.sections_mem hc)
        rw [hm] at k1; cases k1
        rw [hz] at p1
        have e : z = t := by simpa using p1
        subst e
        exact htb h
  have halive : ∀ c, c = t ∨ c ∈ sections w ch t → ∃ m', w'.nodes c = some m' := by
    intro c hc
    obtain ⟨m, hm⟩ : ∃ m, w.nodes c = some m := by
      rcases hc with rfl | hc
      · exact ⟨_, ht⟩
      · obtain ⟨m, hm, _⟩ := hL.alive_child (Table.sections_mem hc); exact ⟨m, hm⟩
    obtain ⟨m', hm', _⟩ := C.kept c m hm (fun z hz => by
      have e : z = y := by simpa using hz
      subst e
      exact hbelow c hc)
    exact ⟨m', hm'⟩
  have htag : ∀ c m', w'.nodes c = some m' → ∀ name, tagged w' name c = tagged w name c := by
    intro c m' hm' name
    obtain ⟨m, hm, hd, _⟩ := C.back c m' hm'
    exact Table.tagged_data (by rw [hm, hm']; simp [hd]) name
  have hch : ∀ c, c = t ∨ c ∈ sections w ch t → ch' c = (ch c).filter (fun z => decide (z ≠ y)) := by
    intro c hc
    obtain ⟨m', hm'⟩ := halive c hc
    rw [C.lists c m' hm']
    exact List.filter_congr fun z _ => hdec z
  have hkid : ∀ c, c = t ∨ c ∈ sections w ch t → ∀ z ∈ ch' c, ∃ m', w'.nodes z = some m' := by
    intro c _ z hz
    obtain ⟨m, hm, _⟩ := C.sound.wf.linked.alive_child hz
    exact ⟨m, hm⟩
  have hrows : ∀ c ∈ sections w ch t, rowsOf w' ch' c = (rowsOf w ch c).filter (fun z => decide (z ≠ y)) := by
    intro c hc
    unfold rowsOf
    rw [List.filter_congr (fun z hz => htag z _ (hkid c (.inr hc) z hz).choose_spec "tr"), hch c (.inr hc), List.filter_comm]
  have hsec : sections w' ch' t = sections w ch t := by
    have h1 : sections w' ch' t = (sections w ch t).filter (fun z => decide (z ≠ y)) := by
      unfold sections
      rw [List.filter_congr (q := fun x => tagged w "thead" x || tagged w "tbody" x || tagged w "tfoot" x)
        (fun z hz => by have h := htag z _ (hkid t (.inl rfl) z hz).choose_spec; rw [h, h, h]), hch t (.inl rfl), List.filter_comm]
    rw [h1, List.filter_eq_self]
    intro c hc
    simpa using hny c hc
  unfold secRows
  rw [hsec, List.filter_flatMap]
  exact List.flatMap_congr hrows

theorem deleteRow_shape (S : Sound w ch) (hT : Shape w ch t hd bodies ft) (hx : Closed w ch t) (hk : DocKept w t) (hr : Spacious w) (hf : w.fresh < 2147483630) {i : Int} (h0 : -1 ≤ i)
    (h1 : i < (secRows w ch t).length) (h2 : secRows w ch t ≠ []) :
    ∃ y, (secRows w ch t)[place i ((secRows w ch t).length - 1)]? = some y ∧ ((count w y = 0 → Clean w y) → ∃ w' ch', deleteRow t i w = .ok w' () ∧
      Cut w ch [y] w' ch' ∧ secRows w' ch' t = (secRows w ch t).filter (fun c => decide (c ≠ y))) := by
  obtain ⟨tn, ht, htt, h3⟩ := hx
  have hx : Closed w ch t := ⟨tn, ht, htt, h3⟩
  have e1 := length_run S hx hk hr.roomy (by omega) trName
  have hsm : (tagList w ch trName t).length < 2147483648 := (col_total S hx (Table.isTag trName w) (by omega)).2.2.1
  rw [Shape.list hT] at e1 hsm
  have h32 := Table.toInt32_small hsm
  have hne : (secRows w ch t).length ≠ 0 := by simpa using h2
  have htot : total w ch (sections w ch t) = (secRows w ch t).length := rfl
  have hkk : (if i == -1 then sub32 (secRows w ch t).length 1 else toUInt32 i) = place i ((secRows w ch t).length - 1) := by
    unfold place
    by_cases h : i = -1
    · rw [if_pos h, if_pos (by simp [h]), Table.sub32_small (by omega)]
    · rw [if_neg h, if_neg (by simp [h])]
      conv_lhs => rw [show i = (i.toNat : Int) by omega]
      exact Table.toUInt32_small (by omega)
  have hkle : place i ((secRows w ch t).length - 1) < (secRows w ch t).length := by unfold place; split <;> omega
  generalize hk' : place i ((secRows w ch t).length - 1) = k at *
  obtain ⟨pre, s, post, hsp, hfst⟩ := Table.exists_first (w := w) (ch := ch) (fun e => decide (e > k)) (sections w ch t) 0
    (by rw [hT.order]; simp) (by rw [Nat.zero_add, htot]; simpa using hkle)
  have hlo : total w ch pre ≤ k := hfst.bounds (fun e he => by simpa using he)
  have hs : s ∈ sections w ch t := by rw [hsp]; simp
  have hsum : total w ch pre + (rowsOf w ch s).length + total w ch post = (secRows w ch t).length := by
    rw [← htot, hsp]; simp; omega
  have hhi : k - total w ch pre < (rowsOf w ch s).length := by
    have := hfst.2
    rw [Nat.zero_add, Table.total_append, Table.total_cons, Table.total_nil] at this
    simp only [decide_eq_true_eq] at this
    omega
  have hsub : toInt32 (sub32 k (total w ch pre)) = ((k - total w ch pre : Nat) : Int) := by
    rw [Table.sub32_small hlo, Table.toInt32_small (by omega)]
  have hSec := hT.section hs
  have hcl := Shape.closed hT
  obtain ⟨sn, hsn, hst, _⟩ := hcl s hs
  have hD : Deletes w ch trName s ((k - total w ch pre : Nat) : Int) (deleteRow t i w) := by
    have W := inSection_way S ht hk hr (by omega) hcl false (fun e => decide (e > k)) (fun s win => sectionDeleteRow s (toInt32 (sub32 k win)))
    rw [Table.locate_run hT hsm _ hsp hfst] at W
    unfold deleteRow
    rw [bind_ok e1, Table.throwIf_neg (by rw [h32]; exact Table.tdel_ok h0 h1 hne)]
    simp only [hkk]
    rcases way_found W with ⟨_, h⟩ | ⟨v, _, Sv, A, hc, h⟩
    · rw [h, hsub]
      exact sectionDeleteRow_run S (hcl _ hs) (sections_doc S ht hk hs) hr.roomy (by omega) _
    · rw [h, hsub]
      refine deletes_edge S hsn hst Sv A hc ?_
      exact sectionDeleteRow_run Sv ((hcl _ hs).alike A) (DocKept.up (sections_doc S ht hk hs) A (fun j => by have := hc j; omega)) (edge_roomy hr hc) (by rw [A.fresh]; omega) _
  clear hsub
  obtain ⟨_, hD⟩ := hD
  rw [Section.list hSec] at hD
  have hpk : pick (rowsOf w ch s) ((k - total w ch pre : Nat) : Int) = (rowsOf w ch s)[k - total w ch pre]? := by
    unfold pick
    rw [if_neg (by omega), if_neg (by omega), Int.toNat_natCast]
  have hget := List.getElem?_eq_getElem hhi
  generalize (rowsOf w ch s)[k - total w ch pre] = y at hget
  have hys : y ∈ ch s := (List.mem_filter.1 (List.mem_of_getElem? hget)).1
  refine ⟨y, ?_, fun hcl' => ?_⟩
  · have e : secRows w ch t = pre.flatMap (rowsOf w ch) ++ (rowsOf w ch s ++ post.flatMap (rowsOf w ch)) := by
      show (sections w ch t).flatMap (rowsOf w ch) = _
      rw [hsp]; simp
    have hl : (pre.flatMap (rowsOf w ch)).length = total w ch pre := rfl
    rw [e, List.getElem?_append_right (by omega), hl, List.getElem?_append_left hhi, hget]
  · obtain ⟨w', ch', e, C⟩ := (hD y (hpk.trans hget)).2 hys hcl'
    exact ⟨w', ch', e, C, Cut.rows C S hT ht hs hys⟩

end Dom.Html.Refs
