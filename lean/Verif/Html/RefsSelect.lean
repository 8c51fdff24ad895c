import Verif.Html.RefsShape
/-!
# Selections and the setters of a table, with references
-/
set_option linter.unusedSimpArgs false
set_option linter.unusedVariables false
namespace Dom.Html.Refs
open Dom.Str (DStr asciiLower contents)
open Dom.Tree (World NodeId Node M Children Sound WF Core Room DocKept Clean count Grants Held getNode deref throwIf bound appendChild insertBefore removeChild ref unref AncSelf ReadOnly bind_ok bind_exc bind_fault get_bind Cut Severed)
open Dom.Html.Table (trName tdName theadName tbodyName tfootName captionName newElement tagged childOf)

variable {u w w' v v' : World} {ch ch' : Children} {t x y s d j new p : NodeId} {n dn sn nn tn pn : Node}

/-- The options below `s`, in document order. -/
def options (w : World) (ch : Children) (s : NodeId) : List NodeId := members w ch (isOption w) s

theorem Alike.isOption (A : Alike w w') : isOption w' = isOption w := by
  funext y
  unfold Html.isOption
  have h := A.nodes y
  cases hy : w.nodes y with
  | none =>
    rw [hy] at h
    cases hy' : w'.nodes y with
    | none => rfl
    | some m => rw [hy'] at h; cases h
  | some n =>
    obtain ⟨m, hm, hb⟩ := A.get hy
    rw [hm]
    have : m.name = n.name := by have := congrArg Node.name hb; exact this
    simp only [this]

theorem Alike.options (A : Alike w w') : options w' ch x = options w ch x := by
  unfold Refs.options
  rw [A.isOption, A.members]

theorem selectLength_run (S : Sound w ch) (hx : Closed w ch x) (hk : DocKept w x) (hr : Roomy w) (hf : w.fresh < 2147483648) :
    selectLength x w = .ok w (options w ch x).length := by
  obtain ⟨n, h1, h2, h3⟩ := hx
  obtain ⟨d, dn, w1, ho, hd, hdt, hdx, e1, S1, A1, c1⟩ := open_step S h1 h2 (fun j => Nat.lt_trans (hr j) (by omega))
  have hx1 := Closed.alike ⟨n, h1, h2, h3⟩ A1
  have e2 : Table.reading (fun w => optLength w x) w1 = .ok w1 (options w1 ch x).length :=
    Table.reading_ok (col_total S1 hx1 (isOption w1) (by rw [A1.fresh]; exact hf)).1
  obtain ⟨w2, e3, S2, A2, c2⟩ := close_step S S1 h1 h2 ho hd hk A1.kept hdx (fun j => by rw [c1])
  have hw : w2 = w := (A1.trans A2).eq (fun j => by have := c1 j; have := c2 j; omega)
  unfold selectLength
  rw [bind_ok e1, bind_ok e2, bind_ok e3, A1.options, hw]
  rfl

/-- The collection of `s` does not change what happens to a node that is not above `s`. -/
theorem clean_far (S : Sound w ch) (hd : w.nodes d = some dn) (hdt : dn.type = .document) (hns : ¬ AncSelf w s y) (A : Alike w u) (hle : ∀ j, count w j ≤ count u j)
    (heq : ∀ j, j ≠ d → j ≠ s → count u j = count w j) (h : Clean w y) : Clean u y := by
  have dies : ∀ j, Tree.Dies u y j → Tree.Dies w y j := by
    intro j h
    induction h with
    | self => exact .self
    | @down p k m _ hk hp hr ih =>
      obtain ⟨m', hm', hb⟩ := A.symm.get hk
      refine .down ih hm' (by rw [(bare_eq hb).2.2.1]; exact hp) ?_
      have := hle k
      rw [Tree.count_eq hk, Tree.count_eq hm'] at this
      omega
  rintro j m ⟨p, m1, hdp, hj, hp, hr⟩ hm
  rw [hj] at hm; cases hm
  obtain ⟨k, hk, hb⟩ := A.symm.get hj
  have b := bare_eq hb
  have hjd : j ≠ d := by
    rintro rfl
    rw [hd] at hk; cases hk
    have := Tree.doc_parent S.wf.toCore hd hdt
    rw [b.2.2.1, hp] at this; cases this
  have hjs : j ≠ s := by
    rintro rfl
    exact hns (Relation.ReflTransGen.head ⟨k, hk, by rw [b.2.2.1]; exact hp⟩ (dies p hdp).anc)
  have hcj := heq j hjd hjs
  rw [Tree.count_eq hj, Tree.count_eq hk] at hcj
  have := h j k ⟨p, k, dies p hdp, hk, by rw [b.2.2.1]; exact hp, by omega⟩ hk
  rw [← b.2.2.2.2.1, ← b.2.2.2.2.2.1]
  exact this

/-- A child of `p` is taken out while a collection with the root `s` is there. -/
theorem take_run (S : Sound w ch) (hk : DocKept w s) (hs : w.nodes s = some sn) (hst : sn.type = .element) (ho : sn.owner = some d) (hd : w.nodes d = some dn)
    (hdt : dn.type = .document) (hds : d ≠ s) (hp : w.nodes p = some pn) (hpt : pn.type = .element) (hpo : pn.owner = some d) (hy : y ∈ ch p) (hns : ¬ AncSelf w s y) (hroom : count w y < 4294967280)
    (Su : Sound u ch) (A : Alike w u) (hc : ∀ j, count u j = count w j + one d j + one s j) (Sv : Sound v ch) (A1 : Alike u v) (c1 : ∀ j, count v j = count u j + one y j)
    (hclean : count w y = 0 → Clean w y) : ∃ w' ch', closing (takeOut p y) (do unref y; closeCol s d) v = .ok w' () ∧ Cut w ch [y] w' ch' := by
  obtain ⟨su, hsu, hsub⟩ := A.get hs
  obtain ⟨pu, hpu, hpub⟩ := A.get hp
  have bp := bare_eq hpub
  obtain ⟨ym, hym, hya, hyp⟩ := S.wf.linked.alive_child hy
  obtain ⟨yu, hyu, hyub⟩ := A.get hym
  have hyd : y ≠ d := by
    rintro rfl
    rw [hd] at hym; cases hym
    have := Tree.doc_parent S.wf.toCore hd hdt
    rw [hyp] at this; cases this
  have hys : y ≠ s := by rintro rfl; exact hns .refl
  have hcy := hc y
  rw [one_ne hyd, one_ne hys] at hcy
  obtain ⟨w2, ch1, e2, S2, R⟩ := takeOut_step Su hpu (bp.2.2.2.2.2.2.2.trans hpt) hy Sv A1 c1 (by omega)
  have hku : DocKept u p := by
    intro n' d' dn' h1 h2 h3
    rw [hpu] at h1; cases h1
    rw [bp.2.1, hpo] at h2; cases h2
    have := hk sn d dn hs ho hd
    have h4 := hc d
    rw [Tree.count_eq h3, Tree.count_eq hd] at h4
    omega
  obtain ⟨w3, ch', e3, C⟩ := Tree.cut_finish Su hpu hy (fun m hm => by rw [hyu] at hm; cases hm; rw [get_count hyu]; omega) hku
    (fun h0 => clean_far S hd hdt hns A (fun j => by have := hc j; omega) (fun j h1 h2 => by rw [hc, one_ne h1, one_ne h2]; rfl) (hclean (by omega))) S2 R
  have hnd : ∀ z ∈ [y], ¬ AncSelf u d z := by
    intro z hz h
    rw [List.mem_singleton.1 hz] at h
    rcases Relation.ReflTransGen.cases_head h with h | ⟨q, ⟨m, hm, hp⟩, _⟩
    · exact hyd h.symm
    · obtain ⟨m', hm', hb⟩ := A.symm.get hm
      rw [hd] at hm'; cases hm'
      have := Tree.doc_parent S.wf.toCore hd hdt
      rw [(bare_eq hb).2.2.1, hp] at this; cases this
  have hnsu : ∀ z ∈ [y], ¬ AncSelf u s z := by
    intro z hz h
    rw [List.mem_singleton.1 hz] at h
    exact hns (anc_alike A h)
  obtain ⟨du, hdu, hdub⟩ := A.get hd
  obtain ⟨d3, hd3, d3d, _, d3r, d3p⟩ := C.kept d du hdu hnd
  obtain ⟨s3, hs3, s3d, _, s3r, s3p⟩ := C.kept s su hsu hnsu
  have hcd := hc d
  have hcs := hc s
  rw [one_self, one_ne hds] at hcd
  rw [one_self, one_ne (fun h => hds h.symm)] at hcs
  have hdpos := hk sn d dn hs ho hd
  rw [Tree.count_eq hd, Tree.count_eq hdu] at hcd
  rw [Tree.count_eq hs, Tree.count_eq hsu] at hcs
  obtain ⟨w4, e4, S4, A4, c4⟩ := unref_step C.sound hd3 (by omega) (.inl (by omega))
  obtain ⟨s4, hs4, hs4b⟩ := A4.get hs3
  have hc4 := c4 s
  rw [one_ne (fun h => hds h.symm), Tree.count_eq hs4, Tree.count_eq hs3] at hc4
  have hspar : sn.refcnt = 0 → s4.parent ≠ none := by
    intro h0 h1
    rw [(bare_eq hs4b).2.2.1, s3p, (bare_eq hsub).2.2.1] at h1
    have := S.held s sn hs h1
    rw [hst] at this
    simp at this
    omega
  obtain ⟨w5, e5, S5, A5, c5⟩ := unref_step S4 hs4 (by omega) (by by_cases h0 : sn.refcnt = 0; exact .inr (hspar h0); exact .inl (by omega))
  refine ⟨w5, ch', ?_, cut_close A C (A4.trans A5) S5 (fun j => by have := c5 j; have := c4 j; have := C.counts j; have := hc j; omega) (by omega)⟩
  refine closing_ok e2 ?_
  rw [bind_ok e3]
  unfold closeCol
  rw [bind_ok e4]; exact e5

theorem below_split (h : Tree.Below ch s y) (hne : y ≠ s) : ∃ p, Tree.Below ch s p ∧ y ∈ ch p := by
  rcases Relation.ReflTransGen.cases_tail h with h | ⟨p, h1, h2⟩
  · exact absurd h hne
  · exact ⟨p, h1, h2⟩

theorem selectRemove_run (S : Sound w ch) (hx : Closed w ch s) (hk : DocKept w s) (hr : Roomy w) (hf : w.fresh < 2147483640) (hno : isOption w s = false) (index : Int) :
    (index < 0 ∨ (options w ch s).length ≤ index → selectRemove s index w = .ok w ()) ∧
    ∀ y p pn, 0 ≤ index → (options w ch s)[index.toNat]? = some y → y ∈ ch p → w.nodes p = some pn → pn.type = .element → (count w y = 0 → Clean w y) →
      ∃ w' ch', selectRemove s index w = .ok w' () ∧ Cut w ch [y] w' ch' := by
  have e0 := selectLength_run S hx hk hr (by omega)
  have hsm : (options w ch s).length < 2147483648 := (col_total S hx (isOption w) (by omega)).2.2.1
  have h32 := Table.toInt32_small hsm
  unfold selectRemove
  rw [bind_ok e0, h32]
  constructor
  · intro h
    rw [if_pos (by simp only [Bool.or_eq_true, decide_eq_true_eq]; omega)]; rfl
  · intro y p pn h0 hy hyp hp hpt hclean
    have hlen : index.toNat < (options w ch s).length := by
      rcases Nat.lt_or_ge index.toNat (options w ch s).length with h | h
      · exact h
      · rw [List.getElem?_eq_none h] at hy; cases hy
    rw [if_neg (by simp only [Bool.or_eq_true, decide_eq_true_eq]; omega)]
    have hu : toUInt32 index = index.toNat := by
      conv_lhs => rw [show index = (index.toNat : Int) by omega]
      exact Table.toUInt32_small (by omega)
    rw [hu]
    obtain ⟨sn, h1, h2, h3⟩ := hx
    have hx : Closed w ch s := ⟨sn, h1, h2, h3⟩
    obtain ⟨d, dn, u, ho, hd, hdt, hds, e1, Su, A, hc⟩ := open_step S h1 h2 (fun j => Nat.lt_trans (hr j) (by omega))
    have e2 : Table.reading (fun w => optItem w s index.toNat) u = .ok u (some y) := by
      have h := (col_total Su (hx.alike A) (isOption u) (by rw [A.fresh]; omega)).2.1 index.toNat (by omega)
      have e : members u ch (isOption u) s = options w ch s := A.options
      rw [e, hy] at h
      exact Table.reading_ok h
    obtain ⟨ym, hym, hyt, hyb, hyo⟩ := (col_total S hx (isOption w) (by omega)).2.2.2 y (List.mem_of_getElem? hy)
    have hys : y ≠ s := by rintro rfl; rw [hno] at hyo; cases hyo
    obtain ⟨yu, hyu, hyub⟩ := A.get hym
    have hroom : count w y < 4294967280 := hr y
    obtain ⟨v, e3, Sv, A1, c1⟩ := ref_step Su hyu (by
      rw [get_count hyu, hc]
      have l1 := one_le d y
      have l2 := one_le s y
      omega)
    obtain ⟨yv, hyv, hyvb⟩ := (A.trans A1).get hym
    obtain ⟨q, hq, hqy⟩ := below_split hyb hys
    obtain ⟨m1, k1, _, p1⟩ := S.wf.linked.alive_child hyp
    obtain ⟨m2, k2, _, p2⟩ := S.wf.linked.alive_child hqy
    rw [hym] at k1 k2; cases k1; cases k2
    have e : q = p := by rw [p1] at p2; simpa using p2.symm
    subst e
    have hpo : pn.owner = some d := by rw [below_owner S h1 hq pn hp, ho]
    have hns : ¬ AncSelf w s y := by
      intro h
      have hsq : AncSelf w q s := Tree.below_anc S.wf.linked hq
      exact loop_free S.wf (Relation.TransGen.head' (b := q) ⟨ym, hym, p1⟩ (hsq.trans h))
    obtain ⟨w', ch', e4, C⟩ := take_run S hk h1 h2 ho hd hdt hds hp hpt hpo hyp hns hroom Su A hc Sv A1 c1 hclean
    refine ⟨w', ch', ?_, C⟩
    unfold removeOption
    rw [bind_ok e1]
    have : optionRef s index.toNat u = .ok v (some y) := by
      unfold optionRef
      rw [bind_ok e2]
      show (ref y >>= _) u = _
      rw [bind_ok e3]; rfl
    rw [bind_ok this]
    show (getNode y >>= _) v = _
    rw [get_bind hyv, (bare_eq hyvb).2.2.1, p1]
    exact e4

/-- An element is put into the selection and the reference from that is given up. -/
theorem selectAdd_run {before : Option NodeId} (S : Sound w ch) (hs : Held w s) (hx : w.nodes x = some n) (hxt : n.type = .element) (hxr : 0 < n.refcnt) (hroom : n.refcnt < 4294967290)
    (hb : ∀ c, before = some c → Tree.NotAttrOf w s c) :
    ∃ w' ch', Sound w' ch' ∧ (selectAdd s x before w = .ok w' () ∨ ∃ e, selectAdd s x before w = .exc w' e) ∧ ∀ j, count w' j = count w j := by
  obtain ⟨w1, ch1, S1, ⟨r, h1, h2⟩ | ⟨e, h1, h2⟩⟩ := S.insert (r := before) hs ⟨n, hx⟩ hb (fun m hm hf => by rw [hx] at hm; cases hm; rw [hxt] at hf; cases hf)
      (fun m d dn hm hf => by rw [hx] at hm; cases hm; rw [hxt] at hf; cases hf) (fun m hm => by rw [hx] at hm; cases hm; omega)
  · have hr : r = x := by
      obtain ⟨sn, hsn, _⟩ := hs
      rcases Tree.insertBefore_total S.wf hsn hx (r := before) hb with ⟨e, h⟩ | ⟨_, h⟩ | ⟨v, cv, h, _⟩ | ⟨h, _⟩ | ⟨h, _⟩
      · rw [h1] at h; cases h
      · rw [h1] at h; cases h; rfl
      · rw [h1] at h; cases h; rfl
      · rw [hxt] at h; cases h
      · rw [hxt] at h; cases h
    subst hr
    have hc := h2 r
    rw [if_pos rfl, Tree.count_eq hx] at hc
    cases hn : w1.nodes r with
    | none => unfold count at hc; rw [hn] at hc; cases hc
    | some m =>
      rw [Tree.count_eq hn] at hc
      obtain ⟨w2, e2, S2, _, c2⟩ := unref_step S1 hn (by omega) (.inl (by omega))
      refine ⟨w2, ch1, S2, .inl ?_, fun j => ?_⟩
      · unfold selectAdd
        rw [bind_ok h1]; exact e2
      · have h3 := c2 j
        have h4 := h2 j
        by_cases hj : j = r
        · subst hj; rw [one_self] at h3; rw [if_pos rfl] at h4; omega
        · rw [one_ne hj] at h3; rw [if_neg (fun h => hj (by simpa using h.symm))] at h4; omega
  · refine ⟨w1, ch1, S1, .inr ⟨e, bind_exc h1 _⟩, fun j => ?_⟩
    rw [h2 j]; simp

/-! ## The setters of a table -/

/-- The setter keeps a reference to the new child that it does not hand out. -/
theorem setChild_run (S : Sound w ch) (ht : w.nodes t = some tn) (htt : tn.type = .element) (htr : 0 < tn.refcnt) (hk : DocKept w t) (hr : Roomy w) {asked tag : DStr} {name : String}
    (hn : tag.data.map asciiLower = name.toUTF8.toList) (hx : w.nodes x = some n) (hxt : n.type = .element) (hxr : 0 < n.refcnt)
    (hcl : ∀ y, (ch t).find? (tagged w name) = some y → count w y = 0 → Clean w y) :
    (Str.caselessIsEqual (some asked) n.name = false → setChild asked tag t (some x) w = .exc w .hierarchyRequest) ∧
    (Str.caselessIsEqual (some asked) n.name = true → ∃ w' ch', Sound w' ch' ∧
      ((setChild asked tag t (some x) w = .ok w' () ∧ ∀ j, count w' j = count w j + one x j) ∨ ∃ e, setChild asked tag t (some x) w = .exc w' e ∧ ∀ j, count w' j = count w j)) := by
  constructor
  · intro h
    show (getNode x >>= _) w = _
    rw [get_bind hx, h]
    exact Table.throwIf_pos rfl _ _
  · intro h
    obtain ⟨g1, g2⟩ := deleteChild_run S ht htt hk hr hn
    obtain ⟨w1, ch1, e1, S1, c1⟩ : ∃ w1 ch1, deleteChild tag t w = .ok w1 () ∧ Sound w1 ch1 ∧ ((w1 = w) ∨ ∃ y, Cut w ch [y] w1 ch1) := by
      cases hf : (ch t).find? (tagged w name) with
      | none => exact ⟨w, ch, g1 hf, S, .inl rfl⟩
      | some y =>
        obtain ⟨w1, ch1, e, C⟩ := g2 y hf (hcl y hf)
        exact ⟨w1, ch1, e, C.sound, .inr ⟨y, C⟩⟩
    have hcnt : ∀ j, count w1 j = count w j := by
      rcases c1 with rfl | ⟨y, C⟩
      · exact fun _ => rfl
      · exact C.counts
    have hback : ∀ j m', w1.nodes j = some m' → ∃ m, w.nodes j = some m ∧ m'.data = m.data := by
      rcases c1 with rfl | ⟨y, C⟩
      · exact fun j m' h => ⟨m', h, rfl⟩
      · intro j m' hj
        obtain ⟨m, h1, h2, _⟩ := C.back j m' hj
        exact ⟨m, h1, h2⟩
    have live : ∀ j m, w.nodes j = some m → 0 < m.refcnt → ∃ m', w1.nodes j = some m' ∧ m'.refcnt = m.refcnt ∧ m'.data = m.data := by
      intro j m hj hp
      have hh := hcnt j
      rw [Tree.count_eq hj] at hh
      cases hj' : w1.nodes j with
      | none => unfold count at hh; rw [hj'] at hh; dsimp only at hh; omega
      | some m' =>
        rw [Tree.count_eq hj'] at hh
        obtain ⟨k, h1, h2⟩ := hback j m' hj'
        rw [hj] at h1; cases h1
        exact ⟨m', rfl, hh, h2⟩
    obtain ⟨t1, ht1, ht1r, ht1d⟩ := live t tn ht htr
    obtain ⟨x1, hx1, hx1r, hx1d⟩ := live x n hx hxr
    have hx1t : x1.type = .element := by rw [Tree.Node.data_type hx1d, hxt]
    have hroom : count w x < 4294967280 := hr x
    rw [Tree.count_eq hx] at hroom
    have hrun : ∀ {res : Tree.Res NodeId}, appendChild t x w1 = res → setChild asked tag t (some x) w = match res with | .ok w' _ => .ok w' () | .exc w' e => .exc w' e | .fault f => .fault f := by
      intro res hres
      show (getNode x >>= _) w = _
      rw [get_bind hx, h]
      show (throwIf false .hierarchyRequest >>= _) w = _
      rw [Table.throwIf_neg rfl, bind_ok e1]
      cases res with
      | ok w' r => rw [bind_ok hres]; rfl
      | exc w' e => rw [bind_exc hres]
      | fault f => rw [bind_fault hres]
    obtain ⟨w2, ch2, S2, ⟨r, h1, h2⟩ | ⟨e, h1, h2⟩⟩ := S1.insert (r := none) (p := t) (new := x) ⟨t1, ht1, by omega⟩ ⟨x1, hx1⟩ (fun c h => nomatch h)
        (fun m hm hf => by rw [hx1] at hm; cases hm; rw [hx1t] at hf; cases hf) (fun m d dn hm hf => by rw [hx1] at hm; cases hm; rw [hx1t] at hf; cases hf)
        (fun m hm => by rw [hx1] at hm; cases hm; omega)
    · have hrx : r = x := by
        rcases Tree.insertBefore_total S1.wf ht1 hx1 (r := none) (fun c h => nomatch h) with ⟨e, h⟩ | ⟨_, h⟩ | ⟨v, cv, h, _⟩ | ⟨h, _⟩ | ⟨h, _⟩
        · rw [h1] at h; cases h
        · rw [h1] at h; cases h; rfl
        · rw [h1] at h; cases h; rfl
        · rw [hx1t] at h; cases h
        · rw [hx1t] at h; cases h
      subst hrx
      refine ⟨w2, ch2, S2, .inl ⟨hrun h1, fun j => ?_⟩⟩
      have h4 := h2 j
      rw [hcnt] at h4
      by_cases hj : j = r
      · subst hj; rw [one_self]; rw [if_pos rfl] at h4; omega
      · rw [one_ne hj]; rw [if_neg (fun h => hj (by simpa using h.symm))] at h4; omega
    · refine ⟨w2, ch2, S2, .inr ⟨e, hrun h1, fun j => ?_⟩⟩
      rw [h2 j, hcnt]; simp

end Dom.Html.Refs
