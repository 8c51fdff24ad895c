import Verif.Html.RefsInsert
/-!
# Deleting rows, cells and sections, with references
-/
set_option linter.unusedSimpArgs false
set_option linter.unusedVariables false
namespace Dom.Html.Refs
open Dom.Str (DStr)
open Dom.Tree (World NodeId Node M Children Sound WF Core Room DocKept Clean count Grants getNode deref throwIf bound appendChild insertBefore removeChild ref unref AncSelf ReadOnly bind_ok bind_exc get_bind Cut Severed)
open Dom.Html.Table (trName tdName newElement)

variable {u w w' v v' : World} {ch ch' : Children} {x y s d j new : NodeId} {n dn sn nn : Node}

theorem count_alike {a b : World} (A : Alike a b) {f : NodeId → Nat → Nat} (hc : ∀ j, count b j = f j (count a j)) :
    ∀ j, (b.nodes j).map Node.refcnt = (a.nodes j).map fun n => f j n.refcnt := by
  intro j
  have h := A.nodes j
  have h2 := hc j
  cases ha : a.nodes j with
  | none =>
    rw [ha] at h
    cases hb : b.nodes j with
    | none => rfl
    | some m => rw [hb] at h; cases h
  | some m =>
    obtain ⟨m', hm', _⟩ := A.get ha
    rw [Tree.count_eq ha, Tree.count_eq hm'] at h2
    rw [hm']
    exact congrArg some h2

theorem Alike.map {α : Type} {a b : World} (A : Alike a b) (f : Node → α) (hf : ∀ n, f (bare n) = f n) (j : NodeId) : (b.nodes j).map f = (a.nodes j).map f := by
  have h := congrArg (Option.map f) (A.nodes j)
  rw [Option.map_map, Option.map_map] at h
  have e : f ∘ bare = f := funext hf
  rwa [e] at h

/-- A child to which a reference was made is taken out and the reference from that is given up. -/
theorem takeOut_step (S : Sound u ch) (hs : u.nodes s = some sn) (hst : sn.type = .element) (hy : y ∈ ch s) (Sv : Sound v ch) (A : Alike u v)
    (hc : ∀ j, count v j = count u j + one y j) (hr : count u y + 2 < 4294967296) :
    ∃ w2 ch1, takeOut s y v = .ok w2 () ∧ Sound w2 ch1 ∧ Severed u ch y w2 ch1 := by
  obtain ⟨sv, hsv, hsb⟩ := A.get hs
  have hsvt : sv.type = .element := (bare_eq hsb).2.2.2.2.2.2.2.trans hst
  obtain ⟨yv, hyv, hya, hyp⟩ := Sv.wf.linked.alive_child hy
  have hcy := hc y
  rw [one_self, Tree.count_eq hyv] at hcy
  have hrr : Tree.removeRefusal v ch s y sv yv = none := by
    unfold Tree.removeRefusal
    rw [if_neg (fun h => by rw [hsvt] at h; cases h.1), if_neg (not_not.2 hy), if_neg (writable Sv hsv hsvt)]
  obtain ⟨w1, ch1, e1, R⟩ := Tree.removeChild_ok Sv.wf hsv hyv (fun h => absurd h hya) hrr
  have S1 := Sv.removed R hyv hya (by omega)
  obtain ⟨y1, hy1, hr1⟩ := Tree.map_some_eq (R.refs y) hyv
  rw [if_pos rfl, u32_small (by omega)] at hr1
  obtain ⟨w2, e2, S2, A2, c2⟩ := unref_step S1 hy1 (by omega) (.inl (by omega))
  refine ⟨w2, ch1, ?_, S2, R.lists, fun j => ?_, fun j => ?_, fun j => ?_, A2.fresh.trans (R.fresh.trans A.fresh), fun j => ?_⟩
  · unfold takeOut
    rw [bind_ok e1]; exact e2
  · rw [A2.map Node.data (fun _ => rfl), R.data j, A.map Node.data (fun _ => rfl)]
  · have h1 := count_alike (f := fun j c => c - one y j) A2 (fun j => by have := c2 j; show count w2 j = count w1 j - one y j; omega) j
    have h2 := R.refs j
    have h3 := count_alike (f := fun j c => c + one y j) A hc j
    rw [h1]
    by_cases h : j = y
    · subst h
      obtain ⟨k, hk, _⟩ := A.symm.get hyv
      rw [hy1, hk]
      rw [Tree.count_eq hk] at hcy hr
      simp only [Option.map_some, one_self, if_pos]
      rw [u32_small (by omega)]
      exact congrArg some (by omega)
    · simp only [if_neg h, one_ne h, Nat.sub_zero, Nat.add_zero] at h2 h3 ⊢
      exact h2.trans h3
  · rw [A2.map Node.owner (fun _ => rfl), R.owner j, A.map Node.owner (fun _ => rfl)]
  · rw [A2.map Node.parent (fun _ => rfl), R.parents j]
    exact A.map (fun n => if j = y then none else n.parent) (fun _ => rfl) j

theorem anc_alike {a b : World} (A : Alike a b) {i k : NodeId} (h : AncSelf b i k) : AncSelf a i k := by
  refine Relation.ReflTransGen.mono ?_ _ _ h
  rintro z q ⟨m, hm, hp⟩
  obtain ⟨m', hm', hb⟩ := A.symm.get hm
  exact ⟨m', hm', by rw [(bare_eq hb).2.2.1]; exact hp⟩

/-- The collection of `s` does not change what happens to a child of `s`. -/
theorem clean_open (S : Sound w ch) (hd : w.nodes d = some dn) (hdt : dn.type = .document) (hy : y ∈ ch s) (A : Alike w u) (hle : ∀ j, count w j ≤ count u j)
    (heq : ∀ j, j ≠ d → j ≠ s → count u j = count w j) (h : Clean w y) : Clean u y := by
  have dies : ∀ j, Tree.Dies u y j → Tree.Dies w y j := by
    intro j h
    induction h with
    | self => exact .self
    | @down p k m _ hk hp hr ih =>
      obtain ⟨m', hm', hb⟩ := A.symm.get hk
      refine .down ih hm' (by rw [(bare_eq hb).2.2.1]; exact hp) ?_
      have := hle k
      rw [Tree.count_eq hk, Tree.count_eq hm'] at this
      omega
  rintro j m ⟨p, m1, hdp, hj, hp, hr⟩ hm
  rw [hj] at hm; cases hm
  obtain ⟨k, hk, hb⟩ := A.symm.get hj
  have b := bare_eq hb
  have hjd : j ≠ d := by
    rintro rfl
    rw [hd] at hk; cases hk
    have := Tree.doc_parent S.wf.toCore hd hdt
    rw [b.2.2.1, hp] at this; cases this
  have hjs : j ≠ s := by
    rintro rfl
    exact Tree.child_not_above S.wf hy (Relation.ReflTransGen.head ⟨k, hk, by rw [b.2.2.1]; exact hp⟩ (dies p hdp).anc)
  have hcj := heq j hjd hjs
  rw [Tree.count_eq hj, Tree.count_eq hk] at hcj
  have := h j k ⟨p, k, dies p hdp, hk, by rw [b.2.2.1]; exact hp, by omega⟩ hk
  rw [← b.2.2.2.2.1, ← b.2.2.2.2.2.1]
  exact this

/-- The references of the collection do not matter for the result. -/
theorem cut_close {a b : World} (A : Alike w a) (C : Cut a ch [y] v ch') (B : Alike v b) (Sb : Sound b ch') (hc : ∀ j, count b j = count w j) (hcy : count a y = count w y) :
    Cut w ch [y] b ch' := by
  have hcnt : ∀ {j m k}, b.nodes j = some m → w.nodes j = some k → m.refcnt = k.refcnt := by
    intro j m k h1 h2
    have := hc j
    rwa [Tree.count_eq h1, Tree.count_eq h2] at this
  refine ⟨Sb, fun q m' hq => ?_, hc, fun c hc' h0 => ?_, fun c hc' m' hm' => ?_, fun j m' hj => ?_, fun j m hj hn => ?_, B.fresh.trans (C.fresh.trans A.fresh)⟩
  · obtain ⟨m, hm, _⟩ := B.symm.get hq
    exact C.lists q m hm
  · have := List.mem_singleton.1 hc'
    subst this
    have h := C.freed c hc' (by rw [hcy]; exact h0)
    cases hb : b.nodes c with
    | none => rfl
    | some m => obtain ⟨m', hm', _⟩ := B.symm.get hb; rw [h] at hm'; cases hm'
  · obtain ⟨m, hm, hb⟩ := B.symm.get hm'
    rw [← (bare_eq hb).2.2.1]
    exact C.alone c hc' m hm
  · obtain ⟨m, hm, hb⟩ := B.symm.get hj
    have b1 := bare_eq hb
    obtain ⟨k, hk, k1, k2, _, k4⟩ := C.back j m hm
    obtain ⟨z, hz, hzb⟩ := A.symm.get hk
    have b2 := bare_eq hzb
    exact ⟨z, hz, by rw [← b1.1, k1, b2.1], by rw [← b1.2.1, k2, b2.2.1], hcnt hj hz, by rw [← b1.2.2.1, b2.2.2.1]; exact k4⟩
  · obtain ⟨k, hk, hb⟩ := A.get hj
    have b1 := bare_eq hb
    obtain ⟨m', hm', k1, k2, _, k4⟩ := C.kept j k hk (fun c hc' h => hn c hc' (anc_alike A h))
    obtain ⟨z, hz, hzb⟩ := B.get hm'
    have b2 := bare_eq hzb
    exact ⟨z, hz, by rw [b2.1, k1, b1.1], by rw [b2.2.1, k2, b1.2.1], hcnt hz hj, by rw [b2.2.2.1, k4, b1.2.2.1]⟩

/-- The end of a function that deletes, in the state where the collection is there. -/
theorem removeItem_run (S : Sound w ch) (hx : Closed w ch s) (hk : DocKept w s) (hr : Roomy w) (hf : w.fresh < 2147483640) {tag : DStr} {i : Nat} (hi : (tagList w ch tag s)[i]? = some y)
    (hs : w.nodes s = some sn) (hst : sn.type = .element) (ho : sn.owner = some d) (hd : w.nodes d = some dn) (hdt : dn.type = .document) (hds : d ≠ s) (Su : Sound u ch) (A : Alike w u)
    (hc : ∀ j, count u j = count w j + one d j + one s j) :
    (y ∉ ch s → removeItem tag s d i u = .exc w .notFound) ∧
    (y ∈ ch s → (count w y = 0 → Clean w y) → ∃ w' ch', removeItem tag s d i u = .ok w' () ∧ Cut w ch [y] w' ch') := by
  have hxu := hx.alike A
  have hfu : u.fresh < 2147483648 := by rw [A.fresh]; omega
  have hlen : i < (tagList w ch tag s).length := by
    rcases Nat.lt_or_ge i (tagList w ch tag s).length with h | h
    · exact h
    · rw [List.getElem?_eq_none h] at hi; cases hi
  have hsmall : (tagList w ch tag s).length < 2147483648 := (col_total S hx _ (by omega)).2.2.1
  have e0 := item_total Su hxu tag hfu (i := i) (by omega)
  rw [A.tagList, hi] at e0
  obtain ⟨ym, hym, hyt, hyb, _⟩ := tag_mem S hx (by omega) (List.mem_of_getElem? hi)
  obtain ⟨yu, hyu, hyub⟩ := A.get hym
  have hroom : count w y < 4294967280 := hr y
  have l1 := one_le d y
  have l2 := one_le s y
  have hcy := hc y
  obtain ⟨v, e1, S1, A1, c1⟩ := ref_step Su hyu (by rw [get_count hyu]; omega)
  have hyd : y ≠ d := by rintro rfl; rw [hd] at hym; cases hym; rw [hdt] at hyt; cases hyt
  have hrun : ∀ {α : Type} (k : NodeId → M α), (itemRef tag s i >>= fun node => deref node >>= k) u = k y v := by
    intro α k
    have : itemRef tag s i u = .ok v (some y) := by
      unfold itemRef
      rw [bind_ok e0]
      show (ref y >>= _) u = _
      rw [bind_ok e1]; rfl
    rw [bind_ok this]; rfl
  obtain ⟨su, hsu, hsub⟩ := A.get hs
  have hsut : su.type = .element := (bare_eq hsub).2.2.2.2.2.2.2.trans hst
  unfold removeItem
  rw [hrun]
  constructor
  · intro hno
    obtain ⟨sv, hsv, hsvb⟩ := (A.trans A1).get hs
    obtain ⟨yv, hyv, hyvb⟩ := (A.trans A1).get hym
    have hsvt : sv.type = .element := (bare_eq hsvb).2.2.2.2.2.2.2.trans hst
    have hyvt : yv.type = .element := (bare_eq hyvb).2.2.2.2.2.2.2.trans hyt
    have he : Tree.removeRefusal v ch s y sv yv = some .notFound := by
      unfold Tree.removeRefusal
      rw [if_neg (fun h => by rw [hsvt] at h; cases h.1), if_pos hno]
    have h1 := Tree.removeChild_refused S1.wf hsv hyv (fun h => by rw [hyvt] at h; cases h) he
    have h2 : takeOut s y v = .exc v .notFound := bind_exc h1 _
    obtain ⟨v2, e2, S2, A2, c2⟩ := unref_back S S1 hym (fun h => by rw [hyt] at h; cases h) (A.trans A1).kept (by have := c1 y; rw [one_self] at this; omega)
    obtain ⟨v3, e3, S3, A3, c3⟩ := close_step S S2 hs hst ho hd hk (A.trans (A1.trans A2)).kept hds (fun j => by have := c1 j; have := c2 j; have := hc j; omega)
    have : v3 = w := (A.trans (A1.trans (A2.trans A3))).eq (fun j => by have := c1 j; have := c2 j; have := c3 j; have := hc j; omega)
    rw [this] at e3
    exact closing_exc h2 (by rw [bind_ok e2]; exact e3)
  · intro hin hclean
    have hys : y ≠ s := by
      rintro rfl
      exact Tree.child_not_above S.wf hin .refl
    rw [one_ne hyd, one_ne hys] at hcy
    obtain ⟨w2, ch1, e2, S2, R⟩ := takeOut_step Su hsu hsut hin S1 A1 c1 (by omega)
    have hku : DocKept u s := by
      intro n' d' dn' h1 h2 h3
      rw [hsu] at h1; cases h1
      rw [(bare_eq hsub).2.1, ho] at h2; cases h2
      have := hk sn d dn hs ho hd
      have h4 := hc d
      rw [Tree.count_eq h3, Tree.count_eq hd] at h4
      omega
    obtain ⟨w3, ch', e3, C⟩ := Tree.cut_finish Su hsu hin (fun m hm => by rw [hyu] at hm; cases hm; rw [get_count hyu]; omega) hku
      (fun h0 => clean_open S hd hdt hin A (fun j => by have := hc j; omega) (fun j h1 h2 => by rw [hc, one_ne h1, one_ne h2]; rfl) (hclean (by omega))) S2 R
    have hnd : ∀ z ∈ [y], ¬ AncSelf u d z := by
      intro z hz h
      rw [List.mem_singleton.1 hz] at h
      rcases Relation.ReflTransGen.cases_head h with h | ⟨q, ⟨m, hm, hp⟩, _⟩
      · exact hyd h.symm
      · obtain ⟨m', hm', hb⟩ := A.symm.get hm
        rw [hd] at hm'; cases hm'
        have := Tree.doc_parent S.wf.toCore hd hdt
        rw [(bare_eq hb).2.2.1, hp] at this; cases this
    have hns : ∀ z ∈ [y], ¬ AncSelf u s z := by
      intro z hz h
      rw [List.mem_singleton.1 hz] at h
      exact Tree.child_not_above Su.wf hin h
    obtain ⟨du, hdu, hdub⟩ := A.get hd
    obtain ⟨d3, hd3, d3d, _, d3r, d3p⟩ := C.kept d du hdu hnd
    obtain ⟨s3, hs3, s3d, _, s3r, s3p⟩ := C.kept s su hsu hns
    have hcd := hc d
    have hcs := hc s
    rw [one_self, one_ne hds] at hcd
    rw [one_self, one_ne (fun h => hds h.symm)] at hcs
    have hdpos := hk sn d dn hs ho hd
    rw [Tree.count_eq hd, Tree.count_eq hdu] at hcd
    rw [Tree.count_eq hs, Tree.count_eq hsu] at hcs
    obtain ⟨w4, e4, S4, A4, c4⟩ := unref_step C.sound hd3 (by omega) (.inl (by omega))
    obtain ⟨s4, hs4, hs4b⟩ := A4.get hs3
    have hc4 := c4 s
    rw [one_ne (fun h => hds h.symm), Tree.count_eq hs4, Tree.count_eq hs3] at hc4
    have hspar : sn.refcnt = 0 → s4.parent ≠ none := by
      intro h0 h1
      rw [(bare_eq hs4b).2.2.1, s3p, (bare_eq hsub).2.2.1] at h1
      have := S.held s sn hs h1
      rw [hst] at this
      simp at this
      omega
    obtain ⟨w5, e5, S5, A5, c5⟩ := unref_step S4 hs4 (by omega) (by by_cases h0 : sn.refcnt = 0; exact .inr (hspar h0); exact .inl (by omega))
    refine ⟨w5, ch', ?_, cut_close A C (A4.trans A5) S5 (fun j => by have := c5 j; have := c4 j; have := C.counts j; have := hc j; omega) (by omega)⟩
    refine closing_ok e2 ?_
    rw [bind_ok e3]
    unfold closeCol
    rw [bind_ok e4]; exact e5

/-- The element with the index; the last one for -1. -/
def pick (l : List NodeId) (index : Int) : Option NodeId := if index = -1 then l.getLast? else if index < 0 then none else l[index.toNat]?

/-- What deleting the element `tag` with an index below `s` does: an index without element is refused, and so is one whose element is not a child of `s`; both leave everything
as it is.  Otherwise the element is taken out, and freed unless somebody holds a reference to it. -/
def Deletes (w : World) (ch : Children) (tag : DStr) (s : NodeId) (index : Int) (res : Tree.Res Unit) : Prop :=
  (pick (tagList w ch tag s) index = none → res = .exc w .indexSize) ∧
  ∀ y, pick (tagList w ch tag s) index = some y →
    (y ∉ ch s → res = .exc w .notFound) ∧
    (y ∈ ch s → (count w y = 0 → Clean w y) → ∃ w' ch', res = .ok w' () ∧ Cut w ch [y] w' ch')

theorem sectionDeleteRow_run (S : Sound w ch) (hx : Closed w ch s) (hk : DocKept w s) (hr : Roomy w) (hf : w.fresh < 2147483640) (index : Int) :
    Deletes w ch trName s index (sectionDeleteRow s index w) := by
  obtain ⟨n, h1, h2, h3⟩ := hx
  have hx : Closed w ch s := ⟨n, h1, h2, h3⟩
  obtain ⟨d, dn, u, ho, hd, hdt, hds, e1, Su, A, hc⟩ := open_step S h1 h2 (fun j => Nat.lt_trans (hr j) (by omega))
  have e2 := count_total Su (hx.alike A) trName (by rw [A.fresh]; omega)
  rw [A.tagList] at e2
  have hsmall : (tagList w ch trName s).length < 2147483648 := (col_total S hx _ (by omega)).2.2.1
  have h32 := Table.toInt32_small hsmall
  unfold sectionDeleteRow
  rw [bind_ok e1, bind_ok e2, h32]
  have key : ∀ y, pick (tagList w ch trName s) index = some y → -1 ≤ index ∧ index < (tagList w ch trName s).length ∧ (tagList w ch trName s).length ≠ 0 ∧
      (tagList w ch trName s)[if index == -1 then sub32 (tagList w ch trName s).length 1 else toUInt32 index]? = some y := by
    intro y hy
    unfold pick at hy
    by_cases hm : index = -1
    · rw [if_pos hm] at hy
      have hne : (tagList w ch trName s).length ≠ 0 := by intro h; rw [List.length_eq_zero_iff.1 h] at hy; cases hy
      refine ⟨by omega, by omega, hne, ?_⟩
      rw [if_pos (by simp [hm]), sub32_le (show 1 ≤ _ by omega), ← List.getLast?_eq_getElem?]
      exact hy
    · rw [if_neg hm] at hy
      by_cases hn : index < 0
      · rw [if_pos hn] at hy; cases hy
      · rw [if_neg hn] at hy
        have hlt : index.toNat < (tagList w ch trName s).length := by
          rcases Nat.lt_or_ge index.toNat (tagList w ch trName s).length with h | h
          · exact h
          · rw [List.getElem?_eq_none h] at hy; cases hy
        have hu : toUInt32 index = index.toNat := by
          have := Table.toUInt32_small (n := index.toNat) (by omega)
          rwa [Int.toNat_of_nonneg (by omega)] at this
        refine ⟨by omega, by omega, by omega, ?_⟩
        rw [if_neg (by simpa using hm), hu]
        exact hy
  refine ⟨fun hb => ?_, fun y hy => ?_⟩
  · obtain ⟨v, e3, S3, A3, c3⟩ := close_step S Su h1 h2 ho hd hk A.kept hds (fun j => by rw [hc])
    have hv : v = w := (A.trans A3).eq (fun j => by have := hc j; have := c3 j; omega)
    rw [if_pos ?_, bind_ok e3, hv]
    · rfl
    · simp only [Bool.or_eq_true, Bool.and_eq_true, decide_eq_true_eq, beq_iff_eq, ge_iff_le]
      by_contra hcon
      unfold pick at hb
      by_cases hm : index = -1
      · rw [if_pos hm, List.getLast?_eq_none_iff] at hb
        rw [hb] at hcon
        simp [hm] at hcon
      · rw [if_neg hm, if_neg (by omega), List.getElem?_eq_none_iff] at hb
        omega
  · obtain ⟨k1, k2, k3, k4⟩ := key y hy
    rw [if_neg (by simp only [Bool.or_eq_true, Bool.and_eq_true, decide_eq_true_eq, beq_iff_eq, ge_iff_le]; omega)]
    exact removeItem_run S hx hk hr hf k4 h1 h2 ho hd hdt hds Su A hc

theorem deleteCell_run (S : Sound w ch) (hx : Closed w ch s) (hk : DocKept w s) (hr : Roomy w) (hf : w.fresh < 2147483640) (index : Int) :
    Deletes w ch tdName s index (deleteCell s index w) := by
  obtain ⟨n, h1, h2, h3⟩ := hx
  have hx : Closed w ch s := ⟨n, h1, h2, h3⟩
  obtain ⟨d, dn, u, ho, hd, hdt, hds, e1, Su, A, hc⟩ := open_step S h1 h2 (fun j => Nat.lt_trans (hr j) (by omega))
  have e2 := count_total Su (hx.alike A) tdName (by rw [A.fresh]; omega)
  rw [A.tagList] at e2
  have hsmall : (tagList w ch tdName s).length < 2147483648 := (col_total S hx _ (by omega)).2.2.1
  have h32 := Table.toInt32_small hsmall
  unfold deleteCell
  rw [bind_ok e1, bind_ok e2, h32]
  have key : ∀ y, pick (tagList w ch tdName s) index = some y → -1 ≤ index ∧ index < (tagList w ch tdName s).length ∧ (tagList w ch tdName s).length ≠ 0 ∧
      (tagList w ch tdName s)[if index == -1 then sub32 (tagList w ch tdName s).length 1 else toUInt32 index]? = some y := by
    intro y hy
    unfold pick at hy
    by_cases hm : index = -1
    · rw [if_pos hm] at hy
      have hne : (tagList w ch tdName s).length ≠ 0 := by intro h; rw [List.length_eq_zero_iff.1 h] at hy; cases hy
      refine ⟨by omega, by omega, hne, ?_⟩
      rw [if_pos (by simp [hm]), sub32_le (show 1 ≤ _ by omega), ← List.getLast?_eq_getElem?]
      exact hy
    · rw [if_neg hm] at hy
      by_cases hn : index < 0
      · rw [if_pos hn] at hy; cases hy
      · rw [if_neg hn] at hy
        have hlt : index.toNat < (tagList w ch tdName s).length := by
          rcases Nat.lt_or_ge index.toNat (tagList w ch tdName s).length with h | h
          · exact h
          · rw [List.getElem?_eq_none h] at hy; cases hy
        have hu : toUInt32 index = index.toNat := by
          have := Table.toUInt32_small (n := index.toNat) (by omega)
          rwa [Int.toNat_of_nonneg (by omega)] at this
        refine ⟨by omega, by omega, by omega, ?_⟩
        rw [if_neg (by simpa using hm), hu]
        exact hy
  refine ⟨fun hb => ?_, fun y hy => ?_⟩
  · obtain ⟨v, e3, S3, A3, c3⟩ := close_step S Su h1 h2 ho hd hk A.kept hds (fun j => by rw [hc])
    have hv : v = w := (A.trans A3).eq (fun j => by have := hc j; have := c3 j; omega)
    rw [if_pos ?_, bind_ok e3, hv]
    · rfl
    · simp only [Bool.or_eq_true, Bool.and_eq_true, decide_eq_true_eq, beq_iff_eq, ge_iff_le]
      by_contra hcon
      unfold pick at hb
      by_cases hm : index = -1
      · rw [if_pos hm, List.getLast?_eq_none_iff] at hb
        rw [hb] at hcon
        simp [hm] at hcon
      · rw [if_neg hm, if_neg (by omega), List.getElem?_eq_none_iff] at hb
        omega
  · obtain ⟨k1, k2, k3, k4⟩ := key y hy
    rw [if_neg (by simp only [Bool.or_eq_true, Bool.and_eq_true, decide_eq_true_eq, beq_iff_eq, ge_iff_le]; omega)]
    exact removeItem_run S hx hk hr hf k4 h1 h2 ho hd hdt hds Su A hc

end Dom.Html.Refs
