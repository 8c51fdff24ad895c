import Verif.Html.RefsRemove
/-!
# Tables: sections and rows, with references
-/
set_option linter.unusedSimpArgs false
set_option linter.unusedVariables false
namespace Dom.Html.Refs
open Dom.Str (DStr asciiLower)
open Dom.Tree (World NodeId Node M Children Sound WF Core Room DocKept Clean count Grants getNode deref throwIf bound appendChild insertBefore removeChild ref unref AncSelf ReadOnly bind_ok bind_exc bind_fault get_bind Cut Severed)
open Dom.Html.Table (trName tdName theadName tbodyName tfootName captionName newElement tagged childOf)

variable {u w w' v v' : World} {ch ch' : Children} {t x y s d j new : NodeId} {n dn sn nn tn : Node}

/-- No count overflows, with some more room. -/
def Spacious (w : World) : Prop := ∀ j, count w j < 4294967200

theorem Spacious.roomy (h : Spacious w) : Roomy w := fun j => Nat.lt_trans (h j) (by omega)
theorem Spacious.step (h : Spacious w) {f : NodeId → Nat} (hf : ∀ j, f j ≤ 8) (hc : ∀ j, count v j = count w j + f j) : Roomy v := by
  intro j
  have h1 : count w j < 4294967200 := h j
  have := hf j
  rw [hc j]; omega

theorem DocKept.child (S : Sound w ch) (ht : w.nodes t = some tn) (hk : DocKept w t) (hs : s ∈ ch t) : DocKept w s := by
  obtain ⟨m, hm, _, hp⟩ := S.wf.linked.alive_child hs
  intro n d dn h1 h2 h3
  rw [hm] at h1; cases h1
  exact hk tn d dn ht (by rw [← S.wf.ownSame s m t tn hm hp ht]; exact h2) h3

theorem DocKept.up (hk : DocKept w x) (A : Alike w v) (hc : ∀ j, count w j ≤ count v j) : DocKept v x := by
  intro n d dn h1 h2 h3
  obtain ⟨n0, k1, b1⟩ := A.symm.get h1
  obtain ⟨d0, k2, b2⟩ := A.symm.get h3
  have h4 := hk n0 d d0 k1 (by rw [(bare_eq b1).2.1]; exact h2) k2
  have := hc d
  rw [Tree.count_eq h3, Tree.count_eq k2] at this
  omega

/-- The child that is looked for, with a reference. -/
theorem getChild_run (S : Sound w ch) (ht : w.nodes t = some tn) (hr : Roomy w) {tag : DStr} {name : String} (hn : tag.data.map asciiLower = name.toUTF8.toList) :
    ((ch t).find? (tagged w name) = none → getChild tag t w = .ok w none) ∧
    ∀ y, (ch t).find? (tagged w name) = some y → ∃ v, getChild tag t w = .ok v (some y) ∧ Sound v ch ∧ Alike w v ∧ ∀ j, count v j = count w j + one y j := by
  have e0 := Table.childOf_run S.wf ht hn
  constructor
  · intro h
    rw [h] at e0
    unfold getChild
    rw [bind_ok e0]; rfl
  · intro y h
    rw [h] at e0
    obtain ⟨m, hm, _⟩ := S.wf.linked.alive_child (List.mem_of_find?_eq_some h)
    obtain ⟨v, e1, S1, A1, c1⟩ := ref_step S hm (by have h1 : count w y < 4294967280 := hr y; rw [get_count hm]; omega)
    refine ⟨v, ?_, S1, A1, c1⟩
    unfold getChild
    rw [bind_ok e0]
    show (ref y >>= _) w = _
    rw [bind_ok e1]; rfl

/-- The first child of the name is taken out. -/
theorem deleteChild_run (S : Sound w ch) (ht : w.nodes t = some tn) (htt : tn.type = .element) (hk : DocKept w t) (hr : Roomy w) {tag : DStr} {name : String}
    (hn : tag.data.map asciiLower = name.toUTF8.toList) :
    ((ch t).find? (tagged w name) = none → deleteChild tag t w = .ok w ()) ∧
    ∀ y, (ch t).find? (tagged w name) = some y → (count w y = 0 → Clean w y) → ∃ w' ch', deleteChild tag t w = .ok w' () ∧ Cut w ch [y] w' ch' := by
  obtain ⟨h1, h2⟩ := getChild_run S ht hr hn
  constructor
  · intro h
    unfold deleteChild
    rw [bind_ok (h1 h)]; rfl
  · intro y h hcl
    obtain ⟨v, e1, S1, A1, c1⟩ := h2 y h
    have hy := List.mem_of_find?_eq_some h
    have hroom : count w y < 4294967280 := hr y
    obtain ⟨w2, ch1, e2, S2, R⟩ := takeOut_step S ht htt hy S1 A1 c1 (by omega)
    obtain ⟨w3, ch', e3, C⟩ := Tree.cut_finish S ht hy (fun m hm => by rw [get_count hm]; omega) hk hcl S2 R
    refine ⟨w3, ch', ?_, C⟩
    unfold deleteChild
    rw [bind_ok e1]
    exact closing_ok e2 e3

/-- A new element at the end of the children of `t`. -/
theorem append_new (S : Sound w ch) (ht : w.nodes t = some tn) (htt : tn.type = .element) (hk : DocKept w t) (tag : DStr) :
    ∃ d w' ch', tn.owner = some d ∧ newElement tag t w = .ok (w.add (Tree.elementNode (some tag) tn.ns tn.pfx d)) w.fresh ∧
      closing (appendChild t w.fresh) (unref w.fresh) (w.add (Tree.elementNode (some tag) tn.ns tn.pfx d)) = .ok w' w.fresh ∧
      Placed w ch t w.fresh (Tree.elementNode (some tag) tn.ns tn.pfx d) none w' ch' := by
  obtain ⟨d, dn, ho, hd, hdt, e1, N⟩ := new_step S ht htt hk tag
  obtain ⟨w', ch', e2, P⟩ := (put_run (r := none) S N ht htt ho N.sound (Alike.refl _) (fun c h => nomatch h) (fun j => count_add S.wf.toCore N.refcnt j) .node).2 (fun c h => nomatch h)
  exact ⟨d, w', ch', ho, e1, e2, P⟩

/-- If the closing succeeds the steps can be taken one after another. -/
theorem closing_inv {α : Type} {m : M α} {fin : M Unit} {a : α} (h : closing m fin w = .ok v a) : (m >>= fun r => fin >>= fun _ => pure r) w = .ok v a := by
  unfold closing at h
  cases hm : m w with
  | ok w1 b =>
    rw [hm] at h
    rw [bind_ok hm]
    exact h
  | exc w1 e =>
    rw [hm] at h
    dsimp only at h
    cases hf : fin w1 with
    | ok w2 b => rw [bind_ok hf] at h; cases h
    | exc w2 e2 => rw [bind_exc hf] at h; cases h
    | fault f => rw [bind_fault hf] at h; cases h
  | fault f => rw [hm] at h; cases h

/-- A child of the name is returned with a reference; if there is none, a new one is put at the end, and the caller's reference is the only one. -/
def Creates (w : World) (ch : Children) (tag : DStr) (name : String) (t : NodeId) (res : Tree.Res NodeId) : Prop :=
  (∀ y, (ch t).find? (tagged w name) = some y → ∃ w', res = .ok w' y ∧ Sound w' ch ∧ Alike w w' ∧ ∀ j, count w' j = count w j + one y j) ∧
  ((ch t).find? (tagged w name) = none → ∃ n d w' ch', w.nodes t = some n ∧ n.owner = some d ∧ res = .ok w' w.fresh ∧
    Placed w ch t w.fresh (Tree.elementNode (some tag) n.ns n.pfx d) none w' ch')

theorem createChild_run (S : Sound w ch) (ht : w.nodes t = some tn) (htt : tn.type = .element) (hk : DocKept w t) (hr : Roomy w) {tag : DStr} {name : String}
    (hn : tag.data.map asciiLower = name.toUTF8.toList) : Creates w ch tag name t (createChild tag t w) := by
  obtain ⟨h1, h2⟩ := getChild_run S ht hr hn
  constructor
  · intro y h
    obtain ⟨v, e1, r⟩ := h2 y h
    refine ⟨v, ?_, r⟩
    unfold createChild
    rw [bind_ok e1]; rfl
  · intro h
    obtain ⟨d, w', ch', ho, e1, e2, P⟩ := append_new S ht htt hk tag
    refine ⟨tn, d, w', ch', ht, ho, ?_, P⟩
    unfold createChild
    rw [bind_ok (h1 h)]
    show (newElement tag t >>= _) w = _
    rw [bind_ok e1]
    exact e2

theorem createTHead_run (S : Sound w ch) (ht : w.nodes t = some tn) (htt : tn.type = .element) (hk : DocKept w t) (hr : Roomy w) : Creates w ch theadName "thead" t (createTHead t w) := by
  obtain ⟨h1, h2⟩ := getChild_run S ht hr Table.thead_data
  constructor
  · intro y h
    obtain ⟨v, e1, r⟩ := h2 y h
    refine ⟨v, ?_, r⟩
    unfold createTHead
    rw [bind_ok e1]; rfl
  · intro h
    obtain ⟨d, w', ch', ho, e1, e2, P⟩ := append_new S ht htt hk theadName
    refine ⟨tn, d, w', ch', ht, ho, ?_, P⟩
    unfold createTHead
    rw [bind_ok (h1 h)]
    show (newElement theadName t >>= _) w = _
    rw [bind_ok e1]
    exact closing_inv e2

/-! ## The search for the section -/

/-- The sections of the table can be counted. -/
def SectionsClosed (w : World) (ch : Children) (t : NodeId) : Prop := ∀ c ∈ Table.sections w ch t, Closed w ch c

theorem bodyLoop_same (S : Sound w ch) (ht : w.nodes t = some tn) (hk : DocKept w t) (hr : Roomy w) (hf : w.fresh < 2147483640) (hc : SectionsClosed w ch t) (hit : Nat → Bool) :
    ∀ (b a : List NodeId) (f win : Nat), ch t = a ++ b → b.length ≤ f →
      bodyLoop hit f b.head? win w = Table.bodyLoop hit f b.head? win w ∧ ∃ r, Table.bodyLoop hit f b.head? win w = .ok w r ∧ ∀ c, r.1 = some c → c ∈ ch t ∧ tagged w "tbody" c = true := by
  intro b
  induction b with
  | nil => intro a f win _ _; cases f <;> exact ⟨rfl, (none, win), rfl, fun c h => nomatch h⟩
  | cons c b ih =>
    intro a f win hab hf'
    cases f with
    | zero => simp at hf'
    | succ f =>
      obtain ⟨m, hm, _, _, _, hnext⟩ := (S.wf.linked.loc t tn ht).kids a c b hab
      have hct : c ∈ ch t := by rw [hab]; simp
      simp only [List.head?_cons, bodyLoop, Table.bodyLoop]
      rw [get_bind hm, get_bind hm, Table.tagged_node Table.tbody_data hm]
      by_cases htg : tagged w "tbody" c = true
      · have hsec : c ∈ Table.sections w ch t := List.mem_filter.2 ⟨hct, by simp [htg]⟩
        rw [if_pos htg, if_pos htg, bind_ok (length_run S (hc c hsec) (DocKept.child S ht hk hct) hr (by omega) trName), bind_ok (count_total S (hc c hsec) trName (by omega))]
        by_cases hh : hit (u32 (win + (tagList w ch trName c).length)) = true
        · rw [if_pos hh, if_pos hh]
          exact ⟨rfl, (some c, win), rfl, fun c' h => by cases h; exact ⟨hct, htg⟩⟩
        · rw [if_neg hh, if_neg hh, hnext]
          exact ih (a ++ [c]) f _ (by simp [hab]) (by simpa using hf')
      · rw [if_neg htg, if_neg htg, hnext]
        exact ih (a ++ [c]) f win (by simp [hab]) (by simpa using hf')

/-- What happens in the section that is found; `res` is the result of the function, `act` what it does in the section. -/
inductive Way {α : Type} (w : World) (ch : Children) (t : NodeId) (tidy : Bool) (act : NodeId → Nat → M α) : Tree.Res (Option (NodeId × Nat)) → Tree.Res α → Prop
  | null : (ch t).find? (tagged w "thead") = none ∨ (ch t).find? (tagged w "tfoot") = none → Way w ch t tidy act (.fault .nullDeref) (.fault .nullDeref)
  | body {s : NodeId} {win : Nat} : s ∈ Table.sections w ch t → Way w ch t tidy act (.ok w (some (s, win))) (act s win w)
  | edge {s : NodeId} {win : Nat} {v : World} : s ∈ Table.sections w ch t → Sound v ch → Alike w v → (∀ j, count v j = count w j + one s j) →
      Way w ch t tidy act (.ok w (some (s, win))) (closing (act s win) (unref s) v)
  | missed : tidy = true → Way w ch t tidy act (.ok w none) (.exc w .indexSize)
  | lost {f : NodeId} {v : World} : tidy = false → (ch t).find? (tagged w "tfoot") = some f → Sound v ch → Alike w v → (∀ j, count v j = count w j + one f j) →
      Way w ch t tidy act (.ok w none) (.exc v .indexSize)

theorem sec_mem {name : String} (h : name = "thead" ∨ name = "tbody" ∨ name = "tfoot") (hf : (ch t).find? (tagged w name) = some s) : s ∈ Table.sections w ch t := by
  refine List.mem_filter.2 ⟨List.mem_of_find?_eq_some hf, ?_⟩
  have := List.find?_some hf
  rcases h with rfl | rfl | rfl <;> simp [this]

theorem give_back (S : Sound w ch) (Sv : Sound v ch) (hx : w.nodes x = some n) (hne : n.type ≠ .document) (A : Alike w v) (hc : ∀ j, count v j = count w j + one x j) : unref x v = .ok w () := by
  obtain ⟨v', e, S', A', c'⟩ := unref_back S Sv hx (fun h => absurd h hne) A.kept (by have := hc x; rw [one_self] at this; omega)
  rw [e, (A.trans A').eq (fun j => by have := hc j; have := c' j; omega)]

theorem inSection_way {α : Type} (S : Sound w ch) (ht : w.nodes t = some tn) (hk : DocKept w t) (hr : Spacious w) (hf : w.fresh < 2147483640) (hcl : SectionsClosed w ch t) (tidy : Bool)
    (hit : Nat → Bool) (act : NodeId → Nat → M α) : Way w ch t tidy act (Table.locate hit t w) (inSection tidy hit act t w) := by
  have hroom : ∀ {v : World} {z : NodeId}, (∀ j, count v j = count w j + one z j) → Roomy v := fun hc => hr.step (fun j => Nat.le_trans (one_le _ _) (by omega)) hc
  have hchild := Table.childOf_run S.wf ht Table.thead_data
  have hfootc := Table.childOf_run S.wf ht Table.tfoot_data
  obtain ⟨g1, g2⟩ := getChild_run S ht hr.roomy Table.thead_data
  obtain ⟨f1, f2⟩ := getChild_run S ht hr.roomy Table.tfoot_data
  unfold inSection Table.locate
  rw [bind_ok hchild]
  cases hh : (ch t).find? (tagged w "thead") with
  | none =>
    rw [bind_ok (g1 hh)]
    exact .null (.inl hh)
  | some hd =>
    obtain ⟨v, e1, S1, A1, c1⟩ := g2 hd hh
    have hsec := sec_mem (.inl rfl) hh
    have hclh := hcl hd hsec
    obtain ⟨hn, hhn, hht, _⟩ := hclh
    have hclh := hcl hd hsec
    have hkh := DocKept.child S ht hk (List.mem_of_find?_eq_some hh)
    rw [bind_ok e1]
    show Way w ch t tidy act ((Table.count trName hd >>= _) w) ((lengthOf trName hd >>= _) v)
    rw [bind_ok (count_total S hclh trName (by omega)),
      bind_ok (length_run S1 (hclh.alike A1) (DocKept.up hkh A1 (fun j => by rw [c1]; omega)) (hroom c1) (by rw [A1.fresh]; omega) trName), A1.tagList]
    by_cases hit1 : hit (tagList w ch trName hd).length = true
    · rw [if_pos hit1, if_pos hit1]
      exact .edge hsec S1 A1 c1
    · rw [if_neg hit1, if_neg hit1, bind_ok (give_back S S1 hhn (by rw [hht]; simp) A1 c1), get_bind ht, get_bind ht]
      obtain ⟨n', hn', hfirst, _⟩ := (S.wf.linked.loc t tn ht).ends
      rw [ht] at hn'; cases hn'
      rw [hfirst]
      obtain ⟨b1, r, b2, b3⟩ := bodyLoop_same S ht hk hr.roomy hf hcl hit (ch t) [] (w.fresh + 1) (tagList w ch trName hd).length rfl
        (Nat.le_succ_of_le (Tree.child_length_le S.wf.toCore t))
      show Way w ch t tidy act ((Table.bodyLoop hit (w.fresh + 1) (ch t).head? _ >>= _) w) ((bodyLoop hit (w.fresh + 1) (ch t).head? _ >>= _) w)
      rw [bind_ok b2, bind_ok (b1.trans b2)]
      obtain ⟨o, win⟩ := r
      cases o with
      | some b =>
        obtain ⟨m1, m2⟩ := b3 b rfl
        exact .body (List.mem_filter.2 ⟨m1, by simp [m2]⟩)
      | none =>
        show Way w ch t tidy act ((childOf tfootName t >>= _) w) ((getChild tfootName t >>= _) w)
        rw [bind_ok hfootc]
        cases hfo : (ch t).find? (tagged w "tfoot") with
        | none =>
          rw [bind_ok (f1 hfo)]
          exact .null (.inr hfo)
        | some fo =>
          obtain ⟨v, e1, S1, A1, c1⟩ := f2 fo hfo
          have hsec := sec_mem (.inr (.inr rfl)) hfo
          obtain ⟨fn, hfn, hft, _⟩ := hcl fo hsec
          have hclf := hcl fo hsec
          have hkf := DocKept.child S ht hk (List.mem_of_find?_eq_some hfo)
          rw [bind_ok e1]
          show Way w ch t tidy act ((Table.count trName fo >>= _) w) ((lengthOf trName fo >>= _) v)
          rw [bind_ok (count_total S hclf trName (by omega)),
            bind_ok (length_run S1 (hclf.alike A1) (DocKept.up hkf A1 (fun j => by rw [c1]; omega)) (hroom c1) (by rw [A1.fresh]; omega) trName), A1.tagList]
          by_cases hit2 : hit (u32 (win + (tagList w ch trName fo).length)) = true
          · rw [if_pos hit2, if_pos hit2]
            exact .edge hsec S1 A1 c1
          · rw [if_neg hit2, if_neg hit2]
            cases tidy with
            | true =>
              rw [if_pos rfl, bind_ok (give_back S S1 hfn (by rw [hft]; simp) A1 c1)]
              exact .missed rfl
            | false =>
              exact .lost rfl hfo S1 A1 c1

/-- An insertion while a reference to the section is held, which is given up afterwards. -/
theorem inserts_edge {tag : DStr} {index : Int} {m : M NodeId} (S : Sound w ch) (hs : w.nodes s = some sn) (hst : sn.type = .element) (Sv : Sound v ch) (A : Alike w v)
    (hc : ∀ j, count v j = count w j + one s j) (h : Inserts v ch tag s index (m v)) : Inserts w ch tag s index (closing m (unref s) v) := by
  unfold Inserts at h ⊢
  rw [A.tagList] at h
  obtain ⟨h1, h2, h3⟩ := h
  have Ab : Alike (bump w) (bump v) := ⟨A.nodes, by show v.fresh + 1 = w.fresh + 1; rw [A.fresh], A.log⟩
  have hback : unref s (bump v) = .ok (bump w) () := give_back (Sound_bump S) (Sound_bump Sv) hs (by rw [hst]; simp) Ab hc
  refine ⟨fun hb => closing_exc (h1 hb) hback, fun a b c => closing_exc (h2 a b c) hback, fun a b c => ?_⟩
  obtain ⟨n, d, v2, ch2, hn, ho, e, P⟩ := h3 a b c
  obtain ⟨n0, hn0, hb0⟩ := A.symm.get hn
  have b0 := bare_eq hb0
  rw [hs] at hn0; cases hn0
  have hns : sn.ns = n.ns := by have := congrArg Node.ns hb0; exact this
  have hpf : sn.pfx = n.pfx := by have := congrArg Node.pfx hb0; exact this
  have K : Kept w v2 := A.kept.trans P.kept
  have hcs := hc s
  rw [one_self] at hcs
  obtain ⟨v3, e3, S3, A3, c3⟩ := unref_back S P.sound hs (fun h => by rw [hst] at h; cases h) K (by have := P.counts s; omega)
  have hsf : w.fresh ≠ s := by
    have h := Tree.fresh_dead S.wf.toCore
    intro e; rw [e, hs] at h; cases h
  rw [A.fresh] at P e
  have hdead : w.nodes w.fresh = none := Tree.fresh_dead S.wf.toCore
  obtain ⟨m, hm, m1, m2, m3, m4⟩ := P.there
  obtain ⟨m', hm', hmb⟩ := A3.get hm
  have bm := bare_eq hmb
  refine ⟨sn, d, v3, ch2, hs, by rw [b0.2.1]; exact ho, closing_ok e e3, ?_⟩
  rw [hns, hpf]
  have hcf := c3 w.fresh
  rw [one_ne hsf, Tree.count_eq hm', Tree.count_eq hm] at hcf
  refine ⟨S3, hdead, ⟨m', hm', bm.1.trans m1, bm.2.1.trans m2, bm.2.2.1.trans m3, by omega⟩, P.here, P.elsewhere, K.trans A3.kept, fun j k hj => ?_, fun j => ?_, ?_⟩
  · obtain ⟨k', hk', _⟩ := A3.symm.get hj
    rcases P.back j k' hk' with h | ⟨z, hz⟩
    · exact .inl h
    · obtain ⟨z', hz', _⟩ := A.symm.get hz
      exact .inr ⟨z', hz'⟩
  · have := c3 j
    have := P.counts j
    have := hc j
    omega
  · rw [A3.fresh, P.fresh, A.fresh]

/-- The same for a deletion. -/
theorem deletes_edge {tag : DStr} {index : Int} {m : M Unit} (S : Sound w ch) (hs : w.nodes s = some sn) (hst : sn.type = .element) (Sv : Sound v ch) (A : Alike w v)
    (hc : ∀ j, count v j = count w j + one s j) (h : Deletes v ch tag s index (m v)) : Deletes w ch tag s index (closing m (unref s) v) := by
  unfold Deletes at h ⊢
  rw [A.tagList] at h
  obtain ⟨h1, h2⟩ := h
  have hback : unref s v = .ok w () := give_back S Sv hs (by rw [hst]; simp) A hc
  refine ⟨fun hb => closing_exc (h1 hb) hback, fun y hy => ⟨fun a => closing_exc ((h2 y hy).1 a) hback, fun a b => ?_⟩⟩
  obtain ⟨d, dn, ho, hd, hdt⟩ := docOf S hs hst
  have hys : y ≠ s := by
    rintro rfl
    exact Tree.child_not_above S.wf a .refl
  have hcy := hc y
  rw [one_ne hys] at hcy
  obtain ⟨v2, ch2, e, C⟩ := (h2 y hy).2 a (fun h0 => clean_open S hd hdt a A (fun j => by have := hc j; omega) (fun j _ h => by rw [hc, one_ne h]; rfl) (b (by omega)))
  obtain ⟨sv, hsv, hsb⟩ := A.get hs
  obtain ⟨s2, hs2, _, _, r2, p2⟩ := C.kept s sv hsv (fun z hz h => by rw [List.mem_singleton.1 hz] at h; exact Tree.child_not_above Sv.wf a h)
  have hcs := hc s
  rw [one_self, Tree.count_eq hs, Tree.count_eq hsv] at hcs
  obtain ⟨v3, e3, S3, A3, c3⟩ := unref_step C.sound hs2 (by omega) (by
    by_cases h0 : sn.refcnt = 0
    · right
      intro hp
      rw [p2, (bare_eq hsb).2.2.1] at hp
      have := S.held s sn hs hp (by rw [hst]; simp)
      omega
    · left; omega)
  exact ⟨v3, ch2, closing_ok e e3, cut_close A C A3 S3 (fun j => by have := c3 j; have := C.counts j; have := hc j; omega) (by omega)⟩

/-! ## Bodies -/

theorem join_ok (S : Sound v ch) (hs : v.nodes s = some sn) (hst : sn.type = .element) (hn : v.nodes new = some nn) (hnt : nn.type = .element) (hpar : nn.parent = none)
    (hown : nn.owner = sn.owner) (hne : s ≠ new) (hno : ∀ z m, v.nodes z = some m → m.parent ≠ some new) (hroom : nn.refcnt + 1 < 4294967296) :
    ∃ v' ch', appendChild s new v = .ok v' new ∧ Into v ch s new none v' ch' := by
  have hnab : ¬ AncSelf v s new := by
    intro h
    rcases Relation.ReflTransGen.cases_tail h with h | ⟨z, _, m, hm, hz⟩
    · exact hne h.symm
    · exact hno z m hm hz
  obtain ⟨u, chu, h3, _⟩ := Tree.join_run (r := none) S.wf hs hn (writable S hs hst) hpar (by rw [hnt]; simp) (by rw [hnt]; simp) hown hnab
    ⟨sn, nn, hs, hn, by rw [hst, hnt]; exact .content (by simp) (by simp), fun h => by rw [hst] at h; cases h⟩ (fun c h => nomatch h)
  rcases insert_step (r := none) S hs hst hn hnt hpar (fun c h => nomatch h) (by simp) hroom with ⟨e, h⟩ | h
  · rw [h3] at h; cases h
  · exact h

/-- References that were held meanwhile do not matter for the result. -/
theorem Placed.settle {e : Node} {r : Option NodeId} (P : Placed u ch s u.fresh e r v ch') (S : Sound w ch) (A : Alike w u) (B : Alike v v') (S' : Sound v' ch')
    (hc : ∀ j, count v' j = count w j + one w.fresh j) : Placed w ch s w.fresh e r v' ch' := by
  rw [A.fresh] at P
  have hdead : w.nodes w.fresh = none := Tree.fresh_dead S.wf.toCore
  obtain ⟨m, hm, m1, m2, m3, m4⟩ := P.there
  obtain ⟨m', hm', hmb⟩ := B.get hm
  have bm := bare_eq hmb
  have hcf := hc w.fresh
  rw [one_self, Tree.count_eq hm'] at hcf
  have hz : count w w.fresh = 0 := by unfold count; rw [hdead]
  refine ⟨S', hdead, ⟨m', hm', bm.1.trans m1, bm.2.1.trans m2, bm.2.2.1.trans m3, by omega⟩, P.here, P.elsewhere, (A.kept.trans P.kept).trans B.kept, fun j k hj => ?_, hc, ?_⟩
  · obtain ⟨k', hk', _⟩ := B.symm.get hj
    rcases P.back j k' hk' with h | ⟨z, hz⟩
    · exact .inl h
    · obtain ⟨z', hz', _⟩ := A.symm.get hz
      exact .inr ⟨z', hz'⟩
  · rw [B.fresh, P.fresh, A.fresh]

/-- The first body is returned with a reference; if there is none, a new one is put at the end. -/
def GivesBody (w : World) (ch : Children) (t : NodeId) (res : Tree.Res NodeId) : Prop :=
  (∀ y, (tagList w ch tbodyName t).head? = some y → ∃ w', res = .ok w' y ∧ Sound w' ch ∧ Alike w w' ∧ ∀ j, count w' j = count w j + one y j) ∧
  (tagList w ch tbodyName t = [] → ∃ n d w' ch', w.nodes t = some n ∧ n.owner = some d ∧ res = .ok w' w.fresh ∧
    Placed w ch t w.fresh (Tree.elementNode (some tbodyName) n.ns n.pfx d) none w' ch')

theorem createTBody_run (S : Sound w ch) (hx : Closed w ch t) (hk : DocKept w t) (hr : Roomy w) (hf : w.fresh < 2147483640) : GivesBody w ch t (createTBody t w) := by
  obtain ⟨tn, ht, htt, h3⟩ := hx
  have hx : Closed w ch t := ⟨tn, ht, htt, h3⟩
  obtain ⟨d, dn, u, ho, hd, hdt, hdx, e1, Su, A, hc⟩ := open_step S ht htt (fun j => Nat.lt_trans (hr j) (by omega))
  have hxu := hx.alike A
  have hfu : u.fresh < 2147483648 := by rw [A.fresh]; omega
  have e2 := count_total Su hxu tbodyName hfu
  rw [A.tagList] at e2
  unfold createTBody
  rw [bind_ok e1, bind_ok e2]
  constructor
  · intro y hy
    cases hl : tagList w ch tbodyName t with
    | nil => rw [hl] at hy; cases hy
    | cons a l =>
      have hay : a = y := by rw [hl] at hy; simpa using hy
      subst hay
      have e3 := item_total Su hxu tbodyName hfu (i := 0) (by omega)
      rw [A.tagList, hl] at e3
      obtain ⟨m, hm, hmt, _⟩ := tag_mem S hx (y := a) (tag := tbodyName) (by omega) (by rw [hl]; simp)
      obtain ⟨mu, hmu, _⟩ := A.get hm
      obtain ⟨v, e4, S4, A4, c4⟩ := ref_step Su hmu (by
        rw [get_count hmu, hc]
        have h1 : count w a < 4294967280 := hr a
        have h2 := one_le d a
        have h3 := one_le t a
        omega)
      obtain ⟨v2, e5, S5, A5, c5⟩ := close_step S S4 ht htt ho hd hk (A.trans A4).kept hdx (fun j => by have := c4 j; have := hc j; omega)
      refine ⟨v2, closing_ok (v := v) ?_ e5, S5, A.trans (A4.trans A5), fun j => by have := c4 j; have := hc j; have := c5 j; omega⟩
      unfold bodyFor
      rw [if_neg (by simp)]
      have : itemRef tbodyName t 0 u = .ok v (some a) := by
        unfold itemRef
        rw [bind_ok e3]
        show (ref a >>= _) u = _
        rw [bind_ok e4]; rfl
      rw [bind_ok this]; rfl
  · intro hl
    obtain ⟨tu, htu, htb⟩ := A.get ht
    have b := bare_eq htb
    have hku : DocKept u t := DocKept.up hk A (fun j => by have := hc j; omega)
    obtain ⟨d', v, ch', ho', e3, e4, P⟩ := append_new Su htu (b.2.2.2.2.2.2.2.trans htt) hku tbodyName
    rw [b.2.1, ho] at ho'; cases ho'
    have hns : tu.ns = tn.ns := by have := congrArg Node.ns htb; exact this
    have hpf : tu.pfx = tn.pfx := by have := congrArg Node.pfx htb; exact this
    rw [hns, hpf] at P
    obtain ⟨v2, e5, S5, A5, c5⟩ := close_step S P.sound ht htt ho hd hk (A.kept.trans P.kept) hdx (fun j => by have := P.counts j; have := hc j; omega)
    refine ⟨tn, d, v2, ch', ht, ho, ?_, P.settle S A A5 S5 (fun j => by have h1 := P.counts j; have h2 := hc j; have h3 := c5 j; rw [A.fresh] at h1; omega)⟩
    rw [← A.fresh]
    refine closing_ok (v := v) ?_ e5
    unfold bodyFor
    rw [if_pos (by rw [hl]; rfl), bind_ok e3]
    exact closing_inv e4

/-- The first row of a table without bodies: both the row and a body for it are new. -/
structure Opened (w : World) (ch : Children) (t : NodeId) (er eb : Node) (w' : World) (ch' : Children) : Prop where
  sound : Sound w' ch'
  dead : w.nodes w.fresh = none ∧ w.nodes (w.fresh + 1) = none
  row : ∃ m, w'.nodes w.fresh = some m ∧ m.data = er.data ∧ m.owner = er.owner ∧ m.parent = some (w.fresh + 1) ∧ m.refcnt = 1
  body : ∃ m, w'.nodes (w.fresh + 1) = some m ∧ m.data = eb.data ∧ m.owner = eb.owner ∧ m.parent = some t ∧ m.refcnt = 0
  here : ch' t = ch t ++ [w.fresh + 1] ∧ ch' (w.fresh + 1) = [w.fresh]
  elsewhere : ∀ q, q ≠ t → q ≠ w.fresh + 1 → ch' q = ch q
  kept : Kept w w'
  back : ∀ j m', w'.nodes j = some m' → j = w.fresh ∨ j = w.fresh + 1 ∨ ∃ m, w.nodes j = some m
  counts : ∀ j, count w' j = count w j + one w.fresh j
  fresh : w'.fresh = w.fresh + 2

/-- The first row is put into the first body, or into a new one. -/
def GivesFirst (w : World) (ch : Children) (t : NodeId) (res : Tree.Res NodeId) : Prop := ∃ n d, w.nodes t = some n ∧ n.owner = some d ∧
  (∀ y, (tagList w ch tbodyName t).head? = some y → ∃ w' ch', res = .ok w' w.fresh ∧ Placed w ch y w.fresh (Tree.elementNode (some trName) n.ns n.pfx d) none w' ch') ∧
  (tagList w ch tbodyName t = [] → ∃ w' ch', res = .ok w' w.fresh ∧
    Opened w ch t (Tree.elementNode (some trName) n.ns n.pfx d) (Tree.elementNode (some tbodyName) n.ns n.pfx d) w' ch')

theorem below_owner (S : Sound w ch) (ht : w.nodes t = some tn) (h : Tree.Below ch t y) : ∀ m, w.nodes y = some m → m.owner = tn.owner := by
  induction h with
  | refl => intro m hm; rw [ht] at hm; cases hm; rfl
  | @tail p c _ hc ih =>
    intro m hm
    obtain ⟨m', hm', _, hp⟩ := S.wf.linked.alive_child hc
    rw [hm] at hm'; cases hm'
    obtain ⟨pm, hpm⟩ := S.wf.linked.alive_parent hm hp
    rw [S.wf.ownSame c m p pm hm hp hpm]
    exact ih pm hpm

theorem firstRow_run (S : Sound w ch) (hx : Closed w ch t) (hk : DocKept w t) (hr : Spacious w) (hf : w.fresh < 2147483630) : GivesFirst w ch t (firstRow t w) := by
  obtain ⟨tn, ht, htt, h3⟩ := hx
  have hx : Closed w ch t := ⟨tn, ht, htt, h3⟩
  have hC := S.wf.toCore
  have hdead := Tree.fresh_dead hC
  obtain ⟨d, dn, ho, hd, hdt, e1, N⟩ := new_step S ht htt hk trName
  generalize her : Tree.elementNode (some trName) tn.ns tn.pfx d = er at e1 N
  have hC1 := N.sound.wf.toCore
  have c1 := count_add hC N.refcnt
  have ht1 := Tree.add_old (n := er) hC ht
  have hk1 : DocKept (w.add er) t := by
    intro n' d' dn' k1 k2 k3
    rw [ht1] at k1; cases k1
    rw [ho] at k2; cases k2
    rw [Tree.add_old hC hd] at k3; cases k3
    exact hk tn d dn ht ho hd
  obtain ⟨g1, g2⟩ := createTBody_run N.sound (hx.add S er) hk1 (hr.step (fun j => Nat.le_trans (one_le _ _) (by omega)) c1) (by show w.fresh + 1 < _; omega)
  rw [tagList_add S ht] at g1 g2
  have hz : count w w.fresh = 0 := by unfold count; rw [hdead]
  have hnop : ∀ z m, (w.add er).nodes z = some m → m.parent ≠ some w.fresh := by
    intro z m hm hp
    rcases Tree.add_some hm with ⟨rfl, rfl⟩ | ⟨_, h'⟩
    · rw [N.parent] at hp; cases hp
    · obtain ⟨k, hk⟩ := hC.linked.alive_parent h' hp
      rw [hdead] at hk; cases hk
  refine ⟨tn, d, ht, ho, fun y hy => ?_, fun hl => ?_⟩
  · rw [her]
    obtain ⟨v, e2, S2, A2, c2⟩ := g1 y hy
    obtain ⟨ym, hym, hyt, hyb, _⟩ := tag_mem S hx (y := y) (tag := tbodyName) (by omega) (List.mem_of_head? hy)
    have hyf : y ≠ w.fresh := by rintro rfl; rw [hdead] at hym; cases hym
    obtain ⟨yv, hyv, hyvb⟩ := A2.get (Tree.add_old (n := er) hC hym)
    obtain ⟨rv, hrv, hrvb⟩ := A2.get (Tree.add_new er)
    have by' := bare_eq hyvb
    have br := bare_eq hrvb
    have hcr : count v w.fresh = 1 := by rw [c2, c1, hz, one_self, one_ne (fun h => hyf h.symm)]
    have hyo := below_owner S ht hyb ym hym
    obtain ⟨v2, ch2, e3, I⟩ := join_ok S2 hyv (by'.2.2.2.2.2.2.2.trans hyt) hrv (br.2.2.2.2.2.2.2.trans N.type) (br.2.2.1.trans N.parent)
      (by rw [br.2.1, N.owner, by'.2.1, hyo, ho]) hyf
      (fun z m hm hp => by
        obtain ⟨m', hm', hb⟩ := A2.symm.get hm
        exact hnop z m' hm' (by rw [(bare_eq hb).2.2.1]; exact hp))
      (by rw [get_count hrv, hcr]; omega)
    have hcy : ∀ j, count v2 j = count w j + one w.fresh j + one w.fresh j + one y j := fun j => by rw [I.counts, c2, c1]; omega
    have K : Kept w v2 := by
      intro j m hm
      obtain ⟨m', hm', k1, k2, k3⟩ := ((kept_add hC er).trans A2.kept) j m hm
      obtain ⟨m2, hm2, l1, l2, l3⟩ := I.kept (by rintro rfl; rw [hdead] at hm; cases hm) hm'
      exact ⟨m2, hm2, l1.trans k1, l2.trans k2, l3.trans k3⟩
    obtain ⟨v3, e4, S4, A4, c4⟩ := unref_back S I.sound hym (fun h => by rw [hyt] at h; cases h) K (by rw [hcy, one_self]; omega)
    obtain ⟨r2, hr2, rd⟩ := Tree.map_some_eq (I.data w.fresh) hrv
    obtain ⟨r2', hr2', ro⟩ := Tree.map_some_eq (I.owner w.fresh) hrv
    rw [hr2] at hr2'; cases hr2'
    have rp : r2.parent = some y := by have := I.parent; rw [hr2] at this; simpa using this
    obtain ⟨r3, hr3, rb3⟩ := A4.get hr2
    have b3 := bare_eq rb3
    have h3f : r3.refcnt = 2 := by
      rw [get_count hr3]
      have k1 := c4 w.fresh
      have k2 := hcy w.fresh
      rw [one_ne (fun h => hyf h.symm)] at k1 k2
      rw [one_self] at k2
      omega
    obtain ⟨v4, e5, S5, A5, c5⟩ := unref_step S4 hr3 (by omega) (.inl (by omega))
    obtain ⟨r4, hr4, rb4⟩ := A5.get hr3
    have b4 := bare_eq rb4
    have hfin : ∀ j, count v4 j = count w j + one w.fresh j := fun j => by have := hcy j; have := c4 j; have := c5 j; omega
    refine ⟨v4, ch2, ?_, S5, hdead, ⟨r4, hr4, ?_, ?_, ?_, ?_⟩, I.here, I.elsewhere, (K.trans A4.kept).trans A5.kept, fun j m' hj => ?_, hfin, ?_⟩
    · unfold firstRow
      rw [bind_ok e1]
      have : onRefusal (createTBody t) (unref w.fresh) (w.add er) = .ok v y := by unfold onRefusal; rw [e2]
      rw [bind_ok this]
      exact closing_ok e3 (by rw [bind_ok e4]; exact e5)
    · rw [b4.1, b3.1, rd, br.1]
    · rw [b4.2.1, b3.2.1, ro, br.2.1]
    · rw [b4.2.2.1, b3.2.2.1, rp]
    · rw [get_count hr4, hfin, one_self, hz]
    · obtain ⟨k1, q1, _⟩ := A5.symm.get hj
      obtain ⟨k2, q2, _⟩ := A4.symm.get q1
      have q3 := I.data j
      rw [q2] at q3
      cases hvj : v.nodes j with
      | none => rw [hvj] at q3; cases q3
      | some k3 =>
        obtain ⟨k4, q4, _⟩ := A2.symm.get hvj
        rcases Tree.add_some q4 with ⟨h, _⟩ | ⟨_, h⟩
        · exact .inl h
        · exact .inr ⟨k4, h⟩
    · rw [A5.fresh, A4.fresh, I.fresh, A2.fresh]; rfl
  · rw [her]
    obtain ⟨n', d', v, ch1, hn', ho', e2, P⟩ := g2 hl
    rw [ht1] at hn'; cases hn'
    rw [ho] at ho'; cases ho'
    generalize heb : Tree.elementNode (some tbodyName) tn.ns tn.pfx d = eb at P
    have hebt : eb.type = .element := by rw [← heb]; rfl
    have hebo : eb.owner = some d := by rw [← heb]; rfl
    have hf1 : (w.add er).fresh = w.fresh + 1 := rfl
    rw [hf1] at P e2
    have hne : w.fresh + 1 ≠ w.fresh := Nat.succ_ne_self _
    have hne' : w.fresh ≠ w.fresh + 1 := fun h => hne h.symm
    obtain ⟨bm, hbm, b1, b2, b3, b4⟩ := P.there
    obtain ⟨rv, hrv, rd, ro, rp⟩ := P.kept w.fresh er (Tree.add_new er)
    have htf : t ≠ w.fresh + 1 := by
      rintro rfl
      rw [P.dead] at ht1; cases ht1
    have hcr : count v w.fresh = 1 := by rw [P.counts, c1, hz, one_self, one_ne hne']
    have hnopv : ∀ z m, v.nodes z = some m → m.parent ≠ some w.fresh := by
      intro z m hm hp
      rcases P.back z m hm with rfl | ⟨k, hk⟩
      · rw [hbm] at hm; cases hm
        rw [b3] at hp
        have e : t = w.fresh := by simpa using hp
        rw [e, hdead] at ht; cases ht
      · obtain ⟨k', hk', _, _, q⟩ := P.kept z k hk
        rw [hm] at hk'; cases hk'
        exact hnop z k hk (by rw [← q]; exact hp)
    obtain ⟨v2, ch2, e3, I⟩ := join_ok P.sound hbm (by rw [Tree.Node.data_type b1]; exact hebt) hrv (by rw [Tree.Node.data_type rd]; exact N.type) (rp.trans N.parent)
      (by rw [ro, N.owner, b2, hebo]) hne hnopv (by rw [get_count hrv, hcr]; omega)
    have hcy : ∀ j, count v2 j = count w j + one w.fresh j + one w.fresh j + one (w.fresh + 1) j := fun j => by rw [I.counts, P.counts, c1]; omega
    have hzb : count w (w.fresh + 1) = 0 := by
      cases h : w.nodes (w.fresh + 1) with
      | none => unfold count; rw [h]
      | some k => have := hC.bnd _ _ h; exact absurd this (by simp)
    obtain ⟨bm2, hbm2, q1, q2, q3⟩ := I.kept hne hbm
    have hbr2 : bm2.refcnt = 1 := by rw [get_count hbm2, hcy, hzb, one_ne hne, one_self]
    obtain ⟨v3, e4, S4, A4, c4⟩ := unref_step I.sound hbm2 (by omega) (.inr (by rw [q3, b3]; simp))
    obtain ⟨r2, hr2, rd2⟩ := Tree.map_some_eq (I.data w.fresh) hrv
    obtain ⟨r2', hr2', ro2⟩ := Tree.map_some_eq (I.owner w.fresh) hrv
    rw [hr2] at hr2'; cases hr2'
    have rp2 : r2.parent = some (w.fresh + 1) := by have := I.parent; rw [hr2] at this; simpa using this
    obtain ⟨r3, hr3, rb3⟩ := A4.get hr2
    have bb3 := bare_eq rb3
    have h3f : r3.refcnt = 2 := by
      rw [get_count hr3]
      have k1 := c4 w.fresh
      have k2 := hcy w.fresh
      rw [one_ne hne'] at k1 k2
      rw [one_self] at k2
      omega
    obtain ⟨v4, e5, S5, A5, c5⟩ := unref_step S4 hr3 (by omega) (.inl (by omega))
    obtain ⟨r4, hr4, rb4⟩ := A5.get hr3
    have bb4 := bare_eq rb4
    obtain ⟨bm3, hbm3, bmb⟩ := (A4.trans A5).get hbm2
    have bbm := bare_eq bmb
    have hfin : ∀ j, count v4 j = count w j + one w.fresh j := fun j => by have := hcy j; have := c4 j; have := c5 j; omega
    have hchb : ch (w.fresh + 1) = [] := by
      have := N.sound.wf.linked.dead (w.fresh + 1) P.dead
      exact this
    have hbt : w.fresh + 1 ≠ t := fun h => htf h.symm
    refine ⟨v4, ch2, ?_, S5, ⟨hdead, ?_⟩, ⟨r4, hr4, ?_, ?_, ?_, ?_⟩, ⟨bm3, hbm3, ?_, ?_, ?_, ?_⟩, ⟨?_, ?_⟩, fun q h1 h2 => ?_, ?_, fun j m' hj => ?_, hfin, ?_⟩
    · unfold firstRow
      rw [bind_ok e1]
      have : onRefusal (createTBody t) (unref w.fresh) (w.add er) = .ok v (w.fresh + 1) := by unfold onRefusal; rw [e2]
      rw [bind_ok this]
      exact closing_ok e3 (by rw [bind_ok e4]; exact e5)
    · cases h : w.nodes (w.fresh + 1) with
      | none => rfl
      | some k => have := hC.bnd _ _ h; exact absurd this (by simp)
    · rw [bb4.1, bb3.1, rd2, rd]
    · rw [bb4.2.1, bb3.2.1, ro2, ro]
    · rw [bb4.2.2.1, bb3.2.2.1, rp2]
    · rw [get_count hr4, hfin, one_self, hz]
    · rw [bbm.1, q1, b1]
    · rw [bbm.2.1, q2, b2]
    · rw [bbm.2.2.1, q3, b3]
    · rw [get_count hbm3, hfin, hzb, one_ne hne]
    · obtain ⟨a, b, h1, h2, h3⟩ := P.here
      have : b = [] := by cases b with
        | nil => rfl
        | cons c b => cases h2
      subst this
      rw [I.elsewhere t htf, h3, h1]; simp
    · obtain ⟨a, b, h1, h2, h3⟩ := I.here
      have h0 : ch1 (w.fresh + 1) = [] := by rw [P.elsewhere _ hbt, hchb]
      rw [h0] at h1
      have := List.append_eq_nil_iff.1 h1.symm
      rw [h3, this.1, this.2]; rfl
    · rw [I.elsewhere q h2, P.elsewhere q h1]
    · refine Kept.trans (w' := v2) ?_ (A4.trans A5).kept
      intro j m hm
      obtain ⟨m', hm', k1, k2, k3⟩ := ((kept_add hC er).trans P.kept) j m hm
      obtain ⟨m2, hm2, l1, l2, l3⟩ := I.kept (by rintro rfl; rw [hdead] at hm; cases hm) hm'
      exact ⟨m2, hm2, l1.trans k1, l2.trans k2, l3.trans k3⟩
    · obtain ⟨k2, z2, _⟩ := (A4.trans A5).symm.get hj
      have z3 := I.data j
      rw [z2] at z3
      cases hvj : v.nodes j with
      | none => rw [hvj] at z3; cases z3
      | some k3 =>
        rcases P.back j k3 hvj with h | ⟨k4, h⟩
        · exact .inr (.inl h)
        · rcases Tree.add_some h with ⟨h, _⟩ | ⟨_, h⟩
          · exact .inl h
          · exact .inr (.inr ⟨k4, h⟩)
    · rw [A5.fresh, A4.fresh, I.fresh, P.fresh]; rfl

/-! ## Rows of a table -/

/-- The outcome of the search with its action: a missing head or foot is dereferenced, or no section is found, or the action takes place in a section. -/
inductive Acted {α : Type} (w : World) (ch : Children) (t : NodeId) (P : NodeId → Tree.Res α → Prop) : Tree.Res α → Prop
  | null : (ch t).find? (tagged w "thead") = none ∨ (ch t).find? (tagged w "tfoot") = none → Acted w ch t P (.fault .nullDeref)
  | missed : Acted w ch t P (.exc w .indexSize)
  | done {s : NodeId} {res : Tree.Res α} : s ∈ Table.sections w ch t → P s res → Acted w ch t P res

theorem sections_doc (S : Sound w ch) (ht : w.nodes t = some tn) (hk : DocKept w t) (hs : s ∈ Table.sections w ch t) : DocKept w s :=
  DocKept.child S ht hk (Table.sections_mem hs)

theorem edge_roomy (hr : Spacious w) {v : World} {z : NodeId} (hc : ∀ j, count v j = count w j + one z j) : Roomy v :=
  hr.step (fun j => Nat.le_trans (one_le _ _) (by omega)) hc

theorem insertRow_run (S : Sound w ch) (hx : Closed w ch t) (hk : DocKept w t) (hr : Spacious w) (hf : w.fresh < 2147483630) (hcl : SectionsClosed w ch t) (index : Int) :
    (index < -1 ∨ (tagList w ch trName t).length < index → insertRow t index w = .exc w .indexSize) ∧
    (-1 ≤ index → index ≤ (tagList w ch trName t).length → tagList w ch trName t = [] → GivesFirst w ch t (insertRow t index w)) ∧
    (-1 ≤ index → index ≤ (tagList w ch trName t).length → tagList w ch trName t ≠ [] →
      Acted w ch t (fun s res => ∃ k, Inserts w ch trName s k res) (insertRow t index w)) := by
  obtain ⟨tn, ht, htt, h3⟩ := hx
  have hx : Closed w ch t := ⟨tn, ht, htt, h3⟩
  have e1 := length_run S hx hk hr.roomy (by omega) trName
  have hsm : (tagList w ch trName t).length < 2147483648 := (col_total S hx (Table.isTag trName w) (by omega)).2.2.1
  have h32 := Table.toInt32_small hsm
  unfold insertRow
  rw [bind_ok e1, h32]
  refine ⟨fun hb => ?_, fun h1 h2 hl => ?_, fun h1 h2 hl => ?_⟩
  · rw [Table.throwIf_pos (by simp only [Bool.or_eq_true, decide_eq_true_eq]; omega)]
  · rw [Table.throwIf_neg (by simp only [Bool.or_eq_false_iff, decide_eq_false_iff_not]; omega), if_pos (by rw [hl]; rfl)]
    exact firstRow_run S hx hk hr hf
  · rw [Table.throwIf_neg (by simp only [Bool.or_eq_false_iff, decide_eq_false_iff_not]; omega), if_neg (by simpa using hl)]
    generalize (if index == -1 then (tagList w ch trName t).length else toUInt32 index) = i
    have W := inSection_way S ht hk hr (by omega) hcl true (fun e => decide (e > i) || e == (tagList w ch trName t).length) (fun s win => sectionInsertRow s (toInt32 (sub32 i win)))
    generalize hres : inSection true _ _ t w = res at W ⊢
    generalize Table.locate _ t w = loc at W
    cases W with
    | null h => exact .null h
    | body hs => exact .done hs ⟨_, sectionInsertRow_run S (hcl _ hs) (sections_doc S ht hk hs) hr.roomy (by omega) _⟩
    | @edge s win v hs Sv A hc =>
      obtain ⟨sn, hsn, hst, _⟩ := hcl s hs
      refine .done hs ⟨toInt32 (sub32 i win), inserts_edge S hsn hst Sv A hc ?_⟩
      exact sectionInsertRow_run Sv ((hcl _ hs).alike A) (DocKept.up (sections_doc S ht hk hs) A (fun j => by have := hc j; omega)) (edge_roomy hr hc) (by rw [A.fresh]; omega) _
    | missed => exact .missed
    | lost h => cases h

/-- `delete_row`: the reference to the foot stays when the row is in no section. -/
theorem deleteRow_run (S : Sound w ch) (hx : Closed w ch t) (hk : DocKept w t) (hr : Spacious w) (hf : w.fresh < 2147483630) (hcl : SectionsClosed w ch t) (index : Int) :
    (pick (tagList w ch trName t) index = none → deleteRow t index w = .exc w .indexSize) ∧
    (pick (tagList w ch trName t) index ≠ none →
      Acted w ch t (fun s res => ∃ k, Deletes w ch trName s k res) (deleteRow t index w) ∨
      ∃ f v, (ch t).find? (tagged w "tfoot") = some f ∧ deleteRow t index w = .exc v .indexSize ∧ Sound v ch ∧ Alike w v ∧ ∀ j, count v j = count w j + one f j) := by
  obtain ⟨tn, ht, htt, h3⟩ := hx
  have hx : Closed w ch t := ⟨tn, ht, htt, h3⟩
  have e1 := length_run S hx hk hr.roomy (by omega) trName
  have hsm : (tagList w ch trName t).length < 2147483648 := (col_total S hx (Table.isTag trName w) (by omega)).2.2.1
  have h32 := Table.toInt32_small hsm
  have hpick : pick (tagList w ch trName t) index = none ↔ (index ≥ (tagList w ch trName t).length ∨ index < -1) ∨ (tagList w ch trName t).length = 0 := by
    unfold pick
    by_cases hm : index = -1
    · rw [if_pos hm, List.getLast?_eq_none_iff, ← List.length_eq_zero_iff]; omega
    · rw [if_neg hm]
      by_cases hn : index < 0
      · rw [if_pos hn]; simp; omega
      · rw [if_neg hn, List.getElem?_eq_none_iff]; omega
  unfold deleteRow
  rw [bind_ok e1, h32]
  refine ⟨fun hb => ?_, fun hb => ?_⟩
  · rw [Table.throwIf_pos (by simp only [Bool.or_eq_true, decide_eq_true_eq, beq_iff_eq]; exact hpick.1 hb)]
  · rw [Table.throwIf_neg (by
      rw [Bool.eq_false_iff]
      simp only [ne_eq, Bool.or_eq_true, decide_eq_true_eq, beq_iff_eq]
      exact fun h => hb (hpick.2 h))]
    generalize (if index == -1 then sub32 (tagList w ch trName t).length 1 else toUInt32 index) = i
    have W := inSection_way S ht hk hr (by omega) hcl false (fun e => decide (e > i)) (fun s win => sectionDeleteRow s (toInt32 (sub32 i win)))
    generalize hres : inSection false _ _ t w = res at W ⊢
    generalize Table.locate _ t w = loc at W
    cases W with
    | null h => exact .inl (.null h)
    | body hs => exact .inl (.done hs ⟨_, sectionDeleteRow_run S (hcl _ hs) (sections_doc S ht hk hs) hr.roomy (by omega) _⟩)
    | @edge s win v hs Sv A hc =>
      obtain ⟨sn, hsn, hst, _⟩ := hcl s hs
      refine .inl (.done hs ⟨toInt32 (sub32 i win), deletes_edge S hsn hst Sv A hc ?_⟩)
      exact sectionDeleteRow_run Sv ((hcl _ hs).alike A) (DocKept.up (sections_doc S ht hk hs) A (fun j => by have := hc j; omega)) (edge_roomy hr hc) (by rw [A.fresh]; omega) _
    | missed h => cases h
    | @lost f v _ hfo Sv A hc => exact .inr ⟨f, v, hfo, rfl, Sv, A, hc⟩

end Dom.Html.Refs
