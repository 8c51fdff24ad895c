import Verif.Tree.Import
import Verif.Tree.CloneLoop
/-!
# What `importNode` does
-/
set_option linter.unusedSimpArgs false
set_option linter.unusedVariables false
namespace Dom.Tree
variable {w v v' : World} {ch cv cv' : Children} {x c j k p : NodeId} {n cn rn : Node} {lk : Nat}

/-- The copy of a node with its attributes, before it gets children. -/
theorem copyNode_run (S : Sound w ch) (hx : w.nodes x = some n) (ht : n.type ∉ [.document, .doctype, .entity, .notation_, .pi]) :
    ∃ v cv rn, copyNode (fun deep a => cloneNode a deep) n w = .ok v w.fresh ∧ Built w ch n (if n.type = .element then n.attrs else []) [] lk v cv rn := by
  simp only [List.mem_cons, List.mem_nil_iff, or_false, not_or] at ht
  obtain ⟨t1, t2, t3, t4, t5⟩ := ht
  have hown : n.owner ≠ none := by
    rcases S.wf.owner x n hx with ⟨d, _, o, _⟩ | ⟨o, _⟩
    · rw [o]; simp
    · exact absurd o t2
  obtain ⟨v, rn, h1, B, _, _⟩ := copyInternal_run S hx hown t1 lk
  by_cases hte : n.type = .element
  · obtain ⟨v', cv', rn', h2, B'⟩ := cloneAttrs_run S (clone := fun deep a => cloneNode a deep) hx hte (fun v cv a an Sv ha hav hext => by
      obtain ⟨an', ha1, ha2, _⟩ := (S.attrs x).2.1 a ha
      have halt : a < w.fresh := S.wf.bnd _ _ ha1
      have : an' = an := by rw [hext.nodes _ halt, ha1] at hav; cases hav; rfl
      subst this
      obtain ⟨v1, c1, kn, h3, K⟩ := cloneNode_run Sv hav (Copies.attr Sv hav ha2 true)
      rw [if_neg (by rw [ha2]; simp), if_pos rfl] at K
      exact ⟨v1, c1, kn, h3, K⟩) n.attrs [] v ch rn rfl B
    refine ⟨v', cv', rn', ?_, by rw [if_pos hte]; exact B'⟩
    unfold copyNode
    simp only [hte]
    unfold copyElement
    rw [bind_ok h1, bind_ok h2]
    rfl
  · refine ⟨v, ch, rn, ?_, by rw [if_neg hte]; exact B⟩
    unfold copyNode
    cases htt : n.type <;> simp_all

theorem unref_once {kn : Node} (hk : v.nodes k = some kn) (hr : kn.refcnt = 2) (hp : kn.parent = some p) {β : Type} (f : M β) :
    (do unref k; f : M β) v = f (v.upd k { kn with refcnt := 1 }) := by
  rw [bind_ok (unref_keep hk (by omega) (.inr (by rw [hp]; simp)))]
  have : kn.refcnt - 1 = 1 := by omega
  simp only [this]

/-- The loop over the children: each of them keeps one reference. -/
theorem importKids_run {as : List AttrEntry} (S : Sound w ch) {imp : NodeId → M NodeId} (hx : w.nodes x = some n) (hdoc : n.type ≠ .document)
    (hcl : ∀ v cv c cn, Sound v cv → c ∈ ch x → v.nodes c = some cn → Ext w ch v cv →
      ∃ v1 c1 kn, imp c v = .ok v1 v.fresh ∧ Built v cv cn (if cn.type = .element then cn.attrs else []) (cv c) 1 v1 c1 kn) :
    ∀ (l done : List NodeId) (fuel : Nat) (v : World) (cv : Children) (rn : Node), ch x = done ++ l → l.length ≤ fuel → Built w ch n as done 1 v cv rn →
      ∃ v' cv' rn', importKids imp w.fresh fuel l.head? v = .ok v' () ∧ Built w ch n as (ch x) 1 v' cv' rn' := by
  intro l
  induction l with
  | nil =>
    intro done fuel v cv rn h _ B
    rw [List.append_nil] at h
    rw [h]
    exact ⟨v, cv, rn, by simp [importKids]; rfl, B⟩
  | cons c l ih =>
    intro done fuel v cv rn h hf B
    obtain ⟨fuel, rfl⟩ : ∃ f, fuel = f + 1 := ⟨fuel - 1, by simp at hf; omega⟩
    have hc : c ∈ ch x := by rw [h]; simp
    obtain ⟨cn, hcn, _, _, _, hnext⟩ := (S.wf.linked.loc x n hx).kids done c l h
    have hclt : c < w.fresh := S.wf.bnd _ _ hcn
    have hcv : v.nodes c = some cn := by rw [B.ext.nodes _ hclt]; exact hcn
    obtain ⟨v1, c1, kn, h1, K⟩ := hcl v cv c cn B.sound hc hcv B.ext
    obtain ⟨v2, c2, kn2, rn2, h2, h3, h4, h5, B2⟩ := B.addKid S K (Nat.le_refl _) hx hc hcn hdoc rfl rfl
    obtain ⟨v', cv', rn', h6, B3⟩ := ih (done ++ [c]) fuel _ c2 rn2 (by rw [h]; simp) (by simp at hf; omega) B2
    refine ⟨v', cv', rn', ?_, B3⟩
    show importKids imp w.fresh (fuel + 1) (some c) v = _
    unfold importKids
    have ho1 : orUnref w.fresh (imp c) v = .ok v1 v.fresh := by unfold orUnref; rw [h1]
    have ho2 : orUnrefBoth w.fresh v.fresh (appendChild w.fresh v.fresh) v1 = .ok v2 v.fresh := by unfold orUnrefBoth; rw [h2]
    rw [bind_ok ho1, bind_ok ho2, unref_once h3 h4 h5]
    rw [get_bind (n := cn) (by rw [B2.ext.nodes _ hclt]; exact hcn), hnext]
    exact h6

/-- Entity references have no children. -/
theorem Sound.entity_leaf (S : Sound w ch) (hx : w.nodes x = some n) (ht : n.type = .entityRef) : ch x = [] := by
  cases hc : ch x with
  | nil => rfl
  | cons c l =>
    obtain ⟨m, hm, _, hp⟩ := S.wf.linked.alive_child (p := x) (c := c) (by rw [hc]; simp)
    exact absurd ht (S.ents c m x n hm hp hx).1

/-- Duplicating succeeds and makes a copy. -/
theorem dupWith_run : ∀ (k : Nat) (w : World) (ch : Children) (x : NodeId) (n : Node) (adopt deep : Bool), Sound w ch → w.nodes x = some n →
    Tall w ch k x → Copies w ch x (importDeep n.type deep) → (adopt = true → ¬ ReadOnly w x) →
    ∃ v cv rn, dupWith k adopt deep x w = .ok v w.fresh ∧
      Built w ch n (if n.type = .element then n.attrs else []) (if importDeep n.type deep then ch x else []) 1 v cv rn := by
  intro k
  induction k with
  | zero => intro w ch x n adopt deep _ _ h; exact h.elim
  | succ k ih =>
    intro w ch x n adopt deep S hx htall hcop hro
    have hty := hcop x n (.inl rfl) hx
    obtain ⟨v, cv, rn, h1, B⟩ := copyNode_run (lk := 1) S hx hty
    simp only [List.mem_cons, List.mem_nil_iff, or_false, not_or] at hty
    obtain ⟨t1, t2, t3, t4, t5⟩ := hty
    have hxlt : x < w.fresh := S.wf.bnd _ _ hx
    show ∃ v cv rn, dupBody (dupWith k false true) adopt deep x w = _ ∧ _
    have hstart : dupBody (dupWith k false true) adopt deep x w =
        ((if importDeep n.type deep then importKids (dupWith k false true) w.fresh (v.fresh + 1) n.first else pure ()) >>= fun _ => pure w.fresh) v := by
      unfold dupBody
      have hr : refuseReadonly adopt x w = .ok w () := by
        unfold refuseReadonly
        cases adopt with
        | false => rfl
        | true =>
          obtain ⟨b, hb, hb'⟩ := readonly_run S.wf.toCore hx
          have : b = false := by
            cases b with
            | false => rfl
            | true => exact absurd (hb'.1 rfl) (hro rfl)
          rw [if_pos rfl, bind_ok hb, this]
          rfl
      rw [get_bind hx, bind_ok hr]
      have e1 : decide (n.type = .document ∨ n.type = .doctype) = false := by simp [t1, t2]
      have e2 : (adopt && decide (n.type = .entity ∨ n.type = .notation_)) = false := by simp [t3, t4]
      rw [e1, throwIf_false, bind_ok h1, e2, throwIf_false, bound_bind]
    rw [hstart]
    cases hd : importDeep n.type deep with
    | false => exact ⟨v, cv, rn, rfl, B⟩
    | true =>
      obtain ⟨q, k1, k2, _⟩ := (S.wf.linked.loc x n hx).ends
      rw [hx] at k1; cases k1
      rw [hd] at hcop
      obtain ⟨v', cv', rn', h2, B'⟩ := importKids_run (as := if n.type = .element then n.attrs else []) S (imp := dupWith k false true) hx t1
        (fun v cv c cn Sv hc hcv hext => by
          obtain ⟨cn', hc1, _⟩ := S.wf.linked.alive_child hc
          have hclt : c < w.fresh := S.wf.bnd _ _ hc1
          have ht := htall c (by simp [owned, hc])
          have hcc := (hcop.kid hc).ext S hext hclt
          obtain ⟨v1, c1, kn, h3, K⟩ := ih v cv c cn false true Sv hcv ((hext.tall S k c hclt).2 ht)
            (fun j m hj hm => hcc j m (hj.imp_right fun h => ⟨rfl, h.2⟩) hm) (fun h => by cases h)
          refine ⟨v1, c1, kn, h3, ?_⟩
          have : (if importDeep cn.type true = true then cv c else []) = cv c := by
            unfold importDeep
            by_cases ha : cn.type = .attribute
            · rw [if_pos ha, if_pos rfl]
            · rw [if_neg ha]
              by_cases he : cn.type = .entityRef
              · rw [if_pos he, Sv.entity_leaf hcv he]; rfl
              · rw [if_neg he, if_pos rfl]
          rw [this] at K
          exact K) (ch x) [] (v.fresh + 1) v cv rn rfl
        (by have := kids_length S.wf.toCore x; have := B.ext.fresh; omega) B
      refine ⟨v', cv', rn', ?_, B'⟩
      simp only [if_true]
      rw [k2, bind_ok h2]
      rfl

/-- `importNode` succeeds and makes a copy. -/
theorem importNode_run (S : Sound w ch) (hx : w.nodes x = some n) {deep : Bool} (d : NodeId) (h : Copies w ch x (importDeep n.type deep)) :
    ∃ v cv rn, importNode d x deep w = .ok v w.fresh ∧
      Built w ch n (if n.type = .element then n.attrs else []) (if importDeep n.type deep then ch x else []) 1 v cv rn := by
  unfold importNode
  rw [bound_bind]
  exact dupWith_run _ w ch x n false deep S hx (tall_live S.wf.toCore S.attrs hx (Nat.le_succ _)) h (fun h => by cases h)

end Dom.Tree
