import Verif.Tree.InsertSpec
/-!
# `insertBefore` meets its specification
-/
namespace Dom.Tree
set_option linter.unusedSimpArgs false

variable {w : World} {ch : Children} {β : Type}

/-- The pending mark of `x` removed. -/
def unpend (x : NodeId) (j : NodeId) (n : Node) : Node :=
  { n with pendingIn := if j = x then none else n.pendingIn }

theorem removePending_run {x : NodeId} {n : Node} (hx : w.nodes x = some n)
    (h : n.owner = none ∧ n.pendingIn = none ∨ n.pendingIn ≠ none ∧ n.owner ≠ none) :
    removePending x w = .ok (w.mp (unpend x) []) () := by
  unfold removePending
  rw [get_bind hx]
  rcases h with ⟨h1, h2⟩ | ⟨h1, h2⟩
  · rw [h1]
    dsimp only
    rw [pure_run]
    congr 1
    conv => lhs; rw [← mp_id w]
    refine mp_congr _ fun j m hj => ?_
    by_cases hjx : j = x
    · subst hjx; rw [hx] at hj; cases hj
      cases n; simp_all [unpend]
    · simp [unpend, hjx]
  · cases ho : n.owner with
    | none => exact absurd ho h2
    | some d =>
      dsimp only
      have : n.pendingIn.isSome = true := by
        cases hq : n.pendingIn with
        | none => exact absurd hq h1
        | some => rfl
      rw [this, cassert_bind]
      conv => lhs; rw [← mp_id w]
      rw [mp_mod_run hx, setAt_pending]
      rfl

theorem removePending_fault {x : NodeId} {n : Node} (hx : w.nodes x = some n)
    (h1 : n.pendingIn = none) (h2 : n.owner ≠ none) :
    removePending x w = .fault .assertFail := by
  unfold removePending
  rw [get_bind hx]
  cases ho : n.owner with
  | none => exact absurd ho h2
  | some d => dsimp only; rw [h1]; rfl

theorem Seg.mp_same {p : NodeId} {a b seg : List NodeId} {f : Option NodeId} (hs : Seg w ch p a b seg f)
    {g : NodeId → Node → Node} (l)
    (ht : ∀ j n, (g j n).type = n.type) (hg : ∀ j n, (g j n).links = n.links) :
    Seg (w.mp g l) ch p a b seg f := by
  have hpar : ∀ j n, (g j n).parent = n.parent := fun j n => congrArg Prod.fst (hg j n)
  have hpr : ∀ j n, (g j n).prev = n.prev := fun j n => congrArg (·.2.2.2.1) (hg j n)
  have hne : ∀ j n, (g j n).next = n.next := fun j n => congrArg (·.2.2.2.2) (hg j n)
  refine ⟨hs.hab, hs.ne, ?_, hs.nodup, ?_, ?_, hs.frag, hs.single⟩
  · intro s1 c s2 h
    obtain ⟨n, hn, h1, h2, h3⟩ := hs.kids s1 c s2 h
    exact ⟨_, mp_some hn _ _, by rw [ht]; exact h1, by rw [hpr]; exact h2, by rw [hne]; exact h3⟩
  · intro c hc h
    exact hs.notAnc c hc (AncSelf.mono (fun c p h => (parentOf_mp_same hg l).1 h) h)
  · intro c hc m hm
    obtain ⟨n, hn, rfl⟩ := mp_some_iff.1 hm
    rw [hpar]; exact hs.src c hc n hn

theorem hasOwner_mp {g : NodeId → Node → Node} (hg : ∀ j n, (g j n).owner = n.owner) (l) (x : NodeId) :
    hasOwner (w.mp g l) x = hasOwner w x := by
  unfold hasOwner
  rw [mp_nodes]
  cases w.nodes x with
  | none => rfl
  | some n => simp [hg]

theorem insertEvents_mp {g : NodeId → Node → Node} (hg : ∀ j n, (g j n).owner = n.owner) (l) (p seg) :
    insertEvents (w.mp g l) ch p seg = insertEvents w ch p seg := by
  unfold insertEvents
  simp only [hasOwner_mp hg, mp_fresh]

theorem split_at {p new : NodeId} {r : Option NodeId} (hr : ∀ c, r = some c → c ∈ ch p) (hrn : r ≠ some new) :
    ∃ a b, removeCh ch new p = a ++ b ∧ b.head? = r := by
  cases r with
  | none => exact ⟨removeCh ch new p, [], by simp, rfl⟩
  | some c =>
    have hc : c ∈ removeCh ch new p := by
      simp only [removeCh, List.mem_filter]
      refine ⟨hr c rfl, ?_⟩
      simp only [ne_eq, decide_not, Bool.not_eq_eq_eq_not, Bool.not_true, decide_eq_false_iff_not]
      rintro rfl; exact hrn rfl
    obtain ⟨a, b, h⟩ := List.append_of_mem hc
    exact ⟨a, c :: b, h, rfl⟩

theorem Permitted.may {p c : NodeId} {pn cn : Node} (hp : w.nodes p = some pn) (hc : w.nodes c = some cn)
    (h : Permitted w ch p c) : MayContain pn.type cn.type := by
  obtain ⟨a, b, ha, hb, h, _⟩ := h
  rw [hp] at ha; cases ha; rw [hc] at hb; cases hb; exact h

theorem MayContain.parent {p c : NodeType} (h : MayContain p c) : p ≠ .doctype := by
  cases h with
  | content hp _ => revert hp; cases p <;> simp
  | attr => simp
  | doc => simp

/-- Insertion of a node that is not a DocumentFragment, once all the checks have passed. -/
theorem insertDo_node (hW : WF w ch) {p new : NodeId} {pn nn : Node} (hp : w.nodes p = some pn)
    (hx : w.nodes new = some nn) (hnf : nn.type ≠ .fragment) (hperm : Permitted w ch p new)
    (hanc : ¬ AncSelf w p new) (hown : nn.owner = pn.owner ∨ (nn.type = .doctype ∧ nn.owner = none))
    (hro : ∀ q, nn.parent = some q → ¬ ReadOnly w q) {r : Option NodeId}
    (hr : ∀ c, r = some c → c ∈ ch p) (hrn : r ≠ some new) :
    ∃ w' ch', insertDo p new r nn pn w = .ok w' new ∧ Inserted w ch p new nn pn r w' ch' := by
  have hmay := hperm.may hp hx
  have hpo : pn.owner ≠ none := by
    obtain ⟨d, _, h, _⟩ := hW.toCore.doc_alive hp (.inl hmay.parent)
    rw [h]; simp
  have hnp : p ≠ new := by rintro rfl; exact hanc .refl
  obtain ⟨g, hrun, hwf, hdat, hoth, hpar0, _⟩ := takeOut_ok hW hx hmay.child.1 hro
  obtain ⟨a, b, hab, hbr⟩ := split_at (ch := ch) (p := p) hr hrn
  have htyp : ∀ j m, (g j m).type = m.type := fun j m => Node.data_type (hdat j m).1
  have hown' : ∀ j m, (g j m).owner = m.owner := fun j m => (hdat j m).2.2
  -- the world after taking `new` out
  let l1 := removalEvents w ch new nn.parent
  have hW1 := hwf l1
  have hx1 : (w.mp g l1).nodes new = some (g new nn) := mp_some hx _ _
  have hp1 : (w.mp g l1).nodes p = some (g p pn) := mp_some hp _ _
  have horph := hW1.linked.orphan new _ hx1 (.inl hpar0)
  have hsub : ∀ c q, ParentOf (w.mp g l1) c q → ParentOf w c q := by
    rintro c q ⟨m, hm, hq⟩
    obtain ⟨n, hn, rfl⟩ := mp_some_iff.1 hm
    by_cases hc : c = new
    · subst hc; rw [hx] at hn; cases hn; rw [hpar0] at hq; simp at hq
    · exact ⟨n, hn, by rw [← hq, (hoth c n hc).1]⟩
  have hseg : Seg (w.mp g l1) (removeCh ch new) p a b [new] none := by
    refine ⟨hab, by simp, ?_, by simp, ?_, ?_, by simp, fun _ => ⟨new, rfl⟩⟩
    · intro s1 c s2 h
      cases s1 with
      | nil =>
        simp only [List.nil_append, List.cons.injEq] at h
        obtain ⟨rfl, rfl⟩ := h
        exact ⟨_, hx1, by rw [htyp]; exact hmay.child.1, by simp [horph.1], by simp [horph.2]⟩
      | cons y s1 => simp at h
    · intro c hc h
      simp only [List.mem_singleton] at hc
      subst hc
      exact hanc (h.mono hsub)
    · intro c hc n hn
      simp only [List.mem_singleton] at hc
      subst hc
      rw [hx1] at hn; cases hn; exact hpar0
  -- pending
  have hpend : (g new nn).owner = none ∧ (g new nn).pendingIn = none ∨
      (g new nn).pendingIn ≠ none ∧ (g new nn).owner ≠ none := by
    have := hW1.pending new _ hx1
    rw [hpar0, htyp] at this
    have hnd : nn.type ≠ .document := hmay.child.2.1
    simp only [Option.isSome_none, hnd, hnf, Bool.false_eq_true, or_self, if_false, false_and, or_false] at this
    cases ho : (g new nn).owner with
    | none => left; rw [this, ho]; simp
    | some => right; rw [this, ho]; simp
  have hu1 : ∀ j n, (unpend new j n).type = n.type := fun _ _ => rfl
  have hu2 : ∀ j n, (unpend new j n).links = n.links := fun _ _ => rfl
  have hu3 : ∀ j n, (unpend new j n).owner = n.owner := fun _ _ => rfl
  have hC2 : Core ((w.mp g l1).mp (unpend new) []) (removeCh ch new) := hW1.toCore.mp_same [] hu1 hu2 hu3
  have hs2 := hseg.mp_same (g := unpend new) [] hu1 hu2
  have hp2 : ((w.mp g l1).mp (unpend new) []).nodes p = some (unpend new p (g p pn)) := mp_some hp1 _ _
  have hatt := attachRange_run hC2 hs2 hp2 (by rw [hu3, hown']; exact hpo) (fst := new) (lst := new) rfl rfl
  rw [insertEvents_mp hu3, insertEvents_mp hown'] at hatt
  let dt : Bool := decide (pn.type = .document ∧ nn.type = .doctype)
  let ev := insertEvents w (removeCh ch new) p [new]
  have hfin : insertDo p new r nn pn w =
      .ok ((w.mp g l1).mp (insertedRec p a b [new] new none dt (fun c => u32 (c + 1))) ev) new := by
    unfold insertDo
    rw [bind_ok hrun, bind_ok (removePending_run hx1 hpend), if_neg hnf]
    have hpt : (do let pt ← insertPoint p r; attach new p pt r : M Unit) ((w.mp g l1).mp (unpend new) []) =
        .ok (((w.mp g l1).mp (unpend new) []).mp (spliceRec p a b [new] [new]) ev) () := by
      rw [bind_ok (insertPoint_run hC2 hp2 hab hbr)]
      unfold attach
      rw [← hbr]
      exact hatt
    rw [bind_ok hpt, mp_mp, mp_mp, ← List.append_assoc]
    have hxx : ∀ (g' : NodeId → Node → Node), ∀ l, (if pn.type = .document ∧ nn.type = .doctype then
        modNode new fun x => { x with owner := some p } else pure ()) (w.mp g' l) =
        .ok (w.mp (fun j n => { g' j n with owner := if dt = true ∧ j = new then some p else (g' j n).owner }) l) () := by
      intro g' l
      by_cases hd : pn.type = .document ∧ nn.type = .doctype
      · rw [if_pos hd, mp_mod_run hx, setAt_owner]
        congr 2
        funext j n
        simp [dt, hd]
      · rw [if_neg hd, pure_run]
        congr 2
        funext j n
        simp [dt, hd]
    rw [bind_ok (hxx _ _)]
    unfold ref
    rw [mp_mod_bind hx, pure_run, setAt_ref, mp_mp]
    congr 1
    simp only [List.append_nil]
    refine mp_congr _ fun j n _ => ?_
    simp [insertedRec, spliceRec, unpend]
  refine ⟨_, moveCh (removeCh ch new) p none (a ++ [new] ++ b), hfin, ?_⟩
  have hmv : moved ch new nn = [new] := by simp [moved, hnf]
  refine ⟨?_, ?_, ?_, ?_, ?_, ?_, rfl, ?_, ?_, ?_⟩
  · refine WF_attached hW1 hseg hp1 ⟨.inl ⟨rfl, rfl⟩, ?_, ?_, ?_⟩ (by rw [hown']; exact hpo) _
    · intro c hc n hn
      simp only [List.mem_singleton] at hc
      subst hc
      rw [hx1] at hn; cases hn
      rw [htyp, htyp]; exact hmay
    · intro hd c hc n hn
      simp only [List.mem_singleton] at hc
      subst hc
      rw [hx1] at hn; cases hn
      rw [hown', hown']
      rcases hown with h | ⟨h1, h2⟩
      · exact h
      · -- a DocumentType is only permitted below a Document
        exfalso
        have : pn.type = .document := by
          rw [h1] at hmay
          generalize pn.type = t at hmay
          cases hmay with
          | content _ hc => simp at hc
          | attr hc => simp at hc
          | doc => rfl
        simp [dt, this, h1] at hd
    · intro hd
      simp only [dt, decide_eq_true_eq] at hd
      exact ⟨by rw [htyp]; exact hd.1, rfl, _, hx1, by rw [htyp]; exact hd.2⟩
  · exact ⟨a, b, hab, hbr, by rw [hmv, moveCh_same]⟩
  · intro q hq
    rw [moveCh_ne _ _ hq (by simp)]
    simp [hnf, removeCh]
  · intro j
    rw [mp_nodes, mp_nodes]
    cases w.nodes j with
    | none => rfl
    | some n =>
      have := (hdat j n).1
      simp only [Option.map_some, Option.some.injEq]
      rw [← this]; rfl
  · intro j
    rw [mp_nodes, mp_nodes]
    cases w.nodes j with
    | none => rfl
    | some n =>
      have := (hdat j n).2.1
      simp [insertedRec, this]
  · intro j
    rw [mp_nodes, mp_nodes]
    cases w.nodes j with
    | none => rfl
    | some n =>
      simp only [Option.map_some, Option.some.injEq, insertedRec, hown', dt, decide_eq_true_eq]
      by_cases h : j = new <;> simp [h]
  · rw [mp_log, mp_log, hmv]
    simp [l1, ev]
  · intro j n hj ha
    have hjn : j ≠ new := by rintro rfl; rw [hx] at hj; cases hj; exact hmay.child.1 ha
    exact ⟨_, mp_some (mp_some hj _ _) _ _, by simp [insertedRec, hjn, (hoth j n hjn).1]⟩
  · intro j n hj _ hjn
    exact ⟨_, mp_some (mp_some hj _ _) _ _, by simp [insertedRec, hjn, (hoth j n hjn).2]⟩

/-- Insertion of a DocumentFragment whose children are all permitted, once all the checks have passed. -/
theorem insertDo_fragment (hW : WF w ch) {p new : NodeId} {pn nn : Node} (hp : w.nodes p = some pn)
    (hx : w.nodes new = some nn) (hf : nn.type = .fragment)
    (hpend : nn.pendingIn ≠ none) (hpo : pn.owner ≠ none)
    (hperm : ∀ c ∈ ch new, Permitted w ch p c)
    (hanc : ¬ AncSelf w p new) (hown : nn.owner = pn.owner) {r : Option NodeId}
    (hr : ∀ c, r = some c → c ∈ ch p) :
    ∃ w' ch', insertDo p new r nn pn w = .ok w' new ∧ Inserted w ch p new nn pn r w' ch' := by
  have hL := hW.linked
  have hnp : p ≠ new := by rintro rfl; exact hanc .refl
  have hpar0 : nn.parent = none := by
    cases h : nn.parent with
    | none => rfl
    | some q =>
      obtain ⟨qn, hqn⟩ := hL.alive_parent hx h
      have := (hW.types q qn new nn hqn (hL.up new nn q hx (by simp [hf]) h) hx).child
      exact absurd hf this.2.2.1
  have hno : nn.owner ≠ none := by rw [hown]; exact hpo
  have hrm : removeCh ch new = ch := removeCh_eq hL hx hpar0
  have hrn : r ≠ some new := by
    rintro rfl
    obtain ⟨n, hn, _, h⟩ := hL.alive_child (hr new rfl)
    rw [hx] at hn; cases hn; rw [hpar0] at h; simp at h
  obtain ⟨a, b, hab, hbr⟩ := split_at (ch := ch) (p := p) hr hrn
  rw [hrm] at hab
  have hrun : takeOut new w = .ok w () := by
    unfold takeOut; rw [get_bind hx, hpar0]; rfl
  have hloc := hL.loc new nn hx
  obtain ⟨n', hn', hfirst, hlast⟩ := hloc.ends
  rw [hx] at hn'; cases hn'
  have hu1 : ∀ j n, (unpend new j n).type = n.type := fun _ _ => rfl
  have hu2 : ∀ j n, (unpend new j n).links = n.links := fun _ _ => rfl
  have hu3 : ∀ j n, (unpend new j n).owner = n.owner := fun _ _ => rfl
  have hC2 : Core (w.mp (unpend new) []) ch := hW.toCore.mp_same [] hu1 hu2 hu3
  have hp2 : (w.mp (unpend new) []).nodes p = some (unpend new p pn) := mp_some hp _ _
  have hx2 : (w.mp (unpend new) []).nodes new = some (unpend new new nn) := mp_some hx _ _
  have hnotdt : ¬ (pn.type = .document ∧ nn.type = .doctype) := by rw [hf]; simp
  obtain ⟨ok, hok, hok'⟩ := allPermitted_run hC2 hp2 (hC2.linked.loc new _ hx2) (ch new) [] (by simp)
    (w.fresh + 1) (by have := child_length_le hW.toCore new; omega)
  have hokt : ok = true := hok'.2 fun c hc =>
    (hperm c hc).congr (w := w.mp (unpend new) []) (ch := ch) (fun j => (mp_types hu1 [] j).symm) (fun x hx => hx)
  have hfirst' : (unpend new new nn).first = (ch new).head? := hfirst
  have hlast' : (unpend new new nn).last = (ch new).getLast? := hlast
  have hfin : insertDo p new r nn pn w =
      .ok (w.mp (if ch new = [] then fun j n => { unpend new j n with refcnt := if j = new then u32 (n.refcnt + 1) else n.refcnt }
        else insertedRec p a b (ch new) new (some new) false (fun c => u32 (c + 1)))
        (if ch new = [] then [] else insertEvents w ch p (ch new))) new := by
    unfold insertDo
    rw [bind_ok hrun, bind_ok (removePending_run hx (.inr ⟨hpend, hno⟩)), if_pos hf, if_neg hnotdt]
    cases hcs : ch new with
    | nil =>
      have hif : insertFragment p new r (w.mp (unpend new) []) = .ok (w.mp (unpend new) []) () := by
        unfold insertFragment
        rw [get_bind hx2, bound_bind, mp_fresh, hfirst', bind_ok hok, hokt]
        simp only [Bool.not_true]
        rw [throwIf_false, hcs]
        rfl
      rw [bind_ok hif, pure_bind']
      unfold ref
      rw [mp_mod_bind hx, pure_run, setAt_ref]
      rw [if_pos rfl, if_pos rfl]
      congr 2
    | cons c cs =>
      have hseg : Seg w ch p a b (ch new) (some new) := by
        refine ⟨hab, by rw [hcs]; simp, ?_, hloc.nodup, ?_, ?_, ?_, by simp⟩
        · intro s1 y s2 h
          obtain ⟨n, h1, h2, _, h3⟩ := hloc.kids s1 y s2 h
          exact ⟨n, h1, h2, h3⟩
        · intro y hy h
          obtain ⟨n, hn, _, h1⟩ := hL.alive_child hy
          exact hanc (h.tail ⟨n, hn, h1⟩)
        · intro y hy n hn
          obtain ⟨n', hn', _, h1⟩ := hL.alive_child hy
          rw [hn] at hn'; cases hn'; exact h1
        · intro q hq
          simp only [Option.some.injEq] at hq
          subst hq
          exact ⟨rfl, Ne.symm hnp⟩
      have hs2 := hseg.mp_same (g := unpend new) [] hu1 hu2
      obtain ⟨lst, hlst⟩ : ∃ lst, (ch new).getLast? = some lst := by
        rw [hcs]; exact ⟨_, List.getLast?_cons⟩
      have hfst : (ch new).head? = some c := by rw [hcs]; rfl
      have hatt := attachRange_run hC2 hs2 hp2 hpo hfst hlst
      rw [insertEvents_mp hu3] at hatt
      have hif : insertFragment p new r (w.mp (unpend new) []) =
          .ok (w.mp (fun j n => { spliceRec p a b (ch new) (ch new) j (unpend new j n) with
            first := if j = new then none else (spliceRec p a b (ch new) (ch new) j (unpend new j n)).first
            last := if j = new then none else (spliceRec p a b (ch new) (ch new) j (unpend new j n)).last })
            (insertEvents w ch p (ch new))) () := by
        unfold insertFragment
        rw [get_bind hx2, bound_bind, mp_fresh, hfirst', bind_ok hok, hokt]
        simp only [Bool.not_true]
        rw [throwIf_false, hfst]
        dsimp only
        rw [bind_ok (insertPoint_run hC2 hp2 hab hbr), hlast', hlst, deref_bind, ← hbr, bind_ok hatt, mp_mp,
          mp_mod_bind hx, mp_mod_run hx, setAt_first, setAt_last]
        simp
      rw [bind_ok hif, pure_bind']
      unfold ref
      rw [mp_mod_bind hx, pure_run, setAt_ref, if_neg (by simp), if_neg (by simp), hcs]
      congr 1
      refine mp_congr _ fun j n _ => ?_
      simp only [insertedRec, spliceRec, unpend, Option.some.injEq, Bool.false_eq_true, false_and, if_false]
      simp [eq_comm]
  have hmv : moved ch new nn = ch new := by simp [moved, hf]
  have hflt : (ch p).filter (· ≠ new) = ch p := congrFun hrm p
  refine ⟨_, moveCh ch p (some new) (a ++ ch new ++ b), hfin, ?_⟩
  refine ⟨?_, ⟨a, b, by rw [hflt, hab], hbr, by rw [hmv, moveCh_same]⟩, ?_, ?_, ?_, ?_, rfl, ?_, ?_, ?_⟩
  · by_cases hcs : ch new = []
    · simp only [hcs, if_true, List.append_nil]
      have : moveCh ch p (some new) (a ++ b) = ch := by
        funext q
        by_cases hq : q = p
        · subst hq; rw [moveCh_same, hab]
        · by_cases hqn : q = new
          · subst hqn; rw [moveCh_frag _ _ hq rfl, hcs]
          · rw [moveCh_ne _ _ hq (by simpa using Ne.symm hqn)]
      rw [this]
      refine ⟨hW.toCore.mp_same [] (fun _ _ => rfl) (fun _ _ => rfl) (fun _ _ => rfl), ?_⟩
      intro i m hm
      obtain ⟨n, hn, rfl⟩ := mp_some_iff.1 hm
      by_cases hi : i = new
      · right
        subst hi; rw [hx] at hn; cases hn
        simp [unpend, hf]
      · have := hW.pending i n hn
        simpa [unpend, hi] using this
    · rw [if_neg hcs, if_neg hcs]
      have hseg : Seg w ch p a b (ch new) (some new) := by
        refine ⟨hab, hcs, ?_, hloc.nodup, ?_, ?_, ?_, by simp⟩
        · intro s1 y s2 h
          obtain ⟨n, h1, h2, _, h3⟩ := hloc.kids s1 y s2 h
          exact ⟨n, h1, h2, h3⟩
        · intro y hy h
          obtain ⟨n, hn, _, h1⟩ := hL.alive_child hy
          exact hanc (h.tail ⟨n, hn, h1⟩)
        · intro y hy n hn
          obtain ⟨n', hn', _, h1⟩ := hL.alive_child hy
          rw [hn] at hn'; cases hn'; exact h1
        · intro q hq
          simp only [Option.some.injEq] at hq
          subst hq
          exact ⟨rfl, Ne.symm hnp⟩
      refine WF_attached hW hseg hp ⟨.inr ⟨rfl, nn, hx, hf⟩, ?_, ?_, by simp⟩ hpo _
      · intro c hc n hn
        exact (hperm c hc).may hp hn
      · intro _ c hc n hn
        obtain ⟨n', hn', _, h1⟩ := hL.alive_child hc
        rw [hn] at hn'; cases hn'
        rw [← hown]; exact hW.ownSame c n new nn hn h1 hx
  · intro q hq
    by_cases hqn : q = new
    · subst hqn; rw [moveCh_frag _ _ hq rfl]; simp [hf]
    · rw [moveCh_ne _ _ hq (by simpa using Ne.symm hqn)]
      simp only [hqn, false_and, if_false]
      exact (congrFun hrm q).symm
  · intro j
    rw [mp_nodes]
    cases w.nodes j with
    | none => rfl
    | some n =>
      by_cases hcs : ch new = []
      · rw [if_pos hcs]; rfl
      · rw [if_neg hcs]; rfl
  · intro j
    rw [mp_nodes]
    cases w.nodes j with
    | none => rfl
    | some n =>
      by_cases hcs : ch new = []
      · rw [if_pos hcs]; rfl
      · rw [if_neg hcs]; rfl
  · intro j
    rw [mp_nodes]
    cases w.nodes j with
    | none => rfl
    | some n =>
      by_cases hcs : ch new = []
      · rw [if_pos hcs]; simp [unpend, hf]
      · rw [if_neg hcs]; simp [insertedRec, hf]
  · rw [mp_log, hmv, hpar0, hrm]
    simp [removalEvents]
  · intro j n hj ha
    by_cases hcs : ch new = []
    · rw [if_pos hcs]; exact ⟨_, mp_some hj _ _, rfl⟩
    · rw [if_neg hcs]
      refine ⟨_, mp_some hj _ _, ?_⟩
      have : j ∉ ch new := by
        intro h
        obtain ⟨m, hm, h2, _⟩ := hL.alive_child h
        rw [hj] at hm; cases hm; exact h2 ha
      simp [insertedRec, this]
  · intro j n hj _ hjn
    by_cases hcs : ch new = []
    · rw [if_pos hcs]; exact ⟨_, mp_some hj _ _, by simp [unpend, hjn]⟩
    · rw [if_neg hcs]
      exact ⟨_, mp_some hj _ _, by simp [insertedRec, hjn]⟩

end Dom.Tree
