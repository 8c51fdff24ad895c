import Verif.Tree.PropsEdit
/-!
# C98: the body and the current script that an HTML document is told

On top of the tree model.  Simplified: every document is an HTML document; the searches of `_dom_html_document_get_body` for a document that was
told no body are in Verif/Html/Collect.lean.
-/
set_option linter.unusedSimpArgs false
set_option linter.unusedVariables false
namespace Dom.Tree

/-! ## The model -/

/-- The two fields, `body` and `current_script`, src/html/html_document.h:27-29. -/
inductive Spot
  | body | script
  deriving DecidableEq

/-- The memory, and the two fields of every document; `none`: NULL (src/html/html_document.c:139-140). -/
structure Pages where
  w : World
  ptr : Spot → NodeId → Option NodeId

/-- What a call answers: a node with a reference, a pointer without a reference, or whatever the search for the body finds. -/
inductive Told
  | owned (r : Option NodeId)
  | lent (r : Option NodeId)
  | search

/-- The result of a call. -/
inductive PageRes
  | ok (p : Pages) (r : Told)
  | exc (p : Pages) (e : Exc)
  | fault (f : Fault)

/-- A function of the tree. -/
def onPages (p : Pages) (m : M α) (k : World → α → PageRes) : PageRes :=
  match m p.w with
  | .ok w' a => k w' a
  | .exc w' e => .exc { p with w := w' } e
  | .fault f => .fault f

/-- `_dom_html_document_set_body`, src/html/html_document.c:1204-1209, and `_dom_html_document_set_current_script`, :1218-1223. -/
def setSpot (sp : Spot) (d : NodeId) (x : Option NodeId) (p : Pages) : PageRes :=
  onPages p (getNode d) fun w' _ => .ok { w := w', ptr := fun t e => if t = sp ∧ e = d then x else p.ptr t e } (.owned none)

/-- `_dom_html_document_get_body`, src/html/html_document.c:1148-1202, and `_dom_html_document_get_current_script`, :1211-1216. -/
def getSpot (sp : Spot) (d : NodeId) (p : Pages) : PageRes :=
  onPages p (getNode d) fun w' _ =>
    match sp, p.ptr sp d with
    | .body, none => .ok { p with w := w' } .search
    | _, r => .ok { p with w := w' } (.lent r)

/-- What a client can do. -/
inductive PageOp
  | tree (a : Op)
  | set (sp : Spot) (d : NodeId) (x : Option NodeId)
  | get (sp : Spot) (d : NodeId)

/-- Do it.  A new document has NULL in its fields (src/html/html_document.c:139-140); names of nodes are not used again, so this is so from the start. -/
def PageOp.run : PageOp → Pages → PageRes
  | .tree a, p => onPages p a.run fun w' r => .ok { p with w := w' } (.owned r)
  | .set sp d x, p => setSpot sp d x p
  | .get sp d, p => getSpot sp d p

/-! ## Specification -/

/-- The references of the client after it did `a` and was answered `r`. -/
def PageOp.book (led : Ledger) : PageOp → Told → Ledger
  | .tree a, .owned r => a.book led r
  | _, _ => led

/-- The client uses only documents and nodes that it has references to, and avoids the faults of the tree functions. -/
def Watchful (led : Ledger) (p : Pages) : PageOp → Prop
  | .tree a => Heedful led p.w a
  | .set _ d x => 0 < led d ∧ IsType p.w d .document ∧ ∀ y, x = some y → 0 < led y ∧ IsType p.w y .element
  | .get _ d => 0 < led d ∧ IsType p.w d .document

/-- The histories of such a client. -/
inductive Visitor : Ledger → Pages → Prop
  | start : Visitor (fun _ => 0) { w := World.empty, ptr := fun _ _ => none }
  | done {led : Ledger} {p p' : Pages} {r : Told} (a : PageOp) : Visitor led p → Watchful led p a → a.run p = .ok p' r → Visitor (a.book led r) p'
  | refused {led : Ledger} {p p' : Pages} {e : Exc} (a : PageOp) : Visitor led p → Watchful led p a → a.run p = .exc p' e → Visitor led p'

/-- Calls one after the other, refused or not. -/
inductive Pages.Steps : Pages → List PageOp → Pages → Prop
  | nil (p : Pages) : Steps p [] p
  | done {p p' q : Pages} {a : PageOp} {l : List PageOp} {r : Told} : a.run p = .ok p' r → Steps p' l q → Steps p (a :: l) q
  | refused {p p' q : Pages} {a : PageOp} {l : List PageOp} {e : Exc} : a.run p = .exc p' e → Steps p' l q → Steps p (a :: l) q

/-! ## Lemmas -/

theorem setSpot_run {sp : Spot} {d : NodeId} {x : Option NodeId} {p p' : Pages} {r : Told} (h : setSpot sp d x p = .ok p' r) :
    p' = { w := p.w, ptr := fun t e => if t = sp ∧ e = d then x else p.ptr t e } := by
  unfold setSpot onPages getNode at h
  cases hd : p.w.nodes d with
  | none => rw [hd] at h; cases h
  | some n => rw [hd] at h; cases h; rfl

theorem getSpot_run {sp : Spot} {d : NodeId} {p p' : Pages} {r : Told} (h : getSpot sp d p = .ok p' r) : p' = p := by
  unfold getSpot onPages getNode at h
  cases hd : p.w.nodes d with
  | none => rw [hd] at h; cases h
  | some n =>
    rw [hd] at h
    dsimp only at h
    split at h <;> cases h <;> rfl

theorem spot_exc {sp : Spot} {d : NodeId} {x : Option NodeId} {p p' : Pages} {e : Exc} : setSpot sp d x p ≠ .exc p' e ∧ getSpot sp d p ≠ .exc p' e := by
  unfold setSpot getSpot onPages getNode
  cases hd : p.w.nodes d with
  | none => exact ⟨(fun h => nomatch h), (fun h => nomatch h)⟩
  | some n =>
    refine ⟨(fun h => nomatch h), (fun h => ?_)⟩
    dsimp only at h
    split at h <;> cases h

theorem onPages_exc {p p' : Pages} {m : M α} {k : World → α → PageRes} {e : Exc} (hk : ∀ w a, k w a ≠ .exc p' e) (h : onPages p m k = .exc p' e) :
    ∃ w', m p.w = .exc w' e ∧ p' = { p with w := w' } := by
  unfold onPages at h
  split at h
  · exact absurd h (hk _ _)
  · rename_i w' e' hm; cases h; exact ⟨w', hm, rfl⟩
  · cases h

theorem tree_ok {p p' : Pages} {a : Op} {r : Told} (h : (PageOp.tree a).run p = .ok p' r) : ∃ w' x, a.run p.w = .ok w' x ∧ p' = { p with w := w' } ∧ r = .owned x := by
  replace h : onPages p a.run (fun w' r => .ok { p with w := w' } (.owned r)) = .ok p' r := h
  unfold onPages at h
  split at h
  · rename_i w' x hm; cases h; exact ⟨w', x, hm, rfl, rfl⟩
  · cases h
  · cases h

theorem tree_exc {p p' : Pages} {a : Op} {e : Exc} (h : (PageOp.tree a).run p = .exc p' e) : ∃ w', a.run p.w = .exc w' e ∧ p' = { p with w := w' } :=
  onPages_exc (fun _ _ h => by cases h) h

/-! ## The properties -/

variable {led : Ledger} {p q : Pages} {sp : Spot} {d : NodeId}

/-- C98: setting and getting give no reference and take none: without them the history is one of the tree functions, with the same references and the same memory. -/
theorem C98_no_reference (h : Visitor led p) : Editor led p.w := by
  induction h with
  | start => exact .start
  | @done led p p' r a _ ha hr ih =>
    cases a with
    | tree a =>
      obtain ⟨w', x, h1, rfl, rfl⟩ := tree_ok hr
      exact .done a ih ha h1
    | set sp d x => rw [setSpot_run hr]; cases r <;> exact ih
    | get sp d => rw [getSpot_run hr]; cases r <;> exact ih
  | @refused led p p' e a _ ha hr ih =>
    cases a with
    | tree a =>
      obtain ⟨w', h1, rfl⟩ := tree_exc hr
      exact .refused a ih ha h1
    | set sp d x => exact absurd hr (spot_exc (x := x)).1
    | get sp d => exact absurd hr (spot_exc (x := none)).2

/-- C98: no fault for such a client. -/
theorem C98_no_fault_partial (h : Visitor led p) {a : PageOp} (ha : Watchful led p a) (f : Fault) : a.run p ≠ .fault f := by
  have E := C98_no_reference h
  cases a with
  | tree a =>
    intro hr
    refine C46_editing_no_fault_partial E ha f ?_
    replace hr : onPages p a.run (fun w' r => .ok { p with w := w' } (.owned r)) = .fault f := hr
    unfold onPages at hr
    split at hr
    · cases hr
    · cases hr
    · rename_i f' hm; cases hr; exact hm
  | set sp d x =>
    obtain ⟨_, ⟨n, hn, _⟩, _⟩ := ha
    show setSpot sp d x p ≠ _
    unfold setSpot onPages getNode; rw [hn]; exact fun h => nomatch h
  | get sp d =>
    obtain ⟨_, n, hn, _⟩ := ha
    show getSpot sp d p ≠ _
    unfold getSpot onPages getNode; rw [hn]; dsimp only
    split <;> exact fun h => nomatch h

/-- C98: what was set stays, through all other calls: only setting the same field of the same document changes it. -/
theorem C98_stays {l : List PageOp} (h : p.Steps l q) (hl : ∀ x, PageOp.set sp d x ∉ l) : q.ptr sp d = p.ptr sp d := by
  induction h with
  | nil => rfl
  | @done p p' q a l r hr _ ih =>
    rw [ih (fun x hx => hl x (List.mem_cons_of_mem _ hx))]
    cases a with
    | tree a => obtain ⟨w', x, _, rfl, _⟩ := tree_ok hr; rfl
    | set sp' d' x' =>
      rw [setSpot_run hr]
      have : ¬ (sp = sp' ∧ d = d') := fun ⟨h1, h2⟩ => hl x' (by subst h1; subst h2; exact List.mem_cons_self ..)
      simp only [if_neg this]
    | get sp' d' => rw [getSpot_run hr]
  | @refused p p' q a l e hr _ ih =>
    rw [ih (fun x hx => hl x (List.mem_cons_of_mem _ hx))]
    cases a with
    | tree a => obtain ⟨w', _, rfl⟩ := tree_exc hr; rfl
    | set sp' d' x' => exact absurd hr (spot_exc (x := x')).1
    | get sp' d' => exact absurd hr (spot_exc (x := none)).2

/-- C98: setting a node, then any calls but setting the same field of the same document, then getting: the node that was set is answered, without a reference, if the document is still there. -/
theorem C98_told {l : List PageOp} {x : NodeId} {p1 : Pages} {r : Told} (h1 : (PageOp.set sp d (some x)).run p = .ok p1 r) (h : p1.Steps l q) (hl : ∀ x, PageOp.set sp d x ∉ l) (hd : q.w.nodes d ≠ none) :
    (PageOp.get sp d).run q = .ok q (.lent (some x)) := by
  have h2 := C98_stays h hl
  rw [setSpot_run h1] at h2
  simp only [and_self, if_true] at h2
  obtain ⟨n, hn⟩ := Option.ne_none_iff_exists'.1 hd
  show getSpot sp d q = _
  unfold getSpot onPages getNode
  rw [hn]
  dsimp only
  rw [h2]
  cases sp <;> rfl

/-- C98: if `NULL` was set, the current script that is answered is `NULL`, and the body is searched for. -/
theorem C98_unset {l : List PageOp} {p1 : Pages} {r : Told} (h1 : (PageOp.set sp d none).run p = .ok p1 r) (h : p1.Steps l q) (hl : ∀ x, PageOp.set sp d x ∉ l) (hd : q.w.nodes d ≠ none) :
    (PageOp.get sp d).run q = .ok q (match sp with | .script => .lent none | .body => .search) := by
  have h2 := C98_stays h hl
  rw [setSpot_run h1] at h2
  simp only [and_self, if_true] at h2
  obtain ⟨n, hn⟩ := Option.ne_none_iff_exists'.1 hd
  show getSpot sp d q = _
  unfold getSpot onPages getNode
  rw [hn]
  dsimp only
  rw [h2]
  cases sp <;> rfl

/-- C98: as long as the client has a reference to the node that was set, what it is answered is in memory.  Missing: without such a reference
(`C98_dangling_violated`). -/
theorem C98_held_partial (h : Visitor led p) {x : NodeId} (hx : p.ptr sp d = some x) (hl : 0 < led x) : ∃ n, p.w.nodes x = some n :=
  (C46_editing_live_partial (C98_no_reference h) hl).imp fun _ h => h.1

/-! ## The code is at fault -/

theorem Visitor.acts : ∀ (as : List Act) (led led' : Ledger) (p : Pages) (w' : World), Visitor led p → runActs carefulB as led p.w = some (led', w') → Visitor led' { p with w := w' }
  | [], led, led', p, w', h, hr => by simp only [runActs, Option.some.injEq, Prod.mk.injEq] at hr; exact hr.1 ▸ hr.2 ▸ h
  | a :: as, led, led', p, w', h, hr => by
      unfold runActs at hr
      split at hr
      · rename_i hb
        obtain ⟨ch, S, _⟩ := (C98_no_reference h).sound
        have hc := careful_of_carefulB S.wf.toCore hb
        have hh : Watchful led p (.tree (.act a)) := ⟨hc.1.1, hc.1.2, hc.2⟩
        cases ha : a.run p.w with
        | ok w1 r =>
          rw [ha] at hr; dsimp only at hr
          have := Visitor.done (.tree (.act a)) h hh (p' := { p with w := w1 }) (r := .owned r) (by show onPages p a.run _ = _; unfold onPages; rw [ha])
          exact Visitor.acts as _ led' { p with w := w1 } w' this hr
        | exc w1 e =>
          rw [ha] at hr; dsimp only at hr
          have := Visitor.refused (.tree (.act a)) h hh (p' := { p with w := w1 }) (e := e) (by show onPages p a.run _ = _; unfold onPages; rw [ha])
          exact Visitor.acts as _ led' { p with w := w1 } w' this hr
        | fault f => rw [ha] at hr; cases hr
      · cases hr

/-- A document (0) with a root (1) and a script in it (2). -/
def pageActs : List Act := [.call .createDocument, .call (.createNode 0 .element none none), .call (.createNode 0 .element none none), .call (.appendChild 0 1), .call (.appendChild 1 2)]

/-- The script is taken out of the document, and the client gives up its references. -/
def dropActs : List Act := [.call (.removeChild 1 2), .unref 2, .unref 2, .unref 2]

/-- C98 is violated: a client sets the current script or the body of its document to an element of the document, takes it out, and gives up its references to it.  The document, to which it
still has a reference, answers a pointer to memory that was freed. -/
theorem C98_dangling_violated (sp : Spot) : ∃ led p x, Visitor led p ∧ Watchful led p (.get sp 0) ∧ (PageOp.get sp 0).run p = .ok p (.lent (some x)) ∧ p.w.nodes x = none := by
  have hall : ((runActs carefulB pageActs (fun _ => 0) World.empty).any fun p => decide (0 < p.1 0) && decide (0 < p.1 2) && at_ p.2 0 (fun m => decide (m.type = .document)) &&
      at_ p.2 2 (fun m => decide (m.type = .element)) && (runActs carefulB dropActs p.1 p.2).any fun (q : Ledger × World) => decide (0 < q.1 0) && (q.2.nodes 2).isNone && at_ q.2 0 (fun m => decide (m.type = .document))) = true := by
    decide +kernel
  cases h1 : runActs carefulB pageActs (fun _ => 0) World.empty with
  | none => rw [h1] at hall; simp at hall
  | some lw =>
    obtain ⟨led, w⟩ := lw
    rw [h1] at hall
    simp only [Option.any_some, Bool.and_eq_true, decide_eq_true_eq] at hall
    obtain ⟨⟨⟨⟨a1, a2⟩, a3⟩, a4⟩, a5⟩ := hall
    obtain ⟨dn, hd, hdt⟩ := at_elim a3
    obtain ⟨xn, hx, hxt⟩ := at_elim a4
    have V := Visitor.acts pageActs _ led { w := World.empty, ptr := fun _ _ => none } w .start h1
    have V1 := Visitor.done (.set sp 0 (some 2)) V ⟨a1, ⟨dn, hd, of_decide_eq_true hdt⟩, fun y hy => by cases hy; exact ⟨a2, xn, hx, of_decide_eq_true hxt⟩⟩
      (p' := { w := w, ptr := fun t e => if t = sp ∧ e = 0 then some 2 else none }) (r := .owned none)
      (by show setSpot _ _ _ _ = _; unfold setSpot onPages getNode; dsimp only; rw [hd])
    cases h2 : runActs carefulB dropActs led w with
    | none => rw [h2] at a5; simp at a5
    | some lw2 =>
      obtain ⟨led2, w2⟩ := lw2
      rw [h2] at a5
      simp only [Option.any_some, Bool.and_eq_true, decide_eq_true_eq, Option.isNone_iff_eq_none] at a5
      obtain ⟨⟨b1, b2⟩, b3⟩ := a5
      obtain ⟨dn2, hd2, hdt2⟩ := at_elim b3
      have V2 := Visitor.acts dropActs _ led2 _ w2 V1 h2
      refine ⟨led2, _, 2, V2, ⟨b1, dn2, hd2, of_decide_eq_true hdt2⟩, ?_, b2⟩
      show getSpot sp 0 _ = _
      unfold getSpot onPages getNode
      dsimp only
      rw [hd2]
      dsimp only
      cases sp <;> rfl

/-- The hypotheses of the other theorems are met: a client with a document whose current script is an element that it has a reference to. -/
theorem sample98 : ∃ led p, Visitor led p ∧ p.ptr .script 0 = some 2 ∧ 0 < led 2 ∧ Watchful led p (.get .script 0) ∧ Watchful led p (.set .body 0 (some 2)) := by
  have hall : ((runActs carefulB pageActs (fun _ => 0) World.empty).any fun p => decide (0 < p.1 0) && decide (0 < p.1 2) && at_ p.2 0 (fun m => decide (m.type = .document)) &&
      at_ p.2 2 (fun m => decide (m.type = .element))) = true := by
    decide +kernel
  cases h1 : runActs carefulB pageActs (fun _ => 0) World.empty with
  | none => rw [h1] at hall; simp at hall
  | some lw =>
    obtain ⟨led, w⟩ := lw
    rw [h1] at hall
    simp only [Option.any_some, Bool.and_eq_true, decide_eq_true_eq] at hall
    obtain ⟨⟨⟨a1, a2⟩, a3⟩, a4⟩ := hall
    obtain ⟨dn, hd, hdt⟩ := at_elim a3
    obtain ⟨xn, hx, hxt⟩ := at_elim a4
    have V := Visitor.acts pageActs _ led { w := World.empty, ptr := fun _ _ => none } w .start h1
    have hw : 0 < led 0 ∧ IsType w 0 .document := ⟨a1, dn, hd, of_decide_eq_true hdt⟩
    have hs : ∀ y, some (2 : NodeId) = some y → 0 < led y ∧ IsType w y .element := fun y hy => by cases hy; exact ⟨a2, xn, hx, of_decide_eq_true hxt⟩
    have V1 := Visitor.done (.set .script 0 (some 2)) V ⟨hw.1, hw.2, hs⟩
      (p' := { w := w, ptr := fun t e => if t = .script ∧ e = 0 then some 2 else none }) (r := .owned none)
      (by show setSpot _ _ _ _ = _; unfold setSpot onPages getNode; dsimp only; rw [hd])
    exact ⟨led, _, V1, rfl, a2, hw, hw.1, hw.2, hs⟩

end Dom.Tree
