import Verif.Tree.Walk
/-!
# Worlds obtained by changing node records pointwise
-/
namespace Dom.Tree
set_option linter.unusedSimpArgs false

/-- `w` with every live record changed by `g` and the events `l` appended to the log. -/
def World.mp (w : World) (g : NodeId → Node → Node) (l : List Ev) : World :=
  { nodes := fun j => (w.nodes j).map (g j), fresh := w.fresh, log := w.log ++ l }

variable {w : World} {ch : Children} {β : Type}

@[simp] theorem mp_fresh (g l) : (w.mp g l).fresh = w.fresh := rfl
@[simp] theorem mp_log (g l) : (w.mp g l).log = w.log ++ l := rfl
theorem mp_nodes (g l j) : (w.mp g l).nodes j = (w.nodes j).map (g j) := rfl

theorem mp_some {j : NodeId} {n : Node} (h : w.nodes j = some n) (g l) :
    (w.mp g l).nodes j = some (g j n) := by simp [mp_nodes, h]

theorem mp_id (w : World) : w.mp (fun _ n => n) [] = w := by
  cases w; simp [World.mp]

@[simp] theorem mp_addLog (g l l') : (w.mp g l).addLog l' = w.mp g (l ++ l') := by
  simp [World.mp, World.addLog]

theorem mp_congr {g g' : NodeId → Node → Node} (l) (h : ∀ j n, w.nodes j = some n → g j n = g' j n) :
    w.mp g l = w.mp g' l := by
  unfold World.mp
  congr 1
  funext j
  cases hj : w.nodes j with
  | none => rfl
  | some n => simp [h j n hj]

/-- Change the record at `i` on top of `g`. -/
def setAt (i : NodeId) (h : Node → Node) (g : NodeId → Node → Node) : NodeId → Node → Node :=
  fun j n => if j = i then h (g j n) else g j n

theorem mp_upd {i : NodeId} {n : Node} (hi : w.nodes i = some n) (g l) (h : Node → Node) :
    (w.mp g l).upd i (h (g i n)) = w.mp (setAt i h g) l := by
  unfold World.upd World.mp setAt
  congr 1
  funext j
  by_cases hj : j = i
  · subst hj; simp [hi]
  · simp [hj]

theorem mp_get_bind {i : NodeId} {n : Node} (hi : w.nodes i = some n) (g l) (f : Node → M β) :
    (getNode i >>= f) (w.mp g l) = f (g i n) (w.mp g l) := get_bind (mp_some hi g l) f

theorem mp_mod_run {i : NodeId} {n : Node} (hi : w.nodes i = some n) (g l) (h : Node → Node) :
    modNode i h (w.mp g l) = .ok (w.mp (setAt i h g) l) () := by
  rw [modNode_run (mp_some hi g l), mp_upd hi]

theorem mp_mod_bind {i : NodeId} {n : Node} (hi : w.nodes i = some n) (g l) (h : Node → Node)
    (f : Unit → M β) : (modNode i h >>= f) (w.mp g l) = f () (w.mp (setAt i h g) l) :=
  bind_ok (mp_mod_run hi g l h) f

theorem setAt_parent (i : NodeId) (v) (g : NodeId → Node → Node) :
    setAt i (fun n => { n with parent := v }) g =
      fun j n => { g j n with parent := if j = i then v else (g j n).parent } := by
  funext j n; unfold setAt; split <;> rfl
theorem setAt_prev (i : NodeId) (v) (g : NodeId → Node → Node) :
    setAt i (fun n => { n with prev := v }) g =
      fun j n => { g j n with prev := if j = i then v else (g j n).prev } := by
  funext j n; unfold setAt; split <;> rfl
theorem setAt_next (i : NodeId) (v) (g : NodeId → Node → Node) :
    setAt i (fun n => { n with next := v }) g =
      fun j n => { g j n with next := if j = i then v else (g j n).next } := by
  funext j n; unfold setAt; split <;> rfl
theorem setAt_first (i : NodeId) (v) (g : NodeId → Node → Node) :
    setAt i (fun n => { n with first := v }) g =
      fun j n => { g j n with first := if j = i then v else (g j n).first } := by
  funext j n; unfold setAt; split <;> rfl
theorem setAt_last (i : NodeId) (v) (g : NodeId → Node → Node) :
    setAt i (fun n => { n with last := v }) g =
      fun j n => { g j n with last := if j = i then v else (g j n).last } := by
  funext j n; unfold setAt; split <;> rfl
theorem setAt_pending (i : NodeId) (v) (g : NodeId → Node → Node) :
    setAt i (fun n => { n with pendingIn := v }) g =
      fun j n => { g j n with pendingIn := if j = i then v else (g j n).pendingIn } := by
  funext j n; unfold setAt; split <;> rfl
theorem setAt_owner (i : NodeId) (v) (g : NodeId → Node → Node) :
    setAt i (fun n => { n with owner := v }) g =
      fun j n => { g j n with owner := if j = i then v else (g j n).owner } := by
  funext j n; unfold setAt; split <;> rfl
theorem setAt_ref (i : NodeId) (g : NodeId → Node → Node) :
    setAt i (fun n => { n with refcnt := u32 (n.refcnt + 1) }) g =
      fun j n => { g j n with refcnt := if j = i then u32 ((g j n).refcnt + 1) else (g j n).refcnt } := by
  funext j n; unfold setAt; split <;> rfl

/-- Effect of `linkFwd` on the record at `j`. -/
def fwdRec (o : Option NodeId) (q : NodeId) (v : Option NodeId) (j : NodeId) (n : Node) : Node :=
  { n with
    next := if o = some j then v else n.next
    first := if j = q ∧ o = none then v else n.first }

/-- Effect of `linkBack` on the record at `j`. -/
def backRec (o : Option NodeId) (q : NodeId) (v : Option NodeId) (j : NodeId) (n : Node) : Node :=
  { n with
    prev := if o = some j then v else n.prev
    last := if j = q ∧ o = none then v else n.last }

theorem linkFwd_run {o v : Option NodeId} {q : NodeId} {qn : Node} (hq : w.nodes q = some qn)
    (ho : ∀ p, o = some p → ∃ n, w.nodes p = some n) (g l) :
    linkFwd o (some q) v (w.mp g l) = .ok (w.mp (fun j n => fwdRec o q v j (g j n)) l) () := by
  cases o with
  | none =>
    simp only [linkFwd]; rw [deref_bind, mp_mod_run hq, setAt_first]
    congr 2; funext j n; simp [fwdRec]
  | some p =>
    obtain ⟨n, hn⟩ := ho p rfl
    simp only [linkFwd]; rw [mp_mod_run hn, setAt_next]
    congr 2; funext j n; simp [fwdRec, eq_comm]

theorem linkBack_run {o v : Option NodeId} {q : NodeId} {qn : Node} (hq : w.nodes q = some qn)
    (ho : ∀ p, o = some p → ∃ n, w.nodes p = some n) (g l) :
    linkBack o (some q) v (w.mp g l) = .ok (w.mp (fun j n => backRec o q v j (g j n)) l) () := by
  cases o with
  | none =>
    simp only [linkBack]; rw [deref_bind, mp_mod_run hq, setAt_last]
    congr 2; funext j n; simp [backRec]
  | some p =>
    obtain ⟨n, hn⟩ := ho p rfl
    simp only [linkBack]; rw [mp_mod_run hn, setAt_prev]
    congr 2; funext j n; simp [backRec, eq_comm]

theorem LocAt.mp {y : NodeId} (hl : LocAt w ch y) {g : NodeId → Node → Node} {l : List Ev}
    (hself : ∀ n, w.nodes y = some n → (g y n).first = n.first ∧ (g y n).last = n.last)
    (hkids : ∀ c ∈ ch y, ∀ n, w.nodes c = some n → (g c n).type = n.type ∧ (g c n).parent = n.parent ∧
      (g c n).prev = n.prev ∧ (g c n).next = n.next) : LocAt (w.mp g l) ch y := by
  obtain ⟨n, hn, h1, h2⟩ := hl.ends
  refine ⟨⟨g y n, mp_some hn g l, ?_, ?_⟩, ?_, hl.nodup⟩
  · rw [(hself n hn).1, h1]
  · rw [(hself n hn).2, h2]
  · intro a c b hab
    obtain ⟨m, hm, h3, h4, h5, h6⟩ := hl.kids a c b hab
    obtain ⟨e1, e2, e3, e4⟩ := hkids c (by simp [hab]) m hm
    exact ⟨g c m, mp_some hm g l, by rw [e1]; exact h3, by rw [e2]; exact h4, by rw [e3]; exact h5,
      by rw [e4]; exact h6⟩

end Dom.Tree
