import Verif.Tree.Model
/-!
# Reasoning about the heap programs

Total-correctness triples: `wp m Q E w` says that running `m` in `w` does not run into undefined behaviour,
ends in a state satisfying `Q` if it returns normally, and in one satisfying `E` if it returns an exception.
-/
namespace Dom.Tree

/-- Weakest precondition. -/
def wp {α : Type} (m : M α) (Q : α → World → Prop) (E : Exc → World → Prop) (w : World) : Prop :=
  match m w with
  | .ok w' a => Q a w'
  | .exc w' e => E e w'
  | .fault _ => False

/-- The world with node `i` replaced. -/
def World.upd (w : World) (i : NodeId) (n : Node) : World :=
  { w with nodes := fun j => if j = i then some n else w.nodes j }

@[simp] theorem upd_fresh (w : World) (i n) : (w.upd i n).fresh = w.fresh := rfl
@[simp] theorem upd_log (w : World) (i n) : (w.upd i n).log = w.log := rfl
theorem upd_nodes (w : World) (i n j) :
    (w.upd i n).nodes j = if j = i then some n else w.nodes j := rfl
@[simp] theorem upd_same (w : World) (i n) : (w.upd i n).nodes i = some n := by simp [upd_nodes]
theorem upd_ne (w : World) {i j : NodeId} (n) (h : j ≠ i) : (w.upd i n).nodes j = w.nodes j := by
  simp [upd_nodes, h]

variable {α β : Type}

theorem pure_run (a : α) (w : World) : (pure a : M α) w = .ok w a := rfl

theorem bind_run (m : M α) (f : α → M β) (w : World) :
    (m >>= f) w = match m w with
      | .ok w' a => f a w'
      | .exc w' e => .exc w' e
      | .fault g => .fault g := rfl

theorem bind_ok {m : M α} {w w' : World} {a : α} (h : m w = .ok w' a) (f : α → M β) :
    (m >>= f) w = f a w' := by rw [bind_run, h]

theorem bind_exc {m : M α} {w w' : World} {e : Exc} (h : m w = .exc w' e) (f : α → M β) :
    (m >>= f) w = .exc w' e := by rw [bind_run, h]

theorem bind_fault {m : M α} {w : World} {g : Fault} (h : m w = .fault g) (f : α → M β) :
    (m >>= f) w = .fault g := by rw [bind_run, h]

theorem getNode_run {w : World} {i : NodeId} {n : Node} (h : w.nodes i = some n) :
    getNode i w = .ok w n := by simp [getNode, h]

theorem modNode_run {w : World} {i : NodeId} {n : Node} (h : w.nodes i = some n) (f : Node → Node) :
    modNode i f w = .ok (w.upd i (f n)) () := by simp [modNode, h, World.upd]

theorem deref_run (i : NodeId) (w : World) : deref (some i) w = .ok w i := rfl
theorem deref_none (w : World) : deref none w = .fault .nullDeref := rfl
theorem cassert_run (w : World) : cassert true w = .ok w () := rfl
theorem cassert_false (w : World) : cassert false w = .fault .assertFail := rfl
theorem bound_run (w : World) : bound w = .ok w (w.fresh + 1) := rfl
theorem throw_run (e : Exc) (w : World) : (M.throw e : M α) w = .exc w e := rfl

theorem get_bind {w : World} {i : NodeId} {n : Node} (h : w.nodes i = some n) (f : Node → M β) :
    (getNode i >>= f) w = f n w := bind_ok (getNode_run h) f

theorem mod_bind {w : World} {i : NodeId} {n : Node} (h : w.nodes i = some n) (g : Node → Node)
    (f : Unit → M β) : (modNode i g >>= f) w = f () (w.upd i (g n)) := bind_ok (modNode_run h g) f

theorem deref_bind (i : NodeId) (f : NodeId → M β) (w : World) :
    (deref (some i) >>= f) w = f i w := rfl
theorem cassert_bind (f : Unit → M β) (w : World) : (cassert true >>= f) w = f () w := rfl
theorem bound_bind (f : Nat → M β) (w : World) : (bound >>= f) w = f (w.fresh + 1) w := rfl
theorem pure_bind' (a : α) (f : α → M β) (w : World) : ((pure a : M α) >>= f) w = f a w := rfl
theorem throw_bind (e : Exc) (f : α → M β) (w : World) :
    ((M.throw e : M α) >>= f) w = .exc w e := rfl

theorem throwIf_false (e : Exc) (f : Unit → M β) (w : World) : (throwIf false e >>= f) w = f () w := rfl
theorem throwIf_true (e : Exc) (f : Unit → M β) (w : World) : (throwIf true e >>= f) w = .exc w e := rfl

theorem wp_of_ok {m : M α} {w w' : World} {a : α} {Q E} (h : m w = .ok w' a) (hq : Q a w') : wp m Q E w := by
  simpa [wp, h] using hq

theorem wp_bind (m : M α) (f : α → M β) (Q E) (w : World) :
    wp (m >>= f) Q E w ↔ wp m (fun a w' => wp (f a) Q E w') E w := by
  unfold wp; rw [bind_run]; cases m w <;> rfl

theorem wp_mono {m : M α} {Q Q' E E'} {w : World} (h : wp m Q E w)
    (hq : ∀ a w', Q a w' → Q' a w') (he : ∀ e w', E e w' → E' e w') : wp m Q' E' w := by
  unfold wp at *; revert h; cases m w <;> simp <;> intro h
  · exact hq _ _ h
  · exact he _ _ h

end Dom.Tree
