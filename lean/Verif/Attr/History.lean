import Verif.Attr.Props
/-!
# Histories of attribute calls
-/
namespace Dom.Attr
set_option linter.unusedSimpArgs false

open Dom.Str (DStr Bytes contents)

/-- An attribute call of a client. -/
inductive Op
  | newElem (e : Addr) (el : Elem)
  | newAttr (doc : Addr) (name : DStr) (ns pfx : Option DStr)
  | get (e : Addr) (ns : Option DStr) (name : DStr)
  | has (e : Addr) (ns : Option DStr) (name : DStr)
  | set (e : Addr) (ns : Option DStr) (name : DStr) (v : Option DStr)
  | remove (e : Addr) (ns : Option DStr) (name : DStr)
  | getNode (e : Addr) (ns : Option DStr) (name : DStr)
  | item (e : Addr) (i : Nat)
  | setNode (e : Addr) (ns : Option DStr) (a : Addr)
  | removeNode (e : Addr) (ns : Option DStr) (a : Addr)
  | getValue (a : Addr)
  | setValue (a : Addr) (v : Option DStr)
  | setInteger (a : Addr) (v : Nat)
  | setShort (a : Addr) (v : Nat)
  | markReadonly (a : Addr)
  | hold (a : Addr)
  | release (a : Addr)

/-- Forget the result of a call. -/
def void {α : Type} (m : M α) : M Unit := do
  let _ ← m
  pure ()

/-- A new element without attributes. -/
def putElem (e : Addr) (el : Elem) : M Unit := fun s =>
  .ok { s with elems := fun j => if j = e then some { el with attributes := none, classes := [] } else s.elems j } ()

/-- What the call does. -/
def Op.run : Op → M Unit
  | .newElem e el => putElem e el
  | .newAttr doc name ns pfx => void (attrCreate doc name ns pfx true)
  | .get e ns name => void (getAttr e ns name)
  | .has e ns name => void (hasAttr e ns name)
  | .set e ns name v => setAttr e ns name v
  | .remove e ns name => removeAttr e ns name
  | .getNode e ns name => void (getAttrNode e ns name)
  | .item e i => void (mapItem e i)
  | .setNode e ns a => void (setAttrNode e ns a)
  | .removeNode e ns a => void (removeAttrNode e ns a)
  | .getValue a => void (Attr.getValue a)
  | .setValue a v => Attr.setValue a v
  | .setInteger a v => Attr.setInteger a v
  | .setShort a v => Attr.setShort a v
  | .markReadonly a => Attr.markReadonly a
  | .hold a => refAttr a
  | .release a => unrefAttr a

/-- The attribute `a` can be installed at `e`: it is not in use there, the entry it replaces is not the first one of the list
and is listed under exactly the key used, and a class attribute has a value. -/
def Installable (s : Mem) (ls : Addr → List Addr) (e : Addr) (ns : Option DStr) (a : Addr) : Prop :=
  ∀ n, s.attrs a = some n → n.parent ≠ some e ∧ (isClass ns n.name = true → valueOf n ≠ none) ∧
    ∀ en, lookup (view s (ls e)) ns n.name = some en → (view s (ls e)).head? ≠ some en ∧ (ns = none → en.ns = none)

/-- What the client has to respect: it uses elements and attributes that are there, releases what it holds, and -
limits that the code does not check - see `Installable`, an index below 2^32-1, and setting the value of an attribute node only
while it is in use. -/
def Op.Fair (s : Mem) (ls : Addr → List Addr) : Op → Prop
  | .newElem e _ => s.elems e = none
  | .newAttr _ _ _ _ => True
  | .get e _ _ | .has e _ _ | .set e _ _ _ | .remove e _ _ | .getNode e _ _ => s.elems e ≠ none
  | .item e i => s.elems e ≠ none ∧ i < 4294967295
  | .setNode e ns a => s.elems e ≠ none ∧ s.attrs a ≠ none ∧ Installable s ls e ns a
  | .removeNode e _ a => s.elems e ≠ none ∧ s.attrs a ≠ none
  | .getValue a | .markReadonly a | .hold a | .setInteger a _ | .setShort a _ => s.attrs a ≠ none
  | .setValue a _ => ∃ n p, s.attrs a = some n ∧ n.parent = some p ∧ s.elems p ≠ none
  | .release a => ∃ n, s.attrs a = some n ∧ n.refcnt ≠ 0

/-- Well-formed lists with unique keys. -/
structure Good (s : Mem) (ls : Addr → List Addr) : Prop where
  inv : Inv s ls
  keys : ∀ e, Unique (view s (ls e))

/-- The memory before the first call. -/
def Blank (s : Mem) : Prop := (∀ c, s.cells c = none) ∧ (∀ a, s.attrs a = none) ∧ (∀ e, s.elems e = none)

/-- The memories that fair calls lead to; a call that fails with an exception also counts. -/
inductive Reach : Mem → Prop
  | start {s} : Blank s → Reach s
  | step {s s'} {ls : Addr → List Addr} (op : Op) : Reach s → Inv s ls → op.Fair s ls → (op.run s = .ok s' () ∨ ∃ er, op.run s = .exc s' er) → Reach s'

section
variable {s s' : Mem} {ls ls' : Addr → List Addr} {e a c h : Addr} {el el1 : Elem} {n m : ANode} {x : Cell} {ns : Option DStr} {name : DStr}
  {pre suf : List Addr} {en : Entry} {b : Bytes}

theorem Good.of_view (hI : Inv s' ls) (hg : Good s ls) (hv : s'.cells = s.cells) : Good s' ls :=
  ⟨hI, fun e => by
    have : view s' (ls e) = view s (ls e) := view_congr fun c _ => by rw [hv]
    rw [this]; exact hg.keys e⟩

/-- The lists belonging to a memory are determined by it. -/
theorem Inv.unique (h1 : Inv s ls) (h2 : Inv s ls') : ls = ls' := by
  funext e
  cases he : s.elems e with
  | none => rw [h1.gone he, h2.gone he]
  | some el =>
    have hd : (ls e).head? = (ls' e).head? := by rw [← h1.head he, ← h2.head he]
    -- both follow `next` from the head
    have key : ∀ (k : Nat) (l l' : List Addr) (hh : Addr) (p p' : List Addr), ls e = p ++ l → ls' e = p' ++ l' → (ls e).head? = some hh → l.head? = l'.head? →
        l.length ≤ k → p ≠ [] ∨ p' ≠ [] ∨ True → l = l' := by
      intro k
      induction k with
      | zero =>
        intro l l' hh p p' _ _ _ hd hk _
        have : l = [] := List.length_eq_zero_iff.1 (by omega)
        subst this
        cases l' with
        | nil => rfl
        | cons y t => simp at hd
      | succ k ih =>
        intro l l' hh p p' hl hl' hhd hd hk _
        cases l with
        | nil =>
          cases l' with
          | nil => rfl
          | cons y t => simp at hd
        | cons c t =>
          cases l' with
          | nil => simp at hd
          | cons c' t' =>
            simp at hd
            subst hd
            have hr1 := h1.ring e
            have hr2 := h2.ring e
            obtain ⟨q, hq⟩ : ∃ q, ls e = hh :: q := by
              cases hls : ls e with
              | nil => rw [hls] at hhd; simp at hhd
              | cons y q => rw [hls] at hhd; simp at hhd; exact ⟨q, by rw [hhd]⟩
            obtain ⟨q', hq'⟩ : ∃ q, ls' e = hh :: q := by
              have h0 : (ls' e).head? = some hh := by rw [← h2.head he, h1.head he, hhd]
              cases hls : ls' e with
              | nil => rw [hls] at h0; simp at h0
              | cons y q => rw [hls] at h0; simp at h0; exact ⟨q, by rw [h0]⟩
            rw [hq] at hr1; rw [hq'] at hr2
            obtain ⟨x1, hx1, hn1⟩ := hr1.next (pre := p) (c := c) (suf := t) (by rw [← hq, hl])
            obtain ⟨x2, hx2, hn2⟩ := hr2.next (pre := p') (c := c) (suf := t') (by rw [← hq', hl'])
            rw [hx1] at hx2; injection hx2 with hx2; subst hx2
            have hnn : t.head?.getD hh = t'.head?.getD hh := by rw [← hn1, ← hn2]
            have hnotin : ∀ (L : List Addr) (P T : List Addr), L.Nodup → L = P ++ c :: T → L.head? = some hh → hh ∉ T := by
              intro L P T hnd hL hH hin
              rw [hL] at hnd hH
              cases P with
              | nil => simp at hH; subst hH; simp at hnd; exact hnd.1 hin
              | cons y P => simp at hH; subst hH; simp at hnd; exact hnd.1.2.2 hin
            have ht := hnotin (ls e) p t (h1.nodup e) hl hhd
            have ht' := hnotin (ls' e) p' t' (h2.nodup e) hl' (by rw [hq']; rfl)
            have : t = t' := by
              apply ih t t' hh (p ++ [c]) (p' ++ [c]) (by rw [hl]; simp) (by rw [hl']; simp) hhd _ (by simp at hk; omega) (by simp)
              cases t with
              | nil =>
                cases t' with
                | nil => rfl
                | cons y t' => simp at hnn; subst hnn; simp at ht'
              | cons y t =>
                cases t' with
                | nil => simp at hnn; subst hnn; simp at ht
                | cons y' t' => simpa using hnn
            rw [this]
    cases hls : ls e with
    | nil =>
      rw [hls] at hd
      cases hls' : ls' e with
      | nil => rfl
      | cons y t => rw [hls'] at hd; simp at hd
    | cons hh q =>
      have := key (ls e).length (ls e) (ls' e) hh [] [] rfl rfl (by rw [hls]; rfl) hd (Nat.le_refl _) (by simp)
      rw [← hls, this]

theorem void_ok {α : Type} {m : M α} {r : α} (h : m s = .ok s' r) : void m s = .ok s' () := by
  unfold void; rw [bind_ok h]; rfl
theorem void_exc {α : Type} {m : M α} {er : Exc} (h : m s = .exc s' er) : void m s = .exc s' er := by
  unfold void; rw [bind_exc h]

/-- An attribute that has a type keeps it. -/
def Keeps (s s' : Mem) : Prop := ∀ a n n', s.attrs a = some n → s'.attrs a = some n' → n.type ≠ .unset → n'.type = n.type

theorem Keeps.same (h : s'.attrs = s.attrs) : Keeps s s' := by
  intro a n n' h1 h2 _
  rw [h, h1] at h2
  injection h2 with h2
  rw [h2]

theorem Keeps.one (hat : ∀ j, j ≠ a → s'.attrs j = s.attrs j) (hn : s.attrs a = some n)
    (h : ∀ n', s'.attrs a = some n' → n.type ≠ .unset → n'.type = n.type) : Keeps s s' := by
  intro b m m' h1 h2 h3
  by_cases hb : b = a
  · subst hb
    rw [hn] at h1
    injection h1 with h1
    subst h1
    exact h m' h2 h3
  · rw [hat b hb, h1] at h2
    injection h2 with h2
    rw [h2]

theorem Keeps.set {n' : ANode} (hn : s.attrs a = some n) (h : n.type ≠ .unset → n'.type = n.type) : Keeps s (s.setA a n') := by
  refine Keeps.one (a := a) (fun j hj => by simp [hj]) hn ?_
  intro m hm ht
  simp at hm
  rw [← hm]
  exact h ht

theorem settle_type : n.type ≠ .unset → (settle n).type = n.type := by
  intro h
  unfold settle
  split
  · rfl
  · rw [if_neg (fun hh => h hh.1)]

theorem string_type (ht : n.typed = false) (h : n.type ≠ .unset) : AType.string = n.type := by
  unfold ANode.typed at ht
  cases hh : n.type <;> simp_all

/-- A call ends with or without an exception in a good memory. -/
def Ends (m : M Unit) (s : Mem) : Prop := ∃ s' ls', (m s = .ok s' () ∨ ∃ er, m s = .exc s' er) ∧ Good s' ls' ∧ Keeps s s'

theorem Unique.append {l : List Entry} (hu : Unique l) (h : ∀ k ∈ l, k.key ≠ en.key) : Unique (l ++ [en]) := by
  unfold Unique at *
  rw [List.map_append, List.nodup_append]
  refine ⟨hu, by simp, ?_⟩
  intro x hx y hy
  simp at hy
  obtain ⟨k, hk, rfl⟩ := List.mem_map.1 hx
  rw [hy]
  exact h k hk

theorem Unique.sub {l l' : List Entry} (hu : Unique l) (h : l'.Sublist l) : Unique l' := List.Nodup.sublist (h.map _) hu

theorem not_fits_key (h : ¬ Fits ns name en) : en.key ≠ (ns.map DStr.data, name.data) := by
  intro hk
  apply h
  unfold Entry.key at hk
  injection hk with h1 h2
  refine ⟨?_, h2.symm⟩
  intro n hn
  rw [Option.mem_def.1 hn] at h1
  cases hen : en.ns with
  | none => rw [hen] at h1; simp at h1
  | some m => rw [hen] at h1; simp at h1; exact ⟨m, rfl, h1.symm⟩

theorem ends_set (hg : Good s ls) (he : s.elems e ≠ none) (v : Option DStr) : Ends (setAttr e ns name v) s := by
  obtain ⟨el, he⟩ := Option.ne_none_iff_exists'.1 he
  cases hname : Names.validateAttributeName (some name) with
  | false =>
    refine ⟨s, ls, Or.inr ⟨.invalidCharacter, ?_⟩, hg, Keeps.same rfl⟩
    unfold setAttr
    rw [hname]
    rfl
  | true =>
    cases hro : el.ro with
    | true =>
      refine ⟨s, ls, Or.inr ⟨.noModificationAllowed, ?_⟩, hg, Keeps.same rfl⟩
      unfold setAttr
      rw [hname]
      simp only [Bool.not_true]
      rw [throwIf_false, getElem_bind he, hro]
      rfl
    | false =>
      cases hl : lookup (view s (ls e)) ns name with
      | none =>
        obtain ⟨s', c, hrun, hI', hA, hat, _⟩ := setAttr_new hg.inv he hro v hname hl
        refine ⟨s', _, Or.inl hrun, ⟨hI', ?_⟩, ?_⟩
        on_goal 2 =>
          intro a n n' h1 h2 _
          have hne : a ≠ s.fresh := by
            intro h0
            have := hg.inv.bndA h1
            rw [h0] at this
            exact Nat.lt_irrefl _ this
          rw [hat] at h2
          simp [hne, h1] at h2
          rw [h2]
        intro j
        rw [hA.view hg.inv j]
        by_cases hj : j = e
        · subst hj
          rw [if_pos rfl]
          refine (hg.keys j).append ?_
          intro k hk
          exact not_fits_key (lookup_none hl k hk)
        · rw [if_neg hj]; exact hg.keys j
      | some en =>
        obtain ⟨hmem, _⟩ := lookup_mem hl
        obtain ⟨c, x, n, _, _, _, hn, _⟩ := view_mem hg.inv hmem
        by_cases hw : n.readOnly = true ∨ n.typed = true
        · obtain ⟨old, hrun⟩ := setAttr_refused hg.inv he hro v hname hl hn hw
          refine ⟨_, ls, Or.inr ⟨_, hrun⟩, Good.of_view ?_ hg rfl, Keeps.set hn settle_type⟩
          exact (hg.inv.setA hn (settle_fields).1).addLog _
        · simp only [not_or, Bool.not_eq_true] at hw
          obtain ⟨old, _, hrun⟩ := setAttr_existing hg.inv he hro v hname hl hn hw.1 hw.2
          refine ⟨_, ls, Or.inl hrun, Good.of_view ?_ hg rfl, Keeps.set (n' := withValue n v) hn (string_type hw.2)⟩
          exact (hg.inv.setA (n' := withValue n v) hn rfl).addLog _

theorem ends_remove (hg : Good s ls) (he : s.elems e ≠ none) : Ends (removeAttr e ns name) s := by
  obtain ⟨el, he⟩ := Option.ne_none_iff_exists'.1 he
  cases hro : el.ro with
  | true =>
    refine ⟨s, ls, Or.inr ⟨.noModificationAllowed, ?_⟩, hg, Keeps.same rfl⟩
    unfold removeAttr
    rw [getElem_bind he, hro]
    rfl
  | false =>
    cases hl : lookup (view s (ls e)) ns name with
    | none => exact ⟨s, ls, Or.inl (removeAttr_none hg.inv he hro hl), hg, Keeps.same rfl⟩
    | some en =>
      obtain ⟨s', n, pre, suf, hrun, hn, _, hI', hsplit, _, hv, hat, _⟩ := removeAttr_some hg.inv he hro hl
      refine ⟨s', _, Or.inl hrun, ⟨hI', ?_⟩, ?_⟩
      on_goal 2 =>
        refine Keeps.one (a := en.attr) (fun j hj => by rw [hat]; simp [hj]) hn ?_
        intro n' h2 ht
        rw [hat] at h2
        simp [leftover] at h2
        rw [← h2.2]
        exact settle_type ht
      intro j
      rw [hv j]
      by_cases hj : j = e
      · subst hj
        rw [if_pos rfl]
        refine (hg.keys j).sub ?_
        rw [hsplit]
        exact (List.Sublist.refl _).append (List.sublist_cons_self _ _)
      · rw [if_neg hj]; exact hg.keys j

theorem nodeName_ok (n : ANode) : ∃ nm, nodeName n = .ok nm := by
  unfold nodeName
  cases n.pfx with
  | none => exact ⟨_, rfl⟩
  | some p => exact ⟨_, rfl⟩

theorem ends_removeNode (hg : Good s ls) (he : s.elems e ≠ none) (ha : s.attrs a ≠ none) : Ends (void (removeAttrNode e ns a)) s := by
  obtain ⟨el, he⟩ := Option.ne_none_iff_exists'.1 he
  obtain ⟨n, hn⟩ := Option.ne_none_iff_exists'.1 ha
  obtain ⟨nm, hnm⟩ := nodeName_ok n
  cases hro : el.ro with
  | true =>
    refine ⟨s, ls, Or.inr ⟨.noModificationAllowed, void_exc ?_⟩, hg, Keeps.same rfl⟩
    unfold removeAttrNode
    rw [getElem_bind he, hro]
    rfl
  | false =>
    by_cases hf : ∀ en, lookup (view s (ls e)) ns nm = some en → en.attr ≠ a
    · exact ⟨s, ls, Or.inr ⟨_, void_exc (removeAttrNode_refused hg.inv he hro hn hnm hf)⟩, hg, Keeps.same rfl⟩
    · push Not at hf
      obtain ⟨en, hl, hen⟩ := hf
      obtain ⟨s', pre, suf, hrun, hI', _, hsplit, hv, hat, _⟩ := removeAttrNode_found hg.inv he hro hn hnm hl hen
      refine ⟨s', _, Or.inl (void_ok hrun), ⟨hI', ?_⟩, ?_⟩
      on_goal 2 =>
        refine Keeps.one (a := a) (fun j hj => by rw [hat]; simp [hj]) hn ?_
        intro n' h2 ht
        rw [hat] at h2
        simp at h2
        rw [← h2]
        exact settle_type ht
      intro j
      rw [hv j]
      by_cases hj : j = e
      · subst hj
        rw [if_pos rfl]
        refine (hg.keys j).sub ?_
        rw [hsplit]
        exact (List.Sublist.refl _).append (List.sublist_cons_self _ _)
      · rw [if_neg hj]; exact hg.keys j

theorem ends_setNode (hg : Good s ls) (he : s.elems e ≠ none) (ha : s.attrs a ≠ none) (hi : Installable s ls e ns a) :
    Ends (void (setAttrNode e ns a)) s := by
  obtain ⟨el, he⟩ := Option.ne_none_iff_exists'.1 he
  obtain ⟨n, hn⟩ := Option.ne_none_iff_exists'.1 ha
  obtain ⟨hi1, hi2, hi3⟩ := hi n hn
  by_cases hr : n.owner ≠ el.owner ∨ el.ro = true ∨ (n.parent ≠ none ∧ n.parent ≠ some e)
  · exact ⟨s, ls, Or.inr ⟨_, void_exc (setAttrNode_refused he hn hr)⟩, hg, Keeps.same rfl⟩
  · simp only [not_or, ne_eq, not_not, Bool.not_eq_true] at hr
    obtain ⟨ho, hro, hp⟩ := hr
    have hp : n.parent = none := by
      by_contra hne
      exact hp ⟨hne, hi1⟩
    obtain ⟨b, hb⟩ : ∃ b, isClass ns n.name = true → valueOf n = some b := by
      cases hv : valueOf n with
      | some b => exact ⟨b, fun _ => rfl⟩
      | none => exact ⟨[], fun hc => absurd hv (hi2 hc)⟩
    cases hl : lookup (view s (ls e)) ns n.name with
    | none =>
      obtain ⟨s', c, hrun, hI', hA, hat⟩ := setAttrNode_new hg.inv he hro hn ho hp hl hb
      refine ⟨s', _, Or.inl (void_ok hrun), ⟨hI', ?_⟩, ?_⟩
      on_goal 2 =>
        refine Keeps.one (a := a) (fun j hj => by rw [hat]; simp [hj]) hn ?_
        intro n' h2 ht
        rw [hat] at h2
        simp at h2
        rw [← h2]
        exact settle_type ht
      intro j
      rw [hA.view hg.inv j]
      by_cases hj : j = e
      · subst hj
        rw [if_pos rfl]
        refine (hg.keys j).append ?_
        intro k hk
        exact not_fits_key (lookup_none hl k hk)
      · rw [if_neg hj]; exact hg.keys j
    | some en =>
      obtain ⟨hf1, hf2⟩ := hi3 en hl
      obtain ⟨s', m, pre, suf, c, hrun, hI', hm, _, hne, hsplit, _, hfit, hv, hat, _⟩ := setAttrNode_replace hg.inv he hro hn ho hp hl hf1 hb
      refine ⟨s', _, Or.inl (void_ok hrun), ⟨hI', ?_⟩, ?_⟩
      on_goal 2 =>
        intro j k k' h1 h2 ht
        rw [hat] at h2
        by_cases hja : j = a
        · subst hja
          rw [hn] at h1
          injection h1 with h1
          subst h1
          simp at h2
          rw [← h2]
          exact settle_type ht
        · by_cases hje : j = en.attr
          · subst hje
            rw [hm] at h1
            injection h1 with h1
            subst h1
            simp [hja] at h2
            rw [← h2]
            exact settle_type ht
          · simp [hja, hje, h1] at h2
            rw [h2]
      intro j
      rw [hv j]
      by_cases hj : j = e
      · subst hj
        rw [if_pos rfl]
        have hku := hg.keys j
        rw [hsplit] at hku
        refine Unique.append (hku.sub ((List.Sublist.refl _).append (List.sublist_cons_self _ _))) ?_
        intro k hk hkey
        have henk : en.key = (ns.map DStr.data, n.name.data) := by
          obtain ⟨h1, h2⟩ := hfit
          unfold Entry.key
          rw [← h2]
          cases hns : ns with
          | none => rw [hf2 hns]
          | some q =>
            obtain ⟨m', hm', hd⟩ := h1 q (by rw [hns]; rfl)
            rw [Option.mem_def.1 hm']; simp [hd]
        have hkk : k.key = en.key := by rw [hkey, henk]; rfl
        unfold Unique at hku
        rw [List.map_append, List.map_cons, List.nodup_append, List.nodup_cons] at hku
        simp at hk
        rcases hk with hk | hk
        · exact hku.2.2 k.key (List.mem_map_of_mem hk) en.key (by simp) hkk
        · exact hku.2.1.1 (hkk ▸ List.mem_map_of_mem hk)
      · rw [if_neg hj]; exact hg.keys j

theorem claim_run (hn : s.attrs a = some n) (t : AType) : claimType a t s =
    if n.type = .unset ∨ n.type = t then .ok (s.setA a { n with type := t }) () else .exc s .attrWrongType := by
  unfold claimType
  rw [getANode_bind hn]
  by_cases hu : n.type = .unset
  · rw [if_pos hu, modANode_bind hn, getANode_bind (n := { n with type := t }) (by simp), if_pos (Or.inl hu)]
    simp [throwIf]
    rfl
  · rw [if_neg hu, pure_bind', getANode_bind hn]
    by_cases ht : n.type = t
    · rw [if_pos (Or.inr ht)]
      have : ({ n with type := t } : ANode) = n := by cases n; simp_all
      rw [this, setA_self hn]
      simp [throwIf, ht]
      rfl
    · rw [if_neg (by tauto)]
      simp [throwIf, ht]
      rfl

theorem typedEvents_run (hn : s.attrs a = some n) : ∃ l, typedEvents a s = .ok (s.addLog l) () := by
  unfold typedEvents
  rw [getANode_bind hn]
  cases n.parent with
  | none => exact ⟨[.subtree a], rfl⟩
  | some e => exact ⟨[.attrModified e none none a none .modification] ++ [.subtree a], by
      simp only []
      rw [fire_bind, fire_run]
      simp [Mem.addLog]⟩

theorem claim_type {t : AType} (h : n.type = .unset ∨ n.type = t) (hu : n.type ≠ .unset) : t = n.type := by
  rcases h with h | h
  · exact absurd h hu
  · exact h.symm

/-- The shape shared by the typed setters of numbers. -/
theorem ends_typed (hg : Good s ls) (hn : s.attrs a = some n) (t : AType) (k v : Nat) : Ends (do
    claimType a t
    let n ← getANode a
    if n.raw % k = v then pure () else do
      modANode a fun n => { n with raw := v }
      typedEvents a) s := by
  have hc := claim_run hn t
  by_cases ht : n.type = .unset ∨ n.type = t
  · rw [if_pos ht] at hc
    have hg1 : Good (s.setA a { n with type := t }) ls := Good.of_view (hg.inv.setA (n' := { n with type := t }) hn rfl) hg rfl
    by_cases hr : n.raw % k = v
    · refine ⟨_, ls, Or.inl ?_, hg1, Keeps.set (n' := { n with type := t }) hn (claim_type ht)⟩
      rw [bind_ok hc, getANode_bind (n := { n with type := t }) (by simp), if_pos hr]
      rfl
    · have hn2 : (s.setA a { n with type := t, raw := v }).attrs a = some { n with type := t, raw := v } := by simp
      obtain ⟨l, hl⟩ := typedEvents_run hn2
      refine ⟨_, ls, Or.inl ?_, Good.of_view ((hg.inv.setA (n' := { n with type := t, raw := v }) hn rfl).addLog l) hg rfl, Keeps.set (n' := { n with type := t, raw := v }) hn (claim_type ht)⟩
      rw [bind_ok hc, getANode_bind (n := { n with type := t }) (by simp), if_neg hr, modANode_bind (n := { n with type := t }) (by simp), setA_setA]
      exact hl
  · rw [if_neg ht] at hc
    exact ⟨s, ls, Or.inr ⟨_, bind_exc hc _⟩, hg, Keeps.same rfl⟩

/-- Every fair call ends in a good memory: no fault, whatever came before. -/
theorem fair_ends (hg : Good s ls) (op : Op) (hf : op.Fair s ls) : Ends op.run s := by
  cases op with
  | newElem e el =>
    refine ⟨_, ls, Or.inl rfl, Good.of_view ⟨?_, ?_, ?_, hg.inv.nodup, hg.inv.disj, hg.inv.own, hg.inv.inj, hg.inv.bndC, hg.inv.bndA⟩ hg rfl, Keeps.same rfl⟩
    · intro j el' hj
      by_cases hje : j = e
      · subst hje
        simp at hj
        rw [← hj, hg.inv.gone hf]; rfl
      · simp [hje] at hj; exact hg.inv.head hj
    · intro j hj
      by_cases hje : j = e
      · subst hje; simp at hj
      · simp [hje] at hj; exact hg.inv.gone hj
    · intro j; exact (hg.inv.ring j).congr fun _ _ => rfl
  | newAttr doc name ns pfx =>
    refine ⟨_, ls, Or.inl (void_ok rfl), Good.of_view ?_ hg rfl, ?_⟩
    on_goal 2 =>
      intro a n n' h1 h2 _
      have hne : a ≠ s.fresh := by
        intro h0
        have := hg.inv.bndA h1
        rw [h0] at this
        exact Nat.lt_irrefl _ this
      simp [hne, h1] at h2
      rw [h2]
    refine hg.inv.keep rfl (fun _ => rfl) ?_ (Nat.le_succ _) ?_
    · intro a n p hn hp
      have : a ≠ s.fresh := by
        intro h0
        have := hg.inv.bndA hn
        rw [h0] at this
        exact Nat.lt_irrefl _ this
      exact ⟨n, by simp [this, hn], hp⟩
    · intro a n hn
      by_cases ha : a = s.fresh
      · rw [ha]; exact Nat.lt_succ_self _
      · simp [ha] at hn; exact Nat.lt_succ_of_lt (hg.inv.bndA hn)
  | get e ns name =>
    obtain ⟨el, he⟩ := Option.ne_none_iff_exists'.1 hf
    cases hl : lookup (view s (ls e)) ns name with
    | none => exact ⟨s, ls, Or.inl (void_ok (getAttr_none hg.inv he hl)), hg, Keeps.same rfl⟩
    | some en =>
      obtain ⟨n, h1, h2, h3⟩ := getAttr_some hg.inv he hl
      have hgood : Good (s.setA en.attr (settle n)) ls := Good.of_view (hg.inv.setA h1 (settle_fields).1) hg rfl
      cases hv : valueOf n with
      | none => rw [hv] at h3; exact ⟨_, ls, Or.inr ⟨_, void_exc h3⟩, hgood, Keeps.set h1 settle_type⟩
      | some b =>
        rw [hv] at h3
        obtain ⟨v, h3, _⟩ := h3
        exact ⟨_, ls, Or.inl (void_ok h3), hgood, Keeps.set h1 settle_type⟩
  | has e ns name =>
    obtain ⟨el, he⟩ := Option.ne_none_iff_exists'.1 hf
    exact ⟨s, ls, Or.inl (void_ok (hasAttr_run hg.inv he)), hg, Keeps.same rfl⟩
  | set e ns name v => exact ends_set hg hf v
  | remove e ns name => exact ends_remove hg hf
  | getNode e ns name =>
    obtain ⟨el, he⟩ := Option.ne_none_iff_exists'.1 hf
    have := getAttrNode_run (ns := ns) (name := name) hg.inv he
    cases hl : lookup (view s (ls e)) ns name with
    | none => rw [hl] at this; exact ⟨s, ls, Or.inl (void_ok this), hg, Keeps.same rfl⟩
    | some en =>
      rw [hl] at this
      obtain ⟨n, h1, h2⟩ := this
      exact ⟨_, ls, Or.inl (void_ok h2), Good.of_view (hg.inv.setA (n' := { n with refcnt := n.refcnt + 1 }) h1 rfl) hg rfl, Keeps.set (n' := { n with refcnt := n.refcnt + 1 }) h1 (fun _ => rfl)⟩
  | item e i =>
    obtain ⟨el, he⟩ := Option.ne_none_iff_exists'.1 hf.1
    have := mapItem_run (i := i) hg.inv he hf.2
    cases hl : (view s (ls e))[i]? with
    | none => rw [hl] at this; exact ⟨s, ls, Or.inl (void_ok this), hg, Keeps.same rfl⟩
    | some en =>
      rw [hl] at this
      obtain ⟨n, h1, h2⟩ := this
      exact ⟨_, ls, Or.inl (void_ok h2), Good.of_view (hg.inv.setA (n' := { n with refcnt := n.refcnt + 1 }) h1 rfl) hg rfl, Keeps.set (n' := { n with refcnt := n.refcnt + 1 }) h1 (fun _ => rfl)⟩
  | setNode e ns a => exact ends_setNode hg hf.1 hf.2.1 hf.2.2
  | removeNode e ns a => exact ends_removeNode hg hf.1 hf.2
  | getValue a =>
    obtain ⟨n, hn⟩ := Option.ne_none_iff_exists'.1 hf
    have hgood : Good (s.setA a (settle n)) ls := Good.of_view (hg.inv.setA hn (settle_fields).1) hg rfl
    have := getValue_run hn
    cases hv : valueOf n with
    | none => rw [hv] at this; exact ⟨_, ls, Or.inr ⟨_, void_exc this⟩, hgood, Keeps.set hn settle_type⟩
    | some b =>
      rw [hv] at this
      obtain ⟨v, h3, _⟩ := this
      exact ⟨_, ls, Or.inl (void_ok h3), hgood, Keeps.set hn settle_type⟩
  | setValue a v =>
    obtain ⟨n, p, hn, hp, hel⟩ := hf
    obtain ⟨el, hel⟩ := Option.ne_none_iff_exists'.1 hel
    by_cases hw : n.readOnly = true ∨ n.typed = true
    · exact ⟨s, ls, Or.inr ⟨_, setValue_refused hn hw⟩, hg, Keeps.same rfl⟩
    · simp only [not_or, Bool.not_eq_true] at hw
      exact ⟨_, ls, Or.inl (setValue_run hn hw.1 hw.2 hp hel), Good.of_view (hg.inv.setA (n' := { n with type := .string, kids := [.text v], specified := true }) hn rfl) hg rfl, Keeps.set (n' := { n with type := .string, kids := [.text v], specified := true }) hn (string_type hw.2)⟩
  | setInteger a v =>
    obtain ⟨n, hn⟩ := Option.ne_none_iff_exists'.1 hf
    exact ends_typed hg hn .integer 4294967296 v
  | setShort a v =>
    obtain ⟨n, hn⟩ := Option.ne_none_iff_exists'.1 hf
    exact ends_typed hg hn .short 65536 v
  | markReadonly a =>
    obtain ⟨n, hn⟩ := Option.ne_none_iff_exists'.1 hf
    exact ⟨_, ls, Or.inl (modANode_run hn _), Good.of_view (hg.inv.setA (n' := { n with readOnly := true }) hn rfl) hg rfl, Keeps.set (n' := { n with readOnly := true }) hn (fun _ => rfl)⟩
  | hold a =>
    obtain ⟨n, hn⟩ := Option.ne_none_iff_exists'.1 hf
    exact ⟨_, ls, Or.inl (modANode_run hn _), Good.of_view (hg.inv.setA (n' := { n with refcnt := n.refcnt + 1 }) hn rfl) hg rfl, Keeps.set (n' := { n with refcnt := n.refcnt + 1 }) hn (fun _ => rfl)⟩
  | release a =>
    obtain ⟨n, hn, hr⟩ := hf
    cases hp : n.parent with
    | some p =>
      exact ⟨_, ls, Or.inl (unrefAttr_keep hn (by rw [hp]; simp) hr), Good.of_view (hg.inv.setA (n' := { n with refcnt := n.refcnt - 1 }) hn rfl) hg rfl, Keeps.set (n' := { n with refcnt := n.refcnt - 1 }) hn (fun _ => rfl)⟩
    | none =>
      refine ⟨_, ls, Or.inl (unrefAttr_gone hn hp hr), Good.of_view (hg.inv.keep rfl (fun _ => rfl) ?_ (Nat.le_refl _) ?_) hg rfl, ?_⟩
      on_goal 3 =>
        refine Keeps.one (a := a) (fun j hj => by simp [hj]) hn ?_
        intro n' h2 _
        simp at h2
        rw [← h2.2]
      · intro b m q hb hq
        have hba : b ≠ a := by
          intro h0; subst h0; rw [hn] at hb; injection hb with hb; subst hb; rw [hp] at hq; cases hq
        exact ⟨m, by simp [hba, hb], hq⟩
      · intro b m hb
        by_cases hba : b = a
        · subst hba; exact hg.inv.bndA hn
        · simp [hba] at hb; exact hg.inv.bndA hb

theorem Blank.good (h : Blank s) : Good s fun _ => [] where
  inv := {
    head := fun he => by rw [h.2.2] at he; cases he
    gone := fun _ => rfl
    ring := fun _ => by unfold Ring; trivial
    nodup := fun _ => List.nodup_nil
    disj := fun hc => by simp at hc
    own := fun hc => by simp at hc
    inj := fun hc => by simp at hc
    bndC := fun hc => by rw [h.1] at hc; cases hc
    bndA := fun hc => by rw [h.2.1] at hc; cases hc }
  keys := fun _ => List.nodup_nil

theorem Reach.good (h : Reach s) : ∃ ls, Good s ls := by
  induction h with
  | start h => exact ⟨_, h.good⟩
  | @step s s' ls op hr hI hf hrun ih =>
    obtain ⟨ls0, hg⟩ := ih
    have := hI.unique hg.inv
    subst this
    obtain ⟨s1, ls1, h1, hg1, _⟩ := fair_ends hg op hf
    refine ⟨ls1, ?_⟩
    have : s1 = s' := by
      rcases h1 with h1 | ⟨er, h1⟩ <;> rcases hrun with h2 | ⟨er', h2⟩ <;> rw [h1] at h2 <;> injection h2
    exact this ▸ hg1

end
end Dom.Attr
